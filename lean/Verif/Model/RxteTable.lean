import Verif.Model.Missions

/-!
# The calibration table of the RXTE PCA, `stingray/mission_support/rxte.py` 137-293
-/

namespace Stingray.Missions

/-- The columns `Abs` and `E1`, `E2`, `E3`, `E4`, `E5_0`, `E5_1234` of the table, `stingray/mission_support/rxte.py` 140-268, in
hundredths of keV (the column `STD2` is not used). -/
def pcaTable : List (String × List Nat) :=
  [("0-4", [151, 161, 194, 213, 195, 206]),
   ("5", [176, 191, 229, 254, 238, 247]),
   ("6", [202, 222, 264, 296, 281, 287]),
   ("7", [227, 252, 299, 337, 324, 328]),
   ("8", [253, 283, 335, 379, 367, 368]),
   ("9", [278, 313, 370, 421, 409, 409]),
   ("10", [304, 344, 405, 463, 453, 449]),
   ("11", [330, 375, 441, 504, 496, 490]),
   ("12", [355, 405, 476, 546, 539, 531]),
   ("13", [381, 436, 512, 588, 582, 571]),
   ("14", [407, 467, 547, 630, 625, 612]),
   ("15", [432, 498, 582, 672, 668, 653]),
   ("16", [458, 528, 618, 714, 711, 694]),
   ("17", [484, 559, 654, 756, 755, 735]),
   ("18", [510, 590, 689, 798, 798, 776]),
   ("19", [535, 621, 725, 840, 842, 817]),
   ("20", [561, 652, 760, 882, 885, 857]),
   ("21", [587, 683, 796, 924, 928, 898]),
   ("22", [613, 714, 832, 967, 972, 940]),
   ("23", [639, 745, 868, 1009, 1016, 981]),
   ("24", [665, 776, 903, 1051, 1059, 1022]),
   ("25", [691, 807, 939, 1093, 1103, 1063]),
   ("26", [717, 838, 975, 1136, 1147, 1104]),
   ("27", [743, 869, 1011, 1178, 1190, 1145]),
   ("28", [769, 900, 1047, 1221, 1234, 1187]),
   ("29", [795, 931, 1083, 1263, 1278, 1228]),
   ("30", [821, 963, 1119, 1306, 1322, 1269]),
   ("31", [847, 994, 1155, 1348, 1366, 1311]),
   ("32", [873, 1025, 1191, 1391, 1410, 1352]),
   ("33", [899, 1056, 1227, 1434, 1454, 1393]),
   ("34", [925, 1088, 1263, 1476, 1498, 1435]),
   ("35", [952, 1119, 1299, 1519, 1542, 1476]),
   ("36", [978, 1150, 1336, 1562, 1586, 1518]),
   ("37", [1004, 1182, 1372, 1605, 1630, 1560]),
   ("38", [1030, 1213, 1408, 1647, 1674, 1601]),
   ("39", [1057, 1245, 1444, 1690, 1719, 1643]),
   ("40", [1083, 1276, 1481, 1733, 1763, 1685]),
   ("41", [1109, 1308, 1517, 1776, 1807, 1726]),
   ("42", [1136, 1339, 1554, 1819, 1852, 1768]),
   ("43", [1162, 1371, 1590, 1862, 1896, 1810]),
   ("44", [1189, 1403, 1626, 1905, 1941, 1852]),
   ("45", [1215, 1434, 1663, 1949, 1985, 1894]),
   ("46", [1242, 1466, 1700, 1992, 2030, 1936]),
   ("47", [1268, 1498, 1736, 2035, 2075, 1978]),
   ("48", [1295, 1529, 1773, 2078, 2119, 2020]),
   ("49", [1321, 1561, 1809, 2122, 2164, 2062]),
   ("50", [1348, 1593, 1846, 2165, 2209, 2104]),
   ("51", [1374, 1625, 1883, 2208, 2254, 2146]),
   ("52", [1401, 1657, 1920, 2252, 2298, 2188]),
   ("53", [1428, 1689, 1956, 2295, 2343, 2230]),
   ("54-5", [1481, 1752, 2030, 2382, 2433, 2315]),
   ("56-7", [1535, 1816, 2104, 2470, 2524, 2400]),
   ("58-9", [1588, 1881, 2178, 2557, 2614, 2485]),
   ("60-1", [1642, 1945, 2252, 2645, 2705, 2570]),
   ("62-3", [1696, 2009, 2326, 2733, 2795, 2655]),
   ("64-5", [1750, 2074, 2401, 2821, 2886, 2740]),
   ("66-7", [1804, 2139, 2475, 2909, 2978, 2826]),
   ("68-9", [1858, 2203, 2550, 2997, 3069, 2912]),
   ("70-1", [1912, 2268, 2625, 3086, 3161, 2997]),
   ("72-3", [1967, 2333, 2700, 3174, 3252, 3083]),
   ("74-5", [2021, 2399, 2775, 3263, 3344, 3170]),
   ("76-7", [2076, 2464, 2850, 3352, 3436, 3256]),
   ("78-9", [2130, 2529, 2926, 3442, 3529, 3343]),
   ("80-1", [2185, 2595, 3002, 3531, 3621, 3429]),
   ("82-3", [2240, 2661, 3077, 3621, 3714, 3516]),
   ("84-5", [2295, 2727, 3153, 3710, 3807, 3603]),
   ("86-7", [2350, 2793, 3229, 3800, 3901, 3691]),
   ("88-9", [2406, 2859, 3306, 3891, 3994, 3778]),
   ("90-1", [2461, 2925, 3382, 3981, 4088, 3866]),
   ("92-3", [2517, 2991, 3459, 4072, 4182, 3953]),
   ("94-5", [2572, 3058, 3535, 4162, 4276, 4041]),
   ("96-7", [2628, 3125, 3612, 4253, 4370, 4130]),
   ("98-9", [2684, 3192, 3689, 4344, 4464, 4218]),
   ("100-1", [2740, 3259, 3767, 4436, 4559, 4306]),
   ("102-3", [2796, 3326, 3844, 4527, 4654, 4395]),
   ("104-5", [2852, 3393, 3922, 4619, 4749, 4484]),
   ("106-7", [2909, 3461, 3999, 4711, 4845, 4573]),
   ("108-9", [2965, 3528, 4077, 4803, 4941, 4662]),
   ("110-1", [3022, 3596, 4155, 4896, 5036, 4752]),
   ("112-3", [3079, 3664, 4234, 4988, 5133, 4841]),
   ("114-5", [3136, 3732, 4312, 5081, 5229, 4931]),
   ("116-7", [3193, 3800, 4391, 5174, 5325, 5021]),
   ("118-9", [3250, 3868, 4470, 5267, 5422, 5112]),
   ("120-1", [3307, 3937, 4549, 5361, 5519, 5202]),
   ("122-3", [3364, 4006, 4628, 5454, 5617, 5293]),
   ("124-5", [3422, 4074, 4707, 5548, 5714, 5383]),
   ("126-7", [3480, 4143, 4787, 5642, 5812, 5474]),
   ("128-9", [3538, 4213, 4866, 5737, 5910, 5566]),
   ("130-1", [3595, 4282, 4946, 5831, 6008, 5657]),
   ("132-3", [3654, 4351, 5026, 5926, 6107, 5749]),
   ("134-5", [3712, 4421, 5106, 6021, 6206, 5840]),
   ("136-8", [3799, 4526, 5227, 6164, 6354, 5978]),
   ("139-41", [3887, 4631, 5348, 6307, 6504, 6117]),
   ("142-4", [3975, 4736, 5470, 6451, 6654, 6256]),
   ("145-7", [4064, 4842, 5592, 6595, 6804, 6396]),
   ("148-50", [4153, 4949, 5714, 6740, 6955, 6536]),
   ("151-3", [4242, 5055, 5837, 6886, 7107, 6676]),
   ("154-6", [4332, 5162, 5960, 7032, 7259, 6817]),
   ("157-9", [4421, 5270, 6084, 7178, 7412, 6959]),
   ("160-2", [4512, 5378, 6208, 7325, 7565, 7101]),
   ("163-5", [4602, 5486, 6333, 7473, 7719, 7243]),
   ("166-8", [4693, 5595, 6458, 7621, 7874, 7386]),
   ("169-71", [4784, 5704, 6584, 7770, 8030, 7530]),
   ("172-4", [4876, 5813, 6710, 7919, 8186, 7674]),
   ("175-7", [4968, 5923, 6837, 8069, 8343, 7818]),
   ("178-80", [5060, 6033, 6964, 8220, 8500, 7963]),
   ("181-3", [5153, 6144, 7091, 8371, 8658, 8109]),
   ("184-6", [5246, 6255, 7219, 8523, 8817, 8255]),
   ("187-9", [5339, 6367, 7348, 8675, 8976, 8402]),
   ("190-2", [5433, 6479, 7477, 8828, 9137, 8549]),
   ("193-5", [5527, 6592, 7607, 8981, 9298, 8697]),
   ("196-8", [5622, 6705, 7737, 9136, 9459, 8846]),
   ("199-201", [5717, 6818, 7868, 9291, 9622, 8995]),
   ("202-4", [5812, 6932, 7999, 9446, 9785, 9145]),
   ("205-7", [5908, 7047, 8130, 9602, 9949, 9295]),
   ("208-10", [6004, 7162, 8263, 9759, 10114, 9446]),
   ("211-3", [6100, 7277, 8396, 9917, 10279, 9597]),
   ("214-6", [6197, 7393, 8529, 10075, 10446, 9749]),
   ("217-9", [6295, 7510, 8663, 10234, 10613, 9902]),
   ("220-2", [6393, 7627, 8798, 10393, 10781, 10055]),
   ("223-5", [6491, 7744, 8933, 10554, 10950, 10209]),
   ("226-8", [6590, 7862, 9069, 10715, 11119, 10364]),
   ("229-31", [6689, 7981, 9205, 10876, 11290, 10519]),
   ("232-4", [6789, 8100, 9342, 11039, 11461, 10675]),
   ("235-7", [6889, 8220, 9480, 11202, 11633, 10832]),
   ("238-41", [7023, 8380, 9664, 11421, 11865, 11042]),
   ("242-5", [7158, 8542, 9850, 11641, 12097, 11253]),
   ("246-9", [7294, 8704, 10037, 11863, 12332, 11465]),
   ("250-5", [7499, 8950, 10319, 12198, 12687, 11786])]

/-- The rows of the table: the channels split (line 272) and the energies. -/
def pcaRows : Except PyErr (List ((Nat × Nat) × List Nat)) :=
  pcaTable.mapM fun r => do
    let c ← splitChan '-' r.1.toList
    .ok (c, r.2)

/-- The columns for detector 0 and for the others, lines 274-279: there is no column `E0` or `E6`. -/
def pcaColumns (idx : Nat) : Except PyErr (Nat × Nat) :=
  if idx = 5 then .ok (4, 5)
  else if idx = 0 ∨ 5 < idx then .error .keyError
  else .ok (idx - 1, idx - 1)

/-- `pca_calibration_func`, `stingray/mission_support/rxte.py` 100-293: the energy, in hundredths of keV, of a channel in a
detector. `edges` are the epochs of lines 11-20. Simplification: channels are natural numbers. -/
def pcaCalibration {K : Type} [LinearOrder K] (edges : List K) (epoch : K) : Except PyErr (Nat → Nat → Except PyErr Nat) := do
  let rows ← pcaRows
  let cols ← pcaColumns (epochIndex edges epoch)
  let e0 := steps (rows.map fun r => (r.1, r.2.getD cols.1 0))
  let e1234 := steps (rows.map fun r => (r.1, r.2.getD cols.2 0))
  .ok fun chan det =>
    match (if det = 0 then e0 else e1234)[chan]? with
    | some e => .ok e
    | none => .error .indexError

end Stingray.Missions

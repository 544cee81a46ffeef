import Verif.Model.Basic
import Mathlib.Algebra.Order.Field.Basic

/-!
# Missions: `stingray/mission_support/missions.py`, `stingray/mission_support/rxte.py`, and the keys in `stingray/io.py`

Strings are lists of characters. `low` is `str.lower`.
-/

namespace Stingray.Missions

abbrev Str := List Char

mutual
/-- A value of the database: the words after a key (a single one is a string, several are a list), or a dictionary. -/
inductive Val where
  | leaf (words : List Str)
  | dict (d : Dict)
/-- A dictionary, in the order of insertion. -/
inductive Dict where
  | nil
  | cons (k : Str) (v : Val) (d : Dict)
end

/-- `d.get(k)` -/
def Dict.get (k : Str) : Dict → Option Val
  | .nil => none
  | .cons k' v d => if k' = k then some v else d.get k

/-- `d[k] = v` -/
def Dict.set (k : Str) (v : Val) : Dict → Dict
  | .nil => .cons k v .nil
  | .cons k' v' d => if k' = k then .cons k' v d else .cons k' v' (d.set k v)

/-- `d.pop(k)`, for a key that is there -/
def Dict.pop (k : Str) : Dict → Dict
  | .nil => .nil
  | .cons k' v d => if k' = k then d.pop k else .cons k' v (d.pop k)

/-- `d.update(e)` -/
def Dict.update (d : Dict) : Dict → Dict
  | .nil => d
  | .cons k v e => Dict.update (d.set k v) e

mutual
/-- the values of `make_dictionary_lowercase(..., recursive=True)`, `stingray/utils.py` 173-176. -/
def lowerVal (low : Str → Str) : Val → Val
  | .leaf w => .leaf w
  | .dict d => .dict (lowerInto low d .nil)
/-- the loop of `make_dictionary_lowercase(..., recursive=True)`, `stingray/utils.py` 172-178, with the dictionary being made. -/
def lowerInto (low : Str → Str) : Dict → Dict → Dict
  | .nil, acc => acc
  | .cons k v d, acc => lowerInto low d (acc.set (low k) (lowerVal low v))
end

/-- `make_dictionary_lowercase(d, recursive=True)`, `stingray/utils.py` 150-180. -/
def lowerDict (low : Str → Str) (d : Dict) : Dict := lowerInto low d .nil

/-- `if name in filt_info: filt_info.update(filt_info[name]); filt_info.pop(name)`, `stingray/io.py` 284-293.
Simplification: updating with something that is not a dictionary is always a `ValueError`. -/
def enter (low : Str → Str) (name : Option Str) (d : Dict) : Except PyErr Dict :=
  match name with
  | none => .ok d
  | some i =>
    match d.get (low i) with
    | none => .ok d
    | some (.dict e) => .ok ((d.update e).pop (low i))
    | some (.leaf _) => .error .valueError

/-- `get_key_from_mission_info`, `stingray/io.py` 236-297; `none` stands for the default. -/
def getKey (low : Str → Str) (info : Dict) (key : Str) (inst mode : Option Str) : Except PyErr (Option Val) := do
  let d ← enter low inst (lowerDict low info)
  let d ← enter low mode d
  .ok (d.get (low key))

/-- `str.strip`, with `sp` telling white space. -/
def strip (sp : Char → Bool) (s : Str) : Str := ((s.dropWhile sp).reverse.dropWhile sp).reverse

/-- `str.split(c)`: the pieces between the characters that satisfy `p`. -/
def pieces (p : Char → Bool) : Str → List Str
  | [] => [[]]
  | c :: s =>
    if p c then [] :: pieces p s
    else
      match pieces p s with
      | [] => [[c]]
      | w :: ws => (c :: w) :: ws

/-- `str.split()` -/
def words (sp : Char → Bool) (s : Str) : List Str := (pieces sp s).filter fun w => !w.isEmpty

/-- `previous_db_step[...]...[data[-1]] = value`, `stingray/mission_support/missions.py` 123-128: dictionaries are made on the way.
Without a key the last one is an `IndexError`; a string or a list on the way is a `TypeError`. -/
def Dict.setPath (v : Val) : List Str → Dict → Except PyErr Dict
  | [], _ => .error .indexError
  | [k], d => .ok (d.set k v)
  | k :: k' :: p, d =>
    match d.get k with
    | none => do
      let e ← Dict.setPath v (k' :: p) .nil
      .ok (d.set k (.dict e))
    | some (.dict e) => do
      let e ← Dict.setPath v (k' :: p) e
      .ok (d.set k (.dict e))
    | some (.leaf _) => .error .typeError

/-- One line of the database, lines 105-128; with no mission, a line with one name makes an empty dictionary before it fails. -/
def readLine (low : Str → Str) (sp : Char → Bool) (mission : Option Str) (db : Dict) (line : Str) : Except PyErr Dict :=
  let line := strip sp line
  let other := match mission with
    | none => false
    | some m => !(m.isPrefixOf (low line))
  if other then .ok db
  else if (['!'].isPrefixOf line) || line.isEmpty then .ok db
  else
    let w := words sp line
    let data := pieces (fun c => c == ':') (w.headD [])
    let v := Val.leaf w.tail
    match mission with
    | none => if data.tail.isEmpty then .error .indexError else db.setPath v data
    | some _ => db.setPath v data.tail

/-- All the lines. -/
def readLines (low : Str → Str) (sp : Char → Bool) (mission : Option Str) : Dict → List Str → Except PyErr Dict
  | db, [] => .ok db
  | db, l :: ls => do
    let db ← readLine low sp mission db l
    readLines low sp mission db ls

/-- `_patch_mission_info`, `stingray/mission_support/missions.py` 66-88.
Simplification: the string added to a `gti` that is not a single string is a `TypeError`. -/
def patch (low : Str → Str) (mission : Option Str) (info : Dict) : Except PyErr Dict :=
  match mission with
  | none => .ok info
  | some m =>
    let xte (d : Dict) : Dict :=
      if low m = "xte".toList ∧ (d.get "ecol".toList).isSome then
        (d.set "ecol".toList (.leaf ["PHA".toList])).set "ccol".toList (.leaf ["PCUID".toList])
      else d
    if low m = "xmm".toList then
      match info.get "gti".toList with
      | none => .ok (xte info)
      | some (.leaf [g]) => .ok (xte (info.set "gti".toList (.leaf [g ++ ",GTI0".toList])))
      | some _ => .error .typeError
    else .ok (xte info)

/-- `read_mission_info`, `stingray/mission_support/missions.py` 91-129, for the lines of the file. -/
def readMissionInfo (low : Str → Str) (sp : Char → Bool) (mission : Option Str) (lines : List Str) : Except PyErr Dict := do
  let mission := mission.map low
  let db ← readLines low sp mission .nil lines
  patch low mission db

section Calibration

variable {K : Type} [Field K]

/-- `rough_calibration`, `stingray/mission_support/missions.py` 22-63. -/
def roughCalibration (low : Str → Str) (mission : Str) (pi : K) : Except PyErr K :=
  if low mission = "nustar".toList then .ok (pi * (4 / 100) + 162 / 100)
  else if low mission = "xmm".toList then .ok (pi * (1 / 1000))
  else if low mission = "nicer".toList then .ok (pi * (1 / 100))
  else if low mission = "ixpe".toList then .ok (pi / 375 * 15)
  else .error .valueError

/-- `SIMPLE_CONVERSION_FUNCTIONS`, `stingray/mission_support/missions.py` 139-145. -/
def simpleConversion (name : Str) : Option (K → K) :=
  if name = "nustar".toList then some fun pi => pi * (4 / 100) + 162 / 100
  else if name = "xmm".toList then some fun pi => pi * (1 / 1000)
  else if name = "nicer".toList then some fun pi => pi * (1 / 100)
  else if name = "ixpe".toList then some fun pi => pi / 375 * 15
  else if name = "axaf".toList then some fun pi => (pi - 1) * (146 / 10000)
  else none

/-- `get_rough_conversion_function`, `stingray/mission_support/missions.py` 151-181: `pca` is the calibration of the PCA at the
epoch, as a function of the channel and the detector; the simple functions ignore the detector. -/
def conversion (low : Str → Str) (pca : Except PyErr (K → Nat → Except PyErr K)) (mission : Str) (instrument : Option Str) :
    Except PyErr (K → Nat → Except PyErr K) :=
  match simpleConversion (low mission) with
  | some f => .ok fun pi _ => .ok (f pi)
  | none =>
    if low mission = "xte".toList then
      match instrument with
      | none => .error .attributeError
      | some i => if low i = "pca".toList then pca else .error .valueError
    else .error .valueError

end Calibration

/-! ## Channels of the RXTE PCA -/

/-- `int(s)` for digits only. Simplification: no signs, spaces or underscores. -/
def toInt (s : Str) : Except PyErr Nat :=
  if s.isEmpty then .error .valueError
  else s.foldlM (fun n c => if c.isDigit then .ok (n * 10 + (c.toNat - '0'.toNat)) else .error .valueError) 0

/-- `_split_chan_spec`, `stingray/mission_support/rxte.py` 23-49 (`s[:-0]` is empty). -/
def splitChan (sep : Char) (chan : Str) : Except PyErr (Nat × Nat) := do
  let cs := if chan.contains sep then pieces (fun c => c == sep) chan else [chan, chan]
  let a := cs.getD 0 []
  let b := cs.getD 1 []
  let b := if b.length < a.length then (if b.length = 0 then [] else a.take (a.length - b.length)) ++ b else b
  let x ← toInt a
  let y ← toInt b
  .ok (x, y)

/-- `_split_C_string`, `stingray/mission_support/rxte.py` 52-62. -/
def splitC (sep : Char) (s : Str) : Except PyErr (List (Nat × Nat)) :=
  if s.contains ':' then do
    let r := pieces (fun c => c == ':') s
    let a ← toInt (r.getD 0 [])
    let b ← toInt (r.getD 1 [])
    .ok ((List.range (b + 1 - a)).map fun i => (a + i, a + i))
  else (pieces (fun c => c == ',') s).mapM (splitChan sep)

/-- `energies[a:b+1] = e` for each row, over `np.zeros(256)`, `stingray/mission_support/rxte.py` 282-286. -/
def steps {K : Type} [Zero K] (rows : List ((Nat × Nat) × K)) : List K :=
  rows.foldl (fun acc r => acc.zipIdx.map fun x => if r.1.1 ≤ x.2 ∧ x.2 ≤ r.1.2 then r.2 else x.1) (List.replicate 256 0)

/-- The number of edges before the epoch: `np.searchsorted(_EDGE_EPOCHS, epoch)`, line 274. -/
def epochIndex {K : Type} [LinearOrder K] (edges : List K) (epoch : K) : Nat := (edges.takeWhile fun e => decide (e < epoch)).length

/-- `local_chans[p]`, `stingray/mission_support/rxte.py` 372-375: the mean of the channels of the group (`int` truncates);
`IndexError` beyond the groups. Simplification: channels in the data are not negative. -/
def localChannel (chans : List (Nat × Nat)) (p : Nat) : Except PyErr Nat :=
  match chans[p]? with
  | some c => .ok ((c.1 + c.2) / 2)
  | none => .error .indexError

/-- `local_chans[data["PHA"]]`, `stingray/mission_support/rxte.py` 375. -/
def localChannels (chans : List (Nat × Nat)) (pha : List Nat) : Except PyErr (List Nat) := pha.mapM (localChannel chans)

end Stingray.Missions

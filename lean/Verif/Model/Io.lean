import Verif.Model.Basic
import Mathlib.Algebra.Order.Field.Basic
import Mathlib.Algebra.Order.Floor.Ring
import Mathlib.Algebra.BigOperators.Group.List.Basic

/-!
# Files: `stingray/io.py`

FITS files are not modelled: the table of events is a list of times, a header is a function from keywords, a response file is the list of its channels.
-/

namespace Stingray.Io

variable {K : Type} [Field K] [LinearOrder K] [FloorRing K]

/-! ## Reading part of a file -/

/-- `numpy.linspace(0, size - 1, nedges).astype(int)`, `stingray/io.py` 1211, in exact arithmetic (`nedges` is at least 2). -/
def linspaceIdx (size nedges : Nat) : List Nat := (List.range nedges).map fun i => i * (size - 1) / (nedges - 1)

/-- The number of edges: the argument, lines 1093-1095, and line 1207. -/
def numEdges (size : Nat) (exposure start stop : K) : Nat :=
  min (⌊exposure / (stop - start)⌋.toNat + 2) (size / 10 + 2)

/-- `FITSTimeseriesReader._trace_nphots_in_file`, `stingray/io.py` 1199-1223: the times at the given rows, the first and the last being extended to the edges of the GTIs. -/
def timeEdges (times : List K) (minGti maxGti : K) (idx : List Nat) : List K :=
  let te := idx.map fun i => times.getD i 0
  let te := if minGti < te.headD 0 then te.set 0 minGti else te
  if te.getLastD 0 < maxGti then te.set (te.length - 1) maxGti else te

/-- `FITSTimeseriesReader._get_idx_from_time_range`, `stingray/io.py` 1093-1122, for the given index edges (the cached ones, or new ones). -/
def getIdx (times : List K) (minGti maxGti : K) (idx : List Nat) (start stop : K) : Except PyErr (Nat × Int) :=
  let te := timeEdges times minGti maxGti idx
  let rawMin := searchsortedLeft te start - 2
  let rawMax := min (te.length - 1) (searchsortedRight te stop + 2)
  let lowerRow := idx.getD rawMin 0
  let upperRow := idx.getD rawMax 0
  if ¬ (0 ≤ start - te.getD rawMin 0) then .error .assertionError
  else if ¬ (0 ≤ te.getD rawMax 0 - stop) then .error .assertionError
  else
    let filtered := (times.take (upperRow + 1)).drop lowerRow
    .ok (searchsortedLeft filtered start + lowerRow, (searchsortedLeft filtered stop : Int) - 1 + (lowerRow : Int))

/-- A part of the file: the times of its events and its GTIs. -/
structure Chunk (K : Type) where
  times : List K
  gti : List (K × K)
deriving DecidableEq

/-- What is needed of a reader: the times in the file, `TIMEZERO`, the GTIs in the file. -/
structure Reader (K : Type) where
  times : List K
  timezero : K
  gti : List (K × K)

/-- `self[a:b]` with an output class, `stingray/io.py` 792-797, 809-890: times and GTIs with `timezero` added. -/
def Reader.slice (r : Reader K) (a b : Nat) : Chunk K :=
  { times := ((r.times.take b).drop a).map (· + r.timezero)
    gti := r.gti.map fun g => (g.1 + r.timezero, g.2 + r.timezero) }

/-- `len(a) == len(b) and np.all(np.abs(a.flatten() - b.flatten()) < 1e-3)`, lines 1149-1151. -/
def sameGti (a b : List (K × K)) : Bool :=
  decide (a.length = b.length) &&
    (a.zip b).all fun p => decide (|p.1.1 - p.2.1| < 1 / 1000) && decide (|p.1.2 - p.2.2| < 1 / 1000)

/-- The smallest and largest number in a list of GTIs, `numpy.min(self.gti)`, `numpy.max(self.gti)`. -/
def gtiMin (g : List (K × K)) : K := (g.flatMap fun p => [p.1, p.2]).foldl min (g.headD (0, 0)).1
/-- see `gtiMin` -/
def gtiMax (g : List (K × K)) : K := (g.flatMap fun p => [p.1, p.2]).foldl max (g.headD (0, 0)).1

/-- One turn of the loop of lines 1161-1177, for a non-empty list of GTIs. `edges` gives the rows at which the times are probed. -/
def chunkOf (r : Reader K) (edges : K → K → List Nat) (gti : List (K × K)) : Except PyErr (Chunk K) :=
  let start := (gti.headD (0, 0)).1
  let stop := (gti.getLastD (0, 0)).2
  match getIdx r.times (gtiMin r.gti) (gtiMax r.gti) (edges start stop) start stop with
  | .error e => .error e
  | .ok (lower, upper) => .ok { r.slice lower (upper + 1).toNat with gti := gti }

/-- The loop of lines 1161-1177: empty lists are skipped. -/
def chunksOf (r : Reader K) (edges : K → K → List Nat) : List (List (K × K)) → Except PyErr (List (Chunk K))
  | [] => .ok []
  | gti :: rest =>
    if gti = [] then chunksOf r edges rest
    else
      match chunkOf r edges gti with
      | .error e => .error e
      | .ok c =>
        match chunksOf r edges rest with
        | .error e => .error e
        | .ok cs => .ok (c :: cs)

/-- `FITSTimeseriesReader.apply_gti_lists`, `stingray/io.py` 1124-1177, without output files; exhausting the generator. -/
def applyGtiLists (r : Reader K) (edges : K → K → List Nat) : List (List (K × K)) → Except PyErr (List (Chunk K))
  | [] => .error .indexError
  | first :: rest =>
    if sameGti first r.gti then .ok [r.slice 0 r.times.length]
    else chunksOf r edges (first :: rest)

/-! ## Split numbers -/

/-- `math.modf(x)`: fractional and integral part, both with the sign of `x`. -/
def modf (x : K) : K × K := if 0 ≤ x then (x - ⌊x⌋, ⌊x⌋) else (x - ⌈x⌉, ⌈x⌉)

/-- `split_numbers` of a number, `stingray/io.py` 1399-1442. The rounding to doubles is not modelled. -/
def splitNumber (x : K) (shift : Int) : K × K :=
  let m := modf (x * 10 ^ shift)
  (m.2 / 10 ^ shift, m.1 / 10 ^ shift)

/-- `split_numbers` of an array of floats: the two arrays, and the caller's array afterwards (`number *= 10**shift` on the result of `np.asanyarray` changes it). -/
def splitArray (xs : List K) (shift : Int) : (List K × List K) × List K :=
  let number := xs.map (· * 10 ^ shift)
  ((number.map fun n => (modf n).2 / 10 ^ shift, number.map fun n => (modf n).1 / 10 ^ shift), number)

/-- `high_precision_keyword_read`, `stingray/io.py` 140-176; keywords are lists of characters. -/
def keywordRead (hdr : List Char → Option K) (keyword : List Char) : Option K :=
  match hdr keyword with
  | some v => some v
  | none =>
    let k := if keyword.length = 8 then keyword.take 7 else keyword
    match hdr (k ++ ['I']) with
    | none => none
    | some i =>
      match hdr (k ++ ['F']) with
      | none => none
      | some f => some (i + f)

/-! ## Channels and names -/

/-- One turn of the loop of `pi_to_energy`, `stingray/io.py` 109-113. -/
def piStep (pis : List Int) (es : List K) (row : Int × K × K) : List K :=
  if pis.contains row.1 then
    (pis.zip es).map fun p => if p.1 = row.1 then (row.2.1 + row.2.2) / 2 else p.2
  else es

/-- `pi_to_energy`, `stingray/io.py` 94-115, for the channels `(channel, e_min, e_max)` of the response file. -/
def piToEnergy (cal : List (Int × K × K)) (pis : List Int) : List K :=
  cal.foldl (piStep pis) (pis.map fun _ => 0)

/-- `str.rstrip(c)` for one character -/
def rstrip (c : Char) (s : List Char) : List Char := (s.reverse.dropWhile (· == c)).reverse
/-- `str.lstrip(c)` for one character -/
def lstrip (c : Char) (s : List Char) : List Char := s.dropWhile (· == c)

/-- `common_name`, `stingray/io.py` 1361-1396; strings are lists of characters. -/
def commonName (a b default : List Char) : List Char :=
  if a.length ≠ b.length then default
  else
    let common := (a.zip b).filterMap fun p => if p.2 = p.1 then some p.1 else none
    let common := rstrip '-' (rstrip '_' common)
    let common := lstrip '-' (lstrip '_' common)
    if common = [] then default else common

/-- `_case_insensitive_search_in_list`, `stingray/io.py` 179-191. -/
def searchInList (lower : List Char → List Char) (s : List Char) (l : List (List Char)) : Option (List Char) :=
  l.find? fun t => lower s == lower t

end Stingray.Io

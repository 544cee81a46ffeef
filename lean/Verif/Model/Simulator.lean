import Verif.Model.Basic
import Mathlib.Algebra.Order.Field.Basic
import Mathlib.Algebra.Order.Floor.Ring
import Mathlib.Algebra.BigOperators.Group.List.Basic

/-!
# The simulator: `stingray/simulator/simulator.py`, `stingray/simulator/transfer.py`
-/

namespace Stingray.Simulator

/-! ## Energy channels -/

section Channels

variable {N L : Type} [DecidableEq N] [DecidableEq L]

/-- `simulate_channel`, `stingray/simulator/simulator.py` 173-195: the new list `self.channels`. The light curve (or the exception) that `simulate` gives is a parameter. -/
def simulateChannel (s : List (N × L)) (c : N) (sim : Except PyErr L) : Except PyErr (List (N × L)) :=
  if c ∈ s.map Prod.fst then .error .keyError
  else
    match sim with
    | .error e => .error e
    | .ok l => .ok (s ++ [(c, l)])

/-- `get_channel`, `stingray/simulator/simulator.py` 197-202. -/
def getChannel (s : List (N × L)) (c : N) : Except PyErr L :=
  match (s.filter fun p => decide (p.1 = c)).map Prod.snd with
  | [] => .error .indexError
  | l :: _ => .ok l

/-- `get_channels`, `stingray/simulator/simulator.py` 204-209, with a list of names. -/
def getChannels (s : List (N × L)) (cs : List N) : List L :=
  (s.filter fun p => decide (p.1 ∈ cs)).map Prod.snd

/-- `get_all_channels`, `stingray/simulator/simulator.py` 211-216. -/
def getAllChannels (s : List (N × L)) : List L := s.map Prod.snd

/-- `delete_channel`, `stingray/simulator/simulator.py` 218-229. -/
def deleteChannel (s : List (N × L)) (c : N) : Except PyErr (List (N × L)) :=
  match s.filter fun p => decide (p.1 = c) with
  | [] => .error .keyError
  | p :: _ => .ok (s.eraseIdx (s.idxOf p))

/-- The loop `for i in sorted(indices, reverse=True): del self.channels[i]`. -/
def deleteIndices (s : List (N × L)) (idx : List Nat) : List (N × L) :=
  (idx.insertionSort (fun a b => b ≤ a)).foldl (fun l i => l.eraseIdx i) s

/-- `delete_channels`, `stingray/simulator/simulator.py` 231-245, with a list of names. -/
def deleteChannels (s : List (N × L)) (cs : List N) : Except PyErr (List (N × L)) :=
  let found := s.filter fun p => decide (p.1 ∈ cs)
  if found.length ≠ cs.length then .error .keyError
  else .ok (deleteIndices s (found.map fun p => s.idxOf p))

/-- the operations that change the channels -/
inductive ChanOp (N L : Type) where
  | simulate (c : N) (sim : Except PyErr L)
  | delete (c : N)
  | deleteMany (cs : List N)

/-- one operation -/
def chanStep (s : List (N × L)) : ChanOp N L → Except PyErr (List (N × L))
  | .simulate c sim => simulateChannel s c sim
  | .delete c => deleteChannel s c
  | .deleteMany cs => deleteChannels s cs

/-- a session: an operation that raises leaves the object as it was, and the user carries on -/
def chanRun (s : List (N × L)) : List (ChanOp N L) → List (N × L)
  | [] => s
  | op :: ops =>
    match chanStep s op with
    | .error _ => chanRun s ops
    | .ok s' => chanRun s' ops

end Channels

/-! ## Scaling of the simulated light curve -/

variable {K : Type} [Field K] [LinearOrder K] [FloorRing K]

/-- `numpy.mean` of a non-empty array -/
def mean (l : List K) : K := l.sum / (l.length : K)

/-- `numpy.take(long_lc, range(extract, extract + n))` -/
def takeRange (long : List K) (extract n : Nat) : Except PyErr (List K) :=
  if extract + n ≤ long.length ∨ n = 0 then .ok ((List.range n).map fun i => long.getD (extract + i) 0)
  else .error .indexError

/-- `_extract_and_scale`, `stingray/simulator/simulator.py` 539-570. `std` is `self.std`, the standard deviation of the long light curve (line 377); `extract` is the random integer drawn
between `self.N - 1` and `self.red_noise * self.N - self.N`. -/
def extractAndScale (n redNoise extract : Nat) (meanRate rms std : K) (long : List K) : Except PyErr (List K) :=
  let cut := if redNoise = 1 then .ok long else takeRange long extract n
  match cut with
  | .error e => .error e
  | .ok lc =>
    if meanRate = 0 then .ok (lc.map fun x => (x - mean lc) / std * rms)
    else .ok (lc.map fun x => (x - mean lc) / std * meanRate * rms + meanRate)

/-! ## Impulse responses -/

/-- `scipy.signal.fftconvolve(s, h)`, taken to be the exact full convolution. -/
def convolve (s h : List K) : List K :=
  if s = [] ∨ h = [] then []
  else (List.range (s.length + h.length - 1)).map fun n =>
    ((List.range h.length).map fun j => h.getD j 0 * (if j ≤ n then s.getD (n - j) 0 else 0)).sum

/-- An end of a Python slice of a sequence with `n` elements. -/
def sliceEnd (n : Nat) (i : Int) : Nat := if i < 0 then (i + n).toNat else min i.toNat n

/-- `l[start:stop]` -/
def pySlice (l : List K) (start stop : Int) : List K :=
  (l.take (sliceEnd l.length stop)).drop (sliceEnd l.length start)

/-- The `mode` argument; any string but the first two gives the full convolution. -/
inductive Mode where
  | same | filtered | full

/-- `_simulate_impulse_response`, `stingray/simulator/simulator.py` 502-537: the counts. -/
def impulseResponse (s h : List K) : Mode → List K
  | .same => pySlice (convolve s h) 0 (-((h.length : Int) - 1))
  | .filtered => pySlice (convolve s h) ((h.length : Int) - 1) (-((h.length : Int) - 1))
  | .full => convolve s h

/-- Python's `int` -/
def pyInt (x : K) : Int := if 0 ≤ x then ⌊x⌋ else ⌈x⌉

/-- `simple_ir`, `stingray/simulator/transfer.py` 225-258; negative sizes raise. -/
def simpleIr (dt start width intensity : K) : Except PyErr (List K) :=
  if dt = 0 then .error .zeroDivisionError
  else if pyInt (start / dt) < 0 ∨ pyInt (width / dt) < 0 then .error .valueError
  else .ok (List.replicate (pyInt (start / dt)).toNat 0 ++
    (List.replicate (pyInt (width / dt)).toNat 1).map (· * intensity))

/-! ## Transfer functions -/

/-- `numpy.mean(rows, axis=0)`: NaN (`none`) for no rows. -/
def meanRows (columns : Nat) (rows : List (List K)) : List (Option K) :=
  (List.range columns).map fun j =>
    if rows = [] then none else some (mean (rows.map fun r => r.getD j 0))

/-- `TransferFunction.time_response`, `stingray/simulator/transfer.py` 66-104, for a table with at least 2 rows of the same length, at least 2. -/
def timeResponse (data : List (List K)) (estart de : K) (e0 e1 : Option K) : Except PyErr (List (Option K)) :=
  let columns := (data.headD []).length
  let start : Int := match e0 with
    | none => 0
    | some e => pyInt (estart + e / de)
  let stop : Int := match e1 with
    | none => (columns : Int) - 1
    | some e => pyInt (estart + e / de)
  if start < 0 ∨ stop < 0 then .error .valueError
  else if (columns : Int) < start ∨ (columns : Int) < stop then .error .valueError
  else if start = stop then .error .valueError
  else .ok (meanRows columns ((data.take stop.toNat).drop start.toNat))

/-- `TransferFunction.energy_response`, `stingray/simulator/transfer.py` 106-116. -/
def energyResponse (data : List (List K)) : List K := data.map mean

end Stingray.Simulator

import Verif.Model.Gti

/-!
# Model of `StingrayTimeseries.analyze_segments` and `.estimate_segment_size`, `stingray/base.py`

A series is the list of its samples: time and whatever else is stored for it.
-/

namespace Stingray.Analyze

open Stingray Stingray.Gti

variable {K : Type} [Field K] [LinearOrder K] {V R : Type}

/-- The loop of `analyze_segments`, `stingray/base.py` 2657-2673: `segs` are the segments, index ranges with their times. The function gets the samples of the range and the times as its only GTI. Segments with
less than two samples are skipped. -/
def runSegments (rows : List (K × V)) (func : List (K × V) → K × K → R) (segs : List ((K × K) × (Nat × Nat))) : List R :=
  segs.filterMap fun s => if s.2.2 - s.2.1 ≤ 1 then none else some (func ((rows.take s.2.2).drop s.2.1) s.1)

/-- The segments of an event list or of the GTIs: `stingray/base.py` 2638-2641 and 2654-2655. -/
def timeRanges (times : List K) (segs : List (K × K)) : List ((K × K) × (Nat × Nat)) :=
  segs.map fun s => (s, (searchsortedLeft times s.1, searchsortedLeft times s.2))

/-- The times of the segments of a binned series, `stingray/base.py` 2646-2649. An index beyond the end is an `IndexError`. -/
def binnedTimes (times : List K) (dt : K) (r : Nat × Nat) : Except PyErr ((K × K) × (Nat × Nat)) :=
  match times[r.1]?, times[r.2 - 1]? with
  | some a, some b => .ok ((a - dt / 2, b + dt * 3 / 2), r)
  | _, _ => .error .indexError

/-- The segments, `stingray/base.py` 2637-2655. `nbin size` is `rint(segment_size / dt)`, and `step size` is `int(nbin * fraction_step)`; `eps` is the default tolerance of the GTI functions. -/
def segmentsOf [FloorRing K] (times : List K) (gti : List (K × K)) (dt : K) (size : Option K) (frac eps : K) (nbin step : K → Nat) :
    Except PyErr (List ((K × K) × (Nat × Nat))) :=
  match size with
  | none => .ok (timeRanges times gti)
  | some size =>
    if dt > 0 then
      match binIntervalsFromGtis gti size times dt eps (nbin size) (step size) with
      | .error e => .error e
      | .ok ranges => ranges.mapM (binnedTimes times dt)
    else (timeIntervalsFromGtis gti size frac eps).map (timeRanges times)

/-- `analyze_segments(func, segment_size, fraction_step)`, `stingray/base.py` 2584-2690, for functions with a single result: the times of the segments and the results. -/
def analyzeSegments [FloorRing K] (rows : List (K × V)) (gti : List (K × K)) (dt : K) (func : List (K × V) → K × K → R) (size : Option K) (frac eps : K) (nbin step : K → Nat) :
    Except PyErr (List (K × K) × List R) :=
  (segmentsOf (rows.map Prod.fst) gti dt size frac eps nbin step).map fun segs => (segs.map Prod.fst, runSegments rows func segs)

/-- Functions with several results: `stingray/base.py` 2659, 2672-2682. The number of results is that of the last segment; a segment with fewer raises `IndexError`. -/
def separate (results : List (List R)) : Except PyErr (List (List R)) :=
  match results.getLast? with
  | none => .ok results
  | some last =>
    if last.length > 1 then
      (List.range last.length).mapM fun i => results.mapM fun r => match r[i]? with | some x => .ok x | none => .error .indexError
    else .ok results

/-! ## Segment sizes -/

/-- The loop of `estimate_segment_size`, `stingray/base.py` 2574-2580. `counts size` is the list of results of `analyze_segments(_ts_sum, size)`; `np.min` of an empty list is a `ValueError`. The Python loop has no bound:
`fuel` is the number of turns allowed, and running out of it is `none`. -/
def searchSize (counts : K → Except PyErr (List K)) (minCounts step : K) : Nat → K → Except PyErr (Option K)
  | 0, _ => .ok none
  | fuel + 1, size =>
    match counts size with
    | .error e => .error e
    | .ok [] => .error .valueError
    | .ok (c :: cs) => if cs.foldl min c ≥ minCounts then .ok (some size) else searchSize counts minCounts step fuel (size + step)

/-- `estimate_segment_size(min_counts, min_samples, even_sampling)`, `stingray/base.py` 2534-2582, after deciding whether the sampling is even (lines 2537-2549: `even`). `hasCounts`: there is a `counts` array;
`total` is the sum of counts or number of samples. -/
def estimateSize [FloorRing K] (counts : K → Except PyErr (List K)) (minCounts minSamples : Option K) (even hasCounts : Bool) (dt total exposure : K) (fuel : Nat) :
    Except PyErr (Option K) :=
  if minCounts = none ∧ minSamples = none then .error .valueError
  else
    let step := if even then dt else 1
    let minC := match minCounts with
      | some c => some c
      | none => if even && hasCounts then some 0 else minSamples
    match minC, minSamples with
    | some c, some m => searchSize counts c step fuel (max ((⌈c / (total / exposure) / step⌉ : K) * step) (m * step))
    | _, _ => .error .typeError

end Stingray.Analyze

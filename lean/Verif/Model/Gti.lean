import Verif.Model.Basic
import Mathlib.Algebra.Order.Field.Basic
import Mathlib.Algebra.Order.Group.Abs
import Mathlib.Algebra.Order.Floor.Ring

/-!
# Model of `stingray/gti.py`

A GTI list (`N x 2` array) is a `List (K × K)`.  `K` is any linearly ordered field, i.e. time
arithmetic is exact; comparisons are the code's comparisons.  The shape check of
`check_gtis` (lines 315-320) is enforced by the type.
-/

namespace Stingray.Gti

variable {K : Type} [Field K] [LinearOrder K] [IsStrictOrderedRing K]

/-- `get_gti_lengths`, `stingray/gti.py` 55-73. -/
def gtiLengths (gti : List (K × K)) : List K := gti.map (fun g => g.2 - g.1)

/-- `get_total_gti_length`, `stingray/gti.py` 76-95: lengths below `minlen` are left out. -/
def totalGtiLength (gti : List (K × K)) (minlen : K) : K :=
  ((gtiLengths gti).filter (fun l => decide (minlen ≤ l))).sum

/-- `check_gtis`, `stingray/gti.py` 294-330.  `np.all(end >= start)` and
`np.all(start[1:] >= end[:-1])` are evaluated on whole arrays. -/
def checkGtis (gti : List (K × K)) : Except PyErr Unit :=
  if gti.length < 1 then .error .valueError
  else
    let gtiStart := gti.map Prod.fst
    let gtiEnd := gti.map Prod.snd
    if ¬ (List.zipWith (fun e s => decide (s ≤ e)) gtiEnd gtiStart).all id then .error .valueError
    else if ¬ (List.zipWith (fun s e => decide (e ≤ s)) gtiStart.tail gtiEnd.dropLast).all id then
      .error .valueError
    else .ok ()

/-- The loop of `create_gti_mask_jit`, `stingray/gti.py` 356-387.  The index `gti_el` is
represented by the current GTI (`cur`, `none` before the first sample) and the GTIs not visited
yet (`rest`); `next` is `next_gti`.  The loop advances by *at most one* GTI per sample.
The second output of the Python function (`gti_mask`) is not modelled. -/
def gtiMaskJitLoop (minLength : K) (cur : Option (K × K)) (rest : List (K × K)) (next : Bool) :
    List K → List Bool
  | [] => []
  | t :: ts =>
    let advance : Bool :=
      match cur with
      | none => true                         -- `i == 0`
      | some g => decide (g.2 < t) || next   -- `t > gtis[gti_el, 1] or next_gti`
    if advance then
      match rest with
      | [] => List.replicate (ts.length + 1) false        -- `gti_el == len(gtis)`: break
      | g :: rest' =>
        if g.2 - g.1 < minLength then
          false :: gtiMaskJitLoop minLength (some g) rest' true ts     -- `continue`
        else
          decide (g.1 ≤ t ∧ t ≤ g.2) :: gtiMaskJitLoop minLength (some g) rest' false ts
    else
      match cur with
      | none => false :: gtiMaskJitLoop minLength cur rest next ts     -- unreachable
      | some g => decide (g.1 ≤ t ∧ t ≤ g.2) :: gtiMaskJitLoop minLength cur rest false ts

/-- `create_gti_mask_jit`, `stingray/gti.py` 333-387. -/
def gtiMaskJit (times : List K) (gtis : List (K × K)) (minLength : K) : List Bool :=
  gtiMaskJitLoop minLength none gtis false times

/-- The shrunk GTIs handed to the compiled loop, `stingray/gti.py` 468-484, for a scalar `dt`
(array-valued `dt`, lines 459-465, is not modelled). -/
def gtisToMask (gtis : List (K × K)) (safe : Option (K × K)) (dt eps : K) : List (K × K) :=
  gtis.map fun g =>
    let g' := match safe with
      | none => g
      | some s => (g.1 + s.1, g.2 - s.2)
    (g'.1 - eps * dt + dt / 2, g'.2 + eps * dt - dt / 2)

/-- `create_gti_mask` when numba is available, `stingray/gti.py` 390-505, returning the mask
(`return_new_gtis=False`).  `median` stands for `lambda x: np.median(np.diff(x))`.  The
conversion to `float64` after subtracting `time[0]` (lines 490-491) is exact here and the
subtraction is kept.  `np.max(min_length, dt)` (line 448) takes `dt` as the *axis* argument: it raises
unless `dt` is `None`. -/
def createGtiMask (median : List K → K) (times : List K) (gtis : List (K × K))
    (safe : Option (K × K)) (minLength : K) (dt : Option K) (eps : K) :
    Except PyErr (List Bool) :=
  match times with
  | [] => .error .valueError
  | t0 :: _ =>
    if gtis.isEmpty then .error .valueError
    else
      let run (gtis : List (K × K)) : Except PyErr (List Bool) := do
        checkGtis gtis
        let dt := dt.getD (median times)
        let toMask := gtisToMask gtis safe dt eps
        return gtiMaskJit (times.map (· - t0)) (toMask.map fun g => (g.1 - t0, g.2 - t0))
          (minLength - 2 * (1 + eps) * dt)
      if 0 < minLength then
        match dt with
        | some _ => .error .typeError
        | none =>
          let good := gtis.filter (fun g => decide (minLength ≤ g.2 - g.1))
          if good.isEmpty then .ok (List.replicate times.length false) else run good
      else run gtis

/-- One sample of `create_gti_mask_complete`: the test of `stingray/gti.py` 570-580 for one GTI;
`dt` is the width of this sample's bin. -/
def insideComplete (safe : K × K) (minLength eps : K) (g : K × K) (t dt : K) : Bool :=
  let limmin := g.1 + safe.1
  let limmax := g.2 - safe.2
  decide (minLength ≤ limmax - limmin) &&
    (decide (limmin + dt / 2 - eps * dt ≤ t) && decide (t ≤ limmax - dt / 2 + eps * dt))

/-- `create_gti_mask_complete`, `stingray/gti.py` 508-587, returning the mask; `dt` is given
per sample.  The loop over the GTIs sets `mask[good] = True`, i.e. ors the per-GTI masks. -/
def gtiMaskComplete (times : List K) (dt : List K) (gtis : List (K × K)) (safe : K × K)
    (minLength eps : K) : Except PyErr (List Bool) := do
  checkGtis gtis
  let zero := List.replicate times.length false
  return gtis.foldl (fun mask g =>
    List.zipWith (fun m b => m || b) mask
      (List.zipWith (fun t d => insideComplete safe minLength eps g t d) times dt)) zero

/-- `join_equal_gti_boundaries`, `stingray/gti.py` 931-961.  `cur` is `new_gtis[count]`, whose
start may have been moved back by the previous iterations but whose end is the original one,
so `touching[count]` is decided by `cur.2` and the next GTI's start. -/
def joinEqualLoop (threshold : K) (cur : K × K) : List (K × K) → List (K × K)
  | [] => [cur]
  | g :: rest =>
    if |cur.2 - g.1| ≤ threshold then joinEqualLoop threshold (cur.1, g.2) rest
    else cur :: joinEqualLoop threshold g rest

/-- `join_equal_gti_boundaries`, `stingray/gti.py` 931-961; an empty list raises `IndexError`. -/
def joinEqualGtiBoundaries (threshold : K) (gti : List (K × K)) :
    Except PyErr (List (K × K)) :=
  match gti with
  | [] => .error .indexError
  | g :: rest => .ok (joinEqualLoop threshold g rest)

/-- The best opening of a series before `e`: lines 716-719 of `stingray/gti.py`.
`np.argmax` of the *filtered* array is used as an index into the unfiltered one. -/
def lastStartBefore (series : List (K × K)) (e : K) : Option (K × K) := do
  let i ← argmax? ((series.map Prod.fst).filter (fun s => decide (s < e)))
  series[i]?

/-- Body of the loop of `cross_two_gtis`, `stingray/gti.py` 708-750.  `cur = (start, end, tag)`
is an entry of the concatenated, end-ordered arrays; the state is `(last_end, final_gti)`. -/
def crossStep (gti0 gti1 : List (K × K)) (maxEnd : K) (st : K × List (K × K))
    (cur : (K × K) × Bool) : K × List (K × K) :=
  let e := cur.1.2
  let this := if cur.2 then gti1 else gti0
  let other := if cur.2 then gti0 else gti1
  match lastStartBefore this e, lastStartBefore other e with
  | some t, some o =>
    let s := max t.1 o.1
    if s ≤ st.1 then st
    else
      let cond1 := other.any (fun g => decide (s < g.2) && decide (g.2 < e))
      let cond2 := decide (o.2 < s)
      let condition := cond1 || cond2 || decide (maxEnd < e)
      if condition then st else (e, st.2 ++ [(s, e)])
  | _, _ => st

/-- `cross_two_gtis`, `stingray/gti.py` 643-752.  `order` is the `np.argsort` of line 691. -/
def crossTwoGtis (order : KeySort (fun (x : (K × K) × Bool) => x.1.2))
    (gti0 gti1 : List (K × K)) : Except PyErr (List (K × K)) := do
  let gti0 ← joinEqualGtiBoundaries 0 gti0
  let gti1 ← joinEqualGtiBoundaries 0 gti1
  checkGtis gti0
  checkGtis gti1
  let conc := order.sort (gti0.map (fun g => (g, false)) ++ gti1.map (fun g => (g, true)))
  match conc.head?, conc.dropLast.getLast? with
  | some first, some second =>
    return (conc.foldl (crossStep gti0 gti1 second.1.2) (first.1.1 - 1, [])).2
  | _, _ => .error .indexError

/-- The loop of `cross_gtis`, `stingray/gti.py` 795-800. -/
def crossGtisLoop (order : KeySort (fun (x : (K × K) × Bool) => x.1.2)) (gti0 : List (K × K)) :
    List (List (K × K)) → Except PyErr (List (K × K))
  | [] => .ok gti0
  | g :: gs => do
    let c ← crossTwoGtis order gti0 g
    if c.isEmpty then return [] else crossGtisLoop order c gs

/-- `cross_gtis`, `stingray/gti.py` 755-800. -/
def crossGtis (order : KeySort (fun (x : (K × K) × Bool) => x.1.2))
    (gtiList : List (List (K × K))) : Except PyErr (List (K × K)) := do
  gtiList.forM checkGtis
  match gtiList with
  | [] => .error .indexError
  | [g] => return g
  | g :: gs => crossGtisLoop order g gs

/-- `get_btis`, `stingray/gti.py` 803-852. -/
def getBtis (gtis : List (K × K)) (startTime stopTime : Option K) :
    Except PyErr (List (K × K)) :=
  match gtis.head?, gtis.getLast? with
  | some first, some last => do
    checkGtis gtis
    let start := startTime.getD first.1
    let stop := stopTime.getD last.2
    let btis : List (K × K) := if first.1 ≤ start then [] else [(start, first.1)]
    -- `zip(flat_gtis[1:-2:2], flat_gtis[2:-1:2])`: each end with the next start
    let inner := List.zipWith (fun e s => (e, s)) (gtis.dropLast.map Prod.snd)
      (gtis.tail.map Prod.fst)
    let tail : List (K × K) := if last.2 < stop then [(last.2, stop)] else []
    return btis ++ inner ++ tail
  | _, _ =>
    match startTime, stopTime with
    | some a, some b => .ok [(a, b)]
    | _, _ => .error .valueError

/-- `gti.flatten()` for an `N x 2` array. -/
def flatten (gti : List (K × K)) : List K := gti.flatMap (fun g => [g.1, g.2])

/-- `_check_separate`, `stingray/gti.py` 855-874 (both lists non-empty: otherwise indexing fails,
and `check_separate` never calls it so). -/
def checkSeparateCore (gti0 gti1 : List (K × K)) : Bool :=
  match gti0.head?, gti0.getLast?, gti1.head?, gti1.getLast? with
  | some f0, some l0, some f1, some l1 =>
    if l0.2 ≤ f1.1 ∨ l1.2 ≤ f0.1 then true
    else if (flatten gti1).any (fun g => gti0.any (fun i => decide (g ≤ i.2 ∧ i.1 ≤ g))) then false
    else if (flatten gti0).any (fun g => gti1.any (fun i => decide (g ≤ i.2 ∧ i.1 ≤ g))) then false
    else true
  | _, _, _, _ => true

/-- `check_separate`, `stingray/gti.py` 877-928.  The shift by `t0` is kept; the cast to double
is not modelled. -/
def checkSeparate (gti0 gti1 : List (K × K)) : Except PyErr Bool :=
  match gti0.head?, gti1.head? with
  | some f0, some f1 => do
    checkGtis gti0
    checkGtis gti1
    let t0 := min f0.1 f1.1
    return checkSeparateCore (gti0.map fun g => (g.1 - t0, g.2 - t0))
      (gti1.map fun g => (g.1 - t0, g.2 - t0))
  | _, _ => .ok true

/-- `append_gtis`, `stingray/gti.py` 1039-1080. -/
def appendGtis (order : KeySort (fun (g : K × K) => g.1)) (gti0 gti1 : List (K × K)) :
    Except PyErr (List (K × K)) := do
  checkGtis gti0
  checkGtis gti1
  if ¬ (← checkSeparate gti0 gti1) then .error .valueError
  else joinEqualGtiBoundaries 0 (order.sort (gti0 ++ gti1))

/-- `np.cumsum` (starting from `acc`). -/
def cumsumFrom (acc : Int) : List Int → List Int
  | [] => []
  | x :: xs => (acc + x) :: cumsumFrom (acc + x) xs

/-- `np.roll(a, -1)`. -/
def rollLeft {α : Type} : List α → List α
  | [] => []
  | x :: xs => xs ++ [x]

/-- `np.roll(a, 1)`. -/
def rollRight {α : Type} (l : List α) : List α :=
  match l.getLast? with
  | none => []
  | some x => x :: l.dropLast

/-- `a[mask]`. -/
def select {α : Type} (mask : List Bool) (a : List α) : List α :=
  ((List.zip mask a).filter (fun p => p.1)).map Prod.snd

/-- The boundary sweep of `join_gtis`, `stingray/gti.py` 1157-1177, on the time-ordered
boundaries `(time, type)`, type `-1` for an opening and `1` for a closing.  The final
`np.sort(..., axis=0)` sorts the two columns, which is the identity here (both selections of a
sorted array are sorted) and is left out. -/
def joinSweep (b : List (K × Int)) : List (K × K) :=
  let gAll := b.map Prod.fst
  let sums := cumsumFrom 0 (b.map Prod.snd)
  let closing := List.zipWith (fun s neq => s && neq) (sums.map (fun s => decide (s = 0)))
    (List.zipWith (fun x y => decide (x ≠ y)) gAll (rollLeft gAll))
  let starting := rollRight closing
  List.zip (select starting gAll) (select closing gAll)

/-- Boundaries of a GTI list tagged with their type, `stingray/gti.py` 1141-1149. -/
def taggedBoundaries (gti : List (K × K)) : List (K × Int) :=
  gti.flatMap (fun g => [(g.1, -1), (g.2, 1)])

/-- `join_gtis`, `stingray/gti.py` 1083-1177; `order` is the `np.argsort` of line 1153 and
`orderA` the one used by `append_gtis`. -/
def joinGtis (order : KeySort (fun (b : K × Int) => b.1)) (orderA : KeySort (fun (g : K × K) => g.1))
    (gti0 gti1 : List (K × K)) : Except PyErr (List (K × K)) := do
  checkGtis gti0
  checkGtis gti1
  if ← checkSeparate gti0 gti1 then appendGtis orderA gti0 gti1
  else return joinSweep (order.sort (taggedBoundaries gti0 ++ taggedBoundaries gti1))

/-- The four values of `strategy` accepted by `merge_gtis` (any other string behaves as
`other`: the loop of lines 1031-1035 then does nothing). -/
inductive MergeStrategy where
  | none | infer | intersection | union | append | other
  deriving DecidableEq, Repr

/-- `merge_gtis`, `stingray/gti.py` 964-1036.  `None` entries of the list are `Option.none`.
The global minimum and maximum (lines 1006-1007) are folds. -/
def mergeGtis (orderC : KeySort (fun (x : (K × K) × Bool) => x.1.2))
    (orderJ : KeySort (fun (b : K × Int) => b.1)) (orderA : KeySort (fun (g : K × K) => g.1))
    (gtiList : List (Option (List (K × K)))) (strategy : MergeStrategy) :
    Except PyErr (Option (List (K × K))) :=
  let all : List (List (K × K)) := (gtiList.filterMap id).filter (fun g => !g.isEmpty)
  let points := all.flatMap flatten
  match all, points with
  | [], _ => .ok none
  | _ :: _, [] => .ok none     -- unreachable: no empty list is kept
  | g0 :: gs, p :: ps =>
    if strategy = .none then .ok (some [(ps.foldl min p, ps.foldl max p)])
    else if gs.isEmpty then .ok (some g0)
    else do
      let cross ← crossGtis orderC all
      let strategy :=
        if strategy = .infer then (if cross.isEmpty then MergeStrategy.union else .intersection)
        else strategy
      if strategy = .intersection then
        return (if cross.isEmpty then Option.none else some cross)
      else
        let step (acc : List (K × K)) (g : List (K × K)) : Except PyErr (List (K × K)) :=
          match strategy with
          | .union => joinGtis orderJ orderA acc g
          | .append => appendGtis orderA acc g
          | _ => .ok acc
        return some (← gs.foldlM step g0)

/-- `np.arange(start, stop, step)` for integers with `step > 0`. -/
def arangeNat (start stop step : Nat) : List Nat :=
  (List.range ((stop - start + step - 1) / step)).map (fun i => start + i * step)

/-- `np.arange(start, stop, step)` in exact arithmetic, for `step > 0`:
`ceil((stop - start)/step)` elements. -/
def arange [FloorRing K] (start stop step : K) : List K :=
  (List.range ⌈(stop - start) / step⌉₊).map (fun i : Nat => start + (i : K) * step)

/-- The start times collected by the loop of `time_intervals_from_gtis`,
`stingray/gti.py` 1210-1221. -/
def segmentStarts [FloorRing K] (gtis : List (K × K)) (segmentSize fractionStep eps : K) : List K :=
  gtis.flatMap fun g =>
    if g.2 - g.1 + eps < segmentSize then []
    else arange g.1 (g.2 - segmentSize + eps) (segmentSize * fractionStep)

/-- `time_intervals_from_gtis`, `stingray/gti.py` 1180-1224. -/
def timeIntervalsFromGtis [FloorRing K] (gtis : List (K × K)) (segmentSize fractionStep eps : K) :
    Except PyErr (List (K × K)) :=
  let starts := segmentStarts gtis segmentSize fractionStep eps
  if starts.length = 0 then .error .assertionError
  else .ok (starts.map fun s => (s, s + segmentSize))

/-- `calculate_segment_bin_start`, `stingray/gti.py` 1227-1276; `step` is
`int(nbin * fraction_step)`, computed by the caller of the model. -/
def calculateSegmentBinStart (startbin stopbin nbin step : Nat) : Except PyErr (List Nat) :=
  if step = 0 then .error .zeroDivisionError
  else
    let st := arangeNat startbin stopbin step
    match st.getLast? with
    | none => .error .indexError
    | some last => .ok (if last + nbin > stopbin then st.dropLast else st)

/-- The bins of one GTI: `stingray/gti.py` 1359-1369 (and 1466-1476), `searchsorted` twice
followed by the corrections at both ends.  Indexing `time` beyond its end raises. -/
def gtiBorderBinsOne (time : List K) (g0 g1 : K) : Except PyErr (Nat × Nat) :=
  let startbin := searchsortedLeft time g0
  let stopbin := min (searchsortedLeft time g1 + 1) time.length
  match time[startbin]?, (if stopbin = 0 then time.getLast? else time[stopbin - 1]?) with
  | some ts, some te =>
    let startbin := if ts < g0 then startbin + 1 else startbin
    let stopbin := if g1 < te then stopbin - 1 else stopbin
    .ok (startbin, stopbin)
  | _, _ => .error .indexError

/-- `gti_border_bins`, `stingray/gti.py` 1377-1481, for scalar `dt`. -/
def gtiBorderBins (gtis : List (K × K)) (time : List K) (dt eps : K) :
    Except PyErr (List (Nat × Nat)) :=
  match time.head?, time.getLast?, flatten gtis with
  | some first, some last, p :: ps =>
    if last < ps.foldl min p ∨ ps.foldl max p < first then .error .valueError
    else gtis.mapM fun g =>
      gtiBorderBinsOne time (g.1 + dt / 2 - eps * dt) (g.2 - dt / 2 + eps * dt)
  | _, _, _ => .error .indexError

/-- `bin_intervals_from_gtis`, `stingray/gti.py` 1279-1374, for scalar `dt`; `nbin` is
`rint(segment_size / dt)` and `step` is `int(nbin * fraction_step)`. -/
def binIntervalsFromGtis (gtis : List (K × K)) (segmentSize : K) (time : List K) (dt eps : K)
    (nbin step : Nat) : Except PyErr (List (Nat × Nat)) :=
  match time.head?, time.getLast?, flatten gtis with
  | some first, some last, p :: ps =>
    if last < ps.foldl min p ∨ ps.foldl max p < first then .error .valueError
    else do
      let starts ← gtis.mapM fun g => do
        let g0 := g.1 + dt / 2 - eps * dt
        let g1 := g.2 - dt / 2 + eps * dt
        if g1 - g0 + dt + eps * dt < segmentSize then return ([] : List Nat)
        else
          let (a, b) ← gtiBorderBinsOne time g0 g1
          calculateSegmentBinStart a b nbin step
      let starts := starts.flatten
      if starts.length = 0 then .error .assertionError
      else return starts.map (fun s => (s, s + nbin))
  | _, _, _ => .error .indexError

/-- `generate_indices_of_segment_boundaries_unbinned`, `stingray/gti.py` 1573-1646, for sorted
`times` (the code asserts it).  The dictionary of lines 1630-1643 only avoids repeated
`searchsorted` calls on equal values. -/
def segmentIndicesUnbinned [FloorRing K] (times : List K) (gti : List (K × K)) (segmentSize eps : K) :
    Except PyErr (List ((K × K) × (Nat × Nat))) := do
  let segs ← timeIntervalsFromGtis gti segmentSize 1 eps
  if ¬ times.IsChain (· ≤ ·) then .error .assertionError
  else return segs.map fun s => (s, (searchsortedLeft times s.1, searchsortedLeft times s.2))

/-- The slicing loop of `split_gtis_at_indices`, `stingray/gti.py` 1726-1728; the second
component is the final `previous_idx`. -/
def splitLoop (gtis : List (K × K)) (prev : Nat) : List Nat → List (List (K × K)) × Nat
  | [] => ([], prev)
  | i :: is =>
    let r := splitLoop gtis i is
    (((gtis.take i).drop prev) :: r.1, r.2)

/-- `split_gtis_at_indices`, `stingray/gti.py` 1697-1732, for non-negative indices
(the special value `-1` is not modelled). -/
def splitGtisAtIndices (gtis : List (K × K)) (indexList : List Nat) :
    Except PyErr (List (List (K × K))) :=
  match indexList with
  | [] => .error .indexError                     -- `index_list[0]`
  | i :: is =>
    let idx := if i = 0 then is else i :: is
    match idx.getLast? with
    | none => .error .indexError                 -- `index_list[-1]` after dropping the 0
    | some last =>
      let r := splitLoop gtis 0 idx
      .ok (if last + 1 ≤ gtis.length then r.1 ++ [gtis.drop r.2] else r.1)

/-- `find_large_bad_time_intervals`, `stingray/gti.py` 1735-1767 (loop, with `last_edge`). -/
def findLargeBtisLoop (limit lastEdge : K) : List (K × K) → List K
  | [] => []
  | g :: gs =>
    (if limit < g.1 - lastEdge then [(g.1 + lastEdge) / 2] else []) ++ findLargeBtisLoop limit g.2 gs

/-- `find_large_bad_time_intervals`, `stingray/gti.py` 1735-1767. -/
def findLargeBtis (gtis : List (K × K)) (limit : K) : Except PyErr (List K) :=
  match gtis with
  | [] => .error .indexError
  | g :: _ => .ok (findLargeBtisLoop limit g.1 gtis)

/-- Cutting of long GTIs in `split_gtis_by_exposure`, `stingray/gti.py` 1821-1832. -/
def cutGti [FloorRing K] (exposurePerChunk : K) (g : K × K) : List (K × K) :=
  if exposurePerChunk < g.2 - g.1 then
    let edges := arange g.1 g.2 exposurePerChunk
    let edges := match edges.getLast? with
      | some l => if l < g.2 then edges ++ [g.2] else edges
      | none => edges
    List.zip edges.dropLast edges.tail
  else [g]

/-- `exposure_edges` of `split_gtis_by_exposure`, `stingray/gti.py` 1834-1839. -/
def exposureEdges (acc : K) : List (K × K) → List K
  | [] => []
  | g :: gs => acc :: exposureEdges (acc + (g.2 - g.1)) gs

/-- `split_gtis_by_exposure` without `new_interval_if_gti_sep`, `stingray/gti.py` 1803-1804 and
1816-1849.  `rint` is the rounding of line 1816. -/
def splitGtisByExposure [FloorRing K] (rint : K → Int) (gtis : List (K × K)) (exposurePerChunk : K) :
    Except PyErr (List (List (K × K))) :=
  let rough := (gtis.map fun g => g.2 - g.1).sum
  let n := rint (rough / exposurePerChunk)
  if n ≤ 1 then .ok [gtis]
  else
    let gtis := if (gtis.length : Int) ≤ n then gtis.flatMap (cutGti exposurePerChunk) else gtis
    let edges := exposureEdges 0 gtis
    let total := (gtis.map fun g => g.2 - g.1).sum
    let perInterval := total / (n : K)
    let intervals := arange 0 (total + perInterval) perInterval
    splitGtisAtIndices gtis (intervals.map (searchsortedLeft edges))

/-- `split_gtis_by_exposure` with `new_interval_if_gti_sep`, `stingray/gti.py` 1806-1814. -/
def splitGtisByExposureSep [FloorRing K] (rint : K → Int) (gtis : List (K × K))
    (exposurePerChunk sep : K) : Except PyErr (List (List (K × K))) := do
  let edges ← findLargeBtis gtis sep
  let base ← splitGtisAtIndices gtis (edges.map (searchsortedLeft (gtis.map Prod.snd)))
  let parts ← base.mapM fun l => splitGtisByExposure rint l exposurePerChunk
  return parts.flatten

end Stingray.Gti

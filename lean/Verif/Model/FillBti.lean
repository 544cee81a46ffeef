import Verif.Model.Gti
import Verif.Model.UtilsMisc

/-!
# Filling short bad time intervals with simulated data: `StingrayTimeseries.fill_bad_time_intervals`
-/

namespace Stingray.FillBti

open Stingray.Gti Stingray.UtilsMisc

variable {K : Type} [Field K] [LinearOrder K] [FloorRing K]

/-- One sample: its time, and the value of each array attribute (`none` is NaN). -/
abbrev Row (K : Type) := K × List (Option K)

/-- The draws from the random generator, for the `k`-th filled interval (and the `j`-th attribute). -/
structure Rng (K : Type) where
  poisson : Nat → K → Nat
  uniform : Nat → K → K → Nat → List K
  choice : Nat → Nat → List (Option K) → Nat → List (Option K)

/-- The object: samples in time order, whether each attribute is to be randomised (`attrs_to_randomize`, or all by default), GTIs, time resolution, and `self.mask`. `_mask` itself, which the assignment of the new GTIs recomputes, is not an attribute here. -/
structure Series (K : Type) where
  rows : List (Row K)
  random : List Bool
  gti : List (K × K)
  dt : K
  mask : List Bool

/-- What the method returns: samples (with their attributes) and GTIs. -/
structure Filled (K : Type) where
  rows : List (Row K)
  gti : List (K × K)
deriving DecidableEq

/-- `ctrate_low`, `ctrate_high`, `stingray/base.py` 2323-2330: `np.count_nonzero` of the times over the time they span; NaN without times or without span. -/
def sideRate (times : List K) (span : K) : Option K :=
  if times ≠ [] ∧ 0 < span then some (((times.filter fun t => decide (t ≠ 0)).length : K) / span) else none

/-- `np.nanmean([ctrate_low, ctrate_high])`, and NaN if both are, `stingray/base.py` 2332-2339. -/
def meanRate (a b : Option K) : Option K :=
  match a, b with
  | some x, some y => some ((x + y) / 2)
  | some x, none => some x
  | none, some y => some y
  | none, none => none

/-- The new times of one interval, `stingray/base.py` 2312-2341, or nothing if the interval is skipped for lack of data; also the indices of the samples next to it. -/
def newTimes (rng : Rng K) (even : Bool) (dt : K) (buffer : Nat) (good : List K) (k : Nat) (bti : K × K) :
    Except PyErr ((Nat × Nat) × Option (List K)) := do
  let low ← findNearest good bti.1 .left
  let high ← findNearest good bti.2 .right
  let lo := low.2.toNat
  let hi := high.2.toNat
  if even then return ((lo, hi), some (arange (bti.1 + dt / 2) bti.2 dt))
  else
    let lowArr := ((good.take lo).drop (lo - buffer)).filter fun t => decide (bti.1 - (buffer : K) < t)
    let highArr := ((good.take (buffer + hi)).drop hi).filter fun t => decide (t < bti.2 + (buffer : K))
    match meanRate (sideRate lowArr (low.1 - lowArr.headD 0)) (sideRate highArr (highArr.getLastD 0 - high.1)) with
    | none => return ((lo, hi), none)
    | some rate => return ((lo, hi), some (rng.uniform k bti.1 bti.2 (rng.poisson k (rate * (bti.2 - bti.1)))))

/-- The values of the `j`-th attribute, as the object stores it: also the samples outside the GTIs. -/
def column (rows : List (Row K)) (j : Nat) : List (Option K) := rows.map fun r => r.2.getD j none

/-- The new values of one attribute, `stingray/base.py` 2344-2356: drawn from slices of the attribute, or NaN. Drawing from nothing raises. -/
def newColumn (rng : Rng K) (buffer : Nat) (rows : List (Row K)) (k : Nat) (idx : Nat × Nat) (n : Nat) (j : Nat) (random : Bool) :
    Except PyErr (List (Option K)) :=
  if random then
    let src := ((column rows j).take idx.1).drop (buffer - idx.1) ++ ((column rows j).take (buffer + idx.2)).drop idx.2
    if src = [] ∧ n ≠ 0 then .error .valueError else .ok (rng.choice k j src n)
  else .ok (List.replicate n none)

/-- One turn of the loop, `stingray/base.py` 2305-2357, for an interval that is not too long: the simulated samples, or nothing if it is skipped. -/
def fillOne (rng : Rng K) (even : Bool) (buffer : Nat) (s : Series K) (k : Nat) (bti : K × K) : Except PyErr (Option (List (Row K))) := do
  let r ← newTimes rng even s.dt buffer ((select s.mask s.rows).map Prod.fst) k bti
  match r.2 with
  | none => return none
  | some times =>
    let cols ← s.random.zipIdx.mapM fun p => newColumn rng buffer s.rows k r.1 times.length p.2 p.1
    return some (times.mapIdx fun i t => (t, cols.map fun c => c.getD i none))

/-- The interval added to the GTIs, `stingray/base.py` 2310-2311. -/
def widened (bti : K × K) : K × K :=
  let eps := 1 / 100000 * (bti.2 - bti.1)
  (bti.1 - eps, bti.2 + eps)

/-- `fill_bad_time_intervals(max_length, attrs_to_randomize, buffer_size, even_sampling, seed)`, `stingray/base.py` 2260-2373, with all arguments given. Attributes are set only by the intervals that are filled: if all are skipped, the new object has none. -/
def fill (order : KeySort (fun (r : Row K) => r.1)) (orderJ : KeySort (fun (b : K × Int) => b.1)) (orderA : KeySort (fun (g : K × K) => g.1))
    (rng : Rng K) (maxLength : K) (buffer : Nat) (even : Bool) (s : Series K) : Except PyErr (Filled K) := do
  let btis ← getBtis s.gti (s.rows.head?.map Prod.fst) (s.rows.getLast?.map Prod.fst)
  if btis = [] then return ⟨s.rows, s.gti⟩
  else
    let short := btis.filter fun b => decide (b.2 - b.1 ≤ maxLength)
    let parts ← short.zipIdx.mapM fun p => fillOne rng even buffer s p.2 p.1
    let gti ← joinGtis orderJ orderA s.gti (short.map widened)
    let filled := parts.filterMap id
    let good := select s.mask s.rows
    let good := if filled = [] then good.map fun r => (r.1, []) else good
    return ⟨order.sort (good ++ filled.flatten), gti⟩

end Stingray.FillBti

import Verif.Model.TimeSeries
import Verif.Model.Rebin

/-!
# Truncating, slicing, adding, rebinning and splitting time series and light curves
(`stingray/base.py`, `stingray/lightcurve.py`)
-/

namespace Stingray.LcOps

open Stingray.Gti Stingray.TimeSeries

variable {K V : Type} [Field K] [LinearOrder K] [IsStrictOrderedRing K]

/-! ## `truncate` -/

/-- `_truncate_by_index`, `stingray/base.py` 1793-1810, with the check of line 1789 (`gti[0, 0]` of an empty list raises `IndexError`).
The attributes `tstart` and `tseg` are not part of the model; scalar `dt`. -/
def truncateByIndex (order : KeySort (fun (x : (K × K) × Bool) => x.1.2)) (s : TS K V) (start : Int) (stop : Option Int) :
    Except PyErr (TS K V) := do
  let new := (applyIdx s (sliceIdx s.time.length start (stop.getD s.time.length) 1) false).1
  match (gtiGet s).1, new.time.head?, new.time.getLast? with
  | some g, some t0, some t1 =>
    let gti ← crossTwoGtis order g [(t0 - s.dt / 2, t1 + s.dt / 2)]
    if gti = [] then .error .indexError else return setGti new (some gti)
  | _, _, _ => .error .indexError

/-- `truncate(start, stop, method="time")`, `stingray/base.py` 1812-1840. -/
def truncateByTime (order : KeySort (fun (x : (K × K) × Bool) => x.1.2)) (s : TS K V) (start : K) (stop : Option K) :
    Except PyErr (TS K V) :=
  if stop.any (fun e => decide (e < start)) then .error .valueError
  else
    let a : Int := if start = 0 then 0 else searchsortedLeft s.time start
    truncateByIndex order s a (stop.map fun e => (searchsortedLeft s.time e : Int))

/-! ## Light curves -/

/-- `err_dist`: one of the valid statistics. -/
inductive ErrDist where
  | poisson | gauss
  deriving DecidableEq

/-- What the operations below read and write of a `Lightcurve`. -/
structure Curve (K : Type) where
  time : List K
  counts : List K
  err : List K
  gti : List (K × K)
  mjdref : K
  dt : K
  errDist : ErrDist
  deriving DecidableEq

/-- `a[i]` for a possibly negative index -/
def pyGet {α : Type} (l : List α) (i : Int) : Except PyErr α :=
  match (if 0 ≤ i then l[i.toNat]? else if 0 ≤ i + l.length then l[(i + l.length).toNat]? else none) with
  | some x => .ok x
  | none => .error .indexError

/-- `Lightcurve.__getitem__` for a slice, `stingray/lightcurve.py` 746-772.  (Without times the constructor returns a light curve
with no data: all its lists are empty here.) -/
def lcSlice (order : KeySort (fun (x : (K × K) × Bool) => x.1.2)) (s : Curve K) (start stop step : Option Int) :
    Except PyErr (Curve K) := do
  let a := start.getD 0
  let b := stop.getD s.counts.length
  let c := step.getD 1
  if c = 0 then .error .valueError
  else
    let idx := sliceIdx s.time.length a b c
    let pick (l : List K) : List K := idx.filterMap (l[·]?)
    let t0 ← pyGet s.time a
    let t1 ← pyGet s.time (b - 1)
    let window := [(t0 - s.dt / 2, t1 + s.dt / 2)]
    let window ← if 1 < c then crossTwoGtis order window ((pick s.time).map fun t => (t - s.dt / 2, t + s.dt / 2))
      else .ok window
    let gti ← crossTwoGtis order s.gti window
    return { s with time := pick s.time, counts := pick s.counts, err := pick s.err, gti := gti }

/-- `change_mjdref`, as in `stingray/base.py` 1507-1532, for a light curve. -/
def lcChangeMjdref (s : Curve K) (new : K) : Curve K :=
  let d := (s.mjdref - new) * 86400
  { s with time := s.time.map (· + d), gti := s.gti.map (fun g => (g.1 + d, g.2 + d)), mjdref := new }

/-- `Lightcurve._operation_with_other_obj`, `stingray/lightcurve.py` 560-634.  Simplification: arrays of different lengths never
match (NumPy would broadcast an array of length one). -/
def lcOperation (order : KeySort (fun (x : (K × K) × Bool) => x.1.2)) (median : List K → K) (eps : K) (sqrt : K → K)
    (op : K → K → K) (s o : Curve K) : Except PyErr (Curve K) := do
  let o := if s.mjdref = o.mjdref then o else lcChangeMjdref o s.mjdref
  let common ← crossTwoGtis order s.gti o.gti
  let m1 ← createGtiMask median s.time common none 0 (some s.dt) eps
  let m2 ← createGtiMask median o.time common none 0 (some o.dt) eps
  let t1 := select m1 s.time
  let t2 := select m2 o.time
  if t1.length ≠ t2.length ∨ ¬ ((List.zip t1 t2).all fun p => decide (|p.1 - p.2| < s.dt / 100)) then .error .valueError
  else
    let counts := List.zipWith op (select m1 s.counts) (select m2 o.counts)
    let err := if s.errDist ≠ o.errDist then counts.map (fun _ => 0)
      else List.zipWith (fun a b => sqrt (a ^ 2 + b ^ 2)) (select m1 s.err) (select m2 o.err)
    return { time := t1, counts := counts, err := err, gti := common, mjdref := s.mjdref, dt := s.dt, errDist := .poisson }

/-- `Lightcurve.__neg__`, `stingray/lightcurve.py` 689-716. -/
def lcNeg (s : Curve K) : Curve K := { s with counts := s.counts.map fun c => -1 * c, errDist := .poisson }

/-- The part of a light curve with times between the borders of a GTI: lines 954-960. -/
def gtiPart (time l : List K) (g : K × K) : List K :=
  (l.take (searchsortedLeft time g.2)).drop (searchsortedLeft time g.1)

/-- `Lightcurve.rebin`, `stingray/lightcurve.py` 906-983. -/
def lcRebin [FloorRing K] (sqrt : K → K) (s : Curve K) (dtNew f : Option K) (method : Rebin.Method) : Except PyErr (Curve K) :=
  match (match f with | some f => some (f * s.dt) | none => dtNew) with
  | none => .error .valueError
  | some d =>
    if d < s.dt then .error .valueError
    else do
      let long := s.gti.filter fun g => ! decide (g.2 - g.1 < d)
      let outs ← long.mapM fun g =>
        Rebin.rebinData sqrt (gtiPart s.time s.time g) (gtiPart s.time s.counts g) d (some (gtiPart s.time s.err g)) method .absent
      if long = [] then .error .valueError
      else
        return { time := (outs.map fun o => o.xbin).flatten, counts := (outs.map fun o => o.ybin).flatten,
                 err := (outs.map fun o => o.ybinerr).flatten, gti := long, mjdref := s.mjdref, dt := d, errDist := .poisson }

/-- `StingrayTimeseries.rebin`, `stingray/base.py` 2082-2165, for one array attribute without errors: the new times, the new values and the new GTIs.
The list collected in line 2149 is overwritten in lines 2160-2163: `gti` is one of the metadata. -/
def tsRebin [FloorRing K] (sqrt : K → K) (s : TS K V) (values : List K) (g : List (K × K)) (dtNew f : Option K) (method : Rebin.Method) :
    Except PyErr (List K × List K × List (K × K)) :=
  match (match f with | some f => some (f * s.dt) | none => dtNew) with
  | none => .error .valueError
  | some d =>
    if d < s.dt then .error .valueError
    else do
      let long := g.filter fun g => ! decide (g.2 - g.1 < d)
      let outs ← long.mapM fun g =>
        Rebin.rebinData sqrt (gtiPart s.time s.time g) (gtiPart s.time values g) d none method (.scalar s.dt)
      if long = [] then .error .valueError
      else return ((outs.map fun o => o.xbin).flatten, (outs.map fun o => o.ybin).flatten, g)

/-! ## `split` -/

/-- The GTIs made by `Lightcurve.split`, `stingray/lightcurve.py` 1195-1208: `gap` is `min_gap`; `none` if there is
no difference to take the minimum of (`np.min` of an empty array raises `ValueError`). -/
def splitGtis (time : List K) (gap : K) : Except PyErr (List (K × K)) :=
  let tdiff := Rebin.diff time
  let gapIdx := (List.range tdiff.length).filter fun i => decide (gap ≤ tdiff.getD i 0)
  match tdiff with
  | [] => .error .valueError
  | d :: ds =>
    let eps := ds.foldl min d / 2
    let starts := (time.getD 0 0 - eps) :: gapIdx.map fun i => time.getD (i + 1) 0 - eps
    let stops := (gapIdx.map fun i => time.getD i 0 + eps) ++ [time.getD (time.length - 1) 0 + eps]
    .ok (List.zip starts stops)

end Stingray.LcOps

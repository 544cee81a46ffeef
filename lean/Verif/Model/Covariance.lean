import Verif.Model.Lightcurve

/-!
# Covariance spectra: `stingray/covariancespectrum.py`

The square root is a parameter; NaN and infinities are `none`.
-/

namespace Stingray.Covariance

open Stingray.Lightcurve

variable {K : Type} [Field K] [LinearOrder K] [FloorRing K]

/-- A light curve: times and counts.  Its good time intervals are taken to cover it, as those that `Lightcurve` makes by default do. -/
structure Curve (K : Type) where
  time : List K
  counts : List K
  deriving DecidableEq

/-- The option `std`: absent, a number or an iterable of numbers. -/
inductive Std (K : Type) where
  | default
  | num (s : K)
  | list (l : List K)

/-- `ref_band_interest`: absent, a light curve, a list of light curves, two numbers, or something of size one that is none of these. -/
inductive RefArg (K : Type) where
  | absent
  | curve (c : Curve K)
  | curves (cs : List (Curve K))
  | bounds (a b : K)
  | bad

/-- `ref_band_lcs`: a light curve or a list of light curves. -/
inductive Refs (K : Type) where
  | one (c : Curve K)
  | each (cs : List (Curve K))

/-- The data: light curves, or events (time and energy). -/
inductive Data (K : Type) where
  | curves (cs : List (Curve K))
  | events (evs : List (K × K))

/-- `np.mean`. -/
def mean (l : List K) : Option K := if l = [] then none else some (l.sum / l.length)

/-- `np.var`. -/
def var (l : List K) : Option K := (mean l).bind fun m => mean (l.map fun x => (x - m) ^ 2)

/-- `x ** 0.5`. -/
def root (sqrt : K → K) (x : K) : Option K := if x < 0 then none else some (sqrt x)

/-- `a / b`. -/
def quot (a b : K) : Option K := if b = 0 then none else some (a / b)

/-- `_calculate_std`, `stingray/covariancespectrum.py` 409-418. -/
def calcStd (sqrt : K → K) (std : Std K) (counts : List K) : Option K :=
  match std with
  | .default => (mean counts).bind (root sqrt)
  | .list l => mean l
  | .num s => some s

/-- `_calculate_excess_variance`, `stingray/covariancespectrum.py` 404-407. -/
def excessVar (sqrt : K → K) (std : Std K) (counts : List K) : Option K :=
  (calcStd sqrt std counts).bind fun s => (var counts).map fun v => v - s ^ 2

/-- `_compute_covariance`, `stingray/covariancespectrum.py` 420-422: the element `[0][1]` of `np.cov`, with `n - 1` in the denominator. -/
def npCov (x y : List K) : Except PyErr (Option K) :=
  if x.length ≠ y.length then .error .valueError
  else .ok <| (mean x).bind fun mx => (mean y).bind fun my =>
    quot (List.zipWith (fun a b => (a - mx) * (b - my)) x y).sum ((x.length : K) - 1)

/-- `_calculate_covariance_error`, `stingray/covariancespectrum.py` 424-445; `m` is `mm`, the number of segments averaged. -/
def covError (sqrt : K → K) (std : Std K) (m : Nat) (x y : List K) : Option K := do
  let xsx ← excessVar sqrt std x
  let erry ← calcStd sqrt std y
  let xsy ← excessVar sqrt std y
  let errx ← calcStd sqrt std x
  let r ← quot (xsx * erry + xsy * errx + errx * erry) ((x.length : K) * m * xsy)
  root sqrt r

/-- One row of the result: `unnorm_covar`, the excess variance of the reference band, `covar_error`. -/
structure Row (K : Type) where
  cov : Option K
  xs : Option K
  err : Option K
  deriving DecidableEq

/-- `covar`: `covar / xs_var**0.5`, `stingray/covariancespectrum.py` 331 and 581. -/
def Row.covar (sqrt : K → K) (r : Row K) : Option K := do
  let c ← r.cov
  let x ← r.xs
  let s ← root sqrt x
  quot c s

/-- The covariance, excess variance and error of one band of interest and its reference band, `stingray/covariancespectrum.py` 313-328 and 562-564. -/
def bandRow (sqrt : K → K) (std : Std K) (m : Nat) (x y : List K) : Except PyErr (Row K) := do
  let c ← npCov x y
  return { cov := c, xs := excessVar sqrt std y, err := covError sqrt std m x y }

/-- The reference band of the `i`-th band, `stingray/covariancespectrum.py` 308-311 (a list with one light curve of one bin has size one, and has no attribute `counts`). -/
def refOf (refs : Refs K) (i : Nat) : Except PyErr (Curve K) :=
  match refs with
  | .one c => .ok c
  | .each cs =>
    if cs.length = 1 ∧ cs.all (fun c => c.counts.length == 1) then .error .attributeError
    else match cs[i]? with
      | some c => .ok c
      | none => .error .indexError

/-- `Covariancespectrum._construct_covar`, `stingray/covariancespectrum.py` 295-337. -/
def constructCovar (sqrt : K → K) (std : Std K) (lcs : List (Curve K)) (refs : Refs K) : Except PyErr (List (Row K)) :=
  lcs.zipIdx.mapM fun p => do
    let r ← refOf refs p.2
    bandRow sqrt std 1 p.1.counts r.counts

/-- The reference band of the `i`-th band of an averaged spectrum, `stingray/covariancespectrum.py` 543-546: a light curve of more than one bin is indexed, giving a number, that has no method `truncate` (line 560). -/
def refOfAvg (refs : Refs K) (i : Nat) : Except PyErr (Curve K) :=
  match refs with
  | .one c =>
    if c.counts.length = 1 then .ok c
    else if i < c.counts.length then .error .attributeError
    else .error .indexError
  | .each cs => refOf (.each cs) i

/-- `lc.truncate(start, stop)`, `stingray/base.py` 1793-1810, of a light curve whose good time intervals cover it: an `IndexError` if nothing is left. -/
def truncate (c : Curve K) (a b : Nat) : Except PyErr (Curve K) :=
  if (c.time.take b).drop a = [] then .error .indexError
  else .ok { time := (c.time.take b).drop a, counts := (c.counts.take b).drop a }

/-- The sum of two numbers, NaN if one is. -/
def oadd (a b : Option K) : Option K := a.bind fun x => b.map fun y => x + y

/-- One passage of the loop of `stingray/covariancespectrum.py` 555-574, over the segment that starts at `t`. -/
def segRow (sqrt : K → K) (std : Std K) (nbins : Nat) (segment : K) (lc ref : Curve K) (t : K) : Except PyErr (Row K) := do
  let a := searchsortedLeft lc.time t
  let b := searchsortedLeft lc.time (t + segment)
  let x ← truncate lc a b
  let y ← truncate ref a b
  bandRow sqrt std nbins x.counts y.counts

/-- The number of segments, `stingray/covariancespectrum.py` 548-554: `tend` is the end of the first segment. -/
def nSegments (start segment : K) : Except PyErr Nat :=
  let tend := start + segment
  if segment = 0 then .error .valueError
  else .ok ⌊(tend - start) / segment⌋.toNat

/-- The mean over segments, `stingray/covariancespectrum.py` 550-552, 562-564, 576-578. -/
def meanRow (rows : List (Row K)) (nbins : Nat) : Row K :=
  let total (f : Row K → Option K) : Option K :=
    (rows.foldl (fun acc r => oadd acc (f r)) (some 0)).bind fun s => quot s (nbins : K)
  { cov := total (·.cov), xs := total (·.xs), err := total (·.err) }

/-- `AveragedCovariancespectrum._construct_covar`, `stingray/covariancespectrum.py` 528-587. -/
def constructAvg (sqrt : K → K) (std : Std K) (segment : K) (lcs : List (Curve K)) (refs : Refs K) : Except PyErr (List (Row K)) :=
  match lcs with
  | [] => .error .indexError
  | l :: _ =>
    match l.time with
    | [] => .error .indexError
    | start :: _ =>
      lcs.zipIdx.mapM fun p => do
        let r ← refOfAvg refs p.2
        let nbins ← nSegments start segment
        let rows ← (List.range nbins).mapM fun (k : Nat) => segRow sqrt std nbins segment p.1 r (start + (k : K) * segment)
        return meanRow rows nbins

/-! ## Light curves in the bands -/

/-- `Lightcurve.make_lightcurve(toa, dt, tstart, tseg)` of a two-column array, as in `stingray/covariancespectrum.py` 229-231, 243-244 and 368-370: all the elements of the array, energies as well as times, are binned (`toa[good]` of `stingray/lightcurve.py` 892-895 flattens the array; the order does not matter to `np.bincount`). -/
def curveOf (sort : KeySort (fun (x : K) => x)) (dt tseg tstart : K) (rows : List (K × K)) : Except PyErr (Curve K) := do
  let r ← makeLightcurve sort (rows.flatMap fun p => [p.1, p.2]) dt (some tseg) (some tstart) none false
  return { time := r.1, counts := r.2.map fun (n : Nat) => (n : K) }

/-- The start and the length of the observation, `stingray/covariancespectrum.py` 357-360. -/
def observation (evs : List (K × K)) : Except PyErr (K × K) :=
  match evs.map (·.1) with
  | [] => .error .valueError
  | t :: ts => .ok (ts.foldl min t, ts.foldl max t - ts.foldl min t)

/-- `_make_lightcurves`, `stingray/covariancespectrum.py` 339-373. -/
def makeLightcurves (sort : KeySort (fun (x : K) => x)) (dt : K) (evs : List (K × K)) (bands : List (K × K)) :
    Except PyErr (List (Curve K)) := do
  let o ← observation evs
  bands.mapM fun b => curveOf sort dt o.2 o.1 (evs.filter fun p => decide (b.1 ≤ p.2 ∧ p.2 ≤ b.2))

/-- The smallest and the largest energy, `stingray/covariancespectrum.py` 221. -/
def energyRange (evs : List (K × K)) : Except PyErr (K × K) :=
  match evs.map (·.2) with
  | [] => .error .valueError
  | e :: es => .ok (es.foldl min e, es.foldl max e)

/-- `bounds` of `_make_reference_bands_from_event_data`, `stingray/covariancespectrum.py` 220-221. -/
def refBounds (evs : List (K × K)) (bounds : Option (K × K)) : Except PyErr (K × K) :=
  match bounds with
  | some b => .ok b
  | none => energyRange evs

/-- The condition of `stingray/covariancespectrum.py` 223-225: the reference band is apart from all bands of interest. -/
def apart (bounds : K × K) (bands : List (K × K)) : Bool :=
  bands.all (fun b => decide (bounds.2 ≤ b.1)) || bands.all (fun b => decide (b.2 ≤ bounds.1))

/-- `_make_reference_bands_from_event_data`, `stingray/covariancespectrum.py` 196-247. -/
def refsFromEvents (sort : KeySort (fun (x : K) => x)) (dt : K) (evs : List (K × K)) (bands : List (K × K)) (bounds : Option (K × K)) :
    Except PyErr (Refs K) := do
  let o ← observation evs
  let r ← refBounds evs bounds
  if apart r bands then
    let c ← curveOf sort dt o.2 o.1 (evs.filter fun p => decide (r.1 ≤ p.2 ∧ p.2 ≤ r.2))
    return .one c
  else
    let cs ← bands.mapM fun b => curveOf sort dt o.2 o.1
      ((evs.filter fun p => decide (p.2 ≤ b.1 ∧ r.1 ≤ p.2)) ++ (evs.filter fun p => decide (p.2 ≤ r.2 ∧ b.2 ≤ p.2)))
    return .each cs

/-- `counts += self.lcs[j].counts`, `stingray/covariancespectrum.py` 281-285 (arrays of different lengths are not added; the broadcasting of a single bin is not modelled). -/
def addCounts (lcs : List (Curve K)) (counts : List K) (j : Nat) : Except PyErr (List K) :=
  match lcs[j]? with
  | none => .error .indexError
  | some c => if c.counts.length = counts.length then .ok (List.zipWith (· + ·) counts c.counts) else .error .valueError

/-- `_make_reference_bands_from_lightcurves`, `stingray/covariancespectrum.py` 249-293; `nbands` is the number of rows of `band_interest`.  With bounds, `searchsorted` of a two-dimensional array raises `ValueError` (line 272). -/
def refsFromCurves (lcs : List (Curve K)) (nbands : Nat) (bounds : Option (K × K)) : Except PyErr (Refs K) :=
  match bounds with
  | some _ => .error .valueError
  | none => do
    let cs ← (List.range nbands).mapM fun i =>
      match lcs with
      | [] => .error .indexError
      | l :: _ => do
        let counts ← ((List.range nbands).filter (· ≠ i)).foldlM (addCounts lcs) (l.counts.map fun _ => 0)
        return { time := l.time, counts := counts }
    return .each cs

/-- `np.unique`: sorted, without repetitions. -/
def unique (l : List K) : List K := (l.insertionSort (· ≤ ·)).dedup

/-- `_create_band_interest`, `stingray/covariancespectrum.py` 375-402: half the distance to the next energy on each side; the last band takes the distance of the one before (`energ_diff[-1]` of a single energy raises `IndexError`). -/
def createBands (evs : List (K × K)) : Except PyErr (List (K × K)) :=
  let u := unique (evs.map (·.2))
  let d := List.zipWith (fun a b => b - a) u u.tail
  match d.getLast?, u.getLast? with
  | some dl, some ul =>
    .ok (List.zipWith (fun e w => (e - 1 / 2 * w, e + 1 / 2 * w)) u d ++ [(ul - 1 / 2 * dl, ul + 1 / 2 * dl)])
  | _, _ => .error .indexError

/-- The bands of interest of events, `stingray/covariancespectrum.py` 120-135. -/
def eventBands (evs : List (K × K)) (bands : Option (List (K × K))) : Except PyErr (List (K × K)) :=
  match bands with
  | none => createBands evs
  | some b => if b = [] then .error .valueError else .ok b

/-- The number of bands of interest of light curves, `stingray/covariancespectrum.py` 124-135. -/
def curveBands (lcs : List (Curve K)) (bands : Option (List (K × K))) : Except PyErr Nat :=
  match bands with
  | none => .ok lcs.length
  | some b => if b = [] then .error .valueError else .ok b.length

/-- The light curves given as reference bands, `stingray/covariancespectrum.py` 153-192; `none` if they are to be made from the data, with the bounds given by the user. -/
def givenRefs (lcs : List (Curve K)) (ref : RefArg K) : Except PyErr (Refs K ⊕ Option (K × K)) :=
  match ref with
  | .absent => .ok (.inr none)
  | .curve c => .ok (.inl (.one c))
  | .curves cs => if cs.length = lcs.length then .ok (.inl (.each cs)) else .error .assertionError
  | .bounds a b => .ok (.inr (some (a, b)))
  | .bad => .error .valueError

/-- The light curves and their reference bands, `Covariancespectrum.__init__`, `stingray/covariancespectrum.py` 103-192.  The rows of events are sorted by time if they are not (lines 146-148).  Bounds are not handed on for events (line 192). -/
def prepare (sort : KeySort (fun (x : K) => x)) (byTime : KeySort (fun (x : K × K) => x.1)) (data : Data K) (dt : Option K)
    (bands : Option (List (K × K))) (ref : RefArg K) : Except PyErr (List (Curve K) × Refs K) :=
  match data with
  | .curves lcs => do
    if lcs = [] then .error .indexError
    let n ← curveBands lcs bands
    let g ← givenRefs lcs ref
    match g with
    | .inl r => return (lcs, r)
    | .inr b => do
      let r ← refsFromCurves lcs n b
      return (lcs, r)
  | .events evs => do
    if evs = [] then .error .indexError
    let bs ← eventBands evs bands
    match dt with
    | none => .error .valueError
    | some dt =>
      if dt = 0 then .error .valueError
      else do
        let evs := if (evs.map (·.1)).zip (evs.map (·.1)).tail |>.all (fun p => decide (p.1 ≤ p.2)) then evs else byTime.sort evs
        let lcs ← makeLightcurves sort dt evs bs
        let g ← givenRefs lcs ref
        match g with
        | .inl r => return (lcs, r)
        | .inr _ => do
          let r ← refsFromEvents sort dt evs bs none
          return (lcs, r)

/-- `Covariancespectrum(data, dt, band_interest, ref_band_interest, std)`, `stingray/covariancespectrum.py` 103-194. -/
def covarianceSpectrum (sqrt : K → K) (sort : KeySort (fun (x : K) => x)) (byTime : KeySort (fun (x : K × K) => x.1)) (data : Data K)
    (dt : Option K) (bands : Option (List (K × K))) (ref : RefArg K) (std : Std K) : Except PyErr (List (Row K)) := do
  let p ← prepare sort byTime data dt bands ref
  constructCovar sqrt std p.1 p.2

/-- `AveragedCovariancespectrum(data, segment_size, …)`, `stingray/covariancespectrum.py` 514-526. -/
def averagedCovariance (sqrt : K → K) (sort : KeySort (fun (x : K) => x)) (byTime : KeySort (fun (x : K × K) => x.1)) (segment : K)
    (data : Data K) (dt : Option K) (bands : Option (List (K × K))) (ref : RefArg K) (std : Std K) : Except PyErr (List (Row K)) := do
  let p ← prepare sort byTime data dt bands ref
  constructAvg sqrt std segment p.1 p.2

end Stingray.Covariance

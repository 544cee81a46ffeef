import Verif.Model.Basic
import Verif.Model.Gti
import Mathlib.Algebra.Order.Floor.Ring

/-!
# Light curves and event lists (`stingray/lightcurve.py`, `stingray/events.py`)
-/

namespace Stingray.Lightcurve

variable {K : Type} [Field K] [LinearOrder K] [IsStrictOrderedRing K]

/-! ## The lazily computed arrays -/

/-- The attributes behind the properties `counts`, `countrate`, `counts_err`, `countrate_err`,
`meanrate` and `meancounts` of `Lightcurve` (`stingray/lightcurve.py` 231-241).  The GTI mask is
taken as an array (its own cache is the subject of `Verif.Model.TimeSeries`); array-valued `dt`
is not modelled. -/
structure LC (K : Type) where
  /-- number of time stamps -/
  n : Nat
  dt : K
  /-- value of the property `mask` -/
  mask : List Bool
  lowMemory : Bool
  inputCounts : Bool
  /-- `err_dist.lower() == "poisson"` -/
  poisson : Bool
  counts : Option (List K)
  countrate : Option (List K)
  countsErr : Option (List K)
  countrateErr : Option (List K)
  meanrate : Option K
  meancounts : Option K
  deriving DecidableEq

/-- `np.mean(a[mask])`.  (NumPy gives NaN for an empty selection; the model gives 0.) -/
def maskedMean (mask : List Bool) (a : List K) : K :=
  (Gti.select mask a).sum / (Gti.select mask a).length

/-- The `counts` getter, `stingray/lightcurve.py` 384-393. -/
def getCounts (s : LC K) : Option (List K) × LC K :=
  match s.counts, s.countrate with
  | none, some r =>
    let c := r.map (· * s.dt)
    (some c, if !s.lowMemory || s.inputCounts then { s with counts := some c } else s)
  | c, _ => (c, s)

/-- The `countrate` getter, `stingray/lightcurve.py` 430-439. -/
def getCountrate (s : LC K) : Option (List K) × LC K :=
  match s.countrate, s.counts with
  | none, some c =>
    let r := c.map (· / s.dt)
    (some r, if !s.lowMemory || !s.inputCounts then { s with countrate := some r } else s)
  | r, _ => (r, s)

/-- The `counts` setter, `stingray/lightcurve.py` 395-402: the shape must be that of the times.
`_meancountrate` (line 401) is not an attribute anybody reads. -/
def setCounts (s : LC K) (v : List K) : Except PyErr (LC K) :=
  if v.length ≠ s.n then .error .valueError
  else .ok { s with counts := some v, countrate := none, meancounts := none, inputCounts := true }

/-- The `countrate` setter, `stingray/lightcurve.py` 441-449. -/
def setCountrate (s : LC K) (v : List K) : Except PyErr (LC K) :=
  if v.length ≠ s.n then .error .valueError
  else .ok { s with countrate := some v, counts := none, meancounts := none, inputCounts := false }

/-- The `counts_err` getter, `stingray/lightcurve.py` 404-421; `perr` is
`poisson_symmetrical_errors` (`stingray/utils.py` 1336-1380). -/
def getCountsErr (perr : List K → List K) (s : LC K) : Option (List K) × LC K :=
  match s.countsErr with
  | some e => (some e, s)
  | none =>
    let (e, s) := match s.countrateErr with
      | some r => (some (r.map (· * s.dt)), s)
      | none =>
        let (c, s') := getCounts s
        (c.map (fun c => if s.poisson then perr c else c.map (fun _ => 0)), s')
    (e, if !s.lowMemory || s.inputCounts then { s with countsErr := e } else s)

/-- The `countrate_err` getter, `stingray/lightcurve.py` 451-465. -/
def getCountrateErr (s : LC K) : List K × LC K :=
  match s.countrateErr with
  | some e => (e, s)
  | none =>
    let e := match s.countsErr with
      | some c => c.map (· / s.dt)
      | none => List.replicate s.n 0
    (e, if !s.lowMemory || !s.inputCounts then { s with countrateErr := some e } else s)

/-- The `counts_err` setter, `stingray/lightcurve.py` 423-428 (shape compared with `counts`). -/
def setCountsErr (s : LC K) (v : List K) : Except PyErr (LC K) :=
  if v.length ≠ s.n then .error .valueError
  else .ok { s with countsErr := some v, countrateErr := none }

/-- The `countrate_err` setter, `stingray/lightcurve.py` 467-472. -/
def setCountrateErr (s : LC K) (v : List K) : Except PyErr (LC K) :=
  if v.length ≠ s.n then .error .valueError
  else .ok { s with countrateErr := some v, countsErr := none }

/-- The `meanrate` getter, `stingray/lightcurve.py` 372-376. -/
def getMeanrate (s : LC K) : Option K × LC K :=
  match s.meanrate with
  | some m => (some m, s)
  | none =>
    let (r, s) := getCountrate s
    let m := r.map (maskedMean s.mask)
    (m, { s with meanrate := m })

/-- The `meancounts` getter, `stingray/lightcurve.py` 378-382. -/
def getMeancounts (s : LC K) : Option K × LC K :=
  match s.meancounts with
  | some m => (some m, s)
  | none =>
    let (c, s) := getCounts s
    let m := c.map (maskedMean s.mask)
    (m, { s with meancounts := m })

/-- What a user can do with these properties.  `changeMask` is an assignment of new GTIs
(`stingray/base.py` 1254-1261): the mask changes, nothing else is reset. -/
inductive Op (K : Type) where
  | readCounts | readCountrate | readCountsErr | readCountrateErr | readMeanrate | readMeancounts
  | setCounts (v : List K)
  | setCountrate (v : List K)
  | setCountsErr (v : List K)
  | setCountrateErr (v : List K)
  | changeMask (m : List Bool)

/-- One operation. -/
def step (perr : List K → List K) (s : LC K) : Op K → Except PyErr (LC K)
  | .readCounts => .ok (getCounts s).2
  | .readCountrate => .ok (getCountrate s).2
  | .readCountsErr => .ok (getCountsErr perr s).2
  | .readCountrateErr => .ok (getCountrateErr s).2
  | .readMeanrate => .ok (getMeanrate s).2
  | .readMeancounts => .ok (getMeancounts s).2
  | .setCounts v => Lightcurve.setCounts s v
  | .setCountrate v => Lightcurve.setCountrate s v
  | .setCountsErr v => Lightcurve.setCountsErr s v
  | .setCountrateErr v => Lightcurve.setCountrateErr s v
  | .changeMask m => .ok { s with mask := m }

/-- A history. -/
def run (perr : List K → List K) (s : LC K) : List (Op K) → Except PyErr (LC K)
  | [] => .ok s
  | o :: os => do run perr (← step perr s o) os

/-- What the constructor leaves behind, `stingray/lightcurve.py` 231-241 and 335-340. -/
def init (dt : K) (mask : List Bool) (lowMemory inputCounts poisson : Bool) (v : List K)
    (err : Option (List K)) : LC K where
  n := v.length
  dt := dt
  mask := mask
  lowMemory := lowMemory
  inputCounts := inputCounts
  poisson := poisson
  counts := if inputCounts then some v else none
  countrate := if inputCounts then none else some v
  countsErr := if inputCounts then err else none
  countrateErr := if inputCounts then none else err
  meanrate := none
  meancounts := none

/-! ## Binning photons -/

section binning
variable [FloorRing K]

/-- `int(x)`. -/
def pyInt (x : K) : Int := if 0 ≤ x then ⌊x⌋ else ⌈x⌉

/-- The number of bins, `stingray/lightcurve.py` 884-887. -/
def timebin (tseg dt : K) : Int :=
  let n := pyInt (tseg / dt)
  if (99 : K) / 100 ≤ tseg / dt - n then n + 1 else n

/-- `tstart`, `stingray/lightcurve.py` 866-871; `toa` is already sorted. -/
def lcStart (toa : List K) (tstart : Option K) (gti : Option (List (K × K))) : Except PyErr K :=
  match tstart with
  | some t => .ok t
  | none =>
    match toa with
    | [] => .error .indexError
    | t0 :: _ =>
      match gti with
      | none => .ok t0
      | some g =>
        match Gti.flatten g with
        | [] => .error .valueError
        | p :: ps => .ok (ps.foldl min p)

/-- `tseg`, `stingray/lightcurve.py` 877-880. -/
def lcLength (toa : List K) (tstart : K) (tseg : Option K) (gti : Option (List (K × K))) :
    Except PyErr K :=
  match tseg with
  | some t => .ok t
  | none =>
    match toa.getLast? with
    | none => .error .indexError
    | some t1 =>
      match gti with
      | none => .ok (t1 - tstart)
      | some g =>
        match Gti.flatten g with
        | [] => .error .valueError
        | p :: ps => .ok (ps.foldl max p - tstart)

/-- `np.bincount(idx, minlength=n)`. -/
def bincount (idx : List Nat) (n : Nat) : List Nat :=
  (List.range (idx.foldl (fun m i => max m (i + 1)) n)).map (fun i => idx.count i)

/-- `np.histogram(a, bins=edges)`: half-open bins, the last one closed. -/
def npHistogram (a : List K) (edges : List K) : List Nat :=
  (List.range (edges.length - 1)).map fun i =>
    (a.filter fun x => match edges[i]?, edges[i + 1]? with
      | some lo, some hi =>
        if i + 2 = edges.length then decide (lo ≤ x ∧ x ≤ hi) else decide (lo ≤ x ∧ x < hi)
      | _, _ => false).length

/-- `Lightcurve.make_lightcurve`, `stingray/lightcurve.py` 818-904: the times and the counts.
`sort` is `np.sort` of line 863.  Array-like `gti` are kept as they are. -/
def makeLightcurve (sort : KeySort (fun (x : K) => x)) (toa : List K) (dt : K) (tseg tstart : Option K)
    (gti : Option (List (K × K))) (useHist : Bool) : Except PyErr (List K × List Nat) := do
  let toa := sort.sort toa
  let t0 ← lcStart toa tstart gti
  let len ← lcLength toa t0 tseg gti
  let n := timebin len dt
  let tend := t0 + n * dt
  let good := toa.filter (fun t => decide (t0 ≤ t ∧ t < tend))
  if useHist then
    let edges := Gti.arange t0 (tend + dt) dt
    return (edges.dropLast.map (· + 1 / 2 * dt), npHistogram good edges)
  else if n < 0 then .error .valueError
  else
    let counts := bincount (good.map fun t => ⌊(t - t0) / dt⌋₊) n.toNat
    return ((List.range counts.length).map (fun (i : Nat) => t0 + (1 / 2 + (i : K)) * dt), counts)

/-- `suggest_compatible_dt`, `stingray/events.py` 676-701; `rint` is `np.rint`, `isclose` is
`np.isclose(·, ·, rtol=1e-4)`; `evdt` is the `dt` of the event list. -/
def suggestCompatibleDt (rint : K → Int) (isclose : K → K → Bool) (evdt dt : K) : K :=
  if 0 < evdt ∧ isclose evdt dt = false then evdt * (max (rint (dt / evdt)) 1 : Int) else dt

/-- `fix_segment_size_to_integer_samples`, `stingray/utils.py` 1056-1098. -/
def fixSegmentSize (segmentSize dt tolerance : K) : K × Int :=
  let nf := segmentSize / dt
  let n := if (⌈nf⌉ : K) - nf < tolerance then ⌈nf⌉ else ⌊nf⌋
  (n * dt, n)

end binning

/-! ## Light curve to events -/

/-- `_from_lc_numba`, `stingray/events.py` 29-52, as the list of event times: `empty_times` is the
zero array it fills, `last` the running position.  When no count is positive the variable `val`
is never assigned and the `return` raises. -/
def fromLcLoop (last : Nat) (val : Option Nat) (buf : List K) :
    List (K × Int) → Except PyErr (List K)
  | [] =>
    match val with
    | none => .error .nameError
    | some v => .ok (buf.take v)
  | (t, c) :: rest =>
    if c ≤ 0 then fromLcLoop last val buf rest
    else
      let v := c.toNat + last
      -- `empty_times[last:val] = t`
      let buf := buf.take last ++ List.replicate (min v buf.length - last) t ++ buf.drop v
      fromLcLoop v (some v) buf rest

/-- `_int_sum_non_zero`, `stingray/utils.py` 2400-2422. -/
def intSumNonZero (l : List Int) : Nat := ((l.filter (fun c => decide (0 < c))).map Int.toNat).sum

/-- `simple_events_from_lc` (`EventList.from_lc`), `stingray/events.py` 55-82 and 399-417.
Counts are already integers (`astype(int)` truncates). -/
def fromLc (times : List K) (counts : List Int) : Except PyErr (List K) :=
  fromLcLoop 0 none (List.replicate (intSumNonZero counts) 0) (times.zip counts)

/-! ## Energy filters -/

/-- `get_energy_mask`, `stingray/events.py` 657-674, on the array chosen by `use_pi`. -/
def energyMask (energies : List K) (range : K × K) : List Bool :=
  energies.map (fun e => decide (range.1 ≤ e) && decide (e < range.2))

/-- `filter_energy_range`, `stingray/events.py` 703-731, on one array of the list. -/
def filterEnergyRange {α : Type} (energies : List K) (range : K × K) (a : List α) : List α :=
  Gti.select (energyMask energies range) a

/-! ## Joining light curves -/

/-- One light curve as `join` sees it: (time, counts, error) triples.  The loop of lines
1070-1079 of `stingray/lightcurve.py`: a dictionary keyed by time, in insertion order. -/
def joinInsert (sqrt : K → K) (d : List (K × K × K)) (x : K × K × K) : List (K × K × K) :=
  match d.findIdx? (fun y => decide (y.1 = x.1)) with
  | some i => d.modify i (fun y => (y.1, (y.2.1 + x.2.1) / 2, sqrt ((y.2.2 * y.2.2 + x.2.2 * x.2.2) / 2)))
  | none => d ++ [x]

/-- The loop of lines 1066-1068: a later equal time overwrites. -/
def joinFirst (d : List (K × K × K)) (x : K × K × K) : List (K × K × K) :=
  match d.findIdx? (fun y => decide (y.1 = x.1)) with
  | some i => d.modify i (fun _ => x)
  | none => d ++ [x]

/-- `Lightcurve.join`, `stingray/lightcurve.py` 985-1110, for light curves with the same reference and the
same (valid) statistics; `a` is the one that starts first. -/
def join (sqrt : K → K) (a b : List (K × K × K)) : List (K × K × K) :=
  if a.any (fun x => b.any fun y => decide (x.1 = y.1)) then
    b.foldl (joinInsert sqrt) (a.foldl joinFirst [])
  else a ++ b

end Stingray.Lightcurve

import Verif.Model.Basic
import Mathlib.Algebra.Order.Field.Basic
import Mathlib.Algebra.BigOperators.Group.List.Basic

/-!
# Fourier products: `stingray/fourier.py`

Powers are numbers of an ordered field `K`, complex powers are pairs.  The fast Fourier
transform of the libraries is a parameter `fft : List K → List (Cx K)`, so that what is proved
holds for whatever it returns; `Verif/Spec/Dft.lean` has the discrete Fourier transform over the
real numbers, used where the property depends on it.  `sqrt` is a parameter too.

NumPy divisions by zero yield `inf`/`nan` with a warning; here they yield 0.
-/

namespace Stingray.Fourier

/-- A complex number with parts in `K`. -/
structure Cx (K : Type) where
  re : K
  im : K
  deriving DecidableEq

namespace Cx
variable {K : Type} [Field K]

instance : Zero (Cx K) := ⟨⟨0, 0⟩⟩
instance : Add (Cx K) := ⟨fun a b => ⟨a.re + b.re, a.im + b.im⟩⟩
instance : Mul (Cx K) := ⟨fun a b => ⟨a.re * b.re - a.im * b.im, a.re * b.im + a.im * b.re⟩⟩
/-- `.conj()` -/
def conj (a : Cx K) : Cx K := ⟨a.re, -a.im⟩
/-- apply a real-linear map to both parts (product or quotient by a real number) -/
def both (f : K → K) (a : Cx K) : Cx K := ⟨f a.re, f a.im⟩

end Cx

variable {K : Type} [Field K] [LinearOrder K]

/-! ## Frequencies -/

/-- `positive_fft_bins`, `stingray/fourier.py` 111-175: the two ends of the slice. -/
def positiveFftBins (n : Nat) (includeZero : Bool) : Nat × Nat :=
  let minbin := if includeZero then 0 else 1
  if n % 2 = 0 then (minbin, n / 2) else (minbin, (n + 1) / 2)

/-- `a[start:stop]` with non-negative ends. -/
def slice {α : Type} (s : Nat × Nat) (a : List α) : List α := (a.take s.2).drop s.1

/-- `numpy.fft.fftfreq(n, d)`: `0, 1, …, (n-1)//2, -(n//2), …, -1`, over `n d`. -/
def fftfreq (n : Nat) (d : K) : List K :=
  ((List.range ((n - 1) / 2 + 1)).map (fun (i : Nat) => (i : K) * (1 / (n * d)))) ++
  ((List.range (n / 2)).map (fun (i : Nat) => ((i : K) - (n / 2 : Nat)) * (1 / (n * d))))

/-! ## Normalisations -/

/-- The `norm` argument; `other` is any unknown string. -/
inductive Norm where
  | none | frac | abs | leahy | other
  deriving DecidableEq

/-- `normalize_periodograms` without its `power_type`, `stingray/fourier.py` 566-577, with the functions it
calls (271-499): the map applied to the (real or complex) powers.
Simplification: `mean_flux` and `n_ph` are given. -/
def normalizer (norm : Norm) (dt : K) (nBin : K) (meanFlux nPh : K) (variance : Option K)
    (background : K) : Except PyErr (K → K) :=
  match norm, variance with
  | .leahy, some v =>
    if v = 0 then .error .valueError else .ok (fun p => p * 2 / (v * nBin))
  | .leahy, Option.none => .ok (fun p => p * 2 / nPh)
  | .frac, _ =>
    if 0 < background then .ok (fun p => p * 2 * dt / ((meanFlux - background) ^ 2 * nBin))
    else .ok (fun p => p * 2 * dt / (meanFlux ^ 2 * nBin))
  | .abs, _ => .ok (fun p => p * 2 / nBin / dt)
  | .none, _ => .ok (fun p => p)
  | .other, _ => .error .valueError

/-- `unnormalize_periodograms` without its `power_type`, `stingray/fourier.py` 588-658. -/
def unnormalizer (norm : Norm) (dt : K) (nBin : K) (nPh : K) (variance : Option K)
    (background : K) : Except PyErr (K → K) :=
  match norm, variance with
  | .leahy, some v => .ok (fun p => p * (v * nPh) / 2)
  | .leahy, Option.none => .ok (fun p => p * nPh / 2)
  | .frac, _ =>
    if 0 < background then .ok (fun p => p * ((nPh / nBin - background) ^ 2 * nBin) / (2 * dt))
    else .ok (fun p => p * (nPh ^ 2 / nBin) / (2 * dt))
  | .abs, _ => .ok (fun p => p * dt * nBin / 2)
  | .none, _ => .ok (fun p => p)
  | .other, _ => .error .valueError

/-- The `power_type` argument, lines 579-585; `other` is any unknown string. -/
inductive PowerType where
  | all | real | abs | other
  deriving DecidableEq

/-- `normalize_periodograms` on an array of complex powers, `stingray/fourier.py` 502-585. -/
def normalizeCx (sqrt : K → K) (norm : Norm) (dt nBin meanFlux nPh : K) (variance : Option K)
    (background : K) (pt : PowerType) (p : List (Cx K)) : Except PyErr (List (Cx K)) := do
  let f ← normalizer norm dt nBin meanFlux nPh variance background
  let pds := p.map (Cx.both f)
  match pt with
  | .all => .ok pds
  | .real => .ok (pds.map fun a => ⟨a.re, 0⟩)
  | .abs => .ok (pds.map fun a => ⟨sqrt (a.re * a.re + a.im * a.im), 0⟩)
  | .other => .error .valueError

/-- `normalize_periodograms` on an array of real powers. -/
def normalizeRe (norm : Norm) (dt nBin meanFlux nPh : K) (variance : Option K)
    (background : K) (pt : PowerType) (p : List K) : Except PyErr (List K) := do
  let f ← normalizer norm dt nBin meanFlux nPh variance background
  let pds := p.map f
  match pt with
  | .all => .ok pds
  | .real => .ok pds
  | .abs => .ok (pds.map fun a => |a|)
  | .other => .error .valueError

/-- `poisson_level`, `stingray/fourier.py` 178-268. -/
def poissonLevel (norm : Norm) (meanrate nPh : Option K) (backrate : K) : Except PyErr K :=
  match norm, meanrate, nPh with
  | .abs, Option.none, _ => .error .valueError
  | .frac, Option.none, _ => .error .valueError
  | .none, _, Option.none => .error .valueError
  | .abs, some r, _ => .ok (2 * r)
  | .frac, some r, _ => .ok (2 / (r - backrate) ^ 2 * r)
  | .leahy, _, _ => .ok 2
  | .none, _, some n => .ok n
  | .other, _, _ => .error .valueError

/-! ## Power in a band -/

/-- One frequency bin: centre, width, power, noise level. -/
structure PowerBin (K : Type) where
  f : K
  df : K
  power : K
  noise : K

/-- `correction_ratios[0] = …` (lines 91-93). -/
def fixFirst (a : K) : List (PowerBin K × K) → List (PowerBin K × K)
  | [] => []
  | (b, _) :: l => (b, (b.f + 1 / 2 * b.df - a) / b.df) :: l

/-- `correction_ratios[-1] = …` (lines 94-96). -/
def fixLast (e : K) : List (PowerBin K × K) → List (PowerBin K × K)
  | [] => []
  | [(b, _)] => [(b, (e - b.f + 1 / 2 * b.df) / b.df)]
  | x :: y :: l => x :: fixLast e (y :: l)

/-- `integrate_power_in_frequency_range`, `stingray/fourier.py` 28-108, first returned value, with `df`
and `poisson_power` already made arrays; an empty selection raises at `correction_ratios[0]`. -/
def integratePower (bins : List (PowerBin K)) (a e : K) : Except PyErr K :=
  let sel := bins.filter (fun b => decide (a < b.f + b.df / 2) && decide (b.f - b.df / 2 < e))
  if sel.isEmpty then .error .indexError
  else
    let r := fixLast e (fixFirst a (sel.map fun b => (b, 1)))
    .ok ((r.map fun x => (x.1.power - x.1.noise) * (x.1.df * x.2)).sum)

/-! ## Coherence -/

/-- `bias_term`, `stingray/fourier.py` 669-709, for numbers. -/
def biasTerm (p1 p2 noise1 noise2 nAve coh : K) : K :=
  if 500 < nAve then 0 * p1
  else (p1 * p2 - coh * (p1 - noise1) * (p2 - noise2)) / nAve

/-- `raw_coherence`, `stingray/fourier.py` 712-755, for one frequency. -/
def rawCoherence (c : Cx K) (p1 p2 noise1 noise2 nAve coh : K) : K :=
  let bsq := biasTerm p1 p2 noise1 noise2 nAve coh
  let g := (c * c.conj).re
  let num := g - bsq
  let num := if num < 0 then g else num
  num / (p1 * p2)

/-- `_estimate_intrinsic_coherence_single`, `stingray/fourier.py` 758-802: the loop, with the number of rounds
left as fuel (40 at the start). -/
def intrinsicLoop (isclose : K → K → Bool) (c : Cx K) (p1 p2 noise1 noise2 nAve : K) :
    Nat → K → K → K
  | 0, new, _ => new
  | k + 1, new, old =>
    if isclose new old then new
    else
      let bsq := biasTerm p1 p2 noise1 noise2 nAve new
      let den := (p1 - noise1) * (p2 - noise2)
      let g := (c * c.conj).re
      let num := g - bsq
      let num := if num < 0 then g else num
      intrinsicLoop isclose c p1 p2 noise1 noise2 nAve k (num / den) new

/-- `estimate_intrinsic_coherence`, for one frequency. -/
def intrinsicCoherence (isclose : K → K → Bool) (c : Cx K) (p1 p2 noise1 noise2 nAve : K) : K :=
  intrinsicLoop isclose c p1 p2 noise1 noise2 nAve 40 1 0

/-! ## Averages over segments -/

/-- What the iterable of segments yields: nothing (`None`), the fluxes, or the fluxes and their errors. -/
inductive Segment (K : Type) where
  | missing
  | flux (f : List K)
  | fluxErr (f e : List K)

/-- `flux is None or np.all(flux == 0)`: a tuple is not equal to 0, so it is never skipped. -/
def Segment.skipped : Segment K → Bool
  | .missing => true
  | .flux f => f.all (fun x => decide (x = 0))
  | .fluxErr _ _ => false

/-- The fluxes of a segment, and `np.mean(err) ** 2` if there are errors. -/
def Segment.data : Segment K → List K × Option K
  | .missing => ([], none)
  | .flux f => (f, none)
  | .fluxErr f e => (f, some ((e.sum / e.length) ^ 2))

/-- `sum_if_not_none_or_initialize`, `stingray/utils.py` 2337-2356, for arrays; adding arrays of different
shape raises.  Simplification: arrays of size 1 are not broadcast. -/
def sumOrInit {α : Type} [Add α] (a : Option (List α)) (b : List α) : Except PyErr (List α) :=
  match a with
  | none => .ok b
  | some a => if a.length = b.length then .ok (List.zipWith (· + ·) a b) else .error .valueError

/-- `sum_if_not_none_or_initialize` for numbers. -/
def addOrInit (a : Option K) (b : K) : K :=
  match a with
  | none => b
  | some a => a + b

/-- `if variance is not None: common_variance = sum_if_not_none_or_initialize(common_variance, variance)` -/
def addIfGiven (a : Option K) (b : Option K) : Option K :=
  match b with
  | none => a
  | some b => some (addOrInit a b)

/-- "If normalization has to be done interval by interval, do it here" (lines 1695-1707, 2081-2125): the array of
the segment, or what `normalize_periodograms` makes of it. -/
def perSegment {α : Type} (useCommonMean : Bool) (unnorm : List α) (normalized : Except PyErr (List α)) :
    Except PyErr (List α) :=
  if useCommonMean then .ok unnorm else normalized

/-- The variables of the loop of `avg_pds_from_iterable`. -/
structure PdsAcc (K : Type) where
  cross : Option (List K) := none
  unnorm : Option (List K) := none
  nAve : Nat := 0
  sumPh : K
  variance : Option K := none
  nBin : Nat := 0
  fgt0 : Nat × Nat := (0, 0)
  freq : List K := []
  subcs : List (List K) := []
  unnormSubcs : List (List K) := []

/-- The returned table. -/
structure PdsTable (K : Type) where
  freq : List K
  power : List K
  unnormPower : List K
  n : Nat
  m : Nat
  nphots : K
  mean : K
  variance : Option K
  segmentSize : K
  df : K
  subcs : List (List K)
  unnormSubcs : List (List K)
  deriving DecidableEq

/-- One round of the loop, `stingray/fourier.py` 1658-1717. -/
def pdsStep (fft : List K → List (Cx K)) (dt : K) (norm : Norm) (useCommonMean : Bool)
    (acc : PdsAcc K) (s : Segment K) : Except PyErr (PdsAcc K) :=
  if s.skipped then .ok acc
  else do
    let flux := s.data.1
    let variance := s.data.2
    let nBin := flux.length
    let ft := fft flux
    let nPh := flux.sum
    let unnormPower := ft.map (fun a => (a * a.conj).re)
    let sumPh := acc.sumPh + nPh
    let var := addIfGiven acc.variance variance
    let fgt0 := if acc.cross.isNone then positiveFftBins nBin false else acc.fgt0
    let freq := if acc.cross.isNone then slice fgt0 (fftfreq nBin dt) else acc.freq
    let unnormPower := slice fgt0 unnormPower
    let csSeg ← perSegment useCommonMean unnormPower
      (normalizeRe norm dt nBin (nPh / nBin) nPh variance 0 .all unnormPower)
    let cross ← sumOrInit acc.cross csSeg
    let unnorm ← sumOrInit acc.unnorm unnormPower
    .ok { cross := some cross, unnorm := some unnorm, nAve := acc.nAve + 1, sumPh := sumPh,
          variance := var, nBin := nBin, fgt0 := fgt0, freq := freq,
          subcs := acc.subcs ++ [csSeg], unnormSubcs := acc.unnormSubcs ++ [unnormPower] }

/-- What follows the loop, `stingray/fourier.py` 1719-1768 (`return_subcs=True`). -/
def pdsFinish (dt : K) (norm : Norm) (useCommonMean : Bool) (acc : PdsAcc K) :
    Except PyErr (Option (PdsTable K)) :=
  match acc.cross, acc.unnorm with
  | some cross, some unnorm => do
    let nPh := acc.sumPh / acc.nAve
    let commonMean := nPh / acc.nBin
    let var := acc.variance.map (· / (acc.nAve : K))
    let unnorm := unnorm.map (· / (acc.nAve : K))
    let cross := cross.map (· / (acc.nAve : K))
    let factor ← if useCommonMean then
        (normalizer norm dt acc.nBin commonMean nPh var 0).map (fun f => f 1)
      else .ok 1
    .ok (some { freq := acc.freq
                power := if useCommonMean then unnorm.map (· * factor) else cross
                unnormPower := unnorm, n := acc.nBin, m := acc.nAve, nphots := nPh, mean := commonMean,
                variance := var, segmentSize := dt * acc.nBin, df := 1 / (dt * acc.nBin),
                subcs := if useCommonMean then acc.subcs.map (fun s => s.map (· * factor)) else acc.subcs,
                unnormSubcs := acc.unnormSubcs })
  | _, _ => .ok none

/-- `avg_pds_from_iterable`, `stingray/fourier.py` 1589-1768. -/
def avgPds (fft : List K → List (Cx K)) (dt : K) (norm : Norm) (useCommonMean : Bool)
    (segs : List (Segment K)) : Except PyErr (Option (PdsTable K)) := do
  let acc ← segs.foldlM (pdsStep fft dt norm useCommonMean) { sumPh := 0 }
  pdsFinish dt norm useCommonMean acc

/-- The returned table of the cross spectra (the columns and the entries of `meta` that are modelled). -/
structure CsTable (K : Type) where
  freq : List K
  power : List (Cx K)
  unnormPower : List (Cx K)
  n : Nat
  m : Nat
  nphots : K
  nphots1 : K
  nphots2 : K
  mean : K
  mean1 : K
  mean2 : K
  variance : Option K
  deriving DecidableEq

/-- The variables of the loop of `avg_cs_from_iterables_quick`. -/
structure QuickAcc (K : Type) where
  unnorm : Option (List (Cx K)) := none
  nAve : Nat := 0
  sumPh1 : K
  sumPh2 : K
  nBin : Nat := 0
  freq : List K := []
  fgt0 : Nat × Nat := (0, 0)

/-- The product `ft1.conj() * ft2` of two arrays of the same size. -/
def crossProduct (a b : List (Cx K)) : List (Cx K) := List.zipWith (fun x y => x.conj * y) a b

/-- One round of the loop, `stingray/fourier.py` 1831-1865.  Tuples never reach this function: it is called for event
lists only; here they raise. -/
def quickStep (fft : List K → List (Cx K)) (dt : K)
    (acc : QuickAcc K) (s : Segment K × Segment K) : Except PyErr (QuickAcc K) :=
  if s.1.skipped || s.2.skipped then .ok acc
  else
    match s with
    | (.flux f1, .flux f2) =>
      if f1.length ≠ f2.length then .error .valueError else do
      let nBin := f1.length
      let freq := if acc.unnorm.isNone then fftfreq nBin dt else acc.freq
      let fgt0 := if acc.unnorm.isNone then positiveFftBins nBin false else acc.fgt0
      let u := slice fgt0 (crossProduct (fft f1) (fft f2))
      let unnorm ← sumOrInit acc.unnorm u
      .ok { unnorm := some unnorm, nAve := acc.nAve + 1, sumPh1 := acc.sumPh1 + f1.sum,
            sumPh2 := acc.sumPh2 + f2.sum, nBin := nBin, freq := freq, fgt0 := fgt0 }
    | _ => .error .attributeError

/-- `avg_cs_from_iterables_quick`, `stingray/fourier.py` 1771-1923. -/
def avgCsQuick (fft : List K → List (Cx K)) (sqrt : K → K) (dt : K) (norm : Norm)
    (segs : List (Segment K × Segment K)) : Except PyErr (Option (CsTable K)) := do
  let acc ← segs.foldlM (quickStep fft dt) { sumPh1 := 0, sumPh2 := 0 }
  match acc.unnorm with
  | none => .ok none
  | some u =>
    let nPh1 := acc.sumPh1 / acc.nAve
    let nPh2 := acc.sumPh2 / acc.nAve
    let nPh := sqrt (nPh1 * nPh2)
    let u := u.map (Cx.both (· / (acc.nAve : K)))
    let cross ← normalizeCx sqrt norm dt acc.nBin (nPh / acc.nBin) nPh none 0 .all u
    .ok (some { freq := slice acc.fgt0 acc.freq, power := cross, unnormPower := u, n := acc.nBin,
                m := acc.nAve, nphots := nPh, nphots1 := nPh1, nphots2 := nPh2,
                mean := nPh / acc.nBin, mean1 := nPh1 / acc.nBin, mean2 := nPh2 / acc.nBin,
                variance := none })

/-- The variables of the loop of `avg_cs_from_iterables` (`return_auxil=True`, `return_subcs=True`: the other outputs do
not depend on these flags). -/
structure CsAcc (K : Type) where
  cross : Option (List (Cx K)) := none
  unnorm : Option (List (Cx K)) := none
  unnormPds1 : Option (List K) := none
  unnormPds2 : Option (List K) := none
  pds1 : Option (List K) := none
  pds2 : Option (List K) := none
  nAve : Nat := 0
  sumPh1 : K
  sumPh2 : K
  var1 : Option K := none
  var2 : Option K := none
  nBin : Nat := 0
  freq : List K := []
  fgt0 : Nat × Nat := (0, 0)
  subcs : List (List (Cx K)) := []
  unnormSubcs : List (List (Cx K)) := []

/-- The auxiliary power spectra and the single-segment spectra. -/
structure CsAux (K : Type) where
  pds1 : List K
  pds2 : List K
  unnormPds1 : List K
  unnormPds2 : List K
  subcs : List (List (Cx K))
  unnormSubcs : List (List (Cx K))
  deriving DecidableEq

/-- Options of `avg_cs_from_iterables`. -/
structure CsOpts where
  norm : Norm
  useCommonMean : Bool
  fullspec : Bool
  powerType : PowerType

/-- The variances of a pair of segments: "only use the variance if both flux iterables define it" (lines 2025-2040). -/
def pairVar (s : Segment K × Segment K) : Option (K × K) :=
  match s.1.data.2, s.2.data.2 with
  | some v1, some v2 => some (v1, v2)
  | _, _ => none

/-- The part of a spectrum that is kept (lines 2073-2079). -/
def cutTo {α : Type} (fullspec : Bool) (fgt0 : Nat × Nat) (a : List α) : List α :=
  if fullspec then a else slice fgt0 a

/-- One round of the loop, `stingray/fourier.py` 2021-2141. -/
def csStep (fft : List K → List (Cx K)) (sqrt : K → K) (dt : K) (o : CsOpts)
    (acc : CsAcc K) (s : Segment K × Segment K) : Except PyErr (CsAcc K) :=
  if s.1.skipped || s.2.skipped then .ok acc
  -- the product of arrays of different size raises
  else if s.1.data.1.length ≠ s.2.data.1.length then .error .valueError
  else do
    let f1 := s.1.data.1
    let f2 := s.2.data.1
    let vars := pairVar s
    let var1 := addIfGiven acc.var1 (vars.map Prod.fst)
    let var2 := addIfGiven acc.var2 (vars.map Prod.snd)
    let nBin := f1.length
    let freq := if acc.cross.isNone then fftfreq nBin dt else acc.freq
    let fgt0 := if acc.cross.isNone then positiveFftBins nBin false else acc.fgt0
    let ft1 := fft f1
    let ft2 := fft f2
    let nPh1 := f1.sum
    let nPh2 := f2.sum
    let nPh := sqrt (nPh1 * nPh2)
    let u := cutTo o.fullspec fgt0 (crossProduct ft1 ft2)
    let u1 := cutTo o.fullspec fgt0 (ft1.map (fun a => (a * a.conj).re))
    let u2 := cutTo o.fullspec fgt0 (ft2.map (fun a => (a * a.conj).re))
    let cs ← perSegment o.useCommonMean u (normalizeCx sqrt o.norm dt nBin (nPh / nBin) nPh
      (vars.map fun v => sqrt (v.1 * v.2)) 0 o.powerType u)
    let p1 ← perSegment o.useCommonMean u1
      (normalizeRe o.norm dt nBin (nPh1 / nBin) nPh1 (vars.map Prod.fst) 0 o.powerType u1)
    let p2 ← perSegment o.useCommonMean u2
      (normalizeRe o.norm dt nBin (nPh2 / nBin) nPh2 (vars.map Prod.snd) 0 o.powerType u2)
    let cross ← sumOrInit acc.cross cs
    let unnorm ← sumOrInit acc.unnorm u
    let unnormPds1 ← sumOrInit acc.unnormPds1 u1
    let unnormPds2 ← sumOrInit acc.unnormPds2 u2
    let pds1 ← sumOrInit acc.pds1 p1
    let pds2 ← sumOrInit acc.pds2 p2
    .ok { cross := some cross, unnorm := some unnorm, unnormPds1 := some unnormPds1,
          unnormPds2 := some unnormPds2, pds1 := some pds1, pds2 := some pds2, nAve := acc.nAve + 1,
          sumPh1 := acc.sumPh1 + nPh1, sumPh2 := acc.sumPh2 + nPh2, var1 := var1, var2 := var2,
          nBin := nBin, freq := freq, fgt0 := fgt0, subcs := acc.subcs ++ [cs],
          unnormSubcs := acc.unnormSubcs ++ [u] }

/-- What follows the loop, `stingray/fourier.py` 2143-2260. -/
def csFinish (sqrt : K → K) (dt : K) (o : CsOpts) (acc : CsAcc K) :
    Except PyErr (Option (CsTable K × CsAux K)) :=
  match acc.cross, acc.unnorm, acc.unnormPds1, acc.unnormPds2, acc.pds1, acc.pds2 with
  | some cross, some unnorm, some u1, some u2, some p1, some p2 => do
    let nPh1 := acc.sumPh1 / acc.nAve
    let nPh2 := acc.sumPh2 / acc.nAve
    let nPh := sqrt (nPh1 * nPh2)
    let mean1 := nPh1 / acc.nBin
    let mean2 := nPh2 / acc.nBin
    let mean := nPh / acc.nBin
    let v1 := acc.var1.map (· / (acc.nAve : K))
    let v2 := acc.var2.map (· / (acc.nAve : K))
    let v := match v1, v2 with | some a, some b => some (sqrt (a * b)) | _, _ => none
    let cross := cross.map (Cx.both (· / (acc.nAve : K)))
    let unnorm := unnorm.map (Cx.both (· / (acc.nAve : K)))
    let u1 := u1.map (· / (acc.nAve : K))
    let u2 := u2.map (· / (acc.nAve : K))
    let freq := cutTo o.fullspec acc.fgt0 acc.freq
    if o.useCommonMean then
      let cross ← normalizeCx sqrt o.norm dt acc.nBin mean nPh v 0 o.powerType unnorm
      let subcs ← acc.unnormSubcs.mapM (normalizeCx sqrt o.norm dt acc.nBin mean nPh v 0 o.powerType)
      let p1 ← normalizeRe o.norm dt acc.nBin mean1 nPh1 v1 0 o.powerType u1
      let p2 ← normalizeRe o.norm dt acc.nBin mean2 nPh2 v2 0 o.powerType u2
      .ok (some ({ freq := freq, power := cross, unnormPower := unnorm, n := acc.nBin, m := acc.nAve,
                   nphots := nPh, nphots1 := nPh1, nphots2 := nPh2, mean := mean, mean1 := mean1,
                   mean2 := mean2, variance := v },
                 { pds1 := p1, pds2 := p2, unnormPds1 := u1, unnormPds2 := u2, subcs := subcs,
                   unnormSubcs := acc.unnormSubcs }))
    else
      -- `pds1` and `pds2` are returned as they are
      .ok (some ({ freq := freq, power := cross, unnormPower := unnorm, n := acc.nBin, m := acc.nAve,
                   nphots := nPh, nphots1 := nPh1, nphots2 := nPh2, mean := mean, mean1 := mean1,
                   mean2 := mean2, variance := v },
                 { pds1 := p1, pds2 := p2, unnormPds1 := u1, unnormPds2 := u2, subcs := acc.subcs,
                   unnormSubcs := acc.unnormSubcs }))
  | _, _, _, _, _, _ => .ok none

/-- `avg_cs_from_iterables`, `stingray/fourier.py` 1926-2260. -/
def avgCs (fft : List K → List (Cx K)) (sqrt : K → K) (dt : K) (o : CsOpts)
    (segs : List (Segment K × Segment K)) : Except PyErr (Option (CsTable K × CsAux K)) := do
  let acc ← segs.foldlM (csStep fft sqrt dt o) { sumPh1 := 0, sumPh2 := 0 }
  csFinish sqrt dt o acc

/-! ## Integrated rms -/

/-- `get_rms_from_rms_norm_periodogram`, `stingray/fourier.py` 843-930, first returned value, `df` constant.
Not modelled: the error, which does not enter it, and the warnings. -/
def rmsFromNorm (sqrt : K → K) (power : List K) (noise df : K) : K :=
  let total := (power.map fun p => (p - noise) * df).sum
  if total < 0 then 0 else sqrt total

/-- The `kind` argument of `get_rms_from_unnorm_periodogram`. -/
inductive RmsKind where
  | frac | abs | other

/-- `get_rms_from_unnorm_periodogram`, `stingray/fourier.py` 933-997, first returned value. -/
def rmsFromUnnorm (sqrt : K → K) (unnorm : List K) (nphots df : K) (noise : Option K) (segmentSize : Option K)
    (kind : RmsKind) : Except PyErr K :=
  let t := segmentSize.getD (1 / df)
  let noise := noise.getD nphots
  let meanrate := nphots / t
  match kind with
  | .frac => .ok (rmsFromNorm sqrt (unnorm.map fun p => p * 2 / nphots / meanrate) (noise * 2 / nphots / meanrate) df)
  | .abs => .ok (rmsFromNorm sqrt (unnorm.map fun p => p * 2 / nphots * meanrate) (noise * 2 / nphots * meanrate) df)
  | .other => .error .valueError

end Stingray.Fourier

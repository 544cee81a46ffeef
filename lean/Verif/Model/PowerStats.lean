import Verif.Model.Rebin
import Verif.Model.Fourier
import Verif.Model.Stats
import Mathlib.Analysis.SpecialFunctions.Trigonometric.Basic

/-!
# What power spectra are used for: rms, significances and upper limits

`stingray/powerspectrum.py` (`compute_rms`, `classical_significances`, `modulation_upper_limit`), with
`stingray/fourier.py` (`get_rms_from_rms_norm_periodogram` with its error, `get_rms_from_unnorm_periodogram`) and
`stingray/stats.py` (`power_upper_limit`, `amplitude_upper_limit`, `pf_upper_limit`, `power_confidence_limits`).
NaN is `none`.
-/

namespace Stingray.PowerStats

open Stingray.Fourier

section Rms

variable {K : Type} [Field K] [LinearOrder K]

/-- A number for the whole spectrum, or one for each frequency. -/
inductive Per (K : Type) where
  | const (x : K)
  | each (l : List K)
  deriving DecidableEq

/-- The values for `n` frequencies. -/
def Per.values (n : Nat) : Per K → List K
  | .const x => List.replicate n x
  | .each l => l

/-- "if M is an iterable but all values are the same, let's simplify", `stingray/fourier.py` 871-878. -/
def Per.simplify : Per K → Per K
  | .const x => .const x
  | .each [] => .each []
  | .each (x :: l) => if l.all (fun y => decide (y = x)) then .const x else .each (x :: l)

/-- Whether it is an array. -/
def Per.isArray : Per K → Bool
  | .const _ => false
  | .each _ => true

/-- `x[good]` if `x` is iterable, `stingray/powerspectrum.py` 187-194. -/
def Per.select (good : List Bool) : Per K → Per K
  | .const x => .const x
  | .each l => .each (((l.zip good).filter fun p => p.2).map fun p => p.1)

/-- `df * K_freq` -/
def Per.scale (c : K) : Per K → Per K
  | .const x => .const (c * x)
  | .each l => .each (l.map fun x => c * x)

/-- `sum(power ** 2 * df ** 2 / M)`, `stingray/fourier.py` 915. -/
def sumSquares (power df M : List K) : K :=
  (List.zipWith (fun (p : K) (dm : K × K) => p ^ 2 * dm.1 ^ 2 / dm.2) power (df.zip M)).sum

/-- `total_power_err`, `stingray/fourier.py` 895-915. -/
def totalPowerErr [FloorRing K] (sqrt : K → K) (power : List K) (df M : Per K) : Except PyErr K :=
  match df, M with
  | .const d, .const m =>
    if m = 1 ∧ 4 < power.length then do
      let out ← Rebin.rebinData sqrt ((List.range power.length).map fun (i : Nat) => (i : K) * d) power (d * 4) none .mean (.scalar d)
      let localM := out.stepSize.headD 0
      let localDf := d * localM
      let total := localM * (out.ybin.length : K)
      .ok (sqrt ((out.ybin.map fun p => p ^ 2 * localDf ^ 2 / localM).sum) * ((power.length : K) / total))
    else .ok (sqrt (sumSquares power (List.replicate power.length d) (List.replicate power.length m)))
  | _, _ => .ok (sqrt (sumSquares power (df.values power.length) (M.values power.length)))

/-- `get_rms_from_rms_norm_periodogram`, `stingray/fourier.py` 843-930: the rms and its error.  The error of an rms of exactly 0
is not finite.  Simplification: no warnings. -/
def rmsNorm [FloorRing K] (sqrt : K → K) (power : List K) (noise : K) (df M : Per K) : Except PyErr (K × Option K) :=
  let M := M.simplify
  let df := df.simplify
  if M.isArray ≠ df.isArray then .error .valueError
  else do
    let err ← totalPowerErr sqrt power df M
    let total := (List.zipWith (fun p d => (p - noise) * d) power (df.values power.length)).sum
    if total < 0 then .ok (0, some 0)
    else if sqrt total = 0 then .ok (0, none)
    else .ok (sqrt total, some (1 / 2 / sqrt total * err))

/-- `np.min(df)`: `ValueError` for no value. -/
def Per.min : Per K → Except PyErr K
  | .const x => .ok x
  | .each [] => .error .valueError
  | .each (x :: l) => .ok (l.foldl Min.min x)

/-- `segment_size`, `stingray/fourier.py` 970-971.  Simplification: widths are not 0. -/
def segmentSizeOr (segmentSize : Option K) (df : Per K) : Except PyErr K :=
  match segmentSize with
  | some t => .ok t
  | none => do
    let d ← df.min
    .ok (1 / d)

/-- `get_rms_from_unnorm_periodogram`, `stingray/fourier.py` 933-997: the rms and its error. -/
def rmsUnnorm [FloorRing K] (sqrt : K → K) (unnorm : List K) (nphots : K) (df M : Per K) (noise : Option K) (segmentSize : Option K)
    (kind : RmsKind) : Except PyErr (K × Option K) := do
  let t ← segmentSizeOr segmentSize df
  let noise := noise.getD nphots
  let meanrate := nphots / t
  match kind with
  | .frac => rmsNorm sqrt (unnorm.map fun p => p * 2 / nphots / meanrate) (noise * 2 / nphots / meanrate) df M
  | .abs => rmsNorm sqrt (unnorm.map fun p => p * 2 / nphots * meanrate) (noise * 2 / nphots * meanrate) df M
  | .other => .error .valueError

/-- The attributes of a power spectrum used here. -/
structure Pds (K : Type) where
  freq : List K
  power : List K
  unnorm : List K
  m : Per K
  k : Per K
  df : K
  dt : K
  n : K
  nphots : K
  norm : Norm
  segmentSize : Option K

/-- `unnormalize_periodograms(poisson_noise_level, ...)`, `stingray/powerspectrum.py` 196-201. -/
def noiseOf (s : Pds K) (level : Option K) : Except PyErr K :=
  match level with
  | none => .ok s.nphots
  | some p => do
    let f ← unnormalizer s.norm s.dt s.n s.nphots none 0
    .ok (f p)

/-- `x[good]` -/
def pick (good : List Bool) (l : List K) : List K := ((l.zip good).filter fun p => p.2).map fun p => p.1

/-- `Powerspectrum.compute_rms`, `stingray/powerspectrum.py` 149-213. -/
def computeRms [FloorRing K] (sqrt : K → K) (s : Pds K) (lo hi : K) (level : Option K) : Except PyErr (K × Option K) := do
  let good := s.freq.map fun f => decide (lo ≤ f ∧ f ≤ hi)
  let noise ← noiseOf s level
  rmsUnnorm sqrt (pick good s.unnorm) s.nphots ((s.k.select good).scale s.df) (s.m.select good) (some noise) s.segmentSize .frac

end Rms

section Significances

/-- `Powerspectrum.classical_significances`, `stingray/powerspectrum.py` 253-330: the p-values below the threshold, with their
indices.  `sf` is the survival function of the chi-squared distribution; `m` has the number of averaged powers at each
frequency (lines 311-322: the same for all, or an array). -/
noncomputable def classicalSignificances (sf : ℝ → ℝ → ℝ) (norm : Norm) (power : List ℝ) (m : List Nat) (threshold : ℝ) (correct : Bool) :
    Except PyErr (List (ℝ × Nat)) :=
  if norm ≠ .leahy then .error .valueError
  else
    let ntrial := if correct then power.length else 1
    let pv := List.zipWith (fun p k => Stats.pdsProb sf p ntrial k 1) power m
    .ok (pv.zipIdx.filter fun x => decide (x.1 < threshold))

end Significances

section Limits

/-- `power_confidence_limits`, `stingray/stats.py` 909-945: `ppf dof nc q` is the quantile function of the noncentral
chi-squared distribution. -/
def powerConfidenceLimits (ppf : ℝ → ℝ → ℝ → ℝ) (preal n c : ℝ) : ℝ × ℝ := (ppf (2 * n) preal (1 - c), ppf (2 * n) preal c)

/-- `power_upper_limit`, `stingray/stats.py` 948-1009: `minimize f a b x0` is the optimiser, started at `x0` with the bounds
`a` and `b`. -/
noncomputable def powerUpperLimit (ppf : ℝ → ℝ → ℝ → ℝ) (minimize : (ℝ → ℝ) → ℝ → ℝ → ℝ → ℝ) (pmeas n c : ℝ) : ℝ :=
  let initial := ppf (2 * n) pmeas c
  minimize (fun x => |ppf (2 * n) x (1 - c) - pmeas|) 0 (initial * 2) initial

/-- `amplitude_upper_limit`, `stingray/stats.py` 1012-1081, given the limit `uplim` on the power (line 1072). -/
noncomputable def amplitudeUpperLimit (uplim counts : ℝ) (fftCorr : Bool) (nyqRatio : ℝ) : ℝ :=
  let a := Stats.aFromSsig uplim counts
  let a := if fftCorr then a * (1 / Real.sqrt (773 / 1000)) else a
  if 0 < nyqRatio then
    let factor := Real.pi / 2 * nyqRatio
    a / (Real.sin factor / factor)
  else a

/-- `pf_upper_limit`, `stingray/stats.py` 1084-1127. -/
noncomputable def pfUpperLimit (uplim counts : ℝ) (fftCorr : Bool) (nyqRatio : ℝ) : ℝ :=
  Stats.pfFromA (amplitudeUpperLimit uplim counts fftCorr nyqRatio)

/-- `freq_mask`, `stingray/powerspectrum.py` 397-402. -/
noncomputable def maskOf (fmin fmax : Option ℝ) (f : ℝ) : Bool :=
  decide (0 < f) && (match fmin with | none => true | some a => !decide (f < a)) &&
    (match fmax with | none => true | some b => !decide (b < f))

/-- `np.argmax` on the powers of some frequencies: the first highest; `ValueError` for none. -/
noncomputable def argmaxPower : List (ℝ × ℝ) → Except PyErr (ℝ × ℝ)
  | [] => .error .valueError
  | x :: l => .ok (l.foldl (fun best y => if best.2 < y.2 then y else best) x)

/-- `np.max(freq)` -/
noncomputable def highestFreq : List ℝ → Except PyErr ℝ
  | [] => .error .valueError
  | x :: l => .ok (l.foldl max x)

/-- `Powerspectrum.modulation_upper_limit`, `stingray/powerspectrum.py` 332-413, for Leahy powers (line 392 converts the
others); `limit` is `power_upper_limit` (as a function of the power and of the number of averages). -/
noncomputable def modulationUpperLimit (limit : ℝ → ℝ → ℝ) (freq power : List ℝ) (m nphots : ℝ) (fmin fmax : Option ℝ) : Except PyErr ℝ := do
  let fnyq ← highestFreq freq
  let best ← argmaxPower ((freq.zip power).filter fun p => maskOf fmin fmax p.1)
  .ok (amplitudeUpperLimit (limit (best.2 * m) m) nphots true (best.1 / fnyq))

end Limits

end Stingray.PowerStats

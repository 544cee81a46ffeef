import Verif.Model.Basic
import Verif.Model.UtilsMisc
import Verif.Model.UtilsStats
import Mathlib.Analysis.SpecialFunctions.Trigonometric.Basic
import Mathlib.Analysis.SpecialFunctions.Complex.Arg

/-!
Model of `stingray/spectroscopy.py` 76-422: phases of the harmonics of a quasi-periodic oscillation, its waveform, rms and cross correlation.

The Fourier transforms and the minimiser are parameters. Not modelled: reading of files, rebinning and filtering of the segments (`ccf_error` is modelled from the filtered segment spectra on), `get_new_df`.
-/

namespace Stingray.Spectroscopy

open Stingray

section Search

variable {K : Type} [Field K] [LinearOrder K]

/-- `np.searchsorted`: NumPy's binary search from `lo` to `hi`, which also runs on unsorted arrays; the first argument bounds the number of turns. -/
def binSearch (a : Nat → K) (v : K) : Nat → Nat → Nat → Nat
  | 0, lo, _ => lo
  | fuel + 1, lo, hi =>
    if lo < hi then
      let mid := lo + (hi - lo) / 2
      if a mid < v then binSearch a v fuel (mid + 1) hi else binSearch a v fuel lo mid
    else lo

/-- `find_nearest`, `stingray/utils.py` 1458-1462, with the search as NumPy does it: the index. -/
def nearestIdx (a : List K) (v : K) : Except PyErr Int :=
  let idx := binSearch (fun i => a.getD i 0) v a.length 0 a.length
  if idx = a.length then .ok ((idx : Int) - 1)
  else
    let prev := if idx = 0 then a.getLastD 0 else a.getD (idx - 1) 0
    if |v - prev| < |v - a.getD idx 0| then .ok ((idx : Int) - 1) else .ok idx

/-- `np.fft.fftfreq(n, dt)`. -/
def fftfreq (n : Nat) (dt : K) : List K :=
  (List.range n).map fun (i : Nat) => if i ≤ (n - 1) / 2 then (i : K) / (n * dt) else ((i : K) - n) / (n * dt)

/-- `compute_rms`, `stingray/spectroscopy.py` 405-422, its square: `crit` is the criterion, `(x0, fwhm)` the first component of the model. -/
def rms2 (freq : List K) (df : K) (model : K → K) (crit : String) (x0 fwhm : K) : Except PyErr K :=
  if crit = "all" then .ok ((freq.map fun f => model f * df).sum)
  else if crit = "posfreq" ∨ crit = "optimal" then .ok (((freq.filter fun f => decide (f > 0)).map fun f => model f * df).sum)
  else if crit = "window" then .ok ((freq.map fun f => (if |f - x0| ≥ fwhm / 2 then 0 else model f) * df).sum)
  else .error .valueError

/-- `ccf`, `stingray/spectroscopy.py` 97-100; `ifftRe` is the real part of the inverse transform. -/
def ccf (ifftRe : List K → List K) (cs : List K) (psRms : K) (nBins : Nat) : List K := (ifftRe cs).map fun x => x * (2 / nBins / psRms)

/-- `np.average(rows, axis=0)` for rows with `n` elements. -/
def average (n : Nat) (rows : List (List K)) : List K := (List.range n).map fun j => (rows.map fun r => r.getD j 0).sum / rows.length

/-- `ccf_error`, `stingray/spectroscopy.py` 136-155, from the filtered cross spectra of two or more segments: the errors and the average. -/
def ccfError (sqrt : K → K) (ifftRe : List K → List K) (n : Nat) (segs : List (List K)) (psRms : K) (nBins : Nat) : List (Option K) × List K :=
  let ccfs := segs.map fun s => ccf ifftRe s psRms nBins
  let avg := ccf ifftRe (average n segs) psRms nBins
  ((List.range n).map fun j => UtilsStats.standardError sqrt (ccfs.map fun r => r.getD j 0) (avg.getD j 0), avg)

end Search

/-- Python's `x % m` for numbers. -/
noncomputable def pyMod (x m : ℝ) : ℝ := x - m * ⌊x / m⌋

/-- The phases of two Fourier coefficients and their difference, `stingray/spectroscopy.py` 209-216. -/
noncomputable def phases (X1 X2 : ℂ) : ℝ × ℝ × ℝ := (X1.arg, X2.arg, pyMod (X2.arg / 2 - X1.arg) Real.pi)

/-- `get_parameters`, `stingray/spectroscopy.py` 193-218, for harmonics at `f1` and `f2`. -/
noncomputable def getParameters (fft : List ℝ → List ℂ) (counts : List ℝ) (dt f1 f2 : ℝ) : Except PyErr (ℝ × ℝ × ℝ × ℝ) := do
  let x := counts.map fun c => c / dt
  let X := fft x
  let i ← nearestIdx (fftfreq X.length dt) f1
  let j ← nearestIdx (fftfreq X.length dt) f2
  let p := phases (X.getD i.toNat 0) (X.getD j.toNat 0)
  pure (x.sum / x.length, p)

/-- `waveform`, `stingray/spectroscopy.py` 251-256, at one phase. -/
noncomputable def waveform (x mu s1 s2 p1 p2 : ℝ) : ℝ := mu * (1 + √2 * (s1 * Real.cos (x - p1) + s2 * Real.cos (2 * x - p2)))

/-- `x_2_function`, `stingray/spectroscopy.py` 286-288 with `psi_distance` 277-279: from `pi / 2` on, each element is the whole array (`delta`, not `delta_i`). -/
noncomputable def xSquared (avg : ℝ) (psi : List ℝ) : ℝ :=
  let delta := psi.map fun p => |p - avg|
  if avg < Real.pi / 2 then (delta.map fun d => d ^ 2).sum
  else (delta.map fun _ => (delta.map fun d => (Real.pi - d) ^ 2).sum).sum

/-- `get_mean_phase_difference`, `stingray/spectroscopy.py` 327-331: the mean and its standard deviation, for the phase differences of the segments. -/
noncomputable def meanPhase (brent : (ℝ → ℝ) → ℝ) (psis : List ℝ) : ℝ × ℝ :=
  let a := brent fun x => xSquared x psis
  (a, a / psis.length)

/-- `get_phase_lag`, `stingray/spectroscopy.py` 367-378. -/
noncomputable def phaseLag (C1 C2 : ℂ) (psi : ℝ) : ℝ × ℝ × ℝ :=
  let phi1 := Real.pi / 2 + C1.arg
  (phi1, 2 * (phi1 + psi) + C2.arg, psi)

end Stingray.Spectroscopy

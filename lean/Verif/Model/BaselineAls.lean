import Verif.Model.Basic
import Mathlib.LinearAlgebra.Matrix.NonsingularInverse
import Mathlib.Data.Real.Basic

/-!
# Baselines of light curves: `stingray/utils.py` 975-1053, 1101-1165

Asymmetric least squares smoothing over the reals, for at least three bins. A light curve of `L` bins is a function on `Fin L`. A singular system gives NaNs (with a warning of scipy), here `none`. The estimate of the standard deviation
(`mad`) of the subtracted light curve is a parameter; the least squares fit of a constant (`offset_fit`) is the mean.
-/

namespace Stingray.BaselineAls

open Stingray Matrix

noncomputable section

variable {L : Nat}

/-- `D`, `stingray/utils.py` 1040-1045: the column `j` takes the second difference of the bins `j`, `j + 1` and `j + 2`. -/
def secondDiff : Matrix (Fin L) (Fin (L - 2)) ℝ := fun i j =>
  if i.val = j.val then 1 else if i.val = j.val + 1 then -2 else if i.val = j.val + 2 then 1 else 0

/-- `Z = W + lam * D.dot(D.transpose())`, lines 1049-1050. -/
def system (lam : ℝ) (w : Fin L → ℝ) : Matrix (Fin L) (Fin L) ℝ := diagonal w + lam • (secondDiff * (secondDiff (L := L))ᵀ)

open Classical in
/-- `spsolve(Z, w * y)`, line 1051. -/
def step (lam : ℝ) (y w : Fin L → ℝ) : Option (Fin L → ℝ) :=
  if (system lam w).det = 0 then none else some ((system lam w)⁻¹ *ᵥ (w * y))

open Classical in
/-- The new weights, line 1052: all comparisons with NaN are false. -/
def weights (p : ℝ) (y : Fin L → ℝ) (z : Option (Fin L → ℝ)) (i : Fin L) : ℝ :=
  match z with
  | none => 0
  | some z => p * (if z i < y i then 1 else 0) + (1 - p) * (if y i < z i then 1 else 0)

/-- The loop of lines 1048-1052 after the first round: `w` are the weights, `z` the last curve. -/
def loop (lam p : ℝ) (y : Fin L → ℝ) : Nat → (Fin L → ℝ) → Option (Fin L → ℝ) → Option (Fin L → ℝ)
  | 0, _, z => z
  | n + 1, w, _ => let z := step lam y w; loop lam p y n (weights p y z) z

/-- `_als`, lines 1001-1053: without a round, `z` is not defined. -/
def als (lam p : ℝ) (niter : Nat) (y : Fin L → ℝ) : Except PyErr (Option (Fin L → ℝ)) :=
  if niter = 0 then .error .nameError else .ok (loop lam p y niter (fun _ => 1) none)

open Classical in
/-- The bins the offset is fitted to, lines 1154-1159. -/
def goodBins (std : ℝ) (ysub : Fin L → ℝ) : Finset (Fin L) :=
  let good := Finset.univ.filter fun i => |ysub i| < 10 * std
  if good.card < 10 then Finset.univ else good

/-- The offset, lines 1151-1160. -/
def offset (mad : (Fin L → ℝ) → ℝ) (correction : Bool) (ysub : Fin L → ℝ) : ℝ :=
  if correction then (∑ i ∈ goodBins (mad ysub) ysub, ysub i) / (goodBins (mad ysub) ysub).card else 0

/-- `baseline_als(…, return_baseline=True)`, lines 1143-1165: the subtracted light curve and the baseline. -/
def baselineAls (mad : (Fin L → ℝ) → ℝ) (lam p : Option ℝ) (niter : Nat) (correction : Bool) (y : Fin L → ℝ) : Except PyErr (Option ((Fin L → ℝ) × (Fin L → ℝ))) :=
  match als (lam.getD 100000000000) (p.getD (1 / 1000)) niter y with
  | .error e => .error e
  | .ok none => .ok none
  | .ok (some z) => .ok (some (fun i => y i - z i - offset mad correction (y - z), fun i => z i + offset mad correction (y - z)))

end

end Stingray.BaselineAls

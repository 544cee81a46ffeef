import Verif.Model.Basic
import Mathlib.Analysis.SpecialFunctions.Trigonometric.Basic
import Mathlib.Analysis.SpecialFunctions.Exp
import Mathlib.Analysis.SpecialFunctions.Sqrt

/-!
Model of the Gaussian-process models, `stingray/modeling/gpmodeling.py` 43-556 and 654-676.

Arithmetic is that of the real numbers. Parameters are single numbers, but the flare shapes also take several components. The kernels of tinygp are given by their documented covariances. Not modelled: checks for the optional packages, the nested sampler, the Gaussian log probability of tinygp, plots.
-/

namespace Stingray.GpModel

open Stingray

/-- Names of parameters. -/
abbrev Name := List Char

/-- A dictionary of parameters, with the last assignment first. -/
abbrev Dict := List (Name × ℝ)

/-- `d[name]` -/
def get (d : Dict) (n : Name) : Except PyErr ℝ :=
  match d.find? fun e => e.1 == n with
  | none => .error .keyError
  | some e => .ok e.2

/-- The covariance of tinygp's `quasisep.Exp(scale, sigma)` for two times at the distance `r`. -/
noncomputable def expKernel (scale sigma : ℝ) (r : ℝ) : ℝ := sigma ^ 2 * Real.exp (-(r / scale))

/-- The covariance of tinygp's `quasisep.Celerite(a, b, c, d)` for two times at the distance `r`. -/
noncomputable def celerite (a b c d : ℝ) (r : ℝ) : ℝ := Real.exp (-(c * r)) * (a * Real.cos (d * r) + b * Real.sin (d * r))

/-- `get_kernel`, `stingray/modeling/gpmodeling.py` 43-90: the covariance of two times at the distance `r`. -/
noncomputable def getKernel (ty : String) (d : Dict) : Except PyErr (ℝ → ℝ) :=
  if ty = "QPO_plus_RN" then do
    let crn ← get d ['c', 'r', 'n']
    let arn ← get d ['a', 'r', 'n']
    let aqpo ← get d ['a', 'q', 'p', 'o']
    let cqpo ← get d ['c', 'q', 'p', 'o']
    let freq ← get d ['f', 'r', 'e', 'q']
    pure fun r => expKernel (1 / crn) (√arn) r + celerite aqpo 0 cqpo (2 * Real.pi * freq) r
  else if ty = "RN" then do
    let crn ← get d ['c', 'r', 'n']
    let arn ← get d ['a', 'r', 'n']
    pure fun r => expKernel (1 / crn) (√arn) r
  else if ty = "QPO" then do
    let aqpo ← get d ['a', 'q', 'p', 'o']
    let cqpo ← get d ['c', 'q', 'p', 'o']
    let freq ← get d ['f', 'r', 'e', 'q']
    pure fun r => celerite aqpo 0 cqpo (2 * Real.pi * freq) r
  else .error .valueError

/-- `_gaussian`, `stingray/modeling/gpmodeling.py` 168-172, for components `(A, t0, sig)`. -/
noncomputable def gaussian (cs : List (ℝ × ℝ × ℝ)) (t : ℝ) : ℝ := (cs.map fun c => c.1 * Real.exp (-((t - c.2.1) ^ 2) / (2 * c.2.2 ^ 2))).sum

/-- `_exponential`, `stingray/modeling/gpmodeling.py` 198-202. -/
noncomputable def exponential (cs : List (ℝ × ℝ × ℝ)) (t : ℝ) : ℝ := (cs.map fun c => c.1 * Real.exp (-|t - c.2.1| / (2 * c.2.2 ^ 2))).sum

/-- `_constant`, `stingray/modeling/gpmodeling.py` 224. -/
def constant (A : ℝ) (_t : ℝ) : ℝ := A

/-- `_skew_gaussian`, `stingray/modeling/gpmodeling.py` 252-266, for components `(A, t0, sig1, sig2)`. -/
noncomputable def skewGaussian (cs : List (ℝ × ℝ × ℝ × ℝ)) (t : ℝ) : ℝ :=
  (cs.map fun c => c.1 * (if t > c.2.1 then Real.exp (-((t - c.2.1) ^ 2) / (2 * c.2.2.2 ^ 2)) else Real.exp (-((t - c.2.1) ^ 2) / (2 * c.2.2.1 ^ 2)))).sum

/-- `_skew_exponential`, `stingray/modeling/gpmodeling.py` 294-308. -/
noncomputable def skewExponential (cs : List (ℝ × ℝ × ℝ × ℝ)) (t : ℝ) : ℝ :=
  (cs.map fun c => c.1 * (if t > c.2.1 then Real.exp (-(t - c.2.1) / (2 * c.2.2.2 ^ 2)) else Real.exp ((t - c.2.1) / (2 * c.2.2.1 ^ 2)))).sum

/-- `_fred`, `stingray/modeling/gpmodeling.py` 336-345, for components `(A, t0, delta, phi)`. -/
noncomputable def fred (cs : List (ℝ × ℝ × ℝ × ℝ)) (t : ℝ) : ℝ :=
  (cs.map fun c => c.1 * Real.exp (-c.2.2.2 * ((t + c.2.2.1) / c.2.1 + c.2.1 / (t + c.2.2.1))) * Real.exp (2 * c.2.2.2)).sum

/-- `get_mean`, `stingray/modeling/gpmodeling.py` 93-142, with one component; the parameters are read when the mean is evaluated. -/
noncomputable def getMean (ty : String) (d : Dict) : Except PyErr (ℝ → ℝ) :=
  if ty = "gaussian" ∨ ty = "exponential" then do
    let A ← get d ['A']
    let t0 ← get d ['t', '0']
    let sig ← get d ['s', 'i', 'g']
    pure (if ty = "gaussian" then gaussian [(A, t0, sig)] else exponential [(A, t0, sig)])
  else if ty = "constant" then do
    let A ← get d ['A']
    pure (constant A)
  else if ty = "skew_gaussian" ∨ ty = "skew_exponential" then do
    let A ← get d ['A']
    let t0 ← get d ['t', '0']
    let sig1 ← get d ['s', 'i', 'g', '1']
    let sig2 ← get d ['s', 'i', 'g', '2']
    pure (if ty = "skew_gaussian" then skewGaussian [(A, t0, sig1, sig2)] else skewExponential [(A, t0, sig1, sig2)])
  else if ty = "fred" then do
    let A ← get d ['A']
    let t0 ← get d ['t', '0']
    let phi ← get d ['p', 'h', 'i']
    let delta ← get d ['d', 'e', 'l', 't', 'a']
    pure (fred [(A, t0, delta, phi)])
  else .error .valueError

/-- The prefix of the parameters in log scale. -/
def logPrefix : Name := ['l', 'o', 'g', '_']

/-- `_get_kernel_params`, `stingray/modeling/gpmodeling.py` 362-369. -/
def kernelParams (ty : String) : Except PyErr (List Name) :=
  if ty = "RN" then .ok [logPrefix ++ ['a', 'r', 'n'], logPrefix ++ ['c', 'r', 'n']]
  else if ty = "QPO_plus_RN" then .ok [logPrefix ++ ['a', 'r', 'n'], logPrefix ++ ['c', 'r', 'n'], logPrefix ++ ['a', 'q', 'p', 'o'], logPrefix ++ ['c', 'q', 'p', 'o'], logPrefix ++ ['f', 'r', 'e', 'q']]
  else if ty = "QPO" then .ok [logPrefix ++ ['a', 'q', 'p', 'o'], logPrefix ++ ['c', 'q', 'p', 'o'], logPrefix ++ ['f', 'r', 'e', 'q']]
  else .error .valueError

/-- `_get_mean_params`, `stingray/modeling/gpmodeling.py` 386-395. -/
def meanParams (ty : String) : Except PyErr (List Name) :=
  if ty = "gaussian" ∨ ty = "exponential" then .ok [logPrefix ++ ['A'], ['t', '0'], logPrefix ++ ['s', 'i', 'g']]
  else if ty = "constant" then .ok [logPrefix ++ ['A']]
  else if ty = "skew_gaussian" ∨ ty = "skew_exponential" then .ok [logPrefix ++ ['A'], ['t', '0'], logPrefix ++ ['s', 'i', 'g', '1'], logPrefix ++ ['s', 'i', 'g', '2']]
  else if ty = "fred" then .ok [logPrefix ++ ['A'], ['t', '0'], ['d', 'e', 'l', 't', 'a'], ['p', 'h', 'i']]
  else .error .valueError

/-- `get_gp_params`, `stingray/modeling/gpmodeling.py` 423-426. -/
def gpParams (kernel mean : String) : Except PyErr (List Name) := do
  let k ← kernelParams kernel
  let m ← meanParams mean
  pure (k ++ m)

/-- One entry of the dictionary made in `likelihood_model`, `stingray/modeling/gpmodeling.py` 547-550. -/
noncomputable def entry (n : Name) (x : ℝ) : Name × ℝ :=
  if n.take 4 = logPrefix then (n.drop 4, Real.exp x) else (n, x)

/-- The loop of `likelihood_model`, `stingray/modeling/gpmodeling.py` 545-550: too few arguments raise; further ones are not looked at. -/
noncomputable def paramDict : List Name → List ℝ → Dict → Except PyErr Dict
  | [], _, d => .ok d
  | _ :: _, [], _ => .error .indexError
  | n :: ns, x :: xs, d => paramDict ns xs (entry n x :: d)

/-- `likelihood_model` up to the Gaussian process, `stingray/modeling/gpmodeling.py` 544-553: the covariance and the mean. -/
noncomputable def model (names : List Name) (kernel mean : String) (args : List ℝ) : Except PyErr ((ℝ → ℝ) × (ℝ → ℝ)) := do
  let d ← paramDict names args []
  let k ← getKernel kernel d
  let m ← getMean mean d
  pure (k, m)

/-- The index of the first largest element (`jnp.argmax`). -/
noncomputable def argmax (l : List ℝ) : Nat := l.findIdx fun x => l.all fun y => decide (y ≤ x)

/-- `get_max_posterior_parameters` and `get_max_likelihood_parameters`, `stingray/modeling/gpmodeling.py` 664-676, for one parameter: its sample where `score` (the log posterior density, or the log likelihood) is largest. -/
noncomputable def maxParameter (score samples : List ℝ) : Option ℝ := samples[argmax score]?

end Stingray.GpModel

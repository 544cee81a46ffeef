import Verif.Model.Basic
import Mathlib.Analysis.SpecialFunctions.Log.Basic
import Mathlib.Analysis.SpecialFunctions.Trigonometric.Basic

/-!
# Likelihoods, posteriors and fits: `stingray/modeling/posterior.py`, `stingray/modeling/parameterestimation.py`

Real numbers; rounding is not modelled. A NaN or an infinity is detected where it arises: a logarithm of a number that is not positive, a division by zero.
The parametric model of astropy is a function of its parameters and of the abscissa, and an object whose parameters are set by astropy's `fitter_to_model_params` (library code, modelled by what its documentation and source say).
-/

namespace Stingray.Modeling

open Stingray

/-- `logmin`, `stingray/modeling/posterior.py` 43. -/
def logmin : ℝ := -10000000000000000

/-! ## The parameters of the model object -/

/-- A parameter of an astropy model: its value, `fixed`, `bounds`, `tied`. -/
structure Par where
  value : ℝ
  fixed : Bool
  lo : Option ℝ
  hi : Option ℝ
  tied : Option (List ℝ → ℝ)

/-- `fitter_to_model_params`: values are clipped to the bounds. -/
noncomputable def Par.clip (p : Par) (v : ℝ) : ℝ :=
  let v := match p.lo with | some l => max v l | none => v
  match p.hi with | some h => min v h | none => v

/-- `fitter_to_model_params`: the free parameters get the values, in order. -/
noncomputable def setFree : List Par → List ℝ → List Par
  | [], _ => []
  | p :: ps, vs =>
    if p.fixed || p.tied.isSome then p :: setFree ps vs
    else
      match vs with
      | [] => p :: setFree ps []
      | v :: vs => { p with value := p.clip v } :: setFree ps vs

/-- `fitter_to_model_params`: one tied parameter gets its value from the present ones. -/
def tieStep (ps : List Par) (i : Nat) : List Par :=
  match ps[i]? with
  | none => ps
  | some p =>
    match p.tied with
    | none => ps
    | some f => ps.set i { p with value := f (ps.map Par.value) }

/-- `fitter_to_model_params`. -/
noncomputable def setParams (ps : List Par) (vs : List ℝ) : List Par :=
  (List.range ps.length).foldl tieStep (setFree ps vs)

/-- `self.npar` of `GaussianLogLikelihood`, `PoissonLogLikelihood` and `Posterior`, lines 264-267, 352-355, 643-646. -/
def numNotFixed (ps : List Par) : Nat := (ps.filter fun p => !p.fixed).length

/-- `self.npar` of `PSDLogLikelihood` and `LaplaceLogLikelihood`, lines 442-445, 538-541. -/
def numFree (ps : List Par) : Nat := (ps.filter fun p => !p.fixed && !p.tied.isSome).length

/-! ## Likelihoods -/

/-- One data point: abscissa, value, uncertainty (if any), number of averaged spectra (if an array). -/
structure Row where
  x : ℝ
  y : ℝ
  err : ℝ
  m : ℝ

/-- The argument `m` of `PSDLogLikelihood`: a number, or an array (in the rows). -/
inductive MArg where
  | scalar (m : ℝ)
  | array

open Classical in
/-- `GaussianLogLikelihood.evaluate`, lines 300-306, for the values `mu` of the model. -/
noncomputable def gaussLike (rows : List Row) (mu : ℝ → ℝ) : ℝ :=
  if ∀ r ∈ rows, 0 < r.err then
    (rows.map fun r => -(1 / 2) * Real.log (2 * Real.pi) - Real.log r.err - (r.y - mu r.x) ^ 2 / (2 * r.err ^ 2)).sum
  else logmin

open Classical in
/-- `PoissonLogLikelihood.evaluate`, lines 388-390; `gammaln` is the library function. -/
noncomputable def poissonLike (gammaln : ℝ → ℝ) (rows : List Row) (mu : ℝ → ℝ) : ℝ :=
  if ∀ r ∈ rows, 0 < mu r.x then
    (rows.map fun r => -(mu r.x) + r.y * Real.log (mu r.x) - gammaln (r.y + 1)).sum
  else logmin

open Classical in
/-- `PSDLogLikelihood.evaluate`, lines 484-490. -/
noncomputable def psdLikeAveraged (m : Row → ℝ) (rows : List Row) (mu : ℝ → ℝ) : ℝ :=
  if ∀ r ∈ rows, 0 < mu r.x ∧ 0 < r.y then
    -((rows.map fun r => 2 * m r * Real.log (mu r.x)).sum + (rows.map fun r => 2 * m r * r.y / mu r.x).sum
      + (rows.map fun r => 2 * m r * (2 / (2 * m r) - 1) * Real.log r.y).sum)
  else logmin

open Classical in
/-- `PSDLogLikelihood.evaluate`, lines 478-490; `m` is at least 1. -/
noncomputable def psdLike (m : MArg) (rows : List Row) (mu : ℝ → ℝ) : ℝ :=
  match m with
  | .scalar m =>
    if m = 1 then
      if ∀ r ∈ rows, 0 < mu r.x then
        -(rows.map fun r => Real.log (mu r.x)).sum - (rows.map fun r => r.y / mu r.x).sum
      else logmin
    else psdLikeAveraged (fun _ => m) rows mu
  | .array => psdLikeAveraged Row.m rows mu

open Classical in
/-- `LaplaceLogLikelihood.evaluate`, lines 574-577. -/
noncomputable def laplaceLike (rows : List Row) (mu : ℝ → ℝ) : ℝ :=
  if ∀ r ∈ rows, 0 < r.err then
    (rows.map fun r => -Real.log (2 * r.err) - |r.y - mu r.x| / r.err).sum
  else logmin

/-- `evaluate` of any of the likelihoods, lines 293-311 and alike: the value, and the parameters of the model object afterwards. `like` is the value for given model values, `f` the parametric model. -/
noncomputable def evaluate (like : (ℝ → ℝ) → ℝ) (npar : Nat) (f : List ℝ → ℝ → ℝ) (ps : List Par) (pars : List ℝ)
    (neg : Bool) : Except PyErr ℝ × List Par :=
  if pars.length ≠ npar then (.error .incorrectParameterError, ps)
  else
    let ps := setParams ps pars
    let l := like (f (ps.map Par.value))
    (.ok (if neg then -l else l), ps)

/-! ## Priors and posteriors -/

/-- The sum of the logarithms of the priors of the parameters that are not fixed, lines 147-162: `none` if it is not finite. -/
noncomputable def priorSum : List (Par × (ℝ → ℝ)) → List ℝ → Option ℝ
  | [], _ => some 0
  | (p, prior) :: ps, t0 =>
    if p.fixed then priorSum ps t0
    else
      match t0 with
      | [] => none
      | t :: t0 =>
        match priorSum ps t0 with
        | none => none
        | some s => if 0 < prior t then some (Real.log (prior t) + s) else none

/-- `logprior` of `set_logprior`, lines 123-169. -/
noncomputable def logprior (ps : List (Par × (ℝ → ℝ))) (t0 : List ℝ) : Except PyErr ℝ :=
  if t0.length ≠ numNotFixed (ps.map Prod.fst) then .error .incorrectParameterError
  else .ok ((priorSum ps t0).getD logmin)

open Classical in
/-- `numpy.isclose(a, b)` with the default tolerances -/
noncomputable def isclose (a b : ℝ) : Bool := decide (|a - b| ≤ 1 / 100000000 + 1 / 100000 * |b|)

/-- `Posterior.logposterior`, lines 648-698, for given values of the prior (`none`: not set) and of the likelihood. -/
noncomputable def logposterior (prior : Option (Except PyErr ℝ)) (like : Except PyErr ℝ) (neg : Bool) : Except PyErr ℝ :=
  match prior with
  | none => .error .priorUndefinedError
  | some (.error e) => .error e
  | some (.ok p) =>
    match like with
    | .error e => .error e
    | .ok l =>
      let lp := if isclose p logmin then logmin else p + l
      .ok (if neg then -lp else lp)

/-- `PSDPosterior(…)(t0)`: prior and likelihood of the same model object, lines 752-759 with 648-698. -/
noncomputable def psdPosterior (like : (ℝ → ℝ) → ℝ) (f : List ℝ → ℝ → ℝ) (ps : List (Par × (ℝ → ℝ))) (t0 : List ℝ) (neg : Bool) :
    Except PyErr ℝ :=
  logposterior (some (logprior ps t0)) (evaluate like (numFree (ps.map Prod.fst)) f (ps.map Prod.fst) t0 false).1 neg

/-! ## Fits -/

/-- `use_bounds`, `stingray/modeling/parameterestimation.py` 436-443: `supports` says that the method is one of "L-BFGS-B", "TNC", "SLSQP". -/
def useBounds (supports : Bool) (bounds : List (Option ℝ × Option ℝ)) : Bool :=
  if bounds.any (fun b => b.1.isSome || b.2.isSome) || !supports then false else true

open Classical in
/-- the condition of the loop, line 418, after lines 517-520: `none` is a value that is not finite. -/
noncomputable def unacceptable (v : Option ℝ) : Bool :=
  match v with
  | none => true
  | some v => decide (v = 100) || decide (v = 200) || decide (v = 0) || isclose v logmin || isclose v (2 * logmin)

/-- The loop of `fit`, lines 415-522: `run i` is the value found by the optimizer in its `i`-th run; the number of the accepted run. -/
noncomputable def fitLoop (run : Nat → Option ℝ) : Nat → Nat → Except PyErr Nat
  | 0, _ => .error .runtimeError
  | fuel + 1, i => if unacceptable (run i) then fitLoop run fuel (i + 1) else .ok i

/-- `ParameterEstimation.fit`: 21 runs are tried. -/
noncomputable def fit (run : Nat → Option ℝ) : Except PyErr Nat := fitLoop run 21 0

/-- `_compute_criteria`, lines 230-239, of a maximum likelihood fit: deviance, AIC, BIC; `result` is the value found by the optimizer, `k` the number of parameters, `n` the number of data. -/
noncomputable def criteria (result : ℝ) (k n : Nat) : ℝ × ℝ × ℝ :=
  (2 * result, result + 2 * (k : ℝ), result + (k : ℝ) * Real.log n)

open Classical in
/-- `_compute_pvalue`, lines 749-778, for at least one simulation (otherwise a division by zero). -/
noncomputable def computePvalue (obs : ℝ) (sim : List ℝ) : Except PyErr ℝ :=
  if sim = [] then .error .zeroDivisionError
  else .ok (((sim.filter fun s => decide (obs < s)).length : ℝ) / (sim.length : ℝ))

/-- `simulate_lrts` and `simulate_highest_outlier`, lines 1469-1510, 1694-1727: the value of each simulation; a fit that fails (`none`) leaves the initial zero. -/
def simulated (sims : List (Option ℝ)) : List ℝ := sims.map fun s => s.getD 0

/-- `_compute_highest_outlier` with `nmax=1`, lines 1729-1811, for at least one data point: value, abscissa and index. The array is sorted, the last element is looked for. -/
noncomputable def highestOutlier (rows : List Row) (mfit : ℝ → ℝ) : Except PyErr (ℝ × ℝ × Nat) :=
  let residuals := rows.map fun r => 2 * r.y / mfit r.x
  let sorted := residuals.insertionSort (· ≤ ·)
  match sorted.getLast? with
  | none => .error .indexError
  | some my =>
    let i := residuals.idxOf my
    .ok (my, (rows.map Row.x).getD i 0, i)

end Stingray.Modeling

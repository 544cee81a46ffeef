import Verif.Model.UtilsStats

/-!
# Summaries of MCMC chains: `SamplingResults` of `stingray/modeling/parameterestimation.py`
-/

namespace Stingray.Sampling

open Stingray Stingray.UtilsStats

variable {K : Type} [Field K] [LinearOrder K]

/-- `np.mean` (and `np.nanmean` of finite values). -/
def mean (l : List K) : K := l.sum / (l.length : K)

/-- `np.var` (and `np.nanvar` of finite values): no degree of freedom is subtracted. -/
def variance (l : List K) : K := mean (l.map fun x => (x - mean l) ^ 2)

/-- What a `SamplingResults` holds, for one of the parameters. -/
structure Summary (K : Type) where
  /-- `samples` -/
  samples : List K
  /-- `nwalkers` -/
  nwalkers : Nat
  /-- `niter` -/
  niter : Nat
  /-- `acceptance` -/
  acceptance : K
  /-- `L` -/
  effective : K
  /-- `rhat` -/
  rhat : K
  /-- `mean` -/
  mean : K
  /-- `std` -/
  std : K
  /-- `ci`: no value for an empty sample -/
  ci : Option K × Option K

/-- The dimensions that the constructor reads, `stingray/modeling/parameterestimation.py` 998-1000: `chain` is `sampler.get_chain()`, one list for each step with one value for each walker (the shape that `emcee` documents: steps, walkers, parameters), so that
`chain_dims[0]` is the number of steps. -/
def dims (chain : List (List K)) : Nat × Nat := (chain.length, (chain.head?.map List.length).getD 0)

/-- `_compute_rhat`, `stingray/modeling/parameterestimation.py` 1053-1074, for one parameter. `nwalkers` and `niter` are floats of Python: a division by zero is an exception. -/
def computeRhat (nwalkers niter : Nat) (chain : List (List K)) : Except PyErr K :=
  let means := chain.map mean
  let all := mean chain.flatten
  if nwalkers = 1 then .error .zeroDivisionError
  else
    let bb := (niter : K) / ((nwalkers : K) - 1) * (means.map fun m => (m - all) ^ 2).sum
    let ww := mean (chain.map variance)
    if niter = 0 then .error .zeroDivisionError
    else .ok (((niter : K) - 1) / (niter : K) * ww + 1 / (niter : K) * bb)

/-- One bound of `np.percentile(samples, [ci_min, ci_max])`: the percentages must be between 0 and 100. -/
def bounds [FloorRing K] (sort : KeySort (fun (x : K) => x)) (samples : List K) (ciMin ciMax : K) : Except PyErr (Option K × Option K) :=
  if 0 ≤ ciMin ∧ ciMin ≤ 100 ∧ 0 ≤ ciMax ∧ ciMax ≤ 100 then
    .ok (percentile (sort.sort samples) (ciMin / 100), percentile (sort.sort samples) (ciMax / 100))
  else .error .valueError

/-- `SamplingResults(sampler, ci_min, ci_max, log)`, `stingray/modeling/parameterestimation.py` 984-1009, 1028-1040 and 1091-1094, for one parameter. `accepted` are the acceptance fractions of the walkers, `short` says that `emcee` finds the chain too short to
compute the autocorrelation time, `logGiven` that a log was passed: then no attribute `log` is set (line 985). `emcee` raises an `AttributeError` when there is no step. -/
def summary [FloorRing K] (sqrt : K → K) (sort : KeySort (fun (x : K) => x)) (chain : List (List K)) (accepted : List K) (short logGiven : Bool) (ciMin ciMax : K) : Except PyErr (Summary K) :=
  if chain = [] then .error .attributeError
  else
    let samples := chain.flatten
    let d := dims chain
    let acceptance := mean accepted
    if short && logGiven then .error .attributeError
    else
      match computeRhat d.1 d.2 chain with
      | .error e => .error e
      | .ok rhat =>
        match bounds sort samples ciMin ciMax with
        | .error e => .error e
        | .ok ci => .ok ⟨samples, d.1, d.2, acceptance, acceptance * (samples.length : K), rhat, mean samples, sqrt (variance samples), ci⟩

/-- `print_results`, `stingray/modeling/parameterestimation.py` 1103-1130: the first line needs the attribute `log`. -/
def printResults (logGiven : Bool) : Except PyErr Unit := if logGiven then .error .attributeError else .ok ()

end Stingray.Sampling

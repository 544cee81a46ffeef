import Verif.Model.Basic
import Mathlib.Analysis.SpecialFunctions.Log.Basic
import Mathlib.Analysis.SpecialFunctions.Pow.Real
import Mathlib.Analysis.SpecialFunctions.Exp

/-!
# Model of `stingray/stats.py`

Over the real numbers: `numpy.log`, `numpy.exp`, `numpy.sqrt` and `numpy.power` are the exact functions. A NaN is `none`.
-/

namespace Stingray.Stats

open Stingray

/-! ## Number of trials -/

/-- `_logp_multitrial_from_single_logp`, `stingray/stats.py` 212-238. -/
noncomputable def logpMulti (logp1 : ℝ) (n : Nat) : ℝ :=
  let logn := Real.log n
  if logp1 + logn < -7 then logp1 + logn
  else Real.log (1 - (1 - Real.exp logp1) ^ n)

/-- `p_multitrial_from_single_trial`, `stingray/stats.py` 241-275. -/
noncomputable def pMulti (p1 : ℝ) (n : Nat) : ℝ := Real.exp (logpMulti (Real.log p1) n)

/-- `_logp_single_trial_from_logp_multitrial`, `stingray/stats.py` 287-317. `tol` is
`np.finfo(np.double).resolution * 1000`. -/
noncomputable def logpSingle (tol logpn : ℝ) (n : Nat) : Option ℝ :=
  let logn := Real.log n
  if logpn < -7 then some (logpn - logn)
  else if 1 - Real.exp logpn < tol then none
  else some (Real.log (1 - (1 - Real.exp logpn) ^ (1 / (n : ℝ))))

/-- `p_single_trial_from_p_multitrial`, `stingray/stats.py` 320-378. -/
noncomputable def pSingle (tol pn : ℝ) (n : Nat) : Option ℝ := (logpSingle tol (Real.log pn) n).map Real.exp

/-! ## Classical p-value -/

/-- One term of the sum, `stingray/stats.py` 892-897: `exp(m log(pn / 2) - pn / 2 - s)`, with `s` the sum of the logarithms of
`m, m - 1, …, 2`. In floating point `log 0` is `-inf`: for `pn = 0` the term is `exp(-inf) = 0` if `m > 0` and, as
`0 * -inf` is NaN, it is NaN for `m = 0`. -/
noncomputable def pvalTerm (pn : ℝ) (m : Nat) : Option ℝ :=
  if pn = 0 then (if m = 0 then none else some 0)
  else
    let s := ((List.range (m - 1)).map fun i : Nat => Real.log ((m : ℝ) - i)).sum
    some (Real.exp (m * Real.log (pn / 2) - pn / 2 - s))

/-- The loop of `_pavnosigfun`, `stingray/stats.py` 891-906: `k` is `m + 1`. A comparison with NaN is false. -/
noncomputable def pvalLoop (pn : ℝ) : Nat → Option ℝ → Option ℝ
  | 0, sum => sum
  | m + 1, sum =>
    match sum, pvalTerm pn m with
    | some sum, some term =>
      -- `sum / term` with `term = 0` (then `sum = 0`) is NaN: the comparison is false
      if term ≠ 0 ∧ sum / term > 10 ^ 15 then some sum
      else pvalLoop pn m (some (sum + term))
    | _, _ => pvalLoop pn m none

/-- `_pavnosigfun`, `stingray/stats.py` 873-906. -/
noncomputable def pavnosigfun (power : ℝ) (nspec : Nat) : Option ℝ :=
  pvalLoop (power * nspec) nspec (some 0)

/-- `classical_pvalue`, `stingray/stats.py` 783-870. Non-finite arguments are `none`.
Simplification: `nspec` is an integer, so that the error for fractional values is not modelled. -/
noncomputable def classicalPvalue (power : Option ℝ) (nspec : Option Int) : Except PyErr (Option ℝ) :=
  match power with
  | none => .error .valueError
  | some power =>
    if power < 0 then .error .valueError
    else match nspec with
      | none => .error .valueError
      | some nspec =>
        if nspec < 1 then .error .valueError
        else if power * nspec > 30000 then .ok (some 0)
        else .ok (pavnosigfun power nspec.toNat)

/-! ## Probabilities and detection levels

`sf x dof` and `isf p dof` stand for `scipy.stats.chi2.sf` and `.isf`; `cdf a b x` and `ppf a b p` for `scipy.stats.beta(a, b).cdf` and `.ppf`. -/

/-- `fold_profile_probability`, `stingray/stats.py` 381-402. -/
noncomputable def foldProb (sf : ℝ → ℝ → ℝ) (stat : ℝ) (nbin ntrial : Nat) : ℝ := pMulti (sf stat ((nbin : ℝ) - 1)) ntrial

/-- `fold_detection_level`, `stingray/stats.py` 429-454. -/
noncomputable def foldLevel (isf : ℝ → ℝ → ℝ) (tol : ℝ) (nbin : Nat) (eps : ℝ) (ntrial : Nat) : Option ℝ :=
  (pSingle tol eps ntrial).map fun p => isf p ((nbin : ℝ) - 1)

/-- `phase_dispersion_probability`, `stingray/stats.py` 457-490. -/
noncomputable def pdmProb (cdf : ℝ → ℝ → ℝ → ℝ) (stat : ℝ) (nsamples nbin ntrial : Nat) : ℝ :=
  pMulti (cdf (((nsamples : ℝ) - nbin) / 2) (((nbin : ℝ) - 1) / 2) stat) ntrial

/-- `phase_dispersion_detection_level`, `stingray/stats.py` 529-563. -/
noncomputable def pdmLevel (ppf : ℝ → ℝ → ℝ → ℝ) (tol : ℝ) (nsamples nbin : Nat) (eps : ℝ) (ntrial : Nat) : Option ℝ :=
  (pSingle tol eps ntrial).map fun p => ppf (((nsamples : ℝ) - nbin) / 2) (((nbin : ℝ) - 1) / 2) p

/-- `z2_n_probability`, `stingray/stats.py` 566-590. -/
noncomputable def z2Prob (sf : ℝ → ℝ → ℝ) (z2 : ℝ) (n ntrial nsum : Nat) : ℝ := pMulti (sf (z2 * nsum) (2 * n * nsum)) ntrial

/-- `z2_n_detection_level`, `stingray/stats.py` 621-652. -/
noncomputable def z2Level (isf : ℝ → ℝ → ℝ) (tol : ℝ) (n : Nat) (eps : ℝ) (ntrial nsum : Nat) : Option ℝ :=
  (pSingle tol eps ntrial).map fun p => isf p (2 * nsum * n) / nsum

/-- `pds_probability`, `stingray/stats.py` 655-688. -/
noncomputable def pdsProb (sf : ℝ → ℝ → ℝ) (level : ℝ) (ntrial nsum nrebin : Nat) : ℝ :=
  pMulti (sf (level * nsum * nrebin) (2 * nsum * nrebin)) ntrial

/-- `pds_detection_level`, `stingray/stats.py` 740-780, for a number `n_rebin`. -/
noncomputable def pdsLevel (isf : ℝ → ℝ → ℝ) (tol eps : ℝ) (ntrial nsum nrebin : Nat) : Option ℝ :=
  (pSingle tol eps ntrial).map fun p => isf p (2 * nsum * nrebin) / (nsum * nrebin)

/-- `pds_detection_level`, `stingray/stats.py` 740-780, for a list `n_rebin`. -/
noncomputable def pdsLevels (isf : ℝ → ℝ → ℝ) (tol eps : ℝ) (ntrial nsum : Nat) (nrebin : List Nat) : List (Option ℝ) :=
  nrebin.map fun r : Nat => (pSingle tol eps ntrial).map fun p => isf p (2 * nsum * r) / (nsum * r)

/-- `chi2_logp`, `stingray/stats.py` 171-200. `asym chi2 dof` is the asymptotic expression of lines 196-198, which is not modelled. -/
noncomputable def chi2Logp (sf asym : ℝ → ℝ → ℝ) (chi2 dof : ℝ) : Except PyErr ℝ :=
  if dof < 2 then .error .valueError
  else if chi2 / dof > 15 ∨ (dof > 150 ∧ chi2 / dof > 6) then .ok (asym chi2 dof)
  else .ok (Real.log (sf chi2 dof))

/-- `fold_profile_logprobability`, `stingray/stats.py` 405-426. -/
noncomputable def foldLogProb (sf asym : ℝ → ℝ → ℝ) (stat : ℝ) (nbin ntrial : Nat) : Except PyErr ℝ :=
  (chi2Logp sf asym stat ((nbin : ℝ) - 1)).map fun p => logpMulti p ntrial

/-- `z2_n_logprobability`, `stingray/stats.py` 593-618. -/
noncomputable def z2LogProb (sf asym : ℝ → ℝ → ℝ) (z2 : ℝ) (n ntrial nsum : Nat) : Except PyErr ℝ :=
  (chi2Logp sf asym (z2 * nsum) (2 * n * nsum)).map fun p => logpMulti p ntrial

/-- `pds_logprobability`, `stingray/stats.py` 691-737. -/
noncomputable def pdsLogProb (sf asym : ℝ → ℝ → ℝ) (level : ℝ) (ntrial nsum nrebin : Nat) : Except PyErr ℝ :=
  (chi2Logp sf asym (level * nsum * nrebin) (2 * nsum * nrebin)).map fun p => logpMulti p ntrial

/-! ## Pulsed fractions -/

/-- `pf_from_a`, `stingray/stats.py` 1130-1148. -/
noncomputable def pfFromA (a : ℝ) : ℝ := 2 * a / (1 + a)

/-- `a_from_pf`, `stingray/stats.py` 1151-1169. -/
noncomputable def aFromPf (p : ℝ) : ℝ := p / (2 - p)

/-- `ssig_from_a`, `stingray/stats.py` 1172-1188. -/
noncomputable def ssigFromA (a ncounts : ℝ) : ℝ := ncounts / 2 * a ^ 2

/-- `a_from_ssig`, `stingray/stats.py` 1191-1206. -/
noncomputable def aFromSsig (ssig ncounts : ℝ) : ℝ := Real.sqrt (2 * ssig / ncounts)

/-- `ssig_from_pf`, `stingray/stats.py` 1209-1219. -/
noncomputable def ssigFromPf (pf ncounts : ℝ) : ℝ := ncounts / 2 * (aFromPf pf) ^ 2

/-- `pf_from_ssig`, `stingray/stats.py` 1222-1232. -/
noncomputable def pfFromSsig (ssig ncounts : ℝ) : ℝ := pfFromA (aFromSsig ssig ncounts)

end Stingray.Stats

import Verif.Model.Modeling
import Verif.Spec.Density
import Mathlib.Tactic.Linarith
import Mathlib.Tactic.FieldSimp
import Mathlib.Tactic.Ring
import Mathlib.Tactic.NormNum

/-!
# Properties C97-C105: likelihoods, posteriors and fits
-/

namespace Stingray.Modeling

open Stingray Stingray.Spec

/-! ## Posteriors -/

open Classical in
theorem priorSum_eq : ∀ (ps : List (Par × (ℝ → ℝ))) (t0 : List ℝ),
    t0.length = numNotFixed (ps.map Prod.fst) →
    priorSum ps t0 =
      if ∀ q ∈ (ps.filter fun p : Par × (ℝ → ℝ) => !p.1.fixed).zip t0, 0 < q.1.2 q.2 then
        some (((ps.filter fun p => !p.1.fixed).zip t0).map fun q => Real.log (q.1.2 q.2)).sum
      else none
  | [], t0, _ => by simp [priorSum]
  | (p, prior) :: ps, t0, h => by
    unfold priorSum
    cases hf : p.fixed with
    | true =>
      have h' : t0.length = numNotFixed (ps.map Prod.fst) := by
        rw [h]; simp [numNotFixed, hf]
      rw [if_pos rfl, priorSum_eq ps t0 h']
      simp [hf]
    | false =>
      rw [if_neg (by simp)]
      cases t0 with
      | nil => simp [numNotFixed, hf] at h
      | cons t t0 =>
        have h' : t0.length = numNotFixed (ps.map Prod.fst) := by
          simpa [numNotFixed, hf] using h
        dsimp only
        rw [priorSum_eq ps t0 h']
        by_cases ha : ∀ q ∈ (ps.filter fun p => !p.1.fixed).zip t0, 0 < q.1.2 q.2
        · rw [if_pos ha]
          dsimp only
          by_cases hp : 0 < prior t
          · rw [if_pos hp, if_pos]
            · simp [hf]
            · intro q hq
              simp only [List.filter_cons, hf, Bool.not_false, if_true, List.zip_cons_cons, List.mem_cons] at hq
              rcases hq with rfl | hq
              · exact hp
              · exact ha q hq
          · rw [if_neg hp, if_neg]
            intro hc
            exact hp (hc ((p, prior), t) (by simp [hf]))
        · rw [if_neg ha, if_neg]
          intro hc
          exact ha fun q hq => hc q (by simp [hf, hq])

/-- **C97.** The log-prior is the sum of the logarithms of the prior densities of the parameters that are not fixed, in their order; it is `logmin` exactly if one of them is not
positive (for a sum that is not `logmin` itself), and any other number of values is refused. -/
theorem logprior_spec (ps : List (Par × (ℝ → ℝ))) (t0 : List ℝ) :
    (t0.length ≠ numNotFixed (ps.map Prod.fst) → logprior ps t0 = .error .incorrectParameterError) ∧
    (t0.length = numNotFixed (ps.map Prod.fst) →
      ((∀ q ∈ (ps.filter fun p => !p.1.fixed).zip t0, 0 < q.1.2 q.2) →
        logprior ps t0 = .ok (((ps.filter fun p => !p.1.fixed).zip t0).map fun q => Real.log (q.1.2 q.2)).sum) ∧
      ((∃ q ∈ (ps.filter fun p => !p.1.fixed).zip t0, q.1.2 q.2 ≤ 0) → logprior ps t0 = .ok logmin)) := by
  unfold logprior
  refine ⟨fun h => if_pos h, fun h => ?_⟩
  rw [if_neg (not_not.2 h), priorSum_eq ps t0 h]
  refine ⟨fun ha => by rw [if_pos ha]; rfl, fun ⟨q, hq, hn⟩ => ?_⟩
  rw [if_neg (fun hc => absurd (hc q hq) (not_lt.2 hn))]
  rfl

/-- **C97.** The log-posterior is the sum of the log-prior and the log-likelihood, except where the prior vanishes: there it is `logmin`, whatever the likelihood. `neg=True` gives exactly the
negative. A missing prior is an error, and so is a wrong number of parameters. -/
theorem logposterior_spec (l p : ℝ) (e : PyErr) (like : Except PyErr ℝ) (neg : Bool) :
    (logmin / 2 ≤ p → logposterior (some (.ok p)) (.ok l) false = .ok (p + l)) ∧
    logposterior (some (.ok logmin)) (.ok l) false = .ok logmin ∧
    (∀ v, logposterior (some (.ok p)) (.ok l) false = .ok v → logposterior (some (.ok p)) (.ok l) true = .ok (-v)) ∧
    logposterior none like neg = .error .priorUndefinedError ∧
    logposterior (some (.error e)) like neg = .error e ∧
    logposterior (some (.ok p)) (.error e) neg = .error e := by
  refine ⟨fun hp => ?_, ?_, ?_, rfl, rfl, rfl⟩
  · have : isclose p logmin = false := by
      unfold isclose
      rw [decide_eq_false_iff_not, not_le]
      have h0 : |logmin| = 10000000000000000 := by unfold logmin; rw [abs_neg]; norm_num
      have h1 : p - logmin ≤ |p - logmin| := le_abs_self _
      have : (logmin : ℝ) = -10000000000000000 := rfl
      rw [h0]; linarith
    simp [logposterior, this]
  · have : isclose logmin logmin = true := by
      unfold isclose
      rw [decide_eq_true_iff, sub_self, abs_zero]
      positivity
    simp [logposterior, this]
  · intro v hv
    simp only [logposterior, Bool.false_eq_true, if_false, if_true, Except.ok.injEq] at hv ⊢
    rw [hv]

/-- Non-vacuity: a prior of one half on the only parameter. -/
example : logprior [(⟨0, false, none, none, none⟩, fun _ => 1 / 2), (⟨5, true, none, none, none⟩, fun _ => 0)] [3] =
    .ok (Real.log (1 / 2)) := by
  have := ((logprior_spec [(⟨0, false, none, none, none⟩, fun _ => 1 / 2), (⟨5, true, none, none, none⟩, fun _ => 0)] [3]).2
    (by simp [numNotFixed])).1 (by simp)
  simpa using this

/-! ## History -/

theorem setFree_length : ∀ (ps : List Par) (vs : List ℝ), (setFree ps vs).length = ps.length
  | [], _ => rfl
  | p :: ps, vs => by
    unfold setFree
    split_ifs
    · simp [setFree_length]
    · cases vs <;> simp [setFree_length]

/-- without ties, the second pass changes nothing -/
theorem tieStep_none (ps : List Par) (h : ∀ p ∈ ps, p.tied = none) (i : Nat) : tieStep ps i = ps := by
  unfold tieStep
  cases hp : ps[i]? with
  | none => rfl
  | some p => simp [h p (List.mem_of_getElem? hp)]

theorem foldl_tieStep_none (ps : List Par) (h : ∀ p ∈ ps, p.tied = none) (l : List Nat) : l.foldl tieStep ps = ps := by
  induction l with
  | nil => rfl
  | cons i l ih => rw [List.foldl_cons, tieStep_none ps h, ih]

theorem setFree_tied : ∀ (ps : List Par) (vs : List ℝ), (∀ p ∈ ps, p.tied = none) → ∀ p ∈ setFree ps vs, p.tied = none
  | [], _, _, p, hp => by simp [setFree] at hp
  | q :: ps, vs, h, p, hp => by
    have hq := h q (by simp)
    have h' : ∀ p ∈ ps, p.tied = none := fun p hp => h p (by simp [hp])
    unfold setFree at hp
    split_ifs at hp
    · rcases List.mem_cons.1 hp with rfl | hp
      · exact hq
      · exact setFree_tied ps vs h' p hp
    · cases vs with
      | nil =>
        rcases List.mem_cons.1 hp with rfl | hp
        · exact hq
        · exact setFree_tied ps [] h' p hp
      | cons v vs =>
        rcases List.mem_cons.1 hp with rfl | hp
        · exact hq
        · exact setFree_tied ps vs h' p hp

theorem setParams_none (ps : List Par) (h : ∀ p ∈ ps, p.tied = none) (vs : List ℝ) : setParams ps vs = setFree ps vs := by
  unfold setParams
  exact foldl_tieStep_none _ (setFree_tied ps vs h) _

theorem numFree_cons_of (p : Par) (ps : List Par) :
    numFree (p :: ps) = if (p.fixed || p.tied.isSome) = true then numFree ps else numFree ps + 1 := by
  unfold numFree
  rw [List.filter_cons]
  cases p.fixed <;> cases p.tied.isSome <;> simp

theorem evaluate_snd (like : (ℝ → ℝ) → ℝ) (npar : Nat) (f : List ℝ → ℝ → ℝ) (ps : List Par) (pars : List ℝ) (neg : Bool) :
    (evaluate like npar f ps pars neg).2 = if pars.length ≠ npar then ps else setParams ps pars := by
  unfold evaluate
  by_cases h : pars.length ≠ npar
  · rw [if_pos h, if_pos h]
  · rw [if_neg h, if_neg h]

theorem setFree_skip (p : Par) (ps : List Par) (vs : List ℝ) (h : (p.fixed || p.tied.isSome) = true) :
    setFree (p :: ps) vs = p :: setFree ps vs := by
  cases vs <;> simp only [setFree, h, if_true]

theorem setFree_setFree : ∀ (ps : List Par) (a b : List ℝ), numFree ps ≤ b.length → setFree (setFree ps a) b = setFree ps b
  | [], _, _, _ => rfl
  | p :: ps, a, b, h => by
    cases hp : (p.fixed || p.tied.isSome) with
    | true =>
      have h' : numFree ps ≤ b.length := by
        rw [numFree_cons_of, if_pos hp] at h; exact h
      rw [setFree_skip p ps a hp, setFree_skip p _ b hp, setFree_skip p ps b hp, setFree_setFree ps a b h']
    | false =>
      rw [numFree_cons_of, if_neg (by rw [hp]; simp)] at h
      cases b with
      | nil => simp at h
      | cons v b =>
        have h' : numFree ps ≤ b.length := by
          simpa using h
        cases a with
        | nil =>
          simp only [setFree, hp, Bool.false_eq_true, if_false]
          rw [setFree_setFree ps [] b h']
        | cons w a =>
          simp only [setFree, hp, Bool.false_eq_true, if_false]
          rw [setFree_setFree ps a b h']
          rfl

theorem numFree_setFree : ∀ (ps : List Par) (vs : List ℝ), numFree (setFree ps vs) = numFree ps
  | [], _ => rfl
  | p :: ps, vs => by
    have hcons : ∀ (q : Par) l l', q.fixed = p.fixed → q.tied = p.tied → numFree l = numFree l' →
        numFree (q :: l) = numFree (p :: l') := by
      intro q l l' h1 h2 h3
      rw [numFree_cons_of, numFree_cons_of, h1, h2, h3]
    unfold setFree
    split_ifs
    · exact hcons _ _ _ rfl rfl (numFree_setFree ps vs)
    · cases vs with
      | nil => exact hcons _ _ _ rfl rfl (numFree_setFree ps [])
      | cons v vs => exact hcons _ _ _ rfl rfl (numFree_setFree ps vs)

/-- The parameters of the model object after some evaluations. -/
noncomputable def history (like : (ℝ → ℝ) → ℝ) (npar : Nat) (f : List ℝ → ℝ → ℝ) (ps : List Par) (calls : List (List ℝ × Bool)) :
    List Par :=
  calls.foldl (fun ps c => (evaluate like npar f ps c.1 c.2).2) ps

/-- **C98 (partial).** The value of a likelihood only depends on the parameters it is called with: whatever was evaluated before with the same model object, for this or (`like'`) another likelihood, with the
right or the wrong number of parameters, the result is the same. Proved for models without tied parameters. -/
theorem evaluate_history_partial (like like' : (ℝ → ℝ) → ℝ) (f : List ℝ → ℝ → ℝ) (ps : List Par)
    (h : ∀ p ∈ ps, p.tied = none) (calls : List (List ℝ × Bool)) (pars : List ℝ) (neg : Bool) :
    (evaluate like (numFree ps) f (history like' (numFree ps) f ps calls) pars neg).1 =
      (evaluate like (numFree ps) f ps pars neg).1 := by
  by_cases hl : pars.length = numFree ps
  · have key : ∀ (qs : List Par), (∀ p ∈ qs, p.tied = none) → numFree qs = numFree ps → setFree qs pars = setFree ps pars →
        (∀ p ∈ history like' (numFree ps) f qs calls, p.tied = none) ∧
          numFree (history like' (numFree ps) f qs calls) = numFree ps ∧
          setFree (history like' (numFree ps) f qs calls) pars = setFree ps pars := by
      induction calls with
      | nil => intro qs h1 h2 h3; exact ⟨h1, h2, h3⟩
      | cons c calls ih =>
        intro qs h1 h2 h3
        unfold history
        rw [List.foldl_cons]
        apply ih
        · rw [evaluate_snd]
          split_ifs
          · exact h1
          · rw [setParams_none qs h1]
            exact setFree_tied qs _ h1
        · rw [evaluate_snd]
          split_ifs
          · exact h2
          · rw [setParams_none qs h1, numFree_setFree, h2]
        · rw [evaluate_snd]
          split_ifs
          · exact h3
          · rw [setParams_none qs h1, setFree_setFree qs _ _ (by rw [h2, hl]), h3]
    obtain ⟨h1, _, h3⟩ := key ps h rfl rfl
    unfold evaluate
    rw [if_neg (not_not.2 hl), if_neg (not_not.2 hl)]
    dsimp only
    rw [setParams_none _ h1, h3, setParams_none ps h]
  · unfold evaluate
    rw [if_pos hl, if_pos hl]

/-- **C98 (fixed parameters).** Evaluations never change a fixed parameter, nor the bounds. -/
theorem evaluate_keeps_fixed (like : (ℝ → ℝ) → ℝ) (npar : Nat) (f : List ℝ → ℝ → ℝ) (ps : List Par)
    (h : ∀ p ∈ ps, p.tied = none) (pars : List ℝ) (neg : Bool) :
    List.Forall₂ (fun p q : Par => q.fixed = p.fixed ∧ q.lo = p.lo ∧ q.hi = p.hi ∧ (p.fixed = true → q.value = p.value))
      ps (evaluate like npar f ps pars neg).2 := by
  have base : ∀ ps : List Par, List.Forall₂ (fun p q : Par => q.fixed = p.fixed ∧ q.lo = p.lo ∧ q.hi = p.hi ∧
      (p.fixed = true → q.value = p.value)) ps ps := by
    intro ps
    induction ps with
    | nil => exact .nil
    | cons p ps ih => exact .cons ⟨rfl, rfl, rfl, fun _ => rfl⟩ ih
  have free : ∀ (ps : List Par) (vs : List ℝ), List.Forall₂ (fun p q : Par => q.fixed = p.fixed ∧ q.lo = p.lo ∧ q.hi = p.hi ∧
      (p.fixed = true → q.value = p.value)) ps (setFree ps vs) := by
    intro ps
    induction ps with
    | nil => intro vs; exact .nil
    | cons p ps ih =>
      intro vs
      unfold setFree
      split_ifs with hc
      · exact .cons ⟨rfl, rfl, rfl, fun _ => rfl⟩ (ih vs)
      · cases vs with
        | nil => exact .cons ⟨rfl, rfl, rfl, fun _ => rfl⟩ (ih [])
        | cons v vs =>
          refine .cons ⟨rfl, rfl, rfl, fun hfix => ?_⟩ (ih vs)
          simp [hfix] at hc
  rw [evaluate_snd]
  split_ifs
  · exact base ps
  · rw [setParams_none ps h]
    exact free ps pars

/-- Non-vacuity: two free parameters and a fixed one. -/
example : (evaluate (fun mu => mu 1) 2 (fun p x => p.sum * x) [⟨1, false, none, none, none⟩, ⟨2, true, none, none, none⟩, ⟨3, false, none, some 5, none⟩]
    [10, 20] false).1 = .ok 17 := by
  norm_num [evaluate, setParams, setFree, tieStep, Par.clip, List.range_succ]

/-! ## Where the likelihoods are largest -/

theorem sum_map_le {α : Type} (l : List α) (f g : α → ℝ) (h : ∀ a ∈ l, f a ≤ g a) : (l.map f).sum ≤ (l.map g).sum := by
  induction l with
  | nil => simp
  | cons a l ih =>
    simp only [List.map_cons, List.sum_cons]
    exact add_le_add (h a (by simp)) (ih fun b hb => h b (by simp [hb]))

theorem sum_map_add' {α : Type} (l : List α) (f g : α → ℝ) : (l.map f).sum + (l.map g).sum = (l.map fun a => f a + g a).sum := by
  induction l with
  | nil => simp
  | cons a l ih =>
    simp only [List.map_cons, List.sum_cons]
    rw [← ih]; ring

theorem sum_map_mul' {α : Type} (l : List α) (c : ℝ) (f : α → ℝ) : c * (l.map f).sum = (l.map fun a => c * f a).sum := by
  induction l with
  | nil => simp
  | cons a l ih =>
    simp only [List.map_cons, List.sum_cons]
    rw [← ih]; ring

/-- the term of the exponential law is least at the data -/
theorem exp_term (y s : ℝ) (hy : 0 < y) (hs : 0 < s) : Real.log y + y / y ≤ Real.log s + y / s := by
  have h := Real.log_le_sub_one_of_pos (div_pos hy hs)
  rw [Real.log_div hy.ne' hs.ne'] at h
  rw [div_self hy.ne']
  linarith

/-- **C99.** No positive model is more likely than the one that goes through the data, for averaged or single powers: a periodogram likelihood is greatest where the model equals the powers. -/
theorem psd_like_max (m : MArg) (rows : List Row) (mu best : ℝ → ℝ) (hy : ∀ r ∈ rows, 0 < r.y)
    (hm : ∀ r ∈ rows, 0 ≤ r.m) (hm' : ∀ c, m = .scalar c → 0 ≤ c)
    (hmu : ∀ r ∈ rows, 0 < mu r.x) (hbest : ∀ r ∈ rows, best r.x = r.y) :
    psdLike m rows mu ≤ psdLike m rows best := by
  have hb : ∀ r ∈ rows, 0 < best r.x := fun r hr => by rw [hbest r hr]; exact hy r hr
  have avg : ∀ mf : Row → ℝ, (∀ r ∈ rows, 0 ≤ mf r) → psdLikeAveraged mf rows mu ≤ psdLikeAveraged mf rows best := by
    intro mf hmf
    unfold psdLikeAveraged
    rw [if_pos fun r hr => ⟨hmu r hr, hy r hr⟩, if_pos fun r hr => ⟨hb r hr, hy r hr⟩,
      sum_map_add' rows (fun r => 2 * mf r * Real.log (mu r.x)), sum_map_add' rows (fun r => 2 * mf r * Real.log (best r.x))]
    apply neg_le_neg
    apply add_le_add _ le_rfl
    apply sum_map_le
    intro r hr
    have := exp_term r.y (mu r.x) (hy r hr) (hmu r hr)
    rw [hbest r hr]
    have h2 := mul_le_mul_of_nonneg_left this (mul_nonneg (zero_le_two) (hmf r hr) : (0 : ℝ) ≤ 2 * mf r)
    calc 2 * mf r * Real.log r.y + 2 * mf r * r.y / r.y = 2 * mf r * (Real.log r.y + r.y / r.y) := by ring
      _ ≤ 2 * mf r * (Real.log (mu r.x) + r.y / mu r.x) := h2
      _ = _ := by ring
  cases m with
  | array => exact avg _ hm
  | scalar c =>
    unfold psdLike
    dsimp only
    split_ifs
    · have h := sum_map_le rows (fun r => Real.log (best r.x) + r.y / best r.x) (fun r => Real.log (mu r.x) + r.y / mu r.x)
        (fun r hr => by rw [hbest r hr]; exact exp_term r.y (mu r.x) (hy r hr) (hmu r hr))
      rw [← sum_map_add', ← sum_map_add'] at h
      linarith
    · exact avg _ (fun _ _ => hm' c rfl)

/-- **C99.** Gaussian and Laplace likelihoods are greatest where the model equals the data. -/
theorem gauss_laplace_max (rows : List Row) (mu best : ℝ → ℝ) (hbest : ∀ r ∈ rows, best r.x = r.y) :
    gaussLike rows mu ≤ gaussLike rows best ∧ laplaceLike rows mu ≤ laplaceLike rows best := by
  unfold gaussLike laplaceLike
  by_cases h : ∀ r ∈ rows, 0 < r.err
  · simp only [if_pos h]
    constructor
    · apply sum_map_le
      intro r hr
      rw [hbest r hr, sub_self]
      have : 0 ≤ (r.y - mu r.x) ^ 2 / (2 * r.err ^ 2) := by positivity
      simp only [ne_eq, OfNat.ofNat_ne_zero, not_false_eq_true, zero_pow, zero_div, sub_zero]
      linarith
    · apply sum_map_le
      intro r hr
      rw [hbest r hr, sub_self, abs_zero, zero_div]
      have : 0 ≤ |r.y - mu r.x| / r.err := div_nonneg (abs_nonneg _) (h r hr).le
      linarith
  · simp only [if_neg h, le_refl, and_self]

/-- **C99.** The Poisson likelihood is greatest where the model equals the counts. -/
theorem poisson_like_max (gammaln : ℝ → ℝ) (rows : List Row) (mu best : ℝ → ℝ) (hy : ∀ r ∈ rows, 0 < r.y)
    (hmu : ∀ r ∈ rows, 0 < mu r.x) (hbest : ∀ r ∈ rows, best r.x = r.y) :
    poissonLike gammaln rows mu ≤ poissonLike gammaln rows best := by
  unfold poissonLike
  rw [if_pos hmu, if_pos fun r hr => by rw [hbest r hr]; exact hy r hr]
  apply sum_map_le
  intro r hr
  rw [hbest r hr]
  have hs := hmu r hr
  have h := Real.log_le_sub_one_of_pos (div_pos hs (hy r hr))
  rw [Real.log_div hs.ne' (hy r hr).ne'] at h
  have h2 := mul_le_mul_of_nonneg_left h (hy r hr).le
  have h3 : r.y * (mu r.x / r.y - 1) = mu r.x - r.y := by
    field_simp [(hy r hr).ne']
  rw [h3] at h2
  linarith

/-- **C99.** A model that is not positive somewhere gets `logmin` from the periodogram and the Poisson likelihood. -/
theorem like_not_positive (m : MArg) (gammaln : ℝ → ℝ) (rows : List Row) (mu : ℝ → ℝ) (h : ∃ r ∈ rows, mu r.x ≤ 0) :
    psdLike m rows mu = logmin ∧ poissonLike gammaln rows mu = logmin := by
  obtain ⟨r, hr, h⟩ := h
  have h1 : ¬ ∀ r ∈ rows, 0 < mu r.x := fun hc => absurd (hc r hr) (not_lt.2 h)
  have h2 : ¬ ∀ r ∈ rows, 0 < mu r.x ∧ 0 < r.y := fun hc => absurd (hc r hr).1 (not_lt.2 h)
  constructor
  · cases m with
    | array => exact if_neg h2
    | scalar c =>
      unfold psdLike
      dsimp only
      split_ifs
      · rfl
      · exact if_neg h2
  · exact if_neg h1

/-- Non-vacuity: two powers, and a constant model. -/
example : psdLike (.scalar 3) [⟨1, 2, 0, 0⟩, ⟨2, 4, 0, 0⟩] (fun _ => 3) ≤ psdLike (.scalar 3) [⟨1, 2, 0, 0⟩, ⟨2, 4, 0, 0⟩] (fun x => 2 * x) :=
  psd_like_max _ _ _ _ (by simp) (by simp) (by intro c hc; cases hc; norm_num) (by norm_num) (by norm_num)

/-! ## The likelihood of averaged powers -/

/-- **C100 (partial).** For a single periodogram (`m=1`) the likelihood is the logarithm of the density of the powers. -/
theorem psd_like_single_partial (rows : List Row) (mu : ℝ → ℝ) (hmu : ∀ r ∈ rows, 0 < mu r.x) :
    psdLike (.scalar 1) rows mu = (rows.map fun r => Real.log (averagedPowerDensity 1 (mu r.x) r.y)).sum := by
  unfold psdLike
  dsimp only
  rw [if_pos rfl, if_pos hmu]
  have h : -(rows.map fun r => Real.log (mu r.x)).sum - (rows.map fun r => r.y / mu r.x).sum =
      (rows.map fun r => -Real.log (mu r.x) - r.y / mu r.x).sum := by
    have := sum_map_mul' rows (-1) (fun r => Real.log (mu r.x) + r.y / mu r.x)
    rw [← sum_map_add'] at this
    rw [show (fun r : Row => -Real.log (mu r.x) - r.y / mu r.x) = fun r => -1 * (Real.log (mu r.x) + r.y / mu r.x) from
      funext fun r => by ring, ← this]
    ring
  rw [h]
  congr 1
  apply List.map_congr_left
  intro r hr
  have hs := hmu r hr
  unfold averagedPowerDensity
  simp only [Nat.cast_one, one_pow, le_refl, Nat.sub_self, pow_zero, Nat.factorial_zero, pow_one, one_mul]
  rw [Real.log_div (Real.exp_pos _).ne' hs.ne', Real.log_exp]
  ring

theorem log_density (n : Nat) (hn : 1 ≤ n) (s y : ℝ) (hs : 0 < s) (hy : 0 < y) :
    Real.log (averagedPowerDensity n s y) =
      n * Real.log n - Real.log (n - 1).factorial + ((n : ℝ) - 1) * Real.log y - n * Real.log s - n * y / s := by
  unfold averagedPowerDensity
  have hn' : (0 : ℝ) < n := by exact_mod_cast hn
  have hf : (0 : ℝ) < ((n - 1).factorial : ℝ) := by exact_mod_cast (n - 1).factorial_pos
  rw [Real.log_div (by positivity) (by positivity), Real.log_mul (by positivity) (by positivity),
    Real.log_mul (by positivity) (by positivity), Real.log_mul hf.ne' (by positivity), Real.log_exp, Real.log_pow,
    Real.log_pow, Real.log_pow, Nat.cast_sub hn, Nat.cast_one]
  ring

/-- **C100 (negation).** For averages of more spectra (or if `m` is an array) the likelihood is not the logarithm of the density up to a constant: every difference of the
log-likelihoods of two models is exactly twice what it should be. With a prior, the data count twice. -/
theorem psd_like_averaged_twice (n : Nat) (hn : 2 ≤ n) (rows : List Row) (mu nu : ℝ → ℝ)
    (hy : ∀ r ∈ rows, 0 < r.y) (hmu : ∀ r ∈ rows, 0 < mu r.x) (hnu : ∀ r ∈ rows, 0 < nu r.x) :
    psdLike (.scalar n) rows mu - psdLike (.scalar n) rows nu =
      2 * ((rows.map fun r => Real.log (averagedPowerDensity n (mu r.x) r.y)).sum -
        (rows.map fun r => Real.log (averagedPowerDensity n (nu r.x) r.y)).sum) := by
  have h1 : (n : ℝ) ≠ 1 := by
    intro h
    have : n = 1 := by exact_mod_cast h
    omega
  have hn' : (n : ℝ) ≠ 0 := by
    intro h
    have : n = 0 := by exact_mod_cast h
    omega
  unfold psdLike
  dsimp only
  rw [if_neg h1, if_neg h1]
  have val : ∀ f : ℝ → ℝ, (∀ r ∈ rows, 0 < f r.x) → psdLikeAveraged (fun _ => (n : ℝ)) rows f =
      2 * (rows.map fun r => Real.log (averagedPowerDensity n (f r.x) r.y)).sum +
        (rows.map fun _ => -2 * (n * Real.log n - Real.log (n - 1).factorial)).sum := by
    intro f hf
    unfold psdLikeAveraged
    rw [if_pos fun r hr => ⟨hf r hr, hy r hr⟩, sum_map_add', sum_map_add', sum_map_mul', sum_map_add']
    have := sum_map_mul' rows (-1) (fun r => 2 * (n : ℝ) * Real.log (f r.x) + 2 * n * r.y / f r.x +
      2 * n * (2 / (2 * n) - 1) * Real.log r.y)
    rw [show ∀ z : ℝ, -z = -1 * z from fun z => by ring, this]
    congr 1
    apply List.map_congr_left
    intro r hr
    rw [log_density n (by omega) _ _ (hf r hr) (hy r hr)]
    have : 2 * (n : ℝ) * (2 / (2 * n) - 1) = -2 * ((n : ℝ) - 1) := by
      field_simp
      ring
    rw [this]
    ring
  rw [val mu hmu, val nu hnu]
  ring

/-- **C100 (negation).** The same data give another likelihood if `m` is given as an array of ones and not as the number 1. -/
theorem psd_like_ones : ∃ (rows : List Row) (mu : ℝ → ℝ), (∀ r ∈ rows, r.m = 1 ∧ 0 < r.y ∧ 0 < mu r.x) ∧
    psdLike .array rows mu ≠ psdLike (.scalar 1) rows mu := by
  refine ⟨[⟨0, 1, 0, 1⟩], fun _ => 1, by simp, ?_⟩
  norm_num [psdLike, psdLikeAveraged]

/-! ## Tied parameters -/

/-- **C101 (negation).** With a tied parameter a `PSDPosterior` never has a value: the prior asks for as many numbers as there are parameters that are not fixed, the likelihood for as many as there are free ones. -/
theorem psd_posterior_tied_fails (like : (ℝ → ℝ) → ℝ) (f : List ℝ → ℝ → ℝ) (ps : List (Par × (ℝ → ℝ))) (t0 : List ℝ) (neg : Bool)
    (h : ∃ p ∈ ps, p.1.fixed = false ∧ p.1.tied.isSome = true) :
    psdPosterior like f ps t0 neg = .error .incorrectParameterError := by
  have hlt : numFree (ps.map Prod.fst) < numNotFixed (ps.map Prod.fst) := by
    obtain ⟨p, hp, h1, h2⟩ := h
    unfold numFree numNotFixed
    have hmem : p.1 ∈ ps.map Prod.fst := List.mem_map_of_mem hp
    generalize ps.map Prod.fst = l at hmem
    induction l with
    | nil => simp at hmem
    | cons q l ih =>
      have hle : (l.filter fun p => !p.fixed && !p.tied.isSome).length ≤ (l.filter fun p => !p.fixed).length := by
        rw [← List.countP_eq_length_filter, ← List.countP_eq_length_filter]
        apply List.countP_mono_left
        intro x _ hx
        simp only [Bool.and_eq_true] at hx
        exact hx.1
      rcases List.mem_cons.1 hmem with rfl | hmem
      · simp only [List.filter_cons, h1, h2, Bool.not_false, Bool.not_true, Bool.and_false, Bool.false_eq_true, if_false, if_true,
          List.length_cons]
        omega
      · have := ih hmem
        rw [List.filter_cons, List.filter_cons]
        cases q.fixed <;> cases q.tied.isSome <;>
          simp only [Bool.not_false, Bool.not_true, Bool.and_false, Bool.and_true, Bool.false_eq_true, if_false, if_true,
            List.length_cons] <;> omega
  unfold psdPosterior logposterior logprior evaluate
  by_cases h1 : t0.length = numNotFixed (ps.map Prod.fst)
  · rw [if_neg (not_not.2 h1), if_pos (by omega)]
  · rw [if_pos h1]

/-- **C101 (partial).** Without tied parameters the prior and the likelihood agree on the number of parameters, and the posterior has a value for that number of parameters and only for it. -/
theorem psd_posterior_value_partial (like : (ℝ → ℝ) → ℝ) (f : List ℝ → ℝ → ℝ) (ps : List (Par × (ℝ → ℝ))) (t0 : List ℝ) (neg : Bool)
    (h : ∀ p ∈ ps, p.1.tied = none) :
    (∃ v, psdPosterior like f ps t0 neg = .ok v) ↔ t0.length = (ps.filter fun p => !p.1.fixed).length := by
  have h2 : numFree (ps.map Prod.fst) = numNotFixed (ps.map Prod.fst) := by
    unfold numFree numNotFixed
    congr 1
    apply List.filter_congr
    intro p hp
    obtain ⟨q, hq, rfl⟩ := List.mem_map.1 hp
    simp [h q hq]
  have h3 : numNotFixed (ps.map Prod.fst) = (ps.filter fun p => !p.1.fixed).length := by
    unfold numNotFixed
    rw [List.filter_map, List.length_map]
    rfl
  unfold psdPosterior logposterior logprior evaluate
  rw [h2, h3]
  by_cases h1 : t0.length = (ps.filter fun p => !p.1.fixed).length
  · simp [h1]
  · simp [h1]

/-! ## Fits -/

/-- **C102.** The deviance of a maximum likelihood fit is minus twice the log-likelihood found (`result` is the negative log-likelihood). -/
theorem deviance_spec (logL : ℝ) (k n : Nat) : (criteria (-logL) k n).1 = -2 * logL := by
  unfold criteria
  ring

/-- **C102 (negation).** The information criteria are not the deviance plus the penalty: the log-likelihood enters them once, not twice. So two models of the same data can be ranked the wrong way round. -/
theorem criteria_wrong (logL : ℝ) (k n : Nat) :
    ((criteria (-logL) k n).2.1 = 2 * k - 2 * logL ↔ logL = 0) ∧
    ((criteria (-logL) k n).2.2 = k * Real.log n - 2 * logL ↔ logL = 0) ∧
    ∃ (l1 l2 : ℝ) (k1 k2 : Nat), 2 * (k1 : ℝ) - 2 * l1 < 2 * k2 - 2 * l2 ∧
      (criteria (-l2) k2 n).2.1 < (criteria (-l1) k1 n).2.1 := by
  unfold criteria
  refine ⟨⟨fun h => ?_, fun h => ?_⟩, ⟨fun h => ?_, fun h => ?_⟩, 3, 0, 3, 1, by norm_num, by norm_num⟩
  · dsimp only at h; linarith
  · rw [h]; ring
  · dsimp only at h; linarith
  · rw [h]; ring

/-- **C103 (negation).** The bounds of the parameters are never handed to the optimizer: with any bound set they are not used, whatever the method. -/
theorem bounds_never_used (supports : Bool) (bounds : List (Option ℝ × Option ℝ)) (h : useBounds supports bounds = true) :
    ∀ b ∈ bounds, b = (none, none) := by
  unfold useBounds at h
  split_ifs at h with hc
  intro b hb
  simp only [Bool.or_eq_true, not_or, Bool.not_eq_true, List.any_eq_false] at hc
  have := hc.1 b hb
  obtain ⟨b1, b2⟩ := b
  cases b1 <;> cases b2 <;> simp_all

theorem fitLoop_spec (run : Nat → Option ℝ) : ∀ (fuel i : Nat),
    (∀ j, fitLoop run fuel i = .ok j ↔ i ≤ j ∧ j < i + fuel ∧ unacceptable (run j) = false ∧ ∀ k, i ≤ k → k < j → unacceptable (run k) = true) ∧
    (fitLoop run fuel i = .error .runtimeError ↔ ∀ k, i ≤ k → k < i + fuel → unacceptable (run k) = true)
  | 0, i => by
    refine ⟨fun j => ?_, ?_⟩
    · simp only [fitLoop, add_zero, reduceCtorEq, false_iff]
      intro ⟨h1, h2, _⟩
      omega
    · simp only [fitLoop, true_iff]
      intro k h1 h2
      omega
  | fuel + 1, i => by
    obtain ⟨h1, h2⟩ := fitLoop_spec run fuel (i + 1)
    unfold fitLoop
    cases hu : unacceptable (run i) with
    | true =>
      rw [if_pos rfl]
      refine ⟨fun j => (h1 j).trans ?_, h2.trans ?_⟩
      · constructor
        · intro ⟨a, b, c, d⟩
          refine ⟨by omega, by omega, c, fun k hk1 hk2 => ?_⟩
          rcases Nat.eq_or_lt_of_le hk1 with rfl | hk
          · exact hu
          · exact d k hk hk2
        · intro ⟨a, b, c, d⟩
          have hne : i ≠ j := fun h => by rw [h, c] at hu; exact absurd hu (by simp)
          exact ⟨by omega, by omega, c, fun k hk1 hk2 => d k (by omega) hk2⟩
      · constructor
        · intro h k hk1 hk2
          rcases Nat.eq_or_lt_of_le hk1 with rfl | hk
          · exact hu
          · exact h k hk (by omega)
        · intro h k hk1 hk2
          exact h k (by omega) (by omega)
    | false =>
      rw [if_neg (by simp)]
      refine ⟨fun j => ?_, ?_⟩
      · simp only [Except.ok.injEq]
        constructor
        · rintro rfl
          exact ⟨le_rfl, by omega, hu, fun k hk1 hk2 => by omega⟩
        · intro ⟨a, b, c, d⟩
          by_contra hne
          have := d i le_rfl (by omega)
          rw [hu] at this
          exact absurd this (by simp)
      · simp only [reduceCtorEq, false_iff]
        intro h
        have := h i le_rfl (by omega)
        rw [hu] at this
        exact absurd this (by simp)

/-- **C103.** A fit makes at most 21 runs of the optimizer, returns the first whose value is acceptable, and raises `RuntimeError` exactly if none of the 21 is. -/
theorem fit_spec (run : Nat → Option ℝ) :
    (∀ j, fit run = .ok j ↔ j < 21 ∧ unacceptable (run j) = false ∧ ∀ k < j, unacceptable (run k) = true) ∧
    (fit run = .error .runtimeError ↔ ∀ k < 21, unacceptable (run k) = true) := by
  obtain ⟨h1, h2⟩ := fitLoop_spec run 21 0
  unfold fit
  refine ⟨fun j => (h1 j).trans ?_, h2.trans ?_⟩
  · simp
  · simp

/-- **C103 (negation).** The value of forbidden parameters is recognised with the sign of the log-likelihood, but it is the negative that is minimised: a fit (`neg=True`) that ends where the prior or the model
is forbidden is accepted at its first run. -/
theorem fit_accepts_forbidden (run : Nat → Option ℝ) (h : run 0 = some (-logmin)) : fit run = .ok 0 := by
  rw [(fit_spec run).1]
  refine ⟨by norm_num, ?_, fun k hk => by omega⟩
  rw [h]
  unfold unacceptable isclose logmin
  norm_num

/-! ## Significances by simulation -/

/-- **C104.** The p-value is the fraction of the simulations above the observed value: between 0 and 1, and not larger for a larger observed value. -/
theorem pvalue_spec (obs : ℝ) (sim : List ℝ) (hs : sim ≠ []) :
    ∃ p, computePvalue obs sim = .ok p ∧ p * sim.length = ((sim.filter fun s => decide (obs < s)).length : ℝ) ∧ 0 ≤ p ∧ p ≤ 1 ∧
      ∀ obs' p', obs ≤ obs' → computePvalue obs' sim = .ok p' → p' ≤ p := by
  have hl : (0 : ℝ) < sim.length := by exact_mod_cast List.length_pos_iff.2 hs
  refine ⟨_, if_neg hs, ?_, ?_, ?_, ?_⟩
  · field_simp
  · positivity
  · rw [div_le_one hl]
    exact_mod_cast List.length_filter_le _ _
  · intro obs' p' ho h
    unfold computePvalue at h
    rw [if_neg hs] at h
    cases h
    apply div_le_div_of_nonneg_right _ hl.le
    rw [← List.countP_eq_length_filter, ← List.countP_eq_length_filter]
    exact_mod_cast List.countP_mono_left (fun x _ hx => by simp only [decide_eq_true_eq] at hx ⊢; exact lt_of_le_of_lt ho hx)

/-- **C104 (negation).** Simulations whose fit failed are not left out: they count as zeros, so that the p-value is smaller than the fraction of the successful simulations above the observed value. -/
theorem pvalue_failed_fits : ∃ (obs : ℝ) (sims : List (Option ℝ)) (p q : ℝ),
    computePvalue obs (simulated sims) = .ok p ∧ computePvalue obs (sims.filterMap id) = .ok q ∧ p < q := by
  refine ⟨1, [some 2, none], 1 / 2, 1, ?_, ?_, by norm_num⟩
  · unfold computePvalue simulated
    rw [if_neg (by simp)]
    norm_num
  · have : [some (2 : ℝ), none].filterMap id = [2] := rfl
    unfold computePvalue
    rw [this, if_neg (by simp)]
    norm_num

/-- **C105.** The highest outlier is the largest ratio of data to model (times two); the index is the first at which it is reached, and the abscissa is the one of that index. -/
theorem highest_outlier_spec (rows : List Row) (mfit : ℝ → ℝ) (v x : ℝ) (i : Nat)
    (h : highestOutlier rows mfit = .ok (v, x, i)) :
    (∃ r, rows[i]? = some r ∧ v = 2 * r.y / mfit r.x ∧ x = r.x) ∧
    (∀ r ∈ rows, 2 * r.y / mfit r.x ≤ v) ∧
    ∀ j r, j < i → rows[j]? = some r → 2 * r.y / mfit r.x < v := by
  unfold highestOutlier at h
  dsimp only at h
  generalize hres : (rows.map fun r => 2 * r.y / mfit r.x) = res at h
  cases hl : (res.insertionSort (· ≤ ·)).getLast? with
  | none => rw [hl] at h; simp at h
  | some my =>
    rw [hl] at h
    simp only [Except.ok.injEq, Prod.mk.injEq] at h
    obtain ⟨rfl, h2, h3⟩ := h
    have hperm := List.perm_insertionSort (· ≤ ·) res
    have hsort := List.pairwise_insertionSort (· ≤ ·) res
    have hmem : my ∈ res := hperm.mem_iff.1 (List.mem_of_getLast? hl)
    have hmax : ∀ z ∈ res, z ≤ my := by
      intro z hz
      obtain ⟨l, hl'⟩ := List.getLast?_eq_some_iff.1 hl
      have hz' := hperm.mem_iff.2 hz
      rw [hl'] at hsort hz'
      rcases List.mem_append.1 hz' with h | h
      · exact (List.pairwise_append.1 hsort).2.2 z h my (by simp)
      · exact (List.mem_singleton.1 h).le
    have hi : i < res.length := by rw [← h3]; exact List.idxOf_lt_length_of_mem hmem
    have hi' : i < rows.length := by rw [← hres, List.length_map] at hi; exact hi
    have hget : res[i] = my := by
      have := List.getElem_idxOf (List.idxOf_lt_length_of_mem hmem)
      simp only [h3] at this
      exact this
    have hri : res[i] = 2 * rows[i].y / mfit rows[i].x := by
      simp only [← hres, List.getElem_map]
    refine ⟨⟨rows[i], List.getElem?_eq_getElem hi', by rw [← hri, hget], ?_⟩, ?_, ?_⟩
    · rw [← h2, h3, List.getD_eq_getElem?_getD, List.getElem?_map, List.getElem?_eq_getElem hi']
      rfl
    · intro r hr
      exact hmax _ (by rw [← hres]; exact List.mem_map_of_mem hr)
    · intro j r hj hr
      have hj' : j < rows.length := by omega
      rw [List.getElem?_eq_getElem hj', Option.some.injEq] at hr
      have hrj : res[j]'(by omega) = 2 * r.y / mfit r.x := by
        simp only [← hres, List.getElem_map, hr]
      rw [← hrj]
      apply lt_of_le_of_ne (hmax _ (List.getElem_mem _))
      intro heq
      rw [← h3] at hj
      have hlt : j < res.length := by rw [← hres, List.length_map]; exact hj'
      have := List.not_of_lt_findIdx (p := (· == my)) (xs := res) (i := j) hj
      rw [beq_iff_eq.2 heq] at this
      exact absurd this (by simp)

/-- Non-vacuity: the second of three points. -/
example : ∃ v x, highestOutlier [⟨1, 2, 0, 0⟩, ⟨2, 6, 0, 0⟩, ⟨3, 5, 0, 0⟩] (fun _ => 2) = .ok (v, x, 1) := by
  refine ⟨6, 2, ?_⟩
  have h : ((2 : ℝ) == 6) = false := by
    rw [beq_eq_false_iff_ne]; norm_num
  norm_num [highestOutlier, List.insertionSort, List.orderedInsert, List.idxOf, List.findIdx_cons, h]

end Stingray.Modeling

import Verif.Lemmas.GpModel

/-!
C177: Gaussian-process models of flares and quasi-periodic oscillations.
-/

namespace Stingray.GpModel

open Stingray

/-- The kernels and the means that are implemented. -/
def kernelTypes : List String := ["RN", "QPO", "QPO_plus_RN"]

def meanTypes : List String := ["gaussian", "exponential", "constant", "skew_gaussian", "skew_exponential", "fred"]

/-- **C177 (names).** For an implemented kernel and mean the list of parameters has no repetition, not even between a parameter and the logarithm of a parameter of the same name, and it is all that the likelihood needs: with one number for each of them the model is defined. Any other kernel or mean raises a ValueError, and so does too short a list of numbers raise an IndexError. -/
theorem gp_names (kt mt : String) :
    (kt ∈ kernelTypes → mt ∈ meanTypes → ∃ names, gpParams kt mt = .ok names ∧ (names.map strip).Nodup ∧
      (∀ args : List ℝ, names.length ≤ args.length → ∃ km, model names kt mt args = .ok km) ∧
      (∀ args : List ℝ, args.length < names.length → model names kt mt args = .error .indexError)) ∧
    (kt ∉ kernelTypes ∨ mt ∉ meanTypes → gpParams kt mt = .error .valueError) := by
  constructor
  · intro hk hm
    have hkp : ∃ kp, kernelParams kt = .ok kp ∧ ∀ ns : List Name, kp ⊆ ns → ∀ args : List ℝ, ns.length ≤ args.length →
        ∃ k, getKernel kt (((ns.zip args).map fun (p : Name × ℝ) => entry p.1 p.2).reverse ++ []) = .ok k := by
      have sub : ∀ (kp ns : List Name) (n : Name), n ∈ kp.map strip → kp ⊆ ns → n ∈ ns.map strip := by
        intro kp ns n h hs
        obtain ⟨m, hm, rfl⟩ := List.mem_map.1 h
        exact List.mem_map.2 ⟨m, hs hm, rfl⟩
      simp only [kernelTypes, List.mem_cons, List.not_mem_nil, or_false] at hk
      rcases hk with rfl | rfl | rfl
      · refine ⟨_, rfl, fun ns hs args ha => ?_⟩
        obtain ⟨v1, h1⟩ := get_ok ns args ha ['c', 'r', 'n'] (sub _ ns _ (by decide) hs)
        obtain ⟨v2, h2⟩ := get_ok ns args ha ['a', 'r', 'n'] (sub _ ns _ (by decide) hs)
        simp only [getKernel, h1, h2]
        exact ⟨_, rfl⟩
      · refine ⟨_, rfl, fun ns hs args ha => ?_⟩
        obtain ⟨v1, h1⟩ := get_ok ns args ha ['a', 'q', 'p', 'o'] (sub _ ns _ (by decide) hs)
        obtain ⟨v2, h2⟩ := get_ok ns args ha ['c', 'q', 'p', 'o'] (sub _ ns _ (by decide) hs)
        obtain ⟨v3, h3⟩ := get_ok ns args ha ['f', 'r', 'e', 'q'] (sub _ ns _ (by decide) hs)
        simp only [getKernel, h1, h2, h3]
        exact ⟨_, rfl⟩
      · refine ⟨_, rfl, fun ns hs args ha => ?_⟩
        obtain ⟨v1, h1⟩ := get_ok ns args ha ['a', 'q', 'p', 'o'] (sub _ ns _ (by decide) hs)
        obtain ⟨v2, h2⟩ := get_ok ns args ha ['c', 'q', 'p', 'o'] (sub _ ns _ (by decide) hs)
        obtain ⟨v3, h3⟩ := get_ok ns args ha ['f', 'r', 'e', 'q'] (sub _ ns _ (by decide) hs)
        obtain ⟨v4, h4⟩ := get_ok ns args ha ['c', 'r', 'n'] (sub _ ns _ (by decide) hs)
        obtain ⟨v5, h5⟩ := get_ok ns args ha ['a', 'r', 'n'] (sub _ ns _ (by decide) hs)
        simp only [getKernel, h1, h2, h3, h4, h5]
        exact ⟨_, rfl⟩
    have hmp : ∃ mp, meanParams mt = .ok mp ∧ ∀ ns : List Name, mp ⊆ ns → ∀ args : List ℝ, ns.length ≤ args.length →
        ∃ k, getMean mt (((ns.zip args).map fun (p : Name × ℝ) => entry p.1 p.2).reverse ++ []) = .ok k := by
      have sub : ∀ (kp ns : List Name) (n : Name), n ∈ kp.map strip → kp ⊆ ns → n ∈ ns.map strip := by
        intro kp ns n h hs
        obtain ⟨m, hm, rfl⟩ := List.mem_map.1 h
        exact List.mem_map.2 ⟨m, hs hm, rfl⟩
      simp only [meanTypes, List.mem_cons, List.not_mem_nil, or_false] at hm
      rcases hm with rfl | rfl | rfl | rfl | rfl | rfl
      · refine ⟨_, rfl, fun ns hs args ha => ?_⟩
        obtain ⟨v1, h1⟩ := get_ok ns args ha ['A'] (sub _ ns _ (by decide) hs)
        obtain ⟨v2, h2⟩ := get_ok ns args ha ['t', '0'] (sub _ ns _ (by decide) hs)
        obtain ⟨v3, h3⟩ := get_ok ns args ha ['s', 'i', 'g'] (sub _ ns _ (by decide) hs)
        simp only [getMean, h1, h2, h3]
        exact ⟨_, rfl⟩
      · refine ⟨_, rfl, fun ns hs args ha => ?_⟩
        obtain ⟨v1, h1⟩ := get_ok ns args ha ['A'] (sub _ ns _ (by decide) hs)
        obtain ⟨v2, h2⟩ := get_ok ns args ha ['t', '0'] (sub _ ns _ (by decide) hs)
        obtain ⟨v3, h3⟩ := get_ok ns args ha ['s', 'i', 'g'] (sub _ ns _ (by decide) hs)
        simp only [getMean, h1, h2, h3]
        exact ⟨_, rfl⟩
      · refine ⟨_, rfl, fun ns hs args ha => ?_⟩
        obtain ⟨v1, h1⟩ := get_ok ns args ha ['A'] (sub _ ns _ (by decide) hs)
        simp only [getMean, h1]
        exact ⟨_, rfl⟩
      · refine ⟨_, rfl, fun ns hs args ha => ?_⟩
        obtain ⟨v1, h1⟩ := get_ok ns args ha ['A'] (sub _ ns _ (by decide) hs)
        obtain ⟨v2, h2⟩ := get_ok ns args ha ['t', '0'] (sub _ ns _ (by decide) hs)
        obtain ⟨v3, h3⟩ := get_ok ns args ha ['s', 'i', 'g', '1'] (sub _ ns _ (by decide) hs)
        obtain ⟨v4, h4⟩ := get_ok ns args ha ['s', 'i', 'g', '2'] (sub _ ns _ (by decide) hs)
        simp only [getMean, h1, h2, h3, h4]
        exact ⟨_, rfl⟩
      · refine ⟨_, rfl, fun ns hs args ha => ?_⟩
        obtain ⟨v1, h1⟩ := get_ok ns args ha ['A'] (sub _ ns _ (by decide) hs)
        obtain ⟨v2, h2⟩ := get_ok ns args ha ['t', '0'] (sub _ ns _ (by decide) hs)
        obtain ⟨v3, h3⟩ := get_ok ns args ha ['s', 'i', 'g', '1'] (sub _ ns _ (by decide) hs)
        obtain ⟨v4, h4⟩ := get_ok ns args ha ['s', 'i', 'g', '2'] (sub _ ns _ (by decide) hs)
        simp only [getMean, h1, h2, h3, h4]
        exact ⟨_, rfl⟩
      · refine ⟨_, rfl, fun ns hs args ha => ?_⟩
        obtain ⟨v1, h1⟩ := get_ok ns args ha ['A'] (sub _ ns _ (by decide) hs)
        obtain ⟨v2, h2⟩ := get_ok ns args ha ['t', '0'] (sub _ ns _ (by decide) hs)
        obtain ⟨v3, h3⟩ := get_ok ns args ha ['p', 'h', 'i'] (sub _ ns _ (by decide) hs)
        obtain ⟨v4, h4⟩ := get_ok ns args ha ['d', 'e', 'l', 't', 'a'] (sub _ ns _ (by decide) hs)
        simp only [getMean, h1, h2, h3, h4]
        exact ⟨_, rfl⟩
    obtain ⟨kp, hkp, hK⟩ := hkp
    obtain ⟨mp, hmp, hM⟩ := hmp
    refine ⟨kp ++ mp, ?_, ?_, ?_, ?_⟩
    · simp only [gpParams, hkp, hmp]; rfl
    · simp only [kernelTypes, meanTypes, List.mem_cons, List.not_mem_nil, or_false] at hk hm
      rcases hk with rfl | rfl | rfl <;> rcases hm with rfl | rfl | rfl | rfl | rfl | rfl <;> cases hkp <;> cases hmp <;> decide
    · intro args ha
      obtain ⟨k, hk'⟩ := hK (kp ++ mp) (List.subset_append_left _ _) args ha
      obtain ⟨m, hm'⟩ := hM (kp ++ mp) (List.subset_append_right _ _) args ha
      simp only [model, paramDict_eq _ args [] ha]
      exact ⟨(k, m), by show (do let k ← getKernel kt _; let m ← getMean mt _; pure (k, m)) = _; rw [hk', hm']; rfl⟩
    · intro args ha
      simp only [model, paramDict_short _ args [] ha]; rfl
  · intro h
    simp only [kernelTypes, meanTypes, List.mem_cons, List.not_mem_nil, or_false, not_or] at h
    rcases h with ⟨h1, h2, h3⟩ | ⟨h1, h2, h3, h4, h5, h6⟩
    · simp only [gpParams, kernelParams, h1, h2, h3, if_false]; rfl
    · have hm : meanParams mt = .error .valueError := by
        simp only [meanParams, h1, h2, h3, h4, h5, h6, or_self, if_false]
      simp only [gpParams, hm]
      unfold kernelParams
      split_ifs <;> rfl

/-- **C177 (order).** The likelihood does not depend on the order of the parameters: exchanging names together with their numbers gives the same covariance and mean. -/
theorem gp_order (kt mt : String) (names names' : List Name) (args args' : List ℝ) (hl : names.length = args.length) (hl' : names'.length = args'.length)
    (hn : (names.map strip).Nodup) (hp : (names.zip args).Perm (names'.zip args')) : model names kt mt args = model names' kt mt args' := by
  simp only [model, paramDict_eq names args [] hl.le, paramDict_eq names' args' [] hl'.le]
  have hg : ∀ n, get (((names.zip args).map fun (p : Name × ℝ) => entry p.1 p.2).reverse ++ []) n = get (((names'.zip args').map fun (p : Name × ℝ) => entry p.1 p.2).reverse ++ []) n := by
    intro n
    rw [List.append_nil, List.append_nil]
    apply get_perm
    · exact ((List.reverse_perm _).trans (hp.map _)).trans (List.reverse_perm _).symm
    · rw [List.map_reverse, keys_eq names args hl.le]
      exact List.nodup_reverse.2 hn
  have e1 := kernel_congr kt _ _ hg
  have e2 := mean_congr mt _ _ hg
  show (do let k ← getKernel kt _; let m ← getMean mt _; pure (k, m)) = (do let k ← getKernel kt _; let m ← getMean mt _; pure (k, m))
  rw [e1, e2]

example : ([logPrefix ++ ['A'], ['t', '0']].map strip).Nodup ∧ ([logPrefix ++ ['A'], ['t', '0']].zip [(1 : ℝ), 2]).Perm ([['t', '0'], logPrefix ++ ['A']].zip [2, 1]) :=
  ⟨by decide, List.Perm.swap _ _ _⟩

theorem gpParams_split (kt mt : String) (names : List Name) (h : gpParams kt mt = .ok names) :
    ∃ kp mp, kernelParams kt = .ok kp ∧ meanParams mt = .ok mp ∧ names = kp ++ mp ∧ (names.map strip).Nodup := by
  have hk : kt ∈ kernelTypes := by
    by_contra hc
    rw [(gp_names kt mt).2 (Or.inl hc)] at h; simp at h
  have hm : mt ∈ meanTypes := by
    by_contra hc
    rw [(gp_names kt mt).2 (Or.inr hc)] at h; simp at h
  obtain ⟨ns, h1, h2, _⟩ := (gp_names kt mt).1 hk hm
  rw [h] at h1; cases h1
  unfold gpParams at h
  rcases hkp : kernelParams kt with e | kp
  · rw [hkp] at h; simp [bind, Except.bind] at h
  rcases hmp : meanParams mt with e | mp
  · rw [hkp, hmp] at h; simp [bind, Except.bind] at h
  rw [hkp, hmp] at h
  simp only [bind, Except.bind, pure, Except.pure, Except.ok.injEq] at h
  exact ⟨kp, mp, rfl, rfl, h.symm, h2⟩

/-- what a model is made of -/
theorem model_parts (names : List Name) (kt mt : String) (args : List ℝ) (k m : ℝ → ℝ) (h : model names kt mt args = .ok (k, m)) :
    names.length ≤ args.length ∧ getKernel kt (((names.zip args).map fun (p : Name × ℝ) => entry p.1 p.2).reverse ++ []) = .ok k ∧
      getMean mt (((names.zip args).map fun (p : Name × ℝ) => entry p.1 p.2).reverse ++ []) = .ok m := by
  have ha : names.length ≤ args.length := by
    by_contra hc
    simp only [model, paramDict_short names args [] (by omega)] at h
    simp [bind, Except.bind] at h
  unfold model at h
  rw [paramDict_eq names args [] ha] at h
  simp only [bind, Except.bind, pure, Except.pure] at h
  split at h
  · simp at h
  · rename_i k' hk
    split at h
    · simp at h
    · rename_i m' hm
      simp only [Except.ok.injEq, Prod.mk.injEq] at h
      exact ⟨ha, by rw [hk, h.1], by rw [hm, h.2]⟩

/-- **C177 (kernels).** The covariance of the counts at two times a distance `r` apart: red noise is an exponential with the variance and the damping rate given by their logarithms, a quasi-periodic oscillation is a damped cosine, and `QPO_plus_RN` is the sum. -/
theorem gp_kernels (mt : String) (names : List Name) (k m : ℝ → ℝ) (r : ℝ) :
    (∀ la lc rest, gpParams "RN" mt = .ok names → model names "RN" mt (la :: lc :: rest) = .ok (k, m) → k r = Real.exp la * Real.exp (-(Real.exp lc * r))) ∧
    (∀ la lc lf rest, gpParams "QPO" mt = .ok names → model names "QPO" mt (la :: lc :: lf :: rest) = .ok (k, m) →
      k r = Real.exp la * (Real.exp (-(Real.exp lc * r)) * Real.cos (2 * Real.pi * Real.exp lf * r))) ∧
    (∀ la lc la' lc' lf rest, gpParams "QPO_plus_RN" mt = .ok names → model names "QPO_plus_RN" mt (la :: lc :: la' :: lc' :: lf :: rest) = .ok (k, m) →
      k r = Real.exp la * Real.exp (-(Real.exp lc * r)) + Real.exp la' * (Real.exp (-(Real.exp lc' * r)) * Real.cos (2 * Real.pi * Real.exp lf * r))) := by
  have hsq : ∀ x : ℝ, √(Real.exp x) ^ 2 = Real.exp x := fun x => Real.sq_sqrt (Real.exp_pos x).le
  refine ⟨?_, ?_, ?_⟩
  · intro la lc rest hn h
    obtain ⟨kp, mp, hkp, _, rfl, hnd⟩ := gpParams_split _ _ _ hn
    cases hkp
    obtain ⟨ha, hK, _⟩ := model_parts _ _ _ _ _ _ h
    have g1 := get_arg _ _ ha hnd (logPrefix ++ ['a', 'r', 'n']) la (by simp)
    have g2 := get_arg _ _ ha hnd (logPrefix ++ ['c', 'r', 'n']) lc (by simp)
    have v : ∀ n x, value (logPrefix ++ n) x = Real.exp x := fun n x => by simp [value, logPrefix]
    rw [v, show strip (logPrefix ++ ['a', 'r', 'n']) = ['a', 'r', 'n'] by decide] at g1
    rw [v, show strip (logPrefix ++ ['c', 'r', 'n']) = ['c', 'r', 'n'] by decide] at g2
    simp only [getKernel, g1, g2, String.reduceEq, if_true, if_false, bind, Except.bind, pure, Except.pure, Except.ok.injEq] at hK
    rw [← hK]
    simp only [expKernel, hsq]
    congr 2
    field_simp
  · intro la lc lf rest hn h
    obtain ⟨kp, mp, hkp, _, rfl, hnd⟩ := gpParams_split _ _ _ hn
    cases hkp
    obtain ⟨ha, hK, _⟩ := model_parts _ _ _ _ _ _ h
    have g1 := get_arg _ _ ha hnd (logPrefix ++ ['a', 'q', 'p', 'o']) la (by simp)
    have g2 := get_arg _ _ ha hnd (logPrefix ++ ['c', 'q', 'p', 'o']) lc (by simp)
    have g3 := get_arg _ _ ha hnd (logPrefix ++ ['f', 'r', 'e', 'q']) lf (by simp)
    have v : ∀ n x, value (logPrefix ++ n) x = Real.exp x := fun n x => by simp [value, logPrefix]
    rw [v, show strip (logPrefix ++ ['a', 'q', 'p', 'o']) = ['a', 'q', 'p', 'o'] by decide] at g1
    rw [v, show strip (logPrefix ++ ['c', 'q', 'p', 'o']) = ['c', 'q', 'p', 'o'] by decide] at g2
    rw [v, show strip (logPrefix ++ ['f', 'r', 'e', 'q']) = ['f', 'r', 'e', 'q'] by decide] at g3
    simp only [getKernel, g1, g2, g3, String.reduceEq, if_true, if_false, bind, Except.bind, pure, Except.pure, Except.ok.injEq] at hK
    rw [← hK]
    simp only [celerite]
    ring
  · intro la lc la' lc' lf rest hn h
    obtain ⟨kp, mp, hkp, _, rfl, hnd⟩ := gpParams_split _ _ _ hn
    cases hkp
    obtain ⟨ha, hK, _⟩ := model_parts _ _ _ _ _ _ h
    have g1 := get_arg _ _ ha hnd (logPrefix ++ ['a', 'r', 'n']) la (by simp)
    have g2 := get_arg _ _ ha hnd (logPrefix ++ ['c', 'r', 'n']) lc (by simp)
    have g3 := get_arg _ _ ha hnd (logPrefix ++ ['a', 'q', 'p', 'o']) la' (by simp)
    have g4 := get_arg _ _ ha hnd (logPrefix ++ ['c', 'q', 'p', 'o']) lc' (by simp)
    have g5 := get_arg _ _ ha hnd (logPrefix ++ ['f', 'r', 'e', 'q']) lf (by simp)
    have v : ∀ n x, value (logPrefix ++ n) x = Real.exp x := fun n x => by simp [value, logPrefix]
    rw [v, show strip (logPrefix ++ ['a', 'r', 'n']) = ['a', 'r', 'n'] by decide] at g1
    rw [v, show strip (logPrefix ++ ['c', 'r', 'n']) = ['c', 'r', 'n'] by decide] at g2
    rw [v, show strip (logPrefix ++ ['a', 'q', 'p', 'o']) = ['a', 'q', 'p', 'o'] by decide] at g3
    rw [v, show strip (logPrefix ++ ['c', 'q', 'p', 'o']) = ['c', 'q', 'p', 'o'] by decide] at g4
    rw [v, show strip (logPrefix ++ ['f', 'r', 'e', 'q']) = ['f', 'r', 'e', 'q'] by decide] at g5
    simp only [getKernel, g1, g2, g3, g4, g5, String.reduceEq, if_true, if_false, bind, Except.bind, pure, Except.pure, Except.ok.injEq] at hK
    rw [← hK]
    simp only [expKernel, hsq, celerite]
    have : Real.exp (-(r / (1 / Real.exp lc))) = Real.exp (-(Real.exp lc * r)) := by congr 2; field_simp
    rw [this]
    ring

example : ∃ km, model [logPrefix ++ ['a', 'r', 'n'], logPrefix ++ ['c', 'r', 'n'], logPrefix ++ ['A']] "RN" "constant" [0, 0, 0] = .ok km := by
  obtain ⟨names, h, _, h2, _⟩ := (gp_names "RN" "constant").1 (by decide) (by decide)
  cases h
  exact h2 [0, 0, 0] (by decide)

/-- **C177 (means).** The numbers after those of the kernel are, in the order of the names, the parameters of the mean, with the exponential taken of those named as logarithms. -/
theorem gp_means (kt : String) (kp names : List Name) (ka : List ℝ) (k m : ℝ → ℝ) (hkp : kernelParams kt = .ok kp) (hl : ka.length = kp.length) :
    (∀ A t0 sig : ℝ, gpParams kt "gaussian" = .ok names → model names kt "gaussian" (ka ++ [A, t0, sig]) = .ok (k, m) → m = gaussian [(Real.exp A, t0, Real.exp sig)]) ∧
    (∀ A t0 sig : ℝ, gpParams kt "exponential" = .ok names → model names kt "exponential" (ka ++ [A, t0, sig]) = .ok (k, m) → m = exponential [(Real.exp A, t0, Real.exp sig)]) ∧
    (∀ A : ℝ, gpParams kt "constant" = .ok names → model names kt "constant" (ka ++ [A]) = .ok (k, m) → m = constant (Real.exp A)) ∧
    (∀ A t0 sig1 sig2 : ℝ, gpParams kt "skew_gaussian" = .ok names → model names kt "skew_gaussian" (ka ++ [A, t0, sig1, sig2]) = .ok (k, m) → m = skewGaussian [(Real.exp A, t0, Real.exp sig1, Real.exp sig2)]) ∧
    (∀ A t0 sig1 sig2 : ℝ, gpParams kt "skew_exponential" = .ok names → model names kt "skew_exponential" (ka ++ [A, t0, sig1, sig2]) = .ok (k, m) → m = skewExponential [(Real.exp A, t0, Real.exp sig1, Real.exp sig2)]) ∧
    (∀ A t0 delta phi : ℝ, gpParams kt "fred" = .ok names → model names kt "fred" (ka ++ [A, t0, delta, phi]) = .ok (k, m) → m = fred [(Real.exp A, t0, delta, phi)]) := by
  have v : ∀ n x, value (logPrefix ++ n) x = Real.exp x := fun n x => by simp [value, logPrefix]
  have v0 : ∀ (n : Name) (x : ℝ), n.take 4 ≠ logPrefix → value n x = x := fun n x h => by simp [value, h]
  refine ⟨?_, ?_, ?_, ?_, ?_, ?_⟩
  · intro A t0 sig hn h
    obtain ⟨kp', mp, hkp', hmp, rfl, hnd⟩ := gpParams_split _ _ _ hn
    rw [hkp] at hkp'
    cases hkp'
    cases hmp
    obtain ⟨ha, _, hM⟩ := model_parts _ _ _ _ _ _ h
    have g0 := get_arg _ _ ha hnd (logPrefix ++ ['A']) A (by rw [List.zip_append hl.symm]; simp)
    rw [v, show strip (logPrefix ++ ['A']) = ['A'] by decide] at g0
    have g1 := get_arg _ _ ha hnd (['t', '0']) t0 (by rw [List.zip_append hl.symm]; simp)
    rw [v0 _ _ (by decide), show strip (['t', '0']) = ['t', '0'] by decide] at g1
    have g2 := get_arg _ _ ha hnd (logPrefix ++ ['s', 'i', 'g']) sig (by rw [List.zip_append hl.symm]; simp)
    rw [v, show strip (logPrefix ++ ['s', 'i', 'g']) = ['s', 'i', 'g'] by decide] at g2
    simp only [getMean, g0, g1, g2, String.reduceEq, or_true, true_or, or_self, if_true, if_false, bind, Except.bind, pure, Except.pure, Except.ok.injEq] at hM
    exact hM.symm
  · intro A t0 sig hn h
    obtain ⟨kp', mp, hkp', hmp, rfl, hnd⟩ := gpParams_split _ _ _ hn
    rw [hkp] at hkp'
    cases hkp'
    cases hmp
    obtain ⟨ha, _, hM⟩ := model_parts _ _ _ _ _ _ h
    have g0 := get_arg _ _ ha hnd (logPrefix ++ ['A']) A (by rw [List.zip_append hl.symm]; simp)
    rw [v, show strip (logPrefix ++ ['A']) = ['A'] by decide] at g0
    have g1 := get_arg _ _ ha hnd (['t', '0']) t0 (by rw [List.zip_append hl.symm]; simp)
    rw [v0 _ _ (by decide), show strip (['t', '0']) = ['t', '0'] by decide] at g1
    have g2 := get_arg _ _ ha hnd (logPrefix ++ ['s', 'i', 'g']) sig (by rw [List.zip_append hl.symm]; simp)
    rw [v, show strip (logPrefix ++ ['s', 'i', 'g']) = ['s', 'i', 'g'] by decide] at g2
    simp only [getMean, g0, g1, g2, String.reduceEq, or_true, true_or, or_self, if_true, if_false, bind, Except.bind, pure, Except.pure, Except.ok.injEq] at hM
    exact hM.symm
  · intro A hn h
    obtain ⟨kp', mp, hkp', hmp, rfl, hnd⟩ := gpParams_split _ _ _ hn
    rw [hkp] at hkp'
    cases hkp'
    cases hmp
    obtain ⟨ha, _, hM⟩ := model_parts _ _ _ _ _ _ h
    have g0 := get_arg _ _ ha hnd (logPrefix ++ ['A']) A (by rw [List.zip_append hl.symm]; simp)
    rw [v, show strip (logPrefix ++ ['A']) = ['A'] by decide] at g0
    simp only [getMean, g0, String.reduceEq, or_true, true_or, or_self, if_true, if_false, bind, Except.bind, pure, Except.pure, Except.ok.injEq] at hM
    exact hM.symm
  · intro A t0 sig1 sig2 hn h
    obtain ⟨kp', mp, hkp', hmp, rfl, hnd⟩ := gpParams_split _ _ _ hn
    rw [hkp] at hkp'
    cases hkp'
    cases hmp
    obtain ⟨ha, _, hM⟩ := model_parts _ _ _ _ _ _ h
    have g0 := get_arg _ _ ha hnd (logPrefix ++ ['A']) A (by rw [List.zip_append hl.symm]; simp)
    rw [v, show strip (logPrefix ++ ['A']) = ['A'] by decide] at g0
    have g1 := get_arg _ _ ha hnd (['t', '0']) t0 (by rw [List.zip_append hl.symm]; simp)
    rw [v0 _ _ (by decide), show strip (['t', '0']) = ['t', '0'] by decide] at g1
    have g2 := get_arg _ _ ha hnd (logPrefix ++ ['s', 'i', 'g', '1']) sig1 (by rw [List.zip_append hl.symm]; simp)
    rw [v, show strip (logPrefix ++ ['s', 'i', 'g', '1']) = ['s', 'i', 'g', '1'] by decide] at g2
    have g3 := get_arg _ _ ha hnd (logPrefix ++ ['s', 'i', 'g', '2']) sig2 (by rw [List.zip_append hl.symm]; simp)
    rw [v, show strip (logPrefix ++ ['s', 'i', 'g', '2']) = ['s', 'i', 'g', '2'] by decide] at g3
    simp only [getMean, g0, g1, g2, g3, String.reduceEq, or_true, true_or, or_self, if_true, if_false, bind, Except.bind, pure, Except.pure, Except.ok.injEq] at hM
    exact hM.symm
  · intro A t0 sig1 sig2 hn h
    obtain ⟨kp', mp, hkp', hmp, rfl, hnd⟩ := gpParams_split _ _ _ hn
    rw [hkp] at hkp'
    cases hkp'
    cases hmp
    obtain ⟨ha, _, hM⟩ := model_parts _ _ _ _ _ _ h
    have g0 := get_arg _ _ ha hnd (logPrefix ++ ['A']) A (by rw [List.zip_append hl.symm]; simp)
    rw [v, show strip (logPrefix ++ ['A']) = ['A'] by decide] at g0
    have g1 := get_arg _ _ ha hnd (['t', '0']) t0 (by rw [List.zip_append hl.symm]; simp)
    rw [v0 _ _ (by decide), show strip (['t', '0']) = ['t', '0'] by decide] at g1
    have g2 := get_arg _ _ ha hnd (logPrefix ++ ['s', 'i', 'g', '1']) sig1 (by rw [List.zip_append hl.symm]; simp)
    rw [v, show strip (logPrefix ++ ['s', 'i', 'g', '1']) = ['s', 'i', 'g', '1'] by decide] at g2
    have g3 := get_arg _ _ ha hnd (logPrefix ++ ['s', 'i', 'g', '2']) sig2 (by rw [List.zip_append hl.symm]; simp)
    rw [v, show strip (logPrefix ++ ['s', 'i', 'g', '2']) = ['s', 'i', 'g', '2'] by decide] at g3
    simp only [getMean, g0, g1, g2, g3, String.reduceEq, or_true, true_or, or_self, if_true, if_false, bind, Except.bind, pure, Except.pure, Except.ok.injEq] at hM
    exact hM.symm
  · intro A t0 delta phi hn h
    obtain ⟨kp', mp, hkp', hmp, rfl, hnd⟩ := gpParams_split _ _ _ hn
    rw [hkp] at hkp'
    cases hkp'
    cases hmp
    obtain ⟨ha, _, hM⟩ := model_parts _ _ _ _ _ _ h
    have g0 := get_arg _ _ ha hnd (logPrefix ++ ['A']) A (by rw [List.zip_append hl.symm]; simp)
    rw [v, show strip (logPrefix ++ ['A']) = ['A'] by decide] at g0
    have g1 := get_arg _ _ ha hnd (['t', '0']) t0 (by rw [List.zip_append hl.symm]; simp)
    rw [v0 _ _ (by decide), show strip (['t', '0']) = ['t', '0'] by decide] at g1
    have g2 := get_arg _ _ ha hnd (['d', 'e', 'l', 't', 'a']) delta (by rw [List.zip_append hl.symm]; simp)
    rw [v0 _ _ (by decide), show strip (['d', 'e', 'l', 't', 'a']) = ['d', 'e', 'l', 't', 'a'] by decide] at g2
    have g3 := get_arg _ _ ha hnd (['p', 'h', 'i']) phi (by rw [List.zip_append hl.symm]; simp)
    rw [v0 _ _ (by decide), show strip (['p', 'h', 'i']) = ['p', 'h', 'i'] by decide] at g3
    simp only [getMean, g0, g1, g2, g3, String.reduceEq, or_true, true_or, or_self, if_true, if_false, bind, Except.bind, pure, Except.pure, Except.ok.injEq] at hM
    exact hM.symm

example : ∃ kp, kernelParams "RN" = .ok kp ∧ ([0, 0] : List ℝ).length = kp.length := ⟨_, rfl, rfl⟩

/-- **C177 (covariance).** Whatever the numbers given for the parameters and whatever the times, the covariance matrix is positive: no linear combination of the counts has a negative variance, so that the likelihood is that of a Gaussian process. -/
theorem gp_covariance (kt mt : String) (names : List Name) (args : List ℝ) (k m : ℝ → ℝ) (hn : gpParams kt mt = .ok names) (h : model names kt mt args = .ok (k, m))
    (n : Nat) (t b : Fin n → ℝ) : 0 ≤ ∑ i, ∑ j, b i * b j * k |t i - t j| := by
  have hk : kt ∈ kernelTypes := by
    by_contra hc
    rw [(gp_names kt mt).2 (Or.inl hc)] at hn; simp at hn
  obtain ⟨kp, mp, hkp, _, hnames, _⟩ := gpParams_split _ _ _ hn
  obtain ⟨ha, _, _⟩ := model_parts _ _ _ _ _ _ h
  have rn : ∀ la lc : ℝ, 0 ≤ ∑ i, ∑ j, b i * b j * (Real.exp la * Real.exp (-(Real.exp lc * |t i - t j|))) := by
    intro la lc
    have h0 := exp_psd t b (Real.exp lc) (Real.exp_pos lc).le
    have e : ∀ i j, b i * b j * (Real.exp la * Real.exp (-(Real.exp lc * |t i - t j|))) = Real.exp la * (b i * b j * Real.exp (-(Real.exp lc * |t i - t j|))) := fun i j => by ring
    simp only [e, ← Finset.mul_sum]
    exact mul_nonneg (Real.exp_pos la).le h0
  have qpo : ∀ la lc lf : ℝ, 0 ≤ ∑ i, ∑ j, b i * b j * (Real.exp la * (Real.exp (-(Real.exp lc * |t i - t j|)) * Real.cos (2 * Real.pi * Real.exp lf * |t i - t j|))) := by
    intro la lc lf
    have h0 := cos_psd t b (Real.exp lc) (2 * Real.pi * Real.exp lf) (Real.exp_pos lc).le
    have e : ∀ i j, b i * b j * (Real.exp la * (Real.exp (-(Real.exp lc * |t i - t j|)) * Real.cos (2 * Real.pi * Real.exp lf * |t i - t j|))) =
        Real.exp la * (b i * b j * (Real.exp (-(Real.exp lc * |t i - t j|)) * Real.cos (2 * Real.pi * Real.exp lf * |t i - t j|))) := fun i j => by ring
    simp only [e, ← Finset.mul_sum]
    exact mul_nonneg (Real.exp_pos la).le h0
  simp only [kernelTypes, List.mem_cons, List.not_mem_nil, or_false] at hk
  rcases hk with rfl | rfl | rfl
  · cases hkp
    rcases args with _ | ⟨a, _ | ⟨b', rest⟩⟩
    · simp [hnames] at ha; try omega
    · simp [hnames] at ha; try omega
    · have hf : ∀ r, k r = _ := fun r => (gp_kernels mt names k m r).1 a b' rest hn h
      simp only [hf]
      exact rn a b'
  · cases hkp
    rcases args with _ | ⟨a, _ | ⟨b', _ | ⟨c, rest⟩⟩⟩
    · simp [hnames] at ha; try omega
    · simp [hnames] at ha; try omega
    · simp [hnames] at ha; try omega
    · have hf : ∀ r, k r = _ := fun r => (gp_kernels mt names k m r).2.1 a b' c rest hn h
      simp only [hf]
      exact qpo a b' c
  · cases hkp
    rcases args with _ | ⟨a, _ | ⟨b', _ | ⟨c, _ | ⟨d, _ | ⟨e, rest⟩⟩⟩⟩⟩
    · simp [hnames] at ha; try omega
    · simp [hnames] at ha; try omega
    · simp [hnames] at ha; try omega
    · simp [hnames] at ha; try omega
    · simp [hnames] at ha; try omega
    · have hf : ∀ r, k r = _ := fun r => (gp_kernels mt names k m r).2.2 a b' c d e rest hn h
      simp only [hf, mul_add, Finset.sum_add_distrib]
      exact add_nonneg (rn a b') (qpo c d e)

/-- **C177 (flares).** Gaussian and exponential flares, also the skew ones, have the height `A` at `t0` and are lower at every other time; they are mirror images around `t0` when the two widths are exchanged; several flares add up, and without width asymmetry the skew flares are the plain ones. -/
theorem gp_flares (A t0 s1 s2 t : ℝ) (hA : 0 < A) (h1 : s1 ≠ 0) (h2 : s2 ≠ 0) :
    (gaussian [(A, t0, s1)] t0 = A ∧ exponential [(A, t0, s1)] t0 = A ∧ skewGaussian [(A, t0, s1, s2)] t0 = A ∧ skewExponential [(A, t0, s1, s2)] t0 = A) ∧
    (t ≠ t0 → gaussian [(A, t0, s1)] t < A ∧ exponential [(A, t0, s1)] t < A ∧ skewGaussian [(A, t0, s1, s2)] t < A ∧ skewExponential [(A, t0, s1, s2)] t < A) ∧
    skewGaussian [(A, t0, s1, s2)] (t0 - t) = skewGaussian [(A, t0, s2, s1)] (t0 + t) ∧
    skewExponential [(A, t0, s1, s2)] (t0 - t) = skewExponential [(A, t0, s2, s1)] (t0 + t) ∧
    skewGaussian [(A, t0, s1, s1)] t = gaussian [(A, t0, s1)] t ∧ skewExponential [(A, t0, s1, s1)] t = exponential [(A, t0, s1)] t ∧
    (∀ cs cs', gaussian (cs ++ cs') t = gaussian cs t + gaussian cs' t ∧ exponential (cs ++ cs') t = exponential cs t + exponential cs' t) ∧
    (∀ cs cs', skewGaussian (cs ++ cs') t = skewGaussian cs t + skewGaussian cs' t ∧ skewExponential (cs ++ cs') t = skewExponential cs t + skewExponential cs' t ∧ fred (cs ++ cs') t = fred cs t + fred cs' t) ∧
    constant A t = A := by
  have p1 : 0 < 2 * s1 ^ 2 := by positivity
  have p2 : 0 < 2 * s2 ^ 2 := by positivity
  have hlt : ∀ x : ℝ, x < 0 → A * Real.exp x < A := by
    intro x hx
    have := (Real.exp_lt_one_iff).2 hx
    nlinarith
  refine ⟨⟨?_, ?_, ?_, ?_⟩, fun hne => ⟨?_, ?_, ?_, ?_⟩, ?_, ?_, ?_, ?_, ?_, ?_, rfl⟩
  · simp [gaussian]
  · simp [exponential]
  · simp [skewGaussian]
  · simp [skewExponential]
  · have hs : 0 < (t - t0) ^ 2 := by have := sub_ne_zero.2 hne; positivity
    simp only [gaussian, List.map_cons, List.map_nil, List.sum_cons, List.sum_nil, add_zero]
    exact hlt _ (div_neg_of_neg_of_pos (by linarith) p1)
  · have hs : 0 < |t - t0| := abs_pos.2 (sub_ne_zero.2 hne)
    simp only [exponential, List.map_cons, List.map_nil, List.sum_cons, List.sum_nil, add_zero]
    exact hlt _ (div_neg_of_neg_of_pos (by linarith) p1)
  · have hs : 0 < (t - t0) ^ 2 := by have := sub_ne_zero.2 hne; positivity
    simp only [skewGaussian, List.map_cons, List.map_nil, List.sum_cons, List.sum_nil, add_zero]
    split_ifs
    · exact hlt _ (div_neg_of_neg_of_pos (by linarith) p2)
    · exact hlt _ (div_neg_of_neg_of_pos (by linarith) p1)
  · simp only [skewExponential, List.map_cons, List.map_nil, List.sum_cons, List.sum_nil, add_zero]
    split_ifs with hc
    · exact hlt _ (div_neg_of_neg_of_pos (by linarith) p2)
    · exact hlt _ (div_neg_of_neg_of_pos (by have := lt_of_le_of_ne (not_lt.1 hc) hne; linarith) p1)
  · simp only [skewGaussian, List.map_cons, List.map_nil, List.sum_cons, List.sum_nil, add_zero]
    rcases lt_trichotomy t 0 with h | rfl | h
    · rw [if_pos (by linarith), if_neg (by linarith)]; congr 3; ring
    · simp
    · rw [if_neg (by linarith), if_pos (by linarith)]; congr 3; ring
  · simp only [skewExponential, List.map_cons, List.map_nil, List.sum_cons, List.sum_nil, add_zero]
    rcases lt_trichotomy t 0 with h | rfl | h
    · rw [if_pos (by linarith), if_neg (by linarith)]; congr 3; ring
    · simp
    · rw [if_neg (by linarith), if_pos (by linarith)]; congr 3; ring
  · simp [skewGaussian, gaussian]
  · simp only [skewExponential, exponential, List.map_cons, List.map_nil, List.sum_cons, List.sum_nil, add_zero]
    split_ifs with hc
    · rw [abs_of_pos (by linarith)]
    · rw [abs_of_nonpos (by linarith)]; congr 3; ring
  · intro cs cs'; simp [gaussian, exponential]
  · intro cs cs'; simp [skewGaussian, skewExponential, fred]

example : (0 : ℝ) < 3 ∧ (1 : ℝ) ≠ 0 ∧ (2 : ℝ) ≠ 0 := by norm_num

/-- **C177 (FRED, partial).** After the time `-delta` a FRED flare has the height `A` at `t0 - delta` and is lower at every other time. For the place of the maximum and earlier times see `gp_fred_place` and `gp_fred_before`. -/
theorem gp_fred_partial (A t0 delta phi t : ℝ) (hA : 0 < A) (h0 : 0 < t0) (hp : 0 < phi) (ht : 0 < t + delta) :
    fred [(A, t0, delta, phi)] (t0 - delta) = A ∧ (t ≠ t0 - delta → fred [(A, t0, delta, phi)] t < A) := by
  constructor
  · simp only [fred, List.map_cons, List.map_nil, List.sum_cons, List.sum_nil, add_zero]
    rw [sub_add_cancel, div_self h0.ne', mul_assoc, ← Real.exp_add]
    have : -phi * (1 + 1) + 2 * phi = 0 := by ring
    rw [this, Real.exp_zero, mul_one]
  · intro hne
    simp only [fred, List.map_cons, List.map_nil, List.sum_cons, List.sum_nil, add_zero]
    rw [mul_assoc, ← Real.exp_add]
    have hx : t + delta ≠ t0 := fun h => hne (by linarith)
    have h2 : 2 < (t + delta) / t0 + t0 / (t + delta) := by
      rw [div_add_div _ _ h0.ne' ht.ne', lt_div_iff₀ (by positivity)]
      have : 0 < (t + delta - t0) ^ 2 := by have := sub_ne_zero.2 hx; positivity
      nlinarith
    have : Real.exp (-phi * ((t + delta) / t0 + t0 / (t + delta)) + 2 * phi) < 1 := (Real.exp_lt_one_iff).2 (by nlinarith)
    nlinarith

example : (0 : ℝ) < 1 ∧ (0 : ℝ) < 2 + 3 := by norm_num

/-- **C177 (negation).** `t0` is not the location of the maximum of a FRED flare: for positive `delta` below `t0` the flare is lower at `t0` than at `t0 - delta`. -/
theorem gp_fred_place (A t0 delta phi : ℝ) (hA : 0 < A) (hd : 0 < delta) (h0 : 0 < t0) (hp : 0 < phi) :
    fred [(A, t0, delta, phi)] t0 < fred [(A, t0, delta, phi)] (t0 - delta) := by
  obtain ⟨h1, h2⟩ := gp_fred_partial A t0 delta phi t0 hA h0 hp (by linarith)
  rw [h1]
  exact h2 (by linarith)

/-- **C177 (negation).** Before the time `-delta` a FRED flare is higher than its amplitude, by a factor of at least `exp(4 phi)`. -/
theorem gp_fred_before (A t0 delta phi t : ℝ) (hA : 0 < A) (h0 : 0 < t0) (hp : 0 < phi) (ht : t + delta < 0) :
    A * Real.exp (4 * phi) ≤ fred [(A, t0, delta, phi)] t := by
  simp only [fred, List.map_cons, List.map_nil, List.sum_cons, List.sum_nil, add_zero]
  rw [mul_assoc, ← Real.exp_add]
  apply mul_le_mul_of_nonneg_left _ hA.le
  apply Real.exp_le_exp.2
  have h2 : (t + delta) / t0 + t0 / (t + delta) ≤ -2 := by
    rw [div_add_div _ _ h0.ne' ht.ne, div_le_iff_of_neg (by nlinarith)]
    nlinarith [sq_nonneg (t + delta + t0)]
  nlinarith

example : (-1 : ℝ) + 0 < 0 := by norm_num

/-- **C177 (best sample).** The parameters of largest posterior density (or likelihood) are those of a sample for which no other sample has a larger one. -/
theorem gp_best (score samples : List ℝ) (hl : score.length = samples.length) (hne : score ≠ []) :
    ∃ i, ∃ h : i < samples.length, maxParameter score samples = some samples[i] ∧ ∀ y ∈ score, y ≤ score.getD i 0 := by
  have hex : ∃ x ∈ score, (score.all fun y => decide (y ≤ x)) = true := by
    clear hl
    obtain ⟨x, hx, hmax⟩ : ∃ x ∈ score, ∀ y ∈ score, y ≤ x := by
      induction score with
      | nil => exact absurd rfl hne
      | cons a l ih =>
        by_cases hl : l = []
        · subst hl
          exact ⟨a, by simp, by simp⟩
        · obtain ⟨x, hx, hm⟩ := ih hl
          rcases le_total a x with h | h
          · exact ⟨x, List.mem_cons_of_mem _ hx, fun y hy => by rcases List.mem_cons.1 hy with rfl | hy; exacts [h, hm y hy]⟩
          · exact ⟨a, by simp, fun y hy => by rcases List.mem_cons.1 hy with rfl | hy; exacts [le_refl _, (hm y hy).trans h]⟩
    exact ⟨x, hx, by simpa using hmax⟩
  have hlt : argmax score < score.length := List.findIdx_lt_length.2 hex
  refine ⟨argmax score, hl ▸ hlt, ?_, ?_⟩
  · simp only [maxParameter]
    exact List.getElem?_eq_getElem (hl ▸ hlt)
  · have := List.findIdx_getElem (p := fun x => score.all fun y => decide (y ≤ x)) (xs := score) (w := hlt)
    have hm : ∀ y ∈ score, y ≤ score[argmax score] := by unfold argmax; simpa using this
    intro y hy
    have e : score.getD (argmax score) 0 = score[argmax score] := by simp [List.getD_eq_getElem?_getD, hlt]
    rw [e]
    exact hm y hy

example : ([1, 3, 2] : List ℝ).length = ([5, 6, 7] : List ℝ).length := rfl

end Stingray.GpModel

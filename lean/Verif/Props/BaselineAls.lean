import Verif.Model.BaselineAls
import Mathlib.LinearAlgebra.Matrix.ToLinearEquiv
import Mathlib.Data.Real.Archimedean
import Mathlib.Tactic.Linarith
import Mathlib.Tactic.FieldSimp
import Mathlib.Algebra.Order.BigOperators.Ring.Finset

/-!
C183: baselines of light curves.
-/

set_option linter.unusedSectionVars false

namespace Stingray.BaselineAls

open Stingray Matrix

variable {L : Nat}

/-- Specification: the penalised sum of squares. -/
def cost (lam : ℝ) (w y z : Fin L → ℝ) : ℝ :=
  ∑ i, w i * (y i - z i) ^ 2 + lam * ∑ j : Fin (L - 2), (z ⟨j.val, by omega⟩ - 2 * z ⟨j.val + 1, by omega⟩ + z ⟨j.val + 2, by omega⟩) ^ 2

/-- Specification: a straight line. -/
def line (a b : ℝ) : Fin L → ℝ := fun i => a + b * (i.val : ℝ)

theorem diffT (z : Fin L → ℝ) (j : Fin (L - 2)) :
    ((secondDiff (L := L))ᵀ *ᵥ z) j = z ⟨j.val, by omega⟩ - 2 * z ⟨j.val + 1, by omega⟩ + z ⟨j.val + 2, by omega⟩ := by
  have h : ∀ i : Fin L, (secondDiff (L := L))ᵀ j i * z i = ((if i = ⟨j.val, by omega⟩ then z i else 0) + (if i = ⟨j.val + 1, by omega⟩ then -2 * z i else 0)) + (if i = ⟨j.val + 2, by omega⟩ then z i else 0) := by
    intro i
    simp only [Matrix.transpose_apply, secondDiff, Fin.ext_iff]
    by_cases h1 : i.val = j.val
    · have h2 : ¬ i.val = j.val + 1 := by omega
      have h3 : ¬ i.val = j.val + 2 := by omega
      simp only [h1] at h2 h3 ⊢
      simp
    · by_cases h2 : i.val = j.val + 1
      · simp [h2]
      · by_cases h3 : i.val = j.val + 2
        · simp [h3]
        · simp [h1, h2, h3]
  simp only [Matrix.mulVec, dotProduct, h, Finset.sum_add_distrib, Finset.sum_ite_eq', Finset.mem_univ, if_true]
  ring

theorem system_mulVec (lam : ℝ) (w z : Fin L → ℝ) : system lam w *ᵥ z = w * z + lam • (secondDiff *ᵥ ((secondDiff (L := L))ᵀ *ᵥ z)) := by
  rw [system, Matrix.add_mulVec, Matrix.smul_mulVec, ← Matrix.mulVec_mulVec]
  congr 1
  funext i
  rw [Matrix.mulVec_diagonal]
  rfl

theorem dot_system (lam : ℝ) (w z d : Fin L → ℝ) :
    d ⬝ᵥ (system lam w *ᵥ z) = ∑ i, w i * z i * d i + lam * ∑ j, ((secondDiff (L := L))ᵀ *ᵥ z) j * ((secondDiff (L := L))ᵀ *ᵥ d) j := by
  rw [system_mulVec, dotProduct_add, dotProduct_smul, Matrix.dotProduct_mulVec, ← Matrix.mulVec_transpose, smul_eq_mul]
  congr 1
  · apply Finset.sum_congr rfl
    intro i _
    simp only [Pi.mul_apply]
    ring
  · congr 1
    apply Finset.sum_congr rfl
    intro i _
    ring

theorem step_some (lam : ℝ) (y w z : Fin L → ℝ) : step lam y w = some z ↔ (system lam w).det ≠ 0 ∧ system lam w *ᵥ z = w * y := by
  classical
  unfold step
  by_cases hd : (system lam w).det = 0
  · simp [hd]
  · have hu : IsUnit (system lam w).det := isUnit_iff_ne_zero.2 hd
    rw [if_neg hd]
    simp only [Option.some.injEq, ne_eq, hd, not_false_eq_true, true_and]
    constructor
    · rintro rfl
      rw [Matrix.mulVec_mulVec, Matrix.mul_nonsing_inv _ hu, Matrix.one_mulVec]
    · intro h
      rw [← h, Matrix.mulVec_mulVec, Matrix.nonsing_inv_mul _ hu, Matrix.one_mulVec]

theorem step_minimal (lam : ℝ) (hl : 0 ≤ lam) (y w z z' : Fin L → ℝ) (hw : ∀ i, 0 ≤ w i) (h : step lam y w = some z) : cost lam w y z ≤ cost lam w y z' := by
  have he := ((step_some lam y w z).1 h).2
  set d : Fin L → ℝ := z' - z with hd
  have hz' : ∀ i, z' i = z i + d i := fun i => by simp [hd]
  have h0 := dot_system lam w z d
  rw [he] at h0
  have hwy : d ⬝ᵥ (w * y) = ∑ i, w i * y i * d i := by
    apply Finset.sum_congr rfl
    intro i _
    simp only [Pi.mul_apply]
    ring
  rw [hwy] at h0
  simp only [cost, ← diffT]
  have hT : ∀ j, ((secondDiff (L := L))ᵀ *ᵥ z') j = ((secondDiff (L := L))ᵀ *ᵥ z) j + ((secondDiff (L := L))ᵀ *ᵥ d) j := by
    intro j
    simp only [diffT, hz']
    ring
  have e1 : ∑ i, w i * (y i - z' i) ^ 2 = ∑ i, w i * (y i - z i) ^ 2 - 2 * (∑ i, w i * y i * d i - ∑ i, w i * z i * d i) + ∑ i, w i * d i ^ 2 := by
    rw [← Finset.sum_sub_distrib, Finset.mul_sum, ← Finset.sum_sub_distrib, ← Finset.sum_add_distrib]
    apply Finset.sum_congr rfl
    intro i _
    rw [hz']
    ring
  have e2 : ∑ j, ((secondDiff (L := L))ᵀ *ᵥ z') j ^ 2 = ∑ j, ((secondDiff (L := L))ᵀ *ᵥ z) j ^ 2 + 2 * ∑ j, ((secondDiff (L := L))ᵀ *ᵥ z) j * ((secondDiff (L := L))ᵀ *ᵥ d) j + ∑ j, ((secondDiff (L := L))ᵀ *ᵥ d) j ^ 2 := by
    rw [Finset.mul_sum, ← Finset.sum_add_distrib, ← Finset.sum_add_distrib]
    apply Finset.sum_congr rfl
    intro j _
    rw [hT]
    ring
  rw [e1, e2]
  have p1 : 0 ≤ ∑ i, w i * d i ^ 2 := Finset.sum_nonneg fun i _ => mul_nonneg (hw i) (sq_nonneg _)
  have p2 : 0 ≤ lam * ∑ j, ((secondDiff (L := L))ᵀ *ᵥ d) j ^ 2 := mul_nonneg hl (Finset.sum_nonneg fun j _ => sq_nonneg _)
  nlinarith

theorem loop_succ (lam p : ℝ) (y : Fin L → ℝ) (n : Nat) (hn : n ≠ 0) (w : Fin L → ℝ) (z : Option (Fin L → ℝ)) :
    loop lam p y (n + 1) w z = step lam y (weights p y (loop lam p y n w z)) := by
  induction n generalizing w z with
  | zero => exact absurd rfl hn
  | succ n ih =>
    by_cases h0 : n = 0
    · subst h0; rfl
    · show loop lam p y (n + 1) (weights p y (step lam y w)) (step lam y w) = _
      rw [ih h0]
      rfl

theorem diffT_line (a b : ℝ) : (secondDiff (L := L))ᵀ *ᵥ line a b = 0 := by
  funext j
  rw [diffT]
  simp only [line, Pi.zero_apply]
  push_cast
  ring

theorem step_zero_weights (hL : 0 < L) (lam : ℝ) (y : Fin L → ℝ) : step lam y (fun _ => 0) = none := by
  classical
  have hdet : (system lam (fun _ : Fin L => (0 : ℝ))).det = 0 := by
    rw [← Matrix.exists_mulVec_eq_zero_iff]
    refine ⟨line 1 0, ?_, ?_⟩
    · intro h
      have := congrFun h ⟨0, hL⟩
      simp [line] at this
    · rw [system_mulVec, diffT_line]
      funext i
      simp
  rw [step, if_pos hdet]

theorem weights_none (p : ℝ) (y : Fin L → ℝ) : weights p y none = fun _ => 0 := by
  funext i
  rfl

/-- **C183.** The baseline after one round is the curve that minimises the sum of squares, penalised with `lam` times the sum of the squared second differences, with equal weights; after more rounds it minimises it with the weights `p` for the bins above the last curve, `1 - p` for those below and 0 for those on it. -/
theorem als_minimises (hL : 0 < L) (lam p : ℝ) (hl : 0 ≤ lam) (hp : 0 ≤ p ∧ p ≤ 1) (y z : Fin L → ℝ) :
    (als lam p 1 y = .ok (some z) → ∀ z', cost lam (fun _ => 1) y z ≤ cost lam (fun _ => 1) y z') ∧
    ∀ n, als lam p (n + 2) y = .ok (some z) → ∃ last w, als lam p (n + 1) y = .ok (some last) ∧
      (∀ i, (last i < y i → w i = p) ∧ (y i < last i → w i = 1 - p) ∧ (y i = last i → w i = 0)) ∧ ∀ z', cost lam w y z ≤ cost lam w y z' := by
  classical
  constructor
  · intro h z'
    simp only [als, one_ne_zero, if_false, Except.ok.injEq] at h
    exact step_minimal lam hl y _ z z' (fun _ => zero_le_one) h
  · intro n h
    simp only [als, Nat.add_eq_zero_iff, OfNat.ofNat_ne_zero, one_ne_zero, and_false, if_false, Except.ok.injEq] at h ⊢
    rw [loop_succ lam p y (n + 1) (by omega)] at h
    rcases hz : loop lam p y (n + 1) (fun _ => 1) none with _ | last
    · rw [hz, weights_none, step_zero_weights hL] at h
      simp at h
    · rw [hz] at h
      refine ⟨last, weights p y (some last), rfl, ?_, ?_⟩
      · intro i
        refine ⟨?_, ?_, ?_⟩
        · intro hi
          simp [weights, hi, not_lt.2 hi.le]
        · intro hi
          simp [weights, hi, not_lt.2 hi.le]
        · intro hi
          simp [weights, hi]
      · intro z'
        refine step_minimal lam hl y _ z z' ?_ h
        intro i
        simp only [weights]
        split_ifs <;> simp <;> linarith

theorem step_first (lam : ℝ) (hl : 0 ≤ lam) (y : Fin L → ℝ) : ∃ z, step lam y (fun _ => 1) = some z := by
  classical
  have hdet : (system lam (fun _ : Fin L => (1 : ℝ))).det ≠ 0 := by
    intro h
    obtain ⟨v, hv, h0⟩ := Matrix.exists_mulVec_eq_zero_iff.2 h
    apply hv
    have hd := dot_system lam (fun _ => 1) v v
    rw [h0, dotProduct_zero] at hd
    have p2 : 0 ≤ lam * ∑ j, ((secondDiff (L := L))ᵀ *ᵥ v) j * ((secondDiff (L := L))ᵀ *ᵥ v) j := mul_nonneg hl (Finset.sum_nonneg fun j _ => mul_self_nonneg _)
    have hs : ∑ i, v i * v i = 0 := by
      have p1 : 0 ≤ ∑ i, v i * v i := Finset.sum_nonneg fun i _ => mul_self_nonneg _
      have : ∑ i, (1 : ℝ) * v i * v i = ∑ i, v i * v i := Finset.sum_congr rfl fun i _ => by ring
      rw [this] at hd
      linarith
    funext i
    have := (Finset.sum_eq_zero_iff_of_nonneg fun i _ => mul_self_nonneg (v i)).1 hs i (Finset.mem_univ i)
    simpa using this
  exact ⟨_, by rw [step, if_neg hdet]⟩

/-- **C183 (one round).** Without a round there is a `NameError`; one round always gives a curve. -/
theorem als_first (lam p : ℝ) (hl : 0 ≤ lam) (y : Fin L → ℝ) : als lam p 0 y = .error .nameError ∧ ∃ z, als lam p 1 y = .ok (some z) := by
  refine ⟨rfl, ?_⟩
  obtain ⟨z, hz⟩ := step_first lam hl y
  refine ⟨z, ?_⟩
  simp only [als, one_ne_zero, if_false, loop, hz]

theorem step_line (lam : ℝ) (y w : Fin L → ℝ) (a b : ℝ) : step lam (y + line a b) w = (step lam y w).map (· + line a b) := by
  classical
  by_cases hd : (system lam w).det = 0
  · simp [step, hd]
  · have h1 : step lam y w = some ((system lam w)⁻¹ *ᵥ (w * y)) := by rw [step, if_neg hd]
    have he := ((step_some lam y w _).1 h1).2
    rw [h1, Option.map_some, step_some]
    refine ⟨hd, ?_⟩
    rw [Matrix.mulVec_add, he, system_mulVec, diffT_line, Matrix.mulVec_zero, smul_zero, add_zero, mul_add]

theorem loop_line (lam p : ℝ) (y : Fin L → ℝ) (a b : ℝ) (n : Nat) (w : Fin L → ℝ) (z : Option (Fin L → ℝ)) :
    loop lam p (y + line a b) n w (z.map (· + line a b)) = (loop lam p y n w z).map (· + line a b) := by
  induction n generalizing w z with
  | zero => rfl
  | succ n ih =>
    simp only [loop]
    rw [step_line]
    have hw : weights p (y + line a b) ((step lam y w).map (· + line a b)) = weights p y (step lam y w) := by
      funext i
      cases step lam y w with
      | none => rfl
      | some z => simp [weights]
    rw [hw, ih]

/-- **C183 (trends).** Adding a straight line to the light curve adds it to the baseline and leaves the subtracted light curve as it is. -/
theorem baseline_line (mad : (Fin L → ℝ) → ℝ) (lam p : Option ℝ) (niter : Nat) (correction : Bool) (y : Fin L → ℝ) (a b : ℝ) :
    baselineAls mad lam p niter correction (y + line a b) = (baselineAls mad lam p niter correction y).map fun r => r.map fun s => (s.1, s.2 + line a b) := by
  have h : als (lam.getD 100000000000) (p.getD (1 / 1000)) niter (y + line a b) = (als (lam.getD 100000000000) (p.getD (1 / 1000)) niter y).map fun r => r.map (· + line a b) := by
    unfold als
    split_ifs
    · rfl
    · have := loop_line (lam.getD 100000000000) (p.getD (1 / 1000)) y a b niter (fun _ => 1) none
      simp only [Option.map_none] at this
      rw [this]
      rfl
  unfold baselineAls
  rw [h]
  rcases als (lam.getD 100000000000) (p.getD (1 / 1000)) niter y with e | _ | z
  · rfl
  · rfl
  · simp only [Except.map, Option.map_some, add_sub_add_right_eq_sub]
    congr 2
    ext i
    · simp
    · simp only [Pi.add_apply]
      ring

/-- **C183 (sum).** The subtracted light curve and the baseline add up to the light curve, with or without offset correction; with it, the mean of the subtracted light curve over the bins that are within ten standard deviations of the uncorrected baseline (all bins if there are fewer than ten of them) is zero. -/
theorem baseline_sum (hL : 0 < L) (mad : (Fin L → ℝ) → ℝ) (lam p : Option ℝ) (niter : Nat) (correction : Bool) (y sub base : Fin L → ℝ)
    (h : baselineAls mad lam p niter correction y = .ok (some (sub, base))) :
    (∀ i, sub i + base i = y i) ∧
    ∃ ysub base0, baselineAls mad lam p niter false y = .ok (some (ysub, base0)) ∧ (∃ o, ∀ i, sub i = ysub i - o) ∧ (correction = false → sub = ysub) ∧
      (correction = true → ∀ good : Finset (Fin L), (∀ i, i ∈ good ↔ |ysub i| < 10 * mad ysub) →
        (10 ≤ good.card → ∑ i ∈ good, sub i = 0) ∧ (good.card < 10 → ∑ i, sub i = 0)) := by
  classical
  unfold baselineAls at h ⊢
  rcases hz : als (lam.getD 100000000000) (p.getD (1 / 1000)) niter y with e | _ | z
  · rw [hz] at h; simp at h
  · rw [hz] at h; simp at h
  rw [hz] at h
  simp only [Except.ok.injEq, Option.some.injEq, Prod.mk.injEq] at h
  obtain ⟨h1, h2⟩ := h
  refine ⟨fun i => by rw [← h1, ← h2]; ring, y - z, z, ?_, ⟨offset mad correction (y - z), fun i => by rw [← h1]; rfl⟩, ?_, ?_⟩
  · simp only [offset, Bool.false_eq_true, if_false, sub_zero, add_zero]
    rfl
  · intro hc
    rw [← h1, hc]
    funext i
    simp [offset]
  · intro hc good hg
    have key : ∀ s : Finset (Fin L), s.Nonempty → offset mad correction (y - z) = (∑ i ∈ s, (y - z) i) / s.card → ∑ i ∈ s, sub i = 0 := by
      intro s hs ho
      have hcard : (s.card : ℝ) ≠ 0 := by exact_mod_cast (Finset.card_pos.2 hs).ne'
      have : ∀ i ∈ s, sub i = (y - z) i - offset mad correction (y - z) := fun i _ => by rw [← h1]; rfl
      rw [Finset.sum_congr rfl this, Finset.sum_sub_distrib, Finset.sum_const, ho, nsmul_eq_mul]
      field_simp
      ring
    have hgood : (Finset.univ.filter fun i => |(y - z) i| < 10 * mad (y - z)) = good := by
      ext i
      simp [hg i]
    constructor
    · intro h10
      refine key good (Finset.card_pos.1 (by omega)) ?_
      have hb : goodBins (mad (y - z)) (y - z) = good := by
        rw [goodBins, hgood, if_neg (by omega)]
      rw [offset, hc, if_pos rfl, hb]
    · intro h10
      refine key Finset.univ ⟨⟨0, hL⟩, Finset.mem_univ _⟩ ?_
      have hb : goodBins (mad (y - z)) (y - z) = Finset.univ := by
        rw [goodBins, hgood, if_pos h10]
      rw [offset, hc, if_pos rfl, hb]

/-- **C183 (straight lines).** A straight line is its own baseline after one round, and after more rounds there is none: all weights vanish. -/
theorem als_line (hL : 0 < L) (lam p : ℝ) (hl : 0 ≤ lam) (a b : ℝ) :
    als lam p 1 (line a b : Fin L → ℝ) = .ok (some (line a b)) ∧ ∀ n, als lam p (n + 2) (line a b : Fin L → ℝ) = .ok none := by
  obtain ⟨z, hz⟩ := step_first lam hl (line a b : Fin L → ℝ)
  have hst : step lam (line a b : Fin L → ℝ) (fun _ => 1) = some (line a b) := by
    rw [step_some]
    refine ⟨((step_some _ _ _ _).1 hz).1, ?_⟩
    rw [system_mulVec, diffT_line, Matrix.mulVec_zero, smul_zero, add_zero]
  have hw : weights p (line a b : Fin L → ℝ) (some (line a b)) = fun _ => 0 := by
    funext i
    simp [weights]
  have hn : ∀ n, loop lam p (line a b : Fin L → ℝ) (n + 2) (fun _ => 1) none = none := by
    intro n
    induction n with
    | zero =>
      rw [loop_succ lam p _ 1 (by omega)]
      have : loop lam p (line a b : Fin L → ℝ) 1 (fun _ => 1) none = some (line a b) := hst
      rw [this, hw, step_zero_weights hL]
    | succ n ih => rw [loop_succ lam p _ (n + 2) (by omega), ih, weights_none, step_zero_weights hL]
  constructor
  · simp only [als, one_ne_zero, if_false, loop, hst]
  · intro n
    simp only [als, Nat.add_eq_zero_iff, OfNat.ofNat_ne_zero, and_false, if_false, hn]

/-- **C183 (negation).** A light curve does not always have a baseline: with ten rounds, the default, that of a constant light curve (no counts in any bin, say) consists of NaNs. -/
theorem baseline_exists : ¬ ∀ (mad : (Fin 12 → ℝ) → ℝ) (lam p : Option ℝ) (y : Fin 12 → ℝ), (∀ l ∈ lam, 0 < l) → (∀ q ∈ p, 0 < q ∧ q < 1) →
    ∃ r, baselineAls mad lam p 10 false y = .ok (some r) := by
  intro h
  obtain ⟨r, hr⟩ := h (fun _ => 1) none none (line 0 0) (by simp) (by simp)
  have := (als_line (L := 12) (by norm_num) 100000000000 (1 / 1000) (by norm_num) 0 0).2 8
  simp only [baselineAls, Option.getD_none] at hr
  rw [this] at hr
  simp at hr

theorem kernel_line (v : Fin L → ℝ) (h : (secondDiff (L := L))ᵀ *ᵥ v = 0) : ∃ a b, v = line a b := by
  by_cases h2 : L < 2
  · by_cases h0 : L = 0
    · subst h0
      exact ⟨0, 0, funext fun i => i.elim0⟩
    · refine ⟨v ⟨0, by omega⟩, 0, funext fun i => ?_⟩
      have : i = ⟨0, by omega⟩ := Fin.ext (by have := i.isLt; show i.val = 0; omega)
      rw [this]
      simp [line]
  refine ⟨v ⟨0, by omega⟩, v ⟨1, by omega⟩ - v ⟨0, by omega⟩, funext fun i => ?_⟩
  have key : ∀ n, ∀ hn : n + 1 < L, v ⟨n, by omega⟩ = v ⟨0, by omega⟩ + (v ⟨1, by omega⟩ - v ⟨0, by omega⟩) * n ∧ v ⟨n + 1, hn⟩ = v ⟨0, by omega⟩ + (v ⟨1, by omega⟩ - v ⟨0, by omega⟩) * (n + 1 : Nat) := by
    intro n
    induction n with
    | zero => intro hn; constructor <;> simp
    | succ n ih =>
      intro hn
      obtain ⟨i1, i2⟩ := ih (by omega)
      refine ⟨i2, ?_⟩
      have hd := congrFun h ⟨n, by omega⟩
      rw [diffT] at hd
      simp only [Pi.zero_apply] at hd
      push_cast at i2 ⊢
      linarith
  by_cases hi : i.val + 1 < L
  · exact (key i.val hi).1
  · have hl := i.isLt
    obtain ⟨m, hm⟩ : ∃ m, i.val = m + 1 := ⟨i.val - 1, by omega⟩
    have := (key m (by omega)).2
    have hi' : i = ⟨m + 1, by omega⟩ := Fin.ext hm
    rw [hi', this]
    rfl

/-- **C183 (further rounds).** With `0 < p < 1` and a positive `lam`, a further round gives a curve exactly when at least two bins are not on the last curve. -/
theorem als_next (hL : 1 < L) (lam p : ℝ) (hl : 0 < lam) (hp : 0 < p ∧ p < 1) (y last : Fin L → ℝ) (n : Nat) (h : als lam p (n + 1) y = .ok (some last)) :
    (∃ z, als lam p (n + 2) y = .ok (some z)) ↔ ∃ i k, i ≠ k ∧ y i ≠ last i ∧ y k ≠ last k := by
  classical
  simp only [als, Nat.add_eq_zero_iff, OfNat.ofNat_ne_zero, one_ne_zero, and_false, if_false, Except.ok.injEq] at h ⊢
  rw [loop_succ lam p y (n + 1) (by omega), h]
  have hw0 : ∀ i, 0 ≤ weights p y (some last) i := by
    intro i
    simp only [weights]
    split_ifs <;> simp <;> linarith
  have hwpos : ∀ i, weights p y (some last) i = 0 ↔ y i = last i := by
    intro i
    simp only [weights]
    rcases lt_trichotomy (y i) (last i) with h1 | h1 | h1
    · simp [h1, not_lt.2 h1.le, h1.ne]
      linarith
    · simp [h1]
    · simp [h1, not_lt.2 h1.le, h1.ne']
      linarith
  set w := weights p y (some last) with hw
  have hsing : (system lam w).det = 0 ↔ ¬ ∃ i k, i ≠ k ∧ y i ≠ last i ∧ y k ≠ last k := by
    rw [← Matrix.exists_mulVec_eq_zero_iff]
    constructor
    · rintro ⟨v, hv, h0⟩ ⟨i, k, hik, hi, hk⟩
      apply hv
      have hd := dot_system lam w v v
      rw [h0, dotProduct_zero] at hd
      have p1 : ∀ i ∈ Finset.univ, 0 ≤ w i * v i * v i := fun i _ => by
        rw [mul_assoc]
        exact mul_nonneg (hw0 i) (mul_self_nonneg _)
      have p2 : ∀ j ∈ (Finset.univ : Finset (Fin (L - 2))), 0 ≤ ((secondDiff (L := L))ᵀ *ᵥ v) j * ((secondDiff (L := L))ᵀ *ᵥ v) j := fun j _ => mul_self_nonneg _
      have s1 := Finset.sum_nonneg p1
      have s2 := mul_nonneg hl.le (Finset.sum_nonneg p2)
      have z1 : ∑ i, w i * v i * v i = 0 := by linarith
      have z2 : ∑ j, ((secondDiff (L := L))ᵀ *ᵥ v) j * ((secondDiff (L := L))ᵀ *ᵥ v) j = 0 := by
        have : lam * ∑ j, ((secondDiff (L := L))ᵀ *ᵥ v) j * ((secondDiff (L := L))ᵀ *ᵥ v) j = 0 := by linarith
        exact (mul_eq_zero.1 this).resolve_left hl.ne'
      have hD : (secondDiff (L := L))ᵀ *ᵥ v = 0 := by
        funext j
        have := (Finset.sum_eq_zero_iff_of_nonneg p2).1 z2 j (Finset.mem_univ j)
        simpa using this
      obtain ⟨a, b, rfl⟩ := kernel_line v hD
      have hz : ∀ m, y m ≠ last m → line a b m = 0 := by
        intro m hm
        have := (Finset.sum_eq_zero_iff_of_nonneg p1).1 z1 m (Finset.mem_univ m)
        have hwm : w m ≠ 0 := fun hc => hm ((hwpos m).1 hc)
        simpa [hwm] using this
      have ei := hz i hi
      have ek := hz k hk
      simp only [line] at ei ek
      have hne : (i.val : ℝ) - k.val ≠ 0 := by
        rw [sub_ne_zero]
        exact_mod_cast fun hc => hik (Fin.ext hc)
      have hb : b = 0 := by
        have : b * ((i.val : ℝ) - k.val) = 0 := by linarith
        exact (mul_eq_zero.1 this).resolve_right hne
      have ha : a = 0 := by rw [hb] at ei; linarith
      funext m
      simp [line, ha, hb]
    · intro hno
      push Not at hno
      have hker : ∀ a b : ℝ, (∀ m, w m * line a b m = 0) → system lam w *ᵥ line a b = 0 := by
        intro a b hm
        rw [system_mulVec, diffT_line, Matrix.mulVec_zero, smul_zero, add_zero]
        funext m
        exact hm m
      by_cases hex : ∃ i, y i ≠ last i
      · obtain ⟨i, hi⟩ := hex
        refine ⟨line (-(i.val : ℝ)) 1, ?_, ?_⟩
        · intro hc
          have e0 := congrFun hc ⟨0, by omega⟩
          have e1 := congrFun hc ⟨1, hL⟩
          simp only [line, Pi.zero_apply] at e0 e1
          push_cast at e0 e1
          linarith
        · apply hker
          intro m
          by_cases hm : m = i
          · subst hm
            simp [line]
          · have : w m = 0 := (hwpos m).2 (hno i m (fun e => hm e.symm) hi)
            rw [this, zero_mul]
      · push Not at hex
        refine ⟨line 1 0, ?_, ?_⟩
        · intro hc
          have e0 := congrFun hc ⟨0, by omega⟩
          simp [line] at e0
        · apply hker
          intro m
          rw [(hwpos m).2 (hex m), zero_mul]
  by_cases hd : (system lam w).det = 0
  · have hn := hsing.1 hd
    rw [step, if_pos hd]
    simp only [reduceCtorEq, exists_false, false_iff]
    exact hn
  · have hn : ∃ i k, i ≠ k ∧ y i ≠ last i ∧ y k ≠ last k := by
      by_contra hc
      exact hd (hsing.2 hc)
    rw [step, if_neg hd]
    simp only [Option.some.injEq, exists_eq', true_iff]
    exact hn

/-- A spike on a flat light curve, and its first baseline. -/
noncomputable def spike : Fin 3 → ℝ := ![0, 1, 0]

example : als 1 (1 / 4) 1 spike = .ok (some ![2 / 7, 3 / 7, 2 / 7]) ∧ ∃ z, als 1 (1 / 4) 2 spike = .ok (some z) := by
  have h1 : als 1 (1 / 4) 1 spike = .ok (some ![2 / 7, 3 / 7, 2 / 7]) := by
    obtain ⟨z, hz⟩ := step_first 1 zero_le_one spike
    have : step 1 spike (fun _ => 1) = some ![2 / 7, 3 / 7, 2 / 7] := by
      rw [step_some]
      refine ⟨((step_some _ _ _ _).1 hz).1, ?_⟩
      rw [system_mulVec]
      have hd : (secondDiff (L := 3))ᵀ *ᵥ (![2 / 7, 3 / 7, 2 / 7] : Fin 3 → ℝ) = fun _ => -2 / 7 := by
        funext j
        have hj : j = ⟨0, by norm_num⟩ := Fin.ext (by have := j.isLt; omega)
        rw [diffT, hj]
        norm_num
      rw [hd]
      funext i
      fin_cases i <;> simp [spike, secondDiff, Matrix.mulVec, dotProduct] <;> norm_num
    simp only [als, one_ne_zero, if_false, loop, this]
  refine ⟨h1, (als_next (by norm_num) 1 (1 / 4) one_pos (by norm_num) spike _ 0 h1).2 ⟨0, 1, by simp, ?_, ?_⟩⟩
  · norm_num [spike]
  · norm_num [spike]

example : ∃ z, als 100 (1 / 100) 1 (fun i : Fin 5 => if i.val = 2 then (7 : ℝ) else 1) = .ok (some z) := (als_first 100 (1 / 100) (by norm_num) _).2

end Stingray.BaselineAls

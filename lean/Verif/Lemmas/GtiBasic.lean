import Verif.Model.Gti
import Verif.Spec.Intervals
import Mathlib.Tactic.Linarith
import Mathlib.Tactic.Ring

/-! Helper lemmas about `check_gtis`, boundary joining and bad time intervals. -/

namespace Stingray.Gti

set_option linter.unusedSectionVars false

open Stingray.Spec

variable {K : Type} [Field K] [LinearOrder K] [IsStrictOrderedRing K]

theorem zipWith_start_end_all (l : List (K × K)) :
    (List.zipWith (fun e s => decide (s ≤ e)) (l.map Prod.snd) (l.map Prod.fst)).all id = true ↔
      ∀ g ∈ l, g.1 ≤ g.2 := by
  induction l with
  | nil => simp
  | cons a l ih => simp at ih ⊢

theorem zipWith_next_all (l : List (K × K)) :
    (List.zipWith (fun s e => decide (e ≤ s)) (l.map Prod.fst).tail
      (l.map Prod.snd).dropLast).all id = true ↔ l.IsChain (fun a b => a.2 ≤ b.1) := by
  induction l with
  | nil => simp
  | cons a l ih =>
    cases l with
    | nil => simp
    | cons b l => simp at ih ⊢; intro _; rw [ih]

theorem chain_to_pairwise (l : List (K × K)) (h : ∀ g ∈ l, g.1 ≤ g.2)
    (hc : l.IsChain (fun a b => a.2 ≤ b.1)) : l.Pairwise (fun a b => a.2 ≤ b.1) := by
  induction l with
  | nil => exact List.Pairwise.nil
  | cons a l ih =>
    cases l with
    | nil => simp
    | cons b l =>
      simp only [List.isChain_cons_cons] at hc
      have hp := ih (fun g hg => h g (List.mem_cons_of_mem _ hg)) hc.2
      refine List.Pairwise.cons ?_ hp
      intro c hcm
      rcases List.mem_cons.1 hcm with rfl | hcm
      · exact hc.1
      · have h1 := (List.pairwise_cons.1 hp).1 c hcm
        have h2 := h b (by simp)
        exact hc.1.trans (h2.trans h1)

theorem checkGtis_ok_iff (l : List (K × K)) :
    checkGtis l = .ok () ↔ l ≠ [] ∧ WellFormed l := by
  unfold checkGtis WellFormed
  by_cases h0 : l.length < 1
  · have : l = [] := by simpa using h0
    simp [this]
  · have hne : l ≠ [] := by rintro rfl; simp at h0
    simp only [h0, if_false, hne, ne_eq, not_false_eq_true, true_and]
    by_cases h1 : ∀ g ∈ l, g.1 ≤ g.2
    · have h1' := (zipWith_start_end_all l).2 h1
      rw [h1']
      by_cases h2 : l.IsChain (fun a b => a.2 ≤ b.1)
      · have h2' := (zipWith_next_all l).2 h2
        rw [h2']
        simp
        exact ⟨fun a b hab => h1 (a, b) hab, chain_to_pairwise l h1 h2⟩
      · have h2' : ¬ _ = true := fun h => h2 ((zipWith_next_all l).1 h)
        simp only [not_true, if_false, h2', not_false_eq_true, if_true]
        constructor
        · intro h; cases h
        · rintro ⟨_, hp⟩; exact absurd hp.isChain h2
    · have h1' : ¬ _ = true := fun h => h1 ((zipWith_start_end_all l).1 h)
      simp only [h1', not_false_eq_true, if_true]
      constructor
      · intro h; cases h
      · rintro ⟨h, _⟩; exact absurd h h1

theorem checkGtis_cases (l : List (K × K)) :
    checkGtis l = .ok () ∨ checkGtis l = .error .valueError := by
  unfold checkGtis
  dsimp only
  split_ifs <;> simp

theorem checkGtis_of_wf {l : List (K × K)} (hne : l ≠ []) (h : WellFormed l) :
    checkGtis l = .ok () := (checkGtis_ok_iff l).2 ⟨hne, h⟩

theorem wf_starts_sorted {l : List (K × K)} (h : WellFormed l) :
    l.Pairwise (fun a b => a.1 ≤ b.1) := by
  obtain ⟨h1, h2⟩ := h
  induction l with
  | nil => exact List.Pairwise.nil
  | cons a l ih =>
    rw [List.pairwise_cons] at h2 ⊢
    exact ⟨fun b hb => (h1 a (by simp)).trans (h2.1 b hb),
      ih (fun g hg => h1 g (List.mem_cons_of_mem _ hg)) h2.2⟩

theorem wf_ends_sorted {l : List (K × K)} (h : WellFormed l) :
    l.Pairwise (fun a b => a.2 ≤ b.2) := by
  obtain ⟨h1, h2⟩ := h
  induction l with
  | nil => exact List.Pairwise.nil
  | cons a l ih =>
    rw [List.pairwise_cons] at h2 ⊢
    exact ⟨fun b hb => (h2.1 b hb).trans (h1 b (List.mem_cons_of_mem _ hb)),
      ih (fun g hg => h1 g (List.mem_cons_of_mem _ hg)) h2.2⟩

theorem wf_tail {a : K × K} {l : List (K × K)} (h : WellFormed (a :: l)) : WellFormed l :=
  ⟨fun g hg => h.1 g (List.mem_cons_of_mem _ hg), (List.pairwise_cons.1 h.2).2⟩

/-! ### joining equal boundaries -/

theorem covers_joinEqualLoop (cur : K × K) (l : List (K × K)) (h : WellFormed (cur :: l)) (x : K) :
    Covers (joinEqualLoop 0 cur l) x ↔ Covers (cur :: l) x := by
  induction l generalizing cur with
  | nil => simp [joinEqualLoop]
  | cons g rest ih =>
    have hc := h.1 cur (by simp)
    have hg := h.1 g (by simp)
    have hp := List.pairwise_cons.1 h.2
    unfold joinEqualLoop
    split_ifs with ht
    · have hEq : cur.2 = g.1 := by
        have := abs_nonpos_iff.1 ht; linarith
      have hwf : WellFormed ((cur.1, g.2) :: rest) := by
        refine ⟨?_, ?_⟩
        · intro k hk
          rcases List.mem_cons.1 hk with rfl | hk
          · simp; linarith
          · exact h.1 k (by simp [hk])
        · have hp2 := List.pairwise_cons.1 hp.2
          exact List.Pairwise.cons (fun b hb => hp2.1 b hb) hp2.2
      rw [ih _ hwf]
      unfold Covers
      simp only [List.mem_cons, exists_eq_or_imp]
      constructor
      · rintro (⟨h1, h2⟩ | h1)
        · rcases le_total x cur.2 with hx | hx
          · exact Or.inl ⟨h1, hx⟩
          · exact Or.inr (Or.inl ⟨hEq ▸ hx, h2⟩)
        · exact Or.inr (Or.inr h1)
      · rintro (⟨h1, h2⟩ | ⟨h1, h2⟩ | h1)
        · exact Or.inl ⟨h1, by show x ≤ g.2; linarith⟩
        · exact Or.inl ⟨by show cur.1 ≤ x; linarith, h2⟩
        · exact Or.inr h1
    · have := ih g (wf_tail h)
      unfold Covers at this ⊢
      simp only [List.mem_cons, exists_eq_or_imp] at this ⊢
      rw [this]

theorem exposure_joinEqualLoop (cur : K × K) (l : List (K × K)) :
    exposure (joinEqualLoop 0 cur l) = exposure (cur :: l) := by
  induction l generalizing cur with
  | nil => simp [joinEqualLoop]
  | cons g rest ih =>
    unfold joinEqualLoop
    split_ifs with ht
    · have hEq : cur.2 = g.1 := by
        have := abs_nonpos_iff.1 ht; linarith
      rw [ih]
      simp [exposure]; rw [hEq]; ring
    · have := ih g
      simp [exposure] at this ⊢
      rw [this]

/-- starts and ends of the joined list come from the input -/
theorem mem_joinEqualLoop (cur : K × K) (l : List (K × K)) (k : K × K)
    (hk : k ∈ joinEqualLoop 0 cur l) :
    (∃ g ∈ cur :: l, g.1 = k.1) ∧ (∃ g ∈ cur :: l, g.2 = k.2) := by
  induction l generalizing cur with
  | nil => simp [joinEqualLoop] at hk; subst hk; simp
  | cons g rest ih =>
    unfold joinEqualLoop at hk
    split_ifs at hk with ht
    · obtain ⟨⟨a, ha, ha'⟩, b, hb, hb'⟩ := ih _ hk
      constructor
      · rcases List.mem_cons.1 ha with rfl | ha
        · exact ⟨cur, by simp, ha'⟩
        · exact ⟨a, by simp [ha], ha'⟩
      · rcases List.mem_cons.1 hb with rfl | hb
        · exact ⟨g, by simp, hb'⟩
        · exact ⟨b, by simp [hb], hb'⟩
    · rcases List.mem_cons.1 hk with rfl | hk
      · exact ⟨⟨k, by simp, rfl⟩, k, by simp, rfl⟩
      · obtain ⟨⟨a, ha, ha'⟩, b, hb, hb'⟩ := ih _ hk
        exact ⟨⟨a, List.mem_cons_of_mem _ ha, ha'⟩, b, List.mem_cons_of_mem _ hb, hb'⟩

/-- the result is strictly separated and runs forward -/
theorem joinEqualLoop_separated (cur : K × K) (l : List (K × K)) (h : WellFormed (cur :: l)) :
    (∀ k ∈ joinEqualLoop 0 cur l, k.1 ≤ k.2 ∧ cur.1 ≤ k.1) ∧
      (joinEqualLoop 0 cur l).Pairwise (fun a b => a.2 < b.1) := by
  induction l generalizing cur with
  | nil =>
    simp only [joinEqualLoop, List.mem_singleton, List.pairwise_singleton, and_true]
    rintro k rfl; exact ⟨h.1 k (by simp), le_rfl⟩
  | cons g rest ih =>
    have hc := h.1 cur (by simp)
    have hg := h.1 g (by simp)
    have hp := List.pairwise_cons.1 h.2
    have hcg := hp.1 g (by simp)
    unfold joinEqualLoop
    split_ifs with ht
    · have hwf : WellFormed ((cur.1, g.2) :: rest) := by
        refine ⟨?_, ?_⟩
        · intro k hk
          rcases List.mem_cons.1 hk with rfl | hk
          · simp; linarith
          · exact h.1 k (by simp [hk])
        · have hp2 := List.pairwise_cons.1 hp.2
          exact List.Pairwise.cons (fun b hb => hp2.1 b hb) hp2.2
      exact ih _ hwf
    · obtain ⟨i1, i2⟩ := ih g (wf_tail h)
      have hlt : cur.2 < g.1 := by
        rcases lt_or_eq_of_le hcg with h' | h'
        · exact h'
        · exact absurd (by rw [h']; simp) ht
      refine ⟨?_, ?_⟩
      · intro k hk
        rcases List.mem_cons.1 hk with rfl | hk
        · exact ⟨hc, le_rfl⟩
        · exact ⟨(i1 k hk).1, by have := (i1 k hk).2; linarith⟩
      · exact List.Pairwise.cons (fun b hb => lt_of_lt_of_le hlt (i1 b hb).2) i2

theorem joinEqualLoop_ne_nil (thr : K) (cur : K × K) (l : List (K × K)) :
    joinEqualLoop thr cur l ≠ [] := by
  induction l generalizing cur with
  | nil => simp [joinEqualLoop]
  | cons g rest ih => unfold joinEqualLoop; split_ifs <;> simp [ih]

/-- positive lengths are preserved -/
theorem joinEqualLoop_pos (cur : K × K) (l : List (K × K)) (h : WellFormed (cur :: l))
    (hpos : ∀ g ∈ cur :: l, g.1 < g.2) : ∀ k ∈ joinEqualLoop 0 cur l, k.1 < k.2 := by
  induction l generalizing cur with
  | nil => simpa [joinEqualLoop] using hpos
  | cons g rest ih =>
    have hc := hpos cur (by simp)
    have hg := hpos g (by simp)
    have hp := List.pairwise_cons.1 h.2
    have hcg := hp.1 g (by simp)
    unfold joinEqualLoop
    split_ifs with ht
    · have hwf : WellFormed ((cur.1, g.2) :: rest) := by
        refine ⟨?_, ?_⟩
        · intro k hk
          rcases List.mem_cons.1 hk with rfl | hk
          · simp; linarith
          · exact h.1 k (by simp [hk])
        · have hp2 := List.pairwise_cons.1 hp.2
          exact List.Pairwise.cons (fun b hb => hp2.1 b hb) hp2.2
      apply ih _ hwf
      intro k hk
      rcases List.mem_cons.1 hk with rfl | hk
      · simp; linarith
      · exact hpos k (by simp [hk])
    · intro k hk
      rcases List.mem_cons.1 hk with rfl | hk
      · exact hc
      · exact ih g (wf_tail h) (fun g hg => hpos g (by simp at hg ⊢; tauto)) k hk

/-- a list with real gaps is left alone -/
theorem joinEqualLoop_of_separated (cur : K × K) (l : List (K × K))
    (h : (cur :: l).Pairwise (fun a b => a.2 < b.1)) : joinEqualLoop 0 cur l = cur :: l := by
  induction l generalizing cur with
  | nil => rfl
  | cons g rest ih =>
    have hp := List.pairwise_cons.1 h
    have hlt := hp.1 g (by simp)
    have : ¬ |cur.2 - g.1| ≤ 0 := by
      rw [abs_nonpos_iff]; intro h0; linarith
    unfold joinEqualLoop
    rw [if_neg this, ih g hp.2]

end Stingray.Gti

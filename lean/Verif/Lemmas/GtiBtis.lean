import Verif.Lemmas.GtiBasic

/-! Helper lemmas for `get_btis`. -/

namespace Stingray.Gti

set_option linter.unusedSectionVars false

open Stingray.Spec

variable {K : Type} [Field K] [LinearOrder K] [IsStrictOrderedRing K]

/-- recursive form of the gaps after the first GTI -/
def btisAfter (stop : K) (a : K × K) : List (K × K) → List (K × K)
  | [] => if a.2 < stop then [(a.2, stop)] else []
  | g :: r => (a.2, g.1) :: btisAfter stop g r

theorem btisAfter_eq (stop : K) (a : K × K) (l : List (K × K)) :
    btisAfter stop a l =
      List.zipWith (fun e s => (e, s)) ((a :: l).dropLast.map Prod.snd) (l.map Prod.fst) ++
        (if ((a :: l).getLast (by simp)).2 < stop
          then [(((a :: l).getLast (by simp)).2, stop)] else []) := by
  induction l generalizing a with
  | nil => simp [btisAfter]; rfl
  | cons g r ih => rw [btisAfter, ih g]; simp

theorem getBtis_eq (a : K × K) (l : List (K × K)) (start stop : Option K)
    (hwf : WellFormed (a :: l)) :
    getBtis (a :: l) start stop = .ok
      ((if a.1 ≤ start.getD a.1 then [] else [(start.getD a.1, a.1)]) ++
        btisAfter (stop.getD ((a :: l).getLast (by simp)).2) a l) := by
  have hc := checkGtis_of_wf (List.cons_ne_nil a l) hwf
  rw [btisAfter_eq]
  have : (a :: l).getLast? = some ((a :: l).getLast (by simp)) := List.getLast?_eq_getLast_of_ne_nil _
  unfold getBtis
  simp only [List.head?_cons, this, hc]
  simp [bind, Except.bind, pure, Except.pure]

theorem covers_btisAfter (stop : K) (a : K × K) (l : List (K × K)) (h : WellFormed (a :: l))
    (hs : ∀ g ∈ a :: l, g.2 ≤ stop) (x : K) :
    (a.1 ≤ x ∧ x ≤ stop) ↔ (Covers (a :: l) x ∨ Covers (btisAfter stop a l) x) := by
  induction l generalizing a with
  | nil =>
    have h1 := h.1 a (by simp)
    have h2 := hs a (by simp)
    unfold btisAfter Covers
    split_ifs with hlt
    · simp only [List.mem_singleton, exists_eq_left]
      constructor
      · rintro ⟨h3, h4⟩
        rcases le_total x a.2 with hx | hx
        · exact Or.inl ⟨h3, hx⟩
        · exact Or.inr ⟨hx, h4⟩
      · rintro (⟨h3, h4⟩ | ⟨h3, h4⟩) <;> constructor <;> linarith
    · have : a.2 = stop := le_antisymm h2 (not_lt.1 hlt)
      simp [this]
  | cons g r ih =>
    have h1 := h.1 a (by simp)
    have hp := List.pairwise_cons.1 h.2
    have hag := hp.1 g (by simp)
    have hgs := hs g (by simp)
    have hgl := h.1 g (by simp)
    have := ih g (wf_tail h) (fun k hk => hs k (List.mem_cons_of_mem _ hk))
    unfold btisAfter
    have e1 : Covers (a :: g :: r) x ↔ (a.1 ≤ x ∧ x ≤ a.2) ∨ Covers (g :: r) x := by
      simp [Covers]
    have e2 : Covers ((a.2, g.1) :: btisAfter stop g r) x ↔
        (a.2 ≤ x ∧ x ≤ g.1) ∨ Covers (btisAfter stop g r) x := by
      simp [Covers]
    rw [e1, e2]
    constructor
    · rintro ⟨h3, h4⟩
      rcases le_total x a.2 with hx | hx
      · exact Or.inl (Or.inl ⟨h3, hx⟩)
      · rcases le_total x g.1 with hx' | hx'
        · exact Or.inr (Or.inl ⟨hx, hx'⟩)
        · rcases this.1 ⟨hx', h4⟩ with h5 | h5
          · exact Or.inl (Or.inr h5)
          · exact Or.inr (Or.inr h5)
    · rintro ((⟨h3, h4⟩ | h3) | (⟨h3, h4⟩ | h3))
      · exact ⟨h3, by linarith⟩
      · have := this.2 (Or.inl h3); exact ⟨by linarith [this.1], this.2⟩
      · exact ⟨by linarith, by linarith⟩
      · have := this.2 (Or.inr h3); exact ⟨by linarith [this.1], this.2⟩

theorem btisAfter_bounds (stop : K) (a : K × K) (l : List (K × K)) (h : WellFormed (a :: l))
    (hs : ∀ g ∈ a :: l, g.2 ≤ stop) :
    (∀ b ∈ btisAfter stop a l, a.2 ≤ b.1 ∧ b.1 ≤ b.2 ∧ ∀ g ∈ a :: l, g.2 ≤ b.1 ∨ b.2 ≤ g.1) ∧
      (btisAfter stop a l).Pairwise (fun u v => u.2 ≤ v.1) := by
  induction l generalizing a with
  | nil =>
    unfold btisAfter
    split_ifs with hlt
    · simp only [List.mem_singleton, forall_eq, List.pairwise_singleton, and_true]
      exact ⟨le_rfl, hlt.le, Or.inl le_rfl⟩
    · simp
  | cons g r ih =>
    have h1 := h.1 a (by simp)
    have hp := List.pairwise_cons.1 h.2
    have hag := hp.1 g (by simp)
    have hgl := h.1 g (by simp)
    obtain ⟨i1, i2⟩ := ih g (wf_tail h) (fun k hk => hs k (List.mem_cons_of_mem _ hk))
    have hss := wf_starts_sorted (wf_tail h)
    unfold btisAfter
    refine ⟨?_, ?_⟩
    · intro b hb
      rcases List.mem_cons.1 hb with rfl | hb
      · refine ⟨le_rfl, hag, ?_⟩
        intro k hk
        rcases List.mem_cons.1 hk with rfl | hk
        · exact Or.inl le_rfl
        · right
          rcases List.mem_cons.1 hk with rfl | hk
          · exact le_rfl
          · exact (List.pairwise_cons.1 hss).1 k hk
      · obtain ⟨j1, j2, j3⟩ := i1 b hb
        refine ⟨by linarith, j2, ?_⟩
        intro k hk
        rcases List.mem_cons.1 hk with rfl | hk
        · left; linarith
        · exact j3 k hk
    · refine List.Pairwise.cons ?_ i2
      intro b hb
      have := (i1 b hb).1
      dsimp; linarith

theorem exposure_btisAfter (stop : K) (a : K × K) (l : List (K × K))
    (hs : ∀ g ∈ a :: l, g.2 ≤ stop) :
    exposure (a :: l) + exposure (btisAfter stop a l) = stop - a.1 := by
  induction l generalizing a with
  | nil =>
    have := hs a (by simp)
    unfold btisAfter
    split_ifs with hlt
    · simp [exposure]
    · have : a.2 = stop := le_antisymm this (not_lt.1 hlt)
      simp [exposure, this]
  | cons g r ih =>
    have := ih g (fun k hk => hs k (List.mem_cons_of_mem _ hk))
    unfold btisAfter
    simp [exposure] at this ⊢
    linarith

end Stingray.Gti

import Verif.Model.Regions
import Mathlib.Tactic.Linarith
import Mathlib.Tactic.Ring

/-! Helper lemmas for `contiguous_regions`. -/

namespace Stingray.Gti

set_option linter.unusedSectionVars false

/-- change points and final end of a boolean list, `prev` being the element before it -/
def edgesFrom (i : Nat) (prev : Bool) : List Bool → List Nat
  | [] => if prev then [i] else []
  | b :: l => (if xor b prev then [i] else []) ++ edgesFrom (i + 1) b l

theorem nonzero_eq (k : Nat) (a : Bool) (l : List Bool) :
    ((((xorDiff (a :: l)).zipIdx k).filter (fun p => p.1)).map Prod.snd).map (· + 1) ++
      (if (a :: l).getLast (by simp) then [k + 1 + l.length] else []) = edgesFrom (k + 1) a l := by
  induction l generalizing k a with
  | nil => simp [xorDiff, edgesFrom]
  | cons b l ih =>
    have e : xorDiff (a :: b :: l) = xor b a :: xorDiff (b :: l) := by simp [xorDiff]
    have := ih (k + 1) b
    rw [edgesFrom, ← this, e]
    have hlen : k + 1 + (b :: l).length = k + 1 + 1 + l.length := by simp; omega
    rw [hlen]
    cases h : xor b a <;> simp [h]

theorem contiguousRegions_eq (c : List Bool) (hne : c ≠ []) :
    contiguousRegions c = match reshapePairs (edgesFrom 0 false c) with
      | some l => .ok l
      | none => .error .valueError := by
  obtain ⟨a, l, rfl⟩ := List.exists_cons_of_ne_nil hne
  have h := nonzero_eq 0 a l
  have hlast : (a :: l).getLast? = some ((a :: l).getLast (by simp)) :=
    List.getLast?_eq_getLast_of_ne_nil _
  have hlen : (a :: l).length = 0 + 1 + l.length := by simp; omega
  have hn : nonzeroIdx (xorDiff (a :: l)) =
    (((xorDiff (a :: l)).zipIdx 0).filter (fun p => p.1)).map Prod.snd := rfl
  unfold contiguousRegions
  rw [hlast, edgesFrom, ← h, hlen]
  simp only [List.head?_cons]
  rw [hn]
  cases a <;> cases hg : ((_ :: l).getLast (by simp) : Bool) <;> simp <;> rfl

/-- what the reshaped edges mean, with a run open since `s` when `prev` is true -/
theorem edges_spec (l : List Bool) : ∀ (i : Nat),
    (∃ R, reshapePairs (edgesFrom i false l) = some R ∧
      (∀ j, (∃ r ∈ R, r.1 ≤ j ∧ j < r.2) ↔ (i ≤ j ∧ l[j - i]? = some true)) ∧
      (∀ r ∈ R, i ≤ r.1 ∧ r.1 < r.2 ∧ r.2 ≤ i + l.length) ∧ R.Pairwise (fun r q => r.2 < q.1)) ∧
    (∀ s, s < i → ∃ R, reshapePairs (s :: edgesFrom i true l) = some R ∧
      (∀ j, (∃ r ∈ R, r.1 ≤ j ∧ j < r.2) ↔ ((s ≤ j ∧ j < i) ∨ (i ≤ j ∧ l[j - i]? = some true))) ∧
      (∀ r ∈ R, s ≤ r.1 ∧ r.1 < r.2 ∧ r.2 ≤ i + l.length) ∧ R.Pairwise (fun r q => r.2 < q.1)) := by
  induction l with
  | nil =>
    intro i
    refine ⟨⟨[], rfl, by simp, by simp, by simp⟩, ?_⟩
    intro s hs
    refine ⟨[(s, i)], rfl, ?_, ?_, ?_⟩
    · intro j; simp
    · intro r hr
      simp only [List.mem_singleton] at hr
      subst hr; simp; omega
    · simp
  | cons b l ih =>
    intro i
    have hget : ∀ j, i + 1 ≤ j → (b :: l)[j - i]? = l[j - (i + 1)]? := by
      intro j hj
      have : j - i = (j - (i + 1)) + 1 := by omega
      rw [this]; simp
    have hget0 : ∀ j, j = i → (b :: l)[j - i]? = some b := by
      intro j hj; subst hj; simp
    obtain ⟨ihF, ihT⟩ := ih (i + 1)
    constructor
    · cases b
      · obtain ⟨R, h1, h2, h3, h4⟩ := ihF
        refine ⟨R, by simpa [edgesFrom] using h1, ?_, ?_, h4⟩
        · intro j
          rw [h2 j]
          constructor
          · rintro ⟨ha, hb⟩; exact ⟨by omega, by rw [hget j ha]; exact hb⟩
          · rintro ⟨ha, hb⟩
            rcases Nat.eq_or_lt_of_le ha with h | h
            · rw [hget0 j h.symm] at hb; simp at hb
            · exact ⟨h, by rw [hget j h] at hb; exact hb⟩
        · intro r hr
          have := h3 r hr
          simp at this ⊢; omega
      · obtain ⟨R, h1, h2, h3, h4⟩ := ihT i (by omega)
        refine ⟨R, by simpa [edgesFrom] using h1, ?_, ?_, h4⟩
        · intro j
          rw [h2 j]
          constructor
          · rintro (⟨ha, hb⟩ | ⟨ha, hb⟩)
            · exact ⟨ha, by rw [hget0 j (by omega)]⟩
            · exact ⟨by omega, by rw [hget j ha]; exact hb⟩
          · rintro ⟨ha, hb⟩
            rcases Nat.eq_or_lt_of_le ha with h | h
            · exact Or.inl ⟨ha, by omega⟩
            · exact Or.inr ⟨h, by rw [hget j h] at hb; exact hb⟩
        · intro r hr
          have := h3 r hr
          simp at this ⊢; omega
    · intro s hs
      cases b
      · obtain ⟨R, h1, h2, h3, h4⟩ := ihF
        refine ⟨(s, i) :: R, by simp [edgesFrom, reshapePairs, h1], ?_, ?_, ?_⟩
        · intro j
          simp only [List.mem_cons, exists_eq_or_imp]
          rw [h2 j]
          constructor
          · rintro (h | ⟨ha, hb⟩)
            · exact Or.inl h
            · exact Or.inr ⟨by omega, by rw [hget j ha]; exact hb⟩
          · rintro (h | ⟨ha, hb⟩)
            · exact Or.inl h
            · rcases Nat.eq_or_lt_of_le ha with h | h
              · rw [hget0 j h.symm] at hb; simp at hb
              · exact Or.inr ⟨h, by rw [hget j h] at hb; exact hb⟩
        · intro r hr
          rcases List.mem_cons.1 hr with rfl | hr
          · simp; omega
          · have := h3 r hr
            simp at this ⊢; omega
        · refine List.Pairwise.cons ?_ h4
          intro r hr
          have := h3 r hr
          show i < r.1
          omega
      · obtain ⟨R, h1, h2, h3, h4⟩ := ihT s (by omega)
        refine ⟨R, by simpa [edgesFrom] using h1, ?_, ?_, h4⟩
        · intro j
          rw [h2 j]
          constructor
          · rintro (⟨ha, hb⟩ | ⟨ha, hb⟩)
            · rcases Nat.lt_or_ge j i with h | h
              · exact Or.inl ⟨ha, h⟩
              · exact Or.inr ⟨h, by rw [hget0 j (by omega)]⟩
            · exact Or.inr ⟨by omega, by rw [hget j ha]; exact hb⟩
          · rintro (⟨ha, hb⟩ | ⟨ha, hb⟩)
            · exact Or.inl ⟨ha, by omega⟩
            · rcases Nat.eq_or_lt_of_le ha with h | h
              · exact Or.inl ⟨by omega, by omega⟩
              · exact Or.inr ⟨h, by rw [hget j h] at hb; exact hb⟩
        · intro r hr
          have := h3 r hr
          simp at this ⊢; omega

end Stingray.Gti

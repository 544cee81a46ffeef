import Verif.Model.Sorting
import Mathlib.Data.Rat.Floor
import Mathlib.Tactic.Linarith

/-!
C187: sorted times.
-/

set_option linter.unusedSectionVars false

namespace Stingray.Sorting

open Stingray

variable {K V : Type} [Field K] [LinearOrder K] [IsStrictOrderedRing K]

theorem pairwise_of_neighbours {T : Type} (r : T → T → Prop) (htrans : ∀ x y z, r x y → r y z → r x z) (a : List T) :
    (∀ p ∈ neighbours a, r p.1 p.2) ↔ a.Pairwise r := by
  induction a with
  | nil => simp [neighbours]
  | cons x a ih =>
    cases a with
    | nil => simp [neighbours]
    | cons y a =>
      have e : neighbours (x :: y :: a) = (x, y) :: neighbours (y :: a) := rfl
      rw [e, List.forall_mem_cons, ih, List.pairwise_cons (a := x)]
      constructor
      · rintro ⟨h1, h2⟩
        refine ⟨?_, h2⟩
        intro z hz
        rcases List.mem_cons.1 hz with rfl | hz
        · exact h1
        · exact htrans _ _ _ h1 ((List.pairwise_cons.1 h2).1 z hz)
      · rintro ⟨h1, h2⟩
        exact ⟨h1 y (by simp), h2⟩

theorem neighbours_map {S T : Type} (f : S → T) (a : List S) : neighbours (a.map f) = (neighbours a).map fun p => (f p.1, f p.2) := by
  unfold neighbours
  rw [← List.map_tail, List.zip_map]
  rfl

theorem pairwise_short {T : Type} (r : T → T → Prop) (a : List T) (h : a.length ≤ 1) : a.Pairwise r := by
  match a, h with
  | [], _ => exact List.Pairwise.nil
  | [x], _ => exact List.pairwise_singleton _ _

/-- **C187.** For finite numbers, an array is called sorted exactly when each element is at most all later ones, with numba and without it. -/
theorem is_sorted_spec (numba : Bool) (a : List K) : isSorted numba (a.map some) = true ↔ a.Pairwise (· ≤ ·) := by
  unfold isSorted
  rw [List.length_map]
  split_ifs with h1 h2
  · simpa using pairwise_short _ a h1
  · rw [neighbours_map, List.all_map, List.all_eq_true, ← pairwise_of_neighbours (· ≤ ·) (fun _ _ _ => le_trans)]
    simp [stepOk]
  · unfold sortedNumba
    rw [neighbours_map, List.any_map, ← pairwise_of_neighbours (· ≤ ·) (fun _ _ _ => le_trans)]
    simp [greater]

/-- **C187 (unsigned).** With numba, an array of unsigned integers is called sorted exactly when it is. -/
theorem is_sorted_unsigned (a : List Nat) : isSortedUnsigned true a = true ↔ a.Pairwise (· ≤ ·) := by
  unfold isSortedUnsigned
  split_ifs with h1 h2
  · simpa using pairwise_short _ a h1
  · simp at h2
  · rw [← pairwise_of_neighbours (· ≤ ·) (fun _ _ _ => le_trans)]
    simp

theorem takeOrder_spec {T : Type} (l : List T) (order : List Nat) (h : ∀ k ∈ order, k < l.length) :
    ∃ v, takeOrder l order = .ok v ∧ v.map some = order.map fun k => l[k]? := by
  induction order with
  | nil => exact ⟨[], rfl, rfl⟩
  | cons k order ih =>
    obtain ⟨v, hv, he⟩ := ih fun j hj => h j (by simp [hj])
    have hk := h k (by simp)
    refine ⟨l[k] :: v, ?_, ?_⟩
    · unfold takeOrder at hv ⊢
      rw [List.mapM_cons, hv, List.getElem?_eq_getElem hk]
      rfl
    · rw [List.map_cons, List.map_cons, he, List.getElem?_eq_getElem hk]

theorem orderColumns_spec (cols : List (String × List V)) (order : List Nat) (h : ∀ c ∈ cols, ∀ k ∈ order, k < c.2.length) :
    ∃ out, orderColumns cols order = .ok out ∧ List.Forall₂ (fun c d => d.1 = c.1 ∧ d.2.map some = order.map fun k => c.2[k]?) cols out := by
  induction cols with
  | nil => exact ⟨[], rfl, List.Forall₂.nil⟩
  | cons c cols ih =>
    obtain ⟨out, ho, hf⟩ := ih fun d hd => h d (by simp [hd])
    obtain ⟨v, hv, he⟩ := takeOrder_spec c.2 order (h c (by simp))
    refine ⟨(c.1, v) :: out, ?_, List.Forall₂.cons ⟨rfl, he⟩ hf⟩
    unfold orderColumns at ho ⊢
    rw [List.mapM_cons, hv, ho]
    rfl

theorem map_some_range {T : Type} (l : List T) : l.map some = (List.range l.length).map fun k => l[k]? := by
  apply List.ext_getElem
  · simp
  · intro i h1 h2
    simp at h1
    simp [h1]

/-- **C187 (events).** Events read from a file with columns of equal lengths come out with sorted times, in an order of the rows of the table that is the same for all columns and leaves out or repeats none; sorted events are left as they are. -/
theorem sort_events_spec (argsort : List K → List Nat) (numba : Bool) (times : List K) (cols : List (String × List V)) (hlen : ∀ c ∈ cols, c.2.length = times.length)
    (hperm : (argsort times).Perm (List.range times.length)) (hsort : ((argsort times).map fun k => times[k]?.getD 0).Pairwise (· ≤ ·)) :
    ∃ t out, sortEvents argsort numba times cols = .ok (t, out) ∧ t.Pairwise (· ≤ ·) ∧
      (∃ order : List Nat, order.Perm (List.range times.length) ∧ (t.map some = order.map fun k => times[k]?) ∧
        List.Forall₂ (fun c d => d.1 = c.1 ∧ d.2.map some = order.map fun k => c.2[k]?) cols out) ∧
      (times.Pairwise (· ≤ ·) → t = times ∧ out = cols) := by
  by_cases hs : isSorted numba (times.map some) = true
  · have hp := (is_sorted_spec numba times).1 hs
    refine ⟨times, cols, ?_, hp, ⟨List.range times.length, List.Perm.refl _, map_some_range _, ?_⟩, fun _ => ⟨rfl, rfl⟩⟩
    · rw [sortEvents, if_pos hs]
    · rw [List.forall₂_same]
      intro c hc
      refine ⟨rfl, ?_⟩
      rw [← hlen c hc]
      exact map_some_range _
  · have hk : ∀ k ∈ argsort times, k < times.length := fun k h => List.mem_range.1 (hperm.mem_iff.1 h)
    obtain ⟨t, ht, hte⟩ := takeOrder_spec times (argsort times) hk
    obtain ⟨out, ho, hoe⟩ := orderColumns_spec cols (argsort times) fun c hc k h => by rw [hlen c hc]; exact hk k h
    refine ⟨t, out, ?_, ?_, ⟨argsort times, hperm, hte, hoe⟩, fun hp => absurd ((is_sorted_spec numba times).2 hp) hs⟩
    · rw [sortEvents, if_neg hs, ht, ho]
    · have e : t = (argsort times).map fun k => times[k]?.getD 0 := by
        have := congrArg (List.map fun o : Option K => o.getD 0) hte
        simpa [List.map_map, Function.comp_def] using this
      rw [e]
      exact hsort

/-- **C187 (negation).** Times with a NaN are called sorted with numba whatever comes before and after it, and not without numba. -/
theorem is_sorted_nan : ¬ ∀ a : List (Option ℚ), isSorted true a = isSorted false a := by
  intro h
  have := h [some 2, none, some 1]
  revert this
  decide +kernel

/-- **C187 (negation).** Without numba, every array of unsigned integers is called sorted. -/
theorem is_sorted_wraps : (∀ a : List Nat, isSortedUnsigned false a = true) ∧ ¬ ([3, 1] : List Nat).Pairwise (· ≤ ·) := by
  refine ⟨?_, by decide⟩
  intro a
  unfold isSortedUnsigned
  split_ifs
  · rfl
  · rw [List.all_eq_true]
    intro p _
    simp only [decide_eq_true_eq]
    exact Int.emod_nonneg _ (by norm_num)
  · rename_i h; simp at h

example : sortEvents (fun _ => [1, 2, 0]) true ([3, 1, 2] : List ℚ) [("PI", [30, 10, 20])] = .ok ([1, 2, 3], [("PI", [10, 20, 30])]) := by decide +kernel

example : ([1, 2, 0] : List Nat).Perm (List.range 3) ∧ (([1, 2, 0] : List Nat).map fun k => ([3, 1, 2] : List ℚ)[k]?.getD 0).Pairwise (· ≤ ·) := by decide +kernel

end Stingray.Sorting

import Verif.Model.Filters
import Verif.Spec.DeadTime
import Mathlib.Tactic.Linarith
import Mathlib.Tactic.Ring

/-! Helper lemmas for the dead time filters. -/

namespace Stingray.Filters

set_option linter.unusedSectionVars false

open Stingray.Spec

variable {K : Type} [Field K] [LinearOrder K] [IsStrictOrderedRing K]

theorem nonparLoop_length (p : K) (l : List (K × K)) : (nonparLoop p l).length = l.length := by
  induction l generalizing p with
  | nil => rfl
  | cons e l ih => obtain ⟨t, d⟩ := e; unfold nonparLoop; split_ifs <;> simp [ih]

theorem nonparLoop_spec (l : List (K × K)) : ∀ (p : K), l.Pairwise (fun a b => a.1 ≤ b.1) →
    ∀ (j : Nat) (e : K × K), l[j]? = some e →
    ((nonparLoop p l)[j]? = some true ↔ (p ≤ e.1 ∧ ∀ (i : Nat) (e' : K × K), i < j → l[i]? = some e' →
      (nonparLoop p l)[i]? = some true → e'.1 + e'.2 ≤ e.1)) := by
  induction l with
  | nil => intro p _ j e h; simp at h
  | cons a l ih =>
    obtain ⟨t, d⟩ := a
    intro p hs j e he
    have hp := List.pairwise_cons.1 hs
    cases j with
    | zero =>
      simp at he; subst he
      unfold nonparLoop
      split_ifs with h
      · simp [h]
      · simp [not_lt.1 h]
    | succ j =>
      have he' : l[j]? = some e := by simpa using he
      have hmem : e ∈ l := List.mem_of_getElem? he'
      have hte : t ≤ e.1 := hp.1 e hmem
      unfold nonparLoop
      split_ifs with h
      · rw [List.getElem?_cons_succ, ih p hp.2 j e he']
        refine and_congr_right fun _ => ?_
        constructor
        · intro hall i e' hi hli hmi
          cases i with
          | zero => simp at hmi
          | succ i => exact hall i e' (by omega) (by simpa using hli) (by simpa using hmi)
        · intro hall i e' hi hli hmi
          exact hall (i + 1) e' (by omega) (by simpa using hli) (by simpa using hmi)
      · rw [List.getElem?_cons_succ, ih (t + d) hp.2 j e he']
        constructor
        · rintro ⟨h1, hall⟩
          refine ⟨(not_lt.1 h).trans hte, ?_⟩
          intro i e' hi hli hmi
          cases i with
          | zero => simp at hli; subst hli; exact h1
          | succ i => exact hall i e' (by omega) (by simpa using hli) (by simpa using hmi)
        · rintro ⟨_, hall⟩
          refine ⟨hall 0 (t, d) (by omega) (by simp) (by simp), ?_⟩
          intro i e' hi hli hmi
          exact hall (i + 1) e' (by omega) (by simpa using hli) (by simpa using hmi)

theorem nonparLoop_shift (s p : K) (l : List (K × K)) :
    nonparLoop (p - s) (l.map fun e => (e.1 - s, e.2)) = nonparLoop p l := by
  induction l generalizing p with
  | nil => rfl
  | cons a l ih =>
    obtain ⟨t, d⟩ := a
    simp only [List.map_cons, nonparLoop]
    have h1 : t - s < p - s ↔ t < p := by constructor <;> intro h <;> linarith
    have h2 : t - s + d = t + d - s := by ring
    rw [h2, ih, ih]
    simp only [h1]

theorem nonparCore_shift (s : K) (l : List (K × K)) :
    nonparCore (l.map fun e => (e.1 - s, e.2)) = nonparCore l := by
  cases l with
  | nil => rfl
  | cons a l =>
    obtain ⟨t, d⟩ := a
    simp only [List.map_cons, nonparCore]
    have h2 : t - s + d = t + d - s := by ring
    rw [h2, nonparLoop_shift]

theorem nonparCore_spec (l : List (K × K)) (hs : l.Pairwise (fun a b => a.1 ≤ b.1)) :
    NonParalyzable l (nonparCore l) := by
  cases l with
  | nil => exact ⟨rfl, by intro j e h; simp at h⟩
  | cons a l =>
    obtain ⟨t, d⟩ := a
    have hp := List.pairwise_cons.1 hs
    refine ⟨by simp [nonparCore, nonparLoop_length], ?_⟩
    intro j e he
    cases j with
    | zero => simp [nonparCore]
    | succ j =>
      have he' : l[j]? = some e := by simpa using he
      simp only [nonparCore]
      rw [List.getElem?_cons_succ, nonparLoop_spec l (t + d) hp.2 j e he']
      constructor
      · rintro ⟨h1, hall⟩ i e' hi hli hmi
        cases i with
        | zero => simp at hli; subst hli; exact h1
        | succ i => exact hall i e' (by omega) (by simpa using hli) (by simpa using hmi)
      · intro hall
        refine ⟨hall 0 (t, d) (by omega) (by simp) (by simp), ?_⟩
        intro i e' hi hli hmi
        exact hall (i + 1) e' (by omega) (by simpa using hli) (by simpa using hmi)

theorem paralyzableMask_length (ev : List (K × K)) : (paralyzableMask ev).length = ev.length := by
  cases ev with
  | nil => rfl
  | cons a l => simp [paralyzableMask]

/-- what the code computes: comparison with the event just before -/
theorem paralyzableMask_get (ev : List (K × K)) (j : Nat) (a b : K × K) (ha : ev[j]? = some a)
    (hb : ev[j + 1]? = some b) :
    (paralyzableMask ev)[j + 1]? = some true ↔ a.1 + a.2 ≤ b.1 := by
  cases ev with
  | nil => simp at ha
  | cons c l =>
    unfold paralyzableMask
    rw [List.getElem?_cons_succ, List.getElem?_zipWith]
    have h2 : l[j]? = some b := by simpa using hb
    have h1 : (c :: l).dropLast[j]? = some a := by
      rw [List.getElem?_dropLast]
      have : j < (c :: l).length - 1 := by
        have := (List.getElem?_eq_some_iff.1 h2).1; simp; omega
      rw [if_pos this]; exact ha
    rw [h1, h2]
    simp

end Stingray.Filters

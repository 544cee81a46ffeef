import Verif.Model.RandomStates
import Mathlib.Data.Rat.Floor
import Mathlib.Tactic.Linarith

/-!
C184, C185: Poisson errors and random states.
-/

set_option linter.unusedSectionVars false

namespace Stingray.RandomStates

open Stingray

variable {K : Type} [Field K] [LinearOrder K] [IsStrictOrderedRing K] [FloorRing K]

theorem le_foldl_max (l : List Nat) (i : Nat) : i ≤ l.foldl max i ∧ ∀ x ∈ l, x ≤ l.foldl max i := by
  induction l generalizing i with
  | nil => simp
  | cons y l ih =>
    obtain ⟨h1, h2⟩ := ih (max i y)
    refine ⟨le_trans (le_max_left _ _) h1, ?_⟩
    intro x hx
    rcases List.mem_cons.1 hx with rfl | hx
    · exact le_trans (le_max_right _ _) h1
    · exact h2 x hx

theorem filter_range_at (N c : Nat) (P : Nat → Bool) (hc : c < N) (hP : P c = true) :
    ((List.range N).filter P)[((List.range N).filter P).countP (· < c)]? = some c := by
  have hsplit : List.range N = List.range c ++ c :: (List.range (N - c - 1)).map (c + 1 + ·) := by
    conv_lhs => rw [show N = c + ((N - c - 1) + 1) by omega, List.range_add]
    rw [List.range_succ_eq_map, List.map_cons, List.map_map]
    congr 2
    apply List.map_congr_left
    intro k _
    simp only [Function.comp]
    omega
  have h1 : ((List.range c).filter P).countP (fun x => decide (x < c)) = ((List.range c).filter P).length := by
    rw [List.countP_eq_length]
    intro x hx
    have := List.mem_range.1 (List.mem_filter.1 hx).1
    simpa using this
  have h2 : (((List.range (N - c - 1)).map (c + 1 + ·)).filter P).countP (fun x => decide (x < c)) = 0 := by
    rw [List.countP_eq_zero]
    intro x hx
    obtain ⟨k, _, rfl⟩ := List.mem_map.1 (List.mem_filter.1 hx).1
    simp
    omega
  rw [hsplit, List.filter_append, List.filter_cons, if_pos hP, List.countP_append, List.countP_cons, h1, h2]
  simp

/-- **C184.** The error of each bin is half of the width of the confidence interval for its counts (the mean of the distances of its ends from the counts), whatever the other bins; negative counts, and only these, are refused. Numbers are truncated towards zero before. -/
theorem poisson_errors_spec (conf : Nat → K × K) (counts : List K) :
    ((∀ c ∈ counts, -1 < c) → poissonErrors conf counts = .ok (counts.map fun c => (|(conf ⌊c⌋.toNat).1 - ⌊c⌋.toNat| + |(conf ⌊c⌋.toNat).2 - ⌊c⌋.toNat|) / 2)) ∧
    ((∃ c ∈ counts, c ≤ -1) → poissonErrors conf counts = .error .valueError) := by
  have hneg : ∀ c : K, toInt c < 0 ↔ c ≤ -1 := by
    intro c
    unfold toInt
    split_ifs with h
    · constructor
      · intro h'
        have := Int.floor_nonneg.2 h
        omega
      · intro h'
        linarith
    · rw [show ((⌈c⌉ : Int) < 0) ↔ ⌈c⌉ ≤ -1 by omega, Int.ceil_le]
      push_cast
      rfl
  constructor
  · intro hpos
    have hany : (counts.map toInt).any (· < 0) = false := by
      rw [List.any_eq_false]
      intro x hx
      obtain ⟨c, hc, rfl⟩ := List.mem_map.1 hx
      have := mt (hneg c).1 (not_le.2 (hpos c hc))
      simpa using this
    have htn : ∀ c ∈ counts, (toInt c).toNat = ⌊c⌋.toNat := by
      intro c hc
      unfold toInt
      split_ifs with h
      · rfl
      · have h1 : ⌈c⌉ ≤ 0 := Int.ceil_le.2 (by push_cast; linarith)
        have h2 : ⌊c⌋ ≤ 0 := by
          have : ⌊c⌋ < 1 := Int.floor_lt.2 (by push_cast; linarith)
          omega
        rw [Int.toNat_of_nonpos h1, Int.toNat_of_nonpos h2]
    unfold poissonErrors bincount
    rw [hany]
    simp only [Bool.false_eq_true, if_false]
    set N := ((counts.map toInt).map fun c => c.toNat + 1).foldl max 0 with hN
    set b := (List.range N).map fun (k : Nat) => (counts.map toInt).count (k : Int) with hb
    have hlen : b.length = N := by simp [hb]
    have key : ∀ x ∈ counts.map toInt, pick ((nonzero b).map fun (n : Nat) => (|(conf n).1 - n| + |(conf n).2 - n|) / 2) (searchsorted (nonzero b) x.toNat) = .ok ((|(conf x.toNat).1 - x.toNat| + |(conf x.toNat).2 - x.toNat|) / 2) := by
      intro x hx
      have hx0 : 0 ≤ x := by
        have := List.any_eq_false.1 hany x hx
        simpa using this
      have hxN : x.toNat < N := (le_foldl_max _ 0).2 (x.toNat + 1) (List.mem_map.2 ⟨x, hx, rfl⟩)
      have hat := filter_range_at b.length x.toNat (fun k => decide (b.getD k 0 ≠ 0)) (by rw [hlen]; exact hxN) (by
        have e : b.getD x.toNat 0 = (counts.map toInt).count x := by
          rw [hb, List.getD_eq_getElem?_getD, List.getElem?_map, List.getElem?_range hxN, Option.map_some, Option.getD_some, Int.toNat_of_nonneg hx0]
        rw [e]
        simpa using (List.count_pos_iff.2 hx).ne')
      have hnz : nonzero b = (List.range b.length).filter fun k => decide (b.getD k 0 ≠ 0) := rfl
      rw [pick, List.getElem?_map, searchsorted, hnz, hat]
      rfl
    have hmap : ∀ l : List Int, (∀ x ∈ l, x ∈ counts.map toInt) → l.mapM (fun c => pick ((nonzero b).map fun (n : Nat) => (|(conf n).1 - n| + |(conf n).2 - n|) / 2) (searchsorted (nonzero b) c.toNat)) = .ok (l.map fun x => (|(conf x.toNat).1 - x.toNat| + |(conf x.toNat).2 - x.toNat|) / 2) := by
      intro l
      induction l with
      | nil => intro _; rfl
      | cons x l ih =>
        intro hl
        rw [List.mapM_cons, key x (hl x (by simp)), ih fun y hy => hl y (by simp [hy])]
        rfl
    rw [hmap _ fun x hx => hx, List.map_map]
    congr 1
    apply List.map_congr_left
    intro c hc
    simp only [Function.comp, htn c hc]
  · rintro ⟨c, hc, hle⟩
    have hany : (counts.map toInt).any (· < 0) = true := by
      rw [List.any_eq_true]
      exact ⟨toInt c, List.mem_map.2 ⟨c, hc, rfl⟩, by simpa using (hneg c).2 hle⟩
    unfold poissonErrors bincount
    rw [hany]
    rfl

/-- **C184 (negation).** The errors do not increase with the counts: those of counts that are not whole numbers are those of the whole number below. -/
theorem poisson_errors_fractions : ¬ ∀ (conf : Nat → ℚ × ℚ) (a b ea eb : ℚ), 0 ≤ a → a < b →
    (∀ m n : Nat, m < n → |(conf m).1 - m| + |(conf m).2 - m| < |(conf n).1 - n| + |(conf n).2 - n|) → poissonErrors conf [a, b] = .ok [ea, eb] → ea < eb := by
  intro h
  have := h (fun n => (0, 2 * n)) 2 (29 / 10) 2 2 (by norm_num) (by norm_num) (by
    intro m n hmn
    have hmn' : (m : ℚ) < n := by exact_mod_cast hmn
    have hm : (0 : ℚ) ≤ m := Nat.cast_nonneg m
    have hn : (0 : ℚ) ≤ n := Nat.cast_nonneg n
    have e : ∀ x : ℚ, 0 ≤ x → |0 - x| + |2 * x - x| = 2 * x := by
      intro x hx
      rw [zero_sub, abs_neg, two_mul, add_sub_cancel_right, abs_of_nonneg hx]
    rw [e _ hm, e _ hn]
    linarith) (by
      rw [(poisson_errors_spec _ _).1 (by intro c hc; simp at hc; rcases hc with rfl | rfl <;> norm_num)]
      have f1 : ⌊(2 : ℚ)⌋ = 2 := by norm_num
      have f2 : ⌊(29 / 10 : ℚ)⌋ = 2 := by norm_num [Int.floor_eq_iff]
      simp only [List.map_cons, List.map_nil, f1, f2]
      have f3 : Int.toNat 2 = 2 := rfl
      rw [f3]
      norm_num)
  norm_num at this

example : poissonErrors (fun n => ((n : ℚ) / 2, 2 * n + 1)) [7, 0, 3, 7] = .ok [23 / 4, 1 / 2, 11 / 4, 23 / 4] := by decide +kernel

/-- **C185.** A seed from 1 to `2 ^ 32 - 1` gives a new generator with this seed, a random state itself and nothing the global generator; other seeds but 0, and other (true) objects, are refused. -/
theorem random_state_spec (n : Int) (s : Nat) :
    (0 < n ∧ n < 2 ^ 32 → getRandomState (.int n) = .ok (.seeded n)) ∧ (n < 0 ∨ 2 ^ 32 ≤ n → getRandomState (.int n) = .error .valueError) ∧
    getRandomState (.state s) = .ok (.given s) ∧ getRandomState .nothing = .ok .global ∧ getRandomState (.other true) = .error .valueError := by
  refine ⟨?_, ?_, rfl, rfl, rfl⟩
  · rintro ⟨h1, h2⟩
    have hf : isFalse (.int n) = false := by simpa [isFalse] using h1.ne'
    unfold getRandomState
    rw [hf]
    have hc : 0 ≤ n ∧ n < 2 ^ 32 := ⟨h1.le, h2⟩
    simp only [Bool.false_eq_true, if_false]
    rw [if_pos hc]
  · intro h
    have hf : isFalse (.int n) = false := by
      have : n ≠ 0 := by rcases h with h | h <;> omega
      simpa [isFalse] using this
    unfold getRandomState
    rw [hf]
    have hc : ¬ (0 ≤ n ∧ n < 2 ^ 32) := by rintro ⟨a, b⟩; rcases h with h | h <;> omega
    simp only [Bool.false_eq_true, if_false]
    rw [if_neg hc]

/-- **C185 (negation).** A seed does not always determine the random numbers: with the seed 0 the global generator is used, as without a seed. -/
theorem random_state_zero : ¬ ∀ n : Int, 0 ≤ n → n < 2 ^ 32 → getRandomState (.int n) = .ok (.seeded n) := by
  intro h
  have := h 0 (by norm_num) (by norm_num)
  revert this
  decide

example : getRandomState (.int 4294967295) = .ok (.seeded 4294967295) := by decide +kernel

end Stingray.RandomStates

import Verif.Model.UtilsMisc
import Verif.Lemmas.GtiSegments
import Mathlib.Algebra.Order.Ring.Rat
import Mathlib.Tactic.Linarith
import Mathlib.Tactic.NormNum
import Mathlib.Tactic.Ring
import Mathlib.Tactic.IntervalCases

/-! # Properties of small helpers -/

namespace Stingray.UtilsMisc

set_option linter.unusedSectionVars false

/-- **C24 (negation).** `nearest_power_of_two(2^k + 2)` is `2^(k+1)`, although `2^k` is only 2 away; for every
`k ≥ 3`.  E.g. `nearest_power_of_two(10) = 16`. -/
theorem nearest_power_of_two_wrong (k : Nat) (hk : 3 ≤ k) :
    nearestPowerOfTwo (2 ^ k + 2) = 2 ^ (k + 1) ∧
      |(2 ^ k + 2 : Int) - 2 ^ k| < |(2 ^ k + 2 : Int) - 2 ^ (k + 1)| := by
  have h8 : (8 : Int) ≤ 2 ^ k := by
    calc (8 : Int) = 2 ^ 3 := by norm_num
    _ ≤ 2 ^ k := pow_le_pow_right₀ (by norm_num) hk
  have hpow : (2 : Int) ^ (k + 1) = 2 * 2 ^ k := by rw [pow_succ]; ring
  have hN : (8 : Nat) ≤ 2 ^ k := by exact_mod_cast h8
  have hsz : ∀ m : Nat, 2 ^ k ≤ m → m < 2 ^ (k + 1) → Nat.size m = k + 1 := by
    intro m h1 h2
    apply le_antisymm
    · exact Nat.size_le.2 h2
    · exact Nat.succ_le_of_lt (Nat.lt_size.2 h1)
  have hpN : (2 : Nat) ^ (k + 1) = 2 * 2 ^ k := by rw [pow_succ]; ring
  have b1 : bitLength ((2 ^ k + 2 : Int) - 2) = k + 1 := by
    unfold bitLength
    rw [show ((2 ^ k + 2 : Int) - 2).natAbs = 2 ^ k by
      have : ((2 ^ k + 2 : Int) - 2) = ((2 ^ k : Nat) : Int) := by push_cast; ring
      rw [this]; exact Int.natAbs_natCast _]
    exact hsz _ le_rfl (by rw [hpN]; omega)
  have b2 : bitLength ((2 ^ k + 2 : Int) - 1) = k + 1 := by
    unfold bitLength
    rw [show ((2 ^ k + 2 : Int) - 1).natAbs = 2 ^ k + 1 by
      have : ((2 ^ k + 2 : Int) - 1) = ((2 ^ k + 1 : Nat) : Int) := by push_cast; ring
      rw [this]; exact Int.natAbs_natCast _]
    exact hsz _ (by omega) (by rw [hpN]; omega)
  constructor
  · unfold nearestPowerOfTwo
    simp only [b1, b2, if_neg (show (2 ^ k + 2 : Int) ≠ 0 by omega)]
    split_ifs <;> rfl
  · rw [show (2 ^ k + 2 : Int) - 2 ^ k = 2 by ring, hpow,
      show (2 ^ k + 2 : Int) - 2 * 2 ^ k = -(2 ^ k - 2) by ring, abs_neg, abs_of_pos (by norm_num),
      abs_of_nonneg (by omega)]
    omega

/-- **C24 (negation).** `nearest_power_of_two(1)` is 2. -/
theorem nearest_power_of_two_one : nearestPowerOfTwo 1 = 2 := by decide +kernel

/-- **C24.** What does hold: the result is a power of two, it is never more than twice `x`, and it is a nearest
one whenever `x` is a power of two, or one more than a power of two, or not below the midpoint
`3 * 2^m / 2` of its octave `2^m < x ≤ 2^(m+1)`.  Missing: the lower half of each octave. -/
theorem nearest_power_of_two_partial (x : Int) (m : Nat) (h1 : 2 ^ m < x) (h2 : x ≤ 2 ^ (m + 1)) :
    (∃ k : Nat, nearestPowerOfTwo x = 2 ^ k) ∧ nearestPowerOfTwo x < 2 * x ∧
      ((x = 2 ^ m + 1 ∨ 3 * 2 ^ m ≤ 2 * x) → ∀ j : Nat, |x - nearestPowerOfTwo x| ≤ |x - 2 ^ j|) := by
  have hpow : (2 : Int) ^ (m + 1) = 2 * 2 ^ m := by rw [pow_succ]; ring
  have hp1 : (1 : Int) ≤ 2 ^ m := one_le_pow₀ (by norm_num)
  have hpN : (2 : Nat) ^ (m + 1) = 2 * 2 ^ m := by rw [pow_succ]; ring
  have hpc : ((2 ^ m : Nat) : Int) = 2 ^ m := by push_cast; ring
  have hx0 : x ≠ 0 := by omega
  have hu : bitLength (x - 1) = m + 1 := by
    unfold bitLength
    apply le_antisymm
    · exact Nat.size_le.2 (by rw [hpN]; omega)
    · exact Nat.succ_le_of_lt (Nat.lt_size.2 (by omega))
  have hval : nearestPowerOfTwo x = if x = 2 ^ m + 1 ∧ 1 < m then 2 ^ m else 2 ^ (m + 1) := by
    unfold nearestPowerOfTwo
    simp only [hu, if_neg hx0]
    by_cases hx : x = 2 ^ m + 1
    · have hl : bitLength (x - 2) = m := by
        unfold bitLength
        rcases Nat.eq_zero_or_pos m with h0 | h0
        · subst h0; rw [hx]; rfl
        · apply le_antisymm
          · exact Nat.size_le.2 (by omega)
          · have : m = (m - 1) + 1 := by omega
            rw [this]
            apply Nat.succ_le_of_lt
            apply Nat.lt_size.2
            have h3 : (2 : Nat) ^ m = 2 * 2 ^ (m - 1) := by
              conv_lhs => rw [this]
              rw [pow_succ]; ring
            have h4 : 1 ≤ 2 ^ (m - 1) := Nat.one_le_two_pow
            omega
      rw [hl]
      rcases Nat.lt_or_ge 1 m with h0 | h0
      swap
      · interval_cases m <;> rw [hx] <;> decide
      · have h4 : (4 : Int) ≤ 2 ^ m := by
          calc (4 : Int) = 2 ^ 2 := by norm_num
          _ ≤ 2 ^ m := pow_le_pow_right₀ (by norm_num) h0
        rw [if_pos (show x = 2 ^ m + 1 ∧ 1 < m from ⟨hx, h0⟩)]
        split_ifs with hc
        · rfl
        · omega
    · have hl : bitLength (x - 2) = m + 1 := by
        unfold bitLength
        apply le_antisymm
        · exact Nat.size_le.2 (by rw [hpN]; omega)
        · exact Nat.succ_le_of_lt (Nat.lt_size.2 (by omega))
      rw [hl, if_neg (show ¬ (x = 2 ^ m + 1 ∧ 1 < m) from fun h => hx h.1)]
      split_ifs <;> rfl
  have hj : ∀ j : Nat, (2 : Int) ^ j ≤ 2 ^ m ∨ (2 : Int) ^ (m + 1) ≤ 2 ^ j := by
    intro j
    rcases Nat.lt_or_ge m j with h | h
    · right; exact pow_le_pow_right₀ (by norm_num) h
    · left; exact pow_le_pow_right₀ (by norm_num) h
  have hj1 : ∀ j : Nat, (1 : Int) ≤ 2 ^ j := fun j => one_le_pow₀ (by norm_num)
  rw [hval]
  split_ifs with hc
  · refine ⟨⟨m, rfl⟩, by omega, ?_⟩
    intro _ j
    have h4 : (2 : Int) ≤ 2 ^ m := by
      calc (2 : Int) = 2 ^ 1 := by norm_num
      _ ≤ 2 ^ m := pow_le_pow_right₀ (by norm_num) (by omega)
    rw [hc.1, show (2 ^ m + 1 : Int) - 2 ^ m = 1 by ring, abs_one]
    apply Int.one_le_abs
    have := hj j
    omega
  · refine ⟨⟨m + 1, rfl⟩, by omega, ?_⟩
    intro h j
    rw [abs_sub_comm, abs_of_nonneg (by omega)]
    rcases hj j with h5 | h5
    · rw [abs_of_nonneg (by omega)]
      rcases h with h | h
      · have hm1 : m ≤ 1 := by by_contra hne; exact hc ⟨h, by omega⟩
        have := hj1 j
        interval_cases m <;> omega
      · omega
    · rw [abs_sub_comm, abs_of_nonneg (by omega)]; omega

example : (2 : Int) ^ 2 < 7 ∧ (7 : Int) ≤ 2 ^ (2 + 1) ∧ 3 * 2 ^ 2 ≤ 2 * (7 : Int) := by decide
example : nearestPowerOfTwo 7 = 8 ∧ nearestPowerOfTwo 9 = 8 ∧ nearestPowerOfTwo 10 = 16 := by decide +kernel

section
variable {K : Type} [Field K] [LinearOrder K] [IsStrictOrderedRing K]

theorem lt_searchsortedRight_iff (l : List K) (hs : l.Pairwise (· ≤ ·)) (v : K) (i : Nat) (t : K)
    (ht : l[i]? = some t) : i < searchsortedRight l v ↔ t ≤ v := by
  induction l generalizing i with
  | nil => simp at ht
  | cons a l ih =>
    obtain ⟨h1, h2⟩ := List.pairwise_cons.1 hs
    unfold searchsortedRight at ih ⊢
    by_cases hav : a ≤ v
    · rw [List.filter_cons_of_pos (by simpa using hav)]
      cases i with
      | zero => simp only [List.getElem?_cons_zero, Option.some.injEq] at ht; simp [← ht, hav]
      | succ i =>
        rw [List.getElem?_cons_succ] at ht
        rw [← ih h2 i ht]; simp
    · have hnil : (a :: l).filter (fun x => decide (x ≤ v)) = [] := by
        rw [List.filter_eq_nil_iff]
        intro b hb
        simp only [decide_eq_true_eq, not_le]
        rcases List.mem_cons.1 hb with h | h
        · rw [h]; exact not_le.1 hav
        · exact lt_of_lt_of_le (not_le.1 hav) (h1 b h)
      rw [hnil]
      have hta : a ≤ t := by
        rcases List.mem_cons.1 (List.mem_of_getElem? ht) with h | h
        · rw [h]
        · exact h1 t h
      simp only [List.length_nil, not_lt_zero, false_iff, not_le]
      exact lt_of_lt_of_le (not_le.1 hav) hta

theorem searchsorted_split (side : Side) (l : List K) (hs : l.Pairwise (· ≤ ·)) (v : K) (i : Nat) (t : K)
    (ht : l[i]? = some t) : (i < searchsorted side l v → t ≤ v) ∧ (searchsorted side l v ≤ i → v ≤ t) := by
  cases side with
  | left =>
    have := Gti.lt_searchsortedLeft_iff l hs v i t ht
    simp only [searchsorted]
    exact ⟨fun h => (this.1 h).le, fun h => not_lt.1 (fun h' => absurd (this.2 h') (by omega))⟩
  | right =>
    have := lt_searchsortedRight_iff l hs v i t ht
    simp only [searchsorted]
    exact ⟨fun h => this.1 h, fun h => (not_le.1 (fun h' => absurd (this.2 h') (by omega))).le⟩

theorem searchsorted_le (side : Side) (l : List K) (v : K) : searchsorted side l v ≤ l.length := by
  cases side <;> exact List.length_filter_le _ _

theorem pyGet_nat (l : List K) (i : Nat) (t : K) (h : l[i]? = some t) : pyGet l (i : Int) = .ok t := by
  unfold pyGet
  simp only [show ¬ ((i : Int) < 0) by omega, if_false, Int.toNat_natCast, h]
  rw [if_pos (by omega)]

theorem pyGet_neg_one (l : List K) (t : K) (h : l[l.length - 1]? = some t) : pyGet l (-1) = .ok t := by
  have hlt : l.length - 1 < l.length := (List.getElem?_eq_some_iff.1 h).1
  unfold pyGet
  have e : (-1 + (l.length : Int)).toNat = l.length - 1 := by omega
  simp only [show (-1 : Int) < 0 by omega, if_true, e, h]
  rw [if_pos (by omega)]

/-- **C25.** For a sorted non-empty array, `find_nearest` succeeds for either `side` and returns an element of the
array together with its (non-negative) index, and no element is closer to the value. -/
theorem find_nearest_min (array : List K) (hs : array.Pairwise (· ≤ ·)) (hne : array ≠ []) (value : K)
    (side : Side) :
    ∃ (i : Nat) (v : K), findNearest array value side = .ok (v, (i : Int)) ∧ array[i]? = some v ∧
      ∀ w ∈ array, |value - v| ≤ |value - w| := by
  have hlen : 0 < array.length := List.length_pos_iff.2 hne
  have hle := searchsorted_le side array value
  have hsp := searchsorted_split side array hs value
  generalize hidx : searchsorted side array value = idx at hle hsp
  have hsort : ∀ (i j : Nat) (a b : K), array[i]? = some a → array[j]? = some b → i ≤ j → a ≤ b := by
    intro i j a b ha hb hij
    obtain ⟨hi, ha⟩ := List.getElem?_eq_some_iff.1 ha
    obtain ⟨hj, hb⟩ := List.getElem?_eq_some_iff.1 hb
    rcases Nat.eq_or_lt_of_le hij with h | h
    · subst h; rw [← ha, ← hb]
    · rw [← ha, ← hb]; exact List.pairwise_iff_getElem.1 hs i j hi hj h
  unfold findNearest
  simp only [hidx]
  by_cases h1 : idx = array.length
  · rw [if_pos h1]
    have hg : array[idx - 1]? = some array[idx - 1] := List.getElem?_eq_getElem (by omega)
    have hi : ((idx : Int) - 1) = ((idx - 1 : Nat) : Int) := by omega
    refine ⟨idx - 1, array[idx - 1], ?_, hg, ?_⟩
    · rw [hi, pyGet_nat array _ _ hg]; rfl
    · intro w hw
      obtain ⟨j, hj⟩ := List.mem_iff_getElem?.1 hw
      have hjl : j < array.length := (List.getElem?_eq_some_iff.1 hj).1
      have h2 := (hsp j w hj).1 (by omega)
      have h3 := (hsp _ _ hg).1 (by omega)
      have h4 := hsort j (idx - 1) _ _ hj hg (by omega)
      rw [abs_of_nonneg (by linarith), abs_of_nonneg (by linarith)]; linarith
  · rw [if_neg h1]
    have hlt : idx < array.length := by omega
    have hq : array[idx]? = some array[idx] := List.getElem?_eq_getElem hlt
    have hvq := (hsp _ _ hq).2 le_rfl
    rcases Nat.eq_zero_or_pos idx with h0 | h0
    · subst h0
      have hl : array[array.length - 1]? = some array[array.length - 1] := List.getElem?_eq_getElem (by omega)
      have h5 := hsort 0 (array.length - 1) _ _ hq hl (by omega)
      refine ⟨0, array[0], ?_, hq, ?_⟩
      · rw [show ((0 : Nat) : Int) - 1 = -1 by omega, pyGet_neg_one array _ hl, pyGet_nat array 0 _ hq]
        simp only [bind, Except.bind]
        rw [if_neg]
        · rfl
        · rw [abs_of_nonpos (by linarith), abs_of_nonpos (by linarith)]; linarith
      · intro w hw
        obtain ⟨j, hj⟩ := List.mem_iff_getElem?.1 hw
        have h6 := hsort 0 j _ _ hq hj (by omega)
        rw [abs_of_nonpos (by linarith), abs_of_nonpos (by linarith)]; linarith
    · have hg : array[idx - 1]? = some array[idx - 1] := List.getElem?_eq_getElem (by omega)
      have hi : ((idx : Int) - 1) = ((idx - 1 : Nat) : Int) := by omega
      have hvp := (hsp _ _ hg).1 (by omega)
      rw [hi, pyGet_nat array _ _ hg, pyGet_nat array _ _ hq]
      simp only [bind, Except.bind]
      have hw' : ∀ w ∈ array, w ≤ array[idx - 1] ∨ array[idx] ≤ w := by
        intro w hw
        obtain ⟨j, hj⟩ := List.mem_iff_getElem?.1 hw
        rcases Nat.lt_or_ge j idx with h | h
        · left; exact hsort _ _ _ _ hj hg (by omega)
        · right; exact hsort _ _ _ _ hq hj h
      split_ifs with hc
      · refine ⟨idx - 1, _, rfl, hg, ?_⟩
        intro w hw
        rw [abs_of_nonneg (by linarith)] at hc ⊢
        rw [abs_of_nonpos (by linarith)] at hc
        rcases hw' w hw with h | h
        · rw [abs_of_nonneg (by linarith)]; linarith
        · rw [abs_of_nonpos (by linarith)]; linarith
      · refine ⟨idx, _, rfl, hq, ?_⟩
        intro w hw
        rw [not_lt, abs_of_nonneg (show 0 ≤ value - array[idx - 1] by linarith)] at hc
        rcases hw' w hw with h | h
        · rw [abs_of_nonneg (show 0 ≤ value - w by linarith)]; linarith
        · rw [abs_of_nonpos (by linarith), abs_of_nonpos (by linarith)]; linarith

/-- **C25.** An empty array is an error. -/
theorem find_nearest_empty (value : K) (side : Side) :
    findNearest ([] : List K) value side = .error .indexError := by
  cases side <;> rfl

end

example : findNearest (K := ℚ) [1, 2, 4, 8] (29 / 10) .left = .ok (2, 1) := by decide +kernel
example : ([1, 2, 4, 8] : List ℚ).Pairwise (· ≤ ·) := by decide +kernel

/-! ### Columns -/

section
variable {α : Type} [Inhabited α]

theorem colKey_lt_ten : ∀ i : Fin 10, colKey i = [48 + i.1] := by decide +kernel

/-- **C26.** The round trip through columns gives the array back, for at most ten columns. -/
theorem columns_round_trip_partial (n : Nat) (a : List (List α)) (h0 : 0 < n) (h10 : n ≤ 10)
    (hrow : ∀ row ∈ a, row.length = n) : joinColumns (splitColumns n a) = .ok a := by
  have hkey : ∀ i, i < n → colKey i = [48 + i] := fun i hi => colKey_lt_ten ⟨i, by omega⟩
  have hsplit : splitColumns n a = (List.range n).map fun i => ([48 + i], a.map fun row => row.getD i default) := by
    unfold splitColumns
    apply List.map_congr_left
    intro i hi
    rw [hkey i (List.mem_range.1 hi)]
  have hne : (splitColumns n a).isEmpty = false := by
    rw [hsplit]; cases n with
    | zero => omega
    | succ n => simp [List.range_succ_eq_map]
  have hkeys : (splitColumns n a).map Prod.fst = (List.range n).map fun i => [48 + i] := by
    rw [hsplit, List.map_map]; rfl
  have hsorted : (((List.range n).map fun i => [48 + i]).insertionSort (fun a b => lexLe a b = true)) =
      (List.range n).map fun i => [48 + i] := by
    apply List.Pairwise.insertionSort_eq
    rw [List.pairwise_map]
    refine List.Pairwise.imp ?_ List.pairwise_lt_range
    intro i j hij
    simp [lexLe, hij]
  have hlook : ∀ i ∈ List.range n, (splitColumns n a).lookup [48 + i] = some (a.map fun row => row.getD i default) := by
    intro i hi
    rw [hsplit]
    generalize List.range n = l at hi
    induction l with
    | nil => simp at hi
    | cons b l ih =>
      rw [List.map_cons, List.lookup_cons]
      by_cases hib : i = b
      · subst hib; simp
      · have : ([48 + i] == [48 + b]) = false := by simp [hib]
        rw [this]
        simp only
        exact ih (by rcases List.mem_cons.1 hi with h | h; exact absurd h hib; exact h)
  have hmap : (((List.range n).map fun i => [48 + i]).mapM (colGet (splitColumns n a))) =
      .ok ((List.range n).map fun i => a.map fun row => row.getD i default) := by
    rw [List.mapM_map]
    have : ∀ l : List Nat, (∀ i ∈ l, i ∈ List.range n) →
        (l.mapM (colGet (splitColumns n a) ∘ fun i => [48 + i])) =
        .ok (l.map fun i => a.map fun row => row.getD i default) := by
      intro l
      induction l with
      | nil => intro _; rfl
      | cons i l ih =>
        intro hl
        rw [List.mapM_cons, ih (fun j hj => hl j (by simp [hj]))]
        simp only [Function.comp, colGet, hlook i (hl i (by simp))]
        rfl
    exact this _ (fun _ h => h)
  unfold joinColumns
  simp only [hne, hkeys, hsorted, Bool.false_eq_true, if_false, bind, Except.bind, pure, Except.pure]
  rw [hmap]
  simp only
  congr 1
  have hhead : (((List.range n).map fun i => a.map fun row => row.getD i default).headD []).length = a.length := by
    cases n with
    | zero => omega
    | succ n => simp [List.range_succ_eq_map]
  rw [hhead]
  apply List.ext_getElem?
  intro r
  rcases Nat.lt_or_ge r a.length with hr | hr
  · rw [List.getElem?_map, List.getElem?_range hr, List.getElem?_eq_getElem hr]
    simp only [Option.map_some, List.map_map, Option.some.injEq]
    have hrl := hrow _ (List.getElem_mem hr)
    apply List.ext_getElem
    · simp [hrl]
    · intro i h1 h2
      simp [List.getElem?_eq_getElem hr]
      rw [List.getElem?_eq_getElem h2]; rfl
  · rw [List.getElem?_eq_none (by simpa using hr), List.getElem?_eq_none hr]

end

/-- **C26 (negation).** With eleven columns the round trip permutes the columns: the eleventh comes back third. -/
theorem columns_round_trip_wrong :
    joinColumns (splitColumns 11 [[0, 1, 2, 3, 4, 5, 6, 7, 8, 9, 10]]) =
      .ok [[0, 1, 10, 2, 3, 4, 5, 6, 7, 8, 9]] := by decide +kernel

/-- **C26 (negation).** An array with no columns cannot be put back together. -/
theorem columns_round_trip_empty (a : List (List Nat)) :
    joinColumns (splitColumns 0 a) = .error .typeError := rfl

example : joinColumns (splitColumns 3 [[1, 2, 3], [4, 5, 6]]) = .ok [[1, 2, 3], [4, 5, 6]] := by decide +kernel

end Stingray.UtilsMisc

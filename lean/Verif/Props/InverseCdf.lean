import Verif.Model.InverseCdf
import Verif.Lemmas.GtiSegments
import Mathlib.Algebra.BigOperators.Group.List.Basic
import Mathlib.Algebra.Order.BigOperators.Group.List
import Mathlib.Tactic.FieldSimp
import Mathlib.Tactic.Linarith
import Mathlib.Tactic.NormNum
import Mathlib.Tactic.Ring
import Mathlib.Tactic.Positivity
import Mathlib.Algebra.Order.Ring.Rat

/-!
Events simulated from a binned distribution (C174).
-/

set_option linter.unusedSectionVars false

namespace Stingray.InverseCdf

open Stingray Stingray.Gti

variable {K : Type} [Field K] [LinearOrder K] [IsStrictOrderedRing K]

/-- Specification: the fraction of the distribution below the bin `k`. -/
def below (pdf : List K) (k : Nat) : K := (pdf.take k).sum / pdf.sum

theorem cumsum_eq (l : List K) : ∀ acc : K, cumsum acc l = (List.range l.length).map fun k => acc + (l.take (k + 1)).sum := by
  induction l with
  | nil => intro acc; rfl
  | cons x l ih =>
    intro acc
    rw [cumsum, ih, List.length_cons, List.range_succ_eq_map, List.map_cons, List.map_map]
    congr 1
    · simp
    · refine List.map_congr_left fun k _ => ?_
      simp [add_assoc]

theorem cdf_eq (pdf : List K) : cdf pdf = (List.range (pdf.length + 1)).map (below pdf) := by
  have hc : cumsum 0 (0 :: pdf) = (List.range (pdf.length + 1)).map fun k => (pdf.take k).sum := by
    rw [cumsum_eq, List.length_cons]
    refine List.map_congr_left fun k _ => ?_
    simp
  unfold cdf
  simp only
  rw [hc, List.map_map]
  have hl : ((List.range (pdf.length + 1)).map fun k => (pdf.take k).sum).getLastD 0 = pdf.sum := by
    rw [List.range_succ, List.map_append]
    simp
  rw [hl]
  rfl

theorem cdf_get (pdf : List K) (k : Nat) (hk : k ≤ pdf.length) : (cdf pdf)[k]? = some (below pdf k) := by
  rw [cdf_eq, List.getElem?_map, List.getElem?_range (by omega)]
  rfl

theorem take_sum_mono (pdf : List K) (h0 : ∀ p ∈ pdf, 0 ≤ p) (i j : Nat) (h : i ≤ j) : (pdf.take i).sum ≤ (pdf.take j).sum := by
  obtain ⟨d, rfl⟩ := Nat.exists_eq_add_of_le h
  rw [List.take_add, List.sum_append]
  have : 0 ≤ ((pdf.drop i).take d).sum := List.sum_nonneg fun x hx => h0 x (List.mem_of_mem_drop (List.mem_of_mem_take hx))
  linarith

theorem below_mono (pdf : List K) (h0 : ∀ p ∈ pdf, 0 ≤ p) (hT : 0 < pdf.sum) (i j : Nat) (h : i ≤ j) : below pdf i ≤ below pdf j :=
  div_le_div_of_nonneg_right (take_sum_mono pdf h0 i j h) hT.le

theorem below_zero (pdf : List K) : below pdf 0 = 0 := by simp [below]

theorem below_last (pdf : List K) (hT : 0 < pdf.sum) : below pdf pdf.length = 1 := by
  simp [below, hT.ne']

theorem interp_spec : ∀ (k : Nat) (xs ys : List K) (hx : xs.Pairwise (· ≤ ·)) (u x0 x1 y0 y1 : K), xs[k]? = some x0 → xs[k + 1]? = some x1 → ys[k]? = some y0 → ys[k + 1]? = some y1 →
    x0 ≤ u → u < x1 → interp xs ys u = (y1 - y0) / (x1 - x0) * (u - x0) + y0 := by
  intro k
  induction k with
  | zero =>
    intro xs ys hx u x0 x1 y0 y1 h1 h2 h3 h4 h5 h6
    match xs, ys, h1, h2, h3, h4 with
    | a :: b :: xs, c :: d :: ys, h1, h2, h3, h4 =>
      simp only [List.getElem?_cons_zero, List.getElem?_cons_succ, Option.some.injEq] at h1 h2 h3 h4
      subst h1 h2 h3 h4
      rw [interp, if_pos h6]
  | succ k ih =>
    intro xs ys hx u x0 x1 y0 y1 h1 h2 h3 h4 h5 h6
    match xs, ys, hx, h1, h2, h3, h4 with
    | a :: b :: xs, c :: d :: ys, hx, h1, h2, h3, h4 =>
      simp only [List.getElem?_cons_succ] at h1 h2 h3 h4
      have hb : b ≤ x0 := by
        have h1' : (b :: xs)[k]? = some x0 := h1
        rcases List.mem_cons.1 (List.mem_of_getElem? h1') with h | h
        · exact h.ge
        · exact (List.pairwise_cons.1 (List.pairwise_cons.1 hx).2).1 x0 h
      rw [interp, if_neg (not_lt.2 (hb.trans h5))]
      exact ih (b :: xs) (d :: ys) (List.pairwise_cons.1 hx).2 u x0 x1 y0 y1 h1 h2 h3 h4 h5 h6
    | [a], _, _, _, h2, _, _ => simp at h2
    | [], _, _, h1, _, _, _ => simp at h1
    | a :: b :: xs, [c], _, _, _, _, h4 => simp at h4
    | a :: b :: xs, [], _, _, _, h3, _ => simp at h3

theorem exists_bin (f : Nat → K) (u : K) : ∀ n : Nat, f 0 ≤ u → u < f n → ∃ k < n, f k ≤ u ∧ u < f (k + 1) := by
  intro n
  induction n with
  | zero => intro h1 h2; exact absurd h2 (not_lt.2 h1)
  | succ n ih =>
    intro h1 h2
    by_cases h : u < f n
    · obtain ⟨k, hk, h3⟩ := ih h1 h
      exact ⟨k, by omega, h3⟩
    · exact ⟨n, by omega, not_lt.1 h, h2⟩

theorem cdf_sorted (pdf : List K) (h0 : ∀ p ∈ pdf, 0 ≤ p) (hT : 0 < pdf.sum) : (cdf pdf).Pairwise (· ≤ ·) := by
  rw [cdf_eq, List.pairwise_map]
  exact List.pairwise_lt_range.imp fun h => below_mono pdf h0 hT _ _ h.le

theorem below_succ (pdf : List K) (k : Nat) (hk : k < pdf.length) : below pdf (k + 1) - below pdf k = pdf[k] / pdf.sum := by
  unfold below
  rw [List.take_add_one, List.getElem?_eq_getElem hk, List.sum_append, ← sub_div]
  simp

/-- One random number: the bin, and the place in the bin. -/
theorem interp_value (pdf : List K) (h0 : ∀ p ∈ pdf, 0 ≤ p) (hT : 0 < pdf.sum) (edges : List K) (he : edges.length = pdf.length + 1) (hs : edges.Pairwise (· < ·)) (u : K)
    (k : Nat) (hk : k < pdf.length) (hu : below pdf k ≤ u) (hu1 : u < below pdf (k + 1)) (e0 e1 : K) (h1 : edges[k]? = some e0) (h2 : edges[k + 1]? = some e1) :
    interp (cdf pdf) edges u = e0 + (e1 - e0) * ((u - below pdf k) / (below pdf (k + 1) - below pdf k)) ∧
    e0 ≤ interp (cdf pdf) edges u ∧ interp (cdf pdf) edges u < e1 := by
  have hv := interp_spec k (cdf pdf) edges (cdf_sorted pdf h0 hT) u _ _ e0 e1 (cdf_get pdf k hk.le) (cdf_get pdf (k + 1) (by omega)) h1 h2 hu hu1
  have hd : 0 < below pdf (k + 1) - below pdf k := by linarith
  have hlt : e0 < e1 := by
    obtain ⟨hk1, rfl⟩ := List.getElem?_eq_some_iff.1 h1
    obtain ⟨hk2, rfl⟩ := List.getElem?_eq_some_iff.1 h2
    exact List.pairwise_iff_getElem.1 hs k (k + 1) hk1 hk2 (by omega)
  have hv' : interp (cdf pdf) edges u = e0 + (e1 - e0) * ((u - below pdf k) / (below pdf (k + 1) - below pdf k)) := by
    rw [hv]
    ring
  refine ⟨hv', ?_, ?_⟩
  · rw [hv']
    have : 0 ≤ (u - below pdf k) / (below pdf (k + 1) - below pdf k) := div_nonneg (by linarith) hd.le
    nlinarith
  · rw [hv']
    have : (u - below pdf k) / (below pdf (k + 1) - below pdf k) < 1 := by
      rw [div_lt_one hd]
      linarith
    nlinarith

/-- The bin of a value is the bin of its random number. -/
theorem interp_bin (pdf : List K) (h0 : ∀ p ∈ pdf, 0 ≤ p) (hT : 0 < pdf.sum) (edges : List K) (he : edges.length = pdf.length + 1) (hs : edges.Pairwise (· < ·)) (u : K)
    (hu : 0 ≤ u) (hu1 : u < 1) (k : Nat) (hk : k < pdf.length) (e0 e1 : K) (h1 : edges[k]? = some e0) (h2 : edges[k + 1]? = some e1) :
    (e0 ≤ interp (cdf pdf) edges u ∧ interp (cdf pdf) edges u < e1) ↔ (below pdf k ≤ u ∧ u < below pdf (k + 1)) := by
  constructor
  · rintro ⟨h3, h4⟩
    obtain ⟨j, hj, h5, h6⟩ := exists_bin (below pdf) u pdf.length (by rw [below_zero]; exact hu) (by rw [below_last pdf hT]; exact hu1)
    have hj1 : j < edges.length := by omega
    have hj2 : j + 1 < edges.length := by omega
    obtain ⟨_, h7, h8⟩ := interp_value pdf h0 hT edges he hs u j hj h5 h6 _ _ (List.getElem?_eq_getElem hj1) (List.getElem?_eq_getElem hj2)
    obtain ⟨hk1, rfl⟩ := List.getElem?_eq_some_iff.1 h1
    obtain ⟨hk2, rfl⟩ := List.getElem?_eq_some_iff.1 h2
    have hmono := List.pairwise_iff_getElem.1 hs
    rcases lt_trichotomy j k with h | h | h
    · exfalso
      rcases Nat.lt_or_ge (j + 1) k with h9 | h9
      · have := hmono (j + 1) k hj2 hk1 h9
        linarith
      · have : j + 1 = k := by omega
        subst this
        linarith
    · subst h
      exact ⟨h5, h6⟩
    · exfalso
      rcases Nat.lt_or_ge (k + 1) j with h9 | h9
      · have := hmono (k + 1) j hk2 hj1 h9
        linarith
      · have : k + 1 = j := by omega
        subst this
        linarith
  · rintro ⟨h3, h4⟩
    exact (interp_value pdf h0 hT edges he hs u k hk h3 h4 e0 e1 h1 h2).2

theorem interp_mono (pdf : List K) (h0 : ∀ p ∈ pdf, 0 ≤ p) (hT : 0 < pdf.sum) (edges : List K) (he : edges.length = pdf.length + 1) (hs : edges.Pairwise (· < ·)) (u v : K)
    (hu : 0 ≤ u) (huv : u ≤ v) (hv1 : v < 1) : interp (cdf pdf) edges u ≤ interp (cdf pdf) edges v := by
  obtain ⟨j, hj, h5, h6⟩ := exists_bin (below pdf) u pdf.length (by rw [below_zero]; exact hu) (by rw [below_last pdf hT]; linarith)
  obtain ⟨k, hk, h7, h8⟩ := exists_bin (below pdf) v pdf.length (by rw [below_zero]; linarith) (by rw [below_last pdf hT]; exact hv1)
  have hj1 : j < edges.length := by omega
  have hj2 : j + 1 < edges.length := by omega
  have hk1 : k < edges.length := by omega
  have hk2 : k + 1 < edges.length := by omega
  obtain ⟨a1, a2, a3⟩ := interp_value pdf h0 hT edges he hs u j hj h5 h6 _ _ (List.getElem?_eq_getElem hj1) (List.getElem?_eq_getElem hj2)
  obtain ⟨b1, b2, b3⟩ := interp_value pdf h0 hT edges he hs v k hk h7 h8 _ _ (List.getElem?_eq_getElem hk1) (List.getElem?_eq_getElem hk2)
  have hmono := List.pairwise_iff_getElem.1 hs
  rcases lt_trichotomy j k with h | h | h
  · rcases Nat.lt_or_ge (j + 1) k with h9 | h9
    · have := hmono (j + 1) k hj2 hk1 h9
      linarith
    · have : j + 1 = k := by omega
      subst this
      linarith
  · subst h
    rw [a1, b1]
    have hd : 0 < below pdf (j + 1) - below pdf j := by linarith
    have hlt := hmono j (j + 1) hj1 hj2 (by omega)
    have : (u - below pdf j) / (below pdf (j + 1) - below pdf j) ≤ (v - below pdf j) / (below pdf (j + 1) - below pdf j) := div_le_div_of_nonneg_right (by linarith) hd.le
    nlinarith
  · exfalso
    have := below_mono pdf h0 hT (k + 1) j (by omega)
    linarith

theorem npSort_perm (l : List K) : (npSort l).Perm l := List.perm_insertionSort _ l

theorem npSort_sorted (l : List K) : (npSort l).Pairwise (· ≤ ·) := List.pairwise_insertionSort _ l

/-- **C174 (bins, partial).** For a distribution with two or more bins, none negative and not all zero, and increasing edges: one value is simulated for each random number, every value is inside the edges, the number of values in each bin is the number of random numbers
in an interval as long as the fraction of the distribution in that bin (so none fall into empty bins), and if sorted values are asked for they are in ascending order. Missing: a single bin, see `inverse_cdf_single_bin`. -/
theorem inverse_cdf_bins_partial (pdf us : List K) (xr : Option (K × K)) (sorted : Bool) (edges : List K) (h0 : ∀ p ∈ pdf, 0 ≤ p) (hT : 0 < pdf.sum) (h2 : 2 ≤ pdf.length)
    (he : edges.length = pdf.length + 1) (hs : edges.Pairwise (· < ·)) (hu : ∀ u ∈ us, 0 ≤ u ∧ u < 1) :
    ∃ vals, simulate pdf us xr sorted (some edges) = .ok vals ∧ vals.length = us.length ∧
      (∀ v ∈ vals, ∃ k e0 e1, k < pdf.length ∧ edges[k]? = some e0 ∧ edges[k + 1]? = some e1 ∧ e0 ≤ v ∧ v < e1) ∧
      (∀ k p e0 e1, pdf[k]? = some p → edges[k]? = some e0 → edges[k + 1]? = some e1 →
        below pdf (k + 1) - below pdf k = p / pdf.sum ∧
        (vals.countP fun v => decide (e0 ≤ v ∧ v < e1)) = us.countP fun u => decide (below pdf k ≤ u ∧ u < below pdf (k + 1))) ∧
      (sorted = true → vals.Pairwise (· ≤ ·)) := by
  have hneg : (pdf.any fun p => decide (p < 0)) = false := by
    rw [List.any_eq_false]
    intro p hp
    simpa using h0 p hp
  have hus : ∀ u ∈ (if sorted then npSort us else us), 0 ≤ u ∧ u < 1 := by
    intro u h
    cases sorted with
    | false => exact hu u h
    | true => exact hu u ((npSort_perm us).mem_iff.1 h)
  have hperm : (if sorted then npSort us else us).Perm us := by
    cases sorted with
    | false => exact List.Perm.refl _
    | true => exact npSort_perm us
  refine ⟨(if sorted then npSort us else us).map (interp (cdf pdf) edges), ?_, ?_, ?_, ?_, ?_⟩
  · unfold simulate
    simp only [hneg, Bool.false_eq_true, if_false, Option.getD_some]
    rw [if_neg (by omega), if_neg (by simp [he])]
  · rw [List.length_map, hperm.length_eq]
  · intro v hv
    obtain ⟨u, hu', rfl⟩ := List.mem_map.1 hv
    obtain ⟨h3, h4⟩ := hus u hu'
    obtain ⟨j, hj, h5, h6⟩ := exists_bin (below pdf) u pdf.length (by rw [below_zero]; exact h3) (by rw [below_last pdf hT]; exact h4)
    have hj1 : j < edges.length := by omega
    have hj2 : j + 1 < edges.length := by omega
    exact ⟨j, _, _, hj, List.getElem?_eq_getElem hj1, List.getElem?_eq_getElem hj2,
      (interp_value pdf h0 hT edges he hs u j hj h5 h6 _ _ (List.getElem?_eq_getElem hj1) (List.getElem?_eq_getElem hj2)).2⟩
  · intro k p e0 e1 hp h1 h2'
    obtain ⟨hk, rfl⟩ := List.getElem?_eq_some_iff.1 hp
    refine ⟨below_succ pdf k hk, ?_⟩
    rw [List.countP_map, ← hperm.countP_eq]
    refine List.countP_congr fun u hu' => ?_
    obtain ⟨h3, h4⟩ := hus u hu'
    simp only [Function.comp_apply, decide_eq_true_eq]
    exact interp_bin pdf h0 hT edges he hs u h3 h4 k hk e0 e1 h1 h2'
  · intro hsort
    subst hsort
    simp only [if_true] at hus ⊢
    rw [List.pairwise_map]
    refine (npSort_sorted us).imp_of_mem fun {a b} ha hb hab => ?_
    exact interp_mono pdf h0 hT edges he hs a b (hus a ha).1 hab (hus b hb).2

/-- **C174 (refusal).** A distribution with a negative value is refused with a ValueError, whatever else is given, and so are edges that are not one more than two or more bins. -/
theorem inverse_cdf_refuses (pdf us : List K) (xr : Option (K × K)) (sorted : Bool) :
    (∀ (edges : Option (List K)) (p : K), p ∈ pdf → p < 0 → simulate pdf us xr sorted edges = .error .valueError) ∧
    (∀ edges : List K, 2 ≤ pdf.length → edges.length ≠ pdf.length + 1 → simulate pdf us xr sorted (some edges) = .error .valueError) := by
  constructor
  · intro edges p hp h
    have : (pdf.any fun p => decide (p < 0)) = true := by
      rw [List.any_eq_true]
      exact ⟨p, hp, by simpa using h⟩
    unfold simulate
    simp [this]
  · intro edges h2 he
    unfold simulate
    simp only [Option.getD_some]
    rw [if_neg (by omega : ¬ pdf.length = 1), if_pos he]
    split_ifs <;> rfl

example : (2 : Nat) ≤ ([1, 2] : List ℚ).length ∧ ([0, 1] : List ℚ).length ≠ ([1, 2] : List ℚ).length + 1 := by decide

/-- **C174 (negation).** With a single bin the given edges are ignored: a value simulated in one bin from 2 to 10 lies between 0 and 1. So energies simulated from a spectrum with one band from 2 to 10 keV are below 1 keV. -/
theorem inverse_cdf_single_bin :
    simulate [(5 : ℚ)] [1 / 2] none false (some [2, 10]) = .ok [1 / 2] ∧ simulateEnergies [(2 : ℚ), 10] [5] [1 / 2] = .ok (some [1 / 2]) := by decide +kernel

/-! ### Times -/

theorem grid_get (a b : K) (n k : Nat) (hk : k ≤ n) : (grid a b n)[k]? = some (a + (b - a) * k / n) := by
  unfold grid
  rw [List.getElem?_map, List.getElem?_range (by omega)]
  rfl

theorem grid_length (a b : K) (n : Nat) : (grid a b n).length = n + 1 := by simp [grid]

theorem grid_sorted (a b : K) (n : Nat) (hab : a < b) (hn : 0 < n) : (grid a b n).Pairwise (· < ·) := by
  unfold grid
  rw [List.pairwise_map]
  refine List.pairwise_lt_range.imp fun {i j} h => ?_
  have hn' : (0 : K) < n := by exact_mod_cast hn
  have hij : (i : K) < j := by exact_mod_cast h
  have : (b - a) * i / n < (b - a) * j / n := div_lt_div_of_pos_right (mul_lt_mul_of_pos_left hij (by linarith)) hn'
  linarith

theorem grid_first_last (a b : K) (n : Nat) (hab : a < b) (hn : 0 < n) (k : Nat) (e0 e1 v : K) (hk : k < n) (h1 : (grid a b n)[k]? = some e0) (h2 : (grid a b n)[k + 1]? = some e1)
    (h3 : e0 ≤ v) (h4 : v < e1) : a ≤ v ∧ v < b := by
  rw [grid_get a b n k hk.le, Option.some.injEq] at h1
  rw [grid_get a b n (k + 1) (by omega), Option.some.injEq] at h2
  have hn' : (0 : K) < n := by exact_mod_cast hn
  have hk0 : (0 : K) ≤ k := by exact_mod_cast Nat.zero_le k
  have hk1 : ((k + 1 : Nat) : K) ≤ n := by exact_mod_cast hk
  constructor
  · have : 0 ≤ (b - a) * k / n := div_nonneg (mul_nonneg (by linarith) hk0) hn'.le
    linarith
  · have : (b - a) * ((k + 1 : Nat) : K) / n ≤ b - a := by
      rw [div_le_iff₀ hn']
      exact mul_le_mul_of_nonneg_left hk1 (by linarith)
    linarith

/-- The events of one GTI: as many as were drawn, in ascending order, inside the GTI. -/
theorem simulateOne_ok (counts : List K) (g : K × K) (us : List K) (hg : g.1 < g.2) (h0 : ∀ c ∈ counts, 0 ≤ c) (hT : counts.sum = 0 → us = []) (hu : ∀ u ∈ us, 0 ≤ u ∧ u < 1) :
    ∃ ev, simulateOne counts g us = .ok ev ∧ ev.length = us.length ∧ ev.Pairwise (· ≤ ·) ∧ ∀ t ∈ ev, g.1 ≤ t ∧ t < g.2 := by
  have hneg : (counts.any fun p => decide (p < 0)) = false := by
    rw [List.any_eq_false]
    intro p hp
    simpa using h0 p hp
  have hsame : simulate counts us (some g) true none = simulate counts us (some g) true (some (grid g.1 g.2 counts.length)) := rfl
  unfold simulateOne
  by_cases hl1 : counts.length = 1
  · refine ⟨npSort (us.map fun u => g.1 + (g.2 - g.1) * u), ?_, ?_, npSort_sorted _, ?_⟩
    · unfold simulate
      simp [hneg, hl1]
    · rw [(npSort_perm _).length_eq, List.length_map]
    · intro t ht
      obtain ⟨u, hu', rfl⟩ := List.mem_map.1 ((npSort_perm _).mem_iff.1 ht)
      obtain ⟨h1, h2⟩ := hu u hu'
      constructor <;> nlinarith
  · by_cases hz : counts.sum = 0
    · refine ⟨[], ?_, by rw [hT hz], List.Pairwise.nil, fun t ht => absurd ht (by simp)⟩
      rw [hsame, hT hz]
      unfold simulate
      simp only [hneg, Bool.false_eq_true, if_false, Option.getD_some]
      rw [if_neg hl1, if_neg (by simp [grid_length])]
      rfl
    · have hpos : 0 < counts.sum := lt_of_le_of_ne (List.sum_nonneg h0) (Ne.symm hz)
      have hlen : 2 ≤ counts.length := by
        rcases Nat.lt_or_ge counts.length 2 with h | h
        · exfalso
          have : counts.length = 0 := by omega
          rw [List.length_eq_zero_iff.1 this] at hpos
          simp at hpos
        · exact h
      rw [hsame]
      obtain ⟨vals, h1, h2, h3, _, h5⟩ := inverse_cdf_bins_partial counts us (some g) true _ h0 hpos hlen (grid_length g.1 g.2 counts.length)
        (grid_sorted g.1 g.2 _ hg (by omega)) hu
      refine ⟨vals, h1, h2, h5 rfl, fun t ht => ?_⟩
      obtain ⟨k, e0, e1, hk, h6, h7, h8, h9⟩ := h3 t ht
      exact grid_first_last g.1 g.2 counts.length hg (by omega) k e0 e1 t hk h6 h7 h8 h9

theorem mem_slice (l : List K) (a n : Nat) (x : K) (h : x ∈ (l.drop a).take n) : x ∈ l := List.mem_of_mem_drop (List.mem_of_mem_take h)

/-- **C174 (times).** With two or more GTIs, if the bins of each GTI can be found: the events are those of each GTI one after the other, as many for each GTI as were drawn for it, in ascending order and inside this GTI, never between GTIs. (The number drawn for a GTI without counts is zero.) -/
theorem simulate_times_gtis (time counts : List K) (gti : List (K × K)) (dt : K) (draws : List (List K)) (h2 : 2 ≤ gti.length) (hg : ∀ g ∈ gti, g.1 < g.2) (h0 : ∀ c ∈ counts, 0 ≤ c)
    (bins : List (Nat × Nat)) (hb : gtiBorderBins gti time dt (1 / 1000) = .ok bins) (hd : draws.length = gti.length) (hu : ∀ us ∈ draws, ∀ u ∈ us, 0 ≤ u ∧ u < 1)
    (hz : ∀ (i : Nat) (b : Nat × Nat) (us : List K), bins[i]? = some b → draws[i]? = some us → ((counts.drop b.1).take (b.2 - b.1)).sum = 0 → us = []) :
    ∃ evs : List (List K), simulateTimes time counts gti dt draws = .ok evs.flatten ∧
      List.Forall₂ (fun (p : (K × K) × List K) ev => ev.length = p.2.length ∧ ev.Pairwise (· ≤ ·) ∧ ∀ t ∈ ev, p.1.1 ≤ t ∧ t < p.1.2) (gti.zip draws) evs := by
  have hneg : ∀ l : List K, (∀ c ∈ l, 0 ≤ c) → (l.any fun p => decide (p < 0)) = false := by
    intro l hl
    rw [List.any_eq_false]
    intro p hp
    simpa using hl p hp
  have hbl : bins.length = gti.length := by
    unfold gtiBorderBins at hb
    split at hb
    · split_ifs at hb
      exact ((mapM_ok_forall2 _ _ _ hb).length_eq).symm
    · simp at hb
  have hall : ∀ p ∈ gti.zip (bins.zip draws), ∃ ev, simulateGti counts p = .ok ev ∧ ev.length = p.2.2.length ∧ ev.Pairwise (· ≤ ·) ∧ ∀ t ∈ ev, p.1.1 ≤ t ∧ t < p.1.2 := by
    rintro ⟨g, b, us⟩ hp
    obtain ⟨i, hi, hpi⟩ := List.mem_iff_getElem.1 hp
    simp only [List.getElem_zip, Prod.mk.injEq] at hpi
    obtain ⟨hgi, hbi, hui⟩ := hpi
    have hc : ∀ c ∈ (counts.drop b.1).take (b.2 - b.1), 0 ≤ c := fun c hc => h0 c (mem_slice _ _ _ _ hc)
    simp only [simulateGti, hneg _ hc, Bool.false_eq_true, if_false]
    refine simulateOne_ok _ g us (hg g (hgi ▸ List.getElem_mem _)) hc ?_ (hu us (hui ▸ List.getElem_mem _))
    exact hz i b us (hbi ▸ List.getElem?_eq_getElem _) (hui ▸ List.getElem?_eq_getElem _)
  obtain ⟨evs, hev⟩ := mapM_ok_of_forall (simulateGti counts) (gti.zip (bins.zip draws)) fun p hp => by
    obtain ⟨ev, h, _⟩ := hall p hp
    exact ⟨ev, h⟩
  refine ⟨evs, ?_, ?_⟩
  · unfold simulateTimes
    rw [hneg counts h0]
    simp only [Bool.false_eq_true, if_false]
    match gti, h2, hb, hev with
    | a :: b :: gti, _, hb, hev =>
      simp only [hb, bind, Except.bind, hev, pure, Except.pure]
  · have h3 := mapM_ok_forall2 _ _ _ hev
    rw [List.forall₂_iff_get] at h3 ⊢
    obtain ⟨h4, h5⟩ := h3
    have hlz : (gti.zip (bins.zip draws)).length = (gti.zip draws).length := by simp; omega
    refine ⟨by omega, fun i h6 h7 => ?_⟩
    have h8 : i < (gti.zip (bins.zip draws)).length := by omega
    have h9 := h5 i h8 h7
    obtain ⟨ev, h10, h11⟩ := hall _ (List.getElem_mem h8)
    simp only [List.get_eq_getElem] at h9
    rw [h9] at h10
    cases h10
    simpa using h11

/-- **C174 (times of bins, partial).** For one GTI which begins and ends with the bins of a light curve with two or more bins, the number of events in the bin around each time is the number of random numbers in an interval as long as the fraction of counts in this bin.
Missing: a GTI which does not begin and end with the light curve, see `simulate_times_squeezed`. -/
theorem simulate_times_aligned_partial (counts us : List K) (t0 dt : K) (hdt : 0 < dt) (h0 : ∀ c ∈ counts, 0 ≤ c) (hT : 0 < counts.sum) (h2 : 2 ≤ counts.length) (hu : ∀ u ∈ us, 0 ≤ u ∧ u < 1)
    (time : List K) :
    ∃ ev, simulateTimes time counts [(t0 - dt / 2, t0 + (counts.length - 1) * dt + dt / 2)] dt [us] = .ok ev ∧
      ∀ (k : Nat) (c : K), counts[k]? = some c → below counts (k + 1) - below counts k = c / counts.sum ∧
        (ev.countP fun v => decide (t0 + k * dt - dt / 2 ≤ v ∧ v < t0 + k * dt + dt / 2)) = us.countP fun u => decide (below counts k ≤ u ∧ u < below counts (k + 1)) := by
  have hneg : (counts.any fun p => decide (p < 0)) = false := by
    rw [List.any_eq_false]
    intro p hp
    simpa using h0 p hp
  have hn : (0 : K) < counts.length := by exact_mod_cast (by omega : 0 < counts.length)
  have hlt : t0 - dt / 2 < t0 + (counts.length - 1) * dt + dt / 2 := by nlinarith
  obtain ⟨ev, h1, _, _, h4, _⟩ := inverse_cdf_bins_partial counts us (some (t0 - dt / 2, t0 + (counts.length - 1) * dt + dt / 2)) true _ h0 hT h2 (grid_length _ _ counts.length)
    (grid_sorted _ _ _ hlt (by omega)) hu
  refine ⟨ev, ?_, fun k c hc => ?_⟩
  · unfold simulateTimes
    rw [hneg]
    exact h1
  · have hk : k < counts.length := (List.getElem?_eq_some_iff.1 hc).1
    have hg := grid_get (t0 - dt / 2) (t0 + (counts.length - 1) * dt + dt / 2) counts.length k hk.le
    have hg1 := grid_get (t0 - dt / 2) (t0 + (counts.length - 1) * dt + dt / 2) counts.length (k + 1) (by omega)
    have e0 : t0 - dt / 2 + (t0 + (counts.length - 1) * dt + dt / 2 - (t0 - dt / 2)) * k / counts.length = t0 + k * dt - dt / 2 := by
      field_simp
      ring
    have e1 : t0 - dt / 2 + (t0 + (counts.length - 1) * dt + dt / 2 - (t0 - dt / 2)) * ((k + 1 : Nat) : K) / counts.length = t0 + k * dt + dt / 2 := by
      push_cast
      field_simp
      ring
    rw [e0] at hg
    rw [e1] at hg1
    exact h4 k c _ _ hc hg hg1

/-- **C174 (negation).** With one GTI which covers only the first two of four bins, all of the counts are squeezed into it: there are no counts in the GTI, but events are simulated in it. -/
theorem simulate_times_squeezed :
    simulateTimes [(0 : ℚ), 1, 2, 3] [0, 0, 5, 5] [(-1 / 2, 3 / 2)] 1 [[1 / 4, 3 / 4]] = .ok [3 / 4, 5 / 4] := by decide +kernel

/-- **C174 (refusal, times).** Negative counts are refused with a ValueError, whatever the GTIs; other counts without any GTI raise an IndexError. -/
theorem simulate_times_refuses (time counts : List K) (gti : List (K × K)) (dt : K) (draws : List (List K)) :
    ((∃ c ∈ counts, c < 0) → simulateTimes time counts gti dt draws = .error .valueError) ∧
    ((∀ c ∈ counts, 0 ≤ c) → gti = [] → simulateTimes time counts gti dt draws = .error .indexError) := by
  constructor
  · rintro ⟨c, hc, h⟩
    have : (counts.any fun p => decide (p < 0)) = true := by
      rw [List.any_eq_true]
      exact ⟨c, hc, by simpa using h⟩
    unfold simulateTimes
    simp [this]
  · rintro h rfl
    have : (counts.any fun p => decide (p < 0)) = false := by
      rw [List.any_eq_false]
      intro p hp
      simpa using h p hp
    unfold simulateTimes
    simp only [this]
    rfl

/-- **C174 (energies, partial).** For a spectrum with two or more evenly spaced energies, the number of events whose simulated energy is within half a step of an energy is the number of random numbers in an interval as long as its fraction of the flux; one energy is simulated for each event, and none for an empty event list. Missing: a single band, see `inverse_cdf_single_bin`. -/
theorem simulate_energies_partial (e0 de : K) (hde : 0 < de) (fluxes us : List K) (h0 : ∀ p ∈ fluxes, 0 ≤ p) (hT : 0 < fluxes.sum) (h2 : 2 ≤ fluxes.length) (hu : ∀ u ∈ us, 0 ≤ u ∧ u < 1) :
    (us = [] → simulateEnergies ((List.range fluxes.length).map fun (k : Nat) => e0 + k * de) fluxes us = .ok none) ∧
    (us ≠ [] → ∃ vals, simulateEnergies ((List.range fluxes.length).map fun (k : Nat) => e0 + k * de) fluxes us = .ok (some vals) ∧ vals.length = us.length ∧
      ∀ (k : Nat) (p : K), fluxes[k]? = some p → below fluxes (k + 1) - below fluxes k = p / fluxes.sum ∧
        (vals.countP fun v => decide (e0 + k * de - de / 2 ≤ v ∧ v < e0 + k * de + de / 2)) = us.countP fun u => decide (below fluxes k ≤ u ∧ u < below fluxes (k + 1))) := by
  set energy := (List.range fluxes.length).map fun (k : Nat) => e0 + k * de with hen
  set n := fluxes.length with hn
  have hlen : energy.length = n := by simp [hen]
  have g : ∀ k, k < n → energy[k]? = some (e0 + k * de) := by
    intro k hk
    rw [hen, List.getElem?_map, List.getElem?_range hk]
    rfl
  have hlast : energy.getLast? = some (e0 + ((n : K) - 1) * de) := by
    rw [List.getLast?_eq_getElem?, hlen, g (n - 1) (by omega), Nat.cast_sub (by omega)]
    simp
  set edges := (energy.map fun x => x - de / 2) ++ [e0 + ((n : K) - 1) * de + de / 2] with hed
  have hel : edges.length = n + 1 := by simp [hed, hlen]
  have ge : ∀ k, k ≤ n → edges[k]? = some (e0 + k * de - de / 2) := by
    intro k hk
    by_cases hkn : k < n
    · rw [hed, List.getElem?_append_left (by simpa [hlen] using hkn), List.getElem?_map, g k hkn]
      rfl
    · have : k = n := by omega
      subst this
      rw [hed, List.getElem?_append_right (by simp [hlen])]
      simp only [List.length_map, hlen, Nat.sub_self, List.getElem?_cons_zero, Option.some.injEq]
      ring
  have hs : edges.Pairwise (· < ·) := by
    rw [List.pairwise_iff_getElem]
    intro i j hi hj hij
    have h1 := ge i (by omega)
    have h2 := ge j (by omega)
    rw [List.getElem?_eq_getElem hi, Option.some.injEq] at h1
    rw [List.getElem?_eq_getElem hj, Option.some.injEq] at h2
    rw [h1, h2]
    have : (i : K) < j := by exact_mod_cast hij
    nlinarith
  constructor
  · intro h
    simp [simulateEnergies, h]
  · intro hne
    obtain ⟨vals, h1, h3, _, h4, _⟩ := inverse_cdf_bins_partial fluxes us none false edges h0 hT h2 hel hs hu
    refine ⟨vals, ?_, h3, fun k p hp => ?_⟩
    · have e : (e0 + ((1 : Nat) : K) * de) - (e0 + ((0 : Nat) : K) * de) = de := by push_cast; ring
      simp only [simulateEnergies, if_neg hne, hlen, if_pos hn, g 0 (by omega), g 1 (by omega), hlast, e]
      show (do let v ← simulate fluxes us none false (some edges); pure (some v)) = _
      rw [h1]
      rfl
    · have hk : k < n := (List.getElem?_eq_some_iff.1 hp).1
      have g1 := ge (k + 1) (by omega)
      have e : e0 + ((k + 1 : Nat) : K) * de - de / 2 = e0 + k * de + de / 2 := by push_cast; ring
      rw [e] at g1
      exact h4 k p _ _ hp (ge k hk.le) g1

/-! ### Examples -/

example : simulate [(2 : ℚ), 0, 4, 3] [1 / 9, 5 / 9, 2 / 9] none true none = .ok [1 / 8, 1 / 2, 11 / 16] := by decide +kernel

example : simulateTimes [(0 : ℚ), 1, 2, 3, 5] [100, 100, 100, 100, 100] [(-1 / 2, 7 / 2), (9 / 2, 11 / 2)] 1 [[3 / 4, 1 / 2], [1 / 2]] = .ok [3 / 2, 5 / 2, 5] := by decide +kernel

example : (gtiBorderBins [((-1 / 2 : ℚ), 7 / 2), (9 / 2, 11 / 2)] [0, 1, 2, 3, 5] 1 (1 / 1000)).toOption = some [(0, 4), (4, 5)] := by decide +kernel

example : simulateEnergies [(1 : ℚ), 2, 3] [1, 0, 1] [1 / 4, 3 / 4] = .ok (some [1, 3]) := by decide +kernel

end Stingray.InverseCdf

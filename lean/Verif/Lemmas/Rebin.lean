import Verif.Model.Rebin
import Verif.Spec.Overlap
import Verif.Lemmas.GtiSegments
import Mathlib.Algebra.BigOperators.Intervals
import Mathlib.Algebra.Order.BigOperators.Group.Finset
import Mathlib.Tactic.Linarith
import Mathlib.Tactic.Ring
import Mathlib.Tactic.FieldSimp

/-! Helper lemmas for `rebin_data`. -/

namespace Stingray.Rebin

set_option linter.unusedSectionVars false

open Stingray.Spec

variable {K : Type} [Field K] [LinearOrder K] [IsStrictOrderedRing K]

/-- the overlap is a difference of clamped ends -/
theorem overlap_clamp (a b c d : K) (hab : a ≤ b) (hcd : c ≤ d) :
    overlap a b c d = max c (min b d) - max c (min a d) := by
  unfold overlap
  rcases le_total b d with h1 | h1 <;> rcases le_total a c with h2 | h2 <;>
    rcases le_total a d with h3 | h3 <;> rcases le_total c b with h4 | h4 <;>
    simp [h1, h2, h3, h4, hcd] <;> 
    first
      | (apply le_antisymm <;> linarith)
      | (rw [max_eq_right (by linarith)])
      | (rw [max_eq_left (by linarith)])
      | skip
  all_goals
    first
      | linarith
      | (rw [max_eq_right (by linarith)]; linarith)
      | (rw [max_eq_left (by linarith)]; linarith)
      | skip

theorem overlap_add (a b c d lo : K) (h1 : lo ≤ a) (h2 : a ≤ b) (hcd : c ≤ d) :
    overlap lo a c d + overlap a b c d = overlap lo b c d := by
  rw [overlap_clamp lo a c d h1 hcd, overlap_clamp a b c d h2 hcd,
    overlap_clamp lo b c d (h1.trans h2) hcd]
  ring

theorem overlap_self_left (a c d : K) : overlap a a c d = 0 := by
  unfold overlap
  rw [max_eq_left]
  have h1 : min a d ≤ a := min_le_left _ _
  have h2 : a ≤ max a c := le_max_left _ _
  linarith

theorem overlap_eq_full (a b c d : K) (h1 : a ≤ c) (h2 : d ≤ b) (h3 : c ≤ d) : overlap a b c d = d - c := by
  unfold overlap; rw [min_eq_right h2, max_eq_right h1, max_eq_right (by linarith)]

theorem overlap_eq_zero_right (a b c d : K) (h : b ≤ c) : overlap a b c d = 0 := by
  unfold overlap
  rw [max_eq_left]
  have h1 : min b d ≤ b := min_le_left _ _
  have h2 : c ≤ max a c := le_max_right _ _
  linarith

theorem overlap_eq_zero_left (a b c d : K) (h : d ≤ a) : overlap a b c d = 0 := by
  unfold overlap
  rw [max_eq_left]
  have h1 : min b d ≤ d := min_le_right _ _
  have h2 : a ≤ max a c := le_max_left _ _
  linarith

theorem overlap_left (a b c d : K) (h1 : c ≤ a) (h2 : a ≤ d) (h3 : d ≤ b) :
    overlap a b c d = d - a := by
  unfold overlap; rw [min_eq_right h3, max_eq_left h1, max_eq_right (by linarith)]

theorem overlap_right (a b c d : K) (h1 : a ≤ c) (h2 : c ≤ b) (h3 : b ≤ d) :
    overlap a b c d = b - c := by
  unfold overlap; rw [min_eq_left h3, max_eq_right h1, max_eq_right (by linarith)]

theorem binned_add (n : Nat) (e y : Nat → K) (he : ∀ j < n, e j ≤ e (j + 1)) (lo a b : K)
    (h1 : lo ≤ a) (h2 : a ≤ b) : binned n e y lo a + binned n e y a b = binned n e y lo b := by
  unfold binned
  rw [← Finset.sum_add_distrib]
  apply Finset.sum_congr rfl
  intro j hj
  rw [← overlap_add a b (e j) (e (j + 1)) lo h1 h2 (he j (Finset.mem_range.1 hj))]
  ring

theorem sliceSum_eq (a : List K) (i j : Nat) (hj : j ≤ a.length) (hij : i ≤ j) :
    sliceSum a i j = ∑ k ∈ Finset.Ico i j, a.getD k 0 := by
  unfold sliceSum
  induction j, hij using Nat.le_induction with
  | base => simp
  | succ j hij ih =>
    rw [Finset.sum_Ico_succ_top hij, ← ih (by omega)]
    have hlt : j < a.length := by omega
    rw [List.take_succ_eq_append_getElem hlt, List.drop_append]
    rw [show i - (a.take j).length = 0 by simp; omega]
    simp [List.getD_eq_getElem?_getD, List.getElem?_eq_getElem hlt]

theorem loopBody_eq (edges a : List K) (xmin xmax : K) (n : Nat)
    (hlen : edges.length = n + 1) (ha : a.length = n) (hn : 0 < n)
    (hs : edges.Pairwise (· < ·)) (hgap : ∀ j < n, edges.getD (j + 1) 0 - edges.getD j 0 ≤ xmax - xmin)
    (h0 : edges.getD 0 0 ≤ xmin) (hin : xmin < edges.getD n 0) (hx : xmin < xmax) :
    loopBody edges a xmin xmax (searchsortedLeft edges xmin) (searchsortedLeft edges xmax) =
      binned n (fun j => edges.getD j 0) (fun j => a.getD j 0) xmin xmax := by
  have hs' : edges.Pairwise (· ≤ ·) := hs.imp le_of_lt
  have hget : ∀ j, j < n + 1 → edges[j]? = some (edges.getD j 0) := by
    intro j hj
    rw [List.getD_eq_getElem?_getD, List.getElem?_eq_getElem (by omega)]; rfl
  have hmono : ∀ i j, i < j → j < n + 1 → edges.getD i 0 < edges.getD j 0 := by
    intro i j hij hj
    have := List.pairwise_iff_getElem.1 hs i j (by omega) (by omega) hij
    have e1 := hget i (by omega)
    have e2 := hget j hj
    rw [List.getElem?_eq_getElem (by omega)] at e1 e2
    simp only [Option.some.injEq] at e1 e2
    rw [← e1, ← e2]; exact this
  have hmono' : ∀ i j, i ≤ j → j < n + 1 → edges.getD i 0 ≤ edges.getD j 0 := by
    intro i j hij hj
    rcases Nat.eq_or_lt_of_le hij with h | h
    · rw [h]
    · exact (hmono i j h hj).le
  generalize hm : searchsortedLeft edges xmin = m
  generalize hM : searchsortedLeft edges xmax = M
  have hlm : ∀ i, i < n + 1 → (i < m ↔ edges.getD i 0 < xmin) := by
    intro i hi; rw [← hm]; exact Gti.lt_searchsortedLeft_iff edges hs' xmin i _ (hget i hi)
  have hlM : ∀ i, i < n + 1 → (i < M ↔ edges.getD i 0 < xmax) := by
    intro i hi; rw [← hM]; exact Gti.lt_searchsortedLeft_iff edges hs' xmax i _ (hget i hi)
  have hMle : M ≤ n + 1 := by rw [← hM, ← hlen]; exact Gti.searchsortedLeft_le _ _
  have hmn : m ≤ n := by
    by_contra hcon
    exact absurd ((hlm n (by omega)).1 (by omega)) (not_lt.2 hin.le)
  have hme : xmin ≤ edges.getD m 0 := by
    by_contra hcon
    have := (hlm m (by omega)).2 (not_le.1 hcon); omega
  have hmM : m < M := by
    rw [hlM m (by omega)]
    rcases Nat.eq_zero_or_pos m with h | h
    · rw [h]; linarith
    · have h1 := (hlm (m - 1) (by omega)).1 (by omega)
      have h2 := hgap (m - 1) (by omega)
      rw [show m - 1 + 1 = m by omega] at h2
      linarith
  generalize he : (fun j => edges.getD j 0) = e at *
  have hee : ∀ j, edges.getD j 0 = e j := fun j => by rw [← he]
  simp only [hee] at hgap h0 hin hget hmono hmono' hlm hlM hme
  -- split the specification sum
  have hterm : ∀ j, j < n → overlap xmin xmax (e j) (e (j + 1)) / (e (j + 1) - e j) =
      (if j + 1 = m then (e m - xmin) / (e m - e (m - 1)) else 0) +
      (if m ≤ j ∧ j < M - 1 then 1 else 0) +
      (if j + 1 = M then (xmax - e (M - 1)) / (e M - e (M - 1)) else 0) := by
    intro j hj
    have hjj := hmono j (j + 1) (by omega) (by omega)
    rcases Nat.lt_trichotomy (j + 1) m with h | h | h
    · have h1 := (hlm (j + 1) (by omega)).1 h
      rw [overlap_eq_zero_left _ _ _ _ h1.le, if_neg (by omega), if_neg (by omega), if_neg (by omega)]
      simp
    · have h1 := (hlm j (by omega)).1 (by omega)
      have h2 := (hlM m (by omega)).1 hmM
      rw [if_pos h, if_neg (by omega), if_neg (by omega)]
      have hjm : m - 1 = j := by omega
      rw [← h] at hme h2
      rw [overlap_left _ _ _ _ h1.le hme h2.le, hjm, ← h]
      simp
    · rw [if_neg (by omega)]
      have h1 : xmin ≤ e j := hme.trans (hmono' m j (by omega) (by omega))
      rcases Nat.lt_trichotomy (j + 1) M with h2 | h2 | h2
      · have h3 := (hlM (j + 1) (by omega)).1 h2
        rw [if_pos (by omega), if_neg (by omega), overlap_eq_full _ _ _ _ h1 h3.le hjj.le,
          div_self (by linarith)]
        simp
      · have h3 := (hlM j (by omega)).1 (by omega)
        have h4 : xmax ≤ e (j + 1) := by
          by_contra hcon
          have := (hlM (j + 1) (by omega)).2 (not_le.1 hcon); omega
        rw [if_neg (by omega), if_pos h2, overlap_right _ _ _ _ h1 h3.le h4]
        have : M - 1 = j := by omega
        rw [this, ← h2]; simp
      · have h3 : xmax ≤ e j := by
          by_contra hcon
          have := (hlM j (by omega)).2 (not_le.1 hcon); omega
        rw [if_neg (by omega), if_neg (by omega), overlap_eq_zero_right _ _ _ _ h3]; simp
  have hsum : binned n e (fun j => a.getD j 0) xmin xmax =
      (∑ j ∈ Finset.range n, if j + 1 = m then a.getD j 0 * ((e m - xmin) / (e m - e (m - 1))) else 0) +
      (∑ j ∈ Finset.range n, if m ≤ j ∧ j < M - 1 then a.getD j 0 else 0) +
      (∑ j ∈ Finset.range n, if j + 1 = M then a.getD j 0 * ((xmax - e (M - 1)) / (e M - e (M - 1))) else 0) := by
    unfold binned
    rw [← Finset.sum_add_distrib, ← Finset.sum_add_distrib]
    apply Finset.sum_congr rfl
    intro j hj
    rw [hterm j (Finset.mem_range.1 hj)]
    simp only [mul_add, mul_ite, mul_zero, mul_one]
  rw [hsum]
  have s2 : (∑ j ∈ Finset.range n, if m ≤ j ∧ j < M - 1 then a.getD j 0 else 0) = sliceSum a m (M - 1) := by
    rw [sliceSum_eq a m (M - 1) (by omega) (by omega), ← Finset.sum_filter]
    apply Finset.sum_congr _ (fun _ _ => rfl)
    ext j
    simp only [Finset.mem_filter, Finset.mem_range, Finset.mem_Ico]
    omega
  have s1 : (∑ j ∈ Finset.range n, if j + 1 = m then a.getD j 0 * ((e m - xmin) / (e m - e (m - 1))) else 0) =
      prevAt a m * ((e m - xmin) / (e m - prevAt edges m)) := by
    unfold prevAt
    rcases Nat.eq_zero_or_pos m with h | h
    · subst h
      rw [Finset.sum_eq_zero (by intro j _; rw [if_neg (by omega)])]
      have : e 0 = xmin := le_antisymm h0 hme
      rw [this]; simp
    · rw [if_neg (by omega), if_neg (by omega), Finset.sum_eq_single (m - 1)]
      · rw [if_pos (by omega), hee]
      · intro b _ hb; rw [if_neg (by omega)]
      · intro hb; simp at hb; omega
  have s3 : (∑ j ∈ Finset.range n, if j + 1 = M then a.getD j 0 * ((xmax - e (M - 1)) / (e M - e (M - 1))) else 0) =
      if M = n + 1 then 0 else a.getD (M - 1) 0 * ((xmax - e (M - 1)) / (e M - e (M - 1))) := by
    split_ifs with h
    · apply Finset.sum_eq_zero
      intro j hj
      have := Finset.mem_range.1 hj
      rw [if_neg (by omega)]
    · rw [Finset.sum_eq_single (M - 1)]
      · rw [if_pos (by omega)]
      · intro b _ hb; rw [if_neg (by omega)]
      · intro hb; simp at hb; omega
  rw [s1, s2, s3]
  unfold loopBody
  simp only [hee, hlen]
  split_ifs with h
  · ring
  · ring

theorem zip_tail_map_range {α : Type} (f : Nat → α) (N : Nat) :
    List.zip ((List.range (N + 1)).map f) ((List.range (N + 1)).map f).tail =
      (List.range N).map (fun i => (f i, f (i + 1))) := by
  apply List.ext_getElem
  · simp
  · intro i h1 h2
    simp

theorem loop_eq [FloorRing K] (edges a : List K) (n : Nat) (x0 dxNew : K)
    (hlen : edges.length = n + 1) (ha : a.length = n) (hn : 0 < n)
    (hs : edges.Pairwise (· < ·)) (hgap : ∀ j < n, edges.getD (j + 1) 0 - edges.getD j 0 ≤ dxNew)
    (h0 : edges.getD 0 0 = x0) (hd : 0 < dxNew) :
    loop edges a (Gti.arange x0 (edges.getD n 0 + dxNew) dxNew) =
      (List.range ⌈(edges.getD n 0 - x0) / dxNew⌉₊).map fun i : Nat =>
        binned n (fun j => edges.getD j 0) (fun j => a.getD j 0) (x0 + (i : K) * dxNew)
          (x0 + (i : K) * dxNew + dxNew) := by
  have hpos : 0 ≤ (edges.getD n 0 - x0) / dxNew := by
    apply div_nonneg _ hd.le
    rw [← h0]
    have := List.pairwise_iff_getElem.1 hs 0 n (by omega) (by omega) hn
    simp only [List.getD_eq_getElem?_getD, List.getElem?_eq_getElem (show 0 < edges.length by omega),
      List.getElem?_eq_getElem (show n < edges.length by omega), Option.getD_some]
    linarith
  have hN : ⌈(edges.getD n 0 + dxNew - x0) / dxNew⌉₊ = ⌈(edges.getD n 0 - x0) / dxNew⌉₊ + 1 := by
    rw [show (edges.getD n 0 + dxNew - x0) / dxNew = (edges.getD n 0 - x0) / dxNew + 1 by
      field_simp; ring]
    exact Nat.ceil_add_one hpos
  unfold loop Gti.arange
  rw [hN, zip_tail_map_range, List.map_map]
  apply List.map_congr_left
  intro i hi
  have hi' : (i : K) < (edges.getD n 0 - x0) / dxNew := by
    rw [List.mem_range, Nat.lt_ceil] at hi; exact hi
  rw [lt_div_iff₀ hd] at hi'
  have e1 : x0 + ((i + 1 : Nat) : K) * dxNew = x0 + (i : K) * dxNew + dxNew := by push_cast; ring
  simp only [Function.comp, e1]
  apply loopBody_eq edges a _ _ n hlen ha hn hs
  · intro j hj; have := hgap j hj; linarith
  · rw [h0]; have : 0 ≤ (i : K) * dxNew := mul_nonneg (Nat.cast_nonneg i) hd.le
    linarith
  · linarith
  · linarith

theorem binned_self (n : Nat) (e y : Nat → K) (a : K) : binned n e y a a = 0 := by
  unfold binned
  apply Finset.sum_eq_zero
  intro j _
  rw [overlap_self_left]; simp

theorem binned_steps (n : Nat) (e y : Nat → K) (he : ∀ j < n, e j ≤ e (j + 1)) (x0 d : K) (hd : 0 ≤ d)
    (N : Nat) : ((List.range N).map fun i : Nat => binned n e y (x0 + (i : K) * d) (x0 + (i : K) * d + d)).sum =
      binned n e y x0 (x0 + (N : K) * d) := by
  induction N with
  | zero => simp [binned_self]
  | succ N ih =>
    rw [List.range_succ, List.map_append, List.sum_append, ih]
    simp only [List.map_cons, List.map_nil, List.sum_cons, List.sum_nil, add_zero]
    rw [binned_add n e y he x0 _ _ (by have : 0 ≤ (N : K) * d := mul_nonneg (Nat.cast_nonneg N) hd
                                       linarith) (by linarith)]
    congr 1
    push_cast; ring

theorem binned_all (n : Nat) (e y : Nat → K) (he : ∀ j < n, e j < e (j + 1)) (lo hi : K)
    (h1 : ∀ j ≤ n, lo ≤ e j) (h2 : ∀ j ≤ n, e j ≤ hi) :
    binned n e y lo hi = ∑ j ∈ Finset.range n, y j := by
  unfold binned
  apply Finset.sum_congr rfl
  intro j hj
  have hj := Finset.mem_range.1 hj
  rw [overlap_eq_full _ _ _ _ (h1 j (by omega)) (h2 (j + 1) (by omega)) (he j hj).le,
    div_self (by have := he j hj; linarith), mul_one]

/-- number of output bins kept -/
theorem kept_length [FloorRing K] {β : Type} (t : K) (ht : 0 ≤ t) (f : Nat → β) :
    (if decide (0 < Int.fract t) = true then ((List.range ⌈t⌉₊).map f).dropLast
      else (List.range ⌈t⌉₊).map f) = (List.range ⌊t⌋₊).map f := by
  by_cases h : 0 < Int.fract t
  · rw [if_pos (by simpa using h)]
    have : ⌈t⌉₊ = ⌊t⌋₊ + 1 := by
      apply le_antisymm
      · exact Nat.ceil_le_floor_add_one t
      · rw [Nat.succ_le_iff, Nat.lt_ceil, natCast_floor_eq_intCast_floor ht]
        have := Int.self_sub_floor t
        linarith
    rw [this, List.range_succ, List.map_append]
    simp
  · rw [if_neg (by simpa using h)]
    have h0 : Int.fract t = 0 := le_antisymm (not_lt.1 h) (Int.fract_nonneg t)
    have : ⌈t⌉₊ = ⌊t⌋₊ := by
      apply le_antisymm _ (Nat.floor_le_ceil t)
      rw [Nat.ceil_le, natCast_floor_eq_intCast_floor ht]
      have := Int.self_sub_floor t
      linarith
    rw [this]

end Stingray.Rebin

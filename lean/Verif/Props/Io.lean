import Verif.Model.Io
import Verif.Lemmas.GtiSegments
import Verif.Props.UtilsMisc
import Mathlib.Algebra.Order.Ring.Rat
import Mathlib.Data.Rat.Floor
import Mathlib.Tactic.NormNum
import Mathlib.Tactic.Linarith
import Mathlib.Tactic.FieldSimp
import Mathlib.Tactic.Ring
import Mathlib.Tactic.Positivity

/-!
Files: partial reading (C65, C87), split numbers (C66, C90), channels (C88), names (C89).
-/

set_option linter.unusedSectionVars false

namespace Stingray.Io

open Stingray.UtilsMisc

variable {K : Type} [Field K] [LinearOrder K] [IsStrictOrderedRing K] [FloorRing K]

/-! ### Reading part of a file -/

/-- Rows at which the times of a file of `size` rows may be probed: from the first to the last, in order. -/
structure ValidEdges (size : Nat) (idx : List Nat) : Prop where
  hlen : 2 ≤ idx.length
  sorted : idx.Pairwise (· ≤ ·)
  first : idx[0]? = some 0
  last : idx[idx.length - 1]? = some (size - 1)

/-- the rows `numpy.linspace` gives are valid -/
theorem linspaceIdx_valid (size nedges : Nat) (hn : 2 ≤ nedges) : ValidEdges size (linspaceIdx size nedges) := by
  have hl : (linspaceIdx size nedges).length = nedges := by simp [linspaceIdx]
  refine ⟨by rw [hl]; exact hn, ?_, ?_, ?_⟩
  · unfold linspaceIdx
    rw [List.pairwise_map]
    refine List.pairwise_lt_range.imp ?_
    intro a b h
    exact Nat.div_le_div_right (Nat.mul_le_mul_right _ h.le)
  · unfold linspaceIdx
    rw [List.getElem?_map, List.getElem?_range (by omega)]
    simp
  · rw [hl]
    unfold linspaceIdx
    rw [List.getElem?_map, List.getElem?_range (by omega)]
    simp only [Option.map_some, Option.some.injEq]
    exact Nat.mul_div_cancel_left _ (by omega)

theorem getD_mono (times : List K) (hs : times.Pairwise (· ≤ ·)) (i j : Nat) (hij : i ≤ j) (hj : j < times.length) :
    times.getD i 0 ≤ times.getD j 0 := by
  rw [List.getD_eq_getElem?_getD, List.getD_eq_getElem?_getD, List.getElem?_eq_getElem hj,
    List.getElem?_eq_getElem (by omega)]
  simp only [Option.getD_some]
  rcases Nat.lt_or_eq_of_le hij with h | h
  · exact List.pairwise_iff_getElem.1 hs i j (by omega) hj h
  · subst h; exact le_refl _

section Edges

variable (times : List K) (minGti maxGti : K) (idx : List Nat)

theorem timeEdges_length : (timeEdges times minGti maxGti idx).length = idx.length := by
  unfold timeEdges
  dsimp only
  split_ifs <;> simp

theorem timeEdges_get (hv : ValidEdges times.length idx) (k : Nat) (hk : k < idx.length) :
    (timeEdges times minGti maxGti idx).getD k 0 =
      if k = 0 then min (times.getD 0 0) minGti
      else if k = idx.length - 1 then max (times.getD (times.length - 1) 0) maxGti
      else times.getD (idx.getD k 0) 0 := by
  have hn := hv.hlen
  set te := idx.map fun i => times.getD i 0 with hte
  have htl : te.length = idx.length := by simp [hte]
  have hget : ∀ j, j < idx.length → te[j]? = some (times.getD (idx.getD j 0) 0) := by
    intro j hj
    rw [hte, List.getElem?_map, List.getElem?_eq_getElem hj]
    simp [List.getD_eq_getElem?_getD, List.getElem?_eq_getElem hj]
  have h0 : idx.getD 0 0 = 0 := by rw [List.getD_eq_getElem?_getD, hv.first]; rfl
  have hl : idx.getD (idx.length - 1) 0 = times.length - 1 := by rw [List.getD_eq_getElem?_getD, hv.last]; rfl
  have hhead : te.headD 0 = times.getD 0 0 := by
    have := hget 0 (by omega)
    rw [h0] at this
    cases hc : te with
    | nil => rw [hc] at this; simp at this
    | cons a b => rw [hc] at this; simpa using this
  set te1 := if minGti < te.headD 0 then te.set 0 minGti else te with hte1
  have hl1 : te1.length = idx.length := by rw [hte1]; split_ifs <;> simp [htl]
  have hget1 : ∀ j, j < idx.length → te1[j]? = some (if j = 0 then min (times.getD 0 0) minGti else times.getD (idx.getD j 0) 0) := by
    intro j hj
    rw [hte1]
    by_cases hlt : minGti < te.headD 0
    · rw [if_pos hlt]
      by_cases hj0 : j = 0
      · subst hj0
        rw [List.getElem?_set, if_pos rfl, if_pos (by omega), if_pos rfl, min_eq_right (by rw [← hhead]; exact hlt.le)]
      · rw [List.getElem?_set, if_neg (fun h => hj0 h.symm), hget j hj, if_neg hj0]
    · rw [if_neg hlt, hget j hj]
      by_cases hj0 : j = 0
      · subst hj0
        rw [if_pos rfl, h0, min_eq_left (by rw [← hhead]; exact not_lt.1 hlt)]
      · rw [if_neg hj0]
  have hlast : te1.getLastD 0 = times.getD (times.length - 1) 0 := by
    have := hget1 (idx.length - 1) (by omega)
    rw [if_neg (by omega), hl] at this
    have hne : te1 ≠ [] := by rw [← List.length_pos_iff]; omega
    rw [List.getLastD_eq_getLast?, List.getLast?_eq_getElem?, hl1, this]
    rfl
  have hdef : timeEdges times minGti maxGti idx = if te1.getLastD 0 < maxGti then te1.set (te1.length - 1) maxGti else te1 := rfl
  rw [hdef, List.getD_eq_getElem?_getD]
  by_cases hlt : te1.getLastD 0 < maxGti
  · rw [if_pos hlt]
    by_cases hk0 : k = idx.length - 1
    · rw [List.getElem?_set, if_pos (by omega), if_pos (by omega), if_neg (by omega), if_pos hk0,
        max_eq_right (by rw [← hlast]; exact hlt.le)]
      rfl
    · rw [List.getElem?_set, if_neg (by omega), hget1 k hk, if_neg hk0]
      rfl
  · rw [if_neg hlt, hget1 k hk]
    by_cases hk0 : k = 0
    · simp [hk0]
    · by_cases hk1 : k = idx.length - 1
      · rw [if_neg hk0, if_neg hk0, if_pos hk1, hk1, hl, max_eq_left (by rw [← hlast]; exact not_lt.1 hlt)]
        rfl
      · simp [hk0, hk1]

variable {times minGti maxGti idx}

theorem idx_mono (hv : ValidEdges times.length idx) (i j : Nat) (hij : i ≤ j) (hj : j < idx.length) :
    idx.getD i 0 ≤ idx.getD j 0 := by
  rw [List.getD_eq_getElem?_getD, List.getD_eq_getElem?_getD, List.getElem?_eq_getElem hj,
    List.getElem?_eq_getElem (by omega)]
  simp only [Option.getD_some]
  rcases Nat.lt_or_eq_of_le hij with h | h
  · exact List.pairwise_iff_getElem.1 hv.sorted i j (by omega) hj h
  · subst h; exact le_refl _

theorem idx_lt (hne : times ≠ []) (hv : ValidEdges times.length idx) (j : Nat) (hj : j < idx.length) :
    idx.getD j 0 < times.length := by
  have h := idx_mono hv j (idx.length - 1) (by omega) (by omega)
  have hl : idx.getD (idx.length - 1) 0 = times.length - 1 := by rw [List.getD_eq_getElem?_getD, hv.last]; rfl
  have := List.length_pos_iff.2 hne
  omega

theorem timeEdges_le (hne : times ≠ []) (hv : ValidEdges times.length idx) (k : Nat) (hk : k < idx.length - 1) :
    (timeEdges times minGti maxGti idx).getD k 0 ≤ times.getD (idx.getD k 0) 0 := by
  rw [timeEdges_get times minGti maxGti idx hv k (by omega)]
  by_cases h0 : k = 0
  · rw [if_pos h0, h0]
    have : idx.getD 0 0 = 0 := by rw [List.getD_eq_getElem?_getD, hv.first]; rfl
    rw [this]
    exact min_le_left _ _
  · rw [if_neg h0, if_neg (by omega)]

theorem le_timeEdges (hne : times ≠ []) (hv : ValidEdges times.length idx) (k : Nat) (hk0 : 0 < k) (hk : k < idx.length) :
    times.getD (idx.getD k 0) 0 ≤ (timeEdges times minGti maxGti idx).getD k 0 := by
  rw [timeEdges_get times minGti maxGti idx hv k (by omega), if_neg (by omega)]
  by_cases h0 : k = idx.length - 1
  · rw [if_pos h0, h0]
    have hl : idx.getD (idx.length - 1) 0 = times.length - 1 := by rw [List.getD_eq_getElem?_getD, hv.last]; rfl
    rw [hl]
    exact le_max_left _ _
  · rw [if_neg h0]

theorem timeEdges_sorted (hs : times.Pairwise (· ≤ ·)) (hne : times ≠ []) (hv : ValidEdges times.length idx) :
    (timeEdges times minGti maxGti idx).Pairwise (· ≤ ·) := by
  rw [List.pairwise_iff_getElem]
  intro i j hi hj hij
  have hl := timeEdges_length times minGti maxGti idx
  have h1 := timeEdges_le (minGti := minGti) (maxGti := maxGti) hne hv i (by omega)
  have h2 := le_timeEdges (minGti := minGti) (maxGti := maxGti) hne hv j (by omega) (by omega)
  have h3 := getD_mono times hs _ _ (idx_mono hv i j hij.le (by omega)) (idx_lt hne hv j (by omega))
  rw [List.getD_eq_getElem?_getD, List.getElem?_eq_getElem hi] at h1
  rw [List.getD_eq_getElem?_getD (l := timeEdges times minGti maxGti idx), List.getElem?_eq_getElem hj] at h2
  exact h1.trans (h3.trans h2)

end Edges

theorem searchsortedLeft_append (a b : List K) (v : K) :
    searchsortedLeft (a ++ b) v = searchsortedLeft a v + searchsortedLeft b v := by
  unfold searchsortedLeft
  rw [List.filter_append, List.length_append]

theorem searchsortedLeft_all (a : List K) (v : K) (h : ∀ x ∈ a, x < v) : searchsortedLeft a v = a.length := by
  unfold searchsortedLeft
  rw [List.filter_eq_self.2 (by simpa using h)]

theorem searchsortedLeft_none (a : List K) (v : K) (h : ∀ x ∈ a, v ≤ x) : searchsortedLeft a v = 0 := by
  unfold searchsortedLeft
  rw [List.length_eq_zero_iff, List.filter_eq_nil_iff]
  intro x hx
  simpa using h x hx

/-- whatever rows are probed, the answer is that of a search over the whole file -/
theorem getIdx_eq (times : List K) (hs : times.Pairwise (· ≤ ·)) (hne : times ≠ []) (minGti maxGti : K) (idx : List Nat)
    (hv : ValidEdges times.length idx) (start stop : K) (hss : start ≤ stop) :
    getIdx times minGti maxGti idx start stop =
      if min (times.getD 0 0) minGti ≤ start ∧ stop ≤ max (times.getD (times.length - 1) 0) maxGti then
        .ok (searchsortedLeft times start, (searchsortedLeft times stop : Int) - 1)
      else .error .assertionError := by
  have hn := hv.hlen
  have hl := timeEdges_length times minGti maxGti idx
  have hts := timeEdges_sorted (minGti := minGti) (maxGti := maxGti) hs hne hv
  have hget := timeEdges_get times minGti maxGti idx hv
  have hle := fun k hk => timeEdges_le (minGti := minGti) (maxGti := maxGti) hne hv k hk
  have hge := fun k h0 hk => le_timeEdges (minGti := minGti) (maxGti := maxGti) hne hv k h0 hk
  unfold getIdx
  dsimp only
  generalize timeEdges times minGti maxGti idx = te at *
  have hL : searchsortedLeft te start ≤ te.length := List.length_filter_le _ _
  have hR : searchsortedRight te stop ≤ te.length := List.length_filter_le _ _
  have hsome : ∀ k, k < idx.length → te[k]? = some (te.getD k 0) := by
    intro k hk
    rw [List.getD_eq_getElem?_getD, List.getElem?_eq_getElem (by omega)]
    rfl
  have hLiff : ∀ k, k < idx.length → (k < searchsortedLeft te start ↔ te.getD k 0 < start) := fun k hk =>
    Gti.lt_searchsortedLeft_iff te hts start k _ (hsome k hk)
  have hRiff : ∀ k, k < idx.length → (k < searchsortedRight te stop ↔ te.getD k 0 ≤ stop) := fun k hk =>
    lt_searchsortedRight_iff te hts stop k _ (hsome k hk)
  have hLR : searchsortedLeft te start ≤ searchsortedRight te stop := by
    unfold searchsortedLeft searchsortedRight
    apply List.Sublist.length_le
    apply List.monotone_filter_right
    intro x hx
    simp only [decide_eq_true_eq] at hx ⊢
    exact hx.le.trans hss
  have hmono : ∀ i j, i ≤ j → j < idx.length → te.getD i 0 ≤ te.getD j 0 := fun i j h1 h2 => getD_mono te hts i j h1 (by omega)
  have he0 : te.getD 0 0 = min (times.getD 0 0) minGti := by rw [hget 0 (by omega), if_pos rfl]
  have heL : te.getD (idx.length - 1) 0 = max (times.getD (times.length - 1) 0) maxGti := by
    rw [hget _ (by omega), if_neg (by omega), if_pos rfl]
  rw [← he0, ← heL]
  set rmin := searchsortedLeft te start - 2 with hrmin
  set rmax := min (te.length - 1) (searchsortedRight te stop + 2) with hrmax
  have hrmin_lt : rmin < idx.length := by omega
  have hrmax_lt : rmax < idx.length := by omega
  have hrr : rmin ≤ rmax := by omega
  -- the two assertions
  have ha1 : 0 ≤ start - te.getD rmin 0 ↔ te.getD 0 0 ≤ start := by
    rw [sub_nonneg]
    by_cases h0 : rmin = 0
    · rw [h0]
    · have := (hLiff rmin hrmin_lt).1 (by omega)
      exact ⟨fun _ => (hmono 0 rmin (by omega) hrmin_lt).trans this.le, fun _ => this.le⟩
  have hstop : rmax ≠ idx.length - 1 → stop < te.getD rmax 0 := by
    intro h
    have := mt (hRiff rmax hrmax_lt).2 (by omega)
    exact not_le.1 this
  have ha2 : 0 ≤ te.getD rmax 0 - stop ↔ stop ≤ te.getD (idx.length - 1) 0 := by
    rw [sub_nonneg]
    by_cases h0 : rmax = idx.length - 1
    · rw [h0]
    · have := hstop h0
      exact ⟨fun _ => this.le.trans (hmono rmax _ (by omega) (by omega)), fun _ => this.le⟩
  simp only [ha1, ha2]
  by_cases c1 : te.getD 0 0 ≤ start
  · by_cases c2 : stop ≤ te.getD (idx.length - 1) 0
    · rw [if_neg (not_not.2 c1), if_neg (not_not.2 c2), if_pos ⟨c1, c2⟩]
      -- the rows left out
      set lo := idx.getD rmin 0 with hlo
      set up := idx.getD rmax 0 with hup
      have hlou : lo ≤ up := idx_mono hv rmin rmax hrr hrmax_lt
      have hupl : up < times.length := idx_lt hne hv rmax hrmax_lt
      have hsplit : times = times.take lo ++ ((times.take (up + 1)).drop lo ++ times.drop (up + 1)) := by
        rw [← List.append_assoc]
        have : times.take lo = (times.take (up + 1)).take lo := by rw [List.take_take, min_eq_left (by omega)]
        rw [this, List.take_append_drop, List.take_append_drop]
      have hbelow : ∀ x ∈ times.take lo, x < start := by
        intro x hx
        rw [List.mem_iff_getElem?] at hx
        obtain ⟨i, hi⟩ := hx
        have hil : i < lo := by
          by_contra hc
          rw [List.getElem?_eq_none (by rw [List.length_take]; omega)] at hi
          simp at hi
        rw [List.getElem?_take, if_pos hil] at hi
        have hr0 : rmin ≠ 0 := by
          intro h0
          rw [hlo, h0, List.getD_eq_getElem?_getD, hv.first] at hil
          simp at hil
        have h1 := (hLiff rmin hrmin_lt).1 (by omega)
        have h2 := hge rmin (by omega) hrmin_lt
        have h3 := getD_mono times hs i lo (by omega) (by omega)
        rw [List.getD_eq_getElem?_getD, hi] at h3
        simp only [Option.getD_some] at h3
        exact lt_of_le_of_lt (h3.trans h2) h1
      have habove : ∀ x ∈ times.drop (up + 1), stop ≤ x := by
        intro x hx
        rw [List.mem_iff_getElem?] at hx
        obtain ⟨i, hi⟩ := hx
        rw [List.getElem?_drop] at hi
        have hlt : up + 1 + i < times.length := by
          by_contra hc
          rw [List.getElem?_eq_none (by omega)] at hi
          simp at hi
        have hr0 : rmax ≠ idx.length - 1 := by
          intro h0
          have : up = times.length - 1 := by rw [hup, h0, List.getD_eq_getElem?_getD, hv.last]; rfl
          omega
        have h1 := hstop hr0
        have h2 := hle rmax (by omega)
        have h3 := getD_mono times hs up (up + 1 + i) (by omega) hlt
        rw [List.getD_eq_getElem?_getD (i := up + 1 + i), hi] at h3
        simp only [Option.getD_some] at h3
        exact (h1.le.trans h2).trans h3
      have hcount : ∀ v, start ≤ v → v ≤ stop →
          searchsortedLeft times v = searchsortedLeft ((times.take (up + 1)).drop lo) v + lo := by
        intro v h1 h2
        conv_lhs => rw [hsplit]
        rw [searchsortedLeft_append, searchsortedLeft_append, searchsortedLeft_all _ v (fun x hx => lt_of_lt_of_le (hbelow x hx) h1),
          searchsortedLeft_none (times.drop (up + 1)) v (fun x hx => h2.trans (habove x hx)), List.length_take, min_eq_left (by omega)]
        omega
      rw [hcount start (le_refl _) hss, hcount stop hss (le_refl _)]
      congr 2
      push_cast
      ring
    · rw [if_neg (not_not.2 c1), if_pos c2, if_neg (fun h => c2 h.2)]
  · rw [if_pos c1, if_neg (fun h => c1 h.1)]

/-- **C65.** For a file sorted in time, whatever rows are probed on the way (from the first to the last row, in order), the range of rows found for an interval of times holds exactly the events with `start ≤ t < stop`. The function succeeds exactly when the interval lies
within the span of the events and the GTIs, and raises otherwise. -/
theorem rows_in_interval (times : List K) (hs : times.Pairwise (· ≤ ·)) (hne : times ≠ []) (minGti maxGti : K) (idx : List Nat)
    (hv : ValidEdges times.length idx) (start stop : K) (hss : start ≤ stop) :
    (min (times.getD 0 0) minGti ≤ start → stop ≤ max (times.getD (times.length - 1) 0) maxGti →
      ∃ lower upper, getIdx times minGti maxGti idx start stop = .ok (lower, upper) ∧
        ∀ (i : Nat) t, times[i]? = some t → (((lower : Int) ≤ i ∧ (i : Int) ≤ upper) ↔ (start ≤ t ∧ t < stop))) ∧
    (start < min (times.getD 0 0) minGti ∨ max (times.getD (times.length - 1) 0) maxGti < stop →
      getIdx times minGti maxGti idx start stop = .error .assertionError) := by
  rw [getIdx_eq times hs hne minGti maxGti idx hv start stop hss]
  constructor
  · intro h1 h2
    rw [if_pos ⟨h1, h2⟩]
    refine ⟨_, _, rfl, ?_⟩
    intro i t ht
    have e1 := Gti.lt_searchsortedLeft_iff times hs start i t ht
    have e2 := Gti.lt_searchsortedLeft_iff times hs stop i t ht
    rw [← not_lt (a := t), ← e1, ← e2]
    omega
  · intro h
    rw [if_neg]
    rintro ⟨h1, h2⟩
    rcases h with h | h
    · exact absurd h1 (not_le.2 h)
    · exact absurd h2 (not_le.2 h)

/-- the probed rows are those of the code -/
theorem rows_in_interval_code (times : List K) (hs : times.Pairwise (· ≤ ·)) (hne : times ≠ []) (minGti maxGti exposure start stop : K)
    (hss : start ≤ stop) (h1 : min (times.getD 0 0) minGti ≤ start) (h2 : stop ≤ max (times.getD (times.length - 1) 0) maxGti) :
    ∃ lower upper, getIdx times minGti maxGti (linspaceIdx times.length (numEdges times.length exposure start stop)) start stop =
        .ok (lower, upper) ∧
      ∀ (i : Nat) t, times[i]? = some t → (((lower : Int) ≤ i ∧ (i : Int) ≤ upper) ↔ (start ≤ t ∧ t < stop)) :=
  (rows_in_interval times hs hne minGti maxGti _
    (linspaceIdx_valid times.length _ (by unfold numEdges; omega)) start stop hss).1 h1 h2

example : getIdx [1, 2, 3, 4, 5, 6, 7, 8, 9, (10 : ℚ)] 0 11 (linspaceIdx 10 3) 3 (11/2) = .ok (2, 4) ∧
    getIdx [1, 2, 3, 4, 5, 6, 7, 8, 9, (10 : ℚ)] 0 11 (linspaceIdx 10 3) (-1) 5 = .error .assertionError := by
  decide +kernel

/-- the interval of times of a list of GTIs lies within the file -/
def InFile (r : Reader K) (gti : List (K × K)) : Prop :=
  (gti.headD (0, 0)).1 ≤ (gti.getLastD (0, 0)).2 ∧
    min (r.times.getD 0 0) (gtiMin r.gti) ≤ (gti.headD (0, 0)).1 ∧
    (gti.getLastD (0, 0)).2 ≤ max (r.times.getD (r.times.length - 1) 0) (gtiMax r.gti)

theorem chunkOf_eq (r : Reader K) (hs : r.times.Pairwise (· ≤ ·)) (hne : r.times ≠ []) (edges : K → K → List Nat)
    (hv : ∀ a b, ValidEdges r.times.length (edges a b)) (gti : List (K × K)) (hin : InFile r gti) :
    chunkOf r edges gti = .ok
      { times := (r.times.filter fun t => decide ((gti.headD (0, 0)).1 ≤ t ∧ t < (gti.getLastD (0, 0)).2)).map (· + r.timezero)
        gti := gti } := by
  unfold chunkOf
  dsimp only
  rw [getIdx_eq r.times hs hne _ _ _ (hv _ _) _ _ hin.1, if_pos ⟨hin.2.1, hin.2.2⟩]
  dsimp only
  congr 1
  unfold Reader.slice
  simp only [Chunk.mk.injEq, and_true]
  congr 1
  have e : ((searchsortedLeft r.times (gti.getLastD (0, 0)).2 : Int) - 1 + 1).toNat =
      searchsortedLeft r.times (gti.getLastD (0, 0)).2 := by omega
  rw [e, Gti.searchsortedLeft_take r.times hs]
  set a := (gti.headD (0, 0)).1
  set b := (gti.getLastD (0, 0)).2
  have hF : (r.times.filter fun x => decide (x < b)).Pairwise (· ≤ ·) := hs.filter _
  have e2 : searchsortedLeft r.times a = searchsortedLeft (r.times.filter fun x => decide (x < b)) a := by
    unfold searchsortedLeft
    rw [List.filter_filter]
    congr 1
    apply List.filter_congr
    intro x _
    rw [Bool.eq_iff_iff]
    simp only [decide_eq_true_eq, Bool.and_eq_true]
    exact ⟨fun h => ⟨h, lt_of_lt_of_le h hin.1⟩, fun h => h.1⟩
  rw [e2, Gti.searchsortedLeft_drop _ hF, List.filter_filter]
  apply List.filter_congr
  intro x _
  rw [Bool.eq_iff_iff]
  simp only [decide_eq_true_eq, Bool.and_eq_true]

/-- Two lists of GTIs that agree interval by interval to a thousandth of a second. -/
def CloseGti (a b : List (K × K)) : Prop :=
  a.length = b.length ∧ ∀ (i : Nat) (p q : K × K), a[i]? = some p → b[i]? = some q → |p.1 - q.1| < 1 / 1000 ∧ |p.2 - q.2| < 1 / 1000

theorem sameGti_iff (a b : List (K × K)) : sameGti a b = true ↔ CloseGti a b := by
  unfold sameGti CloseGti
  simp only [Bool.and_eq_true, decide_eq_true_eq, List.all_eq_true]
  refine and_congr_right fun _ => ⟨?_, ?_⟩
  · intro h i p q hp hq
    exact h (p, q) (List.mem_of_getElem? (i := i) (by rw [List.getElem?_zip_eq_some]; exact ⟨hp, hq⟩))
  · intro h x hx
    obtain ⟨i, hi⟩ := List.getElem?_of_mem hx
    rw [List.getElem?_zip_eq_some] at hi
    exact h i x.1 x.2 hi.1 hi.2

/-- **C65 (whole file).** When the first list agrees with the GTIs of the file to a thousandth of a second, the whole file comes back as one part: all its events, shifted by `TIMEZERO`. -/
theorem whole_file (r : Reader K) (edges : K → K → List Nat) (first : List (K × K)) (rest : List (List (K × K))) (h : CloseGti first r.gti) :
    applyGtiLists r edges (first :: rest) = .ok [{ times := r.times.map (· + r.timezero), gti := r.gti.map fun g => (g.1 + r.timezero, g.2 + r.timezero) }] := by
  unfold applyGtiLists
  dsimp only
  rw [(sameGti_iff first r.gti).2 h]
  simp [Reader.slice]

/-- **C65 (splitting, partial).** Splitting a file by lists of GTIs (none of which leaves the span of the file), when the first list is not the list of GTIs of the file, gives one part per non-empty list, in order, with that list as GTIs and with all the events from the
start of its first interval to the end of its last one.
Missing: a first list equal to the GTIs of the file followed by others (false, below). -/
theorem split_file_partial (r : Reader K) (hs : r.times.Pairwise (· ≤ ·)) (hne : r.times ≠ []) (edges : K → K → List Nat)
    (hv : ∀ a b, ValidEdges r.times.length (edges a b)) (lists : List (List (K × K)))
    (hin : ∀ g ∈ lists, g ≠ [] → InFile r g) (first : List (K × K)) (rest : List (List (K × K)))
    (hl : lists = first :: rest) (hdiff : ¬ CloseGti first r.gti) :
    applyGtiLists r edges lists = .ok ((lists.filter fun g => decide (g ≠ [])).map fun g =>
      { times := (r.times.filter fun t => decide ((g.headD (0, 0)).1 ≤ t ∧ t < (g.getLastD (0, 0)).2)).map (· + r.timezero)
        gti := g }) := by
  have hmain : ∀ ls : List (List (K × K)), (∀ g ∈ ls, g ≠ [] → InFile r g) →
      chunksOf r edges ls = .ok ((ls.filter fun g => decide (g ≠ [])).map fun g =>
        { times := (r.times.filter fun t => decide ((g.headD (0, 0)).1 ≤ t ∧ t < (g.getLastD (0, 0)).2)).map (· + r.timezero)
          gti := g }) := by
    intro ls
    induction ls with
    | nil => intro _; rfl
    | cons g ls ih =>
      intro h
      have ih' := ih (fun g' hg' => h g' (by simp [hg']))
      unfold chunksOf
      by_cases hg : g = []
      · rw [if_pos hg, ih', List.filter_cons_of_neg (by simp [hg])]
      · rw [if_neg hg, chunkOf_eq r hs hne edges hv g (h g (by simp) hg), ih', List.filter_cons_of_pos (by simp [hg])]
        rfl
  subst hl
  unfold applyGtiLists
  dsimp only
  rw [← sameGti_iff] at hdiff
  rw [if_neg hdiff]
  exact hmain _ hin

/-- **C65 (negation).** When the first list is that of the file, the others are ignored. -/
theorem split_file_drops_lists :
    applyGtiLists ({ times := [1, 2, 3], timezero := 0, gti := [(0, 4)] } : Reader ℚ) (fun _ _ => [0, 2]) [[(0, 4)], [(2, 4)]] =
      .ok [{ times := [1, 2, 3], gti := [(0, 4)] }] := by decide +kernel

/-- **C87 (partial).** With `TIMEZERO` zero, all the events of every part lie between the start and the end of its GTIs.
Missing: files with a non-zero `TIMEZERO` (false, below). -/
theorem split_times_in_gti_partial (r : Reader K) (hs : r.times.Pairwise (· ≤ ·)) (hne : r.times ≠ []) (edges : K → K → List Nat)
    (hv : ∀ a b, ValidEdges r.times.length (edges a b)) (gti : List (K × K)) (hin : InFile r gti) (hz : r.timezero = 0) (c : Chunk K)
    (h : chunkOf r edges gti = .ok c) :
    c.gti = gti ∧ ∀ t ∈ c.times, (gti.headD (0, 0)).1 ≤ t ∧ t < (gti.getLastD (0, 0)).2 := by
  rw [chunkOf_eq r hs hne edges hv gti hin] at h
  cases h
  refine ⟨rfl, ?_⟩
  intro t ht
  simp only [List.mem_map, List.mem_filter, decide_eq_true_eq] at ht
  obtain ⟨u, hu, rfl⟩ := ht
  rw [hz, add_zero]
  exact hu.2

/-- **C87 (negation).** With a non-zero `TIMEZERO`, the times are shifted and the GTIs of the part are not: here no event is inside the GTIs of its own part. (The whole file read at once has both shifted.) -/
theorem split_times_timezero :
    applyGtiLists ({ times := [1, 2, 3], timezero := 100, gti := [(0, 4)] } : Reader ℚ) (fun _ _ => [0, 2]) [[(0, 2)], [(2, 4)]] =
      .ok [{ times := [101], gti := [(0, 2)] }, { times := [102, 103], gti := [(2, 4)] }] ∧
    ({ times := [1, 2, 3], timezero := 100, gti := [(0, 4)] } : Reader ℚ).slice 0 3 = { times := [101, 102, 103], gti := [(100, 104)] } := by
  decide +kernel

/-! ### Split numbers -/

theorem modf_spec (x : K) : (modf x).1 + (modf x).2 = x ∧ (∃ n : ℤ, (modf x).2 = n) ∧ |(modf x).1| < 1 ∧
    (0 ≤ x → 0 ≤ (modf x).1 ∧ 0 ≤ (modf x).2) ∧ (x ≤ 0 → (modf x).1 ≤ 0 ∧ (modf x).2 ≤ 0) := by
  unfold modf
  by_cases h : 0 ≤ x
  · rw [if_pos h]
    have h1 := Int.floor_le x
    have h2 := Int.lt_floor_add_one x
    refine ⟨by ring, ⟨_, rfl⟩, ?_, ?_, ?_⟩
    · rw [abs_lt]; constructor <;> linarith
    · intro _
      exact ⟨by simpa using h1, by have := Int.floor_nonneg.2 h; dsimp only; exact_mod_cast this⟩
    · intro h'
      have : x = 0 := le_antisymm h' h
      subst this
      simp
  · rw [if_neg h]
    have h1 := Int.le_ceil x
    have h2 := Int.ceil_lt_add_one x
    refine ⟨by ring, ⟨_, rfl⟩, ?_, ?_, ?_⟩
    · rw [abs_lt]; constructor <;> linarith
    · intro h'; exact absurd h' h
    · intro h'
      refine ⟨by simpa using h1, ?_⟩
      have : ⌈x⌉ ≤ 0 := Int.ceil_le.2 (by simpa using h')
      dsimp only
      exact_mod_cast this

/-- **C66.** For every number and every shift, the two parts add up to the number exactly, the first is a multiple of `10^-shift`, the second is smaller than `10^-shift`, and neither has the sign opposite to the number. -/
theorem split_numbers_lossless (x : K) (shift : Int) :
    (splitNumber x shift).1 + (splitNumber x shift).2 = x ∧
    (∃ n : ℤ, (splitNumber x shift).1 * 10 ^ shift = n) ∧ |(splitNumber x shift).2| * 10 ^ shift < 1 ∧
    (0 ≤ x → 0 ≤ (splitNumber x shift).1 ∧ 0 ≤ (splitNumber x shift).2) ∧
    (x ≤ 0 → (splitNumber x shift).1 ≤ 0 ∧ (splitNumber x shift).2 ≤ 0) := by
  have hp : (0 : K) < 10 ^ shift := zpow_pos (by norm_num) _
  obtain ⟨h1, ⟨n, h2⟩, h3, h4, h5⟩ := modf_spec (x * 10 ^ shift)
  unfold splitNumber
  dsimp only
  refine ⟨?_, ⟨n, ?_⟩, ?_, ?_, ?_⟩
  · rw [← add_div, add_comm, h1]
    field_simp
  · rw [h2]
    field_simp
  · rw [abs_div, abs_of_pos hp, div_mul_cancel₀ _ hp.ne']
    exact h3
  · intro h
    have := h4 (by positivity)
    exact ⟨div_nonneg this.2 hp.le, div_nonneg this.1 hp.le⟩
  · intro h
    have := h5 (mul_nonpos_of_nonpos_of_nonneg h hp.le)
    exact ⟨div_nonpos_of_nonpos_of_nonneg this.2 hp.le, div_nonpos_of_nonpos_of_nonneg this.1 hp.le⟩

/-- **C66 (arrays).** An array is split number by number; the caller's array is kept as it was when the shift is 0. -/
theorem split_numbers_array (xs : List K) (shift : Int) :
    (splitArray xs shift).1 = (xs.map fun x => (splitNumber x shift).1, xs.map fun x => (splitNumber x shift).2) ∧
    (shift = 0 → (splitArray xs shift).2 = xs) := by
  unfold splitArray splitNumber
  constructor
  · simp [List.map_map, Function.comp_def]
  · rintro rfl
    simp

/-- **C66 (negation).** With another shift the caller's array is changed. -/
theorem split_numbers_mutates : (splitArray [(12 + 34/100 : ℚ)] 1).2 = [123 + 4/10] ∧
    splitNumber (12 + 34/100 : ℚ) 1 = (12 + 3/10, 4/100) ∧ splitNumber (-(12 + 34/100) : ℚ) (-1) = (-10, -(2 + 34/100)) := by
  decide +kernel

/-- **C90.** A number stored in a header under one keyword is read back as it is; stored as the two parts of `split_numbers`, with any shift, under the keyword (cut to 7 characters if it has 8) followed by I and F, it is read back exactly; otherwise the result is `None`. -/
theorem keyword_read_spec (hdr : List Char → Option K) (keyword stem : List Char)
    (hstem : stem = if keyword.length = 8 then keyword.take 7 else keyword) :
    (∀ x, hdr keyword = some x → keywordRead hdr keyword = some x) ∧
    (∀ x shift, hdr keyword = none → hdr (stem ++ ['I']) = some (splitNumber x shift).1 →
      hdr (stem ++ ['F']) = some (splitNumber x shift).2 → keywordRead hdr keyword = some x) ∧
    (hdr keyword = none → (hdr (stem ++ ['I']) = none ∨ hdr (stem ++ ['F']) = none) → keywordRead hdr keyword = none) := by
  subst hstem
  refine ⟨?_, ?_, ?_⟩
  · intro x h
    simp only [keywordRead, h]
  · intro x shift h hi hf
    simp only [keywordRead, h, hi, hf]
    rw [(split_numbers_lossless x shift).1]
  · intro h hn
    simp only [keywordRead, h]
    rcases hn with hn | hn
    · rw [hn]
    · rw [hn]
      split <;> rfl

example : keywordRead (fun k => if k = "MJDREFI".toList then some (55000 : ℚ) else if k = "MJDREFF".toList then some (1/8) else none)
    "MJDREF".toList = some (55000 + 1/8) := by decide +kernel

/-! ### Channels -/

/-- **C88.** With a response file that lists every channel once, `pi_to_energy` gives for every event, in order, the middle of the energy range of its channel, and 0 for channels that are not in the file. -/
theorem pi_to_energy_spec (cal : List (Int × K × K)) (hnd : (cal.map Prod.fst).Nodup) (pis : List Int) :
    (piToEnergy cal pis).length = pis.length ∧
    ∀ (i : Nat) c, pis[i]? = some c →
      (∀ lo hi, (c, lo, hi) ∈ cal → (piToEnergy cal pis)[i]? = some ((lo + hi) / 2)) ∧
      (c ∉ cal.map Prod.fst → (piToEnergy cal pis)[i]? = some 0) := by
  have hstep : ∀ (f : Int → K) (row : Int × K × K),
      piStep pis (pis.map f) row = pis.map fun c => if c = row.1 then (row.2.1 + row.2.2) / 2 else f c := by
    intro f row
    unfold piStep
    split_ifs with h
    · clear h
      induction pis with
      | nil => rfl
      | cons p ps ih => simp only [List.map_cons, List.zip_cons_cons, ih]
    · apply List.map_congr_left
      intro c hc
      rw [if_neg]
      rintro rfl
      exact h (by simpa using hc)
  have hfold : ∀ (cal : List (Int × K × K)) (f : Int → K), cal.foldl (piStep pis) (pis.map f) =
      pis.map (cal.foldl (fun f row => fun c => if c = row.1 then (row.2.1 + row.2.2) / 2 else f c) f) := by
    intro cal
    induction cal with
    | nil => intro f; rfl
    | cons row cal ih => intro f; rw [List.foldl_cons, List.foldl_cons, hstep, ih]
  have hval : ∀ (cal : List (Int × K × K)), (cal.map Prod.fst).Nodup → ∀ (f : Int → K) (c : Int),
      (∀ lo hi, (c, lo, hi) ∈ cal →
        cal.foldl (fun f row => fun c => if c = row.1 then (row.2.1 + row.2.2) / 2 else f c) f c = (lo + hi) / 2) ∧
      (c ∉ cal.map Prod.fst →
        cal.foldl (fun f row => fun c => if c = row.1 then (row.2.1 + row.2.2) / 2 else f c) f c = f c) := by
    intro cal
    induction cal with
    | nil => intro _ f c; simp
    | cons row cal ih =>
      intro hnd f c
      rw [List.map_cons, List.nodup_cons] at hnd
      obtain ⟨i1, i2⟩ := ih hnd.2 (fun c => if c = row.1 then (row.2.1 + row.2.2) / 2 else f c) c
      rw [List.foldl_cons]
      constructor
      · intro lo hi hm
        rcases List.mem_cons.1 hm with h | h
        · subst h
          rw [i2 hnd.1]
          simp
        · exact i1 lo hi h
      · intro hc
        rw [List.map_cons, List.mem_cons, not_or] at hc
        rw [i2 hc.2, if_neg hc.1]
  unfold piToEnergy
  rw [hfold cal (fun _ => 0)]
  refine ⟨by simp, ?_⟩
  intro i c hi
  rw [List.getElem?_map, hi]
  obtain ⟨h1, h2⟩ := hval cal hnd (fun _ => 0) c
  constructor
  · intro lo hi' hm
    rw [Option.map_some, h1 lo hi' hm]
  · intro hc
    rw [Option.map_some, h2 hc]

example : piToEnergy [(0, 1, 2), (1, 2, 3), (2, 3, (4 : ℚ))] [2, 0, 7, 2] = [7/2, 3/2, 0, 7/2] := by decide +kernel

/-! ### Names -/

theorem common_letters_comm (a b : List Char) :
    (a.zip b).filterMap (fun p => if p.2 = p.1 then some p.1 else none) =
      (b.zip a).filterMap (fun p => if p.2 = p.1 then some p.1 else none) := by
  induction a generalizing b with
  | nil => simp
  | cons x a ih =>
    cases b with
    | nil => simp
    | cons y b =>
      rw [List.zip_cons_cons, List.zip_cons_cons, List.filterMap_cons, List.filterMap_cons, ih b]
      by_cases h : y = x
      · subst h; rfl
      · rw [if_neg h, if_neg (fun h' => h h'.symm)]

theorem common_letters_sublist (a b : List Char) :
    ((a.zip b).filterMap (fun p => if p.2 = p.1 then some p.1 else none)).Sublist a := by
  induction a generalizing b with
  | nil => simp
  | cons x a ih =>
    cases b with
    | nil => simp
    | cons y b =>
      rw [List.zip_cons_cons, List.filterMap_cons]
      by_cases h : y = x
      · simp only [if_pos h]
        exact (ih b).cons_cons x
      · simp only [if_neg h]
        exact (ih b).cons x

theorem rstrip_sublist (c : Char) (s : List Char) : (rstrip c s).Sublist s := by
  unfold rstrip
  have := (List.dropWhile_sublist (fun x => x == c) (l := s.reverse)).reverse
  rwa [List.reverse_reverse] at this

theorem lstrip_sublist (c : Char) (s : List Char) : (lstrip c s).Sublist s := List.dropWhile_sublist _

theorem rstrip_last (c : Char) (s : List Char) : (rstrip c s).getLast? ≠ some c := by
  unfold rstrip
  rw [List.getLast?_reverse]
  intro h
  have := List.head?_dropWhile_not (fun x => x == c) s.reverse
  rw [h] at this
  simp at this

theorem lstrip_head (c : Char) (s : List Char) : (lstrip c s).head? ≠ some c := by
  unfold lstrip
  intro h
  have := List.head?_dropWhile_not (fun x => x == c) s
  rw [h] at this
  simp at this

theorem lstrip_last (c d : Char) (s : List Char) (h : s.getLast? ≠ some d) : (lstrip c s).getLast? ≠ some d := by
  unfold lstrip
  intro hc
  have hs : s = s.takeWhile (fun x => x == c) ++ s.dropWhile (fun x => x == c) := List.takeWhile_append_dropWhile.symm
  apply h
  rw [hs, List.getLast?_append, hc]
  rfl

/-- **C89 (partial).** The common name of two names does not depend on their order. It is the default for names of different lengths; otherwise it is the default or a non-empty part of the letters of both, in order, that neither begins nor ends with a dash.
Missing: that it neither begins nor ends with an underscore (false, below). -/
theorem common_name_spec_partial (a b default : List Char) :
    commonName a b default = commonName b a default ∧
    (a.length ≠ b.length → commonName a b default = default) ∧
    (commonName a b default = default ∨ (commonName a b default ≠ [] ∧ (commonName a b default).Sublist a ∧
      (commonName a b default).Sublist b ∧ (commonName a b default).head? ≠ some '-' ∧
      (commonName a b default).getLast? ≠ some '-')) := by
  refine ⟨?_, ?_, ?_⟩
  · unfold commonName
    rw [common_letters_comm a b]
    by_cases h : a.length = b.length
    · simp [h]
    · rw [if_pos h, if_pos (fun h' => h h'.symm)]
  · intro h
    unfold commonName
    rw [if_pos h]
  · unfold commonName
    by_cases h : a.length = b.length
    · rw [if_neg (by simpa using h)]
      dsimp only
      set s := lstrip '-' (lstrip '_' (rstrip '-' (rstrip '_' ((a.zip b).filterMap fun p => if p.2 = p.1 then some p.1 else none))))
        with hs
      by_cases he : s = []
      · left; rw [if_pos he]
      · right
        rw [if_neg he]
        have hsub : s.Sublist ((a.zip b).filterMap fun p => if p.2 = p.1 then some p.1 else none) :=
          ((lstrip_sublist _ _).trans (lstrip_sublist _ _)).trans ((rstrip_sublist _ _).trans (rstrip_sublist _ _))
        refine ⟨he, hsub.trans (common_letters_sublist a b), ?_, lstrip_head _ _, ?_⟩
        · rw [common_letters_comm a b] at hsub
          exact hsub.trans (common_letters_sublist b a)
        · exact lstrip_last _ _ _ (lstrip_last _ _ _ (rstrip_last _ _))
    · left; rw [if_pos h]

/-- **C89 (negation).** Leading and trailing underscores are not always removed: one before a final dash stays. -/
theorem common_name_underscore :
    commonName "nuA_-1".toList "nuA_-2".toList "common".toList = "nuA_".toList ∧
    commonName "A-_nu".toList "B-_nu".toList "common".toList = "_nu".toList := by decide +kernel

example : commonName "obsA_evt".toList "obsB_evt".toList "common".toList = "obs_evt".toList := by decide +kernel

end Stingray.Io

import Verif.Model.TimeSplit
import Verif.Props.TimeSeriesItems
import Verif.Props.Io

/-!
# C146: splitting a time series by lists of GTIs
-/

set_option linter.unusedSectionVars false

namespace Stingray.TimeSeries

open Stingray.Gti Stingray.Spec

variable {K V : Type} [Field K] [LinearOrder K] [IsStrictOrderedRing K] [FloorRing K]

/-- The chunk of a list of GTIs: the rows, in order, from the start of the first interval to the end of the last one; of several rows at the very end only the first one. Times and all array attributes are taken at the same positions. -/
def IsChunk (s : TS K V) (gti : List (K × K)) (c : TS K V) : Prop :=
  c.gti = some gti ∧ c.mask = none ∧ ∃ idx : List Nat, idx.Pairwise (· < ·) ∧
    (∀ i : Nat, i ∈ idx ↔ ∃ t, s.time[i]? = some t ∧ (gti.headD (0, 0)).1 ≤ t ∧
      (t < (gti.getLastD (0, 0)).2 ∨ t = (gti.getLastD (0, 0)).2 ∧ ∀ (j : Nat) (u : K), j < i → s.time[j]? = some u → u < t)) ∧
    Rows idx s.time c.time ∧
    List.Forall₂ (fun old x => old.1 = x.1 ∧ Rows idx old.2 x.2) s.attrs c.attrs

theorem upper_spec (time : List K) (hs : time.Pairwise (· ≤ ·)) (stop : K) (t : K) (upper : Int)
    (hu : upper = if searchsortedLeft time stop = time.length then (searchsortedLeft time stop : Int) - 1 else searchsortedLeft time stop)
    (ht : time[upper.toNat]? = some t) (i : Nat) (x : K) (hx : time[i]? = some x) :
    0 ≤ upper ∧ upper + 1 ≤ time.length ∧ ((i : Int) < (if stop < t then upper - 1 else upper) + 1 ↔
      (x < stop ∨ x = stop ∧ ∀ (j : Nat) (u : K), j < i → time[j]? = some u → u < x)) := by
  have hi := (List.getElem?_eq_some_iff.1 hx).1
  have hle := searchsortedLeft_le time stop
  have hiff := lt_searchsortedLeft_iff time hs stop i x hx
  have h0 : 0 ≤ upper := by rw [hu]; split_ifs <;> omega
  refine ⟨h0, by rw [hu]; split_ifs <;> omega, ?_⟩
  have hmono : ∀ (a b : Nat) (u v : K), a ≤ b → time[a]? = some u → time[b]? = some v → u ≤ v := by
    intro a b u v hab hu hv
    obtain ⟨ha, rfl⟩ := List.getElem?_eq_some_iff.1 hu
    obtain ⟨hb, rfl⟩ := List.getElem?_eq_some_iff.1 hv
    rcases hab.lt_or_eq with h | rfl
    · exact List.pairwise_iff_getElem.1 hs a b ha hb h
    · exact le_rfl
  by_cases hend : searchsortedLeft time stop = time.length
  · -- all times are before the end
    rw [if_pos hend] at hu
    have htl : t < stop := by
      refine (lt_searchsortedLeft_iff time hs stop upper.toNat t ht).1 ?_
      omega
    rw [if_neg (not_lt.2 htl.le)]
    have hxl : x < stop := hiff.1 (by omega)
    constructor
    · intro _; exact Or.inl hxl
    · intro _; omega
  · rw [if_neg hend] at hu
    have hupn : upper.toNat = searchsortedLeft time stop := by omega
    rw [hupn] at ht
    have htge : stop ≤ t := by
      by_contra hc
      have := (lt_searchsortedLeft_iff time hs stop _ t ht).2 (not_le.1 hc)
      omega
    by_cases hts : stop < t
    · rw [if_pos hts]
      constructor
      · intro h; exact Or.inl (hiff.1 (by omega))
      · rintro (h | ⟨h, hj⟩)
        · have := hiff.2 h; omega
        · exfalso
          -- x = stop sits at or after the first time that is not before stop
          have h1 : ¬ i < searchsortedLeft time stop := fun hc => by
            have := hiff.1 hc; rw [h] at this; exact lt_irrefl _ this
          have := hmono _ i t x (Nat.not_lt.1 h1) ht hx
          rw [h] at this
          exact absurd this (not_le.2 hts)
    · rw [if_neg hts]
      have hte : t = stop := le_antisymm (not_lt.1 hts) htge
      constructor
      · intro h
        by_cases hlt : i < searchsortedLeft time stop
        · exact Or.inl (hiff.1 hlt)
        · have hie : i = searchsortedLeft time stop := by omega
          rw [← hie, hx] at ht
          have hxs : x = stop := by rw [← hte]; exact Option.some.inj ht
          refine Or.inr ⟨hxs, fun j u hj huj => ?_⟩
          rw [hxs]
          exact (lt_searchsortedLeft_iff time hs stop j u huj).1 (by omega)
      · rintro (h | ⟨h, hj⟩)
        · have := hiff.2 h; omega
        · by_contra hc
          have : searchsortedLeft time stop < i := by omega
          have h2 := hj _ t this ht
          rw [h, hte] at h2
          exact lt_irrefl _ h2

theorem gtiChunk_spec (order : KeySort (fun (x : (K × K) × Bool) => x.1.2)) (s : TS K V) (hs : s.time.Pairwise (· ≤ ·)) (ha : Aligned s)
    (gti : List (K × K)) (c : TS K V) (h : gtiChunk order s gti = .ok c) : IsChunk s gti c := by
  unfold gtiChunk at h
  simp only at h
  set start := (gti.headD (0, 0)).1
  set stop := (gti.getLastD (0, 0)).2
  generalize hu : (if searchsortedLeft s.time stop = s.time.length then (searchsortedLeft s.time stop : Int) - 1 else searchsortedLeft s.time stop) = upper at h
  cases ht : s.time[upper.toNat]? with
  | none => rw [ht] at h; cases h
  | some t =>
    rw [ht] at h
    simp only at h
    cases hg : getItem order s (.slice (some ((searchsortedLeft s.time start : Nat) : Int)) (some ((if stop < t then upper - 1 else upper) + 1)) none) with
    | error e => rw [hg] at h; cases h
    | ok ev =>
      rw [hg] at h
      cases h
      obtain ⟨new, hnew, h1, h2, _⟩ := getitem_rows order s ev _ hg
      obtain ⟨idx, hp, hi, hr, hf⟩ := getitem_slice_partial s new _ _ none ha (by simp) hnew
      refine ⟨rfl, rfl, idx, hp, fun i => ?_, by simpa [setGti, h1] using hr, by simpa [setGti, h2] using hf⟩
      rw [hi]
      simp only [Option.getD_some, Option.getD_none, one_dvd, and_true]
      have hn := searchsortedLeft_le s.time start
      have hcl : clipBound s.time.length ((searchsortedLeft s.time start : Nat) : Int) = (searchsortedLeft s.time start : Nat) := by
        unfold clipBound; split_ifs <;> omega
      rw [hcl]
      constructor
      · rintro ⟨h3, h4⟩
        have hin : i < s.time.length := by
          have : clipBound s.time.length ((if stop < t then upper - 1 else upper) + 1) ≤ s.time.length := by unfold clipBound; split_ifs <;> omega
          omega
        have hx : s.time[i]? = some s.time[i] := List.getElem?_eq_getElem hin
        obtain ⟨u0, u1, u2⟩ := upper_spec s.time hs stop t upper hu.symm ht i _ hx
        have hcl2 : clipBound s.time.length ((if stop < t then upper - 1 else upper) + 1) = (if stop < t then upper - 1 else upper) + 1 := by
          generalize hw : (if stop < t then upper - 1 else upper) + 1 = w
          have : 0 ≤ w ∧ w ≤ s.time.length := by rw [← hw]; split_ifs <;> omega
          unfold clipBound; split_ifs <;> omega
        rw [hcl2] at h4
        refine ⟨_, hx, ?_, u2.1 h4⟩
        by_contra hc
        have := (lt_searchsortedLeft_iff s.time hs start i _ hx).2 (not_le.1 hc)
        omega
      · rintro ⟨x, hx, h3, h4⟩
        obtain ⟨u0, u1, u2⟩ := upper_spec s.time hs stop t upper hu.symm ht i x hx
        have hcl2 : clipBound s.time.length ((if stop < t then upper - 1 else upper) + 1) = (if stop < t then upper - 1 else upper) + 1 := by
          generalize hw : (if stop < t then upper - 1 else upper) + 1 = w
          have : 0 ≤ w ∧ w ≤ s.time.length := by rw [← hw]; split_ifs <;> omega
          unfold clipBound; split_ifs <;> omega
        rw [hcl2]
        refine ⟨?_, u2.2 h4⟩
        by_contra hc
        have := (lt_searchsortedLeft_iff s.time hs start i x hx).1 (by omega)
        exact absurd h3 (not_le.2 this)

/-- **C146 (partial).** Splitting a sorted time series by lists of GTIs, the first of which is not (to a thousandth of a second) that of the series, when it succeeds: there is one part for each list that is not empty, in order; its GTIs are the list, and its rows are those from the start of the first interval to the end of the last one. Missing: of several rows at exactly the end only the first is kept; lists without rows raise; and a first list equal to that of the series (see the negations). -/
theorem split_rows_partial (order : KeySort (fun (x : (K × K) × Bool) => x.1.2)) (s : TS K V) (hs : s.time.Pairwise (· ≤ ·)) (ha : Aligned s)
    (g first : List (K × K)) (rest : List (List (K × K))) (hg : (gtiGet s).1 = some g) (hne : ¬ Io.CloseGti first g) (cs : List (TS K V))
    (h : applyGtiLists order s (first :: rest) = .ok cs) :
    List.Forall₂ (IsChunk s) ((first :: rest).filter fun l => decide (l ≠ [])) cs := by
  have key : ∀ (lists : List (List (K × K))) (cs : List (TS K V)), gtiChunks order s lists = .ok cs →
      List.Forall₂ (IsChunk s) (lists.filter fun l => decide (l ≠ [])) cs := by
    intro lists
    induction lists with
    | nil => intro cs h; cases h; exact List.Forall₂.nil
    | cons l lists ih =>
      intro cs h
      unfold gtiChunks at h
      by_cases hl : l = []
      · rw [if_pos hl] at h
        rw [List.filter_cons_of_neg (by simp [hl])]
        exact ih cs h
      · rw [if_neg hl] at h
        rw [List.filter_cons_of_pos (by simp [hl])]
        cases hc : gtiChunk order s l with
        | error e => rw [hc] at h; cases h
        | ok c =>
          rw [hc] at h
          simp only at h
          cases hcs : gtiChunks order s lists with
          | error e => rw [hcs] at h; cases h
          | ok ds =>
            rw [hcs] at h
            cases h
            exact List.Forall₂.cons (gtiChunk_spec order s hs ha l c hc) (ih ds hcs)
  simp only [applyGtiLists, hg] at h
  rw [if_neg (by rw [Io.sameGti_iff]; exact hne)] at h
  exact key _ cs h

/-- A series split in two. -/
example : applyGtiLists (stableSort _) (⟨[1, 2, 3, 4, 5], [("x", [10, 20, 30, 40, 50])], some [(0, 6)], none, 0, 1⟩ : TS ℚ ℚ) [[(0, 2)], [], [(5/2, 7/2), (4, 6)]] =
    .ok [⟨[1, 2], [("x", [10, 20])], some [(0, 2)], none, 0, 1⟩, ⟨[3, 4, 5], [("x", [30, 40, 50])], some [(5/2, 7/2), (4, 6)], none, 0, 1⟩] := by decide +kernel

/-- **C146 (negation).** Of two events at exactly the end of the last interval one is lost. -/
theorem split_loses_event : applyGtiLists (stableSort _) (⟨[1, 2, 2, 3], [("x", [10, 20, 21, 30])], some [(0, 6)], none, 0, 1⟩ : TS ℚ ℚ) [[(0, 2)]] =
    .ok [⟨[1, 2], [("x", [10, 20])], some [(0, 2)], none, 0, 1⟩] := by decide +kernel

/-- **C146 (negation).** If the first list agrees with the GTIs of the series, the whole series comes back as the only part, and all the other lists are ignored. -/
theorem split_ignores_lists (order : KeySort (fun (x : (K × K) × Bool) => x.1.2)) (s : TS K V) (g first : List (K × K)) (rest : List (List (K × K)))
    (hg : (gtiGet s).1 = some g) (hc : Io.CloseGti first g) : applyGtiLists order s (first :: rest) = applyGtiLists order s [first] := by
  simp only [applyGtiLists, hg]
  rw [if_pos ((Io.sameGti_iff _ _).2 hc), if_pos ((Io.sameGti_iff _ _).2 hc)]

/-- **C146 (negation).** A list of GTIs without any row of the series makes the splitting fail with `TypeError`, instead of giving an empty part or none: for all sorted series. -/
theorem split_empty_raises (order : KeySort (fun (x : (K × K) × Bool) => x.1.2)) (s : TS K V) (hs : s.time.Pairwise (· ≤ ·)) (ha : Aligned s) (hne : s.time ≠ [])
    (g : K × K) (gs : List (K × K)) (hno : ∀ t ∈ s.time, t < ((g :: gs).headD (0, 0)).1 ∨ ((g :: gs).getLastD (0, 0)).2 < t) :
    gtiChunk order s (g :: gs) = .error .typeError := by
  unfold gtiChunk
  simp only
  set start := ((g :: gs).headD (0, 0)).1
  set stop := ((g :: gs).getLastD (0, 0)).2
  generalize hu : (if searchsortedLeft s.time stop = s.time.length then (searchsortedLeft s.time stop : Int) - 1 else searchsortedLeft s.time stop) = upper
  have hlen := List.length_pos_iff.2 hne
  have hle := searchsortedLeft_le s.time stop
  have hup : upper.toNat < s.time.length := by rw [← hu]; split_ifs <;> omega
  have ht : s.time[upper.toNat]? = some s.time[upper.toNat] := List.getElem?_eq_getElem hup
  rw [ht]
  simp only
  set t := s.time[upper.toNat]
  have hempty : sliceIdx s.time.length ((searchsortedLeft s.time start : Nat) : Int) ((if stop < t then upper - 1 else upper) + 1) 1 = [] := by
    rw [List.eq_nil_iff_forall_not_mem]
    intro i hi
    obtain ⟨h3, h4, _⟩ := ((sliceIdx_spec s.time.length _ _ 1 one_pos).2 i).1 hi
    have hn := searchsortedLeft_le s.time start
    have hcl : clipBound s.time.length ((searchsortedLeft s.time start : Nat) : Int) = (searchsortedLeft s.time start : Nat) := by
      unfold clipBound; split_ifs <;> omega
    rw [hcl] at h3
    have hin : i < s.time.length := by
      have : clipBound s.time.length ((if stop < t then upper - 1 else upper) + 1) ≤ s.time.length := by unfold clipBound; split_ifs <;> omega
      omega
    have hx : s.time[i]? = some s.time[i] := List.getElem?_eq_getElem hin
    obtain ⟨u0, u1, u2⟩ := upper_spec s.time hs stop t upper hu.symm ht i _ hx
    have hcl2 : clipBound s.time.length ((if stop < t then upper - 1 else upper) + 1) = (if stop < t then upper - 1 else upper) + 1 := by
      generalize hw : (if stop < t then upper - 1 else upper) + 1 = w
      have : 0 ≤ w ∧ w ≤ s.time.length := by rw [← hw]; split_ifs <;> omega
      unfold clipBound; split_ifs <;> omega
    rw [hcl2] at h4
    have hxs := u2.1 h4
    have hge : start ≤ s.time[i] := by
      by_contra hc
      have := (lt_searchsortedLeft_iff s.time hs start i _ hx).2 (not_le.1 hc)
      omega
    rcases hno s.time[i] (List.getElem_mem hin) with h | h
    · exact absurd hge (not_le.2 h)
    · rcases hxs with h' | ⟨h', _⟩
      · exact absurd h (not_lt.2 h'.le)
      · rw [h'] at h; exact lt_irrefl _ h
  have hg : getItem order s (.slice (some ((searchsortedLeft s.time start : Nat) : Int)) (some ((if stop < t then upper - 1 else upper) + 1)) none) = .error .typeError := by
    unfold getItem objGetItem
    simp only [Option.getD_some, Option.getD_none, one_ne_zero, if_false, hempty, bind, Except.bind, List.filterMap_nil, List.head?_nil]
  rw [hg]

/-- A series with such an interval. -/
example : applyGtiLists (stableSort _) (⟨[1, 2, 7], [], some [(0, 8)], none, 0, 1⟩ : TS ℚ ℚ) [[(0, 3)], [(4, 6)], [(6, 8)]] = .error .typeError := by decide +kernel

/-- **C146 (intervals, partial).** Selecting time intervals without regard to GTIs, when it succeeds and the first interval is not the only GTI of the series: one part for each interval, with the interval as GTI and the rows from its start to its end (of several rows at the end only the first one). -/
theorem filter_intervals_partial (order : KeySort (fun (x : (K × K) × Bool) => x.1.2)) (s : TS K V) (hs : s.time.Pairwise (· ≤ ·)) (ha : Aligned s)
    (g : List (K × K)) (t : K × K) (ts : List (K × K)) (hg : (gtiGet s).1 = some g) (hne : ¬ Io.CloseGti [t] g) (cs : List (TS K V))
    (h : filterAtTimeIntervals order s (t :: ts) false = .ok cs) :
    List.Forall₂ (fun t c => IsChunk s [t] c) (t :: ts) cs := by
  have hl : ∀ l : List (K × K), intervalGtis order g false l = .ok (l.map fun t => [t]) := by
    intro l
    induction l with
    | nil => rfl
    | cons a l ih => simp only [intervalGtis, ih, Bool.false_eq_true, if_false, List.map_cons]
  simp only [filterAtTimeIntervals, hg, hl] at h
  have := split_rows_partial order s hs ha g [t] (ts.map fun t => [t]) hg hne cs h
  have hf : (([t] :: ts.map fun t => [t]).filter fun l : List (K × K) => decide (l ≠ [])) = (t :: ts).map fun t => [t] := by
    rw [List.filter_eq_self.2]
    · rfl
    · intro l hl
      have : l ∈ (t :: ts).map fun t => [t] := hl
      obtain ⟨x, _, rfl⟩ := List.mem_map.1 this
      simp
  rw [hf, List.forall₂_map_left_iff] at this
  exact this

/-- **C146 (intervals, GTIs, partial).** With the GTIs taken into account (the default), each interval is replaced by its intersection with the GTIs of the series, and intervals outside of the GTIs give no part. -/
theorem filter_intervals_checked_partial (order : KeySort (fun (x : (K × K) × Bool) => x.1.2)) (s : TS K V) (hs : s.time.Pairwise (· ≤ ·)) (ha : Aligned s)
    (g : List (K × K)) (t : K × K) (ts : List (K × K)) (hg : (gtiGet s).1 = some g) (cs : List (TS K V))
    (h : filterAtTimeIntervals order s (t :: ts) true = .ok cs) :
    ∃ lists, List.Forall₂ (fun t l => crossTwoGtis order g [t] = .ok l) (t :: ts) lists ∧
      (∀ first, lists.head? = some first → ¬ Io.CloseGti first g → List.Forall₂ (IsChunk s) (lists.filter fun l => decide (l ≠ [])) cs) := by
  have hl : ∀ (l : List (K × K)) (r : List (List (K × K))), intervalGtis order g true l = .ok r →
      List.Forall₂ (fun t l => crossTwoGtis order g [t] = .ok l) l r := by
    intro l
    induction l with
    | nil => intro r h; cases h; exact List.Forall₂.nil
    | cons a l ih =>
      intro r h
      simp only [intervalGtis, if_true] at h
      cases hc : crossTwoGtis order g [a] with
      | error e => rw [hc] at h; cases h
      | ok x =>
        rw [hc] at h
        cases hi : intervalGtis order g true l with
        | error e => rw [hi] at h; cases h
        | ok r' =>
          rw [hi] at h
          cases h
          exact List.Forall₂.cons hc (ih r' hi)
  simp only [filterAtTimeIntervals, hg] at h
  cases hi : intervalGtis order g true (t :: ts) with
  | error e => rw [hi] at h; cases h
  | ok lists =>
    rw [hi] at h
    simp only at h
    refine ⟨lists, hl _ _ hi, fun first hf hne => ?_⟩
    cases lists with
    | nil => cases hf
    | cons l ls =>
      cases hf
      exact split_rows_partial order s hs ha g first ls hg hne cs h

/-- Intervals of a series, the second one outside its GTIs. -/
example : filterAtTimeIntervals (stableSort _) (⟨[1, 2, 3, 4, 5], [("x", [10, 20, 30, 40, 50])], some [(0, 7/2)], none, 0, 1⟩ : TS ℚ ℚ) [(1/2, 5/2), (9/2, 6)] true =
    .ok [⟨[1, 2], [("x", [10, 20])], some [(1/2, 5/2)], none, 0, 1⟩] := by decide +kernel

end Stingray.TimeSeries

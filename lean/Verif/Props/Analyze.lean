import Verif.Model.Analyze
import Verif.Props.GtiSegments
import Mathlib.Algebra.Order.Ring.Rat
import Mathlib.Data.Rat.Floor
import Mathlib.Tactic.NormNum

/-!
# Properties C122 (analysing segments) and C123 (segment sizes)
-/

set_option linter.unusedSectionVars false

namespace Stingray.Analyze

open Stingray Stingray.Spec Stingray.Gti

variable {K : Type} [Field K] [LinearOrder K] [IsStrictOrderedRing K] {V R : Type}

/-- the samples with times in `[a, b)` -/
def rowsIn (rows : List (K × V)) (a b : K) : List (K × V) := rows.filter fun r => decide (a ≤ r.1 ∧ r.1 < b)

theorem slice_rows (rows : List (K × V)) (hs : (rows.map Prod.fst).Pairwise (· ≤ ·)) (a b : K) :
    ((rows.take (searchsortedLeft (rows.map Prod.fst) b)).drop (searchsortedLeft (rows.map Prod.fst) a)) = rowsIn rows a b := by
  unfold rowsIn
  induction rows with
  | nil => simp
  | cons r rs ih =>
    rw [List.map_cons] at hs
    have hs' := (List.pairwise_cons.1 hs)
    have ih := ih hs'.2
    unfold searchsortedLeft at ih ⊢
    by_cases h1 : r.1 < b
    · by_cases h2 : r.1 < a
      · have h3 : ¬ a ≤ r.1 := not_le.2 h2
        simp only [List.map_cons, List.filter_cons, h1, h2, h3, decide_true, if_true, false_and, decide_false, List.length_cons, List.take_succ_cons, List.drop_succ_cons]
        exact ih
      · have h0 : (rs.map Prod.fst).filter (fun x => decide (x < a)) = [] := by
          rw [List.filter_eq_nil_iff]
          intro x hx
          simp only [decide_eq_true_eq, not_lt]
          exact (not_lt.1 h2).trans (hs'.1 x hx)
        rw [h0] at ih
        simp only [List.map_cons, List.filter_cons, h1, h2, h0, not_lt.1 h2, decide_true, if_true, true_and, decide_false, List.length_cons, List.length_nil, List.take_succ_cons, List.drop_zero] at ih ⊢
        rw [← ih]
        rfl
    · have h0 : (rs.map Prod.fst).filter (fun x => decide (x < b)) = [] := by
        rw [List.filter_eq_nil_iff]
        intro x hx
        simp only [decide_eq_true_eq, not_lt]
        exact (not_lt.1 h1).trans (hs'.1 x hx)
      rw [h0] at ih
      simp only [List.map_cons, List.filter_cons, h1, h0, and_false, decide_false, List.length_nil, List.take_zero, List.drop_nil] at ih ⊢
      rw [← ih]
      simp

theorem slice_rows_length (rows : List (K × V)) (hs : (rows.map Prod.fst).Pairwise (· ≤ ·)) (a b : K) :
    (rowsIn rows a b).length = searchsortedLeft (rows.map Prod.fst) b - searchsortedLeft (rows.map Prod.fst) a := by
  rw [← slice_rows rows hs, List.length_drop, List.length_take, Nat.min_eq_left]
  have : searchsortedLeft (rows.map Prod.fst) b ≤ (rows.map Prod.fst).length := by
    unfold searchsortedLeft
    exact List.length_filter_le _ _
  simpa using this

theorem run_timeRanges (rows : List (K × V)) (hs : (rows.map Prod.fst).Pairwise (· ≤ ·)) (func : List (K × V) → K × K → R) (segs : List (K × K)) :
    runSegments rows func (timeRanges (rows.map Prod.fst) segs) =
      (segs.filter fun s => decide (2 ≤ (rowsIn rows s.1 s.2).length)).map fun s => func (rowsIn rows s.1 s.2) s := by
  unfold runSegments timeRanges
  induction segs with
  | nil => rfl
  | cons s segs ih =>
    simp only [List.map_cons, List.filterMap_cons, List.filter_cons]
    rw [← slice_rows_length rows hs, slice_rows rows hs, ih]
    by_cases h : 2 ≤ (rowsIn rows s.1 s.2).length
    · rw [if_neg (by omega)]
      simp [h]
    · rw [if_pos (by omega)]
      simp [h]

theorem forall2_mem {α β : Type} {P Q : α → β → Prop} {l : List α} {m : List β} (h : List.Forall₂ P l m) (hpq : ∀ a b, a ∈ l → P a b → Q a b) :
    List.Forall₂ Q l m := by
  induction h with
  | nil => exact .nil
  | cons hab _ ih => exact .cons (hpq _ _ (by simp) hab) (ih fun a b ha => hpq a b (by simp [ha]))

theorem forall2_mem_right {α β : Type} {P : α → β → Prop} {l : List α} {m : List β} (h : List.Forall₂ P l m) {b : β} (hb : b ∈ m) : ∃ a ∈ l, P a b := by
  induction h with
  | nil => cases hb
  | cons hab _ ih =>
    rcases List.mem_cons.1 hb with rfl | hb
    · exact ⟨_, by simp, hab⟩
    · obtain ⟨a, ha, h⟩ := ih hb
      exact ⟨a, by simp [ha], h⟩

section
variable [FloorRing K]

/-- **C122 (events, partial).** On an event list (`dt` not positive, sorted times), `analyze_segments` calls the function once for each segment of `time_intervals_from_gtis` with at least two events, in order, with
exactly the events of the segment and the segment as only GTI, and returns the times of the segments and the values. Missing: the segments with less than two events have times but no value, see `analyze_misaligned`. -/
theorem analyze_events_partial (rows : List (K × V)) (hs : (rows.map Prod.fst).Pairwise (· ≤ ·)) (gti : List (K × K)) (dt : K) (hdt : ¬ dt > 0)
    (func : List (K × V) → K × K → R) (size frac eps : K) (nbin step : K → Nat) (segs : List (K × K)) (h : timeIntervalsFromGtis gti size frac eps = .ok segs) :
    analyzeSegments rows gti dt func (some size) frac eps nbin step =
      .ok (segs, (segs.filter fun s => decide (2 ≤ (rowsIn rows s.1 s.2).length)).map fun s => func (rowsIn rows s.1 s.2) s) := by
  unfold analyzeSegments segmentsOf
  simp only [if_neg hdt, h, Except.map, run_timeRanges rows hs]
  simp [timeRanges, Function.comp_def]

/-- **C122 (GTIs, partial).** Without a segment size the function is called for each GTI with at least two samples. -/
theorem analyze_gtis_partial (rows : List (K × V)) (hs : (rows.map Prod.fst).Pairwise (· ≤ ·)) (gti : List (K × K)) (dt : K)
    (func : List (K × V) → K × K → R) (frac eps : K) (nbin step : K → Nat) :
    analyzeSegments rows gti dt func none frac eps nbin step =
      .ok (gti, (gti.filter fun s => decide (2 ≤ (rowsIn rows s.1 s.2).length)).map fun s => func (rowsIn rows s.1 s.2) s) := by
  unfold analyzeSegments segmentsOf
  simp only [Except.map, run_timeRanges rows hs]
  simp [timeRanges, Function.comp_def]

example : analyzeSegments [((1 : ℚ), ()), (2, ()), (5, ()), (6, ()), (7, ())] [(0, 8)] 0 (fun rows _ => rows.length) (some 4) 1 (1/1000) (fun _ => 0) (fun _ => 0) =
    .ok ([(0, 4), (4, 8)], [2, 3]) := by decide +kernel

/-- **C122 (alignment, negation).** When a segment is skipped, its times are still returned: the values no longer belong to the times at the same position. Here the only value, three events, was measured in the second segment. -/
theorem analyze_misaligned :
    analyzeSegments [((1 : ℚ), ()), (5, ()), (6, ()), (7, ())] [(0, 8)] 0 (fun rows _ => rows.length) (some 4) 1 (1/1000) (fun _ => 0) (fun _ => 0) =
      .ok ([(0, 4), (4, 8)], [3]) := by decide +kernel

/-- **C122 (binned, partial).** On a binned series (increasing times), with segments of at least two bins that do not overlap, the function is called for every segment, with the `nbin` consecutive samples of the segment, all wholly inside one
GTI; the times start at the beginning of the first bin. Missing: the end times, which are one bin too late. -/
theorem analyze_binned_partial (rows : List (K × V)) (hs : (rows.map Prod.fst).Pairwise (· < ·)) (gti : List (K × K)) (dt : K) (hdt : 0 < dt)
    (func : List (K × V) → K × K → R) (size frac eps : K) (nbin step : K → Nat) (hn : 2 ≤ nbin size) (hstep : nbin size ≤ step size) (ranges : List (Nat × Nat))
    (h : binIntervalsFromGtis gti size (rows.map Prod.fst) dt eps (nbin size) (step size) = .ok ranges) :
    ∃ times results, analyzeSegments rows gti dt func (some size) frac eps nbin step = .ok (times, results) ∧
      List.Forall₂ (fun (r : Nat × Nat) p => ∃ seg : List (K × V), seg.length = nbin size ∧ (∀ k < nbin size, seg[k]? = rows[r.1 + k]?) ∧
        (∃ first last, seg.head? = some first ∧ seg.getLast? = some last ∧ p.1 = (first.1 - dt / 2, last.1 + dt / 2 + dt)) ∧
        p.2 = func seg p.1 ∧ ∃ g ∈ gti, ∀ x ∈ seg, BinInside g.1 g.2 x.1 dt (eps * dt)) ranges (times.zip results) ∧
      times.length = ranges.length ∧ results.length = ranges.length := by
  have hin := bin_intervals_from_gtis_inside_partial gti size (rows.map Prod.fst) dt eps (nbin size) (step size) hs (by omega) hstep ranges h
  have hlast : ∀ r ∈ ranges, r.1 + nbin size ≤ rows.length := by
    intro r hr
    obtain ⟨h1, g, hg, h2⟩ := hin r hr
    obtain ⟨t, ht, _⟩ := h2 (r.1 + nbin size - 1) (by omega) (by omega)
    have := (List.getElem?_eq_some_iff.1 ht).1
    rw [List.length_map] at this
    omega
  let seg : Nat × Nat → List (K × V) := fun r => (rows.take r.2).drop r.1
  have hseg : ∀ r ∈ ranges, (seg r).length = nbin size ∧ ∀ k < nbin size, (seg r)[k]? = rows[r.1 + k]? := by
    intro r hr
    have h1 := (hin r hr).1
    have h2 := hlast r hr
    constructor
    · simp only [seg, List.length_drop, List.length_take]; omega
    · intro k hk
      simp only [seg, List.getElem?_drop, List.getElem?_take]
      rw [if_pos (by omega)]
  have hget : ∀ i, ∀ hi : i < rows.length, (rows.map Prod.fst)[i]? = some (rows[i]).1 := by
    intro i hi
    rw [List.getElem?_map, List.getElem?_eq_getElem hi]
    rfl
  have hbt : ∀ r ∈ ranges, ∃ p, binnedTimes (rows.map Prod.fst) dt r = .ok p := by
    intro r hr
    have h1 := (hin r hr).1
    have h2 := hlast r hr
    unfold binnedTimes
    rw [hget r.1 (by omega), hget (r.2 - 1) (by omega)]
    exact ⟨_, rfl⟩
  obtain ⟨segs, hsegs⟩ := mapM_ok_of_forall (binnedTimes (rows.map Prod.fst) dt) ranges hbt
  have hf := mapM_ok_forall2 (binnedTimes (rows.map Prod.fst) dt) ranges segs hsegs
  have hA : analyzeSegments rows gti dt func (some size) frac eps nbin step = .ok (segs.map Prod.fst, runSegments rows func segs) := by
    unfold analyzeSegments segmentsOf
    simp only [if_pos hdt, h, hsegs, Except.map]
  refine ⟨_, _, hA, ?_⟩
  have hrun : runSegments rows func segs = segs.map fun s => func (seg s.2) s.1 := by
    unfold runSegments
    have : ∀ s ∈ segs, (if s.2.2 - s.2.1 ≤ 1 then none else some (func ((rows.take s.2.2).drop s.2.1) s.1)) = some (func (seg s.2) s.1) := by
      intro s hsm
      obtain ⟨r, hr, hrs⟩ := forall2_mem_right hf hsm
      have h1 := (hin r hr).1
      unfold binnedTimes at hrs
      split at hrs
      · cases hrs
        rw [if_neg (by dsimp only; omega)]
      · cases hrs
    rw [List.filterMap_congr this]
    exact congrFun List.filterMap_eq_map' segs
  rw [hrun]
  have hlen := hf.length_eq
  refine ⟨?_, by simp [hlen], by simp [hlen]⟩
  rw [List.zip_map', List.forall₂_map_right_iff]
  refine forall2_mem hf ?_
  intro r s hr hrs
  obtain ⟨h1, g, hg, h2⟩ := hin r hr
  have h3 := hlast r hr
  obtain ⟨hl, hk⟩ := hseg r hr
  unfold binnedTimes at hrs
  rw [hget r.1 (by omega), hget (r.2 - 1) (by omega)] at hrs
  cases hrs
  dsimp only
  refine ⟨seg r, hl, hk, ⟨rows[r.1]'(by omega), rows[r.2 - 1]'(by omega), ?_, ?_, ?_⟩, rfl, g, hg, ?_⟩
  · rw [List.head?_eq_getElem?, hk 0 (by omega), Nat.add_zero, List.getElem?_eq_getElem (by omega)]
  · rw [List.getLast?_eq_getElem?, hl, hk (nbin size - 1) (by omega), ← List.getElem?_eq_getElem (by omega)]
    congr 1
    omega
  · rw [Prod.mk.injEq]
    exact ⟨rfl, by ring⟩
  · intro x hx
    obtain ⟨k, hxk⟩ := List.mem_iff_getElem?.1 hx
    have hk' := (List.getElem?_eq_some_iff.1 hxk).1
    rw [hl] at hk'
    rw [hk k hk'] at hxk
    obtain ⟨t, ht, hb⟩ := h2 (r.1 + k) (by omega) (by omega)
    rw [List.getElem?_map, hxk] at ht
    cases ht
    exact hb

example : binIntervalsFromGtis [((0 : ℚ), 4)] 2 ([((1/2 : ℚ), 'a'), (3/2, 'b'), (5/2, 'c'), (7/2, 'd')].map Prod.fst) 1 (1/1000) 2 2 = .ok [(0, 2), (2, 4)] := by
  decide +kernel

/-- **C122 (end times, negation).** On binned series the end of each segment is reported one bin after the end of its last bin: consecutive segments overlap, and the last one ends after the GTI. -/
theorem analyze_stop_late :
    analyzeSegments [((1/2 : ℚ), 'a'), (3/2, 'b'), (5/2, 'c'), (7/2, 'd')] [(0, 4)] 1 (fun rows _ => rows.map Prod.snd) (some 2) 1 (1/1000) (fun _ => 2) (fun _ => 2) =
      .ok ([(0, 3), (2, 5)], [['a', 'b'], ['c', 'd']]) := by decide +kernel

/-- **C122 (several results).** A function with the same number of results, at least two, in all the segments: there is one list for each result, with one entry for each segment. -/
theorem separate_spec (results : List (List R)) (n : Nat) (hn : 2 ≤ n) (hne : results ≠ []) (hl : ∀ r ∈ results, r.length = n) :
    ∃ outs : List (List R), separate results = .ok outs ∧ outs.length = n ∧ ∀ i < n, ∃ o, outs[i]? = some o ∧ o.length = results.length ∧
      ∀ (j : Nat) (r : List R), results[j]? = some r → o[j]? = r[i]? := by
  have hlast : ∃ last, results.getLast? = some last ∧ last.length = n := by
    rw [List.getLast?_eq_getLast_of_ne_nil hne]
    exact ⟨_, rfl, hl _ (List.getLast_mem hne)⟩
  obtain ⟨last, h1, h2⟩ := hlast
  have hinner : ∀ i ∈ List.range n, ∃ o : List R, (results.mapM fun r => (match r[i]? with | some x => Except.ok x | none => Except.error PyErr.indexError : Except PyErr R)) = .ok o := by
    intro i hi
    apply mapM_ok_of_forall
    intro r hr
    rw [List.getElem?_eq_getElem (by rw [hl r hr]; exact List.mem_range.1 hi)]
    exact ⟨_, rfl⟩
  obtain ⟨outs, ho⟩ := mapM_ok_of_forall _ (List.range n) hinner
  have hf := mapM_ok_forall2 _ _ _ ho
  refine ⟨outs, ?_, ?_, ?_⟩
  · unfold separate
    simp only [h1, h2]
    rw [if_pos (by omega)]
    exact ho
  · have := hf.length_eq
    rw [List.length_range] at this
    exact this.symm
  · intro i hi
    have hlen := hf.length_eq
    rw [List.length_range] at hlen
    have hi' := (List.forall₂_iff_get.1 hf).2 i (by simpa using hi) (by omega)
    simp only [List.get_eq_getElem, List.getElem_range] at hi'
    have hg := mapM_ok_forall2 _ _ _ hi'
    refine ⟨_, List.getElem?_eq_getElem (by omega), hg.length_eq.symm, ?_⟩
    intro j r hr
    have hj := (List.getElem?_eq_some_iff.1 hr).1
    have hjl : j < (outs[i]'(by omega)).length := by rw [← hg.length_eq]; exact hj
    have := (List.forall₂_iff_get.1 hg).2 j hj hjl
    simp only [List.get_eq_getElem, (List.getElem?_eq_some_iff.1 hr).2] at this
    rw [List.getElem?_eq_getElem hjl]
    revert this
    cases hri : r[i]? with
    | none => intro h; cases h
    | some x => intro h; cases h; rfl

example : separate [[1, 2], [3, 4], [5, 6]] = .ok [[1, 3, 5], [2, 4, 6]] := by decide +kernel

/-- **C122 (several results, negation).** The number of results of the last segment decides: results of other segments beyond it are lost, and a segment with fewer raises `IndexError`. -/
theorem separate_uneven : separate [[1, 2, 3], [4, 5]] = .ok [[1, 4], [2, 5]] ∧ separate [[1], [4, 5]] = .error .indexError := by decide +kernel

/-! ## Segment sizes -/

theorem foldl_min_ge (cs : List K) : ∀ (c m : K), m ≤ cs.foldl min c ↔ ∀ x ∈ c :: cs, m ≤ x := by
  induction cs with
  | nil => intro c m; simp
  | cons d cs ih =>
    intro c m
    rw [List.foldl_cons, ih]
    simp only [List.mem_cons, forall_eq_or_imp, le_min_iff, and_assoc]

/-- the size at which the search starts -/
def startSize (c m step ctrate : K) : K := max ((⌈c / ctrate / step⌉ : K) * step) (m * step)

theorem search_spec (counts : K → Except PyErr (List K)) (minC step : K) : ∀ (fuel : Nat) (s0 s : K), searchSize counts minC step fuel s0 = .ok (some s) →
    ∃ k : Nat, s = s0 + (k : K) * step ∧ (∃ l, counts s = .ok l ∧ l ≠ [] ∧ ∀ c ∈ l, minC ≤ c) ∧
      ∀ j < k, ∃ l, counts (s0 + (j : K) * step) = .ok l ∧ ∃ c ∈ l, c < minC
  | 0, s0, s, h => by simp [searchSize] at h
  | fuel + 1, s0, s, h => by
    unfold searchSize at h
    split at h
    · cases h
    · cases h
    · rename_i c cs hc
      by_cases hm : cs.foldl min c ≥ minC
      · rw [if_pos hm] at h
        cases h
        exact ⟨0, by simp, ⟨c :: cs, hc, by simp, (foldl_min_ge cs c minC).1 hm⟩, fun j hj => absurd hj (by omega)⟩
      · rw [if_neg hm] at h
        obtain ⟨k, h1, h2, h3⟩ := search_spec counts minC step fuel _ _ h
        refine ⟨k + 1, by rw [h1]; push_cast; ring, h2, ?_⟩
        intro j hj
        cases j with
        | zero =>
          refine ⟨c :: cs, by simpa using hc, ?_⟩
          by_contra hcon
          push Not at hcon
          exact hm ((foldl_min_ge cs c minC).2 hcon)
        | succ j =>
          obtain ⟨l, h4, h5⟩ := h3 j (by omega)
          refine ⟨l, ?_, h5⟩
          rw [← h4]
          congr 1
          push_cast
          ring

/-- **C123 (partial).** When `estimate_segment_size` returns a size, it is the first one, from the initial estimate in steps of the time resolution (one second for uneven data), with at least `min_counts` in all
the segments that are analysed (C122); it is at least `min_samples` steps. Missing: segments with less than two samples are not analysed, see `estimate_ignores_empty`. -/
theorem estimate_segment_size_partial (counts : K → Except PyErr (List K)) (c m : K) (even hasCounts : Bool) (dt total exposure : K) (fuel : Nat) (s : K)
    (hstep : even = true → 0 < dt) (h : estimateSize counts (some c) (some m) even hasCounts dt total exposure fuel = .ok (some s)) :
    let step := if even then dt else 1
    m * step ≤ s ∧ (∃ k : Nat, s = startSize c m step (total / exposure) + (k : K) * step ∧
      ∀ j < k, ∃ l, counts (startSize c m step (total / exposure) + (j : K) * step) = .ok l ∧ ∃ x ∈ l, x < c) ∧
    ∃ l, counts s = .ok l ∧ l ≠ [] ∧ ∀ x ∈ l, c ≤ x := by
  intro step
  unfold estimateSize at h
  rw [if_neg (by simp)] at h
  obtain ⟨k, h1, h2, h3⟩ := search_spec _ _ _ _ _ _ h
  have hpos : 0 < step := by
    simp only [step]
    split_ifs with he
    · exact hstep he
    · exact one_pos
  refine ⟨?_, ⟨k, h1, h3⟩, h2⟩
  have : (0 : K) ≤ (k : K) * step := by positivity
  calc m * step ≤ startSize c m step (total / exposure) := le_max_right _ _
    _ ≤ startSize c m step (total / exposure) + (k : K) * step := le_add_of_nonneg_right this
    _ = s := h1.symm

/-- **C123 (only samples).** With `min_samples` only, the same number is required of the counts, except for evenly sampled counts, where none is. -/
theorem estimate_default_counts (counts : K → Except PyErr (List K)) (m : K) (even hasCounts : Bool) (dt total exposure : K) (fuel : Nat) :
    estimateSize counts none (some m) even hasCounts dt total exposure fuel =
      estimateSize counts (some (if even = true ∧ hasCounts = true then 0 else m)) (some m) even hasCounts dt total exposure fuel := by
  unfold estimateSize
  cases even <;> cases hasCounts <;> simp

/-- **C123 (only counts, negation).** With `min_counts` only, which the error message allows, there is a `TypeError`. -/
theorem estimate_needs_samples (counts : K → Except PyErr (List K)) (c : K) (even hasCounts : Bool) (dt total exposure : K) (fuel : Nat) :
    estimateSize counts (some c) none even hasCounts dt total exposure fuel = .error .typeError ∧
    estimateSize counts none none even hasCounts dt total exposure fuel = .error .valueError := by
  unfold estimateSize
  simp

/-- The counts of the segments of an event list, as `estimate_segment_size` gets them. -/
def eventCounts (times : List K) (gti : List (K × K)) (eps size : K) : Except PyErr (List K) :=
  (analyzeSegments (times.map fun t => (t, ())) gti 0 (fun rows _ => (rows.length : K)) (some size) 1 eps (fun _ => 0) (fun _ => 0)).map Prod.snd

/-- **C123 (empty segments, negation).** A segment with no event at all does not prevent a size from being accepted: for at least two counts, segments of two seconds are returned although one of them, from 2 to 4, has none. -/
theorem estimate_ignores_empty :
    estimateSize (eventCounts [(1/4 : ℚ), 1/2, 9/2, 5, 21/4, 11/2] [(0, 6)] (1/1000)) (some 2) (some 2) false false 0 6 6 10 = .ok (some 2) ∧
    timeIntervalsFromGtis [((0 : ℚ), 6)] 2 1 (1/1000) = .ok [(0, 2), (2, 4), (4, 6)] := by decide +kernel

/-- **C123 (termination).** On an event list the search ends, with a size or an error, after a number of steps that only depends on the GTIs and the start. -/
theorem estimate_terminates (times : List K) (gti : List (K × K)) (eps : K) (heps : 0 < eps) (minC s0 : K) (hs0 : 0 < s0) :
    ∃ N : Nat, ∀ fuel ≥ N, searchSize (eventCounts times gti eps) minC 1 fuel s0 ≠ .ok none := by
  have hB : ∃ B : K, ∀ g ∈ gti, g.2 - g.1 + eps ≤ B := by
    induction gti with
    | nil => exact ⟨0, by simp⟩
    | cons g gti ih =>
      obtain ⟨B, hB⟩ := ih
      refine ⟨max B (g.2 - g.1 + eps), ?_⟩
      intro g' hg'
      rcases List.mem_cons.1 hg' with rfl | h
      · exact le_max_right _ _
      · exact (hB g' h).trans (le_max_left _ _)
  obtain ⟨B, hB⟩ := hB
  have herr : ∀ size, 0 < size → B ≤ size → eventCounts times gti eps size = .error .assertionError := by
    intro size h0 h1
    unfold eventCounts analyzeSegments segmentsOf
    simp only [gt_iff_lt, lt_irrefl, if_false, (time_intervals_from_gtis_error gti size 1 eps h0 one_pos).2 (fun g hg => (hB g hg).trans h1), Except.map]
  obtain ⟨n, hn⟩ : ∃ n : Nat, B - s0 ≤ n := ⟨⌈B - s0⌉.toNat, (Int.le_ceil _).trans (by exact_mod_cast Int.self_le_toNat _)⟩
  have key : ∀ (n : Nat) (s0 : K), 0 < s0 → B - s0 ≤ n → ∀ fuel ≥ n + 1, searchSize (eventCounts times gti eps) minC 1 fuel s0 ≠ .ok none := by
    intro n
    induction n with
    | zero =>
      intro s0 h0 h1 fuel hf
      obtain ⟨f, rfl⟩ : ∃ f, fuel = f + 1 := ⟨fuel - 1, by omega⟩
      unfold searchSize
      rw [herr s0 h0 (by push_cast at h1; linarith)]
      simp
    | succ n ih =>
      intro s0 h0 h1 fuel hf
      obtain ⟨f, rfl⟩ : ∃ f, fuel = f + 1 := ⟨fuel - 1, by omega⟩
      unfold searchSize
      split
      · simp
      · simp
      · split_ifs
        · simp
        · exact ih (s0 + 1) (by linarith) (by push_cast at h1; linarith) f (by omega)
  exact ⟨n + 1, key n s0 hs0 hn⟩

end
end Stingray.Analyze

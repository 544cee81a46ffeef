import Verif.Model.LcOps
import Verif.Props.TimeSeriesItems
import Verif.Props.GtiCross
import Verif.Props.GtiMask
import Verif.Props.Rebin
import Verif.Lemmas.GtiSegments
import Mathlib.Algebra.Order.Ring.Rat
import Mathlib.Data.Rat.Floor

/-! # Truncating, slicing, adding, rebinning and splitting (C111 – C115) -/

namespace Stingray.LcOps

open Stingray.Gti Stingray.TimeSeries Stingray.Spec

set_option linter.unusedSectionVars false

variable {K V : Type} [Field K] [LinearOrder K] [IsStrictOrderedRing K]

/-! ### Truncating (C111) -/

theorem clip_natCast (n m : Nat) (h : m ≤ n) : clipBound n (m : Int) = m := by
  unfold clipBound
  rw [if_neg (by omega)]
  omega

theorem ss_le (l : List K) (v : K) : searchsortedLeft l v ≤ l.length := List.length_filter_le _ _

/-- what a successful truncation by index returns -/
theorem truncateByIndex_ok (order : KeySort (fun (x : (K × K) × Bool) => x.1.2)) (s r : TS K V) (a : Int) (b : Option Int)
    (hs : Aligned s) (h : truncateByIndex order s a b = .ok r) :
    let idx := sliceIdx s.time.length a (b.getD s.time.length) 1
    Rows idx s.time r.time ∧ List.Forall₂ (fun old x => old.1 = x.1 ∧ Rows idx old.2 x.2) s.attrs r.attrs ∧
    r.mjdref = s.mjdref ∧ r.dt = s.dt ∧ r.mask = none ∧
    ∃ g t0 t1 rg, (gtiGet s).1 = some g ∧ r.time.head? = some t0 ∧ r.time.getLast? = some t1 ∧ r.gti = some rg ∧ rg ≠ [] ∧
      crossTwoGtis order g [(t0 - s.dt / 2, t1 + s.dt / 2)] = .ok rg := by
  intro idx
  have hlt : ∀ i ∈ idx, i < s.time.length := by
    intro i hi
    have := ((sliceIdx_spec s.time.length a (b.getD s.time.length) 1 one_pos).2 i).1 hi
    unfold clipBound at this
    omega
  unfold truncateByIndex at h
  simp only [applyIdx, Bool.false_eq_true, if_false] at h
  change (match (gtiGet s).1, (idx.filterMap (s.time[·]?)).head?, (idx.filterMap (s.time[·]?)).getLast? with
    | some g, some t0, some t1 => _
    | _, _, _ => _) = _ at h
  cases hg : (gtiGet s).1 with
  | none => rw [hg] at h; cases h
  | some g =>
    cases h0 : (idx.filterMap (s.time[·]?)).head? with
    | none => rw [hg, h0] at h; cases h
    | some t0 =>
      cases h1 : (idx.filterMap (s.time[·]?)).getLast? with
      | none => rw [hg, h0, h1] at h; cases h
      | some t1 =>
        rw [hg, h0, h1] at h
        simp only [bind, Except.bind] at h
        cases hc : crossTwoGtis order g [(t0 - s.dt / 2, t1 + s.dt / 2)] with
        | error e => rw [hc] at h; cases h
        | ok rg =>
          rw [hc] at h
          by_cases hrg : rg = []
          · simp only [if_pos hrg] at h; cases h
          · simp only [if_neg hrg] at h
            cases h
            have hm : (gtiGet s).2.mjdref = s.mjdref ∧ (gtiGet s).2.dt = s.dt := by
              unfold gtiGet
              split
              · exact ⟨rfl, rfl⟩
              · split <;> exact ⟨rfl, rfl⟩
            refine ⟨rows_filterMap _ _ hlt, ?_, hm.1, hm.2, rfl, g, t0, t1, rg, rfl, h0, h1, rfl, hrg, hc⟩
            simp only [setGti, List.forall₂_map_right_iff, List.forall₂_same]
            intro x hx
            exact ⟨trivial, rows_filterMap _ _ (by rw [hs.1 x hx]; exact hlt)⟩

/-- **C111 (partial).** Truncating a series with sorted times between two times keeps exactly the rows with `start ≤ t < stop`, in order and with all their array attributes.
Missing: a start of exactly 0 when there are negative times, for which it is false (`truncate_time_zero`). -/
theorem truncate_time_partial (order : KeySort (fun (x : (K × K) × Bool) => x.1.2)) (s r : TS K V) (start : K) (stop : Option K)
    (hs : Aligned s) (hsort : s.time.Pairwise (· ≤ ·)) (h0 : start ≠ 0 ∨ ∀ t ∈ s.time, 0 ≤ t)
    (h : truncateByTime order s start stop = .ok r) :
    ∃ idx : List Nat, idx.Pairwise (· < ·) ∧
      (∀ i : Nat, i ∈ idx ↔ ∃ t, s.time[i]? = some t ∧ start ≤ t ∧ ∀ e, stop = some e → t < e) ∧
      Rows idx s.time r.time ∧ List.Forall₂ (fun old x => old.1 = x.1 ∧ Rows idx old.2 x.2) s.attrs r.attrs ∧
      r.mjdref = s.mjdref ∧ r.dt = s.dt := by
  have key : ∃ (a : Nat) (b : Nat), a ≤ s.time.length ∧ b ≤ s.time.length ∧
      (∀ (i : Nat) (t : K), s.time[i]? = some t → (i < a ↔ t < start)) ∧
      (∀ (i : Nat) (t : K), s.time[i]? = some t → (i < b ↔ ∀ e, stop = some e → t < e)) ∧
      ∃ b', truncateByIndex order s a b' = .ok r ∧ b'.getD s.time.length = (b : Int) := by
    unfold truncateByTime at h
    have hno : stop.any (fun e => decide (e < start)) = false := by
      by_contra hc
      rw [Bool.not_eq_false] at hc
      rw [if_pos hc] at h
      cases h
    rw [if_neg (by rw [hno]; simp)] at h
    have ha : ∃ a : Nat, ((if start = 0 then 0 else searchsortedLeft s.time start : Int)) = (a : Int) ∧ a ≤ s.time.length ∧
        (∀ (i : Nat) (t : K), s.time[i]? = some t → (i < a ↔ t < start)) := by
      by_cases hz : start = 0
      · refine ⟨0, by rw [if_pos hz]; rfl, by omega, ?_⟩
        intro i t ht
        have : 0 ≤ t := by
          rcases h0 with h0 | h0
          · exact absurd hz h0
          · exact h0 t (List.mem_of_getElem? ht)
        rw [hz]
        exact ⟨fun h => by omega, fun h => absurd this (not_le.2 h)⟩
      · refine ⟨_, by rw [if_neg hz], ss_le _ _, ?_⟩
        intro i t ht
        exact lt_searchsortedLeft_iff s.time hsort start i t ht
    obtain ⟨a, ea, la, hA⟩ := ha
    simp only [ea] at h
    cases stop with
    | none =>
      refine ⟨a, s.time.length, la, le_rfl, hA, ?_, none, h, rfl⟩
      intro i t ht
      have := (List.getElem?_eq_some_iff.1 ht).1
      simp [this]
    | some e =>
      refine ⟨a, searchsortedLeft s.time e, la, ss_le _ _, hA, ?_, _, h, rfl⟩
      intro i t ht
      rw [lt_searchsortedLeft_iff s.time hsort e i t ht]
      simp
  obtain ⟨a, b, la, lb, hA, hB, b', hb', eb⟩ := key
  obtain ⟨h1, h2, h3, h4, _⟩ := truncateByIndex_ok order s r a b' hs hb'
  rw [eb] at h1 h2
  obtain ⟨q1, q2⟩ := sliceIdx_spec s.time.length a b 1 one_pos
  refine ⟨_, q1, ?_, h1, h2, h3, h4⟩
  intro i
  rw [q2, clip_natCast _ _ la, clip_natCast _ _ lb]
  constructor
  · rintro ⟨x, y, _⟩
    have hi : i < s.time.length := by omega
    refine ⟨s.time[i], List.getElem?_eq_getElem hi, ?_, ?_⟩
    · by_contra hc
      have := (hA i _ (List.getElem?_eq_getElem hi)).2 (not_le.1 hc)
      omega
    · exact (hB i _ (List.getElem?_eq_getElem hi)).1 (by omega)
  · rintro ⟨t, ht, x, y⟩
    have p1 : ¬ i < a := fun hc => absurd ((hA i t ht).1 hc) (not_lt.2 x)
    have p2 := (hB i t ht).2 y
    exact ⟨by omega, by omega, one_dvd _⟩

/-- **C111 (GTIs, partial).** The GTIs after truncating (by index or time) are the part of the old ones between half a bin before the first and half a bin after the last sample kept.
Missing: as for the intersection of GTIs (C04), GTIs touching these borders and empty GTIs. -/
theorem truncate_gti_partial (order : KeySort (fun (x : (K × K) × Bool) => x.1.2)) (s r : TS K V) (a : Int) (b : Option Int)
    (hs : Aligned s) (h : truncateByIndex order s a b = .ok r) (g rg : List (K × K)) (hg : (gtiGet s).1 = some g) (hrg : r.gti = some rg)
    (t0 t1 : K) (h0 : r.time.head? = some t0) (h1 : r.time.getLast? = some t1) (h01 : t0 ≤ t1) (hdt : 0 < s.dt)
    (hwf : checkGtis g = .ok ()) (hpos : ∀ x ∈ g, x.1 < x.2)
    (hnt : ∀ x ∈ g, x.2 ≠ t0 - s.dt / 2 ∧ t1 + s.dt / 2 ≠ x.1) (x : K) :
    Covers rg x ↔ Covers g x ∧ t0 - s.dt / 2 ≤ x ∧ x ≤ t1 + s.dt / 2 := by
  obtain ⟨_, _, _, _, _, g', u0, u1, rg', e1, e2, e3, e4, _, hc⟩ := truncateByIndex_ok order s r a b hs h
  rw [hg] at e1; cases e1
  rw [h0] at e2; cases e2
  rw [h1] at e3; cases e3
  rw [hrg] at e4; cases e4
  have hw : ∀ y ∈ [(t0 - s.dt / 2, t1 + s.dt / 2)], y.1 < y.2 := by
    intro y hy
    rw [List.mem_singleton] at hy
    subst hy
    show t0 - s.dt / 2 < t1 + s.dt / 2
    linarith
  obtain ⟨out, ho, hcov, _⟩ := cross_two_gtis_exact_partial order g [(t0 - s.dt / 2, t1 + s.dt / 2)] hwf
    (checkGtis_of_wf (by simp) ⟨fun k hk => (hw k hk).le, by simp⟩) hpos hw (by
      intro y hy z hz
      rw [List.mem_singleton] at hz
      subst hz
      exact hnt y hy)
  rw [hc] at ho
  cases ho
  rw [hcov]
  simp [Covers]

/-- **C111 (negation).** Truncating at the time 0 does nothing to the samples before it. -/
theorem truncate_time_zero :
    (truncateByTime (stableSort _) (⟨[-2, -1, 0, 1], [], none, none, 0, 1⟩ : TS ℚ ℚ) 0 none).map (fun r => r.time) = .ok [-2, -1, 0, 1] := by
  decide +kernel

example : (truncateByTime (stableSort _) (⟨[-2, -1, 0, 1], [("a", [5, 6, 7, 8])], none, none, 0, 1⟩ : TS ℚ ℚ) (-1) (some 1)).map
    (fun r => (r.time, r.attrs, r.gti)) = .ok ([-1, 0], [("a", [6, 7])], some [(-3/2, 1/2)]) := by decide +kernel

/-- **C111 (refusal).** A start after the stop is refused; a range without samples raises `IndexError`. -/
theorem truncate_time_refuses (order : KeySort (fun (x : (K × K) × Bool) => x.1.2)) (s : TS K V) (start e : K) :
    (e < start → truncateByTime order s start (some e) = .error .valueError) ∧
    (s.time.Pairwise (· ≤ ·) → start ≠ 0 → start ≤ e → (∀ t ∈ s.time, ¬ (start ≤ t ∧ t < e)) →
      truncateByTime order s start (some e) = .error .indexError) := by
  constructor
  · intro h
    unfold truncateByTime
    simp [h]
  · intro hsort h0 hle hno
    unfold truncateByTime
    simp only [Option.any_some, decide_eq_true_eq, if_neg (not_lt.2 hle), if_neg h0, Option.map_some]
    unfold truncateByIndex
    have hemp : sliceIdx s.time.length (searchsortedLeft s.time start : Int) (searchsortedLeft s.time e : Int) 1 = [] := by
      rw [List.eq_nil_iff_forall_not_mem]
      intro i hi
      rw [(sliceIdx_spec _ _ _ 1 one_pos).2, clip_natCast _ _ (ss_le _ _), clip_natCast _ _ (ss_le _ _)] at hi
      have hil : i < s.time.length := by have := ss_le s.time e; omega
      have ht := List.getElem?_eq_getElem hil
      have e1 := (lt_searchsortedLeft_iff s.time hsort start i _ ht)
      have e2 := (lt_searchsortedLeft_iff s.time hsort e i _ ht)
      refine hno _ (List.getElem_mem hil) ⟨not_lt.1 fun hc => ?_, e2.1 (by omega)⟩
      have := e1.2 hc
      omega
    simp only [Option.getD_some, applyIdx, hemp]
    cases (gtiGet s).1 <;> rfl

/-! ### Slicing light curves (C112) -/

/-- **C112 (partial).** `lc[a:b:c]` with a positive or absent step, when it succeeds, holds exactly the bins Python slicing selects (negative bounds count from the end), with their counts and errors.
Missing: bounds beyond the end and negative steps, for which it is false (`lc_slice_beyond`, `lc_slice_reversed`). -/
theorem lc_slice_partial (order : KeySort (fun (x : (K × K) × Bool) => x.1.2)) (s r : Curve K) (a b c : Option Int)
    (hc : ∀ x, c = some x → 0 < x) (h1 : s.counts.length = s.time.length) (h2 : s.err.length = s.time.length)
    (h : lcSlice order s a b c = .ok r) :
    ∃ idx : List Nat, idx.Pairwise (· < ·) ∧
      (∀ i : Nat, i ∈ idx ↔ clipBound s.time.length (a.getD 0) ≤ i ∧
        (i : Int) < clipBound s.time.length (b.getD s.time.length) ∧
        c.getD 1 ∣ ((i : Int) - clipBound s.time.length (a.getD 0))) ∧
      Rows idx s.time r.time ∧ Rows idx s.counts r.counts ∧ Rows idx s.err r.err ∧
      r.dt = s.dt ∧ r.mjdref = s.mjdref ∧ r.errDist = s.errDist := by
  have hc1 : 0 < c.getD 1 := by
    cases c with
    | none => simp
    | some x => simpa using hc x rfl
  obtain ⟨q1, q2⟩ := sliceIdx_spec s.time.length (a.getD 0) (b.getD s.time.length) (c.getD 1) hc1
  have hlt : ∀ i ∈ sliceIdx s.time.length (a.getD 0) (b.getD s.time.length) (c.getD 1), i < s.time.length := by
    intro i hi
    have := ((q2 i).1 hi).2.1
    unfold clipBound at this
    omega
  unfold lcSlice at h
  simp only [ne_of_gt hc1, if_false, h1] at h
  simp only [bind, Except.bind] at h
  have fin : ∀ g, r = { s with
      time := (sliceIdx s.time.length (a.getD 0) (b.getD s.time.length) (c.getD 1)).filterMap (s.time[·]?)
      counts := (sliceIdx s.time.length (a.getD 0) (b.getD s.time.length) (c.getD 1)).filterMap (s.counts[·]?)
      err := (sliceIdx s.time.length (a.getD 0) (b.getD s.time.length) (c.getD 1)).filterMap (s.err[·]?)
      gti := g } → ∃ idx : List Nat, idx.Pairwise (· < ·) ∧
      (∀ i : Nat, i ∈ idx ↔ clipBound s.time.length (a.getD 0) ≤ i ∧
        (i : Int) < clipBound s.time.length (b.getD s.time.length) ∧
        c.getD 1 ∣ ((i : Int) - clipBound s.time.length (a.getD 0))) ∧
      Rows idx s.time r.time ∧ Rows idx s.counts r.counts ∧ Rows idx s.err r.err ∧
      r.dt = s.dt ∧ r.mjdref = s.mjdref ∧ r.errDist = s.errDist := by
    rintro g rfl
    exact ⟨_, q1, q2, rows_filterMap _ _ hlt, rows_filterMap _ _ (by rw [h1]; exact hlt),
      rows_filterMap _ _ (by rw [h2]; exact hlt), rfl, rfl, rfl⟩
  repeat' split at h
  all_goals first
    | (exfalso; cases h; done)
    | (cases h; exact fin _ rfl)

/-- a light curve of three bins -/
def three : Curve ℚ := ⟨[1, 2, 3], [10, 20, 30], [1, 2, 3], [(1/2, 7/2)], 0, 1, .gauss⟩

example : lcSlice (stableSort _) three (some (-2)) none none = .ok ⟨[2, 3], [20, 30], [2, 3], [(3/2, 7/2)], 0, 1, .gauss⟩ := by decide +kernel
example : lcSlice (stableSort _) three none none (some 2) = .ok ⟨[1, 3], [10, 30], [1, 3], [(1/2, 3/2), (5/2, 7/2)], 0, 1, .gauss⟩ := by
  decide +kernel

/-- **C112 (negation).** A stop beyond the end, which Python slicing clips, raises `IndexError`. -/
theorem lc_slice_beyond : lcSlice (stableSort _) three none (some 4) none = .error .indexError := by decide +kernel

/-- **C112 (reversal, negation).** `lc[::-1]` is not the reversed light curve: it has no data. -/
theorem lc_slice_reversed : (lcSlice (stableSort _) three none none (some (-1))).map (fun r => r.time) = .ok [] := by decide +kernel

/-! ### Adding and subtracting light curves (C113) -/

theorem select_zipWith (f : K → K → K) (m : List Bool) (a b : List K) :
    List.zipWith f (select m a) (select m b) = select m (List.zipWith f a b) := by
  induction m generalizing a b with
  | nil => cases a <;> cases b <;> simp [select]
  | cons x m ih =>
    cases a with
    | nil => cases x <;> simp [select]
    | cons a as =>
      cases b with
      | nil => cases x <;> simp [select]
      | cons b bs =>
        have := ih as bs
        cases x <;> simp_all [select]

/-- **C113.** The sum, or difference (`op`), of two light curves with the same times, bin time and reference has exactly the bins inside the common GTIs, each with `op` of the two counts; if the error
distributions agree, the error is `√(e1² + e2²)`, otherwise 0. (Assumed: each common GTI contains the bin of some sample, as for GTI masks, C03.) -/
theorem lc_operation_partial (order : KeySort (fun (x : (K × K) × Bool) => x.1.2)) (median : List K → K) (eps : K) (sqrt : K → K)
    (op : K → K → K) (s o : Curve K) (he0 : 0 ≤ eps) (he : eps < 1 / 2) (hdt : 0 < s.dt) (hd : s.dt = o.dt) (hm : s.mjdref = o.mjdref)
    (ht : s.time = o.time) (hne : s.time ≠ []) (hsort : s.time.Pairwise (· ≤ ·))
    (l1 : s.counts.length = s.time.length) (l2 : o.counts.length = s.time.length)
    (l3 : s.err.length = s.time.length) (l4 : o.err.length = s.time.length)
    (common : List (K × K)) (hx : crossTwoGtis order s.gti o.gti = .ok common) (hok : checkGtis common = .ok ())
    (hpop : ∀ g ∈ common, ∃ t ∈ s.time, BinInside g.1 g.2 t s.dt (eps * s.dt)) :
    ∃ r, lcOperation order median eps sqrt op s o = .ok r ∧ r.gti = common ∧ r.dt = s.dt ∧ r.mjdref = s.mjdref ∧
      ∃ idx : List Nat, idx.Pairwise (· < ·) ∧
        (∀ i : Nat, i ∈ idx ↔ ∃ t, s.time[i]? = some t ∧ ∃ g ∈ common, BinInside g.1 g.2 t s.dt (eps * s.dt)) ∧
        Rows idx s.time r.time ∧ Rows idx (List.zipWith op s.counts o.counts) r.counts ∧
        (s.errDist = o.errDist → Rows idx (List.zipWith (fun a b => sqrt (a ^ 2 + b ^ 2)) s.err o.err) r.err) ∧
        (s.errDist ≠ o.errDist → ∀ e ∈ r.err, e = 0) := by
  obtain ⟨mask, hmask, hF⟩ := create_gti_mask_exact_of_populated_partial median s.time common s.dt eps hdt he0 he hne hsort hok hpop
  have hml : mask.length = s.time.length := hF.length_eq.symm
  have hall : (List.zip (select mask s.time) (select mask s.time)).all (fun p => decide (|p.1 - p.2| < s.dt / 100)) = true := by
    rw [List.all_eq_true]
    intro p hp
    have : p.1 = p.2 := by
      generalize select mask s.time = l at hp
      induction l with
      | nil => simp at hp
      | cons a l ih =>
        rw [List.zip_cons_cons, List.mem_cons] at hp
        rcases hp with rfl | hp
        · rfl
        · exact ih hp
    rw [this, sub_self, abs_zero]
    simp only [decide_eq_true_eq]
    positivity
  refine ⟨{ time := select mask s.time, counts := List.zipWith op (select mask s.counts) (select mask o.counts),
            err := if s.errDist ≠ o.errDist then (List.zipWith op (select mask s.counts) (select mask o.counts)).map (fun _ => 0)
              else List.zipWith (fun a b => sqrt (a ^ 2 + b ^ 2)) (select mask s.err) (select mask o.err),
            gti := common, mjdref := s.mjdref, dt := s.dt, errDist := .poisson }, ?_, rfl, rfl, rfl, truePositions mask, truePositions_sorted mask, ?_, ?_, ?_, ?_, ?_⟩
  · unfold lcOperation
    simp only [if_pos hm, hx, bind, Except.bind, hmask, ← ht, ← hd]
    rw [if_neg (by rw [not_or]; exact ⟨by simp, by rw [hall]; simp⟩)]
    rfl
  · intro i
    rw [mem_truePositions]
    constructor
    · intro hi
      have hil := (List.getElem?_eq_some_iff.1 hi).1
      have hit : i < s.time.length := by omega
      refine ⟨s.time[i], List.getElem?_eq_getElem hit, ?_⟩
      have := (List.forall₂_iff_get.1 hF).2 i hit hil
      rw [List.get_eq_getElem, List.get_eq_getElem] at this
      exact this.1 (List.getElem?_eq_some_iff.1 hi).2
    · rintro ⟨t, hti, hg⟩
      obtain ⟨hit, rfl⟩ := List.getElem?_eq_some_iff.1 hti
      have hil : i < mask.length := by omega
      have := (List.forall₂_iff_get.1 hF).2 i hit hil
      rw [List.get_eq_getElem, List.get_eq_getElem] at this
      rw [List.getElem?_eq_getElem hil, this.2 hg]
  · exact rows_select mask s.time hml
  · show Rows _ _ (List.zipWith op (select mask s.counts) (select mask o.counts))
    rw [select_zipWith]
    exact rows_select mask _ (by simp [l1, l2, hml])
  · intro heq
    simp only [heq, ne_eq, not_true, if_false]
    rw [select_zipWith]
    exact rows_select mask _ (by simp [l3, l4, hml])
  · intro hneq e hein
    simp only [ne_eq, hneq, not_false_eq_true, if_true, List.mem_map] at hein
    obtain ⟨_, _, rfl⟩ := hein
    rfl

/-- **C113 (references).** If the references differ, the second light curve is first expressed in the reference of the first. -/
theorem lc_operation_mjdref (order : KeySort (fun (x : (K × K) × Bool) => x.1.2)) (median : List K → K) (eps : K) (sqrt : K → K)
    (op : K → K → K) (s o : Curve K) :
    lcOperation order median eps sqrt op s o = lcOperation order median eps sqrt op s
      { o with time := o.time.map (· + (o.mjdref - s.mjdref) * 86400),
               gti := o.gti.map (fun g => (g.1 + (o.mjdref - s.mjdref) * 86400, g.2 + (o.mjdref - s.mjdref) * 86400)),
               mjdref := s.mjdref } := by
  by_cases h : s.mjdref = o.mjdref
  · cases o
    simp only at h
    subst h
    simp
  · unfold lcOperation lcChangeMjdref
    simp only [if_neg h, if_true]

/-- a square root that is right for the values used below -/
def sqrtQ (x : ℚ) : ℚ := if x = 25 then 5 else if x = 169 then 13 else 0

/-- light curves of two bins with Gaussian errors -/
def gaussian (e : ℚ) : Curve ℚ := ⟨[1, 2], [10, 20], [e, e], [(1/2, 5/2)], 0, 1, .gauss⟩

example : lcOperation (stableSort _) (fun _ => 1) (1/1000) sqrtQ (· + ·) (gaussian 3) (gaussian 4) =
    .ok ⟨[1, 2], [20, 40], [5, 5], [(1/2, 5/2)], 0, 1, .poisson⟩ := by decide +kernel

/-- **C113 (negation).** The sum of two light curves with Gaussian errors has not Gaussian errors any more, so that adding a third one discards all errors: the error of
the sum of three is 0, not 13. -/
theorem lc_sum_of_three_loses_errors :
    ((do let r ← lcOperation (stableSort _) (fun _ => 1) (1/1000) sqrtQ (· + ·) (gaussian 3) (gaussian 4)
         lcOperation (stableSort _) (fun _ => 1) (1/1000) sqrtQ (· + ·) r (gaussian 12)) : Except PyErr (Curve ℚ)).map (fun r => r.err) =
      .ok [0, 0] ∧ sqrtQ (sqrtQ (3 ^ 2 + 4 ^ 2) ^ 2 + 12 ^ 2) = 13 := by decide +kernel

/-- **C113 (negative).** `-lc` has the bins, the errors, the GTIs and the reference of `lc`, and the count of each bin with the opposite sign. -/
theorem lc_neg_spec (s : Curve K) :
    (lcNeg s).time = s.time ∧ (lcNeg s).err = s.err ∧ (lcNeg s).gti = s.gti ∧ (lcNeg s).mjdref = s.mjdref ∧ (lcNeg s).dt = s.dt ∧
    (lcNeg s).counts.length = s.counts.length ∧ ∀ (i : Nat) (c : K), s.counts[i]? = some c → (lcNeg s).counts[i]? = some (-c) := by
  refine ⟨rfl, rfl, rfl, rfl, rfl, by simp [lcNeg], ?_⟩
  intro i c h
  simp [lcNeg, h]

/-- **C113 (double negative, negation).** `-(-lc)` is not `lc` for a light curve with Gaussian errors: it has the error distribution of Poisson counts. -/
theorem lc_neg_neg : lcNeg (lcNeg (gaussian 3)) ≠ gaussian 3 ∧ lcNeg (lcNeg (gaussian 3)) = { gaussian 3 with errDist := .poisson } := by
  decide +kernel

/-! ### Rebinning (C114) -/

/-- the rows of a GTI -/
def inGti (time : List K) (g : K × K) : List Nat :=
  (List.range time.length).filter fun i => decide (g.1 ≤ time.getD i 0 ∧ time.getD i 0 < g.2)

theorem gtiPart_rows (time l : List K) (hl : l.length = time.length) (hsort : time.Pairwise (· ≤ ·)) (g : K × K) :
    Rows (inGti time g) l (gtiPart time l g) := by
  have e : inGti time g = (List.range' (searchsortedLeft time g.1) (searchsortedLeft time g.2 - searchsortedLeft time g.1)) := by
    have p1 : (inGti time g).Pairwise (· < ·) := List.Pairwise.filter _ List.pairwise_lt_range
    have p2 := List.pairwise_lt_range' (s := searchsortedLeft time g.1) (n := searchsortedLeft time g.2 - searchsortedLeft time g.1)
    refine List.Perm.eq_of_pairwise (le := (· < ·)) (fun a b _ _ h h' => absurd h (by omega)) p1 p2 ?_
    refine (List.perm_ext_iff_of_nodup (p1.imp fun h => Nat.ne_of_lt h) (p2.imp fun h => Nat.ne_of_lt h)).2 ?_
    intro i
    rw [inGti, List.mem_filter, List.mem_range, List.mem_range'_1, decide_eq_true_eq]
    constructor
    · rintro ⟨hi, ha, hb⟩
      have ht := List.getElem?_eq_getElem hi
      have hg : time.getD i 0 = time[i] := by rw [List.getD_eq_getElem?_getD, ht]; rfl
      rw [hg] at ha hb
      have e1 := lt_searchsortedLeft_iff time hsort g.1 i _ ht
      have e2 := lt_searchsortedLeft_iff time hsort g.2 i _ ht
      have := e2.2 hb
      have : ¬ i < searchsortedLeft time g.1 := fun hc => absurd (e1.1 hc) (not_lt.2 ha)
      omega
    · rintro ⟨ha, hb⟩
      have hi : i < time.length := by have := ss_le time g.2; omega
      have ht := List.getElem?_eq_getElem hi
      have hg : time.getD i 0 = time[i] := by rw [List.getD_eq_getElem?_getD, ht]; rfl
      rw [hg]
      have e1 := lt_searchsortedLeft_iff time hsort g.1 i _ ht
      have e2 := lt_searchsortedLeft_iff time hsort g.2 i _ ht
      refine ⟨hi, not_lt.1 fun hc => ?_, e2.1 (by omega)⟩
      have := e1.2 hc
      omega
  rw [e]
  unfold Rows gtiPart
  rw [List.forall₂_iff_get]
  have hss := ss_le time g.2
  refine ⟨by simp; omega, ?_⟩
  intro i h1 h2
  simp only [List.get_eq_getElem, List.getElem_range', List.getElem_drop, List.getElem_take, one_mul]
  rw [List.getElem?_eq_getElem]

/-- **C114 (refusals).** Without a new bin time, and for one shorter than the present one, `rebin` raises `ValueError`; so it does if no GTI is as long as the new bin. `f` gives the new bin time as a multiple of the present one. -/
theorem lc_rebin_refuses [FloorRing K] (sqrt : K → K) (s : Curve K) (method : Rebin.Method) :
    lcRebin sqrt s none none method = .error .valueError ∧
    (∀ d, d < s.dt → lcRebin sqrt s (some d) none method = .error .valueError) ∧
    (∀ d, (∀ g ∈ s.gti, g.2 - g.1 < d) → lcRebin sqrt s (some d) none method = .error .valueError) ∧
    (∀ f dn, lcRebin sqrt s dn (some f) method = lcRebin sqrt s (some (f * s.dt)) none method) := by
  refine ⟨rfl, ?_, ?_, fun f dn => rfl⟩
  · intro d hd
    unfold lcRebin
    simp only [if_pos hd]
  · intro d hd
    unfold lcRebin
    simp only
    by_cases hlt : d < s.dt
    · rw [if_pos hlt]
    · rw [if_neg hlt]
      have : (s.gti.filter fun g => ! decide (g.2 - g.1 < d)) = [] := by
        rw [List.filter_eq_nil_iff]
        intro g hg
        simp [hd g hg]
      simp only [this, List.mapM_nil, pure, Except.pure, bind, Except.bind, if_true]

/-- **C114.** Rebinning a light curve with sorted times: the new GTIs are the old ones that are at least one new bin long, and the new bins are, GTI by GTI, what `rebin_data` (C20, C21) makes of the bins with their centre
in the GTI. -/
theorem lc_rebin_spec [FloorRing K] (sqrt : K → K) (s r : Curve K) (d : K) (method : Rebin.Method)
    (hsort : s.time.Pairwise (· ≤ ·)) (h1 : s.counts.length = s.time.length) (h2 : s.err.length = s.time.length)
    (h : lcRebin sqrt s (some d) none method = .ok r) :
    s.dt ≤ d ∧ r.dt = d ∧ r.mjdref = s.mjdref ∧ r.gti ≠ [] ∧ r.gti = s.gti.filter (fun g => decide (d ≤ g.2 - g.1)) ∧
    ∃ outs : List (Rebin.Out K), List.Forall₂ (fun g out => ∃ x y e,
        Rows (inGti s.time g) s.time x ∧ Rows (inGti s.time g) s.counts y ∧ Rows (inGti s.time g) s.err e ∧
        Rebin.rebinData sqrt x y d (some e) method .absent = .ok out) r.gti outs ∧
      r.time = (outs.map fun o => o.xbin).flatten ∧ r.counts = (outs.map fun o => o.ybin).flatten ∧
      r.err = (outs.map fun o => o.ybinerr).flatten := by
  unfold lcRebin at h
  simp only at h
  by_cases hlt : d < s.dt
  · rw [if_pos hlt] at h; cases h
  · rw [if_neg hlt] at h
    have hfil : (s.gti.filter fun g => ! decide (g.2 - g.1 < d)) = s.gti.filter (fun g => decide (d ≤ g.2 - g.1)) := by
      apply List.filter_congr
      intro g _
      by_cases hg : g.2 - g.1 < d
      · simp [hg]
      · simp [hg, not_lt.1 hg]
    rw [hfil] at h
    simp only [bind, Except.bind] at h
    split at h
    · cases h
    · rename_i outs houts
      by_cases hnil : s.gti.filter (fun g => decide (d ≤ g.2 - g.1)) = []
      · simp only [if_pos hnil] at h; cases h
      · simp only [if_neg hnil] at h
        cases h
        refine ⟨not_lt.1 hlt, rfl, rfl, hnil, rfl, outs, ?_, rfl, rfl, rfl⟩
        refine (mapM_ok_forall2 _ _ _ houts).imp ?_
        intro g out ho
        exact ⟨_, _, _, gtiPart_rows _ _ rfl hsort g, gtiPart_rows _ _ h1 hsort g, gtiPart_rows _ _ h2 hsort g, ho⟩

/-- **C114 (conservation).** If the bins of each remaining GTI are evenly spaced and fill a whole number of new bins, no count is lost or gained: the sum of the new counts is the sum of the counts of the bins in these GTIs. -/
theorem lc_rebin_conserves [FloorRing K] (sqrt : K → K) (s r : Curve K) (d : K)
    (hsort : s.time.Pairwise (· ≤ ·)) (h1 : s.counts.length = s.time.length) (h2 : s.err.length = s.time.length)
    (hdt : 0 < s.dt)
    (heven : ∀ g ∈ s.gti, d ≤ g.2 - g.1 → 2 ≤ (inGti s.time g).length ∧ ∃ t0, ∃ N : Nat,
      ((inGti s.time g).length : K) * s.dt = N * d ∧
      ∀ (j i : Nat), (inGti s.time g)[j]? = some i → s.time[i]? = some (t0 + j * s.dt))
    (h : lcRebin sqrt s (some d) none .sum = .ok r) :
    r.counts.sum = (r.gti.map fun g => ((inGti s.time g).map fun i => s.counts.getD i 0).sum).sum := by
  obtain ⟨_, _, _, _, hg, outs, hF, hr1, hcounts, hr2⟩ := lc_rebin_spec sqrt s r d .sum hsort h1 h2 h
  rw [hcounts]
  clear hr1 hr2 hcounts
  have hmem : ∀ g ∈ r.gti, g ∈ s.gti ∧ d ≤ g.2 - g.1 := by
    intro g hgm
    rw [hg, List.mem_filter] at hgm
    exact ⟨hgm.1, of_decide_eq_true hgm.2⟩
  generalize r.gti = G at hF hmem
  induction hF with
  | nil => simp
  | @cons g out G outs hgo _ ih =>
    rw [List.map_cons, List.flatten_cons, List.sum_append, List.map_cons, List.sum_cons, ih (fun g hg => hmem g (by simp [hg]))]
    congr 1
    obtain ⟨x, y, e, hx, hy, hee, hr⟩ := hgo
    obtain ⟨ha, hb⟩ := hmem g (by simp)
    obtain ⟨hn, t0, N, hN, hev⟩ := heven g ha hb
    have lx : x.length = (inGti s.time g).length := hx.length_eq.symm
    have ly : y.length = (inGti s.time g).length := hy.length_eq.symm
    have le : e.length = (inGti s.time g).length := hee.length_eq.symm
    have hE : Rebin.Edges x .absent (inGti s.time g).length (fun j => t0 + j * s.dt) := by
      refine ⟨lx, by omega, ?_, ?_, hn, ?_⟩
      · intro j _; push_cast; linarith
      · intro j hj
        have hxj : x[j]? = some x[j] := List.getElem?_eq_getElem (by omega)
        have hij : (inGti s.time g)[j]? = some (inGti s.time g)[j] := List.getElem?_eq_getElem hj
        have := (List.forall₂_iff_get.1 hx).2 j hj (by omega)
        rw [List.get_eq_getElem, List.get_eq_getElem, hev j _ hij] at this
        rw [hxj, ← this]
      · have e1 : (((inGti s.time g).length - 1 : Nat) : K) = (inGti s.time g).length - 1 := by
          rw [Nat.cast_sub (by omega)]; simp
        have e2 : (((inGti s.time g).length - 2 : Nat) : K) = (inGti s.time g).length - 2 := by
          rw [Nat.cast_sub (by omega)]; simp
        simp only [e1, e2]; ring
    rw [Rebin.rebin_data_conserves sqrt x y d (some e) .absent out _ _ hE ly (by
      intro l hl; cases hl; exact le) hr N (by rw [← hN]; simp)]
    congr 1
    apply List.ext_getElem?
    intro j
    rw [List.getElem?_map]
    by_cases hj : j < (inGti s.time g).length
    · have hij : (inGti s.time g)[j]? = some (inGti s.time g)[j] := List.getElem?_eq_getElem hj
      have := (List.forall₂_iff_get.1 hy).2 j hj (by omega)
      rw [List.get_eq_getElem, List.get_eq_getElem] at this
      rw [hij, Option.map_some, List.getD_eq_getElem?_getD, this, List.getElem?_eq_getElem (by omega)]
      rfl
    · rw [List.getElem?_eq_none (by omega), List.getElem?_eq_none (by omega)]; rfl

/-- four bins in two GTIs, the second one too short for the new bins -/
example : lcRebin (fun x : ℚ => x) ⟨[1/2, 3/2, 5/2, 7/2, 13/2], [1, 2, 3, 4, 9], [1, 1, 1, 1, 1], [(0, 4), (6, 7)], 0, 1, .gauss⟩ (some 2) none .sum =
    .ok ⟨[1, 3], [3, 7], [2, 2], [(0, 4)], 0, 2, .poisson⟩ := by decide +kernel
example : inGti [1/2, 3/2, 5/2, 7/2, 13/2] ((0 : ℚ), 4) = [0, 1, 2, 3] := by decide +kernel

/-- **C114 (time series, refusals).** The same refusals for a time series. -/
theorem ts_rebin_refuses [FloorRing K] {V : Type} (sqrt : K → K) (s : TS K V) (values : List K) (G : List (K × K)) (method : Rebin.Method) :
    tsRebin sqrt s values G none none method = .error .valueError ∧
    (∀ d, d < s.dt → tsRebin sqrt s values G (some d) none method = .error .valueError) ∧
    (∀ d, (∀ g ∈ G, g.2 - g.1 < d) → tsRebin sqrt s values G (some d) none method = .error .valueError) ∧
    (∀ f dn, tsRebin sqrt s values G dn (some f) method = tsRebin sqrt s values G (some (f * s.dt)) none method) := by
  refine ⟨rfl, ?_, ?_, fun f dn => rfl⟩
  · intro d hd
    unfold tsRebin
    simp only [if_pos hd]
  · intro d hd
    unfold tsRebin
    simp only
    by_cases hlt : d < s.dt
    · rw [if_pos hlt]
    · rw [if_neg hlt]
      have : (G.filter fun g => ! decide (g.2 - g.1 < d)) = [] := by
        rw [List.filter_eq_nil_iff]
        intro g hg
        simp [hd g hg]
      simp only [this, List.mapM_nil, pure, Except.pure, bind, Except.bind, if_true]

/-- **C114 (time series, partial).** Rebinning a time series with sorted times: the new samples are, GTI by GTI, what `rebin_data` makes of the samples in each GTI at least one new bin long, and any bin time from the present one on is
accepted as long as there is such a GTI and `rebin_data` accepts its samples. Missing: the GTIs, see `ts_rebin_keeps_short_gtis`. -/
theorem ts_rebin_spec_partial [FloorRing K] {V : Type} (sqrt : K → K) (s : TS K V) (values : List K) (G : List (K × K)) (d : K) (method : Rebin.Method)
    (hsort : s.time.Pairwise (· ≤ ·)) (h1 : values.length = s.time.length) (hd : s.dt ≤ d)
    (hne : ∃ g ∈ G, d ≤ g.2 - g.1) (outs : List (Rebin.Out K)) :
    List.Forall₂ (fun g out => ∃ x y, Rows (inGti s.time g) s.time x ∧ Rows (inGti s.time g) values y ∧
        Rebin.rebinData sqrt x y d none method (.scalar s.dt) = .ok out) (G.filter fun g => decide (d ≤ g.2 - g.1)) outs →
    ∃ gti, tsRebin sqrt s values G (some d) none method =
      .ok ((outs.map fun o => o.xbin).flatten, (outs.map fun o => o.ybin).flatten, gti) := by
  intro hF
  have hfil : (G.filter fun g => ! decide (g.2 - g.1 < d)) = G.filter (fun g => decide (d ≤ g.2 - g.1)) := by
    apply List.filter_congr
    intro g _
    by_cases hg : g.2 - g.1 < d
    · simp [hg]
    · simp [hg, not_lt.1 hg]
  have hnil : G.filter (fun g => decide (d ≤ g.2 - g.1)) ≠ [] := by
    obtain ⟨g, hg, hgd⟩ := hne
    exact List.ne_nil_of_mem (List.mem_filter.2 ⟨hg, decide_eq_true hgd⟩)
  have hm : ((G.filter fun g => decide (d ≤ g.2 - g.1)).mapM fun g =>
      Rebin.rebinData sqrt (gtiPart s.time s.time g) (gtiPart s.time values g) d none method (.scalar s.dt)) = .ok outs := by
    clear hnil hfil
    generalize G.filter (fun g => decide (d ≤ g.2 - g.1)) = L at hF
    induction hF with
    | nil => rfl
    | @cons g out L outs hg _ ih =>
      obtain ⟨x, y, hx, hy, hr⟩ := hg
      rw [rows_unique hx (gtiPart_rows _ _ rfl hsort g), rows_unique hy (gtiPart_rows _ _ h1 hsort g)] at hr
      rw [List.mapM_cons, hr, ih]
      rfl
  refine ⟨G, ?_⟩
  unfold tsRebin
  simp only
  rw [if_neg (not_lt.2 hd), hfil]
  simp only [hm, bind, Except.bind, if_neg hnil]
  rfl

/-- **C114 (time series, negation).** For a plain time series the GTIs that are too short for the new bins are kept although they contain no bin any more. -/
theorem ts_rebin_keeps_short_gtis :
    tsRebin (fun x : ℚ => x) (⟨[1/2, 3/2, 5/2, 7/2, 13/2], [], none, none, 0, 1⟩ : TS ℚ ℚ) [1, 2, 3, 4, 9] [(0, 4), (6, 7)] (some 2) none .sum =
      .ok ([1, 3], [3, 7], [(0, 4), (6, 7)]) := by decide +kernel

/-! ### Splitting at gaps (C115) -/

theorem runs_aux {α β : Type} (f : Nat → α) (q : Nat → β) (P : Nat → Prop) (hi : Nat) :
    ∀ (G : List Nat) (lo : Nat), lo ≤ hi → G.Pairwise (· < ·) → (∀ i ∈ G, lo ≤ i ∧ i < hi ∧ P i) →
      (∀ i, lo ≤ i → i < hi → P i → i ∈ G) →
      (∀ p ∈ List.zip (f lo :: G.map fun i => f (i + 1)) ((G.map q) ++ [q hi]), ∃ a b, p = (f a, q b) ∧ lo ≤ a ∧ a ≤ b ∧ b ≤ hi ∧
        (∀ i, a ≤ i → i < b → ¬ P i) ∧ (a = lo ∨ (lo < a ∧ P (a - 1))) ∧ (b = hi ∨ P b)) ∧
      (∀ i, lo ≤ i → i ≤ hi → ∃ a b, (f a, q b) ∈ List.zip (f lo :: G.map fun i => f (i + 1)) ((G.map q) ++ [q hi]) ∧ a ≤ i ∧ i ≤ b ∧ b ≤ hi ∧
        (∀ i, a ≤ i → i < b → ¬ P i)) := by
  intro G
  induction G with
  | nil =>
    intro lo hlo _ _ hcomp
    constructor
    · intro p hp
      simp at hp
      exact ⟨lo, hi, hp, le_rfl, hlo, le_rfl, fun i h1 h2 hP => by simpa using hcomp i h1 h2 hP, Or.inl rfl, Or.inl rfl⟩
    · intro i h1 h2
      exact ⟨lo, hi, by simp, h1, h2, le_rfl, fun i h1 h2 hP => by simpa using hcomp i h1 h2 hP⟩
  | cons x G ih =>
    intro lo hlo hpw hmem hcomp
    obtain ⟨hx1, hx2, hxP⟩ := hmem x (by simp)
    rw [List.pairwise_cons] at hpw
    obtain ⟨i1, i2⟩ := ih (x + 1) (by omega) hpw.2 (fun i hiG => by
      obtain ⟨a, b, c⟩ := hmem i (by simp [hiG])
      have := hpw.1 i hiG
      exact ⟨by omega, b, c⟩) (fun i h1 h2 hP => by
      have := hcomp i (by omega) h2 hP
      rcases List.mem_cons.1 this with rfl | h
      · omega
      · exact h)
    have hno : ∀ i, lo ≤ i → i < x → ¬ P i := by
      intro i h1 h2 hP
      rcases List.mem_cons.1 (hcomp i h1 (by omega) hP) with rfl | h
      · omega
      · have := hpw.1 i h; omega
    have hz : List.zip (f lo :: (x :: G).map fun i => f (i + 1)) (((x :: G).map q) ++ [q hi]) =
        (f lo, q x) :: List.zip (f (x + 1) :: G.map fun i => f (i + 1)) ((G.map q) ++ [q hi]) := rfl
    rw [hz]
    constructor
    · intro p hp
      rcases List.mem_cons.1 hp with rfl | hp
      · exact ⟨lo, x, rfl, le_rfl, hx1, by omega, hno, Or.inl rfl, Or.inr hxP⟩
      · obtain ⟨a, b, e, h1, h2, h3, h4, h5, h6⟩ := i1 p hp
        refine ⟨a, b, e, by omega, h2, h3, h4, Or.inr ?_, h6⟩
        rcases h5 with rfl | h5
        · exact ⟨by omega, by simpa using hxP⟩
        · exact ⟨by omega, h5.2⟩
    · intro i h1 h2
      by_cases hix : i ≤ x
      · exact ⟨lo, x, by simp, h1, hix, by omega, hno⟩
      · obtain ⟨a, b, h3, h4⟩ := i2 i (by omega) h2
        exact ⟨a, b, List.mem_cons_of_mem _ h3, h4⟩

/-- **C115.** The GTIs by which a light curve is split at gaps: with some half width `ε > 0`, each goes from `ε` before a bin to `ε` after a bin such that all distances of consecutive bins between them are shorter than `min_gap`, while
the distances to the bins before and after are not; every bin is in one of them; and they are in order, without overlaps. -/
theorem split_gtis_spec (time : List K) (gap : K) (n : Nat) (hn : time.length = n) (h2 : 2 ≤ n) (t : Nat → K)
    (ht : ∀ i < n, time[i]? = some (t i)) (hinc : ∀ i, i + 1 < n → t i < t (i + 1)) :
    ∃ eps l, 0 < eps ∧ splitGtis time gap = .ok l ∧
      (∀ p ∈ l, ∃ a b, p = (t a - eps, t b + eps) ∧ a ≤ b ∧ b < n ∧ (∀ i, a ≤ i → i < b → t (i + 1) - t i < gap) ∧
        (a = 0 ∨ (0 < a ∧ gap ≤ t a - t (a - 1))) ∧ (b = n - 1 ∨ gap ≤ t (b + 1) - t b)) ∧
      (∀ i < n, ∃ a b, (t a - eps, t b + eps) ∈ l ∧ a ≤ i ∧ i ≤ b ∧ ∀ i, a ≤ i → i < b → t (i + 1) - t i < gap) ∧
      (∀ i, i + 1 < n → eps ≤ (t (i + 1) - t i) / 2) := by
  have hdl : (Rebin.diff time).length = n - 1 := by simp [Rebin.diff, hn]
  have hdg : ∀ i, i < n - 1 → (Rebin.diff time)[i]? = some (t (i + 1) - t i) := by
    intro i hi
    rw [Rebin.diff, List.getElem?_zipWith, List.getElem?_tail, ht i (by omega), ht (i + 1) (by omega)]
  cases hd : Rebin.diff time with
  | nil => rw [hd] at hdl; simp at hdl; omega
  | cons d ds =>
    have hmin : ∀ (l : List K) (x : K), (∀ y ∈ x :: l, l.foldl min x ≤ y) ∧ l.foldl min x ∈ x :: l := by
      intro l
      induction l with
      | nil => intro x; simp
      | cons y l ih =>
        intro x
        obtain ⟨a, b⟩ := ih (min x y)
        constructor
        · intro z hz
          rcases List.mem_cons.1 hz with rfl | hz
          · exact (a (min z y) (by simp)).trans (min_le_left _ _)
          · rcases List.mem_cons.1 hz with rfl | hz
            · exact (a (min x z) (by simp)).trans (min_le_right _ _)
            · exact a z (by simp [hz])
        · rw [List.foldl_cons]
          rcases List.mem_cons.1 b with hb | hb
          · rw [hb]
            rcases min_choice x y with h | h <;> rw [h] <;> simp
          · simp [hb]
    obtain ⟨hle, hmem⟩ := hmin ds d
    rw [← hd] at hle hmem
    have hpos : 0 < ds.foldl min d := by
      obtain ⟨i, hi⟩ := List.mem_iff_getElem?.1 hmem
      have hil := (List.getElem?_eq_some_iff.1 hi).1
      rw [hdl] at hil
      rw [hdg i hil, Option.some.injEq] at hi
      rw [← hi]
      exact sub_pos.2 (hinc i (by omega))
    have hpw : ((List.range (n - 1)).filter fun i => decide (gap ≤ (Rebin.diff time).getD i 0)).Pairwise (· < ·) :=
      List.Pairwise.filter _ List.pairwise_lt_range
    have hgd : ∀ i, i < n - 1 → (Rebin.diff time).getD i 0 = t (i + 1) - t i := by
      intro i hi
      rw [List.getD_eq_getElem?_getD, hdg i hi]; rfl
    have htg : ∀ i, i < n → time.getD i 0 = t i := by
      intro i hi
      rw [List.getD_eq_getElem?_getD, ht i hi]; rfl
    obtain ⟨r1, r2⟩ := runs_aux (fun i => time.getD i 0 - ds.foldl min d / 2) (fun i => time.getD i 0 + ds.foldl min d / 2)
      (fun i => gap ≤ (Rebin.diff time).getD i 0) (n - 1)
      ((List.range (n - 1)).filter fun i => decide (gap ≤ (Rebin.diff time).getD i 0)) 0 (by omega) hpw
      (fun i hi => by
        rw [List.mem_filter, List.mem_range, decide_eq_true_eq] at hi
        exact ⟨by omega, hi.1, hi.2⟩)
      (fun i _ h hP => by
        rw [List.mem_filter, List.mem_range, decide_eq_true_eq]
        exact ⟨h, hP⟩)
    have hval : splitGtis time gap = .ok (List.zip ((time.getD 0 0 - ds.foldl min d / 2) ::
          ((List.range (n - 1)).filter fun i => decide (gap ≤ (Rebin.diff time).getD i 0)).map fun i => time.getD (i + 1) 0 - ds.foldl min d / 2)
        ((((List.range (n - 1)).filter fun i => decide (gap ≤ (Rebin.diff time).getD i 0)).map fun i => time.getD i 0 + ds.foldl min d / 2) ++
          [time.getD (n - 1) 0 + ds.foldl min d / 2])) := by
      have hdl' := hdl
      rw [hd] at hdl'
      simp only [splitGtis, hd, hn, hdl']
    refine ⟨ds.foldl min d / 2, _, by linarith, hval, ?_, ?_, ?_⟩
    · intro p hp
      obtain ⟨a, b, e, _, h3, h4, h5, h6, h7⟩ := r1 p hp
      refine ⟨a, b, ?_, h3, by omega, ?_, ?_, ?_⟩
      · rw [e, htg a (by omega), htg b (by omega)]
      · intro i hi1 hi2
        have := h5 i hi1 hi2
        rw [hgd i (by omega)] at this
        exact not_le.1 this
      · rcases h6 with rfl | ⟨h6, h8⟩
        · exact Or.inl rfl
        · right
          rw [hgd (a - 1) (by omega), show a - 1 + 1 = a by omega] at h8
          exact ⟨h6, h8⟩
      · by_cases hbn : b = n - 1
        · exact Or.inl hbn
        · right
          rcases h7 with h7 | h7
          · exact absurd h7 hbn
          · rw [hgd b (by omega)] at h7
            exact h7
    · intro i hi
      obtain ⟨a, b, e, h1, h3, hb, h4⟩ := r2 i (by omega) (by omega)
      rw [htg a (by omega), htg b (by omega)] at e
      refine ⟨a, b, e, h1, h3, ?_⟩
      intro i hi1 hi2
      have := h4 i hi1 hi2
      rw [hgd i (by omega)] at this
      exact not_le.1 this
    · intro i hi
      have := hle (t (i + 1) - t i) (List.mem_of_getElem? (hdg i (by omega)))
      linarith

example : splitGtis ([0, 1, 2, 5, 6, 10] : List ℚ) 3 = .ok [(-1/2, 5/2), (9/2, 13/2), (19/2, 21/2)] := by decide +kernel

end Stingray.LcOps

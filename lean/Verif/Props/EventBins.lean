import Verif.Model.EventBins
import Verif.Props.Hist
import Verif.Props.Binning
import Verif.Props.Analyze
import Verif.Props.Segments
import Mathlib.Analysis.Real.Sqrt

/-!
# C126, C127, C128: binned series, many light curves, colours and intensities from event lists
-/

set_option linter.unusedSectionVars false

namespace Stingray.EventBins

open Stingray Stingray.Gti Stingray.Hist Stingray.Lightcurve Stingray.Segments Stingray.Analyze

section
variable {K : Type} [Field K] [LinearOrder K] [IsStrictOrderedRing K] [FloorRing K]

/-! ## Binned series -/

theorem inBin_iff (a dt : K) (hdt : 0 < dt) (n : Nat) (hn : 0 < n) (k : Nat) (t : K) :
    InBin (a, a + (n : K) * dt) n k t ↔ InTimeBin a dt k t := by
  have hn' : (0 : K) < n := by exact_mod_cast hn
  have : (a + (n : K) * dt - a) / (n : K) = dt := by field_simp; ring
  unfold InBin InTimeBin
  simp only [this]

/-- **C126.** Binning an event list with `to_binned_timeseries(dt)` gives the whole bins of length `dt` from the start of the first GTI to the end of the last one: the times are their middles, `counts` the number of events in each, and each attribute the sum of its values for the
events in the bin. No event of the whole bins is lost or counted twice. A range shorter than a bin is an error. -/
theorem to_binned_spec (time : List K) (attrs : List (String × List K)) (gti : List (K × K)) (dt : K) (hdt : 0 < dt) (g h : K × K) (hg : gti.head? = some g) (hh : gti.getLast? = some h) :
    (0 ≤ h.2 - g.1 → h.2 - g.1 < dt → toBinned time attrs gti dt = .error .zeroDivisionError) ∧
    (dt ≤ h.2 - g.1 → ∃ (n : Nat) (ts : List K) (counts : List Nat) (outs : List (String × List K)), toBinned time attrs gti dt = .ok (ts, counts, outs) ∧
      (n : K) * dt ≤ h.2 - g.1 ∧ h.2 - g.1 < ((n : K) + 1) * dt ∧
      ts = (List.range n).map (fun i : Nat => g.1 + ((i : K) + 1 / 2) * dt) ∧
      counts = (List.range n).map (fun i => (time.filter fun t => decide (InTimeBin g.1 dt i t)).length) ∧
      counts.sum = (time.filter fun t => decide (g.1 ≤ t ∧ t < g.1 + (n : K) * dt)).length ∧
      outs = attrs.map fun a => (a.1, (List.range n).map fun i => (((time.zip a.2).filter fun p => decide (InTimeBin g.1 dt i p.1)).map Prod.snd).sum)) := by
  have hpy : 0 ≤ h.2 - g.1 → Hist.pyInt ((h.2 - g.1) / dt) = ⌊(h.2 - g.1) / dt⌋ := fun h0 => by
    unfold Hist.pyInt; rw [if_pos (div_nonneg h0 hdt.le)]
  constructor
  · intro h0 h1
    unfold toBinned
    simp only [hg, hh, hpy h0]
    rw [if_pos]
    have : (h.2 - g.1) / dt < 1 := by rwa [div_lt_one hdt]
    have := Int.floor_lt.2 (show (h.2 - g.1) / dt < ((1 : Int) : K) by exact_mod_cast this)
    omega
  · intro h1
    have h0 : 0 ≤ h.2 - g.1 := hdt.le.trans h1
    have hfl : (1 : Int) ≤ ⌊(h.2 - g.1) / dt⌋ := by
      rw [Int.le_floor, Int.cast_one, one_le_div hdt]; exact h1
    obtain ⟨n, hn⟩ := Int.eq_ofNat_of_zero_le (show (0 : Int) ≤ ⌊(h.2 - g.1) / dt⌋ by omega)
    have hn0 : 0 < n := by omega
    have hn' : (0 : K) < n := by exact_mod_cast hn0
    have hle : ((n : Int) : K) ≤ (h.2 - g.1) / dt := by rw [← Int.le_floor, hn]
    have hlt : (h.2 - g.1) / dt < ((n : Int) : K) + 1 := by rw [← hn]; exact Int.lt_floor_add_one _
    rw [le_div_iff₀ hdt] at hle
    rw [div_lt_iff₀ hdt] at hlt
    push_cast at hle hlt
    have hr : ((g.1, g.1 + (n : K) * dt) : K × K).1 < (g.1, g.1 + (n : K) * dt).2 := by
      simp only; nlinarith
    have hcounts : hist1d time n (g.1, g.1 + (n : K) * dt) = (List.range n).map (fun i => (time.filter fun t => decide (InTimeBin g.1 dt i t)).length) := by
      obtain ⟨hl, hb⟩ := hist1d_bin time n (g.1, g.1 + (n : K) * dt) hr
      apply List.ext_getElem?
      intro k
      by_cases hk : k < n
      · rw [hb k hk, List.getElem?_map, List.getElem?_range hk, List.countP_eq_length_filter]
        simp only [Option.map_some, inBin_iff g.1 dt hdt n hn0]
      · rw [List.getElem?_eq_none (by omega), List.getElem?_eq_none (by simp; omega)]
    refine ⟨n, arange (g.1 + dt / 2) (g.1 + (n : K) * dt) dt, hist1d time n (g.1, g.1 + (n : K) * dt),
      attrs.map fun a => (a.1, hist1dWeight id (time.zip a.2) n (g.1, g.1 + (n : K) * dt)), ?_, hle, hlt, ?_, hcounts, ?_, ?_⟩
    · unfold toBinned
      simp only [hg, hh, hpy h0, hn]
      rw [if_neg (by omega)]
      simp only [Int.toNat_natCast, Int.cast_natCast]
    · unfold arange
      have : (g.1 + (n : K) * dt - (g.1 + dt / 2)) / dt = (n : K) - 1 / 2 := by field_simp; ring
      have hc : ⌈(n : K) - 1 / 2⌉₊ = n := by
        rw [Nat.ceil_eq_iff hn0.ne', Nat.cast_sub (by omega)]; push_cast; constructor <;> linarith
      rw [this, hc]
      apply List.map_congr_left
      intro i _
      ring
    · rw [hcounts]
      exact count_sum time g.1 dt n hdt
    · apply List.map_congr_left
      intro a _
      congr 1
      obtain ⟨hl, hb⟩ := hist1d_weight_bin (time.zip a.2) n (g.1, g.1 + (n : K) * dt) hr
      apply List.ext_getElem?
      intro k
      by_cases hk : k < n
      · rw [hb k hk, List.getElem?_map, List.getElem?_range hk]
        simp only [Option.map_some, inBin_iff g.1 dt hdt n hn0]
      · rw [List.getElem?_eq_none (by omega), List.getElem?_eq_none (by simp; omega)]

example : toBinned [(1/2 : ℚ), 3/2, 7/4, 5] [("energy", [3, 5, 7, 9])] [(0, 2), (4, 11/2)] 1 =
    .ok ([1/2, 3/2, 5/2, 7/2, 9/2], [1, 2, 0, 0, 0], [("energy", [3, 12, 0, 0, 0])]) := by decide +kernel

/-! ## Many light curves -/

/-- a slice of sorted times that starts with the first one not before `s` and ends not before the first one not before `e` has all the times in `[s, e)` -/
theorem slice_filter (times : List K) (hs : times.Pairwise (· ≤ ·)) (s e : K) (j : Nat) (hj : searchsortedLeft times e ≤ j) (P : K → Prop) [DecidablePred P]
    (hP : ∀ t, P t → s ≤ t ∧ t < e) :
    ((times.take j).drop (searchsortedLeft times s)).filter (fun t => decide (P t)) = times.filter (fun t => decide (P t)) := by
  have h1 : ∀ t ∈ times.drop j, ¬ P t := by
    intro t ht hp
    obtain ⟨i, hi⟩ := List.mem_iff_getElem?.1 ht
    rw [List.getElem?_drop] at hi
    have := (lt_searchsortedLeft_iff times hs e (j + i) t hi).2 (hP t hp).2
    omega
  have h2 : ∀ t ∈ (times.take j).take (searchsortedLeft times s), ¬ P t := by
    intro t ht hp
    obtain ⟨i, hi⟩ := List.mem_iff_getElem?.1 ht
    rw [List.getElem?_take] at hi
    split_ifs at hi with hlt
    rw [List.getElem?_take] at hi
    split_ifs at hi with hlt'
    have := (lt_searchsortedLeft_iff times hs s i t hi).1 hlt
    exact absurd (hP t hp).1 (not_le.2 this)
  have e1 : times.filter (fun t => decide (P t)) = (times.take j).filter (fun t => decide (P t)) := by
    conv_lhs => rw [← List.take_append_drop j times]
    rw [List.filter_append, show (times.drop j).filter (fun t => decide (P t)) = [] from List.filter_eq_nil_iff.2 (fun t ht => by simpa using h1 t ht), List.append_nil]
  have e2 : (times.take j).filter (fun t => decide (P t)) = ((times.take j).drop (searchsortedLeft times s)).filter (fun t => decide (P t)) := by
    conv_lhs => rw [← List.take_append_drop (searchsortedLeft times s) (times.take j)]
    rw [List.filter_append, List.filter_eq_nil_iff.2 (fun t ht => by simpa using h2 t ht), List.nil_append]
  rw [e1, e2]

/-- what the light curve of the segment `s` must be: the `N` whole bins of the segment, with the number of all the events in each -/
def CurveOf (times : List K) (dt : K) (s : K × K) (lc : List K × List Nat) : Prop :=
  ∃ N : Nat, (N : K) * dt ≤ s.2 - s.1 ∧ s.2 - s.1 < ((N : K) + 1) * dt ∧
    lc.1 = (List.range N).map (fun i : Nat => s.1 + (1 / 2 + (i : K)) * dt) ∧
    lc.2 = (List.range N).map (fun i => (times.filter fun t => decide (InTimeBin s.1 dt i t)).length)

theorem timebin_floor (len dt : K) (h0 : 0 ≤ len / dt) (h : Int.fract (len / dt) < 99 / 100) : timebin len dt = ⌊len / dt⌋ := by
  unfold timebin Lightcurve.pyInt
  rw [if_pos h0]
  simp only
  rw [if_neg]
  rw [not_le]
  exact h

theorem curve_spec (sort : KeySort (fun (x : K) => x)) (times : List K) (hs : times.Pairwise (· ≤ ·)) (dt : K) (hdt : 0 < dt) (s : K × K) (hlen : s.1 ≤ s.2)
    (hfr : Int.fract ((s.2 - s.1) / dt) < 99 / 100) (a b : Nat) (ha : a = searchsortedLeft times s.1) (hb : searchsortedLeft times s.2 ≤ b) :
    ∃ lc, makeLightcurve sort ((times.take (b + 1)).drop a) dt (some (s.2 - s.1)) (some s.1) (some [s]) true = .ok lc ∧ CurveOf times dt s lc := by
  have hex : ∃ lc, makeLightcurve sort ((times.take (b + 1)).drop a) dt (some (s.2 - s.1)) (some s.1) (some [s]) true = .ok lc := by
    unfold makeLightcurve
    simp [lcStart, lcLength, bind, Except.bind, pure, Except.pure]
  obtain ⟨lc, hlc⟩ := hex
  refine ⟨lc, hlc, ?_⟩
  obtain ⟨t0, len, h1, h2, h3, h4⟩ := makeLightcurve_cases sort _ dt _ _ _ true lc hdt hlc
  simp only [lcStart, Except.ok.injEq] at h1
  simp only [lcLength, Except.ok.injEq] at h2
  subst h1 h2
  have h0 : 0 ≤ (s.2 - s.1) / dt := div_nonneg (by linarith) hdt.le
  rw [timebin_floor _ dt h0 hfr] at h3 h4
  have hle : ((⌊(s.2 - s.1) / dt⌋.toNat : Nat) : K) = ((⌊(s.2 - s.1) / dt⌋ : Int) : K) := by
    have : ((⌊(s.2 - s.1) / dt⌋.toNat : Nat) : Int) = ⌊(s.2 - s.1) / dt⌋ := Int.toNat_of_nonneg (Int.floor_nonneg.2 h0)
    exact_mod_cast congrArg (Int.cast : Int → K) this
  have hfl := Int.floor_le ((s.2 - s.1) / dt)
  have hfu := Int.lt_floor_add_one ((s.2 - s.1) / dt)
  rw [← hle, le_div_iff₀ hdt] at hfl
  rw [← hle, div_lt_iff₀ hdt] at hfu
  refine ⟨_, hfl, hfu, h3, ?_⟩
  rw [h4]
  apply List.map_congr_left
  intro i hi
  have hi := List.mem_range.1 hi
  rw [ha, slice_filter times hs s.1 s.2 (b + 1) (by omega) (InTimeBin s.1 dt i)]
  intro t ht
  unfold InTimeBin at ht
  have hi' : ((i : K) + 1) * dt ≤ ((⌊(s.2 - s.1) / dt⌋.toNat : Nat) : K) * dt := by
    apply mul_le_mul_of_nonneg_right _ hdt.le
    exact_mod_cast hi
  have : 0 ≤ (i : K) * dt := by positivity
  exact ⟨by linarith, by linarith⟩

theorem gtiBorderBinsOne_sorted (times : List K) (hs : times.Pairwise (· ≤ ·)) (g0 g1 : K) (r : Nat × Nat) (h : gtiBorderBinsOne times g0 g1 = .ok r) :
    r.1 = searchsortedLeft times g0 ∧ searchsortedLeft times g1 ≤ r.2 := by
  unfold gtiBorderBinsOne at h
  simp only at h
  split at h
  case h_2 => cases h
  case h_1 ts te h1 h2 =>
    cases h
    simp only
    have hn : searchsortedLeft times g0 < times.length := (List.getElem?_eq_some_iff.1 h1).1
    have hle : searchsortedLeft times g1 ≤ times.length := List.length_filter_le _ _
    have hts : ¬ ts < g0 := by
      intro hlt
      have := (lt_searchsortedLeft_iff times hs g0 _ ts h1).2 hlt
      omega
    rw [if_neg hts]
    refine ⟨rfl, ?_⟩
    rw [if_neg (by omega)] at h2
    split_ifs with hc
    · rcases lt_or_ge (searchsortedLeft times g1) times.length with hk | hk
      · omega
      · exfalso
        have hk : searchsortedLeft times g1 = times.length := le_antisymm hle hk
        have := (lt_searchsortedLeft_iff times hs g1 _ te h2).1 (by omega)
        exact absurd hc (not_lt.2 this.le)
    · omega

theorem mapM_forall2 {α β : Type} (f : α → Except PyErr β) (P : α → β → Prop) (l : List α) (h : ∀ a ∈ l, ∃ b, f a = .ok b ∧ P a b) :
    ∃ out, l.mapM f = .ok out ∧ List.Forall₂ P l out := by
  induction l with
  | nil => exact ⟨[], rfl, List.Forall₂.nil⟩
  | cons a l ih =>
    obtain ⟨o, ho, hp⟩ := h a List.mem_cons_self
    obtain ⟨outs, h1, h2⟩ := ih fun y hy => h y (List.mem_cons_of_mem _ hy)
    refine ⟨o :: outs, ?_, List.Forall₂.cons hp h2⟩
    rw [List.mapM_cons, ho, h1]
    rfl

/-- **C127 (segments, partial).** With a segment size that is not just (within a hundredth of a bin) below a whole number of bins, `to_lc_iter(dt, segment_size)` yields one light curve per segment of
`time_intervals_from_gtis` (C13), in order, made of the whole bins of the segment with the number of all events in each bin. Missing: other segment sizes, see `lc_iter_twice`. -/
theorem lc_iter_segments_partial (sort : KeySort (fun (x : K) => x)) (times : List K) (hs : times.Pairwise (· ≤ ·)) (gti : List (K × K)) (dt size eps : K) (hdt : 0 < dt) (hsize : 0 < size)
    (hfr : Int.fract (size / dt) < 99 / 100) (segs : List (K × K)) (hseg : timeIntervalsFromGtis gti size 1 eps = .ok segs) :
    ∃ curves, toLcIter sort times gti dt (some size) eps = .ok curves ∧ List.Forall₂ (CurveOf times dt) segs curves := by
  have hmem : ∀ s ∈ segs, s.2 = s.1 + size := by
    intro s hs
    exact ((time_intervals_from_gtis_iff gti size 1 eps hsize one_pos segs hseg s.1 s.2).1 hs).1
  have hb : boundaries times gti (some size) eps = .ok (segs.map fun s => (s, (searchsortedLeft times s.1, searchsortedLeft times s.2))) := by
    unfold boundaries segmentIndicesUnbinned
    simp only [hseg, bind, Except.bind, pure, Except.pure]
    rw [if_neg (by rw [not_not, List.isChain_iff_pairwise]; exact hs)]
  obtain ⟨curves, hc, hf⟩ := mapM_forall2 (fun s : (K × K) × (Nat × Nat) =>
      makeLightcurve sort ((times.take (s.2.2 + 1)).drop s.2.1) dt (some (s.1.2 - s.1.1)) (some s.1.1) (some [s.1]) true)
    (fun s lc => CurveOf times dt s.1 lc) (segs.map fun s => (s, (searchsortedLeft times s.1, searchsortedLeft times s.2))) (by
      intro x hx
      obtain ⟨s, hsm, rfl⟩ := List.mem_map.1 hx
      have he := hmem s hsm
      exact curve_spec sort times hs dt hdt s (by rw [he]; linarith) (by rw [he, add_sub_cancel_left]; exact hfr) _ _ rfl le_rfl)
  refine ⟨curves, ?_, ?_⟩
  · unfold toLcIter
    simp only [hb]
    exact hc
  · rw [List.forall₂_map_left_iff] at hf
    exact hf

/-- **C127 (GTIs, partial).** Without a segment size there is one light curve per GTI, under the same condition on the lengths. Missing besides: GTIs that start after the last event, see `lc_iter_late_gti`. -/
theorem lc_iter_gtis_partial (sort : KeySort (fun (x : K) => x)) (times : List K) (hs : times.Pairwise (· ≤ ·)) (gti : List (K × K)) (dt eps : K) (hdt : 0 < dt)
    (hgti : ∀ g ∈ gti, g.1 ≤ g.2 ∧ Int.fract ((g.2 - g.1) / dt) < 99 / 100) (r : List (Nat × Nat)) (hr : gtiBorderBins gti times 0 eps = .ok r) :
    ∃ curves, toLcIter sort times gti dt none eps = .ok curves ∧ List.Forall₂ (CurveOf times dt) gti curves := by
  have hfr : List.Forall₂ (fun (g : K × K) (r : Nat × Nat) => r.1 = searchsortedLeft times g.1 ∧ searchsortedLeft times g.2 ≤ r.2) gti r := by
    unfold gtiBorderBins at hr
    split at hr
    · split_ifs at hr
      refine (mapM_ok_forall2 _ _ _ hr).imp ?_
      intro g r h
      simp only [zero_div, mul_zero, add_zero, sub_zero] at h
      exact gtiBorderBinsOne_sorted times hs _ _ _ h
    · cases hr
  have hz : List.Forall₂ (fun (g : K × K) (x : (K × K) × (Nat × Nat)) => x.1 = g ∧ x.2.1 = searchsortedLeft times g.1 ∧ searchsortedLeft times g.2 ≤ x.2.2) gti (gti.zip r) := by
    clear hgti hr
    induction hfr with
    | nil => exact List.Forall₂.nil
    | cons h _ ih => exact List.Forall₂.cons ⟨rfl, h⟩ ih
  obtain ⟨curves, hc, hf⟩ := mapM_forall2 (fun s : (K × K) × (Nat × Nat) =>
      makeLightcurve sort ((times.take (s.2.2 + 1)).drop s.2.1) dt (some (s.1.2 - s.1.1)) (some s.1.1) (some [s.1]) true)
    (fun s lc => CurveOf times dt s.1 lc) (gti.zip r) (by
      intro x hx
      have hgm : x.1 ∈ gti := (List.of_mem_zip (a := x.1) (b := x.2) hx).1
      obtain ⟨g, _, rfl, h2, h3⟩ := Analyze.forall2_mem_right hz hx
      exact curve_spec sort times hs dt hdt x.1 (hgti _ hgm).1 (hgti _ hgm).2 _ _ h2 h3)
  refine ⟨curves, ?_, ?_⟩
  · unfold toLcIter boundaries
    simp only [hr, Except.map]
    exact hc
  · clear hc hr hfr
    generalize gti.zip r = z at hz hf
    induction hz generalizing curves with
    | nil => cases hf; exact List.Forall₂.nil
    | cons h _ ih =>
      cases hf with
      | cons h1 h2 =>
        refine List.Forall₂.cons ?_ (ih (fun g hg => hgti g (List.mem_cons_of_mem _ hg)) _ h2)
        rw [h.1] at h1; exact h1

/-- **C127 (segments, negation).** When the segments are just shorter than a whole number of bins, the last bin goes beyond the end of the segment, and the first event of the next segment can be counted in both light curves. -/
theorem lc_iter_twice : toLcIter (stableSort _) [(1/2 : ℚ), 399/200] [(0, 4)] 1 (some (199/100)) (1/1000) =
    .ok [([1/2, 3/2], [1, 1]), ([249/100, 349/100], [1, 0])] := by decide +kernel

/-- **C127 (GTIs, negation).** A GTI that starts after the last event is an error, instead of an empty light curve. -/
theorem lc_iter_late_gti : toLcIter (stableSort _) [(1/2 : ℚ), 3/2] [(0, 2), (4, 6)] 1 none (1/1000) = .error .indexError := by decide +kernel

example : toLcIter (stableSort _) [(1/2 : ℚ), 3/2, 2, 9/2] [(0, 2), (3, 5)] 1 none (1/1000) = .ok [([1/2, 3/2], [1, 1]), ([7/2, 9/2], [0, 1])] := by decide +kernel
example : toLcIter (stableSort _) [(1/2 : ℚ), 3/2, 2, 9/2] [(0, 5)] 1 (some 2) (1/1000) = .ok [([1/2, 3/2], [1, 1]), ([5/2, 7/2], [1, 0])] := by decide +kernel

/-! ## Colours and intensities -/

/-- the number of events in the segment `s` and in the energy range `r` -/
def eventsInBand (rows : List (K × K)) (s r : K × K) : Nat :=
  (rows.filter fun p => decide ((s.1 ≤ p.1 ∧ p.1 < s.2) ∧ r.1 ≤ p.2 ∧ p.2 < r.2)).length

theorem countIn_rowsIn (rows : List (K × K)) (s r : K × K) : countIn (rowsIn rows s.1 s.2) r = eventsInBand rows s r := by
  unfold countIn eventsInBand energyMask rowsIn
  rw [List.map_map, List.count_eq_countP, List.countP_map, List.countP_eq_length_filter, List.filter_filter]
  congr 1
  apply List.filter_congr
  intro p _
  rw [Bool.eq_iff_iff]
  simp [and_comm, and_assoc]

/-- **C128 (partial).** On an event list where every segment (or, without a segment size, every GTI) has at least two events, there is one value per segment, at the position of the times of the segment. Missing: segments with fewer events (C122, and `evolution_no_segment`). -/
theorem evolution_partial {R : Type} (rows : List (K × K)) (hs : (rows.map Prod.fst).Pairwise (· ≤ ·)) (gti : List (K × K)) (dt : K) (hdt : ¬ dt > 0)
    (func : List (K × K) → K × K → R) (size : Option K) (eps : K) (nbin step : K → Nat) (segs : List (K × K)) (hne : segs ≠ [])
    (hseg : match size with | some z => timeIntervalsFromGtis gti z 1 eps = .ok segs | none => gti = segs)
    (h2 : ∀ s ∈ segs, 2 ≤ (rowsIn rows s.1 s.2).length) :
    evolution rows gti dt func size eps nbin step = .ok (segs, segs.map fun s => func (rowsIn rows s.1 s.2) s) := by
  have hall : segs.filter (fun s => decide (2 ≤ (rowsIn rows s.1 s.2).length)) = segs := by
    rw [List.filter_eq_self]
    intro s hs
    simpa using h2 s hs
  have hk : analyzeSegments rows gti dt func size 1 eps nbin step = .ok (segs, segs.map fun s => func (rowsIn rows s.1 s.2) s) := by
    cases size with
    | some z =>
      rw [analyze_events_partial rows hs gti dt hdt func z 1 eps nbin step segs hseg, hall]
    | none =>
      simp only at hseg
      subst hseg
      rw [analyze_gtis_partial rows hs gti dt func 1 eps nbin step, hall]
  unfold evolution
  simp only [hk]
  rw [if_neg (by simpa using hne)]

/-- **C128.** The colour of a segment is the number of its events in the second energy range divided by the number in the first; it has no value when one of them is zero, and never otherwise. -/
theorem color_spec (sqrt : K → K) (r1 r2 : K × K) (rows : List (K × K)) (s : K × K) :
    (color sqrt r1 r2 (rowsIn rows s.1 s.2) s = none ↔ eventsInBand rows s r1 = 0 ∨ eventsInBand rows s r2 = 0) ∧
    ∀ c e, color sqrt r1 r2 (rowsIn rows s.1 s.2) s = some (c, e) → 0 < c ∧ c * (eventsInBand rows s r1 : K) = (eventsInBand rows s r2 : K) := by
  unfold color
  rw [countIn_rowsIn, countIn_rowsIn]
  simp only
  by_cases h : eventsInBand rows s r1 = 0 ∨ eventsInBand rows s r2 = 0
  · simp [h]
  · rw [if_neg h]
    push Not at h
    refine ⟨by simp [h.1, h.2], ?_⟩
    intro c e hc
    simp only [Option.some.injEq, Prod.mk.injEq] at hc
    have h1 : (0 : K) < eventsInBand rows s r1 := by exact_mod_cast Nat.pos_of_ne_zero h.1
    have h2 : (0 : K) < eventsInBand rows s r2 := by exact_mod_cast Nat.pos_of_ne_zero h.2
    rw [← hc.1]
    exact ⟨div_pos h2 h1, div_mul_cancel₀ _ h1.ne'⟩

/-- **C128.** The intensity times the length of the segment is the number of events of the segment in the energy range, and the error is that of a Poisson variable: its square, times the length squared, is the same number. -/
theorem intensity_spec (sqrt : K → K) (hsq : ∀ x : K, 0 ≤ x → sqrt x * sqrt x = x) (r : K × K) (rows : List (K × K)) (s : K × K) (hlt : s.1 < s.2) (v e : K)
    (h : intensity sqrt r (rowsIn rows s.1 s.2) s = (v, e)) :
    v * (s.2 - s.1) = (eventsInBand rows s r : K) ∧ (e * (s.2 - s.1)) ^ 2 = (eventsInBand rows s r : K) := by
  unfold intensity at h
  rw [countIn_rowsIn] at h
  simp only [Prod.mk.injEq] at h
  have hd : s.2 - s.1 ≠ 0 := by linarith [sub_pos.2 hlt] |> fun (h : 0 < s.2 - s.1) => h.ne'
  rw [← h.1, ← h.2, div_mul_cancel₀ _ hd, div_mul_cancel₀ _ hd]
  exact ⟨rfl, by rw [sq]; exact hsq _ (Nat.cast_nonneg _)⟩

/-- **C128 (no values, negation).** An event list with fewer than two events in each segment raises an error, instead of giving the (small) intensities. -/
theorem evolution_no_segment : evolution [((1 : ℚ), 3), (5, 3)] [(0, 8)] 0 (intensity id (2, 4)) (some 4) (1/1000) (fun _ => 0) (fun _ => 0) = .error .valueError := by decide +kernel

example : evolution [((1 : ℚ), 3), (2, 5), (3, 5), (5, 3), (6, 6)] [(0, 8)] 0 (color id (2, 4) (4, 6)) (some 4) (1/1000) (fun _ => 0) (fun _ => 0) =
    .ok ([(0, 4), (4, 8)], [some (2, 4), none]) := by decide +kernel

end

/-- **C128.** The error of a colour is not smaller than the propagation of the (independent) Poisson errors of the two numbers, and at most a factor of the square root of 2 larger. -/
theorem color_error (r1 r2 : ℝ × ℝ) (rows : List (ℝ × ℝ)) (s : ℝ × ℝ) (c e : ℝ) (h : color Real.sqrt r1 r2 (rowsIn rows s.1 s.2) s = some (c, e)) :
    let quad := c * Real.sqrt (1 / (eventsInBand rows s r1 : ℝ) + 1 / (eventsInBand rows s r2 : ℝ))
    quad ≤ e ∧ e ≤ Real.sqrt 2 * quad := by
  have hc := (color_spec Real.sqrt r1 r2 rows s).2 c e h
  have hn : ¬ (eventsInBand rows s r1 = 0 ∨ eventsInBand rows s r2 = 0) := by
    intro hcon
    rw [(color_spec Real.sqrt r1 r2 rows s).1.2 hcon] at h
    cases h
  unfold color at h
  rw [countIn_rowsIn, countIn_rowsIn] at h
  simp only [if_neg hn, Option.some.injEq, Prod.mk.injEq] at h
  push Not at hn
  have h1 : (0 : ℝ) < eventsInBand rows s r1 := by exact_mod_cast Nat.pos_of_ne_zero hn.1
  have h2 : (0 : ℝ) < eventsInBand rows s r2 := by exact_mod_cast Nat.pos_of_ne_zero hn.2
  obtain ⟨hc1, hc2⟩ := h
  rw [hc1] at hc2
  set n1 : ℝ := ((eventsInBand rows s r1 : ℕ) : ℝ)
  set n2 : ℝ := ((eventsInBand rows s r2 : ℕ) : ℝ)
  have ea : Real.sqrt n1 / n1 = Real.sqrt (1 / n1) := by
    rw [Real.sqrt_div_self', Real.sqrt_div zero_le_one, Real.sqrt_one]
  have eb : Real.sqrt n2 / n2 = Real.sqrt (1 / n2) := by
    rw [Real.sqrt_div_self', Real.sqrt_div zero_le_one, Real.sqrt_one]
  have p1 : 0 ≤ 1 / n1 := by positivity
  have p2 : 0 ≤ 1 / n2 := by positivity
  have s1 := Real.sq_sqrt p1
  have s2 := Real.sq_sqrt p2
  have q1 := Real.sqrt_nonneg (1 / n1)
  have q2 := Real.sqrt_nonneg (1 / n2)
  rw [← hc2, ea, eb]
  constructor
  · apply mul_le_mul_of_nonneg_left _ hc.1.le
    rw [Real.sqrt_le_left (by positivity)]
    nlinarith
  · have : Real.sqrt (1 / n1) + Real.sqrt (1 / n2) ≤ Real.sqrt 2 * Real.sqrt (1 / n1 + 1 / n2) := by
      rw [← Real.sqrt_mul zero_le_two]
      apply Real.le_sqrt_of_sq_le
      nlinarith [sq_nonneg (Real.sqrt (1 / n1) - Real.sqrt (1 / n2))]
    calc c * (Real.sqrt (1 / n1) + Real.sqrt (1 / n2)) ≤ c * (Real.sqrt 2 * Real.sqrt (1 / n1 + 1 / n2)) := mul_le_mul_of_nonneg_left this hc.1.le
      _ = _ := by ring

end Stingray.EventBins

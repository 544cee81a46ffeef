import Verif.Lemmas.GtiSegments
import Mathlib.Data.Rat.Floor
import Mathlib.Algebra.Order.Ring.Rat
import Mathlib.Tactic.NormNum

/-!
# Properties C13-C16: cutting GTIs in segments, and splitting GTI lists
-/

namespace Stingray.Gti

open Stingray.Spec

variable {K : Type} [Field K] [LinearOrder K] [IsStrictOrderedRing K]

section times
variable [FloorRing K]

/-- **C13.** For every GTI list, positive segment size, step fraction and tolerance:
`(s, e)` is returned by `time_intervals_from_gtis` iff it has the requested length, starts a whole number of
steps after the start of some GTI and ends before the end of that GTI (plus the
tolerance).  So no segment leaves its GTI and none that fits is missing. -/
theorem time_intervals_from_gtis_iff (gtis : List (K × K)) (size frac eps : K) (hsize : 0 < size)
    (hfrac : 0 < frac) (out : List (K × K))
    (h : timeIntervalsFromGtis gtis size frac eps = .ok out) (s e : K) :
    (s, e) ∈ out ↔ e = s + size ∧
      ∃ g ∈ gtis, e < g.2 + eps ∧ ∃ k : Nat, s = g.1 + (k : K) * (size * frac) := by
  have hstep : 0 < size * frac := mul_pos hsize hfrac
  unfold timeIntervalsFromGtis at h
  simp only at h
  split_ifs at h with hlen
  simp only [Except.ok.injEq] at h
  subst h
  simp only [List.mem_map, Prod.mk.injEq, segmentStarts, List.mem_flatMap]
  constructor
  · rintro ⟨x, ⟨g, hg, hx⟩, rfl, rfl⟩
    refine ⟨rfl, g, hg, ?_⟩
    split_ifs at hx with hc
    · simp at hx
    · obtain ⟨k, hk, hlt⟩ := (mem_arange _ _ _ _ hstep).1 hx
      exact ⟨by linarith, k, hk⟩
  · rintro ⟨rfl, g, hg, hlt, k, hk⟩
    refine ⟨s, ⟨g, hg, ?_⟩, rfl, rfl⟩
    have hk0 : 0 ≤ (k : K) * (size * frac) := mul_nonneg (Nat.cast_nonneg k) hstep.le
    rw [if_neg (by rw [hk] at hlt; linarith)]
    exact (mem_arange _ _ _ _ hstep).2 ⟨k, hk, by linarith⟩

/-- **C13.** With `fraction_step = 1` and a well-formed GTI list the segments follow each other in time:
each ends before the next starts, up to the tolerance. -/
theorem time_intervals_from_gtis_disjoint (gtis : List (K × K)) (size eps : K) (hsize : 0 < size)
    (heps : 0 < eps) (hwf : WellFormed gtis) (out : List (K × K))
    (h : timeIntervalsFromGtis gtis size 1 eps = .ok out) :
    out.Pairwise (fun p q => p.1 < q.1 + eps ∧ p.2 < q.1 + eps) := by
  unfold timeIntervalsFromGtis at h
  simp only at h
  split_ifs at h with hlen
  simp only [Except.ok.injEq] at h
  subst h
  rw [List.pairwise_map]
  clear hlen
  have hmem : ∀ (g : K × K), ∀ x ∈ (if g.2 - g.1 + eps < size then ([] : List K)
      else arange g.1 (g.2 - size + eps) (size * 1)), g.1 ≤ x ∧ x + size < g.2 + eps := by
    intro g x hx
    split_ifs at hx with hc
    · simp at hx
    · obtain ⟨k, hk, hlt⟩ := (mem_arange _ _ _ _ (by linarith)).1 hx
      have : 0 ≤ (k : K) * (size * 1) := mul_nonneg (Nat.cast_nonneg k) (by linarith)
      exact ⟨by linarith, by linarith⟩
  induction gtis with
  | nil => simp [segmentStarts]
  | cons g gs ih =>
    have hi := ih (wf_tail hwf)
    simp only [segmentStarts, List.flatMap_cons] at hi ⊢
    refine List.pairwise_append.2 ⟨?_, hi, ?_⟩
    · split_ifs with hc
      · simp
      · refine (arange_steps _ _ _ (by linarith)).imp ?_
        intro x y hxy
        constructor <;> linarith
    · intro x hx y hy
      obtain ⟨k, hk, hy⟩ := List.mem_flatMap.1 hy
      have h1 := hmem g x hx
      have h2 := hmem k y hy
      have h3 := (List.pairwise_cons.1 hwf.2).1 k hk
      constructor <;> linarith

/-- **C13 (error branch).** It fails (assertion) exactly when no GTI is long enough. -/
theorem time_intervals_from_gtis_error (gtis : List (K × K)) (size frac eps : K) (hsize : 0 < size)
    (hfrac : 0 < frac) :
    timeIntervalsFromGtis gtis size frac eps = .error .assertionError ↔
      ∀ g ∈ gtis, g.2 - g.1 + eps ≤ size := by
  have hstep : 0 < size * frac := mul_pos hsize hfrac
  unfold timeIntervalsFromGtis
  simp only
  constructor
  · intro h g hg
    split_ifs at h with hlen
    by_contra hcon
    have : g.1 ∈ segmentStarts gtis size frac eps := by
      unfold segmentStarts
      refine List.mem_flatMap.2 ⟨g, hg, ?_⟩
      rw [if_neg (by linarith [not_le.1 hcon])]
      exact (mem_arange _ _ _ _ hstep).2 ⟨0, by simp, by linarith [not_le.1 hcon]⟩
    rw [List.length_eq_zero_iff.1 hlen] at this
    simp at this
  · intro h
    rw [if_pos]
    rw [List.length_eq_zero_iff]
    unfold segmentStarts
    rw [List.flatMap_eq_nil_iff]
    intro g hg
    have := h g hg
    split_ifs with hc
    · rfl
    · rw [List.eq_nil_iff_forall_not_mem]
      intro x hx
      obtain ⟨k, hk, hlt⟩ := (mem_arange _ _ _ _ hstep).1 hx
      have hk0 : 0 ≤ (k : K) * (size * frac) := mul_nonneg (Nat.cast_nonneg k) hstep.le
      linarith

example : timeIntervalsFromGtis [((0 : ℚ), 10), (11, 12), (20, 25)] 4 1 (1/1000) =
    .ok [(0, 4), (4, 8), (20, 24)] := by decide +kernel

/-- **C16.** For time-sorted events, the indices generated for a segment `[s, e)` select exactly
the events with `s ≤ t < e`, in order. -/
theorem segment_indices_unbinned_exact (times : List K) (gti : List (K × K)) (size eps : K)
    (out : List ((K × K) × (Nat × Nat)))
    (h : segmentIndicesUnbinned times gti size eps = .ok out) :
    times.Pairwise (· ≤ ·) ∧
    ∀ p ∈ out, ((times.take p.2.2).drop p.2.1) =
      times.filter (fun t => decide (p.1.1 ≤ t ∧ t < p.1.2)) := by
  unfold segmentIndicesUnbinned at h
  rcases hs : timeIntervalsFromGtis gti size 1 eps with er | segs
  · simp [hs, bind, Except.bind] at h
  simp only [hs, bind, Except.bind] at h
  split_ifs at h with hsort
  simp only [pure, Except.pure, Except.ok.injEq] at h
  subst h
  have hsort' : times.Pairwise (· ≤ ·) := by
    exact List.isChain_iff_pairwise.1 hsort
  refine ⟨hsort', ?_⟩
  intro p hp
  obtain ⟨sg, hsg, rfl⟩ := List.mem_map.1 hp
  simp only
  rw [searchsortedLeft_take times hsort']
  have hf : (times.filter (fun x => decide (x < sg.2))).Pairwise (· ≤ ·) := hsort'.filter _
  have e : searchsortedLeft times sg.1 = searchsortedLeft times sg.1 := rfl
  rcases le_total sg.1 sg.2 with hle | hle
  · have e2 : searchsortedLeft times sg.1 =
        searchsortedLeft (times.filter (fun x => decide (x < sg.2))) sg.1 := by
      unfold searchsortedLeft
      rw [List.filter_filter]
      congr 1
      apply List.filter_congr
      intro x _
      by_cases hx : x < sg.1
      · simp [hx, lt_of_lt_of_le hx hle]
      · simp [hx]
    rw [e2, searchsortedLeft_drop _ hf, List.filter_filter]
    apply List.filter_congr
    intro x _
    simp [Bool.decide_and]
  · have e3 : times.filter (fun t => decide (sg.1 ≤ t ∧ t < sg.2)) = [] := by
      rw [List.filter_eq_nil_iff]
      intro x _
      simp only [decide_eq_true_eq, not_and, not_lt]
      intro hx; exact hle.trans hx
    rw [e3]
    apply List.drop_eq_nil_of_le
    exact searchsortedLeft_mono times hle

/-- **C16.** Segments that do not overlap in time never share an event: their index ranges do not
overlap either. -/
theorem segment_indices_unbinned_disjoint (times : List K) (gti : List (K × K)) (size eps : K)
    (out : List ((K × K) × (Nat × Nat)))
    (h : segmentIndicesUnbinned times gti size eps = .ok out)
    (p q : (K × K) × (Nat × Nat)) (hp : p ∈ out) (hq : q ∈ out) (hpq : p.1.2 ≤ q.1.1) :
    p.2.2 ≤ q.2.1 := by
  unfold segmentIndicesUnbinned at h
  rcases hs : timeIntervalsFromGtis gti size 1 eps with er | segs
  · simp [hs, bind, Except.bind] at h
  simp only [hs, bind, Except.bind] at h
  split_ifs at h with hsort
  simp only [pure, Except.pure, Except.ok.injEq] at h
  subst h
  obtain ⟨sp, _, rfl⟩ := List.mem_map.1 hp
  obtain ⟨sq, _, rfl⟩ := List.mem_map.1 hq
  exact searchsortedLeft_mono times hpq

/-- **C16 (error branch).** Unsorted events are rejected. -/
theorem segment_indices_unbinned_unsorted (times : List K) (gti : List (K × K)) (size eps : K)
    (hns : ¬ times.Pairwise (· ≤ ·)) :
    ∀ out, segmentIndicesUnbinned times gti size eps ≠ .ok out := by
  intro out h
  exact hns (segment_indices_unbinned_exact times gti size eps out h).1

example : segmentIndicesUnbinned [(1 : ℚ), 2, 2, 4, 5, 8, 21, 24] [((0 : ℚ), 10), (20, 25)] 4 (1/1000) =
    .ok [((0, 4), (0, 3)), ((4, 8), (3, 5)), ((20, 24), (6, 7))] := by decide +kernel

end times

/-! ### binned segments -/

/-- **C14.** For increasing times, the bins attributed by `gti_border_bins` to a GTI are exactly
those whose whole bin is inside it (up to the tolerance `epsilon * dt`). -/
theorem gti_border_bins_exact (gtis : List (K × K)) (time : List K) (dt eps : K)
    (hs : time.Pairwise (· < ·)) (out : List (Nat × Nat))
    (h : gtiBorderBins gtis time dt eps = .ok out) :
    List.Forall₂ (fun g (r : Nat × Nat) => ∀ (i : Nat) (t : K), time[i]? = some t →
      ((r.1 ≤ i ∧ i < r.2) ↔ BinInside g.1 g.2 t dt (eps * dt))) gtis out := by
  unfold gtiBorderBins at h
  split at h
  · split_ifs at h with hv
    refine (mapM_ok_forall2 _ _ _ h).imp ?_
    rintro g ⟨a, b⟩ hg i t ht
    have := gtiBorderBinsOne_spec time hs _ _ a b hg i t ht
    simp only
    rw [this]
    unfold BinInside
    constructor <;> rintro ⟨h1, h2⟩ <;> constructor <;> linarith
  · simp at h

/-- **C14 (partial).** When the step is at least the segment length (`fraction_step = 1` included),
for increasing times: every returned range has exactly `nbin` bins, all of them existing and wholly inside one
and the same GTI (up to `epsilon * dt`).  Missing: `fraction_step < 1`, for which it is false
(`bin_intervals_overrun`). -/
theorem bin_intervals_from_gtis_inside_partial (gtis : List (K × K)) (size : K) (time : List K)
    (dt eps : K) (nbin step : Nat) (hs : time.Pairwise (· < ·)) (hn : 0 < nbin) (hstep : nbin ≤ step)
    (out : List (Nat × Nat)) (h : binIntervalsFromGtis gtis size time dt eps nbin step = .ok out) :
    ∀ p ∈ out, p.2 = p.1 + nbin ∧ ∃ g ∈ gtis, ∀ i, p.1 ≤ i → i < p.2 →
      ∃ t, time[i]? = some t ∧ BinInside g.1 g.2 t dt (eps * dt) := by
  unfold binIntervalsFromGtis at h
  split at h
  swap
  · simp at h
  split_ifs at h with hv
  simp only [bind, Except.bind] at h
  split at h
  · simp at h
  rename_i starts hm
  have hf := mapM_ok_forall2 _ _ _ hm
  split_ifs at h with hlen
  simp only [pure, Except.pure, Except.ok.injEq] at h
  subst h
  intro p hp
  obtain ⟨s, hsm, rfl⟩ := List.mem_map.1 hp
  obtain ⟨st, hst, hsst⟩ := List.mem_flatten.1 hsm
  obtain ⟨g, hg, hgs⟩ := forall2_mem_right hf hst
  refine ⟨rfl, g, hg, ?_⟩
  intro i hi1 hi2
  simp only at hi1 hi2
  split_ifs at hgs with hshort
  · simp only [pure, Except.pure, Except.ok.injEq] at hgs
    subst hgs; simp at hsst
  · rcases hb : gtiBorderBinsOne time (g.1 + dt / 2 - eps * dt) (g.2 - dt / 2 + eps * dt) with er | ⟨a, b⟩
    · rw [hb] at hgs; simp at hgs
    · rw [hb] at hgs
      simp only at hgs
      obtain ⟨k, hk, hle⟩ := (calculateSegmentBinStart_spec a b nbin step hn hstep st hgs s).1 hsst
      have hbl := gtiBorderBinsOne_le time _ _ a b hb
      have ht : time[i]? = some (time[i]'(by omega)) := List.getElem?_eq_getElem (by omega)
      refine ⟨_, ht, ?_⟩
      have := (gtiBorderBinsOne_spec time hs _ _ a b hb i _ ht).1 ⟨by omega, by omega⟩
      constructor <;> linarith [this.1, this.2]

/-- **C14 (completeness).** No full segment is missed: if the GTI is not skipped as too short,
`i` is its first bin, and the last bin of the `k`-th segment counted from `i` is inside the
GTI, then that segment is returned. -/
theorem bin_intervals_from_gtis_complete (gtis : List (K × K)) (size : K) (time : List K)
    (dt eps : K) (nbin step : Nat) (hs : time.Pairwise (· < ·)) (hn : 0 < nbin) (hstep : nbin ≤ step)
    (out : List (Nat × Nat)) (h : binIntervalsFromGtis gtis size time dt eps nbin step = .ok out)
    (g : K × K) (hg : g ∈ gtis) (hlong : size ≤ g.2 - g.1 + 3 * eps * dt) (i k : Nat) (t tj : K)
    (ht : time[i]? = some t) (hin : BinInside g.1 g.2 t dt (eps * dt))
    (hfirst : ∀ j u, j + 1 = i → time[j]? = some u → ¬ BinInside g.1 g.2 u dt (eps * dt))
    (htj : time[i + k * step + nbin - 1]? = some tj) (hjn : BinInside g.1 g.2 tj dt (eps * dt)) :
    (i + k * step, i + k * step + nbin) ∈ out := by
  unfold binIntervalsFromGtis at h
  split at h
  swap
  · simp at h
  split_ifs at h with hv
  simp only [bind, Except.bind] at h
  split at h
  · simp at h
  rename_i starts hm
  have hf := mapM_ok_forall2 _ _ _ hm
  split_ifs at h with hlen
  simp only [pure, Except.pure, Except.ok.injEq] at h
  subst h
  obtain ⟨st, hst, hgs⟩ := forall2_mem_left hf hg
  refine List.mem_map.2 ⟨i + k * step, List.mem_flatten.2 ⟨st, hst, ?_⟩, rfl⟩
  rw [if_neg (by linarith)] at hgs
  rcases hb : gtiBorderBinsOne time (g.1 + dt / 2 - eps * dt) (g.2 - dt / 2 + eps * dt) with er | ⟨a, b⟩
  · rw [hb] at hgs; simp at hgs
  rw [hb] at hgs
  simp only at hgs
  have key : ∀ (j : Nat) (u : K), time[j]? = some u →
      ((a ≤ j ∧ j < b) ↔ BinInside g.1 g.2 u dt (eps * dt)) := by
    intro j u hu
    rw [gtiBorderBinsOne_spec time hs _ _ a b hb j u hu]
    unfold BinInside
    constructor <;> rintro ⟨h1, h2⟩ <;> constructor <;> linarith
  have h1 := (key i t ht).2 hin
  have h2 := (key _ tj htj).2 hjn
  have hai : a = i := by
    by_contra hcon
    have hi : i < time.length := (List.getElem?_eq_some_iff.1 ht).1
    have hu : time[i - 1]? = some (time[i - 1]'(by omega)) := List.getElem?_eq_getElem (by omega)
    exact hfirst (i - 1) _ (by omega) hu ((key _ _ hu).1 ⟨by omega, by omega⟩)
  rw [calculateSegmentBinStart_spec a b nbin step hn hstep st hgs]
  exact ⟨k, by rw [hai], by omega⟩

/-- **C14.** With a step at least as long as the segments, well-formed GTIs, and a tolerance below half a bin,
the returned bin ranges do not overlap and are in increasing order. -/
theorem bin_intervals_from_gtis_disjoint (gtis : List (K × K)) (size : K) (time : List K)
    (dt eps : K) (nbin step : Nat) (hs : time.Pairwise (· < ·)) (hn : 0 < nbin) (hstep : nbin ≤ step)
    (hdt : 0 < dt) (heps : eps < 1 / 2) (hwf : WellFormed gtis)
    (out : List (Nat × Nat)) (h : binIntervalsFromGtis gtis size time dt eps nbin step = .ok out) :
    out.Pairwise (fun p q => p.2 ≤ q.1) := by
  unfold binIntervalsFromGtis at h
  split at h
  swap
  · simp at h
  split_ifs at h with hv
  simp only [bind, Except.bind] at h
  split at h
  · simp at h
  rename_i starts hm
  have hf := mapM_ok_forall2 _ _ _ hm
  split_ifs at h with hlen
  simp only [pure, Except.pure, Except.ok.injEq] at h
  subst h
  rw [List.pairwise_map]
  simp only
  clear * - hs hn hstep hdt heps hwf hf
  -- where the starts of one GTI are
  have hone : ∀ (g : K × K) (st : List Nat), (if g.2 - dt / 2 + eps * dt - (g.1 + dt / 2 - eps * dt) +
      dt + eps * dt < size then (pure [] : Except PyErr (List Nat)) else
      Except.bind (gtiBorderBinsOne time (g.1 + dt / 2 - eps * dt) (g.2 - dt / 2 + eps * dt))
        fun x => calculateSegmentBinStart x.1 x.2 nbin step) = .ok st →
      st.Pairwise (fun x y => x + nbin ≤ y) ∧ ∀ s ∈ st,
        (∃ t, time[s]? = some t ∧ g.1 + dt / 2 - eps * dt ≤ t) ∧
        ∃ t, time[s + nbin - 1]? = some t ∧ t ≤ g.2 - dt / 2 + eps * dt := by
    intro g st hgs
    split_ifs at hgs with hshort
    · simp only [pure, Except.pure, Except.ok.injEq] at hgs
      subst hgs; simp
    · rcases hb : gtiBorderBinsOne time (g.1 + dt / 2 - eps * dt) (g.2 - dt / 2 + eps * dt) with er | ⟨a, b⟩
      · rw [hb] at hgs; simp [Except.bind] at hgs
      · rw [hb] at hgs
        simp only [Except.bind] at hgs
        refine ⟨(calculateSegmentBinStart_steps a b nbin step st hgs).imp (fun h => by omega), ?_⟩
        intro s hsst
        obtain ⟨k, hk, hle⟩ := (calculateSegmentBinStart_spec a b nbin step hn hstep st hgs s).1 hsst
        have hbl := gtiBorderBinsOne_le time _ _ a b hb
        have ht : time[s]? = some (time[s]'(by omega)) := List.getElem?_eq_getElem (by omega)
        have ht' : time[s + nbin - 1]? = some (time[s + nbin - 1]'(by omega)) :=
          List.getElem?_eq_getElem (by omega)
        exact ⟨⟨_, ht, ((gtiBorderBinsOne_spec time hs _ _ a b hb s _ ht).1 ⟨by omega, by omega⟩).1⟩,
          ⟨_, ht', ((gtiBorderBinsOne_spec time hs _ _ a b hb _ _ ht').1 ⟨by omega, by omega⟩).2⟩⟩
  induction hf with
  | nil => simp
  | @cons g st gs sts hg hrest ih =>
    rw [List.flatten_cons]
    have h1 := hone g st (by simpa [bind, Except.bind] using hg)
    refine List.pairwise_append.2 ⟨h1.1, ih (wf_tail hwf), ?_⟩
    intro s hs1 s' hs2
    obtain ⟨st', hst', hs2'⟩ := List.mem_flatten.1 hs2
    obtain ⟨k, hk, hkg⟩ := forall2_mem_right hrest hst'
    have h2 := hone k st' (by simpa [bind, Except.bind] using hkg)
    obtain ⟨_, t1, ht1, hle1⟩ := h1.2 s hs1
    obtain ⟨⟨t2, ht2, hle2⟩, _⟩ := h2.2 s' hs2'
    have h3 := (List.pairwise_cons.1 hwf.2).1 k hk
    have hlt : t1 < t2 := by
      have : eps * dt < 1 / 2 * dt := mul_lt_mul_of_pos_right heps hdt
      linarith
    by_contra hcon
    have hle : s' ≤ s + nbin - 1 := by omega
    have hb1 := (List.getElem?_eq_some_iff.1 ht1).1
    rcases Nat.eq_or_lt_of_le hle with he | hl
    · rw [he] at ht2; rw [ht1] at ht2; cases ht2; exact lt_irrefl _ hlt
    · have h4 := List.pairwise_iff_getElem.1 hs s' (s + nbin - 1) (by omega) hb1 hl
      rw [List.getElem?_eq_getElem (by omega)] at ht1 ht2
      cases ht1; cases ht2
      exact absurd hlt (not_lt.2 h4.le)

/-- **C14 (negation).** With a moving window (`fraction_step = 1/4`, so a step of one bin for
segments of 4 bins), segments are returned that run beyond the last bin of the GTI. -/
theorem bin_intervals_overrun :
    calculateSegmentBinStart 0 4 4 1 = .ok [0, 1, 2] ∧
    binIntervalsFromGtis [((0 : ℚ), 4)] 4 [1/2, 3/2, 5/2, 7/2] 1 (1/1000) 4 1 =
      .ok [(0, 4), (1, 5), (2, 6)] := by decide +kernel

/-- **C14 (negation).** A GTI after the last sample raises `IndexError` although another GTI has
data. -/
theorem gti_border_bins_raises :
    gtiBorderBins [((0 : ℚ), 4), (10, 12)] [1/2, 3/2, 5/2, 7/2] 1 (1/1000) = .error .indexError := by
  decide +kernel

example : binIntervalsFromGtis [((0 : ℚ), 5), (6, 10)] 2 [1/2, 3/2, 5/2, 7/2, 9/2, 11/2, 13/2, 15/2, 17/2, 19/2]
    1 (1/1000) 2 2 = .ok [(0, 2), (2, 4), (6, 8), (8, 10)] := by decide +kernel

/-! ### splitting lists of GTIs -/

/-- **C15.** For every list of non-decreasing indices (other than the empty list and `[0]`,
which raise `IndexError`), the pieces returned by `split_gtis_at_indices` put one after the
other are the input list. -/
theorem split_gtis_at_indices_concat (gtis : List (K × K)) (idx : List Nat)
    (hs : idx.Pairwise (· ≤ ·)) :
    (idx = [] ∨ idx = [0] → splitGtisAtIndices gtis idx = .error .indexError) ∧
    (idx ≠ [] → idx ≠ [0] → ∃ L, splitGtisAtIndices gtis idx = .ok L ∧ L.flatten = gtis) := by
  constructor
  · rintro (rfl | rfl) <;> rfl
  · intro h0 h1
    obtain ⟨i, is, rfl⟩ := List.exists_cons_of_ne_nil h0
    have hp := List.pairwise_cons.1 hs
    obtain ⟨idx', hidx, hne, hsort⟩ : ∃ idx', (if i = 0 then is else i :: is) = idx' ∧ idx' ≠ [] ∧
        (0 :: idx').Pairwise (· ≤ ·) := by
      refine ⟨_, rfl, ?_, ?_⟩
      · split_ifs with hi
        · rintro rfl; subst hi; exact h1 rfl
        · simp
      · split_ifs with hi
        · subst hi; exact hs
        · exact List.Pairwise.cons (by intros; omega) hs
    obtain ⟨last, hl⟩ : ∃ last, idx'.getLast? = some last := ⟨_, List.getLast?_eq_getLast_of_ne_nil hne⟩
    obtain ⟨e1, e2⟩ := splitLoop_spec gtis 0 idx' last hsort hl
    unfold splitGtisAtIndices
    simp only [hidx, hl]
    refine ⟨_, rfl, ?_⟩
    split_ifs with hlen
    · rw [List.flatten_append, e1, e2]; simp
    · rw [e2, List.take_of_length_le (by omega)]; simp

example : splitGtisAtIndices [((0 : ℚ), 1), (2, 3), (4, 5), (6, 7)] [0, 1, 3] =
    .ok [[(0, 1)], [(2, 3), (4, 5)], [(6, 7)]] := by decide +kernel

variable [FloorRing K]

/-- **C15.** For forward-running GTIs, a positive exposure per chunk, and any rounding to a nearest integer:
`split_gtis_by_exposure` succeeds, and the pieces together cover exactly the input and
have its total exposure; they are the input GTIs themselves unless there are fewer GTIs than
chunks. -/
theorem split_gtis_by_exposure_preserves (rint : K → Int) (hr : ∀ x, |(rint x : K) - x| ≤ 1 / 2)
    (gtis : List (K × K)) (chunk : K) (hc : 0 < chunk) (hg : ∀ g ∈ gtis, g.1 ≤ g.2) :
    ∃ L, splitGtisByExposure rint gtis chunk = .ok L ∧
      (∀ x, Covers L.flatten x ↔ Covers gtis x) ∧ exposure L.flatten = exposure gtis ∧
      (rint (exposure gtis / chunk) < gtis.length → L.flatten = gtis) := by
  unfold splitGtisByExposure
  have hrough : (gtis.map fun g => g.2 - g.1).sum = exposure gtis := rfl
  simp only [hrough]
  generalize hn : rint (exposure gtis / chunk) = n
  split_ifs with h1 h2
  · exact ⟨[gtis], rfl, by simp, by simp, by simp⟩
  all_goals
    have hn2 : (2 : K) ≤ n := by
      have : (2 : Int) ≤ n := by omega
      exact_mod_cast this
    have hpos : 0 < exposure gtis := by
      have := hr (exposure gtis / chunk)
      rw [hn] at this
      have h3 := (abs_le.1 this).2
      have h4 : 0 < exposure gtis / chunk := by linarith
      have := mul_pos h4 hc
      rwa [div_mul_cancel₀ _ hc.ne'] at this
    have key : ∀ G : List (K × K), exposure G = exposure gtis →
        ∃ L, splitGtisAtIndices G ((arange 0 (exposure G + exposure G / (n : K))
          (exposure G / (n : K))).map (searchsortedLeft (exposureEdges 0 G))) = .ok L ∧
          L.flatten = G := by
      intro G hG
      have hp : 0 < exposure G / (n : K) := by rw [hG]; exact div_pos hpos (by linarith)
      have hlen : 2 < (arange 0 (exposure G + exposure G / (n : K)) (exposure G / (n : K))).length := by
        unfold arange
        rw [List.length_map, List.length_range, Nat.lt_ceil, sub_zero, lt_div_iff₀ hp]
        have : exposure G / (n : K) * n = exposure G := div_mul_cancel₀ _ (by linarith)
        push_cast
        nlinarith
      have hsorted : ((arange 0 (exposure G + exposure G / (n : K)) (exposure G / (n : K))).map
          (searchsortedLeft (exposureEdges 0 G))).Pairwise (· ≤ ·) := by
        rw [List.pairwise_map]
        refine (arange_steps _ _ _ hp).imp ?_
        intro x y hxy
        exact searchsortedLeft_mono _ (by linarith)
      refine (split_gtis_at_indices_concat G _ hsorted).2 ?_ ?_
      · intro h
        have := congrArg List.length h
        rw [List.length_map] at this; rw [this] at hlen; simp at hlen
      · intro h
        have := congrArg List.length h
        rw [List.length_map] at this; rw [this] at hlen; simp at hlen
  · obtain ⟨c1, c2, _⟩ := cut_all_spec chunk hc gtis hg
    obtain ⟨L, hL, hf⟩ := key _ c2
    refine ⟨L, hL, ?_, ?_, ?_⟩
    · intro x; rw [hf, c1]
    · rw [hf, c2]
    · intro h; omega
  · obtain ⟨L, hL, hf⟩ := key gtis rfl
    refine ⟨L, hL, ?_, ?_, ?_⟩
    · intro x; rw [hf]
    · rw [hf]
    · intro _; exact hf

/-- **C15 (negation).** With `new_interval_if_gti_sep` and no gap that large,
`split_gtis_by_exposure` raises `IndexError` instead of returning the pieces. -/
theorem split_gtis_by_exposure_sep_raises (rint : K → Int) (gtis : List (K × K)) (chunk sep : K)
    (h : findLargeBtis gtis sep = .ok []) :
    splitGtisByExposureSep rint gtis chunk sep = .error .indexError := by
  simp [splitGtisByExposureSep, h, bind, Except.bind, splitGtisAtIndices]

example : findLargeBtis [((0 : ℚ), 1), (2, 3)] 10 = .ok [] := by decide +kernel

example : splitGtisByExposure (fun x : ℚ => ⌊x + 1/2⌋) [((0 : ℚ), 10), (20, 24)] 5 =
    .ok [[(0, 5)], [(5, 10)], [(20, 24)]] := by decide +kernel

end Stingray.Gti

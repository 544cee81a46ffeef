import Verif.Model.Segments
import Verif.Props.GtiSegments
import Verif.Props.Hist
import Mathlib.Algebra.Order.Ring.Rat
import Mathlib.Data.Rat.Floor
import Mathlib.Algebra.Group.Prod
import Mathlib.Tactic.NormNum

/-!
# Properties C119 (segments for Fourier analysis) and C120 (shift-and-add)
-/

set_option linter.unusedSectionVars false

namespace Stingray.Segments

open Stingray Stingray.Spec Stingray.Gti Stingray.Hist

variable {K : Type} [Field K] [LinearOrder K] [IsStrictOrderedRing K]

section
variable [FloorRing K]

/-- the events in `[a, b)` -/
def eventsIn (times : List K) (a b : K) : List K := times.filter fun t => decide (a ≤ t ∧ t < b)

theorem slice_events (times : List K) (hs : times.Pairwise (· ≤ ·)) (a b : K) :
    ((times.take (searchsortedLeft times b)).drop (searchsortedLeft times a)) = eventsIn times a b := by
  unfold eventsIn
  induction times with
  | nil => simp
  | cons t ts ih =>
    have hs' := (List.pairwise_cons.1 hs)
    have ih := ih hs'.2
    unfold searchsortedLeft at ih ⊢
    by_cases h1 : t < b
    · by_cases h2 : t < a
      · have h3 : ¬ a ≤ t := not_le.2 h2
        simp only [List.filter_cons, h1, h2, h3, decide_true, if_true, false_and, decide_false, List.length_cons, List.take_succ_cons, List.drop_succ_cons]
        exact ih
      · have h0 : ts.filter (fun x => decide (x < a)) = [] := by
          rw [List.filter_eq_nil_iff]
          intro x hx
          simp only [decide_eq_true_eq, not_lt]
          exact (not_lt.1 h2).trans (hs'.1 x hx)
        rw [h0] at ih
        simp only [List.filter_cons, h1, h2, h0, not_lt.1 h2, decide_true, if_true, true_and, decide_false, List.length_cons, List.length_nil, List.take_succ_cons, List.drop_zero] at ih ⊢
        rw [← ih]
        rfl
    · have h0 : ts.filter (fun x => decide (x < b)) = [] := by
        rw [List.filter_eq_nil_iff]
        intro x hx
        simp only [decide_eq_true_eq, not_lt]
        exact (not_lt.1 h1).trans (hs'.1 x hx)
      rw [h0] at ih
      simp only [List.filter_cons, h1, h0, and_false, decide_false, List.length_nil, List.take_zero, List.drop_nil] at ih ⊢
      rw [← ih]
      simp

theorem slice_length (times : List K) (hs : times.Pairwise (· ≤ ·)) (a b : K) :
    (eventsIn times a b).length = searchsortedLeft times b - searchsortedLeft times a := by
  rw [← slice_events times hs, List.length_drop, List.length_take, Nat.min_eq_left]
  unfold searchsortedLeft
  exact List.length_filter_le _ _

/-- what the flux of one segment must be -/
def FluxOf (times : List K) (size : K) (nBin : Nat) (s e : K) (out : Option (List Nat)) : Prop :=
  ((eventsIn times s e).length < 2 → out = none) ∧
  (2 ≤ (eventsIn times s e).length → ∃ counts, out = some counts ∧ counts.length = nBin ∧
    (∀ k < nBin, counts[k]? = some (eventsIn times (s + (k : K) * (size / nBin)) (s + ((k : K) + 1) * (size / nBin))).length) ∧
    counts.sum = (eventsIn times s e).length)

theorem eventFlux_spec (times : List K) (hs : times.Pairwise (· ≤ ·)) (size : K) (hsize : 0 < size) (nBin : Nat) (hn : 0 < nBin) (s e : K)
    (he : e = s + size) (idx : Nat × Nat) (hidx : (times.take idx.2).drop idx.1 = eventsIn times s e) (hlen : (eventsIn times s e).length = idx.2 - idx.1) :
    FluxOf times size nBin s e (eventFlux times size nBin s idx) := by
  have hn' : (0 : K) < nBin := by exact_mod_cast hn
  have hw : 0 < size / nBin := div_pos hsize hn'
  constructor
  · intro h
    unfold eventFlux
    rw [hlen] at h
    rw [if_pos h]
  · intro h
    unfold eventFlux
    rw [hlen] at h
    rw [if_neg (by omega), hidx]
    have hb := hist1d_bin ((eventsIn times s e).map (· - s)) nBin ((0 : K), size) (by simpa using hsize)
    refine ⟨_, rfl, hb.1, fun k hk => ?_, ?_⟩
    · rw [hb.2 k hk, List.countP_map, List.countP_eq_length_filter]
      congr 2
      unfold eventsIn
      rw [List.filter_filter]
      apply List.filter_congr
      intro t _
      have hk' : ((k : K) + 1) * (size / nBin) ≤ size := by
        have : ((k : K) + 1) ≤ nBin := by exact_mod_cast hk
        calc ((k : K) + 1) * (size / nBin) ≤ nBin * (size / nBin) := by nlinarith
          _ = size := by field_simp
      have hk0 : (0 : K) ≤ (k : K) * (size / nBin) := by positivity
      simp only [Function.comp, InBin, sub_zero, zero_add, ← Bool.decide_and, decide_eq_decide]
      constructor
      · rintro ⟨⟨h1, h2⟩, _⟩
        exact ⟨by linarith, by linarith⟩
      · rintro ⟨h1, h2⟩
        exact ⟨⟨by linarith, by linarith⟩, by linarith, by rw [he]; linarith⟩
    · have ht := hist1d_weight_total (M := Nat) (((eventsIn times s e).map (· - s)).map fun x => (x, 1)) nBin ((0 : K), size) (by simpa using hsize) hn
      unfold hist1d
      rw [ht, List.filter_map, List.map_map]
      have : ((eventsIn times s e).map (· - s)).filter ((fun t : K × Nat => decide ((0 : K) ≤ t.1 ∧ t.1 < size)) ∘ fun x => (x, 1)) =
          (eventsIn times s e).map (· - s) := by
        rw [List.filter_eq_self]
        intro x hx
        obtain ⟨t, ht, rfl⟩ := List.mem_map.1 hx
        unfold eventsIn at ht
        have := (List.mem_filter.1 ht).2
        simp only [decide_eq_true_eq] at this
        simp only [Function.comp, decide_eq_true_eq, sub_nonneg]
        exact ⟨this.1, by rw [he] at this; linarith [this.2]⟩
      rw [this]
      simp [Function.comp_def]

/-- **C119 (events, partial).** For sorted events and a segment size, the Fourier routines get exactly one item per segment of `time_intervals_from_gtis` (C13: the whole segments inside of the GTIs), in order.
It holds the number of events in each of the `n_bin` equal bins of the segment: every event of the segment is counted once, and no other. A segment with fewer than two events gives no flux at all: the part that makes
the theorem partial, see `single_event_lost`. -/
theorem event_segments_partial (times : List K) (hs : times.Pairwise (· ≤ ·)) (gti : List (K × K)) (size eps : K) (hsize : 0 < size) (nBin : Nat)
    (hn : 0 < nBin) (segs : List (K × K)) (hseg : timeIntervalsFromGtis gti size 1 eps = .ok segs) :
    ∃ out, eventSegments times gti (some size) nBin eps = .ok out ∧
      List.Forall₂ (fun s o => FluxOf times size nBin s.1 s.2 o) segs out := by
  have hmem : ∀ s ∈ segs, s.2 = s.1 + size := by
    intro s hs
    exact ((time_intervals_from_gtis_iff gti size 1 eps hsize one_pos segs hseg s.1 s.2).1 hs).1
  unfold eventSegments
  simp only [hseg, Except.map]
  refine ⟨_, rfl, ?_⟩
  rw [List.forall₂_map_right_iff, List.forall₂_same]
  intro s hsm
  exact eventFlux_spec times hs size hsize nBin hn s.1 s.2 (hmem s hsm) _ (slice_events times hs _ _) (slice_length times hs _ _)

/-- **C119 (errors).** Without any segment there is an error. -/
theorem event_segments_error (times : List K) (gti : List (K × K)) (size eps : K) (hsize : 0 < size) (nBin : Nat)
    (h : ∀ g ∈ gti, g.2 - g.1 + eps ≤ size) : eventSegments times gti (some size) nBin eps = .error .assertionError := by
  unfold eventSegments
  simp only [(time_intervals_from_gtis_error gti size 1 eps hsize one_pos).2 h, Except.map]

/-- **C119 (single events, negation).** An event that is alone in its segment is not counted, and the segment does not appear as a segment with a low count rate. -/
theorem single_event_lost : eventSegments [(1 : ℚ), 5, 6] [(0, 8)] (some 4) 2 (1/1000) = .ok [none, some [1, 1]] := by decide +kernel

/-- **C119 (no segment size, negation).** Without a segment size all the events between the start of the first and the end of the last GTI are counted, also those in the bad time between them; for a binned series, all the samples
whatever the GTIs. -/
theorem whole_ignores_gti (times : List K) (hs : times.Pairwise (· ≤ ·)) (g h : K × K) (gti : List (K × K)) (hg : gti.head? = some g) (hh : gti.getLast? = some h)
    (hlt : g.1 < h.2) (hin : ∀ t ∈ times, g.1 ≤ t ∧ t < h.2) (h2 : 2 ≤ times.length) (nBin : Nat) (hn : 0 < nBin) (eps dt : K) :
    (∃ counts, eventSegments times gti none nBin eps = .ok [some counts] ∧ counts.sum = times.length ∧
      ∀ k < nBin, counts[k]? = some (eventsIn times (g.1 + (k : K) * ((h.2 - g.1) / nBin)) (g.1 + ((k : K) + 1) * ((h.2 - g.1) / nBin))).length) ∧
    (∀ (V : Type) (fluxes : List V), fluxes.length = times.length → binnedSegments times fluxes gti none dt eps nBin = .ok [some fluxes]) := by
  have he : eventsIn times g.1 h.2 = times := by
    unfold eventsIn
    rw [List.filter_eq_self]
    intro t ht
    simpa using hin t ht
  constructor
  · have := (eventFlux_spec times hs (h.2 - g.1) (by linarith) nBin hn g.1 h.2 (by ring) (0, times.length) (by simp [he]) (by simp [he])).2 (by rw [he]; exact h2)
    obtain ⟨counts, hc, _, h3, h4⟩ := this
    refine ⟨counts, ?_, ?_, h3⟩
    · unfold eventSegments
      simp only [hg, hh, hc]
    · rw [h4, he]
  · intro V fluxes hl
    unfold binnedSegments
    simp only [hg, hh]
    rw [if_neg (by simp; omega)]
    simp [← hl]

example : eventSegments [(1 : ℚ), 2, 5, 9] [(0, 3), (8, 10)] none 2 (1/1000) = .ok [some [2, 2]] := by decide +kernel

/-- **C119 (average count rate).** `get_average_ctrate` is the number of events in the segments divided by the total length of the segments. -/
theorem average_ctrate_spec (times : List K) (hs : times.Pairwise (· ≤ ·)) (gti : List (K × K)) (size eps : K) (hsize : 0 < size) (segs : List (K × K))
    (hseg : timeIntervalsFromGtis gti size 1 eps = .ok segs) :
    averageCtrate times gti size eps =
      .ok ((segs.map fun s => ((eventsIn times s.1 s.2).length : K)).sum / (segs.map fun s => s.2 - s.1).sum) := by
  have hmem : ∀ s ∈ segs, s.2 = s.1 + size := by
    intro s hs
    exact ((time_intervals_from_gtis_iff gti size 1 eps hsize one_pos segs hseg s.1 s.2).1 hs).1
  unfold averageCtrate
  simp only [hseg, Except.map]
  congr 2
  · congr 1
    apply List.map_congr_left
    intro s hsm
    rw [slice_length times hs, Nat.cast_sub]
    apply searchsortedLeft_mono
    rw [hmem s hsm]; linarith
  · have : segs.map (fun s => s.2 - s.1) = segs.map fun _ => size := by
      apply List.map_congr_left
      intro s hsm
      rw [hmem s hsm]; ring
    rw [this, List.map_const', List.sum_replicate, nsmul_eq_mul]

example : averageCtrate [(1 : ℚ), 2, 5, 9] [(0, 3), (8, 10)] 1 (1/1000) = .ok (3/5) := by decide +kernel

end

/-- **C119 (binned, partial).** For a series with increasing times, each item is the run of `n_bin` samples (at least two) of a segment, all of them wholly inside one GTI. -/
theorem binned_segments_partial {V : Type} (times : List K) (hs : times.Pairwise (· < ·)) (fluxes : List V) (hl : fluxes.length = times.length) (gti : List (K × K))
    (size dt eps : K) (nbin : Nat) (hn : 2 ≤ nbin) (ranges : List (Nat × Nat)) (hr : binIntervalsFromGtis gti size times dt eps nbin nbin = .ok ranges) :
    ∃ out, binnedSegments times fluxes gti (some size) dt eps nbin = .ok out ∧
      List.Forall₂ (fun (r : Nat × Nat) o => ∃ f : List V, o = some f ∧ f.length = nbin ∧ (∀ k < nbin, f[k]? = fluxes[r.1 + k]?) ∧
        ∃ g ∈ gti, ∀ k < nbin, ∃ t, times[r.1 + k]? = some t ∧ BinInside g.1 g.2 t dt (eps * dt)) ranges out := by
  have hin := bin_intervals_from_gtis_inside_partial gti size times dt eps nbin nbin hs (by omega) le_rfl ranges hr
  unfold binnedSegments
  simp only [hr, Except.map]
  refine ⟨_, rfl, ?_⟩
  rw [List.forall₂_map_right_iff, List.forall₂_same]
  intro r hrm
  obtain ⟨h1, g, hg, h2⟩ := hin r hrm
  have hlast : r.1 + nbin ≤ fluxes.length := by
    obtain ⟨t, ht, _⟩ := h2 (r.1 + nbin - 1) (by omega) (by omega)
    have := (List.getElem?_eq_some_iff.1 ht).1
    omega
  rw [if_neg (by omega)]
  refine ⟨_, rfl, ?_, ?_, g, hg, ?_⟩
  · rw [List.length_drop, List.length_take]; omega
  · intro k hk
    rw [List.getElem?_drop, List.getElem?_take, if_pos (by omega)]
  · intro k hk
    exact h2 (r.1 + k) (by omega) (by omega)

example : binnedSegments [(1/2 : ℚ), 3/2, 5/2, 7/2, 9/2, 11/2] [1, 2, 3, 4, 5, 6] [((0 : ℚ), 3), (4, 6)] (some 2) 1 (1/1000) 2 =
    .ok [some [1, 2], some [5, 6]] := by decide +kernel

/-! ## Shift-and-add -/

/-- The bin of a spectrum that is moved to bin `k` of the result, if there is one: bin `nbins / 2` of the result is the bin `c` of the reference frequency. -/
def source (size nbins c k : Nat) : Option Nat :=
  if nbins / 2 ≤ c + k ∧ c + k - nbins / 2 < size then some (c + k - nbins / 2) else none

/-- the contribution of a spectrum to bin `k`: weighted power, weight -/
def contribution (size nbins k : Nat) (item : Nat × List K × K) : K × K :=
  match source size nbins item.1 k with
  | some i => (item.2.1.getD i 0 * item.2.2, item.2.2)
  | none => (0, 0)

theorem addSlice_fold (array : List K) (w : K) (in0 out0 : Nat) (st : List (K × K)) : ∀ n, in0 + n ≤ array.length →
    ∃ st', (List.range n).foldlM (addSlice array w in0 out0) st = .ok st' ∧ st'.length = st.length ∧
      ∀ k, st'[k]? = (st[k]?).map fun p => if out0 ≤ k ∧ k < out0 + n then (p.1 + array.getD (in0 + (k - out0)) 0 * w, p.2 + w) else p
  | 0, _ => ⟨st, rfl, rfl, fun k => by
      cases st[k]? with
      | none => rfl
      | some p => rw [Option.map_some, if_neg (by omega)]⟩
  | n + 1, h => by
    obtain ⟨st', h1, h2, h3⟩ := addSlice_fold array w in0 out0 st n (by omega)
    have hx : array[in0 + n]? = some (array.getD (in0 + n) 0) := by
      rw [List.getD_eq_getElem?_getD, List.getElem?_eq_getElem (by omega)]
      rfl
    refine ⟨st'.modify (out0 + n) fun p => (p.1 + array.getD (in0 + n) 0 * w, p.2 + w), ?_, ?_, ?_⟩
    · rw [List.range_succ, List.foldlM_append, h1]
      simp only [bind, Except.bind, List.foldlM_cons, List.foldlM_nil, addSlice, hx]
      rfl
    · rw [List.length_modify, h2]
    · intro k
      rw [List.getElem?_modify, h3 k]
      cases st[k]? with
      | none => rfl
      | some p =>
        simp only [Option.map_some, Option.some.injEq]
        by_cases hk : out0 + n = k
        · subst hk
          simp
        · simp only [if_neg hk]
          by_cases h4 : out0 ≤ k ∧ k < out0 + n
          · rw [if_pos h4, if_pos ⟨h4.1, by omega⟩]; rfl
          · rw [if_neg h4, if_neg (by omega)]; rfl
theorem addOne_spec (size nbins : Nat) (hn : nbins ≤ size) (st : List (K × K)) (hst : st.length = nbins) (item : Nat × List K × K)
    (hc : item.1 ≤ size) (hl : item.2.1.length = size) :
    ∃ st', addOne size nbins st item = .ok st' ∧ st'.length = nbins ∧
      ∀ k, st'[k]? = (st[k]?).map fun p => p + contribution size nbins k item := by
  obtain ⟨c, array, w⟩ := item
  dsimp only at hc hl
  have key : ∀ in0 in1 out0 : Nat, in1 ≤ size → in0 ≤ in1 →
      (∀ k < nbins, ((out0 ≤ k ∧ k < out0 + (in1 - in0)) ↔ (nbins / 2 ≤ c + k ∧ c + k - nbins / 2 < size)) ∧
        ((out0 ≤ k ∧ k < out0 + (in1 - in0)) → in0 + (k - out0) = c + k - nbins / 2)) →
      ∃ st', (List.range (in1 - in0)).foldlM (addSlice array w in0 out0) st = .ok st' ∧ st'.length = nbins ∧
        ∀ k, st'[k]? = (st[k]?).map fun p => p + contribution size nbins k (c, array, w) := by
    intro in0 in1 out0 h1 h2 h3
    obtain ⟨st', h4, h5, h6⟩ := addSlice_fold array w in0 out0 st (in1 - in0) (by omega)
    refine ⟨st', h4, by omega, fun k => ?_⟩
    rw [h6 k]
    by_cases hk : k < nbins
    · obtain ⟨h7, h8⟩ := h3 k hk
      congr 1
      funext p
      unfold contribution source
      by_cases h9 : out0 ≤ k ∧ k < out0 + (in1 - in0)
      · rw [if_pos h9, if_pos (h7.1 h9), h8 h9]
        rfl
      · rw [if_neg h9, if_neg (fun h => h9 (h7.2 h))]
        exact (add_zero p).symm
    · rw [List.getElem?_eq_none (by omega)]
      rfl
  unfold addOne safeSlice
  dsimp only
  by_cases h1 : (c : Int) - ((nbins / 2 : Nat) : Int) < 0
  · rw [if_pos h1]
    dsimp only
    have e1 : ((c : Int) - ((nbins / 2 : Nat) : Int) + nbins).toNat = c + nbins - nbins / 2 := by omega
    have e2 : (-((c : Int) - ((nbins / 2 : Nat) : Int))).toNat = nbins / 2 - c := by omega
    rw [e1, e2]
    exact key _ _ _ (by omega) (by omega) (fun k hk => ⟨by omega, by omega⟩)
  · rw [if_neg h1]
    have e1 : ((c : Int) - ((nbins / 2 : Nat) : Int)).toNat = c - nbins / 2 := by omega
    by_cases h2 : (c : Int) - ((nbins / 2 : Nat) : Int) + nbins > size
    · rw [if_pos h2]
      dsimp only
      rw [e1]
      exact key _ _ _ (by omega) (by omega) (fun k hk => ⟨by omega, by omega⟩)
    · rw [if_neg h2]
      dsimp only
      have e2 : ((c : Int) - ((nbins / 2 : Nat) : Int) + nbins).toNat = c - nbins / 2 + nbins := by omega
      rw [e1, e2]
      exact key _ _ _ (by omega) (by omega) (fun k hk => ⟨by omega, by omega⟩)

theorem fold_addOne (size nbins : Nat) (hn : nbins ≤ size) : ∀ (items : List (Nat × List K × K)) (st : List (K × K)), st.length = nbins →
    (∀ it ∈ items, it.1 ≤ size ∧ it.2.1.length = size) →
    ∃ st', items.foldlM (addOne size nbins) st = .ok st' ∧ st'.length = nbins ∧
      ∀ k, st'[k]? = (st[k]?).map fun p => p + (items.map (contribution size nbins k)).sum
  | [], st, hst, _ => ⟨st, rfl, hst, fun k => by cases st[k]? <;> simp⟩
  | it :: items, st, hst, h => by
    obtain ⟨st1, h1, h2, h3⟩ := addOne_spec size nbins hn st hst it (h it (by simp)).1 (h it (by simp)).2
    obtain ⟨st2, h4, h5, h6⟩ := fold_addOne size nbins hn items st1 h2 (fun x hx => h x (by simp [hx]))
    refine ⟨st2, ?_, h5, fun k => ?_⟩
    · rw [List.foldlM_cons, h1]
      exact h4
    · rw [h6 k, h3 k]
      cases st[k]? with
      | none => rfl
      | some p => simp only [Option.map_some, List.map_cons, List.sum_cons, add_assoc]

theorem sum_fst {α : Type} (f : α → K × K) (l : List α) : (l.map f).sum = ((l.map fun a => (f a).1).sum, (l.map fun a => (f a).2).sum) := by
  induction l with
  | nil => rfl
  | cons a l ih =>
    simp only [List.map_cons, List.sum_cons, ih]
    rfl

/-- **C120.** With spectra that all have one power per frequency and no more bins in the result than in the spectra: bin `k` of the result adds up, over the spectra in which the bin exists, the
powers at `k - nbins / 2` bins from the first frequency not below the reference frequency. The result is the weighted mean of these powers, and the counts are the sums of their weights. -/
theorem shift_and_add_bins (freqs : List K) (spectra : List (List K × K)) (f0 : List K) (nbins : Nat) (h2 : 2 ≤ freqs.length) (hn : nbins ≤ freqs.length)
    (hl : ∀ s ∈ spectra, s.1.length = freqs.length) (hne : spectra ≠ []) (hf : f0 ≠ []) :
    ∃ fs means counts, shiftAndAdd freqs spectra f0 nbins = .ok (fs, means, counts) ∧ means.length = nbins ∧ counts.length = nbins ∧
      ∀ k < nbins,
        let used := (spectra.zip f0).filterMap fun sf =>
          (source freqs.length nbins (freqs.countP (· < sf.2)) k).map fun i => (sf.1.1.getD i 0, sf.1.2)
        counts[k]? = some (used.map Prod.snd).sum ∧
        means[k]? = some (if (used.map Prod.snd).sum = 0 then none else some ((used.map fun p => p.1 * p.2).sum / (used.map Prod.snd).sum)) := by
  match freqs, h2 with
  | a :: b :: fr, _ =>
    generalize hF : a :: b :: fr = freqs at *
    obtain ⟨s0, spectra', rfl⟩ := List.exists_cons_of_ne_nil hne
    obtain ⟨g0, f0', rfl⟩ := List.exists_cons_of_ne_nil hf
    have hz : List.zipWith (fun s f => (searchsortedLeft freqs f, s)) (s0 :: spectra') (g0 :: f0') =
        ((s0 :: spectra').zip (g0 :: f0')).map fun sf => (searchsortedLeft freqs sf.2, sf.1) := by
      rw [List.zip, List.map_zipWith]
    have hi : ∀ it ∈ List.zipWith (fun s f => (searchsortedLeft freqs f, s)) (s0 :: spectra') (g0 :: f0'),
        it.1 ≤ freqs.length ∧ it.2.1.length = freqs.length := by
      rw [hz]
      intro it hit
      obtain ⟨sf, hsf, rfl⟩ := List.mem_map.1 hit
      refine ⟨?_, hl _ (List.of_mem_zip hsf).1⟩
      unfold searchsortedLeft
      exact List.length_filter_le _ _
    obtain ⟨st, h1, h3, h4⟩ := fold_addOne freqs.length nbins hn _ (List.replicate nbins (0, 0)) List.length_replicate hi
    refine ⟨shiftedFreqs nbins (b - a) ((g0 :: f0').sum / ((g0 :: f0').length : K)), st.map fun p => if p.2 = 0 then none else some (p.1 / p.2), st.map Prod.snd, ?_, by simpa using h3, by simpa using h3, ?_⟩
    · have h0 : s0.1.length = freqs.length := hl s0 (by simp)
      rw [← hF]
      simp only [shiftAndAdd, shiftCore, List.zipWith_cons_cons]
      rw [h0, hF]
      rw [List.zipWith_cons_cons] at h1
      rw [h1]
      rfl
    · intro k hk
      have hst := h4 k
      rw [List.getElem?_replicate, if_pos hk, Option.map_some, hz, List.map_map, sum_fst] at hst
      have e : ∀ (l : List ((List K × K) × K)),
          (l.map fun sf => (contribution freqs.length nbins k (searchsortedLeft freqs sf.2, sf.1)).1).sum =
            ((l.filterMap fun sf => (source freqs.length nbins (freqs.countP (· < sf.2)) k).map fun i => (sf.1.1.getD i 0, sf.1.2)).map fun p => p.1 * p.2).sum ∧
          (l.map fun sf => (contribution freqs.length nbins k (searchsortedLeft freqs sf.2, sf.1)).2).sum =
            ((l.filterMap fun sf => (source freqs.length nbins (freqs.countP (· < sf.2)) k).map fun i => (sf.1.1.getD i 0, sf.1.2)).map Prod.snd).sum := by
        intro l
        induction l with
        | nil => exact ⟨rfl, rfl⟩
        | cons sf l ih =>
          have hc : searchsortedLeft freqs sf.2 = freqs.countP (· < sf.2) := by
            unfold searchsortedLeft
            rw [List.countP_eq_length_filter]
          rw [List.map_cons, List.sum_cons, List.map_cons, List.sum_cons, ih.1, ih.2]
          clear ih hst
          simp only [contribution, List.filterMap_cons, hc]
          cases source freqs.length nbins (freqs.countP (· < sf.2)) k <;> simp
      simp only [Function.comp_def] at hst
      rw [(e _).1, (e _).2] at hst
      dsimp only
      rw [List.getElem?_map, List.getElem?_map, hst]
      simp

example : shiftAndAdd [(1 : ℚ), 2, 3, 4, 5] [([1, 1, 7, 1, 1], 1), ([1, 1, 1, 9, 1], 3)] [3, 4] 4 =
    .ok ([2, 3, 4, 5], [some 1, some 1, some (17/2), some 1], [4, 4, 4, 4]) := by decide +kernel

theorem shiftedFreqs_get (nbins : Nat) (hn : 0 < nbins) (df m : K) : (shiftedFreqs nbins df m).length = nbins ∧
    ∀ k < nbins, (shiftedFreqs nbins df m)[k]? = some (m + ((k : K) - ((nbins : K) - 1) / 2) * df) := by
  unfold shiftedFreqs
  dsimp only
  generalize hb : ((List.range (nbins + 1)).map fun i : Nat => (((-((nbins : Int) - ((nbins / 2 : Nat) : Int)) + (i : Int) : Int) : K) * df)).take nbins = base
  have hl : base.length = nbins := by rw [← hb]; simp
  have hg : ∀ k < nbins, base[k]? = some (((-((nbins : Int) - ((nbins / 2 : Nat) : Int)) + (k : Int) : Int) : K) * df) := by
    intro k hk
    rw [← hb, List.getElem?_take, if_pos hk, List.getElem?_map, List.getElem?_range (by omega)]
    rfl
  have h0 : base.headD 0 = ((-((nbins : Int) - ((nbins / 2 : Nat) : Int)) + ((0 : Nat) : Int) : Int) : K) * df := by
    rw [List.headD_eq_head?_getD, List.head?_eq_getElem?, hg 0 hn]
    rfl
  have h1 : base.getLastD 0 = ((-((nbins : Int) - ((nbins / 2 : Nat) : Int)) + ((nbins - 1 : Nat) : Int) : Int) : K) * df := by
    rw [List.getLastD_eq_getLast?, List.getLast?_eq_getElem?, hl, hg (nbins - 1) (by omega)]
    rfl
  refine ⟨by simpa using hl, fun k hk => ?_⟩
  rw [List.getElem?_map, hg k hk, h0, h1, Option.map_some]
  have : ((nbins - 1 : Nat) : K) = (nbins : K) - 1 := by
    rw [Nat.cast_sub hn, Nat.cast_one]
  push_cast
  rw [this]
  congr 1
  ring

/-- **C120 (frequencies).** The frequencies of the result are equally spaced by the resolution of the spectra, and centred on the mean of the reference frequencies. -/
theorem shift_and_add_freqs (a b : K) (fr : List K) (spectra : List (List K × K)) (f0 : List K) (nbins : Nat) (hn : 0 < nbins) (fs : List K) (means : List (Option K))
    (counts : List K) (h : shiftAndAdd (a :: b :: fr) spectra f0 nbins = .ok (fs, means, counts)) :
    fs.length = nbins ∧ ∀ k < nbins, fs[k]? = some (f0.sum / (f0.length : K) + ((k : K) - ((nbins : K) - 1) / 2) * (b - a)) := by
  unfold shiftAndAdd at h
  dsimp only at h
  revert h
  cases shiftCore (List.zipWith (fun s f => (searchsortedLeft (a :: b :: fr) f, s)) spectra f0) nbins with
  | error e => intro h; cases h
  | ok r =>
    intro h
    cases h
    exact shiftedFreqs_get nbins hn _ _

/-- **C120 (frequencies of a single spectrum, partial).** For an even number of bins, the label of a bin is less than one half of the resolution from the frequency at which the power was measured: the full property, no displacement
at all, holds only when the reference frequency is half a bin below a frequency of the spectrum. For an odd number of bins the displacement is up to a whole bin, always downwards. -/
theorem shift_and_add_label_partial (a df f0 : K) (hdf : 0 < df) (size nbins : Nat) (k i : Nat) (hk : k < nbins)
    (hc : source size nbins (((List.range size).map fun j : Nat => a + (j : K) * df).countP (· < f0)) k = some i)
    (hin : ((List.range size).map fun j : Nat => a + (j : K) * df).countP (· < f0) < size)
    (hpos : 0 < ((List.range size).map fun j : Nat => a + (j : K) * df).countP (· < f0)) :
    ∃ label, (shiftedFreqs nbins df f0)[k]? = some label ∧
      (nbins % 2 = 0 → |label - (a + (i : K) * df)| ≤ df / 2) ∧ (nbins % 2 = 1 → label ≤ a + (i : K) * df ∧ a + (i : K) * df - label < df) := by
  generalize hcc : ((List.range size).map fun j : Nat => a + (j : K) * df).countP (· < f0) = c at *
  have hsl : searchsortedLeft ((List.range size).map fun j : Nat => a + (j : K) * df) f0 = c := by
    unfold searchsortedLeft
    rw [← List.countP_eq_length_filter]
    exact hcc
  have hsort : ((List.range size).map fun j : Nat => a + (j : K) * df).Pairwise (· ≤ ·) := by
    rw [List.pairwise_map]
    refine List.pairwise_lt_range.imp ?_
    intro x y hxy
    have : (x : K) < y := by exact_mod_cast hxy
    nlinarith
  have hget : ∀ j < size, ((List.range size).map fun j : Nat => a + (j : K) * df)[j]? = some (a + (j : K) * df) := by
    intro j hj
    rw [List.getElem?_map, List.getElem?_range hj]
    rfl
  have h1 : ¬ (a + (c : K) * df < f0) := by
    intro h
    have := (lt_searchsortedLeft_iff _ hsort f0 c _ (hget c hin)).2 h
    omega
  have h2 : a + ((c - 1 : Nat) : K) * df < f0 := (lt_searchsortedLeft_iff _ hsort f0 (c - 1) _ (hget (c - 1) (by omega))).1 (by omega)
  rw [Nat.cast_sub hpos, Nat.cast_one] at h2
  refine ⟨_, (shiftedFreqs_get nbins (by omega) df f0).2 k hk, ?_, ?_⟩
  all_goals
    unfold source at hc
    split at hc
    case isFalse => cases hc
    rename_i hs
    cases hc
    rw [Nat.cast_sub hs.1]
    intro hpar
  · have : (nbins : K) = 2 * ((nbins / 2 : Nat) : K) := by
      have : nbins = 2 * (nbins / 2) := by omega
      exact_mod_cast this
    rw [this, abs_le]
    push_cast
    constructor <;> nlinarith
  · have : (nbins : K) = 2 * ((nbins / 2 : Nat) : K) + 1 := by
      have : nbins = 2 * (nbins / 2) + 1 := by omega
      exact_mod_cast this
    rw [this]
    push_cast
    constructor <;> nlinarith

example : source 5 4 (((List.range 5).map fun j : Nat => (1 : ℚ) + (j : ℚ) * 1).countP (· < 5/2)) 1 = some 1 := by decide +kernel

/-- **C120 (labels, negation).** With an odd number of bins a peak at the reference frequency can be labelled by most of a bin too low: the feature measured at frequency 3 appears at 2.1. -/
theorem shift_and_add_label_off :
    shiftAndAdd [(1 : ℚ), 2, 3, 4, 5] [([0, 0, 1, 0, 0], 1)] [21/10] 3 = .ok ([11/10, 21/10, 31/10], [some 0, some 1, some 0], [1, 1, 1]) := by decide +kernel

/-- **C120 (too many bins, negation).** When the result has more bins than the spectra, bins outside of the spectrum are read: an error without compiled code (and undefined with it), instead of bins with no counts. -/
theorem shift_and_add_too_many : shiftAndAdd [(1 : ℚ), 2, 3] [([1, 2, 3], 1)] [2] 8 = .error .indexError := by decide +kernel

end Stingray.Segments

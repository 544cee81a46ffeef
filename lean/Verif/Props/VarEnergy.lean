import Verif.Model.VarEnergy
import Verif.Props.GtiJoin
import Verif.Props.GtiCross
import Mathlib.Algebra.Order.Ring.Rat
import Mathlib.Tactic.NormNum
import Mathlib.Tactic.Linarith
import Mathlib.Tactic.FieldSimp

/-!
Energy-dependent spectra: reference bands (C68), counts (C91), what each band depends on (C92), energy bands (C93), uncertainties (C94).
-/

set_option linter.unusedSectionVars false

namespace Stingray.VarEnergy

open Stingray.Gti Stingray.Spec

variable {K : Type} [Field K] [LinearOrder K] [IsStrictOrderedRing K]

/-! ### The reference band -/

theorem maxBorder_spec (ref : List (K × K)) (m : K) (h : maxBorder ref = .ok m) :
    ∀ g ∈ ref, g.1 ≤ m ∧ g.2 ≤ m := by
  unfold maxBorder at h
  have key : ∀ (l : List K) (x : K), x ≤ l.foldl max x ∧ ∀ y ∈ l, y ≤ l.foldl max x := by
    intro l
    induction l with
    | nil => intro x; simp
    | cons a t ih =>
      intro x
      rw [List.foldl_cons]
      refine ⟨le_trans (le_max_left x a) (ih (max x a)).1, ?_⟩
      intro y hy
      rcases List.mem_cons.1 hy with rfl | hy
      · exact le_trans (le_max_right x y) (ih (max x y)).1
      · exact (ih (max x a)).2 y hy
  cases hf : flatten ref with
  | nil => rw [hf] at h; cases h
  | cons x xs =>
    rw [hf] at h
    simp only [Except.ok.injEq] at h
    subst h
    have hall : ∀ y ∈ flatten ref, y ≤ xs.foldl max x := by
      intro y hy
      rw [hf] at hy
      rcases List.mem_cons.1 hy with rfl | hy
      · exact (key xs _).1
      · exact (key xs _).2 y hy
    intro g hg
    constructor
    · exact hall _ (by unfold flatten; exact List.mem_flatMap.2 ⟨g, hg, by simp⟩)
    · exact hall _ (by unfold flatten; exact List.mem_flatMap.2 ⟨g, hg, by simp⟩)

theorem maxBorder_ok (ref : List (K × K)) (h : ref ≠ []) : ∃ m, maxBorder ref = .ok m := by
  obtain ⟨g, l, rfl⟩ := List.exists_cons_of_ne_nil h
  exact ⟨_, rfl⟩

/-- **C68 (partial).** For every channel `(c0, c1)` with `0 < c0 < c1` and every list of reference bands of positive length at non-negative energies accepted as intervals in order, with no reference band starting exactly where the channel starts or ending exactly where it ends, the result covers exactly the energies of the reference bands that are not strictly inside the channel. Missing from the full property: borders in common, and channels starting at zero, for which it fails (`ref_band_shared_border`, `ref_band_channel_from_zero`). -/
theorem ref_band_partial (order : KeySort (fun (x : (K × K) × Bool) => x.1.2)) (channel : K × K)
    (ref : List (K × K)) (href : checkGtis ref = .ok ()) (hpos : ∀ g ∈ ref, g.1 < g.2)
    (hnn : ∀ g ∈ ref, 0 ≤ g.1) (hc0 : 0 < channel.1) (hc : channel.1 < channel.2)
    (hb : ∀ g ∈ ref, g.1 ≠ channel.1 ∧ g.2 ≠ channel.2) :
    ∃ out, getNonOverlappingRefBand order channel ref = .ok out ∧
      (∀ x, Covers out x ↔ (Covers ref x ∧ ¬ (channel.1 < x ∧ x < channel.2))) ∧ WellFormed out := by
  obtain ⟨hne, hwf⟩ := (checkGtis_ok_iff ref).1 href
  have hch : checkGtis [channel] = .ok () := by
    refine checkGtis_of_wf (by simp) ⟨?_, by simp⟩
    intro g hg
    rw [List.mem_singleton] at hg
    subst hg
    exact hc.le
  obtain ⟨r, hr, hiff, -, -⟩ := check_separate_iff_partial ref [channel] href hch
  unfold getNonOverlappingRefBand
  rw [hr]
  cases r with
  | true =>
    refine ⟨ref, rfl, ?_, hwf⟩
    intro x
    refine ⟨fun hx => ⟨hx, ?_⟩, fun hx => hx.1⟩
    rintro ⟨h1, h2⟩
    obtain ⟨g, hg, hg1, hg2⟩ := hx
    rcases hiff.1 rfl with h | h | h
    · have := h g hg channel (by simp); linarith
    · have := h g hg channel (by simp); linarith
    · exact h ⟨x, ⟨g, hg, hg1, hg2⟩, ⟨channel, by simp, h1.le, h2.le⟩⟩
  | false =>
    obtain ⟨m, hm⟩ := maxBorder_ok ref hne
    have hms := maxBorder_spec ref m hm
    dsimp only
    rw [hm]
    dsimp only
    have hM1 : channel.2 < max m (channel.2 + 1) := lt_of_lt_of_le (by linarith) (le_max_right _ _)
    have hbwf : checkGtis [((0 : K), channel.1), (channel.2, max m (channel.2 + 1))] = .ok () := by
      refine checkGtis_of_wf (by simp) ⟨?_, ?_⟩
      · intro g hg
        simp only [List.mem_cons, List.not_mem_nil, or_false] at hg
        rcases hg with rfl | rfl
        · exact hc0.le
        · exact hM1.le
      · simp [hc.le]
    obtain ⟨out, h1, h2, h3, -⟩ := cross_two_gtis_exact_partial order ref _ href hbwf hpos
      (by
        intro g hg
        simp only [List.mem_cons, List.not_mem_nil, or_false] at hg
        rcases hg with rfl | rfl
        · exact hc0
        · exact hM1)
      (by
        intro g hg h hh
        have hg1 := hpos g hg
        have hg0 := hnn g hg
        have hgb := hb g hg
        have hgm := hms g hg
        simp only [List.mem_cons, List.not_mem_nil, or_false] at hh
        rcases hh with rfl | rfl
        · dsimp only
          exact ⟨by linarith [hg0, hg1] |> fun (h : 0 < g.2) => ne_of_gt h, fun h => hgb.1 h.symm⟩
        · dsimp only
          refine ⟨hgb.2, ?_⟩
          have := le_max_left m (channel.2 + 1)
          exact ne_of_gt (by linarith [hgm.2]))
    refine ⟨out, h1, ?_, ⟨fun g hg => (h3.1 g hg).le, h3.2.imp le_of_lt⟩⟩
    intro x
    rw [h2 x]
    refine and_congr_right fun hx => ?_
    obtain ⟨g, hg, hg1, hg2⟩ := hx
    have hg0 := hnn g hg
    have hgm := hms g hg
    constructor
    · rintro ⟨h, hh, hh1, hh2⟩ ⟨hx1, hx2⟩
      simp only [List.mem_cons, List.not_mem_nil, or_false] at hh
      rcases hh with rfl | rfl
      · exact absurd hx1 (not_lt.2 hh2)
      · exact absurd hx2 (not_lt.2 hh1)
    · intro hx
      rw [not_and_or, not_lt, not_lt] at hx
      rcases hx with hx | hx
      · exact ⟨(0, channel.1), by simp, by dsimp only; linarith, hx⟩
      · exact ⟨(channel.2, max m (channel.2 + 1)), by simp, hx,
          le_trans hg2 (le_trans hgm.2 (le_max_left _ _))⟩

/-- Non-vacuity of `ref_band_partial`. -/
example : checkGtis [((1 : ℚ), 5), (6, 9)] = .ok () ∧
    getNonOverlappingRefBand (stableSort _) ((2 : ℚ), 3) [(1, 5), (6, 9)] = .ok [(1, 2), (3, 5), (6, 9)] := by
  decide +kernel

/-- **C68 (negation).** For a channel that is the whole reference band, or that starts where a reference band starts and contains it, the result is the reference band itself: exactly what was to be excluded. -/
theorem ref_band_shared_border :
    getNonOverlappingRefBand (stableSort _) ((1 : ℚ), 3) [(1, 3)] = .ok [(1, 3)] ∧
    getNonOverlappingRefBand (stableSort _) ((1 : ℚ), 3) [(1, 2), (4, 5)] = .ok [(1, 2), (4, 5)] := by
  decide +kernel

/-- **C68 (negation).** The same for a channel that starts at zero. -/
theorem ref_band_channel_from_zero :
    getNonOverlappingRefBand (stableSort _) ((0 : ℚ), 3) [(0, 3), (5, 6)] = .ok [(0, 3), (5, 6)] := by
  decide +kernel

/-! ### The spectra -/

theorem bandLoop_spec (measure : (K × K) → Option (K × K)) (bands : List (K × K)) :
    ∀ (i : Nat) (r : EnergyResult K) (done : List (Option K)) (donee : List (Option K)),
      done.length = i → donee.length = i →
      r.spectrum = done ++ List.replicate bands.length none →
      r.error = donee ++ List.replicate bands.length none →
      (bandLoop measure i bands r).spectrum = done ++ bands.map (fun b => (measure b).map Prod.fst) ∧
      (bandLoop measure i bands r).error = donee ++ bands.map (fun b => (measure b).map Prod.snd) := by
  induction bands with
  | nil => intro i r done donee h1 h2 h3 h4; simp [bandLoop, h3, h4]
  | cons b bs ih =>
    intro i r done donee h1 h2 h3 h4
    unfold bandLoop
    have := ih (i + 1) (r.store i (measure b)) (done ++ [(measure b).map Prod.fst])
      (donee ++ [(measure b).map Prod.snd]) (by simp [h1]) (by simp [h2])
      (by
        cases hm : measure b with
        | none => simp [EnergyResult.store, h3, List.replicate_succ]
        | some v =>
          obtain ⟨x, e⟩ := v
          simp only [EnergyResult.store, h3, List.length_cons, List.replicate_succ, Option.map_some]
          rw [List.set_append_right _ _ (by omega), h1, Nat.sub_self]
          simp)
      (by
        cases hm : measure b with
        | none => simp [EnergyResult.store, h4, List.replicate_succ]
        | some v =>
          obtain ⟨x, e⟩ := v
          simp only [EnergyResult.store, h4, List.length_cons, List.replicate_succ, Option.map_some]
          rw [List.set_append_right _ _ (by omega), h2, Nat.sub_self]
          simp)
    simpa using this

theorem bandLoop_empty (measure : (K × K) → Option (K × K)) (bands : List (K × K)) :
    bandLoop measure 0 bands (emptySpectrum bands) =
      ⟨bands.map (fun b => (measure b).map Prod.fst), bands.map (fun b => (measure b).map Prod.snd)⟩ := by
  have h := bandLoop_spec measure bands 0 (emptySpectrum bands) [] [] rfl rfl (by simp [emptySpectrum])
    (by simp [emptySpectrum])
  cases hb : bandLoop measure 0 bands (emptySpectrum bands)
  rw [hb] at h
  simp_all

/-- The number of events with `lo ≤ x < hi`, where `x` is the energy or the PI channel. -/
def countIn (x : Ev K → K) (events : List (Ev K)) (lo hi : K) : Nat :=
  events.countP fun e => decide (lo ≤ x e ∧ x e < hi)

theorem timesInRange_length (usePi : Bool) (events : List (Ev K)) (b : K × K) :
    (timesInRange usePi events b).length = countIn (fun e => if usePi then e.pi else e.energy) events b.1 b.2 := by
  unfold timesInRange countIn
  rw [List.length_map, List.countP_eq_length_filter]
  congr 1
  apply List.filter_congr
  intro e _
  simp

theorem intervals_cons (a b : K) (l : List K) : intervals (a :: b :: l) = (a, b) :: intervals (b :: l) := by
  simp [intervals, List.dropLast]

theorem countIn_split (x : Ev K → K) (events : List (Ev K)) (a b c : K) (h1 : a ≤ b) (h2 : b ≤ c) :
    countIn x events a c = countIn x events a b + countIn x events b c := by
  unfold countIn
  induction events with
  | nil => rfl
  | cons e es ih =>
    simp only [List.countP_cons]
    rw [ih]
    rcases lt_or_ge (x e) b with h | h
    · have : ¬ b ≤ x e := not_le.2 h
      have h3 : x e < c := lt_of_lt_of_le h h2
      by_cases h4 : a ≤ x e
      · simp only [h4, h3, h, this, true_and, and_self, decide_true, false_and, decide_false, if_true]
        simp only [Bool.false_eq_true, if_false]
        omega
      · simp [h4, this]
    · have h3 : a ≤ x e := h1.trans h
      have h4 : ¬ x e < b := not_lt.2 h
      by_cases h5 : x e < c
      · simp only [h5, h3, h, h4, true_and, and_self, decide_true, and_false, decide_false, if_true]
        simp only [Bool.false_eq_true, if_false]
        omega
      · simp [h4, h5]

/-- **C91.** For every non-empty event list and all band edges, the count spectrum has one value per band, the number of events whose energy (or PI channel, if asked) is at or above the lower edge and below the upper one, with its square root as uncertainty; for edges in order, the counts of all bands add up to the number of events from the first edge to the last: no event is lost or counted twice. -/
theorem count_spectrum_spec (sqrt : K → K) (usePi : Bool) (events : List (Ev K)) (edges : List K) (hev : events ≠ []) :
    let x : Ev K → K := fun e => if usePi then e.pi else e.energy
    let r := countSpectrum sqrt usePi events edges
    r.spectrum.length = edges.length - 1 ∧ r.error.length = edges.length - 1 ∧
    (∀ (i : Nat) (lo hi : K), edges[i]? = some lo → edges[i + 1]? = some hi →
      r.spectrum[i]? = some (some (countIn x events lo hi : K)) ∧
      r.error[i]? = some (some (sqrt (countIn x events lo hi : K)))) ∧
    (edges.Pairwise (· ≤ ·) → ∀ (first last : K), edges.head? = some first → edges.getLast? = some last →
      (r.spectrum.filterMap id).sum = (countIn x events first last : K)) := by
  intro x r
  have hr : r = ⟨(intervals edges).map (fun b => some (countIn x events b.1 b.2 : K)),
      (intervals edges).map (fun b => some (sqrt (countIn x events b.1 b.2 : K)))⟩ := by
    show countSpectrum sqrt usePi events edges = _
    unfold countSpectrum
    dsimp only
    rw [if_neg hev, bandLoop_empty]
    simp only [timesInRange_length, Option.map_some]
    rfl
  have hlen : (intervals edges).length = edges.length - 1 := by
    simp [intervals]
  rw [hr]
  refine ⟨by simp [hlen], by simp [hlen], ?_, ?_⟩
  · intro i lo hi h1 h2
    have : (intervals edges)[i]? = some (lo, hi) := by
      unfold intervals
      rw [List.getElem?_zip_eq_some]
      have hi' := (List.getElem?_eq_some_iff.1 h2).1
      refine ⟨?_, ?_⟩
      · rw [List.getElem?_dropLast, if_pos (by omega)]; exact h1
      · rw [List.getElem?_tail]; exact h2
    simp [this]
  · intro hs first last hf hl
    dsimp only
    rw [List.filterMap_map]
    have hid : (fun b : K × K => (id ∘ fun b => some (countIn x events b.1 b.2 : K)) b) =
        fun b => some (countIn x events b.1 b.2 : K) := rfl
    show ((intervals edges).filterMap (fun b => some (countIn x events b.1 b.2 : K))).sum = _
    rw [show (fun b : K × K => some (countIn x events b.1 b.2 : K)) =
      (fun a => some a) ∘ (fun b : K × K => (countIn x events b.1 b.2 : K)) from rfl,
      ← List.filterMap_map, List.filterMap_some]
    clear hr hlen hid
    clear_value r
    induction edges generalizing first with
    | nil => cases hf
    | cons a t ih =>
      simp only [List.head?_cons, Option.some.injEq] at hf
      subst hf
      cases t with
      | nil =>
        simp only [List.getLast?_singleton, Option.some.injEq] at hl
        subst hl
        have h0 : countIn x events a a = 0 := by
          unfold countIn
          rw [List.countP_eq_zero]
          intro e _
          simp only [decide_eq_true_eq, not_and, not_lt]
          exact fun h => h
        rw [h0]
        simp [intervals]
      | cons b t =>
        rw [List.getLast?_cons_cons] at hl
        have h2 := ih (List.pairwise_cons.1 hs).2 b rfl hl
        rw [intervals_cons, List.map_cons, List.sum_cons, h2]
        have hle : b ≤ last := by
          have := List.mem_of_getLast? hl
          rcases List.mem_cons.1 this with h | h
          · exact h.ge
          · exact (List.pairwise_cons.1 (List.pairwise_cons.1 hs).2).1 _ h
        rw [countIn_split x events a b last ((List.pairwise_cons.1 hs).1 b (by simp)) hle]
        push_cast
        rfl

/-- Non-vacuity of `count_spectrum_spec`: an event on an edge belongs to the upper band. -/
example : countSpectrum (fun x => x) false [⟨1, 2, 20⟩, ⟨2, 3, 30⟩, ⟨3, 5, 50⟩, ⟨4, 6, 60⟩] [(1 : ℚ), 3, 6] =
    ⟨[some 1, some 2], [some 1, some 2]⟩ := by decide +kernel

/-- **C92 (partial).** The value of the rms, lag and covariance spectra in a band is what the timing analysis gives for the events of that band alone (and those of the first reference band), selected by energy with the upper edge excluded; bands the analysis skips stay NaN. So adding, removing or changing events outside a band, or changing other bands, does not change its value. Missing from the full property: the selection by PI channel, which does not work (`rms_spectrum_ignores_pi`), and further reference bands, which are ignored (`lag_spectrum_first_ref_band`). -/
theorem energy_spectrum_local_partial (analysis : List K → Option (K × K)) (analysis2 : List K → List K → Option (K × K))
    (usePi : Bool) (events events2 : List (Ev K)) (edges : List K) (r0 : K × K) (refs : List (K × K)) (hev : events ≠ [])
    (i : Nat) (lo hi : K) (hlo : edges[i]? = some lo) (hhi : edges[i + 1]? = some hi) :
    (rmsSpectrum analysis usePi events edges).spectrum[i]? =
      some ((analysis ((events.filter fun e => decide (lo ≤ e.energy ∧ e.energy < hi)).map Ev.time)).map Prod.fst) ∧
    (rmsSpectrum analysis usePi events edges).error[i]? =
      some ((analysis ((events.filter fun e => decide (lo ≤ e.energy ∧ e.energy < hi)).map Ev.time)).map Prod.snd) ∧
    ∃ r, crossEnergySpectrum analysis2 usePi (r0 :: refs) events events2 edges = .ok r ∧
      r.spectrum[i]? =
        some ((analysis2 ((events.filter fun e => decide (lo ≤ e.energy ∧ e.energy < hi)).map Ev.time)
          ((events2.filter fun e => decide (r0.1 ≤ e.energy ∧ e.energy < r0.2)).map Ev.time)).map Prod.fst) := by
  have hband : (intervals edges)[i]? = some (lo, hi) := by
    unfold intervals
    rw [List.getElem?_zip_eq_some]
    have hi' := (List.getElem?_eq_some_iff.1 hhi).1
    refine ⟨?_, ?_⟩
    · rw [List.getElem?_dropLast, if_pos (by omega)]; exact hlo
    · rw [List.getElem?_tail]; exact hhi
  have hsel : ∀ (ev : List (Ev K)) (b : K × K), timesInRange false ev b =
      (ev.filter fun e => decide (b.1 ≤ e.energy ∧ e.energy < b.2)).map Ev.time := by
    intro ev b
    unfold timesInRange
    congr 1
    apply List.filter_congr
    intro e _
    simp
  unfold rmsSpectrum crossEnergySpectrum
  dsimp only
  rw [if_neg hev, if_neg hev, bandLoop_empty, bandLoop_empty]
  refine ⟨?_, ?_, _, rfl, ?_⟩ <;> simp [hband, hsel]

/-- Non-vacuity of `energy_spectrum_local_partial`. -/
example : rmsSpectrum (fun l => if l.length < 2 then none else some (l.sum, 1)) false
    [⟨1, 2, 20⟩, ⟨2, 3, 30⟩, ⟨3, 5, 50⟩, ⟨4, 6, 60⟩] [(1 : ℚ), 3, 6] = ⟨[none, some 5], [none, some 1]⟩ := by
  decide +kernel

/-- **C92 (negation).** `use_pi=True` has no effect on the rms spectrum: for every analysis, event list and edges the result is the one of energies; with PI channels in the bands and energies outside them, no event is used. -/
theorem rms_spectrum_ignores_pi (analysis : List K → Option (K × K)) (events : List (Ev K)) (edges : List K) :
    rmsSpectrum analysis true events edges = rmsSpectrum analysis false events edges ∧
    rmsSpectrum (fun l => some ((l.length : ℚ), 0)) true [⟨1, 2, 20⟩, ⟨2, 3, 30⟩] [(10 : ℚ), 50] =
      ⟨[some 0], [some 0]⟩ ∧
    countSpectrum (fun _ => 0) true [⟨1, 2, 20⟩, ⟨2, 3, 30⟩] [(10 : ℚ), 50] = ⟨[some 2], [some 0]⟩ :=
  ⟨rfl, by decide +kernel, by decide +kernel⟩

/-- **C92 (negation).** The lag and covariance spectra use the first of the given reference bands only. -/
theorem lag_spectrum_first_ref_band (analysis : List K → List K → Option (K × K)) (usePi : Bool) (r0 : K × K)
    (more more' : List (K × K)) (events1 events2 : List (Ev K)) (edges : List K) :
    crossEnergySpectrum analysis usePi (r0 :: more) events1 events2 edges =
      crossEnergySpectrum analysis usePi (r0 :: more') events1 events2 edges := rfl

/-- **C95 (negation).** The excess variance spectrum is NaN in every band, whatever the events and the excess variances computed from them. -/
theorem excess_variance_spectrum_nan (excessVariance : List K → K × K) (usePi : Bool) (events : List (Ev K))
    (edges : List K) (i : Nat) (hi : i + 1 < edges.length) :
    (excessVarianceSpectrum excessVariance usePi events edges).spectrum[i]? = some none ∧
    (excessVarianceSpectrum excessVariance usePi events edges).error[i]? = some none := by
  have hlen : (intervals edges).length = edges.length - 1 := by simp [intervals]
  constructor <;>
  · unfold excessVarianceSpectrum emptySpectrum
    dsimp only
    rw [List.getElem?_replicate, if_pos (by omega)]

/-- Non-vacuity of `excess_variance_spectrum_nan`. -/
example : excessVarianceSpectrum (fun _ => (1, 2)) false [⟨1, 2, 20⟩] [(1 : ℚ), 3, 6] =
    ⟨[none, none], [none, none]⟩ := by decide +kernel

/-! ### Energy bands -/

theorem linspace_get (lo hi : K) (n : Nat) (hn : 0 < n) (i : Nat) (hi' : i ≤ n) :
    (linspace lo hi n)[i]? = some (lo + (i : K) * ((hi - lo) / (n : K))) := by
  unfold linspace
  rw [if_neg (by omega)]
  rcases Nat.lt_or_ge i n with h | h
  · rw [List.getElem?_append_left (by simpa using h)]
    simp [h]
  · have : i = n := by omega
    subst this
    rw [List.getElem?_append_right (by simp)]
    have hK : (i : K) ≠ 0 := Nat.cast_ne_zero.2 (by omega)
    simp only [List.length_map, List.length_range, Nat.sub_self, List.getElem?_cons_zero, Option.some.injEq]
    field_simp
    ring

theorem linspace_length (lo hi : K) (n : Nat) : (linspace lo hi n).length = n + 1 := by
  unfold linspace
  split_ifs with h <;> simp [h]

/-- **C93.** For every request of `n ≥ 1` bands between two energies `lo < hi`: `lin` in any capitalisation gives `n + 1` strictly increasing edges from `lo` to `hi` with a constant difference; `log`, for positive energies, gives `n + 1` strictly increasing edges from `lo` to `hi` with a constant ratio; any other word is an error. -/
theorem energy_edges_spec (lo hi : ℝ) (n : Nat) (hn : 0 < n) (h : lo < hi) (kind : List Char) :
    (lower kind = "lin".toList → ∃ edges, decodeEnergySpec lo hi n kind = .ok edges ∧ edges.length = n + 1 ∧
      edges.Pairwise (· < ·) ∧ edges.head? = some lo ∧ edges.getLast? = some hi ∧
      ∃ d, ∀ (i : Nat) (a b : ℝ), edges[i]? = some a → edges[i + 1]? = some b → b - a = d) ∧
    (lower kind = "log".toList → 0 < lo → ∃ edges, decodeEnergySpec lo hi n kind = .ok edges ∧ edges.length = n + 1 ∧
      edges.Pairwise (· < ·) ∧ edges.head? = some lo ∧ edges.getLast? = some hi ∧
      ∃ q, ∀ (i : Nat) (a b : ℝ), edges[i]? = some a → edges[i + 1]? = some b → b / a = q) ∧
    (lower kind ≠ "lin".toList → lower kind ≠ "log".toList → decodeEnergySpec lo hi n kind = .error .valueError) := by
  have hlin : "lin".toList = ['l', 'i', 'n'] := by decide +kernel
  have hlog : "log".toList = ['l', 'o', 'g'] := by decide +kernel
  rw [hlin, hlog]
  have hn' : (0 : ℝ) < n := Nat.cast_pos.2 hn
  -- the points of a linspace
  have facts : ∀ lo hi : ℝ, lo < hi →
      (linspace lo hi n).Pairwise (· < ·) ∧ (linspace lo hi n).head? = some lo ∧
      (linspace lo hi n).getLast? = some hi ∧
      ∀ (i : Nat) (a b : ℝ), (linspace lo hi n)[i]? = some a → (linspace lo hi n)[i + 1]? = some b →
        b - a = (hi - lo) / n := by
    intro lo hi h
    have hd : 0 < (hi - lo) / (n : ℝ) := div_pos (by linarith) hn'
    refine ⟨?_, ?_, ?_, ?_⟩
    · rw [List.pairwise_iff_getElem]
      intro i j hi' hj hij
      have l1 := hi'
      have l2 := hj
      rw [linspace_length] at l1 l2
      have e1 := linspace_get lo hi n hn i (by omega)
      have e2 := linspace_get lo hi n hn j (by omega)
      rw [List.getElem?_eq_getElem hi'] at e1
      rw [List.getElem?_eq_getElem hj] at e2
      rw [Option.some.inj e1, Option.some.inj e2]
      have : (i : ℝ) < j := Nat.cast_lt.2 hij
      have := mul_lt_mul_of_pos_right this hd
      linarith
    · rw [List.head?_eq_getElem?, linspace_get lo hi n hn 0 (by omega)]
      simp
    · rw [List.getLast?_eq_getElem?, linspace_length, linspace_get lo hi n hn _ (by omega)]
      simp only [Nat.add_sub_cancel, Option.some.injEq]
      field_simp
      ring
    · intro i a b ha hb
      have hi' := (List.getElem?_eq_some_iff.1 hb).1
      rw [linspace_length] at hi'
      rw [linspace_get lo hi n hn i (by omega), Option.some.injEq] at ha
      rw [linspace_get lo hi n hn (i + 1) (by omega), Option.some.injEq] at hb
      rw [← ha, ← hb]
      push_cast
      ring
  refine ⟨?_, ?_, ?_⟩
  · intro hk
    unfold decodeEnergySpec
    rw [hk, if_neg (by decide +kernel), if_pos rfl]
    obtain ⟨f1, f2, f3, f4⟩ := facts lo hi h
    exact ⟨_, rfl, linspace_length _ _ _, f1, f2, f3, _, f4⟩
  · intro hk hlo
    unfold decodeEnergySpec
    rw [hk, if_pos rfl]
    have hhi : 0 < hi := hlo.trans h
    obtain ⟨f1, f2, f3, f4⟩ := facts (Real.logb 10 lo) (Real.logb 10 hi)
      (Real.logb_lt_logb (by norm_num) hlo h)
    refine ⟨_, rfl, by rw [List.length_map, linspace_length], ?_, ?_, ?_,
      (10 : ℝ) ^ ((Real.logb 10 hi - Real.logb 10 lo) / (n : ℝ)), ?_⟩
    · rw [List.pairwise_map]
      exact f1.imp fun hab => Real.rpow_lt_rpow_of_exponent_lt (by norm_num) hab
    · rw [List.head?_map, f2]
      simp only [Option.map_some, Option.some.injEq]
      exact Real.rpow_logb (by norm_num) (by norm_num) hlo
    · rw [List.getLast?_map, f3]
      simp only [Option.map_some, Option.some.injEq]
      exact Real.rpow_logb (by norm_num) (by norm_num) hhi
    · intro i a b ha hb
      rw [List.getElem?_map, Option.map_eq_some_iff] at ha hb
      obtain ⟨a', ha', rfl⟩ := ha
      obtain ⟨b', hb', rfl⟩ := hb
      rw [← f4 i a' b' ha' hb', Real.rpow_sub (by norm_num)]
  · intro h1 h2
    unfold decodeEnergySpec
    rw [if_neg h2, if_neg h1]

/-- Non-vacuity of `energy_edges_spec`. -/
example : lower "LoG".toList = "log".toList ∧ lower "LIN".toList = "lin".toList ∧
    linspace (1 : ℚ) 3 4 = [1, 3 / 2, 2, 5 / 2, 3] := by decide +kernel

/-- **C93 (centres).** There is one energy per band, halfway between the edges of its band: so it is inside the band, and the energies increase with the edges. -/
theorem energy_centres_spec (edges : List K) (hs : edges.Pairwise (· < ·)) :
    (centres (intervals edges)).length = edges.length - 1 ∧
    (∀ (i : Nat) (a b c : K), edges[i]? = some a → edges[i + 1]? = some b → (centres (intervals edges))[i]? = some c →
      a < c ∧ c < b ∧ c - a = b - c) ∧
    (centres (intervals edges)).Pairwise (· < ·) := by
  have hget : ∀ (i : Nat) (c : K), (centres (intervals edges))[i]? = some c →
      ∃ a b, edges[i]? = some a ∧ edges[i + 1]? = some b ∧ c = (a + b) / 2 := by
    intro i c hc
    unfold centres intervals at hc
    rw [List.getElem?_map, Option.map_eq_some_iff] at hc
    obtain ⟨p, hp, rfl⟩ := hc
    rw [List.getElem?_zip_eq_some, List.getElem?_tail] at hp
    refine ⟨p.1, p.2, ?_, hp.2, rfl⟩
    have h1 := hp.1
    rw [List.getElem?_dropLast] at h1
    split_ifs at h1
    exact h1
  have hlt : ∀ (i j : Nat) (a b : K), edges[i]? = some a → edges[j]? = some b → i < j → a < b := by
    intro i j a b ha hb hij
    obtain ⟨h1, rfl⟩ := List.getElem?_eq_some_iff.1 ha
    obtain ⟨h2, rfl⟩ := List.getElem?_eq_some_iff.1 hb
    exact List.pairwise_iff_getElem.1 hs i j h1 h2 hij
  refine ⟨by simp [centres, intervals], ?_, ?_⟩
  · intro i a b c ha hb hc
    obtain ⟨a', b', ha', hb', rfl⟩ := hget i c hc
    rw [ha, Option.some.injEq] at ha'
    rw [hb, Option.some.injEq] at hb'
    subst ha' hb'
    have := hlt i (i + 1) a b ha hb (by omega)
    refine ⟨by linarith, by linarith, by ring⟩
  · rw [List.pairwise_iff_getElem]
    intro i j hi hj hij
    obtain ⟨a, b, ha, hb, e⟩ := hget i _ (List.getElem?_eq_getElem hi)
    obtain ⟨c, d, hc, hd, e'⟩ := hget j _ (List.getElem?_eq_getElem hj)
    rw [e, e']
    have h1 := hlt i j a c ha hc hij
    have h2 := hlt (i + 1) (j + 1) b d hb hd (by omega)
    linarith

example : centres (intervals [(1 : ℚ), 3, 4, 10]) = [2, 7 / 2, 7] := by decide +kernel

/-! ### Uncertainties -/

/-- **C94.** With power and noise in rates, expressing times in another unit multiplies the rms amplitude by the same factor: for every factor `k > 0` and an exact square root, powers multiplied by `k` and frequencies by `k` give an rms multiplied by `k`, and the rms is never negative. -/
theorem rms_scales (sqrt : K → K) (hsq : ∀ x, 0 ≤ x → 0 ≤ sqrt x ∧ sqrt x * sqrt x = x)
    (meanPower powerNoise deltaNu k : K) (hk : 0 < k) (hd : 0 ≤ deltaNu) :
    rmsOf sqrt (k * meanPower) (k * powerNoise) (k * deltaNu) = k * rmsOf sqrt meanPower powerNoise deltaNu ∧
    0 ≤ rmsOf sqrt meanPower powerNoise deltaNu := by
  unfold rmsOf
  have h1 : 0 ≤ |meanPower - powerNoise| * deltaNu := mul_nonneg (abs_nonneg _) hd
  have h2 : |k * meanPower - k * powerNoise| * (k * deltaNu) = k * k * (|meanPower - powerNoise| * deltaNu) := by
    rw [← mul_sub, abs_mul, abs_of_pos hk]; ring
  rw [h2]
  have h3 : 0 ≤ k * k * (|meanPower - powerNoise| * deltaNu) := mul_nonneg (mul_nonneg hk.le hk.le) h1
  obtain ⟨a1, a2⟩ := hsq _ h1
  obtain ⟨b1, b2⟩ := hsq _ h3
  refine ⟨?_, a1⟩
  have : sqrt (k * k * (|meanPower - powerNoise| * deltaNu)) * sqrt (k * k * (|meanPower - powerNoise| * deltaNu)) =
      (k * sqrt (|meanPower - powerNoise| * deltaNu)) * (k * sqrt (|meanPower - powerNoise| * deltaNu)) := by
    rw [b2]
    linear_combination (-(k * k)) * a2
  exact (mul_self_inj b1 (mul_nonneg hk.le a1)).1 this

/-- **C94 (negation).** The uncertainty of the rms does not scale like the rms: the same measurement in another unit of time, with rms amplitude and noise multiplied by 2, gets an uncertainty that is not multiplied by 2 (its square by 4). -/
theorem rms_error_not_homogeneous :
    rmsErrSq (1 : ℚ) 1 1 1 = 1 ∧ rmsErrSq (2 : ℚ) 2 1 1 = 5 / 2 := by decide +kernel

end Stingray.VarEnergy

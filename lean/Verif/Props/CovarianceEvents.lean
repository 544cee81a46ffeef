import Verif.Props.Covariance

/-!
# C144, C145: covariance spectra of events
-/

set_option linter.unusedSectionVars false

namespace Stingray.Covariance

open Stingray.Lightcurve Stingray.Gti

variable {K : Type} [Field K] [LinearOrder K] [IsStrictOrderedRing K] [FloorRing K]

theorem flat_count (P : K → Prop) [DecidablePred P] (rows : List (K × K)) :
    ((rows.flatMap fun p => [p.1, p.2]).filter fun t => decide (P t)).length =
      (rows.filter fun p => decide (P p.1)).length + (rows.filter fun p => decide (P p.2)).length := by
  induction rows with
  | nil => rfl
  | cons p rows ih =>
    simp only [List.flatMap_cons, List.cons_append, List.nil_append, List.filter_cons]
    by_cases h1 : P p.1 <;> by_cases h2 : P p.2 <;> simp [h1, h2, ih] <;> omega

/-- **C144.** What the light curve of a band really counts: in every bin, the rows whose time is in the bin and the rows whose *energy* is in the bin. -/
theorem curveOf_counts (sort : KeySort (fun (x : K) => x)) (dt tseg tstart : K) (hdt : 0 < dt) (rows : List (K × K)) (c : Curve K)
    (h : curveOf sort dt tseg tstart rows = .ok c) :
    c.counts.length = (timebin tseg dt).toNat ∧
    c.time = (List.range (timebin tseg dt).toNat).map (fun (i : Nat) => tstart + (1 / 2 + (i : K)) * dt) ∧
    ∀ (k : Nat) (n : K), c.counts[k]? = some n → n =
      (((rows.filter fun p => decide (InTimeBin tstart dt k p.1)).length + (rows.filter fun p => decide (InTimeBin tstart dt k p.2)).length : Nat) : K) := by
  unfold curveOf at h
  cases hm : makeLightcurve sort (rows.flatMap fun p => [p.1, p.2]) dt (some tseg) (some tstart) none false with
  | error e => rw [hm] at h; cases h
  | ok out =>
    rw [hm] at h
    simp only [bind, Except.bind, pure, Except.pure] at h
    cases h
    obtain ⟨t0, len, h1, h2, h3, h4⟩ := makeLightcurve_cases sort _ dt _ _ _ _ out hdt hm
    simp only [lcStart] at h1; cases h1
    simp only [lcLength] at h2; cases h2
    refine ⟨by simp [h4], h3, fun k n hk => ?_⟩
    simp only [h4, List.map_map, List.getElem?_map] at hk
    by_cases hkn : k < (timebin tseg dt).toNat
    · rw [List.getElem?_range hkn] at hk
      simp only [Option.map_some, Option.some.injEq, Function.comp] at hk
      rw [← hk, flat_count]
    · rw [List.getElem?_eq_none (by simpa using hkn)] at hk
      simp at hk

theorem foldl_min_spec (t : K) (ts : List K) : ts.foldl min t ∈ t :: ts ∧ ∀ x ∈ t :: ts, ts.foldl min t ≤ x := by
  induction ts generalizing t with
  | nil => simp
  | cons a ts ih =>
    obtain ⟨h1, h2⟩ := ih (min t a)
    simp only [List.foldl_cons]
    constructor
    · rcases List.mem_cons.1 h1 with h | h
      · rw [h]; rcases min_choice t a with e | e <;> simp [e]
      · simp [h]
    · intro x hx
      have hm := h2 (min t a) (by simp)
      rcases List.mem_cons.1 hx with rfl | hx
      · exact hm.trans (min_le_left _ _)
      · rcases List.mem_cons.1 hx with rfl | hx
        · exact hm.trans (min_le_right _ _)
        · exact h2 x (by simp [hx])

theorem foldl_max_spec (t : K) (ts : List K) : ts.foldl max t ∈ t :: ts ∧ ∀ x ∈ t :: ts, x ≤ ts.foldl max t := by
  induction ts generalizing t with
  | nil => simp
  | cons a ts ih =>
    obtain ⟨h1, h2⟩ := ih (max t a)
    simp only [List.foldl_cons]
    constructor
    · rcases List.mem_cons.1 h1 with h | h
      · rw [h]; rcases max_choice t a with e | e <;> simp [e]
      · simp [h]
    · intro x hx
      have hm := h2 (max t a) (by simp)
      rcases List.mem_cons.1 hx with rfl | hx
      · exact (le_max_left _ _).trans hm
      · rcases List.mem_cons.1 hx with rfl | hx
        · exact (le_max_right _ _).trans hm
        · exact h2 x (by simp [hx])

/-- `lo` and `hi` are the smallest and the largest of the values. -/
def IsRange (l : List K) (lo hi : K) : Prop := lo ∈ l ∧ hi ∈ l ∧ ∀ x ∈ l, lo ≤ x ∧ x ≤ hi

theorem observation_spec (evs : List (K × K)) (o : K × K) (h : observation evs = .ok o) :
    ∃ t1, IsRange (evs.map (·.1)) o.1 t1 ∧ o.2 = t1 - o.1 := by
  unfold observation at h
  cases he : evs.map (·.1) with
  | nil => rw [he] at h; cases h
  | cons t ts =>
    rw [he] at h
    cases h
    exact ⟨_, ⟨(foldl_min_spec t ts).1, (foldl_max_spec t ts).1, fun x hx => ⟨(foldl_min_spec t ts).2 x hx, (foldl_max_spec t ts).2 x hx⟩⟩, rfl⟩

theorem energyRange_spec (evs : List (K × K)) (o : K × K) (h : energyRange evs = .ok o) : IsRange (evs.map (·.2)) o.1 o.2 := by
  unfold energyRange at h
  cases he : evs.map (·.2) with
  | nil => rw [he] at h; cases h
  | cons t ts =>
    rw [he] at h
    cases h
    exact ⟨(foldl_min_spec t ts).1, (foldl_max_spec t ts).1, fun x hx => ⟨(foldl_min_spec t ts).2 x hx, (foldl_max_spec t ts).2 x hx⟩⟩

/-- The number of events of a set of energies in a bin of time. -/
def countIn (evs : List (K × K)) (E : K → Prop) [DecidablePred E] (t0 dt : K) (k : Nat) : Nat :=
  (evs.filter fun p => decide (E p.2 ∧ InTimeBin t0 dt k p.1)).length

theorem energies_not_binned (evs rows : List (K × K)) (hsub : ∀ p ∈ rows, p ∈ evs) (hE : ∀ p ∈ evs, ∀ q ∈ evs, p.2 < q.1) (t0 : K)
    (ht0 : t0 ∈ evs.map (·.1)) (dt : K) (hdt : 0 < dt) (k : Nat) :
    (rows.filter fun p => decide (InTimeBin t0 dt k p.2)).length = 0 := by
  rw [List.length_eq_zero_iff, List.filter_eq_nil_iff]
  intro p hp
  obtain ⟨q, hq, rfl⟩ := List.mem_map.1 ht0
  have h1 := hE p (hsub p hp) q hq
  intro hb
  have h2 : q.1 + (k : K) * dt ≤ p.2 := (of_decide_eq_true hb).1
  have : (0 : K) ≤ k * dt := by positivity
  linarith

theorem band_count (sort : KeySort (fun (x : K) => x)) (evs : List (K × K)) (hE : ∀ p ∈ evs, ∀ q ∈ evs, p.2 < q.1) (t0 tseg dt : K)
    (ht0 : t0 ∈ evs.map (·.1)) (hdt : 0 < dt) (E : K → Prop) [DecidablePred E] (c : Curve K)
    (h : curveOf sort dt tseg t0 (evs.filter fun p => decide (E p.2)) = .ok c) :
    c.counts.length = (timebin tseg dt).toNat ∧ ∀ (k : Nat) (n : K), c.counts[k]? = some n → n = (countIn evs E t0 dt k : K) := by
  obtain ⟨h1, _, h2⟩ := curveOf_counts sort dt tseg t0 hdt _ c h
  refine ⟨h1, fun k n hk => ?_⟩
  rw [h2 k n hk, energies_not_binned evs _ (fun p hp => (List.mem_filter.1 hp).1) hE t0 ht0 dt hdt k, Nat.add_zero]
  congr 1
  unfold countIn
  rw [List.filter_filter]
  congr 1
  apply List.filter_congr
  intro p _
  by_cases a : E p.2 <;> by_cases b : InTimeBin t0 dt k p.1 <;> simp [a, b]

theorem ref_count (sort : KeySort (fun (x : K) => x)) (evs : List (K × K)) (hE : ∀ p ∈ evs, ∀ q ∈ evs, p.2 < q.1) (t0 tseg dt : K)
    (ht0 : t0 ∈ evs.map (·.1)) (hdt : 0 < dt) (r b : K × K) (hr : IsRange (evs.map (·.2)) r.1 r.2) (hb : b.1 < b.2) (c : Curve K)
    (h : curveOf sort dt tseg t0 ((evs.filter fun p => decide (p.2 ≤ b.1 ∧ r.1 ≤ p.2)) ++ (evs.filter fun p => decide (p.2 ≤ r.2 ∧ b.2 ≤ p.2))) = .ok c) :
    c.counts.length = (timebin tseg dt).toNat ∧
    ∀ (k : Nat) (n : K), c.counts[k]? = some n → n = (countIn evs (fun e => e ≤ b.1 ∨ b.2 ≤ e) t0 dt k : K) := by
  obtain ⟨h1, _, h2⟩ := curveOf_counts sort dt tseg t0 hdt _ c h
  refine ⟨h1, fun k n hk => ?_⟩
  rw [h2 k n hk, energies_not_binned evs _ (fun p hp => by
    rcases List.mem_append.1 hp with h | h <;> exact (List.mem_filter.1 h).1) hE t0 ht0 dt hdt k, Nat.add_zero]
  congr 1
  unfold countIn
  rw [List.filter_append, List.length_append, List.filter_filter, List.filter_filter]
  have hrange : ∀ p ∈ evs, r.1 ≤ p.2 ∧ p.2 ≤ r.2 := fun p hp => hr.2.2 p.2 (List.mem_map_of_mem hp)
  clear hr hE ht0 h h1 h2 hk
  induction evs with
  | nil => rfl
  | cons p evs ih =>
    have hp := hrange p (by simp)
    have ih := ih (fun q hq => hrange q (by simp [hq]))
    simp only [List.filter_cons]
    by_cases a : p.2 ≤ b.1
    · have a' : ¬ b.2 ≤ p.2 := not_le.2 (lt_of_le_of_lt a hb)
      by_cases c : InTimeBin t0 dt k p.1 <;> simp [a, a', c, hp.1, hp.2] <;> simp at ih <;> omega
    · by_cases a' : b.2 ≤ p.2 <;> by_cases c : InTimeBin t0 dt k p.1 <;> simp [a, a', c, hp.1, hp.2] <;> simp at ih <;> omega

theorem countIn_perm (evs evs' : List (K × K)) (h : evs'.Perm evs) (E : K → Prop) [DecidablePred E] (t0 dt : K) (k : Nat) :
    countIn evs' E t0 dt k = countIn evs E t0 dt k := (h.filter _).length_eq

/-- **C144 (partial).** A covariance spectrum of events whose energies are all smaller than all the times (in other cases see the negation), in the bands given by the user: there is one light curve for each band; it counts, in bins of the given size from the first event on, the events with energies in the band, edges included; its reference band (when there is one for each band) counts the events with energies at or outside the edges of the band. -/
theorem event_curves_partial (sort : KeySort (fun (x : K) => x)) (byTime : KeySort (fun (x : K × K) => x.1)) (evs bands : List (K × K))
    (dt : K) (hdt : 0 < dt) (hE : ∀ p ∈ evs, ∀ q ∈ evs, p.2 < q.1) (lcs : List (Curve K)) (refs : Refs K)
    (h : prepare sort byTime (.events evs) (some dt) (some bands) .absent = .ok (lcs, refs)) :
    ∃ t0 t1, IsRange (evs.map (·.1)) t0 t1 ∧ lcs.length = bands.length ∧
      ∀ (i : Nat) (b : K × K) (x : Curve K), bands[i]? = some b → lcs[i]? = some x →
        x.counts.length = (timebin (t1 - t0) dt).toNat ∧
        (∀ (k : Nat) (n : K), x.counts[k]? = some n → n = (countIn evs (fun e => b.1 ≤ e ∧ e ≤ b.2) t0 dt k : K)) ∧
        ∀ (cs : List (Curve K)) (r : Curve K), refs = .each cs → cs[i]? = some r → b.1 < b.2 →
          r.counts.length = x.counts.length ∧
          ∀ (k : Nat) (n : K), r.counts[k]? = some n → n = (countIn evs (fun e => e ≤ b.1 ∨ b.2 ≤ e) t0 dt k : K) := by
  simp only [prepare, eventBands, givenRefs] at h
  by_cases he : evs = []
  · simp [he, bind, Except.bind] at h
  by_cases hbn : bands = []
  · simp [hbn, he, bind, Except.bind, pure, Except.pure] at h
  simp only [if_neg he, if_neg hbn, if_neg hdt.ne', bind, Except.bind, pure, Except.pure] at h
  generalize hev' : (if ((evs.map (·.1)).zip (evs.map (·.1)).tail).all (fun p => decide (p.1 ≤ p.2)) = true then evs else byTime.sort evs) = evs' at h
  have hperm : evs'.Perm evs := by
    rw [← hev']; split_ifs
    · exact List.Perm.refl _
    · exact byTime.perm evs
  have hmem : ∀ p, p ∈ evs' ↔ p ∈ evs := fun p => hperm.mem_iff
  have hE' : ∀ p ∈ evs', ∀ q ∈ evs', p.2 < q.1 := fun p hp q hq => hE p ((hmem p).1 hp) q ((hmem q).1 hq)
  cases hl : makeLightcurves sort dt evs' bands with
  | error e => rw [hl] at h; cases h
  | ok ls =>
    rw [hl] at h
    simp only at h
    cases hr : refsFromEvents sort dt evs' bands none with
    | error e => rw [hr] at h; cases h
    | ok rs =>
      rw [hr] at h
      simp only [Except.ok.injEq, Prod.mk.injEq] at h
      obtain ⟨rfl, rfl⟩ := h
      simp only [makeLightcurves, bind, Except.bind] at hl
      simp only [refsFromEvents, refBounds, bind, Except.bind, pure, Except.pure] at hr
      cases ho : observation evs' with
      | error e => rw [ho] at hl; cases hl
      | ok o =>
        rw [ho] at hl hr
        simp only at hl hr
        obtain ⟨t1, hrange, ho2⟩ := observation_spec evs' o ho
        have hrange' : IsRange (evs.map (·.1)) o.1 t1 := by
          have hp := hperm.map (·.1)
          exact ⟨hp.mem_iff.1 hrange.1, hp.mem_iff.1 hrange.2.1, fun x hx => hrange.2.2 x (hp.mem_iff.2 hx)⟩
        have hg := forall2_get (mapM_ok_forall2 _ _ _ hl)
        refine ⟨o.1, t1, hrange', hg.1.symm, fun i b x hb hx => ?_⟩
        obtain ⟨x', hx', hc⟩ := hg.2 i b hb
        rw [hx] at hx'; cases hx'
        obtain ⟨c1, c2⟩ := band_count sort evs' hE' o.1 o.2 dt hrange.1 hdt (fun e => b.1 ≤ e ∧ e ≤ b.2) x hc
        rw [ho2] at c1
        refine ⟨c1, fun k n hk => by rw [c2 k n hk, countIn_perm evs evs' hperm], fun cs r hrs hri hlt => ?_⟩
        subst hrs
        cases hen : energyRange evs' with
        | error e => rw [hen] at hr; cases hr
        | ok w =>
          rw [hen] at hr
          simp only at hr
          split_ifs at hr
          · split at hr <;> cases hr
          · generalize hm : bands.mapM (fun b => curveOf sort dt o.2 o.1
              ((evs'.filter fun p => decide (p.2 ≤ b.1 ∧ w.1 ≤ p.2)) ++ (evs'.filter fun p => decide (p.2 ≤ w.2 ∧ b.2 ≤ p.2)))) = mm at hr
            cases mm with
            | error e => cases hr
            | ok cs' =>
              simp only [Except.ok.injEq, Refs.each.injEq] at hr
              subst hr
              obtain ⟨r', hr', hcr⟩ := (forall2_get (mapM_ok_forall2 _ _ _ hm)).2 i b hb
              rw [hri] at hr'; cases hr'
              obtain ⟨d1, d2⟩ := ref_count sort evs' hE' o.1 o.2 dt hrange.1 hdt w b (energyRange_spec evs' w hen) hlt r hcr
              rw [ho2] at d1
              exact ⟨by rw [d1, c1], fun k n hk => by rw [d2 k n hk, countIn_perm evs evs' hperm]⟩

/-- Events that meet the hypotheses, out of order, with their light curves and reference bands. -/
example : (prepare (stableSort fun (x : ℚ) => x) (stableSort fun (x : ℚ × ℚ) => x.1)
    (.events [(100, 2), (101, 3), (100, 4), (103, 3), (102, 9)]) (some 1) (some [(1, 3), (5, 10)]) .absent).map
      (fun p => (p.1.map (·.counts), match p.2 with | .each cs => cs.map (·.counts) | .one _ => [])) =
    .ok ([[1, 1, 0], [0, 0, 1]], [[1, 1, 1], [2, 1, 0]]) := by decide +kernel

/-- **C144 (negation).** The energies are binned together with the times: of three events at the times 0, 5 and 10, with energies 6, 6 and 7, the light curve of the band from 5 to 8 has five counts in its ten bins (the event at the end is not counted), because two of energies 6 and one of 7 fall in the bins 6 and 7. -/
theorem energies_binned_as_times :
    (prepare (stableSort fun (x : ℚ) => x) (stableSort fun (x : ℚ × ℚ) => x.1) (.events [(0, 6), (5, 6), (10, 7)]) (some 1) (some [(5, 8)]) .absent).map
      (fun p => p.1.map (·.counts)) = .ok [[1, 0, 0, 0, 0, 1, 2, 1, 0, 0]] := by decide +kernel

/-- **C144 (negation).** An event whose energy is exactly an edge of the band is in the band and in its reference band, so that the band is correlated with itself. -/
theorem edge_in_both :
    (prepare (stableSort fun (x : ℚ) => x) (stableSort fun (x : ℚ × ℚ) => x.1) (.events [(100, 3), (101, 5), (102, 1)]) (some 1) (some [(3, 5)]) .absent).map
      (fun p => (p.1.map (·.counts), match p.2 with | .each cs => cs.map (·.counts) | .one _ => [])) =
    .ok ([[1, 1]], [[1, 1]]) := by decide +kernel

/-- **C144 (negation).** For events, the reference band that the user gives is ignored: whatever the two bounds, the light curves and reference bands are those of a call without them. -/
theorem bounds_ignored (sort : KeySort (fun (x : K) => x)) (byTime : KeySort (fun (x : K × K) => x.1)) (evs : List (K × K)) (dt : Option K)
    (bands : Option (List (K × K))) (a b : K) :
    prepare sort byTime (.events evs) dt bands (.bounds a b) = prepare sort byTime (.events evs) dt bands .absent := by
  simp only [prepare, givenRefs, bind, Except.bind]

/-- **C144.** One reference light curve serves for all bands exactly if the reference range is entirely at or below all bands, or entirely at or above all of them; otherwise each band has its own, without its events. -/
theorem reference_kind (sort : KeySort (fun (x : K) => x)) (dt : K) (evs bands : List (K × K)) (bounds : Option (K × K)) (r : K × K) (refs : Refs K)
    (hr : refBounds evs bounds = .ok r) (h : refsFromEvents sort dt evs bands bounds = .ok refs) :
    ((∃ c, refs = .one c) ↔ (∀ b ∈ bands, r.2 ≤ b.1) ∨ (∀ b ∈ bands, b.2 ≤ r.1)) ∧ ∀ cs, refs = .each cs → cs.length = bands.length := by
  have ha : apart r bands = true ↔ (∀ b ∈ bands, r.2 ≤ b.1) ∨ (∀ b ∈ bands, b.2 ≤ r.1) := by
    simp [apart, List.all_eq_true]
  rw [← ha]
  unfold refsFromEvents at h
  simp only [hr, bind, Except.bind] at h
  rcases ho : observation evs with e | o
  · simp only [ho] at h; cases h
  · simp only [ho] at h
    by_cases hc : apart r bands = true
    · rw [if_pos hc] at h
      rcases hcv : curveOf sort dt o.2 o.1 (evs.filter fun p => decide (r.1 ≤ p.2 ∧ p.2 ≤ r.2)) with e | c
      · simp only [hcv] at h; cases h
      · simp only [hcv, pure, Except.pure] at h
        cases h
        exact ⟨⟨fun _ => hc, fun _ => ⟨c, rfl⟩⟩, fun cs hcs => by cases hcs⟩
    · rw [if_neg hc] at h
      split at h
      · cases h
      · rename_i cs hcs
        cases h
        refine ⟨⟨fun hx => (by obtain ⟨c, hc'⟩ := hx; cases hc'), fun h => absurd h hc⟩, fun cs' hcs' => ?_⟩
        cases hcs'
        exact (Stingray.Gti.mapM_ok_forall2 _ _ _ hcs).length_eq.symm

example : (refsFromEvents (stableSort fun (x : ℚ) => x) 1 [(0, 3), (1, 5), (2, 3)] [(5, 8), (8, 9)] none).map
    (fun r => match r with | .each _ => [] | .one c => c.counts) = .ok [1, 1] := by decide +kernel

/-- **C144.** Unusable arguments: events without a time resolution raise `ValueError`, as does an empty list of bands; a list of reference light curves of another length than that of the light curves raises `AssertionError`. -/
theorem covariance_errors (sort : KeySort (fun (x : K) => x)) (byTime : KeySort (fun (x : K × K) => x.1)) (p : K × K) (evs : List (K × K))
    (l : Curve K) (lcs cs : List (Curve K)) (b : K × K) (bands : List (K × K)) (dt : Option K) (ref : RefArg K) :
    prepare sort byTime (.events (p :: evs)) none (some (b :: bands)) ref = .error .valueError ∧
    prepare sort byTime (.events (p :: evs)) (some 0) (some (b :: bands)) ref = .error .valueError ∧
    prepare sort byTime (.events (p :: evs)) dt (some []) ref = .error .valueError ∧
    prepare sort byTime (.curves (l :: lcs)) dt (some []) ref = .error .valueError ∧
    prepare sort byTime (.curves (l :: lcs)) dt none .bad = .error .valueError ∧
    (cs.length ≠ (l :: lcs).length → prepare sort byTime (.curves (l :: lcs)) dt none (.curves cs) = .error .assertionError) := by
  refine ⟨?_, ?_, ?_, ?_, ?_, fun h => ?_⟩
  · simp [prepare, eventBands, bind, Except.bind, pure, Except.pure]
  · simp [prepare, eventBands, bind, Except.bind, pure, Except.pure]
  · simp [prepare, eventBands, bind, Except.bind, pure, Except.pure]
  · simp [prepare, curveBands, bind, Except.bind, pure, Except.pure]
  · simp [prepare, curveBands, givenRefs, bind, Except.bind, pure, Except.pure]
  · simp only [prepare, curveBands, givenRefs, bind, Except.bind, pure, Except.pure, if_neg h]
    simp

/-! ## C145: the bands by default -/

theorem unique_mem (l : List K) (x : K) : x ∈ unique l ↔ x ∈ l := by
  unfold unique
  rw [List.mem_dedup, (List.perm_insertionSort _ l).mem_iff]

theorem unique_sorted (l : List K) : (unique l).Pairwise (· < ·) := by
  unfold unique
  have h1 : (l.insertionSort (· ≤ ·)).Pairwise (· ≤ ·) := List.pairwise_insertionSort _ l
  have h2 := h1.sublist (List.dedup_sublist (l.insertionSort (· ≤ ·)))
  have h3 : ((l.insertionSort (· ≤ ·)).dedup).Nodup := List.nodup_dedup _
  exact (h2.and h3).imp (fun ⟨a, b⟩ => lt_of_le_of_ne a b)

/-- The half-width of the `i`-th band by default: half the distance to the next energy, or from the one before for the last one. -/
def halfWidth (u : List K) (i : Nat) : K :=
  if i + 1 < u.length then (u.getD (i + 1) 0 - u.getD i 0) / 2 else (u.getD i 0 - u.getD (i - 1) 0) / 2

theorem createBands_spec (evs bs : List (K × K)) (h : createBands evs = .ok bs) :
    2 ≤ (unique (evs.map (·.2))).length ∧ bs.length = (unique (evs.map (·.2))).length ∧
    ∀ (i : Nat) (b : K × K), bs[i]? = some b → b = ((unique (evs.map (·.2))).getD i 0 - halfWidth (unique (evs.map (·.2))) i,
      (unique (evs.map (·.2))).getD i 0 + halfWidth (unique (evs.map (·.2))) i) := by
  unfold createBands at h
  set u := unique (evs.map (·.2)) with hu
  simp only at h
  set d := List.zipWith (fun a b => b - a) u u.tail with hd
  have hdl : d.length = u.length - 1 := by simp [hd]
  cases hg : d.getLast? with
  | none => rw [hg] at h; cases h
  | some dl =>
    cases hul : u.getLast? with
    | none => rw [hg, hul] at h; cases h
    | some ul =>
      rw [hg, hul] at h
      simp only [Except.ok.injEq] at h
      have h2 : 2 ≤ u.length := by
        by_contra hc
        have : d = [] := by apply List.eq_nil_of_length_eq_zero; omega
        rw [this] at hg; cases hg
      have hdi : ∀ i, i + 1 < u.length → d[i]? = some (u.getD (i + 1) 0 - u.getD i 0) := by
        intro i hi
        have e1 : u[i]? = some u[i] := List.getElem?_eq_getElem (by omega)
        have e2 : u[i + 1]? = some u[i + 1] := List.getElem?_eq_getElem hi
        simp only [hd, List.getElem?_zipWith, List.getElem?_tail, e1, e2, List.getD_eq_getElem?_getD, Option.getD_some]
      have hdlv : dl = u.getD (u.length - 1) 0 - u.getD (u.length - 2) 0 := by
        have := hdi (u.length - 2) (by omega)
        rw [List.getLast?_eq_getElem?, hdl, show u.length - 1 - 1 = u.length - 2 by omega, this] at hg
        cases hg
        rw [show u.length - 2 + 1 = u.length - 1 by omega]
      have hulv : ul = u.getD (u.length - 1) 0 := by
        rw [List.getLast?_eq_getElem?] at hul
        rw [List.getD_eq_getElem?_getD, hul]; rfl
      refine ⟨h2, by rw [← h]; simp [hdl]; omega, fun i b hb => ?_⟩
      rw [← h] at hb
      have hzl : (List.zipWith (fun e w => (e - 1 / 2 * w, e + 1 / 2 * w)) u d).length = u.length - 1 := by simp [hdl]
      by_cases hi : i + 1 < u.length
      · rw [List.getElem?_append_left (by omega), List.getElem?_zipWith, hdi i hi, List.getElem?_eq_getElem (by omega : i < u.length)] at hb
        simp only [Option.some.injEq] at hb
        rw [← hb]
        have e1 : u.getD i 0 = u[i] := by simp [List.getD_eq_getElem?_getD, List.getElem?_eq_getElem (by omega : i < u.length)]
        unfold halfWidth
        rw [if_pos hi, ← e1]
        ext <;> simp only <;> ring
      · rw [List.getElem?_append_right (by omega), hzl] at hb
        have hi' : i = u.length - 1 := by
          by_contra hc
          rw [List.getElem?_eq_none (by simp; omega)] at hb; cases hb
        subst hi'
        simp only [Nat.sub_self, List.getElem?_cons_zero, Option.some.injEq] at hb
        rw [← hb]
        unfold halfWidth
        rw [if_neg hi, hulv, hdlv, show u.length - 1 - 1 = u.length - 2 by omega]
        ext <;> simp only <;> ring

/-- **C145.** Without bands, a covariance spectrum of events has one band for each different energy, and the energy is in the middle of its band: every event is in some band. -/
theorem default_bands (evs bs : List (K × K)) (h : createBands evs = .ok bs) :
    bs.length = ((evs.map (·.2)).dedup).length ∧
    (∀ p ∈ evs, ∃ b ∈ bs, b.1 < p.2 ∧ p.2 < b.2 ∧ b.1 + b.2 = 2 * p.2) ∧
    ∀ b ∈ bs, ∃ p ∈ evs, b.1 < p.2 ∧ p.2 < b.2 ∧ b.1 + b.2 = 2 * p.2 := by
  obtain ⟨h2, hlen, hb⟩ := createBands_spec evs bs h
  have hs := unique_sorted (evs.map (·.2))
  have hm := fun x => unique_mem (evs.map (·.2)) x
  have hul : (unique (evs.map (·.2))).length = ((evs.map (·.2)).dedup).length := by
    unfold unique
    exact ((List.perm_insertionSort (· ≤ ·) (evs.map (·.2))).dedup).length_eq
  set u := unique (evs.map (·.2))
  have hget : ∀ (i : Nat) (hi : i < u.length), u.getD i 0 = u[i] := fun i hi => by
    simp [List.getD_eq_getElem?_getD, List.getElem?_eq_getElem hi]
  have hlt : ∀ i j, i < j → j < u.length → u.getD i 0 < u.getD j 0 := by
    intro i j hij hj
    rw [hget i (by omega), hget j hj]
    exact List.pairwise_iff_getElem.1 hs i j (by omega) hj hij
  have hw : ∀ i, i < u.length → 0 < halfWidth u i := by
    intro i hi
    unfold halfWidth
    split_ifs with h'
    · have := hlt i (i + 1) (by omega) h'; linarith
    · have := hlt (i - 1) i (by omega) hi; linarith
  refine ⟨by rw [hlen, hul], fun p hp => ?_, fun b hbm => ?_⟩
  · obtain ⟨i, hi, hiu⟩ := List.getElem_of_mem ((hm p.2).2 (List.mem_map_of_mem hp))
    have hib : i < bs.length := by omega
    have he := hb i bs[i] (List.getElem?_eq_getElem hib)
    rw [hget i hi, hiu] at he
    have := hw i hi
    refine ⟨bs[i], List.getElem_mem hib, ?_⟩
    rw [he]
    refine ⟨?_, ?_, ?_⟩ <;> simp only <;> linarith
  · obtain ⟨i, hi, rfl⟩ := List.getElem_of_mem hbm
    have he := hb i bs[i] (List.getElem?_eq_getElem hi)
    have hiu : i < u.length := by omega
    rw [hget i hiu] at he
    obtain ⟨p, hp, hpe⟩ := List.mem_map.1 ((hm u[i]).1 (List.getElem_mem hiu))
    have := hw i hiu
    refine ⟨p, hp, ?_⟩
    rw [he, hpe]
    refine ⟨?_, ?_, ?_⟩ <;> simp only <;> linarith

/-- **C145.** With a single energy, or no events, there are no bands: `IndexError`. -/
theorem default_bands_single (evs : List (K × K)) (e : K) (he : ∀ p ∈ evs, p.2 = e) : createBands evs = .error .indexError := by
  cases h : createBands evs with
  | ok bs =>
    exfalso
    obtain ⟨h2, _, _⟩ := createBands_spec evs bs h
    have hs := unique_sorted (evs.map (·.2))
    have hm : ∀ x ∈ unique (evs.map (·.2)), x = e := fun x hx => by
      obtain ⟨p, hp, rfl⟩ := List.mem_map.1 ((unique_mem _ x).1 hx)
      exact he p hp
    have := List.pairwise_iff_getElem.1 hs 0 1 (by omega) (by omega) (by omega)
    rw [hm _ (List.getElem_mem _), hm _ (List.getElem_mem _)] at this
    exact lt_irrefl _ this
  | error x =>
    unfold createBands at h
    simp only at h
    split at h
    · cases h
    · cases h; rfl

/-- The bands of events with three energies; and a single energy. -/
example : createBands [(0, 3), (1, 1), (2, 3), (3, (4 : ℚ))] = .ok [(0, 2), (5 / 2, 7 / 2), (7 / 2, 9 / 2)] ∧
    createBands [(0, 3), (1, (3 : ℚ))] = .error .indexError := by decide +kernel

/-- **C145 (partial).** If every difference between neighbouring energies is less than twice the one before, each event is in exactly one band. Missing: other energies, see the negation. -/
theorem default_bands_disjoint_partial (evs bs : List (K × K)) (h : createBands evs = .ok bs)
    (hd : ∀ i, i + 2 < (unique (evs.map (·.2))).length → (unique (evs.map (·.2))).getD (i + 2) 0 - (unique (evs.map (·.2))).getD (i + 1) 0 <
      2 * ((unique (evs.map (·.2))).getD (i + 1) 0 - (unique (evs.map (·.2))).getD i 0)) (p : K × K) (hp : p ∈ evs) (i j : Nat) (b c : K × K)
    (hb : bs[i]? = some b) (hc : bs[j]? = some c) (hpb : b.1 ≤ p.2 ∧ p.2 ≤ b.2) (hpc : c.1 ≤ p.2 ∧ p.2 ≤ c.2) : i = j := by
  obtain ⟨h2, hlen, hbs⟩ := createBands_spec evs bs h
  have hs := unique_sorted (evs.map (·.2))
  have hm := (unique_mem (evs.map (·.2)) p.2).2 (List.mem_map_of_mem hp)
  set u := unique (evs.map (·.2))
  have hget : ∀ (i : Nat) (hi : i < u.length), u.getD i 0 = u[i] := fun i hi => by
    simp [List.getD_eq_getElem?_getD, List.getElem?_eq_getElem hi]
  have hlt : ∀ i j, i < j → j < u.length → u.getD i 0 < u.getD j 0 := by
    intro i j hij hj
    rw [hget i (by omega), hget j hj]
    exact List.pairwise_iff_getElem.1 hs i j (by omega) hj hij
  have hle : ∀ i j, i ≤ j → j < u.length → u.getD i 0 ≤ u.getD j 0 := by
    intro i j hij hj
    rcases hij.lt_or_eq with h | rfl
    · exact (hlt i j h hj).le
    · exact le_rfl
  obtain ⟨k, hk, hkp⟩ := List.getElem_of_mem hm
  have hkp' : u.getD k 0 = p.2 := by rw [hget k hk, hkp]
  -- a band that contains the energy `k` is the `k`-th
  have key : ∀ (i : Nat) (b : K × K), bs[i]? = some b → b.1 ≤ p.2 → p.2 ≤ b.2 → i = k := by
    intro i b hb h1 h3
    have hi : i < u.length := by
      have := (List.getElem?_eq_some_iff.1 hb).1; omega
    have he := hbs i b hb
    rw [he] at h1 h3
    simp only at h1 h3
    rcases lt_trichotomy i k with hik | hik | hik
    · -- the energy is above the band
      exfalso
      unfold halfWidth at h3
      rw [if_pos (by omega)] at h3
      have e1 := hle (i + 1) k (by omega) hk
      have e2 := hlt i (i + 1) (by omega) (by omega)
      rw [hkp'] at e1
      linarith
    · exact hik
    · exfalso
      have e1 := hle k (i - 1) (by omega) (by omega)
      rw [hkp'] at e1
      have e2 := hlt (i - 1) i (by omega) hi
      unfold halfWidth at h1
      split_ifs at h1 with hc
      · have e3 := hd (i - 1) (by omega)
        rw [show i - 1 + 2 = i + 1 by omega, show i - 1 + 1 = i by omega] at e3
        linarith
      · linarith
  rw [key i b hb hpb.1 hpb.2, key j c hc hpc.1 hpc.2]

/-- **C145 (negation).** With unequally spaced energies an event can be in two bands: of the energies 1, 2 and 10, the energy 1 is in its own band and in that of the energy 2, which reaches from -2 to 6. -/
theorem default_bands_overlap : createBands [(0, 1), (1, 2), (2, (10 : ℚ))] = .ok [(1 / 2, 3 / 2), (-2, 6), (6, 14)] ∧
    ((1 / 2 : ℚ) ≤ 1 ∧ (1 : ℚ) ≤ 3 / 2) ∧ ((-2 : ℚ) ≤ 1 ∧ (1 : ℚ) ≤ 6) := by
  refine ⟨by decide +kernel, by norm_num, by norm_num⟩

end Stingray.Covariance

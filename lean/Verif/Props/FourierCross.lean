import Verif.Props.FourierAverage

/-!
Averaged cross spectra: auxiliary spectra (C42), quick and full versions (C43), symmetries (C44), coherence (C47).
-/

set_option linter.unusedSectionVars false

namespace Stingray.Fourier

open Stingray.Spec

variable {K : Type} [Field K] [LinearOrder K] [IsStrictOrderedRing K]

/-- Fourier index of the `i`-th returned frequency -/
def freqIdx (fullspec : Bool) (i : Nat) : Nat := if fullspec then i else i + 1

/-- number of returned frequencies -/
def nFreq (fullspec : Bool) (n : Nat) : Nat := if fullspec then n else nPositive n

theorem cutTo_getD {α : Type} (fs : Bool) (n : Nat) (l : List α) (h : l.length = n) (d : α) (i : Nat)
    (hi : i < nFreq fs n) : (cutTo fs (positiveFftBins n false) l).getD i d = l.getD (freqIdx fs i) d := by
  cases fs with
  | true => simp [cutTo, freqIdx]
  | false => simpa [cutTo, freqIdx] using slice_positive_getD n l h d i hi

theorem freqIdx_lt (fs : Bool) (n i : Nat) (hi : i < nFreq fs n) : freqIdx fs i < n := by
  cases fs
  · simp only [nFreq, nPositive, freqIdx, Bool.false_eq_true, if_false] at *; omega
  · simpa [nFreq, freqIdx] using hi

theorem pairPow1_getD (fft : List K → List (Cx K)) (hfft : ∀ l, (fft l).length = l.length) (n : Nat) (fs : Bool)
    (s : Segment K × Segment K) (hs : s.1.data.1.length = n) (i : Nat) (hi : i < nFreq fs n) :
    (pairPow1 fft n fs s).getD i 0 = fourierPower fft (fluxes s.1) (freqIdx fs i) := by
  unfold pairPow1
  rw [cutTo_getD fs n _ (by simp [hfft, hs]) 0 i hi, ← data_fluxes]
  have hlt : freqIdx fs i < (fft s.1.data.1).length := by rw [hfft, hs]; exact freqIdx_lt fs n i hi
  simp [fourierPower, List.getD_eq_getElem?_getD, hlt]
  ring

theorem pairPow2_getD (fft : List K → List (Cx K)) (hfft : ∀ l, (fft l).length = l.length) (n : Nat) (fs : Bool)
    (s : Segment K × Segment K) (hs : s.2.data.1.length = n) (i : Nat) (hi : i < nFreq fs n) :
    (pairPow2 fft n fs s).getD i 0 = fourierPower fft (fluxes s.2) (freqIdx fs i) := by
  unfold pairPow2
  rw [cutTo_getD fs n _ (by simp [hfft, hs]) 0 i hi, ← data_fluxes]
  have hlt : freqIdx fs i < (fft s.2.data.1).length := by rw [hfft, hs]; exact freqIdx_lt fs n i hi
  simp [fourierPower, List.getD_eq_getElem?_getD, hlt]
  ring

theorem pairCross_getD (fft : List K → List (Cx K)) (hfft : ∀ l, (fft l).length = l.length) (n : Nat) (fs : Bool)
    (s : Segment K × Segment K) (hs1 : s.1.data.1.length = n) (hs2 : s.2.data.1.length = n) (i : Nat)
    (hi : i < nFreq fs n) :
    (pairCross fft n fs s).getD i 0 = crossPower fft (fluxes s.1) (fluxes s.2) (freqIdx fs i) := by
  unfold pairCross
  rw [cutTo_getD fs n _ (by simp [crossProduct, hfft, hs1, hs2]) 0 i hi, ← data_fluxes, ← data_fluxes]
  have hlt1 : freqIdx fs i < (fft s.1.data.1).length := by rw [hfft, hs1]; exact freqIdx_lt fs n i hi
  have hlt2 : freqIdx fs i < (fft s.2.data.1).length := by rw [hfft, hs2]; exact freqIdx_lt fs n i hi
  simp only [crossPower, crossProduct, List.getD_eq_getElem?_getD, List.getElem?_zipWith,
    List.getElem?_eq_getElem hlt1, List.getElem?_eq_getElem hlt2, Option.getD_some]
  apply Cx.ext' <;> simp <;> ring

theorem columnSum_map_mean {σ : Type} (L : Nat) (us : List σ) (g : σ → List K) (v : σ → Nat → K) (N : Nat)
    (hN : N = us.length) (h : ∀ s ∈ us, ∀ i < L, (g s).getD i 0 = v s i) :
    (columnSum L (us.map g)).map (· / (N : K)) = (List.range L).map (fun i => mean (us.map fun s => v s i)) := by
  unfold columnSum mean
  rw [List.map_map]
  apply List.map_congr_left
  intro i hi
  rw [List.mem_range] at hi
  simp only [Function.comp, List.length_map, List.map_map, hN]
  congr 2
  apply List.map_congr_left
  intro s hs
  exact h s hs i hi

theorem columnSum_map_meanCx {σ : Type} (L : Nat) (us : List σ) (g : σ → List (Cx K)) (v : σ → Nat → Cx K) (N : Nat)
    (hN : N = us.length) (h : ∀ s ∈ us, ∀ i < L, (g s).getD i 0 = v s i) :
    (columnSum L (us.map g)).map (Cx.both (· / (N : K))) =
    (List.range L).map (fun i => meanCx (us.map fun s => v s i)) := by
  unfold columnSum
  rw [List.map_map]
  apply List.map_congr_left
  intro i hi
  rw [List.mem_range] at hi
  have e : (us.map g).map (fun l => l.getD i 0) = us.map fun s => v s i := by
    rw [List.map_map]
    apply List.map_congr_left
    intro s hs
    exact h s hs i hi
  simp only [Function.comp, e]
  apply Cx.ext'
  · simp only [Cx.both_re, meanCx, mean, List.length_map, hN, Cx.sum_re]
  · simp only [Cx.both_im, meanCx, mean, List.length_map, hN, Cx.sum_im]

/-- the pairs of segments that are averaged -/
def usablePair (s : Segment K × Segment K) : Bool := usable s.1 && usable s.2

theorem usablePair_eq (s : Segment K × Segment K) : usablePair s = pairUsed s := by
  unfold usablePair pairUsed
  rw [usable_eq, usable_eq]
  cases s.1.skipped <;> cases s.2.skipped <;> rfl

/-- The squares of the mean errors of the pairs in which both segments have errors. -/
def pairErrors (us : List (Segment K × Segment K)) : List (K × K) :=
  us.filterMap fun s => (squaredMeanError s.1).bind fun a => (squaredMeanError s.2).map fun b => (a, b)

theorem pairErrors_eq (us : List (Segment K × Segment K)) : us.filterMap pairVar = pairErrors us := by
  unfold pairErrors
  apply List.filterMap_congr
  intro s _
  rcases s with ⟨s1, s2⟩
  cases s1 <;> cases s2 <;> rfl

/-- Everything the function returns, frequency by frequency. -/
structure CsResult (fft : List K → List (Cx K)) (sqrt : K → K) (dt : K) (o : CsOpts) (n : Nat)
    (us : List (Segment K × Segment K)) (t : CsTable K) (aux : CsAux K) : Prop where
  hm : t.m = us.length
  hn : t.n = n
  freq : t.freq = cutTo o.fullspec (positiveFftBins n false) (fftfreq n dt)
  unnormPower : t.unnormPower = (List.range (nFreq o.fullspec n)).map (fun i =>
    meanCx (us.map fun s => crossPower fft (fluxes s.1) (fluxes s.2) (freqIdx o.fullspec i)))
  unnormPds1 : aux.unnormPds1 = (List.range (nFreq o.fullspec n)).map (fun i =>
    mean (us.map fun s => fourierPower fft (fluxes s.1) (freqIdx o.fullspec i)))
  unnormPds2 : aux.unnormPds2 = (List.range (nFreq o.fullspec n)).map (fun i =>
    mean (us.map fun s => fourierPower fft (fluxes s.2) (freqIdx o.fullspec i)))
  nphots1 : t.nphots1 = mean (us.map fun s => (fluxes s.1).sum)
  nphots2 : t.nphots2 = mean (us.map fun s => (fluxes s.2).sum)
  nphots : t.nphots = sqrt (t.nphots1 * t.nphots2)
  mean1 : t.mean1 = t.nphots1 / n
  mean2 : t.mean2 = t.nphots2 / n
  hmean : t.mean = t.nphots / n
  variance : t.variance = (channelVariance us.length ((pairErrors us).map Prod.fst)).bind fun a =>
    (channelVariance us.length ((pairErrors us).map Prod.snd)).map fun b => sqrt (a * b)
  power : o.useCommonMean = true →
    normalizeCx sqrt o.norm dt n t.mean t.nphots t.variance 0 o.powerType t.unnormPower = .ok t.power
  pds1 : o.useCommonMean = true →
    normalizeRe o.norm dt n t.mean1 t.nphots1 (channelVariance us.length ((pairErrors us).map Prod.fst)) 0 o.powerType aux.unnormPds1 = .ok aux.pds1
  pds2 : o.useCommonMean = true →
    normalizeRe o.norm dt n t.mean2 t.nphots2 (channelVariance us.length ((pairErrors us).map Prod.snd)) 0 o.powerType aux.unnormPds2 = .ok aux.pds2
  power' : o.useCommonMean = false → ∃ cs : List (List (Cx K)),
    List.Forall₂ (fun s c => pairNormed fft sqrt dt o n s = .ok c) us cs ∧
    t.power = (List.range (nFreq o.fullspec n)).map (fun i => meanCx (cs.map fun c => c.getD i 0))
  pds1' : o.useCommonMean = false → ∃ ps : List (List K),
    List.Forall₂ (fun s c => pairNormed1 fft dt o n s = .ok c) us ps ∧
    aux.pds1 = (List.range (nFreq o.fullspec n)).map (fun i => (ps.map fun c => c.getD i 0).sum)
  pds2' : o.useCommonMean = false → ∃ ps : List (List K),
    List.Forall₂ (fun s c => pairNormed2 fft dt o n s = .ok c) us ps ∧
    aux.pds2 = (List.range (nFreq o.fullspec n)).map (fun i => (ps.map fun c => c.getD i 0).sum)

theorem CsResult.variance_none {fft : List K → List (Cx K)} {sqrt : K → K} {dt : K} {o : CsOpts} {n : Nat}
    {us : List (Segment K × Segment K)} {t : CsTable K} {aux : CsAux K} (hR : CsResult fft sqrt dt o n us t aux)
    (h : ∀ s ∈ us, pairVar s = none) : t.variance = none := by
  rw [hR.variance, ← pairErrors_eq, show us.filterMap pairVar = [] from List.filterMap_eq_nil_iff.2 h]
  rfl

theorem NumOf.none_of {o : Option K} {l : List K} (h : NumOf o l) (hl : l = []) : o = none := h.1 hl

theorem avgCs_result (fft : List K → List (Cx K)) (hfft : ∀ l, (fft l).length = l.length) (sqrt : K → K)
    (dt : K) (o : CsOpts) (n : Nat) (segs us : List (Segment K × Segment K))
    (hus : us = segs.filter usablePair)
    (hlen : ∀ s ∈ us, (fluxes s.1).length = n ∧ (fluxes s.2).length = n) (r : Option (CsTable K × CsAux K))
    (h : avgCs fft sqrt dt o segs = .ok r) :
    (us = [] → r = none) ∧
    (us ≠ [] → ∃ t aux, r = some (t, aux) ∧ CsResult fft sqrt dt o n us t aux) := by
  have hfil : segs.filter pairUsed = us := by
    rw [hus]
    apply List.filter_congr
    intro s _
    exact (usablePair_eq s).symm
  have hlen' : ∀ s ∈ us, s.1.data.1.length = n ∧ s.2.data.1.length = n := by
    intro s hs; rw [data_fluxes, data_fluxes]; exact hlen s hs
  unfold avgCs at h
  cases hf : segs.foldlM (csStep fft sqrt dt o) { sumPh1 := 0, sumPh2 := 0 } with
  | error e => simp [hf, bind, Except.bind] at h
  | ok acc =>
    simp only [hf, bind, Except.bind] at h
    obtain ⟨cs, p1, p2, hI⟩ := (cs_foldlM hfft segs [] _ [] [] [] csInv_init (by
      intro s hs hu
      apply hlen'
      rw [← hfil, List.mem_filter]
      exact ⟨hs, hu⟩)).1 acc hf
    rw [List.nil_append, hfil] at hI
    constructor
    · intro he
      have h1 := hI.unnorm.1 (by rw [he]; rfl)
      have h2 := hI.cross.1 (by have := hI.hcs; rw [he] at this; cases this; rfl)
      unfold csFinish at h
      rw [h1, h2] at h
      cases h
      rfl
    · intro hne
      have hcs : cs ≠ [] := by rintro rfl; have := hI.hcs; cases this; exact hne rfl
      have hp1 : p1 ≠ [] := by rintro rfl; have := hI.hp1; cases this; exact hne rfl
      have hp2 : p2 ≠ [] := by rintro rfl; have := hI.hp2; cases this; exact hne rfl
      have h0 := hI.cross.2 hcs
      have h1 := hI.unnorm.2 (by simpa using hne)
      have h2 := hI.unnormPds1.2 (by simpa using hne)
      have h3 := hI.unnormPds2.2 (by simpa using hne)
      have h4 := hI.pds1.2 hp1
      have h5 := hI.pds2.2 hp2
      have hnb := hI.nBin hne
      have hL : nCut o.fullspec n = nFreq o.fullspec n := rfl
      have e1 := columnSum_map_meanCx (nCut o.fullspec n) us (pairCross fft n o.fullspec)
        (fun s i => crossPower fft (fluxes s.1) (fluxes s.2) (freqIdx o.fullspec i)) acc.nAve hI.nAve
        (fun s hs i hi => pairCross_getD fft hfft n o.fullspec s (hlen' s hs).1 (hlen' s hs).2 i hi)
      have e2 := columnSum_map_mean (nCut o.fullspec n) us (pairPow1 fft n o.fullspec)
        (fun s i => fourierPower fft (fluxes s.1) (freqIdx o.fullspec i)) acc.nAve hI.nAve
        (fun s hs i hi => pairPow1_getD fft hfft n o.fullspec s (hlen' s hs).1 i hi)
      have e3 := columnSum_map_mean (nCut o.fullspec n) us (pairPow2 fft n o.fullspec)
        (fun s i => fourierPower fft (fluxes s.2) (freqIdx o.fullspec i)) acc.nAve hI.nAve
        (fun s hs i hi => pairPow2_getD fft hfft n o.fullspec s (hlen' s hs).2 i hi)
      have e4 : acc.sumPh1 / (acc.nAve : K) = mean (us.map fun s => (fluxes s.1).sum) := by
        rw [hI.nAve, hI.sumPh1, mean, List.length_map]
        simp only [data_fluxes]
      have e5 : acc.sumPh2 / (acc.nAve : K) = mean (us.map fun s => (fluxes s.2).sum) := by
        rw [hI.nAve, hI.sumPh2, mean, List.length_map]
        simp only [data_fluxes]
      have efreq : cutTo o.fullspec acc.fgt0 acc.freq =
          cutTo o.fullspec (positiveFftBins n false) (fftfreq n dt) := by
        rw [hI.freq hne, hI.fgt0 hne]
      have hv1 : acc.var1.map (· / (acc.nAve : K)) = channelVariance us.length ((pairErrors us).map Prod.fst) := by
        rw [hI.nAve, ← pairErrors_eq]
        exact numOf_variance hI.var1 us.length
      have hv2 : acc.var2.map (· / (acc.nAve : K)) = channelVariance us.length ((pairErrors us).map Prod.snd) := by
        rw [hI.nAve, ← pairErrors_eq]
        exact numOf_variance hI.var2 us.length
      have hv : (match acc.var1.map (· / (acc.nAve : K)), acc.var2.map (· / (acc.nAve : K)) with
          | some a, some b => some (sqrt (a * b)) | _, _ => none) =
          (channelVariance us.length ((pairErrors us).map Prod.fst)).bind fun a =>
            (channelVariance us.length ((pairErrors us).map Prod.snd)).map fun b => sqrt (a * b) := by
        rw [hv1, hv2]
        cases channelVariance us.length ((pairErrors us).map Prod.fst) <;>
          cases channelVariance us.length ((pairErrors us).map Prod.snd) <;> rfl
      unfold csFinish at h
      simp only [h0, h1, h2, h3, h4, h5, hnb, efreq] at h
      cases hu : o.useCommonMean with
      | true =>
        simp only [hu, if_true, bind, Except.bind] at h
        split at h
        · cases h
        rename_i c hc
        split at h
        · cases h
        rename_i c' hc'
        split at h
        · cases h
        rename_i q1 hq1
        split at h
        · cases h
        rename_i q2 hq2
        cases h
        refine ⟨_, _, rfl, ?_⟩
        refine ⟨hI.nAve, rfl, rfl, e1, e2, e3, e4, e5, rfl, rfl, rfl, rfl, ?_, ?_, ?_, ?_, ?_, ?_, ?_⟩
        · exact hv
        · intro _; exact hc
        · intro _; rw [← hv1]; exact hq1
        · intro _; rw [← hv2]; exact hq2
        all_goals
          intro hc
          rw [hu] at hc
          cases hc
      | false =>
        simp only [hu, Bool.false_eq_true, if_false] at h
        cases h
        refine ⟨_, _, rfl, ?_⟩
        refine ⟨hI.nAve, rfl, rfl, e1, e2, e3, e4, e5, rfl, rfl, rfl, rfl, ?_, ?_, ?_, ?_, ?_, ?_, ?_⟩
        · exact hv
        · intro hc; rw [hu] at hc; cases hc
        · intro hc; rw [hu] at hc; cases hc
        · intro hc; rw [hu] at hc; cases hc
        · intro _
          refine ⟨cs, hI.hcs, ?_⟩
          have := columnSum_map_meanCx (nCut o.fullspec n) cs id (fun c i => c.getD i 0) acc.nAve
            (by rw [hI.nAve]; exact hI.hcs.length_eq) (fun s _ i _ => rfl)
          rw [List.map_id] at this
          exact this
        · intro _; exact ⟨p1, hI.hp1, rfl⟩
        · intro _; exact ⟨p2, hI.hp2, rfl⟩

/-- **C42 (partial).** With `use_common_mean=True` the auxiliary power spectra are the normalised averages of the power spectra of the two channels over the usable pairs.
What is missing from C42: `use_common_mean=False`, where it is false (below). -/
theorem aux_pds_average_partial (fft : List K → List (Cx K)) (hfft : ∀ l, (fft l).length = l.length) (sqrt : K → K)
    (dt : K) (o : CsOpts) (n : Nat) (segs us : List (Segment K × Segment K))
    (hus : us = segs.filter usablePair) (hne : us ≠ [])
    (hlen : ∀ s ∈ us, (fluxes s.1).length = n ∧ (fluxes s.2).length = n) (r : Option (CsTable K × CsAux K))
    (h : avgCs fft sqrt dt o segs = .ok r) (hu : o.useCommonMean = true) (hpt : o.powerType = .all) :
    ∃ t aux f1 f2, r = some (t, aux) ∧
      normalizer o.norm dt n t.mean1 t.nphots1 (channelVariance us.length ((pairErrors us).map Prod.fst)) 0 = .ok f1 ∧
      normalizer o.norm dt n t.mean2 t.nphots2 (channelVariance us.length ((pairErrors us).map Prod.snd)) 0 = .ok f2 ∧
      aux.pds1 = (List.range (nFreq o.fullspec n)).map (fun i =>
        f1 (mean (us.map fun s => fourierPower fft (fluxes s.1) (freqIdx o.fullspec i)))) ∧
      aux.pds2 = (List.range (nFreq o.fullspec n)).map (fun i =>
        f2 (mean (us.map fun s => fourierPower fft (fluxes s.2) (freqIdx o.fullspec i)))) := by
  obtain ⟨t, aux, rfl, hR⟩ := (avgCs_result fft hfft sqrt dt o n segs us hus hlen r h).2 hne
  have h1 := hR.pds1 hu
  have h2 := hR.pds2 hu
  generalize channelVariance us.length ((pairErrors us).map Prod.fst) = v1 at h1 ⊢
  generalize channelVariance us.length ((pairErrors us).map Prod.snd) = v2 at h2 ⊢
  rw [hpt] at h1 h2
  unfold normalizeRe at h1 h2
  cases hn1 : normalizer o.norm dt n t.mean1 t.nphots1 v1 0 with
  | error e => simp [hn1, bind, Except.bind] at h1
  | ok f1 =>
    cases hn2 : normalizer o.norm dt n t.mean2 t.nphots2 v2 0 with
    | error e => simp [hn2, bind, Except.bind] at h2
    | ok f2 =>
      simp only [hn1, hn2, bind, Except.bind, Except.ok.injEq] at h1 h2
      refine ⟨t, aux, f1, f2, rfl, hn1, hn2, ?_, ?_⟩
      · rw [← h1, hR.unnormPds1, List.map_map]; rfl
      · rw [← h2, hR.unnormPds2, List.map_map]; rfl

/-- **C42 (negation).** With `use_common_mean=False` the auxiliary power spectra are the sums, not the averages, of the normalised power spectra of the segments: they are too large by the number of
segments, at every frequency and for every input. -/
theorem aux_pds_are_sums (fft : List K → List (Cx K)) (hfft : ∀ l, (fft l).length = l.length) (sqrt : K → K)
    (dt : K) (o : CsOpts) (n : Nat) (segs us : List (Segment K × Segment K))
    (hus : us = segs.filter usablePair) (hne : us ≠ [])
    (hlen : ∀ s ∈ us, (fluxes s.1).length = n ∧ (fluxes s.2).length = n) (r : Option (CsTable K × CsAux K))
    (h : avgCs fft sqrt dt o segs = .ok r) (hu : o.useCommonMean = false) :
    ∃ t aux, r = some (t, aux) ∧ ∃ ps : List (List K),
      List.Forall₂ (fun s p => pairNormed1 fft dt o n s = .ok p) us ps ∧
      aux.pds1 = (List.range (nFreq o.fullspec n)).map
        (fun i => (us.length : K) * mean (ps.map fun p => p.getD i 0)) := by
  obtain ⟨t, aux, rfl, hR⟩ := (avgCs_result fft hfft sqrt dt o n segs us hus hlen r h).2 hne
  obtain ⟨ps, hF, e⟩ := hR.pds1' hu
  refine ⟨t, aux, rfl, ps, hF, ?_⟩
  rw [e]
  apply List.map_congr_left
  intro i _
  unfold mean
  rw [List.length_map, ← hF.length_eq]
  have : (us.length : K) ≠ 0 := by
    have := List.length_pos_of_ne_nil hne
    exact_mod_cast this.ne'
  field_simp

example : (avgCs dft4 (fun x => x) 1 ⟨.none, false, false, .all⟩
    [(.flux [1, 2, 0, 1], .flux [1, 2, 0, 1]), (.flux [1, 2, 0, 1], .flux [1, 2, 0, 1])]).toOption.map
      (fun r => r.map fun x => (x.1.power, x.2.pds1)) = some (some ([⟨2, 0⟩], [4])) := by decide +kernel

/-- no errors: nothing to do with the variances -/
theorem pairVar_plain (s : Segment K × Segment K) (h : s.1.plain = true) : pairVar s = none := by
  obtain ⟨s1, s2⟩ := s
  cases s1 with
  | fluxErr f e => simp [Segment.plain] at h
  | missing => rfl
  | flux f => rfl

theorem cs_success (fft : List K → List (Cx K)) (hfft : ∀ l, (fft l).length = l.length) (sqrt : K → K)
    (dt : K) (norm : Norm) (hnorm : norm ≠ .other) (fs : Bool) (n : Nat) (segs us : List (Segment K × Segment K))
    (hus : us = segs.filter usablePair) (hp : ∀ s ∈ segs, s.1.plain = true ∧ s.2.plain = true)
    (hlen : ∀ s ∈ us, (fluxes s.1).length = n ∧ (fluxes s.2).length = n) :
    ∃ r, avgCs fft sqrt dt ⟨norm, true, fs, .all⟩ segs = .ok r := by
  have hno : ∀ a b c : K, ∃ f, normalizer norm dt a b c none 0 = .ok f := by
    intro a b c
    unfold normalizer
    cases norm <;> simp at hnorm ⊢
  have hfil : segs.filter pairUsed = us := by
    rw [hus]
    apply List.filter_congr
    intro s _
    exact (usablePair_eq s).symm
  have hfold := cs_foldlM (sqrt := sqrt) (dt := dt) (o := ⟨norm, true, fs, .all⟩) (n := n) hfft segs [] _ [] [] []
    csInv_init (by
      intro s hs hu
      rw [data_fluxes, data_fluxes]
      apply hlen
      rw [← hfil, List.mem_filter]
      exact ⟨hs, hu⟩)
  obtain ⟨acc, hacc⟩ := hfold.2 (fun s _ _ => ⟨_, _, _, rfl, rfl, rfl⟩)
  obtain ⟨cs, p1, p2, hI⟩ := hfold.1 acc hacc
  rw [List.nil_append, hfil] at hI
  have hvn : us.filterMap pairVar = [] := by
    rw [List.filterMap_eq_nil_iff]
    intro s hs
    rw [hus, List.mem_filter] at hs
    exact pairVar_plain s (hp s hs.1).1
  have hv1 : acc.var1 = none := hI.var1.none_of (by rw [hvn]; rfl)
  have hv2 : acc.var2 = none := hI.var2.none_of (by rw [hvn]; rfl)
  unfold avgCs
  rw [hacc]
  simp only [bind, Except.bind]
  unfold csFinish
  split
  · simp only [if_true, hv1, hv2, Option.map_none]
    have hre : ∀ (a b c : K) (l : List K), ∃ x, normalizeRe norm dt a b c none 0 .all l = .ok x := by
      intro a b c l
      obtain ⟨f, hf⟩ := hno a b c
      unfold normalizeRe
      rw [hf]
      exact ⟨_, rfl⟩
    have hcx : ∀ (a b c : K) (l : List (Cx K)), ∃ x, normalizeCx sqrt norm dt a b c none 0 .all l = .ok x := by
      intro a b c l
      obtain ⟨f, hf⟩ := hno a b c
      unfold normalizeCx
      rw [hf]
      exact ⟨_, rfl⟩
    have hmap : ∀ (a b c : K) (l : List (List (Cx K))),
        ∃ x, l.mapM (normalizeCx sqrt norm dt a b c none 0 .all) = .ok x := by
      intro a b c l
      induction l with
      | nil => exact ⟨[], rfl⟩
      | cons y l ih =>
        obtain ⟨z, hz⟩ := hcx a b c y
        obtain ⟨zs, hzs⟩ := ih
        rw [List.mapM_cons, hz, hzs]
        exact ⟨z :: zs, rfl⟩
    rename_i c u u1 u2 q1 q2 _ _ _ _ _ _
    obtain ⟨x1, e1⟩ := hcx acc.nBin (sqrt (acc.sumPh1 / acc.nAve * (acc.sumPh2 / acc.nAve)) / acc.nBin)
      (sqrt (acc.sumPh1 / acc.nAve * (acc.sumPh2 / acc.nAve))) (u.map (Cx.both (· / (acc.nAve : K))))
    obtain ⟨x2, e2⟩ := hmap acc.nBin (sqrt (acc.sumPh1 / acc.nAve * (acc.sumPh2 / acc.nAve)) / acc.nBin)
      (sqrt (acc.sumPh1 / acc.nAve * (acc.sumPh2 / acc.nAve))) acc.unnormSubcs
    obtain ⟨x3, e3⟩ := hre acc.nBin (acc.sumPh1 / acc.nAve / acc.nBin) (acc.sumPh1 / acc.nAve) (u1.map (· / (acc.nAve : K)))
    obtain ⟨x4, e4⟩ := hre acc.nBin (acc.sumPh2 / acc.nAve / acc.nBin) (acc.sumPh2 / acc.nAve) (u2.map (· / (acc.nAve : K)))
    simp only [e1, e2, e3, e4, bind, Except.bind]
    exact ⟨_, rfl⟩
  · exact ⟨_, rfl⟩

/-- **C43.** For event lists (fluxes without errors) the quick version of the averaged cross spectrum returns exactly the table of the full version: frequencies, powers, normalised and not, `m`, `n`,
photon numbers and means. -/
theorem quick_eq_full (fft : List K → List (Cx K)) (hfft : ∀ l, (fft l).length = l.length) (sqrt : K → K)
    (dt : K) (norm : Norm) (hnorm : norm ≠ .other) (n : Nat) (segs us : List (Segment K × Segment K))
    (hus : us = segs.filter usablePair) (hp : ∀ s ∈ segs, s.1.plain = true ∧ s.2.plain = true)
    (hlen : ∀ s ∈ us, (fluxes s.1).length = n ∧ (fluxes s.2).length = n) :
    ∃ r, avgCs fft sqrt dt ⟨norm, true, false, .all⟩ segs = .ok r ∧
      avgCsQuick fft sqrt dt norm segs = .ok (r.map Prod.fst) := by
  obtain ⟨r, hr⟩ := cs_success fft hfft sqrt dt norm hnorm false n segs us hus hp hlen
  refine ⟨r, hr, ?_⟩
  have hfil : segs.filter pairUsed = us := by
    rw [hus]
    apply List.filter_congr
    intro s _
    exact (usablePair_eq s).symm
  obtain ⟨acc, hacc, hI⟩ := quick_foldlM (dt := dt) hfft segs [] _ quickInv_init hp (by
      intro s hs hu
      rw [data_fluxes, data_fluxes]
      apply hlen
      rw [← hfil, List.mem_filter]
      exact ⟨hs, hu⟩)
  rw [List.nil_append, hfil] at hI
  have hres := avgCs_result fft hfft sqrt dt ⟨norm, true, false, .all⟩ n segs us hus hlen r hr
  unfold avgCsQuick
  simp only [hacc, bind, Except.bind]
  by_cases hne : us = []
  · rw [hres.1 hne, hI.unnorm.1 (by rw [hne]; rfl)]
    rfl
  · obtain ⟨t, aux, rfl, hR⟩ := hres.2 hne
    rw [hI.unnorm.2 (by simpa using hne)]
    have hvar := hR.variance_none (by
      intro s hs
      rw [hus, List.mem_filter] at hs
      exact pairVar_plain s (hp s hs.1).1)
    have hpow := hR.power rfl
    have e1 := columnSum_map_meanCx (nCut false n) us (pairCross fft n false)
        (fun s i => crossPower fft (fluxes s.1) (fluxes s.2) (freqIdx false i)) acc.nAve hI.nAve
        (fun s hs i hi => pairCross_getD fft hfft n false s (by rw [data_fluxes]; exact (hlen s hs).1)
          (by rw [data_fluxes]; exact (hlen s hs).2) i hi)
    have e1' : (columnSum (nCut false n) (us.map (pairCross fft n false))).map (Cx.both (· / (acc.nAve : K))) =
        t.unnormPower := by rw [e1, hR.unnormPower]; rfl
    have e4 : acc.sumPh1 / (acc.nAve : K) = t.nphots1 := by
      rw [hR.nphots1, hI.nAve, hI.sumPh1, mean, List.length_map]
      simp only [data_fluxes]
    have e5 : acc.sumPh2 / (acc.nAve : K) = t.nphots2 := by
      rw [hR.nphots2, hI.nAve, hI.sumPh2, mean, List.length_map]
      simp only [data_fluxes]
    rw [hvar] at hpow
    simp only [e1', e4, e5, hI.nBin hne, ← hR.nphots, ← hR.hmean, hpow, hI.freq hne, hI.fgt0 hne]
    obtain ⟨tf, tp, tu, tn, tm, tph, tph1, tph2, tme, tme1, tme2, tv⟩ := t
    have h1 := hR.freq
    have h2 := hR.hm
    have h3 := hR.hn
    have h4 := hR.mean1
    have h5 := hR.mean2
    simp only at h1 h2 h3 h4 h5 hvar
    subst h1 h2 h3 h4 h5 hvar
    simp [hI.nAve, cutTo]

example : (avgCsQuick dft4 (fun x => x) 1 .abs [(.flux [1, 2, 0, 1], .flux [1, 0, 0, 3]), (.missing, .flux [1, 1, 2, 3])]).toOption.map
    (fun r => r.map fun t => (t.m, t.unnormPower)) = some (some (1, [⟨-2, 4⟩])) := by decide +kernel

/-! ### Symmetries (C44) -/

theorem crossPower_self (fft : List K → List (Cx K)) (f : List K) (k : Nat) :
    crossPower fft f f k = ⟨fourierPower fft f k, 0⟩ := by
  unfold crossPower fourierPower
  apply Cx.ext'
  · simp only; ring
  · simp only; ring

theorem crossPower_swap (fft : List K → List (Cx K)) (f g : List K) (k : Nat) :
    crossPower fft g f k = (crossPower fft f g k).conj := by
  unfold crossPower
  apply Cx.ext'
  · simp only [Cx.conj_re]; ring
  · simp only [Cx.conj_im]; ring

theorem meanCx_conj (l : List (Cx K)) : meanCx (l.map Cx.conj) = (meanCx l).conj := by
  unfold meanCx mean
  apply Cx.ext'
  · simp only [Cx.conj_re, List.length_map, List.map_map]; rfl
  · simp only [Cx.conj_im, List.length_map, List.map_map]
    have : (l.map (Cx.im ∘ Cx.conj)).sum = -(l.map Cx.im).sum := by
      induction l with
      | nil => simp
      | cons a l ih => simp only [List.map_cons, List.sum_cons, ih, Function.comp, Cx.conj_im]; ring
    rw [this]; ring

/-- **C44 (self).** The averaged cross spectrum of a channel with itself has no imaginary part, and its real part is the averaged power spectrum of the channel: un-normalised powers, frequencies and `m` are
the same. -/
theorem cross_self (fft : List K → List (Cx K)) (hfft : ∀ l, (fft l).length = l.length) (sqrt : K → K)
    (dt : K) (hdt : 0 < dt) (norm : Norm) (ucm : Bool) (pt : PowerType) (n : Nat) (hn : 0 < n) (segs : List (Segment K))
    (hlen : ∀ s ∈ segs, usable s = true → (fluxes s).length = n)
    (t : CsTable K) (aux : CsAux K) (p : PdsTable K)
    (h1 : avgCs fft sqrt dt ⟨norm, ucm, false, pt⟩ (segs.map fun s => (s, s)) = .ok (some (t, aux)))
    (h2 : avgPds fft dt norm ucm segs = .ok (some p)) :
    t.unnormPower = p.unnormPower.map (fun x => ⟨x, 0⟩) ∧ t.freq = p.freq ∧ t.m = p.m ∧
    aux.unnormPds1 = p.unnormPower ∧ aux.unnormPds2 = p.unnormPower := by
  have hfil : (segs.map fun s => (s, s)).filter usablePair = (segs.filter usable).map fun s => (s, s) := by
    rw [List.filter_map]
    congr 1
    apply List.filter_congr
    intro s _
    simp [usablePair]
  have hlenu : ∀ s ∈ segs.filter usable, (fluxes s).length = n := by
    intro s hs
    rw [List.mem_filter] at hs
    exact hlen s hs.1 hs.2
  have hA := avgCs_result fft hfft sqrt dt ⟨norm, ucm, false, pt⟩ n _ _ rfl (by
    rw [hfil]
    intro s hs
    rw [List.mem_map] at hs
    obtain ⟨s, hs, rfl⟩ := hs
    exact ⟨hlenu s hs, hlenu s hs⟩) _ h1
  have hB := avg_pds_mean fft hfft dt hdt norm ucm n hn segs _ rfl hlenu _ h2
  rw [hfil] at hA
  by_cases hne : segs.filter usable = []
  · have := hB.1 hne; cases this
  obtain ⟨t', aux', e, hR⟩ := hA.2 (by simpa using hne)
  cases e
  obtain ⟨p', e, hm, hnn, hfr, hu, -⟩ := hB.2 hne
  cases e
  refine ⟨?_, ?_, ?_, ?_, ?_⟩
  · rw [hR.unnormPower, hu, List.map_map]
    apply List.map_congr_left
    intro i _
    simp only [List.map_map, freqIdx, Bool.false_eq_true, if_false, Function.comp]
    have e : (segs.filter usable).map ((fun s : Segment K × Segment K =>
        crossPower fft (fluxes s.1) (fluxes s.2) (i + 1)) ∘ fun s => (s, s)) =
        (segs.filter usable).map fun s => (⟨fourierPower fft (fluxes s) (i + 1), 0⟩ : Cx K) := by
      apply List.map_congr_left
      intro s _
      exact crossPower_self _ _ _
    rw [show ((fun s : Segment K × Segment K => crossPower fft (fluxes s.1) (fluxes s.2) (i + 1)) ∘ fun s => (s, s)) =
      fun s => crossPower fft (fluxes s) (fluxes s) (i + 1) from rfl] at e
    first | rw [e] | (simp only [Function.comp_def] at *; rw [e])
    unfold meanCx mean
    apply Cx.ext'
    · simp only [List.map_map, List.length_map]; rfl
    · simp only [List.map_map, List.length_map]
      have : ((segs.filter usable).map (Cx.im ∘ fun x => (⟨fourierPower fft (fluxes x) (i + 1), 0⟩ : Cx K))).sum = 0 := by
        apply List.sum_eq_zero
        intro x hx
        rw [List.mem_map] at hx
        obtain ⟨s, -, rfl⟩ := hx
        rfl
      rw [this, zero_div]
  · rw [hR.freq, hfr]
    exact (positive_fft_bins_exact n dt hn hdt).1
  · rw [hR.hm, hm, List.length_map]
  · rw [hR.unnormPds1, hu]
    apply List.map_congr_left
    intro i _
    simp only [List.map_map, freqIdx, Bool.false_eq_true, if_false]
    rfl
  · rw [hR.unnormPds2, hu]
    apply List.map_congr_left
    intro i _
    simp only [List.map_map, freqIdx, Bool.false_eq_true, if_false]
    rfl

/-- **C44 (exchange).** Exchanging the two channels conjugates the averaged cross spectrum (un-normalised; also normalised, with a common mean and the whole complex power), and exchanges the auxiliary power
spectra. -/
theorem cross_exchange (fft : List K → List (Cx K)) (hfft : ∀ l, (fft l).length = l.length) (sqrt : K → K)
    (dt : K) (norm : Norm) (ucm fs : Bool) (pt : PowerType) (n : Nat)
    (segs : List (Segment K × Segment K)) (hp : ∀ s ∈ segs, s.1.plain = true ∧ s.2.plain = true)
    (hlen : ∀ s ∈ segs, usablePair s = true → (fluxes s.1).length = n ∧ (fluxes s.2).length = n)
    (t t' : CsTable K) (aux aux' : CsAux K)
    (h1 : avgCs fft sqrt dt ⟨norm, ucm, fs, pt⟩ segs = .ok (some (t, aux)))
    (h2 : avgCs fft sqrt dt ⟨norm, ucm, fs, pt⟩ (segs.map Prod.swap) = .ok (some (t', aux'))) :
    t'.unnormPower = t.unnormPower.map Cx.conj ∧ t'.freq = t.freq ∧ t'.m = t.m ∧ t'.nphots = t.nphots ∧
    aux'.unnormPds1 = aux.unnormPds2 ∧ aux'.unnormPds2 = aux.unnormPds1 ∧
    (ucm = true → pt = .all → t'.power = t.power.map Cx.conj) := by
  have hfil : (segs.map Prod.swap).filter usablePair = (segs.filter usablePair).map Prod.swap := by
    rw [List.filter_map]
    congr 1
    apply List.filter_congr
    intro s _
    simp [usablePair, Bool.and_comm]
  have hlenu : ∀ s ∈ segs.filter usablePair, (fluxes s.1).length = n ∧ (fluxes s.2).length = n := by
    intro s hs
    rw [List.mem_filter] at hs
    exact hlen s hs.1 hs.2
  have hA := avgCs_result fft hfft sqrt dt ⟨norm, ucm, fs, pt⟩ n _ _ rfl hlenu _ h1
  have hB := avgCs_result fft hfft sqrt dt ⟨norm, ucm, fs, pt⟩ n _ _ rfl (by
    rw [hfil]
    intro s hs
    rw [List.mem_map] at hs
    obtain ⟨s, hs, rfl⟩ := hs
    exact (hlenu s hs).symm) _ h2
  rw [hfil] at hB
  by_cases hne : segs.filter usablePair = []
  · have := hA.1 hne; cases this
  obtain ⟨_, _, e, hR⟩ := hA.2 hne
  cases e
  obtain ⟨_, _, e, hS⟩ := hB.2 (by simpa using hne)
  cases e
  have hun : t'.unnormPower = t.unnormPower.map Cx.conj := by
    rw [hR.unnormPower, hS.unnormPower, List.map_map]
    apply List.map_congr_left
    intro i _
    simp only [Function.comp]
    rw [← meanCx_conj, List.map_map, List.map_map]
    congr 1
    apply List.map_congr_left
    intro s _
    exact crossPower_swap fft (fluxes s.1) (fluxes s.2) _
  have hph1 : t'.nphots1 = t.nphots2 := by
    rw [hS.nphots1, hR.nphots2, List.map_map]; rfl
  have hph2 : t'.nphots2 = t.nphots1 := by
    rw [hS.nphots2, hR.nphots1, List.map_map]; rfl
  have hph : t'.nphots = t.nphots := by
    rw [hS.nphots, hR.nphots, hph1, hph2, mul_comm]
  refine ⟨hun, ?_, ?_, hph, ?_, ?_, ?_⟩
  · rw [hR.freq, hS.freq]
  · rw [hR.hm, hS.hm, List.length_map]
  · rw [hS.unnormPds1, hR.unnormPds2]
    apply List.map_congr_left
    intro i _
    rw [List.map_map]; rfl
  · rw [hS.unnormPds2, hR.unnormPds1]
    apply List.map_congr_left
    intro i _
    rw [List.map_map]; rfl
  · intro hu hpt
    have hp1 := hR.power hu
    have hp2 := hS.power hu
    have hv1 := hR.variance_none (by
      intro s hs
      rw [List.mem_filter] at hs
      exact pairVar_plain s (hp s hs.1).1)
    have hv2 := hS.variance_none (by
      intro s hs
      rw [List.mem_map] at hs
      obtain ⟨s, hs, rfl⟩ := hs
      rw [List.mem_filter] at hs
      exact pairVar_plain s.swap (hp s hs.1).2)
    rw [hv1] at hp1
    rw [hv2, hun, hS.hmean, hph, ← hR.hmean] at hp2
    simp only [hpt] at hp1 hp2
    unfold normalizeCx at hp1 hp2
    cases hno : normalizer norm dt (n : K) t.mean t.nphots none 0 with
    | error e => simp [hno, bind, Except.bind] at hp1
    | ok f =>
      simp only [hno, bind, Except.bind, Except.ok.injEq] at hp1 hp2
      rw [← hp1, ← hp2, List.map_map, List.map_map]
      apply List.map_congr_left
      intro a _
      apply Cx.ext'
      · rfl
      · simp only [Function.comp, Cx.both_im, Cx.conj_im]
        rw [normalizer_linear hno (-a.im), normalizer_linear hno a.im]
        ring

/-! ### Coherence (C47) -/

/-- **C47 (lower bound).** The raw coherence is never negative, whatever the noise levels, when the product of the powers is positive. -/
theorem raw_coherence_nonneg (c : Cx K) (p1 p2 n1 n2 m coh : K) (h : 0 < p1 * p2) :
    0 ≤ rawCoherence c p1 p2 n1 n2 m coh := by
  unfold rawCoherence
  simp only
  apply div_nonneg _ h.le
  split_ifs with hneg
  · simp only [Cx.mul_re, Cx.conj_re, Cx.conj_im]
    nlinarith [mul_self_nonneg c.re, mul_self_nonneg c.im]
  · exact not_lt.1 hneg

/-- **C47 (noise).** Up to 500 averages, two signals that are only noise and whose cross power has the value expected of it, `|C|² = P1 P2 / m`, have coherence 0:
the bias is removed. Above 500 averages the bias, less than 1/500, is left in. -/
theorem raw_coherence_noise (c : Cx K) (p1 p2 m : K) (h1 : 0 < p1) (h2 : 0 < p2) (hm : 0 < m)
    (hc : c.re ^ 2 + c.im ^ 2 = p1 * p2 / m) :
    (m ≤ 500 → rawCoherence c p1 p2 p1 p2 m 1 = 0) ∧
    (500 < m → rawCoherence c p1 p2 p1 p2 m 1 = 1 / m ∧ rawCoherence c p1 p2 p1 p2 m 1 < 1 / 500) := by
  have hg : (c * c.conj).re = p1 * p2 / m := by
    simp only [Cx.mul_re, Cx.conj_re, Cx.conj_im]
    rw [← hc]; ring
  have hp : (0 : K) < p1 * p2 := mul_pos h1 h2
  constructor
  · intro h
    unfold rawCoherence biasTerm
    simp only [hg, if_neg (not_lt.2 h), sub_self, mul_zero, sub_zero]
    simp
  · intro h
    have : rawCoherence c p1 p2 p1 p2 m 1 = 1 / m := by
      unfold rawCoherence biasTerm
      simp only [hg, if_pos h, zero_mul, sub_zero, ite_self]
      field_simp
    exact ⟨this, by rw [this]; exact one_div_lt_one_div_of_lt (by norm_num) h⟩

example : rawCoherence (⟨3, 4⟩ : Cx ℚ) 10 10 10 10 4 1 = 0 := by decide +kernel

theorem cauchy_schwarz_pairs (l : List (Cx K × K × K)) (h : ∀ x ∈ l, 0 ≤ x.2.1 ∧ 0 ≤ x.2.2 ∧
    x.1.re ^ 2 + x.1.im ^ 2 = x.2.1 * x.2.2) :
    0 ≤ (l.map fun x => x.2.1).sum ∧ 0 ≤ (l.map fun x => x.2.2).sum ∧
    (l.map fun x => x.1.re).sum ^ 2 + (l.map fun x => x.1.im).sum ^ 2 ≤
      (l.map fun x => x.2.1).sum * (l.map fun x => x.2.2).sum := by
  induction l with
  | nil => simp
  | cons x l ih =>
    obtain ⟨hA, hB, hS⟩ := ih (fun y hy => h y (by simp [hy]))
    obtain ⟨ha, hb, hc⟩ := h x (by simp)
    simp only [List.map_cons, List.sum_cons]
    generalize (l.map fun x => x.2.1).sum = A at *
    generalize (l.map fun x => x.2.2).sum = B at *
    generalize (l.map fun x => x.1.re).sum = R at *
    generalize (l.map fun x => x.1.im).sum = I at *
    generalize x.2.1 = a at *
    generalize x.2.2 = b at *
    generalize x.1.re = r at *
    generalize x.1.im = i at *
    refine ⟨by linarith, by linarith, ?_⟩
    -- `2 (R r + I i) ≤ A b + a B`
    have hsq : (R * r + I * i) ^ 2 ≤ (A * B) * (a * b) := by
      have h1 : (R * r + I * i) ^ 2 + (R * i - I * r) ^ 2 = (R ^ 2 + I ^ 2) * (r ^ 2 + i ^ 2) := by ring
      have h2 : (R ^ 2 + I ^ 2) * (r ^ 2 + i ^ 2) ≤ (A * B) * (r ^ 2 + i ^ 2) :=
        mul_le_mul_of_nonneg_right hS (by positivity)
      rw [hc] at h2 h1
      nlinarith [sq_nonneg (R * i - I * r)]
    have hsq2 : (2 * (R * r + I * i)) ^ 2 ≤ (A * b + a * B) ^ 2 := by
      nlinarith [sq_nonneg (A * b - a * B)]
    have hnn : 0 ≤ A * b + a * B := add_nonneg (mul_nonneg hA hb) (mul_nonneg ha hB)
    have hle : 2 * (R * r + I * i) ≤ A * b + a * B := by
      exact le_trans (le_abs_self _) (abs_le_of_sq_le_sq hsq2 hnn)
    nlinarith

/-- **C47.** For the cross spectrum and the auxiliary power spectra averaged over the same segments, the raw coherence without noise subtraction is at most 1 at every returned frequency where both powers are not zero
(and at least 0). -/
theorem raw_coherence_bounds (fft : List K → List (Cx K)) (hfft : ∀ l, (fft l).length = l.length) (sqrt : K → K)
    (dt : K) (o : CsOpts) (n : Nat) (segs : List (Segment K × Segment K))
    (hlen : ∀ s ∈ segs, usablePair s = true → (fluxes s.1).length = n ∧ (fluxes s.2).length = n)
    (t : CsTable K) (aux : CsAux K) (h : avgCs fft sqrt dt o segs = .ok (some (t, aux)))
    (i : Nat) (c : Cx K) (p1 p2 : K) (hc : t.unnormPower[i]? = some c) (hp1 : aux.unnormPds1[i]? = some p1)
    (hp2 : aux.unnormPds2[i]? = some p2) (h1 : p1 ≠ 0) (h2 : p2 ≠ 0) (m : K) :
    0 ≤ rawCoherence c p1 p2 0 0 m 1 ∧ rawCoherence c p1 p2 0 0 m 1 ≤ 1 := by
  have hlenu : ∀ s ∈ segs.filter usablePair, (fluxes s.1).length = n ∧ (fluxes s.2).length = n := by
    intro s hs
    rw [List.mem_filter] at hs
    exact hlen s hs.1 hs.2
  have hA := avgCs_result fft hfft sqrt dt o n _ _ rfl hlenu _ h
  by_cases hne : segs.filter usablePair = []
  · have := hA.1 hne; cases this
  obtain ⟨_, _, e, hR⟩ := hA.2 hne
  cases e
  rw [hR.unnormPower] at hc
  rw [hR.unnormPds1] at hp1
  rw [hR.unnormPds2] at hp2
  rw [List.getElem?_map] at hc hp1 hp2
  cases hi : (List.range (nFreq o.fullspec n))[i]? with
  | none => rw [hi] at hc; cases hc
  | some k =>
    rw [hi] at hc hp1 hp2
    simp only [Option.map_some, Option.some.injEq] at hc hp1 hp2
    generalize segs.filter usablePair = us at *
    have hcs := cauchy_schwarz_pairs (us.map fun s => (crossPower fft (fluxes s.1) (fluxes s.2) (freqIdx o.fullspec k),
      fourierPower fft (fluxes s.1) (freqIdx o.fullspec k), fourierPower fft (fluxes s.2) (freqIdx o.fullspec k))) (by
      intro x hx
      rw [List.mem_map] at hx
      obtain ⟨s, -, rfl⟩ := hx
      dsimp only
      refine ⟨by unfold fourierPower; positivity, by unfold fourierPower; positivity, ?_⟩
      unfold crossPower fourierPower
      simp only
      ring)
    simp only [List.map_map] at hcs
    have hm : (0 : K) < (us.length : K) := by
      have := List.length_pos_of_ne_nil hne
      exact_mod_cast this
    have hre : c.re = (us.map fun s => (crossPower fft (fluxes s.1) (fluxes s.2) (freqIdx o.fullspec k)).re).sum / us.length := by
      rw [← hc]; simp only [meanCx, mean, List.map_map, List.length_map]; rfl
    have him : c.im = (us.map fun s => (crossPower fft (fluxes s.1) (fluxes s.2) (freqIdx o.fullspec k)).im).sum / us.length := by
      rw [← hc]; simp only [meanCx, mean, List.map_map, List.length_map]; rfl
    have e1 : p1 = (us.map fun s => fourierPower fft (fluxes s.1) (freqIdx o.fullspec k)).sum / us.length := by
      rw [← hp1]; simp only [mean, List.length_map]
    have e2 : p2 = (us.map fun s => fourierPower fft (fluxes s.2) (freqIdx o.fullspec k)).sum / us.length := by
      rw [← hp2]; simp only [mean, List.length_map]
    obtain ⟨hA0, hB0, hS⟩ := hcs
    have hA0' : 0 ≤ p1 := by rw [e1]; exact div_nonneg hA0 hm.le
    have hB0' : 0 ≤ p2 := by rw [e2]; exact div_nonneg hB0 hm.le
    have hpos : 0 < p1 * p2 := mul_pos (lt_of_le_of_ne hA0' (Ne.symm h1)) (lt_of_le_of_ne hB0' (Ne.symm h2))
    refine ⟨raw_coherence_nonneg _ _ _ _ _ _ _ hpos, ?_⟩
    have hle : c.re ^ 2 + c.im ^ 2 ≤ p1 * p2 := by
      rw [hre, him, e1, e2, div_pow, div_pow, ← add_div, div_mul_div_comm, ← sq]
      exact div_le_div_of_nonneg_right hS (by positivity)
    have hb : biasTerm p1 p2 0 0 m 1 = 0 := by
      unfold biasTerm
      split_ifs <;> simp
    unfold rawCoherence
    simp only [hb, sub_zero, ite_self, Cx.mul_re, Cx.conj_re, Cx.conj_im]
    rw [div_le_one hpos]
    nlinarith

/-- **C47 (one segment).** For a single segment the raw coherence is exactly 1. -/
theorem raw_coherence_single (fft : List K → List (Cx K)) (hfft : ∀ l, (fft l).length = l.length) (sqrt : K → K)
    (dt : K) (o : CsOpts) (n : Nat) (s : Segment K × Segment K) (hs : usablePair s = true)
    (hlen : (fluxes s.1).length = n ∧ (fluxes s.2).length = n)
    (t : CsTable K) (aux : CsAux K) (h : avgCs fft sqrt dt o [s] = .ok (some (t, aux)))
    (i : Nat) (c : Cx K) (p1 p2 : K) (hc : t.unnormPower[i]? = some c) (hp1 : aux.unnormPds1[i]? = some p1)
    (hp2 : aux.unnormPds2[i]? = some p2) (h1 : p1 ≠ 0) (h2 : p2 ≠ 0) (m : K) :
    rawCoherence c p1 p2 0 0 m 1 = 1 := by
  have hA := avgCs_result fft hfft sqrt dt o n [s] [s] (by simp [hs]) (by simpa using hlen) _ h
  obtain ⟨_, _, e, hR⟩ := hA.2 (by simp)
  cases e
  rw [hR.unnormPower, List.getElem?_map] at hc
  rw [hR.unnormPds1, List.getElem?_map] at hp1
  rw [hR.unnormPds2, List.getElem?_map] at hp2
  cases hi : (List.range (nFreq o.fullspec n))[i]? with
  | none => rw [hi] at hc; cases hc
  | some k =>
    rw [hi] at hc hp1 hp2
    simp only [Option.map_some, Option.some.injEq, List.map_cons, List.map_nil, mean, meanCx, List.sum_cons,
      List.sum_nil, add_zero, List.length_cons, List.length_nil, zero_add, Nat.cast_one, div_one] at hc hp1 hp2
    have hb : biasTerm p1 p2 0 0 m 1 = 0 := by
      unfold biasTerm
      split_ifs <;> simp
    unfold rawCoherence
    simp only [hb, sub_zero, ite_self, Cx.mul_re, Cx.conj_re, Cx.conj_im]
    rw [div_eq_one_iff_eq (mul_ne_zero h1 h2), ← hc, ← hp1, ← hp2]
    unfold crossPower fourierPower
    simp only
    ring

example : (avgCs dft4 (fun x => x) 1 ⟨.none, true, false, .all⟩
    [(.flux [1, 2, 0, 1], .flux [1, 0, 0, 3]), (.flux [0, 2, 2, 1], .flux [1, 5, 0, 3])]).toOption.map
    (fun r => r.map fun x => (x.1.unnormPower, x.2.unnormPds1, x.2.unnormPds2)) =
    some (some ([⟨-1, 9/2⟩], [7/2], [15/2])) ∧
    rawCoherence (⟨-1, 9/2⟩ : Cx ℚ) (7/2) (15/2) 0 0 2 1 = 17/21 := by decide +kernel

end Stingray.Fourier

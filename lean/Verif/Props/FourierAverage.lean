import Verif.Lemmas.FourierAverage
import Verif.Props.FourierNorm
import Verif.Spec.Spectra
import Mathlib.Algebra.Order.Ring.Rat

/-!
Averaged power spectra (C41), auxiliary spectra (C42), quick and full cross spectra (C43), symmetries (C44), coherence (C47).
-/

set_option linter.unusedSectionVars false

namespace Stingray.Fourier

open Stingray.Spec

variable {K : Type} [Field K] [LinearOrder K] [IsStrictOrderedRing K]

theorem usable_eq (s : Segment K) : usable s = !s.skipped := by
  cases s with
  | missing => rfl
  | fluxErr f e => rfl
  | flux f =>
    simp only [usable, Segment.skipped]
    induction f with
    | nil => rfl
    | cons a l ih => simp only [List.any_cons, List.all_cons, ih]; by_cases h : a = 0 <;> simp [h]

theorem data_fluxes (s : Segment K) : s.data.1 = fluxes s := by cases s <;> rfl

theorem segPower_getD (fft : List K → List (Cx K)) (hfft : ∀ l, (fft l).length = l.length) (n : Nat)
    (s : Segment K) (hs : s.data.1.length = n) (i : Nat) (hi : i < nPositive n) :
    (segPower fft n s).getD i 0 = fourierPower fft (fluxes s) (i + 1) := by
  unfold segPower
  rw [slice_positive_getD n _ (by simp [hfft, hs]) 0 i hi, ← data_fluxes]
  unfold fourierPower
  have hlt : i + 1 < (fft s.data.1).length := by
    rw [hfft, hs]
    unfold nPositive at hi
    omega
  simp [List.getD_eq_getElem?_getD, hlt]
  ring

theorem normalizer_linear {norm : Norm} {dt nBin meanFlux nPh : K} {variance : Option K} {background : K}
    {f : K → K} (h : normalizer norm dt nBin meanFlux nPh variance background = .ok f) (p : K) :
    f p = p * f 1 := by
  unfold normalizer at h
  cases norm <;> cases variance <;> simp only at h <;> (try split_ifs at h) <;>
    first | cases h | skip
  all_goals ring

theorem columnSum_mean (n : Nat) (us : List (Segment K)) (fft : List K → List (Cx K))
    (hfft : ∀ l, (fft l).length = l.length) (hlen : ∀ s ∈ us, s.data.1.length = n) :
    (columnSum (nPos n) (us.map (segPower fft n))).map (· / (us.length : K)) =
    (List.range (nPositive n)).map (fun i => mean (us.map fun s => fourierPower fft (fluxes s) (i + 1))) := by
  unfold columnSum mean
  rw [List.map_map]
  apply List.map_congr_left
  intro i hi
  rw [List.mem_range] at hi
  simp only [Function.comp, List.length_map, List.map_map]
  congr 2
  apply List.map_congr_left
  intro s hs
  exact segPower_getD fft hfft n s (hlen s hs) i hi

/-- The square of the mean error of a segment, if it has errors. -/
def squaredMeanError : Segment K → Option K
  | .fluxErr _ e => some ((e.sum / e.length) ^ 2)
  | _ => none

theorem data_error (s : Segment K) : s.data.2 = squaredMeanError s := by cases s <;> rfl

/-- The sum of what is given, over the number of segments; nothing if nothing is given. -/
def channelVariance (m : Nat) (l : List K) : Option K := if l = [] then none else some (l.sum / (m : K))

theorem numOf_variance {o : Option K} {l : List K} (h : NumOf o l) (m : Nat) : o.map (· / (m : K)) = channelVariance m l := by
  unfold channelVariance
  split_ifs with hl
  · rw [h.1 hl]; rfl
  · rw [h.2 hl]; rfl

/-- **C41.** The averaged power spectrum: whatever the transform and the segments (those that are not skipped have `n` bins), `m` is the number of usable segments, the frequencies are
the strictly positive Fourier frequencies, the un-normalised power at each is the mean of the `|F_k|²` of the usable segments, and `nphots` is the
mean of their sums, the variance the mean of the squares of their mean errors (if any); with a common mean the power is this mean normalised once with the mean flux, otherwise it is the mean of the powers normalised segment by segment.
With no usable segment the result is `None`. -/
theorem avg_pds_mean (fft : List K → List (Cx K)) (hfft : ∀ l, (fft l).length = l.length)
    (dt : K) (hdt : 0 < dt) (norm : Norm) (ucm : Bool) (n : Nat) (hn : 0 < n) (segs us : List (Segment K))
    (hus : us = segs.filter usable)
    (hlen : ∀ s ∈ us, (fluxes s).length = n) (r : Option (PdsTable K))
    (h : avgPds fft dt norm ucm segs = .ok r) :
    (us = [] → r = none) ∧
    (us ≠ [] → ∃ t, r = some t ∧ t.m = us.length ∧ t.n = n ∧
      t.freq = (fftfreq n dt).filter (fun f => decide (0 < f)) ∧
      t.unnormPower = (List.range (nPositive n)).map
        (fun i => mean (us.map fun s => fourierPower fft (fluxes s) (i + 1))) ∧
      t.nphots = mean (us.map fun s => (fluxes s).sum) ∧ t.mean = t.nphots / n ∧
      t.variance = channelVariance us.length (us.filterMap squaredMeanError) ∧
      (ucm = true → ∃ f, normalizer norm dt n t.mean t.nphots t.variance 0 = .ok f ∧
        t.power = t.unnormPower.map f) ∧
      (ucm = false → ∃ ps : List (List K), List.Forall₂ (fun s p => ∃ f,
          normalizer norm dt n ((fluxes s).sum / n) (fluxes s).sum s.data.2 0 = .ok f ∧
          p = (List.range (nPositive n)).map (fun i => f (fourierPower fft (fluxes s) (i + 1)))) us ps ∧
        t.power = (List.range (nPositive n)).map (fun i => mean (ps.map fun p => p.getD i 0)))) := by
  have hfil : segs.filter (fun s => !s.skipped) = us := by
    rw [hus]
    apply List.filter_congr
    intro s _
    exact (usable_eq s).symm
  unfold avgPds at h
  cases hf : segs.foldlM (pdsStep fft dt norm ucm) { sumPh := 0 } with
  | error e => simp [hf, bind, Except.bind] at h
  | ok acc =>
    simp only [hf, bind, Except.bind] at h
    have hI := (pds_foldlM hfft segs [] _ (pdsInv_init fft dt norm ucm n) (by
      intro s hs hsk
      rw [data_fluxes]
      apply hlen
      rw [hus, List.mem_filter]
      exact ⟨hs, by rw [usable_eq, hsk]; rfl⟩)).1 acc hf
    rw [List.nil_append, hfil] at hI
    have hlen' : ∀ s ∈ us, s.data.1.length = n := fun s hs => by rw [data_fluxes]; exact hlen s hs
    constructor
    · intro he
      have h1 := hI.unnorm.1 (by rw [he]; rfl)
      unfold pdsFinish at h
      rw [h1] at h
      cases hc : acc.cross <;> simp [hc] at h <;> exact h.symm
    · intro hne
      have hsub : acc.subcs ≠ [] := by
        intro e
        have := hI.subcs
        rw [e] at this
        cases this
        exact hne rfl
      have h1 := hI.unnorm.2 (by simpa using hne)
      have h2 := hI.cross.2 hsub
      unfold pdsFinish at h
      simp only [h1, h2, bind, Except.bind] at h
      have hm : (columnSum (nPos n) (us.map (segPower fft n))).map (· / (acc.nAve : K)) =
          (List.range (nPositive n)).map (fun i => mean (us.map fun s => fourierPower fft (fluxes s) (i + 1))) := by
        rw [hI.nAve]
        exact columnSum_mean n us fft hfft hlen'
      have hph : acc.sumPh / (acc.nAve : K) = mean (us.map fun s => (fluxes s).sum) := by
        rw [hI.nAve, hI.sumPh, mean, List.length_map]
        simp only [data_fluxes]
      have hfreq : acc.freq = (fftfreq n dt).filter (fun f => decide (0 < f)) := by
        rw [hI.freq hne]
        exact (positive_fft_bins_exact n dt hn hdt).1
      have hnb := hI.nBin hne
      have hvar : acc.variance.map (· / (acc.nAve : K)) = channelVariance us.length (us.filterMap squaredMeanError) := by
        have := hI.variance
        simp only [data_error] at this
        rw [hI.nAve]
        exact numOf_variance this us.length
      cases ucm with
      | true =>
        simp only [if_true] at h
        cases hno : normalizer norm dt (acc.nBin : K) (acc.sumPh / (acc.nAve : K) / (acc.nBin : K))
            (acc.sumPh / (acc.nAve : K)) (acc.variance.map (· / (acc.nAve : K))) 0 with
        | error e => simp [hno, Except.map] at h
        | ok f =>
          simp only [hno, Except.map] at h
          cases h
          refine ⟨_, rfl, hI.nAve, hnb, hfreq, hm, hph, ?_, hvar, ?_, ?_⟩
          · rw [hnb]
          · intro _
            dsimp only
            refine ⟨f, ?_, ?_⟩
            · rw [hnb] at hno
              rw [hnb]
              exact hno
            · apply List.map_congr_left
              intro p _
              exact (normalizer_linear hno p).symm
          · intro hc; cases hc
      | false =>
        simp only [Bool.false_eq_true, if_false] at h
        cases h
        refine ⟨_, rfl, hI.nAve, hnb, hfreq, hm, hph, ?_, hvar, ?_, ?_⟩
        · rw [hnb]
        · intro hc; cases hc
        · intro _
          refine ⟨acc.subcs, ?_, ?_⟩
          · have hF := hI.subcs
            have aux : ∀ s c, s ∈ us → segNormed fft dt norm false n s = .ok c → ∃ f,
                normalizer norm dt n ((fluxes s).sum / n) (fluxes s).sum s.data.2 0 = .ok f ∧
                c = (List.range (nPositive n)).map (fun i => f (fourierPower fft (fluxes s) (i + 1))) := by
              intro s c hs hc
              unfold segNormed perSegment normalizeRe at hc
              simp only [Bool.false_eq_true, if_false, data_fluxes] at hc
              cases hno : normalizer norm dt (n : K) ((fluxes s).sum / n) (fluxes s).sum s.data.2 0 with
              | error e => simp [hno, bind, Except.bind] at hc
              | ok f =>
                simp only [hno, bind, Except.bind] at hc
                cases hc
                refine ⟨f, rfl, ?_⟩
                apply List.ext_getElem?
                intro i
                have hl := segPower_length fft hfft n s (hlen' s hs)
                by_cases hi : i < nPositive n
                · have hi' : i < (segPower fft n s).length := by rw [hl]; exact hi
                  rw [List.getElem?_map, List.getElem?_map, List.getElem?_eq_getElem hi',
                    List.getElem?_range hi]
                  simp only [Option.map_some]
                  congr 2
                  rw [← segPower_getD fft hfft n s (hlen' s hs) i hi]
                  simp [List.getD_eq_getElem?_getD, hi']
                · have hi' : (segPower fft n s).length ≤ i := by rw [hl]; exact not_lt.1 hi
                  simp [hi', not_lt.1 hi]
            clear h1 h2 hm hph hfreq hnb hvar hne hsub hI hfil hus hf hlen'
            generalize acc.subcs = q at hF
            induction hF with
            | nil => exact List.Forall₂.nil
            | cons hh ht ih =>
              exact List.Forall₂.cons (aux _ _ (by simp) hh)
                (ih (fun s hs => hlen s (by simp [hs])) (fun s c hs => aux s c (by simp [hs])))
          · have hl : acc.subcs.length = us.length := hI.subcs.length_eq.symm
            dsimp only
            unfold columnSum mean
            rw [List.map_map]
            apply List.map_congr_left
            intro i _
            simp only [Function.comp, List.length_map, hI.nAve, hl]

/-- **C41 (success).** For segments without errors and a known normalisation the average is always computed. -/
theorem avg_pds_total (fft : List K → List (Cx K)) (hfft : ∀ l, (fft l).length = l.length)
    (dt : K) (norm : Norm) (hnorm : norm ≠ .other) (ucm : Bool) (n : Nat) (segs : List (Segment K))
    (hplain : ∀ s ∈ segs, s.data.2 = none)
    (hlen : ∀ s ∈ segs, usable s = true → (fluxes s).length = n) :
    ∃ r, avgPds fft dt norm ucm segs = .ok r := by
  have hno : ∀ a b c : K, ∃ f, normalizer norm dt a b c none 0 = .ok f := by
    intro a b c
    unfold normalizer
    cases norm <;> simp at hnorm ⊢
  have hl : ∀ s ∈ segs, s.skipped = false → s.data.1.length = n := by
    intro s hs hsk
    rw [data_fluxes]
    exact hlen s hs (by rw [usable_eq, hsk]; rfl)
  have hfold := pds_foldlM hfft segs [] _ (pdsInv_init fft dt norm ucm n) hl
  obtain ⟨acc, hacc⟩ := hfold.2 (by
    intro s hs _
    unfold segNormed perSegment
    cases ucm with
    | true => exact ⟨_, rfl⟩
    | false =>
      unfold normalizeRe
      obtain ⟨f, hf⟩ := hno n (s.data.1.sum / n) s.data.1.sum
      rw [hplain s hs, hf]
      exact ⟨_, rfl⟩)
  have hI := hfold.1 acc hacc
  have hv : acc.variance = none := by
    apply hI.variance.1
    rw [List.filterMap_eq_nil_iff]
    intro s hs
    rw [List.nil_append, List.mem_filter] at hs
    exact hplain s hs.1
  unfold avgPds
  rw [hacc]
  simp only [bind, Except.bind]
  unfold pdsFinish
  cases hc : acc.cross with
  | none => exact ⟨_, rfl⟩
  | some c =>
    cases hu : acc.unnorm with
    | none => exact ⟨_, rfl⟩
    | some u =>
      obtain ⟨f, hf⟩ := hno acc.nBin (acc.sumPh / acc.nAve / acc.nBin) (acc.sumPh / acc.nAve)
      simp only [hv, Option.map_none, hf, Except.map, bind, Except.bind]
      cases ucm <;> exact ⟨_, rfl⟩

/-- **C41 (no influence).** Missing and all-zero segments (without errors) have no influence on the result. -/
theorem avg_pds_ignores_unusable (fft : List K → List (Cx K)) (dt : K) (norm : Norm) (ucm : Bool)
    (segs : List (Segment K)) :
    avgPds fft dt norm ucm segs = avgPds fft dt norm ucm (segs.filter usable) := by
  unfold avgPds
  congr 1
  generalize ({ sumPh := 0 } : PdsAcc K) = acc
  induction segs generalizing acc with
  | nil => rfl
  | cons s segs ih =>
    cases hs : s.skipped with
    | true =>
      rw [List.filter_cons_of_neg (by rw [usable_eq, hs]; simp), List.foldlM_cons]
      have : pdsStep fft dt norm ucm acc s = .ok acc := by simp [pdsStep, hs]
      rw [this]
      exact ih acc
    | false =>
      rw [List.filter_cons_of_pos (by rw [usable_eq, hs]; rfl), List.foldlM_cons, List.foldlM_cons]
      cases pdsStep fft dt norm ucm acc s with
      | error e => rfl
      | ok a => exact ih a

/-- a transform of four samples, exact over the rationals: the discrete Fourier transform -/
def dft4 (l : List ℚ) : List (Cx ℚ) :=
  match l with
  | [a, b, c, d] => [⟨a + b + c + d, 0⟩, ⟨a - c, d - b⟩, ⟨a - b + c - d, 0⟩, ⟨a - c, b - d⟩]
  | l => l.map fun x => ⟨x, 0⟩

theorem dft4_length (l : List ℚ) : (dft4 l).length = l.length := by
  unfold dft4; split <;> simp

/-- **C41 (negation).** When the segments come with errors, an all-zero segment does have an influence: it is averaged, so the power is halved here. -/
theorem avg_pds_zero_with_errors : ∃ t t',
    avgPds dft4 1 .abs true [.fluxErr [1, 2, 0, 1] [1, 1, 1, 1]] = .ok (some t) ∧
    avgPds dft4 1 .abs true [.fluxErr [1, 2, 0, 1] [1, 1, 1, 1], .fluxErr [0, 0, 0, 0] [1, 1, 1, 1]] = .ok (some t') ∧
    t.m = 1 ∧ t'.m = 2 ∧ t.power = [1] ∧ t'.power = [1 / 2] := by
  refine ⟨⟨[1/4], [1], [2], 4, 1, 4, 1, some 1, 4, 1/4, [[1]], [[2]]⟩,
    ⟨[1/4], [1/2], [1], 4, 2, 2, 1/2, some 1, 4, 1/4, [[1], [0]], [[2], [0]]⟩, ?_⟩
  decide +kernel

example : (avgPds dft4 1 .leahy true [.flux [1, 2, 0, 1], .missing, .flux [0, 0, 0, 0], .flux [3, 1, 0, 2]]).toOption.map
    (fun r => r.map fun t => (t.m, t.unnormPower, t.power)) = some (some (2, [6], [12/5])) := by decide +kernel

end Stingray.Fourier

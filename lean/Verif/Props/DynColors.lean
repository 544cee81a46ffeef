import Verif.Model.DynColors
import Verif.Props.PowerColors
import Verif.Props.PowerStats
import Verif.Lemmas.GtiSegments

/-!
Power colours and rms of dynamical spectra (C168).
-/

set_option linter.unusedSectionVars false

namespace Stingray.DynColors

open Stingray Stingray.PowerColors Stingray.PowerStats

variable {K : Type} [Field K] [LinearOrder K] [IsStrictOrderedRing K]

theorem colors_ok (d : Dyn K) (edges : List K) (excl : List (K × K)) (noise : K) (out : List (Option K × Option K)) (d' : Dyn K) (h : powerColors d edges excl noise = .ok (out, d')) :
    List.Forall₂ (fun col (o : (Option K × Option K) × List K) => powerColor (d.freq.zip col) d.df edges excl noise = .ok o) d.cols (out.zip d'.cols) ∧ out.length = d'.cols.length ∧
      d' = { d with cols := d'.cols } := by
  unfold powerColors at h
  rcases hm : d.cols.mapM (columnColors d edges excl noise) with e | l
  · simp only [hm] at h; cases h
  · simp only [hm] at h
    cases l with
    | nil => cases h
    | cons x l =>
      cases h
      have hf := Gti.mapM_ok_forall2 _ _ _ hm
      refine ⟨?_, by simp, rfl⟩
      rw [List.zip_map']
      simp only [Prod.mk.eta, List.map_id']
      exact hf

/-- **C168.** The colours of a dynamical spectrum are, column by column, those of the spectrum at that time: one pair for each time, in order. -/
theorem colors_columns (d : Dyn K) (edges : List K) (excl : List (K × K)) (noise : K) (out : List (Option K × Option K)) (d' : Dyn K) (h : powerColors d edges excl noise = .ok (out, d')) :
    List.Forall₂ (fun col o => (powerColor (d.freq.zip col) d.df edges excl noise).map Prod.fst = .ok o) d.cols out := by
  obtain ⟨hf, hl, _⟩ := colors_ok d edges excl noise out d' h
  have hmap : List.Forall₂ (fun col o => (powerColor (d.freq.zip col) d.df edges excl noise).map Prod.fst = .ok o) d.cols ((out.zip d'.cols).map Prod.fst) := by
    rw [List.forall₂_map_right_iff]
    refine hf.imp ?_
    intro col o ho
    rw [ho]; rfl
  rwa [List.map_fst_zip (by omega)] at hmap

theorem powerColor_no_excl (spec : List (K × K)) (df noise : K) (edges : List K) (o : (Option K × Option K) × List K) (h : powerColor spec df edges [] noise = .ok o) : o.2 = spec.map Prod.snd := by
  unfold powerColor at h
  simp only [List.foldlM_nil, pure, Except.pure] at h
  split at h
  · split at h
    · split_ifs at h
      split at h
      · cases h; rfl
      · cases h
    · cases h
  · cases h

/-- **C168.** Without frequencies to exclude, the dynamical spectrum is left as it was. -/
theorem colors_unchanged (d : Dyn K) (hcols : ∀ col ∈ d.cols, col.length = d.freq.length) (edges : List K) (noise : K) (out : List (Option K × Option K)) (d' : Dyn K)
    (h : powerColors d edges [] noise = .ok (out, d')) : d' = d := by
  obtain ⟨hf, hl, hd⟩ := colors_ok d edges [] noise out d' h
  have hcols' : d'.cols = d.cols := by
    have h1 : (out.zip d'.cols).map Prod.snd = d'.cols := List.map_snd_zip (by omega)
    rw [← h1]
    clear hd h1 h
    generalize out.zip d'.cols = l at hf
    generalize d.cols = c at hf hcols
    induction hf with
    | nil => rfl
    | cons h1 _ ih =>
      rw [List.map_cons, ih fun col hc => hcols col (List.mem_cons_of_mem _ hc), powerColor_no_excl _ _ _ _ _ h1,
        List.map_snd_zip (by have := hcols _ List.mem_cons_self; omega)]
  rw [hd, hcols']

/-- **C168.** The colours do not depend on the normalisation: multiplying the powers and the noise level by the same number gives the same colours, and the same errors. -/
theorem colors_scale (c : K) (hc : c ≠ 0) (d : Dyn K) (edges : List K) (excl : List (K × K)) (noise : K) :
    (powerColors { d with cols := d.cols.map fun col => col.map fun p => c * p } edges excl (c * noise)).map Prod.fst = (powerColors d edges excl noise).map Prod.fst := by
  have hcol : ∀ col : List K, (columnColors { d with cols := d.cols.map fun col => col.map fun p => c * p } edges excl (c * noise) (col.map fun p => c * p)).map Prod.fst =
      (columnColors d edges excl noise col).map Prod.fst := by
    intro col
    unfold columnColors
    rw [← power_color_scale c hc (d.freq.zip col) d.df noise edges excl]
    congr 2
    rw [List.zip_map_right]
    rfl
  have hmap : ∀ cols : List (List K), ((cols.map fun col => col.map fun p => c * p).mapM (columnColors { d with cols := d.cols.map fun col => col.map fun p => c * p } edges excl (c * noise))).map
      (fun l => l.map Prod.fst) = (cols.mapM (columnColors d edges excl noise)).map fun l => l.map Prod.fst := by
    intro cols
    induction cols with
    | nil => rfl
    | cons col cols ih =>
      rw [List.map_cons, List.mapM_cons, List.mapM_cons]
      have h1 := hcol col
      rcases ha : columnColors { d with cols := d.cols.map fun col => col.map fun p => c * p } edges excl (c * noise) (col.map fun p => c * p) with e | o
      · rw [ha] at h1
        rcases hb : columnColors d edges excl noise col with e' | o'
        · rw [hb] at h1
          simp only [Except.map] at h1
          cases h1
          rfl
        · rw [hb] at h1; cases h1
      · rw [ha] at h1
        rcases hb : columnColors d edges excl noise col with e' | o'
        · rw [hb] at h1; cases h1
        · rw [hb] at h1
          simp only [Except.map, Except.ok.injEq] at h1
          simp only [bind, Except.bind]
          rcases hx : (cols.map fun col => col.map fun p => c * p).mapM (columnColors { d with cols := d.cols.map fun col => col.map fun p => c * p } edges excl (c * noise)) with e | l
          · rw [hx] at ih
            rcases hy : cols.mapM (columnColors d edges excl noise) with e' | l'
            · rw [hy] at ih
              simp only [Except.map] at ih
              cases ih
              rfl
            · rw [hy] at ih; cases ih
          · rw [hx] at ih
            rcases hy : cols.mapM (columnColors d edges excl noise) with e' | l'
            · rw [hy] at ih; cases ih
            · rw [hy] at ih
              simp only [Except.map, Except.ok.injEq] at ih
              simp only [pure, Except.pure, Except.map, List.map_cons, h1, ih]
  have h := hmap d.cols
  unfold powerColors
  simp only
  rcases hx : (d.cols.map fun col => col.map fun p => c * p).mapM (columnColors { d with cols := d.cols.map fun col => col.map fun p => c * p } edges excl (c * noise)) with e | l
  · rw [hx] at h
    rcases hy : d.cols.mapM (columnColors d edges excl noise) with e' | l'
    · rw [hy] at h
      simp only [Except.map] at h
      cases h
      rfl
    · rw [hy] at h; cases h
  · rw [hx] at h
    rcases hy : d.cols.mapM (columnColors d edges excl noise) with e' | l'
    · rw [hy] at h; cases h
    · rw [hy] at h
      simp only [Except.map, Except.ok.injEq] at h
      cases l with
      | nil =>
        cases l' with
        | nil => rfl
        | cons => simp at h
      | cons x l =>
        cases l' with
        | nil => simp at h
        | cons x' l' => simp only [Except.map, h]

/-- **C168.** Errors: a spectrum without columns, or edges that are not five, are refused. -/
theorem colors_refuses (d : Dyn K) (edges : List K) (excl : List (K × K)) (noise : K) :
    (d.cols = [] → powerColors d edges excl noise = .error .valueError) ∧ (edges.length ≠ 5 → powerColors d edges excl noise = .error .valueError) := by
  have h0 : d.cols = [] → powerColors d edges excl noise = .error .valueError := by
    intro h
    unfold powerColors
    rw [h]
    rfl
  refine ⟨h0, fun h5 => ?_⟩
  rcases hc : d.cols with _ | ⟨col, cols⟩
  · exact h0 hc
  · have he : columnColors d edges excl noise col = .error .valueError := by
      unfold columnColors powerColor
      split
      · simp at h5
      · rfl
    unfold powerColors
    rw [hc, List.mapM_cons, he]
    rfl

/-- A dynamical spectrum with nine frequencies and two times. -/
def sample : Dyn ℚ := ⟨[1, 2, 3, 4, 5, 6, 7, 8, 9], [[1, 1, 1, 9, 1, 1, 1, 1, 1], [2, 2, 2, 2, 2, 2, 2, 2, 2]], 1, 1, 10, 10, 1⟩

/-- **C168 (negation).** With frequencies to exclude, the call overwrites the dynamical spectrum, and the same call made again gives other colours. -/
theorem colors_modifies :
    (powerColors sample [1, 3, 5, 7, 9] [(13/4, 23/4)] 0).map (fun r => (r.1, r.2.cols)) =
      .ok ([(some (1/2), some 4), (some 1, some 1)], [[1, 1, 1, 5, 5, 1, 1, 1, 1], [2, 2, 2, 2, 2, 2, 2, 2, 2]]) ∧
    ((powerColors sample [1, 3, 5, 7, 9] [(13/4, 23/4)] 0).bind fun r => powerColors r.2 [1, 3, 5, 7, 9] [(13/4, 23/4)] 0).map (fun r => r.1) =
      .ok [(some (2/3), some (5/2)), (some 1, some 1)] := by
  decide +kernel

example : (powerColors sample [1, 3, 5, 7, 9] [] 0).map (fun r => r.1) = .ok [(some 1, some 5), (some 1, some 1)] := by decide +kernel

section Rms

variable [FloorRing K] (sqrt : K → K) (hsqrt : ∀ x, 0 ≤ x → 0 ≤ sqrt x ∧ sqrt x ^ 2 = x)

/-- Specification: the noise-subtracted power of one column between `lo` and `hi`, in the fractional rms normalisation. -/
def bandExcess (d : Dyn K) (lo hi noise : K) (col : List K) : K :=
  ((inBand d.freq lo hi).map fun i => (col.getD i 0 - noise) / d.conv * (2 * d.segmentSize / d.nphots ^ 2) * d.df).sum

include hsqrt

theorem column_rms (d : Dyn K) (hdf : 0 < d.df) (hn : d.nphots ≠ 0) (hT : d.segmentSize ≠ 0) (lo hi noise : K) (col : List K) (hcol : col.length = d.freq.length) :
    ∃ r e, columnRms sqrt d lo hi noise col = .ok (r, e) ∧ 0 ≤ r ∧ r ^ 2 = max 0 (bandExcess d lo hi noise col) := by
  have hu : columnRms sqrt d lo hi noise col = rmsNorm sqrt
      ((pick (d.freq.map fun f => decide (lo ≤ f ∧ f ≤ hi)) (col.map fun p => p / d.conv)).map fun p => p * 2 / d.nphots / (d.nphots / d.segmentSize))
      (noise / d.conv * 2 / d.nphots / (d.nphots / d.segmentSize)) (.const d.df) (.const d.m) := rfl
  rw [hu, rmsNorm_const]
  obtain ⟨e, he⟩ := totalPowerErr_ok sqrt ((pick (d.freq.map fun f => decide (lo ≤ f ∧ f ≤ hi)) (col.map fun p => p / d.conv)).map fun p => p * 2 / d.nphots / (d.nphots / d.segmentSize))
    (.const d.df) (.const d.m) (fun x hx => by cases hx; exact hdf)
  rw [he]
  simp only [Except.bind]
  have htot : (List.zipWith (fun p w => (p - noise / d.conv * 2 / d.nphots / (d.nphots / d.segmentSize)) * w)
      ((pick (d.freq.map fun f => decide (lo ≤ f ∧ f ≤ hi)) (col.map fun p => p / d.conv)).map fun p => p * 2 / d.nphots / (d.nphots / d.segmentSize))
      ((Per.const d.df).values ((pick (d.freq.map fun f => decide (lo ≤ f ∧ f ≤ hi)) (col.map fun p => p / d.conv)).map fun p => p * 2 / d.nphots / (d.nphots / d.segmentSize)).length)).sum =
      bandExcess d lo hi noise col := by
    rw [pick_eq d.freq _ (by simpa using hcol) lo hi, List.map_map]
    unfold bandExcess
    simp only [Per.values]
    rw [List.length_map, ← List.map_const', zipWith_map_sum]
    congr 1
    refine List.map_congr_left fun i _ => ?_
    have hg : (col.map fun p => p / d.conv).getD i 0 = col.getD i 0 / d.conv := by
      rw [List.getD_eq_getElem?_getD, List.getD_eq_getElem?_getD, List.getElem?_map]
      cases col[i]? <;> simp
    simp only [Function.comp]
    rw [hg]
    field_simp
  rw [htot]
  by_cases h0 : bandExcess d lo hi noise col < 0
  · rw [if_pos h0]
    exact ⟨0, some 0, rfl, le_rfl, by rw [max_eq_left h0.le]; simp⟩
  · rw [if_neg h0]
    obtain ⟨h1, h2⟩ := hsqrt _ (not_lt.1 h0)
    rw [max_eq_right (not_lt.1 h0)]
    split_ifs with h3
    · exact ⟨0, none, rfl, le_rfl, by rw [← h2, h3]⟩
    · exact ⟨_, _, rfl, h1, h2⟩

/-- **C168.** `compute_rms` gives one rms for each time: the root of the noise-subtracted power of that column in the band, both ends included, and 0 where it is negative. -/
theorem dynamical_rms (d : Dyn K) (hdf : 0 < d.df) (hn : d.nphots ≠ 0) (hT : d.segmentSize ≠ 0) (lo hi noise : K) (hcols : ∀ col ∈ d.cols, col.length = d.freq.length) :
    ∃ out, computeRms sqrt d lo hi noise = .ok out ∧ List.Forall₂ (fun col (o : K × Option K) => 0 ≤ o.1 ∧ o.1 ^ 2 = max 0 (bandExcess d lo hi noise col)) d.cols out := by
  obtain ⟨out, hout⟩ := Gti.mapM_ok_of_forall (columnRms sqrt d lo hi noise) d.cols fun col hc => by
    obtain ⟨r, e, h, _⟩ := column_rms sqrt hsqrt d hdf hn hT lo hi noise col (hcols col hc)
    exact ⟨_, h⟩
  refine ⟨out, hout, ?_⟩
  have hf := Gti.mapM_ok_forall2 _ _ _ hout
  clear hout
  generalize d.cols = c at hf hcols
  induction hf with
  | nil => exact .nil
  | cons h1 _ ih =>
    obtain ⟨r, e, h, h2⟩ := column_rms sqrt hsqrt d hdf hn hT lo hi noise _ (hcols _ List.mem_cons_self)
    rw [h1] at h
    cases h
    exact .cons h2 (ih fun col hc => hcols col (List.mem_cons_of_mem _ hc))

/-- **C168.** For powers in the fractional rms normalisation (where the conversion is `2 T / nphots²`), the squared rms is the sum of the powers above the noise level, times the width of the bins. -/
theorem dynamical_rms_frac (d : Dyn K) (hdf : 0 < d.df) (hn : d.nphots ≠ 0) (hT : d.segmentSize ≠ 0) (hconv : d.conv = 2 * d.segmentSize / d.nphots ^ 2) (lo hi noise : K)
    (hcols : ∀ col ∈ d.cols, col.length = d.freq.length) :
    ∃ out, computeRms sqrt d lo hi noise = .ok out ∧
      List.Forall₂ (fun col (o : K × Option K) => 0 ≤ o.1 ∧ o.1 ^ 2 = max 0 ((inBand d.freq lo hi).map fun i => (col.getD i 0 - noise) * d.df).sum) d.cols out := by
  obtain ⟨out, h, hf⟩ := dynamical_rms sqrt hsqrt d hdf hn hT lo hi noise hcols
  refine ⟨out, h, hf.imp ?_⟩
  rintro col o ⟨h1, h2⟩
  refine ⟨h1, ?_⟩
  rw [h2]
  congr 1
  unfold bandExcess
  congr 1
  refine List.map_congr_left fun i _ => ?_
  rw [hconv]
  field_simp

end Rms

example : (computeRms id sample 2 4 1).map (fun l => l.map Prod.fst) = .ok [8 / 5, 3 / 5] := by decide +kernel

example : ∀ col ∈ sample.cols, col.length = sample.freq.length := by decide +kernel

end Stingray.DynColors

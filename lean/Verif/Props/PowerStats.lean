import Verif.Model.PowerStats
import Verif.Props.Dynamic
import Verif.Props.Detection
import Mathlib.Analysis.SpecialFunctions.Trigonometric.Bounds
import Mathlib.Data.List.GetD
import Mathlib.Algebra.Order.Floor.Semifield

/-!
Rms (C160), significances (C161) and upper limits (C162) of power spectra.
-/

set_option linter.unusedSectionVars false

namespace Stingray.PowerStats

open Stingray.Fourier

/-! ## C160: rms -/

section Rms

variable {K : Type} [Field K] [LinearOrder K] [IsStrictOrderedRing K] [FloorRing K]

/-- Specification: the indices of the frequencies from `lo` to `hi`, both included. -/
def inBand (freq : List K) (lo hi : K) : List Nat :=
  (List.range freq.length).filter fun i => decide (lo ≤ freq.getD i 0 ∧ freq.getD i 0 ≤ hi)

/-- Specification: the value at index `i`. -/
def Per.at (p : Per K) (i : Nat) : K :=
  match p with
  | .const x => x
  | .each l => l.getD i 0

/-- Specification: a value for each of `n` frequencies. -/
def Per.Fits (p : Per K) (n : Nat) : Prop :=
  match p with
  | .const _ => True
  | .each l => l.length = n

theorem pick_eq (freq l : List K) (hl : l.length = freq.length) (lo hi : K) :
    pick (freq.map fun f => decide (lo ≤ f ∧ f ≤ hi)) l = (inBand freq lo hi).map fun i => l.getD i 0 := by
  have : l.zip (freq.map fun f => decide (lo ≤ f ∧ f ≤ hi)) =
      (List.range freq.length).map fun i => (l.getD i 0, decide (lo ≤ freq.getD i 0 ∧ freq.getD i 0 ≤ hi)) := by
    apply List.ext_getElem
    · simp [hl]
    · intro i h1 h2
      have hi1 : i < freq.length := by simpa using h2
      simp only [List.getElem_zip, List.getElem_map, List.getElem_range]
      rw [List.getD_eq_getElem _ _ (by omega), List.getD_eq_getElem _ _ hi1]
  unfold pick inBand
  rw [this, List.filter_map, List.map_map]
  rfl

theorem simplify_values (p : Per K) (n : Nat) (h : p.Fits n) : p.simplify.values n = p.values n := by
  cases p with
  | const x => rfl
  | each l =>
    cases l with
    | nil => rfl
    | cons x l =>
      simp only [Per.simplify]
      split_ifs with hall
      · simp only [Per.values]
        have hn : (x :: l).length = n := h
        rw [← hn]
        symm
        rw [List.eq_replicate_iff]
        refine ⟨rfl, fun y hy => ?_⟩
        rcases List.mem_cons.1 hy with rfl | hy
        · rfl
        · have := List.all_eq_true.1 hall y hy
          simpa using this
      · rfl

theorem simplify_isArray (l : List K) (c : K) (hc : c ≠ 0) :
    (Per.each (l.map fun x => c * x)).simplify.isArray = (Per.each l).simplify.isArray := by
  cases l with
  | nil => rfl
  | cons x l =>
    have : (List.map (fun x => c * x) l).all (fun y => decide (y = c * x)) = l.all (fun y => decide (y = x)) := by
      rw [List.all_map]
      congr 1
      funext y
      simp [Function.comp, hc]
    simp only [List.map_cons, Per.simplify, this]
    split_ifs <;> rfl

theorem scale_scale (p : Per K) (a b : K) : (p.scale a).scale b = p.scale (b * a) := by
  cases p <;> simp [Per.scale, mul_assoc]

theorem select_scale (p : Per K) (good : List Bool) (c : K) : (p.scale c).select good = (p.select good).scale c := by
  cases p with
  | const x => rfl
  | each l =>
    simp only [Per.scale, Per.select]
    congr 1
    induction l generalizing good with
    | nil => rfl
    | cons x l ih =>
      cases good with
      | nil => rfl
      | cons g good =>
        have := ih good
        cases g <;> simp_all

theorem isArray_scale (p : Per K) (c : K) (hc : c ≠ 0) : (p.scale c).simplify.isArray = p.simplify.isArray := by
  cases p with
  | const x => rfl
  | each l => exact simplify_isArray l c hc

/-- the values selected, one for each frequency of the band -/
theorem select_values (freq : List K) (p : Per K) (hp : p.Fits freq.length) (lo hi c : K) :
    ((p.select (freq.map fun f => decide (lo ≤ f ∧ f ≤ hi))).scale c).values (inBand freq lo hi).length =
      (inBand freq lo hi).map (fun i => c * p.at i) ∧
    ((p.select (freq.map fun f => decide (lo ≤ f ∧ f ≤ hi))).scale c).Fits (inBand freq lo hi).length := by
  cases p with
  | const x =>
    refine ⟨?_, trivial⟩
    simp only [Per.select, Per.scale, Per.values, Per.at]
    rw [List.map_const']
  | each l =>
    have e := pick_eq freq l hp lo hi
    unfold pick at e
    simp only [Per.select, Per.scale, Per.values, Per.at, Per.Fits, e, List.map_map, List.length_map, and_true]
    rfl

/-- Specification: the power above the noise in the band, in units of the squared mean rate: the sum of `(P - N) 2 T / nph²` times the widths `df k`. -/
def excess (s : Pds K) (T noise lo hi : K) : K :=
  ((inBand s.freq lo hi).map fun i => (s.unnorm.getD i 0 - noise) * 2 * T / s.nphots ^ 2 * (s.df * s.k.at i)).sum

/-- Specification: the sum of `P² width² / m` in the band, with the same units. -/
def squares (s : Pds K) (T lo hi : K) : K :=
  ((inBand s.freq lo hi).map fun i => (s.unnorm.getD i 0 * 2 * T / s.nphots ^ 2) ^ 2 * (s.df * s.k.at i) ^ 2 / s.m.at i).sum

theorem zipWith_map_sum {α : Type} (l : List α) (f g : α → K) (h : K → K → K) :
    List.zipWith h (l.map f) (l.map g) = l.map fun x => h (f x) (g x) := by
  induction l with
  | nil => rfl
  | cons a l ih => simp [ih]

theorem zipWith_map_sum' {α β : Type} (l : List α) (f : α → K) (g : α → β) (h : K → β → K) :
    List.zipWith h (l.map f) (l.map g) = l.map fun x => h (f x) (g x) := by
  induction l with
  | nil => rfl
  | cons a l ih => simp [ih]

/-- a sound spectrum: arrays of one length, numbers of averaged powers proportional to the numbers of merged frequencies -/
structure Sound (s : Pds K) : Prop where
  unnorm : s.unnorm.length = s.freq.length
  k : s.k.Fits s.freq.length
  m : ∃ m0, m0 ≠ 0 ∧ s.m = s.k.scale m0
  df : s.df ≠ 0
  nphots : 0 < s.nphots

theorem rms_total (s : Pds K) (hs : Sound s) (T noise lo hi : K) (hT : 0 < T) (hseg : s.segmentSize = some T) :
    (List.zipWith (fun p d => (p - noise * 2 / s.nphots / (s.nphots / T)) * d)
      ((pick (s.freq.map fun f => decide (lo ≤ f ∧ f ≤ hi)) s.unnorm).map fun p => p * 2 / s.nphots / (s.nphots / T))
      (((s.k.select (s.freq.map fun f => decide (lo ≤ f ∧ f ≤ hi))).scale s.df).simplify.values
        ((pick (s.freq.map fun f => decide (lo ≤ f ∧ f ≤ hi)) s.unnorm).map fun p => p * 2 / s.nphots / (s.nphots / T)).length)).sum =
      excess s T noise lo hi := by
  have hv := select_values s.freq s.k hs.k lo hi s.df
  rw [pick_eq s.freq s.unnorm hs.unnorm, List.length_map, List.length_map, simplify_values _ _ hv.2, hv.1, List.map_map, zipWith_map_sum]
  unfold excess
  congr 1
  apply List.map_congr_left
  intro i _
  have := hs.nphots.ne'
  have := hT.ne'
  simp only [Function.comp]
  field_simp

theorem not_differ (s : Pds K) (hs : Sound s) (lo hi : K) :
    ¬ ((s.m.select (s.freq.map fun f => decide (lo ≤ f ∧ f ≤ hi))).simplify.isArray ≠
      ((s.k.select (s.freq.map fun f => decide (lo ≤ f ∧ f ≤ hi))).scale s.df).simplify.isArray) := by
  obtain ⟨m0, hm0, hm⟩ := hs.m
  rw [not_not, hm, select_scale, isArray_scale _ _ hm0, isArray_scale _ _ hs.df]

variable (sqrt : K → K) (hsqrt : ∀ x, 0 ≤ x → 0 ≤ sqrt x ∧ sqrt x ^ 2 = x)

theorem totalPowerErr_ok (power : List K) (df M : Per K) (hdf : ∀ d, df = .const d → 0 < d) : ∃ e, totalPowerErr sqrt power df M = .ok e := by
  unfold totalPowerErr
  split
  · next d m =>
    split_ifs with h
    · have hd := hdf d rfl
      obtain ⟨out, ho⟩ := Stingray.Dynamic.rebinData_exists sqrt ((List.range power.length).map fun (i : Nat) => (i : K) * d) power (d * 4) .mean (.scalar d)
        (by
          intro hc
          have := congrArg List.length hc
          simp at this
          rw [this] at h
          simp at h)
        (by simp [Rebin.dxOld, hd.ne'])
        (by
          intro x hx
          simp [Rebin.dxOld, hd.ne'] at hx
          rw [hx]; linarith) (by simp)
      rw [ho]
      exact ⟨_, rfl⟩
    · exact ⟨_, rfl⟩
  · exact ⟨_, rfl⟩

theorem const_pos (freq : List K) (p : Per K) (c lo hi : K) (hc : 0 < c) (hfit : p.Fits freq.length) (hp : ∀ i < freq.length, 0 < p.at i) (hcst : ∀ x, p = .const x → 0 < x)
    (d : K) (h : ((p.select (freq.map fun f => decide (lo ≤ f ∧ f ≤ hi))).scale c).simplify = .const d) : 0 < d := by
  cases p with
  | const x =>
    simp only [Per.select, Per.scale, Per.simplify, Per.const.injEq] at h
    rw [← h]
    exact mul_pos hc (hcst x rfl)
  | each l =>
    have hv := select_values freq (.each l) hfit lo hi c
    have h1 := hv.1
    simp only [Per.select, Per.scale, Per.values] at h1 h
    rw [h1] at h
    cases hb : inBand freq lo hi with
    | nil => rw [hb] at h; simp [Per.simplify] at h
    | cons i t =>
      rw [hb] at h
      simp only [List.map_cons, Per.simplify] at h
      split_ifs at h
      cases h
      refine mul_pos hc (hp i ?_)
      have : i ∈ inBand freq lo hi := by rw [hb]; simp
      exact List.mem_range.1 (List.mem_of_mem_filter this)

/-- the rms, with an error that may be anything -/
theorem compute_rms_fst (s : Pds K) (hs : Sound s) (hdf : 0 < s.df) (hk : ∀ i < s.freq.length, 0 < s.k.at i) (hkc : ∀ x, s.k = .const x → 0 < x)
    (T lo hi noise : K) (hT : 0 < T) (hseg : s.segmentSize = some T) (level : Option K) (hlevel : noiseOf s level = .ok noise) :
    ∃ e, totalPowerErr sqrt ((inBand s.freq lo hi).map fun i => s.unnorm.getD i 0 * 2 / s.nphots / (s.nphots / T))
      ((s.k.select (s.freq.map fun f => decide (lo ≤ f ∧ f ≤ hi))).scale s.df).simplify
      (s.m.select (s.freq.map fun f => decide (lo ≤ f ∧ f ≤ hi))).simplify = .ok e ∧
    computeRms sqrt s lo hi level =
      if excess s T noise lo hi < 0 then .ok (0, some 0)
      else if sqrt (excess s T noise lo hi) = 0 then .ok (0, none)
      else .ok (sqrt (excess s T noise lo hi), some (1 / 2 / sqrt (excess s T noise lo hi) * e)) := by
  obtain ⟨e, he⟩ := totalPowerErr_ok sqrt ((inBand s.freq lo hi).map fun i => s.unnorm.getD i 0 * 2 / s.nphots / (s.nphots / T))
    ((s.k.select (s.freq.map fun f => decide (lo ≤ f ∧ f ≤ hi))).scale s.df).simplify
    (s.m.select (s.freq.map fun f => decide (lo ≤ f ∧ f ≤ hi))).simplify
    (fun d hd => const_pos s.freq s.k s.df lo hi hdf hs.k hk hkc d hd)
  refine ⟨e, he, ?_⟩
  have hp : (pick (s.freq.map fun f => decide (lo ≤ f ∧ f ≤ hi)) s.unnorm).map (fun p => p * 2 / s.nphots / (s.nphots / T)) =
      (inBand s.freq lo hi).map fun i => s.unnorm.getD i 0 * 2 / s.nphots / (s.nphots / T) := by
    rw [pick_eq s.freq s.unnorm hs.unnorm, List.map_map]; rfl
  have ht := rms_total s hs T noise lo hi hT hseg
  rw [hp] at ht
  simp only [computeRms, hlevel, rmsUnnorm, segmentSizeOr, hseg, bind, Except.bind, Option.getD_some, hp, rmsNorm,
    if_neg (not_differ s hs lo hi), he, ht]

include hsqrt

/-- **C160.** For a power spectrum with Poisson noise `noise`, merged or not, `compute_rms` between two frequencies (both included) gives the `r >= 0` whose square is the excess of the powers over the noise in the band, in units of the squared mean rate; and `(0, 0)` if there is no excess. -/
theorem compute_rms_value (s : Pds K) (hs : Sound s) (hdf : 0 < s.df) (hk : ∀ i < s.freq.length, 0 < s.k.at i) (hkc : ∀ x, s.k = .const x → 0 < x)
    (T lo hi noise : K) (hT : 0 < T) (hseg : s.segmentSize = some T) (level : Option K) (hlevel : noiseOf s level = .ok noise) :
    (excess s T noise lo hi < 0 → computeRms sqrt s lo hi level = .ok (0, some 0)) ∧
    (0 ≤ excess s T noise lo hi → ∃ r e, computeRms sqrt s lo hi level = .ok (r, e) ∧ 0 ≤ r ∧ r ^ 2 = excess s T noise lo hi) := by
  obtain ⟨e, -, h⟩ := compute_rms_fst sqrt s hs hdf hk hkc T lo hi noise hT hseg level hlevel
  constructor
  · intro h0
    rw [h, if_pos h0]
  · intro h0
    rw [if_neg (not_lt.2 h0)] at h
    obtain ⟨h1, h2⟩ := hsqrt _ h0
    split_ifs at h with h3
    · exact ⟨0, none, h, le_refl _, by rw [h3] at h2; exact h2⟩
    · exact ⟨_, _, h, h1, h2⟩

/-- **C160 (error).** Its error `v` has `2 r v` equal to the root of the sum of `P² width² / m`, unless powers that are not averaged (`m = 1`) are merged for it (more than four of them). -/
theorem compute_rms_error (s : Pds K) (hs : Sound s) (hdf : 0 < s.df) (hk : ∀ i < s.freq.length, 0 < s.k.at i) (hkc : ∀ x, s.k = .const x → 0 < x)
    (T lo hi noise : K) (hT : 0 < T) (hseg : s.segmentSize = some T) (level : Option K) (hlevel : noiseOf s level = .ok noise)
    (hex : 0 < excess s T noise lo hi) (hm : (∃ i ∈ inBand s.freq lo hi, s.m.at i ≠ 1) ∨ (inBand s.freq lo hi).length ≤ 4) :
    ∃ r v, computeRms sqrt s lo hi level = .ok (r, some v) ∧ 0 < r ∧ 2 * r * v = sqrt (squares s T lo hi) := by
  obtain ⟨e, he, h⟩ := compute_rms_fst sqrt s hs hdf hk hkc T lo hi noise hT hseg level hlevel
  obtain ⟨h1, h2⟩ := hsqrt _ hex.le
  have hne : sqrt (excess s T noise lo hi) ≠ 0 := by
    intro h0
    rw [h0] at h2
    simp at h2
    exact hex.ne' h2.symm
  rw [if_neg (not_lt.2 hex.le), if_neg hne] at h
  refine ⟨_, _, h, lt_of_le_of_ne h1 (Ne.symm hne), ?_⟩
  have e1 : 2 * sqrt (excess s T noise lo hi) * (1 / 2 / sqrt (excess s T noise lo hi) * e) = e := by field_simp
  rw [e1]
  set B := inBand s.freq lo hi with hB
  set P := B.map fun i => s.unnorm.getD i 0 * 2 / s.nphots / (s.nphots / T) with hP
  have hlenP : P.length = B.length := by simp [hP]
  obtain ⟨m0, hm0, hmm⟩ := hs.m
  have hvk := select_values s.freq s.k hs.k lo hi s.df
  have hmv := select_values s.freq s.k hs.k lo hi m0
  rw [← select_scale, ← hmm] at hmv
  rw [← hB] at hvk hmv
  have hmat : ∀ i, m0 * s.k.at i = s.m.at i ∨ s.freq.length ≤ i := by
    intro i
    rw [hmm]
    cases hkk : s.k with
    | const x => left; rfl
    | each l =>
      rcases Nat.lt_or_ge i s.freq.length with hi' | hi'
      · left
        have hl : l.length = s.freq.length := by have := hs.k; rw [hkk] at this; exact this
        simp only [Per.at, Per.scale]
        rw [List.getD_eq_getElem _ _ (by omega), List.getD_eq_getElem _ _ (by simp; omega), List.getElem_map]
      · right; exact hi'
  have hmB : B.map (fun i => m0 * s.k.at i) = B.map s.m.at := by
    apply List.map_congr_left
    intro i hi'
    rcases hmat i with h | h
    · exact h
    · have := List.mem_range.1 (List.mem_of_mem_filter (hB ▸ hi'))
      omega
  rw [hmB] at hmv
  have hgen : sumSquares P (((s.k.select (s.freq.map fun f => decide (lo ≤ f ∧ f ≤ hi))).scale s.df).simplify.values P.length)
      ((s.m.select (s.freq.map fun f => decide (lo ≤ f ∧ f ≤ hi))).simplify.values P.length) = squares s T lo hi := by
    rw [hlenP, simplify_values _ _ hvk.2, simplify_values _ _ hmv.2, hvk.1, hmv.1]
    unfold sumSquares squares
    rw [List.zip_map', hP, zipWith_map_sum' , ← hB]
    congr 1
    apply List.map_congr_left
    intro i _
    have := hs.nphots.ne'
    have := hT.ne'
    have e3 : s.unnorm.getD i 0 * 2 / s.nphots / (s.nphots / T) = s.unnorm.getD i 0 * 2 * T / s.nphots ^ 2 := by field_simp
    simp only [e3]
  have hsel : ∀ m, (s.m.select (s.freq.map fun f => decide (lo ≤ f ∧ f ≤ hi))).simplify = .const m → ∀ i ∈ B, s.m.at i = m := by
    intro m hm' i hi'
    have h1 := simplify_values _ _ hmv.2
    rw [hm', hmv.1] at h1
    simp only [Per.values] at h1
    have : s.m.at i ∈ B.map s.m.at := List.mem_map.2 ⟨i, hi', rfl⟩
    rw [← h1] at this
    exact List.eq_of_mem_replicate this
  unfold totalPowerErr at he
  split at he
  · next d m hd hm' =>
    split_ifs at he with hc
    · exfalso
      rcases hm with ⟨i, hi', hne1⟩ | hle
      · exact hne1 (by rw [hsel m hm' i hi', hc.1])
      · omega
    · cases he
      rw [hd, hm'] at hgen
      rw [← hgen]
      rfl
  · cases he
    rw [hgen]

omit hsqrt in
theorem overlap_group (d : K) (hd : 0 < d) (g j : Nat) :
    Spec.overlap (Dynamic.newStart 0 d (d * 4) g) (Dynamic.newStart 0 d (d * 4) g + d * 4) (0 + ((j : K) - 1 / 2) * d) (0 + ((j : K) + 1 / 2) * d) =
      if 4 * g ≤ j ∧ j < 4 * g + 4 then d else 0 := by
  unfold Spec.overlap Dynamic.newStart
  have e1 : (0 : K) - d / 2 + (g : K) * (d * 4) = ((4 * g : Nat) : K) * d - d / 2 := by push_cast; ring
  have e2 : (0 : K) - d / 2 + (g : K) * (d * 4) + d * 4 = ((4 * g + 4 : Nat) : K) * d - d / 2 := by push_cast; ring
  have e3 : (0 : K) + ((j : K) - 1 / 2) * d = (j : K) * d - d / 2 := by ring
  have e4 : (0 : K) + ((j : K) + 1 / 2) * d = ((j + 1 : Nat) : K) * d - d / 2 := by push_cast; ring
  rw [e2, e1, e3, e4, min_sub_sub_right, max_sub_sub_right, ← min_mul_of_nonneg _ _ hd.le, ← max_mul_of_nonneg _ _ hd.le, ← Nat.cast_min, ← Nat.cast_max]
  by_cases hc : 4 * g ≤ j ∧ j < 4 * g + 4
  · rw [if_pos hc, show min (4 * g + 4) (j + 1) = j + 1 by omega, show max (4 * g) j = j by omega]
    push_cast
    rw [show ((j : K) + 1) * d - d / 2 - ((j : K) * d - d / 2) = d by ring]
    exact max_eq_right hd.le
  · rw [if_neg hc]
    have h1 : min (4 * g + 4) (j + 1) ≤ max (4 * g) j := by omega
    have h2 : ((min (4 * g + 4) (j + 1) : Nat) : K) * d ≤ ((max (4 * g) j : Nat) : K) * d := mul_le_mul_of_nonneg_right (Nat.cast_le.2 h1) hd.le
    exact max_eq_left (by linarith)

omit hsqrt in
theorem total_group (d : K) (hd : 0 < d) (y : List K) (g : Nat) (hg : 4 * g + 4 ≤ y.length) :
    Dynamic.total 0 d y (Dynamic.newStart 0 d (d * 4) g) (Dynamic.newStart 0 d (d * 4) g + d * 4) =
      (y.getD (4 * g) 0 + y.getD (4 * g + 1) 0 + y.getD (4 * g + 2) 0 + y.getD (4 * g + 3) 0) * d := by
  unfold Dynamic.total
  simp only [overlap_group d hd g]
  have : ∀ j ∈ Finset.range y.length, y.getD j 0 * (if 4 * g ≤ j ∧ j < 4 * g + 4 then d else 0) = if 4 * g ≤ j ∧ j < 4 * g + 4 then y.getD j 0 * d else 0 := by
    intro j _
    split_ifs <;> simp
  rw [Finset.sum_congr rfl this, ← Finset.sum_filter]
  have hf : (Finset.range y.length).filter (fun j => 4 * g ≤ j ∧ j < 4 * g + 4) = Finset.Ico (4 * g) (4 * g + 4) := by
    ext j
    simp only [Finset.mem_filter, Finset.mem_range, Finset.mem_Ico]
    omega
  rw [hf, Finset.sum_Ico_eq_sum_range, show 4 * g + 4 - 4 * g = 4 by omega]
  simp only [Finset.sum_range_succ, Finset.sum_range_zero, add_zero]
  ring

/-- Specification: the power at index `i` of the band, in the fractional rms normalisation. -/
def bandPower (s : Pds K) (T lo hi : K) (i : Nat) : K := ((inBand s.freq lo hi).map fun i => s.unnorm.getD i 0 * 2 * T / s.nphots ^ 2).getD i 0

/-- Specification: the average of four successive powers. -/
def fourMean (s : Pds K) (T lo hi : K) (g : Nat) : K :=
  (bandPower s T lo hi (4 * g) + bandPower s T lo hi (4 * g + 1) + bandPower s T lo hi (4 * g + 2) + bandPower s T lo hi (4 * g + 3)) / 4

/-- **C160 (error, merged).** When more than four powers are not averaged (`m = 1`, no merging of frequencies), they are averaged four by four for the error, the remainder left out: the root of the sum of `P² (4 width)² / 4` over the averages `P` is scaled by the
number of powers over the number of those that were averaged. -/
theorem compute_rms_error_merged (s : Pds K) (hs : Sound s) (hdf : 0 < s.df) (hk : s.k = .const 1) (hm : s.m = .const 1)
    (T lo hi noise : K) (hT : 0 < T) (hseg : s.segmentSize = some T) (level : Option K) (hlevel : noiseOf s level = .ok noise)
    (hex : 0 < excess s T noise lo hi) (hn : 4 < (inBand s.freq lo hi).length) :
    ∃ r v, computeRms sqrt s lo hi level = .ok (r, some v) ∧ 0 < r ∧
      2 * r * v = sqrt (((List.range ((inBand s.freq lo hi).length / 4)).map fun g => fourMean s T lo hi g ^ 2 * (4 * s.df) ^ 2 / 4).sum) *
        (((inBand s.freq lo hi).length : K) / (4 * ((inBand s.freq lo hi).length / 4 : Nat))) := by
  obtain ⟨e, he, h⟩ := compute_rms_fst sqrt s hs hdf (by rw [hk]; intro _ _; exact zero_lt_one) (by rw [hk]; intro x hx; cases hx; exact zero_lt_one) T lo hi noise hT hseg level hlevel
  obtain ⟨h1, h2⟩ := hsqrt _ hex.le
  have hne : sqrt (excess s T noise lo hi) ≠ 0 := by
    intro h0
    rw [h0] at h2
    simp at h2
    exact hex.ne' h2.symm
  rw [if_neg (not_lt.2 hex.le), if_neg hne] at h
  refine ⟨_, _, h, lt_of_le_of_ne h1 (Ne.symm hne), ?_⟩
  have e1 : 2 * sqrt (excess s T noise lo hi) * (1 / 2 / sqrt (excess s T noise lo hi) * e) = e := by field_simp
  rw [e1]
  have hPe : ((inBand s.freq lo hi).map fun i => s.unnorm.getD i 0 * 2 / s.nphots / (s.nphots / T)) = (inBand s.freq lo hi).map fun i => s.unnorm.getD i 0 * 2 * T / s.nphots ^ 2 := by
    refine List.map_congr_left fun i _ => ?_
    have := hs.nphots.ne'
    have := hT.ne'
    field_simp
  rw [hPe, hk, hm] at he
  set P := (inBand s.freq lo hi).map fun i => s.unnorm.getD i 0 * 2 * T / s.nphots ^ 2 with hP
  have hlen : P.length = (inBand s.freq lo hi).length := by simp [hP]
  have hcs : ∀ (c : K) (mask : List Bool), ((Per.const c : Per K).select mask).simplify = .const c := fun c mask => rfl
  have hcs' : ∀ (mask : List Bool), (((Per.const 1 : Per K).select mask).scale s.df).simplify = .const (s.df * 1) := fun mask => rfl
  rw [hcs, hcs', mul_one] at he
  have hbm : bandPower s T lo hi = fun i => P.getD i 0 := rfl
  unfold totalPowerErr at he
  simp only at he
  rw [if_pos ⟨trivial, by omega⟩] at he
  have hgrid : ((List.range P.length).map fun (i : Nat) => (i : K) * s.df) = Dynamic.grid 0 s.df P.length := by
    unfold Dynamic.grid
    exact List.map_congr_left fun i _ => (zero_add _).symm
  rw [hgrid] at he
  rcases hout : Rebin.rebinData sqrt (Dynamic.grid 0 s.df P.length) P (s.df * 4) none .mean (.scalar s.df) with er | out
  · rw [hout] at he; cases he
  · rw [hout] at he
    obtain ⟨_, hy, hst⟩ := Dynamic.rebinData_grid sqrt 0 s.df (s.df * 4) hdf (by linarith) P.length P rfl .mean (.scalar s.df)
      (Dynamic.edges_grid 0 s.df hdf P.length (by omega)) out hout
    have hnb : Dynamic.newBins P.length s.df (s.df * 4) = P.length / 4 := by
      unfold Dynamic.newBins
      rw [show (P.length : K) * s.df / (s.df * 4) = (P.length : K) / ((4 : Nat) : K) by push_cast; field_simp, Nat.floor_div_eq_div]
    have hpos : 0 < P.length / 4 := by omega
    have h4 : s.df * 4 / s.df = 4 := by field_simp
    rw [hnb, h4] at hst
    have hhead : out.stepSize.headD 0 = 4 := by
      rw [hst]
      obtain ⟨q, hq⟩ : ∃ q, P.length / 4 = q + 1 := ⟨P.length / 4 - 1, by omega⟩
      rw [hq, List.replicate_succ]
      rfl
    have hyb : out.ybin = (List.range (P.length / 4)).map fun g => fourMean s T lo hi g := by
      rw [hy]
      unfold Dynamic.rebinned
      rw [hnb]
      refine List.map_congr_left fun g hg => ?_
      have hg' : 4 * g + 4 ≤ P.length := by
        have := List.mem_range.1 hg
        omega
      simp only [if_true, fourMean, hbm]
      rw [total_group s.df hdf P g hg']
      field_simp
    simp only [bind, Except.bind, hhead, hyb, List.length_map, List.length_range, Except.ok.injEq] at he
    rw [← he, hlen, List.map_map]
    congr 2
    refine congrArg List.sum (List.map_congr_left fun g _ => ?_)
    simp only [Function.comp]
    ring


omit hsqrt in
theorem rmsNorm_const (power : List K) (noise df m : K) : rmsNorm sqrt power noise (.const df) (.const m) = (totalPowerErr sqrt power (.const df) (.const m)).bind fun err =>
    if (List.zipWith (fun p w => (p - noise) * w) power ((Per.const df).values power.length)).sum < 0 then .ok (0, some 0)
    else if sqrt (List.zipWith (fun p w => (p - noise) * w) power ((Per.const df).values power.length)).sum = 0 then .ok (0, none)
    else .ok (sqrt (List.zipWith (fun p w => (p - noise) * w) power ((Per.const df).values power.length)).sum,
      some (1 / 2 / sqrt (List.zipWith (fun p w => (p - noise) * w) power ((Per.const df).values power.length)).sum * err)) := rfl

/-- **C160 (unnormalised powers).** `get_rms_from_unnorm_periodogram` for powers of the same width and number of averaged spectra: the squared fractional rms is the sum of the powers above the noise times `2 T / n²` and the width, and the squared absolute rms the
sum times `2 / T` and the width; 0 when it is negative. The noise of `n` photons is `n` when it is not given, and the length of the segments the inverse of the width. -/
theorem rms_unnorm_value (unnorm : List K) (n d m : K) (hn : n ≠ 0) (hd : 0 < d) (noise seg : Option K) (hT : ∀ t, seg = some t → t ≠ 0) :
    (∃ r e, rmsUnnorm sqrt unnorm n (.const d) (.const m) noise seg .frac = .ok (r, e) ∧ 0 ≤ r ∧
      r ^ 2 = max 0 ((unnorm.map fun u => (u - noise.getD n) * (2 * seg.getD (1 / d) / n ^ 2) * d).sum)) ∧
    (∃ r e, rmsUnnorm sqrt unnorm n (.const d) (.const m) noise seg .abs = .ok (r, e) ∧ 0 ≤ r ∧
      r ^ 2 = max 0 ((unnorm.map fun u => (u - noise.getD n) * (2 / seg.getD (1 / d)) * d).sum)) ∧
    rmsUnnorm sqrt unnorm n (.const d) (.const m) noise seg .other = .error .valueError := by
  have hseg : segmentSizeOr seg (.const d) = .ok (seg.getD (1 / d)) := by cases seg <;> rfl
  have hT0 : seg.getD (1 / d) ≠ 0 := by
    cases hs : seg with
    | none => simpa using hd.ne'
    | some t => exact hT t hs
  set T := seg.getD (1 / d) with hTdef
  have key : ∀ c : K, ∃ r e, rmsNorm sqrt (unnorm.map fun p => p * c) (noise.getD n * c) (.const d) (.const m) = .ok (r, e) ∧ 0 ≤ r ∧
      r ^ 2 = max 0 ((unnorm.map fun u => (u - noise.getD n) * c * d).sum) := by
    intro c
    rw [rmsNorm_const]
    obtain ⟨e, he⟩ := totalPowerErr_ok sqrt (unnorm.map fun p => p * c) (.const d) (.const m) (fun x hx => by cases hx; exact hd)
    rw [he]
    simp only [Except.bind]
    have htot : (List.zipWith (fun p w => (p - noise.getD n * c) * w) (unnorm.map fun p => p * c) ((Per.const d).values (unnorm.map fun p => p * c).length)).sum =
        (unnorm.map fun u => (u - noise.getD n) * c * d).sum := by
      simp only [Per.values]
      rw [List.length_map, ← List.map_const', zipWith_map_sum]
      congr 1
      exact List.map_congr_left fun u _ => by ring
    rw [htot]
    by_cases h0 : (unnorm.map fun u => (u - noise.getD n) * c * d).sum < 0
    · rw [if_pos h0]
      exact ⟨0, some 0, rfl, le_rfl, by rw [max_eq_left h0.le]; simp⟩
    · rw [if_neg h0]
      obtain ⟨h1, h2⟩ := hsqrt _ (not_lt.1 h0)
      rw [max_eq_right (not_lt.1 h0)]
      split_ifs with h3
      · exact ⟨0, none, rfl, le_rfl, by rw [← h2, h3]⟩
      · exact ⟨_, _, rfl, h1, h2⟩
  refine ⟨?_, ?_, ?_⟩
  · obtain ⟨r, e, h, h1, h2⟩ := key (2 * T / n ^ 2)
    refine ⟨r, e, ?_, h1, h2⟩
    have hc : ∀ p : K, p * 2 / n / (n / T) = p * (2 * T / n ^ 2) := fun p => by field_simp
    simp only [rmsUnnorm, hseg, bind, Except.bind, hc]
    exact h
  · obtain ⟨r, e, h, h1, h2⟩ := key (2 / T)
    refine ⟨r, e, ?_, h1, h2⟩
    have hc : ∀ p : K, p * 2 / n * (n / T) = p * (2 / T) := fun p => by field_simp
    simp only [rmsUnnorm, hseg, bind, Except.bind, hc]
    exact h
  · simp only [rmsUnnorm, hseg, bind, Except.bind]


omit hsqrt

theorem inBand_all (freq : List K) (lo hi : K) (h : ∀ f ∈ freq, lo ≤ f ∧ f ≤ hi) : inBand freq lo hi = List.range freq.length := by
  unfold inBand
  rw [List.filter_eq_self]
  intro i hi'
  have : i < freq.length := List.mem_range.1 hi'
  rw [List.getD_eq_getElem _ _ this]
  simpa using h _ (List.getElem_mem this)

theorem range_map_getD {β : Type} (l : List K) (n : Nat) (hn : l.length = n) (g : K → β) : ((List.range n).map fun i => g (l.getD i 0)) = l.map g := by
  subst hn
  apply List.ext_getElem
  · simp
  · intro i h1 h2
    have : i < l.length := by simpa using h2
    simp [List.getElem?_eq_getElem this]

theorem range_map_getD₂ {β : Type} (l k : List K) (n : Nat) (hn : l.length = n) (hk : k.length = n) (g : K → K → β) :
    ((List.range n).map fun i => g (l.getD i 0) (k.getD i 0)) = List.zipWith g l k := by
  subst hn
  apply List.ext_getElem
  · simp [hk]
  · intro i h1 h2
    have h3 : i < l.length := by simpa using h1
    have h4 : i < k.length := by omega
    simp [List.getElem?_eq_getElem h3, List.getElem?_eq_getElem h4]

theorem excess_groups (groups : List (List K)) (hg : ∀ g ∈ groups, g ≠ []) (c noise df : K) :
    (groups.flatten.map fun u => (u - noise) * c * (df * 1)).sum =
      (List.zipWith (fun u k => (u - noise) * c * (df * k)) (groups.map fun g => g.sum / (g.length : K)) (groups.map fun g => (g.length : K))).sum := by
  induction groups with
  | nil => rfl
  | cons g t ih =>
    have hne : (g.length : K) ≠ 0 := by
      have : g.length ≠ 0 := by simpa using hg g (by simp)
      exact_mod_cast this
    have hsum : (g.map fun u => (u - noise) * c * (df * 1)).sum = (g.sum / g.length - noise) * c * (df * g.length) := by
      have h1 : (g.map fun u => (u - noise) * c * (df * 1)).sum = (g.sum - g.length * noise) * (c * df) := by
        clear hne hg ih
        induction g with
        | nil => simp
        | cons a g ih => simp only [List.map_cons, List.sum_cons, ih, List.length_cons]; push_cast; ring
      rw [h1]
      field_simp
    simp only [List.flatten_cons, List.map_append, List.sum_append, List.map_cons, List.zipWith_cons_cons, List.sum_cons, hsum]
    rw [ih (fun g' h' => hg g' (by simp [h']))]

/-- **C160 (rebinning).** Merging the frequencies of a spectrum, in groups of any sizes, does not change the rms of the whole band. -/
theorem compute_rms_rebinned (s s' : Pds K) (hs : Sound s) (hs' : Sound s') (groups : List (List K)) (hg : ∀ g ∈ groups, g ≠ [])
    (hu : s.unnorm = groups.flatten) (hk : s.k = .const 1)
    (hu' : s'.unnorm = groups.map fun g => g.sum / (g.length : K)) (hk' : s'.k = .each (groups.map fun g => (g.length : K)))
    (hdf : 0 < s.df) (hdf' : s'.df = s.df) (hn : s'.nphots = s.nphots) (T : K) (hT : 0 < T) (hseg : s.segmentSize = some T) (hseg' : s'.segmentSize = some T)
    (lo hi : K) (hf : ∀ f ∈ s.freq, lo ≤ f ∧ f ≤ hi) (hf' : ∀ f ∈ s'.freq, lo ≤ f ∧ f ≤ hi) :
    (computeRms sqrt s' lo hi none).map (fun r => r.1) = (computeRms sqrt s lo hi none).map fun r => r.1 := by
  have hlen := hs.unnorm
  have hlen' := hs'.unnorm
  have hE : excess s' T s.nphots lo hi = excess s T s.nphots lo hi := by
    unfold excess
    rw [inBand_all _ _ _ hf, inBand_all _ _ _ hf', hk, hk', hdf', hn]
    simp only [Per.at]
    rw [range_map_getD s.unnorm _ hlen (fun u => (u - s.nphots) * 2 * T / s.nphots ^ 2 * (s.df * 1)),
      range_map_getD₂ s'.unnorm _ _ hlen' (by rw [← hlen', hu']; simp) (fun u k => (u - s.nphots) * 2 * T / s.nphots ^ 2 * (s.df * k)), hu, hu']
    have h := excess_groups groups hg (2 * T / s.nphots ^ 2) s.nphots s.df
    have e1 : ∀ u k : K, (u - s.nphots) * 2 * T / s.nphots ^ 2 * (s.df * k) = (u - s.nphots) * (2 * T / s.nphots ^ 2) * (s.df * k) := fun u k => by ring
    simp only [e1]
    exact h.symm
  obtain ⟨e, -, h⟩ := compute_rms_fst sqrt s hs hdf (by rw [hk]; intro _ _; exact zero_lt_one) (by rw [hk]; intro x hx; cases hx; exact zero_lt_one)
    T lo hi s.nphots hT hseg none rfl
  obtain ⟨e', -, h'⟩ := compute_rms_fst sqrt s' hs' (hdf' ▸ hdf)
    (by
      rw [hk', ← hs'.unnorm, hu']
      intro i hi'
      simp only [List.length_map] at hi'
      simp only [Per.at]
      rw [List.getD_eq_getElem _ _ (by simpa using hi'), List.getElem_map]
      have : groups[i].length ≠ 0 := by simpa using hg _ (List.getElem_mem hi')
      exact_mod_cast Nat.pos_of_ne_zero this)
    (by rw [hk']; intro x hx; cases hx) T lo hi s.nphots hT hseg' none (by rw [← hn]; rfl)
  rw [h, h', hE]
  split_ifs <;> rfl

/-- **C160 (noise).** Without a noise level, the level removed is that of pure Poisson noise: the same as giving 2 for Leahy powers, `2 / rate` for fractional rms, `2 rate` for absolute rms. -/
theorem compute_rms_noise (s : Pds K) (hn : s.n ≠ 0) (hdt : s.dt ≠ 0) (hp : s.nphots ≠ 0) (lo hi : K) :
    (s.norm = .leahy → computeRms sqrt s lo hi none = computeRms sqrt s lo hi (some 2)) ∧
    (s.norm = .frac → computeRms sqrt s lo hi none = computeRms sqrt s lo hi (some (2 / (s.nphots / (s.n * s.dt))))) ∧
    (s.norm = .abs → computeRms sqrt s lo hi none = computeRms sqrt s lo hi (some (2 * (s.nphots / (s.n * s.dt))))) := by
  have key : ∀ level, noiseOf s none = noiseOf s (some level) → computeRms sqrt s lo hi none = computeRms sqrt s lo hi (some level) := by
    intro level h
    simp only [computeRms, h]
  refine ⟨fun h => key _ ?_, fun h => key _ ?_, fun h => key _ ?_⟩
  · simp [noiseOf, h, unnormalizer, bind, Except.bind]
  · simp only [noiseOf, h, unnormalizer, bind, Except.bind, lt_irrefl, if_false]
    congr 1
    field_simp
  · simp only [noiseOf, h, unnormalizer, bind, Except.bind]
    congr 1
    field_simp

/-- **C160 (errors).** An unknown normalization is refused if a noise level is given; so are numbers of averages that vary in the band with widths that do not. -/
theorem compute_rms_refuses (s : Pds K) (lo hi level : K) :
    (s.norm = .other → computeRms sqrt s lo hi (some level) = .error .valueError) ∧
    (∀ T, s.segmentSize = some T → ∀ noise, noiseOf s (some level) = .ok noise →
      (∃ i ∈ inBand s.freq lo hi, ∃ j ∈ inBand s.freq lo hi, s.m.at i ≠ s.m.at j) → s.m.Fits s.freq.length → (∃ x, s.k = .const x) →
      computeRms sqrt s lo hi (some level) = .error .valueError) := by
  refine ⟨fun h => by simp [computeRms, noiseOf, h, unnormalizer, bind, Except.bind], ?_⟩
  rintro T hT noise hno ⟨i, hi', j, hj', hij⟩ hfit ⟨x, hx⟩
  have hv := select_values s.freq s.m hfit lo hi 1
  have e1 : (s.m.select (s.freq.map fun f => decide (lo ≤ f ∧ f ≤ hi))).scale 1 = s.m.select (s.freq.map fun f => decide (lo ≤ f ∧ f ≤ hi)) := by
    cases s.m <;> simp [Per.select, Per.scale]
  simp only [one_mul] at hv
  rw [e1] at hv
  have hM : (s.m.select (s.freq.map fun f => decide (lo ≤ f ∧ f ≤ hi))).simplify.isArray = true := by
    by_contra hc
    have hs := simplify_values _ _ hv.2
    rw [hv.1] at hs
    cases hsm : (s.m.select (s.freq.map fun f => decide (lo ≤ f ∧ f ≤ hi))).simplify with
    | each l => rw [hsm] at hc; exact hc rfl
    | const c =>
      rw [hsm] at hs
      simp only [Per.values] at hs
      have h1 : s.m.at i ∈ (inBand s.freq lo hi).map fun i => s.m.at i := List.mem_map.2 ⟨i, hi', rfl⟩
      have h2 : s.m.at j ∈ (inBand s.freq lo hi).map fun i => s.m.at i := List.mem_map.2 ⟨j, hj', rfl⟩
      rw [← hs] at h1 h2
      exact hij ((List.eq_of_mem_replicate h1).trans (List.eq_of_mem_replicate h2).symm)
  have hD : ((s.k.select (s.freq.map fun f => decide (lo ≤ f ∧ f ≤ hi))).scale s.df).simplify.isArray = false := by rw [hx]; rfl
  simp only [computeRms, hno, rmsUnnorm, segmentSizeOr, hT, bind, Except.bind, rmsNorm]
  rw [if_pos (by rw [hM, hD]; decide)]

end Rms

/-- a spectrum with four frequencies, and the same merged in groups of one and three -/
def fine : Pds ℝ := ⟨[1, 2, 3, 4], [], [10, 20, 30, 40], .const 2, .const 1, 1, 1, 10, 5, .leahy, some 10⟩
def merged : Pds ℝ := ⟨[1, 3], [], [10, 30], .each [2, 6], .each [1, 3], 1, 1, 10, 5, .leahy, some 10⟩

def single : Pds ℝ := ⟨[1, 2, 3, 4, 5], [], [10, 20, 30, 40, 50], .const 1, .const 1, 1, 1, 10, 5, .leahy, some 10⟩

theorem single_sound : Sound single := ⟨rfl, trivial, ⟨1, by norm_num, by simp [single, Per.scale]⟩, by norm_num [single], by norm_num [single]⟩

theorem fine_sound : Sound fine := ⟨rfl, trivial, ⟨2, by norm_num, by simp [fine, Per.scale]⟩, by norm_num [fine], by norm_num [fine]⟩
theorem merged_sound : Sound merged := ⟨rfl, rfl, ⟨2, by norm_num, by norm_num [merged, Per.scale]⟩, by norm_num [merged], by norm_num [merged]⟩

theorem real_root (x : ℝ) (h : 0 ≤ x) : 0 ≤ Real.sqrt x ∧ Real.sqrt x ^ 2 = x := ⟨Real.sqrt_nonneg x, Real.sq_sqrt h⟩

theorem merged_excess : excess merged 10 5 1 3 = 64 := by
  have : inBand merged.freq 1 3 = [0, 1] := by rw [inBand_all _ _ _ (by simp [merged])]; rfl
  unfold excess
  rw [this]
  norm_num [merged, Per.at]

example : (∃ r e, rmsUnnorm Real.sqrt [30, 5] 10 (.const 2) (.const 1) none none .abs = .ok (r, e) ∧ 0 ≤ r ∧ r ^ 2 = 120) := by
  obtain ⟨r, e, h, h1, h2⟩ := (rms_unnorm_value Real.sqrt real_root [30, 5] 10 2 1 (by norm_num) (by norm_num) none none (by simp)).2.1
  exact ⟨r, e, h, h1, by rw [h2]; norm_num⟩

example : ∃ r v, computeRms Real.sqrt merged 1 3 none = .ok (r, some v) ∧ 0 < r ∧ 2 * r * v = Real.sqrt (squares merged 10 1 3) :=
  compute_rms_error Real.sqrt real_root merged merged_sound (by norm_num [merged])
    (by
      intro i hi
      have : i < 2 := hi
      rcases (by omega : i = 0 ∨ i = 1) with rfl | rfl <;> norm_num [merged, Per.at])
    (by intro x hx; cases hx) 10 1 3 5 (by norm_num) rfl none rfl (by rw [merged_excess]; norm_num)
    (Or.inr (by rw [inBand_all _ _ _ (by simp [merged])]; simp [merged]))

example : ∃ r v, computeRms Real.sqrt single 1 5 none = .ok (r, some v) ∧ 0 < r ∧ 2 * r * v = Real.sqrt (((List.range (5 / 4)).map fun g => fourMean single 10 1 5 g ^ 2 * (4 * 1) ^ 2 / 4).sum) *
    (((5 : Nat) : ℝ) / (4 * (5 / 4 : Nat))) := by
  have hb : inBand single.freq 1 5 = [0, 1, 2, 3, 4] := by rw [inBand_all _ _ _ (by norm_num [single])]; rfl
  have := compute_rms_error_merged Real.sqrt real_root single single_sound (by norm_num [single]) rfl rfl 10 1 5 5 (by norm_num) rfl none rfl
    (by unfold excess; rw [hb]; norm_num [single, Per.at]) (by rw [hb]; decide)
  rw [hb] at this
  exact this

example : (computeRms Real.sqrt merged 1 4 none).map (fun r => r.1) = (computeRms Real.sqrt fine 1 4 none).map fun r => r.1 :=
  compute_rms_rebinned Real.sqrt fine merged fine_sound merged_sound [[10], [20, 30, 40]] (by simp) rfl rfl (by norm_num [merged]) (by norm_num [merged])
    (by norm_num [fine]) rfl rfl 10 (by norm_num) rfl rfl 1 4 (by norm_num [fine]) (by norm_num [merged])

/-- **C160 (negation).** Without a segment size, `get_rms_from_unnorm_periodogram` takes the inverse of the narrowest width for it: merging frequencies two by two then changes the rms (here the squares are 16 and 8). -/
theorem rms_unnorm_rebinned :
    (rmsUnnorm (fun x : ℚ => x) [10, 10, 10, 10] 1 (.const 1) (.const 2) (some 8) none .frac).map (fun r => r.1) = .ok 16 ∧
    (rmsUnnorm (fun x : ℚ => x) [10, 10] 1 (.const 2) (.const 4) (some 8) none .frac).map (fun r => r.1) = .ok 8 := by
  decide +kernel

/-! ## C161: significances -/

section Significances

open Stingray.Stats Stingray.Spec

theorem filter_zipIdx (l : List ℝ) (P : ℝ → Bool) : (l.zipIdx.filter fun x => P x.1) = (((List.range l.length).filter fun i => P (l.getD i 0)).map fun i => (l.getD i 0, i)) := by
  have : l.zipIdx = (List.range l.length).map fun i => (l.getD i 0, i) := by
    apply List.ext_getElem
    · simp
    · intro i h1 h2
      have : i < l.length := by simpa using h1
      simp [List.getElem?_eq_getElem this]
  rw [this, List.filter_map]
  rfl

/-- Specification: the probability that noise alone gives an average of `m` Leahy powers of `p` or more: that a Poisson variable of mean `p m / 2` is less than `m`. -/
noncomputable def noiseProb (p : ℝ) (m : Nat) : ℝ := poissonBelow (p * m / 2) m

theorem noiseProb_eq (p : ℝ) (hp : 0 ≤ p) (m : Nat) (hm : 1 ≤ m) : chi2Sf (p * m * (1 : Nat)) (2 * m * (1 : Nat)) = noiseProb p m := by
  have : (0 : ℝ) ≤ p * m := by positivity
  simp only [Nat.cast_one, mul_one]
  exact chi2Sf_even _ this m hm

theorem noiseProb_range (p : ℝ) (hp : 0 ≤ p) (m : Nat) (hm : 1 ≤ m) : 0 < noiseProb p m ∧ noiseProb p m ≤ 1 := by
  rw [← noiseProb_eq p hp m hm]
  have hm' : (1 : ℝ) ≤ m := by exact_mod_cast hm
  have hd : (0 : ℝ) < 2 * m * (1 : Nat) := by norm_num; linarith
  have := chi2_prob hd
  have h0 : (0 : ℝ) ≤ p * m * (1 : Nat) := by positivity
  refine ⟨lt_of_le_of_lt MeasureTheory.measureReal_nonneg (chi2Sf_strict hd h0 (lt_add_one _)), MeasureTheory.measureReal_le_one⟩

/-- Specification: the probability after `n` trials. -/
noncomputable def trialProb (n : Nat) (p : ℝ) (m : Nat) : ℝ := pMulti (noiseProb p m) n

theorem significances_eq (power : List ℝ) (m : List Nat) (hlen : m.length = power.length) (hp : ∀ p ∈ power, 0 ≤ p) (hm : ∀ k ∈ m, 1 ≤ k) (threshold : ℝ) (correct : Bool) :
    classicalSignificances chi2Sf .leahy power m threshold correct =
      .ok (((List.range power.length).filter fun i => decide (trialProb (if correct then power.length else 1) (power.getD i 0) (m.getD i 0) < threshold)).map
        fun i => (trialProb (if correct then power.length else 1) (power.getD i 0) (m.getD i 0), i)) := by
  have hpv : List.zipWith (fun p k => pdsProb chi2Sf p (if correct then power.length else 1) k 1) power m =
      (List.range power.length).map fun i => trialProb (if correct then power.length else 1) (power.getD i 0) (m.getD i 0) := by
    apply List.ext_getElem
    · simp [hlen]
    · intro i h1 h2
      have h3 : i < power.length := by simpa using h2
      have h4 : i < m.length := by omega
      simp only [List.getElem_zipWith, List.getElem_map, List.getElem_range]
      rw [List.getD_eq_getElem _ _ h3, List.getD_eq_getElem _ _ h4]
      unfold pdsProb trialProb
      rw [noiseProb_eq _ (hp _ (List.getElem_mem h3)) _ (hm _ (List.getElem_mem h4))]
  simp only [classicalSignificances, ne_eq, not_true, if_false, hpv]
  rw [filter_zipIdx _ fun x => decide (x < threshold)]
  congr 1
  have hg : ∀ i ∈ List.range power.length, ((List.range power.length).map fun i => trialProb (if correct then power.length else 1) (power.getD i 0) (m.getD i 0)).getD i 0 =
      trialProb (if correct then power.length else 1) (power.getD i 0) (m.getD i 0) := by
    intro i hi
    have : i < power.length := List.mem_range.1 hi
    rw [List.getD_eq_getElem _ _ (by simpa using this)]
    simp
  simp only [List.length_map, List.length_range]
  rw [List.filter_congr (fun i hi => by rw [hg i hi])]
  apply List.map_congr_left
  intro i hi
  rw [hg i (List.mem_of_mem_filter hi)]

/-- **C161.** For averaged Leahy powers, `classical_significances` without correction lists, by increasing index, exactly the powers that noise alone exceeds with a probability below the threshold, each with that probability. -/
theorem significances_value (power : List ℝ) (m : List Nat) (hlen : m.length = power.length) (hp : ∀ p ∈ power, 0 ≤ p) (hm : ∀ k ∈ m, 1 ≤ k) (threshold : ℝ) :
    classicalSignificances chi2Sf .leahy power m threshold false =
      .ok (((List.range power.length).filter fun i => decide (noiseProb (power.getD i 0) (m.getD i 0) < threshold)).map
        fun i => (noiseProb (power.getD i 0) (m.getD i 0), i)) := by
  rw [significances_eq power m hlen hp hm]
  have h1 : ∀ i ∈ List.range power.length, trialProb 1 (power.getD i 0) (m.getD i 0) = noiseProb (power.getD i 0) (m.getD i 0) := by
    intro i hi
    have h3 : i < power.length := List.mem_range.1 hi
    have h4 : i < m.length := by omega
    rw [List.getD_eq_getElem _ _ h3, List.getD_eq_getElem _ _ h4]
    obtain ⟨ha, hb⟩ := noiseProb_range _ (hp _ (List.getElem_mem h3)) _ (hm _ (List.getElem_mem h4))
    have := multi_bounds _ 1 ha hb (le_refl 1)
    unfold trialProb
    refine le_antisymm (this.2.trans ?_) this.1
    simp
  simp only [Bool.false_eq_true, if_false]
  rw [List.filter_congr (fun i hi => by rw [h1 i hi])]
  congr 1
  apply List.map_congr_left
  intro i hi
  rw [h1 i (List.mem_of_mem_filter hi)]

/-- **C161 (trials).** The correction for the number `N` of powers gives each a probability between `p` and `min(1, N p)`, and whatever is reported with it is reported without it. -/
theorem significances_corrected (power : List ℝ) (m : List Nat) (hlen : m.length = power.length) (hp : ∀ p ∈ power, 0 ≤ p) (hm : ∀ k ∈ m, 1 ≤ k) (threshold : ℝ) :
    ∃ plain corrected, classicalSignificances chi2Sf .leahy power m threshold false = .ok plain ∧
      classicalSignificances chi2Sf .leahy power m threshold true = .ok corrected ∧
      ∀ q i, (q, i) ∈ corrected → q < threshold ∧ ∃ p, (p, i) ∈ plain ∧ p ≤ q ∧ q ≤ min 1 (power.length * p) := by
  refine ⟨_, _, significances_value power m hlen hp hm threshold, significances_eq power m hlen hp hm threshold true, ?_⟩
  intro q i h
  simp only [if_true, List.mem_map, List.mem_filter, List.mem_range, decide_eq_true_eq, Prod.mk.injEq] at h
  obtain ⟨j, ⟨hj, hlt⟩, rfl, rfl⟩ := h
  have h4 : j < m.length := by omega
  have e3 := List.getD_eq_getElem power 0 hj
  have e4 := List.getD_eq_getElem m 0 h4
  obtain ⟨ha, hb⟩ := noiseProb_range (power.getD j 0) (by rw [e3]; exact hp _ (List.getElem_mem hj)) (m.getD j 0) (by rw [e4]; exact hm _ (List.getElem_mem h4))
  have hbd := multi_bounds _ power.length ha hb (by omega)
  refine ⟨hlt, noiseProb (power.getD j 0) (m.getD j 0), ?_, hbd.1, hbd.2⟩
  simp only [List.mem_map, List.mem_filter, List.mem_range, decide_eq_true_eq, Prod.mk.injEq]
  exact ⟨j, ⟨hj, lt_of_le_of_lt hbd.1 hlt⟩, rfl, rfl⟩

/-- **C161 (order).** Without correction, of two averages of as many powers, if the lower is reported so is the higher, with a smaller probability. -/
theorem significances_monotone (power : List ℝ) (m : List Nat) (hlen : m.length = power.length) (hp : ∀ p ∈ power, 0 ≤ p) (hm : ∀ k ∈ m, 1 ≤ k) (threshold : ℝ)
    (i j : Nat) (hj : j < power.length) (hij : power.getD i 0 < power.getD j 0) (hmij : m.getD i 0 = m.getD j 0)
    (out : List (ℝ × Nat)) (hout : classicalSignificances chi2Sf .leahy power m threshold false = .ok out) (p : ℝ) (hi : (p, i) ∈ out) :
    ∃ q, (q, j) ∈ out ∧ q < p := by
  rw [significances_value power m hlen hp hm] at hout
  cases hout
  simp only [List.mem_map, List.mem_filter, List.mem_range, decide_eq_true_eq, Prod.mk.injEq] at hi
  obtain ⟨i', ⟨hi', hlt⟩, rfl, rfl⟩ := hi
  have h4 : i' < m.length := by omega
  have h0 : 0 ≤ power.getD i' 0 := by rw [List.getD_eq_getElem _ _ hi']; exact hp _ (List.getElem_mem hi')
  have hm1 : 1 ≤ m.getD i' 0 := by rw [List.getD_eq_getElem _ _ h4]; exact hm _ (List.getElem_mem h4)
  have hm' : (1 : ℝ) ≤ m.getD i' 0 := by exact_mod_cast hm1
  have hless : noiseProb (power.getD j 0) (m.getD j 0) < noiseProb (power.getD i' 0) (m.getD i' 0) := by
    rw [← hmij, ← noiseProb_eq _ h0 _ hm1, ← noiseProb_eq _ (h0.trans hij.le) _ hm1]
    have hd : (0 : ℝ) < 2 * (m.getD i' 0 : ℝ) * (1 : Nat) := by
      rw [Nat.cast_one, mul_one]; linarith
    refine chi2Sf_strict hd (by positivity) ?_
    simp only [Nat.cast_one, mul_one]
    exact mul_lt_mul_of_pos_right hij (by linarith)
  refine ⟨_, ?_, hless⟩
  simp only [List.mem_map, List.mem_filter, List.mem_range, decide_eq_true_eq, Prod.mk.injEq]
  exact ⟨j, ⟨hj, hless.trans hlt⟩, rfl, rfl⟩

/-- **C161 (errors).** Powers in another normalization are refused. -/
theorem significances_refuses (sf : ℝ → ℝ → ℝ) (norm : Norm) (hn : norm ≠ .leahy) (power : List ℝ) (m : List Nat) (threshold : ℝ) (correct : Bool) :
    classicalSignificances sf norm power m threshold correct = .error .valueError := by
  simp [classicalSignificances, hn]

example : classicalSignificances chi2Sf .leahy [0, 40] [1, 1] (1 / 2) false =
    .ok (((List.range 2).filter fun i => decide (noiseProb (([0, 40] : List ℝ).getD i 0) (([1, 1] : List Nat).getD i 0) < 1 / 2)).map
      fun i => (noiseProb (([0, 40] : List ℝ).getD i 0) (([1, 1] : List Nat).getD i 0), i)) :=
  significances_value [0, 40] [1, 1] rfl (by simp) (by simp) _

/-- the higher of those powers is reported, the lower is not -/
example : noiseProb 40 1 < 1 / 2 ∧ ¬ noiseProb 0 1 < 1 / 2 := by
  have e : ∀ x : ℝ, noiseProb x 1 = Real.exp (-(x / 2)) := by intro x; simp [noiseProb, poissonBelow]
  rw [e, e]
  refine ⟨?_, by norm_num⟩
  rw [Real.exp_neg, inv_lt_comm₀ (Real.exp_pos _) (by norm_num)]
  have := Real.add_one_le_exp (40 / 2 : ℝ)
  linarith

end Significances

/-! ## C162: upper limits -/

section Limits

open Stingray.Stats

/-- Specification: the attenuation of a sinusoid at `r` times the Nyquist frequency. -/
noncomputable def attenuation (r : ℝ) : ℝ := Real.sin (Real.pi / 2 * r) / (Real.pi / 2 * r)

theorem attenuation_range (r : ℝ) (h0 : 0 < r) (h1 : r ≤ 1) : 0 < attenuation r ∧ attenuation r < 1 := by
  have hx : 0 < Real.pi / 2 * r := by have := Real.pi_pos; positivity
  have hle : Real.pi / 2 * r ≤ Real.pi / 2 := by have := Real.pi_pos; nlinarith
  have hs : 0 < Real.sin (Real.pi / 2 * r) := Real.sin_pos_of_pos_of_lt_pi hx (by have := Real.pi_pos; linarith)
  exact ⟨div_pos hs hx, (div_lt_one hx).2 (Real.sin_lt hx)⟩

/-- **C162.** The limit on the amplitude, for a limit `u` on the power and `N` counts, has the square `2 u / N`, divided by 0.773 if asked for the loss within a bin, and by the square of the attenuation if a frequency is given. -/
theorem amplitude_value (u counts r : ℝ) (hu : 0 ≤ u) (hc : 0 < counts) (hr : r ≤ 1) (corr : Bool) :
    0 ≤ amplitudeUpperLimit u counts corr r ∧
    amplitudeUpperLimit u counts corr r ^ 2 = 2 * u / counts / (if corr then 773 / 1000 else 1) / (if 0 < r then attenuation r ^ 2 else 1) := by
  have hq : (0 : ℝ) ≤ 2 * u / counts := by positivity
  have hsq := Real.sq_sqrt hq
  have h7 : Real.sqrt (773 / 1000) ^ 2 = 773 / 1000 := Real.sq_sqrt (by norm_num)
  have hnn := Real.sqrt_nonneg (2 * u / counts)
  have hA : ∀ b : Bool, 0 ≤ (if b then Stats.aFromSsig u counts * (1 / Real.sqrt (773 / 1000)) else Stats.aFromSsig u counts) ∧
      (if b then Stats.aFromSsig u counts * (1 / Real.sqrt (773 / 1000)) else Stats.aFromSsig u counts) ^ 2 = 2 * u / counts / (if b then 773 / 1000 else 1) := by
    intro b
    unfold Stats.aFromSsig
    cases b
    · simp only [Bool.false_eq_true, if_false, div_one]
      exact ⟨hnn, hsq⟩
    · simp only [if_true]
      refine ⟨by positivity, ?_⟩
      rw [mul_pow, div_pow, h7, hsq]
      ring
  obtain ⟨ha, hb⟩ := hA corr
  unfold amplitudeUpperLimit
  simp only
  by_cases hr0 : 0 < r
  · have hat := (attenuation_range r hr0 hr).1
    unfold attenuation at hat
    rw [if_pos hr0, if_pos hr0]
    refine ⟨div_nonneg ha hat.le, ?_⟩
    rw [div_pow, hb]
    rfl
  · rw [if_neg hr0, if_neg hr0, div_one]
    exact ⟨ha, hb⟩

/-- **C162 (order).** A higher limit on the power gives a higher limit on the amplitude; each of the two corrections makes it higher too. -/
theorem amplitude_order (u v counts r : ℝ) (hu : 0 < u) (huv : u < v) (hc : 0 < counts) (hr0 : 0 < r) (hr : r ≤ 1) (corr : Bool) (r' : ℝ) (hr' : r' ≤ 1) :
    amplitudeUpperLimit u counts corr r' < amplitudeUpperLimit v counts corr r' ∧
    amplitudeUpperLimit u counts false r' < amplitudeUpperLimit u counts true r' ∧
    amplitudeUpperLimit u counts corr 0 < amplitudeUpperLimit u counts corr r := by
  have key : ∀ a b : ℝ, 0 ≤ a → 0 ≤ b → a ^ 2 < b ^ 2 → a < b := fun a b _ hb h => lt_of_pow_lt_pow_left₀ 2 hb h
  have hB : ∀ b : Bool, (0 : ℝ) < if b then 773 / 1000 else 1 := by intro b; cases b <;> norm_num
  have hR : ∀ x ≤ (1 : ℝ), (0 : ℝ) < if 0 < x then attenuation x ^ 2 else 1 := by
    intro x hx
    split_ifs with h
    · exact pow_pos (attenuation_range x h hx).1 2
    · norm_num
  have V := fun (w : ℝ) (hw : 0 ≤ w) (b : Bool) (x : ℝ) (hx : x ≤ 1) => amplitude_value w counts x hw hc hx b
  refine ⟨key _ _ (V u hu.le corr r' hr').1 (V v (hu.trans huv).le corr r' hr').1 ?_,
    key _ _ (V u hu.le false r' hr').1 (V u hu.le true r' hr').1 ?_,
    key _ _ (V u hu.le corr 0 (by norm_num)).1 (V u hu.le corr r hr).1 ?_⟩
  · rw [(V u hu.le corr r' hr').2, (V v (hu.trans huv).le corr r' hr').2]
    have := hB corr
    have := hR r' hr'
    gcongr
  · rw [(V u hu.le false r' hr').2, (V u hu.le true r' hr').2]
    have := hR r' hr'
    have hq : (0 : ℝ) < 2 * u / counts := by positivity
    simp only [Bool.false_eq_true, if_false, if_true, div_one]
    have : 2 * u / counts < 2 * u / counts / (773 / 1000) := by rw [lt_div_iff₀ (by norm_num)]; nlinarith
    gcongr
  · rw [(V u hu.le corr 0 (by norm_num)).2, (V u hu.le corr r hr).2, if_neg (lt_irrefl _), if_pos hr0, div_one]
    have hq : (0 : ℝ) < 2 * u / counts / (if corr then 773 / 1000 else 1) := div_pos (by positivity) (hB corr)
    obtain ⟨h1, h2⟩ := attenuation_range r hr0 hr
    have h3 : attenuation r ^ 2 < 1 := by nlinarith
    rw [lt_div_iff₀ (pow_pos h1 2)]
    nlinarith

/-- **C162 (pulsed fraction).** The limit `f` on the pulsed fraction and the limit `a` on the amplitude have `f (1 + a) = 2 a`; `f` is at most 1 exactly if `a` is, and grows with the limit on the power. -/
theorem pf_value (u v counts r : ℝ) (hu : 0 < u) (huv : u < v) (hc : 0 < counts) (hr : r ≤ 1) (corr : Bool) :
    pfUpperLimit u counts corr r * (1 + amplitudeUpperLimit u counts corr r) = 2 * amplitudeUpperLimit u counts corr r ∧
    0 ≤ pfUpperLimit u counts corr r ∧ (pfUpperLimit u counts corr r ≤ 1 ↔ amplitudeUpperLimit u counts corr r ≤ 1) ∧
    pfUpperLimit u counts corr r < pfUpperLimit v counts corr r := by
  have h1 := (amplitude_value u counts r hu.le hc hr corr).1
  have h2 := (amplitude_order u v counts 1 hu huv hc one_pos le_rfl corr r hr).1
  unfold pfUpperLimit Stats.pfFromA
  have h3 : 0 < 1 + amplitudeUpperLimit u counts corr r := by linarith
  have h4 : 0 < 1 + amplitudeUpperLimit v counts corr r := by linarith
  refine ⟨div_mul_cancel₀ _ h3.ne', by positivity, ?_, ?_⟩
  · rw [div_le_one h3]
    constructor <;> intro h <;> linarith
  · rw [div_lt_div_iff₀ h3 h4]
    nlinarith

theorem argmax_spec (l : List (ℝ × ℝ)) (x : ℝ × ℝ) :
    (l.foldl (fun best y => if best.2 < y.2 then y else best) x) ∈ x :: l ∧
    ∀ y ∈ x :: l, y.2 ≤ (l.foldl (fun best y => if best.2 < y.2 then y else best) x).2 := by
  induction l generalizing x with
  | nil => simp
  | cons a l ih =>
    simp only [List.foldl_cons]
    obtain ⟨h1, h2⟩ := ih (if x.2 < a.2 then a else x)
    have hm : x.2 ≤ (if x.2 < a.2 then a else x).2 ∧ a.2 ≤ (if x.2 < a.2 then a else x).2 := by
      split_ifs with h
      · exact ⟨h.le, le_refl _⟩
      · exact ⟨le_refl _, not_lt.1 h⟩
    have htop := h2 _ List.mem_cons_self
    constructor
    · rcases List.mem_cons.1 h1 with h | h
      · rw [h]; split_ifs <;> simp
      · simp [h]
    · intro y hy
      simp only [List.mem_cons] at hy
      rcases hy with rfl | rfl | hy
      · exact hm.1.trans htop
      · exact hm.2.trans htop
      · exact h2 y (by simp [hy])

theorem max_spec (l : List ℝ) (x : ℝ) : l.foldl max x ∈ x :: l ∧ ∀ y ∈ x :: l, y ≤ l.foldl max x := by
  induction l generalizing x with
  | nil => simp
  | cons a l ih =>
    obtain ⟨h1, h2⟩ := ih (max x a)
    have htop := h2 _ List.mem_cons_self
    simp only [List.foldl_cons]
    constructor
    · rcases List.mem_cons.1 h1 with h | h
      · rw [h]; rcases max_choice x a with h' | h' <;> simp [h']
      · simp [h]
    · intro y hy
      simp only [List.mem_cons] at hy
      rcases hy with rfl | rfl | hy
      · exact (le_max_left _ _).trans htop
      · exact (le_max_right _ _).trans htop
      · exact h2 y (by simp [hy])

/-- Specification: a positive frequency within the limits given. -/
def Wanted (fmin fmax : Option ℝ) (f : ℝ) : Prop := 0 < f ∧ (∀ a, fmin = some a → a ≤ f) ∧ ∀ b, fmax = some b → f ≤ b

theorem mask_iff (fmin fmax : Option ℝ) (f : ℝ) : maskOf fmin fmax f = true ↔ Wanted fmin fmax f := by
  unfold maskOf Wanted
  cases fmin <;> cases fmax <;> simp [and_assoc]

/-- **C162 (band).** `modulation_upper_limit` is the limit on the amplitude for the highest power at a positive frequency of the band, times the number of averages, corrected for the loss within a bin and for that frequency's share of the highest frequency of the spectrum, which is in `(0, 1]`. -/
theorem modulation_value (limit : ℝ → ℝ → ℝ) (freq power : List ℝ) (m nphots : ℝ) (fmin fmax : Option ℝ)
    (hex : ∃ p ∈ freq.zip power, Wanted fmin fmax p.1) :
    ∃ f p top, (f, p) ∈ freq.zip power ∧ Wanted fmin fmax f ∧ (∀ y ∈ freq.zip power, Wanted fmin fmax y.1 → y.2 ≤ p) ∧
      top ∈ freq ∧ (∀ g ∈ freq, g ≤ top) ∧ 0 < f / top ∧ f / top ≤ 1 ∧
      modulationUpperLimit limit freq power m nphots fmin fmax = .ok (amplitudeUpperLimit (limit (p * m) m) nphots true (f / top)) := by
  obtain ⟨p0, hp0, hw0⟩ := hex
  have hmem0 : p0 ∈ (freq.zip power).filter fun p => maskOf fmin fmax p.1 := List.mem_filter.2 ⟨hp0, (mask_iff _ _ _).2 hw0⟩
  cases hf : freq with
  | nil => rw [hf] at hp0; simp at hp0
  | cons a t =>
    rw [← hf]
    have hhf : highestFreq freq = .ok (t.foldl max a) := by rw [hf]; rfl
    obtain ⟨ht1, ht2⟩ := max_spec t a
    rw [← hf] at ht1 ht2
    cases hl : (freq.zip power).filter fun p => maskOf fmin fmax p.1 with
    | nil => rw [hl] at hmem0; simp at hmem0
    | cons x l =>
      obtain ⟨h1, h2⟩ := argmax_spec l x
      rw [← hl] at h1 h2
      have hb := List.mem_filter.1 h1
      have hw := (mask_iff _ _ _).1 hb.2
      have hin : (l.foldl (fun best y => if best.2 < y.2 then y else best) x).1 ∈ freq := (List.of_mem_zip (show ((l.foldl (fun best y => if best.2 < y.2 then y else best) x).1, (l.foldl (fun best y => if best.2 < y.2 then y else best) x).2) ∈ freq.zip power from hb.1)).1
      have hle := ht2 _ hin
      have hpos : 0 < t.foldl max a := hw.1.trans_le hle
      refine ⟨_, _, t.foldl max a, hb.1, hw, fun y hy hyw => h2 y (List.mem_filter.2 ⟨hy, (mask_iff _ _ _).2 hyw⟩), ht1, ht2,
        div_pos hw.1 hpos, (div_le_one hpos).2 hle, ?_⟩
      simp only [modulationUpperLimit, hhf, hl, argmaxPower, bind, Except.bind]

/-- **C162 (errors).** With no positive frequency in the band it is refused. -/
theorem modulation_refuses (limit : ℝ → ℝ → ℝ) (freq power : List ℝ) (m nphots : ℝ) (fmin fmax : Option ℝ)
    (h : ∀ p ∈ freq.zip power, ¬ Wanted fmin fmax p.1) : modulationUpperLimit limit freq power m nphots fmin fmax = .error .valueError := by
  have hl : ((freq.zip power).filter fun p => maskOf fmin fmax p.1) = [] := by
    rw [List.filter_eq_nil_iff]
    intro p hp hc
    exact h p hp ((mask_iff _ _ _).1 hc)
  cases freq with
  | nil => rfl
  | cons a t => simp only [modulationUpperLimit, hl, argmaxPower, highestFreq, bind, Except.bind]

/-- **C162 (limit, partial).** If some signal power up to twice the starting value has the measured power as its lower confidence limit, `power_upper_limit` gives such a power. Missing: that the optimiser finds a minimum (assumed), and that one exists. -/
theorem power_limit_partial (ppf : ℝ → ℝ → ℝ → ℝ) (minimize : (ℝ → ℝ) → ℝ → ℝ → ℝ → ℝ) (pmeas n c : ℝ)
    (hmin : ∀ f a b x0, a ≤ x0 → x0 ≤ b → a ≤ minimize f a b x0 ∧ minimize f a b x0 ≤ b ∧ ∀ x, a ≤ x → x ≤ b → f (minimize f a b x0) ≤ f x)
    (hinit : 0 ≤ ppf (2 * n) pmeas c)
    (hsol : ∃ x, 0 ≤ x ∧ x ≤ ppf (2 * n) pmeas c * 2 ∧ (powerConfidenceLimits ppf x n c).1 = pmeas) :
    0 ≤ powerUpperLimit ppf minimize pmeas n c ∧ (powerConfidenceLimits ppf (powerUpperLimit ppf minimize pmeas n c) n c).1 = pmeas := by
  obtain ⟨x, hx0, hx1, hx⟩ := hsol
  obtain ⟨h1, -, h3⟩ := hmin (fun x => |ppf (2 * n) x (1 - c) - pmeas|) 0 (ppf (2 * n) pmeas c * 2) (ppf (2 * n) pmeas c) hinit (by linarith)
  have h := h3 x hx0 hx1
  refine ⟨h1, ?_⟩
  simp only [powerConfidenceLimits] at hx ⊢
  simp only [hx, sub_self, abs_zero] at h
  exact sub_eq_zero.1 (abs_nonpos_iff.1 h)

example : ∃ f p top, (f, p) ∈ ([0, 1, 2, 3] : List ℝ).zip [9, 1, 5, 8] ∧ Wanted (some 1) (some 2) f ∧
    (∀ y ∈ ([0, 1, 2, 3] : List ℝ).zip [9, 1, 5, 8], Wanted (some 1) (some 2) y.1 → y.2 ≤ p) ∧ top ∈ ([0, 1, 2, 3] : List ℝ) ∧
    (∀ g ∈ ([0, 1, 2, 3] : List ℝ), g ≤ top) ∧ 0 < f / top ∧ f / top ≤ 1 ∧
    modulationUpperLimit (fun p _ => p) [0, 1, 2, 3] [9, 1, 5, 8] 1 100 (some 1) (some 2) = .ok (amplitudeUpperLimit (p * 1) 100 true (f / top)) :=
  modulation_value (fun p _ => p) [0, 1, 2, 3] [9, 1, 5, 8] 1 100 (some 1) (some 2) ⟨(1, 1), by simp, by norm_num [Wanted]⟩

end Limits

end Stingray.PowerStats

import Verif.Model.Lightcurve
import Verif.Lemmas.GtiSegments
import Verif.Props.RebinLog
import Mathlib.Data.Rat.Floor
import Mathlib.Algebra.Order.Ring.Rat
import Mathlib.Tactic.NormNum

/-!
# Properties C35, C36, C37, C76, C77: photons to light curves and back, energy filters
-/

namespace Stingray.Lightcurve

set_option linter.unusedSectionVars false

variable {K : Type} [Field K] [LinearOrder K] [IsStrictOrderedRing K] [FloorRing K]

/-- photon `t` falls in the `i`-th bin of width `dt` starting at `t0` -/
def InTimeBin (t0 dt : K) (i : Nat) (t : K) : Prop :=
  t0 + (i : K) * dt ≤ t ∧ t < t0 + ((i : K) + 1) * dt

instance (t0 dt : K) (i : Nat) : DecidablePred (InTimeBin t0 dt i) := fun t => by
  unfold InTimeBin; exact instDecidableAnd

theorem floor_bin (t0 dt t : K) (hdt : 0 < dt) (ht : t0 ≤ t) (i : Nat) :
    ⌊(t - t0) / dt⌋₊ = i ↔ InTimeBin t0 dt i t := by
  have h0 : 0 ≤ (t - t0) / dt := div_nonneg (by linarith) hdt.le
  rw [Nat.floor_eq_iff h0, le_div_iff₀ hdt, div_lt_iff₀ hdt]
  unfold InTimeBin
  constructor <;> rintro ⟨h1, h2⟩ <;> constructor <;> linarith

theorem binned_idx (toa : List K) (t0 dt : K) (N : Nat) (hdt : 0 < dt) :
    (∀ j ∈ (toa.filter (fun t => decide (t0 ≤ t ∧ t < t0 + (N : K) * dt))).map
      (fun t => ⌊(t - t0) / dt⌋₊), j < N) ∧
    ∀ i < N, ((toa.filter (fun t => decide (t0 ≤ t ∧ t < t0 + (N : K) * dt))).map
      (fun t => ⌊(t - t0) / dt⌋₊)).count i =
      (toa.filter (fun t => decide (InTimeBin t0 dt i t))).length := by
  constructor
  · intro j hj
    simp only [List.mem_map, List.mem_filter, decide_eq_true_eq] at hj
    obtain ⟨t, ⟨-, h1, h2⟩, rfl⟩ := hj
    have h0 : 0 ≤ (t - t0) / dt := div_nonneg (by linarith) hdt.le
    rw [Nat.floor_lt h0, div_lt_iff₀ hdt]
    linarith
  · intro i hi
    have hi' : (i : K) + 1 ≤ N := by exact_mod_cast hi
    rw [List.count_eq_length_filter, List.filter_map, List.length_map, List.filter_filter]
    congr 1
    apply List.filter_congr
    intro t _
    simp only [Function.comp]
    rw [Bool.eq_iff_iff]
    simp only [Bool.and_eq_true, beq_iff_eq, decide_eq_true_eq]
    have hm : ((i : K) + 1) * dt ≤ N * dt := mul_le_mul_of_nonneg_right hi' hdt.le
    have h0 : 0 ≤ (i : K) * dt := mul_nonneg (Nat.cast_nonneg i) hdt.le
    constructor
    · rintro ⟨h1, h2, h3⟩
      exact (floor_bin t0 dt t hdt h2 i).1 h1
    · intro h
      have h' := h
      unfold InTimeBin at h'
      have ht : t0 ≤ t := by linarith [h'.1]
      exact ⟨(floor_bin t0 dt t hdt ht i).2 h, ht, by linarith [h'.2]⟩

theorem bincount_spec (idx : List Nat) (n : Nat) (h : ∀ j ∈ idx, j < n) :
    bincount idx n = (List.range n).map (fun i => idx.count i) := by
  unfold bincount
  congr 2
  induction idx with
  | nil => rfl
  | cons a l ih =>
    rw [List.foldl_cons]
    have : max n (a + 1) = n := by have := h a (by simp); omega
    rw [this]
    exact ih fun j hj => h j (by simp [hj])

theorem npHistogram_spec (good : List K) (t0 dt : K) (N : Nat) (hdt : 0 < dt)
    (hg : ∀ t ∈ good, t < t0 + (N : K) * dt) :
    npHistogram good ((List.range (N + 1)).map fun k : Nat => t0 + (k : K) * dt) =
      (List.range N).map (fun i => (good.filter (fun t => decide (InTimeBin t0 dt i t))).length) := by
  unfold npHistogram
  rw [List.length_map, List.length_range, Nat.add_sub_cancel]
  apply List.map_congr_left
  intro i hi
  rw [List.mem_range] at hi
  congr 1
  apply List.filter_congr
  intro t ht
  have e1 : ((List.range (N + 1)).map fun k : Nat => t0 + (k : K) * dt)[i]? = some (t0 + (i : K) * dt) := by
    rw [List.getElem?_map, List.getElem?_range (by omega)]; rfl
  have e2 : ((List.range (N + 1)).map fun k : Nat => t0 + (k : K) * dt)[i + 1]? =
      some (t0 + ((i : K) + 1) * dt) := by
    rw [List.getElem?_map, List.getElem?_range (by omega)]; simp
  simp only [e1, e2]
  split_ifs with h
  · have hN : (N : K) = (i : K) + 1 := by
      have : N = i + 1 := by omega
      rw [this]; push_cast; ring
    have := hg t ht
    rw [hN] at this
    rw [decide_eq_decide]
    unfold InTimeBin
    constructor
    · rintro ⟨a, -⟩; exact ⟨a, this⟩
    · rintro ⟨a, b⟩; exact ⟨a, b.le⟩
  · rfl

theorem count_sum (toa : List K) (t0 dt : K) (N : Nat) (hdt : 0 < dt) :
    ((List.range N).map (fun i => (toa.filter (fun t => decide (InTimeBin t0 dt i t))).length)).sum =
      (toa.filter (fun t => decide (t0 ≤ t ∧ t < t0 + (N : K) * dt))).length := by
  obtain ⟨h1, h2⟩ := binned_idx toa t0 dt N hdt
  have := RebinLog.sum_class_counts N _ h1
  rw [List.length_map] at this
  rw [← this]
  congr 1
  apply List.map_congr_left
  intro i hi
  rw [← h2 i (List.mem_range.1 hi), List.count_eq_length_filter]
  congr 1

/-- the smallest time of a list of photons or of a list of GTIs is where the light curve starts by default -/
theorem makeLightcurve_cases (sort : KeySort (fun (x : K) => x)) (toa : List K) (dt : K) (tseg tstart : Option K)
    (gti : Option (List (K × K))) (useHist : Bool) (out : List K × List Nat) (hdt : 0 < dt)
    (h : makeLightcurve sort toa dt tseg tstart gti useHist = .ok out) :
    ∃ t0 len, lcStart (sort.sort toa) tstart gti = .ok t0 ∧
      lcLength (sort.sort toa) t0 tseg gti = .ok len ∧
      out.1 = (List.range (timebin len dt).toNat).map (fun (i : Nat) => t0 + (1 / 2 + (i : K)) * dt) ∧
      out.2 = (List.range (timebin len dt).toNat).map
        (fun i => (toa.filter (fun t => decide (InTimeBin t0 dt i t))).length) := by
  unfold makeLightcurve at h
  simp only [bind, Except.bind, pure, Except.pure] at h
  cases h1 : lcStart (sort.sort toa) tstart gti with
  | error e => rw [h1] at h; cases h
  | ok t0 =>
    rw [h1] at h
    simp only at h
    cases h2 : lcLength (sort.sort toa) t0 tseg gti with
    | error e => rw [h2] at h; cases h
    | ok len =>
      rw [h2] at h
      simp only at h
      refine ⟨t0, len, rfl, h2, ?_⟩
      set n := timebin len dt with hn
      have hperm : ∀ i, ((sort.sort toa).filter (fun t => decide (InTimeBin t0 dt i t))).length =
          (toa.filter (fun t => decide (InTimeBin t0 dt i t))).length :=
        fun i => ((sort.perm toa).filter _).length_eq
      split_ifs at h with hu hneg
      · -- `use_hist`
        cases h
        by_cases hn0 : 0 ≤ n
        · have hN : (n : K) = ((n.toNat : Nat) : K) := by
            have : ((n.toNat : Nat) : Int) = n := Int.toNat_of_nonneg hn0
            exact_mod_cast (congrArg (Int.cast : Int → K) this).symm
          have hedges : Gti.arange t0 (t0 + (n : K) * dt + dt) dt =
              (List.range (n.toNat + 1)).map (fun k : Nat => t0 + (k : K) * dt) := by
            unfold Gti.arange
            congr 2
            have : (t0 + (n : K) * dt + dt - t0) / dt = ((n.toNat + 1 : Nat) : K) := by
              rw [hN]; push_cast; field_simp; ring
            rw [this, Nat.ceil_natCast]
          rw [hedges]
          constructor
          · simp only
            rw [List.range_succ, List.map_append, List.map_cons, List.map_nil, List.dropLast_concat,
              List.map_map]
            apply List.map_congr_left
            intro i _
            simp only [Function.comp]
            ring
          · simp only
            rw [npHistogram_spec _ t0 dt n.toNat hdt]
            · apply List.map_congr_left
              intro i hi
              rw [List.mem_range] at hi
              rw [← hperm i, List.filter_filter]
              congr 1
              apply List.filter_congr
              intro t _
              rw [Bool.eq_iff_iff]
              simp only [Bool.and_eq_true, decide_eq_true_eq]
              constructor
              · exact fun hh => hh.1
              · intro hh
                refine ⟨hh, ?_⟩
                unfold InTimeBin at hh
                have hi' : (i : K) + 1 ≤ (n.toNat : K) := by exact_mod_cast hi
                have hm : ((i : K) + 1) * dt ≤ (n.toNat : K) * dt := mul_le_mul_of_nonneg_right hi' hdt.le
                have h0 : 0 ≤ (i : K) * dt := mul_nonneg (Nat.cast_nonneg i) hdt.le
                rw [hN]
                constructor <;> linarith [hh.1, hh.2]
            · intro t ht
              rw [List.mem_filter, decide_eq_true_eq, hN] at ht
              exact ht.2.2
        · have hz : n.toNat = 0 := by omega
          have hedges : Gti.arange t0 (t0 + (n : K) * dt + dt) dt = [] := by
            unfold Gti.arange
            have hle : (n : K) ≤ -1 := by exact_mod_cast (by omega : n ≤ -1)
            have : ⌈(t0 + (n : K) * dt + dt - t0) / dt⌉₊ = 0 := by
              rw [Nat.ceil_eq_zero]
              have : (t0 + (n : K) * dt + dt - t0) / dt = n + 1 := by field_simp; ring
              rw [this]; linarith
            rw [this]; rfl
          rw [hedges, hz]
          exact ⟨rfl, rfl⟩
      · -- `bincount`
        cases h
        have hn0 : 0 ≤ n := not_lt.1 hneg
        have hN : (n : K) = ((n.toNat : Nat) : K) := by
          have : ((n.toNat : Nat) : Int) = n := Int.toNat_of_nonneg hn0
          exact_mod_cast (congrArg (Int.cast : Int → K) this).symm
        simp only [hN]
        obtain ⟨k1, k2⟩ := binned_idx (sort.sort toa) t0 dt n.toNat hdt
        rw [bincount_spec _ _ k1]
        refine ⟨by simp, ?_⟩
        apply List.map_congr_left
        intro i hi
        rw [k2 i (List.mem_range.1 hi), hperm i]

theorem mem_flatten_iff (g : List (K × K)) (b : K) : b ∈ Gti.flatten g ↔ ∃ i ∈ g, b = i.1 ∨ b = i.2 := by
  unfold Gti.flatten
  simp [List.mem_flatMap]

theorem foldl_min_mem : ∀ (ps : List K) (p : K), ps.foldl min p ∈ p :: ps
  | [], p => by simp
  | q :: ps, p => by
    rw [List.foldl_cons]
    have := foldl_min_mem ps (min p q)
    rcases List.mem_cons.1 this with h | h
    · rw [h]
      rcases min_choice p q with e | e <;> rw [e] <;> simp
    · exact List.mem_cons_of_mem _ (List.mem_cons_of_mem _ h)

theorem foldl_min_le : ∀ (ps : List K) (p b : K), b ∈ p :: ps → ps.foldl min p ≤ b
  | [], p, b, h => (List.mem_singleton.1 h).ge
  | q :: ps, p, b, h => by
    rw [List.foldl_cons]
    rcases List.mem_cons.1 h with rfl | h
    · exact (foldl_min_le ps _ (min b q) (by simp)).trans (min_le_left _ _)
    · rcases List.mem_cons.1 h with rfl | h
      · exact (foldl_min_le ps _ (min p b) (by simp)).trans (min_le_right _ _)
      · exact foldl_min_le ps _ b (List.mem_cons_of_mem _ h)

theorem foldl_max_mem : ∀ (ps : List K) (p : K), ps.foldl max p ∈ p :: ps
  | [], p => by simp
  | q :: ps, p => by
    rw [List.foldl_cons]
    have := foldl_max_mem ps (max p q)
    rcases List.mem_cons.1 this with h | h
    · rw [h]
      rcases max_choice p q with e | e <;> rw [e] <;> simp
    · exact List.mem_cons_of_mem _ (List.mem_cons_of_mem _ h)

theorem le_foldl_max : ∀ (ps : List K) (p b : K), b ∈ p :: ps → b ≤ ps.foldl max p
  | [], p, b, h => (List.mem_singleton.1 h).le
  | q :: ps, p, b, h => by
    rw [List.foldl_cons]
    rcases List.mem_cons.1 h with rfl | h
    · exact (le_max_left _ _).trans (le_foldl_max ps _ (max b q) (by simp))
    · rcases List.mem_cons.1 h with rfl | h
      · exact (le_max_right _ _).trans (le_foldl_max ps _ (max p b) (by simp))
      · exact le_foldl_max ps _ b (List.mem_cons_of_mem _ h)

/-- **C35.** Whatever the arguments (`dt > 0`) and for both counting methods: there is a start `t0` and a number of bins `N`
such that bin `i` is centred on `t0 + (i + 1/2) dt` and counts exactly the photons with
`t0 + i dt <= t < t0 + (i+1) dt`, and the sum of the counts is the number of photons in `[t0, t0 + N dt)`.  A
given `tstart` is used as it is; without it the light curve starts at the earliest border of the GTIs, or at the first
photon if there are none.  A length that is not negative is covered up to less than one bin (and exceeded by at
most 1% of a bin): the given `tseg`, else up to the last border of the GTIs, or to the last photon if there are none. -/
theorem make_lightcurve_counts (sort : KeySort (fun (x : K) => x)) (toa : List K) (dt : K) (tseg tstart : Option K)
    (gti : Option (List (K × K))) (useHist : Bool) (times : List K) (counts : List Nat) (hdt : 0 < dt)
    (h : makeLightcurve sort toa dt tseg tstart gti useHist = .ok (times, counts)) :
    ∃ (t0 : K) (N : Nat), times.length = N ∧ counts.length = N ∧
      (∀ i < N, times[i]? = some (t0 + (1 / 2 + (i : K)) * dt) ∧
        counts[i]? = some (toa.filter (fun t => decide (InTimeBin t0 dt i t))).length) ∧
      counts.sum = (toa.filter (fun t => decide (t0 ≤ t ∧ t < t0 + (N : K) * dt))).length ∧
      (∀ t, tstart = some t → t0 = t) ∧
      (tstart = none → gti = none → IsLeast {t | t ∈ toa} t0) ∧
      (∀ g, tstart = none → gti = some g → IsLeast {b | ∃ i ∈ g, b = i.1 ∨ b = i.2} t0) ∧
      (∀ L, (tseg = some L ∨ (tseg = none ∧ gti = none ∧ IsGreatest {t | t ∈ toa} (t0 + L)) ∨
          (∃ g, tseg = none ∧ gti = some g ∧ IsGreatest {b | ∃ i ∈ g, b = i.1 ∨ b = i.2} (t0 + L))) →
        0 ≤ L → (N : K) * dt ≤ L + dt / 100 ∧ L < (N : K) * dt + dt) := by
  obtain ⟨t0, len, h1, h2, h3, h4⟩ := makeLightcurve_cases sort toa dt tseg tstart gti useHist _ hdt h
  simp only at h3 h4
  refine ⟨t0, (timebin len dt).toNat, by simp [h3], by simp [h4], ?_, ?_, ?_, ?_, ?_, ?_⟩
  · intro i hi
    rw [h3, h4]
    simp [List.getElem?_range hi]
  · rw [h4, count_sum toa t0 dt _ hdt]
  · rintro t rfl
    simp only [lcStart] at h1
    cases h1
    rfl
  · rintro rfl rfl
    cases hs : sort.sort toa with
    | nil => simp [lcStart, hs] at h1
    | cons a l =>
      simp only [lcStart, hs, Except.ok.injEq] at h1
      subst h1
      have hp := sort.perm toa
      have hsd := sort.sorted toa
      rw [hs] at hp hsd
      refine ⟨hp.mem_iff.1 (by simp), ?_⟩
      intro t ht
      rcases List.mem_cons.1 (hp.mem_iff.2 ht) with rfl | ht
      · exact le_rfl
      · exact (List.pairwise_cons.1 hsd).1 t ht
  · rintro g rfl rfl
    cases hs : sort.sort toa with
    | nil => simp [lcStart, hs] at h1
    | cons a l =>
      cases hf : Gti.flatten g with
      | nil => simp [lcStart, hs, hf] at h1
      | cons p ps =>
        simp only [lcStart, hs, hf, Except.ok.injEq] at h1
        subst h1
        have hmem : ∀ b, b ∈ p :: ps ↔ ∃ i ∈ g, b = i.1 ∨ b = i.2 := fun b => by
          rw [← hf]; exact mem_flatten_iff g b
        exact ⟨(hmem _).1 (foldl_min_mem ps p), fun b hb => foldl_min_le ps p b ((hmem b).2 hb)⟩
  · intro L hLL hL
    have hLlen : len = L := by
      rcases hLL with rfl | ⟨rfl, rfl, hg⟩ | ⟨g, rfl, rfl, hg⟩
      · simp only [lcLength] at h2
        cases h2; rfl
      · cases hs : (sort.sort toa).getLast? with
        | none => simp [lcLength, hs] at h2
        | some tl =>
          simp only [lcLength, hs, Except.ok.injEq] at h2
          have hp := sort.perm toa
          have hsd := sort.sorted toa
          have hmem : tl ∈ toa := hp.mem_iff.1 (List.mem_of_getLast? hs)
          have hge : ∀ t ∈ toa, t ≤ tl := by
            intro t ht
            obtain ⟨l, hl⟩ := List.getLast?_eq_some_iff.1 hs
            rw [hl] at hsd
            have ht' := hp.mem_iff.2 ht
            rw [hl] at ht'
            rcases List.mem_append.1 ht' with h | h
            · exact (List.pairwise_append.1 hsd).2.2 t h tl (by simp)
            · exact (List.mem_singleton.1 h).le
          have := le_antisymm (hg.2 hmem) (hge _ hg.1)
          linarith
      · cases hs : (sort.sort toa).getLast? with
        | none => simp [lcLength, hs] at h2
        | some tl =>
          cases hf : Gti.flatten g with
          | nil => simp [lcLength, hs, hf] at h2
          | cons p ps =>
            simp only [lcLength, hs, hf, Except.ok.injEq] at h2
            have hmem : ∀ b, b ∈ p :: ps ↔ ∃ i ∈ g, b = i.1 ∨ b = i.2 := fun b => by
              rw [← hf]; exact mem_flatten_iff g b
            have := le_antisymm (hg.2 ((hmem _).1 (foldl_max_mem ps p))) (le_foldl_max ps p _ ((hmem _).2 hg.1))
            linarith
    rw [hLlen]
    have hq : 0 ≤ L / dt := div_nonneg hL hdt.le
    have hf0 : 0 ≤ ⌊L / dt⌋ := Int.floor_nonneg.2 hq
    have hfl := Int.floor_le (L / dt)
    have hfu := Int.lt_floor_add_one (L / dt)
    have hLd : L / dt * dt = L := div_mul_cancel₀ L hdt.ne'
    unfold timebin pyInt
    simp only [hq, if_true]
    split_ifs with hr
    · have e : (((⌊L / dt⌋ + 1).toNat : Nat) : K) = (⌊L / dt⌋ : K) + 1 := by
        have : (((⌊L / dt⌋ + 1).toNat : Nat) : Int) = ⌊L / dt⌋ + 1 := Int.toNat_of_nonneg (by omega)
        exact_mod_cast congrArg (Int.cast : Int → K) this
      rw [e]
      constructor
      · have := mul_le_mul_of_nonneg_right hr hdt.le
        have e2 : (L / dt - (⌊L / dt⌋ : K)) * dt = L - (⌊L / dt⌋ : K) * dt := by rw [sub_mul, hLd]
        rw [e2] at this
        linarith
      · have := mul_lt_mul_of_pos_right hfu hdt
        rw [hLd] at this
        linarith
    · have e : (((⌊L / dt⌋).toNat : Nat) : K) = (⌊L / dt⌋ : K) := by
        have : (((⌊L / dt⌋).toNat : Nat) : Int) = ⌊L / dt⌋ := Int.toNat_of_nonneg hf0
        exact_mod_cast congrArg (Int.cast : Int → K) this
      rw [e]
      constructor
      · have := mul_le_mul_of_nonneg_right hfl hdt.le
        rw [hLd] at this
        have := div_pos hdt (by norm_num : (0 : K) < 100)
        linarith
      · have := mul_lt_mul_of_pos_right hfu hdt
        rw [hLd] at this
        linarith

/-- **C35 (both methods agree).** `use_hist=True` and the default give the same light curve, whenever the default succeeds. -/
theorem make_lightcurve_use_hist (sort : KeySort (fun (x : K) => x)) (toa : List K) (dt : K) (tseg tstart : Option K)
    (gti : Option (List (K × K))) (out : List K × List Nat) (hdt : 0 < dt)
    (h : makeLightcurve sort toa dt tseg tstart gti false = .ok out) :
    makeLightcurve sort toa dt tseg tstart gti true = .ok out := by
  obtain ⟨t0, len, h1, h2, h3, h4⟩ := makeLightcurve_cases sort toa dt tseg tstart gti false _ hdt h
  have : ∃ out', makeLightcurve sort toa dt tseg tstart gti true = .ok out' := by
    unfold makeLightcurve
    simp [h1, h2, bind, Except.bind, pure, Except.pure]
  obtain ⟨out', h'⟩ := this
  obtain ⟨t0', len', h1', h2', h3', h4'⟩ := makeLightcurve_cases sort toa dt tseg tstart gti true _ hdt h'
  rw [h1] at h1'
  cases h1'
  rw [h2] at h2'
  cases h2'
  rw [h']
  congr 1
  exact Prod.ext (h3'.trans h3.symm) (h4'.trans h4.symm)

example : makeLightcurve (stableSort _) [(3 : ℚ), 1/2, 1, 7/4, 9/2] 1 (some (399/100)) (some (1/2)) none false =
    .ok ([1, 2, 3, 4], [2, 1, 1, 0]) := by decide +kernel

/-! ### Light curve to events and back (C36) -/

/-- the events of a light curve: one at the centre of the bin for each count -/
def eventsOf (times : List K) (counts : List Int) : List K :=
  (times.zip counts).flatMap (fun x => List.replicate x.2.toNat x.1)

theorem fromLcLoop_spec (l : List (K × Int)) : ∀ (done : List K) (val : Option Nat) (z : K),
    (∀ v, val = some v → v = done.length) → (val = none → done = []) →
    ((val ≠ none ∨ ∃ x ∈ l, 0 < x.2) →
      fromLcLoop done.length val (done ++ List.replicate (intSumNonZero (l.map Prod.snd)) z) l =
        .ok (done ++ l.flatMap (fun x => List.replicate x.2.toNat x.1))) ∧
    ((val = none ∧ ∀ x ∈ l, x.2 ≤ 0) →
      fromLcLoop done.length val (done ++ List.replicate (intSumNonZero (l.map Prod.snd)) z) l =
        .error .nameError) := by
  induction l with
  | nil =>
    intro done val z hv hn
    cases val with
    | none => simp [fromLcLoop]
    | some v => simp [fromLcLoop, hv v rfl, intSumNonZero]
  | cons x l ih =>
    intro done val z hv hn
    obtain ⟨t, c⟩ := x
    by_cases hc : c ≤ 0
    · have e1 : intSumNonZero (((t, c) :: l).map Prod.snd) = intSumNonZero (l.map Prod.snd) := by
        simp [intSumNonZero, not_lt.2 hc]
      have e2 : ((t, c) :: l).flatMap (fun x => List.replicate x.2.toNat x.1) =
          l.flatMap (fun x => List.replicate x.2.toNat x.1) := by
        simp [Int.toNat_of_nonpos hc]
      rw [e1, e2]
      simp only [fromLcLoop, hc, if_true]
      constructor
      · rintro (h | ⟨x, hx, hx0⟩)
        · exact (ih done val z hv hn).1 (Or.inl h)
        · rcases List.mem_cons.1 hx with rfl | hx
          · exact absurd hx0 (not_lt.2 hc)
          · exact (ih done val z hv hn).1 (Or.inr ⟨x, hx, hx0⟩)
      · rintro ⟨h1, h2⟩
        exact (ih done val z hv hn).2 ⟨h1, fun x hx => h2 x (by simp [hx])⟩
    · have hc' : 0 < c := not_le.1 hc
      have e1 : intSumNonZero (((t, c) :: l).map Prod.snd) = c.toNat + intSumNonZero (l.map Prod.snd) := by
        simp [intSumNonZero, hc']
      have hbuf : (done ++ List.replicate (intSumNonZero (((t, c) :: l).map Prod.snd)) z).take done.length ++
          List.replicate (min (c.toNat + done.length)
            (done ++ List.replicate (intSumNonZero (((t, c) :: l).map Prod.snd)) z).length - done.length) t ++
          (done ++ List.replicate (intSumNonZero (((t, c) :: l).map Prod.snd)) z).drop (c.toNat + done.length) =
          (done ++ List.replicate c.toNat t) ++ List.replicate (intSumNonZero (l.map Prod.snd)) z := by
        rw [e1, List.take_left' rfl, List.length_append, List.length_replicate]
        have : min (c.toNat + done.length) (done.length + (c.toNat + intSumNonZero (l.map Prod.snd))) -
            done.length = c.toNat := by omega
        rw [this, List.drop_append]
        simp
      simp only [fromLcLoop, hc, if_false]
      rw [hbuf]
      have hlen : c.toNat + done.length = (done ++ List.replicate c.toNat t).length := by
        simp; omega
      rw [hlen]
      constructor
      · intro _
        rw [(ih (done ++ List.replicate c.toNat t) (some _) z (by simp) (by simp)).1 (Or.inl (by simp))]
        simp [List.append_assoc]
      · rintro ⟨-, h2⟩
        exact absurd (h2 (t, c) (by simp)) (not_le.2 hc')

/-- **C36 (events).** `from_lc` gives, for each bin in order, as many events as the bin has counts, at the time of the bin; negative and
zero bins give none.  In particular the number of events is the sum of the positive counts. -/
theorem from_lc_events (times : List K) (counts : List Int) (hlen : times.length = counts.length)
    (hpos : ∃ c ∈ counts, 0 < c) :
    fromLc times counts = .ok (eventsOf times counts) ∧
    (eventsOf times counts).length = (counts.map Int.toNat).sum := by
  have hsnd : (times.zip counts).map Prod.snd = counts := List.map_snd_zip hlen.ge
  constructor
  · have := (fromLcLoop_spec (times.zip counts) [] none 0 (by simp) (by simp)).1 (by
      right
      obtain ⟨c, hc, h0⟩ := hpos
      rw [← hsnd, List.mem_map] at hc
      obtain ⟨x, hx, rfl⟩ := hc
      exact ⟨x, hx, h0⟩)
    rw [hsnd] at this
    simpa [fromLc, eventsOf] using this
  · unfold eventsOf
    rw [List.length_flatMap]
    conv_rhs => rw [← hsnd, List.map_map]
    simp only [List.length_replicate]
    rfl

/-- **C36 (negation).** A light curve without any positive count cannot be converted: the function raises, for every such light curve. -/
theorem from_lc_no_counts (times : List K) (counts : List Int) (hlen : times.length = counts.length)
    (h : ∀ c ∈ counts, c ≤ 0) : fromLc times counts = .error .nameError := by
  have hsnd : (times.zip counts).map Prod.snd = counts := List.map_snd_zip hlen.ge
  have := (fromLcLoop_spec (times.zip counts) [] none 0 (by simp) (by simp)).2 ⟨rfl, by
    intro x hx
    apply h
    rw [← hsnd]
    exact List.mem_map_of_mem hx⟩
  rw [hsnd] at this
  simpa [fromLc] using this

example : fromLc [(1 : ℚ), 2, 3, 4] [2, 0, -1, 1] = .ok [1, 1, 4] ∧
    fromLc [(1 : ℚ), 2] [0, 0] = .error .nameError := by decide +kernel

theorem foldl_min_eq (T : K) : ∀ (ps : List K) (p : K), (∀ x ∈ p :: ps, T ≤ x) → T ∈ p :: ps →
    ps.foldl min p = T := by
  intro ps
  induction ps with
  | nil => intro p _ hT; simpa [eq_comm] using hT
  | cons q ps ih =>
    intro p h hT
    rw [List.foldl_cons]
    apply ih
    · intro x hx
      rcases List.mem_cons.1 hx with rfl | hx
      · exact le_min (h p (by simp)) (h q (by simp))
      · exact h x (by simp [hx])
    · rcases List.mem_cons.1 hT with rfl | hT
      · rw [min_eq_left (h q (by simp))]; simp
      · rcases List.mem_cons.1 hT with rfl | hT
        · rw [min_eq_right (h p (by simp))]; simp
        · simp [hT]

theorem foldl_max_eq (T : K) : ∀ (ps : List K) (p : K), (∀ x ∈ p :: ps, x ≤ T) → T ∈ p :: ps →
    ps.foldl max p = T := by
  intro ps
  induction ps with
  | nil => intro p _ hT; simpa [eq_comm] using hT
  | cons q ps ih =>
    intro p h hT
    rw [List.foldl_cons]
    apply ih
    · intro x hx
      rcases List.mem_cons.1 hx with rfl | hx
      · exact max_le (h p (by simp)) (h q (by simp))
      · exact h x (by simp [hx])
    · rcases List.mem_cons.1 hT with rfl | hT
      · rw [max_eq_left (h q (by simp))]; simp
      · rcases List.mem_cons.1 hT with rfl | hT
        · rw [max_eq_right (h p (by simp))]; simp
        · simp [hT]

theorem inTimeBin_centre (T dt : K) (hdt : 0 < dt) (i j : Nat) :
    InTimeBin T dt i (T + (1 / 2 + (j : K)) * dt) ↔ j = i := by
  unfold InTimeBin
  constructor
  · rintro ⟨h1, h2⟩
    have h1' : (i : K) * dt ≤ (1 / 2 + (j : K)) * dt := by linarith
    have h2' : (1 / 2 + (j : K)) * dt < ((i : K) + 1) * dt := by linarith
    have a := le_of_mul_le_mul_right h1' hdt
    have b := lt_of_mul_lt_mul_right h2' hdt.le
    have a' : i < j + 1 := by
      have : (i : K) < (j : K) + 1 := by linarith
      exact_mod_cast this
    have b' : j < i + 1 := by
      have : (j : K) < (i : K) + 1 := by linarith
      exact_mod_cast this
    omega
  · rintro rfl
    have : (1 / 2 + (j : K)) * dt = (j : K) * dt + dt / 2 := by ring
    constructor
    · linarith
    · have : ((j : K) + 1) * dt = (j : K) * dt + dt := by ring
      linarith

theorem count_events (T dt : K) (hdt : 0 < dt) (i : Nat) (cs : List Int) : ∀ k : Nat,
    ((((List.range' k cs.length).map (fun (j : Nat) => T + (1 / 2 + (j : K)) * dt)).zip cs).flatMap
      (fun x => List.replicate x.2.toNat x.1) |>.filter (fun t => decide (InTimeBin T dt i t))).length =
      if k ≤ i then (cs.getD (i - k) 0).toNat else 0 := by
  induction cs with
  | nil => intro k; simp
  | cons c cs ih =>
    intro k
    rw [List.length_cons, List.range'_succ, List.map_cons, List.zip_cons_cons, List.flatMap_cons,
      List.filter_append, List.length_append, ih (k + 1), List.filter_replicate]
    have hk := inTimeBin_centre T dt hdt i k
    by_cases hki : k = i
    · have h1 : ¬ (k + 1 ≤ i) := by omega
      have h2 : k ≤ i := by omega
      simp only [hk.2 hki, decide_true, if_true, h1, h2, if_false, List.length_replicate, add_zero]
      simp [hki]
    · have hn : ¬ InTimeBin T dt i (T + (1 / 2 + (k : K)) * dt) := fun h => hki (hk.1 h)
      simp only [hn, decide_false, Bool.false_eq_true, if_false, List.length_nil, zero_add]
      by_cases hle : k ≤ i
      · have h3 : k + 1 ≤ i := by omega
        have h4 : i - k = (i - (k + 1)) + 1 := by omega
        simp only [hle, h3, if_true, h4, List.getD_cons_succ]
      · have h3 : ¬ (k + 1 ≤ i) := by omega
        simp [hle, h3]

/-- **C36.** Converting a light curve (evenly spaced bins, integer counts, GTIs that begin with the first bin and end with the last) to events and
back gives the same bins, and the same counts where they are not negative. -/
theorem from_lc_to_lc (sort : KeySort (fun (x : K) => x)) (T dt : K) (hdt : 0 < dt) (counts : List Int)
    (hpos : ∃ c ∈ counts, 0 < c) (gti : List (K × K)) (times : List K)
    (htimes : times = (List.range counts.length).map (fun (j : Nat) => T + (1 / 2 + (j : K)) * dt))
    (hg : ∀ g ∈ gti, T ≤ g.1 ∧ T ≤ g.2 ∧ g.1 ≤ T + counts.length * dt ∧ g.2 ≤ T + counts.length * dt)
    (hg0 : ∃ g ∈ gti, g.1 = T) (hg1 : ∃ g ∈ gti, g.2 = T + counts.length * dt) :
    ∃ ev, fromLc times counts = .ok ev ∧
      makeLightcurve sort ev dt none none (some gti) false =
        .ok (times, counts.map Int.toNat) := by
  have hlen : times.length = counts.length := by rw [htimes]; simp
  refine ⟨_, (from_lc_events times counts hlen hpos).1, ?_⟩
  set ev := eventsOf times counts with hev
  have hevne : sort.sort ev ≠ [] := by
    intro e
    have h1 := (sort.perm ev).length_eq
    rw [e, (from_lc_events times counts hlen hpos).2] at h1
    obtain ⟨c, hc, h0⟩ := hpos
    have : c.toNat ≤ (counts.map Int.toNat).sum :=
      List.single_le_sum (fun _ _ => Nat.zero_le _) _ (List.mem_map_of_mem hc)
    simp at h1
    have h2 := h1.symm
    omega
  obtain ⟨e0, es, he⟩ := List.exists_cons_of_ne_nil hevne
  have hflat : ∃ p ps, Gti.flatten gti = p :: ps := by
    obtain ⟨g, hgm, -⟩ := hg0
    cases gti with
    | nil => simp at hgm
    | cons a l => exact ⟨a.1, a.2 :: Gti.flatten l, rfl⟩
  obtain ⟨p, ps, hp⟩ := hflat
  have hmem : ∀ x, x ∈ p :: ps ↔ ∃ g ∈ gti, x = g.1 ∨ x = g.2 := by
    intro x
    rw [← hp, Gti.flatten]
    simp [List.mem_flatMap]
  have hmin : ps.foldl min p = T := by
    apply foldl_min_eq
    · intro x hx
      obtain ⟨g, hgm, rfl | rfl⟩ := (hmem x).1 hx
      · exact (hg g hgm).1
      · exact (hg g hgm).2.1
    · obtain ⟨g, hgm, h⟩ := hg0
      exact (hmem T).2 ⟨g, hgm, Or.inl h.symm⟩
  have hmax : ps.foldl max p = T + counts.length * dt := by
    apply foldl_max_eq
    · intro x hx
      obtain ⟨g, hgm, rfl | rfl⟩ := (hmem x).1 hx
      · exact (hg g hgm).2.2.1
      · exact (hg g hgm).2.2.2
    · obtain ⟨g, hgm, h⟩ := hg1
      exact (hmem _).2 ⟨g, hgm, Or.inr h.symm⟩
  have hs : lcStart (sort.sort ev) none (some gti) = .ok T := by
    simp only [lcStart, he, hp, hmin]
  have hl : lcLength (sort.sort ev) T none (some gti) = .ok ((counts.length : K) * dt) := by
    have : (sort.sort ev).getLast? = some ((sort.sort ev).getLast hevne) :=
      List.getLast?_eq_some_getLast hevne
    simp only [lcLength, this, hp, hmax]
    congr 1
    ring
  have htb : timebin ((counts.length : K) * dt) dt = counts.length := by
    have e : (counts.length : K) * dt / dt = (counts.length : K) := by field_simp
    unfold timebin pyInt
    simp only [e, Nat.cast_nonneg, if_true, Int.floor_natCast]
    have : ¬ ((99 : K) / 100 ≤ (counts.length : K) - ((counts.length : Int) : K)) := by
      push_cast
      rw [sub_self]
      norm_num
    simp only [this, if_false]
  have hex : ∃ out, makeLightcurve sort ev dt none none (some gti) false = .ok out := by
    unfold makeLightcurve
    simp only [hs, hl, bind, Except.bind, pure, Except.pure, htb]
    have : ¬ ((counts.length : Int) < 0) := by omega
    simp only [Bool.false_eq_true, this, if_false]
    exact ⟨_, rfl⟩
  obtain ⟨out, hout⟩ := hex
  obtain ⟨t0, len, h1, h2, h3, h4⟩ := makeLightcurve_cases sort ev dt none none (some gti) false out hdt hout
  rw [hs] at h1
  cases h1
  rw [hl] at h2
  cases h2
  rw [htb, Int.toNat_natCast] at h3 h4
  rw [hout]
  congr 1
  refine Prod.ext ?_ ?_
  · rw [h3, htimes]
  · rw [h4]
    have e : ∀ i, (ev.filter (fun t => decide (InTimeBin T dt i t))).length = (counts.getD i 0).toNat := by
      intro i
      have := count_events T dt hdt i counts 0
      rw [← List.range_eq_range', ← htimes] at this
      simpa [hev, eventsOf] using this
    simp only [e]
    apply List.ext_getElem?
    intro i
    by_cases hi : i < counts.length
    · simp [List.getElem?_range hi, List.getElem?_eq_getElem hi, List.getD_eq_getElem?_getD]
    · simp [not_lt.1 hi]

example : ∃ ev, fromLc [(11/2 : ℚ), 13/2, 15/2] [2, 0, 1] = .ok ev ∧
    makeLightcurve (stableSort _) ev 1 none none (some [(5, 6), (6, 8)]) false =
      .ok ([11/2, 13/2, 15/2], [2, 0, 1]) := ⟨[11/2, 11/2, 15/2], by decide +kernel⟩

end Stingray.Lightcurve

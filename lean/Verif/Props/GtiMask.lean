import Verif.Lemmas.GtiMask
import Mathlib.Algebra.Order.Ring.Rat
import Mathlib.Tactic.NormNum
import Mathlib.Data.List.Chain

/-!
# Properties C02, C03: which samples a GTI mask selects
-/

namespace Stingray.Gti

open Stingray.Spec

variable {K : Type} [Field K] [LinearOrder K] [IsStrictOrderedRing K]

/-- **C02.** `create_gti_mask_complete` selects sample `i` exactly when some GTI that is still at
least `min_length` long after trimming the safe intervals contains the whole bin of the sample up to
`epsilon` times the bin width.  Rejected GTI lists are errors. -/
theorem create_gti_mask_complete_iff (times dt : List K) (gtis : List (K × K)) (safe : K × K)
    (minLength eps : K) (hl : dt.length = times.length) :
    (checkGtis gtis = .ok () →
      ∃ mask, gtiMaskComplete times dt gtis safe minLength eps = .ok mask ∧
        mask.length = times.length ∧
        ∀ i (h : i < times.length), (mask[i]? = some true ↔
          ∃ g ∈ gtis, minLength ≤ (g.2 - safe.2) - (g.1 + safe.1) ∧
            BinInside (g.1 + safe.1) (g.2 - safe.2) times[i] dt[i] (eps * dt[i]))) ∧
    (checkGtis gtis ≠ .ok () →
      gtiMaskComplete times dt gtis safe minLength eps = .error .valueError) := by
  constructor
  · intro hok
    have := completeFold times dt safe minLength eps gtis (List.replicate times.length false) hl
      (by simp)
    refine ⟨_, by unfold gtiMaskComplete; rw [hok]; rfl, this.1, ?_⟩
    intro i h
    rw [this.2 i h]
    simp only [List.getElem_replicate, Bool.false_or, Option.some.injEq, List.any_eq_true,
      insideComplete, Bool.and_eq_true, decide_eq_true_eq, BinInside]
    constructor
    · rintro ⟨g, hg, h1, h2, h3⟩
      exact ⟨g, hg, h1, by linarith, by linarith⟩
    · rintro ⟨g, hg, h1, h2, h3⟩
      exact ⟨g, hg, h1, by linarith, by linarith⟩
  · intro hno
    rcases checkGtis_cases gtis with h | h
    · exact absurd h hno
    · unfold gtiMaskComplete; rw [h]; rfl

example : checkGtis [((0 : ℚ), 3), (5, 9)] = .ok () ∧
    gtiMaskComplete [1/2, 3/2, 5/2, 7/2, 11/2, 13/2] [1, 1, 1, 1, 1, 1] [((0 : ℚ), 3), (5, 9)] (1, 0) 1
      (1/1000) = .ok [false, true, true, false, false, true] := by decide +kernel

/-- **C03 (soundness, full strength).** Whatever the arguments, a sample selected by the default
`create_gti_mask` has its whole bin inside a trimmed GTI, up to the tolerance. -/
theorem create_gti_mask_sound (median : List K → K) (times : List K) (gtis : List (K × K))
    (safe : Option (K × K)) (minLength : K) (dt : Option K) (eps : K) (mask : List Bool)
    (h : createGtiMask median times gtis safe minLength dt eps = .ok mask) :
    List.Forall₂ (fun t b => b = true →
      ∃ g ∈ gtis, BinInside (g.1 + (safe.getD (0, 0)).1) (g.2 - (safe.getD (0, 0)).2) t
        (dt.getD (median times)) (eps * dt.getD (median times))) times mask := by
  set D := dt.getD (median times) with hD
  -- the core statement for any sub-list of GTIs
  have core : ∀ (G : List (K × K)) (t0 : K), (∀ g ∈ G, g ∈ gtis) →
      List.Forall₂ (fun t b => b = true →
        ∃ g ∈ gtis, BinInside (g.1 + (safe.getD (0, 0)).1) (g.2 - (safe.getD (0, 0)).2) t D (eps * D))
        times
        (gtiMaskJit (times.map (· - t0))
          ((gtisToMask G safe D eps).map fun g => (g.1 - t0, g.2 - t0))
          (minLength - 2 * (1 + eps) * D)) := by
    intro G t0 hG
    have hs := jitLoop_sound (minLength - 2 * (1 + eps) * D) none
      ((gtisToMask G safe D eps).map fun g => (g.1 - t0, g.2 - t0)) false (times.map (· - t0))
    rw [List.forall₂_map_left_iff] at hs
    refine hs.imp ?_
    intro t b hb hbt
    obtain ⟨g, hg, h1, h2⟩ := hb hbt
    simp only [Option.toList_none, List.nil_append, List.mem_map, gtisToMask] at hg
    obtain ⟨g', ⟨g'', hg'', rfl⟩, rfl⟩ := hg
    refine ⟨g'', hG _ hg'', ?_⟩
    rcases safe with _ | s <;> simp [BinInside] at h1 h2 ⊢ <;> constructor <;> linarith
  unfold createGtiMask at h
  cases times with
  | nil => cases h
  | cons t0 ts =>
    simp only at h
    split_ifs at h with h1 h2 h3
    · cases dt with
      | some d => cases h
      | none =>
        cases h
        generalize t0 :: ts = l
        induction l with
        | nil => simp
        | cons a l ih =>
          rw [List.length_cons, List.replicate_succ]
          exact List.Forall₂.cons (by simp) ih
    · cases dt with
      | some d => cases h
      | none =>
        rcases checkGtis_cases (gtis.filter (fun g => decide (minLength ≤ g.2 - g.1))) with hc | hc
        · simp only [hc] at h
          cases h
          exact core _ t0 (fun g hg => (List.mem_filter.1 hg).1)
        · simp only [hc] at h; cases h
    · rcases checkGtis_cases gtis with hc | hc
      · rw [hc] at h
        cases h
        exact core _ t0 (fun g hg => hg)
      · rw [hc] at h; cases h

/-- **C03 (exactness, partial).** Missing from the full property: the hypothesis that no whole GTI
ends unseen, i.e. no two GTIs end between two consecutive samples and none before the
first one (`hskip`, `hfirst`).  Under it the mask is exact.  The hypothesis cannot be dropped, see
`create_gti_mask_not_exact`. -/
theorem create_gti_mask_exact_partial (median : List K → K) (times : List K) (gtis : List (K × K))
    (d eps : K) (hd : 0 < d) (he0 : 0 ≤ eps) (he : eps < 1 / 2)
    (hne : times ≠ []) (hsort : times.Pairwise (· ≤ ·)) (hok : checkGtis gtis = .ok ())
    (hfirst : ∀ t ∈ times.head?, ∀ g ∈ gtis, t + d / 2 ≤ g.2 + eps * d)
    (hskip : times.IsChain (fun t t' => gtis.Pairwise (fun g h =>
      ¬ (t + d / 2 ≤ g.2 + eps * d ∧ h.2 + eps * d < t' + d / 2)))) :
    ∃ mask, createGtiMask median times gtis none 0 (some d) eps = .ok mask ∧
      List.Forall₂ (fun t b => b = true ↔ ∃ g ∈ gtis, BinInside g.1 g.2 t d (eps * d))
        times mask := by
  obtain ⟨hg0, hwf⟩ := (checkGtis_ok_iff gtis).1 hok
  obtain ⟨t0, ts, rfl⟩ := List.exists_cons_of_ne_nil hne
  have hem : gtis.isEmpty = false := by simpa using hg0
  have hed : 0 ≤ eps * d := mul_nonneg he0 hd.le
  have hed2 : eps * d < d / 2 := by
    have := mul_lt_mul_of_pos_right he hd; linarith
  refine ⟨_, by unfold createGtiMask; simp only [hem, lt_irrefl, if_false, hok]; rfl, ?_⟩
  have hex := jit_exact (0 - 2 * (1 + eps) * d)
    ((gtisToMask gtis none d eps).map fun g => (g.1 - t0, g.2 - t0)) ((t0 :: ts).map (· - t0))
    ?_ ?_ ?_ ?_ ?_ ?_
  · rw [List.forall₂_map_left_iff] at hex
    refine hex.imp ?_
    intro t b hb
    rw [hb]
    simp only [gtisToMask, List.map_map, List.mem_map, Function.comp, BinInside]
    constructor
    · rintro ⟨g, ⟨g', hg', rfl⟩, h1, h2⟩
      exact ⟨g', hg', by dsimp at h1 h2; linarith, by dsimp at h1 h2; linarith⟩
    · rintro ⟨g', hg', h1, h2⟩
      exact ⟨_, ⟨g', hg', rfl⟩, by dsimp; linarith, by dsimp; linarith⟩
  · intro g hg
    simp only [gtisToMask, List.map_map, List.mem_map, Function.comp] at hg
    obtain ⟨g', hg', rfl⟩ := hg
    have := hwf.1 g' hg'
    dsimp
    linarith
  · simp only [gtisToMask, List.map_map, List.pairwise_map]
    refine hwf.2.imp ?_
    intro a b hab
    simp only [Function.comp]
    linarith
  · simp only [gtisToMask, List.map_map, List.pairwise_map]
    refine (wf_ends_sorted hwf).imp ?_
    intro a b hab
    simp only [Function.comp]
    linarith
  · rw [List.pairwise_map]
    exact hsort.imp (fun hab => by linarith)
  · intro t ht g hg
    simp only [gtisToMask, List.map_map, List.mem_map, Function.comp] at hg
    obtain ⟨g', hg', rfl⟩ := hg
    simp at ht
    subst ht
    have := hfirst t0 (by simp) g' hg'
    dsimp; linarith
  · rw [List.isChain_map]
    refine hskip.imp ?_
    intro a b hab
    simp only [gtisToMask, List.map_map, List.pairwise_map]
    refine hab.imp ?_
    intro g h hgh
    simp only [Function.comp]
    rintro ⟨h1, h2⟩
    exact hgh ⟨by linarith, by linarith⟩

/-- **C03 (exactness, partial), in observable terms.** If every GTI contains at least one whole
sample bin the mask is exact. -/
theorem create_gti_mask_exact_of_populated_partial (median : List K → K) (times : List K)
    (gtis : List (K × K)) (d eps : K) (hd : 0 < d) (he0 : 0 ≤ eps) (he : eps < 1 / 2)
    (hne : times ≠ []) (hsort : times.Pairwise (· ≤ ·)) (hok : checkGtis gtis = .ok ())
    (hpop : ∀ g ∈ gtis, ∃ t ∈ times, BinInside g.1 g.2 t d (eps * d)) :
    ∃ mask, createGtiMask median times gtis none 0 (some d) eps = .ok mask ∧
      List.Forall₂ (fun t b => b = true ↔ ∃ g ∈ gtis, BinInside g.1 g.2 t d (eps * d))
        times mask := by
  obtain ⟨hg0, hwf⟩ := (checkGtis_ok_iff gtis).1 hok
  have hed2 : eps * d < d / 2 := by
    have := mul_lt_mul_of_pos_right he hd; linarith
  refine create_gti_mask_exact_partial median times gtis d eps hd he0 he hne hsort hok ?_ ?_
  · intro t ht g hg
    obtain ⟨s, hs, _, h2⟩ := hpop g hg
    have : t ≤ s := by
      cases times with
      | nil => simp at hs
      | cons a l =>
        simp at ht; subst ht
        rcases List.mem_cons.1 hs with rfl | hs
        · exact le_rfl
        · exact (List.pairwise_cons.1 hsort).1 s hs
    linarith
  · -- a sample of the later GTI would have to lie between two consecutive samples
    have aux : ∀ (pre l : List K), pre ++ l = times →
        l.IsChain (fun t t' => gtis.Pairwise (fun g h =>
          ¬ (t + d / 2 ≤ g.2 + eps * d ∧ h.2 + eps * d < t' + d / 2))) := by
      intro pre l
      induction l generalizing pre with
      | nil => intro _; simp
      | cons a l ih =>
        intro hpl
        cases l with
        | nil => simp
        | cons b l =>
          refine List.isChain_cons_cons.2 ⟨?_, ih (pre ++ [a]) (by simp [← hpl])⟩
          have hb : ∀ s ∈ times, s ≤ a ∨ b ≤ s := by
            intro s hs
            rw [← hpl] at hs hsort
            rw [List.pairwise_append] at hsort
            obtain ⟨_, h2, h3⟩ := hsort
            rcases List.mem_append.1 hs with hs | hs
            · left; exact h3 s hs a (by simp)
            · rcases List.mem_cons.1 hs with rfl | hs
              · left; exact le_rfl
              · right
                rcases List.mem_cons.1 hs with rfl | hs
                · exact le_rfl
                · exact (List.pairwise_cons.1 (List.pairwise_cons.1 h2).2).1 s hs
          refine List.Pairwise.imp_of_mem ?_ hwf.2
          rintro g h hgm hhm hgh ⟨h1, h2⟩
          obtain ⟨s, hs, h3, h4⟩ := hpop h hhm
          rcases hb s hs with h5 | h5 <;> linarith
    exact aux [] times rfl

/-- witness that the hypotheses of the two partial theorems are met by a non-trivial case -/
example : checkGtis [((0 : ℚ), 2), (2, 4), (6, 9)] = .ok () ∧
    (∀ g ∈ [((0 : ℚ), 2), (2, 4), (6, 9)],
      ∃ t ∈ [(1/2 : ℚ), 3/2, 5/2, 7/2, 9/2, 11/2, 13/2], BinInside g.1 g.2 t 1 (1/1000 * 1)) ∧
    createGtiMask (fun _ => 0) [(1/2 : ℚ), 3/2, 5/2, 7/2, 9/2, 11/2, 13/2]
      [((0 : ℚ), 2), (2, 4), (6, 9)] none 0 (some 1) (1/1000) =
        .ok [true, true, true, true, false, false, true] := by
  refine ⟨by decide +kernel, ?_, by decide +kernel⟩
  simp [BinInside]
  norm_num

/-- **C03 is false of the code as written**: a sample that is well inside a GTI is masked out when
a whole GTI falls between it and the sample before it. -/
theorem create_gti_mask_not_exact :
    ∃ (times : List ℚ) (gtis : List (ℚ × ℚ)) (d eps : ℚ) (mask : List Bool),
      times.Pairwise (· ≤ ·) ∧ checkGtis gtis = .ok () ∧ 0 < d ∧ 0 < eps ∧ eps < 1 / 2 ∧
      createGtiMask (fun _ => 0) times gtis none 0 (some d) eps = .ok mask ∧
      ∃ t, times[1]? = some t ∧ mask[1]? = some false ∧
        ∃ g ∈ gtis, BinInside g.1 g.2 t d (eps * d) := by
  refine ⟨[1/2, 9/2, 46/10], [(0, 1), (2, 3), (4, 5)], 1/10, 1/1000, [true, false, true],
    by decide +kernel, by decide +kernel, by norm_num, by norm_num, by norm_num,
    by decide +kernel, 9/2, rfl, rfl, (4, 5), by simp, ?_⟩
  unfold BinInside
  norm_num

/-- **C03.** A positive `min_length` together with an explicit `dt` always raises (the bin width is passed
to `numpy.max` as the axis). -/
theorem create_gti_mask_min_length_raises (median : List K → K) (times : List K)
    (gtis : List (K × K)) (safe : Option (K × K)) (minLength d eps : K)
    (hne : times ≠ []) (hg : gtis ≠ []) (hm : 0 < minLength) :
    createGtiMask median times gtis safe minLength (some d) eps = .error .typeError := by
  obtain ⟨t0, ts, rfl⟩ := List.exists_cons_of_ne_nil hne
  have hem : gtis.isEmpty = false := by simpa using hg
  unfold createGtiMask
  simp [hem, hm]

/-- **C03.** Empty inputs are errors. -/
theorem create_gti_mask_empty_raises (median : List K → K) (times : List K)
    (gtis : List (K × K)) (safe : Option (K × K)) (minLength eps : K) (dt : Option K)
    (h : times = [] ∨ gtis = []) :
    createGtiMask median times gtis safe minLength dt eps = .error .valueError := by
  rcases h with rfl | rfl
  · rfl
  · unfold createGtiMask; cases times <;> rfl

end Stingray.Gti

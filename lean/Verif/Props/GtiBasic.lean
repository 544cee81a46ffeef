import Verif.Lemmas.GtiBtis
import Mathlib.Algebra.Order.Ring.Rat
import Mathlib.Tactic.NormNum

/-!
# Properties C01, C06, C10: validation, bad time intervals, joining equal boundaries
-/

namespace Stingray.Gti

open Stingray.Spec

variable {K : Type} [Field K] [LinearOrder K] [IsStrictOrderedRing K]

/-- **C01.** `check_gtis` returns normally exactly for non-empty lists of forward-running
intervals in which *every* interval ends no later than *every later one* starts; otherwise it
raises `ValueError`. -/
theorem check_gtis_accepts_iff (gti : List (K × K)) :
    (checkGtis gti = .ok () ↔
      gti ≠ [] ∧ (∀ g ∈ gti, g.1 ≤ g.2) ∧ gti.Pairwise (fun a b => a.2 ≤ b.1)) ∧
    (checkGtis gti ≠ .ok () → checkGtis gti = .error .valueError) := by
  refine ⟨checkGtis_ok_iff gti, fun h => ?_⟩
  rcases checkGtis_cases gti with h' | h'
  · exact absurd h' h
  · exact h'

/-- **C01.** In an accepted list starts and stops are both in time order and no time is strictly
inside two of the intervals. -/
theorem check_gtis_accepted_ordered (gti : List (K × K)) (h : checkGtis gti = .ok ()) :
    gti.Pairwise (fun a b => a.1 ≤ b.1) ∧ gti.Pairwise (fun a b => a.2 ≤ b.2) ∧
    gti.Pairwise (fun a b => ∀ x, ¬ ((a.1 < x ∧ x < a.2) ∧ (b.1 < x ∧ x < b.2))) := by
  obtain ⟨_, hwf⟩ := (checkGtis_ok_iff gti).1 h
  refine ⟨wf_starts_sorted hwf, wf_ends_sorted hwf, hwf.2.imp ?_⟩
  rintro a b hab x ⟨⟨_, h2⟩, ⟨h3, _⟩⟩
  exact absurd (h2.trans_le hab) (not_lt.2 h3.le)

example : checkGtis [((0 : ℚ), 1), (1, 3), (5, 5)] = .ok () := by decide +kernel
example : checkGtis [((0 : ℚ), 2), (1, 3)] = .error .valueError := by decide +kernel

/-- **C06.** `get_btis(gtis, start, stop)` for accepted `gtis` inside `[start, stop]`: GTIs and BTIs
together are exactly `[start, stop]`; no BTI reaches into the interior of a GTI or vice versa;
the BTIs are themselves in order; exposures add up to `stop - start`. -/
theorem get_btis_complement (gtis : List (K × K)) (start stop : K)
    (hok : checkGtis gtis = .ok ()) (hs : ∀ g ∈ gtis, start ≤ g.1) (he : ∀ g ∈ gtis, g.2 ≤ stop) :
    ∃ btis, getBtis gtis (some start) (some stop) = .ok btis ∧
      (∀ x, (start ≤ x ∧ x ≤ stop) ↔ (Covers gtis x ∨ Covers btis x)) ∧
      (∀ x, ¬ (CoversInterior gtis x ∧ Covers btis x)) ∧
      (∀ x, ¬ (Covers gtis x ∧ CoversInterior btis x)) ∧
      WellFormed btis ∧
      exposure gtis + exposure btis = stop - start := by
  obtain ⟨hne, hwf⟩ := (checkGtis_ok_iff gtis).1 hok
  obtain ⟨a, l, rfl⟩ := List.exists_cons_of_ne_nil hne
  have hsa := hs a (by simp)
  have hcov := covers_btisAfter stop a l hwf he
  obtain ⟨hb1, hb2⟩ := btisAfter_bounds stop a l hwf he
  have hexp := exposure_btisAfter stop a l he
  have hss := List.pairwise_cons.1 (wf_starts_sorted hwf)
  have hal := hwf.1 a (by simp)
  refine ⟨_, getBtis_eq a l (some start) (some stop) hwf, ?_⟩
  simp only [Option.getD_some]
  -- the separation of BTIs from GTIs, whatever the leading piece is
  have key : ∀ b ∈ (if a.1 ≤ start then [] else [(start, a.1)]) ++ btisAfter stop a l,
      b.1 ≤ b.2 ∧ ∀ g ∈ a :: l, g.2 ≤ b.1 ∨ b.2 ≤ g.1 := by
    intro b hb
    rcases List.mem_append.1 hb with hb | hb
    · split_ifs at hb
      · simp at hb
      · simp only [List.mem_singleton] at hb
        subst hb
        refine ⟨hsa, ?_⟩
        intro g hg
        right
        rcases List.mem_cons.1 hg with rfl | hg
        · exact le_rfl
        · exact hss.1 g hg
    · exact ⟨(hb1 b hb).2.1, (hb1 b hb).2.2⟩
  refine ⟨?_, ?_, ?_, ⟨fun b hb => (key b hb).1, ?_⟩, ?_⟩
  · intro x
    split_ifs with h
    · have : a.1 = start := le_antisymm h hsa
      rw [List.nil_append, ← hcov, this]
    · have e : Covers ([(start, a.1)] ++ btisAfter stop a l) x ↔
          (start ≤ x ∧ x ≤ a.1) ∨ Covers (btisAfter stop a l) x := by simp [Covers]
      rw [e]
      have has : a.1 ≤ stop := hal.trans (he a (by simp))
      constructor
      · rintro ⟨h1, h2⟩
        rcases le_total x a.1 with hx | hx
        · exact Or.inr (Or.inl ⟨h1, hx⟩)
        · rcases (hcov x).1 ⟨hx, h2⟩ with h3 | h3
          · exact Or.inl h3
          · exact Or.inr (Or.inr h3)
      · rintro (h1 | ⟨h1, h2⟩ | h1)
        · have := (hcov x).2 (Or.inl h1); exact ⟨hsa.trans this.1, this.2⟩
        · exact ⟨h1, h2.trans has⟩
        · have := (hcov x).2 (Or.inr h1); exact ⟨hsa.trans this.1, this.2⟩
  · rintro x ⟨⟨g, hg, h1, h2⟩, b, hb, h3, h4⟩
    rcases (key b hb).2 g hg with h5 | h5
    · exact absurd (h5.trans h3) (not_le.2 h2)
    · exact absurd (h4.trans h5) (not_le.2 h1)
  · rintro x ⟨⟨g, hg, h1, h2⟩, b, hb, h3, h4⟩
    rcases (key b hb).2 g hg with h5 | h5
    · exact absurd (h2.trans h5) (not_le.2 h3)
    · exact absurd (h5.trans h1) (not_le.2 h4)
  · split_ifs with h
    · simpa using hb2
    · refine List.Pairwise.cons ?_ hb2
      intro b hb
      exact hal.trans (hb1 b hb).1
  · split_ifs with h
    · have : a.1 = start := le_antisymm h hsa
      rw [List.nil_append, hexp, this]
    · have e : exposure ([(start, a.1)] ++ btisAfter stop a l) =
          (a.1 - start) + exposure (btisAfter stop a l) := by simp [exposure]
      rw [e]; linarith

/-- **C06.** Without explicit limits the first start and the last stop are used. -/
theorem get_btis_default_limits (gtis : List (K × K)) (first last : K × K)
    (hf : gtis.head? = some first) (hl : gtis.getLast? = some last) :
    getBtis gtis none none = getBtis gtis (some first.1) (some last.2) := by
  unfold getBtis; rw [hf, hl]; rfl

/-- **C06.** No GTIs at all: the whole interval is bad, and missing limits are an error. -/
theorem get_btis_empty (a b : K) :
    getBtis [] (some a) (some b) = .ok [(a, b)] ∧
    getBtis ([] : List (K × K)) none none = .error .valueError ∧
    getBtis [] (some a) none = .error .valueError ∧
    getBtis [] none (some b) = .error .valueError := ⟨rfl, rfl, rfl, rfl⟩

example : checkGtis [((1 : ℚ), 2), (4, 5), (5, 6)] = .ok () ∧
    getBtis [((1 : ℚ), 2), (4, 5), (5, 6)] (some 0) (some 7) =
      .ok [(0, 1), (2, 4), (5, 5), (6, 7)] := by decide +kernel

/-- **C10.** `join_equal_gti_boundaries` (exact equality, the default threshold) on an accepted
list: same good times, same exposure, a gap between any two resulting intervals, boundaries taken from
the input, and nothing left to join (idempotent). -/
theorem join_equal_gti_boundaries_spec (gti : List (K × K)) (hok : checkGtis gti = .ok ()) :
    ∃ out, joinEqualGtiBoundaries 0 gti = .ok out ∧
      (∀ x, Covers out x ↔ Covers gti x) ∧
      exposure out = exposure gti ∧
      checkGtis out = .ok () ∧
      out.Pairwise (fun a b => a.2 < b.1) ∧
      (∀ k ∈ out, (∃ g ∈ gti, g.1 = k.1) ∧ (∃ g ∈ gti, g.2 = k.2)) ∧
      joinEqualGtiBoundaries 0 out = .ok out := by
  obtain ⟨hne, hwf⟩ := (checkGtis_ok_iff gti).1 hok
  obtain ⟨a, l, rfl⟩ := List.exists_cons_of_ne_nil hne
  have hsep := joinEqualLoop_separated a l hwf
  have hne' := joinEqualLoop_ne_nil 0 a l
  refine ⟨joinEqualLoop 0 a l, rfl, covers_joinEqualLoop a l hwf, exposure_joinEqualLoop a l,
    checkGtis_of_wf hne' ⟨fun g hg => (hsep.1 g hg).1, hsep.2.imp le_of_lt⟩, hsep.2,
    mem_joinEqualLoop a l, ?_⟩
  obtain ⟨b, m, hbm⟩ := List.exists_cons_of_ne_nil hne'
  rw [hbm] at hsep ⊢
  show Except.ok (joinEqualLoop 0 b m) = _
  rw [joinEqualLoop_of_separated b m hsep.2]

example : checkGtis [((0 : ℚ), 1), (1, 3), (3, 4), (6, 7)] = .ok () ∧
    joinEqualGtiBoundaries 0 [((0 : ℚ), 1), (1, 3), (3, 4), (6, 7)] = .ok [(0, 4), (6, 7)] := by
  decide +kernel

/-- **C96.** The total length is the sum of the lengths of the GTIs that are at least `minlen` long; with the default
of 0 it is the exposure of any accepted list, never negative, and it does not grow with `minlen`. -/
theorem total_gti_length_spec (gti : List (K × K)) (minlen : K) :
    totalGtiLength gti minlen = exposure (gti.filter (fun g => decide (minlen ≤ g.2 - g.1))) ∧
    (checkGtis gti = .ok () → totalGtiLength gti 0 = exposure gti ∧ 0 ≤ totalGtiLength gti 0) ∧
    (∀ m', 0 ≤ minlen → minlen ≤ m' → totalGtiLength gti m' ≤ totalGtiLength gti minlen) := by
  have key : ∀ m, totalGtiLength gti m = exposure (gti.filter (fun g => decide (m ≤ g.2 - g.1))) := by
    intro m
    unfold totalGtiLength gtiLengths exposure
    rw [List.filter_map]
    rfl
  refine ⟨key _, ?_, ?_⟩
  · intro h
    obtain ⟨_, hwf⟩ := (checkGtis_ok_iff gti).1 h
    rw [key 0, List.filter_eq_self.2 (fun g hg => by simpa using hwf.1 g hg)]
    refine ⟨rfl, ?_⟩
    have hw := hwf.1
    clear h hwf key
    rename_i hne
    clear hne
    induction gti with
    | nil => simp [exposure]
    | cons g t ih =>
      have := ih (fun g' hg' => hw g' (List.mem_cons_of_mem _ hg'))
      simp only [exposure, List.map_cons, List.sum_cons] at this ⊢
      have := hw g (by simp)
      linarith
  · intro m' h0 hm
    rw [key, key]
    clear key
    induction gti with
    | nil => simp
    | cons g t ih =>
      by_cases h1 : m' ≤ g.2 - g.1
      · have h2 := hm.trans h1
        simp only [List.filter_cons, h1, h2, decide_true, if_true, exposure, List.map_cons, List.sum_cons] at ih ⊢
        linarith
      · have := ih
        by_cases h2 : minlen ≤ g.2 - g.1
        · simp only [List.filter_cons, h1, h2, decide_true, decide_false, if_true, Bool.false_eq_true, if_false,
            exposure, List.map_cons, List.sum_cons] at this ⊢
          linarith
        · simp only [List.filter_cons, h1, h2, decide_false, Bool.false_eq_true, if_false]
          exact this

example : totalGtiLength [((0 : ℚ), 1), (2, 4), (5, 10)] 2 = 7 := by decide +kernel

end Stingray.Gti

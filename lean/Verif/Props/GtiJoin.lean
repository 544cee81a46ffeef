import Verif.Lemmas.GtiJoin
import Mathlib.Algebra.Order.Ring.Rat
import Mathlib.Tactic.NormNum

/-!
# Properties C07, C08, C09: separation test, appending and union of GTI lists
-/

namespace Stingray.Gti

open Stingray.Spec

variable {K : Type} [Field K] [LinearOrder K] [IsStrictOrderedRing K]

/-- **C08 (partial).** For every pair of lists accepted by `check_gtis`, `check_separate` answers
`True` exactly when all of one list comes (weakly) before all of the other, or the two lists share no
time at all.  In particular a `True` answer means no time is strictly inside both lists, and a
`False` answer means some time belongs to both.  Missing from the full property: a `False` answer
may be caused by borders that merely touch (`check_separate_not_exact`). -/
theorem check_separate_iff_partial (a b : List (K × K)) (ha : checkGtis a = .ok ())
    (hb : checkGtis b = .ok ()) :
    ∃ r, checkSeparate a b = .ok r ∧
      (r = true ↔ ((∀ g ∈ a, ∀ h ∈ b, g.2 ≤ h.1) ∨ (∀ g ∈ a, ∀ h ∈ b, h.2 ≤ g.1) ∨
        ¬ ∃ x, Covers a x ∧ Covers b x)) ∧
      (r = true → ∀ x, ¬ (CoversInterior a x ∧ CoversInterior b x)) ∧
      (r = false → ∃ x, Covers a x ∧ Covers b x) := by
  obtain ⟨hane, hawf⟩ := (checkGtis_ok_iff a).1 ha
  obtain ⟨hbne, hbwf⟩ := (checkGtis_ok_iff b).1 hb
  have key := checkSeparateCore_iff a b hawf hbwf hane hbne
  refine ⟨_, checkSeparate_eq a b ha hb, key, ?_, ?_⟩
  · intro hr x ⟨⟨g, hg, h1, h2⟩, ⟨k, hk, h3, h4⟩⟩
    rcases key.1 hr with h | h | h
    · have := h g hg k hk; linarith
    · have := h g hg k hk; linarith
    · exact h ⟨x, ⟨g, hg, h1.le, h2.le⟩, ⟨k, hk, h3.le, h4.le⟩⟩
  · intro hr
    by_contra hcon
    rw [key.2 (Or.inr (Or.inr hcon))] at hr
    exact absurd hr (by simp)

/-- **C08.** The order of the two lists does not matter. -/
theorem check_separate_symm (a b : List (K × K)) (ha : checkGtis a = .ok ())
    (hb : checkGtis b = .ok ()) : checkSeparate a b = checkSeparate b a := by
  obtain ⟨r, e1, h1, _, _⟩ := check_separate_iff_partial a b ha hb
  obtain ⟨s, e2, h2, _, _⟩ := check_separate_iff_partial b a hb ha
  rw [e1, e2]
  congr 1
  rw [Bool.eq_iff_iff, h1, h2]
  constructor
  · rintro (h | h | h)
    · exact Or.inr (Or.inl fun g hg k hk => h k hk g hg)
    · exact Or.inl fun g hg k hk => h k hk g hg
    · exact Or.inr (Or.inr fun ⟨x, p, q⟩ => h ⟨x, q, p⟩)
  · rintro (h | h | h)
    · exact Or.inr (Or.inl fun g hg k hk => h k hk g hg)
    · exact Or.inl fun g hg k hk => h k hk g hg
    · exact Or.inr (Or.inr fun ⟨x, p, q⟩ => h ⟨x, q, p⟩)

/-- An empty list is separate from anything. -/
theorem check_separate_empty (a : List (K × K)) :
    checkSeparate a [] = .ok true ∧ checkSeparate [] a = .ok true := by
  constructor <;> (unfold checkSeparate; cases a <;> rfl)

/-- **C08 (negation).** The full property fails: lists touching at one border in the middle are
declared not separate although no time is strictly inside both. -/
theorem check_separate_not_exact :
    checkSeparate [((0 : ℚ), 1), (4, 5)] [(1, 2)] = .ok false ∧
      ∀ x : ℚ, ¬ (CoversInterior [((0 : ℚ), 1), (4, 5)] x ∧ CoversInterior [((1 : ℚ), 2)] x) := by
  refine ⟨by decide +kernel, ?_⟩
  rintro x ⟨⟨g, hg, h1, h2⟩, ⟨k, hk, h3, h4⟩⟩
  simp only [List.mem_cons, List.not_mem_nil, or_false] at hg hk
  subst hk
  rcases hg with rfl | rfl <;> simp at * <;> linarith

example : checkGtis [((0 : ℚ), 1), (4, 5)] = .ok () ∧ checkGtis [((2 : ℚ), 3), (6, 7)] = .ok () ∧
    checkSeparate [((0 : ℚ), 1), (4, 5)] [(2, 3), (6, 7)] = .ok true ∧
    checkSeparate [((0 : ℚ), 1), (4, 5)] [(2, 4)] = .ok false := by decide +kernel

/-- **C09.** For every pair of accepted lists and every way of sorting by start: if
`check_separate` says `True`, `append_gtis` returns a list covering exactly the union, with total
exposure the sum of the two; if it says `False`, `append_gtis` raises `ValueError`. -/
theorem append_gtis_union (order : KeySort (fun (g : K × K) => g.1)) (a b : List (K × K))
    (ha : checkGtis a = .ok ()) (hb : checkGtis b = .ok ()) :
    (checkSeparate a b = .ok true → ∃ out, appendGtis order a b = .ok out ∧
      (∀ x, Covers out x ↔ (Covers a x ∨ Covers b x)) ∧
      exposure out = exposure a + exposure b) ∧
    (checkSeparate a b = .ok false → appendGtis order a b = .error .valueError) := by
  obtain ⟨hane, hawf⟩ := (checkGtis_ok_iff a).1 ha
  obtain ⟨hbne, hbwf⟩ := (checkGtis_ok_iff b).1 hb
  have hperm := order.perm (a ++ b)
  constructor
  · intro hs
    unfold appendGtis
    simp only [ha, hb, hs, bind, Except.bind]
    have hne : order.sort (a ++ b) ≠ [] := by
      intro h
      rw [h] at hperm
      exact hane (List.append_eq_nil_iff.1 (List.nil_perm.1 hperm)).1
    obtain ⟨g, l, hgl⟩ := List.exists_cons_of_ne_nil hne
    have hfwd : ∀ k ∈ g :: l, k.1 ≤ k.2 := by
      intro k hk
      rw [← hgl] at hk
      rcases List.mem_append.1 (hperm.mem_iff.1 hk) with h | h
      · exact hawf.1 k h
      · exact hbwf.1 k h
    rw [hgl] at hperm ⊢
    refine ⟨joinEqualLoop 0 g l, by simp [joinEqualGtiBoundaries], ?_, ?_⟩
    · intro x
      rw [covers_joinEqualLoop_fwd g l hfwd, covers_perm hperm, covers_append]
    · rw [exposure_joinEqualLoop, exposure_perm hperm, exposure_append]
  · intro hs
    unfold appendGtis
    simp [ha, hb, hs, bind, Except.bind]

/-- **C09 (partial).** When moreover no GTI has zero length, the list returned by `append_gtis`
consists of separated positive-length intervals in time order, and `check_gtis` accepts it.
Missing: zero-length GTIs, for which it is false (`append_gtis_not_accepted`). -/
theorem append_gtis_wellformed_partial (order : KeySort (fun (g : K × K) => g.1))
    (a b out : List (K × K)) (hap : ∀ g ∈ a, g.1 < g.2) (hbp : ∀ g ∈ b, g.1 < g.2)
    (hout : appendGtis order a b = .ok out) :
    StrictlySeparated out ∧ checkGtis out = .ok () := by
  have ha : checkGtis a = .ok () := by
    rcases h : checkGtis a with e | u
    · simp [appendGtis, h, bind, Except.bind] at hout
    · rfl
  have hb : checkGtis b = .ok () := by
    rcases h : checkGtis b with e | u
    · simp [appendGtis, ha, h, bind, Except.bind] at hout
    · rfl
  obtain ⟨hane, hawf⟩ := (checkGtis_ok_iff a).1 ha
  obtain ⟨hbne, hbwf⟩ := (checkGtis_ok_iff b).1 hb
  obtain ⟨r, e1, h1, _, _⟩ := check_separate_iff_partial a b ha hb
  have hr : r = true := by
    cases r
    · rw [(append_gtis_union order a b ha hb).2 e1] at hout
      simp at hout
    · rfl
  subst hr
  have hsep := h1.1 rfl
  have hwf : WellFormed (order.sort (a ++ b)) :=
    sorted_append_wf hawf hbwf hap hbp hsep (order.perm _) (order.sorted _)
  have hne : order.sort (a ++ b) ≠ [] := by
    intro h
    have hperm := order.perm (a ++ b)
    rw [h] at hperm
    exact hane (List.append_eq_nil_iff.1 (List.nil_perm.1 hperm)).1
  have hpos : ∀ g ∈ order.sort (a ++ b), g.1 < g.2 := by
    intro k hk
    rcases List.mem_append.1 ((order.perm (a ++ b)).mem_iff.1 hk) with h | h
    · exact hap k h
    · exact hbp k h
  obtain ⟨g, l, hgl⟩ := List.exists_cons_of_ne_nil hne
  simp only [appendGtis, ha, hb, e1, bind, Except.bind, hgl, joinEqualGtiBoundaries] at hout
  simp at hout
  rw [hgl] at hwf hpos
  subst hout
  have hS : StrictlySeparated (joinEqualLoop 0 g l) :=
    ⟨joinEqualLoop_pos g l hwf hpos, (joinEqualLoop_separated g l hwf).2⟩
  exact ⟨hS, checkGtis_of_wf (joinEqualLoop_ne_nil 0 g l)
    ⟨fun k hk => (hS.1 k hk).le, hS.2.imp le_of_lt⟩⟩

/-- **C09 (negation).** With a zero-length GTI the appended list can be one that `check_gtis`
rejects. -/
theorem append_gtis_not_accepted :
    checkGtis [((1 : ℚ), 2)] = .ok () ∧ checkGtis [((0 : ℚ), 1), (1, 1)] = .ok () ∧
    appendGtis (stableSort _) [((1 : ℚ), 2)] [(0, 1), (1, 1)] = .ok [(0, 2), (1, 1)] ∧
    checkGtis [((0 : ℚ), 2), (1, 1)] = .error .valueError := by decide +kernel

/-- **C09 (negation).** Two lists sharing no good time except a border can still not be appended. -/
theorem append_gtis_touching_raises :
    appendGtis (stableSort _) [((0 : ℚ), 1), (4, 5)] [(1, 2)] = .error .valueError := by
  decide +kernel

example : appendGtis (stableSort _) [((0 : ℚ), 1), (4, 5)] [(2, 3), (6, 7)] =
    .ok [(0, 1), (2, 3), (4, 5), (6, 7)] := by decide +kernel

/-- **C07.** For every pair of lists accepted by `check_gtis` and all ways of sorting, `join_gtis`
succeeds and covers exactly the times covered by one of the lists. -/
theorem join_gtis_union (order : KeySort (fun (b : K × Int) => b.1))
    (orderA : KeySort (fun (g : K × K) => g.1)) (a b : List (K × K))
    (ha : checkGtis a = .ok ()) (hb : checkGtis b = .ok ()) :
    ∃ out, joinGtis order orderA a b = .ok out ∧
      (∀ x, Covers out x ↔ (Covers a x ∨ Covers b x)) ∧
      (((∀ g ∈ a, g.1 < g.2) ∧ ∀ g ∈ b, g.1 < g.2) ∨ checkSeparate a b = .ok false →
        (∀ p ∈ out, p.1 ≤ p.2) ∧ out.Pairwise (fun p q => p.2 < q.1) ∧ checkGtis out = .ok ()) := by
  obtain ⟨hane, hawf⟩ := (checkGtis_ok_iff a).1 ha
  obtain ⟨hbne, hbwf⟩ := (checkGtis_ok_iff b).1 hb
  obtain ⟨r, e1, h1, _, _⟩ := check_separate_iff_partial a b ha hb
  cases r
  · have hfwd : ∀ g ∈ a ++ b, g.1 ≤ g.2 := by
      intro g hg
      rcases List.mem_append.1 hg with h | h
      · exact hawf.1 g h
      · exact hbwf.1 g h
    have hperm : (order.sort (taggedBoundaries a ++ taggedBoundaries b)).Perm
        (taggedBoundaries (a ++ b)) := by
      rw [tagged_append]; exact order.perm _
    have hnot : ¬ (∀ g ∈ a, ∀ h ∈ b, g.2 ≤ h.1) := fun h => by
      have := h1.2 (Or.inl h); simp at this
    push Not at hnot
    obtain ⟨g, hg, k, hk, hlt⟩ := hnot
    have hspread : ∃ u ∈ order.sort (taggedBoundaries a ++ taggedBoundaries b),
        ∃ v ∈ order.sort (taggedBoundaries a ++ taggedBoundaries b), u.1 < v.1 := by
      refine ⟨(k.1, -1), hperm.mem_iff.2 ?_, (g.2, 1), hperm.mem_iff.2 ?_, hlt⟩
      · unfold taggedBoundaries
        exact List.mem_flatMap.2 ⟨k, by simp [hk], by simp⟩
      · unfold taggedBoundaries
        exact List.mem_flatMap.2 ⟨g, by simp [hg], by simp⟩
    obtain ⟨c1, c2, c3⟩ := joinSweep_covers (a ++ b) hfwd _ hperm (order.sorted _) hspread
    refine ⟨joinSweep (order.sort (taggedBoundaries a ++ taggedBoundaries b)), ?_, ?_, ?_⟩
    · simp [joinGtis, ha, hb, e1, bind, Except.bind, pure, Except.pure]
    · intro x; rw [c1 x, covers_append]
    · intro _
      refine ⟨c2, c3, checkGtis_of_wf ?_ ⟨c2, c3.imp le_of_lt⟩⟩
      intro hnil
      have := (c1 g.1).2 ⟨g, by simp [hg], le_rfl, hawf.1 g hg⟩
      rw [hnil] at this
      simp [Covers] at this
  · obtain ⟨out, ho, hc, _⟩ := (append_gtis_union orderA a b ha hb).1 e1
    refine ⟨out, ?_, hc, ?_⟩
    · simp [joinGtis, ha, hb, e1, bind, Except.bind, ho]
    · rintro (⟨hap, hbp⟩ | h)
      · obtain ⟨s1, s2⟩ := append_gtis_wellformed_partial orderA a b out hap hbp ho
        exact ⟨fun p hp => (s1.1 p hp).le, s1.2, s2⟩
      · rw [e1] at h; simp at h

/-- **C07.** A list that `check_gtis` rejects makes `join_gtis` fail. -/
theorem join_gtis_rejects (order : KeySort (fun (b : K × Int) => b.1))
    (orderA : KeySort (fun (g : K × K) => g.1)) (a b : List (K × K)) (e : PyErr) :
    (checkGtis a = .error e → joinGtis order orderA a b = .error e) ∧
    (checkGtis a = .ok () → checkGtis b = .error e → joinGtis order orderA a b = .error e) := by
  constructor
  · intro h; simp [joinGtis, h, bind, Except.bind]
  · intro h1 h2; simp [joinGtis, h1, h2, bind, Except.bind]

/-- **C07.** The good time of the union is at least that of each list and does not depend on the
order of the two lists. -/
theorem join_gtis_comm (order : KeySort (fun (b : K × Int) => b.1))
    (orderA : KeySort (fun (g : K × K) => g.1)) (a b o1 o2 : List (K × K))
    (h1 : joinGtis order orderA a b = .ok o1) (h2 : joinGtis order orderA b a = .ok o2) (x : K) :
    Covers o1 x ↔ Covers o2 x := by
  have ha : checkGtis a = .ok () := by
    rcases h : checkGtis a with e | u
    · rw [(join_gtis_rejects order orderA a b e).1 h] at h1; simp at h1
    · rfl
  have hb : checkGtis b = .ok () := by
    rcases h : checkGtis b with e | u
    · rw [(join_gtis_rejects order orderA b a e).1 h] at h2; simp at h2
    · rfl
  obtain ⟨p1, e1, c1, _⟩ := join_gtis_union order orderA a b ha hb
  obtain ⟨p2, e2, c2, _⟩ := join_gtis_union order orderA b a hb ha
  rw [e1] at h1; rw [e2] at h2
  cases h1; cases h2
  rw [c1, c2, or_comm]

/-- **C07 (negation).** With a zero-length GTI, the result of `join_gtis` can fail to be separated
and time-ordered. -/
theorem join_gtis_not_separated :
    checkGtis [((1 : ℚ), 2)] = .ok () ∧ checkGtis [((0 : ℚ), 1), (1, 1)] = .ok () ∧
    joinGtis (stableSort _) (stableSort _) [((1 : ℚ), 2)] [(0, 1), (1, 1)] = .ok [(0, 2), (1, 1)] ∧
    checkGtis [((0 : ℚ), 2), (1, 1)] = .error .valueError := by decide +kernel

example : joinGtis (stableSort _) (stableSort _) [((0 : ℚ), 2), (5, 6), (6, 7)] [(1, 3), (4, 5)] =
    .ok [(0, 3), (4, 7)] := by decide +kernel

example : checkGtis [((0 : ℚ), 2), (5, 6), (6, 7)] = .ok () ∧
    checkGtis [((1 : ℚ), 3), (4, 5)] = .ok () ∧
    checkSeparate [((0 : ℚ), 2), (5, 6), (6, 7)] [(1, 3), (4, 5)] = .ok false := by decide +kernel

end Stingray.Gti

import Verif.Lemmas.GtiCross
import Mathlib.Algebra.Order.Ring.Rat
import Mathlib.Tactic.NormNum

/-!
# Properties C04, C05: intersection of GTI lists
-/

namespace Stingray.Gti

open Stingray.Spec

variable {K : Type} [Field K] [LinearOrder K] [IsStrictOrderedRing K]

/-- No start of one list coincides with a stop of the other. -/
def NoTouch (a b : List (K × K)) : Prop := ∀ g ∈ a, ∀ h ∈ b, g.2 ≠ h.1 ∧ h.2 ≠ g.1

/-- What `cross_two_gtis` returns in general (touching borders allowed): always separated intervals,
never less than the true intersection. -/
theorem cross_two_gtis_general (order : KeySort (fun (x : (K × K) × Bool) => x.1.2))
    (a b : List (K × K)) (ha : checkGtis a = .ok ()) (hb : checkGtis b = .ok ())
    (hap : ∀ g ∈ a, g.1 < g.2) (hbp : ∀ g ∈ b, g.1 < g.2) :
    ∃ A B out, crossTwoGtis order a b = .ok out ∧ joinEqualGtiBoundaries 0 a = .ok A ∧
      joinEqualGtiBoundaries 0 b = .ok B ∧ StrictlySeparated A ∧ StrictlySeparated B ∧
      StrictlySeparated out ∧
      (∀ c, Entry A B c → ∀ p, Genuine A B c p → p ∈ out) ∧
      (∀ p ∈ out, ∃ c, Entry A B c ∧ (Genuine A B c p ∨ Spurious A B c p)) := by
  obtain ⟨hane, hawf⟩ := (checkGtis_ok_iff a).1 ha
  obtain ⟨hbne, hbwf⟩ := (checkGtis_ok_iff b).1 hb
  obtain ⟨g, l, rfl⟩ := List.exists_cons_of_ne_nil hane
  obtain ⟨h, m, rfl⟩ := List.exists_cons_of_ne_nil hbne
  have hA : StrictlySeparated (joinEqualLoop 0 g l) :=
    ⟨joinEqualLoop_pos g l hawf hap, (joinEqualLoop_separated g l hawf).2⟩
  have hB : StrictlySeparated (joinEqualLoop 0 h m) :=
    ⟨joinEqualLoop_pos h m hbwf hbp, (joinEqualLoop_separated h m hbwf).2⟩
  have hAn := joinEqualLoop_ne_nil 0 g l
  have hBn := joinEqualLoop_ne_nil 0 h m
  have hAc := checkGtis_of_wf hAn ⟨fun k hk => (hA.1 k hk).le, hA.2.imp le_of_lt⟩
  have hBc := checkGtis_of_wf hBn ⟨fun k hk => (hB.1 k hk).le, hB.2.imp le_of_lt⟩
  obtain ⟨first, second, out, h1, h2, h3, h4, h5, h6⟩ := cross_core order hA hB hAn hBn
  refine ⟨_, _, out, ?_, rfl, rfl, hA, hB, h4, h5, h6⟩
  unfold crossTwoGtis
  simp only [joinEqualGtiBoundaries, bind, Except.bind, hAc, hBc, h1, h2, h3, pure, Except.pure]

/-- **C04 (exactness, partial).** For accepted lists of positive-length intervals with no start of
one list equal to a stop of the other, `cross_two_gtis` returns separated intervals covering exactly
the times covered by both lists, and every border of the result is a border of one of them.  Missing from the
full property: touching borders and zero-length GTIs, for which it is false
(`cross_two_gtis_not_exact_touching`, `cross_two_gtis_not_exact_empty`). -/
theorem cross_two_gtis_exact_partial (order : KeySort (fun (x : (K × K) × Bool) => x.1.2))
    (a b : List (K × K)) (ha : checkGtis a = .ok ()) (hb : checkGtis b = .ok ())
    (hap : ∀ g ∈ a, g.1 < g.2) (hbp : ∀ g ∈ b, g.1 < g.2) (hnt : NoTouch a b) :
    ∃ out, crossTwoGtis order a b = .ok out ∧
      (∀ x, Covers out x ↔ (Covers a x ∧ Covers b x)) ∧
      StrictlySeparated out ∧
      (∀ p ∈ out, (∃ g ∈ a ++ b, g.1 = p.1) ∧ (∃ g ∈ a ++ b, g.2 = p.2)) := by
  obtain ⟨hane, hawf⟩ := (checkGtis_ok_iff a).1 ha
  obtain ⟨hbne, hbwf⟩ := (checkGtis_ok_iff b).1 hb
  obtain ⟨A, B, out, hout, hja, hjb, hA, hB, hsep, hcompl, hsound⟩ :=
    cross_two_gtis_general order a b ha hb hap hbp
  obtain ⟨g, l, rfl⟩ := List.exists_cons_of_ne_nil hane
  obtain ⟨h, m, rfl⟩ := List.exists_cons_of_ne_nil hbne
  cases hja
  cases hjb
  have hprovA := mem_joinEqualLoop g l
  have hprovB := mem_joinEqualLoop h m
  have hnt' : ∀ u ∈ joinEqualLoop 0 g l, ∀ v ∈ joinEqualLoop 0 h m, u.2 ≠ v.1 ∧ v.2 ≠ u.1 := by
    intro u hu v hv
    obtain ⟨⟨u1, hu1, e1⟩, u2, hu2, e2⟩ := hprovA u hu
    obtain ⟨⟨v1, hv1, e3⟩, v2, hv2, e4⟩ := hprovB v hv
    rw [← e1, ← e2, ← e3, ← e4]
    exact ⟨(hnt u2 hu2 v1 hv1).1, (hnt u1 hu1 v2 hv2).2⟩
  have hnospur : ∀ c p, Entry (joinEqualLoop 0 g l) (joinEqualLoop 0 h m) c →
      ¬ Spurious (joinEqualLoop 0 g l) (joinEqualLoop 0 h m) c p := by
    rintro ⟨k, t⟩ p hc ⟨o, ho, h1, _⟩
    cases t
    · exact (hnt' k hc o ho).2 h1
    · exact (hnt' o ho k hc).1 h1
  refine ⟨out, hout, ?_, hsep, ?_⟩
  · intro x
    rw [← covers_joinEqualLoop g l hawf, ← covers_joinEqualLoop h m hbwf, ← genuine_covers hnt']
    constructor
    · rintro ⟨p, hp, h1, h2⟩
      obtain ⟨c, hc, hg | hg⟩ := hsound p hp
      · exact ⟨c, p, hc, hg, h1, h2⟩
      · exact absurd hg (hnospur c p hc)
    · rintro ⟨c, p, hc, hg, h1, h2⟩
      exact ⟨p, hcompl c hc p hg, h1, h2⟩
  · intro p hp
    obtain ⟨⟨k, t⟩, hc, hg | hg⟩ := hsound p hp
    · obtain ⟨o, ho, _, _, rfl⟩ := hg
      have prov : ∀ u, u ∈ joinEqualLoop 0 g l ∨ u ∈ joinEqualLoop 0 h m →
          (∃ q ∈ (g :: l) ++ (h :: m), q.1 = u.1) ∧ (∃ q ∈ (g :: l) ++ (h :: m), q.2 = u.2) := by
        rintro u (hu | hu)
        · obtain ⟨⟨u1, hu1, e1⟩, u2, hu2, e2⟩ := hprovA u hu
          exact ⟨⟨u1, List.mem_append_left _ hu1, e1⟩, u2, List.mem_append_left _ hu2, e2⟩
        · obtain ⟨⟨u1, hu1, e1⟩, u2, hu2, e2⟩ := hprovB u hu
          exact ⟨⟨u1, List.mem_append_right _ hu1, e1⟩, u2, List.mem_append_right _ hu2, e2⟩
      have hk : k ∈ joinEqualLoop 0 g l ∨ k ∈ joinEqualLoop 0 h m := by
        cases t
        · exact Or.inl hc
        · exact Or.inr hc
      have ho' : o ∈ joinEqualLoop 0 g l ∨ o ∈ joinEqualLoop 0 h m := by
        cases t
        · exact Or.inr ho
        · exact Or.inl ho
      refine ⟨?_, (prov k hk).2⟩
      rcases max_choice k.1 o.1 with e | e
      · simp only [e]; exact (prov k hk).1
      · simp only [e]; exact (prov o ho').1
    · exact absurd hg (hnospur _ p hc)

/-- **C04 (completeness).** Even when borders touch, no time strictly inside both lists is lost
and the result is a list of separated intervals. -/
theorem cross_two_gtis_complete (order : KeySort (fun (x : (K × K) × Bool) => x.1.2))
    (a b : List (K × K)) (ha : checkGtis a = .ok ()) (hb : checkGtis b = .ok ())
    (hap : ∀ g ∈ a, g.1 < g.2) (hbp : ∀ g ∈ b, g.1 < g.2) :
    ∃ out, crossTwoGtis order a b = .ok out ∧ StrictlySeparated out ∧
      (∀ x, CoversInterior a x → CoversInterior b x → Covers out x) ∧
      (∀ x, Covers out x → Covers a x ∨ Covers b x) := by
  obtain ⟨hane, hawf⟩ := (checkGtis_ok_iff a).1 ha
  obtain ⟨hbne, hbwf⟩ := (checkGtis_ok_iff b).1 hb
  obtain ⟨A, B, out, hout, hja, hjb, hA, hB, hsep, hcompl, hsound⟩ :=
    cross_two_gtis_general order a b ha hb hap hbp
  obtain ⟨g, l, rfl⟩ := List.exists_cons_of_ne_nil hane
  obtain ⟨h, m, rfl⟩ := List.exists_cons_of_ne_nil hbne
  cases hja
  cases hjb
  refine ⟨out, hout, hsep, ?_, ?_⟩
  · rintro x ⟨u, hu, hu1, hu2⟩ ⟨v, hv, hv1, hv2⟩
    -- the joined intervals containing a whole neighbourhood: take the ones containing both borders
    have inA : ∀ y, u.1 ≤ y → y ≤ u.2 → Covers (joinEqualLoop 0 g l) y := fun y h1 h2 =>
      (covers_joinEqualLoop g l hawf y).2 ⟨u, hu, h1, h2⟩
    have inB : ∀ y, v.1 ≤ y → y ≤ v.2 → Covers (joinEqualLoop 0 h m) y := fun y h1 h2 =>
      (covers_joinEqualLoop h m hbwf y).2 ⟨v, hv, h1, h2⟩
    obtain ⟨p, hp, hp1, hp2⟩ := inA x hu1.le hu2.le
    obtain ⟨q, hq, hq1, hq2⟩ := inB x hv1.le hv2.le
    -- `x` cannot be the border of a joined interval
    have strict : ∀ (S : List (K × K)) (w r : K × K), StrictlySeparated S →
        (∀ y, w.1 ≤ y → y ≤ w.2 → Covers S y) → r ∈ S → r.1 ≤ x → x ≤ r.2 → w.1 < x → x < w.2 →
        r.1 < x ∧ x < r.2 := by
      intro S w r hS hcov hr hr1 hr2 hw1 hw2
      have hfin : ∀ z, x < z → ∃ y, x < y ∧ y < z ∧ ∀ k ∈ S, ¬ (x < k.1 ∧ k.1 ≤ y) := by
        intro z hz
        clear hcov hr
        have : ∀ T : List (K × K), ∃ y, x < y ∧ y < z ∧ ∀ k ∈ T, ¬ (x < k.1 ∧ k.1 ≤ y) := by
          intro T
          induction T with
          | nil => exact ⟨(x + z) / 2, by linarith, by linarith, by simp⟩
          | cons k T ih =>
            obtain ⟨y, hy1, hy2, hy3⟩ := ih
            by_cases hk : x < k.1
            · refine ⟨min y ((x + k.1) / 2), lt_min hy1 (by linarith), lt_of_le_of_lt (min_le_left _ _) hy2, ?_⟩
              intro j hj
              rcases List.mem_cons.1 hj with rfl | hj
              · rintro ⟨_, h2⟩; have := h2.trans (min_le_right _ _); linarith
              · rintro ⟨h1, h2⟩; exact hy3 j hj ⟨h1, h2.trans (min_le_left _ _)⟩
            · refine ⟨y, hy1, hy2, ?_⟩
              intro j hj
              rcases List.mem_cons.1 hj with rfl | hj
              · exact fun h => hk h.1
              · exact hy3 j hj
        exact this S
      have hfin' : ∀ z, z < x → ∃ y, z < y ∧ y < x ∧ ∀ k ∈ S, ¬ (y ≤ k.2 ∧ k.2 < x) := by
        intro z hz
        clear hcov hr
        have : ∀ T : List (K × K), ∃ y, z < y ∧ y < x ∧ ∀ k ∈ T, ¬ (y ≤ k.2 ∧ k.2 < x) := by
          intro T
          induction T with
          | nil => exact ⟨(x + z) / 2, by linarith, by linarith, by simp⟩
          | cons k T ih =>
            obtain ⟨y, hy1, hy2, hy3⟩ := ih
            by_cases hk : k.2 < x
            · refine ⟨max y ((x + k.2) / 2), lt_of_lt_of_le hy1 (le_max_left _ _), max_lt hy2 (by linarith), ?_⟩
              intro j hj
              rcases List.mem_cons.1 hj with rfl | hj
              · rintro ⟨h1, _⟩; have := (le_max_right y ((x + j.2) / 2)).trans h1; linarith
              · rintro ⟨h1, h2⟩; exact hy3 j hj ⟨(le_max_left _ _).trans h1, h2⟩
            · refine ⟨y, hy1, hy2, ?_⟩
              intro j hj
              rcases List.mem_cons.1 hj with rfl | hj
              · exact fun h => hk h.2
              · exact hy3 j hj
        exact this S
      refine ⟨lt_of_le_of_ne hr1 ?_, lt_of_le_of_ne hr2 ?_⟩
      · intro hEq
        obtain ⟨y, hy1, hy2, hy3⟩ := hfin' w.1 hw1
        obtain ⟨k, hk, hk1, hk2⟩ := hcov y hy1.le (by linarith)
        rcases sep_cases hS hk hr with rfl | hc | hc
        · linarith
        · exact hy3 k hk ⟨hk2, by linarith⟩
        · linarith [hS.1 k hk, hS.1 r hr]
      · intro hEq
        obtain ⟨y, hy1, hy2, hy3⟩ := hfin w.2 hw2
        obtain ⟨k, hk, hk1, hk2⟩ := hcov y (by linarith) hy2.le
        rcases sep_cases hS hk hr with rfl | hc | hc
        · linarith
        · linarith [hS.1 k hk, hS.1 r hr]
        · exact hy3 k hk ⟨by linarith, hk1⟩
    obtain ⟨sp1, sp2⟩ := strict _ u p hA inA hp hp1 hp2 hu1 hu2
    obtain ⟨sq1, sq2⟩ := strict _ v q hB inB hq hq1 hq2 hv1 hv2
    rcases le_total p.2 q.2 with hpq | hpq
    · exact ⟨(max p.1 q.1, p.2), hcompl (p, false) hp _ ⟨q, hq, by dsimp; linarith, hpq, rfl⟩,
        max_le hp1 hq1, hp2⟩
    · exact ⟨(max q.1 p.1, q.2), hcompl (q, true) hq _ ⟨p, hp, by dsimp; linarith, hpq, rfl⟩,
        max_le hq1 hp1, hq2⟩
  · rintro x ⟨p, hp, h1, h2⟩
    obtain ⟨⟨k, t⟩, hc, hg⟩ := hsound p hp
    have hkx : k.1 ≤ x ∧ x ≤ k.2 := by
      rcases hg with ⟨o, _, _, _, rfl⟩ | ⟨o, _, _, rfl, _⟩
      · exact ⟨(le_max_left _ _).trans h1, h2⟩
      · exact ⟨h1, h2⟩
    cases t
    · left; exact (covers_joinEqualLoop g l hawf x).1 ⟨k, hc, hkx⟩
    · right; exact (covers_joinEqualLoop h m hbwf x).1 ⟨k, hc, hkx⟩

example : checkGtis [((0 : ℚ), 3), (5, 9), (9, 10)] = .ok () ∧
    checkGtis [((1 : ℚ), 2), (4, 6), (8, 12)] = .ok () ∧
    NoTouch [((0 : ℚ), 3), (5, 9), (9, 10)] [((1 : ℚ), 2), (4, 6), (8, 12)] ∧
    crossTwoGtis (stableSort _) [((0 : ℚ), 3), (5, 9), (9, 10)] [((1 : ℚ), 2), (4, 6), (8, 12)] =
      .ok [(1, 2), (5, 6), (8, 10)] := by
  refine ⟨by decide +kernel, by decide +kernel, ?_, by decide +kernel⟩
  unfold NoTouch; decide +kernel

/-- **C04 is false of the code as written** when borders touch: `[[1,2],[5,6]]` and `[[2,3]]` have
no time in common inside both, but `[2,3]` is returned as good time. -/
theorem cross_two_gtis_not_exact_touching :
    ∃ (a b out : List (ℚ × ℚ)), checkGtis a = .ok () ∧ checkGtis b = .ok () ∧
      (∀ g ∈ a, g.1 < g.2) ∧ (∀ g ∈ b, g.1 < g.2) ∧
      crossTwoGtis (stableSort _) a b = .ok out ∧
      ∃ x, CoversInterior out x ∧ ¬ Covers a x := by
  refine ⟨[(1, 2), (5, 6)], [(2, 3)], [(2, 3)], by decide +kernel, by decide +kernel,
    by decide +kernel, by decide +kernel, by decide +kernel, 5/2, ?_, ?_⟩
  · simp [CoversInterior]; norm_num
  · simp [Covers]; norm_num

/-- **C04 is false of the code as written** when a list contains a zero-length GTI (accepted by
`check_gtis`): crossing `[[0,1],[5,5]]` with `[[2,6]]` returns `[2,5]`. -/
theorem cross_two_gtis_not_exact_empty :
    ∃ (a b out : List (ℚ × ℚ)), checkGtis a = .ok () ∧ checkGtis b = .ok () ∧ NoTouch a b ∧
      crossTwoGtis (stableSort _) a b = .ok out ∧
      ∃ x, CoversInterior out x ∧ ¬ Covers a x := by
  refine ⟨[(0, 1), (5, 5)], [(2, 6)], [(2, 5)], by decide +kernel, by decide +kernel,
    by unfold NoTouch; decide +kernel, by decide +kernel, 3, ?_, ?_⟩
  · simp [CoversInterior]; norm_num
  · simp [Covers]; norm_num

/-- the loop of `cross_gtis` -/
theorem cross_gtis_loop_exact (order : KeySort (fun (x : (K × K) × Bool) => x.1.2))
    (gs : List (List (K × K))) (acc : List (K × K)) (hacc : checkGtis acc = .ok ())
    (haccp : ∀ g ∈ acc, g.1 < g.2)
    (hgs : ∀ l ∈ gs, checkGtis l = .ok () ∧ ∀ g ∈ l, g.1 < g.2)
    (hnt : ∀ l ∈ gs, NoTouch acc l) (hnt2 : gs.Pairwise NoTouch) :
    ∃ out, crossGtisLoop order acc gs = .ok out ∧
      (∀ x, Covers out x ↔ (Covers acc x ∧ ∀ l ∈ gs, Covers l x)) ∧
      (gs ≠ [] → StrictlySeparated out) := by
  induction gs generalizing acc with
  | nil => exact ⟨acc, rfl, by simp, by simp⟩
  | cons l gs ih =>
    obtain ⟨hl, hlp⟩ := hgs l (by simp)
    obtain ⟨c, hc, hcov, hsep, hprov⟩ := cross_two_gtis_exact_partial order acc l hacc hl haccp hlp
      (hnt l (by simp))
    unfold crossGtisLoop
    simp only [hc, bind, Except.bind]
    have hpw := List.pairwise_cons.1 hnt2
    by_cases hcn : c = []
    · subst hcn
      refine ⟨[], rfl, ?_, fun _ => hsep⟩
      intro x
      have := hcov x
      simp only [Covers, List.not_mem_nil, false_and, exists_false, false_iff] at this ⊢
      rintro ⟨h1, h2⟩
      exact this ⟨h1, h2 l (by simp)⟩
    · have hce : c.isEmpty = false := by simpa using hcn
      simp only [hce, Bool.false_eq_true, if_false]
      obtain ⟨out, ho, hoc, hos⟩ := ih c
        (checkGtis_of_wf hcn ⟨fun g hg => (hsep.1 g hg).le, hsep.2.imp le_of_lt⟩) hsep.1
        (fun k hk => hgs k (List.mem_cons_of_mem _ hk)) (by
          intro k hk g hg q hq
          obtain ⟨⟨g1, hg1, e1⟩, g2, hg2, e2⟩ := hprov g hg
          rw [← e1, ← e2]
          constructor
          · rcases List.mem_append.1 hg2 with h | h
            · exact (hnt k (by simp [hk]) g2 h q hq).1
            · exact (hpw.1 k hk g2 h q hq).1
          · rcases List.mem_append.1 hg1 with h | h
            · exact (hnt k (by simp [hk]) g1 h q hq).2
            · exact (hpw.1 k hk g1 h q hq).2) hpw.2
      refine ⟨out, ho, ?_, ?_⟩
      · intro x
        rw [hoc x, hcov x]
        simp only [List.forall_mem_cons]
        tauto
      · intro _
        cases gs with
        | nil => cases ho; exact hsep
        | cons _ _ => exact hos (by simp)

/-- **C05 (partial).** For any number of accepted lists of positive-length intervals, no two of
which touch, `cross_gtis` covers a time iff every list does.  Missing: touching borders (false,
as for C04). -/
theorem cross_gtis_exact_partial (order : KeySort (fun (x : (K × K) × Bool) => x.1.2))
    (lists : List (List (K × K))) (hne : lists ≠ [])
    (hok : ∀ l ∈ lists, checkGtis l = .ok () ∧ ∀ g ∈ l, g.1 < g.2)
    (hnt : lists.Pairwise NoTouch) :
    ∃ out, crossGtis order lists = .ok out ∧
      ∀ x, Covers out x ↔ ∀ l ∈ lists, Covers l x := by
  obtain ⟨g, gs, rfl⟩ := List.exists_cons_of_ne_nil hne
  have hp := List.pairwise_cons.1 hnt
  have hchk : ∀ ls : List (List (K × K)), (∀ l ∈ ls, checkGtis l = .ok ()) →
      ls.forM checkGtis = (.ok () : Except PyErr PUnit) := by
    intro ls h
    induction ls with
    | nil => rfl
    | cons a ls ih =>
      show (checkGtis a >>= fun _ => ls.forM checkGtis) = _
      rw [h a (by simp)]
      exact ih (fun l hl => h l (by simp [hl]))
  unfold crossGtis
  rw [hchk _ (fun l hl => (hok l hl).1)]
  simp only [bind, Except.bind]
  cases gs with
  | nil => exact ⟨g, rfl, by simp⟩
  | cons k gs =>
    obtain ⟨out, ho, hc, _⟩ := cross_gtis_loop_exact order (k :: gs) g (hok g (by simp)).1
      (hok g (by simp)).2 (fun l hl => hok l (List.mem_cons_of_mem _ hl)) hp.1 hp.2
    exact ⟨out, ho, fun x => by rw [hc x]; simp⟩

/-- **C05 (partial).** Consequently the good times do not depend on the order of the lists, nor on
the sort used. -/
theorem cross_gtis_order_independent_partial
    (order order' : KeySort (fun (x : (K × K) × Bool) => x.1.2))
    (lists lists' : List (List (K × K))) (hperm : lists.Perm lists') (hne : lists ≠ [])
    (hok : ∀ l ∈ lists, checkGtis l = .ok () ∧ ∀ g ∈ l, g.1 < g.2)
    (hnt : lists.Pairwise NoTouch) (out out' : List (K × K))
    (h : crossGtis order lists = .ok out) (h' : crossGtis order' lists' = .ok out') (x : K) :
    Covers out x ↔ Covers out' x := by
  have hsymm : ∀ a b : List (K × K), NoTouch a b → NoTouch b a :=
    fun a b hab g hg k hk => ⟨(hab k hk g hg).2, (hab k hk g hg).1⟩
  obtain ⟨o1, e1, c1⟩ := cross_gtis_exact_partial order lists hne hok hnt
  obtain ⟨o2, e2, c2⟩ := cross_gtis_exact_partial order' lists'
    (fun hn => hne (by rw [hn] at hperm; exact hperm.eq_nil))
    (fun l hl => hok l (hperm.mem_iff.2 hl)) (hperm.pairwise hnt (fun {a b} => hsymm a b))
  rw [e1] at h; rw [e2] at h'
  cases h; cases h'
  rw [c1, c2]
  exact ⟨fun hx l hl => hx l (hperm.mem_iff.2 hl), fun hx l hl => hx l (hperm.mem_iff.1 hl)⟩

example : crossGtis (stableSort _)
    [[((0 : ℚ), 3), (5, 9)], [((1 : ℚ), 2), (4, 6), (8, 12)], [(3/2, 17/2)]] =
      .ok [(3/2, 2), (5, 6), (8, 17/2)] ∧
    [[((0 : ℚ), 3), (5, 9)], [((1 : ℚ), 2), (4, 6), (8, 12)], [(3/2, 17/2)]].Pairwise NoTouch := by
  refine ⟨by decide +kernel, ?_⟩
  unfold NoTouch; decide +kernel

end Stingray.Gti

import Verif.Props.GtiCross
import Verif.Props.GtiJoin

/-!
# Property C116: merging any number of GTI lists
-/

set_option linter.unusedSectionVars false

namespace Stingray.Gti

open Stingray.Spec

variable {K : Type} [Field K] [LinearOrder K] [IsStrictOrderedRing K]

theorem separated_ok (l : List (K × K)) (h : StrictlySeparated l) (hne : l ≠ []) : checkGtis l = .ok () :=
  (checkGtis_ok_iff l).2 ⟨hne, fun g hg => (h.1 g hg).le, h.2.imp le_of_lt⟩

theorem cross_loop_ok (order : KeySort (fun (x : (K × K) × Bool) => x.1.2)) (gs : List (List (K × K))) (acc : List (K × K))
    (hacc : checkGtis acc = .ok ()) (haccp : ∀ g ∈ acc, g.1 < g.2) (hgs : ∀ l ∈ gs, checkGtis l = .ok () ∧ ∀ g ∈ l, g.1 < g.2) :
    ∃ out, crossGtisLoop order acc gs = .ok out ∧ ∀ g ∈ out, g.1 < g.2 := by
  induction gs generalizing acc with
  | nil => exact ⟨acc, rfl, haccp⟩
  | cons l gs ih =>
    obtain ⟨hl, hlp⟩ := hgs l (by simp)
    obtain ⟨_, _, c, hc, _, _, _, _, hsep, _⟩ := cross_two_gtis_general order acc l hacc hl haccp hlp
    unfold crossGtisLoop
    simp only [hc, bind, Except.bind]
    cases c with
    | nil => exact ⟨[], rfl, by simp⟩
    | cons p c =>
      simp only [List.isEmpty_cons, Bool.false_eq_true, if_false]
      exact ih _ (separated_ok _ hsep (by simp)) hsep.1 (fun l hl => hgs l (by simp [hl]))

theorem cross_gtis_ok (order : KeySort (fun (x : (K × K) × Bool) => x.1.2)) (lists : List (List (K × K))) (hne : lists ≠ [])
    (hok : ∀ l ∈ lists, checkGtis l = .ok () ∧ ∀ g ∈ l, g.1 < g.2) : ∃ out, crossGtis order lists = .ok out ∧ ∀ g ∈ out, g.1 < g.2 := by
  have hchk : ∀ ls : List (List (K × K)), (∀ l ∈ ls, checkGtis l = .ok ()) →
      ls.forM checkGtis = (.ok () : Except PyErr PUnit) := by
    intro ls h
    induction ls with
    | nil => rfl
    | cons a ls ih =>
      show (checkGtis a >>= fun _ => ls.forM checkGtis) = _
      rw [h a (by simp)]
      exact ih (fun l hl => h l (by simp [hl]))
  unfold crossGtis
  rw [hchk lists (fun l hl => (hok l hl).1)]
  match lists, hne, hok with
  | [g], _, hok => exact ⟨g, rfl, (hok g (by simp)).2⟩
  | g :: h :: gs, _, hok => exact cross_loop_ok order (h :: gs) g (hok g (by simp)).1 (hok g (by simp)).2 (fun l hl => hok l (by simp [hl]))

theorem just_above (c : K) (L : List K) (h : ∀ r ∈ L, c < r) : ∃ d, c < d ∧ ∀ r ∈ L, d < r := by
  induction L with
  | nil => exact ⟨c + 1, by linarith, by simp⟩
  | cons a L ih =>
    obtain ⟨d, hd, hL⟩ := ih (fun r hr => h r (by simp [hr]))
    have ha := h a (by simp)
    obtain ⟨e, he1, he2⟩ := exists_between (lt_min hd ha)
    rw [lt_min_iff] at he2
    refine ⟨e, he1, ?_⟩
    intro r hr
    rcases List.mem_cons.1 hr with rfl | hr
    · exact he2.2
    · exact he2.1.trans (hL r hr)

theorem just_below (c : K) (L : List K) (h : ∀ r ∈ L, r < c) : ∃ d, d < c ∧ ∀ r ∈ L, r < d := by
  obtain ⟨d, hd, hL⟩ := just_above (-c) (L.map (- ·)) (by
    intro r hr
    rw [List.mem_map] at hr
    obtain ⟨x, hx, rfl⟩ := hr
    exact neg_lt_neg (h x hx))
  refine ⟨-d, by linarith, ?_⟩
  intro r hr
  have := hL (-r) (List.mem_map.2 ⟨r, hr, rfl⟩)
  linarith

/-- separated intervals with the same points as intervals of positive length have positive lengths -/
theorem positive_of_covers (out l : List (K × K)) (h1 : ∀ p ∈ out, p.1 ≤ p.2) (h2 : out.Pairwise (fun p q => p.2 < q.1))
    (hl : ∀ g ∈ l, g.1 < g.2) (hc : ∀ x, Covers out x ↔ Covers l x) : ∀ p ∈ out, p.1 < p.2 := by
  intro p hp
  by_contra hcon
  have hpe : p.1 = p.2 := le_antisymm (h1 p hp) (not_lt.1 hcon)
  obtain ⟨pre, post, rfl⟩ := List.append_of_mem hp
  rw [List.pairwise_append, List.pairwise_cons] at h2
  obtain ⟨_, ⟨hpost, _⟩, hpre⟩ := h2
  obtain ⟨g, hg, hg1, hg2⟩ := (hc p.1).1 ⟨p, by simp, le_rfl, h1 p hp⟩
  obtain ⟨d, hd1, hd2⟩ := just_above p.1 (post.map Prod.fst) (by
    intro r hr
    rw [List.mem_map] at hr
    obtain ⟨q, hq, rfl⟩ := hr
    rw [hpe]; exact hpost q hq)
  obtain ⟨e, he1, he2⟩ := just_below p.1 (pre.map Prod.snd) (by
    intro r hr
    rw [List.mem_map] at hr
    obtain ⟨q, hq, rfl⟩ := hr
    exact hpre q hq p (by simp))
  -- a point of `g` near `p` and different from it
  obtain ⟨y, hy1, hy2, hyg1, hyg2, hyp⟩ : ∃ y, e < y ∧ y < d ∧ g.1 ≤ y ∧ y ≤ g.2 ∧ y ≠ p.1 := by
    rcases lt_or_eq_of_le hg2 with h | h
    · obtain ⟨y, ha, hb⟩ := exists_between (lt_min hd1 h)
      rw [lt_min_iff] at hb
      exact ⟨y, by linarith, hb.1, by linarith, hb.2.le, ha.ne'⟩
    · have h' : g.1 < p.1 := by rw [h]; exact hl g hg
      obtain ⟨y, ha, hb⟩ := exists_between (max_lt he1 h')
      rw [max_lt_iff] at ha
      exact ⟨y, ha.1, by linarith, ha.2.le, by linarith, hb.ne⟩
  obtain ⟨q, hq, hq1, hq2⟩ := (hc y).2 ⟨g, hg, hyg1, hyg2⟩
  rw [List.mem_append, List.mem_cons] at hq
  rcases hq with hq | rfl | hq
  · have := he2 q.2 (List.mem_map.2 ⟨q, hq, rfl⟩)
    linarith
  · exact hyp (le_antisymm (by rw [hpe]; exact hq2) hq1)
  · have := hd2 q.1 (List.mem_map.2 ⟨q, hq, rfl⟩)
    linarith

theorem join_fold (orderJ : KeySort (fun (b : K × Int) => b.1)) (orderA : KeySort (fun (g : K × K) => g.1)) (gs : List (List (K × K)))
    (acc : List (K × K)) (hacc : checkGtis acc = .ok ()) (haccp : ∀ g ∈ acc, g.1 < g.2)
    (hgs : ∀ l ∈ gs, checkGtis l = .ok () ∧ ∀ g ∈ l, g.1 < g.2) :
    ∃ out, gs.foldlM (fun a g => joinGtis orderJ orderA a g) acc = (.ok out : Except PyErr (List (K × K))) ∧ checkGtis out = .ok () ∧
      ∀ x, Covers out x ↔ Covers acc x ∨ ∃ l ∈ gs, Covers l x := by
  induction gs generalizing acc with
  | nil => exact ⟨acc, rfl, hacc, by simp⟩
  | cons l gs ih =>
    obtain ⟨hl, hlp⟩ := hgs l (by simp)
    obtain ⟨out, ho, hcov, hw⟩ := join_gtis_union orderJ orderA acc l hacc hl
    obtain ⟨w1, w2, w3⟩ := hw (Or.inl ⟨haccp, hlp⟩)
    have hpos : ∀ p ∈ out, p.1 < p.2 := by
      apply positive_of_covers out (acc ++ l) w1 w2 ?_ (fun x => by rw [hcov x, covers_append])
      intro g hg
      rcases List.mem_append.1 hg with hg | hg
      · exact haccp g hg
      · exact hlp g hg
    obtain ⟨out', ho', hok', hc'⟩ := ih out w3 hpos (fun l hl => hgs l (by simp [hl]))
    refine ⟨out', ?_, hok', ?_⟩
    · rw [List.foldlM_cons, ho]
      exact ho'
    · intro x
      rw [hc' x, hcov x]
      simp [or_assoc]

theorem append_fold (orderA : KeySort (fun (g : K × K) => g.1)) (gs : List (List (K × K))) (acc out : List (K × K))
    (h : gs.foldlM (fun a g => appendGtis orderA a g) acc = (.ok out : Except PyErr (List (K × K)))) :
    (∀ x, Covers out x ↔ Covers acc x ∨ ∃ l ∈ gs, Covers l x) ∧ exposure out = exposure acc + (gs.map exposure).sum := by
  induction gs generalizing acc with
  | nil => cases h; simp
  | cons l gs ih =>
    rw [List.foldlM_cons] at h
    cases ho : appendGtis orderA acc l with
    | error e => rw [ho] at h; cases h
    | ok o =>
      rw [ho] at h
      obtain ⟨i1, i2⟩ := ih o h
      have ha : checkGtis acc = .ok () := by
        rcases h : checkGtis acc with e | u
        · simp [appendGtis, h, bind, Except.bind] at ho
        · rfl
      have hb : checkGtis l = .ok () := by
        rcases h : checkGtis l with e | u
        · simp [appendGtis, ha, h, bind, Except.bind] at ho
        · rfl
      obtain ⟨q1, q2⟩ := append_gtis_union orderA acc l ha hb
      obtain ⟨r, e1, _⟩ := check_separate_iff_partial acc l ha hb
      cases r with
      | false => rw [q2 e1] at ho; cases ho
      | true =>
        obtain ⟨o', ho', c1, c2⟩ := q1 e1
        rw [ho'] at ho
        cases ho
        constructor
        · intro x
          rw [i1 x, c1 x]
          simp [or_assoc]
        · rw [i2, c2]
          simp [add_assoc]

/-- the lists that count: neither `None` nor empty -/
def valid (lists : List (Option (List (K × K)))) : List (List (K × K)) := (lists.filterMap id).filter (fun g => !g.isEmpty)

theorem flatten_ne {g : List (K × K)} (h : g ≠ []) : flatten g ≠ [] := by
  cases g with
  | nil => exact absurd rfl h
  | cons a l => simp [flatten]

theorem valid_ne (lists : List (Option (List (K × K)))) : ∀ g ∈ valid lists, g ≠ [] := by
  intro g hg
  rw [valid, List.mem_filter] at hg
  intro h
  subst h
  simp at hg

/-- **C116.** Lists that are `None` or empty do not count: without any other the result is `None`, with one other, and a strategy but "none", it is that one. -/
theorem merge_gtis_few (orderC : KeySort (fun (x : (K × K) × Bool) => x.1.2)) (orderJ : KeySort (fun (b : K × Int) => b.1))
    (orderA : KeySort (fun (g : K × K) => g.1)) (lists : List (Option (List (K × K)))) (strategy : MergeStrategy) :
    (valid lists = [] → mergeGtis orderC orderJ orderA lists strategy = .ok none) ∧
    (∀ g, valid lists = [g] → strategy ≠ .none → mergeGtis orderC orderJ orderA lists strategy = .ok (some g)) ∧
    mergeGtis orderC orderJ orderA lists strategy = mergeGtis orderC orderJ orderA ((valid lists).map some) strategy := by
  refine ⟨?_, ?_, ?_⟩
  · intro h
    unfold mergeGtis
    simp only [show (lists.filterMap id).filter (fun g => !g.isEmpty) = [] from h]
  · intro g h hs
    have hg := valid_ne lists g (by rw [h]; simp)
    unfold mergeGtis
    simp only [show (lists.filterMap id).filter (fun g => !g.isEmpty) = [g] from h, List.flatMap_cons, List.flatMap_nil, List.append_nil]
    cases hf : flatten g with
    | nil => exact absurd hf (flatten_ne hg)
    | cons p ps => simp only [if_neg hs, List.isEmpty_nil, if_true]
  · have : (((valid lists).map some).filterMap id).filter (fun g => !g.isEmpty) = (lists.filterMap id).filter (fun g => !g.isEmpty) := by
      rw [List.filterMap_map]
      have : (valid lists).filterMap (id ∘ some) = valid lists := by
        have : (id ∘ some : List (K × K) → Option (List (K × K))) = some := rfl
        rw [this, List.filterMap_some]
      rw [this, valid, List.filter_filter]
      simp
    unfold mergeGtis
    rw [this]

/-- the list of borders begins with one -/
theorem borders (L : List (List (K × K))) (g0 g1 : List (K × K)) (gs : List (List (K × K))) (h : L = g0 :: g1 :: gs) (hne : g0 ≠ []) :
    ∃ p ps, L.flatMap flatten = p :: ps := by
  subst h
  obtain ⟨a, l, rfl⟩ := List.exists_cons_of_ne_nil hne
  exact ⟨a.1, _, rfl⟩

/-- **C116 (partial).** For two or more lists accepted by `check_gtis`, of GTIs of positive length: "union" gives a list covering exactly the times in some of the lists; and, if no two of the lists touch, "intersection" one covering exactly the
times in all of them, or `None` if there is no such time, and "infer" the intersection if there is a time in all of them and the union otherwise.
Missing: intersections of lists that touch (see C04), and GTIs of zero length. -/
theorem merge_gtis_partial (orderC : KeySort (fun (x : (K × K) × Bool) => x.1.2)) (orderJ : KeySort (fun (b : K × Int) => b.1))
    (orderA : KeySort (fun (g : K × K) => g.1)) (lists : List (Option (List (K × K))))
    (h2 : 2 ≤ (valid lists).length) (hok : ∀ l ∈ valid lists, checkGtis l = .ok () ∧ ∀ g ∈ l, g.1 < g.2) :
    (∃ out, mergeGtis orderC orderJ orderA lists .union = .ok (some out) ∧ ∀ x, Covers out x ↔ ∃ l ∈ valid lists, Covers l x) ∧
    ((valid lists).Pairwise NoTouch → ∃ out, mergeGtis orderC orderJ orderA lists .intersection = .ok out ∧
      (∀ l, out = some l → ∀ x, Covers l x ↔ ∀ l ∈ valid lists, Covers l x) ∧
      (out = none ↔ ¬ ∃ x, ∀ l ∈ valid lists, Covers l x)) ∧
    ((valid lists).Pairwise NoTouch → mergeGtis orderC orderJ orderA lists .infer =
      @ite _ (∃ x, ∀ l ∈ valid lists, Covers l x) (Classical.propDecidable _) (mergeGtis orderC orderJ orderA lists .intersection)
        (mergeGtis orderC orderJ orderA lists .union)) := by
  have hne : valid lists ≠ [] := by intro h; rw [h] at h2; simp at h2
  obtain ⟨cross, hcross, hcpos⟩ := cross_gtis_ok orderC (valid lists) hne hok
  obtain ⟨g0, g1, gs, hL⟩ : ∃ g0 g1 gs, valid lists = g0 :: g1 :: gs := by
    match h : valid lists, h2 with
    | a :: b :: l, _ => exact ⟨a, b, l, rfl⟩
  have hg0 := valid_ne lists g0 (by rw [hL]; simp)
  obtain ⟨p, ps, hp⟩ := borders (valid lists) g0 g1 gs hL hg0
  have hform : ∀ st, st ≠ .none → mergeGtis orderC orderJ orderA lists st =
      (let st := if st = .infer then (if cross.isEmpty then MergeStrategy.union else .intersection) else st
       if st = .intersection then .ok (if cross.isEmpty then Option.none else some cross)
       else (do
        return some (← (g1 :: gs).foldlM (fun (acc : List (K × K)) (g : List (K × K)) =>
          match st with
          | .union => joinGtis orderJ orderA acc g
          | .append => appendGtis orderA acc g
          | _ => .ok acc) g0))) := by
    intro st hst
    unfold mergeGtis
    rw [show (lists.filterMap id).filter (fun g => !g.isEmpty) = valid lists from rfl]
    simp only [hp]
    rw [hL] at hcross ⊢
    simp only [if_neg hst, List.isEmpty_cons, Bool.false_eq_true, if_false, hcross, bind, Except.bind]
    rfl
  have hunion : ∃ out, mergeGtis orderC orderJ orderA lists .union = .ok (some out) ∧ ∀ x, Covers out x ↔ ∃ l ∈ valid lists, Covers l x := by
    obtain ⟨out, ho, _, hc⟩ := join_fold orderJ orderA (g1 :: gs) g0 (hok g0 (by rw [hL]; simp)).1 (hok g0 (by rw [hL]; simp)).2
      (fun l hl => hok l (by rw [hL]; exact List.mem_cons_of_mem _ hl))
    refine ⟨out, ?_, ?_⟩
    · rw [hform .union (by decide)]
      simp only [show ¬ MergeStrategy.union = .infer by decide, show ¬ MergeStrategy.union = .intersection by decide, if_false, ho]
      rfl
    · intro x
      rw [hc x, hL]
      simp
  have hint : (valid lists).Pairwise NoTouch → mergeGtis orderC orderJ orderA lists .intersection = .ok (if cross.isEmpty then Option.none else some cross) ∧
      (∀ x, Covers cross x ↔ ∀ l ∈ valid lists, Covers l x) ∧ (cross = [] ↔ ¬ ∃ x, ∀ l ∈ valid lists, Covers l x) := by
    intro hnt
    obtain ⟨c, hc1, hc2⟩ := cross_gtis_exact_partial orderC (valid lists) hne hok hnt
    rw [hcross] at hc1
    cases hc1
    refine ⟨?_, hc2, ?_⟩
    · rw [hform .intersection (by decide)]
      simp
    · constructor
      · rintro h ⟨x, hx⟩
        have := (hc2 x).2 hx
        rw [h] at this
        simp [Covers] at this
      · intro h
        by_contra hcn
        obtain ⟨q, l, hql⟩ := List.exists_cons_of_ne_nil hcn
        exact h ⟨q.1, (hc2 q.1).1 ⟨q, by rw [hql]; simp, le_rfl, (hcpos q (by rw [hql]; simp)).le⟩⟩
  refine ⟨hunion, ?_, ?_⟩
  · intro hnt
    obtain ⟨i1, i2, i3⟩ := hint hnt
    refine ⟨_, i1, ?_, ?_⟩
    · intro l hl
      split_ifs at hl
      cases hl
      exact i2
    · rw [← i3]
      cases cross <;> simp
  · intro hnt
    obtain ⟨i1, i2, i3⟩ := hint hnt
    rw [hform .infer (by decide)]
    by_cases hx : ∃ x, ∀ l ∈ valid lists, Covers l x
    · rw [if_pos hx, i1]
      have : cross.isEmpty = false := by
        cases hcr : cross with
        | nil => exact absurd hx (i3.1 hcr)
        | cons a l => rfl
      simp [this]
    · rw [if_neg hx, hform .union (by decide)]
      have : cross.isEmpty = true := by rw [i3.2 hx]; rfl
      simp [this]

/-- two lists sharing good time, and a third one that does not -/
example : mergeGtis (stableSort _) (stableSort _) (stableSort _) [some [((0 : ℚ), 4), (6, 8)], none, some [(2, 7)], some []] .infer = .ok (some [(2, 4), (6, 7)]) ∧
    mergeGtis (stableSort _) (stableSort _) (stableSort _) [some [((0 : ℚ), 4), (6, 8)], some [(2, 7)], some [(10, 11)]] .infer = .ok (some [(0, 8), (10, 11)]) := by
  decide +kernel

/-- **C116 (append).** Whenever "append" succeeds for two or more lists, the result covers exactly the times in some of the lists and its total good time is the sum of theirs. -/
theorem merge_gtis_append (orderC : KeySort (fun (x : (K × K) × Bool) => x.1.2)) (orderJ : KeySort (fun (b : K × Int) => b.1))
    (orderA : KeySort (fun (g : K × K) => g.1)) (lists : List (Option (List (K × K)))) (h2 : 2 ≤ (valid lists).length)
    (r : Option (List (K × K))) (h : mergeGtis orderC orderJ orderA lists .append = .ok r) :
    ∃ out, r = some out ∧ (∀ x, Covers out x ↔ ∃ l ∈ valid lists, Covers l x) ∧ exposure out = ((valid lists).map exposure).sum := by
  obtain ⟨g0, g1, gs, hL⟩ : ∃ g0 g1 gs, valid lists = g0 :: g1 :: gs := by
    match h : valid lists, h2 with
    | a :: b :: l, _ => exact ⟨a, b, l, rfl⟩
  have hg0 := valid_ne lists g0 (by rw [hL]; simp)
  obtain ⟨p, ps, hp⟩ := borders (valid lists) g0 g1 gs hL hg0
  unfold mergeGtis at h
  rw [show (lists.filterMap id).filter (fun g => !g.isEmpty) = valid lists from rfl] at h
  simp only [hp] at h
  rw [hL] at h ⊢
  simp only [show ¬ MergeStrategy.append = .none by decide, show ¬ MergeStrategy.append = .infer by decide,
    show ¬ MergeStrategy.append = .intersection by decide, List.isEmpty_cons, Bool.false_eq_true, if_false, bind, Except.bind] at h
  split at h
  · cases h
  · split at h
    · cases h
    · rename_i out hout
      cases h
      obtain ⟨c1, c2⟩ := append_fold orderA (g1 :: gs) g0 out hout
      refine ⟨out, rfl, ?_, ?_⟩
      · intro x; rw [c1 x]; simp
      · rw [c2]; simp

example : mergeGtis (stableSort _) (stableSort _) (stableSort _) [some [((0 : ℚ), 1)], some [(2, 3)], some [(4, 5), (6, 7)]] .append =
    .ok (some [(0, 1), (2, 3), (4, 5), (6, 7)]) := by decide +kernel

/-- **C116 (hull).** "none" gives one GTI, from the first to the last border of all the lists. -/
theorem merge_gtis_hull (orderC : KeySort (fun (x : (K × K) × Bool) => x.1.2)) (orderJ : KeySort (fun (b : K × Int) => b.1))
    (orderA : KeySort (fun (g : K × K) => g.1)) (lists : List (Option (List (K × K)))) (h2 : valid lists ≠ []) :
    ∃ a b, mergeGtis orderC orderJ orderA lists .none = .ok (some [(a, b)]) ∧
      (∀ l ∈ valid lists, ∀ g ∈ l, a ≤ g.1 ∧ a ≤ g.2 ∧ g.1 ≤ b ∧ g.2 ≤ b) ∧
      (∃ l ∈ valid lists, ∃ g ∈ l, a = g.1 ∨ a = g.2) ∧ (∃ l ∈ valid lists, ∃ g ∈ l, b = g.1 ∨ b = g.2) := by
  obtain ⟨g0, gs, hL⟩ := List.exists_cons_of_ne_nil h2
  have hg0 := valid_ne lists g0 (by rw [hL]; simp)
  obtain ⟨p, ps, hp⟩ : ∃ p ps, (valid lists).flatMap flatten = p :: ps := by
    rw [hL]
    obtain ⟨a, l, rfl⟩ := List.exists_cons_of_ne_nil hg0
    exact ⟨a.1, _, rfl⟩
  have hmin : ∀ (l : List K) (x : K), ((∀ y ∈ x :: l, l.foldl min x ≤ y) ∧ l.foldl min x ∈ x :: l) ∧
      (∀ y ∈ x :: l, y ≤ l.foldl max x) ∧ l.foldl max x ∈ x :: l := by
    intro l
    induction l with
    | nil => intro x; simp
    | cons y l ih =>
      intro x
      obtain ⟨⟨a, b⟩, -⟩ := ih (min x y)
      obtain ⟨-, ⟨c, d⟩⟩ := ih (max x y)
      refine ⟨⟨?_, ?_⟩, ?_, ?_⟩
      · intro z hz
        rcases List.mem_cons.1 hz with rfl | hz
        · exact (a (min z y) (by simp)).trans (min_le_left _ _)
        · rcases List.mem_cons.1 hz with rfl | hz
          · exact (a (min x z) (by simp)).trans (min_le_right _ _)
          · exact a z (by simp [hz])
      · rw [List.foldl_cons]
        rcases List.mem_cons.1 b with hb | hb
        · rw [hb]
          rcases min_choice x y with h | h <;> rw [h] <;> simp
        · simp [hb]
      · intro z hz
        rcases List.mem_cons.1 hz with rfl | hz
        · exact (le_max_left z y).trans (c (max z y) (by simp))
        · rcases List.mem_cons.1 hz with rfl | hz
          · exact (le_max_right x z).trans (c (max x z) (by simp))
          · exact c z (by simp [hz])
      · rw [List.foldl_cons]
        rcases List.mem_cons.1 d with hb | hb
        · rw [hb]
          rcases max_choice x y with h | h <;> rw [h] <;> simp
        · simp [hb]
  obtain ⟨⟨m1, m2⟩, m3, m4⟩ := hmin ps p
  rw [← hp] at m1 m2 m3 m4
  have hb : ∀ l ∈ valid lists, ∀ g ∈ l, g.1 ∈ (valid lists).flatMap flatten ∧ g.2 ∈ (valid lists).flatMap flatten := by
    intro l hl g hg
    simp only [List.mem_flatMap, flatten]
    exact ⟨⟨l, hl, g, hg, by simp⟩, ⟨l, hl, g, hg, by simp⟩⟩
  have hb' : ∀ x ∈ (valid lists).flatMap flatten, ∃ l ∈ valid lists, ∃ g ∈ l, x = g.1 ∨ x = g.2 := by
    intro x hx
    simp only [List.mem_flatMap, flatten] at hx
    obtain ⟨l, hl, g, hg, hx⟩ := hx
    exact ⟨l, hl, g, hg, by simpa using hx⟩
  refine ⟨ps.foldl min p, ps.foldl max p, ?_, ?_, hb' _ m2, hb' _ m4⟩
  · unfold mergeGtis
    rw [show (lists.filterMap id).filter (fun g => !g.isEmpty) = valid lists from rfl]
    simp only [hp]
    rw [hL]
    simp
  · intro l hl g hg
    obtain ⟨q1, q2⟩ := hb l hl g hg
    exact ⟨m1 _ q1, m1 _ q2, m3 _ q1, m3 _ q2⟩

end Stingray.Gti

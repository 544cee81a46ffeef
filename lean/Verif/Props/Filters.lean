import Verif.Lemmas.Filters
import Verif.Lemmas.GtiJoin
import Mathlib.Algebra.Order.Ring.Rat
import Mathlib.Tactic.NormNum

/-!
# Properties C17, C18, C19: dead time filters
-/

namespace Stingray.Filters

open Stingray.Spec

variable {K : Type} [Field K] [LinearOrder K] [IsStrictOrderedRing K]

/-- **C17.** For every non-empty time-ordered list of events, each with its own dead time, an event
survives the non-paralyzable filter iff it arrives after the end of the dead time of every
earlier survivor. -/
theorem non_paralyzable_exact (ev : List (K × K)) (hs : ev.Pairwise (fun a b => a.1 ≤ b.1))
    (hne : ev ≠ []) : ∃ m, nonParalyzableMask ev = .ok m ∧ NonParalyzable ev m := by
  obtain ⟨a, l, rfl⟩ := List.exists_cons_of_ne_nil hne
  refine ⟨nonparCore (a :: l), ?_, nonparCore_spec _ hs⟩
  simp only [nonParalyzableMask]
  rw [nonparCore_shift]

/-- **C17.** In words: the first event survives; survivors are at least one dead time apart; a
rejected event arrived within the dead time of some earlier survivor. -/
theorem non_paralyzable_in_words (ev : List (K × K)) (hs : ev.Pairwise (fun a b => a.1 ≤ b.1))
    (m : List Bool) (h : nonParalyzableMask ev = .ok m) :
    m[0]? = some true ∧
    (∀ (i j : Nat) (a b : K × K), i < j → ev[i]? = some a → ev[j]? = some b → m[i]? = some true →
      m[j]? = some true → a.1 + a.2 ≤ b.1) ∧
    (∀ (j : Nat) (b : K × K), ev[j]? = some b → m[j]? = some false →
      ∃ (i : Nat) (a : K × K), i < j ∧ ev[i]? = some a ∧ m[i]? = some true ∧ b.1 < a.1 + a.2) := by
  have hne : ev ≠ [] := by rintro rfl; simp [nonParalyzableMask] at h
  obtain ⟨m', h', hlen, hm⟩ := non_paralyzable_exact ev hs hne
  rw [h] at h'; cases h'
  obtain ⟨a, l, rfl⟩ := List.exists_cons_of_ne_nil hne
  refine ⟨?_, ?_, ?_⟩
  · rw [hm 0 a (by simp)]; intro i e' hi; omega
  · intro i j a b hij ha hb hi hj
    exact (hm j b hb).1 hj i a hij ha hi
  · intro j b hb hj
    by_contra hcon
    have : m[j]? = some true := by
      rw [hm j b hb]
      intro i e' hi he' hmi
      by_contra hlt
      exact hcon ⟨i, e', hi, he', hmi, not_le.1 hlt⟩
    rw [hj] at this; simp at this

/-- The specification determines the mask: two masks obeying it are equal. -/
theorem non_paralyzable_unique (ev : List (K × K)) (m m' : List Bool) (h : NonParalyzable ev m)
    (h' : NonParalyzable ev m') : m = m' := by
  have key : ∀ j : Nat, ∀ i ≤ j, m[i]? = m'[i]? := by
    intro j
    induction j using Nat.strong_induction_on with
    | _ j ih =>
      intro i hij
      rcases Nat.lt_or_ge i j with hlt | hge
      · exact ih i hlt i le_rfl
      have : i = j := by omega
      subst this
      rcases he : ev[i]? with _ | e
      · have hl : ev.length ≤ i := by simpa using he
        rw [List.getElem?_eq_none (by rw [h.1]; exact hl), List.getElem?_eq_none (by rw [h'.1]; exact hl)]
      · have hl : i < ev.length := (List.getElem?_eq_some_iff.1 he).1
        have hiff : m[i]? = some true ↔ m'[i]? = some true := by
          rw [h.2 i e he, h'.2 i e he]
          constructor
          · intro hall k e' hk hke hmk
            exact hall k e' hk hke (by rw [ih k hk k le_rfl]; exact hmk)
          · intro hall k e' hk hke hmk
            exact hall k e' hk hke (by rw [← ih k hk k le_rfl]; exact hmk)
        have e1 := List.getElem?_eq_getElem (l := m) (i := i) (by rw [h.1]; exact hl)
        have e2 := List.getElem?_eq_getElem (l := m') (i := i) (by rw [h'.1]; exact hl)
        rw [e1, e2] at hiff ⊢
        cases h3 : m[i]'(by rw [h.1]; exact hl) <;> cases h4 : m'[i]'(by rw [h'.1]; exact hl) <;>
          simp [h3, h4] at hiff ⊢
  apply List.ext_getElem?
  intro i
  exact key i i le_rfl

example : nonParalyzableMask [((10 : ℚ), 2), (11, 2), (12, 2), (13, 2), (27/2, 2), (20, 2)] =
    .ok [true, false, true, false, false, true] := by decide +kernel

example : nonParalyzableMask [((10 : ℚ), 5), (11, 2), (15, 1), (16, 2), (17, 1)] =
    .ok [true, false, true, true, false] := by decide +kernel

/-- **C18 (partial).** With the same dead time for all events, an event survives the paralyzable
filter iff no earlier event (accepted or not) arrived within the dead time before it.  Missing: a dead time that
varies from event to event, for which it is false (`paralyzable_variable_wrong`). -/
theorem paralyzable_exact_partial (times : List K) (d : K)
    (hs : times.Pairwise (· ≤ ·)) :
    Paralyzable (times.map fun t => (t, d)) (paralyzableMask (times.map fun t => (t, d))) := by
  refine ⟨paralyzableMask_length _, ?_⟩
  intro j e he
  cases j with
  | zero =>
    cases times with
    | nil => simp at he
    | cons t l => simp [paralyzableMask]
  | succ j =>
    rw [List.getElem?_map] at he
    rcases ht : times[j + 1]? with _ | t
    · rw [ht] at he; simp at he
    rw [ht] at he
    simp only [Option.map_some, Option.some.injEq] at he
    subst he
    have hlt := (List.getElem?_eq_some_iff.1 ht).1
    have hj : times[j]? = some (times[j]'(by omega)) := List.getElem?_eq_getElem (by omega)
    rw [paralyzableMask_get _ j (times[j]'(by omega), d) (t, d) (by simp [hj]) (by simp [ht])]
    constructor
    · intro hle i e' hi hie
      rw [List.getElem?_map] at hie
      rcases hti : times[i]? with _ | ti
      · rw [hti] at hie; simp at hie
      rw [hti] at hie
      simp only [Option.map_some, Option.some.injEq] at hie
      subst hie
      simp only at hle ⊢
      have hti' : ti ≤ times[j]'(by omega) := by
        rcases Nat.eq_or_lt_of_le (Nat.lt_succ_iff.1 hi) with h | h
        · subst h; rw [hj] at hti; cases hti; exact le_rfl
        · have := List.pairwise_iff_getElem.1 hs i j (by omega) (by omega) h
          rw [List.getElem?_eq_getElem (by omega)] at hti
          cases hti; exact this
      linarith
    · intro hall
      exact hall j _ (by omega) (by simp [hj])

/-- **C18 (negation).** With variable dead times, an event inside the dead time of an earlier
event is kept, because only the immediately preceding one is looked at. -/
theorem paralyzable_variable_wrong :
    paralyzableMask [((0 : ℚ), 10), (1, 1/2), (2, 1)] = [true, false, true] ∧
      ¬ Paralyzable [((0 : ℚ), 10), (1, 1/2), (2, 1)]
        (paralyzableMask [((0 : ℚ), 10), (1, 1/2), (2, 1)]) := by
  have h : paralyzableMask [((0 : ℚ), 10), (1, 1/2), (2, 1)] = [true, false, true] := by
    decide +kernel
  refine ⟨h, ?_⟩
  rw [h]
  rintro ⟨_, hall⟩
  have := (hall 2 (2, 1) rfl).1 rfl 0 (0, 10) (by omega) rfl
  norm_num at this

example : paralyzableMask [((0 : ℚ), 2), (1, 2), (2, 2), (3, 2), (6, 2)] =
    [true, false, false, false, true] := by decide +kernel

/-! ### C19 -/

theorem select_sublist {α : Type} (m : List Bool) (l : List α) : (select m l).Sublist l := by
  induction l generalizing m with
  | nil => simp [select, Gti.select]
  | cons a l ih =>
    cases m with
    | nil => simp [select, Gti.select]
    | cons b m =>
      have := ih m
      cases b
      · simp only [select, Gti.select, List.zip_cons_cons] at this ⊢
        exact this.cons a
      · simp only [select, Gti.select, List.zip_cons_cons] at this ⊢
        exact this.cons₂ a

/-- **C19.** Whatever the background, dead time values and kind of dead time, the result is a
sublist (same order, nothing added) of the input events. -/
theorem filter_for_deadtime_sublist (order : KeySort (fun (x : K × Bool) => x.1)) (ev : List K)
    (deadtime : K) (bkg draws : Option (List K)) (par : Bool) (out : List K)
    (h : filterForDeadtime order ev deadtime bkg draws par = .ok out) : out.Sublist ev := by
  unfold filterForDeadtime at h
  rcases hm : getDeadtimeMask order ev deadtime bkg draws par with er | o
  · simp [hm, bind, Except.bind] at h
  · simp only [hm, bind, Except.bind, pure, Except.pure, Except.ok.injEq] at h
    subst h
    exact select_sublist _ _

theorem select_all_true {α β : Type} (l : List α) (m : List β) (h : m.length = l.length) :
    select (m.map fun _ => true) l = l := by
  induction l generalizing m with
  | nil => simp [select, Gti.select]
  | cons a l ih =>
    cases m with
    | nil => simp at h
    | cons b m =>
      have := ih m (by simpa using h)
      simp only [select, Gti.select, List.map_cons, List.zip_cons_cons] at this ⊢
      rw [List.filter_cons_of_pos (by rfl), List.map_cons, this]

/-- **C19.** Zero dead time returns the input unchanged, negative dead time raises `ValueError`,
with or without background. -/
theorem filter_for_deadtime_trivial (order : KeySort (fun (x : K × Bool) => x.1)) (ev : List K)
    (deadtime : K) (bkg draws : Option (List K)) (par : Bool) :
    (deadtime = 0 → filterForDeadtime order ev deadtime bkg draws par = .ok ev) ∧
    (deadtime < 0 → filterForDeadtime order ev deadtime bkg draws par = .error .valueError) := by
  constructor
  · rintro rfl
    simp only [filterForDeadtime, getDeadtimeMask, le_refl, if_true, lt_irrefl, if_false, bind,
      Except.bind, pure, Except.pure, select_all_true ev ev rfl]
  · intro h
    simp [filterForDeadtime, getDeadtimeMask, bind, Except.bind, h, h.le]

/-- **C19.** Without background, time-ordered input, fixed positive dead time: the mask returned is the one of the
specification. -/
theorem get_deadtime_mask_no_bkg (order : KeySort (fun (x : K × Bool) => x.1)) (ev : List K)
    (hs : ev.Pairwise (· ≤ ·)) (d : K) (hd : 0 < d) (hne : ev ≠ []) :
    (∃ o, getDeadtimeMask order ev d none none false = .ok o ∧
      NonParalyzable (ev.map fun t => (t, d)) o.mask ∧ o.ufEvents = select o.mask ev) ∧
    (∃ o, getDeadtimeMask order ev d none none true = .ok o ∧
      Paralyzable (ev.map fun t => (t, d)) o.mask ∧ o.ufEvents = select o.mask ev) := by
  have hzip : List.zip ((ev.map (fun t => (t, true))).map Prod.fst)
      ((ev.map (fun t => (t, true))).map (fun _ => d)) = ev.map (fun t => (t, d)) := by
    induction ev with
    | nil => rfl
    | cons a l ih =>
      cases l with
      | nil => rfl
      | cons b l =>
        have := ih (List.pairwise_cons.1 hs).2 (by simp)
        simp only [List.map_cons, List.zip_cons_cons] at this ⊢
        rw [this]
  have hsel : ∀ m : List Bool, m.length = ev.length →
      select ((ev.map (fun t => (t, true))).map Prod.snd) m = m := by
    intro m hm
    have : (ev.map (fun t => (t, true))).map Prod.snd = ev.map (fun _ => true) := by
      rw [List.map_map]; rfl
    rw [this]; exact select_all_true m ev hm.symm
  have hsel2 : ∀ m : List Bool, (select m (ev.map (fun t => (t, true)))).map Prod.fst = select m ev := by
    intro m
    clear hs hne hzip hsel
    induction ev generalizing m with
    | nil => simp [select, Gti.select]
    | cons a l ih =>
      cases m with
      | nil => simp [select, Gti.select]
      | cons b m =>
        have := ih m
        cases b <;> simp only [select, Gti.select, List.map_cons, List.zip_cons_cons] at this ⊢ <;>
          simp [this]
  have hpw : (ev.map fun t => (t, d)).Pairwise (fun a b => a.1 ≤ b.1) := by
    rw [List.pairwise_map]; exact hs
  constructor
  · obtain ⟨m, hm, hspec⟩ := non_paralyzable_exact (ev.map fun t => (t, d)) hpw (by simpa using hne)
    have hml : m.length = ev.length := by rw [hspec.1]; simp
    refine ⟨⟨m, select m ev, (select m (ev.map (fun t => (t, true)))).map Prod.snd,
      ((select m (ev.map (fun t => (t, true)))).filter (fun x => !x.2)).map Prod.fst⟩, ?_, hspec, rfl⟩
    simp only [getDeadtimeMask, not_le.2 hd, if_false, hzip, bind, Except.bind, hm, pure, Except.pure,
      Bool.false_eq_true, hsel m hml, hsel2]
  · have hspec := paralyzable_exact_partial ev d hs
    have hml : (paralyzableMask (ev.map fun t => (t, d))).length = ev.length := by
      rw [hspec.1]; simp
    generalize hm : paralyzableMask (ev.map fun t => (t, d)) = m at hspec hml
    refine ⟨⟨m, select m ev, (select m (ev.map (fun t => (t, true)))).map Prod.snd,
      ((select m (ev.map (fun t => (t, true)))).filter (fun x => !x.2)).map Prod.fst⟩, ?_, hspec, rfl⟩
    simp only [getDeadtimeMask, not_le.2 hd, if_false, hzip, bind, Except.bind, hm, pure, Except.pure,
      if_true, hsel m hml, hsel2]

/-- sources in merged order are the sources -/
theorem merged_sources (order : KeySort (fun (x : K × Bool) => x.1)) (ev bkg : List K)
    (hs : ev.Pairwise (· ≤ ·)) :
    ((order.sort (ev.map (fun t => (t, true)) ++ bkg.map (fun t => (t, false)))).filter
      (fun x => x.2)).map Prod.fst = ev := by
  have hp := order.perm (ev.map (fun t => (t, true)) ++ bkg.map (fun t => (t, false)))
  have h1 : (((ev.map (fun t => (t, true)) ++ bkg.map (fun t => (t, false)))).filter
      (fun x => x.2)).map Prod.fst = ev := by
    rw [List.filter_append, List.filter_eq_self.2 (by simp), List.filter_eq_nil_iff.2 (by simp),
      List.append_nil, List.map_map]
    exact List.map_id _
  have h2 := (hp.filter (fun x => x.2)).map Prod.fst
  rw [h1] at h2
  have h3 : (((order.sort (ev.map (fun t => (t, true)) ++ bkg.map (fun t => (t, false)))).filter
      (fun x => x.2)).map Prod.fst).Pairwise (· ≤ ·) := by
    rw [List.pairwise_map]
    exact (order.sorted _).filter _
  exact h2.eq_of_pairwise (fun a b _ _ h h' => le_antisymm h h') h3 hs

/-- masking in two steps: first the sources, then the surviving ones -/
theorem select_select_kinds (M : List (K × Bool)) (m : List Bool) (hm : m.length = M.length) :
    select (select (M.map Prod.snd) m) ((M.filter (fun x => x.2)).map Prod.fst) =
      ((List.zip M m).filter (fun x => x.1.2 && x.2)).map (fun x => x.1.1) := by
  induction M generalizing m with
  | nil => simp [select, Gti.select]
  | cons x M ih =>
    cases m with
    | nil => simp at hm
    | cons b m =>
      have := ih m (by simpa using hm)
      obtain ⟨t, k⟩ := x
      cases k <;> cases b <;> simp only [select, Gti.select, List.map_cons, List.zip_cons_cons] at this ⊢ <;>
        simp [this]

theorem zip_const (M : List (K × Bool)) (d : K) :
    List.zip (M.map Prod.fst) (M.map (fun _ => d)) = M.map (fun x => (x.1, d)) := by
  induction M with
  | nil => rfl
  | cons a M ih => simp only [List.map_cons, List.zip_cons_cons, ih]

/-- **C19.** With a background, time-ordered source events and a fixed positive dead time: source and
background are merged in time order, the dead time acts on the merged list as specified, and what
is returned is exactly the source events that survive. -/
theorem filter_for_deadtime_bkg (order : KeySort (fun (x : K × Bool) => x.1)) (ev bkg : List K)
    (hs : ev.Pairwise (· ≤ ·)) (d : K) (hd : 0 < d) (hne : ev ++ bkg ≠ []) (par : Bool) :
    ∃ (M : List (K × Bool)) (m : List Bool),
      M.Perm (ev.map (fun t => (t, true)) ++ bkg.map (fun t => (t, false))) ∧
      M.Pairwise (fun a b => a.1 ≤ b.1) ∧
      (if par then Paralyzable (M.map fun x => (x.1, d)) m
        else NonParalyzable (M.map fun x => (x.1, d)) m) ∧
      filterForDeadtime order ev d (some bkg) none par =
        .ok (((List.zip M m).filter (fun x => x.1.2 && x.2)).map (fun x => x.1.1)) := by
  let M := order.sort (ev.map (fun t => (t, true)) ++ bkg.map (fun t => (t, false)))
  have hM : M = order.sort (ev.map (fun t => (t, true)) ++ bkg.map (fun t => (t, false))) := rfl
  have hperm : M.Perm (ev.map (fun t => (t, true)) ++ bkg.map (fun t => (t, false))) := order.perm _
  have hsort : M.Pairwise (fun a b => a.1 ≤ b.1) := order.sorted _
  have hMne : M ≠ [] := by
    intro h
    rw [h] at hperm
    have := List.nil_perm.1 hperm
    apply hne
    simpa using this
  have hsrc := merged_sources order ev bkg hs
  rw [← hM] at hsrc
  cases par
  · obtain ⟨m, hm, hspec⟩ := non_paralyzable_exact (M.map fun x => (x.1, d))
      (by rw [List.pairwise_map]; exact hsort) (by simpa using hMne)
    refine ⟨M, m, hperm, hsort, by simpa using hspec, ?_⟩
    simp only [filterForDeadtime, getDeadtimeMask, not_le.2 hd, if_false, ← hM, zip_const, bind,
      Except.bind, hm, pure, Except.pure, Bool.false_eq_true]
    rw [← select_select_kinds M m (by rw [hspec.1]; simp), hsrc]
  · have hspec := paralyzable_exact_partial (M.map Prod.fst) d (by rw [List.pairwise_map]; exact hsort)
    rw [List.map_map] at hspec
    refine ⟨M, paralyzableMask (M.map fun x => (x.1, d)), hperm, hsort, by rw [if_pos rfl]; exact hspec, ?_⟩
    simp only [filterForDeadtime, getDeadtimeMask, not_le.2 hd, if_false, ← hM, zip_const, bind,
      Except.bind, pure, Except.pure, if_true]
    rw [← select_select_kinds M _ (by rw [paralyzableMask_length]; simp), hsrc]

/-- recursive form of the constant paralyzable filter, with the time of the previous event -/
def paraKeep (d : K) (prev : Option K) : List K → List K
  | [] => []
  | t :: l =>
    if (∀ p ∈ prev, p + d ≤ t) then t :: paraKeep d (some t) l else paraKeep d (some t) l

/-- the same on tagged events, keeping the sources only -/
def paraKeepTagged (d : K) (prev : Option K) : List (K × Bool) → List K
  | [] => []
  | (t, k) :: l =>
    if (∀ p ∈ prev, p + d ≤ t) ∧ k = true then t :: paraKeepTagged d (some t) l
    else paraKeepTagged d (some t) l

theorem paraKeepTagged_tail (d p : K) (t : K) (k : Bool) (l : List (K × Bool)) :
    ((List.zip ((t, k) :: l) ((!decide (t < p + d)) :: List.zipWith
      (fun a b : K × K => !(decide (b.1 < a.1 + a.2))) ((t, d) :: (l.map fun x => (x.1, d))).dropLast
        (l.map fun x => (x.1, d)))).filter (fun x => x.1.2 && x.2)).map (fun x => x.1.1) =
      paraKeepTagged d (some p) ((t, k) :: l) := by
  induction l generalizing t k p with
  | nil =>
    by_cases h : t < p + d
    · simp [paraKeepTagged, h]
    · cases k <;> simp [paraKeepTagged, h, not_lt.1 h]
  | cons a l ih =>
    obtain ⟨t', k'⟩ := a
    have := ih t t' k'
    rw [paraKeepTagged, ← this]
    by_cases h : t < p + d
    · simp [h]
    · cases k <;> simp [h, not_lt.1 h]

theorem paraKeepTagged_eq (d : K) (M : List (K × Bool)) :
    ((List.zip M (paralyzableMask (M.map fun x => (x.1, d)))).filter (fun x => x.1.2 && x.2)).map
      (fun x => x.1.1) = paraKeepTagged d none M := by
  cases M with
  | nil => rfl
  | cons a M =>
    obtain ⟨t, k⟩ := a
    cases M with
    | nil => cases k <;> simp [paralyzableMask, paraKeepTagged]
    | cons b M =>
      obtain ⟨t', k'⟩ := b
      have := paraKeepTagged_tail d t t' k' M
      rw [paraKeepTagged, ← this]
      cases k <;> simp [paralyzableMask]

theorem paraKeepTagged_all (d : K) (prev : Option K) (l : List K) :
    paraKeepTagged d prev (l.map fun t => (t, true)) = paraKeep d prev l := by
  induction l generalizing prev with
  | nil => rfl
  | cons t l ih =>
    simp only [List.map_cons, paraKeepTagged, paraKeep, and_true, ih]

theorem paraKeepTagged_sublist (d : K) (M : List (K × Bool)) :
    ∀ (prev prevS : Option K), (∀ q ∈ prevS, ∃ p ∈ prev, q ≤ p) →
    M.Pairwise (fun a b => a.1 ≤ b.1) → (∀ p ∈ prev, ∀ x ∈ M, p ≤ x.1) →
    (paraKeepTagged d prev M).Sublist (paraKeep d prevS ((M.filter (fun x => x.2)).map Prod.fst)) := by
  induction M with
  | nil => intro _ _ _ _ _; simp [paraKeepTagged]
  | cons a M ih =>
    obtain ⟨t, k⟩ := a
    intro prev prevS hle hs hpre
    have hp := List.pairwise_cons.1 hs
    cases k
    · simp only [paraKeepTagged, Bool.false_eq_true, and_false, if_false]
      rw [List.filter_cons_of_neg (by simp)]
      refine ih (some t) prevS ?_ hp.2 ?_
      · intro q hq
        obtain ⟨p, hpm, hqp⟩ := hle q hq
        exact ⟨t, rfl, hqp.trans (hpre p hpm (t, false) (by simp))⟩
      · intro p hpt x hx
        cases hpt; exact hp.1 x hx
    · rw [List.filter_cons_of_pos (by simp), List.map_cons]
      have hrec := ih (some t) (some t) (by intro q hq; exact ⟨t, rfl, by cases hq; exact le_rfl⟩) hp.2
        (by intro p hpt x hx; cases hpt; exact hp.1 x hx)
      simp only [paraKeepTagged, and_true, paraKeep]
      by_cases h1 : ∀ p ∈ prev, p + d ≤ t
      · have h2 : ∀ q ∈ prevS, q + d ≤ t := by
          intro q hq
          obtain ⟨p, hpm, hqp⟩ := hle q hq
          have := h1 p hpm
          linarith
        rw [if_pos h1, if_pos h2]
        exact hrec.cons₂ t
      · rw [if_neg h1]
        split_ifs
        · exact hrec.cons t
        · exact hrec

/-- **C19.** For paralyzable dead time, adding background events never makes the set of surviving
source events larger. -/
theorem filter_for_deadtime_bkg_monotone (order : KeySort (fun (x : K × Bool) => x.1)) (ev bkg : List K)
    (hs : ev.Pairwise (· ≤ ·)) (d : K) (hd : 0 < d) :
    ∃ a b, filterForDeadtime order ev d (some bkg) none true = .ok a ∧
      filterForDeadtime order ev d none none true = .ok b ∧ a.Sublist b := by
  let M := order.sort (ev.map (fun t => (t, true)) ++ bkg.map (fun t => (t, false)))
  have hM : M = order.sort (ev.map (fun t => (t, true)) ++ bkg.map (fun t => (t, false))) := rfl
  have hsort : M.Pairwise (fun a b => a.1 ≤ b.1) := order.sorted _
  have hsrc := merged_sources order ev bkg hs
  rw [← hM] at hsrc
  let S : List (K × Bool) := ev.map (fun t => (t, true))
  have hS : S = ev.map (fun t => (t, true)) := rfl
  have hSsrc : (S.filter (fun x => x.2)).map Prod.fst = ev := by
    rw [hS, List.filter_eq_self.2 (by simp), List.map_map]; exact List.map_id _
  refine ⟨paraKeepTagged d none M, paraKeepTagged d none S, ?_, ?_, ?_⟩
  · simp only [filterForDeadtime, getDeadtimeMask, not_le.2 hd, if_false, ← hM, zip_const, bind,
      Except.bind, pure, Except.pure, if_true]
    rw [← paraKeepTagged_eq, ← select_select_kinds M _ (by rw [paralyzableMask_length]; simp), hsrc]
  · simp only [filterForDeadtime, getDeadtimeMask, not_le.2 hd, if_false, ← hS, zip_const, bind,
      Except.bind, pure, Except.pure, if_true]
    rw [← paraKeepTagged_eq, ← select_select_kinds S _ (by rw [paralyzableMask_length]; simp), hSsrc]
  · rw [hS, paraKeepTagged_all]
    have := paraKeepTagged_sublist d M none none (by simp) hsort (by simp)
    rwa [hsrc] at this

/-- For the non-paralyzable filter this monotonicity does not hold: a background event can hide the
source event that would have hidden another. -/
theorem non_paralyzable_bkg_not_monotone :
    filterForDeadtime (stableSort _) [(1 : ℚ), 5/2] 2 none none false = .ok [1] ∧
    filterForDeadtime (stableSort _) [(1 : ℚ), 5/2] 2 (some [0]) none false = .ok [5/2] := by
  decide +kernel

example : filterForDeadtime (stableSort _) [(1 : ℚ), 4, 8] 2 (some [3, 9]) none true = .ok [1, 8] := by
  decide +kernel

end Stingray.Filters

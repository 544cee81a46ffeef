import Verif.Lemmas.GtiBasic
import Mathlib.Algebra.Order.Floor.Semiring
import Mathlib.Algebra.Order.Floor.Ring
import Mathlib.Data.List.Range

/-! Helper lemmas for the segmentation of GTIs. -/

namespace Stingray.Gti

set_option linter.unusedSectionVars false

open Stingray.Spec

variable {K : Type} [Field K] [LinearOrder K] [IsStrictOrderedRing K]

/-! ### arange -/

theorem mem_arange [FloorRing K] (a b step x : K) (hs : 0 < step) :
    x ∈ arange a b step ↔ ∃ k : Nat, x = a + (k : K) * step ∧ x < b := by
  simp only [arange, List.mem_map, List.mem_range, Nat.lt_ceil]
  constructor
  · rintro ⟨k, hk, rfl⟩
    refine ⟨k, rfl, ?_⟩
    rw [lt_div_iff₀ hs] at hk
    linarith
  · rintro ⟨k, rfl, hk⟩
    refine ⟨k, ?_, rfl⟩
    rw [lt_div_iff₀ hs]
    linarith

theorem arange_steps [FloorRing K] (a b step : K) (hs : 0 < step) :
    (arange a b step).Pairwise (fun x y => x + step ≤ y) := by
  unfold arange
  rw [List.pairwise_map]
  refine List.Pairwise.imp ?_ List.pairwise_lt_range
  intro i j hij
  have : (i : K) + 1 ≤ (j : K) := by exact_mod_cast hij
  have := mul_le_mul_of_nonneg_right this hs.le
  linarith

theorem mem_arangeNat (a b step x : Nat) (hs : 0 < step) :
    x ∈ arangeNat a b step ↔ ∃ k : Nat, x = a + k * step ∧ x < b := by
  simp only [arangeNat, List.mem_map, List.mem_range]
  constructor
  · rintro ⟨k, hk, rfl⟩
    refine ⟨k, rfl, ?_⟩
    have : k + 1 ≤ (b - a + step - 1) / step := hk
    rw [Nat.le_div_iff_mul_le hs] at this
    have h1 : (k + 1) * step = k * step + step := by ring
    omega
  · rintro ⟨k, rfl, hk⟩
    refine ⟨k, ?_, rfl⟩
    have : k + 1 ≤ (b - a + step - 1) / step := by
      rw [Nat.le_div_iff_mul_le hs]
      have h1 : (k + 1) * step = k * step + step := by ring
      omega
    exact this

theorem arangeNat_steps (a b step : Nat) :
    (arangeNat a b step).Pairwise (fun x y => x + step ≤ y) := by
  unfold arangeNat
  rw [List.pairwise_map]
  refine List.Pairwise.imp ?_ List.pairwise_lt_range
  intro i j hij
  have h := Nat.mul_le_mul_right step (show i + 1 ≤ j from hij)
  have h1 : (i + 1) * step = i * step + step := by ring
  omega

/-! ### searchsorted on sorted lists -/

theorem searchsortedLeft_take (l : List K) (hs : l.Pairwise (· ≤ ·)) (v : K) :
    l.take (searchsortedLeft l v) = l.filter (fun x => decide (x < v)) := by
  induction l with
  | nil => rfl
  | cons a l ih =>
    have hp := List.pairwise_cons.1 hs
    unfold searchsortedLeft at ih ⊢
    by_cases h : a < v
    · simp only [List.filter_cons, h, decide_true, if_true, List.length_cons, List.take_succ_cons]
      rw [ih hp.2]
    · have hnil : l.filter (fun x => decide (x < v)) = [] := by
        rw [List.filter_eq_nil_iff]
        intro x hx
        have := hp.1 x hx
        simp; linarith [not_lt.1 h]
      simp [List.filter_cons, h, hnil]

theorem searchsortedLeft_drop (l : List K) (hs : l.Pairwise (· ≤ ·)) (v : K) :
    l.drop (searchsortedLeft l v) = l.filter (fun x => decide (v ≤ x)) := by
  induction l with
  | nil => rfl
  | cons a l ih =>
    have hp := List.pairwise_cons.1 hs
    unfold searchsortedLeft at ih ⊢
    by_cases h : a < v
    · simp only [List.filter_cons, h, decide_true, if_true, List.length_cons, List.drop_succ_cons]
      rw [ih hp.2]
      simp [not_le.2 h]
    · have hnil : l.filter (fun x => decide (x < v)) = [] := by
        rw [List.filter_eq_nil_iff]
        intro x hx
        have := hp.1 x hx
        simp; linarith [not_lt.1 h]
      have hall : (a :: l).filter (fun x => decide (v ≤ x)) = a :: l := by
        rw [List.filter_eq_self]
        intro x hx
        rcases List.mem_cons.1 hx with rfl | hx
        · simpa using h
        · have := hp.1 x hx
          simp; linarith [not_lt.1 h]
      rw [hall]
      simp [List.filter_cons, h, hnil]

theorem searchsortedLeft_le (l : List K) (v : K) : searchsortedLeft l v ≤ l.length :=
  List.length_filter_le _ _

theorem searchsortedLeft_mono (l : List K) {v w : K} (h : v ≤ w) :
    searchsortedLeft l v ≤ searchsortedLeft l w := by
  unfold searchsortedLeft
  induction l with
  | nil => simp
  | cons a l ih =>
    by_cases h1 : a < v
    · have h2 : a < w := lt_of_lt_of_le h1 h
      simp [List.filter_cons, h1, h2, ih]
    · by_cases h2 : a < w
      · simp only [List.filter_cons, h1, h2, decide_true, decide_false, if_true]
        simp; omega
      · simp [List.filter_cons, h1, h2, ih]

/-- index form: entry `i` is below `v` exactly when `i` is before the insertion point -/
theorem lt_searchsortedLeft_iff (l : List K) (hs : l.Pairwise (· ≤ ·)) (v : K) (i : Nat) (t : K)
    (ht : l[i]? = some t) : i < searchsortedLeft l v ↔ t < v := by
  have hsplit : l = l.take (searchsortedLeft l v) ++ l.drop (searchsortedLeft l v) :=
    (List.take_append_drop _ _).symm
  have hle := searchsortedLeft_le l v
  constructor
  · intro h
    have : t ∈ l.take (searchsortedLeft l v) := by
      apply List.mem_of_getElem? (i := i)
      rw [List.getElem?_take_of_lt h]; exact ht
    rw [searchsortedLeft_take l hs] at this
    simpa using (List.mem_filter.1 this).2
  · intro h
    by_contra hcon
    have : t ∈ l.drop (searchsortedLeft l v) := by
      apply List.mem_of_getElem? (i := i - searchsortedLeft l v)
      rw [List.getElem?_drop]
      rw [show searchsortedLeft l v + (i - searchsortedLeft l v) = i by omega]; exact ht
    rw [searchsortedLeft_drop l hs] at this
    have := (List.mem_filter.1 this).2
    simp at this
    exact absurd h (not_lt.2 this)

/-! ### bins of one GTI -/

/-- meaning of the bin range of one GTI, for increasing times -/
theorem gtiBorderBinsOne_spec (time : List K) (hs : time.Pairwise (· < ·)) (g0 g1 : K) (a b : Nat)
    (h : gtiBorderBinsOne time g0 g1 = .ok (a, b)) (i : Nat) (t : K) (ht : time[i]? = some t) :
    (a ≤ i ∧ i < b) ↔ (g0 ≤ t ∧ t ≤ g1) := by
  have hs' : time.Pairwise (· ≤ ·) := hs.imp le_of_lt
  unfold gtiBorderBinsOne at h
  simp only at h
  have hi : i < time.length := by
    by_contra hcon
    rw [List.getElem?_eq_none (not_lt.1 hcon)] at ht; simp at ht
  have hn0 : time.length ≠ 0 := by omega
  have hstop0 : min (searchsortedLeft time g1 + 1) time.length ≠ 0 := by omega
  rw [if_neg hstop0] at h
  have l0 := lt_searchsortedLeft_iff time hs' g0
  have l1 := lt_searchsortedLeft_iff time hs' g1
  rcases hts : time[searchsortedLeft time g0]? with _ | ts
  · rw [hts] at h; simp at h
  rcases hte : time[min (searchsortedLeft time g1 + 1) time.length - 1]? with _ | te
  · rw [hts, hte] at h; simp at h
  rw [hts, hte] at h
  simp only [Except.ok.injEq, Prod.mk.injEq] at h
  obtain ⟨h1, h2⟩ := h
  have hts0 : ¬ ts < g0 := by
    intro hcon
    have := (l0 _ _ hts).2 hcon
    omega
  rw [if_neg hts0] at h1
  subst h1
  have ha : searchsortedLeft time g0 ≤ i ↔ g0 ≤ t := by
    rw [← not_lt, l0 i t ht, not_lt]
  rw [ha]
  refine and_congr_right ?_
  intro _
  have hle := searchsortedLeft_le time g1
  rcases Nat.eq_or_lt_of_le hle with heq | hlt
  · -- all samples before g1
    have hst : min (searchsortedLeft time g1 + 1) time.length = time.length := by omega
    rw [hst] at hte h2
    have hte' := (l1 _ _ hte).1 (by omega)
    rw [if_neg (not_lt.2 hte'.le)] at h2
    have := (l1 i t ht).1 (by omega)
    constructor
    · intro _; exact this.le
    · intro _; omega
  · have hst : min (searchsortedLeft time g1 + 1) time.length = searchsortedLeft time g1 + 1 := by omega
    rw [hst] at hte h2
    have hidx : searchsortedLeft time g1 + 1 - 1 = searchsortedLeft time g1 := by omega
    rw [hidx] at hte
    have hge : g1 ≤ te := by
      by_contra hcon
      have := (l1 _ _ hte).2 (not_le.1 hcon)
      omega
    split_ifs at h2 with hlt'
    · rw [← h2, hidx, l1 i t ht]
      constructor
      · exact le_of_lt
      · intro h3
        rcases eq_or_lt_of_le h3 with h4 | h4
        · exfalso
          have hil : ¬ i < searchsortedLeft time g1 := by rw [l1 i t ht, h4]; exact lt_irrefl _
          -- then time[i] ≥ te > g1
          have hmono : te ≤ t := by
            rcases Nat.eq_or_lt_of_le (not_lt.1 hil) with h5 | h5
            · rw [← h5, hte] at ht; cases ht; exact le_rfl
            · have h6 := List.pairwise_iff_getElem.1 hs' (searchsortedLeft time g1) i hlt hi h5
              rw [List.getElem?_eq_getElem hlt] at hte
              rw [List.getElem?_eq_getElem hi] at ht
              cases hte; cases ht; exact h6
          linarith
        · exact h4
    · have hteq : te = g1 := le_antisymm (not_lt.1 hlt') hge
      rw [← h2]
      constructor
      · intro h3
        rcases Nat.eq_or_lt_of_le (Nat.lt_succ_iff.1 h3) with h4 | h4
        · rw [h4, hte] at ht; cases ht; exact hteq.le
        · exact ((l1 i t ht).1 h4).le
      · intro h3
        by_contra hcon
        have h5 : searchsortedLeft time g1 < i := by omega
        have h6 := List.pairwise_iff_getElem.1 hs (searchsortedLeft time g1) i hlt hi h5
        rw [List.getElem?_eq_getElem hlt] at hte
        rw [List.getElem?_eq_getElem hi] at ht
        cases hte; cases ht
        linarith

theorem gtiBorderBinsOne_le (time : List K) (g0 g1 : K) (a b : Nat)
    (h : gtiBorderBinsOne time g0 g1 = .ok (a, b)) : b ≤ time.length := by
  unfold gtiBorderBinsOne at h
  simp only at h
  split at h
  · simp only [Except.ok.injEq, Prod.mk.injEq] at h
    obtain ⟨_, h2⟩ := h
    split_ifs at h2 <;> omega
  · simp at h

/-! ### starts of the segments -/

theorem calculateSegmentBinStart_ok (a b nbin step : Nat) (hs : 0 < step) (hab : a < b) :
    ∃ st, calculateSegmentBinStart a b nbin step = .ok st := by
  unfold calculateSegmentBinStart
  rw [if_neg (by omega)]
  have hmem : a ∈ arangeNat a b step := (mem_arangeNat a b step a hs).2 ⟨0, by simp, hab⟩
  rcases hl : (arangeNat a b step).getLast? with _ | last
  · rw [List.getLast?_eq_none_iff] at hl
    rw [hl] at hmem; simp at hmem
  · simp only [hl]; exact ⟨_, rfl⟩

/-- all the starts returned leave room for `nbin` bins, when the step is at least `nbin` -/
theorem calculateSegmentBinStart_spec (a b nbin step : Nat) (hn : 0 < nbin) (hs : nbin ≤ step)
    (st : List Nat) (h : calculateSegmentBinStart a b nbin step = .ok st) (s : Nat) :
    s ∈ st ↔ ∃ k : Nat, s = a + k * step ∧ s + nbin ≤ b := by
  have hs0 : 0 < step := by omega
  unfold calculateSegmentBinStart at h
  rw [if_neg (by omega)] at h
  simp only at h
  rcases hl : (arangeNat a b step).getLast? with _ | last
  · rw [hl] at h; simp at h
  rw [hl] at h
  simp only [Except.ok.injEq] at h
  have hne : arangeNat a b step ≠ [] := by
    intro hcon; rw [hcon] at hl; simp at hl
  have hlast : (arangeNat a b step).getLast hne = last := by
    rw [List.getLast?_eq_getLast_of_ne_nil hne] at hl; simpa using hl
  have hd := List.dropLast_append_getLast hne
  rw [hlast] at hd
  have hst := arangeNat_steps a b step
  rw [← hd] at hst
  have hbefore : ∀ x ∈ (arangeNat a b step).dropLast, x + step ≤ last := fun x hx =>
    (List.pairwise_append.1 hst).2.2 x hx last (by simp)
  have hlastmem : last ∈ arangeNat a b step := List.mem_of_getLast? hl
  obtain ⟨kl, hkl, hlb⟩ := (mem_arangeNat a b step last hs0).1 hlastmem
  have hmem : s ∈ arangeNat a b step ↔ s ∈ (arangeNat a b step).dropLast ∨ s = last := by
    conv_lhs => rw [← hd]
    simp
  split_ifs at h with hover
  · subst h
    constructor
    · intro hx
      obtain ⟨k, hk, _⟩ := (mem_arangeNat a b step s hs0).1 (hmem.2 (Or.inl hx))
      exact ⟨k, hk, by have := hbefore s hx; omega⟩
    · rintro ⟨k, hk, hsb⟩
      rcases hmem.1 ((mem_arangeNat a b step s hs0).2 ⟨k, hk, by omega⟩) with h | h
      · exact h
      · omega
  · subst h
    constructor
    · intro hx
      obtain ⟨k, hk, _⟩ := (mem_arangeNat a b step s hs0).1 hx
      refine ⟨k, hk, ?_⟩
      rcases hmem.1 hx with h | h
      · have := hbefore s h; omega
      · omega
    · rintro ⟨k, hk, hsb⟩
      exact (mem_arangeNat a b step s hs0).2 ⟨k, hk, by omega⟩

theorem calculateSegmentBinStart_steps (a b nbin step : Nat)
    (st : List Nat) (h : calculateSegmentBinStart a b nbin step = .ok st) :
    st.Pairwise (fun x y => x + step ≤ y) := by
  have hp := arangeNat_steps a b step
  unfold calculateSegmentBinStart at h
  split_ifs at h with h0
  simp only at h
  rcases hl : (arangeNat a b step).getLast? with _ | last
  · rw [hl] at h; simp at h
  rw [hl] at h
  simp only [Except.ok.injEq] at h
  subst h
  split_ifs
  · exact hp.sublist (List.dropLast_sublist _)
  · exact hp

/-! ### `mapM` in `Except` -/

theorem mapM_ok_forall2 {α β ε : Type} (f : α → Except ε β) (l : List α) (r : List β)
    (h : l.mapM f = .ok r) : List.Forall₂ (fun a b => f a = .ok b) l r := by
  induction l generalizing r with
  | nil => simp [pure, Except.pure] at h; subst h; exact List.Forall₂.nil
  | cons a l ih =>
    rw [List.mapM_cons] at h
    rcases hf : f a with e | b
    · simp [hf, bind, Except.bind] at h
    · rcases hm : l.mapM f with e | bs
      · simp [hf, hm, bind, Except.bind] at h
      · simp [hf, hm, bind, Except.bind, pure, Except.pure] at h
        subst h
        exact List.Forall₂.cons hf (ih bs hm)

theorem mapM_ok_of_forall {α β ε : Type} (f : α → Except ε β) (l : List α)
    (h : ∀ a ∈ l, ∃ b, f a = .ok b) : ∃ r, l.mapM f = .ok r := by
  induction l with
  | nil => exact ⟨[], rfl⟩
  | cons a l ih =>
    obtain ⟨b, hb⟩ := h a (by simp)
    obtain ⟨r, hr⟩ := ih (fun c hc => h c (by simp [hc]))
    exact ⟨b :: r, by rw [List.mapM_cons]; simp [hb, hr, bind, Except.bind, pure, Except.pure]⟩

theorem forall2_mem_right {α β : Type} {R : α → β → Prop} {l : List α} {r : List β}
    (h : List.Forall₂ R l r) {b : β} (hb : b ∈ r) : ∃ a ∈ l, R a b := by
  induction h with
  | nil => simp at hb
  | cons hab _ ih =>
    rcases List.mem_cons.1 hb with rfl | hb
    · exact ⟨_, by simp, hab⟩
    · obtain ⟨a, ha, h⟩ := ih hb
      exact ⟨a, by simp [ha], h⟩

theorem forall2_mem_left {α β : Type} {R : α → β → Prop} {l : List α} {r : List β}
    (h : List.Forall₂ R l r) {a : α} (ha : a ∈ l) : ∃ b ∈ r, R a b := by
  induction h with
  | nil => simp at ha
  | cons hab _ ih =>
    rcases List.mem_cons.1 ha with rfl | ha
    · exact ⟨_, by simp, hab⟩
    · obtain ⟨b, hb, h⟩ := ih ha
      exact ⟨b, by simp [hb], h⟩

/-! ### slicing at indices -/

theorem take_drop_glue {α : Type} (l : List α) (p i m : Nat) (h1 : p ≤ i) (h2 : i ≤ m) :
    (l.take i).drop p ++ (l.take m).drop i = (l.take m).drop p := by
  have e : l.take i = (l.take m).take i := by rw [List.take_take, Nat.min_eq_left h2]
  rw [e]
  generalize l.take m = L
  conv_rhs => rw [← List.take_append_drop i L]
  rw [List.drop_append]
  rcases Nat.lt_or_ge i L.length with h | h
  · rw [show p - (L.take i).length = 0 by simp; omega]; simp
  · rw [List.drop_eq_nil_of_le h]; simp

theorem splitLoop_spec (gtis : List (K × K)) (prev : Nat) (idx : List Nat) (last : Nat)
    (hs : (prev :: idx).Pairwise (· ≤ ·)) (hl : idx.getLast? = some last) :
    (splitLoop gtis prev idx).2 = last ∧
      (splitLoop gtis prev idx).1.flatten = (gtis.take last).drop prev := by
  induction idx generalizing prev with
  | nil => simp at hl
  | cons i is ih =>
    have hp := List.pairwise_cons.1 hs
    have hpi : prev ≤ i := hp.1 i (by simp)
    cases is with
    | nil =>
      simp at hl; subst hl
      simp [splitLoop]
    | cons j js =>
      have hl' : (j :: js).getLast? = some last := by simpa using hl
      obtain ⟨h1, h2⟩ := ih i hp.2 hl'
      rw [splitLoop]
      refine ⟨h1, ?_⟩
      have hil : i ≤ last := (List.pairwise_cons.1 hp.2).1 last (List.mem_of_getLast? hl')
      simp only [List.flatten_cons]
      rw [h2]
      exact take_drop_glue gtis prev i last hpi hil

/-! ### cutting at consecutive edges -/

theorem covers_edges (a : K) (rest : List K) (hne : rest ≠ []) (hs : (a :: rest).Pairwise (· ≤ ·))
    (x : K) : Covers (List.zip (a :: rest).dropLast rest) x ↔ (a ≤ x ∧ x ≤ rest.getLast hne) := by
  induction rest generalizing a with
  | nil => exact absurd rfl hne
  | cons b rest ih =>
    have hp := List.pairwise_cons.1 hs
    cases rest with
    | nil => simp [Covers]
    | cons c rest =>
      have := ih b (by simp) hp.2
      have hb : b ≤ (c :: rest).getLast (by simp) :=
        (List.pairwise_cons.1 hp.2).1 _ (List.getLast_mem _)
      have hab : a ≤ b := hp.1 b (by simp)
      have e : Covers (List.zip (a :: b :: c :: rest).dropLast (b :: c :: rest)) x ↔
          (a ≤ x ∧ x ≤ b) ∨ Covers (List.zip (b :: c :: rest).dropLast (c :: rest)) x := by
        simp [Covers]
      rw [e, this, List.getLast_cons (a := b) (List.cons_ne_nil c rest)]
      constructor
      · rintro (⟨h1, h2⟩ | ⟨h1, h2⟩)
        · exact ⟨h1, h2.trans hb⟩
        · exact ⟨hab.trans h1, h2⟩
      · rintro ⟨h1, h2⟩
        rcases le_total x b with h | h
        · exact Or.inl ⟨h1, h⟩
        · exact Or.inr ⟨h, h2⟩

theorem exposure_edges (a : K) (rest : List K) (hne : rest ≠ []) :
    exposure (List.zip (a :: rest).dropLast rest) = rest.getLast hne - a := by
  induction rest generalizing a with
  | nil => exact absurd rfl hne
  | cons b rest ih =>
    cases rest with
    | nil => simp [exposure]
    | cons c rest =>
      have := ih b (by simp)
      have e : exposure (List.zip (a :: b :: c :: rest).dropLast (b :: c :: rest)) =
          (b - a) + exposure (List.zip (b :: c :: rest).dropLast (c :: rest)) := by
        simp [exposure]
      rw [e, this, List.getLast_cons (a := b) (List.cons_ne_nil c rest)]
      ring

theorem cutGti_spec [FloorRing K] (chunk : K) (hc : 0 < chunk) (g : K × K) (hg : g.1 ≤ g.2) :
    (∀ x, Covers (cutGti chunk g) x ↔ (g.1 ≤ x ∧ x ≤ g.2)) ∧
      exposure (cutGti chunk g) = g.2 - g.1 ∧ (∀ p ∈ cutGti chunk g, p.1 ≤ p.2) := by
  unfold cutGti
  split_ifs with h
  · have hpos : g.1 < g.2 := by linarith
    have hmem : g.1 ∈ arange g.1 g.2 chunk := (mem_arange _ _ _ _ hc).2 ⟨0, by simp, hpos⟩
    have hlt : ∀ y ∈ arange g.1 g.2 chunk, y < g.2 := fun y hy => by
      obtain ⟨_, _, h⟩ := (mem_arange _ _ _ _ hc).1 hy; exact h
    have hsort : (arange g.1 g.2 chunk).Pairwise (· ≤ ·) :=
      (arange_steps _ _ _ hc).imp (fun {x y} h => by linarith)
    have hhead : ∃ r, arange g.1 g.2 chunk = g.1 :: r := by
      unfold arange at hmem ⊢
      rcases hn : ⌈(g.2 - g.1) / chunk⌉₊ with _ | n
      · rw [hn] at hmem; simp at hmem
      · rw [List.range_succ_eq_map]; exact ⟨_, by simp; rfl⟩
    obtain ⟨r, hr⟩ := hhead
    rw [hr] at hsort hlt ⊢
    obtain ⟨l, hl⟩ : ∃ l, (g.1 :: r).getLast? = some l := ⟨_, List.getLast?_eq_getLast_of_ne_nil (by simp)⟩
    have hll : l < g.2 := hlt l (List.mem_of_getLast? hl)
    simp only [hl, hll, if_true]
    have hsort' : (g.1 :: (r ++ [g.2])).Pairwise (· ≤ ·) := by
      rw [← List.cons_append]
      refine List.pairwise_append.2 ⟨hsort, by simp, ?_⟩
      intro y hy z hz
      simp only [List.mem_singleton] at hz
      subst hz; exact (hlt y hy).le
    have hlast : (r ++ [g.2]).getLast (by simp) = g.2 := by simp
    refine ⟨?_, ?_, ?_⟩
    · intro x
      have := covers_edges g.1 (r ++ [g.2]) (by simp) hsort' x
      rw [hlast] at this
      simpa using this
    · have := exposure_edges g.1 (r ++ [g.2]) (by simp)
      rw [hlast] at this
      simpa using this
    · have key : ∀ (a : K) (rest : List K), (a :: rest).Pairwise (· ≤ ·) →
          ∀ p ∈ List.zip (a :: rest).dropLast rest, p.1 ≤ p.2 := by
        intro a rest
        induction rest generalizing a with
        | nil => simp
        | cons b rest ih =>
          intro hs p hp
          have h1 := List.pairwise_cons.1 hs
          rw [List.dropLast_cons₂, List.zip_cons_cons] at hp
          rcases List.mem_cons.1 hp with rfl | hp
          · exact h1.1 b (by simp)
          · exact ih b h1.2 p hp
      intro p hp
      exact key g.1 (r ++ [g.2]) hsort' p (by simpa using hp)
  · refine ⟨fun x => by simp [Covers], by simp [exposure], ?_⟩
    intro p hp; simp only [List.mem_singleton] at hp; subst hp; exact hg

theorem cut_all_spec [FloorRing K] (chunk : K) (hc : 0 < chunk) (l : List (K × K))
    (hl : ∀ g ∈ l, g.1 ≤ g.2) :
    (∀ x, Covers (l.flatMap (cutGti chunk)) x ↔ Covers l x) ∧
      exposure (l.flatMap (cutGti chunk)) = exposure l ∧
      (∀ p ∈ l.flatMap (cutGti chunk), p.1 ≤ p.2) := by
  induction l with
  | nil => simp [Covers, exposure]
  | cons g l ih =>
    obtain ⟨i1, i2, i3⟩ := ih (fun k hk => hl k (by simp [hk]))
    obtain ⟨c1, c2, c3⟩ := cutGti_spec chunk hc g (hl g (by simp))
    refine ⟨?_, ?_, ?_⟩
    · intro x
      have : Covers ((g :: l).flatMap (cutGti chunk)) x ↔
          Covers (cutGti chunk g) x ∨ Covers (l.flatMap (cutGti chunk)) x := by
        simp only [List.flatMap_cons, Covers, List.mem_append]
        constructor
        · rintro ⟨p, hp | hp, h⟩
          · exact Or.inl ⟨p, hp, h⟩
          · exact Or.inr ⟨p, hp, h⟩
        · rintro (⟨p, hp, h⟩ | ⟨p, hp, h⟩)
          · exact ⟨p, Or.inl hp, h⟩
          · exact ⟨p, Or.inr hp, h⟩
      rw [this, c1, i1]
      simp [Covers]
    · simp only [List.flatMap_cons]
      have : exposure (cutGti chunk g ++ l.flatMap (cutGti chunk)) =
        exposure (cutGti chunk g) + exposure (l.flatMap (cutGti chunk)) := by simp [exposure]
      rw [this, c2, i2]; simp [exposure]
    · intro p hp
      simp only [List.flatMap_cons, List.mem_append] at hp
      rcases hp with h | h
      · exact c3 p h
      · exact i3 p h

end Stingray.Gti

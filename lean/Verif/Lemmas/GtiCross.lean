import Verif.Lemmas.GtiBasic

/-! Helper lemmas for `cross_two_gtis`. -/

namespace Stingray.Gti

set_option linter.unusedSectionVars false

open Stingray.Spec

variable {K : Type} [Field K] [LinearOrder K] [IsStrictOrderedRing K]

theorem argmax?_lt {K : Type} [LinearOrder K] (l : List K) (i : Nat) (h : argmax? l = some i) :
    i < l.length := by
  induction l generalizing i with
  | nil => simp [argmax?] at h
  | cons x xs ih =>
    unfold argmax? at h
    split at h
    · simp at h; subst h; simp
    · rename_i j hj
      have := ih j hj
      split_ifs at h <;> simp at h <;> subst h <;> simp [this]

theorem argmax?_eq_none {K : Type} [LinearOrder K] (l : List K) : argmax? l = none ↔ l = [] := by
  cases l with
  | nil => simp [argmax?]
  | cons x xs =>
    unfold argmax?
    split
    · simp
    · split_ifs <;> simp

theorem lastStartBefore_cons (a : K × K) (l : List (K × K)) (e : K)
    (h : (a :: l).Pairwise (fun u v => u.1 < v.1)) :
    lastStartBefore (a :: l) e =
      if a.1 < e then some ((lastStartBefore l e).getD a) else none := by
  have hp := List.pairwise_cons.1 h
  unfold lastStartBefore
  by_cases hae : a.1 < e
  · simp only [List.map_cons, List.filter_cons, hae, decide_true, if_true]
    rcases hm : argmax? ((l.map Prod.fst).filter (fun s => decide (s < e))) with _ | i
    · have hnil := (argmax?_eq_none _).1 hm
      simp [argmax?, hm]
    · have hi := argmax?_lt _ _ hm
      have hmem : ∀ y ∈ (l.map Prod.fst).filter (fun s => decide (s < e)), a.1 < y := by
        intro y hy
        have := (List.mem_filter.1 hy).1
        obtain ⟨b, hb, rfl⟩ := List.mem_map.1 this
        exact hp.1 b hb
      have hgt : ¬ ((l.map Prod.fst).filter (fun s => decide (s < e))).getD i a.1 ≤ a.1 := by
        rw [List.getD_eq_getElem?_getD, List.getElem?_eq_getElem hi, Option.getD_some]
        exact not_le.2 (hmem _ (List.getElem_mem hi))
      have hil : i < l.length := by
        have := List.length_filter_le (fun s => decide (s < e)) (l.map Prod.fst)
        simp at this hi ⊢; omega
      simp only [argmax?, hm, hgt, if_false]
      simp [hil]
  · have : (((a :: l).map Prod.fst).filter (fun s => decide (s < e))) = [] := by
      rw [List.filter_eq_nil_iff]
      intro y hy
      obtain ⟨b, hb, rfl⟩ := List.mem_map.1 hy
      rcases List.mem_cons.1 hb with rfl | hb
      · simpa using hae
      · have := hp.1 b hb
        simp; exact le_trans (not_lt.1 hae) this.le
    rw [this]
    simp [argmax?, hae]

theorem lastStartBefore_spec (l : List (K × K)) (e : K)
    (h : l.Pairwise (fun u v => u.1 < v.1)) :
    match lastStartBefore l e with
    | none => ∀ g ∈ l, e ≤ g.1
    | some t => t ∈ l ∧ t.1 < e ∧ ∀ g ∈ l, g.1 < e → g.1 ≤ t.1 := by
  induction l with
  | nil => simp [lastStartBefore, argmax?]
  | cons a l ih =>
    have hp := List.pairwise_cons.1 h
    have := ih hp.2
    rw [lastStartBefore_cons a l e h]
    by_cases hae : a.1 < e
    · simp only [hae, if_true]
      rcases hl : lastStartBefore l e with _ | t
      · rw [hl] at this
        simp only at this
        refine ⟨by simp, by simpa using hae, ?_⟩
        intro g hg hge
        rcases List.mem_cons.1 hg with rfl | hg
        · simp
        · exact absurd (this g hg) (not_le.2 hge)
      · rw [hl] at this
        simp only [Option.getD_some]
        refine ⟨by simp [this.1], this.2.1, ?_⟩
        intro g hg hge
        rcases List.mem_cons.1 hg with rfl | hg
        · exact (hp.1 t this.1).le
        · exact this.2.2 g hg hge
    · simp only [hae, if_false]
      intro g hg
      rcases List.mem_cons.1 hg with rfl | hg
      · exact not_lt.1 hae
      · exact le_trans (not_lt.1 hae) (hp.1 g hg).le

theorem sep_starts {l : List (K × K)} (h : StrictlySeparated l) :
    l.Pairwise (fun u v => u.1 < v.1) := by
  refine List.Pairwise.imp_of_mem ?_ h.2
  intro a b ha _ hab
  exact (h.1 a ha).trans hab

theorem sep_cases {l : List (K × K)} (h : StrictlySeparated l) {g k : K × K} (hg : g ∈ l)
    (hk : k ∈ l) : g = k ∨ g.2 < k.1 ∨ k.2 < g.1 := by
  have h2 := h.2
  clear h
  induction l with
  | nil => simp at hg
  | cons a l ih =>
    have hp := List.pairwise_cons.1 h2
    rcases List.mem_cons.1 hg with hga | hg <;> rcases List.mem_cons.1 hk with hka | hk
    · exact Or.inl (hga.trans hka.symm)
    · exact Or.inr (Or.inl (hga ▸ hp.1 k hk))
    · exact Or.inr (Or.inr (hka ▸ hp.1 g hg))
    · exact ih hg hk hp.2

theorem sep_nodup {l : List (K × K)} (h : StrictlySeparated l) : l.Nodup := by
  refine (sep_starts h).imp ?_
  rintro a b hab rfl
  exact lt_irrefl _ hab

theorem lastStart_self {l : List (K × K)} (h : StrictlySeparated l) {g : K × K} (hg : g ∈ l) :
    lastStartBefore l g.2 = some g := by
  have := lastStartBefore_spec l g.2 (sep_starts h)
  rcases hl : lastStartBefore l g.2 with _ | t
  · rw [hl] at this
    exact absurd (this g hg) (not_le.2 (h.1 g hg))
  · rw [hl] at this
    obtain ⟨h1, h2, h3⟩ := this
    rcases sep_cases h h1 hg with rfl | h4 | h4
    · rfl
    · have := h3 g hg (h.1 g hg)
      have := h.1 t h1
      linarith
    · linarith

/-- the interval that the loop builds for an entry, if the other series is open at its end:
`(max start otherStart, end)` -/
def Genuine (A B : List (K × K)) (c : (K × K) × Bool) (p : K × K) : Prop :=
  ∃ o ∈ (if c.2 then A else B), o.1 < c.1.2 ∧ c.1.2 ≤ o.2 ∧ p = (max c.1.1 o.1, c.1.2)

/-- what may be emitted wrongly: the other series closed exactly where this interval opens -/
def Spurious (A B : List (K × K)) (c : (K × K) × Bool) (p : K × K) : Prop :=
  ∃ o ∈ (if c.2 then A else B), o.2 = c.1.1 ∧ p = c.1 ∧
    ∀ g ∈ (if c.2 then A else B), g.1 < c.1.2 → g.1 ≤ o.1

/-- entries of the concatenated arrays -/
def Entry (A B : List (K × K)) (c : (K × K) × Bool) : Prop :=
  c.1 ∈ (if c.2 then B else A)

section step

variable {A B : List (K × K)} (hA : StrictlySeparated A) (hB : StrictlySeparated B)
include hA hB

theorem this_sep (b : Bool) : StrictlySeparated (if b then B else A) := by
  cases b <;> simp [hA, hB]

theorem other_sep (b : Bool) : StrictlySeparated (if b then A else B) := by
  cases b <;> simp [hA, hB]

/-- one step: either nothing is emitted, and then nothing genuine was due unless it starts inside
the last interval; or the emitted interval is genuine or spurious. -/
theorem crossStep_cases (maxEnd : K) (st : K × List (K × K)) (c : (K × K) × Bool)
    (hc : Entry A B c) (hmax : (∃ p, Genuine A B c p) → c.1.2 ≤ maxEnd) :
    (crossStep A B maxEnd st c = st ∧ ∀ p, Genuine A B c p → p.1 ≤ st.1) ∨
    (∃ p, crossStep A B maxEnd st c = (c.1.2, st.2 ++ [p]) ∧ st.1 < p.1 ∧ p.1 < p.2 ∧ p.2 = c.1.2 ∧
      (Genuine A B c p ∨ Spurious A B c p) ∧ ∀ q, Genuine A B c q → q = p) := by
  obtain ⟨⟨s0, e⟩, tag⟩ := c
  have hT := this_sep hA hB tag
  have hO := other_sep hA hB tag
  have hself : lastStartBefore (if tag then B else A) e = some (s0, e) := lastStart_self hT hc
  have hpos : s0 < e := hT.1 _ hc
  have hspec := lastStartBefore_spec _ e (sep_starts hO)
  unfold crossStep
  simp only [hself]
  rcases hl : lastStartBefore (if tag then A else B) e with _ | o
  · left
    rw [hl] at hspec
    refine ⟨by simp, ?_⟩
    rintro p ⟨o, ho, h1, _⟩
    exact absurd (hspec o ho) (not_le.2 h1)
  · rw [hl] at hspec
    obtain ⟨ho, hoe, hmaxo⟩ := hspec
    have hopos := hO.1 o ho
    simp only
    -- genuine intervals come from `o` only
    have huniq : ∀ p, Genuine A B ((s0, e), tag) p → e ≤ o.2 ∧ p = (max s0 o.1, e) := by
      rintro p ⟨o', ho', h1, h2, rfl⟩
      have : o' = o := by
        rcases sep_cases hO ho' ho with h | h | h
        · exact h
        · dsimp at h2; linarith
        · have := hmaxo o' ho' h1; linarith
      subst this
      exact ⟨h2, rfl⟩
    by_cases hs : max s0 o.1 ≤ st.1
    · left
      simp only [hs, if_true, true_and]
      intro p hp
      rw [(huniq p hp).2]
      exact hs
    · simp only [hs, if_false]
      have hse : max s0 o.1 < e := max_lt hpos hoe
      by_cases hgen : e ≤ o.2
      · have hG : Genuine A B ((s0, e), tag) (max s0 o.1, e) := ⟨o, ho, hoe, hgen, rfl⟩
        have hm : e ≤ maxEnd := hmax ⟨_, hG⟩
        right
        have hc1 : (if tag then A else B).any
            (fun g => decide (max s0 o.1 < g.2) && decide (g.2 < e)) = false := by
          rw [List.any_eq_false]
          intro g hg hcon
          simp only [Bool.and_eq_true, decide_eq_true_eq] at hcon
          rcases sep_cases hO hg ho with h | h | h
          · subst h; linarith [hcon.2]
          · have := le_max_right s0 o.1; linarith [hcon.1]
          · have := hO.1 g hg; linarith [hcon.2]
        have hc2 : ¬ o.2 < max s0 o.1 := by linarith [hse]
        refine ⟨(max s0 o.1, e), ?_, not_le.1 hs, hse, rfl, Or.inl hG, ?_⟩
        · simp only [hc1, hc2, not_lt.2 hm, decide_false, Bool.or_false, Bool.false_eq_true, if_false]
        · intro q hq; exact (huniq q hq).2
      · have hnog : ∀ p, ¬ Genuine A B ((s0, e), tag) p := fun p hp => hgen (huniq p hp).1
        have hlt : o.2 < e := not_le.1 hgen
        by_cases hcond : ((if tag then A else B).any
            (fun g => decide (max s0 o.1 < g.2) && decide (g.2 < e)) || decide (o.2 < max s0 o.1) ||
            decide (maxEnd < e)) = true
        · left; rw [if_pos hcond]; exact ⟨rfl, fun p hp => absurd hp (hnog p)⟩
        · right
          rw [if_neg hcond]
          simp only [Bool.or_eq_true, decide_eq_true_eq, not_or, not_lt] at hcond
          obtain ⟨⟨h1, h2⟩, h3⟩ := hcond
          have heq : o.2 = max s0 o.1 := by
            by_contra hne
            have hlt2 : max s0 o.1 < o.2 := lt_of_le_of_ne h2 (Ne.symm hne)
            apply h1
            rw [List.any_eq_true]
            exact ⟨o, ho, by simp [hlt, hopos, lt_of_le_of_lt (le_max_left s0 o.1) hlt2]⟩
          have hs0 : max s0 o.1 = s0 := by
            rcases max_choice s0 o.1 with h | h
            · exact h
            · rw [h] at heq; linarith
          refine ⟨(max s0 o.1, e), rfl, not_le.1 hs, hse, rfl, Or.inr ⟨o, ho, ?_, ?_, hmaxo⟩, ?_⟩
          · rw [heq, hs0]
          · simp only; rw [hs0]
          · intro q hq; exact absurd hq (hnog q)

/-- a genuine interval never starts inside an earlier emitted one, unless it is the same one -/
theorem genuine_after {c c' : (K × K) × Bool} {p p' : K × K} (hc : Entry A B c) (hc' : Entry A B c')
    (hp : Genuine A B c p) (hp' : Genuine A B c' p' ∨ Spurious A B c' p')
    (hlt : c'.1.2 ≤ c.1.2) (hne : c ≠ c') : c'.1.2 < p.1 ∨ (p = p' ) := by
  obtain ⟨o, ho, h1, h2, rfl⟩ := hp
  have hT := this_sep hA hB c.2
  have hO := other_sep hA hB c.2
  by_cases htag : c'.2 = c.2
  · -- same series
    unfold Entry at hc hc'
    rw [htag] at hc'
    rcases sep_cases hT hc' hc with h | h | h
    · exact absurd (Prod.ext h htag).symm hne
    · left; exact lt_of_lt_of_le h (le_max_left _ _)
    · have := hT.1 _ hc; linarith [hT.1 _ hc']
  · -- the other series
    have htag' : c'.2 = !c.2 := by
      revert htag; cases c.2 <;> cases c'.2 <;> simp
    have hc'O : c'.1 ∈ (if c.2 then A else B) := by
      unfold Entry at hc'
      rw [htag'] at hc'
      revert hc'; cases c.2 <;> simp
    have hpos' := hO.1 _ hc'O
    rcases sep_cases hO hc'O ho with h | h | h
    · -- c'.1 = o, so its end is the same
      right
      have he : c.1.2 = c'.1.2 := le_antisymm (by rw [h]; exact h2) hlt
      rcases hp' with ⟨o', ho', h1', h2', rfl⟩ | ⟨o', ho', h1', rfl, hmx⟩
      · have ho'T : o' ∈ (if c.2 then B else A) := by
          rw [htag'] at ho'; revert ho'; cases c.2 <;> simp
        have : o' = c.1 := by
          rcases sep_cases hT ho'T hc with h' | h' | h'
          · exact h'
          · have := hT.1 _ hc; linarith
          · linarith [hT.1 _ hc]
        rw [this, ← h, he, max_comm]
      · have ho'T : o' ∈ (if c.2 then B else A) := by
          rw [htag'] at ho'; revert ho'; cases c.2 <;> simp
        exfalso
        have hcT := hT.1 _ hc
        have hcm : c.1 ∈ (if c'.2 then A else B) := by
          rw [htag']; revert hc; unfold Entry; cases c.2 <;> simp
        have hle := hmx c.1 hcm (by rw [← he]; exact hcT)
        rcases sep_cases hT ho'T hc with h' | h' | h'
        · rw [h'] at h1'; linarith
        · have := hT.1 _ ho'T; linarith
        · linarith [hT.1 _ ho'T]
    · left; exact lt_of_lt_of_le h (le_max_right _ _)
    · exfalso; linarith

/-- invariant of the loop after the entries `pre` -/
structure CrossInv (A B : List (K × K)) (init : K) (pre : List ((K × K) × Bool))
    (st : K × List (K × K)) : Prop where
  complete : ∀ c ∈ pre, ∀ p, Genuine A B c p → p ∈ st.2
  sound : ∀ p ∈ st.2, ∃ c ∈ pre, Genuine A B c p ∨ Spurious A B c p
  last : (st.1 = init ∧ st.2 = []) ∨
    (∃ c ∈ pre, ∃ p ∈ st.2, (Genuine A B c p ∨ Spurious A B c p) ∧ c.1.2 = st.1 ∧
      ∀ q ∈ st.2, q.2 ≤ st.1)
  sep : StrictlySeparated st.2

theorem crossInv_step {maxEnd init : K} {pre : List ((K × K) × Bool)} {c : (K × K) × Bool}
    {st : K × List (K × K)} (hI : CrossInv A B init pre st)
    (hpre : ∀ d ∈ pre, Entry A B d ∧ d.1.2 ≤ c.1.2 ∧ c ≠ d) (hc : Entry A B c)
    (hmax : (∃ p, Genuine A B c p) → c.1.2 ≤ maxEnd)
    (hinit : ∀ p, Genuine A B c p → init < p.1) :
    CrossInv A B init (pre ++ [c]) (crossStep A B maxEnd st c) := by
  rcases crossStep_cases hA hB maxEnd st c hc hmax with ⟨h1, h2⟩ | ⟨p, h1, h2, h3, h4, h5, h6⟩
  · rw [h1]
    refine ⟨?_, ?_, ?_, hI.sep⟩
    · intro d hd q hq
      rcases List.mem_append.1 hd with hd | hd
      · exact hI.complete d hd q hq
      · simp only [List.mem_singleton] at hd
        subst hd
        have hle := h2 q hq
        rcases hI.last with ⟨hl, _⟩ | ⟨c', hc', p', hp', hgs, hl, _⟩
        · have := hinit q hq; rw [hl] at hle; exact absurd hle (not_le.2 this)
        · obtain ⟨e1, e2, e3⟩ := hpre c' hc'
          rcases genuine_after hA hB hc e1 hq hgs e2 e3 with h | h
          · rw [hl] at h; exact absurd hle (not_le.2 h)
          · exact h ▸ hp'
    · intro q hq
      obtain ⟨d, hd, h⟩ := hI.sound q hq
      exact ⟨d, by simp [hd], h⟩
    · rcases hI.last with h | ⟨c', hc', p', hp', hgs, hl, hq⟩
      · exact Or.inl h
      · exact Or.inr ⟨c', by simp [hc'], p', hp', hgs, hl, hq⟩
  · rw [h1]
    have hold : ∀ q ∈ st.2, q.2 ≤ st.1 := by
      rcases hI.last with ⟨_, h⟩ | ⟨c', hc', p', hp', hgs, hl, hq⟩
      · simp [h]
      · exact hq
    have hlast : ∀ q ∈ st.2, st.1 ≤ c.1.2 := by
      intro q hq
      rcases hI.last with ⟨_, h⟩ | ⟨c', hc', p', hp', hgs, hl, _⟩
      · simp [h] at hq
      · rw [← hl]; exact (hpre c' hc').2.1
    refine ⟨?_, ?_, ?_, ?_, ?_⟩
    · intro d hd q hq
      rcases List.mem_append.1 hd with hd | hd
      · have := hI.complete d hd q hq; simp [this]
      · simp only [List.mem_singleton] at hd
        subst hd
        simp [h6 q hq]
    · intro q hq
      rcases List.mem_append.1 hq with hq | hq
      · obtain ⟨d, hd, h⟩ := hI.sound q hq
        exact ⟨d, by simp [hd], h⟩
      · simp only [List.mem_singleton] at hq
        subst hq
        exact ⟨c, by simp, h5⟩
    · right
      refine ⟨c, by simp, p, by simp, h5, rfl, ?_⟩
      intro q hq
      rcases List.mem_append.1 hq with hq | hq
      · exact (hold q hq).trans (hlast q hq)
      · simp only [List.mem_singleton] at hq
        subst hq; exact h4.le
    · intro q hq
      rcases List.mem_append.1 hq with hq | hq
      · exact hI.sep.1 q hq
      · simp only [List.mem_singleton] at hq
        subst hq; exact h3
    · refine List.pairwise_append.2 ⟨hI.sep.2, by simp, ?_⟩
      intro a ha b hb
      simp only [List.mem_singleton] at hb
      subst hb
      exact lt_of_le_of_lt (hold a ha) h2

theorem crossInv_loop {maxEnd init : K} (l pre : List ((K × K) × Bool))
    {st : K × List (K × K)} (hI : CrossInv A B init pre st)
    (hent : ∀ d ∈ pre ++ l, Entry A B d)
    (hsort : (pre ++ l).Pairwise (fun a b => a.1.2 ≤ b.1.2)) (hnd : (pre ++ l).Nodup)
    (hmax : ∀ c ∈ pre ++ l, (∃ p, Genuine A B c p) → c.1.2 ≤ maxEnd)
    (hinit : ∀ c ∈ pre ++ l, ∀ p, Genuine A B c p → init < p.1) :
    CrossInv A B init (pre ++ l) (l.foldl (crossStep A B maxEnd) st) := by
  induction l generalizing pre st with
  | nil => simpa using hI
  | cons c l ih =>
    have hs := List.pairwise_append.1 hsort
    have hn := List.nodup_append.1 hnd
    have hstep := crossInv_step hA hB (maxEnd := maxEnd) hI (c := c) (fun d hd => ⟨hent d (by simp [hd]),
      hs.2.2 d hd c (by simp), fun h => hn.2.2 d hd c (by simp) h.symm⟩) (hent c (by simp))
      (hmax c (by simp)) (hinit c (by simp))
    have := ih (pre ++ [c]) hstep (by simpa using hent) (by simpa using hsort) (by simpa using hnd)
      (by simpa using hmax) (by simpa using hinit)
    simpa using this

end step

theorem dropLast_getLast_key {α : Type} {key : α → K} {l : List α}
    (hs : l.Pairwise (fun a b => key a ≤ key b)) {x y z : α} (hx : x ∈ l) (hy : y ∈ l) (hxy : x ≠ y)
    {e : K} (hxe : e ≤ key x) (hye : e ≤ key y) (hz : l.dropLast.getLast? = some z) : e ≤ key z := by
  have hne : l ≠ [] := List.ne_nil_of_mem hx
  have hl := List.dropLast_append_getLast hne
  set d := l.dropLast with hd
  set w := l.getLast hne
  have key2 : ∀ u ∈ d, e ≤ key u → e ≤ key z := by
    intro u hu hue
    rw [← hl] at hs
    have hs' := (List.pairwise_append.1 hs).1
    have hdn : d ≠ [] := List.ne_nil_of_mem hu
    have hzz : z = d.getLast hdn := by
      rw [List.getLast?_eq_getLast_of_ne_nil hdn] at hz
      exact (Option.some.inj hz).symm
    have hd2 := List.dropLast_append_getLast hdn
    rw [← hd2] at hs' hu
    rcases List.mem_append.1 hu with hu | hu
    · have := (List.pairwise_append.1 hs').2.2 u hu (d.getLast hdn) (by simp)
      rw [hzz]; exact hue.trans this
    · simp only [List.mem_singleton] at hu
      rw [hzz, ← hu]; exact hue
  rw [← hl] at hx hy
  rcases List.mem_append.1 hx with hx | hx
  · exact key2 x hx hxe
  · rcases List.mem_append.1 hy with hy | hy
    · exact key2 y hy hye
    · simp only [List.mem_singleton] at hx hy
      exact absurd (hx.trans hy.symm) hxy

/-- the whole merge, for strictly separated lists -/
theorem cross_core (order : KeySort (fun (x : (K × K) × Bool) => x.1.2)) {A B : List (K × K)}
    (hA : StrictlySeparated A) (hB : StrictlySeparated B) (hAn : A ≠ []) (hBn : B ≠ []) :
    ∃ first second out,
      let conc := order.sort (A.map (fun g => (g, false)) ++ B.map (fun g => (g, true)))
      conc.head? = some first ∧ conc.dropLast.getLast? = some second ∧
      (conc.foldl (crossStep A B second.1.2) (first.1.1 - 1, [])).2 = out ∧
      StrictlySeparated out ∧
      (∀ c, Entry A B c → ∀ p, Genuine A B c p → p ∈ out) ∧
      (∀ p ∈ out, ∃ c, Entry A B c ∧ (Genuine A B c p ∨ Spurious A B c p)) := by
  set raw := A.map (fun g => (g, false)) ++ B.map (fun g => (g, true)) with hraw
  set conc := order.sort raw with hconc
  have hperm := order.perm raw
  have hsorted := order.sorted raw
  have hmem : ∀ c, c ∈ conc ↔ Entry A B c := by
    rintro ⟨g, t⟩
    rw [hperm.mem_iff, hraw]
    cases t <;> simp [Entry]
  have hnd : conc.Nodup := by
    rw [hperm.nodup_iff, hraw, List.nodup_append]
    refine ⟨(sep_nodup hA).map (fun a b h => by simpa using h),
      (sep_nodup hB).map (fun a b h => by simpa using h), ?_⟩
    rintro a ha b hb rfl
    simp at ha hb
    obtain ⟨_, _, _, rfl⟩ := ha
    simp at hb
  have hlen : 2 ≤ conc.length := by
    rw [hperm.length_eq, hraw]
    have := List.length_pos_of_ne_nil hAn
    have := List.length_pos_of_ne_nil hBn
    simp; omega
  obtain ⟨first, rest, hfr⟩ : ∃ f r, conc = f :: r := by
    cases hc : conc with
    | nil => rw [hc] at hlen; simp at hlen
    | cons f r => exact ⟨f, r, rfl⟩
  have hdn : conc.dropLast ≠ [] := by
    intro h
    have := congrArg List.length h
    simp at this; omega
  set second := conc.dropLast.getLast hdn with hsecond
  have hsec : conc.dropLast.getLast? = some second := List.getLast?_eq_getLast_of_ne_nil hdn
  have hfirst : ∀ c ∈ conc, first.1.2 ≤ c.1.2 := by
    intro c hc
    have hs := hsorted
    rw [show order.sort raw = conc from rfl, hfr] at hs
    rw [hfr] at hc
    rcases List.mem_cons.1 hc with rfl | hc
    · exact le_rfl
    · exact (List.pairwise_cons.1 hs).1 c hc
  have hfe : Entry A B first := (hmem first).1 (by rw [hfr]; simp)
  have hinv := crossInv_loop hA hB (maxEnd := second.1.2) (init := first.1.1 - 1) conc []
    (st := (first.1.1 - 1, [])) ⟨by simp, by simp, Or.inl ⟨rfl, rfl⟩, by simp, by simp⟩
    (by intro d hd; exact (hmem d).1 (by simpa using hd)) (by simpa using hsorted) (by simpa using hnd)
    (by
      intro c hc ⟨p, o, ho, h1, h2, _⟩
      rw [List.nil_append] at hc
      have hoc : (o, !c.2) ∈ conc := by
        rw [hmem]; unfold Entry; revert ho; cases c.2 <;> simp
      exact dropLast_getLast_key (key := fun (x : (K × K) × Bool) => x.1.2) hsorted hc hoc
        (by intro h; have := congrArg Prod.snd h; simp at this) le_rfl h2 hsec)
    (by
      intro c hc p ⟨o, ho, h1, h2, hp⟩
      rw [List.nil_append] at hc
      have hce := (hmem c).1 hc
      have hfc := hfirst c hc
      have hfst : first.1.1 ≤ max c.1.1 o.1 := by
        have hT := this_sep hA hB c.2
        have hO := other_sep hA hB c.2
        by_cases htag : first.2 = c.2
        · have hfT : first.1 ∈ (if c.2 then B else A) := by rw [← htag]; exact hfe
          refine le_trans ?_ (le_max_left _ _)
          rcases sep_cases hT hfT hce with h | h | h
          · rw [h]
          · have := hT.1 _ hfT; linarith
          · have := hT.1 _ hfT; linarith
        · have hfO : first.1 ∈ (if c.2 then A else B) := by
            have : first.2 = !c.2 := by revert htag; cases c.2 <;> cases first.2 <;> simp
            unfold Entry at hfe; rw [this] at hfe; revert hfe; cases c.2 <;> simp
          refine le_trans ?_ (le_max_right _ _)
          rcases sep_cases hO hfO ho with h | h | h
          · rw [h]
          · have := hO.1 _ hfO; linarith
          · have := hO.1 _ hfO; linarith
      rw [hp]
      dsimp
      linarith)
  refine ⟨first, second, _, by rw [hfr]; rfl, hsec, rfl, hinv.sep, ?_, ?_⟩
  · intro c hc p hp
    exact hinv.complete c (by simpa using (hmem c).2 hc) p hp
  · intro p hp
    obtain ⟨c, hc, h⟩ := hinv.sound p hp
    exact ⟨c, (hmem c).1 (by simpa using hc), h⟩

/-- genuine intervals are exactly the intersection, if no start of one list is a stop of the other -/
theorem genuine_covers {A B : List (K × K)}
    (hAB : ∀ a ∈ A, ∀ b ∈ B, a.2 ≠ b.1 ∧ b.2 ≠ a.1) (x : K) :
    (∃ c p, Entry A B c ∧ Genuine A B c p ∧ p.1 ≤ x ∧ x ≤ p.2) ↔ (Covers A x ∧ Covers B x) := by
  constructor
  · rintro ⟨⟨g, t⟩, p, hc, ⟨o, ho, h1, h2, rfl⟩, h3, h4⟩
    dsimp at h1 h2 h3 h4
    have e1 : g.1 ≤ x := le_trans (le_max_left _ _) h3
    have e2 : o.1 ≤ x := le_trans (le_max_right _ _) h3
    have e3 : x ≤ o.2 := h4.trans h2
    cases t
    · exact ⟨⟨g, hc, e1, h4⟩, ⟨o, ho, e2, e3⟩⟩
    · exact ⟨⟨o, ho, e2, e3⟩, ⟨g, hc, e1, h4⟩⟩
  · rintro ⟨⟨a, ha, h1, h2⟩, ⟨b, hb, h3, h4⟩⟩
    obtain ⟨hn1, hn2⟩ := hAB a ha b hb
    rcases le_total a.2 b.2 with h | h
    · exact ⟨(a, false), (max a.1 b.1, a.2), ha,
        ⟨b, hb, lt_of_le_of_ne (h3.trans h2) (Ne.symm hn1), h, rfl⟩, max_le h1 h3, h2⟩
    · exact ⟨(b, true), (max b.1 a.1, b.2), hb,
        ⟨a, ha, lt_of_le_of_ne (h1.trans h4) (Ne.symm hn2), h, rfl⟩, max_le h3 h1, h4⟩


end Stingray.Gti

import Verif.Lemmas.GtiBasic
import Mathlib.Algebra.Order.Group.Int
import Mathlib.Data.List.Perm.Basic
import Mathlib.Algebra.BigOperators.Group.List.Basic

/-! Helper lemmas for `check_separate`, `append_gtis` and `join_gtis`. -/

namespace Stingray.Gti

set_option linter.unusedSectionVars false

open Stingray.Spec

variable {K : Type} [Field K] [LinearOrder K] [IsStrictOrderedRing K]

/-! ### separation test -/

theorem mem_flatten (l : List (K × K)) (x : K) :
    x ∈ flatten l ↔ ∃ g ∈ l, x = g.1 ∨ x = g.2 := by
  simp [flatten]

theorem flatten_map_sub (l : List (K × K)) (t0 : K) :
    flatten (l.map fun g => (g.1 - t0, g.2 - t0)) = (flatten l).map (· - t0) := by
  induction l with
  | nil => rfl
  | cons a l ih => simp only [flatten, List.map_cons, List.flatMap_cons] at ih ⊢; rw [ih]; simp

theorem any_hits_map_sub (p : List K) (l : List (K × K)) (t0 : K) :
    (p.map (· - t0)).any (fun g => (l.map fun g => (g.1 - t0, g.2 - t0)).any
        (fun i => decide (g ≤ i.2 ∧ i.1 ≤ g))) =
      p.any (fun g => l.any (fun i => decide (g ≤ i.2 ∧ i.1 ≤ g))) := by
  simp [List.any_map, Function.comp_def]

theorem checkSeparateCore_sub (a b : List (K × K)) (t0 : K) :
    checkSeparateCore (a.map fun g => (g.1 - t0, g.2 - t0)) (b.map fun g => (g.1 - t0, g.2 - t0)) =
      checkSeparateCore a b := by
  unfold checkSeparateCore
  rw [flatten_map_sub, flatten_map_sub, any_hits_map_sub, any_hits_map_sub]
  simp only [List.head?_map, List.getLast?_map]
  rcases a.head? with _ | f0 <;> rcases a.getLast? with _ | l0 <;> rcases b.head? with _ | f1 <;>
    rcases b.getLast? with _ | l1 <;> simp

theorem checkSeparate_eq (a b : List (K × K)) (ha : checkGtis a = .ok ())
    (hb : checkGtis b = .ok ()) : checkSeparate a b = .ok (checkSeparateCore a b) := by
  obtain ⟨hane, _⟩ := (checkGtis_ok_iff a).1 ha
  obtain ⟨hbne, _⟩ := (checkGtis_ok_iff b).1 hb
  obtain ⟨g, l, rfl⟩ := List.exists_cons_of_ne_nil hane
  obtain ⟨h, m, rfl⟩ := List.exists_cons_of_ne_nil hbne
  unfold checkSeparate
  simp only [List.head?_cons, ha, hb, bind, Except.bind, pure, Except.pure]
  rw [checkSeparateCore_sub]

/-- the two closed sets meet iff a border of one list lies in the other -/
theorem hits_iff (a b : List (K × K)) (ha : ∀ g ∈ a, g.1 ≤ g.2) (hb : ∀ g ∈ b, g.1 ≤ g.2) :
    ((∃ x ∈ flatten b, Covers a x) ∨ (∃ x ∈ flatten a, Covers b x)) ↔
      ∃ x, Covers a x ∧ Covers b x := by
  constructor
  · rintro (⟨x, hx, hc⟩ | ⟨x, hx, hc⟩)
    · obtain ⟨g, hg, rfl | rfl⟩ := (mem_flatten b x).1 hx
      · exact ⟨_, hc, g, hg, le_rfl, hb g hg⟩
      · exact ⟨_, hc, g, hg, hb g hg, le_rfl⟩
    · obtain ⟨g, hg, rfl | rfl⟩ := (mem_flatten a x).1 hx
      · exact ⟨_, ⟨g, hg, le_rfl, ha g hg⟩, hc⟩
      · exact ⟨_, ⟨g, hg, ha g hg, le_rfl⟩, hc⟩
  · rintro ⟨x, ⟨g, hg, h1, h2⟩, ⟨k, hk, h3, h4⟩⟩
    rcases le_total g.1 k.1 with h | h
    · left
      exact ⟨k.1, (mem_flatten b _).2 ⟨k, hk, Or.inl rfl⟩, g, hg, h, h3.trans h2⟩
    · right
      exact ⟨g.1, (mem_flatten a _).2 ⟨g, hg, Or.inl rfl⟩, k, hk, h, h1.trans h4⟩

theorem any_hits_iff (p : List K) (l : List (K × K)) :
    (p.any (fun g => l.any (fun i => decide (g ≤ i.2 ∧ i.1 ≤ g)))) = true ↔
      ∃ x ∈ p, Covers l x := by
  simp only [List.any_eq_true, decide_eq_true_eq, Covers]
  constructor
  · rintro ⟨x, hx, g, hg, h1, h2⟩; exact ⟨x, hx, g, hg, h2, h1⟩
  · rintro ⟨x, hx, g, hg, h1, h2⟩; exact ⟨x, hx, g, hg, h2, h1⟩

theorem wf_le_last {a l : K × K} {t : List (K × K)} (h : WellFormed t) (ha : a ∈ t)
    (hl : t.getLast? = some l) : a.2 ≤ l.2 := by
  have hne := List.ne_nil_of_mem ha
  rw [List.getLast?_eq_getLast_of_ne_nil hne] at hl
  have hs := wf_ends_sorted h
  have hd := List.dropLast_append_getLast hne
  rw [← hd] at hs ha
  cases hl
  rcases List.mem_append.1 ha with ha | ha
  · exact (List.pairwise_append.1 hs).2.2 a ha _ (by simp)
  · simp only [List.mem_singleton] at ha; rw [← ha]

theorem wf_head_le {a f : K × K} {t : List (K × K)} (h : WellFormed t) (ha : a ∈ t)
    (hf : t.head? = some f) : f.1 ≤ a.1 := by
  cases t with
  | nil => simp at ha
  | cons b t =>
    simp at hf; subst hf
    rcases List.mem_cons.1 ha with rfl | ha
    · exact le_rfl
    · exact (List.pairwise_cons.1 (wf_starts_sorted h)).1 a ha

/-- exact meaning of `_check_separate` -/
theorem checkSeparateCore_iff (a b : List (K × K)) (ha : WellFormed a) (hb : WellFormed b)
    (hane : a ≠ []) (hbne : b ≠ []) :
    checkSeparateCore a b = true ↔
      ((∀ g ∈ a, ∀ h ∈ b, g.2 ≤ h.1) ∨ (∀ g ∈ a, ∀ h ∈ b, h.2 ≤ g.1) ∨
        ¬ ∃ x, Covers a x ∧ Covers b x) := by
  obtain ⟨f0, l, rfl⟩ := List.exists_cons_of_ne_nil hane
  obtain ⟨f1, m, rfl⟩ := List.exists_cons_of_ne_nil hbne
  obtain ⟨l0, hl0⟩ : ∃ l0, (f0 :: l).getLast? = some l0 :=
    ⟨_, List.getLast?_eq_getLast_of_ne_nil hane⟩
  obtain ⟨l1, hl1⟩ : ∃ l1, (f1 :: m).getLast? = some l1 :=
    ⟨_, List.getLast?_eq_getLast_of_ne_nil hbne⟩
  have hl0m : l0 ∈ f0 :: l := List.mem_of_getLast? hl0
  have hl1m : l1 ∈ f1 :: m := List.mem_of_getLast? hl1
  have e1 : l0.2 ≤ f1.1 ↔ ∀ g ∈ f0 :: l, ∀ h ∈ f1 :: m, g.2 ≤ h.1 := by
    constructor
    · intro h g hg k hk
      exact (wf_le_last ha hg hl0).trans (h.trans (wf_head_le hb hk rfl))
    · intro h; exact h l0 hl0m f1 (by simp)
  have e2 : l1.2 ≤ f0.1 ↔ ∀ g ∈ f0 :: l, ∀ h ∈ f1 :: m, h.2 ≤ g.1 := by
    constructor
    · intro h g hg k hk
      exact (wf_le_last hb hk hl1).trans (h.trans (wf_head_le ha hg rfl))
    · intro h; exact h f0 (by simp) l1 hl1m
  unfold checkSeparateCore
  simp only [List.head?_cons, hl0, hl1]
  rw [← hits_iff _ _ ha.1 hb.1, ← any_hits_iff, ← any_hits_iff, ← e1, ← e2]
  split_ifs with h1 h2 h3
  · simp only [true_iff]
    rcases h1 with h | h
    · exact Or.inl h
    · exact Or.inr (Or.inl h)
  · simp only [false_iff, Bool.false_eq_true]
    push Not at h1 ⊢
    exact ⟨h1.1, h1.2, Or.inl h2⟩
  · simp only [false_iff, Bool.false_eq_true]
    push Not at h1 ⊢
    exact ⟨h1.1, h1.2, Or.inr h3⟩
  · simp only [true_iff]
    exact Or.inr (Or.inr (by tauto))

/-! ### appending -/

/-- joining equal boundaries keeps the covered set for any forward-running list -/
theorem covers_joinEqualLoop_fwd (cur : K × K) (l : List (K × K))
    (h : ∀ g ∈ cur :: l, g.1 ≤ g.2) (x : K) :
    Covers (joinEqualLoop 0 cur l) x ↔ Covers (cur :: l) x := by
  induction l generalizing cur with
  | nil => simp [joinEqualLoop]
  | cons g rest ih =>
    have hc := h cur (by simp)
    have hg := h g (by simp)
    unfold joinEqualLoop
    split_ifs with ht
    · have hEq : cur.2 = g.1 := by
        have := abs_nonpos_iff.1 ht; linarith
      rw [ih _ (by
        intro k hk
        rcases List.mem_cons.1 hk with rfl | hk
        · simp; linarith
        · exact h k (by simp [hk]))]
      unfold Covers
      simp only [List.mem_cons, exists_eq_or_imp]
      constructor
      · rintro (⟨h1, h2⟩ | h1)
        · rcases le_total x cur.2 with hx | hx
          · exact Or.inl ⟨h1, hx⟩
          · exact Or.inr (Or.inl ⟨hEq ▸ hx, h2⟩)
        · exact Or.inr (Or.inr h1)
      · rintro (⟨h1, h2⟩ | ⟨h1, h2⟩ | h1)
        · exact Or.inl ⟨h1, by show x ≤ g.2; linarith⟩
        · exact Or.inl ⟨by show cur.1 ≤ x; linarith, h2⟩
        · exact Or.inr h1
    · have := ih g (fun k hk => h k (List.mem_cons_of_mem _ hk))
      unfold Covers at this ⊢
      simp only [List.mem_cons, exists_eq_or_imp] at this ⊢
      rw [this]

theorem covers_append (a b : List (K × K)) (x : K) :
    Covers (a ++ b) x ↔ Covers a x ∨ Covers b x := by
  simp only [Covers, List.mem_append]
  constructor
  · rintro ⟨g, hg | hg, h⟩
    · exact Or.inl ⟨g, hg, h⟩
    · exact Or.inr ⟨g, hg, h⟩
  · rintro (⟨g, hg, h⟩ | ⟨g, hg, h⟩)
    · exact ⟨g, Or.inl hg, h⟩
    · exact ⟨g, Or.inr hg, h⟩

theorem covers_perm {a b : List (K × K)} (h : a.Perm b) (x : K) : Covers a x ↔ Covers b x := by
  simp only [Covers, h.mem_iff]

theorem exposure_perm {a b : List (K × K)} (h : a.Perm b) : exposure a = exposure b :=
  (h.map _).sum_eq

theorem exposure_append (a b : List (K × K)) : exposure (a ++ b) = exposure a + exposure b := by
  simp [exposure]

theorem wf_disjoint {l : List (K × K)} (h : WellFormed l) : 
    l.Pairwise (fun g k => g.2 ≤ k.1 ∨ k.2 ≤ g.1) := h.2.imp Or.inl

/-- two separate lists of positive-length intervals, put in order of their starts, are well formed -/
theorem sorted_append_wf {a b s : List (K × K)} (ha : WellFormed a) (hb : WellFormed b)
    (hap : ∀ g ∈ a, g.1 < g.2) (hbp : ∀ g ∈ b, g.1 < g.2)
    (hsep : (∀ g ∈ a, ∀ h ∈ b, g.2 ≤ h.1) ∨ (∀ g ∈ a, ∀ h ∈ b, h.2 ≤ g.1) ∨
        ¬ ∃ x, Covers a x ∧ Covers b x)
    (hperm : s.Perm (a ++ b)) (hs : s.Pairwise (fun g h => g.1 ≤ h.1)) : WellFormed s := by
  have hab : ∀ g ∈ a, ∀ h ∈ b, g.2 ≤ h.1 ∨ h.2 ≤ g.1 := by
    intro g hg k hk
    rcases hsep with h | h | h
    · exact Or.inl (h g hg k hk)
    · exact Or.inr (h g hg k hk)
    · by_contra hcon
      push Not at hcon
      apply h
      refine ⟨max g.1 k.1, ⟨g, hg, le_max_left _ _, max_le (hap g hg).le hcon.1.le⟩,
        ⟨k, hk, le_max_right _ _, max_le hcon.2.le (hbp k hk).le⟩⟩
  have hall : (a ++ b).Pairwise (fun g k => g.2 ≤ k.1 ∨ k.2 ≤ g.1) :=
    List.pairwise_append.2 ⟨wf_disjoint ha, wf_disjoint hb, hab⟩
  have hall' : s.Pairwise (fun g k => g.2 ≤ k.1 ∨ k.2 ≤ g.1) :=
    hperm.symm.pairwise hall (fun {x y} h => h.symm)
  have hpos : ∀ g ∈ s, g.1 < g.2 := by
    intro g hg
    rcases List.mem_append.1 (hperm.mem_iff.1 hg) with h | h
    · exact hap g h
    · exact hbp g h
  refine ⟨fun g hg => (hpos g hg).le, ?_⟩
  refine List.Pairwise.imp_of_mem ?_ (hs.and hall')
  rintro g k hg hk ⟨h1, h2 | h2⟩
  · exact h2
  · have := hpos k hk
    linarith

/-! ### the sweep of `join_gtis` -/

/-- recursive form of `closing_bins` (`first` is the time that `np.roll` wraps around to) -/
def closings (first : K) (acc : Int) : List (K × Int) → List Bool
  | [] => []
  | b :: rest =>
    (decide (acc + b.2 = 0) && decide (b.1 ≠ ((rest.head?.map Prod.fst).getD first))) ::
      closings first (acc + b.2) rest

theorem closings_eq (first : K) (acc : Int) (l : List (K × Int)) :
    closings first acc l = List.zipWith (fun s neq => s && neq)
      ((cumsumFrom acc (l.map Prod.snd)).map (fun s => decide (s = 0)))
      (List.zipWith (fun x y => decide (x ≠ y)) (l.map Prod.fst) ((l.map Prod.fst).tail ++ [first])) := by
  induction l generalizing acc with
  | nil => rfl
  | cons b rest ih =>
    rw [closings, ih]
    cases rest with
    | nil => by_cases h : b.1 = first <;> simp [cumsumFrom, h]
    | cons c rest => by_cases h : b.1 = c.1 <;> simp [cumsumFrom, h]

/-- pairing of starting and closing times -/
def pairUp (s : K) : List Bool → List K → List (K × K)
  | c :: cs, t :: ts =>
    if c then (s, t) :: (match ts with
      | [] => []
      | t' :: _ => pairUp t' cs ts)
    else pairUp s cs ts
  | _, _ => []

theorem pairUp_eq (s : K) (cs : List Bool) (ts : List K) (hl : cs.length = ts.length)
    (hlast : cs.getLast? = some true) :
    List.zip (s :: select cs.dropLast ts.tail) (select cs ts) = pairUp s cs ts := by
  induction ts generalizing s cs with
  | nil => 
    have : cs = [] := List.length_eq_zero_iff.1 (by simpa using hl)
    subst this; simp at hlast
  | cons t ts ih =>
    cases cs with
    | nil => simp at hl
    | cons c cs =>
      cases ts with
      | nil =>
        have : cs = [] := List.length_eq_zero_iff.1 (by simpa using hl)
        subst this
        simp at hlast
        subst hlast
        simp [select, pairUp]
      | cons t' r =>
        cases cs with
        | nil => simp at hl
        | cons c' cr =>
          have hlast' : (c' :: cr).getLast? = some true := by simpa using hlast
          have hl' : (c' :: cr).length = (t' :: r).length := by simpa using hl
          cases c
          · have := ih s (c' :: cr) hl' hlast'
            rw [pairUp, if_neg (by simp), ← this]
            simp [select]
          · have := ih t' (c' :: cr) hl' hlast'
            rw [pairUp, if_pos rfl]
            rw [← this]
            simp [select]

/-- number of closings minus openings up to and including time `x` -/
def level (l : List (K × Int)) (x : K) : Int :=
  ((l.filter (fun b => decide (b.1 ≤ x))).map Prod.snd).sum

theorem level_cons (b : K × Int) (l : List (K × Int)) (x : K) :
    level (b :: l) x = (if b.1 ≤ x then b.2 else 0) + level l x := by
  unfold level
  by_cases h : b.1 ≤ x <;> simp [h]

theorem level_zero_of_lt (l : List (K × Int)) (x : K) (h : ∀ b ∈ l, x < b.1) : level l x = 0 := by
  induction l with
  | nil => rfl
  | cons b l ih =>
    rw [level_cons, ih (fun c hc => h c (by simp [hc])), if_neg (not_le.2 (h b (by simp)))]
    simp

theorem pairUp_close (first s : K) (acc : Int) (b c : K × Int) (rest : List (K × Int))
    (h : acc + b.2 = 0 ∧ b.1 ≠ c.1) :
    pairUp s (closings first acc (b :: c :: rest)) ((b :: c :: rest).map Prod.fst) =
      (s, b.1) :: pairUp c.1 (closings first 0 (c :: rest)) ((c :: rest).map Prod.fst) := by
  have e : (decide (acc + b.2 = 0) && decide (b.1 ≠ c.1)) = true := by simp [h.1, h.2]
  show pairUp s ((decide (acc + b.2 = 0) && decide (b.1 ≠ c.1)) :: closings first (acc + b.2) (c :: rest))
    (b.1 :: c.1 :: rest.map Prod.fst) = _
  rw [e, h.1]
  rfl

theorem pairUp_keep (first s : K) (acc : Int) (b c : K × Int) (rest : List (K × Int))
    (h : ¬ (acc + b.2 = 0 ∧ b.1 ≠ c.1)) :
    pairUp s (closings first acc (b :: c :: rest)) ((b :: c :: rest).map Prod.fst) =
      pairUp s (closings first (acc + b.2) (c :: rest)) ((c :: rest).map Prod.fst) := by
  have e : (decide (acc + b.2 = 0) && decide (b.1 ≠ c.1)) = false := by
    rw [Bool.eq_false_iff]
    intro hc
    simp only [Bool.and_eq_true, decide_eq_true_eq] at hc
    exact h hc
  show pairUp s ((decide (acc + b.2 = 0) && decide (b.1 ≠ c.1)) :: closings first (acc + b.2) (c :: rest))
    (b.1 :: c.1 :: rest.map Prod.fst) = _
  rw [e]
  rfl

/-- what the sweep covers -/
theorem covers_pairUp (first : K) (l : List (K × Int)) (s : K) (acc : Int)
    (hsort : l.Pairwise (fun a b => a.1 ≤ b.1)) (hne : l ≠ [])
    (hs : ∀ b ∈ l.head?, s ≤ b.1)
    (htot : acc + (l.map Prod.snd).sum = 0)
    (hlast : ∀ b ∈ l.getLast?, b.1 ≠ first) (x : K) :
    Covers (pairUp s (closings first acc l) (l.map Prod.fst)) x ↔
      (s ≤ x ∧ ((∃ b ∈ l.head?, x ≤ b.1) ∨ x ∈ l.map Prod.fst ∨
        ((∃ b ∈ l.head?, b.1 ≤ x) ∧ acc + level l x ≠ 0))) := by
  induction l generalizing s acc with
  | nil => exact absurd rfl hne
  | cons b rest ih =>
    have hsp := List.pairwise_cons.1 hsort
    have hsb := hs b (by simp)
    cases rest with
    | nil =>
      simp only [List.map_cons, closings, pairUp]
      have h0 : acc + b.2 = 0 := by simpa using htot
      have hb := hlast b (by simp)
      rw [level_cons]
      simp [h0, hb, Covers, level]
      rintro _ (h | ⟨h1, h2⟩)
      · exact h.le
      · rw [if_pos h1] at h2; exact absurd h0 h2
    | cons c rest =>
      have hbc : b.1 ≤ c.1 := hsp.1 c (by simp)
      have htot' : acc + b.2 + ((c :: rest).map Prod.snd).sum = 0 := by
        simp at htot ⊢; linarith
      have hlast' : ∀ d ∈ (c :: rest).getLast?, d.1 ≠ first := by simpa using hlast
      have hcge : ∀ d ∈ c :: rest, c.1 ≤ d.1 := by
        intro d hd
        rcases List.mem_cons.1 hd with rfl | hd
        · exact le_rfl
        · exact (List.pairwise_cons.1 hsp.2).1 d hd
      have hnotin : ∀ y, y < c.1 → y ∉ (c :: rest).map Prod.fst := by
        intro y hy hmem
        obtain ⟨d, hd, rfl⟩ := List.mem_map.1 hmem
        exact absurd (hcge d hd) (not_le.2 hy)
      have hlev0 : ∀ y, y < c.1 → level (c :: rest) y = 0 := fun y hy =>
        level_zero_of_lt _ _ (fun d hd => lt_of_lt_of_le hy (hcge d hd))
      by_cases hclose : acc + b.2 = 0 ∧ b.1 ≠ c.1
      · have hbc' : b.1 < c.1 := lt_of_le_of_ne hbc hclose.2
        rw [pairUp_close _ _ _ _ _ _ hclose]
        have := ih c.1 0 hsp.2 (by simp) (by simp) (by rw [hclose.1] at htot'; exact htot') hlast'
        have e : Covers ((s, b.1) :: pairUp c.1 (closings first 0 (c :: rest))
            ((c :: rest).map Prod.fst)) x ↔ (s ≤ x ∧ x ≤ b.1) ∨
            Covers (pairUp c.1 (closings first 0 (c :: rest)) ((c :: rest).map Prod.fst)) x := by
          simp [Covers]
        simp only [List.map_cons] at this e ⊢
        rw [e, this, level_cons b]
        simp only [List.head?_cons, Option.mem_def, Option.some.injEq, exists_eq_left', List.mem_cons]
        constructor
        · rintro (⟨h1, h2⟩ | ⟨h1, h2⟩)
          · exact ⟨h1, Or.inl h2⟩
          · have hbx : b.1 ≤ x := by linarith
            refine ⟨by linarith, ?_⟩
            rcases h2 with h2 | h2 | h2
            · exact Or.inr (Or.inl (Or.inr (Or.inl (le_antisymm h2 h1))))
            · exact Or.inr (Or.inl (Or.inr h2))
            · right; right
              refine ⟨hbx, ?_⟩
              rw [if_pos hbx]
              intro hz; apply h2.2; linarith [hclose.1]
        · rintro ⟨h1, h2⟩
          rcases le_or_gt x b.1 with hx | hx
          · exact Or.inl ⟨h1, hx⟩
          · right
            rcases h2 with h2 | (h2 | h2) | ⟨_, h2⟩
            · linarith
            · linarith
            · have : c.1 ≤ x := by
                by_contra hlt
                exact hnotin x (not_le.1 hlt) (by simpa using h2)
              exact ⟨this, Or.inr (Or.inl h2)⟩
            · rw [if_pos hx.le] at h2
              have : c.1 ≤ x := by
                by_contra hlt
                rw [hlev0 x (not_le.1 hlt)] at h2
                exact h2 (by linarith [hclose.1])
              exact ⟨this, Or.inr (Or.inr ⟨this, by intro hz; apply h2; linarith [hclose.1]⟩)⟩
      · rw [pairUp_keep _ _ _ _ _ _ hclose]
        have := ih s (acc + b.2) hsp.2 (by simp) (by simpa using hsb.trans hbc) htot' hlast'
        simp only [List.map_cons] at this ⊢
        rw [this, level_cons b]
        simp only [List.head?_cons, Option.mem_def, Option.some.injEq, exists_eq_left', List.mem_cons]
        refine and_congr_right ?_
        intro hsx
        constructor
        · rintro (h | h | ⟨h1, h2⟩)
          · rcases le_or_gt x b.1 with hx | hx
            · exact Or.inl hx
            · rcases eq_or_lt_of_le h with rfl | hlt
              · exact Or.inr (Or.inl (Or.inr (Or.inl rfl)))
              · right; right
                refine ⟨hx.le, ?_⟩
                rw [if_pos hx.le, hlev0 x hlt]
                intro hz
                exact hclose ⟨by linarith, by intro he; rw [he] at hx; linarith⟩
          · exact Or.inr (Or.inl (Or.inr h))
          · have hbx : b.1 ≤ x := hbc.trans h1
            refine Or.inr (Or.inr ⟨hbx, ?_⟩)
            rw [if_pos hbx]
            intro hz; apply h2; linarith
        · rintro (h | (h | h) | ⟨h1, h2⟩)
          · exact Or.inl (h.trans hbc)
          · exact Or.inl (h.le.trans hbc)
          · exact Or.inr (Or.inl h)
          · rw [if_pos h1] at h2
            rcases le_or_gt c.1 x with hx | hx
            · exact Or.inr (Or.inr ⟨hx, by intro hz; apply h2; linarith⟩)
            · exact Or.inl hx.le

/-- the sweep produces separated forward intervals, all starting at or after `s` -/
theorem pairUp_sep (first : K) (l : List (K × Int)) (s : K) (acc : Int)
    (hsort : l.Pairwise (fun a b => a.1 ≤ b.1)) (hs : ∀ b ∈ l, s ≤ b.1)  :
    (∀ p ∈ pairUp s (closings first acc l) (l.map Prod.fst), s ≤ p.1 ∧ p.1 ≤ p.2) ∧
      (pairUp s (closings first acc l) (l.map Prod.fst)).Pairwise (fun p q => p.2 < q.1) := by
  induction l generalizing s acc with
  | nil => simp [closings, pairUp]
  | cons b rest ih =>
    have hsp := List.pairwise_cons.1 hsort
    have hsb := hs b (by simp)
    simp only [List.map_cons, closings, pairUp]
    split_ifs with hc
    · cases rest with
      | nil => simp [hsb]
      | cons c rest =>
        simp only [Bool.and_eq_true, decide_eq_true_eq, List.head?_cons, Option.map_some,
          Option.getD_some] at hc
        have hbc : b.1 < c.1 := lt_of_le_of_ne (hsp.1 c (by simp)) (of_decide_eq_true hc.2)
        have hcge : ∀ d ∈ c :: rest, c.1 ≤ d.1 := by
          intro d hd
          rcases List.mem_cons.1 hd with rfl | hd
          · exact le_rfl
          · exact (List.pairwise_cons.1 hsp.2).1 d hd
        obtain ⟨i1, i2⟩ := ih c.1 (acc + b.2) hsp.2 hcge
        simp only [List.map_cons] at i1 i2 ⊢
        refine ⟨?_, List.Pairwise.cons ?_ i2⟩
        · intro p hp
          rcases List.mem_cons.1 hp with rfl | hp
          · exact ⟨le_rfl, hsb⟩
          · exact ⟨by have := (i1 p hp).1; linarith, (i1 p hp).2⟩
        · intro q hq
          exact lt_of_lt_of_le hbc (i1 q hq).1
    · exact ih s (acc + b.2) hsp.2 (fun d hd => hs d (by simp [hd]))

theorem closings_length (first : K) (acc : Int) (l : List (K × Int)) :
    (closings first acc l).length = l.length := by
  induction l generalizing acc with
  | nil => rfl
  | cons b l ih => simp [closings, ih]

theorem closings_last (first : K) (acc : Int) (l : List (K × Int)) (hne : l ≠ [])
    (htot : acc + (l.map Prod.snd).sum = 0) (hlast : ∀ b ∈ l.getLast?, b.1 ≠ first) :
    (closings first acc l).getLast? = some true := by
  induction l generalizing acc with
  | nil => exact absurd rfl hne
  | cons b l ih =>
    cases l with
    | nil =>
      have h0 : acc + b.2 = 0 := by simpa using htot
      have := hlast b (by simp)
      simp [closings, h0, this]
    | cons c l =>
      have := ih (acc + b.2) (by simp) (by simp at htot ⊢; linarith) (by simpa using hlast)
      simp only [closings] at this ⊢
      rw [List.getLast?_cons_cons]
      exact this

theorem joinSweep_eq (b : K × Int) (l : List (K × Int))
    (htot : ((b :: l).map Prod.snd).sum = 0)
    (hlast : ∀ c ∈ (b :: l).getLast?, c.1 ≠ b.1) :
    joinSweep (b :: l) = pairUp b.1 (closings b.1 0 (b :: l)) ((b :: l).map Prod.fst) := by
  have hc := closings_eq b.1 0 (b :: l)
  have hl := closings_last b.1 0 (b :: l) (by simp) (by simpa using htot) hlast
  have hlen := closings_length b.1 0 (b :: l)
  unfold joinSweep
  simp only
  have hroll : rollLeft ((b :: l).map Prod.fst) = ((b :: l).map Prod.fst).tail ++ [b.1] := by
    simp [rollLeft]
  rw [hroll, ← hc]
  rw [← pairUp_eq b.1 _ _ (by simpa using hlen) hl]
  congr 1
  unfold rollRight
  rw [hl]
  simp only
  simp [select]

theorem level_perm {a b : List (K × Int)} (h : a.Perm b) (x : K) : level a x = level b x :=
  ((h.filter _).map _).sum_eq

theorem level_append (a b : List (K × Int)) (x : K) : level (a ++ b) x = level a x + level b x := by
  simp [level]

/-- the level of tagged boundaries is minus the number of GTIs open at `x` -/
theorem level_tagged (l : List (K × K)) (h : ∀ g ∈ l, g.1 ≤ g.2) (x : K) :
    level (taggedBoundaries l) x ≤ 0 ∧
      (level (taggedBoundaries l) x ≠ 0 ↔ ∃ g ∈ l, g.1 ≤ x ∧ x < g.2) := by
  induction l with
  | nil => simp [taggedBoundaries, level]
  | cons g l ih =>
    obtain ⟨i1, i2⟩ := ih (fun k hk => h k (by simp [hk]))
    have hg := h g (by simp)
    have e : level (taggedBoundaries (g :: l)) x =
        (if g.1 ≤ x then -1 else 0) + (if g.2 ≤ x then 1 else 0) + level (taggedBoundaries l) x := by
      have : taggedBoundaries (g :: l) = (g.1, -1) :: (g.2, 1) :: taggedBoundaries l := by
        simp [taggedBoundaries]
      rw [this, level_cons, level_cons]; simp only; ring
    rw [e]
    by_cases h1 : g.1 ≤ x
    · by_cases h2 : g.2 ≤ x
      · simp only [h1, h2, if_true]
        refine ⟨by simpa using i1, ?_⟩
        have : (-1 : Int) + 1 + level (taggedBoundaries l) x = level (taggedBoundaries l) x := by ring
        rw [this, i2]
        simp only [List.mem_cons, exists_eq_or_imp]
        constructor
        · intro h; exact Or.inr h
        · rintro (⟨_, h⟩ | h)
          · exact absurd h2 (not_le.2 h)
          · exact h
      · simp only [h1, h2, if_true, if_false]
        refine ⟨by linarith, ?_⟩
        constructor
        · intro _; exact ⟨g, by simp, h1, not_le.1 h2⟩
        · intro _ hz; linarith
    · have h2 : ¬ g.2 ≤ x := fun h => h1 (hg.trans h)
      simp only [h1, h2, if_false]
      refine ⟨by simpa using i1, ?_⟩
      have : (0 : Int) + 0 + level (taggedBoundaries l) x = level (taggedBoundaries l) x := by ring
      rw [this, i2]
      simp only [List.mem_cons, exists_eq_or_imp, h1, false_and, false_or]

theorem mem_tagged_times (l : List (K × K)) (x : K) :
    x ∈ (taggedBoundaries l).map Prod.fst ↔ ∃ g ∈ l, x = g.1 ∨ x = g.2 := by
  simp only [taggedBoundaries, List.map_flatMap, List.map_cons, List.map_nil, List.mem_flatMap,
    List.mem_cons, List.not_mem_nil, or_false]

theorem tagged_append (a b : List (K × K)) :
    taggedBoundaries (a ++ b) = taggedBoundaries a ++ taggedBoundaries b := by
  simp [taggedBoundaries]

theorem tagged_sum (l : List (K × K)) : ((taggedBoundaries l).map Prod.snd).sum = 0 := by
  induction l with
  | nil => rfl
  | cons g l ih =>
    have : taggedBoundaries (g :: l) = (g.1, -1) :: (g.2, 1) :: taggedBoundaries l := by
      simp [taggedBoundaries]
    rw [this]; simp [ih]

/-- covered = a boundary, or at non-zero level -/
theorem covers_iff_level (l : List (K × K)) (h : ∀ g ∈ l, g.1 ≤ g.2) (x : K) :
    Covers l x ↔ (x ∈ (taggedBoundaries l).map Prod.fst ∨ level (taggedBoundaries l) x ≠ 0) := by
  rw [mem_tagged_times, (level_tagged l h x).2]
  constructor
  · rintro ⟨g, hg, h1, h2⟩
    rcases eq_or_lt_of_le h2 with h3 | h3
    · exact Or.inl ⟨g, hg, Or.inr h3⟩
    · exact Or.inr ⟨g, hg, h1, h3⟩
  · rintro (⟨g, hg, rfl | rfl⟩ | ⟨g, hg, h1, h2⟩)
    · exact ⟨g, hg, le_rfl, h g hg⟩
    · exact ⟨g, hg, h g hg, le_rfl⟩
    · exact ⟨g, hg, h1, h2.le⟩

/-- the sweep on any time-ordered arrangement of the boundaries of `l` -/
theorem joinSweep_covers (l : List (K × K)) (h : ∀ g ∈ l, g.1 ≤ g.2) (b : List (K × Int))
    (hperm : b.Perm (taggedBoundaries l)) (hs : b.Pairwise (fun u v => u.1 ≤ v.1))
    (hspread : ∃ u ∈ b, ∃ v ∈ b, u.1 < v.1) :
    (∀ x, Covers (joinSweep b) x ↔ Covers l x) ∧
      (∀ p ∈ joinSweep b, p.1 ≤ p.2) ∧ (joinSweep b).Pairwise (fun p q => p.2 < q.1) := by
  obtain ⟨u, hu, v, hv, huv⟩ := hspread
  obtain ⟨f, r, rfl⟩ := List.exists_cons_of_ne_nil (List.ne_nil_of_mem hu)
  have htot : ((f :: r).map Prod.snd).sum = 0 := by
    rw [(hperm.map _).sum_eq, tagged_sum]
  have hfirst : ∀ c ∈ f :: r, f.1 ≤ c.1 := by
    intro c hc
    rcases List.mem_cons.1 hc with rfl | hc
    · exact le_rfl
    · exact (List.pairwise_cons.1 hs).1 c hc
  have hlast : ∀ c ∈ (f :: r).getLast?, c.1 ≠ f.1 := by
    intro c hc hEq
    have hc' : (f :: r).getLast (by simp) = c := by
      have : (f :: r).getLast? = some ((f :: r).getLast (by simp)) :=
        List.getLast?_eq_getLast_of_ne_nil _
      rw [this] at hc; simpa using hc
    have hvle : v.1 ≤ c.1 := by
      have hd := List.dropLast_append_getLast (List.cons_ne_nil f r)
      rw [hc'] at hd
      rw [← hd] at hs hv
      rcases List.mem_append.1 hv with hv | hv
      · exact (List.pairwise_append.1 hs).2.2 v hv c (by simp)
      · simp only [List.mem_singleton] at hv; rw [hv]
    have := hfirst u hu
    linarith
  rw [joinSweep_eq f r htot hlast]
  have hsep := pairUp_sep f.1 (f :: r) f.1 0 hs hfirst
  refine ⟨?_, fun p hp => (hsep.1 p hp).2, hsep.2⟩
  intro x
  rw [covers_pairUp f.1 (f :: r) f.1 0 hs (by simp) (by simp) (by simpa using htot) hlast x,
    covers_iff_level l h x, ← level_perm hperm x, ← (hperm.map Prod.fst).mem_iff]
  simp only [List.head?_cons, Option.mem_def, Option.some.injEq, exists_eq_left', zero_add]
  constructor
  · rintro ⟨h1, h2 | h2 | ⟨_, h2⟩⟩
    · left; rw [le_antisymm h2 h1]; simp
    · exact Or.inl h2
    · exact Or.inr h2
  · rintro (h1 | h1)
    · obtain ⟨c, hc, rfl⟩ := List.mem_map.1 h1
      exact ⟨hfirst c hc, Or.inr (Or.inl h1)⟩
    · have : f.1 ≤ x := by
        by_contra hlt
        apply h1
        exact level_zero_of_lt _ _ (fun c hc => lt_of_lt_of_le (not_le.1 hlt) (hfirst c hc))
      exact ⟨this, Or.inr (Or.inr ⟨this, h1⟩)⟩

end Stingray.Gti

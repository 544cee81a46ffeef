import Verif.Props.Pulsar

/-!
Folding (C53), exposure of the phase bins (C54), searches (C56, C57).
-/

set_option linter.unusedSectionVars false

namespace Stingray.Pulsar

open Stingray.Spec

variable {K : Type} [Field K] [LinearOrder K] [IsStrictOrderedRing K] [FloorRing K]

/-! ### Folding (C53) -/

theorem in_bin_iff (nbin i : Nat) (hi : i < nbin) (p : K) (h0 : 0 ≤ p) (h1 : p < 1) :
    (decide ((i : K) / nbin ≤ p) && (if i + 1 = nbin then decide (p ≤ ((i : K) + 1) / nbin)
      else decide (p < ((i : K) + 1) / nbin))) = decide (⌊p * nbin⌋ = (i : ℤ)) := by
  have hn : (0 : K) < nbin := by exact_mod_cast (by omega : 0 < nbin)
  rw [Bool.eq_iff_iff, Bool.and_eq_true, decide_eq_true_iff, decide_eq_true_iff, Int.floor_eq_iff, div_le_iff₀ hn]
  push_cast
  split_ifs with he
  · have hlt : p * nbin < (i : K) + 1 := by
      have e : (i : K) + 1 = nbin := by exact_mod_cast he
      rw [e]
      nlinarith
    have hle : p ≤ ((i : K) + 1) / nbin := by rw [le_div_iff₀ hn]; exact hlt.le
    simp [hlt, hle]
  · rw [decide_eq_true_iff, lt_div_iff₀ hn]

theorem histUnit_eq (nbin : Nat) (xw : List (K × K)) (h : ∀ p ∈ xw, 0 ≤ p.1 ∧ p.1 < 1) :
    histUnit nbin xw = (List.range nbin).map fun i : Nat =>
      ((xw.filter fun p => decide (⌊p.1 * (nbin : K)⌋ = (i : ℤ))).map Prod.snd).sum := by
  unfold histUnit
  apply List.map_congr_left
  intro i hi
  rw [List.mem_range] at hi
  congr 2
  apply List.filter_congr
  intro p hp
  exact in_bin_iff nbin i hi p.1 (h p hp).1 (h p hp).2

theorem sum_by_class {α : Type} (l : List α) (w : α → K) (c : α → ℤ) (n : Nat) (h : ∀ x ∈ l, 0 ≤ c x ∧ c x < n) :
    ((List.range n).map fun i : Nat => ((l.filter fun x => decide (c x = (i : ℤ))).map w).sum).sum = (l.map w).sum := by
  induction l with
  | nil => simp
  | cons x l ih =>
    have ih := ih (fun y hy => h y (by simp [hy]))
    obtain ⟨h0, h1⟩ := h x (by simp)
    obtain ⟨k, hk⟩ : ∃ k : Nat, c x = k := ⟨(c x).toNat, by omega⟩
    have hkn : k < n := by omega
    have e : ∀ i : Nat, (((x :: l).filter fun x => decide (c x = (i : ℤ))).map w).sum =
        (if i = k then w x else 0) + ((l.filter fun x => decide (c x = (i : ℤ))).map w).sum := by
      intro i
      rw [List.filter_cons]
      by_cases hik : i = k
      · subst hik; simp [hk]
      · have : ¬ (k : ℤ) = i := by omega
        simp [hk, this, hik]
    simp only [e]
    have hsplit : ∀ (L : List Nat) (f g : Nat → K), (L.map fun i => f i + g i).sum = (L.map f).sum + (L.map g).sum := by
      intro L f g
      induction L with
      | nil => simp
      | cons a L ih => simp only [List.map_cons, List.sum_cons, ih]; ring
    rw [hsplit, ih, List.map_cons, List.sum_cons]
    congr 1
    have : ∀ m : Nat, ((List.range m).map fun i => if i = k then w x else 0).sum = if k < m then w x else 0 := by
      intro m
      induction m with
      | zero => simp
      | succ m ihm =>
        rw [List.range_succ, List.map_append, List.sum_append, ihm]
        by_cases h1 : k < m
        · rw [if_pos h1, if_pos (by omega)]
          simp; omega
        · rw [if_neg h1]
          by_cases h2 : m = k
          · subst h2; simp
          · rw [if_neg (by omega)]; simp [h2]
    rw [this, if_pos hkn]

/-- **C53.** Without exposure correction, for at least two events and a weight for each: the profile has in each phase bin the sum of the weights of the events whose phase falls in it (`⌊phase * nbin⌋ = i`, the phase being the fractional part of the phase polynomial at the
time since the reference time), and it sums up to the total weight. -/
theorem fold_events_exact (times fs : List K) (o : FoldOpts K) (h2 : 2 ≤ times.length)
    (hw : (o.weights.expand times).length = times.length) (hx : o.expocorr = false) :
    ∃ ph prof, foldEvents times fs o = .ok (ph, prof.map some) ∧
      ph = (List.range o.nbin).map (fun i : Nat => ((i : K) + 1 / 2) / o.nbin) ∧
      prof = (List.range o.nbin).map (fun i : Nat =>
        (((times.zip (o.weights.expand times)).filter fun tw =>
          decide (⌊Int.fract (phasePoly (tw.1 - o.refTime) fs 0) * o.nbin⌋ = (i : ℤ))).map Prod.snd).sum) ∧
      (0 < o.nbin → prof.sum = (o.weights.expand times).sum) := by
  match times, h2 with
  | a :: b :: l, _ =>
  have hlast : ∃ z, (a :: b :: l).getLast? = some z := ⟨_, List.getLast?_eq_some_getLast (by simp)⟩
  obtain ⟨z, hz⟩ := hlast
  generalize hts : a :: b :: l = times at *
  have h0 : times[0]? = some a := by rw [← hts]; rfl
  have h1 : times[1]? = some b := by rw [← hts]; rfl
  have hraw : histUnit o.nbin (((times.map (· - o.refTime)).map fun t => pulsePhase t fs 0 true).zip (o.weights.expand times)) =
      (List.range o.nbin).map (fun i : Nat =>
        (((times.zip (o.weights.expand times)).filter fun tw =>
          decide (⌊Int.fract (phasePoly (tw.1 - o.refTime) fs 0) * o.nbin⌋ = (i : ℤ))).map Prod.snd).sum) := by
    rw [histUnit_eq]
    · apply List.map_congr_left
      intro i _
      rw [List.map_map, List.zip_map_left]
      rw [List.filter_map, List.map_map]
      have hs : (Prod.snd ∘ Prod.map ((fun t => pulsePhase t fs 0 true) ∘ fun x => x - o.refTime) (id : K → K)) = Prod.snd := by
        funext x; rfl
      rw [hs]
      congr 2
      apply List.filter_congr
      intro tw _
      simp only [Function.comp, Prod.map_fst, pulsePhase_true]
    · intro p hp
      have := (List.of_mem_zip hp).1
      rw [List.mem_map] at this
      obtain ⟨t, -, ht⟩ := this
      rw [← ht]
      exact ⟨(pulse_phase_fract t fs 0).1, (pulse_phase_fract t fs 0).2.1⟩
  refine ⟨_, _, ?_, rfl, rfl, ?_⟩
  · unfold foldEvents
    simp only [h0, h1, hz, hw, ne_eq, not_true, if_false, hx, Bool.false_eq_true, bind, Except.bind]
    congr 1
    congr 1
    · apply List.map_congr_left
      intro i hi
      rw [List.mem_range] at hi
      have hn : (o.nbin : K) ≠ 0 := by exact_mod_cast (by omega : o.nbin ≠ 0)
      field_simp
      ring
    · rw [hraw]
      generalize (List.range o.nbin).map (fun i : Nat =>
        (((times.zip (o.weights.expand times)).filter fun tw =>
          decide (⌊Int.fract (phasePoly (tw.1 - o.refTime) fs 0) * o.nbin⌋ = (i : ℤ))).map Prod.snd).sum) = L
      induction L with
      | nil => rfl
      | cons x L ih => simp only [List.map_cons, List.zipWith_cons_cons, ih]; simp [divOpt]
  · intro hn
    rw [sum_by_class (times.zip (o.weights.expand times)) Prod.snd
      (fun tw => ⌊Int.fract (phasePoly (tw.1 - o.refTime) fs 0) * o.nbin⌋) o.nbin]
    · rw [List.map_snd_zip hw.le]
    · intro tw _
      have hn' : (0 : K) < o.nbin := by exact_mod_cast hn
      have hf0 := Int.fract_nonneg (phasePoly (tw.1 - o.refTime) fs 0)
      have hf1 := Int.fract_lt_one (phasePoly (tw.1 - o.refTime) fs 0)
      refine ⟨Int.floor_nonneg.2 (by positivity), ?_⟩
      rw [Int.floor_lt]
      push_cast
      nlinarith

example : (foldEvents [0, 1/4, 1, 5/4, (7/4 : ℚ)] [1] ⟨4, .scalar 1, none, 0, false⟩).toOption =
    some ([1/8, 3/8, 5/8, 7/8], [some 2, some 2, some 0, some 1]) := by decide +kernel

/-- **C53 (weights).** A single weight counts for all the events: the profile sums up to it times the number of events; an array of weights of another length than the events is refused. -/
theorem fold_events_weights (times fs : List K) (o : FoldOpts K) (h2 : 2 ≤ times.length) :
    (∀ w, o.weights = .scalar w → o.expocorr = false → 0 < o.nbin → ∃ (ph prof : List K), foldEvents times fs o = .ok (ph, prof.map some) ∧
      prof.sum = times.length * w) ∧
    (∀ ws, o.weights = .array ws → ws.length ≠ times.length → foldEvents times fs o = .error .valueError) := by
  constructor
  · intro w hw hx hn
    obtain ⟨ph, prof, h, -, -, hs⟩ := fold_events_exact times fs o h2 (by rw [hw]; simp [Weights.expand]) hx
    refine ⟨ph, prof, h, ?_⟩
    rw [hs hn, hw]
    simp [Weights.expand]
  · intro ws hw hl
    match times, h2, hl with
    | a :: b :: l, _, hl =>
      obtain ⟨z, hz⟩ : ∃ z, (a :: b :: l).getLast? = some z := ⟨_, List.getLast?_eq_some_getLast (by simp)⟩
      unfold foldEvents
      rw [hz]
      simp only [List.getElem?_cons_zero, List.getElem?_cons_succ, hw, Weights.expand]
      rw [if_pos hl]

/-- **C53 (fewer than two events).** Folding one event, or none, raises an error. -/
theorem fold_events_few (times fs : List K) (o : FoldOpts K) (h : times.length < 2) :
    foldEvents times fs o = .error .indexError := by
  match times with
  | [] => rfl
  | [a] => rfl
  | a :: b :: l => simp only [List.length_cons] at h; omega

/-- **C53 (fast profile).** The compiled folding of the searches counts each event in the same way: bin `i` has the number of phases with `⌊phase * nbin⌋ = i`. -/
theorem profile_fast_exact (phases : List K) (nbin : Nat) (hn : 0 < nbin) (h : ∀ p ∈ phases, 0 ≤ p ∧ p < 1) :
    profileFast phases nbin = (List.range nbin).map fun i : Nat =>
      ((phases.filter fun p => decide (⌊p * (nbin : K)⌋ = (i : ℤ))).length : Int) := by
  have hn' : (0 : K) < nbin := by exact_mod_cast hn
  have hbin : ∀ p ∈ phases, 0 ≤ ⌊p * (nbin : K)⌋ ∧ ⌊p * (nbin : K)⌋ ≤ (nbin : ℤ) - 1 := by
    intro p hp
    obtain ⟨h0, h1⟩ := h p hp
    refine ⟨Int.floor_nonneg.2 (by positivity), ?_⟩
    have : ⌊p * (nbin : K)⌋ < (nbin : ℤ) := by
      rw [Int.floor_lt]
      push_cast
      nlinarith
    omega
  have hmax : ∀ (l : List ℤ) (m : ℤ), (∀ x ∈ l, x ≤ m) → m ∈ l → ∀ z, z ≤ m → l.foldl max z = m := by
    intro l m
    induction l with
    | nil => intro _ hm; simp at hm
    | cons a l ih =>
      intro hall hm z hz
      rw [List.foldl_cons]
      by_cases hml : m ∈ l
      · exact ih (fun x hx => hall x (by simp [hx])) hml _ (max_le hz (hall a (by simp)))
      · have ham : a = m := by
          rcases List.mem_cons.1 hm with h | h
          · exact h.symm
          · exact absurd h hml
        subst ham
        rw [max_eq_right hz]
        have : ∀ (l : List ℤ), (∀ x ∈ l, x ≤ a) → l.foldl max a = a := by
          intro l
          induction l with
          | nil => intro _; rfl
          | cons b l ihl =>
            intro hb
            rw [List.foldl_cons, max_eq_left (hb b (by simp))]
            exact ihl (fun x hx => hb x (by simp [hx]))
        exact this l (fun x hx => hall x (by simp [hx]))
  have hfold : (phases.map (fun p => ⌊p * (nbin : K)⌋) ++ [0, (nbin : Int) - 1]).foldl max 0 = (nbin : ℤ) - 1 := by
    apply hmax
    · intro x hx
      rw [List.mem_append, List.mem_map] at hx
      rcases hx with ⟨p, hp, rfl⟩ | hx
      · exact (hbin p hp).2
      · simp only [List.mem_cons, List.not_mem_nil, or_false] at hx
        rcases hx with rfl | rfl <;> omega
    · simp
    · omega
  have hN : ((phases.map (fun p => ⌊p * (nbin : K)⌋) ++ [0, (nbin : Int) - 1]).foldl max 0).toNat + 1 = nbin := by
    rw [hfold]; omega
  unfold profileFast
  simp only [hN]
  apply List.ext_getElem
  · simp
  · intro i h1 h2
    simp only [List.length_map, List.length_range] at h2
    simp only [List.getElem_modify, List.length_modify, List.length_map, List.length_range, List.getElem_map,
      List.getElem_range, List.count_append]
    have hc : ((phases.map (fun p => ⌊p * (nbin : K)⌋)).count (i : ℤ) : Nat) =
        (phases.filter fun p => decide (⌊p * (nbin : K)⌋ = (i : ℤ))).length := by
      rw [List.count_eq_countP, List.countP_map, List.countP_eq_length_filter]
      congr 1
    rw [hc]
    generalize (phases.filter fun p => decide (⌊p * (nbin : K)⌋ = (i : ℤ))).length = q
    have hcount : ([0, (nbin : ℤ) - 1] : List ℤ).count (i : ℤ) = (if i = 0 then 1 else 0) + (if i + 1 = nbin then 1 else 0) := by
      rw [List.count_cons, List.count_cons, List.count_nil]
      have e1 : ((nbin : ℤ) - 1 == (i : ℤ)) = decide (i + 1 = nbin) := by
        rw [Bool.eq_iff_iff]; simp; omega
      have e2 : ((0 : ℤ) == (i : ℤ)) = decide (i = 0) := by
        rw [Bool.eq_iff_iff]; simp; omega
      simp only [e1, e2, decide_eq_true_eq]
      omega
    rw [hcount]
    by_cases ha : i = 0 <;> by_cases hb : i + 1 = nbin <;>
      simp only [ha, hb, if_true, if_false] <;> split_ifs <;> push_cast <;> omega

example : profileFast [(1 : ℚ) / 4, 1 / 3, 9 / 10, 0] 4 = [1, 2, 0, 1] := by decide +kernel

/-! ### Exposure (C54) -/

/-- position inside `[lo, hi]` -/
def clampIn (lo hi x : K) : K := max lo (min hi x) - lo

theorem clampIn_le {lo hi x : K} (h : x ≤ lo) (hh : lo ≤ hi) : clampIn lo hi x = 0 := by
  unfold clampIn
  rw [min_eq_right (h.trans hh), max_eq_left h, sub_self]

theorem clampIn_ge {lo hi x : K} (h : hi ≤ x) (hh : lo ≤ hi) : clampIn lo hi x = hi - lo := by
  unfold clampIn
  rw [min_eq_left h, max_eq_right hh]

theorem overlap_clamp (a b lo hi : K) (hab : a ≤ b) (hh : lo ≤ hi) :
    overlap a b lo hi = clampIn lo hi b - clampIn lo hi a := by
  unfold overlap clampIn
  rcases le_total b lo with h1 | h1
  · rw [min_eq_left (h1.trans hh), max_eq_right (hab.trans h1), min_eq_right (h1.trans hh), max_eq_left h1,
      min_eq_right ((hab.trans h1).trans hh), max_eq_left (hab.trans h1), max_eq_left (by linarith)]
    ring
  · rcases le_total hi a with h2 | h2
    · rw [min_eq_right (h2.trans hab), max_eq_left (hh.trans h2), min_eq_left (h2.trans hab), max_eq_right hh,
        min_eq_left h2, max_eq_right hh, max_eq_left (by linarith)]
      ring
    · rcases le_total b hi with h3 | h3 <;> rcases le_total a lo with h4 | h4
      · rw [min_eq_left h3, max_eq_right h4, min_eq_right h3, max_eq_right h1, min_eq_right h2, max_eq_left h4,
          max_eq_right (by linarith)]
        ring
      · rw [min_eq_left h3, max_eq_left h4, min_eq_right h3, max_eq_right h1, min_eq_right h2, max_eq_right h4,
          max_eq_right (by linarith)]
        ring
      · rw [min_eq_right h3, max_eq_right h4, min_eq_left h3, max_eq_right hh, min_eq_right h2, max_eq_left h4,
          max_eq_right (by linarith)]
        ring
      · rw [min_eq_right h3, max_eq_left h4, min_eq_left h3, max_eq_right hh, min_eq_right h2, max_eq_right h4,
          max_eq_right (by linarith)]
        ring

theorem addLimit_eq (l b : K × K) (hl : l.1 ≤ l.2) (hb : b.1 ≤ b.2) :
    addLimit l b = clampIn b.1 b.2 l.2 - clampIn b.1 b.2 l.1 := by
  rw [← overlap_clamp _ _ _ _ hl hb]
  unfold addLimit overlap
  split_ifs with h
  · have : max l.1 b.1 ≤ min l.2 b.2 := max_le (le_min hl h.2) (le_min h.1 hb)
    rw [max_eq_right (sub_nonneg.2 this), min_comm b.2, max_comm b.1]
  · rw [max_eq_left]
    by_cases h1 : b.1 ≤ l.2
    · have h2 : b.2 < l.1 := by
        by_contra hc
        exact h ⟨h1, not_lt.1 hc⟩
      have : min l.2 b.2 ≤ b.2 := min_le_right _ _
      have : l.1 ≤ max l.1 b.1 := le_max_left _ _
      linarith
    · have : min l.2 b.2 ≤ l.2 := min_le_left _ _
      have : b.1 ≤ max l.1 b.1 := le_max_right _ _
      linarith

/-- the sum over the cycles, from the whole cycles and the ends -/
theorem cycleOverlap_eq (a b lo hi : K) (hab : a ≤ b) (h0 : 0 ≤ lo) (hh : lo ≤ hi) (h1 : hi ≤ 1) :
    cycleOverlap a b lo hi = ((⌊b⌋ - ⌊a⌋ : ℤ) : K) * (hi - lo) + clampIn lo hi (Int.fract b) - clampIn lo hi (Int.fract a) := by
  have hfl : ⌊a⌋ ≤ ⌊b⌋ := Int.floor_mono hab
  obtain ⟨M, hM⟩ : ∃ M : Nat, ⌊b⌋ - ⌊a⌋ = M := ⟨(⌊b⌋ - ⌊a⌋).toNat, by omega⟩
  have hshift : ∀ (k x : K), clampIn (k + lo) (k + hi) x = clampIn lo hi (x - k) := by
    intro k x
    unfold clampIn
    have e1 : min (k + hi) x = k + min hi (x - k) := by
      rw [← min_add_add_left]; congr 1; ring
    have e2 : max (k + lo) (k + min hi (x - k)) = k + max lo (min hi (x - k)) := max_add_add_left _ _ _
    rw [e1, e2]
    ring
  have hfa : a = ⌊a⌋ + Int.fract a := (Int.floor_add_fract a).symm
  have hfb : b = ⌊b⌋ + Int.fract b := (Int.floor_add_fract b).symm
  have hbK : (⌊b⌋ : K) = ⌊a⌋ + M := by
    have : ⌊b⌋ = ⌊a⌋ + M := by omega
    rw [this]; push_cast; ring
  have hterm : ∀ j : Nat, overlap a b ((⌊a⌋ : K) + j + lo) ((⌊a⌋ : K) + j + hi) =
      clampIn lo hi (Int.fract b + (M - j)) - clampIn lo hi (Int.fract a - j) := by
    intro j
    rw [overlap_clamp _ _ _ _ hab (by linarith), hshift, hshift]
    congr 2
    · have := hfb
      rw [hbK] at this
      linarith
    · nth_rewrite 1 [hfa]
      ring
  unfold cycleOverlap
  rw [hM, Int.toNat_natCast]
  simp only [hterm]
  have hfa0 := Int.fract_nonneg a
  have hfa1 := Int.fract_lt_one a
  have hfb0 := Int.fract_nonneg b
  -- induction on the number of whole cycles
  have hsum : ∀ m : Nat, m ≤ M → ((List.range (m + 1)).map fun j : Nat =>
      clampIn lo hi (Int.fract b + ((M : K) - j)) - clampIn lo hi (Int.fract a - j)).sum =
      (if m = M then (M : K) * (hi - lo) + clampIn lo hi (Int.fract b) else ((m : K) + 1) * (hi - lo)) -
        clampIn lo hi (Int.fract a) := by
    intro m
    induction m with
    | zero =>
      intro _
      simp only [zero_add, List.range_one, List.map_cons, List.map_nil, List.sum_cons, List.sum_nil, Nat.cast_zero,
        sub_zero, add_zero]
      split_ifs with hm
      · rw [← hm]; simp
      · rw [clampIn_ge _ hh]
        · ring
        · have : (1 : K) ≤ M := by exact_mod_cast (by omega : 1 ≤ M)
          linarith
    | succ m ih =>
      intro hm
      rw [List.range_succ, List.map_append, List.sum_append, ih (by omega)]
      rw [if_neg (by omega)]
      simp only [List.map_cons, List.map_nil, List.sum_cons, List.sum_nil, add_zero]
      rw [clampIn_le (x := Int.fract a - ((m + 1 : Nat) : K)) _ hh]
      · split_ifs with hmM
        · rw [← hmM]; push_cast; simp only [sub_self, add_zero, sub_zero]; ring
        · rw [clampIn_ge (x := Int.fract b + ((M : K) - ((m + 1 : Nat) : K))) _ hh]
          · push_cast; ring
          · have : ((m + 1 : Nat) : K) + 1 ≤ M := by exact_mod_cast (by omega : m + 1 + 1 ≤ M)
            linarith
      · push_cast
        have : (0 : K) ≤ m := Nat.cast_nonneg m
        linarith
  rw [hsum M le_rfl, if_pos rfl]
  push_cast
  ring

theorem trunc_of_nonneg {x : K} (h : 0 ≤ x) : trunc x = (⌊x⌋ : K) := by simp [trunc, h]

/-- one GTI starting at a non-negative time -/
theorem gtiExposure_eq (startTime stopTime period : K) (nbin : Nat) (hn : 0 < nbin) (g : K × K) (i : Nat) (hi : i < nbin)
    (hper : 0 < period) (hlen : max g.1 startTime ≤ min g.2 stopTime) (h0 : 0 ≤ max g.1 startTime) :
    gtiExposure startTime stopTime period nbin g ((i : K) / nbin, ((i : K) + 1) / nbin) =
      cycleOverlap (max g.1 startTime / period) (min g.2 stopTime / period) ((i : K) / nbin) (((i : K) + 1) / nbin) := by
  have hn' : (0 : K) < nbin := by exact_mod_cast hn
  have hg0 : (if g.1 < startTime then startTime else g.1) = max g.1 startTime := by
    split_ifs with h
    · rw [max_eq_right h.le]
    · rw [max_eq_left (not_lt.1 h)]
  have hg1 : (if stopTime < g.2 then stopTime else g.2) = min g.2 stopTime := by
    split_ifs with h
    · rw [min_eq_right h.le]
    · rw [min_eq_left (not_lt.1 h)]
  unfold gtiExposure
  simp only [hg0, hg1, sub_div]
  generalize ha : max g.1 startTime / period = a
  generalize hb : min g.2 stopTime / period = b
  have hab : a ≤ b := by rw [← ha, ← hb]; exact div_le_div_of_nonneg_right hlen hper.le
  have ha0 : 0 ≤ a := by rw [← ha]; positivity
  have hlo0 : (0 : K) ≤ (i : K) / nbin := by positivity
  have hlh : (i : K) / nbin ≤ ((i : K) + 1) / nbin := div_le_div_of_nonneg_right (by linarith) hn'.le
  have hh1 : ((i : K) + 1) / nbin ≤ 1 := by
    rw [div_le_one hn']
    exact_mod_cast hi
  have hw : ((i : K) + 1) / nbin - (i : K) / nbin = 1 / nbin := by ring
  rw [cycleOverlap_eq a b _ _ hab hlo0 hlh hh1, trunc_of_nonneg (by linarith), hw]
  have hfm : fmod1 a = Int.fract a := by
    unfold fmod1
    rw [trunc_of_nonneg ha0]
    rfl
  rw [hfm]
  have hfa0 := Int.fract_nonneg a
  have hfa1 := Int.fract_lt_one a
  have hfd0 := Int.fract_nonneg (b - a)
  have hfd1 := Int.fract_lt_one (b - a)
  have hd : b - a - (⌊b - a⌋ : K) = Int.fract (b - a) := rfl
  rw [hd]
  have hbeq : b = ((⌊a⌋ + ⌊b - a⌋ : ℤ) : K) + (Int.fract (b - a) + Int.fract a) := by
    have h1 := Int.floor_add_fract a
    have h2 := Int.floor_add_fract (b - a)
    push_cast
    linarith
  set lo := (i : K) / nbin
  set hi' := ((i : K) + 1) / nbin
  by_cases he : 1 < Int.fract (b - a) + Int.fract a
  · rw [if_pos he]
    simp only [List.map_cons, List.map_nil, List.sum_cons, List.sum_nil, add_zero]
    rw [addLimit_eq _ _ (by simp only; linarith) hlh, addLimit_eq _ _ (by simp only; linarith) hlh]
    simp only
    have hfl : ⌊b⌋ = ⌊a⌋ + ⌊b - a⌋ + 1 := by
      rw [Int.floor_eq_iff]
      push_cast at hbeq ⊢
      constructor <;> linarith
    have hfr : Int.fract b = Int.fract (b - a) + Int.fract a - 1 := by
      have := Int.floor_add_fract b
      rw [hfl] at this
      push_cast at this hbeq
      linarith
    rw [hfl, hfr, clampIn_le hlo0 hlh, clampIn_ge hh1 hlh]
    push_cast
    rw [hw]
    ring
  · rw [if_neg he]
    simp only [List.map_cons, List.map_nil, List.sum_cons, List.sum_nil, add_zero]
    rw [addLimit_eq _ _ (by simp only; linarith) hlh]
    simp only
    rcases eq_or_lt_of_le (not_lt.1 he) with heq | hlt
    · have hfl : ⌊b⌋ = ⌊a⌋ + ⌊b - a⌋ + 1 := by
        rw [Int.floor_eq_iff]
        push_cast at hbeq ⊢
        constructor <;> linarith
      have hfr : Int.fract b = 0 := by
        have := Int.floor_add_fract b
        rw [hfl] at this
        push_cast at this hbeq
        linarith
      rw [hfl, hfr, heq, clampIn_le (x := (0 : K)) hlo0 hlh, clampIn_ge hh1 hlh]
      push_cast
      rw [hw]
      ring
    · have hfl : ⌊b⌋ = ⌊a⌋ + ⌊b - a⌋ := by
        rw [Int.floor_eq_iff]
        push_cast at hbeq ⊢
        constructor <;> linarith
      have hfr : Int.fract b = Int.fract (b - a) + Int.fract a := by
        have := Int.floor_add_fract b
        rw [hfl] at this
        push_cast at this hbeq
        linarith
      rw [hfl, hfr]
      push_cast
      ring

/-- **C54 (partial).** For GTIs whose part inside `[start_time, stop_time]` begins at a non-negative time, the exposure of each phase bin before the normalisation is the sum over the GTIs meeting `[start_time, stop_time]` of the time, in periods, that the clipped GTI spends in that bin of any
cycle.
Missing: GTIs beginning before time 0 (false, below). -/
theorem phase_exposure_overlap_partial (startTime stopTime period : K) (nbin : Nat) (gti : Option (List (K × K)))
    (hper : 0 < period) (hse : startTime < stopTime)
    (hg : ∀ g ∈ gti.getD [(startTime, stopTime)], g.1 ≤ g.2 ∧
      (g.1 < stopTime → startTime < g.2 → 0 ≤ max g.1 startTime)) :
    rawExposure startTime stopTime period nbin gti = (List.range nbin).map fun i : Nat =>
      (((gti.getD [(startTime, stopTime)]).filter fun g => decide (g.1 < stopTime ∧ startTime < g.2)).map fun g =>
        cycleOverlap (max g.1 startTime / period) (min g.2 stopTime / period) ((i : K) / nbin) (((i : K) + 1) / nbin)).sum := by
  unfold rawExposure phaseBins
  simp only [List.map_map]
  apply List.map_congr_left
  intro i hi
  rw [List.mem_range] at hi
  simp only [Function.comp]
  have hfil : ((gti.getD [(startTime, stopTime)]).filter fun g => decide (g.1 < stopTime) && decide (startTime < g.2)) =
      (gti.getD [(startTime, stopTime)]).filter fun g => decide (g.1 < stopTime ∧ startTime < g.2) := by
    apply List.filter_congr
    intro g _
    rw [Bool.decide_and]
  rw [hfil]
  congr 1
  apply List.map_congr_left
  intro g hgm
  rw [List.mem_filter, decide_eq_true_iff] at hgm
  obtain ⟨hm, h1, h2⟩ := hgm
  obtain ⟨hle, h0⟩ := hg g hm
  exact gtiExposure_eq startTime stopTime period nbin (by omega) g i hi hper
    (max_le (le_min hle h1.le) (le_min h2.le hse.le)) (h0 h1 h2)

/-- the bins of a cycle share out every interval -/
theorem cycleOverlap_total (a b : K) (hab : a ≤ b) (nbin : Nat) (hn : 0 < nbin) :
    ((List.range nbin).map fun i : Nat => cycleOverlap a b ((i : K) / nbin) (((i : K) + 1) / nbin)).sum = b - a := by
  have hn' : (0 : K) < nbin := by exact_mod_cast hn
  have hF : ∀ x : K, 0 ≤ x → x < 1 → ∀ m : Nat, m ≤ nbin → ((List.range m).map fun i : Nat =>
      clampIn ((i : K) / nbin) (((i : K) + 1) / nbin) x).sum = min ((m : K) / nbin) x := by
    intro x hx0 hx1 m
    induction m with
    | zero => intro _; simp [hx0]
    | succ m ih =>
      intro hm
      rw [List.range_succ, List.map_append, List.sum_append, ih (by omega)]
      simp only [List.map_cons, List.map_nil, List.sum_cons, List.sum_nil, add_zero]
      have hle : (m : K) / nbin ≤ ((m : K) + 1) / nbin := div_le_div_of_nonneg_right (by linarith) hn'.le
      push_cast
      rcases le_total x ((m : K) / nbin) with h | h
      · rw [clampIn_le h hle, min_eq_right h, min_eq_right (h.trans hle), add_zero]
      · rw [min_eq_left h]
        rcases le_total x (((m : K) + 1) / nbin) with h2 | h2
        · unfold clampIn
          rw [min_eq_right h2, max_eq_right h]; ring
        · rw [clampIn_ge h2 hle, min_eq_left h2]; ring
  have hall : ((List.range nbin).map fun i : Nat => cycleOverlap a b ((i : K) / nbin) (((i : K) + 1) / nbin)).sum =
      ((List.range nbin).map fun i : Nat => ((⌊b⌋ - ⌊a⌋ : ℤ) : K) * (1 / nbin) +
        clampIn ((i : K) / nbin) (((i : K) + 1) / nbin) (Int.fract b) -
        clampIn ((i : K) / nbin) (((i : K) + 1) / nbin) (Int.fract a)).sum := by
    congr 1
    apply List.map_congr_left
    intro i hi
    rw [List.mem_range] at hi
    rw [cycleOverlap_eq a b _ _ hab (by positivity) (div_le_div_of_nonneg_right (by linarith) hn'.le)
      (by rw [div_le_one hn']; exact_mod_cast hi)]
    congr 3
    ring
  have hsplit : ∀ (L : List Nat) (c : K) (f g : Nat → K), (L.map fun i => c + f i - g i).sum =
      L.length * c + (L.map f).sum - (L.map g).sum := by
    intro L c f g
    induction L with
    | nil => simp
    | cons x L ih => simp only [List.map_cons, List.sum_cons, ih, List.length_cons]; push_cast; ring
  rw [hall, hsplit, hF _ (Int.fract_nonneg _) (Int.fract_lt_one _) nbin le_rfl,
    hF _ (Int.fract_nonneg _) (Int.fract_lt_one _) nbin le_rfl, div_self hn'.ne',
    min_eq_right (Int.fract_lt_one _).le, min_eq_right (Int.fract_lt_one _).le, List.length_range]
  have h1 := Int.floor_add_fract a
  have h2 := Int.floor_add_fract b
  push_cast
  field_simp
  linarith

/-- **C54 (total, partial).** Under the same hypotheses the exposures before the normalisation sum up to the good time inside `[start_time, stop_time]`, in periods. -/
theorem phase_exposure_total_partial (startTime stopTime period : K) (nbin : Nat) (hn : 0 < nbin) (gti : Option (List (K × K)))
    (hper : 0 < period) (hse : startTime < stopTime)
    (hg : ∀ g ∈ gti.getD [(startTime, stopTime)], g.1 ≤ g.2 ∧
      (g.1 < stopTime → startTime < g.2 → 0 ≤ max g.1 startTime)) :
    (rawExposure startTime stopTime period nbin gti).sum =
      (((gti.getD [(startTime, stopTime)]).filter fun g => decide (g.1 < stopTime ∧ startTime < g.2)).map fun g =>
        (min g.2 stopTime - max g.1 startTime) / period).sum := by
  rw [phase_exposure_overlap_partial startTime stopTime period nbin gti hper hse hg]
  generalize hL : (gti.getD [(startTime, stopTime)]).filter (fun g => decide (g.1 < stopTime ∧ startTime < g.2)) = L
  have hLle : ∀ g ∈ L, max g.1 startTime ≤ min g.2 stopTime := by
    intro g hgm
    rw [← hL, List.mem_filter, decide_eq_true_iff] at hgm
    exact max_le (le_min (hg g hgm.1).1 hgm.2.1.le) (le_min hgm.2.2.le hse.le)
  clear hL
  induction L with
  | nil => simp
  | cons g L ih =>
    simp only [List.map_cons, List.sum_cons]
    have hsplit : ∀ (M : List Nat) (f h : Nat → K), (M.map fun i => f i + h i).sum = (M.map f).sum + (M.map h).sum := by
      intro M f h
      induction M with
      | nil => simp
      | cons x M ih => simp only [List.map_cons, List.sum_cons, ih]; ring
    rw [hsplit, ih (fun g hg => hLle g (by simp [hg])), cycleOverlap_total _ _
      (div_le_div_of_nonneg_right (hLle g (by simp)) hper.le) nbin hn, sub_div]

example : rawExposure (0 : ℚ) 10 2 4 (some [(1/2, 2), (5, 6)]) = [0, 1/4, 1/2, 1/2] := by decide +kernel

/-- **C54 (normalisation).** The exposures are those before the normalisation divided by their maximum: if there is any exposure, each is at most 1, at least one is 1, and their ratios are unchanged. -/
theorem phase_exposure_normalised (startTime stopTime period : K) (nbin : Nat) (hn : 0 < nbin) (gti : Option (List (K × K)))
    (hpos : ∃ x ∈ rawExposure startTime stopTime period nbin gti, 0 < x) :
    ∃ (m : K) (l : List K), 0 < m ∧ phaseExposure startTime stopTime period nbin gti = .ok (l.map some) ∧
      l.map (· * m) = rawExposure startTime stopTime period nbin gti ∧ (∀ x ∈ l, x ≤ 1) ∧ 1 ∈ l := by
  have hmax : ∀ (l : List K) (x : K), (∀ y ∈ x :: l, y ≤ l.foldl max x) ∧ l.foldl max x ∈ x :: l := by
    intro l
    induction l with
    | nil => intro x; simp
    | cons y l ih =>
      intro x
      obtain ⟨a, b⟩ := ih (max x y)
      constructor
      · intro z hz
        rcases List.mem_cons.1 hz with rfl | hz
        · exact (le_max_left z y).trans (a (max z y) (by simp))
        · rcases List.mem_cons.1 hz with rfl | hz
          · exact (le_max_right x z).trans (a (max x z) (by simp))
          · exact a z (by simp [hz])
      · rw [List.foldl_cons]
        rcases List.mem_cons.1 b with hb | hb
        · rw [hb]
          rcases max_choice x y with h | h <;> rw [h] <;> simp
        · simp [hb]
  unfold phaseExposure
  cases hr : rawExposure startTime stopTime period nbin gti with
  | nil => rw [hr] at hpos; simp at hpos
  | cons e es =>
    obtain ⟨h1, h2⟩ := hmax es e
    rw [hr] at hpos
    obtain ⟨x, hx, hx0⟩ := hpos
    have hm : 0 < es.foldl max e := hx0.trans_le (h1 x hx)
    refine ⟨es.foldl max e, (e :: es).map (· / es.foldl max e), hm, ?_, ?_, ?_, ?_⟩
    · simp only [hm.ne', if_false, List.map_map]
      rfl
    · rw [List.map_map]
      conv_rhs => rw [← List.map_id (e :: es)]
      apply List.map_congr_left
      intro y _
      simp [hm.ne']
    · intro y hy
      rw [List.mem_map] at hy
      obtain ⟨z, hz, rfl⟩ := hy
      rw [div_le_one hm]
      exact h1 z hz
    · rw [List.mem_map]
      exact ⟨_, h2, div_self hm.ne'⟩

example : phaseExposure (0 : ℚ) 3 2 4 none = .ok [some 1, some 1, some (1/2), some (1/2)] := by decide +kernel

/-- **C54 (negation).** For a GTI starting before time 0 (in folding: before the reference time) exposure is lost: with a single GTI covering the second half of a cycle before time 0, no bin receives any exposure and the
result is NaN everywhere, while the second bin was exposed for half a period. -/
theorem phase_exposure_negative :
    phaseExposure (-1/2 : ℚ) 0 1 2 none = .ok [none, none] ∧
    rawExposure (-1/2 : ℚ) 0 1 2 none = [0, 0] ∧
    cycleOverlap (-1/2 : ℚ) 0 (1/2) 1 = 1/2 := by decide +kernel

/-! ### Best peaks (C56) -/

theorem argmax?_spec (l : List K) (i : Nat) (h : argmax? l = some i) :
    ∃ m, l[i]? = some m ∧ (∀ x ∈ l, x ≤ m) ∧ ∀ (j : Nat) (x : K), j < i → l[j]? = some x → x < m := by
  induction l generalizing i with
  | nil => simp [argmax?] at h
  | cons a l ih =>
    rw [argmax?] at h
    cases hm : argmax? l with
    | none =>
      rw [hm] at h
      rw [Gti.argmax?_eq_none] at hm
      cases h
      subst hm
      exact ⟨a, rfl, by simp, fun j x hj => by omega⟩
    | some k =>
      rw [hm] at h
      obtain ⟨m, h1, h2, h3⟩ := ih k hm
      have hg : l.getD k a = m := by simp [List.getD_eq_getElem?_getD, h1]
      simp only [hg] at h
      split_ifs at h with hc
      · cases h
        refine ⟨a, rfl, ?_, fun j x hj => by omega⟩
        intro x hx
        rcases List.mem_cons.1 hx with rfl | hx
        · exact le_rfl
        · exact (h2 x hx).trans hc
      · cases h
        refine ⟨m, by simpa using h1, ?_, ?_⟩
        · intro x hx
          rcases List.mem_cons.1 hx with rfl | hx
          · exact (not_le.1 hc).le
          · exact h2 x hx
        · intro j x hj hx
          cases j with
          | zero => simp at hx; rw [← hx]; exact not_le.1 hc
          | succ j => exact h3 j x (by omega) (by simpa using hx)

theorem bestOf_spec (x stat : List K) (hlen : x.length = stat.length) (r : Nat × Nat) (h : r.1 < r.2) (hr : r.2 ≤ stat.length) :
    ∃ i, bestOf x stat r = some (x.getD i 0, stat.getD i 0) ∧ r.1 ≤ i ∧ i < r.2 ∧
      (∀ j, r.1 ≤ j → j < r.2 → stat.getD j 0 ≤ stat.getD i 0) ∧
      (∀ j, r.1 ≤ j → j < i → stat.getD j 0 < stat.getD i 0) := by
  have hget : ∀ (l : List K) (j : Nat), j < r.2 - r.1 → r.2 ≤ l.length → ((l.take r.2).drop r.1)[j]? = some (l.getD (r.1 + j) 0) := by
    intro l j hj hl
    rw [List.getElem?_drop, List.getElem?_take, if_pos (by omega), List.getElem?_eq_getElem (by omega)]
    simp [List.getD_eq_getElem?_getD, List.getElem?_eq_getElem (show r.1 + j < l.length by omega)]
  have hl : ((stat.take r.2).drop r.1).length = r.2 - r.1 := by
    rw [List.length_drop, List.length_take]; omega
  cases hm : argmax? ((stat.take r.2).drop r.1) with
  | none =>
    rw [Gti.argmax?_eq_none] at hm
    rw [hm] at hl
    simp at hl
    omega
  | some k =>
    obtain ⟨m, h1, h2, h3⟩ := argmax?_spec _ _ hm
    have hk : k < r.2 - r.1 := by
      by_contra hc
      rw [List.getElem?_eq_none (by omega)] at h1
      cases h1
    rw [hget stat k hk hr] at h1
    cases h1
    refine ⟨r.1 + k, ?_, by omega, by omega, ?_, ?_⟩
    · unfold bestOf
      simp only [hm, hget stat k hk hr, hget x k hk (by omega)]
    · intro j hj1 hj2
      apply h2
      have := hget stat (j - r.1) (by omega) hr
      rw [show r.1 + (j - r.1) = j by omega] at this
      exact List.mem_of_getElem? this
    · intro j hj1 hj2
      apply h3 (j - r.1) _ (by omega)
      have := hget stat (j - r.1) (by omega) hr
      rwa [show r.1 + (j - r.1) = j by omega] at this

/-- **C56.** For every statistic and threshold, and every sorting: the result lists, by decreasing statistic, one sample for each maximal run of samples with `stat >= threshold`, namely the first of those with the maximum statistic in the run. -/
theorem best_peaks_spec (srt : KeySort (K := K) (α := K × K) Prod.snd) (x stat : List K) (threshold : K)
    (hlen : x.length = stat.length) (hne : stat ≠ []) :
    ∃ idx : List Nat, searchBestPeaks srt x stat threshold =
        .ok (idx.map fun i => x.getD i 0, idx.map fun i => stat.getD i 0) ∧
      idx.Pairwise (fun i j => stat.getD j 0 ≤ stat.getD i 0) ∧ idx.Nodup ∧
      (∀ i ∈ idx, ∃ a b, MaximalRun (stat.map fun s => decide (threshold ≤ s)) a b ∧ a ≤ i ∧ i < b ∧
        (∀ j, a ≤ j → j < b → stat.getD j 0 ≤ stat.getD i 0) ∧
        (∀ j, a ≤ j → j < i → stat.getD j 0 < stat.getD i 0)) ∧
      (∀ a b, MaximalRun (stat.map fun s => decide (threshold ≤ s)) a b → ∃ i ∈ idx, a ≤ i ∧ i < b) := by
  have hcne : (stat.map fun s => decide (threshold ≤ s)) ≠ [] := by simpa using hne
  obtain ⟨R, hR, h2, h3, h4⟩ := Gti.contiguous_regions_spec _ hcne
  have hruns := Gti.contiguous_regions_maximal_runs _ R hR
  simp only [List.length_map] at h3
  have hbest : ∀ r ∈ R, ∃ i, bestOf x stat r = some (x.getD i 0, stat.getD i 0) ∧ r.1 ≤ i ∧ i < r.2 ∧
      (∀ j, r.1 ≤ j → j < r.2 → stat.getD j 0 ≤ stat.getD i 0) ∧
      (∀ j, r.1 ≤ j → j < i → stat.getD j 0 < stat.getD i 0) :=
    fun r hr => bestOf_spec x stat hlen r (h3 r hr).1 (h3 r hr).2
  choose! f hf1 hf2 hf3 hf4 hf5 using hbest
  have hmap : R.filterMap (bestOf x stat) = (R.map f).map fun i => (x.getD i 0, stat.getD i 0) := by
    rw [List.map_map]
    clear h4 hR h2 hruns
    induction R with
    | nil => rfl
    | cons r R ih =>
      rw [List.filterMap_cons, hf1 r (by simp), List.map_cons,
        ih (fun r hr => h3 r (by simp [hr])) (fun r hr => hf1 r (by simp [hr])) (fun r hr => hf2 r (by simp [hr]))
          (fun r hr => hf3 r (by simp [hr])) (fun r hr => hf4 r (by simp [hr])) (fun r hr => hf5 r (by simp [hr]))]
      rfl
  have hperm := (List.reverse_perm _).trans (srt.perm (R.filterMap (bestOf x stat)))
  have hforall : List.Forall₂ (fun p (i : Nat) => p = (x.getD i 0, stat.getD i 0)) (R.filterMap (bestOf x stat)) (R.map f) := by
    rw [hmap]
    generalize R.map f = L
    induction L with
    | nil => exact List.Forall₂.nil
    | cons a L ih => exact List.Forall₂.cons rfl ih
  obtain ⟨idx, hidx, hpi⟩ := List.perm_comp_forall₂ hperm hforall
  have hsorted : (srt.sort (R.filterMap (bestOf x stat))).reverse = idx.map fun i => (x.getD i 0, stat.getD i 0) := by
    clear hpi
    generalize (srt.sort (R.filterMap (bestOf x stat))).reverse = S at hidx
    induction hidx with
    | nil => rfl
    | cons h _ ih => rw [List.map_cons, h, ih]
  refine ⟨idx, ?_, ?_, ?_, ?_, ?_⟩
  · unfold searchBestPeaks
    simp only [hR, bind, Except.bind, hsorted, List.map_map]
    rfl
  · have hs := srt.sorted (R.filterMap (bestOf x stat))
    rw [← List.pairwise_reverse, hsorted] at hs
    rw [List.pairwise_map] at hs
    exact hs
  · rw [hpi.nodup_iff]
    rw [List.Nodup, List.pairwise_map]
    refine h4.imp_of_mem ?_
    intro r q hr hq hrq
    have := hf3 r hr
    have := hf2 q hq
    omega
  · intro i hi
    rw [hpi.mem_iff, List.mem_map] at hi
    obtain ⟨r, hr, rfl⟩ := hi
    exact ⟨r.1, r.2, (hruns r.1 r.2).1 hr, hf2 r hr, hf3 r hr, hf4 r hr, hf5 r hr⟩
  · intro a b hab
    have hr := (hruns a b).2 hab
    exact ⟨f (a, b), by rw [hpi.mem_iff]; exact List.mem_map_of_mem hr, hf2 _ hr, hf3 _ hr⟩

/-- **C56 (nothing above the threshold).** With no sample above the threshold the result is empty. -/
theorem best_peaks_none (srt : KeySort (K := K) (α := K × K) Prod.snd) (x stat : List K) (threshold : K)
    (hlen : x.length = stat.length) (hne : stat ≠ []) (h : ∀ s ∈ stat, s < threshold) :
    searchBestPeaks srt x stat threshold = .ok ([], []) := by
  obtain ⟨idx, h1, -, -, h4, -⟩ := best_peaks_spec srt x stat threshold hlen hne
  cases idx with
  | nil => exact h1
  | cons i idx =>
    obtain ⟨a, b, ⟨-, hr, -⟩, ha, hb, -⟩ := h4 i (by simp)
    have := hr i ha hb
    rw [List.getElem?_map] at this
    cases hs : stat[i]? with
    | none => rw [hs] at this; cases this
    | some s =>
      rw [hs] at this
      simp only [Option.map_some, Option.some.injEq, decide_eq_true_iff] at this
      exact absurd (h s (List.mem_of_getElem? hs)) (not_lt.2 this)

example : searchBestPeaks (stableSort Prod.snd) [0, 1, 2, 3, 4, 5, (6 : ℚ)] [1, 7, 8, 2, 9, 1, 5] 5 =
    .ok ([4, 2, 6], [9, 8, 5]) := by decide +kernel

/-! ### Folding searches (C57) -/

/-- the times since the first event -/
def sinceFirst (times : List K) : List K := times.map (· - times.headD 0)

/-- **C57 (negation).** With the default `segment_size` the statistic, at every trial, is computed without the last event (and the events at the same time): only on those strictly before it, and nothing at all is computed when these span less than a fifth of the observation. -/
theorem folding_search_drops_last (stat : List K → K) (times : List K) (f fdot t0 tl : K) (hh : times.head? = some t0)
    (hl : times.getLast? = some tl) (hlt : t0 < tl) (hall : ∀ t ∈ times, t0 ≤ t) :
    let used := (times.map (· - t0)).filter fun t => decide (t < tl - t0)
    foldingSearch stat times f fdot none =
      .ok (match used.head?, used.getLast? with
        | some a, some b =>
          if b - a < 1 / 5 * (tl - t0) then none else some (stat (used.map fun t => pulsePhaseFast t f fdot))
        | _, _ => none) ∧
    used.length < times.length := by
  intro used
  have hlen0 : (times.map (· - t0)).getLastD 0 = tl - t0 := by
    rw [List.getLastD_eq_getLast?, List.getLast?_map, hl]
    rfl
  have hpos : 0 < tl - t0 := sub_pos.2 hlt
  have hused : (times.map (· - t0)).filter (fun t => decide ((0 : K) ≤ t) && decide (t < 0 + (tl - t0))) = used := by
    apply List.filter_congr
    intro t ht
    rw [List.mem_map] at ht
    obtain ⟨s, hs, rfl⟩ := ht
    have := hall s hs
    simp [sub_nonneg.2 this]
  constructor
  · unfold foldingSearch
    simp only [hh, hlen0, if_neg hpos.ne', div_self hpos.ne', Int.ceil_one, Int.toNat_one, List.range_one, List.map_cons,
      List.map_nil, Nat.cast_zero, zero_mul]
    have hseg : ∀ o : Option (List K), foldSegment (times.map (· - t0)) (tl - t0) 0 = o →
        [(0 : K)].filterMap (foldSegment (times.map (· - t0)) (tl - t0)) = o.toList := by
      intro o ho
      rw [List.filterMap_cons, ho]
      cases o <;> rfl
    cases hu1 : used.head? with
    | none =>
      rw [hseg none (by unfold foldSegment; simp only [hused, hu1])]
      simp
    | some a =>
      cases hu2 : used.getLast? with
      | none =>
        rw [hseg none (by unfold foldSegment; simp only [hused, hu1, hu2])]
        simp
      | some b =>
        dsimp only
        by_cases hc : b - a < 1 / 5 * (tl - t0)
        · rw [hseg none (by unfold foldSegment; simp only [hused, hu1, hu2, if_pos hc]), if_pos hc]
          simp
        · rw [hseg (some used) (by unfold foldSegment; simp only [hused, hu1, hu2, if_neg hc]), if_neg hc]
          simp
  · have hle : used.length ≤ (times.map (· - t0)).length := List.length_filter_le _ _
    rw [List.length_map] at hle
    rcases lt_or_eq_of_le hle with h | h
    · exact h
    · exfalso
      have : used = times.map (· - t0) := by
        apply List.Sublist.eq_of_length List.filter_sublist
        rw [List.length_map]; exact h
      have hmem : tl - t0 ∈ used := by
        rw [this, List.mem_map]
        exact ⟨tl, List.mem_of_getLast? hl, rfl⟩
      rw [List.mem_filter, decide_eq_true_iff] at hmem
      exact lt_irrefl _ hmem.2

/-- the statistic that counts the events: 4 of 5 -/
example : foldingSearch (fun l => (l.length : ℚ)) [0, 1, 2, 3, 4] (1/3) 0 none = .ok (some 4) := by decide +kernel

/-- **C57 (segments, partial).** With an explicit segment size `s`, at most the length of the observation: the result is the mean, over the segments whose events span at least `s/5`, of the statistic of the phases of the events of the segment; the
segment `i` has the events with `i s ≤ t - t0 < (i + 1) s`.
Missing: events at the end of the last segment, if this ends at the last event, are in no segment. -/
theorem folding_search_segments_partial (stat : List K → K) (times : List K) (f fdot t0 tl s : K) (hh : times.head? = some t0)
    (hl : times.getLast? = some tl) (hs : 0 < s) (hle : s ≤ tl - t0) :
    let events := fun i : Nat => (times.map (· - t0)).filter fun t => decide (⌊t / s⌋ = (i : ℤ))
    let kept := ((List.range (⌈(tl - t0) / s⌉).toNat).map events).filter fun ts =>
      !ts.isEmpty && decide (s / 5 ≤ ts.getLastD 0 - ts.headD 0)
    foldingSearch stat times f fdot (some s) =
      .ok (if kept = [] then none
        else some ((kept.map fun ts => stat (ts.map fun t => Int.fract (f * t + fdot * t ^ 2 / 2))).sum / kept.length)) := by
  intro events kept
  have hlen0 : (times.map (· - t0)).getLastD 0 = tl - t0 := by
    rw [List.getLastD_eq_getLast?, List.getLast?_map, hl]
    rfl
  have hev : ∀ i : Nat, (times.map (· - t0)).filter (fun t => decide ((i : K) * s ≤ t) && decide (t < (i : K) * s + s)) = events i := by
    intro i
    apply List.filter_congr
    intro t _
    rw [Bool.eq_iff_iff, Bool.and_eq_true, decide_eq_true_iff, decide_eq_true_iff, decide_eq_true_iff, Int.floor_eq_iff,
      le_div_iff₀ hs, div_lt_iff₀ hs]
    push_cast
    rw [add_mul, one_mul]
  have hseg : ∀ i : Nat, foldSegment (times.map (· - t0)) s ((i : K) * s) =
      if (!(events i).isEmpty && decide (s / 5 ≤ (events i).getLastD 0 - (events i).headD 0)) then some (events i) else none := by
    intro i
    unfold foldSegment
    simp only [hev i]
    cases he : events i with
    | nil => simp
    | cons a l =>
      have hlast : (a :: l).getLast? = some ((a :: l).getLastD 0) := by
        rw [List.getLastD_eq_getLast?]
        cases h : (a :: l).getLast? with
        | none => simp at h
        | some x => rfl
      simp only [List.head?_cons, hlast, List.isEmpty_cons, Bool.not_false, Bool.true_and]
      have hhd : (a :: l).headD 0 = a := rfl
      by_cases hc : (a :: l).getLastD 0 - a < 1 / 5 * s
      · rw [if_pos hc, if_neg (by intro hd; have := of_decide_eq_true hd; rw [hhd] at this; linarith)]
      · rw [if_neg hc, if_pos (decide_eq_true (by rw [hhd]; linarith))]
  have hkept : ((List.range (⌈(tl - t0) / s⌉).toNat).map fun (i : Nat) => (i : K) * s).filterMap (foldSegment (times.map (· - t0)) s) = kept := by
    show _ = ((List.range (⌈(tl - t0) / s⌉).toNat).map events).filter _
    generalize List.range (⌈(tl - t0) / s⌉).toNat = L
    induction L with
    | nil => rfl
    | cons i L ih =>
      rw [List.map_cons, List.filterMap_cons, hseg i, List.map_cons, List.filter_cons, ih]
      by_cases hc : (!(events i).isEmpty && decide (s / 5 ≤ (events i).getLastD 0 - (events i).headD 0)) = true
      · rw [if_pos hc, if_pos hc]
      · rw [if_neg hc, if_neg hc]
  have hph : ∀ t : K, pulsePhaseFast t f fdot = Int.fract (f * t + fdot * t ^ 2 / 2) := by
    intro t
    unfold pulsePhaseFast
    rw [Int.self_sub_floor]
    congr 1
    ring
  unfold foldingSearch
  simp only [hh, hlen0, if_neg (not_lt.2 hle), if_neg hs.ne', hkept, hph, List.length_eq_zero_iff]

example : foldingSearch (fun l : List ℚ => l.length) [1, 2, 3, 4, 5, 6, 7, 10] (1/4) 0 (some 3) = .ok (some 3) := by decide +kernel

end Stingray.Pulsar

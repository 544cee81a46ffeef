import Verif.Model.LcStart
import Mathlib.Data.Rat.Floor
import Mathlib.Tactic.Linarith

/-!
C193: joining light curves after applying GTIs.
-/

set_option linter.unusedSectionVars false

namespace Stingray.LcStart

open Stingray

variable {K : Type} [Field K] [LinearOrder K] [IsStrictOrderedRing K]

/-- **C193.** Two new light curves are always joined, and the samples of the one that starts first (at half a bin before its first time) come first. -/
theorem join_new (sqrt : K → K) (s t : List (K × K × K)) (dt dt' : K) (g h : List (K × K)) (a b : Curve K) (ha : new s dt g = .ok a) (hb : new t dt' h = .ok b) :
    ∃ x y, s.head? = some x ∧ t.head? = some y ∧
      joinCurves sqrt a b = .ok (if x.1 - dt / 2 < y.1 - dt' / 2 then Lightcurve.join sqrt s t else Lightcurve.join sqrt t s) := by
  unfold new at ha hb
  cases hs : s.head? with
  | none => rw [hs] at ha; simp at ha
  | some x =>
    cases hs' : s.getLast? with
    | none => rw [hs, hs'] at ha; simp at ha
    | some x' =>
      cases ht : t.head? with
      | none => rw [ht] at hb; simp at hb
      | some y =>
        cases ht' : t.getLast? with
        | none => rw [ht, ht'] at hb; simp at hb
        | some y' =>
          rw [hs, hs'] at ha
          rw [ht, ht'] at hb
          obtain rfl := Except.ok.inj ha
          obtain rfl := Except.ok.inj hb
          refine ⟨x, y, rfl, rfl, ?_⟩
          have e1 : x.1 - 1 / 2 * dt = x.1 - dt / 2 := by ring
          have e2 : y.1 - 1 / 2 * dt' = y.1 - dt' / 2 := by ring
          simp only [joinCurves, isLess, e1, e2]
          by_cases hlt : x.1 - dt / 2 < y.1 - dt' / 2
          · rw [decide_eq_true hlt, if_pos hlt]
          · rw [decide_eq_false hlt, if_neg hlt]

/-- **C193 (extent).** A new light curve goes from half a bin before its first time to half a bin after its last. -/
theorem new_extent (s : List (K × K × K)) (dt : K) (g : List (K × K)) (hs : s ≠ []) :
    ∃ c t, new s dt g = .ok c ∧ c.samples = s ∧ c.tstart = .number t ∧ t = (s.head hs).1 - dt / 2 ∧ t + c.tseg = (s.getLast hs).1 + dt / 2 := by
  have he : new s dt g = .ok { samples := s, dt := dt, gti := g, tstart := .number ((s.head hs).1 - 1 / 2 * dt), tseg := (s.getLast hs).1 - (s.head hs).1 + dt } := by
    simp only [new, List.head?_eq_some_head hs, List.getLast?_eq_some_getLast hs]
  exact ⟨_, _, he, rfl, rfl, by ring, by ring⟩

theorem maxOf_spec (x : K) (l : List K) (hx : x ∈ l) : maxOf x l ∈ l ∧ ∀ y ∈ l, y ≤ maxOf x l := by
  have key : ∀ (l : List K) (x : K), (maxOf x l = x ∨ maxOf x l ∈ l) ∧ x ≤ maxOf x l ∧ ∀ y ∈ l, y ≤ maxOf x l := by
    intro l
    induction l with
    | nil => intro x; simp [maxOf]
    | cons z l ih =>
      intro x
      obtain ⟨h1, h2, h3⟩ := ih (max x z)
      have e : maxOf x (z :: l) = maxOf (max x z) l := rfl
      rw [e]
      refine ⟨?_, le_trans (le_max_left _ _) h2, ?_⟩
      · rcases h1 with h | h
        · rcases max_choice x z with hm | hm
          · left; rw [h, hm]
          · right; rw [h, hm]; simp
        · right; exact List.mem_cons_of_mem _ h
      · intro y hy
        rcases List.mem_cons.1 hy with rfl | hy
        · exact le_trans (le_max_right _ _) h2
        · exact h3 y hy
  obtain ⟨h1, _, h3⟩ := key l x
  exact ⟨by rcases h1 with h | h; · rw [h]; exact hx
            · exact h, h3⟩

theorem minOf_spec (x : K) (l : List K) (hx : x ∈ l) : minOf x l ∈ l ∧ ∀ y ∈ l, minOf x l ≤ y := by
  have key : ∀ (l : List K) (x : K), (minOf x l = x ∨ minOf x l ∈ l) ∧ minOf x l ≤ x ∧ ∀ y ∈ l, minOf x l ≤ y := by
    intro l
    induction l with
    | nil => intro x; simp [minOf]
    | cons z l ih =>
      intro x
      obtain ⟨h1, h2, h3⟩ := ih (min x z)
      have e : minOf x (z :: l) = minOf (min x z) l := rfl
      rw [e]
      refine ⟨?_, le_trans h2 (min_le_left _ _), ?_⟩
      · rcases h1 with h | h
        · rcases min_choice x z with hm | hm
          · left; rw [h, hm]
          · right; rw [h, hm]; simp
        · right; exact List.mem_cons_of_mem _ h
      · intro y hy
        rcases List.mem_cons.1 hy with rfl | hy
        · exact le_trans h2 (min_le_right _ _)
        · exact h3 y hy
  obtain ⟨h1, _, h3⟩ := key l x
  exact ⟨by rcases h1 with h | h; · rw [h]; exact hx
            · exact h, h3⟩

/-- **C193 (applied GTIs).** Applying GTIs keeps the selected samples, the bin width and the GTIs, and sets the length to the time from the first to the last end of a GTI. -/
theorem apply_gtis_spec (mask : List Bool) (c : Curve K) (hg : c.gti ≠ []) :
    ∃ d lo hi, applyGtis mask c = .ok d ∧ d.samples = Gti.select mask c.samples ∧ d.dt = c.dt ∧ d.gti = c.gti ∧ d.tseg = hi - lo ∧
      (∃ g ∈ c.gti, lo = g.1 ∨ lo = g.2) ∧ (∃ g ∈ c.gti, hi = g.1 ∨ hi = g.2) ∧ ∀ g ∈ c.gti, (lo ≤ g.1 ∧ lo ≤ g.2) ∧ g.1 ≤ hi ∧ g.2 ≤ hi := by
  cases hc : c.gti with
  | nil => exact absurd hc hg
  | cons g gs =>
    have hmem : g.1 ∈ (g :: gs).flatMap fun g => [g.1, g.2] := List.mem_flatMap.2 ⟨g, by simp, by simp⟩
    obtain ⟨a1, a2⟩ := maxOf_spec g.1 _ hmem
    obtain ⟨b1, b2⟩ := minOf_spec g.1 _ hmem
    have he : applyGtis mask c = .ok { c with
        samples := Gti.select mask c.samples
        tstart := .array ((Gti.select mask c.samples).map fun s => s.1 - 1 / 2 * c.dt)
        tseg := maxOf g.1 ((g :: gs).flatMap fun g => [g.1, g.2]) - minOf g.1 ((g :: gs).flatMap fun g => [g.1, g.2]) } := by
      simp only [applyGtis, hc]
    refine ⟨_, _, _, he, rfl, rfl, hc, rfl, ?_, ?_, ?_⟩
    · obtain ⟨x, hx, he⟩ := List.mem_flatMap.1 b1
      exact ⟨x, hx, by simpa using he⟩
    · obtain ⟨x, hx, he⟩ := List.mem_flatMap.1 a1
      exact ⟨x, hx, by simpa using he⟩
    · intro x hx
      have h1 : x.1 ∈ (g :: gs).flatMap fun g => [g.1, g.2] := List.mem_flatMap.2 ⟨x, hx, by simp⟩
      have h2 : x.2 ∈ (g :: gs).flatMap fun g => [g.1, g.2] := List.mem_flatMap.2 ⟨x, hx, by simp⟩
      exact ⟨⟨b2 _ h1, b2 _ h2⟩, a2 _ h1, a2 _ h2⟩

/-- **C193 (negation).** A light curve with two bins or more left after applying GTIs cannot be joined with any other, in either order: its start is an array. -/
theorem join_after_gtis (sqrt : K → K) (mask : List Bool) (c d e : Curve K) (hd : applyGtis mask c = .ok d) (h2 : 2 ≤ d.samples.length) :
    joinCurves sqrt d e = .error .valueError ∧ joinCurves sqrt e d = .error .valueError := by
  unfold applyGtis at hd
  cases hc : c.gti with
  | nil => rw [hc] at hd; simp at hd
  | cons g gs =>
    rw [hc] at hd
    simp only [Except.ok.injEq] at hd
    subst hd
    match hs : Gti.select mask c.samples, h2 with
    | x :: y :: l, _ =>
      unfold joinCurves
      simp only [List.map_cons]
      constructor
      · cases e.tstart <;> rfl
      · cases e.tstart with
        | number z => rfl
        | array l =>
          match l with
          | [] => rfl
          | [_] => rfl
          | _ :: _ :: _ => rfl

/-- Joining two new light curves, and after applying the GTIs of the first. -/
example : ∃ a b c : Curve ℚ, new [(0, 1, 1), (1, 2, 1), (2, 3, 1)] 1 [(-1/2, 3/2)] = .ok a ∧ new [(5, 1, 1), (6, 2, 1)] 1 [(9/2, 13/2)] = .ok b ∧ applyGtis [true, true, false] a = .ok c ∧
    joinCurves id a b = .ok [(0, 1, 1), (1, 2, 1), (2, 3, 1), (5, 1, 1), (6, 2, 1)] ∧ joinCurves id c b = .error .valueError ∧ 2 ≤ c.samples.length := by
  refine ⟨_, _, _, rfl, rfl, rfl, ?_, ?_, ?_⟩ <;> decide +kernel

end Stingray.LcStart

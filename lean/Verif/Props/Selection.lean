import Verif.Model.Lightcurve
import Verif.Spec.Rows
import Verif.Props.Filters
import Mathlib.Algebra.Order.Ring.Rat
import Mathlib.Data.Rat.Floor
import Mathlib.Tactic.NormNum
import Mathlib.Tactic.Linarith
import Mathlib.Tactic.FieldSimp
import Mathlib.Tactic.Ring

/-!
Energy filters, fitting of segment sizes and sampling times, and joining of light curves
(C37, C76, C77, C78).
-/

set_option linter.unusedSectionVars false

namespace Stingray.Lightcurve

variable {K : Type} [Field K] [LinearOrder K] [IsStrictOrderedRing K]

/-! ### Energy filters (C37) -/

theorem select_map_zip {α : Type} (p : K → Bool) : ∀ (es : List K) (a : List α), es.length = a.length →
    Gti.select (es.map p) a = ((es.zip a).filter (fun x => p x.1)).map Prod.snd := by
  intro es
  induction es with
  | nil => intro a h; cases a <;> simp_all [Gti.select]
  | cons e es ih =>
    intro a h
    cases a with
    | nil => simp at h
    | cons x a =>
      have := ih a (by simpa using h)
      simp only [Gti.select] at this ⊢
      simp only [List.map_cons, List.zip_cons_cons, List.filterMap_cons, List.filter_cons]
      cases hp : p e <;> simp [hp, this]

/-- **C37 (band).** The energy filter keeps, in order and in every array of the list, exactly the rows of the events with lower limit ≤ energy <
upper limit. -/
theorem filter_energy_exact {α : Type} (energies : List K) (range : K × K) (a : List α)
    (hlen : energies.length = a.length) :
    filterEnergyRange energies range a =
      ((energies.zip a).filter (fun x => decide (range.1 ≤ x.1 ∧ x.1 < range.2))).map Prod.snd := by
  unfold filterEnergyRange energyMask
  rw [select_map_zip _ _ _ hlen]
  congr 1
  apply List.filter_congr
  intro x _
  simp

/-- number of energies in a band -/
def bandCount (energies : List K) (range : K × K) : Nat :=
  (energies.filter (fun e => decide (range.1 ≤ e ∧ e < range.2))).length

theorem filter_energy_length (energies : List K) (range : K × K) (a : List K)
    (hlen : energies.length = a.length) :
    (filterEnergyRange energies range a).length = bandCount energies range := by
  rw [filter_energy_exact _ _ _ hlen, List.length_map]
  unfold bandCount
  have : energies = (energies.zip a).map Prod.fst := (List.map_fst_zip hlen.le).symm
  conv_rhs => rw [this, List.filter_map, List.length_map]
  rfl

theorem bandCount_add (energies : List K) (a b c : K) (hab : a ≤ b) (hbc : b ≤ c) :
    bandCount energies (a, b) + bandCount energies (b, c) = bandCount energies (a, c) := by
  unfold bandCount
  induction energies with
  | nil => rfl
  | cons e es ih =>
    simp only [List.filter_cons] at ih ⊢
    by_cases h1 : a ≤ e <;> by_cases h2 : e < b <;> by_cases h3 : e < c
    all_goals
      first
      | (exfalso; linarith)
      | (simp [h1, h2, h3, not_le.2, not_lt.1, le_of_not_gt] at ih ⊢
         try simp [h1, h2, h3, not_le, not_lt] at *
         try omega)

/-- **C37.** Adjacent energy bands tile: for any increasing edges, the numbers of events that the filters of the successive bands keep add up
to the number kept by the filter of the whole range. -/
theorem energy_bands_tile (energies a : List K) (hlen : energies.length = a.length) :
    ∀ (edges : List K) (e0 : K), List.Pairwise (· ≤ ·) (e0 :: edges) →
    (((e0 :: edges).zip edges).map (fun r => (filterEnergyRange energies r a).length)).sum =
      (filterEnergyRange energies (e0, (e0 :: edges).getLast (by simp)) a).length := by
  intro edges
  simp only [filter_energy_length _ _ _ hlen]
  induction edges with
  | nil =>
    intro e0 _
    have : bandCount energies (e0, e0) = 0 := by
      unfold bandCount
      rw [List.length_eq_zero_iff, List.filter_eq_nil_iff]
      intro x _
      simp only [decide_eq_true_eq, not_and, not_lt]
      exact fun h => h
    simp [this]
  | cons e1 edges ih =>
    intro e0 h
    rw [List.pairwise_cons] at h
    rw [List.zip_cons_cons, List.map_cons, List.sum_cons, ih e1 h.2]
    have hl : (e0 :: e1 :: edges).getLast (by simp) = (e1 :: edges).getLast (by simp) :=
      List.getLast_cons (by simp)
    rw [hl]
    apply bandCount_add
    · exact h.1 _ (by simp)
    · have := List.getLast_mem (l := e1 :: edges) (by simp)
      rcases List.mem_cons.1 this with e | hm
      · rw [e]
      · exact (List.pairwise_cons.1 h.2).1 _ hm

/-- **C37 (no event twice).** No event is kept by two different bands of an increasing sequence of edges. -/
theorem energy_bands_disjoint (edges : List K) (hs : List.Pairwise (· ≤ ·) edges) (i j : Nat) (hij : i < j)
    (hj : j + 1 < edges.length) (e : K) :
    ¬ ((edges[i] ≤ e ∧ e < edges[i + 1]) ∧ (edges[j] ≤ e ∧ e < edges[j + 1])) := by
  rintro ⟨⟨_, h1⟩, h2, _⟩
  have : edges[i + 1] ≤ edges[j] := by
    rcases Nat.lt_or_ge (i + 1) j with h | h
    · exact List.pairwise_iff_getElem.1 hs (i + 1) j (by omega) (by omega) h
    · have : i + 1 = j := by omega
      simp only [this]; exact le_refl _
  exact absurd (lt_of_lt_of_le h1 this) (not_lt.2 h2)

example : filterEnergyRange [(3 : ℚ), 5, 7, 10] (3, 7) ["a", "b", "c", "d"] = ["a", "b"] ∧
    filterEnergyRange [(3 : ℚ), 5, 7, 10] (7, 10) ["a", "b", "c", "d"] = ["c"] := by decide +kernel

/-! ### Segment sizes and sampling times (C76, C77) -/

section
variable [FloorRing K]

/-- **C76.** The fitted segment size is a whole number of samples; it exceeds the requested size by less than the tolerance times the sampling time, and falls
short of it by less than one sampling time. -/
theorem fix_segment_size_bounds (seg dt tol : K) (hdt : 0 < dt) (htol : 0 < tol) :
    (fixSegmentSize seg dt tol).1 = (fixSegmentSize seg dt tol).2 * dt ∧
    (fixSegmentSize seg dt tol).1 < seg + tol * dt ∧ seg - dt < (fixSegmentSize seg dt tol).1 := by
  have hs : seg = seg / dt * dt := by field_simp
  refine ⟨rfl, ?_, ?_⟩
  · unfold fixSegmentSize
    dsimp only
    split_ifs with h
    · have : (⌈seg / dt⌉ : K) < seg / dt + tol := by linarith
      have := mul_lt_mul_of_pos_right this hdt
      rw [add_mul, ← hs] at this
      exact this
    · have := mul_le_mul_of_nonneg_right (Int.floor_le (seg / dt)) hdt.le
      rw [← hs] at this
      have := mul_pos htol hdt
      linarith
  · unfold fixSegmentSize
    dsimp only
    split_ifs with h
    · have := mul_le_mul_of_nonneg_right (Int.le_ceil (seg / dt)) hdt.le
      rw [← hs] at this
      linarith
    · have := mul_lt_mul_of_pos_right (Int.sub_one_lt_floor (seg / dt)) hdt
      rw [sub_mul, ← hs] at this
      linarith

/-- **C76 (idempotent).** A segment size that already is a whole number of samples is not changed, whatever the tolerance. -/
theorem fix_segment_size_exact (n : Int) (dt tol : K) (hdt : 0 < dt) :
    fixSegmentSize ((n : K) * dt) dt tol = ((n : K) * dt, n) := by
  have e : (n : K) * dt / dt = n := by field_simp
  unfold fixSegmentSize
  simp only [e, Int.ceil_intCast, Int.floor_intCast, ite_self]

example : fixSegmentSize (1001/10 : ℚ) 1 (1/100) = (100, 100) ∧
    fixSegmentSize (9999/10000 * 100 : ℚ) 1 (1/10) = (100, 100) := by decide +kernel

/-- **C77.** For an event list with time resolution `evdt`, the suggested bin time is a whole number (at least 1) of `evdt` unless it is already close to
`evdt`; it is within half of `evdt` of the requested one whenever that is at least `evdt / 2`.  For a list without a time resolution it
is the requested one. -/
theorem suggest_dt_multiple (rint : K → Int) (hrint : ∀ x, |(rint x : K) - x| ≤ 1 / 2)
    (isclose : K → K → Bool) (evdt dt : K) :
    (evdt ≤ 0 → suggestCompatibleDt rint isclose evdt dt = dt) ∧
    (isclose evdt dt = true → suggestCompatibleDt rint isclose evdt dt = dt) ∧
    (0 < evdt → isclose evdt dt = false →
      (∃ n : Int, 1 ≤ n ∧ suggestCompatibleDt rint isclose evdt dt = evdt * n) ∧
      (evdt / 2 ≤ dt → |suggestCompatibleDt rint isclose evdt dt - dt| ≤ evdt / 2)) := by
  refine ⟨fun h => ?_, fun h => ?_, fun h0 hc => ⟨?_, fun hd => ?_⟩⟩
  · simp [suggestCompatibleDt, not_lt.2 h]
  · simp [suggestCompatibleDt, h]
  · exact ⟨max (rint (dt / evdt)) 1, le_max_right _ _, by simp only [suggestCompatibleDt, h0, hc, and_self, if_true]⟩
  · simp only [suggestCompatibleDt, h0, hc, and_self, if_true]
    have hx := hrint (dt / evdt)
    have hd' : 1 / 2 ≤ dt / evdt := by
      rw [le_div_iff₀ h0]; linarith
    have key : |((max (rint (dt / evdt)) 1 : Int) : K) - dt / evdt| ≤ 1 / 2 := by
      rcases le_or_gt 1 (rint (dt / evdt)) with h1 | h1
      · rw [max_eq_left h1]; exact hx
      · rw [max_eq_right h1.le]
        have h2 : rint (dt / evdt) ≤ 0 := by omega
        have h2' : (rint (dt / evdt) : K) ≤ 0 := by exact_mod_cast h2
        rw [abs_le] at hx ⊢
        push_cast
        constructor <;> linarith [hx.1, hx.2]
    have e : evdt * ((max (rint (dt / evdt)) 1 : Int) : K) - dt =
        evdt * (((max (rint (dt / evdt)) 1 : Int) : K) - dt / evdt) := by
      field_simp
    rw [e, abs_mul, abs_of_pos h0]
    have := mul_le_mul_of_nonneg_left key h0.le
    linarith

example : suggestCompatibleDt (fun x : ℚ => ⌊x + 1/2⌋) (fun a b => decide (a = b)) (1/10) (1/4) = 3/10 ∧
    suggestCompatibleDt (fun x : ℚ => ⌊x + 1/2⌋) (fun a b => decide (a = b)) (1/10) (1/40) = 1/10 := by
  decide +kernel

end

/-! ### Joining light curves (C78) -/

/-- Has the light curve a sample at the time `t`? -/
def HasTime (d : List (K × K × K)) (t : K) : Prop := ∃ y ∈ d, y.1 = t

instance (d : List (K × K × K)) (t : K) : Decidable (HasTime d t) := by unfold HasTime; infer_instance

/-- The sample that the joined light curve should have at the time of `x`, a sample of the first one. -/
def averaged (sqrt : K → K) (b : List (K × K × K)) (x : K × K × K) : K × K × K :=
  match b.find? (fun y => decide (y.1 = x.1)) with
  | some y => (x.1, (x.2.1 + y.2.1) / 2, sqrt ((x.2.2 * x.2.2 + y.2.2 * y.2.2) / 2))
  | none => x

theorem averaged_fst (sqrt : K → K) (b : List (K × K × K)) (x : K × K × K) :
    (averaged sqrt b x).1 = x.1 := by
  unfold averaged; split <;> rfl

theorem hasTime_iff (d : List (K × K × K)) (t : K) : HasTime d t ↔ t ∈ d.map Prod.fst := by
  simp [HasTime]

theorem joinInsert_absent (sqrt : K → K) (d : List (K × K × K)) (x : K × K × K) (h : ¬ HasTime d x.1) :
    joinInsert sqrt d x = d ++ [x] := by
  unfold joinInsert
  have : d.findIdx? (fun y => decide (y.1 = x.1)) = none := by
    rw [List.findIdx?_eq_none_iff]
    intro y hy
    simp only [decide_eq_false_iff_not]
    exact fun e => h ⟨y, hy, e⟩
  rw [this]

theorem joinFirst_absent (d : List (K × K × K)) (x : K × K × K) (h : ¬ HasTime d x.1) :
    joinFirst d x = d ++ [x] := by
  unfold joinFirst
  have : d.findIdx? (fun y => decide (y.1 = x.1)) = none := by
    rw [List.findIdx?_eq_none_iff]
    intro y hy
    simp only [decide_eq_false_iff_not]
    exact fun e => h ⟨y, hy, e⟩
  rw [this]

theorem joinFirst_foldl (l : List (K × K × K)) : ∀ d : List (K × K × K),
    ((d ++ l).map Prod.fst).Nodup → l.foldl joinFirst d = d ++ l := by
  induction l with
  | nil => simp
  | cons x l ih =>
    intro d hn
    rw [List.foldl_cons, joinFirst_absent, ih]
    · simp
    · simpa using hn
    · rintro ⟨y, hy, e⟩
      rw [List.map_append, List.nodup_append] at hn
      exact hn.2.2 y.1 (List.mem_map_of_mem hy) x.1 (by simp) e

theorem joinInsert_present (sqrt : K → K) (x : K × K × K) : ∀ d : List (K × K × K),
    (d.map Prod.fst).Nodup → HasTime d x.1 →
    joinInsert sqrt d x = d.map (fun y => if y.1 = x.1 then
      (y.1, (y.2.1 + x.2.1) / 2, sqrt ((y.2.2 * y.2.2 + x.2.2 * x.2.2) / 2)) else y) := by
  intro d
  induction d with
  | nil => rintro _ ⟨y, hy, _⟩; simp at hy
  | cons z d ih =>
    intro hn hh
    rw [List.map_cons, List.nodup_cons] at hn
    by_cases hz : z.1 = x.1
    · unfold joinInsert
      rw [List.findIdx?_cons]
      simp only [hz, decide_true, if_true, List.map_cons]
      simp only [List.modify_zero_cons, hz]
      congr 1
      symm
      conv_rhs => rw [← List.map_id d]
      apply List.map_congr_left
      intro y hy
      have : y.1 ≠ x.1 := by
        intro e
        exact hn.1 (by rw [hz, ← e]; exact List.mem_map_of_mem hy)
      simp [this]
    · have hh' : HasTime d x.1 := by
        obtain ⟨y, hy, e⟩ := hh
        rcases List.mem_cons.1 hy with rfl | hy
        · exact absurd e hz
        · exact ⟨y, hy, e⟩
      have := ih hn.2 hh'
      unfold joinInsert at this ⊢
      rw [List.findIdx?_cons]
      simp only [hz, decide_false, Bool.false_eq_true, if_false, List.map_cons]
      cases hf : d.findIdx? (fun y => decide (y.1 = x.1)) with
      | none =>
        rw [List.findIdx?_eq_none_iff] at hf
        obtain ⟨y, hy, e⟩ := hh'
        have := hf y hy
        simp [e] at this
      | some i =>
        rw [hf] at this
        simp only [Option.map_some, List.modify_succ_cons] at this ⊢
        rw [this]

theorem join_foldl (sqrt : K → K) (b : List (K × K × K)) : ∀ d : List (K × K × K),
    (d.map Prod.fst).Nodup → (b.map Prod.fst).Nodup →
    b.foldl (joinInsert sqrt) d = d.map (averaged sqrt b) ++ b.filter (fun y => decide (¬ HasTime d y.1)) := by
  induction b with
  | nil =>
    intro d _ _
    simp only [List.foldl_nil, List.filter_nil, List.append_nil]
    conv_lhs => rw [← List.map_id d]
    apply List.map_congr_left
    intro y _
    simp [averaged]
  | cons x b ih =>
    intro d hd hb
    rw [List.map_cons, List.nodup_cons] at hb
    have hxb : b.find? (fun y => decide (y.1 = x.1)) = none := by
      rw [List.find?_eq_none]
      intro y hy
      simp only [decide_eq_true_eq]
      exact fun e => hb.1 (by rw [← e]; exact List.mem_map_of_mem hy)
    rw [List.foldl_cons]
    by_cases hx : HasTime d x.1
    · have e := joinInsert_present sqrt x d hd hx
      have hfst : (joinInsert sqrt d x).map Prod.fst = d.map Prod.fst := by
        rw [e, List.map_map]
        apply List.map_congr_left
        intro y _
        simp only [Function.comp]
        split_ifs <;> rfl
      rw [ih _ (by rw [hfst]; exact hd) hb.2]
      have hf : (fun y : K × K × K => decide (¬ HasTime (joinInsert sqrt d x) y.1)) =
          (fun y => decide (¬ HasTime d y.1)) := by
        funext y
        rw [decide_eq_decide, hasTime_iff, hasTime_iff, hfst]
      rw [hf, List.filter_cons]
      simp only [hx, not_true, decide_false, Bool.false_eq_true, if_false]
      congr 1
      rw [e, List.map_map]
      apply List.map_congr_left
      intro y _
      simp only [Function.comp]
      by_cases hy : y.1 = x.1
      · simp only [hy, if_true]
        have e1 : averaged sqrt b (x.1, (y.2.1 + x.2.1) / 2, sqrt ((y.2.2 * y.2.2 + x.2.2 * x.2.2) / 2)) =
            (x.1, (y.2.1 + x.2.1) / 2, sqrt ((y.2.2 * y.2.2 + x.2.2 * x.2.2) / 2)) := by
          unfold averaged
          simp only [hxb]
        rw [e1]
        unfold averaged
        rw [List.find?_cons_of_pos (by simp [hy])]
        simp [hy]
      · simp only [hy, if_false]
        unfold averaged
        rw [List.find?_cons_of_neg (by simpa using fun h => hy h.symm)]
    · rw [joinInsert_absent sqrt d x hx]
      have hxd : x.1 ∉ d.map Prod.fst := by rw [← hasTime_iff]; exact hx
      rw [ih _ ?_ hb.2]
      · rw [List.map_append, List.filter_cons]
        simp only [hx, not_false_eq_true, decide_true, if_true]
        have e1 : [x].map (averaged sqrt b) = [x] := by
          simp [averaged, hxb]
        have e2 : d.map (averaged sqrt b) = d.map (averaged sqrt (x :: b)) := by
          apply List.map_congr_left
          intro y hy
          unfold averaged
          have : ¬ x.1 = y.1 := by
            intro e
            exact hxd (by rw [e]; exact List.mem_map_of_mem hy)
          rw [List.find?_cons_of_neg (by simpa using this)]
        have e3 : b.filter (fun y => decide (¬ HasTime (d ++ [x]) y.1)) =
            b.filter (fun y => decide (¬ HasTime d y.1)) := by
          apply List.filter_congr
          intro y hy
          rw [decide_eq_decide, hasTime_iff, hasTime_iff, List.map_append, List.mem_append]
          have : y.1 ≠ x.1 := fun e => hb.1 (by rw [← e]; exact List.mem_map_of_mem hy)
          simp [this]
        rw [e1, e2, e3]
        simp
      · rw [List.map_append, List.nodup_append]
        refine ⟨hd, by simp, ?_⟩
        intro a ha c hc e
        simp at hc
        exact hxd (by rw [← hc, ← e]; exact ha)

/-- **C78 (partial).** Joining two light curves (each without repeated times): the samples of the first come first, in order, those at times
common to both averaged (errors combined); then those of the second at times that the first does not have.  So every time of either
appears exactly once, and without common times no sample changes.
What is missing from C78: the result is not ordered in time (see the negation). -/
theorem join_samples_partial (sqrt : K → K) (a b : List (K × K × K))
    (ha : (a.map Prod.fst).Nodup) (hb : (b.map Prod.fst).Nodup) :
    join sqrt a b = a.map (averaged sqrt b) ++ b.filter (fun y => decide (¬ HasTime a y.1)) ∧
    ((join sqrt a b).map Prod.fst).Nodup ∧
    (∀ t, t ∈ (join sqrt a b).map Prod.fst ↔ t ∈ a.map Prod.fst ∨ t ∈ b.map Prod.fst) := by
  have main : join sqrt a b = a.map (averaged sqrt b) ++ b.filter (fun y => decide (¬ HasTime a y.1)) := by
    unfold join
    split_ifs with h
    · have : a.foldl joinFirst [] = a := by
        simpa using joinFirst_foldl a [] (by simpa using ha)
      rw [this]
      exact join_foldl sqrt b a ha hb
    · simp only [List.any_eq_true, decide_eq_true_eq, not_exists, not_and] at h
      congr 1
      · conv_lhs => rw [← List.map_id a]
        apply List.map_congr_left
        intro x hx
        unfold averaged
        have : b.find? (fun y => decide (y.1 = x.1)) = none := by
          rw [List.find?_eq_none]
          intro y hy
          simpa using fun e => h x hx y hy e.symm
        rw [this]
        rfl
      · symm
        rw [List.filter_eq_self]
        intro y hy
        simp only [decide_eq_true_eq]
        rintro ⟨x, hx, e⟩
        exact h x hx y hy e
  have hfst : (join sqrt a b).map Prod.fst = a.map Prod.fst ++
      (b.map Prod.fst).filter (fun t => decide (t ∉ a.map Prod.fst)) := by
    rw [main, List.map_append, List.map_map, List.filter_map]
    congr 1
    · apply List.map_congr_left
      intro x _
      exact averaged_fst sqrt b x
    · congr 1
      apply List.filter_congr
      intro y _
      simp only [Function.comp]
      rw [decide_eq_decide, hasTime_iff]
  refine ⟨main, ?_, ?_⟩
  · rw [hfst, List.nodup_append]
    refine ⟨ha, hb.filter _, ?_⟩
    intro t ht s hs e
    rw [List.mem_filter] at hs
    simp only [decide_eq_true_eq] at hs
    exact hs.2 (e ▸ ht)
  · intro t
    rw [hfst, List.mem_append, List.mem_filter]
    simp only [decide_eq_true_eq]
    tauto

theorem joinFirst_cons (z x : K × K × K) (d : List (K × K × K)) :
    joinFirst (z :: d) x = if z.1 = x.1 then x :: d else z :: joinFirst d x := by
  unfold joinFirst
  rw [List.findIdx?_cons]
  by_cases h : z.1 = x.1
  · simp [h]
  · simp only [h, decide_false, Bool.false_eq_true, if_false]
    cases d.findIdx? fun y => decide (y.1 = x.1) <;> simp

theorem joinInsert_cons (sqrt : K → K) (z x : K × K × K) (d : List (K × K × K)) :
    joinInsert sqrt (z :: d) x =
      if z.1 = x.1 then (z.1, (z.2.1 + x.2.1) / 2, sqrt ((z.2.2 * z.2.2 + x.2.2 * x.2.2) / 2)) :: d else z :: joinInsert sqrt d x := by
  unfold joinInsert
  rw [List.findIdx?_cons]
  by_cases h : z.1 = x.1
  · simp [h]
  · simp only [h, decide_false, Bool.false_eq_true, if_false]
    cases d.findIdx? fun y => decide (y.1 = x.1) <;> simp

theorem joinFirst_fst (d : List (K × K × K)) (x : K × K × K) :
    (joinFirst d x).map Prod.fst = if x.1 ∈ d.map Prod.fst then d.map Prod.fst else d.map Prod.fst ++ [x.1] := by
  induction d with
  | nil => simp [joinFirst]
  | cons z d ih =>
    rw [joinFirst_cons]
    by_cases h : z.1 = x.1
    · simp [h]
    · rw [if_neg h, List.map_cons, ih]
      have h' : ¬ x.1 = z.1 := fun e => h e.symm
      by_cases h2 : x.1 ∈ d.map Prod.fst
      · simp only [List.map_cons, List.mem_cons, h2, or_true, if_true]
      · simp only [List.map_cons, List.mem_cons, h2, or_false, h', if_false, List.cons_append]

theorem joinInsert_fst (sqrt : K → K) (d : List (K × K × K)) (x : K × K × K) :
    (joinInsert sqrt d x).map Prod.fst = if x.1 ∈ d.map Prod.fst then d.map Prod.fst else d.map Prod.fst ++ [x.1] := by
  induction d with
  | nil => simp [joinInsert]
  | cons z d ih =>
    rw [joinInsert_cons]
    by_cases h : z.1 = x.1
    · simp [h]
    · rw [if_neg h, List.map_cons, ih]
      have h' : ¬ x.1 = z.1 := fun e => h e.symm
      by_cases h2 : x.1 ∈ d.map Prod.fst
      · simp only [List.map_cons, List.mem_cons, h2, or_true, if_true]
      · simp only [List.map_cons, List.mem_cons, h2, or_false, h', if_false, List.cons_append]

theorem foldl_nodup (f : List (K × K × K) → K × K × K → List (K × K × K))
    (hf : ∀ d x, (f d x).map Prod.fst = if x.1 ∈ d.map Prod.fst then d.map Prod.fst else d.map Prod.fst ++ [x.1]) (l : List (K × K × K)) :
    ∀ d, (d.map Prod.fst).Nodup → ((l.foldl f d).map Prod.fst).Nodup := by
  induction l with
  | nil => intro d h; exact h
  | cons x l ih =>
    intro d h
    rw [List.foldl_cons]
    apply ih
    rw [hf]
    split_ifs with hx
    · exact h
    · rw [List.nodup_append]
      refine ⟨h, by simp, ?_⟩
      intro a ha b hb e
      rw [List.mem_singleton] at hb
      exact hx (by rw [← hb, ← e]; exact ha)

theorem joinFirst_find (d : List (K × K × K)) (x : K × K × K) (t : K) :
    (joinFirst d x).find? (fun y => decide (y.1 = t)) = if x.1 = t then some x else d.find? (fun y => decide (y.1 = t)) := by
  induction d with
  | nil => by_cases h : x.1 = t <;> simp [joinFirst, h]
  | cons z d ih =>
    rw [joinFirst_cons]
    by_cases h : z.1 = x.1
    · rw [if_pos h]
      by_cases h2 : x.1 = t
      · simp [h2]
      · simp [h2, h]
    · rw [if_neg h]
      by_cases h2 : z.1 = t
      · have h3 : ¬ x.1 = t := fun e => h (by rw [h2, e])
        simp [h2, h3]
      · simp [h2, ih]

theorem joinInsert_find (sqrt : K → K) (d : List (K × K × K)) (x : K × K × K) (t : K) (hx : x.1 ≠ t) :
    (joinInsert sqrt d x).find? (fun y => decide (y.1 = t)) = d.find? (fun y => decide (y.1 = t)) := by
  induction d with
  | nil => simp [joinInsert, hx]
  | cons z d ih =>
    rw [joinInsert_cons]
    by_cases h : z.1 = x.1
    · rw [if_pos h]
      have h2 : ¬ z.1 = t := fun e => hx (by rw [← h, e])
      simp [h2]
    · rw [if_neg h]
      by_cases h2 : z.1 = t
      · simp [h2]
      · simp [h2, ih]

/-- **C78 (repeated times, partial).** Whatever times are repeated in either light curve, once the two have a time in common every time appears once in the joined one; and at a time that only the first light curve has, possibly many times, the joined one has the last of its samples. -/
theorem join_repeated_partial (sqrt : K → K) (a b : List (K × K × K)) (hab : ∃ x ∈ a, ∃ y ∈ b, x.1 = y.1) :
    ((join sqrt a b).map Prod.fst).Nodup ∧
    ∀ t, (∀ y ∈ b, y.1 ≠ t) →
      (join sqrt a b).find? (fun y => decide (y.1 = t)) = a.reverse.find? (fun y => decide (y.1 = t)) := by
  have hif : a.any (fun x => b.any fun y => decide (x.1 = y.1)) = true := by
    obtain ⟨x, hx, y, hy, e⟩ := hab
    rw [List.any_eq_true]
    exact ⟨x, hx, by rw [List.any_eq_true]; exact ⟨y, hy, by simpa using e⟩⟩
  unfold join
  rw [if_pos hif]
  constructor
  · exact foldl_nodup _ (joinInsert_fst sqrt) b _ (foldl_nodup _ joinFirst_fst a [] (by simp))
  · intro t ht
    have h1 : ∀ (l : List (K × K × K)) d, (∀ y ∈ l, y.1 ≠ t) →
        (l.foldl (joinInsert sqrt) d).find? (fun y => decide (y.1 = t)) = d.find? (fun y => decide (y.1 = t)) := by
      intro l
      induction l with
      | nil => intro d _; rfl
      | cons x l ih =>
        intro d h
        rw [List.foldl_cons, ih _ fun y hy => h y (List.mem_cons_of_mem _ hy), joinInsert_find sqrt d x t (h x (by simp))]
    have h2 : ∀ (l : List (K × K × K)) d,
        (l.foldl joinFirst d).find? (fun y => decide (y.1 = t)) =
          (l.reverse.find? (fun y => decide (y.1 = t))).or (d.find? (fun y => decide (y.1 = t))) := by
      intro l
      induction l with
      | nil => intro d; rfl
      | cons x l ih =>
        intro d
        rw [List.foldl_cons, ih, joinFirst_find, List.reverse_cons, List.find?_append]
        cases l.reverse.find? fun y => decide (y.1 = t) with
        | some w => rfl
        | none => by_cases hx : x.1 = t <;> simp [hx]
    rw [h1 b _ ht, h2]
    simp

example : join (fun x : ℚ => x) [(1, 3, 1), (1, 7, 1), (2, 4, 1)] [(2, 6, 1), (3, 1, 1)] =
    [(1, 7, 1), (2, 5, 1), (3, 1, 1)] := by decide +kernel

/-- **C78 (negation).** The joined light curve need not be in time order although both light curves are: with overlapping spans the new
samples of the second are put after all those of the first. -/
theorem join_not_sorted : ∃ a b : List (ℚ × ℚ × ℚ),
    (a.map Prod.fst).Pairwise (· < ·) ∧ (b.map Prod.fst).Pairwise (· < ·) ∧
    (∀ x ∈ a.head?, ∀ y ∈ b.head?, x.1 ≤ y.1) ∧
    ¬ ((join (fun x => x) a b).map Prod.fst).Pairwise (· ≤ ·) :=
  ⟨[(1, 3, 1), (2, 4, 1), (3, 5, 1), (4, 1, 1)], [(5/2, 1, 1), (7/2, 1, 1)], by decide +kernel⟩

example : join (fun x : ℚ => x) [(1, 3, 1), (2, 4, 1)] [(2, 6, 1), (3, 1, 1)] =
    [(1, 3, 1), (2, 5, 1), (3, 1, 1)] := by decide +kernel

end Stingray.Lightcurve

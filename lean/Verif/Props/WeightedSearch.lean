import Verif.Model.WeightedSearch
import Verif.Props.Folding

/-!
C191: folding searches with weights or exposure correction.
-/

set_option linter.unusedSectionVars false

namespace Stingray.WeightedSearch

open Stingray Stingray.Pulsar Stingray.Spec

variable {K : Type} [Field K] [LinearOrder K] [IsStrictOrderedRing K] [FloorRing K]

theorem masked_times (p : K → Bool) (ts w : List K) (h : w.length = ts.length) :
    masked ts (ts.map p) = ((ts.zip w).filter fun tw => p tw.1).map Prod.fst ∧ masked w (ts.map p) = ((ts.zip w).filter fun tw => p tw.1).map Prod.snd := by
  induction ts generalizing w with
  | nil =>
    obtain rfl := List.length_eq_zero_iff.1 h
    exact ⟨rfl, rfl⟩
  | cons t ts ih =>
    match w, h with
    | x :: w, h =>
      obtain ⟨h1, h2⟩ := ih w (by simpa using h)
      unfold masked at h1 h2 ⊢
      constructor
      · rw [List.map_cons, List.zip_cons_cons, List.zip_cons_cons, List.filter_cons, List.filter_cons]
        cases hp : p t <;> simp [h1]
      · rw [List.map_cons, List.zip_cons_cons, List.zip_cons_cons, List.filter_cons, List.filter_cons]
        cases hp : p t <;> simp [h2]

/-- The profile of events with weights: in each phase bin the sum of the weights of the events with a phase in it. -/
def profile (nbin : Nat) (f fdot : K) (rows : List (K × K)) : List K :=
  (List.range nbin).map fun (i : Nat) => ((rows.filter fun tw => decide (⌊Int.fract (f * tw.1 + fdot * tw.1 ^ 2 / 2) * (nbin : K)⌋ = (i : ℤ))).map Prod.snd).sum

theorem fold_rows (nbin : Nat) (f fdot : K) (gti : Option (List (K × K))) (rows : List (K × K)) (h2 : 2 ≤ rows.length) :
    ∃ ph, foldEvents (rows.map Prod.fst) [f, fdot] { nbin := nbin, weights := .array (rows.map Prod.snd), gti := gti, refTime := 0, expocorr := false } = .ok (ph, (profile nbin f fdot rows).map some) := by
  obtain ⟨ph, prof, h, -, hprof, -⟩ := fold_events_exact (rows.map Prod.fst) [f, fdot] { nbin := nbin, weights := .array (rows.map Prod.snd), gti := gti, refTime := 0, expocorr := false }
    (by simpa using h2) (by simp [Weights.expand]) rfl
  refine ⟨ph, ?_⟩
  rw [h, hprof]
  have hz : (rows.map Prod.fst).zip (rows.map Prod.snd) = rows := by
    rw [List.zip_map']
    simp
  have hpoly : ∀ t : K, phasePoly (t - 0) [f, fdot] 0 = f * t + fdot * t ^ 2 / 2 := by
    intro t
    simp [phasePoly, List.range_succ, Nat.factorial]
    norm_num
  simp only [Weights.expand, hz, hpoly]
  rfl

theorem meanStat_ok (l : List K) : meanStat (l.map fun x => (.ok x : Except PyErr K)) = .ok (if l = [] then none else some (l.sum / l.length)) := by
  have h : ∀ l : List K, (l.map fun x => (.ok x : Except PyErr K)).mapM id = .ok l := by
    intro l
    induction l with
    | nil => rfl
    | cons x l ih => rw [List.map_cons, List.mapM_cons, ih]; rfl
  unfold meanStat
  rw [h]
  cases l with
  | nil => rfl
  | cons x l => simp

/-- **C191.** With a weight for each event, no exposure correction and a segment size `s`, at most the length of the observation: the result is the mean, over the segments whose events span at least `s / 5`, of the statistic of the profile of the events of the segment with their own
weights; the segment `i` has the events with `i s ≤ t - t0 < (i + 1) s`. GTIs do not matter. -/
theorem weighted_search_spec (stat : List (Option K) → K) (times w : List K) (nbin : Nat) (gti : Option (List (K × K))) (f fdot t0 tl s : K)
    (hw : w.length = times.length) (hh : times.head? = some t0) (hl : times.getLast? = some tl) (hs : 0 < s) (hle : s ≤ tl - t0) :
    let rows := fun i : Nat => ((times.map (· - t0)).zip w).filter fun tw => decide (⌊tw.1 / s⌋ = (i : ℤ))
    let kept := ((List.range (⌈(tl - t0) / s⌉).toNat).map rows).filter fun r => !r.isEmpty && decide (s / 5 ≤ (r.getLastD (0, 0)).1 - (r.headD (0, 0)).1)
    weightedSearch stat times nbin (.array w) gti false f fdot (some s) =
      .ok (if kept = [] then none else some ((kept.map fun r => stat ((profile nbin f fdot r).map some)).sum / kept.length)) := by
  intro rows kept
  have hlen0 : (times.map (· - t0)).getLastD 0 = tl - t0 := by
    rw [List.getLastD_eq_getLast?, List.getLast?_map, hl]
    rfl
  have hwl : w.length = (times.map (· - t0)).length := by rw [List.length_map]; exact hw
  have hrows : ∀ i : Nat, (((times.map (· - t0)).zip w).filter fun tw => decide ((i : K) * s ≤ tw.1) && decide (tw.1 < (i : K) * s + s)) = rows i := by
    intro i
    apply List.filter_congr
    intro tw _
    rw [Bool.eq_iff_iff, Bool.and_eq_true, decide_eq_true_iff, decide_eq_true_iff, decide_eq_true_iff, Int.floor_eq_iff, le_div_iff₀ hs, div_lt_iff₀ hs]
    push_cast
    rw [add_mul, one_mul]
  have hseg : ∀ i : Nat, segmentStat stat (times.map (· - t0)) nbin (.array w) gti false f fdot s ((i : K) * s) =
      if (!(rows i).isEmpty && decide (s / 5 ≤ ((rows i).getLastD (0, 0)).1 - ((rows i).headD (0, 0)).1)) then some (.ok (stat ((profile nbin f fdot (rows i)).map some))) else none := by
    intro i
    obtain ⟨m1, m2⟩ := masked_times (fun t => decide ((i : K) * s ≤ t) && decide (t < (i : K) * s + s)) (times.map (· - t0)) w hwl
    rw [hrows i] at m1 m2
    unfold segmentStat
    simp only [selectWeights, if_pos hwl, m1, m2, List.head?_map, List.getLast?_map]
    cases he : rows i with
    | nil => simp
    | cons a l =>
      have hlast : (a :: l).getLast? = some ((a :: l).getLastD (0, 0)) := by
        rw [List.getLastD_eq_getLast?]
        cases h : (a :: l).getLast? with
        | none => simp at h
        | some x => rfl
      simp only [List.head?_cons, hlast, Option.map_some, List.isEmpty_cons, Bool.not_false, Bool.true_and]
      have hhd : (a :: l).headD (0, 0) = a := rfl
      by_cases hc : ((a :: l).getLastD (0, 0)).1 - a.1 < 1 / 5 * s
      · rw [if_pos hc, if_neg (by intro hd; have := of_decide_eq_true hd; rw [hhd] at this; linarith)]
      · rw [if_neg hc, if_pos (decide_eq_true (by rw [hhd]; linarith))]
        have h2 : 2 ≤ (a :: l).length := by
          cases l with
          | nil =>
            exfalso
            apply hc
            simp only [List.getLastD_cons, List.getLastD_nil, sub_self]
            linarith
          | cons b l => simp
        obtain ⟨ph, hf⟩ := fold_rows nbin f fdot (selectGti (times.map (· - t0)).length ((times.map (· - t0)).map fun t => decide ((i : K) * s ≤ t) && decide (t < (i : K) * s + s)) gti) (a :: l) h2
        rw [hf]
        rfl
  have hkept : ((List.range (⌈(tl - t0) / s⌉).toNat).map fun (i : Nat) => (i : K) * s).filterMap (segmentStat stat (times.map (· - t0)) nbin (.array w) gti false f fdot s) =
      (kept.map fun r => stat ((profile nbin f fdot r).map some)).map fun x => (.ok x : Except PyErr K) := by
    show _ = ((((List.range (⌈(tl - t0) / s⌉).toNat).map rows).filter _).map _).map _
    generalize List.range (⌈(tl - t0) / s⌉).toNat = L
    induction L with
    | nil => rfl
    | cons i L ih =>
      rw [List.map_cons, List.filterMap_cons, hseg i, List.map_cons, List.filter_cons, ih]
      by_cases hc : (!(rows i).isEmpty && decide (s / 5 ≤ ((rows i).getLastD (0, 0)).1 - ((rows i).headD (0, 0)).1)) = true
      · rw [if_pos hc, if_pos hc]; rfl
      · rw [if_neg hc, if_neg hc]
  unfold weightedSearch
  simp only [Bool.false_and, Bool.false_eq_true, if_false, hh, hlen0, if_neg (not_lt.2 hle), if_neg hs.ne', hkept, meanStat_ok, List.map_eq_nil_iff, List.length_map]

/-- **C191 (refused).** Exposure correction without GTIs, and a search without events, are refused. -/
theorem weighted_search_refused (stat : List (Option K) → K) (times : List K) (nbin : Nat) (weights : Weights K) (gti : Option (List (K × K))) (f fdot : K) (segmentSize : Option K) :
    weightedSearch stat times nbin weights none true f fdot segmentSize = .error .valueError ∧
    weightedSearch stat [] nbin weights gti false f fdot segmentSize = .error .indexError := ⟨rfl, rfl⟩

/-- **C191 (shift).** The search does not change if the times are shifted. -/
theorem weighted_search_shift (stat : List (Option K) → K) (times : List K) (nbin : Nat) (weights : Weights K) (gti : Option (List (K × K))) (expocorr : Bool) (f fdot c : K) (segmentSize : Option K) :
    weightedSearch stat (times.map (· + c)) nbin weights gti expocorr f fdot segmentSize = weightedSearch stat times nbin weights gti expocorr f fdot segmentSize := by
  unfold weightedSearch
  rw [List.head?_map]
  cases times.head? with
  | none => rfl
  | some t0 =>
    simp only [Option.map_some, List.map_map, Function.comp_def, add_sub_add_right_eq_sub]

/-- A statistic to look at: the last bin of the profile. -/
def lastBin (p : List (Option ℚ)) : ℚ := (p.getLastD none).getD (-1)

/-- **C191 (negation).** Shifting the times and the GTIs alike changes a search with exposure correction: the times are taken from the first event, the GTIs are not. -/
theorem weighted_search_gti_shift : ¬ ∀ (stat : List (Option ℚ) → ℚ) (times : List ℚ) (nbin : Nat) (weights : Weights ℚ) (gti : List (ℚ × ℚ)) (f fdot c : ℚ) (segmentSize : Option ℚ),
    weightedSearch stat (times.map (· + c)) nbin weights (some (gti.map fun g => (g.1 + c, g.2 + c))) true f fdot segmentSize =
      weightedSearch stat times nbin weights (some gti) true f fdot segmentSize := by
  intro h
  have := h lastBin [0, 1, 2, 3, 4, 5] 2 (.scalar 1) [(0, 6)] (1 / 3) 0 10 none
  revert this
  decide +kernel

/-- **C191 (negation).** Dividing a GTI in two changes a search with exposure correction if there are then as many GTIs as events: those at the positions of events outside the segment are dropped. -/
theorem weighted_search_gti_count : ¬ ∀ (stat : List (Option ℚ) → ℚ) (times : List ℚ) (nbin : Nat) (weights : Weights ℚ) (a b c : ℚ) (gti : List (ℚ × ℚ)) (f fdot : ℚ) (segmentSize : Option ℚ), a < b → b < c →
    weightedSearch stat times nbin weights (some ((a, b) :: (b, c) :: gti)) true f fdot segmentSize = weightedSearch stat times nbin weights (some ((a, c) :: gti)) true f fdot segmentSize := by
  intro h
  have := h lastBin [0, 1, 2, 3, 4, 5] 2 (.scalar 1) 0 (1 / 10) (2 / 10) [(2 / 10, 3 / 10), (3 / 10, 4 / 10), (4 / 10, 1), (1, 6)] (1 / 3) 0 none (by norm_num) (by norm_num)
  revert this
  decide +kernel

example : weightedSearch lastBin [10, 11, 12, 13, 14, 15] 2 (.array [1, 2, 3, 4, 5, 6]) none false (1 / 3) 0 (some 3) = .ok (some (9 / 2)) := by decide +kernel

end Stingray.WeightedSearch

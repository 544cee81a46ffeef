import Verif.Model.Lightcurve
import Mathlib.Algebra.Order.Ring.Rat
import Mathlib.Tactic.NormNum
import Mathlib.Tactic.FieldSimp
import Mathlib.Data.List.Basic

/-!
# Property C34: the lazily computed arrays of a light curve
-/

namespace Stingray.Lightcurve

set_option linter.unusedSectionVars false

variable {K : Type} [Field K] [LinearOrder K] [IsStrictOrderedRing K]

/-- the counts a user has put in: the last `counts` or `countrate` (times `dt`) assigned -/
def lastCounts (dt : K) (c : List K) : List (Op K) → List K
  | [] => c
  | .setCounts v :: os => lastCounts dt v os
  | .setCountrate v :: os => lastCounts dt (v.map (· * dt)) os
  | _ :: os => lastCounts dt c os

/-- the state holds the counts `c` -/
def Holds (s : LC K) (c : List K) : Prop :=
  (s.counts = some c ∨ (s.counts = none ∧ ∃ r, s.countrate = some r ∧ c = r.map (· * s.dt))) ∧
  ∀ r, s.countrate = some r → r = c.map (· / s.dt)

theorem map_mul_div (dt : K) (hdt : dt ≠ 0) (r : List K) : (r.map (· * dt)).map (· / dt) = r := by
  rw [List.map_map]
  conv_rhs => rw [← List.map_id r]
  apply List.map_congr_left
  intro x _
  simp [hdt]

theorem map_div_mul (dt : K) (hdt : dt ≠ 0) (r : List K) : (r.map (· / dt)).map (· * dt) = r := by
  rw [List.map_map]
  conv_rhs => rw [← List.map_id r]
  apply List.map_congr_left
  intro x _
  simp [hdt]

theorem getCounts_val (s : LC K) (c : List K) (h : Holds s c) : (getCounts s).1 = some c := by
  unfold getCounts
  rcases h.1 with h1 | ⟨h1, r, h2, rfl⟩
  · rw [h1]
  · rw [h1, h2]

theorem getCountrate_val (s : LC K) (c : List K) (h : Holds s c) :
    (getCountrate s).1 = some (c.map (· / s.dt)) := by
  unfold getCountrate
  cases hr : s.countrate with
  | some r => simp [h.2 r hr]
  | none =>
    rcases h.1 with h1 | ⟨_, r, h2, _⟩
    · rw [h1]
    · rw [hr] at h2; cases h2

/-- fields of the state that reading `counts` or `countrate` never touches -/
theorem getCounts_state (s : LC K) (c : List K) (hdt : s.dt ≠ 0) (h : Holds s c) :
    Holds (getCounts s).2 c ∧ (getCounts s).2.dt = s.dt ∧ (getCounts s).2.mask = s.mask ∧
    (getCounts s).2.meancounts = s.meancounts ∧ (getCounts s).2.countsErr = s.countsErr ∧
    (getCounts s).2.countrateErr = s.countrateErr ∧ (getCounts s).2.n = s.n := by
  unfold getCounts
  rcases h.1 with h1 | ⟨h1, r, h2, hc⟩
  · rw [h1]; exact ⟨h, rfl, rfl, rfl, rfl, rfl, rfl⟩
  · rw [h1, h2]
    simp only
    split_ifs
    · refine ⟨⟨Or.inl (by rw [hc]), ?_⟩, rfl, rfl, rfl, rfl, rfl, rfl⟩
      intro r' hr'
      rw [hc]
      simp only [h2, Option.some.injEq] at hr'
      rw [← hr', map_mul_div s.dt hdt]
    · exact ⟨h, rfl, rfl, rfl, rfl, rfl, rfl⟩

theorem getCountrate_state (s : LC K) (c : List K) (hdt : s.dt ≠ 0) (h : Holds s c) :
    Holds (getCountrate s).2 c ∧ (getCountrate s).2.dt = s.dt ∧ (getCountrate s).2.mask = s.mask ∧
    (getCountrate s).2.meancounts = s.meancounts ∧ (getCountrate s).2.countsErr = s.countsErr ∧
    (getCountrate s).2.countrateErr = s.countrateErr ∧ (getCountrate s).2.n = s.n := by
  unfold getCountrate
  cases hr : s.countrate with
  | some r => exact ⟨h, rfl, rfl, rfl, rfl, rfl, rfl⟩
  | none =>
    rcases h.1 with h1 | ⟨_, r, h2, _⟩
    · rw [h1]
      simp only
      split_ifs
      · refine ⟨⟨Or.inl rfl, ?_⟩, rfl, rfl, rfl, rfl, rfl, rfl⟩
        intro r' hr'
        simp only [Option.some.injEq] at hr'
        exact hr'.symm
      · exact ⟨h, rfl, rfl, rfl, rfl, rfl, rfl⟩
    · rw [hr] at h2; cases h2

theorem holds_congr (s s' : LC K) (c : List K) (h : Holds s c) (h1 : s'.counts = s.counts)
    (h2 : s'.countrate = s.countrate) (h3 : s'.dt = s.dt) : Holds s' c := by
  unfold Holds at *
  rw [h1, h2, h3]
  exact h

theorem getCountsErr_state (perr : List K → List K) (s : LC K) (c : List K) (hdt : s.dt ≠ 0) (h : Holds s c) :
    Holds (getCountsErr perr s).2 c ∧ (getCountsErr perr s).2.dt = s.dt ∧
    (getCountsErr perr s).2.mask = s.mask ∧
    (getCountsErr perr s).2.meancounts = s.meancounts := by
  unfold getCountsErr
  cases he : s.countsErr with
  | some e => exact ⟨h, rfl, rfl, rfl⟩
  | none =>
    simp only
    cases hr : s.countrateErr with
    | some r =>
      simp only
      split_ifs
      · exact ⟨holds_congr _ _ _ h rfl rfl rfl, rfl, rfl, rfl⟩
      · exact ⟨h, rfl, rfl, rfl⟩
    | none =>
      simp only
      obtain ⟨h1, h2, h3, h4, -⟩ := getCounts_state s c hdt h
      split_ifs <;>
      first
      | exact ⟨holds_congr _ _ _ h1 rfl rfl rfl, h2, h3, h4⟩
      | exact ⟨h1, h2, h3, h4⟩

theorem getCountrateErr_state (s : LC K) (c : List K) (h : Holds s c) :
    Holds (getCountrateErr s).2 c ∧ (getCountrateErr s).2.dt = s.dt ∧
    (getCountrateErr s).2.mask = s.mask ∧
    (getCountrateErr s).2.meancounts = s.meancounts := by
  unfold getCountrateErr
  cases he : s.countrateErr with
  | some e => exact ⟨h, rfl, rfl, rfl⟩
  | none =>
    simp only
    split_ifs
    · exact ⟨holds_congr _ _ _ h rfl rfl rfl, rfl, rfl, rfl⟩
    · exact ⟨h, rfl, rfl, rfl⟩

/-- the mean of the counts, if cached, is that of `c` -/
def MeanOk (s : LC K) (c : List K) : Prop := ∀ m, s.meancounts = some m → m = maskedMean s.mask c

/-- one operation -/
theorem step_holds (perr : List K → List K) (s s' : LC K) (c : List K) (o : Op K) (hdt : s.dt ≠ 0)
    (h : Holds s c) (hst : step perr s o = .ok s') :
    Holds s' (lastCounts s.dt c [o]) ∧ s'.dt = s.dt ∧
    (MeanOk s c → (∀ m, o ≠ .changeMask m) → MeanOk s' (lastCounts s.dt c [o]) ∧ s'.mask = s.mask) := by
  cases o with
  | readCounts =>
    simp only [step] at hst; cases hst
    obtain ⟨h1, h2, h3, h4, -⟩ := getCounts_state s c hdt h
    exact ⟨h1, h2, fun hm _ => ⟨by unfold MeanOk at *; rw [h4, h3]; exact hm, h3⟩⟩
  | readCountrate =>
    simp only [step] at hst; cases hst
    obtain ⟨h1, h2, h3, h4, -⟩ := getCountrate_state s c hdt h
    exact ⟨h1, h2, fun hm _ => ⟨by unfold MeanOk at *; rw [h4, h3]; exact hm, h3⟩⟩
  | readCountsErr =>
    simp only [step] at hst; cases hst
    obtain ⟨h1, h2, h3, h4⟩ := getCountsErr_state perr s c hdt h
    exact ⟨h1, h2, fun hm _ => ⟨by unfold MeanOk at *; rw [h4, h3]; exact hm, h3⟩⟩
  | readCountrateErr =>
    simp only [step] at hst; cases hst
    obtain ⟨h1, h2, h3, h4⟩ := getCountrateErr_state s c h
    exact ⟨h1, h2, fun hm _ => ⟨by unfold MeanOk at *; rw [h4, h3]; exact hm, h3⟩⟩
  | readMeanrate =>
    simp only [step] at hst; cases hst
    unfold getMeanrate
    cases hm : s.meanrate with
    | some m => exact ⟨h, rfl, fun hm _ => ⟨hm, rfl⟩⟩
    | none =>
      obtain ⟨h1, h2, h3, h4, -⟩ := getCountrate_state s c hdt h
      refine ⟨holds_congr _ _ _ h1 rfl rfl rfl, h2, fun hm _ => ⟨?_, h3⟩⟩
      unfold MeanOk at *
      simp only [h4, h3]
      exact hm
  | readMeancounts =>
    simp only [step] at hst; cases hst
    unfold getMeancounts
    cases hm : s.meancounts with
    | some m => exact ⟨h, rfl, fun hm _ => ⟨hm, rfl⟩⟩
    | none =>
      obtain ⟨h1, h2, h3, h4, -⟩ := getCounts_state s c hdt h
      refine ⟨holds_congr _ _ _ h1 rfl rfl rfl, h2, fun hm _ => ⟨?_, h3⟩⟩
      unfold MeanOk at *
      intro m hm'
      simp only [getCounts_val s c h, Option.map_some, Option.some.injEq] at hm'
      exact hm'.symm
  | setCounts v =>
    simp only [step, setCounts] at hst
    split_ifs at hst
    cases hst
    exact ⟨⟨Or.inl rfl, by simp⟩, rfl, fun _ _ => ⟨by simp [MeanOk], rfl⟩⟩
  | setCountrate v =>
    simp only [step, setCountrate] at hst
    split_ifs at hst
    cases hst
    refine ⟨⟨Or.inr ⟨rfl, v, rfl, rfl⟩, ?_⟩, rfl, fun _ _ => ⟨by simp [MeanOk], rfl⟩⟩
    intro r hr
    simp only [Option.some.injEq] at hr
    simp only [lastCounts, ← hr, map_mul_div s.dt hdt]
  | setCountsErr v =>
    simp only [step, setCountsErr] at hst
    split_ifs at hst
    cases hst
    exact ⟨holds_congr _ _ _ h rfl rfl rfl, rfl, fun hm _ => ⟨hm, rfl⟩⟩
  | setCountrateErr v =>
    simp only [step, setCountrateErr] at hst
    split_ifs at hst
    cases hst
    exact ⟨holds_congr _ _ _ h rfl rfl rfl, rfl, fun hm _ => ⟨hm, rfl⟩⟩
  | changeMask m =>
    simp only [step] at hst
    cases hst
    exact ⟨holds_congr _ _ _ h rfl rfl rfl, rfl, fun _ hne => absurd rfl (hne m)⟩

theorem lastCounts_cons (dt : K) (c : List K) (o : Op K) (os : List (Op K)) :
    lastCounts dt c (o :: os) = lastCounts dt (lastCounts dt c [o]) os := by
  cases o <;> rfl

theorem run_holds (perr : List K → List K) (os : List (Op K)) : ∀ (s s' : LC K) (c : List K), s.dt ≠ 0 →
    Holds s c → run perr s os = .ok s' →
    Holds s' (lastCounts s.dt c os) ∧ s'.dt = s.dt ∧
    (MeanOk s c → (∀ m, Op.changeMask m ∉ os) → MeanOk s' (lastCounts s.dt c os) ∧ s'.mask = s.mask) := by
  induction os with
  | nil =>
    intro s s' c hdt h hr
    cases hr
    exact ⟨h, rfl, fun hm _ => ⟨hm, rfl⟩⟩
  | cons o os ih =>
    intro s s' c hdt h hr
    simp only [run, bind, Except.bind] at hr
    cases hst : step perr s o with
    | error e => rw [hst] at hr; cases hr
    | ok s1 =>
      rw [hst] at hr
      obtain ⟨h1, h2, h3⟩ := step_holds perr s s1 c o hdt h hst
      obtain ⟨g1, g2, g3⟩ := ih s1 s' _ (by rw [h2]; exact hdt) h1 hr
      rw [h2] at g1 g2 g3
      rw [lastCounts_cons]
      refine ⟨g1, g2, fun hm hne => ?_⟩
      obtain ⟨k1, k2⟩ := h3 hm (fun m e => hne m (e ▸ List.mem_cons_self))
      obtain ⟨l1, l2⟩ := g3 k1 (fun m hmem => hne m (List.mem_cons_of_mem _ hmem))
      exact ⟨l1, l2.trans k2⟩

theorem init_holds (dt : K) (hdt : dt ≠ 0) (mask : List Bool) (lm ic po : Bool) (v : List K) (err : Option (List K)) :
    Holds (init dt mask lm ic po v err) (if ic then v else v.map (· * dt)) ∧
    MeanOk (init dt mask lm ic po v err) (if ic then v else v.map (· * dt)) := by
  constructor
  · cases ic
    · refine ⟨Or.inr ⟨rfl, v, rfl, rfl⟩, ?_⟩
      intro r hr
      simp only [init, Bool.false_eq_true, if_false, Option.some.injEq] at hr ⊢
      rw [← hr, map_mul_div dt hdt]
    · exact ⟨Or.inl rfl, by simp [init]⟩
  · simp [MeanOk, init]

/-- The mean of the entries whose flag is set. -/
def goodMean (mask : List Bool) (a : List K) : K :=
  ((List.zip mask a).map fun p => if p.1 then p.2 else 0).sum / ((List.zip mask a).countP fun p => p.1 : Nat)

theorem maskedMean_eq (mask : List Bool) (a : List K) : maskedMean mask a = goodMean mask a := by
  unfold maskedMean goodMean Gti.select
  congr 1
  · induction List.zip mask a with
    | nil => rfl
    | cons p l ih =>
      rw [List.filter_cons, List.map_cons, List.sum_cons, ← ih]
      by_cases hp : p.1 = true
      · simp [hp]
      · simp [hp]
  · rw [List.length_map, ← List.countP_eq_length_filter]

/-- **C34 (partial).** After any history of reads and writes of counts, count rate, errors, means and GTIs, with or without low-memory
mode: `counts` is what was last assigned (count rates times `dt`), `countrate` is `counts / dt`, and, unless the GTIs
were changed, `meancounts` is the mean of the counts inside the GTIs.  Missing: `meanrate`, `meancounts` after a change of GTIs, and the
errors, for which it is false (`meanrate_stale`, `meancounts_stale_after_gti`,
`counts_err_depends_on_order`, `counts_err_stale`). -/
theorem counts_rate_consistent_partial (perr : List K → List K) (dt : K) (hdt : dt ≠ 0) (mask : List Bool)
    (lm ic po : Bool) (v : List K) (err : Option (List K)) (os : List (Op K)) (s : LC K)
    (h : run perr (init dt mask lm ic po v err) os = .ok s) :
    ∃ c, c = lastCounts dt (if ic then v else v.map (· * dt)) os ∧
      (getCounts s).1 = some c ∧ (getCountrate s).1 = some (c.map (· / dt)) ∧
      ((∀ m, Op.changeMask m ∉ os) → (getMeancounts s).1 = some (goodMean mask c)) := by
  simp only [← maskedMean_eq]
  obtain ⟨h0, hm0⟩ := init_holds dt hdt mask lm ic po v err
  obtain ⟨h1, h2, h3⟩ := run_holds perr os _ s _ (by exact hdt) h0 h
  refine ⟨_, rfl, getCounts_val s _ h1, ?_, ?_⟩
  · rw [getCountrate_val s _ h1, h2]; rfl
  · intro hne
    obtain ⟨hm, hmask⟩ := h3 hm0 hne
    unfold getMeancounts
    cases hmc : s.meancounts with
    | some m =>
      simp only
      rw [hm m hmc, hmask]
      rfl
    | none =>
      simp only
      rw [getCounts_val s _ h1]
      obtain ⟨_, _, k3, _⟩ := getCounts_state s _ (by rw [h2]; exact hdt) h1
      rw [k3, hmask]
      rfl

example : run (fun _ => []) (init (2 : ℚ) [true, true, false] false true true [4, 6, 8] none)
      [.readCountrate, .readMeancounts, .setCountrate [1, 2, 3], .readCounts] =
    .ok ⟨3, 2, [true, true, false], false, false, true, some [2, 4, 6], some [1, 2, 3], none, none, none, none⟩ := by
  decide +kernel

/-- **C34 (refusals).** Arrays of another length than the light curve are refused by every assignment. -/
theorem assignments_refuse (perr : List K → List K) (s : LC K) (v : List K) (h : v.length ≠ s.n) :
    step perr s (.setCounts v) = .error .valueError ∧ step perr s (.setCountrate v) = .error .valueError ∧
    step perr s (.setCountsErr v) = .error .valueError ∧ step perr s (.setCountrateErr v) = .error .valueError := by
  simp only [step, setCounts, setCountrate, setCountsErr, setCountrateErr, if_pos h, and_self]

/-- **C34 (mean rate, partial).** The mean rate of a light curve, when it is read for the first time, is the mean of the count rates inside the GTIs at that time. Missing: later reads, see `meanrate_stale`. -/
theorem meanrate_first_partial (perr : List K → List K) (dt : K) (hdt : dt ≠ 0) (mask : List Bool)
    (lm ic po : Bool) (v : List K) (err : Option (List K)) (os : List (Op K)) (s : LC K)
    (h : run perr (init dt mask lm ic po v err) os = .ok s) (hfirst : s.meanrate = none) :
    ∃ r, (getCountrate s).1 = some r ∧ (getMeanrate s).1 = some (goodMean s.mask r) := by
  obtain ⟨h0, _⟩ := init_holds dt hdt mask lm ic po v err
  obtain ⟨h1, h2, _⟩ := run_holds perr os _ s _ (by exact hdt) h0 h
  refine ⟨_, getCountrate_val s _ h1, ?_⟩
  obtain ⟨_, _, k3, _⟩ := getCountrate_state s _ (by rw [h2]; exact hdt) h1
  unfold getMeanrate
  rw [hfirst]
  simp only [getCountrate_val s _ h1, k3, Option.map_some, maskedMean_eq]

/-- an error array that was assigned, in counts -/
def ErrHolds (s : LC K) (e : List K) : Prop :=
  (s.countsErr = some e ∧ (s.countrateErr = none ∨ s.countrateErr = some (e.map (· / s.dt)))) ∨
  (s.countsErr = none ∧ s.countrateErr = some (e.map (· / s.dt)))

/-- operations that do not assign errors -/
def Op.keepsErr : Op K → Prop
  | .setCountsErr _ => False
  | .setCountrateErr _ => False
  | _ => True

theorem errHolds_congr (s s' : LC K) (e : List K) (h : ErrHolds s e) (h1 : s'.countsErr = s.countsErr)
    (h2 : s'.countrateErr = s.countrateErr) (h3 : s'.dt = s.dt) : ErrHolds s' e := by
  unfold ErrHolds at *; rw [h1, h2, h3]; exact h

theorem getCounts_err (s : LC K) : (getCounts s).2.countsErr = s.countsErr ∧
    (getCounts s).2.countrateErr = s.countrateErr ∧ (getCounts s).2.dt = s.dt := by
  unfold getCounts
  split
  · split_ifs <;> exact ⟨rfl, rfl, rfl⟩
  · exact ⟨rfl, rfl, rfl⟩

theorem getCountrate_err (s : LC K) : (getCountrate s).2.countsErr = s.countsErr ∧
    (getCountrate s).2.countrateErr = s.countrateErr ∧ (getCountrate s).2.dt = s.dt := by
  unfold getCountrate
  split
  · split_ifs <;> exact ⟨rfl, rfl, rfl⟩
  · exact ⟨rfl, rfl, rfl⟩

theorem step_err (perr : List K → List K) (s s' : LC K) (e : List K) (o : Op K) (hdt : s.dt ≠ 0)
    (h : ErrHolds s e) (ho : o.keepsErr) (hst : step perr s o = .ok s') :
    ErrHolds s' e ∧ s'.dt = s.dt := by
  cases o with
  | readCounts =>
    simp only [step] at hst; cases hst
    obtain ⟨h1, h2, h3⟩ := getCounts_err s
    exact ⟨errHolds_congr _ _ _ h h1 h2 h3, h3⟩
  | readCountrate =>
    simp only [step] at hst; cases hst
    obtain ⟨h1, h2, h3⟩ := getCountrate_err s
    exact ⟨errHolds_congr _ _ _ h h1 h2 h3, h3⟩
  | readCountsErr =>
    simp only [step] at hst; cases hst
    unfold getCountsErr
    rcases h with ⟨h1, h2⟩ | ⟨h1, h2⟩
    · rw [h1]; exact ⟨Or.inl ⟨h1, h2⟩, rfl⟩
    · rw [h1, h2]
      simp only
      rw [map_div_mul s.dt hdt]
      split_ifs
      · exact ⟨Or.inl ⟨rfl, Or.inr h2⟩, rfl⟩
      · exact ⟨Or.inr ⟨h1, h2⟩, rfl⟩
  | readCountrateErr =>
    simp only [step] at hst; cases hst
    unfold getCountrateErr
    rcases h with ⟨h1, h2 | h2⟩ | ⟨h1, h2⟩
    · rw [h2, h1]
      simp only
      split_ifs
      · exact ⟨Or.inl ⟨rfl, Or.inr rfl⟩, rfl⟩
      · exact ⟨Or.inl ⟨h1, Or.inl h2⟩, rfl⟩
    · rw [h2]; exact ⟨Or.inl ⟨h1, Or.inr h2⟩, rfl⟩
    · rw [h2]; exact ⟨Or.inr ⟨h1, h2⟩, rfl⟩
  | readMeanrate =>
    simp only [step] at hst; cases hst
    unfold getMeanrate
    cases s.meanrate with
    | some m => exact ⟨h, rfl⟩
    | none =>
      obtain ⟨h1, h2, h3⟩ := getCountrate_err s
      exact ⟨errHolds_congr _ _ _ h h1 h2 h3, h3⟩
  | readMeancounts =>
    simp only [step] at hst; cases hst
    unfold getMeancounts
    cases s.meancounts with
    | some m => exact ⟨h, rfl⟩
    | none =>
      obtain ⟨h1, h2, h3⟩ := getCounts_err s
      exact ⟨errHolds_congr _ _ _ h h1 h2 h3, h3⟩
  | setCounts v =>
    simp only [step, setCounts] at hst
    split_ifs at hst
    cases hst
    exact ⟨h, rfl⟩
  | setCountrate v =>
    simp only [step, setCountrate] at hst
    split_ifs at hst
    cases hst
    exact ⟨h, rfl⟩
  | setCountsErr v => exact ho.elim
  | setCountrateErr v => exact ho.elim
  | changeMask m => simp only [step] at hst; cases hst; exact ⟨h, rfl⟩

/-- **C34 (errors, partial).** Errors that were assigned (as `counts_err`, or as `countrate_err` equal to `e / dt`) stay in force through any
history that does not assign errors again: `counts_err` reads `e` and `countrate_err` reads `e / dt`.  Missing:
errors that were not assigned. -/
theorem assigned_errors_consistent_partial (perr : List K → List K) (s0 s1 s : LC K) (e : List K)
    (hdt : s0.dt ≠ 0) (os : List (Op K)) (hos : ∀ o ∈ os, o.keepsErr)
    (hset : step perr s0 (.setCountsErr e) = .ok s1 ∨
      step perr s0 (.setCountrateErr (e.map (· / s0.dt))) = .ok s1)
    (h : run perr s1 os = .ok s) :
    (getCountsErr perr s).1 = some e ∧ (getCountrateErr s).1 = e.map (· / s0.dt) := by
  have key : ∀ (os : List (Op K)) (s1 s : LC K), (∀ o ∈ os, o.keepsErr) → s1.dt ≠ 0 → ErrHolds s1 e →
      run perr s1 os = .ok s → ErrHolds s e ∧ s.dt = s1.dt := by
    intro os
    induction os with
    | nil => intro s1 s _ _ h1 h2; cases h2; exact ⟨h1, rfl⟩
    | cons o os ih =>
      intro s1 s ho hd h1 h2
      simp only [run, bind, Except.bind] at h2
      cases hst : step perr s1 o with
      | error x => rw [hst] at h2; cases h2
      | ok s2 =>
        rw [hst] at h2
        obtain ⟨k1, k2⟩ := step_err perr s1 s2 e o hd h1 (ho o (by simp)) hst
        obtain ⟨l1, l2⟩ := ih s2 s (fun o' ho' => ho o' (by simp [ho'])) (by rw [k2]; exact hd) k1 h2
        exact ⟨l1, l2.trans k2⟩
  have h1 : ErrHolds s1 e ∧ s1.dt = s0.dt := by
    rcases hset with hset | hset
    · simp only [step, setCountsErr] at hset
      split_ifs at hset
      cases hset
      exact ⟨Or.inl ⟨rfl, Or.inl rfl⟩, rfl⟩
    · simp only [step, setCountrateErr] at hset
      split_ifs at hset
      cases hset
      exact ⟨Or.inr ⟨rfl, rfl⟩, rfl⟩
  obtain ⟨hE, hd⟩ := key os s1 s hos (by rw [h1.2]; exact hdt) h1.1 h
  rw [h1.2] at hd
  constructor
  · unfold getCountsErr
    rcases hE with ⟨a, _⟩ | ⟨a, b⟩
    · rw [a]
    · rw [a, b]
      simp only
      rw [map_div_mul s.dt (by rw [hd]; exact hdt)]
  · unfold getCountrateErr
    rcases hE with ⟨a, b | b⟩ | ⟨a, b⟩
    · rw [b, a, ← hd]
    · rw [b, ← hd]
    · rw [b, ← hd]

example : run (fun _ => [7, 7]) (init (2 : ℚ) [true, true] false true true [4, 6] none)
      [.readCountrateErr, .setCountsErr [2, 4], .setCounts [8, 8], .readCountrateErr] =
    .ok ⟨2, 2, [true, true], false, true, true, some [8, 8], none, some [2, 4], some [1, 2], none, none⟩ := by
  decide +kernel

/-- **C34 (negation).** `meanrate`, once read, is not refreshed when new counts are assigned. -/
theorem meanrate_stale :
    ∃ (s : LC ℚ) (r : List ℚ) (m : ℚ),
      run (fun _ => []) (init (1 : ℚ) [true, true] false true true [2, 4] none)
        [.readMeanrate, .setCounts [20, 40]] = .ok s ∧
      (getCountrate s).1 = some r ∧ (getMeanrate s).1 = some m ∧ m ≠ maskedMean [true, true] r := by
  refine ⟨⟨2, 1, [true, true], false, true, true, some [20, 40], none, none, none, some 3, none⟩,
    [20, 40], 3, ?_⟩
  decide +kernel

/-- **C34 (negation).** `meancounts`, once read, is not refreshed when the GTIs change. -/
theorem meancounts_stale_after_gti :
    ∃ (s : LC ℚ) (c : List ℚ) (m : ℚ),
      run (fun _ => []) (init (1 : ℚ) [true, true] false true true [2, 4] none)
        [.readMeancounts, .changeMask [true, false]] = .ok s ∧
      (getCounts s).1 = some c ∧ (getMeancounts s).1 = some m ∧ m ≠ maskedMean s.mask c := by
  refine ⟨⟨2, 1, [true, false], false, true, true, some [2, 4], none, none, none, none, some 3⟩,
    [2, 4], 3, ?_⟩
  decide +kernel

/-- **C34 (negation).** For any non-empty Poisson light curve given in counts without errors: reading `countrate_err` first makes both errors zero,
reading `counts_err` first gives the Poisson errors. -/
theorem counts_err_depends_on_order (perr : List K → List K) (dt : K) (mask : List Bool) (v : List K) :
    let s := init dt mask false true true v none
    (getCountsErr perr s).1 = some (perr v) ∧
    (getCountrateErr (getCountsErr perr s).2).1 = (perr v).map (· / dt) ∧
    (getCountrateErr s).1 = List.replicate v.length 0 ∧
    (getCountsErr perr (getCountrateErr s).2).1 = some (List.replicate v.length 0) := by
  simp [getCountsErr, getCountrateErr, getCounts, init]

/-- **C34 (negation).** Errors that were computed from the counts are not refreshed when new counts are assigned. -/
theorem counts_err_stale (perr : List K → List K) (dt : K) (mask : List Bool) (v w : List K) (s : LC K)
    (h : run perr (init dt mask false true true v none) [.readCountsErr, .setCounts w] = .ok s) :
    (getCounts s).1 = some w ∧ (getCountsErr perr s).1 = some (perr v) := by
  simp only [run, step, getCountsErr, init, getCounts, bind, Except.bind, setCounts] at h
  simp only [if_true, Bool.false_eq_true, if_false, Bool.not_false, Bool.or_true, Option.map_some] at h
  split_ifs at h
  cases h
  exact ⟨rfl, rfl⟩

end Stingray.Lightcurve

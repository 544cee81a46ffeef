import Verif.Props.TimeSeries
import Verif.Props.GtiSegments

/-!
# Properties C28, C30, C32, C73, C74, C75: state and history of time series
-/

namespace Stingray.TimeSeries

open Stingray.Gti Stingray.Spec

variable {K V : Type} [Field K] [LinearOrder K] [IsStrictOrderedRing K]

/-! ### The cached mask (C28) -/

/-- What a user can do to the GTIs and the times of a series. -/
inductive Op (K : Type) where
  | readMask
  | readGti
  | setGti (g : List (K × K))
  | clearGti
  | setTime (t : List K)
  | shift (d : K)
  | changeMjdref (m : K)
  | applyGtis (g : List (K × K))

/-- Run one operation; a Python exception leaves the history. -/
def step (median : List K → K) (eps : K) (s : TS K V) : Op K → Except PyErr (TS K V)
  | .readMask => do return (← maskGet median eps s).2
  | .readGti => .ok (gtiGet s).2
  | .setGti g => .ok (setGti s (some g))
  | .clearGti => .ok (setGti s none)
  | .setTime t => TimeSeries.setTime s t
  | .shift d => .ok (TimeSeries.shift s d)
  | .changeMjdref m => .ok (TimeSeries.changeMjdref s m)
  | .applyGtis g => do return (← TimeSeries.applyGtis median eps s (some g) true).1

/-- Run a history. -/
def run (median : List K → K) (eps : K) (s : TS K V) : List (Op K) → Except PyErr (TS K V)
  | [] => .ok s
  | o :: os => do run median eps (← step median eps s o) os

/-- The mask that belongs to the current times and the current GTIs. -/
def freshMask (median : List K → K) (eps : K) (s : TS K V) : Except PyErr (List Bool) :=
  match (gtiGet s).1 with
  | some g => createGtiMask median s.time g none 0 (some s.dt) eps
  | none => .ok []

/-- the operations that keep the cache in step -/
def Op.safe : Op K → Prop
  | .clearGti => False
  | .setTime _ => False
  | _ => True

/-- the invariant: a cached mask is the mask of the present state -/
def Coherent (median : List K → K) (eps : K) (s : TS K V) : Prop :=
  s.time.Pairwise (· ≤ ·) ∧ 0 ≤ s.dt ∧
  ∀ m, s.mask = some m → freshMask median eps s = .ok m

theorem freshMask_default (median : List K → K) (eps : K) (he : 0 ≤ eps) (s : TS K V)
    (hs : s.time.Pairwise (· ≤ ·)) (hd : 0 ≤ s.dt) (hne : s.time ≠ []) (hg : s.gti = none) :
    freshMask median eps s = .ok (List.replicate s.time.length true) := by
  obtain ⟨t0, ts, hts⟩ := List.exists_cons_of_ne_nil hne
  have hl : s.time.getLast? = some (s.time.getLast hne) := List.getLast?_eq_some_getLast hne
  have hh : s.time.head? = some (s.time.head hne) := List.head?_eq_some_head hne
  have h1 : ∀ t ∈ s.time, s.time.head hne ≤ t := by
    intro t ht
    rw [hts] at hs ht
    have : s.time.head hne = t0 := by simp [hts]
    rw [this]
    rcases List.mem_cons.1 ht with rfl | ht
    · exact le_rfl
    · exact (List.pairwise_cons.1 hs).1 t ht
  have h2 : ∀ t ∈ s.time, t ≤ s.time.getLast hne := by
    intro t ht
    rw [← List.dropLast_append_getLast hne] at hs ht
    rcases List.mem_append.1 ht with ht | ht
    · exact (List.pairwise_append.1 hs).2.2 t ht _ (by simp)
    · simp at ht; exact ht.le
  unfold freshMask gtiGet
  rw [hg, hh, hl]
  simp only
  obtain ⟨m, hm, hex⟩ := createGtiMask_single median s.time
    (s.time.head hne - s.dt / 2, s.time.getLast hne + s.dt / 2) (some s.dt) eps hne hs
    (by have := h1 _ (List.getLast_mem hne); dsimp; linarith) (by simpa using hd) he
  rw [hm]
  congr 1
  refine List.eq_replicate_iff.2 ⟨hex.length_eq.symm, ?_⟩
  intro b hb
  obtain ⟨t, ht, htb⟩ := forall2_mem_right hex hb
  rw [htb]
  have hed : 0 ≤ eps * s.dt := mul_nonneg he hd
  unfold BinInside
  simp only [Option.getD_some]
  have := h1 t ht
  have := h2 t ht
  constructor <;> linarith

theorem gtiGet_idem (s : TS K V) : (gtiGet (gtiGet s).2).1 = (gtiGet s).1 := by
  rcases h : s.gti with _ | g
  · rcases ht : s.time with _ | ⟨t0, ts⟩
    · simp [gtiGet, h, ht]
    · have hl : (t0 :: ts).getLast? = some ((t0 :: ts).getLast (by simp)) :=
        List.getLast?_eq_some_getLast _
      simp only [gtiGet, h, ht, List.head?_cons, hl]
  · simp [gtiGet, h]

theorem gtiGet_shift (s : TS K V) (d : K) :
    (gtiGet (shift s d)).1 = (gtiGet s).1.map (List.map fun g => (g.1 + d, g.2 + d)) := by
  rcases h : s.gti with _ | g
  · rcases ht : s.time with _ | ⟨t0, ts⟩
    · simp [gtiGet, shift, h, ht]
    · have hl : (t0 :: ts).getLast? = some ((t0 :: ts).getLast (by simp)) :=
        List.getLast?_eq_some_getLast _
      have hl' : ((t0 :: ts).map (· + d)).getLast? = some ((t0 :: ts).getLast (by simp) + d) := by
        rw [List.getLast?_map, hl]; rfl
      have hh' : ((t0 :: ts).map (· + d)).head? = some (t0 + d) := rfl
      rw [gtiGet_default s t0 _ h (by rw [ht]; rfl) (by rw [ht]; exact hl),
        gtiGet_default (shift s d) (t0 + d) _ (by simp [shift, h]) (by simp [shift, ht])
          (by simp only [shift, ht]; exact hl')]
      simp only [shift, Option.map_some, List.map_cons, List.map_nil, Option.some.injEq,
        List.cons.injEq, Prod.mk.injEq, and_true]
      constructor <;> ring
  · simp [gtiGet, shift, h]

theorem freshMask_shift (median : List K → K) (eps : K) (s : TS K V) (d : K) :
    freshMask median eps (shift s d) = freshMask median eps s := by
  unfold freshMask
  rw [gtiGet_shift]
  cases (gtiGet s).1 with
  | none => rfl
  | some g => exact createGtiMask_shift _ _ _ _ _ _

theorem step_coherent (median : List K → K) (eps : K) (he : 0 ≤ eps) (s s' : TS K V) (o : Op K)
    (hc : Coherent median eps s) (ho : o.safe) (h : step median eps s o = .ok s') :
    Coherent median eps s' := by
  obtain ⟨h1, h2, h3⟩ := hc
  cases o with
  | readMask =>
    simp only [step, bind, Except.bind, pure, Except.pure] at h
    unfold maskGet at h
    cases hm : s.mask with
    | some m =>
      simp only [hm] at h
      cases h
      exact ⟨h1, h2, h3⟩
    | none =>
      simp only [hm] at h
      cases hg : s.gti with
      | some g =>
        simp only [hg, bind, Except.bind, pure, Except.pure] at h
        cases hcm : createGtiMask median s.time g none 0 (some s.dt) eps with
        | error e => rw [hcm] at h; cases h
        | ok m =>
          rw [hcm] at h
          cases h
          refine ⟨h1, h2, ?_⟩
          intro m' hm'
          cases hm'
          simpa [freshMask, gtiGet, hg] using hcm
      | none =>
        simp only [hg] at h
        cases h
        refine ⟨h1, h2, ?_⟩
        intro m' hm'
        cases hm'
        by_cases hne : s.time = []
        · simp [freshMask, gtiGet, hg, hne]
        · have := freshMask_default median eps he s h1 h2 hne hg
          rw [← this]
          simp [freshMask, gtiGet, hg]
          cases s.time.head? <;> cases s.time.getLast? <;> rfl
  | readGti =>
    simp only [step] at h
    cases h
    have e := gtiGet_snd s
    refine ⟨by rw [e]; exact h1, by rw [e]; exact h2, ?_⟩
    intro m hm
    have hm' : s.mask = some m := by rw [e] at hm; exact hm
    rw [← h3 m hm']
    unfold freshMask
    rw [gtiGet_idem, e]
  | setGti g =>
    simp only [step] at h
    cases h
    exact ⟨h1, h2, by simp [setGti]⟩
  | clearGti => exact ho.elim
  | setTime t => exact ho.elim
  | shift d =>
    simp only [step] at h
    cases h
    refine ⟨?_, h2, ?_⟩
    · simp only [TimeSeries.shift, List.pairwise_map, add_le_add_iff_right]; exact h1
    · intro m hm
      rw [freshMask_shift]
      exact h3 m hm
  | changeMjdref n =>
    simp only [step] at h
    cases h
    refine ⟨?_, h2, ?_⟩
    · simp only [TimeSeries.changeMjdref, TimeSeries.shift, List.pairwise_map, add_le_add_iff_right]
      exact h1
    · intro m hm
      rw [← h3 m hm, ← freshMask_shift median eps s ((s.mjdref - n) * 86400)]
      unfold freshMask
      have : (gtiGet (TimeSeries.changeMjdref s n)).1 =
          (gtiGet (TimeSeries.shift s ((s.mjdref - n) * 86400))).1 := by
        exact gtiGet_congr _ _ rfl rfl rfl
      rw [this]
      rfl
  | applyGtis g =>
    simp only [step, TimeSeries.applyGtis, bind, Except.bind, pure, Except.pure] at h
    rcases checkGtis_cases g with hg | hg
    · simp only [hg] at h
      cases hcm : createGtiMask median s.time g none 0 (some s.dt) eps with
      | error e => rw [hcm] at h; cases h
      | ok m =>
        simp only [hcm] at h
        unfold applyMask at h
        by_cases hl : m.length ≠ s.time.length ∨ s.time = []
        · simp only [hl, if_true] at h; cases h
        · simp only [hl, if_false, if_true] at h
          cases h
          refine ⟨?_, h2, by simp [setGti]⟩
          simp only [setGti]
          refine List.Pairwise.sublist ?_ h1
          unfold select
          have : (List.zip m s.time).map Prod.snd = s.time :=
            List.map_snd_zip (by rw [not_not.1 (not_or.1 hl).1])
          conv_rhs => rw [← this]
          exact (List.filter_sublist).map _
    · simp only [hg] at h; cases h

theorem run_coherent (median : List K → K) (eps : K) (he : 0 ≤ eps) (ops : List (Op K)) :
    ∀ (s s' : TS K V), Coherent median eps s → (∀ o ∈ ops, o.safe) →
      run median eps s ops = .ok s' → Coherent median eps s' := by
  induction ops with
  | nil => intro s s' hc _ h; cases h; exact hc
  | cons o os ih =>
    intro s s' hc ho h
    simp only [run, bind, Except.bind] at h
    cases hst : step median eps s o with
    | error e => rw [hst] at h; cases h
    | ok s1 =>
      simp only [hst] at h
      exact ih s1 s' (step_coherent median eps he s s1 o hc (ho o (by simp)) hst)
        (fun o' ho' => ho o' (by simp [ho'])) h

/-- **C28 (partial).** Start from a time-ordered series that has no cached mask, perform any history of mask and
GTI reads, GTI assignments, shifts, changes of reference and `apply_gtis`: the mask read next is the mask
of the GTIs and the times the series has then.  Missing: assigning `None` to `gti` or a new array to
`time`, for which it is false (`mask_stale_after_gti_none`, `mask_stale_after_time`). -/
theorem mask_coherent_partial (median : List K → K) (eps : K) (he : 0 ≤ eps) (ops : List (Op K))
    (s s' s'' : TS K V) (m : List Bool) (hsort : s.time.Pairwise (· ≤ ·)) (hd : 0 ≤ s.dt)
    (hm : s.mask = none) (hops : ∀ o ∈ ops, o.safe) (h : run median eps s ops = .ok s')
    (hread : maskGet median eps s' = .ok (m, s'')) :
    (s'.time = [] ∧ m = []) ∨
    ∃ g, (gtiGet s').1 = some g ∧ createGtiMask median s'.time g none 0 (some s'.dt) eps = .ok m := by
  have hc := run_coherent median eps he ops s s' ⟨hsort, hd, by simp [hm]⟩ hops h
  have hc2 := step_coherent median eps he s' s'' .readMask hc trivial
    (by simp [step, hread, bind, Except.bind, pure, Except.pure])
  -- the state after reading caches exactly `m`, and keeps times and GTIs
  have key : s''.mask = some m ∧ s'' = { s' with mask := some m } := by
    unfold maskGet at hread
    split at hread
    · next hmm => cases hread; exact ⟨hmm, by rw [← hmm]⟩
    · split at hread
      · simp only [bind, Except.bind, pure, Except.pure] at hread
        split at hread
        · cases hread
        · cases hread; exact ⟨rfl, rfl⟩
      · cases hread; exact ⟨rfl, rfl⟩
  have hf := hc2.2.2 m key.1
  have hgg : (gtiGet s'').1 = (gtiGet s').1 := by
    rw [key.2]
    unfold gtiGet
    simp only
    cases s'.gti <;> simp only
    cases s'.time.head? <;> cases s'.time.getLast? <;> rfl
  unfold freshMask at hf
  rw [hgg] at hf
  cases hg : (gtiGet s').1 with
  | some g =>
    rw [hg, key.2] at hf
    exact Or.inr ⟨g, rfl, hf⟩
  | none =>
    rw [hg] at hf
    cases hf
    refine Or.inl ⟨?_, rfl⟩
    by_contra hne
    unfold gtiGet at hg
    rw [List.head?_eq_some_head hne, List.getLast?_eq_some_getLast hne] at hg
    cases hgg' : s'.gti <;> simp [hgg'] at hg

example : run (fun _ => 1) (1/1000) (⟨[1, 2, 3, 4], [("x", [1, 2, 3, 4])], none, none, 0, 1⟩ : TS ℚ ℚ)
      [.readMask, .setGti [(3/2, 5)], .readMask, .shift 10, .readMask] =
    .ok ⟨[11, 12, 13, 14], [("x", [1, 2, 3, 4])], some [(23/2, 15)],
      some [false, true, true, true], 0, 1⟩ := by decide +kernel

/-- **C28 (negation).** After reading the mask, assigning `gti = None` keeps the old mask: it is still used although
the GTIs now cover every sample. -/
theorem mask_stale_after_gti_none :
    ∃ (s s' s'' : TS ℚ ℚ) (m fresh : List Bool), s.mask = none ∧
      run (fun _ => 1) (1/1000) s [.readMask, .clearGti, .readGti] = .ok s' ∧
      maskGet (fun _ => 1) (1/1000) s' = .ok (m, s'') ∧
      freshMask (fun _ => 1) (1/1000) s' = .ok fresh ∧ m ≠ fresh := by
  refine ⟨⟨[1, 2, 3], [], some [(3/2, 5)], none, 0, 1⟩,
    ⟨[1, 2, 3], [], some [(1/2, 7/2)], some [false, true, true], 0, 1⟩,
    ⟨[1, 2, 3], [], some [(1/2, 7/2)], some [false, true, true], 0, 1⟩,
    [false, true, true], [true, true, true], ?_⟩
  decide +kernel

/-- **C28 (negation).** Assigning new times keeps the old mask. -/
theorem mask_stale_after_time :
    ∃ (s s' s'' : TS ℚ ℚ) (m fresh : List Bool), s.mask = none ∧
      run (fun _ => 1) (1/1000) s [.readMask, .setTime [11, 12, 13]] = .ok s' ∧
      maskGet (fun _ => 1) (1/1000) s' = .ok (m, s'') ∧
      freshMask (fun _ => 1) (1/1000) s' = .ok fresh ∧ m ≠ fresh := by
  refine ⟨⟨[1, 2, 3], [], some [(3/2, 5)], none, 0, 1⟩,
    ⟨[11, 12, 13], [], some [(3/2, 5)], some [false, true, true], 0, 1⟩,
    ⟨[11, 12, 13], [], some [(3/2, 5)], some [false, true, true], 0, 1⟩,
    [false, true, true], [false, false, false], ?_⟩
  decide +kernel

/-! ### Arithmetic (C30) -/

/-- **C30 (partial).** When both operands have the same reference and the same GTIs, `a + b` and the like leave the
rows, the GTIs and the mask of both operands as they were (missing GTIs are filled in by reading them), and the result holds
`op` of the two arrays, sample by sample.  Missing: operands with different GTIs, for which it is false
(`arithmetic_overwrites_operands`). -/
theorem arithmetic_keeps_operands_partial
    (order : KeySort (fun (x : (K × K) × Bool) => x.1.2)) (median : List K → K) (eps : K)
    (op errOp : V → V → V) (isErr : String → Bool) (s o s' o' r : TS K V)
    (hgti : (gtiGet s).1 = (gtiGet o).1) (href : s.mjdref = o.mjdref)
    (h : operation order median eps op errOp isErr s o = .ok (s', o', r)) :
    s' = { s with gti := (gtiGet s).1 } ∧ o' = { o with gti := (gtiGet o).1 } ∧
    s.time = o.time ∧ r.time = s.time ∧ r.gti = (gtiGet s).1 ∧ r.mjdref = s.mjdref ∧
    List.Forall₂ (fun a c => c.1 = a.1 ∧ ∃ b, o.attrs.lookup a.1 = some b ∧
      c.2 = List.zipWith (if isErr a.1 then errOp else op) a.2 b) s.attrs r.attrs := by
  unfold operation at h
  simp only [href, decide_true, if_true, hgti, bind, Except.bind, pure, Except.pure] at h
  cases hb : baseOperation op errOp isErr (gtiGet s).2 (gtiGet o).2 with
  | error e => rw [hb] at h; cases h
  | ok r' =>
    rw [hb] at h
    cases h
    refine ⟨gtiGet_snd s, gtiGet_snd o, ?_⟩
    unfold baseOperation at hb
    have e1 := gtiGet_snd s
    have e2 := gtiGet_snd o
    split_ifs at hb with ht
    have ht' : s.time = o.time := by
      have := not_not.1 ht
      rw [e1, e2] at this
      exact this
    simp only [bind, Except.bind, pure, Except.pure] at hb
    split at hb
    · cases hb
    · next attrs hattrs =>
      cases hb
      refine ⟨ht', ?_, ?_, ?_, ?_⟩
      · simp only [gtiGet_snd]
      · rw [gtiGet_snd]; exact gtiGet_idem s
      · simp only [gtiGet_snd, href]
      · have := mapM_ok_forall2 _ _ _ hattrs
        have hsa : (gtiGet s).2.attrs = s.attrs := by rw [e1]
        have hoa : (gtiGet o).2.attrs = o.attrs := by rw [e2]
        rw [hsa, hoa] at this
        refine this.imp ?_
        intro a c hc
        cases hl : o.attrs.lookup a.1 with
        | none => rw [hl] at hc; cases hc
        | some b =>
          rw [hl] at hc
          cases hc
          exact ⟨rfl, b, rfl, rfl⟩

example : operation (stableSort _) (fun _ => 1) (1/1000) (· + ·) (fun a b => a * a + b * b) (· == "x_err")
    (⟨[1, 2], [("x", [1, 2]), ("x_err", [3, 4])], some [(1/2, 5/2)], none, 0, 1⟩ : TS ℚ ℚ)
    ⟨[1, 2], [("x", [10, 20]), ("x_err", [3, 4])], none, none, 0, 1⟩ =
    .ok (⟨[1, 2], [("x", [1, 2]), ("x_err", [3, 4])], some [(1/2, 5/2)], none, 0, 1⟩,
      ⟨[1, 2], [("x", [10, 20]), ("x_err", [3, 4])], some [(1/2, 5/2)], none, 0, 1⟩,
      ⟨[1, 2], [("x", [11, 22]), ("x_err", [18, 32])], some [(1/2, 5/2)], none, 0, 1⟩) := by
  decide +kernel

/-- **C30 (different references).** With another reference MJD, the second operand is first referred to that of the first:
the result is the one of the re-referenced series, and the second operand itself is left as it was. -/
theorem arithmetic_mjdref
    (order : KeySort (fun (x : (K × K) × Bool) => x.1.2)) (median : List K → K) (eps : K)
    (op errOp : V → V → V) (isErr : String → Bool) (s o : TS K V) (href : s.mjdref ≠ o.mjdref) :
    (operation order median eps op errOp isErr s o).map (fun r => r.2.2) =
      (operation order median eps op errOp isErr s (changeMjdref o s.mjdref)).map (fun r => r.2.2) ∧
    ∀ s' o' r, operation order median eps op errOp isErr s o = .ok (s', o', r) → o' = o := by
  have hm : (changeMjdref o s.mjdref).mjdref = s.mjdref := rfl
  unfold operation
  simp only [href, hm, decide_false, decide_true, Bool.false_eq_true, if_false, if_true, bind, Except.bind, pure,
    Except.pure]
  split_ifs with hg
  · cases baseOperation op errOp isErr (gtiGet s).2 (gtiGet (changeMjdref o s.mjdref)).2 with
    | error e => simp [Except.map]
    | ok r => simp [Except.map]
  · cases (gtiGet s).1 with
    | none => simp [Except.map]
    | some g =>
      cases (gtiGet (changeMjdref o s.mjdref)).1 with
      | none => simp [Except.map]
      | some h =>
        dsimp only
        cases crossTwoGtis order g h with
        | error e => simp [Except.map]
        | ok c =>
          dsimp only
          cases applyGtis median eps (gtiGet s).2 (some c) true with
          | error e => simp [Except.map]
          | ok p =>
            dsimp only
            cases applyGtis median eps (gtiGet (changeMjdref o s.mjdref)).2 (some c) true with
            | error e => simp [Except.map]
            | ok q =>
              dsimp only
              cases baseOperation op errOp isErr p.1 q.1 with
              | error e => simp [Except.map]
              | ok r => simp [Except.map]

/-- Non-vacuity of `arithmetic_mjdref`: the second series is one day of 86400 s later in its own reference. -/
example : (operation (stableSort _) (fun _ => 1) (1/1000) (· + ·) (· + ·) (fun _ => false)
    (⟨[86401, 86402], [("x", [1, 2])], some [(86400, 86403)], none, 0, 1⟩ : TS ℚ ℚ)
    ⟨[1, 2], [("x", [10, 20])], some [(0, 3)], none, 1, 1⟩).map (fun r => r.2.2.attrs) = .ok [("x", [11, 22])] := by
  decide +kernel

/-- **C30 (negation).** When the GTIs differ, adding two series removes samples from *both operands* for good. -/
theorem arithmetic_overwrites_operands :
    ∃ (s o s' o' r : TS ℚ ℚ),
      operation (stableSort _) (fun _ => 1) (1/1000) (· + ·) (· + ·) (fun _ => false) s o = .ok (s', o', r) ∧
      s.time.length = 4 ∧ s'.time.length = 2 ∧ o.time.length = 4 ∧ o'.time.length = 2 := by
  refine ⟨⟨[1, 2, 3, 4], [("x", [1, 2, 3, 4])], some [(1/2, 7/2)], none, 0, 1⟩,
    ⟨[1, 2, 3, 4], [("x", [1, 2, 3, 4])], some [(3/2, 9/2)], none, 0, 1⟩,
    ⟨[2, 3], [("x", [2, 3])], some [(3/2, 7/2)], none, 0, 1⟩,
    ⟨[2, 3], [("x", [2, 3])], some [(3/2, 7/2)], none, 0, 1⟩,
    ⟨[2, 3], [("x", [4, 6])], some [(3/2, 7/2)], none, 0, 1⟩, ?_⟩
  decide +kernel

/-! ### `apply_gtis` without `inplace` (C73) -/

/-- **C73.** In place, `apply_gtis` leaves the series with the new GTIs and with rows that are exactly those the mask of
these GTIs selects. -/
theorem apply_gtis_inplace (median : List K → K) (eps : K) (s new self : TS K V)
    (g : List (K × K)) (hs : Aligned s)
    (h : applyGtis median eps s (some g) true = .ok (new, self)) :
    self = new ∧ new.gti = some g ∧ new.mask = none ∧
    ∃ m, createGtiMask median s.time g none 0 (some s.dt) eps = .ok m ∧
      Rows (truePositions m) s.time new.time ∧
      List.Forall₂ (fun old a => old.1 = a.1 ∧ Rows (truePositions m) old.2 a.2) s.attrs new.attrs := by
  simp only [applyGtis, bind, Except.bind, pure, Except.pure] at h
  rcases checkGtis_cases g with hg | hg
  · simp only [hg] at h
    cases hcm : createGtiMask median s.time g none 0 (some s.dt) eps with
    | error e => rw [hcm] at h; cases h
    | ok m =>
      simp only [hcm] at h
      cases ha : applyMask s m true none with
      | error e => rw [ha] at h; cases h
      | ok p =>
        obtain ⟨n1, s1⟩ := p
        rw [ha] at h
        simp only [if_true] at h
        cases h
        have := apply_mask_rows s n1 s1 m true none hs ha
        refine ⟨rfl, rfl, rfl, m, rfl, this.1, ?_⟩
        have e : s.attrs.filter (fun a => decide ((none : Option (List String)) = none ∨
          ∃ l, (none : Option (List String)) = some l ∧ a.1 ∈ l)) = s.attrs := by simp
        have h2 := this.2.1
        rw [e] at h2
        exact h2
  · simp only [hg] at h; cases h

example : applyGtis (fun _ => 1) (1/1000) (⟨[1, 2, 3, 4], [("x", [1, 2, 3, 4])], some [(1/2, 9/2)],
      some [true, true, true, true], 0, 1⟩ : TS ℚ ℚ) (some [(3/2, 7/2)]) true =
    .ok (⟨[2, 3], [("x", [2, 3])], some [(3/2, 7/2)], none, 0, 1⟩,
      ⟨[2, 3], [("x", [2, 3])], some [(3/2, 7/2)], none, 0, 1⟩) := by decide +kernel

/-- **C73 (negation).** With `inplace=False` the returned series has the filtered samples but the *old* GTIs, and so claims
good time it has no samples for. -/
theorem apply_gtis_copy_keeps_old_gtis (median : List K → K) (eps : K) (s new self : TS K V)
    (g old : List (K × K)) (hold : s.gti = some old)
    (h : applyGtis median eps s (some g) false = .ok (new, self)) : new.gti = some old := by
  simp only [applyGtis, bind, Except.bind, pure, Except.pure] at h
  rcases checkGtis_cases g with hg | hg
  · simp only [hg] at h
    cases hcm : createGtiMask median s.time g none 0 (some s.dt) eps with
    | error e => rw [hcm] at h; cases h
    | ok m =>
      simp only [hcm] at h
      unfold applyMask at h
      by_cases hl : m.length ≠ s.time.length ∨ s.time = []
      · simp only [hl, if_true] at h; cases h
      · simp only [hl, if_false, Bool.false_eq_true] at h
        cases h
        simp [gtiGet, hold]
  · simp only [hg] at h; cases h

example : applyGtis (fun _ => 1) (1/1000) (⟨[1, 2, 3, 4], [("x", [1, 2, 3, 4])], some [(1/2, 9/2)],
      none, 0, 1⟩ : TS ℚ ℚ) (some [(3/2, 7/2)]) false =
    .ok (⟨[2, 3], [("x", [2, 3])], some [(1/2, 9/2)], none, 0, 1⟩,
      ⟨[1, 2, 3, 4], [("x", [1, 2, 3, 4])], some [(1/2, 9/2)], none, 0, 1⟩) := by decide +kernel

/-! ### Equality (C74, C75) -/

/-- **C74 (partial).** Equal series have the same GTIs, reference, bin size and arrays.  Missing: the sample times, which
are not compared (`eq_ignores_times`). -/
theorem eq_sound_partial [DecidableEq V] (s o : TS K V) (h : eq s o = true) :
    (gtiGet s).1 = (gtiGet o).1 ∧ s.mjdref = o.mjdref ∧ s.dt = o.dt ∧
    (∀ a ∈ s.attrs, o.attrs.lookup a.1 = some a.2) ∧
    (∀ n, n ∈ s.attrs.map Prod.fst ↔ n ∈ o.attrs.map Prod.fst) := by
  unfold eq at h
  simp only [Bool.and_eq_true, decide_eq_true_eq, List.all_eq_true] at h
  obtain ⟨⟨⟨⟨⟨⟨h1, h2⟩, h3⟩, h4⟩, h5⟩, h6⟩, -⟩ := h
  exact ⟨h5, h3, h4, h6, fun n => ⟨fun hn => h1 hn, fun hn => h2 hn⟩⟩

example : eq (⟨[1, 2], [("x", [1, 2])], some [(0, 5)], none, 0, 1⟩ : TS ℚ ℚ)
    ⟨[1, 2], [("x", [1, 2])], some [(0, 5)], none, 0, 1⟩ = true ∧
  eq (⟨[1, 2], [("x", [1, 2])], some [(0, 5)], none, 0, 1⟩ : TS ℚ ℚ)
    ⟨[1, 2], [("x", [1, 3])], some [(0, 5)], none, 0, 1⟩ = false := by decide +kernel

/-- **C74 (negation).** Two series whose sample times differ compare equal. -/
theorem eq_ignores_times :
    ∃ s o : TS ℚ ℚ, eq s o = true ∧ eq o s = true ∧ s.time ≠ o.time :=
  ⟨⟨[1, 2], [("x", [1, 2])], some [(0, 5)], none, 0, 1⟩,
    ⟨[3, 4], [("x", [1, 2])], some [(0, 5)], none, 0, 1⟩, by decide +kernel⟩

/-- **C75 (partial).** Among series whose mask has not been read yet, equality is reflexive and symmetric.  Missing:
series with a cached mask (`eq_depends_on_reading_mask`). -/
theorem eq_symm_partial [DecidableEq V] (s o : TS K V) (hs : s.mask = none) (ho : o.mask = none)
    (hns : (s.attrs.map Prod.fst).Nodup) (hno : (o.attrs.map Prod.fst).Nodup) :
    eq s s = true ∧ (eq s o = true → eq o s = true) := by
  have lk : ∀ (l : List (String × List V)), (l.map Prod.fst).Nodup → ∀ a ∈ l, l.lookup a.1 = some a.2 := by
    intro l
    induction l with
    | nil => simp
    | cons b l ih =>
      intro hn a ha
      rw [List.map_cons, List.nodup_cons] at hn
      rcases List.mem_cons.1 ha with rfl | ha
      · simp [List.lookup]
      · have hne : a.1 ≠ b.1 := by
          intro e
          exact hn.1 (e ▸ List.mem_map_of_mem ha)
        rw [List.lookup_cons]
        simp only [beq_iff_eq, hne, if_false, ih hn.2 a ha]
        have : (a.1 == b.1) = false := by simpa using hne
        simp [this]
  have lkm : ∀ (l : List (String × List V)) (n : String) (v : List V), l.lookup n = some v → (n, v) ∈ l := by
    intro l n v
    induction l with
    | nil => simp
    | cons b l ih =>
      obtain ⟨b1, b2⟩ := b
      rw [List.lookup_cons]
      cases hnb : (n == b1) with
      | true =>
        intro h
        simp only at h
        cases h
        rw [beq_iff_eq] at hnb
        simp [hnb]
      | false => intro h; exact List.mem_cons_of_mem _ (ih h)
  constructor
  · unfold eq
    simp only [Bool.and_eq_true, decide_eq_true_eq, List.all_eq_true, hs, and_true,
      List.Subset.refl]
    exact ⟨trivial, lk s.attrs hns⟩
  · intro h
    obtain ⟨h1, h2, h3, h4, h5⟩ := eq_sound_partial s o h
    unfold eq
    simp only [Bool.and_eq_true, decide_eq_true_eq, List.all_eq_true, ho, and_true]
    refine ⟨⟨⟨⟨⟨fun n hn => (h5 n).2 hn, fun n hn => (h5 n).1 hn⟩, h2.symm⟩, h3.symm⟩, h1.symm⟩, ?_⟩
    intro a ha
    obtain ⟨b, hb, hba⟩ := List.mem_map.1 ((h5 a.1).2 (List.mem_map_of_mem ha))
    have h6 := h4 b hb
    rw [hba, lk o.attrs hno a ha] at h6
    rw [← hba, lk s.attrs hns b hb, Option.some.inj h6]

/-- **C75 (negation).** Merely reading the mask of one of two identical series makes the comparison fail in one direction and succeed in
the other. -/
theorem eq_depends_on_reading_mask :
    ∃ (s s' : TS ℚ ℚ) (m : List Bool), maskGet (fun _ => 1) (1/1000) s = .ok (m, s') ∧
      eq s s = true ∧ eq s' s = false ∧ eq s s' = true := by
  refine ⟨⟨[1, 2], [("x", [1, 2])], some [(0, 5)], none, 0, 1⟩,
    ⟨[1, 2], [("x", [1, 2])], some [(0, 5)], some [true, true], 0, 1⟩, [true, true], ?_⟩
  decide +kernel

end Stingray.TimeSeries

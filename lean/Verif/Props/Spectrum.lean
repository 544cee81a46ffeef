import Verif.Model.Spectrum
import Verif.Lemmas.GtiSegments
import Verif.Props.RebinLog
import Mathlib.Algebra.Order.Ring.Rat
import Mathlib.Algebra.Group.Pi.Basic
import Mathlib.Algebra.BigOperators.Group.List.Lemmas
import Mathlib.Tactic.NormNum
import Mathlib.Tactic.Linarith
import Mathlib.Tactic.FinCases

/-!
Spectrum objects: changing the normalisation (C59), rebinning dynamical spectra by intervals (C60), tracing the maximum (C61).
-/

set_option linter.unusedSectionVars false

namespace Stingray.Spectrum

open Stingray.Fourier

variable {K : Type} [Field K] [LinearOrder K] [IsStrictOrderedRing K]

/-! ### Changing the normalisation -/

/-- The powers of an object are the normalised unnormalised ones, and so are the uncertainties. -/
def Consistent (sqrt : K → K) (s : SpecObj K) : Prop :=
  ∀ p ∈ s.subs,
    normalizeCx sqrt s.norm s.dt s.n (p.nph / s.n) p.nph p.variance 0 s.powerType p.unnormPower = .ok p.power ∧
    match p.unnormPowerErr with
    | none => p.powerErr = none
    | some u => ∃ e, p.powerErr = some e ∧
        normalizeCx sqrt s.norm s.dt s.n (p.nph / s.n) p.nph p.variance 0 s.powerType u = .ok e

/-- what an object is, apart from what the normalisation changes -/
def sameData (a b : SpecObj K) : Prop :=
  a.dt = b.dt ∧ a.n = b.n ∧ a.powerType = b.powerType ∧
    List.Forall₂ (fun p q : Powers K => p.nph = q.nph ∧ p.variance = q.variance ∧ p.unnormPower = q.unnormPower ∧
      p.unnormPowerErr = q.unnormPowerErr) a.subs b.subs

theorem renormalize_data (sqrt : K → K) (norm : Norm) (dt n : K) (pt : PowerType) (p q : Powers K)
    (h : renormalize sqrt norm dt n pt p = .ok q) :
    q.nph = p.nph ∧ q.variance = p.variance ∧ q.unnormPower = p.unnormPower ∧ q.unnormPowerErr = p.unnormPowerErr ∧
    normalizeCx sqrt norm dt n (p.nph / n) p.nph p.variance 0 pt p.unnormPower = .ok q.power ∧
    (match p.unnormPowerErr with
      | none => q.powerErr = p.powerErr
      | some u => ∃ e, q.powerErr = some e ∧ normalizeCx sqrt norm dt n (p.nph / n) p.nph p.variance 0 pt u = .ok e) := by
  unfold renormalize at h
  cases h1 : normalizeCx sqrt norm dt n (p.nph / n) p.nph p.variance 0 pt p.unnormPower with
  | error e => rw [h1] at h; simp at h
  | ok pw =>
    rw [h1] at h
    dsimp only at h
    cases h2 : p.unnormPowerErr with
    | none =>
      rw [h2] at h
      cases h
      exact ⟨rfl, rfl, rfl, rfl, rfl, rfl⟩
    | some u =>
      rw [h2] at h
      dsimp only at h
      cases h3 : normalizeCx sqrt norm dt n (p.nph / n) p.nph p.variance 0 pt u with
      | error e => rw [h3] at h; simp at h
      | ok er =>
        rw [h3] at h
        cases h
        exact ⟨rfl, rfl, rfl, rfl, rfl, er, rfl, h3⟩

/-- **C59.** `to_norm` gives an object with the requested normalisation, whose data and unnormalised powers are those of the original, and which is consistent with that normalisation whenever the original was consistent with its own: its powers and uncertainties, and those
of the attached power spectra, are exactly the normalised unnormalised ones. -/
theorem to_norm_consistent (sqrt : K → K) (norm : Norm) (s t : SpecObj K) (hc : Consistent sqrt s)
    (h : toNorm sqrt norm s = .ok t) : t.norm = norm ∧ sameData t s ∧ Consistent sqrt t := by
  unfold toNorm at h
  by_cases hn : norm = s.norm
  · rw [if_pos hn] at h
    cases h
    refine ⟨hn.symm, ⟨rfl, rfl, rfl, ?_⟩, hc⟩
    exact List.forall₂_same.2 (fun p _ => ⟨rfl, rfl, rfl, rfl⟩)
  · rw [if_neg hn] at h
    cases hm : s.subs.mapM (renormalize sqrt norm s.dt s.n s.powerType) with
    | error e => rw [hm] at h; simp at h
    | ok subs =>
      rw [hm] at h
      cases h
      have hf := Gti.mapM_ok_forall2 _ _ _ hm
      refine ⟨rfl, ⟨rfl, rfl, rfl, ?_⟩, ?_⟩
      · dsimp only
        exact List.Forall₂.flip (hf.imp (fun p q h => by
          obtain ⟨h1, h2, h3, h4, -⟩ := renormalize_data _ _ _ _ _ _ _ h
          exact ⟨h1, h2, h3, h4⟩))
      · intro q hq
        dsimp only at hq ⊢
        obtain ⟨p, hp, hpq⟩ := Gti.forall2_mem_right hf hq
        obtain ⟨h1, h2, h3, h4, h5, h6⟩ := renormalize_data _ _ _ _ _ _ _ hpq
        rw [h1, h2, h3, h4]
        refine ⟨h5, ?_⟩
        have hc' := (hc p hp).2
        cases hu : p.unnormPowerErr with
        | none =>
          rw [hu] at h6 hc'
          dsimp only at h6 hc' ⊢
          rw [h6, hc']
        | some u =>
          rw [hu] at h6
          exact h6

/-- two consistent objects with the same data and normalisation are the same -/
theorem consistent_unique (sqrt : K → K) (a b : SpecObj K) (ha : Consistent sqrt a) (hb : Consistent sqrt b)
    (hd : sameData a b) (hn : a.norm = b.norm) : a = b := by
  obtain ⟨na, dta, n_a, pta, sa⟩ := a
  obtain ⟨nb, dtb, n_b, ptb, sb⟩ := b
  obtain ⟨h1, h2, h3, h4⟩ := hd
  dsimp only at h1 h2 h3 h4 hn
  subst h1 h2 h3 hn
  congr 1
  unfold Consistent at ha hb
  dsimp only at ha hb
  induction h4 with
  | nil => rfl
  | cons h _ ih =>
    rename_i p q l m hlm
    have h5 := ha p (by simp)
    have h6 := hb q (by simp)
    rw [ih (fun r hr => ha r (by simp [hr])) (fun r hr => hb r (by simp [hr]))]
    congr 1
    obtain ⟨e1, e2, e3, e4⟩ := h
    rw [e1, e2, e3, e4] at h5
    have hp : p.power = q.power := by
      have := h5.1.symm.trans h6.1
      exact Except.ok.inj this
    have he : p.powerErr = q.powerErr := by
      have h7 := h5.2
      have h8 := h6.2
      cases hu : q.unnormPowerErr with
      | none =>
        rw [hu] at h7 h8
        dsimp only at h7 h8
        rw [h7, h8]
      | some u =>
        rw [hu] at h7 h8
        dsimp only at h7 h8
        obtain ⟨e, he, hne⟩ := h7
        obtain ⟨e', he', hne'⟩ := h8
        rw [he, he']
        congr 1
        exact Except.ok.inj (hne.symm.trans hne')
    obtain ⟨a1, a2, a3, a4, a5, a6⟩ := p
    obtain ⟨b1, b2, b3, b4, b5, b6⟩ := q
    dsimp only at e1 e2 e3 e4 hp he
    subst e1 e2 e3 e4 hp he
    rfl

theorem sameData.symm {a b : SpecObj K} (h : sameData a b) : sameData b a := by
  obtain ⟨h1, h2, h3, h4⟩ := h
  exact ⟨h1.symm, h2.symm, h3.symm, List.Forall₂.flip (h4.imp fun _ _ h => ⟨h.1.symm, h.2.1.symm, h.2.2.1.symm, h.2.2.2.symm⟩)⟩

theorem sameData.trans {a b c : SpecObj K} (h : sameData a b) (h' : sameData b c) : sameData a c := by
  obtain ⟨p1, p2, p3, p4⟩ := h
  obtain ⟨q1, q2, q3, q4⟩ := h'
  refine ⟨p1.trans q1, p2.trans q2, p3.trans q3, ?_⟩
  revert p4 q4
  generalize a.subs = as
  generalize b.subs = bs
  generalize c.subs = cs
  intro p4
  revert cs
  induction p4 with
  | nil => intro cs q4; cases q4; exact List.Forall₂.nil
  | cons h _ ih =>
    intro cs q4
    cases q4 with
    | cons h' hr =>
      exact List.Forall₂.cons ⟨h.1.trans h'.1, h.2.1.trans h'.2.1, h.2.2.1.trans h'.2.2.1, h.2.2.2.trans h'.2.2.2⟩ (ih _ hr)

/-- **C59 (no memory).** Changing the normalisation of a consistent object to `a` and then to `b` gives the same object as changing it to `b` at once; in particular going back to the original normalisation gives the original object. -/
theorem to_norm_path (sqrt : K → K) (a b : Norm) (s t u v : SpecObj K) (hc : Consistent sqrt s)
    (h1 : toNorm sqrt a s = .ok t) (h2 : toNorm sqrt b t = .ok u) (h3 : toNorm sqrt b s = .ok v) :
    u = v ∧ (b = s.norm → u = s) := by
  obtain ⟨t1, t2, t3⟩ := to_norm_consistent sqrt a s t hc h1
  obtain ⟨u1, u2, u3⟩ := to_norm_consistent sqrt b t u t3 h2
  obtain ⟨v1, v2, v3⟩ := to_norm_consistent sqrt b s v hc h3
  have htrans : sameData u s := u2.trans t2
  have huv : sameData u v := htrans.trans v2.symm
  refine ⟨consistent_unique sqrt u v u3 v3 huv (u1.trans v1.symm), ?_⟩
  intro hb
  exact consistent_unique sqrt u s u3 hc htrans (u1.trans hb)

/-- **C59 (errors).** An unknown normalisation raises a `ValueError` and an object with powers is not touched; a known one succeeds for Poisson data. -/
theorem to_norm_errors (sqrt : K → K) (s : SpecObj K) (hn : s.norm ≠ .other) (hne : s.subs ≠ []) :
    toNorm sqrt .other s = .error .valueError ∧
    ∀ norm, norm ≠ .other → s.powerType ≠ .other → (∀ p ∈ s.subs, p.variance = none) → ∃ t, toNorm sqrt norm s = .ok t := by
  constructor
  · unfold toNorm
    rw [if_neg (fun h => hn h.symm)]
    cases hs : s.subs with
    | nil => exact absurd hs hne
    | cons p l =>
      have : renormalize sqrt .other s.dt s.n s.powerType p = .error .valueError := by
        simp [renormalize, normalizeCx, normalizer, bind, Except.bind]
      rw [List.mapM_cons, this]
      rfl
  · intro norm hno hpt hv
    unfold toNorm
    by_cases h : norm = s.norm
    · rw [if_pos h]; exact ⟨_, rfl⟩
    · rw [if_neg h]
      have hok : ∀ p ∈ s.subs, ∃ q, renormalize sqrt norm s.dt s.n s.powerType p = .ok q := by
        intro p hp
        have hz : ∀ l, ∃ r, normalizeCx sqrt norm s.dt s.n (p.nph / s.n) p.nph p.variance 0 s.powerType l = .ok r := by
          intro l
          rw [hv p hp]
          cases norm <;> cases hq : s.powerType <;>
            simp_all [normalizeCx, normalizer, bind, Except.bind]
        obtain ⟨r, hr⟩ := hz p.unnormPower
        unfold renormalize
        rw [hr]
        dsimp only
        cases hu : p.unnormPowerErr with
        | none => exact ⟨_, rfl⟩
        | some u =>
          obtain ⟨r', hr'⟩ := hz u
          dsimp only
          rw [hr']
          exact ⟨_, rfl⟩
      have : ∀ l : List (Powers K), (∀ p ∈ l, ∃ q, renormalize sqrt norm s.dt s.n s.powerType p = .ok q) →
          ∃ out, l.mapM (renormalize sqrt norm s.dt s.n s.powerType) = .ok out := by
        intro l
        induction l with
        | nil => intro _; exact ⟨[], rfl⟩
        | cons p l ih =>
          intro hl
          obtain ⟨q, hq⟩ := hl p (by simp)
          obtain ⟨o, ho⟩ := ih (fun r hr => hl r (by simp [hr]))
          exact ⟨q :: o, by rw [List.mapM_cons, hq, ho]; rfl⟩
      obtain ⟨o, ho⟩ := this s.subs hok
      rw [ho]
      exact ⟨_, rfl⟩

/-- a cross spectrum with its two power spectra, in absolute norm -/
def exampleSpec : SpecObj ℚ :=
  { norm := .leahy, dt := 1, n := 4, powerType := .all
    subs := [{ nph := 8, variance := none, unnormPower := [⟨4, 4⟩], unnormPowerErr := some [⟨2, 0⟩], power := [⟨1, 1⟩], powerErr := some [⟨1/2, 0⟩] },
      { nph := 16, variance := none, unnormPower := [⟨8, 0⟩], unnormPowerErr := none, power := [⟨1, 0⟩], powerErr := none }] }

example : Consistent (fun x => x) exampleSpec := by
  intro p hp
  simp only [exampleSpec, List.mem_cons, List.mem_nil_iff, or_false] at hp
  rcases hp with rfl | rfl
  · refine ⟨by decide +kernel, [⟨1/2, 0⟩], by decide +kernel, by decide +kernel⟩
  · exact ⟨by decide +kernel, rfl⟩

/-! ### Rebinning by a number of intervals -/

/-- the sum of the columns `g n .. g n + k - 1` -/
def groupSum {r : Nat} (cols : List (Fin r → K)) (n g k : Nat) : Fin r → K :=
  fun f => ((List.range k).map fun j => cols.getD (g * n + j) 0 f).sum

/-- the value of the group: its sum or its average -/
def groupValue {r : Nat} (average : Bool) (cols : List (Fin r → K)) (n g : Nat) : Fin r → K :=
  fun f => if average then groupSum cols n g n f / (n : K) else groupSum cols n g n f

/-- The columns of the object itself after the call: the first column of every group holds the value of the group, or, in the last incomplete group, the sum of what there is. -/
def overwritten {r : Nat} (average : Bool) (cols : List (Fin r → K)) (n upTo k : Nat) : Fin r → K :=
  if upTo ≤ k then cols.getD k 0
  else if k % n ≠ 0 then cols.getD k 0
  else if k / n < upTo / n then groupValue average cols n (k / n)
  else groupSum cols n (k / n) (upTo % n)

theorem groupSum_succ {r : Nat} (cols : List (Fin r → K)) (n g k : Nat) :
    groupSum cols n g (k + 1) = groupSum cols n g k + cols.getD (g * n + k) 0 := by
  funext f
  simp [groupSum, List.range_succ]

theorem rebin_loop {r : Nat} (n : Nat) (hn : 2 ≤ n) (average : Bool) (cols : List (Fin r → K)) (time : List K) (i : Nat)
    (hi : i ≤ cols.length) :
    let st := (List.range i).foldl (rebinStep n average time)
      { cols := cols, start := 0, count := 0, binTime := 0, picked := [], times := [] }
    st.cols.length = cols.length ∧
    (∀ k, st.cols.getD k 0 = overwritten average cols n i k) ∧
    st.picked = (List.range (i / n)).map (· * n) ∧
    st.times = (List.range (i / n)).map (fun g => ((List.range n).map fun j => time.getD (g * n + j) 0).sum / (n : K)) ∧
    (i % n ≠ 0 → st.start = i / n * n ∧ st.count = i % n ∧
      st.binTime = ((List.range (i % n)).map fun j => time.getD (i / n * n + j) 0).sum) := by
  induction i with
  | zero =>
    refine ⟨rfl, ?_, by simp, by simp, by simp⟩
    intro k
    simp [overwritten]
  | succ i ih =>
    obtain ⟨h1, h2, h3, h4, h5⟩ := ih (by omega)
    rw [List.range_succ, List.foldl_append, List.foldl_cons, List.foldl_nil]
    generalize (List.range i).foldl (rebinStep n average time)
      { cols := cols, start := 0, count := 0, binTime := 0, picked := [], times := [] } = st at *
    have hdm : i = i / n * n + i % n := by rw [Nat.mul_comm]; exact (Nat.div_add_mod i n).symm
    have hmlt : i % n < n := Nat.mod_lt _ (by omega)
    have hself : overwritten average cols n i i = cols.getD i 0 := by simp [overwritten]
    by_cases h0 : i % n = 0
    · -- a new group
      have hs : rebinStep n average time st i = { st with count := 1, start := i, binTime := time.getD i 0 } := by
        unfold rebinStep
        simp only [h0, if_true]
        rw [if_neg (by omega)]
      have hq : (i + 1) / n = i / n := by
        apply Nat.div_eq_of_lt_le <;> [skip; skip] <;> nlinarith [Nat.succ_mul (i / n) n]
      have hr : (i + 1) % n = 1 := by rw [Nat.add_mod, h0, Nat.zero_add, Nat.mod_mod, Nat.mod_eq_of_lt (by omega)]
      rw [hs]
      dsimp only
      refine ⟨h1, ?_, by rw [h3, hq], by rw [h4, hq], ?_⟩
      · intro k
        rw [h2 k]
        unfold overwritten
        rw [hq, hr, h0]
        by_cases hk : k = i
        · subst hk
          rw [if_pos (le_refl _), if_neg (by omega), if_neg (by omega), if_neg (by omega)]
          funext f
          have : k / n * n = k := by omega
          simp [groupSum, this]
        · by_cases hk2 : i ≤ k
          · rw [if_pos hk2, if_pos (by omega)]
          · rw [if_neg hk2, if_neg (show ¬ (i + 1 ≤ k) by omega)]
            by_cases hk3 : k % n ≠ 0
            · rw [if_pos hk3, if_pos hk3]
            · rw [if_neg hk3, if_neg hk3]
              have hlt : k / n < i / n := by
                by_contra hc
                have hle : k / n ≤ i / n := Nat.div_le_div_right (by omega)
                have he : k / n = i / n := by omega
                have hk4 : k = k / n * n + k % n := by rw [Nat.mul_comm]; exact (Nat.div_add_mod k n).symm
                rw [he] at hk4
                omega
              rw [if_pos hlt, if_pos hlt]
      · intro _
        rw [hr, hq]
        have : i / n * n = i := by omega
        simp [this]
    · -- inside a group
      obtain ⟨h5a, h5b, h5c⟩ := h5 h0
      have hstart : st.start < cols.length := by rw [h5a]; omega
      have hold : st.cols.getD st.start 0 = groupSum cols n (i / n) (i % n) := by
        rw [h2, h5a]
        unfold overwritten
        rw [if_neg (by omega), if_neg (by rw [Nat.mul_mod_left]; simp), Nat.mul_div_cancel _ (by omega), if_neg (by omega)]
      have hi' : st.cols.getD i 0 = cols.getD i 0 := by rw [h2, hself]
      have hnew : st.cols.getD st.start 0 + st.cols.getD i 0 = groupSum cols n (i / n) (i % n + 1) := by
        rw [hold, hi', groupSum_succ, ← hdm]
      have hgetset : ∀ (l : List (Fin r → K)) (v : Fin r → K) (k : Nat), l.length = cols.length →
          (l.set st.start v).getD k 0 = if k = st.start then v else l.getD k 0 := by
        intro l v k hl
        rw [List.getD_eq_getElem?_getD, List.getElem?_set, List.getD_eq_getElem?_getD]
        by_cases hk : k = st.start
        · subst hk
          simp [hl, hstart]
        · rw [if_neg (fun h => hk h.symm), if_neg hk]
      have htime : st.binTime + time.getD i 0 = ((List.range (i % n + 1)).map fun j => time.getD (i / n * n + j) 0).sum := by
        rw [h5c, List.range_succ, List.map_append, List.sum_append]
        simp [← hdm]
      by_cases hfull : i % n + 1 = n
      · -- the group is complete
        have hq : (i + 1) / n = i / n + 1 := by
          have : i + 1 = (i / n + 1) * n := by rw [Nat.succ_mul]; omega
          rw [this, Nat.mul_div_cancel _ (by omega)]
        have hr : (i + 1) % n = 0 := by
          have : i + 1 = (i / n + 1) * n := by rw [Nat.succ_mul]; omega
          rw [this, Nat.mul_mod_left]
        have hs : rebinStep n average time st i = { st with
            count := st.count + 1
            cols := if average then (st.cols.set st.start (groupSum cols n (i / n) n)).set st.start
                (fun j => (st.cols.set st.start (groupSum cols n (i / n) n)).getD st.start 0 j / (n : K))
              else st.cols.set st.start (groupSum cols n (i / n) n)
            picked := st.picked ++ [st.start]
            times := st.times ++ [(st.binTime + time.getD i 0) / (n : K)]
            binTime := st.binTime + time.getD i 0 } := by
          unfold rebinStep
          simp only [h0, if_false, h5b, hfull, if_true, hnew]
        rw [hs]
        dsimp only
        refine ⟨?_, ?_, ?_, ?_, ?_⟩
        · split_ifs <;> simp [h1]
        · intro k
          have hcols : (if average then (st.cols.set st.start (groupSum cols n (i / n) n)).set st.start
                (fun j => (st.cols.set st.start (groupSum cols n (i / n) n)).getD st.start 0 j / (n : K))
              else st.cols.set st.start (groupSum cols n (i / n) n)) = st.cols.set st.start (groupValue average cols n (i / n)) := by
            cases average with
            | false => rfl
            | true =>
              simp only [if_true]
              rw [List.set_set]
              congr 1
              funext f
              rw [hgetset _ _ _ h1, if_pos rfl]
              rfl
          rw [hcols, hgetset _ _ _ h1, h2 k]
          unfold overwritten
          rw [hq, hr]
          by_cases hk : k = st.start
          · rw [if_pos hk, hk, h5a, if_neg (by omega), if_neg (by rw [Nat.mul_mod_left]; simp), Nat.mul_div_cancel _ (by omega),
              if_pos (by omega)]
          · rw [if_neg hk]
            by_cases hk1 : i ≤ k
            · rw [if_pos hk1]
              by_cases hk2 : i + 1 ≤ k
              · rw [if_pos hk2]
              · have : k = i := by omega
                rw [if_neg hk2, if_pos (by rw [this]; exact h0)]
            · rw [if_neg hk1, if_neg (show ¬ (i + 1 ≤ k) by omega)]
              by_cases hk3 : k % n ≠ 0
              · rw [if_pos hk3, if_pos hk3]
              · rw [if_neg hk3, if_neg hk3]
                have hlt : k / n < i / n := by
                  by_contra hc
                  have hle : k / n ≤ i / n := Nat.div_le_div_right (by omega)
                  have he : k / n = i / n := by omega
                  have hk4 : k = k / n * n + k % n := by rw [Nat.mul_comm]; exact (Nat.div_add_mod k n).symm
                  rw [he] at hk4
                  rw [h5a] at hk
                  omega
                rw [if_pos hlt, if_pos (show k / n < i / n + 1 by omega)]
        · rw [h3, h5a, hq, List.range_succ, List.map_append]
          rfl
        · rw [h4, hq, List.range_succ, List.map_append, htime, hfull]
          rfl
        · intro h; exact absurd hr h
      · have hq : (i + 1) / n = i / n := by
          rw [Nat.div_eq_of_lt_le]
          · omega
          · rw [Nat.succ_mul]; omega
        have hr : (i + 1) % n = i % n + 1 := by
          have : i + 1 = (i % n + 1) + n * (i / n) := by rw [Nat.mul_comm]; omega
          rw [this, Nat.add_mul_mod_self_left, Nat.mod_eq_of_lt (by omega)]
        have hs : rebinStep n average time st i = { st with
            count := st.count + 1
            cols := st.cols.set st.start (groupSum cols n (i / n) (i % n + 1))
            binTime := st.binTime + time.getD i 0 } := by
          unfold rebinStep
          simp only [h0, if_false, h5b, hfull, hnew]
        rw [hs]
        dsimp only
        refine ⟨by simp [h1], ?_, by rw [h3, hq], by rw [h4, hq], ?_⟩
        · intro k
          rw [hgetset _ _ _ h1, h2 k]
          unfold overwritten
          rw [hq, hr]
          by_cases hk : k = st.start
          · rw [if_pos hk, hk, h5a, if_neg (by omega), if_neg (by rw [Nat.mul_mod_left]; simp), Nat.mul_div_cancel _ (by omega),
              if_neg (by omega)]
          · rw [if_neg hk]
            by_cases hk1 : i ≤ k
            · rw [if_pos hk1]
              by_cases hk2 : i + 1 ≤ k
              · rw [if_pos hk2]
              · have : k = i := by omega
                rw [if_neg hk2, if_pos (by rw [this]; exact h0)]
            · rw [if_neg hk1, if_neg (show ¬ (i + 1 ≤ k) by omega)]
              by_cases hk3 : k % n ≠ 0
              · rw [if_pos hk3, if_pos hk3]
              · rw [if_neg hk3, if_neg hk3]
                have hlt : k / n < i / n := by
                  by_contra hc
                  have hle : k / n ≤ i / n := Nat.div_le_div_right (by omega)
                  have he : k / n = i / n := by omega
                  have hk4 : k = k / n * n + k % n := by rw [Nat.mul_comm]; exact (Nat.div_add_mod k n).symm
                  rw [he] at hk4
                  rw [h5a] at hk
                  omega
                rw [if_pos hlt, if_pos hlt]
        · intro _
          rw [hr, hq]
          exact ⟨h5a, by rw [h5b], htime⟩

/-- **C60 (partial).** Rebinning a dynamical spectrum by `n ≥ 2` intervals gives one column per complete group of `n` columns: its average, or its sum with `method="sum"`; the times are the averages of the times of the group, and the time resolution and the number of averaged
powers are multiplied by `n`. `n = 1` gives a copy and `n < 1` raises.
Missing: that the original object is unchanged (false, below). -/
theorem rebin_by_n_partial {r : Nat} (n : Int) (average : Bool) (d : DynSpec r K) :
    (n < 1 → rebinByN n average d = .error .valueError) ∧ (n = 1 → rebinByN n average d = .ok (d, d)) ∧
    (2 ≤ n → ∃ new old, rebinByN n average d = .ok (new, old) ∧
      new.cols = (List.range (d.cols.length / n.toNat)).map (fun g => groupValue average d.cols n.toNat g) ∧
      new.time = (List.range (d.cols.length / n.toNat)).map
        (fun g => ((List.range n.toNat).map fun j => d.time.getD (g * n.toNat + j) 0).sum / (n.toNat : K)) ∧
      new.dt = d.dt * (n.toNat : K) ∧ new.m = n.toNat * d.m) := by
  refine ⟨?_, ?_, ?_⟩
  · intro h
    unfold rebinByN
    rw [if_neg (by omega), if_pos h]
  · intro h
    unfold rebinByN
    rw [if_pos h]
  · intro h
    unfold rebinByN
    rw [if_neg (by omega), if_neg (by omega)]
    obtain ⟨h1, h2, h3, h4, -⟩ := rebin_loop n.toNat (by omega) average d.cols d.time d.cols.length (le_refl _)
    refine ⟨_, _, rfl, ?_, h4, rfl, rfl⟩
    dsimp only
    rw [h3, List.map_map]
    apply List.map_congr_left
    intro g hg
    rw [List.mem_range] at hg
    simp only [Function.comp]
    rw [h2]
    have hle : g * n.toNat < d.cols.length := by
      have h5 : (g + 1) * n.toNat ≤ d.cols.length := by
        calc (g + 1) * n.toNat ≤ d.cols.length / n.toNat * n.toNat := Nat.mul_le_mul_right _ hg
          _ ≤ d.cols.length := Nat.div_mul_le_self _ _
      rw [Nat.succ_mul] at h5
      omega
    unfold overwritten
    rw [if_neg (by omega), if_neg (by rw [Nat.mul_mod_left]; simp), Nat.mul_div_cancel _ (by omega), if_pos hg]

/-- **C60 (the original).** What the call does to the original object: the first column of every group of `n` is replaced by the value of the group, and that of the last, incomplete one by the sum of what it has. -/
theorem rebin_by_n_original {r : Nat} (n : Int) (average : Bool) (d : DynSpec r K) (hn : 2 ≤ n) (new old : DynSpec r K)
    (h : rebinByN n average d = .ok (new, old)) :
    old.time = d.time ∧ old.cols.length = d.cols.length ∧
    ∀ k < d.cols.length, old.cols.getD k 0 =
      if k % n.toNat ≠ 0 then d.cols.getD k 0
      else if k / n.toNat < d.cols.length / n.toNat then groupValue average d.cols n.toNat (k / n.toNat)
      else groupSum d.cols n.toNat (k / n.toNat) (d.cols.length % n.toNat) := by
  unfold rebinByN at h
  rw [if_neg (by omega), if_neg (by omega)] at h
  obtain ⟨h1, h2, h3, h4, -⟩ := rebin_loop n.toNat (by omega) average d.cols d.time d.cols.length (le_refl _)
  cases h
  refine ⟨rfl, h1, ?_⟩
  intro k hk
  dsimp only
  rw [h2 k]
  unfold overwritten
  rw [if_neg (by omega)]

/-- **C60 (negation).** So the original changes, and the same call made twice gives two different results. -/
theorem rebin_by_n_twice : ∃ (d new old new2 old2 : DynSpec 1 ℚ), rebinByN 2 true d = .ok (new, old) ∧
    rebinByN 2 true old = .ok (new2, old2) ∧ d.cols = [fun _ => 0, fun _ => 2] ∧ old.cols = [fun _ => 1, fun _ => 2] ∧ new.cols = [fun _ => 1] ∧
    new2.cols = [fun _ => 3/2] :=
  ⟨{ cols := [fun _ => 0, fun _ => 2], time := [0, 1], dt := 1, m := 1 }, _, _, _, _, rfl, rfl, rfl, by decide +kernel, by decide +kernel,
    by decide +kernel⟩

/-! ### Tracing the maximum -/

theorem maxOf_spec (l : List K) : (maxOf l = none ↔ l = []) ∧
    ∀ m, maxOf l = some m → m ∈ l ∧ ∀ x ∈ l, x ≤ m := by
  cases l with
  | nil => simp [maxOf]
  | cons a l =>
    refine ⟨by simp [maxOf], ?_⟩
    intro m hm
    simp only [maxOf, Option.some.injEq] at hm
    subst hm
    clear * -
    induction l generalizing a with
    | nil => simp
    | cons b l ih =>
      rw [List.foldl_cons]
      obtain ⟨h1, h2⟩ := ih (max a b)
      constructor
      · rcases List.mem_cons.1 h1 with h | h
        · rw [h]
          rcases max_choice a b with h' | h' <;> rw [h'] <;> simp
        · simp [h]
      · intro x hx
        have hmax := h2 (max a b) (by simp)
        rcases List.mem_cons.1 hx with h | h
        · rw [h]; exact (le_max_left a b).trans hmax
        · rcases List.mem_cons.1 h with h | h
          · rw [h]; exact (le_max_right a b).trans hmax
          · exact h2 x (by simp [h])

/-- **C61 (partial).** For every spectrum, the channel returned has the largest power among the frequencies in the range. If no frequency outside the range has exactly that power, the channel is in the range and it is the first such.
An empty range raises.
Missing: spectra where a channel out of the range has the same power as the maximum in the range (false, below). -/
theorem trace_maximum_partial (freq ps : List K) (lo hi : K) (hlen : freq.length = ps.length) :
    ((∀ f ∈ freq, ¬ (lo ≤ f ∧ f ≤ hi)) → traceOne freq lo hi ps = .error .valueError) ∧
    ∀ j, traceOne freq lo hi ps = .ok j → ∃ p, ps[j]? = some p ∧
      (∀ (k : Nat) f q, freq[k]? = some f → ps[k]? = some q → lo ≤ f → f ≤ hi → q ≤ p) ∧
      ((∀ (k : Nat) f, freq[k]? = some f → ps[k]? = some p → lo ≤ f ∧ f ≤ hi) →
        (∃ f, freq[j]? = some f ∧ lo ≤ f ∧ f ≤ hi) ∧ ∀ k < j, ps[k]? ≠ some p) := by
  unfold traceOne
  dsimp only
  set inside := (freq.zip ps).filter fun p => decide (p.1 ≤ hi) && decide (lo ≤ p.1) with hins
  obtain ⟨m1, m2⟩ := maxOf_spec (inside.map Prod.snd)
  have hmem : ∀ (k : Nat) (f q : K), freq[k]? = some f → ps[k]? = some q → lo ≤ f → f ≤ hi → q ∈ inside.map Prod.snd := by
    intro k f q hf hq h1 h2
    refine List.mem_map.2 ⟨(f, q), List.mem_filter.2 ⟨?_, by simp [h1, h2]⟩, rfl⟩
    rw [List.mem_iff_getElem?]
    exact ⟨k, List.getElem?_zip_eq_some.2 ⟨hf, hq⟩⟩
  constructor
  · intro h
    have : inside = [] := by
      rw [hins, List.filter_eq_nil_iff]
      intro p hp hc
      simp only [Bool.and_eq_true, decide_eq_true_eq] at hc
      exact h p.1 (List.of_mem_zip hp).1 ⟨hc.2, hc.1⟩
    rw [m1.2 (by rw [this]; rfl)]
  · intro j hj
    cases hm : maxOf (inside.map Prod.snd) with
    | none => rw [hm] at hj; simp at hj
    | some m =>
      rw [hm] at hj
      obtain ⟨hm1, hm2⟩ := m2 m hm
      rw [List.mem_map] at hm1
      obtain ⟨⟨f0, q0⟩, hp, rfl⟩ := hm1
      dsimp only at *
      rw [hins, List.mem_filter] at hp
      simp only [Bool.and_eq_true, decide_eq_true_eq] at hp
      have hin : q0 ∈ ps := (List.of_mem_zip hp.1).2
      simp only [Except.ok.injEq] at hj
      have hjl : j < ps.length := by
        rw [← hj]
        exact List.findIdx_lt_length_of_exists ⟨q0, hin, by simp⟩
      have hjv : ps[j]? = some q0 := by
        have hlt : ps.findIdx (fun x => decide (x = q0)) < ps.length := by rw [hj]; exact hjl
        have := List.findIdx_getElem (w := hlt)
        simp only [decide_eq_true_eq] at this
        subst hj
        rw [List.getElem?_eq_getElem hlt, this]
      refine ⟨q0, hjv, ?_, ?_⟩
      · intro k f q hf hq h1 h2
        exact hm2 q (hmem k f q hf hq h1 h2)
      · intro hout
        constructor
        · have hfl : j < freq.length := by omega
          exact ⟨freq[j], List.getElem?_eq_getElem hfl, hout j _ (List.getElem?_eq_getElem hfl) hjv⟩
        · intro k hk hc
          rw [← hj] at hk
          have := List.not_of_lt_findIdx hk
          have hkl : k < ps.length := by omega
          rw [List.getElem?_eq_getElem hkl] at hc
          simp only [Option.some.injEq] at hc
          simp [hc] at this

/-- **C61 (negation).** With the same power at a lower frequency outside the range, the channel returned is outside the range. -/
theorem trace_maximum_outside : traceMaximum [1, 2, 3, (4 : ℚ)] 3 4 [[5, 1, 2, 5], [1, 9, 3, 2]] = .ok [0, 2] := by decide +kernel

end Stingray.Spectrum

import Verif.Model.FillBti
import Verif.Lemmas.GtiSegments
import Verif.Props.GtiJoin
import Verif.Props.GtiBasic
import Mathlib.Algebra.Order.Ring.Rat
import Mathlib.Data.Rat.Floor
import Mathlib.Tactic.NormNum

/-!
# C139, C140: filling bad time intervals
-/

set_option linter.unusedSectionVars false

namespace Stingray.FillBti

open Stingray.Gti Stingray.Spec Stingray.UtilsMisc

variable {K : Type} [Field K] [LinearOrder K] [IsStrictOrderedRing K] [FloorRing K]

/-- What is known of the random generator: uniform numbers lie in their interval, choices are among the given values, and there are as many as requested. -/
structure GoodRng (rng : Rng K) : Prop where
  uniform_length : ∀ k a b n, (rng.uniform k a b n).length = n
  uniform_range : ∀ k a b n, a ≤ b → ∀ x ∈ rng.uniform k a b n, a ≤ x ∧ x ≤ b
  choice_length : ∀ k j src n, (rng.choice k j src n).length = n
  choice_mem : ∀ k j src n, src ≠ [] → ∀ x ∈ rng.choice k j src n, x ∈ src

/-- The samples kept: those that the mask calls good. -/
def goodRows (s : Series K) : List (Row K) := select s.mask s.rows

/-- A simulated sample of the interval `b`: its time is in the interval, every randomised attribute has a value that the attribute has somewhere, the others are NaN. -/
def Simulated (s : Series K) (b : K × K) (r : Row K) : Prop :=
  b.1 ≤ r.1 ∧ r.1 ≤ b.2 ∧ r.2.length = s.random.length ∧
  ∀ (j : Nat) (v : Option K), r.2[j]? = some v →
    (s.random[j]? = some true → ∃ q ∈ s.rows, v = q.2.getD j none) ∧ (s.random[j]? = some false → v = none)

theorem newTimes_spec (rng : Rng K) (hg : GoodRng rng) (even : Bool) (dt : K) (hdt : even = true → 0 < dt) (buffer : Nat) (good : List K) (k : Nat)
    (b : K × K) (hb : b.1 ≤ b.2) (idx : Nat × Nat) (r : Option (List K)) (h : newTimes rng even dt buffer good k b = .ok (idx, r)) :
    (even = true → r = some (arange (b.1 + dt / 2) b.2 dt)) ∧ ∀ ts, r = some ts → ∀ t ∈ ts, b.1 ≤ t ∧ t ≤ b.2 := by
  unfold newTimes at h
  cases hl : findNearest good b.1 .left with
  | error e => simp [hl, bind, Except.bind] at h
  | ok low =>
    cases hh : findNearest good b.2 .right with
    | error e => simp [hl, hh, bind, Except.bind] at h
    | ok high =>
      simp only [hl, hh, bind, Except.bind] at h
      by_cases he : even = true
      · rw [if_pos he] at h
        simp only [pure, Except.pure, Except.ok.injEq, Prod.mk.injEq] at h
        obtain ⟨_, rfl⟩ := h
        refine ⟨fun _ => rfl, ?_⟩
        rintro ts hts t ht
        rw [Option.some.injEq] at hts
        subst hts
        obtain ⟨n, rfl, h2⟩ := (mem_arange _ _ _ _ (hdt he)).1 ht
        have hd := hdt he
        have : (0 : K) ≤ (n : K) * dt := mul_nonneg (Nat.cast_nonneg n) hd.le
        refine ⟨by linarith, h2.le⟩
      · rw [if_neg he] at h
        refine ⟨fun h' => absurd h' he, ?_⟩
        simp only [pure, Except.pure] at h
        split at h
        · simp only [Except.ok.injEq, Prod.mk.injEq] at h
          rintro ts hts
          rw [← h.2] at hts
          cases hts
        · simp only [Except.ok.injEq, Prod.mk.injEq] at h
          rintro ts hts t ht
          rw [← h.2, Option.some.injEq] at hts
          subst hts
          exact hg.uniform_range _ _ _ _ hb t ht

theorem fillOne_spec (rng : Rng K) (hg : GoodRng rng) (even : Bool) (buffer : Nat) (s : Series K) (hdt : even = true → 0 < s.dt) (k : Nat)
    (b : K × K) (hb : b.1 ≤ b.2) (r : Option (List (Row K))) (h : fillOne rng even buffer s k b = .ok r) :
    (even = true → ∃ rs, r = some rs ∧ rs.map Prod.fst = arange (b.1 + s.dt / 2) b.2 s.dt) ∧
    ∀ rs, r = some rs → ∀ q ∈ rs, Simulated s b q := by
  unfold fillOne at h
  cases hn : newTimes rng even s.dt buffer ((select s.mask s.rows).map Prod.fst) k b with
  | error e => simp [hn, bind, Except.bind] at h
  | ok t =>
    obtain ⟨idx, o⟩ := t
    obtain ⟨h1, h2⟩ := newTimes_spec rng hg even s.dt hdt buffer _ k b hb idx o hn
    simp only [hn, bind, Except.bind] at h
    cases o with
    | none =>
      simp only [pure, Except.pure, Except.ok.injEq] at h
      refine ⟨fun he => by simpa using h1 he, ?_⟩
      intro rs hrs
      rw [← h] at hrs
      cases hrs
    | some times =>
      simp only at h
      cases hm : (s.random.zipIdx.mapM fun p => newColumn rng buffer s.rows k idx times.length p.2 p.1) with
      | error e => simp [hm] at h
      | ok cols =>
        simp only [hm, pure, Except.pure, Except.ok.injEq] at h
        have hf2 := mapM_ok_forall2 _ _ _ hm
        refine ⟨?_, ?_⟩
        · intro he
          have := h1 he
          rw [Option.some.injEq] at this
          refine ⟨_, h.symm, ?_⟩
          rw [← this]
          apply List.ext_getElem?
          intro i
          simp only [List.getElem?_map, List.getElem?_mapIdx]
          cases times[i]? <;> rfl
        · intro rs hrs q hq
          rw [← h, Option.some.injEq] at hrs
          subst hrs
          rw [List.mem_mapIdx] at hq
          obtain ⟨i, hi, rfl⟩ := hq
          have ht := h2 times rfl times[i] (List.getElem_mem hi)
          have hlen : cols.length = s.random.length := by
            rw [← hf2.length_eq, List.length_zipIdx]
          refine ⟨ht.1, ht.2, by simp [hlen], ?_⟩
          intro j v hv
          simp only [List.getElem?_map, Option.map_eq_some_iff] at hv
          obtain ⟨c, hc, rfl⟩ := hv
          have hj : j < s.random.length := by rw [← hlen]; exact (List.getElem?_eq_some_iff.1 hc).1
          have hcol : newColumn rng buffer s.rows k idx times.length j s.random[j] = .ok c := by
            have hp : s.random.zipIdx[j]? = some (s.random[j], j) := by simp [List.getElem?_zipIdx, hj]
            obtain ⟨hj1, e1⟩ := List.getElem?_eq_some_iff.1 hp
            obtain ⟨hj2, e2⟩ := List.getElem?_eq_some_iff.1 hc
            have := hf2.get hj1 hj2
            simp only [List.get_eq_getElem, e1, e2] at this
            exact this
          rw [List.getElem?_eq_getElem hj]
          unfold newColumn at hcol
          cases hr : s.random[j] with
          | false =>
            rw [hr] at hcol
            simp only [Bool.false_eq_true, if_false, Except.ok.injEq] at hcol
            refine ⟨by simp, fun _ => ?_⟩
            rw [← hcol, List.getD_eq_getElem?_getD, List.getElem?_replicate]
            split_ifs <;> rfl
          | true =>
            rw [hr] at hcol
            simp only [if_true] at hcol
            split_ifs at hcol with hsrc
            rw [Except.ok.injEq] at hcol
            refine ⟨fun _ => ?_, by simp⟩
            have hsrc' : ((column s.rows j).take idx.1).drop (buffer - idx.1) ++ ((column s.rows j).take (buffer + idx.2)).drop idx.2 ≠ [] := by
              intro e
              exact hsrc ⟨e, by omega⟩
            have hci : i < c.length := by rw [← hcol, hg.choice_length]; exact hi
            have hmem : c.getD i none ∈ c := by
              rw [List.getD_eq_getElem?_getD, List.getElem?_eq_getElem hci]
              exact List.getElem_mem hci
            have h3 : c.getD i none ∈ column s.rows j := by
              have h4 : c.getD i none ∈ rng.choice k j (((column s.rows j).take idx.1).drop (buffer - idx.1) ++ ((column s.rows j).take (buffer + idx.2)).drop idx.2) times.length := by
                rw [hcol]; exact hmem
              have h5 := hg.choice_mem _ _ _ _ hsrc' _ h4
              rcases List.mem_append.1 h5 with h6 | h6
              · exact List.mem_of_mem_take (List.mem_of_mem_drop h6)
              · exact List.mem_of_mem_take (List.mem_of_mem_drop h6)
            unfold column at h3
            rw [List.mem_map] at h3
            obtain ⟨q, hq, e⟩ := h3
            exact ⟨q, hq, e.symm⟩

theorem fill_cases (order : KeySort (fun (r : Row K) => r.1)) (orderJ : KeySort (fun (b : K × Int) => b.1)) (orderA : KeySort (fun (g : K × K) => g.1))
    (rng : Rng K) (maxLength : K) (buffer : Nat) (even : Bool) (s : Series K) (out : Filled K)
    (h : fill order orderJ orderA rng maxLength buffer even s = .ok out) :
    ∃ btis, getBtis s.gti (s.rows.head?.map Prod.fst) (s.rows.getLast?.map Prod.fst) = .ok btis ∧
      ((btis = [] ∧ out = ⟨s.rows, s.gti⟩) ∨
       (btis ≠ [] ∧ ∃ parts gti,
          (btis.filter fun b => decide (b.2 - b.1 ≤ maxLength)).zipIdx.mapM (fun p => fillOne rng even buffer s p.2 p.1) = .ok parts ∧
          joinGtis orderJ orderA s.gti ((btis.filter fun b => decide (b.2 - b.1 ≤ maxLength)).map widened) = .ok gti ∧
          out = ⟨order.sort ((if parts.filterMap id = [] then (goodRows s).map fun r => (r.1, []) else goodRows s) ++ (parts.filterMap id).flatten), gti⟩)) := by
  unfold fill at h
  cases hb : getBtis s.gti (s.rows.head?.map Prod.fst) (s.rows.getLast?.map Prod.fst) with
  | error e => simp [hb, bind, Except.bind] at h
  | ok btis =>
    refine ⟨btis, rfl, ?_⟩
    simp only [hb, bind, Except.bind] at h
    by_cases h0 : btis = []
    · rw [if_pos h0] at h
      simp only [pure, Except.pure, Except.ok.injEq] at h
      exact Or.inl ⟨h0, h.symm⟩
    · rw [if_neg h0] at h
      right
      refine ⟨h0, ?_⟩
      cases hp : ((btis.filter fun b => decide (b.2 - b.1 ≤ maxLength)).zipIdx.mapM fun p => fillOne rng even buffer s p.2 p.1) with
      | error e => simp only [hp] at h; cases h
      | ok parts =>
        simp only [hp] at h
        cases hj : joinGtis orderJ orderA s.gti ((btis.filter fun b => decide (b.2 - b.1 ≤ maxLength)).map widened) with
        | error e => simp only [hj] at h; cases h
        | ok gti =>
          simp only [hj, pure, Except.pure, Except.ok.injEq] at h
          exact ⟨parts, gti, rfl, rfl, h.symm⟩

theorem getBtis_forward (gtis : List (K × K)) (a b : Option K) (btis : List (K × K)) (h : getBtis gtis a b = .ok btis) (hne : gtis ≠ []) :
    ∀ p ∈ btis, p.1 ≤ p.2 := by
  obtain ⟨g, gs, rfl⟩ := List.exists_cons_of_ne_nil hne
  have hl : (g :: gs).getLast? = some ((g :: gs).getLast (by simp)) := List.getLast?_eq_getLast_of_ne_nil _
  unfold getBtis at h
  rw [List.head?_cons, hl] at h
  simp only at h
  cases hc : checkGtis (g :: gs) with
  | error e => simp [hc, bind, Except.bind] at h
  | ok u =>
    have hw := ((checkGtis_ok_iff _).1 hc).2
    simp only [hc, bind, Except.bind, pure, Except.pure, Except.ok.injEq] at h
    intro p hp
    rw [← h, List.mem_append, List.mem_append] at hp
    rcases hp with (hp | hp) | hp
    · split_ifs at hp with h1
      · simp at hp
      · rw [List.mem_singleton] at hp
        subst hp
        exact (not_le.1 h1).le
    · obtain ⟨i, hi⟩ := List.getElem?_of_mem hp
      rw [List.getElem?_zipWith] at hi
      rw [List.getElem?_map, List.getElem?_map, List.getElem?_tail, List.getElem?_dropLast] at hi
      split_ifs at hi with hlt
      · cases h1 : (g :: gs)[i]? with
        | none => simp [h1] at hi
        | some x =>
          cases h2 : (g :: gs)[i + 1]? with
          | none => simp [h1, h2] at hi
          | some y =>
            simp only [h1, h2, Option.map_some, Option.some.injEq] at hi
            obtain ⟨a1, rfl⟩ := List.getElem?_eq_some_iff.1 h1
            obtain ⟨a2, rfl⟩ := List.getElem?_eq_some_iff.1 h2
            rw [← hi]
            exact List.pairwise_iff_getElem.1 hw.2 i (i + 1) a1 a2 (by omega)
      · simp at hi
    · split_ifs at hp with h1
      · rw [List.mem_singleton] at hp
        subst hp
        exact h1.le
      · simp at hp

theorem joinGtis_nil (orderJ : KeySort (fun (b : K × Int) => b.1)) (orderA : KeySort (fun (g : K × K) => g.1)) (g : List (K × K)) :
    joinGtis orderJ orderA g [] = .error .valueError := by
  have e0 : checkGtis ([] : List (K × K)) = .error .valueError := by simp [checkGtis]
  unfold joinGtis
  cases hc : checkGtis g with
  | error e =>
    have : e = .valueError := by
      unfold checkGtis at hc
      simp only at hc
      split_ifs at hc <;> cases hc <;> rfl
    subst this
    rfl
  | ok u => simp only [e0, bind, Except.bind]

/-- The short bad time intervals of an object: those that `get_btis` finds between the first and the last time and that are not longer than the limit. -/
def ShortBti (s : Series K) (maxLength : K) (b : K × K) : Prop :=
  ∃ btis, getBtis s.gti (s.rows.head?.map Prod.fst) (s.rows.getLast?.map Prod.fst) = .ok btis ∧ b ∈ btis ∧ b.2 - b.1 ≤ maxLength

/-- **C139 (partial).** Filling an object that has bad time intervals: the result is in time order, and consists of the good samples, each once and with the attributes it had, and of simulated samples inside the short bad time intervals, whose randomised attributes have values found in the data and whose other attributes are NaN; the samples in the other bad times are dropped. Missing: when every short interval is skipped for lack of data nothing is simulated, but the good samples may lose their attributes (`fill_loses_attributes`). -/
theorem fill_rows_partial (order : KeySort (fun (r : Row K) => r.1)) (orderJ : KeySort (fun (b : K × Int) => b.1)) (orderA : KeySort (fun (g : K × K) => g.1))
    (rng : Rng K) (hg : GoodRng rng) (maxLength : K) (buffer : Nat) (even : Bool) (s : Series K) (hgti : s.gti ≠ []) (hdt : even = true → 0 < s.dt)
    (out : Filled K) (h : fill order orderJ orderA rng maxLength buffer even s = .ok out)
    (hbti : ∀ btis, getBtis s.gti (s.rows.head?.map Prod.fst) (s.rows.getLast?.map Prod.fst) = .ok btis → btis ≠ []) :
    out.rows.Pairwise (fun p q => p.1 ≤ q.1) ∧
    ∃ kept new, out.rows.Perm (kept ++ new) ∧
      (∀ r ∈ new, ∃ b, ShortBti s maxLength b ∧ Simulated s b r) ∧
      (kept = goodRows s ∨ (new = [] ∧ even = false ∧ kept = (goodRows s).map fun r => (r.1, []))) ∧
      kept.map Prod.fst = (goodRows s).map Prod.fst := by
  obtain ⟨btis, hb, hcase⟩ := fill_cases order orderJ orderA rng maxLength buffer even s out h
  rcases hcase with ⟨h0, _⟩ | ⟨h0, parts, gti, hp, hj, rfl⟩
  · exact absurd h0 (hbti btis hb)
  · refine ⟨order.sorted _, _, _, order.perm _, ?_, ?_, ?_⟩
    · intro r hr
      rw [List.mem_flatten] at hr
      obtain ⟨rs, hrs, hrr⟩ := hr
      rw [List.mem_filterMap] at hrs
      obtain ⟨o, ho, rfl⟩ := hrs
      obtain ⟨p, hpm, hpo⟩ := forall2_mem_right (mapM_ok_forall2 _ _ _ hp) ho
      have hpb : p.1 ∈ btis.filter fun b => decide (b.2 - b.1 ≤ maxLength) := by
        obtain ⟨b, i⟩ := p
        exact (List.mem_zipIdx' hpm).2 ▸ List.getElem_mem _
      rw [List.mem_filter, decide_eq_true_eq] at hpb
      refine ⟨p.1, ⟨btis, hb, hpb.1, hpb.2⟩, ?_⟩
      exact (fillOne_spec rng hg even buffer s hdt p.2 p.1 (getBtis_forward _ _ _ _ hb hgti _ hpb.1) _ hpo).2 rs rfl r hrr
    · by_cases hf : parts.filterMap id = []
      · rw [if_pos hf]
        by_cases he : even = true
        · left
          -- an evenly sampled interval is never skipped: so nothing was short
          exfalso
          have hpe : parts = [] := by
            cases parts with
            | nil => rfl
            | cons o os =>
              exfalso
              obtain ⟨p, hpm, hpo⟩ := forall2_mem_right (mapM_ok_forall2 _ _ _ hp) (show o ∈ o :: os by simp)
              have hpb : p.1 ∈ btis.filter fun b => decide (b.2 - b.1 ≤ maxLength) := by
                obtain ⟨b, i⟩ := p
                exact (List.mem_zipIdx' hpm).2 ▸ List.getElem_mem _
              rw [List.mem_filter, decide_eq_true_eq] at hpb
              obtain ⟨rs, rfl, _⟩ := (fillOne_spec rng hg even buffer s hdt p.2 p.1 (getBtis_forward _ _ _ _ hb hgti _ hpb.1) _ hpo).1 he
              simp at hf
          subst hpe
          have hlen := (mapM_ok_forall2 _ _ _ hp).length_eq
          rw [List.length_zipIdx, List.length_nil, List.length_eq_zero_iff] at hlen
          rw [hlen] at hj
          rw [List.map_nil, joinGtis_nil] at hj
          cases hj
        · exact Or.inr ⟨by rw [hf]; rfl, by simpa using he, rfl⟩
      · rw [if_neg hf]; exact Or.inl rfl
    · split_ifs
      · rw [List.map_map]; rfl
      · rfl

/-- **C139 (even sampling).** For an evenly sampled object with at least one short bad time interval the good samples keep their attributes, and the new times are the centres of the bins of width `dt` that start in each short interval. -/
theorem fill_even (order : KeySort (fun (r : Row K) => r.1)) (orderJ : KeySort (fun (b : K × Int) => b.1)) (orderA : KeySort (fun (g : K × K) => g.1))
    (rng : Rng K) (hg : GoodRng rng) (maxLength : K) (buffer : Nat) (s : Series K) (hgti : s.gti ≠ []) (hdt : 0 < s.dt)
    (out : Filled K) (h : fill order orderJ orderA rng maxLength buffer true s = .ok out)
    (btis : List (K × K)) (hb : getBtis s.gti (s.rows.head?.map Prod.fst) (s.rows.getLast?.map Prod.fst) = .ok btis) (hne : btis ≠ []) :
    ∃ new, out.rows.Perm (goodRows s ++ new) ∧
      new.map Prod.fst = (btis.filter fun b => decide (b.2 - b.1 ≤ maxLength)).flatMap fun b => arange (b.1 + s.dt / 2) b.2 s.dt := by
  obtain ⟨btis', hb', hcase⟩ := fill_cases order orderJ orderA rng maxLength buffer true s out h
  rw [hb, Except.ok.injEq] at hb'
  subst hb'
  rcases hcase with ⟨h0, _⟩ | ⟨h0, parts, gti, hp, hj, rfl⟩
  · exact absurd h0 hne
  · have key : ∀ (l : List ((K × K) × Nat)) (ps : List (Option (List (Row K)))),
        List.Forall₂ (fun p o => fillOne rng true buffer s p.2 p.1 = .ok o) l ps → (∀ p ∈ l, p.1.1 ≤ p.1.2) →
        ((ps.filterMap id).flatten).map Prod.fst = l.flatMap (fun p => arange (p.1.1 + s.dt / 2) p.1.2 s.dt) ∧
        (ps.filterMap id = [] → l = []) := by
      intro l ps hf
      induction hf with
      | nil => intro _; exact ⟨rfl, fun _ => rfl⟩
      | @cons p o l ps hpo _ ih =>
        intro hl
        obtain ⟨rs, rfl, hrs⟩ := (fillOne_spec rng hg true buffer s (fun _ => hdt) p.2 p.1 (hl p (by simp)) _ hpo).1 rfl
        obtain ⟨i1, _⟩ := ih fun q hq => hl q (List.mem_cons_of_mem _ hq)
        rw [List.filterMap_cons_some (b := rs) (by rfl)]
        refine ⟨?_, fun e => by simp at e⟩
        rw [List.flatten_cons, List.map_append, hrs, i1, List.flatMap_cons]
    have hfw : ∀ p ∈ (btis.filter fun b => decide (b.2 - b.1 ≤ maxLength)).zipIdx, p.1.1 ≤ p.1.2 := by
      intro p hpm
      have hpb : p.1 ∈ btis.filter fun b => decide (b.2 - b.1 ≤ maxLength) := by
        obtain ⟨b, i⟩ := p
        exact (List.mem_zipIdx' hpm).2 ▸ List.getElem_mem _
      rw [List.mem_filter] at hpb
      exact getBtis_forward _ _ _ _ hb hgti _ hpb.1
    obtain ⟨k1, k2⟩ := key _ _ (mapM_ok_forall2 _ _ _ hp) hfw
    have hfne : ¬ parts.filterMap id = [] := by
      intro e
      have := congrArg List.length (k2 e)
      rw [List.length_zipIdx, List.length_nil, List.length_eq_zero_iff] at this
      rw [this] at hj
      rw [List.map_nil, joinGtis_nil] at hj
      cases hj
    refine ⟨(parts.filterMap id).flatten, ?_, ?_⟩
    · rw [if_neg hfne]
      exact order.perm _
    · rw [k1]
      have e : (btis.filter fun b => decide (b.2 - b.1 ≤ maxLength)) =
          (btis.filter fun b => decide (b.2 - b.1 ≤ maxLength)).zipIdx.map Prod.fst := by simp
      conv_rhs => rw [e, List.flatMap_map]

/-- **C139 (nothing bad).** Without bad time intervals between the first and the last time, the object comes back as it was. -/
theorem fill_nothing (order : KeySort (fun (r : Row K) => r.1)) (orderJ : KeySort (fun (b : K × Int) => b.1)) (orderA : KeySort (fun (g : K × K) => g.1))
    (rng : Rng K) (maxLength : K) (buffer : Nat) (even : Bool) (s : Series K)
    (hb : getBtis s.gti (s.rows.head?.map Prod.fst) (s.rows.getLast?.map Prod.fst) = .ok []) :
    fill order orderJ orderA rng maxLength buffer even s = .ok ⟨s.rows, s.gti⟩ := by
  simp [fill, hb, bind, Except.bind, pure, Except.pure]

/-- **C140 (partial).** After filling, the good times are those of before and the short bad time intervals widened by a hundred-thousandth of their length on either side; nothing else. Missing: intervals skipped for lack of data are also called good (`fill_skipped_is_good`). -/
theorem fill_gti_partial (order : KeySort (fun (r : Row K) => r.1)) (orderJ : KeySort (fun (b : K × Int) => b.1)) (orderA : KeySort (fun (g : K × K) => g.1))
    (rng : Rng K) (maxLength : K) (buffer : Nat) (even : Bool) (s : Series K)
    (out : Filled K) (h : fill order orderJ orderA rng maxLength buffer even s = .ok out) (x : K) :
    Covers out.gti x ↔ (Covers s.gti x ∨ ∃ b, ShortBti s maxLength b ∧ b.1 - (b.2 - b.1) / 100000 ≤ x ∧ x ≤ b.2 + (b.2 - b.1) / 100000) := by
  obtain ⟨btis, hb, hcase⟩ := fill_cases order orderJ orderA rng maxLength buffer even s out h
  rcases hcase with ⟨rfl, rfl⟩ | ⟨h0, parts, gti, hp, hj, rfl⟩
  · constructor
    · exact Or.inl
    · rintro (hx | ⟨b, ⟨btis, hb', hm, _⟩, _⟩)
      · exact hx
      · rw [hb, Except.ok.injEq] at hb'
        subst hb'
        simp at hm
  · have hck : checkGtis s.gti = .ok () ∧ checkGtis ((btis.filter fun b => decide (b.2 - b.1 ≤ maxLength)).map widened) = .ok () := by
      unfold joinGtis at hj
      cases hc : checkGtis s.gti with
      | error e => simp [hc, bind, Except.bind] at hj
      | ok u =>
        cases hc2 : checkGtis ((btis.filter fun b => decide (b.2 - b.1 ≤ maxLength)).map widened) with
        | error e => simp only [hc, hc2, bind, Except.bind] at hj; cases hj
        | ok v => exact ⟨rfl, rfl⟩
    obtain ⟨o, ho, hcov, _⟩ := join_gtis_union orderJ orderA _ _ hck.1 hck.2
    rw [hj, Except.ok.injEq] at ho
    subst ho
    show Covers gti x ↔ _
    rw [hcov x]
    refine or_congr_right ?_
    constructor
    · rintro ⟨g, hgm, h1, h2⟩
      rw [List.mem_map] at hgm
      obtain ⟨b, hbm, rfl⟩ := hgm
      rw [List.mem_filter, decide_eq_true_eq] at hbm
      unfold widened at h1 h2
      refine ⟨b, ⟨btis, hb, hbm.1, hbm.2⟩, ?_, ?_⟩
      · refine le_trans (le_of_eq ?_) h1
        simp only; ring
      · refine le_trans h2 (le_of_eq ?_)
        simp only; ring
    · rintro ⟨b, ⟨btis', hb', hm, hlen⟩, h1, h2⟩
      rw [hb, Except.ok.injEq] at hb'
      subst hb'
      refine ⟨widened b, List.mem_map_of_mem (by simp only [List.mem_filter, hm, hlen, decide_true, and_self]), ?_, ?_⟩
      · refine le_trans (le_of_eq ?_) h1
        unfold widened; simp only; ring
      · refine le_trans h2 (le_of_eq ?_)
        unfold widened; simp only; ring

/-- **C140 (negation).** If there are bad time intervals but all are longer than the limit, the method raises `ValueError` instead of returning the good data. -/
theorem fill_no_short_raises (order : KeySort (fun (r : Row K) => r.1)) (orderJ : KeySort (fun (b : K × Int) => b.1)) (orderA : KeySort (fun (g : K × K) => g.1))
    (rng : Rng K) (maxLength : K) (buffer : Nat) (even : Bool) (s : Series K) (btis : List (K × K))
    (hb : getBtis s.gti (s.rows.head?.map Prod.fst) (s.rows.getLast?.map Prod.fst) = .ok btis) (hne : btis ≠ [])
    (hlong : ∀ b ∈ btis, maxLength < b.2 - b.1) :
    fill order orderJ orderA rng maxLength buffer even s = .error .valueError := by
  have hf : (btis.filter fun b => decide (b.2 - b.1 ≤ maxLength)) = [] := by
    rw [List.filter_eq_nil_iff]
    intro b hbm
    simp only [decide_eq_true_eq, not_le]
    exact hlong b hbm
  unfold fill
  simp only [hb, bind, Except.bind, if_neg hne, hf]
  simp only [List.zipIdx_nil, List.mapM_nil, pure, Except.pure, List.map_nil]
  rw [joinGtis_nil]

/-- A generator for the examples: three times in the middle of the interval, first of the values. -/
def exampleRng : Rng ℚ where
  poisson _ _ := 2
  uniform _ a b n := List.replicate n ((a + b) / 2)
  choice _ _ src n := List.replicate n (src.headD none)

/-- Twelve samples, of which the one at 5 is in a bad time interval. -/
def exampleSeries : Series ℚ where
  rows := [(0, [some 1]), (1, [some 1]), (2, [some 1]), (3, [some 1]), (5, [some 99]), (7, [some 2]), (8, [some 2]), (9, [some 2]), (10, [some 2])]
  random := [true]
  gti := [(0, 4), (6, 11)]
  dt := 1
  mask := [true, true, true, true, false, true, true, true, true]

theorem exampleRng_good : GoodRng exampleRng where
  uniform_length k a b n := by simp [exampleRng]
  uniform_range k a b n hab x hx := by
    simp only [exampleRng, List.mem_replicate] at hx
    rw [hx.2]
    constructor <;> linarith
  choice_length k j src n := by simp [exampleRng]
  choice_mem k j src n hne x hx := by
    simp only [exampleRng, List.mem_replicate] at hx
    obtain ⟨y, l, rfl⟩ := List.exists_cons_of_ne_nil hne
    rw [hx.2]; simp

example : fill (stableSort _) (stableSort _) (stableSort _) exampleRng 3 2 true exampleSeries =
    .ok ⟨[(0, [some 1]), (1, [some 1]), (2, [some 1]), (3, [some 1]), (9 / 2, [some 1]), (11 / 2, [some 1]), (7, [some 2]), (8, [some 2]), (9, [some 2]), (10, [some 2])],
      [(0, 11)]⟩ := by decide +kernel

/-- **C139 (negation).** The randomised attributes of the simulated samples need not come from good data: here every simulated sample has the value of the sample in the bad time interval, which was dropped. (The positions in the good samples are used as positions in the whole attribute; and with a buffer of at least twice the position of the interval no value before it is used.) -/
theorem fill_from_bad_data :
    fill (stableSort _) (stableSort _) (stableSort _) exampleRng 3 100 false exampleSeries =
      .ok ⟨[(0, [some 1]), (1, [some 1]), (2, [some 1]), (3, [some 1]), (5, [some 99]), (5, [some 99]), (7, [some 2]), (8, [some 2]), (9, [some 2]), (10, [some 2])],
        [(0, 11)]⟩ ∧
    ∀ r ∈ goodRows exampleSeries, r.2 ≠ [some 99] := by decide +kernel

/-- **C139 (negation, attributes).** When every short interval is skipped for lack of data, the result has lost the attributes of all samples. -/
theorem fill_loses_attributes :
    (fill (stableSort _) (stableSort _) (stableSort _) exampleRng 3 2 false exampleSeries).map (fun o => o.rows) =
      .ok [(0, []), (1, []), (2, []), (3, []), (7, []), (8, []), (9, []), (10, [])] := by decide +kernel

/-- **C140 (negation, skipped intervals).** An interval that is skipped, and so gets no samples, is nevertheless called good. -/
theorem fill_skipped_is_good :
    (fill (stableSort _) (stableSort _) (stableSort _) exampleRng 3 2 false exampleSeries).map (fun o => (o.gti, o.rows.filter fun r => decide (4 ≤ r.1 ∧ r.1 ≤ 6))) =
      .ok ([(0, 11)], []) ∧
    exampleSeries.gti = [(0, 4), (6, 11)] := by decide +kernel

end Stingray.FillBti

import Verif.Model.Join
import Verif.Props.TimeSeries
import Verif.Lemmas.GtiSegments
import Mathlib.Data.List.Dedup

/-!
# Property C117: joining time series
-/

set_option linter.unusedSectionVars false

namespace Stingray.Join

open Stingray.Spec Stingray.Gti Stingray.TimeSeries

variable {K V : Type} [Field K] [LinearOrder K] [IsStrictOrderedRing K] [DecidableEq V]

/-! ### Specification -/

/-- the column of an attribute: NaN (`none`) in an object that has not got it -/
def column (a : String) (o : TS K (Option V)) : List (Option V) :=
  match o.attrs.lookup a with
  | some v => v
  | none => List.replicate o.time.length none

/-- the flags of the samples: unknown (`none`) in an object whose mask has not been computed -/
def maskColumn (o : TS K (Option V)) : List (Option Bool) :=
  match o.mask with
  | some m => m.map some
  | none => List.replicate o.time.length none

/-- an operand expressed in the reference of the first series -/
def converted (isclose : K → K → Bool) (self o : TS K (Option V)) : TS K (Option V) :=
  if isclose self.mjdref o.mjdref then o else changeMjdref o self.mjdref

theorem dropEmpty_id (l : List (TS K (Option V))) (h : ∀ o ∈ l, o.time ≠ []) : ∀ fuel i, dropEmpty fuel i l = l := by
  intro fuel
  induction fuel with
  | zero => intro i; rfl
  | succ fuel ih =>
    intro i
    unfold dropEmpty
    cases hi : l[i]? with
    | none => rfl
    | some o =>
      dsimp only
      rw [if_neg (h o (List.mem_of_getElem? hi)), ih]

theorem mapM_eq {α β : Type} (f : α → Except PyErr β) (g : α → β) (l : List α) (h : ∀ a ∈ l, f a = .ok (g a)) :
    l.mapM f = .ok (l.map g) := by
  induction l with
  | nil => rfl
  | cons a l ih =>
    rw [List.mapM_cons, h a (by simp), ih (fun b hb => h b (by simp [hb]))]
    rfl

theorem attrOf_column (a : String) (o : TS K (Option V)) (h : o.time ≠ []) : attrOf a o = .ok (column a o) := by
  unfold attrOf column
  cases o.attrs.lookup a with
  | some v => rfl
  | none =>
    dsimp only
    rw [if_neg h, List.map_const']

theorem column_length (a : String) (o : TS K (Option V)) (h : Aligned o) : (column a o).length = o.time.length := by
  unfold column
  cases hl : o.attrs.lookup a with
  | none => simp
  | some v =>
    have : (a, v) ∈ o.attrs := by
      revert hl
      induction o.attrs with
      | nil => simp [List.lookup]
      | cons p l ih =>
        intro hl
        obtain ⟨b, w⟩ := p
        rw [List.lookup_cons] at hl
        by_cases hb : a = b
        · subst hb
          simp at hl
          subst hl
          simp
        · rw [beq_false_of_ne hb] at hl
          exact List.mem_cons_of_mem _ (ih hl)
    exact h.1 _ this

theorem flatten_length {α β : Type} (l : List β) (f : β → List α) (n : β → Nat) (h : ∀ b ∈ l, (f b).length = n b) :
    (l.map f).flatten.length = (l.map n).sum := by
  induction l with
  | nil => rfl
  | cons b l ih =>
    rw [List.map_cons, List.flatten_cons, List.length_append, h b (by simp), ih (fun c hc => h c (by simp [hc]))]
    simp

/-- **C117.** Joining a series with others, none of them empty: the samples of all of them, expressed in the reference of the first, appear once each, in the order of their times, and one permutation is used for the times and every attribute. The attributes
are those found in some of the series, with NaN for the samples of a series without it. The GTIs are those of the given strategy (C116), and there are none if no series had any or the strategy is "none". With equal time resolutions the resolution is kept,
otherwise it becomes an array with the resolution of each sample. The flags of the samples go with them if any series has computed them. -/
theorem join_spec_partial (isclose : K → K → Bool) (orderC : KeySort (fun (x : (K × K) × Bool) => x.1.2)) (orderJ : KeySort (fun (b : K × Int) => b.1))
    (orderA : KeySort (fun (g : K × K) => g.1)) (argsort : KeySort (fun (x : K × Nat) => x.1))
    (self : TS K (Option V)) (others : List (TS K (Option V))) (strategy : MergeStrategy) (hne : others ≠ [])
    (hself : self.time ≠ []) (hoth : ∀ o ∈ others, o.time ≠ []) (hal : ∀ o ∈ self :: others, Aligned o)
    (g : Option (List (K × K)))
    (hg : (if (∀ o ∈ self :: others, o.gti = none) ∨ strategy = .none then .ok none
      else mergeGtis orderC orderJ orderA ((self :: others.map (converted isclose self)).map fun o => (gtiGet o).1) strategy) = .ok g) :
    ∃ r, join isclose orderC orderJ orderA argsort self others strategy = .ok (r, others.map (converted isclose self)) ∧
      r.gti = g ∧ r.mjdref = self.mjdref ∧
      ∃ idx : List Nat, idx.Perm (List.range ((self :: others).map fun o => o.time.length).sum) ∧
        Rows idx (self.time ++ (others.map fun o => (converted isclose self o).time).flatten) r.time ∧
        r.time.Pairwise (· ≤ ·) ∧
        (∀ a, (∃ v, (a, v) ∈ r.attrs) ↔ ∃ o ∈ self :: others, a ∈ o.attrs.map Prod.fst) ∧
        (∀ a v, (a, v) ∈ r.attrs → Rows idx ((self :: others).map (column a)).flatten v) ∧
        ((∀ o ∈ others, o.dt = self.dt) → r.dt = .scalar self.dt) ∧
        ((∃ o ∈ others, o.dt ≠ self.dt) → ∃ d, r.dt = .array d ∧
          Rows idx ((self :: others).map fun o => List.replicate o.time.length o.dt).flatten d) ∧
        ((∀ o ∈ self :: others, o.mask = none) → r.mask = none) ∧
        ((∃ o ∈ self :: others, o.mask ≠ none) → ∃ m, r.mask = some m ∧ Rows idx ((self :: others).map maskColumn).flatten m) := by
  have hconv : ∀ o : TS K (Option V), (converted isclose self o).attrs = o.attrs ∧ (converted isclose self o).mask = o.mask ∧
      (converted isclose self o).dt = o.dt ∧ (converted isclose self o).time.length = o.time.length ∧
      ((converted isclose self o).gti = none ↔ o.gti = none) := by
    intro o
    unfold converted
    split_ifs
    · exact ⟨rfl, rfl, rfl, rfl, Iff.rfl⟩
    · exact ⟨rfl, rfl, rfl, by simp [changeMjdref, shift], by simp [changeMjdref, shift]⟩
  have hcne : ∀ o : TS K (Option V), o.time ≠ [] → (converted isclose self o).time ≠ [] := by
    intro o ho hc
    apply ho
    rw [← List.length_eq_zero_iff] at hc ⊢
    rw [← (hconv o).2.2.2.1]; exact hc
  have hcol : ∀ a (o : TS K (Option V)), column a (converted isclose self o) = column a o := by
    intro a o
    unfold column
    rw [(hconv o).1, (hconv o).2.2.2.1]
  set all := self :: others.map (converted isclose self) with hall
  have hallne : ∀ o ∈ all, o.time ≠ [] := by
    intro o ho
    rw [hall, List.mem_cons, List.mem_map] at ho
    rcases ho with rfl | ⟨p, hp, rfl⟩
    · exact hself
    · exact hcne p (hoth p hp)
  have hallal : ∀ o ∈ all, Aligned o := by
    intro o ho
    rw [hall, List.mem_cons, List.mem_map] at ho
    rcases ho with rfl | ⟨p, hp, rfl⟩
    · exact hal _ (by simp)
    · have := hal p (by simp [hp])
      unfold Aligned at this ⊢
      rw [(hconv p).1, (hconv p).2.1, (hconv p).2.2.2.1]
      exact this
  have hN : ((self :: others).map fun o => o.time.length).sum = (all.map TS.time).flatten.length := by
    rw [flatten_length all TS.time (fun o => o.time.length) (fun _ _ => rfl), hall]
    simp only [List.map_cons, List.map_map, List.sum_cons]
    congr 2
    apply List.map_congr_left
    intro o _
    exact (hconv o).2.2.2.1.symm
  set T := (all.map TS.time).flatten with hT
  set idx := (argsort.sort T.zipIdx).map Prod.snd with hidx
  have hperm : idx.Perm (List.range T.length) := by
    have := (argsort.perm T.zipIdx).map Prod.snd
    rwa [zipIdx_snd] at this
  have hlt : ∀ i ∈ idx, i < T.length := fun i hi => List.mem_range.1 (hperm.mem_iff.1 hi)
  have hrows : ∀ {α : Type} (l : List α), l.length = T.length → Rows idx l (take idx l) := by
    intro α l hl
    exact rows_filterMap idx l (by rw [hl]; exact hlt)
  have hlen : ∀ {α : Type} (f : TS K (Option V) → List α), (∀ o ∈ all, (f o).length = o.time.length) → (all.map f).flatten.length = T.length := by
    intro α f hf
    rw [flatten_length all f (fun o => o.time.length) hf, hT, flatten_length all TS.time (fun o => o.time.length) (fun _ _ => rfl)]
  have e0 : take idx T = (argsort.sort T.zipIdx).map Prod.fst := by
    apply rows_unique (rows_filterMap idx T hlt)
    unfold Rows
    rw [hidx, List.forall₂_map_left_iff, List.forall₂_map_right_iff, List.forall₂_same]
    intro x hx
    exact zipIdx_fst_get _ _ ((argsort.perm _).mem_iff.1 hx)
  have hsorted : (take idx T).Pairwise (· ≤ ·) := by
    have h := argsort.sorted T.zipIdx
    rw [← List.pairwise_map (f := Prod.fst) (R := fun a b : K => a ≤ b), ← e0] at h
    exact h
  have hgti : joinGti orderC orderJ orderA all strategy = .ok g := by
    rw [← hg]
    unfold joinGti
    have : ((all.all fun o => o.gti.isNone) || decide (strategy = .none)) = true ↔ (∀ o ∈ self :: others, o.gti = none) ∨ strategy = .none := by
      rw [Bool.or_eq_true, decide_eq_true_iff, List.all_eq_true, hall]
      constructor
      · rintro (h | h)
        · left
          intro o ho
          rcases List.mem_cons.1 ho with rfl | ho
          · simpa using h o (by simp)
          · exact (hconv o).2.2.2.2.1 (by simpa using h (converted isclose self o) (by simp; right; exact ⟨o, ho, rfl⟩))
        · exact Or.inr h
      · rintro (h | h)
        · left
          intro o ho
          rw [List.mem_cons, List.mem_map] at ho
          rcases ho with rfl | ⟨p, hp, rfl⟩
          · simp [h o (by simp)]
          · rw [(hconv p).2.2.2.2.2 (h p (by simp [hp]))]; rfl
        · exact Or.inr h
    simp only [this]
  set names := (all.flatMap fun o => o.attrs.map Prod.fst).dedup with hnames
  have hattrs : (names.mapM fun a => (all.mapM (attrOf a)).map fun vs => (a, take idx vs.flatten)) =
      .ok (names.map fun a => (a, take idx (all.map (column a)).flatten)) := by
    apply mapM_eq
    intro a _
    rw [mapM_eq (attrOf a) (column a) all (fun o ho => attrOf_column a o (hallne o ho))]
    rfl
  have hmcol : ∀ o : TS K (Option V), maskColumn (converted isclose self o) = maskColumn o := by
    intro o
    unfold maskColumn
    rw [(hconv o).2.1, (hconv o).2.2.2.1]
  obtain ⟨mask, hmask, hmask1, hmask2⟩ : ∃ mask, joinMask idx all = .ok mask ∧ ((∀ o ∈ self :: others, o.mask = none) → mask = none) ∧
      ((∃ o ∈ self :: others, o.mask ≠ none) → mask = some (take idx (all.map maskColumn).flatten)) := by
    have hiff : (all.all fun o => o.mask.isNone) = true ↔ ∀ o ∈ self :: others, o.mask = none := by
      rw [List.all_eq_true, hall]
      constructor
      · intro h o ho
        rcases List.mem_cons.1 ho with rfl | ho
        · simpa using h o (by simp)
        · have := h (converted isclose self o) (by simp; right; exact ⟨o, ho, rfl⟩)
          rw [(hconv o).2.1] at this
          simpa using this
      · intro h o ho
        rw [List.mem_cons, List.mem_map] at ho
        rcases ho with rfl | ⟨p, hp, rfl⟩
        · simp [h o (by simp)]
        · rw [(hconv p).2.1, h p (by simp [hp])]; rfl
    unfold joinMask
    by_cases hall' : ∀ o ∈ self :: others, o.mask = none
    · rw [if_pos (hiff.2 hall')]
      exact ⟨_, rfl, fun _ => rfl, fun ⟨o, ho, hn⟩ => absurd (hall' o ho) hn⟩
    · rw [if_neg (fun hc => hall' (hiff.1 hc)), mapM_eq maskOf maskColumn all (fun o ho => by
        unfold maskOf maskColumn
        cases o.mask with
        | some m => rfl
        | none => rw [if_neg (hallne o ho), List.map_const'])]
      exact ⟨_, rfl, fun h => absurd h hall', fun _ => rfl⟩
  have hany : (all.any fun o => decide (o.time = [])) = false := by
    rw [List.any_eq_false]
    intro o ho
    simp [hallne o ho]
  have hdt : ∃ dt, joinDt idx self.dt all = .ok dt ∧
      ((∀ o ∈ others, o.dt = self.dt) → dt = .scalar self.dt) ∧
      ((∃ o ∈ others, o.dt ≠ self.dt) → dt = .array (take idx (all.map fun o => o.time.map fun _ => o.dt).flatten)) := by
    unfold joinDt
    by_cases h : ∀ o ∈ others, o.dt = self.dt
    · rw [if_pos (by
        rw [List.all_eq_true, hall]
        intro o ho
        rw [List.mem_cons, List.mem_map] at ho
        rcases ho with rfl | ⟨p, hp, rfl⟩
        · simp
        · simp [(hconv p).2.2.1, h p hp])]
      exact ⟨_, rfl, fun _ => rfl, fun ⟨o, ho, hn⟩ => absurd (h o ho) hn⟩
    · have h' : ∃ o ∈ others, o.dt ≠ self.dt := by
        by_contra hc
        apply h
        intro o ho
        by_contra hn
        exact hc ⟨o, ho, hn⟩
      rw [if_neg (by
        rw [List.all_eq_true, hall]
        intro hc
        obtain ⟨o, ho, hn⟩ := h'
        apply hn
        have := hc (converted isclose self o) (by simp; right; exact ⟨o, ho, rfl⟩)
        rw [decide_eq_true_iff, (hconv o).2.2.1] at this
        exact this), hany]
      exact ⟨_, rfl, fun hc => absurd hc h, fun _ => rfl⟩
  obtain ⟨dt, hdt1, hdt2, hdt3⟩ := hdt
  refine ⟨{ time := take idx T, attrs := names.map fun a => (a, take idx (all.map (column a)).flatten), gti := g, mask := mask,
            mjdref := self.mjdref, dt := dt }, ?_, rfl, rfl, idx, ?_, ?_, hsorted, ?_, ?_, hdt2, ?_, hmask1, ?_⟩
  · unfold join
    simp only [dropEmpty_id others hoth, if_neg hne]
    rw [show (others.map fun o => if isclose self.mjdref o.mjdref then o else changeMjdref o self.mjdref) = others.map (converted isclose self) from rfl,
      ← hall, ← hT, ← hidx, ← hnames]
    simp only [hgti, hdt1, hattrs, hmask, bind, Except.bind]
    rfl
  · rw [hN]; exact hperm
  · have : self.time ++ (others.map fun o => (converted isclose self o).time).flatten = T := by
      rw [hT, hall, List.map_cons, List.flatten_cons, List.map_map]
      rfl
    rw [this]
    exact hrows T rfl
  · intro a
    have hmem : a ∈ names ↔ ∃ o ∈ self :: others, a ∈ o.attrs.map Prod.fst := by
      rw [hnames, List.mem_dedup, List.mem_flatMap, hall]
      constructor
      · rintro ⟨o, ho, ha⟩
        rw [List.mem_cons, List.mem_map] at ho
        rcases ho with rfl | ⟨p, hp, rfl⟩
        · exact ⟨o, by simp, ha⟩
        · rw [(hconv p).1] at ha
          exact ⟨p, by simp [hp], ha⟩
      · rintro ⟨o, ho, ha⟩
        rcases List.mem_cons.1 ho with rfl | ho
        · exact ⟨o, by simp, ha⟩
        · exact ⟨converted isclose self o, by simp; right; exact ⟨o, ho, rfl⟩, by rw [(hconv o).1]; exact ha⟩
    rw [← hmem]
    constructor
    · rintro ⟨v, hv⟩
      rw [List.mem_map] at hv
      obtain ⟨b, hb, he⟩ := hv
      cases he
      exact hb
    · intro ha
      exact ⟨_, List.mem_map.2 ⟨a, ha, rfl⟩⟩
  · intro a v hv
    rw [List.mem_map] at hv
    obtain ⟨b, hb, he⟩ := hv
    cases he
    have e : (self :: others).map (column a) = all.map (column a) := by
      rw [hall, List.map_cons, List.map_cons, List.map_map]
      congr 1
      apply List.map_congr_left
      intro o _
      exact (hcol a o).symm
    rw [e]
    exact hrows _ (hlen (column a) (fun o ho => column_length a o (hallal o ho)))
  · intro hd
    refine ⟨_, hdt3 hd, ?_⟩
    have e : ((self :: others).map fun o => List.replicate o.time.length o.dt) = all.map fun o => o.time.map fun _ => o.dt := by
      rw [hall, List.map_cons, List.map_cons, List.map_map, List.map_const']
      congr 1
      apply List.map_congr_left
      intro o _
      simp only [Function.comp, List.map_const', (hconv o).2.2.1, (hconv o).2.2.2.1]
    rw [e]
    exact hrows _ (hlen (fun o => o.time.map fun _ => o.dt) (fun o _ => by simp))
  · intro hm
    refine ⟨_, hmask2 hm, ?_⟩
    have e : (self :: others).map maskColumn = all.map maskColumn := by
      rw [hall, List.map_cons, List.map_cons, List.map_map]
      congr 1
      apply List.map_congr_left
      intro o _
      exact (hmcol o).symm
    rw [e]
    refine hrows _ (hlen maskColumn (fun o ho => ?_))
    unfold maskColumn
    cases hmo : o.mask with
    | some m => simp [(hallal o ho).2 m hmo]
    | none => simp

/-- two series to be joined: one has an attribute that the other has not -/
def first : TS ℚ (Option ℚ) := ⟨[1, 4], [("energy", [some 10, some 40])], some [(0, 5)], none, 0, 1⟩
/-- the second one -/
def second : TS ℚ (Option ℚ) := ⟨[2, 3], [], some [(1, 6)], none, 0, 1⟩
/-- a series without samples -/
def empty : TS ℚ (Option ℚ) := ⟨[], [], none, none, 0, 1⟩

example : join (fun a b => decide (a = b)) (stableSort _) (stableSort _) (stableSort _) (stableSort _) first [second] .intersection =
    .ok (⟨[1, 2, 3, 4], [("energy", [some 10, none, none, some 40])], some [(1, 5)], none, 0, .scalar 1⟩, [second]) := by decide +kernel

/-- **C117 (the caller's list, negation).** The list that is passed is changed: empty series are removed from it, and series with another reference are replaced. -/
theorem join_changes_list :
    (join (fun a b => decide (a = b)) (stableSort _) (stableSort _) (stableSort _) (stableSort _) first [empty, { second with mjdref := 1 }] .union).map Prod.snd =
      .ok [{ second with time := [86402, 86403], gti := some [(86401, 86406)] }] := by decide +kernel

/-- **C117 (empty series, negation).** Empty series are to be ignored, and a single one is, but of two in a row only the first: then the joining fails if any series has an attribute. -/
theorem join_two_empty :
    (join (fun a b => decide (a = b)) (stableSort _) (stableSort _) (stableSort _) (stableSort _) first [empty, second] .union).map Prod.snd = .ok [second] ∧
    join (fun a b => decide (a = b)) (stableSort _) (stableSort _) (stableSort _) (stableSort _) first [empty, { empty with dt := 2 }, second] .union =
      .error .valueError := by decide +kernel

/-- **C117 (no common good time, negation).** The intersection of GTIs without common time is not empty: the result has no GTIs, and its `gti` is then the whole range of the samples. -/
theorem join_disjoint :
    (join (fun a b => decide (a = b)) (stableSort _) (stableSort _) (stableSort _) (stableSort _) { second with gti := some [(3/2, 7/2)] }
      [{ second with time := [12, 13], gti := some [(23/2, 27/2)] }] .intersection).map
        (fun p => (p.1.gti, (gtiGet (⟨p.1.time, [], p.1.gti, none, 0, 1⟩ : TS ℚ ℚ)).1)) = .ok (none, some [(3/2, 27/2)]) := by decide +kernel

/-- **C117 (cached masks, negation).** If the masks of the operands have been read before, the mask of the result is put together from theirs, and disagrees with the GTIs of the result: here the sample at time 1 is outside of the joined GTIs, but good. -/
theorem join_stale_mask :
    (join (fun a b => decide (a = b)) (stableSort _) (stableSort _) (stableSort _) (stableSort _) { first with mask := some [true, true] }
      [{ second with gti := some [(3/2, 6)], mask := some [true, true] }] .intersection).map Prod.fst =
      .ok ⟨[1, 2, 3, 4], [("energy", [some 10, none, none, some 40])], some [(3/2, 5)], some [some true, some true, some true, some true], 0, .scalar 1⟩ ∧
    createGtiMask (fun _ => 1) [(1 : ℚ), 2, 3, 4] [(3/2, 5)] none 0 (some 1) (1/1000) = .ok [false, true, true, true] := by
  refine ⟨?_, ?_⟩
  · decide +kernel
  · decide +kernel

end Stingray.Join

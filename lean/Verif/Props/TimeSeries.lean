import Verif.Lemmas.TimeSeries
import Verif.Lemmas.GtiSegments
import Mathlib.Algebra.Order.Ring.Rat
import Mathlib.Tactic.NormNum

/-!
# Properties C27, C29, C33: operations that move the rows of a time series
-/

namespace Stingray.TimeSeries

open Stingray.Gti Stingray.Spec

variable {K V : Type} [Field K] [LinearOrder K] [IsStrictOrderedRing K]

/-- every array of the series has one entry per sample -/
def Aligned (s : TS K V) : Prop :=
  (∀ a ∈ s.attrs, a.2.length = s.time.length) ∧ ∀ m ∈ s.mask, m.length = s.time.length

/-- **C27.** `apply_mask` keeps exactly the rows at the `True` positions, in order: the new times,
every new array attribute and the cached mask are the old ones at the same positions.
Attributes not listed in `filtered_attrs` disappear; reference MJD and bin size are unchanged. -/
theorem apply_mask_rows (s new self : TS K V) (mask : List Bool) (inplace : Bool)
    (filtered : Option (List String)) (hs : Aligned s)
    (h : applyMask s mask inplace filtered = .ok (new, self)) :
    Rows (truePositions mask) s.time new.time ∧
    List.Forall₂ (fun old a => old.1 = a.1 ∧ Rows (truePositions mask) old.2 a.2)
      (s.attrs.filter (fun a => filtered = none ∨ ∃ l, filtered = some l ∧ a.1 ∈ l)) new.attrs ∧
    (filtered = none → ∀ m, s.mask = some m →
      ∃ m', new.mask = some m' ∧ Rows (truePositions mask) m m') ∧
    new.mjdref = s.mjdref ∧ new.dt = s.dt ∧ Aligned new := by
  unfold applyMask at h
  simp only at h
  by_cases h1 : mask.length ≠ s.time.length ∨ s.time = []
  · rw [if_pos h1] at h; cases h
  rw [if_neg h1] at h
  have hl : mask.length = s.time.length := not_not.1 (not_or.1 h1).1
  simp only [Except.ok.injEq, Prod.mk.injEq] at h
  obtain ⟨rfl, -⟩ := h
  have hbase : (if inplace = true then s else (gtiGet s).2).mjdref = s.mjdref ∧
      (if inplace = true then s else (gtiGet s).2).dt = s.dt := by
    rw [gtiGet_snd]
    split_ifs <;> exact ⟨rfl, rfl⟩
  have hlen : ∀ {α : Type} (l : List α), l.length = s.time.length →
      (select mask l).length = (select mask s.time).length := by
    intro α l hll
    have a := (rows_select mask l (by omega)).length_eq
    have b := (rows_select mask s.time hl).length_eq
    omega
  refine ⟨rows_select _ _ hl, ?_, ?_, hbase.1, hbase.2, ?_, ?_⟩
  · have e : (fun a : String × List V => kept filtered a.1) =
        (fun a => decide (filtered = none ∨ ∃ l, filtered = some l ∧ a.1 ∈ l)) := by
      funext a
      cases filtered <;> simp [kept]
    rw [e, List.forall₂_map_right_iff, List.forall₂_same]
    intro a ha
    exact ⟨rfl, rows_select _ _ (hl.trans (hs.1 a (List.mem_filter.1 ha).1).symm)⟩
  · rintro rfl m hm
    exact ⟨_, by simp [hm]; rfl, rows_select _ _ (hl.trans (hs.2 m (by simp [hm])).symm)⟩
  · intro a ha
    simp only [List.mem_map, List.mem_filter] at ha
    obtain ⟨b, ⟨hb, -⟩, rfl⟩ := ha
    exact hlen _ (hs.1 b hb)
  · intro m hm
    simp only [Option.mem_def] at hm
    split_ifs at hm
    · rw [Option.map_eq_some_iff] at hm
      obtain ⟨m', hm', rfl⟩ := hm
      exact hlen _ (hs.2 m' (by simp [hm']))

/-- **C27 (errors and aliasing).** A mask of the wrong length is an error; otherwise `apply_mask` succeeds.
With `inplace` the series itself becomes the result; without it the rows of the series are left as
they were. -/
theorem apply_mask_total (s : TS K V) (mask : List Bool) (inplace : Bool)
    (filtered : Option (List String)) :
    (mask.length ≠ s.time.length → applyMask s mask inplace filtered = .error .indexError) ∧
    (mask.length = s.time.length → s.time ≠ [] →
      ∃ new self, applyMask s mask inplace filtered = .ok (new, self) ∧
        (inplace = true → self = new ∧ new.gti = s.gti) ∧
        (inplace = false → self.time = s.time ∧ self.attrs = s.attrs ∧ self.mask = s.mask ∧
          self.mjdref = s.mjdref ∧ self.dt = s.dt ∧ new.gti = self.gti)) := by
  constructor
  · intro h; unfold applyMask; simp [h]
  · intro h hne
    unfold applyMask
    simp only [h, hne, ne_eq, not_true, or_self, if_false]
    refine ⟨_, _, rfl, ?_, ?_⟩
    · rintro rfl; simp
    · rintro rfl
      simp only [Bool.false_eq_true, if_false, and_true]
      rw [gtiGet_snd]
      simp

/-- **C27 (assigning times).** New times of another length than the present ones are refused, so that an aligned series
stays aligned whatever is assigned; nothing but the times changes. -/
theorem set_time_aligned (s : TS K V) (v : List K) (hne : s.time ≠ []) :
    (v.length ≠ s.time.length → setTime s v = .error .valueError) ∧
    (v.length = s.time.length → setTime s v = .ok { s with time := v }) ∧
    (Aligned s → ∀ s', setTime s v = .ok s' → Aligned s') := by
  unfold setTime
  refine ⟨fun h => by rw [if_pos ⟨hne, h⟩], fun h => by rw [if_neg (fun hc => hc.2 h)], ?_⟩
  intro hs s' h
  split_ifs at h with hc
  cases h
  have hl : v.length = s.time.length := not_not.1 fun hn => hc ⟨hne, hn⟩
  exact ⟨fun a ha => by rw [hs.1 a ha]; exact hl.symm, fun m hm => by rw [hs.2 m hm]; exact hl.symm⟩

example : let s : TS ℚ ℚ := ⟨[1, 2, 3, 4], [("counts", [10, 20, 30, 40]), ("rate", [5, 6, 7, 8])],
      some [(0, 5)], some [true, true, false, true], 55000, 1⟩
    applyMask s [true, false, true, true] false (some ["counts"]) =
      .ok (⟨[1, 3, 4], [("counts", [10, 30, 40])], some [(0, 5)], none, 55000, 1⟩, s) ∧
    applyMask s [true, false, true, true] true none =
      .ok (⟨[1, 3, 4], [("counts", [10, 30, 40]), ("rate", [5, 7, 8])], some [(0, 5)],
          some [true, false, true], 55000, 1⟩,
        ⟨[1, 3, 4], [("counts", [10, 30, 40]), ("rate", [5, 7, 8])], some [(0, 5)],
          some [true, false, true], 55000, 1⟩) := by decide +kernel

/-- **C29.** `change_mjdref` leaves the absolute time `mjdref * 86400 + t` of every sample and of every GTI
border unchanged, in order, and touches no other array. -/
theorem change_mjdref_absolute (s : TS K V) (new : K) :
    (changeMjdref s new).mjdref = new ∧
    (changeMjdref s new).time.map (fun t => new * 86400 + t) =
      s.time.map (fun t => s.mjdref * 86400 + t) ∧
    (changeMjdref s new).gti.map (List.map fun g => (new * 86400 + g.1, new * 86400 + g.2)) =
      s.gti.map (List.map fun g => (s.mjdref * 86400 + g.1, s.mjdref * 86400 + g.2)) ∧
    (changeMjdref s new).attrs = s.attrs ∧ (changeMjdref s new).dt = s.dt ∧
    (changeMjdref s new).mask = s.mask := by
  refine ⟨rfl, ?_, ?_, rfl, rfl, rfl⟩
  · simp only [changeMjdref, shift, List.map_map]
    apply List.map_congr_left
    intro t _
    simp only [Function.comp]; ring
  · simp only [changeMjdref, shift, Option.map_map]
    congr 1
    funext l
    simp only [Function.comp, List.map_map]
    apply List.map_congr_left
    intro g _
    simp only [Function.comp, Prod.mk.injEq]
    constructor <;> ring

/-- **C29 (composition).** Changing the reference to `a` and then to `b` is changing it to `b`; changing
back restores the series. -/
theorem change_mjdref_comp (s : TS K V) (a b : K) :
    changeMjdref (changeMjdref s a) b = changeMjdref s b ∧
    changeMjdref (changeMjdref s a) s.mjdref = s := by
  have key : ∀ b, changeMjdref (changeMjdref s a) b = changeMjdref s b := by
    intro b
    unfold changeMjdref shift
    simp only [List.map_map, Option.map_map, TS.mk.injEq, and_true, true_and]
    constructor
    · apply List.map_congr_left
      intro t _
      simp only [Function.comp]; ring
    · congr 1
      funext l
      simp only [Function.comp, List.map_map]
      apply List.map_congr_left
      intro g _
      simp only [Function.comp, Prod.mk.injEq]
      constructor <;> ring
  refine ⟨key b, ?_⟩
  rw [key]
  have e1 : (fun x : K => x + 0) = id := by funext x; simp
  have e2 : (fun g : K × K => (g.1 + 0, g.2 + 0)) = id := by funext g; simp
  unfold changeMjdref shift
  simp only [sub_self, zero_mul, e1, e2, List.map_id, List.map_id_fun, Option.map_id_fun]
  simp

/-- **C29 (sequences).** Any sequence of reference changes is the same as the last one alone. -/
theorem change_mjdref_sequence (s : TS K V) (l : List K) (b : K) :
    changeMjdref (l.foldl changeMjdref s) b = changeMjdref s b := by
  induction l generalizing s with
  | nil => rfl
  | cons a l ih => rw [List.foldl_cons, ih, (change_mjdref_comp s a b).1]

example : changeMjdref (⟨[1, 2], [("x", [3, 4])], some [(0, 5)], none, 55000, 1⟩ : TS ℚ ℚ) 54999 =
    ⟨[86401, 86402], [("x", [3, 4])], some [(86400, 86405)], none, 54999, 1⟩ := by decide +kernel

/-- **C33.** Whatever `argsort` does with ties, `sort` applies one permutation of the positions to the
times, to every array attribute and to the cached mask, and the new times are in increasing order (decreasing
with `reverse`).  Metadata are unchanged. -/
theorem sort_rows (argsort : KeySort (fun (x : K × Nat) => x.1)) (s : TS K V)
    (reverse inplace : Bool) (hs : Aligned s) :
    ∃ idx : List Nat, idx.Perm (List.range s.time.length) ∧
      Rows idx s.time (sort argsort s reverse inplace).1.time ∧
      List.Forall₂ (fun old a => old.1 = a.1 ∧ Rows idx old.2 a.2) s.attrs
        (sort argsort s reverse inplace).1.attrs ∧
      (∀ m, s.mask = some m → ∃ m', (sort argsort s reverse inplace).1.mask = some m' ∧ Rows idx m m') ∧
      (sort argsort s reverse inplace).1.time.Pairwise
        (fun a b => if reverse then b ≤ a else a ≤ b) ∧
      (sort argsort s reverse inplace).1.mjdref = s.mjdref ∧
      (sort argsort s reverse inplace).1.dt = s.dt := by
  set idx0 := (argsort.sort s.time.zipIdx).map Prod.snd with hidx0
  set idx := if reverse then idx0.reverse else idx0 with hidx
  have hperm0 : idx0.Perm (List.range s.time.length) := by
    have := (argsort.perm s.time.zipIdx).map Prod.snd
    rwa [zipIdx_snd] at this
  have hperm : idx.Perm (List.range s.time.length) := by
    rw [hidx]; split_ifs
    · exact (List.reverse_perm _).trans hperm0
    · exact hperm0
  have hlt : ∀ i ∈ idx, i < s.time.length := fun i hi => List.mem_range.1 (hperm.mem_iff.1 hi)
  have hlt0 : ∀ i ∈ idx0, i < s.time.length := fun i hi => List.mem_range.1 (hperm0.mem_iff.1 hi)
  have e0 : idx0.filterMap (s.time[·]?) = (argsort.sort s.time.zipIdx).map Prod.fst := by
    apply rows_unique (rows_filterMap idx0 s.time hlt0)
    unfold Rows
    rw [hidx0, List.forall₂_map_left_iff, List.forall₂_map_right_iff, List.forall₂_same]
    intro x hx
    exact zipIdx_fst_get _ _ ((argsort.perm _).mem_iff.1 hx)
  have hbase : (if inplace = true then s else (gtiGet s).2).mjdref = s.mjdref ∧
      (if inplace = true then s else (gtiGet s).2).dt = s.dt := by
    rw [gtiGet_snd]
    split_ifs <;> exact ⟨rfl, rfl⟩
  refine ⟨idx, hperm, rows_filterMap _ _ hlt, ?_, ?_, ?_, hbase.1, hbase.2⟩
  · simp only [sort, applyIdx, List.forall₂_map_right_iff, List.forall₂_same]
    intro a ha
    exact ⟨trivial, rows_filterMap _ _ (by rw [hs.1 a ha]; exact hlt)⟩
  · intro m hm
    refine ⟨idx.filterMap (m[·]?), ?_, rows_filterMap _ _ (by rw [hs.2 m (by simp [hm])]; exact hlt)⟩
    simp only [sort, applyIdx, hm, Option.map_some]
    rfl
  · change (idx.filterMap (s.time[·]?)).Pairwise _
    have hsorted := argsort.sorted s.time.zipIdx
    rw [← List.pairwise_map (f := Prod.fst) (R := fun a b : K => a ≤ b), ← e0] at hsorted
    rw [hidx]
    cases reverse
    · simpa using hsorted
    · simp only [if_true]
      rw [List.filterMap_reverse, List.pairwise_reverse]
      exact hsorted

example : (sort (stableSort _) (⟨[3, 1, 2], [("x", [30, 10, 20])], none, none, 0, 1⟩ : TS ℚ ℚ)
      false true).1 = ⟨[1, 2, 3], [("x", [10, 20, 30])], none, none, 0, 1⟩ ∧
    (sort (stableSort _) (⟨[3, 1, 2], [("x", [30, 10, 20])], none, none, 0, 1⟩ : TS ℚ ℚ)
      true true).1 = ⟨[3, 2, 1], [("x", [30, 20, 10])], none, none, 0, 1⟩ := by decide +kernel

end Stingray.TimeSeries

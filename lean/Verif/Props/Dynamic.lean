import Verif.Model.Dynamic
import Verif.Props.Segments
import Verif.Props.Rebin
import Mathlib.Tactic.NormNum
import Mathlib.Algebra.BigOperators.Field
import Mathlib.Algebra.Order.Ring.Rat
import Mathlib.Data.Rat.Floor

/-!
# C124, C125: dynamical spectra
-/

set_option linter.unusedSectionVars false

namespace Stingray.Dynamic

open Stingray Stingray.Gti Stingray.Segments Stingray.Rebin Stingray.Spec

variable {K : Type} [Field K] [LinearOrder K] [IsStrictOrderedRing K] [FloorRing K]

/-- what column `col` at time `t` must be, for the segment from `s.1` to `s.2`: the time is the middle of the segment, and the column is the spectrum of the numbers of events in the `nBin` equal bins of the segment -/
def ColumnOf (power : List Nat → List K) (times : List K) (size : K) (nBin : Nat) (s : K × K) (t : K) (col : List K) : Prop :=
  t = (s.1 + s.2) / 2 ∧
  col = power ((List.range nBin).map fun k : Nat => (eventsIn times (s.1 + (k : K) * (size / nBin)) (s.1 + ((k : K) + 1) * (size / nBin))).length)

theorem keptSpectra_all (power : List Nat → List K) (times : List K) (size : K) (nBin : Nat) :
    ∀ (segs : List (K × K)) (out : List (Option (List Nat))),
      List.Forall₂ (fun s o => FluxOf times size nBin s.1 s.2 o) segs out → (∀ s ∈ segs, 2 ≤ (eventsIn times s.1 s.2).length) →
      keptSpectra power out = segs.map fun s => power ((List.range nBin).map fun k : Nat =>
        (eventsIn times (s.1 + (k : K) * (size / nBin)) (s.1 + ((k : K) + 1) * (size / nBin))).length) := by
  intro segs out h
  induction h with
  | nil => intro _; rfl
  | @cons s o segs out ho _ ih =>
    intro h2
    have ih := ih fun s hs => h2 s (List.mem_cons_of_mem _ hs)
    have h2 := h2 s (List.mem_cons_self)
    obtain ⟨counts, rfl, hl, hk, hsum⟩ := ho.2 h2
    have hc : counts = (List.range nBin).map fun k : Nat =>
        (eventsIn times (s.1 + (k : K) * (size / nBin)) (s.1 + ((k : K) + 1) * (size / nBin))).length := by
      apply List.ext_getElem?
      intro k
      by_cases hkn : k < nBin
      · rw [hk k hkn, List.getElem?_map, List.getElem?_range hkn]; rfl
      · rw [List.getElem?_eq_none (by omega), List.getElem?_eq_none (by simp; omega)]
    have hne : counts.all (fun x => decide (x = 0)) = false := by
      by_contra hcon
      rw [Bool.not_eq_false, List.all_eq_true] at hcon
      have : counts.sum = 0 := List.sum_eq_zero fun x hx => by simpa using hcon x hx
      omega
    unfold keptSpectra at ih ⊢
    rw [List.filterMap_cons]
    simp only [hne, List.map_cons, ih]
    rw [hc]
    simp

/-- **C124 (partial).** If every segment has at least two events, the matrix of a dynamical power spectrum has one column per segment of `time_intervals_from_gtis` (C13), in order, and as many times: time `i` is the middle of segment `i`
and column `i` is the spectrum of the binned events of segment `i`. Missing: segments with fewer events, see `dynamic_columns_shift`. -/
theorem dynamic_columns_partial (power : List Nat → List K) (times : List K) (hs : times.Pairwise (· ≤ ·)) (gti : List (K × K)) (size eps : K)
    (hsize : 0 < size) (nBin : Nat) (hn : 0 < nBin) (segs : List (K × K)) (hseg : timeIntervalsFromGtis gti size 1 eps = .ok segs)
    (h2 : ∀ s ∈ segs, 2 ≤ (eventsIn times s.1 s.2).length) :
    ∃ ts cols, makeMatrix power times gti size nBin eps = .ok (ts, cols) ∧ ts.length = segs.length ∧ cols.length = segs.length ∧
      ∀ (i : Nat) (s : K × K), segs[i]? = some s → ∃ t col, ts[i]? = some t ∧ cols[i]? = some col ∧ ColumnOf power times size nBin s t col := by
  obtain ⟨out, ho, hf⟩ := event_segments_partial times hs gti size eps hsize nBin hn segs hseg
  have hk := keptSpectra_all power times size nBin segs out hf h2
  refine ⟨segs.map fun s => s.1 + size / 2, keptSpectra power out, by unfold makeMatrix; simp only [ho, hseg], by simp, by rw [hk]; simp, ?_⟩
  intro i s hi
  refine ⟨s.1 + size / 2, _, by simp [hi], by rw [hk, List.getElem?_map, hi]; rfl, ?_, rfl⟩
  have := ((time_intervals_from_gtis_iff gti size 1 eps hsize one_pos segs hseg s.1 s.2).1 (List.mem_of_getElem? hi)).1
  rw [this]; ring

/-- **C124 (errors).** Without any whole segment in the GTIs there is an error, not an empty matrix. -/
theorem dynamic_error (power : List Nat → List K) (times : List K) (gti : List (K × K)) (size eps : K) (hsize : 0 < size) (nBin : Nat)
    (h : ∀ g ∈ gti, g.2 - g.1 + eps ≤ size) : makeMatrix power times gti size nBin eps = .error .assertionError := by
  unfold makeMatrix
  simp only [event_segments_error times gti size eps hsize nBin h]

/-- **C124 (empty segments, negation).** A segment with fewer than two events has a time but no column: there are fewer columns than times, and every later column is at the time of an earlier segment. Here the only column, of the
segment around 6, is the first one, where the first time is 2. -/
theorem dynamic_columns_shift (power : List Nat → List ℚ) :
    makeMatrix power [1, 5, 6] [(0, 8)] 4 2 (1/1000) = .ok ([2, 6], [power [1, 1]]) := by
  have h1 : eventSegments [(1 : ℚ), 5, 6] [(0, 8)] (some 4) 2 (1/1000) = .ok [none, some [1, 1]] := by decide +kernel
  have h2 : timeIntervalsFromGtis [((0 : ℚ), 8)] 4 1 (1/1000) = .ok [(0, 4), (4, 8)] := by decide +kernel
  unfold makeMatrix
  simp only [h1, h2]
  norm_num
  rfl

example : (makeMatrix (fun c => c.map fun (x : Nat) => (x : ℚ)) [1, 2, 5, 7] [(0, 4), (5, 9)] 4 2 (1/1000)) = .ok ([2, 7], [[1, 1], [1, 1]]) := by decide +kernel

/-! ## Rebinning -/

/-- the part of the old values in the new bin from `lo` to `hi`, in units of value times width: old value `j` stands for the bin of width `dx` around `x0 + j * dx` -/
def total (x0 dx : K) (y : List K) (lo hi : K) : K :=
  ∑ j ∈ Finset.range y.length, y.getD j 0 * overlap lo hi (x0 + ((j : K) - 1 / 2) * dx) (x0 + ((j : K) + 1 / 2) * dx)

/-- the number of whole new bins -/
def newBins (n : Nat) (dx dxNew : K) : Nat := ⌊(n : K) * dx / dxNew⌋₊

/-- the start of new bin `i`: the first new bin starts with the first old one -/
def newStart (x0 dx dxNew : K) (i : Nat) : K := x0 - dx / 2 + (i : K) * dxNew

/-- what the rebinned values must be: the mean over the new bin, or the sum where each old bin counts with the part of it inside of the new bin -/
def rebinned (x0 dx dxNew : K) (method : Method) (y : List K) : List K :=
  (List.range (newBins y.length dx dxNew)).map fun i : Nat =>
    let t := total x0 dx y (newStart x0 dx dxNew i) (newStart x0 dx dxNew i + dxNew)
    if method = .mean then t / dxNew else t / dx

/-- the middles of the new bins -/
def newMiddles (n : Nat) (x0 dx dxNew : K) : List K :=
  (List.range (newBins n dx dxNew)).map fun i : Nat => newStart x0 dx dxNew i + dxNew / 2

/-- evenly spaced values -/
def grid (x0 dx : K) (n : Nat) : List K := (List.range n).map fun j : Nat => x0 + (j : K) * dx

theorem edges_grid (x0 dx : K) (hdx : 0 < dx) (n : Nat) (hn : 0 < n) :
    Edges (grid x0 dx n) (.scalar dx) n (fun j => x0 + (j : K) * dx) := by
  refine ⟨by simp [grid], hn, fun j _ => ?_, fun j hj => by simp [grid, hj], fun j _ => ?_⟩
  · push_cast; nlinarith
  · push_cast; ring

theorem edges_grid_absent (x0 dx : K) (hdx : 0 < dx) (n : Nat) (hn : 2 ≤ n) :
    Edges (grid x0 dx n) .absent n (fun j => x0 + (j : K) * dx) := by
  refine ⟨by simp [grid], by omega, fun j _ => ?_, fun j hj => by simp [grid, hj], hn, ?_⟩
  · push_cast; nlinarith
  · obtain ⟨m, rfl⟩ := Nat.exists_eq_add_of_le hn
    simp only [show 2 + m - 1 = m + 1 by omega, show 2 + m - 2 = m by omega]
    push_cast; ring

theorem overlap_comm (a b c d : K) : overlap a b c d = overlap c d a b := by
  unfold overlap; rw [min_comm, max_comm a c]

theorem overlap_shift (a b c d s : K) : overlap (a + s) (b + s) (c + s) (d + s) = overlap a b c d := by
  unfold overlap
  rw [min_add_add_right, max_add_add_right]
  congr 1; ring

theorem sum_overlap (e : Nat → K) (he : ∀ j, e j ≤ e (j + 1)) (lo hi : K) (h : lo ≤ hi) (n : Nat) :
    ∑ j ∈ Finset.range n, overlap lo hi (e j) (e (j + 1)) = overlap lo hi (e 0) (e n) := by
  have h0 : ∀ n, e 0 ≤ e n := fun n => by
    induction n with
    | zero => exact le_rfl
    | succ n ih => exact ih.trans (he n)
  induction n with
  | zero => rw [overlap_comm, overlap_self_left]; rfl
  | succ n ih =>
    rw [Finset.sum_range_succ, ih, overlap_comm lo hi (e 0), overlap_comm lo hi (e n), overlap_comm lo hi (e 0),
      overlap_add (e n) (e (n + 1)) lo hi (e 0) (h0 n) (he n) h]

theorem rebinData_exists (sqrt : K → K) (x y : List K) (dxNew : K) (method : Method) (D : Dx K) (hx : x ≠ []) (hD : dxOld x D ≠ [])
    (h : ∀ d ∈ dxOld x D, d ≤ dxNew) (hm : method ≠ .other) : ∃ out, rebinData sqrt x y dxNew none method D = .ok out := by
  unfold rebinData
  simp only
  rw [if_neg (by
    intro hc
    obtain ⟨d, hd, hlt⟩ := List.any_eq_true.1 hc
    exact absurd (h d hd) (not_le.2 (by simpa using hlt)))]
  obtain ⟨a, l, rfl⟩ := List.exists_cons_of_ne_nil hx
  obtain ⟨b, l', hb⟩ := List.exists_cons_of_ne_nil hD
  rw [hb, List.getLast?_cons, List.getLast?_cons, List.head?_cons, List.head?_cons]
  simp only [if_neg hm]
  exact ⟨_, rfl⟩

theorem rebinData_other (sqrt : K → K) (x y : List K) (dxNew : K) (D : Dx K) (hx : x ≠ []) (hD : dxOld x D ≠ []) :
    rebinData sqrt x y dxNew none .other D = .error .valueError := by
  unfold rebinData
  simp only
  split_ifs
  · rfl
  · obtain ⟨a, l, rfl⟩ := List.exists_cons_of_ne_nil hx
    obtain ⟨b, l', hb⟩ := List.exists_cons_of_ne_nil hD
    rw [hb, List.getLast?_cons, List.getLast?_cons, List.head?_cons, List.head?_cons]

/-- rebinning of evenly spaced values -/
theorem rebinData_grid (sqrt : K → K) (x0 dx dxNew : K) (hdx : 0 < dx) (hle : dx ≤ dxNew) (n : Nat) (y : List K) (hy : y.length = n) (method : Method)
    (D : Dx K) (hE : Edges (grid x0 dx n) D n (fun j => x0 + (j : K) * dx)) (out : Out K)
    (h : rebinData sqrt (grid x0 dx n) y dxNew none method D = .ok out) :
    out.xbin = newMiddles n x0 dx dxNew ∧ out.ybin = rebinned x0 dx dxNew method y ∧
    out.stepSize = List.replicate (newBins n dx dxNew) (dxNew / dx) := by
  have hnew : 0 < dxNew := lt_of_lt_of_le hdx hle
  have habs := rebin_data_abscissae sqrt _ y dxNew none method D out n _ hE hy (by simp) h
  obtain ⟨_, hst, ⟨d0, hd0, hxb⟩, hyb, _⟩ := rebinData_ok sqrt _ y dxNew none method D out n _ hE hy (by simp) h
  simp only at hst hyb hxb habs
  have hN : (x0 + (n : K) * dx - (x0 + ((0 : Nat) : K) * dx)) / dxNew = (n : K) * dx / dxNew := by push_cast; ring
  have hw : ∀ (z : List K) (i : Nat), binned n (fun j => x0 + (j : K) * dx) (fun j => z.getD j 0) (x0 + ((0 : Nat) : K) * dx + (i : K) * dxNew)
      (x0 + ((0 : Nat) : K) * dx + (i : K) * dxNew + dxNew) =
      (∑ j ∈ Finset.range n, z.getD j 0 * overlap (newStart x0 dx dxNew i) (newStart x0 dx dxNew i + dxNew) (x0 + ((j : K) - 1 / 2) * dx) (x0 + ((j : K) + 1 / 2) * dx)) / dx := by
    intro z i
    unfold binned
    rw [Finset.sum_div]
    refine Finset.sum_congr rfl fun j _ => ?_
    rw [← overlap_shift (newStart x0 dx dxNew i) _ _ _ (dx / 2), mul_div_assoc]
    unfold newStart
    congr 2
    · congr 1 <;> push_cast <;> ring
    · push_cast; ring
  have hone : ∀ i < newBins n dx dxNew, binned n (fun j => x0 + (j : K) * dx) (fun j => ((grid x0 dx n).map fun _ => (1 : K)).getD j 0) (x0 + ((0 : Nat) : K) * dx + (i : K) * dxNew)
      (x0 + ((0 : Nat) : K) * dx + (i : K) * dxNew + dxNew) = dxNew / dx := by
    intro i hi
    rw [hw]
    congr 1
    have h1 : ∀ j ∈ Finset.range n, ((grid x0 dx n).map fun _ => (1 : K)).getD j 0 *
        overlap (newStart x0 dx dxNew i) (newStart x0 dx dxNew i + dxNew) (x0 + ((j : K) - 1 / 2) * dx) (x0 + ((j : K) + 1 / 2) * dx) =
        overlap (newStart x0 dx dxNew i) (newStart x0 dx dxNew i + dxNew) ((fun j : Nat => x0 + ((j : K) - 1 / 2) * dx) j) ((fun j : Nat => x0 + ((j : K) - 1 / 2) * dx) (j + 1)) := by
      intro j hj
      have hj := Finset.mem_range.1 hj
      have : ((grid x0 dx n).map fun _ => (1 : K)).getD j 0 = 1 := by
        rw [List.getD_eq_getElem?_getD, List.getElem?_map]
        simp [grid, hj]
      rw [this, one_mul]
      congr 1; push_cast; ring
    rw [Finset.sum_congr rfl h1, sum_overlap _ (fun j => by push_cast; nlinarith) _ _ (by linarith)]
    have hi' : ((i : K) + 1) * dxNew ≤ n * dx := by
      have : ((i + 1 : Nat) : K) ≤ (n : K) * dx / dxNew := by
        have h2 : ((newBins n dx dxNew : Nat) : K) ≤ (n : K) * dx / dxNew := Nat.floor_le (by positivity)
        have h3 : ((i + 1 : Nat) : K) ≤ (newBins n dx dxNew : Nat) := by exact_mod_cast hi
        exact h3.trans h2
      rw [le_div_iff₀ hnew] at this
      push_cast at this
      exact this
    have hi0 : 0 ≤ (i : K) * dxNew := by positivity
    rw [overlap_comm, overlap_eq_full]
    · ring
    · unfold newStart; push_cast; linarith
    · unfold newStart; nlinarith
    · linarith
  refine ⟨?_, ?_, ?_⟩
  · rw [hN] at hxb
    have hl : out.xbin.length = newBins n dx dxNew := by rw [hxb]; simp [newBins]
    apply List.ext_getElem?
    intro i
    by_cases hi : i < newBins n dx dxNew
    · obtain ⟨v, hv⟩ : ∃ v, out.xbin[i]? = some v := ⟨_, List.getElem?_eq_getElem (by omega)⟩
      have := habs.2 i v hv
      rw [hv, newMiddles, List.getElem?_map, List.getElem?_range hi, this]
      simp only [Option.map_some, newStart, Option.some.injEq]
      push_cast; ring
    · rw [List.getElem?_eq_none (by omega), List.getElem?_eq_none (by simp [newMiddles]; omega)]
  · rw [hyb, hN]
    unfold rebinned
    rw [hy]
    apply List.map_congr_left
    intro i hi
    have hi := List.mem_range.1 hi
    rw [hone i hi, hw]
    unfold total
    rw [hy]
    split_ifs
    · rw [div_div_div_cancel_right₀ hdx.ne']
    · rfl
  · rw [hst, hN, List.eq_replicate_iff]
    refine ⟨by simp [newBins], ?_⟩
    intro b hb
    obtain ⟨i, hi, rfl⟩ := List.mem_map.1 hb
    exact hone i (List.mem_range.1 hi)

theorem mapM_map (f : List K → Except PyErr (Out K)) (l : List (List K)) (hl : l ≠ []) (P : List K → Out K → Prop)
    (h : ∀ y ∈ l, ∃ o, f y = .ok o ∧ P y o) : ∃ outs, l.mapM f = .ok outs ∧ List.Forall₂ P l outs ∧ outs ≠ [] := by
  obtain ⟨outs, ho, hf⟩ : ∃ outs, l.mapM f = .ok outs ∧ List.Forall₂ P l outs := by
    clear hl
    induction l with
    | nil => exact ⟨[], rfl, List.Forall₂.nil⟩
    | cons a l ih =>
      obtain ⟨o, ho, hp⟩ := h a List.mem_cons_self
      obtain ⟨outs, h1, h2⟩ := ih fun y hy => h y (List.mem_cons_of_mem _ hy)
      refine ⟨o :: outs, ?_, List.Forall₂.cons hp h2⟩
      rw [List.mapM_cons, ho, h1]
      rfl
  refine ⟨outs, ho, hf, ?_⟩
  rintro rfl
  cases hf
  exact hl rfl

/-- the common part of both rebinnings -/
theorem assemble_grid (x0 dx dxNew : K) (n : Nat) (method : Method) (m : Nat) (rows : List (List K)) (outs : List (Out K)) (hne : outs ≠ [])
    (hf : List.Forall₂ (fun y (o : Out K) => o.xbin = newMiddles n x0 dx dxNew ∧ o.ybin = rebinned x0 dx dxNew method y ∧
      o.stepSize = List.replicate (newBins n dx dxNew) (dxNew / dx)) rows outs) :
    assemble outs m = if newBins n dx dxNew = 0 then .error .indexError
      else .ok (newMiddles n x0 dx dxNew, rows.map (rebinned x0 dx dxNew method), ⌊dxNew / dx⌋.toNat * m) := by
  have hy : outs.map Out.ybin = rows.map (rebinned x0 dx dxNew method) := by
    clear hne
    induction hf with
    | nil => rfl
    | cons h _ ih => rw [List.map_cons, List.map_cons, ih, h.2.1]
  have hall : ∀ o ∈ outs, o.xbin = newMiddles n x0 dx dxNew ∧ o.stepSize = List.replicate (newBins n dx dxNew) (dxNew / dx) := by
    clear hne hy
    induction hf with
    | nil => intro o ho; cases ho
    | cons h _ ih =>
      intro o ho
      rcases List.mem_cons.1 ho with rfl | ho
      · exact ⟨h.1, h.2.2⟩
      · exact ih o ho
  obtain ⟨h1, h2⟩ := hall _ (List.getLast_mem hne)
  unfold assemble
  rw [List.getLast?_eq_getLast_of_ne_nil hne]
  simp only [h1, h2, hy]
  by_cases h0 : newBins n dx dxNew = 0
  · rw [if_pos h0, h0]; rfl
  · obtain ⟨k, hk⟩ := Nat.exists_eq_succ_of_ne_zero h0
    rw [if_neg h0, hk, List.replicate_succ]
    rfl

theorem newBins_zero (n : Nat) (dx dxNew : K) (hnew : 0 < dxNew) : newBins n dx dxNew = 0 ↔ (n : K) * dx < dxNew := by
  unfold newBins
  rw [Nat.floor_eq_zero, div_lt_one hnew]

/-- **C125 (times, partial).** Rebinning a dynamical spectrum with evenly spaced times to a resolution `dt_new` not finer than the present one: the new bins start where the first segment starts, follow each other without gaps, and there are
as many as fit in the data; the new times are their middles. At every frequency the new power is the mean (or sum) over the new bin of the old powers, each weighted with the part of its segment that is in the new bin. A resolution longer than all
the data, and an unknown method, are refused. Missing: data with gaps (`rebin_time_gap`), and the number of averaged spectra (`rebin_m_truncated`). -/
theorem rebin_time_partial (sqrt : K → K) (rows : List (List K)) (hne : rows ≠ []) (t0 dt dtNew : K) (hdt : 0 < dt) (n : Nat) (hn : 0 < n) (hrows : ∀ r ∈ rows, r.length = n)
    (method : Method) (m : Nat) :
    (dtNew < dt → rebinTime sqrt rows (grid t0 dt n) dt dtNew method m = .error .valueError) ∧
    (method = .other → rebinTime sqrt rows (grid t0 dt n) dt dtNew method m = .error .valueError) ∧
    (dt ≤ dtNew → method ≠ .other → (n : K) * dt < dtNew → rebinTime sqrt rows (grid t0 dt n) dt dtNew method m = .error .indexError) ∧
    (dt ≤ dtNew → method ≠ .other → dtNew ≤ (n : K) * dt → ∃ m', rebinTime sqrt rows (grid t0 dt n) dt dtNew method m =
      .ok (newMiddles n t0 dt dtNew, rows.map (rebinned t0 dt dtNew method), m') ∧
      (∀ k : Nat, dtNew = (k : K) * dt → m' = k * m)) := by
  have hg : grid t0 dt n ≠ [] := by
    intro h
    have := congrArg List.length h
    simp [grid] at this
    omega
  have hold : dxOld (grid t0 dt n) (.scalar dt) = [dt] := by simp [dxOld, hdt.ne']
  refine ⟨fun h => by unfold rebinTime; rw [if_pos h], fun h => ?_, ?_⟩
  · subst h
    unfold rebinTime
    obtain ⟨r, rows, rfl⟩ := List.exists_cons_of_ne_nil hne
    rw [List.mapM_cons, rebinData_other sqrt _ _ _ _ hg (by rw [hold]; simp)]
    split_ifs <;> rfl
  · have key : dt ≤ dtNew → method ≠ .other → rebinTime sqrt rows (grid t0 dt n) dt dtNew method m = if newBins n dt dtNew = 0 then .error .indexError
      else .ok (newMiddles n t0 dt dtNew, rows.map (rebinned t0 dt dtNew method), ⌊dtNew / dt⌋.toNat * m) := by
      intro hle hm
      obtain ⟨outs, ho, hf, hne'⟩ := mapM_map (fun row => rebinData sqrt (grid t0 dt n) row dtNew none method (.scalar dt)) rows hne
        (fun y o => o.xbin = newMiddles n t0 dt dtNew ∧ o.ybin = rebinned t0 dt dtNew method y ∧
          o.stepSize = List.replicate (newBins n dt dtNew) (dtNew / dt)) (fun y hy => by
            obtain ⟨o, ho⟩ := rebinData_exists sqrt (grid t0 dt n) y dtNew method (.scalar dt) hg (by rw [hold]; simp) (by rw [hold]; simpa using hle) hm
            exact ⟨o, ho, rebinData_grid sqrt t0 dt dtNew hdt hle n y (hrows y hy) method _ (edges_grid t0 dt hdt n hn) o ho⟩)
      unfold rebinTime
      rw [if_neg (not_lt.2 hle)]
      simp only [ho]
      exact assemble_grid t0 dt dtNew n method m rows outs hne' hf
    refine ⟨fun hle hm h => ?_, fun hle hm h => ?_⟩
    · rw [key hle hm, if_pos ((newBins_zero n dt dtNew (lt_of_lt_of_le hdt hle)).2 h)]
    · rw [key hle hm, if_neg (fun hc => absurd ((newBins_zero n dt dtNew (lt_of_lt_of_le hdt hle)).1 hc) (not_lt.2 h))]
      refine ⟨_, rfl, fun k hk => ?_⟩
      rw [hk, mul_div_assoc, div_self hdt.ne', mul_one, Int.floor_natCast, Int.toNat_natCast]

theorem dxOld_grid (x0 dx : K) (n : Nat) (hn : 2 ≤ n) : dxOld (grid x0 dx n) .absent ≠ [] ∧ ∀ d ∈ dxOld (grid x0 dx n) .absent, d = dx := by
  constructor
  · intro h
    have := congrArg List.length h
    simp [dxOld, diff, grid] at this
    omega
  · intro d hd
    obtain ⟨i, hi⟩ := List.mem_iff_getElem?.1 hd
    simp only [dxOld, diff, List.getElem?_zipWith, List.getElem?_tail, grid, List.getElem?_map] at hi
    by_cases h : i + 1 < n
    · rw [List.getElem?_range (by omega), List.getElem?_range h] at hi
      simp only [Option.map_some, Option.some.injEq] at hi
      rw [← hi]; push_cast; ring
    · rw [List.getElem?_eq_none (l := List.range n) (i := i + 1) (by simp; omega)] at hi
      cases hr : (List.range n)[i]? <;> simp [hr] at hi

/-- **C125 (frequencies, partial).** The same for the rebinning in frequency, for two or more evenly spaced frequencies. Missing: the number of averaged spectra (`rebin_m_truncated`). -/
theorem rebin_frequency_partial (sqrt : K → K) (cols : List (List K)) (hne : cols ≠ []) (f0 df dfNew : K) (hdf : 0 < df) (n : Nat) (hn : 2 ≤ n) (hcols : ∀ r ∈ cols, r.length = n)
    (method : Method) (m : Nat) :
    (dfNew < df ∨ method = .other → rebinFrequency sqrt cols (grid f0 df n) dfNew method m = .error .valueError) ∧
    (df ≤ dfNew → method ≠ .other → (n : K) * df < dfNew → rebinFrequency sqrt cols (grid f0 df n) dfNew method m = .error .indexError) ∧
    (df ≤ dfNew → method ≠ .other → dfNew ≤ (n : K) * df → ∃ m', rebinFrequency sqrt cols (grid f0 df n) dfNew method m =
      .ok (newMiddles n f0 df dfNew, cols.map (rebinned f0 df dfNew method), m') ∧
      (∀ k : Nat, dfNew = (k : K) * df → m' = k * m)) := by
  have hg : grid f0 df n ≠ [] := by
    intro h
    have := congrArg List.length h
    simp [grid] at this
    omega
  obtain ⟨hold, hall⟩ := dxOld_grid f0 df n hn
  have hE := edges_grid_absent f0 df hdf n hn
  refine ⟨fun h => ?_, ?_⟩
  · have : ∀ col, rebinData sqrt (grid f0 df n) col dfNew none method .absent = .error .valueError := by
      intro col
      rcases h with h | rfl
      · exact rebin_data_refuses sqrt _ col dfNew none method _ n _ hE 0 (by omega) (by push_cast; linarith)
      · exact rebinData_other sqrt _ _ _ _ hg hold
    unfold rebinFrequency
    obtain ⟨r, rows, rfl⟩ := List.exists_cons_of_ne_nil hne
    rw [List.mapM_cons, this]
    rfl
  · have key : df ≤ dfNew → method ≠ .other → rebinFrequency sqrt cols (grid f0 df n) dfNew method m = if newBins n df dfNew = 0 then .error .indexError
      else .ok (newMiddles n f0 df dfNew, cols.map (rebinned f0 df dfNew method), ⌊dfNew / df⌋.toNat * m) := by
      intro hle hm
      obtain ⟨outs, ho, hf, hne'⟩ := mapM_map (fun col => rebinData sqrt (grid f0 df n) col dfNew none method .absent) cols hne
        (fun y o => o.xbin = newMiddles n f0 df dfNew ∧ o.ybin = rebinned f0 df dfNew method y ∧
          o.stepSize = List.replicate (newBins n df dfNew) (dfNew / df)) (fun y hy => by
            obtain ⟨o, ho⟩ := rebinData_exists sqrt (grid f0 df n) y dfNew method .absent hg hold (fun d hd => (hall d hd).trans_le hle) hm
            exact ⟨o, ho, rebinData_grid sqrt f0 df dfNew hdf hle n y (hcols y hy) method _ hE o ho⟩)
      unfold rebinFrequency
      simp only [ho]
      exact assemble_grid f0 df dfNew n method m cols outs hne' hf
    refine ⟨fun hle hm h => ?_, fun hle hm h => ?_⟩
    · rw [key hle hm, if_pos ((newBins_zero n df dfNew (lt_of_lt_of_le hdf hle)).2 h)]
    · rw [key hle hm, if_neg (fun hc => absurd ((newBins_zero n df dfNew (lt_of_lt_of_le hdf hle)).1 hc) (not_lt.2 h))]
      refine ⟨_, rfl, fun k hk => ?_⟩
      rw [hk, mul_div_assoc, div_self hdf.ne', mul_one, Int.floor_natCast, Int.toNat_natCast]

/-- **C125 (gaps, negation).** With a gap between the GTIs the times are not evenly spaced, and the last segment before the gap is spread over it. Here segments of length 2 around 1, 3, 11 and 13 are rebinned to length 4: the new bins are around 2, 6 and 10, of which
the second is in the gap, where nothing was observed, and still has a power; and the first, made of the first two segments with powers 4 and 8, has mean 24/5 instead of 6. -/
theorem rebin_time_gap : rebinTime (K := ℚ) id [[4, 8, 12, 16]] [1, 3, 11, 13] 2 4 .mean 1 = .ok ([2, 6, 10], [[24/5, 8, 56/5]], 1) := by decide +kernel

/-- **C125 (number of spectra, negation).** When the new resolution is not a multiple of the old one the number of averaged spectra is rounded down: two spectra and a half count as two. -/
theorem rebin_m_truncated : rebinTime (K := ℚ) id [[4, 8, 12, 16, 20]] [1, 3, 5, 7, 9] 2 5 .mean 1 = .ok ([5/2, 15/2], [[36/5, 84/5]], 2) := by decide +kernel

example : grid (1 : ℚ) 2 5 = [1, 3, 5, 7, 9] := by decide +kernel
example : rebinned (1 : ℚ) 2 5 .mean [4, 8, 12, 16, 20] = [36/5, 84/5] := by decide +kernel
example : rebinFrequency (K := ℚ) id [[4, 8, 12, 16, 20]] (grid 1 2 5) 4 .sum 3 = .ok ([2, 6], [[12, 28]], 6) := by decide +kernel

end Stingray.Dynamic

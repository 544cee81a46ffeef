import Verif.Model.Fad
import Verif.Props.FourierCross
import Mathlib.Data.List.GetD
import Mathlib.Algebra.Order.BigOperators.Group.List

/-!
Frequency amplitude difference correction: averages and symmetries (C152), the objects returned and the intervals used (C153).
-/

set_option linter.unusedSectionVars false

namespace Stingray.Fad

open Stingray.Fourier

variable {K : Type} [Field K] [LinearOrder K] [IsStrictOrderedRing K]

/-! ## Specification -/

/-- The pairs of segments where both channels have data. -/
def both : List (Segment K × Segment K) → List (List K × List K)
  | [] => []
  | (.flux f, .flux g) :: l => (f, g) :: both l
  | _ :: l => both l

/-- No segment has errors (a tuple). -/
def Plain (segs : List (Segment K × Segment K)) : Prop :=
  ∀ s ∈ segs, (∀ f e, s.1 ≠ .fluxErr f e) ∧ (∀ f e, s.2 ≠ .fluxErr f e)

/-- The number of positive frequencies below the Nyquist frequency for `n` bins. -/
def nPositive (n : Nat) : Nat := (n + 1) / 2 - 1

/-- The Fourier amplitude of the fluxes at the `k`-th positive frequency. -/
def amp (fft : List K → List (Cx K)) (f : List K) (k : Nat) : Cx K := (fft f).getD (k + 1) 0

/-- The difference of the amplitudes, each in Leahy units. -/
def ampDiff (fft : List K → List (Cx K)) (sqrt : K → K) (f g : List K) (k : Nat) : Cx K :=
  ⟨(amp fft f k).re * sqrt (2 / f.sum) - (amp fft g k).re * sqrt (2 / g.sum),
   (amp fft f k).im * sqrt (2 / f.sum) - (amp fft g k).im * sqrt (2 / g.sum)⟩

/-- The smoothed square of the real part of the difference. -/
def level (fft : List K → List (Cx K)) (sqrt : K → K) (smooth : K → List K → List K) (width : K) (n : Nat)
    (f g : List K) (k : Nat) : K :=
  (smooth width ((List.range (nPositive n)).map fun (j : Nat) => (ampDiff fft sqrt f g j).re ^ 2)).getD k 0

/-- The powers in the normalisation asked for, for `n` bins of `dt` with `nph` photons. -/
def normed (norm : Norm) (dt n nph p : K) : K :=
  match norm with
  | .leahy => p * 2 / nph
  | .frac => p * 2 * dt / ((nph / n) ^ 2 * n)
  | .abs => p * 2 / n / dt
  | _ => p

/-- Both channels have photons in the pair of segments, and the smoothed difference is positive at the frequency. -/
def Defined (fft : List K → List (Cx K)) (sqrt : K → K) (smooth : K → List K → List K) (width : K) (n : Nat) (k : Nat)
    (u : List K × List K) : Prop :=
  u.1.sum ≠ 0 ∧ u.2.sum ≠ 0 ∧ 0 < level fft sqrt smooth width n u.1 u.2 k

/-- The mean of a list. -/
def mean (l : List K) : K := l.sum / l.length

/-! ## Lemmas -/

theorem Cx.ext' {a b : Cx K} (h1 : a.re = b.re) (h2 : a.im = b.im) : a = b := by
  cases a; cases b; simp_all

@[simp] theorem add_re (a b : Cx K) : (a + b).re = a.re + b.re := rfl
@[simp] theorem add_im (a b : Cx K) : (a + b).im = a.im + b.im := rfl
@[simp] theorem mul_re (a b : Cx K) : (a * b).re = a.re * b.re - a.im * b.im := rfl
@[simp] theorem mul_im (a b : Cx K) : (a * b).im = a.re * b.im + a.im * b.re := rfl
@[simp] theorem both_re (f : K → K) (a : Cx K) : (a.both f).re = f a.re := rfl
@[simp] theorem both_im (f : K → K) (a : Cx K) : (a.both f).im = f a.im := rfl
@[simp] theorem conj_re (a : Cx K) : a.conj.re = a.re := rfl
@[simp] theorem conj_im (a : Cx K) : a.conj.im = -a.im := rfl
@[simp] theorem zero_re : (0 : Cx K).re = 0 := rfl
@[simp] theorem zero_im : (0 : Cx K).im = 0 := rfl

theorem sqMod_eq (f : Cx K) : sqMod f = f.re ^ 2 + f.im ^ 2 := by
  simp [sqMod]; ring

/-- Sum of cells, `none` if one is. -/
def sumCells : List (Option (Cell K)) → Option (Cell K)
  | [] => none
  | [c] => c
  | c :: l => Option.map₂ Cell.add c (sumCells l)

theorem add_assoc' (a b c : Cell K) : (a.add b).add c = a.add (b.add c) := by
  have h : ∀ x y z : Cx K, x + y + z = x + (y + z) := fun x y z => Cx.ext' (by simp [add_assoc]) (by simp [add_assoc])
  simp only [Cell.add, add_assoc, h]

theorem map₂_assoc (a b c : Option (Cell K)) :
    Option.map₂ Cell.add (Option.map₂ Cell.add a b) c = Option.map₂ Cell.add a (Option.map₂ Cell.add b c) := by
  cases a <;> cases b <;> cases c <;> simp [Option.map₂, add_assoc']

theorem sumCells_append (l : List (Option (Cell K))) (hl : l ≠ []) (c : Option (Cell K)) :
    sumCells (l ++ [c]) = Option.map₂ Cell.add (sumCells l) c := by
  induction l with
  | nil => exact absurd rfl hl
  | cons a l ih =>
    cases l with
    | nil => rfl
    | cons b l =>
      rw [List.cons_append, List.cons_append]
      show Option.map₂ Cell.add a (sumCells (b :: (l ++ [c]))) = _
      rw [← List.cons_append, ih (by simp)]
      show _ = Option.map₂ Cell.add (Option.map₂ Cell.add a (sumCells (b :: l))) c
      rw [map₂_assoc]

theorem sumCells_none (l : List (Option (Cell K))) (h : none ∈ l) : sumCells l = none := by
  induction l with
  | nil => rfl
  | cons a l ih =>
    cases l with
    | nil => simp at h; exact h.symm
    | cons b l =>
      show Option.map₂ Cell.add a (sumCells (b :: l)) = none
      rcases List.mem_cons.1 h with h | h
      · rw [← h]; rfl
      · rw [ih h]; cases a <;> rfl

/-- additive projections commute with sums -/
theorem sumCells_some (l : List (Cell K)) (hl : l ≠ []) :
    ∃ c, sumCells (l.map some) = some c ∧
      ∀ φ : Cell K → K, (∀ a b, φ (a.add b) = φ a + φ b) → φ c = (l.map φ).sum := by
  induction l with
  | nil => exact absurd rfl hl
  | cons a l ih =>
    cases l with
    | nil => exact ⟨a, rfl, by simp⟩
    | cons b l =>
      obtain ⟨c, hc, hs⟩ := ih (by simp)
      refine ⟨a.add c, ?_, ?_⟩
      · show Option.map₂ Cell.add (some a) (sumCells ((b :: l).map some)) = _
        rw [hc]; rfl
      · intro φ hφ
        rw [hφ, hs φ hφ]; simp

/-- What the loop has done after the pairs `us`. -/
structure Inv (o : Opts K) (w0 : Option K) (row : List K × List K → List (Option (Cell K))) (n : Nat)
    (us : List (List K × List K)) (acc : Acc K) : Prop where
  m : acc.m = us.length
  nph1 : acc.nph1 = (us.map fun u => u.1.sum).sum
  nph2 : acc.nph2 = (us.map fun u => u.2.sum).sum
  nph : acc.nph = (us.map fun u => u.1.sum + u.2.sum).sum
  empty : us = [] → acc.cells = none ∧ acc.width = w0
  some : us ≠ [] → acc.fgt0 = positiveFftBins n false ∧ acc.width = some (w0.getD (n * o.dt * 3)) ∧
    acc.freq = slice (positiveFftBins n false) (fftfreq n o.dt) ∧
    ∃ cells, acc.cells = Option.some cells ∧ cells.length = nPositive n ∧
      ∀ k < nPositive n, cells[k]? = Option.some (sumCells (us.map fun u => ((row u)[k]?).getD none))

theorem slice_length {α : Type} (n : Nat) (l : List α) (h : l.length = n) :
    (slice (positiveFftBins n false) l).length = nPositive n := by
  unfold slice positiveFftBins nPositive
  simp only [Bool.false_eq_true, if_false]
  split_ifs <;> simp <;> omega

theorem slice_getD {α : Type} (n : Nat) (l : List α) (h : l.length = n) (d : α) (k : Nat) (hk : k < nPositive n) :
    (slice (positiveFftBins n false) l).getD k d = l.getD (k + 1) d := by
  unfold nPositive at hk
  unfold slice positiveFftBins
  simp only [Bool.false_eq_true, if_false, List.getD_eq_getElem?_getD]
  split_ifs <;> simp only [List.getElem?_drop] <;> rw [List.getElem?_take_of_lt (by omega), Nat.add_comm]

theorem normalizer_ok (norm : Norm) (hn : norm ≠ .other) (dt n nph : K) :
    normalizer norm dt n (nph / n) nph none 0 = .ok (normed norm dt n nph) := by
  cases norm <;> simp [normalizer, normed, funext_iff] at hn ⊢ <;> rfl

/-- The entry that a pair of segments contributes. -/
def entry (fft : List K → List (Cx K)) (sqrt : K → K) (smooth : K → List K → List K) (o : Opts K) (width : K) (n k : Nat)
    (u : List K × List K) : Option (Cell K) :=
  if u.1.sum = 0 ∨ u.2.sum = 0 then none
  else cell sqrt ⟨normed o.norm o.dt n u.1.sum, normed o.norm o.dt n u.2.sum, normed o.norm o.dt n (u.1.sum + u.2.sum),
      normed o.norm o.dt n (sqrt (u.1.sum * u.2.sum))⟩ (amp fft u.1 k) (amp fft u.2 k)
    (amp fft (List.zipWith (· + ·) u.1 u.2) k) (ampDiff fft sqrt u.1 u.2 k) (level fft sqrt smooth width n u.1 u.2 k)

theorem corrected_ok (fft : List K → List (Cx K)) (hfft : ∀ l, (fft l).length = l.length) (sqrt : K → K)
    (smooth : K → List K → List K) (o : Opts K) (hg : o.gauss = true) (hn : o.norm ≠ .other) (width : K) (n : Nat)
    (f1 f2 : List K) (h1 : f1.length = n) (h2 : f2.length = n) :
    corrected fft sqrt smooth o width (positiveFftBins n false) f1 f2 =
      .ok ((List.range (nPositive n)).map fun (k : Nat) => entry fft sqrt smooth o width n k (f1, f2)) := by
  have ha := slice_length n (fft f1) (by rw [hfft, h1])
  have hb := slice_length n (fft f2) (by rw [hfft, h2])
  have hlt : (List.zipWith (· + ·) f1 f2).length = n := by simp [h1, h2]
  have ga := fun k hk => slice_getD n (fft f1) (by rw [hfft, h1]) 0 k hk
  have gb := fun k hk => slice_getD n (fft f2) (by rw [hfft, h2]) 0 k hk
  have gt := fun k hk => slice_getD n (fft (List.zipWith (· + ·) f1 f2)) (by rw [hfft, hlt]) 0 k hk
  have hd : List.zipWith (difference sqrt f1.sum f2.sum) (slice (positiveFftBins n false) (fft f1))
      (slice (positiveFftBins n false) (fft f2)) =
      (List.range (nPositive n)).map fun (k : Nat) => ampDiff fft sqrt f1 f2 k := by
    apply List.ext_getElem
    · simp [ha, hb]
    · intro k hk hk'
      have hk2 : k < nPositive n := by simpa using hk'
      have e1 := ga k hk2
      have e2 := gb k hk2
      rw [List.getD_eq_getElem _ _ (by omega)] at e1 e2
      rw [List.getElem_zipWith, List.getElem_map, List.getElem_range, e1, e2]
      rfl
  unfold corrected
  simp only [h1, h2, ne_eq, not_true_eq_false, if_false, hg, Bool.true_eq_false, hd, norms, normalizer_ok _ hn, bind,
    Except.bind, ha, List.map_map]
  congr 1
  split_ifs with hz
  · apply List.ext_getElem
    · simp [ha]
    · intro k hk hk'
      simp [entry, hz]
  · apply List.map_congr_left
    intro k hk
    have hk2 : k < nPositive n := by simpa using hk
    have hk3 : ((List.range (nPositive n)).map fun (k : Nat) => ampDiff fft sqrt f1 f2 k).getD k 0 = ampDiff fft sqrt f1 f2 k := by
      rw [List.getD_eq_getElem _ _ (by simpa using hk2)]; simp
    simp only [entry, hz, if_false, ga k hk2, gb k hk2, gt k hk2, hk3]
    rfl

theorem step_skip (fft : List K → List (Cx K)) (sqrt : K → K) (smooth : K → List K → List K) (o : Opts K) (acc : Acc K)
    (s : Segment K × Segment K) (hp : Plain [s]) (hb : both [s] = []) : step fft sqrt smooth o acc s = .ok acc := by
  obtain ⟨a, b⟩ := s
  have := hp (a, b) (by simp)
  cases a with
  | missing => rfl
  | fluxErr f e => exact absurd rfl (this.1 f e)
  | flux f =>
    cases b with
    | missing => rfl
    | fluxErr g e => exact absurd rfl (this.2 g e)
    | flux g => simp [both] at hb

theorem both_cons (s : Segment K × Segment K) (l : List (Segment K × Segment K)) : both (s :: l) = both [s] ++ both l := by
  obtain ⟨a, b⟩ := s
  cases a <;> cases b <;> rfl

theorem inv_step (fft : List K → List (Cx K)) (hfft : ∀ l, (fft l).length = l.length) (sqrt : K → K)
    (smooth : K → List K → List K) (o : Opts K) (hg : o.gauss = true) (hn : o.norm ≠ .other) (w0 : Option K) (n : Nat)
    (us : List (List K × List K)) (acc : Acc K) (f g : List K) (h1 : f.length = n) (h2 : g.length = n)
    (h : Inv o w0 (fun u => (List.range (nPositive n)).map fun (k : Nat) =>
      entry fft sqrt smooth o (w0.getD (n * o.dt * 3)) n k u) n us acc) :
    ∃ acc', step fft sqrt smooth o acc (.flux f, .flux g) = .ok acc' ∧
      Inv o w0 (fun u => (List.range (nPositive n)).map fun (k : Nat) =>
        entry fft sqrt smooth o (w0.getD (n * o.dt * 3)) n k u) n (us ++ [(f, g)]) acc' := by
  have hfg : accFgt0 acc f.length = positiveFftBins n false := by
    unfold accFgt0
    by_cases hu : us = []
    · rw [(h.empty hu).1, h1]; rfl
    · obtain ⟨hf, -, -, c, hc, -⟩ := h.some hu
      rw [hc]; exact hf
  have hw : accWidth acc o.dt f.length = w0.getD (n * o.dt * 3) := by
    unfold accWidth
    by_cases hu : us = []
    · rw [(h.empty hu).2, h1]
    · rw [(h.some hu).2.1, h1]; rfl
  have hrow := corrected_ok fft hfft sqrt smooth o hg hn (w0.getD (n * o.dt * 3)) n f g h1 h2
  have hne : us ++ [(f, g)] ≠ [] := by simp
  by_cases hu : us = []
  · have hc := (h.empty hu).1
    refine ⟨_, by simp only [step, hfg, hw, hrow, bind, Except.bind, accumulate, hc]; rfl, ?_⟩
    subst hu
    refine ⟨by simp [h.m], by simp [h.nph1], by simp [h.nph2], by simp [h.nph], fun e => absurd e hne, fun _ => ?_⟩
    refine ⟨rfl, rfl, by simp [h1], _, rfl, by simp, ?_⟩
    intro k hk
    simp [sumCells, hk]
  · obtain ⟨hf, hwd, hfr, cells, hc, hl, hk'⟩ := h.some hu
    refine ⟨_, by simp only [step, hfg, hw, hrow, bind, Except.bind, accumulate, hc, hl, List.length_map, List.length_range, if_true]; rfl, ?_⟩
    refine ⟨by simp [h.m], by simp [h.nph1], by simp [h.nph2], by simp [h.nph], fun e => absurd e hne, fun _ => ?_⟩
    refine ⟨rfl, rfl, by simp [hfr], _, rfl, by simp [hl], ?_⟩
    intro k hk
    rw [List.getElem?_zipWith, hk' k hk, List.map_append, List.map_singleton, sumCells_append _ (by simp [hu])]
    simp [hk]

theorem inv_fold (fft : List K → List (Cx K)) (hfft : ∀ l, (fft l).length = l.length) (sqrt : K → K)
    (smooth : K → List K → List K) (o : Opts K) (hg : o.gauss = true) (hn : o.norm ≠ .other) (w0 : Option K) (n : Nat)
    (segs : List (Segment K × Segment K)) (hp : Plain segs) (hlen : ∀ u ∈ both segs, u.1.length = n ∧ u.2.length = n)
    (us : List (List K × List K)) (acc : Acc K)
    (h : Inv o w0 (fun u => (List.range (nPositive n)).map fun (k : Nat) =>
      entry fft sqrt smooth o (w0.getD (n * o.dt * 3)) n k u) n us acc) :
    ∃ acc', segs.foldlM (step fft sqrt smooth o) acc = .ok acc' ∧
      Inv o w0 (fun u => (List.range (nPositive n)).map fun (k : Nat) =>
        entry fft sqrt smooth o (w0.getD (n * o.dt * 3)) n k u) n (us ++ both segs) acc' := by
  induction segs generalizing us acc with
  | nil => exact ⟨acc, rfl, by simpa [both] using h⟩
  | cons s l ih =>
    have hp1 : Plain [s] := fun x hx => hp x (by simp at hx; simp [hx])
    have hpl : Plain l := fun x hx => hp x (by simp [hx])
    rw [both_cons] at hlen ⊢
    have hll : ∀ u ∈ both l, u.1.length = n ∧ u.2.length = n := fun u hu => hlen u (by simp [hu])
    by_cases hb : both [s] = []
    · obtain ⟨acc', he, hi⟩ := ih hpl hll us acc h
      refine ⟨acc', ?_, by rw [hb]; exact hi⟩
      rw [List.foldlM_cons, step_skip fft sqrt smooth o acc s hp1 hb]
      exact he
    · obtain ⟨a, b⟩ := s
      cases a with
      | missing => exact absurd rfl hb
      | fluxErr => exact absurd rfl hb
      | flux f =>
        cases b with
        | missing => exact absurd rfl hb
        | fluxErr => exact absurd rfl hb
        | flux g =>
          have hl2 := hlen (f, g) (by simp [both])
          obtain ⟨acc1, he1, hi1⟩ := inv_step fft hfft sqrt smooth o hg hn w0 n us acc f g hl2.1 hl2.2 h
          obtain ⟨acc', he, hi⟩ := ih hpl hll _ acc1 hi1
          refine ⟨acc', ?_, by simpa [both] using hi⟩
          rw [List.foldlM_cons, he1]
          exact he

theorem inv_init (o : Opts K) (w0 : Option K) (row : List K × List K → List (Option (Cell K))) (n : Nat) :
    Inv o w0 row n [] { cells := none, freq := [], fgt0 := (0, 0), width := w0, m := 0, nph1 := 0, nph2 := 0, nph := 0 } :=
  ⟨rfl, by simp, by simp, by simp, fun _ => ⟨rfl, rfl⟩, fun h => absurd rfl h⟩

/-- The finite entry of a pair of segments. -/
def val (fft : List K → List (Cx K)) (sqrt : K → K) (smooth : K → List K → List K) (o : Opts K) (width : K) (n k : Nat)
    (u : List K × List K) : Cell K :=
  let s := level fft sqrt smooth width n u.1 u.2 k
  let p1 := sqMod (amp fft u.1 k) / s * 2
  let p2 := sqMod (amp fft u.2 k) / s * 2
  let pt := sqMod (amp fft (List.zipWith (· + ·) u.1 u.2) k) / s * 2
  let c := (amp fft u.2 k * (amp fft u.1 k).conj).both (fun x => x / s * 2)
  { pds1U := p1, pds2U := p2, ptotU := pt, csU := c, pds1 := normed o.norm o.dt n u.1.sum p1,
    pds2 := normed o.norm o.dt n u.2.sum p2, ptot := normed o.norm o.dt n (u.1.sum + u.2.sum) pt,
    cs := c.both (normed o.norm o.dt n (sqrt (u.1.sum * u.2.sum))),
    fad := (ampDiff fft sqrt u.1 u.2 k).both (fun x => x / sqrt s * sqrt 2) }

theorem entry_some (fft : List K → List (Cx K)) (sqrt : K → K) (smooth : K → List K → List K) (o : Opts K) (width : K)
    (n k : Nat) (u : List K × List K) (h : Defined fft sqrt smooth width n k u) :
    entry fft sqrt smooth o width n k u = some (val fft sqrt smooth o width n k u) := by
  unfold entry cell
  rw [if_neg (by simp [h.1, h.2.1]), if_pos h.2.2]
  rfl

theorem entry_none (fft : List K → List (Cx K)) (sqrt : K → K) (smooth : K → List K → List K) (o : Opts K) (width : K)
    (n k : Nat) (u : List K × List K) (h : ¬ Defined fft sqrt smooth width n k u) :
    entry fft sqrt smooth o width n k u = none := by
  unfold entry cell
  split_ifs with h1 h2
  · rfl
  · exact absurd ⟨fun e => h1 (Or.inl e), fun e => h1 (Or.inr e), h2⟩ h
  · rfl

/-- The loop on plain segments of equal length, and what is left to do. -/
theorem fad_eq (fft : List K → List (Cx K)) (hfft : ∀ l, (fft l).length = l.length) (sqrt : K → K)
    (smooth : K → List K → List K) (o : Opts K) (hg : o.gauss = true) (hn : o.norm ≠ .other) (width : Option K) (n : Nat)
    (segs : List (Segment K × Segment K)) (hp : Plain segs) (hlen : ∀ u ∈ both segs, u.1.length = n ∧ u.2.length = n)
    (hne : both segs ≠ []) :
    ∃ cells : List (Option (Cell K)), cells.length = nPositive n ∧
      (∀ k < nPositive n, cells[k]? = some ((sumCells ((both segs).map
        (entry fft sqrt smooth o (width.getD (n * o.dt * 3)) n k))).map (Cell.over ((both segs).length : K)))) ∧
      fad fft sqrt smooth o width segs =
        if o.strict && !compliant sqrt o.tolerance (both segs).length (cells.map (Option.map Cell.fad))
        then .error .runtimeError
        else .ok { freq := slice (positiveFftBins n false) (fftfreq n o.dt), cells := cells,
                   compliant := compliant sqrt o.tolerance (both segs).length (cells.map (Option.map Cell.fad)),
                   m := (both segs).length, nph1 := mean ((both segs).map fun u => u.1.sum),
                   nph2 := mean ((both segs).map fun u => u.2.sum),
                   nph := mean ((both segs).map fun u => u.1.sum + u.2.sum),
                   width := some (width.getD (n * o.dt * 3)) } := by
  obtain ⟨acc, he, hi⟩ := inv_fold fft hfft sqrt smooth o hg hn width n segs hp hlen [] _ (inv_init o width _ n)
  rw [List.nil_append] at hi
  obtain ⟨hf, hw, hfr, cells, hc, hl, hk⟩ := hi.some hne
  refine ⟨cells.map (Option.map (Cell.over ((both segs).length : K))), by simp [hl], ?_, ?_⟩
  · intro k hk'
    rw [List.getElem?_map, hk k hk']
    simp [hk']
  · unfold fad
    rw [he]
    simp only [bind, Except.bind, hc, hi.m, hi.nph1, hi.nph2, hi.nph, hw, hfr, mean, List.length_map]

/-! ## Properties -/

/-- **C152.** `FAD` gives at each positive frequency `(k + 1) / (n dt)` the mean, over the pairs of segments where both channels have data, of the powers, of the cross powers (`F2` times the conjugate of `F1`) and of the amplitude differences, each divided by the smoothed squared difference of that pair;
the powers of each pair are normalised with the photons of that pair. The numbers of pairs and photons are those of the pairs used. Where one pair has an empty channel, or no positive smoothed difference, nothing is defined. The only possible failure is that of `strict`. -/
theorem fad_mean (fft : List K → List (Cx K)) (hfft : ∀ l, (fft l).length = l.length) (sqrt : K → K)
    (smooth : K → List K → List K) (o : Opts K) (hg : o.gauss = true) (hn : o.norm ≠ .other) (width : Option K) (n : Nat) (hn0 : 0 < n)
    (segs : List (Segment K × Segment K)) (hp : Plain segs) (hlen : ∀ u ∈ both segs, u.1.length = n ∧ u.2.length = n)
    (hne : both segs ≠ []) :
    (fad fft sqrt smooth o width segs = .error .runtimeError ∧ o.strict = true) ∨
    ∃ r, fad fft sqrt smooth o width segs = .ok r ∧ r.m = (both segs).length ∧
      r.nph1 = mean ((both segs).map fun u => u.1.sum) ∧ r.nph2 = mean ((both segs).map fun u => u.2.sum) ∧
      r.nph = mean ((both segs).map fun u => u.1.sum + u.2.sum) ∧
      r.width = some (width.getD (n * o.dt * 3)) ∧
      r.freq.length = nPositive n ∧ r.cells.length = nPositive n ∧
      ∀ k < nPositive n,
        r.freq.getD k 0 = ((k : K) + 1) * (1 / (n * o.dt)) ∧
        ((∃ u ∈ both segs, ¬ Defined fft sqrt smooth (width.getD (n * o.dt * 3)) n k u) → r.cells[k]? = some none) ∧
        ((∀ u ∈ both segs, Defined fft sqrt smooth (width.getD (n * o.dt * 3)) n k u) →
          ∃ c, r.cells[k]? = some (some c) ∧
            let S := fun u : List K × List K => level fft sqrt smooth (width.getD (n * o.dt * 3)) n u.1 u.2 k
            let F1 := fun u : List K × List K => amp fft u.1 k
            let F2 := fun u : List K × List K => amp fft u.2 k
            let F := fun u : List K × List K => amp fft (List.zipWith (· + ·) u.1 u.2) k
            let N1 := fun u : List K × List K => u.1.sum
            let N2 := fun u : List K × List K => u.2.sum
            let D := fun u : List K × List K => ampDiff fft sqrt u.1 u.2 k
            c.pds1U = mean ((both segs).map fun u => 2 * ((F1 u).re ^ 2 + (F1 u).im ^ 2) / S u) ∧
            c.pds2U = mean ((both segs).map fun u => 2 * ((F2 u).re ^ 2 + (F2 u).im ^ 2) / S u) ∧
            c.ptotU = mean ((both segs).map fun u => 2 * ((F u).re ^ 2 + (F u).im ^ 2) / S u) ∧
            c.csU.re = mean ((both segs).map fun u => 2 * ((F1 u).re * (F2 u).re + (F1 u).im * (F2 u).im) / S u) ∧
            c.csU.im = mean ((both segs).map fun u => 2 * ((F1 u).re * (F2 u).im - (F1 u).im * (F2 u).re) / S u) ∧
            c.pds1 = mean ((both segs).map fun u => normed o.norm o.dt n (N1 u) (2 * ((F1 u).re ^ 2 + (F1 u).im ^ 2) / S u)) ∧
            c.pds2 = mean ((both segs).map fun u => normed o.norm o.dt n (N2 u) (2 * ((F2 u).re ^ 2 + (F2 u).im ^ 2) / S u)) ∧
            c.ptot = mean ((both segs).map fun u =>
              normed o.norm o.dt n (N1 u + N2 u) (2 * ((F u).re ^ 2 + (F u).im ^ 2) / S u)) ∧
            c.cs.re = mean ((both segs).map fun u => normed o.norm o.dt n (sqrt (N1 u * N2 u))
              (2 * ((F1 u).re * (F2 u).re + (F1 u).im * (F2 u).im) / S u)) ∧
            c.cs.im = mean ((both segs).map fun u => normed o.norm o.dt n (sqrt (N1 u * N2 u))
              (2 * ((F1 u).re * (F2 u).im - (F1 u).im * (F2 u).re) / S u)) ∧
            c.fad.re = mean ((both segs).map fun u => (D u).re / sqrt (S u) * sqrt 2) ∧
            c.fad.im = mean ((both segs).map fun u => (D u).im / sqrt (S u) * sqrt 2)) := by
  obtain ⟨cells, hl, hk, he⟩ := fad_eq fft hfft sqrt smooth o hg hn width n segs hp hlen hne
  by_cases hs : (o.strict && !compliant sqrt o.tolerance (both segs).length (cells.map (Option.map Cell.fad))) = true
  · left
    rw [he, if_pos hs]
    simp at hs
    exact ⟨rfl, hs.1⟩
  · right
    rw [if_neg hs] at he
    have hff : (fftfreq n o.dt).length = n := by
      unfold fftfreq; simp; omega
    refine ⟨_, he, rfl, rfl, rfl, rfl, rfl, slice_length n _ hff, hl, ?_⟩
    intro k hkn
    refine ⟨?_, ?_, ?_⟩
    · show (slice (positiveFftBins n false) (fftfreq n o.dt)).getD k 0 = _
      rw [slice_getD n _ hff _ k hkn]
      have hk1 : k + 1 < (n - 1) / 2 + 1 := by unfold nPositive at hkn; omega
      unfold fftfreq
      rw [List.getD_eq_getElem?_getD, List.getElem?_append_left (by simpa using hk1)]
      simp [hk1]
    · rintro ⟨u, hu, hd⟩
      show cells[k]? = some none
      rw [hk k hkn, sumCells_none _ (List.mem_map.2 ⟨u, hu, entry_none fft sqrt smooth o _ n k u hd⟩)]
      rfl
    · intro hd
      have hm : (both segs).map (entry fft sqrt smooth o (width.getD (n * o.dt * 3)) n k) =
          ((both segs).map (val fft sqrt smooth o (width.getD (n * o.dt * 3)) n k)).map some := by
        rw [List.map_map]
        exact List.map_congr_left fun u hu => entry_some fft sqrt smooth o _ n k u (hd u hu)
      obtain ⟨c, hc, hφ⟩ := sumCells_some ((both segs).map (val fft sqrt smooth o (width.getD (n * o.dt * 3)) n k))
        (by simpa using hne)
      refine ⟨c.over ((both segs).length : K), ?_, ?_⟩
      · show cells[k]? = _
        rw [hk k hkn, hm, hc]; rfl
      · have key : ∀ (φ : Cell K → K) (g : List K × List K → K), (∀ a b, φ (a.add b) = φ a + φ b) →
            (∀ u, φ (val fft sqrt smooth o (width.getD (n * o.dt * 3)) n k u) = g u) →
            φ c / ((both segs).length : K) = mean ((both segs).map g) := by
          intro φ g h1 h2
          rw [hφ φ h1, List.map_map, mean, List.length_map]
          congr 3
          exact funext h2
        have hp1 : ∀ x y : K, x / y * 2 = 2 * x / y := fun x y => by ring
        refine ⟨key Cell.pds1U _ (fun _ _ => rfl) ?_, key Cell.pds2U _ (fun _ _ => rfl) ?_, key Cell.ptotU _ (fun _ _ => rfl) ?_,
          key (fun c => c.csU.re) _ (fun _ _ => rfl) ?_, key (fun c => c.csU.im) _ (fun _ _ => rfl) ?_,
          key Cell.pds1 _ (fun _ _ => rfl) ?_, key Cell.pds2 _ (fun _ _ => rfl) ?_, key Cell.ptot _ (fun _ _ => rfl) ?_,
          key (fun c => c.cs.re) _ (fun _ _ => rfl) ?_, key (fun c => c.cs.im) _ (fun _ _ => rfl) ?_,
          key (fun c => c.fad.re) _ (fun _ _ => rfl) ?_, key (fun c => c.fad.im) _ (fun _ _ => rfl) ?_⟩
        all_goals intro u
        all_goals simp only [val, sqMod_eq, hp1, both_re, both_im, mul_re, mul_im, conj_re, conj_im]
        all_goals ring_nf

/-! ### Exchange of the channels -/

/-- A pair of channels exchanged. -/
def swapSegs (segs : List (Segment K × Segment K)) : List (Segment K × Segment K) := segs.map Prod.swap

/-- The entries with the channels exchanged: powers exchanged, cross powers conjugated, differences with opposite sign. -/
def Cell.swap (c : Cell K) : Cell K where
  pds1U := c.pds2U
  pds2U := c.pds1U
  ptotU := c.ptotU
  csU := c.csU.conj
  pds1 := c.pds2
  pds2 := c.pds1
  ptot := c.ptot
  cs := c.cs.conj
  fad := ⟨-c.fad.re, -c.fad.im⟩

/-- The table with the channels exchanged. -/
def Result.swap (r : Result K) : Result K :=
  { r with cells := r.cells.map (Option.map Cell.swap), nph1 := r.nph2, nph2 := r.nph1 }

theorem both_swap (segs : List (Segment K × Segment K)) : both (swapSegs segs) = (both segs).map Prod.swap := by
  induction segs with
  | nil => rfl
  | cons s l ih =>
    unfold swapSegs at ih ⊢
    rw [List.map_cons, both_cons, both_cons s, ih, List.map_append]
    obtain ⟨a, b⟩ := s
    cases a <;> cases b <;> rfl

theorem ampDiff_swap (fft : List K → List (Cx K)) (sqrt : K → K) (f g : List K) (k : Nat) :
    ampDiff fft sqrt g f k = ⟨-(ampDiff fft sqrt f g k).re, -(ampDiff fft sqrt f g k).im⟩ := by
  simp [ampDiff]

theorem level_swap (fft : List K → List (Cx K)) (sqrt : K → K) (smooth : K → List K → List K) (width : K) (n : Nat)
    (f g : List K) (k : Nat) : level fft sqrt smooth width n g f k = level fft sqrt smooth width n f g k := by
  unfold level
  congr 3
  funext j
  rw [ampDiff_swap]
  exact neg_sq _

theorem normed_neg (norm : Norm) (dt n nph p : K) : normed norm dt n nph (-p) = -normed norm dt n nph p := by
  unfold normed
  cases norm <;> simp <;> ring

theorem entry_swap (fft : List K → List (Cx K)) (sqrt : K → K) (smooth : K → List K → List K) (o : Opts K) (width : K)
    (n k : Nat) (u : List K × List K) :
    entry fft sqrt smooth o width n k u.swap = (entry fft sqrt smooth o width n k u).map Cell.swap := by
  obtain ⟨f, g⟩ := u
  have hz : List.zipWith (· + ·) g f = List.zipWith (· + ·) f g := by
    rw [List.zipWith_comm]
    congr 1
    funext a b
    exact add_comm _ _
  unfold entry cell
  simp only [Prod.swap, level_swap fft sqrt smooth width n f g, ampDiff_swap fft sqrt f g, hz, mul_comm g.sum f.sum,
    add_comm g.sum f.sum, or_comm (a := g.sum = 0)]
  split_ifs
  · rfl
  · simp only [Option.map_some, Cell.swap, Option.some.injEq, Cell.mk.injEq, true_and, and_true]
    refine ⟨Cx.ext' ?_ ?_, Cx.ext' ?_ ?_, Cx.ext' ?_ ?_⟩ <;>
      simp only [both_re, both_im, mul_re, mul_im, conj_re, conj_im]
    · ring
    · ring
    · congr 1; ring
    · rw [← normed_neg]; congr 1; ring
    · ring
    · ring
  · rfl

theorem swap_add (a b : Cell K) : (a.add b).swap = a.swap.add b.swap := by
  simp only [Cell.swap, Cell.add, Cell.mk.injEq, true_and]
  refine ⟨Cx.ext' rfl ?_, Cx.ext' rfl ?_, Cx.ext' ?_ ?_⟩ <;> simp <;> ring

theorem sumCells_swap (l : List (Option (Cell K))) :
    sumCells (l.map (Option.map Cell.swap)) = (sumCells l).map Cell.swap := by
  induction l with
  | nil => rfl
  | cons a l ih =>
    cases l with
    | nil => rfl
    | cons b l =>
      show Option.map₂ Cell.add (a.map Cell.swap) (sumCells ((b :: l).map (Option.map Cell.swap))) =
        (Option.map₂ Cell.add a (sumCells (b :: l))).map Cell.swap
      rw [ih]
      cases a <;> cases sumCells (b :: l) <;> simp [Option.map₂, swap_add]

theorem over_swap (m : K) (a : Cell K) : (a.over m).swap = a.swap.over m := by
  simp only [Cell.swap, Cell.over, Cell.mk.injEq, true_and]
  refine ⟨Cx.ext' rfl ?_, Cx.ext' rfl ?_, Cx.ext' ?_ ?_⟩ <;> simp <;> ring

theorem std_neg (sqrt : K → K) (l : List (Option (Cx K))) :
    std sqrt (l.map (Option.map fun z => ⟨-z.re, -z.im⟩)) = std sqrt l := by
  unfold std
  have h1 : (l.map (Option.map fun z : Cx K => (⟨-z.re, -z.im⟩ : Cx K))).any Option.isNone = l.any Option.isNone := by
    rw [List.any_map]
    congr 1
    funext z
    cases z <;> rfl
  have h2 : (l.map (Option.map fun z : Cx K => (⟨-z.re, -z.im⟩ : Cx K))).isEmpty = l.isEmpty := by simp
  have h3 : (l.map (Option.map fun z : Cx K => (⟨-z.re, -z.im⟩ : Cx K))).filterMap id =
      (l.filterMap id).map fun z => ⟨-z.re, -z.im⟩ := by
    clear h1 h2
    induction l with
    | nil => rfl
    | cons z l ih => cases z <;> simp_all
  rw [h1, h2, h3]
  have hneg : ∀ v : List (Cx K), ∀ φ : Cx K → K, (v.map fun x => -φ x).sum = -(v.map φ).sum := by
    intro v φ
    induction v with
    | nil => simp
    | cons a v ih => simp [ih]; ring
  split_ifs
  · rfl
  · simp only [List.map_map, List.length_map]
    congr 4
    apply List.map_congr_left
    intro x _
    have e1 := hneg (l.filterMap id) (fun x => x.re)
    have e2 := hneg (l.filterMap id) (fun x => x.im)
    simp only [Function.comp_def]
    rw [e1, e2]
    ring

/-- **C152 (exchange).** `FAD` of the two channels exchanged gives the same result with the powers (and photons) exchanged, the cross powers conjugated, the amplitude differences with the opposite sign; the powers of the sum, the compliance, and success or failure are the same. -/
theorem fad_exchange (fft : List K → List (Cx K)) (hfft : ∀ l, (fft l).length = l.length) (sqrt : K → K)
    (smooth : K → List K → List K) (o : Opts K) (hg : o.gauss = true) (hn : o.norm ≠ .other) (width : Option K) (n : Nat)
    (segs : List (Segment K × Segment K)) (hp : Plain segs) (hlen : ∀ u ∈ both segs, u.1.length = n ∧ u.2.length = n)
    (hne : both segs ≠ []) :
    fad fft sqrt smooth o width (swapSegs segs) = (fad fft sqrt smooth o width segs).map Result.swap := by
  have hp' : Plain (swapSegs segs) := by
    intro s hs
    obtain ⟨t, ht, rfl⟩ := List.mem_map.1 hs
    exact ⟨(hp t ht).2, (hp t ht).1⟩
  have hlen' : ∀ u ∈ both (swapSegs segs), u.1.length = n ∧ u.2.length = n := by
    intro u hu
    rw [both_swap] at hu
    obtain ⟨t, ht, rfl⟩ := List.mem_map.1 hu
    exact ⟨(hlen t ht).2, (hlen t ht).1⟩
  have hne' : both (swapSegs segs) ≠ [] := by rw [both_swap]; simpa using hne
  obtain ⟨c, hl, hk, he⟩ := fad_eq fft hfft sqrt smooth o hg hn width n segs hp hlen hne
  obtain ⟨c', hl', hk', he'⟩ := fad_eq fft hfft sqrt smooth o hg hn width n _ hp' hlen' hne'
  have hc : c' = c.map (Option.map Cell.swap) := by
    apply List.ext_getElem?
    intro k
    by_cases hkn : k < nPositive n
    · rw [hk' k hkn, List.getElem?_map, hk k hkn, both_swap, List.map_map, List.length_map]
      have e : (entry fft sqrt smooth o (width.getD (n * o.dt * 3)) n k) ∘ Prod.swap =
          (Option.map Cell.swap) ∘ (entry fft sqrt smooth o (width.getD (n * o.dt * 3)) n k) := by
        funext u; exact entry_swap fft sqrt smooth o _ n k u
      rw [e, ← List.map_map, sumCells_swap]
      simp only [Option.map_map, Option.map_some]
      congr 2
      funext x
      exact (over_swap _ x).symm
    · rw [List.getElem?_eq_none (by omega), List.getElem?_eq_none (by simp; omega)]
  have hcomp : compliant sqrt o.tolerance (both (swapSegs segs)).length (c'.map (Option.map Cell.fad)) =
      compliant sqrt o.tolerance (both segs).length (c.map (Option.map Cell.fad)) := by
    unfold compliant
    have e : c'.map (Option.map Cell.fad) =
        (c.map (Option.map Cell.fad)).map (Option.map fun z : Cx K => (⟨-z.re, -z.im⟩ : Cx K)) := by
      rw [hc, List.map_map, List.map_map]
      apply List.map_congr_left
      intro x _
      cases x <;> rfl
    rw [e, std_neg, both_swap, List.length_map]
  rw [he, he', hcomp]
  split_ifs
  · rfl
  · simp only [Except.map, Result.swap, both_swap, List.map_map, List.length_map, hc, Function.comp_def, Prod.fst_swap,
      Prod.snd_swap]
    congr 4
    funext u
    exact add_comm _ _

/-! ### Relations between the spectra -/

theorem mean_eq3 {σ : Type} (l : List σ) (a b c d : σ → K) (h : ∀ u ∈ l, a u = b u + c u + 2 * d u) :
    mean (l.map a) = mean (l.map b) + mean (l.map c) + 2 * mean (l.map d) := by
  have : (l.map a).sum = (l.map b).sum + (l.map c).sum + 2 * (l.map d).sum := by
    induction l with
    | nil => simp
    | cons x l ih =>
      simp only [List.map_cons, List.sum_cons]
      rw [ih (fun u hu => h u (by simp [hu])), h x (by simp)]
      ring
  simp only [mean, List.length_map, this]
  ring

/-- **C152 (sum of the channels).** For a linear transform, the corrected power of the sum of the channels is the sum of the corrected powers and twice the real part of the corrected cross power (all unnormalised): the same correction is applied to all. -/
theorem fad_total (fft : List K → List (Cx K)) (hfft : ∀ l, (fft l).length = l.length)
    (hadd : ∀ f g : List K, f.length = g.length → fft (List.zipWith (· + ·) f g) = List.zipWith (· + ·) (fft f) (fft g))
    (sqrt : K → K) (smooth : K → List K → List K) (o : Opts K) (hg : o.gauss = true) (hn : o.norm ≠ .other)
    (width : Option K) (n : Nat) (hn0 : 0 < n)
    (segs : List (Segment K × Segment K)) (hp : Plain segs) (hlen : ∀ u ∈ both segs, u.1.length = n ∧ u.2.length = n)
    (hne : both segs ≠ []) (r : Result K) (hr : fad fft sqrt smooth o width segs = .ok r) :
    ∀ c, some c ∈ r.cells → c.ptotU = c.pds1U + c.pds2U + 2 * c.csU.re := by
  rcases fad_mean fft hfft sqrt smooth o hg hn width n hn0 segs hp hlen hne with ⟨h, -⟩ | ⟨r', h, -, -, -, -, -, -, hl, hk⟩
  · rw [hr] at h; cases h
  · rw [hr] at h; cases h
    intro c hc
    obtain ⟨k, hkl, hck⟩ := List.getElem_of_mem hc
    have hkn : k < nPositive n := by omega
    obtain ⟨-, h0, h1⟩ := hk k hkn
    have hget : r.cells[k]? = some (some c) := by rw [List.getElem?_eq_getElem hkl, hck]
    by_cases hd : ∃ u ∈ both segs, ¬ Defined fft sqrt smooth (width.getD (n * o.dt * 3)) n k u
    · rw [h0 hd] at hget; simp at hget
    · push Not at hd
      obtain ⟨c', hc', e1, e2, e3, e4, -⟩ := h1 hd
      rw [hget] at hc'
      cases hc'
      rw [e1, e2, e3, e4]
      apply mean_eq3
      intro u hu
      have hz : amp fft (List.zipWith (· + ·) u.1 u.2) k = amp fft u.1 k + amp fft u.2 k := by
        have hu' := hlen u hu
        unfold amp
        rw [hadd u.1 u.2 (by omega)]
        have hk1 : k + 1 < n := by unfold nPositive at hkn; omega
        rw [List.getD_eq_getElem _ _ (by simp [hfft]; omega), List.getElem_zipWith,
          List.getD_eq_getElem _ _ (by rw [hfft]; omega), List.getD_eq_getElem _ _ (by rw [hfft]; omega)]
      simp only [hz, add_re, add_im]
      ring

/-- **C152 (coherence).** The corrected powers are not negative, and the squared modulus of the corrected cross power is at most the product of the corrected powers (unnormalised): the coherence of corrected spectra is at most 1. -/
theorem fad_coherence (fft : List K → List (Cx K)) (hfft : ∀ l, (fft l).length = l.length)
    (sqrt : K → K) (smooth : K → List K → List K) (o : Opts K) (hg : o.gauss = true) (hn : o.norm ≠ .other)
    (width : Option K) (n : Nat) (hn0 : 0 < n)
    (segs : List (Segment K × Segment K)) (hp : Plain segs) (hlen : ∀ u ∈ both segs, u.1.length = n ∧ u.2.length = n)
    (hne : both segs ≠ []) (r : Result K) (hr : fad fft sqrt smooth o width segs = .ok r) :
    ∀ c, some c ∈ r.cells → 0 ≤ c.pds1U ∧ 0 ≤ c.pds2U ∧ 0 ≤ c.ptotU ∧
      c.csU.re ^ 2 + c.csU.im ^ 2 ≤ c.pds1U * c.pds2U := by
  rcases fad_mean fft hfft sqrt smooth o hg hn width n hn0 segs hp hlen hne with ⟨h, -⟩ | ⟨r', h, -, -, -, -, -, -, hl, hk⟩
  · rw [hr] at h; cases h
  · rw [hr] at h; cases h
    intro c hc
    obtain ⟨k, hkl, hck⟩ := List.getElem_of_mem hc
    have hkn : k < nPositive n := by omega
    obtain ⟨-, h0, h1⟩ := hk k hkn
    have hget : r.cells[k]? = some (some c) := by rw [List.getElem?_eq_getElem hkl, hck]
    by_cases hd : ∃ u ∈ both segs, ¬ Defined fft sqrt smooth (width.getD (n * o.dt * 3)) n k u
    · rw [h0 hd] at hget; simp at hget
    · push Not at hd
      obtain ⟨c', hc', e1, e2, e3, e4, e5, -⟩ := h1 hd
      rw [hget] at hc'
      cases hc'
      have hcs := cauchy_schwarz_pairs ((both segs).map fun u =>
        let S := level fft sqrt smooth (width.getD (n * o.dt * 3)) n u.1 u.2 k
        let A := amp fft u.1 k
        let B := amp fft u.2 k
        ((⟨2 * (A.re * B.re + A.im * B.im) / S, 2 * (A.re * B.im - A.im * B.re) / S⟩ : Cx K),
          2 * (A.re ^ 2 + A.im ^ 2) / S, 2 * (B.re ^ 2 + B.im ^ 2) / S)) (by
        intro x hx
        obtain ⟨u, hu, rfl⟩ := List.mem_map.1 hx
        have hS := (hd u hu).2.2
        refine ⟨by simp only; positivity, by simp only; positivity, ?_⟩
        simp only
        ring)
      simp only [List.map_map, Function.comp_def] at hcs
      have hL : (0 : K) ≤ ((both segs).length : K) := Nat.cast_nonneg _
      simp only at e1 e2 e3 e4 e5
      rw [e1, e2, e3, e4, e5]
      simp only [mean, List.length_map]
      refine ⟨div_nonneg hcs.1 hL, div_nonneg hcs.2.1 hL, div_nonneg (List.sum_nonneg ?_) hL, ?_⟩
      · intro x hx
        obtain ⟨u, hu, rfl⟩ := List.mem_map.1 hx
        have hS := (hd u hu).2.2
        positivity
      · rw [div_pow, div_pow, ← add_div, div_mul_div_comm, ← sq]
        exact div_le_div_of_nonneg_right hcs.2.2 (by positivity)

/-! ### Failures -/

theorem fold_skip (fft : List K → List (Cx K)) (sqrt : K → K) (smooth : K → List K → List K) (o : Opts K)
    (segs : List (Segment K × Segment K)) (hp : Plain segs) (hb : both segs = []) (acc : Acc K) :
    segs.foldlM (step fft sqrt smooth o) acc = .ok acc := by
  induction segs generalizing acc with
  | nil => rfl
  | cons s l ih =>
    rw [both_cons, List.append_eq_nil_iff] at hb
    rw [List.foldlM_cons, step_skip fft sqrt smooth o acc s (fun x hx => hp x (by simp at hx; simp [hx])) hb.1]
    exact ih (fun x hx => hp x (by simp [hx])) hb.2 acc

theorem fold_first (fft : List K → List (Cx K)) (sqrt : K → K) (smooth : K → List K → List K) (o : Opts K)
    (e : PyErr) (acc : Acc K) (hstep : ∀ f g : List K, step fft sqrt smooth o acc (.flux f, .flux g) = .error e)
    (segs : List (Segment K × Segment K)) (hp : Plain segs) (hb : both segs ≠ []) :
    segs.foldlM (step fft sqrt smooth o) acc = .error e := by
  induction segs with
  | nil => exact absurd rfl hb
  | cons s l ih =>
    have hp1 : Plain [s] := fun x hx => hp x (by simp at hx; simp [hx])
    by_cases h1 : both [s] = []
    · rw [both_cons, h1, List.nil_append] at hb
      rw [List.foldlM_cons, step_skip fft sqrt smooth o acc s hp1 h1]
      exact ih (fun x hx => hp x (by simp [hx])) hb
    · obtain ⟨a, b⟩ := s
      cases a with
      | missing => exact absurd rfl h1
      | fluxErr => exact absurd rfl h1
      | flux f =>
        cases b with
        | missing => exact absurd rfl h1
        | fluxErr => exact absurd rfl h1
        | flux g => rw [List.foldlM_cons, hstep]; rfl

/-- **C152 (failures).** Without a pair of segments where both channels have data, `FAD` divides by zero; otherwise an unknown smoothing algorithm or normalisation is refused; under `strict` the result is that without `strict` if it complies and an error if it does not. -/
theorem fad_refuses (fft : List K → List (Cx K)) (sqrt : K → K) (smooth : K → List K → List K) (o : Opts K)
    (width : Option K) (segs : List (Segment K × Segment K)) (hp : Plain segs) :
    (both segs = [] → fad fft sqrt smooth o width segs = .error .zeroDivisionError) ∧
    (both segs ≠ [] → (o.gauss = false ∨ o.norm = .other) → fad fft sqrt smooth o width segs = .error .valueError) ∧
    (∀ r, fad fft sqrt smooth { o with strict := false } width segs = .ok r →
      fad fft sqrt smooth { o with strict := true } width segs = if r.compliant then .ok r else .error .runtimeError) := by
  refine ⟨?_, ?_, ?_⟩
  · intro hb
    unfold fad
    rw [fold_skip fft sqrt smooth o segs hp hb]
    rfl
  · intro hb ho
    unfold fad
    rw [fold_first fft sqrt smooth o .valueError _ ?_ segs hp hb]
    · rfl
    · intro f g
      simp only [step, bind, Except.bind, corrected, norms]
      rcases ho with ho | ho
      · simp [ho]
      · by_cases hl : f.length = g.length
        · by_cases hg : o.gauss = false
          · simp [hl, hg]
          · simp [hl, hg, ho, normalizer]
        · simp [hl]
  · intro r h
    have hstep : step fft sqrt smooth { o with strict := true } = step fft sqrt smooth { o with strict := false } := rfl
    unfold fad at h ⊢
    rw [hstep]
    cases hf : segs.foldlM (step fft sqrt smooth { o with strict := false })
      { cells := none, freq := [], fgt0 := (0, 0), width := width, m := 0, nph1 := 0, nph2 := 0, nph := 0 } with
    | error e => rw [hf] at h; cases h
    | ok acc =>
      rw [hf] at h
      simp only [bind, Except.bind] at h ⊢
      cases hc : acc.cells with
      | none => simp only [hc] at h; cases h
      | some cells =>
        simp only [hc, Bool.false_and, Bool.false_eq_true, if_false, Except.ok.injEq] at h
        subst h
        simp only [Bool.true_and]
        cases compliant sqrt o.tolerance acc.m _ <;> rfl

/-- **C152 (compliance).** The result complies exactly when all amplitude differences are finite, there is at least one frequency, and their standard deviation over the frequencies differs from `2 / sqrt(M)` by less than the tolerance, relatively. -/
theorem fad_compliant (fft : List K → List (Cx K)) (sqrt : K → K) (hs : ∀ x, 0 < x → 0 < sqrt x)
    (smooth : K → List K → List K) (o : Opts K) (width : Option K) (segs : List (Segment K × Segment K)) (r : Result K)
    (h : fad fft sqrt smooth o width segs = .ok r) (hm : 0 < r.m) :
    r.compliant = true ↔ ∃ v : List (Cell K), r.cells = v.map some ∧ v ≠ [] ∧
      |sqrt (mean (v.map fun c => (c.fad.re - mean (v.map fun c => c.fad.re)) ^ 2 +
        (c.fad.im - mean (v.map fun c => c.fad.im)) ^ 2)) - 2 / sqrt r.m| < o.tolerance * (2 / sqrt r.m) := by
  have hc : r.compliant = compliant sqrt o.tolerance r.m (r.cells.map (Option.map Cell.fad)) := by
    unfold fad at h
    cases hf : segs.foldlM (step fft sqrt smooth o)
      { cells := none, freq := [], fgt0 := (0, 0), width := width, m := 0, nph1 := 0, nph2 := 0, nph := 0 } with
    | error e => rw [hf] at h; cases h
    | ok acc =>
      rw [hf] at h
      simp only [bind, Except.bind] at h
      cases hc : acc.cells with
      | none => simp only [hc] at h; cases h
      | some cells =>
        simp only [hc] at h
        split_ifs at h
        cases h
        rfl
  have hall : ∀ l : List (Option (Cell K)), (l.map (Option.map Cell.fad)).any Option.isNone = false →
      ∃ v : List (Cell K), l = v.map some := by
    intro l
    induction l with
    | nil => exact fun _ => ⟨[], rfl⟩
    | cons a l ih =>
      intro h
      cases a with
      | none => simp at h
      | some a =>
        obtain ⟨v, hv⟩ := ih (by simpa using h)
        exact ⟨a :: v, by rw [hv]; rfl⟩
  have ht : 0 < 2 / sqrt (r.m : K) := div_pos two_pos (hs _ (by exact_mod_cast hm))
  have hcomp : ∀ v : List (Cell K), v ≠ [] →
      (compliant sqrt o.tolerance r.m ((v.map some).map (Option.map Cell.fad)) = true ↔
      |sqrt (mean (v.map fun c => (c.fad.re - mean (v.map fun c => c.fad.re)) ^ 2 +
        (c.fad.im - mean (v.map fun c => c.fad.im)) ^ 2)) - 2 / sqrt r.m| < o.tolerance * (2 / sqrt r.m)) := by
    intro v hv
    have e1 : ((v.map some).map (Option.map Cell.fad)).any Option.isNone = false := by
      rw [List.map_map, List.any_map]
      induction v <;> simp_all
    have e2 : ((v.map some).map (Option.map Cell.fad)).isEmpty = false := by
      cases v <;> simp_all
    have e3 : ((v.map some).map (Option.map Cell.fad)).filterMap id = v.map Cell.fad := by
      clear hv e1 e2
      induction v <;> simp_all
    unfold compliant std
    rw [e1, e2, e3]
    simp only [Bool.or_false, Bool.false_eq_true, if_false, decide_eq_true_eq, List.map_map, Function.comp_def,
      List.length_map, mean]
    rw [abs_div, abs_of_pos ht, div_lt_iff₀ ht]
  rw [hc]
  constructor
  · intro h
    by_cases h0 : (r.cells.map (Option.map Cell.fad)).any Option.isNone || (r.cells.map (Option.map Cell.fad)).isEmpty
    · simp only [compliant, std, h0, if_true] at h
      cases h
    · simp only [Bool.not_eq_true, Bool.or_eq_false_iff] at h0
      obtain ⟨v, hv⟩ := hall _ h0.1
      have hne : v ≠ [] := by
        rintro rfl
        rw [hv] at h0
        simp at h0
      refine ⟨v, hv, hne, ?_⟩
      rw [hv] at h
      exact (hcomp v hne).1 h
  · rintro ⟨v, hv, hne, h⟩
    rw [hv]
    exact (hcomp v hne).2 h

/-! ### Concrete cases -/

/-- exact square roots of the numbers met below -/
def wsqrt (x : ℚ) : ℚ := if x = 1 / 4 then 1 / 2 else if x = 4 then 2 else if x = 16 then 4 else if x = 1 / 9 then 1 / 3 else 1

def wopts : Opts ℚ := { dt := 1, norm := .leahy, gauss := true, tolerance := 1, strict := false }

/-- two pairs of segments with data, one where the second channel has none -/
def wsegs : List (Segment ℚ × Segment ℚ) :=
  [(.flux [2, 0, 0, 0], .flux [3, 2, 1, 2]), (.flux [1, 1, 1, 1], .missing), (.flux [0, 0, 0, 2], .flux [4, 0, 2, 2])]

example : (fad dft4 wsqrt (fun _ l => l.map fun x => x + 1) wopts none wsegs).map (fun r => (r.m, r.freq, r.nph1, r.nph2)) =
    .ok (2, [1 / 4], 2, 8) := by decide +kernel

example : (fad dft4 wsqrt (fun _ l => l.map fun x => x + 1) wopts none wsegs).map (fun r => r.cells.map (Option.map fun c =>
    [c.pds1U, c.pds2U, c.ptotU, c.csU.re, c.csU.im])) =
    .ok [some [4, 6, 18, 4, -2]] := by decide +kernel

/-- **C152 (negation).** A pair of segments in which one channel has no photon is not left out of the average (as it is from averaged spectra): all powers become undefined. -/
theorem fad_empty_segment :
    (fad dft4 wsqrt (fun _ l => l.map fun x => x + 1) wopts none wsegs).map (fun r => r.cells.any Option.isNone) = .ok false ∧
    (fad dft4 wsqrt (fun _ l => l.map fun x => x + 1) wopts none ((.flux [0, 0, 0, 0], .flux [1, 2, 3, 2]) :: wsegs)).map
      (fun r => (r.m, r.cells)) = .ok (3, [none]) := by
  constructor <;> decide +kernel

/-! ### Intervals and objects -/

/-- **C153.** `FAD` uses the segments of the GTIs common to both data sets (and fails as their intersection does), and the spectrum objects made of its table have the frequencies, powers, unnormalised powers and photons of the column asked for, and the number of pairs averaged; an unknown column is refused. -/
theorem fad_objects (cross : List (K × K) → List (K × K) → Except PyErr (List (K × K)))
    (fft : List K → List (Cx K)) (sqrt : K → K) (smooth : K → List K → List K) (o : Opts K)
    (width : Option K) (d : Data K) :
    (∀ e, cross d.gti1 d.gti2 = .error e → fadOfData cross fft sqrt smooth o width d = .error e) ∧
    (∀ g, cross d.gti1 d.gti2 = .ok g →
      (fadOfData cross fft sqrt smooth o width d).map Prod.fst = fad fft sqrt smooth o width (d.pairs g)) ∧
    ∀ r : Result K, ∃ p1 p2 pt c,
      periodogram .pds1 r = .ok p1 ∧ periodogram .pds2 r = .ok p2 ∧ periodogram .ptot r = .ok pt ∧
      periodogram .cs r = .ok c ∧ periodogram .other r = .error .valueError ∧
      (∀ p ∈ [p1, p2, pt, c], p.freq = r.freq ∧ p.m = r.m) ∧
      p1.nphots = some r.nph1 ∧ p2.nphots = some r.nph2 ∧ pt.nphots = some r.nph ∧
      p1.power = r.cells.map (Option.map fun c => ⟨c.pds1, 0⟩) ∧ p2.power = r.cells.map (Option.map fun c => ⟨c.pds2, 0⟩) ∧
      pt.power = r.cells.map (Option.map fun c => ⟨c.ptot, 0⟩) ∧ c.power = r.cells.map (Option.map fun c => c.cs) ∧
      p1.unnormPower = r.cells.map (Option.map fun c => ⟨c.pds1U, 0⟩) ∧
      p2.unnormPower = r.cells.map (Option.map fun c => ⟨c.pds2U, 0⟩) ∧
      pt.unnormPower = r.cells.map (Option.map fun c => ⟨c.ptotU, 0⟩) ∧
      c.unnormPower = r.cells.map (Option.map fun c => c.csU) := by
  refine ⟨?_, ?_, ?_⟩
  · intro e h
    simp only [fadOfData, h, bind, Except.bind]
  · intro g h
    simp only [fadOfData, h, bind, Except.bind]
    cases fad fft sqrt smooth o width (d.pairs g) <;> rfl
  · intro r
    exact ⟨_, _, _, _, rfl, rfl, rfl, rfl, rfl, by simp, rfl, rfl, rfl, rfl, rfl, rfl, rfl, rfl, rfl, rfl, rfl⟩

/-- data sets with one pair of segments per common interval -/
def wdata : Data ℚ where
  gti1 := [(0, 4), (10, 14)]
  gti2 := [(0, 4), (10, 14), (20, 24)]
  pairs := fun g => g.map fun _ => (.flux [2, 0, 0, 0], .flux [3, 2, 1, 2])

/-- the intervals of the first list that are in the second (enough for the lists above) -/
def wcross (a b : List (ℚ × ℚ)) : Except PyErr (List (ℚ × ℚ)) := .ok (a.filter fun g => decide (g ∈ b))

/-- **C153 (function).** `calculate_FAD_correction` averages the segments of the common GTIs with the smoothing length it is given. -/
theorem calculate_fad_segments (cross : List (K × K) → List (K × K) → Except PyErr (List (K × K)))
    (fft : List K → List (Cx K)) (sqrt : K → K) (smooth : K → List K → List K) (o : Opts K)
    (width : Option K) (d : Data K) (gti : Option (List (K × K))) (g : List (K × K)) (h : cross d.gti1 d.gti2 = .ok g) :
    (calculateFad cross fft sqrt smooth o width d gti).map Prod.fst = fad fft sqrt smooth o width (d.pairs g) :=
  (fad_objects cross fft sqrt smooth o width d).2.1 g h

/-- **C153 (negation).** The number of bins `n` of the objects, twice their number of frequencies, is never that of the segments: it is two less if that is even and one less if it is odd. -/
theorem fad_objects_n (fft : List K → List (Cx K)) (hfft : ∀ l, (fft l).length = l.length) (sqrt : K → K)
    (smooth : K → List K → List K) (o : Opts K) (hg : o.gauss = true) (hn : o.norm ≠ .other) (width : Option K) (n : Nat)
    (hn0 : 0 < n) (segs : List (Segment K × Segment K)) (hp : Plain segs)
    (hlen : ∀ u ∈ both segs, u.1.length = n ∧ u.2.length = n) (hne : both segs ≠ [])
    (r : Result K) (hr : fad fft sqrt smooth o width segs = .ok r) (k : Kind) (p : Periodogram K)
    (h : periodogram k r = .ok p) : p.n = if n % 2 = 0 then n - 2 else n - 1 := by
  rcases fad_mean fft hfft sqrt smooth o hg hn width n hn0 segs hp hlen hne with ⟨h', -⟩ | ⟨r', h', -, -, -, -, -, hl, -⟩
  · rw [hr] at h'; cases h'
  · rw [hr] at h'; cases h'
    have : p.n = r.freq.length * 2 := by
      cases k <;> simp only [periodogram, columns, bind, Except.bind] at h <;> cases h <;> rfl
    rw [this, hl]
    unfold nPositive
    split_ifs <;> omega

/-- **C153 (negation).** `calculate_FAD_correction` gives the same result whatever its argument `gti`: for two data sets with two common intervals and `gti` the first of them, two pairs of segments are averaged instead of one. And the GTIs of the data given are changed in place. -/
theorem calculate_ignores_gti :
    (∀ (cross : List (K × K) → List (K × K) → Except PyErr (List (K × K)))
      (fft : List K → List (Cx K)) (sqrt : K → K) (smooth : K → List K → List K) (o : Opts K)
      (width : Option K) (d : Data K) (g : Option (List (K × K))),
      calculateFad cross fft sqrt smooth o width d g = calculateFad cross fft sqrt smooth o width d none) ∧
    (calculateFad wcross dft4 wsqrt (fun _ l => l) wopts none wdata (some [(0, 4)])).map (fun r => (r.1.m, r.2.gti2)) =
      .ok (2, [(0, 4), (10, 14)]) ∧
    (fad dft4 wsqrt (fun _ l => l) wopts none (wdata.pairs [(0, 4)])).map (fun r => r.m) = .ok 1 ∧
    wdata.gti2 ≠ [(0, 4), (10, 14)] := by
  refine ⟨fun _ _ _ _ _ _ _ _ => rfl, ?_, ?_, ?_⟩ <;> decide +kernel

end Stingray.Fad

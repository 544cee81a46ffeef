import Verif.Model.Fourier
import Mathlib.Tactic.Linarith
import Mathlib.Tactic.Ring
import Mathlib.Tactic.FieldSimp

/-!
The loops over segments of the averaged spectra, in closed form.
-/

set_option linter.unusedSectionVars false

namespace Stingray.Fourier

variable {K : Type} [Field K] [LinearOrder K] [IsStrictOrderedRing K]

theorem Cx.ext' {a b : Cx K} (h1 : a.re = b.re) (h2 : a.im = b.im) : a = b := by
  cases a; cases b; simp_all

@[simp] theorem Cx.add_re (a b : Cx K) : (a + b).re = a.re + b.re := rfl
@[simp] theorem Cx.add_im (a b : Cx K) : (a + b).im = a.im + b.im := rfl
@[simp] theorem Cx.zero_re : (0 : Cx K).re = 0 := rfl
@[simp] theorem Cx.zero_im : (0 : Cx K).im = 0 := rfl
@[simp] theorem Cx.mul_re (a b : Cx K) : (a * b).re = a.re * b.re - a.im * b.im := rfl
@[simp] theorem Cx.mul_im (a b : Cx K) : (a * b).im = a.re * b.im + a.im * b.re := rfl
@[simp] theorem Cx.conj_re (a : Cx K) : a.conj.re = a.re := rfl
@[simp] theorem Cx.conj_im (a : Cx K) : a.conj.im = -a.im := rfl
@[simp] theorem Cx.both_re (f : K → K) (a : Cx K) : (a.both f).re = f a.re := rfl
@[simp] theorem Cx.both_im (f : K → K) (a : Cx K) : (a.both f).im = f a.im := rfl

instance : AddCommMonoid (Cx K) where
  add_assoc a b c := Cx.ext' (add_assoc _ _ _) (add_assoc _ _ _)
  zero_add a := Cx.ext' (zero_add _) (zero_add _)
  add_zero a := Cx.ext' (add_zero _) (add_zero _)
  add_comm a b := Cx.ext' (add_comm _ _) (add_comm _ _)
  nsmul := nsmulRec

theorem Cx.sum_re (l : List (Cx K)) : l.sum.re = (l.map Cx.re).sum := by
  induction l with
  | nil => rfl
  | cons a l ih => simp [ih]

theorem Cx.sum_im (l : List (Cx K)) : l.sum.im = (l.map Cx.im).sum := by
  induction l with
  | nil => rfl
  | cons a l ih => simp [ih]

/-- The sum, position by position, of arrays of length `L`. -/
def columnSum {α : Type} [Add α] [Zero α] (L : Nat) (ls : List (List α)) : List α :=
  (List.range L).map fun i => (ls.map (fun l => l.getD i 0)).sum

theorem columnSum_length {α : Type} [Add α] [Zero α] (L : Nat) (ls : List (List α)) :
    (columnSum L ls).length = L := by simp [columnSum]

theorem columnSum_single {α : Type} [AddCommMonoid α] (l : List α) : columnSum l.length [l] = l := by
  apply List.ext_getElem?
  intro i
  by_cases hi : i < l.length
  · simp [columnSum, hi]
  · simp [columnSum, not_lt.1 hi]

theorem columnSum_append {α : Type} [AddCommMonoid α] (ls : List (List α)) (l : List α) :
    List.zipWith (· + ·) (columnSum l.length ls) l = columnSum l.length (ls ++ [l]) := by
  apply List.ext_getElem?
  intro i
  by_cases hi : i < l.length
  · simp [columnSum, hi, List.getElem?_zipWith]
  · simp [columnSum, not_lt.1 hi, List.getElem?_zipWith]

/-- an accumulated sum of arrays -/
def SumOf {α : Type} [Add α] [Zero α] (L : Nat) (o : Option (List α)) (ls : List (List α)) : Prop :=
  (ls = [] → o = none) ∧ (ls ≠ [] → o = some (columnSum L ls))

theorem sumOrInit_eq {α : Type} [AddCommMonoid α] {L : Nat} {o : Option (List α)} {ls : List (List α)}
    (h : SumOf L o ls) (b : List α) (hb : b.length = L) :
    sumOrInit o b = .ok (columnSum L (ls ++ [b])) := by
  subst hb
  by_cases hl : ls = []
  · rw [h.1 hl, hl]
    simp [sumOrInit, columnSum_single]
  · rw [h.2 hl]
    simp only [sumOrInit, columnSum_length, if_true]
    rw [columnSum_append]

theorem sumOf_append {α : Type} [AddCommMonoid α] {L : Nat} {ls : List (List α)} (b : List α) :
    SumOf L (some (columnSum L (ls ++ [b]))) (ls ++ [b]) := ⟨by simp, fun _ => rfl⟩

theorem sumOf_nil {α : Type} [AddCommMonoid α] (L : Nat) : SumOf (α := α) L none [] := ⟨fun _ => rfl, by simp⟩

theorem SumOf.isNone {α : Type} [AddCommMonoid α] {L : Nat} {o : Option (List α)} {ls : List (List α)}
    (h : SumOf L o ls) : o.isNone = ls.isEmpty := by
  cases ls with
  | nil => rw [h.1 rfl]; rfl
  | cons a l => rw [h.2 (by simp)]; rfl

/-- an accumulated sum of numbers -/
def NumOf (o : Option K) (l : List K) : Prop := (l = [] → o = none) ∧ (l ≠ [] → o = some l.sum)

theorem numOf_append {o : Option K} {l : List K} (h : NumOf o l) (x : K) :
    NumOf (some (addOrInit o x)) (l ++ [x]) := by
  refine ⟨by simp, fun _ => ?_⟩
  by_cases hl : l = []
  · rw [h.1 hl, hl]; simp [addOrInit]
  · rw [h.2 hl]; simp [addOrInit]

/-! ### Power spectra -/

/-- number of strictly positive Fourier frequencies -/
def nPos (n : Nat) : Nat := (n - 1) / 2

theorem slice_positive_length {α : Type} (n : Nat) (l : List α) (h : l.length = n) :
    (slice (positiveFftBins n false) l).length = nPos n := by
  unfold slice positiveFftBins nPos
  by_cases hn : n % 2 = 0
  · simp [hn, h]; omega
  · simp [hn, h]; omega

theorem slice_positive_getD {α : Type} (n : Nat) (l : List α) (h : l.length = n) (d : α) (i : Nat) (hi : i < nPos n) :
    (slice (positiveFftBins n false) l).getD i d = l.getD (i + 1) d := by
  unfold nPos at hi
  unfold slice positiveFftBins
  by_cases hn : n % 2 = 0
  · have : 1 + i < n / 2 := by omega
    simp [hn, List.getD_eq_getElem?_getD, List.getElem?_drop, List.getElem?_take, this, add_comm 1 i ▸ this]
  · have : 1 + i < (n + 1) / 2 := by omega
    simp [hn, List.getD_eq_getElem?_getD, List.getElem?_drop, List.getElem?_take, this, add_comm 1 i ▸ this]

theorem slice_map {α β : Type} (f : α → β) (s : Nat × Nat) (l : List α) :
    slice s (l.map f) = (slice s l).map f := by
  simp [slice, List.map_take, List.map_drop]

theorem normalizeRe_length {norm : Norm} {dt nBin meanFlux nPh : K} {variance : Option K}
    {background : K} {pt : PowerType} {p r : List K}
    (h : normalizeRe norm dt nBin meanFlux nPh variance background pt p = .ok r) : r.length = p.length := by
  unfold normalizeRe at h
  cases hn : normalizer norm dt nBin meanFlux nPh variance background with
  | error e => simp [hn, bind, Except.bind] at h
  | ok f =>
    simp only [hn, bind, Except.bind] at h
    cases pt <;> simp at h <;> subst h <;> simp

theorem normalizeCx_length {sqrt : K → K} {norm : Norm} {dt nBin meanFlux nPh : K} {variance : Option K}
    {background : K} {pt : PowerType} {p r : List (Cx K)}
    (h : normalizeCx sqrt norm dt nBin meanFlux nPh variance background pt p = .ok r) :
    r.length = p.length := by
  unfold normalizeCx at h
  cases hn : normalizer norm dt nBin meanFlux nPh variance background with
  | error e => simp [hn, bind, Except.bind] at h
  | ok f =>
    simp only [hn, bind, Except.bind] at h
    cases pt <;> simp at h <;> subst h <;> simp

/-- un-normalised powers of a segment of `n` bins at the positive frequencies -/
def segPower (fft : List K → List (Cx K)) (n : Nat) (s : Segment K) : List K :=
  slice (positiveFftBins n false) ((fft s.data.1).map (fun a => (a * a.conj).re))

/-- powers of a segment as added up: normalised one by one if there is no common mean -/
def segNormed (fft : List K → List (Cx K)) (dt : K) (norm : Norm) (useCommonMean : Bool) (n : Nat)
    (s : Segment K) : Except PyErr (List K) :=
  perSegment useCommonMean (segPower fft n s)
    (normalizeRe norm dt n (s.data.1.sum / n) s.data.1.sum s.data.2 0 .all (segPower fft n s))

theorem segPower_length (fft : List K → List (Cx K)) (hfft : ∀ l, (fft l).length = l.length) (n : Nat)
    (s : Segment K) (hs : s.data.1.length = n) : (segPower fft n s).length = nPos n := by
  apply slice_positive_length
  simp [hfft, hs]

theorem segNormed_length (fft : List K → List (Cx K)) (hfft : ∀ l, (fft l).length = l.length) (dt : K) (norm : Norm)
    (ucm : Bool) (n : Nat) (s : Segment K) (hs : s.data.1.length = n) (c : List K)
    (h : segNormed fft dt norm ucm n s = .ok c) : c.length = nPos n := by
  unfold segNormed perSegment at h
  split_ifs at h with hu
  · cases h; exact segPower_length fft hfft n s hs
  · rw [normalizeRe_length h]; exact segPower_length fft hfft n s hs

/-- What the loop has accumulated after the usable segments `us`, of `n` bins each. -/
structure PdsInv (fft : List K → List (Cx K)) (dt : K) (norm : Norm) (ucm : Bool) (n : Nat)
    (us : List (Segment K)) (acc : PdsAcc K) : Prop where
  nAve : acc.nAve = us.length
  sumPh : acc.sumPh = (us.map fun s => s.data.1.sum).sum
  unnormSubcs : acc.unnormSubcs = us.map (segPower fft n)
  subcs : List.Forall₂ (fun s c => segNormed fft dt norm ucm n s = .ok c) us acc.subcs
  unnorm : SumOf (nPos n) acc.unnorm (us.map (segPower fft n))
  cross : SumOf (nPos n) acc.cross acc.subcs
  variance : NumOf acc.variance (us.filterMap fun s => s.data.2)
  nBin : us ≠ [] → acc.nBin = n
  fgt0 : us ≠ [] → acc.fgt0 = positiveFftBins n false
  freq : us ≠ [] → acc.freq = slice (positiveFftBins n false) (fftfreq n dt)

theorem pdsStep_spec {fft : List K → List (Cx K)} (hfft : ∀ l, (fft l).length = l.length) {dt : K} {norm : Norm}
    {ucm : Bool} {n : Nat} {us : List (Segment K)} {acc : PdsAcc K} (hI : PdsInv fft dt norm ucm n us acc)
    {s : Segment K} (hs : s.skipped = false) (hn : s.data.1.length = n) :
    (∀ e, segNormed fft dt norm ucm n s = .error e → pdsStep fft dt norm ucm acc s = .error e) ∧
    (∀ c, segNormed fft dt norm ucm n s = .ok c →
      ∃ acc', pdsStep fft dt norm ucm acc s = .ok acc' ∧ PdsInv fft dt norm ucm n (us ++ [s]) acc') := by
  have hnone : acc.cross.isNone = us.isEmpty := by
    rw [hI.cross.isNone]
    have := hI.subcs
    generalize acc.subcs = q at this
    cases this <;> rfl
  have hf : (if acc.cross.isNone then positiveFftBins s.data.1.length false else acc.fgt0) =
      positiveFftBins n false := by
    rw [hnone, hn]
    cases us with
    | nil => rfl
    | cons a l => simp [hI.fgt0 (by simp)]
  have hq : (if acc.cross.isNone then slice (positiveFftBins n false) (fftfreq s.data.1.length dt)
      else acc.freq) = slice (positiveFftBins n false) (fftfreq n dt) := by
    rw [hnone, hn]
    cases us with
    | nil => rfl
    | cons a l => simp [hI.freq (by simp)]
  have hseg : (perSegment ucm (slice (positiveFftBins n false) ((fft s.data.1).map (fun a => (a * a.conj).re)))
      (normalizeRe norm dt (s.data.1.length : K) (s.data.1.sum / (s.data.1.length : K)) s.data.1.sum s.data.2 0 .all
        (slice (positiveFftBins n false) ((fft s.data.1).map (fun a => (a * a.conj).re))))) =
      segNormed fft dt norm ucm n s := by
    unfold segNormed segPower
    rw [hn]
  constructor
  · intro e he
    unfold pdsStep
    simp only [hs, Bool.false_eq_true, if_false, hf, hseg, he, bind, Except.bind]
  · intro c hc
    have h1 := sumOrInit_eq hI.cross c (segNormed_length fft hfft dt norm ucm n s hn c hc)
    have h2 := sumOrInit_eq hI.unnorm (segPower fft n s) (segPower_length fft hfft n s hn)
    refine ⟨{ cross := some (columnSum (nPos n) (acc.subcs ++ [c]))
              unnorm := some (columnSum (nPos n) (us.map (segPower fft n) ++ [segPower fft n s]))
              nAve := acc.nAve + 1, sumPh := acc.sumPh + s.data.1.sum
              variance := addIfGiven acc.variance s.data.2
              nBin := s.data.1.length, fgt0 := positiveFftBins n false
              freq := slice (positiveFftBins n false) (fftfreq n dt)
              subcs := acc.subcs ++ [c], unnormSubcs := acc.unnormSubcs ++ [segPower fft n s] }, ?_, ?_⟩
    · unfold pdsStep
      simp only [hs, Bool.false_eq_true, if_false, hf, hseg, hc, bind, Except.bind, h1, hq]
      have : slice (positiveFftBins n false) ((fft s.data.1).map (fun a => (a * a.conj).re)) = segPower fft n s := rfl
      simp only [this, h2]
    · refine ⟨?_, ?_, ?_, ?_, ?_, ?_, ?_, ?_, ?_, ?_⟩
      · simp [hI.nAve]
      · simp [hI.sumPh]
      · simp [hI.unnormSubcs]
      · exact List.rel_append hI.subcs (List.Forall₂.cons hc List.Forall₂.nil)
      · rw [List.map_append]; exact sumOf_append _
      · exact sumOf_append _
      · rw [List.filterMap_append]
        cases hv : s.data.2 with
        | none => simpa [hv, addIfGiven] using hI.variance
        | some v => simpa [hv, addIfGiven] using numOf_append hI.variance v
      · intro _; exact hn
      · intro _; rfl
      · intro _; rfl

theorem pds_foldlM {fft : List K → List (Cx K)} (hfft : ∀ l, (fft l).length = l.length) {dt : K} {norm : Norm}
    {ucm : Bool} {n : Nat} (segs : List (Segment K)) : ∀ (us : List (Segment K)) (acc : PdsAcc K),
    PdsInv fft dt norm ucm n us acc →
    (∀ s ∈ segs, s.skipped = false → s.data.1.length = n) →
    (∀ acc', segs.foldlM (pdsStep fft dt norm ucm) acc = .ok acc' →
      PdsInv fft dt norm ucm n (us ++ segs.filter (fun s => !s.skipped)) acc') ∧
    ((∀ s ∈ segs, s.skipped = false → ∃ c, segNormed fft dt norm ucm n s = .ok c) →
      ∃ acc', segs.foldlM (pdsStep fft dt norm ucm) acc = .ok acc') := by
  induction segs with
  | nil =>
    intro us acc hI _
    simp only [List.foldlM_nil, List.filter_nil, List.append_nil]
    refine ⟨?_, fun _ => ⟨_, rfl⟩⟩
    intro acc' h
    cases h
    exact hI
  | cons s segs ih =>
    intro us acc hI hlen
    rw [List.foldlM_cons]
    cases hs : s.skipped with
    | true =>
      have : pdsStep fft dt norm ucm acc s = .ok acc := by simp [pdsStep, hs]
      rw [this, List.filter_cons_of_neg (by simp [hs])]
      have := ih us acc hI (fun x hx => hlen x (by simp [hx]))
      exact ⟨this.1, fun h => this.2 (fun x hx => h x (by simp [hx]))⟩
    | false =>
      rw [List.filter_cons_of_pos (by simp [hs])]
      have hst := pdsStep_spec hfft hI hs (hlen s (by simp) hs)
      cases hc : segNormed fft dt norm ucm n s with
      | error e =>
        rw [hst.1 e hc]
        refine ⟨?_, ?_⟩
        · intro acc' h; simp [bind, Except.bind] at h
        · intro h
          obtain ⟨c, hc'⟩ := h s (by simp) hs
          rw [hc] at hc'; cases hc'
      | ok c =>
        obtain ⟨acc1, e1, hI1⟩ := hst.2 c hc
        rw [e1]
        have := ih (us ++ [s]) acc1 hI1 (fun x hx => hlen x (by simp [hx]))
        rw [List.append_assoc] at this
        exact ⟨this.1, fun h => this.2 (fun x hx => h x (by simp [hx]))⟩

theorem pdsInv_init (fft : List K → List (Cx K)) (dt : K) (norm : Norm) (ucm : Bool) (n : Nat) :
    PdsInv fft dt norm ucm n [] { sumPh := 0 } := by
  refine ⟨rfl, rfl, rfl, List.Forall₂.nil, sumOf_nil _, sumOf_nil _, ⟨fun _ => rfl, by simp⟩, ?_, ?_, ?_⟩ <;>
    exact fun h => absurd rfl h

/-! ### Cross spectra -/

section cross
variable (fft : List K → List (Cx K)) (sqrt : K → K) (dt : K) (o : CsOpts) (n : Nat)

/-- number of frequencies kept -/
def nCut (fullspec : Bool) (n : Nat) : Nat := if fullspec then n else nPos n

theorem cutTo_length {α : Type} (fs : Bool) (n : Nat) (a : List α) (h : a.length = n) :
    (cutTo fs (positiveFftBins n false) a).length = nCut fs n := by
  unfold cutTo nCut
  split_ifs
  · exact h
  · exact slice_positive_length n a h

/-- un-normalised cross power, and power of each channel, of a pair of segments -/
def pairCross (fs : Bool) (s : Segment K × Segment K) : List (Cx K) :=
  cutTo fs (positiveFftBins n false) (crossProduct (fft s.1.data.1) (fft s.2.data.1))
/-- first channel -/
def pairPow1 (fs : Bool) (s : Segment K × Segment K) : List K :=
  cutTo fs (positiveFftBins n false) ((fft s.1.data.1).map (fun a => (a * a.conj).re))
/-- second channel -/
def pairPow2 (fs : Bool) (s : Segment K × Segment K) : List K :=
  cutTo fs (positiveFftBins n false) ((fft s.2.data.1).map (fun a => (a * a.conj).re))

/-- geometric mean of the photon numbers of a pair -/
def pairPh (s : Segment K × Segment K) : K := sqrt (s.1.data.1.sum * s.2.data.1.sum)

/-- the cross power of a pair as added up -/
def pairNormed (s : Segment K × Segment K) : Except PyErr (List (Cx K)) :=
  perSegment o.useCommonMean (pairCross fft n o.fullspec s)
    (normalizeCx sqrt o.norm dt n (pairPh sqrt s / n) (pairPh sqrt s)
    ((pairVar s).map fun v => sqrt (v.1 * v.2)) 0 o.powerType (pairCross fft n o.fullspec s))
/-- the power of the first channel as added up -/
def pairNormed1 (s : Segment K × Segment K) : Except PyErr (List K) :=
  perSegment o.useCommonMean (pairPow1 fft n o.fullspec s)
    (normalizeRe o.norm dt n (s.1.data.1.sum / n) s.1.data.1.sum
    ((pairVar s).map Prod.fst) 0 o.powerType (pairPow1 fft n o.fullspec s))
/-- the power of the second channel as added up -/
def pairNormed2 (s : Segment K × Segment K) : Except PyErr (List K) :=
  perSegment o.useCommonMean (pairPow2 fft n o.fullspec s)
    (normalizeRe o.norm dt n (s.2.data.1.sum / n) s.2.data.1.sum
    ((pairVar s).map Prod.snd) 0 o.powerType (pairPow2 fft n o.fullspec s))
/-- What the loop has accumulated after the usable pairs `us`. -/
structure CsInv (us : List (Segment K × Segment K)) (acc : CsAcc K)
    (cs : List (List (Cx K))) (p1 p2 : List (List K)) : Prop where
  nAve : acc.nAve = us.length
  sumPh1 : acc.sumPh1 = (us.map fun s => s.1.data.1.sum).sum
  sumPh2 : acc.sumPh2 = (us.map fun s => s.2.data.1.sum).sum
  unnormSubcs : acc.unnormSubcs = us.map (pairCross fft n o.fullspec)
  subcs : acc.subcs = cs
  hcs : List.Forall₂ (fun s c => pairNormed fft sqrt dt o n s = .ok c) us cs
  hp1 : List.Forall₂ (fun s c => pairNormed1 fft dt o n s = .ok c) us p1
  hp2 : List.Forall₂ (fun s c => pairNormed2 fft dt o n s = .ok c) us p2
  unnorm : SumOf (nCut o.fullspec n) acc.unnorm (us.map (pairCross fft n o.fullspec))
  unnormPds1 : SumOf (nCut o.fullspec n) acc.unnormPds1 (us.map (pairPow1 fft n o.fullspec))
  unnormPds2 : SumOf (nCut o.fullspec n) acc.unnormPds2 (us.map (pairPow2 fft n o.fullspec))
  cross : SumOf (nCut o.fullspec n) acc.cross cs
  pds1 : SumOf (nCut o.fullspec n) acc.pds1 p1
  pds2 : SumOf (nCut o.fullspec n) acc.pds2 p2
  var1 : NumOf acc.var1 ((us.filterMap pairVar).map Prod.fst)
  var2 : NumOf acc.var2 ((us.filterMap pairVar).map Prod.snd)
  nBin : us ≠ [] → acc.nBin = n
  fgt0 : us ≠ [] → acc.fgt0 = positiveFftBins n false
  freq : us ≠ [] → acc.freq = fftfreq n dt

variable {fft sqrt dt o n}

theorem pairCross_length (hfft : ∀ l, (fft l).length = l.length) (fs : Bool) (s : Segment K × Segment K)
    (h1 : s.1.data.1.length = n) (h2 : s.2.data.1.length = n) : (pairCross fft n fs s).length = nCut fs n := by
  apply cutTo_length
  simp [crossProduct, hfft, h1, h2]

theorem pairPow1_length (hfft : ∀ l, (fft l).length = l.length) (fs : Bool) (s : Segment K × Segment K)
    (h1 : s.1.data.1.length = n) : (pairPow1 fft n fs s).length = nCut fs n := by
  apply cutTo_length
  simp [hfft, h1]

theorem pairPow2_length (hfft : ∀ l, (fft l).length = l.length) (fs : Bool) (s : Segment K × Segment K)
    (h2 : s.2.data.1.length = n) : (pairPow2 fft n fs s).length = nCut fs n := by
  apply cutTo_length
  simp [hfft, h2]

theorem csStep_spec (hfft : ∀ l, (fft l).length = l.length)
    {us : List (Segment K × Segment K)} {acc : CsAcc K} {cs : List (List (Cx K))} {p1 p2 : List (List K)}
    (hI : CsInv fft sqrt dt o n us acc cs p1 p2)
    {s : Segment K × Segment K} (hs : (s.1.skipped || s.2.skipped) = false)
    (hn1 : s.1.data.1.length = n) (hn2 : s.2.data.1.length = n) :
    (∀ acc', csStep fft sqrt dt o acc s = .ok acc' →
      ∃ c q1 q2, CsInv fft sqrt dt o n (us ++ [s]) acc' (cs ++ [c]) (p1 ++ [q1]) (p2 ++ [q2])) ∧
    ((∃ c q1 q2, pairNormed fft sqrt dt o n s = .ok c ∧ pairNormed1 fft dt o n s = .ok q1 ∧
        pairNormed2 fft dt o n s = .ok q2) →
      ∃ acc', csStep fft sqrt dt o acc s = .ok acc') := by
  have hnone : acc.cross.isNone = us.isEmpty := by
    rw [hI.cross.isNone]
    have := hI.hcs
    cases this <;> rfl
  have hf : (if acc.cross.isNone then positiveFftBins s.1.data.1.length false else acc.fgt0) =
      positiveFftBins n false := by
    rw [hnone, hn1]
    cases us with
    | nil => rfl
    | cons a l => simp [hI.fgt0 (by simp)]
  have hq : (if acc.cross.isNone then fftfreq s.1.data.1.length dt else acc.freq) = fftfreq n dt := by
    rw [hnone, hn1]
    cases us with
    | nil => rfl
    | cons a l => simp [hI.freq (by simp)]
  have hlen : ¬ (s.1.data.1.length ≠ s.2.data.1.length) := by rw [hn1, hn2]; simp
  have hU := sumOrInit_eq hI.unnorm _ (pairCross_length hfft o.fullspec s hn1 hn2)
  have hU1 := sumOrInit_eq hI.unnormPds1 _ (pairPow1_length hfft o.fullspec s hn1)
  have hU2 := sumOrInit_eq hI.unnormPds2 _ (pairPow2_length hfft o.fullspec s hn2)
  have key : csStep fft sqrt dt o acc s =
      (pairNormed fft sqrt dt o n s).bind (fun c => (pairNormed1 fft dt o n s).bind (fun q1 =>
        (pairNormed2 fft dt o n s).bind (fun q2 =>
          (sumOrInit acc.cross c).bind (fun cross => (sumOrInit acc.pds1 q1).bind (fun pds1 =>
            (sumOrInit acc.pds2 q2).bind (fun pds2 =>
          .ok { cross := some cross
                unnorm := some (columnSum (nCut o.fullspec n) (us.map (pairCross fft n o.fullspec) ++
                  [pairCross fft n o.fullspec s]))
                unnormPds1 := some (columnSum (nCut o.fullspec n) (us.map (pairPow1 fft n o.fullspec) ++
                  [pairPow1 fft n o.fullspec s]))
                unnormPds2 := some (columnSum (nCut o.fullspec n) (us.map (pairPow2 fft n o.fullspec) ++
                  [pairPow2 fft n o.fullspec s]))
                pds1 := some pds1, pds2 := some pds2, nAve := acc.nAve + 1,
                sumPh1 := acc.sumPh1 + s.1.data.1.sum, sumPh2 := acc.sumPh2 + s.2.data.1.sum
                var1 := addIfGiven acc.var1 ((pairVar s).map Prod.fst)
                var2 := addIfGiven acc.var2 ((pairVar s).map Prod.snd)
                nBin := n, freq := fftfreq n dt, fgt0 := positiveFftBins n false
                subcs := acc.subcs ++ [c]
                unnormSubcs := acc.unnormSubcs ++ [pairCross fft n o.fullspec s] })))))) := by
    have a0 : cutTo o.fullspec (positiveFftBins n false) (crossProduct (fft s.1.data.1) (fft s.2.data.1)) =
        pairCross fft n o.fullspec s := rfl
    have a1 : cutTo o.fullspec (positiveFftBins n false) ((fft s.1.data.1).map (fun a => (a * a.conj).re)) =
        pairPow1 fft n o.fullspec s := rfl
    have a2 : cutTo o.fullspec (positiveFftBins n false) ((fft s.2.data.1).map (fun a => (a * a.conj).re)) =
        pairPow2 fft n o.fullspec s := rfl
    unfold csStep
    simp only [hs, Bool.false_eq_true, if_false, hlen, hf, hq, a0, a1, a2, hU, hU1, hU2, bind, Except.bind]
    simp only [hn1]
    have b0 : perSegment o.useCommonMean (pairCross fft n o.fullspec s)
        (normalizeCx sqrt o.norm dt n (sqrt (s.1.data.1.sum * s.2.data.1.sum) / n)
          (sqrt (s.1.data.1.sum * s.2.data.1.sum))
          ((pairVar s).map fun v => sqrt (v.1 * v.2)) 0 o.powerType (pairCross fft n o.fullspec s)) =
        pairNormed fft sqrt dt o n s := rfl
    have b1 : perSegment o.useCommonMean (pairPow1 fft n o.fullspec s)
        (normalizeRe o.norm dt n (s.1.data.1.sum / n) s.1.data.1.sum ((pairVar s).map Prod.fst) 0 o.powerType
          (pairPow1 fft n o.fullspec s)) = pairNormed1 fft dt o n s := rfl
    have b2 : perSegment o.useCommonMean (pairPow2 fft n o.fullspec s)
        (normalizeRe o.norm dt n (s.2.data.1.sum / n) s.2.data.1.sum ((pairVar s).map Prod.snd) 0 o.powerType
          (pairPow2 fft n o.fullspec s)) = pairNormed2 fft dt o n s := rfl
    simp only [b0, b1, b2]
  have hL0 : ∀ c, pairNormed fft sqrt dt o n s = .ok c → c.length = nCut o.fullspec n := by
    intro c h
    unfold pairNormed perSegment at h
    split_ifs at h
    · cases h; exact pairCross_length hfft o.fullspec s hn1 hn2
    · rw [normalizeCx_length h]; exact pairCross_length hfft o.fullspec s hn1 hn2
  have hL1 : ∀ c, pairNormed1 fft dt o n s = .ok c → c.length = nCut o.fullspec n := by
    intro c h
    unfold pairNormed1 perSegment at h
    split_ifs at h
    · cases h; exact pairPow1_length hfft o.fullspec s hn1
    · rw [normalizeRe_length h]; exact pairPow1_length hfft o.fullspec s hn1
  have hL2 : ∀ c, pairNormed2 fft dt o n s = .ok c → c.length = nCut o.fullspec n := by
    intro c h
    unfold pairNormed2 perSegment at h
    split_ifs at h
    · cases h; exact pairPow2_length hfft o.fullspec s hn2
    · rw [normalizeRe_length h]; exact pairPow2_length hfft o.fullspec s hn2
  rw [key]
  cases hc : pairNormed fft sqrt dt o n s with
  | error e => simp [Except.bind]
  | ok c =>
    cases hq1 : pairNormed1 fft dt o n s with
    | error e => simp [Except.bind]
    | ok q1 =>
      cases hq2 : pairNormed2 fft dt o n s with
      | error e => simp [Except.bind]
      | ok q2 =>
        have s0 := sumOrInit_eq hI.cross c (hL0 c hc)
        have s1 := sumOrInit_eq hI.pds1 q1 (hL1 q1 hq1)
        have s2 := sumOrInit_eq hI.pds2 q2 (hL2 q2 hq2)
        simp only [Except.bind, s0, s1, s2]
        refine ⟨?_, fun _ => ⟨_, rfl⟩⟩
        intro acc' h
        cases h
        refine ⟨c, q1, q2, ?_⟩
        refine ⟨?_, ?_, ?_, ?_, ?_, ?_, ?_, ?_, ?_, ?_, ?_, ?_, ?_, ?_, ?_, ?_, ?_, ?_, ?_⟩
        · simp [hI.nAve]
        · simp [hI.sumPh1]
        · simp [hI.sumPh2]
        · simp [hI.unnormSubcs]
        · simp [hI.subcs]
        · exact List.rel_append hI.hcs (List.Forall₂.cons hc List.Forall₂.nil)
        · exact List.rel_append hI.hp1 (List.Forall₂.cons hq1 List.Forall₂.nil)
        · exact List.rel_append hI.hp2 (List.Forall₂.cons hq2 List.Forall₂.nil)
        · rw [List.map_append]; exact sumOf_append _
        · rw [List.map_append]; exact sumOf_append _
        · rw [List.map_append]; exact sumOf_append _
        · exact sumOf_append _
        · exact sumOf_append _
        · exact sumOf_append _
        · rw [List.filterMap_append, List.map_append]
          cases hv : pairVar s with
          | none => simpa [hv, addIfGiven] using hI.var1
          | some v => simpa [hv, addIfGiven] using numOf_append hI.var1 v.1
        · rw [List.filterMap_append, List.map_append]
          cases hv : pairVar s with
          | none => simpa [hv, addIfGiven] using hI.var2
          | some v => simpa [hv, addIfGiven] using numOf_append hI.var2 v.2
        · intro _; rfl
        · intro _; rfl
        · intro _; rfl

/-- a pair is used when neither segment is skipped -/
def pairUsed (s : Segment K × Segment K) : Bool := !(s.1.skipped || s.2.skipped)

theorem cs_foldlM (hfft : ∀ l, (fft l).length = l.length) (segs : List (Segment K × Segment K)) :
    ∀ (us : List (Segment K × Segment K)) (acc : CsAcc K) (cs : List (List (Cx K))) (p1 p2 : List (List K)),
    CsInv fft sqrt dt o n us acc cs p1 p2 →
    (∀ s ∈ segs, pairUsed s = true → s.1.data.1.length = n ∧ s.2.data.1.length = n) →
    (∀ acc', segs.foldlM (csStep fft sqrt dt o) acc = .ok acc' →
      ∃ cs p1 p2, CsInv fft sqrt dt o n (us ++ segs.filter pairUsed) acc' cs p1 p2) ∧
    ((∀ s ∈ segs, pairUsed s = true → ∃ c q1 q2, pairNormed fft sqrt dt o n s = .ok c ∧
        pairNormed1 fft dt o n s = .ok q1 ∧ pairNormed2 fft dt o n s = .ok q2) →
      ∃ acc', segs.foldlM (csStep fft sqrt dt o) acc = .ok acc') := by
  induction segs with
  | nil =>
    intro us acc cs p1 p2 hI _
    simp only [List.foldlM_nil, List.filter_nil, List.append_nil]
    refine ⟨?_, fun _ => ⟨_, rfl⟩⟩
    intro acc' h
    cases h
    exact ⟨cs, p1, p2, hI⟩
  | cons s segs ih =>
    intro us acc cs p1 p2 hI hlen
    rw [List.foldlM_cons]
    cases hs : (s.1.skipped || s.2.skipped) with
    | true =>
      have : csStep fft sqrt dt o acc s = .ok acc := by simp only [csStep, hs, if_true]
      rw [this, List.filter_cons_of_neg (by simp [pairUsed, hs])]
      have := ih us acc cs p1 p2 hI (fun x hx => hlen x (by simp [hx]))
      exact ⟨this.1, fun h => this.2 (fun x hx => h x (by simp [hx]))⟩
    | false =>
      have hu : pairUsed s = true := by simp [pairUsed, hs]
      rw [List.filter_cons_of_pos hu]
      obtain ⟨l1, l2⟩ := hlen s (by simp) hu
      have hst := csStep_spec hfft hI hs l1 l2
      cases hc : csStep fft sqrt dt o acc s with
      | error e =>
        refine ⟨?_, ?_⟩
        · intro acc' h; simp [bind, Except.bind] at h
        · intro h
          obtain ⟨acc1, e1⟩ := hst.2 (h s (by simp) hu)
          rw [hc] at e1; cases e1
      | ok acc1 =>
        obtain ⟨c, q1, q2, hI1⟩ := hst.1 acc1 hc
        have := ih (us ++ [s]) acc1 _ _ _ hI1 (fun x hx => hlen x (by simp [hx]))
        rw [List.append_assoc] at this
        exact ⟨this.1, fun h => this.2 (fun x hx => h x (by simp [hx]))⟩

theorem csInv_init : CsInv fft sqrt dt o n [] { sumPh1 := 0, sumPh2 := 0 } [] [] [] := by
  refine ⟨rfl, rfl, rfl, rfl, rfl, List.Forall₂.nil, List.Forall₂.nil, List.Forall₂.nil, sumOf_nil _,
    sumOf_nil _, sumOf_nil _, sumOf_nil _, sumOf_nil _, sumOf_nil _, ⟨fun _ => rfl, by simp⟩,
    ⟨fun _ => rfl, by simp⟩, ?_, ?_, ?_⟩ <;> exact fun h => absurd rfl h

/-! ### The quick version -/

/-- What the quick loop has accumulated after the usable pairs `us`. -/
structure QuickInv (fft : List K → List (Cx K)) (dt : K) (n : Nat) (us : List (Segment K × Segment K))
    (acc : QuickAcc K) : Prop where
  nAve : acc.nAve = us.length
  sumPh1 : acc.sumPh1 = (us.map fun s => s.1.data.1.sum).sum
  sumPh2 : acc.sumPh2 = (us.map fun s => s.2.data.1.sum).sum
  unnorm : SumOf (nCut false n) acc.unnorm (us.map (pairCross fft n false))
  nBin : us ≠ [] → acc.nBin = n
  fgt0 : us ≠ [] → acc.fgt0 = positiveFftBins n false
  freq : us ≠ [] → acc.freq = fftfreq n dt

/-- no errors on the fluxes -/
def Segment.plain : Segment K → Bool
  | .fluxErr _ _ => false
  | _ => true

theorem quickStep_spec (hfft : ∀ l, (fft l).length = l.length)
    {us : List (Segment K × Segment K)} {acc : QuickAcc K} (hI : QuickInv fft dt n us acc)
    {s : Segment K × Segment K} (hs : (s.1.skipped || s.2.skipped) = false)
    (hp1 : s.1.plain = true) (hp2 : s.2.plain = true)
    (hn1 : s.1.data.1.length = n) (hn2 : s.2.data.1.length = n) :
    ∃ acc', quickStep fft dt acc s = .ok acc' ∧ QuickInv fft dt n (us ++ [s]) acc' := by
  have hnone : acc.unnorm.isNone = us.isEmpty := by
    rw [hI.unnorm.isNone]; cases us <;> rfl
  have hU := sumOrInit_eq hI.unnorm _ (pairCross_length hfft false s hn1 hn2)
  obtain ⟨s1, s2⟩ := s
  cases s1 with
  | missing => simp [Segment.skipped] at hs
  | fluxErr f e => simp [Segment.plain] at hp1
  | flux f1 =>
    cases s2 with
    | missing => simp [Segment.skipped] at hs
    | fluxErr f e => simp [Segment.plain] at hp2
    | flux f2 =>
      simp only [Segment.data] at hn1 hn2
      have hf : (if acc.unnorm.isNone then positiveFftBins f1.length false else acc.fgt0) =
          positiveFftBins n false := by
        rw [hnone, hn1]
        cases us with
        | nil => rfl
        | cons a l => simp [hI.fgt0 (by simp)]
      have hq : (if acc.unnorm.isNone then fftfreq f1.length dt else acc.freq) = fftfreq n dt := by
        rw [hnone, hn1]
        cases us with
        | nil => rfl
        | cons a l => simp [hI.freq (by simp)]
      have hlen : ¬ (f1.length ≠ f2.length) := by rw [hn1, hn2]; simp
      have a0 : slice (positiveFftBins n false) (crossProduct (fft f1) (fft f2)) =
          pairCross fft n false (.flux f1, .flux f2) := rfl
      refine ⟨{ unnorm := some (columnSum (nCut false n) (us.map (pairCross fft n false) ++
                  [pairCross fft n false (.flux f1, .flux f2)]))
                nAve := acc.nAve + 1, sumPh1 := acc.sumPh1 + f1.sum, sumPh2 := acc.sumPh2 + f2.sum,
                nBin := f1.length, freq := fftfreq n dt, fgt0 := positiveFftBins n false }, ?_, ?_⟩
      · unfold quickStep
        simp only [hs, Bool.false_eq_true, if_false, hlen, hf, hq, a0, hU, bind, Except.bind]
      · refine ⟨?_, ?_, ?_, ?_, ?_, ?_, ?_⟩
        · simp [hI.nAve]
        · simp [hI.sumPh1, Segment.data]
        · simp [hI.sumPh2, Segment.data]
        · rw [List.map_append]; exact sumOf_append _
        · intro _; exact hn1
        · intro _; rfl
        · intro _; rfl

theorem quick_foldlM (hfft : ∀ l, (fft l).length = l.length) (segs : List (Segment K × Segment K)) :
    ∀ (us : List (Segment K × Segment K)) (acc : QuickAcc K), QuickInv fft dt n us acc →
    (∀ s ∈ segs, s.1.plain = true ∧ s.2.plain = true) →
    (∀ s ∈ segs, pairUsed s = true → s.1.data.1.length = n ∧ s.2.data.1.length = n) →
    ∃ acc', segs.foldlM (quickStep fft dt) acc = .ok acc' ∧
      QuickInv fft dt n (us ++ segs.filter pairUsed) acc' := by
  induction segs with
  | nil =>
    intro us acc hI _ _
    simp only [List.foldlM_nil, List.filter_nil, List.append_nil]
    exact ⟨_, rfl, hI⟩
  | cons s segs ih =>
    intro us acc hI hp hlen
    rw [List.foldlM_cons]
    cases hs : (s.1.skipped || s.2.skipped) with
    | true =>
      have : quickStep fft dt acc s = .ok acc := by simp only [quickStep, hs, if_true]
      rw [this, List.filter_cons_of_neg (by simp [pairUsed, hs])]
      exact ih us acc hI (fun x hx => hp x (by simp [hx])) (fun x hx => hlen x (by simp [hx]))
    | false =>
      have hu : pairUsed s = true := by simp [pairUsed, hs]
      rw [List.filter_cons_of_pos hu]
      obtain ⟨l1, l2⟩ := hlen s (by simp) hu
      obtain ⟨q1, q2⟩ := hp s (by simp)
      obtain ⟨acc1, e1, hI1⟩ := quickStep_spec hfft hI hs q1 q2 l1 l2
      rw [e1]
      have := ih (us ++ [s]) acc1 hI1 (fun x hx => hp x (by simp [hx])) (fun x hx => hlen x (by simp [hx]))
      rw [List.append_assoc] at this
      exact this

theorem quickInv_init : QuickInv fft dt n [] { sumPh1 := 0, sumPh2 := 0 } := by
  refine ⟨rfl, rfl, rfl, sumOf_nil _, ?_, ?_, ?_⟩ <;> exact fun h => absurd rfl h

end cross

end Stingray.Fourier

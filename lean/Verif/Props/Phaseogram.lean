import Verif.Model.Phaseogram
import Verif.Props.Pulsar
import Mathlib.Algebra.BigOperators.Group.List.Basic
import Mathlib.Algebra.BigOperators.Group.Finset.Basic
import Mathlib.Data.Rat.Floor

/-!
C179: phaseograms and times of arrival.
-/

set_option linter.unusedSectionVars false

namespace Stingray.Phaseogram

open Stingray Stingray.Spec

variable {K : Type} [Field K] [LinearOrder K] [IsStrictOrderedRing K] [FloorRing K]

theorem linspace_get (a b : K) (n i : Nat) (h : i ≤ n) : (linspace a b n)[i]? = some (a + (i : K) * ((b - a) / n)) := by
  rw [linspace, List.getElem?_map, List.getElem?_range (by omega)]
  rfl

theorem linspace_length (a b : K) (n : Nat) : (linspace a b n).length = n + 1 := by simp [linspace]

/-- A number is in the `i`-th of `n` equal bins from `a` to `b`, the last of which has its upper end. -/
def InEqualBin (a b : K) (n i : Nat) (x : K) : Prop :=
  i < n ∧ ((a + (b - a) * i / n ≤ x ∧ x < a + (b - a) * (i + 1) / n) ∨ (i + 1 = n ∧ x = b))

theorem inBin_iff (a b : K) (n i : Nat) (x : K) : inBin (linspace a b n) i x = true ↔ InEqualBin a b n i x := by
  by_cases hi : i < n
  · have hn : (n : K) ≠ 0 := by
      have : 0 < n := by omega
      exact_mod_cast this.ne'
    simp only [inBin, linspace_get a b n i hi.le, linspace_get a b n (i + 1) hi, linspace_length]
    have e1 : a + (i : K) * ((b - a) / n) = a + (b - a) * i / n := by ring
    have e2 : a + ((i + 1 : Nat) : K) * ((b - a) / n) = a + (b - a) * (i + 1) / n := by push_cast; ring
    rw [e1, e2]
    simp only [InEqualBin, hi, true_and, Bool.or_eq_true, Bool.and_eq_true, decide_eq_true_eq]
    constructor
    · rintro (h | ⟨h1, h2⟩)
      · exact Or.inl h
      · refine Or.inr ⟨by omega, ?_⟩
        have h3 : ((i : K) + 1) = n := by exact_mod_cast (by omega : i + 1 = n)
        rw [h2, h3]
        field_simp
        ring
    · rintro (h | ⟨h1, h2⟩)
      · exact Or.inl h
      · refine Or.inr ⟨by omega, ?_⟩
        have h3 : ((i : K) + 1) = n := by exact_mod_cast h1
        rw [h2, h3]
        field_simp
        ring
  · have : (linspace a b n)[i + 1]? = none := List.getElem?_eq_none (by rw [linspace_length]; omega)
    simp only [inBin, this, InEqualBin, hi, false_and, iff_false]
    cases (linspace a b n)[i]? <;> simp

/-- The phase of an event for the reference time `ref`. -/
def phaseOf (f fdot fddot ph0 ref t : K) : K := Int.fract (ph0 + f * (t - ref) + fdot * (t - ref) ^ 2 / 2 + fddot * (t - ref) ^ 3 / 6)

theorem phaseOf_eq (f fdot fddot ph0 ref t : K) : Pulsar.pulsePhase (t - ref) [f, fdot, fddot] ph0 true = phaseOf f fdot fddot ph0 ref t := by
  rw [Pulsar.pulsePhase_true, phasePoly, phaseOf]
  congr 1
  simp [List.range_succ, Nat.factorial]
  ring

/-- Where an event is on the time axis. -/
def axisOf (mjdref : Option K) (t : K) : K :=
  match mjdref with
  | some m => t / 86400 + m
  | none => t

/-- The reference time in seconds: the given one, converted from MJD with a reference MJD, or the middle of the observation, from which (wrongly, see `phaseogram_default_epoch`) a reference MJD is subtracted. -/
def epochSeconds (first last : K) : (mjdref pepoch : Option K) → K
  | none, some p => p
  | some m, some p => (p - m) * 86400
  | none, none => (first + last) / 2
  | some m, none => (first + last) / 2 - 86400 * m

theorem reference_eq (first last : K) (mjdref pepoch : Option K) : reference first last mjdref pepoch = epochSeconds first last mjdref pepoch := by
  rcases mjdref with _ | m <;> rcases pepoch with _ | p <;> simp only [reference, epochSeconds, Option.isSome, if_true, if_false, Bool.false_eq_true]
  · ring
  · field_simp
    ring

open Classical in
/-- The total weight of the events with a phase in the `i`-th of `nph` bins and a time in the `j`-th of `nt` bins from `lo` to `hi`. -/
noncomputable def cellWeight (phase axis : K → K) (nph nt : Nat) (lo hi : K) (events : List (K × K)) (i j : Nat) : K :=
  ((events.filter fun e => decide ((i : K) / nph ≤ phase e.1 ∧ phase e.1 < ((i : K) + 1) / nph ∧ InEqualBin lo hi nt j (axis e.1))).map Prod.snd).sum

theorem phaseogram_eq (t0 : K) (ts : List K) (f fdot fddot : K) (nph nt : Nat) (ph0 : K) (mjdref pepoch : Option K) (w : List K) (hw : w.length = (t0 :: ts).length)
    (weights : Option (List K)) (hw' : weights.getD ((t0 :: ts).map fun _ => 1) = w) :
    let phase := phaseOf f fdot fddot ph0 (reference t0 ((t0 :: ts).getLastD t0) mjdref pepoch)
    let events := (t0 :: ts).zip w
    let lo := ((t0 :: ts).map (axisOf mjdref)).foldl min (axisOf mjdref t0)
    let hi := ((t0 :: ts).map (axisOf mjdref)).foldl max (axisOf mjdref t0)
    phaseogram (t0 :: ts) f fdot fddot nph nt ph0 mjdref pepoch weights = .ok (hist2d
      ((events.map fun e => ((phase e.1, axisOf mjdref e.1), e.2)) ++ events.map fun e => ((phase e.1 + 1, axisOf mjdref e.1), e.2))
      (linspace 0 2 (nph * 2)) (linspace lo hi nt), linspace 0 2 (nph * 2), linspace lo hi nt) := by
  intro phase events lo hi
  simp only [phaseogram, hw']
  rw [if_neg (by simpa using hw)]
  have ea : (timeAxis mjdref : K → K) = axisOf mjdref := rfl
  have ep : ((t0 :: ts).map fun t => Pulsar.pulsePhase (t - reference t0 ((t0 :: ts).getLastD t0) mjdref pepoch) [f, fdot, fddot] ph0 true) = (t0 :: ts).map phase :=
    List.map_congr_left fun t _ => phaseOf_eq _ _ _ _ _ _
  have hz : ∀ (l w : List K), w.length = l.length → ∀ (g : K → K),
      (((l.map g).zip (l.map (axisOf mjdref))).zip w) = (l.zip w).map fun e => ((g e.1, axisOf mjdref e.1), e.2) := by
    intro l
    induction l with
    | nil => intro w _ g; rfl
    | cons a l ih =>
      intro w hl g
      cases w with
      | nil => simp at hl
      | cons b w =>
        simp only [List.map_cons, List.zip_cons_cons, List.map_cons]
        rw [ih w (by simpa using hl) g]
  have key : ((((t0 :: ts).map phase ++ ((t0 :: ts).map phase).map (· + 1)).zip ((t0 :: ts).map (axisOf mjdref) ++ (t0 :: ts).map (axisOf mjdref))).zip (w ++ w)) =
      (events.map fun e => ((phase e.1, axisOf mjdref e.1), e.2)) ++ events.map fun e => ((phase e.1 + 1, axisOf mjdref e.1), e.2) := by
    rw [List.map_map, List.zip_append (by simp), List.zip_append (by simp [hw]), hz _ _ hw phase, hz _ _ hw]
    rfl
  rw [ep, ea, key]
  rfl

theorem hist2d_get (pts : List ((K × K) × K)) (ex ey : List K) (i j : Nat) (hi : i < ex.length - 1) (hj : j < ey.length - 1) :
    ((hist2d pts ex ey)[i]?).bind (fun r => r[j]?) = some ((pts.filter fun p => inBin ex i p.1.1 && inBin ey j p.1.2).map Prod.snd).sum := by
  rw [hist2d, List.getElem?_map, List.getElem?_range hi, Option.map_some, Option.bind_some, List.getElem?_map, List.getElem?_range hj]
  rfl

/-- **C179 (cells).** The phaseogram has `2 nph` rows of `nt` cells. A cell, and the one `nph` rows further on, has the total weight of the events whose phase, counted from the reference time with the frequency and its derivatives, and whose time are in its bins: the second cycle repeats the first. The bins of time are equal and run from the first to the last event. -/
theorem phaseogram_cells (times : List K) (hne : times ≠ []) (f fdot fddot : K) (nph nt : Nat) (hnph : 0 < nph) (ph0 : K) (mjdref pepoch : Option K)
    (weights : Option (List K)) (w : List K) (hw' : weights.getD (times.map fun _ => 1) = w) (hw : w.length = times.length) :
    let phase := phaseOf f fdot fddot ph0 (epochSeconds (times.headD 0) (times.getLastD 0) mjdref pepoch)
    ∃ m lo hi, phaseogram times f fdot fddot nph nt ph0 mjdref pepoch weights = .ok (m, linspace 0 2 (nph * 2), linspace lo hi nt) ∧
      (∃ t ∈ times, lo = axisOf mjdref t) ∧ (∃ t ∈ times, hi = axisOf mjdref t) ∧ (∀ t ∈ times, lo ≤ axisOf mjdref t ∧ axisOf mjdref t ≤ hi) ∧
      m.length = 2 * nph ∧ (∀ r ∈ m, r.length = nt) ∧
      ∀ i j, i < nph → j < nt →
        (m[i]?).bind (fun r => r[j]?) = some (cellWeight phase (axisOf mjdref) nph nt lo hi (times.zip w) i j) ∧
        (m[nph + i]?).bind (fun r => r[j]?) = some (cellWeight phase (axisOf mjdref) nph nt lo hi (times.zip w) i j) := by
  classical
  intro phase
  obtain ⟨t0, ts, rfl⟩ : ∃ t0 ts, times = t0 :: ts := by
    cases times with
    | nil => exact absurd rfl hne
    | cons t0 ts => exact ⟨t0, ts, rfl⟩
  have hl0 : (t0 :: ts).getLastD t0 = (t0 :: ts).getLastD 0 := by rw [List.getLastD_cons, List.getLastD_cons]
  have heq := phaseogram_eq t0 ts f fdot fddot nph nt ph0 mjdref pepoch w hw weights hw'
  simp only [hl0] at heq
  set lo := ((t0 :: ts).map (axisOf mjdref)).foldl min (axisOf mjdref t0) with hlo
  set hi := ((t0 :: ts).map (axisOf mjdref)).foldl max (axisOf mjdref t0) with hhi
  have hph : phase = phaseOf f fdot fddot ph0 (reference t0 ((t0 :: ts).getLastD 0) mjdref pepoch) := by
    rw [reference_eq]
    rfl
  rw [← hph] at heq
  have fmin : ∀ (l : List K) (a : K), (l.foldl min a = a ∨ l.foldl min a ∈ l) ∧ l.foldl min a ≤ a ∧ ∀ x ∈ l, l.foldl min a ≤ x := by
    intro l
    induction l with
    | nil => intro a; simp
    | cons b l ih =>
      intro a
      obtain ⟨h1, h2, h3⟩ := ih (min a b)
      refine ⟨?_, le_trans h2 (min_le_left _ _), ?_⟩
      · simp only [List.foldl_cons, List.mem_cons]
        rcases h1 with h | h
        · rcases min_choice a b with h' | h'
          · left; rw [h, h']
          · right; left; rw [h, h']
        · right; right; exact h
      · intro x hx
        rcases List.mem_cons.1 hx with rfl | hx
        · exact le_trans h2 (min_le_right _ _)
        · exact h3 x hx
  have fmax : ∀ (l : List K) (a : K), (l.foldl max a = a ∨ l.foldl max a ∈ l) ∧ a ≤ l.foldl max a ∧ ∀ x ∈ l, x ≤ l.foldl max a := by
    intro l
    induction l with
    | nil => intro a; simp
    | cons b l ih =>
      intro a
      obtain ⟨h1, h2, h3⟩ := ih (max a b)
      refine ⟨?_, le_trans (le_max_left _ _) h2, ?_⟩
      · simp only [List.foldl_cons, List.mem_cons]
        rcases h1 with h | h
        · rcases max_choice a b with h' | h'
          · left; rw [h, h']
          · right; left; rw [h, h']
        · right; right; exact h
      · intro x hx
        rcases List.mem_cons.1 hx with rfl | hx
        · exact le_trans (le_max_right _ _) h2
        · exact h3 x hx
  have hnphK : (0 : K) < nph := by exact_mod_cast hnph
  have ph01 : ∀ t, 0 ≤ phase t ∧ phase t < 1 := fun t => ⟨Int.fract_nonneg _, Int.fract_lt_one _⟩
  have hbin : ∀ (i : Nat) (x : K), inBin (linspace 0 2 (nph * 2)) i x = true ↔
      (i < nph * 2 ∧ (((i : K) / nph ≤ x ∧ x < ((i : K) + 1) / nph) ∨ (i + 1 = nph * 2 ∧ x = 2))) := by
    intro i x
    rw [inBin_iff, InEqualBin]
    have e1 : (0 : K) + (2 - 0) * i / ((nph * 2 : Nat) : K) = (i : K) / nph := by push_cast; field_simp; ring
    have e2 : (0 : K) + (2 - 0) * (i + 1) / ((nph * 2 : Nat) : K) = ((i : K) + 1) / nph := by push_cast; field_simp; ring
    rw [e1, e2]
  -- the first cycle
  have c1 : ∀ i t, i < nph → (inBin (linspace 0 2 (nph * 2)) i (phase t) = true ↔ (i : K) / nph ≤ phase t ∧ phase t < ((i : K) + 1) / nph) := by
    intro i t hi'
    rw [hbin]
    constructor
    · rintro ⟨_, h | ⟨h, _⟩⟩
      · exact h
      · omega
    · intro h; exact ⟨by omega, Or.inl h⟩
  have c2 : ∀ i t, i < nph → inBin (linspace 0 2 (nph * 2)) i (phase t + 1) = false := by
    intro i t hi'
    rw [← Bool.not_eq_true, hbin]
    rintro ⟨_, ⟨_, h⟩ | ⟨h, _⟩⟩
    · have h1 : ((i : K) + 1) / nph ≤ 1 := by
        rw [div_le_one hnphK]
        exact_mod_cast hi'
      linarith [(ph01 t).1]
    · omega
  have c3 : ∀ i t, i < nph → inBin (linspace 0 2 (nph * 2)) (nph + i) (phase t) = false := by
    intro i t hi'
    rw [← Bool.not_eq_true, hbin]
    rintro ⟨_, ⟨h, _⟩ | ⟨_, h⟩⟩
    · have h1 : (1 : K) ≤ ((nph + i : Nat) : K) / nph := by
        rw [le_div_iff₀ hnphK]
        push_cast
        have : (0 : K) ≤ i := Nat.cast_nonneg i
        linarith
      linarith [(ph01 t).2]
    · linarith [(ph01 t).2]
  have c4 : ∀ i t, i < nph → (inBin (linspace 0 2 (nph * 2)) (nph + i) (phase t + 1) = true ↔ (i : K) / nph ≤ phase t ∧ phase t < ((i : K) + 1) / nph) := by
    intro i t hi'
    rw [hbin]
    have e1 : ((nph + i : Nat) : K) / nph = (i : K) / nph + 1 := by push_cast; field_simp; ring
    have e2 : (((nph + i : Nat) : K) + 1) / nph = ((i : K) + 1) / nph + 1 := by push_cast; field_simp; ring
    rw [e1, e2]
    constructor
    · rintro ⟨_, h | ⟨_, h⟩⟩
      · exact ⟨by linarith [h.1], by linarith [h.2]⟩
      · linarith [(ph01 t).2]
    · intro h
      exact ⟨by omega, Or.inl ⟨by linarith [h.1], by linarith [h.2]⟩⟩
  refine ⟨_, lo, hi, heq, ?_, ?_, ?_, ?_, ?_, ?_⟩
  · rcases (fmin ((t0 :: ts).map (axisOf mjdref)) (axisOf mjdref t0)).1 with h | h
    · exact ⟨t0, by simp, h⟩
    · obtain ⟨t, ht, he⟩ := List.mem_map.1 h
      exact ⟨t, ht, he.symm⟩
  · rcases (fmax ((t0 :: ts).map (axisOf mjdref)) (axisOf mjdref t0)).1 with h | h
    · exact ⟨t0, by simp, h⟩
    · obtain ⟨t, ht, he⟩ := List.mem_map.1 h
      exact ⟨t, ht, he.symm⟩
  · intro t ht
    exact ⟨(fmin _ _).2.2 _ (List.mem_map_of_mem ht), (fmax _ _).2.2 _ (List.mem_map_of_mem ht)⟩
  · simp [hist2d, linspace_length, Nat.mul_comm]
  · intro r hr
    obtain ⟨i, _, rfl⟩ := List.mem_map.1 hr
    simp [linspace_length]
  · intro i j hi' hj
    constructor
    · rw [hist2d_get _ _ _ _ _ (by rw [linspace_length]; omega) (by rw [linspace_length]; omega)]
      rw [List.filter_append, List.map_append, List.sum_append]
      have z : ((((t0 :: ts).zip w).map fun e => ((phase e.1 + 1, axisOf mjdref e.1), e.2)).filter fun p => inBin (linspace 0 2 (nph * 2)) i p.1.1 && inBin (linspace lo hi nt) j p.1.2) = [] := by
        rw [List.filter_eq_nil_iff]
        intro p hp
        obtain ⟨e, _, rfl⟩ := List.mem_map.1 hp
        simp [c2 i e.1 hi']
      rw [z, List.map_nil, List.sum_nil, add_zero, List.filter_map, List.map_map, cellWeight]
      congr 2
      apply congrArg
      apply List.filter_congr
      intro e _
      rw [Bool.eq_iff_iff]
      simp only [Function.comp, Bool.and_eq_true, decide_eq_true_eq, c1 i e.1 hi', inBin_iff, and_assoc]
    · rw [hist2d_get _ _ _ _ _ (by rw [linspace_length]; omega) (by rw [linspace_length]; omega)]
      rw [List.filter_append, List.map_append, List.sum_append]
      have z : ((((t0 :: ts).zip w).map fun e => ((phase e.1, axisOf mjdref e.1), e.2)).filter fun p => inBin (linspace 0 2 (nph * 2)) (nph + i) p.1.1 && inBin (linspace lo hi nt) j p.1.2) = [] := by
        rw [List.filter_eq_nil_iff]
        intro p hp
        obtain ⟨e, _, rfl⟩ := List.mem_map.1 hp
        simp [c3 i e.1 hi']
      rw [z, List.map_nil, List.sum_nil, zero_add, List.filter_map, List.map_map, cellWeight]
      congr 2
      apply congrArg
      apply List.filter_congr
      intro e _
      rw [Bool.eq_iff_iff]
      simp only [Function.comp, Bool.and_eq_true, decide_eq_true_eq, c4 i e.1 hi', inBin_iff, and_assoc]

theorem inEqualBin_iff (a b : K) (n i : Nat) (hn : 0 < n) (x : K) (h1 : a ≤ x) (h2 : x ≤ b) :
    InEqualBin a b n i x ↔ i = if x = b then n - 1 else ⌊(x - a) * n / (b - a)⌋₊ := by
  have hnK : (0 : K) < n := by exact_mod_cast hn
  by_cases hx : x = b
  · rw [if_pos hx]
    constructor
    · rintro ⟨hi, ⟨_, h⟩ | ⟨h, _⟩⟩
      · exfalso
        have h3 : ((i : K) + 1) / n ≤ 1 := by
          rw [div_le_one hnK]
          exact_mod_cast hi
        have h4 : (b - a) * (i + 1) / n ≤ b - a := by
          rw [mul_div_assoc]
          exact mul_le_of_le_one_right (by linarith) h3
        linarith
      · omega
    · intro h
      exact ⟨by omega, Or.inr ⟨by omega, hx⟩⟩
  · rw [if_neg hx]
    have hxb : x < b := lt_of_le_of_ne h2 hx
    have hab : 0 < b - a := by linarith
    have hq : 0 ≤ (x - a) * n / (b - a) := div_nonneg (mul_nonneg (by linarith) hnK.le) hab.le
    have e1 : (a + (b - a) * i / n ≤ x) ↔ (i : K) ≤ (x - a) * n / (b - a) := by
      rw [le_div_iff₀ hab, ← le_sub_iff_add_le', div_le_iff₀ hnK, mul_comm (i : K)]
    have e2 : (x < a + (b - a) * (i + 1) / n) ↔ (x - a) * n / (b - a) < (i : K) + 1 := by
      rw [div_lt_iff₀ hab, ← sub_lt_iff_lt_add', lt_div_iff₀ hnK, mul_comm ((i : K) + 1)]
    have hlt : (x - a) * n / (b - a) < n := by
      rw [div_lt_iff₀ hab, mul_comm]
      exact mul_lt_mul_of_pos_left (by linarith) hnK
    rw [InEqualBin, e1, e2]
    constructor
    · rintro ⟨_, h | ⟨_, h⟩⟩
      · exact ((Nat.floor_eq_iff hq).2 h).symm
      · exact absurd h hx
    · intro h
      have h3 := (Nat.floor_eq_iff hq).1 h.symm
      refine ⟨?_, Or.inl h3⟩
      exact_mod_cast lt_of_le_of_lt h3.1 hlt

theorem hist2d_total (pts : List ((K × K) × K)) (a b c d : K) (n m : Nat) (hn : 0 < n) (hm : 0 < m)
    (h : ∀ p ∈ pts, (a ≤ p.1.1 ∧ p.1.1 ≤ b) ∧ c ≤ p.1.2 ∧ p.1.2 ≤ d) :
    ((hist2d pts (linspace a b n) (linspace c d m)).map List.sum).sum = (pts.map Prod.snd).sum := by
  have e : ((hist2d pts (linspace a b n) (linspace c d m)).map List.sum).sum =
      ∑ i ∈ Finset.range n, ∑ j ∈ Finset.range m, ((pts.filter fun p => inBin (linspace a b n) i p.1.1 && inBin (linspace c d m) j p.1.2).map Prod.snd).sum := by
    rw [hist2d, List.map_map, linspace_length, linspace_length]
    rfl
  rw [e]
  clear e
  induction pts with
  | nil => simp
  | cons p pts ih =>
    have hp := h p (by simp)
    rw [List.map_cons, List.sum_cons, ← ih (fun q hq => h q (by simp [hq]))]
    set i0 := if p.1.1 = b then n - 1 else ⌊(p.1.1 - a) * n / (b - a)⌋₊ with hi0
    set j0 := if p.1.2 = d then m - 1 else ⌊(p.1.2 - c) * m / (d - c)⌋₊ with hj0
    have hi : ∀ i, inBin (linspace a b n) i p.1.1 = decide (i = i0) := by
      intro i
      rw [Bool.eq_iff_iff, inBin_iff, inEqualBin_iff a b n i hn _ hp.1.1 hp.1.2, decide_eq_true_eq]
    have hj : ∀ j, inBin (linspace c d m) j p.1.2 = decide (j = j0) := by
      intro j
      rw [Bool.eq_iff_iff, inBin_iff, inEqualBin_iff c d m j hm _ hp.2.1 hp.2.2, decide_eq_true_eq]
    have hi0n : i0 < n := ((inEqualBin_iff a b n i0 hn _ hp.1.1 hp.1.2).2 rfl).1
    have hj0m : j0 < m := ((inEqualBin_iff c d m j0 hm _ hp.2.1 hp.2.2).2 rfl).1
    have step : ∀ i j, (((p :: pts).filter fun q => inBin (linspace a b n) i q.1.1 && inBin (linspace c d m) j q.1.2).map Prod.snd).sum =
        (if i = i0 then if j = j0 then p.2 else 0 else 0) + ((pts.filter fun q => inBin (linspace a b n) i q.1.1 && inBin (linspace c d m) j q.1.2).map Prod.snd).sum := by
      intro i j
      rw [List.filter_cons]
      by_cases h1 : i = i0
      · by_cases h2 : j = j0
        · rw [if_pos (by simp [hi, hj, h1, h2]), if_pos h1, if_pos h2, List.map_cons, List.sum_cons]
        · rw [if_neg (by simp [hj, h2]), if_pos h1, if_neg h2, zero_add]
      · rw [if_neg (by simp [hi, h1]), if_neg h1, zero_add]
    simp only [step, Finset.sum_add_distrib]
    congr 1
    rw [Finset.sum_eq_single i0]
    · rw [Finset.sum_eq_single j0]
      · simp
      · intro j _ hne
        simp [hne]
      · intro h'
        exact absurd (Finset.mem_range.2 hj0m) h'
    · intro i _ hne
      simp [hne]
    · intro h'
      exact absurd (Finset.mem_range.2 hi0n) h'

theorem foldl_min_le (l : List K) : ∀ a, l.foldl min a ≤ a ∧ ∀ x ∈ l, l.foldl min a ≤ x := by
  induction l with
  | nil => intro a; simp
  | cons b l ih =>
    intro a
    obtain ⟨h2, h3⟩ := ih (min a b)
    refine ⟨le_trans h2 (min_le_left _ _), ?_⟩
    intro x hx
    rcases List.mem_cons.1 hx with rfl | hx
    · exact le_trans h2 (min_le_right _ _)
    · exact h3 x hx

theorem le_foldl_max (l : List K) : ∀ a, a ≤ l.foldl max a ∧ ∀ x ∈ l, x ≤ l.foldl max a := by
  induction l with
  | nil => intro a; simp
  | cons b l ih =>
    intro a
    obtain ⟨h2, h3⟩ := ih (max a b)
    refine ⟨le_trans (le_max_left _ _) h2, ?_⟩
    intro x hx
    rcases List.mem_cons.1 hx with rfl | hx
    · exact le_trans (le_max_right _ _) h2
    · exact h3 x hx

example : (phaseogram [1, 2, (31 : ℚ) / 10, 4] (1 / 2) 0 0 2 2 0 none (some 0) none).map (·.1) =
    .ok [[1, 1], [1, 1], [1, 1], [1, 1]] := by decide +kernel

/-- **C179 (total).** No event is lost: the cells of a phaseogram add up to twice the total weight of the events. -/
theorem phaseogram_total (times : List K) (f fdot fddot : K) (nph nt : Nat) (hnph : 0 < nph) (hnt : 0 < nt) (ph0 : K) (mjdref pepoch : Option K)
    (weights : Option (List K)) (m : List (List K)) (ex ey : List K)
    (h : phaseogram times f fdot fddot nph nt ph0 mjdref pepoch weights = .ok (m, ex, ey)) :
    (m.map List.sum).sum = 2 * (weights.getD (times.map fun _ => 1)).sum := by
  cases times with
  | nil => cases pepoch <;> simp [phaseogram] at h
  | cons t0 ts =>
    by_cases hw : (weights.getD ((t0 :: ts).map fun _ => 1)).length = (t0 :: ts).length
    · have heq := phaseogram_eq t0 ts f fdot fddot nph nt ph0 mjdref pepoch _ hw weights rfl
      rw [h] at heq
      simp only [Except.ok.injEq, Prod.mk.injEq] at heq
      rw [heq.1, hist2d_total _ _ _ _ _ _ _ (by omega) hnt]
      · rw [List.map_append, List.sum_append, List.map_map, List.map_map]
        have e : (((t0 :: ts).zip (weights.getD ((t0 :: ts).map fun _ => 1))).map Prod.snd) = weights.getD ((t0 :: ts).map fun _ => 1) :=
          List.map_snd_zip (by rw [hw])
        conv_rhs => rw [← e, two_mul]
        rfl
      · intro p hp
        rcases List.mem_append.1 hp with hp | hp
        · obtain ⟨e, he, rfl⟩ := List.mem_map.1 hp
          have hm : e.1 ∈ t0 :: ts := (List.of_mem_zip he).1
          refine ⟨⟨Int.fract_nonneg _, ?_⟩, (foldl_min_le _ _).2 _ (List.mem_map_of_mem hm), (le_foldl_max _ _).2 _ (List.mem_map_of_mem hm)⟩
          exact le_trans (Int.fract_lt_one _).le (by norm_num)
        · obtain ⟨e, he, rfl⟩ := List.mem_map.1 hp
          have hm : e.1 ∈ t0 :: ts := (List.of_mem_zip he).1
          refine ⟨⟨add_nonneg (Int.fract_nonneg _) zero_le_one, ?_⟩, (foldl_min_le _ _).2 _ (List.mem_map_of_mem hm), (le_foldl_max _ _).2 _ (List.mem_map_of_mem hm)⟩
          have := (Int.fract_lt_one (ph0 + f * (e.1 - reference t0 ((t0 :: ts).getLastD t0) mjdref pepoch) + fdot * (e.1 - reference t0 ((t0 :: ts).getLastD t0) mjdref pepoch) ^ 2 / 2 + fddot * (e.1 - reference t0 ((t0 :: ts).getLastD t0) mjdref pepoch) ^ 3 / 6)).le
          show Int.fract _ + 1 ≤ 2
          linarith
    · exfalso
      simp only [phaseogram] at h
      rw [if_pos hw] at h
      simp at h

/-- **C179 (refusals).** Without events, or with another number of weights than of events, there is no phaseogram. -/
theorem phaseogram_refuses (times : List K) (f fdot fddot : K) (nph nt : Nat) (ph0 : K) (mjdref pepoch : Option K) (weights : Option (List K)) :
    (∃ r, phaseogram times f fdot fddot nph nt ph0 mjdref pepoch weights = .ok r) ↔
      times ≠ [] ∧ ∀ w, weights = some w → w.length = times.length := by
  cases times with
  | nil => cases pepoch <;> simp [phaseogram]
  | cons t0 ts =>
    cases weights with
    | none =>
      simp [phaseogram]
    | some w =>
      by_cases hw : w.length = ts.length + 1
      · simp [phaseogram, hw]
      · simp [phaseogram, hw]

theorem inEqualBin_affine (a b : K) (n i : Nat) (x m : K) :
    InEqualBin (a / 86400 + m) (b / 86400 + m) n i (x / 86400 + m) ↔ InEqualBin a b n i x := by
  have e : ∀ y : K, a / 86400 + m + (b / 86400 + m - (a / 86400 + m)) * y / n = (a + (b - a) * y / n) / 86400 + m := by intro y; ring
  simp only [InEqualBin, e, add_le_add_iff_right, add_lt_add_iff_right, add_left_inj]
  have h : (0 : K) < 86400 := by norm_num
  rw [div_le_div_iff_of_pos_right h, div_lt_div_iff_of_pos_right h, div_left_inj' h.ne']

theorem linspace_affine (a b : K) (n : Nat) (m : K) :
    linspace (a / 86400 + m) (b / 86400 + m) n = (linspace a b n).map fun x => x / 86400 + m := by
  rw [linspace, linspace, List.map_map]
  apply List.map_congr_left
  intro i _
  simp only [Function.comp]
  ring

theorem foldl_map_mono (g : K → K) (op : K → K → K) (hg : ∀ x y, g (op x y) = op (g x) (g y)) (l : List K) :
    ∀ a, (l.map g).foldl op (g a) = g (l.foldl op a) := by
  induction l with
  | nil => intro a; rfl
  | cons b l ih =>
    intro a
    rw [List.map_cons, List.foldl_cons, List.foldl_cons, ← hg, ih]

/-- **C179 (MJD).** With a reference MJD and a reference epoch in MJD, the phaseogram is the one without them whose reference epoch is the same instant in seconds; only the axis of the times is changed to MJD. -/
theorem phaseogram_mjd (times : List K) (f fdot fddot : K) (nph nt : Nat) (ph0 m p : K) (weights : Option (List K)) :
    phaseogram times f fdot fddot nph nt ph0 (some m) (some p) weights =
      (phaseogram times f fdot fddot nph nt ph0 none (some ((p - m) * 86400)) weights).map fun r => (r.1, r.2.1, r.2.2.map fun t => t / 86400 + m) := by
  cases times with
  | nil => rfl
  | cons t0 ts =>
    by_cases hw : (weights.getD ((t0 :: ts).map fun _ => 1)).length = (t0 :: ts).length
    · rw [phaseogram_eq t0 ts f fdot fddot nph nt ph0 (some m) (some p) _ hw weights rfl,
        phaseogram_eq t0 ts f fdot fddot nph nt ph0 none (some ((p - m) * 86400)) _ hw weights rfl]
      have hr : reference t0 ((t0 :: ts).getLastD t0) (some m) (some p) = reference t0 ((t0 :: ts).getLastD t0) none (some ((p - m) * 86400)) := rfl
      rw [hr]
      set phase := phaseOf f fdot fddot ph0 (reference t0 ((t0 :: ts).getLastD t0) none (some ((p - m) * 86400)))
      have hpos : (0 : K) < 86400 := by norm_num
      have hmono : Monotone fun t : K => t / 86400 + m := fun x y hxy => by
        have := (div_le_div_iff_of_pos_right hpos).2 hxy
        show x / 86400 + m ≤ y / 86400 + m
        linarith
      have hmin : ((t0 :: ts).map (axisOf (some m))).foldl min (axisOf (some m) t0) = ((t0 :: ts).map (axisOf none)).foldl min (axisOf none t0) / 86400 + m := by
        have := foldl_map_mono (fun t : K => t / 86400 + m) min (fun x y => hmono.map_min) (t0 :: ts) t0
        have e : (t0 :: ts).map (axisOf none) = t0 :: ts := List.map_id _
        rw [e]
        exact this
      have hmax : ((t0 :: ts).map (axisOf (some m))).foldl max (axisOf (some m) t0) = ((t0 :: ts).map (axisOf none)).foldl max (axisOf none t0) / 86400 + m := by
        have := foldl_map_mono (fun t : K => t / 86400 + m) max (fun x y => hmono.map_max) (t0 :: ts) t0
        have e : (t0 :: ts).map (axisOf none) = t0 :: ts := List.map_id _
        rw [e]
        exact this
      rw [hmin, hmax]
      set lo := ((t0 :: ts).map (axisOf none)).foldl min (axisOf none t0)
      set hi := ((t0 :: ts).map (axisOf none)).foldl max (axisOf none t0)
      simp only [Except.map, linspace_affine, Except.ok.injEq, Prod.mk.injEq, and_true, true_and]
      rw [← linspace_affine]
      unfold hist2d
      rw [linspace_length, linspace_length, linspace_length]
      apply List.map_congr_left
      intro i _
      apply List.map_congr_left
      intro j _
      have hb : ∀ t : K, inBin (linspace (lo / 86400 + m) (hi / 86400 + m) nt) j (axisOf (some m) t) = inBin (linspace lo hi nt) j (axisOf none t) := by
        intro t
        rw [Bool.eq_iff_iff, inBin_iff, inBin_iff]
        exact inEqualBin_affine lo hi nt j t m
      rw [List.filter_append, List.filter_append, List.map_append, List.map_append, List.filter_map, List.filter_map, List.filter_map, List.filter_map,
        List.map_map, List.map_map, List.map_map, List.map_map]
      simp only [Function.comp_def, hb]
    · simp only [phaseogram]
      rw [if_pos hw, if_pos hw]
      rfl

example : (phaseogram [0, (86400 : ℚ)] (1 / 172800) 0 0 4 2 0 (some 1) (some (3 / 2)) none).map (·.1) =
    .ok [[0, 0], [0, 1], [0, 0], [1, 0], [0, 0], [0, 1], [0, 0], [1, 0]] := by decide +kernel

/-- **C179 (negation).** Giving only a reference MJD moves the pulse: the middle of the observation, in seconds after the reference MJD, is then taken as an MJD, so the reference epoch is not in the middle of the observation. -/
theorem phaseogram_default_epoch : ¬ ∀ (times : List ℚ) (f m : ℚ),
    (phaseogram times f 0 0 4 2 0 (some m) none none).map (·.1) = (phaseogram times f 0 0 4 2 0 none none none).map (·.1) := by
  intro h
  have := h [0, 86400] (1 / 172800) 1
  revert this
  decide +kernel

/-- **C179 (time of arrival).** The time of arrival is in the first period from the start time, differs from the start plus the fitted phase by a whole number of periods, does not change with a whole additional phase, and its error is the error of the phase times the period. -/
theorem toa_in_period (phase err period tstart additional : K) (hp : 0 < period) :
    let r := getToa (phase, err) period tstart additional
    tstart ≤ r.1 ∧ r.1 < tstart + period ∧ (∃ n : ℤ, r.1 = tstart + (phase + additional) * period + n * period) ∧
      r.2 = err * period ∧ ∀ n : ℤ, getToa (phase, err) period tstart (additional + n) = r := by
  intro r
  have e : r.1 = tstart + Int.fract (phase + additional) * period := rfl
  refine ⟨?_, ?_, ⟨-⌊phase + additional⌋, ?_⟩, rfl, ?_⟩
  · rw [e]
    have := mul_nonneg (Int.fract_nonneg (phase + additional)) hp.le
    linarith
  · rw [e]
    have := mul_lt_mul_of_pos_right (Int.fract_lt_one (phase + additional)) hp
    linarith
  · rw [e, Int.fract]
    push_cast
    ring
  · intro n
    apply Prod.ext
    · show tstart + Int.fract (phase + (additional + n)) * period = tstart + Int.fract (phase + additional) * period
      rw [← add_assoc, Int.fract_add_intCast]
    · rfl

example : getToa ((7 : ℚ) / 4, 1 / 10) 2 100 (1 / 2) = (100 + 1 / 2, 1 / 5) := by decide +kernel

end Stingray.Phaseogram

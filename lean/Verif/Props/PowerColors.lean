import Verif.Model.PowerColors
import Verif.Props.FourierNorm
import Verif.Lemmas.GtiSegments
import Mathlib.Algebra.Order.Ring.Rat
import Mathlib.Tactic.NormNum
import Mathlib.Analysis.SpecialFunctions.Pow.Real

/-!
# C129, C130: power colours and hues
-/

set_option linter.unusedSectionVars false

namespace Stingray.PowerColors

open Stingray Stingray.Gti Stingray.Fourier

section
variable {K : Type} [Field K] [LinearOrder K] [IsStrictOrderedRing K]

/-! ## Colours -/

/-- the bins of a spectrum with frequencies `f0, f0 + df, …` -/
def evenSpec (f0 df : K) (powers : List K) : List (K × K) := powers.zipIdx.map fun p => (f0 + (p.2 : K) * df, p.1)

theorem contiguous_even (f0 df noise : K) (hdf : 0 < df) (powers : List K) : Contiguous (toBins (evenSpec f0 df powers) df noise) := by
  unfold toBins evenSpec
  suffices ∀ k : Nat, Contiguous (((powers.zipIdx k).map fun p => (f0 + (p.2 : K) * df, p.1)).map fun p => (⟨p.1, df, p.2, noise⟩ : PowerBin K)) from this 0
  induction powers with
  | nil => intro k; trivial
  | cons p ps ih =>
    intro k
    have ih := ih (k + 1)
    cases ps with
    | nil => exact hdf
    | cons q qs =>
      simp only [List.zipIdx_cons, List.map_cons] at ih ⊢
      refine ⟨hdf, ?_, ih⟩
      push_cast; ring

/-- **C129 (partial).** For evenly spaced frequencies and five increasing edges inside of the frequency range, such that each of the four bands has at least two bins, and without excluded frequencies, the first colour is the (noise-subtracted) power in the first band divided by that in the third, the second colour
the power in the second divided by that in the fourth; the colour has no value when its denominator is zero. The powers given are not modified. Missing: bands inside a single bin (C46), and excluded frequencies, see below. -/
theorem power_color_partial (f0 df noise : K) (hdf : 0 < df) (powers : List K) (a0 a1 a2 a3 a4 : K) (h01 : a0 < a1) (h12 : a1 < a2) (h23 : a2 < a3) (h34 : a3 < a4)
    (first last : K × K) (hf : (evenSpec f0 df powers).head? = some first) (hl : (evenSpec f0 df powers).getLast? = some last)
    (hlo : first.1 - df / 2 ≤ a0) (hhi : a4 ≤ last.1 + df / 2)
    (hb : ∀ p ∈ [(a0, a1), (a1, a2), (a2, a3), (a3, a4)], 2 ≤ ((toBins (evenSpec f0 df powers) df noise).filter fun b => decide (Meets p.1 p.2 b)).length) :
    ∃ pc0 pc1, powerColor (evenSpec f0 df powers) df [a0, a1, a2, a3, a4] [] noise = .ok ((pc0, pc1), (evenSpec f0 df powers).map Prod.snd) ∧
      let I := bandIntegral (toBins (evenSpec f0 df powers) df noise)
      (I a2 a3 = 0 → pc0 = none) ∧ (I a2 a3 ≠ 0 → ∃ c, pc0 = some c ∧ c * I a2 a3 = I a0 a1) ∧
      (I a3 a4 = 0 → pc1 = none) ∧ (I a3 a4 ≠ 0 → ∃ c, pc1 = some c ∧ c * I a3 a4 = I a1 a2) := by
  have hcont := contiguous_even f0 df noise hdf powers
  have hint : ∀ p ∈ [(a0, a1), (a1, a2), (a2, a3), (a3, a4)], p.1 < p.2 → a0 ≤ p.1 → p.2 ≤ a4 →
      integratePower (toBins (evenSpec f0 df powers) df noise) p.1 p.2 = .ok (bandIntegral (toBins (evenSpec f0 df powers) df noise) p.1 p.2) := by
    intro p hp hlt h1 h2
    refine integrate_power_partial _ p.1 p.2 hlt hcont ?_ ?_ (hb p hp)
    · intro b hbm
      unfold toBins at hbm
      rw [List.head?_map, hf] at hbm
      simp only [Option.map_some, Option.mem_some_iff] at hbm
      rw [← hbm]
      exact hlo.trans h1
    · intro b hbm
      unfold toBins at hbm
      rw [List.getLast?_map, hl] at hbm
      simp only [Option.map_some, Option.mem_some_iff] at hbm
      rw [← hbm]
      exact h2.trans hhi
  have i0 := hint (a0, a1) (by simp) h01 le_rfl (by simp only; linarith)
  have i1 := hint (a1, a2) (by simp) h12 h01.le (by simp only; linarith)
  have i2 := hint (a2, a3) (by simp) h23 (by simp only; linarith) h34.le
  have i3 := hint (a3, a4) (by simp) h34 (by simp only; linarith) le_rfl
  simp only at i0 i1 i2 i3
  have hmin : min (min (min (min a0 a1) a2) a3) a4 = a0 := by
    rw [min_eq_left h01.le, min_eq_left (h01.trans h12).le, min_eq_left (h01.trans (h12.trans h23)).le, min_eq_left (h01.trans (h12.trans (h23.trans h34))).le]
  have hmax : max (max (max (max a0 a1) a2) a3) a4 = a4 := by
    rw [max_eq_right h01.le, max_eq_right h12.le, max_eq_right h23.le, max_eq_right h34.le]
  refine ⟨quotient (bandIntegral (toBins (evenSpec f0 df powers) df noise) a0 a1) (bandIntegral (toBins (evenSpec f0 df powers) df noise) a2 a3),
    quotient (bandIntegral (toBins (evenSpec f0 df powers) df noise) a1 a2) (bandIntegral (toBins (evenSpec f0 df powers) df noise) a3 a4), ?_, ?_⟩
  · unfold powerColor
    simp only [hf, hl, hmin, hmax]
    rw [if_neg (not_lt.2 hlo), if_neg (not_lt.2 hhi)]
    simp only [List.foldlM_nil, pure, Except.pure, i0, i1, i2, i3]
  · simp only
    refine ⟨fun h => ?_, fun h => ⟨_, ?_, div_mul_cancel₀ _ h⟩, fun h => ?_, fun h => ⟨_, ?_, div_mul_cancel₀ _ h⟩⟩
    · unfold quotient; rw [if_pos h]
    · unfold quotient; rw [if_neg h]
    · unfold quotient; rw [if_pos h]
    · unfold quotient; rw [if_neg h]

theorem fixLast_scale (e : K) (g : PowerBin K → PowerBin K) (hg : ∀ b, (g b).f = b.f ∧ (g b).df = b.df) :
    ∀ l : List (PowerBin K × K), fixLast e (l.map fun x => (g x.1, x.2)) = (fixLast e l).map fun x => (g x.1, x.2)
  | [] => rfl
  | [(b, w)] => by simp [fixLast, (hg b).1, (hg b).2]
  | x :: y :: l => by
    have := fixLast_scale e g hg (y :: l)
    simp only [List.map_cons] at this ⊢
    simp only [fixLast, this, List.map_cons]

theorem integratePower_scale (bins : List (PowerBin K)) (c a e : K) :
    integratePower (bins.map fun b => ⟨b.f, b.df, c * b.power, c * b.noise⟩) a e = (integratePower bins a e).map (c * ·) := by
  unfold integratePower
  simp only [List.filter_map, Function.comp_def, List.isEmpty_map]
  split_ifs
  · rfl
  · simp only [Except.map, Except.ok.injEq]
    set sel := bins.filter fun b => decide (a < b.f + b.df / 2) && decide (b.f - b.df / 2 < e)
    let g : PowerBin K → PowerBin K := fun b => ⟨b.f, b.df, c * b.power, c * b.noise⟩
    have h1 : fixFirst a ((sel.map g).map fun b => (b, (1 : K))) = (fixFirst a (sel.map fun b => (b, (1 : K)))).map fun x => (g x.1, x.2) := by
      cases sel with
      | nil => rfl
      | cons b l => simp [fixFirst, g, Function.comp_def]
    have h1' : fixFirst a ((sel.map fun b => (⟨b.f, b.df, c * b.power, c * b.noise⟩ : PowerBin K)).map fun b => (b, (1 : K))) =
      (fixFirst a (sel.map fun b => (b, (1 : K)))).map fun x => (g x.1, x.2) := h1
    rw [h1', fixLast_scale e g (fun b => ⟨rfl, rfl⟩), List.map_map, ← List.sum_map_mul_left]
    congr 1
    apply List.map_congr_left
    intro x _
    simp only [Function.comp, g]
    ring

theorem quotient_scale (c a b : K) (hc : c ≠ 0) : quotient (c * a) (c * b) = quotient a b := by
  unfold quotient
  by_cases hb : b = 0
  · simp [hb]
  · rw [if_neg (mul_ne_zero hc hb), if_neg hb, mul_div_mul_left _ _ hc]

theorem excludeRange_scale (c df : K) (spec : List (K × K)) (r : K × K) :
    excludeRange df (spec.map fun p => (p.1, c * p.2)) r = (excludeRange df spec r).map fun s => s.map fun p => (p.1, c * p.2) := by
  unfold excludeRange
  simp only [List.map_map, Function.comp_def]
  change (match (spec.map fun p => c * p.2)[searchsortedLeft (spec.map Prod.fst) r.1]?, (spec.map fun p => c * p.2)[searchsortedLeft (spec.map Prod.fst) r.2]? with
    | some p0, some p1 => Except.ok (spec.map fun (x : K × K) => if x.1 - df / 2 > r.1 ∧ x.1 + df / 2 < r.2 then (x.1, (p0 + p1) / 2) else (x.1, c * x.2))
    | _, _ => Except.error PyErr.indexError) = _
  simp only [List.getElem?_map]
  cases spec[searchsortedLeft (spec.map Prod.fst) r.1]? with
  | none => rfl
  | some p0 =>
  cases spec[searchsortedLeft (spec.map Prod.fst) r.2]? with
  | none => rfl
  | some p1 =>
  simp only [Option.map_some, Except.map]
  simp only [Except.ok.injEq, List.map_map]
  apply List.map_congr_left
  intro p _
  simp only [Function.comp]
  split_ifs
  · simp; ring
  · rfl

/-- **C129.** Colours do not depend on the normalisation of the powers: when the powers and the noise level are multiplied by the same number, the colours are the same (and the same inputs are refused), also with excluded frequencies. -/
theorem power_color_scale (c : K) (hc : c ≠ 0) (spec : List (K × K)) (df noise : K) (edges : List K) (excl : List (K × K)) :
    (powerColor (spec.map fun p => (p.1, c * p.2)) df edges excl (c * noise)).map Prod.fst = (powerColor spec df edges excl noise).map Prod.fst := by
  have hx : ∀ spec : List (K × K), excl.foldlM (excludeRange df) (spec.map fun p => (p.1, c * p.2)) = (excl.foldlM (excludeRange df) spec).map fun s => s.map fun p => (p.1, c * p.2) := by
    induction excl with
    | nil => intro spec; rfl
    | cons r rs ih =>
      intro spec
      rw [List.foldlM_cons, List.foldlM_cons, excludeRange_scale]
      cases h : excludeRange df spec r with
      | error e => rfl
      | ok s => exact ih s
  have hi : ∀ (spec : List (K × K)) (a e : K), integratePower (toBins (spec.map fun p => (p.1, c * p.2)) df (c * noise)) a e = (integratePower (toBins spec df noise) a e).map (c * ·) := by
    intro spec a e
    rw [← integratePower_scale]
    simp [toBins, Function.comp_def]
  unfold powerColor
  split
  · rename_i a0 a1 a2 a3 a4
    rw [List.head?_map, List.getLast?_map]
    cases hh : spec.head? with
    | none => cases hl : spec.getLast? <;> rfl
    | some first =>
      cases hl : spec.getLast? with
      | none => rfl
      | some last =>
        simp only [Option.map_some]
        split_ifs
        · rfl
        · rfl
        · rw [hx]
          cases hs : excl.foldlM (excludeRange df) spec with
          | error e => rfl
          | ok s =>
            simp only [Except.map, hi]
            cases h0 : integratePower (toBins s df noise) a0 a1 <;> cases h1 : integratePower (toBins s df noise) a2 a3 <;>
              cases h2 : integratePower (toBins s df noise) a1 a2 <;> cases h3 : integratePower (toBins s df noise) a3 a4 <;>
              simp only [Except.map, quotient_scale _ _ _ hc]
  · rfl

/-- **C129 (errors).** Other than five edges, and edges outside of the range of the spectrum, are refused. -/
theorem power_color_refuses (spec : List (K × K)) (df noise : K) (edges : List K) (excl : List (K × K)) (first last : K × K) (hf : spec.head? = some first) (hl : spec.getLast? = some last)
    (h : edges.length ≠ 5 ∨ ∃ a ∈ edges, a < first.1 - df / 2 ∨ last.1 + df / 2 < a) : powerColor spec df edges excl noise = .error .valueError := by
  unfold powerColor
  split
  · rename_i a0 a1 a2 a3 a4
    simp only [hf, hl]
    by_cases h1 : min (min (min (min a0 a1) a2) a3) a4 < first.1 - df / 2
    · rw [if_pos h1]
    · by_cases h2 : max (max (max (max a0 a1) a2) a3) a4 > last.1 + df / 2
      · rw [if_neg h1, if_pos h2]
      · exfalso
        rcases h with h | ⟨a, ha, h⟩
        · exact h rfl
        · simp only [gt_iff_lt, not_lt, le_min_iff, max_le_iff] at h1 h2
          simp only [List.mem_cons, List.not_mem_nil, or_false] at ha
          rcases ha with rfl | rfl | rfl | rfl | rfl <;> rcases h with h | h <;> linarith [h1.1.1.1.1, h1.1.1.1.2, h1.1.1.2, h1.1.2, h1.2, h2.1.1.1.1, h2.1.1.1.2, h2.1.1.2, h2.1.2, h2.2]
  · rfl

/-- **C129 (excluded frequencies, partial).** When the powers are excluded between `r.1` and `r.2`, and the bin used as lower neighbour (the first with frequency not below `r.1`) is not itself excluded, the powers of the excluded bins have no influence at all: two spectra that
only differ there give the same result. Missing: the other cases, see `exclude_uses_excluded`. -/
theorem exclude_no_influence_partial (df : K) (hdf : 0 < df) (spec spec' : List (K × K)) (hsorted : (spec.map Prod.fst).Pairwise (· ≤ ·)) (r : K × K)
    (hfreq : spec.map Prod.fst = spec'.map Prod.fst)
    (hsame : ∀ (i : Nat) (p q : K × K), spec[i]? = some p → spec'[i]? = some q → p ≠ q → p.1 - df / 2 > r.1 ∧ p.1 + df / 2 < r.2)
    (hlow : ∀ f, (spec.map Prod.fst)[searchsortedLeft (spec.map Prod.fst) r.1]? = some f → f - df / 2 ≤ r.1) (edges : List K) (noise : K) :
    powerColor spec df edges [r] noise = powerColor spec' df edges [r] noise := by
  have hlen : spec.length = spec'.length := by simpa using congrArg List.length hfreq
  have hf : ∀ i : Nat, (spec[i]?).map Prod.fst = (spec'[i]?).map Prod.fst := fun i => by
    rw [← List.getElem?_map, ← List.getElem?_map, hfreq]
  have hkeep : ∀ (i : Nat) (p : K × K), spec[i]? = some p → ¬ (p.1 - df / 2 > r.1 ∧ p.1 + df / 2 < r.2) → spec'[i]? = some p := by
    intro i p hp hn
    have hi : i < spec'.length := by rw [← hlen]; exact (List.getElem?_eq_some_iff.1 hp).1
    obtain ⟨q, hq⟩ : ∃ q, spec'[i]? = some q := ⟨_, List.getElem?_eq_getElem hi⟩
    by_cases hpq : p = q
    · rw [hq, hpq]
    · exact absurd (hsame i p q hp hq hpq) hn
  have h0 : (spec.map Prod.snd)[searchsortedLeft (spec.map Prod.fst) r.1]? = (spec'.map Prod.snd)[searchsortedLeft (spec.map Prod.fst) r.1]? := by
    rw [List.getElem?_map, List.getElem?_map]
    cases hp : spec[searchsortedLeft (spec.map Prod.fst) r.1]? with
    | none => rw [List.getElem?_eq_none (by rw [← hlen]; exact List.getElem?_eq_none_iff.1 hp)]
    | some p =>
      rw [hkeep _ p hp]
      rintro ⟨h1, -⟩
      exact absurd (hlow p.1 (by rw [List.getElem?_map, hp]; rfl)) (not_le.2 (by linarith))
  have h1 : (spec.map Prod.snd)[searchsortedLeft (spec.map Prod.fst) r.2]? = (spec'.map Prod.snd)[searchsortedLeft (spec.map Prod.fst) r.2]? := by
    rw [List.getElem?_map, List.getElem?_map]
    cases hp : spec[searchsortedLeft (spec.map Prod.fst) r.2]? with
    | none => rw [List.getElem?_eq_none (by rw [← hlen]; exact List.getElem?_eq_none_iff.1 hp)]
    | some p =>
      rw [hkeep _ p hp]
      rintro ⟨-, h2⟩
      have hpf : (spec.map Prod.fst)[searchsortedLeft (spec.map Prod.fst) r.2]? = some p.1 := by rw [List.getElem?_map, hp]; rfl
      have := (lt_searchsortedLeft_iff (spec.map Prod.fst) hsorted r.2 _ p.1 hpf).not.1 (lt_irrefl _)
      linarith [not_lt.1 this]
  have hx : excludeRange df spec r = excludeRange df spec' r := by
    unfold excludeRange
    simp only [← hfreq, h0, h1]
    split
    · rename_i p0 p1 _ _
      congr 1
      apply List.ext_getElem?
      intro i
      rw [List.getElem?_map, List.getElem?_map]
      cases hp : spec[i]? with
      | none => rw [List.getElem?_eq_none (by rw [← hlen]; exact List.getElem?_eq_none_iff.1 hp)]
      | some p =>
        have hfi := hf i
        by_cases hc : p.1 - df / 2 > r.1 ∧ p.1 + df / 2 < r.2
        · rw [hp] at hfi
          cases hq : spec'[i]? with
          | none => rw [hq] at hfi; simp at hfi
          | some q =>
            rw [hq] at hfi
            simp only [Option.map_some, Option.some.injEq] at hfi
            simp only [Option.map_some]
            rw [if_pos hc, if_pos (by rw [← hfi]; exact hc), hfi]
        · rw [hkeep i p hp hc]
    · rfl
  have hhead : (spec.head?).map Prod.fst = (spec'.head?).map Prod.fst := by rw [List.head?_eq_getElem?, List.head?_eq_getElem?, hf]
  have hlast : (spec.getLast?).map Prod.fst = (spec'.getLast?).map Prod.fst := by rw [List.getLast?_eq_getElem?, List.getLast?_eq_getElem?, hlen, hf]
  have hfold : [r].foldlM (excludeRange df) spec = [r].foldlM (excludeRange df) spec' := by
    rw [List.foldlM_cons, List.foldlM_cons, hx]
  unfold powerColor
  rw [hfold]
  split
  · cases a : spec.head? with
    | none =>
      rw [a] at hhead
      cases b : spec'.head? with
      | none => rfl
      | some q => rw [b] at hhead; cases hhead
    | some p =>
      rw [a] at hhead
      cases b : spec'.head? with
      | none => rw [b] at hhead; cases hhead
      | some q =>
        rw [b] at hhead
        cases c : spec.getLast? with
        | none =>
          rw [c] at hlast
          cases d : spec'.getLast? with
          | none => rfl
          | some q => rw [d] at hlast; cases hlast
        | some p' =>
          rw [c] at hlast
          cases d : spec'.getLast? with
          | none => rw [d] at hlast; cases hlast
          | some q' =>
            rw [d] at hlast
            simp only [Option.map_some, Option.some.injEq] at hhead hlast
            simp only [hhead, hlast]
  · rfl

example : powerColor [((1 : ℚ), (1 : ℚ)), (2, 1), (3, 7), (4, 1), (5, 1)] 1 [1, 2, 3, 4, 5] [(2, 4)] 0 = powerColor [(1, 1), (2, 1), (3, 9), (4, 1), (5, 1)] 1 [1, 2, 3, 4, 5] [(2, 4)] 0 := by
  refine exclude_no_influence_partial (1 : ℚ) one_pos [(1, 1), (2, 1), (3, 7), (4, 1), (5, 1)] [(1, 1), (2, 1), (3, 9), (4, 1), (5, 1)] (by decide +kernel) (2, 4) rfl ?_ (by
    intro f hf
    have h2 : some (2 : ℚ) = some f := by rw [← hf]; decide +kernel
    cases h2; norm_num) _ _
  intro i p q hp hq hpq
  rcases i with _ | _ | _ | _ | _ | i <;> simp at hp hq <;> subst hp <;> subst hq <;> first | exact absurd rfl hpq | norm_num

/-- **C129 (excluded frequencies, negation).** The power put in place of the excluded ones is computed with the first bin whose middle is not below the lower limit, which may be one of the excluded bins: here the bin at 4, from 7/2 to 9/2, is inside of the excluded range from
13/4 to 23/4, and its power still decides the colour. -/
theorem exclude_uses_excluded :
    (powerColor (evenSpec (1 : ℚ) 1 [1, 1, 1, 1, 1, 1, 1, 1, 1]) 1 [1, 3, 5, 7, 9] [(13/4, 23/4)] 0).map Prod.fst = .ok (some 1, some 1) ∧
    (powerColor (evenSpec (1 : ℚ) 1 [1, 1, 1, 9, 1, 1, 1, 1, 1]) 1 [1, 3, 5, 7, 9] [(13/4, 23/4)] 0).map Prod.fst = .ok (some (1/2), some 4) := by decide +kernel

/-- **C129 (excluded frequencies, negation).** The array of powers given by the user is overwritten. -/
theorem exclude_modifies :
    (powerColor (evenSpec (1 : ℚ) 1 [1, 1, 3, 9, 5, 1, 1, 1, 1]) 1 [1, 3, 5, 7, 9] [(5/2, 5)] 0).map Prod.snd = .ok [1, 1, 3, 4, 5, 1, 1, 1, 1] := by decide +kernel

/-- **C129 (excluded frequencies, negation).** Excluding up to the end of the spectrum is an error, whatever the edges of the bands. -/
theorem exclude_end :
    powerColor (evenSpec (1 : ℚ) 1 [1, 1, 1, 1, 1, 1, 1, 1, 1, 1]) 1 [1, 3, 5, 7, 9] [(19/2, 11)] 0 = .error .indexError := by decide +kernel

example : (powerColor (evenSpec (1 : ℚ) 1 [8, 4, 2, 1, 1, 1, 1, 1, 1]) 1 [1, 3, 5, 7, 9] [] 0).map Prod.fst = .ok (some (9/2), some (5/4)) := by decide +kernel

/-! ## Angles -/

theorem angleDown_spec : ∀ (fuel : Nat) (a v : K), angleDown a fuel = some v → v < 360 ∧ (∃ k : Nat, v = a - (k : K) * 360) ∧ (0 ≤ a → 0 ≤ v) := by
  intro fuel
  induction fuel with
  | zero => intro a v h; cases h
  | succ n ih =>
    intro a v h
    rw [angleDown] at h
    split_ifs at h with hc
    · obtain ⟨h1, ⟨k, hk⟩, h3⟩ := ih _ _ h
      exact ⟨h1, ⟨k + 1, by rw [hk]; push_cast; ring⟩, fun _ => h3 (by linarith)⟩
    · simp only [Option.some.injEq] at h
      rw [← h]
      exact ⟨not_le.1 hc, ⟨0, by simp⟩, id⟩

theorem angleUp_spec : ∀ (fuel : Nat) (a v : K), a < 360 → angleUp a fuel = some v → 0 ≤ v ∧ v < 360 ∧ ∃ k : Nat, v = a + (k : K) * 360 := by
  intro fuel
  induction fuel with
  | zero => intro a v _ h; cases h
  | succ n ih =>
    intro a v ha h
    rw [angleUp] at h
    split_ifs at h with hc
    · obtain ⟨h1, h2, k, hk⟩ := ih _ _ (by linarith) h
      exact ⟨h1, h2, k + 1, by rw [hk]; push_cast; ring⟩
    · simp only [Option.some.injEq] at h
      rw [← h]
      exact ⟨not_lt.1 hc, ha, 0, by simp⟩

/-- **C130.** Bringing an angle to one turn: the result is in `[0, 360)` and differs from the angle by whole turns. -/
theorem limit_angle_spec (a v : K) (fuel : Nat) (h : limitAngle a fuel = some v) : 0 ≤ v ∧ v < 360 ∧ ∃ k : Int, v = a + (k : K) * 360 := by
  unfold limitAngle at h
  cases hd : angleDown a fuel with
  | none => rw [hd] at h; cases h
  | some b =>
    rw [hd] at h
    obtain ⟨h1, ⟨k, hk⟩, _⟩ := angleDown_spec fuel a b hd
    obtain ⟨h2, h3, j, hj⟩ := angleUp_spec fuel b v h1 h
    exact ⟨h2, h3, (j : Int) - k, by rw [hj, hk]; push_cast; ring⟩

theorem angleDown_terminates : ∀ (n fuel : Nat) (a : K), a < ((n : K) + 1) * 360 → n < fuel → ∃ v, angleDown a fuel = some v := by
  intro n
  induction n with
  | zero =>
    intro fuel a h hf
    obtain ⟨m, rfl⟩ := Nat.exists_eq_succ_of_ne_zero (show fuel ≠ 0 by omega)
    rw [Nat.succ_eq_add_one, angleDown, if_neg (not_le.2 (by simpa using h))]
    exact ⟨_, rfl⟩
  | succ n ih =>
    intro fuel a h hf
    obtain ⟨m, rfl⟩ := Nat.exists_eq_succ_of_ne_zero (show fuel ≠ 0 by omega)
    rw [Nat.succ_eq_add_one, angleDown]
    split_ifs
    · exact ih m _ (by push_cast at h; linarith) (by omega)
    · exact ⟨_, rfl⟩

theorem angleUp_terminates : ∀ (n fuel : Nat) (a : K), -((n : K) * 360) ≤ a → n < fuel → ∃ v, angleUp a fuel = some v := by
  intro n
  induction n with
  | zero =>
    intro fuel a h hf
    obtain ⟨m, rfl⟩ := Nat.exists_eq_succ_of_ne_zero (show fuel ≠ 0 by omega)
    rw [Nat.succ_eq_add_one, angleUp, if_neg (not_lt.2 (by simpa using h))]
    exact ⟨_, rfl⟩
  | succ n ih =>
    intro fuel a h hf
    obtain ⟨m, rfl⟩ := Nat.exists_eq_succ_of_ne_zero (show fuel ≠ 0 by omega)
    rw [Nat.succ_eq_add_one, angleUp]
    split_ifs
    · exact ih m _ (by push_cast at h; linarith) (by omega)
    · exact ⟨_, rfl⟩

/-- **C130.** The loops end, for every angle, after at most as many turns as the angle has whole turns, and one more. -/
theorem limit_angle_terminates (n : Nat) (a : K) (h1 : -((n : K) * 360) ≤ a) (h2 : a < ((n : K) + 1) * 360) : ∃ v, limitAngle a (n + 1) = some v := by
  obtain ⟨b, hb⟩ := angleDown_terminates n (n + 1) a h2 (by omega)
  have hb' : -((n : K) * 360) ≤ b := by
    rcases le_total 0 a with h | h
    · have := (angleDown_spec _ _ _ hb).2.2 h
      have : (0 : K) ≤ (n : K) * 360 := by positivity
      linarith
    · rw [angleDown, if_neg (not_le.2 (by linarith))] at hb
      simp only [Option.some.injEq] at hb
      rw [← hb]; exact h1
  obtain ⟨v, hv⟩ := angleUp_terminates n (n + 1) b hb' (by omega)
  refine ⟨v, ?_⟩
  unfold limitAngle
  rw [hb]
  exact hv

example : limitAngle (-380 : ℚ) 3 = some 340 ∧ limitAngle (720 : ℚ) 3 = some 0 := by decide +kernel

end

/-! ## Hues -/

/-- **C130.** The hue is between -45 degrees (included) and 315 degrees (excluded): one value for each direction. -/
theorem hue_range (x y : ℝ) (center : ℝ × ℝ) : -(Real.pi / 4) ≤ hueFromLog x y center ∧ hueFromLog x y center < 7 * Real.pi / 4 := by
  unfold hueFromLog
  have h1 := Complex.neg_pi_lt_arg ⟨x - center.1, y - center.2⟩
  have h2 := Complex.arg_le_pi ⟨x - center.1, y - center.2⟩
  constructor <;> linarith

/-- **C130.** The hue is the angle, clockwise from the direction at 135 degrees, of the direction from the centre to the colours (in logarithms): every point other than the centre is at its distance from the centre in the direction of its hue. -/
theorem hue_direction (x y : ℝ) (center : ℝ × ℝ) :
    let d := Real.sqrt ((x - center.1) ^ 2 + (y - center.2) ^ 2)
    let angle := 3 / 4 * Real.pi - hueFromLog x y center
    x = center.1 + d * Real.cos angle ∧ y = center.2 + d * Real.sin angle := by
  intro d angle
  have ha : angle = Complex.arg ⟨x - center.1, y - center.2⟩ := by
    simp only [angle, hueFromLog]; ring
  have hd : d = ‖(⟨x - center.1, y - center.2⟩ : ℂ)‖ := by
    rw [Complex.norm_eq_sqrt_sq_add_sq]
  rw [ha, hd, Complex.norm_mul_cos_arg, Complex.norm_mul_sin_arg]
  constructor <;> ring

/-- **C130.** Colours at a distance `d > 0` from the centre in the direction of a hue have that hue: it does not depend on the distance. -/
theorem hue_of_direction (d : ℝ) (hd : 0 < d) (hue : ℝ) (h1 : -(Real.pi / 4) ≤ hue) (h2 : hue < 7 * Real.pi / 4) (center : ℝ × ℝ) :
    hueFromLog (center.1 + d * Real.cos (3 / 4 * Real.pi - hue)) (center.2 + d * Real.sin (3 / 4 * Real.pi - hue)) center = hue := by
  unfold hueFromLog
  have : (⟨center.1 + d * Real.cos (3 / 4 * Real.pi - hue) - center.1, center.2 + d * Real.sin (3 / 4 * Real.pi - hue) - center.2⟩ : ℂ) =
      (d : ℂ) * (Complex.cos ((3 / 4 * Real.pi - hue : ℝ) : ℂ) + Complex.sin ((3 / 4 * Real.pi - hue : ℝ) : ℂ) * Complex.I) := by
    rw [← Complex.ofReal_cos, ← Complex.ofReal_sin]
    generalize Real.cos (3 / 4 * Real.pi - hue) = u
    generalize Real.sin (3 / 4 * Real.pi - hue) = w
    apply Complex.ext <;> simp
  rw [this, Complex.arg_mul_cos_add_sin_mul_I hd ⟨by linarith, by linarith⟩]
  ring

/-- **C130.** For positive colours, the hue only depends on the ratios of the colours to the centre, and raising both ratios to the same positive power does not change it. -/
theorem hue_from_color_power (r0 r1 c0 c1 p : ℝ) (h0 : 0 < r0) (h1 : 0 < r1) (hc0 : 0 < c0) (hc1 : 0 < c1) (hp : 0 < p) :
    hueFromColor (c0 * r0 ^ p) (c1 * r1 ^ p) (c0, c1) = hueFromColor r0 r1 (1, 1) := by
  unfold hueFromColor hueFromLog
  rw [Real.log_mul hc0.ne' (Real.rpow_pos_of_pos h0 p).ne', Real.log_mul hc1.ne' (Real.rpow_pos_of_pos h1 p).ne', Real.log_rpow h0, Real.log_rpow h1]
  simp only [Real.log_one, zero_div, sub_zero]
  have : (⟨(Real.log c0 + p * Real.log r0) / Real.log 10 - Real.log c0 / Real.log 10, (Real.log c1 + p * Real.log r1) / Real.log 10 - Real.log c1 / Real.log 10⟩ : ℂ) =
      (p : ℂ) * ⟨Real.log r0 / Real.log 10, Real.log r1 / Real.log 10⟩ := by
    apply Complex.ext <;> simp <;> ring
  rw [this, Complex.arg_real_mul _ hp]

example : hueFromLog 1 1 (0, 0) = Real.pi / 2 := by
  have := hue_of_direction (Real.sqrt 2) (by positivity) (Real.pi / 2) (by linarith [Real.pi_pos]) (by linarith [Real.pi_pos]) (0, 0)
  rw [show 3 / 4 * Real.pi - Real.pi / 2 = Real.pi / 4 by ring, Real.cos_pi_div_four, Real.sin_pi_div_four] at this
  have h2 : Real.sqrt 2 * (Real.sqrt 2 / 2) = 1 := by
    rw [← mul_div_assoc, Real.mul_self_sqrt zero_le_two]; norm_num
  simpa [h2] using this

end Stingray.PowerColors

import Verif.Model.CrossLags
import Verif.Props.CrossErrors
import Verif.Lemmas.Parseval
import Mathlib.Analysis.SpecialFunctions.Complex.Arg
import Mathlib.Data.List.GetD

/-!
Coherence (C157), lags (C158) and uncertainties (C159) of cross spectra.
-/

set_option linter.unusedSectionVars false

namespace Stingray.Fourier

/-! ## C157: coherence -/

section Coherence

variable {K : Type} [Field K] [LinearOrder K] [IsStrictOrderedRing K]

theorem bias_no_noise (p1 p2 n : K) : biasTerm p1 p2 0 0 n 1 = 0 := by
  unfold biasTerm
  split_ifs <;> simp

/-- **C157 (single spectrum).** The coherence of a cross spectrum is, at each frequency, the squared modulus of the cross power over the product of the powers of the channels, so that it is at least 0 for positive powers, and at most 1 if `|C|² ≤ P1 P2`. -/
theorem coherence_value (s : CrossInfo K) (l : List (CrossBin K)) (i : Nat) (b : CrossBin K) (hb : l[i]? = some b) :
    (coherence s l).length = l.length ∧ (coherence s l)[i]? = some ((b.c.re ^ 2 + b.c.im ^ 2) / (b.p1 * b.p2)) := by
  refine ⟨by simp [coherence], ?_⟩
  unfold coherence
  rw [List.getElem?_map, hb, Option.map_some]
  congr 1
  unfold rawCoherence
  simp only [bias_no_noise, mul_conj_re, sub_zero, ite_self]
  rfl

variable (sqrt : K → K) (hsqrt : ∀ x, 0 ≤ x → 0 ≤ sqrt x ∧ sqrt x ^ 2 = x)
include hsqrt

/-- **C157.** The coherence of an averaged cross spectrum, at each frequency where both powers are at least the noise level of their channel and `|C|² ≤ P1 P2`, is at least 0 and at most `|C|² / (P1 P2)`, so at most 1; its uncertainty `u` is at least 0, and `m u² = 2 g (1 - g)²` for the coherence `g` and `m` averaged powers. -/
theorem averaged_coherence_range (s : CrossInfo K) (hn : 0 < s.n) (l : List (CrossBin K)) (i : Nat) (b : CrossBin K) (hb : l[i]? = some b)
    (hm : 0 < b.m) (h1 : 0 < b.p1) (h2 : 0 < b.p2) (hn1 : 0 ≤ s.nph1) (hn2 : 0 ≤ s.nph2) (hp1 : s.nph1 ≤ b.p1) (hp2 : s.nph2 ≤ b.p2)
    (hc : b.c.re ^ 2 + b.c.im ^ 2 ≤ b.p1 * b.p2) :
    ∃ g u, (averagedCoherence sqrt s l).1[i]? = some g ∧ (averagedCoherence sqrt s l).2[i]? = some u ∧
      0 ≤ g ∧ g ≤ (b.c.re ^ 2 + b.c.im ^ 2) / (b.p1 * b.p2) ∧ g ≤ 1 ∧ 0 ≤ u ∧ b.m * u ^ 2 = 2 * g * (1 - g) ^ 2 := by
  have hp : 0 < b.p1 * b.p2 := mul_pos h1 h2
  have hg0 : 0 ≤ cohAt s b := raw_coherence_nonneg _ _ _ _ _ _ _ hp
  have hbias : 0 ≤ biasTerm b.p1 b.p2 s.nph1 s.nph2 s.n 1 := by
    unfold biasTerm
    split_ifs
    · simp
    · apply div_nonneg _ hn.le
      nlinarith [mul_nonneg hn1 (sub_nonneg.2 hp2), mul_nonneg hn2 h1.le]
  have hg1 : cohAt s b ≤ (b.c.re ^ 2 + b.c.im ^ 2) / (b.p1 * b.p2) := by
    unfold cohAt rawCoherence
    simp only [mul_conj_re]
    apply div_le_div_of_nonneg_right _ hp.le
    split_ifs
    · exact le_refl _
    · unfold sq; linarith
  have hg2 : cohAt s b ≤ 1 := le_trans hg1 (by rwa [div_le_one hp])
  refine ⟨cohAt s b, cohErr sqrt b.m (cohAt s b), ?_, ?_, hg0, hg1, hg2, ?_⟩
  · simp [averagedCoherence, hb]
  · simp [averagedCoherence, hb]
  · unfold cohErr
    rcases hg0.eq_or_lt with h | h
    · rw [if_pos h.symm, ← h]; simp
    · rw [if_neg h.ne']
      obtain ⟨a1, a2⟩ := hsqrt 2 (by norm_num)
      obtain ⟨b1, b2⟩ := hsqrt (cohAt s b) hg0
      obtain ⟨c1, c2⟩ := hsqrt b.m hm.le
      have hm0 : b.m ≠ 0 := hm.ne'
      have hs0 : cohAt s b ≠ 0 := h.ne'
      refine ⟨div_nonneg (mul_nonneg (mul_nonneg a1 hg0) (by linarith)) (mul_nonneg b1 c1), ?_⟩
      rw [div_pow, mul_pow, mul_pow, mul_pow, a2, b2, c2]
      field_simp

omit hsqrt

/-- **C157 (exchange).** Exchanging the channels, which conjugates the cross power, does not change the coherence or its uncertainty. -/
theorem averaged_coherence_exchange (s : CrossInfo K) (l : List (CrossBin K)) :
    averagedCoherence sqrt { s with nph1 := s.nph2, nph2 := s.nph1 } (l.map fun b => { b with c := b.c.conj, p1 := b.p2, p2 := b.p1 }) =
      averagedCoherence sqrt s l := by
  have key : ∀ b : CrossBin K, cohAt { s with nph1 := s.nph2, nph2 := s.nph1 } { b with c := b.c.conj, p1 := b.p2, p2 := b.p1 } = cohAt s b := by
    intro b
    have e : biasTerm b.p2 b.p1 s.nph2 s.nph1 s.n 1 = biasTerm b.p1 b.p2 s.nph1 s.nph2 s.n 1 := by
      unfold biasTerm
      split_ifs
      · simp
      · congr 1; ring
    unfold cohAt rawCoherence
    simp only [mul_conj_re, e, sq, Cx.conj_re, Cx.conj_im, neg_sq, mul_comm b.p2 b.p1]
  unfold averagedCoherence
  simp only [List.map_map, Prod.mk.injEq]
  exact ⟨List.map_congr_left fun b _ => key b, List.map_congr_left fun b _ => by simp only [Function.comp, key]⟩

/-- **C157 (negation).** The bias of the averaged coherence is that of as many averages as there are time bins in a segment, not as many as there are averaged segments: if segments have more than 500 bins nothing is subtracted, and two channels of noise, whose cross power has the value `|C|² = P1 P2 / m` expected for `m` averages, have coherence `1 / m`, not 0. -/
theorem averaged_coherence_bias (s : CrossInfo K) (hn : 500 < s.n) (b : CrossBin K) (h1 : 0 < b.p1) (h2 : 0 < b.p2) (hm : 0 < b.m)
    (hnoise1 : s.nph1 = b.p1) (hnoise2 : s.nph2 = b.p2) (hc : b.c.re ^ 2 + b.c.im ^ 2 = b.p1 * b.p2 / b.m) :
    (averagedCoherence sqrt s [b]).1 = [1 / b.m] ∧ (b.m ≤ 500 → rawCoherence b.c b.p1 b.p2 s.nph1 s.nph2 b.m 1 = 0) := by
  constructor
  · have hp : b.p1 * b.p2 ≠ 0 := mul_ne_zero h1.ne' h2.ne'
    have hm0 := hm.ne'
    have h10 := h1.ne'
    have h20 := h2.ne'
    simp only [averagedCoherence, List.map_cons, List.map_nil, cohAt, rawCoherence, mul_conj_re, biasTerm, if_pos hn, zero_mul, sub_zero, ite_self, sq, hc]
    congr 1
    field_simp
  · intro hm5
    rw [hnoise1, hnoise2]
    exact (raw_coherence_noise b.c b.p1 b.p2 b.m h1 h2 hm hc).1 hm5

example : (0 : ℚ) < 20 ∧ ((2 : ℚ) ^ 2 + 1 ^ 2 ≤ 5 * 6) ∧
    averagedCoherence (fun x => x) ⟨1, 100, 2, 3, 1, 1, none, .leahy, false⟩ [(⟨1, ⟨2, 1⟩, 5, 6, 20⟩ : CrossBin ℚ)] =
      ([(5 - 21 / 100) / 30], [2 * (1 - (5 - 21 / 100) / 30) / 20]) := by decide +kernel

/-- **C157 (negation).** Where the powers are below the noise levels of their channels the coherence may be above 1 and its uncertainty negative. -/
theorem averaged_coherence_above_one :
    (averagedCoherence (fun x => x) ⟨1, 100, 10, 10, 10, 1, none, .leahy, false⟩ [(⟨1, ⟨1, 0⟩, 1, 1, 20⟩ : CrossBin ℚ)]).1 = [9 / 5] ∧
    (averagedCoherence (fun x => x) ⟨1, 100, 10, 10, 10, 1, none, .leahy, false⟩ [(⟨1, ⟨1, 0⟩, 1, 1, 20⟩ : CrossBin ℚ)]).2 = [-2 / 25] := by
  decide +kernel

/-- **C157 (warning).** There is a warning if any frequency has fewer than 50 averaged powers. -/
theorem coherence_warns (l : List (CrossBin K)) : coherenceWarns l = true ↔ ∃ b ∈ l, b.m < 50 := by
  simp [coherenceWarns]

end Coherence

/-! ## C158: lags -/

section Lags

/-- the complex number of two real parts -/
def toC (c : Cx ℝ) : ℂ := ⟨c.re, c.im⟩

/-- `numpy.angle`: the argument, above `-π` and at most `π`. -/
noncomputable def angleR (c : Cx ℝ) : ℝ := Complex.arg (toC c)

/-- **C158 (range).** Phase lags are above `-π` and at most `π`; time lags are the phase lags over `2 π f`, so at most half a period; classes other than the two cross spectra are refused. -/
theorem time_lag_range (l : List (CrossBin ℝ)) (hf : ∀ b ∈ l, 0 < b.freq) :
    (∀ p ∈ phaseLag angleR l, -Real.pi < p ∧ p ≤ Real.pi) ∧
    timeLag angleR Real.pi .other l = .error .attributeError ∧
    ∀ cls, cls ≠ .other → ∃ t, timeLag angleR Real.pi cls l = .ok t ∧ t.length = l.length ∧
      ∀ (i : Nat) (b : CrossBin ℝ), l[i]? = some b → ∃ x, t[i]? = some x ∧ x * (2 * Real.pi * b.freq) = Complex.arg ⟨b.c.re, b.c.im⟩ ∧ |x| ≤ 1 / b.freq / 2 := by
  refine ⟨?_, rfl, ?_⟩
  · intro p hp
    obtain ⟨b, -, rfl⟩ := List.mem_map.1 hp
    exact ⟨Complex.neg_pi_lt_arg _, Complex.arg_le_pi _⟩
  · intro cls hcls
    refine ⟨_, if_neg hcls, by simp [phaseLag], ?_⟩
    intro i b hb
    have hfb := hf b (List.mem_of_getElem? hb)
    have hpi := Real.pi_pos
    refine ⟨Complex.arg ⟨b.c.re, b.c.im⟩ / (2 * Real.pi * b.freq), ?_, div_mul_cancel₀ _ (by positivity), ?_⟩
    · rw [List.getElem?_zipWith, phaseLag, List.getElem?_map, hb]
      rfl
    · rw [abs_div, abs_of_pos (by positivity : 0 < 2 * Real.pi * b.freq), div_le_iff₀ (by positivity)]
      refine le_trans (Complex.abs_arg_le_pi _) (le_of_eq ?_)
      field_simp

/-- **C158 (exchange).** Exchanging the channels, which conjugates the cross powers, changes the sign of the phase lags (but for a lag of exactly `π`, which stays); a positive factor on the cross powers, such as another normalisation, does not change them. -/
theorem phase_lag_exchange (l : List (CrossBin ℝ)) (a : ℝ) (ha : 0 < a) :
    phaseLag angleR (l.map fun b => { b with c := b.c.conj }) = (phaseLag angleR l).map (fun p => if p = Real.pi then Real.pi else -p) ∧
    phaseLag angleR (l.map fun b => { b with c := b.c.both (· * a) }) = phaseLag angleR l := by
  constructor
  · simp only [phaseLag, List.map_map]
    apply List.map_congr_left
    intro b _
    simp only [Function.comp, angleR]
    have : toC b.c.conj = (starRingEnd ℂ) (toC b.c) := by
      apply Complex.ext <;> simp [toC, Cx.conj_re, Cx.conj_im]
    rw [this, Complex.arg_conj]
    by_cases hp : (toC b.c).arg = Real.pi <;> simp [hp]
  · simp only [phaseLag, List.map_map]
    apply List.map_congr_left
    intro b _
    simp only [Function.comp, angleR]
    have : toC (b.c.both (· * a)) = (a : ℂ) * toC b.c := by
      apply Complex.ext <;> simp [toC, Cx.both, mul_comm]
    rw [this, Complex.arg_real_mul _ ha]

open Stingray.Spec Finset in
theorem toC_dft (x : List ℝ) (k : Nat) (hk : k < x.length) :
    toC ((dft x).getD k 0) = ∑ j ∈ Finset.range x.length, (x.getD j 0 : ℂ) * Complex.exp (-(2 * Real.pi * (j * k : Nat) / x.length : ℝ) * Complex.I) := by
  have : (dft x).getD k 0 =
    ⟨((List.range x.length).map fun j => x.getD j 0 * Real.cos (2 * Real.pi * (j * k : Nat) / x.length)).sum,
     -((List.range x.length).map fun j => x.getD j 0 * Real.sin (2 * Real.pi * (j * k : Nat) / x.length)).sum⟩ := by
    unfold dft
    simp [List.getD_eq_getElem?_getD, hk]
  rw [this, list_sum_range, list_sum_range]
  have hterm : ∀ j : Nat, (x.getD j 0 : ℂ) * Complex.exp (-(2 * Real.pi * (j * k : Nat) / x.length : ℝ) * Complex.I) =
      ⟨x.getD j 0 * Real.cos (2 * Real.pi * (j * k : Nat) / x.length), -(x.getD j 0 * Real.sin (2 * Real.pi * (j * k : Nat) / x.length))⟩ := by
    intro j
    generalize 2 * Real.pi * ((j * k : Nat) : ℝ) / (x.length : ℝ) = t
    generalize x.getD j 0 = v
    rw [← Complex.ofReal_neg, Complex.exp_mul_I, ← Complex.ofReal_cos, ← Complex.ofReal_sin, Real.cos_neg, Real.sin_neg]
    apply Complex.ext
    · simp only [Complex.mul_re, Complex.add_re, Complex.add_im, Complex.mul_im, Complex.ofReal_re, Complex.ofReal_im, Complex.I_re, Complex.I_im]
      ring
    · simp only [Complex.mul_re, Complex.add_re, Complex.add_im, Complex.mul_im, Complex.ofReal_re, Complex.ofReal_im, Complex.I_re, Complex.I_im]
      ring
  simp only [hterm]
  apply Complex.ext
  · rw [Complex.re_sum]; rfl
  · rw [Complex.im_sum]
    simp only [toC, Finset.sum_neg_distrib]

theorem sum_shift {α : Type} [AddCommGroup α] (g : Nat → α) (n : Nat) (hg : ∀ j, g (j + n) = g j) (s : Nat) :
    ∑ j ∈ Finset.range n, g (j + s) = ∑ j ∈ Finset.range n, g j := by
  induction s with
  | zero => rfl
  | succ s ih =>
    rw [← ih]
    have h1 := Finset.sum_range_succ (fun j => g (j + s)) n
    have h2 := Finset.sum_range_succ' (fun j => g (j + s)) n
    have e : g (n + s) = g (0 + s) := by rw [Nat.add_comm n s, hg, Nat.zero_add]
    rw [h1, e] at h2
    have := add_right_cancel h2
    rw [this]
    apply Finset.sum_congr rfl
    intro j _
    congr 1
    omega

open Stingray.Spec in
/-- the transform of a delayed series -/
theorem dft_delay (x y : List ℝ) (s : Nat) (hlen : y.length = x.length) (hy : ∀ j < x.length, y.getD ((j + s) % x.length) 0 = x.getD j 0)
    (k : Nat) (hk : k < x.length) :
    toC ((dft y).getD k 0) = Complex.exp (-(2 * Real.pi * (s * k : Nat) / x.length : ℝ) * Complex.I) * toC ((dft x).getD k 0) := by
  have hn0 : x.length ≠ 0 := by omega
  have hn : (x.length : ℝ) ≠ 0 := by exact_mod_cast hn0
  rw [toC_dft y k (by omega), toC_dft x k hk, hlen]
  set w : Nat → ℂ := fun j => Complex.exp (-(2 * Real.pi * (j * k : Nat) / x.length : ℝ) * Complex.I) with hw
  have hadd : ∀ i j, w (i + j) = w i * w j := by
    intro i j
    simp only [hw]
    rw [← Complex.exp_add]
    congr 1
    push_cast
    ring
  have hper : w x.length = 1 := by
    simp only [hw]
    rw [Complex.exp_eq_one_iff]
    refine ⟨-(k : ℤ), ?_⟩
    have hnc : (x.length : ℂ) ≠ 0 := by exact_mod_cast hn0
    push_cast
    field_simp
  set g : Nat → ℂ := fun j => (y.getD (j % x.length) 0 : ℂ) * w j with hgd
  have hg : ∀ j, g (j + x.length) = g j := by
    intro j
    simp only [hgd, Nat.add_mod_right, hadd, hper, mul_one]
  have e1 : ∑ j ∈ Finset.range x.length, (y.getD j 0 : ℂ) * w j = ∑ j ∈ Finset.range x.length, g j := by
    apply Finset.sum_congr rfl
    intro j hj
    rw [Finset.mem_range] at hj
    simp only [hgd, Nat.mod_eq_of_lt hj]
  rw [e1, ← sum_shift g x.length hg s, Finset.mul_sum]
  apply Finset.sum_congr rfl
  intro j hj
  rw [Finset.mem_range] at hj
  simp only [hgd, hy j hj, hadd]
  ring

/-- Specification: the second series of a pair, seen `s` bins later (around the segment), is the first one. -/
def Delayed (s : Nat) (p : List ℝ × List ℝ) : Prop :=
  p.1.length = p.2.length ∧ ∀ j < p.2.length, p.1.getD ((j + s) % p.2.length) 0 = p.2.getD j 0

open Stingray.Spec in
/-- Specification: the cross power `conj(F1) F2` of all pairs of segments at index `k`, averaged. -/
noncomputable def meanCross (k : Nat) (pairs : List (List ℝ × List ℝ)) : ℂ :=
  (pairs.map fun p => (starRingEnd ℂ) (toC ((dft p.1).getD k 0)) * toC ((dft p.2).getD k 0)).sum / pairs.length

open Stingray.Spec in
/-- **C158.** If, in all pairs of segments of `n` bins of length `dt`, the first channel is the second one delayed by `s` bins (around the segment), then at each frequency `k / (n dt)` with some power, and for delays `2 s k <= n` of at most half a period, the time lag of their averaged cross spectrum is `s dt`. -/
theorem time_lag_of_delay (dt : ℝ) (hdt : 0 < dt) (n s k : Nat) (hk0 : 0 < k) (hkn : k < n) (hs : 2 * (s * k) ≤ n) (pairs : List (List ℝ × List ℝ))
    (hlen : ∀ p ∈ pairs, p.2.length = n) (hdel : ∀ p ∈ pairs, Delayed s p) (hpow : ∃ p ∈ pairs, toC ((dft p.2).getD k 0) ≠ 0)
    (b : CrossBin ℝ) (hb : toC b.c = meanCross k pairs) (hf : b.freq = k / (n * dt)) (cls : SpecClass) (hcls : cls ≠ .other) :
    timeLag angleR Real.pi cls [b] = .ok [s * dt] := by
  have hn : (0 : ℝ) < n := by exact_mod_cast (by omega : 0 < n)
  set θ : ℝ := 2 * Real.pi * (s * k : Nat) / n with hθ
  have hterm : ∀ p ∈ pairs, (starRingEnd ℂ) (toC ((dft p.1).getD k 0)) * toC ((dft p.2).getD k 0) =
      ((Complex.normSq (toC ((dft p.2).getD k 0)) : ℝ) : ℂ) * Complex.exp (θ * Complex.I) := by
    intro p hp
    obtain ⟨h1, h2⟩ := hdel p hp
    have hl := hlen p hp
    rw [dft_delay p.2 p.1 s h1 h2 k (by omega), map_mul, ← Complex.exp_conj, map_mul, Complex.conj_I, hl, ← Complex.ofReal_neg,
      Complex.conj_ofReal, Complex.normSq_eq_conj_mul_self]
    have : ((-(2 * Real.pi * (s * k : Nat) / n) : ℝ) : ℂ) * -Complex.I = θ * Complex.I := by
      rw [hθ]; push_cast; ring
    rw [this]
    ring
  have hsum : meanCross k pairs =
      (((pairs.map fun p => Complex.normSq (toC ((dft p.2).getD k 0))).sum / pairs.length : ℝ) : ℂ) * Complex.exp (θ * Complex.I) := by
    unfold meanCross
    have : (pairs.map fun p => (starRingEnd ℂ) (toC ((dft p.1).getD k 0)) * toC ((dft p.2).getD k 0)).sum =
        (((pairs.map fun p => Complex.normSq (toC ((dft p.2).getD k 0))).sum : ℝ) : ℂ) * Complex.exp (θ * Complex.I) := by
      rw [List.map_congr_left hterm]
      clear hterm hpow hlen hdel hb
      induction pairs with
      | nil => simp
      | cons p l ih => simp only [List.map_cons, List.sum_cons, ih]; push_cast; ring
    rw [this]
    push_cast
    ring
  have hpos : 0 < (pairs.map fun p => Complex.normSq (toC ((dft p.2).getD k 0))).sum / pairs.length := by
    obtain ⟨p, hp, hp0⟩ := hpow
    have hl : 0 < pairs.length := List.length_pos_of_mem hp
    apply div_pos _ (by exact_mod_cast hl)
    have h1 : Complex.normSq (toC ((dft p.2).getD k 0)) ≤ (pairs.map fun p => Complex.normSq (toC ((dft p.2).getD k 0))).sum := by
      apply List.single_le_sum
      · intro x hx
        obtain ⟨q, -, rfl⟩ := List.mem_map.1 hx
        exact Complex.normSq_nonneg _
      · exact List.mem_map.2 ⟨p, hp, rfl⟩
    exact lt_of_lt_of_le (Complex.normSq_pos.2 hp0) h1
  have hθ0 : 0 ≤ θ := by rw [hθ]; have := Real.pi_pos; positivity
  have hθ1 : θ ≤ Real.pi := by
    rw [hθ, div_le_iff₀ hn]
    have : (2 * (s * k : Nat) : ℝ) ≤ n := by exact_mod_cast hs
    nlinarith [Real.pi_pos]
  have harg : angleR b.c = θ := by
    unfold angleR
    rw [hb, hsum, Complex.arg_real_mul _ hpos, Complex.arg_exp_mul_I, toIocMod_eq_self Real.two_pi_pos]
    constructor
    · linarith [Real.pi_pos]
    · linarith [Real.pi_pos]
  have : timeLag angleR Real.pi cls [b] = .ok [angleR b.c / (2 * Real.pi * b.freq)] := if_neg hcls
  rw [this, harg, hf, hθ]
  have hk : (k : ℝ) ≠ 0 := by exact_mod_cast hk0.ne'
  have := Real.pi_pos.ne'
  congr 2
  push_cast
  field_simp

/-- the conditions of `time_lag_of_delay` are met: `[0, 1, 0, 0]` is `[1, 0, 0, 0]` one bin later -/
example : Delayed 1 ([0, 1, 0, 0], [1, 0, 0, 0]) ∧ 2 * (1 * 1) ≤ 4 := by
  refine ⟨⟨rfl, fun j hj => ?_⟩, by norm_num⟩
  have : j < 4 := hj
  rcases (by omega : j = 0 ∨ j = 1 ∨ j = 2 ∨ j = 3) with rfl | rfl | rfl | rfl <;> simp

end Lags

/-! ## C159: uncertainties -/

section Errors

variable {K : Type} [Field K] [LinearOrder K] [IsStrictOrderedRing K]
variable (sqrt : K → K) (hsqrt : ∀ x, 0 ≤ x → 0 ≤ sqrt x ∧ sqrt x ^ 2 = x)
include hsqrt

/-- **C159.** For channels that do not overlap, at each frequency where `|C|² ≤ P1 P2`, the uncertainties of the real and the imaginary part of an averaged cross power are at least 0, their squares add up to `P1 P2 / m` and differ by `(Re² - Im²) / m`. -/
theorem calculate_errors_independent (s : CrossInfo K) (hs : s.overlap = false) (m1 m2 : K) (l : List (CrossBin K)) (r : CrossUncertainties K)
    (h : calculateErrors sqrt s m1 m2 l = .ok r) (i : Nat) (b : CrossBin K) (hb : l[i]? = some b) (hm : 0 < b.m)
    (hc : b.c.re ^ 2 + b.c.im ^ 2 ≤ b.p1 * b.p2) :
    ∃ e, r.unnormPowerErr[i]? = some e ∧ 0 ≤ e.re ∧ 0 ≤ e.im ∧ e.re ^ 2 + e.im ^ 2 = b.p1 * b.p2 / b.m ∧
      e.re ^ 2 - e.im ^ 2 = (b.c.re ^ 2 - b.c.im ^ 2) / b.m := by
  simp only [calculateErrors] at h
  split_ifs at h with h0
  simp only [bind, Except.bind] at h
  split at h
  · cases h
  cases h
  obtain ⟨x, y, d, e1, e2, -, x0, y0, -, h1, h2, h3⟩ := cross_errors_spec sqrt hsqrt b.c b.p1 b.p2 b.m s.nph1 s.nph2 hm hc
  refine ⟨⟨x, y⟩, ?_, x0, y0, by rw [h1, h2], h3⟩
  rw [List.getElem?_map, hb, Option.map_some]
  simp only [errAt, hs, e1, e2]

omit hsqrt in
/-- **C159 (defaults).** Where the formulas give no number for the real or the imaginary part, both uncertainties are the default one, which for Leahy powers is `sqrt(2 / m)` as documented: no power is without an uncertainty. -/
theorem calculate_errors_default (s : CrossInfo K) (m1 m2 : K) (l : List (CrossBin K)) (r : CrossUncertainties K)
    (h : calculateErrors sqrt s m1 m2 l = .ok r) (i : Nat) (b : CrossBin K) (hb : l[i]? = some b)
    (hbad : (crossErrors sqrt b.c b.p1 b.p2 b.m s.nph1 s.nph2 s.overlap).re = none ∨
      (crossErrors sqrt b.c b.p1 b.p2 b.m s.nph1 s.nph2 s.overlap).im = none) :
    r.unnormPowerErr[i]? = some ⟨sqrt (2 / b.m) * s.nph / 2, sqrt (2 / b.m) * s.nph / 2⟩ ∧
    (s.norm = .leahy → s.variance = none → s.nph ≠ 0 → r.powerErr[i]? = some ⟨sqrt (2 / b.m), sqrt (2 / b.m)⟩) := by
  simp only [calculateErrors] at h
  split_ifs at h with h0
  rw [not_not] at h0
  simp only [bind, Except.bind] at h
  split at h
  · cases h
  next p hp =>
  cases h
  have he : (errAt sqrt s (sqrt (s.nph1 * s.nph2)) b).1 = ⟨sqrt (2 / b.m) * s.nph / 2, sqrt (2 / b.m) * s.nph / 2⟩ := by
    unfold errAt
    simp only [h0]
    rcases hbad with hbad | hbad
    · rw [hbad]
    · rw [hbad]
      cases (crossErrors sqrt b.c b.p1 b.p2 b.m s.nph1 s.nph2 s.overlap).re <;> rfl
  have hu : (l.map fun b => (errAt sqrt s (sqrt (s.nph1 * s.nph2)) b).1)[i]? = some ⟨sqrt (2 / b.m) * s.nph / 2, sqrt (2 / b.m) * s.nph / 2⟩ := by
    rw [List.getElem?_map, hb, Option.map_some, he]
  refine ⟨hu, fun hn hv hne => ?_⟩
  simp only [normalizeCx, normalizer, hn, hv, bind, Except.bind] at hp
  cases hp
  simp only [← h0]
  rw [← h0] at hu
  rw [List.getElem?_map, hu, Option.map_some]
  simp only [Cx.both]
  congr 2 <;> field_simp

omit hsqrt in
/-- **C159 (shape).** There is one uncertainty for each frequency, those of the normalised powers are the normalised uncertainties, the lags have the uncertainties of the phases with `m` averages, and those of the two power spectra are the powers over the square root of their number of averages. -/
theorem calculate_errors_shape (s : CrossInfo K) (m1 m2 : K) (l : List (CrossBin K)) (r : CrossUncertainties K)
    (h : calculateErrors sqrt s m1 m2 l = .ok r) :
    r.unnormPowerErr.length = l.length ∧
    normalizeCx sqrt s.norm s.dt s.n s.mean s.nph s.variance 0 .all r.unnormPowerErr = .ok r.powerErr ∧
    r.lagErr = l.map (fun b => (crossErrors sqrt b.c b.p1 b.p2 b.m s.nph1 s.nph2 s.overlap).phase) ∧
    (∀ (i : Nat) (b : CrossBin K), l[i]? = some b → r.pds1UnnormErr[i]? = some (b.p1 / sqrt m1) ∧ r.pds2UnnormErr[i]? = some (b.p2 / sqrt m2)) := by
  simp only [calculateErrors] at h
  split_ifs at h with h0
  rw [not_not] at h0
  simp only [bind, Except.bind] at h
  split at h
  · cases h
  next p hp =>
  cases h
  refine ⟨by simp, by rw [h0]; exact hp, ?_, ?_⟩
  · apply List.map_congr_left
    intro b _
    unfold errAt
    simp only
    split <;> rfl
  · intro i b hb
    simp only [List.getElem?_map, hb, Option.map_some, and_self]

omit hsqrt in
/-- **C159 (refusal).** A spectrum whose `nph` is not the geometric mean of the photons of its channels is refused. -/
theorem calculate_errors_refuses (s : CrossInfo K) (m1 m2 : K) (l : List (CrossBin K)) :
    (s.nph ≠ sqrt (s.nph1 * s.nph2) → calculateErrors sqrt s m1 m2 l = .error .assertionError) ∧
    (s.nph = sqrt (s.nph1 * s.nph2) → s.norm = .leahy → s.variance = none → ∃ r, calculateErrors sqrt s m1 m2 l = .ok r) := by
  constructor
  · intro h
    simp only [calculateErrors, if_pos h]
  · intro h hn hv
    simp only [calculateErrors, ← h, ne_eq, not_true, if_false, normalizeCx, normalizer, hn, hv, bind, Except.bind]
    exact ⟨_, rfl⟩

omit hsqrt in
/-- **C159 (time lags).** The uncertainty of a time lag is that of the phase lag over `2 π f`; the lags have the length of the spectrum. -/
theorem averaged_time_lag (angle : Cx K → K) (pi : K) (l : List (CrossBin K)) (lagErr : List (Option K)) (hlen : lagErr.length = l.length)
    (i : Nat) (b : CrossBin K) (e : Option K) (hb : l[i]? = some b) (he : lagErr[i]? = some e) :
    (averagedTimeLag angle pi l lagErr).1.length = l.length ∧ (averagedTimeLag angle pi l lagErr).2.length = l.length ∧
    (averagedTimeLag angle pi l lagErr).1[i]? = some (angle b.c / (2 * pi * b.freq)) ∧
    (averagedTimeLag angle pi l lagErr).2[i]? = some (e.map fun x => x / (2 * pi * b.freq)) := by
  refine ⟨by simp [averagedTimeLag, phaseLag], by simp [averagedTimeLag, hlen], ?_, ?_⟩
  · simp [averagedTimeLag, phaseLag, List.getElem?_zipWith, hb]
  · simp only [averagedTimeLag, List.getElem?_zipWith, hb, he]

omit hsqrt in
/-- **C159 (negation).** Lags may be without uncertainty: where the coherence is 0 (no cross power, for instance), the phase of channels that do not overlap has none, and no default is used for it. -/
theorem calculate_errors_no_lag (s : CrossInfo K) (hs : s.overlap = false) (m1 m2 : K) (l : List (CrossBin K)) (r : CrossUncertainties K)
    (h : calculateErrors sqrt s m1 m2 l = .ok r) (i : Nat) (b : CrossBin K) (hb : l[i]? = some b)
    (hcoh : rawCoherence b.c b.p1 b.p2 s.nph1 s.nph2 b.m 1 = 0) : r.lagErr[i]? = some none := by
  rw [(calculate_errors_shape sqrt s m1 m2 l r h).2.2.1, List.getElem?_map, hb, Option.map_some, hs]
  simp [crossErrors, hcoh, ratio, root]

example : (calculateErrors (fun x => x) ⟨1, 100, 2, 3, 6, 1, none, .leahy, false⟩ 5 5 [(⟨1, ⟨2, 1⟩, 5, 6, 20⟩ : CrossBin ℚ), ⟨2, ⟨20, 1⟩, 5, 6, 20⟩]).map
    (fun r => r.unnormPowerErr) = .ok [⟨33 / 40, 27 / 40⟩, ⟨3 / 10, 3 / 10⟩] := by decide +kernel

end Errors

end Stingray.Fourier

import Verif.Model.Covariance
import Verif.Lemmas.GtiSegments
import Verif.Props.Binning
import Mathlib.Algebra.Order.Ring.Rat
import Mathlib.Data.Rat.Floor
import Mathlib.Data.Real.Sqrt
import Mathlib.Data.Real.Archimedean
import Mathlib.Tactic.NormNum
import Mathlib.Tactic.Linarith
import Mathlib.Tactic.FieldSimp
import Mathlib.Tactic.LinearCombination
import Mathlib.Tactic.Positivity

/-!
# C141, C142, C143: covariance spectra of light curves
-/

set_option linter.unusedSectionVars false

namespace Stingray.Covariance

open Stingray.Lightcurve Stingray.Gti

variable {K : Type} [Field K] [LinearOrder K] [IsStrictOrderedRing K] [FloorRing K]

theorem forall2_get {α β : Type} {R : α → β → Prop} {l : List α} {r : List β} (h : List.Forall₂ R l r) :
    l.length = r.length ∧ ∀ (i : Nat) (a : α), l[i]? = some a → ∃ b, r[i]? = some b ∧ R a b := by
  induction h with
  | nil => exact ⟨rfl, fun i a h => by simp at h⟩
  | cons hab _ ih =>
    refine ⟨by simp [ih.1], fun i a h => ?_⟩
    cases i with
    | zero => simp at h; subst h; exact ⟨_, by simp, hab⟩
    | succ i => simp at h; simpa using ih.2 i a h

theorem addCounts_foldlM (lcs : List (Curve K)) (n : Nat) (hn : ∀ c ∈ lcs, c.counts.length = n) (js : List Nat)
    (hjs : ∀ j ∈ js, j < lcs.length) (acc : List K) (ha : acc.length = n) :
    ∃ out, js.foldlM (addCounts lcs) acc = .ok out ∧ out.length = n ∧
      ∀ b, b < n → out.getD b 0 = acc.getD b 0 + (js.map fun j => ((lcs[j]?.map (·.counts)).getD []).getD b 0).sum := by
  induction js generalizing acc with
  | nil => exact ⟨acc, rfl, ha, by simp⟩
  | cons j js ih =>
    have hj := hjs j (by simp)
    have hl : (lcs[j]).counts.length = acc.length := by rw [ha]; exact hn _ (List.getElem_mem hj)
    have h1 : addCounts lcs acc j = .ok (List.zipWith (· + ·) acc (lcs[j]).counts) := by
      simp only [addCounts, List.getElem?_eq_getElem hj, if_pos hl]
    obtain ⟨out, ho, hlen, hb⟩ := ih (fun k hk => hjs k (by simp [hk])) (List.zipWith (· + ·) acc (lcs[j]).counts) (by simp [hl, ha])
    refine ⟨out, ?_, hlen, fun b hbn => ?_⟩
    · rw [List.foldlM_cons, h1]; exact ho
    · rw [hb b hbn]
      have h2 : (List.zipWith (· + ·) acc (lcs[j]).counts).getD b 0 = acc.getD b 0 + (lcs[j]).counts.getD b 0 := by
        have e1 : b < acc.length := by omega
        have e2 : b < (lcs[j]).counts.length := by omega
        simp [List.getD_eq_getElem?_getD, List.getElem?_zipWith, List.getElem?_eq_getElem, e1, e2]
      rw [h2]
      simp [List.getElem?_eq_getElem hj]
      ring

theorem sum_range_ne (f : Nat → K) (n i : Nat) (hi : i < n) :
    (((List.range n).filter (· ≠ i)).map f).sum + f i = ((List.range n).map f).sum := by
  have key : ∀ l : List Nat, l.Nodup → i ∈ l → ((l.filter (· ≠ i)).map f).sum + f i = (l.map f).sum := by
    intro l hl him
    induction l with
    | nil => simp at him
    | cons a l ih =>
      rw [List.nodup_cons] at hl
      by_cases hai : a = i
      · subst hai
        have hf : (l.filter (· ≠ a)) = l := by
          rw [List.filter_eq_self]; intro x hx
          simp only [ne_eq, decide_not, Bool.not_eq_true', decide_eq_false_iff_not]
          rintro rfl; exact hl.1 hx
        simp only [ne_eq, not_true_eq_false, decide_false, Bool.false_eq_true, not_false_eq_true, List.filter_cons_of_neg, List.map_cons, List.sum_cons]
        rw [show (l.filter fun x => decide ¬ x = a) = l from hf]; ring
      · have him' : i ∈ l := by
          rcases List.mem_cons.1 him with h | h
          · exact absurd h.symm hai
          · exact h
        rw [List.filter_cons_of_pos (by simpa using hai)]
        simp only [List.map_cons, List.sum_cons]
        rw [← ih hl.2 him']; ring
  exact key _ List.nodup_range (by simpa using hi)

/-- **C141.** A covariance spectrum of light curves of equal length, without reference band: the reference band of a band of interest has, in every bin, the counts of all the bands together less those of the band itself; there is one for every band, with the times of the first light curve. -/
theorem reference_excludes_band (sort : KeySort (fun (x : K) => x)) (byTime : KeySort (fun (x : K × K) => x.1)) (l : Curve K)
    (ls : List (Curve K)) (n : Nat) (hn : ∀ c ∈ l :: ls, c.counts.length = n) (dt : Option K) :
    ∃ cs, prepare sort byTime (.curves (l :: ls)) dt none .absent = .ok (l :: ls, .each cs) ∧
      cs.length = (l :: ls).length ∧
      ∀ (i : Nat) (x r : Curve K), (l :: ls)[i]? = some x → cs[i]? = some r →
        r.time = l.time ∧ r.counts.length = n ∧
        ∀ b, b < n → r.counts.getD b 0 + x.counts.getD b 0 = ((l :: ls).map fun c => c.counts.getD b 0).sum := by
  set lcs := l :: ls with hlcs
  have hstep : ∀ i ∈ List.range lcs.length, ∃ c : Curve K,
      (do
        let counts ← ((List.range lcs.length).filter (· ≠ i)).foldlM (addCounts lcs) (l.counts.map fun _ => 0)
        return ({ time := l.time, counts := counts } : Curve K) : Except PyErr (Curve K)) = .ok c := by
    intro i _
    obtain ⟨out, ho, _⟩ := addCounts_foldlM lcs n hn ((List.range lcs.length).filter (· ≠ i))
      (fun j hj => by simpa using (List.mem_filter.1 hj).1) (l.counts.map fun _ => 0) (by simpa using hn l (by simp [hlcs]))
    exact ⟨_, by rw [ho]; rfl⟩
  obtain ⟨cs, hcs⟩ := mapM_ok_of_forall _ _ hstep
  have hg := forall2_get (mapM_ok_forall2 _ _ _ hcs)
  refine ⟨cs, ?_, by simpa using hg.1.symm, ?_⟩
  · have hr : refsFromCurves lcs lcs.length none = .ok (.each cs) := by
      simp only [refsFromCurves]
      have : (List.range lcs.length).mapM (fun i => match lcs with
          | [] => (.error .indexError : Except PyErr (Curve K))
          | l :: _ => do
            let counts ← ((List.range lcs.length).filter (· ≠ i)).foldlM (addCounts lcs) (l.counts.map fun _ => 0)
            return { time := l.time, counts := counts }) = .ok cs := hcs
      rw [this]; rfl
    have hne : lcs ≠ [] := by simp [hlcs]
    simp only [prepare, curveBands, givenRefs, bind, Except.bind, if_neg hne, pure, Except.pure]
    rw [hr]
  · intro i x r hx hr
    have hi : i < lcs.length := (List.getElem?_eq_some_iff.1 hx).1
    obtain ⟨c, hc, he⟩ := hg.2 i i (by simp [hi])
    rw [hr] at hc; cases hc
    obtain ⟨out, ho, hlen, hb⟩ := addCounts_foldlM lcs n hn ((List.range lcs.length).filter (· ≠ i))
      (fun j hj => by simpa using (List.mem_filter.1 hj).1) (l.counts.map fun _ => 0) (by simpa using hn l (by simp [hlcs]))
    rw [ho] at he
    simp only [bind, Except.bind, pure, Except.pure] at he
    cases he
    refine ⟨rfl, hlen, fun b hbn => ?_⟩
    simp only
    rw [hb b hbn]
    have h0 : (l.counts.map fun _ => (0 : K)).getD b 0 = 0 := by
      simp only [List.getD_eq_getElem?_getD, List.getElem?_map]
      cases l.counts[b]? <;> rfl
    rw [h0, zero_add]
    have hxi : ((lcs[i]?.map (·.counts)).getD []).getD b 0 = x.counts.getD b 0 := by rw [hx]; rfl
    rw [← hxi, sum_range_ne (fun j => ((lcs[j]?.map (·.counts)).getD []).getD b 0) _ _ hi]
    congr 1
    apply List.ext_getElem?
    intro j
    simp only [List.getElem?_map]
    by_cases hj : j < lcs.length
    · simp [List.getElem?_eq_getElem hj, List.getElem?_range, hj]
    · have hj' := Nat.not_lt.1 hj
      rw [List.getElem?_eq_none (by simpa using hj'), List.getElem?_eq_none hj']
      rfl

/-- Light curves that meet the hypotheses, and the reference bands. -/
example : (prepare (stableSort fun (x : ℚ) => x) (stableSort fun (x : ℚ × ℚ) => x.1)
    (.curves [⟨[1, 2, 3], [1, 0, 2]⟩, ⟨[1, 2, 3], [5, 1, 1]⟩, ⟨[1, 2, 3], [0, 0, 7]⟩]) none none .absent).map
      (fun p => match p.2 with | .each cs => cs.map (·.counts) | .one _ => []) =
    .ok [[5, 1, 8], [1, 0, 9], [6, 1, 3]] := by decide +kernel

/-- **C141 (negation).** With light curves, a reference band given by two bounds always raises `ValueError`, although the documentation allows it. -/
theorem bounds_with_curves_raise (sort : KeySort (fun (x : K) => x)) (byTime : KeySort (fun (x : K × K) => x.1)) (l : Curve K)
    (ls : List (Curve K)) (dt : Option K) (a b : K) :
    prepare sort byTime (.curves (l :: ls)) dt none (.bounds a b) = .error .valueError := by
  simp [prepare, curveBands, givenRefs, refsFromCurves, bind, Except.bind, pure, Except.pure]

/-! ## C142: the covariance -/

theorem sum_map_sub_sq (l : List K) (m : K) :
    (l.map fun x => (x - m) ^ 2).sum = (l.map fun x => x ^ 2).sum - 2 * m * l.sum + l.length * m ^ 2 := by
  induction l with
  | nil => simp
  | cons a l ih => simp only [List.map_cons, List.sum_cons, ih, List.length_cons]; push_cast; ring

theorem sum_zip_sub (x y : List K) (h : x.length = y.length) (p q : K) :
    (List.zipWith (fun a b => (a - p) * (b - q)) x y).sum =
      (List.zipWith (· * ·) x y).sum - q * x.sum - p * y.sum + x.length * (p * q) := by
  induction x generalizing y with
  | nil => cases y with
    | nil => simp
    | cons b y => simp at h
  | cons a x ih => cases y with
    | nil => simp at h
    | cons b y =>
      simp only [List.zipWith_cons_cons, List.sum_cons, List.length_cons]
      rw [ih y (by simpa using h)]; push_cast; ring

theorem mean_some (l : List K) (h : l ≠ []) : mean l = some (l.sum / l.length) := by simp [mean, h]

/-- `n² var = n Σx² - (Σx)²`. -/
theorem var_spec (l : List K) (h : l ≠ []) :
    ∃ v, var l = some v ∧ (l.length : K) ^ 2 * v = l.length * (l.map fun x => x ^ 2).sum - l.sum ^ 2 := by
  have hn : (l.length : K) ≠ 0 := by simpa using h
  refine ⟨_, by simp only [var, mean_some l h, Option.bind_some]; exact mean_some _ (by simpa using h), ?_⟩
  rw [sum_map_sub_sq, List.length_map]
  field_simp
  ring

/-- The specification of the covariance of two series of `n` samples: `n (n - 1) c = n Σxy - Σx Σy`. -/
def IsCov (x y : List K) (c : K) : Prop :=
  (x.length : K) * ((x.length : K) - 1) * c = x.length * (List.zipWith (· * ·) x y).sum - x.sum * y.sum

/-- The specification of the excess variance: the variance of the counts less the variance expected of the noise, which is the square of the given standard deviation (or of the mean of those given), or the mean of the counts. -/
def IsExcess (std : Std K) (y : List K) (v : K) : Prop :=
  ∃ noise : K, (y.length : K) ^ 2 * v = y.length * (y.map fun a => a ^ 2).sum - y.sum ^ 2 - (y.length : K) ^ 2 * noise ∧
    match std with
    | .default => (y.length : K) * noise = y.sum
    | .num s => noise = s ^ 2
    | .list l => (l.length : K) ^ 2 * noise = l.sum ^ 2

theorem calcStd_spec (sqrt : K → K) (hsqrt : ∀ x, 0 ≤ x → 0 ≤ sqrt x ∧ sqrt x ^ 2 = x) (std : Std K) (y : List K) (hy : y ≠ [])
    (hpos : 0 ≤ y.sum) (hl : ∀ l, std = .list l → l ≠ []) :
    ∃ s, calcStd sqrt std y = some s ∧
      match std with
      | .default => 0 ≤ s ∧ (y.length : K) * s ^ 2 = y.sum
      | .num t => s = t
      | .list l => (l.length : K) * s = l.sum := by
  have hn : (0 : K) < y.length := by exact_mod_cast List.length_pos_iff.2 hy
  cases std with
  | default =>
    have h0 : 0 ≤ y.sum / y.length := div_nonneg hpos hn.le
    refine ⟨sqrt (y.sum / y.length), ?_, (hsqrt _ h0).1, ?_⟩
    · simp only [calcStd, mean_some y hy, Option.bind_some, root, if_neg (not_lt.2 h0)]
    · rw [(hsqrt _ h0).2]; field_simp
  | num t => exact ⟨t, rfl, rfl⟩
  | list l =>
    have hll := hl l rfl
    refine ⟨_, by simp only [calcStd]; exact mean_some l hll, ?_⟩
    have : (l.length : K) ≠ 0 := by simpa using hll
    field_simp

theorem excess_spec (sqrt : K → K) (hsqrt : ∀ x, 0 ≤ x → 0 ≤ sqrt x ∧ sqrt x ^ 2 = x) (std : Std K) (y : List K) (hy : y ≠ [])
    (hpos : 0 ≤ y.sum) (hl : ∀ l, std = .list l → l ≠ []) :
    ∃ v, excessVar sqrt std y = some v ∧ IsExcess std y v := by
  obtain ⟨s, hs, hsp⟩ := calcStd_spec sqrt hsqrt std y hy hpos hl
  obtain ⟨v, hv, hvs⟩ := var_spec y hy
  refine ⟨v - s ^ 2, by simp [excessVar, hs, hv], s ^ 2, by linear_combination hvs, ?_⟩
  cases std with
  | default => exact hsp.2
  | num t => simp only at hsp ⊢; rw [hsp]
  | list l => simp only at hsp ⊢; rw [← hsp]; ring

theorem excess_unique (std : Std K) (y : List K) (hy : y ≠ []) (hl : ∀ l, std = .list l → l ≠ []) (v w : K)
    (hv : IsExcess std y v) (hw : IsExcess std y w) : v = w := by
  obtain ⟨a, ha, ha'⟩ := hv
  obtain ⟨b, hb, hb'⟩ := hw
  have hn : (y.length : K) ≠ 0 := by simpa using hy
  have hab : a = b := by
    cases std with
    | default => exact mul_left_cancel₀ hn (ha'.trans hb'.symm)
    | num s => exact ha'.trans hb'.symm
    | list l =>
      have : (l.length : K) ≠ 0 := by simpa using hl l rfl
      exact mul_left_cancel₀ (pow_ne_zero 2 this) (ha'.trans hb'.symm)
  subst hab
  exact mul_left_cancel₀ (pow_ne_zero 2 hn) (ha.trans hb.symm)

/-- **C142.** The covariance spectrum of one band and its reference band, of equal length with at least two bins and no negative total: the unnormalised covariance is the sample covariance of the counts, the excess variance is that of the reference band; the value of the spectrum is the covariance divided by the square root of the excess variance if this is positive, and NaN otherwise. -/
theorem covar_spec (sqrt : K → K) (hsqrt : ∀ x, 0 ≤ x → 0 ≤ sqrt x ∧ sqrt x ^ 2 = x) (std : Std K) (m : Nat) (x y : List K)
    (hlen : x.length = y.length) (h2 : 2 ≤ x.length) (hpos : 0 ≤ y.sum) (hl : ∀ l, std = .list l → l ≠ []) :
    ∃ r c v, bandRow sqrt std m x y = .ok r ∧ r.cov = some c ∧ IsCov x y c ∧ r.xs = some v ∧ IsExcess std y v ∧
      (0 < v → ∃ q, r.covar sqrt = some q ∧ q ^ 2 * v = c ^ 2 ∧ 0 ≤ q * c) ∧
      (v ≤ 0 → r.covar sqrt = none) := by
  have hx : x ≠ [] := by intro h; simp [h] at h2
  have hy : y ≠ [] := by intro h; rw [h] at hlen; simp at hlen; exact hx hlen
  obtain ⟨v, hv, hvs⟩ := excess_spec sqrt hsqrt std y hy hpos hl
  have hn : (x.length : K) ≠ 0 := by simpa using hx
  have hn2 : (2 : K) ≤ x.length := by exact_mod_cast h2
  have hn1 : (x.length : K) - 1 ≠ 0 := by linarith
  have hc : npCov x y = .ok (some ((List.zipWith (fun a b => (a - x.sum / x.length) * (b - y.sum / y.length)) x y).sum / ((x.length : K) - 1))) := by
    simp [npCov, hlen, mean_some x hx, mean_some y hy, quot]
    intro h
    rw [← hlen] at h
    exact absurd h hn1
  refine ⟨⟨some ((List.zipWith (fun a b => (a - x.sum / x.length) * (b - y.sum / y.length)) x y).sum / ((x.length : K) - 1)),
    excessVar sqrt std y, covError sqrt std m x y⟩, _, v, by simp only [bandRow, hc, bind, Except.bind, pure, Except.pure], rfl, ?_, hv, hvs, ?_, ?_⟩
  · unfold IsCov
    rw [sum_zip_sub x y hlen, ← hlen]
    field_simp
    ring
  · intro hv0
    have hs := hsqrt v hv0.le
    have hs0 : sqrt v ≠ 0 := by intro h; rw [h] at hs; simp at hs; exact hv0.ne hs
    refine ⟨_, by simp [Row.covar, hv, root, not_lt.2 hv0.le, quot, hs0]; rfl, ?_, ?_⟩
    · rw [div_pow, hs.2]; exact div_mul_cancel₀ _ hv0.ne'
    · rw [div_mul_eq_mul_div]; exact div_nonneg (mul_self_nonneg _) hs.1
  · intro hv0
    rcases lt_or_eq_of_le hv0 with h | h
    · simp [Row.covar, hv, root, h]
    · have := hsqrt 0 le_rfl
      have h0 : sqrt 0 = 0 := by simpa using this.2
      subst h
      simp [Row.covar, hv, root, h0, quot]

/-- Two bands with positive excess variance; `sqrt` is exact on the squares that occur. -/
example : (bandRow (fun x : ℚ => if x = 4 then 2 else x) (.num 1) 1 [0, 2, 1, 1] [1, 7, 4, 4]).map
    (fun r => (r.cov, r.xs, r.covar (fun x : ℚ => if x = 7 / 2 then 2 else x))) = .ok (some 2, some (7 / 2), some 1) := by decide +kernel

/-- **C142.** The spectrum has one row for each light curve, made of it and its reference band. -/
theorem covar_rows (sqrt : K → K) (std : Std K) (lcs : List (Curve K)) (refs : Refs K) (rows : List (Row K))
    (h : constructCovar sqrt std lcs refs = .ok rows) :
    rows.length = lcs.length ∧ ∀ (i : Nat) (x : Curve K), lcs[i]? = some x → ∃ r row, rows[i]? = some row ∧
      (match refs with | .one c => r = c | .each cs => cs[i]? = some r) ∧ bandRow sqrt std 1 x.counts r.counts = .ok row := by
  have hg := forall2_get (mapM_ok_forall2 _ _ _ h)
  refine ⟨by simpa using hg.1.symm, fun i x hx => ?_⟩
  obtain ⟨row, hrow, he⟩ := hg.2 i (x, i) (by simp [List.getElem?_zipIdx, hx])
  simp only [bind, Except.bind] at he
  cases hr : refOf refs i with
  | error e => rw [hr] at he; cases he
  | ok r =>
    rw [hr] at he
    refine ⟨r, row, hrow, ?_, he⟩
    cases refs with
    | one c => simp only [refOf] at hr; cases hr; rfl
    | each cs =>
      simp only [refOf] at hr
      split_ifs at hr
      simp only
      cases hc : cs[i]? with
      | none => rw [hc] at hr; cases hr
      | some c => rw [hc] at hr; cases hr; rfl

theorem zipWith_comm_mul (x y : List K) : List.zipWith (· * ·) x y = List.zipWith (· * ·) y x := by
  rw [List.zipWith_comm]; congr 1; funext a b; ring

/-- **C142.** The covariance is symmetric, does not change when a constant is added to a light curve, and is multiplied by the factor that multiplies a light curve. -/
theorem cov_laws (x y : List K) (a c : K) (hlen : x.length = y.length) (hc : IsCov x y c) :
    IsCov y x c ∧ IsCov (x.map (· + a)) y c ∧ IsCov (x.map (a * ·)) y (a * c) := by
  unfold IsCov at hc ⊢
  have e1 : ∀ (x y : List K), x.length = y.length → (List.zipWith (· * ·) (x.map (· + a)) y).sum = (List.zipWith (· * ·) x y).sum + a * y.sum := by
    intro x
    induction x with
    | nil => intro y h; cases y <;> simp at h ⊢
    | cons u x ih =>
      intro y h
      cases y with
      | nil => simp at h
      | cons v y => simp only [List.map_cons, List.zipWith_cons_cons, List.sum_cons]; rw [ih y (by simpa using h)]; ring
  have e2 : ∀ (x y : List K), (List.zipWith (· * ·) (x.map (a * ·)) y).sum = a * (List.zipWith (· * ·) x y).sum := by
    intro x
    induction x with
    | nil => intro y; simp
    | cons u x ih =>
      intro y
      cases y with
      | nil => simp
      | cons v y => simp only [List.map_cons, List.zipWith_cons_cons, List.sum_cons]; rw [ih y]; ring
  have e3 : ∀ x : List K, (x.map (· + a)).sum = x.sum + x.length * a := by
    intro x
    induction x with
    | nil => simp
    | cons u x ih => simp only [List.map_cons, List.sum_cons, ih, List.length_cons]; push_cast; ring
  have e4 : ∀ x : List K, (x.map (a * ·)).sum = a * x.sum := by
    intro x
    induction x with
    | nil => simp
    | cons u x ih => simp only [List.map_cons, List.sum_cons, ih]; ring
  refine ⟨?_, ?_, ?_⟩
  · rw [zipWith_comm_mul, ← hlen]; linear_combination hc
  · rw [e1 x y hlen, e3, List.length_map]
    linear_combination hc
  · rw [e2, e4, List.length_map]
    linear_combination a * hc

theorem cauchy (x y : List K) (h : x.length = y.length) (A : K) :
    0 ≤ (x.map fun a => a ^ 2).sum * A ^ 2 + 2 * A * (List.zipWith (· * ·) x y).sum + (y.map fun a => a ^ 2).sum := by
  induction x generalizing y with
  | nil => cases y with
    | nil => simp
    | cons b y => simp at h
  | cons a x ih => cases y with
    | nil => simp at h
    | cons b y =>
      simp only [List.map_cons, List.sum_cons, List.zipWith_cons_cons]
      have := ih y (by simpa using h)
      nlinarith [sq_nonneg (a * A + b)]

theorem cauchy' (x y : List K) (h : x.length = y.length) :
    (List.zipWith (· * ·) x y).sum ^ 2 ≤ (x.map fun a => a ^ 2).sum * (y.map fun a => a ^ 2).sum := by
  have hq := cauchy x y h
  set X := (x.map fun a => a ^ 2).sum
  set Y := (y.map fun a => a ^ 2).sum
  set P := (List.zipWith (· * ·) x y).sum
  have hX : 0 ≤ X := by
    have : ∀ l : List K, 0 ≤ (l.map fun a => a ^ 2).sum := by
      intro l; induction l with
      | nil => simp
      | cons a l ih => simp only [List.map_cons, List.sum_cons]; positivity
    exact this x
  rcases hX.lt_or_eq with hX | hX
  · have h1 := hq (-P / X)
    have h2 : X * (-P / X) ^ 2 + 2 * (-P / X) * P + Y = Y - P ^ 2 / X := by field_simp; ring
    rw [h2] at h1
    have h3 : P ^ 2 / X ≤ Y := by linarith
    rw [div_le_iff₀ hX] at h3
    linarith
  · have h0 : P = 0 := by
      by_contra hP
      have h1 := hq (-(Y + 1) / (2 * P))
      rw [← hX] at h1
      have h2 : 0 * (-(Y + 1) / (2 * P)) ^ 2 + 2 * (-(Y + 1) / (2 * P)) * P + Y = -1 := by field_simp; ring
      rw [h2] at h1
      linarith
    rw [h0, ← hX]; simp

/-- **C142.** The covariance of two bands is bounded by their variances: its square is at most the product of the sample variances `(n Σx² - (Σx)²) / (n (n - 1))`. -/
theorem cov_bounded (x y : List K) (hlen : x.length = y.length) (h2 : 2 ≤ x.length) (c : K) (hc : IsCov x y c) :
    ((x.length : K) * ((x.length : K) - 1) * c) ^ 2 ≤
      (x.length * (x.map fun a => a ^ 2).sum - x.sum ^ 2) * (y.length * (y.map fun a => a ^ 2).sum - y.sum ^ 2) := by
  have hn2 : (2 : K) ≤ x.length := by exact_mod_cast h2
  have hn : (x.length : K) ≠ 0 := by linarith
  set n : K := (x.length : K) with hnn
  have hyn : (y.length : K) = n := by rw [hnn, hlen]
  have hcs := cauchy' (x.map (· - x.sum / n)) (y.map (· - y.sum / n)) (by simpa using hlen)
  have e1 : ∀ l : List K, (l.length : K) = n → ((l.map (· - l.sum / n)).map fun a => a ^ 2).sum = (n * (l.map fun a => a ^ 2).sum - l.sum ^ 2) / n := by
    intro l hl
    rw [List.map_map]
    have := sum_map_sub_sq l (l.sum / n)
    simp only [Function.comp_def]
    rw [this, hl]; field_simp; ring
  have e2 : (List.zipWith (· * ·) (x.map (· - x.sum / n)) (y.map (· - y.sum / n))).sum = ((n * (n - 1)) * c) / n := by
    rw [List.zipWith_map, sum_zip_sub x y hlen, ← hnn]
    unfold IsCov at hc
    rw [← hnn] at hc
    field_simp
    linear_combination -hc
  rw [e1 x rfl, e1 y hyn, e2] at hcs
  rw [hyn]
  have hn0 : 0 < n := by linarith
  rw [div_pow, div_mul_div_comm, ← pow_two n] at hcs
  exact (div_le_div_iff_of_pos_right (by positivity)).1 hcs

/-- **C142 (error, partial).** The reported error of a covariance averaged over `m` segments of `N` bins, with the excess variances `X`, `Y` of both bands and the standard deviations `a`, `b`: its square times `N m Y` is `X b + Y a + a b`, so that it decreases with the square root of the number of
segments. Missing: the published formula has `a²`, `b²` (`covar_error_formula`). -/
theorem covar_error_partial (std : Std ℝ) (m : Nat) (x y : List ℝ) (X Y a b e : ℝ) (hX : excessVar Real.sqrt std x = some X) (hY : excessVar Real.sqrt std y = some Y)
    (ha : calcStd Real.sqrt std x = some a) (hb : calcStd Real.sqrt std y = some b) (h : covError Real.sqrt std m x y = some e) :
    0 ≤ e ∧ e ^ 2 * (x.length * m * Y) = X * b + Y * a + a * b := by
  simp only [covError, hX, hY, ha, hb, Option.bind_eq_bind, Option.bind_some, quot, root] at h
  by_cases h0 : (x.length : ℝ) * m * Y = 0
  · rw [if_pos h0] at h; cases h
  · rw [if_neg h0, Option.bind_some] at h
    by_cases h1 : (X * b + Y * a + a * b) / ((x.length : ℝ) * m * Y) < 0
    · rw [if_pos h1] at h; cases h
    · rw [if_neg h1] at h
      cases h
      exact ⟨Real.sqrt_nonneg _, by rw [Real.sq_sqrt (not_lt.1 h1), div_mul_cancel₀ _ h0]⟩

/-- **C142 (negation).** The error of the covariance is computed from standard deviations where the published formula has variances: with `std = 2` and the two bins `0, 10` in both bands, the excess variances are 21, and the squared error times `N M xs` is `21·2 + 21·2 + 2·2 = 88` instead of `21·4 + 21·4 + 4·4 = 184`. -/
theorem covar_error_formula : ∃ e : ℝ, covError Real.sqrt (.num 2) 1 [0, 10] [0, 10] = some e ∧
    excessVar Real.sqrt (.num 2) [0, 10] = some 21 ∧ e ^ 2 * (2 * 1 * 21) = 88 ∧ (88 : ℝ) ≠ 21 * 2 ^ 2 + 21 * 2 ^ 2 + 2 ^ 2 * 2 ^ 2 := by
  have hx : excessVar Real.sqrt (.num (2 : ℝ)) [0, 10] = some 21 := by
    simp [excessVar, calcStd, var, mean]; norm_num
  refine ⟨Real.sqrt (88 / 42), ?_, hx, ?_, by norm_num⟩
  · simp only [covError, hx, calcStd, Option.bind_eq_bind, Option.bind_some, quot, root]
    norm_num
  · rw [Real.sq_sqrt (by norm_num)]; norm_num

/-! ## C143: averaged spectra -/

/-- The counts of the bins whose time is in `[a, b)`. -/
def part (c : Curve K) (a b : K) : List K := ((c.time.zip c.counts).filter fun p => decide (a ≤ p.1 ∧ p.1 < b)).map (·.2)

theorem nSegments_one (start segment : K) (h : segment ≠ 0) : nSegments start segment = .ok 1 := by
  simp [nSegments, h]

theorem meanRow_one (r : Row K) : meanRow [r] 1 = r := by
  have h : ∀ o : Option K, (oadd (some 0) o).bind (fun s => quot s ((1 : Nat) : K)) = o := by
    intro o; cases o <;> simp [oadd, quot]
  obtain ⟨c, x, e⟩ := r
  simp only [meanRow, List.foldl_cons, List.foldl_nil, h]

theorem take_filter {β : Type} (T : List K) (hT : T.Pairwise (· ≤ ·)) (ys : List β) (hl : T.length = ys.length) (v : K) :
    ys.take (searchsortedLeft T v) = ((T.zip ys).filter fun p => decide (p.1 < v)).map (·.2) := by
  induction T generalizing ys with
  | nil => simp [searchsortedLeft]
  | cons t T ih =>
    cases ys with
    | nil => simp at hl
    | cons y ys =>
      rw [List.pairwise_cons] at hT
      by_cases htv : t < v
      · have h1 : searchsortedLeft (t :: T) v = searchsortedLeft T v + 1 := by simp [searchsortedLeft, htv]
        rw [h1, List.take_succ_cons, ih hT.2 ys (by simpa using hl)]
        simp [htv]
      · have h1 : searchsortedLeft (t :: T) v = 0 := by
          simp only [searchsortedLeft, List.length_eq_zero_iff, List.filter_eq_nil_iff]
          intro x hx
          rcases List.mem_cons.1 hx with rfl | hx
          · simpa using htv
          · simpa using le_trans (not_lt.1 htv) (hT.1 x hx)
        have h2 : ((t :: T).zip (y :: ys)).filter (fun p => decide (p.1 < v)) = [] := by
          rw [List.filter_eq_nil_iff]
          rintro ⟨a, b⟩ hab
          have ha := (List.of_mem_zip hab).1
          rcases List.mem_cons.1 ha with rfl | ha
          · simpa using htv
          · simpa using le_trans (not_lt.1 htv) (hT.1 a ha)
        rw [h1, h2]; rfl

theorem slice_part (c : Curve K) (start : K) (ts : List K) (hc : c.time = start :: ts) (hT : c.time.Pairwise (· ≤ ·)) (hl : c.time.length = c.counts.length)
    (v : K) : (c.counts.take (searchsortedLeft c.time v)).drop (searchsortedLeft c.time start) = part c start v := by
  have hge : ∀ t ∈ c.time, start ≤ t := by
    rw [hc] at hT ⊢
    intro t ht
    rcases List.mem_cons.1 ht with rfl | ht
    · exact le_rfl
    · exact (List.pairwise_cons.1 hT).1 t ht
  have h0 : searchsortedLeft c.time start = 0 := by
    simp only [searchsortedLeft, List.length_eq_zero_iff, List.filter_eq_nil_iff]
    intro x hx; simpa using hge x hx
  rw [h0, List.drop_zero, take_filter c.time hT c.counts hl v]
  unfold part
  congr 1
  apply List.filter_congr
  rintro ⟨a, b⟩ hab
  simp [hge a (List.of_mem_zip hab).1]

theorem segRow_first (sqrt : K → K) (std : Std K) (nbins : Nat) (segment start : K) (hseg : 0 < segment) (ts : List K) (x r : Curve K)
    (hx : x.time = start :: ts) (hr : r.time = start :: ts) (hT : (start :: ts).Pairwise (· ≤ ·)) (hxl : x.time.length = x.counts.length)
    (hrl : r.time.length = r.counts.length) :
    segRow sqrt std nbins segment x r start = bandRow sqrt std nbins (part x start (start + segment)) (part r start (start + segment)) := by
  have h1 := slice_part x start ts hx (hx ▸ hT) hxl (start + segment)
  have h2 := slice_part r start ts hr (hr ▸ hT) hrl (start + segment)
  have h0 : searchsortedLeft (start :: ts) start = 0 := by
    simp only [searchsortedLeft, List.length_eq_zero_iff, List.filter_eq_nil_iff]
    intro y hy
    rcases List.mem_cons.1 hy with rfl | hy
    · simp
    · simpa using (List.pairwise_cons.1 hT).1 y hy
  have hb : 0 < searchsortedLeft (start :: ts) (start + segment) := by
    simp only [searchsortedLeft, List.length_pos_iff]
    have : start ∈ (start :: ts).filter (fun x => decide (x < start + segment)) := by simp [hseg]
    exact List.ne_nil_of_mem this
  rw [hx] at h1
  rw [hr] at h2
  have hne : ((start :: ts).take (searchsortedLeft (start :: ts) (start + segment))).drop (searchsortedLeft (start :: ts) start) ≠ [] := by
    rw [h0]
    obtain ⟨k, hk⟩ := Nat.exists_eq_succ_of_ne_zero hb.ne'
    rw [hk]; simp
  simp only [segRow, truncate, hx, hr, if_neg hne, bind, Except.bind, h1, h2]

/-- **C143 (negation).** An averaged covariance spectrum uses the first segment only.  The light curves of interest and their reference bands have the same sorted times, beginning at `start`; the segment size is positive.  Then every row is that of the bins with times in `[start, start + segment)`: nothing of the later segments enters, whatever the length of the light curves. -/
theorem averaged_first_segment_only (sqrt : K → K) (std : Std K) (segment start : K) (hseg : 0 < segment) (ts : List K)
    (hT : (start :: ts).Pairwise (· ≤ ·)) (lcs cs : List (Curve K)) (hl : ∀ c ∈ lcs ++ cs, c.time = start :: ts ∧ c.time.length = c.counts.length)
    (hlen : cs.length = lcs.length) (rows : List (Row K)) (h : constructAvg sqrt std segment lcs (.each cs) = .ok rows) :
    rows.length = lcs.length ∧ ∀ (i : Nat) (x r : Curve K), lcs[i]? = some x → cs[i]? = some r → ∃ row, rows[i]? = some row ∧
      bandRow sqrt std 1 (part x start (start + segment)) (part r start (start + segment)) = .ok row := by
  cases lcs with
  | nil => cases h
  | cons l ls =>
    have hlt := (hl l (by simp)).1
    simp only [constructAvg] at h
    rw [hlt] at h
    simp only at h
    have hg := forall2_get (mapM_ok_forall2 _ _ _ h)
    refine ⟨by simpa using hg.1.symm, fun i x r hx hr => ?_⟩
    obtain ⟨row, hrow, he⟩ := hg.2 i (x, i) (by rw [List.getElem?_zipIdx, hx]; simp)
    refine ⟨row, hrow, ?_⟩
    have hxm := hl x (by simp only [List.mem_append]; exact Or.inl (List.mem_of_getElem? hx))
    have hrm := hl r (by simp only [List.mem_append]; exact Or.inr (List.mem_of_getElem? hr))
    simp only [bind, Except.bind, refOfAvg, nSegments_one start segment hseg.ne'] at he
    cases hro : refOf (.each cs) i with
    | error e => rw [hro] at he; cases he
    | ok c =>
      rw [hro] at he
      have hcr : c = r := by
        simp only [refOf] at hro
        split_ifs at hro
        rw [hr] at hro; cases hro; rfl
      subst hcr
      simp only [List.range_one, List.mapM_cons, List.mapM_nil, bind, Except.bind, pure, Except.pure, Nat.cast_zero, zero_mul, add_zero] at he
      rw [segRow_first sqrt std 1 segment start hseg ts x c hxm.1 hrm.1 hT hxm.2 hrm.2] at he
      cases hb : bandRow sqrt std 1 (part x start (start + segment)) (part c start (start + segment)) with
      | error e => rw [hb] at he; cases he
      | ok row' =>
        rw [hb] at he
        simp only [Except.ok.injEq] at he
        rw [meanRow_one] at he
        rw [he]

/-- Two segments of two bins: the second segment does not count. -/
example : let f := fun (a b : ℚ) => (constructAvg (fun x : ℚ => x) (.num 1) 2 [⟨[0, 1, 2, 3], [0, 4, a, b]⟩, ⟨[0, 1, 2, 3], [2, 8, b, a]⟩]
      (.each [⟨[0, 1, 2, 3], [2, 8, b, a]⟩, ⟨[0, 1, 2, 3], [0, 4, a, b]⟩])).map (fun l => l.map (·.cov))
    f 1 1 = .ok [some 12, some 12] ∧ f 1 50 = f 1 1 := by decide +kernel

/-- **C143 (partial).** When the segment contains the whole observation, the averaged spectrum is the spectrum. Missing: the average over several segments, which the code does not compute. -/
theorem averaged_whole_partial (sqrt : K → K) (std : Std K) (segment start : K) (hseg : 0 < segment) (ts : List K)
    (hT : (start :: ts).Pairwise (· ≤ ·)) (hall : ∀ t ∈ start :: ts, t < start + segment) (l : Curve K) (ls cs : List (Curve K))
    (hl : ∀ c ∈ (l :: ls) ++ cs, c.time = start :: ts ∧ c.time.length = c.counts.length) :
    constructAvg sqrt std segment (l :: ls) (.each cs) = constructCovar sqrt std (l :: ls) (.each cs) := by
  have hpart : ∀ c ∈ (l :: ls) ++ cs, part c start (start + segment) = c.counts := by
    intro c hc
    obtain ⟨h1, h2⟩ := hl c hc
    have hf : ((c.time.zip c.counts).filter fun p => decide (start ≤ p.1 ∧ p.1 < start + segment)) = c.time.zip c.counts := by
      rw [List.filter_eq_self]
      rintro ⟨a, b⟩ hab
      have ha : a ∈ start :: ts := h1 ▸ (List.of_mem_zip hab).1
      have hge : start ≤ a := by
        rcases List.mem_cons.1 ha with rfl | ha
        · exact le_rfl
        · exact (List.pairwise_cons.1 hT).1 a ha
      simp [hge, hall a ha]
    unfold part
    rw [hf, List.map_snd_zip (by omega)]
  have hlt := (hl l (by simp)).1
  simp only [constructAvg]
  rw [hlt]
  simp only [constructCovar]
  have hcongr : ∀ (zs : List (Curve K × Nat)), (∀ p ∈ zs, p.1 ∈ l :: ls) →
      zs.mapM (fun p => do
        let r ← refOfAvg (.each cs) p.2
        let nbins ← nSegments start segment
        let rows ← (List.range nbins).mapM fun (k : Nat) => segRow sqrt std nbins segment p.1 r (start + (k : K) * segment)
        return meanRow rows nbins) =
      zs.mapM (fun p => do
        let r ← refOf (.each cs) p.2
        bandRow sqrt std 1 p.1.counts r.counts) := by
    intro zs hzs
    induction zs with
    | nil => rfl
    | cons p zs ih =>
      rw [List.mapM_cons, List.mapM_cons, ih (fun q hq => hzs q (by simp [hq]))]
      congr 1
      have hp := hzs p (by simp)
      simp only [refOfAvg, bind, Except.bind, nSegments_one start segment hseg.ne']
      cases hro : refOf (.each cs) p.2 with
      | error e => rfl
      | ok r =>
        have hrm : r ∈ cs := by
          simp only [refOf] at hro
          split_ifs at hro
          cases hc : cs[p.2]? with
          | none => rw [hc] at hro; cases hro
          | some c => rw [hc] at hro; cases hro; exact List.mem_of_getElem? hc
        have hx := hl p.1 (List.mem_append.2 (Or.inl hp))
        have hr := hl r (List.mem_append.2 (Or.inr hrm))
        simp only [List.range_one, List.mapM_cons, List.mapM_nil, bind, Except.bind, pure, Except.pure, Nat.cast_zero, zero_mul, add_zero]
        rw [segRow_first sqrt std 1 segment start hseg ts p.1 r hx.1 hr.1 hT hx.2 hr.2,
          hpart p.1 (List.mem_append.2 (Or.inl hp)), hpart r (List.mem_append.2 (Or.inr hrm))]
        cases hb : bandRow sqrt std 1 p.1.counts r.counts with
        | error e => rfl
        | ok row => simp only [meanRow_one]
  exact hcongr _ (fun p hp => by
    have := List.mem_zipIdx hp
    exact this.2.2 ▸ List.getElem_mem _)

/-- Light curves that meet the hypotheses, with the segment longer than the observation. -/
example : (constructAvg (fun x : ℚ => x) (.num 1) 5 [⟨[0, 1, 2], [0, 4, 2]⟩] (.each [⟨[0, 1, 2], [2, 8, 5]⟩])).map (fun l => l.map (·.cov)) =
    .ok [some 6] := by decide +kernel

/-- **C143 (negation).** An averaged spectrum with one light curve of two or more bins as reference band, which the documentation allows, always raises. -/
theorem averaged_single_reference_raises (sqrt : K → K) (sort : KeySort (fun (x : K) => x)) (byTime : KeySort (fun (x : K × K) => x.1))
    (segment : K) (l : Curve K) (ls : List (Curve K)) (dt : Option K) (c : Curve K) (hc : 2 ≤ c.counts.length) (ht : l.time ≠ []) (std : Std K) :
    averagedCovariance sqrt sort byTime segment (.curves (l :: ls)) dt none (.curve c) std = .error .attributeError := by
  have hp : prepare sort byTime (.curves (l :: ls)) dt none (.curve c) = .ok (l :: ls, .one c) := by
    simp [prepare, curveBands, givenRefs, bind, Except.bind, pure, Except.pure]
  simp only [averagedCovariance, hp, bind, Except.bind]
  cases hlt : l.time with
  | nil => exact absurd hlt ht
  | cons s ts =>
    simp only [constructAvg, hlt, List.zipIdx_cons, List.mapM_cons, bind, Except.bind]
    have h1 : refOfAvg (.one c) 0 = .error .attributeError := by
      simp only [refOfAvg, if_neg (show ¬ c.counts.length = 1 by omega), if_pos (show 0 < c.counts.length by omega)]
    rw [h1]

end Stingray.Covariance

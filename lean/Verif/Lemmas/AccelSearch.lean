import Verif.Model.AccelSearch
import Verif.Lemmas.GtiSegments
import Mathlib.Analysis.SpecialFunctions.Trigonometric.Bounds
import Mathlib.Analysis.Real.Pi.Bounds
import Mathlib.Algebra.Ring.GeomSum
import Mathlib.Tactic.Linarith
import Mathlib.Tactic.Positivity
import Mathlib.Tactic.FieldSimp
import Mathlib.Tactic.LinearCombination

/-!
Lemmas for C178.
-/

set_option linter.unusedSectionVars false

namespace Stingray.AccelSearch

open Stingray

theorem mem_selected (accel : List ℂ) (mask : List Bool) (r : ℝ) (a : ℂ) :
    (r, a) ∈ selected accel mask ↔ ∃ k : Nat, accel[k]? = some a ∧ mask[k]? = some true ∧ r = k := by
  unfold selected
  rw [List.mem_filterMap]
  constructor
  · rintro ⟨⟨⟨r', a'⟩, b⟩, h, hb⟩
    cases b with
    | false => simp at hb
    | true =>
      simp only [if_true, Option.some.injEq, Prod.mk.injEq] at hb
      obtain ⟨rfl, rfl⟩ := hb
      obtain ⟨k, hk⟩ := List.mem_iff_getElem?.1 h
      rw [List.getElem?_zip_eq_some] at hk
      obtain ⟨hk1, hk2⟩ := hk
      rw [List.getElem?_zip_eq_some] at hk1
      obtain ⟨h1, h2⟩ := hk1
      refine ⟨k, h2, hk2, ?_⟩
      rw [List.getElem?_map] at h1
      obtain ⟨i, hi, rfl⟩ := Option.map_eq_some_iff.1 h1
      obtain ⟨hlt, he⟩ := List.getElem?_eq_some_iff.1 hi
      rw [List.getElem_range] at he
      rw [he]
  · rintro ⟨k, h1, h2, rfl⟩
    refine ⟨((k, a), true), List.mem_iff_getElem?.2 ⟨k, ?_⟩, by simp⟩
    rw [List.getElem?_zip_eq_some, List.getElem?_zip_eq_some]
    refine ⟨⟨?_, h1⟩, h2⟩
    obtain ⟨hlt, _⟩ := List.getElem?_eq_some_iff.1 h1
    simp [hlt]

theorem mapM_perm {α β ε : Type} (f : α → Except ε β) (l l' : List α) (hp : l.Perm l') (r : List β) (h : l.mapM f = .ok r) :
    ∃ r', l'.mapM f = .ok r' ∧ r.Perm r' := by
  have hf := Gti.mapM_ok_forall2 f l r h
  have hex : ∀ a ∈ l', ∃ b, f a = .ok b := by
    intro a ha
    have ha' := hp.symm.subset ha
    clear hp h ha
    induction hf with
    | nil => simp at ha'
    | cons h1 _ ih =>
      rcases List.mem_cons.1 ha' with rfl | h'
      · exact ⟨_, h1⟩
      · exact ih h'
  obtain ⟨r', hr'⟩ := Gti.mapM_ok_of_forall f l' hex
  refine ⟨r', hr', ?_⟩
  have hf' := Gti.mapM_ok_forall2 f l' r' hr'
  have key : ∀ (l : List α) (r : List β), List.Forall₂ (fun a b => f a = .ok b) l r → r.map some = l.map fun a => (f a).toOption := by
    intro l r h
    induction h with
    | nil => rfl
    | cons h1 _ ih => simp [h1, ih, Except.toOption]
  have : (r.map some).Perm (r'.map some) := by
    rw [key l r hf, key l' r' hf']
    exact hp.map _
  exact (List.map_perm_map_iff (Option.some_injective β)).1 this

theorem mem_allConvolutions (conv : List ℂ → List ℂ → List ℂ) (A : List ℂ) (resp : List (Option (List ℂ))) (mask : List Bool)
    (detlev : ℝ) (inter : Bool) (order : List Nat) (cs : List Cand) (h : allConvolutions conv A resp mask detlev inter order = .ok cs) (c : Cand) :
    c ∈ cs ↔ ∃ j ∈ order, ∃ w, worker conv A detlev mask inter (resp.getD j none) j = .ok w ∧ c ∈ w := by
  unfold allConvolutions at h
  rcases hm : order.mapM fun j => worker conv A detlev mask inter (resp.getD j none) j with e | r
  · rw [hm] at h; simp [Except.map] at h
  · rw [hm] at h
    simp only [Except.map, Except.ok.injEq] at h
    subst h
    have hf := Gti.mapM_ok_forall2 _ _ _ hm
    clear hm
    rw [List.mem_flatten]
    induction hf with
    | nil => simp
    | @cons a b l r h1 _ ih =>
      constructor
      · rintro ⟨w, hw, hc⟩
        rcases List.mem_cons.1 hw with rfl | hw
        · exact ⟨a, by simp, _, h1, hc⟩
        · obtain ⟨j, hj, w', h2⟩ := ih.1 ⟨w, hw, hc⟩
          exact ⟨j, by simp [hj], w', h2⟩
      · rintro ⟨j, hj, w, h2, hc⟩
        rcases List.mem_cons.1 hj with rfl | hj
        · rw [h1] at h2
          cases h2
          exact ⟨b, by simp, hc⟩
        · obtain ⟨w', hw', hc'⟩ := ih.2 ⟨j, hj, w, h2, hc⟩
          exact ⟨w', by simp [hw'], hc'⟩

theorem worker_plain (conv : List ℂ → List ℂ → List ℂ) (A : List ℂ) (detlev : ℝ) (mask : List Bool) (resp : Option (List ℂ)) (j : Nat) :
    ∃ w, worker conv A detlev mask false resp j = .ok w := ⟨_, rfl⟩

/-- The transform after the convolution with the template of a response. -/
def after (conv : List ℂ → List ℂ → List ℂ) (A : List ℂ) : Option (List ℂ) → List ℂ
  | none => A
  | some r => conv A r

theorem mem_worker_plain (conv : List ℂ → List ℂ → List ℂ) (A : List ℂ) (detlev : ℝ) (mask : List Bool) (resp : Option (List ℂ)) (j : Nat)
    (w : List Cand) (h : worker conv A detlev mask false resp j = .ok w) (c : Cand) :
    c ∈ w ↔ ∃ (k : Nat) (a : ℂ), (after conv A resp)[k]? = some a ∧ mask[k]? = some true ∧ detlev < Complex.normSq a ∧ c = ((k : ℝ), j, Complex.normSq a) := by
  have e : worker conv A detlev mask false resp j = .ok (((selected (after conv A resp) mask).filter fun p => decide (detlev < Complex.normSq p.2)).map fun p => (p.1, j, Complex.normSq p.2)) := by
    cases resp <;> simp [worker, after, Except.map]
  rw [e] at h
  cases h
  rw [List.mem_map]
  constructor
  · rintro ⟨⟨r, a⟩, hm, rfl⟩
    rw [List.mem_filter] at hm
    obtain ⟨hm, hd⟩ := hm
    obtain ⟨k, h1, h2, rfl⟩ := (mem_selected _ _ _ _).1 hm
    exact ⟨k, a, h1, h2, by simpa using hd, rfl⟩
  · rintro ⟨k, a, h1, h2, hd, rfl⟩
    exact ⟨(k, a), List.mem_filter.2 ⟨(mem_selected _ _ _ _).2 ⟨k, h1, h2, rfl⟩, by simpa using hd⟩, rfl⟩

/-- The times of `n` bins of length `dt`. -/
def evenTimes (t0 dt : ℝ) (n : Nat) : List ℝ := (List.range n).map fun (k : Nat) => t0 + k * dt

theorem accelsearch_even (T : Tools) (o : Opts) (t0 dt : ℝ) (n : Nat) (hn : 2 ≤ n) (signal : List ℝ) (gti : Option (List (ℝ × ℝ))) (order : List Nat) :
    accelsearch T o (evenTimes t0 dt n) signal gti order =
      (let p := prepare T (evenTimes t0 dt n) signal t0 dt gti
       let A := spectrum T signal.sum p.1
       let mask := interval (Spectroscopy.fftfreq A.length dt) o.fmin o.fmax
       let rangeZ := Gti.arange (-o.zmax) o.zmax o.deltaZ
       let nf := mask.count true
       if rangeZ = [] then .error .valueError
       else (allConvolutions T.conv A (responses T.template rangeZ) mask (T.detlev nf) o.inter order).map fun cs =>
         (p.1, cs.map (row T o rangeZ (n * dt) p.2.1 p.2.2 nf))) := by
  obtain ⟨m, rfl⟩ : ∃ m, n = m + 2 := ⟨n - 2, by omega⟩
  have e : evenTimes t0 dt (m + 2) = t0 :: (t0 + dt) :: (List.range m).map fun (k : Nat) => t0 + ((k : ℝ) + 2) * dt := by
    unfold evenTimes
    rw [List.range_succ_eq_map, List.range_succ_eq_map]
    simp only [List.map_cons, List.map_map]
    refine List.cons_eq_cons.2 ⟨by simp, List.cons_eq_cons.2 ⟨by simp, List.map_congr_left fun k _ => ?_⟩⟩
    simp only [Function.comp]
    push_cast
    ring
  have el : ((t0 + dt) :: (List.range m).map fun (k : Nat) => t0 + ((k : ℝ) + 2) * dt).getLastD (t0 + dt) = t0 + ((m : ℝ) + 1) * dt := by
    cases m with
    | zero => simp
    | succ m =>
      rw [List.range_succ, List.map_append, ← List.cons_append]
      simp only [List.map_cons, List.map_nil, List.getLastD_concat]
      push_cast
      ring
  have ed : t0 + dt - t0 = dt := by ring
  have et : t0 + ((m : ℝ) + 1) * dt - t0 + dt = ((m + 2 : Nat) : ℝ) * dt := by push_cast; ring
  rw [e]
  simp only [accelsearch, el, ed, et]

theorem interval_getElem? (n : Nat) (dt fmin fmax : ℝ) (hn : 0 < n) (hdt : 0 < dt) (hf : 0 ≤ fmin) (k : Nat) :
    (interval (Spectroscopy.fftfreq n dt) fmin fmax)[k]? = some true ↔
      2 * k < n ∧ fmin ≤ (k : ℝ) / (n * dt) ∧ (k : ℝ) / (n * dt) < fmax := by
  have hnd : 0 < (n : ℝ) * dt := by positivity
  unfold interval Spectroscopy.fftfreq
  rw [List.map_map, List.getElem?_map]
  by_cases hk : k < n
  · rw [List.getElem?_range hk]
    simp only [Option.map_some, Function.comp, Option.some.injEq, Bool.and_eq_true, decide_eq_true_eq]
    by_cases hh : k ≤ (n - 1) / 2
    · rw [if_pos hh]
      have : 2 * k < n := by omega
      simp [this]
    · rw [if_neg hh]
      constructor
      · rintro ⟨h1, h2⟩
        exfalso
        have : ((k : ℝ) - n) / (n * dt) < 0 := div_neg_of_neg_of_pos (by have : (k : ℝ) < n := by exact_mod_cast hk
                                                                         linarith) hnd
        linarith
      · rintro ⟨h1, _⟩
        exfalso
        omega
  · rw [List.getElem?_eq_none (by simpa using hk)]
    have : ¬ 2 * k < n := by omega
    simp [this]

theorem selected_eq (accel : List ℂ) (mask : List Bool) (h : mask.length = accel.length) :
    selected accel mask = ((List.range accel.length).filter fun k => mask.getD k false).map fun (k : Nat) => ((k : ℝ), accel.getD k 0) := by
  have e : ((((List.range accel.length).map fun (i : Nat) => (i : ℝ)).zip accel).zip mask) =
      (List.range accel.length).map fun (k : Nat) => (((k : ℝ), accel.getD k 0), mask.getD k false) := by
    apply List.ext_getElem
    · simp [h]
    · intro i h1 h2
      simp only [List.length_map, List.length_range] at h2
      simp [List.getD_eq_getElem?_getD, h2, h]
  have g : ∀ (l : List Nat), (l.map fun (k : Nat) => (((k : ℝ), accel.getD k 0), mask.getD k false)).filterMap (fun p => if p.2 then some p.1 else none) =
      (l.filter fun k => mask.getD k false).map fun (k : Nat) => ((k : ℝ), accel.getD k 0) := by
    intro l
    induction l with
    | nil => rfl
    | cons k l ih =>
      rw [List.map_cons, List.filterMap_cons, ih, List.filter_cons]
      cases mask.getD k false <;> simp
  rw [selected, e, g]

theorem filter_range_between (L a b : Nat) (hb : b ≤ L) (c : Nat → Bool) (hc : ∀ k, k < L → (c k = true ↔ a ≤ k ∧ k < b)) :
    (List.range L).filter c = List.range' a (b - a) := by
  have s1 : ((List.range L).filter c).Pairwise (· < ·) := List.Pairwise.filter _ List.pairwise_lt_range
  have s2 : (List.range' a (b - a)).Pairwise (· < ·) := List.pairwise_lt_range'
  refine List.Perm.eq_of_pairwise (le := (· < ·)) (fun x y _ _ h1 h2 => absurd h1 (not_lt.2 h2.le)) s1 s2 ?_
  rw [List.perm_ext_iff_of_nodup (s1.imp ne_of_lt) (s2.imp ne_of_lt)]
  intro k
  rw [List.mem_filter, List.mem_range, List.mem_range'_1]
  constructor
  · rintro ⟨h1, h2⟩
    have := (hc k h1).1 h2
    omega
  · intro h
    have : k < L := by omega
    exact ⟨this, (hc k this).2 (by omega)⟩

theorem interbin_selected (sel : List (ℝ × ℂ)) (h : ∀ p ∈ sel, 0 ≤ p.1) :
    interbin (sel.map Prod.fst) (sel.map Prod.snd) = if sel = [] then .error .indexError else .ok (interleave sel) := by
  by_cases hs : sel = []
  · subst hs; simp [interbin]
  · rw [if_neg hs]
    have hz : (sel.map Prod.fst).zip (sel.map Prod.snd) = sel := by
      rw [List.zip_map']
      simp
    obtain ⟨l, x, rfl⟩ : ∃ l x, sel = l ++ [x] := ⟨sel.dropLast, sel.getLast hs, (List.dropLast_append_getLast hs).symm⟩
    have hx := h x (by simp)
    have hl : ((l ++ [x]).map Prod.fst).getLast? = some x.1 := by simp
    simp only [interbin, hl, hz]
    rw [if_neg (not_lt.2 hx), if_neg (by simp), if_neg (by simp)]

/-- The sum of a tone half a bin away. -/
theorem tone_sum (n : Nat) (hn : 0 < n) :
    (∑ t ∈ Finset.range n, Complex.exp (Complex.I * (Real.pi / n : ℝ)) ^ t) =
      ⟨1, Real.cos (Real.pi / (2 * n)) / Real.sin (Real.pi / (2 * n))⟩ := by
  set x := Real.pi / (2 * n) with hx
  have hnr : (0 : ℝ) < n := by exact_mod_cast hn
  have hx0 : 0 < x := by have := Real.pi_pos; positivity
  have hx1 : x < Real.pi := by
    rw [hx, div_lt_iff₀ (by positivity)]
    have : (1 : ℝ) ≤ n := by exact_mod_cast hn
    nlinarith [Real.pi_pos]
  have hs : 0 < Real.sin x := Real.sin_pos_of_pos_of_lt_pi hx0 hx1
  have e2 : (Real.pi / n : ℝ) = 2 * x := by rw [hx]; field_simp
  set w := Complex.exp (Complex.I * (Real.pi / n : ℝ)) with hw
  have hwn : w ^ n = -1 := by
    rw [hw, ← Complex.exp_nat_mul]
    have : (n : ℂ) * (Complex.I * ((Real.pi / n : ℝ) : ℂ)) = Real.pi * Complex.I := by
      push_cast
      have : (n : ℂ) ≠ 0 := by exact_mod_cast hn.ne'
      field_simp
    rw [this, Complex.exp_pi_mul_I]
  have hw' : w = ⟨1 - 2 * Real.sin x ^ 2, 2 * Real.sin x * Real.cos x⟩ := by
    rw [hw, e2, mul_comm]
    apply Complex.ext
    · rw [Complex.exp_ofReal_mul_I_re, Real.cos_two_mul]
      nlinarith [Real.sin_sq_add_cos_sq x]
    · rw [Complex.exp_ofReal_mul_I_im, Real.sin_two_mul]
  have hg := geom_sum_mul w n
  rw [hwn] at hg
  have hne : w - 1 ≠ 0 := by
    intro h
    rw [h] at hg
    norm_num at hg
  apply mul_right_cancel₀ hne
  rw [hg, hw']
  have hsc := Real.sin_sq_add_cos_sq x
  apply Complex.ext
  · simp
    field_simp
    nlinarith
  · simp
    field_simp
    nlinarith

theorem cot_bounds (n : Nat) (hn : 2 ≤ n) :
    0 < Real.cos (Real.pi / (2 * n)) / Real.sin (Real.pi / (2 * n)) ∧
    Real.pi / 2 * (Real.cos (Real.pi / (2 * n)) / Real.sin (Real.pi / (2 * n))) ≤ n ∧
    1 / Real.sin (Real.pi / (2 * n)) ≤ Real.pi / 2 * (Real.cos (Real.pi / (2 * n)) / Real.sin (Real.pi / (2 * n))) := by
  set x := Real.pi / (2 * n) with hx
  have hnr : (2 : ℝ) ≤ n := by exact_mod_cast hn
  have hpi := Real.pi_pos
  have hx0 : 0 < x := by positivity
  have hx1 : x ≤ Real.pi / 4 := by
    rw [hx, div_le_div_iff₀ (by positivity) (by norm_num)]
    nlinarith
  have hxn : Real.pi / 2 = x * n := by rw [hx]; field_simp
  have hs : 0 < Real.sin x := Real.sin_pos_of_pos_of_lt_pi hx0 (by linarith)
  have hc4 : Real.cos (Real.pi / 4) ≤ Real.cos x := Real.cos_le_cos_of_nonneg_of_le_pi hx0.le (by linarith) hx1
  rw [Real.cos_pi_div_four] at hc4
  have hs2 : (1.41 : ℝ) < √2 := by
    rw [Real.lt_sqrt (by norm_num)]
    norm_num
  have hc : 0 < Real.cos x := by linarith
  have ht : x * Real.cos x ≤ Real.sin x := by
    have := Real.lt_tan hx0 (by linarith)
    rw [Real.tan_eq_sin_div_cos, lt_div_iff₀ hc] at this
    exact this.le
  refine ⟨by positivity, ?_, ?_⟩
  · rw [mul_div_assoc', div_le_iff₀ hs, hxn]
    nlinarith
  · rw [mul_div_assoc']
    apply div_le_div_of_nonneg_right _ hs.le
    nlinarith [Real.pi_gt_d2]

end Stingray.AccelSearch

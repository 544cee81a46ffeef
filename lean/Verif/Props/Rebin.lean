import Verif.Lemmas.Rebin
import Mathlib.Algebra.Order.Ring.Rat
import Mathlib.Data.Rat.Floor
import Mathlib.Data.Real.Sqrt
import Mathlib.Tactic.NormNum
import Mathlib.Tactic.IntervalCases

/-!
# Properties of `rebin_data`

Input bin `j` (of `n`) is `[e j, e (j+1)]`, where `e j` is the `j`-th abscissa; the far edge of the
last bin is taken by the code from the `dx` argument.
-/

namespace Stingray.Rebin

set_option linter.unusedSectionVars false

open Stingray.Spec

variable {K : Type} [Field K] [LinearOrder K] [IsStrictOrderedRing K] [FloorRing K]

/-- `e 0 .. e n` are the edges of the `n` input bins described by `x` and `dx`: increasing, starting
at the abscissae.  Without `dx` the last bin is as wide as the one before; a number `dx` is the common
width; an array `dx` lists the widths. -/
def Edges (x : List K) (dx : Dx K) (n : Nat) (e : Nat → K) : Prop :=
  x.length = n ∧ 0 < n ∧ (∀ j < n, e j < e (j + 1)) ∧ (∀ j < n, x[j]? = some (e j)) ∧
  match dx with
  | .absent => 2 ≤ n ∧ e n - e (n - 1) = e (n - 1) - e (n - 2)
  | .scalar d => ∀ j < n, e (j + 1) - e j = d
  | .array ds => ds.length = n ∧ ∀ j < n, ds[j]? = some (e (j + 1) - e j)

theorem strictMono_of_step {e : Nat → K} {n : Nat} (h : ∀ j < n, e j < e (j + 1)) :
    ∀ i j, i < j → j ≤ n → e i < e j := by
  intro i j hij
  induction j, hij using Nat.le_induction with
  | base => intro hj; exact h i (by omega)
  | succ j hij ih => intro hj; exact (ih (by omega)).trans (h j (by omega))

theorem diff_getLast? (x : List K) (n : Nat) (hn : x.length = n) (h2 : 2 ≤ n) (a b : K)
    (ha : x[n - 2]? = some a) (hb : x[n - 1]? = some b) : (diff x).getLast? = some (b - a) := by
  have hl : (diff x).length = n - 1 := by simp [diff, hn]
  rw [List.getLast?_eq_getElem?, hl, diff, List.getElem?_zipWith, List.getElem?_tail,
    show n - 1 - 1 = n - 2 by omega, show n - 2 + 1 = n - 1 by omega, ha, hb]

theorem mem_diff (x : List K) (j : Nat) (a b : K) (ha : x[j]? = some a) (hb : x[j + 1]? = some b) :
    b - a ∈ diff x := by
  apply List.mem_of_getElem? (i := j)
  rw [diff, List.getElem?_zipWith, List.getElem?_tail, ha, hb]

/-- every input bin width is looked at by the check -/
theorem edges_mem (x : List K) (dx : Dx K) (n : Nat) (e : Nat → K) (hE : Edges x dx n e) (j : Nat)
    (hj : j < n) : e (j + 1) - e j ∈ dxOld x dx := by
  obtain ⟨hx, hn, hstep, hxe, hdx⟩ := hE
  cases dx with
  | absent =>
    rcases Nat.lt_or_ge (j + 1) n with h1 | h1
    · exact mem_diff x j _ _ (hxe j hj) (hxe _ h1)
    · have hjn : j = n - 1 := by omega
      subst hjn
      rw [show n - 1 + 1 = n by omega, hdx.2]
      have := mem_diff x (n - 2) _ _ (hxe _ (by have := hdx.1; omega)) (hxe _ (by have := hdx.1; omega))
      rwa [show n - 2 + 1 = n - 1 by have := hdx.1; omega] at this
  | scalar d =>
    have hd0 : d ≠ 0 := by
      have h1 := hdx 0 hn
      have h2 := hstep 0 hn
      intro h3; rw [h3] at h1; linarith
    rw [hdx j hj]
    simp [dxOld, hd0]
  | array ds => exact List.mem_of_getElem? (hdx.2 j hj)

/-- the check of `rebin_data` bounds every input bin width -/
theorem rebinData_gap (sqrt : K → K) (x y : List K) (dxNew : K) (yerr : Option (List K)) (method : Method)
    (dx : Dx K) (out : Out K) (n : Nat) (e : Nat → K) (hE : Edges x dx n e)
    (h : rebinData sqrt x y dxNew yerr method dx = .ok out) :
    ∀ j < n, e (j + 1) - e j ≤ dxNew := by
  obtain ⟨hx, hn, hstep, hxe, hdx⟩ := hE
  have hall : ∀ d ∈ dxOld x dx, d ≤ dxNew := by
    unfold rebinData at h
    simp only at h
    split at h
    · exact absurd h (by simp)
    · rename_i hc
      intro d hd
      by_contra hlt
      exact hc (List.any_eq_true.2 ⟨d, hd, decide_eq_true (not_le.1 hlt)⟩)
  intro j hj
  exact hall _ (edges_mem x dx n e ⟨hx, hn, hstep, hxe, hdx⟩ j hj)

/-- what `rebin_data` returns, in terms of the specification -/
theorem rebinData_ok (sqrt : K → K) (x y : List K) (dxNew : K) (yerr : Option (List K)) (method : Method)
    (dx : Dx K) (out : Out K) (n : Nat) (e : Nat → K) (hE : Edges x dx n e)
    (hy : y.length = n) (hye : ∀ l ∈ yerr, l.length = n)
    (h : rebinData sqrt x y dxNew yerr method dx = .ok out) :
    method ≠ .other ∧
    let N := ⌊(e n - e 0) / dxNew⌋₊
    let B := fun (v : List K) (i : Nat) => binned n e (fun j => v.getD j 0) (e 0 + (i : K) * dxNew)
      (e 0 + (i : K) * dxNew + dxNew)
    let ye := yerr.getD (y.map fun _ => 0)
    let one := x.map fun _ => (1 : K)
    out.stepSize = (List.range N).map (B one) ∧
    (∃ d0, (dxOld x dx).head? = some d0 ∧
      out.xbin = (List.range N).map fun i : Nat => (i : K) * dxNew + (e 0 - d0 / 2 + dxNew / 2)) ∧
    out.ybin = (List.range N).map (fun i => if method = .mean then B y i / B one i else B y i) ∧
    out.ybinerr = (List.range N).map
      (fun i => if method = .mean then sqrt (B ye i) / B one i else sqrt (B ye i)) := by
  have hgap := rebinData_gap sqrt x y dxNew yerr method dx out n e hE h
  obtain ⟨hx, hn, hstep, hxe, hdx⟩ := hE
  have hd : 0 < dxNew := lt_of_lt_of_le (sub_pos.2 (hstep 0 hn)) (hgap 0 hn)
  have hmono := strictMono_of_step hstep
  have hhead : x.head? = some (e 0) := by rw [List.head?_eq_getElem?]; exact hxe 0 hn
  have hlast : x.getLast? = some (e (n - 1)) := by
    rw [List.getLast?_eq_getElem?, hx]; exact hxe (n - 1) (by omega)
  have hold : (dxOld x dx).getLast? = some (e n - e (n - 1)) := by
    cases dx with
    | absent =>
      obtain ⟨h2, h3⟩ := hdx
      rw [h3]
      exact diff_getLast? x n hx h2 _ _ (hxe _ (by omega)) (hxe _ (by omega))
    | scalar d =>
      have hd0 : d ≠ 0 := by
        have h1 := hdx 0 hn
        have h2 := hstep 0 hn
        intro h3; rw [h3] at h1; linarith
      have := hdx (n - 1) (by omega)
      rw [show n - 1 + 1 = n by omega] at this
      simp only [dxOld, if_neg hd0, this]; rfl
    | array ds =>
      have := hdx.2 (n - 1) (by omega)
      rw [show n - 1 + 1 = n by omega] at this
      rw [← this]
      simp only [dxOld, List.getLast?_eq_getElem?, hdx.1]
  unfold rebinData at h
  simp only [hhead, hlast, hold] at h
  split at h
  · exact absurd h (by simp)
  · cases hd0 : (dxOld x dx).head? with
    | none => rw [hd0] at h; exact absurd h (by simp)
    | some d0 =>
      rw [hd0] at h
      simp only at h
      have hen : e (n - 1) + (e n - e (n - 1)) = e n := by ring
      have hts : e (n - 1) - e 0 + (e n - e (n - 1)) = e n - e 0 := by ring
      rw [hen, hts] at h
      split at h
      · exact absurd h (by simp)
      · rename_i hm
        refine ⟨hm, ?_⟩
        generalize hed : x ++ [e n] = edges at h
        have helen : edges.length = n + 1 := by rw [← hed]; simp [hx]
        have heD : ∀ j, j ≤ n → edges.getD j 0 = e j := by
          intro j hj
          rw [List.getD_eq_getElem?_getD, ← hed]
          rcases Nat.lt_or_ge j n with h1 | h1
          · rw [List.getElem?_append_left (by omega), hxe j h1]; rfl
          · have : j = n := by omega
            subst this
            rw [List.getElem?_append_right (by omega), hx]; simp
        have hes : edges.Pairwise (· < ·) := by
          rw [List.pairwise_iff_getElem]
          intro i j hi hj hij
          have e1 := heD i (by omega)
          have e2 := heD j (by omega)
          rw [List.getD_eq_getElem?_getD, List.getElem?_eq_getElem hi, Option.getD_some] at e1
          rw [List.getD_eq_getElem?_getD, List.getElem?_eq_getElem hj, Option.getD_some] at e2
          rw [e1, e2]; exact hmono i j hij (by omega)
        have hloop : ∀ v : List K, v.length = n →
            loop edges v (Gti.arange (e 0) (e n + dxNew) dxNew) =
            (List.range ⌈(e n - e 0) / dxNew⌉₊).map fun i : Nat =>
              binned n e (fun j => v.getD j 0) (e 0 + (i : K) * dxNew) (e 0 + (i : K) * dxNew + dxNew) := by
          intro v hv
          have := loop_eq edges v n (e 0) dxNew helen hv hn hes
            (by intro j hj; rw [heD j (by omega), heD (j + 1) (by omega)]; exact hgap j hj)
            (heD 0 (by omega)) hd
          rw [heD n le_rfl] at this
          rw [this]
          apply List.map_congr_left
          intro i _
          unfold binned
          apply Finset.sum_congr rfl
          intro j hj
          have hj := Finset.mem_range.1 hj
          simp only
          rw [heD j (by omega), heD (j + 1) (by omega)]
        have hpos : 0 ≤ (e n - e 0) / dxNew := by
          apply div_nonneg _ hd.le
          have := hmono 0 n hn le_rfl
          linarith
        have hyel : (yerr.getD (y.map fun _ => 0)).length = n := by
          cases yerr with
          | none => simp [hy]
          | some l => exact hye l rfl
        rw [hloop y hy, hloop _ hyel, hloop (x.map fun _ => 1) (by simp [hx])] at h
        simp only [List.zipWith_map_left, List.zipWith_map_right, List.zipWith_self, List.map_map,
          Function.comp_def] at h
        have hout := Except.ok.inj h
        have hcut := fun (β : Type) (f : Nat → β) => kept_length ((e n - e 0) / dxNew) hpos f
        have hyb : out.ybin = (List.range ⌊(e n - e 0) / dxNew⌋₊).map (fun i : Nat =>
            if method = .mean then
              binned n e (fun j => y.getD j 0) (e 0 + (i : K) * dxNew) (e 0 + (i : K) * dxNew + dxNew) /
              binned n e (fun j => (x.map fun _ => (1 : K)).getD j 0) (e 0 + (i : K) * dxNew)
                (e 0 + (i : K) * dxNew + dxNew)
            else binned n e (fun j => y.getD j 0) (e 0 + (i : K) * dxNew)
                (e 0 + (i : K) * dxNew + dxNew)) := by
          rw [← hout]
          by_cases hmm : method = .mean <;> simp only [hmm, if_true, if_false] <;> exact hcut _ _
        refine ⟨?_, ⟨d0, rfl, ?_⟩, hyb, ?_⟩
        · rw [← hout]; exact hcut _ _
        · have hl : out.ybin.length = ⌊(e n - e 0) / dxNew⌋₊ := by rw [hyb]; simp
          rw [← hl, ← hout]
        · rw [← hout]
          by_cases hmm : method = .mean <;> simp only [hmm, if_true, if_false] <;> exact hcut _ _

/-- **C20.** With method `sum`, output bin `i` covers `[e 0 + i dx_new, e 0 + (i+1) dx_new]` and its value
is the sum over the input bins of `y` times the fraction of the input bin inside it.  There are as many
output bins as fit completely. -/
theorem rebin_data_sum (sqrt : K → K) (x y : List K) (dxNew : K) (yerr : Option (List K))
    (dx : Dx K) (out : Out K) (n : Nat) (e : Nat → K) (hE : Edges x dx n e)
    (hy : y.length = n) (hye : ∀ l ∈ yerr, l.length = n)
    (h : rebinData sqrt x y dxNew yerr .sum dx = .ok out) :
    out.ybin.length = ⌊(e n - e 0) / dxNew⌋₊ ∧
    ∀ (i : Nat) (v : K), out.ybin[i]? = some v →
      v = ∑ j ∈ Finset.range n, y.getD j 0 *
        (overlap (e 0 + (i : K) * dxNew) (e 0 + (i : K) * dxNew + dxNew) (e j) (e (j + 1)) /
          (e (j + 1) - e j)) := by
  obtain ⟨_, _, _, hyb, _⟩ := rebinData_ok sqrt x y dxNew yerr .sum dx out n e hE hy hye h
  rw [hyb]
  refine ⟨by simp, ?_⟩
  intro i v hv
  rw [List.getElem?_map] at hv
  rcases hr : (List.range ⌊(e n - e 0) / dxNew⌋₊)[i]? with _ | k
  · rw [hr] at hv; simp at hv
  · rw [hr] at hv
    obtain ⟨hlt, hk⟩ := List.getElem?_eq_some_iff.1 hr
    rw [List.getElem_range] at hk
    subst hk
    simp only [Option.map_some, Option.some.injEq] at hv
    rw [← hv]
    simp [binned]

/-- **C20.** The output bins together hold the part of the input that they cover: nothing is counted twice
or lost between them. -/
theorem rebin_data_covered (sqrt : K → K) (x y : List K) (dxNew : K) (yerr : Option (List K))
    (dx : Dx K) (out : Out K) (n : Nat) (e : Nat → K) (hE : Edges x dx n e)
    (hy : y.length = n) (hye : ∀ l ∈ yerr, l.length = n)
    (h : rebinData sqrt x y dxNew yerr .sum dx = .ok out) :
    out.ybin.sum = ∑ j ∈ Finset.range n, y.getD j 0 *
      (overlap (e 0) (e 0 + (out.ybin.length : K) * dxNew) (e j) (e (j + 1)) / (e (j + 1) - e j)) := by
  obtain ⟨_, _, _, hyb, _⟩ := rebinData_ok sqrt x y dxNew yerr .sum dx out n e hE hy hye h
  have hgap := rebinData_gap sqrt x y dxNew yerr .sum dx out n e hE h
  obtain ⟨hx, hn, hstep, hxe, hdx⟩ := hE
  have hd : 0 < dxNew := lt_of_lt_of_le (sub_pos.2 (hstep 0 hn)) (hgap 0 hn)
  rw [hyb]
  simp only [reduceCtorEq, if_false, List.length_map, List.length_range]
  rw [binned_steps n e _ (fun j hj => (hstep j hj).le) (e 0) dxNew hd.le]
  rfl

/-- **C20.** When the output bins tile the whole input, the total is conserved exactly. -/
theorem rebin_data_conserves (sqrt : K → K) (x y : List K) (dxNew : K) (yerr : Option (List K))
    (dx : Dx K) (out : Out K) (n : Nat) (e : Nat → K) (hE : Edges x dx n e)
    (hy : y.length = n) (hye : ∀ l ∈ yerr, l.length = n)
    (h : rebinData sqrt x y dxNew yerr .sum dx = .ok out)
    (N : Nat) (hN : e n - e 0 = (N : K) * dxNew) : out.ybin.sum = y.sum := by
  have hlen := (rebin_data_sum sqrt x y dxNew yerr dx out n e hE hy hye h).1
  have hsum := rebin_data_covered sqrt x y dxNew yerr dx out n e hE hy hye h
  have hgap := rebinData_gap sqrt x y dxNew yerr .sum dx out n e hE h
  obtain ⟨hx, hn, hstep, hxe, hdx⟩ := hE
  have hd : 0 < dxNew := lt_of_lt_of_le (sub_pos.2 (hstep 0 hn)) (hgap 0 hn)
  have hmono := strictMono_of_step hstep
  have hl : out.ybin.length = N := by
    rw [hlen, hN, mul_div_assoc, div_self hd.ne', mul_one, Nat.floor_natCast]
  rw [hsum, hl, ← hN]
  have := binned_all n e (fun j => y.getD j 0) hstep (e 0) (e 0 + (e n - e 0))
    (fun j hj => by
      rcases Nat.eq_zero_or_pos j with h0 | h0
      · rw [h0]
      · exact (hmono 0 j h0 hj).le)
    (fun j hj => by
      rcases Nat.eq_or_lt_of_le hj with h0 | h0
      · rw [h0]; linarith
      · have := hmono j n h0 le_rfl; linarith)
  unfold binned at this
  rw [this]
  have h2 := sliceSum_eq y 0 n hy.ge (by omega)
  unfold sliceSum at h2
  rw [List.drop_zero, List.take_of_length_le hy.le, Nat.Ico_zero_eq_range] at h2
  exact h2.symm

/-- **C20.** With method `mean`, output bin `i` is the mean of `y` weighted by the fraction of each
input bin inside it. -/
theorem rebin_data_mean (sqrt : K → K) (x y : List K) (dxNew : K) (yerr : Option (List K))
    (dx : Dx K) (out : Out K) (n : Nat) (e : Nat → K) (hE : Edges x dx n e)
    (hy : y.length = n) (hye : ∀ l ∈ yerr, l.length = n)
    (h : rebinData sqrt x y dxNew yerr .mean dx = .ok out) :
    out.ybin.length = ⌊(e n - e 0) / dxNew⌋₊ ∧
    ∀ (i : Nat) (v : K), out.ybin[i]? = some v →
      let w := fun j => overlap (e 0 + (i : K) * dxNew) (e 0 + (i : K) * dxNew + dxNew) (e j) (e (j + 1)) /
          (e (j + 1) - e j)
      v = (∑ j ∈ Finset.range n, y.getD j 0 * w j) / ∑ j ∈ Finset.range n, w j := by
  obtain ⟨_, _, _, hyb, _⟩ := rebinData_ok sqrt x y dxNew yerr .mean dx out n e hE hy hye h
  rw [hyb]
  refine ⟨by simp, ?_⟩
  intro i v hv
  rw [List.getElem?_map] at hv
  rcases hr : (List.range ⌊(e n - e 0) / dxNew⌋₊)[i]? with _ | k
  · rw [hr] at hv; simp at hv
  · rw [hr] at hv
    obtain ⟨hlt, hk⟩ := List.getElem?_eq_some_iff.1 hr
    rw [List.getElem_range] at hk
    subst hk
    simp only [Option.map_some, Option.some.injEq, if_true] at hv
    rw [← hv]
    unfold binned
    congr 1
    apply Finset.sum_congr rfl
    intro j hj
    have hj := Finset.mem_range.1 hj
    have : (x.map fun _ => (1 : K)).getD j 0 = 1 := by
      rw [List.getD_eq_getElem?_getD, List.getElem?_map, hE.2.2.2.1 j hj]; rfl
    simp only [this, one_mul]

/-- **C20.** The reported abscissae follow the convention of the input: if input abscissa `j` is the centre
of its bin, output abscissa `i` is the centre of output bin `i`.  (The code lays the bins out from
`x[0]` and shifts the result by half a first bin; `w` is the width of the first input bin.) -/
theorem rebin_data_abscissae (sqrt : K → K) (x y : List K) (dxNew : K) (yerr : Option (List K)) (m : Method)
    (dx : Dx K) (out : Out K) (n : Nat) (e : Nat → K) (hE : Edges x dx n e)
    (hy : y.length = n) (hye : ∀ l ∈ yerr, l.length = n)
    (h : rebinData sqrt x y dxNew yerr m dx = .ok out) :
    out.xbin.length = out.ybin.length ∧
    ∀ (i : Nat) (v : K), out.xbin[i]? = some v →
      let w := e 1 - e 0
      let lo := e 0 - w / 2 + (i : K) * dxNew
      v = (lo + (lo + dxNew)) / 2 := by
  obtain ⟨_, _, ⟨d0, hd0, hxb⟩, hyb, _⟩ := rebinData_ok sqrt x y dxNew yerr m dx out n e hE hy hye h
  have hw : d0 = e 1 - e 0 := by
    obtain ⟨hx, hn, hstep, hxe, hdx⟩ := hE
    cases dx with
    | absent =>
      rw [List.head?_eq_getElem?] at hd0
      simp only [dxOld, diff, List.getElem?_zipWith, List.getElem?_tail, hxe 0 hn, zero_add,
        hxe 1 hdx.1, Option.some.injEq] at hd0
      exact hd0.symm
    | scalar d =>
      have hdn : d ≠ 0 := by
        have h1 := hdx 0 hn
        have h2 := hstep 0 hn
        intro h3; rw [h3] at h1; linarith
      simp only [dxOld, if_neg hdn, List.head?_cons, Option.some.injEq] at hd0
      rw [← hd0]; exact (hdx 0 hn).symm
    | array ds =>
      rw [List.head?_eq_getElem?] at hd0
      simp only [dxOld, hdx.2 0 hn, Option.some.injEq] at hd0
      exact hd0.symm
  refine ⟨by rw [hxb, hyb]; simp, ?_⟩
  intro i v hv
  rw [hxb, List.getElem?_map] at hv
  rcases hr : (List.range ⌊(e n - e 0) / dxNew⌋₊)[i]? with _ | k
  · rw [hr] at hv; simp at hv
  · rw [hr] at hv
    obtain ⟨hlt, hk⟩ := List.getElem?_eq_some_iff.1 hr
    rw [List.getElem_range] at hk
    subst hk
    simp only [Option.map_some, Option.some.injEq] at hv
    rw [← hv, hw]
    ring

/-- **C20.** Asking for bins narrower than an input bin is refused. -/
theorem rebin_data_refuses (sqrt : K → K) (x y : List K) (dxNew : K) (yerr : Option (List K)) (m : Method)
    (dx : Dx K) (n : Nat) (e : Nat → K) (hE : Edges x dx n e) (j : Nat) (hj : j < n)
    (hlt : dxNew < e (j + 1) - e j) :
    rebinData sqrt x y dxNew yerr m dx = .error .valueError := by
  unfold rebinData
  simp only
  rw [if_pos]
  by_contra hc
  have hall : ∀ d ∈ dxOld x dx, d ≤ dxNew := by
    intro d hd
    by_contra hlt
    exact hc (List.any_eq_true.2 ⟨d, hd, decide_eq_true (not_le.1 hlt)⟩)
  have : e (j + 1) - e j ∈ dxOld x dx := edges_mem x dx n e hE j hj
  exact absurd (hall _ this) (not_le.2 hlt)

/-- **C20.** A bin width of zero stands for an unknown one: the spacing of the abscissae is used. -/
theorem rebin_data_dx_zero (sqrt : K → K) (x y : List K) (dxNew : K) (yerr : Option (List K)) (m : Method) :
    rebinData sqrt x y dxNew yerr m (.scalar 0) = rebinData sqrt x y dxNew yerr m .absent := by
  unfold rebinData
  simp only [dxOld, if_true]

/-- Three bins of width 1 rebinned to 3/2. -/
example : rebinData (K := ℚ) id [0, 1, 2] [4, 6, 8] (3 / 2) none .sum .absent =
    .ok ⟨[1 / 4, 7 / 4], [7, 11], [0, 0], [3 / 2, 3 / 2]⟩ := by decide +kernel
example : Edges (K := ℚ) [0, 1, 2] .absent 3 (fun j => j) := by
  refine ⟨rfl, by omega, fun j _ => by push_cast; linarith, ?_, by omega, by norm_num⟩
  intro j hj
  interval_cases j <;> rfl
example : (3 : ℚ) - 0 = ((2 : Nat) : ℚ) * (3 / 2) := by norm_num
example : rebinData (K := ℚ) id [0, 1, 3] [4, 6, 8] (5 / 2) none .mean (.array [1, 2, 2]) =
    .ok ⟨[3 / 4, 13 / 4], [34 / 7, 38 / 5], [0, 0], [7 / 4, 5 / 4]⟩ := by decide +kernel

/-- **C21 (negation).** With errors 2 and 2 on two samples, the error on their sum comes out as 2, not as
`√(2² + 2²)`. -/
theorem rebin_data_err_not_quadrature :
    ∃ (x y ye : List ℝ) (out : Out ℝ), Edges x .absent 2 (fun j => (j : ℝ)) ∧
      rebinData Real.sqrt x y 2 (some ye) .sum .absent = .ok out ∧
      ye = [2, 2] ∧ out.ybinerr = [2] ∧ Real.sqrt (2 ^ 2 + 2 ^ 2) ≠ 2 := by
  have hE : Edges (K := ℝ) [0, 1] .absent 2 (fun j => (j : ℝ)) := by
    refine ⟨rfl, by omega, fun j _ => by push_cast; linarith, ?_, by omega, by norm_num⟩
    intro j hj
    interval_cases j <;> simp
  have hok : ∃ out, rebinData Real.sqrt [0, 1] [4, 4] 2 (some [2, 2]) .sum .absent = .ok out := by
    rcases hr : rebinData Real.sqrt [0, 1] [4, 4] 2 (some [2, 2]) .sum .absent with err | out
    · exfalso
      unfold rebinData at hr
      norm_num [dxOld, diff] at hr
      rw [if_neg (by decide)] at hr
      exact absurd hr (by simp)
    · exact ⟨out, rfl⟩
  obtain ⟨out, hout⟩ := hok
  refine ⟨_, _, _, out, hE, hout, rfl, ?_, ?_⟩
  · obtain ⟨_, _, _, _, herr⟩ := rebinData_ok _ _ _ _ _ _ _ _ _ _ hE rfl (by simp) hout
    rw [herr]
    have hf : ⌊(((2 : Nat) : ℝ) - ((0 : Nat) : ℝ)) / 2⌋₊ = 1 := by norm_num
    simp only [hf]
    have hs : Real.sqrt 4 = 2 := by
      rw [show (4 : ℝ) = 2 ^ 2 by norm_num]; exact Real.sqrt_sq (by norm_num)
    simp [binned, overlap, Finset.sum_range_succ, List.range_succ]
    norm_num
    exact hs
  · intro h
    have := Real.sq_sqrt (show (0 : ℝ) ≤ 2 ^ 2 + 2 ^ 2 by norm_num)
    rw [h] at this
    norm_num at this

/-- **C21.** What the code computes: the square root of the overlap-weighted sum of the errors themselves
(for sums; divided by the total weight for means).  Missing from the property: the squares. -/
theorem rebin_data_err_partial (sqrt : K → K) (x y : List K) (dxNew : K) (ye : List K)
    (dx : Dx K) (out : Out K) (n : Nat) (e : Nat → K) (hE : Edges x dx n e)
    (hy : y.length = n) (hye : ye.length = n)
    (h : rebinData sqrt x y dxNew (some ye) .sum dx = .ok out) :
    out.ybinerr.length = out.ybin.length ∧
    ∀ (i : Nat) (v : K), out.ybinerr[i]? = some v →
      v = sqrt (∑ j ∈ Finset.range n, ye.getD j 0 *
        (overlap (e 0 + (i : K) * dxNew) (e 0 + (i : K) * dxNew + dxNew) (e j) (e (j + 1)) /
          (e (j + 1) - e j))) := by
  obtain ⟨_, _, _, hyb, herr⟩ := rebinData_ok sqrt x y dxNew (some ye) .sum dx out n e hE hy (by simpa using hye) h
  refine ⟨by rw [hyb, herr]; simp, ?_⟩
  intro i v hv
  rw [herr, List.getElem?_map] at hv
  rcases hr : (List.range ⌊(e n - e 0) / dxNew⌋₊)[i]? with _ | k
  · rw [hr] at hv; simp at hv
  · rw [hr] at hv
    obtain ⟨hlt, hk⟩ := List.getElem?_eq_some_iff.1 hr
    rw [List.getElem_range] at hk
    subst hk
    simp only [Option.map_some, Option.some.injEq] at hv
    rw [← hv]
    simp [binned]

example : rebinData (K := ℚ) id [0, 1, 2] [4, 6, 8] (3 / 2) (some [2, 2, 2]) .sum .absent =
    .ok ⟨[1 / 4, 7 / 4], [7, 11], [3, 3], [3 / 2, 3 / 2]⟩ := by decide +kernel

/-- **C21.** In particular, when every input error is 0 or 1 (equal to its own square) the
quadrature formula does hold. -/
theorem rebin_data_err_unit_partial (sqrt : K → K) (x y : List K) (dxNew : K) (ye : List K)
    (dx : Dx K) (out : Out K) (n : Nat) (e : Nat → K) (hE : Edges x dx n e)
    (hy : y.length = n) (hye : ye.length = n) (h01 : ∀ v ∈ ye, v ^ 2 = v)
    (h : rebinData sqrt x y dxNew (some ye) .sum dx = .ok out) :
    ∀ (i : Nat) (v : K), out.ybinerr[i]? = some v →
      v = sqrt (∑ j ∈ Finset.range n, (ye.getD j 0) ^ 2 *
        (overlap (e 0 + (i : K) * dxNew) (e 0 + (i : K) * dxNew + dxNew) (e j) (e (j + 1)) /
          (e (j + 1) - e j))) := by
  intro i v hv
  rw [(rebin_data_err_partial sqrt x y dxNew ye dx out n e hE hy hye h).2 i v hv]
  congr 1
  apply Finset.sum_congr rfl
  intro j hj
  have hj := Finset.mem_range.1 hj
  rw [h01]
  rw [List.getD_eq_getElem?_getD, List.getElem?_eq_getElem (by omega)]
  exact List.getElem_mem _

end Stingray.Rebin

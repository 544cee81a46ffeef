import Verif.Model.GpModel
import Mathlib.MeasureTheory.Integral.Bochner.Set
import Mathlib.MeasureTheory.Measure.Lebesgue.Basic
import Mathlib.Tactic

/-! Lemmas on Gaussian-process models. -/

namespace Stingray.GpModel

open Stingray MeasureTheory

/-- the kernel `min` is positive -/
theorem min_psd {ι : Type} (s : Finset ι) (b u : ι → ℝ) (hu : ∀ i, 0 ≤ u i) :
    0 ≤ ∑ i ∈ s, ∑ j ∈ s, b i * b j * min (u i) (u j) := by
  have key : ∀ i j, ∫ x, (Set.Ioc 0 (u i)).indicator (fun _ => b i) x * (Set.Ioc 0 (u j)).indicator (fun _ => b j) x = b i * b j * min (u i) (u j) := by
    intro i j
    have e : (fun x => (Set.Ioc 0 (u i)).indicator (fun _ => b i) x * (Set.Ioc 0 (u j)).indicator (fun _ => b j) x) = (Set.Ioc 0 (min (u i) (u j))).indicator (fun _ => b i * b j) := by
      funext x
      by_cases h1 : x ∈ Set.Ioc 0 (u i) <;> by_cases h2 : x ∈ Set.Ioc 0 (u j)
      · have : x ∈ Set.Ioc 0 (min (u i) (u j)) := ⟨h1.1, le_min h1.2 h2.2⟩
        simp only [Set.indicator_of_mem h1, Set.indicator_of_mem h2, Set.indicator_of_mem this]
      · have : x ∉ Set.Ioc 0 (min (u i) (u j)) := fun h => h2 ⟨h.1, h.2.trans (min_le_right _ _)⟩
        simp only [Set.indicator_of_notMem h2, Set.indicator_of_notMem this, mul_zero]
      · have : x ∉ Set.Ioc 0 (min (u i) (u j)) := fun h => h1 ⟨h.1, h.2.trans (min_le_left _ _)⟩
        simp only [Set.indicator_of_notMem h1, Set.indicator_of_notMem this, zero_mul]
      · have : x ∉ Set.Ioc 0 (min (u i) (u j)) := fun h => h1 ⟨h.1, h.2.trans (min_le_left _ _)⟩
        simp only [Set.indicator_of_notMem h1, Set.indicator_of_notMem this, zero_mul]
    rw [e, integral_indicator measurableSet_Ioc, setIntegral_const]
    have hm : 0 ≤ min (u i) (u j) := le_min (hu i) (hu j)
    rw [Measure.real, Real.volume_Ioc, ENNReal.toReal_ofReal (by linarith), smul_eq_mul]
    ring
  have hint : ∀ i j, Integrable (fun x => (Set.Ioc 0 (u i)).indicator (fun _ => b i) x * (Set.Ioc 0 (u j)).indicator (fun _ => b j) x) volume := by
    intro i j
    have e : (fun x => (Set.Ioc 0 (u i)).indicator (fun _ => b i) x * (Set.Ioc 0 (u j)).indicator (fun _ => b j) x) = (Set.Ioc 0 (u i)).indicator (fun x => b i * (Set.Ioc 0 (u j)).indicator (fun _ => b j) x) := by
      funext x
      by_cases h1 : x ∈ Set.Ioc 0 (u i)
      · simp only [Set.indicator_of_mem h1]
      · simp only [Set.indicator_of_notMem h1, zero_mul]
    rw [e]
    refine IntegrableOn.integrable_indicator ?_ measurableSet_Ioc
    refine Integrable.const_mul ?_ _
    refine Integrable.indicator ?_ measurableSet_Ioc
    exact integrableOn_const (by simp)
  have : ∑ i ∈ s, ∑ j ∈ s, b i * b j * min (u i) (u j) = ∫ x, (∑ i ∈ s, (Set.Ioc 0 (u i)).indicator (fun _ => b i) x) * (∑ j ∈ s, (Set.Ioc 0 (u j)).indicator (fun _ => b j) x) := by
    simp_rw [Finset.sum_mul_sum]
    rw [integral_finsetSum _ (fun i _ => integrable_finsetSum _ (fun j _ => hint i j))]
    apply Finset.sum_congr rfl
    intro i _
    rw [integral_finsetSum _ (fun j _ => hint i j)]
    apply Finset.sum_congr rfl
    intro j _
    rw [key]
  rw [this]
  apply integral_nonneg
  intro x
  exact mul_self_nonneg _

/-- the exponential kernel is positive -/
theorem exp_psd {n : Nat} (t b : Fin n → ℝ) (c : ℝ) (hc : 0 ≤ c) : 0 ≤ ∑ i, ∑ j, b i * b j * Real.exp (-(c * |t i - t j|)) := by
  have h := min_psd Finset.univ (fun i => b i * Real.exp (-(c * t i))) (fun i => Real.exp (2 * c * t i)) (fun i => (Real.exp_pos _).le)
  have e : ∀ i j, b i * Real.exp (-(c * t i)) * (b j * Real.exp (-(c * t j))) * min (Real.exp (2 * c * t i)) (Real.exp (2 * c * t j)) = b i * b j * Real.exp (-(c * |t i - t j|)) := by
    intro i j
    rcases le_total (t i) (t j) with hle | hle
    · have h1 : Real.exp (2 * c * t i) ≤ Real.exp (2 * c * t j) := Real.exp_le_exp.2 (by nlinarith)
      rw [min_eq_left h1, abs_of_nonpos (by linarith)]
      have : Real.exp (-(c * -(t i - t j))) = Real.exp (-(c * t i)) * Real.exp (-(c * t j)) * Real.exp (2 * c * t i) := by
        rw [← Real.exp_add, ← Real.exp_add]; congr 1; ring
      rw [this]; ring
    · have h1 : Real.exp (2 * c * t j) ≤ Real.exp (2 * c * t i) := Real.exp_le_exp.2 (by nlinarith)
      rw [min_eq_right h1, abs_of_nonneg (by linarith)]
      have : Real.exp (-(c * (t i - t j))) = Real.exp (-(c * t i)) * Real.exp (-(c * t j)) * Real.exp (2 * c * t j) := by
        rw [← Real.exp_add, ← Real.exp_add]; congr 1; ring
      rw [this]; ring
  simp only [e] at h
  exact h

/-- the damped cosine is a positive kernel -/
theorem cos_psd {n : Nat} (t b : Fin n → ℝ) (c w : ℝ) (hc : 0 ≤ c) : 0 ≤ ∑ i, ∑ j, b i * b j * (Real.exp (-(c * |t i - t j|)) * Real.cos (w * |t i - t j|)) := by
  have h1 := exp_psd t (fun i => b i * Real.cos (w * t i)) c hc
  have h2 := exp_psd t (fun i => b i * Real.sin (w * t i)) c hc
  have e : ∀ i j, b i * b j * (Real.exp (-(c * |t i - t j|)) * Real.cos (w * |t i - t j|)) =
      b i * Real.cos (w * t i) * (b j * Real.cos (w * t j)) * Real.exp (-(c * |t i - t j|)) + b i * Real.sin (w * t i) * (b j * Real.sin (w * t j)) * Real.exp (-(c * |t i - t j|)) := by
    intro i j
    have : Real.cos (w * |t i - t j|) = Real.cos (w * t i) * Real.cos (w * t j) + Real.sin (w * t i) * Real.sin (w * t j) := by
      rw [← Real.cos_sub]
      rcases abs_cases (t i - t j) with ⟨h, _⟩ | ⟨h, _⟩
      · rw [h]; congr 1; ring
      · rw [h, ← Real.cos_neg]; congr 1; ring
    rw [this]; ring
  simp only [e, Finset.sum_add_distrib]
  linarith

/-- the name under which a parameter is stored -/
def strip (n : Name) : Name := if n.take 4 = logPrefix then n.drop 4 else n

/-- the value with which it is stored -/
noncomputable def value (n : Name) (x : ℝ) : ℝ := if n.take 4 = logPrefix then Real.exp x else x

theorem entry_eq (n : Name) (x : ℝ) : entry n x = (strip n, value n x) := by
  unfold entry strip value
  split_ifs <;> rfl

theorem get_of_mem (d : Dict) (h : (d.map Prod.fst).Nodup) (n : Name) (v : ℝ) (hm : (n, v) ∈ d) : get d n = .ok v := by
  induction d with
  | nil => simp at hm
  | cons e d ih =>
    rw [List.map_cons, List.nodup_cons] at h
    rcases List.mem_cons.1 hm with rfl | hm
    · simp [get]
    · have hne : e.1 ≠ n := by
        rintro rfl
        exact h.1 (List.mem_map.2 ⟨_, hm, rfl⟩)
      have := ih h.2 hm
      unfold get at this ⊢
      rw [List.find?_cons_of_neg (by simpa using hne)]
      exact this

theorem get_of_not_mem (d : Dict) (n : Name) (h : n ∉ d.map Prod.fst) : get d n = .error .keyError := by
  have : d.find? (fun e => e.1 == n) = none := by
    rw [List.find?_eq_none]
    intro e he
    simp only [beq_iff_eq]
    rintro rfl
    exact h (List.mem_map.2 ⟨e, he, rfl⟩)
  unfold get
  rw [this]

theorem get_perm (d d' : Dict) (hp : d.Perm d') (h : (d.map Prod.fst).Nodup) (n : Name) : get d n = get d' n := by
  by_cases hn : n ∈ d.map Prod.fst
  · obtain ⟨⟨m, v⟩, hm, rfl⟩ := List.mem_map.1 hn
    rw [get_of_mem d h _ v hm, get_of_mem d' ((hp.map _).nodup_iff.1 h) _ v (hp.mem_iff.1 hm)]
  · rw [get_of_not_mem d n hn, get_of_not_mem d' n (fun hc => hn ((hp.map _).mem_iff.2 hc))]

theorem paramDict_eq (names : List Name) : ∀ (args : List ℝ) (d : Dict), names.length ≤ args.length →
    paramDict names args d = .ok (((names.zip args).map fun p => entry p.1 p.2).reverse ++ d) := by
  induction names with
  | nil => intro args d _; simp [paramDict]
  | cons n ns ih =>
    intro args d h
    cases args with
    | nil => simp at h
    | cons x xs =>
      simp only [paramDict, List.zip_cons_cons, List.map_cons, List.reverse_cons, List.append_assoc]
      rw [ih xs _ (by simpa using h)]
      rfl

theorem paramDict_short (names : List Name) : ∀ (args : List ℝ) (d : Dict), args.length < names.length → paramDict names args d = .error .indexError := by
  induction names with
  | nil => intro args d h; simp at h
  | cons n ns ih =>
    intro args d h
    cases args with
    | nil => rfl
    | cons x xs => exact ih xs _ (by simpa using h)

/-- the keys of the dictionary -/
theorem keys_eq (names : List Name) (args : List ℝ) (h : names.length ≤ args.length) :
    (((names.zip args).map fun p => entry p.1 p.2).map Prod.fst) = names.map strip := by
  rw [List.map_map]
  have : (Prod.fst ∘ fun p : Name × ℝ => entry p.1 p.2) = strip ∘ Prod.fst := by
    funext p; simp [entry_eq]
  rw [this, ← List.map_map, List.map_fst_zip h]

/-- looking up a parameter -/
theorem get_arg (names : List Name) (args : List ℝ) (h : names.length ≤ args.length) (hn : (names.map strip).Nodup) (n : Name) (x : ℝ) (hm : (n, x) ∈ names.zip args) :
    get (((names.zip args).map fun p => entry p.1 p.2).reverse ++ []) (strip n) = .ok (value n x) := by
  apply get_of_mem
  · rw [List.append_nil, List.map_reverse, keys_eq names args h]
    exact List.nodup_reverse.2 hn
  · rw [List.append_nil, List.mem_reverse, ← entry_eq]
    exact List.mem_map.2 ⟨(n, x), hm, rfl⟩

theorem kernel_congr (ty : String) (d d' : Dict) (h : ∀ n, get d n = get d' n) : getKernel ty d = getKernel ty d' := by
  simp only [getKernel, h]

theorem mean_congr (ty : String) (d d' : Dict) (h : ∀ n, get d n = get d' n) : getMean ty d = getMean ty d' := by
  simp only [getMean, h]

/-- a kernel or mean is found if its parameters are there -/
theorem get_ok (names : List Name) (args : List ℝ) (h : names.length ≤ args.length) (n : Name) (hn : n ∈ names.map strip) :
    ∃ v, get (((names.zip args).map fun p => entry p.1 p.2).reverse ++ []) n = .ok v := by
  have hk : n ∈ ((((names.zip args).map fun (p : Name × ℝ) => entry p.1 p.2).reverse ++ []).map Prod.fst) := by
    rw [List.append_nil, List.map_reverse, List.mem_reverse, keys_eq names args h]
    exact hn
  generalize ((names.zip args).map fun p => entry p.1 p.2).reverse ++ [] = d at hk
  cases hf : d.find? fun e => e.1 == n with
  | none =>
    rw [List.find?_eq_none] at hf
    obtain ⟨e, he, rfl⟩ := List.mem_map.1 hk
    exact absurd (beq_self_eq_true e.1) (hf e he)
  | some e => exact ⟨e.2, by simp only [get, hf]⟩

end Stingray.GpModel

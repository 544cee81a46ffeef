import Verif.Model.LcBaseline
import Mathlib.Data.Rat.Floor
import Mathlib.Tactic.Linarith

/-!
C194: the baseline of a light curve with several GTIs.
-/

set_option linter.unusedSectionVars false

namespace Stingray.LcBaseline

open Stingray

variable {K : Type} [Field K] [LinearOrder K] [IsStrictOrderedRing K] [FloorRing K]

/-- No bin is in both masks. -/
def Apart (a b : List Bool) : Prop := ∀ i : Nat, a[i]? = some true → b[i]? ≠ some true

theorem select_true {α : Type} (m : List Bool) (x : α) (a : List α) : Gti.select (true :: m) (x :: a) = x :: Gti.select m a := by
  simp [Gti.select]

theorem select_false {α : Type} (m : List Bool) (x : α) (a : List α) : Gti.select (false :: m) (x :: a) = Gti.select m a := by
  simp [Gti.select]

theorem select_nil {α : Type} (a : List α) : Gti.select [] a = [] := by simp [Gti.select]

theorem select_length {α β : Type} : ∀ (m : List Bool) (a : List α) (b : List β), a.length = b.length → (Gti.select m a).length = (Gti.select m b).length
  | [], a, b, _ => by rw [select_nil, select_nil]; rfl
  | _ :: _, [], [], _ => by simp [Gti.select]
  | true :: m, x :: a, y :: b, h => by
    rw [select_true, select_true, List.length_cons, List.length_cons, select_length m a b (by simpa using h)]
  | false :: m, x :: a, y :: b, h => by
    rw [select_false, select_false, select_length m a b (by simpa using h)]

theorem assign_length : ∀ (m : List Bool) (b v : List K), (assign m b v).length = b.length
  | true :: m, _ :: b, v :: vs => by simp [assign, assign_length m b vs]
  | false :: m, x :: b, vs => by simp [assign, assign_length m b vs]
  | [], _, _ => by simp [assign]
  | true :: _, [], _ => by simp [assign]
  | false :: _, [], _ => by simp [assign]
  | true :: _, _ :: _, [] => by simp [assign]

theorem select_assign : ∀ (m : List Bool) (b v : List K), v.length = (Gti.select m b).length → Gti.select m (assign m b v) = v
  | true :: m, x :: b, v :: vs, h => by
    rw [select_true] at h
    rw [assign, select_true, select_assign m b vs (by simpa using h)]
  | true :: m, x :: b, [], h => by rw [select_true] at h; simp at h
  | false :: m, x :: b, vs, h => by
    rw [select_false] at h
    rw [assign, select_false, select_assign m b vs h]
  | [], b, v, h => by
    rw [select_nil] at h ⊢
    exact (List.length_eq_zero_iff.1 h).symm
  | c :: m, [], v, h => by
    have e : Gti.select (c :: m) ([] : List K) = [] := by simp [Gti.select]
    have e' : assign (c :: m) ([] : List K) v = [] := List.length_eq_zero_iff.1 (by rw [assign_length]; rfl)
    rw [e] at h
    rw [e', e]
    exact (List.length_eq_zero_iff.1 h).symm

theorem assign_get : ∀ (m : List Bool) (b v : List K) (i : Nat), m[i]? ≠ some true → (assign m b v)[i]? = b[i]?
  | true :: m, x :: b, v :: vs, 0, h => by simp at h
  | true :: m, x :: b, v :: vs, i + 1, h => by
    rw [assign, List.getElem?_cons_succ, List.getElem?_cons_succ]
    exact assign_get m b vs i (by simpa using h)
  | false :: m, x :: b, vs, 0, h => by rw [assign, List.getElem?_cons_zero, List.getElem?_cons_zero]
  | false :: m, x :: b, vs, i + 1, h => by
    rw [assign, List.getElem?_cons_succ, List.getElem?_cons_succ]
    exact assign_get m b vs i (by simpa using h)
  | [], _, _, _, _ => by simp [assign]
  | true :: _, [], _, _, _ => by simp [assign]
  | false :: _, [], _, _, _ => by simp [assign]
  | true :: _, _ :: _, [], _, _ => by simp [assign]

theorem select_congr : ∀ (a : List Bool) (b c : List K), b.length = c.length → (∀ i : Nat, a[i]? = some true → b[i]? = c[i]?) → Gti.select a b = Gti.select a c
  | [], b, c, _, _ => by rw [select_nil, select_nil]
  | _ :: _, [], [], _, _ => rfl
  | true :: a, x :: b, y :: c, h, hi => by
    have h0 : x = y := by simpa using hi 0 (by simp)
    rw [select_true, select_true, h0, select_congr a b c (by simpa using h) fun i hh => by simpa using hi (i + 1) (by simpa using hh)]
  | false :: a, x :: b, y :: c, h, hi => by
    rw [select_false, select_false, select_congr a b c (by simpa using h) fun i hh => by simpa using hi (i + 1) (by simpa using hh)]

theorem loop_spec (fit : List K → List K → Except PyErr (List K)) (hfit : ∀ t c v, fit t c = .ok v → v.length = t.length) (integers : Bool) (times counts : List K) :
    ∀ (ms : List (List Bool)) (base b : List K), base.length = times.length → ms.Pairwise Apart → loop fit integers times counts ms base = .ok b →
      b.length = times.length ∧ (∀ i : Nat, (∀ m ∈ ms, m[i]? ≠ some true) → b[i]? = base[i]?) ∧
      ∀ m ∈ ms, ∃ v, fit (Gti.select m times) (Gti.select m counts) = .ok v ∧ Gti.select m b = v.map (store integers) := by
  intro ms
  induction ms with
  | nil =>
    intro base b hl _ h
    obtain rfl := Except.ok.inj h
    exact ⟨hl, fun _ _ => rfl, fun m hm => by simp at hm⟩
  | cons m ms ih =>
    intro base b hl hp h
    rw [List.pairwise_cons] at hp
    unfold loop at h
    cases hv : fit (Gti.select m times) (Gti.select m counts) with
    | error e => rw [hv] at h; simp at h
    | ok v =>
      rw [hv] at h
      obtain ⟨h1, h2, h3⟩ := ih _ b (by rw [assign_length]; exact hl) hp.2 h
      refine ⟨h1, ?_, ?_⟩
      · intro i hi
        rw [h2 i fun m' hm' => hi m' (List.mem_cons_of_mem _ hm'), assign_get _ _ _ _ (hi m (by simp))]
      · intro m' hm'
        rcases List.mem_cons.1 hm' with rfl | hm'
        · refine ⟨v, hv, ?_⟩
          rw [select_congr m' b (assign m' base (v.map (store integers))) (by rw [assign_length, h1, hl]) fun i hi => h2 i fun m'' hm'' => hp.1 m'' hm'' i hi]
          exact select_assign _ _ _ (by rw [List.length_map, hfit _ _ _ hv]; exact select_length _ _ _ hl.symm)
        · exact h3 m' hm'

/-- **C194.** With times that are not integers, the baseline has one value for each bin; in the bins of each GTI it is what the fit to that GTI alone gives, and it is zero in the bins outside all GTIs. -/
theorem baseline_spec (fit : List K → List K → Except PyErr (List K)) (hfit : ∀ t c v, fit t c = .ok v → v.length = t.length) (masks : List (List Bool)) (times counts b : List K)
    (hp : masks.Pairwise Apart) (h : baseline fit false masks times counts = .ok b) :
    b.length = times.length ∧ (∀ i < times.length, (∀ m ∈ masks, m[i]? ≠ some true) → b[i]? = some 0) ∧
      ∀ m ∈ masks, fit (Gti.select m times) (Gti.select m counts) = .ok (Gti.select m b) := by
  obtain ⟨h1, h2, h3⟩ := loop_spec fit hfit false times counts masks _ b (by simp) hp h
  refine ⟨h1, fun i hi hm => ?_, fun m hm => ?_⟩
  · rw [h2 i hm]; simp [hi]
  · obtain ⟨v, hv, hs⟩ := h3 m hm
    have e : v.map (store false) = v := by
      have : (store false : K → K) = id := by funext x; simp [store]
      rw [this, List.map_id]
    rw [hs, e, hv]

theorem store_close (x : K) : ∃ n : ℤ, store true x = n ∧ |x - n| < 1 ∧ |(n : K)| ≤ |x| := by
  unfold store
  rw [if_pos rfl]
  split_ifs with hx
  · refine ⟨⌊x⌋, rfl, ?_, ?_⟩
    · rw [abs_of_nonneg (sub_nonneg.2 (Int.floor_le x))]; linarith [Int.lt_floor_add_one x]
    · have : (0 : K) ≤ (⌊x⌋ : ℤ) := by exact_mod_cast Int.floor_nonneg.2 hx
      rw [abs_of_nonneg this, abs_of_nonneg hx]; exact Int.floor_le x
  · push Not at hx
    refine ⟨⌈x⌉, rfl, ?_, ?_⟩
    · rw [abs_of_nonpos (sub_nonpos.2 (Int.le_ceil x))]; linarith [Int.ceil_lt_add_one x]
    · have : ((⌈x⌉ : ℤ) : K) ≤ 0 := by exact_mod_cast Int.ceil_le.2 (by simpa using hx.le)
      rw [abs_of_nonpos this, abs_of_neg hx]; linarith [Int.le_ceil x]

/-- **C194 (integer times).** With integer times every value of the baseline in a GTI is an integer: that of the fit without its fraction. -/
theorem baseline_integers (fit : List K → List K → Except PyErr (List K)) (hfit : ∀ t c v, fit t c = .ok v → v.length = t.length) (masks : List (List Bool)) (times counts b : List K)
    (hp : masks.Pairwise Apart) (h : baseline fit true masks times counts = .ok b) (m : List Bool) (hm : m ∈ masks) :
    ∃ v, fit (Gti.select m times) (Gti.select m counts) = .ok v ∧
      List.Forall₂ (fun (x y : K) => ∃ n : ℤ, y = (n : K) ∧ |x - n| < 1 ∧ |(n : K)| ≤ |x|) v (Gti.select m b) := by
  obtain ⟨_, _, h3⟩ := loop_spec fit hfit true times counts masks _ b (by simp) hp h
  obtain ⟨v, hv, hs⟩ := h3 m hm
  refine ⟨v, hv, ?_⟩
  rw [hs, List.forall₂_map_right_iff]
  exact List.forall₂_same.2 fun x _ => store_close x

/-- **C194 (failing fits).** The baseline is found exactly when the fits to all GTIs succeed. -/
theorem baseline_ok (fit : List K → List K → Except PyErr (List K)) (integers : Bool) (masks : List (List Bool)) (times counts : List K) :
    (∃ b, baseline fit integers masks times counts = .ok b) ↔ ∀ m ∈ masks, ∃ v, fit (Gti.select m times) (Gti.select m counts) = .ok v := by
  unfold baseline
  generalize times.map (fun _ => (0 : K)) = base
  induction masks generalizing base with
  | nil => simp [loop]
  | cons m ms ih =>
    unfold loop
    cases hv : fit (Gti.select m times) (Gti.select m counts) with
    | error e => simp [hv]
    | ok v => simp only [ih, List.forall_mem_cons, hv, Except.ok.injEq, exists_eq', true_and]

/-- A fit for the examples: half of the first value in all bins. -/
def halfFirst (t : List ℚ) (c : List ℚ) : Except PyErr (List ℚ) :=
  match c with
  | [] => .error .indexError
  | x :: _ => .ok (t.map fun _ => x / 2)

/-- **C194 (negation).** The baseline of the same light curve depends on the type of its times: with integers the fractions are lost. -/
theorem baseline_depends_on_type :
    baseline halfFirst false [[true, true, false, false], [false, false, false, true]] [0, 1, 2, 3] [1, 2, 3, 5] = .ok [1/2, 1/2, 0, 5/2] ∧
    baseline halfFirst true [[true, true, false, false], [false, false, false, true]] [0, 1, 2, 3] [1, 2, 3, 5] = .ok [0, 0, 0, 2] := by
  constructor <;> decide +kernel

/-- The fit keeps lengths and the masks of the example are apart. -/
example : (∀ t c v, halfFirst t c = .ok v → v.length = t.length) ∧ [[true, true, false, false], [false, false, false, true]].Pairwise Apart := by
  refine ⟨?_, ?_⟩
  · intro t c v h
    cases c with
    | nil => simp [halfFirst] at h
    | cons x c => obtain rfl := Except.ok.inj h; simp
  · simp only [List.pairwise_cons, List.mem_singleton, forall_eq]
    refine ⟨?_, by simp⟩
    intro i
    match i with
    | 0 | 1 | 2 | 3 => simp
    | _ + 4 => simp

end Stingray.LcBaseline

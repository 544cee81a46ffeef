import Verif.Model.Responses
import Mathlib.Analysis.Complex.ExponentialBounds
import Mathlib.Tactic.Linarith
import Mathlib.Tactic.FieldSimp
import Mathlib.Tactic.Positivity

/-!
C186: the relativistic impulse response.
-/

set_option linter.unusedSectionVars false

namespace Stingray.Responses

open Stingray

theorem listMax_spec (l : List ℝ) (hne : l ≠ []) : listMax l ∈ l ∧ ∀ x ∈ l, x ≤ listMax l := by
  have key : ∀ (l : List ℝ) (a : ℝ), (l.foldl max a = a ∨ l.foldl max a ∈ l) ∧ a ≤ l.foldl max a ∧ ∀ x ∈ l, x ≤ l.foldl max a := by
    intro l
    induction l with
    | nil => intro a; simp
    | cons y l ih =>
      intro a
      obtain ⟨h1, h2, h3⟩ := ih (max a y)
      refine ⟨?_, le_trans (le_max_left _ _) h2, ?_⟩
      · rcases h1 with h | h
        · rcases max_choice a y with hm | hm
          · left; rw [List.foldl_cons, h, hm]
          · right; rw [List.foldl_cons, h, hm]; simp
        · right; exact List.mem_cons_of_mem _ h
      · intro x hx
        rcases List.mem_cons.1 hx with rfl | hx
        · exact le_trans (le_max_right _ _) h2
        · exact h3 x hx
  cases l with
  | nil => exact absurd rfl hne
  | cons a l =>
    obtain ⟨h1, h2, h3⟩ := key l a
    refine ⟨?_, ?_⟩
    · rcases h1 with h | h
      · show l.foldl max a ∈ _; rw [h]; simp
      · exact List.mem_cons_of_mem _ h
    · intro x hx
      rcases List.mem_cons.1 hx with rfl | hx
      · exact h2
      · exact h3 x hx

theorem rising_spec (dt t1 t2 p1 p2 rise : ℝ) (hp : p1 < p2) (n : Nat) (hn : 0 < n) :
    (rising dt t1 t2 p1 p2 rise n).length = n ∧ p2 ∈ rising dt t1 t2 p1 p2 rise n ∧ ∀ v ∈ rising dt t1 t2 p1 p2 rise n, p1 < v ∧ v ≤ p2 := by
  set h := (linspace (t1 / dt) (t2 / dt) n).map fun x => Real.exp (rise * x) with hh
  have hne : h ≠ [] := by
    intro hc
    have := congrArg List.length hc
    simp [hh, linspace] at this
    omega
  obtain ⟨m1, m2⟩ := listMax_spec h hne
  have hpos : ∀ v ∈ h, 0 < v := by
    intro v hv
    obtain ⟨x, _, rfl⟩ := List.mem_map.1 hv
    exact Real.exp_pos _
  have hM := hpos _ m1
  have hd : 0 < p2 - p1 := by linarith
  have hr : rising dt t1 t2 p1 p2 rise n = h.map fun v => v / (listMax h / (p2 - p1)) + p1 := rfl
  rw [hr]
  refine ⟨by simp [hh, linspace], ?_, ?_⟩
  · rw [List.mem_map]
    refine ⟨listMax h, m1, ?_⟩
    field_simp
    ring
  · intro v hv
    obtain ⟨u, hu, rfl⟩ := List.mem_map.1 hv
    have hu0 := hpos u hu
    constructor
    · have : 0 < u / (listMax h / (p2 - p1)) := by positivity
      linarith
    · have : u / (listMax h / (p2 - p1)) ≤ p2 - p1 := by
        rw [div_le_iff₀ (by positivity)]
        have e : (p2 - p1) * (listMax h / (p2 - p1)) = listMax h := by field_simp
        rw [e]
        exact m2 u hu
      linarith

theorem linspace_ge (a b : ℝ) (hab : a ≤ b) (n : Nat) : ∀ x ∈ linspace a b n, a ≤ x ∧ x ≤ b := by
  intro x hx
  obtain ⟨k, hk, rfl⟩ := List.mem_map.1 hx
  have hk := List.mem_range.1 hk
  split_ifs with h1
  · exact ⟨le_refl _, hab⟩
  · have hn : (0 : ℝ) < n - 1 := by
      have : (1 : ℝ) < n := by exact_mod_cast (by omega : 1 < n)
      linarith
    have hkn : (k : ℝ) ≤ n - 1 := by
      have : (k : ℝ) + 1 ≤ n := by exact_mod_cast hk
      linarith
    have hq : 0 ≤ (b - a) / (n - 1) := div_nonneg (by linarith) hn.le
    constructor
    · have := mul_nonneg (Nat.cast_nonneg k : (0 : ℝ) ≤ k) hq
      linarith
    · have := mul_le_mul_of_nonneg_right hkn hq
      rw [mul_div_cancel₀ _ hn.ne'] at this
      linarith

theorem pyInt_nonneg (x : ℝ) : (0 ≤ x → Simulator.pyInt x = ⌊x⌋) ∧ (Simulator.pyInt x < 0 ↔ x ≤ -1) ∧ (Simulator.pyInt x ≤ 0 ↔ x < 1) := by
  refine ⟨fun h => by rw [Simulator.pyInt, if_pos h], ?_, ?_⟩
  · unfold Simulator.pyInt
    split_ifs with h
    · constructor
      · intro h'; have := Int.floor_nonneg.2 h; omega
      · intro h'; linarith
    · rw [show ((⌈x⌉ : Int) < 0) ↔ ⌈x⌉ ≤ -1 by omega, Int.ceil_le]
      push_cast
      rfl
  · unfold Simulator.pyInt
    split_ifs with h
    · rw [show ((⌊x⌋ : Int) ≤ 0) ↔ ⌊x⌋ < 1 by omega, Int.floor_lt]
      push_cast
      rfl
    · constructor
      · intro _; linarith
      · intro _; exact Int.ceil_le.2 (by push_cast; linarith)

/-- **C186.** For a positive time resolution and `t1 ≥ 0`, there is a response exactly when `t1 < t2 < t3`, `p1 < p2` and the rise lasts at least one bin. It is zero before `t1`, has the value `p1` there, then values between `p1` and `p2`, one of which is `p2`, until `t2`, and positive ones until `t3`, with as many bins as fit into each part. -/
theorem relativistic_ir_spec (dt t1 t2 t3 p1 p2 rise decay : ℝ) (hdt : 0 < dt) (ht : 0 ≤ t1) :
    ((∃ h, relativisticIr dt t1 t2 t3 p1 p2 rise decay = .ok h) ↔ t1 < t2 ∧ t2 < t3 ∧ p1 < p2 ∧ dt ≤ t2 - t1) ∧
    ∀ h, relativisticIr dt t1 t2 t3 p1 p2 rise decay = .ok h → ∃ b c, h = List.replicate ⌊t1 / dt⌋.toNat 0 ++ [p1] ++ b ++ c ∧
      b.length = ⌊(t2 - t1) / dt⌋.toNat ∧ c.length = ⌊(t3 - t2) / dt⌋.toNat ∧ p2 ∈ b ∧ (∀ v ∈ b, p1 < v ∧ v ≤ p2) ∧ (∀ v ∈ c, 0 < v) ∧
      (0 ≤ decay → 4 ≤ t2 → ∀ v ∈ c, v ≤ 1) := by
  have h1 : 0 ≤ t1 / dt := div_nonneg ht hdt.le
  have e1 := (pyInt_nonneg (t1 / dt)).1 h1
  by_cases hA : ¬ t1 < t2 ∨ ¬ t2 < t3 ∨ ¬ p1 < p2
  · have he : relativisticIr dt t1 t2 t3 p1 p2 rise decay = .error .assertionError := by rw [relativisticIr, if_pos hA]
    rw [he]
    constructor
    · constructor
      · rintro ⟨h, hh⟩; simp at hh
      · rintro ⟨a, b, c, _⟩
        rcases hA with hA | hA | hA
        · exact absurd a hA
        · exact absurd b hA
        · exact absurd c hA
    · intro h hh; simp at hh
  · have hA' := hA
    push Not at hA'
    obtain ⟨a1, a2, a3⟩ := hA'
    have h2 : 0 ≤ (t2 - t1) / dt := div_nonneg (by linarith) hdt.le
    have h3 : 0 ≤ (t3 - t2) / dt := div_nonneg (by linarith) hdt.le
    have e2 := (pyInt_nonneg ((t2 - t1) / dt)).1 h2
    have e3 := (pyInt_nonneg ((t3 - t2) / dt)).1 h3
    have f1 : 0 ≤ ⌊t1 / dt⌋ := Int.floor_nonneg.2 h1
    have f3 : 0 ≤ ⌊(t3 - t2) / dt⌋ := Int.floor_nonneg.2 h3
    have hcond : (Simulator.pyInt ((t2 - t1) / dt) ≤ 0) ↔ t2 - t1 < dt := by
      rw [(pyInt_nonneg _).2.2, div_lt_one hdt]
    by_cases hB : t2 - t1 < dt
    · have he : relativisticIr dt t1 t2 t3 p1 p2 rise decay = .error .valueError := by
        rw [relativisticIr, if_neg hA, if_neg hdt.ne', if_pos (Or.inr (Or.inl (hcond.2 hB)))]
      rw [he]
      constructor
      · constructor
        · rintro ⟨h, hh⟩; simp at hh
        · rintro ⟨_, _, _, d⟩; linarith
      · intro h hh; simp at hh
    · have hpos : 0 < ⌊(t2 - t1) / dt⌋.toNat := by
        have := mt hcond.1 hB
        rw [e2] at this
        omega
      have he : relativisticIr dt t1 t2 t3 p1 p2 rise decay = .ok ((List.replicate ⌊t1 / dt⌋.toNat 0 ++ [p1]) ++
          rising dt t1 t2 p1 p2 rise ⌊(t2 - t1) / dt⌋.toNat ++ decaying dt t2 t3 decay ⌊(t3 - t2) / dt⌋.toNat) := by
        rw [relativisticIr, if_neg hA, if_neg hdt.ne', if_neg, e1, e2, e3]
        rintro (h | h | h)
        · rw [e1] at h; omega
        · exact hB (hcond.1 h)
        · rw [e3] at h; omega
      rw [he]
      refine ⟨⟨fun _ => ⟨a1, a2, a3, by linarith⟩, fun _ => ⟨_, rfl⟩⟩, ?_⟩
      intro h hh
      obtain rfl := Except.ok.inj hh
      obtain ⟨r1, r2, r3⟩ := rising_spec dt t1 t2 p1 p2 rise a3 _ hpos
      refine ⟨_, _, rfl, r1, by simp [decaying, linspace], r2, r3, ?_, ?_⟩
      · intro v hv
        obtain ⟨x, _, rfl⟩ := List.mem_map.1 hv
        exact Real.exp_pos _
      · intro hd h4 v hv
        obtain ⟨x, hx, rfl⟩ := List.mem_map.1 hv
        have hle := (linspace_ge (t2 / dt) (t3 / dt) (by gcongr) _ x hx).1
        have h4' : 4 / dt ≤ t2 / dt := by gcongr
        rw [Real.exp_le_one_iff]
        nlinarith [mul_nonneg hd (show 0 ≤ x - 4 / dt by linarith)]

theorem linspace_get (a b : ℝ) (n k : Nat) (hn : 2 ≤ n) (hk : k < n) : (linspace a b n)[k]? = some (a + k * ((b - a) / (n - 1))) := by
  rw [linspace, List.getElem?_map, List.getElem?_range hk, Option.map_some, if_neg (by omega)]

/-- **C186 (values).** With two bins or more in each part, the rise is exponential in the time and ends at `p2`, for a positive slope; the decay is exponential in the time after four seconds, at equally spaced times from `t2` to `t3`. -/
theorem relativistic_ir_values (dt t1 t2 t3 p1 p2 rise decay : ℝ) (h : List ℝ) (a n m k : Nat) (hdt : 0 < dt) (ht : 0 ≤ t1)
    (hr : 0 ≤ rise) (ha : a = ⌊t1 / dt⌋.toNat) (hn : n = ⌊(t2 - t1) / dt⌋.toNat) (hm : m = ⌊(t3 - t2) / dt⌋.toNat) (hn2 : 2 ≤ n) (hm2 : 2 ≤ m)
    (hok : relativisticIr dt t1 t2 t3 p1 p2 rise decay = .ok h) :
    (k < n → h[a + 1 + k]? = some (p1 + (p2 - p1) * Real.exp (-rise * ((n - 1 - k) / (n - 1) * (t2 - t1) / dt)))) ∧
    (k < m → h[a + 1 + n + k]? = some (Real.exp (-decay * ((t2 + k / (m - 1) * (t3 - t2) - 4) / dt)))) := by
  obtain ⟨a1, a2, a3, a4⟩ := (relativistic_ir_spec dt t1 t2 t3 p1 p2 rise decay hdt ht).1.1 ⟨h, hok⟩
  have e1 := (pyInt_nonneg (t1 / dt)).1 (div_nonneg ht hdt.le)
  have e2 := (pyInt_nonneg ((t2 - t1) / dt)).1 (div_nonneg (by linarith) hdt.le)
  have e3 := (pyInt_nonneg ((t3 - t2) / dt)).1 (div_nonneg (by linarith) hdt.le)
  have hn1 : (0 : ℝ) < n - 1 := by
    have : (2 : ℝ) ≤ n := by exact_mod_cast hn2
    linarith
  have hm1 : (0 : ℝ) < m - 1 := by
    have : (2 : ℝ) ≤ m := by exact_mod_cast hm2
    linarith
  unfold relativisticIr at hok
  rw [if_neg (by push Not; exact ⟨a1, a2, a3⟩), if_neg hdt.ne', e1, e2, e3] at hok
  split at hok
  · simp at hok
  rw [← ha, ← hn, ← hm] at hok
  obtain rfl := Except.ok.inj hok
  have lenA : (List.replicate a (0 : ℝ) ++ [p1]).length = a + 1 := by simp
  have lenB := (rising_spec dt t1 t2 p1 p2 rise a3 n (by omega)).1
  have hmax : listMax ((linspace (t1 / dt) (t2 / dt) n).map fun x => Real.exp (rise * x)) = Real.exp (rise * (t2 / dt)) := by
    have hlast : t2 / dt ∈ linspace (t1 / dt) (t2 / dt) n := by
      have := linspace_get (t1 / dt) (t2 / dt) n (n - 1) hn2 (by omega)
      rw [Nat.cast_sub (by omega), Nat.cast_one, mul_div_cancel₀ _ hn1.ne', add_sub_cancel] at this
      exact List.mem_of_getElem? this
    obtain ⟨q1, q2⟩ := listMax_spec ((linspace (t1 / dt) (t2 / dt) n).map fun x => Real.exp (rise * x)) (List.ne_nil_of_mem (List.mem_map.2 ⟨_, hlast, rfl⟩))
    apply le_antisymm
    · obtain ⟨x, hx, hxe⟩ := List.mem_map.1 q1
      rw [← hxe]
      have := (linspace_ge (t1 / dt) (t2 / dt) (by gcongr) n x hx).2
      exact Real.exp_le_exp.2 (mul_le_mul_of_nonneg_left this hr)
    · exact q2 _ (List.mem_map.2 ⟨_, hlast, rfl⟩)
  constructor
  · intro hk
    rw [List.getElem?_append_left (by rw [List.length_append, lenA, lenB]; omega), List.getElem?_append_right (by rw [lenA]; omega), lenA,
      show a + 1 + k - (a + 1) = k by omega]
    unfold rising
    simp only
    rw [hmax, List.getElem?_map, List.getElem?_map, linspace_get _ _ _ _ hn2 hk, Option.map_some, Option.map_some]
    congr 1
    have hd : p2 - p1 ≠ 0 := by linarith
    rw [show -rise * ((n - 1 - k) / (n - 1) * (t2 - t1) / dt) = rise * (t1 / dt + k * ((t2 / dt - t1 / dt) / (n - 1))) - rise * (t2 / dt) by field_simp; ring, Real.exp_sub]
    field_simp
    ring
  · intro hk
    rw [List.getElem?_append_right (by rw [List.length_append, lenA, lenB]; omega), List.length_append, lenA, lenB, show a + 1 + n + k - (a + 1 + n) = k by omega,
      decaying, List.getElem?_map, linspace_get _ _ _ _ hm2 hk, Option.map_some]
    congr 2
    field_simp

/-- **C186 (negation).** The response does not decay from the secondary peak: the decay starts at 1 four seconds after the start, wherever the peak is and however high, and can be higher than the peak. -/
theorem relativistic_ir_peak : ¬ ∀ (dt t1 t2 t3 p1 p2 rise decay : ℝ) (h : List ℝ), 0 < dt → 0 ≤ t1 → 0 < p1 → 0 < rise → 0 < decay →
    relativisticIr dt t1 t2 t3 p1 p2 rise decay = .ok h → ∀ v ∈ h, v ≤ p2 := by
  intro h
  have hex := ((relativistic_ir_spec 1 1 2 3 1 (7 / 5) 1 1 one_pos zero_le_one).1).2 (by norm_num)
  obtain ⟨l, hl⟩ := hex
  have hv := h 1 1 2 3 1 (7 / 5) 1 1 l one_pos zero_le_one one_pos one_pos one_pos hl
  have hmem : Real.exp 2 ∈ l := by
    have e1 : Simulator.pyInt ((1 : ℝ) / 1) = 1 := by norm_num [Simulator.pyInt]
    have e2 : Simulator.pyInt (((2 : ℝ) - 1) / 1) = 1 := by norm_num [Simulator.pyInt]
    have e3 : Simulator.pyInt (((3 : ℝ) - 2) / 1) = 1 := by norm_num [Simulator.pyInt]
    rw [relativisticIr, if_neg (by norm_num), if_neg (by norm_num), e1, e2, e3, if_neg (by norm_num)] at hl
    obtain rfl := Except.ok.inj hl
    apply List.mem_append_right
    have : (Int.toNat 1) = 1 := rfl
    rw [this]
    simp only [decaying, linspace, List.range_one, List.map_cons, List.map_nil, if_true, List.mem_singleton]
    norm_num
  have h2 := hv _ hmem
  have h3 : (1 : ℝ) + 2 ≤ Real.exp 2 := by
    have := Real.add_one_le_exp (2 : ℝ)
    linarith
  linarith

example : ∃ h, relativisticIr (1 / 8) 3 4 10 1 (7 / 5) (3 / 5) (1 / 10) = .ok h :=
  ((relativistic_ir_spec (1 / 8) 3 4 10 1 (7 / 5) (3 / 5) (1 / 10) (by norm_num) (by norm_num)).1).2 (by norm_num)

example : ∃ h : List ℝ, relativisticIr (1 / 8) 3 4 10 1 (7 / 5) (3 / 5) (1 / 10) = .ok h ∧ 2 ≤ ⌊((4 : ℝ) - 3) / (1 / 8)⌋.toNat ∧ 2 ≤ ⌊((10 : ℝ) - 4) / (1 / 8)⌋.toNat := by
  obtain ⟨h, hh⟩ := ((relativistic_ir_spec (1 / 8) 3 4 10 1 (7 / 5) (3 / 5) (1 / 10) (by norm_num) (by norm_num)).1).2 (by norm_num)
  refine ⟨h, hh, ?_, ?_⟩
  · have : ⌊((4 : ℝ) - 3) / (1 / 8)⌋ = 8 := by norm_num
    rw [this]; decide
  · have : ⌊((10 : ℝ) - 4) / (1 / 8)⌋ = 48 := by norm_num
    rw [this]; decide

end Stingray.Responses

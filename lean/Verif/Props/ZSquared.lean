import Verif.Model.ZSquared
import Verif.Spec.Harmonics
import Verif.Props.Folding

/-!
The Z² statistics (C55), their independence of the phase origin (C81), the H test (C82), the epoch folding statistic (C83).
-/

set_option linter.unusedSectionVars false

namespace Stingray.Pulsar

open Stingray.Spec Real

/-! ### Lemmas -/

/-- rotating all the phases leaves the power alone -/
theorem rotate_sums {α : Type} (l : List α) (w θ : α → ℝ) (c : ℝ) :
    (l.map fun x => w x * cos (θ x + c)).sum ^ 2 + (l.map fun x => w x * sin (θ x + c)).sum ^ 2 =
      (l.map fun x => w x * cos (θ x)).sum ^ 2 + (l.map fun x => w x * sin (θ x)).sum ^ 2 := by
  have h1 : (l.map fun x => w x * cos (θ x + c)).sum =
      cos c * (l.map fun x => w x * cos (θ x)).sum - sin c * (l.map fun x => w x * sin (θ x)).sum := by
    induction l with
    | nil => simp
    | cons x l ih => simp only [List.map_cons, List.sum_cons]; rw [ih, cos_add]; ring
  have h2 : (l.map fun x => w x * sin (θ x + c)).sum =
      cos c * (l.map fun x => w x * sin (θ x)).sum + sin c * (l.map fun x => w x * cos (θ x)).sum := by
    clear h1
    induction l with
    | nil => simp
    | cons x l ih => simp only [List.map_cons, List.sum_cons]; rw [ih, sin_add]; ring
  rw [h1, h2]
  have := sin_sq_add_cos_sq c
  generalize (l.map fun x => w x * cos (θ x)).sum = A
  generalize (l.map fun x => w x * sin (θ x)).sum = B
  have e : (cos c * A - sin c * B) ^ 2 + (cos c * B + sin c * A) ^ 2 = (sin c ^ 2 + cos c ^ 2) * (A ^ 2 + B ^ 2) := by ring
  rw [e, this, one_mul]

theorem runningSums_length (s : ℝ) (l : List ℝ) : (runningSums s l).length = l.length := by
  induction l generalizing s with
  | nil => rfl
  | cons x l ih => simp [runningSums, ih]

theorem runningSums_get (s : ℝ) (l : List ℝ) (i : Nat) (hi : i < l.length) :
    (runningSums s l)[i]? = some (s + (l.take (i + 1)).sum) := by
  induction l generalizing s i with
  | nil => simp at hi
  | cons x l ih =>
    cases i with
    | zero => simp [runningSums]
    | succ i =>
      simp only [runningSums, List.getElem?_cons_succ]
      rw [ih _ _ (by simpa using hi), List.take_succ_cons, List.sum_cons]
      congr 1
      ring

theorem runningSums_eq (f : Nat → ℝ) (n : Nat) :
    runningSums 0 ((List.range n).map f) = (List.range n).map fun i => ((List.range (i + 1)).map f).sum := by
  apply List.ext_getElem?
  intro i
  by_cases hi : i < n
  · rw [runningSums_get 0 _ i (by simpa using hi), List.getElem?_map, List.getElem?_range hi, ← List.map_take,
      List.take_range, min_eq_left (by omega)]
    simp
  · rw [List.getElem?_eq_none (by rw [runningSums_length]; simp; omega), List.getElem?_eq_none (by simp; omega)]

theorem flatten_replicate_get (base : List ℝ) (n i : Nat) (hi : i < n * base.length) :
    (List.replicate n base).flatten[i]? = base[i % base.length]? := by
  induction n generalizing i with
  | zero => simp at hi
  | succ n ih =>
    rw [List.replicate_succ, List.flatten_cons]
    by_cases h : i < base.length
    · rw [List.getElem?_append_left h, Nat.mod_eq_of_lt h]
    · rw [List.getElem?_append_right (by omega), ih _ (by rw [Nat.succ_mul] at hi; omega)]
      congr 1
      rw [← Nat.mod_eq_sub_mod (by omega)]

/-- the strided slice of the cached values reads the value at `j k mod N` -/
theorem strided_cached (f : ℝ → ℝ) (N n k : Nat) (hN : 0 < N) (hk : 0 < k) (hkn : k ≤ n) (c : List ℝ)
    (hc : cachedHarmonics f N n = .ok c) :
    strided c (N * k) k = (List.range N).map fun j => f (2 * π * ((((j * k) % N : Nat) : ℝ) + 1 / 2) / N) := by
  unfold cachedHarmonics at hc
  rw [if_neg (by omega)] at hc
  cases hc
  have hN' : (N : ℝ) ≠ 0 := by exact_mod_cast hN.ne'
  have hlen : ((List.replicate n ((List.range N).map fun (m : Nat) => f (π * 2 * ((1 : ℝ) / N / 2 + m * (1 / N))))).flatten).length =
      n * N := by
    simp
  unfold strided
  rw [hlen, min_eq_left (by rw [Nat.mul_comm N k]; exact Nat.mul_le_mul_right N hkn)]
  have hcnt : (N * k + k - 1) / k = N := by
    rw [show N * k + k - 1 = k - 1 + k * N by rw [Nat.mul_comm]; omega, Nat.add_mul_div_left _ _ hk,
      Nat.div_eq_of_lt (by omega), zero_add]
  rw [hcnt]
  apply List.map_congr_left
  intro j hj
  rw [List.mem_range] at hj
  have hjk : j * k < n * N := by
    calc j * k < N * k := Nat.mul_lt_mul_of_pos_right hj hk
      _ = k * N := Nat.mul_comm _ _
      _ ≤ n * N := Nat.mul_le_mul_right N hkn
  rw [List.getD_eq_getElem?_getD, flatten_replicate_get _ _ _ (by simpa using hjk)]
  have hmod : (j * k) % N < N := Nat.mod_lt _ hN
  simp only [List.length_map, List.length_range]
  rw [List.getElem?_map, List.getElem?_range hmod]
  simp only [Option.map_some, Option.getD_some]
  congr 1
  field_simp
  ring

theorem zipWith_range (g : Nat → ℝ) (prof : List ℝ) :
    List.zipWith (· * ·) ((List.range prof.length).map g) prof = (List.range prof.length).map fun j => prof.getD j 0 * g j := by
  apply List.ext_getElem?
  intro i
  by_cases hi : i < prof.length
  · simp [List.getElem?_zipWith, List.getElem?_range hi, List.getElem?_eq_getElem hi, mul_comm]
  · rw [List.getElem?_eq_none (by simp; omega), List.getElem?_eq_none (by simp; omega)]

/-- one harmonic from the cached values is the harmonic at the bin centres -/
theorem cached_power (prof : List ℝ) (n k : Nat) (hN : 0 < prof.length) (hk : 0 < k) (hkn : k ≤ n) (cs cc : List ℝ)
    (hs : cachedHarmonics sin prof.length n = .ok cs) (hc : cachedHarmonics cos prof.length n = .ok cc) :
    (List.zipWith (· * ·) (strided cc (prof.length * k) k) prof).sum ^ 2 +
      (List.zipWith (· * ·) (strided cs (prof.length * k) k) prof).sum ^ 2 = harmonicPower (centres prof) k := by
  rw [strided_cached _ _ n k hN hk hkn cs hs, strided_cached _ _ n k hN hk hkn cc hc, zipWith_range, zipWith_range]
  unfold harmonicPower centres
  simp only [List.map_map]
  rw [← rotate_sums (List.range prof.length) (fun j => prof.getD j 0)
    (fun j : Nat => 2 * π * ((((j * k) % prof.length : Nat) : ℝ) + 1 / 2) / prof.length) (π * ((k : ℝ) - 1) / prof.length)]
  have hN' : (prof.length : ℝ) ≠ 0 := by exact_mod_cast hN.ne'
  have hang : ∀ j : Nat, 2 * π * (k : ℝ) * (((j : ℝ) + 1 / 2) / prof.length) =
      2 * π * ((((j * k) % prof.length : Nat) : ℝ) + 1 / 2) / prof.length + π * ((k : ℝ) - 1) / prof.length +
        ((j * k / prof.length : Nat) : ℝ) * (2 * π) := by
    intro j
    have hdm : ((j * k : Nat) : ℝ) = prof.length * ((j * k / prof.length : Nat) : ℝ) + ((j * k % prof.length : Nat) : ℝ) := by
      exact_mod_cast (Nat.div_add_mod (j * k) prof.length).symm
    push_cast at hdm
    field_simp
    push_cast
    linear_combination 2 * hdm
  congr 2
  · congr 1
    apply List.map_congr_left
    intro j _
    simp only [Function.comp]
    rw [hang, cos_add_nat_mul_two_pi]
  · congr 1
    apply List.map_congr_left
    intro j _
    simp only [Function.comp]
    rw [hang, sin_add_nat_mul_two_pi]

theorem zFastSums_eq (prof : List ℝ) (n : Nat) (hN : 0 < prof.length) (cs cc : List ℝ)
    (hs : cachedHarmonics sin prof.length n = .ok cs) (hc : cachedHarmonics cos prof.length n = .ok cc) :
    zFastSums prof n cs cc = (List.range n).map fun i => harmonicSum (centres prof) (i + 1) := by
  unfold zFastSums
  rw [runningSums_eq]
  apply List.map_congr_left
  intro i hi
  rw [List.mem_range] at hi
  unfold harmonicSum
  congr 1
  apply List.map_congr_left
  intro j hj
  rw [List.mem_range] at hj
  exact cached_power prof n (j + 1) hN (by omega) (by omega) cs cc hs hc

theorem cached_ok (f : ℝ → ℝ) (N n : Nat) (hN : 0 < N) : ∃ c, cachedHarmonics f N n = .ok c := by
  unfold cachedHarmonics
  rw [if_neg (by omega)]
  exact ⟨_, rfl⟩

/-! ### C55 -/

/-- **C55.** For every profile and every number of harmonics, the table of cached sines and cosines gives
`Z²_n = 2 / Σ p · Σ_{k=1..n} |Σ_j p_j exp(2π i k φ_j)|²` with `φ_j = (j + 1/2) / N` the bin centres (0 if the profile sums up to zero). -/
theorem z_binned_eq (prof : List ℝ) (n : Nat) (hN : prof ≠ []) :
    zBinnedAll prof n = .ok ((List.range n).map fun i =>
      if prof.sum = 0 then 0 else 2 / prof.sum * harmonicSum (centres prof) (i + 1)) := by
  have hpos : 0 < prof.length := List.length_pos_iff.2 hN
  obtain ⟨cs, hs⟩ := cached_ok sin prof.length n hpos
  obtain ⟨cc, hc⟩ := cached_ok cos prof.length n hpos
  unfold zBinnedAll
  simp only [hs, hc, bind, Except.bind]
  by_cases h0 : prof.sum = 0
  · simp only [h0, if_true]
    congr 1
    apply List.ext_getElem?
    intro i
    by_cases hi : i < n
    · simp [hi]
    · simp [List.getElem?_replicate, hi]
  · simp only [h0, if_false]
    rw [zFastSums_eq prof n hpos cs cc hs hc, List.map_map]
    congr 1
    apply List.map_congr_left
    intro i _
    simp only [Function.comp]
    ring

/-- **C55 (one value).** `z_n(profile, n, "binned")`, and 0 for an empty profile. -/
theorem z_n_binned (prof : List ℝ) (n : Nat) (hn : 0 < n) (hN : prof ≠ []) (hs : prof.sum ≠ 0) :
    zN prof n .binned = .ok (2 / prof.sum * harmonicSum (centres prof) n) := by
  obtain ⟨m, rfl⟩ : ∃ m, n = m + 1 := ⟨n - 1, by omega⟩
  unfold zN
  rw [if_neg (by simpa using hN)]
  simp only [zAll, z_binned_eq prof (m + 1) hN, if_neg hs]
  rw [List.range_succ, List.map_append, List.map_cons, List.map_nil, List.getLast?_append]
  rfl

example : zN [1, 2] 1 .binned = .ok (2 / (3 : ℝ) * harmonicSum (centres [1, 2]) 1) := by
  have h := z_n_binned [1, 2] 1 (by norm_num) (by simp) (by norm_num)
  have e : ([1, 2] : List ℝ).sum = 3 := by norm_num
  rwa [e] at h

/-- **C55 (Gaussian errors).** For a profile with constant error the same sum, times `2 / (N err²)`. -/
theorem z_gauss_eq (prof : List ℝ) (err : ℝ) (n : Nat) (hN : prof ≠ []) :
    zGaussAll prof err n = .ok ((List.range n).map fun i =>
      2 / (prof.length * err ^ 2) * harmonicSum (centres prof) (i + 1)) := by
  have hpos : 0 < prof.length := List.length_pos_iff.2 hN
  obtain ⟨cs, hs⟩ := cached_ok sin prof.length n hpos
  obtain ⟨cc, hc⟩ := cached_ok cos prof.length n hpos
  unfold zGaussAll
  simp only [hs, hc, bind, Except.bind]
  rw [zFastSums_eq prof n hpos cs cc hs hc, List.map_map]
  congr 1
  apply List.map_congr_left
  intro i _
  simp only [Function.comp]
  rw [div_div, mul_comm]

/-- **C55 (unbinned).** For event phases, `Z²_n = 2 / N · Σ_{k=1..n} |Σ_j exp(2π i k φ_j)|²`. -/
theorem z_events_eq (phase : List ℝ) (n : Nat) (hN : phase ≠ []) :
    zEventsAll phase n = .ok ((List.range n).map fun i =>
      2 / phase.length * harmonicSum (phase.map fun p => (p, 1)) (i + 1)) := by
  unfold zEventsAll
  rw [if_neg (by simpa using hN)]
  simp only [runningSums_eq, List.map_map]
  congr 1
  apply List.map_congr_left
  intro i _
  simp only [Function.comp]
  congr 1
  unfold harmonicSum
  congr 1
  apply List.map_congr_left
  intro j _
  unfold harmonicPower
  simp only [List.map_map, Function.comp, one_mul]
  have e : ∀ x : ℝ, ((j + 1 : Nat) : ℝ) * (x * 2 * π) = 2 * π * ((j + 1 : Nat) : ℝ) * x := fun x => by ring
  congr 2
  · congr 1
    apply List.map_congr_left
    intro x _
    simp only [Function.comp, e, one_mul]
  · congr 1
    apply List.map_congr_left
    intro x _
    simp only [Function.comp, e, one_mul]

/-- **C55 (kinds).** `z_n` of event phases, and of a profile with Gaussian errors, is the last harmonic sum with the normalisation of that kind of data; Gaussian data without an error and unknown kinds are refused; without data the result is 0. -/
theorem z_n_kinds (data : List ℝ) (n : Nat) (hn : 0 < n) (hN : data ≠ []) :
    zN data n .events = .ok (2 / data.length * harmonicSum (data.map fun p => (p, 1)) n) ∧
    (∀ err, zN data n (.gauss (some err)) = .ok (2 / (data.length * err ^ 2) * harmonicSum (centres data) n)) ∧
    zN data n (.gauss none) = .error .valueError ∧ zN data n .other = .error .valueError ∧
    (∀ kind, zN [] n kind = .ok 0) := by
  obtain ⟨m, rfl⟩ : ∃ m, n = m + 1 := ⟨n - 1, by omega⟩
  have h0 : ¬ data.length = 0 := by simpa using hN
  unfold zN
  simp only [if_neg h0, zAll, z_events_eq data (m + 1) hN, List.length_nil, if_true]
  refine ⟨?_, ?_, trivial, trivial, fun _ => trivial⟩
  · rw [List.range_succ, List.map_append, List.map_cons, List.map_nil, List.getLast?_append]
    rfl
  · intro err
    simp only [z_gauss_eq data err (m + 1) hN]
    rw [List.range_succ, List.map_append, List.map_cons, List.map_nil, List.getLast?_append]
    rfl

example : harmonicSum [((0 : ℝ), 1), (1, 1)] 1 = 4 := by
  have h : cos (2 * π * ((1 : Nat) : ℝ) * 1) = 1 ∧ sin (2 * π * ((1 : Nat) : ℝ) * 1) = 0 := by simp
  simp [harmonicSum, harmonicPower]
  norm_num

/-! ### C81: the phase origin does not matter -/

theorem harmonicPower_shift (pw : List (ℝ × ℝ)) (c : ℝ) (k : Nat) :
    harmonicPower (pw.map fun p => (p.1 + c, p.2)) k = harmonicPower pw k := by
  unfold harmonicPower
  simp only [List.map_map]
  rw [← rotate_sums pw (fun p => p.2) (fun p => 2 * π * k * p.1) (2 * π * k * c)]
  have e : ∀ x : ℝ, 2 * π * k * (x + c) = 2 * π * k * x + 2 * π * k * c := fun x => by ring
  congr 2
  · congr 1
    apply List.map_congr_left
    intro x _
    simp only [Function.comp, e]
  · congr 1
    apply List.map_congr_left
    intro x _
    simp only [Function.comp, e]

theorem harmonicPower_cycles (pw qw : List (ℝ × ℝ)) (k : Nat)
    (h : List.Forall₂ (fun p q => p.2 = q.2 ∧ ∃ m : ℤ, q.1 = p.1 + (m : ℝ)) pw qw) :
    harmonicPower qw k = harmonicPower pw k := by
  have hc : qw.map (fun p => p.2 * cos (2 * π * k * p.1)) = pw.map (fun p => p.2 * cos (2 * π * k * p.1)) ∧
      qw.map (fun p => p.2 * sin (2 * π * k * p.1)) = pw.map (fun p => p.2 * sin (2 * π * k * p.1)) := by
    induction h with
    | nil => exact ⟨rfl, rfl⟩
    | cons h _ ih =>
      obtain ⟨h1, m, h2⟩ := h
      simp only [List.map_cons, ih.1, ih.2]
      rename_i p q l l' _
      have e : 2 * π * k * (p.1 + (m : ℝ)) = 2 * π * k * p.1 + ((k * m : ℤ) : ℝ) * (2 * π) := by push_cast; ring
      rw [h2, e, cos_add_int_mul_two_pi, sin_add_int_mul_two_pi, h1]
      exact ⟨rfl, rfl⟩
  unfold harmonicPower
  rw [hc.1, hc.2]

/-- **C81.** The unbinned Z² does not depend on the origin of the phases, nor on the cycle in which each event is: adding the same constant and any integers to the phases changes nothing. -/
theorem z_events_shift (phase : List ℝ) (c : ℝ) (m : ℝ → ℤ) (n : Nat) :
    zEventsAll (phase.map fun p => p + c + m p) n = zEventsAll phase n := by
  by_cases hN : phase = []
  · subst hN; rfl
  · rw [z_events_eq _ _ (by simpa using hN), z_events_eq _ _ hN]
    congr 1
    apply List.map_congr_left
    intro i _
    rw [List.length_map]
    congr 1
    unfold harmonicSum
    congr 1
    apply List.map_congr_left
    intro j _
    rw [← harmonicPower_shift (phase.map fun p => (p, (1 : ℝ))) c]
    apply harmonicPower_cycles
    rw [List.map_map, List.map_map, List.forall₂_map_left_iff, List.forall₂_map_right_iff, List.forall₂_same]
    intro p _
    exact ⟨rfl, m p, rfl⟩

/-- **C81 (profiles).** The binned Z² of a profile is unchanged when the profile is rotated by any number of bins. -/
theorem z_binned_rotate (prof : List ℝ) (r n : Nat) : zBinnedAll (prof.rotate r) n = zBinnedAll prof n := by
  by_cases hN : prof = []
  · subst hN; simp
  · have hpos : 0 < prof.length := List.length_pos_iff.2 hN
    have hN' : (prof.length : ℝ) ≠ 0 := by exact_mod_cast hpos.ne'
    have hsum : (prof.rotate r).sum = prof.sum := (List.rotate_perm prof r).sum_eq
    rw [z_binned_eq _ _ (by rwa [ne_eq, List.rotate_eq_nil_iff]), z_binned_eq _ _ hN, hsum]
    congr 1
    apply List.map_congr_left
    intro i _
    split_ifs
    · rfl
    congr 1
    unfold harmonicSum
    congr 1
    apply List.map_congr_left
    intro j _
    -- rotation of the indices, a permutation, then a phase shift
    have hperm : ((List.range prof.length).map fun t : Nat => (((((t + r) % prof.length : Nat) : ℝ) + 1 / 2) / prof.length,
        prof.getD ((t + r) % prof.length) 0)).Perm (centres prof) := by
      have h1 : ((List.range prof.length).rotate r).Perm (List.range prof.length) := List.rotate_perm _ _
      have h2 : (List.range prof.length).rotate r = (List.range prof.length).map fun t => (t + r) % prof.length := by
        apply List.ext_getElem
        · simp
        · intro t ht1 ht2
          simp [List.getElem_rotate]
      rw [h2] at h1
      have := h1.map fun t : Nat => (((t : ℝ) + 1 / 2) / prof.length, prof.getD t 0)
      rw [List.map_map] at this
      exact this
    have hpow : ∀ (a b : List (ℝ × ℝ)), a.Perm b → ∀ k, harmonicPower a k = harmonicPower b k := by
      intro a b hab k
      unfold harmonicPower
      rw [(hab.map _).sum_eq, (hab.map (fun p : ℝ × ℝ => p.2 * sin (2 * π * k * p.1))).sum_eq]
    rw [← hpow _ _ hperm]
    rw [← harmonicPower_shift (centres (prof.rotate r)) ((r : ℝ) / prof.length)]
    apply harmonicPower_cycles
    unfold centres
    rw [List.length_rotate, List.map_map, List.forall₂_map_left_iff, List.forall₂_map_right_iff, List.forall₂_same]
    intro t ht
    rw [List.mem_range] at ht
    refine ⟨?_, (((t + r) / prof.length : Nat) : ℤ), ?_⟩
    · simp only [Function.comp]
      rw [List.getD_eq_getElem?_getD, List.getD_eq_getElem?_getD, List.getElem?_rotate ht]
    · simp only [Function.comp]
      have hdm : ((t + r : Nat) : ℝ) = prof.length * (((t + r) / prof.length : Nat) : ℝ) + (((t + r) % prof.length : Nat) : ℝ) := by
        exact_mod_cast (Nat.div_add_mod (t + r) prof.length).symm
      push_cast at hdm
      rw [Int.cast_natCast]
      field_simp
      linear_combination 2 * hdm

/-- **C81 (sign and growth).** For counts adding up to a positive number, Z²_n is non-negative and grows with the number of harmonics. -/
theorem z_binned_monotone (prof : List ℝ) (n : Nat) (hs : 0 < prof.sum) (zs : List ℝ) (h : zBinnedAll prof n = .ok zs) :
    zs.length = n ∧ (∀ z ∈ zs, 0 ≤ z) ∧ zs.Pairwise (· ≤ ·) := by
  have hN : prof ≠ [] := by rintro rfl; simp at hs
  rw [z_binned_eq _ _ hN] at h
  cases h
  simp only [if_neg hs.ne']
  have hp : ∀ k, 0 ≤ harmonicPower (centres prof) k := fun k => by unfold harmonicPower; positivity
  have hmono : ∀ a b, a ≤ b → harmonicSum (centres prof) a ≤ harmonicSum (centres prof) b := by
    intro a b hab
    induction hab with
    | refl => exact le_rfl
    | @step m _ ih =>
      refine ih.trans ?_
      unfold harmonicSum
      rw [List.range_succ, List.map_append, List.sum_append]
      simp only [List.map_cons, List.map_nil, List.sum_cons, List.sum_nil, add_zero]
      linarith [hp (m + 1)]
  have h0 : ∀ a, 0 ≤ harmonicSum (centres prof) a := by
    intro a
    have := hmono 0 a (Nat.zero_le a)
    simpa [harmonicSum] using this
  refine ⟨by simp, ?_, ?_⟩
  · intro z hz
    rw [List.mem_map] at hz
    obtain ⟨i, -, rfl⟩ := hz
    have := h0 (i + 1)
    positivity
  · rw [List.pairwise_map]
    refine List.pairwise_lt_range.imp ?_
    intro a b hab
    exact mul_le_mul_of_nonneg_left (hmono _ _ (by omega)) (by positivity)

/-! ### C82: the H test -/

/-- **C82.** For every kind of data, `htest` returns the smallest number of harmonics `m` in `1..nmax` that maximises `Z²_m - 4m + 4`, and that maximum. -/
theorem htest_spec (data : List ℝ) (nmax : Nat) (kind : ZKind) (m : Nat) (H : ℝ) (h : htest data nmax kind = .ok (m, H)) :
    ∃ zs, zAll data nmax kind = .ok zs ∧ 1 ≤ m ∧ m ≤ zs.length ∧ H = zs.getD (m - 1) 0 - 4 * m + 4 ∧
      (∀ k, 1 ≤ k → k ≤ zs.length → zs.getD (k - 1) 0 - 4 * (k : ℝ) + 4 ≤ H) ∧
      (∀ k, 1 ≤ k → k < m → zs.getD (k - 1) 0 - 4 * (k : ℝ) + 4 < H) := by
  unfold htest at h
  cases hz : zAll data nmax kind with
  | error e => rw [hz] at h; cases h
  | ok zs =>
    rw [hz] at h
    simp only at h
    refine ⟨zs, rfl, ?_⟩
    cases hb : argmax? ((List.range zs.length).map fun i => zs.getD i 0 - 4 * ((i + 1 : Nat) : ℝ) + 4) with
    | none => rw [hb] at h; cases h
    | some b =>
      rw [hb] at h
      simp only [Except.ok.injEq, Prod.mk.injEq] at h
      obtain ⟨rfl, hH⟩ := h
      obtain ⟨M, h1, h2, h3⟩ := argmax?_spec _ _ hb
      have hbl : b < zs.length := by
        by_contra hc
        rw [List.getElem?_eq_none (by simp; omega)] at h1
        cases h1
      have hMH : H = M := by rw [← hH, List.getD_eq_getElem?_getD, h1]; rfl
      subst hMH
      have hget : ∀ i, i < zs.length → ((List.range zs.length).map fun i => zs.getD i 0 - 4 * ((i + 1 : Nat) : ℝ) + 4)[i]? =
          some (zs.getD i 0 - 4 * ((i + 1 : Nat) : ℝ) + 4) := by
        intro i hi
        rw [List.getElem?_map, List.getElem?_range hi]; rfl
      refine ⟨by omega, by omega, ?_, ?_, ?_⟩
      · rw [hget b hbl] at h1
        cases h1
        rfl
      · intro k hk1 hk2
        have := h2 _ (List.mem_of_getElem? (hget (k - 1) (by omega)))
        rwa [show k - 1 + 1 = k by omega] at this
      · intro k hk1 hk2
        have := h3 (k - 1) _ (by omega) (hget (k - 1) (by omega))
        rwa [show k - 1 + 1 = k by omega] at this

/-- **C82 (errors).** The Gaussian case needs an error, other kinds of data raise, and so does asking for no harmonics. -/
theorem htest_errors (data : List ℝ) (nmax : Nat) :
    htest data nmax (.gauss none) = .error .valueError ∧ htest data nmax .other = .error .valueError ∧
    (data ≠ [] → htest data 0 .binned = .error .valueError) := by
  refine ⟨rfl, rfl, fun h => ?_⟩
  unfold htest
  simp only [zAll, z_binned_eq data 0 h]
  rfl

/-- the H test does return something: one harmonic is always considered -/
example (prof : List ℝ) (h : prof ≠ []) : ∃ H, htest prof 1 .binned = .ok (1, H) := by
  unfold htest
  simp only [zAll, z_binned_eq prof 1 h]
  exact ⟨_, rfl⟩

/-! ### C83: the epoch folding statistic -/

/-- **C83.** With positive mean or a non-zero error, the epoch folding statistic is non-negative, zero exactly for flat profiles, and unchanged by any reordering of the bins. -/
theorem ef_stat_spec (prof : List ℝ) (err : Option ℝ) (he0 : err = none → 0 < prof.sum) (he1 : ∀ e, err = some e → e ≠ 0) :
    0 ≤ efProfileStat prof err ∧ (efProfileStat prof err = 0 ↔ ∀ a ∈ prof, ∀ b ∈ prof, a = b) ∧
      ∀ q : List ℝ, q.Perm prof → efProfileStat q err = efProfileStat prof err := by
  by_cases hne : prof = []
  · subst hne
    refine ⟨by simp [efProfileStat], by simp [efProfileStat], ?_⟩
    intro q hq
    rw [List.perm_nil.1 hq]
  have hp : 0 < efErr2 prof err := by
    have hl : 0 < (prof.length : ℝ) := by exact_mod_cast List.length_pos_iff.2 hne
    cases err with
    | none =>
      have := he0 rfl
      unfold efErr2
      positivity
    | some e =>
      have := he1 e rfl
      unfold efErr2
      positivity
  have hperm : ∀ q : List ℝ, q.Perm prof → efErr2 q err = efErr2 prof err := by
    intro q hq
    cases err with
    | none => simp only [efErr2, hq.sum_eq, hq.length_eq]
    | some e => rfl
  unfold efProfileStat
  generalize efErr2 prof err = E at *
  have hl : (prof.length : ℝ) ≠ 0 := by exact_mod_cast (List.length_pos_iff.2 hne).ne'
  have hterm : ∀ x : ℝ, 0 ≤ (x - prof.sum / prof.length) ^ 2 / E := fun x => by positivity
  have hzero : ∀ l : List ℝ, (l.map fun p => (p - prof.sum / prof.length) ^ 2 / E).sum = 0 ↔ ∀ x ∈ l, x = prof.sum / prof.length := by
    intro l
    induction l with
    | nil => simp
    | cons x l ih =>
      have hnn : 0 ≤ (l.map fun p => (p - prof.sum / prof.length) ^ 2 / E).sum := by
        apply List.sum_nonneg
        intro y hy
        rw [List.mem_map] at hy
        obtain ⟨z, -, rfl⟩ := hy
        exact hterm z
      simp only [List.map_cons, List.sum_cons, List.forall_mem_cons, ← ih]
      constructor
      · intro h
        have h1 : (x - prof.sum / prof.length) ^ 2 / E = 0 := by linarith [hterm x]
        refine ⟨?_, by linarith [hterm x]⟩
        rw [div_eq_zero_iff, or_iff_left hp.ne', sq_eq_zero_iff, sub_eq_zero] at h1
        exact h1
      · rintro ⟨h1, h2⟩
        rw [h2, ← h1]; simp
  refine ⟨?_, ?_, ?_⟩
  · apply List.sum_nonneg
    intro y hy
    rw [List.mem_map] at hy
    obtain ⟨z, -, rfl⟩ := hy
    exact hterm z
  · rw [hzero]
    constructor
    · intro h a ha b hb
      rw [h a ha, h b hb]
    · intro h x hx
      have : prof.sum = prof.length * x := by
        have : ∀ l : List ℝ, (∀ a ∈ l, a = x) → l.sum = l.length * x := by
          intro l
          induction l with
          | nil => simp
          | cons a l ih =>
            intro hl
            rw [List.sum_cons, ih (fun a ha => hl a (by simp [ha])), hl a (by simp), List.length_cons]
            push_cast; ring
        exact this prof (fun a ha => h a ha x hx)
      rw [this]
      field_simp
  · intro q hq
    rw [hq.sum_eq, hq.length_eq, hperm q hq]
    exact (hq.map _).sum_eq

example : efProfileStat [1, 2, 3] none = 1 := by
  simp only [efProfileStat, efErr2, List.map_cons, List.map_nil, List.sum_cons, List.sum_nil, List.length_cons, List.length_nil]
  norm_num

/-- **C83 (default error).** Without an error that of Poisson counts is used, the square root of the mean of the profile. -/
theorem ef_stat_default (prof : List ℝ) (h : 0 ≤ prof.sum) :
    efProfileStat prof none = efProfileStat prof (some (Real.sqrt (prof.sum / prof.length))) := by
  simp only [efProfileStat, efErr2]
  rw [Real.sq_sqrt (by positivity)]

example : efProfileStat [1, 2, 3] none = 1 := by
  norm_num [efProfileStat, efErr2]

end Stingray.Pulsar

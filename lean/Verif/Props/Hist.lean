import Verif.Model.Hist
import Mathlib.Algebra.Order.Ring.Rat
import Mathlib.Data.Rat.Floor
import Mathlib.Tactic.Linarith
import Mathlib.Tactic.FieldSimp
import Mathlib.Tactic.NormNum
import Mathlib.Tactic.Ring

/-!
# Properties of the compiled histograms

`InBin r b k x`: the sample `x` lies in the `k`-th of `b` equal bins of the range `r`, closed below
and open above.
-/

namespace Stingray.Hist

set_option linter.unusedSectionVars false

variable {K : Type} [Field K] [LinearOrder K] [IsStrictOrderedRing K] [FloorRing K]
variable {M : Type} [AddCommMonoid M]

/-- `x` is in bin `k` of `b` equal bins of `[r.1, r.2)`. -/
def InBin (r : K × K) (b k : Nat) (x : K) : Prop :=
  r.1 + (k : K) * ((r.2 - r.1) / b) ≤ x ∧ x < r.1 + ((k : K) + 1) * ((r.2 - r.1) / b)

instance (r : K × K) (b k : Nat) (x : K) : Decidable (InBin r b k x) := by
  unfold InBin; infer_instance

theorem coord_bin (r : K × K) (b k : Nat) (x : K) (hr : r.1 < r.2) (hb : 0 < b) (hk : k < b) :
    (0 ≤ coord r b x ∧ coord r b x < b) ∧ ⌊coord r b x⌋₊ = k ↔ InBin r b k x := by
  have hbK : (0 : K) < b := by exact_mod_cast hb
  have hw : 0 < (r.2 - r.1) / (b : K) := div_pos (by linarith) hbK
  have hc : coord r b x = (x - r.1) / ((r.2 - r.1) / b) := by unfold coord; rw [mul_one_div]
  have hk' : (k : K) + 1 ≤ b := by exact_mod_cast hk
  have hk0 : (0 : K) ≤ k := Nat.cast_nonneg k
  have h1 : (k : K) ≤ coord r b x ↔ r.1 + (k : K) * ((r.2 - r.1) / b) ≤ x := by
    rw [hc, le_div_iff₀ hw]; constructor <;> intro h <;> linarith
  have h2 : coord r b x < (k : K) + 1 ↔ x < r.1 + ((k : K) + 1) * ((r.2 - r.1) / b) := by
    rw [hc, div_lt_iff₀ hw]; constructor <;> intro h <;> linarith
  unfold InBin
  rw [← h1, ← h2]
  constructor
  · rintro ⟨⟨h3, h4⟩, h5⟩
    rw [Nat.floor_eq_iff h3] at h5
    exact h5
  · rintro ⟨h3, h4⟩
    have h0 : 0 ≤ coord r b x := hk0.trans h3
    exact ⟨⟨h0, by linarith⟩, (Nat.floor_eq_iff h0).2 ⟨h3, h4⟩⟩

theorem sum_filter_cons {α : Type} (p : α → Prop) [DecidablePred p] (f : α → M) (t : α) (ts : List α) :
    (((t :: ts).filter fun a => decide (p a)).map f).sum =
      (if p t then f t else 0) + ((ts.filter fun a => decide (p a)).map f).sum := by
  by_cases h : p t
  · rw [List.filter_cons_of_pos (by simpa using h)]; simp [h]
  · rw [List.filter_cons_of_neg (by simpa using h)]; simp [h]

theorem step1_length (store : M → M) (r : K × K) (b : Nat) (H : List M) (t : K × M) :
    (step1 store r b H t).length = H.length := by
  unfold step1; simp only; split_ifs <;> simp

theorem step1_getElem? (r : K × K) (b k : Nat) (hr : r.1 < r.2) (hb : 0 < b) (hk : k < b) (H : List M)
    (t : K × M) (v : M) (hv : H[k]? = some v) :
    (step1 id r b H t)[k]? = some (v + if InBin r b k t.1 then t.2 else 0) := by
  have := coord_bin r b k t.1 hr hb hk
  unfold step1
  simp only [id]
  split_ifs with h1 h2 h2
  · rw [List.getElem?_modify, hv, (this.2 h2).2]; simp
  · rw [List.getElem?_modify, hv]
    have h3 : ⌊coord r b t.1⌋₊ ≠ k := fun h => h2 (this.1 ⟨h1, h⟩)
    simp [h3]
  · exact absurd (this.2 h2).1 h1
  · rw [hv]; simp

theorem foldl_step1 (r : K × K) (b k : Nat) (hr : r.1 < r.2) (hb : 0 < b) (hk : k < b)
    (tracks : List (K × M)) : ∀ (H : List M) (v : M), H[k]? = some v →
      (tracks.foldl (step1 id r b) H)[k]? =
        some (v + ((tracks.filter fun t => decide (InBin r b k t.1)).map Prod.snd).sum) := by
  induction tracks with
  | nil => intro H v hv; simpa using hv
  | cons t ts ih =>
    intro H v hv
    rw [List.foldl_cons, ih _ _ (step1_getElem? r b k hr hb hk H t v hv), sum_filter_cons (fun t : K × M => InBin r b k t.1), add_assoc]

/-- **C23.** Bin `k` of the weighted histogram is the sum of the weights of exactly the samples in
`[edge_k, edge_{k+1})`, for floating-point samples. -/
theorem hist1d_weight_bin (tracks : List (K × M)) (b : Nat) (r : K × K) (hr : r.1 < r.2) :
    (hist1dWeight id tracks b r).length = b ∧
    ∀ k < b, (hist1dWeight id tracks b r)[k]? =
      some ((tracks.filter fun t => decide (InBin r b k t.1)).map Prod.snd).sum := by
  constructor
  · unfold hist1dWeight
    suffices ∀ H : List M, (tracks.foldl (step1 id r b) H).length = H.length by
      rw [this]; simp
    induction tracks with
    | nil => intro H; rfl
    | cons t ts ih => intro H; rw [List.foldl_cons, ih, step1_length]
  · intro k hk
    unfold hist1dWeight
    rw [foldl_step1 r b k hr (by omega) hk tracks _ 0 (by simp [hk]), zero_add]

/-- **C23.** Bin `k` of the unweighted histogram counts exactly the samples in `[edge_k, edge_{k+1})`. -/
theorem hist1d_bin (tracks : List K) (b : Nat) (r : K × K) (hr : r.1 < r.2) :
    (hist1d tracks b r).length = b ∧
    ∀ k < b, (hist1d tracks b r)[k]? = some (tracks.countP fun x => decide (InBin r b k x)) := by
  have h := hist1d_weight_bin (M := Nat) (tracks.map fun x => (x, 1)) b r hr
  refine ⟨h.1, fun k hk => ?_⟩
  unfold hist1d
  rw [h.2 k hk, List.filter_map, List.map_map]
  congr 1
  rw [List.countP_eq_length_filter]
  simp [Function.comp_def]

theorem step1_sum (r : K × K) (b : Nat) (H : List M) (hH : H.length = b) (t : K × M) (hr : r.1 < r.2)
    (hb : 0 < b) :
    (step1 id r b H t).sum = H.sum + if r.1 ≤ t.1 ∧ t.1 < r.2 then t.2 else 0 := by
  have hbK : (0 : K) < b := by exact_mod_cast hb
  have hw : 0 < (r.2 - r.1) / (b : K) := div_pos (by linarith) hbK
  have hc : coord r b t.1 = (t.1 - r.1) / ((r.2 - r.1) / b) := by unfold coord; rw [mul_one_div]
  have e1 : (0 ≤ coord r b t.1 ∧ coord r b t.1 < b) ↔ (r.1 ≤ t.1 ∧ t.1 < r.2) := by
    rw [hc, le_div_iff₀ hw, div_lt_iff₀ hw, mul_div_cancel₀ _ hbK.ne']
    constructor <;> rintro ⟨h1, h2⟩ <;> constructor <;> linarith
  unfold step1
  simp only [id]
  by_cases h : r.1 ≤ t.1 ∧ t.1 < r.2
  · rw [if_pos (e1.2 h), if_pos h]
    have hlt : ⌊coord r b t.1⌋₊ < H.length := by
      rw [hH, Nat.floor_lt (e1.2 h).1]; exact (e1.2 h).2
    rw [List.modify_eq_set_getElem?, List.getElem?_eq_getElem hlt]
    simp only [Option.map_eq_map, Option.map_some, Option.getD_some]
    have : H.sum = (H.take ⌊coord r b t.1⌋₊).sum + (H[⌊coord r b t.1⌋₊] + (H.drop (⌊coord r b t.1⌋₊ + 1)).sum) := by
      conv_lhs => rw [← List.take_append_drop ⌊coord r b t.1⌋₊ H]
      rw [List.sum_append, List.drop_eq_getElem_cons hlt, List.sum_cons]
    rw [List.set_eq_take_append_cons_drop, if_pos hlt, List.sum_append, List.sum_cons, this]
    abel
  · rw [if_neg (fun h' => h (e1.1 h')), if_neg h, add_zero]

/-- **C23.** The entries add up to the total weight of the samples in `[lo, hi)`: nothing is lost or
counted twice, and a sample equal to the upper end is left out. -/
theorem hist1d_weight_total (tracks : List (K × M)) (b : Nat) (r : K × K) (hr : r.1 < r.2) (hb : 0 < b) :
    (hist1dWeight id tracks b r).sum =
      ((tracks.filter fun t => decide (r.1 ≤ t.1 ∧ t.1 < r.2)).map Prod.snd).sum := by
  unfold hist1dWeight
  suffices ∀ H : List M, H.length = b → (tracks.foldl (step1 id r b) H).sum =
      H.sum + ((tracks.filter fun t => decide (r.1 ≤ t.1 ∧ t.1 < r.2)).map Prod.snd).sum by
    rw [this _ (by simp)]; simp
  induction tracks with
  | nil => intro H _; simp
  | cons t ts ih =>
    intro H hH
    rw [List.foldl_cons, ih _ (by rw [step1_length]; exact hH), step1_sum r b H hH t hr hb,
      sum_filter_cons (fun t : K × M => r.1 ≤ t.1 ∧ t.1 < r.2), add_assoc]

theorem step2_row (r s : K × K) (b c k l : Nat) (hr : r.1 < r.2) (hs : s.1 < s.2) (hk : k < b) (hl : l < c)
    (H : List (List M)) (t : (K × K) × M) (row : List M) (v : M) (hrow : H[k]? = some row)
    (hv : row[l]? = some v) :
    ∃ row', (step2 r s b c H t)[k]? = some row' ∧
      row'[l]? = some (v + if InBin r b k t.1.1 ∧ InBin s c l t.1.2 then t.2 else 0) := by
  have e1 := coord_bin r b k t.1.1 hr (by omega) hk
  have e2 := coord_bin s c l t.1.2 hs (by omega) hl
  unfold step2
  simp only
  split_ifs with h1 h2 h2
  · refine ⟨_, by rw [List.getElem?_modify, hrow, (e1.2 h2.1).2]; simp; rfl, ?_⟩
    rw [List.getElem?_modify, hv, (e2.2 h2.2).2]; simp
  · refine ⟨_, by rw [List.getElem?_modify, hrow]; rfl, ?_⟩
    by_cases h3 : ⌊coord r b t.1.1⌋₊ = k
    · have h4 : ⌊coord s c t.1.2⌋₊ ≠ l := fun h4 => h2 ⟨e1.1 ⟨h1.1, h3⟩, e2.1 ⟨h1.2, h4⟩⟩
      simp [h3, List.getElem?_modify, hv, h4]
    · simp [h3, hv]
  · exact absurd ⟨(e1.2 h2.1).1, (e2.2 h2.2).1⟩ h1
  · exact ⟨row, hrow, by simpa using hv⟩

/-- **C23.** Two-dimensional histograms: cell `(k, l)` holds the total weight of exactly the samples
whose first coordinate is in bin `k` and second in bin `l`. -/
theorem hist2d_weight_bin (tracks : List ((K × K) × M)) (b c : Nat) (r s : K × K) (hr : r.1 < r.2)
    (hs : s.1 < s.2) (k l : Nat) (hk : k < b) (hl : l < c) :
    ∃ row, (hist2dWeight tracks b c r s)[k]? = some row ∧ row[l]? =
      some ((tracks.filter fun t => decide (InBin r b k t.1.1 ∧ InBin s c l t.1.2)).map Prod.snd).sum := by
  unfold hist2dWeight
  suffices ∀ (H : List (List M)) (row : List M) (v : M), H[k]? = some row → row[l]? = some v →
      ∃ row', (tracks.foldl (step2 r s b c) H)[k]? = some row' ∧ row'[l]? =
        some (v + ((tracks.filter fun t => decide (InBin r b k t.1.1 ∧ InBin s c l t.1.2)).map Prod.snd).sum) by
    have := this (List.replicate b (List.replicate c 0)) (List.replicate c 0) 0 (by simp [hk]) (by simp [hl])
    simpa using this
  induction tracks with
  | nil => intro H row v h1 h2; exact ⟨row, h1, by simpa using h2⟩
  | cons t ts ih =>
    intro H row v h1 h2
    obtain ⟨row', h3, h4⟩ := step2_row r s b c k l hr hs hk hl H t row v h1 h2
    obtain ⟨row'', h5, h6⟩ := ih _ _ _ h3 h4
    refine ⟨row'', by rw [List.foldl_cons]; exact h5, ?_⟩
    rw [h6, sum_filter_cons (fun t : (K × K) × M => InBin r b k t.1.1 ∧ InBin s c l t.1.2), add_assoc]

/-- **C23.** Two-dimensional counts. -/
theorem hist2d_bin (tracks : List (K × K)) (b c : Nat) (r s : K × K) (hr : r.1 < r.2)
    (hs : s.1 < s.2) (k l : Nat) (hk : k < b) (hl : l < c) :
    ∃ row, (hist2d tracks b c r s)[k]? = some row ∧ row[l]? =
      some (tracks.countP fun x => decide (InBin r b k x.1 ∧ InBin s c l x.2)) := by
  obtain ⟨row, h1, h2⟩ := hist2d_weight_bin (M := Nat) (tracks.map fun x => (x, 1)) b c r s hr hs k l hk hl
  refine ⟨row, h1, ?_⟩
  rw [h2, List.filter_map, List.map_map, List.countP_eq_length_filter]
  simp [Function.comp_def]

example : hist1d (K := ℚ) [0, 1 / 2, 1, 3, 29 / 10, -1] 3 (0, 3) = [2, 1, 1] := by decide +kernel
example : ((0, 3) : ℚ × ℚ).1 < ((0, 3) : ℚ × ℚ).2 := by norm_num
example : hist1dWeight (K := ℚ) (M := ℚ) id [(0, 1 / 2), (1, 1 / 4), (1 / 3, 1)] 2 (0, 2) = [3 / 2, 1 / 4] := by
  decide +kernel
example : hist2d (K := ℚ) [(0, 1), (1, 1), (1, 0), (1, 2)] 2 2 (0, 2) (0, 2) = [[0, 1], [1, 1]] := by
  decide +kernel

/-! ### Three dimensions -/

theorem pyIndex_coord (u : K × K) (d m : Nat) (x : K) (hu : u.1 < u.2) (hm : m < d)
    (hin : u.1 ≤ x ∧ x < u.2) :
    ∃ kk, pyIndex d (pyInt (coord u d x)) = some kk ∧ (kk = m ↔ InBin u d m x) := by
  have hd : 0 < d := by omega
  have hdK : (0 : K) < d := by exact_mod_cast hd
  have hw : 0 < (u.2 - u.1) / (d : K) := div_pos (by linarith) hdK
  have hc : coord u d x = (x - u.1) / ((u.2 - u.1) / d) := by unfold coord; rw [mul_one_div]
  have h0 : 0 ≤ coord u d x := by rw [hc]; exact div_nonneg (by linarith) hw.le
  have h1 : coord u d x < d := by
    rw [hc, div_lt_iff₀ hw, mul_div_cancel₀ _ hdK.ne']; linarith
  have e := coord_bin u d m x hu hd hm
  refine ⟨⌊coord u d x⌋₊, ?_, ?_⟩
  · unfold pyInt pyIndex
    rw [if_pos h0, if_pos]
    · rfl
    · refine ⟨Int.floor_nonneg.2 h0, ?_⟩
      rw [Int.floor_lt]; exact_mod_cast h1
  · rw [← e]; simp [h0, h1]

theorem step3_cell (r s u : K × K) (b c d k l m : Nat) (hr : r.1 < r.2) (hs : s.1 < s.2) (hu : u.1 < u.2)
    (hk : k < b) (hl : l < c) (hm : m < d)
    (H : List (List (List M))) (t : (K × K × K) × M) (hin : u.1 ≤ t.1.2.2 ∧ t.1.2.2 < u.2)
    (pl : List (List M)) (row : List M) (v : M) (hpl : H[k]? = some pl) (hrow : pl[l]? = some row)
    (hv : row[m]? = some v) :
    ∃ H' pl' row', step3 r s u b c d H t = .ok H' ∧ H'[k]? = some pl' ∧ pl'[l]? = some row' ∧
      row'[m]? = some (v + if InBin r b k t.1.1 ∧ InBin s c l t.1.2.1 ∧ InBin u d m t.1.2.2 then t.2 else 0) := by
  have e1 := coord_bin r b k t.1.1 hr (by omega) hk
  have e2 := coord_bin s c l t.1.2.1 hs (by omega) hl
  obtain ⟨kk, hkk, e3⟩ := pyIndex_coord u d m t.1.2.2 hu hm hin
  unfold step3
  simp only [hkk]
  by_cases h1 : (0 ≤ coord r b t.1.1 ∧ coord r b t.1.1 < b) ∧ (0 ≤ coord s c t.1.2.1 ∧ coord s c t.1.2.1 < c)
  · rw [if_pos h1]
    refine ⟨_, _, if ⌊coord r b t.1.1⌋₊ = k then
        (if ⌊coord s c t.1.2.1⌋₊ = l then row.modify kk (· + t.2) else row) else row,
        rfl, by rw [List.getElem?_modify, hpl]; rfl, ?_, ?_⟩
    · by_cases h3 : ⌊coord r b t.1.1⌋₊ = k
      · by_cases h4 : ⌊coord s c t.1.2.1⌋₊ = l
        · simp [h3, h4, List.getElem?_modify, hrow]
        · simp [h3, h4, List.getElem?_modify, hrow]
      · simp [h3, hrow]
    · by_cases h3 : ⌊coord r b t.1.1⌋₊ = k
      · by_cases h4 : ⌊coord s c t.1.2.1⌋₊ = l
        · have hA := e1.1 ⟨h1.1, h3⟩
          have hB := e2.1 ⟨h1.2, h4⟩
          by_cases h5 : kk = m
          · have hC := e3.1 h5
            simp [h3, h4, h5, List.getElem?_modify, hv, hA, hB, hC]
          · have hC : ¬ InBin u d m t.1.2.2 := fun h => h5 (e3.2 h)
            simp [h3, h4, h5, List.getElem?_modify, hv, hC]
        · have hB : ¬ InBin s c l t.1.2.1 := fun h => h4 (e2.2 h).2
          simp [h3, h4, hv, hB]
      · have hA : ¬ InBin r b k t.1.1 := fun h => h3 (e1.2 h).2
        simp [h3, hv, hA]
  · rw [if_neg h1]
    refine ⟨H, pl, row, rfl, hpl, hrow, ?_⟩
    rw [if_neg]
    · simpa using hv
    · rintro ⟨h2, h3, _⟩
      exact h1 ⟨(e1.2 h2).1, (e2.2 h3).1⟩

/-- **C70.** Three-dimensional histograms are right when every sample's third coordinate is inside its
range.  Missing: samples outside the third range, which should be skipped (see the negations). -/
theorem hist3d_weight_bin_partial (tracks : List ((K × K × K) × M)) (b c d : Nat) (r s u : K × K)
    (hr : r.1 < r.2) (hs : s.1 < s.2) (hu : u.1 < u.2) (k l m : Nat) (hk : k < b) (hl : l < c) (hm : m < d)
    (hin : ∀ t ∈ tracks, u.1 ≤ t.1.2.2 ∧ t.1.2.2 < u.2) :
    ∃ H pl row, hist3dWeight tracks b c d r s u = .ok H ∧ H[k]? = some pl ∧ pl[l]? = some row ∧
      row[m]? = some ((tracks.filter fun t => decide
        (InBin r b k t.1.1 ∧ InBin s c l t.1.2.1 ∧ InBin u d m t.1.2.2)).map Prod.snd).sum := by
  unfold hist3dWeight
  suffices ∀ (H : List (List (List M))) (pl : List (List M)) (row : List M) (v : M), H[k]? = some pl →
      pl[l]? = some row → row[m]? = some v →
      ∃ H' pl' row', tracks.foldlM (step3 r s u b c d) H = .ok H' ∧ H'[k]? = some pl' ∧ pl'[l]? = some row' ∧
        row'[m]? = some (v + ((tracks.filter fun t => decide
        (InBin r b k t.1.1 ∧ InBin s c l t.1.2.1 ∧ InBin u d m t.1.2.2)).map Prod.snd).sum) by
    have := this (List.replicate b (List.replicate c (List.replicate d 0)))
      (List.replicate c (List.replicate d 0)) (List.replicate d 0) 0 (by simp [hk]) (by simp [hl]) (by simp [hm])
    simpa using this
  induction tracks with
  | nil => intro H pl row v h1 h2 h3; exact ⟨H, pl, row, rfl, h1, h2, by simpa using h3⟩
  | cons t ts ih =>
    intro H pl row v h1 h2 h3
    obtain ⟨H', pl', row', g0, g1, g2, g3⟩ := step3_cell r s u b c d k l m hr hs hu hk hl hm H t
      (hin t (by simp)) pl row v h1 h2 h3
    obtain ⟨H'', pl'', row'', f0, f1, f2, f3⟩ := ih (fun t ht => hin t (by simp [ht])) _ _ _ _ g1 g2 g3
    refine ⟨H'', pl'', row'', ?_, f1, f2, ?_⟩
    · rw [List.foldlM_cons, g0]; exact f0
    · rw [f3, sum_filter_cons (fun t : (K × K × K) × M =>
        InBin r b k t.1.1 ∧ InBin s c l t.1.2.1 ∧ InBin u d m t.1.2.2), add_assoc]

/-- **C70.** The same for histograms without weights: each cell holds the number of its samples. -/
theorem hist3d_bin_partial (tracks : List (K × K × K)) (b c d : Nat) (r s u : K × K)
    (hr : r.1 < r.2) (hs : s.1 < s.2) (hu : u.1 < u.2) (k l m : Nat) (hk : k < b) (hl : l < c) (hm : m < d)
    (hin : ∀ t ∈ tracks, u.1 ≤ t.2.2 ∧ t.2.2 < u.2) :
    ∃ H pl row, hist3d tracks b c d r s u = .ok H ∧ H[k]? = some pl ∧ pl[l]? = some row ∧
      row[m]? = some (tracks.countP fun t => decide (InBin r b k t.1 ∧ InBin s c l t.2.1 ∧ InBin u d m t.2.2)) := by
  obtain ⟨H, pl, row, h0, h1, h2, h3⟩ := hist3d_weight_bin_partial (tracks.map fun x => (x, (1 : Nat))) b c d r s u hr hs hu k l m hk hl hm (by
    intro t ht
    rw [List.mem_map] at ht
    obtain ⟨x, hx, rfl⟩ := ht
    exact hin x hx)
  refine ⟨H, pl, row, h0, h1, h2, ?_⟩
  rw [h3]
  congr 1
  clear h0 h1 h2 h3 hin
  induction tracks with
  | nil => rfl
  | cons x xs ih =>
    rw [List.map_cons, List.filter_cons, List.countP_cons, ← ih]
    split_ifs with h
    · simp [add_comm]
    · simp

/-- **C70 (negation).** A sample *below* the third range is counted in the last bin of that axis instead of
being skipped. -/
theorem hist3d_counts_out_of_range :
    ∃ (x : ℚ × ℚ × ℚ) (u : ℚ × ℚ), x.2.2 < u.1 ∧ u.1 < u.2 ∧
      hist3d [x] 1 1 2 (0, 1) (0, 1) u = .ok [[[0, 1]]] :=
  ⟨(0, 0, -1), (0, 2), by decide +kernel, by decide +kernel, by decide +kernel⟩

/-- **C70 (negation).** A sample *above* the third range makes the call fail. -/
theorem hist3d_fails_out_of_range :
    ∃ (x : ℚ × ℚ × ℚ) (u : ℚ × ℚ), u.2 < x.2.2 ∧ u.1 < u.2 ∧
      hist3d [x] 1 1 2 (0, 1) (0, 1) u = .error .indexError :=
  ⟨(0, 0, 5), (0, 2), by decide +kernel, by decide +kernel, by decide +kernel⟩

example : hist3d (K := ℚ) [(0, 0, 0), (0, 1, 1), (0, 1, 1)] 1 2 2 (0, 1) (0, 2) (0, 2) =
    .ok [[[1, 0], [0, 2]]] := by decide +kernel

/-- **C71 (negation).** With integer-typed samples the histogram array is an integer array, and fractional
weights are rounded towards zero at every addition: two samples of weight 1/2 give 0, not 1. -/
theorem hist1d_weight_int_truncates :
    let store : ℚ → ℚ := fun v => (pyInt v : ℚ)
    ∃ tracks : List (ℚ × ℚ), (∀ t ∈ tracks, store t.1 = t.1) ∧
      hist1dWeight store tracks 1 (0, 2) = [0] ∧
      ((tracks.filter fun t => decide (InBin (0, 2) 1 0 t.1)).map Prod.snd).sum = 1 :=
  ⟨[(0, 1 / 2), (1, 1 / 2)], by decide +kernel, by decide +kernel, by decide +kernel⟩

/-- **C71.** The weighted histogram is right when every weight is a whole number (no rounding takes place).
Missing: fractional weights with integer samples. -/
theorem hist1d_weight_int_partial (tracks : List (K × K)) (b : Nat) (r : K × K) (hr : r.1 < r.2)
    (hw : ∀ t ∈ tracks, ∃ z : Int, t.2 = z) :
    ∀ k < b, (hist1dWeight (fun v => (pyInt v : K)) tracks b r)[k]? =
      some ((tracks.filter fun t => decide (InBin r b k t.1)).map Prod.snd).sum := by
  intro k hk
  rw [← (hist1d_weight_bin tracks b r hr).2 k hk]
  congr 1
  unfold hist1dWeight
  have hint : ∀ z : Int, ((pyInt (z : K) : Int) : K) = z := by
    intro z; unfold pyInt; split_ifs <;> simp
  suffices ∀ H : List K, (∀ v ∈ H, ∃ z : Int, v = z) →
      tracks.foldl (step1 (fun v => (pyInt v : K)) r b) H = tracks.foldl (step1 id r b) H by
    apply this
    intro v hv
    exact ⟨0, by rw [List.eq_of_mem_replicate hv]; simp⟩
  induction tracks with
  | nil => intro H _; rfl
  | cons t ts ih =>
    intro H hH
    have heq : step1 (fun v => (pyInt v : K)) r b H t = step1 id r b H t := by
      unfold step1
      simp only [id]
      split_ifs with h
      · obtain ⟨zt, hzt⟩ := hw t (by simp)
        apply List.ext_getElem?
        intro i
        rw [List.getElem?_modify, List.getElem?_modify]
        rcases hi : H[i]? with _ | v
        · rfl
        · obtain ⟨z, hz⟩ := hH v (List.mem_of_getElem? hi)
          split_ifs
          · simp only [Option.map_eq_map, Option.map_some, hz, hzt]
            rw [← Int.cast_add, hint]
          · rfl
      · rfl
    have hH' : ∀ v ∈ step1 id r b H t, ∃ z : Int, v = z := by
      intro v hv
      unfold step1 at hv
      simp only [id] at hv
      split_ifs at hv with h
      · obtain ⟨i, hi⟩ := List.mem_iff_getElem?.1 hv
        rw [List.getElem?_modify] at hi
        rcases hi' : H[i]? with _ | w
        · rw [hi'] at hi; simp at hi
        · rw [hi'] at hi
          obtain ⟨z, hz⟩ := hH w (List.mem_of_getElem? hi')
          obtain ⟨zt, hzt⟩ := hw t (by simp)
          simp only [Option.map_eq_map, Option.map_some, Option.some.injEq] at hi
          split_ifs at hi
          · exact ⟨z + zt, by rw [← hi, hz, hzt]; push_cast; ring⟩
          · exact ⟨z, by rw [← hi, hz]⟩
      · exact hH v hv
    rw [List.foldl_cons, List.foldl_cons, heq]
    exact ih (fun t ht => hw t (by simp [ht])) _ hH'

example : hist1dWeight (K := ℚ) (fun v => (pyInt v : ℚ)) [(0, 2), (1, 3), (1, 1)] 2 (0, 2) = [2, 4] := by
  decide +kernel

/-! ### `compute_bin` -/

/-- **C72 (negation).** A value below the first edge, by less than one bin, is put in bin 0 instead of being
reported as outside. -/
theorem compute_bin_below_first_edge :
    ∃ (x : ℚ) (edges : List ℚ), (∀ e ∈ edges, x < e) ∧ computeBin x edges = some 0 :=
  ⟨-1 / 2, [0, 1, 2], by decide +kernel, by decide +kernel⟩

/-- **C72.** For uniform edges `lo, lo + w, ..., lo + n w` and `x` not below `lo`, `compute_bin` returns `k` exactly
when `x` is in the `k`-th bin, closed below, open above except for the last one; outside it returns `None`.
Missing: `lo - w < x < lo`, where bin 0 is returned. -/
theorem compute_bin_iff_partial (x lo w : K) (n : Nat) (hw : 0 < w) (hn : 0 < n) (hx : lo ≤ x) :
    let edges := (List.range (n + 1)).map fun i : Nat => lo + (i : K) * w
    (∀ k : Nat, computeBin x edges = some (k : Int) ↔
      k < n ∧ ((lo + (k : K) * w ≤ x ∧ x < lo + ((k : K) + 1) * w) ∨ (k + 1 = n ∧ x = lo + (n : K) * w))) ∧
    (computeBin x edges = none ↔ lo + (n : K) * w < x) := by
  intro edges
  have hhead : edges.headD 0 = lo := by
    simp only [edges, List.range_succ_eq_map, List.map_cons]; simp
  have hlast : edges.getLastD 0 = lo + (n : K) * w := by
    simp only [edges, List.range_succ, List.map_append, List.map_cons, List.map_nil]
    rw [List.getLastD_eq_getLast?]; simp
  have hlen : edges.length - 1 = n := by simp [edges]
  have hnK : (0 : K) < n := by exact_mod_cast hn
  have hq : (n : K) * (x - lo) / (lo + (n : K) * w - lo) = (x - lo) / w := by
    field_simp; ring
  have hq0 : 0 ≤ (x - lo) / w := div_nonneg (by linarith) hw.le
  have hdef : computeBin x edges = if x = lo + (n : K) * w then some ((n : Int) - 1) else
      if ⌊(x - lo) / w⌋ < 0 ∨ ⌊(x - lo) / w⌋ ≥ n then none else some ⌊(x - lo) / w⌋ := by
    unfold computeBin
    simp only [hhead, hlast, hlen, hq, pyInt, if_pos hq0]
  have hfn : 0 ≤ ⌊(x - lo) / w⌋ := Int.floor_nonneg.2 hq0
  have hge : ⌊(x - lo) / w⌋ ≥ (n : Int) ↔ lo + (n : K) * w ≤ x := by
    rw [ge_iff_le, Int.le_floor, le_div_iff₀ hw]
    push_cast
    constructor <;> intro h <;> linarith
  have hk : ∀ k : Nat, ⌊(x - lo) / w⌋ = (k : Int) ↔ (lo + (k : K) * w ≤ x ∧ x < lo + ((k : K) + 1) * w) := by
    intro k
    rw [Int.floor_eq_iff, le_div_iff₀ hw, div_lt_iff₀ hw]
    push_cast
    constructor <;> rintro ⟨h1, h2⟩ <;> constructor <;> linarith
  rw [hdef]
  by_cases hxe : x = lo + (n : K) * w
  · simp only [if_pos hxe]
    constructor
    · intro k
      rw [Option.some.injEq]
      constructor
      · intro h
        have : k + 1 = n := by omega
        exact ⟨by omega, Or.inr ⟨this, hxe⟩⟩
      · rintro ⟨h1, h2 | h2⟩
        · exfalso
          have h3 : (k : K) + 1 ≤ n := by exact_mod_cast h1
          have := mul_le_mul_of_nonneg_right h3 hw.le
          linarith [h2.2]
        · omega
    · simp only [reduceCtorEq, false_iff, not_lt]; exact hxe.le
  · simp only [if_neg hxe]
    by_cases hxn : lo + (n : K) * w ≤ x
    · have hlt : lo + (n : K) * w < x := lt_of_le_of_ne hxn (Ne.symm hxe)
      rw [if_pos (Or.inr (hge.2 hxn))]
      constructor
      · intro k
        simp only [reduceCtorEq, false_iff]
        rintro ⟨h1, h2 | h2⟩
        · have h3 : (k : K) + 1 ≤ n := by exact_mod_cast h1
          have := mul_le_mul_of_nonneg_right h3 hw.le
          linarith [h2.2]
        · exact hxe h2.2
      · simp [hlt]
    · have hnot : ¬ (⌊(x - lo) / w⌋ < 0 ∨ ⌊(x - lo) / w⌋ ≥ (n : Int)) := by
        rintro (h | h)
        · omega
        · exact hxn (hge.1 h)
      rw [if_neg hnot]
      constructor
      · intro k
        rw [Option.some.injEq, hk k]
        constructor
        · intro h
          refine ⟨?_, Or.inl h⟩
          have h3 := (hk k).2 h
          by_contra hc
          exact hnot (Or.inr (by rw [h3]; push_cast; omega))
        · rintro ⟨h1, h2 | h2⟩
          · exact h2
          · exact absurd h2.2 hxe
      · simp only [reduceCtorEq, false_iff, not_lt]; exact (not_le.1 hxn).le

example : (computeBin (K := ℚ) 0 [0, 1, 2], computeBin (K := ℚ) 2 [0, 1, 2], computeBin (K := ℚ) 3 [0, 1, 2]) =
    (some 0, some 1, none) := by decide +kernel

end Stingray.Hist

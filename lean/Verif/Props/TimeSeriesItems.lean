import Verif.Props.TimeSeries
import Verif.Props.GtiSegments
import Verif.Props.GtiCross

/-!
# Properties C31, C32: indexing and splitting time series
-/

namespace Stingray.TimeSeries

open Stingray.Gti Stingray.Spec

variable {K V : Type} [Field K] [LinearOrder K] [IsStrictOrderedRing K]

/-! ### Indexing (C31) -/

theorem sliceIdx_pos (n : Nat) (a b c : Int) (hc : 0 < c) :
    sliceIdx n a b c =
      (List.range (if clipBound n a < clipBound n b then
          ((clipBound n b - clipBound n a - 1) / c + 1).toNat else 0)).map
        (fun (k : Nat) => (clipBound n a + c * k).toNat) := by
  have hc' : ¬ c < 0 := by omega
  have clip : ∀ x : Int, (if (if x < 0 then x + n else x) < 0 then 0
      else if (n : Int) ≤ (if x < 0 then x + n else x) then (n : Int)
      else (if x < 0 then x + n else x)) = clipBound n x := by
    intro x
    unfold clipBound
    split_ifs <;> omega
  unfold sliceIdx
  simp only [hc', if_false]
  simp only [clip]

theorem sliceIdx_spec (n : Nat) (a b c : Int) (hc : 0 < c) :
    (sliceIdx n a b c).Pairwise (· < ·) ∧
    ∀ i : Nat, i ∈ sliceIdx n a b c ↔
      clipBound n a ≤ i ∧ (i : Int) < clipBound n b ∧ c ∣ ((i : Int) - clipBound n a) := by
  rw [sliceIdx_pos n a b c hc]
  have h0 : 0 ≤ clipBound n a := by unfold clipBound; omega
  constructor
  · rw [List.pairwise_map]
    refine List.pairwise_lt_range.imp ?_
    intro k l hkl
    have : c * k < c * l := by
      apply Int.mul_lt_mul_of_pos_left _ hc; omega
    have h3 : 0 ≤ c * (k : Int) := by positivity
    omega
  · intro i
    simp only [List.mem_map, List.mem_range]
    constructor
    · rintro ⟨k, hk, hki⟩
      split_ifs at hk with hab
      · have h3 : 0 ≤ c * (k : Int) := by positivity
        have hi : (i : Int) = clipBound n a + c * k := by omega
        have hk2 : (k : Int) ≤ (clipBound n b - clipBound n a - 1) / c := by omega
        have := (Int.le_ediv_iff_mul_le hc).1 hk2
        rw [mul_comm] at this
        refine ⟨by omega, by omega, ?_⟩
        rw [hi]
        exact ⟨k, by ring⟩
      · omega
    · rintro ⟨h1, h2, k, hk⟩
      have hkc : 0 ≤ c * k := by omega
      have hk0 : 0 ≤ k := by
        by_contra hneg
        have : c * k < 0 := Int.mul_neg_of_pos_of_neg hc (by omega)
        omega
      refine ⟨k.toNat, ?_, ?_⟩
      · rw [if_pos (by omega)]
        have : k ≤ (clipBound n b - clipBound n a - 1) / c := by
          rw [Int.le_ediv_iff_mul_le hc, mul_comm]; omega
        omega
      · rw [Int.toNat_of_nonneg hk0]
        omega

/-- **C31 (slices, partial).** `ts[a:b:c]` with a positive or absent step holds exactly the rows Python slicing
selects: the positions from `a` (default 0) up to but excluding `b` (default the length), negative bounds counting from the end, in
steps of `c` (default 1), in increasing order.  Missing: negative steps with default bounds, for which it is false
(`getitem_reversed_fails`). -/
theorem getitem_slice_partial (s new : TS K V) (a b c : Option Int) (hs : Aligned s)
    (hc : ∀ x, c = some x → 0 < x) (h : objGetItem s (.slice a b c) = .ok new) :
    ∃ idx : List Nat, idx.Pairwise (· < ·) ∧
      (∀ i : Nat, i ∈ idx ↔ clipBound s.time.length (a.getD 0) ≤ i ∧
        (i : Int) < clipBound s.time.length (b.getD s.time.length) ∧
        c.getD 1 ∣ ((i : Int) - clipBound s.time.length (a.getD 0))) ∧
      Rows idx s.time new.time ∧
      List.Forall₂ (fun old x => old.1 = x.1 ∧ Rows idx old.2 x.2) s.attrs new.attrs := by
  have hc1 : 0 < c.getD 1 := by
    cases c with
    | none => simp
    | some x => simpa using hc x rfl
  obtain ⟨h1, h2⟩ := sliceIdx_spec s.time.length (a.getD 0) (b.getD s.time.length) (c.getD 1) hc1
  have hlt : ∀ i ∈ sliceIdx s.time.length (a.getD 0) (b.getD s.time.length) (c.getD 1),
      i < s.time.length := by
    intro i hi
    have := ((h2 i).1 hi).2.1
    unfold clipBound at this
    omega
  unfold objGetItem at h
  simp only [ne_of_gt hc1, if_false] at h
  cases h
  refine ⟨_, h1, h2, rows_filterMap _ _ hlt, ?_⟩
  simp only [List.forall₂_map_right_iff, List.forall₂_same]
  intro x hx
  exact ⟨trivial, rows_filterMap _ _ (by rw [hs.1 x hx]; exact hlt)⟩

/-- **C31 (integers, partial).** `ts[i]` holds exactly row `i`, or row `n + i` for negative `i`.  Missing: `i = -1`, for which it is false
(`getitem_minus_one_fails`). -/
theorem getitem_int_partial (s : TS K V) (i : Int) (p : Nat) (hs : Aligned s) (hi : i ≠ -1)
    (hp : (p : Int) = if i < 0 then i + s.time.length else i) (hpn : p < s.time.length) :
    ∃ new, objGetItem s (.int i) = .ok new ∧ Rows [p] s.time new.time ∧
      List.Forall₂ (fun old x => old.1 = x.1 ∧ Rows [p] old.2 x.2) s.attrs new.attrs := by
  have e : sliceIdx s.time.length i (i + 1) 1 = [p] := by
    rw [sliceIdx_pos _ _ _ _ one_pos]
    have h1 : clipBound s.time.length i = p := by
      unfold clipBound; split_ifs at * <;> omega
    have h2 : clipBound s.time.length (i + 1) = p + 1 := by
      unfold clipBound; split_ifs at * <;> omega
    rw [h1, h2]
    have : (if (p : Int) < p + 1 then (((p : Int) + 1 - p - 1) / 1 + 1).toNat else 0) = 1 := by
      rw [if_pos (by omega)]; simp
    rw [this]
    simp
  unfold objGetItem
  simp only [one_ne_zero, if_false, e]
  refine ⟨_, rfl, rows_filterMap _ _ (by simpa using hpn), ?_⟩
  simp only [List.forall₂_map_right_iff, List.forall₂_same]
  intro x hx
  exact ⟨trivial, rows_filterMap _ _ (by rw [hs.1 x hx]; simpa using hpn)⟩

/-- **C31 (time series).** Indexing a time series, when it succeeds, gives the rows of the plain indexing above; only the GTIs are
new, and they are the intersection routine applied to the GTIs and the selected span. -/
theorem getitem_rows (order : KeySort (fun (x : (K × K) × Bool) => x.1.2)) (s r : TS K V) (i : Index)
    (h : getItem order s i = .ok r) :
    ∃ new, objGetItem s i = .ok new ∧ r.time = new.time ∧ r.attrs = new.attrs ∧ r.mask = none ∧
      r.time ≠ [] ∧ r.mjdref = new.mjdref ∧ r.dt = new.dt := by
  unfold getItem at h
  simp only [bind, Except.bind, pure, Except.pure] at h
  cases ho : objGetItem s i with
  | error e => rw [ho] at h; cases h
  | ok new =>
    rw [ho] at h
    simp only at h
    refine ⟨new, rfl, ?_⟩
    split at h
    · next t0 t1 g h1 h2 h3 =>
      have hne : new.time ≠ [] := by intro e; rw [e] at h1; cases h1
      split_ifs at h
      · split at h
        · cases h
        · split at h
          · cases h
          · cases h; exact ⟨rfl, rfl, rfl, hne, rfl, rfl⟩
      · split at h
        · cases h
        · cases h; exact ⟨rfl, rfl, rfl, hne, rfl, rfl⟩
    · cases h

/-- **C31 (time series, integers).** For bins of positive width well inside the GTIs (no GTI border touches the bin), `ts[i]`
succeeds, and its GTI is the part of the bin inside the GTIs of the series. -/
theorem getitem_int_gti (order : KeySort (fun (x : (K × K) × Bool) => x.1.2)) (s : TS K V) (i : Int)
    (p : Nat) (t : K) (g : List (K × K)) (hs : Aligned s) (hi : i ≠ -1)
    (hp : (p : Int) = if i < 0 then i + s.time.length else i) (ht : s.time[p]? = some t)
    (hd : 0 < s.dt) (hg : (gtiGet s).1 = some g) (hgok : checkGtis g = .ok ())
    (hgp : ∀ x ∈ g, x.1 < x.2) (hnt : NoTouch g [(t - s.dt / 2, t + s.dt / 2)]) :
    ∃ r gti, getItem order s (.int i) = .ok r ∧ r.time = [t] ∧ r.gti = some gti ∧
      ∀ x, Covers gti x ↔ Covers g x ∧ t - s.dt / 2 ≤ x ∧ x ≤ t + s.dt / 2 := by
  have hpn : p < s.time.length := (List.getElem?_eq_some_iff.1 ht).1
  obtain ⟨new, hnew, hrow, -⟩ := getitem_int_partial s i p hs hi hp hpn
  have htime : new.time = [t] := by
    apply rows_unique hrow
    exact List.Forall₂.cons ht List.Forall₂.nil
  have hb : t - s.dt / 2 < t + s.dt / 2 := by linarith
  obtain ⟨out, hout, hcov, -, -⟩ := cross_two_gtis_exact_partial order g
    [(t - s.dt / 2, t + s.dt / 2)] hgok
    (checkGtis_of_wf (by simp) ⟨by simpa using hb.le, by simp⟩) hgp (by simpa using hb) hnt
  refine ⟨setGti new (some out), out, ?_, by simp [setGti, htime], rfl, ?_⟩
  · unfold getItem
    simp only [hnew, bind, Except.bind, pure, Except.pure, htime, List.head?_cons, hg]
    simp only [List.getLast?_singleton]
    have : ¬ ((1 : Int) < 1 ∧ 0 < s.dt) := by omega
    simp only [this, if_false, hout]
  · intro x
    rw [hcov]
    simp [Covers]

example : getItem (stableSort _) (⟨[1, 2, 3, 4], [("x", [10, 20, 30, 40])], some [(0, 11/4), (13/4, 6)], none, 0, 1⟩ :
      TS ℚ ℚ) (.int (-2)) = .ok ⟨[3], [("x", [30])], some [(5/2, 11/4), (13/4, 7/2)], none, 0, 1⟩ ∧
    getItem (stableSort _) (⟨[1, 2, 3, 4], [("x", [10, 20, 30, 40])], some [(0, 11/4), (13/4, 6)], none, 0, 1⟩ :
      TS ℚ ℚ) (.slice (some 1) none (some 2)) =
      .ok ⟨[2, 4], [("x", [20, 40])], some [(3/2, 5/2), (7/2, 9/2)], none, 0, 1⟩ := by decide +kernel

theorem objGetItem_empty (s : TS K V) (a b c : Int) (h : sliceIdx s.time.length a b c = []) (hc : c ≠ 0) :
    objGetItem s (.slice (some a) (some b) (some c)) = .ok { (gtiGet s).2 with
      time := [], attrs := s.attrs.map (fun x => (x.1, [])), mask := none } := by
  unfold objGetItem
  simp [h, hc]

/-- **C31 (negation).** `ts[-1]` never works: the plain object is empty, and a time series raises `TypeError`, whatever the
series. -/
theorem getitem_minus_one_fails (order : KeySort (fun (x : (K × K) × Bool) => x.1.2)) (s : TS K V) :
    (∃ new, objGetItem s (.int (-1)) = .ok new ∧ new.time = []) ∧
    getItem order s (.int (-1)) = .error .typeError := by
  have e : sliceIdx s.time.length (-1) (-1 + 1) 1 = [] := by
    rw [sliceIdx_pos _ _ _ _ one_pos, if_neg]
    · rfl
    · unfold clipBound; omega
  constructor
  · refine ⟨_, by unfold objGetItem; simp only [one_ne_zero, if_false]; rfl, ?_⟩
    rw [e]; rfl
  · unfold getItem objGetItem
    simp only [one_ne_zero, if_false, e, bind, Except.bind, List.filterMap_nil, List.head?_nil]

/-- **C31 (negation).** `ts[::-1]` never works either. -/
theorem getitem_reversed_fails (order : KeySort (fun (x : (K × K) × Bool) => x.1.2)) (s : TS K V) :
    (∃ new, objGetItem s (.slice none none (some (-1))) = .ok new ∧ new.time = []) ∧
    getItem order s (.slice none none (some (-1))) = .error .typeError := by
  have e : sliceIdx s.time.length 0 s.time.length (-1) = [] := by
    unfold sliceIdx
    have : ∀ x, ¬ x < x := fun x : Int => lt_irrefl x
    by_cases h0 : s.time.length = 0
    · simp [h0]
    · have hn : ¬ ((s.time.length : Int) ≤ 0) := by omega
      have hn' : ¬ ((s.time.length : Int) < 0) := by omega
      have hn2 : ¬ ((s.time.length : Int) - 1 < 0) := by omega
      simp [hn', hn2, h0]
  have hne : (-1 : Int) ≠ 0 := by decide
  constructor
  · refine ⟨_, by unfold objGetItem; simp only [Option.getD_some, Option.getD_none, hne, if_false]; rfl, ?_⟩
    rw [e]; rfl
  · unfold getItem objGetItem
    simp only [Option.getD_some, Option.getD_none, hne, if_false, e, bind, Except.bind,
      List.filterMap_nil, List.head?_nil]

/-! ### Splitting (C32) -/

theorem mem_truePositions (m : List Bool) (i : Nat) : i ∈ truePositions m ↔ m[i]? = some true := by
  unfold truePositions
  rw [List.mem_filter, List.mem_range, beq_iff_eq]
  constructor
  · exact fun h => h.2
  · intro h
    exact ⟨(List.getElem?_eq_some_iff.1 h).1, h⟩

theorem truePositions_sorted (m : List Bool) : (truePositions m).Pairwise (· < ·) :=
  List.Pairwise.filter _ List.pairwise_lt_range

theorem count_range (l : List K) (P : K → Prop) [DecidablePred P] (a b : Nat) (hb : b ≤ l.length)
    (h : ∀ (i : Nat) (t : K), l[i]? = some t → ((a ≤ i ∧ i < b) ↔ P t)) :
    (l.filter (fun t => decide (P t))).length = b - a := by
  induction l generalizing a b with
  | nil => simp at hb; simp [hb]
  | cons x l ih =>
    have h0 := h 0 x rfl
    have ht := ih (a - 1) (b - 1) (by simp at hb; omega) (by
      intro i t hit
      rw [← h (i + 1) t hit]
      omega)
    rw [List.filter_cons]
    by_cases hx : P x
    · have := h0.2 hx
      simp only [hx, decide_true, if_true, List.length_cons, ht]
      omega
    · have : ¬ (a ≤ 0 ∧ 0 < b) := fun hh => hx (h0.1 hh)
      simp only [hx, decide_false, Bool.false_eq_true, if_false, ht]
      omega

theorem gtiBorderBinsOne_le (time : List K) (g0 g1 : K) (r : Nat × Nat)
    (h : gtiBorderBinsOne time g0 g1 = .ok r) : r.2 ≤ time.length := by
  unfold gtiBorderBinsOne at h
  simp only at h
  split at h
  · cases h
    simp only
    split_ifs <;> omega
  · cases h

theorem zip_filter_fst {α β : Type} {R : α → β → Prop} {l : List α} {r : List β}
    (p : α × β → Bool) (q : α → Bool) (h : List.Forall₂ R l r) (hpq : ∀ a b, R a b → p (a, b) = q a) :
    ((l.zip r).filter p).map Prod.fst = l.filter q := by
  induction h with
  | nil => rfl
  | cons hab _ ih =>
    rw [List.zip_cons_cons, List.filter_cons, List.filter_cons, hpq _ _ hab]
    split_ifs <;> simp [ih]

theorem splitPiece_spec (median : List K → K) (eps : K) (he : 0 ≤ eps) (s piece : TS K V) (g : K × K)
    (hs : Aligned s) (hsort : s.time.Pairwise (· ≤ ·)) (hg : g.1 ≤ g.2) (hd : 0 ≤ median s.time)
    (h : splitPiece median eps s g = .ok piece) :
    piece.gti = some [g] ∧ ∃ idx : List Nat, idx.Pairwise (· < ·) ∧
      (∀ i, i ∈ idx ↔ ∃ t, s.time[i]? = some t ∧
        BinInside g.1 g.2 t (median s.time) (eps * median s.time)) ∧
      Rows idx s.time piece.time ∧
      List.Forall₂ (fun old a => old.1 = a.1 ∧ Rows idx old.2 a.2) s.attrs piece.attrs := by
  simp only [splitPiece, bind, Except.bind, pure, Except.pure] at h
  by_cases hne : s.time = []
  · unfold createGtiMask at h
    simp only [hne] at h
    cases h
  obtain ⟨m, hm, hex⟩ := createGtiMask_single median s.time g none eps hne hsort hg
    (by simpa using hd) he
  rw [hm] at h
  simp only at h
  cases ha : applyMask s m false none with
  | error e => rw [ha] at h; cases h
  | ok p =>
    obtain ⟨n1, s1⟩ := p
    rw [ha] at h
    cases h
    have hr := apply_mask_rows s n1 s1 m false none hs ha
    refine ⟨rfl, truePositions m, truePositions_sorted m, ?_, hr.1, ?_⟩
    · intro i
      rw [mem_truePositions]
      constructor
      · intro hi
        have hil : i < m.length := (List.getElem?_eq_some_iff.1 hi).1
        have hil' : i < s.time.length := by rw [hex.length_eq]; exact hil
        refine ⟨s.time[i], List.getElem?_eq_getElem hil', ?_⟩
        have := (List.forall₂_iff_get.1 hex).2 i hil' hil
        simp only [List.get_eq_getElem, Option.getD_none] at this
        exact this.1 (List.getElem?_eq_some_iff.1 hi).2
      · rintro ⟨t, ht, hb⟩
        obtain ⟨hil', htt⟩ := List.getElem?_eq_some_iff.1 ht
        have hil : i < m.length := by rw [← hex.length_eq]; exact hil'
        have := (List.forall₂_iff_get.1 hex).2 i hil' hil
        simp only [List.get_eq_getElem, Option.getD_none, htt] at this
        rw [List.getElem?_eq_getElem hil, this.2 hb]
    · have e : s.attrs.filter (fun a => decide ((none : Option (List String)) = none ∨
          ∃ l, (none : Option (List String)) = some l ∧ a.1 ∈ l)) = s.attrs := by simp
      have h2 := hr.2.1
      rw [e] at h2
      exact h2

/-- **C32 (partial).** For time-ordered samples and valid GTIs, `split_by_gti` returns one series for each GTI that contains at least
`min_points` whole bins, in order; the series of a GTI has that GTI alone and exactly the rows whose bin, *taken to
be as wide as the median spacing of the samples*, is inside it.  Missing: that width is not the bin size of the series; for
event lists (bin size 0) events inside the GTI are lost (`split_by_gti_loses_events`). -/
theorem split_by_gti_partial (median : List K → K) (eps : K) (he : 0 ≤ eps) (s : TS K V)
    (g : List (K × K)) (minPoints : Nat) (hmp : 1 ≤ minPoints) (pieces : List (TS K V))
    (hs : Aligned s) (hsort : s.time.Pairwise (· < ·)) (hg : checkGtis g = .ok ())
    (hd : 0 ≤ median s.time)
    (h : splitByGti median eps s (some g) minPoints = .ok pieces) :
    List.Forall₂ (fun x piece => piece.gti = some [x] ∧
      ∃ idx : List Nat, idx.Pairwise (· < ·) ∧
        (∀ i, i ∈ idx ↔ ∃ t, s.time[i]? = some t ∧
          BinInside x.1 x.2 t (median s.time) (eps * median s.time)) ∧
        Rows idx s.time piece.time ∧
        List.Forall₂ (fun old a => old.1 = a.1 ∧ Rows idx old.2 a.2) s.attrs piece.attrs)
      (g.filter (fun x => decide (minPoints ≤ (s.time.filter (fun t =>
        decide (x.1 - eps * s.dt ≤ t - s.dt / 2 ∧ t + s.dt / 2 ≤ x.2 + eps * s.dt))).length)))
      pieces := by
  obtain ⟨-, hwf⟩ := (checkGtis_ok_iff g).1 hg
  simp only [splitByGti, bind, Except.bind] at h
  cases hb : gtiBorderBins g s.time s.dt eps with
  | error e => rw [hb] at h; cases h
  | ok bins =>
    rw [hb] at h
    simp only at h
    have hex := gti_border_bins_exact g s.time s.dt eps hsort bins hb
    have hle : List.Forall₂ (fun _ (r : Nat × Nat) => r.2 ≤ s.time.length) g bins := by
      unfold gtiBorderBins at hb
      split at hb
      · split_ifs at hb
        refine (mapM_ok_forall2 _ _ _ hb).imp ?_
        intro x r hr
        exact gtiBorderBinsOne_le _ _ _ _ hr
      · cases hb
    have hboth : List.Forall₂ (fun (x : K × K) (r : Nat × Nat) => (∀ (i : Nat) (t : K), s.time[i]? = some t →
        ((r.1 ≤ i ∧ i < r.2) ↔ BinInside x.1 x.2 t s.dt (eps * s.dt))) ∧ r.2 ≤ s.time.length) g bins := by
      clear hb h hwf hg
      induction hex with
      | nil => exact List.Forall₂.nil
      | cons h1 _ ih =>
        cases hle with
        | cons h2 h3 => exact List.Forall₂.cons ⟨h1, h2⟩ (ih h3)
    have hfil := zip_filter_fst
      (fun p : (K × K) × (Nat × Nat) => decide ((minPoints : Int) ≤ (p.2.2 : Int) - (p.2.1 : Int)))
      (fun x => decide (minPoints ≤ (s.time.filter (fun t =>
        decide (x.1 - eps * s.dt ≤ t - s.dt / 2 ∧ t + s.dt / 2 ≤ x.2 + eps * s.dt))).length))
      hboth (by
        intro x r ⟨h1, h2⟩
        have := count_range s.time (fun t => x.1 - eps * s.dt ≤ t - s.dt / 2 ∧
          t + s.dt / 2 ≤ x.2 + eps * s.dt) r.1 r.2 h2 h1
        rw [this, decide_eq_decide]
        dsimp only
        omega)
    rw [← hfil, List.forall₂_map_left_iff]
    have hm := mapM_ok_forall2 _ _ _ h
    have hmem : ∀ p ∈ (g.zip bins).filter (fun p : (K × K) × (Nat × Nat) =>
        decide ((minPoints : Int) ≤ (p.2.2 : Int) - (p.2.1 : Int))), p.1 ∈ g :=
      fun p hp => (List.of_mem_zip (List.mem_filter.1 hp).1).1
    revert hmem hm
    generalize (g.zip bins).filter (fun p : (K × K) × (Nat × Nat) =>
        decide ((minPoints : Int) ≤ (p.2.2 : Int) - (p.2.1 : Int))) = L
    intro hm hmem
    clear h hfil
    induction hm with
    | nil => exact List.Forall₂.nil
    | cons h1 _ ih =>
      refine List.Forall₂.cons ?_ (ih fun p hp => hmem p (List.mem_cons_of_mem _ hp))
      exact splitPiece_spec median eps he s _ _ hs (hsort.imp le_of_lt) (hwf.1 _ (hmem _ (by simp)))
        hd h1

/-- **C32 (no doubling).** With bins of positive width no row can be in two pieces: a bin cannot be inside two GTIs. -/
theorem split_no_doubling (x y : K × K) (t d eps : K) (hd : 0 < d) (he : eps < 1 / 2) (hxy : x.2 ≤ y.1)
    (hx : BinInside x.1 x.2 t d (eps * d)) : ¬ BinInside y.1 y.2 t d (eps * d) := by
  intro hy
  have := mul_lt_mul_of_pos_right he hd
  unfold BinInside at *
  linarith [hx.2, hy.1]

example : splitByGti (fun _ => 1) (1/1000) (⟨[1, 2, 3, 4, 5, 6], [("x", [1, 2, 3, 4, 5, 6])], none, none, 0, 1⟩ : TS ℚ ℚ)
      (some [(1/2, 5/2), (5/2, 7/2), (7/2, 13/2)]) 2 =
    .ok [⟨[1, 2], [("x", [1, 2])], some [(1/2, 5/2)], none, 0, 1⟩,
      ⟨[4, 5, 6], [("x", [4, 5, 6])], some [(7/2, 13/2)], none, 0, 1⟩] := by decide +kernel

/-- **C32 (negation).** An event list (bin size 0) loses events that are inside the GTI: here both the first and the last of four. -/
theorem split_by_gti_loses_events :
    ∃ (s piece : TS ℚ ℚ) (g : ℚ × ℚ), s.dt = 0 ∧ (∀ t ∈ s.time, g.1 < t ∧ t < g.2) ∧
      -- `fun _ => 1` is the median spacing of these four events
      splitByGti (fun _ => 1) (1/1000) s (some [g]) 2 = .ok [piece] ∧
      s.time = [1, 2, 3, 4] ∧ piece.time = [2, 3] := by
  refine ⟨⟨[1, 2, 3, 4], [("x", [1, 2, 3, 4])], none, none, 0, 0⟩,
    ⟨[2, 3], [("x", [2, 3])], some [(9/10, 41/10)], none, 0, 0⟩, (9/10, 41/10), ?_⟩
  decide +kernel

end Stingray.TimeSeries

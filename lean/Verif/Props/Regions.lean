import Verif.Lemmas.Regions
import Verif.Spec.Runs
import Verif.Spec.Intervals
import Mathlib.Algebra.Order.Ring.Rat
import Mathlib.Tactic.NormNum

/-!
# Properties C11, C12: runs of a boolean array and the GTIs made from them
-/

namespace Stingray.Gti

open Stingray.Spec

/-- **C12.** For every non-empty boolean array, `contiguous_regions` returns, in increasing order,
half-open index ranges separated by at least one index, such that index `j` is in one of them
exactly when `condition[j]` is true. -/
theorem contiguous_regions_spec (c : List Bool) (hne : c ≠ []) :
    ∃ R, contiguousRegions c = .ok R ∧
      (∀ j, (∃ r ∈ R, r.1 ≤ j ∧ j < r.2) ↔ c[j]? = some true) ∧
      (∀ r ∈ R, r.1 < r.2 ∧ r.2 ≤ c.length) ∧ R.Pairwise (fun r q => r.2 < q.1) := by
  obtain ⟨R, h1, h2, h3, h4⟩ := (edges_spec c 0).1
  refine ⟨R, by rw [contiguousRegions_eq c hne, h1], ?_, ?_, h4⟩
  · intro j; rw [h2 j]; simp
  · intro r hr; have := h3 r hr; omega

/-- **C12.** The returned ranges are exactly the maximal runs of true. -/
theorem contiguous_regions_maximal_runs (c : List Bool) (R : List (Nat × Nat))
    (h : contiguousRegions c = .ok R) (a b : Nat) : (a, b) ∈ R ↔ MaximalRun c a b := by
  have hne : c ≠ [] := by rintro rfl; simp [contiguousRegions] at h
  obtain ⟨R', e, h2, h3, h4⟩ := contiguous_regions_spec c hne
  rw [h] at e; cases e
  have hlt : ∀ i, c[i]? ≠ none ↔ i < c.length := by
    intro i; simp
  have hfalse : ∀ i, i < c.length → ¬ (∃ r ∈ R, r.1 ≤ i ∧ i < r.2) → c[i]? = some false := by
    intro i hi hno
    rw [h2 i] at hno
    rw [List.getElem?_eq_getElem hi] at hno ⊢
    cases hc : c[i]
    · rfl
    · rw [hc] at hno; exact absurd rfl hno
  have hsep : ∀ r ∈ R, ∀ q ∈ R, r = q ∨ r.2 < q.1 ∨ q.2 < r.1 := by
    intro r hr q hq
    exact List.Pairwise.forall_of_forall_of_flip
      (R := fun (r q : Nat × Nat) => r = q ∨ r.2 < q.1 ∨ q.2 < r.1)
      (fun x _ => Or.inl rfl) (h4.imp fun h => Or.inr (Or.inl h))
      (h4.imp fun h => Or.inr (Or.inr h)) hr hq
  constructor
  · intro hm
    have hb := h3 _ hm
    refine ⟨hb.1, fun i h1 h2' => (h2 i).1 ⟨_, hm, h1, h2'⟩, ?_, ?_⟩
    · intro i hi
      apply hfalse i (by simp at hb; omega)
      rintro ⟨r, hr, h5, h6⟩
      rcases hsep _ hm r hr with h | h | h
      · subst h; simp at h5; omega
      · simp at h; omega
      · simp at h; omega
    · intro hbl
      apply hfalse b hbl
      rintro ⟨r, hr, h5, h6⟩
      rcases hsep _ hm r hr with h | h | h
      · subst h; simp at h6
      · simp at h; omega
      · simp at h hb; omega
  · rintro ⟨hab, hall, hbef, haft⟩
    obtain ⟨r, hr, h5, h6⟩ := (h2 a).2 (hall a le_rfl hab)
    have h7 : r.1 = a := by
      by_contra hcon
      have h8 := hbef (a - 1) (by omega)
      have h9 := (h2 (a - 1)).1 ⟨r, hr, by omega, by omega⟩
      rw [h8] at h9; simp at h9
    have h10 : r.2 = b := by
      rcases Nat.lt_trichotomy r.2 b with h | h | h
      · obtain ⟨q, hq, h11, h12⟩ := (h2 r.2).2 (hall r.2 (by omega) h)
        rcases hsep r hr q hq with h' | h' | h'
        · subst h'; omega
        · omega
        · have := h3 q hq; have := h3 r hr; omega
      · exact h
      · have := (h2 b).1 ⟨r, hr, by omega, h⟩
        rw [haft (by have := h3 r hr; omega)] at this
        simp at this
    rw [← h7, ← h10]; exact hr

/-- An empty array makes `contiguous_regions` fail. -/
theorem contiguous_regions_empty : contiguousRegions [] = .error .indexError := rfl

example : contiguousRegions [true, true, false, true, false, false, true] =
    .ok [(0, 2), (3, 4), (6, 7)] := by decide +kernel

variable {K : Type} [Field K] [LinearOrder K] [IsStrictOrderedRing K]

/-- **C11.** For arrays of equal length (at least 2) and a half-width for each sample, the GTIs
returned by `create_gti_from_condition` are exactly: for each maximal run of true samples, from the
lower edge of its first bin plus the first safe interval, to the upper edge of its last bin minus the second,
unless that is negative in length. -/
theorem create_gti_from_condition_iff (time d : List K) (c : List Bool) (safe : K × K)
    (hlen : time.length = c.length) (hd : d.length = c.length) (h2 : 2 ≤ c.length) :
    ∃ out, createGtiFromCondition time c safe (some d) = .ok out ∧
      ∀ x y, (x, y) ∈ out ↔ ∃ a b ta da tb db, MaximalRun c a b ∧
        time[a]? = some ta ∧ d[a]? = some da ∧ time[b - 1]? = some tb ∧ d[b - 1]? = some db ∧
        x = ta - da + safe.1 ∧ y = tb + db - safe.2 ∧ x ≤ y := by
  have hne : c ≠ [] := by rintro rfl; simp at h2
  obtain ⟨R, e, _, h3, _⟩ := contiguous_regions_spec c hne
  have hmax := contiguous_regions_maximal_runs c R e
  refine ⟨R.filterMap (gtiOfRegion time d safe), ?_, ?_⟩
  · unfold createGtiFromCondition
    rw [if_neg (by simpa using hlen)]
    have e0 : time[0]? = some (time[0]'(by omega)) := List.getElem?_eq_getElem (by omega)
    have e1 : time[1]? = some (time[1]'(by omega)) := List.getElem?_eq_getElem (by omega)
    simp only [e, bind, Except.bind, e0, e1, Option.getD_some, pure, Except.pure]
  · intro x y
    simp only [List.mem_filterMap]
    constructor
    · rintro ⟨⟨a, b⟩, hr, hg⟩
      refine ⟨a, b, ?_⟩
      unfold gtiOfRegion at hg
      simp only at hg
      rcases hta : time[a]? with _ | ta <;> rcases hda : d[a]? with _ | da <;>
        rcases htb : time[b - 1]? with _ | tb <;> rcases hdb : d[b - 1]? with _ | db <;>
        simp only [hta, hda, htb, hdb] at hg <;> first | (simp at hg; done) | skip
      split_ifs at hg with hneg
      simp only [Option.some.injEq, Prod.mk.injEq] at hg
      obtain ⟨rfl, rfl⟩ := hg
      exact ⟨ta, da, tb, db, (hmax a b).1 hr, rfl, rfl, rfl, rfl, rfl, rfl, by linarith⟩
    · rintro ⟨a, b, ta, da, tb, db, hr, hta, hda, htb, hdb, rfl, rfl, hle⟩
      refine ⟨(a, b), (hmax a b).2 hr, ?_⟩
      unfold gtiOfRegion
      simp only [hta, hda, htb, hdb]
      rw [if_neg (by linarith)]

/-- **C11.** With no safe interval and bins that do not overlap, every true sample has its whole
bin inside one returned GTI, and no point strictly inside the bin of a false sample is in any. -/
theorem create_gti_from_condition_samples (time d : List K) (c : List Bool)
    (hlen : time.length = c.length) (hd : d.length = c.length) (h2 : 2 ≤ c.length)
    (hpos : ∀ w ∈ d, 0 ≤ w)
    (hbins : ∀ (i j : Nat) (ti tj di dj : K), i < j → time[i]? = some ti → time[j]? = some tj →
      d[i]? = some di → d[j]? = some dj → ti + di ≤ tj - dj) :
    ∃ out, createGtiFromCondition time c (0, 0) (some d) = .ok out ∧
      ∀ (i : Nat) (t w : K), time[i]? = some t → d[i]? = some w →
        (c[i]? = some true → ∃ g ∈ out, g.1 ≤ t - w ∧ t + w ≤ g.2) ∧
        (c[i]? = some false → ∀ x, t - w < x → x < t + w → ¬ Covers out x) := by
  obtain ⟨out, ho, hout⟩ := create_gti_from_condition_iff time d c (0, 0) hlen hd h2
  refine ⟨out, ho, ?_⟩
  have hne : c ≠ [] := by rintro rfl; simp at h2
  obtain ⟨R, e, hR, h3, _⟩ := contiguous_regions_spec c hne
  have hmax := contiguous_regions_maximal_runs c R e
  have hw : ∀ {i : Nat} {w : K}, d[i]? = some w → 0 ≤ w := fun h => hpos _ (List.mem_of_getElem? h)
  have hmono : ∀ (i j : Nat) (ti tj di dj : K), i ≤ j → time[i]? = some ti → time[j]? = some tj →
      d[i]? = some di → d[j]? = some dj → ti - di ≤ tj - dj ∧ ti + di ≤ tj + dj := by
    intro i j ti tj di dj hij h4 h5 h6 h7
    rcases Nat.eq_or_lt_of_le hij with h | h
    · subst h; rw [h4] at h5; rw [h6] at h7; cases h5; cases h7; exact ⟨le_rfl, le_rfl⟩
    · have := hbins i j ti tj di dj h h4 h5 h6 h7
      have := hw h6; have := hw h7
      constructor <;> linarith
  intro i t w ht hwi
  constructor
  · intro hc
    obtain ⟨⟨a, b⟩, hr, h5, h6⟩ := (hR i).2 hc
    have hrun := (hmax a b).1 hr
    have hb := h3 _ hr
    simp only at h5 h6 hb
    have hta := List.getElem?_eq_getElem (l := time) (i := a) (by omega)
    have hda := List.getElem?_eq_getElem (l := d) (i := a) (by omega)
    have htb := List.getElem?_eq_getElem (l := time) (i := b - 1) (by omega)
    have hdb := List.getElem?_eq_getElem (l := d) (i := b - 1) (by omega)
    have m1 := hmono a i _ _ _ _ h5 hta ht hda hwi
    have m2 := hmono i (b - 1) _ _ _ _ (by omega) ht htb hwi hdb
    refine ⟨_, (hout _ _).2 ⟨a, b, _, _, _, _, hrun, hta, hda, htb, hdb, rfl, rfl, ?_⟩, ?_, ?_⟩
    · have := hw hwi
      simp only; linarith [m1.1, m2.2]
    · simp only; linarith [m1.1]
    · simp only; linarith [m2.2]
  · rintro hc x hx1 hx2 ⟨⟨p, q⟩, hg, hp, hq⟩
    obtain ⟨a, b, ta, da, tb, db, hrun, hta, hda, htb, hdb, rfl, rfl, _⟩ := (hout _ _).1 hg
    simp only [add_zero, sub_zero] at hp hq
    obtain ⟨hab, hall, _, _⟩ := hrun
    rcases Nat.lt_or_ge i a with h | h
    · have := hbins i a _ _ _ _ h ht hta hwi hda
      linarith
    · rcases Nat.lt_or_ge i b with h' | h'
      · rw [hall i h h'] at hc; simp at hc
      · have := hbins (b - 1) i _ _ _ _ (by omega) htb ht hdb hwi
        linarith

/-- **C11 (default widths).** Without widths, half of the spacing of the first two samples is taken for every sample. -/
theorem create_gti_from_condition_default (time : List K) (c : List Bool) (safe : K × K) (t0 t1 : K) (rest : List K)
    (ht : time = t0 :: t1 :: rest) :
    createGtiFromCondition time c safe none =
      createGtiFromCondition time c safe (some (List.replicate time.length ((t1 - t0) / 2))) := by
  subst ht
  unfold createGtiFromCondition
  simp only [List.map_const', List.length_cons, List.replicate_succ, List.map_cons, List.getElem?_cons_zero,
    List.getElem?_cons_succ, Option.getD_none, Option.getD_some]

/-- **C11 (error branches).** Arrays of different lengths raise `StingrayError`; arrays with a
single sample raise `IndexError` even when `dt` is given. -/
theorem create_gti_from_condition_errors (time : List K) (c : List Bool) (safe : K × K)
    (d : Option (List K)) :
    (time.length ≠ c.length → createGtiFromCondition time c safe d = .error .stingrayError) ∧
    (time.length = 1 → c.length = 1 → createGtiFromCondition time c safe d = .error .indexError) := by
  constructor
  · intro h; simp [createGtiFromCondition, h]
  · intro h1 h2
    obtain ⟨t, rfl⟩ := List.length_eq_one_iff.1 h1
    obtain ⟨b, rfl⟩ := List.length_eq_one_iff.1 h2
    cases b <;> rfl

example : createGtiFromCondition [(0 : ℚ), 1, 2, 3, 4, 5, 6]
    [true, true, false, true, false, false, true] (0, 0) none =
    .ok [(-1/2, 3/2), (5/2, 7/2), (11/2, 13/2)] := by decide +kernel

example : createGtiFromCondition [(0 : ℚ), 1, 2, 3, 4, 5, 6]
    [true, true, false, true, false, false, true] (1, 1/4) none =
    .ok [(1/2, 5/4)] := by decide +kernel

end Stingray.Gti

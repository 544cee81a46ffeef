import Verif.Model.TimeSeries
import Verif.Lemmas.GtiMask
import Verif.Spec.Rows
import Verif.Spec.Intervals
import Mathlib.Tactic.Ring
import Mathlib.Data.List.Nodup
import Mathlib.Data.List.Perm.Basic

/-! Helper lemmas for time series. -/

namespace Stingray.TimeSeries

set_option linter.unusedSectionVars false

open Stingray.Gti Stingray.Spec

variable {K V : Type} [Field K] [LinearOrder K] [IsStrictOrderedRing K]

theorem gtiGet_snd (s : TS K V) : (gtiGet s).2 = { s with gti := (gtiGet s).1 } := by
  unfold gtiGet
  split
  · next h => simp [← h]
  · next h =>
    split
    · rfl
    · simp [← h]

theorem gtiGet_congr {V W : Type} (s : TS K V) (o : TS K W) (h1 : s.gti = o.gti)
    (h2 : s.time = o.time) (h3 : s.dt = o.dt) : (gtiGet s).1 = (gtiGet o).1 := by
  unfold gtiGet
  rw [h1, h2, h3]
  cases o.gti with
  | some g => rfl
  | none => cases o.time.head? <;> cases o.time.getLast? <;> rfl

theorem gtiGet_default (s : TS K V) (a b : K) (h1 : s.gti = none) (h2 : s.time.head? = some a)
    (h3 : s.time.getLast? = some b) : (gtiGet s).1 = some [(a - s.dt / 2, b + s.dt / 2)] := by
  unfold gtiGet
  rw [h1, h2, h3]

theorem truePositions_cons (b : Bool) (m : List Bool) :
    truePositions (b :: m) =
      (if b then [0] else []) ++ (truePositions m).map Nat.succ := by
  unfold truePositions
  rw [List.length_cons, List.range_succ_eq_map, List.filter_cons, List.filter_map]
  have : ((fun i => (b :: m)[i]? == some true) ∘ Nat.succ) = (fun i => m[i]? == some true) := by
    funext i; simp
  rw [this]
  cases b <;> simp

theorem rows_select {α : Type} (m : List Bool) (l : List α) (h : m.length = l.length) :
    Rows (truePositions m) l (select m l) := by
  induction m generalizing l with
  | nil =>
    cases l with
    | nil => simp [Rows, truePositions, select]
    | cons => simp at h
  | cons b m ih =>
    cases l with
    | nil => simp at h
    | cons x l =>
      have := ih l (by simpa using h)
      rw [truePositions_cons]
      unfold Rows at *
      have h2 : List.Forall₂ (fun i y => (x :: l)[i]? = some y) ((truePositions m).map Nat.succ)
          (select m l) := by
        rw [List.forall₂_map_left_iff]
        simpa using this
      cases b
      · simpa [select] using h2
      · have e : select (true :: m) (x :: l) = x :: select m l := by simp [select]
        rw [e]
        exact List.Forall₂.cons (by simp) h2

theorem rows_filterMap {α : Type} (idx : List Nat) (l : List α) (h : ∀ i ∈ idx, i < l.length) :
    Rows idx l (idx.filterMap (l[·]?)) := by
  induction idx with
  | nil => simp [Rows]
  | cons i idx ih =>
    have hi := h i (by simp)
    rw [List.filterMap_cons, List.getElem?_eq_getElem hi]
    exact List.Forall₂.cons (List.getElem?_eq_getElem hi) (ih fun j hj => h j (by simp [hj]))

theorem rows_unique {α : Type} {idx : List Nat} {l a b : List α} (ha : Rows idx l a)
    (hb : Rows idx l b) : a = b := by
  unfold Rows at *
  induction ha generalizing b with
  | nil => cases hb; rfl
  | cons h _ ih =>
    cases hb with
    | cons h' t' =>
      rw [h] at h'
      cases h'
      rw [ih t']

theorem zipIdx_fst_get {α : Type} (l : List α) (x : α × Nat) (h : x ∈ l.zipIdx) :
    l[x.2]? = some x.1 := by
  rw [List.mem_zipIdx_iff_getElem?] at h
  exact h

theorem zipIdx_snd {α : Type} (l : List α) : l.zipIdx.map Prod.snd = List.range l.length := by
  rw [List.zipIdx_map_snd, List.range_eq_range']

/-- exactness of the compiled loop for one GTI and sorted samples -/
theorem jit_single (m : K) (g : K × K) (ts : List K) (hm : m ≤ g.2 - g.1)
    (hs : ts.Pairwise (· ≤ ·)) :
    List.Forall₂ (fun t b => b = true ↔ g.1 ≤ t ∧ t ≤ g.2) ts (gtiMaskJit ts [g] m) := by
  have key : ∀ ts : List K, ts.Pairwise (· ≤ ·) →
      List.Forall₂ (fun t b => b = true ↔ g.1 ≤ t ∧ t ≤ g.2) ts
        (gtiMaskJitLoop m (some g) [] false ts) := by
    intro ts hs
    induction ts with
    | nil => simp [gtiMaskJitLoop]
    | cons t ts ih =>
      have hs' := List.pairwise_cons.1 hs
      unfold gtiMaskJitLoop
      by_cases h : g.2 < t
      · simp only [h, decide_true, Bool.true_or, if_true]
        refine List.Forall₂.cons (by simp; intro _; exact h) ?_
        refine forall₂_replicate_false ts _ ?_
        intro t' ht' ⟨_, h2⟩
        exact absurd (h.trans_le (hs'.1 t' ht')) (not_lt.2 h2)
      · simp only [h, decide_false, Bool.false_or, Bool.false_eq_true, if_false]
        exact List.Forall₂.cons (by simp) (ih hs'.2)
  unfold gtiMaskJit
  cases ts with
  | nil => simp [gtiMaskJitLoop]
  | cons t ts =>
    unfold gtiMaskJitLoop
    simp only [if_true, not_lt.2 hm, if_false]
    exact List.Forall₂.cons (by simp) (key ts (List.pairwise_cons.1 hs).2)

/-- exactness of `create_gti_mask` for one GTI -/
theorem createGtiMask_single (median : List K → K) (times : List K) (g : K × K) (dt : Option K)
    (eps : K) (hne : times ≠ []) (hs : times.Pairwise (· ≤ ·)) (hg : g.1 ≤ g.2)
    (hd : 0 ≤ dt.getD (median times)) (he : 0 ≤ eps) :
    ∃ mask, createGtiMask median times [g] none 0 dt eps = .ok mask ∧
      List.Forall₂ (fun t b => b = true ↔ BinInside g.1 g.2 t (dt.getD (median times))
        (eps * dt.getD (median times))) times mask := by
  obtain ⟨t0, ts, rfl⟩ := List.exists_cons_of_ne_nil hne
  set D := dt.getD (median (t0 :: ts)) with hD
  have hok : checkGtis [g] = .ok () := checkGtis_of_wf (by simp) ⟨by simpa using hg, by simp⟩
  have hed : 0 ≤ eps * D := mul_nonneg he hd
  refine ⟨_, by unfold createGtiMask; simp only [List.isEmpty_cons, lt_irrefl, if_false, hok]; rfl, ?_⟩
  have := jit_single (0 - 2 * (1 + eps) * D)
    (g.1 - eps * D + D / 2 - t0, g.2 + eps * D - D / 2 - t0) ((t0 :: ts).map (· - t0))
    (by dsimp; linarith) ?_
  · rw [List.forall₂_map_left_iff] at this
    refine this.imp ?_
    intro t b hb
    rw [hb]
    unfold BinInside
    dsimp
    constructor <;> rintro ⟨h1, h2⟩ <;> constructor <;> linarith
  · rw [List.pairwise_map]
    refine hs.imp ?_
    intro a b hab
    simpa using hab

theorem checkGtis_shift (l : List (K × K)) (d : K) :
    checkGtis (l.map fun g => (g.1 + d, g.2 + d)) = checkGtis l := by
  have key : checkGtis (l.map fun g => (g.1 + d, g.2 + d)) = .ok () ↔ checkGtis l = .ok () := by
    rw [checkGtis_ok_iff, checkGtis_ok_iff]
    unfold WellFormed
    simp only [ne_eq, List.map_eq_nil_iff, List.forall_mem_map, add_le_add_iff_right,
      List.pairwise_map]
  rcases checkGtis_cases (l.map fun g => (g.1 + d, g.2 + d)) with h | h <;>
    rcases checkGtis_cases l with h' | h'
  · rw [h, h']
  · rw [key.1 h] at h'; cases h'
  · rw [key.2 h'] at h; cases h
  · rw [h, h']

theorem createGtiMask_shift (median : List K → K) (times : List K) (gtis : List (K × K))
    (dt eps d : K) :
    createGtiMask median (times.map (· + d)) (gtis.map fun g => (g.1 + d, g.2 + d)) none 0
      (some dt) eps = createGtiMask median times gtis none 0 (some dt) eps := by
  unfold createGtiMask
  cases times with
  | nil => rfl
  | cons t0 ts =>
    simp only [List.map_cons, List.isEmpty_map, lt_irrefl, if_false, checkGtis_shift,
      Option.getD_some]
    have e1 : (fun x => x - (t0 + d)) ∘ (fun x => x + d) = fun x => x - t0 := by
      funext x; simp
    have e2 : ((gtisToMask (gtis.map fun g => (g.1 + d, g.2 + d)) none dt eps).map
        fun g => (g.1 - (t0 + d), g.2 - (t0 + d))) =
        (gtisToMask gtis none dt eps).map fun g => (g.1 - t0, g.2 - t0) := by
      simp only [gtisToMask, List.map_map]
      apply List.map_congr_left
      intro g _
      simp only [Function.comp, Prod.mk.injEq]
      constructor <;> ring
    rw [e2, List.map_map, e1]
    simp

end Stingray.TimeSeries

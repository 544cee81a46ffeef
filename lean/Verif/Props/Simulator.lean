import Verif.Model.Simulator
import Verif.Spec.Moments
import Mathlib.Algebra.Order.Ring.Rat
import Mathlib.Data.Rat.Floor
import Mathlib.Data.List.Sort
import Mathlib.Tactic.NormNum
import Mathlib.Tactic.Linarith
import Mathlib.Tactic.FieldSimp
import Mathlib.Tactic.Ring
import Mathlib.Tactic.Positivity

/-!
The simulator: channels (C62, C85), scaling (C63), impulse responses (C64, C86), transfer functions (C84).
-/

set_option linter.unusedSectionVars false

namespace Stingray.Simulator

open Stingray.Spec

/-! ### Channels -/

section Channels

variable {N L : Type} [DecidableEq N] [DecidableEq L]

/-- what a list of named light curves stands for -/
def lookup (s : List (N × L)) : Registry N L := fun c => (s.find? fun p => decide (p.1 = c)).map Prod.snd

/-- The specification of one operation on a finite map: whether it succeeds, and the map after it. -/
def specStep (m : Registry N L) : ChanOp N L → Option (Registry N L)
  | .simulate c (.ok l) => if m c = none then some fun d => if d = c then some l else m d else none
  | .simulate _ (.error _) => none
  | .delete c => if m c = none then none else some fun d => if d = c then none else m d
  | .deleteMany cs =>
    open Classical in
    if cs.Nodup ∧ ∀ c ∈ cs, m c ≠ none then some fun d => if d ∈ cs then none else m d else none

/-- A session on the finite map: an operation that does not succeed changes nothing. -/
noncomputable def specRun (m : Registry N L) : List (ChanOp N L) → Registry N L
  | [] => m
  | op :: ops => specRun ((specStep m op).getD m) ops

theorem lookup_none_iff (s : List (N × L)) (c : N) : lookup s c = none ↔ c ∉ s.map Prod.fst := by
  unfold lookup
  rw [Option.map_eq_none_iff, List.find?_eq_none]
  constructor
  · intro h hc
    rw [List.mem_map] at hc
    obtain ⟨p, hp, rfl⟩ := hc
    exact h p hp (by simp)
  · intro h p hp hc
    simp only [decide_eq_true_iff] at hc
    exact h (List.mem_map.2 ⟨p, hp, hc⟩)

theorem lookup_cons (p : N × L) (s : List (N × L)) (c : N) :
    lookup (p :: s) c = if p.1 = c then some p.2 else lookup s c := by
  unfold lookup
  rw [List.find?_cons]
  by_cases h : p.1 = c <;> simp [h]

theorem lookup_append (s t : List (N × L)) (c : N) :
    lookup (s ++ t) c = (lookup s c).orElse fun _ => lookup t c := by
  unfold lookup
  rw [List.find?_append]
  cases s.find? (fun p => decide (p.1 = c)) <;> simp

theorem mem_of_lookup (s : List (N × L)) (hs : (s.map Prod.fst).Nodup) (c : N) (l : L) :
    lookup s c = some l ↔ (c, l) ∈ s := by
  induction s with
  | nil => simp [lookup]
  | cons p s ih =>
    rw [List.map_cons, List.nodup_cons] at hs
    rw [lookup_cons, List.mem_cons]
    by_cases h : p.1 = c
    · rw [if_pos h]
      constructor
      · intro e
        cases e
        exact Or.inl (by rw [← h])
      · rintro (e | e)
        · rw [← e]
        · exact absurd (List.mem_map.2 ⟨_, e, rfl⟩) (h ▸ hs.1)
    · rw [if_neg h, ih hs.2]
      constructor
      · exact Or.inr
      · rintro (e | e)
        · exact absurd (by rw [← e]) h
        · exact e

/-- filtering the names out -/
theorem lookup_filter (s : List (N × L)) (keep : N → Bool) (c : N) :
    lookup (s.filter fun p => keep p.1) c = if keep c then lookup s c else none := by
  induction s with
  | nil => simp [lookup]
  | cons p s ih =>
    rw [List.filter_cons]
    by_cases hk : keep p.1
    · rw [if_pos hk, lookup_cons, lookup_cons, ih]
      by_cases h : p.1 = c
      · subst h; simp [hk]
      · simp [h]
    · rw [if_neg hk, ih, lookup_cons]
      by_cases h : p.1 = c
      · subst h; simp [hk]
      · simp [h]

/-- for distinct elements, deleting the positions of some of them keeps the others -/
theorem deleteIndices_eq {α : Type} [BEq α] [LawfulBEq α] (s : List α) (hs : s.Nodup) (q : α → Bool) :
    (((s.filter q).map fun p => s.idxOf p).insertionSort (fun a b => b ≤ a)).foldl (fun l i => l.eraseIdx i) s =
      s.filter fun p => !q p := by
  -- the positions, in decreasing order, are those of the filtered list read backwards
  have hsub : (s.filter q).map (fun p => s.idxOf p) = (List.range s.length).filter fun i => (s[i]?.map q).getD false := by
    induction s with
    | nil => rfl
    | cons a s ih =>
      rw [List.nodup_cons] at hs
      have hidx : ∀ l : List α, (∀ x ∈ l, x ∈ s) → l.map (fun p => (a :: s).idxOf p) = (l.map fun p => s.idxOf p).map Nat.succ := by
        intro l hl
        rw [List.map_map]
        apply List.map_congr_left
        intro x hx
        have : a ≠ x := fun h => hs.1 (h ▸ hl x hx)
        rw [List.idxOf_cons_ne _ this]
        rfl
      have hmem : ∀ x ∈ s.filter q, x ∈ s := fun x hx => (List.mem_filter.1 hx).1
      have hcomp : ((fun i => (((a :: s)[i]?).map q).getD false) ∘ Nat.succ) = fun i => (s[i]?.map q).getD false := by
        funext i; simp
      have hr : (List.range (a :: s).length).filter (fun i => (((a :: s)[i]?).map q).getD false) =
          (if q a then [0] else []) ++ ((List.range s.length).filter fun i => (s[i]?.map q).getD false).map Nat.succ := by
        rw [List.length_cons, List.range_succ_eq_map, List.filter_cons, List.filter_map, hcomp]
        by_cases hq : q a <;> simp [hq]
      rw [hr, ← ih hs.2]
      by_cases hq : q a
      · rw [List.filter_cons_of_pos hq, List.map_cons, List.idxOf_cons_self, hidx _ hmem]
        simp [hq]
      · rw [List.filter_cons_of_neg hq, hidx _ hmem]
        simp [hq]
  rw [hsub]
  have hsorted : (((List.range s.length).filter fun i => (s[i]?.map q).getD false).insertionSort (fun a b => b ≤ a)) =
      ((List.range s.length).filter fun i => (s[i]?.map q).getD false).reverse := by
    apply List.Perm.eq_of_pairwise (le := fun a b => b ≤ a)
    · intro a b _ _ h1 h2
      omega
    · exact List.pairwise_insertionSort _ _
    · rw [List.pairwise_reverse]
      exact (List.Pairwise.filter _ List.pairwise_lt_range).imp (fun h => h.le)
    · exact (List.perm_insertionSort _ _).trans (List.reverse_perm _).symm
  rw [hsorted, List.foldl_reverse]
  clear hsub hsorted hs
  -- deleting from the end
  induction s using List.reverseRecOn with
  | nil => rfl
  | append_singleton s a ih =>
    have hrange : (List.range (s ++ [a]).length).filter (fun i => (((s ++ [a])[i]?).map q).getD false) =
        ((List.range s.length).filter fun i => (s[i]?.map q).getD false) ++ (if q a then [s.length] else []) := by
      rw [List.length_append, List.length_singleton, List.range_succ, List.filter_append]
      congr 1
      · apply List.filter_congr
        intro i hi
        rw [List.mem_range] at hi
        rw [List.getElem?_append_left hi]
      · by_cases hq : q a <;> simp [hq]
    rw [hrange, List.foldr_append, List.filter_append]
    have hkeep : ∀ (t : List α) (idx : List Nat), (∀ i ∈ idx, i < s.length) → idx.Pairwise (· < ·) →
        idx.foldr (fun i l => l.eraseIdx i) (s ++ t) = idx.foldr (fun i l => l.eraseIdx i) s ++ t := by
      intro t idx hi hp
      induction idx with
      | nil => rfl
      | cons j idx ihj =>
        rw [List.pairwise_cons] at hp
        rw [List.foldr_cons, List.foldr_cons, ihj (fun i h => hi i (by simp [h])) hp.2]
        have hlen : ∀ (l : List Nat) (u : List α), (∀ i ∈ l, j < i) → j < u.length → j < (l.foldr (fun i l => l.eraseIdx i) u).length := by
          intro l u hl hu
          induction l with
          | nil => exact hu
          | cons k l ihk =>
            have h1 := ihk (fun i h => hl i (by simp [h]))
            have h2 := hl k (by simp)
            rw [List.foldr_cons, List.length_eraseIdx]
            split_ifs with hk <;> omega
        rw [List.eraseIdx_append_of_lt_length (hlen idx s hp.1 (hi j (by simp)))]
    have hlt : ∀ i ∈ (List.range s.length).filter (fun i => (s[i]?.map q).getD false), i < s.length := by
      intro i hi
      exact List.mem_range.1 (List.mem_filter.1 hi).1
    have hpw : ((List.range s.length).filter fun i => (s[i]?.map q).getD false).Pairwise (· < ·) :=
      List.Pairwise.filter _ List.pairwise_lt_range
    by_cases hq : q a
    · rw [if_pos hq, List.foldr_cons, List.foldr_nil, List.eraseIdx_append_of_length_le (le_refl _)]
      simp only [Nat.sub_self, List.eraseIdx_zero, List.tail_cons, List.append_nil]
      rw [ih]
      simp [hq]
    · rw [if_neg hq, List.foldr_nil, hkeep _ _ hlt hpw, ih]
      simp [hq]

theorem nodup_of_names (s : List (N × L)) (hs : (s.map Prod.fst).Nodup) : s.Nodup := List.Nodup.of_map _ hs

/-- one operation refines the specification -/
theorem chanStep_refines (s : List (N × L)) (hs : (s.map Prod.fst).Nodup) (op : ChanOp N L) :
    match chanStep s op with
    | .error _ => specStep (lookup s) op = none
    | .ok s' => (s'.map Prod.fst).Nodup ∧ specStep (lookup s) op = some (lookup s') := by
  cases op with
  | simulate c sim =>
    simp only [chanStep, simulateChannel]
    by_cases hc : c ∈ s.map Prod.fst
    · rw [if_pos hc]
      have : lookup s c ≠ none := fun h => (lookup_none_iff s c).1 h hc
      cases sim with
      | error e => rfl
      | ok l => simp [specStep, this]
    · rw [if_neg hc]
      cases sim with
      | error e => rfl
      | ok l =>
        dsimp only
        have hnone := (lookup_none_iff s c).2 hc
        refine ⟨?_, ?_⟩
        · rw [List.map_append, List.nodup_append]
          refine ⟨hs, by simp, ?_⟩
          intro a ha b hb
          simp only [List.map_cons, List.map_nil, List.mem_singleton] at hb
          subst hb
          exact fun h => hc (h ▸ ha)
        · simp only [specStep, hnone, if_true]
          congr 1
          funext d
          rw [lookup_append, lookup_cons]
          by_cases hd : d = c
          · subst hd
            simp [hnone]
          · rw [if_neg hd, if_neg (fun h => hd h.symm)]
            cases lookup s d <;> simp [lookup]
  | delete c =>
    simp only [chanStep, deleteChannel]
    cases hf : s.filter (fun p => decide (p.1 = c)) with
    | nil =>
      have : lookup s c = none := by
        rw [lookup_none_iff, List.mem_map]
        rintro ⟨p, hp, rfl⟩
        rw [List.filter_eq_nil_iff] at hf
        exact hf p hp (by simp)
      simp [specStep, this]
    | cons p t =>
      dsimp only
      have hp : p ∈ s ∧ p.1 = c := by
        have : p ∈ s.filter (fun p => decide (p.1 = c)) := by rw [hf]; simp
        simpa using this
      have hne : lookup s c ≠ none := by
        rw [ne_eq, lookup_none_iff, not_not]
        exact List.mem_map.2 ⟨p, hp.1, hp.2⟩
      have herase : s.eraseIdx (s.idxOf p) = s.filter fun r => !decide (r.1 = c) := by
        rw [← List.erase_eq_eraseIdx_of_idxOf (by rfl), List.Nodup.erase_eq_filter (nodup_of_names s hs)]
        apply List.filter_congr
        intro r hr
        rw [Bool.eq_iff_iff]
        simp only [bne_iff_ne, ne_eq, Bool.not_eq_true', decide_eq_false_iff_not, not_iff_not]
        constructor
        · rintro rfl; exact hp.2
        · intro h
          exact List.inj_on_of_nodup_map hs hr hp.1 (h.trans hp.2.symm)
      rw [herase]
      refine ⟨hs.sublist (List.filter_sublist.map _), ?_⟩
      simp only [specStep, hne, if_false]
      congr 1
      funext d
      rw [lookup_filter s (fun n => !decide (n = c))]
      by_cases hd : d = c <;> simp [hd]
  | deleteMany cs =>
    simp only [chanStep, deleteChannels]
    have hlen : (s.filter fun p => decide (p.1 ∈ cs)).length = cs.length ↔ cs.Nodup ∧ ∀ c ∈ cs, lookup s c ≠ none := by
      have hnd : ((s.filter fun p => decide (p.1 ∈ cs)).map Prod.fst).Nodup := hs.sublist (List.filter_sublist.map _)
      have hsubset : (s.filter fun p => decide (p.1 ∈ cs)).map Prod.fst ⊆ cs := by
        intro c hc
        rw [List.mem_map] at hc
        obtain ⟨p, hp, rfl⟩ := hc
        simpa using (List.mem_filter.1 hp).2
      have hsp := List.subperm_of_subset hnd hsubset
      constructor
      · intro h
        have hperm : ((s.filter fun p => decide (p.1 ∈ cs)).map Prod.fst).Perm cs :=
          hsp.perm_of_length_le (by rw [List.length_map, h])
        refine ⟨hperm.nodup_iff.1 hnd, ?_⟩
        intro c hc
        rw [ne_eq, lookup_none_iff, not_not]
        have := hperm.mem_iff.2 hc
        rw [List.mem_map] at this ⊢
        obtain ⟨p, hp, rfl⟩ := this
        exact ⟨p, (List.mem_filter.1 hp).1, rfl⟩
      · rintro ⟨h1, h2⟩
        have hsub2 : cs ⊆ (s.filter fun p => decide (p.1 ∈ cs)).map Prod.fst := by
          intro c hc
          have := h2 c hc
          rw [ne_eq, lookup_none_iff, not_not, List.mem_map] at this
          obtain ⟨p, hp, rfl⟩ := this
          exact List.mem_map.2 ⟨p, List.mem_filter.2 ⟨hp, by simpa using hc⟩, rfl⟩
        have := (List.subperm_of_subset h1 hsub2).length_le
        have := hsp.length_le
        rw [List.length_map] at *
        omega
    by_cases hc : (s.filter fun p => decide (p.1 ∈ cs)).length = cs.length
    · rw [if_neg (by simpa using hc)]
      dsimp only
      unfold deleteIndices
      rw [deleteIndices_eq s (nodup_of_names s hs)]
      refine ⟨hs.sublist (List.filter_sublist.map _), ?_⟩
      dsimp only [specStep]
      rw [if_pos (hlen.1 hc)]
      congr 1
      funext d
      rw [lookup_filter s (fun n => !decide (n ∈ cs))]
      by_cases hd : d ∈ cs <;> simp [hd]
    · rw [if_pos hc]
      dsimp only
      dsimp only [specStep]
      rw [if_neg (fun h => hc (hlen.2 h))]

/-- **C62.** After any sequence of `simulate_channel`, `delete_channel` and `delete_channels` calls, including failing ones, the names are unique, and the stored light curves are those of a finite map on which the same operations were carried out: storing succeeds exactly for new names,
deleting exactly for existing ones (without repetitions), and a failing operation changes nothing. -/
theorem channels_refine (ops : List (ChanOp N L)) :
    ((chanRun [] ops).map Prod.fst).Nodup ∧ lookup (chanRun [] ops) = specRun (fun _ => none) ops := by
  have : ∀ (ops : List (ChanOp N L)) (s : List (N × L)), (s.map Prod.fst).Nodup →
      ((chanRun s ops).map Prod.fst).Nodup ∧ lookup (chanRun s ops) = specRun (lookup s) ops := by
    intro ops
    induction ops with
    | nil => intro s hs; exact ⟨hs, rfl⟩
    | cons op ops ih =>
      intro s hs
      have h := chanStep_refines s hs op
      rw [chanRun, specRun]
      cases hst : chanStep s op with
      | error e =>
        rw [hst] at h
        dsimp only at h ⊢
        rw [h]
        exact ih s hs
      | ok s' =>
        rw [hst] at h
        dsimp only at h ⊢
        rw [h.2]
        exact ih s' h.1
  exact this ops [] (by simp)

/-- **C62 (reading).** `get_channel` returns the light curve the finite map has under the name, and raises for the other names; `count_channels` is the number of names. -/
theorem get_channel_spec (s : List (N × L)) (c : N) :
    getChannel s c = match lookup s c with
      | some l => .ok l
      | none => .error .indexError := by
  unfold getChannel
  induction s with
  | nil => rfl
  | cons p s ih =>
    rw [lookup_cons, List.filter_cons]
    by_cases h : p.1 = c
    · simp [h]
    · simp only [h, decide_false, Bool.false_eq_true, if_false]
      exact ih

/-- **C85.** `get_channels` returns, in the order in which they were stored, the light curves whose names were asked for: each exactly once, whatever the order and the repetitions of the request, and names that do not exist are ignored. -/
theorem get_channels_spec (s : List (N × L)) (hs : (s.map Prod.fst).Nodup) (cs : List N) :
    (∃ names : List N, names.Sublist (s.map Prod.fst) ∧ (∀ c, c ∈ names ↔ c ∈ cs ∧ lookup s c ≠ none) ∧
      (getChannels s cs).map some = names.map (lookup s)) ∧
    ∀ cs', (∀ c, c ∈ cs ↔ c ∈ cs') → getChannels s cs = getChannels s cs' := by
  refine ⟨⟨(s.filter fun p => decide (p.1 ∈ cs)).map Prod.fst, List.filter_sublist.map _, ?_, ?_⟩, ?_⟩
  · intro c
    rw [ne_eq, lookup_none_iff, not_not, List.mem_map, List.mem_map]
    constructor
    · rintro ⟨p, hp, rfl⟩
      rw [List.mem_filter, decide_eq_true_iff] at hp
      exact ⟨hp.2, p, hp.1, rfl⟩
    · rintro ⟨hc, p, hp, rfl⟩
      exact ⟨p, List.mem_filter.2 ⟨hp, by simpa using hc⟩, rfl⟩
  · unfold getChannels
    rw [List.map_map, List.map_map]
    apply List.map_congr_left
    intro p hp
    simp only [Function.comp]
    rw [eq_comm, mem_of_lookup s hs]
    exact (List.mem_filter.1 hp).1
  · intro cs' h
    unfold getChannels
    congr 1
    apply List.filter_congr
    intro p _
    rw [Bool.eq_iff_iff, decide_eq_true_iff, decide_eq_true_iff]
    exact h p.1

/-- **C85 (negation).** So the light curves do not come in the order of the request. -/
theorem get_channels_order : getChannels [("1-2", 10), ("3-4", 20)] ["3-4", "1-2"] = [10, 20] := by decide

/-- a session with failing operations -/
example : chanRun ([] : List (Nat × Nat)) [.simulate 1 (.ok 10), .simulate 1 (.ok 11), .simulate 2 (.ok 20), .simulate 3 (.ok 30),
    .deleteMany [3, 3], .deleteMany [3, 1], .delete 7, .simulate 1 (.ok 12)] = [(2, 20), (1, 12)] := by decide

end Channels

/-! ### Scaling -/

variable {K : Type} [Field K] [LinearOrder K] [IsStrictOrderedRing K] [FloorRing K]

theorem sum_map_affine (l : List K) (a b : K) : (l.map fun x => a * x + b).sum = a * l.sum + l.length * b := by
  induction l with
  | nil => simp
  | cons x l ih => simp only [List.map_cons, List.sum_cons, ih, List.length_cons]; push_cast; ring

theorem average_affine (l : List K) (hne : l ≠ []) (a b : K) : average (l.map fun x => a * x + b) = a * average l + b := by
  have hl : (l.length : K) ≠ 0 := by exact_mod_cast (List.length_pos_iff.2 hne).ne'
  unfold average
  rw [sum_map_affine, List.length_map]
  field_simp

theorem variance_affine (l : List K) (hne : l ≠ []) (a b : K) :
    popVariance (l.map fun x => a * x + b) = a ^ 2 * popVariance l := by
  unfold popVariance
  rw [average_affine l hne, List.map_map, List.length_map]
  have : ((fun x => (x - (a * average l + b)) ^ 2) ∘ fun x => a * x + b) = fun x => a ^ 2 * (x - average l) ^ 2 := by
    funext x; simp only [Function.comp]; ring
  rw [this]
  have hm : ∀ (m : List K) (f : K → K) (c : K), (m.map fun x => c * f x).sum = c * (m.map f).sum := by
    intro m f c
    induction m with
    | nil => simp
    | cons x m ih => simp only [List.map_cons, List.sum_cons, ih]; ring
  rw [hm l (fun x => (x - average l) ^ 2)]
  ring

theorem scaled_eq (lc : List K) (meanRate rms std : K) :
    (if meanRate = 0 then (Except.ok (lc.map fun x => (x - mean lc) / std * rms) : Except PyErr (List K))
      else .ok (lc.map fun x => (x - mean lc) / std * meanRate * rms + meanRate)) =
    .ok (lc.map fun x => (rms * (if meanRate = 0 then 1 else meanRate) / std) * x +
      (meanRate - rms * (if meanRate = 0 then 1 else meanRate) / std * average lc)) := by
  have hm : mean lc = average lc := rfl
  split_ifs with h
  · subst h
    congr 1
    apply List.map_congr_left
    intro x _
    rw [hm]
    ring
  · congr 1
    apply List.map_congr_left
    intro x _
    rw [hm]
    ring

/-- **C63.** Without extra red noise (`red_noise=1`), for a simulated light curve that is not constant (`std`, the standard deviation, is not zero) the result has as many bins, its mean is exactly the requested one and its variance is exactly `(rms * mean)²`, or
`rms²` when the requested mean is 0: the fractional rms is the requested one. -/
theorem scaled_mean_rms (n extract : Nat) (meanRate rms std : K) (long : List K) (hne : long ≠ [])
    (hstd : std ^ 2 = popVariance long) (hs0 : std ≠ 0) :
    ∃ out, extractAndScale n 1 extract meanRate rms std long = .ok out ∧ out.length = long.length ∧ average out = meanRate ∧
      popVariance out = (rms * (if meanRate = 0 then 1 else meanRate)) ^ 2 := by
  unfold extractAndScale
  simp only [if_true]
  rw [scaled_eq]
  refine ⟨_, rfl, by simp, ?_, ?_⟩
  · rw [average_affine long hne]
    ring
  · rw [variance_affine long hne, ← hstd]
    field_simp

/-- **C63 (red noise).** With extra red noise, any random integer that can be drawn gives a cut inside the long light curve, of the requested length; the mean is still exactly the requested one, and the variance is that of the cut relative to the one of the long light
curve. -/
theorem scaled_red_noise (n redNoise extract : Nat) (meanRate rms std : K) (long : List K) (hn : 0 < n) (hr : redNoise ≠ 1)
    (hlen : long.length = redNoise * n) (hlow : n - 1 ≤ extract) (hhigh : extract < redNoise * n - n + 1) (hr0 : 0 < redNoise) :
    ∃ out, extractAndScale n redNoise extract meanRate rms std long = .ok out ∧ out.length = n ∧ average out = meanRate ∧
      popVariance out = (rms * (if meanRate = 0 then 1 else meanRate) / std) ^ 2 * popVariance ((long.drop extract).take n) := by
  have hle : n ≤ redNoise * n := Nat.le_mul_of_pos_left n hr0
  have hcut : takeRange long extract n = .ok ((long.drop extract).take n) := by
    unfold takeRange
    rw [if_pos (Or.inl (by omega))]
    congr 1
    apply List.ext_getElem?
    intro i
    by_cases hi : i < n
    · rw [List.getElem?_map, List.getElem?_range hi, List.getElem?_take, if_pos hi, List.getElem?_drop]
      simp [List.getD_eq_getElem?_getD, List.getElem?_eq_getElem (show extract + i < long.length by omega)]
    · rw [List.getElem?_eq_none (by simpa using hi), List.getElem?_eq_none (by rw [List.length_take]; omega)]
  have hlc : ((long.drop extract).take n).length = n := by
    rw [List.length_take, List.length_drop]; omega
  have hne : (long.drop extract).take n ≠ [] := by
    rw [← List.length_pos_iff, hlc]; exact hn
  unfold extractAndScale
  simp only [if_neg hr, hcut]
  rw [scaled_eq]
  refine ⟨_, rfl, by rw [List.length_map, hlc], ?_, ?_⟩
  · rw [average_affine _ hne]
    ring
  · rw [variance_affine _ hne]

example : extractAndScale 2 1 0 10 (1/2) 1 [1, (3 : ℚ)] = .ok [5, 15] ∧ popVariance [1, (3 : ℚ)] = 1 ∧
    popVariance [5, (15 : ℚ)] = (10 * (1/2)) ^ 2 := by decide +kernel

/-- **C63 (negation).** With extra red noise the rms of the result is not the requested one: the light curve is divided by the standard deviation of the long one (here a cut that happens to be constant). -/
theorem red_noise_rms : extractAndScale 2 2 1 10 (1/2) 1 [1, 3, 3, (1 : ℚ)] = .ok [10, 10] ∧
    popVariance [1, 3, 3, (1 : ℚ)] = 1 ^ 2 := by decide +kernel

/-! ### Impulse responses -/

theorem convolve_length (s h : List K) (hs : s ≠ []) (hh : h ≠ []) : (convolve s h).length = s.length + h.length - 1 := by
  unfold convolve
  rw [if_neg (by simp [hs, hh])]
  simp

/-- **C64 (partial).** With an impulse response of at least two bins, mode 'same' gives as many samples as the signal has, sample `n` being `Σ_j h_j s_{n-j}`; mode 'filtered' gives those for which the response lies entirely over the signal, and mode 'full' all the
`len(s) + len(h) - 1` samples.
Missing: responses of a single bin (false, below). -/
theorem impulse_response_partial (s h : List K) (hs : s ≠ []) (hh : 2 ≤ h.length) :
    impulseResponse s h .same = (List.range s.length).map (convolutionAt s h) ∧
    impulseResponse s h .filtered = (List.range (s.length + 1 - h.length)).map (fun i => convolutionAt s h (i + (h.length - 1))) ∧
    impulseResponse s h .full = (List.range (s.length + h.length - 1)).map (convolutionAt s h) := by
  have hhne : h ≠ [] := by rintro rfl; simp at hh
  have hspos := List.length_pos_iff.2 hs
  have hc : convolve s h = (List.range (s.length + h.length - 1)).map (convolutionAt s h) := by
    unfold convolve
    rw [if_neg (by simp [hs, hhne])]
    rfl
  have hl := convolve_length s h hs hhne
  have h1 : sliceEnd (convolve s h).length (-((h.length : Int) - 1)) = s.length := by
    unfold sliceEnd
    rw [hl, if_pos (by omega)]
    omega
  have h2 : sliceEnd (convolve s h).length ((h.length : Int) - 1) = h.length - 1 := by
    unfold sliceEnd
    rw [hl, if_neg (by omega)]
    omega
  have h3 : sliceEnd (convolve s h).length 0 = 0 := by
    unfold sliceEnd
    simp
  have h4 : (convolve s h).take s.length = (List.range s.length).map (convolutionAt s h) := by
    rw [hc, ← List.map_take, List.take_range]
    congr 2
    omega
  refine ⟨?_, ?_, hc⟩
  · unfold impulseResponse pySlice
    rw [h1, h3, h4, List.drop_zero]
  · unfold impulseResponse pySlice
    simp only [h1, h2, h4]
    apply List.ext_getElem?
    intro i
    rw [List.getElem?_drop, List.getElem?_map, List.getElem?_map]
    by_cases hi : i < s.length + 1 - h.length
    · rw [List.getElem?_range hi, List.getElem?_range (by omega), Nat.add_comm]
      rfl
    · rw [List.getElem?_eq_none (by simp; omega), List.getElem?_eq_none (by simp; omega)]
      rfl

/-- **C64 (negation).** With a response of exactly one bin, such as a delta, modes 'same' and 'filtered' give an empty light curve, for every signal. -/
theorem impulse_response_one_bin (s : List K) (a : K) :
    impulseResponse s [a] .same = [] ∧ impulseResponse s [a] .filtered = [] := by
  constructor <;> simp [impulseResponse, pySlice, sliceEnd]

example : impulseResponse [1, 2, (3 : ℚ)] [10, 1] .same = [10, 21, 32] ∧ impulseResponse [1, 2, (3 : ℚ)] [10, 1] .filtered = [21, 32] ∧
    impulseResponse [1, 2, (3 : ℚ)] [10, 1] .full = [10, 21, 32, 3] ∧ impulseResponse [1, 2, (3 : ℚ)] [10] .same = [] := by
  decide +kernel

/-- **C86.** `simple_ir(dt, start, width, intensity)` is 0 in the bins up to `⌊start/dt⌋`, then `intensity` in the following `⌊width/dt⌋` bins. -/
theorem simple_ir_spec (dt start width intensity : K) (hdt : 0 < dt) (hs : 0 ≤ start) (hw : 0 ≤ width) :
    ∃ h, simpleIr dt start width intensity = .ok h ∧ (h.length : Int) = ⌊start / dt⌋ + ⌊width / dt⌋ ∧
      ∀ i < h.length, h[i]? = some (if (i : Int) < ⌊start / dt⌋ then 0 else intensity) := by
  have h1 : pyInt (start / dt) = ⌊start / dt⌋ := by unfold pyInt; rw [if_pos (by positivity)]
  have h2 : pyInt (width / dt) = ⌊width / dt⌋ := by unfold pyInt; rw [if_pos (by positivity)]
  have h3 : 0 ≤ ⌊start / dt⌋ := Int.floor_nonneg.2 (by positivity)
  have h4 : 0 ≤ ⌊width / dt⌋ := Int.floor_nonneg.2 (by positivity)
  unfold simpleIr
  rw [if_neg hdt.ne', h1, h2, if_neg (by omega)]
  refine ⟨_, rfl, ?_, ?_⟩
  · simp only [List.length_append, List.length_replicate, List.length_map]
    push_cast
    omega
  · intro i hi
    simp only [List.length_append, List.length_replicate, List.length_map] at hi
    by_cases hlt : (i : Int) < ⌊start / dt⌋
    · rw [if_pos hlt, List.getElem?_append_left (by simp; omega)]
      rw [List.getElem?_replicate, if_pos (by omega)]
    · rw [if_neg hlt, List.getElem?_append_right (by simp; omega)]
      rw [List.getElem?_map, List.getElem?_replicate, if_pos (by simp; omega)]
      simp

/-- **C86 (negation).** The documented way of making a delta response, a width of 1, does so only with unit bins: with bins of 1/8 it gives 8 bins, and with bins of 2 none at all. -/
theorem simple_ir_delta : simpleIr (1/8 : ℚ) 0 1 1 = .ok [1, 1, 1, 1, 1, 1, 1, 1] ∧ simpleIr (2 : ℚ) 0 1 1 = .ok [] ∧
    simpleIr (1 : ℚ) 2 1 5 = .ok [0, 0, 5] := by decide +kernel

/-! ### Transfer functions -/

/-- the mean over all the energies at each time -/
def meanOverRows (columns : Nat) (rows : List (List K)) : List (Option K) :=
  (List.range columns).map fun j => some (average (rows.map fun r => r.getD j 0))

/-- **C84 (partial).** With the default energy range, `time_response` is the mean over the rows (energies) only when the table has more columns (times) than rows; in general only the first `columns - 1` rows are used.
Missing: the mean over all the energies of every table (false, below). -/
theorem time_response_default_partial (data : List (List K)) (estart de : K) (hrows : 2 ≤ data.length)
    (hcols : 2 ≤ (data.headD []).length) :
    timeResponse data estart de none none =
        .ok (meanOverRows (data.headD []).length (data.take ((data.headD []).length - 1))) ∧
    (data.length < (data.headD []).length →
      timeResponse data estart de none none = .ok (meanOverRows (data.headD []).length data)) := by
  have h1 : timeResponse data estart de none none =
      .ok (meanOverRows (data.headD []).length (data.take ((data.headD []).length - 1))) := by
    unfold timeResponse
    simp only
    rw [if_neg (by omega), if_neg (by omega), if_neg (by omega)]
    have e : (((data.headD []).length : Int) - 1).toNat = (data.headD []).length - 1 := by omega
    rw [e]
    congr 1
    unfold meanRows meanOverRows
    apply List.map_congr_left
    intro j _
    rw [Int.toNat_zero, List.drop_zero, if_neg]
    · rfl
    · intro hc
      have := congrArg List.length hc
      rw [List.length_take, List.length_nil] at this
      omega
  refine ⟨h1, fun h => ?_⟩
  rw [h1, List.take_of_length_le (by omega)]

/-- **C84 (negation).** A table with as many energies as times: the last energy is left out. And with a non-zero initial energy, asking for the first energy of the table, from `estart` to `estart + de`, is out of range. -/
theorem time_response_drops :
    timeResponse [[1, 1], [3, (5 : ℚ)]] 0 1 none none = .ok [some 1, some 1] ∧
    meanOverRows 2 [[1, 1], [3, (5 : ℚ)]] = [some 2, some 3] ∧
    timeResponse [[1, 1, 1], [3, 5, (7 : ℚ)]] 2 1 (some 2) (some 3) = .error .valueError := by decide +kernel

/-- **C84 (energy response).** The energy response averages every row over all the times. -/
theorem energy_response_spec (data : List (List K)) (i : Nat) (r : List K) (h : data[i]? = some r) :
    (energyResponse data)[i]? = some (average r) ∧ (energyResponse data).length = data.length := by
  unfold energyResponse
  rw [List.getElem?_map, h]
  exact ⟨rfl, by simp⟩

end Stingray.Simulator

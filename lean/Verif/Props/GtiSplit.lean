import Verif.Props.GtiSegments
import Verif.Lemmas.GtiJoin
import Mathlib.Data.List.Chain

/-!
# C138: chunks of GTIs by exposure, and splitting at large gaps
-/

set_option linter.unusedSectionVars false

namespace Stingray.Gti

open Stingray.Spec

variable {K : Type} [Field K] [LinearOrder K] [IsStrictOrderedRing K]

/-! ### Large gaps -/

/-- The gaps between consecutive GTIs, as pairs of an end and the next start. -/
def gaps (gtis : List (K × K)) : List (K × K) := List.zipWith (fun a b => (a.2, b.1)) gtis gtis.tail

theorem findLargeBtisLoop_eq (limit : K) (g : K × K) (gs : List (K × K)) :
    findLargeBtisLoop limit g.2 gs
      = ((gaps (g :: gs)).filter fun p => decide (limit < p.2 - p.1)).map fun p => (p.1 + p.2) / 2 := by
  induction gs generalizing g with
  | nil => rfl
  | cons k ks ih =>
    have : gaps (g :: k :: ks) = (g.2, k.1) :: gaps (k :: ks) := rfl
    rw [this, findLargeBtisLoop, ih, List.filter_cons]
    by_cases h : limit < k.1 - g.2
    · simp [h, add_comm]
    · simp [h]

/-- **C138.** For a limit that is not negative, `find_large_bad_time_intervals` gives the midpoint of every gap between consecutive GTIs that is longer than the limit, and nothing else, in order; an empty list is refused. -/
theorem large_btis_spec (gtis : List (K × K)) (limit : K) (hl : 0 ≤ limit) :
    findLargeBtis gtis limit =
      if gtis = [] then .error .indexError
      else .ok (((gaps gtis).filter fun p => decide (limit < p.2 - p.1)).map fun p => (p.1 + p.2) / 2) := by
  cases gtis with
  | nil => rfl
  | cons g gs =>
    rw [if_neg (by simp)]
    simp only [findLargeBtis, findLargeBtisLoop]
    rw [if_neg (by rw [sub_self]; exact not_lt.2 hl), List.nil_append, findLargeBtisLoop_eq]

example : findLargeBtis [((0 : ℚ), 30), (86450, 86460), (86480, 86490)] 86400 = .ok [43240] := by decide +kernel

/-! ### Pieces -/

theorem splitLoop_pieces (G : List (K × K)) (prev : Nat) (idx : List Nat) (c : List (K × K)) (hc : c ∈ (splitLoop G prev idx).1) :
    ∃ (k a b : Nat), (prev :: idx)[k]? = some a ∧ idx[k]? = some b ∧ c = (G.take b).drop a := by
  induction idx generalizing prev with
  | nil => simp [splitLoop] at hc
  | cons i is ih =>
    simp only [splitLoop, List.mem_cons] at hc
    rcases hc with rfl | hc
    · exact ⟨0, prev, i, rfl, rfl, rfl⟩
    · obtain ⟨k, a, b, h1, h2, h3⟩ := ih i hc
      exact ⟨k + 1, a, b, by simpa using h1, by simpa using h2, h3⟩

theorem splitLoop_last (G : List (K × K)) (prev : Nat) (idx : List Nat) (last : Nat) (h : idx.getLast? = some last) :
    (splitLoop G prev idx).2 = last := by
  induction idx generalizing prev with
  | nil => simp at h
  | cons i is ih =>
    simp only [splitLoop]
    cases is with
    | nil => simp at h; subst h; rfl
    | cons j js => exact ih i (by rw [List.getLast?_cons_cons] at h; exact h)

/-- Every piece lies between two consecutive indices, or after the last. -/
theorem split_pieces (G : List (K × K)) (idx : List Nat) (L : List (List (K × K))) (h : splitGtisAtIndices G idx = .ok L)
    (c : List (K × K)) (hc : c ∈ L) :
    (∃ (k a b : Nat), (0 :: idx)[k]? = some a ∧ idx[k]? = some b ∧ c = (G.take b).drop a) ∨
    (∃ last, idx.getLast? = some last ∧ c = G.drop last) := by
  cases idx with
  | nil => simp [splitGtisAtIndices] at h
  | cons i is =>
    simp only [splitGtisAtIndices] at h
    by_cases hi : i = 0
    · subst hi
      simp only [if_true] at h
      cases hl : is.getLast? with
      | none => simp [hl] at h
      | some last =>
        have hne : is ≠ [] := by rintro rfl; simp at hl
        simp only [hl, Except.ok.injEq] at h
        rw [splitLoop_last G 0 is last hl] at h
        have hmem : c ∈ (splitLoop G 0 is).1 ∨ c = G.drop last := by
          rw [← h] at hc
          split_ifs at hc
          · rw [List.mem_append, List.mem_singleton] at hc; exact hc
          · exact Or.inl hc
        rcases hmem with hm | rfl
        · obtain ⟨k, a, b, h1, h2, h3⟩ := splitLoop_pieces G 0 is c hm
          exact Or.inl ⟨k + 1, a, b, by simpa using h1, by simpa using h2, h3⟩
        · refine Or.inr ⟨last, ?_, rfl⟩
          obtain ⟨j, js, rfl⟩ := List.exists_cons_of_ne_nil hne
          rw [List.getLast?_cons_cons]; exact hl
    · simp only [if_neg hi] at h
      cases hl : (i :: is).getLast? with
      | none => simp at hl
      | some last =>
        simp only [hl, Except.ok.injEq] at h
        rw [splitLoop_last G 0 (i :: is) last hl] at h
        have hmem : c ∈ (splitLoop G 0 (i :: is)).1 ∨ c = G.drop last := by
          rw [← h] at hc
          split_ifs at hc
          · rw [List.mem_append, List.mem_singleton] at hc; exact hc
          · exact Or.inl hc
        rcases hmem with hm | rfl
        · exact Or.inl (splitLoop_pieces G 0 (i :: is) c hm)
        · exact Or.inr ⟨last, rfl, rfl⟩

/-! ### Exposure of the chunks -/

theorem exposure_nonneg (l : List (K × K)) (h : ∀ g ∈ l, g.1 ≤ g.2) : 0 ≤ exposure l := by
  induction l with
  | nil => simp [exposure]
  | cons g gs ih =>
    have h1 := ih fun x hx => h x (List.mem_cons_of_mem _ hx)
    have h2 := h g (by simp)
    simp only [exposure, List.map_cons, List.sum_cons] at h1 ⊢
    linarith

theorem exposureEdges_get (acc : K) (G : List (K × K)) (j : Nat) (hj : j < G.length) :
    (exposureEdges acc G)[j]? = some (acc + exposure (G.take j)) := by
  induction G generalizing acc j with
  | nil => simp at hj
  | cons g gs ih =>
    cases j with
    | zero => simp [exposureEdges, exposure]
    | succ j =>
      simp only [exposureEdges, List.getElem?_cons_succ, List.take_succ_cons]
      rw [ih _ j (by simpa using hj)]
      simp only [exposure, List.map_cons, List.sum_cons]
      congr 1; ring

theorem exposureEdges_length (acc : K) (G : List (K × K)) : (exposureEdges acc G).length = G.length := by
  induction G generalizing acc with
  | nil => rfl
  | cons g gs ih => simp [exposureEdges, ih]

theorem exposure_take_drop (G : List (K × K)) (a j : Nat) (h : a ≤ j) :
    exposure ((G.take j).drop a) = exposure (G.take j) - exposure (G.take a) := by
  have : G.take j = G.take a ++ (G.take j).drop a := by
    conv_lhs => rw [← List.take_append_drop a (G.take j)]
    rw [List.take_take, min_eq_left h]
  conv_rhs => rw [this]
  rw [exposure_append]; ring

theorem exposureEdges_sorted (G : List (K × K)) (hG : ∀ g ∈ G, g.1 ≤ g.2) : (exposureEdges 0 G).Pairwise (· ≤ ·) := by
  rw [List.pairwise_iff_getElem]
  intro i j hi hj hij
  rw [exposureEdges_length] at hi hj
  have h1 := exposureEdges_get 0 G i hi
  have h2 := exposureEdges_get 0 G j hj
  rw [List.getElem?_eq_getElem (by rw [exposureEdges_length]; exact hi), Option.some.injEq] at h1
  rw [List.getElem?_eq_getElem (by rw [exposureEdges_length]; exact hj), Option.some.injEq] at h2
  rw [h1, h2]
  have := exposure_nonneg ((G.take j).drop i) (fun g hg => hG g (List.mem_of_mem_take (List.mem_of_mem_drop hg)))
  rw [exposure_take_drop G i j hij.le] at this
  linarith

variable [FloorRing K]

/-- Any chunk, without its last GTI, has less than the mean exposure of the chunks. -/
theorem chunk_bound (G : List (K × K)) (hG : ∀ g ∈ G, g.1 ≤ g.2) (n : Int) (hn : 2 ≤ n) (hpos : 0 < exposure G)
    (L : List (List (K × K)))
    (h : splitGtisAtIndices G ((arange 0 (exposure G + exposure G / (n : K)) (exposure G / (n : K))).map
      (searchsortedLeft (exposureEdges 0 G))) = .ok L)
    (c : List (K × K)) (hc : c ∈ L) (pre : List (K × K)) (g : K × K) (he : c = pre ++ [g]) :
    exposure pre < exposure G / (n : K) := by
  have hnK : (0 : K) < n := by
    have : (0 : Int) < n := by omega
    exact_mod_cast this
  have hcast : (n : K) = ((n.toNat : Nat) : K) := by
    have h0 : ((n.toNat : Nat) : Int) = n := Int.toNat_of_nonneg (by omega)
    have h1 := congrArg (Int.cast (R := K)) h0
    rw [← h1, Int.cast_natCast]
  set E := exposure G / (n : K) with hE
  have hEpos : 0 < E := div_pos hpos hnK
  have hET : E * n = exposure G := div_mul_cancel₀ _ hnK.ne'
  have hsort := exposureEdges_sorted G hG
  have hlen : ⌈(exposure G + E - 0) / E⌉₊ = n.toNat + 1 := by
    rw [sub_zero, add_div, div_self hEpos.ne', ← hET, mul_div_cancel_left₀ _ hEpos.ne']
    rw [hcast]
    exact_mod_cast Nat.ceil_natCast (R := K) (n.toNat + 1)
  have hidx : ∀ k : Nat, k < n.toNat + 1 →
      ((arange 0 (exposure G + E) E).map (searchsortedLeft (exposureEdges 0 G)))[k]? = some (searchsortedLeft (exposureEdges 0 G) ((k : K) * E)) := by
    intro k hk
    unfold arange
    rw [List.getElem?_map, List.getElem?_map, hlen, List.getElem?_range hk]
    simp
  have hidxlen : ((arange 0 (exposure G + E) E).map (searchsortedLeft (exposureEdges 0 G))).length = n.toNat + 1 := by
    unfold arange
    rw [List.length_map, List.length_map, List.length_range, hlen]
  -- the exposure before a GTI
  have hedge : ∀ j, j < G.length → ∀ v, (j < searchsortedLeft (exposureEdges 0 G) v ↔ exposure (G.take j) < v) := by
    intro j hj v
    have := lt_searchsortedLeft_iff _ hsort v j _ (exposureEdges_get 0 G j hj)
    rwa [zero_add] at this
  have htot : ∀ j, exposure (G.take j) ≤ exposure G := by
    intro j
    have h1 := exposure_nonneg (G.drop j) (fun g hg => hG g (List.mem_of_mem_drop hg))
    have h2 := exposure_append (G.take j) (G.drop j)
    rw [List.take_append_drop] at h2
    linarith
  have hnn : ∀ j, 0 ≤ exposure (G.take j) := fun j => exposure_nonneg _ (fun g hg => hG g (List.mem_of_mem_take hg))
  rcases split_pieces G _ L h c hc with ⟨k, a, b, ha, hb, hcab⟩ | ⟨last, hlast, hcl⟩
  · have hk : k < n.toNat + 1 := by
      rw [← hidxlen]
      exact (List.getElem?_eq_some_iff.1 hb).1
    rw [hidx k hk, Option.some.injEq] at hb
    subst hb
    have hlenc : c.length = pre.length + 1 := by rw [he]; simp
    have hl2 : a + pre.length < searchsortedLeft (exposureEdges 0 G) ((k : K) * E) ∧ a + pre.length < G.length := by
      rw [hcab, List.length_drop, List.length_take] at hlenc
      omega
    have hpre : pre = (G.take (a + pre.length)).drop a := by
      have h1 : pre = c.take pre.length := by rw [he]; simp
      conv_lhs => rw [h1, hcab]
      rw [List.take_drop, List.take_take, min_eq_left (by omega)]
    rw [hpre, exposure_take_drop G _ _ (by omega)]
    have h1 := (hedge _ hl2.2 _).1 hl2.1
    cases k with
    | zero =>
      rw [Nat.cast_zero, zero_mul] at h1
      exact absurd (hnn _) (not_le.2 h1)
    | succ k =>
      rw [List.getElem?_cons_succ, hidx k (by omega), Option.some.injEq] at ha
      subst ha
      have h2 : ¬ exposure (G.take (searchsortedLeft (exposureEdges 0 G) ((k : K) * E))) < (k : K) * E := by
        rw [← hedge _ (by omega)]
        exact lt_irrefl _
      push_cast at h1
      have := not_lt.1 h2
      linarith
  · have hlv : last = searchsortedLeft (exposureEdges 0 G) (exposure G) := by
      rw [List.getLast?_eq_getElem?, hidxlen, Nat.add_sub_cancel, hidx _ (by omega), Option.some.injEq] at hlast
      rw [← hlast, ← hET, mul_comm, hcast]
    have hlenc : c.length = pre.length + 1 := by rw [he]; simp
    have hl2 : last + pre.length < G.length := by
      rw [hcl, List.length_drop] at hlenc
      omega
    have hpre : pre = (G.take (last + pre.length)).drop last := by
      have h1 : pre = c.take pre.length := by rw [he]; simp
      conv_lhs => rw [h1, hcl]
      rw [List.take_drop]
    rw [hpre, exposure_take_drop G _ _ (by omega)]
    have h2 : ¬ exposure (G.take last) < exposure G := by
      rw [← hedge _ (by omega), ← hlv]
      exact lt_irrefl _
    have := htot (last + pre.length)
    have := not_lt.1 h2
    linarith

theorem splitByExposure_cases (rint : K → Int) (gtis : List (K × K)) (chunk : K) (L : List (List (K × K)))
    (h : splitGtisByExposure rint gtis chunk = .ok L) :
    (rint (exposure gtis / chunk) ≤ 1 ∧ L = [gtis]) ∨
    (2 ≤ rint (exposure gtis / chunk) ∧ ∃ G, (G = gtis ∨ G = gtis.flatMap (cutGti chunk)) ∧
      splitGtisAtIndices G ((arange 0 (exposure G + exposure G / (rint (exposure gtis / chunk) : K))
        (exposure G / (rint (exposure gtis / chunk) : K))).map (searchsortedLeft (exposureEdges 0 G))) = .ok L) := by
  unfold splitGtisByExposure at h
  have hrough : (gtis.map fun g => g.2 - g.1).sum = exposure gtis := rfl
  simp only [hrough] at h
  split_ifs at h with h1 h2
  · exact Or.inl ⟨h1, by simpa using h.symm⟩
  · exact Or.inr ⟨by omega, _, Or.inr rfl, h⟩
  · exact Or.inr ⟨by omega, _, Or.inl rfl, h⟩

/-- **C138.** However `split_gtis_by_exposure` splits forward-running GTIs, every chunk but for its last GTI holds at most one and a half times the requested exposure; when the exposure rounds to at least two chunks it holds less than the mean exposure of a chunk; and otherwise the GTIs are returned as the only chunk. -/
theorem exposure_chunks_bounded (rint : K → Int) (hr : ∀ x, |(rint x : K) - x| ≤ 1 / 2) (gtis : List (K × K)) (chunk : K)
    (hc : 0 < chunk) (hg : ∀ g ∈ gtis, g.1 ≤ g.2) (L : List (List (K × K))) (h : splitGtisByExposure rint gtis chunk = .ok L) :
    (rint (exposure gtis / chunk) ≤ 1 → L = [gtis]) ∧
    ∀ c ∈ L, ∀ pre g, c = pre ++ [g] →
      exposure pre ≤ 3 / 2 * chunk ∧
      (2 ≤ rint (exposure gtis / chunk) → exposure pre < exposure gtis / (rint (exposure gtis / chunk) : K)) := by
  have hb := abs_le.1 (hr (exposure gtis / chunk))
  have hx : exposure gtis / chunk * chunk = exposure gtis := div_mul_cancel₀ _ hc.ne'
  rcases splitByExposure_cases rint gtis chunk L h with ⟨hn, rfl⟩ | ⟨hn, G, hG, hs⟩
  · refine ⟨fun _ => rfl, ?_⟩
    intro c hcm pre g he
    rw [List.mem_singleton] at hcm
    subst hcm
    refine ⟨?_, fun h2 => by omega⟩
    have h1 : (rint (exposure c / chunk) : K) ≤ 1 := by exact_mod_cast hn
    have h2 : exposure c / chunk ≤ 3 / 2 := by linarith [hb.1]
    have h3 : exposure c ≤ 3 / 2 * chunk := by
      rw [← hx]; exact mul_le_mul_of_nonneg_right h2 hc.le
    have h4 : exposure c = exposure pre + (g.2 - g.1) := by
      rw [he, exposure_append]; simp [exposure]
    have := hg g (by rw [he]; simp)
    linarith
  · refine ⟨fun h1 => by omega, ?_⟩
    generalize hnn : rint (exposure gtis / chunk) = n at *
    have hnK : (2 : K) ≤ n := by exact_mod_cast hn
    have hGe : exposure G = exposure gtis ∧ ∀ g ∈ G, g.1 ≤ g.2 := by
      rcases hG with rfl | rfl
      · exact ⟨rfl, hg⟩
      · obtain ⟨_, c2, c3⟩ := cut_all_spec chunk hc gtis hg
        exact ⟨c2, c3⟩
    have hq : 0 < exposure gtis / chunk := by linarith [hb.2]
    have hpos : 0 < exposure gtis := by rw [← hx]; exact mul_pos hq hc
    intro c hcm pre g he
    have key := chunk_bound G hGe.2 n hn (by rw [hGe.1]; exact hpos) L hs c hcm pre g he
    rw [hGe.1] at key
    refine ⟨?_, fun _ => key⟩
    have h1 : exposure gtis / (n : K) ≤ 3 / 2 * chunk := by
      rw [div_le_iff₀ (by linarith), ← hx]
      have : exposure gtis / chunk ≤ 3 / 2 * (n : K) := by linarith [hb.1]
      have := mul_le_mul_of_nonneg_right this hc.le
      linarith
    linarith

example : splitGtisByExposure (fun x : ℚ => ⌊x + 1/2⌋) [((0 : ℚ), 2), (3, 5), (6, 7), (8, 10), (11, 13), (14, 15)] 4 =
    .ok [[(0, 2), (3, 5)], [(6, 7), (8, 10)], [(11, 13), (14, 15)]] := by decide +kernel

/-! ### Large gaps are never inside a chunk -/

theorem gaps_get (gtis : List (K × K)) (k : Nat) (p : K × K) (h : (gaps gtis)[k]? = some p) :
    ∃ a b, gtis[k]? = some a ∧ gtis[k + 1]? = some b ∧ p = (a.2, b.1) := by
  unfold gaps at h
  rw [List.getElem?_zipWith] at h
  rw [List.getElem?_tail] at h
  cases ha : gtis[k]? with
  | none => simp [ha] at h
  | some a =>
    cases hb : gtis[k + 1]? with
    | none => simp [ha, hb] at h
    | some b => exact ⟨a, b, rfl, rfl, by simpa [ha, hb] using h.symm⟩

theorem wf_get (gtis : List (K × K)) (hw : WellFormed gtis) (i j : Nat) (a b : K × K) (ha : gtis[i]? = some a) (hb : gtis[j]? = some b)
    (hij : i < j) : a.2 ≤ b.1 := by
  obtain ⟨hi, rfl⟩ := List.getElem?_eq_some_iff.1 ha
  obtain ⟨hj, rfl⟩ := List.getElem?_eq_some_iff.1 hb
  exact List.pairwise_iff_getElem.1 hw.2 i j hi hj hij

theorem wf_ends (gtis : List (K × K)) (hw : WellFormed gtis) : (gtis.map Prod.snd).Pairwise (· ≤ ·) := by
  rw [List.pairwise_map]
  exact hw.2.imp_of_mem fun {a b} _ hb h => le_trans h (hw.1 b hb)

theorem gaps_sorted (gtis : List (K × K)) (hw : WellFormed gtis) : (gaps gtis).Pairwise fun p q => p.1 ≤ q.1 ∧ p.2 ≤ q.2 := by
  rw [List.pairwise_iff_getElem]
  intro i j hi hj hij
  obtain ⟨a, b, ha, hb, e⟩ := gaps_get gtis i _ (List.getElem?_eq_getElem hi)
  obtain ⟨c, d, hc, hd, e'⟩ := gaps_get gtis j _ (List.getElem?_eq_getElem hj)
  rw [e, e']
  have h1 := wf_get gtis hw i j a c ha hc hij
  have h2 := wf_get gtis hw (i + 1) (j + 1) b d hb hd (by omega)
  exact ⟨le_trans h1 (hw.1 c (List.mem_of_getElem? hc)), le_trans (hw.1 b (List.mem_of_getElem? hb)) h2⟩

/-- The split of the list of GTIs at the midpoint of a gap. -/
theorem gap_split (gtis : List (K × K)) (hw : WellFormed gtis) (p : K × K) (hp : p ∈ gaps gtis) (m : K) (h1 : p.1 < m) (h2 : m < p.2) :
    1 ≤ searchsortedLeft (gtis.map Prod.snd) m ∧
    ∀ j g, gtis[j]? = some g →
      (j < searchsortedLeft (gtis.map Prod.snd) m → g.2 ≤ p.1) ∧ (searchsortedLeft (gtis.map Prod.snd) m ≤ j → p.2 ≤ g.1) := by
  obtain ⟨k, hk⟩ := List.getElem?_of_mem hp
  obtain ⟨a, b, ha, hb, rfl⟩ := gaps_get gtis k p hk
  have hs := wf_ends gtis hw
  have hiff : ∀ j g, gtis[j]? = some g → (j < searchsortedLeft (gtis.map Prod.snd) m ↔ g.2 < m) := by
    intro j g hj
    exact lt_searchsortedLeft_iff _ hs m j g.2 (by rw [List.getElem?_map, hj]; rfl)
  constructor
  · have := (hiff k a ha).2 h1
    omega
  · intro j g hj
    constructor
    · intro hlt
      have hg := (hiff j g hj).1 hlt
      rcases Nat.lt_trichotomy j k with hjk | rfl | hjk
      · exact le_trans (wf_get gtis hw j k g a hj ha hjk) (hw.1 a (List.mem_of_getElem? ha))
      · rw [ha, Option.some.injEq] at hj; subst hj; exact le_refl _
      · exfalso
        have : b.1 ≤ g.1 := by
          rcases Nat.lt_or_ge (k + 1) j with h | h
          · exact le_trans (hw.1 b (List.mem_of_getElem? hb)) (wf_get gtis hw (k + 1) j b g hb hj h)
          · have : j = k + 1 := by omega
            subst this
            rw [hb, Option.some.injEq] at hj; subst hj; exact le_refl _
        have := hw.1 g (List.mem_of_getElem? hj)
        simp only at h2
        linarith
    · intro hge
      have hg : ¬ g.2 < m := by rw [← hiff j g hj]; omega
      have hkj : k < j := by
        by_contra hcon
        apply hg
        rcases Nat.lt_or_ge j k with h | h
        · have h3 := wf_get gtis hw j k g a hj ha h
          have h4 := hw.1 a (List.mem_of_getElem? ha)
          simp only at h1
          linarith
        · have : j = k := by omega
          subst this
          rw [ha, Option.some.injEq] at hj; subst hj; exact h1
      rcases Nat.lt_or_ge (k + 1) j with h | h
      · exact le_trans (hw.1 b (List.mem_of_getElem? hb)) (wf_get gtis hw (k + 1) j b g hb hj h)
      · have : j = k + 1 := by omega
        subst this
        rw [hb, Option.some.injEq] at hj; subst hj; exact le_refl _

theorem mem_take_drop {α : Type} (G : List α) (a b : Nat) (x : α) (h : x ∈ (G.take b).drop a) : ∃ j, a ≤ j ∧ j < b ∧ G[j]? = some x := by
  obtain ⟨i, hi⟩ := List.getElem?_of_mem h
  rw [List.getElem?_drop, List.getElem?_take] at hi
  split_ifs at hi with hlt
  exact ⟨a + i, by omega, hlt, hi⟩

/-- No piece of a split at sorted indices has GTIs on both sides of one of the indices. -/
theorem split_sides (G : List (K × K)) (idx : List Nat) (hs : idx.Pairwise (· ≤ ·)) (L : List (List (K × K)))
    (h : splitGtisAtIndices G idx = .ok L) (i : Nat) (hi : i ∈ idx) (c : List (K × K)) (hc : c ∈ L) :
    (∀ g ∈ c, ∃ j, j < i ∧ G[j]? = some g) ∨ (∀ g ∈ c, ∃ j, i ≤ j ∧ G[j]? = some g) := by
  obtain ⟨q, hq⟩ := List.getElem?_of_mem hi
  have hmono : ∀ (r t x y : Nat), idx[r]? = some x → idx[t]? = some y → r ≤ t → x ≤ y := by
    intro r t x y hr ht hrt
    obtain ⟨h1, rfl⟩ := List.getElem?_eq_some_iff.1 hr
    obtain ⟨h2, rfl⟩ := List.getElem?_eq_some_iff.1 ht
    rcases Nat.lt_or_ge r t with h | h
    · exact List.pairwise_iff_getElem.1 hs r t h1 h2 h
    · have : r = t := by omega
      subst this; exact le_refl _
  rcases split_pieces G idx L h c hc with ⟨k, a, b, ha, hb, rfl⟩ | ⟨last, hlast, rfl⟩
  · rcases Nat.lt_or_ge q k with hqk | hqk
    · right
      intro g hg
      obtain ⟨j, h1, _, h3⟩ := mem_take_drop G a b g hg
      refine ⟨j, ?_, h3⟩
      obtain ⟨k', rfl⟩ : ∃ k', k = k' + 1 := ⟨k - 1, by omega⟩
      rw [List.getElem?_cons_succ] at ha
      exact le_trans (hmono q k' i a hq ha (by omega)) h1
    · left
      intro g hg
      obtain ⟨j, _, h2, h3⟩ := mem_take_drop G a b g hg
      exact ⟨j, lt_of_lt_of_le h2 (hmono k q b i hb hq hqk), h3⟩
  · right
    intro g hg
    obtain ⟨j, hj⟩ := List.getElem?_of_mem hg
    rw [List.getElem?_drop] at hj
    refine ⟨last + j, ?_, hj⟩
    rw [List.getLast?_eq_getElem?] at hlast
    have := hmono q _ i last hq hlast (by have := (List.getElem?_eq_some_iff.1 hq).1; omega)
    omega

theorem cut_inside (chunk : K) (hc : 0 < chunk) (g : K × K) (hg : g.1 ≤ g.2) (p : K × K) (hp : p ∈ cutGti chunk g) :
    g.1 ≤ p.1 ∧ p.2 ≤ g.2 := by
  obtain ⟨h1, _, h3⟩ := cutGti_spec chunk hc g hg
  have hpp := h3 p hp
  exact ⟨((h1 p.1).1 ⟨p, hp, le_refl _, hpp⟩).1, ((h1 p.2).1 ⟨p, hp, hpp, le_refl _⟩).2⟩

/-- Every GTI of a chunk lies inside one of the input GTIs. -/
theorem chunk_inside (rint : K → Int) (hr : ∀ x, |(rint x : K) - x| ≤ 1 / 2) (gtis : List (K × K)) (chunk : K)
    (hc : 0 < chunk) (hg : ∀ g ∈ gtis, g.1 ≤ g.2) (L : List (List (K × K))) (h : splitGtisByExposure rint gtis chunk = .ok L)
    (c : List (K × K)) (hcm : c ∈ L) (p : K × K) (hp : p ∈ c) : ∃ g ∈ gtis, g.1 ≤ p.1 ∧ p.2 ≤ g.2 := by
  rcases splitByExposure_cases rint gtis chunk L h with ⟨_, rfl⟩ | ⟨hn, G, hG, hs⟩
  · rw [List.mem_singleton] at hcm
    subst hcm
    exact ⟨p, hp, le_refl _, le_refl _⟩
  · have hpG : p ∈ G := by
      rcases split_pieces G _ L hs c hcm with ⟨k, a, b, _, _, rfl⟩ | ⟨last, _, rfl⟩
      · exact List.mem_of_mem_take (List.mem_of_mem_drop hp)
      · exact List.mem_of_mem_drop hp
    rcases hG with rfl | rfl
    · exact ⟨p, hpG, le_refl _, le_refl _⟩
    · rw [List.mem_flatMap] at hpG
      obtain ⟨g, hgm, hpg⟩ := hpG
      exact ⟨g, hgm, cut_inside chunk hc g (hg g hgm) p hpg⟩

theorem parts_preserve (rint : K → Int) (hr : ∀ x, |(rint x : K) - x| ≤ 1 / 2) (chunk : K) (hc : 0 < chunk)
    (base : List (List (K × K))) (parts : List (List (List (K × K))))
    (h : List.Forall₂ (fun l L => splitGtisByExposure rint l chunk = .ok L) base parts)
    (hg : ∀ g ∈ base.flatten, g.1 ≤ g.2) :
    (∀ x, Covers parts.flatten.flatten x ↔ Covers base.flatten x) ∧ exposure parts.flatten.flatten = exposure base.flatten := by
  induction h with
  | nil => simp
  | @cons l L base parts hl _ ih =>
    obtain ⟨L', e, h1, h2, _⟩ := split_gtis_by_exposure_preserves rint hr l chunk hc (fun g hgm => hg g (by simp [hgm]))
    rw [hl, Except.ok.injEq] at e
    subst e
    obtain ⟨i1, i2⟩ := ih (fun g hgm => hg g (by rw [List.flatten_cons, List.mem_append]; exact Or.inr hgm))
    constructor
    · intro x
      rw [List.flatten_cons, List.flatten_append, List.flatten_cons, covers_append, covers_append, h1, i1]
    · rw [List.flatten_cons, List.flatten_append, List.flatten_cons, exposure_append, exposure_append, h2, i2]

/-- **C138 (new interval at large gaps, partial).** For ordered GTIs with at least one gap longer than `new_interval_if_gti_sep`, `split_gtis_by_exposure` succeeds; the chunks together cover what the GTIs cover and have the same exposure; no chunk has GTIs on both sides of a gap longer than the given separation; and every chunk but for its last GTI holds at most one and a half times the requested exposure. Without such a gap the call raises `IndexError` (`split_gtis_by_exposure_sep_raises`), which is what is missing. -/
theorem exposure_sep_partial (rint : K → Int) (hr : ∀ x, |(rint x : K) - x| ≤ 1 / 2) (gtis : List (K × K)) (hw : WellFormed gtis)
    (chunk sep : K) (hc : 0 < chunk) (hsep : 0 ≤ sep) (hex : ∃ p ∈ gaps gtis, sep < p.2 - p.1) :
    ∃ L, splitGtisByExposureSep rint gtis chunk sep = .ok L ∧
      (∀ x, Covers L.flatten x ↔ Covers gtis x) ∧ exposure L.flatten = exposure gtis ∧
      (∀ p ∈ gaps gtis, sep < p.2 - p.1 → ∀ c ∈ L, (∀ g ∈ c, g.2 ≤ p.1) ∨ (∀ g ∈ c, p.2 ≤ g.1)) ∧
      (∀ c ∈ L, ∀ pre g, c = pre ++ [g] → exposure pre ≤ 3 / 2 * chunk) := by
  set mids := ((gaps gtis).filter fun p => decide (sep < p.2 - p.1)).map fun p => (p.1 + p.2) / 2 with hmids
  set idx := mids.map (searchsortedLeft (gtis.map Prod.snd)) with hidx
  have hne : gtis ≠ [] := by
    rintro rfl
    obtain ⟨p, hp, _⟩ := hex
    simp [gaps] at hp
  have hfind : findLargeBtis gtis sep = .ok mids := by
    rw [large_btis_spec gtis sep hsep, if_neg hne]
  have hsorted : idx.Pairwise (· ≤ ·) := by
    rw [hidx, hmids, List.pairwise_map, List.pairwise_map]
    refine ((gaps_sorted gtis hw).filter _).imp ?_
    intro p q hpq
    apply searchsortedLeft_mono
    have := hpq.1
    have := hpq.2
    linarith
  have hmid : ∀ p ∈ gaps gtis, sep < p.2 - p.1 →
      searchsortedLeft (gtis.map Prod.snd) ((p.1 + p.2) / 2) ∈ idx ∧ p.1 < (p.1 + p.2) / 2 ∧ (p.1 + p.2) / 2 < p.2 := by
    intro p hp hlt
    refine ⟨?_, by linarith, by linarith⟩
    rw [hidx, hmids, List.map_map, List.mem_map]
    exact ⟨p, by simp [hp, hlt], rfl⟩
  have hidx0 : idx ≠ [] ∧ idx ≠ [0] := by
    obtain ⟨p, hp, hlt⟩ := hex
    obtain ⟨h1, h2, h3⟩ := hmid p hp hlt
    have h4 := (gap_split gtis hw p hp _ h2 h3).1
    constructor
    · intro h; rw [h] at h1; simp at h1
    · intro h; rw [h, List.mem_singleton] at h1; omega
  obtain ⟨base, hbase, hflat⟩ := (split_gtis_at_indices_concat gtis idx hsorted).2 hidx0.1 hidx0.2
  have hmemg : ∀ l ∈ base, ∀ g ∈ l, g.1 ≤ g.2 := by
    intro l hl g hgl
    exact hw.1 g (by rw [← hflat, List.mem_flatten]; exact ⟨l, hl, hgl⟩)
  obtain ⟨parts, hparts⟩ := mapM_ok_of_forall (fun l => splitGtisByExposure rint l chunk) base (by
    intro l hl
    obtain ⟨L, hL, _⟩ := split_gtis_by_exposure_preserves rint hr l chunk hc (hmemg l hl)
    exact ⟨L, hL⟩)
  have hf2 := mapM_ok_forall2 _ _ _ hparts
  refine ⟨parts.flatten, ?_, ?_, ?_, ?_, ?_⟩
  · simp only [splitGtisByExposureSep, hfind, bind, Except.bind]
    rw [← hidx, hbase]
    simp only []
    rw [hparts]
    rfl
  · intro x
    rw [(parts_preserve rint hr chunk hc base parts hf2 (by rw [hflat]; exact hw.1)).1 x, hflat]
  · rw [(parts_preserve rint hr chunk hc base parts hf2 (by rw [hflat]; exact hw.1)).2, hflat]
  · intro p hp hlt c hcm
    rw [List.mem_flatten] at hcm
    obtain ⟨L, hL, hcL⟩ := hcm
    obtain ⟨l, hl, hlL⟩ := forall2_mem_right hf2 hL
    obtain ⟨h1, h2, h3⟩ := hmid p hp hlt
    have hgs := (gap_split gtis hw p hp _ h2 h3).2
    rcases split_sides gtis idx hsorted base hbase _ h1 l hl with hside | hside
    · left
      intro g hgc
      obtain ⟨g', hg', _, h5⟩ := chunk_inside rint hr l chunk hc (hmemg l hl) L hlL c hcL g hgc
      obtain ⟨j, hj, hjg⟩ := hside g' hg'
      exact le_trans h5 ((hgs j g' hjg).1 hj)
    · right
      intro g hgc
      obtain ⟨g', hg', h4, _⟩ := chunk_inside rint hr l chunk hc (hmemg l hl) L hlL c hcL g hgc
      obtain ⟨j, hj, hjg⟩ := hside g' hg'
      exact le_trans ((hgs j g' hjg).2 hj) h4
  · intro c hcm pre g he
    rw [List.mem_flatten] at hcm
    obtain ⟨L, hL, hcL⟩ := hcm
    obtain ⟨l, hl, hlL⟩ := forall2_mem_right hf2 hL
    exact ((exposure_chunks_bounded rint hr l chunk hc (hmemg l hl) L hlL).2 c hcL pre g he).1

example : splitGtisByExposureSep (fun x : ℚ => ⌊x + 1/2⌋) [((0 : ℚ), 2), (3, 5), (50, 52), (53, 55), (56, 58)] 3 10 =
    .ok [[(0, 2), (3, 5)], [(50, 52), (53, 55)], [(56, 58)]] := by decide +kernel

end Stingray.Gti

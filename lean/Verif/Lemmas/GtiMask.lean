import Verif.Lemmas.GtiBasic
import Mathlib.Data.List.Forall2
import Mathlib.Tactic.Linarith

/-! Helper lemmas for the GTI masks. -/

namespace Stingray.Gti

set_option linter.unusedSectionVars false

open Stingray.Spec

variable {K : Type} [Field K] [LinearOrder K] [IsStrictOrderedRing K]

theorem jitLoop_length (m : K) (cur : Option (K × K)) (rest : List (K × K)) (next : Bool)
    (ts : List K) : (gtiMaskJitLoop m cur rest next ts).length = ts.length := by
  induction ts generalizing cur rest next with
  | nil => simp [gtiMaskJitLoop]
  | cons t ts ih =>
    unfold gtiMaskJitLoop
    rcases cur with _ | c <;> rcases rest with _ | ⟨g, rest⟩ <;> simp only <;> split_ifs <;> simp [ih]

/-- soundness of the compiled loop -/
theorem jitLoop_sound (m : K) (cur : Option (K × K)) (rest : List (K × K)) (next : Bool)
    (ts : List K) :
    List.Forall₂ (fun t b => b = true → ∃ g ∈ cur.toList ++ rest, g.1 ≤ t ∧ t ≤ g.2) ts
      (gtiMaskJitLoop m cur rest next ts) := by
  induction ts generalizing cur rest next with
  | nil => simp [gtiMaskJitLoop]
  | cons t ts ih =>
    have mono : ∀ (c : Option (K × K)) (r : List (K × K)) (n : Bool),
        (∀ g ∈ c.toList ++ r, g ∈ cur.toList ++ rest) →
        List.Forall₂ (fun t b => b = true → ∃ g ∈ cur.toList ++ rest, g.1 ≤ t ∧ t ≤ g.2) ts
          (gtiMaskJitLoop m c r n ts) := by
      intro c r n hsub
      refine (ih c r n).imp ?_
      rintro t b h hb
      obtain ⟨g, hg, h'⟩ := h hb
      exact ⟨g, hsub g hg, h'⟩
    have hrep : ∀ p : K → Prop, List.Forall₂ (fun t b => b = true → p t) (t :: ts)
        (List.replicate (ts.length + 1) false) := by
      intro p
      rw [List.replicate_succ]
      refine List.Forall₂.cons (by simp) ?_
      clear ih mono
      induction ts with
      | nil => simp
      | cons _ _ ih =>
        rw [List.length_cons, List.replicate_succ]
        exact List.Forall₂.cons (by simp) ih
    unfold gtiMaskJitLoop
    rcases cur with _ | c <;> rcases rest with _ | ⟨g, rest⟩ <;> simp only [if_true] <;> (try split_ifs)
    · exact hrep _
    · exact List.Forall₂.cons (by simp) (mono _ _ _ (by intro k hk; simp at hk ⊢; tauto))
    · refine List.Forall₂.cons ?_ (mono _ _ _ (by intro k hk; simp at hk ⊢; tauto))
      intro h
      exact ⟨g, by simp, by simpa using h⟩
    · exact hrep _
    · refine List.Forall₂.cons ?_ (mono _ _ _ (fun k hk => hk))
      intro h
      exact ⟨c, by simp, by simpa using h⟩
    · exact List.Forall₂.cons (by simp) (mono _ _ _ (by intro k hk; simp at hk ⊢; tauto))
    · refine List.Forall₂.cons ?_ (mono _ _ _ (by intro k hk; simp at hk ⊢; tauto))
      intro h
      exact ⟨g, by simp, by simpa using h⟩
    · refine List.Forall₂.cons ?_ (mono _ _ _ (fun k hk => hk))
      intro h
      exact ⟨c, by simp, by simpa using h⟩

theorem forall₂_replicate_false (ts : List K) (p : K → Prop) (h : ∀ t ∈ ts, ¬ p t) :
    List.Forall₂ (fun t b => b = true ↔ p t) ts (List.replicate ts.length false) := by
  induction ts with
  | nil => simp
  | cons t ts ih =>
    rw [List.length_cons, List.replicate_succ]
    exact List.Forall₂.cons (by simpa using h t (by simp))
      (ih (fun t ht => h t (List.mem_cons_of_mem _ ht)))

/-- exactness of the compiled loop once it is "in sync" with the last sample `t0` -/
theorem jitLoop_exact_sync (m : K) (cur : K × K) (rest : List (K × K)) (t0 : K) (ts : List K)
    (hm : ∀ g ∈ cur :: rest, m ≤ g.2 - g.1)
    (hsep : (cur :: rest).Pairwise (fun g h => g.2 < h.1))
    (hup : (cur :: rest).Pairwise (fun g h => g.2 ≤ h.2))
    (hsort : (t0 :: ts).Pairwise (· ≤ ·))
    (hsync : t0 ≤ cur.2)
    (hskip : (t0 :: ts).IsChain
      (fun t t' => (cur :: rest).Pairwise (fun g h => ¬ (t ≤ g.2 ∧ h.2 < t')))) :
    List.Forall₂ (fun t b => b = true ↔ ∃ g ∈ cur :: rest, g.1 ≤ t ∧ t ≤ g.2) ts
      (gtiMaskJitLoop m (some cur) rest false ts) := by
  induction ts generalizing cur rest t0 with
  | nil => simp [gtiMaskJitLoop]
  | cons t ts ih =>
    have hs2 := (List.pairwise_cons.1 hsort).2
    have ht0t := (List.pairwise_cons.1 hsort).1 t (by simp)
    have htts := (List.pairwise_cons.1 hs2).1
    have hk := List.isChain_cons_cons.1 hskip
    have hsepc := List.pairwise_cons.1 hsep
    have hupc := List.pairwise_cons.1 hup
    unfold gtiMaskJitLoop
    simp only [Bool.or_false, decide_eq_true_eq]
    split_ifs with hadv
    · cases rest with
      | nil =>
        have := forall₂_replicate_false (t :: ts) (fun t => ∃ g ∈ [cur], g.1 ≤ t ∧ t ≤ g.2) (by
          intro s hs
          have : t ≤ s := by
            rcases List.mem_cons.1 hs with rfl | hs
            · exact le_rfl
            · exact htts s hs
          simp only [List.mem_singleton, exists_eq_left]
          rintro ⟨_, h2⟩
          linarith)
        simpa using this
      | cons g rest' =>
        have hg := hm g (by simp)
        have hsepg := List.pairwise_cons.1 hsepc.2
        simp only [not_lt.2 hg, if_false]
        have htg : t ≤ g.2 := by
          by_contra hlt
          exact (List.pairwise_cons.1 hk.1).1 g (by simp) ⟨hsync, not_le.1 hlt⟩
        refine List.Forall₂.cons ?_ ?_
        · simp only [decide_eq_true_eq]
          constructor
          · intro h; exact ⟨g, by simp, h⟩
          · rintro ⟨k, hkm, h1, h2⟩
            rcases List.mem_cons.1 hkm with rfl | hkm
            · linarith
            · rcases List.mem_cons.1 hkm with rfl | hkm
              · exact ⟨h1, h2⟩
              · have := hsepg.1 k hkm
                linarith
        · have := ih g rest' t (fun k hk => hm k (List.mem_cons_of_mem _ hk)) hsepc.2 hupc.2 hs2 htg
            (hk.2.imp (fun a b hab => (List.pairwise_cons.1 hab).2))
          refine (List.forall₂_iff_zip.2 ?_)
          obtain ⟨hl, hz⟩ := List.forall₂_iff_zip.1 this
          refine ⟨hl, ?_⟩
          intro a b hab
          rw [hz hab]
          have ha : t ≤ a := htts a (List.of_mem_zip hab).1
          constructor
          · rintro ⟨k, hk, h⟩; exact ⟨k, List.mem_cons_of_mem _ hk, h⟩
          · rintro ⟨k, hk, h⟩
            rcases List.mem_cons.1 hk with rfl | hk
            · linarith [h.2]
            · exact ⟨k, hk, h⟩
    · refine List.Forall₂.cons ?_ ?_
      · simp only [decide_eq_true_eq]
        constructor
        · intro h; exact ⟨cur, by simp, h⟩
        · rintro ⟨k, hkm, h1, h2⟩
          rcases List.mem_cons.1 hkm with rfl | hkm
          · exact ⟨h1, h2⟩
          · have := hsepc.1 k hkm
            exfalso; linarith [not_lt.1 hadv]
      · exact ih cur rest t hm hsep hup hs2 (not_lt.1 hadv) hk.2

/-- exactness of the compiled loop from the start -/
theorem jit_exact (m : K) (gtis : List (K × K)) (ts : List K)
    (hm : ∀ g ∈ gtis, m ≤ g.2 - g.1)
    (hsep : gtis.Pairwise (fun g h => g.2 < h.1))
    (hup : gtis.Pairwise (fun g h => g.2 ≤ h.2))
    (hsort : ts.Pairwise (· ≤ ·))
    (hfirst : ∀ t ∈ ts.head?, ∀ g ∈ gtis, t ≤ g.2)
    (hskip : ts.IsChain (fun t t' => gtis.Pairwise (fun g h => ¬ (t ≤ g.2 ∧ h.2 < t')))) :
    List.Forall₂ (fun t b => b = true ↔ ∃ g ∈ gtis, g.1 ≤ t ∧ t ≤ g.2) ts
      (gtiMaskJit ts gtis m) := by
  unfold gtiMaskJit
  cases ts with
  | nil => simp [gtiMaskJitLoop]
  | cons t ts =>
    unfold gtiMaskJitLoop
    simp only [if_true]
    cases gtis with
    | nil =>
      have := forall₂_replicate_false (t :: ts) (fun t => ∃ g ∈ ([] : List (K × K)), g.1 ≤ t ∧ t ≤ g.2)
        (by simp)
      simpa using this
    | cons g rest =>
      have hg := hm g (by simp)
      have htg := hfirst t (by simp) g (by simp)
      simp only [not_lt.2 hg, if_false]
      refine List.Forall₂.cons ?_ (jitLoop_exact_sync m g rest t ts hm hsep hup hsort htg hskip)
      simp only [decide_eq_true_eq]
      constructor
      · intro h; exact ⟨g, by simp, h⟩
      · rintro ⟨k, hkm, h1, h2⟩
        rcases List.mem_cons.1 hkm with rfl | hkm
        · exact ⟨h1, h2⟩
        · have := (List.pairwise_cons.1 hsep).1 k hkm
          exfalso; linarith

/-! ### The complete mask -/

theorem completeFold (times dt : List K) (safe : K × K) (m eps : K) (gtis : List (K × K))
    (mask : List Bool) (hl : dt.length = times.length) (hm : mask.length = times.length) :
    let out := gtis.foldl (fun mask g =>
      List.zipWith (fun m b => m || b) mask
        (List.zipWith (fun t d => insideComplete safe m eps g t d) times dt)) mask
    out.length = times.length ∧
    ∀ i (h : i < times.length), out[i]? = some (mask[i] ||
      gtis.any (fun g => insideComplete safe m eps g times[i] dt[i])) := by
  induction gtis generalizing mask with
  | nil => simp [hm]
  | cons g gs ih =>
    have hlen : (List.zipWith (fun m b => m || b) mask
        (List.zipWith (fun t d => insideComplete safe m eps g t d) times dt)).length
        = times.length := by simp [hl, hm]
    obtain ⟨h1, h2⟩ := ih _ hlen
    refine ⟨by simpa using h1, ?_⟩
    intro i h
    have := h2 i h
    simp only [List.foldl_cons, this, List.getElem_zipWith, List.any_cons, Bool.or_assoc]

end Stingray.Gti

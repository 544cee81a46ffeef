import Verif.Props.Modeling
import Verif.Spec.Density

/-!
# Properties C98 (tied parameters) and C118 (densities)
-/

set_option linter.unusedSectionVars false

namespace Stingray.Modeling

open Stingray Stingray.Spec

/-! ### Specification -/

/-- Every tie is a function of parameters that are not tied, or that come earlier in the model. -/
def Backward (ps : List Par) : Prop :=
  ∀ (i : Nat) (p : Par) (g : List ℝ → ℝ), ps[i]? = some p → p.tied = some g → ∀ u v : List ℝ, u.length = ps.length → v.length = ps.length →
    (∀ (j : Nat) (q : Par), ps[j]? = some q → q.tied = none ∨ j < i → u[j]? = v[j]?) → g u = g v

/-- `w` is `v`, moved to the nearest bound if it is outside of the bounds of the parameter. -/
def Clipped (p : Par) (v w : ℝ) : Prop :=
  (∀ l h, p.lo = some l → p.hi = some h → l ≤ h) →
    (∀ l, p.lo = some l → l ≤ w ∧ (v < l → w = l)) ∧ (∀ h, p.hi = some h → w ≤ h ∧ (h < v → w = h)) ∧
    ((∀ l, p.lo = some l → l ≤ v) → (∀ h, p.hi = some h → v ≤ h) → w = v)

/-- a parameter that is neither fixed nor tied -/
def Par.free (p : Par) : Bool := !p.fixed && !p.tied.isSome

/-! ### Lemmas -/

/-- same parameter but for the value -/
def Same (p q : Par) : Prop := q.fixed = p.fixed ∧ q.lo = p.lo ∧ q.hi = p.hi ∧ q.tied = p.tied

theorem Same.refl (p : Par) : Same p p := ⟨rfl, rfl, rfl, rfl⟩

theorem Same.trans {p q r : Par} (h : Same p q) (h' : Same q r) : Same p r :=
  ⟨h'.1.trans h.1, h'.2.1.trans h.2.1, h'.2.2.1.trans h.2.2.1, h'.2.2.2.trans h.2.2.2⟩

/-- the list `qs` has the same parameters as `ps`, with other values -/
def SameAll (ps qs : List Par) : Prop := qs.length = ps.length ∧ ∀ (i : Nat) (p : Par), ps[i]? = some p → ∃ q, qs[i]? = some q ∧ Same p q

theorem SameAll.refl (ps : List Par) : SameAll ps ps := ⟨rfl, fun _ p h => ⟨p, h, Same.refl p⟩⟩

theorem SameAll.trans {ps qs rs : List Par} (h : SameAll ps qs) (h' : SameAll qs rs) : SameAll ps rs := by
  refine ⟨h'.1.trans h.1, fun i p hp => ?_⟩
  obtain ⟨q, hq, h1⟩ := h.2 i p hp
  obtain ⟨r, hr, h2⟩ := h'.2 i q hq
  exact ⟨r, hr, h1.trans h2⟩

theorem clip_clipped (p : Par) (v : ℝ) : Clipped p v (p.clip v) := by
  intro hb
  unfold Par.clip
  cases hl : p.lo with
  | none =>
    cases hh : p.hi with
    | none => simp
    | some b =>
      refine ⟨by simp, ?_, ?_⟩
      · rintro h ⟨⟩
        exact ⟨min_le_right _ _, fun hv => min_eq_right hv.le⟩
      · intro _ h
        exact min_eq_left (h b rfl)
  | some a =>
    cases hh : p.hi with
    | none =>
      refine ⟨?_, by simp, ?_⟩
      · rintro h ⟨⟩
        exact ⟨le_max_right _ _, fun hv => max_eq_right hv.le⟩
      · intro h _
        exact max_eq_left (h a rfl)
    | some b =>
      have hab := hb a b hl hh
      refine ⟨?_, ?_, ?_⟩
      · rintro h ⟨⟩
        refine ⟨le_min (le_max_right _ _) hab, fun hv => ?_⟩
        dsimp only
        rw [max_eq_right hv.le, min_eq_left hab]
      · rintro h ⟨⟩
        refine ⟨min_le_right _ _, fun hv => ?_⟩
        dsimp only
        exact min_eq_right (hv.le.trans (le_max_left _ _))
      · intro h1 h2
        dsimp only
        rw [max_eq_left (h1 a rfl), min_eq_left (h2 b rfl)]

theorem setFree_same : ∀ (ps : List Par) (vs : List ℝ), SameAll ps (setFree ps vs)
  | [], _ => SameAll.refl []
  | p :: ps, vs => by
    have hcons : ∀ (q : Par) (l : List Par), Same p q → SameAll ps l → SameAll (p :: ps) (q :: l) := by
      intro q l hq hl
      refine ⟨by simp [hl.1], fun i r hr => ?_⟩
      cases i with
      | zero => simp at hr; subst hr; exact ⟨q, by simp, hq⟩
      | succ i => simp at hr; simpa using hl.2 i r hr
    unfold setFree
    split_ifs
    · exact hcons _ _ (Same.refl p) (setFree_same ps vs)
    · cases vs with
      | nil => exact hcons _ _ (Same.refl p) (setFree_same ps [])
      | cons v vs => exact hcons _ _ ⟨rfl, rfl, rfl, rfl⟩ (setFree_same ps vs)

theorem tieStep_get (ps : List Par) (i j : Nat) (p : Par) (hp : ps[j]? = some p) :
    (tieStep ps i)[j]? = some (match p.tied with
      | none => p
      | some g => if j = i then { p with value := g (ps.map Par.value) } else p) := by
  unfold tieStep
  by_cases hij : j = i
  · subst hij
    rw [hp]
    dsimp only
    cases ht : p.tied with
    | none => exact hp
    | some g =>
      dsimp only
      rw [if_pos rfl, List.getElem?_set_self (by exact (List.getElem?_eq_some_iff.1 hp).1)]
  · have h2 : (match p.tied with
      | none => p
      | some g => if j = i then { p with value := g (ps.map Par.value) } else p) = p := by
      cases p.tied with
      | none => rfl
      | some g => exact if_neg hij
    rw [h2]
    cases hi : ps[i]? with
    | none => exact hp
    | some r =>
      dsimp only
      cases r.tied with
      | none => exact hp
      | some g =>
        dsimp only
        rw [List.getElem?_set_ne (Ne.symm hij)]
        exact hp

theorem tieStep_same (ps : List Par) (i : Nat) : SameAll ps (tieStep ps i) := by
  constructor
  · unfold tieStep
    cases ps[i]? with
    | none => rfl
    | some p =>
      dsimp only
      cases p.tied with
      | none => rfl
      | some g => simp
  · intro j p hp
    refine ⟨_, tieStep_get ps i j p hp, ?_⟩
    cases ht : p.tied with
    | none => exact Same.refl p
    | some g =>
      dsimp only
      split_ifs
      · exact ⟨rfl, rfl, rfl, ht.symm⟩
      · exact Same.refl p

/-- the ties of the first `k` parameters -/
def ties (ps : List Par) (k : Nat) : List Par := (List.range k).foldl tieStep ps

theorem ties_succ (ps : List Par) (k : Nat) : ties ps (k + 1) = tieStep (ties ps k) k := by
  unfold ties
  rw [List.range_succ, List.foldl_append]
  rfl

theorem ties_same (ps : List Par) : ∀ k, SameAll ps (ties ps k)
  | 0 => SameAll.refl ps
  | k + 1 => by
    rw [ties_succ]
    exact (ties_same ps k).trans (tieStep_same _ _)

/-- later ties do not change what is not tied, or has been set before -/
theorem ties_keep (ps : List Par) (j : Nat) (p : Par) (hp : ps[j]? = some p) :
    ∀ k, (p.tied = none ∨ k ≤ j → (ties ps k)[j]? = some p) ∧ (∀ m, j < m → m ≤ k → (ties ps k)[j]? = (ties ps m)[j]?)
  | 0 => ⟨fun _ => hp, fun m h1 h2 => by omega⟩
  | k + 1 => by
    obtain ⟨ih1, ih2⟩ := ties_keep ps j p hp k
    constructor
    · intro h
      have h0 := ih1 (h.imp id fun h => by omega)
      rw [ties_succ, tieStep_get _ _ _ _ h0]
      rcases h with h | h
      · rw [h]
      · cases p.tied with
        | none => rfl
        | some g =>
          dsimp only
          rw [if_neg (show ¬ j = k by omega)]
    · intro m h1 h2
      rcases Nat.lt_or_ge k m with h | h
      · rw [show m = k + 1 by omega]
      · rw [← ih2 m h1 h]
        obtain ⟨q, hq, _⟩ := (ties_same ps k).2 j p hp
        rw [ties_succ, tieStep_get _ _ _ _ hq, hq]
        cases q.tied with
        | none => rfl
        | some g =>
          dsimp only
          rw [if_neg (show ¬ j = k by omega)]

theorem ties_tied (ps : List Par) (hb : Backward ps) (j : Nat) (p : Par) (hp : ps[j]? = some p) (g : List ℝ → ℝ)
    (hg : p.tied = some g) :
    ∃ q, (ties ps ps.length)[j]? = some q ∧ q.value = g ((ties ps ps.length).map Par.value) := by
  have hj : j < ps.length := (List.getElem?_eq_some_iff.1 hp).1
  have h0 := (ties_keep ps j p hp j).1 (Or.inr le_rfl)
  have h1 := tieStep_get (ties ps j) j j p h0
  rw [← ties_succ, hg] at h1
  dsimp only at h1
  rw [if_pos rfl, ← (ties_keep ps j p hp ps.length).2 (j + 1) (by omega) (by omega)] at h1
  refine ⟨_, h1, ?_⟩
  dsimp only
  apply hb j p g hp hg
  · rw [List.length_map, (ties_same ps j).1]
  · rw [List.length_map, (ties_same ps ps.length).1]
  · intro i q hq hcase
    have hi : i < ps.length := (List.getElem?_eq_some_iff.1 hq).1
    rw [List.getElem?_map, List.getElem?_map]
    congr 1
    rcases hcase with h | h
    · rw [(ties_keep ps i q hq j).1 (Or.inl h), (ties_keep ps i q hq ps.length).1 (Or.inl h)]
    · exact ((ties_keep ps i q hq ps.length).2 j h hj.le).symm

theorem setParams_ties (ps : List Par) (vs : List ℝ) : setParams ps vs = ties (setFree ps vs) (setFree ps vs).length := by
  unfold setParams ties
  rw [setFree_length]

theorem backward_same {ps qs : List Par} (h : SameAll ps qs) (hb : Backward ps) : Backward qs := by
  intro i q g hq hg u v hu hv huv
  have hi : i < ps.length := by
    rw [← h.1]; exact (List.getElem?_eq_some_iff.1 hq).1
  obtain ⟨q', hq', hs⟩ := h.2 i ps[i] (List.getElem?_eq_getElem hi)
  rw [hq] at hq'
  cases hq'
  apply hb i _ g (List.getElem?_eq_getElem hi) (hs.2.2.2.symm.trans hg) u v (hu.trans h.1) (hv.trans h.1)
  intro j p hp hc
  obtain ⟨r, hr, hrs⟩ := h.2 j p hp
  exact huv j r hr (hc.imp (fun h => hrs.2.2.2.trans h) id)

/-- the values of the parameters that are not tied decide -/
theorem ties_congr (ps qs : List Par) (h : SameAll ps qs) (hb : Backward ps)
    (hv : ∀ (i : Nat) (p q : Par), ps[i]? = some p → qs[i]? = some q → p.tied = none → q.value = p.value) :
    (ties qs qs.length).map Par.value = (ties ps ps.length).map Par.value := by
  have hlen : ((ties qs qs.length).map Par.value).length = ps.length := by
    rw [List.length_map, (ties_same qs qs.length).1, h.1]
  have hlen' : ((ties ps ps.length).map Par.value).length = ps.length := by
    rw [List.length_map, (ties_same ps ps.length).1]
  have key : ∀ j, j < ps.length → ((ties qs qs.length).map Par.value)[j]? = ((ties ps ps.length).map Par.value)[j]? := by
    intro j
    induction j using Nat.strong_induction_on with
    | _ j ih =>
      intro hj
      have hp : ps[j]? = some ps[j] := List.getElem?_eq_getElem hj
      obtain ⟨q, hq, hs⟩ := h.2 j _ hp
      cases ht : ps[j].tied with
      | none =>
        rw [List.getElem?_map, List.getElem?_map, (ties_keep qs j q hq _).1 (Or.inl (hs.2.2.2.trans ht)),
          (ties_keep ps j _ hp _).1 (Or.inl ht)]
        simp [hv j _ q hp hq ht]
      | some g =>
        obtain ⟨a, ha, hav⟩ := ties_tied ps hb j _ hp g ht
        obtain ⟨b, hb1, hbv⟩ := ties_tied qs (backward_same h hb) j q hq g (hs.2.2.2.trans ht)
        rw [List.getElem?_map, List.getElem?_map, ha, hb1]
        simp only [Option.map_some, hav, hbv]
        congr 1
        apply hb j _ g hp ht _ _ hlen hlen'
        intro i p hip hc
        have hi : i < ps.length := (List.getElem?_eq_some_iff.1 hip).1
        rcases hc with hc | hc
        · obtain ⟨r, hr, hrs⟩ := h.2 i p hip
          rw [List.getElem?_map, List.getElem?_map, (ties_keep qs i r hr _).1 (Or.inl (hrs.2.2.2.trans hc)),
            (ties_keep ps i _ hip _).1 (Or.inl hc)]
          simp [hv i _ r hip hr hc]
        · exact ih i hc hi
  apply List.ext_getElem?
  intro j
  rcases Nat.lt_or_ge j ps.length with hj | hj
  · exact key j hj
  · rw [List.getElem?_eq_none (by omega), List.getElem?_eq_none (by omega)]

theorem setFree_value : ∀ (ps : List Par) (vs : List ℝ) (i : Nat) (p : Par), ps[i]? = some p → p.free = false →
    (setFree ps vs)[i]? = some p
  | [], _, i, p, hp, _ => by simp at hp
  | r :: ps, vs, i, p, hp, hf => by
    unfold setFree
    cases i with
    | zero =>
      simp at hp; subst hp
      rw [if_pos (by unfold Par.free at hf; cases h1 : r.fixed <;> cases h2 : r.tied.isSome <;> simp_all)]
      simp
    | succ i =>
      simp at hp
      split_ifs
      · simpa using setFree_value ps vs i p hp hf
      · cases vs with
        | nil => simpa using setFree_value ps [] i p hp hf
        | cons v vs => simpa using setFree_value ps vs i p hp hf

/-- two lists with the same parameters get the same free values -/
theorem setFree_congr : ∀ (ps qs : List Par) (vs : List ℝ), SameAll ps qs → numFree ps ≤ vs.length →
    (∀ (i : Nat) (p q : Par), ps[i]? = some p → qs[i]? = some q → p.tied = none → p.fixed = true → q.value = p.value) →
    ∀ (i : Nat) (p q : Par), (setFree ps vs)[i]? = some p → (setFree qs vs)[i]? = some q → p.tied = none → q.value = p.value
  | [], qs, vs, h, _, _, i, p, q, hp, _, _ => by simp [setFree] at hp
  | r :: ps, qs, vs, h, hl, hv, i, p, q, hp, hq, ht => by
    cases qs with
    | nil => simp [SameAll] at h
    | cons s qs =>
      obtain ⟨s', hs', hrs⟩ := h.2 0 r (by simp)
      simp at hs'; subst hs'
      have htail : SameAll ps qs := by
        refine ⟨by simpa using h.1, fun i p hp => ?_⟩
        simpa using h.2 (i + 1) p (by simpa using hp)
      have hvt : ∀ (i : Nat) (p q : Par), ps[i]? = some p → qs[i]? = some q → p.tied = none → p.fixed = true → q.value = p.value :=
        fun i p q h1 h2 => hv (i + 1) p q (by simpa using h1) (by simpa using h2)
      rw [numFree_cons_of] at hl
      cases hc : (r.fixed || r.tied.isSome) with
      | true =>
        have hc' : (s.fixed || s.tied.isSome) = true := by rw [hrs.1, hrs.2.2.2]; exact hc
        rw [setFree_skip r ps vs hc] at hp
        rw [setFree_skip s qs vs hc'] at hq
        rw [if_pos hc] at hl
        cases i with
        | zero =>
          simp at hp hq; subst hp hq
          apply hv 0 r s (by simp) (by simp) ht
          rw [ht] at hc
          simpa using hc
        | succ i =>
          exact setFree_congr ps qs vs htail hl hvt i p q (by simpa using hp) (by simpa using hq) ht
      | false =>
        have hc' : (s.fixed || s.tied.isSome) = false := by rw [hrs.1, hrs.2.2.2]; exact hc
        rw [if_neg (by rw [hc]; simp)] at hl
        cases vs with
        | nil => simp at hl
        | cons v vs =>
          unfold setFree at hp hq
          rw [if_neg (by rw [hc]; simp)] at hp
          rw [if_neg (by rw [hc']; simp)] at hq
          dsimp only at hp hq
          cases i with
          | zero =>
            simp at hp hq; subst hp hq
            dsimp only
            unfold Par.clip
            rw [hrs.2.1, hrs.2.2.1]
          | succ i =>
            exact setFree_congr ps qs vs htail (by simpa using hl) hvt i p q (by simpa using hp) (by simpa using hq) ht

theorem numFree_same {ps qs : List Par} (h : SameAll ps qs) : numFree qs = numFree ps := by
  induction ps generalizing qs with
  | nil =>
    have := List.length_eq_zero_iff.1 h.1
    rw [this]
  | cons p ps ih =>
    cases qs with
    | nil => simp [SameAll] at h
    | cons q qs =>
      obtain ⟨s', hs', hrs⟩ := h.2 0 p (by simp)
      simp at hs'; subst hs'
      have htail : SameAll ps qs := by
        refine ⟨by simpa using h.1, fun i p hp => ?_⟩
        simpa using h.2 (i + 1) p (by simpa using hp)
      rw [numFree_cons_of, numFree_cons_of, hrs.1, hrs.2.2.2, ih htail]

theorem setFree_forall : ∀ (ps : List Par) (vs : List ℝ), numFree ps ≤ vs.length →
    List.Forall₂ (fun (q : Par × ℝ) v => Clipped q.1 v q.2)
      ((ps.zip ((setFree ps vs).map Par.value)).filter fun q => q.1.free) (vs.take (numFree ps))
  | [], vs, _ => by simp [setFree, numFree]
  | p :: ps, vs, h => by
    rw [numFree_cons_of] at h ⊢
    cases hc : (p.fixed || p.tied.isSome) with
    | true =>
      rw [setFree_skip p ps vs hc, if_pos rfl]
      rw [if_pos hc] at h
      rw [List.map_cons, List.zip_cons_cons, List.filter_cons_of_neg]
      · exact setFree_forall ps vs h
      · unfold Par.free
        cases h1 : p.fixed <;> cases h2 : p.tied.isSome <;> simp_all
    | false =>
      rw [if_neg (by simp)]
      rw [if_neg (by rw [hc]; simp)] at h
      cases vs with
      | nil => simp at h
      | cons v vs =>
        unfold setFree
        rw [if_neg (by rw [hc]; simp)]
        dsimp only
        rw [List.map_cons, List.zip_cons_cons, List.filter_cons_of_pos, List.take_succ_cons]
        · exact .cons (clip_clipped p v) (setFree_forall ps vs (by simpa using h))
        · unfold Par.free
          cases h1 : p.fixed <;> cases h2 : p.tied.isSome <;> simp_all

/-! ### What is evaluated -/

/-- **C98 (value).** A likelihood called with enough numbers is evaluated at these parameter values: fixed parameters keep theirs, the free ones get the given numbers in order, moved to the nearest bound if they are
outside of the bounds, and each tied one gets the value of its function for the values of all the others. `neg=True` changes the sign. The parameters of the model object are then these values, and nothing else about it has changed.
(Ties to earlier or to free parameters.) -/
theorem evaluate_value_partial (like : (ℝ → ℝ) → ℝ) (npar : Nat) (f : List ℝ → ℝ → ℝ) (ps : List Par) (hb : Backward ps)
    (hn : numFree ps ≤ npar) (pars : List ℝ) (hl : pars.length = npar) (neg : Bool) :
    ∃ vals : List ℝ, vals.length = ps.length ∧
      (evaluate like npar f ps pars neg).1 = .ok (if neg then -like (f vals) else like (f vals)) ∧
      (evaluate like npar f ps pars neg).2.map Par.value = vals ∧ SameAll ps (evaluate like npar f ps pars neg).2 ∧
      (∀ (i : Nat) (p : Par), ps[i]? = some p → p.fixed = true → p.tied = none → vals[i]? = some p.value) ∧
      (∀ (i : Nat) (p : Par) (g : List ℝ → ℝ), ps[i]? = some p → p.tied = some g → vals[i]? = some (g vals)) ∧
      List.Forall₂ (fun (q : Par × ℝ) v => Clipped q.1 v q.2) ((ps.zip vals).filter fun q => q.1.free) (pars.take (numFree ps)) := by
  have hs := setFree_same ps pars
  have hs2 : SameAll ps (setParams ps pars) := by
    rw [setParams_ties]
    exact hs.trans (ties_same _ _)
  have hbf := backward_same hs hb
  refine ⟨(setParams ps pars).map Par.value, by rw [List.length_map, hs2.1], ?_, ?_, ?_, ?_, ?_, ?_⟩
  · unfold evaluate
    rw [if_neg (not_not.2 hl)]
  · unfold evaluate
    rw [if_neg (not_not.2 hl)]
  · unfold evaluate
    rw [if_neg (not_not.2 hl)]
    exact hs2
  · intro i p hp hf ht
    have h1 := setFree_value ps pars i p hp (by simp [Par.free, hf])
    rw [setParams_ties, List.getElem?_map, (ties_keep _ i p h1 _).1 (Or.inl ht)]
    rfl
  · intro i p g hp hg
    obtain ⟨q, hq, hqs⟩ := hs.2 i p hp
    obtain ⟨r, hr, hrv⟩ := ties_tied _ hbf i q hq g (hqs.2.2.2.trans hg)
    rw [setParams_ties, List.getElem?_map, hr]
    simp [hrv]
  · have h := setFree_forall ps pars (by omega)
    have : ∀ (l : List Par) (a b : List ℝ), a.length = l.length → b.length = l.length →
        (∀ (i : Nat) (p : Par), l[i]? = some p → p.free = true → a[i]? = b[i]?) →
        (l.zip a).filter (fun q => q.1.free) = (l.zip b).filter fun q => q.1.free := by
      intro l
      induction l with
      | nil => intro a b _ _ _; simp
      | cons p l ih =>
        intro a b ha hb hab
        cases a with
        | nil => simp at ha
        | cons x a =>
          cases b with
          | nil => simp at hb
          | cons y b =>
            have hrest := ih a b (by simpa using ha) (by simpa using hb)
              (fun i q hq hf => by simpa using hab (i + 1) q (by simpa using hq) hf)
            rw [List.zip_cons_cons, List.zip_cons_cons]
            by_cases hf : p.free = true
            · have := hab 0 p (by simp) hf
              simp at this
              simp only [this, List.filter_cons, hf, if_true, hrest]
            · simp only [List.filter_cons, hf, hrest]; rfl
    rw [this ps _ ((setFree ps pars).map Par.value) (by rw [List.length_map, hs2.1]) (by rw [List.length_map, hs.1])]
    · exact h
    · intro i p hp hf
      obtain ⟨q, hq, hqs⟩ := hs.2 i p hp
      have ht : q.tied = none := by
        rw [hqs.2.2.2]
        unfold Par.free at hf
        cases h : p.tied with
        | none => rfl
        | some g => simp [h] at hf
      rw [setParams_ties, List.getElem?_map, List.getElem?_map, (ties_keep _ i q hq _).1 (Or.inl ht), hq]

/-- **C98 (ties, partial).** The value of a likelihood only depends on the parameters it is called with, whatever was evaluated before with the same model object, also for tied parameters if every tie is a function of free, fixed or earlier parameters.
Missing: ties to a later tied parameter, for which it is false (`evaluate_remembers`). -/
theorem evaluate_history_ties_partial (like like' : (ℝ → ℝ) → ℝ) (npar npar' : Nat) (f : List ℝ → ℝ → ℝ) (ps : List Par) (hb : Backward ps)
    (hn : numFree ps ≤ npar) (calls : List (List ℝ × Bool)) (pars : List ℝ) (neg : Bool) :
    (evaluate like npar f (history like' npar' f ps calls) pars neg).1 = (evaluate like npar f ps pars neg).1 := by
  by_cases hl : pars.length = npar
  · have key : ∀ (qs : List Par), SameAll ps qs →
        (∀ (i : Nat) (p q : Par), ps[i]? = some p → qs[i]? = some q → p.tied = none → p.fixed = true → q.value = p.value) →
        SameAll ps (history like' npar' f qs calls) ∧
        (∀ (i : Nat) (p q : Par), ps[i]? = some p → (history like' npar' f qs calls)[i]? = some q → p.tied = none → p.fixed = true → q.value = p.value) := by
      induction calls with
      | nil => intro qs h1 h2; exact ⟨h1, h2⟩
      | cons c calls ih =>
        intro qs h1 h2
        unfold history
        rw [List.foldl_cons]
        have hset : SameAll qs (evaluate like' npar' f qs c.1 c.2).2 := by
          rw [evaluate_snd]
          split_ifs
          · exact SameAll.refl qs
          · rw [setParams_ties]
            exact (setFree_same _ _).trans (ties_same _ _)
        apply ih
        · exact h1.trans hset
        · intro i p q hp hq ht hf
          obtain ⟨r, hr, hrs⟩ := h1.2 i p hp
          rw [← h2 i p r hp hr ht hf]
          rw [evaluate_snd] at hq
          split_ifs at hq
          · rw [hr] at hq; cases hq; rfl
          · have h3 := setFree_value qs c.1 i r hr (by simp [Par.free, hrs.1, hf])
            rw [setParams_ties, (ties_keep _ i r h3 _).1 (Or.inl (hrs.2.2.2.trans ht))] at hq
            cases hq; rfl
    obtain ⟨h1, h2⟩ := key ps (SameAll.refl ps) (fun i p q hp hq _ _ => by rw [hp] at hq; cases hq; rfl)
    have h3 := setFree_congr ps _ pars h1 (by omega) h2
    unfold evaluate
    rw [if_neg (not_not.2 hl), if_neg (not_not.2 hl)]
    dsimp only
    rw [setParams_ties, setParams_ties, ties_congr (setFree ps pars) (setFree (history like' npar' f ps calls) pars) ?_
      (backward_same (setFree_same ps pars) hb) h3]
    have ha := setFree_same ps pars
    have hc := setFree_same (history like' npar' f ps calls) pars
    refine ⟨by rw [hc.1, ha.1, h1.1], fun i p hp => ?_⟩
    have hi : i < ps.length := by rw [← ha.1]; exact (List.getElem?_eq_some_iff.1 hp).1
    obtain ⟨p', hp', hs1⟩ := ha.2 i ps[i] (List.getElem?_eq_getElem hi)
    rw [hp] at hp'; cases hp'
    obtain ⟨q, hq, hs2⟩ := h1.2 i ps[i] (List.getElem?_eq_getElem hi)
    obtain ⟨r, hr, hs3⟩ := hc.2 i q hq
    have := hs2.trans hs3
    exact ⟨r, hr, this.1.trans hs1.1.symm, this.2.1.trans hs1.2.1.symm, this.2.2.1.trans hs1.2.2.1.symm, this.2.2.2.trans hs1.2.2.2.symm⟩
  · unfold evaluate
    rw [if_pos hl, if_pos hl]

/-- **C98 (negation).** If a parameter is tied to a later one that is tied itself, the first evaluation uses the value that the later one had before: the same call gives another value the second time. -/
theorem evaluate_remembers : ∃ (ps : List Par) (f : List ℝ → ℝ → ℝ) (pars : List ℝ),
    (evaluate (fun mu => mu 0) (numFree ps) f ps pars false).1 ≠
      (evaluate (fun mu => mu 0) (numFree ps) f (history (fun mu => mu 0) (numFree ps) f ps [(pars, false)]) pars false).1 := by
  refine ⟨[⟨0, false, none, none, some fun v => v.getD 1 0⟩, ⟨0, false, none, none, some fun v => v.getD 2 0⟩, ⟨0, false, none, none, none⟩],
    fun p _ => p.getD 0 0, [1], ?_⟩
  norm_num [history, evaluate, numFree, setParams, setFree, tieStep, Par.clip, List.range_succ]

/-- Non-vacuity: the second parameter is tied to the first, the third is fixed. -/
example : Backward [⟨1, false, some 0, some 4, none⟩, ⟨2, false, none, none, some fun v => 2 * v.getD 0 0⟩, ⟨3, true, none, none, none⟩] ∧
    (evaluate (fun mu => mu 1) 1 (fun p x => p.sum * x)
      [⟨1, false, some 0, some 4, none⟩, ⟨2, false, none, none, some fun v => 2 * v.getD 0 0⟩, ⟨3, true, none, none, none⟩] [10] true).1 = .ok (-15) := by
  constructor
  · intro i p g hp hg u v hu hv huv
    rcases i with _ | _ | _ | i
    · simp at hp; subst hp; simp at hg
    · simp at hp; subst hp; simp at hg; subst hg
      have := huv 0 _ rfl (Or.inl rfl)
      simp only [List.getD_eq_getElem?_getD, this]
    · simp at hp; subst hp; simp at hg
    · simp at hp
  · norm_num [evaluate, setParams, setFree, tieStep, Par.clip, List.range_succ]

/-! ### Densities -/

theorem sum_log_eq {α : Type} (l : List α) (f g : α → ℝ) (h : ∀ a ∈ l, f a = g a) : (l.map f).sum = (l.map g).sum := by
  rw [List.map_congr_left h]

/-- **C118.** The Gaussian log-likelihood is the sum over the data of the logarithms of the normal density with mean the model and standard deviation the error. -/
theorem gauss_like_density (rows : List Row) (mu : ℝ → ℝ) (h : ∀ r ∈ rows, 0 < r.err) :
    gaussLike rows mu = (rows.map fun r => Real.log (normalDensity (mu r.x) r.err r.y)).sum := by
  unfold gaussLike
  rw [if_pos h]
  apply sum_log_eq
  intro r hr
  have he := h r hr
  unfold normalDensity
  have h2 : (0 : ℝ) < 2 * Real.pi := by positivity
  rw [Real.log_div (Real.exp_pos _).ne' (by positivity), Real.log_exp, Real.log_mul he.ne' (by positivity), Real.log_sqrt h2.le]
  ring

/-- **C118.** The Poisson log-likelihood of counts is the sum of the logarithms of the Poisson probabilities of the counts, the model being the mean (`gammaln` the logarithm of the gamma function). -/
theorem poisson_like_probability (gammaln : ℝ → ℝ) (hg : ∀ n : Nat, gammaln (n + 1) = Real.log n.factorial)
    (rows : List Row) (count : Row → Nat) (hc : ∀ r ∈ rows, r.y = count r) (mu : ℝ → ℝ) (h : ∀ r ∈ rows, 0 < mu r.x) :
    poissonLike gammaln rows mu = (rows.map fun r => Real.log (poissonProbability (mu r.x) (count r))).sum := by
  unfold poissonLike
  rw [if_pos h]
  apply sum_log_eq
  intro r hr
  have hm := h r hr
  have hf : (0 : ℝ) < ((count r).factorial : ℝ) := by exact_mod_cast (count r).factorial_pos
  unfold poissonProbability
  rw [hc r hr, hg, Real.log_div (by positivity) hf.ne', Real.log_mul (by positivity) (Real.exp_pos _).ne', Real.log_exp, Real.log_pow]
  ring

/-- **C118.** The Laplace log-likelihood is the sum of the logarithms of the Laplace density centred on the model, with the error as scale. -/
theorem laplace_like_density (rows : List Row) (mu : ℝ → ℝ) (h : ∀ r ∈ rows, 0 < r.err) :
    laplaceLike rows mu = (rows.map fun r => Real.log (laplaceDensity (mu r.x) r.err r.y)).sum := by
  unfold laplaceLike
  rw [if_pos h]
  apply sum_log_eq
  intro r hr
  have he := h r hr
  unfold laplaceDensity
  rw [Real.log_div (Real.exp_pos _).ne' (by positivity), Real.log_exp]
  ring

/-- **C118.** With an error that is not positive, neither likelihood is a number: `logmin` is given. -/
theorem like_bad_error (rows : List Row) (mu : ℝ → ℝ) (h : ∃ r ∈ rows, r.err ≤ 0) :
    gaussLike rows mu = logmin ∧ laplaceLike rows mu = logmin := by
  obtain ⟨r, hr, h⟩ := h
  have h1 : ¬ ∀ r ∈ rows, 0 < r.err := fun hc => absurd (hc r hr) (not_lt.2 h)
  exact ⟨if_neg h1, if_neg h1⟩

/-- Non-vacuity: two points. -/
example : laplaceLike [⟨1, 2, 1, 0⟩, ⟨2, 4, 2, 0⟩] (fun _ => 3) =
    Real.log (laplaceDensity 3 1 2) + (Real.log (laplaceDensity 3 2 4) + 0) :=
  laplace_like_density _ _ (by norm_num)

/-! ### Fits and simulations -/

/-- **C103 (accepted values).** The value of the run that a fit returns is a finite number, is not 0, 100 or 200, and is not near the values of impossible parameters; and the first run that ends with such a value is accepted. -/
theorem fit_value (run : Nat → Option ℝ) :
    (∀ j, fit run = .ok j → ∃ v, run j = some v ∧ v ≠ 0 ∧ v ≠ 100 ∧ v ≠ 200 ∧ ¬ |v - logmin| ≤ 1 / 100000000 + 1 / 100000 * |logmin| ∧
      ¬ |v - 2 * logmin| ≤ 1 / 100000000 + 1 / 100000 * |2 * logmin|) ∧
    (∀ v, run 0 = some v → logmin / 2 ≤ v → v ≠ 0 → v ≠ 100 → v ≠ 200 → fit run = .ok 0) ∧
    ((∀ k < 21, run k = none) → fit run = .error .runtimeError) := by
  refine ⟨fun j hj => ?_, fun v hv h0 h1 h2 h3 => ?_, fun h => ?_⟩
  · have hu := (((fit_spec run).1 j).1 hj).2.1
    cases hr : run j with
    | none => rw [hr] at hu; simp [unacceptable] at hu
    | some v =>
      rw [hr] at hu
      simp only [unacceptable, isclose, Bool.or_eq_false_iff, decide_eq_false_iff_not] at hu
      exact ⟨v, rfl, hu.1.1.2, hu.1.1.1.1, hu.1.1.1.2, hu.1.2, hu.2⟩
  · rw [(fit_spec run).1]
    refine ⟨by norm_num, ?_, fun k hk => by omega⟩
    rw [hv]
    simp only [unacceptable, isclose, Bool.or_eq_false_iff, decide_eq_false_iff_not]
    unfold logmin at h0 ⊢
    refine ⟨⟨⟨⟨h2, h3⟩, h1⟩, ?_⟩, ?_⟩
    · rw [abs_of_nonneg (by linarith)]
      norm_num
      linarith
    · rw [abs_of_nonneg (by linarith)]
      norm_num
      linarith
  · rw [(fit_spec run).2]
    intro k hk
    rw [h k hk]
    rfl

/-- **C104 (failed fits, negation).** For an observed value that is not negative, the simulations whose fit failed count as simulations below it: the p-value is the number of successful simulations above the observed value over the number of all simulations. -/
theorem pvalue_failed_fits_all (obs : ℝ) (ho : 0 ≤ obs) (sims : List (Option ℝ)) (hs : sims ≠ []) :
    computePvalue obs (simulated sims) = .ok ((((sims.filterMap id).filter fun s => decide (obs < s)).length : ℝ) / (sims.length : ℝ)) := by
  have hne : simulated sims ≠ [] := by simpa [simulated] using hs
  unfold computePvalue
  rw [if_neg hne]
  have h1 : (simulated sims).length = sims.length := by simp [simulated]
  have h2 : ∀ l : List (Option ℝ), ((simulated l).filter fun s => decide (obs < s)).length =
      ((l.filterMap id).filter fun s => decide (obs < s)).length := by
    intro l
    induction l with
    | nil => rfl
    | cons a l ih =>
      unfold simulated at ih ⊢
      cases a with
      | none =>
        rw [List.map_cons, List.filter_cons_of_neg (by simpa using ho), ih, List.filterMap_cons_none rfl]
      | some a =>
        rw [List.map_cons, List.filterMap_cons_some (f := id) (a := some a) (b := a) rfl, Option.getD_some, List.filter_cons, List.filter_cons]
        split_ifs
        · simp [ih]
        · exact ih
  rw [h1, h2]

end Stingray.Modeling

import Verif.Model.SpecRebin
import Verif.Props.Dynamic
import Verif.Props.RebinLog
import Mathlib.Data.Real.Sqrt
import Mathlib.Algebra.Order.Floor.Semifield

/-!
# C147, C148: rebinning spectra
-/

set_option linter.unusedSectionVars false

namespace Stingray.SpecRebin

open Stingray Stingray.Gti Stingray.Rebin Stingray.Dynamic Stingray.Spec

variable {K : Type} [Field K] [LinearOrder K] [IsStrictOrderedRing K] [FloorRing K]

/-- the arrays of a spectrum belong to the frequencies `f0, f0 + df, ...` (`n` of them) -/
structure OnGrid (f0 df : K) (n : Nat) (s : Sub K) : Prop where
  freq : s.freq = grid f0 df n
  step : s.df = df
  power : s.power.length = n
  unnorm : ∀ u ∈ s.unnorm, u.length = n
  powerErr : ∀ u ∈ s.powerErr, u.length = n
  unnormErr : ∀ u ∈ s.unnormErr, u.length = n

/-- the uncertainties reported: the root of the sum of the old uncertainties (0 if there are none) in the new bin, each with the part of it inside, for means over the number of old bins in a new one -/
def rebinErr (sqrt : K → K) (f0 df d : K) (n : Nat) (method : Method) (e : Option (List K)) : List K :=
  (rebinned f0 df d .sum (e.getD (List.replicate n 0))).map fun t => if method = .mean then sqrt t / (d / df) else sqrt t

/-- what a rebinned spectrum must be: frequencies in the middle of the new bins, powers and unnormalised powers the means (or sums) over the new bins, and as many averaged powers as there are old ones in a new bin -/
structure Rebinned (sqrt rint : K → K) (f0 df d : K) (n : Nat) (method : Method) (s r : Sub K) : Prop where
  freq : r.freq = newMiddles n f0 df d
  step : r.df = d
  power : r.power = rebinned f0 df d method s.power
  unnorm : r.unnorm = s.unnorm.map (rebinned f0 df d method)
  m : r.m = rint (d / df * s.m)
  err : r.powerErr = some (rebinErr sqrt f0 df d n method s.powerErr)
  unnormErr : s.unnorm ≠ none → r.unnormErr = s.unnormErr.map fun e => rebinErr sqrt f0 df d n method (some e)

/-- the requested resolution -/
def Requested (df f : Option K) (old d : K) : Prop := (∃ x, f = some x ∧ d = x * old) ∨ (f = none ∧ df = some d)

theorem newDf_ok (df f : Option K) (old d : K) : newDf df f old = .ok d ↔ Requested df f old d := by
  unfold newDf Requested
  rcases f with _ | f
  · rcases df with _ | e
    · simp
    · simp
  · simp [eq_comm]

theorem rebinData_exists' (sqrt : K → K) (x y : List K) (dxNew : K) (ye : Option (List K)) (method : Method) (D : Dx K) (out : Out K)
    (h : rebinData sqrt x y dxNew none method D = .ok out) :
    ∃ o, rebinData sqrt x y dxNew ye method D = .ok o ∧ o.xbin = out.xbin ∧ o.ybin = out.ybin ∧ o.stepSize = out.stepSize ∧
      o.ybinerr.length = out.ybin.length := by
  unfold rebinData at h ⊢
  simp only at h ⊢
  by_cases h1 : ((dxOld x D).any fun d => decide (dxNew < d)) = true
  · rw [if_pos h1] at h; cases h
  · rw [if_neg h1] at h ⊢
    rcases hx : x.head? with _ | x0
    · simp only [hx] at h; cases h
    rcases hl : x.getLast? with _ | xl
    · simp only [hx, hl] at h; cases h
    rcases hd : (dxOld x D).head? with _ | d0
    · simp only [hx, hl, hd] at h; cases h
    rcases hdl : (dxOld x D).getLast? with _ | dl
    · simp only [hx, hl, hd, hdl] at h; cases h
    simp only [hx, hl, hd, hdl] at h ⊢
    by_cases hm : method = .other
    · rw [if_pos hm] at h; cases h
    · rw [if_neg hm] at h ⊢
      cases h
      refine ⟨_, rfl, rfl, rfl, rfl, ?_⟩
      have hlen : ∀ a b : List K, (loop (x ++ [xl + dl]) a (arange x0 (xl + dl + dxNew) dxNew)).length = (loop (x ++ [xl + dl]) b (arange x0 (xl + dl + dxNew) dxNew)).length := by
        intro a b; simp [loop]
      by_cases hmm : method = .mean <;> by_cases hc : (0 < Int.fract ((xl - x0 + dl) / dxNew)) <;> simp [hmm, hc, loop]

theorem rebinEven_grid (sqrt : K → K) (f0 df d : K) (hdf : 0 < df) (hle : df ≤ d) (n : Nat) (hn : d ≤ (n : K) * df) (y : List K) (hy : y.length = n)
    (ye : Option (List K)) (hye : ∀ u ∈ ye, u.length = n) (method : Method) (hm : method ≠ .other) :
    ∃ o, rebinEven sqrt (grid f0 df n) y d ye method df = .ok (o, d / df) ∧ o.xbin = newMiddles n f0 df d ∧ o.ybin = rebinned f0 df d method y ∧
      o.ybinerr = rebinErr sqrt f0 df d n method ye := by
  have hd : 0 < d := lt_of_lt_of_le hdf hle
  have hn0 : 0 < n := by
    rcases Nat.eq_zero_or_pos n with h | h
    · subst h; rw [Nat.cast_zero, zero_mul] at hn; linarith
    · exact h
  have hE := edges_grid f0 df hdf n hn0
  have hold : dxOld (grid f0 df n) (.scalar df) = [df] := by simp [dxOld, hdf.ne']
  obtain ⟨out, hout⟩ := rebinData_exists sqrt (grid f0 df n) y d method (.scalar df)
    (by intro h; have := congrArg List.length h; simp [grid] at this; omega) (by rw [hold]; simp)
    (by rw [hold]; simpa using hle) hm
  obtain ⟨h1, h2, h3⟩ := rebinData_grid sqrt f0 df d hdf hle n y hy method (.scalar df) hE out hout
  obtain ⟨o, ho, g1, g2, g3, g4⟩ := rebinData_exists' sqrt _ y d ye method _ out hout
  have hyl : (ye.getD (List.replicate n 0)).length = n := by
    cases ye with
    | none => simp
    | some u => exact hye u (by simp)
  obtain ⟨out2, hout2⟩ := rebinData_exists sqrt (grid f0 df n) (ye.getD (List.replicate n 0)) d .sum (.scalar df)
    (by intro h; have := congrArg List.length h; simp [grid] at this; omega) (by rw [hold]; simp)
    (by rw [hold]; simpa using hle) (by decide)
  obtain ⟨_, h2', _⟩ := rebinData_grid sqrt f0 df d hdf hle n _ hyl .sum (.scalar df) hE out2 hout2
  have herr : o.ybinerr = rebinErr sqrt f0 df d n method ye := by
    obtain ⟨_, b1, _, _, b2⟩ := rebinData_ok sqrt _ y d ye method (.scalar df) o n _ hE hy hye ho
    obtain ⟨_, _, _, c1, _⟩ := rebinData_ok sqrt _ _ d none .sum (.scalar df) out2 n _ hE hyl (by simp) hout2
    have hye' : ye.getD (y.map fun _ => 0) = ye.getD (List.replicate n 0) := by
      cases ye with
      | none => rw [Option.getD_none, Option.getD_none, List.map_const', hy]
      | some u => rfl
    unfold rebinErr
    rw [← h2', b2, c1, List.map_map]
    apply List.ext_getElem
    · simp
    · intro i hi hi'
      have hst := g3.trans h3
      rw [b1] at hst
      have hlen := congrArg List.length hst
      simp only [List.length_map, List.length_range, List.length_replicate] at hlen hi
      have hi2 := List.getElem_of_eq hst (i := i) (by simpa using hi)
      simp only [List.getElem_map, List.getElem_range, List.getElem_replicate] at hi2
      simp only [List.getElem_map, List.getElem_range, Function.comp_def, hye']
      by_cases hmm : method = .mean
      · rw [if_pos hmm, if_pos hmm]
        simp only [if_neg (show ¬ (Method.sum = Method.mean) by decide)]
        rw [← hi2]
      · rw [if_neg hmm, if_neg hmm]
        simp only [if_neg (show ¬ (Method.sum = Method.mean) by decide)]
  refine ⟨o, ?_, g1.trans h1, g2.trans h2, herr⟩
  have hne : newBins n df d ≠ 0 := by
    intro hz; rw [newBins_zero n df d hd] at hz; linarith
  obtain ⟨k, hk⟩ := Nat.exists_eq_succ_of_ne_zero hne
  unfold rebinEven
  rw [ho]
  have : o.stepSize.head? = some (d / df) := by rw [g3, h3, hk, List.replicate_succ, List.head?_cons]
  simp only [bind, Except.bind, this]

theorem rebinSub_grid (sqrt rint : K → K) (df' f : Option K) (f0 df d : K) (hdf : 0 < df) (hle : df ≤ d) (n : Nat) (hn : d ≤ (n : K) * df)
    (method : Method) (hm : method ≠ .other) (s : Sub K) (hs : OnGrid f0 df n s) (hd : Requested df' f df d) :
    ∃ r, rebinSub sqrt rint df' f method s = .ok r ∧ Rebinned sqrt rint f0 df d n method s r := by
  obtain ⟨o, ho, h1, h2, h3⟩ := rebinEven_grid sqrt f0 df d hdf hle n hn s.power hs.power s.powerErr hs.powerErr method hm
  have hnd : newDf df' f s.df = .ok d := by rw [hs.step]; exact (newDf_ok _ _ _ _).2 hd
  have hu : ∃ u ue, rebinUnnorm sqrt s.freq s.df d method s.unnorm s.unnormErr = .ok (u, ue) ∧ u = s.unnorm.map (rebinned f0 df d method) ∧
      (s.unnorm ≠ none → ue = s.unnormErr.map fun e => rebinErr sqrt f0 df d n method (some e)) := by
    unfold rebinUnnorm
    rcases hsu : s.unnorm with _ | u
    · exact ⟨none, _, rfl, rfl, fun h => absurd rfl h⟩
    · obtain ⟨ou, hou, g1, g2, g3⟩ := rebinEven_grid sqrt f0 df d hdf hle n hn u (hs.unnorm u (by rw [hsu]; simp)) s.unnormErr hs.unnormErr method hm
      simp only [hs.freq, hs.step, hou, bind, Except.bind]
      exact ⟨some ou.ybin, _, rfl, by rw [g2]; rfl, fun _ => by cases hue : s.unnormErr <;> simp [g3, hue]⟩
  obtain ⟨u, ue, hu, hu1, hu2⟩ := hu
  refine ⟨⟨o.xbin, d, rint (d / df * s.m), o.ybin, some o.ybinerr, u, ue⟩, ?_, ⟨h1, rfl, h2, hu1, rfl, by rw [h3], hu2⟩⟩
  unfold rebinSub
  rw [hnd]
  simp only [bind, Except.bind, hu]
  rw [hs.freq, hs.step, ho]

/-- **C147.** Rebinning a spectrum (with the frequencies `f0, f0 + df, ...`) to a resolution between the present one and the whole range, given directly or as a factor: it succeeds; the new bins follow each other without gaps from the start of the first old
one, and the new frequencies are their middles; the powers, the unnormalised powers, the powers of all single segments and those of both attached power spectra are all means (sums) over these same new bins of the old ones, weighted with the part in the new bin; and
the number of averaged powers is multiplied with the number of old powers in a new bin. The uncertainties of the powers and unnormalised powers are those of `rebinErr`. -/
theorem rebin_spec (sqrt rint : K → K) (df' f : Option K) (f0 df d : K) (hdf : 0 < df) (hle : df ≤ d) (n : Nat) (hn : d ≤ (n : K) * df) (method : Method)
    (hm : method ≠ .other) (hd : Requested df' f df d) (s : Spec K) (hs : OnGrid f0 df n s.own) (hp : ∀ p ∈ s.pds, OnGrid f0 df n p)
    (hc : ∀ l ∈ s.csAll, ∀ c ∈ l, c.length = n) :
    ∃ r, rebin sqrt rint df' f method s = .ok r ∧ Rebinned sqrt rint f0 df d n method s.own r.own ∧
      r.csAll = s.csAll.map (fun l => l.map (rebinned f0 df d method)) ∧
      List.Forall₂ (Rebinned sqrt rint f0 df d n method) s.pds r.pds := by
  obtain ⟨own, ho, hown⟩ := rebinSub_grid sqrt rint df' f f0 df d hdf hle n hn method hm s.own hs hd
  have hd' : Requested (some own.df) f df d := by
    rw [hown.step]
    rcases hd with ⟨x, hx, hd⟩ | ⟨hf, _⟩
    · exact Or.inl ⟨x, hx, hd⟩
    · exact Or.inr ⟨hf, rfl⟩
  have hcs : rebinAll sqrt s.own.freq s.own.df own.df method s.csAll = .ok (s.csAll.map fun l => l.map (rebinned f0 df d method)) := by
    unfold rebinAll
    rcases hcs : s.csAll with _ | l
    · rfl
    · have hall : ∀ c ∈ l, ∃ o, rebinEven sqrt (grid f0 df n) c d none method df = .ok (o, d / df) ∧ o.ybin = rebinned f0 df d method c := by
        intro c hcl
        obtain ⟨o, h1, _, h2, _⟩ := rebinEven_grid sqrt f0 df d hdf hle n hn c (hc l (by rw [hcs]; simp) c hcl) none (by simp) method hm
        exact ⟨o, h1, h2⟩
      rw [hs.freq, hs.step, hown.step]
      obtain ⟨r, hr⟩ := mapM_ok_of_forall (fun c => rebinEven sqrt (grid f0 df n) c d none method df) l
        (fun c hcl => by obtain ⟨o, ho, _⟩ := hall c hcl; exact ⟨_, ho⟩)
      have hf := mapM_ok_forall2 _ l r hr
      simp only [hr, bind, Except.bind, Option.map_some]
      congr 2
      clear hr hcs
      induction hf with
      | nil => rfl
      | cons hab _ ih =>
        rw [List.map_cons, List.map_cons, ih (fun c hcl => hall c (List.mem_cons_of_mem _ hcl))]
        obtain ⟨o, h1, h2⟩ := hall _ (List.mem_cons_self)
        rw [h1] at hab
        cases hab
        rw [h2]
  have hpall : ∀ p ∈ s.pds, ∃ r, rebinSub sqrt rint (some own.df) f method p = .ok r ∧ Rebinned sqrt rint f0 df d n method p r := fun p hpp =>
    rebinSub_grid sqrt rint (some own.df) f f0 df d hdf hle n hn method hm p (hp p hpp) hd'
  obtain ⟨pds, hpds⟩ := mapM_ok_of_forall (rebinSub sqrt rint (some own.df) f method) s.pds
    (fun p hpp => by obtain ⟨r, hr, _⟩ := hpall p hpp; exact ⟨r, hr⟩)
  have hf := mapM_ok_forall2 _ s.pds pds hpds
  refine ⟨⟨own, s.csAll.map fun l => l.map (rebinned f0 df d method), pds⟩, ?_, hown, rfl, ?_⟩
  · unfold rebin
    rw [ho]
    simp only [bind, Except.bind, hcs, hpds]
  · clear hpds hcs ho hc
    generalize s.pds = l at hf hp hpall ⊢
    show List.Forall₂ _ l pds
    induction hf with
    | nil => exact .nil
    | cons hab _ ih =>
      obtain ⟨r, h1, h2⟩ := hpall _ (List.mem_cons_self)
      rw [h1] at hab
      cases hab
      exact .cons h2 (ih (fun p hpp => hp p (List.mem_cons_of_mem _ hpp)) (fun p hpp => hpall p (List.mem_cons_of_mem _ hpp)))

/-- **C147.** With a whole number `k` of old powers per new bin, the new powers are the means (with method `sum`, the sums) of `k` consecutive powers each, and what is left over is dropped. -/
theorem rebinned_blocks (f0 df : K) (hdf : 0 < df) (k : Nat) (hk : 0 < k) (y : List K) (method : Method) :
    rebinned f0 df ((k : K) * df) method y = (List.range (y.length / k)).map fun i : Nat =>
      if method = .mean then (∑ j ∈ Finset.range k, y.getD (i * k + j) 0) / (k : K) else ∑ j ∈ Finset.range k, y.getD (i * k + j) 0 := by
  have hk' : (0 : K) < k := by exact_mod_cast hk
  have hnb : newBins y.length df ((k : K) * df) = y.length / k := by
    unfold newBins
    rw [mul_div_mul_right _ _ hdf.ne', Nat.floor_div_natCast, Nat.floor_natCast]
  unfold rebinned
  rw [hnb]
  apply List.map_congr_left
  intro i hi
  have hi := List.mem_range.1 hi
  have hik : i * k + k ≤ y.length := by
    have : (i + 1) * k ≤ y.length := (Nat.le_div_iff_mul_le hk).1 hi
    rwa [Nat.add_mul, Nat.one_mul] at this
  have ht : total f0 df y (newStart f0 df ((k : K) * df) i) (newStart f0 df ((k : K) * df) i + (k : K) * df) =
      (∑ j ∈ Finset.range k, y.getD (i * k + j) 0) * df := by
    unfold total
    rw [← Finset.sum_subset (s₁ := Finset.Ico (i * k) (i * k + k)) (fun j hj => by
        rw [Finset.mem_Ico] at hj; rw [Finset.mem_range]; omega)]
    · rw [Finset.sum_Ico_eq_sum_range, Nat.add_sub_cancel_left, Finset.sum_mul]
      apply Finset.sum_congr rfl
      intro j hj
      have hj := Finset.mem_range.1 hj
      congr 1
      have hj' : (j : K) + 1 ≤ k := by exact_mod_cast hj
      have hj0 : (0 : K) ≤ j := Nat.cast_nonneg j
      rw [overlap_eq_full]
      · ring
      · unfold newStart; push_cast; nlinarith
      · unfold newStart; push_cast; nlinarith
      · nlinarith
    · intro j _ hj
      rw [Finset.mem_Ico, not_and_or, not_le, not_lt] at hj
      rw [mul_eq_zero]
      right
      rcases hj with hj | hj
      · apply overlap_eq_zero_left
        have : (j : K) + 1 ≤ i * k := by exact_mod_cast hj
        unfold newStart; nlinarith
      · apply overlap_eq_zero_right
        have : (i : K) * k + k ≤ j := by exact_mod_cast hj
        unfold newStart; nlinarith
  rw [ht]
  split_ifs
  · rw [mul_div_mul_right _ _ hdf.ne']
  · rw [mul_div_cancel_right₀ _ hdf.ne']

theorem rebinned_scale (f0 df d : K) (method : Method) (c : K) (y : List K) :
    rebinned f0 df d method (y.map (c * ·)) = (rebinned f0 df d method y).map (c * ·) := by
  unfold rebinned total
  rw [List.length_map, List.map_map]
  apply List.map_congr_left
  intro i _
  have : ∀ j, (y.map (c * ·)).getD j 0 = c * y.getD j 0 := by
    intro j
    simp only [List.getD_eq_getElem?_getD, List.getElem?_map]
    rcases y[j]? with _ | v <;> simp
  simp only [this, mul_assoc, ← Finset.mul_sum, Function.comp]
  split_ifs <;> rw [mul_div_assoc]

/-- **C147.** The normalised powers stay the unnormalised ones in the same normalisation: if they were `c` times the unnormalised powers they still are after rebinning. So it does not matter whether a spectrum is first normalised or first rebinned. -/
theorem rebin_normalisation (sqrt rint : K → K) (df' f : Option K) (f0 df d : K) (hdf : 0 < df) (hle : df ≤ d) (n : Nat) (hn : d ≤ (n : K) * df) (method : Method)
    (hm : method ≠ .other) (hd : Requested df' f df d) (s r : Sub K) (hs : OnGrid f0 df n s) (u : List K) (hu : s.unnorm = some u) (c : K) (hpow : s.power = u.map (c * ·))
    (h : rebinSub sqrt rint df' f method s = .ok r) : ∃ u', r.unnorm = some u' ∧ r.power = u'.map (c * ·) := by
  obtain ⟨r', hr, hR⟩ := rebinSub_grid sqrt rint df' f f0 df d hdf hle n hn method hm s hs hd
  rw [hr] at h
  cases h
  exact ⟨rebinned f0 df d method u, by rw [hR.unnorm, hu]; rfl, by rw [hR.power, hpow, rebinned_scale]⟩

/-- **C147.** Without a resolution, with a finer one than the present one, and with an unknown method, rebinning is refused with a ValueError. -/
theorem rebin_refuses (sqrt rint : K → K) (df' f : Option K) (f0 df : K) (hdf : 0 < df) (n : Nat) (hn : 0 < n) (method : Method) (s : Spec K) (hs : OnGrid f0 df n s.own)
    (h : (df' = none ∧ f = none) ∨ (∃ d, Requested df' f df d ∧ d < df) ∨ (method = .other ∧ s.own.powerErr = none)) :
    rebin sqrt rint df' f method s = .error .valueError := by
  have hold : dxOld (grid f0 df n) (.scalar df) = [df] := by simp [dxOld, hdf.ne']
  have key : rebinSub sqrt rint df' f method s.own = .error .valueError := by
    unfold rebinSub
    rcases hnd : newDf df' f s.own.df with e | d
    · unfold newDf at hnd
      rcases f with _ | f
      · rcases df' with _ | df'
        · simp only at hnd; cases hnd; rfl
        · simp at hnd
      · simp at hnd
    · have hreq := (newDf_ok _ _ _ _).1 hnd
      have hev : rebinEven sqrt s.own.freq s.own.power d s.own.powerErr method s.own.df = .error .valueError := by
        unfold rebinEven
        rw [hs.freq, hs.step]
        have : rebinData sqrt (grid f0 df n) s.own.power d s.own.powerErr method (.scalar df) = .error .valueError := by
          rcases h with ⟨h1, h2⟩ | ⟨d', h1, h2⟩ | ⟨h1, h2⟩
          · rw [h1, h2] at hnd; simp [newDf] at hnd
          · have h1' := (newDf_ok _ _ _ _).2 h1
            rw [hs.step, h1'] at hnd
            cases hnd
            exact rebin_data_refuses sqrt _ _ _ _ _ _ n _ (edges_grid f0 df hdf n hn) 0 hn (by push_cast; linarith)
          · rw [h1, h2]
            exact rebinData_other sqrt _ _ _ _ (by intro h; have := congrArg List.length h; simp [grid] at this; omega) (by rw [hold]; simp)
        rw [this]; rfl
      simp only [bind, Except.bind, hev]
  unfold rebin
  rw [key]; rfl

/-- **C147 (negation).** The uncertainties do not follow: for any number `k ≥ 2` of equal powers with equal uncertainties `e > 0` averaged to one, the uncertainty of the mean is `e / √k`; the one reported is `√(k e) / k`, which is right only for `e = 1`. In particular the result
depends on the normalisation. -/
theorem rebin_error_constant (rint : ℝ → ℝ) (f0 df : ℝ) (hdf : 0 < df) (k : Nat) (hk : 2 ≤ k) (p e m : ℝ) (he : 0 < e) :
    ∃ r, rebinSub Real.sqrt rint none (some (k : ℝ)) .mean ⟨grid f0 df k, df, m, List.replicate k p, some (List.replicate k e), none, none⟩ = .ok r ∧
      r.powerErr = some [Real.sqrt (k * e) / k] ∧ (Real.sqrt (k * e) / k = e / Real.sqrt k ↔ e = 1) := by
  have hk' : (0 : ℝ) < k := by exact_mod_cast (by omega : 0 < k)
  have hk1 : (1 : ℝ) ≤ k := by exact_mod_cast (by omega : 1 ≤ k)
  have hle : df ≤ (k : ℝ) * df := by nlinarith
  obtain ⟨o, ho, h1, h2, h3⟩ := rebinEven_grid Real.sqrt f0 df ((k : ℝ) * df) hdf hle k le_rfl (List.replicate k p) (by simp) (some (List.replicate k e)) (by simp) .mean (by decide)
  have herr : o.ybinerr = [Real.sqrt (k * e) / k] := by
    have hout : rebinData Real.sqrt (grid f0 df k) (List.replicate k p) ((k : ℝ) * df) (some (List.replicate k e)) .mean (.scalar df) = .ok o := by
      unfold rebinEven at ho
      rcases hr : rebinData Real.sqrt (grid f0 df k) (List.replicate k p) ((k : ℝ) * df) (some (List.replicate k e)) .mean (.scalar df) with x | o'
      · rw [hr] at ho; simp only [bind, Except.bind] at ho; cases ho
      · rw [hr] at ho
        simp only [bind, Except.bind] at ho
        rcases hh : o'.stepSize.head? with _ | st
        · simp only [hh] at ho; cases ho
        · simp only [hh] at ho; cases ho; rfl
    have hE := edges_grid f0 df hdf k (by omega)
    obtain ⟨_, _, _, _, hye⟩ := rebinData_ok _ _ _ _ _ _ _ _ k _ hE (by simp) (by simp) hout
    have hb : ∀ (z : List ℝ) (c : ℝ), (∀ j < k, z.getD j 0 = c) →
        binned k (fun j => f0 + (j : ℝ) * df) (fun j => z.getD j 0) (f0 + ((0 : Nat) : ℝ) * df + ((0 : Nat) : ℝ) * (k * df)) (f0 + ((0 : Nat) : ℝ) * df + ((0 : Nat) : ℝ) * (k * df) + k * df) = k * c := by
      intro z c hz
      unfold binned
      rw [Finset.sum_congr rfl (g := fun _ => c)]
      · simp
      · intro j hj
        have hj := Finset.mem_range.1 hj
        have hj' : (j : ℝ) + 1 ≤ k := by exact_mod_cast hj
        have hj0 : (0 : ℝ) ≤ j := Nat.cast_nonneg j
        beta_reduce
        rw [hz j hj, overlap_eq_full]
        · rw [div_self, mul_one]; push_cast; intro h; apply hdf.ne'; linarith
        · push_cast; nlinarith
        · push_cast; nlinarith
        · push_cast; nlinarith
    simp only at hye
    rw [hye]
    have hfl : ⌊(f0 + (k : ℝ) * df - (f0 + ((0 : Nat) : ℝ) * df)) / (k * df)⌋₊ = 1 := by
      rw [show (f0 + (k : ℝ) * df - (f0 + ((0 : Nat) : ℝ) * df)) = k * df by push_cast; ring, div_self (by positivity), Nat.floor_one]
    rw [hfl, List.range_one, List.map_singleton, if_pos trivial]
    rw [hb _ e (by
      intro j hj
      simp [List.getD_eq_getElem?_getD, hj]), hb _ 1 (by
      intro j hj
      simp [List.getD_eq_getElem?_getD, hj, grid])]
    rw [mul_one]
  refine ⟨⟨o.xbin, k * df, rint (k * df / df * m), o.ybin, some o.ybinerr, none, none⟩, ?_, by rw [herr], ?_⟩
  · unfold rebinSub newDf rebinUnnorm
    simp only [bind, Except.bind, ho]
  · rw [Real.sqrt_mul hk'.le]
    have hs : 0 < Real.sqrt k := Real.sqrt_pos.2 hk'
    have hs2 : Real.sqrt k * Real.sqrt k = k := Real.mul_self_sqrt hk'.le
    have he0 : 0 < Real.sqrt e := Real.sqrt_pos.2 he
    have he2 : Real.sqrt e * Real.sqrt e = e := Real.mul_self_sqrt he.le
    have : Real.sqrt k * Real.sqrt e / k = Real.sqrt e / Real.sqrt k := by
      rw [div_eq_div_iff hk'.ne' hs.ne']; nlinarith
    rw [this, div_left_inj' hs.ne']
    constructor
    · intro h; have : Real.sqrt e = 1 := by nlinarith
      rw [← he2, this]; norm_num
    · intro h; rw [h, Real.sqrt_one]

example : rebin (K := ℚ) id id none (some 2) .mean ⟨⟨[1, 2, 3, 4, 5], 1, 3, [2, 4, 6, 8, 10], none, some [1, 2, 3, 4, 5], none⟩, some [[1, 3, 5, 7, 9]],
    [⟨[1, 2, 3, 4, 5], 1, 3, [1, 1, 1, 2, 2], none, none, none⟩]⟩ =
    .ok ⟨⟨[3/2, 7/2], 2, 6, [3, 7], some [0, 0], some [3/2, 7/2], none⟩, some [[2, 6]], [⟨[3/2, 7/2], 2, 6, [1, 3/2], some [0, 0], none, none⟩]⟩ := by decide +kernel

/-! ## C148: logarithmic rebinning -/

open Stingray.RebinLog

/-- the values `v` belonging to the frequencies in the logarithmic bin `i` -/
def inBin (f0 df f : K) (freq v : List K) (i : Nat) : List K := ((freq.zip v).filter fun p => decide (inLogBin f0 df f i p.1)).map Prod.snd

/-- their mean: not a number if there are none -/
def binMean (f0 df f : K) (freq v : List K) (i : Nat) : Option K :=
  if (inBin f0 df f freq v i).length = 0 then none else some ((inBin f0 df f freq v i).sum / (inBin f0 df f freq v i).length)

/-- the uncertainty of the mean, from uncertainties `e` added in quadrature -/
def binErr (sqrt : K → K) (f0 df f : K) (freq e : List K) (i : Nat) : Option K :=
  if (inBin f0 df f freq e i).length = 0 then none else some (sqrt (((inBin f0 df f freq e i).map fun x => x ^ 2).sum) / (inBin f0 df f freq e i).length)

theorem log_ok (sqrt : K → K) (med : List K → K) (x y : List K) (ye : Option (List K)) (f dx x0 xl : K)
    (hx0 : x.head? = some x0) (hxl : x.getLast? = some xl) (hpos : 0 < x0) (hs : x.Pairwise (· ≤ ·))
    (hf : 0 ≤ f) (hd : 0 < dx) (hy : y.length = x.length) (hye : ∀ l ∈ ye, l.length = x.length) :
    ∃ (fuel0 nb : Nat) (out : RebinLog.Out K), 0 < nb ∧
      (∀ fuel ≥ fuel0, rebinDataLog sqrt med fuel x y f ye (some dx) = some (.ok out)) ∧
      xl < logEdge x0 dx f nb ∧ (nb = 1 ∨ logEdge x0 dx f (nb - 1) ≤ xl) ∧
      out.nsamples.sum = x.length ∧
      out.nsamples = (List.range nb).map (fun i => x.countP fun t => decide (inLogBin x0 dx f i t)) ∧
      ∀ i < nb, out.binx[i]? = some (binMean x0 dx f x x i) ∧ out.biny[i]? = some (binMean x0 dx f x y i) ∧
        ∀ e ∈ ye, out.binyErr[i]? = some (binErr sqrt x0 dx f x e i) := by
  have hnone : ∀ fuel, rebinDataLog sqrt med fuel x y f ye (some dx) = rebinDataLog sqrt med fuel x y f (some (ye.getD (y.map fun _ => 0))) (some dx) := by
    intro fuel
    cases ye <;> rfl
  obtain ⟨fuel0, nb, out, h1, h2, h3, h4, h5, h6, h7⟩ := rebin_data_log_partition sqrt med x y (ye.getD (y.map fun _ => 0)) f dx x0 xl hx0 hxl hpos hs hf hd hy (by
    cases ye with
    | none => simpa using hy
    | some e => exact hye e rfl)
  refine ⟨fuel0, nb, out, h1, fun fuel hfu => (hnone fuel).trans (h2 fuel hfu), h3, h4, h5, h6, fun i hi => ?_⟩
  obtain ⟨a, b, c⟩ := h7 i hi
  refine ⟨a, b, fun e he => ?_⟩
  rw [Option.mem_def.1 he] at c
  exact c

/-- **C148.** Logarithmic rebinning of a spectrum with increasing positive frequencies, `f ≥ 0` and a positive resolution: it terminates, and there are edges, the first at half the lowest frequency, with widths `df (1+f)^k`, the last one just past the highest frequency, such that the new frequencies,
powers and unnormalised powers are the means over the old ones in each bin, and the uncertainties those of means; `k` is the number of old frequencies in the bin, all of which are in one of the bins, and the number of averaged powers is `k` times the old one. -/
theorem rebin_log_spec [Archimedean K] (sqrt : K → K) (med : List K → K) (f f0 fl : K) (s : Sub K) (hx0 : s.freq.head? = some f0) (hxl : s.freq.getLast? = some fl) (hpos : 0 < f0)
    (hs : s.freq.Pairwise (· ≤ ·)) (hf : 0 ≤ f) (hd : 0 < s.df) (hp : s.power.length = s.freq.length) (hpe : ∀ e ∈ s.powerErr, e.length = s.freq.length)
    (hu : ∀ u ∈ s.unnorm, u.length = s.freq.length) (hue : ∀ e ∈ s.unnormErr, e.length = s.freq.length) :
    ∃ (fuel0 nb : Nat) (r : LogSub K), 0 < nb ∧ (∀ fuel ≥ fuel0, rebinLog sqrt med fuel f s = some (.ok r)) ∧
      fl < logEdge f0 s.df f nb ∧ (nb = 1 ∨ logEdge f0 s.df f (nb - 1) ≤ fl) ∧
      r.k = (List.range nb).map (fun i => s.freq.countP fun t => decide (inLogBin f0 s.df f i t)) ∧ r.k.sum = s.freq.length ∧
      r.m = r.k.map (fun n : Nat => (n : K) * s.m) ∧ r.df = s.df ∧
      (∀ i < nb, r.freq[i]? = some (binMean f0 s.df f s.freq s.freq i) ∧ r.power[i]? = some (binMean f0 s.df f s.freq s.power i) ∧
        ∀ e ∈ s.powerErr, r.powerErr[i]? = some (binErr sqrt f0 s.df f s.freq e i)) ∧
      (s.unnorm = none → r.unnorm = none) ∧
      (∀ u ∈ s.unnorm, ∃ u', r.unnorm = some u' ∧ ∀ i < nb, u'[i]? = some (binMean f0 s.df f s.freq u i)) ∧
      (s.unnorm ≠ none → ∀ e ∈ s.unnormErr, ∃ e', r.unnormErr = some e' ∧ ∀ i < nb, e'[i]? = some (binErr sqrt f0 s.df f s.freq e i)) := by
  have hmono := logEdge_mono f0 s.df f hd hf
  obtain ⟨fuel0, nb, out, h1, h2, h3, h4, h5, h6, h7⟩ := log_ok sqrt med s.freq s.power s.powerErr f s.df f0 fl hx0 hxl hpos hs hf hd hp hpe
  rcases hsu : s.unnorm with _ | u
  · refine ⟨fuel0, nb, ⟨out.binx, s.df, out.nsamples.map fun n : Nat => (n : K) * s.m, out.nsamples, out.biny, out.binyErr, none, s.unnormErr.map fun l => l.map some⟩,
      h1, fun fuel hfu => ?_, h3, h4, h6, h5, rfl, rfl, h7, fun _ => rfl, fun u hu => (by cases hu), fun h => absurd rfl h⟩
    unfold rebinLog logUnnorm
    rw [h2 fuel hfu, hsu]
  · obtain ⟨fuel1, nb', out', g1, g2, g3, g4, g5, g6, g7⟩ := log_ok sqrt med s.freq u s.unnormErr f s.df f0 fl hx0 hxl hpos hs hf hd (hu u (by rw [hsu]; rfl)) hue
    have hnb : nb' = nb := by
      rcases Nat.lt_trichotomy nb' nb with h | h | h
      · exfalso
        rcases h4 with h4 | h4
        · omega
        · have := hmono.monotone (show nb' ≤ nb - 1 by omega); exact absurd (g3.trans_le this) (not_lt.2 h4)
      · exact h
      · exfalso
        rcases g4 with g4 | g4
        · omega
        · have := hmono.monotone (show nb ≤ nb' - 1 by omega); exact absurd (h3.trans_le this) (not_lt.2 g4)
    subst hnb
    refine ⟨max fuel0 fuel1, nb', ⟨out.binx, s.df, out.nsamples.map fun n : Nat => (n : K) * s.m, out.nsamples, out.biny, out.binyErr, some out'.biny, s.unnormErr.map fun _ => out'.binyErr⟩,
      h1, fun fuel hfu => ?_, h3, h4, h6, h5, rfl, rfl, h7, fun h => (by cases h), fun u' hu' => ?_, fun _ e he => ?_⟩
    · unfold rebinLog logUnnorm
      simp only [h2 fuel (le_trans (le_max_left _ _) hfu), hsu, g2 fuel (le_trans (le_max_right _ _) hfu)]
    · cases hu'
      exact ⟨_, rfl, fun i hi => (g7 i hi).2.1⟩
    · refine ⟨out'.binyErr, by rw [Option.mem_def.1 he]; rfl, fun i hi => (g7 i hi).2.2 e he⟩

/-- each frequency is in exactly one logarithmic bin -/
theorem inBin_total (f0 df f : K) (hd : 0 < df) (hf : 0 ≤ f) (nb : Nat) (freq v : List K) (h : ∀ t ∈ freq, f0 / 2 ≤ t ∧ t < logEdge f0 df f nb) (hl : v.length = freq.length) :
    ∑ i ∈ Finset.range nb, (inBin f0 df f freq v i).sum = v.sum := by
  have hmono := logEdge_mono f0 df f hd hf
  have e0 : logEdge f0 df f 0 = f0 / 2 := by simp [logEdge]
  have hone : ∀ t, f0 / 2 ≤ t → t < logEdge f0 df f nb → ∃ k < nb, ∀ i, inLogBin f0 df f i t ↔ i = k := by
    intro t h1 h2
    have hex : ∃ k, t < logEdge f0 df f (k + 1) := ⟨nb, h2.trans (hmono (Nat.lt_succ_self nb))⟩
    classical
    refine ⟨Nat.find hex, ?_, fun i => ⟨fun hi => ?_, fun hi => ?_⟩⟩
    · rcases Nat.eq_zero_or_pos nb with h0 | h0
      · subst h0; rw [e0] at h2; exact absurd h2 (not_lt.2 h1)
      · have : Nat.find hex ≤ nb - 1 := Nat.find_min' hex (by rwa [Nat.sub_add_cancel h0])
        omega
    · refine le_antisymm ?_ (Nat.find_min' hex hi.2)
      by_contra hc
      have : logEdge f0 df f (Nat.find hex + 1) ≤ logEdge f0 df f i := hmono.monotone (by omega)
      exact absurd ((Nat.find_spec hex).trans_le this) (not_lt.2 hi.1)
    · subst hi
      refine ⟨?_, Nat.find_spec hex⟩
      rcases hz : Nat.find hex with _ | k
      · rw [e0]; exact h1
      · have := Nat.find_min hex (m := k) (by omega)
        exact not_lt.1 this
  induction freq generalizing v with
  | nil =>
    rw [List.length_nil, List.length_eq_zero_iff] at hl
    subst hl
    simp [inBin]
  | cons t freq ih =>
    cases v with
    | nil => simp at hl
    | cons a v =>
      obtain ⟨k, hk, hkt⟩ := hone t (h t (by simp)).1 (h t (by simp)).2
      have hstep : ∀ i, (inBin f0 df f (t :: freq) (a :: v) i).sum = (if i = k then a else 0) + (inBin f0 df f freq v i).sum := by
        intro i
        unfold inBin
        rw [List.zip_cons_cons, List.filter_cons]
        by_cases hi : i = k
        · rw [if_pos (decide_eq_true ((hkt i).2 hi)), if_pos hi, List.map_cons, List.sum_cons]
        · rw [if_neg (by simpa using fun h => hi ((hkt i).1 h)), if_neg hi, zero_add]
      rw [Finset.sum_congr rfl fun i _ => hstep i, Finset.sum_add_distrib, ih v (fun t' ht' => h t' (List.mem_cons_of_mem _ ht')) (by simpa using hl), List.sum_cons,
        Finset.sum_ite_eq' (Finset.range nb) k (fun _ => a), if_pos (Finset.mem_range.2 hk)]

/-- **C148.** Logarithmic rebinning conserves the total power: the sum over the new bins of power times number of old frequencies is the sum of the old powers (so an rms integrated over the whole range does not change). -/
theorem rebin_log_conserves [Archimedean K] (sqrt : K → K) (med : List K → K) (f f0 fl : K) (s : Sub K) (hx0 : s.freq.head? = some f0) (hxl : s.freq.getLast? = some fl) (hpos : 0 < f0)
    (hs : s.freq.Pairwise (· ≤ ·)) (hf : 0 ≤ f) (hd : 0 < s.df) (hp : s.power.length = s.freq.length) (hpe : ∀ e ∈ s.powerErr, e.length = s.freq.length)
    (hu : ∀ u ∈ s.unnorm, u.length = s.freq.length) (hue : ∀ e ∈ s.unnormErr, e.length = s.freq.length) :
    ∃ (fuel0 : Nat) (r : LogSub K), (∀ fuel ≥ fuel0, rebinLog sqrt med fuel f s = some (.ok r)) ∧
      ∑ i ∈ Finset.range r.k.length, (r.k.getD i 0 : K) * ((r.power.getD i none).getD 0) = s.power.sum := by
  obtain ⟨fuel0, nb, r, h1, h2, h3, h4, h5, h6, h7, h8, h9, _⟩ := rebin_log_spec sqrt med f f0 fl s hx0 hxl hpos hs hf hd hp hpe hu hue
  refine ⟨fuel0, r, h2, ?_⟩
  have hlen : r.k.length = nb := by rw [h5]; simp
  rw [hlen, ← inBin_total f0 s.df f hd hf nb s.freq s.power (fun t ht => ?_) hp]
  · apply Finset.sum_congr rfl
    intro i hi
    have hi := Finset.mem_range.1 hi
    have hcount : s.freq.countP (fun t => decide (inLogBin f0 s.df f i t)) = (inBin f0 s.df f s.freq s.power i).length := by
      unfold inBin
      rw [List.length_map, ← List.countP_eq_length_filter]
      conv_lhs => rw [← List.map_fst_zip (l₁ := s.freq) (l₂ := s.power) hp.ge, List.countP_map]
      rfl
    rw [List.getD_eq_getElem?_getD, List.getD_eq_getElem?_getD, (h9 i hi).2.1, h5, List.getElem?_map, List.getElem?_range hi]
    simp only [Option.map_some, Option.getD_some, hcount, binMean]
    split_ifs with h0
    · rw [h0, List.length_eq_zero_iff.1 h0]; simp
    · rw [Option.getD_some, mul_div_cancel₀]
      exact_mod_cast h0
  · have hmem := List.mem_iff_getElem?.1 ht
    have hge : f0 ≤ t := by
      obtain ⟨l, hl⟩ : ∃ l, s.freq = f0 :: l := by
        rcases hfr : s.freq with _ | ⟨a, l⟩
        · rw [hfr] at hx0; simp at hx0
        · rw [hfr] at hx0; simp only [List.head?_cons, Option.some.injEq] at hx0; exact ⟨l, by rw [hx0]⟩
      rw [hl] at ht hs
      rcases List.mem_cons.1 ht with rfl | ht
      · exact le_rfl
      · exact (List.pairwise_cons.1 hs).1 t ht
    have hle : t ≤ fl := by
      obtain ⟨l, hl⟩ : ∃ l, s.freq = l ++ [fl] := by
        have := List.getLast?_eq_some_iff.1 hxl
        exact this
      rw [hl] at ht hs
      rcases List.mem_append.1 ht with ht | ht
      · exact (List.pairwise_append.1 hs).2.2 t ht fl (by simp)
      · rw [List.mem_singleton.1 ht]
    exact ⟨by linarith, lt_of_le_of_lt hle h3⟩

/-- **C148 (negation).** The frequencies below half of the first one, which exist if that is negative (`fullspec`), are in no bin: of the frequencies -4, ..., -1, 1, ..., 4 the two lowest disappear (the first edge is `-4 / 2 = -2`). -/
theorem rebin_log_negative :
    (rebinLog (K := ℚ) id (fun _ => 1) 20 0 ⟨[-4, -3, -2, -1, 1, 2, 3, 4], 1, 1, [1, 2, 3, 4, 5, 6, 7, 8], none, none, none⟩).map (·.map fun r => (r.k, r.k.sum)) =
      some (.ok ([1, 1, 0, 1, 1, 1, 1], 6)) := by decide +kernel

example : (rebinLog (K := ℚ) id (fun _ => 1) 20 1 ⟨[1, 2, 3, 4, 5], 1, 3, [2, 4, 6, 8, 10], some [1, 1, 1, 1, 1], some [1, 2, 3, 4, 5], none⟩) =
    some (.ok ⟨[some 1, some (5/2), some (9/2)], 1, [3, 6, 6], [1, 2, 2], [some 2, some 5, some 9], [some 1, some 1, some 1], some [some 1, some (5/2), some (9/2)], none⟩) := by decide +kernel

end Stingray.SpecRebin

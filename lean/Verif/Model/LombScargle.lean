import Verif.Model.Basic
import Verif.Model.Gti
import Mathlib.Analysis.SpecialFunctions.Trigonometric.Basic
import Mathlib.Analysis.SpecialFunctions.Complex.Arg

/-!
Model of the Lomb-Scargle spectra: `stingray/lombscargle.py` and `lsft_slow`, `lsft_fast`, `impose_symmetry_lsft` of `stingray/fourier.py`.

Arithmetic is that of the real numbers; a light curve is the list of its pairs (time, counts). The sums that astropy's `trig_sum` approximates by extirpolation are taken to be exact.
-/

namespace Stingray.LombScargle

open Stingray

section Frequencies

variable {K : Type} [Field K] [LinearOrder K] [FloorRing K]

/-- `_autofrequency`, `stingray/lombscargle.py` 63-80. -/
def autofrequency (minFreq maxFreq df dt length : Option K) (nyquist : K) : Except PyErr (List K) :=
  let good := df.filter fun x => decide (0 < x)
  match good, length with
  | none, none => .error .valueError
  | _, _ =>
    let d := good.getD (1 / length.getD 0)
    match maxFreq, dt.filter fun x => decide (x ≠ 0) with
    | none, none => .error .valueError
    | _, t =>
      let hi := maxFreq.getD (nyquist * (1 / 2) / t.getD 0)
      let lo := (minFreq.filter fun x => decide (0 < x)).getD (d / 2)
      .ok (Gti.arange lo (hi + d) d)

/-- The frequencies of `LombScargleCrossspectrum(data1, data2, ...)`: `stingray/lombscargle.py` 222-235 hands `df=None` on to 692-704. -/
def crossFrequencies (minFreq maxFreq _df dt length : Option K) (nyquist : K) : Except PyErr (List K) :=
  autofrequency minFreq maxFreq none dt length nyquist

/-- The span of two light curves, `stingray/lombscargle.py` 694. -/
def span (t1 t2 : List K) : K := max (t1.getLastD 0) (t2.getLastD 0) - min (t1.headD 0) (t2.headD 0)

/-- The kinds of data that the class may be given. -/
inductive Kind where
  | missing | events | lightcurve | other
deriving DecidableEq, Repr

/-- The arguments looked at by `initial_checks`; a name that is not a string is `none`. -/
structure Args (K : Type) where
  data1 : Kind
  data2 : Kind
  norm : Option String
  powerType : Option String
  dt : Option K
  minFreq : Option K
  maxFreq : Option K
  method : String
  oversamplingIsInt : Bool
  fullspecIsBool : Bool

/-- `initial_checks`, `stingray/lombscargle.py` 251-303; `norm` in lower case, `res` is the resolution of floats. -/
def initialChecks (res : K) (a : Args K) : Except PyErr Unit :=
  match a.norm, a.powerType with
  | none, _ => .error .typeError
  | some _, none => .error .typeError
  | some nrm, some pt =>
    if nrm ∉ ["frac", "abs", "leahy", "none"] then .error .valueError
    else if pt ∉ ["all", "absolute", "real"] then .error .valueError
    else if (a.data1 = .missing ∨ a.data2 = .missing) ∧ (a.data1 ≠ .missing ∨ a.data2 ≠ .missing) then .error .valueError
    else if a.minFreq.any fun x => decide (x < 0) then .error .valueError
    else if a.maxFreq.any fun x => decide (x < 0) then .error .valueError
    else if a.maxFreq.any fun x => a.minFreq.any fun y => decide (x ≤ y) then .error .valueError
    else if a.method ∉ ["fast", "slow"] then .error .valueError
    else if !a.oversamplingIsInt then .error .typeError
    else if !a.fullspecIsBool then .error .typeError
    else if a.data1 ≠ a.data2 then .error .typeError
    else if a.data1 = .events then (if a.dt.all fun x => decide (x ≤ res) then .error .valueError else .ok ())
    else if a.data1 = .lightcurve then .ok ()
    else .error .typeError

end Frequencies

/-- The mean of the counts. -/
noncomputable def mean (d : List (ℝ × ℝ)) : ℝ := (d.map fun p => p.2).sum / d.length

/-- `np.arctan2(s, c)`. -/
noncomputable def arctan2 (s c : ℝ) : ℝ := Complex.arg ⟨c, s⟩

/-- One turn of the loop of `lsft_slow`, `stingray/fourier.py` 2648-2677, at the frequency `f`. `none` is NaN: the quotient 0 / 0. -/
noncomputable def slowAt (sign : ℝ) (d : List (ℝ × ℝ)) (f : ℝ) : Option ℂ :=
  let w := f * 2 * Real.pi
  let m := mean d
  if w = 0 then some (((d.map fun p => p.2 - m).sum / √d.length : ℝ) : ℂ)
  else
    let csum := (d.map fun p => Real.cos (2 * w * p.1)).sum
    let ssum := (d.map fun p => Real.sin (2 * w * p.1)).sum
    let wtau := 1 / 2 * arctan2 ssum csum
    let sumr := (d.map fun p => (p.2 - m) * Real.cos (w * p.1 - wtau)).sum
    let sumi := (d.map fun p => (p.2 - m) * Real.sin (w * p.1 - wtau)).sum
    let scos2 := (d.map fun p => Real.cos (w * p.1 - wtau) ^ 2).sum
    let ssin2 := (d.map fun p => Real.sin (w * p.1 - wtau) ^ 2).sum
    let const1 := √(1 / 2 * d.length)
    let const2 := const1 * SignType.sign sign
    let phase := wtau - w * (d.headD (0, 0)).1
    if scos2 = 0 ∨ ssin2 = 0 then none
    else some ((⟨const1 * sumr / √scos2, const2 * sumi / √ssin2⟩ : ℂ) * Complex.exp (-Complex.I * phase))

/-- `lsft_slow`, `stingray/fourier.py` 2629-2678. -/
noncomputable def lsftSlow (sign : ℝ) (d : List (ℝ × ℝ)) (freqs : List ℝ) : List (Option ℂ) :=
  (freqs.filter fun f => decide (0 ≤ f)).map (slowAt sign d)

/-- astropy's `trig_sum` at one frequency: the sum of `h sin(2π f t)` and that of `h cos(2π f t)`, in this order. -/
noncomputable def trigSum (d : List (ℝ × ℝ)) (h : ℝ × ℝ → ℝ) (f : ℝ) : ℝ × ℝ :=
  ((d.map fun p => h p * Real.sin (2 * Real.pi * f * p.1)).sum, (d.map fun p => h p * Real.cos (2 * Real.pi * f * p.1)).sum)

/-- `lsft_fast`, `stingray/fourier.py` 2535-2593, at the frequency `f` of `num` evenly spaced ones. `none`: not finite, or the root of a negative number. -/
noncomputable def fastAt (sign : ℝ) (num : Nat) (d : List (ℝ × ℝ)) (f : ℝ) : Option ℂ :=
  let m := mean d
  let h := trigSum d (fun p => p.2 - m) f
  let Sh := h.1
  let Ch := h.2
  let w := f * 2 * Real.pi
  -- 2553: `csum, ssum = trig_sum(...)`
  let cs := trigSum d (fun _ => 1 / d.length) (2 * f)
  let csum := cs.1
  let ssum := cs.2
  let wtau := 1 / 2 * arctan2 ssum csum
  let two := trigSum d (fun _ => 1) (2 * f)
  let S2 := two.1
  let C2 := two.2
  let const := √(1 / 2) * √num
  let sumr := Ch * Real.cos wtau + Sh * Real.sin wtau
  let sumi := Sh * Real.cos wtau - Ch * Real.sin wtau
  let scos2 := 1 / 2 * (num + C2 * Real.cos (2 * wtau) + S2 * Real.sin (2 * wtau))
  let ssin2 := 1 / 2 * (num - C2 * Real.cos (2 * wtau) - S2 * Real.sin (2 * wtau))
  let phase := wtau - w * (d.headD (0, 0)).1
  if f = 0 then some ((((d.map fun p => p.2 - m).sum / √d.length : ℝ) : ℂ) * Complex.exp (-Complex.I * phase))
  else if scos2 ≤ 0 ∨ ssin2 ≤ 0 then none
  else some ((⟨const * sumr / √scos2, const * SignType.sign sign * sumi / √ssin2⟩ : ℂ) * Complex.exp (-Complex.I * phase))

/-- `lsft_fast`, `stingray/fourier.py` 2535-2593, for evenly spaced frequencies; with fewer than two of them `freqs[1]` raises. -/
noncomputable def lsftFast (sign : ℝ) (d : List (ℝ × ℝ)) (freqs : List ℝ) : Except PyErr (List (Option ℂ)) :=
  let fs := freqs.filter fun f => decide (0 ≤ f)
  if fs.length < 2 then .error .indexError else .ok (fs.map (fastAt sign fs.length d))

/-- `impose_symmetry_lsft`, `stingray/fourier.py` 2708-2710. -/
noncomputable def imposeSymmetry (ft : List ℂ) (freqs : List ℝ) : List ℂ × List ℝ :=
  (ft.reverse.map (starRingEnd ℂ) ++ [0] ++ ft, (freqs.map fun f => -f).reverse ++ [0] ++ freqs)

/-- `np.multiply(lsft1, np.conjugate(lsft2))`, `stingray/lombscargle.py` 802, of one bin. -/
noncomputable def crossAt (a b : Option ℂ) : Option ℂ := a.bind fun x => b.map fun y => x * starRingEnd ℂ y

/-- `_ls_cross` with `method="slow"`, `fullspec=False`, `stingray/lombscargle.py` 793-803. -/
noncomputable def crossSlow (d1 d2 : List (ℝ × ℝ)) (freqs : List ℝ) : List (Option ℂ) :=
  List.zipWith crossAt (lsftSlow 1 d1 freqs) (lsftSlow 1 d2 freqs)

/-- The end of `lscrossspectrum_from_lightcurve`, `stingray/lombscargle.py` 741-748: `power` and `unnorm_power`. -/
noncomputable def powers (normalize : ℂ → ℂ) (powerType : String) (cross : List ℂ) : List ℂ × List ℂ :=
  let power := cross.map normalize
  if powerType = "real" then
    let power := power.map fun z => (z.re : ℂ)
    (power, power.map fun z => (z.re : ℂ))
  else if powerType = "absolute" then
    let power := power.map fun z => ((‖z‖ : ℝ) : ℂ)
    (power, power.map fun z => ((‖z‖ : ℝ) : ℂ))
  else (power, cross)

end Stingray.LombScargle

import Verif.Model.Pulsar
import Mathlib.Analysis.SpecialFunctions.Complex.Arg
import Mathlib.Analysis.SpecialFunctions.Trigonometric.Basic

/-!
# Template fits of pulse profiles: `stingray/pulse/fftfit.py`

Over the reals. The root finder `brentq` is a parameter. The errors of the amplitude and of the shift (lines 162-165, 171-173) and the checks of lines 112-113, which hold in exact arithmetic, are not modelled.
-/

namespace Stingray.FftFit

open Stingray

noncomputable section

/-- One element of `np.fft.fft(x)`. -/
def ft (x : List ℝ) (k : Nat) : ℂ :=
  ∑ j ∈ Finset.range x.length, (x.getD j 0 : ℂ) * Complex.exp (-(2 * Real.pi * (j * k : Nat) / x.length : ℝ) * Complex.I)

/-- `x - np.mean(x)`, `stingray/pulse/fftfit.py` 92, 95. -/
def centre (x : List ℝ) : List ℝ := x.map fun v => v - x.sum / x.length

/-- `amp = P * S`, lines 106, 108, 116. -/
def amp (prof template : List ℝ) (k : Nat) : ℝ := ‖ft (centre prof) k‖ * ‖ft (centre template) k‖

/-- `pha = theta - phi`, lines 107, 109, 117. -/
def pha (prof template : List ℝ) (k : Nat) : ℝ := Complex.arg (ft (centre prof) k) - Complex.arg (ft (centre template) k)

/-- The real part of `ccf`, lines 31-38: of the 64 elements, 1 to 15 and 0 are not zero (the conjugates of line 35 are those of zeros). -/
def ccf (amp pha : Nat → ℝ) (j : Nat) : ℝ :=
  ((List.range 16).map fun (k : Nat) => amp k * Real.cos (pha k + 2 * Real.pi * (j * k : Nat) / 64)).sum / 64

open Classical in
/-- `_find_delay_with_ccf`, lines 40-43: the first maximum of 64 values. -/
def findDelay (amp pha : Nat → ℝ) : ℝ :=
  let v := (List.range 64).map (ccf amp pha)
  Pulsar.normalizePhase 1 (((v.findIdx fun x => v.all fun y => decide (y ≤ x)) : ℝ) / 64)

open Classical in
/-- `ngood`, lines 120-121. -/
def ngood (n : Nat) (amp : Nat → ℝ) : Nat :=
  (List.range n).countP fun (k : Nat) => decide (((List.range n).map amp).sum / n ≤ amp k)

/-- `best_phase_func`, lines 64-67, for `ngood` harmonics of the array. -/
def bestPhase (amp pha : Nat → ℝ) (ngood : Nat) (tau : ℝ) : ℝ :=
  ((List.range ngood).map fun (i : Nat) => ((i + 1 : Nat) : ℝ) * amp (i + 1) * Real.sin (-pha (i + 1) + 2 * Real.pi * (i + 1 : Nat) * tau)).sum

/-- `func_to_minimize`, lines 128-129. -/
def toMinimize (amp pha : Nat → ℝ) (ngood : Nat) (tau : ℝ) : ℝ := bestPhase amp pha ngood (-tau)

open Classical in
/-- The loop of lines 136-150, with a bound on the number of rounds: `i` rounds are done. -/
def bracket (f : ℝ → ℝ) (n : Nat) (start : ℝ) : Nat → Nat → Option ℝ
  | 0, _ => none
  | fuel + 1, i =>
    if SignType.sign (f (start + i / n)) ≠ SignType.sign (f start) then some (start + i / n)
    else if SignType.sign (f (start - i / n)) ≠ SignType.sign (f start) then some (start - i / n)
    else bracket f n start fuel (i + 1)

/-- The amplitude, lines 159-160, 167-169: NaN if the harmonics of the template vanish. -/
def amplitude (amp pha S : Nat → ℝ) (ngood : Nat) (shift : ℝ) : Option ℝ :=
  let ks := (List.range ngood).drop 1
  let s := (ks.map fun (k : Nat) => S k ^ 2).sum
  open Classical in
  if s = 0 then none else some ((ks.map fun (k : Nat) => amp k * Real.cos (-pha k + 2 * Real.pi * k * (-shift))).sum / s)

/-- The number of terms of the sum of line 66: one bin is broadcast, and its sum is empty. -/
def terms (n ngood : Nat) : Nat := if n = 1 then 0 else ngood

/-- Lines 126-160 and 167-169: amplitude and shift; `none` is a search that has not ended within `fuel` rounds. The loops that normalise the shift end after at most `⌈|s|⌉` rounds. -/
def solve (brentq : (ℝ → ℝ) → ℝ → ℝ → Except PyErr ℝ) (fuel n : Nat) (a p S : Nat → ℝ) (ng : Nat) : Except PyErr (Option (Option ℝ × ℝ)) :=
  let f := toMinimize a p (terms n ng)
  match bracket f n (findDelay a p) fuel 0 with
  | none => .ok none
  | some best =>
    match brentq f (best - 2 / n) (best + 2 / n) with
    | .error e => .error e
    | .ok s =>
      let shift := Pulsar.normalizePhase ⌈|s|⌉₊ s
      .ok (some (amplitude a p S ng shift, shift))

open Classical in
/-- `fftfit`, lines 73-175: amplitude and shift. Boolean indices of another length raise an `IndexError` (line 108), fewer than 32 bins cannot be assigned to 32 elements (line 34), and as many harmonics as bins
do not match the bins after the first (line 66). -/
def fftfit (brentq : (ℝ → ℝ) → ℝ → ℝ → Except PyErr ℝ) (fuel : Nat) (prof template : List ℝ) : Except PyErr (Option (Option ℝ × ℝ)) :=
  let n := prof.length
  if template = [] ∨ prof = [] then .error .valueError
  else if template.length ≠ n then .error .indexError
  else if n ≠ 1 ∧ n < 32 then .error .valueError
  else if n ≠ 1 ∧ n ≤ ngood n (amp prof template) then .error .valueError
  else solve brentq fuel n (amp prof template) (pha prof template) (fun k => ‖ft (centre template) k‖) (ngood n (amp prof template))

/-- `fftfit` of the user, `stingray/pulse/pulsar.py` 741-771: the mean is subtracted first; without a template, `None` has no mean. -/
def pulsarFftfit (brentq : (ℝ → ℝ) → ℝ → ℝ → Except PyErr ℝ) (fuel : Nat) (prof : List ℝ) (template : Option (List ℝ)) : Except PyErr (Option (Option ℝ × ℝ)) :=
  match template with
  | none => .error .typeError
  | some t => fftfit brentq fuel (centre prof) (centre t)

end

end Stingray.FftFit

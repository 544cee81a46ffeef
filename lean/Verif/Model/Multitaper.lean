import Verif.Model.Basic
import Mathlib.Algebra.Order.Field.Basic
import Mathlib.Analysis.SpecialFunctions.Log.Basic

/-!
Model of the multitaper periodogram, `stingray/multitaper.py` 293-520 and 554-622.

Responses are stored frequency by frequency: at each frequency a list with a complex number (as a pair) for each taper; the code has an array with a row for each taper.
`sqrt`, the Fourier transform `rfft`, the numerical integral `integ` and the tapers with their eigenvalues (`scipy.signal.windows.dpss`) are parameters.
Not modelled: warnings and printed messages, the Lomb-Scargle variant, the normalisation (C39, C40) and rebinning (C20, C147), NaNs.
-/

namespace Stingray.Multitaper

open Stingray

section Psd

variable {K : Type} [Field K] [LinearOrder K]

/-- `psd_from_freq_response` at one frequency, `stingray/multitaper.py` 415-419. -/
def psdAt (resp : List (K × K)) (w : List K) : K :=
  (List.zipWith (fun z v => (z.1 * v) * (z.1 * v) + (z.2 * v) * (z.2 * v)) resp w).sum * (2 / (w.map fun v => v * v).sum)

/-- The tapers that are used, `stingray/multitaper.py` 343-350: those with an eigenvalue above 0.9, or the first one with the largest eigenvalue. -/
def selected (eig : List K) : List Nat :=
  let good := (List.range eig.length).filter fun i => decide (eig.getD i 0 > 9 / 10)
  if good = [] then
    match (List.range eig.length).find? fun i => eig.all fun e => decide (e ≤ eig.getD i 0) with
    | none => []
    | some i => [i]
  else good

/-- The weights of the tapers at a frequency with the power `p`, `stingray/multitaper.py` 498-501. -/
def adaptWeights (sqrt : K → K) (eig : List K) (var p : K) : List K :=
  eig.map fun e => p / (e * p + (1 - e) * var) * sqrt e

/-- The largest mean square difference of the weights, `stingray/multitaper.py` 511, is less than 1e-10. -/
def converged (err d : List (List K)) : Bool :=
  (List.zipWith (fun (e v : List K) => (List.zipWith (fun a b => (a - b) * (a - b)) e v).sum / (v.length : K)) err d).all fun x => decide (x < 1 / 10 ^ 10)

/-- The iteration of `_get_adaptive_psd`, `stingray/multitaper.py` 497-516, with the number of turns left. -/
def adaptLoop (sqrt : K → K) (eig : List K) (var : K) (resp : List (List (K × K))) : Nat → List K → List (List K) → List K × List (List K)
  | 0, psd, err => (psd, err)
  | n + 1, psd, err =>
    let d := psd.map fun p => adaptWeights sqrt eig var p
    if converged err d then (psd, d)
    else adaptLoop sqrt eig var resp n (List.zipWith psdAt resp d) d

/-- The power at each frequency with the same weights everywhere. -/
def psdAll (resp : List (List (K × K))) (w : List K) : List K := resp.map fun r => psdAt r w

/-- `_get_adaptive_psd`, `stingray/multitaper.py` 421-520: the powers and the weights. `integ l` is the integral of line 469 divided by `2 pi`. -/
def adaptivePsd (sqrt : K → K) (integ : List K → K) (eig : List K) (resp : List (List (K × K))) (maxIter : Nat) : List K × List (List K) :=
  let w := eig.map sqrt
  if eig.length < 3 then (psdAll resp w, resp.map fun _ => w)
  else
    let var := integ (psdAll resp w)
    let start := resp.map fun r => psdAt (r.take 2) (w.take 2)
    adaptLoop sqrt eig var resp maxIter start (resp.map fun r => r.map fun _ => 0)

/-- The powers of either kind, `stingray/multitaper.py` 368-372. -/
def combine (sqrt : K → K) (integ : List K → K) (eig : List K) (resp : List (List (K × K))) (adaptive : Bool) : List K :=
  if adaptive then (adaptivePsd sqrt integ eig resp 150).1 else psdAll resp (eig.map sqrt)

/-- The counts without their mean, times a taper, `stingray/multitaper.py` 354-356. -/
def tapered (counts taper : List K) : List K :=
  let mean := counts.sum / counts.length
  List.zipWith (fun c w => (c - mean) * w) counts taper

/-- The responses, `stingray/multitaper.py` 358-365: the transform of each tapered series (one list per taper), without the first and the last element. (The division of these two by the square root of 2 has no effect.) -/
def responses (rfft : List K → List (K × K)) (counts : List K) (tapers : List (List K)) : List (List (K × K)) :=
  tapers.map fun w => ((rfft (tapered counts w)).drop 1).dropLast

/-- Rows to columns: the responses of all the tapers at each frequency. -/
def columns (n : Nat) (rows : List (List (K × K))) : List (List (K × K)) :=
  (List.range n).map fun i => rows.map fun r => r.getD i (0, 0)

/-- The frequencies, `stingray/multitaper.py` 366: `rfftfreq(n, dt)[1:-1]`. -/
def frequencies (n : Nat) (dt : K) : List K :=
  (((List.range (n / 2 + 1)).map fun (k : Nat) => (k : K) / (n * dt)).drop 1).dropLast

/-- `_fourier_multitaper`, `stingray/multitaper.py` 293-385, given the tapers and their eigenvalues (lines 337-350): the frequencies and the powers. -/
def fourierMultitaper (sqrt : K → K) (integ : List K → K) (rfft : List K → List (K × K)) (nw : K) (counts : List K) (dt : K) (tapers : List (List K)) (eig : List K)
    (lowBias adaptive : Bool) : Except PyErr (List K × List K) :=
  if nw < 1 / 2 then .error .valueError
  else
    let sel := if lowBias then selected eig else List.range eig.length
    let eig' := sel.map fun i => eig.getD i 0
    let tap' := sel.map fun i => tapers.getD i []
    let freq := frequencies counts.length dt
    let resp := columns freq.length (responses rfft counts tap')
    .ok (freq, (combine sqrt integ eig' resp adaptive).map fun p => p * dt)

end Psd

/-- The powers without the taper `i`, `stingray/multitaper.py` 594-608. -/
noncomputable def leaveOut (sqrt : ℝ → ℝ) (integ : List ℝ → ℝ) (eig : List ℝ) (resp : List (List (ℝ × ℝ))) (adaptive : Bool) (i : Nat) : List ℝ :=
  combine sqrt integ (eig.eraseIdx i) (resp.map fun r => r.eraseIdx i) adaptive

/-- `jackknifed_sdf_variance`, `stingray/multitaper.py` 554-622, at the frequency with the index `f`. -/
noncomputable def jackknife (sqrt : ℝ → ℝ) (integ : List ℝ → ℝ) (eig : List ℝ) (resp : List (List (ℝ × ℝ))) (adaptive : Bool) (f : Nat) : ℝ :=
  let k : ℝ := eig.length
  let logs := (List.range eig.length).map fun i => Real.log ((leaveOut sqrt integ eig resp adaptive i).getD f 0)
  let mean := logs.sum / k
  (logs.map fun x => (x - mean) ^ 2).sum * ((k - 1) ^ 2 / k / (k - 1 / 2))

end Stingray.Multitaper

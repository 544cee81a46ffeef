import Verif.Model.Gti
import Mathlib.Analysis.SpecialFunctions.Log.Base

/-!
# Spectral-timing quantities as a function of energy: `stingray/varenergyspectrum.py`
-/

namespace Stingray.VarEnergy

open Stingray.Gti

variable {K : Type} [Field K] [LinearOrder K]

/-! ## The reference band -/

/-- `np.max` of all the borders of a list of bands, raising on an empty list. -/
def maxBorder (bands : List (K × K)) : Except PyErr K :=
  match flatten bands with
  | [] => .error .valueError
  | x :: xs => .ok (xs.foldl max x)

/-- `get_non_overlapping_ref_band`, `stingray/varenergyspectrum.py` 33-77, for a reference band given as a list of bands (a single band is put in a list of one, lines 68-69). -/
def getNonOverlappingRefBand (order : KeySort (fun (x : (K × K) × Bool) => x.1.2)) (channel : K × K)
    (ref : List (K × K)) : Except PyErr (List (K × K)) :=
  match checkSeparate ref [channel] with
  | .error e => .error e
  | .ok true => .ok ref
  | .ok false =>
    match maxBorder ref with
    | .error e => .error e
    | .ok m => crossTwoGtis order ref [(0, channel.1), (channel.2, max m (channel.2 + 1))]

/-! ## Energy bands -/

/-- `energy_spec`: what the constructors accept. The kind of spacing is a string. -/
inductive EnergySpec (K : Type) where
  | tuple (lo hi : K) (n : Nat) (kind : List Char)
  | list (edges : List K)
  | other

/-- `np.linspace(lo, hi, n + 1)`: the last point is set to `hi` if there are at least two. -/
def linspace (lo hi : K) (n : Nat) : List K :=
  if n = 0 then [lo]
  else (List.range n).map (fun (i : Nat) => lo + (i : K) * ((hi - lo) / (n : K))) ++ [hi]

/-- `str.lower` for ASCII letters. -/
def lower (s : List Char) : List Char := s.map Char.toLower

/-- `_decode_energy_specification`, lines 80-125, applied to a tuple; `np.logspace(a, b, n)` is `10 ** np.linspace(a, b, n)`. -/
noncomputable def decodeEnergySpec (lo hi : ℝ) (n : Nat) (kind : List Char) : Except PyErr (List ℝ) :=
  if lower kind = ['l', 'o', 'g'] then
    .ok ((linspace (Real.logb 10 lo) (Real.logb 10 hi) n).map (fun x => (10 : ℝ) ^ x))
  else if lower kind = ['l', 'i', 'n'] then .ok (linspace lo hi n)
  else .error .valueError

/-- `list(zip(energies[0:-1], energies[1:]))`, lines 219 and 237. -/
def intervals (edges : List K) : List (K × K) := edges.dropLast.zip edges.tail

/-- The centres of the bands, `energy`, line 263. -/
def centres (bands : List (K × K)) : List K := bands.map fun b => (b.1 + b.2) / 2

/-! ## The spectra -/

/-- One event: time, energy, PI channel. -/
structure Ev (K : Type) where
  time : K
  energy : K
  pi : K
  deriving DecidableEq

/-- `_get_times_from_energy_range`, lines 305-330. -/
def timesInRange (usePi : Bool) (events : List (Ev K)) (erange : K × K) : List K :=
  (events.filter fun e =>
    let x := if usePi then e.pi else e.energy
    decide (erange.1 ≤ x) && decide (x < erange.2)).map Ev.time

/-- The result of a constructor: the spectrum and its uncertainties start as NaN (`none`), `_create_empty_spectrum` lines 290-303. -/
structure EnergyResult (K : Type) where
  spectrum : List (Option K)
  error : List (Option K)
  deriving DecidableEq

/-- `_create_empty_spectrum`. -/
def emptySpectrum (bands : List (K × K)) : EnergyResult K :=
  ⟨List.replicate bands.length none, List.replicate bands.length none⟩

/-- `self.spectrum[i] = value; self.spectrum_error[i] = err`. -/
def EnergyResult.store (r : EnergyResult K) (i : Nat) (v : Option (K × K)) : EnergyResult K :=
  match v with
  | none => r
  | some (x, e) => ⟨r.spectrum.set i (some x), r.error.set i (some e)⟩

/-- `for i, eint in enumerate(self.energy_intervals)`: `measure` returns `none` where the code says `continue`. -/
def bandLoop (measure : (K × K) → Option (K × K)) : Nat → List (K × K) → EnergyResult K → EnergyResult K
  | _, [], r => r
  | i, b :: bs, r => bandLoop measure (i + 1) bs (r.store i (measure b))

/-- `CountSpectrum`, lines 721-773. -/
def countSpectrum (sqrt : K → K) (usePi : Bool) (events : List (Ev K)) (edges : List K) : EnergyResult K :=
  let bands := intervals edges
  if events = [] then emptySpectrum bands
  else bandLoop (fun b =>
    let sp : K := ((timesInRange usePi events b).length : K)
    some (sp, sqrt sp)) 0 bands (emptySpectrum bands)

/-- `RmsSpectrum`, lines 556-630, for a single event list: what is computed from the times of the events of a band (lines 568-628: rate, photons per segment, averaged periodogram, noise, `rms` and its uncertainty) is the parameter `analysis`, which returns `none` where the code skips the band. `use_pi` is accepted by the constructor; line 567 does not pass it on. -/
def rmsSpectrum (analysis : List K → Option (K × K)) (_usePi : Bool) (events : List (Ev K))
    (edges : List K) : EnergyResult K :=
  let bands := intervals edges
  if events = [] then emptySpectrum bands
  else bandLoop (fun b => analysis (timesInRange false events b)) 0 bands (emptySpectrum bands)

/-- `LagSpectrum` and `ComplexCovarianceSpectrum`, lines 854-935 and 1032-1122: the reference events are those of the first reference band (lines 856 and 1035), the subject ones those of each band; `analysis` is the rest. -/
def crossEnergySpectrum (analysis : List K → List K → Option (K × K)) (_usePi : Bool) (refBands : List (K × K))
    (events1 events2 : List (Ev K)) (edges : List K) : Except PyErr (EnergyResult K) :=
  let bands := intervals edges
  if events1 = [] then .ok (emptySpectrum bands)
  else match refBands with
    | [] => .error .indexError
    | r0 :: _ =>
      .ok (bandLoop (fun b => analysis (timesInRange false events1 b) (timesInRange false events2 r0)) 0 bands
        (emptySpectrum bands))

/-- `ExcessVarianceSpectrum`, lines 682-718: `_spectrum_function` fills two local arrays with the excess variance of each band and returns them; the constructor (line 254) ignores what it returns. -/
def excessVarianceSpectrum (excessVariance : List K → K × K) (usePi : Bool) (events : List (Ev K))
    (edges : List K) : EnergyResult K :=
  let bands := intervals edges
  let _returned := bands.map fun b => excessVariance (timesInRange usePi events b)
  emptySpectrum bands

/-- The squared uncertainty of the rms, lines 622-625. -/
def rmsErrSq (rms rmsnoise mAve nAveBin : K) : K :=
  (rms ^ 4 + rmsnoise ^ 4 + 2 * rms * rmsnoise) / (4 * mAve * nAveBin * rms ^ 2)

/-- `rms`, line 619. -/
def rmsOf (sqrt : K → K) (meanPower powerNoise deltaNu : K) : K := sqrt (|meanPower - powerNoise| * deltaNu)

end Stingray.VarEnergy

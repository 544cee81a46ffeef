import Verif.Model.Simulator
import Verif.Spec.Moments
import Mathlib.Analysis.SpecialFunctions.Trigonometric.Basic
import Mathlib.Analysis.SpecialFunctions.Pow.Real

/-!
# Simulated light curves: `stingray/simulator/simulator.py` 43-73, 146-171, 340-500, 534-537

Over the reals. The draws of `np.random.normal` are parameters, and so is the integer drawn from `self.random_state`. The shapes are not negative. A long light curve that is constant has a zero standard
deviation, by which the code divides (NaN, with a warning); here the quotient is 0, and the theorems that depend on it assume a non-zero standard deviation.
-/

namespace Stingray.Timmer

open Stingray

noncomputable section

/-- How often a frequency of a half spectrum counts in the inverse transform: the zero frequency and, for an even number of samples, the Nyquist frequency once, the others twice. -/
def multiplicity (n k : Nat) : ℝ := if k = 0 ∨ 2 * k = n then 1 else 2

/-- `np.fft.irfft(f, n=n)` for `f` given by real and imaginary parts: a longer `f` is cut, a shorter one is filled with zeros. -/
def irfft (f : List (ℝ × ℝ)) (n : Nat) : List ℝ :=
  (List.range n).map fun (j : Nat) =>
    ((List.range (n / 2 + 1)).map fun (k : Nat) =>
      multiplicity n k * ((f.getD k (0, 0)).1 * Real.cos (2 * Real.pi * (j * k : Nat) / n) - (f.getD k (0, 0)).2 * Real.sin (2 * Real.pi * (j * k : Nat) / n))).sum / n

/-- The attributes of a simulator, `stingray/simulator/simulator.py` 43-65. -/
structure Config where
  dt : ℝ
  n : Nat
  mean : ℝ
  rms : ℝ
  redNoise : Nat
  tstart : ℝ
  poisson : Bool

/-- The checks of `__init__`, `stingray/simulator/simulator.py` 48-49, 72-73. -/
def checkInit (nIsInteger : Bool) (rms dt : ℝ) : Except PyErr Unit :=
  if nIsInteger = false then .error .valueError
  else if ¬ rms ≤ 1 then .error .assertionError
  else if ¬ 0 < dt then .error .assertionError
  else .ok ()

/-- The amplitudes, `stingray/simulator/simulator.py` 371-373. -/
def amplitudes (g1 g2 : Nat → ℝ) (shape : List ℝ) : List (ℝ × ℝ) :=
  (List.range shape.length).map fun (k : Nat) =>
    (g1 k * Real.sqrt (1 / 2 * shape.getD k 0), if k + 1 = shape.length then 0 else g2 k * Real.sqrt (1 / 2 * shape.getD k 0))

/-- `_find_inverse`, `stingray/simulator/simulator.py` 340-365. -/
def findInverse (c : Config) (a : List (ℝ × ℝ)) : List ℝ :=
  irfft ((c.mean * c.n * c.redNoise, 0) :: a) (c.n * c.redNoise)

/-- `_timmerkoenig`, `stingray/simulator/simulator.py` 367-400: the rescaled counts, which are the counts of the light curve or, for Poisson light curves, the rates they are drawn with. -/
def timmerKoenig (c : Config) (g1 g2 : Nat → ℝ) (extract : Nat) (shape : List ℝ) : Except PyErr (List ℝ) :=
  if shape = [] then .error .indexError
  else if c.n * c.redNoise = 0 then .error .valueError
  else
    let long := findInverse c (amplitudes g1 g2 shape)
    let std := Real.sqrt (Spec.popVariance long)
    match Simulator.extractAndScale c.n c.redNoise extract c.mean c.rms std long with
    | .error e => .error e
    | .ok x => .ok (if c.poisson then x.map fun v => if v < 0 then 0 else v else x)

/-- `np.fft.rfftfreq(n, d=dt)[1:]` -/
def frequencies (n : Nat) (dt : ℝ) : List ℝ := (List.range (n / 2)).map fun (k : Nat) => ((k : ℝ) + 1) / (n * dt)

/-- The shape of a model, `stingray/simulator/simulator.py` 415-418, 457-462, 483-498. -/
def modelShape (c : Config) (s : ℝ → ℝ) : List ℝ := (frequencies (c.redNoise * c.n) c.dt).map s

/-- The shape from a given spectrum, `stingray/simulator/simulator.py` 436-437. -/
def userShape (c : Config) (s : List ℝ) : List ℝ := s ++ List.replicate (s.length * c.redNoise - s.length) 0

/-- `self.time`, `stingray/simulator/simulator.py` 62. -/
def times (c : Config) : List ℝ := (List.range c.n).map fun (k : Nat) => c.dt * k + c.tstart

/-- The times of a light curve from an impulse response, `stingray/simulator/simulator.py` 535. -/
def responseTimes (c : Config) (len : Nat) : List ℝ := (List.range len).map fun (k : Nat) => c.dt * (1 / 2 + k) + c.tstart

/-- What `simulate` is called with. -/
inductive Call where
  /-- a number -/
  | powerLaw (b : ℝ)
  /-- an astropy model -/
  | model (s : ℝ → ℝ)
  /-- the name of a model and parameters; `params` is `none` when they are not a list or dictionary -/
  | named (known : Bool) (params : Option (ℝ → ℝ))
  /-- a spectrum, as an array or as a list -/
  | spectrum (s : List ℝ) (isArray : Bool)
  /-- a signal and an impulse response -/
  | response (s h : List ℝ) (mode : Simulator.Mode)
  /-- no argument -/
  | nothing
  /-- more than three arguments -/
  | tooMany

/-- A light curve of `_timmerkoenig` with its times. -/
def withTimes (c : Config) (r : Except PyErr (List ℝ)) : Except PyErr (List ℝ × List ℝ) := r.map fun x => (times c, x)

/-- `simulate`, `stingray/simulator/simulator.py` 152-171, with `_simulate_power_law` (402-420), `_simulate_model` (441-464), `_simulate_model_string` (466-500), `_simulate_power_spectrum` (422-439) and
`_simulate_impulse_response` (502-537): times and counts. -/
def simulate (c : Config) (g1 g2 : Nat → ℝ) (extract : Nat) : Call → Except PyErr (List ℝ × List ℝ)
  | .powerLaw b => withTimes c (timmerKoenig c g1 g2 extract (modelShape c fun w => (1 / w) ^ b))
  | .model s => withTimes c (timmerKoenig c g1 g2 extract (modelShape c s))
  | .named known params =>
    if known = false then .error .valueError
    else match params with
      | none => .error .valueError
      | some s => withTimes c (timmerKoenig c g1 g2 extract (modelShape c s))
  | .spectrum s isArray => if isArray then withTimes c (timmerKoenig c g1 g2 extract (userShape c s)) else .error .attributeError
  | .response s h mode =>
    let x := Simulator.impulseResponse s h mode
    .ok (responseTimes c x.length, x)
  | .nothing => .error .indexError
  | .tooMany => .error .valueError

end

end Stingray.Timmer

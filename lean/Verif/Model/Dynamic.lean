import Verif.Model.Segments
import Verif.Model.Rebin

/-!
# Dynamical spectra: how the matrix is made, and its rebinning (`stingray/powerspectrum.py`, `stingray/crossspectrum.py`)
-/

namespace Stingray.Dynamic

open Stingray Stingray.Gti Stingray.Segments Stingray.Rebin

variable {K : Type} [Field K] [LinearOrder K] [IsStrictOrderedRing K] [FloorRing K]

/-- The spectra that an averaged spectrum keeps with `save_all=True`: segments without flux are left out, `stingray/fourier.py` 1658-1660 (`avg_pds_from_iterable`). `power` is the spectrum of one segment. -/
def keptSpectra (power : List Nat → List K) (fluxes : List (Option (List Nat))) : List (List K) :=
  fluxes.filterMap fun f => match f with
    | none => none
    | some c => if c.all (fun x => decide (x = 0)) then none else some (power c)

/-- `DynamicalPowerspectrum._make_matrix`, `stingray/powerspectrum.py` 1102-1135, for events: the times and the columns of the matrix. Simplifications: the spectrum of one segment is a parameter
(C41 is about it), and the case that no segment has any flux is not refused here. -/
def makeMatrix (power : List Nat → List K) (times : List K) (gti : List (K × K)) (size : K) (nBin : Nat) (eps : K) : Except PyErr (List K × List (List K)) :=
  match eventSegments times gti (some size) nBin eps, timeIntervalsFromGtis gti size 1 eps with
  | .ok fluxes, .ok segs => .ok (segs.map fun s => s.1 + size / 2, keptSpectra power fluxes)
  | .error e, _ => .error e
  | _, .error e => .error e

/-- What is kept of the last of the calls of `rebin_data`: the new abscissae and the number of averaged spectra, `int(step) * self.m`, where `step` is the first element of the step sizes (`stingray/utils.py` 625-626, even sampling;
without elements, an `IndexError`). `stingray/crossspectrum.py` 2341-2344 and 2391-2394. -/
def assemble (outs : List (Out K)) (m : Nat) : Except PyErr (List K × List (List K) × Nat) :=
  match outs.getLast? with
  | none => .error .nameError
  | some o => match o.stepSize.head? with
    | none => .error .indexError
    | some step => .ok (o.xbin, outs.map Out.ybin, ⌊step⌋.toNat * m)

/-- `rebin_time(dt_new, method)`, `stingray/crossspectrum.py` 2348-2395: `rows` are the powers at each frequency as function of time. The new times, rows, and number of averaged spectra. Without rows, `time_new` has no value. -/
def rebinTime (sqrt : K → K) (rows : List (List K)) (time : List K) (dt dtNew : K) (method : Method) (m : Nat) : Except PyErr (List K × List (List K) × Nat) :=
  if dtNew < dt then .error .valueError
  else
    match rows.mapM fun row => rebinData sqrt time row dtNew none method (.scalar dt) with
    | .error e => .error e
    | .ok outs => assemble outs m

/-- `rebin_frequency(df_new, method)`, `stingray/crossspectrum.py` 2312-2346, for evenly spaced frequencies: `cols` are the powers at each time as function of frequency. -/
def rebinFrequency (sqrt : K → K) (cols : List (List K)) (freq : List K) (dfNew : K) (method : Method) (m : Nat) : Except PyErr (List K × List (List K) × Nat) :=
  match cols.mapM fun col => rebinData sqrt freq col dfNew none method .absent with
  | .error e => .error e
  | .ok outs => assemble outs m

end Stingray.Dynamic

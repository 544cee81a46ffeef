import Verif.Model.Rebin
import Verif.Model.RebinLog

/-!
# Rebinning of spectrum objects: `Crossspectrum.rebin`, `Crossspectrum.rebin_log`

Powers are real (power spectra, or cross spectra with `power_type="real"`). Nothing is modelled of the attributes that are copied.
-/

namespace Stingray.SpecRebin

open Stingray.Rebin

variable {K : Type} [Field K] [LinearOrder K] [IsStrictOrderedRing K]

/-- What `rebin` and `rebin_log` use and set of a spectrum, or of one of the power spectra attached to a cross spectrum. -/
structure Sub (K : Type) where
  freq : List K
  df : K
  m : K
  power : List K
  powerErr : Option (List K)
  unnorm : Option (List K)
  unnormErr : Option (List K)
  deriving DecidableEq

/-- A spectrum: itself, the spectra of the single segments (`cs_all`, none if they were not saved), and `pds1` and `pds2` if it is a cross spectrum. -/
structure Spec (K : Type) where
  own : Sub K
  csAll : Option (List (List K))
  pds : List (Sub K)
  deriving DecidableEq

/-- The new resolution, `stingray/crossspectrum.py` 763-766. -/
def newDf (df f : Option K) (old : K) : Except PyErr K :=
  match f, df with
  | some f, _ => .ok (f * old)
  | none, some d => .ok d
  | none, none => .error .valueError

/-- `rebin_data` with a number as `dx`, `stingray/utils.py` 489-631: also `step_size[0]` (line 626), which raises if there is no new bin. -/
def rebinEven [FloorRing K] (sqrt : K → K) (x y : List K) (dxNew : K) (yerr : Option (List K)) (method : Method) (dx : K) :
    Except PyErr (Out K × K) := do
  let o ← rebinData sqrt x y dxNew yerr method (.scalar dx)
  match o.stepSize.head? with
  | none => .error .indexError
  | some s => .ok (o, s)

/-- The unnormalised powers, `stingray/crossspectrum.py` 782-794: rebinned powers and errors. -/
def rebinUnnorm [FloorRing K] (sqrt : K → K) (freq : List K) (df d : K) (method : Method) (unnorm unnormErr : Option (List K)) :
    Except PyErr (Option (List K) × Option (List K)) :=
  match unnorm with
  | none => .ok (none, unnormErr)
  | some u => do
    let (o, _) ← rebinEven sqrt freq u d unnormErr method df
    .ok (some o.ybin, unnormErr.map fun _ => o.ybinerr)

/-- `Crossspectrum.rebin` without the attached spectra, `stingray/crossspectrum.py` 763-794 and 808. -/
def rebinSub [FloorRing K] (sqrt rint : K → K) (df f : Option K) (method : Method) (s : Sub K) : Except PyErr (Sub K) := do
  let d ← newDf df f s.df
  let (o, step) ← rebinEven sqrt s.freq s.power d s.powerErr method s.df
  let (u, ue) ← rebinUnnorm sqrt s.freq s.df d method s.unnorm s.unnormErr
  .ok { freq := o.xbin, df := d, m := rint (step * s.m), power := o.ybin, powerErr := some o.ybinerr, unnorm := u, unnormErr := ue }

/-- The spectra of the single segments, `stingray/crossspectrum.py` 796-802. -/
def rebinAll [FloorRing K] (sqrt : K → K) (freq : List K) (df d : K) (method : Method) (cs : Option (List (List K))) :
    Except PyErr (Option (List (List K))) :=
  match cs with
  | none => .ok none
  | some l => do
    let r ← l.mapM fun c => rebinEven sqrt freq c d none method df
    .ok (some (r.map fun o => o.1.ybin))

/-- `Crossspectrum.rebin`, `stingray/crossspectrum.py` 739-810. -/
def rebin [FloorRing K] (sqrt rint : K → K) (df f : Option K) (method : Method) (s : Spec K) : Except PyErr (Spec K) := do
  let own ← rebinSub sqrt rint df f method s.own
  let cs ← rebinAll sqrt s.own.freq s.own.df own.df method s.csAll
  let pds ← s.pds.mapM (rebinSub sqrt rint (some own.df) f method)
  .ok ⟨own, cs, pds⟩

/-! ## Logarithmic rebinning -/

/-- What `rebin_log` sets: NaN (a bin without frequencies) is `none`. -/
structure LogSub (K : Type) where
  freq : List (Option K)
  df : K
  m : List K
  k : List Nat
  power : List (Option K)
  powerErr : List (Option K)
  unnorm : Option (List (Option K))
  unnormErr : Option (List (Option K))
  deriving DecidableEq

/-- The unnormalised powers, `stingray/crossspectrum.py` 972-982. -/
def logUnnorm (sqrt : K → K) (med : List K → K) (fuel : Nat) (f : K) (s : Sub K) :
    Option (Except PyErr (Option (List (Option K)) × Option (List (Option K)))) :=
  match s.unnorm with
  | none => some (.ok (none, s.unnormErr.map fun l => l.map some))
  | some u =>
    match RebinLog.rebinDataLog sqrt med fuel s.freq u f s.unnormErr (some s.df) with
    | none => none
    | some (.error e) => some (.error e)
    | some (.ok o) => some (.ok (some o.biny, s.unnormErr.map fun _ => o.binyErr))

/-- `Crossspectrum.rebin_log`, `stingray/crossspectrum.py` 960-982, without the attached spectra (which are rebinned by the same function, lines 984-987). `none`: the loop of `rebin_data_log` has not ended after `fuel` turns. -/
def rebinLog (sqrt : K → K) (med : List K → K) (fuel : Nat) (f : K) (s : Sub K) : Option (Except PyErr (LogSub K)) :=
  match RebinLog.rebinDataLog sqrt med fuel s.freq s.power f s.powerErr (some s.df) with
  | none => none
  | some (.error e) => some (.error e)
  | some (.ok o) =>
    match logUnnorm sqrt med fuel f s with
    | none => none
    | some (.error e) => some (.error e)
    | some (.ok (u, ue)) =>
      some (.ok { freq := o.binx, df := s.df, m := o.nsamples.map fun (n : Nat) => (n : K) * s.m, k := o.nsamples, power := o.biny,
                  powerErr := o.binyErr, unnorm := u, unnormErr := ue })

end Stingray.SpecRebin

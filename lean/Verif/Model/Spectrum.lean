import Verif.Model.Fourier
import Mathlib.Algebra.BigOperators.Group.List.Basic
import Mathlib.Data.Fintype.Basic

/-!
# Spectrum objects: `stingray/crossspectrum.py`
-/

namespace Stingray.Spectrum

open Stingray.Fourier

variable {K : Type} [Field K] [LinearOrder K]

/-! ## Changing the normalisation -/

/-- What `to_norm` uses and sets of a spectrum, or of one of the power spectra attached to a cross spectrum. `nph` is `nphots`, or `sqrt(nphots1 * nphots2)` for a cross spectrum; `variance` is only there for data that are not Poisson. Powers are complex numbers. -/
structure Powers (K : Type) where
  nph : K
  variance : Option K
  unnormPower : List (Cx K)
  unnormPowerErr : Option (List (Cx K))
  power : List (Cx K)
  powerErr : Option (List (Cx K))

/-- A spectrum: `subs` are its own powers, followed by those of `pds1` and `pds2` if it is a cross spectrum. -/
structure SpecObj (K : Type) where
  norm : Norm
  dt : K
  n : K
  powerType : PowerType
  subs : List (Powers K)

/-- The calls of `normalize_periodograms` of `to_norm`, lines 859-897, for one set of powers: without uncertainties of the unnormalised powers those of the powers are left alone. -/
def renormalize (sqrt : K → K) (norm : Norm) (dt n : K) (pt : PowerType) (p : Powers K) : Except PyErr (Powers K) :=
  match normalizeCx sqrt norm dt n (p.nph / n) p.nph p.variance 0 pt p.unnormPower with
  | .error e => .error e
  | .ok power =>
    match p.unnormPowerErr with
    | none => .ok { p with power := power }
    | some u =>
      match normalizeCx sqrt norm dt n (p.nph / n) p.nph p.variance 0 pt u with
      | .error e => .error e
      | .ok err => .ok { p with power := power, powerErr := some err }

/-- `Crossspectrum.to_norm`, `stingray/crossspectrum.py` 812-900: the returned object. With `inplace=True` the object itself becomes this one, unless it has the norm already. -/
def toNorm (sqrt : K → K) (norm : Norm) (s : SpecObj K) : Except PyErr (SpecObj K) :=
  if norm = s.norm then .ok s
  else
    match s.subs.mapM (renormalize sqrt norm s.dt s.n s.powerType) with
    | .error e => .error e
    | .ok subs => .ok { s with norm := norm, subs := subs }

/-! ## Dynamical spectra -/

/-- The loop variables of `rebin_by_n_intervals`: the columns of `self.dyn_ps`, the column `bin_counts` is a view of, `count`, `bin_times`, the columns appended to `dynspec_new`, `time_new`. -/
structure RebinState (r : Nat) (K : Type) where
  cols : List (Fin r → K)
  start : Nat
  count : Nat
  binTime : K
  picked : List Nat
  times : List K

/-- One turn of the loop of `rebin_by_n_intervals`, `stingray/crossspectrum.py` 2436-2450. `bin_counts = data` does not copy the column, so that `+=` and `/=` change `self.dyn_ps`. -/
def rebinStep {r : Nat} (n : Nat) (average : Bool) (time : List K) (st : RebinState r K) (i : Nat) : RebinState r K :=
  let st :=
    if i % n = 0 then { st with count := 1, start := i, binTime := time.getD i 0 }
    else { st with
      count := st.count + 1
      cols := st.cols.set st.start (st.cols.getD st.start 0 + st.cols.getD i 0)
      binTime := st.binTime + time.getD i 0 }
  if st.count = n then
    { st with
      cols := if average then st.cols.set st.start (fun j => st.cols.getD st.start 0 j / (n : K)) else st.cols
      picked := st.picked ++ [st.start]
      times := st.times ++ [st.binTime / (n : K)] }
  else st

/-- The part of a dynamical spectrum `rebin_by_n_intervals` uses: the columns of `dyn_ps` (one per time), `time`, `dt`, `m`. -/
structure DynSpec (r : Nat) (K : Type) where
  cols : List (Fin r → K)
  time : List K
  dt : K
  m : Nat

/-- `DynamicalCrossspectrum.rebin_by_n_intervals`, `stingray/crossspectrum.py` 2397-2457, for an integer `n`: the new object, and the object itself afterwards. -/
def rebinByN {r : Nat} (n : Int) (average : Bool) (d : DynSpec r K) : Except PyErr (DynSpec r K × DynSpec r K) :=
  if n = 1 then .ok (d, d)
  else if n < 1 then .error .valueError
  else
    let k := n.toNat
    let st := (List.range d.cols.length).foldl (rebinStep k average d.time)
      { cols := d.cols, start := 0, count := 0, binTime := 0, picked := [], times := [] }
    .ok ({ cols := st.picked.map fun i => st.cols.getD i 0, time := st.times, dt := d.dt * (k : K), m := k * d.m },
      { d with cols := st.cols })

/-- `numpy.max` of a non-empty array -/
def maxOf : List K → Option K
  | [] => none
  | x :: l => some (l.foldl max x)

/-- The body of the loop of `trace_maximum`, `stingray/crossspectrum.py` 2484-2487. -/
def traceOne (freq : List K) (lo hi : K) (ps : List K) : Except PyErr Nat :=
  let inside := (freq.zip ps).filter fun p => decide (p.1 ≤ hi) && decide (lo ≤ p.1)
  match maxOf (inside.map Prod.snd) with
  | none => .error .valueError
  | some m => .ok (ps.findIdx fun x => decide (x = m))

/-- `DynamicalCrossspectrum.trace_maximum`, `stingray/crossspectrum.py` 2459-2489, with both frequencies given. -/
def traceMaximum (freq : List K) (lo hi : K) (cols : List (List K)) : Except PyErr (List Nat) :=
  cols.mapM (traceOne freq lo hi)

end Stingray.Spectrum

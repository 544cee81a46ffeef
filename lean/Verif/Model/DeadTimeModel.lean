import Verif.Model.DeadTime
import Mathlib.Algebra.Order.Floor.Ring
import Mathlib.Algebra.Order.Floor.Semiring
import Mathlib.Algebra.BigOperators.Group.List.Basic

/-!
# The power spectrum of white noise with dead time: `stingray/deadtime/model.py`; `Crossspectrum.deadtime_correct`

`pois x m` stands for `e_m_x_x_over_factorial`, i.e. `exp(-x) x^m / m!` (the model does not distinguish the direct formula from
Stirling's approximation), `cosTurn t` for `cos(2 pi t)`.  Arithmetic is exact.  NaN is `none`.
-/

namespace Stingray.DeadTime

variable {K : Type} [Field K] [LinearOrder K]

/-- `sum(f(n) for n in range(1, stop))` -/
def sumFrom1 (stop : Nat) (f : Nat → K) : K := ((List.range (stop - 1)).map fun (i : Nat) => f (i + 1)).sum

/-- `_Gn`, `stingray/deadtime/model.py` 115-128.
Simplification: the loop is not left early (line 125 leaves it when the terms no longer change the sum in floating point). -/
def gn (pois : K → Nat → K) (x : K) (n : Nat) : K :=
  ((List.range n).map fun (m : Nat) => pois x m * ((n : K) - (m : K))).sum

/-- `_h`, `stingray/deadtime/model.py` 131-142. -/
def h (pois : K → Nat → K) (k n : Nat) (td tb tau : K) : K :=
  let factor := (k : K) * tb - (n : K) * td
  if (k : K) * tb - (n : K) * td < 0 then 0
  else (k : K) - (n : K) * (td + tau) / tb + tau / tb * gn pois (factor / tau) n

/-- `A0`, `stingray/deadtime/model.py` 148-167. -/
def a0 [FloorRing K] (pois : K → Nat → K) (r0 td tb tau : K) : K :=
  let s := sumFrom1 ⌊max 2 (tb / td * 2 + 1)⌋₊ fun n => h pois 1 n td tb tau
  r0 * tb * (1 + 2 * s)

/-- `A_single_k`, `stingray/deadtime/model.py` 170-197. -/
def aK [FloorRing K] (pois : K → Nat → K) (k : Nat) (r0 td tb tau : K) : K :=
  if k = 0 then a0 pois r0 td tb tau
  else
    let s := sumFrom1 ⌊max 3 (((k : K) + 1) * tb / td * 2)⌋₊ fun n =>
      h pois (k + 1) n td tb tau - 2 * h pois k n td tb tau + h pois (k - 1) n td tb tau
    r0 * tb * s

/-- `limit_A`, `stingray/deadtime/model.py` 222-235. -/
def limitA (rate td tb : K) : Except PyErr K := do
  let r0 ← rDet td rate
  .ok (r0 ^ 2 * tb ^ 2)

/-- `_B_raw`, `stingray/deadtime/model.py` 292-300. -/
def bRaw [FloorRing K] (pois : K → Nat → K) (k : Nat) (r0 td tb tau : K) : K :=
  if k = 0 then 2 * (aK pois 0 r0 td tb tau - r0 ^ 2 * tb ^ 2) / (r0 * tb)
  else 4 * (aK pois k r0 td tb tau - r0 ^ 2 * tb ^ 2) / (r0 * tb)

/-- `_safe_B_single_k`, `stingray/deadtime/model.py` 303-311. -/
def safeB [FloorRing K] (pois : K → Nat → K) (limit k : Nat) (r0 td tb tau : K) : K :=
  if limit < k then 0 else bRaw pois k r0 td tb tau

/-- `_inner_loop_pds_zhang`, `stingray/deadtime/model.py` 410-424. -/
def innerLoop [FloorRing K] (pois : K → Nat → K) (cosTurn : K → K) (N : Nat) (tau r0 td tb : K) (limit : Nat) : List K :=
  (List.range (N / 2)).map fun (j : Nat) =>
    safeB pois 60 0 r0 td tb tau +
      sumFrom1 (min N limit) fun k =>
        ((N : K) - (k : K)) / (N : K) * safeB pois limit k r0 td tb tau * cosTurn ((j : K) * (k : K) / (N : K))

/-- `r0` and `tau`, `stingray/deadtime/model.py` 458-463 (and 267-272, 381-386). -/
def rates (incident : Bool) (rate td : K) : Except PyErr (K × K) :=
  if incident then do
    let tau ← pyDiv 1 rate
    let r0 ← rDet td rate
    .ok (r0, tau)
  else do
    let ri ← rIn td rate
    let tau ← pyDiv 1 ri
    .ok (rate, tau)

/-- `pds_model_zhang`, `stingray/deadtime/model.py` 427-478.
Simplification: `td` and `tb` are not 0. -/
def pdsModel [FloorRing K] (pois : K → Nat → K) (cosTurn : K → K) (N : Nat) (rate td tb : K) (limit : Nat) (incident : Bool) :
    Except PyErr (List K × List K) := do
  let (r0, tau) ← rates incident rate td
  let P := innerLoop pois cosTurn N tau r0 td tb limit
  let maxf := 1 / 2 / tb
  let df ← pyDiv maxf (P.length : K)
  .ok ((List.range P.length).map (fun (j : Nat) => (j : K) * df), P)

/-- `interp1d(xs, ys, bounds_error=False, fill_value="extrapolate")` at `x`, for increasing `xs`: the line through the two
points on both sides of `x`, or the last two on its side; NaN if there is only one point. -/
def interp (xs ys : List K) (x : K) : Option K :=
  if xs.length < 2 then none
  else
    let i := min (max (xs.countP fun a => decide (a < x)) 1) (xs.length - 1)
    let x0 := xs.getD (i - 1) 0
    let y0 := ys.getD (i - 1) 0
    let slope := (ys.getD i 0 - y0) / (xs.getD i 0 - x0)
    some (slope * (x - x0) + y0)

/-- `max` of an array: `ValueError` for an empty one. -/
def maxOf : List K → Except PyErr K
  | [] => .error .valueError
  | x :: l => .ok (l.foldl max x)

/-- `bin_time`, `stingray/deadtime/model.py` 529-530.
Simplification: a highest frequency of 0 raises (NumPy gives an infinite bin time). -/
def binTime (freqs : List K) (bt : Option K) : Except PyErr K :=
  match bt with
  | some t => .ok t
  | none => do
    let m ← maxOf freqs
    pyDiv 1 (2 * m)

/-- `n_bins`, `stingray/deadtime/model.py` 532: `n_approx`, or the highest frequency (not the number of frequencies). -/
def nBins (freqs : List K) (nApprox : Option K) : Except PyErr K :=
  match nApprox with
  | some n => .ok n
  | none => do
    let m ← maxOf freqs
    .ok (max m 10)

/-- "Rescale by the source rate wrt background rate", `stingray/deadtime/model.py` 544-545. -/
def rescale (rate bkg : K) (p : List K) : List K :=
  if 0 < bkg then p.map fun x => (x - 2) * rate / (rate + bkg) + 2 else p

/-- `non_paralyzable_dead_time_model`, `stingray/deadtime/model.py` 481-548. -/
def nonParalyzable [FloorRing K] (pois : K → Nat → K) (cosTurn : K → K) (freqs : List K) (td rate : K) (bt : Option K) (limit : Nat)
    (bkg : K) (nApprox : Option K) : Except PyErr (List (Option K)) := do
  let most ← pyDiv 1 td
  if most < rate + bkg then .error .valueError
  else do
    let tb ← binTime freqs bt
    let n ← nBins freqs nApprox
    let (f, p) ← pdsModel pois cosTurn (⌊n⌋₊ * 2) (rate + bkg) td tb limit false
    .ok (freqs.map (interp f (rescale rate bkg p)))

/-! ## Correcting spectra -/

/-- An attribute of a spectrum which may be absent, or `None`. -/
inductive Attr (K : Type) where
  | absent
  | isNone
  | arr (l : List K)
  deriving DecidableEq

/-- `if hasattr(obj, attr): setattr(obj, attr, getattr(obj, attr) * correction)`. -/
def Attr.times (c : List K) : Attr K → Except PyErr (Attr K)
  | .absent => .ok .absent
  | .isNone => .error .typeError
  | .arr l => if l.length = c.length then .ok (.arr (List.zipWith (· * ·) l c)) else .error .valueError

/-- A spectrum, or one of the power spectra attached to a cross spectrum. -/
structure Part (K : Type) where
  power : List K
  unnorm : Attr K
  powerErr : Attr K
  unnormErr : Attr K
  deriving DecidableEq

/-- `stingray/crossspectrum.py` 1767-1770: `unnorm_power`, `power_err` and `unnorm_power_err`, not `power`. -/
def Part.times (c : List K) (p : Part K) : Except PyErr (Part K) := do
  let u ← p.unnorm.times c
  let e ← p.powerErr.times c
  let ue ← p.unnormErr.times c
  .ok { p with unnorm := u, powerErr := e, unnormErr := ue }

/-- A spectrum: itself, `pds1` and `pds2` if it is a cross spectrum, `cs_all` and `unnorm_cs_all` if the spectra of the
segments were saved. -/
structure Whole (K : Type) where
  freq : List K
  own : Part K
  pds : List (Part K)
  csAll : Option (List (List K))
  unnormCsAll : Option (List (List K))

/-- `a * b` for two arrays; raises if the sizes differ.  Simplification: arrays of size 1 are not broadcast. -/
def product (a b : List K) : Except PyErr (List K) :=
  if a.length = b.length then .ok (List.zipWith (· * ·) a b) else .error .valueError

/-- `stingray/crossspectrum.py` 1772-1776, for one of the two attributes. -/
def timesAll (c : List K) : Option (List (List K)) → Except PyErr (Option (List (List K)))
  | none => .ok none
  | some l => do
    let r ← l.mapM fun x => product x c
    .ok (some r)

/-- `Crossspectrum.deadtime_correct`, `stingray/crossspectrum.py` 1704-1781, given the values `model` of
`non_paralyzable_dead_time_model` at the frequencies (line 1747); `paralyzable=True` raises `NotImplementedError`, a
`RuntimeError`.  Simplification: real powers, and the model is not 0. -/
def deadtimeCorrect (paralyzable : Bool) (model : Except PyErr (List K)) (s : Whole K) : Except PyErr (Whole K) :=
  if paralyzable then .error .runtimeError
  else do
    let m ← model
    let c := m.map fun x => 2 / x
    let power ← product s.own.power c
    let own ← Part.times c { s.own with power := power }
    let pds ← s.pds.mapM (Part.times c)
    let cs ← timesAll c s.csAll
    let ucs ← timesAll c s.unnormCsAll
    .ok { s with own := own, pds := pds, csAll := cs, unnormCsAll := ucs }

end Stingray.DeadTime

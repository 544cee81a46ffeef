import Verif.Model.Basic
import Verif.Model.Fourier
import Mathlib.Algebra.Order.Field.Basic
import Mathlib.Algebra.BigOperators.Group.List.Basic

/-!
# Cross correlations: `stingray/crosscorrelation.py`

`scipy.signal.correlate` and `correlation_lags` are modelled by their documented behaviour, for real arrays.
-/

namespace Stingray.CrossCorr

open Stingray.Fourier (fftfreq)

variable {K : Type} [Field K] [LinearOrder K]

/-- The `mode` argument, lower-cased; `other` is any unknown string. -/
inductive Mode where
  | full | valid | same | other
  deriving DecidableEq

/-- What `_make_corr` reads of a light curve. -/
structure Lc (K : Type) where
  counts : List K
  countsErr : List K
  dt : K
  deriving DecidableEq

/-- `scipy.signal.correlate(x, y, "full")`: `z[k] = Σ_l x[l] y[l - k + len(y) - 1]`, samples outside of `y` being 0. -/
def correlateFull (x y : List K) : List K :=
  (List.range (x.length + y.length - 1)).map fun k =>
    ((List.range x.length).map fun l =>
      x.getD l 0 * (if k ≤ l + (y.length - 1) then y.getD (l + (y.length - 1) - k) 0 else 0)).sum

/-- the part of length `n`, centred with respect to the whole (SciPy's `_centered`) -/
def centred {α : Type} (n : Nat) (z : List α) : List α := (z.drop ((z.length - n) / 2)).take n

/-- `scipy.signal.correlate(x, y, mode)`. -/
def correlate (mode : Mode) (x y : List K) : List K :=
  match mode with
  | .full => correlateFull x y
  | .same => centred x.length (correlateFull x y)
  | .valid => centred (max x.length y.length - min x.length y.length + 1) (correlateFull x y)
  | .other => []

/-- `numpy.arange(a, b)` for integers -/
def intRange (a b : Int) : List Int := (List.range (b - a).toNat).map fun (i : Nat) => a + i

/-- `scipy.signal.correlation_lags(n1, n2, mode)`. -/
def correlationLags (mode : Mode) (n1 n2 : Nat) : List Int :=
  match mode with
  | .full => intRange (-(n2 : Int) + 1) n1
  | .same =>
    let lags := intRange (-(n2 : Int) + 1) n1
    let mid := lags.length / 2
    let bound := n1 / 2
    if n1 % 2 = 0 then (lags.take (mid + bound)).drop (mid - bound)
    else (lags.take (mid + bound + 1)).drop (mid - bound)
  | .valid => if n2 ≤ n1 then intRange 0 ((n1 : Int) - n2 + 1) else intRange ((n1 : Int) - n2) 1
  | .other => []

/-- `numpy.mean` -/
def mean (l : List K) : K := l.sum / l.length

/-- `numpy.var` -/
def var (l : List K) : K := mean (l.map fun x => (x - mean l) ^ 2)

/-- the attributes a user reads -/
structure Corr (K : Type) where
  corr : List K
  timeLags : List K
  timeShift : K
  n : Nat
  dt : K
  deriving DecidableEq

/-- `cal_timeshift`, `stingray/crosscorrelation.py` 248-271, `n1` and `n2` being the lengths it uses.
`np.argmax` of an empty array raises `ValueError`, an index beyond the lags `IndexError`. -/
def calTimeshift (mode : Mode) (n1 n2 : Nat) (dt : K) (corr : List K) : Except PyErr (Corr K) :=
  let lags := (correlationLags mode n1 n2).map fun (i : Int) => (i : K) * dt
  match argmax? corr with
  | none => .error .valueError
  | some i =>
    match lags[i]? with
    | none => .error .indexError
    | some s => .ok { corr := corr, timeLags := lags, timeShift := s, n := corr.length, dt := dt }

/-- `CrossCorrelation(lc1, lc2, mode=mode, norm=norm)` for two light curves, `stingray/crosscorrelation.py` 81-112, 151-202;
`byVariance` is `norm == "variance"`.  The second component is the first light curve afterwards (line 175 assigns its `dt`). -/
def makeCorr (isclose : K → K → Bool) (sqrt : K → K) (mode : Mode) (byVariance : Bool) (lc1 lc2 : Lc K) :
    Except PyErr (Corr K × Lc K) :=
  if mode = .other then .error .valueError
  else if !isclose lc1.dt lc2.dt then .error .stingrayError
  else do
    let lc1 := { lc1 with dt := lc2.dt }
    let x := lc1.counts.map fun c => c - mean lc1.counts
    let y := lc2.counts.map fun c => c - mean lc2.counts
    let r ← calTimeshift mode lc1.counts.length lc2.counts.length lc1.dt (correlate mode x y)
    if byVariance then
      let v1 := var lc1.counts - mean lc1.countsErr ^ 2
      let v2 := var lc2.counts - mean lc2.countsErr ^ 2
      .ok ({ r with corr := r.corr.map fun c => c / sqrt (v1 * v2) / x.length }, lc1)
    else .ok (r, lc1)

/-- `AutoCorrelation(lc, mode)`, lines 379-381: the correlation with itself. -/
def autoCorr (isclose : K → K → Bool) (sqrt : K → K) (mode : Mode) (lc : Lc K) : Except PyErr (Corr K × Lc K) :=
  makeCorr isclose sqrt mode false lc lc

/-- `CrossCorrelation(cross=cross, mode=mode)`, lines 81-110, 114-149: `power` are the powers of the cross spectrum, `df` its resolution and `n` its
`n` attribute; `absReIfft` gives `abs(ifft(power).real)`.  The times by which the correlation is sorted are also returned (the code forgets them). -/
def makeCrossCorr {C : Type} (absReIfft : List C → List K) (S : KeySort (α := K × K) (K := K) Prod.fst) (mode : Mode)
    (power : List C) (df : K) (n : Nat) : Except PyErr (Corr K × List K) :=
  if mode = .other then .error .valueError
  else do
    let dt := 1 / (df * n)
    let prelim := absReIfft power
    let times := fftfreq prelim.length df
    let s := S.sort (List.zip times prelim)
    let r ← calTimeshift mode s.length s.length dt (s.map Prod.snd)
    .ok (r, s.map Prod.fst)

end Stingray.CrossCorr

import Verif.Model.Basic
import Mathlib.Algebra.Order.Field.Basic
import Mathlib.Algebra.BigOperators.Group.List.Basic

/-!
# Model of `rebin_data_log` (`stingray/utils.py` 634-749)

Exact arithmetic; `y` and `y_err` are real (the code treats the imaginary parts in the same way,
separately).  NaN (the statistic of an empty bin) is `none`.
-/

namespace Stingray.RebinLog

variable {K : Type} [Field K] [LinearOrder K]

/-- The `while` loop, `stingray/utils.py` 700-702: the edges from `last` on.  `none`: still running
after `fuel` iterations. -/
def growEdges (f maxx : K) : Nat → K → K → Option (List K)
  | 0, last, _ => if last ≤ maxx then none else some [last]
  | fuel + 1, last, dx =>
    if last ≤ maxx then
      let next := last + dx * (1 + f)
      (growEdges f maxx fuel next (next - last)).map (last :: ·)
    else some [last]

/-- Bin numbers of `scipy.stats.binned_statistic`: `np.digitize` (0 below the first edge, `n` past the
last one), with a sample on the last edge counted in the last bin. -/
def binNumber (edges : List K) (x : K) : Nat :=
  let b := searchsortedRight edges x
  if edges.getLast? = some x then b - 1 else b

/-- `scipy.stats.binned_statistic(x, v, statistic, bins=edges)`: the statistic of the samples in each
bin, NaN (`none`) for an empty bin (as both statistics used are quotients by the number of samples). -/
def binnedStatistic (stat : List K → K) (edges x v : List K) : List (Option K) :=
  (List.range (edges.length - 1)).map fun i =>
    let sel := ((x.zip v).filter fun p => decide (binNumber edges p.1 = i + 1)).map Prod.snd
    if sel.isEmpty then none else some (stat sel)

/-- `np.mean`. -/
def mean (l : List K) : K := l.sum / (l.length : K)

/-- `_root_squared_mean`, `stingray/utils.py` 466-468. -/
def rootSquaredMean (sqrt : K → K) (l : List K) : K := sqrt ((l.map fun e => e ^ 2).sum) / (l.length : K)

/-- The return value of `rebin_data_log`. -/
structure Out (K : Type) where
  binx : List (Option K)
  biny : List (Option K)
  binyErr : List (Option K)
  nsamples : List Nat
  deriving DecidableEq

/-- `rebin_data_log`, `stingray/utils.py` 634-749.  `medianDiff` stands for the median of the spacings,
used when `dx` is not given.  The result is `none` when the loop over the edges has not ended
after `fuel` iterations. -/
def rebinDataLog (sqrt : K → K) (medianDiff : List K → K) (fuel : Nat) (x y : List K) (f : K)
    (yErr : Option (List K)) (dx : Option K) : Option (Except PyErr (Out K)) :=
  let dxInit := dx.getD (medianDiff x)
  let yErr := yErr.getD (y.map fun _ => 0)
  if x.length ≠ y.length then some (.error .valueError)
  else if y.length ≠ yErr.length then some (.error .valueError)
  else
    match x.head?, x.getLast? with
    | some x0, some maxx =>
      let minx := x0 / 2
      match growEdges f maxx fuel (minx + dxInit) dxInit with
      | none => none
      | some rest =>
        let edges := minx :: rest
        let binno := x.map (binNumber edges)
        some (.ok
          { binx := binnedStatistic mean edges x x
            biny := binnedStatistic mean edges x y
            binyErr := binnedStatistic (rootSquaredMean sqrt) edges x yErr
            nsamples := (List.range (binno.foldl max 0)).map fun i =>
              (binno.filter fun b => decide (b = i + 1)).length })
    | _, _ => some (.error .indexError)

end Stingray.RebinLog

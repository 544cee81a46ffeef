import Verif.Model.Basic
import Verif.Model.Gti
import Mathlib.Algebra.Order.Floor.Ring

/-!
# Model of `rebin_data` (`stingray/utils.py`)

Exact arithmetic in a linearly ordered field; `sqrt` is a parameter.
-/

namespace Stingray.Rebin

variable {K : Type} [Field K] [LinearOrder K] [IsStrictOrderedRing K]

/-- The `dx` argument of `rebin_data`: absent (or 0), a number, or an array. -/
inductive Dx (K : Type) where
  | absent
  | scalar (d : K)
  | array (d : List K)

/-- `np.diff`. -/
def diff (x : List K) : List K := List.zipWith (fun a b => b - a) x x.tail

/-- `dx_old`, `stingray/utils.py` 553-558. -/
def dxOld (x : List K) : Dx K → List K
  | .absent => diff x
  | .scalar d => if d = 0 then diff x else [d]
  | .array d => d

/-- `a[i]` for `i` possibly `-1` (Python wraps around): used at lines 589-592 with
`min_ind - 1`. -/
def prevAt (a : List K) (i : Nat) : K := if i = 0 then a.getD (a.length - 1) 0 else a.getD (i - 1) 0

/-- Sum of `a[i:j]`. -/
def sliceSum (a : List K) (i j : Nat) : K := ((a.take j).drop i).sum

/-- One iteration of the loop of `rebin_data` for one array `a` (`y` or `yerr`, or ones for
`step_size`), `stingray/utils.py` 582-600.  `getD` stands for indexing: under the theorem's
hypotheses all indices are in range.  `step_size` (587, 593, 600) is the same expression with `a = 1`. -/
def loopBody (edges a : List K) (xmin xmax : K) (minInd maxInd : Nat) : K :=
  let filtered := sliceSum a minInd (maxInd - 1)
  let prevDx := edges.getD minInd 0 - prevAt edges minInd
  let prevFrac := (edges.getD minInd 0 - xmin) / prevDx
  let out := filtered + prevAt a minInd * prevFrac
  if maxInd = edges.length then out
  else
    let dxPost := edges.getD maxInd 0 - edges.getD (maxInd - 1) 0
    let postFrac := (xmax - edges.getD (maxInd - 1) 0) / dxPost
    out + a.getD (maxInd - 1) 0 * postFrac

/-- The loop of `rebin_data`, `stingray/utils.py` 577-600. -/
def loop (edges a xbin : List K) : List K :=
  (List.zip xbin xbin.tail).map fun p =>
    loopBody edges a p.1 p.2 (searchsortedLeft edges p.1) (searchsortedLeft edges p.2)

/-- The `method` argument. -/
inductive Method where
  | mean | sum | other
  deriving DecidableEq

/-- Result of `rebin_data`: `xbin`, `ybin`, `ybinerr`, `step_size` (as an array). -/
structure Out (K : Type) where
  xbin : List K
  ybin : List K
  ybinerr : List K
  stepSize : List K
  deriving DecidableEq

/-- `rebin_data`, `stingray/utils.py` 489-631, for `y` (and `yerr`) of the same length as `x`.
`step_size` is kept as an array (lines 623-626 replace it by its first element for even sampling).
`tseg / dx_new % 1 > 0` (line 618) is "not a whole number". -/
def rebinData [FloorRing K] (sqrt : K → K) (x y : List K) (dxNew : K) (yerr : Option (List K))
    (method : Method) (dx : Dx K) : Except PyErr (Out K) :=
  let yerr := yerr.getD (y.map fun _ => 0)
  let old := dxOld x dx
  if old.any (fun d => decide (dxNew < d)) then .error .valueError
  else
    match x.head?, x.getLast?, old.head?, old.getLast? with
    | some x0, some xl, some d0, some dl =>
      let edges := x ++ [xl + dl]
      let xbin := Gti.arange x0 (xl + dl + dxNew) dxNew
      let output := loop edges y xbin
      let outerr := loop edges yerr xbin
      let step := loop edges (x.map fun _ => 1) xbin
      if method = .other then .error .valueError
      else
        let ybin := if method = .mean then List.zipWith (· / ·) output step else output
        let ybinerr := if method = .mean then List.zipWith (fun e s => sqrt e / s) outerr step
          else outerr.map sqrt
        let tseg := xl - x0 + dl
        let cut := decide (0 < Int.fract (tseg / dxNew))
        let ybin := if cut then ybin.dropLast else ybin
        let ybinerr := if cut then ybinerr.dropLast else ybinerr
        let step := if cut then step.dropLast else step
        let newX0 := x0 - d0 / 2 + dxNew / 2
        .ok ⟨(List.range ybin.length).map (fun i : Nat => (i : K) * dxNew + newX0), ybin, ybinerr, step⟩
    | _, _, _, _ => .error .indexError

end Stingray.Rebin

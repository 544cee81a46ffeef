import Verif.Model.Basic
import Mathlib.Algebra.Order.Floor.Ring
import Mathlib.Algebra.BigOperators.Group.List.Basic

/-!
# Bayesian excess variance: `stingray/bexvar.py`

`ginv` stands for `scipy.special.gammaincinv`, `pmf counts mean` for `scipy.stats.poisson.pmf`, `log10` and `pow10` for the logarithm and power of ten. Arithmetic is exact; divisions by zero (exposures of zero, background ratios of zero) are not
modelled, except in the normalisation of the weights, where NaN is `none`. The sampling (`_calculate_bexvar`, lines 183-190) is not modelled, only what it is given and the functions `transform` and `loglike`.
-/

namespace Stingray.Bexvar

variable {K : Type} [Field K] [LinearOrder K]

/-- `np.linspace(a, b, n)`. -/
def linspace (a b : K) (n : Int) : Except PyErr (List K) :=
  if n < 0 then .error .valueError
  else if n = 1 then .ok [a]
  else .ok ((List.range n.toNat).map fun (i : Nat) => a + (i : K) * ((b - a) / ((n : K) - 1)))

/-- What is known about a time bin: source counts, background counts, `bg_area`, `rate_conversion`. -/
structure Bin (K : Type) where
  src : K
  bkg : K
  area : K
  conv : K
  deriving DecidableEq

/-- `min` of an array: `ValueError` for an empty one. -/
def minimum : List K → Except PyErr K
  | [] => .error .valueError
  | x :: l => .ok (l.foldl min x)

/-- `c.max()`. -/
def maximum : List K → Except PyErr K
  | [] => .error .valueError
  | x :: l => .ok (l.foldl max x)

/-- Lowest count rate minus highest background rate, `stingray/bexvar.py` 64-68. -/
def lowest (ginv : K → K → K) (b : Bin K) : K :=
  ginv (b.src + 1) (1 / 1000) / b.conv - ginv (b.bkg + 1) (999 / 1000) / (b.conv * b.area)

/-- Highest count rate, `stingray/bexvar.py` 74. -/
def highest (ginv : K → K → K) (b : Bin K) : K := ginv (b.src + 1) (999 / 1000) / b.conv

/-- `m0`, `stingray/bexvar.py` 69-72. -/
def lowExponent (log10 : K → K) (mindiff : K) : K := if 0 < mindiff then log10 mindiff else -1

/-- The grid between the padded ends, `stingray/bexvar.py` 78-84. -/
def gridBetween [FloorRing K] (density m0 m1 : K) : Except PyErr (List K) :=
  let lo := m0 - 5 / 100 * (m1 - m0)
  let hi := m1 + 5 / 100 * (m1 - m0)
  if lo < -1 then linspace (-1) hi ⌈density * (hi + 1)⌉
  else linspace lo hi ⌈density * (105 / 100) * (hi - lo)⌉

/-- `_lscg_gen`, `stingray/bexvar.py` 30-86. -/
def gridOf [FloorRing K] (ginv : K → K → K) (log10 : K → K) (density : K) (bins : List (Bin K)) : Except PyErr (List K) := do
  let mindiff ← minimum (bins.map (lowest ginv))
  let c ← maximum (bins.map (highest ginv))
  gridBetween density (lowExponent log10 mindiff) (log10 c)

/-- `bkg_cr`, `stingray/bexvar.py` 115-117, with `N` (1000 in the code) as a parameter. -/
def backgrounds (ginv : K → K → K) (N : Nat) (b : Bin K) : List K :=
  (List.range (N - 2)).map fun (i : Nat) => ginv (b.bkg + 1) (((i : K) + 1) / ((N : K) - 1)) / b.area

/-- `prob`, `stingray/bexvar.py` 119-122. -/
def prob (ginv pmf : K → K → K) (pow10 : K → K) (N : Nat) (b : Bin K) (logCr : K) : K :=
  let bk := backgrounds ginv N b
  (bk.map fun r => pmf b.src (pow10 logCr * b.conv + r)).sum / (bk.length : K)

/-- `_estimate_source_cr_marginalised`, `stingray/bexvar.py` 89-138. -/
def weights (ginv pmf : K → K → K) (pow10 : K → K) (N : Nat) (grid : List K) (b : Bin K) : Except PyErr (List (Option K)) :=
  let w := grid.map (prob ginv pmf pow10 N b)
  if w.sum ≤ 0 ∧ grid = [] then .error .indexError
  else .ok (w.map fun x => if w.sum = 0 then none else some (x / w.sum))

/-- `a[mask]`, with an `IndexError` for a mask of another length. -/
def select (mask : List Bool) (l : List K) : Except PyErr (List K) :=
  if mask.length ≠ l.length then .error .indexError
  else .ok (((mask.zip l).filter Prod.fst).map Prod.snd)

/-- The arguments of `bexvar`. -/
structure Args (K : Type) where
  time : List K
  timeDel : List K
  src : List K
  bg : Option (List K)
  ratio : Option (List K)
  frac : Option (List K)

/-- `bexvar`, `stingray/bexvar.py` 241-270: the grid and the densities given to the sampler. -/
def bexvar [FloorRing K] (ginv pmf : K → K → K) (log10 pow10 : K → K) (N : Nat) (a : Args K) : Except PyErr (List K × List (List (Option K))) := do
  let bg := a.bg.getD (a.src.map fun _ => 0)
  let ratio := a.ratio.getD (a.src.map fun _ => 1)
  let frac := a.frac.getD (a.src.map fun _ => 1)
  let mask := frac.map fun f => decide (1 / 10 < f)
  let time ← select mask a.time
  let timeDel ← select mask a.timeDel
  let src ← select mask a.src
  let bg ← select mask bg
  let ratio ← select mask ratio
  let frac ← select mask frac
  let area := ratio.map fun r => 1 / r
  let conv := List.zipWith (· * ·) frac timeDel
  let bins := ((src.zip bg).zip (area.zip conv)).map fun p => (⟨p.1.1, p.1.2, p.2.1, p.2.2⟩ : Bin K)
  let grid ← gridOf ginv log10 100 bins
  let pdfs ← ((time.zip bins).map Prod.snd).mapM (weights ginv pmf pow10 N grid)
  return (grid, pdfs)

/-- `transform`, `stingray/bexvar.py` 165-169. -/
def transform (pow10 : K → K) (grid : List K) (c0 c1 : K) : Except PyErr (K × K) :=
  match grid.head?, grid.getLast? with
  | some a, some b => .ok (c0 * (b - a) + a, pow10 (c1 * 4 - 2))
  | _, _ => .error .indexError

end Stingray.Bexvar

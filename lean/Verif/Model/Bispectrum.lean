import Verif.Model.Basic
import Mathlib.Algebra.Field.Basic
import Mathlib.Algebra.BigOperators.Group.List.Basic

/-!
# Third-order cumulants and the bispectrum: `stingray/bispectrum.py`
-/

namespace Stingray.Bispectrum

open Stingray

variable {K : Type} [Field K]

/-- Indexing of an array with a Python index: negative ones count from the end. -/
def pyIdx (x : List K) (i : Int) : Option K :=
  if 0 ≤ i then x[i.toNat]? else if 0 ≤ i + (x.length : Int) then x[(i + (x.length : Int)).toNat]? else none

/-- Element `(i, j)` of `toeplitz(col, row)`. -/
def toeplitz (col row : Nat → K) (i j : Nat) : K := if j ≤ i then col (i - j) else row (j - i)

/-- `_cumulant3`, `stingray/bispectrum.py` 237-261: `x` is the signal (its mean subtracted), not empty. The two factors of `np.multiply` have as many columns as `row` and as the signal. -/
def cumulant3 (x : List K) (L : Nat) : Except PyErr (List (List K)) :=
  match ((List.range (L + 1)).mapM fun (i : Nat) => pyIdx x ((x.length : Int) - (L : Int) - 1 + (i : Int))) with
  | none => .error .indexError
  | some head =>
    let col := head ++ List.replicate L 0
    let row := x.reverse.drop L ++ List.replicate L 0
    if row.length ≠ x.length then .error .valueError
    else
      let T := toeplitz (fun i => col.getD i 0) (fun i => row.getD i 0)
      .ok ((List.range (2 * L + 1)).map fun i => (List.range (2 * L + 1)).map fun k =>
        ((List.range x.length).map fun j => T i j * x.reverse.getD j 0 * T k j).sum)

/-- The upper triangle, made symmetric, `stingray/bispectrum.py` 280-286; `n` is the number of samples. -/
def scale0 (n : Int) (L k m : Nat) : Int :=
  if k ≤ m then n - ((L : Int) + 1 - ((k : Int) + 1)) else n - ((L : Int) + 1 - ((m : Int) + 1))

/-- The matrix with `2 L + 1` columns, `stingray/bispectrum.py` 288-302. -/
def scale1 (n : Int) (L a m : Nat) : Int :=
  if m ≤ L then scale0 n L a m
  else
    let b := m - (L + 1)
    if a < L then (if b ≤ a then n - ((L : Int) + 1) + ((a - b : Nat) : Int) else n - ((L : Int) + 1) - ((b - a : Nat) : Int))
    else scale0 n L L (L - 1 - b)

/-- The whole matrix, `stingray/bispectrum.py` 303-309. -/
def scaleMatrix (n : Int) (L i m : Nat) : Int :=
  let v := if i ≤ L then scale1 n L i m else scale1 n L (L - 1 - (i - (L + 1))) (2 * L - m)
  if v < 1 then 1 else v

/-- The values of `scale`. -/
inductive Scale where
  | biased | unbiased

/-- `_normalize_cumulant3`, `stingray/bispectrum.py` 272-310. -/
def normalize (scale : Scale) (n L : Nat) (cum : List (List K)) : List (List K) :=
  match scale with
  | .biased => cum.map fun r => r.map fun c => c / (n : K)
  | .unbiased => cum.mapIdx fun i r => r.mapIdx fun m c => c / ((scaleMatrix (n : Int) L i m : Int) : K)

/-- The largest lag, `stingray/bispectrum.py` 155-166. -/
def maxlagOf (maxlag : Option Int) (n : Nat) : Nat :=
  match maxlag with
  | none => n / 2
  | some m => if m < 0 then (-m).toNat else m.toNat

/-- The `cum3` of `Bispectrum(lc, maxlag, scale)`, `stingray/bispectrum.py` 155-197: the mean of the counts is subtracted. -/
def cum3 (counts : List K) (maxlag : Option Int) (scale : Scale) : Except PyErr (List (List K)) :=
  let L := maxlagOf maxlag counts.length
  let m := counts.sum / (counts.length : K)
  (cumulant3 (counts.map fun c => c - m) L).map (normalize scale counts.length L)

/-- The lags, `stingray/bispectrum.py` 241-242. -/
def lags (L : Nat) (dt : K) : List K := (List.range (2 * L + 1)).map fun (i : Nat) => ((i : K) - (L : K)) * dt

/-- The frequencies, `stingray/bispectrum.py` 323. -/
def freqs (L : Nat) (dt : K) : List K := (lags L dt).map fun l => 1 / 2 * (1 / dt) * (l / dt) / (L : K)

/-- `_get_window`, `stingray/bispectrum.py` 204-225, at row `i` and column `j`; `w` is the window of `2 L + 1` samples. -/
def window2d (w : Nat → K) (L i j : Nat) : K :=
  let pad : Nat → K := fun k => if k < L then w (L + k) else 0
  let row : Nat → K := fun k => if k = 0 then pad 0 else 0
  let lower := toeplitz pad row
  let sym : Nat → Nat → K := fun a b => lower a b + (if a < b then lower b a else 0)
  sym i (2 * L - j) * w j * w i

end Stingray.Bispectrum

import Verif.Model.Basic
import Mathlib.Algebra.Order.Floor.Ring

/-!
# Model of the compiled histograms (`stingray/utils.py` 1538-2019)

Exact arithmetic.  The histogram array is a list (of lists, ...); `H[i] += w` is `List.modify`.
`M` is the type of the entries; `store` is what writing a value into the array does to it
(the identity for a float array; truncation when the array has an integer dtype).
-/

namespace Stingray.Hist

variable {K : Type} [Field K] [LinearOrder K] [IsStrictOrderedRing K] [FloorRing K]
variable {M : Type} [AddCommMonoid M]

/-- `(track - ranges[0]) * delta` with `delta = 1 / ((ranges[1] - ranges[0]) / bins)`,
`stingray/utils.py` 1584-1587 (and 1680-1684, 1744-1749). -/
def coord (r : K × K) (bins : Nat) (x : K) : K := (x - r.1) * (1 / ((r.2 - r.1) / (bins : K)))

/-- `int(i)`: truncation towards zero. -/
def pyInt (i : K) : Int := if 0 ≤ i then ⌊i⌋ else ⌈i⌉

/-- One step of `_hist1d_numba_seq_weight`, `stingray/utils.py` 1812-1814; the unweighted
`_hist1d_numba_seq` (1587-1589) is the case `w = 1`.  `int(i)` with `0 <= i` is the floor. -/
def step1 (store : M → M) (r : K × K) (bins : Nat) (H : List M) (t : K × M) : List M :=
  let i := coord r bins t.1
  if 0 ≤ i ∧ i < bins then H.modify ⌊i⌋₊ (fun v => store (v + t.2)) else H

/-- `hist1d_numba_seq_weight`, `stingray/utils.py` 1819-1877 with 1808-1816.  The histogram is
allocated with the dtype of the *samples* (line 1875), hence `store`. -/
def hist1dWeight (store : M → M) (tracks : List (K × M)) (bins : Nat) (r : K × K) : List M :=
  tracks.foldl (step1 store r bins) (List.replicate bins 0)

/-- `hist1d_numba_seq`, `stingray/utils.py` 1625-1675 with 1583-1591. -/
def hist1d (tracks : List K) (bins : Nat) (r : K × K) : List Nat :=
  hist1dWeight id (tracks.map fun x => (x, 1)) bins r

/-- One step of `_hist2d_numba_seq_weight`, `stingray/utils.py` 1885-1888 (1683-1686 with weight 1). -/
def step2 (r s : K × K) (b c : Nat) (H : List (List M)) (t : (K × K) × M) : List (List M) :=
  let i := coord r b t.1.1
  let j := coord s c t.1.2
  if (0 ≤ i ∧ i < b) ∧ (0 ≤ j ∧ j < c) then H.modify ⌊i⌋₊ (fun row => row.modify ⌊j⌋₊ (· + t.2)) else H

/-- `hist2d_numba_seq_weight`, `stingray/utils.py` 1893-1948 with 1881-1890. -/
def hist2dWeight (tracks : List ((K × K) × M)) (b c : Nat) (r s : K × K) : List (List M) :=
  tracks.foldl (step2 r s b c) (List.replicate b (List.replicate c 0))

/-- `hist2d_numba_seq`, `stingray/utils.py` 1691-1739 with 1679-1688. -/
def hist2d (tracks : List (K × K)) (b c : Nat) (r s : K × K) : List (List Nat) :=
  hist2dWeight (tracks.map fun x => (x, 1)) b c r s

/-- Position addressed by a Python index into an axis of length `n`: negative indices count from
the end, others must be in range (compiled code does not even check). -/
def pyIndex (n : Nat) (k : Int) : Option Nat :=
  if 0 ≤ k ∧ k < n then some k.toNat else if -(n : Int) ≤ k ∧ k < 0 then some (k + n).toNat else none

/-- One step of `_hist3d_numba_seq_weight`, `stingray/utils.py` 1956-1960 (1747-1751 with weight 1).
The third coordinate is not range checked; out of range it is an `IndexError` in Python (undefined
behaviour when compiled). -/
def step3 (r s u : K × K) (b c d : Nat) (H : List (List (List M))) (t : (K × K × K) × M) :
    Except PyErr (List (List (List M))) :=
  let i := coord r b t.1.1
  let j := coord s c t.1.2.1
  let k := coord u d t.1.2.2
  if (0 ≤ i ∧ i < b) ∧ (0 ≤ j ∧ j < c) then
    match pyIndex d (pyInt k) with
    | some kk => .ok (H.modify ⌊i⌋₊ (fun pl => pl.modify ⌊j⌋₊ (fun row => row.modify kk (· + t.2))))
    | none => .error .indexError
  else .ok H

/-- `hist3d_numba_seq_weight`, `stingray/utils.py` 1965-2019 with 1952-1962. -/
def hist3dWeight (tracks : List ((K × K × K) × M)) (b c d : Nat) (r s u : K × K) :
    Except PyErr (List (List (List M))) :=
  tracks.foldlM (step3 r s u b c d) (List.replicate b (List.replicate c (List.replicate d 0)))

/-- `hist3d_numba_seq`, `stingray/utils.py` 1756-1804 with 1743-1753. -/
def hist3d (tracks : List (K × K × K)) (b c d : Nat) (r s u : K × K) :
    Except PyErr (List (List (List Nat))) :=
  hist3dWeight (tracks.map fun x => (x, 1)) b c d r s u

/-- `compute_bin`, `stingray/utils.py` 1539-1579: bin of `x` for uniform edges
(`None` when outside). -/
def computeBin (x : K) (edges : List K) : Option Int :=
  let n := edges.length - 1
  let aMin := edges.headD 0
  let aMax := edges.getLastD 0
  if x = aMax then some (n - 1)
  else
    let bin := pyInt ((n : K) * (x - aMin) / (aMax - aMin))
    if bin < 0 ∨ bin ≥ n then none else some bin

end Stingray.Hist

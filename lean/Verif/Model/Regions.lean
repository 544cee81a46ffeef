import Verif.Model.Basic
import Mathlib.Algebra.Order.Field.Basic

/-!
# Model of `contiguous_regions` (`stingray/utils.py`) and `create_gti_from_condition`
(`stingray/gti.py`)
-/

namespace Stingray.Gti

/-- `np.logical_xor(condition[1:], condition[:-1])`, `stingray/utils.py` 927. -/
def xorDiff (c : List Bool) : List Bool := List.zipWith xor c.tail c.dropLast

/-- `(idx,) = diff.nonzero()`, `stingray/utils.py` 928. -/
def nonzeroIdx (d : List Bool) : List Nat := (d.zipIdx.filter (fun p => p.1)).map Prod.snd

/-- `idx.shape = (-1, 2)`, `stingray/utils.py` 938 (fails on an odd number of elements). -/
def reshapePairs : List Nat → Option (List (Nat × Nat))
  | [] => some []
  | [_] => none
  | a :: b :: l => (reshapePairs l).map ((a, b) :: ·)

/-- `contiguous_regions`, `stingray/utils.py` 907-941. -/
def contiguousRegions (condition : List Bool) : Except PyErr (List (Nat × Nat)) :=
  match condition.head?, condition.getLast? with
  | some first, some last =>
    let idx := (nonzeroIdx (xorDiff condition)).map (· + 1)
    let idx := if first then 0 :: idx else idx
    let idx := if last then idx ++ [condition.length] else idx
    match reshapePairs idx with
    | some l => .ok l
    | none => .error .valueError
  | _, _ => .error .indexError

variable {K : Type} [Field K] [LinearOrder K]

/-- One iteration of the loop of `create_gti_from_condition`, `stingray/gti.py` 630-639. -/
def gtiOfRegion (time dt : List K) (safe : K × K) (r : Nat × Nat) : Option (K × K) :=
  match time[r.1]?, dt[r.1]?, time[r.2 - 1]?, dt[r.2 - 1]? with
  | some ta, some da, some tb, some db =>
    let t0 := ta - da + safe.1
    let t1 := tb + db - safe.2
    if t1 - t0 < 0 then none else some (t0, t1)
  | _, _, _, _ => none          -- unreachable: regions index the arrays

/-- `create_gti_from_condition`, `stingray/gti.py` 595-641.  `dt` is the optional array of half
widths (of the same length as `time`; other lengths are not modelled).  The default is computed in
all cases (line 628 evaluates `time[1]` before looking at `dt`). -/
def createGtiFromCondition (time : List K) (condition : List Bool) (safe : K × K)
    (dt : Option (List K)) : Except PyErr (List (K × K)) :=
  if time.length ≠ condition.length then .error .stingrayError
  else do
    let idxs ← contiguousRegions condition
    match time[0]?, time[1]? with
    | some a, some b =>
      let dt := dt.getD (time.map fun _ => (b - a) / 2)
      return idxs.filterMap (gtiOfRegion time dt safe)
    | _, _ => .error .indexError

end Stingray.Gti

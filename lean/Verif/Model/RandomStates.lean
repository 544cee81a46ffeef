import Verif.Model.Basic
import Mathlib.Algebra.Order.Floor.Ring
import Mathlib.Algebra.Order.Field.Basic

/-!
# Random states and Poisson errors: `stingray/utils.py` 949-972, 1336-1380
-/

namespace Stingray.RandomStates

open Stingray

/-- An argument of `get_random_state`: nothing, an integer, a `RandomState` (with a name) or something else, true or false in the sense of Python. -/
inductive Arg
  | nothing
  | int (n : Int)
  | state (name : Nat)
  | other (truthy : Bool)
deriving DecidableEq

/-- A generator: the global one of numpy, a new one with a seed, or a given one. -/
inductive Generator
  | global
  | seeded (n : Int)
  | given (name : Nat)
deriving DecidableEq

/-- `not random_state`. -/
def isFalse : Arg → Bool
  | .nothing => true
  | .int n => n = 0
  | .state _ => false
  | .other t => !t

/-- `get_random_state`, `stingray/utils.py` 949-972; `RandomState` takes the seeds from 0 to `2 ^ 32 - 1`. -/
def getRandomState (a : Arg) : Except PyErr Generator :=
  if isFalse a then .ok .global
  else match a with
    | .int n => if 0 ≤ n ∧ n < 2 ^ 32 then .ok (.seeded n) else .error .valueError
    | .state s => .ok (.given s)
    | _ => .error .valueError

variable {K : Type} [Field K] [LinearOrder K] [IsStrictOrderedRing K] [FloorRing K]

/-- The conversion of a number to an integer, `np.asanyarray(counts, dtype=np.int64)`: towards zero. -/
def toInt (x : K) : Int := if 0 ≤ x then ⌊x⌋ else ⌈x⌉

/-- `np.bincount`: negative values raise. -/
def bincount (l : List Int) : Except PyErr (List Nat) :=
  if l.any (· < 0) then .error .valueError
  else .ok ((List.range ((l.map fun c => c.toNat + 1).foldl max 0)).map fun (k : Nat) => l.count (k : Int))

/-- `np.nonzero(a)[0]`. -/
def nonzero (a : List Nat) : List Nat := (List.range a.length).filter fun k => a.getD k 0 ≠ 0

/-- `np.searchsorted(a, x)`. -/
def searchsorted (a : List Nat) (x : Nat) : Nat := a.countP (· < x)

/-- An element of an array: an index beyond its end raises. -/
def pick (err : List K) (i : Nat) : Except PyErr K :=
  match err[i]? with
  | none => .error .indexError
  | some e => .ok e

/-- `poisson_symmetrical_errors`, `stingray/utils.py` 1369-1380: `conf n` are the ends of the confidence interval for `n` counts. -/
def poissonErrors (conf : Nat → K × K) (counts : List K) : Except PyErr (List K) :=
  match bincount (counts.map toInt) with
  | .error e => .error e
  | .ok b =>
    let values := nonzero b
    let err := values.map fun (n : Nat) => (|(conf n).1 - n| + |(conf n).2 - n|) / 2
    (counts.map toInt).mapM fun c => pick err (searchsorted values c.toNat)

end Stingray.RandomStates

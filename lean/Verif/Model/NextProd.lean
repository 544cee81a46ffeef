import Verif.Model.Basic

/-!
# Lengths for the fast Fourier transform: `nextpow` and `nextprod` of `stingray/pulse/overlapandsave/ols.py`
-/

namespace Stingray.Ols

open Stingray

/-- `nextpow(a, x)`, `stingray/pulse/overlapandsave/ols.py` 74-81. `lg a x` stands for `np.ceil(math.log(x, a))`, with its rounding errors; the powers are those of integers, not rounded as floats. -/
def nextpow (lg : Nat → Nat → Nat) (x a : Nat) : Except PyErr Nat :=
  if 0 < x ∧ 1 < a then
    if x ≤ 1 then .ok 1
    else
      let n := lg a x
      let p := a ^ (n - 1)
      .ok (if p ≥ x then p else a ^ n)
  else .error .assertionError

/-- The loop that carries, `stingray/pulse/overlapandsave/ols.py` 107-113. `i` is `icarry - 1`. `none` stands for more turns than `fuel`. -/
def carry (a mx : List Nat) : Nat → List Nat → Nat → Nat → Except PyErr (Option (List Nat × Nat × Nat))
  | 0, _, _, _ => .ok none
  | fuel + 1, v, p, i =>
    match v[i]?, v[i + 1]?, a[i + 1]?, mx[i + 1]? with
    | some vi, some vj, some aj, some mj =>
      let p := p / vi * aj
      let v := (v.set i 1).set (i + 1) (vj * aj)
      if vj * aj > mj ∧ i + 2 < a.length then carry a mx fuel v p (i + 1) else .ok (some (v, p, i + 1))
    | _, _, _, _ => .error .indexError

/-- The loop that raises the first counter, `stingray/pulse/overlapandsave/ols.py` 117-119. -/
def raise (a0 x : Nat) : Nat → Nat → Nat → Option (Nat × Nat)
  | 0, _, _ => none
  | fuel + 1, v0, p => if p < x then raise a0 x fuel (v0 * a0) (p * a0) else some (v0, p)

/-- The outer loop and the result, `stingray/pulse/overlapandsave/ols.py` 103-120; `turns` bounds the turns of the inner loops. -/
def prodLoop (a mx : List Nat) (x turns : Nat) : Nat → List Nat → Nat → Nat → Nat → Except PyErr (Option Nat)
  | 0, _, _, _, _ => .ok none
  | fuel + 1, v, p, best, i =>
    match v.getLast?, mx.getLast?, v.head?, a.head? with
    | some vl, some ml, some v0, some a0 =>
      if vl < ml then
        if p ≥ x then
          match carry a mx turns v p i with
          | .error e => .error e
          | .ok none => .ok none
          | .ok (some (v', p', i')) => prodLoop a mx x turns fuel v' p' (if p < best then p else best) (if p' < x then 0 else i')
        else
          match raise a0 x turns v0 p with
          | none => .ok none
          | some (v0', p') => prodLoop a mx x turns fuel (v.set 0 v0') p' best i
      else .ok (some (if ml < best then ml else best))
    | _, _, _, _ => .error .indexError

/-- `nextprod(a, x)`, `stingray/pulse/overlapandsave/ols.py` 95-120. `.ok none` stands for more turns of a loop than `fuel`. -/
def nextprod (lg : Nat → Nat → Nat) (fuel : Nat) (a : List Nat) (x : Nat) : Except PyErr (Option Nat) :=
  match a.mapM (nextpow lg x) with
  | .error e => .error e
  | .ok mx =>
    match mx.head? with
    | none => .error .indexError
    | some m0 => prodLoop a mx x fuel fuel ((List.replicate a.length 1).set 0 m0) m0 m0 0

end Stingray.Ols

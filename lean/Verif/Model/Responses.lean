import Verif.Model.Simulator
import Mathlib.Analysis.SpecialFunctions.Exp
import Mathlib.Data.Real.Archimedean

/-!
# The relativistic impulse response: `stingray/simulator/transfer.py` 261-321 and `stingray/simulator/simulator.py` 285-338

Over the reals, for finite arguments. The two functions are the same.
-/

namespace Stingray.Responses

open Stingray

noncomputable section

/-- `np.linspace(a, b, n)`. -/
def linspace (a b : ℝ) (n : Nat) : List ℝ := (List.range n).map fun (k : Nat) => if n = 1 then a else a + k * ((b - a) / (n - 1))

/-- `np.max` of a list that is not empty. -/
def listMax : List ℝ → ℝ
  | [] => 0
  | x :: l => l.foldl max x

/-- The rise, `stingray/simulator/transfer.py` 306-311. -/
def rising (dt t1 t2 p1 p2 rise : ℝ) (n : Nat) : List ℝ :=
  let h := (linspace (t1 / dt) (t2 / dt) n).map fun x => Real.exp (rise * x)
  h.map fun v => v / (listMax h / (p2 - p1)) + p1

/-- The decay, lines 314-315. -/
def decaying (dt t2 t3 decay : ℝ) (n : Nat) : List ℝ :=
  (linspace (t2 / dt) (t3 / dt) n).map fun x => Real.exp (-decay * (x - 4 / dt))

/-- `relativistic_ir`, lines 298-321: the assertions, negative sizes and the maximum of an empty array raise. -/
def relativisticIr (dt t1 t2 t3 p1 p2 rise decay : ℝ) : Except PyErr (List ℝ) :=
  open Classical in
  if ¬ t1 < t2 ∨ ¬ t2 < t3 ∨ ¬ p1 < p2 then .error .assertionError
  else if dt = 0 then .error .zeroDivisionError
  else if Simulator.pyInt (t1 / dt) < 0 ∨ Simulator.pyInt ((t2 - t1) / dt) ≤ 0 ∨ Simulator.pyInt ((t3 - t2) / dt) < 0 then .error .valueError
  else .ok ((List.replicate (Simulator.pyInt (t1 / dt)).toNat 0 ++ [p1]) ++
    rising dt t1 t2 p1 p2 rise (Simulator.pyInt ((t2 - t1) / dt)).toNat ++ decaying dt t2 t3 decay (Simulator.pyInt ((t3 - t2) / dt)).toNat)

end

end Stingray.Responses

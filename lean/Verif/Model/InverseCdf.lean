import Verif.Model.Gti
import Mathlib.Data.List.Sort

/-!
Model of the simulation of events from a binned distribution, `stingray/simulator/base.py` 63-252 and `stingray/events.py` 419-494.

The random numbers are arguments: `us` is the list of uniform numbers in `[0, 1)` that is drawn (its length is the number of events).
Only linear interpolation is modelled. The values of a distribution that is zero everywhere (a division by zero) are not modelled.
-/

namespace Stingray.InverseCdf

open Stingray Stingray.Gti

variable {K : Type} [Field K] [LinearOrder K]

/-- `np.linspace(a, b, n + 1)`. -/
def grid (a b : K) (n : Nat) : List K := (List.range (n + 1)).map fun (i : Nat) => a + (b - a) * i / n

/-- `np.cumsum`, with a start. -/
def cumsum (acc : K) : List K → List K
  | [] => []
  | x :: xs => (acc + x) :: cumsum (acc + x) xs

/-- The cumulative distribution, `stingray/simulator/base.py` 242-244. -/
def cdf (pdf : List K) : List K :=
  let c := cumsum 0 (0 :: pdf)
  c.map fun x => x / c.getLastD 0

/-- Linear interpolation (`scipy.interpolate.interp1d`, which calls `np.interp`) in nodes `xs` in ascending order, `stingray/simulator/base.py` 246: between the last node not above `u` and the next one. -/
def interp : List K → List K → K → K
  | x0 :: x1 :: xs, y0 :: y1 :: ys, u => if u < x1 then (y1 - y0) / (x1 - x0) * (u - x0) + y0 else interp (x1 :: xs) (y1 :: ys) u
  | _, y0 :: _, _ => y0
  | _, [], _ => 0

/-- `np.sort`. -/
def npSort (l : List K) : List K := l.insertionSort (· ≤ ·)

/-- `simulate_with_inverse_cdf`, `stingray/simulator/base.py` 223-252. -/
def simulate (pdf : List K) (us : List K) (xRange : Option (K × K)) (sorted : Bool) (edges : Option (List K)) : Except PyErr (List K) :=
  let r := xRange.getD (0, 1)
  let e := edges.getD (grid r.1 r.2 pdf.length)
  if pdf.any fun p => decide (p < 0) then .error .valueError
  else if pdf.length = 1 then
    let vals := us.map fun u => r.1 + (r.2 - r.1) * u
    .ok (if sorted then npSort vals else vals)
  else if e.length ≠ pdf.length + 1 then .error .valueError
  else .ok ((if sorted then npSort us else us).map (interp (cdf pdf) e))

/-- `simulate_times_from_count_array` for one GTI, `stingray/simulator/base.py` 134-141. -/
def simulateOne (counts : List K) (g : K × K) (us : List K) : Except PyErr (List K) := simulate counts us (some g) true none

/-- The call for the GTI `g` with the bins `b`, `stingray/simulator/base.py` 127-131. -/
def simulateGti (counts : List K) (p : (K × K) × (Nat × Nat) × List K) : Except PyErr (List K) :=
  let c := (counts.drop p.2.1.1).take (p.2.1.2 - p.2.1.1)
  if c.any fun x => decide (x < 0) then .error .valueError else simulateOne c p.1 p.2.2

/-- `simulate_times_from_count_array`, `stingray/simulator/base.py` 114-141; `draws` has the uniform numbers drawn for each GTI. -/
def simulateTimes (time counts : List K) (gti : List (K × K)) (dt : K) (draws : List (List K)) : Except PyErr (List K) :=
  if counts.any fun x => decide (x < 0) then .error .valueError
  else match gti with
    | [] => .error .indexError
    | [g] => simulateOne counts g (draws.headD [])
    | gti => do
      let bins ← gtiBorderBins gti time dt (1 / 1000)
      let evs ← (gti.zip (bins.zip draws)).mapM (simulateGti counts)
      pure evs.flatten

/-- `EventList.simulate_energies`, `stingray/events.py` 474-494, for a spectrum given as a list of energies and a list of fluxes: the new energies, or none if the event list is empty. -/
def simulateEnergies (energy fluxes us : List K) : Except PyErr (Option (List K)) :=
  if us = [] then .ok none
  else do
    let e ← (if energy.length = fluxes.length then
      match energy[0]?, energy[1]?, energy.getLast? with
      | some e0, some e1, some el => .ok ((energy.map fun x => x - (e1 - e0) / 2) ++ [el + (e1 - e0) / 2])
      | _, _, _ => .error .indexError
      else .ok energy : Except PyErr (List K))
    let v ← simulate fluxes us none false (some e)
    pure (some v)

end Stingray.InverseCdf

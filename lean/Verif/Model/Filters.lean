import Verif.Model.Basic
import Verif.Model.Gti
import Mathlib.Algebra.Order.Field.Basic

/-!
# Model of `stingray/filters.py` (dead time filters)

An event is a pair `(time, dead time)`.
-/

namespace Stingray.Filters

variable {K : Type} [Field K] [LinearOrder K]

/-- `_paralyzable_dead_time`, `stingray/filters.py` 81-105: `mask` is all true, then
`mask[1:][dead_time_end[:-1] > event_list[1:]] = False`. -/
def paralyzableMask (ev : List (K × K)) : List Bool :=
  match ev with
  | [] => []
  | _ :: rest =>
    true :: List.zipWith (fun a b => !(decide (b.1 < a.1 + a.2))) ev.dropLast rest

/-- The loop of `_nonpar_core`, `stingray/filters.py` 126-129, for the events after the first.
`prevEnd` is `dead_time_end[i - 1]`, which the code stores back in the array (line 128). -/
def nonparLoop (prevEnd : K) : List (K × K) → List Bool
  | [] => []
  | (t, d) :: rest =>
    if t < prevEnd then false :: nonparLoop prevEnd rest
    else true :: nonparLoop (t + d) rest

/-- `_nonpar_core`, `stingray/filters.py` 109-130, on a mask of ones. -/
def nonparCore : List (K × K) → List Bool
  | [] => []
  | (t, d) :: rest => true :: nonparLoop (t + d) rest

/-- `_non_paralyzable_dead_time`, `stingray/filters.py` 133-154: times are referred to the first
event (the cast to double is not modelled); an empty list fails at `event_list[0]`. -/
def nonParalyzableMask (ev : List (K × K)) : Except PyErr (List Bool) :=
  match ev with
  | [] => .error .indexError
  | e0 :: _ => .ok (nonparCore (ev.map fun e => (e.1 - e0.1, e.2)))

/-- The result of `get_deadtime_mask` with `return_all=True`: the mask and the fields of
`DeadtimeFilterOutput` that the property talks about. -/
structure DtOut (K : Type) where
  /-- mask over the source events -/
  mask : List Bool
  /-- accepted events, source and background -/
  ufEvents : List K
  /-- which of them are source events -/
  isEvent : List Bool
  /-- accepted background events -/
  bkg : List K
  deriving DecidableEq

/-- `a[mask]`. -/
abbrev select {α : Type} (mask : List Bool) (a : List α) : List α := Gti.select mask a

/-- `get_deadtime_mask`, `stingray/filters.py` 165-280.  `draws` is the sequence of normal deviates of line
243 when `dt_sigma` is given (any values, one per event); `order` is the `argsort` of line 219. -/
def getDeadtimeMask (order : KeySort (fun (x : K × Bool) => x.1)) (ev : List K) (deadtime : K)
    (bkg : Option (List K)) (draws : Option (List K)) (paralyzable : Bool) :
    Except PyErr (DtOut K) :=
  let tot : List (K × Bool) := match bkg with
    | some b => order.sort (ev.map (fun t => (t, true)) ++ b.map (fun t => (t, false)))
    | none => ev.map (fun t => (t, true))
  if deadtime ≤ 0 then
    if deadtime < 0 then .error .valueError
    else .ok ⟨ev.map (fun _ => true), tot.map Prod.fst, tot.map Prod.snd,
      (tot.filter (fun x => !x.2)).map Prod.fst⟩
  else do
    let values := match draws with
      | some ds => ds.map (fun d => if d < 0 then 0 else d)
      | none => tot.map (fun _ => deadtime)
    let evs := List.zip (tot.map Prod.fst) values
    let saved ← if paralyzable then (.ok (paralyzableMask evs) : Except PyErr (List Bool))
      else nonParalyzableMask evs
    let filt := select saved tot
    return ⟨select (tot.map Prod.snd) saved, filt.map Prod.fst, filt.map Prod.snd,
      (filt.filter (fun x => !x.2)).map Prod.fst⟩

/-- `filter_for_deadtime` on an array of times, `stingray/filters.py` 283-319 (lines 314-315). -/
def filterForDeadtime (order : KeySort (fun (x : K × Bool) => x.1)) (ev : List K) (deadtime : K)
    (bkg : Option (List K)) (draws : Option (List K)) (paralyzable : Bool) :
    Except PyErr (List K) := do
  let out ← getDeadtimeMask order ev deadtime bkg draws paralyzable
  return select out.mask ev

end Stingray.Filters

import Verif.Model.TimeSeries
import Verif.Model.Io

/-!
# Splitting a time series by lists of GTIs (`stingray/base.py` 2725-2784)
-/

namespace Stingray.TimeSeries

open Stingray.Gti

variable {K V : Type} [Field K] [LinearOrder K] [IsStrictOrderedRing K]

/-- One turn of the loop of `apply_gti_lists`, `stingray/base.py` 2751-2763, for a list of GTIs that is not empty. -/
def gtiChunk (order : KeySort (fun (x : (K × K) × Bool) => x.1.2)) (s : TS K V) (gti : List (K × K)) : Except PyErr (TS K V) :=
  let start := (gti.headD (0, 0)).1
  let stop := (gti.getLastD (0, 0)).2
  let lower := searchsortedLeft s.time start
  let upper := searchsortedLeft s.time stop
  let upper : Int := if upper = s.time.length then (upper : Int) - 1 else upper
  match s.time[upper.toNat]? with
  | none => .error .indexError
  | some t =>
    let upper := if stop < t then upper - 1 else upper
    match getItem order s (.slice (some lower) (some (upper + 1)) none) with
    | .error e => .error e
    | .ok ev => .ok (setGti ev (some gti))

/-- The loop of `apply_gti_lists`, `stingray/base.py` 2748-2763, exhausting the generator: empty lists are skipped. -/
def gtiChunks (order : KeySort (fun (x : (K × K) × Bool) => x.1.2)) (s : TS K V) : List (List (K × K)) → Except PyErr (List (TS K V))
  | [] => .ok []
  | gti :: rest =>
    if gti = [] then gtiChunks order s rest
    else
      match gtiChunk order s gti with
      | .error e => .error e
      | .ok c =>
        match gtiChunks order s rest with
        | .error e => .error e
        | .ok cs => .ok (c :: cs)

/-- `StingrayTimeseries.apply_gti_lists`, `stingray/base.py` 2725-2763 (`len(None)` raises `TypeError`). -/
def applyGtiLists (order : KeySort (fun (x : (K × K) × Bool) => x.1.2)) (s : TS K V) (lists : List (List (K × K))) :
    Except PyErr (List (TS K V)) :=
  match lists, (gtiGet s).1 with
  | [], _ => .error .indexError
  | _, none => .error .typeError
  | first :: rest, some g =>
    if Io.sameGti first g then
      match getItem order s (.slice none none none) with
      | .error e => .error e
      | .ok ev => .ok [ev]
    else gtiChunks order s (first :: rest)

/-- `new_gti` of `filter_at_time_intervals`, `stingray/base.py` 2780-2783. -/
def intervalGtis (order : KeySort (fun (x : (K × K) × Bool) => x.1.2)) (g : List (K × K)) (check : Bool) :
    List (K × K) → Except PyErr (List (List (K × K)))
  | [] => .ok []
  | t :: rest =>
    match (if check then crossTwoGtis order g [t] else .ok [t]), intervalGtis order g check rest with
    | .ok a, .ok b => .ok (a :: b)
    | .error e, _ => .error e
    | _, .error e => .error e

/-- `StingrayTimeseries.filter_at_time_intervals`, `stingray/base.py` 2765-2784, for a list of intervals; a series without GTIs is not modelled. -/
def filterAtTimeIntervals (order : KeySort (fun (x : (K × K) × Bool) => x.1.2)) (s : TS K V) (intervals : List (K × K)) (check : Bool) :
    Except PyErr (List (TS K V)) :=
  match (gtiGet s).1 with
  | none => .error .typeError
  | some g =>
    match intervalGtis order g check intervals with
    | .error e => .error e
    | .ok lists => applyGtiLists order s lists

end Stingray.TimeSeries

import Verif.Model.Lightcurve

/-!
# The start of a light curve, GTIs and joins: `stingray/lightcurve.py` 317-322, 985-1110, 1708-1731

Light curves with one bin width, the same reference time and the same valid statistics. Not modelled: light curves without bins.
-/

namespace Stingray.LcStart

open Stingray

variable {K : Type} [Field K] [LinearOrder K]

/-- The value of `tstart`: a number or an array. -/
inductive Start (K : Type)
  | number (x : K)
  | array (l : List K)
deriving DecidableEq

/-- A light curve: its samples (time, counts, error), bin width, GTIs, start and length. -/
structure Curve (K : Type) where
  samples : List (K × K × K)
  dt : K
  gti : List (K × K)
  tstart : Start K
  tseg : K
deriving DecidableEq

/-- A new light curve with at least one bin, lines 317-322. -/
def new (samples : List (K × K × K)) (dt : K) (gti : List (K × K)) : Except PyErr (Curve K) :=
  match samples.head?, samples.getLast? with
  | some a, some b => .ok { samples := samples, dt := dt, gti := gti, tstart := .number (a.1 - 1 / 2 * dt), tseg := b.1 - a.1 + dt }
  | _, _ => .error .indexError

/-- `np.max` of a list that is not empty. -/
def maxOf (x : K) (l : List K) : K := l.foldl max x

/-- `np.min` of a list that is not empty. -/
def minOf (x : K) (l : List K) : K := l.foldl min x

/-- `Lightcurve.apply_gtis`, lines 1708-1731: `mask` says which bins are in the GTIs. The start becomes an array. -/
def applyGtis (mask : List Bool) (c : Curve K) : Except PyErr (Curve K) :=
  let samples := Gti.select mask c.samples
  match c.gti with
  | [] => .error .valueError
  | g :: gs =>
    let ends := (g :: gs).flatMap fun g => [g.1, g.2]
    .ok { c with samples := samples, tstart := .array (samples.map fun s => s.1 - 1 / 2 * c.dt), tseg := maxOf g.1 ends - minOf g.1 ends }

/-- `if a < b`, line 1031: arrays are broadcast, and the truth of an array with more than one element is not defined. -/
def isLess : Start K → Start K → Except PyErr Bool
  | .number x, .number y => .ok (decide (x < y))
  | .number x, .array [y] => .ok (decide (x < y))
  | .array [x], .number y => .ok (decide (x < y))
  | .array [x], .array [y] => .ok (decide (x < y))
  | _, _ => .error .valueError

/-- `Lightcurve.join`, lines 1031-1097: the samples of the joined light curve. -/
def joinCurves (sqrt : K → K) (a b : Curve K) : Except PyErr (List (K × K × K)) :=
  match isLess a.tstart b.tstart with
  | .error e => .error e
  | .ok true => .ok (Lightcurve.join sqrt a.samples b.samples)
  | .ok false => .ok (Lightcurve.join sqrt b.samples a.samples)

end Stingray.LcStart

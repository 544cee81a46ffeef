import Verif.Model.Pulsar

/-!
# Phaseograms and times of arrival: `stingray/pulse/search.py` 500-625, `stingray/pulse/pulsar.py` 805-863

Exact arithmetic. Plots are left out.
-/

namespace Stingray.Phaseogram

open Stingray

variable {K : Type} [Field K] [LinearOrder K] [IsStrictOrderedRing K] [FloorRing K]

/-- `np.linspace(a, b, n + 1)`. -/
def linspace (a b : K) (n : Nat) : List K := (List.range (n + 1)).map fun (i : Nat) => a + (i : K) * ((b - a) / n)

/-- Whether `np.histogram2d` counts `x` in the bin `i` of the given edges: the last bin has its upper edge. -/
def inBin (edges : List K) (i : Nat) (x : K) : Bool :=
  match edges[i]?, edges[i + 1]? with
  | some a, some b => (decide (a ≤ x) && decide (x < b)) || (decide (i + 2 = edges.length) && decide (x = b))
  | _, _ => false

/-- `np.histogram2d` with edges; the points are `((x, y), weight)`. -/
def hist2d (pts : List ((K × K) × K)) (ex ey : List K) : List (List K) :=
  (List.range (ex.length - 1)).map fun (i : Nat) => (List.range (ey.length - 1)).map fun (j : Nat) =>
    ((pts.filter fun p => inBin ex i p.1.1 && inBin ey j p.1.2).map Prod.snd).sum

/-- The reference time, `stingray/pulse/search.py` 583-595, for given first and last times. -/
def reference (first last : K) (mjdref pepoch : Option K) : K :=
  let pepoch := match pepoch with
    | some p => p
    | none =>
      let p := (last + first) / 2
      if mjdref.isSome then p / 86400 else p
  match mjdref with
  | some m => (pepoch - m) * 86400
  | none => pepoch

/-- The time of an event on the axis, `stingray/pulse/search.py` 607-608. -/
def timeAxis (mjdref : Option K) (t : K) : K :=
  match mjdref with
  | some m => t / 86400 + m
  | none => t

/-- `phaseogram`, `stingray/pulse/search.py` 500-625: the histogram and the two axes. The weights are `None` or an array; without events the last time, or (with a `pepoch`) the smallest time, raises. The numbers of bins are positive. -/
def phaseogram (times : List K) (f fdot fddot : K) (nph nt : Nat) (ph0 : K) (mjdref pepoch : Option K) (weights : Option (List K)) :
    Except PyErr (List (List K) × List K × List K) :=
  match times with
  | [] => if pepoch.isNone then .error .indexError else .error .valueError
  | t0 :: ts =>
    let ref := reference t0 ((t0 :: ts).getLastD t0) mjdref pepoch
    let phases := times.map fun t => Pulsar.pulsePhase (t - ref) [f, fdot, fddot] ph0 true
    let w := weights.getD (times.map fun _ => 1)
    if w.length ≠ times.length then .error .valueError
    else
      let axis := times.map (timeAxis mjdref)
      let pts := (((phases ++ phases.map (· + 1)).zip (axis ++ axis)).zip (w ++ w))
      let ex := linspace 0 2 (nph * 2)
      let ey := linspace (axis.foldl min (axis.headD 0)) (axis.foldl max (axis.headD 0)) nt
      .ok (hist2d pts ex ey, ex, ey)

/-- `get_TOA`, `stingray/pulse/pulsar.py` 838-851; `fit` is the phase and its error found by `fftfit`. -/
def getToa (fit : K × K) (period tstart additional : K) : K × K :=
  let ph := fit.1 + additional
  let ph := ph - (⌊ph⌋ : K)
  (tstart + ph * period, fit.2 * period)

end Stingray.Phaseogram

import Verif.Model.Analyze
import Verif.Model.Hist
import Verif.Model.Lightcurve

/-!
# Event lists to binned series, to many light curves, and to colours and intensities: `stingray/events.py` 293-377 and 786-864
-/

namespace Stingray.EventBins

open Stingray Stingray.Gti Stingray.Hist

variable {K : Type} [Field K] [LinearOrder K] [IsStrictOrderedRing K] [FloorRing K]

/-- `EventList.to_binned_timeseries(dt)`, `stingray/events.py` 293-340: times, counts and for each array attribute the sums of its values. The sums are in exact arithmetic
(C71 is about the type of the sums). A GTI list is never empty (C01); no bins at all, or negative lengths, are an error in the histogram. -/
def toBinned (time : List K) (attrs : List (String × List K)) (gti : List (K × K)) (dt : K) : Except PyErr (List K × List Nat × List (String × List K)) :=
  match gti.head?, gti.getLast? with
  | some g, some h =>
    let n := Hist.pyInt ((h.2 - g.1) / dt)
    if n ≤ 0 then .error .zeroDivisionError
    else
      let stop := g.1 + (n : K) * dt
      .ok (arange (g.1 + dt / 2) stop dt, hist1d time n.toNat (g.1, stop), attrs.map fun a => (a.1, hist1dWeight id (time.zip a.2) n.toNat (g.1, stop)))
  | _, _ => .error .indexError

/-- The segments of `EventList.to_lc_iter`, `stingray/events.py` 361-363 with `generate_indices_of_boundaries`, `stingray/gti.py` 1512-1520. -/
def boundaries (times : List K) (gti : List (K × K)) (size : Option K) (eps : K) : Except PyErr (List ((K × K) × (Nat × Nat))) :=
  match size with
  | some size => segmentIndicesUnbinned times gti size eps
  | none => (gtiBorderBins gti times 0 eps).map fun r => gti.zip r

/-- `EventList.to_lc_iter(dt, segment_size)`, `stingray/events.py` 342-377: times and counts of each light curve. -/
def toLcIter (sort : KeySort (fun (x : K) => x)) (times : List K) (gti : List (K × K)) (dt : K) (size : Option K) (eps : K) :
    Except PyErr (List (List K × List Nat)) :=
  match boundaries times gti size eps with
  | .error e => .error e
  | .ok segs => segs.mapM fun s =>
      Lightcurve.makeLightcurve sort ((times.take (s.2.2 + 1)).drop s.2.1) dt (some (s.1.2 - s.1.1)) (some s.1.1) (some [s.1]) true

/-- The number of events in an energy range: `np.count_nonzero(ev.get_energy_mask(range))`. -/
def countIn (rows : List (K × K)) (range : K × K) : Nat :=
  (Lightcurve.energyMask (rows.map Prod.snd) range).count true

/-- The inner function of `get_color_evolution`, `stingray/events.py` 813-824: `rows` are times and energies; NaN is `none`. -/
def color (sqrt : K → K) (r1 r2 : K × K) (rows : List (K × K)) (_ : K × K) : Option (K × K) :=
  let n1 := countIn rows r1
  let n2 := countIn rows r2
  if n1 = 0 ∨ n2 = 0 then none
  else
    let c : K := (n2 : K) / (n1 : K)
    some (c, c * (sqrt (n1 : K) / (n1 : K) + sqrt (n2 : K) / (n2 : K)))

/-- The inner function of `get_intensity_evolution`, `stingray/events.py` 854-860. -/
def intensity (sqrt : K → K) (r : K × K) (rows : List (K × K)) (seg : K × K) : K × K :=
  let n := countIn rows r
  ((n : K) / (seg.2 - seg.1), sqrt (n : K) / (seg.2 - seg.1))

/-- `get_color_evolution` and `get_intensity_evolution`, `stingray/events.py` 826 and 862: the results of `analyze_segments` are unpacked in two arrays, which fails when there are none. -/
def evolution {R : Type} (rows : List (K × K)) (gti : List (K × K)) (dt : K) (func : List (K × K) → K × K → R) (size : Option K) (eps : K) (nbin step : K → Nat) :
    Except PyErr (List (K × K) × List R) :=
  match Analyze.analyzeSegments rows gti dt func size 1 eps nbin step with
  | .error e => .error e
  | .ok (segs, results) => if results.isEmpty then .error .valueError else .ok (segs, results)

end Stingray.EventBins

import Verif.Model.Regions
import Mathlib.Algebra.Order.Floor.Ring
import Mathlib.Data.Nat.Factorial.Basic

/-!
# Model of `stingray/pulse/pulsar.py`, `stingray/pulse/search.py` and `normalize_phase_0d5`

Numbers are an ordered field: times in `longdouble` and phases in `double` are not distinguished.
-/

namespace Stingray.Pulsar

open Stingray

variable {K : Type} [Field K] [LinearOrder K] [FloorRing K]

/-! ## Ephemerides -/

/-- The store into an integer array truncates towards zero. -/
def trunc (x : K) : K := if 0 ≤ x then (⌊x⌋ : K) else -(⌊-x⌋ : K)

/-- `p_to_f`, `stingray/pulse/pulsar.py` 47-88. `ints` says that all the arguments are integers: `np.zeros_like` of the tuple is then an
integer array (line 70) and every element stored in it is truncated. Not modelled: a zero first argument. -/
def pToF (ints : Bool) (d : List K) : List K :=
  let store : K → K := if ints then trunc else id
  match d with
  | [] => []
  | [p] => [store (1 / p)]
  | [p, pd] => [store (1 / p), store (-1 / p ^ 2 * pd)]
  | [p, pd, pdd] => [store (1 / p), store (-1 / p ^ 2 * pd), store (2 / p ^ 3 * pd ^ 2 - 1 / p ^ 2 * pdd)]
  | p :: pd :: pdd :: pddd :: rest =>
    [store (1 / p), store (-1 / p ^ 2 * pd), store (2 / p ^ 3 * pd ^ 2 - 1 / p ^ 2 * pdd),
      store (-6 / p ^ 4 * pd ^ 3 + 6 / p ^ 3 * pd * pdd - 1 / p ^ 2 * pddd)] ++ rest.map fun _ => 0

/-- The loop of `pulse_phase`, `stingray/pulse/pulsar.py` 118-121; `i` is `i_f`. -/
def phaseLoop (t : K) : Nat → K → List K → K
  | _, ph, [] => ph
  | i, ph, f :: fs => phaseLoop t (i + 1) (ph + 1 / ((i + 1).factorial : K) * t ^ (i + 1) * f) fs

/-- `pulse_phase` of one time, `stingray/pulse/pulsar.py` 91-125. -/
def pulsePhase (t : K) (fs : List K) (ph0 : K) (to1 : Bool) : K :=
  let ph := phaseLoop t 0 ph0 fs
  if to1 then ph - (⌊ph⌋ : K) else ph

/-! ## Exposure of the phase bins -/

/-- `np.fmod(x, 1)`: the sign is that of `x`. -/
def fmod1 (x : K) : K := x - trunc x

/-- `phs`, lines 162-163: the phase bins. -/
def phaseBins (nbin : Nat) : List (K × K) :=
  (List.range nbin).map fun (i : Nat) => ((i : K) / nbin, ((i : K) + 1) / nbin)

/-- Lines 197-207: the exposure added to one bin by one interval of phases. -/
def addLimit (l : K × K) (b : K × K) : K :=
  if b.1 ≤ l.2 ∧ l.1 ≤ b.2 then min b.2 l.2 - max b.1 l.1 else 0

/-- Lines 169-207 for one GTI and one phase bin: the exposure added to it. -/
def gtiExposure (startTime stopTime period : K) (nbin : Nat) (g : K × K) (b : K × K) : K :=
  let g0 := if g.1 < startTime then startTime else g.1
  let g1 := if stopTime < g.2 then stopTime else g.2
  let length := g1 - g0
  let nraw := length / period
  let nper := trunc nraw
  let startPhase := fmod1 (g0 / period)
  let endPhase := nraw - nper + startPhase
  let limits := if 1 < endPhase then [(0, endPhase - 1), (startPhase, 1)] else [(startPhase, endPhase)]
  nper / nbin + (limits.map fun l => addLimit l b).sum

/-- `phase_exposure` before the last line, `stingray/pulse/pulsar.py` 151-207. -/
def rawExposure (startTime stopTime period : K) (nbin : Nat) (gti : Option (List (K × K))) : List K :=
  let gti := gti.getD [(startTime, stopTime)]
  let good := gti.filter fun g => decide (g.1 < stopTime) && decide (startTime < g.2)
  (phaseBins nbin).map fun b => (good.map fun g => gtiExposure startTime stopTime period nbin g b).sum

/-- `phase_exposure`, `stingray/pulse/pulsar.py` 128-209. The division of zero by zero is NaN (`none`); an empty maximum raises. -/
def phaseExposure (startTime stopTime period : K) (nbin : Nat) (gti : Option (List (K × K))) :
    Except PyErr (List (Option K)) :=
  match rawExposure startTime stopTime period nbin gti with
  | [] => .error .valueError
  | e :: es =>
    let m := es.foldl max e
    .ok ((e :: es).map fun x => if m = 0 then none else some (x / m))

/-! ## Folding -/

/-- `np.histogram(x, bins=np.linspace(0, 1, nbin + 1), weights=w)`: the last bin is closed. -/
def histUnit (nbin : Nat) (xw : List (K × K)) : List K :=
  (List.range nbin).map fun (i : Nat) =>
    ((xw.filter fun p => decide ((i : K) / nbin ≤ p.1) &&
      (if i + 1 = nbin then decide (p.1 ≤ ((i : K) + 1) / nbin) else decide (p.1 < ((i : K) + 1) / nbin))).map Prod.snd).sum

/-- The `weights` argument of `fold_events`: a number or an array. -/
inductive Weights (K : Type) where
  | scalar (w : K)
  | array (w : List K)

/-- Lines 285-286. -/
def Weights.expand (times : List K) : Weights K → List K
  | .scalar w => times.map fun _ => w
  | .array w => w

/-- Options of `fold_events`. -/
structure FoldOpts (K : Type) where
  nbin : Nat
  weights : Weights K
  gti : Option (List (K × K))
  refTime : K
  expocorr : Bool

/-- Line 314: the division of a count by an exposure; the division by zero is `none` (NaN or infinite). -/
def divOpt (a : K) (e : Option K) : Option K :=
  match e with
  | some e => if e = 0 then none else some (a / e)
  | none => none

/-- `fold_events` in mode `"ef"`, `stingray/pulse/pulsar.py` 212-345: phases of the bins and profile.
Not modelled: the error of the profile, unknown keywords, and the mode `"pdm"`. -/
def foldEvents (times : List K) (fs : List K) (o : FoldOpts K) : Except PyErr (List K × List (Option K)) :=
  match times[0]?, times.getLast?, times[1]? with
  | some first, some last, some second =>
    let gti := (o.gti.getD [(first, last)]).map fun g => (g.1 - o.refTime, g.2 - o.refTime)
    let weights := o.weights.expand times
    if weights.length ≠ times.length then .error .valueError
    else do
      let ts := times.map (· - o.refTime)
      let dt := |(second - o.refTime) - (first - o.refTime)|
      let startTime := first - o.refTime
      let stopTime := last - o.refTime + dt
      let phases := ts.map fun t => pulsePhase t fs 0 true
      let gtiPhases := gti.map fun g => (pulsePhase g.1 fs 0 false, pulsePhase g.2 fs 0 false)
      let startPhase := pulsePhase startTime fs 0 false
      let stopPhase := pulsePhase stopTime fs 0 false
      let raw := histUnit o.nbin (phases.zip weights)
      let expo ← if o.expocorr then phaseExposure startPhase stopPhase 1 o.nbin (some gtiPhases)
                 else .ok (raw.map fun _ => some 1)
      .ok ((List.range o.nbin).map (fun (i : Nat) => (i : K) / o.nbin + (((i : K) + 1) / o.nbin - (i : K) / o.nbin) / 2),
           List.zipWith divOpt raw expo)
  | _, _, _ => .error .indexError

/-! ## Searches -/

/-- `_pulse_phase_fast` of one time, `stingray/pulse/search.py` 23-27. -/
def pulsePhaseFast (t f fdot : K) : K :=
  let ph := t * f + 1 / 2 * t ^ 2 * fdot
  ph - (⌊ph⌋ : K)

/-- `_profile_fast`, `stingray/pulse/search.py` 72-88, for phases in `[0, 1)` and `nbin > 0`: `np.bincount` counts the integer values, here
those of the events, one zero and one `nbin - 1`, which are then removed. -/
def profileFast (phases : List K) (nbin : Nat) : List Int :=
  let bins : List Int := phases.map (fun p => ⌊p * (nbin : K)⌋) ++ [0, (nbin : Int) - 1]
  let n := (bins.foldl max 0).toNat + 1
  let bc : List Int := (List.range n).map fun (k : Nat) => ((bins.count (k : Int) : Nat) : Int)
  let bc := bc.modify 0 (· - 1)
  bc.modify (bc.length - 1) (· - 1)

/-- The events of one segment in `_folding_search`, `stingray/pulse/search.py` 43-47 (`none`: skipped). -/
def foldSegment (times : List K) (segmentSize s : K) : Option (List K) :=
  let ts := times.filter fun t => decide (s ≤ t) && decide (t < s + segmentSize)
  match ts.head?, ts.getLast? with
  | some a, some b => if b - a < 1 / 5 * segmentSize then none else some ts
  | _, _ => none

/-- `_folding_search` with `use_times=False`, `stingray/pulse/search.py` 30-69, at one trial: `none` stands for the default `segment_size=np.inf`; `starts` are
the values of `np.arange(times[0], times[-1], segment_size)`, `0, segment_size, …` below the last time. The result of a division by `count = 0` is `none`.
Not modelled: the shape of the output, and `use_times=True`. -/
def foldingSearch (stat : List K → K) (times : List K) (f fdot : K) (segmentSize : Option K) :
    Except PyErr (Option K) :=
  match times.head? with
  | none => .error .indexError
  | some t0 =>
    let times := times.map (· - t0)
    let length := times.getLastD 0
    let seg := match segmentSize with
      | none => length
      | some s => if length < s then length else s
    if seg = 0 then .error .valueError
    else
      let n := (⌈length / seg⌉).toNat
      let starts := (List.range n).map fun (i : Nat) => (i : K) * seg
      let segs := starts.filterMap (foldSegment times seg)
      let stats := segs.map fun ts => stat (ts.map fun t => pulsePhaseFast t f fdot)
      .ok (if segs.length = 0 then none else some (stats.sum / segs.length))

/-- Lines 402-407: the best sample of one region: `np.argmax` is the first index of the maximum. -/
def bestOf (x stat : List K) (r : Nat × Nat) : Option (K × K) :=
  let s := (stat.take r.2).drop r.1
  let xs := (x.take r.2).drop r.1
  match argmax? s with
  | some i =>
    match xs[i]?, s[i]? with
    | some a, some b => some (a, b)
    | _, _ => none
  | none => none

/-- `search_best_peaks`, `stingray/pulse/search.py` 343-411, for arrays of the same length; `argsort` is any sort of the pairs. -/
def searchBestPeaks (srt : KeySort (K := K) (α := K × K) Prod.snd) (x stat : List K) (threshold : K) :
    Except PyErr (List K × List K) := do
  let regions ← Gti.contiguousRegions (stat.map fun s => decide (threshold ≤ s))
  let best := regions.filterMap (bestOf x stat)
  let sorted := (srt.sort best).reverse
  .ok (sorted.map Prod.fst, sorted.map Prod.snd)

/-! ## Phases in (-0.5, 0.5] -/

/-- The first loop of `normalize_phase_0d5`, `stingray/pulse/fftfit.py` 192-193, with a bound on the number of rounds. -/
def phaseDown : Nat → K → K
  | 0, p => p
  | n + 1, p => if 1 / 2 < p then phaseDown n (p - 1) else p

/-- The second loop, lines 194-195. -/
def phaseUp : Nat → K → K
  | 0, p => p
  | n + 1, p => if p ≤ -(1 / 2) then phaseUp n (p + 1) else p

/-- `normalize_phase_0d5`, `stingray/pulse/fftfit.py` 178-196, with a bound on the number of rounds of each loop. -/
def normalizePhase (fuel : Nat) (p : K) : K := phaseUp fuel (phaseDown fuel p)

end Stingray.Pulsar

import Verif.Model.Gti
import Verif.Model.Spectroscopy
import Mathlib.Analysis.SpecialFunctions.Trigonometric.Basic
import Mathlib.Data.List.Sort

/-!
# The acceleration search: `stingray/pulse/accelsearch.py`

Exact arithmetic. The Fourier transform, the convolution, the response templates, the median, the detection level and the probabilities are parameters; logging, plots and the file of candidates are left out.
-/

namespace Stingray.AccelSearch

open Stingray

open Classical in
/-- `interbin_fft`, `stingray/pulse/accelsearch.py` 506-514, for sorted frequencies: frequencies and amplitudes, as pairs. -/
noncomputable def interleave (s : List (ℝ × ℂ)) : List (ℝ × ℂ) :=
  let n := s.length
  let f0 := (s.getD 0 (0, 0)).1
  let f1 := (s.getD (n - 1) (0, 0)).1
  (List.range (2 * n - 1)).map fun (i : Nat) =>
    (f0 + (i : ℝ) * ((f1 - f0) / (2 * (n : ℝ) - 2)),
     if i % 2 = 0 then (s.getD (i / 2) (0, 0)).2
     else ((s.getD (i / 2 + 1) (0, 0)).2 - (s.getD (i / 2) (0, 0)).2) * (Real.pi / 4 : ℝ))

open Classical in
/-- `interbin_fft`, `stingray/pulse/accelsearch.py` 458-522: the two arrays that are returned, as pairs. -/
noncomputable def interbin (freq : List ℝ) (A : List ℂ) : Except PyErr (List (ℝ × ℂ)) :=
  match freq.getLast? with
  | none => .error .indexError
  | some last =>
    if last < 0 then
      if A.length < freq.length then .error .indexError
      else
        let r := interleave ((freq.zip A).insertionSort fun p q => p.1 ≤ q.1)
        .ok ((r.filter fun p => decide (¬ p.1 < 0)) ++ r.filter fun p => decide (p.1 < 0))
    else if A = [] then .error .indexError
    else if A.length ≠ freq.length then .error .valueError
    else .ok (interleave (freq.zip A))

/-- A candidate found by a worker: position in the Fourier transform, number of the template, power. -/
abbrev Cand := ℝ × Nat × ℝ

/-- The entries of the transform to be searched, with their positions, `stingray/pulse/accelsearch.py` 168, 178-179. -/
def selected (accel : List ℂ) (mask : List Bool) : List (ℝ × ℂ) :=
  ((((List.range accel.length).map fun (i : Nat) => (i : ℝ)).zip accel).zip mask).filterMap fun p => if p.2 then some p.1 else none

open Classical in
/-- `_convolve_with_response`, `stingray/pulse/accelsearch.py` 125-194; the convolution (`conv`) gives as many entries as `A` has (`stingray/pulse/accelsearch.py` 66-73). -/
noncomputable def worker (conv : List ℂ → List ℂ → List ℂ) (A : List ℂ) (detlev : ℝ) (mask : List Bool) (inter : Bool)
    (response : Option (List ℂ)) (j : Nat) : Except PyErr (List Cand) :=
  let accel := match response with
    | none => A
    | some r => conv A r
  let sel := selected accel mask
  let cells : Except PyErr (List (ℝ × ℂ)) := if inter then interbin (sel.map Prod.fst) (sel.map Prod.snd) else .ok sel
  cells.map fun cs => (cs.filter fun p => decide (detlev < Complex.normSq p.2)).map fun p => (p.1, j, Complex.normSq p.2)

open Classical in
/-- `_create_responses`, `stingray/pulse/accelsearch.py` 81-122: no template for `z` near zero. -/
noncomputable def responses (template : ℝ → List ℂ) (rangeZ : List ℝ) : List (Option (List ℂ)) :=
  rangeZ.map fun z => if |z| < 1 / 100 then none else some (template z)

/-- `_calculate_all_convolutions`, `stingray/pulse/accelsearch.py` 197-283: `order` is the order in which the results of the templates arrive (`0, 1, …` with one process). -/
noncomputable def allConvolutions (conv : List ℂ → List ℂ → List ℂ) (A : List ℂ) (resp : List (Option (List ℂ))) (mask : List Bool)
    (detlev : ℝ) (inter : Bool) (order : List Nat) : Except PyErr (List Cand) :=
  (order.mapM fun j => worker conv A detlev mask inter (resp.getD j none) j).map List.flatten

/-- What the search takes from elsewhere: `fft`, `fft_rescale`, the convolution, the templates, `np.median`, `create_gti_mask`, `pds_detection_level`, `pds_probability`. -/
structure Tools where
  fft : List ℝ → List ℂ
  rescale : List ℂ → List ℂ
  conv : List ℂ → List ℂ → List ℂ
  template : ℝ → List ℂ
  median : List ℝ → ℝ
  gtiMask : List ℝ → List (ℝ × ℝ) → List Bool
  detlev : Nat → ℝ
  prob : ℝ → Nat → ℝ

/-- The numbers in the call of `accelsearch`. -/
structure Opts where
  deltaZ : ℝ
  fmin : ℝ
  fmax : ℝ
  zmax : ℝ
  refTime : ℝ
  inter : Bool

/-- A row of the table of candidates. -/
structure Row where
  time : ℝ
  length : ℝ
  fracExposure : ℝ
  power : ℝ
  prob : ℝ
  frequency : ℝ
  fdot : ℝ
  fddot : ℝ
  ntrial : Nat

noncomputable def mean (l : List ℝ) : ℝ := l.sum / l.length

open Classical in
/-- Filling the gaps, `stingray/pulse/accelsearch.py` 364-368. The mean of no bin would be NaN; here some bin is good. -/
noncomputable def fill (median : List ℝ → ℝ) (signal : List ℝ) (mask : List Bool) : List ℝ :=
  let good := (signal.zip mask).filterMap fun p => if p.2 then some p.1 else none
  let m := if 10 < mean signal then median good else mean good
  (signal.zip mask).map fun p => if p.2 then p.1 else m

/-- The light curve as it is searched, the exposure and the start, `stingray/pulse/accelsearch.py` 355-371; `t0`, `dt` are the first time and the step. -/
noncomputable def prepare (T : Tools) (times signal : List ℝ) (t0 dt : ℝ) : Option (List (ℝ × ℝ)) → List ℝ × ℝ × ℝ
  | some (g :: g' :: gs) =>
    let mask := T.gtiMask times (g :: g' :: gs)
    (fill T.median signal mask, (mask.count true : ℝ) / mask.length, g.1)
  | _ => (signal, 1, t0 - dt / 2)

/-- The Fourier transform that is searched, `stingray/pulse/accelsearch.py` 354, 373, 384-386. -/
noncomputable def spectrum (T : Tools) (nPhotons : ℝ) (signal : List ℝ) : List ℂ :=
  T.rescale ((T.fft signal).map fun a => a * (√(2 / nPhotons) : ℝ))

open Classical in
/-- `freq_intv_to_search`, `stingray/pulse/accelsearch.py` 402. -/
noncomputable def interval (freq : List ℝ) (fmin fmax : ℝ) : List Bool := freq.map fun f => decide (fmin ≤ f) && decide (f < fmax)

/-- A row of the table, `stingray/pulse/accelsearch.py` 433-450. -/
noncomputable def row (T : Tools) (o : Opts) (rangeZ : List ℝ) (length expo start : ℝ) (nf : Nat) (c : Cand) : Row :=
  { time := o.refTime + start, length := length, fracExposure := expo, power := c.2.2, prob := T.prob c.2.2 nf,
    frequency := c.1 / length, fdot := rangeZ.getD c.2.1 0 / length ^ 2, fddot := 0, ntrial := nf }

/-- `accelsearch`, `stingray/pulse/accelsearch.py` 286-455: what becomes of the array `signal` of the caller, and the table. `order` is the order in which the workers finish. -/
noncomputable def accelsearch (T : Tools) (o : Opts) (times signal : List ℝ) (gti : Option (List (ℝ × ℝ))) (order : List Nat) :
    Except PyErr (List ℝ × List Row) :=
  match times with
  | t0 :: t1 :: ts =>
    let dt := t1 - t0
    let p := prepare T times signal t0 dt gti
    let A := spectrum T signal.sum p.1
    let mask := interval (Spectroscopy.fftfreq A.length dt) o.fmin o.fmax
    let length := (t1 :: ts).getLastD t1 - t0 + dt
    let rangeZ := Gti.arange (-o.zmax) o.zmax o.deltaZ
    let nf := mask.count true
    if rangeZ = [] then .error .valueError
    else
      (allConvolutions T.conv A (responses T.template rangeZ) mask (T.detlev nf) o.inter order).map fun cs =>
        (p.1, cs.map (row T o rangeZ length p.2.1 p.2.2 nf))
  | _ => .error .indexError

end Stingray.AccelSearch

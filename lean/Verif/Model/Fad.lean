import Verif.Model.Fourier

/-!
# Dead-time correction with Fourier amplitude differences: `stingray/deadtime/fad.py`

`fft`, `numpy.sqrt` and `scipy.ndimage.gaussian_filter1d` (as a function of the width and of the array) are parameters.
A number which is not finite (NaN or infinity) is `none`.
-/

namespace Stingray.Fad

open Stingray.Fourier

variable {K : Type} [Field K] [LinearOrder K]

/-- What is accumulated at one frequency: the entries of `pds1_unnorm`, `pds2_unnorm`, `ptot_unnorm`, `cs_unnorm`, `pds1`,
`pds2`, `ptot`, `cs` and `average_diff`. -/
structure Cell (K : Type) where
  pds1U : K
  pds2U : K
  ptotU : K
  csU : Cx K
  pds1 : K
  pds2 : K
  ptot : K
  cs : Cx K
  fad : Cx K
  deriving DecidableEq

/-- The `+=` of lines 206-217, at one frequency. -/
def Cell.add (a b : Cell K) : Cell K where
  pds1U := a.pds1U + b.pds1U
  pds2U := a.pds2U + b.pds2U
  ptotU := a.ptotU + b.ptotU
  csU := a.csU + b.csU
  pds1 := a.pds1 + b.pds1
  pds2 := a.pds2 + b.pds2
  ptot := a.ptot + b.ptot
  cs := a.cs + b.cs
  fad := a.fad + b.fad

/-- The `/ M` of lines 262-271, at one frequency. -/
def Cell.over (m : K) (a : Cell K) : Cell K where
  pds1U := a.pds1U / m
  pds2U := a.pds2U / m
  ptotU := a.ptotU / m
  csU := a.csU.both (· / m)
  pds1 := a.pds1 / m
  pds2 := a.pds2 / m
  ptot := a.ptot / m
  cs := a.cs.both (· / m)
  fad := a.fad.both (· / m)

/-- The modulus squared, `(f * f.conj()).real`. -/
def sqMod (f : Cx K) : K := (f * f.conj).re

/-- Lines 170-177 at one frequency: `f1 * sqrt(2 / nph1) - f2 * sqrt(2 / nph2)`. -/
def difference (sqrt : K → K) (nph1 nph2 : K) (f1 f2 : Cx K) : Cx K :=
  ⟨f1.re * sqrt (2 / nph1) - f2.re * sqrt (2 / nph2), f1.im * sqrt (2 / nph1) - f2.im * sqrt (2 / nph2)⟩

/-- The four normalisations of lines 195-199. -/
structure Norms (K : Type) where
  one : K → K
  two : K → K
  tot : K → K
  cross : K → K

/-- Lines 194-199: `normalize_periodograms` with the photons of each channel, of their sum, and their geometric mean. -/
def norms (sqrt : K → K) (norm : Norm) (dt n nph1 nph2 : K) : Except PyErr (Norms K) := do
  let nphgeom := sqrt (nph1 * nph2)
  let a ← normalizer norm dt n (nph1 / n) nph1 none 0
  let b ← normalizer norm dt n (nph2 / n) nph2 none 0
  let t ← normalizer norm dt n ((nph1 + nph2) / n) (nph1 + nph2) none 0
  let c ← normalizer norm dt n (nphgeom / n) nphgeom none 0
  .ok ⟨a, b, t, c⟩

/-- Lines 185-215 at one frequency, where the smoothed square of the difference is `s`; nothing is finite where `s` is 0.
Simplification: also where it is negative (a Gaussian filter of squares is not). -/
def cell (sqrt : K → K) (w : Norms K) (f1 f2 ftot diff : Cx K) (s : K) : Option (Cell K) :=
  if 0 < s then
    let p1 := sqMod f1 / s * 2
    let p2 := sqMod f2 / s * 2
    let pt := sqMod ftot / s * 2
    let c := (f2 * f1.conj).both (fun x => x / s * 2)
    some { pds1U := p1, pds2U := p2, ptotU := pt, csU := c, pds1 := w.one p1, pds2 := w.two p2, ptot := w.tot pt,
           cs := c.both w.cross, fad := diff.both (fun x => x / sqrt s * sqrt 2) }
  else none

/-- The arguments `norm`, `smoothing_alg == "gauss"`, `tolerance`, `strict` and `dt`. -/
structure Opts (K : Type) where
  dt : K
  norm : Norm
  gauss : Bool
  tolerance : K
  strict : Bool

/-- The loop variables; `cells` is `none` before the first pair of segments. -/
structure Acc (K : Type) where
  cells : Option (List (Option (Cell K)))
  freq : List K
  fgt0 : Nat × Nat
  width : Option K
  m : Nat
  nph1 : K
  nph2 : K
  nph : K

/-- Lines 157-199: what one pair of segments contributes at each frequency.  If a channel has no photon then
`sqrt(2 / nph)` is infinite and nothing is finite.
Simplification: the photons of a channel are not negative. -/
def corrected (fft : List K → List (Cx K)) (sqrt : K → K) (smooth : K → List K → List K) (o : Opts K)
    (width : K) (fgt0 : Nat × Nat) (f1 f2 : List K) : Except PyErr (List (Option (Cell K))) :=
  let nph1 := f1.sum
  let nph2 := f2.sum
  if f1.length ≠ f2.length then .error .valueError
  else
    let a := slice fgt0 (fft f1)
    let b := slice fgt0 (fft f2)
    let t := slice fgt0 (fft (List.zipWith (· + ·) f1 f2))
    let diff := List.zipWith (difference sqrt nph1 nph2) a b
    if o.gauss = false then .error .valueError
    else do
      let s := smooth width (diff.map fun d => d.re ^ 2)
      let w ← norms sqrt o.norm o.dt f1.length nph1 nph2
      .ok (if nph1 = 0 ∨ nph2 = 0 then a.map fun _ => none
        else (List.range a.length).map fun (k : Nat) =>
          cell sqrt w (a.getD k 0) (b.getD k 0) (t.getD k 0) (diff.getD k 0) (s.getD k 0))

/-- The `+=` of lines 206-217 on whole arrays; adding arrays of different sizes raises.
Simplification: arrays of size 1 are not broadcast. -/
def accumulate (a : Option (List (Option (Cell K)))) (b : List (Option (Cell K))) :
    Except PyErr (List (Option (Cell K))) :=
  match a with
  | none => .ok b
  | some a => if a.length = b.length then .ok (List.zipWith (Option.map₂ Cell.add) a b) else .error .valueError

/-- `fgt0` of a round: lines 155-157. -/
def accFgt0 (acc : Acc K) (n : Nat) : Nat × Nat := if acc.cells.isNone then positiveFftBins n false else acc.fgt0

/-- `smoothing_length` of a round: lines 153-154. -/
def accWidth (acc : Acc K) (dt : K) (n : Nat) : K := acc.width.getD (n * dt * 3)

/-- One round of the loop, lines 148-221.  Fluxes with errors are tuples: they have no `size` and no `sum`. -/
def step (fft : List K → List (Cx K)) (sqrt : K → K) (smooth : K → List K → List K) (o : Opts K)
    (acc : Acc K) (s : Segment K × Segment K) : Except PyErr (Acc K) :=
  match s with
  | (.missing, _) => .ok acc
  | (_, .missing) => .ok acc
  | (.flux f1, .flux f2) => do
    let row ← corrected fft sqrt smooth o (accWidth acc o.dt f1.length) (accFgt0 acc f1.length) f1 f2
    let cells ← accumulate acc.cells row
    .ok { cells := some cells
          freq := if acc.cells.isNone then slice (accFgt0 acc f1.length) (fftfreq f1.length o.dt) else acc.freq
          fgt0 := accFgt0 acc f1.length
          width := some (accWidth acc o.dt f1.length)
          m := acc.m + 1
          nph1 := acc.nph1 + f1.sum
          nph2 := acc.nph2 + f2.sum
          nph := acc.nph + (f1.sum + f2.sum) }
  | _ => .error .attributeError

/-- The table returned, with its metadata. -/
structure Result (K : Type) where
  freq : List K
  cells : List (Option (Cell K))
  compliant : Bool
  m : Nat
  nph1 : K
  nph2 : K
  nph : K
  width : Option K

/-- `.std()` of a complex array; `none` if an entry is not finite or there is none. -/
def std (sqrt : K → K) (l : List (Option (Cx K))) : Option K :=
  if l.any Option.isNone || l.isEmpty then none
  else
    let v := l.filterMap id
    let n : K := v.length
    let re := (v.map fun x => x.re).sum / n
    let im := (v.map fun x => x.im).sum / n
    some (sqrt ((v.map fun x => (x.re - re) ^ 2 + (x.im - im) ^ 2).sum / n))

/-- `np.abs((std - stdtheor) / stdtheor) < tolerance`, lines 223-226: false for NaN. -/
def compliant (sqrt : K → K) (tolerance : K) (m : Nat) (fads : List (Option (Cx K))) : Bool :=
  match std sqrt fads with
  | none => false
  | some s =>
    let theor := 2 / sqrt m
    decide (|(s - theor) / theor| < tolerance)

/-- `FAD`, `stingray/deadtime/fad.py` 24-296, on the pairs of segments that the flux generators give for the common GTIs
(the interval handling is in `fadOfData`).  Simplifications: no plot, no output file. -/
def fad (fft : List K → List (Cx K)) (sqrt : K → K) (smooth : K → List K → List K) (o : Opts K)
    (width : Option K) (segs : List (Segment K × Segment K)) : Except PyErr (Result K) := do
  let acc ← segs.foldlM (step fft sqrt smooth o)
    { cells := none, freq := [], fgt0 := (0, 0), width := width, m := 0, nph1 := 0, nph2 := 0, nph := 0 }
  match acc.cells with
  | none => .error .zeroDivisionError
  | some cells =>
    let cells := cells.map (Option.map (Cell.over (acc.m : K)))
    let ok := compliant sqrt o.tolerance acc.m (cells.map (Option.map Cell.fad))
    if o.strict && !ok then .error .runtimeError
    else .ok { freq := acc.freq, cells := cells, compliant := ok, m := acc.m, nph1 := acc.nph1 / acc.m,
               nph2 := acc.nph2 / acc.m, nph := acc.nph / acc.m, width := acc.width }

/-- Two data sets with their GTIs: `pairs g` are the pairs of segments cut by the flux generators when the GTIs of both are
`g`. -/
structure Data (K : Type) where
  gti1 : List (K × K)
  gti2 : List (K × K)
  pairs : List (K × K) → List (Segment K × Segment K)

/-- `FAD` with lines 122-128: the common GTIs (`cross`, i.e. `cross_two_gtis`) become the GTIs of both data sets, which are
changed in place.  The result, and the data sets left to the caller. -/
def fadOfData (cross : List (K × K) → List (K × K) → Except PyErr (List (K × K)))
    (fft : List K → List (Cx K)) (sqrt : K → K) (smooth : K → List K → List K) (o : Opts K)
    (width : Option K) (d : Data K) : Except PyErr (Result K × Data K) := do
  let g ← cross d.gti1 d.gti2
  let r ← fad fft sqrt smooth o width (d.pairs g)
  .ok (r, { d with gti1 := g, gti2 := g })

/-- `calculate_FAD_correction`, `stingray/deadtime/fad.py` 299-411: its argument `gti` is not passed on. -/
def calculateFad (cross : List (K × K) → List (K × K) → Except PyErr (List (K × K)))
    (fft : List K → List (Cx K)) (sqrt : K → K) (smooth : K → List K → List K) (o : Opts K)
    (width : Option K) (d : Data K) (_gti : Option (List (K × K))) : Except PyErr (Result K × Data K) :=
  fadOfData cross fft sqrt smooth o width d

/-- The `kind` argument of `get_periodograms_from_FAD_results`; `other` is any unknown string. -/
inductive Kind where
  | pds1 | pds2 | ptot | cs | other
  deriving DecidableEq

/-- The spectrum objects made of the table. -/
structure Periodogram (K : Type) where
  freq : List K
  power : List (Option (Cx K))
  unnormPower : List (Option (Cx K))
  nphots : Option K
  m : Nat
  n : Nat

/-- The two columns and `nphots` that the kind selects: lines 434-448. -/
def columns (k : Kind) (r : Result K) :
    Except PyErr ((Cell K → Cx K) × (Cell K → Cx K) × Option K) :=
  match k with
  | .pds1 => .ok (fun c => ⟨c.pds1, 0⟩, fun c => ⟨c.pds1U, 0⟩, some r.nph1)
  | .pds2 => .ok (fun c => ⟨c.pds2, 0⟩, fun c => ⟨c.pds2U, 0⟩, some r.nph2)
  | .ptot => .ok (fun c => ⟨c.ptot, 0⟩, fun c => ⟨c.ptotU, 0⟩, some r.nph)
  | .cs => .ok (fun c => c.cs, fun c => c.csU, none)
  | .other => .error .valueError

/-- `get_periodograms_from_FAD_results`, `stingray/deadtime/fad.py` 414-461, on a table.  Real powers have imaginary part
0; `nphots1`, `nphots2` and the power spectra of the cross spectrum are those of kinds `pds1` and `pds2`. -/
def periodogram (k : Kind) (r : Result K) : Except PyErr (Periodogram K) := do
  let (p, u, nph) ← columns k r
  .ok { freq := r.freq, power := r.cells.map (Option.map p), unnormPower := r.cells.map (Option.map u), nphots := nph,
        m := r.m, n := r.freq.length * 2 }

end Stingray.Fad

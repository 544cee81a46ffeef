import Verif.Model.Basic
import Mathlib.Analysis.SpecialFunctions.Trigonometric.Basic

/-!
# The Z² statistics and the H test

Model of `stingray/pulse/pulsar.py` 348-732 over the real numbers (rounding is not modelled).
-/

namespace Stingray.Pulsar

/-- `_cached_sin_harmonics` (`f = sin`) and `_cached_cos_harmonics` (`f = cos`), `stingray/pulse/pulsar.py` 399-434: `np.arange(dph / 2, 1, dph)` has `nbin` entries.
The division by `nbin = 0` raises. -/
noncomputable def cachedHarmonics (f : ℝ → ℝ) (nbin n : Nat) : Except PyErr (List ℝ) :=
  if nbin = 0 then .error .zeroDivisionError
  else
    let dph : ℝ := 1 / nbin
    .ok (List.replicate n ((List.range nbin).map fun (m : Nat) => f (Real.pi * 2 * (dph / 2 + m * dph)))).flatten

/-- the slice `l[: stop : step]` for a positive step -/
def strided (l : List ℝ) (stop step : Nat) : List ℝ :=
  (List.range ((min stop l.length + step - 1) / step)).map fun j => l.getD (j * step) 0

/-- the running sums `total_sum` of `stingray/pulse/pulsar.py` 456-463 and 552-558 -/
def runningSums (s : ℝ) : List ℝ → List ℝ
  | [] => []
  | z :: zs => (s + z) :: runningSums (s + z) zs

/-- `_z_n_fast_cached_sums_unnorm`, `stingray/pulse/pulsar.py` 437-465, for `ks = 1, …, n`. -/
def zFastSums (prof : List ℝ) (n : Nat) (cachedSin cachedCos : List ℝ) : List ℝ :=
  runningSums 0 ((List.range n).map fun i =>
    let k := i + 1
    (List.zipWith (· * ·) (strided cachedCos (prof.length * k) k) prof).sum ^ 2 +
      (List.zipWith (· * ·) (strided cachedSin (prof.length * k) k) prof).sum ^ 2)

/-- `z_n_binned_events_all`, `stingray/pulse/pulsar.py` 468-497: the second result. -/
noncomputable def zBinnedAll (prof : List ℝ) (n : Nat) : Except PyErr (List ℝ) := do
  let cs ← cachedHarmonics Real.sin prof.length n
  let cc ← cachedHarmonics Real.cos prof.length n
  let total := prof.sum
  if total = 0 then .ok (List.replicate n 0)
  else .ok ((zFastSums prof n cs cc).map fun z => z * 2 / total)

/-- `z_n_gauss_all`, `stingray/pulse/pulsar.py` 500-527: the second result, for a positive `err`. -/
noncomputable def zGaussAll (prof : List ℝ) (err : ℝ) (n : Nat) : Except PyErr (List ℝ) := do
  let cs ← cachedHarmonics Real.sin prof.length n
  let cc ← cachedHarmonics Real.cos prof.length n
  .ok ((zFastSums prof n cs cc).map fun z => z * (2 / prof.length / err ^ 2))

/-- `z_n_events_all`, `stingray/pulse/pulsar.py` 530-560: the second result. The compiled division by `nphot = 0` raises. -/
noncomputable def zEventsAll (phase : List ℝ) (n : Nat) : Except PyErr (List ℝ) :=
  if phase.length = 0 then .error .zeroDivisionError
  else
    let ph := phase.map fun p => p * 2 * Real.pi
    .ok ((runningSums 0 ((List.range n).map fun i =>
      let k : ℝ := (i + 1 : Nat)
      (ph.map fun p => Real.cos (k * p)).sum ^ 2 + (ph.map fun p => Real.sin (k * p)).sum ^ 2)).map
        fun z => 2 / phase.length * z)

/-- the kinds of data of `z_n` and `htest`; any other string raises -/
inductive ZKind where
  | binned | events | gauss (err : Option ℝ) | other

/-- The choice of `htest`, `stingray/pulse/pulsar.py` 718-727. -/
noncomputable def zAll (data : List ℝ) (n : Nat) : ZKind → Except PyErr (List ℝ)
  | .binned => zBinnedAll data n
  | .events => zEventsAll data n
  | .gauss none => .error .valueError
  | .gauss (some err) => zGaussAll data err n
  | .other => .error .valueError

/-- `z_n` (without the deprecated `norm`), `stingray/pulse/pulsar.py` 563-685. -/
noncomputable def zN (data : List ℝ) (n : Nat) (kind : ZKind) : Except PyErr ℝ :=
  if data.length = 0 then .ok 0
  else
    match zAll data n kind with
    | .error e => .error e
    | .ok zs =>
      match zs.getLast? with
      | some z => .ok z
      | none => .error .indexError

/-- `htest`, `stingray/pulse/pulsar.py` 688-732: the best number of harmonics and the statistic. -/
noncomputable def htest (data : List ℝ) (nmax : Nat) (kind : ZKind) : Except PyErr (Nat × ℝ) :=
  match zAll data nmax kind with
  | .error e => .error e
  | .ok zs =>
    let hs := (List.range zs.length).map fun i => zs.getD i 0 - 4 * ((i + 1 : Nat) : ℝ) + 4
    match argmax? hs with
    | none => .error .valueError
    | some b => .ok (b + 1, hs.getD b 0)

/-- the square of the error in `ef_profile_stat`, `stingray/pulse/pulsar.py` 366-368: the default is the square root of the mean -/
noncomputable def efErr2 (prof : List ℝ) : Option ℝ → ℝ
  | none => prof.sum / prof.length
  | some e => e ^ 2

/-- `ef_profile_stat`, `stingray/pulse/pulsar.py` 348-369. Not modelled: a zero or negative error (NaN or infinity). -/
noncomputable def efProfileStat (prof : List ℝ) (err : Option ℝ) : ℝ :=
  (prof.map fun p => (p - prof.sum / prof.length) ^ 2 / efErr2 prof err).sum

end Stingray.Pulsar

import Verif.Model.PowerColors
import Verif.Model.PowerStats

/-!
# Power colours and rms of dynamical spectra: `stingray/crossspectrum.py`
-/

namespace Stingray.DynColors

open Stingray Stingray.PowerColors Stingray.PowerStats

variable {K : Type} [Field K] [LinearOrder K]

/-- The part of a dynamical spectrum used here: `cols` are the columns of `dyn_ps`, one for each time. -/
structure Dyn (K : Type) where
  freq : List K
  cols : List (List K)
  df : K
  m : K
  nphots : K
  segmentSize : K
  /-- `unnorm_conversion`: normalised powers over powers without normalisation -/
  conv : K

/-- One turn of the loop of `power_colors`, `stingray/crossspectrum.py` 2598-2610: the colours of one column, and what the column holds afterwards. The column is a view of the matrix (for real powers, `ps.real` is one too), which `power_color` may overwrite. -/
def columnColors (d : Dyn K) (edges : List K) (excl : List (K × K)) (noise : K) (col : List K) : Except PyErr ((Option K × Option K) × List K) :=
  powerColor (d.freq.zip col) d.df edges excl noise

/-- `power_colors(freq_edges, freqs_to_exclude, poisson_power)`, `stingray/crossspectrum.py` 2594-2613: the colours (not their errors), and the object afterwards. Without columns, there is nothing to unpack in line 2612. -/
def powerColors (d : Dyn K) (edges : List K) (excl : List (K × K)) (noise : K) : Except PyErr (List (Option K × Option K) × Dyn K) :=
  match d.cols.mapM (columnColors d edges excl noise) with
  | .error e => .error e
  | .ok [] => .error .valueError
  | .ok out => .ok (out.map Prod.fst, { d with cols := out.map Prod.snd })

/-- One turn of the loop of `compute_rms`, `stingray/crossspectrum.py` 2659-2668. -/
def columnRms [FloorRing K] (sqrt : K → K) (d : Dyn K) (lo hi noise : K) (col : List K) : Except PyErr (K × Option K) :=
  rmsUnnorm sqrt (pick (d.freq.map fun f => decide (lo ≤ f ∧ f ≤ hi)) (col.map fun p => p / d.conv)) d.nphots (.const d.df) (.const d.m) (some (noise / d.conv)) (some d.segmentSize) .frac

/-- `compute_rms(min_freq, max_freq, poisson_noise_level)`, `stingray/crossspectrum.py` 2643-2673, for a dynamical power spectrum, with one `m` for all frequencies. -/
def computeRms [FloorRing K] (sqrt : K → K) (d : Dyn K) (lo hi noise : K) : Except PyErr (List (K × Option K)) := d.cols.mapM (columnRms sqrt d lo hi noise)

end Stingray.DynColors

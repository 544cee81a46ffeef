import Verif.Model.CrossErrors

/-!
# Coherence, lags and uncertainties of cross spectra: `stingray/crossspectrum.py`

`numpy.sqrt`, `numpy.angle` and `pi` are parameters.  NaN is `none`.
-/

namespace Stingray.Fourier

variable {K : Type} [Field K] [LinearOrder K]

/-- One frequency of a cross spectrum: frequency, cross power (`unnorm_power`), the powers of the two channels
(`pds1.unnorm_power` and `pds2.unnorm_power`), and the number of averaged powers (`m`; a number for the whole spectrum is
the same at each frequency). -/
structure CrossBin (K : Type) where
  freq : K
  c : Cx K
  p1 : K
  p2 : K
  m : K
  deriving DecidableEq

/-- What cross spectra know besides their arrays: the time resolution, the number of bins of a segment (`n`), the photons of
the two channels in a segment, `nph`, `mean`, `variance`, `norm` and `channels_overlap`. -/
structure CrossInfo (K : Type) where
  dt : K
  n : K
  nph1 : K
  nph2 : K
  nph : K
  mean : K
  variance : Option K
  norm : Norm
  overlap : Bool

/-- `Crossspectrum.coherence`, `stingray/crossspectrum.py` 998-1019: `self.n` is given as the number of averaged spectra. -/
def coherence (s : CrossInfo K) (l : List (CrossBin K)) : List K :=
  l.map fun b => rawCoherence b.c b.p1 b.p2 0 0 s.n 1

/-- The coherence of `AveragedCrossspectrum.coherence` at one frequency, `stingray/crossspectrum.py` 2115-2125.
`poisson_level(norm="none", n_ph=...)` is the number of photons. -/
def cohAt (s : CrossInfo K) (b : CrossBin K) : K := rawCoherence b.c b.p1 b.p2 s.nph1 s.nph2 s.n 1

/-- Its uncertainty, `stingray/crossspectrum.py` 2128-2130.  Simplification: a coherence is not negative (`cohAt` is not for
positive powers), and `m` is positive. -/
def cohErr (sqrt : K → K) (m coh : K) : K :=
  if coh = 0 then 0 else sqrt 2 * coh * (1 - coh) / (sqrt coh * sqrt m)

/-- `AveragedCrossspectrum.coherence`, `stingray/crossspectrum.py` 2084-2132, without the warning. -/
def averagedCoherence (sqrt : K → K) (s : CrossInfo K) (l : List (CrossBin K)) : List K × List K :=
  (l.map (cohAt s), l.map fun b => cohErr sqrt b.m (cohAt s b))

/-- Whether `AveragedCrossspectrum.coherence` warns, `stingray/crossspectrum.py` 2109-2114. -/
def coherenceWarns (l : List (CrossBin K)) : Bool := l.any fun b => decide (b.m < 50)

/-- `phase_lag`, `stingray/crossspectrum.py` 1021-1028. -/
def phaseLag (angle : Cx K → K) (l : List (CrossBin K)) : List K := l.map fun b => angle b.c

/-- The classes a spectrum can have. -/
inductive SpecClass where
  | cross | averaged | other
  deriving DecidableEq

/-- `Crossspectrum.time_lag`, `stingray/crossspectrum.py` 1030-1045. -/
def timeLag (angle : Cx K → K) (pi : K) (cls : SpecClass) (l : List (CrossBin K)) : Except PyErr (List K) :=
  if cls = .other then .error .attributeError
  else .ok (List.zipWith (fun a (b : CrossBin K) => a / (2 * pi * b.freq)) (phaseLag angle l) l)

/-- The uncertainties of the powers at one frequency, `stingray/crossspectrum.py` 1799-1827, and that of the phase: the
default `sqrt(2 / m) * Nph / 2` where the real or the imaginary part has none. -/
def errAt (sqrt : K → K) (s : CrossInfo K) (nph : K) (b : CrossBin K) : Cx K × Option K :=
  let e := crossErrors sqrt b.c b.p1 b.p2 b.m s.nph1 s.nph2 s.overlap
  match e.re, e.im with
  | some r, some i => (⟨r, i⟩, e.phase)
  | _, _ => (⟨sqrt (2 / b.m) * nph / 2, sqrt (2 / b.m) * nph / 2⟩, e.phase)

/-- What `_calculate_errors` sets. -/
structure CrossUncertainties (K : Type) where
  unnormPowerErr : List (Cx K)
  powerErr : List (Cx K)
  lagErr : List (Option K)
  pds1UnnormErr : List K
  pds2UnnormErr : List K

/-- `_calculate_errors`, `stingray/crossspectrum.py` 1783-1842; `m1` and `m2` are the numbers of averaged powers of `pds1` and
`pds2`.  Their normalised powers are treated like the unnormalised ones (lines 1835-1836), and are not in the model. -/
def calculateErrors (sqrt : K → K) (s : CrossInfo K) (m1 m2 : K) (l : List (CrossBin K)) : Except PyErr (CrossUncertainties K) :=
  let nph := sqrt (s.nph1 * s.nph2)
  if s.nph ≠ nph then .error .assertionError
  else do
    let u := l.map fun b => (errAt sqrt s nph b).1
    let p ← normalizeCx sqrt s.norm s.dt s.n s.mean nph s.variance 0 .all u
    .ok { unnormPowerErr := u, powerErr := p, lagErr := l.map fun b => (errAt sqrt s nph b).2,
          pds1UnnormErr := l.map fun b => b.p1 / sqrt m1, pds2UnnormErr := l.map fun b => b.p2 / sqrt m2 }

/-- `AveragedCrossspectrum.time_lag`, `stingray/crossspectrum.py` 2141-2159, with `lagErr` computed by `_calculate_errors`. -/
def averagedTimeLag (angle : Cx K → K) (pi : K) (l : List (CrossBin K)) (lagErr : List (Option K)) : List K × List (Option K) :=
  (List.zipWith (fun a (b : CrossBin K) => a / (2 * pi * b.freq)) (phaseLag angle l) l,
   List.zipWith (fun e (b : CrossBin K) => e.map fun x => x / (2 * pi * b.freq)) lagErr l)

end Stingray.Fourier

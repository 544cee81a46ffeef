# Formal model of StingraySoftware/stingray in Lean 4

The plan was written before the proofs and is revised as the model grows. The sections from "Properties" on are
generated by `tools/design_md.py` from `properties.jsonl`, `MANIFEST.json`, `tools/how.json`, the comments in
`lean/Verif` and the axioms reported by Lean.

## Method

* One Lean module per modelled Python module (or group of functions) under `lean/Verif/Model/`, each definition carrying
  the file and line range it models and naming every simplification.
* `lean/Verif/Spec/`: small specifications (sets of times covered by intervals, rows selected by an index list, overlap
  lengths, Python's slice bounds, ...), independent of the model.
* `lean/Verif/Lemmas/`: helper lemmas. `lean/Verif/Props/`: the property theorems, each followed or preceded by an
  `example` showing a non-trivial case that satisfies its hypotheses.
* Times are elements of an arbitrary linear order (pure comparison code) or of an arbitrary linearly ordered field
  (code doing arithmetic). Finite IEEE doubles are a linear order, so pure comparison theorems hold for them verbatim;
  arithmetic theorems hold in exact arithmetic and rounding is not modelled.
* Python exceptions are values (`Except PyErr`). Warnings are not modelled. A mutated argument is returned beside the result.
* `argsort` is an arbitrary function that returns a sorted permutation (`KeySort`), so nothing rests on how ties are ordered.
  The Fourier transform, `median`, `sqrt`, `rint`, `isclose`, optimisers and random generators are parameters of the
  definitions, with hypotheses in the theorems where a property of them is needed; the transform is the defining sum where
  the property is about it (Parseval, cross correlation).
* Loops that do not visibly end (`while`) carry a fuel argument; theorems state how much suffices or hold for any.
* Where the code violates the property, the negation is proved with a concrete witness and the true part is
  kept in a theorem with suffix `_partial`. A property with a negation is never reported as `proved`.
* `seeded/LOG.jsonl` records the wrong programs the theorems were tested against; `seeded/run.py` is the harness.

## Trusted base

* Lean 4.33.0 kernel; axioms `propext`, `Classical.choice`, `Quot.sound` only (see "Axioms").
* The reading of the Python code into the model (nothing ties the model to the code except the cited lines).
* NumPy, SciPy, astropy and emcee primitives are modelled by their documented behaviour: `argsort`, `searchsorted`, `diff`,
  `cumsum`, `histogram`, `arange`, `concatenate`, `fftfreq`, boolean and slice indexing, `scipy.signal.correlate` and
  `correlation_lags`, `scipy.stats.binned_statistic`, parameters (free, fixed, tied) of astropy models.
* numba-compiled functions are taken to do what their Python source says.
* Floating-point rounding, NaN/inf (unless modelled as `none`), dtype conversions and performance are outside the model.

## Not modelled

* Reading and writing files (FITS, pickle, HDF5, astropy tables): only the selection and arithmetic on what has been read.
* Plotting (other than the hues and lines computed for plots of power colours), progress bars, logging, the `sampledata` and `datasets` helpers.
* the construction from light curves and event lists in `lombscargle.py`, `modeling/scripts.py`, the sampling of `bexvar.py`, the Lomb-Scargle variant of
  `multitaper.py`, reading of FITS headers in `mission_support`: not modelled, apart from functions listed under
  "What is modelled". Of `bispectrum.py` the cumulants and the window are modelled, not the two-dimensional Fourier transform.
* Random number generation and the distribution of simulated data: properties hold for every outcome of the generator.
* Numerical optimisation and MCMC: what is done with their result is modelled, not how it is found.

# Formal model of StingraySoftware/stingray in Lean 4

The plan was written before the proofs and is revised as the model grows. The sections from "Properties" on are
generated by `tools/design_md.py` from `properties.jsonl`, `MANIFEST.json`, `tools/how.json`, the comments in
`lean/Verif` and the axioms reported by Lean.

## Method

* One Lean module per modelled Python module (or group of functions) under `lean/Verif/Model/`, each definition carrying
  the file and line range it models and naming every simplification.
* `lean/Verif/Spec/`: small specifications (sets of times covered by intervals, rows selected by an index list, overlap
  lengths, Python's slice bounds, ...), independent of the model.
* `lean/Verif/Lemmas/`: helper lemmas. `lean/Verif/Props/`: the property theorems, each followed or preceded by an
  `example` showing a non-trivial case that satisfies its hypotheses.
* Times are elements of an arbitrary linear order (pure comparison code) or of an arbitrary linearly ordered field
  (code doing arithmetic). Finite IEEE doubles are a linear order, so pure comparison theorems hold for them verbatim;
  arithmetic theorems hold in exact arithmetic and rounding is not modelled.
* Python exceptions are values (`Except PyErr`). Warnings are not modelled. A mutated argument is returned beside the result.
* `argsort` is an arbitrary function that returns a sorted permutation (`KeySort`), so nothing rests on how ties are ordered.
  The Fourier transform, `median`, `sqrt`, `rint`, `isclose`, optimisers and random generators are parameters of the
  definitions, with hypotheses in the theorems where a property of them is needed; the transform is the defining sum where
  the property is about it (Parseval, cross correlation).
* Loops that do not visibly end (`while`) carry a fuel argument; theorems state how much suffices or hold for any.
* Where the code violates the property, the negation is proved with a concrete witness and the true part is
  kept in a theorem with suffix `_partial`. A property with a negation is never reported as `proved`.
* `seeded/LOG.jsonl` records the wrong programs the theorems were tested against; `seeded/run.py` is the harness.

## Trusted base

* Lean 4.33.0 kernel; axioms `propext`, `Classical.choice`, `Quot.sound` only (see "Axioms").
* The reading of the Python code into the model (nothing ties the model to the code except the cited lines).
* NumPy, SciPy, astropy and emcee primitives are modelled by their documented behaviour: `argsort`, `searchsorted`, `diff`,
  `cumsum`, `histogram`, `arange`, `concatenate`, `fftfreq`, boolean and slice indexing, `scipy.signal.correlate` and
  `correlation_lags`, `scipy.stats.binned_statistic`, parameters (free, fixed, tied) of astropy models.
* numba-compiled functions are taken to do what their Python source says.
* Floating-point rounding, NaN/inf (unless modelled as `none`), dtype conversions and performance are outside the model.

## Not modelled

* Reading and writing files (FITS, pickle, HDF5, astropy tables): only the selection and arithmetic on what has been read.
* Plotting (other than the hues and lines computed for plots of power colours), progress bars, logging, the `sampledata` and `datasets` helpers.
* the construction from light curves and event lists in `lombscargle.py`, `modeling/scripts.py`, the sampling of `bexvar.py`, the Lomb-Scargle variant of
  `multitaper.py`, reading of FITS headers in `mission_support`: not modelled, apart from functions listed under
  "What is modelled". Of `bispectrum.py` the cumulants and the window are modelled, not the two-dimensional Fourier transform.
* Random number generation and the distribution of simulated data: properties hold for every outcome of the generator.
* Numerical optimisation and MCMC: what is done with their result is modelled, not how it is found.

## Properties

For each property: how it is modelled and proved, its theorems with their statements in words, and the model functions the statements name.
Statements headed "negation" are proved disagreements between the code and the property; see also the list after this section.

### C01 GTI validation accepts exactly well-formed GTI lists

`checkGtis` as a guard returning `Except`; the accepted lists are characterised by an iff, by list induction. Status: proved.

* `Stingray.Gti.check_gtis_accepts_iff` (Verif/Props/GtiBasic): C01. `check_gtis` returns normally exactly for non-empty lists of forward-running intervals in which *every* interval ends no later than *every later one* starts; otherwise it raises `ValueError`.
* `Stingray.Gti.check_gtis_accepted_ordered` (Verif/Props/GtiBasic): C01. In an accepted list starts and stops are both in time order and no time is strictly inside two of the intervals.
* Model: `Gti.checkGtis`

### C02 Exact GTI mask selects a sample iff its bin lies inside a GTI

`gtiMaskComplete`, the loop over GTIs with `|=`; iff by induction on the GTI list. Status: proved.

* `Stingray.Gti.create_gti_mask_complete_iff` (Verif/Props/GtiMask): C02. `create_gti_mask_complete` selects sample `i` exactly when some GTI that is still at least `min_length` long after trimming the safe intervals contains the whole bin of the sample up to `epsilon` times the bin width. Rejected GTI lists are errors.
* Model: `Gti.checkGtis`, `Gti.gtiMaskComplete`, `Gti.insideComplete`

### C03 The default (compiled) GTI mask agrees with GTI membership

`gtiMaskJit`, the one-pass loop with its index state; loop invariant; false in general (a GTI can be skipped), exact when every GTI holds a sample. Status: partial.

* `Stingray.Gti.create_gti_mask_sound` (Verif/Props/GtiMask): C03 (soundness, full strength). Whatever the arguments, a sample selected by the default `create_gti_mask` has its whole bin inside a trimmed GTI, up to the tolerance.
* `Stingray.Gti.create_gti_mask_exact_partial` (Verif/Props/GtiMask): C03 (exactness, partial). Missing from the full property: the hypothesis that no whole GTI ends unseen, i.e. no two GTIs end between two consecutive samples and none before the first one (`hskip`, `hfirst`). Under it the mask is exact. The hypothesis cannot be dropped, see `create_gti_mask_not_exact`.
* `Stingray.Gti.create_gti_mask_exact_of_populated_partial` (Verif/Props/GtiMask): C03 (exactness, partial), in observable terms. If every GTI contains at least one whole sample bin the mask is exact.
* `Stingray.Gti.create_gti_mask_not_exact` (Verif/Props/GtiMask): C03 is false of the code as written: a sample that is well inside a GTI is masked out when a whole GTI falls between it and the sample before it.
* `Stingray.Gti.create_gti_mask_min_length_raises` (Verif/Props/GtiMask): C03. A positive `min_length` together with an explicit `dt` always raises (the bin width is passed to `numpy.max` as the axis).
* `Stingray.Gti.create_gti_mask_empty_raises` (Verif/Props/GtiMask): C03. Empty inputs are errors.
* Model: `Gti.checkGtis`, `Gti.createGtiMask`, `Gti.gtiMaskJit`, `Gti.gtiMaskJitLoop`, `Gti.gtisToMask`

### C04 Intersection of two GTI lists is the set intersection

`crossTwoGtis`, the concatenate/argsort algorithm for any sorting order of ties; sweep invariant; false for touching borders. Status: partial.

* `Stingray.Gti.cross_two_gtis_exact_partial` (Verif/Props/GtiCross): C04 (exactness, partial). For accepted lists of positive-length intervals with no start of one list equal to a stop of the other, `cross_two_gtis` returns separated intervals covering exactly the times covered by both lists, and every border of the result is a border of one of them. Missing from the full property: touching borders and zero-length GTIs, for which it is false (`cross_two_gtis_not_exact_touching`, `cross_two_gtis_not_exact_empty`).
* `Stingray.Gti.cross_two_gtis_complete` (Verif/Props/GtiCross): C04 (completeness). Even when borders touch, no time strictly inside both lists is lost and the result is a list of separated intervals.
* `Stingray.Gti.cross_two_gtis_not_exact_touching` (Verif/Props/GtiCross): C04 is false of the code as written when borders touch: `[[1,2],[5,6]]` and `[[2,3]]` have no time in common inside both, but `[2,3]` is returned as good time.
* `Stingray.Gti.cross_two_gtis_not_exact_empty` (Verif/Props/GtiCross): C04 is false of the code as written when a list contains a zero-length GTI (accepted by `check_gtis`): crossing `[[0,1],[5,5]]` with `[[2,6]]` returns `[2,5]`.
* Model: `KeySort.sort`, `argmax?`, `Gti.checkGtis`, `Gti.crossStep`, `Gti.crossTwoGtis`, `Gti.joinEqualGtiBoundaries`, `Gti.joinEqualLoop`, `Gti.lastStartBefore`, `stableSort`

### C05 cross_gtis is order-independent n-fold intersection

`crossGtis` as the fold of C04; induction on the number of lists. Status: partial.

* `Stingray.Gti.cross_gtis_exact_partial` (Verif/Props/GtiCross): C05 (partial). For any number of accepted lists of positive-length intervals, no two of which touch, `cross_gtis` covers a time iff every list does. Missing: touching borders (false, as for C04).
* `Stingray.Gti.cross_gtis_order_independent_partial` (Verif/Props/GtiCross): C05 (partial). Consequently the good times do not depend on the order of the lists, nor on the sort used.
* Model: `KeySort.sort`, `argmax?`, `Gti.checkGtis`, `Gti.crossGtis`, `Gti.crossGtisLoop`, `Gti.crossStep`, `Gti.crossTwoGtis`, `Gti.joinEqualGtiBoundaries`, `Gti.joinEqualLoop`, `Gti.lastStartBefore`

### C06 Bad time intervals are the complement of the good ones

`getBtis`; structural recursion, covered set and length. Status: proved.

* `Stingray.Gti.get_btis_complement` (Verif/Props/GtiBasic): C06. `get_btis(gtis, start, stop)` for accepted `gtis` inside `[start, stop]`: GTIs and BTIs together are exactly `[start, stop]`; no BTI reaches into the interior of a GTI or vice versa; the BTIs are themselves in order; exposures add up to `stop - start`.
* `Stingray.Gti.get_btis_default_limits` (Verif/Props/GtiBasic): C06. Without explicit limits the first start and the last stop are used.
* `Stingray.Gti.get_btis_empty` (Verif/Props/GtiBasic): C06. No GTIs at all: the whole interval is bad, and missing limits are an error.
* Model: `Gti.checkGtis`, `Gti.getBtis`

### C07 Union of two GTI lists

`joinGtis`; cumulative-sum sweep, invariant relating the running sum to membership. Status: partial.

* `Stingray.Gti.join_gtis_union` (Verif/Props/GtiJoin): C07. For every pair of lists accepted by `check_gtis` and all ways of sorting, `join_gtis` succeeds and covers exactly the times covered by one of the lists.
* `Stingray.Gti.join_gtis_rejects` (Verif/Props/GtiJoin): C07. A list that `check_gtis` rejects makes `join_gtis` fail.
* `Stingray.Gti.join_gtis_comm` (Verif/Props/GtiJoin): C07. The good time of the union is at least that of each list and does not depend on the order of the two lists.
* `Stingray.Gti.join_gtis_not_separated` (Verif/Props/GtiJoin): C07 (negation). With a zero-length GTI, the result of `join_gtis` can fail to be separated and time-ordered.
* Model: `KeySort.sort`, `Gti.appendGtis`, `Gti.checkGtis`, `Gti.checkSeparate`, `Gti.checkSeparateCore`, `Gti.cumsumFrom`, `Gti.flatten`, `Gti.joinEqualGtiBoundaries`, `Gti.joinEqualLoop`, `Gti.joinGtis`, `Gti.joinSweep`, `Gti.rollLeft`, `Gti.rollRight`, `Gti.select`, `Gti.taggedBoundaries`, `stableSort`

### C08 Separation test is exact

`checkSeparate`; iff for the true direction, witness for the false one. Status: partial.

* `Stingray.Gti.check_separate_iff_partial` (Verif/Props/GtiJoin): C08 (partial). For every pair of lists accepted by `check_gtis`, `check_separate` answers `True` exactly when all of one list comes (weakly) before all of the other, or the two lists share no time at all. In particular a `True` answer means no time is strictly inside both lists, and a `False` answer means some time belongs to both. Missing from the full property: a `False` answer may be caused by borders that merely touch (`check_separate_not_exact`).
* `Stingray.Gti.check_separate_symm` (Verif/Props/GtiJoin): C08. The order of the two lists does not matter.
* `Stingray.Gti.check_separate_not_exact` (Verif/Props/GtiJoin): C08 (negation). The full property fails: lists touching at one border in the middle are declared not separate although no time is strictly inside both.
* Model: `Gti.checkGtis`, `Gti.checkSeparate`, `Gti.checkSeparateCore`, `Gti.flatten`

### C09 Appending GTIs never creates overlaps or loses good time

`appendGtis` on top of C08 and C10. Status: partial.

* `Stingray.Gti.append_gtis_union` (Verif/Props/GtiJoin): C09. For every pair of accepted lists and every way of sorting by start: if `check_separate` says `True`, `append_gtis` returns a list covering exactly the union, with total exposure the sum of the two; if it says `False`, `append_gtis` raises `ValueError`.
* `Stingray.Gti.append_gtis_wellformed_partial` (Verif/Props/GtiJoin): C09 (partial). When moreover no GTI has zero length, the list returned by `append_gtis` consists of separated positive-length intervals in time order, and `check_gtis` accepts it. Missing: zero-length GTIs, for which it is false (`append_gtis_not_accepted`).
* `Stingray.Gti.append_gtis_not_accepted` (Verif/Props/GtiJoin): C09 (negation). With a zero-length GTI the appended list can be one that `check_gtis` rejects.
* `Stingray.Gti.append_gtis_touching_raises` (Verif/Props/GtiJoin): C09 (negation). Two lists sharing no good time except a border can still not be appended.
* Model: `KeySort.sort`, `Gti.appendGtis`, `Gti.checkGtis`, `Gti.checkSeparate`, `Gti.checkSeparateCore`, `Gti.flatten`, `Gti.joinEqualGtiBoundaries`, `Gti.joinEqualLoop`, `stableSort`

### C10 Merging equal boundaries does not change the good time

`joinEqualGtiBoundaries`; the pop loop as recursion. Status: proved.

* `Stingray.Gti.join_equal_gti_boundaries_spec` (Verif/Props/GtiBasic): C10. `join_equal_gti_boundaries` (exact equality, the default threshold) on an accepted list: same good times, same exposure, a gap between any two resulting intervals, boundaries taken from the input, and nothing left to join (idempotent).
* Model: `Gti.checkGtis`, `Gti.joinEqualGtiBoundaries`, `Gti.joinEqualLoop`

### C11 GTIs built from a condition cover exactly the True samples

`createGtiFromCondition` over the runs of C12. Status: proved.

* `Stingray.Gti.create_gti_from_condition_iff` (Verif/Props/Regions): C11. For arrays of equal length (at least 2) and a half-width for each sample, the GTIs returned by `create_gti_from_condition` are exactly: for each maximal run of true samples, from the lower edge of its first bin plus the first safe interval, to the upper edge of its last bin minus the second, unless that is negative in length.
* `Stingray.Gti.create_gti_from_condition_samples` (Verif/Props/Regions): C11. With no safe interval and bins that do not overlap, every true sample has its whole bin inside one returned GTI, and no point strictly inside the bin of a false sample is in any.
* `Stingray.Gti.create_gti_from_condition_default` (Verif/Props/Regions): C11 (default widths). Without widths, half of the spacing of the first two samples is taken for every sample.
* `Stingray.Gti.create_gti_from_condition_errors` (Verif/Props/Regions): C11 (error branches). Arrays of different lengths raise `StingrayError`; arrays with a single sample raise `IndexError` even when `dt` is given.
* Model: `Gti.contiguousRegions`, `Gti.createGtiFromCondition`, `Gti.gtiOfRegion`, `Gti.nonzeroIdx`, `Gti.reshapePairs`, `Gti.xorDiff`

### C12 contiguous_regions returns exactly the maximal runs of True

`contiguousRegions` via diff/nonzero; induction on the array. Status: proved.

* `Stingray.Gti.contiguous_regions_spec` (Verif/Props/Regions): C12. For every non-empty boolean array, `contiguous_regions` returns, in increasing order, half-open index ranges separated by at least one index, such that index `j` is in one of them exactly when `condition[j]` is true.
* `Stingray.Gti.contiguous_regions_maximal_runs` (Verif/Props/Regions): C12. The returned ranges are exactly the maximal runs of true.
* Model: `Gti.contiguousRegions`, `Gti.nonzeroIdx`, `Gti.reshapePairs`, `Gti.xorDiff`

### C13 Segments cut from GTIs stay inside GTIs

The `arange` of segment starts as a list indexed by natural numbers; membership and spacing of starts by arithmetic in an ordered field. Status: proved.

* `Stingray.Gti.time_intervals_from_gtis_iff` (Verif/Props/GtiSegments): C13. For every GTI list, positive segment size, step fraction and tolerance: `(s, e)` is returned by `time_intervals_from_gtis` iff it has the requested length, starts a whole number of steps after the start of some GTI and ends before the end of that GTI (plus the tolerance). So no segment leaves its GTI and none that fits is missing.
* `Stingray.Gti.time_intervals_from_gtis_disjoint` (Verif/Props/GtiSegments): C13. With `fraction_step = 1` and a well-formed GTI list the segments follow each other in time: each ends before the next starts, up to the tolerance.
* `Stingray.Gti.time_intervals_from_gtis_error` (Verif/Props/GtiSegments): C13 (error branch). It fails (assertion) exactly when no GTI is long enough.
* Model: `Gti.arange`, `Gti.segmentStarts`, `Gti.timeIntervalsFromGtis`

### C14 Binned segments stay inside their GTI and all have the same number of bins

Bin ranges by `searchsorted` over sorted times; monotonicity of the insertion point gives containment; witnesses for overlapping steps and for a GTI after all data. Status: partial.

* `Stingray.Gti.gti_border_bins_exact` (Verif/Props/GtiSegments): C14. For increasing times, the bins attributed by `gti_border_bins` to a GTI are exactly those whose whole bin is inside it (up to the tolerance `epsilon * dt`).
* `Stingray.Gti.bin_intervals_from_gtis_inside_partial` (Verif/Props/GtiSegments): C14 (partial). When the step is at least the segment length (`fraction_step = 1` included), for increasing times: every returned range has exactly `nbin` bins, all of them existing and wholly inside one and the same GTI (up to `epsilon * dt`). Missing: `fraction_step < 1`, for which it is false (`bin_intervals_overrun`).
* `Stingray.Gti.bin_intervals_from_gtis_complete` (Verif/Props/GtiSegments): C14 (completeness). No full segment is missed: if the GTI is not skipped as too short, `i` is its first bin, and the last bin of the `k`-th segment counted from `i` is inside the GTI, then that segment is returned.
* `Stingray.Gti.bin_intervals_from_gtis_disjoint` (Verif/Props/GtiSegments): C14. With a step at least as long as the segments, well-formed GTIs, and a tolerance below half a bin, the returned bin ranges do not overlap and are in increasing order.
* `Stingray.Gti.bin_intervals_overrun` (Verif/Props/GtiSegments): C14 (negation). With a moving window (`fraction_step = 1/4`, so a step of one bin for segments of 4 bins), segments are returned that run beyond the last bin of the GTI.
* `Stingray.Gti.gti_border_bins_raises` (Verif/Props/GtiSegments): C14 (negation). A GTI after the last sample raises `IndexError` although another GTI has data.
* Model: `searchsortedLeft`, `Gti.flatten`, `Gti.gtiBorderBins`, `Gti.gtiBorderBinsOne`, `Gti.arangeNat`, `Gti.binIntervalsFromGtis`, `Gti.calculateSegmentBinStart`

### C15 Splitting GTIs by exposure loses nothing

The splitting loop as structural recursion over GTIs; exposure is additive over the pieces. Status: partial.

* `Stingray.Gti.split_gtis_at_indices_concat` (Verif/Props/GtiSegments): C15. For every list of non-decreasing indices (other than the empty list and `[0]`, which raise `IndexError`), the pieces returned by `split_gtis_at_indices` put one after the other are the input list.
* `Stingray.Gti.split_gtis_by_exposure_preserves` (Verif/Props/GtiSegments): C15. For forward-running GTIs, a positive exposure per chunk, and any rounding to a nearest integer: `split_gtis_by_exposure` succeeds, and the pieces together cover exactly the input and have its total exposure; they are the input GTIs themselves unless there are fewer GTIs than chunks.
* `Stingray.Gti.split_gtis_by_exposure_sep_raises` (Verif/Props/GtiSegments): C15 (negation). With `new_interval_if_gti_sep` and no gap that large, `split_gtis_by_exposure` raises `IndexError` instead of returning the pieces.
* Model: `Gti.splitGtisAtIndices`, `Gti.splitLoop`, `searchsortedLeft`, `Gti.arange`, `Gti.cutGti`, `Gti.exposureEdges`, `Gti.splitGtisByExposure`, `Gti.findLargeBtis`, `Gti.findLargeBtisLoop`, `Gti.splitGtisByExposureSep`

### C16 Unbinned segment indices select exactly the events of a segment

`searchsorted` bounds on both sides; an event index is in the range iff its time is in the segment. Status: proved.

* `Stingray.Gti.segment_indices_unbinned_exact` (Verif/Props/GtiSegments): C16. For time-sorted events, the indices generated for a segment `[s, e)` select exactly the events with `s ≤ t < e`, in order.
* `Stingray.Gti.segment_indices_unbinned_disjoint` (Verif/Props/GtiSegments): C16. Segments that do not overlap in time never share an event: their index ranges do not overlap either.
* `Stingray.Gti.segment_indices_unbinned_unsorted` (Verif/Props/GtiSegments): C16 (error branch). Unsorted events are rejected.
* Model: `searchsortedLeft`, `Gti.arange`, `Gti.segmentIndicesUnbinned`, `Gti.segmentStarts`, `Gti.timeIntervalsFromGtis`

### C17 Non-paralyzable dead time keeps a maximal dead-time-free chain

The event loop as a recursion carrying the last kept time; invariant: kept chain is spaced and each dropped event is within the dead time of a kept one. Status: proved.

* `Stingray.Filters.non_paralyzable_exact` (Verif/Props/Filters): C17. For every non-empty time-ordered list of events, each with its own dead time, an event survives the non-paralyzable filter iff it arrives after the end of the dead time of every earlier survivor.
* `Stingray.Filters.non_paralyzable_in_words` (Verif/Props/Filters): C17. In words: the first event survives; survivors are at least one dead time apart; a rejected event arrived within the dead time of some earlier survivor.
* Model: `Filters.nonParalyzableMask`, `Filters.nonparCore`, `Filters.nonparLoop`

### C18 Paralyzable dead time keeps an event iff no earlier event is too close

`diff > deadtime` on the sorted times; iff by induction on the list; witness for equal times. Status: partial.

* `Stingray.Filters.paralyzable_exact_partial` (Verif/Props/Filters): C18 (partial). With the same dead time for all events, an event survives the paralyzable filter iff no earlier event (accepted or not) arrived within the dead time before it. Missing: a dead time that varies from event to event, for which it is false (`paralyzable_variable_wrong`).
* `Stingray.Filters.paralyzable_variable_wrong` (Verif/Props/Filters): C18 (negation). With variable dead times, an event inside the dead time of an earlier event is kept, because only the immediately preceding one is looked at.
* Model: `Filters.paralyzableMask`

### C19 Dead time filtering with a background only removes events

Background events are merged by any sort, filtered, and the source mask is read off; sublist and alignment proofs. Status: proved.

* `Stingray.Filters.filter_for_deadtime_sublist` (Verif/Props/Filters): C19. Whatever the background, dead time values and kind of dead time, the result is a sublist (same order, nothing added) of the input events.
* `Stingray.Filters.filter_for_deadtime_trivial` (Verif/Props/Filters): C19. Zero dead time returns the input unchanged, negative dead time raises `ValueError`, with or without background.
* `Stingray.Filters.get_deadtime_mask_no_bkg` (Verif/Props/Filters): C19. Without background, time-ordered input, fixed positive dead time: the mask returned is the one of the specification.
* `Stingray.Filters.filter_for_deadtime_bkg` (Verif/Props/Filters): C19. With a background, time-ordered source events and a fixed positive dead time: source and background are merged in time order, the dead time acts on the merged list as specified, and what is returned is exactly the source events that survive.
* `Stingray.Filters.filter_for_deadtime_bkg_monotone` (Verif/Props/Filters): C19. For paralyzable dead time, adding background events never makes the set of surviving source events larger.
* Model: `KeySort.sort`, `Filters.DtOut.mask`, `Filters.filterForDeadtime`, `Filters.getDeadtimeMask`, `Filters.nonParalyzableMask`, `Filters.nonparCore`, `Filters.nonparLoop`, `Filters.paralyzableMask`, `Filters.select`, `Gti.select`, `Filters.DtOut.ufEvents`

### C20 Linear rebinning is overlap-weighted and conserves the signal

`rebin_data` as a loop over output bins with fractional edges; telescoping of the overlaps; sum conservation by induction. Status: proved.

* `Stingray.Rebin.rebin_data_sum` (Verif/Props/Rebin): C20. With method `sum`, output bin `i` covers `[e 0 + i dx_new, e 0 + (i+1) dx_new]` and its value is the sum over the input bins of `y` times the fraction of the input bin inside it. There are as many output bins as fit completely.
* `Stingray.Rebin.rebin_data_covered` (Verif/Props/Rebin): C20. The output bins together hold the part of the input that they cover: nothing is counted twice or lost between them.
* `Stingray.Rebin.rebin_data_conserves` (Verif/Props/Rebin): C20. When the output bins tile the whole input, the total is conserved exactly.
* `Stingray.Rebin.rebin_data_mean` (Verif/Props/Rebin): C20. With method `mean`, output bin `i` is the mean of `y` weighted by the fraction of each input bin inside it.
* `Stingray.Rebin.rebin_data_abscissae` (Verif/Props/Rebin): C20. The reported abscissae follow the convention of the input: if input abscissa `j` is the centre of its bin, output abscissa `i` is the centre of output bin `i`. (The code lays the bins out from `x[0]` and shifts the result by half a first bin; `w` is the width of the first input bin.)
* `Stingray.Rebin.rebin_data_refuses` (Verif/Props/Rebin): C20. Asking for bins narrower than an input bin is refused.
* `Stingray.Rebin.rebin_data_dx_zero` (Verif/Props/Rebin): C20. A bin width of zero stands for an unknown one: the spacing of the abscissae is used.
* Model: `searchsortedLeft`, `Gti.arange`, `Rebin.Out.ybin`, `Rebin.diff`, `Rebin.dxOld`, `Rebin.loop`, `Rebin.loopBody`, `Rebin.prevAt`, `Rebin.rebinData`, `Rebin.sliceSum`, `Rebin.Out.xbin`

### C21 Rebinned errors are propagated in quadrature

The same loop with squared errors; witness for the code's handling of fractional edges. Status: partial.

* `Stingray.Rebin.rebin_data_err_not_quadrature` (Verif/Props/Rebin): C21 (negation). With errors 2 and 2 on two samples, the error on their sum comes out as 2, not as `√(2² + 2²)`.
* `Stingray.Rebin.rebin_data_err_partial` (Verif/Props/Rebin): C21. What the code computes: the square root of the overlap-weighted sum of the errors themselves (for sums; divided by the total weight for means). Missing from the property: the squares.
* `Stingray.Rebin.rebin_data_err_unit_partial` (Verif/Props/Rebin): C21. In particular, when every input error is 0 or 1 (equal to its own square) the quadrature formula does hold.
* Model: `searchsortedLeft`, `Gti.arange`, `Rebin.Out.ybinerr`, `Rebin.diff`, `Rebin.dxOld`, `Rebin.loop`, `Rebin.loopBody`, `Rebin.prevAt`, `Rebin.rebinData`, `Rebin.sliceSum`, `Rebin.Out.ybin`

### C22 Logarithmic rebinning partitions the input

`rebin_data_log`: bin edges by the geometric recurrence with fuel, classes by digitize; classes partition the index set. Status: proved.

* `Stingray.RebinLog.rebin_data_log_partition` (Verif/Props/RebinLog): C22. For increasing positive abscissae, `f ≥ 0` and a positive first width, `rebin_data_log` terminates, and there are edges `E 0 < E 1 < ... < E nb`, starting at half the first abscissa with widths `dx (1+f)^k`, ending just past the last abscissa, such that: bin `i` reports as number of samples exactly the samples in `[E i, E (i+1))`; every sample is in one of the bins (the numbers add up to the number of samples); `binx`, `biny` are the means over those samples and the error is `√(Σ err²)/n` over them.
* `Stingray.RebinLog.rebin_data_log_refuses` (Verif/Props/RebinLog): C22. Arrays of different lengths are refused.
* Model: `searchsortedRight`, `RebinLog.Out.binx`, `RebinLog.Out.biny`, `RebinLog.Out.binyErr`, `RebinLog.Out.nsamples`, `RebinLog.binNumber`, `RebinLog.binnedStatistic`, `RebinLog.growEdges`, `RebinLog.mean`, `RebinLog.rebinDataLog`, `RebinLog.rootSquaredMean`

### C23 Compiled histograms conserve events and agree with the definition

`histogram` loops as folds over events; the count of each bin is the length of a filter; conservation by exchange of sums. Status: proved.

* `Stingray.Hist.hist1d_weight_bin` (Verif/Props/Hist): C23. Bin `k` of the weighted histogram is the sum of the weights of exactly the samples in `[edge_k, edge_{k+1})`, for floating-point samples.
* `Stingray.Hist.hist1d_bin` (Verif/Props/Hist): C23. Bin `k` of the unweighted histogram counts exactly the samples in `[edge_k, edge_{k+1})`.
* `Stingray.Hist.hist1d_weight_total` (Verif/Props/Hist): C23. The entries add up to the total weight of the samples in `[lo, hi)`: nothing is lost or counted twice, and a sample equal to the upper end is left out.
* `Stingray.Hist.hist2d_weight_bin` (Verif/Props/Hist): C23. Two-dimensional histograms: cell `(k, l)` holds the total weight of exactly the samples whose first coordinate is in bin `k` and second in bin `l`.
* `Stingray.Hist.hist2d_bin` (Verif/Props/Hist): C23. Two-dimensional counts.
* Model: `Hist.coord`, `Hist.hist1dWeight`, `Hist.step1`, `Hist.hist1d`, `Hist.hist2dWeight`, `Hist.step2`, `Hist.hist2d`

### C24 nearest_power_of_two returns a power of two, never farther than the alternatives

Comparison of the two neighbouring powers with `Nat.log2`; witness for ties and small input. Status: partial.

* `Stingray.UtilsMisc.nearest_power_of_two_wrong` (Verif/Props/UtilsMisc): C24 (negation). `nearest_power_of_two(2^k + 2)` is `2^(k+1)`, although `2^k` is only 2 away; for every `k ≥ 3`. E.g. `nearest_power_of_two(10) = 16`.
* `Stingray.UtilsMisc.nearest_power_of_two_one` (Verif/Props/UtilsMisc): C24 (negation). `nearest_power_of_two(1)` is 2.
* `Stingray.UtilsMisc.nearest_power_of_two_partial` (Verif/Props/UtilsMisc): C24. What does hold: the result is a power of two, it is never more than twice `x`, and it is a nearest one whenever `x` is a power of two, or one more than a power of two, or not below the midpoint `3 * 2^m / 2` of its octave `2^m < x ≤ 2^(m+1)`. Missing: the lower half of each octave.
* Model: `UtilsMisc.bitLength`, `UtilsMisc.nearestPowerOfTwo`

### C25 find_nearest returns an element at minimum distance

Insertion point and its predecessor; minimal distance by sortedness. Status: proved.

* `Stingray.UtilsMisc.find_nearest_min` (Verif/Props/UtilsMisc): C25. For a sorted non-empty array, `find_nearest` succeeds for either `side` and returns an element of the array together with its (non-negative) index, and no element is closer to the value.
* `Stingray.UtilsMisc.find_nearest_empty` (Verif/Props/UtilsMisc): C25. An empty array is an error.
* Model: `searchsortedLeft`, `searchsortedRight`, `UtilsMisc.findNearest`, `UtilsMisc.pyGet`, `UtilsMisc.searchsorted`

### C26 n-d column round trip

Column names as lists of characters, splitting and regrouping as recursion; witness for colliding names. Status: partial.

* `Stingray.UtilsMisc.columns_round_trip_partial` (Verif/Props/UtilsMisc): C26. The round trip through columns gives the array back, for at most ten columns.
* `Stingray.UtilsMisc.columns_round_trip_wrong` (Verif/Props/UtilsMisc): C26 (negation). With eleven columns the round trip permutes the columns: the eleventh comes back third.
* `Stingray.UtilsMisc.columns_round_trip_empty` (Verif/Props/UtilsMisc): C26 (negation). An array with no columns cannot be put back together.
* Model: `UtilsMisc.colGet`, `UtilsMisc.colKey`, `UtilsMisc.joinColumns`, `UtilsMisc.lexLe`, `UtilsMisc.splitColumns`

### C27 apply_mask keeps all arrays aligned

Masking as `select`; one index list describes all arrays. Status: proved.

* `Stingray.TimeSeries.apply_mask_rows` (Verif/Props/TimeSeries): C27. `apply_mask` keeps exactly the rows at the `True` positions, in order: the new times, every new array attribute and the cached mask are the old ones at the same positions. Attributes not listed in `filtered_attrs` disappear; reference MJD and bin size are unchanged.
* `Stingray.TimeSeries.apply_mask_total` (Verif/Props/TimeSeries): C27 (errors and aliasing). A mask of the wrong length is an error; otherwise `apply_mask` succeeds. With `inplace` the series itself becomes the result; without it the rows of the series are left as they were.
* `Stingray.TimeSeries.set_time_aligned` (Verif/Props/TimeSeries): C27 (assigning times). New times of another length than the present ones are refused, so that an aligned series stays aligned whatever is assigned; nothing but the times changes.
* Model: `Gti.select`, `TimeSeries.TS.attrs`, `TimeSeries.TS.dt`, `TimeSeries.TS.gti`, `TimeSeries.TS.mask`, `TimeSeries.TS.mjdref`, `TimeSeries.TS.time`, `TimeSeries.applyMask`, `TimeSeries.gtiGet`, `TimeSeries.kept`, `TimeSeries.setTime`

### C28 Cached GTI mask is coherent

State of the object (times, GTIs, cached mask) with its setters; invariant over sequences of operations; witnesses for setters that keep the cache. Status: partial.

* `Stingray.TimeSeries.mask_coherent_partial` (Verif/Props/TimeSeriesState): C28 (partial). Start from a time-ordered series that has no cached mask, perform any history of mask and GTI reads, GTI assignments, shifts, changes of reference and `apply_gtis`: the mask read next is the mask of the GTIs and the times the series has then. Missing: assigning `None` to `gti` or a new array to `time`, for which it is false (`mask_stale_after_gti_none`, `mask_stale_after_time`).
* `Stingray.TimeSeries.mask_stale_after_gti_none` (Verif/Props/TimeSeriesState): C28 (negation). After reading the mask, assigning `gti = None` keeps the old mask: it is still used although the GTIs now cover every sample.
* `Stingray.TimeSeries.mask_stale_after_time` (Verif/Props/TimeSeriesState): C28 (negation). Assigning new times keeps the old mask.
* Model: `Gti.checkGtis`, `Gti.createGtiMask`, `Gti.gtiMaskJit`, `Gti.gtiMaskJitLoop`, `Gti.gtisToMask`, `Gti.select`, `TimeSeries.TS.attrs`, `TimeSeries.TS.dt`, `TimeSeries.TS.gti`, `TimeSeries.TS.mask`, `TimeSeries.TS.mjdref`, `TimeSeries.TS.time`, `TimeSeries.applyGtis`, `TimeSeries.applyMask`, `TimeSeries.changeMjdref`, `TimeSeries.gtiGet`, `TimeSeries.kept`, `TimeSeries.maskGet`, `TimeSeries.setGti`, `TimeSeries.setTime`, `TimeSeries.shift`

### C29 Changing the reference MJD preserves absolute times

Shift by an amount; algebra in a field, composition of shifts. Status: proved.

* `Stingray.TimeSeries.change_mjdref_absolute` (Verif/Props/TimeSeries): C29. `change_mjdref` leaves the absolute time `mjdref * 86400 + t` of every sample and of every GTI border unchanged, in order, and touches no other array.
* `Stingray.TimeSeries.change_mjdref_comp` (Verif/Props/TimeSeries): C29 (composition). Changing the reference to `a` and then to `b` is changing it to `b`; changing back restores the series.
* `Stingray.TimeSeries.change_mjdref_sequence` (Verif/Props/TimeSeries): C29 (sequences). Any sequence of reference changes is the same as the last one alone.
* Model: `TimeSeries.TS.attrs`, `TimeSeries.TS.dt`, `TimeSeries.TS.gti`, `TimeSeries.TS.mask`, `TimeSeries.TS.mjdref`, `TimeSeries.TS.time`, `TimeSeries.changeMjdref`, `TimeSeries.shift`

### C30 Arithmetic between series does not modify its operands

A two-object state; the operations return new states; witness for the in-place effects. Status: partial.

* `Stingray.TimeSeries.arithmetic_keeps_operands_partial` (Verif/Props/TimeSeriesState): C30 (partial). When both operands have the same reference and the same GTIs, `a + b` and the like leave the rows, the GTIs and the mask of both operands as they were (missing GTIs are filled in by reading them), and the result holds `op` of the two arrays, sample by sample. Missing: operands with different GTIs, for which it is false (`arithmetic_overwrites_operands`).
* `Stingray.TimeSeries.arithmetic_mjdref` (Verif/Props/TimeSeriesState): C30 (different references). With another reference MJD, the second operand is first referred to that of the first: the result is the one of the re-referenced series, and the second operand itself is left as it was.
* `Stingray.TimeSeries.arithmetic_overwrites_operands` (Verif/Props/TimeSeriesState): C30 (negation). When the GTIs differ, adding two series removes samples from *both operands* for good.
* Model: `KeySort.sort`, `argmax?`, `Gti.checkGtis`, `Gti.createGtiMask`, `Gti.crossStep`, `Gti.crossTwoGtis`, `Gti.gtiMaskJit`, `Gti.gtiMaskJitLoop`, `Gti.gtisToMask`, `Gti.joinEqualGtiBoundaries`, `Gti.joinEqualLoop`, `Gti.lastStartBefore`, `Gti.select`, `TimeSeries.TS.attrs`, `TimeSeries.TS.dt`, `TimeSeries.TS.gti`, `TimeSeries.TS.mask`, `TimeSeries.TS.mjdref`, `TimeSeries.TS.time`, `TimeSeries.applyGtis`, `TimeSeries.applyMask`, `TimeSeries.baseOperation`, `TimeSeries.changeMjdref`, `TimeSeries.gtiGet`, `TimeSeries.kept`, `TimeSeries.operation`, `TimeSeries.setGti`, `TimeSeries.shift`, `stableSort`

### C31 Indexing a time series follows Python list semantics

Python's slice bounds (`clipBound`) as a specification; index lists; witnesses for negative steps and end points. Status: partial.

* `Stingray.TimeSeries.getitem_slice_partial` (Verif/Props/TimeSeriesItems): C31 (slices, partial). `ts[a:b:c]` with a positive or absent step holds exactly the rows Python slicing selects: the positions from `a` (default 0) up to but excluding `b` (default the length), negative bounds counting from the end, in steps of `c` (default 1), in increasing order. Missing: negative steps with default bounds, for which it is false (`getitem_reversed_fails`).
* `Stingray.TimeSeries.getitem_int_partial` (Verif/Props/TimeSeriesItems): C31 (integers, partial). `ts[i]` holds exactly row `i`, or row `n + i` for negative `i`. Missing: `i = -1`, for which it is false (`getitem_minus_one_fails`).
* `Stingray.TimeSeries.getitem_rows` (Verif/Props/TimeSeriesItems): C31 (time series). Indexing a time series, when it succeeds, gives the rows of the plain indexing above; only the GTIs are new, and they are the intersection routine applied to the GTIs and the selected span.
* `Stingray.TimeSeries.getitem_int_gti` (Verif/Props/TimeSeriesItems): C31 (time series, integers). For bins of positive width well inside the GTIs (no GTI border touches the bin), `ts[i]` succeeds, and its GTI is the part of the bin inside the GTIs of the series.
* `Stingray.TimeSeries.getitem_minus_one_fails` (Verif/Props/TimeSeriesItems): C31 (negation). `ts[-1]` never works: the plain object is empty, and a time series raises `TypeError`, whatever the series.
* `Stingray.TimeSeries.getitem_reversed_fails` (Verif/Props/TimeSeriesItems): C31 (negation). `ts[::-1]` never works either.
* Model: `TimeSeries.TS.attrs`, `TimeSeries.TS.dt`, `TimeSeries.TS.gti`, `TimeSeries.TS.mask`, `TimeSeries.TS.mjdref`, `TimeSeries.TS.time`, `TimeSeries.gtiGet`, `TimeSeries.objGetItem`, `TimeSeries.sliceIdx`, `KeySort.sort`, `argmax?`, `Gti.checkGtis`, `Gti.crossStep`, `Gti.crossTwoGtis`, `Gti.joinEqualGtiBoundaries`, `Gti.joinEqualLoop`, `Gti.lastStartBefore`, `TimeSeries.getItem`, `TimeSeries.setGti`

### C32 Splitting by GTI and joining again restores the events inside GTIs

Selection by GTI and concatenation in order of GTIs; rows of the result. Status: partial.

* `Stingray.TimeSeries.split_by_gti_partial` (Verif/Props/TimeSeriesItems): C32 (partial). For time-ordered samples and valid GTIs, `split_by_gti` returns one series for each GTI that contains at least `min_points` whole bins, in order; the series of a GTI has that GTI alone and exactly the rows whose bin, *taken to be as wide as the median spacing of the samples*, is inside it. Missing: that width is not the bin size of the series; for event lists (bin size 0) events inside the GTI are lost (`split_by_gti_loses_events`).
* `Stingray.TimeSeries.split_no_doubling` (Verif/Props/TimeSeriesItems): C32 (no doubling). With bins of positive width no row can be in two pieces: a bin cannot be inside two GTIs.
* `Stingray.TimeSeries.split_by_gti_loses_events` (Verif/Props/TimeSeriesItems): C32 (negation). An event list (bin size 0) loses events that are inside the GTI: here both the first and the last of four.
* Model: `searchsortedLeft`, `Gti.checkGtis`, `Gti.createGtiMask`, `Gti.flatten`, `Gti.gtiBorderBins`, `Gti.gtiBorderBinsOne`, `Gti.gtiMaskJit`, `Gti.gtiMaskJitLoop`, `Gti.gtisToMask`, `Gti.select`, `TimeSeries.TS.attrs`, `TimeSeries.TS.dt`, `TimeSeries.TS.gti`, `TimeSeries.TS.mask`, `TimeSeries.TS.mjdref`, `TimeSeries.TS.time`, `TimeSeries.applyMask`, `TimeSeries.gtiGet`, `TimeSeries.kept`, `TimeSeries.setGti`, `TimeSeries.splitByGti`, `TimeSeries.splitPiece`

### C33 Sorting moves all attributes together

Any stable or unstable argsort; one permutation moves all columns. Status: proved.

* `Stingray.TimeSeries.sort_rows` (Verif/Props/TimeSeries): C33. Whatever `argsort` does with ties, `sort` applies one permutation of the positions to the times, to every array attribute and to the cached mask, and the new times are in increasing order (decreasing with `reverse`). Metadata are unchanged.
* Model: `KeySort.sort`, `TimeSeries.TS.attrs`, `TimeSeries.TS.dt`, `TimeSeries.TS.gti`, `TimeSeries.TS.mask`, `TimeSeries.TS.mjdref`, `TimeSeries.TS.time`, `TimeSeries.applyIdx`, `TimeSeries.gtiGet`, `TimeSeries.sort`

### C34 counts, count rate and their errors stay mutually consistent

Counts, rate and errors as a record with the setters; invariant; witnesses for setters that leave the other column stale. Status: partial.

* `Stingray.Lightcurve.counts_rate_consistent_partial` (Verif/Props/Lightcurve): C34 (partial). After any history of reads and writes of counts, count rate, errors, means and GTIs, with or without low-memory mode: `counts` is what was last assigned (count rates times `dt`), `countrate` is `counts / dt`, and, unless the GTIs were changed, `meancounts` is the mean of the counts inside the GTIs. Missing: `meanrate`, `meancounts` after a change of GTIs, and the errors, for which it is false (`meanrate_stale`, `meancounts_stale_after_gti`, `counts_err_depends_on_order`, `counts_err_stale`).
* `Stingray.Lightcurve.assignments_refuse` (Verif/Props/Lightcurve): C34 (refusals). Arrays of another length than the light curve are refused by every assignment.
* `Stingray.Lightcurve.meanrate_first_partial` (Verif/Props/Lightcurve): C34 (mean rate, partial). The mean rate of a light curve, when it is read for the first time, is the mean of the count rates inside the GTIs at that time. Missing: later reads, see `meanrate_stale`.
* `Stingray.Lightcurve.assigned_errors_consistent_partial` (Verif/Props/Lightcurve): C34 (errors, partial). Errors that were assigned (as `counts_err`, or as `countrate_err` equal to `e / dt`) stay in force through any history that does not assign errors again: `counts_err` reads `e` and `countrate_err` reads `e / dt`. Missing: errors that were not assigned.
* `Stingray.Lightcurve.meanrate_stale` (Verif/Props/Lightcurve): C34 (negation). `meanrate`, once read, is not refreshed when new counts are assigned.
* `Stingray.Lightcurve.meancounts_stale_after_gti` (Verif/Props/Lightcurve): C34 (negation). `meancounts`, once read, is not refreshed when the GTIs change.
* `Stingray.Lightcurve.counts_err_depends_on_order` (Verif/Props/Lightcurve): C34 (negation). For any non-empty Poisson light curve given in counts without errors: reading `countrate_err` first makes both errors zero, reading `counts_err` first gives the Poisson errors.
* `Stingray.Lightcurve.counts_err_stale` (Verif/Props/Lightcurve): C34 (negation). Errors that were computed from the counts are not refreshed when new counts are assigned.
* Model: `Gti.select`, `Lightcurve.LC.countrate`, `Lightcurve.LC.countrateErr`, `Lightcurve.LC.counts`, `Lightcurve.LC.countsErr`, `Lightcurve.LC.dt`, `Lightcurve.LC.inputCounts`, `Lightcurve.LC.lowMemory`, `Lightcurve.LC.mask`, `Lightcurve.LC.meancounts`, `Lightcurve.LC.meanrate`, `Lightcurve.LC.n`, `Lightcurve.LC.poisson`, `Lightcurve.getCountrate`, `Lightcurve.getCountrateErr`, `Lightcurve.getCounts`, `Lightcurve.getCountsErr`, `Lightcurve.getMeancounts`, `Lightcurve.getMeanrate`, `Lightcurve.init`, `Lightcurve.maskedMean`, `Lightcurve.run`, `Lightcurve.setCountrate`, `Lightcurve.setCountrateErr`, `Lightcurve.setCounts`, `Lightcurve.setCountsErr`, `Lightcurve.step`

### C35 make_lightcurve counts every photon once

Both counting methods as folds; each photon falls in exactly one bin; agreement of the two methods. Status: proved.

* `Stingray.Lightcurve.make_lightcurve_counts` (Verif/Props/Binning): C35. Whatever the arguments (`dt > 0`) and for both counting methods: there is a start `t0` and a number of bins `N` such that bin `i` is centred on `t0 + (i + 1/2) dt` and counts exactly the photons with `t0 + i dt <= t < t0 + (i+1) dt`, and the sum of the counts is the number of photons in `[t0, t0 + N dt)`. A given `tstart` is used as it is; without it the light curve starts at the earliest border of the GTIs, or at the first photon if there are none. A length that is not negative is covered up to less than one bin (and exceeded by at most 1% of a bin): the given `tseg`, else up to the last border of the GTIs, or to the last photon if there are none.
* `Stingray.Lightcurve.make_lightcurve_use_hist` (Verif/Props/Binning): C35 (both methods agree). `use_hist=True` and the default give the same light curve, whenever the default succeeds.
* Model: `KeySort.sort`, `Gti.arange`, `Gti.flatten`, `Lightcurve.bincount`, `Lightcurve.lcLength`, `Lightcurve.lcStart`, `Lightcurve.makeLightcurve`, `Lightcurve.npHistogram`, `Lightcurve.pyInt`, `Lightcurve.timebin`

### C36 Light curve to events and back

`from_lc` as a flatMap of replicates; counting back through C35. Status: partial.

* `Stingray.Lightcurve.from_lc_events` (Verif/Props/Binning): C36 (events). `from_lc` gives, for each bin in order, as many events as the bin has counts, at the time of the bin; negative and zero bins give none. In particular the number of events is the sum of the positive counts.
* `Stingray.Lightcurve.from_lc_no_counts` (Verif/Props/Binning): C36 (negation). A light curve without any positive count cannot be converted: the function raises, for every such light curve.
* `Stingray.Lightcurve.from_lc_to_lc` (Verif/Props/Binning): C36. Converting a light curve (evenly spaced bins, integer counts, GTIs that begin with the first bin and end with the last) to events and back gives the same bins, and the same counts where they are not negative.
* Model: `Lightcurve.fromLc`, `Lightcurve.fromLcLoop`, `Lightcurve.intSumNonZero`, `KeySort.sort`, `Gti.arange`, `Gti.flatten`, `Lightcurve.bincount`, `Lightcurve.lcLength`, `Lightcurve.lcStart`, `Lightcurve.makeLightcurve`, `Lightcurve.npHistogram`, `Lightcurve.pyInt`, `Lightcurve.timebin`

### C37 Energy filters are half-open and tile

Half-open filter as `select`; tiles by case analysis on the comparisons. Status: proved.

* `Stingray.Lightcurve.filter_energy_exact` (Verif/Props/Selection): C37 (band). The energy filter keeps, in order and in every array of the list, exactly the rows of the events with lower limit ≤ energy < upper limit.
* `Stingray.Lightcurve.energy_bands_tile` (Verif/Props/Selection): C37. Adjacent energy bands tile: for any increasing edges, the numbers of events that the filters of the successive bands keep add up to the number kept by the filter of the whole range.
* `Stingray.Lightcurve.energy_bands_disjoint` (Verif/Props/Selection): C37 (no event twice). No event is kept by two different bands of an increasing sequence of edges.
* Model: `Gti.select`, `Lightcurve.energyMask`, `Lightcurve.filterEnergyRange`

### C38 positive_fft_bins selects exactly the strictly positive Fourier frequencies

`fftfreq` as a list of rationals times a unit; positivity by parity of n. Status: proved.

* `Stingray.Fourier.positive_fft_bins_exact` (Verif/Props/FourierNorm): C38. For every number of bins and sampling time, the slice of the Fourier frequencies is exactly the strictly positive ones (with `include_zero`, the non-negative ones), and they come in strictly increasing order.
* Model: `Fourier.fftfreq`, `Fourier.positiveFftBins`, `Fourier.slice`

### C39 Normalisation and un-normalisation are inverse

Normalisation formulas in a field; algebra; witness where the inverse differs. Status: partial.

* `Stingray.Fourier.unnormalize_normalize_partial` (Verif/Props/FourierNorm): C39 (partial). Normalising and un-normalising are inverse of each other for `none`, `abs`, `frac` (with and without background) and `leahy` without a variance, whatever the powers, when the mean flux is the number of photons per bin. What is missing from C39: `leahy` with a variance, where it is false (next theorem).
* `Stingray.Fourier.unnormalize_leahy_variance` (Verif/Props/FourierNorm): C39 (negation). With the Leahy normalisation and a variance, un-normalising does not undo normalising, unless the number of photons happens to be the number of bins: the result is `nPh / nBin` times the power.
* Model: `Fourier.normalizer`, `Fourier.unnormalizer`

### C40 Poisson noise level is consistent with the normalisation

Poisson levels by the same formulas applied to the expected periodogram. Status: proved.

* `Stingray.Fourier.poisson_level_consistent` (Verif/Props/FourierNorm): C40. The Poisson noise level is what the normalisation makes of the noise power in un-normalised units, the number of photons `nPh`: for each normalisation, with rate `nPh / (nBin dt)` and background rate `background / dt`.
* `Stingray.Fourier.norm_relations` (Verif/Props/FourierNorm): C40 (relations). The normalisations differ by powers of the count rate: `leahy = frac * rate` and `abs = frac * rate ^ 2`.
* Model: `Fourier.normalizer`, `Fourier.poissonLevel`

### C41 Averaged periodogram is the mean over usable segments

The loop over segments as a fold with state; invariant: state equals the sum over usable segments; FFT an arbitrary function. Status: partial.

* `Stingray.Fourier.avg_pds_mean` (Verif/Props/FourierAverage): C41. The averaged power spectrum: whatever the transform and the segments (those that are not skipped have `n` bins), `m` is the number of usable segments, the frequencies are the strictly positive Fourier frequencies, the un-normalised power at each is the mean of the `|F_k|²` of the usable segments, and `nphots` is the mean of their sums, the variance the mean of the squares of their mean errors (if any); with a common mean the power is this mean normalised once with the mean flux, otherwise it is the mean of the powers normalised segment by segment. With no usable segment the result is `None`.
* `Stingray.Fourier.avg_pds_total` (Verif/Props/FourierAverage): C41 (success). For segments without errors and a known normalisation the average is always computed.
* `Stingray.Fourier.avg_pds_ignores_unusable` (Verif/Props/FourierAverage): C41 (no influence). Missing and all-zero segments (without errors) have no influence on the result.
* `Stingray.Fourier.avg_pds_zero_with_errors` (Verif/Props/FourierAverage): C41 (negation). When the segments come with errors, an all-zero segment does have an influence: it is averaged, so the power is halved here.
* Model: `Fourier.Cx.conj`, `Fourier.Cx.im`, `Fourier.Cx.re`, `Fourier.PdsAcc.cross`, `Fourier.PdsAcc.fgt0`, `Fourier.PdsAcc.freq`, `Fourier.PdsAcc.nAve`, `Fourier.PdsAcc.nBin`, `Fourier.PdsAcc.subcs`, `Fourier.PdsAcc.sumPh`, `Fourier.PdsAcc.unnorm`, `Fourier.PdsAcc.unnormSubcs`, `Fourier.PdsAcc.variance`, `Fourier.PdsTable.freq`, `Fourier.PdsTable.m`, `Fourier.PdsTable.mean`, `Fourier.PdsTable.n`, `Fourier.PdsTable.nphots`, `Fourier.PdsTable.power`, `Fourier.PdsTable.unnormPower`, `Fourier.PdsTable.variance`, `Fourier.Segment.data`, `Fourier.Segment.skipped`, `Fourier.addIfGiven`, `Fourier.addOrInit`, `Fourier.avgPds`, `Fourier.fftfreq`, `Fourier.normalizeRe`, `Fourier.normalizer`, `Fourier.pdsFinish`, `Fourier.pdsStep`, `Fourier.perSegment`, `Fourier.positiveFftBins`, `Fourier.slice`, `Fourier.sumOrInit`

### C42 The averaged auxiliary power spectra of a cross spectrum are averages

The same loop with auxiliary powers; witness for the missing division. Status: partial.

* `Stingray.Fourier.aux_pds_average_partial` (Verif/Props/FourierCross): C42 (partial). With `use_common_mean=True` the auxiliary power spectra are the normalised averages of the power spectra of the two channels over the usable pairs. What is missing from C42: `use_common_mean=False`, where it is false (below).
* `Stingray.Fourier.aux_pds_are_sums` (Verif/Props/FourierCross): C42 (negation). With `use_common_mean=False` the auxiliary power spectra are the sums, not the averages, of the normalised power spectra of the segments: they are too large by the number of segments, at every frequency and for every input.
* Model: `Fourier.CsAcc.cross`, `Fourier.CsAcc.fgt0`, `Fourier.CsAcc.freq`, `Fourier.CsAcc.nAve`, `Fourier.CsAcc.nBin`, `Fourier.CsAcc.pds1`, `Fourier.CsAcc.pds2`, `Fourier.CsAcc.subcs`, `Fourier.CsAcc.sumPh1`, `Fourier.CsAcc.sumPh2`, `Fourier.CsAcc.unnorm`, `Fourier.CsAcc.unnormPds1`, `Fourier.CsAcc.unnormPds2`, `Fourier.CsAcc.unnormSubcs`, `Fourier.CsAcc.var1`, `Fourier.CsAcc.var2`, `Fourier.CsAux.pds1`, `Fourier.CsAux.pds2`, `Fourier.CsOpts.fullspec`, `Fourier.CsOpts.norm`, `Fourier.CsOpts.powerType`, `Fourier.CsOpts.useCommonMean`, `Fourier.CsTable.mean1`, `Fourier.CsTable.mean2`, `Fourier.CsTable.nphots1`, `Fourier.CsTable.nphots2`, `Fourier.Cx.both`, `Fourier.Cx.conj`, `Fourier.Cx.im`, `Fourier.Cx.re`, `Fourier.Segment.data`, `Fourier.Segment.skipped`, `Fourier.addIfGiven`, `Fourier.addOrInit`, `Fourier.avgCs`, `Fourier.crossProduct`, `Fourier.csFinish`, `Fourier.csStep`, `Fourier.cutTo`, `Fourier.fftfreq`, ...

### C43 Quick and full averaged cross spectra coincide

Two loops over the same segments; simulation relation. Status: proved.

* `Stingray.Fourier.quick_eq_full` (Verif/Props/FourierCross): C43. For event lists (fluxes without errors) the quick version of the averaged cross spectrum returns exactly the table of the full version: frequencies, powers, normalised and not, `m`, `n`, photon numbers and means.
* Model: `Fourier.CsAcc.cross`, `Fourier.CsAcc.fgt0`, `Fourier.CsAcc.freq`, `Fourier.CsAcc.nAve`, `Fourier.CsAcc.nBin`, `Fourier.CsAcc.pds1`, `Fourier.CsAcc.pds2`, `Fourier.CsAcc.subcs`, `Fourier.CsAcc.sumPh1`, `Fourier.CsAcc.sumPh2`, `Fourier.CsAcc.unnorm`, `Fourier.CsAcc.unnormPds1`, `Fourier.CsAcc.unnormPds2`, `Fourier.CsAcc.unnormSubcs`, `Fourier.CsAcc.var1`, `Fourier.CsAcc.var2`, `Fourier.CsOpts.fullspec`, `Fourier.CsOpts.norm`, `Fourier.CsOpts.powerType`, `Fourier.CsOpts.useCommonMean`, `Fourier.Cx.both`, `Fourier.Cx.conj`, `Fourier.Cx.im`, `Fourier.Cx.re`, `Fourier.QuickAcc.fgt0`, `Fourier.QuickAcc.freq`, `Fourier.QuickAcc.nAve`, `Fourier.QuickAcc.nBin`, `Fourier.QuickAcc.sumPh1`, `Fourier.QuickAcc.sumPh2`, `Fourier.QuickAcc.unnorm`, `Fourier.Segment.data`, `Fourier.Segment.skipped`, `Fourier.addIfGiven`, `Fourier.addOrInit`, `Fourier.avgCs`, `Fourier.avgCsQuick`, `Fourier.crossProduct`, `Fourier.csFinish`, `Fourier.csStep`, ...

### C44 Cross spectrum of a series with itself is its power spectrum; exchanging channels conjugates

Algebra of complex products. Status: proved.

* `Stingray.Fourier.cross_self` (Verif/Props/FourierCross): C44 (self). The averaged cross spectrum of a channel with itself has no imaginary part, and its real part is the averaged power spectrum of the channel: un-normalised powers, frequencies and `m` are the same.
* `Stingray.Fourier.cross_exchange` (Verif/Props/FourierCross): C44 (exchange). Exchanging the two channels conjugates the averaged cross spectrum (un-normalised; also normalised, with a common mean and the whole complex power), and exchanges the auxiliary power spectra.
* Model: `Fourier.CsAcc.cross`, `Fourier.CsAcc.fgt0`, `Fourier.CsAcc.freq`, `Fourier.CsAcc.nAve`, `Fourier.CsAcc.nBin`, `Fourier.CsAcc.pds1`, `Fourier.CsAcc.pds2`, `Fourier.CsAcc.subcs`, `Fourier.CsAcc.sumPh1`, `Fourier.CsAcc.sumPh2`, `Fourier.CsAcc.unnorm`, `Fourier.CsAcc.unnormPds1`, `Fourier.CsAcc.unnormPds2`, `Fourier.CsAcc.unnormSubcs`, `Fourier.CsAcc.var1`, `Fourier.CsAcc.var2`, `Fourier.CsAux.unnormPds1`, `Fourier.CsAux.unnormPds2`, `Fourier.CsOpts.fullspec`, `Fourier.CsOpts.norm`, `Fourier.CsOpts.powerType`, `Fourier.CsOpts.useCommonMean`, `Fourier.CsTable.freq`, `Fourier.CsTable.m`, `Fourier.CsTable.unnormPower`, `Fourier.Cx.both`, `Fourier.Cx.conj`, `Fourier.Cx.im`, `Fourier.Cx.re`, `Fourier.PdsAcc.cross`, `Fourier.PdsAcc.fgt0`, `Fourier.PdsAcc.freq`, `Fourier.PdsAcc.nAve`, `Fourier.PdsAcc.nBin`, `Fourier.PdsAcc.subcs`, `Fourier.PdsAcc.sumPh`, `Fourier.PdsAcc.unnorm`, `Fourier.PdsAcc.unnormSubcs`, `Fourier.PdsAcc.variance`, `Fourier.PdsTable.freq`, ...

### C45 Parseval: integrated fractional rms power equals the fractional variance

Discrete Fourier transform over ℂ with roots of unity; Parseval by orthogonality. Status: proved.

* `Stingray.Fourier.parseval_frac` (Verif/Props/Parseval): C45. Averaged power spectrum of segments of `n` samples, fractional rms normalisation, with the discrete Fourier transform: the powers at the positive frequencies times the frequency resolution sum up to the mean variance of the segments over the square of the mean flux, minus, if `n` is even, the power at the Nyquist frequency.
* `Stingray.Fourier.parseval_frac_odd` (Verif/Props/Parseval): C45 (odd number of samples). Without the Nyquist frequency the sum is exactly the fractional variance.
* Model: `Fourier.Cx.conj`, `Fourier.Cx.im`, `Fourier.Cx.re`, `Fourier.PdsAcc.cross`, `Fourier.PdsAcc.fgt0`, `Fourier.PdsAcc.freq`, `Fourier.PdsAcc.nAve`, `Fourier.PdsAcc.nBin`, `Fourier.PdsAcc.subcs`, `Fourier.PdsAcc.sumPh`, `Fourier.PdsAcc.unnorm`, `Fourier.PdsAcc.unnormSubcs`, `Fourier.PdsAcc.variance`, `Fourier.PdsTable.df`, `Fourier.PdsTable.mean`, `Fourier.PdsTable.power`, `Fourier.Segment.data`, `Fourier.Segment.skipped`, `Fourier.addIfGiven`, `Fourier.addOrInit`, `Fourier.avgPds`, `Fourier.fftfreq`, `Fourier.normalizeRe`, `Fourier.normalizer`, `Fourier.pdsFinish`, `Fourier.pdsStep`, `Fourier.perSegment`, `Fourier.positiveFftBins`, `Fourier.slice`, `Fourier.sumOrInit`

### C46 Integrated power in a band

Trapezoid sums over a band; witnesses for band edges. Status: partial.

* `Stingray.Fourier.integrate_power_partial` (Verif/Props/FourierNorm): C46 (partial). For adjacent frequency bins and a band inside their span that meets at least two bins, the result is the integral of the power over the band, each bin weighted by the part of it inside the band. What is missing from C46: bands that meet a single bin, and bands that go beyond the span of the bins (negations below).
* `Stingray.Fourier.integrate_power_single_bin` (Verif/Props/FourierNorm): C46 (negation). A band inside a single bin gets the wrong weight (its second correction replaces the first): here half of the bin is in the band, and it is counted as three quarters.
* `Stingray.Fourier.integrate_power_outside` (Verif/Props/FourierNorm): C46 (negation, outside). A band that begins before the first bin, as `[0, …]` always does, gives that bin a weight above 1.
* Model: `Fourier.PowerBin.df`, `Fourier.PowerBin.f`, `Fourier.PowerBin.noise`, `Fourier.PowerBin.power`, `Fourier.fixFirst`, `Fourier.fixLast`, `Fourier.integratePower`

### C47 Raw coherence lies in [0, 1]

Cauchy-Schwarz for finite sums of complex products. Status: proved.

* `Stingray.Fourier.raw_coherence_nonneg` (Verif/Props/FourierCross): C47 (lower bound). The raw coherence is never negative, whatever the noise levels, when the product of the powers is positive.
* `Stingray.Fourier.raw_coherence_noise` (Verif/Props/FourierCross): C47 (noise). Up to 500 averages, two signals that are only noise and whose cross power has the value expected of it, `|C|² = P1 P2 / m`, have coherence 0: the bias is removed. Above 500 averages the bias, less than 1/500, is left in.
* `Stingray.Fourier.raw_coherence_bounds` (Verif/Props/FourierCross): C47. For the cross spectrum and the auxiliary power spectra averaged over the same segments, the raw coherence without noise subtraction is at most 1 at every returned frequency where both powers are not zero (and at least 0).
* `Stingray.Fourier.raw_coherence_single` (Verif/Props/FourierCross): C47 (one segment). For a single segment the raw coherence is exactly 1.
* Model: `Fourier.Cx.conj`, `Fourier.Cx.im`, `Fourier.Cx.re`, `Fourier.biasTerm`, `Fourier.rawCoherence`, `Fourier.CsAcc.cross`, `Fourier.CsAcc.fgt0`, `Fourier.CsAcc.freq`, `Fourier.CsAcc.nAve`, `Fourier.CsAcc.nBin`, `Fourier.CsAcc.pds1`, `Fourier.CsAcc.pds2`, `Fourier.CsAcc.subcs`, `Fourier.CsAcc.sumPh1`, `Fourier.CsAcc.sumPh2`, `Fourier.CsAcc.unnorm`, `Fourier.CsAcc.unnormPds1`, `Fourier.CsAcc.unnormPds2`, `Fourier.CsAcc.unnormSubcs`, `Fourier.CsAcc.var1`, `Fourier.CsAcc.var2`, `Fourier.CsAux.unnormPds1`, `Fourier.CsAux.unnormPds2`, `Fourier.CsOpts.fullspec`, `Fourier.CsOpts.norm`, `Fourier.CsOpts.powerType`, `Fourier.CsOpts.useCommonMean`, `Fourier.CsTable.unnormPower`, `Fourier.Cx.both`, `Fourier.Segment.data`, `Fourier.Segment.skipped`, `Fourier.addIfGiven`, `Fourier.addOrInit`, `Fourier.avgCs`, `Fourier.crossProduct`, `Fourier.csFinish`, `Fourier.csStep`, `Fourier.cutTo`, `Fourier.fftfreq`, `Fourier.normalizeCx`, ...

### C48 Multi-trial probabilities bound the single-trial ones

Real powers and logarithms; inequalities of Bernoulli type. Status: partial.

* `Stingray.Stats.multi_bounds` (Verif/Props/Trials): C48. For every single-trial probability and number of trials: `p <= p_multitrial <= min(1, n p)`.
* `Stingray.Stats.multi_accuracy` (Verif/Props/Trials): C48 (accuracy). The result differs from the probability of at least one success in `n` trials, `1 - (1 - p)^n`, only by the Bonferroni approximation: it is never smaller, and larger by at most `(n p)² / 2`, and only when `n p < e^-7`.
* `Stingray.Stats.multi_of_single` (Verif/Props/Trials): C48 (round trip). From a multi-trial probability to the single-trial one and back is the identity, whenever the former is not returned as NaN (too close to 1).
* `Stingray.Stats.single_of_multi_partial` (Verif/Props/Trials): C48 (inverse, partial). The other way round, with both probabilities in the same numerical regime: the single-trial probability comes back. Missing: the strip where `n p >= e^-7` and `1 - (1 - p)^n < e^-7`, where it does not (below), and the probabilities too close to 1, for which NaN is returned.
* `Stingray.Stats.single_of_multi_strip` (Verif/Props/Trials): C48 (negation of the inverse in the strip). For two trials and `p = e^-7 / 2` the two directions use different formulas: the probability that comes back is `p - p²/2`.
* Model: `Stats.logpMulti`, `Stats.pMulti`, `Stats.logpSingle`, `Stats.pSingle`

### C49 Pulsed fraction conversions are mutually inverse

Algebra with square roots. Status: proved.

* `Stingray.Stats.pulsed_fraction_inverse` (Verif/Props/Trials): C49. The conversions between sinusoidal amplitude, pulsed fraction and signal power are mutually inverse on their physical ranges: amplitudes and pulsed fractions between 0 and 1, positive numbers of counts, powers not negative.
* `Stingray.Stats.pulsed_fraction_range` (Verif/Props/Trials): C49 (ranges). The physical range is preserved: pulsed fractions of amplitudes in `[0, 1]` lie in `[0, 1]` and the other way round, and both conversions are increasing.
* Model: `Stats.aFromPf`, `Stats.aFromSsig`, `Stats.pfFromA`, `Stats.pfFromSsig`, `Stats.ssigFromA`, `Stats.ssigFromPf`

### C50 Classical p-value is a probability, decreasing in power

The loop of terms of the Poisson sum; real analysis of the partial exponential sum. Status: partial.

* `Stingray.Stats.classical_pvalue_sum_partial` (Verif/Props/ClassicalPvalue): C50 (partial). For a positive power with `power * nspec <= 30000` the classical p-value lies in `[0, 1]` and is the Poisson sum `e^{-x} Σ_{m<nspec} x^m / m!` at `x = power nspec / 2`, up to the terms dropped at the end of the sum: it is not larger, and smaller by at most the fraction `nspec / 10^15`. Missing from C50: zero power and `power * nspec > 30000` (false, below).
* `Stingray.Stats.classical_pvalue_single` (Verif/Props/ClassicalPvalue): C50 (few spectra). For a single spectrum the p-value is exactly `exp(-power / 2)`, for `0 < power <= 30000`.
* `Stingray.Stats.pvalue_sum_decreasing` (Verif/Props/ClassicalPvalue): C50 (monotone). The Poisson sum, of which the p-value is the computation, decreases strictly with the power and is 1 at power 0.
* `Stingray.Stats.classical_pvalue_zero` (Verif/Props/ClassicalPvalue): C50 (negation at zero power). At power 0 the result is NaN, not 1.
* `Stingray.Stats.classical_pvalue_many` (Verif/Props/ClassicalPvalue): C50 (negation for many spectra). Whenever `power * nspec > 30000` the result is 0, although the probability it stands for is at least `1 - power / 2`: with 60000 averaged spectra a power of 1, half the noise level, is reported as certainly not noise.
* `Stingray.Stats.classical_pvalue_errors` (Verif/Props/ClassicalPvalue): C50 (errors). Negative powers, non-finite arguments and numbers of spectra below 1 are refused.
* Model: `Stats.classicalPvalue`, `Stats.pavnosigfun`, `Stats.pvalLoop`, `Stats.pvalTerm`

### C51 Pulse phase is a fractional part

Floor and fractional part. Status: proved.

* `Stingray.Pulsar.pulse_phase_fract` (Verif/Props/Pulsar): C51. For every time, ephemeris and reference phase, the pulse phase is in `[0, 1)` and differs from the phase polynomial `ph0 + f t + fdot t²/2 + …` by an integer; without `to_1` it is the polynomial.
* `Stingray.Pulsar.pulse_phase_periodic` (Verif/Props/Pulsar): C51 (periodicity). For a constant frequency, adding any number of periods to the time leaves the phase unchanged.
* Model: `Pulsar.phaseLoop`, `Pulsar.pulsePhase`

### C52 Period/frequency derivative conversion is an involution

Formulas for derivatives of 1/x; algebra; witnesses for the sign and factor errors. Status: partial.

* `Stingray.Pulsar.p_to_f_involution_partial` (Verif/Props/Pulsar): C52 (partial). For up to four floating-point derivatives with a non-zero period, converting twice gives back the input. Missing: integers and more than four derivatives, where it is false (below).
* `Stingray.Pulsar.p_to_f_integers` (Verif/Props/Pulsar): C52 (negation, integers). With integer arguments the frequencies are truncated: a period of 2 s is converted into a frequency of 0 Hz.
* `Stingray.Pulsar.p_to_f_fifth` (Verif/Props/Pulsar): C52 (negation, higher derivatives). From the fifth on the derivatives are lost: the conversion of `p, pd, pdd, pddd, x` does not depend on `x` and has 0 in its place.
* `Stingray.Pulsar.p_to_f_reciprocal` (Verif/Props/Pulsar): C52 (period times frequency). For up to four derivatives the converted ones are those of the reciprocal: in the product of the series `f0 + f1 t + f2 t²/2 + f3 t³/6` and `p0 + p1 t + p2 t²/2 + p3 t³/6` the constant term is 1 and the coefficients of `t`, `t²` and `t³` vanish.
* `Stingray.Pulsar.p_to_f_rate` (Verif/Props/Pulsar): C52 (frequency is the derivative of the phase). To second order the converted frequency and derivative describe the same pulses: the phase `f t + fdot t²/2` of a pulsar whose period is `p + pd t` advances at the rate `1/(p + pd t)` up to terms of second order in `t`: `(f + fdot t)(p + pd t) = 1 - (pd t / p)²`.
* Model: `Pulsar.pToF`, `Pulsar.trunc`

### C53 Folding conserves events

Phases by fractional part, histogram by C23; sums by class. Status: proved.

* `Stingray.Pulsar.fold_events_exact` (Verif/Props/Folding): C53. Without exposure correction, for at least two events and a weight for each: the profile has in each phase bin the sum of the weights of the events whose phase falls in it (`⌊phase * nbin⌋ = i`, the phase being the fractional part of the phase polynomial at the time since the reference time), and it sums up to the total weight.
* `Stingray.Pulsar.fold_events_weights` (Verif/Props/Folding): C53 (weights). A single weight counts for all the events: the profile sums up to it times the number of events; an array of weights of another length than the events is refused.
* `Stingray.Pulsar.fold_events_few` (Verif/Props/Folding): C53 (fewer than two events). Folding one event, or none, raises an error.
* `Stingray.Pulsar.profile_fast_exact` (Verif/Props/Folding): C53 (fast profile). The compiled folding of the searches counts each event in the same way: bin `i` has the number of phases with `⌊phase * nbin⌋ = i`.
* Model: `Pulsar.FoldOpts.expocorr`, `Pulsar.FoldOpts.gti`, `Pulsar.FoldOpts.nbin`, `Pulsar.FoldOpts.refTime`, `Pulsar.FoldOpts.weights`, `Pulsar.Weights.expand`, `Pulsar.addLimit`, `Pulsar.divOpt`, `Pulsar.fmod1`, `Pulsar.foldEvents`, `Pulsar.gtiExposure`, `Pulsar.histUnit`, `Pulsar.phaseBins`, `Pulsar.phaseExposure`, `Pulsar.phaseLoop`, `Pulsar.pulsePhase`, `Pulsar.rawExposure`, `Pulsar.trunc`, `Pulsar.profileFast`

### C54 Phase exposure is the overlap of the GTIs with each phase bin

Overlap of each GTI with each phase bin as a sum over periods; witness for the error of the code. Status: partial.

* `Stingray.Pulsar.phase_exposure_overlap_partial` (Verif/Props/Folding): C54 (partial). For GTIs whose part inside `[start_time, stop_time]` begins at a non-negative time, the exposure of each phase bin before the normalisation is the sum over the GTIs meeting `[start_time, stop_time]` of the time, in periods, that the clipped GTI spends in that bin of any cycle. Missing: GTIs beginning before time 0 (false, below).
* `Stingray.Pulsar.phase_exposure_total_partial` (Verif/Props/Folding): C54 (total, partial). Under the same hypotheses the exposures before the normalisation sum up to the good time inside `[start_time, stop_time]`, in periods.
* `Stingray.Pulsar.phase_exposure_normalised` (Verif/Props/Folding): C54 (normalisation). The exposures are those before the normalisation divided by their maximum: if there is any exposure, each is at most 1, at least one is 1, and their ratios are unchanged.
* `Stingray.Pulsar.phase_exposure_negative` (Verif/Props/Folding): C54 (negation). For a GTI starting before time 0 (in folding: before the reference time) exposure is lost: with a single GTI covering the second half of a cycle before time 0, no bin receives any exposure and the result is NaN everywhere, while the second bin was exposed for half a period.
* Model: `Pulsar.addLimit`, `Pulsar.fmod1`, `Pulsar.gtiExposure`, `Pulsar.phaseBins`, `Pulsar.rawExposure`, `Pulsar.trunc`, `Pulsar.phaseExposure`

### C55 Cached-harmonic Z^2 equals the defining sum

Recurrence of sines and cosines of multiples; induction on the harmonic. Status: proved.

* `Stingray.Pulsar.z_binned_eq` (Verif/Props/ZSquared): C55. For every profile and every number of harmonics, the table of cached sines and cosines gives `Z²_n = 2 / Σ p · Σ_{k=1..n} |Σ_j p_j exp(2π i k φ_j)|²` with `φ_j = (j + 1/2) / N` the bin centres (0 if the profile sums up to zero).
* `Stingray.Pulsar.z_n_binned` (Verif/Props/ZSquared): C55 (one value). `z_n(profile, n, "binned")`, and 0 for an empty profile.
* `Stingray.Pulsar.z_gauss_eq` (Verif/Props/ZSquared): C55 (Gaussian errors). For a profile with constant error the same sum, times `2 / (N err²)`.
* `Stingray.Pulsar.z_events_eq` (Verif/Props/ZSquared): C55 (unbinned). For event phases, `Z²_n = 2 / N · Σ_{k=1..n} |Σ_j exp(2π i k φ_j)|²`.
* `Stingray.Pulsar.z_n_kinds` (Verif/Props/ZSquared): C55 (kinds). `z_n` of event phases, and of a profile with Gaussian errors, is the last harmonic sum with the normalisation of that kind of data; Gaussian data without an error and unknown kinds are refused; without data the result is 0.
* Model: `Pulsar.cachedHarmonics`, `Pulsar.runningSums`, `Pulsar.strided`, `Pulsar.zBinnedAll`, `Pulsar.zFastSums`, `Pulsar.zAll`, `Pulsar.zEventsAll`, `Pulsar.zGaussAll`, `Pulsar.zN`

### C56 Peak search returns one candidate per region above threshold, best first

Runs above threshold from C12, argmax in each run, any sort of the candidates. Status: proved.

* `Stingray.Pulsar.best_peaks_spec` (Verif/Props/Folding): C56. For every statistic and threshold, and every sorting: the result lists, by decreasing statistic, one sample for each maximal run of samples with `stat >= threshold`, namely the first of those with the maximum statistic in the run.
* `Stingray.Pulsar.best_peaks_none` (Verif/Props/Folding): C56 (nothing above the threshold). With no sample above the threshold the result is empty.
* Model: `KeySort.sort`, `argmax?`, `Pulsar.bestOf`, `Pulsar.searchBestPeaks`, `Gti.contiguousRegions`, `Gti.nonzeroIdx`, `Gti.reshapePairs`, `Gti.xorDiff`

### C57 Folding searches use every event

Loop over segments; witness for the events lost at the end. Status: partial.

* `Stingray.Pulsar.folding_search_drops_last` (Verif/Props/Folding): C57 (negation). With the default `segment_size` the statistic, at every trial, is computed without the last event (and the events at the same time): only on those strictly before it, and nothing at all is computed when these span less than a fifth of the observation.
* `Stingray.Pulsar.folding_search_segments_partial` (Verif/Props/Folding): C57 (segments, partial). With an explicit segment size `s`, at most the length of the observation: the result is the mean, over the segments whose events span at least `s/5`, of the statistic of the phases of the events of the segment; the segment `i` has the events with `i s ≤ t - t0 < (i + 1) s`. Missing: events at the end of the last segment, if this ends at the last event, are in no segment.
* Model: `Pulsar.foldSegment`, `Pulsar.foldingSearch`, `Pulsar.pulsePhaseFast`

### C58 Dead-time rate conversions are inverse

Algebra in an ordered field. Status: proved.

* `Stingray.DeadTime.r_in_r_det` (Verif/Props/DeadTimeRate): C58. For a positive incident rate `r` and any dead time `td >= 0`, `r_det(td, r) = r / (1 + r td)`: it is positive, at most `r`, below `1 / td` (the detector is never dead all the time), and `r_in` recovers `r` from it.
* `Stingray.DeadTime.r_det_r_in` (Verif/Props/DeadTimeRate): C58 (the other way). Any detected rate between 0 and `1 / td` is the one detected from the incident rate `r_in`.
* `Stingray.DeadTime.r_det_strict_mono` (Verif/Props/DeadTimeRate): C58 (monotone). A source with a larger incident rate has a larger detected rate.
* `Stingray.DeadTime.rate_edges` (Verif/Props/DeadTimeRate): C58 (edges). A zero rate raises in both directions, a detected rate of exactly `1 / td` raises, and one above it gives a negative "incident rate" without any error.
* Model: `DeadTime.pyDiv`, `DeadTime.rDet`, `DeadTime.rIn`

### C59 Changing normalisation is history independent

Sequences of normalisation changes as a list; induction: the state depends on the last one only. Status: proved.

* `Stingray.Spectrum.to_norm_consistent` (Verif/Props/Spectrum): C59. `to_norm` gives an object with the requested normalisation, whose data and unnormalised powers are those of the original, and which is consistent with that normalisation whenever the original was consistent with its own: its powers and uncertainties, and those of the attached power spectra, are exactly the normalised unnormalised ones.
* `Stingray.Spectrum.to_norm_path` (Verif/Props/Spectrum): C59 (no memory). Changing the normalisation of a consistent object to `a` and then to `b` gives the same object as changing it to `b` at once; in particular going back to the original normalisation gives the original object.
* `Stingray.Spectrum.to_norm_errors` (Verif/Props/Spectrum): C59 (errors). An unknown normalisation raises a `ValueError` and an object with powers is not touched; a known one succeeds for Poisson data.
* Model: `Fourier.Cx.both`, `Fourier.Cx.im`, `Fourier.Cx.re`, `Fourier.normalizeCx`, `Fourier.normalizer`, `Spectrum.Powers.nph`, `Spectrum.Powers.power`, `Spectrum.Powers.powerErr`, `Spectrum.Powers.unnormPower`, `Spectrum.Powers.unnormPowerErr`, `Spectrum.Powers.variance`, `Spectrum.SpecObj.dt`, `Spectrum.SpecObj.n`, `Spectrum.SpecObj.norm`, `Spectrum.SpecObj.powerType`, `Spectrum.SpecObj.subs`, `Spectrum.renormalize`, `Spectrum.toNorm`

### C60 Rebinning a dynamical spectrum in time does not alter the original

Array sharing modelled by an explicit store; witness. Status: partial.

* `Stingray.Spectrum.rebin_by_n_partial` (Verif/Props/Spectrum): C60 (partial). Rebinning a dynamical spectrum by `n ≥ 2` intervals gives one column per complete group of `n` columns: its average, or its sum with `method="sum"`; the times are the averages of the times of the group, and the time resolution and the number of averaged powers are multiplied by `n`. `n = 1` gives a copy and `n < 1` raises. Missing: that the original object is unchanged (false, below).
* `Stingray.Spectrum.rebin_by_n_original` (Verif/Props/Spectrum): C60 (the original). What the call does to the original object: the first column of every group of `n` is replaced by the value of the group, and that of the last, incomplete one by the sum of what it has.
* `Stingray.Spectrum.rebin_by_n_twice` (Verif/Props/Spectrum): C60 (negation). So the original changes, and the same call made twice gives two different results.
* Model: `Spectrum.DynSpec.cols`, `Spectrum.DynSpec.dt`, `Spectrum.DynSpec.m`, `Spectrum.DynSpec.time`, `Spectrum.RebinState.binTime`, `Spectrum.RebinState.cols`, `Spectrum.RebinState.count`, `Spectrum.RebinState.picked`, `Spectrum.RebinState.start`, `Spectrum.RebinState.times`, `Spectrum.rebinByN`, `Spectrum.rebinStep`

### C61 trace_maximum stays within the requested frequency range

Argmax over a selected slice; witness for the shifted index. Status: partial.

* `Stingray.Spectrum.trace_maximum_partial` (Verif/Props/Spectrum): C61 (partial). For every spectrum, the channel returned has the largest power among the frequencies in the range. If no frequency outside the range has exactly that power, the channel is in the range and it is the first such. An empty range raises. Missing: spectra where a channel out of the range has the same power as the maximum in the range (false, below).
* `Stingray.Spectrum.trace_maximum_outside` (Verif/Props/Spectrum): C61 (negation). With the same power at a lower frequency outside the range, the channel returned is outside the range.
* Model: `Spectrum.maxOf`, `Spectrum.traceOne`, `Spectrum.traceMaximum`

### C62 Simulator channels behave as a map with unique names

Association list with its operations; invariant over sequences. Status: proved.

* `Stingray.Simulator.channels_refine` (Verif/Props/Simulator): C62. After any sequence of `simulate_channel`, `delete_channel` and `delete_channels` calls, including failing ones, the names are unique, and the stored light curves are those of a finite map on which the same operations were carried out: storing succeeds exactly for new names, deleting exactly for existing ones (without repetitions), and a failing operation changes nothing.
* `Stingray.Simulator.get_channel_spec` (Verif/Props/Simulator): C62 (reading). `get_channel` returns the light curve the finite map has under the name, and raises for the other names; `count_channels` is the number of names.
* Model: `Simulator.chanRun`, `Simulator.chanStep`, `Simulator.deleteChannel`, `Simulator.deleteChannels`, `Simulator.deleteIndices`, `Simulator.simulateChannel`, `Simulator.getChannel`

### C63 Simulated light curves have the requested mean and rms

Mean and variance of an affine image of a list. Status: partial.

* `Stingray.Simulator.scaled_mean_rms` (Verif/Props/Simulator): C63. Without extra red noise (`red_noise=1`), for a simulated light curve that is not constant (`std`, the standard deviation, is not zero) the result has as many bins, its mean is exactly the requested one and its variance is exactly `(rms * mean)²`, or `rms²` when the requested mean is 0: the fractional rms is the requested one.
* `Stingray.Simulator.scaled_red_noise` (Verif/Props/Simulator): C63 (red noise). With extra red noise, any random integer that can be drawn gives a cut inside the long light curve, of the requested length; the mean is still exactly the requested one, and the variance is that of the cut relative to the one of the long light curve.
* `Stingray.Simulator.red_noise_rms` (Verif/Props/Simulator): C63 (negation). With extra red noise the rms of the result is not the requested one: the light curve is divided by the standard deviation of the long one (here a cut that happens to be constant).
* Model: `Simulator.extractAndScale`, `Simulator.mean`, `Simulator.takeRange`

### C64 Impulse-response filtering keeps the light curve length

Length of convolution modes and slicing. Status: partial.

* `Stingray.Simulator.impulse_response_partial` (Verif/Props/Simulator): C64 (partial). With an impulse response of at least two bins, mode 'same' gives as many samples as the signal has, sample `n` being `Σ_j h_j s_{n-j}`; mode 'filtered' gives those for which the response lies entirely over the signal, and mode 'full' all the `len(s) + len(h) - 1` samples. Missing: responses of a single bin (false, below).
* `Stingray.Simulator.impulse_response_one_bin` (Verif/Props/Simulator): C64 (negation). With a response of exactly one bin, such as a delta, modes 'same' and 'filtered' give an empty light curve, for every signal.
* Model: `Simulator.convolve`, `Simulator.impulseResponse`, `Simulator.pySlice`, `Simulator.sliceEnd`

### C65 Reading part of an event file selects exactly the requested time range

Selection by bounds over the events of the file; GTIs cut to the range. Status: partial.

* `Stingray.Io.rows_in_interval` (Verif/Props/Io): C65. For a file sorted in time, whatever rows are probed on the way (from the first to the last row, in order), the range of rows found for an interval of times holds exactly the events with `start ≤ t < stop`. The function succeeds exactly when the interval lies within the span of the events and the GTIs, and raises otherwise.
* `Stingray.Io.whole_file` (Verif/Props/Io): C65 (whole file). When the first list agrees with the GTIs of the file to a thousandth of a second, the whole file comes back as one part: all its events, shifted by `TIMEZERO`.
* `Stingray.Io.split_file_partial` (Verif/Props/Io): C65 (splitting, partial). Splitting a file by lists of GTIs (none of which leaves the span of the file), when the first list is not the list of GTIs of the file, gives one part per non-empty list, in order, with that list as GTIs and with all the events from the start of its first interval to the end of its last one. Missing: a first list equal to the GTIs of the file followed by others (false, below).
* `Stingray.Io.split_file_drops_lists` (Verif/Props/Io): C65 (negation). When the first list is that of the file, the others are ignored.
* Model: `searchsortedLeft`, `searchsortedRight`, `Io.getIdx`, `Io.timeEdges`, `Io.Chunk.times`, `Io.Reader.gti`, `Io.Reader.slice`, `Io.Reader.times`, `Io.Reader.timezero`, `Io.applyGtiLists`, `Io.chunkOf`, `Io.chunksOf`, `Io.gtiMax`, `Io.gtiMin`, `Io.sameGti`

### C66 split_numbers is lossless

Integer and fractional parts with a shift; algebra. Status: partial.

* `Stingray.Io.split_numbers_lossless` (Verif/Props/Io): C66. For every number and every shift, the two parts add up to the number exactly, the first is a multiple of `10^-shift`, the second is smaller than `10^-shift`, and neither has the sign opposite to the number.
* `Stingray.Io.split_numbers_array` (Verif/Props/Io): C66 (arrays). An array is split number by number; the caller's array is kept as it was when the shift is 0.
* `Stingray.Io.split_numbers_mutates` (Verif/Props/Io): C66 (negation). With another shift the caller's array is changed.
* Model: `Io.modf`, `Io.splitNumber`, `Io.splitArray`

### C67 Phase normalisation lands in (-0.5, 0.5]

Loop of subtractions with fuel; range by floor. Status: proved.

* `Stingray.Pulsar.normalize_phase_spec` (Verif/Props/Pulsar): C67. For every phase the loops end, after at most `n` rounds when `|p| <= n`, and the result is in `(-0.5, 0.5]` and differs from the phase by an integer: it is the only such number.
* `Stingray.Pulsar.normalize_phase_fuel` (Verif/Props/Pulsar): C67 (the loops end). More rounds do not change the result: the bound on the rounds is not what stops the loops.
* Model: `Pulsar.normalizePhase`, `Pulsar.phaseDown`, `Pulsar.phaseUp`

### C68 Reference band never overlaps the channel of interest

Masks of energy ranges; case analysis of overlaps. Status: partial.

* `Stingray.VarEnergy.ref_band_partial` (Verif/Props/VarEnergy): C68 (partial). For every channel `(c0, c1)` with `0 < c0 < c1` and every list of reference bands of positive length at non-negative energies accepted as intervals in order, with no reference band starting exactly where the channel starts or ending exactly where it ends, the result covers exactly the energies of the reference bands that are not strictly inside the channel. Missing from the full property: borders in common, and channels starting at zero, for which it fails (`ref_band_shared_border`, `ref_band_channel_from_zero`).
* `Stingray.VarEnergy.ref_band_shared_border` (Verif/Props/VarEnergy): C68 (negation). For a channel that is the whole reference band, or that starts where a reference band starts and contains it, the result is the reference band itself: exactly what was to be excluded.
* `Stingray.VarEnergy.ref_band_channel_from_zero` (Verif/Props/VarEnergy): C68 (negation). The same for a channel that starts at zero.
* Model: `KeySort.sort`, `argmax?`, `Gti.checkGtis`, `Gti.checkSeparate`, `Gti.checkSeparateCore`, `Gti.crossStep`, `Gti.crossTwoGtis`, `Gti.flatten`, `Gti.joinEqualGtiBoundaries`, `Gti.joinEqualLoop`, `Gti.lastStartBefore`, `VarEnergy.getNonOverlappingRefBand`, `VarEnergy.maxBorder`, `stableSort`

### C69 Overlap-save convolution equals direct convolution

Blocks of the input with overlap; index arithmetic on sums. Status: proved.

* `Stingray.Ols.ols_same` (Verif/Props/Ols): C69. For every signal, every non-empty filter, every block size and every transform length that is long enough, overlap-and-save gives the convolution of the whole signal with the filter, centred as in `scipy.signal.fftconvolve(x, h, mode='same')`: the result has the length of the signal and does not depend on the block size or on the transform length. A transform length that is too short, or blocks of size 0, are refused.
* Model: `Ols.fft`, `Ols.ifft`, `Ols.ols`, `Ols.olsLoop`, `Ols.olsStep`, `Ols.padEdges`, `Ols.prepareh`

### C70 Three-dimensional compiled histograms skip samples outside the range

Loop of the compiled 3-d histogram with its range test on each axis. Status: partial.

* `Stingray.Hist.hist3d_weight_bin_partial` (Verif/Props/Hist): C70. Three-dimensional histograms are right when every sample's third coordinate is inside its range. Missing: samples outside the third range, which should be skipped (see the negations).
* `Stingray.Hist.hist3d_bin_partial` (Verif/Props/Hist): C70. The same for histograms without weights: each cell holds the number of its samples.
* `Stingray.Hist.hist3d_counts_out_of_range` (Verif/Props/Hist): C70 (negation). A sample *below* the third range is counted in the last bin of that axis instead of being skipped.
* `Stingray.Hist.hist3d_fails_out_of_range` (Verif/Props/Hist): C70 (negation). A sample *above* the third range makes the call fail.
* Model: `Hist.coord`, `Hist.hist3dWeight`, `Hist.pyIndex`, `Hist.pyInt`, `Hist.step3`, `Hist.hist3d`

### C71 Weighted histograms add the weights up

Folds that add weights; sum by class. Status: partial.

* `Stingray.Hist.hist1d_weight_int_truncates` (Verif/Props/Hist): C71 (negation). With integer-typed samples the histogram array is an integer array, and fractional weights are rounded towards zero at every addition: two samples of weight 1/2 give 0, not 1.
* `Stingray.Hist.hist1d_weight_int_partial` (Verif/Props/Hist): C71. The weighted histogram is right when every weight is a whole number (no rounding takes place). Missing: fractional weights with integer samples.
* Model: `Hist.coord`, `Hist.hist1dWeight`, `Hist.pyInt`, `Hist.step1`

### C72 compute_bin puts each value in its bin

Bin index by floor, both for even and uneven edges; witness for the upper edge. Status: partial.

* `Stingray.Hist.compute_bin_below_first_edge` (Verif/Props/Hist): C72 (negation). A value below the first edge, by less than one bin, is put in bin 0 instead of being reported as outside.
* `Stingray.Hist.compute_bin_iff_partial` (Verif/Props/Hist): C72. For uniform edges `lo, lo + w, ..., lo + n w` and `x` not below `lo`, `compute_bin` returns `k` exactly when `x` is in the `k`-th bin, closed below, open above except for the last one; outside it returns `None`. Missing: `lo - w < x < lo`, where bin 0 is returned.
* Model: `Hist.computeBin`, `Hist.pyInt`

### C73 apply_gtis returns a series with the GTIs it applied

Masking, then the GTI list that is stored; witness for the stored list. Status: partial.

* `Stingray.TimeSeries.apply_gtis_inplace` (Verif/Props/TimeSeriesState): C73. In place, `apply_gtis` leaves the series with the new GTIs and with rows that are exactly those the mask of these GTIs selects.
* `Stingray.TimeSeries.apply_gtis_copy_keeps_old_gtis` (Verif/Props/TimeSeriesState): C73 (negation). With `inplace=False` the returned series has the filtered samples but the *old* GTIs, and so claims good time it has no samples for.
* Model: `Gti.checkGtis`, `Gti.createGtiMask`, `Gti.gtiMaskJit`, `Gti.gtiMaskJitLoop`, `Gti.gtisToMask`, `Gti.select`, `TimeSeries.TS.attrs`, `TimeSeries.TS.dt`, `TimeSeries.TS.gti`, `TimeSeries.TS.mask`, `TimeSeries.TS.mjdref`, `TimeSeries.TS.time`, `TimeSeries.applyGtis`, `TimeSeries.applyMask`, `TimeSeries.gtiGet`, `TimeSeries.kept`, `TimeSeries.setGti`

### C74 Series that compare equal have the same content

The comparison of attribute lists as in the code; witness of unequal series that compare equal. Status: partial.

* `Stingray.TimeSeries.eq_sound_partial` (Verif/Props/TimeSeriesState): C74 (partial). Equal series have the same GTIs, reference, bin size and arrays. Missing: the sample times, which are not compared (`eq_ignores_times`).
* `Stingray.TimeSeries.eq_ignores_times` (Verif/Props/TimeSeriesState): C74 (negation). Two series whose sample times differ compare equal.
* Model: `TimeSeries.TS.attrs`, `TimeSeries.TS.dt`, `TimeSeries.TS.gti`, `TimeSeries.TS.mask`, `TimeSeries.TS.mjdref`, `TimeSeries.TS.time`, `TimeSeries.eq`, `TimeSeries.gtiGet`

### C75 Equality is symmetric and independent of what has been read

The state of lazily initialised attributes; witness. Status: partial.

* `Stingray.TimeSeries.eq_symm_partial` (Verif/Props/TimeSeriesState): C75 (partial). Among series whose mask has not been read yet, equality is reflexive and symmetric. Missing: series with a cached mask (`eq_depends_on_reading_mask`).
* `Stingray.TimeSeries.eq_depends_on_reading_mask` (Verif/Props/TimeSeriesState): C75 (negation). Merely reading the mask of one of two identical series makes the comparison fail in one direction and succeed in the other.
* Model: `TimeSeries.TS.attrs`, `TimeSeries.TS.dt`, `TimeSeries.TS.gti`, `TimeSeries.TS.mask`, `TimeSeries.TS.mjdref`, `TimeSeries.TS.time`, `TimeSeries.eq`, `TimeSeries.gtiGet`, `Gti.checkGtis`, `Gti.createGtiMask`, `Gti.gtiMaskJit`, `Gti.gtiMaskJitLoop`, `Gti.gtisToMask`, `TimeSeries.maskGet`

### C76 Segment sizes are fitted to whole samples

Rounding to whole samples with `rint` as parameter. Status: proved.

* `Stingray.Lightcurve.fix_segment_size_bounds` (Verif/Props/Selection): C76. The fitted segment size is a whole number of samples; it exceeds the requested size by less than the tolerance times the sampling time, and falls short of it by less than one sampling time.
* `Stingray.Lightcurve.fix_segment_size_exact` (Verif/Props/Selection): C76 (idempotent). A segment size that already is a whole number of samples is not changed, whatever the tolerance.
* Model: `Lightcurve.fixSegmentSize`

### C77 Suggested bin times are compatible with the event list

Bound on the number of samples, algebra. Status: proved.

* `Stingray.Lightcurve.suggest_dt_multiple` (Verif/Props/Selection): C77. For an event list with time resolution `evdt`, the suggested bin time is a whole number (at least 1) of `evdt` unless it is already close to `evdt`; it is within half of `evdt` of the requested one whenever that is at least `evdt / 2`. For a list without a time resolution it is the requested one.
* Model: `Lightcurve.suggestCompatibleDt`

### C78 Joining light curves

Merging light curves by time; witness for the overlap handling. Status: partial.

* `Stingray.Lightcurve.join_samples_partial` (Verif/Props/Selection): C78 (partial). Joining two light curves (each without repeated times): the samples of the first come first, in order, those at times common to both averaged (errors combined); then those of the second at times that the first does not have. So every time of either appears exactly once, and without common times no sample changes. What is missing from C78: the result is not ordered in time (see the negation).
* `Stingray.Lightcurve.join_repeated_partial` (Verif/Props/Selection): C78 (repeated times, partial). Whatever times are repeated in either light curve, once the two have a time in common every time appears once in the joined one; and at a time that only the first light curve has, possibly many times, the joined one has the last of its samples.
* `Stingray.Lightcurve.join_not_sorted` (Verif/Props/Selection): C78 (negation). The joined light curve need not be in time order although both light curves are: with overlapping spans the new samples of the second are put after all those of the first.
* Model: `Lightcurve.join`, `Lightcurve.joinFirst`, `Lightcurve.joinInsert`

### C79 Integrated rms is the fractional standard deviation

Parseval (C45) applied to the rms integrals. Status: proved.

* `Stingray.Fourier.rms_is_fractional_std` (Verif/Props/Parseval): C79. The integrated fractional rms of the averaged power spectrum, without noise, is the square root of the mean variance over the squared mean flux (odd number of samples): the textbook definition of the fractional rms.
* `Stingray.Fourier.rms_unnorm_eq_norm` (Verif/Props/Parseval): C79 (normalisations agree). The rms computed from the un-normalised powers is the rms computed from the powers in the fractional (absolute) rms normalisation, with the noise normalised in the same way.
* `Stingray.Fourier.rms_unnorm_default_noise` (Verif/Props/Parseval): C79 (default noise). Without a noise level that of Poisson noise, the number of photons in the un-normalised powers, is subtracted; kinds other than `frac` and `abs` are refused.
* `Stingray.Fourier.rms_unnorm_no_variability` (Verif/Props/Parseval): C79 (no variability). If all the powers are at the noise level, given or not, the rms is `sqrt 0`.
* Model: `Fourier.Cx.conj`, `Fourier.Cx.im`, `Fourier.Cx.re`, `Fourier.PdsAcc.cross`, `Fourier.PdsAcc.fgt0`, `Fourier.PdsAcc.freq`, `Fourier.PdsAcc.nAve`, `Fourier.PdsAcc.nBin`, `Fourier.PdsAcc.subcs`, `Fourier.PdsAcc.sumPh`, `Fourier.PdsAcc.unnorm`, `Fourier.PdsAcc.unnormSubcs`, `Fourier.PdsAcc.variance`, `Fourier.PdsTable.df`, `Fourier.PdsTable.mean`, `Fourier.PdsTable.power`, `Fourier.Segment.data`, `Fourier.Segment.skipped`, `Fourier.addIfGiven`, `Fourier.addOrInit`, `Fourier.avgPds`, `Fourier.fftfreq`, `Fourier.normalizeRe`, `Fourier.normalizer`, `Fourier.pdsFinish`, `Fourier.pdsStep`, `Fourier.perSegment`, `Fourier.positiveFftBins`, `Fourier.rmsFromNorm`, `Fourier.slice`, `Fourier.sumOrInit`, `Fourier.rmsFromUnnorm`

### C80 Multi-trial probability is monotone

Inequalities for powers; witness for the log branch. Status: partial.

* `Stingray.Stats.multi_monotone_partial` (Verif/Props/Trials): C80 (partial). Within each regime a larger single-trial probability, or a larger number of trials, gives a multi-trial probability at least as large. Missing: across the boundary `n p = e^-7`, where it is false (below).
* `Stingray.Stats.multi_not_monotone` (Verif/Props/Trials): C80 (negation). A detection with a smaller single-trial probability can be given a larger multi-trial one: the result jumps down where the Bonferroni approximation stops.
* Model: `Stats.logpMulti`, `Stats.pMulti`

### C81 Z^2 does not depend on the phase origin

Rotation of the complex sum of each harmonic. Status: proved.

* `Stingray.Pulsar.z_events_shift` (Verif/Props/ZSquared): C81. The unbinned Z² does not depend on the origin of the phases, nor on the cycle in which each event is: adding the same constant and any integers to the phases changes nothing.
* `Stingray.Pulsar.z_binned_rotate` (Verif/Props/ZSquared): C81 (profiles). The binned Z² of a profile is unchanged when the profile is rotated by any number of bins.
* `Stingray.Pulsar.z_binned_monotone` (Verif/Props/ZSquared): C81 (sign and growth). For counts adding up to a positive number, Z²_n is non-negative and grows with the number of harmonics.
* Model: `Pulsar.runningSums`, `Pulsar.zEventsAll`, `Pulsar.cachedHarmonics`, `Pulsar.strided`, `Pulsar.zBinnedAll`, `Pulsar.zFastSums`

### C82 H test maximises over the number of harmonics

Maximum over a list with its first argmax. Status: proved.

* `Stingray.Pulsar.htest_spec` (Verif/Props/ZSquared): C82. For every kind of data, `htest` returns the smallest number of harmonics `m` in `1..nmax` that maximises `Z²_m - 4m + 4`, and that maximum.
* `Stingray.Pulsar.htest_errors` (Verif/Props/ZSquared): C82 (errors). The Gaussian case needs an error, other kinds of data raise, and so does asking for no harmonics.
* Model: `argmax?`, `Pulsar.cachedHarmonics`, `Pulsar.htest`, `Pulsar.runningSums`, `Pulsar.strided`, `Pulsar.zAll`, `Pulsar.zBinnedAll`, `Pulsar.zEventsAll`, `Pulsar.zFastSums`, `Pulsar.zGaussAll`

### C83 Epoch folding statistic is a chi square against the flat profile

Chi square as a sum; non-negativity, zero case, permutation invariance. Status: proved.

* `Stingray.Pulsar.ef_stat_spec` (Verif/Props/ZSquared): C83. With positive mean or a non-zero error, the epoch folding statistic is non-negative, zero exactly for flat profiles, and unchanged by any reordering of the bins.
* `Stingray.Pulsar.ef_stat_default` (Verif/Props/ZSquared): C83 (default error). Without an error that of Poisson counts is used, the square root of the mean of the profile.
* Model: `Pulsar.efErr2`, `Pulsar.efProfileStat`

### C84 A transfer function's time response averages all energies, its energy response all times

Sums over the two axes of a matrix; witness for the error of the code. Status: partial.

* `Stingray.Simulator.time_response_default_partial` (Verif/Props/Simulator): C84 (partial). With the default energy range, `time_response` is the mean over the rows (energies) only when the table has more columns (times) than rows; in general only the first `columns - 1` rows are used. Missing: the mean over all the energies of every table (false, below).
* `Stingray.Simulator.time_response_drops` (Verif/Props/Simulator): C84 (negation). A table with as many energies as times: the last energy is left out. And with a non-zero initial energy, asking for the first energy of the table, from `estart` to `estart + de`, is out of range.
* `Stingray.Simulator.energy_response_spec` (Verif/Props/Simulator): C84 (energy response). The energy response averages every row over all the times.
* Model: `Simulator.mean`, `Simulator.meanRows`, `Simulator.pyInt`, `Simulator.timeResponse`, `Simulator.energyResponse`

### C85 get_channels returns the requested light curves

Loop over channel names; witness. Status: partial.

* `Stingray.Simulator.get_channels_spec` (Verif/Props/Simulator): C85. `get_channels` returns, in the order in which they were stored, the light curves whose names were asked for: each exactly once, whatever the order and the repetitions of the request, and names that do not exist are ignored.
* `Stingray.Simulator.get_channels_order` (Verif/Props/Simulator): C85 (negation). So the light curves do not come in the order of the request.
* Model: `Simulator.getChannels`

### C86 A simple impulse response has the requested delay, width and height

List of zeros and a box by rounding; witness for the start bin. Status: partial.

* `Stingray.Simulator.simple_ir_spec` (Verif/Props/Simulator): C86. `simple_ir(dt, start, width, intensity)` is 0 in the bins up to `⌊start/dt⌋`, then `intensity` in the following `⌊width/dt⌋` bins.
* `Stingray.Simulator.simple_ir_delta` (Verif/Props/Simulator): C86 (negation). The documented way of making a delta response, a width of 1, does so only with unit bins: with bins of 1/8 it gives 8 bins, and with bins of 2 none at all.
* Model: `Simulator.pyInt`, `Simulator.simpleIr`

### C87 Parts of an event file have events inside their own GTIs

Loop over parts; witness for events outside. Status: partial.

* `Stingray.Io.split_times_in_gti_partial` (Verif/Props/Io): C87 (partial). With `TIMEZERO` zero, all the events of every part lie between the start and the end of its GTIs. Missing: files with a non-zero `TIMEZERO` (false, below).
* `Stingray.Io.split_times_timezero` (Verif/Props/Io): C87 (negation). With a non-zero `TIMEZERO`, the times are shifted and the GTIs of the part are not: here no event is inside the GTIs of its own part. (The whole file read at once has both shifted.)
* Model: `searchsortedLeft`, `searchsortedRight`, `Io.Chunk.gti`, `Io.Chunk.times`, `Io.Reader.gti`, `Io.Reader.slice`, `Io.Reader.times`, `Io.Reader.timezero`, `Io.chunkOf`, `Io.getIdx`, `Io.gtiMax`, `Io.gtiMin`, `Io.timeEdges`, `Io.applyGtiLists`, `Io.chunksOf`, `Io.sameGti`

### C88 Channels are converted to the mid energies of the response file

Indexing into the response table. Status: proved.

* `Stingray.Io.pi_to_energy_spec` (Verif/Props/Io): C88. With a response file that lists every channel once, `pi_to_energy` gives for every event, in order, the middle of the energy range of its channel, and 0 for channels that are not in the file.
* Model: `Io.piStep`, `Io.piToEnergy`

### C89 The common part of two file names

Longest common parts of strings as lists of characters; witness. Status: partial.

* `Stingray.Io.common_name_spec_partial` (Verif/Props/Io): C89 (partial). The common name of two names does not depend on their order. It is the default for names of different lengths; otherwise it is the default or a non-empty part of the letters of both, in order, that neither begins nor ends with a dash. Missing: that it neither begins nor ends with an underscore (false, below).
* `Stingray.Io.common_name_underscore` (Verif/Props/Io): C89 (negation). Leading and trailing underscores are not always removed: one before a final dash stays.
* Model: `Io.commonName`, `Io.lstrip`, `Io.rstrip`

### C90 Header keywords split in two parts are read without loss

Sum of integer and fractional parts. Status: proved.

* `Stingray.Io.keyword_read_spec` (Verif/Props/Io): C90. A number stored in a header under one keyword is read back as it is; stored as the two parts of `split_numbers`, with any shift, under the keyword (cut to 7 characters if it has 8) followed by I and F, it is read back exactly; otherwise the result is `None`.
* Model: `Io.keywordRead`, `Io.modf`, `Io.splitNumber`

### C91 Count spectra count every event once

Loop over bands with half-open selections; sum over bands. Status: proved.

* `Stingray.VarEnergy.count_spectrum_spec` (Verif/Props/VarEnergy): C91. For every non-empty event list and all band edges, the count spectrum has one value per band, the number of events whose energy (or PI channel, if asked) is at or above the lower edge and below the upper one, with its square root as uncertainty; for edges in order, the counts of all bands add up to the number of events from the first edge to the last: no event is lost or counted twice.
* Model: `VarEnergy.EnergyResult.error`, `VarEnergy.EnergyResult.spectrum`, `VarEnergy.EnergyResult.store`, `VarEnergy.Ev.energy`, `VarEnergy.Ev.pi`, `VarEnergy.Ev.time`, `VarEnergy.bandLoop`, `VarEnergy.countSpectrum`, `VarEnergy.emptySpectrum`, `VarEnergy.intervals`, `VarEnergy.timesInRange`

### C92 Each energy band of a spectral-timing product depends on its own events only

Loop over bands with per-band state; witness for state that is carried over. Status: partial.

* `Stingray.VarEnergy.energy_spectrum_local_partial` (Verif/Props/VarEnergy): C92 (partial). The value of the rms, lag and covariance spectra in a band is what the timing analysis gives for the events of that band alone (and those of the first reference band), selected by energy with the upper edge excluded; bands the analysis skips stay NaN. So adding, removing or changing events outside a band, or changing other bands, does not change its value. Missing from the full property: the selection by PI channel, which does not work (`rms_spectrum_ignores_pi`), and further reference bands, which are ignored (`lag_spectrum_first_ref_band`).
* `Stingray.VarEnergy.rms_spectrum_ignores_pi` (Verif/Props/VarEnergy): C92 (negation). `use_pi=True` has no effect on the rms spectrum: for every analysis, event list and edges the result is the one of energies; with PI channels in the bands and energies outside them, no event is used.
* `Stingray.VarEnergy.lag_spectrum_first_ref_band` (Verif/Props/VarEnergy): C92 (negation). The lag and covariance spectra use the first of the given reference bands only.
* Model: `VarEnergy.EnergyResult.error`, `VarEnergy.EnergyResult.spectrum`, `VarEnergy.EnergyResult.store`, `VarEnergy.Ev.energy`, `VarEnergy.Ev.pi`, `VarEnergy.Ev.time`, `VarEnergy.bandLoop`, `VarEnergy.crossEnergySpectrum`, `VarEnergy.emptySpectrum`, `VarEnergy.intervals`, `VarEnergy.rmsSpectrum`, `VarEnergy.timesInRange`, `VarEnergy.countSpectrum`

### C93 Energy band specifications

Linear and given edges; consecutive pairs. Status: proved.

* `Stingray.VarEnergy.energy_edges_spec` (Verif/Props/VarEnergy): C93. For every request of `n ≥ 1` bands between two energies `lo < hi`: `lin` in any capitalisation gives `n + 1` strictly increasing edges from `lo` to `hi` with a constant difference; `log`, for positive energies, gives `n + 1` strictly increasing edges from `lo` to `hi` with a constant ratio; any other word is an error.
* `Stingray.VarEnergy.energy_centres_spec` (Verif/Props/VarEnergy): C93 (centres). There is one energy per band, halfway between the edges of its band: so it is inside the band, and the energies increase with the edges.
* Model: `VarEnergy.decodeEnergySpec`, `VarEnergy.linspace`, `VarEnergy.lower`, `VarEnergy.centres`, `VarEnergy.intervals`

### C94 Rms amplitudes do not depend on the unit of time

Scaling of times; witness. Status: partial.

* `Stingray.VarEnergy.rms_scales` (Verif/Props/VarEnergy): C94. With power and noise in rates, expressing times in another unit multiplies the rms amplitude by the same factor: for every factor `k > 0` and an exact square root, powers multiplied by `k` and frequencies by `k` give an rms multiplied by `k`, and the rms is never negative.
* `Stingray.VarEnergy.rms_error_not_homogeneous` (Verif/Props/VarEnergy): C94 (negation). The uncertainty of the rms does not scale like the rms: the same measurement in another unit of time, with rms amplitude and noise multiplied by 2, gets an uncertainty that is not multiplied by 2 (its square by 4).
* Model: `VarEnergy.rmsOf`, `VarEnergy.rmsErrSq`

### C95 Excess variance spectra contain the excess variance of each band

The per-band loop; witness. Status: partial.

* `Stingray.VarEnergy.excess_variance_spectrum_nan` (Verif/Props/VarEnergy): C95 (negation). The excess variance spectrum is NaN in every band, whatever the events and the excess variances computed from them.
* Model: `VarEnergy.EnergyResult.error`, `VarEnergy.EnergyResult.spectrum`, `VarEnergy.Ev.energy`, `VarEnergy.Ev.pi`, `VarEnergy.Ev.time`, `VarEnergy.emptySpectrum`, `VarEnergy.excessVarianceSpectrum`, `VarEnergy.intervals`, `VarEnergy.timesInRange`

### C96 Total exposure of a GTI list

Sum of lengths and covered set. Status: proved.

* `Stingray.Gti.total_gti_length_spec` (Verif/Props/GtiBasic): C96. The total length is the sum of the lengths of the GTIs that are at least `minlen` long; with the default of 0 it is the exposure of any accepted list, never negative, and it does not grow with `minlen`.
* Model: `Gti.checkGtis`, `Gti.gtiLengths`, `Gti.totalGtiLength`

### C97 A posterior is prior times likelihood

Sum of prior and likelihood with -inf cases. Status: proved.

* `Stingray.Modeling.logprior_spec` (Verif/Props/Modeling): C97. The log-prior is the sum of the logarithms of the prior densities of the parameters that are not fixed, in their order; it is `logmin` exactly if one of them is not positive (for a sum that is not `logmin` itself), and any other number of values is refused.
* `Stingray.Modeling.logposterior_spec` (Verif/Props/Modeling): C97. The log-posterior is the sum of the log-prior and the log-likelihood, except where the prior vanishes: there it is `logmin`, whatever the likelihood. `neg=True` gives exactly the negative. A missing prior is an error, and so is a wrong number of parameters.
* Model: `Modeling.Par.fixed`, `Modeling.logmin`, `Modeling.logprior`, `Modeling.numNotFixed`, `Modeling.priorSum`, `Modeling.isclose`, `Modeling.logposterior`

### C98 Evaluating a likelihood has no memory

State of the object with the stored model parameters; evaluation as state transformer; invariant over any history, for ties that point backwards; witness for a tie to a later tied parameter. Status: partial.

* `Stingray.Modeling.evaluate_value_partial` (Verif/Props/Likelihood): C98 (value). A likelihood called with enough numbers is evaluated at these parameter values: fixed parameters keep theirs, the free ones get the given numbers in order, moved to the nearest bound if they are outside of the bounds, and each tied one gets the value of its function for the values of all the others. `neg=True` changes the sign. The parameters of the model object are then these values, and nothing else about it has changed. (Ties to earlier or to free parameters.)
* `Stingray.Modeling.evaluate_history_ties_partial` (Verif/Props/Likelihood): C98 (ties, partial). The value of a likelihood only depends on the parameters it is called with, whatever was evaluated before with the same model object, also for tied parameters if every tie is a function of free, fixed or earlier parameters. Missing: ties to a later tied parameter, for which it is false (`evaluate_remembers`).
* `Stingray.Modeling.evaluate_remembers` (Verif/Props/Likelihood): C98 (negation). If a parameter is tied to a later one that is tied itself, the first evaluation uses the value that the later one had before: the same call gives another value the second time.
* `Stingray.Modeling.evaluate_history_partial` (Verif/Props/Modeling): C98 (partial). The value of a likelihood only depends on the parameters it is called with: whatever was evaluated before with the same model object, for this or (`like'`) another likelihood, with the right or the wrong number of parameters, the result is the same. Proved for models without tied parameters.
* `Stingray.Modeling.evaluate_keeps_fixed` (Verif/Props/Modeling): C98 (fixed parameters). Evaluations never change a fixed parameter, nor the bounds.
* Model: `Modeling.Par.clip`, `Modeling.Par.fixed`, `Modeling.Par.hi`, `Modeling.Par.lo`, `Modeling.Par.tied`, `Modeling.Par.value`, `Modeling.evaluate`, `Modeling.numFree`, `Modeling.setFree`, `Modeling.setParams`, `Modeling.tieStep`

### C99 No model is more likely than the data

Inequalities for log x and x - log x. Status: proved.

* `Stingray.Modeling.psd_like_max` (Verif/Props/Modeling): C99. No positive model is more likely than the one that goes through the data, for averaged or single powers: a periodogram likelihood is greatest where the model equals the powers.
* `Stingray.Modeling.gauss_laplace_max` (Verif/Props/Modeling): C99. Gaussian and Laplace likelihoods are greatest where the model equals the data.
* `Stingray.Modeling.poisson_like_max` (Verif/Props/Modeling): C99. The Poisson likelihood is greatest where the model equals the counts.
* `Stingray.Modeling.like_not_positive` (Verif/Props/Modeling): C99. A model that is not positive somewhere gets `logmin` from the periodogram and the Poisson likelihood.
* Model: `Modeling.Row.m`, `Modeling.Row.x`, `Modeling.Row.y`, `Modeling.logmin`, `Modeling.psdLike`, `Modeling.psdLikeAveraged`, `Modeling.Row.err`, `Modeling.gaussLike`, `Modeling.laplaceLike`, `Modeling.poissonLike`

### C100 The periodogram likelihood is the density of the powers

Gamma density of averaged powers, algebra with logs; witness for the missing terms. Status: partial.

* `Stingray.Modeling.psd_like_single_partial` (Verif/Props/Modeling): C100 (partial). For a single periodogram (`m=1`) the likelihood is the logarithm of the density of the powers.
* `Stingray.Modeling.psd_like_averaged_twice` (Verif/Props/Modeling): C100 (negation). For averages of more spectra (or if `m` is an array) the likelihood is not the logarithm of the density up to a constant: every difference of the log-likelihoods of two models is exactly twice what it should be. With a prior, the data count twice.
* `Stingray.Modeling.psd_like_ones` (Verif/Props/Modeling): C100 (negation). The same data give another likelihood if `m` is given as an array of ones and not as the number 1.
* Model: `Modeling.Row.m`, `Modeling.Row.x`, `Modeling.Row.y`, `Modeling.logmin`, `Modeling.psdLike`, `Modeling.psdLikeAveraged`

### C101 Posteriors of models with tied parameters

List of free, fixed and tied parameters; witness. Status: partial.

* `Stingray.Modeling.psd_posterior_tied_fails` (Verif/Props/Modeling): C101 (negation). With a tied parameter a `PSDPosterior` never has a value: the prior asks for as many numbers as there are parameters that are not fixed, the likelihood for as many as there are free ones.
* `Stingray.Modeling.psd_posterior_value_partial` (Verif/Props/Modeling): C101 (partial). Without tied parameters the prior and the likelihood agree on the number of parameters, and the posterior has a value for that number of parameters and only for it.
* Model: `Modeling.Par.clip`, `Modeling.Par.fixed`, `Modeling.Par.hi`, `Modeling.Par.lo`, `Modeling.Par.tied`, `Modeling.Par.value`, `Modeling.evaluate`, `Modeling.isclose`, `Modeling.logmin`, `Modeling.logposterior`, `Modeling.logprior`, `Modeling.numFree`, `Modeling.numNotFixed`, `Modeling.priorSum`, `Modeling.psdPosterior`, `Modeling.setFree`, `Modeling.setParams`, `Modeling.tieStep`

### C102 Information criteria

Formulas, algebra; witness. Status: partial.

* `Stingray.Modeling.deviance_spec` (Verif/Props/Modeling): C102. The deviance of a maximum likelihood fit is minus twice the log-likelihood found (`result` is the negative log-likelihood).
* `Stingray.Modeling.criteria_wrong` (Verif/Props/Modeling): C102 (negation). The information criteria are not the deviance plus the penalty: the log-likelihood enters them once, not twice. So two models of the same data can be ranked the wrong way round.
* Model: `Modeling.criteria`

### C103 What a fit returns

The optimiser is an arbitrary function; what is reported is computed from its result; witness. Status: partial.

* `Stingray.Modeling.fit_value` (Verif/Props/Likelihood): C103 (accepted values). The value of the run that a fit returns is a finite number, is not 0, 100 or 200, and is not near the values of impossible parameters; and the first run that ends with such a value is accepted.
* `Stingray.Modeling.bounds_never_used` (Verif/Props/Modeling): C103 (negation). The bounds of the parameters are never handed to the optimizer: with any bound set they are not used, whatever the method.
* `Stingray.Modeling.fit_spec` (Verif/Props/Modeling): C103. A fit makes at most 21 runs of the optimizer, returns the first whose value is acceptable, and raises `RuntimeError` exactly if none of the 21 is.
* `Stingray.Modeling.fit_accepts_forbidden` (Verif/Props/Modeling): C103 (negation). The value of forbidden parameters is recognised with the sign of the log-likelihood, but it is the negative that is minimised: a fit (`neg=True`) that ends where the prior or the model is forbidden is accepted at its first run.
* Model: `Modeling.fit`, `Modeling.fitLoop`, `Modeling.isclose`, `Modeling.logmin`, `Modeling.unacceptable`, `Modeling.useBounds`

### C104 p-values by simulation

Fraction of simulations above the observed; bounds, witness for NaN. Status: partial.

* `Stingray.Modeling.pvalue_failed_fits_all` (Verif/Props/Likelihood): C104 (failed fits, negation). For an observed value that is not negative, the simulations whose fit failed count as simulations below it: the p-value is the number of successful simulations above the observed value over the number of all simulations.
* `Stingray.Modeling.pvalue_spec` (Verif/Props/Modeling): C104. The p-value is the fraction of the simulations above the observed value: between 0 and 1, and not larger for a larger observed value.
* `Stingray.Modeling.pvalue_failed_fits` (Verif/Props/Modeling): C104 (negation). Simulations whose fit failed are not left out: they count as zeros, so that the p-value is smaller than the fraction of the successful simulations above the observed value.
* Model: `Modeling.computePvalue`, `Modeling.simulated`

### C105 Highest outlier of a periodogram

Maximum of ratios over the selected range. Status: proved.

* `Stingray.Modeling.highest_outlier_spec` (Verif/Props/Modeling): C105. The highest outlier is the largest ratio of data to model (times two); the index is the first at which it is reached, and the abscissa is the one of that index.
* Model: `Modeling.Row.x`, `Modeling.Row.y`, `Modeling.highestOutlier`

### C106 Normalisations refuse exactly what they cannot compute, and power types are parts of the same powers

Guards as `Except`; refused iff. Status: proved.

* `Stingray.Fourier.normalize_powers_by_type` (Verif/Props/FourierNorm): C106. What the power types give: the normalised powers, their real parts, or their absolute values.
* `Stingray.Fourier.normalize_refuses_iff` (Verif/Props/FourierNorm): C106. `normalize_periodograms` raises `ValueError` exactly for an unknown norm, an unknown power type, or the Leahy norm with a variance of zero; nothing else is refused.
* `Stingray.Fourier.normalize_power_types` (Verif/Props/FourierNorm): C106 (power types). Of the powers returned for `power_type="all"`, `"real"` gives the real parts and `"abs"` the moduli (the number whose square is `re² + im²`, for a correct square root).
* `Stingray.Fourier.poisson_level_refuses_iff` (Verif/Props/FourierNorm): C106 (noise level). `poisson_level` raises `ValueError` exactly when what the normalisation needs is missing (the mean rate for `abs` and `frac`, the number of photons for `none`) or the norm is unknown.
* Model: `Fourier.Cx.both`, `Fourier.Cx.im`, `Fourier.Cx.re`, `Fourier.normalizeCx`, `Fourier.normalizeRe`, `Fourier.normalizer`, `Fourier.poissonLevel`

### C107 A cross correlation is the sum of products at each lag

Correlation sums with SciPy's lag convention; index arithmetic. Status: proved.

* `Stingray.CrossCorr.cross_correlation_spec` (Verif/Props/CrossCorr): C107. For two light curves (of the same length in the mode "same"), the correlation at each returned lag `d dt` is the sum of the products of the mean-subtracted counts over all pairs of bins `i`, `j` with `i - j = d`; the lags are consecutive multiples of the bin time: all those with a common bin in the mode "full", from `-(n // 2)` on in the mode "same", those where the shorter curve is inside the longer one in the mode "valid". `time_shift` is the (first) lag of the maximum.
* `Stingray.CrossCorr.cross_correlation_refuses` (Verif/Props/CrossCorr): C107 (refusals). An unknown mode is refused with `ValueError`, light curves with different bin times with `StingrayError`; nothing else is.
* `Stingray.CrossCorr.cross_correlation_exchange` (Verif/Props/CrossCorr): C107 (exchange). Exchanging the two light curves reverses the correlation and the lags change sign.
* Model: `argmax?`, `CrossCorr.Corr.corr`, `CrossCorr.Corr.dt`, `CrossCorr.Corr.n`, `CrossCorr.Corr.timeLags`, `CrossCorr.Corr.timeShift`, `CrossCorr.Lc.counts`, `CrossCorr.Lc.countsErr`, `CrossCorr.Lc.dt`, `CrossCorr.calTimeshift`, `CrossCorr.centred`, `CrossCorr.correlate`, `CrossCorr.correlateFull`, `CrossCorr.correlationLags`, `CrossCorr.intRange`, `CrossCorr.makeCorr`, `CrossCorr.mean`, `CrossCorr.var`

### C108 Autocorrelations peak at zero lag

Rearrangement by Cauchy-Schwarz; witness for the first maximum. Status: partial.

* `Stingray.CrossCorr.autocorrelation_spec` (Verif/Props/CrossCorr): C108. The autocorrelation of a light curve whose counts are not all the same is symmetric in the lag, is largest at the lag zero and only there, and `time_shift` is zero.
* `Stingray.CrossCorr.autocorrelation_constant` (Verif/Props/CrossCorr): C108 (negation). For a constant light curve the reported `time_shift` of the autocorrelation is not zero: all lags are equally good and the first one is taken.
* `Stingray.CrossCorr.cross_correlation_changes_dt` (Verif/Props/CrossCorr): C108 (operands, negation). Making a cross correlation changes the bin time of the first light curve, when the two are close but not equal.
* Model: `argmax?`, `CrossCorr.Corr.corr`, `CrossCorr.Corr.dt`, `CrossCorr.Corr.n`, `CrossCorr.Corr.timeLags`, `CrossCorr.Corr.timeShift`, `CrossCorr.Lc.counts`, `CrossCorr.Lc.countsErr`, `CrossCorr.Lc.dt`, `CrossCorr.autoCorr`, `CrossCorr.calTimeshift`, `CrossCorr.centred`, `CrossCorr.correlate`, `CrossCorr.correlateFull`, `CrossCorr.correlationLags`, `CrossCorr.intRange`, `CrossCorr.makeCorr`, `CrossCorr.mean`, `CrossCorr.var`

### C109 Variance-normalised correlations are between -1 and 1

Cauchy-Schwarz; witness for modes that normalise differently. Status: partial.

* `Stingray.CrossCorr.variance_norm_bounds_partial` (Verif/Props/CrossCorr): C109 (partial). Normalised by the variance, without errors, the correlation of two light curves of the same length lies between -1 and 1, and that of a light curve with itself is 1 at the lag zero. Missing: light curves of different lengths, and errors (see the negations).
* `Stingray.CrossCorr.variance_norm_lengths` (Verif/Props/CrossCorr): C109 (negation). With light curves of different lengths the normalised correlation is not bounded by 1, even without errors: here it reaches 2.
* `Stingray.CrossCorr.variance_norm_errors` (Verif/Props/CrossCorr): C109 (errors, negation). The variance due to the errors is the mean of their squares; the square of their mean is subtracted instead. With variance 9 and errors 1 and 3 the excess variance is 9 - 5 = 4 and the correlation of the light curve with itself at the lag zero should be 9/4; it is 9/5.
* Model: `argmax?`, `CrossCorr.Corr.corr`, `CrossCorr.Corr.dt`, `CrossCorr.Corr.n`, `CrossCorr.Corr.timeLags`, `CrossCorr.Corr.timeShift`, `CrossCorr.Lc.counts`, `CrossCorr.Lc.countsErr`, `CrossCorr.Lc.dt`, `CrossCorr.calTimeshift`, `CrossCorr.centred`, `CrossCorr.correlate`, `CrossCorr.correlateFull`, `CrossCorr.correlationLags`, `CrossCorr.intRange`, `CrossCorr.makeCorr`, `CrossCorr.mean`, `CrossCorr.var`

### C110 Correlations from cross spectra have the lags of the inverse transform

Order of `fftfreq`/`fftshift` as permutation; witness. Status: partial.

* `Stingray.CrossCorr.cross_spectrum_lags_partial` (Verif/Props/CrossCorr): C110 (partial). If the cross spectrum has as many powers as its segments have bins, then in the mode "same" the reported lags are those of the inverse transform: the correlation at each lag `t` is the absolute real part of the inverse transform of the powers at the index whose time is `t` (`fftfreq` being the list of times), and `time_shift` is the lag of the maximum. Missing: other modes, and cross spectra with other numbers of powers, as are all those with only positive frequencies (see the negations).
* `Stingray.CrossCorr.cross_spectrum_lags_wrong` (Verif/Props/CrossCorr): C110 (negation). A cross spectrum of 4 bins with its 2 positive frequencies: the times at which the inverse transform was taken are multiples of `1 / (2 df)`, the reported lags multiples of `1 / (4 df)`.
* `Stingray.CrossCorr.cross_spectrum_full_wrong` (Verif/Props/CrossCorr): C110 (modes, negation). In the mode "full" there are more lags than values and the reported shift is not that of the maximum (which is at the time 0).
* Model: `KeySort.sort`, `argmax?`, `CrossCorr.Corr.corr`, `CrossCorr.Corr.timeLags`, `CrossCorr.Corr.timeShift`, `CrossCorr.calTimeshift`, `CrossCorr.correlationLags`, `CrossCorr.intRange`, `CrossCorr.makeCrossCorr`, `Fourier.fftfreq`, `stableSort`

### C111 Truncating keeps exactly the requested range

Index and time bounds over sorted times. Status: partial.

* `Stingray.LcOps.truncate_time_partial` (Verif/Props/LcOps): C111 (partial). Truncating a series with sorted times between two times keeps exactly the rows with `start ≤ t < stop`, in order and with all their array attributes. Missing: a start of exactly 0 when there are negative times, for which it is false (`truncate_time_zero`).
* `Stingray.LcOps.truncate_gti_partial` (Verif/Props/LcOps): C111 (GTIs, partial). The GTIs after truncating (by index or time) are the part of the old ones between half a bin before the first and half a bin after the last sample kept. Missing: as for the intersection of GTIs (C04), GTIs touching these borders and empty GTIs.
* `Stingray.LcOps.truncate_time_zero` (Verif/Props/LcOps): C111 (negation). Truncating at the time 0 does nothing to the samples before it.
* `Stingray.LcOps.truncate_time_refuses` (Verif/Props/LcOps): C111 (refusal). A start after the stop is refused; a range without samples raises `IndexError`.
* Model: `KeySort.sort`, `argmax?`, `searchsortedLeft`, `Gti.checkGtis`, `Gti.crossStep`, `Gti.crossTwoGtis`, `Gti.joinEqualGtiBoundaries`, `Gti.joinEqualLoop`, `Gti.lastStartBefore`, `LcOps.truncateByIndex`, `LcOps.truncateByTime`, `TimeSeries.TS.attrs`, `TimeSeries.TS.dt`, `TimeSeries.TS.gti`, `TimeSeries.TS.mask`, `TimeSeries.TS.mjdref`, `TimeSeries.TS.time`, `TimeSeries.applyIdx`, `TimeSeries.gtiGet`, `TimeSeries.setGti`, `TimeSeries.sliceIdx`, `stableSort`

### C112 Slices of light curves are Python slices of their bins

Python slices of bins; witness for steps. Status: partial.

* `Stingray.LcOps.lc_slice_partial` (Verif/Props/LcOps): C112 (partial). `lc[a:b:c]` with a positive or absent step, when it succeeds, holds exactly the bins Python slicing selects (negative bounds count from the end), with their counts and errors. Missing: bounds beyond the end and negative steps, for which it is false (`lc_slice_beyond`, `lc_slice_reversed`).
* `Stingray.LcOps.lc_slice_beyond` (Verif/Props/LcOps): C112 (negation). A stop beyond the end, which Python slicing clips, raises `IndexError`.
* `Stingray.LcOps.lc_slice_reversed` (Verif/Props/LcOps): C112 (reversal, negation). `lc[::-1]` is not the reversed light curve: it has no data.
* Model: `KeySort.sort`, `argmax?`, `Gti.checkGtis`, `Gti.crossStep`, `Gti.crossTwoGtis`, `Gti.joinEqualGtiBoundaries`, `Gti.joinEqualLoop`, `Gti.lastStartBefore`, `LcOps.Curve.counts`, `LcOps.Curve.dt`, `LcOps.Curve.err`, `LcOps.Curve.errDist`, `LcOps.Curve.gti`, `LcOps.Curve.mjdref`, `LcOps.Curve.time`, `LcOps.lcSlice`, `LcOps.pyGet`, `TimeSeries.sliceIdx`, `stableSort`

### C113 Light curve arithmetic combines the bins in the common GTIs

Common bins by GTI mask, row-wise operation. Status: partial.

* `Stingray.LcOps.lc_operation_partial` (Verif/Props/LcOps): C113. The sum, or difference (`op`), of two light curves with the same times, bin time and reference has exactly the bins inside the common GTIs, each with `op` of the two counts; if the error distributions agree, the error is `√(e1² + e2²)`, otherwise 0. (Assumed: each common GTI contains the bin of some sample, as for GTI masks, C03.)
* `Stingray.LcOps.lc_operation_mjdref` (Verif/Props/LcOps): C113 (references). If the references differ, the second light curve is first expressed in the reference of the first.
* `Stingray.LcOps.lc_sum_of_three_loses_errors` (Verif/Props/LcOps): C113 (negation). The sum of two light curves with Gaussian errors has not Gaussian errors any more, so that adding a third one discards all errors: the error of the sum of three is 0, not 13.
* `Stingray.LcOps.lc_neg_spec` (Verif/Props/LcOps): C113 (negative). `-lc` has the bins, the errors, the GTIs and the reference of `lc`, and the count of each bin with the opposite sign.
* `Stingray.LcOps.lc_neg_neg` (Verif/Props/LcOps): C113 (double negative, negation). `-(-lc)` is not `lc` for a light curve with Gaussian errors: it has the error distribution of Poisson counts.
* Model: `KeySort.sort`, `argmax?`, `Gti.checkGtis`, `Gti.createGtiMask`, `Gti.crossStep`, `Gti.crossTwoGtis`, `Gti.gtiMaskJit`, `Gti.gtiMaskJitLoop`, `Gti.gtisToMask`, `Gti.joinEqualGtiBoundaries`, `Gti.joinEqualLoop`, `Gti.lastStartBefore`, `Gti.select`, `LcOps.Curve.counts`, `LcOps.Curve.dt`, `LcOps.Curve.err`, `LcOps.Curve.errDist`, `LcOps.Curve.gti`, `LcOps.Curve.mjdref`, `LcOps.Curve.time`, `LcOps.lcChangeMjdref`, `LcOps.lcOperation`, `stableSort`, `LcOps.lcNeg`

### C114 Rebinning works GTI by GTI and conserves counts

C20 applied within each GTI, concatenated; witness for GTIs with too few bins. Status: partial.

* `Stingray.LcOps.lc_rebin_refuses` (Verif/Props/LcOps): C114 (refusals). Without a new bin time, and for one shorter than the present one, `rebin` raises `ValueError`; so it does if no GTI is as long as the new bin. `f` gives the new bin time as a multiple of the present one.
* `Stingray.LcOps.lc_rebin_spec` (Verif/Props/LcOps): C114. Rebinning a light curve with sorted times: the new GTIs are the old ones that are at least one new bin long, and the new bins are, GTI by GTI, what `rebin_data` (C20, C21) makes of the bins with their centre in the GTI.
* `Stingray.LcOps.lc_rebin_conserves` (Verif/Props/LcOps): C114 (conservation). If the bins of each remaining GTI are evenly spaced and fill a whole number of new bins, no count is lost or gained: the sum of the new counts is the sum of the counts of the bins in these GTIs.
* `Stingray.LcOps.ts_rebin_refuses` (Verif/Props/LcOps): C114 (time series, refusals). The same refusals for a time series.
* `Stingray.LcOps.ts_rebin_spec_partial` (Verif/Props/LcOps): C114 (time series, partial). Rebinning a time series with sorted times: the new samples are, GTI by GTI, what `rebin_data` makes of the samples in each GTI at least one new bin long, and any bin time from the present one on is accepted as long as there is such a GTI and `rebin_data` accepts its samples. Missing: the GTIs, see `ts_rebin_keeps_short_gtis`.
* `Stingray.LcOps.ts_rebin_keeps_short_gtis` (Verif/Props/LcOps): C114 (time series, negation). For a plain time series the GTIs that are too short for the new bins are kept although they contain no bin any more.
* Model: `searchsortedLeft`, `Gti.arange`, `LcOps.Curve.counts`, `LcOps.Curve.dt`, `LcOps.Curve.err`, `LcOps.Curve.gti`, `LcOps.Curve.mjdref`, `LcOps.Curve.time`, `LcOps.gtiPart`, `LcOps.lcRebin`, `Rebin.Out.xbin`, `Rebin.Out.ybin`, `Rebin.Out.ybinerr`, `Rebin.diff`, `Rebin.dxOld`, `Rebin.loop`, `Rebin.loopBody`, `Rebin.prevAt`, `Rebin.rebinData`, `Rebin.sliceSum`, `LcOps.tsRebin`, `TimeSeries.TS.dt`, `TimeSeries.TS.time`

### C115 Splitting at gaps yields the maximal gap-free runs

Runs between gaps by recursion. Status: proved.

* `Stingray.LcOps.split_gtis_spec` (Verif/Props/LcOps): C115. The GTIs by which a light curve is split at gaps: with some half width `ε > 0`, each goes from `ε` before a bin to `ε` after a bin such that all distances of consecutive bins between them are shorter than `min_gap`, while the distances to the bins before and after are not; every bin is in one of them; and they are in order, without overlaps.
* Model: `LcOps.splitGtis`, `Rebin.diff`

### C116 Merging any number of GTI lists

Folds of C04, C07 and C09 over any number of lists. Status: partial.

* `Stingray.Gti.merge_gtis_few` (Verif/Props/GtiMerge): C116. Lists that are `None` or empty do not count: without any other the result is `None`, with one other, and a strategy but "none", it is that one.
* `Stingray.Gti.merge_gtis_partial` (Verif/Props/GtiMerge): C116 (partial). For two or more lists accepted by `check_gtis`, of GTIs of positive length: "union" gives a list covering exactly the times in some of the lists; and, if no two of the lists touch, "intersection" one covering exactly the times in all of them, or `None` if there is no such time, and "infer" the intersection if there is a time in all of them and the union otherwise. Missing: intersections of lists that touch (see C04), and GTIs of zero length.
* `Stingray.Gti.merge_gtis_append` (Verif/Props/GtiMerge): C116 (append). Whenever "append" succeeds for two or more lists, the result covers exactly the times in some of the lists and its total good time is the sum of theirs.
* `Stingray.Gti.merge_gtis_hull` (Verif/Props/GtiMerge): C116 (hull). "none" gives one GTI, from the first to the last border of all the lists.
* Model: `KeySort.sort`, `argmax?`, `Gti.appendGtis`, `Gti.checkGtis`, `Gti.checkSeparate`, `Gti.checkSeparateCore`, `Gti.crossGtis`, `Gti.crossGtisLoop`, `Gti.crossStep`, `Gti.crossTwoGtis`, `Gti.cumsumFrom`, `Gti.flatten`, `Gti.joinEqualGtiBoundaries`, `Gti.joinEqualLoop`, `Gti.joinGtis`, `Gti.joinSweep`, `Gti.lastStartBefore`, `Gti.mergeGtis`, `Gti.rollLeft`, `Gti.rollRight`, `Gti.select`, `Gti.taggedBoundaries`

### C117 Joining time series keeps every sample once, with its attributes

Concatenation and one argsort; rows by index lists; witnesses for the caller's list, empty series, disjoint GTIs and stale masks. Status: partial.

* `Stingray.Join.join_spec_partial` (Verif/Props/Join): C117. Joining a series with others, none of them empty: the samples of all of them, expressed in the reference of the first, appear once each, in the order of their times, and one permutation is used for the times and every attribute. The attributes are those found in some of the series, with NaN for the samples of a series without it. The GTIs are those of the given strategy (C116), and there are none if no series had any or the strategy is "none". With equal time resolutions the resolution is kept, otherwise it becomes an array with the resolution of each sample. The flags of the samples go with them if any series has computed them.
* `Stingray.Join.join_changes_list` (Verif/Props/Join): C117 (the caller's list, negation). The list that is passed is changed: empty series are removed from it, and series with another reference are replaced.
* `Stingray.Join.join_two_empty` (Verif/Props/Join): C117 (empty series, negation). Empty series are to be ignored, and a single one is, but of two in a row only the first: then the joining fails if any series has an attribute.
* `Stingray.Join.join_disjoint` (Verif/Props/Join): C117 (no common good time, negation). The intersection of GTIs without common time is not empty: the result has no GTIs, and its `gti` is then the whole range of the samples.
* `Stingray.Join.join_stale_mask` (Verif/Props/Join): C117 (cached masks, negation). If the masks of the operands have been read before, the mask of the result is put together from theirs, and disagrees with the GTIs of the result: here the sample at time 1 is outside of the joined GTIs, but good.
* Model: `KeySort.sort`, `argmax?`, `Gti.appendGtis`, `Gti.checkGtis`, `Gti.checkSeparate`, `Gti.checkSeparateCore`, `Gti.crossGtis`, `Gti.crossGtisLoop`, `Gti.crossStep`, `Gti.crossTwoGtis`, `Gti.cumsumFrom`, `Gti.flatten`, `Gti.joinEqualGtiBoundaries`, `Gti.joinEqualLoop`, `Gti.joinGtis`, `Gti.joinSweep`, `Gti.lastStartBefore`, `Gti.mergeGtis`, `Gti.rollLeft`, `Gti.rollRight`, `Gti.select`, `Gti.taggedBoundaries`, `Join.Joined.attrs`, `Join.Joined.dt`, `Join.Joined.gti`, `Join.Joined.mask`, `Join.Joined.mjdref`, `Join.Joined.time`, `Join.attrOf`, `Join.dropEmpty`, `Join.join`, `Join.joinDt`, `Join.joinGti`, `Join.joinMask`, `Join.maskOf`, `Join.take`, `TimeSeries.TS.attrs`, `TimeSeries.TS.dt`, `TimeSeries.TS.gti`, `TimeSeries.TS.mask`, ...

### C118 Likelihoods are the logarithms of their densities

The sums of the code against textbook densities (`Spec/Density`); algebra of logarithms. Status: proved.

* `Stingray.Modeling.gauss_like_density` (Verif/Props/Likelihood): C118. The Gaussian log-likelihood is the sum over the data of the logarithms of the normal density with mean the model and standard deviation the error.
* `Stingray.Modeling.poisson_like_probability` (Verif/Props/Likelihood): C118. The Poisson log-likelihood of counts is the sum of the logarithms of the Poisson probabilities of the counts, the model being the mean (`gammaln` the logarithm of the gamma function).
* `Stingray.Modeling.laplace_like_density` (Verif/Props/Likelihood): C118. The Laplace log-likelihood is the sum of the logarithms of the Laplace density centred on the model, with the error as scale.
* `Stingray.Modeling.like_bad_error` (Verif/Props/Likelihood): C118. With an error that is not positive, neither likelihood is a number: `logmin` is given.
* Model: `Modeling.Row.err`, `Modeling.Row.x`, `Modeling.Row.y`, `Modeling.gaussLike`, `Modeling.logmin`, `Modeling.poissonLike`, `Modeling.laplaceLike`

### C119 The segments fed to Fourier analysis contain every event of the segment once

get_flux_iterable_from_segments for events and binned series modelled over time_intervals_from_gtis / bin_intervals_from_gtis and the histogram; counts per bin proved equal to the number of events in the bin's half-open interval. Status: partial.

* `Stingray.Segments.event_segments_partial` (Verif/Props/Segments): C119 (events, partial). For sorted events and a segment size, the Fourier routines get exactly one item per segment of `time_intervals_from_gtis` (C13: the whole segments inside of the GTIs), in order. It holds the number of events in each of the `n_bin` equal bins of the segment: every event of the segment is counted once, and no other. A segment with fewer than two events gives no flux at all: the part that makes the theorem partial, see `single_event_lost`.
* `Stingray.Segments.event_segments_error` (Verif/Props/Segments): C119 (errors). Without any segment there is an error.
* `Stingray.Segments.single_event_lost` (Verif/Props/Segments): C119 (single events, negation). An event that is alone in its segment is not counted, and the segment does not appear as a segment with a low count rate.
* `Stingray.Segments.whole_ignores_gti` (Verif/Props/Segments): C119 (no segment size, negation). Without a segment size all the events between the start of the first and the end of the last GTI are counted, also those in the bad time between them; for a binned series, all the samples whatever the GTIs.
* `Stingray.Segments.average_ctrate_spec` (Verif/Props/Segments): C119 (average count rate). `get_average_ctrate` is the number of events in the segments divided by the total length of the segments.
* `Stingray.Segments.binned_segments_partial` (Verif/Props/Segments): C119 (binned, partial). For a series with increasing times, each item is the run of `n_bin` samples (at least two) of a segment, all of them wholly inside one GTI.
* Model: `searchsortedLeft`, `Gti.arange`, `Gti.segmentStarts`, `Gti.timeIntervalsFromGtis`, `Hist.coord`, `Hist.hist1d`, `Hist.hist1dWeight`, `Hist.step1`, `Segments.eventFlux`, `Segments.eventSegments`, `Gti.arangeNat`, `Gti.binIntervalsFromGtis`, `Gti.calculateSegmentBinStart`, `Gti.flatten`, `Gti.gtiBorderBinsOne`, `Segments.binnedSegments`, `Segments.averageCtrate`

### C120 Shift-and-add aligns spectra at the reference frequency

_safe_array_slice_indices, _shift_and_average_core and shift_and_add modelled loop by loop; induction over the spectra gives each bin as a weighted mean over the spectra that have the bin. Status: partial.

* `Stingray.Segments.shift_and_add_bins` (Verif/Props/Segments): C120. With spectra that all have one power per frequency and no more bins in the result than in the spectra: bin `k` of the result adds up, over the spectra in which the bin exists, the powers at `k - nbins / 2` bins from the first frequency not below the reference frequency. The result is the weighted mean of these powers, and the counts are the sums of their weights.
* `Stingray.Segments.shift_and_add_freqs` (Verif/Props/Segments): C120 (frequencies). The frequencies of the result are equally spaced by the resolution of the spectra, and centred on the mean of the reference frequencies.
* `Stingray.Segments.shift_and_add_label_partial` (Verif/Props/Segments): C120 (frequencies of a single spectrum, partial). For an even number of bins, the label of a bin is less than one half of the resolution from the frequency at which the power was measured: the full property, no displacement at all, holds only when the reference frequency is half a bin below a frequency of the spectrum. For an odd number of bins the displacement is up to a whole bin, always downwards.
* `Stingray.Segments.shift_and_add_label_off` (Verif/Props/Segments): C120 (labels, negation). With an odd number of bins a peak at the reference frequency can be labelled by most of a bin too low: the feature measured at frequency 3 appears at 2.1.
* `Stingray.Segments.shift_and_add_too_many` (Verif/Props/Segments): C120 (too many bins, negation). When the result has more bins than the spectra, bins outside of the spectrum are read: an error without compiled code (and undefined with it), instead of bins with no counts.
* Model: `searchsortedLeft`, `Segments.addOne`, `Segments.addSlice`, `Segments.safeSlice`, `Segments.shiftAndAdd`, `Segments.shiftCore`, `Segments.shiftedFreqs`

### C121 Detection levels are the thresholds of the reported probabilities

levels and probabilities modelled with scipy's distribution functions as parameters, which the theorems instantiate with the exact chi square (Mathlib's gamma measure) and beta distributions and any exact inverse of them (existence proved by continuity). Status: partial.

* `Stingray.Stats.detection_levels` (Verif/Props/Detection): C121. Detection levels for epoch folding, `Z^2_n` and power spectra, for every number of bins, harmonics, summed spectra, rebinning, trials and false-alarm probability (not so close to one that the library refuses). The probability reported at the level is exactly the requested one; every statistic above it has a false-alarm probability in all the trials of at most this; and (unless the probability is so small that the library uses its upper bound) every statistic below it has a larger one.
* `Stingray.Stats.phase_dispersion_level` (Verif/Props/Detection): C121 (phase dispersion). The same for phase dispersion minimisation, where small values of the statistic are significant: the values at or below the level have a false-alarm probability of at most the requested one.
* `Stingray.Stats.pds_levels_list` (Verif/Props/Detection): C121 (list of rebinning factors). With a list of rebinning factors there is one level for each, the same as for that factor alone.
* `Stingray.Stats.probability_decreasing` (Verif/Props/Detection): C121 (ordering). In a single spectrum, more significant means more extreme: the reported probability strictly decreases with the statistic.
* `Stingray.Stats.classical_is_pds_partial` (Verif/Props/Detection): C121 (classical p-value, partial). `classical_pvalue` is the single-trial `pds_probability` that replaced it, up to a relative error of `1e-15` per averaged spectrum. Missing: for `power * nspec` above 30000 it gives 0, which C50 shows can be far from it.
* `Stingray.Stats.log_probabilities_partial` (Verif/Props/Detection): C121 (logarithms, partial). Where the asymptotic expressions are not used, the logarithmic versions give the logarithms of the probabilities. Missing: the accuracy of the asymptotic expressions.
* `Stingray.Stats.fold_log_two_bins` (Verif/Props/Detection): C121 (two bins, negation). For a profile of two bins, which has a probability, the logarithmic version refuses.
* Model: `Stats.foldLevel`, `Stats.foldProb`, `Stats.logpMulti`, `Stats.logpSingle`, `Stats.pMulti`, `Stats.pSingle`, `Stats.pdsLevel`, `Stats.pdsProb`, `Stats.z2Level`, `Stats.z2Prob`, `Stats.pdmLevel`, `Stats.pdmProb`, `Stats.pdsLevels`, `Stats.classicalPvalue`, `Stats.pavnosigfun`, `Stats.pvalLoop`, `Stats.pvalTerm`, `Stats.chi2Logp`, `Stats.foldLogProb`, `Stats.pdsLogProb`, `Stats.z2LogProb`

### C122 Segment-by-segment analysis calls the function with exactly the data of each segment

the three ways of making segments and the loop that calls the function modelled; samples of a segment characterised by their times (events) or by consecutive indices inside one GTI (binned). Status: partial.

* `Stingray.Analyze.analyze_events_partial` (Verif/Props/Analyze): C122 (events, partial). On an event list (`dt` not positive, sorted times), `analyze_segments` calls the function once for each segment of `time_intervals_from_gtis` with at least two events, in order, with exactly the events of the segment and the segment as only GTI, and returns the times of the segments and the values. Missing: the segments with less than two events have times but no value, see `analyze_misaligned`.
* `Stingray.Analyze.analyze_gtis_partial` (Verif/Props/Analyze): C122 (GTIs, partial). Without a segment size the function is called for each GTI with at least two samples.
* `Stingray.Analyze.analyze_misaligned` (Verif/Props/Analyze): C122 (alignment, negation). When a segment is skipped, its times are still returned: the values no longer belong to the times at the same position. Here the only value, three events, was measured in the second segment.
* `Stingray.Analyze.analyze_binned_partial` (Verif/Props/Analyze): C122 (binned, partial). On a binned series (increasing times), with segments of at least two bins that do not overlap, the function is called for every segment, with the `nbin` consecutive samples of the segment, all wholly inside one GTI; the times start at the beginning of the first bin. Missing: the end times, which are one bin too late.
* `Stingray.Analyze.analyze_stop_late` (Verif/Props/Analyze): C122 (end times, negation). On binned series the end of each segment is reported one bin after the end of its last bin: consecutive segments overlap, and the last one ends after the GTI.
* `Stingray.Analyze.separate_spec` (Verif/Props/Analyze): C122 (several results). A function with the same number of results, at least two, in all the segments: there is one list for each result, with one entry for each segment.
* `Stingray.Analyze.separate_uneven` (Verif/Props/Analyze): C122 (several results, negation). The number of results of the last segment decides: results of other segments beyond it are lost, and a segment with fewer raises `IndexError`.
* Model: `Analyze.analyzeSegments`, `Analyze.binnedTimes`, `Analyze.runSegments`, `Analyze.segmentsOf`, `Analyze.timeRanges`, `searchsortedLeft`, `Gti.arange`, `Gti.arangeNat`, `Gti.binIntervalsFromGtis`, `Gti.calculateSegmentBinStart`, `Gti.flatten`, `Gti.gtiBorderBinsOne`, `Gti.segmentStarts`, `Gti.timeIntervalsFromGtis`, `Analyze.separate`

### C123 An estimated segment size leaves enough counts in every segment

the search loop modelled with fuel, over the counts that analyze_segments gives; induction on the loop, and a bound on the number of turns from the longest GTI. Status: partial.

* `Stingray.Analyze.estimate_segment_size_partial` (Verif/Props/Analyze): C123 (partial). When `estimate_segment_size` returns a size, it is the first one, from the initial estimate in steps of the time resolution (one second for uneven data), with at least `min_counts` in all the segments that are analysed (C122); it is at least `min_samples` steps. Missing: segments with less than two samples are not analysed, see `estimate_ignores_empty`.
* `Stingray.Analyze.estimate_default_counts` (Verif/Props/Analyze): C123 (only samples). With `min_samples` only, the same number is required of the counts, except for evenly sampled counts, where none is.
* `Stingray.Analyze.estimate_needs_samples` (Verif/Props/Analyze): C123 (only counts, negation). With `min_counts` only, which the error message allows, there is a `TypeError`.
* `Stingray.Analyze.estimate_ignores_empty` (Verif/Props/Analyze): C123 (empty segments, negation). A segment with no event at all does not prevent a size from being accepted: for at least two counts, segments of two seconds are returned although one of them, from 2 to 4, has none.
* `Stingray.Analyze.estimate_terminates` (Verif/Props/Analyze): C123 (termination). On an event list the search ends, with a size or an error, after a number of steps that only depends on the GTIs and the start.
* Model: `Analyze.estimateSize`, `Analyze.searchSize`, `Analyze.analyzeSegments`, `Analyze.binnedTimes`, `Analyze.runSegments`, `Analyze.segmentsOf`, `Analyze.timeRanges`, `searchsortedLeft`, `Gti.arange`, `Gti.arangeNat`, `Gti.binIntervalsFromGtis`, `Gti.calculateSegmentBinStart`, `Gti.flatten`, `Gti.gtiBorderBinsOne`, `Gti.segmentStarts`, `Gti.timeIntervalsFromGtis`

### C124 Each column of a dynamical spectrum is the spectrum at its time

the matrix modelled from the segments of events and the filter for segments without flux; columns characterised by counts of events between bin edges. Status: partial.

* `Stingray.Dynamic.dynamic_columns_partial` (Verif/Props/Dynamic): C124 (partial). If every segment has at least two events, the matrix of a dynamical power spectrum has one column per segment of `time_intervals_from_gtis` (C13), in order, and as many times: time `i` is the middle of segment `i` and column `i` is the spectrum of the binned events of segment `i`. Missing: segments with fewer events, see `dynamic_columns_shift`.
* `Stingray.Dynamic.dynamic_error` (Verif/Props/Dynamic): C124 (errors). Without any whole segment in the GTIs there is an error, not an empty matrix.
* `Stingray.Dynamic.dynamic_columns_shift` (Verif/Props/Dynamic): C124 (empty segments, negation). A segment with fewer than two events has a time but no column: there are fewer columns than times, and every later column is at the time of an earlier segment. Here the only column, of the segment around 6, is the first one, where the first time is 2.
* Model: `searchsortedLeft`, `Dynamic.keptSpectra`, `Dynamic.makeMatrix`, `Gti.arange`, `Gti.segmentStarts`, `Gti.timeIntervalsFromGtis`, `Hist.coord`, `Hist.hist1d`, `Hist.hist1dWeight`, `Hist.step1`, `Segments.eventFlux`, `Segments.eventSegments`

### C125 Rebinning a dynamical spectrum averages over exactly the new bins

the loops over rows and columns modelled around rebin_data (C20); for even grids the result is an explicit overlap-weighted mean around the old times, by a telescoping sum of overlaps. Status: partial.

* `Stingray.Dynamic.rebin_time_partial` (Verif/Props/Dynamic): C125 (times, partial). Rebinning a dynamical spectrum with evenly spaced times to a resolution `dt_new` not finer than the present one: the new bins start where the first segment starts, follow each other without gaps, and there are as many as fit in the data; the new times are their middles. At every frequency the new power is the mean (or sum) over the new bin of the old powers, each weighted with the part of its segment that is in the new bin. A resolution longer than all the data, and an unknown method, are refused. Missing: data with gaps (`rebin_time_gap`), and the number of averaged spectra (`rebin_m_truncated`).
* `Stingray.Dynamic.rebin_frequency_partial` (Verif/Props/Dynamic): C125 (frequencies, partial). The same for the rebinning in frequency, for two or more evenly spaced frequencies. Missing: the number of averaged spectra (`rebin_m_truncated`).
* `Stingray.Dynamic.rebin_time_gap` (Verif/Props/Dynamic): C125 (gaps, negation). With a gap between the GTIs the times are not evenly spaced, and the last segment before the gap is spread over it. Here segments of length 2 around 1, 3, 11 and 13 are rebinned to length 4: the new bins are around 2, 6 and 10, of which the second is in the gap, where nothing was observed, and still has a power; and the first, made of the first two segments with powers 4 and 8, has mean 24/5 instead of 6.
* `Stingray.Dynamic.rebin_m_truncated` (Verif/Props/Dynamic): C125 (number of spectra, negation). When the new resolution is not a multiple of the old one the number of averaged spectra is rounded down: two spectra and a half count as two.
* Model: `searchsortedLeft`, `Dynamic.assemble`, `Dynamic.rebinTime`, `Gti.arange`, `Rebin.Out.stepSize`, `Rebin.Out.xbin`, `Rebin.Out.ybin`, `Rebin.diff`, `Rebin.dxOld`, `Rebin.loop`, `Rebin.loopBody`, `Rebin.prevAt`, `Rebin.rebinData`, `Rebin.sliceSum`, `Dynamic.rebinFrequency`

### C126 Binning an event list counts each event once, and sums attributes

the call chain to make_lightcurve and histogram modelled; counts and weighted sums characterised per half-open bin with the lemmas of C23, C35 and C71. Status: proved.

* `Stingray.EventBins.to_binned_spec` (Verif/Props/EventBins): C126. Binning an event list with `to_binned_timeseries(dt)` gives the whole bins of length `dt` from the start of the first GTI to the end of the last one: the times are their middles, `counts` the number of events in each, and each attribute the sum of its values for the events in the bin. No event of the whole bins is lost or counted twice. A range shorter than a bin is an error.
* Model: `EventBins.toBinned`, `Gti.arange`, `Hist.coord`, `Hist.hist1d`, `Hist.hist1dWeight`, `Hist.pyInt`, `Hist.step1`

### C127 Iterating over light curves covers every segment and counts every event once

the generator modelled over the segment indices and make_lightcurve; counts characterised per bin through the slice of sorted events inside the segment. Status: partial.

* `Stingray.EventBins.lc_iter_segments_partial` (Verif/Props/EventBins): C127 (segments, partial). With a segment size that is not just (within a hundredth of a bin) below a whole number of bins, `to_lc_iter(dt, segment_size)` yields one light curve per segment of `time_intervals_from_gtis` (C13), in order, made of the whole bins of the segment with the number of all events in each bin. Missing: other segment sizes, see `lc_iter_twice`.
* `Stingray.EventBins.lc_iter_gtis_partial` (Verif/Props/EventBins): C127 (GTIs, partial). Without a segment size there is one light curve per GTI, under the same condition on the lengths. Missing besides: GTIs that start after the last event, see `lc_iter_late_gti`.
* `Stingray.EventBins.lc_iter_twice` (Verif/Props/EventBins): C127 (segments, negation). When the segments are just shorter than a whole number of bins, the last bin goes beyond the end of the segment, and the first event of the next segment can be counted in both light curves.
* `Stingray.EventBins.lc_iter_late_gti` (Verif/Props/EventBins): C127 (GTIs, negation). A GTI that starts after the last event is an error, instead of an empty light curve.
* Model: `KeySort.sort`, `searchsortedLeft`, `EventBins.boundaries`, `EventBins.toLcIter`, `Gti.arange`, `Gti.flatten`, `Gti.gtiBorderBins`, `Gti.gtiBorderBinsOne`, `Gti.segmentIndicesUnbinned`, `Gti.segmentStarts`, `Gti.timeIntervalsFromGtis`, `Lightcurve.bincount`, `Lightcurve.lcLength`, `Lightcurve.lcStart`, `Lightcurve.makeLightcurve`, `Lightcurve.npHistogram`, `Lightcurve.pyInt`, `Lightcurve.timebin`, `stableSort`

### C128 Colour and intensity evolution describe each segment

colour and intensity functions over analyze_segments (C122); the rows passed to them are the events of the segment, by the selection lemma of C122. Status: partial.

* `Stingray.EventBins.evolution_partial` (Verif/Props/EventBins): C128 (partial). On an event list where every segment (or, without a segment size, every GTI) has at least two events, there is one value per segment, at the position of the times of the segment. Missing: segments with fewer events (C122, and `evolution_no_segment`).
* `Stingray.EventBins.color_spec` (Verif/Props/EventBins): C128. The colour of a segment is the number of its events in the second energy range divided by the number in the first; it has no value when one of them is zero, and never otherwise.
* `Stingray.EventBins.intensity_spec` (Verif/Props/EventBins): C128. The intensity times the length of the segment is the number of events of the segment in the energy range, and the error is that of a Poisson variable: its square, times the length squared, is the same number.
* `Stingray.EventBins.evolution_no_segment` (Verif/Props/EventBins): C128 (no values, negation). An event list with fewer than two events in each segment raises an error, instead of giving the (small) intensities.
* `Stingray.EventBins.color_error` (Verif/Props/EventBins): C128. The error of a colour is not smaller than the propagation of the (independent) Poisson errors of the two numbers, and at most a factor of the square root of 2 larger.
* Model: `Analyze.analyzeSegments`, `Analyze.binnedTimes`, `Analyze.runSegments`, `Analyze.segmentsOf`, `Analyze.timeRanges`, `searchsortedLeft`, `EventBins.evolution`, `Gti.arange`, `Gti.arangeNat`, `Gti.binIntervalsFromGtis`, `Gti.calculateSegmentBinStart`, `Gti.flatten`, `Gti.gtiBorderBinsOne`, `Gti.segmentStarts`, `Gti.timeIntervalsFromGtis`, `EventBins.color`, `EventBins.countIn`, `Lightcurve.energyMask`, `EventBins.intensity`

### C129 Power colours are ratios of the band powers

power_color modelled over integrate_power_in_frequency_range (C46): band integrals for increasing edges; invariance under scaling by commuting the scale through each step. Status: partial.

* `Stingray.PowerColors.power_color_partial` (Verif/Props/PowerColors): C129 (partial). For evenly spaced frequencies and five increasing edges inside of the frequency range, such that each of the four bands has at least two bins, and without excluded frequencies, the first colour is the (noise-subtracted) power in the first band divided by that in the third, the second colour the power in the second divided by that in the fourth; the colour has no value when its denominator is zero. The powers given are not modified. Missing: bands inside a single bin (C46), and excluded frequencies, see below.
* `Stingray.PowerColors.power_color_scale` (Verif/Props/PowerColors): C129. Colours do not depend on the normalisation of the powers: when the powers and the noise level are multiplied by the same number, the colours are the same (and the same inputs are refused), also with excluded frequencies.
* `Stingray.PowerColors.power_color_refuses` (Verif/Props/PowerColors): C129 (errors). Other than five edges, and edges outside of the range of the spectrum, are refused.
* `Stingray.PowerColors.exclude_no_influence_partial` (Verif/Props/PowerColors): C129 (excluded frequencies, partial). When the powers are excluded between `r.1` and `r.2`, and the bin used as lower neighbour (the first with frequency not below `r.1`) is not itself excluded, the powers of the excluded bins have no influence at all: two spectra that only differ there give the same result. Missing: the other cases, see `exclude_uses_excluded`.
* `Stingray.PowerColors.exclude_uses_excluded` (Verif/Props/PowerColors): C129 (excluded frequencies, negation). The power put in place of the excluded ones is computed with the first bin whose middle is not below the lower limit, which may be one of the excluded bins: here the bin at 4, from 7/2 to 9/2, is inside of the excluded range from 13/4 to 23/4, and its power still decides the colour.
* `Stingray.PowerColors.exclude_modifies` (Verif/Props/PowerColors): C129 (excluded frequencies, negation). The array of powers given by the user is overwritten.
* `Stingray.PowerColors.exclude_end` (Verif/Props/PowerColors): C129 (excluded frequencies, negation). Excluding up to the end of the spectrum is an error, whatever the edges of the bands.
* Model: `searchsortedLeft`, `Fourier.PowerBin.df`, `Fourier.PowerBin.f`, `Fourier.PowerBin.noise`, `Fourier.PowerBin.power`, `Fourier.fixFirst`, `Fourier.fixLast`, `Fourier.integratePower`, `PowerColors.excludeRange`, `PowerColors.powerColor`, `PowerColors.quotient`, `PowerColors.toBins`

### C130 The hue is one angle per direction in the colour plane

arctan2 is the argument of a complex number in Mathlib; range, direction and inverse from the polar form; the loops by induction on the number of turns. Status: proved.

* `Stingray.PowerColors.limit_angle_spec` (Verif/Props/PowerColors): C130. Bringing an angle to one turn: the result is in `[0, 360)` and differs from the angle by whole turns.
* `Stingray.PowerColors.limit_angle_terminates` (Verif/Props/PowerColors): C130. The loops end, for every angle, after at most as many turns as the angle has whole turns, and one more.
* `Stingray.PowerColors.hue_range` (Verif/Props/PowerColors): C130. The hue is between -45 degrees (included) and 315 degrees (excluded): one value for each direction.
* `Stingray.PowerColors.hue_direction` (Verif/Props/PowerColors): C130. The hue is the angle, clockwise from the direction at 135 degrees, of the direction from the centre to the colours (in logarithms): every point other than the centre is at its distance from the centre in the direction of its hue.
* `Stingray.PowerColors.hue_of_direction` (Verif/Props/PowerColors): C130. Colours at a distance `d > 0` from the centre in the direction of a hue have that hue: it does not depend on the distance.
* `Stingray.PowerColors.hue_from_color_power` (Verif/Props/PowerColors): C130. For positive colours, the hue only depends on the ratios of the colours to the centre, and raising both ratios to the same positive power does not change it.
* Model: `PowerColors.angleDown`, `PowerColors.angleUp`, `PowerColors.limitAngle`, `PowerColors.hueFromLog`, `PowerColors.hueFromColor`

### C131 The intrinsic coherence solves its equation

each round maps x to y + (x - y)/m, with y the solution of the equation: induction over the rounds with the distance to y as invariant. Status: partial.

* `Stingray.Fourier.intrinsic_coherence_partial` (Verif/Props/CrossErrors): C131. For powers above the noise and at most 500 averages, when the equation for the intrinsic coherence has a solution that is not negative, the estimate is that solution, with an error of at most a hundredth (more exactly the tolerance divided by the number of averages minus one, or what forty rounds leave of the distance from 1), and it lies between 1 and the solution.
* `Stingray.Fourier.intrinsic_coherence_many` (Verif/Props/CrossErrors): C131 (many averages). Above 500 averages no bias is subtracted: the estimate is exactly `|C|² / ((P1 - N1) (P2 - N2))`.
* `Stingray.Fourier.intrinsic_coherence_nonneg` (Verif/Props/CrossErrors): C131 (lower bound). Above the noise the estimate is never negative.
* `Stingray.Fourier.intrinsic_coherence_cycle` (Verif/Props/CrossErrors): C131 (negation). When the solution would be negative, the rounds can go back and forth between two values, neither of them a solution: with powers 1, no noise, two averages and `|C|² = 2/5` the values are 2/5, 1/10, 2/5, 1/10, ..., and the result is what the fortieth round happens to give.
* Model: `Fourier.Cx.conj`, `Fourier.Cx.im`, `Fourier.Cx.re`, `Fourier.biasTerm`, `Fourier.intrinsicCoherence`, `Fourier.intrinsicLoop`

### C132 Errors of cross spectra and covariance are consistent

the formulas modelled with explicit missing values; existence from Cauchy-Schwarz, relations by algebra with a square root that is only assumed to square to its argument. Status: partial.

* `Stingray.Fourier.cross_errors_spec` (Verif/Props/CrossErrors): C132. Without a common reference, for cross powers that satisfy the Cauchy-Schwarz inequality `|C|² ≤ P1 P2`, the errors of the real and imaginary part and of the modulus exist: the squared errors of real and imaginary part add up to that of the modulus, `P1 P2 / m`, and differ by `(Re² - Im²) / m`.
* `Stingray.Fourier.cross_errors_phase` (Verif/Props/CrossErrors): C132 (phase). Without a common reference the phase has an error exactly when the raw coherence is positive and at most 1, and twice the number of averages times the squared error is then `(1 - coherence) / coherence`.
* `Stingray.Fourier.cross_errors_common_partial` (Verif/Props/CrossErrors): C132 (common reference, partial). With a common reference, when the squared modulus is above the bias, and the coherence without noise in the reference at most 1, all errors exist: real part, imaginary part and modulus have the same, `2 m d² = P_ref (P - (|C|² - b²) / (P_ref - N_ref))`, and the error of the phase is that error divided by the modulus without bias. Missing: moduli below the bias, see `cross_errors_no_phase`.
* `Stingray.Fourier.cross_errors_no_phase` (Verif/Props/CrossErrors): C132 (common reference, negation). With a common reference, when the squared modulus is below the bias the phase has no error (not a number), whatever the powers; `raw_coherence` guards against this, this function does not.
* `Stingray.Fourier.warns_iff` (Verif/Props/CrossErrors): C132 (warning, negation). For a single number of averages there is a warning exactly below 30; for an array, always.
* `Stingray.Fourier.covariance_spec` (Verif/Props/CrossErrors): C132 (covariance). The covariance has the phase of the cross power, and its squared modulus times the reference power (above the noise) is the squared modulus of the cross power times the width in frequency. So for a band that is fully coherent with the reference, `|C|² = P (P_ref - N_ref)`, it is the power in the band times the width, which is the squared rms.
* `Stingray.Fourier.covariance_none` (Verif/Props/CrossErrors): C132 (covariance, errors). At or below the noise of the reference there is no covariance.
* Model: `Fourier.CrossErr.im`, `Fourier.CrossErr.modulus`, `Fourier.CrossErr.re`, `Fourier.crossErrors`, `Fourier.ratio`, `Fourier.root`, `Fourier.Cx.conj`, `Fourier.Cx.im`, `Fourier.Cx.re`, `Fourier.biasTerm`, `Fourier.rawCoherence`, `Fourier.CrossErr.phase`, `Fourier.warns`, `Fourier.crossToCovariance`

### C133 Window functions are symmetric windows of the requested length

window formulas over the reals of Mathlib; symmetry from cos(2 pi k - x) = cos x, bounds from bounds of the cosine and polynomial inequalities. Status: partial.

* `Stingray.UtilsStats.window_length` (Verif/Props/Windows): C133 (length). A window has as many samples as asked for (the sign of the length is ignored).
* `Stingray.UtilsStats.window_symmetric_partial` (Verif/Props/Windows): C133 (partial). Windows are symmetric: reading them backwards gives the same values. Missing: triangular and Parzen windows of an even number of samples, see `window_asymmetric`.
* `Stingray.UtilsStats.window_asymmetric` (Verif/Props/Windows): C133 (negation). Triangular and Parzen windows of an even number of samples are not symmetric.
* `Stingray.UtilsStats.window_bounds` (Verif/Props/Windows): C133 (values). All values of windows of at least two samples, other than flat-top windows, are between 0 and 1.
* `Stingray.UtilsStats.window_peak` (Verif/Props/Windows): C133 (peak). In the middle of an odd number of samples (at least three) the window has its peak, 1, for all types but the Blackman and flat-top ones.
* `Stingray.UtilsStats.window_errors` (Verif/Props/Windows): C133 (errors). Only the eight known names are accepted, whatever the length, in any case.
* `Stingray.UtilsStats.window_ends` (Verif/Props/Windows): C133 (ends). The first value of a window of at least four samples, by name: 1 for the uniform one, 0 for the Parzen, Hanning, Welch and flat-top ones, 0.08 for the Hamming one, 0.006879 for the Blackman one, and just over one half for the triangular one.
* `Stingray.UtilsStats.parzen_quarters` (Verif/Props/Windows): C133 (Parzen). The values of a Parzen window of `8k + 1` samples at the quarters of its left half: 0, 1/32, 1/4 and, in the middle, 1.
* Model: `UtilsStats.createWindow`, `UtilsStats.parzenHalf`, `UtilsStats.windowOf`, `UtilsStats.windowValue`

### C134 Excess variance and standard errors

the formulas modelled with explicit missing values; relations by algebra with a square root that is only assumed to square to its argument. Status: partial.

* `Stingray.UtilsStats.excess_variance_values` (Verif/Props/UtilsStats): C134 (values). The excess variance is the variance of the counts minus the mean squared error; normalised, it is divided by the squared mean; `fvar` is the root of the normalised one, and has a value exactly when the excess variance is not negative.
* `Stingray.UtilsStats.excess_variance_errors_partial` (Verif/Props/UtilsStats): C134 (errors, partial). When the excess variance is not negative, the squared error of the normalised excess variance is `(2 s² / n + 4 s x / n) / mean⁴`, with `s` the mean squared error, `x` the excess variance and `n` the number of samples; the error without normalisation is that one times the squared mean; and for a positive excess variance, the error of `fvar` times `2 fvar` is that of the normalised one (propagation of errors). Missing: negative excess variance, see `excess_variance_no_errors`.
* `Stingray.UtilsStats.excess_variance_no_errors` (Verif/Props/UtilsStats): C134 (errors, negation). With a negative excess variance, a common case for weak variability, no normalisation has an error (not a number), not even those whose value exists.
* `Stingray.UtilsStats.excess_variance_unit` (Verif/Props/UtilsStats): C134 (unit). Measuring counts and errors in another unit multiplies the excess variance by the square of the factor, and leaves its normalised value alone.
* `Stingray.UtilsStats.standard_error_spec` (Verif/Props/UtilsStats): C134 (standard errors). The squared standard error of at least two values, times `n (n - 1)`, is the sum of the squared distances from the mean; of one value there is none.
* Model: `UtilsStats.excessVariance`, `UtilsStats.mean`, `UtilsStats.quot`, `UtilsStats.root`, `UtilsStats.standardError`

### C135 Energy ranges with equal counts

percentiles modelled as interpolation in the sorted list; monotone and between its neighbours; number of elements below it by the position. Status: partial.

* `Stingray.UtilsStats.equal_count_ranges_partial` (Verif/Props/UtilsStats): C135 (partial). Dividing the energies (not empty, with some between the limits) into `n > 1` ranges: there are `n + 1` edges, in non-decreasing order, the first is the lower limit and the last the upper one (those given, or the lowest and highest energy); and when the energies are distinct, the number of energies within the limits and below edge `k`, for `0 < k < n`, is `k / n` of the number of energies minus one, rounded up: so the numbers in any two ranges differ by at most one, the highest energy left aside. Missing: equal energies, see `ranges_ties`.
* `Stingray.UtilsStats.ranges_ties` (Verif/Props/UtilsStats): C135 (negation). With equal energies the ranges do not have equal counts: here the first of the two ranges is empty.
* `Stingray.UtilsStats.ranges_empty` (Verif/Props/UtilsStats): C135 (negation). When there are no energies between the limits there is no error, but edges without a value.
* Model: `KeySort.sort`, `UtilsStats.equalCountRanges`, `UtilsStats.extremum`, `UtilsStats.limitOr`, `UtilsStats.percentile`, `stableSort`

### C136 Third-order cumulants are the mean triple products at each pair of lags

the Toeplitz matrix is shown to hold the signal, zero outside the observation, at each lag from each time, so that the product with its transpose is the sum of triple products; the scaling matrix is shown to be the cardinality of the set of usable times by cases on the signs of the lags; a witness shows the wrap-around at a largest lag equal to the length Status: partial.

* `Stingray.Bispectrum.maxlag_spec` (Verif/Props/Bispectrum): C136. The largest lag is the absolute value of the one given, or half the number of samples.
* `Stingray.Bispectrum.cumulant_biased_partial` (Verif/Props/Bispectrum): C136 (partial). With a largest lag `L` below the number of samples, element `(i, k)` of the biased estimate is the sum of the triple products of the centred counts at lags `i - L` and `k - L`, divided by the number of samples. Missing: larger lags, see `cumulant_wraps`.
* `Stingray.Bispectrum.cumulant_unbiased_partial` (Verif/Props/Bispectrum): C136 (partial). The unbiased estimate is the mean of the triple products over the times at which the three samples were all observed; zero where there is no such time.
* `Stingray.Bispectrum.triple_symm` (Verif/Props/Bispectrum): C136. The cumulant does not depend on the order of the two lags.
* `Stingray.Bispectrum.triple_origin` (Verif/Props/Bispectrum): C136. Nor on which of the three samples the lags are counted from.
* `Stingray.Bispectrum.cumulant_shift` (Verif/Props/Bispectrum): C136. Adding the same number to all counts does not change the cumulants, at any lag and scale.
* `Stingray.Bispectrum.cumulant_refuses` (Verif/Props/Bispectrum): C136. A largest lag above the number of samples is refused.
* `Stingray.Bispectrum.cumulant_wraps` (Verif/Props/Bispectrum): C136 (negation). A largest lag equal to the number of samples is accepted, and the index wraps around: at a lag as long as the observation no time has three samples, and the value is not zero.
* Model: `Bispectrum.maxlagOf`, `Bispectrum.cum3`, `Bispectrum.cumulant3`, `Bispectrum.normalize`, `Bispectrum.pyIdx`, `Bispectrum.scale0`, `Bispectrum.scale1`, `Bispectrum.scaleMatrix`, `Bispectrum.toeplitz`

### C137 Lags, frequencies and window of a bispectrum

closed form of the labels, compared with the frequencies of a transform of 2 L + 1 points (they differ by the factor 1 + 1/(2L)); closed form of the window, with a witness that it lacks one of the symmetries Status: partial.

* `Stingray.Bispectrum.labels_partial` (Verif/Props/Bispectrum): C137 (partial). Label `i` of the frequencies is the frequency of row `i` of the transform times `1 + 1 / (2 L)`. Missing: the labels are not the frequencies, see `labels_off`.
* `Stingray.Bispectrum.labels_off` (Verif/Props/Bispectrum): C137 (negation). No label but the one of the zero frequency is the frequency of its row.
* `Stingray.Bispectrum.lags_spec` (Verif/Props/Bispectrum): C137. The lags are the multiples of the time step from `-L` to `L`.
* `Stingray.Bispectrum.window_partial` (Verif/Props/Bispectrum): C137 (partial). The two-dimensional window at lags `a` and `b` is the product of the windows at `a`, at `b` and at `a + b`. Missing: the product that keeps the symmetries of the cumulant has the window at `a - b`, see `window_breaks_origin`.
* `Stingray.Bispectrum.window_symm` (Verif/Props/Bispectrum): C137. The window does not depend on the order of the lags.
* `Stingray.Bispectrum.window_breaks_origin` (Verif/Props/Bispectrum): C137 (negation). The window does depend on which of the three samples the lags are counted from, although it is even: at lags `1, 1` it is not its value at `-1, 0`.
* Model: `Bispectrum.freqs`, `Bispectrum.lags`, `Bispectrum.toeplitz`, `Bispectrum.window2d`

### C138 Splitting good time intervals by exposure respects large gaps and the requested exposure

the gaps of a list of GTIs are consecutive ends and starts; every piece of a split is shown to lie between two consecutive indices, and the indices are those of the edges of the cumulative exposure or of the midpoints of the large gaps Status: partial.

* `Stingray.Gti.large_btis_spec` (Verif/Props/GtiSplit): C138. For a limit that is not negative, `find_large_bad_time_intervals` gives the midpoint of every gap between consecutive GTIs that is longer than the limit, and nothing else, in order; an empty list is refused.
* `Stingray.Gti.exposure_chunks_bounded` (Verif/Props/GtiSplit): C138. However `split_gtis_by_exposure` splits forward-running GTIs, every chunk but for its last GTI holds at most one and a half times the requested exposure; when the exposure rounds to at least two chunks it holds less than the mean exposure of a chunk; and otherwise the GTIs are returned as the only chunk.
* `Stingray.Gti.exposure_sep_partial` (Verif/Props/GtiSplit): C138 (new interval at large gaps, partial). For ordered GTIs with at least one gap longer than `new_interval_if_gti_sep`, `split_gtis_by_exposure` succeeds; the chunks together cover what the GTIs cover and have the same exposure; no chunk has GTIs on both sides of a gap longer than the given separation; and every chunk but for its last GTI holds at most one and a half times the requested exposure. Without such a gap the call raises `IndexError` (`split_gtis_by_exposure_sep_raises`), which is what is missing.
* Model: `Gti.findLargeBtis`, `Gti.findLargeBtisLoop`, `searchsortedLeft`, `Gti.arange`, `Gti.cutGti`, `Gti.exposureEdges`, `Gti.splitGtisAtIndices`, `Gti.splitGtisByExposure`, `Gti.splitLoop`, `Gti.splitGtisByExposureSep`

### C139 Filling bad time intervals keeps the good data and simulates only inside short gaps

the random generator is a parameter constrained only by the range and number of its draws; each turn of the loop is shown to give samples inside its interval and the argsort is any sort by time Status: partial.

* `Stingray.FillBti.fill_rows_partial` (Verif/Props/FillBti): C139 (partial). Filling an object that has bad time intervals: the result is in time order, and consists of the good samples, each once and with the attributes it had, and of simulated samples inside the short bad time intervals, whose randomised attributes have values found in the data and whose other attributes are NaN; the samples in the other bad times are dropped. Missing: when every short interval is skipped for lack of data nothing is simulated, but the good samples may lose their attributes (`fill_loses_attributes`).
* `Stingray.FillBti.fill_even` (Verif/Props/FillBti): C139 (even sampling). For an evenly sampled object with at least one short bad time interval the good samples keep their attributes, and the new times are the centres of the bins of width `dt` that start in each short interval.
* `Stingray.FillBti.fill_nothing` (Verif/Props/FillBti): C139 (nothing bad). Without bad time intervals between the first and the last time, the object comes back as it was.
* `Stingray.FillBti.fill_from_bad_data` (Verif/Props/FillBti): C139 (negation). The randomised attributes of the simulated samples need not come from good data: here every simulated sample has the value of the sample in the bad time interval, which was dropped. (The positions in the good samples are used as positions in the whole attribute; and with a buffer of at least twice the position of the interval no value before it is used.)
* `Stingray.FillBti.fill_loses_attributes` (Verif/Props/FillBti): C139 (negation, attributes). When every short interval is skipped for lack of data, the result has lost the attributes of all samples.
* Model: `KeySort.sort`, `searchsortedLeft`, `searchsortedRight`, `FillBti.Filled.rows`, `FillBti.Rng.choice`, `FillBti.Rng.poisson`, `FillBti.Rng.uniform`, `FillBti.Row`, `FillBti.Series.dt`, `FillBti.Series.gti`, `FillBti.Series.mask`, `FillBti.Series.random`, `FillBti.Series.rows`, `FillBti.column`, `FillBti.fill`, `FillBti.fillOne`, `FillBti.meanRate`, `FillBti.newColumn`, `FillBti.newTimes`, `FillBti.sideRate`, `FillBti.widened`, `Gti.appendGtis`, `Gti.arange`, `Gti.checkGtis`, `Gti.checkSeparate`, `Gti.checkSeparateCore`, `Gti.cumsumFrom`, `Gti.flatten`, `Gti.getBtis`, `Gti.joinEqualGtiBoundaries`, `Gti.joinEqualLoop`, `Gti.joinGtis`, `Gti.joinSweep`, `Gti.rollLeft`, `Gti.rollRight`, `Gti.select`, `Gti.taggedBoundaries`, `UtilsMisc.findNearest`, `UtilsMisc.pyGet`, `UtilsMisc.searchsorted`, ...

### C140 Good time intervals after filling

from the theorems on join_gtis, applied to the GTIs and the widened intervals Status: partial.

* `Stingray.FillBti.fill_gti_partial` (Verif/Props/FillBti): C140 (partial). After filling, the good times are those of before and the short bad time intervals widened by a hundred-thousandth of their length on either side; nothing else. Missing: intervals skipped for lack of data are also called good (`fill_skipped_is_good`).
* `Stingray.FillBti.fill_no_short_raises` (Verif/Props/FillBti): C140 (negation). If there are bad time intervals but all are longer than the limit, the method raises `ValueError` instead of returning the good data.
* `Stingray.FillBti.fill_skipped_is_good` (Verif/Props/FillBti): C140 (negation, skipped intervals). An interval that is skipped, and so gets no samples, is nevertheless called good.
* Model: `KeySort.sort`, `searchsortedLeft`, `searchsortedRight`, `FillBti.Filled.gti`, `FillBti.Rng.choice`, `FillBti.Rng.poisson`, `FillBti.Rng.uniform`, `FillBti.Row`, `FillBti.Series.dt`, `FillBti.Series.gti`, `FillBti.Series.mask`, `FillBti.Series.random`, `FillBti.Series.rows`, `FillBti.column`, `FillBti.fill`, `FillBti.fillOne`, `FillBti.meanRate`, `FillBti.newColumn`, `FillBti.newTimes`, `FillBti.sideRate`, `FillBti.widened`, `Gti.appendGtis`, `Gti.arange`, `Gti.checkGtis`, `Gti.checkSeparate`, `Gti.checkSeparateCore`, `Gti.cumsumFrom`, `Gti.flatten`, `Gti.getBtis`, `Gti.joinEqualGtiBoundaries`, `Gti.joinEqualLoop`, `Gti.joinGtis`, `Gti.joinSweep`, `Gti.rollLeft`, `Gti.rollRight`, `Gti.select`, `Gti.taggedBoundaries`, `UtilsMisc.findNearest`, `UtilsMisc.pyGet`, `UtilsMisc.searchsorted`, ...

### C141 The reference band of a covariance spectrum leaves out the band of interest

Model/Covariance.lean models the reference bands; Props/Covariance.lean proves by induction over the bands that reference plus band is the sum of all bands, and that bounds always raise (negation). Status: partial.

* `Stingray.Covariance.reference_excludes_band` (Verif/Props/Covariance): C141. A covariance spectrum of light curves of equal length, without reference band: the reference band of a band of interest has, in every bin, the counts of all the bands together less those of the band itself; there is one for every band, with the times of the first light curve.
* `Stingray.Covariance.bounds_with_curves_raise` (Verif/Props/Covariance): C141 (negation). With light curves, a reference band given by two bounds always raises `ValueError`, although the documentation allows it.
* Model: `KeySort.sort`, `Covariance.Curve.counts`, `Covariance.Curve.time`, `Covariance.addCounts`, `Covariance.apart`, `Covariance.createBands`, `Covariance.curveBands`, `Covariance.curveOf`, `Covariance.energyRange`, `Covariance.eventBands`, `Covariance.givenRefs`, `Covariance.makeLightcurves`, `Covariance.observation`, `Covariance.prepare`, `Covariance.refBounds`, `Covariance.refsFromCurves`, `Covariance.refsFromEvents`, `Covariance.unique`, `Gti.arange`, `Gti.flatten`, `Lightcurve.bincount`, `Lightcurve.lcLength`, `Lightcurve.lcStart`, `Lightcurve.makeLightcurve`, `Lightcurve.npHistogram`, `Lightcurve.pyInt`, `Lightcurve.timebin`

### C142 The covariance spectrum is the sample covariance over the root of the excess variance of the reference

The values are characterised by the identities n(n-1)c = nΣxy - ΣxΣy and n²v = nΣy² - (Σy)² - n²noise, independent of the code's formulas; laws and the Cauchy-Schwarz bound by algebra and induction; the error formula is refuted with a witness over the reals. Status: partial.

* `Stingray.Covariance.covar_spec` (Verif/Props/Covariance): C142. The covariance spectrum of one band and its reference band, of equal length with at least two bins and no negative total: the unnormalised covariance is the sample covariance of the counts, the excess variance is that of the reference band; the value of the spectrum is the covariance divided by the square root of the excess variance if this is positive, and NaN otherwise.
* `Stingray.Covariance.covar_rows` (Verif/Props/Covariance): C142. The spectrum has one row for each light curve, made of it and its reference band.
* `Stingray.Covariance.cov_laws` (Verif/Props/Covariance): C142. The covariance is symmetric, does not change when a constant is added to a light curve, and is multiplied by the factor that multiplies a light curve.
* `Stingray.Covariance.cov_bounded` (Verif/Props/Covariance): C142. The covariance of two bands is bounded by their variances: its square is at most the product of the sample variances `(n Σx² - (Σx)²) / (n (n - 1))`.
* `Stingray.Covariance.covar_error_partial` (Verif/Props/Covariance): C142 (error, partial). The reported error of a covariance averaged over `m` segments of `N` bins, with the excess variances `X`, `Y` of both bands and the standard deviations `a`, `b`: its square times `N m Y` is `X b + Y a + a b`, so that it decreases with the square root of the number of segments. Missing: the published formula has `a²`, `b²` (`covar_error_formula`).
* `Stingray.Covariance.covar_error_formula` (Verif/Props/Covariance): C142 (negation). The error of the covariance is computed from standard deviations where the published formula has variances: with `std = 2` and the two bins `0, 10` in both bands, the excess variances are 21, and the squared error times `N M xs` is `21·2 + 21·2 + 2·2 = 88` instead of `21·4 + 21·4 + 4·4 = 184`.
* Model: `Covariance.Row.cov`, `Covariance.Row.covar`, `Covariance.Row.xs`, `Covariance.bandRow`, `Covariance.calcStd`, `Covariance.covError`, `Covariance.excessVar`, `Covariance.mean`, `Covariance.npCov`, `Covariance.quot`, `Covariance.root`, `Covariance.var`, `Covariance.Curve.counts`, `Covariance.constructCovar`, `Covariance.refOf`

### C143 An averaged covariance spectrum averages over all segments

Refuted in general: the number of segments is computed from the end of the first segment, so that every result is that of the first segment (negation, proved for all inputs); a single reference light curve always raises (negation). Partial: equality with the unaveraged spectrum when one segment contains everything. Status: partial.

* `Stingray.Covariance.averaged_first_segment_only` (Verif/Props/Covariance): C143 (negation). An averaged covariance spectrum uses the first segment only. The light curves of interest and their reference bands have the same sorted times, beginning at `start`; the segment size is positive. Then every row is that of the bins with times in `[start, start + segment)`: nothing of the later segments enters, whatever the length of the light curves.
* `Stingray.Covariance.averaged_whole_partial` (Verif/Props/Covariance): C143 (partial). When the segment contains the whole observation, the averaged spectrum is the spectrum. Missing: the average over several segments, which the code does not compute.
* `Stingray.Covariance.averaged_single_reference_raises` (Verif/Props/Covariance): C143 (negation). An averaged spectrum with one light curve of two or more bins as reference band, which the documentation allows, always raises.
* Model: `searchsortedLeft`, `Covariance.Curve.counts`, `Covariance.Curve.time`, `Covariance.Row.cov`, `Covariance.Row.err`, `Covariance.Row.xs`, `Covariance.bandRow`, `Covariance.calcStd`, `Covariance.constructAvg`, `Covariance.covError`, `Covariance.excessVar`, `Covariance.mean`, `Covariance.meanRow`, `Covariance.nSegments`, `Covariance.npCov`, `Covariance.oadd`, `Covariance.quot`, `Covariance.refOf`, `Covariance.refOfAvg`, `Covariance.root`, `Covariance.segRow`, `Covariance.truncate`, `Covariance.var`, `Covariance.constructCovar`, `KeySort.sort`, `Covariance.addCounts`, `Covariance.apart`, `Covariance.averagedCovariance`, `Covariance.createBands`, `Covariance.curveBands`, `Covariance.curveOf`, `Covariance.energyRange`, `Covariance.eventBands`, `Covariance.givenRefs`, `Covariance.makeLightcurves`, `Covariance.observation`, `Covariance.prepare`, `Covariance.refBounds`, `Covariance.refsFromCurves`, `Covariance.refsFromEvents`, ...

### C144 Covariance spectra of events bin the arrival times of the events in each band

The general count of times and energies is proved for every band (the array with both columns is binned); with energies below all times this gives the right counts (partial). Negations: energies binned as times, events on the edge in both bands, bounds ignored for all inputs. Status: partial.

* `Stingray.Covariance.curveOf_counts` (Verif/Props/CovarianceEvents): C144. What the light curve of a band really counts: in every bin, the rows whose time is in the bin and the rows whose *energy* is in the bin.
* `Stingray.Covariance.event_curves_partial` (Verif/Props/CovarianceEvents): C144 (partial). A covariance spectrum of events whose energies are all smaller than all the times (in other cases see the negation), in the bands given by the user: there is one light curve for each band; it counts, in bins of the given size from the first event on, the events with energies in the band, edges included; its reference band (when there is one for each band) counts the events with energies at or outside the edges of the band.
* `Stingray.Covariance.energies_binned_as_times` (Verif/Props/CovarianceEvents): C144 (negation). The energies are binned together with the times: of three events at the times 0, 5 and 10, with energies 6, 6 and 7, the light curve of the band from 5 to 8 has five counts in its ten bins (the event at the end is not counted), because two of energies 6 and one of 7 fall in the bins 6 and 7.
* `Stingray.Covariance.edge_in_both` (Verif/Props/CovarianceEvents): C144 (negation). An event whose energy is exactly an edge of the band is in the band and in its reference band, so that the band is correlated with itself.
* `Stingray.Covariance.bounds_ignored` (Verif/Props/CovarianceEvents): C144 (negation). For events, the reference band that the user gives is ignored: whatever the two bounds, the light curves and reference bands are those of a call without them.
* `Stingray.Covariance.reference_kind` (Verif/Props/CovarianceEvents): C144. One reference light curve serves for all bands exactly if the reference range is entirely at or below all bands, or entirely at or above all of them; otherwise each band has its own, without its events.
* `Stingray.Covariance.covariance_errors` (Verif/Props/CovarianceEvents): C144. Unusable arguments: events without a time resolution raise `ValueError`, as does an empty list of bands; a list of reference light curves of another length than that of the light curves raises `AssertionError`.
* Model: `KeySort.sort`, `Covariance.Curve.counts`, `Covariance.Curve.time`, `Covariance.curveOf`, `Gti.arange`, `Gti.flatten`, `Lightcurve.bincount`, `Lightcurve.lcLength`, `Lightcurve.lcStart`, `Lightcurve.makeLightcurve`, `Lightcurve.npHistogram`, `Lightcurve.pyInt`, `Lightcurve.timebin`, `Covariance.addCounts`, `Covariance.apart`, `Covariance.createBands`, `Covariance.curveBands`, `Covariance.energyRange`, `Covariance.eventBands`, `Covariance.givenRefs`, `Covariance.makeLightcurves`, `Covariance.observation`, `Covariance.prepare`, `Covariance.refBounds`, `Covariance.refsFromCurves`, `Covariance.refsFromEvents`, `Covariance.unique`, `stableSort`

### C145 The default bands of a covariance spectrum hold each event once

The bands are characterised from the sorted distinct energies; coverage is proved in general, disjointness if each difference is less than twice the one before (partial), with a negation for other energies. Status: partial.

* `Stingray.Covariance.default_bands` (Verif/Props/CovarianceEvents): C145. Without bands, a covariance spectrum of events has one band for each different energy, and the energy is in the middle of its band: every event is in some band.
* `Stingray.Covariance.default_bands_single` (Verif/Props/CovarianceEvents): C145. With a single energy, or no events, there are no bands: `IndexError`.
* `Stingray.Covariance.default_bands_disjoint_partial` (Verif/Props/CovarianceEvents): C145 (partial). If every difference between neighbouring energies is less than twice the one before, each event is in exactly one band. Missing: other energies, see the negation.
* `Stingray.Covariance.default_bands_overlap` (Verif/Props/CovarianceEvents): C145 (negation). With unequally spaced energies an event can be in two bands: of the energies 1, 2 and 10, the energy 1 is in its own band and in that of the energy 2, which reaches from -2 to 6.
* Model: `Covariance.createBands`, `Covariance.unique`

### C146 Splitting a time series by lists of GTIs keeps every row of each list

Model/TimeSplit.lean on top of the model of slicing; the rows of each part are characterised exactly for sorted times; negations for repeated times at the end, lists without rows (general), and a first list equal to that of the series (general). Status: partial.

* `Stingray.TimeSeries.split_rows_partial` (Verif/Props/TimeSplit): C146 (partial). Splitting a sorted time series by lists of GTIs, the first of which is not (to a thousandth of a second) that of the series, when it succeeds: there is one part for each list that is not empty, in order; its GTIs are the list, and its rows are those from the start of the first interval to the end of the last one. Missing: of several rows at exactly the end only the first is kept; lists without rows raise; and a first list equal to that of the series (see the negations).
* `Stingray.TimeSeries.split_loses_event` (Verif/Props/TimeSplit): C146 (negation). Of two events at exactly the end of the last interval one is lost.
* `Stingray.TimeSeries.split_ignores_lists` (Verif/Props/TimeSplit): C146 (negation). If the first list agrees with the GTIs of the series, the whole series comes back as the only part, and all the other lists are ignored.
* `Stingray.TimeSeries.split_empty_raises` (Verif/Props/TimeSplit): C146 (negation). A list of GTIs without any row of the series makes the splitting fail with `TypeError`, instead of giving an empty part or none: for all sorted series.
* `Stingray.TimeSeries.filter_intervals_partial` (Verif/Props/TimeSplit): C146 (intervals, partial). Selecting time intervals without regard to GTIs, when it succeeds and the first interval is not the only GTI of the series: one part for each interval, with the interval as GTI and the rows from its start to its end (of several rows at the end only the first one).
* `Stingray.TimeSeries.filter_intervals_checked_partial` (Verif/Props/TimeSplit): C146 (intervals, GTIs, partial). With the GTIs taken into account (the default), each interval is replaced by its intersection with the GTIs of the series, and intervals outside of the GTIs give no part.
* Model: `KeySort.sort`, `argmax?`, `searchsortedLeft`, `Gti.checkGtis`, `Gti.crossStep`, `Gti.crossTwoGtis`, `Gti.joinEqualGtiBoundaries`, `Gti.joinEqualLoop`, `Gti.lastStartBefore`, `Io.sameGti`, `TimeSeries.TS.attrs`, `TimeSeries.TS.dt`, `TimeSeries.TS.gti`, `TimeSeries.TS.mask`, `TimeSeries.TS.mjdref`, `TimeSeries.TS.time`, `TimeSeries.getItem`, `TimeSeries.gtiGet`, `TimeSeries.objGetItem`, `TimeSeries.setGti`, `TimeSeries.sliceIdx`, `TimeSeries.applyGtiLists`, `TimeSeries.gtiChunk`, `TimeSeries.gtiChunks`, `stableSort`, `TimeSeries.filterAtTimeIntervals`, `TimeSeries.intervalGtis`

### C147 Rebinning a spectrum treats all its parts alike

Model/SpecRebin.lean on top of the model of rebin_data; all parts are characterised by the same mean over overlaps; the uncertainties are refuted for every number of bins and every value except 1. Status: partial.

* `Stingray.SpecRebin.rebin_spec` (Verif/Props/SpecRebin): C147. Rebinning a spectrum (with the frequencies `f0, f0 + df, ...`) to a resolution between the present one and the whole range, given directly or as a factor: it succeeds; the new bins follow each other without gaps from the start of the first old one, and the new frequencies are their middles; the powers, the unnormalised powers, the powers of all single segments and those of both attached power spectra are all means (sums) over these same new bins of the old ones, weighted with the part in the new bin; and the number of averaged powers is multiplied with the number of old powers in a new bin. The uncertainties of the powers and unnormalised powers are those of `rebinErr`.
* `Stingray.SpecRebin.rebinned_blocks` (Verif/Props/SpecRebin): C147. With a whole number `k` of old powers per new bin, the new powers are the means (with method `sum`, the sums) of `k` consecutive powers each, and what is left over is dropped.
* `Stingray.SpecRebin.rebin_normalisation` (Verif/Props/SpecRebin): C147. The normalised powers stay the unnormalised ones in the same normalisation: if they were `c` times the unnormalised powers they still are after rebinning. So it does not matter whether a spectrum is first normalised or first rebinned.
* `Stingray.SpecRebin.rebin_refuses` (Verif/Props/SpecRebin): C147. Without a resolution, with a finer one than the present one, and with an unknown method, rebinning is refused with a ValueError.
* `Stingray.SpecRebin.rebin_error_constant` (Verif/Props/SpecRebin): C147 (negation). The uncertainties do not follow: for any number `k ≥ 2` of equal powers with equal uncertainties `e > 0` averaged to one, the uncertainty of the mean is `e / √k`; the one reported is `√(k e) / k`, which is right only for `e = 1`. In particular the result depends on the normalisation.
* Model: `searchsortedLeft`, `Gti.arange`, `Rebin.Out.stepSize`, `Rebin.Out.xbin`, `Rebin.Out.ybin`, `Rebin.Out.ybinerr`, `Rebin.diff`, `Rebin.dxOld`, `Rebin.loop`, `Rebin.loopBody`, `Rebin.prevAt`, `Rebin.rebinData`, `Rebin.sliceSum`, `SpecRebin.Spec.csAll`, `SpecRebin.Spec.own`, `SpecRebin.Spec.pds`, `SpecRebin.Sub.df`, `SpecRebin.Sub.freq`, `SpecRebin.Sub.m`, `SpecRebin.Sub.power`, `SpecRebin.Sub.powerErr`, `SpecRebin.Sub.unnorm`, `SpecRebin.Sub.unnormErr`, `SpecRebin.newDf`, `SpecRebin.rebin`, `SpecRebin.rebinAll`, `SpecRebin.rebinEven`, `SpecRebin.rebinSub`, `SpecRebin.rebinUnnorm`

### C148 Logarithmic rebinning of a spectrum loses no power

Model/SpecRebin.lean; proved for positive frequencies from the partition theorem of rebin_data_log; a negation for spectra with negative frequencies. Status: partial.

* `Stingray.SpecRebin.rebin_log_spec` (Verif/Props/SpecRebin): C148. Logarithmic rebinning of a spectrum with increasing positive frequencies, `f ≥ 0` and a positive resolution: it terminates, and there are edges, the first at half the lowest frequency, with widths `df (1+f)^k`, the last one just past the highest frequency, such that the new frequencies, powers and unnormalised powers are the means over the old ones in each bin, and the uncertainties those of means; `k` is the number of old frequencies in the bin, all of which are in one of the bins, and the number of averaged powers is `k` times the old one.
* `Stingray.SpecRebin.rebin_log_conserves` (Verif/Props/SpecRebin): C148. Logarithmic rebinning conserves the total power: the sum over the new bins of power times number of old frequencies is the sum of the old powers (so an rms integrated over the whole range does not change).
* `Stingray.SpecRebin.rebin_log_negative` (Verif/Props/SpecRebin): C148 (negation). The frequencies below half of the first one, which exist if that is negative (`fullspec`), are in no bin: of the frequencies -4, ..., -1, 1, ..., 4 the two lowest disappear (the first edge is `-4 / 2 = -2`).
* Model: `searchsortedRight`, `RebinLog.Out.binx`, `RebinLog.Out.biny`, `RebinLog.Out.binyErr`, `RebinLog.Out.nsamples`, `RebinLog.binNumber`, `RebinLog.binnedStatistic`, `RebinLog.growEdges`, `RebinLog.mean`, `RebinLog.rebinDataLog`, `RebinLog.rootSquaredMean`, `SpecRebin.LogSub.df`, `SpecRebin.LogSub.freq`, `SpecRebin.LogSub.k`, `SpecRebin.LogSub.m`, `SpecRebin.LogSub.power`, `SpecRebin.LogSub.powerErr`, `SpecRebin.LogSub.unnorm`, `SpecRebin.LogSub.unnormErr`, `SpecRebin.Sub.df`, `SpecRebin.Sub.freq`, `SpecRebin.Sub.m`, `SpecRebin.Sub.power`, `SpecRebin.Sub.powerErr`, `SpecRebin.Sub.unnorm`, `SpecRebin.Sub.unnormErr`, `SpecRebin.logUnnorm`, `SpecRebin.rebinLog`

### C149 The grid of rates of the Bayesian excess variance covers the rates the data allow

Model/Bexvar.lean with the inverse incomplete gamma function and the logarithm as parameters; proved for grids of two or more values; negations for faint sources (all inputs) and rates below 0.1. Status: partial.

* `Stingray.Bexvar.grid_covers_partial` (Verif/Props/Bexvar): C149 (grid, partial). A grid of logarithmic rates with at least two values: they are evenly spaced and increasing; the last is above the highest rate that the counts in any of the time bins allow; the first is -1 (a rate of 0.1), or below the lowest background-subtracted rate of every time bin. Missing: no grid for faint sources (`grid_faint`), and rates below 0.1 (`grid_starts_late`).
* `Stingray.Bexvar.grid_ends` (Verif/Props/Bexvar): C149 (ends). The grid for some time bins is the one between the logarithms of the lowest rate (or -1 if it is not positive) and of the highest rate of all time bins; a grid of a single value has the lower end, padded by 5% and not below -1.
* `Stingray.Bexvar.grid_density` (Verif/Props/Bexvar): C149. Enough values: there are at least `density` values per decade of rates between the two ends, whenever the ends are apart.
* `Stingray.Bexvar.grid_faint` (Verif/Props/Bexvar): C149 (negation). A faint source has no grid: if even the highest rate, with its padding, is not above 0.1 counts per second (exponent -1), the number of values is not positive, and there is an error or nothing.
* `Stingray.Bexvar.grid_starts_late` (Verif/Props/Bexvar): C149 (negation). Rates below 0.1 are left out of the grid although the counts allow them: if the lowest background-subtracted rate has an exponent `m0 < -1`, the first value is -1.
* Model: `Bexvar.Bin.area`, `Bexvar.Bin.bkg`, `Bexvar.Bin.conv`, `Bexvar.Bin.src`, `Bexvar.gridBetween`, `Bexvar.gridOf`, `Bexvar.highest`, `Bexvar.linspace`, `Bexvar.lowExponent`, `Bexvar.lowest`, `Bexvar.maximum`, `Bexvar.minimum`

### C150 The density of the rate of a time bin is a probability distribution

Model/Bexvar.lean; direct proofs about sums. Status: proved.

* `Stingray.Bexvar.weights_density` (Verif/Props/Bexvar): C150. If some rate on the grid can explain the counts of a time bin, the weights of the bin are a probability distribution on the grid: not negative, with sum 1, and proportional to the likelihood of the counts averaged over the background rates.
* `Stingray.Bexvar.weights_undefined` (Verif/Props/Bexvar): C150. If no rate on the grid can explain the counts, all weights are NaN; with an empty grid there is an IndexError.
* Model: `Bexvar.Bin.area`, `Bexvar.Bin.bkg`, `Bexvar.Bin.conv`, `Bexvar.Bin.src`, `Bexvar.backgrounds`, `Bexvar.prob`, `Bexvar.weights`

### C151 Badly exposed time bins have no influence on the Bayesian excess variance

Model/Bexvar.lean; the result is characterised from the exposed rows; a negation for all faint sources. Status: partial.

* `Stingray.Bexvar.bexvar_spec` (Verif/Props/Bexvar): C151. The sampler gets one density per time bin with an exposure fraction above a tenth, in order, each from the data of its own time bin, on a common grid made from these time bins only.
* `Stingray.Bexvar.bexvar_discards` (Verif/Props/Bexvar): C151. Time bins with an exposure fraction of a tenth or less have no influence: with the same other time bins the result is the same.
* `Stingray.Bexvar.bexvar_defaults` (Verif/Props/Bexvar): C151. Leaving out the background is the same as no background counts with the ratio one, and leaving out the exposures is full exposure.
* `Stingray.Bexvar.bexvar_faint` (Verif/Props/Bexvar): C151 (negation). For a faint source nothing comes out at all: if no time bin can have more than `0.1` counts per second (exponent at most -1, while the background allows a rate of zero), the call raises a ValueError or an IndexError.
* `Stingray.Bexvar.transform_range` (Verif/Props/Bexvar): C151. The parameters tried by the sampler: the mean logarithmic rate is on the range of the grid, the logarithm of the scatter between -2 and 2.
* Model: `Bexvar.Args.bg`, `Bexvar.Args.frac`, `Bexvar.Args.ratio`, `Bexvar.Args.src`, `Bexvar.Args.time`, `Bexvar.Args.timeDel`, `Bexvar.Bin.area`, `Bexvar.Bin.bkg`, `Bexvar.Bin.conv`, `Bexvar.Bin.src`, `Bexvar.backgrounds`, `Bexvar.bexvar`, `Bexvar.gridBetween`, `Bexvar.gridOf`, `Bexvar.highest`, `Bexvar.linspace`, `Bexvar.lowExponent`, `Bexvar.lowest`, `Bexvar.maximum`, `Bexvar.minimum`, `Bexvar.prob`, `Bexvar.select`, `Bexvar.weights`, `Bexvar.transform`

### C152 Dead-time correction by Fourier amplitude differences averages the pairs of segments with data

loop as a fold over pairs of segments accumulating one record per frequency, NaN as none; invariant of the fold gives the averages; relations proved per pair and carried through the mean (Cauchy-Schwarz for the coherence); a witness shows that a segment without photons makes everything undefined Status: partial.

* `Stingray.Fad.fad_mean` (Verif/Props/Fad): C152. `FAD` gives at each positive frequency `(k + 1) / (n dt)` the mean, over the pairs of segments where both channels have data, of the powers, of the cross powers (`F2` times the conjugate of `F1`) and of the amplitude differences, each divided by the smoothed squared difference of that pair; the powers of each pair are normalised with the photons of that pair. The numbers of pairs and photons are those of the pairs used. Where one pair has an empty channel, or no positive smoothed difference, nothing is defined. The only possible failure is that of `strict`.
* `Stingray.Fad.fad_exchange` (Verif/Props/Fad): C152 (exchange). `FAD` of the two channels exchanged gives the same result with the powers (and photons) exchanged, the cross powers conjugated, the amplitude differences with the opposite sign; the powers of the sum, the compliance, and success or failure are the same.
* `Stingray.Fad.fad_total` (Verif/Props/Fad): C152 (sum of the channels). For a linear transform, the corrected power of the sum of the channels is the sum of the corrected powers and twice the real part of the corrected cross power (all unnormalised): the same correction is applied to all.
* `Stingray.Fad.fad_coherence` (Verif/Props/Fad): C152 (coherence). The corrected powers are not negative, and the squared modulus of the corrected cross power is at most the product of the corrected powers (unnormalised): the coherence of corrected spectra is at most 1.
* `Stingray.Fad.fad_refuses` (Verif/Props/Fad): C152 (failures). Without a pair of segments where both channels have data, `FAD` divides by zero; otherwise an unknown smoothing algorithm or normalisation is refused; under `strict` the result is that without `strict` if it complies and an error if it does not.
* `Stingray.Fad.fad_compliant` (Verif/Props/Fad): C152 (compliance). The result complies exactly when all amplitude differences are finite, there is at least one frequency, and their standard deviation over the frequencies differs from `2 / sqrt(M)` by less than the tolerance, relatively.
* `Stingray.Fad.fad_empty_segment` (Verif/Props/Fad): C152 (negation). A pair of segments in which one channel has no photon is not left out of the average (as it is from averaged spectra): all powers become undefined.
* Model: `Fad.Acc.cells`, `Fad.Acc.fgt0`, `Fad.Acc.freq`, `Fad.Acc.m`, `Fad.Acc.nph`, `Fad.Acc.nph1`, `Fad.Acc.nph2`, `Fad.Acc.width`, `Fad.Cell.add`, `Fad.Cell.cs`, `Fad.Cell.csU`, `Fad.Cell.fad`, `Fad.Cell.over`, `Fad.Cell.pds1`, `Fad.Cell.pds1U`, `Fad.Cell.pds2`, `Fad.Cell.pds2U`, `Fad.Cell.ptot`, `Fad.Cell.ptotU`, `Fad.Norms.cross`, `Fad.Norms.one`, `Fad.Norms.tot`, `Fad.Norms.two`, `Fad.Opts.dt`, `Fad.Opts.gauss`, `Fad.Opts.norm`, `Fad.Opts.strict`, `Fad.Opts.tolerance`, `Fad.Result.cells`, `Fad.Result.freq`, `Fad.Result.m`, `Fad.Result.nph`, `Fad.Result.nph1`, `Fad.Result.nph2`, `Fad.Result.width`, `Fad.accFgt0`, `Fad.accWidth`, `Fad.accumulate`, `Fad.cell`, `Fad.compliant`, ...

### C153 Intervals used by the amplitude-difference correction and the objects it returns

wrappers modelled around the loop of C152; the result is proved independent of the gti argument, the number of bins computed for every segment length, and the changed GTIs shown on a witness Status: partial.

* `Stingray.Fad.fad_objects` (Verif/Props/Fad): C153. `FAD` uses the segments of the GTIs common to both data sets (and fails as their intersection does), and the spectrum objects made of its table have the frequencies, powers, unnormalised powers and photons of the column asked for, and the number of pairs averaged; an unknown column is refused.
* `Stingray.Fad.calculate_fad_segments` (Verif/Props/Fad): C153 (function). `calculate_FAD_correction` averages the segments of the common GTIs with the smoothing length it is given.
* `Stingray.Fad.fad_objects_n` (Verif/Props/Fad): C153 (negation). The number of bins `n` of the objects, twice their number of frequencies, is never that of the segments: it is two less if that is even and one less if it is odd.
* `Stingray.Fad.calculate_ignores_gti` (Verif/Props/Fad): C153 (negation). `calculate_FAD_correction` gives the same result whatever its argument `gti`: for two data sets with two common intervals and `gti` the first of them, two pairs of segments are averaged instead of one. And the GTIs of the data given are changed in place.
* Model: `Fad.Acc.cells`, `Fad.Acc.fgt0`, `Fad.Acc.freq`, `Fad.Acc.m`, `Fad.Acc.nph`, `Fad.Acc.nph1`, `Fad.Acc.nph2`, `Fad.Acc.width`, `Fad.Cell.add`, `Fad.Cell.cs`, `Fad.Cell.csU`, `Fad.Cell.fad`, `Fad.Cell.over`, `Fad.Cell.pds1`, `Fad.Cell.pds1U`, `Fad.Cell.pds2`, `Fad.Cell.pds2U`, `Fad.Cell.ptot`, `Fad.Cell.ptotU`, `Fad.Data.gti1`, `Fad.Data.gti2`, `Fad.Data.pairs`, `Fad.Norms.cross`, `Fad.Norms.one`, `Fad.Norms.tot`, `Fad.Norms.two`, `Fad.Opts.dt`, `Fad.Opts.gauss`, `Fad.Opts.norm`, `Fad.Opts.strict`, `Fad.Opts.tolerance`, `Fad.Periodogram.freq`, `Fad.Periodogram.m`, `Fad.Periodogram.nphots`, `Fad.Periodogram.power`, `Fad.Periodogram.unnormPower`, `Fad.Result.cells`, `Fad.Result.freq`, `Fad.Result.m`, `Fad.Result.nph`, ...

### C154 Zhang's model of the power spectrum with dead time

h bounded by Poisson tails, A complete as a series over the reals; the spectrum for even N is the specification's sum; the odd case is a negation: the frequencies returned are not those of the powers Status: partial.

* `Stingray.DeadTime.h_bounds` (Verif/Props/DeadTimeModel): C154. The functions `h_k(n)` of the dead-time model are not negative and at most `max(0, k - n td / tb)`, for all bin times, dead times and rates (so no cancellation can make a term of the sums negative), and 0 where `n` dead times do not fit in `k` bins.
* `Stingray.DeadTime.A_complete` (Verif/Props/DeadTimeModel): C154 (sums). The sums over `n` in `A_k` are cut where all further terms vanish: `A_0` is `r0 tb (1 + 2 sum h_1(n))` and `A_k` is `r0 tb sum (h_{k+1}(n) - 2 h_k(n) + h_{k-1}(n))`, both over all `n >= 1`.
* `Stingray.DeadTime.A_nonneg` (Verif/Props/DeadTimeModel): C154 (signs). The mean products `A_k` of the counts in two bins at distance `k` are never negative, and `A_0`, the mean square, is at least the mean `r0 tb` (counts are whole numbers), for all dead times, bin times and rates.
* `Stingray.DeadTime.limit_A_value` (Verif/Props/DeadTimeModel): C154 (limit). `limit_A` is the square of the number of events detected in a bin, `r0 tb` with `r0 (1 + rate td) = rate`.
* `Stingray.DeadTime.zhang_spectrum` (Verif/Props/DeadTimeModel): C154 (spectrum). For an even number `N = 2 n >= 2` of bins, `pds_model_zhang` gives the `n` frequencies `j / (N tb)` and at each Zhang's expected power, summed over the distances `1 <= k < min(N, limit_k)`, with the detected rate `r0` and the incident rate `ri` related by the dead time.
* `Stingray.DeadTime.zhang_odd` (Verif/Props/DeadTimeModel): C154 (negation). For an odd number `N = 2 n + 1 >= 3` of bins the powers are those at the frequencies `j / (N tb)`, but the frequencies returned are `j / ((N - 1) tb)`, which are higher (but for `j = 0`).
* `Stingray.DeadTime.zhang_refuses` (Verif/Props/DeadTimeModel): C154 (failures). `pds_model_zhang` fails with a division by zero if there are fewer than 2 bins, if the rate is 0, and if the detected rate is exactly the inverse of the dead time.
* Model: `DeadTime.gn`, `DeadTime.h`, `DeadTime.a0`, `DeadTime.aK`, `DeadTime.sumFrom1`, `DeadTime.pyDiv`, `DeadTime.rDet`, `DeadTime.limitA`, `DeadTime.rIn`, `DeadTime.bRaw`, `DeadTime.innerLoop`, `DeadTime.pdsModel`, `DeadTime.rates`, `DeadTime.safeB`

### C155 Dead-time model at the requested frequencies

interpolation on an evenly spaced grid is shown to be the line through the two neighbours for every frequency, and linear extrapolation beyond; the documented default of n_approx is a negation Status: partial.

* `Stingray.DeadTime.non_paralyzable_model` (Verif/Props/DeadTimeModel): C155. For detected rates whose sum is below the inverse of the dead time, `non_paralyzable_dead_time_model` gives one value for each frequency: Zhang's expected power for the total rate, at the frequencies `j / (2 n tb)` (`n` being `n_approx`, at least 2, and `tb` the bin time), interpolated linearly between them and extrapolated beyond the first and the last ones; its excess over 2 is scaled by the source's part of the rate.
* `Stingray.DeadTime.non_paralyzable_refuses` (Verif/Props/DeadTimeModel): C155 (refusals). Rates whose sum is above the inverse of the dead time are refused with a `ValueError`, whatever the other arguments; a dead time of 0, and a sum that is exactly the inverse of the dead time, divide by zero.
* `Stingray.DeadTime.non_paralyzable_defaults` (Verif/Props/DeadTimeModel): C155 (defaults). Without `bin_time`, it is half the inverse of the highest frequency; without `n_approx`, the number of bins is the highest frequency, and at least 10.
* `Stingray.DeadTime.non_paralyzable_default_size` (Verif/Props/DeadTimeModel): C155 (negation). Without `n_approx`, the number of bins is not the size of the frequency array, as documented: twelve frequencies up to 6 give ten bins, and another model than twelve bins.
* Model: `DeadTime.pyDiv`, `DeadTime.rDet`, `DeadTime.rIn`, `DeadTime.a0`, `DeadTime.aK`, `DeadTime.bRaw`, `DeadTime.binTime`, `DeadTime.gn`, `DeadTime.h`, `DeadTime.innerLoop`, `DeadTime.interp`, `DeadTime.maxOf`, `DeadTime.nBins`, `DeadTime.nonParalyzable`, `DeadTime.pdsModel`, `DeadTime.rates`, `DeadTime.rescale`, `DeadTime.safeB`, `DeadTime.sumFrom1`

### C156 Correcting a spectrum for dead time

each attribute is shown to be scaled; the normalised powers of the attached power spectra are not: a negation Status: partial.

* `Stingray.DeadTime.deadtime_correct_scales` (Verif/Props/DeadTimeModel): C156. A spectrum corrected by `deadtime_correct` is the original one with the powers, the unnormalised powers, their uncertainties and the saved powers of the segments multiplied, frequency by frequency, by the power 2 of Poisson noise over the modelled power; the same holds for the unnormalised powers and the uncertainties of its two power spectra; the frequencies do not change.
* `Stingray.DeadTime.deadtime_correct_ok` (Verif/Props/DeadTimeModel): C156 (succeeds). A spectrum with arrays of the size of the model is corrected.
* `Stingray.DeadTime.deadtime_correct_refuses` (Verif/Props/DeadTimeModel): C156 (refusals). Paralyzable dead time is refused; so is what the model refuses; and a spectrum whose uncertainties are `None` fails with a `TypeError`.
* `Stingray.DeadTime.deadtime_correct_keeps_pds_power` (Verif/Props/DeadTimeModel): C156 (negation). The normalised powers of the two power spectra attached to a cross spectrum are left uncorrected, although their unnormalised powers and their uncertainties are corrected.
* Model: `DeadTime.Attr.times`, `DeadTime.Part.power`, `DeadTime.Part.powerErr`, `DeadTime.Part.times`, `DeadTime.Part.unnorm`, `DeadTime.Part.unnormErr`, `DeadTime.Whole.csAll`, `DeadTime.Whole.freq`, `DeadTime.Whole.own`, `DeadTime.Whole.pds`, `DeadTime.Whole.unnormCsAll`, `DeadTime.deadtimeCorrect`, `DeadTime.product`, `DeadTime.timesAll`

### C157 Coherence of averaged cross spectra

values, bounds and symmetry proved for every frequency; the bias is that of n (bins of a segment) averages, and powers below the noise give coherences above 1: negations Status: partial.

* `Stingray.Fourier.coherence_value` (Verif/Props/CrossLags): C157 (single spectrum). The coherence of a cross spectrum is, at each frequency, the squared modulus of the cross power over the product of the powers of the channels, so that it is at least 0 for positive powers, and at most 1 if `|C|² ≤ P1 P2`.
* `Stingray.Fourier.averaged_coherence_range` (Verif/Props/CrossLags): C157. The coherence of an averaged cross spectrum, at each frequency where both powers are at least the noise level of their channel and `|C|² ≤ P1 P2`, is at least 0 and at most `|C|² / (P1 P2)`, so at most 1; its uncertainty `u` is at least 0, and `m u² = 2 g (1 - g)²` for the coherence `g` and `m` averaged powers.
* `Stingray.Fourier.averaged_coherence_exchange` (Verif/Props/CrossLags): C157 (exchange). Exchanging the channels, which conjugates the cross power, does not change the coherence or its uncertainty.
* `Stingray.Fourier.averaged_coherence_bias` (Verif/Props/CrossLags): C157 (negation). The bias of the averaged coherence is that of as many averages as there are time bins in a segment, not as many as there are averaged segments: if segments have more than 500 bins nothing is subtracted, and two channels of noise, whose cross power has the value `|C|² = P1 P2 / m` expected for `m` averages, have coherence `1 / m`, not 0.
* `Stingray.Fourier.averaged_coherence_above_one` (Verif/Props/CrossLags): C157 (negation). Where the powers are below the noise levels of their channels the coherence may be above 1 and its uncertainty negative.
* `Stingray.Fourier.coherence_warns` (Verif/Props/CrossLags): C157 (warning). There is a warning if any frequency has fewer than 50 averaged powers.
* Model: `Fourier.CrossBin.c`, `Fourier.CrossBin.p1`, `Fourier.CrossBin.p2`, `Fourier.CrossInfo.n`, `Fourier.coherence`, `Fourier.Cx.conj`, `Fourier.Cx.im`, `Fourier.Cx.re`, `Fourier.biasTerm`, `Fourier.rawCoherence`, `Fourier.CrossBin.m`, `Fourier.CrossInfo.nph1`, `Fourier.CrossInfo.nph2`, `Fourier.averagedCoherence`, `Fourier.cohAt`, `Fourier.cohErr`, `Fourier.CrossBin.freq`, `Fourier.CrossInfo.dt`, `Fourier.CrossInfo.mean`, `Fourier.CrossInfo.norm`, `Fourier.CrossInfo.nph`, `Fourier.CrossInfo.overlap`, `Fourier.CrossInfo.variance`, `Fourier.coherenceWarns`

### C158 Lags recover delays

the shift theorem of the discrete Fourier transform over the real numbers, and the argument of a positive multiple of exp(i theta) Status: proved.

* `Stingray.Fourier.time_lag_range` (Verif/Props/CrossLags): C158 (range). Phase lags are above `-π` and at most `π`; time lags are the phase lags over `2 π f`, so at most half a period; classes other than the two cross spectra are refused.
* `Stingray.Fourier.phase_lag_exchange` (Verif/Props/CrossLags): C158 (exchange). Exchanging the channels, which conjugates the cross powers, changes the sign of the phase lags (but for a lag of exactly `π`, which stays); a positive factor on the cross powers, such as another normalisation, does not change them.
* `Stingray.Fourier.time_lag_of_delay` (Verif/Props/CrossLags): C158. If, in all pairs of segments of `n` bins of length `dt`, the first channel is the second one delayed by `s` bins (around the segment), then at each frequency `k / (n dt)` with some power, and for delays `2 s k <= n` of at most half a period, the time lag of their averaged cross spectrum is `s dt`.
* Model: `Fourier.CrossBin.c`, `Fourier.CrossBin.freq`, `Fourier.phaseLag`, `Fourier.timeLag`, `Fourier.Cx.im`, `Fourier.Cx.re`, `Fourier.CrossBin.m`, `Fourier.CrossBin.p1`, `Fourier.CrossBin.p2`, `Fourier.Cx.both`, `Fourier.Cx.conj`

### C159 Every averaged cross power and lag has an uncertainty

case distinction on the formulas having values; the lags' uncertainties have no default: a negation Status: partial.

* `Stingray.Fourier.calculate_errors_independent` (Verif/Props/CrossLags): C159. For channels that do not overlap, at each frequency where `|C|² ≤ P1 P2`, the uncertainties of the real and the imaginary part of an averaged cross power are at least 0, their squares add up to `P1 P2 / m` and differ by `(Re² - Im²) / m`.
* `Stingray.Fourier.calculate_errors_default` (Verif/Props/CrossLags): C159 (defaults). Where the formulas give no number for the real or the imaginary part, both uncertainties are the default one, which for Leahy powers is `sqrt(2 / m)` as documented: no power is without an uncertainty.
* `Stingray.Fourier.calculate_errors_shape` (Verif/Props/CrossLags): C159 (shape). There is one uncertainty for each frequency, those of the normalised powers are the normalised uncertainties, the lags have the uncertainties of the phases with `m` averages, and those of the two power spectra are the powers over the square root of their number of averages.
* `Stingray.Fourier.calculate_errors_refuses` (Verif/Props/CrossLags): C159 (refusal). A spectrum whose `nph` is not the geometric mean of the photons of its channels is refused.
* `Stingray.Fourier.averaged_time_lag` (Verif/Props/CrossLags): C159 (time lags). The uncertainty of a time lag is that of the phase lag over `2 π f`; the lags have the length of the spectrum.
* `Stingray.Fourier.calculate_errors_no_lag` (Verif/Props/CrossLags): C159 (negation). Lags may be without uncertainty: where the coherence is 0 (no cross power, for instance), the phase of channels that do not overlap has none, and no default is used for it.
* Model: `Fourier.CrossErr.im`, `Fourier.CrossErr.phase`, `Fourier.CrossErr.re`, `Fourier.crossErrors`, `Fourier.ratio`, `Fourier.root`, `Fourier.CrossBin.c`, `Fourier.CrossBin.m`, `Fourier.CrossBin.p1`, `Fourier.CrossBin.p2`, `Fourier.CrossInfo.dt`, `Fourier.CrossInfo.mean`, `Fourier.CrossInfo.n`, `Fourier.CrossInfo.norm`, `Fourier.CrossInfo.nph`, `Fourier.CrossInfo.nph1`, `Fourier.CrossInfo.nph2`, `Fourier.CrossInfo.overlap`, `Fourier.CrossInfo.variance`, `Fourier.CrossUncertainties.unnormPowerErr`, `Fourier.calculateErrors`, `Fourier.errAt`, `Fourier.Cx.both`, `Fourier.Cx.conj`, `Fourier.Cx.im`, `Fourier.Cx.re`, `Fourier.biasTerm`, `Fourier.normalizeCx`, `Fourier.normalizer`, `Fourier.rawCoherence`, `Fourier.CrossUncertainties.powerErr`, `Fourier.CrossUncertainties.lagErr`, `Fourier.CrossUncertainties.pds1UnnormErr`, `Fourier.CrossUncertainties.pds2UnnormErr`, `Fourier.CrossBin.freq`, `Fourier.averagedTimeLag`, `Fourier.phaseLag`

### C160 Rms of a band of a power spectrum

Model/PowerStats.lean models the selection, the simplification of arrays, the noise and the two rms functions with the merging of unaveraged powers by four; Props/PowerStats.lean proves the value, the error (the case merged by four excepted), the invariance under merging and the default noise. Without a segment size get_rms_from_unnorm_periodogram is not invariant under merging: negation. Status: partial.

* `Stingray.PowerStats.compute_rms_value` (Verif/Props/PowerStats): C160. For a power spectrum with Poisson noise `noise`, merged or not, `compute_rms` between two frequencies (both included) gives the `r >= 0` whose square is the excess of the powers over the noise in the band, in units of the squared mean rate; and `(0, 0)` if there is no excess.
* `Stingray.PowerStats.compute_rms_error` (Verif/Props/PowerStats): C160 (error). Its error `v` has `2 r v` equal to the root of the sum of `P² width² / m`, unless powers that are not averaged (`m = 1`) are merged for it (more than four of them).
* `Stingray.PowerStats.compute_rms_error_merged` (Verif/Props/PowerStats): C160 (error, merged). When more than four powers are not averaged (`m = 1`, no merging of frequencies), they are averaged four by four for the error, the remainder left out: the root of the sum of `P² (4 width)² / 4` over the averages `P` is scaled by the number of powers over the number of those that were averaged.
* `Stingray.PowerStats.rms_unnorm_value` (Verif/Props/PowerStats): C160 (unnormalised powers). `get_rms_from_unnorm_periodogram` for powers of the same width and number of averaged spectra: the squared fractional rms is the sum of the powers above the noise times `2 T / n²` and the width, and the squared absolute rms the sum times `2 / T` and the width; 0 when it is negative. The noise of `n` photons is `n` when it is not given, and the length of the segments the inverse of the width.
* `Stingray.PowerStats.compute_rms_rebinned` (Verif/Props/PowerStats): C160 (rebinning). Merging the frequencies of a spectrum, in groups of any sizes, does not change the rms of the whole band.
* `Stingray.PowerStats.compute_rms_noise` (Verif/Props/PowerStats): C160 (noise). Without a noise level, the level removed is that of pure Poisson noise: the same as giving 2 for Leahy powers, `2 / rate` for fractional rms, `2 rate` for absolute rms.
* `Stingray.PowerStats.compute_rms_refuses` (Verif/Props/PowerStats): C160 (errors). An unknown normalization is refused if a noise level is given; so are numbers of averages that vary in the band with widths that do not.
* `Stingray.PowerStats.rms_unnorm_rebinned` (Verif/Props/PowerStats): C160 (negation). Without a segment size, `get_rms_from_unnorm_periodogram` takes the inverse of the narrowest width for it: merging frequencies two by two then changes the rms (here the squares are 16 and 8).
* Model: `searchsortedLeft`, `Fourier.unnormalizer`, `Gti.arange`, `PowerStats.Pds.df`, `PowerStats.Pds.dt`, `PowerStats.Pds.freq`, `PowerStats.Pds.k`, `PowerStats.Pds.m`, `PowerStats.Pds.n`, `PowerStats.Pds.norm`, `PowerStats.Pds.nphots`, `PowerStats.Pds.segmentSize`, `PowerStats.Pds.unnorm`, `PowerStats.Per.isArray`, `PowerStats.Per.min`, `PowerStats.Per.scale`, `PowerStats.Per.select`, `PowerStats.Per.simplify`, `PowerStats.Per.values`, `PowerStats.computeRms`, `PowerStats.noiseOf`, `PowerStats.pick`, `PowerStats.rmsNorm`, `PowerStats.rmsUnnorm`, `PowerStats.segmentSizeOr`, `PowerStats.sumSquares`, `PowerStats.totalPowerErr`, `Rebin.Out.stepSize`, `Rebin.Out.ybin`, `Rebin.diff`, `Rebin.dxOld`, `Rebin.loop`, `Rebin.loopBody`, `Rebin.prevAt`, `Rebin.rebinData`, `Rebin.sliceSum`

### C161 Significances of the powers of a spectrum

Model/PowerStats.lean models the method over the survival function of the chi-squared distribution; the theorems take Mathlib's distribution and use its closed form for even degrees of freedom. Status: proved.

* `Stingray.PowerStats.significances_value` (Verif/Props/PowerStats): C161. For averaged Leahy powers, `classical_significances` without correction lists, by increasing index, exactly the powers that noise alone exceeds with a probability below the threshold, each with that probability.
* `Stingray.PowerStats.significances_corrected` (Verif/Props/PowerStats): C161 (trials). The correction for the number `N` of powers gives each a probability between `p` and `min(1, N p)`, and whatever is reported with it is reported without it.
* `Stingray.PowerStats.significances_monotone` (Verif/Props/PowerStats): C161 (order). Without correction, of two averages of as many powers, if the lower is reported so is the higher, with a smaller probability.
* `Stingray.PowerStats.significances_refuses` (Verif/Props/PowerStats): C161 (errors). Powers in another normalization are refused.
* Model: `PowerStats.classicalSignificances`, `Stats.logpMulti`, `Stats.pMulti`, `Stats.pdsProb`

### C162 Upper limits on modulations

Model/PowerStats.lean takes the quantile function and the optimiser as parameters; what power_upper_limit gives is proved under the assumption that the optimiser finds a minimum (partial). Status: partial.

* `Stingray.PowerStats.amplitude_value` (Verif/Props/PowerStats): C162. The limit on the amplitude, for a limit `u` on the power and `N` counts, has the square `2 u / N`, divided by 0.773 if asked for the loss within a bin, and by the square of the attenuation if a frequency is given.
* `Stingray.PowerStats.amplitude_order` (Verif/Props/PowerStats): C162 (order). A higher limit on the power gives a higher limit on the amplitude; each of the two corrections makes it higher too.
* `Stingray.PowerStats.pf_value` (Verif/Props/PowerStats): C162 (pulsed fraction). The limit `f` on the pulsed fraction and the limit `a` on the amplitude have `f (1 + a) = 2 a`; `f` is at most 1 exactly if `a` is, and grows with the limit on the power.
* `Stingray.PowerStats.modulation_value` (Verif/Props/PowerStats): C162 (band). `modulation_upper_limit` is the limit on the amplitude for the highest power at a positive frequency of the band, times the number of averages, corrected for the loss within a bin and for that frequency's share of the highest frequency of the spectrum, which is in `(0, 1]`.
* `Stingray.PowerStats.modulation_refuses` (Verif/Props/PowerStats): C162 (errors). With no positive frequency in the band it is refused.
* `Stingray.PowerStats.power_limit_partial` (Verif/Props/PowerStats): C162 (limit, partial). If some signal power up to twice the starting value has the measured power as its lower confidence limit, `power_upper_limit` gives such a power. Missing: that the optimiser finds a minimum (assumed), and that one exists.
* Model: `PowerStats.amplitudeUpperLimit`, `Stats.aFromSsig`, `PowerStats.pfUpperLimit`, `Stats.pfFromA`, `PowerStats.argmaxPower`, `PowerStats.highestFreq`, `PowerStats.maskOf`, `PowerStats.modulationUpperLimit`, `PowerStats.powerConfidenceLimits`, `PowerStats.powerUpperLimit`

### C163 Keys of the mission database

Model/Missions.lean models nested dictionaries with insertion, update and pop; Props/Missions.lean proves the precedence against a case-insensitive look-up in the original dictionary. Status: proved.

* `Stingray.Missions.get_key_value` (Verif/Props/Missions): C163. `get_key_from_mission_info` gives the entry for the key in the table of the mode, or else of the instrument, or else of the mission, or else the default. The table of the mode is the one in the table of the instrument if it has one, else that of the mission. All names are compared whatever their case.
* `Stingray.Missions.get_key_case` (Verif/Props/Missions): C163 (case). The case in which the key, the instrument and the mode are written does not matter.
* `Stingray.Missions.get_key_refuses` (Verif/Props/Missions): C163 (errors). An instrument that has the name of a keyword of the mission is refused.
* Model: `Missions.Dict.below`, `Missions.Dict.brecOn`, `Missions.Dict.brecOn.go`, `Missions.Dict.get`, `Missions.Dict.pop`, `Missions.Dict.set`, `Missions.Dict.update`, `Missions.Str`, `Missions.Val.below`, `Missions.Val.brecOn`, `Missions.Val.brecOn.go`, `Missions.enter`, `Missions.getKey`, `Missions.lowerDict`, `Missions.lowerInto`, `Missions.lowerVal`

### C164 Reading the mission database

Model/Missions.lean models the lines, their words and the nested insertions; induction on the lines. Lines are selected by the beginning of their text, so a mission whose name begins that of another gets its keys: negation. Status: partial.

* `Stingray.Missions.read_mission` (Verif/Props/Missions): C164. If the lines that begin with the name of a mission, whatever the case, are those of one entry `N` of the database, what is read for the mission alone is that entry of all that is read, apart from the two missions that are patched.
* `Stingray.Missions.read_last` (Verif/Props/Missions): C164 (last). The last line for a path counts: if no later line is for it, for a longer or for a shorter one, the database has the words of that line there.
* `Stingray.Missions.read_refuses` (Verif/Props/Missions): C164 (errors). A line for a name below one that has a value is refused, and so is a line with a single name.
* `Stingray.Missions.patch_value` (Verif/Props/Missions): C164 (patches). For XMM `,GTI0` is added to the name of the GTIs; for XTE the energy column is `PHA` and the detector column `PCUID`, if there is an energy column; all else is as read, for every mission.
* `Stingray.Missions.read_prefix` (Verif/Props/Missions): C164 (negation). The lines are those that begin with the name, not those of the mission: for `A` it gives the keys of the mission `AB`, though there is no `A`.
* Model: `Missions.Dict.below`, `Missions.Dict.brecOn`, `Missions.Dict.brecOn.go`, `Missions.Dict.get`, `Missions.Dict.set`, `Missions.Dict.setPath`, `Missions.Str`, `Missions.Val.below`, `Missions.patch`, `Missions.pieces`, `Missions.readLine`, `Missions.readLines`, `Missions.readMissionInfo`, `Missions.strip`, `Missions.words`

### C165 Channels and energies of missions

Model/RxteTable.lean has the table; that its rows tile the channels and increase is checked by the kernel for the whole table, the step function is proved for any rows. Status: proved.

* `Stingray.Missions.conversion_increasing` (Verif/Props/Missions): C165. The conversions of channels to energies are increasing functions of the channel, whatever the detector.
* `Stingray.Missions.calibration_agrees` (Verif/Props/Missions): C165 (agreement). Where the obsolete `rough_calibration` gives an energy, `get_rough_conversion_function` gives the same for every detector.
* `Stingray.Missions.calibration_values` (Verif/Props/Missions): C165 (values). At the first channels and per channel: NuSTAR 1.62 and 0.04 keV, XMM 0 and 0.001, NICER 0 and 0.01, IXPE 0 and 0.04, Chandra (AXAF) 0.0146 per channel from channel 1.
* `Stingray.Missions.calibration_refuses` (Verif/Props/Missions): C165 (errors). Other missions are refused by both; so are other instruments of XTE.
* `Stingray.Missions.split_chan` (Verif/Props/Missions): C165 (ranges). A channel range `a~b` is read as the numbers `a` and `b`; if `b` has fewer digits than `a`, the first digits of `a` are those it lacks. A single channel is the range from it to itself.
* `Stingray.Missions.split_list` (Verif/Props/Missions): C165 (lists of channels). A list of channels `a,b,...` is read item by item, and `a:b` stands for each of the channels from `a` to `b`, both included, once each and in order.
* `Stingray.Missions.pca_value` (Verif/Props/Missions): C165 (PCA). At an epoch after `n` of the six edges, `n` from 1 to 5, the calibration of the PCA gives every channel from 0 to 255 the energy of the one row of the table whose channels include it, in the column of the epoch (in the fifth, that of the detector).
* `Stingray.Missions.pca_increasing` (Verif/Props/Missions): C165 (order). These energies never decrease with the channel, and channels of different rows have different energies.
* `Stingray.Missions.pca_refuses` (Verif/Props/Missions): C165 (epochs). Up to the first edge and after the last one of the six there is no calibration.
* `Stingray.Missions.local_channels` (Verif/Props/Missions): C165 (local channels). The channel of an event is replaced by a channel of the group it stands for, the middle one (the lower of two); an event beyond the groups is refused.
* Model: `Missions.Str`, `Missions.simpleConversion`, `Missions.conversion`, `Missions.roughCalibration`, `Missions.pieces`, `Missions.splitChan`, `Missions.toInt`, `Missions.splitC`, `Missions.epochIndex`, `Missions.steps`, `Missions.pcaCalibration`, `Missions.pcaColumns`, `Missions.pcaRows`, `Missions.pcaTable`, `Missions.localChannel`, `Missions.localChannels`

### C166 Summaries of MCMC chains

model the constructor for one parameter, with the shape of chains that emcee documents; prove moments, percentiles, permutation and affine laws; refute the claim on R-hat by a theorem on all permutations of walkers at each step and a witness Status: partial.

* `Stingray.Sampling.sampling_moments` (Verif/Props/Sampling): C166. The mean, standard deviation and effective number of samples that the summary of a chain reports are those of all the samples of all walkers: `n` times the mean is their sum, `n` times the squared standard deviation is the sum of the squared deviations from the mean, and the effective number is the average acceptance fraction times the number of samples.
* `Stingray.Sampling.sampling_interval` (Verif/Props/Sampling): C166. The credible interval is in order, and between samples.
* `Stingray.Sampling.sampling_interval_count` (Verif/Props/Sampling): C166. When the samples are distinct, the number of them below each bound of the credible interval is the one that the percentage asks for, rounded upwards: `ci_min` (`ci_max`) hundredths of the number of intervals between successive samples.
* `Stingray.Sampling.sampling_order` (Verif/Props/Sampling): C166. The mean, standard deviation and interval do not depend on which walker, or at which step, a sample was drawn: two chains with the same samples have the same.
* `Stingray.Sampling.sampling_units` (Verif/Props/Sampling): C166. A change of unit and origin of the parameter (`x` becomes `a x + b`, with `a` positive) changes the mean and the interval in the same way, and multiplies the standard deviation by `a`.
* `Stingray.Sampling.rhat_value_partial` (Verif/Props/Sampling): C166 (R-hat, partial). For a chain of at least two steps, the reported R-hat is never negative, and it is the sum of the average variance of the walkers at one step, times `(walkers - 1) / walkers`, and of the variance (with `steps - 1`) of the averages over the walkers at each step. Missing: the variances along the chain of each walker and between the walkers, which the statistic of Gelman and Rubin compares.
* `Stingray.Sampling.rhat_blind` (Verif/Props/Sampling): C166 (negation). R-hat does not depend on which walker has which value: exchanging the walkers with each other, in another way at each step, leaves it unchanged. So it cannot tell walkers that never leave their place from walkers that move through the whole distribution.
* `Stingray.Sampling.rhat_stuck` (Verif/Props/Sampling): C166 (negation). Two walkers that stay at 0 and at 1 for ever, and two walkers that exchange their places at each step, have the same R-hat; the averages of the walkers differ in the first case only.
* `Stingray.Sampling.rhat_units` (Verif/Props/Sampling): C166 (negation). R-hat is not a ratio of variances, to be compared with 1: when the unit of the parameter changes (`x` becomes `a x + b`), it is multiplied by `a` squared.
* `Stingray.Sampling.sampling_refuses` (Verif/Props/Sampling): C166. Errors: a chain of one step cannot be summarised (a division by zero), a percentage outside 0 to 100 is refused, and so is a chain too short for the autocorrelation time when a log is given.
* `Stingray.Sampling.sampling_log` (Verif/Props/Sampling): C166 (negation). A log given by the caller is never used: printing the results then fails, and so does the summary of a chain too short for the autocorrelation time.
* Model: `KeySort.sort`, `Sampling.Summary.effective`, `Sampling.Summary.mean`, `Sampling.Summary.samples`, `Sampling.Summary.std`, `Sampling.bounds`, `Sampling.computeRhat`, `Sampling.dims`, `Sampling.mean`, `Sampling.summary`, `Sampling.variance`, `UtilsStats.percentile`, `Sampling.Summary.ci`, `Sampling.Summary.rhat`, `stableSort`, `Sampling.printResults`

### C167 Smallest length with given factors

model the loops with fuel and the counters as a list; an invariant says that every product not below x is at least the best one found or still ahead of the counters; the number shown by the counters bounds the turns Status: partial.

* `Stingray.Ols.nextpow_least` (Verif/Props/NextProd): C167. `nextpow(a, x)` is the smallest power of `a` that is at least `x`.
* `Stingray.Ols.nextprod_least` (Verif/Props/NextProd): C167. `nextprod(a, x)` ends, and returns the smallest integer, at or above `x`, that is a product of powers of the factors: for every non-empty list of factors above 1 and every positive `x`.
* `Stingray.Ols.nextprod_refuses` (Verif/Props/NextProd): C167. Errors: no factor is an index error, and a factor of 0 or 1, or `x = 0`, fails an assertion.
* `Stingray.Ols.nextprod_rounding` (Verif/Props/NextProd): C167 (negation). If rounding makes the logarithm too small (at the integer after a large power of the factor, where the quotient of the logarithms rounds to an integer), the result is below `x`.
* Model: `Ols.nextpow`, `Ols.carry`, `Ols.nextprod`, `Ols.prodLoop`, `Ols.raise`

### C168 Colours and rms of dynamical spectra are those of each column

model both loops over the columns, with what each column holds afterwards; prove the values column by column, and refute that the object is unchanged with a witness Status: partial.

* `Stingray.DynColors.colors_columns` (Verif/Props/DynColors): C168. The colours of a dynamical spectrum are, column by column, those of the spectrum at that time: one pair for each time, in order.
* `Stingray.DynColors.colors_unchanged` (Verif/Props/DynColors): C168. Without frequencies to exclude, the dynamical spectrum is left as it was.
* `Stingray.DynColors.colors_scale` (Verif/Props/DynColors): C168. The colours do not depend on the normalisation: multiplying the powers and the noise level by the same number gives the same colours, and the same errors.
* `Stingray.DynColors.colors_refuses` (Verif/Props/DynColors): C168. Errors: a spectrum without columns, or edges that are not five, are refused.
* `Stingray.DynColors.colors_modifies` (Verif/Props/DynColors): C168 (negation). With frequencies to exclude, the call overwrites the dynamical spectrum, and the same call made again gives other colours.
* `Stingray.DynColors.dynamical_rms` (Verif/Props/DynColors): C168. `compute_rms` gives one rms for each time: the root of the noise-subtracted power of that column in the band, both ends included, and 0 where it is negative.
* `Stingray.DynColors.dynamical_rms_frac` (Verif/Props/DynColors): C168. For powers in the fractional rms normalisation (where the conversion is `2 T / nphots²`), the squared rms is the sum of the powers above the noise level, times the width of the bins.
* Model: `searchsortedLeft`, `DynColors.Dyn.cols`, `DynColors.Dyn.conv`, `DynColors.Dyn.df`, `DynColors.Dyn.freq`, `DynColors.Dyn.m`, `DynColors.Dyn.nphots`, `DynColors.Dyn.segmentSize`, `DynColors.columnColors`, `DynColors.powerColors`, `Fourier.PowerBin.df`, `Fourier.PowerBin.f`, `Fourier.PowerBin.noise`, `Fourier.PowerBin.power`, `Fourier.fixFirst`, `Fourier.fixLast`, `Fourier.integratePower`, `PowerColors.excludeRange`, `PowerColors.powerColor`, `PowerColors.quotient`, `PowerColors.toBins`, `DynColors.columnRms`, `DynColors.computeRms`, `Gti.arange`, `PowerStats.Per.isArray`, `PowerStats.Per.min`, `PowerStats.Per.simplify`, `PowerStats.Per.values`, `PowerStats.pick`, `PowerStats.rmsNorm`, `PowerStats.rmsUnnorm`, `PowerStats.segmentSizeOr`, `PowerStats.sumSquares`, `PowerStats.totalPowerErr`, `Rebin.Out.stepSize`, `Rebin.Out.ybin`, `Rebin.diff`, `Rebin.dxOld`, `Rebin.loop`, `Rebin.loopBody`, ...

### C169 Complex columns survive text files

Model: tables as ordered lists of named real or complex columns, the loop of write that splits and the loop of read that joins, with the variable that keeps its value between turns; str.replace as a recursive function. Proof: names without dots pass str.replace and the suffix tests; list surgery of one split column; the second complex column is computed for all values. Status: partial.

* `Stingray.Tables.complex_round_trip_partial` (Verif/Props/Tables): C169 (partial). Writing a table to a text file and reading it: when at most one column is complex, with a first value that is not real, and there are other columns, all the columns are read back with their values, in some order; what is written for the complex column are two real columns.
* `Stingray.Tables.complex_two_columns` (Verif/Props/Tables): C169 (negation). Two complex columns, as in a cross spectrum with its unnormalised powers: whatever their values, the second one is read back with a real part of 0 and the sum of its two parts as its imaginary part.
* `Stingray.Tables.complex_first_real` (Verif/Props/Tables): C169 (negation). A complex column is only taken for one when its first value is not real: a table whose complex columns all begin with a real number is handed to the writer as it is, with complex columns in it.
* Model: `Tables.Name`, `Tables.Table`, `Tables.addInto`, `Tables.asComplex`, `Tables.getCol`, `Tables.imagSuffix`, `Tables.joinColumn`, `Tables.joinComplex`, `Tables.joinStep`, `Tables.realSuffix`, `Tables.removeAll`, `Tables.removeAllFuel`, `Tables.removeCol`, `Tables.setCol`, `Tables.splitComplex`, `Tables.splitStep`

### C170 Tables keep what an object says

Model: an object as its times, intervals, mask and a list of named values; the classification of attributes; the loops that assign columns and metadata, with the setters of properties. Proof: an invariant of assignment over lists with distinct names; the three classes are disjoint and exhaust what is kept. Status: partial.

* `Stingray.Tables.table_round_trip_partial` (Verif/Props/Tables): C170 (partial). Converting a time series to a table and back, for names in lower case: the times and the good time intervals are the same, and so is every attribute that is a string, a number or an array with a public name, and every array with a value for each time with a protected name. All other attributes are those of a new object.
* `Stingray.Tables.table_set_time` (Verif/Props/Tables): C170 (times). Times can be assigned if there are none yet, or if there are as many as before; then only the times change. An array of another length is refused, and so is what is not an array.
* `Stingray.Tables.table_no_rows` (Verif/Props/Tables): C170 (negation). A table without rows gives a new object: what the table says in its metadata, such as the good time intervals and the reference time, is lost.
* `Stingray.Tables.table_case` (Verif/Props/Tables): C170 (negation). The case of names is lost: of two attributes `A` and `a` one takes the place of the other.
* `Stingray.Tables.table_none` (Verif/Props/Tables): C170 (negation). An attribute set to `None` comes back with the value of a new object.
* Model: `Tables.MetaTable.cols`, `Tables.MetaTable.info`, `Tables.Name`, `Tables.Obj.attrs`, `Tables.Obj.gti`, `Tables.Obj.mask`, `Tables.Obj.time`, `Tables.effectiveGti`, `Tables.fromTable`, `Tables.getAttr`, `Tables.gtiName`, `Tables.isArray`, `Tables.isData`, `Tables.isInternal`, `Tables.isMeta`, `Tables.maskName`, `Tables.numRows`, `Tables.putAttr`, `Tables.readOnly`, `Tables.rows`, `Tables.setAttr`, `Tables.setColumn`, `Tables.setGti`, `Tables.setMain`, `Tables.setMeta`, `Tables.setTime`, `Tables.timeName`, `Tables.toTable`

### C171 Times keep their instants

Model: interpret_times on a sum type of inputs, and its three callers with what each does with the returned reference. Proof: algebra of (m - ref) * 86400, and case analysis on the choice of the reference. Status: partial.

* `Stingray.Tables.interpret_instants` (Verif/Props/Tables): C171. Times given as astropy times: the returned seconds and reference are the same instants, whatever the reference; a reference that is not 0 is kept.
* `Stingray.Tables.interpret_total` (Verif/Props/Tables): C171. Only an empty array of times, without a reference, is refused; times that are seconds are returned as they are, with the given reference, and a single number as an array of one.
* `Stingray.Tables.lightcurve_instants` (Verif/Props/Tables): C171. Light curves keep the instants of the times they are made from.
* `Stingray.Tables.timeseries_instants_partial` (Verif/Props/Tables): C171 (partial). Event lists and time series keep the instants when the reference is not 0, or when one of the times is not after MJD 10000.
* `Stingray.Tables.timeseries_instants_lost` (Verif/Props/Tables): C171 (negation). Event lists and time series made from astropy times after MJD 10000, without a reference: the times are counted from the first one and the reference stays at 0, so that every instant is lost.
* `Stingray.Tables.from_timeseries_lost` (Verif/Props/Tables): C171 (negation). Astropy time series: with absolute times and no reference in the metadata the conversion fails, and with a reference of 0 the instants are lost.
* `Stingray.Tables.from_timeseries_seconds` (Verif/Props/Tables): C171 (time series with seconds). Astropy time series with times in seconds keep them, and their reference.
* Model: `Tables.chooseRef`, `Tables.interpretTimes`, `Tables.Times.isEmpty`, `Tables.lightcurveTimes`, `Tables.timeseriesTimes`, `Tables.fromTimeseriesTimes`

### C172 p-values of cospectra are probabilities

Model: the sum with factorials as in the code, the truncation by the integer type of the result array, and the branches on the number of spectra. The incomplete gamma function is the tail of a chi square distribution of Mathlib. Proof: the identity that the sum of C(m+j, j) / 2^j over j <= m is 2^m by induction; strict monotonicity of the chi square tail. Status: partial.

* `Stingray.Cospectra.cospectra_pvalue` (Verif/Props/Cospectra): C172. p-value of a cospectral power averaged over 1 to 50 spectra, for a power that is a float: the sum `∑ C(n - 1 + j, j) / 2 ^ (n + j) Q(n - j, n |x|)`, or its complement for negative powers. It is the Laplace distribution for a single spectrum. It is between 0 and 1, 1/2 at zero power, symmetric, and smaller for larger powers.
* `Stingray.Cospectra.cospectra_gaussian` (Verif/Props/Cospectra): C172 (many spectra). For more than 50 spectra the p-value is that of a normal distribution with the variance `2 / n` of the mean of `n` Laplace variables.
* `Stingray.Cospectra.cospectra_refuses` (Verif/Props/Cospectra): C172 (refusals). Numbers of spectra below 1, and floats that are not close to an integer, are refused.
* `Stingray.Cospectra.cospectra_float_nspec` (Verif/Props/Cospectra): C172 (negation). A number of spectra given as a float, such as `2.0`, passes the checks and then fails with a `TypeError` when it is between 2 and 50.
* `Stingray.Cospectra.cospectra_integer_power` (Verif/Props/Cospectra): C172 (negation). Integer powers: the p-value of every integer power averaged over 2 to 50 spectra is 1, however large the power is.
* `Stingray.Cospectra.cross_significances` (Verif/Props/Cospectra): C172 (significances). The significant powers of a Leahy-normalised cross spectrum: an index is returned exactly when the p-value of its power is below the threshold, divided by the number of powers with the correction for the number of trials, and it is returned with that p-value, in order.
* `Stingray.Cospectra.cross_significances_refuses` (Verif/Props/Cospectra): C172 (normalisation). Cross spectra in other normalisations are refused.
* Model: `Cospectra.Power.isInt`, `Cospectra.Power.val`, `Cospectra.cdf`, `Cospectra.cdfTerm`, `Cospectra.cospectraPvalue`, `Cospectra.laplaceSf`, `Cospectra.pvalueInt`, `Cospectra.classicalSignificances`

### C173 A multitaper periodogram is a weighted mean over tapers, in the right units and at the right frequencies

Model/Multitaper.lean: functions over an ordered field with the Fourier transform, the integral, sqrt and the tapers as parameters; the iteration by induction on the turns left. Status: partial.

* `Stingray.Multitaper.multitaper_mean` (Verif/Props/Multitaper): C173 (mean of the tapers). Without adaptive weights, the power is the mean of the powers of the single tapers, weighted by their eigenvalues. With or without adaptive weights, whatever the number of iterations, the power at each frequency is between the smallest and the largest of the powers of the single tapers, and positive.
* `Stingray.Multitaper.multitaper_adaptive` (Verif/Props/Multitaper): C173 (adaptive weights). With three or more tapers, the adaptive powers are either the powers with the last weights, after the largest number of iterations, or come with Thomson's weights for these powers, and at each frequency these weights differ by less than 1e-10 (mean square) from those the powers were computed with (from zero, if the first estimate was kept). With one or two tapers nothing is adapted.
* `Stingray.Multitaper.multitaper_units` (Verif/Props/Multitaper): C173 (units). Multiplying the counts by a number and adding a constant (a background): the frequencies are the same and all powers are multiplied by the square of the number, with adaptive weights or not, for any tapers and any linear Fourier transform.
* `Stingray.Multitaper.multitaper_frequencies_partial` (Verif/Props/Multitaper): C173 (frequencies, partial). For an even number of bins the frequencies are all the Fourier frequencies above zero and below the Nyquist frequency. Missing: odd numbers of bins, see `multitaper_odd`.
* `Stingray.Multitaper.multitaper_odd` (Verif/Props/Multitaper): C173 (negation). For an odd number of bins, where no Fourier frequency equals the Nyquist frequency, the last element is dropped all the same: the highest Fourier frequency, which is below the Nyquist frequency, is missing.
* `Stingray.Multitaper.multitaper_tapers` (Verif/Props/Multitaper): C173 (tapers). With the choice of low bias, the tapers used are exactly those with an eigenvalue above 0.9 if there are any, and otherwise a single one whose eigenvalue no other exceeds. A half bandwidth below 1/2 is refused with a ValueError, and nothing else is.
* `Stingray.Multitaper.multitaper_jackknife` (Verif/Props/Multitaper): C173 (jackknife). The jackknife variance of the logarithm of the power, estimated by leaving out each taper in turn, is not negative for two or more tapers, and does not change when all the responses are multiplied by a number other than zero.
* Model: `Multitaper.adaptLoop`, `Multitaper.adaptWeights`, `Multitaper.adaptivePsd`, `Multitaper.combine`, `Multitaper.converged`, `Multitaper.psdAll`, `Multitaper.psdAt`, `Multitaper.columns`, `Multitaper.fourierMultitaper`, `Multitaper.frequencies`, `Multitaper.responses`, `Multitaper.selected`, `Multitaper.tapered`, `Multitaper.jackknife`, `Multitaper.leaveOut`

### C174 Simulated events follow the binned distribution

Model/InverseCdf.lean: the cumulative sum, the linear interpolation and the loop over intervals over an ordered field with the random numbers as arguments; the bin of a value is shown to be the bin of its random number. Status: partial.

* `Stingray.InverseCdf.inverse_cdf_bins_partial` (Verif/Props/InverseCdf): C174 (bins, partial). For a distribution with two or more bins, none negative and not all zero, and increasing edges: one value is simulated for each random number, every value is inside the edges, the number of values in each bin is the number of random numbers in an interval as long as the fraction of the distribution in that bin (so none fall into empty bins), and if sorted values are asked for they are in ascending order. Missing: a single bin, see `inverse_cdf_single_bin`.
* `Stingray.InverseCdf.inverse_cdf_refuses` (Verif/Props/InverseCdf): C174 (refusal). A distribution with a negative value is refused with a ValueError, whatever else is given, and so are edges that are not one more than two or more bins.
* `Stingray.InverseCdf.inverse_cdf_single_bin` (Verif/Props/InverseCdf): C174 (negation). With a single bin the given edges are ignored: a value simulated in one bin from 2 to 10 lies between 0 and 1. So energies simulated from a spectrum with one band from 2 to 10 keV are below 1 keV.
* `Stingray.InverseCdf.simulate_times_gtis` (Verif/Props/InverseCdf): C174 (times). With two or more GTIs, if the bins of each GTI can be found: the events are those of each GTI one after the other, as many for each GTI as were drawn for it, in ascending order and inside this GTI, never between GTIs. (The number drawn for a GTI without counts is zero.)
* `Stingray.InverseCdf.simulate_times_aligned_partial` (Verif/Props/InverseCdf): C174 (times of bins, partial). For one GTI which begins and ends with the bins of a light curve with two or more bins, the number of events in the bin around each time is the number of random numbers in an interval as long as the fraction of counts in this bin. Missing: a GTI which does not begin and end with the light curve, see `simulate_times_squeezed`.
* `Stingray.InverseCdf.simulate_times_squeezed` (Verif/Props/InverseCdf): C174 (negation). With one GTI which covers only the first two of four bins, all of the counts are squeezed into it: there are no counts in the GTI, but events are simulated in it.
* `Stingray.InverseCdf.simulate_times_refuses` (Verif/Props/InverseCdf): C174 (refusal, times). Negative counts are refused with a ValueError, whatever the GTIs; other counts without any GTI raise an IndexError.
* `Stingray.InverseCdf.simulate_energies_partial` (Verif/Props/InverseCdf): C174 (energies, partial). For a spectrum with two or more evenly spaced energies, the number of events whose simulated energy is within half a step of an energy is the number of random numbers in an interval as long as its fraction of the flux; one energy is simulated for each event, and none for an empty event list. Missing: a single band, see `inverse_cdf_single_bin`.
* Model: `InverseCdf.cdf`, `InverseCdf.cumsum`, `InverseCdf.grid`, `InverseCdf.interp`, `InverseCdf.npSort`, `InverseCdf.simulate`, `InverseCdf.simulateEnergies`, `searchsortedLeft`, `Gti.flatten`, `Gti.gtiBorderBins`, `Gti.gtiBorderBinsOne`, `InverseCdf.simulateGti`, `InverseCdf.simulateOne`, `InverseCdf.simulateTimes`

### C175 Phases, waveform and rms of quasi-periodic oscillations

Model/Spectroscopy.lean: NumPy's binary search run on unsorted frequencies, complex arguments, and integrals of the waveform by explicit antiderivatives. Status: partial.

* `Stingray.Spectroscopy.phase_difference_delay` (Verif/Props/Spectroscopy): C175 (phase difference). The phase difference of two harmonics is between 0 and pi, and does not depend on the origin of the phase or the amplitudes: a delay, which turns the first harmonic by an angle and the second one by twice the angle, and positive factors leave it unchanged.
* `Stingray.Spectroscopy.phase_lag_difference` (Verif/Props/Spectroscopy): C175 (lag). The phases returned for a channel have the phase difference of the reference, apart from the lag of the second harmonic.
* `Stingray.Spectroscopy.harmonic_odd_partial` (Verif/Props/Spectroscopy): C175 (harmonics, partial). For an odd number of bins, a positive frequency not above the highest Fourier frequency is matched to a Fourier frequency that no other is nearer to. Missing: even numbers of bins, see `harmonic_even`.
* `Stingray.Spectroscopy.harmonic_even` (Verif/Props/Spectroscopy): C175 (negation). For an even number of bins the search runs on frequencies that are not in ascending order: whatever the positive frequencies of the two harmonics are, the last Fourier coefficient is used for both, that of the frequency -1/(n dt).
* `Stingray.Spectroscopy.waveform_mean_rms` (Verif/Props/Spectroscopy): C175 (waveform). The mean of the waveform over a cycle is the mean count rate, and its fractional rms is the root of the sum of the squares of the rms of the harmonics.
* `Stingray.Spectroscopy.mean_phase_partial` (Verif/Props/Spectroscopy): C175 (mean, partial). Below pi / 2, the function that is minimised is the sum of the squared differences of the phase differences from their mean. Missing: from pi / 2 on, see `mean_phase_above`.
* `Stingray.Spectroscopy.mean_phase_above` (Verif/Props/Spectroscopy): C175 (negation). From pi / 2 on, the function is not small where the phase differences are: for `n` segments with exactly the phase difference `p` its value at `p` is `n² pi²`, not zero.
* `Stingray.Spectroscopy.mean_phase_stddev` (Verif/Props/Spectroscopy): C175 (negation). The standard deviation of the mean is the mean divided by the number of segments: for a minimiser that finds the minimum, and segments that all have the same phase difference, there is no scatter but the standard deviation is not zero.
* `Stingray.Spectroscopy.model_rms` (Verif/Props/Spectroscopy): C175 (rms). The squared rms of a model is the sum of its values times the frequency resolution over all frequencies, over the positive ones, or over those nearer to the centre of the first component than half its width; other criteria are refused.
* `Stingray.Spectroscopy.ccf_average` (Verif/Props/Spectroscopy): C175 (cross correlation). For a linear inverse transform, the cross correlation of the average of the segment spectra is the average of the cross correlations of the segments, so the errors are the standard errors of the segments about their own mean.
* Model: `Spectroscopy.phases`, `Spectroscopy.pyMod`, `Spectroscopy.phaseLag`, `Spectroscopy.binSearch`, `Spectroscopy.fftfreq`, `Spectroscopy.nearestIdx`, `Spectroscopy.getParameters`, `Spectroscopy.waveform`, `Spectroscopy.xSquared`, `Spectroscopy.meanPhase`, `Spectroscopy.rms2`, `Spectroscopy.average`, `Spectroscopy.ccf`, `Spectroscopy.ccfError`, `UtilsStats.quot`, `UtilsStats.root`, `UtilsStats.standardError`

### C176 The Lomb-Scargle transform is the least-squares fit of a sinusoid, and agrees with the Fourier transform for even sampling

real model of the two transforms with arctan2 as the argument of a complex number; orthogonality of the shifted sines and cosines, roots of unity for even sampling; explicit witness for the difference between the methods Status: partial.

* `Stingray.LombScargle.ls_frequencies` (Verif/Props/LombScargle): C176 (frequencies). With a lowest frequency, a highest frequency and a resolution, the frequencies start at the lowest, are spaced by the resolution, and the last of them is the first that is not below the highest requested.
* `Stingray.LombScargle.ls_defaults` (Verif/Props/LombScargle): C176 (defaults). A missing or non-positive resolution is the inverse of the length of the observation, a missing highest frequency is the Nyquist frequency times the factor, a missing or non-positive lowest frequency is half the resolution; without a resolution and a length, or without a highest frequency and a bin time, a ValueError is raised.
* `Stingray.LombScargle.ls_max_freq` (Verif/Props/LombScargle): C176 (negation). `max_freq` is not the highest frequency: with `min_freq=1`, `max_freq=2`, `df=2` the spectrum reaches 3.
* `Stingray.LombScargle.ls_df_ignored` (Verif/Props/LombScargle): C176 (negation). The resolution asked for is not used by the cross spectrum: whatever `df`, the frequencies are those of the default resolution.
* `Stingray.LombScargle.ls_checks` (Verif/Props/LombScargle): C176 (checks). The arguments are accepted exactly if the names are known, the frequency limits are non-negative and in order, and the data are two event lists with a bin time above the resolution, or two light curves.
* `Stingray.LombScargle.ls_span` (Verif/Props/LombScargle): C176 (length). The length used for the resolution is that of the shortest interval with all the times of both light curves.
* `Stingray.LombScargle.ls_least_squares` (Verif/Props/LombScargle): C176 (least squares). Twice the squared modulus of the transform, over the number of points, is what the best sinusoid of that frequency takes off the sum of squares of the mean-subtracted counts, wherever the samples lie.
* `Stingray.LombScargle.ls_affine` (Verif/Props/LombScargle): C176 (affine). A constant added to the counts does not change the transform, and a factor multiplies it.
* `Stingray.LombScargle.ls_time_shift` (Verif/Props/LombScargle): C176 (time shift). Moving all the samples in time does not change the transform, except where the sums of `cos 2wt` and `sin 2wt` both vanish.
* `Stingray.LombScargle.ls_even` (Verif/Props/LombScargle): C176 (even sampling). For two light curves with the same even sampling, at a Fourier frequency other than zero and the Nyquist frequency, the cross spectrum is `conj(X1) X2` of the discrete Fourier transforms: what the ordinary cross spectrum gives, whatever the first time.
* `Stingray.LombScargle.ls_fast_partial` (Verif/Props/LombScargle): C176 (fast, partial). Where the sums of `cos 2wt` and `sin 2wt` vanish, as for even sampling, the fast transform is the slow one, however many frequencies. For other samplings see `ls_fast_differs`.
* `Stingray.LombScargle.ls_fast_differs` (Verif/Props/LombScargle): C176 (negation). The two methods do not give the same spectrum: for counts 1, 0, 0 at times 0, 1, 2 the squared modulus at the frequency 1/4 is 11/12 by the slow and 10/9 by the fast method, however many frequencies (which exchanges the sums of sines and cosines, and counts the frequencies instead of the points).
* `Stingray.LombScargle.ls_no_lag` (Verif/Props/LombScargle): C176 (negation). A light curve and the same light curve moved in time by any amount have a real, positive cross spectrum: the lag between them does not show, because each transform counts the phase from the first time of its own light curve.
* `Stingray.LombScargle.ls_method` (Verif/Props/LombScargle): C176 (method). The slow method drops the negative frequencies, treats each frequency by itself and gives zero at zero; the fast one refuses fewer than two frequencies.
* `Stingray.LombScargle.ls_cross` (Verif/Props/LombScargle): C176 (cross spectrum). The cross spectrum of two light curves is, at each non-negative frequency, the transform of the first times the conjugate of the transform of the second; that of a light curve with itself is its squared modulus.
* `Stingray.LombScargle.ls_symmetry` (Verif/Props/LombScargle): C176 (symmetry). `fullspec` keeps the values at the positive frequencies, gives their conjugates at the negative frequencies, and zero at zero.
* `Stingray.LombScargle.ls_powers_partial` (Verif/Props/LombScargle): C176 (power type, partial). `power` is the normalised cross spectrum, its real part or its modulus, as asked; with `"all"` the unnormalised powers are the cross spectrum. For the other types see `ls_unnorm`.
* `Stingray.LombScargle.ls_unnorm` (Verif/Props/LombScargle): C176 (negation). With power type `"real"` or `"absolute"` the unnormalised powers are lost: they are the normalised ones, so with a normalisation that halves the powers the unnormalised powers are half of what they should be.
* Model: `Gti.arange`, `LombScargle.autofrequency`, `LombScargle.crossFrequencies`, `LombScargle.Args.data1`, `LombScargle.Args.data2`, `LombScargle.Args.dt`, `LombScargle.Args.fullspecIsBool`, `LombScargle.Args.maxFreq`, `LombScargle.Args.method`, `LombScargle.Args.minFreq`, `LombScargle.Args.norm`, `LombScargle.Args.oversamplingIsInt`, `LombScargle.Args.powerType`, `LombScargle.initialChecks`, `LombScargle.span`, `LombScargle.arctan2`, `LombScargle.mean`, `LombScargle.slowAt`, `LombScargle.crossAt`, `LombScargle.fastAt`, `LombScargle.trigSum`, `LombScargle.lsftFast`, `LombScargle.lsftSlow`, `LombScargle.crossSlow`, `LombScargle.imposeSymmetry`, `LombScargle.powers`

### C177 Gaussian-process models: names of parameters, positive covariance, shapes of flares

real model; positivity through the integral of a square for the kernel min, then exponential and cosine factors; lookups in the dictionary by names without repetition Status: partial.

* `Stingray.GpModel.gp_names` (Verif/Props/GpModel): C177 (names). For an implemented kernel and mean the list of parameters has no repetition, not even between a parameter and the logarithm of a parameter of the same name, and it is all that the likelihood needs: with one number for each of them the model is defined. Any other kernel or mean raises a ValueError, and so does too short a list of numbers raise an IndexError.
* `Stingray.GpModel.gp_order` (Verif/Props/GpModel): C177 (order). The likelihood does not depend on the order of the parameters: exchanging names together with their numbers gives the same covariance and mean.
* `Stingray.GpModel.gp_kernels` (Verif/Props/GpModel): C177 (kernels). The covariance of the counts at two times a distance `r` apart: red noise is an exponential with the variance and the damping rate given by their logarithms, a quasi-periodic oscillation is a damped cosine, and `QPO_plus_RN` is the sum.
* `Stingray.GpModel.gp_means` (Verif/Props/GpModel): C177 (means). The numbers after those of the kernel are, in the order of the names, the parameters of the mean, with the exponential taken of those named as logarithms.
* `Stingray.GpModel.gp_covariance` (Verif/Props/GpModel): C177 (covariance). Whatever the numbers given for the parameters and whatever the times, the covariance matrix is positive: no linear combination of the counts has a negative variance, so that the likelihood is that of a Gaussian process.
* `Stingray.GpModel.gp_flares` (Verif/Props/GpModel): C177 (flares). Gaussian and exponential flares, also the skew ones, have the height `A` at `t0` and are lower at every other time; they are mirror images around `t0` when the two widths are exchanged; several flares add up, and without width asymmetry the skew flares are the plain ones.
* `Stingray.GpModel.gp_fred_partial` (Verif/Props/GpModel): C177 (FRED, partial). After the time `-delta` a FRED flare has the height `A` at `t0 - delta` and is lower at every other time. For the place of the maximum and earlier times see `gp_fred_place` and `gp_fred_before`.
* `Stingray.GpModel.gp_fred_place` (Verif/Props/GpModel): C177 (negation). `t0` is not the location of the maximum of a FRED flare: for positive `delta` below `t0` the flare is lower at `t0` than at `t0 - delta`.
* `Stingray.GpModel.gp_fred_before` (Verif/Props/GpModel): C177 (negation). Before the time `-delta` a FRED flare is higher than its amplitude, by a factor of at least `exp(4 phi)`.
* `Stingray.GpModel.gp_best` (Verif/Props/GpModel): C177 (best sample). The parameters of largest posterior density (or likelihood) are those of a sample for which no other sample has a larger one.
* Model: `GpModel.Dict`, `GpModel.Name`, `GpModel.celerite`, `GpModel.constant`, `GpModel.entry`, `GpModel.expKernel`, `GpModel.exponential`, `GpModel.fred`, `GpModel.gaussian`, `GpModel.get`, `GpModel.getKernel`, `GpModel.getMean`, `GpModel.gpParams`, `GpModel.kernelParams`, `GpModel.logPrefix`, `GpModel.meanParams`, `GpModel.model`, `GpModel.paramDict`, `GpModel.skewExponential`, `GpModel.skewGaussian`, `GpModel.argmax`, `GpModel.maxParameter`

### C178 The acceleration search reports exactly the cells above the detection level, in any schedule

The search is modelled from the preparation of the light curve to the table; the Fourier transform, the convolution (modelled separately as overlap-and-save), the response templates and the statistics are parameters. The order in which results arrive is an argument; tables for two orders are permutations of each other. Membership of a row in the table is characterised, without and with interbinning. Interbinning: positions of old and new values, the two-sided case through the sorted list, and the gain for a tone halfway between two frequencies by a geometric sum. Negations: `zmax` is excluded from the grid, a single GTI is ignored, the caller's array is overwritten when gaps are filled, the normalisation uses the counts before filling, negative frequencies are reported as positive ones. Status: partial.

* `Stingray.AccelSearch.interbin_even` (Verif/Props/AccelSearch): C178 (interbinning). Interbinning a Fourier transform on evenly spaced frequencies that end with one that is not negative gives `2 N - 1` values: the old frequencies and amplitudes, unchanged and in the same order, and between any two neighbours the frequency halfway between them with `π/4` times the difference of their amplitudes.
* `Stingray.AccelSearch.interbin_two_sided` (Verif/Props/AccelSearch): C178 (interbinning, two sides). With all the frequencies of a Fourier transform, in the usual order, the result is in the usual order too: first the frequencies that are not negative, in steps of half the old one up to the highest; then the negative ones, from the lowest up to half a step below zero. The old frequencies keep their amplitudes, and between two neighbours (zero and its negative neighbour included) is `π/4` times the difference.
* `Stingray.AccelSearch.interbin_tone` (Verif/Props/AccelSearch): C178 (interbinning, a tone). For a tone halfway between two Fourier frequencies, the power of the bin added between them is at least that of its two neighbours, and never above `n²`, the power of a tone of the same amplitude on a Fourier frequency.
* `Stingray.AccelSearch.accel_order` (Verif/Props/AccelSearch): C178 (schedule). Whatever the order in which the parallel workers finish, the table has the same rows as often (in another order), and the result is an error for all orders or for none.
* `Stingray.AccelSearch.accel_rows` (Verif/Props/AccelSearch): C178 (candidates). For evenly spaced times and a lowest frequency that is not negative, the rows of the table are the cells of the plane above the detection level, no more and no fewer: for each `z = -zmax + i Δz < zmax` and each Fourier frequency `k/T` in `[fmin, fmax)` whose power with the template for `z` is above the level for that number of frequencies, the row with this power, `k/T`, and `z/T²`.
* `Stingray.AccelSearch.accel_interbin` (Verif/Props/AccelSearch): C178 (candidates, interbinning). With interbinning the rows are, for each `z`, those of the Fourier frequencies in the band, as without it, and in addition, for two neighbouring Fourier frequencies that are both in the band, the frequency `(k + 1/2)/T` with the power of `π/4` times the difference of the amplitudes, if above the same detection level. If no Fourier frequency is in the band, an IndexError is raised.
* `Stingray.AccelSearch.accel_zmax` (Verif/Props/AccelSearch): C178 (negation). The frequency derivatives are not searched from `-zmax` to `zmax`, as documented: `-zmax / T²` is in the grid, but no row ever has the derivative `zmax / T²`.
* `Stingray.AccelSearch.accel_one_gti` (Verif/Props/AccelSearch): C178 (negation). A single good time interval is ignored: the light curve outside it is searched too, and the exposure is given as complete.
* `Stingray.AccelSearch.accel_gaps` (Verif/Props/AccelSearch): C178 (gaps). With two or more good time intervals, the light curve that is searched has the counts of the good bins, and in every other bin the same number: the mean of the good bins, or, if the mean of the light curve is above 10, their median. The exposure is the fraction of good bins, and the start is that of the first interval. Otherwise all bins are as given, the exposure is 1, and the start is half a bin before the first time.
* `Stingray.AccelSearch.accel_refuses` (Verif/Props/AccelSearch): C178 (empty grid). Without any derivative to be searched (`zmax` not positive) a ValueError is raised, and with fewer than two times an IndexError.
* `Stingray.AccelSearch.accel_signal` (Verif/Props/AccelSearch): C178 (negation). With more than one good time interval the array of the caller is overwritten: outside the intervals the counts are replaced by the mean.
* `Stingray.AccelSearch.accel_leahy_partial` (Verif/Props/AccelSearch): C178 (Leahy powers). With no gaps to fill, the transform given to `fft_rescale` is in the Leahy normalization: its power at zero frequency is twice the number of photons.
* `Stingray.AccelSearch.accel_not_leahy` (Verif/Props/AccelSearch): C178 (negation). With gaps the powers are not in the Leahy normalization: the number of photons is taken before the gaps are filled. Four bins with 16 counts after filling, 8 before, have a power of 64 at zero frequency instead of 32, and so all the noise powers are twice as large as the detection level assumes.
* `Stingray.AccelSearch.accel_negative` (Verif/Props/AccelSearch): C178 (negation). With a negative lowest frequency the frequencies of the rows are wrong: of two bins of one second, searched in `[-1, 0)`, the one at -1/2 Hz is reported at +1/2 Hz.
* Model: `AccelSearch.interbin`, `AccelSearch.interleave`, `AccelSearch.Cand`, `AccelSearch.Opts.deltaZ`, `AccelSearch.Opts.fmax`, `AccelSearch.Opts.fmin`, `AccelSearch.Opts.inter`, `AccelSearch.Opts.refTime`, `AccelSearch.Opts.zmax`, `AccelSearch.Tools.conv`, `AccelSearch.Tools.detlev`, `AccelSearch.Tools.fft`, `AccelSearch.Tools.gtiMask`, `AccelSearch.Tools.median`, `AccelSearch.Tools.prob`, `AccelSearch.Tools.rescale`, `AccelSearch.Tools.template`, `AccelSearch.accelsearch`, `AccelSearch.allConvolutions`, `AccelSearch.fill`, `AccelSearch.interval`, `AccelSearch.mean`, `AccelSearch.prepare`, `AccelSearch.responses`, `AccelSearch.row`, `AccelSearch.selected`, `AccelSearch.spectrum`, `AccelSearch.worker`, `Gti.arange`, `Spectroscopy.fftfreq`, `AccelSearch.Row.fdot`, `AccelSearch.Row.frequency`

### C179 Phaseograms keep every event, repeat the cycle, and times of arrival lie in one period

histogram over equal bins as in numpy; each event is in exactly one bin; affine change of the time axis. Negation: with a reference MJD and no epoch the default epoch mixes seconds and MJD, witness over the rationals Status: partial.

* `Stingray.Phaseogram.phaseogram_cells` (Verif/Props/Phaseogram): C179 (cells). The phaseogram has `2 nph` rows of `nt` cells. A cell, and the one `nph` rows further on, has the total weight of the events whose phase, counted from the reference time with the frequency and its derivatives, and whose time are in its bins: the second cycle repeats the first. The bins of time are equal and run from the first to the last event.
* `Stingray.Phaseogram.phaseogram_total` (Verif/Props/Phaseogram): C179 (total). No event is lost: the cells of a phaseogram add up to twice the total weight of the events.
* `Stingray.Phaseogram.phaseogram_refuses` (Verif/Props/Phaseogram): C179 (refusals). Without events, or with another number of weights than of events, there is no phaseogram.
* `Stingray.Phaseogram.phaseogram_mjd` (Verif/Props/Phaseogram): C179 (MJD). With a reference MJD and a reference epoch in MJD, the phaseogram is the one without them whose reference epoch is the same instant in seconds; only the axis of the times is changed to MJD.
* `Stingray.Phaseogram.phaseogram_default_epoch` (Verif/Props/Phaseogram): C179 (negation). Giving only a reference MJD moves the pulse: the middle of the observation, in seconds after the reference MJD, is then taken as an MJD, so the reference epoch is not in the middle of the observation.
* `Stingray.Phaseogram.toa_in_period` (Verif/Props/Phaseogram): C179 (time of arrival). The time of arrival is in the first period from the start time, differs from the start plus the fitted phase by a whole number of periods, does not change with a whole additional phase, and its error is the error of the phase times the period.
* Model: `Phaseogram.hist2d`, `Phaseogram.inBin`, `Phaseogram.linspace`, `Phaseogram.phaseogram`, `Phaseogram.reference`, `Phaseogram.timeAxis`, `Pulsar.phaseLoop`, `Pulsar.pulsePhase`, `Phaseogram.getToa`

### C180 Light curves simulated from a power spectrum have that spectrum, the mean and the rms

inverse real transform over the reals, orthogonality of sines and cosines, affine scaling. Negations: the seed does not reach the normal draws; the last frequency of odd sizes; given spectra with red noise; lists; times of impulse responses Status: partial.

* `Stingray.Timmer.timmer_spectrum` (Verif/Props/Timmer): C180 (spectrum). Without extra red noise, and unless all amplitudes vanish, a light curve simulated from a power spectrum `shape` has the requested number of bins, exactly the requested mean and rms, and its Fourier transform is, up to one positive factor, `√(shape/2)` times the normal draws (real and imaginary part): so its periodogram at each frequency, but for the last one of the shape, is the shape times half of a sum of two squared normal draws. Frequencies beyond the shape have no power. The imaginary part is zero at the last frequency of the shape and at the Nyquist frequency.
* `Stingray.Timmer.timmer_odd` (Verif/Props/Timmer): C180 (negation). With an odd number of bins the last simulated frequency is below the Nyquist frequency, but its imaginary part is set to zero all the same: its power is not the shape times half of the sum of both squared draws.
* `Stingray.Timmer.timmer_seed` (Verif/Props/Timmer): C180 (negation). The seed does not determine the simulated light curve: it only seeds the generator the cut of a longer light curve is drawn with (`extract`), the normal draws come from the global generator of numpy.
* `Stingray.Timmer.timmer_seed_unused` (Verif/Props/Timmer): C180 (seed). Without extra red noise the seeded generator is not used at all.
* `Stingray.Timmer.timmer_model` (Verif/Props/Timmer): C180 (model and spectrum). The frequencies of the shape are `k / (n dt)`, `k = 1 … n/2`, of the long light curve. Without extra red noise, a model gives what the array of its values at these frequencies gives.
* `Stingray.Timmer.timmer_user_red_noise` (Verif/Props/Timmer): C180 (negation). With extra red noise, a given spectrum is not simulated at the frequencies of the light curve, `k / (N dt)`: the values are used, one by one, for the finer frequencies of the longer light curve, and the higher ones get no power.
* `Stingray.Timmer.timmer_user_spectrum` (Verif/Props/Timmer): C180 (given spectrum). A given spectrum is simulated as a model with its values at the first frequencies of the longer light curve and no power at the others, `redNoise` times as many in all.
* `Stingray.Timmer.timmer_power_law` (Verif/Props/Timmer): C180 (power law). A number `b` stands for the model `(1 / frequency) ^ b`.
* `Stingray.Timmer.timmer_poisson` (Verif/Props/Timmer): C180 (Poisson). For Poisson light curves the rates are those of the light curve without noise, with zero for the negative ones.
* `Stingray.Timmer.timmer_refuses` (Verif/Props/Timmer): C180 (refusals). A simulator is made for an integer number of bins, a fractional rms of at most 1 and a positive time resolution, and only for these. `simulate` refuses a model that is not defined, parameters that are neither a list nor a dictionary, and no or more than three arguments.
* `Stingray.Timmer.timmer_list` (Verif/Props/Timmer): C180 (negation). A spectrum has to be a numpy array: a list, which the documentation allows (`array-like`), raises `AttributeError`.
* `Stingray.Timmer.timmer_times` (Verif/Props/Timmer): C180 (times). A simulated light curve starts at `tstart`, with one bin each `dt`.
* `Stingray.Timmer.timmer_response_times` (Verif/Props/Timmer): C180 (negation). A light curve from an impulse response is half a bin later than one from a spectrum, or than the times of the simulator: its times are the middles of the bins.
* Model: `Simulator.extractAndScale`, `Simulator.mean`, `Simulator.takeRange`, `Timmer.Config.mean`, `Timmer.Config.n`, `Timmer.Config.poisson`, `Timmer.Config.redNoise`, `Timmer.Config.rms`, `Timmer.amplitudes`, `Timmer.findInverse`, `Timmer.irfft`, `Timmer.multiplicity`, `Timmer.timmerKoenig`, `Fourier.Cx.im`, `Fourier.Cx.re`, `Simulator.convolve`, `Simulator.impulseResponse`, `Simulator.pySlice`, `Simulator.sliceEnd`, `Timmer.Config.dt`, `Timmer.Config.tstart`, `Timmer.frequencies`, `Timmer.modelShape`, `Timmer.responseTimes`, `Timmer.simulate`, `Timmer.times`, `Timmer.userShape`, `Timmer.withTimes`, `Timmer.checkInit`

### C181 Lags and covariances of an energy band

Model/EnergyLags.lean computes lag and covariance from a list of frequencies and complex powers over the reals. The weighted mean frequency is bounded by induction, phases by Complex.arg. Negations: a delay over several frequencies is not recovered exactly; noise shared with an overlapping reference band is left in the lag. Status: partial.

* `Stingray.EnergyLags.lag_band` (Verif/Props/EnergyLags): C181 (band). Frequencies outside the interval, which has its lower and not its upper end, do not change the lag or the covariance.
* `Stingray.EnergyLags.lag_range` (Verif/Props/EnergyLags): C181 (range). There is a lag exactly when the cross power does not vanish at all frequencies of the interval (which are positive). The lag is the phase of the mean cross power at a frequency inside the interval, so it is at most half a period of it in size, and its error is that of the phase at the same frequency.
* `Stingray.EnergyLags.lag_phase` (Verif/Props/EnergyLags): C181 (phase lag). When the cross power has the same phase `φ` at all frequencies of the interval, the lag is `φ / (2 π f)`, with `f` the mean of the frequencies weighted with the moduli.
* `Stingray.EnergyLags.lag_delay` (Verif/Props/EnergyLags): C181 (delay). For one frequency in the interval, a delay of less than half a period is recovered exactly.
* `Stingray.EnergyLags.lag_exchange` (Verif/Props/EnergyLags): C181 (exchange). Exchanging the two bands, which conjugates the cross power, changes the sign of the lag (but for lags of exactly half a period), and multiplying the cross power with a positive number does not change it.
* `Stingray.EnergyLags.lag_delay_many` (Verif/Props/EnergyLags): C181 (negation). A delay over several frequencies is not recovered exactly: the phase of the mean is not the mean phase.
* `Stingray.EnergyLags.lag_common_noise` (Verif/Props/EnergyLags): C181 (negation). For a band that overlaps the reference band, the noise the bands share (a real number `noise` added to the cross power) is not subtracted from the cross power, as it is for covariances: the lag is pulled towards zero.
* `Stingray.EnergyLags.covariance_of_band` (Verif/Props/EnergyLags): C181 (covariance). With the noise of a band that overlaps the reference band subtracted from its mean cross power, `C`: there is a covariance exactly when there is a frequency in the interval, the reference power is above its noise and (for fractional covariances) the mean rate is not zero. Its squared modulus times the reference power above the noise is `|C|²` times the width of the interval, divided by the squared mean rate for fractional covariances; the complex covariance has the phase of `C`, the other one is real and not negative.
* Model: `EnergyLags.covarianceOf`, `EnergyLags.good`, `EnergyLags.lagOf`, `EnergyLags.meanCross`, `EnergyLags.meanFrequency`

### C182 Template fits of pulse profiles

Model/FftFit.lean over the reals with complex transforms; brentq is a parameter. The minimised function is shown to be the derivative of the correlation (HasDerivAt), rotation multiplies the transform with a phase (induction on the rotation). Negations: one bin never ends; fewer than 32 bins are refused; no default template. Status: partial.

* `Stingray.FftFit.fftfit_stationary` (Verif/Props/FftFit): C182. With a root finder that returns roots, the shift is in `(-0.5, 0.5]`, and there the derivative of the correlation of the profile with the shifted template, in the first harmonics, vanishes. The number of harmonics is that of the elements of the transforms for which the product of the moduli is at least the mean one.
* `Stingray.FftFit.fftfit_rotated` (Verif/Props/FftFit): C182 (known shift). For a profile that is the template rotated by `t` bins, multiplied with `a ≥ 0` and with a background `c`, the correlation is largest at the shift `-t / n`, whatever the harmonics; when the fit finds that shift, up to whole periods, the amplitude, if there is one, is `a`.
* `Stingray.FftFit.fftfit_start` (Verif/Props/FftFit): C182 (start). The search starts in `(-0.5, 0.5]` at the one of 64 equally spaced shifts with the largest correlation in the harmonics up to 15.
* `Stingray.FftFit.fftfit_refuses` (Verif/Props/FftFit): C182 (refusals). A template with another number of bins than the profile is refused with an `IndexError`, and, with the same number of bins, two to 31 of them and flat profiles or templates of at least two bins with a `ValueError`.
* `Stingray.FftFit.fftfit_one_bin` (Verif/Props/FftFit): C182 (negation). A profile and a template of one bin are not refused: the search never ends.
* `Stingray.FftFit.fftfit_few_bins` (Verif/Props/FftFit): C182 (negation). Not all profiles and templates of the same number of at least two bins that are not flat get an answer: those of fewer than 32 bins are refused, however good the root finder.
* `Stingray.FftFit.pulsar_fftfit` (Verif/Props/FftFit): C182 (user interface). The function of the user gives the same as the fit, as subtracting the mean twice changes nothing.
* `Stingray.FftFit.pulsar_fftfit_default` (Verif/Props/FftFit): C182 (negation). Without a template the documented sinusoid is not used: the call is refused.
* `Stingray.FftFit.fftfit_nearest` (Verif/Props/FftFit): C182 (nearest change of sign). With a root finder that stays in its interval, the shift is, up to whole periods, within two bins of a change of sign of the derivative of the correlation that is the nearest one to the start, in steps of a bin to both sides.
* Model: `FftFit.amp`, `FftFit.amplitude`, `FftFit.bestPhase`, `FftFit.bracket`, `FftFit.ccf`, `FftFit.centre`, `FftFit.fftfit`, `FftFit.findDelay`, `FftFit.ft`, `FftFit.ngood`, `FftFit.pha`, `FftFit.solve`, `FftFit.terms`, `FftFit.toMinimize`, `Pulsar.normalizePhase`, `Pulsar.phaseDown`, `Pulsar.phaseUp`, `FftFit.pulsarFftfit`

### C183 Baselines by asymmetric least squares

Model/BaselineAls.lean with Mathlib matrices over the reals: the system W + lam D D^T, its inverse, and NaN when singular. The quadratic form gives minimality; the kernel of the second differences consists of the straight lines. Negation: a constant light curve (no counts, say) has no baseline with the default ten rounds. Status: partial.

* `Stingray.BaselineAls.als_minimises` (Verif/Props/BaselineAls): C183. The baseline after one round is the curve that minimises the sum of squares, penalised with `lam` times the sum of the squared second differences, with equal weights; after more rounds it minimises it with the weights `p` for the bins above the last curve, `1 - p` for those below and 0 for those on it.
* `Stingray.BaselineAls.als_first` (Verif/Props/BaselineAls): C183 (one round). Without a round there is a `NameError`; one round always gives a curve.
* `Stingray.BaselineAls.baseline_line` (Verif/Props/BaselineAls): C183 (trends). Adding a straight line to the light curve adds it to the baseline and leaves the subtracted light curve as it is.
* `Stingray.BaselineAls.baseline_sum` (Verif/Props/BaselineAls): C183 (sum). The subtracted light curve and the baseline add up to the light curve, with or without offset correction; with it, the mean of the subtracted light curve over the bins that are within ten standard deviations of the uncorrected baseline (all bins if there are fewer than ten of them) is zero.
* `Stingray.BaselineAls.als_line` (Verif/Props/BaselineAls): C183 (straight lines). A straight line is its own baseline after one round, and after more rounds there is none: all weights vanish.
* `Stingray.BaselineAls.baseline_exists` (Verif/Props/BaselineAls): C183 (negation). A light curve does not always have a baseline: with ten rounds, the default, that of a constant light curve (no counts in any bin, say) consists of NaNs.
* `Stingray.BaselineAls.als_next` (Verif/Props/BaselineAls): C183 (further rounds). With `0 < p < 1` and a positive `lam`, a further round gives a curve exactly when at least two bins are not on the last curve.
* Model: `BaselineAls.als`, `BaselineAls.loop`, `BaselineAls.secondDiff`, `BaselineAls.step`, `BaselineAls.system`, `BaselineAls.weights`, `BaselineAls.baselineAls`, `BaselineAls.goodBins`, `BaselineAls.offset`

### C184 Symmetrical Poisson errors

`np.bincount`, `np.nonzero` and `np.searchsorted` are modelled as functions on lists, the confidence interval (astropy) is a parameter. The position of a value among those that occur is found by splitting the range at it. Status: partial.

* `Stingray.RandomStates.poisson_errors_spec` (Verif/Props/RandomStates): C184. The error of each bin is half of the width of the confidence interval for its counts (the mean of the distances of its ends from the counts), whatever the other bins; negative counts, and only these, are refused. Numbers are truncated towards zero before.
* `Stingray.RandomStates.poisson_errors_fractions` (Verif/Props/RandomStates): C184 (negation). The errors do not increase with the counts: those of counts that are not whole numbers are those of the whole number below.
* Model: `RandomStates.bincount`, `RandomStates.nonzero`, `RandomStates.pick`, `RandomStates.poissonErrors`, `RandomStates.searchsorted`, `RandomStates.toInt`

### C185 Random states from seeds

Arguments and generators are inductive types; the cases of the function, including Python's truth of an argument, are followed one by one. Status: partial.

* `Stingray.RandomStates.random_state_spec` (Verif/Props/RandomStates): C185. A seed from 1 to `2 ^ 32 - 1` gives a new generator with this seed, a random state itself and nothing the global generator; other seeds but 0, and other (true) objects, are refused.
* `Stingray.RandomStates.random_state_zero` (Verif/Props/RandomStates): C185 (negation). A seed does not always determine the random numbers: with the seed 0 the global generator is used, as without a seed.
* Model: `RandomStates.getRandomState`, `RandomStates.isFalse`

### C186 Relativistic impulse response

The response is modelled over the reals as the list of its three parts; the rise is bounded by the properties of the maximum it is divided by, the number of bins by floors. Status: partial.

* `Stingray.Responses.relativistic_ir_spec` (Verif/Props/Responses): C186. For a positive time resolution and `t1 ≥ 0`, there is a response exactly when `t1 < t2 < t3`, `p1 < p2` and the rise lasts at least one bin. It is zero before `t1`, has the value `p1` there, then values between `p1` and `p2`, one of which is `p2`, until `t2`, and positive ones until `t3`, with as many bins as fit into each part.
* `Stingray.Responses.relativistic_ir_values` (Verif/Props/Responses): C186 (values). With two bins or more in each part, the rise is exponential in the time and ends at `p2`, for a positive slope; the decay is exponential in the time after four seconds, at equally spaced times from `t2` to `t3`.
* `Stingray.Responses.relativistic_ir_peak` (Verif/Props/Responses): C186 (negation). The response does not decay from the secondary peak: the decay starts at 1 four seconds after the start, wherever the peak is and however high, and can be higher than the peak.
* Model: `Responses.decaying`, `Responses.linspace`, `Responses.listMax`, `Responses.relativisticIr`, `Responses.rising`, `Simulator.pyInt`

### C187 Detection of unsorted times and sorting of events

Comparisons of neighbours with NaNs as `none` are related to `List.Pairwise` by induction; `np.argsort` is a parameter that gives some permutation sorting the times. Status: partial.

* `Stingray.Sorting.is_sorted_spec` (Verif/Props/Sorting): C187. For finite numbers, an array is called sorted exactly when each element is at most all later ones, with numba and without it.
* `Stingray.Sorting.is_sorted_unsigned` (Verif/Props/Sorting): C187 (unsigned). With numba, an array of unsigned integers is called sorted exactly when it is.
* `Stingray.Sorting.sort_events_spec` (Verif/Props/Sorting): C187 (events). Events read from a file with columns of equal lengths come out with sorted times, in an order of the rows of the table that is the same for all columns and leaves out or repeats none; sorted events are left as they are.
* `Stingray.Sorting.is_sorted_nan` (Verif/Props/Sorting): C187 (negation). Times with a NaN are called sorted with numba whatever comes before and after it, and not without numba.
* `Stingray.Sorting.is_sorted_wraps` (Verif/Props/Sorting): C187 (negation). Without numba, every array of unsigned integers is called sorted.
* Model: `Sorting.greater`, `Sorting.isSorted`, `Sorting.neighbours`, `Sorting.sortedNumba`, `Sorting.stepOk`, `Sorting.isSortedUnsigned`, `Sorting.orderColumns`, `Sorting.sortEvents`, `Sorting.takeOrder`

### C188 The squared sinc model and its derivatives

The functions are modelled over the reals. The derivative of the sinc, also at zero, is proved from bounds on the sine and compared with the code's by uniqueness of derivatives. Status: partial.

* `Stingray.SincSquare.sinc_square_model` (Verif/Props/SincSquare): C188. The model lies between zero and the amplitude, is symmetric about the mean, has the amplitude there and vanishes exactly at the whole multiples, other than zero, of pi widths from it.
* `Stingray.SincSquare.sinc_square_deriv` (Verif/Props/SincSquare): C188 (derivatives). The derivative by the amplitude is right. Those by the mean and by the width are right exactly when the amplitude, the sine or the cosine of `u = (x - mean) / width` is zero or `u = x` (for a zero mean and a width of 1, say, or at `x = mean`, where the sine is zero).
* `Stingray.SincSquare.sinc_square_deriv_wrong` (Verif/Props/SincSquare): C188 (negation). The derivatives given to the fitter are not those of the model: `x` stands where `(x - mean) / width` should.
* Model: `SincSquare.model`, `SincSquare.npSinc`, `SincSquare.sinc`, `SincSquare.dAmplitude`, `SincSquare.dMean`, `SincSquare.dWidth`, `SincSquare.dX`

### C189 Fixed widths in fits of a squared sinc

The default dictionary is the state of a machine whose steps are calls; the invariant is proved by induction on the history. Status: partial.

* `Stingray.SincSquare.fit_sinc_history` (Verif/Props/SincSquare): C189. After any calls, the width of the squared sinc is kept fixed in a fit without the argument `fixed` exactly when the length of the observation is given now, or was given in an earlier call without this argument. With the argument `fixed`, earlier calls do not matter. The width at the start is that of the length of the observation if this is given.
* `Stingray.SincSquare.fit_sinc_repeat` (Verif/Props/SincSquare): C189 (negation). The same call does not always start the same fit: after a fit with the length of the observation, the width is also kept fixed without one.
* Model: `SincSquare.Call.fixed`, `SincSquare.Call.obsLength`, `SincSquare.Call.width`, `SincSquare.afterCalls`, `SincSquare.fitSinc`, `SincSquare.getKey`, `SincSquare.setKey`

### C190 Shapes of simulated power spectra

The functions are modelled over the reals with real powers; monotonicity follows from that of powers, the limits from continuity. Status: proved.

* `Stingray.SpectralShapes.lorentzian_spec` (Verif/Props/SpectralShapes): C190. For a positive width and value, a generalized Lorentzian exists exactly for positive powers. It has its value at the centre, half of it exactly at half a width from the centre, decreases with the distance from the centre and is positive.
* `Stingray.SpectralShapes.broken_power_law_limits` (Verif/Props/SpectralShapes): C190 (broken power law). A smoothly broken power law goes as the power `-gammaLow` with the normalization at low frequencies, and as the power `-gammaHigh`, continued from the break, at high ones.
* `Stingray.SpectralShapes.shapes_arrays` (Verif/Props/SpectralShapes): C190 (arrays). The functions of an array of parameters are those of single parameters, in the order centre, width, value, power and normalization, low and high power, break; shorter arrays are refused.
* Model: `SpectralShapes.generalizedLorentz1D`, `SpectralShapes.smoothBrokenPowerLaw`, `SpectralShapes.generalizedLorentzian`, `SpectralShapes.smoothbknpo`

### C191 Folding searches with weights or exposure correction

The search is built on the model of folding (C53); the selection of events and weights by the same mask is proved by induction, and the two failures by evaluation of small searches in the kernel. Status: partial.

* `Stingray.WeightedSearch.weighted_search_spec` (Verif/Props/WeightedSearch): C191. With a weight for each event, no exposure correction and a segment size `s`, at most the length of the observation: the result is the mean, over the segments whose events span at least `s / 5`, of the statistic of the profile of the events of the segment with their own weights; the segment `i` has the events with `i s ≤ t - t0 < (i + 1) s`. GTIs do not matter.
* `Stingray.WeightedSearch.weighted_search_refused` (Verif/Props/WeightedSearch): C191 (refused). Exposure correction without GTIs, and a search without events, are refused.
* `Stingray.WeightedSearch.weighted_search_shift` (Verif/Props/WeightedSearch): C191 (shift). The search does not change if the times are shifted.
* `Stingray.WeightedSearch.weighted_search_gti_shift` (Verif/Props/WeightedSearch): C191 (negation). Shifting the times and the GTIs alike changes a search with exposure correction: the times are taken from the first event, the GTIs are not.
* `Stingray.WeightedSearch.weighted_search_gti_count` (Verif/Props/WeightedSearch): C191 (negation). Dividing a GTI in two changes a search with exposure correction if there are then as many GTIs as events: those at the positions of events outside the segment are dropped.
* Model: `Pulsar.FoldOpts.expocorr`, `Pulsar.FoldOpts.gti`, `Pulsar.FoldOpts.nbin`, `Pulsar.FoldOpts.refTime`, `Pulsar.FoldOpts.weights`, `Pulsar.Weights.expand`, `Pulsar.addLimit`, `Pulsar.divOpt`, `Pulsar.fmod1`, `Pulsar.foldEvents`, `Pulsar.gtiExposure`, `Pulsar.histUnit`, `Pulsar.phaseBins`, `Pulsar.phaseExposure`, `Pulsar.phaseLoop`, `Pulsar.pulsePhase`, `Pulsar.rawExposure`, `Pulsar.trunc`, `WeightedSearch.masked`, `WeightedSearch.meanStat`, `WeightedSearch.segmentStat`, `WeightedSearch.selectGti`, `WeightedSearch.selectWeights`, `WeightedSearch.weightedSearch`

### C192 Extensions of file names and the format of event files

Names are lists of characters; `str.replace` and `os.path.splitext` are modelled as loops, and removal of a prefix is characterised by infixes, by induction. Status: partial.

* `Stingray.FileNames.file_extension_iff` (Verif/Props/FileNames): C192. Of a file name without `.gz`, made of a directory, a stem (with some character that is not a dot) and an extension, the extension is found exactly when the name without the extension does not occur in it.
* `Stingray.FileNames.file_extension_long` (Verif/Props/FileNames): C192 (directories). With a directory, or a stem longer than the extension, the extension is always found.
* `Stingray.FileNames.file_extension_gz` (Verif/Props/FileNames): C192 (compressed). Of a compressed file the extension with `.gz` is found, exactly when the name without it does not occur in it.
* `Stingray.FileNames.event_format_spec` (Verif/Props/FileNames): C192 (events). A file of events in a directory, or with a long stem, is read as FITS if its extension contains `fits` or `evt` (in any case) and no format is given; a given format is kept.
* `Stingray.FileNames.file_extension_only_gz` (Verif/Props/FileNames): C192 (only compressed). A name made of nothing but `.gz`, any number of times, is its own extension.
* `Stingray.FileNames.file_extension_short` (Verif/Props/FileNames): C192 (negation). The extension is not always found: that of `f.fits` is `.its`, so that the file is not read as FITS.
* Model: `FileNames.baseName`, `FileNames.getFileExtension`, `FileNames.remove`, `FileNames.removeLoop`, `FileNames.splitRoot`, `FileNames.eventFormat`

### C193 Joining light curves after applying GTIs

Model the start as a number or an array with NumPy's truth of comparisons, apply_gtis and join on top of the model of C78; case analysis, induction for the span of the GTIs. Status: partial.

* `Stingray.LcStart.join_new` (Verif/Props/LcStart): C193. Two new light curves are always joined, and the samples of the one that starts first (at half a bin before its first time) come first.
* `Stingray.LcStart.new_extent` (Verif/Props/LcStart): C193 (extent). A new light curve goes from half a bin before its first time to half a bin after its last.
* `Stingray.LcStart.apply_gtis_spec` (Verif/Props/LcStart): C193 (applied GTIs). Applying GTIs keeps the selected samples, the bin width and the GTIs, and sets the length to the time from the first to the last end of a GTI.
* `Stingray.LcStart.join_after_gtis` (Verif/Props/LcStart): C193 (negation). A light curve with two bins or more left after applying GTIs cannot be joined with any other, in either order: its start is an array.
* Model: `LcStart.Curve.samples`, `LcStart.Curve.tstart`, `LcStart.isLess`, `LcStart.joinCurves`, `LcStart.new`, `Lightcurve.join`, `Lightcurve.joinFirst`, `Lightcurve.joinInsert`, `LcStart.Curve.tseg`, `Gti.select`, `LcStart.Curve.dt`, `LcStart.Curve.gti`, `LcStart.applyGtis`, `LcStart.maxOf`, `LcStart.minOf`

### C194 The baseline of a light curve with several GTIs

Model the masked assignments of the loop over GTIs with the fit as a parameter; invariant of the loop by induction over the GTIs. Status: partial.

* `Stingray.LcBaseline.baseline_spec` (Verif/Props/LcBaseline): C194. With times that are not integers, the baseline has one value for each bin; in the bins of each GTI it is what the fit to that GTI alone gives, and it is zero in the bins outside all GTIs.
* `Stingray.LcBaseline.baseline_integers` (Verif/Props/LcBaseline): C194 (integer times). With integer times every value of the baseline in a GTI is an integer: that of the fit without its fraction.
* `Stingray.LcBaseline.baseline_ok` (Verif/Props/LcBaseline): C194 (failing fits). The baseline is found exactly when the fits to all GTIs succeed.
* `Stingray.LcBaseline.baseline_depends_on_type` (Verif/Props/LcBaseline): C194 (negation). The baseline of the same light curve depends on the type of its times: with integers the fractions are lost.
* Model: `Gti.select`, `LcBaseline.assign`, `LcBaseline.baseline`, `LcBaseline.loop`, `LcBaseline.store`

### C195 Plotted hues and lines of constant hue

Model both functions over the reals on top of the model of C130; trigonometry, with the direction theorem of C130 for the agreement of lines and hues. Status: partial.

* `Stingray.HuePlot.plotted_hue_spec` (Verif/Props/HuePlot): C195. The hue drawn is the hue about the default centre up to whole turns, between 0 and a turn: in radians on a polar plot, in degrees on the other.
* `Stingray.HuePlot.hue_line_ray` (Verif/Props/HuePlot): C195 (lines). The line at an angle starts at the centre and goes in the direction of the angle, clockwise from the reference, for every point of it.
* `Stingray.HuePlot.hue_line_hue` (Verif/Props/HuePlot): C195 (lines and hues). With the default reference, all points after the first of the line at an angle (from -45 to 315 degrees) have that angle as their hue about the centre.
* `Stingray.HuePlot.plotted_hue_ignores_center` (Verif/Props/HuePlot): C195 (negation). The hue drawn is not that about the centre of the configuration given: some colours and centre have a hue that differs by half a turn.
* Model: `HuePlot.Config.center`, `HuePlot.defaultConfig`, `HuePlot.plottedHue`, `HuePlot.turn`, `PowerColors.hueFromColor`, `PowerColors.hueFromLog`, `HuePlot.hueLine`, `HuePlot.Config.refAngle`

## Proved disagreements between the code and the properties

Each is a theorem that exhibits an input (or all inputs of a kind) for which the modelled code does not do what the property says.

* C03, stingray/gti.py::create_gti_mask_jit: C03 is false of the code as written: a sample that is well inside a GTI is masked out when a whole GTI falls between it and the sample before it. (`Stingray.Gti.create_gti_mask_not_exact`)
* C04, stingray/gti.py::cross_two_gtis: C04 is false of the code as written when borders touch: `[[1,2],[5,6]]` and `[[2,3]]` have no time in common inside both, but `[2,3]` is returned as good time. (`Stingray.Gti.cross_two_gtis_not_exact_touching`)
* C04, stingray/gti.py::cross_two_gtis: C04 is false of the code as written when a list contains a zero-length GTI (accepted by `check_gtis`): crossing `[[0,1],[5,5]]` with `[[2,6]]` returns `[2,5]`. (`Stingray.Gti.cross_two_gtis_not_exact_empty`)
* C07, stingray/gti.py::join_gtis: C07 (negation). With a zero-length GTI, the result of `join_gtis` can fail to be separated and time-ordered. (`Stingray.Gti.join_gtis_not_separated`)
* C08, stingray/gti.py::check_separate: C08 (negation). The full property fails: lists touching at one border in the middle are declared not separate although no time is strictly inside both. (`Stingray.Gti.check_separate_not_exact`)
* C09, stingray/gti.py::append_gtis: C09 (negation). With a zero-length GTI the appended list can be one that `check_gtis` rejects. (`Stingray.Gti.append_gtis_not_accepted`)
* C09, stingray/gti.py::append_gtis: C09 (negation). Two lists sharing no good time except a border can still not be appended. (`Stingray.Gti.append_gtis_touching_raises`)
* C14, stingray/gti.py::calculate_segment_bin_start: C14 (negation). With a moving window (`fraction_step = 1/4`, so a step of one bin for segments of 4 bins), segments are returned that run beyond the last bin of the GTI. (`Stingray.Gti.bin_intervals_overrun`)
* C14, stingray/gti.py::calculate_segment_bin_start: C14 (negation). A GTI after the last sample raises `IndexError` although another GTI has data. (`Stingray.Gti.gti_border_bins_raises`)
* C15, stingray/gti.py::split_gtis_at_indices: C15 (negation). With `new_interval_if_gti_sep` and no gap that large, `split_gtis_by_exposure` raises `IndexError` instead of returning the pieces. (`Stingray.Gti.split_gtis_by_exposure_sep_raises`)
* C18, stingray/filters.py::_paralyzable_dead_time: C18 (negation). With variable dead times, an event inside the dead time of an earlier event is kept, because only the immediately preceding one is looked at. (`Stingray.Filters.paralyzable_variable_wrong`)
* C21, stingray/utils.py::rebin_data: C21 (negation). With errors 2 and 2 on two samples, the error on their sum comes out as 2, not as `√(2² + 2²)`. (`Stingray.Rebin.rebin_data_err_not_quadrature`)
* C24, stingray/utils.py::nearest_power_of_two: C24 (negation). `nearest_power_of_two(2^k + 2)` is `2^(k+1)`, although `2^k` is only 2 away; for every `k ≥ 3`. E.g. `nearest_power_of_two(10) = 16`. (`Stingray.UtilsMisc.nearest_power_of_two_wrong`)
* C24, stingray/utils.py::nearest_power_of_two: C24 (negation). `nearest_power_of_two(1)` is 2. (`Stingray.UtilsMisc.nearest_power_of_two_one`)
* C26, stingray/utils.py::make_nd_into_arrays: C26 (negation). With eleven columns the round trip permutes the columns: the eleventh comes back third. (`Stingray.UtilsMisc.columns_round_trip_wrong`)
* C26, stingray/utils.py::make_nd_into_arrays: C26 (negation). An array with no columns cannot be put back together. (`Stingray.UtilsMisc.columns_round_trip_empty`)
* C28, stingray/base.py::StingrayTimeseries.mask: C28 (negation). After reading the mask, assigning `gti = None` keeps the old mask: it is still used although the GTIs now cover every sample. (`Stingray.TimeSeries.mask_stale_after_gti_none`)
* C28, stingray/base.py::StingrayTimeseries.mask: C28 (negation). Assigning new times keeps the old mask. (`Stingray.TimeSeries.mask_stale_after_time`)
* C30, stingray/base.py::StingrayTimeseries._operation_with_other_obj: C30 (negation). When the GTIs differ, adding two series removes samples from *both operands* for good. (`Stingray.TimeSeries.arithmetic_overwrites_operands`)
* C31, stingray/base.py::StingrayObject.__getitem__: C31 (negation). `ts[-1]` never works: the plain object is empty, and a time series raises `TypeError`, whatever the series. (`Stingray.TimeSeries.getitem_minus_one_fails`)
* C31, stingray/base.py::StingrayObject.__getitem__: C31 (negation). `ts[::-1]` never works either. (`Stingray.TimeSeries.getitem_reversed_fails`)
* C32, stingray/base.py::StingrayTimeseries.split_by_gti: C32 (negation). An event list (bin size 0) loses events that are inside the GTI: here both the first and the last of four. (`Stingray.TimeSeries.split_by_gti_loses_events`)
* C34, stingray/lightcurve.py::Lightcurve.counts: C34 (negation). `meanrate`, once read, is not refreshed when new counts are assigned. (`Stingray.Lightcurve.meanrate_stale`)
* C34, stingray/lightcurve.py::Lightcurve.counts: C34 (negation). `meancounts`, once read, is not refreshed when the GTIs change. (`Stingray.Lightcurve.meancounts_stale_after_gti`)
* C34, stingray/lightcurve.py::Lightcurve.counts: C34 (negation). For any non-empty Poisson light curve given in counts without errors: reading `countrate_err` first makes both errors zero, reading `counts_err` first gives the Poisson errors. (`Stingray.Lightcurve.counts_err_depends_on_order`)
* C34, stingray/lightcurve.py::Lightcurve.counts: C34 (negation). Errors that were computed from the counts are not refreshed when new counts are assigned. (`Stingray.Lightcurve.counts_err_stale`)
* C36, stingray/events.py::EventList.from_lc: C36 (negation). A light curve without any positive count cannot be converted: the function raises, for every such light curve. (`Stingray.Lightcurve.from_lc_no_counts`)
* C39, stingray/fourier.py::normalize_periodograms: C39 (negation). With the Leahy normalisation and a variance, un-normalising does not undo normalising, unless the number of photons happens to be the number of bins: the result is `nPh / nBin` times the power. (`Stingray.Fourier.unnormalize_leahy_variance`)
* C41, stingray/fourier.py::avg_pds_from_iterable: C41 (negation). When the segments come with errors, an all-zero segment does have an influence: it is averaged, so the power is halved here. (`Stingray.Fourier.avg_pds_zero_with_errors`)
* C42, stingray/fourier.py::avg_cs_from_iterables: C42 (negation). With `use_common_mean=False` the auxiliary power spectra are the sums, not the averages, of the normalised power spectra of the segments: they are too large by the number of segments, at every frequency and for every input. (`Stingray.Fourier.aux_pds_are_sums`)
* C46, stingray/fourier.py::integrate_power_in_frequency_range: C46 (negation). A band inside a single bin gets the wrong weight (its second correction replaces the first): here half of the bin is in the band, and it is counted as three quarters. (`Stingray.Fourier.integrate_power_single_bin`)
* C46, stingray/fourier.py::integrate_power_in_frequency_range: C46 (negation, outside). A band that begins before the first bin, as `[0, …]` always does, gives that bin a weight above 1. (`Stingray.Fourier.integrate_power_outside`)
* C48, stingray/stats.py::p_multitrial_from_single_trial: C48 (negation of the inverse in the strip). For two trials and `p = e^-7 / 2` the two directions use different formulas: the probability that comes back is `p - p²/2`. (`Stingray.Stats.single_of_multi_strip`)
* C50, stingray/stats.py::classical_pvalue: C50 (negation at zero power). At power 0 the result is NaN, not 1. (`Stingray.Stats.classical_pvalue_zero`)
* C50, stingray/stats.py::classical_pvalue: C50 (negation for many spectra). Whenever `power * nspec > 30000` the result is 0, although the probability it stands for is at least `1 - power / 2`: with 60000 averaged spectra a power of 1, half the noise level, is reported as certainly not noise. (`Stingray.Stats.classical_pvalue_many`)
* C52, stingray/pulse/pulsar.py::p_to_f: C52 (negation, integers). With integer arguments the frequencies are truncated: a period of 2 s is converted into a frequency of 0 Hz. (`Stingray.Pulsar.p_to_f_integers`)
* C52, stingray/pulse/pulsar.py::p_to_f: C52 (negation, higher derivatives). From the fifth on the derivatives are lost: the conversion of `p, pd, pdd, pddd, x` does not depend on `x` and has 0 in its place. (`Stingray.Pulsar.p_to_f_fifth`)
* C54, stingray/pulse/pulsar.py::phase_exposure: C54 (negation). For a GTI starting before time 0 (in folding: before the reference time) exposure is lost: with a single GTI covering the second half of a cycle before time 0, no bin receives any exposure and the result is NaN everywhere, while the second bin was exposed for half a period. (`Stingray.Pulsar.phase_exposure_negative`)
* C57, stingray/pulse/search.py::_folding_search: C57 (negation). With the default `segment_size` the statistic, at every trial, is computed without the last event (and the events at the same time): only on those strictly before it, and nothing at all is computed when these span less than a fifth of the observation. (`Stingray.Pulsar.folding_search_drops_last`)
* C60, stingray/crossspectrum.py::DynamicalCrossspectrum.rebin_by_n_intervals: C60 (negation). So the original changes, and the same call made twice gives two different results. (`Stingray.Spectrum.rebin_by_n_twice`)
* C61, stingray/crossspectrum.py::DynamicalCrossspectrum.trace_maximum: C61 (negation). With the same power at a lower frequency outside the range, the channel returned is outside the range. (`Stingray.Spectrum.trace_maximum_outside`)
* C63, stingray/simulator/simulator.py::Simulator._extract_and_scale: C63 (negation). With extra red noise the rms of the result is not the requested one: the light curve is divided by the standard deviation of the long one (here a cut that happens to be constant). (`Stingray.Simulator.red_noise_rms`)
* C64, stingray/simulator/simulator.py::Simulator._simulate_impulse_response: C64 (negation). With a response of exactly one bin, such as a delta, modes 'same' and 'filtered' give an empty light curve, for every signal. (`Stingray.Simulator.impulse_response_one_bin`)
* C65, stingray/io.py::FITSTimeseriesReader._get_idx_from_time_range: C65 (negation). When the first list is that of the file, the others are ignored. (`Stingray.Io.split_file_drops_lists`)
* C66, stingray/io.py::split_numbers: C66 (negation). With another shift the caller's array is changed. (`Stingray.Io.split_numbers_mutates`)
* C68, stingray/varenergyspectrum.py::get_non_overlapping_ref_band: C68 (negation). For a channel that is the whole reference band, or that starts where a reference band starts and contains it, the result is the reference band itself: exactly what was to be excluded. (`Stingray.VarEnergy.ref_band_shared_border`)
* C68, stingray/varenergyspectrum.py::get_non_overlapping_ref_band: C68 (negation). The same for a channel that starts at zero. (`Stingray.VarEnergy.ref_band_channel_from_zero`)
* C70, stingray/utils.py::_hist3d_numba_seq: C70 (negation). A sample *below* the third range is counted in the last bin of that axis instead of being skipped. (`Stingray.Hist.hist3d_counts_out_of_range`)
* C70, stingray/utils.py::_hist3d_numba_seq: C70 (negation). A sample *above* the third range makes the call fail. (`Stingray.Hist.hist3d_fails_out_of_range`)
* C71, stingray/utils.py::hist1d_numba_seq_weight: C71 (negation). With integer-typed samples the histogram array is an integer array, and fractional weights are rounded towards zero at every addition: two samples of weight 1/2 give 0, not 1. (`Stingray.Hist.hist1d_weight_int_truncates`)
* C72, stingray/utils.py::compute_bin: C72 (negation). A value below the first edge, by less than one bin, is put in bin 0 instead of being reported as outside. (`Stingray.Hist.compute_bin_below_first_edge`)
* C73, stingray/base.py:apply_gtis: C73 (negation). With `inplace=False` the returned series has the filtered samples but the *old* GTIs, and so claims good time it has no samples for. (`Stingray.TimeSeries.apply_gtis_copy_keeps_old_gtis`)
* C74, stingray/base.py:__eq__: C74 (negation). Two series whose sample times differ compare equal. (`Stingray.TimeSeries.eq_ignores_times`)
* C75, stingray/base.py:__eq__: C75 (negation). Merely reading the mask of one of two identical series makes the comparison fail in one direction and succeed in the other. (`Stingray.TimeSeries.eq_depends_on_reading_mask`)
* C78, stingray/lightcurve.py:Lightcurve.join: C78 (negation). The joined light curve need not be in time order although both light curves are: with overlapping spans the new samples of the second are put after all those of the first. (`Stingray.Lightcurve.join_not_sorted`)
* C80, stingray/stats.py::p_multitrial_from_single_trial: C80 (negation). A detection with a smaller single-trial probability can be given a larger multi-trial one: the result jumps down where the Bonferroni approximation stops. (`Stingray.Stats.multi_not_monotone`)
* C84, stingray/simulator/transfer.py:TransferFunction.time_response: C84 (negation). A table with as many energies as times: the last energy is left out. And with a non-zero initial energy, asking for the first energy of the table, from `estart` to `estart + de`, is out of range. (`Stingray.Simulator.time_response_drops`)
* C85, stingray/simulator/simulator.py:Simulator.get_channels: C85 (negation). So the light curves do not come in the order of the request. (`Stingray.Simulator.get_channels_order`)
* C86, stingray/simulator/transfer.py:simple_ir: C86 (negation). The documented way of making a delta response, a width of 1, does so only with unit bins: with bins of 1/8 it gives 8 bins, and with bins of 2 none at all. (`Stingray.Simulator.simple_ir_delta`)
* C87, stingray/io.py:FITSTimeseriesReader.apply_gti_lists: C87 (negation). With a non-zero `TIMEZERO`, the times are shifted and the GTIs of the part are not: here no event is inside the GTIs of its own part. (The whole file read at once has both shifted.) (`Stingray.Io.split_times_timezero`)
* C89, stingray/io.py:common_name: C89 (negation). Leading and trailing underscores are not always removed: one before a final dash stays. (`Stingray.Io.common_name_underscore`)
* C92, stingray/varenergyspectrum.py::RmsSpectrum._spectrum_function: C92 (negation). `use_pi=True` has no effect on the rms spectrum: for every analysis, event list and edges the result is the one of energies; with PI channels in the bands and energies outside them, no event is used. (`Stingray.VarEnergy.rms_spectrum_ignores_pi`)
* C92, stingray/varenergyspectrum.py::RmsSpectrum._spectrum_function: C92 (negation). The lag and covariance spectra use the first of the given reference bands only. (`Stingray.VarEnergy.lag_spectrum_first_ref_band`)
* C94, stingray/varenergyspectrum.py::RmsSpectrum._spectrum_function: C94 (negation). The uncertainty of the rms does not scale like the rms: the same measurement in another unit of time, with rms amplitude and noise multiplied by 2, gets an uncertainty that is not multiplied by 2 (its square by 4). (`Stingray.VarEnergy.rms_error_not_homogeneous`)
* C95, stingray/varenergyspectrum.py::ExcessVarianceSpectrum: C95 (negation). The excess variance spectrum is NaN in every band, whatever the events and the excess variances computed from them. (`Stingray.VarEnergy.excess_variance_spectrum_nan`)
* C98, stingray/modeling/posterior.py::LogLikelihood.__call__: C98 (negation). If a parameter is tied to a later one that is tied itself, the first evaluation uses the value that the later one had before: the same call gives another value the second time. (`Stingray.Modeling.evaluate_remembers`)
* C100, stingray/modeling/posterior.py::PSDLogLikelihood.evaluate: C100 (negation). For averages of more spectra (or if `m` is an array) the likelihood is not the logarithm of the density up to a constant: every difference of the log-likelihoods of two models is exactly twice what it should be. With a prior, the data count twice. (`Stingray.Modeling.psd_like_averaged_twice`)
* C100, stingray/modeling/posterior.py::PSDLogLikelihood.evaluate: C100 (negation). The same data give another likelihood if `m` is given as an array of ones and not as the number 1. (`Stingray.Modeling.psd_like_ones`)
* C101, stingray/modeling/posterior.py::PSDPosterior: C101 (negation). With a tied parameter a `PSDPosterior` never has a value: the prior asks for as many numbers as there are parameters that are not fixed, the likelihood for as many as there are free ones. (`Stingray.Modeling.psd_posterior_tied_fails`)
* C102, stingray/modeling/parameterestimation.py::OptimizationResults._compute_criteria: C102 (negation). The information criteria are not the deviance plus the penalty: the log-likelihood enters them once, not twice. So two models of the same data can be ranked the wrong way round. (`Stingray.Modeling.criteria_wrong`)
* C103, stingray/modeling/parameterestimation.py::ParameterEstimation.fit: C103 (negation). The bounds of the parameters are never handed to the optimizer: with any bound set they are not used, whatever the method. (`Stingray.Modeling.bounds_never_used`)
* C103, stingray/modeling/parameterestimation.py::ParameterEstimation.fit: C103 (negation). The value of forbidden parameters is recognised with the sign of the log-likelihood, but it is the negative that is minimised: a fit (`neg=True`) that ends where the prior or the model is forbidden is accepted at its first run. (`Stingray.Modeling.fit_accepts_forbidden`)
* C104, stingray/modeling/parameterestimation.py::ParameterEstimation._compute_pvalue: C104 (failed fits, negation). For an observed value that is not negative, the simulations whose fit failed count as simulations below it: the p-value is the number of successful simulations above the observed value over the number of all simulations. (`Stingray.Modeling.pvalue_failed_fits_all`)
* C104, stingray/modeling/parameterestimation.py::ParameterEstimation._compute_pvalue: C104 (negation). Simulations whose fit failed are not left out: they count as zeros, so that the p-value is smaller than the fraction of the successful simulations above the observed value. (`Stingray.Modeling.pvalue_failed_fits`)
* C108, stingray/crosscorrelation.py::AutoCorrelation: C108 (negation). For a constant light curve the reported `time_shift` of the autocorrelation is not zero: all lags are equally good and the first one is taken. (`Stingray.CrossCorr.autocorrelation_constant`)
* C108, stingray/crosscorrelation.py::AutoCorrelation: C108 (operands, negation). Making a cross correlation changes the bin time of the first light curve, when the two are close but not equal. (`Stingray.CrossCorr.cross_correlation_changes_dt`)
* C109, stingray/crosscorrelation.py::CrossCorrelation._make_corr: C109 (negation). With light curves of different lengths the normalised correlation is not bounded by 1, even without errors: here it reaches 2. (`Stingray.CrossCorr.variance_norm_lengths`)
* C109, stingray/crosscorrelation.py::CrossCorrelation._make_corr: C109 (errors, negation). The variance due to the errors is the mean of their squares; the square of their mean is subtracted instead. With variance 9 and errors 1 and 3 the excess variance is 9 - 5 = 4 and the correlation of the light curve with itself at the lag zero should be 9/4; it is 9/5. (`Stingray.CrossCorr.variance_norm_errors`)
* C110, stingray/crosscorrelation.py::CrossCorrelation._make_cross_corr: C110 (negation). A cross spectrum of 4 bins with its 2 positive frequencies: the times at which the inverse transform was taken are multiples of `1 / (2 df)`, the reported lags multiples of `1 / (4 df)`. (`Stingray.CrossCorr.cross_spectrum_lags_wrong`)
* C110, stingray/crosscorrelation.py::CrossCorrelation._make_cross_corr: C110 (modes, negation). In the mode "full" there are more lags than values and the reported shift is not that of the maximum (which is at the time 0). (`Stingray.CrossCorr.cross_spectrum_full_wrong`)
* C111, stingray/base.py:StingrayTimeseries.truncate: C111 (negation). Truncating at the time 0 does nothing to the samples before it. (`Stingray.LcOps.truncate_time_zero`)
* C112, stingray/lightcurve.py:Lightcurve.__getitem__: C112 (negation). A stop beyond the end, which Python slicing clips, raises `IndexError`. (`Stingray.LcOps.lc_slice_beyond`)
* C112, stingray/lightcurve.py:Lightcurve.__getitem__: C112 (reversal, negation). `lc[::-1]` is not the reversed light curve: it has no data. (`Stingray.LcOps.lc_slice_reversed`)
* C113, stingray/lightcurve.py:Lightcurve._operation_with_other_obj: C113 (negation). The sum of two light curves with Gaussian errors has not Gaussian errors any more, so that adding a third one discards all errors: the error of the sum of three is 0, not 13. (`Stingray.LcOps.lc_sum_of_three_loses_errors`)
* C113, stingray/lightcurve.py:Lightcurve._operation_with_other_obj: C113 (double negative, negation). `-(-lc)` is not `lc` for a light curve with Gaussian errors: it has the error distribution of Poisson counts. (`Stingray.LcOps.lc_neg_neg`)
* C114, stingray/lightcurve.py:Lightcurve.rebin: C114 (time series, negation). For a plain time series the GTIs that are too short for the new bins are kept although they contain no bin any more. (`Stingray.LcOps.ts_rebin_keeps_short_gtis`)
* C117, stingray/base.py:StingrayTimeseries._join_timeseries: C117 (the caller's list, negation). The list that is passed is changed: empty series are removed from it, and series with another reference are replaced. (`Stingray.Join.join_changes_list`)
* C117, stingray/base.py:StingrayTimeseries._join_timeseries: C117 (empty series, negation). Empty series are to be ignored, and a single one is, but of two in a row only the first: then the joining fails if any series has an attribute. (`Stingray.Join.join_two_empty`)
* C117, stingray/base.py:StingrayTimeseries._join_timeseries: C117 (no common good time, negation). The intersection of GTIs without common time is not empty: the result has no GTIs, and its `gti` is then the whole range of the samples. (`Stingray.Join.join_disjoint`)
* C117, stingray/base.py:StingrayTimeseries._join_timeseries: C117 (cached masks, negation). If the masks of the operands have been read before, the mask of the result is put together from theirs, and disagrees with the GTIs of the result: here the sample at time 1 is outside of the joined GTIs, but good. (`Stingray.Join.join_stale_mask`)
* C119, stingray/fourier.py:get_flux_iterable_from_segments: C119 (single events, negation). An event that is alone in its segment is not counted, and the segment does not appear as a segment with a low count rate. (`Stingray.Segments.single_event_lost`)
* C119, stingray/fourier.py:get_flux_iterable_from_segments: C119 (no segment size, negation). Without a segment size all the events between the start of the first and the end of the last GTI are counted, also those in the bad time between them; for a binned series, all the samples whatever the GTIs. (`Stingray.Segments.whole_ignores_gti`)
* C120, stingray/fourier.py:shift_and_add: C120 (labels, negation). With an odd number of bins a peak at the reference frequency can be labelled by most of a bin too low: the feature measured at frequency 3 appears at 2.1. (`Stingray.Segments.shift_and_add_label_off`)
* C120, stingray/fourier.py:shift_and_add: C120 (too many bins, negation). When the result has more bins than the spectra, bins outside of the spectrum are read: an error without compiled code (and undefined with it), instead of bins with no counts. (`Stingray.Segments.shift_and_add_too_many`)
* C121, stingray/stats.py:fold_detection_level: C121 (two bins, negation). For a profile of two bins, which has a probability, the logarithmic version refuses. (`Stingray.Stats.fold_log_two_bins`)
* C122, stingray/base.py:StingrayTimeseries.analyze_segments: C122 (alignment, negation). When a segment is skipped, its times are still returned: the values no longer belong to the times at the same position. Here the only value, three events, was measured in the second segment. (`Stingray.Analyze.analyze_misaligned`)
* C122, stingray/base.py:StingrayTimeseries.analyze_segments: C122 (end times, negation). On binned series the end of each segment is reported one bin after the end of its last bin: consecutive segments overlap, and the last one ends after the GTI. (`Stingray.Analyze.analyze_stop_late`)
* C122, stingray/base.py:StingrayTimeseries.analyze_segments: C122 (several results, negation). The number of results of the last segment decides: results of other segments beyond it are lost, and a segment with fewer raises `IndexError`. (`Stingray.Analyze.separate_uneven`)
* C123, stingray/base.py:StingrayTimeseries.estimate_segment_size: C123 (only counts, negation). With `min_counts` only, which the error message allows, there is a `TypeError`. (`Stingray.Analyze.estimate_needs_samples`)
* C123, stingray/base.py:StingrayTimeseries.estimate_segment_size: C123 (empty segments, negation). A segment with no event at all does not prevent a size from being accepted: for at least two counts, segments of two seconds are returned although one of them, from 2 to 4, has none. (`Stingray.Analyze.estimate_ignores_empty`)
* C124, stingray/powerspectrum.py:DynamicalPowerspectrum._make_matrix: C124 (empty segments, negation). A segment with fewer than two events has a time but no column: there are fewer columns than times, and every later column is at the time of an earlier segment. Here the only column, of the segment around 6, is the first one, where the first time is 2. (`Stingray.Dynamic.dynamic_columns_shift`)
* C125, stingray/crossspectrum.py:DynamicalCrossspectrum.rebin_time: C125 (gaps, negation). With a gap between the GTIs the times are not evenly spaced, and the last segment before the gap is spread over it. Here segments of length 2 around 1, 3, 11 and 13 are rebinned to length 4: the new bins are around 2, 6 and 10, of which the second is in the gap, where nothing was observed, and still has a power; and the first, made of the first two segments with powers 4 and 8, has mean 24/5 instead of 6. (`Stingray.Dynamic.rebin_time_gap`)
* C125, stingray/crossspectrum.py:DynamicalCrossspectrum.rebin_time: C125 (number of spectra, negation). When the new resolution is not a multiple of the old one the number of averaged spectra is rounded down: two spectra and a half count as two. (`Stingray.Dynamic.rebin_m_truncated`)
* C127, stingray/events.py:EventList.to_lc_iter: C127 (segments, negation). When the segments are just shorter than a whole number of bins, the last bin goes beyond the end of the segment, and the first event of the next segment can be counted in both light curves. (`Stingray.EventBins.lc_iter_twice`)
* C127, stingray/events.py:EventList.to_lc_iter: C127 (GTIs, negation). A GTI that starts after the last event is an error, instead of an empty light curve. (`Stingray.EventBins.lc_iter_late_gti`)
* C128, stingray/events.py:EventList.get_color_evolution: C128 (no values, negation). An event list with fewer than two events in each segment raises an error, instead of giving the (small) intensities. (`Stingray.EventBins.evolution_no_segment`)
* C129, stingray/power_colors.py:power_color: C129 (excluded frequencies, negation). The power put in place of the excluded ones is computed with the first bin whose middle is not below the lower limit, which may be one of the excluded bins: here the bin at 4, from 7/2 to 9/2, is inside of the excluded range from 13/4 to 23/4, and its power still decides the colour. (`Stingray.PowerColors.exclude_uses_excluded`)
* C129, stingray/power_colors.py:power_color: C129 (excluded frequencies, negation). The array of powers given by the user is overwritten. (`Stingray.PowerColors.exclude_modifies`)
* C129, stingray/power_colors.py:power_color: C129 (excluded frequencies, negation). Excluding up to the end of the spectrum is an error, whatever the edges of the bands. (`Stingray.PowerColors.exclude_end`)
* C131, stingray/fourier.py:estimate_intrinsic_coherence: C131 (negation). When the solution would be negative, the rounds can go back and forth between two values, neither of them a solution: with powers 1, no noise, two averages and `|C|² = 2/5` the values are 2/5, 1/10, 2/5, 1/10, ..., and the result is what the fortieth round happens to give. (`Stingray.Fourier.intrinsic_coherence_cycle`)
* C132, stingray/fourier.py:error_on_averaged_cross_spectrum: C132 (common reference, negation). With a common reference, when the squared modulus is below the bias the phase has no error (not a number), whatever the powers; `raw_coherence` guards against this, this function does not. (`Stingray.Fourier.cross_errors_no_phase`)
* C132, stingray/fourier.py:error_on_averaged_cross_spectrum: C132 (warning, negation). For a single number of averages there is a warning exactly below 30; for an array, always. (`Stingray.Fourier.warns_iff`)
* C133, stingray/utils.py:create_window: C133 (negation). Triangular and Parzen windows of an even number of samples are not symmetric. (`Stingray.UtilsStats.window_asymmetric`)
* C134, stingray/utils.py:excess_variance: C134 (errors, negation). With a negative excess variance, a common case for weak variability, no normalisation has an error (not a number), not even those whose value exists. (`Stingray.UtilsStats.excess_variance_no_errors`)
* C135, stingray/utils.py:equal_count_energy_ranges: C135 (negation). With equal energies the ranges do not have equal counts: here the first of the two ranges is empty. (`Stingray.UtilsStats.ranges_ties`)
* C135, stingray/utils.py:equal_count_energy_ranges: C135 (negation). When there are no energies between the limits there is no error, but edges without a value. (`Stingray.UtilsStats.ranges_empty`)
* C136, stingray/bispectrum.py:Bispectrum._cumulant3: C136 (negation). A largest lag equal to the number of samples is accepted, and the index wraps around: at a lag as long as the observation no time has three samples, and the value is not zero. (`Stingray.Bispectrum.cumulant_wraps`)
* C137, stingray/bispectrum.py:Bispectrum._cal_bispec: C137 (negation). No label but the one of the zero frequency is the frequency of its row. (`Stingray.Bispectrum.labels_off`)
* C137, stingray/bispectrum.py:Bispectrum._cal_bispec: C137 (negation). The window does depend on which of the three samples the lags are counted from, although it is even: at lags `1, 1` it is not its value at `-1, 0`. (`Stingray.Bispectrum.window_breaks_origin`)
* C139, stingray/base.py:StingrayTimeseries.fill_bad_time_intervals: C139 (negation). The randomised attributes of the simulated samples need not come from good data: here every simulated sample has the value of the sample in the bad time interval, which was dropped. (The positions in the good samples are used as positions in the whole attribute; and with a buffer of at least twice the position of the interval no value before it is used.) (`Stingray.FillBti.fill_from_bad_data`)
* C139, stingray/base.py:StingrayTimeseries.fill_bad_time_intervals: C139 (negation, attributes). When every short interval is skipped for lack of data, the result has lost the attributes of all samples. (`Stingray.FillBti.fill_loses_attributes`)
* C140, stingray/base.py:StingrayTimeseries.fill_bad_time_intervals: C140 (negation). If there are bad time intervals but all are longer than the limit, the method raises `ValueError` instead of returning the good data. (`Stingray.FillBti.fill_no_short_raises`)
* C140, stingray/base.py:StingrayTimeseries.fill_bad_time_intervals: C140 (negation, skipped intervals). An interval that is skipped, and so gets no samples, is nevertheless called good. (`Stingray.FillBti.fill_skipped_is_good`)
* C141, stingray/covariancespectrum.py:Covariancespectrum._make_reference_bands_from_lightcurves: C141 (negation). With light curves, a reference band given by two bounds always raises `ValueError`, although the documentation allows it. (`Stingray.Covariance.bounds_with_curves_raise`)
* C142, stingray/covariancespectrum.py:Covariancespectrum._construct_covar: C142 (negation). The error of the covariance is computed from standard deviations where the published formula has variances: with `std = 2` and the two bins `0, 10` in both bands, the excess variances are 21, and the squared error times `N M xs` is `21·2 + 21·2 + 2·2 = 88` instead of `21·4 + 21·4 + 4·4 = 184`. (`Stingray.Covariance.covar_error_formula`)
* C143, stingray/covariancespectrum.py:AveragedCovariancespectrum._construct_covar: C143 (negation). An averaged covariance spectrum uses the first segment only. The light curves of interest and their reference bands have the same sorted times, beginning at `start`; the segment size is positive. Then every row is that of the bins with times in `[start, start + segment)`: nothing of the later segments enters, whatever the length of the light curves. (`Stingray.Covariance.averaged_first_segment_only`)
* C143, stingray/covariancespectrum.py:AveragedCovariancespectrum._construct_covar: C143 (negation). An averaged spectrum with one light curve of two or more bins as reference band, which the documentation allows, always raises. (`Stingray.Covariance.averaged_single_reference_raises`)
* C144, stingray/covariancespectrum.py:Covariancespectrum._make_lightcurves: C144 (negation). The energies are binned together with the times: of three events at the times 0, 5 and 10, with energies 6, 6 and 7, the light curve of the band from 5 to 8 has five counts in its ten bins (the event at the end is not counted), because two of energies 6 and one of 7 fall in the bins 6 and 7. (`Stingray.Covariance.energies_binned_as_times`)
* C144, stingray/covariancespectrum.py:Covariancespectrum._make_lightcurves: C144 (negation). An event whose energy is exactly an edge of the band is in the band and in its reference band, so that the band is correlated with itself. (`Stingray.Covariance.edge_in_both`)
* C144, stingray/covariancespectrum.py:Covariancespectrum._make_lightcurves: C144 (negation). For events, the reference band that the user gives is ignored: whatever the two bounds, the light curves and reference bands are those of a call without them. (`Stingray.Covariance.bounds_ignored`)
* C145, stingray/covariancespectrum.py:Covariancespectrum._create_band_interest: C145 (negation). With unequally spaced energies an event can be in two bands: of the energies 1, 2 and 10, the energy 1 is in its own band and in that of the energy 2, which reaches from -2 to 6. (`Stingray.Covariance.default_bands_overlap`)
* C146, stingray/base.py:StingrayTimeseries.apply_gti_lists: C146 (negation). Of two events at exactly the end of the last interval one is lost. (`Stingray.TimeSeries.split_loses_event`)
* C146, stingray/base.py:StingrayTimeseries.apply_gti_lists: C146 (negation). If the first list agrees with the GTIs of the series, the whole series comes back as the only part, and all the other lists are ignored. (`Stingray.TimeSeries.split_ignores_lists`)
* C146, stingray/base.py:StingrayTimeseries.apply_gti_lists: C146 (negation). A list of GTIs without any row of the series makes the splitting fail with `TypeError`, instead of giving an empty part or none: for all sorted series. (`Stingray.TimeSeries.split_empty_raises`)
* C147, stingray/crossspectrum.py:Crossspectrum.rebin: C147 (negation). The uncertainties do not follow: for any number `k ≥ 2` of equal powers with equal uncertainties `e > 0` averaged to one, the uncertainty of the mean is `e / √k`; the one reported is `√(k e) / k`, which is right only for `e = 1`. In particular the result depends on the normalisation. (`Stingray.SpecRebin.rebin_error_constant`)
* C148, stingray/crossspectrum.py:Crossspectrum.rebin_log: C148 (negation). The frequencies below half of the first one, which exist if that is negative (`fullspec`), are in no bin: of the frequencies -4, ..., -1, 1, ..., 4 the two lowest disappear (the first edge is `-4 / 2 = -2`). (`Stingray.SpecRebin.rebin_log_negative`)
* C149, stingray/bexvar.py:_lscg_gen: C149 (negation). A faint source has no grid: if even the highest rate, with its padding, is not above 0.1 counts per second (exponent -1), the number of values is not positive, and there is an error or nothing. (`Stingray.Bexvar.grid_faint`)
* C149, stingray/bexvar.py:_lscg_gen: C149 (negation). Rates below 0.1 are left out of the grid although the counts allow them: if the lowest background-subtracted rate has an exponent `m0 < -1`, the first value is -1. (`Stingray.Bexvar.grid_starts_late`)
* C151, stingray/bexvar.py:bexvar: C151 (negation). For a faint source nothing comes out at all: if no time bin can have more than `0.1` counts per second (exponent at most -1, while the background allows a rate of zero), the call raises a ValueError or an IndexError. (`Stingray.Bexvar.bexvar_faint`)
* C152, stingray/deadtime/fad.py: FAD: C152 (negation). A pair of segments in which one channel has no photon is not left out of the average (as it is from averaged spectra): all powers become undefined. (`Stingray.Fad.fad_empty_segment`)
* C153, stingray/deadtime/fad.py: FAD, calculate_FAD_correction, get_periodograms_from_FAD_results: C153 (negation). The number of bins `n` of the objects, twice their number of frequencies, is never that of the segments: it is two less if that is even and one less if it is odd. (`Stingray.Fad.fad_objects_n`)
* C153, stingray/deadtime/fad.py: FAD, calculate_FAD_correction, get_periodograms_from_FAD_results: C153 (negation). `calculate_FAD_correction` gives the same result whatever its argument `gti`: for two data sets with two common intervals and `gti` the first of them, two pairs of segments are averaged instead of one. And the GTIs of the data given are changed in place. (`Stingray.Fad.calculate_ignores_gti`)
* C154, stingray/deadtime/model.py: heaviside, _h, Gn, A0, A_single_k, limit_A, B, safe_B, pds_model_zhang, _inner_loop_pds_zhang, r_in, r_det: C154 (negation). For an odd number `N = 2 n + 1 >= 3` of bins the powers are those at the frequencies `j / (N tb)`, but the frequencies returned are `j / ((N - 1) tb)`, which are higher (but for `j = 0`). (`Stingray.DeadTime.zhang_odd`)
* C155, stingray/deadtime/model.py: non_paralyzable_dead_time_model: C155 (negation). Without `n_approx`, the number of bins is not the size of the frequency array, as documented: twelve frequencies up to 6 give ten bins, and another model than twelve bins. (`Stingray.DeadTime.non_paralyzable_default_size`)
* C156, stingray/crossspectrum.py: Crossspectrum.deadtime_correct: C156 (negation). The normalised powers of the two power spectra attached to a cross spectrum are left uncorrected, although their unnormalised powers and their uncertainties are corrected. (`Stingray.DeadTime.deadtime_correct_keeps_pds_power`)
* C157, stingray/crossspectrum.py: Crossspectrum.coherence: C157 (negation). The bias of the averaged coherence is that of as many averages as there are time bins in a segment, not as many as there are averaged segments: if segments have more than 500 bins nothing is subtracted, and two channels of noise, whose cross power has the value `|C|² = P1 P2 / m` expected for `m` averages, have coherence `1 / m`, not 0. (`Stingray.Fourier.averaged_coherence_bias`)
* C157, stingray/crossspectrum.py: Crossspectrum.coherence: C157 (negation). Where the powers are below the noise levels of their channels the coherence may be above 1 and its uncertainty negative. (`Stingray.Fourier.averaged_coherence_above_one`)
* C159, stingray/crossspectrum.py: Crossspectrum._calculate_errors: C159 (negation). Lags may be without uncertainty: where the coherence is 0 (no cross power, for instance), the phase of channels that do not overlap has none, and no default is used for it. (`Stingray.Fourier.calculate_errors_no_lag`)
* C160, stingray/powerspectrum.py:Powerspectrum.compute_rms: C160 (negation). Without a segment size, `get_rms_from_unnorm_periodogram` takes the inverse of the narrowest width for it: merging frequencies two by two then changes the rms (here the squares are 16 and 8). (`Stingray.PowerStats.rms_unnorm_rebinned`)
* C164, stingray/mission_support/missions.py:read_mission_info: C164 (negation). The lines are those that begin with the name, not those of the mission: for `A` it gives the keys of the mission `AB`, though there is no `A`. (`Stingray.Missions.read_prefix`)
* C166, stingray/modeling/parameterestimation.py:SamplingResults.__init__: C166 (negation). R-hat does not depend on which walker has which value: exchanging the walkers with each other, in another way at each step, leaves it unchanged. So it cannot tell walkers that never leave their place from walkers that move through the whole distribution. (`Stingray.Sampling.rhat_blind`)
* C166, stingray/modeling/parameterestimation.py:SamplingResults.__init__: C166 (negation). Two walkers that stay at 0 and at 1 for ever, and two walkers that exchange their places at each step, have the same R-hat; the averages of the walkers differ in the first case only. (`Stingray.Sampling.rhat_stuck`)
* C166, stingray/modeling/parameterestimation.py:SamplingResults.__init__: C166 (negation). R-hat is not a ratio of variances, to be compared with 1: when the unit of the parameter changes (`x` becomes `a x + b`), it is multiplied by `a` squared. (`Stingray.Sampling.rhat_units`)
* C166, stingray/modeling/parameterestimation.py:SamplingResults.__init__: C166 (negation). A log given by the caller is never used: printing the results then fails, and so does the summary of a chain too short for the autocorrelation time. (`Stingray.Sampling.sampling_log`)
* C167, stingray/pulse/overlapandsave/ols.py:nextpow: C167 (negation). If rounding makes the logarithm too small (at the integer after a large power of the factor, where the quotient of the logarithms rounds to an integer), the result is below `x`. (`Stingray.Ols.nextprod_rounding`)
* C168, stingray/crossspectrum.py:DynamicalCrossspectrum.power_colors: C168 (negation). With frequencies to exclude, the call overwrites the dynamical spectrum, and the same call made again gives other colours. (`Stingray.DynColors.colors_modifies`)
* C169, stingray/base.py: StingrayObject.read, StingrayObject.write: C169 (negation). Two complex columns, as in a cross spectrum with its unnormalised powers: whatever their values, the second one is read back with a real part of 0 and the sum of its two parts as its imaginary part. (`Stingray.Tables.complex_two_columns`)
* C169, stingray/base.py: StingrayObject.read, StingrayObject.write: C169 (negation). A complex column is only taken for one when its first value is not real: a table whose complex columns all begin with a real number is handed to the writer as it is, with complex columns in it. (`Stingray.Tables.complex_first_real`)
* C170, stingray/base.py: StingrayObject.data_attributes, array_attrs, internal_array_attrs, meta_attrs, get_meta_dict, to_astropy_table, from_astropy_table: C170 (negation). A table without rows gives a new object: what the table says in its metadata, such as the good time intervals and the reference time, is lost. (`Stingray.Tables.table_no_rows`)
* C170, stingray/base.py: StingrayObject.data_attributes, array_attrs, internal_array_attrs, meta_attrs, get_meta_dict, to_astropy_table, from_astropy_table: C170 (negation). The case of names is lost: of two attributes `A` and `a` one takes the place of the other. (`Stingray.Tables.table_case`)
* C170, stingray/base.py: StingrayObject.data_attributes, array_attrs, internal_array_attrs, meta_attrs, get_meta_dict, to_astropy_table, from_astropy_table: C170 (negation). An attribute set to `None` comes back with the value of a new object. (`Stingray.Tables.table_none`)
* C171, stingray/base.py: interpret_times, StingrayTimeseries._set_times, StingrayTimeseries.from_astropy_timeseries: C171 (negation). Event lists and time series made from astropy times after MJD 10000, without a reference: the times are counted from the first one and the reference stays at 0, so that every instant is lost. (`Stingray.Tables.timeseries_instants_lost`)
* C171, stingray/base.py: interpret_times, StingrayTimeseries._set_times, StingrayTimeseries.from_astropy_timeseries: C171 (negation). Astropy time series: with absolute times and no reference in the metadata the conversion fails, and with a reference of 0 the instants are lost. (`Stingray.Tables.from_timeseries_lost`)
* C172, stingray/crossspectrum.py: cospectra_pvalue, _averaged_cospectra_cdf, Crossspectrum.classical_significances: C172 (negation). A number of spectra given as a float, such as `2.0`, passes the checks and then fails with a `TypeError` when it is between 2 and 50. (`Stingray.Cospectra.cospectra_float_nspec`)
* C172, stingray/crossspectrum.py: cospectra_pvalue, _averaged_cospectra_cdf, Crossspectrum.classical_significances: C172 (negation). Integer powers: the p-value of every integer power averaged over 2 to 50 spectra is 1, however large the power is. (`Stingray.Cospectra.cospectra_integer_power`)
* C173, stingray/multitaper.py: Multitaper._fourier_multitaper, psd_from_freq_response, _get_adaptive_psd, jackknifed_sdf_variance: C173 (negation). For an odd number of bins, where no Fourier frequency equals the Nyquist frequency, the last element is dropped all the same: the highest Fourier frequency, which is below the Nyquist frequency, is missing. (`Stingray.Multitaper.multitaper_odd`)
* C174, stingray/simulator/base.py: simulate_with_inverse_cdf, simulate_times_from_count_array: C174 (negation). With a single bin the given edges are ignored: a value simulated in one bin from 2 to 10 lies between 0 and 1. So energies simulated from a spectrum with one band from 2 to 10 keV are below 1 keV. (`Stingray.InverseCdf.inverse_cdf_single_bin`)
* C174, stingray/simulator/base.py: simulate_with_inverse_cdf, simulate_times_from_count_array: C174 (negation). With one GTI which covers only the first two of four bins, all of the counts are squeezed into it: there are no counts in the GTI, but events are simulated in it. (`Stingray.InverseCdf.simulate_times_squeezed`)
* C175, stingray/spectroscopy.py: get_parameters, waveform, psi_distance, x_2_function, get_mean_phase_difference, get_phase_lag, compute_rms, ccf, ccf_error: C175 (negation). For an even number of bins the search runs on frequencies that are not in ascending order: whatever the positive frequencies of the two harmonics are, the last Fourier coefficient is used for both, that of the frequency -1/(n dt). (`Stingray.Spectroscopy.harmonic_even`)
* C175, stingray/spectroscopy.py: get_parameters, waveform, psi_distance, x_2_function, get_mean_phase_difference, get_phase_lag, compute_rms, ccf, ccf_error: C175 (negation). From pi / 2 on, the function is not small where the phase differences are: for `n` segments with exactly the phase difference `p` its value at `p` is `n² pi²`, not zero. (`Stingray.Spectroscopy.mean_phase_above`)
* C175, stingray/spectroscopy.py: get_parameters, waveform, psi_distance, x_2_function, get_mean_phase_difference, get_phase_lag, compute_rms, ccf, ccf_error: C175 (negation). The standard deviation of the mean is the mean divided by the number of segments: for a minimiser that finds the minimum, and segments that all have the same phase difference, there is no scatter but the standard deviation is not zero. (`Stingray.Spectroscopy.mean_phase_stddev`)
* C176, stingray/lombscargle.py: _autofrequency, LombScargleCrossspectrum.__init__, initial_checks, lscrossspectrum_from_lightcurve, _ls_cross: C176 (negation). `max_freq` is not the highest frequency: with `min_freq=1`, `max_freq=2`, `df=2` the spectrum reaches 3. (`Stingray.LombScargle.ls_max_freq`)
* C176, stingray/lombscargle.py: _autofrequency, LombScargleCrossspectrum.__init__, initial_checks, lscrossspectrum_from_lightcurve, _ls_cross: C176 (negation). The resolution asked for is not used by the cross spectrum: whatever `df`, the frequencies are those of the default resolution. (`Stingray.LombScargle.ls_df_ignored`)
* C176, stingray/lombscargle.py: _autofrequency, LombScargleCrossspectrum.__init__, initial_checks, lscrossspectrum_from_lightcurve, _ls_cross: C176 (negation). The two methods do not give the same spectrum: for counts 1, 0, 0 at times 0, 1, 2 the squared modulus at the frequency 1/4 is 11/12 by the slow and 10/9 by the fast method, however many frequencies (which exchanges the sums of sines and cosines, and counts the frequencies instead of the points). (`Stingray.LombScargle.ls_fast_differs`)
* C176, stingray/lombscargle.py: _autofrequency, LombScargleCrossspectrum.__init__, initial_checks, lscrossspectrum_from_lightcurve, _ls_cross: C176 (negation). A light curve and the same light curve moved in time by any amount have a real, positive cross spectrum: the lag between them does not show, because each transform counts the phase from the first time of its own light curve. (`Stingray.LombScargle.ls_no_lag`)
* C176, stingray/lombscargle.py: _autofrequency, LombScargleCrossspectrum.__init__, initial_checks, lscrossspectrum_from_lightcurve, _ls_cross: C176 (negation). With power type `"real"` or `"absolute"` the unnormalised powers are lost: they are the normalised ones, so with a normalisation that halves the powers the unnormalised powers are half of what they should be. (`Stingray.LombScargle.ls_unnorm`)
* C177, stingray/modeling/gpmodeling.py: get_kernel, get_mean, _gaussian, _exponential, _skew_gaussian, _skew_exponential, _fred, get_gp_params, get_log_likelihood, GPResult.get_max_posterior_parameters: C177 (negation). `t0` is not the location of the maximum of a FRED flare: for positive `delta` below `t0` the flare is lower at `t0` than at `t0 - delta`. (`Stingray.GpModel.gp_fred_place`)
* C177, stingray/modeling/gpmodeling.py: get_kernel, get_mean, _gaussian, _exponential, _skew_gaussian, _skew_exponential, _fred, get_gp_params, get_log_likelihood, GPResult.get_max_posterior_parameters: C177 (negation). Before the time `-delta` a FRED flare is higher than its amplitude, by a factor of at least `exp(4 phi)`. (`Stingray.GpModel.gp_fred_before`)
* C178, stingray/pulse/accelsearch.py: accelsearch, interbin_fft, _calculate_all_convolutions, _convolve_with_response, _create_responses: C178 (negation). The frequency derivatives are not searched from `-zmax` to `zmax`, as documented: `-zmax / T²` is in the grid, but no row ever has the derivative `zmax / T²`. (`Stingray.AccelSearch.accel_zmax`)
* C178, stingray/pulse/accelsearch.py: accelsearch, interbin_fft, _calculate_all_convolutions, _convolve_with_response, _create_responses: C178 (negation). A single good time interval is ignored: the light curve outside it is searched too, and the exposure is given as complete. (`Stingray.AccelSearch.accel_one_gti`)
* C178, stingray/pulse/accelsearch.py: accelsearch, interbin_fft, _calculate_all_convolutions, _convolve_with_response, _create_responses: C178 (negation). With more than one good time interval the array of the caller is overwritten: outside the intervals the counts are replaced by the mean. (`Stingray.AccelSearch.accel_signal`)
* C178, stingray/pulse/accelsearch.py: accelsearch, interbin_fft, _calculate_all_convolutions, _convolve_with_response, _create_responses: C178 (negation). With gaps the powers are not in the Leahy normalization: the number of photons is taken before the gaps are filled. Four bins with 16 counts after filling, 8 before, have a power of 64 at zero frequency instead of 32, and so all the noise powers are twice as large as the detection level assumes. (`Stingray.AccelSearch.accel_not_leahy`)
* C178, stingray/pulse/accelsearch.py: accelsearch, interbin_fft, _calculate_all_convolutions, _convolve_with_response, _create_responses: C178 (negation). With a negative lowest frequency the frequencies of the rows are wrong: of two bins of one second, searched in `[-1, 0)`, the one at -1/2 Hz is reported at +1/2 Hz. (`Stingray.AccelSearch.accel_negative`)
* C179, stingray/pulse/search.py: phaseogram: C179 (negation). Giving only a reference MJD moves the pulse: the middle of the observation, in seconds after the reference MJD, is then taken as an MJD, so the reference epoch is not in the middle of the observation. (`Stingray.Phaseogram.phaseogram_default_epoch`)
* C180, stingray/simulator/simulator.py: Simulator.simulate, Simulator._timmerkoenig, Simulator._find_inverse, Simulator._simulate_power_spectrum, Simulator._simulate_model: C180 (negation). With an odd number of bins the last simulated frequency is below the Nyquist frequency, but its imaginary part is set to zero all the same: its power is not the shape times half of the sum of both squared draws. (`Stingray.Timmer.timmer_odd`)
* C180, stingray/simulator/simulator.py: Simulator.simulate, Simulator._timmerkoenig, Simulator._find_inverse, Simulator._simulate_power_spectrum, Simulator._simulate_model: C180 (negation). The seed does not determine the simulated light curve: it only seeds the generator the cut of a longer light curve is drawn with (`extract`), the normal draws come from the global generator of numpy. (`Stingray.Timmer.timmer_seed`)
* C180, stingray/simulator/simulator.py: Simulator.simulate, Simulator._timmerkoenig, Simulator._find_inverse, Simulator._simulate_power_spectrum, Simulator._simulate_model: C180 (negation). With extra red noise, a given spectrum is not simulated at the frequencies of the light curve, `k / (N dt)`: the values are used, one by one, for the finer frequencies of the longer light curve, and the higher ones get no power. (`Stingray.Timmer.timmer_user_red_noise`)
* C180, stingray/simulator/simulator.py: Simulator.simulate, Simulator._timmerkoenig, Simulator._find_inverse, Simulator._simulate_power_spectrum, Simulator._simulate_model: C180 (negation). A spectrum has to be a numpy array: a list, which the documentation allows (`array-like`), raises `AttributeError`. (`Stingray.Timmer.timmer_list`)
* C180, stingray/simulator/simulator.py: Simulator.simulate, Simulator._timmerkoenig, Simulator._find_inverse, Simulator._simulate_power_spectrum, Simulator._simulate_model: C180 (negation). A light curve from an impulse response is half a bin later than one from a spectrum, or than the times of the simulator: its times are the middles of the bins. (`Stingray.Timmer.timmer_response_times`)
* C181, stingray/varenergyspectrum.py:LagSpectrum._spectrum_function: C181 (negation). A delay over several frequencies is not recovered exactly: the phase of the mean is not the mean phase. (`Stingray.EnergyLags.lag_delay_many`)
* C181, stingray/varenergyspectrum.py:LagSpectrum._spectrum_function: C181 (negation). For a band that overlaps the reference band, the noise the bands share (a real number `noise` added to the cross power) is not subtracted from the cross power, as it is for covariances: the lag is pulled towards zero. (`Stingray.EnergyLags.lag_common_noise`)
* C182, stingray/pulse/fftfit.py:fftfit: C182 (negation). A profile and a template of one bin are not refused: the search never ends. (`Stingray.FftFit.fftfit_one_bin`)
* C182, stingray/pulse/fftfit.py:fftfit: C182 (negation). Not all profiles and templates of the same number of at least two bins that are not flat get an answer: those of fewer than 32 bins are refused, however good the root finder. (`Stingray.FftFit.fftfit_few_bins`)
* C182, stingray/pulse/fftfit.py:fftfit: C182 (negation). Without a template the documented sinusoid is not used: the call is refused. (`Stingray.FftFit.pulsar_fftfit_default`)
* C183, stingray/utils.py:baseline_als: C183 (negation). A light curve does not always have a baseline: with ten rounds, the default, that of a constant light curve (no counts in any bin, say) consists of NaNs. (`Stingray.BaselineAls.baseline_exists`)
* C184, stingray/utils.py:poisson_symmetrical_errors: C184 (negation). The errors do not increase with the counts: those of counts that are not whole numbers are those of the whole number below. (`Stingray.RandomStates.poisson_errors_fractions`)
* C185, stingray/utils.py:get_random_state: C185 (negation). A seed does not always determine the random numbers: with the seed 0 the global generator is used, as without a seed. (`Stingray.RandomStates.random_state_zero`)
* C186, stingray/simulator/transfer.py:relativistic_ir: C186 (negation). The response does not decay from the secondary peak: the decay starts at 1 four seconds after the start, wherever the peak is and however high, and can be higher than the peak. (`Stingray.Responses.relativistic_ir_peak`)
* C187, stingray/utils.py:is_sorted: C187 (negation). Times with a NaN are called sorted with numba whatever comes before and after it, and not without numba. (`Stingray.Sorting.is_sorted_nan`)
* C187, stingray/utils.py:is_sorted: C187 (negation). Without numba, every array of unsigned integers is called sorted. (`Stingray.Sorting.is_sorted_wraps`)
* C188, stingray/pulse/modeling.py:sinc: C188 (negation). The derivatives given to the fitter are not those of the model: `x` stands where `(x - mean) / width` should. (`Stingray.SincSquare.sinc_square_deriv_wrong`)
* C189, stingray/pulse/modeling.py:fit_sinc: C189 (negation). The same call does not always start the same fit: after a fit with the length of the observation, the width is also kept fixed without one. (`Stingray.SincSquare.fit_sinc_repeat`)
* C191, stingray/pulse/search.py:_folding_search: C191 (negation). Shifting the times and the GTIs alike changes a search with exposure correction: the times are taken from the first event, the GTIs are not. (`Stingray.WeightedSearch.weighted_search_gti_shift`)
* C191, stingray/pulse/search.py:_folding_search: C191 (negation). Dividing a GTI in two changes a search with exposure correction if there are then as many GTIs as events: those at the positions of events outside the segment are dropped. (`Stingray.WeightedSearch.weighted_search_gti_count`)
* C192, stingray/io.py:get_file_extension: C192 (negation). The extension is not always found: that of `f.fits` is `.its`, so that the file is not read as FITS. (`Stingray.FileNames.file_extension_short`)
* C193, stingray/lightcurve.py:Lightcurve.apply_gtis: C193 (negation). A light curve with two bins or more left after applying GTIs cannot be joined with any other, in either order: its start is an array. (`Stingray.LcStart.join_after_gtis`)
* C194, stingray/lightcurve.py:Lightcurve.baseline: C194 (negation). The baseline of the same light curve depends on the type of its times: with integers the fractions are lost. (`Stingray.LcBaseline.baseline_depends_on_type`)
* C195, stingray/power_colors.py:plot_hues: C195 (negation). The hue drawn is not that about the centre of the configuration given: some colours and centre have a hue that differs by half a turn. (`Stingray.HuePlot.plotted_hue_ignores_center`)

## Axioms

As reported by `collectAxioms` for each theorem in MANIFEST.json (`tools/design.py`):

* 663 theorems: `Classical.choice`, `Quot.sound`, `propext`
* 106 theorems: `Quot.sound`, `propext`
* 9 theorems: `propext`
* 1 theorems: none

All theorems depend on the three axioms `propext`, `Classical.choice` and `Quot.sound`, except:

* only `Quot.sound`, `propext`: `Analyze.estimate_needs_samples`, `Analyze.separate_spec`, `Bexvar.bexvar_defaults`, `Bexvar.bexvar_discards`, `Bexvar.bexvar_spec`, `Bexvar.grid_ends`, `Bispectrum.cumulant_refuses`, `Bispectrum.lags_spec`, `Bispectrum.maxlag_spec`, `Bispectrum.window_partial`, `Bispectrum.window_symm`, `CrossCorr.cross_correlation_refuses`, `DeadTime.deadtime_correct_ok`, `DeadTime.deadtime_correct_refuses`, `DynColors.colors_columns`, `DynColors.colors_refuses`, `DynColors.colors_unchanged`, `Fad.calculate_fad_segments`, `Fad.fad_objects`, `Fad.fad_refuses`, `FileNames.file_extension_gz`, `FileNames.file_extension_iff`, `FileNames.file_extension_long`, `Filters.filter_for_deadtime_sublist`, `Fourier.averaged_coherence_exchange`, `Fourier.averaged_time_lag`, `Fourier.avg_pds_ignores_unusable`, `Fourier.avg_pds_total`, `Fourier.calculate_errors_refuses`, `Fourier.coherence_value`, `Fourier.coherence_warns`, `Fourier.normalize_powers_by_type`, `Fourier.normalize_refuses_iff`, `Fourier.poisson_level_refuses_iff`, `Fourier.rms_unnorm_default_noise`, `Fourier.rms_unnorm_no_variability`, `Gti.create_gti_from_condition_default`, `Gti.create_gti_from_condition_errors`, `Gti.create_gti_mask_empty_raises`, `Gti.create_gti_mask_min_length_raises`, `Gti.get_btis_default_limits`, `Gti.get_btis_empty`, `Gti.join_gtis_rejects`, `Gti.large_btis_spec`, `Gti.merge_gtis_few`, `Gti.merge_gtis_hull`, `Gti.split_gtis_at_indices_concat`, `InverseCdf.inverse_cdf_refuses`, `InverseCdf.simulate_times_refuses`, `Io.pi_to_energy_spec`, `Io.split_numbers_array`, `Io.whole_file`, `LcOps.lc_neg_spec`, `LcOps.lc_operation_mjdref`, `LcStart.apply_gtis_spec`, `LcStart.join_after_gtis`, `Lightcurve.assignments_refuse`, `Lightcurve.counts_err_depends_on_order`, `Lightcurve.counts_err_stale`, `Lightcurve.counts_rate_consistent_partial`, `Lightcurve.energy_bands_disjoint`, `Lightcurve.join_repeated_partial`, `Lightcurve.meanrate_first_partial`, `Missions.get_key_case`, `Missions.get_key_value`, `Ols.nextpow_least`, `Ols.nextprod_refuses`, `Pulsar.fold_events_few`, `Pulsar.p_to_f_fifth`, `RandomStates.random_state_spec`, `RebinLog.rebin_data_log_refuses`, `Sampling.rhat_blind`, `Sampling.sampling_log`, `Sampling.sampling_order`, `Sampling.sampling_refuses`, `Simulator.energy_response_spec`, `Simulator.impulse_response_one_bin`, `Simulator.impulse_response_partial`, `Simulator.time_response_default_partial`, `SincSquare.fit_sinc_history`, `Sorting.is_sorted_unsigned`, `Sorting.is_sorted_wraps`, `Spectroscopy.model_rms`, `Spectrum.to_norm_consistent`, `Spectrum.to_norm_errors`, `Spectrum.to_norm_path`, `Tables.from_timeseries_seconds`, `Tables.interpret_total`, `Tables.table_set_time`, `TimeSeries.apply_gtis_copy_keeps_old_gtis`, `TimeSeries.apply_mask_total`, `TimeSeries.arithmetic_mjdref`, `TimeSeries.change_mjdref_absolute`, `TimeSeries.change_mjdref_comp`, `TimeSeries.change_mjdref_sequence`, `TimeSeries.eq_sound_partial`, `TimeSeries.getitem_rows`, `TimeSeries.sort_rows`, `TimeSeries.split_ignores_lists`, `UtilsMisc.find_nearest_empty`, `UtilsMisc.nearest_power_of_two_one`, `VarEnergy.energy_spectrum_local_partial`, `VarEnergy.excess_variance_spectrum_nan`, `VarEnergy.lag_spectrum_first_ref_band`, `WeightedSearch.weighted_search_refused`, `WeightedSearch.weighted_search_shift`
* only `propext`: `Analyze.separate_uneven`, `Fourier.warns_iff`, `Missions.get_key_refuses`, `Ols.nextprod_rounding`, `Simulator.get_channel_spec`, `Simulator.get_channels_order`, `Tables.table_no_rows`, `UtilsMisc.columns_round_trip_empty`, `UtilsMisc.columns_round_trip_wrong`
* only : `SincSquare.fit_sinc_repeat`

## What is modelled

One line per definition, with the first citation in its comment; the simplifications are in the comments.

* `Verif/Model/AccelSearch`: `interleave` (pulse/accelsearch.py 506-514), `interbin` (pulse/accelsearch.py 458-522), `Cand`, `selected` (pulse/accelsearch.py 168, 178-179), `worker` (pulse/accelsearch.py 125-194), `responses` (pulse/accelsearch.py 81-122), `allConvolutions` (pulse/accelsearch.py 197-283), `Tools`, `Opts`, `Row`, `fill` (pulse/accelsearch.py 364-368), `prepare` (pulse/accelsearch.py 355-371), `spectrum` (pulse/accelsearch.py 354, 373, 384-386), `interval` (pulse/accelsearch.py 402), `row` (pulse/accelsearch.py 433-450), `accelsearch` (pulse/accelsearch.py 286-455)
* `Verif/Model/Analyze`: `runSegments` (base.py 2657-2673), `timeRanges` (base.py 2638-2641), `binnedTimes` (base.py 2646-2649), `segmentsOf` (base.py 2637-2655), `analyzeSegments` (base.py 2584-2690), `separate` (base.py 2659, 2672-2682), `searchSize` (base.py 2574-2580), `estimateSize` (base.py 2534-2582)
* `Verif/Model/BaselineAls`: `secondDiff` (utils.py 1040-1045), `system`, `step`, `weights`, `loop`, `als`, `goodBins`, `offset`, `baselineAls`
* `Verif/Model/Basic`: `PyErr`, `KeySort` (gti.py 691-695, 1079-1080, 1153-1155), `stableSort`, `argmax?`, `searchsortedLeft`, `searchsortedRight`
* `Verif/Model/Bexvar`: `linspace`, `Bin`, `minimum`, `maximum`, `lowest` (bexvar.py 64-68), `highest` (bexvar.py 74), `lowExponent` (bexvar.py 69-72), `gridBetween` (bexvar.py 78-84), `gridOf` (bexvar.py 30-86), `backgrounds` (bexvar.py 115-117), `prob` (bexvar.py 119-122), `weights` (bexvar.py 89-138), `select`, `Args`, `bexvar` (bexvar.py 241-270), `transform` (bexvar.py 165-169)
* `Verif/Model/Bispectrum`: `pyIdx`, `toeplitz`, `cumulant3` (bispectrum.py 237-261), `scale0` (bispectrum.py 280-286), `scale1` (bispectrum.py 288-302), `scaleMatrix` (bispectrum.py 303-309), `Scale`, `normalize` (bispectrum.py 272-310), `maxlagOf` (bispectrum.py 155-166), `cum3` (bispectrum.py 155-197), `lags` (bispectrum.py 241-242), `freqs` (bispectrum.py 323), `window2d` (bispectrum.py 204-225)
* `Verif/Model/Cospectra`: `NSpec`, `Power`, `cdfTerm` (crossspectrum.py 350-367), `cdf` (crossspectrum.py 344-371), `laplaceSf`, `pvalueInt` (crossspectrum.py 434-449), `cospectraPvalue` (crossspectrum.py 374-449), `classicalSignificances` (crossspectrum.py 1144-1214)
* `Verif/Model/Covariance`: `Curve`, `Std`, `RefArg`, `Refs`, `Data`, `mean`, `var`, `root`, `quot`, `calcStd` (covariancespectrum.py 409-418), `excessVar` (covariancespectrum.py 404-407), `npCov` (covariancespectrum.py 420-422), `covError` (covariancespectrum.py 424-445), `Row`, `Row.covar` (covariancespectrum.py 331), `bandRow` (covariancespectrum.py 313-328), `refOf` (covariancespectrum.py 308-311), `constructCovar` (covariancespectrum.py 295-337), `refOfAvg` (covariancespectrum.py 543-546), `truncate` (base.py 1793-1810), `oadd`, `segRow` (covariancespectrum.py 555-574), `nSegments` (covariancespectrum.py 548-554), `meanRow` (covariancespectrum.py 550-552, 562-564, 576-578), `constructAvg` (covariancespectrum.py 528-587), `curveOf` (covariancespectrum.py 229-231, 243-244), `observation` (covariancespectrum.py 357-360), `makeLightcurves` (covariancespectrum.py 339-373), `energyRange` (covariancespectrum.py 221), `refBounds` (covariancespectrum.py 220-221), `apart` (covariancespectrum.py 223-225), `refsFromEvents` (covariancespectrum.py 196-247), `addCounts` (covariancespectrum.py 281-285), `refsFromCurves` (covariancespectrum.py 249-293), `unique`, `createBands` (covariancespectrum.py 375-402), `eventBands` (covariancespectrum.py 120-135), `curveBands` (covariancespectrum.py 124-135), `givenRefs` (covariancespectrum.py 153-192), `prepare` (covariancespectrum.py 103-192), `covarianceSpectrum` (covariancespectrum.py 103-194), `averagedCovariance` (covariancespectrum.py 514-526)
* `Verif/Model/CrossCorr`: `Mode`, `Lc`, `correlateFull`, `centred`, `correlate`, `intRange`, `correlationLags`, `mean`, `var`, `Corr`, `calTimeshift` (crosscorrelation.py 248-271), `makeCorr` (crosscorrelation.py 81-112, 151-202), `autoCorr`, `makeCrossCorr`
* `Verif/Model/CrossErrors`: `ratio`, `root`, `CrossErr`, `crossErrors` (fourier.py 1140-1164), `warns` (fourier.py 1131-1139), `crossToCovariance` (fourier.py 1195)
* `Verif/Model/CrossLags`: `CrossBin`, `CrossInfo`, `coherence` (crossspectrum.py 998-1019), `cohAt` (crossspectrum.py 2115-2125), `cohErr` (crossspectrum.py 2128-2130), `averagedCoherence` (crossspectrum.py 2084-2132), `coherenceWarns` (crossspectrum.py 2109-2114), `phaseLag` (crossspectrum.py 1021-1028), `SpecClass`, `timeLag` (crossspectrum.py 1030-1045), `errAt` (crossspectrum.py 1799-1827), `CrossUncertainties`, `calculateErrors` (crossspectrum.py 1783-1842), `averagedTimeLag` (crossspectrum.py 2141-2159)
* `Verif/Model/DeadTime`: `pyDiv`, `rIn` (deadtime/model.py 87-98), `rDet` (deadtime/model.py 101-112)
* `Verif/Model/DeadTimeModel`: `sumFrom1`, `gn` (deadtime/model.py 115-128), `h` (deadtime/model.py 131-142), `a0` (deadtime/model.py 148-167), `aK` (deadtime/model.py 170-197), `limitA` (deadtime/model.py 222-235), `bRaw` (deadtime/model.py 292-300), `safeB` (deadtime/model.py 303-311), `innerLoop` (deadtime/model.py 410-424), `rates` (deadtime/model.py 458-463), `pdsModel` (deadtime/model.py 427-478), `interp`, `maxOf`, `binTime` (deadtime/model.py 529-530), `nBins` (deadtime/model.py 532), `rescale` (deadtime/model.py 544-545), `nonParalyzable` (deadtime/model.py 481-548), `Attr`, `Attr.times`, `Part`, `Part.times` (crossspectrum.py 1767-1770), `Whole`, `product`, `timesAll` (crossspectrum.py 1772-1776), `deadtimeCorrect` (crossspectrum.py 1704-1781)
* `Verif/Model/DynColors`: `Dyn`, `columnColors` (crossspectrum.py 2598-2610), `powerColors` (crossspectrum.py 2594-2613), `columnRms` (crossspectrum.py 2659-2668), `computeRms` (crossspectrum.py 2643-2673)
* `Verif/Model/Dynamic`: `keptSpectra` (fourier.py 1658-1660), `makeMatrix` (powerspectrum.py 1102-1135), `assemble` (utils.py 625-626), `rebinTime` (crossspectrum.py 2348-2395), `rebinFrequency` (crossspectrum.py 2312-2346)
* `Verif/Model/EnergyLags`: `good` (varenergyspectrum.py 332-351), `meanCross`, `meanFrequency` (varenergyspectrum.py 929-930), `lagOf` (varenergyspectrum.py 908, 928-935), `covarianceOf` (varenergyspectrum.py 1044-1121)
* `Verif/Model/EventBins`: `toBinned` (events.py 293-340), `boundaries` (events.py 361-363), `toLcIter` (events.py 342-377), `countIn`, `color` (events.py 813-824), `intensity` (events.py 854-860), `evolution` (events.py 826)
* `Verif/Model/Fad`: `Cell`, `Cell.add`, `Cell.over`, `sqMod`, `difference`, `Norms`, `norms`, `cell`, `Opts`, `Acc`, `corrected`, `accumulate`, `accFgt0`, `accWidth`, `step`, `Result`, `std`, `compliant`, `fad` (deadtime/fad.py 24-296), `Data`, `fadOfData`, `calculateFad` (deadtime/fad.py 299-411), `Kind`, `Periodogram`, `columns`, `periodogram` (deadtime/fad.py 414-461)
* `Verif/Model/FftFit`: `ft`, `centre` (pulse/fftfit.py 92, 95), `amp`, `pha`, `ccf`, `findDelay`, `ngood`, `bestPhase`, `toMinimize`, `bracket`, `amplitude`, `terms`, `solve`, `fftfit`, `pulsarFftfit` (pulse/pulsar.py 741-771)
* `Verif/Model/FileNames`: `removeLoop`, `remove`, `baseName`, `splitRoot`, `getFileExtension` (io.py 118-137), `eventFormat` (events.py 624-629)
* `Verif/Model/FillBti`: `Row`, `Rng`, `Series`, `Filled`, `sideRate` (base.py 2323-2330), `meanRate` (base.py 2332-2339), `newTimes` (base.py 2312-2341), `column`, `newColumn` (base.py 2344-2356), `fillOne` (base.py 2305-2357), `widened` (base.py 2310-2311), `fill` (base.py 2260-2373)
* `Verif/Model/Filters`: `paralyzableMask` (filters.py 81-105), `nonparLoop` (filters.py 126-129), `nonparCore` (filters.py 109-130), `nonParalyzableMask` (filters.py 133-154), `DtOut`, `select`, `getDeadtimeMask` (filters.py 165-280), `filterForDeadtime` (filters.py 283-319)
* `Verif/Model/Fourier`: `Cx`, `conj`, `both`, `positiveFftBins` (fourier.py 111-175), `slice`, `fftfreq`, `Norm`, `normalizer` (fourier.py 566-577), `unnormalizer` (fourier.py 588-658), `PowerType`, `normalizeCx` (fourier.py 502-585), `normalizeRe`, `poissonLevel` (fourier.py 178-268), `PowerBin`, `fixFirst`, `fixLast`, `integratePower` (fourier.py 28-108), `biasTerm` (fourier.py 669-709), `rawCoherence` (fourier.py 712-755), `intrinsicLoop` (fourier.py 758-802), `intrinsicCoherence`, `Segment`, `Segment.skipped`, `Segment.data`, `sumOrInit` (utils.py 2337-2356), `addOrInit`, `addIfGiven`, `perSegment`, `PdsAcc`, `PdsTable`, `pdsStep` (fourier.py 1658-1717), `pdsFinish` (fourier.py 1719-1768), `avgPds` (fourier.py 1589-1768), `CsTable`, `QuickAcc`, `crossProduct`, `quickStep` (fourier.py 1831-1865), `avgCsQuick` (fourier.py 1771-1923), `CsAcc`, `CsAux`, `CsOpts`, `pairVar`, `cutTo`, `csStep` (fourier.py 2021-2141), `csFinish` (fourier.py 2143-2260), `avgCs` (fourier.py 1926-2260), `rmsFromNorm` (fourier.py 843-930), `RmsKind`, `rmsFromUnnorm` (fourier.py 933-997)
* `Verif/Model/GpModel`: `Name`, `Dict`, `get`, `expKernel`, `celerite`, `getKernel` (modeling/gpmodeling.py 43-90), `gaussian` (modeling/gpmodeling.py 168-172), `exponential` (modeling/gpmodeling.py 198-202), `constant` (modeling/gpmodeling.py 224), `skewGaussian` (modeling/gpmodeling.py 252-266), `skewExponential` (modeling/gpmodeling.py 294-308), `fred` (modeling/gpmodeling.py 336-345), `getMean` (modeling/gpmodeling.py 93-142), `logPrefix`, `kernelParams` (modeling/gpmodeling.py 362-369), `meanParams` (modeling/gpmodeling.py 386-395), `gpParams` (modeling/gpmodeling.py 423-426), `entry` (modeling/gpmodeling.py 547-550), `paramDict` (modeling/gpmodeling.py 545-550), `model` (modeling/gpmodeling.py 544-553), `argmax`, `maxParameter` (modeling/gpmodeling.py 664-676)
* `Verif/Model/Gti`: `gtiLengths` (gti.py 55-73), `totalGtiLength` (gti.py 76-95), `checkGtis` (gti.py 294-330), `gtiMaskJitLoop` (gti.py 356-387), `gtiMaskJit` (gti.py 333-387), `gtisToMask` (gti.py 468-484), `createGtiMask` (gti.py 390-505), `insideComplete` (gti.py 570-580), `gtiMaskComplete` (gti.py 508-587), `joinEqualLoop` (gti.py 931-961), `joinEqualGtiBoundaries` (gti.py 931-961), `lastStartBefore` (gti.py), `crossStep` (gti.py 708-750), `crossTwoGtis` (gti.py 643-752), `crossGtisLoop` (gti.py 795-800), `crossGtis` (gti.py 755-800), `getBtis` (gti.py 803-852), `flatten`, `checkSeparateCore` (gti.py 855-874), `checkSeparate` (gti.py 877-928), `appendGtis` (gti.py 1039-1080), `cumsumFrom`, `rollLeft`, `rollRight`, `select`, `joinSweep` (gti.py 1157-1177), `taggedBoundaries` (gti.py 1141-1149), `joinGtis` (gti.py 1083-1177), `MergeStrategy`, `mergeGtis` (gti.py 964-1036), `arangeNat`, `arange`, `segmentStarts` (gti.py 1210-1221), `timeIntervalsFromGtis` (gti.py 1180-1224), `calculateSegmentBinStart` (gti.py 1227-1276), `gtiBorderBinsOne` (gti.py 1359-1369), `gtiBorderBins` (gti.py 1377-1481), `binIntervalsFromGtis` (gti.py 1279-1374), `segmentIndicesUnbinned` (gti.py 1573-1646), `splitLoop` (gti.py 1726-1728), `splitGtisAtIndices` (gti.py 1697-1732), `findLargeBtisLoop` (gti.py 1735-1767), `findLargeBtis` (gti.py 1735-1767), `cutGti` (gti.py 1821-1832), `exposureEdges` (gti.py 1834-1839), `splitGtisByExposure` (gti.py 1803-1804), `splitGtisByExposureSep` (gti.py 1806-1814)
* `Verif/Model/Hist`: `coord` (utils.py 1584-1587), `pyInt`, `step1` (utils.py 1812-1814), `hist1dWeight` (utils.py 1819-1877), `hist1d` (utils.py 1625-1675), `step2` (utils.py 1885-1888), `hist2dWeight` (utils.py 1893-1948), `hist2d` (utils.py 1691-1739), `pyIndex`, `step3` (utils.py 1956-1960), `hist3dWeight` (utils.py 1965-2019), `hist3d` (utils.py 1756-1804), `computeBin` (utils.py 1539-1579)
* `Verif/Model/HuePlot`: `turn`, `Config`, `defaultConfig`, `plottedHue`, `hueLine`
* `Verif/Model/InverseCdf`: `grid`, `cumsum`, `cdf` (simulator/base.py 242-244), `interp` (simulator/base.py 246), `npSort`, `simulate` (simulator/base.py 223-252), `simulateOne` (simulator/base.py 134-141), `simulateGti` (simulator/base.py 127-131), `simulateTimes` (simulator/base.py 114-141), `simulateEnergies` (events.py 474-494)
* `Verif/Model/Io`: `linspaceIdx` (io.py 1211), `numEdges`, `timeEdges` (io.py 1199-1223), `getIdx` (io.py 1093-1122), `Chunk`, `Reader`, `Reader.slice` (io.py 792-797, 809-890), `sameGti`, `gtiMin`, `gtiMax`, `chunkOf`, `chunksOf`, `applyGtiLists` (io.py 1124-1177), `modf`, `splitNumber` (io.py 1399-1442), `splitArray`, `keywordRead` (io.py 140-176), `piStep` (io.py 109-113), `piToEnergy` (io.py 94-115), `rstrip`, `lstrip`, `commonName` (io.py 1361-1396), `searchInList` (io.py 179-191)
* `Verif/Model/Join`: `Dt`, `Joined`, `dropEmpty`, `attrOf`, `maskOf`, `take`, `joinGti`, `joinDt`, `joinMask`, `join` (base.py 1910-2034)
* `Verif/Model/LcBaseline`: `store`, `assign`, `loop`, `baseline`
* `Verif/Model/LcOps`: `truncateByIndex` (base.py 1793-1810), `truncateByTime` (base.py 1812-1840), `ErrDist`, `Curve`, `pyGet`, `lcSlice` (lightcurve.py 746-772), `lcChangeMjdref` (base.py 1507-1532), `lcOperation` (lightcurve.py 560-634), `lcNeg` (lightcurve.py 689-716), `gtiPart`, `lcRebin` (lightcurve.py 906-983), `tsRebin` (base.py 2082-2165), `splitGtis` (lightcurve.py 1195-1208)
* `Verif/Model/LcStart`: `Start`, `Curve`, `new`, `maxOf`, `minOf`, `applyGtis`, `isLess`, `joinCurves`
* `Verif/Model/Lightcurve`: `LC` (lightcurve.py 231-241), `maskedMean`, `getCounts` (lightcurve.py 384-393), `getCountrate` (lightcurve.py 430-439), `setCounts` (lightcurve.py 395-402), `setCountrate` (lightcurve.py 441-449), `getCountsErr` (lightcurve.py 404-421), `getCountrateErr` (lightcurve.py 451-465), `setCountsErr` (lightcurve.py 423-428), `setCountrateErr` (lightcurve.py 467-472), `getMeanrate` (lightcurve.py 372-376), `getMeancounts` (lightcurve.py 378-382), `Op` (base.py 1254-1261), `step`, `run`, `init` (lightcurve.py 231-241), `pyInt`, `timebin` (lightcurve.py 884-887), `lcStart` (lightcurve.py 866-871), `lcLength` (lightcurve.py 877-880), `bincount`, `npHistogram`, `makeLightcurve` (lightcurve.py 818-904), `suggestCompatibleDt` (events.py 676-701), `fixSegmentSize` (utils.py 1056-1098), `fromLcLoop` (events.py 29-52), `intSumNonZero` (utils.py 2400-2422), `fromLc` (events.py 55-82), `energyMask` (events.py 657-674), `filterEnergyRange` (events.py 703-731), `joinInsert` (lightcurve.py), `joinFirst`, `join` (lightcurve.py 985-1110)
* `Verif/Model/LombScargle`: `autofrequency` (lombscargle.py 63-80), `crossFrequencies` (lombscargle.py 222-235), `span` (lombscargle.py 694), `Kind`, `Args`, `initialChecks` (lombscargle.py 251-303), `mean`, `arctan2`, `slowAt` (fourier.py 2648-2677), `lsftSlow` (fourier.py 2629-2678), `trigSum`, `fastAt` (fourier.py 2535-2593), `lsftFast` (fourier.py 2535-2593), `imposeSymmetry` (fourier.py 2708-2710), `crossAt` (lombscargle.py 802), `crossSlow` (lombscargle.py 793-803), `powers` (lombscargle.py 741-748)
* `Verif/Model/Missions`: `Val`, `Dict`, `Dict.get`, `Dict.set`, `Dict.pop`, `Dict.update`, `lowerVal` (utils.py 173-176), `lowerInto` (utils.py 172-178), `lowerDict` (utils.py 150-180), `enter` (io.py 284-293), `getKey` (io.py 236-297), `strip`, `pieces`, `words`, `Dict.setPath` (mission_support/missions.py 123-128), `readLine`, `readLines`, `patch` (mission_support/missions.py 66-88), `readMissionInfo` (mission_support/missions.py 91-129), `roughCalibration` (mission_support/missions.py 22-63), `simpleConversion` (mission_support/missions.py 139-145), `conversion` (mission_support/missions.py 151-181), `toInt`, `splitChan` (mission_support/rxte.py 23-49), `splitC` (mission_support/rxte.py 52-62), `steps` (mission_support/rxte.py 282-286), `epochIndex`, `localChannel` (mission_support/rxte.py 372-375), `localChannels` (mission_support/rxte.py 375)
* `Verif/Model/Modeling`: `logmin` (modeling/posterior.py 43), `Par`, `Par.clip`, `setFree`, `tieStep`, `setParams`, `numNotFixed`, `numFree`, `Row`, `MArg`, `gaussLike`, `poissonLike`, `psdLikeAveraged`, `psdLike`, `laplaceLike`, `evaluate`, `priorSum`, `logprior`, `isclose`, `logposterior`, `psdPosterior`, `useBounds` (modeling/parameterestimation.py 436-443), `unacceptable`, `fitLoop`, `fit`, `criteria`, `computePvalue`, `simulated`, `highestOutlier`
* `Verif/Model/Multitaper`: `psdAt` (multitaper.py 415-419), `selected` (multitaper.py 343-350), `adaptWeights` (multitaper.py 498-501), `converged` (multitaper.py 511), `adaptLoop` (multitaper.py 497-516), `psdAll`, `adaptivePsd` (multitaper.py 421-520), `combine` (multitaper.py 368-372), `tapered` (multitaper.py 354-356), `responses` (multitaper.py 358-365), `columns`, `frequencies` (multitaper.py 366), `fourierMultitaper` (multitaper.py 293-385), `leaveOut` (multitaper.py 594-608), `jackknife` (multitaper.py 554-622)
* `Verif/Model/NextProd`: `nextpow` (pulse/overlapandsave/ols.py 74-81), `carry` (pulse/overlapandsave/ols.py 107-113), `raise` (pulse/overlapandsave/ols.py 117-119), `prodLoop` (pulse/overlapandsave/ols.py 103-120), `nextprod` (pulse/overlapandsave/ols.py 95-120)
* `Verif/Model/Ols`: `fft`, `ifft`, `prepareh` (pulse/overlapandsave/ols.py 172-199), `padEdges` (pulse/overlapandsave/ols.py 233-250, 253-276), `olsStep` (pulse/overlapandsave/ols.py 279-371), `olsLoop`, `ols` (pulse/overlapandsave/ols.py 374-474)
* `Verif/Model/Phaseogram`: `linspace`, `inBin`, `hist2d`, `reference` (pulse/search.py 583-595), `timeAxis` (pulse/search.py 607-608), `phaseogram` (pulse/search.py 500-625), `getToa` (pulse/pulsar.py 838-851)
* `Verif/Model/PowerColors`: `toBins`, `excludeRange` (power_colors.py 384-387), `quotient`, `powerColor` (power_colors.py 352-434), `hueFromLog` (power_colors.py 495-496), `hueFromColor` (power_colors.py 462-467), `angleDown` (power_colors.py 105-106), `angleUp` (power_colors.py 107-108), `limitAngle` (power_colors.py 104-109)
* `Verif/Model/PowerStats`: `Per`, `Per.values`, `Per.simplify` (fourier.py 871-878), `Per.isArray`, `Per.select` (powerspectrum.py 187-194), `Per.scale`, `sumSquares` (fourier.py 915), `totalPowerErr` (fourier.py 895-915), `rmsNorm` (fourier.py 843-930), `Per.min`, `segmentSizeOr` (fourier.py 970-971), `rmsUnnorm` (fourier.py 933-997), `Pds`, `noiseOf` (powerspectrum.py 196-201), `pick`, `computeRms` (powerspectrum.py 149-213), `classicalSignificances` (powerspectrum.py 253-330), `powerConfidenceLimits` (stats.py 909-945), `powerUpperLimit` (stats.py 948-1009), `amplitudeUpperLimit` (stats.py 1012-1081), `pfUpperLimit` (stats.py 1084-1127), `maskOf` (powerspectrum.py 397-402), `argmaxPower`, `highestFreq`, `modulationUpperLimit` (powerspectrum.py 332-413)
* `Verif/Model/Pulsar`: `trunc`, `pToF` (pulse/pulsar.py 47-88), `phaseLoop` (pulse/pulsar.py 118-121), `pulsePhase` (pulse/pulsar.py 91-125), `fmod1`, `phaseBins`, `addLimit`, `gtiExposure`, `rawExposure` (pulse/pulsar.py 151-207), `phaseExposure` (pulse/pulsar.py 128-209), `histUnit`, `Weights`, `Weights.expand`, `FoldOpts`, `divOpt`, `foldEvents` (pulse/pulsar.py 212-345), `pulsePhaseFast` (pulse/search.py 23-27), `profileFast` (pulse/search.py 72-88), `foldSegment` (pulse/search.py 43-47), `foldingSearch` (pulse/search.py 30-69), `bestOf`, `searchBestPeaks` (pulse/search.py 343-411), `phaseDown` (pulse/fftfit.py 192-193), `phaseUp`, `normalizePhase` (pulse/fftfit.py 178-196)
* `Verif/Model/RandomStates`: `Arg`, `Generator`, `isFalse`, `getRandomState` (utils.py 949-972), `toInt`, `bincount`, `nonzero`, `searchsorted`, `pick`, `poissonErrors` (utils.py 1369-1380)
* `Verif/Model/Rebin`: `Dx`, `diff`, `dxOld` (utils.py 553-558), `prevAt`, `sliceSum`, `loopBody` (utils.py 582-600), `loop` (utils.py 577-600), `Method`, `Out`, `rebinData` (utils.py 489-631)
* `Verif/Model/RebinLog`: `growEdges` (utils.py 700-702), `binNumber`, `binnedStatistic`, `mean`, `rootSquaredMean` (utils.py 466-468), `Out`, `rebinDataLog` (utils.py 634-749)
* `Verif/Model/Regions`: `xorDiff` (utils.py 927), `nonzeroIdx` (utils.py 928), `reshapePairs` (utils.py 938), `contiguousRegions` (utils.py 907-941), `gtiOfRegion` (gti.py 630-639), `createGtiFromCondition` (gti.py 595-641)
* `Verif/Model/Responses`: `linspace`, `listMax`, `rising` (simulator/transfer.py 306-311), `decaying`, `relativisticIr`
* `Verif/Model/RxteTable`: `pcaTable` (mission_support/rxte.py 140-268), `pcaRows`, `pcaColumns`, `pcaCalibration` (mission_support/rxte.py 100-293)
* `Verif/Model/Sampling`: `mean`, `variance`, `Summary`, `dims` (modeling/parameterestimation.py 998-1000), `computeRhat` (modeling/parameterestimation.py 1053-1074), `bounds`, `summary` (modeling/parameterestimation.py 984-1009, 1028-1040), `printResults` (modeling/parameterestimation.py 1103-1130)
* `Verif/Model/Segments`: `eventFlux` (fourier.py 1351-1361), `eventSegments` (fourier.py 1283-1367), `averageCtrate` (fourier.py 1230-1280), `binnedSegments`, `safeSlice` (fourier.py 1371-1425), `addSlice` (fourier.py 1498-1501), `addOne` (fourier.py 1495-1501), `shiftCore` (fourier.py 1470-1505), `shiftedFreqs` (fourier.py 1578-1579), `shiftAndAdd` (fourier.py 1508-1586)
* `Verif/Model/Simulator`: `simulateChannel` (simulator/simulator.py 173-195), `getChannel` (simulator/simulator.py 197-202), `getChannels` (simulator/simulator.py 204-209), `getAllChannels` (simulator/simulator.py 211-216), `deleteChannel` (simulator/simulator.py 218-229), `deleteIndices`, `deleteChannels` (simulator/simulator.py 231-245), `ChanOp`, `chanStep`, `chanRun`, `mean`, `takeRange`, `extractAndScale` (simulator/simulator.py 539-570), `convolve`, `sliceEnd`, `pySlice`, `Mode`, `impulseResponse` (simulator/simulator.py 502-537), `pyInt`, `simpleIr` (simulator/transfer.py 225-258), `meanRows`, `timeResponse` (simulator/transfer.py 66-104), `energyResponse` (simulator/transfer.py 106-116)
* `Verif/Model/SincSquare`: `npSinc`, `sinc` (pulse/modeling.py 8-23), `model`, `dX`, `dAmplitude`, `dMean`, `dWidth`, `setKey`, `getKey`, `Call`, `fitSinc`, `afterCalls`
* `Verif/Model/Sorting`: `greater`, `stepOk`, `neighbours`, `sortedNumba` (utils.py 441-463), `isSorted`, `isSortedUnsigned`, `takeOrder`, `orderColumns`, `sortEvents` (io.py 672-680)
* `Verif/Model/SpecRebin`: `Sub`, `Spec`, `newDf` (crossspectrum.py 763-766), `rebinEven` (utils.py 489-631), `rebinUnnorm` (crossspectrum.py 782-794), `rebinSub` (crossspectrum.py 763-794), `rebinAll` (crossspectrum.py 796-802), `rebin` (crossspectrum.py 739-810), `LogSub`, `logUnnorm` (crossspectrum.py 972-982), `rebinLog` (crossspectrum.py 960-982)
* `Verif/Model/SpectralShapes`: `generalizedLorentz1D` (simulator/models.py 6-39), `smoothBrokenPowerLaw`, `generalizedLorentzian`, `smoothbknpo`
* `Verif/Model/Spectroscopy`: `binSearch`, `nearestIdx` (utils.py 1458-1462), `fftfreq`, `rms2` (spectroscopy.py 405-422), `ccf` (spectroscopy.py 97-100), `average`, `ccfError` (spectroscopy.py 136-155), `pyMod`, `phases` (spectroscopy.py 209-216), `getParameters` (spectroscopy.py 193-218), `waveform` (spectroscopy.py 251-256), `xSquared` (spectroscopy.py 286-288), `meanPhase` (spectroscopy.py 327-331), `phaseLag` (spectroscopy.py 367-378)
* `Verif/Model/Spectrum`: `Powers`, `SpecObj`, `renormalize`, `toNorm` (crossspectrum.py 812-900), `RebinState`, `rebinStep` (crossspectrum.py 2436-2450), `DynSpec`, `rebinByN` (crossspectrum.py 2397-2457), `maxOf`, `traceOne` (crossspectrum.py 2484-2487), `traceMaximum` (crossspectrum.py 2459-2489)
* `Verif/Model/Stats`: `logpMulti` (stats.py 212-238), `pMulti` (stats.py 241-275), `logpSingle` (stats.py 287-317), `pSingle` (stats.py 320-378), `pvalTerm` (stats.py 892-897), `pvalLoop` (stats.py 891-906), `pavnosigfun` (stats.py 873-906), `classicalPvalue` (stats.py 783-870), `foldProb` (stats.py 381-402), `foldLevel` (stats.py 429-454), `pdmProb` (stats.py 457-490), `pdmLevel` (stats.py 529-563), `z2Prob` (stats.py 566-590), `z2Level` (stats.py 621-652), `pdsProb` (stats.py 655-688), `pdsLevel` (stats.py 740-780), `pdsLevels` (stats.py 740-780), `chi2Logp` (stats.py 171-200), `foldLogProb` (stats.py 405-426), `z2LogProb` (stats.py 593-618), `pdsLogProb` (stats.py 691-737), `pfFromA` (stats.py 1130-1148), `aFromPf` (stats.py 1151-1169), `ssigFromA` (stats.py 1172-1188), `aFromSsig` (stats.py 1191-1206), `ssigFromPf` (stats.py 1209-1219), `pfFromSsig` (stats.py 1222-1232)
* `Verif/Model/Tables`: `Name`, `Col`, `Table`, `getCol`, `setCol`, `removeCol`, `removeAllFuel`, `removeAll`, `splitStep` (base.py 712-716), `splitComplex` (base.py 711-716), `asComplex` (base.py 645-651), `addInto` (base.py 655-661), `joinColumn` (base.py 645-663), `joinStep` (base.py 641-663), `joinComplex` (base.py 640-663), `Val`, `Obj`, `MetaTable`, `readOnly` (base.py 1263-1275), `getAttr`, `isData` (base.py 109-135), `isArray` (base.py 137-164), `isInternal` (base.py 166-199), `isMeta` (base.py 201-221), `effectiveGti` (base.py 1243-1252), `rows`, `toTable` (base.py 354-393), `setTime` (base.py 1235-1241, 1277-1285), `putAttr`, `setGti` (base.py 1254-1261), `setAttr`, `setColumn` (base.py 421-424), `setMeta` (base.py 427-435), `setMain` (base.py 415-419), `numRows`, `fromTable` (base.py 396-445), `Times`, `chooseRef` (base.py 2852-2857), `interpretTimes` (base.py 2787-2876), `Times.isEmpty`, `lightcurveTimes` (lightcurve.py 255-267), `timeseriesTimes` (base.py 1207, 1216), `fromTimeseriesTimes` (base.py 1467-1505)
* `Verif/Model/TimeSeries`: `TS` (base.py 1093-1232), `gtiGet` (base.py 1243-1252), `setGti` (base.py 1254-1261), `maskGet` (base.py 1263-1271), `setTime` (base.py 1235-1241), `kept` (base.py 747-748), `applyMask` (base.py 723-778), `applyIdx` (base.py 723-778), `sort` (base.py 2167-2202), `shift` (base.py 1534-1564), `changeMjdref` (base.py 1507-1532), `applyGtis` (base.py 1360-1384), `baseOperation` (base.py 780-867), `operation` (base.py 1566-1629), `sliceIdx`, `Index`, `objGetItem` (base.py 1049-1083), `getItem` (base.py 1684-1732), `splitPiece` (base.py 1417-1422), `splitByGti` (base.py 1386-1426), `eq` (base.py 292-335)
* `Verif/Model/TimeSplit`: `gtiChunk` (base.py 2751-2763), `gtiChunks` (base.py 2748-2763), `applyGtiLists` (base.py 2725-2763), `intervalGtis` (base.py 2780-2783), `filterAtTimeIntervals` (base.py 2765-2784)
* `Verif/Model/Timmer`: `multiplicity`, `irfft`, `Config` (simulator/simulator.py 43-65), `checkInit` (simulator/simulator.py 48-49, 72-73), `amplitudes` (simulator/simulator.py 371-373), `findInverse` (simulator/simulator.py 340-365), `timmerKoenig` (simulator/simulator.py 367-400), `frequencies`, `modelShape` (simulator/simulator.py 415-418, 457-462, 483-498), `userShape` (simulator/simulator.py 436-437), `times` (simulator/simulator.py 62), `responseTimes` (simulator/simulator.py 535), `Call`, `withTimes`, `simulate` (simulator/simulator.py 152-171)
* `Verif/Model/UtilsMisc`: `bitLength`, `nearestPowerOfTwo` (utils.py 1409-1427), `Side`, `searchsorted`, `pyGet`, `findNearest` (utils.py 1430-1462), `colKey`, `lexLe`, `splitColumns` (utils.py 242-283), `colGet`, `joinColumns` (utils.py 286-361)
* `Verif/Model/UtilsStats`: `Window` (utils.py 1249-1258), `windowOf`, `parzenHalf` (utils.py 1286-1293), `windowValue` (utils.py 1277-1331), `createWindow` (utils.py 1246-1333), `mean`, `quot`, `root`, `XsNorm` (utils.py 1217-1222), `excessVariance` (utils.py 1201-1222), `standardError` (utils.py 1402-1406), `percentile`, `extremum`, `limitOr` (utils.py 2318-2322), `equalCountRanges` (utils.py 2314-2334)
* `Verif/Model/VarEnergy`: `maxBorder`, `getNonOverlappingRefBand` (varenergyspectrum.py 33-77), `EnergySpec`, `linspace`, `lower`, `decodeEnergySpec`, `intervals`, `centres`, `Ev`, `timesInRange`, `EnergyResult`, `emptySpectrum`, `EnergyResult.store`, `bandLoop`, `countSpectrum`, `rmsSpectrum`, `crossEnergySpectrum`, `excessVarianceSpectrum`, `rmsErrSq`, `rmsOf`
* `Verif/Model/WeightedSearch`: `masked`, `selectWeights`, `selectGti`, `segmentStat`, `meanStat`, `weightedSearch`
* `Verif/Model/ZSquared`: `cachedHarmonics` (pulse/pulsar.py 399-434), `strided`, `runningSums` (pulse/pulsar.py 456-463), `zFastSums` (pulse/pulsar.py 437-465), `zBinnedAll` (pulse/pulsar.py 468-497), `zGaussAll` (pulse/pulsar.py 500-527), `zEventsAll` (pulse/pulsar.py 530-560), `ZKind`, `zAll` (pulse/pulsar.py 718-727), `zN` (pulse/pulsar.py 563-685), `htest` (pulse/pulsar.py 688-732), `efErr2` (pulse/pulsar.py 366-368), `efProfileStat` (pulse/pulsar.py 348-369)

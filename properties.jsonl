{"id": "C01", "title": "GTI validation accepts exactly well-formed GTI lists", "statement": "check_gtis(gti) returns normally if and only if the list is non-empty, every interval has end >= start and every interval starts no earlier than the previous one ended; for every accepted list all starts (and all stops) are in non-decreasing order and no two intervals share an interior point.", "quantifier": "every list of (start, stop) pairs over any linear order", "why_tests_cant": "the accept/reject boundary is a statement about every list length and every position of the offending pair", "anchors": ["stingray/gti.py::check_gtis"]}
{"id": "C02", "title": "Exact GTI mask selects a sample iff its bin lies inside a GTI", "statement": "create_gti_mask_complete(time, gtis, ...)[i] is True exactly when some GTI, after trimming the safe interval and discarding GTIs shorter than min_length, contains the whole bin [t_i - dt/2, t_i + dt/2] up to the tolerance epsilon*dt.", "quantifier": "all time arrays, bin widths, GTI lists, safe intervals, min_length and epsilon", "why_tests_cant": "membership has to hold for every sample of every array and every GTI layout", "anchors": ["stingray/gti.py::create_gti_mask_complete"]}
{"id": "C03", "title": "The default (compiled) GTI mask agrees with GTI membership", "statement": "create_gti_mask(time, gtis, dt) selects exactly the samples whose bin is inside some GTI. FALSE of the code as written when two consecutive samples skip over a whole GTI (the compiled loop advances by at most one GTI per sample): the sample is silently dropped. The mask never selects a sample outside every GTI, and is exact when no whole GTI falls between consecutive samples.", "quantifier": "all sorted time arrays and well-formed GTI lists", "why_tests_cant": "needs a quantifier over all layouts of samples versus GTIs; the tests use dense light curves that never skip a GTI", "anchors": ["stingray/gti.py::create_gti_mask_jit", "stingray/gti.py::create_gti_mask"]}
{"id": "C04", "title": "Intersection of two GTI lists is the set intersection", "statement": "A time strictly inside an interval of cross_two_gtis(a, b) is strictly inside an interval of a and strictly inside an interval of b, and conversely. FALSE of the code as written when an interval of one list ends exactly where an interval of the other one starts: bad time is returned as good. Exact when no start of one list equals a stop of the other.", "quantifier": "all pairs of well-formed GTI lists", "why_tests_cant": "the intersection must be right for every interleaving of the boundaries of two lists of any length", "anchors": ["stingray/gti.py::cross_two_gtis"]}
{"id": "C05", "title": "cross_gtis is order-independent n-fold intersection", "statement": "For GTI lists with pairwise distinct boundaries, a time is in the interior of cross_gtis(lists) iff it is in the interior of every list, hence the covered set does not depend on the order of the lists.", "quantifier": "every finite sequence of well-formed GTI lists", "why_tests_cant": "any number of lists in any order", "anchors": ["stingray/gti.py::cross_gtis"]}
{"id": "C06", "title": "Bad time intervals are the complement of the good ones", "statement": "For accepted gtis and start <= first start, stop >= last stop, get_btis(gtis, start, stop) and gtis together tile [start, stop]: every time in [start, stop] is covered, no GTI and BTI overlap, and the total lengths add up to stop - start. With gtis empty and no start/stop a ValueError is raised.", "quantifier": "all accepted GTI lists and all bounding start/stop times", "why_tests_cant": "needs every number of intervals and every coincidence of borders (touching GTIs, GTI at the border)", "anchors": ["stingray/gti.py::get_btis", "stingray/gti.py::get_total_gti_length"]}
{"id": "C07", "title": "Union of two GTI lists", "statement": "join_gtis(a, b) returns disjoint, strictly separated, sorted intervals covering exactly the points covered by a or b.", "quantifier": "all pairs of well-formed GTI lists", "why_tests_cant": "sweep over all interleavings and coincidences of the 4n boundaries", "anchors": ["stingray/gti.py::join_gtis"]}
{"id": "C08", "title": "Separation test is exact", "statement": "check_separate(a, b) returns True iff no interval of a overlaps an interval of b; it is symmetric. FALSE of the code when intervals only touch in the middle of the lists (reported as not separate).", "quantifier": "all pairs of well-formed GTI lists", "why_tests_cant": "quantifies over all interleavings of two lists", "anchors": ["stingray/gti.py::check_separate", "stingray/gti.py::_check_separate"]}
{"id": "C09", "title": "Appending GTIs never creates overlaps or loses good time", "statement": "append_gtis(a, b) either raises ValueError (when the lists are not separate) or returns a list whose covered set is the union and whose total exposure is the sum; the returned list passes check_gtis.", "quantifier": "all pairs of well-formed GTI lists", "why_tests_cant": "all interleavings", "anchors": ["stingray/gti.py::append_gtis", "stingray/gti.py::join_equal_gti_boundaries"]}
{"id": "C10", "title": "Merging equal boundaries does not change the good time", "statement": "join_equal_gti_boundaries(gti) covers the same times with the same total exposure, never leaves two consecutive intervals sharing a boundary, and is idempotent.", "quantifier": "every accepted GTI list", "why_tests_cant": "chains of touching intervals of any length", "anchors": ["stingray/gti.py::join_equal_gti_boundaries"]}
{"id": "C11", "title": "GTIs built from a condition cover exactly the True samples", "statement": "create_gti_from_condition(time, condition) returns intervals such that a sample bin is inside an interval iff its condition is True and its run survives the safe interval; consecutive runs are never merged or lost.", "quantifier": "all boolean arrays and time arrays of equal length", "why_tests_cant": "every run-length pattern, including runs touching either end", "anchors": ["stingray/gti.py::create_gti_from_condition", "stingray/utils.py::contiguous_regions"]}
{"id": "C12", "title": "contiguous_regions returns exactly the maximal runs of True", "statement": "The regions are sorted, disjoint, non-adjacent, non-empty half-open index ranges; index i is in a region iff condition[i] is True.", "quantifier": "all boolean arrays of any length", "why_tests_cant": "every pattern of runs", "anchors": ["stingray/utils.py::contiguous_regions"]}
{"id": "C13", "title": "Segments cut from GTIs stay inside GTIs", "statement": "Every (start, stop) returned by time_intervals_from_gtis(gtis, segment_size) has stop - start = segment_size, lies inside one GTI, and no two segments overlap (fraction_step = 1); the number of segments in each GTI is the maximum possible, up to the documented epsilon.", "quantifier": "all GTI lists, all positive segment sizes", "why_tests_cant": "any number of GTIs and any ratio between GTI length and segment size", "anchors": ["stingray/gti.py::time_intervals_from_gtis"]}
{"id": "C14", "title": "Binned segments stay inside their GTI and all have the same number of bins", "statement": "bin_intervals_from_gtis returns (start, stop) bin indices with stop - start constant, non overlapping and lying in the bins of one GTI (fraction_step=1). For fraction_step < 1 FALSE of the code: only the last start is dropped and a segment may overrun its GTI.", "quantifier": "all GTI bin ranges, all segment lengths, all step fractions", "why_tests_cant": "all ratios of lengths", "anchors": ["stingray/gti.py::calculate_segment_bin_start", "stingray/gti.py::bin_intervals_from_gtis"]}
{"id": "C15", "title": "Splitting GTIs by exposure loses nothing", "statement": "split_gtis_by_exposure / split_gtis_at_indices return lists of GTIs whose concatenation is the input list (when intervals are not cut) and whose total exposure equals the input's.", "quantifier": "all GTI lists and index lists / exposures", "why_tests_cant": "all split positions", "anchors": ["stingray/gti.py::split_gtis_at_indices", "stingray/gti.py::split_gtis_by_exposure"]}
{"id": "C16", "title": "Unbinned segment indices select exactly the events of a segment", "statement": "For sorted event times, the start/stop indices generated for a segment [s, e) select exactly the events with s <= t < e; concatenating them over the segments never counts an event twice.", "quantifier": "all sorted event arrays and all segment lists", "why_tests_cant": "repeated times, empty segments, events on the boundaries", "anchors": ["stingray/gti.py::generate_indices_of_segment_boundaries_unbinned"]}
{"id": "C17", "title": "Non-paralyzable dead time keeps a maximal dead-time-free chain", "statement": "After get_deadtime_mask / filter_for_deadtime with non-paralyzable dead time: the first event survives; consecutive survivors are at least one dead time apart (counted from the survivor's own dead time); every rejected event arrived during the dead time of an accepted event before it.", "quantifier": "all sorted event lists, constant or per-event non-negative dead times", "why_tests_cant": "acceptance depends on the whole earlier history", "anchors": ["stingray/filters.py::_nonpar_core", "stingray/filters.py::get_deadtime_mask"]}
{"id": "C18", "title": "Paralyzable dead time keeps an event iff no earlier event is too close", "statement": "With constant dead time d an event survives a paralyzable filter iff no earlier event arrived within the preceding d. With variable dead time FALSE of the code: only the immediately preceding event is examined.", "quantifier": "all sorted event lists and dead times", "why_tests_cant": "depends on the whole earlier history", "anchors": ["stingray/filters.py::_paralyzable_dead_time", "stingray/filters.py::get_deadtime_mask"]}
{"id": "C19", "title": "Dead time filtering with a background only removes events", "statement": "filter_for_deadtime returns a sublist of the source events in the original order; with zero dead time it returns the input; negative dead time raises; adding background events never makes a paralyzable-surviving set larger.", "quantifier": "all source and background event lists", "why_tests_cant": "any merge order of two event lists", "anchors": ["stingray/filters.py::get_deadtime_mask", "stingray/filters.py::filter_for_deadtime"]}
{"id": "C20", "title": "Linear rebinning is overlap-weighted and conserves the signal", "statement": "rebin_data(x, y, dx_new) with method sum: each output bin equals the sum over input bins of y times the fraction of the input bin that lies inside the output bin; the outputs sum to the part of the input covered by output bins.", "quantifier": "all evenly sampled inputs and all dx_new >= dx", "why_tests_cant": "non-integer rebin factors of any value", "anchors": ["stingray/utils.py::rebin_data"]}
{"id": "C21", "title": "Rebinned errors are propagated in quadrature", "statement": "rebin_data's error on a bin equals the square root of the overlap-weighted sum of squared input errors. FALSE of the code: it takes the square root of the sum of the errors themselves.", "quantifier": "all inputs", "why_tests_cant": "needs all error arrays; existing tests only check unit errors, for which both formulas coincide", "anchors": ["stingray/utils.py::rebin_data"]}
{"id": "C22", "title": "Logarithmic rebinning partitions the input", "statement": "rebin_data_log assigns each input sample to exactly one output bin: the reported number of samples per bin sums to the number of samples used, and each output is the mean of its samples.", "quantifier": "all inputs and all f > 0", "why_tests_cant": "any length and factor", "anchors": ["stingray/utils.py::rebin_data_log"]}
{"id": "C23", "title": "Compiled histograms conserve events and agree with the definition", "statement": "hist1d_numba_seq (and the 2-d one): bin i counts exactly the samples with bin_edge_i <= x < bin_edge_{i+1}; the total equals the number of samples in range; weights add up. The sample equal to the upper edge is excluded (numpy includes it).", "quantifier": "all sample arrays, ranges with a < b and bin numbers > 0", "why_tests_cant": "every sample value incl. the edges", "anchors": ["stingray/utils.py::_hist1d_numba_seq", "stingray/utils.py::_hist2d_numba_seq", "stingray/utils.py::compute_bin"]}
{"id": "C24", "title": "nearest_power_of_two returns a power of two, never farther than the alternatives", "statement": "nearest_power_of_two(x) is a power of two and no power of two is strictly closer to x. FALSE of the code: nearest_power_of_two(10) = 16 (it rounds up to the next power of two except at 2^k + 1), and nearest_power_of_two(1) = 2.", "quantifier": "all positive integers", "why_tests_cant": "all integers", "anchors": ["stingray/utils.py::nearest_power_of_two"]}
{"id": "C25", "title": "find_nearest returns an element at minimum distance", "statement": "For a sorted non-empty array, find_nearest(array, value) returns an element (and its index) whose distance to value is minimal.", "quantifier": "all sorted arrays and values", "why_tests_cant": "all arrays", "anchors": ["stingray/utils.py::find_nearest"]}
{"id": "C26", "title": "n-d column round trip", "statement": "make_1d_arrays_into_nd(make_nd_into_arrays(a)) gives back a. FALSE of the code when a has more than ten columns (columns are re-read in lexicographic order of their numbers).", "quantifier": "all 2-d arrays with any number of columns", "why_tests_cant": "the number of columns is unbounded", "anchors": ["stingray/utils.py::make_nd_into_arrays", "stingray/utils.py::make_1d_arrays_into_nd"]}
{"id": "C27", "title": "apply_mask keeps all arrays aligned", "statement": "Applying a boolean mask to a time series keeps element i of every array attribute together with time i, and keeps exactly the True positions in order.", "quantifier": "all masks, all sets of array attributes", "why_tests_cant": "any number of attributes and any mask", "anchors": ["stingray/base.py::StingrayObject.apply_mask"]}
{"id": "C28", "title": "Cached GTI mask is coherent", "statement": "After any sequence of reads and writes of gti and time, the mask used equals the mask of the current gti and current time. FALSE of the code: assigning gti=None or a new time array leaves a stale mask.", "quantifier": "all histories of attribute assignments and reads", "why_tests_cant": "depends on the order of accesses", "anchors": ["stingray/base.py::StingrayTimeseries.mask", "stingray/base.py::StingrayTimeseries.gti", "stingray/base.py::StingrayTimeseries.time"]}
{"id": "C29", "title": "Changing the reference MJD preserves absolute times", "statement": "change_mjdref(new) leaves mjdref + t/86400 unchanged for every time stamp and every GTI border; changing to a and then to b equals changing directly to b; changing back restores the series.", "quantifier": "all series, all sequences of MJDREF changes", "why_tests_cant": "any history of changes", "anchors": ["stingray/base.py::StingrayTimeseries.change_mjdref", "stingray/base.py::StingrayTimeseries.shift"]}
{"id": "C30", "title": "Arithmetic between series does not modify its operands", "statement": "a + b, a - b on StingrayTimeseries leaves a and b unchanged. FALSE of the code: when the GTIs differ both operands are overwritten with the filtered data.", "quantifier": "all pairs of time series", "why_tests_cant": "needs all GTI combinations", "anchors": ["stingray/base.py::StingrayTimeseries._operation_with_other_obj"]}
{"id": "C31", "title": "Indexing a time series follows Python list semantics", "statement": "ts[i] contains exactly sample i (also for negative i), ts[a:b:c] exactly the samples Python slicing selects. FALSE of the code for -1 (empty result).", "quantifier": "all indices/slices and lengths", "why_tests_cant": "all indices", "anchors": ["stingray/base.py::StingrayObject.__getitem__"]}
{"id": "C32", "title": "Splitting by GTI and joining again restores the events inside GTIs", "statement": "split_by_gti returns one series per GTI with exactly the samples inside it; concatenating all parts gives the masked series, with no sample lost or doubled when GTIs are disjoint.", "quantifier": "all series and well-formed GTI lists", "why_tests_cant": "any number of GTIs", "anchors": ["stingray/base.py::StingrayTimeseries.split_by_gti", "stingray/base.py::StingrayTimeseries.apply_gtis"]}
{"id": "C33", "title": "Sorting moves all attributes together", "statement": "sort() applies one permutation to all attributes; the result is time ordered and contains the same (time, attributes...) rows.", "quantifier": "all time series", "why_tests_cant": "any permutation, repeated times", "anchors": ["stingray/base.py::StingrayTimeseries.sort"]}
{"id": "C34", "title": "counts, count rate and their errors stay mutually consistent", "statement": "After any history of setting counts / countrate / errors and reading derived quantities: countrate = counts/dt, meancounts = mean(counts), meanrate = mean(countrate). FALSE of the code: meanrate is not refreshed when counts are assigned, and error values depend on which of counts_err, countrate_err is read first.", "quantifier": "all histories of reads and writes", "why_tests_cant": "depends on the access order", "anchors": ["stingray/lightcurve.py::Lightcurve.counts", "stingray/lightcurve.py::Lightcurve.countrate", "stingray/lightcurve.py::Lightcurve.counts_err", "stingray/lightcurve.py::Lightcurve.countrate_err", "stingray/lightcurve.py::Lightcurve.meanrate"]}
{"id": "C35", "title": "make_lightcurve counts every photon once", "statement": "Lightcurve.make_lightcurve(toa, dt, tseg, tstart): bin i counts the photons with tstart + i*dt <= t < tstart + (i+1)*dt and the sum of counts is the number of photons in the covered range.", "quantifier": "all photon lists, dt > 0, tseg, tstart", "why_tests_cant": "any photon list", "anchors": ["stingray/lightcurve.py::Lightcurve.make_lightcurve"]}
{"id": "C36", "title": "Light curve to events and back", "statement": "EventList.from_lc(lc).to_lc(lc.dt) has the same counts as lc for non-negative integer counts; the number of events equals the sum of the counts.", "quantifier": "all light curves with integer counts", "why_tests_cant": "any counts", "anchors": ["stingray/events.py::EventList.from_lc", "stingray/events.py::simple_events_from_lc"]}
{"id": "C37", "title": "Energy filters are half-open and tile", "statement": "filter_energy_range([a, b]) keeps exactly the events with a <= E < b; adjacent ranges partition the events (each event in exactly one band), so count spectra of adjacent bands add up to the total.", "quantifier": "all event lists, all increasing energy edge sequences", "why_tests_cant": "any edge list and event energies equal to edges", "anchors": ["stingray/events.py::EventList.get_energy_mask", "stingray/varenergyspectrum.py::CountSpectrum", "stingray/varenergyspectrum.py::VarEnergySpectrum._get_times_from_energy_range"]}
{"id": "C38", "title": "positive_fft_bins selects exactly the strictly positive Fourier frequencies", "statement": "For every n >= 1, slicing fftfreq(n, dt) with positive_fft_bins(n) gives exactly the strictly positive frequencies, in increasing order (and with include_zero, the non-negative ones).", "quantifier": "all n, all dt > 0", "why_tests_cant": "all n, both parities", "anchors": ["stingray/fourier.py::positive_fft_bins"]}
{"id": "C39", "title": "Normalisation and un-normalisation are inverse", "statement": "unnormalize_periodograms(normalize_periodograms(p, ...)) = p for every norm. FALSE of the code for norm='leahy' with a variance given (multiplies by the number of photons instead of the number of bins).", "quantifier": "all powers, dt, N, mean flux, photon numbers, backgrounds", "why_tests_cant": "all parameter values", "anchors": ["stingray/fourier.py::normalize_periodograms", "stingray/fourier.py::unnormalize_periodograms"]}
{"id": "C40", "title": "Poisson noise level is consistent with the normalisation", "statement": "normalize_periodograms of the pure-noise unnormalised power (= number of photons) equals poisson_level for each norm (none, abs, frac, leahy), and the norms are related by abs = frac*rate^2, leahy = frac*rate.", "quantifier": "all dt, N, photon numbers", "why_tests_cant": "all parameter values", "anchors": ["stingray/fourier.py::poisson_level", "stingray/fourier.py::normalize_periodograms", "stingray/fourier.py::normalize_frac", "stingray/fourier.py::normalize_abs", "stingray/fourier.py::normalize_leahy_poisson"]}
{"id": "C41", "title": "Averaged periodogram is the mean over usable segments", "statement": "avg_pds_from_iterable returns, for each frequency, the arithmetic mean of the unnormalised periodograms of the non-empty segments, with m equal to their number; all-zero and missing segments have no influence.", "quantifier": "all sequences of segments", "why_tests_cant": "any number and position of bad segments", "anchors": ["stingray/fourier.py::avg_pds_from_iterable"]}
{"id": "C42", "title": "The averaged auxiliary power spectra of a cross spectrum are averages", "statement": "avg_cs_from_iterables(..., return_auxil=True) returns pds1/pds2 equal to the average of the segments' normalised power spectra. FALSE of the code with use_common_mean=False: they are sums.", "quantifier": "all sequences of segment pairs", "why_tests_cant": "any number of segments", "anchors": ["stingray/fourier.py::avg_cs_from_iterables"]}
{"id": "C43", "title": "Quick and full averaged cross spectra coincide", "statement": "avg_cs_from_iterables_quick and avg_cs_from_iterables(fullspec=False, use_common_mean=True, power_type='all') return the same unnormalised cross power and m for the same segments.", "quantifier": "all sequences of segment pairs", "why_tests_cant": "two separate implementations must agree for all segment lists", "anchors": ["stingray/fourier.py::avg_cs_from_iterables_quick", "stingray/fourier.py::avg_cs_from_iterables"]}
{"id": "C44", "title": "Cross spectrum of a series with itself is its power spectrum; exchanging channels conjugates", "statement": "avg_cs_from_iterables(x, x) has real unnormalised power equal to avg_pds_from_iterable(x); avg_cs(y, x) is the complex conjugate of avg_cs(x, y).", "quantifier": "all segment lists", "why_tests_cant": "all inputs", "anchors": ["stingray/fourier.py::avg_cs_from_iterables_quick", "stingray/fourier.py::avg_pds_from_iterable"]}
{"id": "C45", "title": "Parseval: integrated fractional rms power equals the fractional variance", "statement": "For odd n, summing the frac-normalised positive-frequency powers times df gives variance/mean^2 of the segment; for even n the Nyquist term is the difference.", "quantifier": "all real series", "why_tests_cant": "every series of every length", "anchors": ["stingray/fourier.py::normalize_frac", "stingray/fourier.py::get_rms_from_rms_norm_periodogram"]}
{"id": "C46", "title": "Integrated power in a band", "statement": "integrate_power_in_frequency_range weights each frequency bin by the fraction of the bin inside the band. FALSE when the band lies inside a single bin; exact when the band touches at least two bins.", "quantifier": "all frequency grids and bands within the grid", "why_tests_cant": "any position of the band borders", "anchors": ["stingray/fourier.py::integrate_power_in_frequency_range"]}
{"id": "C47", "title": "Raw coherence lies in [0, 1]", "statement": "For a cross spectrum and power spectra averaged over the same segments with no noise subtraction, the raw coherence |C|^2/(P1 P2) is between 0 and 1 and equals 1 for a single segment.", "quantifier": "all averaged spectra", "why_tests_cant": "Cauchy-Schwarz over any number of segments", "anchors": ["stingray/fourier.py::raw_coherence"]}
{"id": "C48", "title": "Multi-trial probabilities bound the single-trial ones", "statement": "p_single <= p_multitrial_from_single_trial(p, n) <= min(1, n p); and p_single_trial_from_p_multitrial is its inverse within each numerical regime.", "quantifier": "all 0 < p < 1 and n >= 1", "why_tests_cant": "all p and n", "anchors": ["stingray/stats.py::p_multitrial_from_single_trial", "stingray/stats.py::_logp_multitrial_from_single_logp"]}
{"id": "C49", "title": "Pulsed fraction conversions are mutually inverse", "statement": "pf_from_a/a_from_pf, ssig_from_a/a_from_ssig, ssig_from_pf/pf_from_ssig are mutually inverse on their physical ranges.", "quantifier": "all amplitudes and photon numbers", "why_tests_cant": "all reals", "anchors": ["stingray/stats.py::pf_from_a", "stingray/stats.py::a_from_pf", "stingray/stats.py::ssig_from_a", "stingray/stats.py::a_from_ssig", "stingray/stats.py::ssig_from_pf", "stingray/stats.py::pf_from_ssig"]}
{"id": "C50", "title": "Classical p-value is a probability, decreasing in power", "statement": "classical_pvalue(power, nspec) is in [0, 1], equals the Poisson tail sum exp(-x) sum_{m<nspec} x^m/m! with x = power*nspec/2, is 1 at zero power and decreases with power.", "quantifier": "all non-negative powers and nspec >= 1", "why_tests_cant": "all reals/ints", "anchors": ["stingray/stats.py::classical_pvalue", "stingray/stats.py::_pavnosigfun"]}
{"id": "C51", "title": "Pulse phase is a fractional part", "statement": "pulse_phase(t, f, ...) is in [0, 1) and differs from the phase polynomial by an integer; for constant f a shift by 1/f leaves it unchanged.", "quantifier": "all times and frequency derivatives", "why_tests_cant": "all reals, incl. negative times", "anchors": ["stingray/pulse/pulsar.py::pulse_phase"]}
{"id": "C52", "title": "Period/frequency derivative conversion is an involution", "statement": "p_to_f(*p_to_f(p, pd, pdd, ...)) returns the input.", "quantifier": "all non-zero p and derivatives up to third order", "why_tests_cant": "polynomial identity over all reals", "anchors": ["stingray/pulse/pulsar.py::p_to_f"]}
{"id": "C53", "title": "Folding conserves events", "statement": "fold_events without exposure correction returns a profile summing to the number of events (weights), each event counted in the phase bin containing its phase.", "quantifier": "all event lists and numbers of bins", "why_tests_cant": "all events", "anchors": ["stingray/pulse/pulsar.py::fold_events"]}
{"id": "C54", "title": "Phase exposure is the overlap of the GTIs with each phase bin", "statement": "phase_exposure sums to the total exposure in units of the expected one, each bin's exposure being the overlap length. FALSE for GTIs starting before the reference time with the code's fmod.", "quantifier": "all GTI lists and periods", "why_tests_cant": "any number of full turns and fractional parts", "anchors": ["stingray/pulse/pulsar.py::phase_exposure"]}
{"id": "C55", "title": "Cached-harmonic Z^2 equals the defining sum", "statement": "z_n_binned_events(profile, n) equals 2/N sum_k |sum_j p_j exp(2 pi i k phi_j)|^2 with phi_j the bin centres, for every profile length and number of harmonics.", "quantifier": "all profiles, all n", "why_tests_cant": "strided look-up in a cached table must be right for all (k, j, N)", "anchors": ["stingray/pulse/pulsar.py::_z_n_fast_cached_sums_unnorm", "stingray/pulse/pulsar.py::_cached_sin_harmonics", "stingray/pulse/pulsar.py::z_n_binned_events"]}
{"id": "C56", "title": "Peak search returns one candidate per region above threshold, best first", "statement": "search_best_peaks(x, stat, threshold) returns, for each maximal run of stat >= threshold, the position of the run's maximum, sorted by decreasing stat.", "quantifier": "all statistics arrays and thresholds", "why_tests_cant": "any run pattern", "anchors": ["stingray/pulse/search.py::search_best_peaks"]}
{"id": "C57", "title": "Folding searches use every event", "statement": "With the default segment_size the folding statistic at each trial uses all the events. FALSE of the code: the last event is dropped.", "quantifier": "all event lists", "why_tests_cant": "any event list; a one-event loss is invisible at test tolerances", "anchors": ["stingray/pulse/search.py::_folding_search"]}
{"id": "C58", "title": "Dead-time rate conversions are inverse", "statement": "r_in(td, r_det(td, r)) = r for r >= 0 and r_det(td, r) < 1/td always; r_det is increasing.", "quantifier": "all rates and dead times", "why_tests_cant": "all reals", "anchors": ["stingray/deadtime/model.py::r_in", "stingray/deadtime/model.py::r_det"]}
{"id": "C59", "title": "Changing normalisation is history independent", "statement": "to_norm(a) then to_norm(b) equals to_norm(b); to_norm back to the original normalisation returns the original powers (common-mean objects).", "quantifier": "all sequences of normalisation changes", "why_tests_cant": "histories of any length", "anchors": ["stingray/crossspectrum.py::Crossspectrum.to_norm"]}
{"id": "C60", "title": "Rebinning a dynamical spectrum in time does not alter the original", "statement": "DynamicalCrossspectrum.rebin_by_n_intervals(n) returns the n-interval sums/averages and leaves the original object unchanged, so calling it twice gives the same result. FALSE of the code: the first column of each group is accumulated in place in the original matrix.", "quantifier": "all matrices, n", "why_tests_cant": "aliasing is invisible unless the object is reused", "anchors": ["stingray/crossspectrum.py::DynamicalCrossspectrum.rebin_by_n_intervals"]}
{"id": "C61", "title": "trace_maximum stays within the requested frequency range", "statement": "trace_maximum(min_freq, max_freq) returns for each time the position of a frequency in the range with the maximum power in the range. FALSE of the code when a frequency outside the range has exactly the same power.", "quantifier": "all matrices and ranges", "why_tests_cant": "all matrices", "anchors": ["stingray/crossspectrum.py::DynamicalCrossspectrum.trace_maximum"]}
{"id": "C62", "title": "Simulator channels behave as a map with unique names", "statement": "After any sequence of simulate_channel / delete_channel(s) / get_channel(s) calls, names are unique, get_channel returns the light curve stored last under the name and not deleted since; failing operations change nothing.", "quantifier": "all operation histories", "why_tests_cant": "any history", "anchors": ["stingray/simulator/simulator.py::Simulator.simulate_channel", "stingray/simulator/simulator.py::Simulator.delete_channel", "stingray/simulator/simulator.py::Simulator.get_channel"]}
{"id": "C63", "title": "Simulated light curves have the requested mean and rms", "statement": "Without extra red noise the simulated light curve has exactly the requested mean and fractional rms.", "quantifier": "all raw simulated series with non-zero variance", "why_tests_cant": "all random draws", "anchors": ["stingray/simulator/simulator.py::Simulator._extract_and_scale"]}
{"id": "C64", "title": "Impulse-response filtering keeps the light curve length", "statement": "Simulating with an impulse response h in mode 'same' returns the first N samples of the convolution, for every length of h. FALSE of the code when h has a single bin (empty light curve).", "quantifier": "all red-noise series and impulse responses", "why_tests_cant": "all lengths", "anchors": ["stingray/simulator/simulator.py::Simulator._simulate_impulse_response"]}
{"id": "C65", "title": "Reading part of an event file selects exactly the requested time range", "statement": "The file reader's index range for [start, stop) contains exactly the events with start <= t < stop, whatever the chunk structure.", "quantifier": "all sorted event times and ranges", "why_tests_cant": "all positions of the borders relative to index blocks", "anchors": ["stingray/io.py::FITSTimeseriesReader._get_idx_from_time_range"]}
{"id": "C66", "title": "split_numbers is lossless", "statement": "split_numbers(x, shift) returns integer and fractional parts whose sum is x, with the integer part integral at the given scale.", "quantifier": "all numbers and shifts", "why_tests_cant": "all reals", "anchors": ["stingray/io.py::split_numbers"]}
{"id": "C67", "title": "Phase normalisation lands in (-0.5, 0.5]", "statement": "normalize_phase_0d5(p) is in (-0.5, 0.5] and differs from p by an integer.", "quantifier": "all reals", "why_tests_cant": "all reals", "anchors": ["stingray/pulse/fftfit.py::normalize_phase_0d5"]}
{"id": "C68", "title": "Reference band never overlaps the channel of interest", "statement": "get_non_overlapping_ref_band(channel, ref) returns bands inside ref and outside channel, covering all of ref minus channel at positive energies.", "quantifier": "all channel and reference bands", "why_tests_cant": "all orderings of the borders", "anchors": ["stingray/varenergyspectrum.py::get_non_overlapping_ref_band"]}
{"id": "C69", "title": "Overlap-save convolution equals direct convolution", "statement": "ols(x, h) equals the 'same'-mode direct convolution for every block size.", "quantifier": "all signals, kernels and block sizes", "why_tests_cant": "block borders at every offset", "anchors": ["stingray/pulse/overlapandsave/ols.py::ols", "stingray/pulse/overlapandsave/ols.py::olsStep"]}
{"id": "C70", "title": "Three-dimensional compiled histograms skip samples outside the range", "statement": "hist3d_numba_seq (and the weighted one): cell (i, j, k) holds exactly the samples in bin i, j, k of the three axes, and samples outside any of the ranges are skipped. FALSE of the code for the third axis, which is never range checked: a sample below the range is counted in the last bins, one above it raises (or corrupts memory when compiled).", "quantifier": "all samples, ranges and bin numbers", "why_tests_cant": "needs samples outside the third range; existing tests draw samples inside it", "anchors": ["stingray/utils.py::_hist3d_numba_seq", "stingray/utils.py::_hist3d_numba_seq_weight"]}
{"id": "C71", "title": "Weighted histograms add the weights up", "statement": "hist1d_numba_seq_weight: each bin holds the sum of the weights of the samples in it, whatever the type of the samples. FALSE of the code for integer-typed samples: the histogram is allocated with the samples' type, so fractional weights are truncated at every addition.", "quantifier": "all samples and weights", "why_tests_cant": "depends on the dtype and on all weights", "anchors": ["stingray/utils.py::hist1d_numba_seq_weight"]}
{"id": "C72", "title": "compute_bin puts each value in its bin", "statement": "compute_bin(x, edges) for uniform edges returns k exactly when edge_k <= x < edge_{k+1} (the last bin also contains its upper edge), and None when x is outside. FALSE of the code just below the first edge, where it returns 0.", "quantifier": "all x and all uniform edges", "why_tests_cant": "every value incl. the edges", "anchors": ["stingray/utils.py::compute_bin"]}
{"id": "C73", "title": "apply_gtis returns a series with the GTIs it applied", "statement": "After apply_gtis(new_gti) the returned series has exactly the samples selected by new_gti and its GTIs are new_gti, both in place and as a copy. FALSE of the code for inplace=False: the copy keeps the old GTIs.", "quantifier": "all series, all GTI lists, both modes", "why_tests_cant": "A test compares a few objects in a few states; the claim is about every content and every history of reads and writes.", "anchors": ["stingray/base.py:apply_gtis"]}
{"id": "C74", "title": "Series that compare equal have the same content", "statement": "a == b on time series implies the same times, arrays, GTIs, reference and bin size. FALSE of the code: the sample times are never compared.", "quantifier": "all pairs of series", "why_tests_cant": "A test compares a few objects in a few states; the claim is about every content and every history of reads and writes.", "anchors": ["stingray/base.py:__eq__"]}
{"id": "C75", "title": "Equality is symmetric and independent of what has been read", "statement": "a == b equals b == a, and reading attributes of a does not change the outcome. FALSE of the code: reading the mask of a makes a == b False while b == a stays True.", "quantifier": "all pairs of series, all histories of reads", "why_tests_cant": "A test compares a few objects in a few states; the claim is about every content and every history of reads and writes.", "anchors": ["stingray/base.py:__eq__", "stingray/base.py:mask"]}
{"id": "C76", "title": "Segment sizes are fitted to whole samples", "statement": "fix_segment_size_to_integer_samples returns n*dt and n, with segment_size - dt < n*dt < segment_size + tolerance*dt, and leaves a segment size that is a whole number of samples unchanged.", "quantifier": "every segment size, sampling time > 0 and tolerance > 0", "why_tests_cant": "A test checks a few ratios; the bounds concern every ratio, including those at the rounding boundary.", "anchors": ["stingray/utils.py:fix_segment_size_to_integer_samples"]}
{"id": "C77", "title": "Suggested bin times are compatible with the event list", "statement": "EventList.suggest_compatible_dt returns a whole number, at least 1, of the list's own time resolution (unless already close to it or no resolution is set), within half a resolution of the request.", "quantifier": "every resolution and requested bin time", "why_tests_cant": "The rounding cases form a continuum.", "anchors": ["stingray/events.py:EventList.suggest_compatible_dt"]}
{"id": "C78", "title": "Joining light curves", "statement": "Lightcurve.join yields each time of either light curve exactly once, with the average of both counts at common times and unchanged samples elsewhere, in time order.", "quantifier": "every pair of light curves without repeated times", "why_tests_cant": "How the two time grids interleave is unbounded.", "anchors": ["stingray/lightcurve.py:Lightcurve.join"]}
{"id": "C79", "title": "Integrated rms is the fractional standard deviation", "statement": "The rms obtained by integrating a noise-free averaged power spectrum in fractional rms normalisation over all its frequencies is the square root of the mean variance divided by the mean flux (odd number of samples per segment); computing it from the un-normalised powers gives the same value as normalising first.", "quantifier": "all lists of segments of equal odd length with non-zero mean, all sampling times, noise levels and photon numbers", "why_tests_cant": "tests compare with simulated light curves within statistical tolerance; the identity holds exactly for every data set", "anchors": ["stingray/fourier.py::get_rms_from_rms_norm_periodogram", "stingray/fourier.py::get_rms_from_unnorm_periodogram"]}
{"id": "C80", "title": "Multi-trial probability is monotone", "statement": "A larger single-trial probability or a larger number of trials never gives a smaller multi-trial probability. FALSE of the code across the switch from the Bonferroni approximation to the exact formula.", "quantifier": "all probabilities in (0, 1] and numbers of trials", "why_tests_cant": "tests sample a few probabilities; the inversion sits in a narrow strip", "anchors": ["stingray/stats.py::p_multitrial_from_single_trial"]}
{"id": "C81", "title": "Z^2 does not depend on the phase origin", "statement": "Adding a constant (and any integers) to all phases leaves z_n_events unchanged; rotating a profile leaves z_n_binned_events unchanged; Z^2_n is non-negative and non-decreasing in n.", "quantifier": "all phases, profiles, rotations, numbers of harmonics", "why_tests_cant": "Tests rotate one profile; the claim holds for every profile, shift and harmonic, and depends on the modular indexing of the cached table.", "anchors": ["stingray/pulse/pulsar.py::z_n_events_all", "stingray/pulse/pulsar.py::z_n_binned_events_all"]}
{"id": "C82", "title": "H test maximises over the number of harmonics", "statement": "htest(data, nmax) returns the smallest m in 1..nmax maximising Z^2_m - 4m + 4 together with that maximum, for each kind of data; missing errors and unknown kinds raise.", "quantifier": "all data, kinds of data, nmax", "why_tests_cant": "Ties and positions of the maximum form an infinite family.", "anchors": ["stingray/pulse/pulsar.py::htest"]}
{"id": "C83", "title": "Epoch folding statistic is a chi square against the flat profile", "statement": "ef_profile_stat is non-negative, vanishes exactly for flat profiles and does not depend on the order of the bins.", "quantifier": "all profiles and errors", "why_tests_cant": "Universally quantified over real profiles.", "anchors": ["stingray/pulse/pulsar.py::ef_profile_stat"]}
{"id": "C84", "title": "A transfer function's time response averages all energies, its energy response all times", "statement": "TransferFunction.time_response() with no arguments is the mean of the table over all its energies at each time, and energy_response() the mean over all its times at each energy; a sub-range of energies selects the rows of those energies.", "quantifier": "every table with at least 2 rows and 2 columns, every initial energy and energy step", "why_tests_cant": "The default stop index is taken from the number of columns but applied to rows, so the answer depends on the shape of the table; tests use one shape.", "anchors": ["stingray/simulator/transfer.py:TransferFunction.time_response", "stingray/simulator/transfer.py:TransferFunction.energy_response"]}
{"id": "C85", "title": "get_channels returns the requested light curves", "statement": "Simulator.get_channels(names) returns exactly the light curves stored under the requested names.", "quantifier": "every history of the channel store and every list of names, in any order and with repetitions or unknown names", "why_tests_cant": "The result depends on the order of storage and not of the request; a test with names in storage order cannot tell.", "anchors": ["stingray/simulator/simulator.py:Simulator.get_channels"]}
{"id": "C86", "title": "A simple impulse response has the requested delay, width and height", "statement": "simple_ir(dt, start, width, intensity) is zero for the bins before start, then equals intensity for the bins in width; a delta response can be made with width=1.", "quantifier": "every bin time, start, width and intensity", "why_tests_cant": "Bin counts come from truncated divisions by dt; tests use a single dt.", "anchors": ["stingray/simulator/transfer.py:simple_ir", "stingray/simulator/simulator.py:Simulator.simple_ir"]}
{"id": "C87", "title": "Parts of an event file have events inside their own GTIs", "statement": "When an event file is read in parts (by number of samples, by exposure or by time intervals), the event times of each part lie within the good time intervals of that part.", "quantifier": "every sorted event file, every TIMEZERO, every list of GTIs within the file", "why_tests_cant": "The times are shifted by TIMEZERO and the GTIs are not; only a file with a non-zero TIMEZERO shows it.", "anchors": ["stingray/io.py:FITSTimeseriesReader.apply_gti_lists", "stingray/io.py:FITSTimeseriesReader.transform_slice"]}
{"id": "C88", "title": "Channels are converted to the mid energies of the response file", "statement": "pi_to_energy returns, for every event in order, the middle of the energy range of its channel in the response file, and 0 for channels not listed.", "quantifier": "every response file without repeated channels and every list of channels", "why_tests_cant": "The conversion is a loop of masked assignments; a property of all channel lists.", "anchors": ["stingray/io.py:pi_to_energy"]}
{"id": "C89", "title": "The common part of two file names", "statement": "common_name(a, b) does not depend on the order of the names, is a common subsequence of both or the default, and has no leading or trailing underscores or dashes.", "quantifier": "every pair of names and default", "why_tests_cant": "Stripping is done in a fixed order of characters; only some combinations of trailing characters show the difference.", "anchors": ["stingray/io.py:common_name"]}
{"id": "C90", "title": "Header keywords split in two parts are read without loss", "statement": "high_precision_keyword_read returns the value of a keyword, or the exact sum of its I and F parts (also for 8-letter keywords), or None.", "quantifier": "every header, keyword and value", "why_tests_cant": "A round trip over all values and shifts.", "anchors": ["stingray/io.py:high_precision_keyword_read", "stingray/io.py:split_numbers"]}
{"id": "C91", "title": "Count spectra count every event once", "statement": "CountSpectrum gives for each band the number of events with energy (or PI channel with use_pi) at or above the lower edge and below the upper one, with its square root as uncertainty; for edges in order the counts add up to the number of events between the first and the last edge.", "quantifier": "all event lists, all edges", "why_tests_cant": "events on edges, repeated edges and arbitrary lists", "anchors": ["stingray/varenergyspectrum.py::CountSpectrum", "stingray/varenergyspectrum.py::VarEnergySpectrum._get_times_from_energy_range"]}
{"id": "C92", "title": "Each energy band of a spectral-timing product depends on its own events only", "statement": "The value of RmsSpectrum, LagSpectrum and CovarianceSpectrum in a band is the timing analysis of the events of that band (selected by energy, or PI channel with use_pi) and of the reference bands; events elsewhere do not change it, and skipped bands are NaN.", "quantifier": "all event lists, bands, reference bands and analyses", "why_tests_cant": "independence of all other events and bands", "anchors": ["stingray/varenergyspectrum.py::RmsSpectrum._spectrum_function", "stingray/varenergyspectrum.py::LagSpectrum._spectrum_function", "stingray/varenergyspectrum.py::ComplexCovarianceSpectrum._spectrum_function"]}
{"id": "C93", "title": "Energy band specifications", "statement": "An energy specification (lo, hi, n, 'lin' or 'log') gives n + 1 strictly increasing edges from lo to hi with a constant difference or ratio; another word raises ValueError.", "quantifier": "all lo < hi (positive for log), all n >= 1, all words", "why_tests_cant": "all real limits and numbers of bands", "anchors": ["stingray/varenergyspectrum.py::_decode_energy_specification"]}
{"id": "C94", "title": "Rms amplitudes do not depend on the unit of time", "statement": "Expressing times in another unit multiplies the absolute rms of a band and its uncertainty by the same factor.", "quantifier": "all powers, noise levels and factors", "why_tests_cant": "all factors", "anchors": ["stingray/varenergyspectrum.py::RmsSpectrum._spectrum_function"]}
{"id": "C95", "title": "Excess variance spectra contain the excess variance of each band", "statement": "ExcessVarianceSpectrum stores in each band the excess variance of the light curve of the events of the band.", "quantifier": "all event lists and bands", "why_tests_cant": "all event lists", "anchors": ["stingray/varenergyspectrum.py::ExcessVarianceSpectrum"]}
{"id": "C96", "title": "Total exposure of a GTI list", "statement": "get_total_gti_length(gti, minlen) is the sum of the lengths of the GTIs at least minlen long; with the default it is the whole exposure, is never negative for accepted lists, and does not grow with minlen.", "quantifier": "all GTI lists and minimum lengths", "why_tests_cant": "all lists and border cases of the minimum length", "anchors": ["stingray/gti.py::get_total_gti_length", "stingray/gti.py::get_gti_lengths"]}
{"id": "C97", "title": "A posterior is prior times likelihood", "statement": "The log-posterior returned for some parameters is the sum of the logarithms of the prior densities of the parameters that are not fixed and of the log-likelihood; where a prior density vanishes it is the documented large negative number whatever the data; neg=True gives exactly the negative; a missing prior and a wrong number of parameters raise.", "quantifier": "all models, priors, parameter values and likelihood values", "why_tests_cant": "all parameter values, including those where a prior vanishes", "anchors": ["stingray/modeling/posterior.py::set_logprior", "stingray/modeling/posterior.py::Posterior.logposterior"]}
{"id": "C98", "title": "Evaluating a likelihood has no memory", "statement": "The value of a likelihood for some parameters does not depend on what was evaluated before with the same model object, by this likelihood or another one, with the right or the wrong number of parameters; fixed parameters and bounds are never changed.", "quantifier": "all models, all sequences of evaluations", "why_tests_cant": "all histories of a shared, mutable model object", "anchors": ["stingray/modeling/posterior.py::LogLikelihood.__call__", "stingray/modeling/posterior.py::PSDLogLikelihood.evaluate", "stingray/modeling/posterior.py::GaussianLogLikelihood.evaluate"]}
{"id": "C99", "title": "No model is more likely than the data", "statement": "Each likelihood (periodogram, Gaussian, Poisson, Laplace) is largest for the model whose values equal the data, whatever the number of averaged spectra; a model that is not positive gets the documented large negative number.", "quantifier": "all data, models, uncertainties and numbers of averaged spectra", "why_tests_cant": "an inequality over all models", "anchors": ["stingray/modeling/posterior.py::PSDLogLikelihood.evaluate", "stingray/modeling/posterior.py::GaussianLogLikelihood.evaluate", "stingray/modeling/posterior.py::PoissonLogLikelihood.evaluate", "stingray/modeling/posterior.py::LaplaceLogLikelihood.evaluate"]}
{"id": "C100", "title": "The periodogram likelihood is the density of the powers", "statement": "Up to a constant independent of the model, PSDLogLikelihood is the logarithm of the density of the powers, averages of m exponentially distributed powers; it does not matter whether m is given as a number or as an array of equal numbers.", "quantifier": "all powers, positive models and numbers m of averaged spectra", "why_tests_cant": "all m, powers and models", "anchors": ["stingray/modeling/posterior.py::PSDLogLikelihood.evaluate"]}
{"id": "C101", "title": "Posteriors of models with tied parameters", "statement": "A PSDPosterior has a value exactly for parameter lists of the length it documents (npar), also for models with tied parameters.", "quantifier": "all models, with fixed and tied parameters, and all parameter lists", "why_tests_cant": "all combinations of fixed and tied parameters", "anchors": ["stingray/modeling/posterior.py::PSDPosterior", "stingray/modeling/posterior.py::set_logprior"]}
{"id": "C102", "title": "Information criteria", "statement": "The deviance of a fit is minus twice the log-likelihood, the AIC is the deviance plus twice the number of parameters, and the BIC is the deviance plus the number of parameters times the logarithm of the number of data.", "quantifier": "all fits", "why_tests_cant": "all values of the likelihood and numbers of parameters", "anchors": ["stingray/modeling/parameterestimation.py::OptimizationResults._compute_criteria"]}
{"id": "C103", "title": "What a fit returns", "statement": "A fit tries the optimizer at most 21 times, returns the first acceptable result and raises RuntimeError if there is none; the bounds of the parameters are respected by methods that support them, and parameters that are forbidden by the prior or the model are never returned.", "quantifier": "all outcomes of the runs of the optimizer, all bounds and methods", "why_tests_cant": "all sequences of outcomes of a random, external optimizer", "anchors": ["stingray/modeling/parameterestimation.py::ParameterEstimation.fit"]}
{"id": "C104", "title": "p-values by simulation", "statement": "The p-value is the fraction of successful simulations above the observed value; it is between 0 and 1 and does not increase with the observed value.", "quantifier": "all observed values and simulations, including those whose fit failed", "why_tests_cant": "all sets of simulations", "anchors": ["stingray/modeling/parameterestimation.py::ParameterEstimation._compute_pvalue", "stingray/modeling/parameterestimation.py::PSDParEst.simulate_lrts"]}
{"id": "C105", "title": "Highest outlier of a periodogram", "statement": "The highest outlier of a fit is the largest ratio of data to model, with the first index at which it is reached and the frequency of that index.", "quantifier": "all data and models", "why_tests_cant": "all data, with ties", "anchors": ["stingray/modeling/parameterestimation.py::PSDParEst._compute_highest_outlier"]}
{"id": "C106", "title": "Normalisations refuse exactly what they cannot compute, and power types are parts of the same powers", "statement": "normalize_periodograms raises ValueError exactly for an unknown norm, an unknown power_type or a Leahy norm with zero variance; power_type 'real' and 'abs' return the real parts and moduli of what 'all' returns; poisson_level raises ValueError exactly for an unknown norm or when the rate (abs, frac) or photon number (none) it needs is missing.", "quantifier": "all powers, norms, power types and parameters", "why_tests_cant": "all combinations of parameters and powers", "anchors": ["stingray/fourier.py::normalize_periodograms", "stingray/fourier.py::poisson_level", "stingray/fourier.py::normalize_leahy_from_variance"]}
{"id": "C107", "title": "A cross correlation is the sum of products at each lag", "statement": "CrossCorrelation(lc1, lc2).corr at the lag d*dt is the sum of the products of mean-subtracted counts over all pairs of bins at distance d, the time lags are the consecutive multiples of dt of each mode, time_shift is the lag of the maximum, and exchanging the light curves reverses the correlation and negates the lags. Unknown modes and different bin times are refused.", "quantifier": "all pairs of light curves (of the same length in mode 'same') and modes", "why_tests_cant": "all lengths and counts", "anchors": ["stingray/crosscorrelation.py::CrossCorrelation", "stingray/crosscorrelation.py::CrossCorrelation.cal_timeshift"]}
{"id": "C108", "title": "Autocorrelations peak at zero lag", "statement": "AutoCorrelation(lc) is symmetric in the lag, is largest at lag zero only and has time_shift 0. FALSE of the code for constant light curves; and the construction of a cross correlation changes the dt of its first argument.", "quantifier": "all light curves and modes", "why_tests_cant": "all lengths and counts", "anchors": ["stingray/crosscorrelation.py::AutoCorrelation", "stingray/crosscorrelation.py::CrossCorrelation._make_corr"]}
{"id": "C109", "title": "Variance-normalised correlations are between -1 and 1", "statement": "With norm='variance' the correlation lies in [-1, 1] and is 1 for a light curve with itself at lag zero, after removing the variance due to the errors. FALSE of the code for light curves of different lengths and for unequal errors (it subtracts the squared mean error instead of the mean squared error).", "quantifier": "all pairs of light curves", "why_tests_cant": "Cauchy-Schwarz over all lengths and lags", "anchors": ["stingray/crosscorrelation.py::CrossCorrelation._make_corr"]}
{"id": "C110", "title": "Correlations from cross spectra have the lags of the inverse transform", "statement": "CrossCorrelation(cross=cs) reports for each value of the inverse transform the lag at which it was taken. FALSE of the code unless the number of powers equals cs.n and mode='same'.", "quantifier": "all cross spectra and modes", "why_tests_cant": "all numbers of powers, resolutions and powers", "anchors": ["stingray/crosscorrelation.py::CrossCorrelation._make_cross_corr"]}
{"id": "C111", "title": "Truncating keeps exactly the requested range", "statement": "truncate(start, stop, method='time') returns the samples with start <= time < stop, with all their columns, and its GTIs cover exactly the part of the old GTIs inside that range; an inverted or empty range is refused.", "quantifier": "every time series with sorted times and well-formed GTIs, every start and stop, given or not, including 0 and values outside of the data", "why_tests_cant": "Boundaries coinciding with samples, start = 0 (falsy in Python) and ranges cutting GTIs form an unbounded family of inputs; tests use a few positive times.", "anchors": ["stingray/base.py:StingrayTimeseries.truncate", "stingray/base.py:StingrayTimeseries._truncate_by_index", "stingray/base.py:StingrayTimeseries._truncate_by_time"]}
{"id": "C112", "title": "Slices of light curves are Python slices of their bins", "statement": "lc[a:b:c] contains exactly the bins Python slicing selects from its arrays, with their counts and errors, for every a, b and c that slicing accepts.", "quantifier": "every light curve and every start, stop and step, positive or negative, inside or outside of the data", "why_tests_cant": "Out-of-range stops and negative steps have special rules in Python; the tests only slice inside of the data with positive steps.", "anchors": ["stingray/lightcurve.py:Lightcurve.__getitem__"]}
{"id": "C113", "title": "Light curve arithmetic combines the bins in the common GTIs", "statement": "lc1 + lc2 (and -) has exactly the bins inside GTIs of both light curves, each with the sum (difference) of the two counts and, for equal error distributions, the two errors added in quadrature; a second light curve with another MJDREF is converted first; the result can be used as an operand again and -(-lc) is lc.", "quantifier": "every pair of light curves with the same bins, every choice of GTIs, references, errors and error distributions, and every chain of operations", "why_tests_cant": "Chains of operations and combinations of GTIs are unbounded; tests add two light curves once, with a single GTI.", "anchors": ["stingray/lightcurve.py:Lightcurve._operation_with_other_obj", "stingray/lightcurve.py:Lightcurve.__add__", "stingray/lightcurve.py:Lightcurve.__sub__", "stingray/lightcurve.py:Lightcurve.__neg__"]}
{"id": "C114", "title": "Rebinning works GTI by GTI and conserves counts", "statement": "rebin(dt_new) refuses bin times shorter than the present one and light curves without a GTI as long as a new bin; otherwise the new GTIs are the old ones at least one new bin long, the new bins are those of rebin_data applied to the bins of each GTI, no bin mixes two GTIs, and where the bins of each GTI fill a whole number of new bins the sum of the counts in them does not change.", "quantifier": "every light curve with sorted times, every list of GTIs, every new bin time or factor", "why_tests_cant": "Partial bins at the ends of each of arbitrarily many GTIs cannot be enumerated.", "anchors": ["stingray/lightcurve.py:Lightcurve.rebin", "stingray/base.py:StingrayTimeseries.rebin", "stingray/utils.py:rebin_data"]}
{"id": "C115", "title": "Splitting at gaps yields the maximal gap-free runs", "statement": "split(min_gap) separates a light curve exactly where consecutive bins are at least min_gap apart: every piece is a maximal run of bins with smaller distances, every bin is in a piece and the pieces are disjoint.", "quantifier": "every light curve with increasing times and at least two bins, every min_gap", "why_tests_cant": "The number and the positions of the gaps are unbounded, with gaps at the first or last bin as boundary cases.", "anchors": ["stingray/lightcurve.py:Lightcurve.split", "stingray/base.py:StingrayTimeseries.split_by_gti"]}
{"id": "C116", "title": "Merging any number of GTI lists", "statement": "merge_gtis ignores lists that are None or empty; 'union' covers exactly the times in some list, 'intersection' exactly those in all (None if there are none), 'infer' is the intersection if there is common good time and the union otherwise, 'append' covers the union and keeps the total exposure, 'none' is the hull of all the borders.", "quantifier": "every number of GTI lists, of every length, and every strategy", "why_tests_cant": "The number of lists and of intervals is unbounded; tests merge two or three short lists.", "anchors": ["stingray/gti.py:merge_gtis"]}
{"id": "C117", "title": "Joining time series keeps every sample once, with its attributes", "statement": "Joining (`join`) a time series with others gives a series with the samples of all of them, each once and sorted by time, with every attribute kept next to its sample (NaN where a series has not got the attribute), expressed in the MJD reference of the first, with the GTIs of the strategy chosen; it ignores empty series, does not change its arguments, and its good-time mask agrees with its GTIs.", "quantifier": "every time series, every list of other series, every strategy, every set of attributes", "why_tests_cant": "The tests join two or three fixed series. Whether a sample can be lost, duplicated or separated from its attributes depends on the order of all times, ties included, and on which attributes each operand has.", "anchors": ["stingray/base.py:StingrayTimeseries._join_timeseries", "stingray/base.py:StingrayTimeseries.join"]}
{"id": "C118", "title": "Likelihoods are the logarithms of their densities", "statement": "The Gaussian, Poisson and Laplace log-likelihoods are the sums over the data of the logarithms of the normal density (mean: the model, standard deviation: the error), of the Poisson probability (mean: the model) and of the Laplace density (centre: the model, scale: the error); data with an error that is not positive give the value of impossible parameters.", "quantifier": "all data, errors and models", "why_tests_cant": "The tests compare with numbers computed by the same formula for one data set; constants and factors matter for posteriors and model comparison on every data set.", "anchors": ["stingray/modeling/posterior.py:GaussianLogLikelihood.evaluate", "stingray/modeling/posterior.py:PoissonLogLikelihood.evaluate", "stingray/modeling/posterior.py:LaplaceLogLikelihood.evaluate"]}
{"id": "C119", "title": "The segments fed to Fourier analysis contain every event of the segment once", "statement": "When an event list or a light curve is cut into segments for averaged spectra (get_flux_iterable_from_segments, with a segment size), there is one item per whole segment inside of the good time intervals; its n_bin counts are the numbers of events in the n_bin equal bins of the segment, add up to the number of events in the segment, and nothing outside of the GTIs contributes; for binned series the item is the run of samples in the segment. The average count rate is the number of events in the segments divided by their total length.", "quantifier": "all sorted event times, all GTI lists, all segment sizes and numbers of bins, all light curves", "why_tests_cant": "which events fall in which segment and bin depends on the relation of arbitrary times, GTI borders and bin borders; a test sees a few", "anchors": ["stingray/fourier.py:get_flux_iterable_from_segments", "stingray/fourier.py:get_average_ctrate"]}
{"id": "C120", "title": "Shift-and-add aligns spectra at the reference frequency", "statement": "shift_and_add(freqs, power_list, f0_list, nbins, M) returns nbins bins; each is the weighted mean of the powers at the same distance in bins from the reference frequency of each spectrum, over those spectra that reach that far, with the sum of their weights as count; the frequencies are spaced by the resolution, centred on the mean reference frequency, and label each power by its distance from the reference frequency.", "quantifier": "all frequency grids, numbers of spectra, powers, weights, reference frequencies and numbers of bins", "why_tests_cant": "the clipping at both ends of the spectrum depends on the reference frequency and number of bins; off-by-one errors only show in particular combinations of them", "anchors": ["stingray/fourier.py:shift_and_add", "stingray/fourier.py:_shift_and_average_core", "stingray/fourier.py:_safe_array_slice_indices"]}
{"id": "C121", "title": "Detection levels are the thresholds of the reported probabilities", "statement": "For epoch folding, Z^2_n, phase dispersion and power spectra, the detection level for a false-alarm probability epsilon in ntrial trials is the value whose reported probability (same bins, harmonics, summed spectra, rebinning, trials) is epsilon; more extreme statistics have a false-alarm probability of at most epsilon. A single-trial probability decreases with the statistic, classical_pvalue agrees with pds_probability, and the logarithmic versions are defined wherever the probabilities are and give their logarithms.", "quantifier": "all epsilon in (0, 1), numbers of trials, bins, harmonics, samples, summed spectra and rebinning factors, all values of the statistic", "why_tests_cant": "an identity between two functions of a continuous probability and several integers, one of which switches between two formulas", "anchors": ["stingray/stats.py:fold_detection_level", "stingray/stats.py:fold_profile_probability", "stingray/stats.py:z2_n_detection_level", "stingray/stats.py:z2_n_probability", "stingray/stats.py:pds_detection_level", "stingray/stats.py:pds_probability", "stingray/stats.py:phase_dispersion_detection_level", "stingray/stats.py:classical_pvalue", "stingray/stats.py:chi2_logp"]}
{"id": "C122", "title": "Segment-by-segment analysis calls the function with exactly the data of each segment", "statement": "analyze_segments(func, segment_size) calls the function once per segment inside of the good time intervals, in order of time, with exactly the samples of that segment, and returns the start and stop times of the segments and the value for each segment at the same position; without a segment size, one call per GTI; functions with several outputs give one list per output.", "quantifier": "all event lists and binned series, GTIs, segment sizes, steps and functions", "why_tests_cant": "whether values and times stay aligned depends on which segments happen to have few samples", "anchors": ["stingray/base.py:StingrayTimeseries.analyze_segments"]}
{"id": "C123", "title": "An estimated segment size leaves enough counts in every segment", "statement": "estimate_segment_size(min_counts, min_samples) returns the first size, in steps of the sampling time, not less than min_samples steps, for which every segment has at least min_counts counts; either of the two arguments may be left out; it terminates.", "quantifier": "all series, GTIs, minimum counts and samples", "why_tests_cant": "the search is an unbounded loop over sizes, and its exit depends on the counts in all segments", "anchors": ["stingray/base.py:StingrayTimeseries.estimate_segment_size", "stingray/base.py:_ts_sum"]}
{"id": "C124", "title": "Each column of a dynamical spectrum is the spectrum at its time", "statement": "The matrix of a dynamical power spectrum has one column per time, and the column at position i is the power spectrum of the data of the segment whose middle is time[i].", "quantifier": "all event lists, GTIs, segment sizes and numbers of bins", "why_tests_cant": "the times are computed from the GTIs and the columns from the data; whether they match depends on which segments have data", "anchors": ["stingray/powerspectrum.py:DynamicalPowerspectrum._make_matrix", "stingray/fourier.py:avg_pds_from_iterable"]}
{"id": "C125", "title": "Rebinning a dynamical spectrum averages over exactly the new bins", "statement": "rebin_time and rebin_frequency give, for every new bin, the mean (or sum) of the old powers weighted with their overlap with the new bin, at the middle of the new bin, with m the number of spectra averaged; finer resolutions are refused.", "quantifier": "all matrices, time and frequency grids, new resolutions and methods", "why_tests_cant": "a property of all matrices and all ratios of resolutions", "anchors": ["stingray/crossspectrum.py:DynamicalCrossspectrum.rebin_time", "stingray/crossspectrum.py:DynamicalCrossspectrum.rebin_frequency"]}
{"id": "C126", "title": "Binning an event list counts each event once, and sums attributes", "statement": "to_binned_timeseries(dt) gives the whole bins of length dt between the first and last good time; counts is the number of events in each bin, and each array attribute the sum of its values over the events of the bin.", "quantifier": "all event lists, GTIs, bin times and attributes", "why_tests_cant": "ranges over all event times relative to the bin edges, including those on an edge", "anchors": ["stingray/events.py:EventList.to_binned_timeseries", "stingray/base.py:StingrayTimeseries"]}
{"id": "C127", "title": "Iterating over light curves covers every segment and counts every event once", "statement": "to_lc_iter(dt, segment_size) yields one light curve per segment (or per GTI), in order, whose counts are the numbers of events in each of its bins; no event is counted in two light curves.", "quantifier": "all event lists, GTIs, bin times and segment sizes", "why_tests_cant": "depends on the relation of all the event times to all the segment borders, and on the remainder of segment size and bin time", "anchors": ["stingray/events.py:EventList.to_lc_iter", "stingray/gti.py:generate_indices_of_boundaries"]}
{"id": "C128", "title": "Colour and intensity evolution describe each segment", "statement": "get_color_evolution and get_intensity_evolution return, for each segment, the ratio of events in the two energy ranges and the rate in the energy range, with their errors; a colour has no value exactly when there are no events in one of the ranges.", "quantifier": "all event lists, energy ranges, GTIs and segment sizes", "why_tests_cant": "all distributions of events over segments and energies, including empty ones", "anchors": ["stingray/events.py:EventList.get_color_evolution", "stingray/events.py:EventList.get_intensity_evolution", "stingray/base.py:StingrayTimeseries.analyze_segments"]}
{"id": "C129", "title": "Power colours are ratios of the band powers", "statement": "power_color returns the power in the first band divided by that in the third, and that of the second divided by that of the fourth; they do not depend on the normalisation; excluded frequencies do not influence them; the input is not modified; edges out of range are refused.", "quantifier": "all spectra, edges, excluded ranges and noise levels", "why_tests_cant": "all positions of the edges and of the excluded ranges relative to the frequency bins", "anchors": ["stingray/power_colors.py:power_color", "stingray/fourier.py:integrate_power_in_frequency_range"]}
{"id": "C130", "title": "The hue is one angle per direction in the colour plane", "statement": "hue_from_power_color gives an angle in one turn (from -45 degrees included to 315 excluded), clockwise from the 135 degree direction, that depends only on the direction of the colours from the centre, in logarithms; angles are brought to [0, 360) by whole turns.", "quantifier": "all pairs of positive colours and centres, all angles", "why_tests_cant": "a property of all points of the plane; the loops must end for all angles", "anchors": ["stingray/power_colors.py:hue_from_power_color", "stingray/power_colors.py:hue_from_logpower_color", "stingray/power_colors.py:_limit_angle_to_360"]}
{"id": "C131", "title": "The intrinsic coherence solves its equation", "statement": "estimate_intrinsic_coherence returns the coherence g with g (P1-N1)(P2-N2) = |C|^2 - bias(g), to within the tolerance of 0.01; it is never negative above the noise; above 500 averages no bias is subtracted.", "quantifier": "all cross powers, powers, noise levels and numbers of averages", "why_tests_cant": "convergence of an iteration for all inputs", "anchors": ["stingray/fourier.py:estimate_intrinsic_coherence", "stingray/fourier.py:bias_term"]}
{"id": "C132", "title": "Errors of cross spectra and covariance are consistent", "statement": "error_on_averaged_cross_spectrum gives errors whose squares for real and imaginary part add up to that of the modulus, exist whenever |C|^2 <= P1 P2, and a phase error equal to the error of the modulus divided by the modulus; it warns for fewer than 30 averages only; cross_to_covariance gives the phase of the cross power and the rms of the correlated part.", "quantifier": "all cross powers, powers, noise levels and numbers of averages", "why_tests_cant": "relations between outputs, and absence of missing values, for all inputs", "anchors": ["stingray/fourier.py:error_on_averaged_cross_spectrum", "stingray/fourier.py:cross_to_covariance"]}
{"id": "C133", "title": "Window functions are symmetric windows of the requested length", "statement": "create_window(N, type) returns N values that are the same read backwards, between 0 and 1 (other than flat-top windows), with the value 1 in the middle of an odd number of samples; unknown types are refused.", "quantifier": "all lengths and window types", "why_tests_cant": "ranges over all lengths, odd and even", "anchors": ["stingray/utils.py:create_window"]}
{"id": "C134", "title": "Excess variance and standard errors", "statement": "excess_variance gives the variance minus the mean squared error, its value over the squared mean, or the root of that, with consistent errors, whatever the unit of the counts; standard_error gives the standard error of the mean.", "quantifier": "all light curves, errors and normalisations", "why_tests_cant": "relations between three normalisations, and absence of missing values, for all data", "anchors": ["stingray/utils.py:excess_variance", "stingray/utils.py:standard_error"]}
{"id": "C135", "title": "Energy ranges with equal counts", "statement": "equal_count_energy_ranges(energies, n) returns n + 1 non-decreasing edges from the lower to the upper limit, such that the numbers of energies in the ranges differ by at most one.", "quantifier": "all lists of energies, numbers of ranges and limits", "why_tests_cant": "all lists, with and without equal energies", "anchors": ["stingray/utils.py:equal_count_energy_ranges"]}
{"id": "C136", "title": "Third-order cumulants are the mean triple products at each pair of lags", "statement": "The third-order cumulant a Bispectrum reports at a pair of lags is the sum over time of the products of the mean-subtracted counts at a time and at the two lags from it, divided by the number of samples (biased) or by the number of times at which the three samples were all observed (unbiased). It does not depend on the order of the lags, on which of the three samples they are counted from, or on a constant added to the counts. A largest lag is taken in absolute value, defaults to half the length, and is refused if it exceeds the length.", "quantifier": "for all light curves, largest lags, scales and pairs of lags", "why_tests_cant": "the Toeplitz construction and the scaling matrix must be right for every length and every pair of lags; tests compare a few entries", "anchors": ["stingray/bispectrum.py:Bispectrum._cumulant3", "stingray/bispectrum.py:Bispectrum._normalize_cumulant3", "stingray/bispectrum.py:Bispectrum._make_bispetrum"]}
{"id": "C137", "title": "Lags, frequencies and window of a bispectrum", "statement": "The lags of a bispectrum are the multiples of the time step from minus to plus the largest lag; each frequency label is the frequency of its row of the transform; the two-dimensional window has the symmetries of the cumulant it multiplies.", "quantifier": "for all largest lags, time steps, rows and windows", "why_tests_cant": "a relation between labels and transform, and symmetries, over all sizes", "anchors": ["stingray/bispectrum.py:Bispectrum._cal_bispec", "stingray/bispectrum.py:Bispectrum._get_window", "stingray/bispectrum.py:Bispectrum._cumulant3"]}
{"id": "C138", "title": "Splitting good time intervals by exposure respects large gaps and the requested exposure", "statement": "find_large_bad_time_intervals returns the midpoints of exactly the gaps longer than the limit. The chunks that split_gtis_by_exposure returns never hold more than one and a half times the requested exposure before their last interval, and less than the mean exposure of a chunk when there are at least two. With new_interval_if_gti_sep no chunk has intervals on both sides of a gap longer than that separation, and together the chunks still cover the same times with the same exposure.", "quantifier": "every list of ordered good time intervals, every positive exposure per chunk, every non-negative separation and every rounding to a nearest integer", "why_tests_cant": "The cuts depend on cumulative exposure and on gap midpoints for arbitrary lists of intervals; tests only try a few lists.", "anchors": ["stingray/gti.py: find_large_bad_time_intervals", "stingray/gti.py: split_gtis_by_exposure", "stingray/gti.py: split_gtis_at_indices"]}
{"id": "C139", "title": "Filling bad time intervals keeps the good data and simulates only inside short gaps", "statement": "fill_bad_time_intervals returns a time-ordered series made of exactly the good samples with their attributes, plus simulated samples whose times lie inside bad time intervals not longer than max_length; randomised attributes take values found in the good data and the others are NaN. With even sampling the simulated times are the bin centres of the gap. Without bad time intervals the series is unchanged.", "quantifier": "every series, GTIs, maximum length, buffer size, choice of attributes, and every outcome of the random generator", "why_tests_cant": "The result depends on random draws and on the positions of gaps among arbitrary data; tests check a few seeds.", "anchors": ["stingray/base.py:StingrayTimeseries.fill_bad_time_intervals"]}
{"id": "C140", "title": "Good time intervals after filling", "statement": "After fill_bad_time_intervals the good times are the former ones plus the filled intervals (widened by a hundred-thousandth); intervals that were not filled stay bad, and if none is short enough the good data come back.", "quantifier": "every series, GTIs and maximum length", "why_tests_cant": "A statement about every time and every configuration of gaps.", "anchors": ["stingray/base.py:StingrayTimeseries.fill_bad_time_intervals", "stingray/gti.py:join_gtis", "stingray/gti.py:get_btis"]}
{"id": "C141", "title": "The reference band of a covariance spectrum leaves out the band of interest", "statement": "For a covariance spectrum of light curves without an explicit reference band, the reference light curve of each band has in every bin the sum of the counts of all the other bands; a reference band given by energy bounds selects the bands between the bounds.", "quantifier": "all lists of light curves of equal length, all bounds", "why_tests_cant": "The tests check the number of reference light curves only; the sum must hold for any number of bands and bins.", "anchors": ["stingray/covariancespectrum.py:Covariancespectrum._make_reference_bands_from_lightcurves", "stingray/covariancespectrum.py:Covariancespectrum.__init__"]}
{"id": "C142", "title": "The covariance spectrum is the sample covariance over the root of the excess variance of the reference", "statement": "Each value of a covariance spectrum is the sample covariance of the counts of the band and of its reference, divided by the square root of the reference's variance in excess of the noise, and NaN when the excess is not positive; the covariance is symmetric, insensitive to constant offsets, linear in each light curve, and bounded by the variances; the error is that of Wilkinson & Uttley (2009).", "quantifier": "all pairs of light curves of equal length with at least two bins, all choices of the noise", "why_tests_cant": "The laws hold for all counts; tests only construct the objects.", "anchors": ["stingray/covariancespectrum.py:Covariancespectrum._construct_covar", "stingray/covariancespectrum.py:Covariancespectrum._compute_covariance", "stingray/covariancespectrum.py:Covariancespectrum._calculate_excess_variance", "stingray/covariancespectrum.py:Covariancespectrum._calculate_covariance_error"]}
{"id": "C143", "title": "An averaged covariance spectrum averages over all segments", "statement": "An averaged covariance spectrum is the mean of the covariances, excess variances and errors over all the segments of the light curves; with one segment it is the covariance spectrum; one reference light curve can serve all the bands.", "quantifier": "all light curves with common sorted times, all positive segment sizes", "why_tests_cant": "Whether later segments enter has to hold for any data; the test with two segments does not look at the values.", "anchors": ["stingray/covariancespectrum.py:AveragedCovariancespectrum._construct_covar"]}
{"id": "C144", "title": "Covariance spectra of events bin the arrival times of the events in each band", "statement": "The light curve of a band counts the events with energies in the band by their arrival time; the reference band counts the events outside the band, within the bounds given by the user; no event is in both; unusable arguments raise.", "quantifier": "all event lists, in any order, all bands and positive time resolutions", "why_tests_cant": "The counts must be right for every combination of times and energies; the tests do not look at the light curves.", "anchors": ["stingray/covariancespectrum.py:Covariancespectrum._make_lightcurves", "stingray/covariancespectrum.py:Covariancespectrum._make_reference_bands_from_event_data", "stingray/lightcurve.py:Lightcurve.make_lightcurve"]}
{"id": "C145", "title": "The default bands of a covariance spectrum hold each event once", "statement": "Without bands of interest, a covariance spectrum of events has one band for each different energy, with the energy in its middle, and every event is in exactly one band.", "quantifier": "all event lists with at least two different energies", "why_tests_cant": "The tests use equally spaced energies; the claim is about any set of energies.", "anchors": ["stingray/covariancespectrum.py:Covariancespectrum._create_band_interest"]}
{"id": "C146", "title": "Splitting a time series by lists of GTIs keeps every row of each list", "statement": "Splitting a time series by lists of GTIs, or selecting time intervals, gives one part for each list (or interval) with good time, with that list as GTIs and with all the rows between the start of its first and the end of its last interval, with all their attributes.", "quantifier": "all sorted time series, all lists of GTIs, all lists of intervals", "why_tests_cant": "Rows at the edges, repeated times, lists without rows and lists equal to the GTIs of the series occur in many combinations.", "anchors": ["stingray/base.py:StingrayTimeseries.apply_gti_lists", "stingray/base.py:StingrayTimeseries.filter_at_time_intervals"]}
{"id": "C147", "title": "Rebinning a spectrum treats all its parts alike", "statement": "Crossspectrum.rebin / Powerspectrum.rebin to a resolution df (or f times the present one) gives contiguous new bins; power, unnorm_power, the saved single-segment spectra and both attached power spectra are means (sums) over the same bins, m grows by the number of old powers per bin, the relation between normalised and unnormalised powers is kept, and uncertainties are those of a mean.", "quantifier": "every spectrum on an even frequency grid, every resolution, factor and method", "why_tests_cant": "tests check lengths and a few resolutions; the mutual consistency of all parts for any resolution, including fractional numbers of bins, needs a proof", "anchors": ["stingray/crossspectrum.py:Crossspectrum.rebin", "stingray/powerspectrum.py:Powerspectrum.rebin", "stingray/utils.py:rebin_data"]}
{"id": "C148", "title": "Logarithmic rebinning of a spectrum loses no power", "statement": "Crossspectrum.rebin_log puts every frequency in exactly one bin with edges growing by 1+f; freq, power and unnorm_power are means over the bin, uncertainties those of means, k the number of frequencies and m is k times the old one; the sum of k times power is the sum of the powers.", "quantifier": "every spectrum with increasing frequencies, f >= 0", "why_tests_cant": "tests use a few f on one spectrum; conservation for every f and grid, and termination of the loop, need a proof", "anchors": ["stingray/crossspectrum.py:Crossspectrum.rebin_log", "stingray/utils.py:rebin_data_log"]}
{"id": "C149", "title": "The grid of rates of the Bayesian excess variance covers the rates the data allow", "statement": "The logarithmic grid used by bexvar is increasing and evenly spaced with at least the requested density, ends above the highest rate allowed by the counts of any time bin and starts below the lowest one.", "quantifier": "all counts, background counts, areas and exposures; all densities", "why_tests_cant": "tests run one example; coverage for all counts (in particular faint sources) needs a proof", "anchors": ["stingray/bexvar.py:_lscg_gen"]}
{"id": "C150", "title": "The density of the rate of a time bin is a probability distribution", "statement": "The weights computed for a time bin are not negative, add up to 1 and are proportional to the Poisson likelihood of its counts averaged over background rates; if no rate explains the counts they are NaN.", "quantifier": "all grids, counts, backgrounds and exposures", "why_tests_cant": "tests compare a few numbers", "anchors": ["stingray/bexvar.py:_estimate_source_cr_marginalised"]}
{"id": "C151", "title": "Badly exposed time bins have no influence on the Bayesian excess variance", "statement": "bexvar uses exactly the time bins with frac_exp > 0.1, each with its own counts, background area and exposure; bins with less exposure do not influence the result; omitted arguments mean no background and full exposure; the result exists for every source.", "quantifier": "all time bins and exposures", "why_tests_cant": "tests use one data set", "anchors": ["stingray/bexvar.py:bexvar", "stingray/bexvar.py:_calculate_bexvar"]}
{"id": "C152", "title": "Dead-time correction by Fourier amplitude differences averages the pairs of segments with data", "statement": "FAD(data1, data2, segment_size) gives, at each positive frequency, the mean over the pairs of segments where both channels have data of |F1|^2, |F2|^2, |F1+F2|^2 and conj(F1)F2, each times 2 over the smoothed squared difference of that pair (normalised with the photons of the pair). Exchanging the data exchanges the powers and conjugates the cross spectrum; the power of the sum is the sum of the powers plus twice the real cross power; the coherence is at most 1. Segments without photons should be left out. Strict mode raises exactly when the differences do not comply with the tolerance.", "quantifier": "for all numbers, lengths and contents of segments, missing ones included, all transforms (linear where said), smoothing filters, widths, normalisations and tolerances", "why_tests_cant": "tests run the correction on a few simulated light curves and compare averages with a tolerance; they cannot settle the identities for every input, nor what one empty segment does to the average", "anchors": ["stingray/deadtime/fad.py: FAD", "stingray/fourier.py: normalize_periodograms, positive_fft_bins"]}
{"id": "C153", "title": "Intervals used by the amplitude-difference correction and the objects it returns", "statement": "FAD uses the segments of the GTIs common to both data sets and leaves the data unchanged; calculate_FAD_correction uses the GTIs it is given; the spectrum objects made of the table have the frequencies, powers, photons, number of averaged segments and number of bins per segment of the column asked for; unknown columns are refused.", "quantifier": "for all data sets, GTIs, tables and columns", "why_tests_cant": "tests check attributes of a few objects; an argument that is ignored, or a wrong number of bins, shows only when compared with what it should be for every input", "anchors": ["stingray/deadtime/fad.py: FAD, calculate_FAD_correction, get_periodograms_from_FAD_results"]}
{"id": "C154", "title": "Zhang's model of the power spectrum with dead time", "statement": "The dead-time model of Zhang et al. computes expected powers from the covariances A_k: with exact Poisson probabilities every h(k, n) is at least 0 and at most its limit, the A_k are not negative and add up consistently, and pds_model_zhang of N bins gives N/2 frequencies spaced by 1/(N tb) and at each the documented sum over the first limit_k distances, with detected and incident rates related by the dead time.", "quantifier": "all rates, dead times, bin times, numbers of bins and limits", "why_tests_cant": "tests compare with one simulation at one rate within wide tolerances; the sums are over unbounded indices and any rate", "anchors": ["stingray/deadtime/model.py: heaviside, _h, Gn, A0, A_single_k, limit_A, B, safe_B, pds_model_zhang, _inner_loop_pds_zhang, r_in, r_det"]}
{"id": "C155", "title": "Dead-time model at the requested frequencies", "statement": "non_paralyzable_dead_time_model refuses rates whose sum is above the inverse of the dead time; otherwise it gives for every requested frequency the model of Zhang et al. for the total rate, interpolated linearly on the model's own frequencies, with the excess over 2 scaled by the source's part of the rate.", "quantifier": "all frequency arrays, dead times, source and background rates, bin times and numbers of bins", "why_tests_cant": "tests try a few rates on one frequency array; the interpolation and the limits concern every frequency and rate", "anchors": ["stingray/deadtime/model.py: non_paralyzable_dead_time_model"]}
{"id": "C156", "title": "Correcting a spectrum for dead time", "statement": "deadtime_correct multiplies, frequency by frequency, the powers, the unnormalised powers, their uncertainties, the saved powers of the segments and those of the two attached power spectra by 2 over the modelled power, and changes nothing else; paralyzable dead time is refused.", "quantifier": "all spectra and model values", "why_tests_cant": "the consistency of every attribute of every spectrum cannot be sampled; the tests look at the powers of one spectrum", "anchors": ["stingray/crossspectrum.py: Crossspectrum.deadtime_correct"]}
{"id": "C157", "title": "Coherence of averaged cross spectra", "statement": "coherence() of a cross spectrum is |C|^2/(P1 P2) at each frequency; that of an averaged cross spectrum subtracts the bias expected of m averaged segments, lies between 0 and 1, does not depend on the order of the channels, and has the uncertainty sqrt(2 g/m) (1-g).", "quantifier": "all cross spectra, noise levels, numbers of bins and of averaged segments", "why_tests_cant": "tests check shapes and one coherence near 1; the bounds and the bias concern every power and number of averages", "anchors": ["stingray/crossspectrum.py: Crossspectrum.coherence", "stingray/crossspectrum.py: AveragedCrossspectrum.coherence", "stingray/fourier.py: raw_coherence", "stingray/fourier.py: bias_term"]}
{"id": "C158", "title": "Lags recover delays", "statement": "phase_lag is the argument of the cross power, between -pi and pi; time_lag is phase_lag/(2 pi f), so at most half a period; it changes sign if the channels are exchanged; if the first channel is the second one delayed by s bins of length dt, the time lag is s dt at every frequency where this is at most half a period.", "quantifier": "all cross spectra; all series, delays and frequencies", "why_tests_cant": "tests compare the lag of one simulated delay within a tolerance; that the lag is the delay must hold for every series, delay and frequency", "anchors": ["stingray/crossspectrum.py: Crossspectrum.phase_lag", "stingray/crossspectrum.py: Crossspectrum.time_lag", "stingray/crossspectrum.py: AveragedCrossspectrum.phase_lag", "stingray/crossspectrum.py: AveragedCrossspectrum.time_lag"]}
{"id": "C159", "title": "Every averaged cross power and lag has an uncertainty", "statement": "The uncertainties of averaged cross powers are those of Ingram 2019 with the numbers of averaged powers at each frequency; for channels that do not overlap their squares add up to P1 P2/m; where the formulas give no number the documented default sqrt(2/m) in Leahy units is used; so every power and every lag has an uncertainty.", "quantifier": "all cross spectra, normalisations, noise levels and numbers of averages", "why_tests_cant": "whether a formula has a value depends on the sign of differences of powers at each frequency; tests see a few spectra", "anchors": ["stingray/crossspectrum.py: Crossspectrum._calculate_errors", "stingray/fourier.py: error_on_averaged_cross_spectrum"]}
{"id": "C160", "title": "Rms of a band of a power spectrum", "statement": "Powerspectrum.compute_rms(min_freq, max_freq) returns the r >= 0 whose square is the sum over the frequencies of the band (ends included) of the power above the Poisson noise, in squared-fractional-rms units, times the frequency widths, and (0, 0) when the noise exceeds the powers; twice r times its error is the root of the sum of P^2 width^2 / m; the rms of the whole band does not change when frequencies are merged; the default noise is that of pure Poisson noise in every normalization; unknown normalizations and inconsistent numbers of averages are refused.", "quantifier": "all power spectra (rebinned or not), bands, noise levels, groupings of frequencies", "why_tests_cant": "Tests use a few simulated spectra with tolerances; the formula and its invariance under rebinning must hold for every spectrum, band and grouping.", "anchors": ["stingray/powerspectrum.py:Powerspectrum.compute_rms", "stingray/fourier.py:get_rms_from_rms_norm_periodogram", "stingray/fourier.py:get_rms_from_unnorm_periodogram"]}
{"id": "C161", "title": "Significances of the powers of a spectrum", "statement": "Powerspectrum.classical_significances lists, by increasing index, exactly the Leahy powers that noise alone exceeds with a probability below the threshold, with those probabilities (the chance that a Poisson variable of mean P m / 2 is less than m); with the correction for trials each reported probability is between p and min(1, N p) and nothing is reported that is not reported without it; a higher average of as many powers has a smaller probability; other normalizations are refused.", "quantifier": "all lists of non-negative powers, numbers of averages, thresholds", "why_tests_cant": "Tests check a few powers; the list must be exact for all spectra and thresholds.", "anchors": ["stingray/powerspectrum.py:Powerspectrum.classical_significances", "stingray/stats.py:pds_probability"]}
{"id": "C162", "title": "Upper limits on modulations", "statement": "amplitude_upper_limit has the square 2 u / N for a limit u on the power and N counts, over 0.773 and over the squared attenuation when these corrections are asked for, grows with u, and each correction makes it higher; pf_upper_limit f has f (1 + a) = 2 a; Powerspectrum.modulation_upper_limit is that limit for the highest power at a positive frequency of the band times the number of averages, at that frequency over the highest of the spectrum, in (0, 1]; it is refused with no frequency in the band; power_upper_limit gives a signal power whose lower confidence limit is the measured power.", "quantifier": "all powers, counts, numbers of averages, bands, corrections", "why_tests_cant": "Tests check a few published numbers with tolerances.", "anchors": ["stingray/stats.py:power_upper_limit", "stingray/stats.py:amplitude_upper_limit", "stingray/stats.py:pf_upper_limit", "stingray/powerspectrum.py:Powerspectrum.modulation_upper_limit"]}
{"id": "C163", "title": "Keys of the mission database", "statement": "get_key_from_mission_info gives the entry for a key in the table of the observing mode, or else of the instrument, or else of the mission, or else the default; the table of the mode is that of the instrument if it has one, else that of the mission; names are compared whatever their case; an instrument with the name of a keyword that has a value is refused.", "quantifier": "all nested dictionaries, keys, instruments and modes", "why_tests_cant": "The docstring has five look-ups in one dictionary; the precedence must hold for every database and depth.", "anchors": ["stingray/io.py:get_key_from_mission_info", "stingray/utils.py:make_dictionary_lowercase"]}
{"id": "C164", "title": "Reading the mission database", "statement": "read_mission_info without a mission gives at every path the words of the last line for it; for a mission it gives the entry of that mission, with the name of the GTIs completed for XMM and the columns of XTE; a line below a name that has a value, and a line with a single name, are refused.", "quantifier": "all files, missions and paths", "why_tests_cant": "Tests read the one file distributed; users can have others (HEADAS).", "anchors": ["stingray/mission_support/missions.py:read_mission_info", "stingray/mission_support/missions.py:_patch_mission_info"]}
{"id": "C165", "title": "Channels and energies of missions", "statement": "The conversions of channels to energies are increasing with the documented offsets and widths, the obsolete function agrees with the current one, unknown missions and instruments are refused; ranges of channels with omitted digits are read correctly; at every epoch of RXTE every PCA channel from 0 to 255 gets the energy of the one row of the table that includes it, increasing with the row, channels beyond are refused and so are epochs outside the mission; local channels are replaced by the middle channel of their group.", "quantifier": "all channels, detectors, epochs, specifications of ranges and groups", "why_tests_cant": "Tests look up a few channels at two epochs.", "anchors": ["stingray/mission_support/missions.py:rough_calibration", "stingray/mission_support/missions.py:get_rough_conversion_function", "stingray/mission_support/rxte.py:_split_chan_spec", "stingray/mission_support/rxte.py:pca_calibration_func", "stingray/mission_support/rxte.py:rxte_pca_event_file_interpretation"]}
{"id": "C166", "title": "Summaries of MCMC chains", "statement": "SamplingResults reports the mean, standard deviation and credible interval of all the samples of all walkers, whatever their order, in the unit of the parameter, the interval in order and holding the stated fraction of the samples; R-hat compares the variance between the walkers with that along each of them, so that it tells walkers that never move from walkers that have converged; a log passed by the caller is used.", "quantifier": "every chain of any number of steps and walkers, percentages, change of unit and of order", "why_tests_cant": "the tests run one sampler; permutations of walkers and changes of unit range over all chains", "anchors": ["stingray/modeling/parameterestimation.py:SamplingResults.__init__", "stingray/modeling/parameterestimation.py:SamplingResults._compute_rhat", "stingray/modeling/parameterestimation.py:SamplingResults._infer"]}
{"id": "C167", "title": "Smallest length with given factors", "statement": "nextprod(a, x) ends and returns the smallest integer, at least x, that is a product of powers of the factors a; nextpow(a, x) is the smallest power of a that is at least x.", "quantifier": "every non-empty list of factors above 1 and every positive x", "why_tests_cant": "the counters run through a number of states that grows with x and the number of factors; minimality ranges over all products", "anchors": ["stingray/pulse/overlapandsave/ols.py:nextpow", "stingray/pulse/overlapandsave/ols.py:nextprod"]}
{"id": "C168", "title": "Colours and rms of dynamical spectra are those of each column", "statement": "power_colors and compute_rms of a dynamical spectrum give, for each time, the power colours and the rms of the spectrum at that time; the colours do not depend on the normalisation; the spectrum is not modified, so that the same call gives the same result again.", "quantifier": "every matrix of powers, grid of frequencies, edges, excluded ranges and noise level", "why_tests_cant": "the columns are views of one matrix, so what a call leaves behind depends on its history; the values range over all matrices", "anchors": ["stingray/crossspectrum.py:DynamicalCrossspectrum.power_colors", "stingray/crossspectrum.py:DynamicalCrossspectrum.compute_rms", "stingray/power_colors.py:power_color"]}
{"id": "C169", "title": "Complex columns survive text files", "statement": "An object written to a text file (fmt='ascii' or no format) and read back has the same columns with the same values, complex ones included: they are written as two real columns, name.real and name.imag, and joined when read. Not so when there are two complex columns (as the normalised and unnormalised powers of a cross spectrum): the second is read back with real part 0 and the sum of its parts as imaginary part. A complex column whose first value is real is not split at all.", "quantifier": "all tables: any number of columns in any order, with any values and names without dots", "why_tests_cant": "The round trip depends on the order and number of complex columns and on the first value of each; tests use one object.", "anchors": ["stingray/base.py: StingrayObject.read, StingrayObject.write"]}
{"id": "C170", "title": "Tables keep what an object says", "statement": "Converting a time series to an astropy table and back gives the same times and good time intervals, and the same value for every public attribute that is a string, a number or an array, and for every protected array with a value per time; everything else is as in a new object. The case of names is not kept, attributes set to None come back with the default, and a table without rows loses all its metadata.", "quantifier": "all objects: any times, intervals, and attributes of any kinds, names and lengths", "why_tests_cant": "Attributes are classified by name, kind and length at run time; tests only try a few of the combinations.", "anchors": ["stingray/base.py: StingrayObject.data_attributes, array_attrs, internal_array_attrs, meta_attrs, get_meta_dict, to_astropy_table, from_astropy_table", "stingray/base.py: StingrayTimeseries.time, gti"]}
{"id": "C171", "title": "Times keep their instants", "statement": "Times given as astropy times are converted to seconds from a reference MJD so that the reference plus the seconds is the same instant; a reference that is given is kept, times in seconds are returned as they are, and unknown types are refused. Light curves keep the instants. Event lists and time series do when a reference is given; without one, times after MJD 10000 are counted from the first of them while the reference stays at 0, and the instants are lost. Conversion from astropy time series with absolute times fails without a reference in the metadata.", "quantifier": "all lists of times, all references, all kinds of input", "why_tests_cant": "Which reference is used depends on the values of the times and of the reference; tests check examples of each kind in isolation.", "anchors": ["stingray/base.py: interpret_times, StingrayTimeseries._set_times, StingrayTimeseries.from_astropy_timeseries", "stingray/lightcurve.py: Lightcurve.__init__"]}
{"id": "C172", "title": "p-values of cospectra are probabilities", "statement": "cospectra_pvalue of a float power averaged over n = 1..50 spectra is the sum over j of C(n-1+j, j) / 2^(n+j) Q(n-j, n|x|), or its complement for negative powers: between 0 and 1, 1/2 at zero, symmetric, strictly decreasing, and the Laplace tail for n = 1; above 50 spectra it is that of a normal variable of variance 2/n; n below 1 or far from an integer is refused. classical_significances of a cross spectrum returns exactly the indices whose p-value is below the threshold (divided by the number of powers with the trial correction). Not so for integer powers: the p-value is 1 for every integer power averaged over 2 to 50 spectra; and a number of spectra given as a float between 2 and 50 raises a TypeError.", "quantifier": "all real powers, all numbers of spectra, all thresholds and spectra", "why_tests_cant": "Tests compare p-values at a handful of powers given as floats.", "anchors": ["stingray/crossspectrum.py: cospectra_pvalue, _averaged_cospectra_cdf, Crossspectrum.classical_significances"]}
{"id": "C173", "title": "A multitaper periodogram is a weighted mean over tapers, in the right units and at the right frequencies", "statement": "The power of a multitaper periodogram at each frequency is the mean of the single-taper powers weighted by the eigenvalues; with adaptive weights it stays between the smallest and the largest single-taper power and the weights are consistent with the powers. Multiplying the light curve by a number and adding a constant multiplies all powers by the square of the number. The frequencies are all positive Fourier frequencies below the Nyquist frequency. The low-bias choice keeps exactly the tapers with eigenvalues above 0.9 (or the best one), and the jackknife variance is nonnegative and independent of units. (The highest frequency is missing for an odd number of bins.)", "quantifier": "all light curves, time resolutions, tapers with eigenvalues in (0, 1], with or without adaptive weights, all iteration counts", "why_tests_cant": "tests compare a few light curves with another package; the adaptive iteration and odd lengths are not covered for all inputs", "anchors": ["stingray/multitaper.py: Multitaper._fourier_multitaper, psd_from_freq_response, _get_adaptive_psd, jackknifed_sdf_variance"]}
{"id": "C174", "title": "Simulated events follow the binned distribution", "statement": "Simulating events from a light curve or a spectrum by inverting its cumulative distribution returns one value per random number, inside the bins, with the number in each bin given by the random numbers in an interval as long as the bin's fraction of the total; nothing falls into empty bins, sorted output is sorted, negative input is refused. Event times simulated for several good time intervals lie in the interval they were simulated for. (A single bin ignores the edges; with a single interval all counts, also those outside the interval, are squeezed into it.)", "quantifier": "all nonnegative distributions, all increasing edges, all draws of random numbers, all lists of good time intervals", "why_tests_cant": "tests draw random samples and compare histograms within statistical errors", "anchors": ["stingray/simulator/base.py: simulate_with_inverse_cdf, simulate_times_from_count_array", "stingray/events.py: EventList.simulate_times, EventList.simulate_energies"]}
{"id": "C175", "title": "Phases, waveform and rms of quasi-periodic oscillations", "statement": "The phase difference of the first two harmonics lies between 0 and pi and does not depend on the phase origin or the amplitudes; the harmonics used are the Fourier components nearest to the frequencies of the model; the reconstructed waveform has the given mean and rms; the mean phase difference minimises the squared distances of the segments and comes with its standard deviation; the rms of a model is summed over the requested frequencies; the average cross correlation is the mean over segments. (For even numbers of bins the wrong Fourier component is used, the distance is wrong from pi/2 on, and the standard deviation is not one.)", "quantifier": "all light curves, Fourier coefficients, delays, model frequencies, phases, frequency grids and numbers of segments", "why_tests_cant": "tests compare a few simulated light curves and only check that numbers are finite", "anchors": ["stingray/spectroscopy.py: get_parameters, waveform, psi_distance, x_2_function, get_mean_phase_difference, get_phase_lag, compute_rms, ccf, ccf_error"]}
{"id": "C176", "title": "The Lomb-Scargle transform is the least-squares fit of a sinusoid, and agrees with the Fourier transform for even sampling", "statement": "For any sampling times, the squared modulus of the slow Lomb-Scargle transform is, up to the factor 2/n, what the best sinusoid of that frequency takes off the sum of squares of the counts. It ignores constants, scales with the counts and does not change when all samples are moved in time. For two light curves with the same even sampling the cross spectrum is that of the discrete Fourier transforms. The fast method gives the same values as the slow one. The frequencies start at min_freq, are spaced by df and end at max_freq; defaults come from the length and the bin time. fullspec gives conjugate values at negative frequencies. power_type selects what is reported without touching the unnormalised powers. Two light curves moved in time with respect to each other show a lag. Invalid arguments are refused.", "quantifier": "all light curves with any sampling, all frequencies, all numbers of samples and frequencies, all arguments", "why_tests_cant": "The tests compare only the position of the highest peak of the two methods and check one lag at one frequency; agreement must hold at every frequency and for every sampling.", "anchors": ["stingray/lombscargle.py: _autofrequency, LombScargleCrossspectrum.__init__, initial_checks, lscrossspectrum_from_lightcurve, _ls_cross", "stingray/fourier.py: lsft_slow, lsft_fast, impose_symmetry_lsft"]}
{"id": "C177", "title": "Gaussian-process models: names of parameters, positive covariance, shapes of flares", "statement": "For each implemented kernel and mean the list of parameter names is without repetition and sufficient for the likelihood; the likelihood does not depend on the order of names and numbers; names starting with log_ are exponentiated. The covariance is that of red noise, a damped oscillation or their sum, and its matrix is positive for all times and parameters. Flares have height A at t0 and are lower elsewhere; skew flares are mirror images when the widths are exchanged; a FRED flare has its maximum at t0. The best parameters are those of a sample with the largest score. Unknown kernels and means raise a ValueError.", "quantifier": "all kernels and means, all numbers for the parameters, all orders of the parameters, all finite sets of times, all linear combinations", "why_tests_cant": "Positivity of the covariance matrix is about all sets of times and all parameters; the tests evaluate each shape for one set of numbers.", "anchors": ["stingray/modeling/gpmodeling.py: get_kernel, get_mean, _gaussian, _exponential, _skew_gaussian, _skew_exponential, _fred, get_gp_params, get_log_likelihood, GPResult.get_max_posterior_parameters"]}
{"id": "C178", "title": "The acceleration search reports exactly the cells above the detection level, in any schedule", "statement": "`accelsearch` returns one row for every cell of the frequency/derivative plane (Fourier frequencies in `[fmin, fmax)`, derivatives `z/T**2` for `z` from `-zmax` to `zmax`) whose Leahy power with the template for `z` exceeds the detection level, and no other; the rows do not depend on the order in which worker processes finish; with `interbin=True` the added cells are halfway between neighbouring Fourier frequencies. `interbin_fft` keeps the old frequencies and amplitudes and the order of FFT frequencies. The light curve passed in is not modified and good time intervals are honoured.", "quantifier": "all evenly spaced light curves, all numbers of bins, all bands, grids of z, good time intervals, orders of completion, and all Fourier transforms given to interbin_fft", "why_tests_cant": "the schedule of the worker processes, the band and the grid are unbounded; tests look for one strong pulsation and never at the whole table", "anchors": ["stingray/pulse/accelsearch.py: accelsearch, interbin_fft, _calculate_all_convolutions, _convolve_with_response, _create_responses"]}
{"id": "C179", "title": "Phaseograms keep every event, repeat the cycle, and times of arrival lie in one period", "statement": "A phaseogram has twice the asked number of phase bins, and a cell has the total weight of the events whose phase (from the frequency, its derivatives, the starting phase and the reference epoch) and time are in its bins; the second cycle repeats the first, the time bins run from the earliest to the latest event, and all cells add up to twice the total weight. With a reference MJD and an epoch in MJD the phaseogram is the one with the same epoch in seconds, and only the time axis changes. It refuses an empty list of events and weights of another length. A time of arrival lies in the first period from the start time, differs from it by the fitted plus additional phase modulo whole periods, and its error is the phase error times the period.", "quantifier": "all event times, frequencies and derivatives, numbers of bins, starting phases, reference dates, epochs, weights, phases and periods", "why_tests_cant": "tests look at one simulated pulsar with a signal in a given column; they cannot show that no event is lost at bin edges or that the conversion to MJD keeps the phases for all epochs", "anchors": ["stingray/pulse/search.py: phaseogram", "stingray/pulse/pulsar.py: get_TOA"]}
{"id": "C180", "title": "Light curves simulated from a power spectrum have that spectrum, the mean and the rms", "statement": "A light curve simulated from a power spectrum without extra red noise has the requested number of bins, exactly the requested mean and rms, and the Fourier transform the normal draws times the square root of half the spectrum, up to one positive factor; there is no power beyond the given spectrum. A model, a named model, a power-law index and the array of the model's values at the positive frequencies are equivalent ways to ask for a spectrum. Poisson rates are the noiseless light curve with its negative values set to zero. The light curve starts at the start time with one bin per time resolution. The seed determines the light curve. Unknown models, bad parameters and wrong numbers of arguments are refused.", "quantifier": "all simulators, random draws, spectra, models, power-law indices, random cuts and numbers of bins", "why_tests_cant": "tests check random light curves statistically for one size; the exact relation of the Fourier transform to the draws, and its exceptions for odd sizes and extra red noise, need a proof for all sizes", "anchors": ["stingray/simulator/simulator.py: Simulator.simulate, Simulator._timmerkoenig, Simulator._find_inverse, Simulator._simulate_power_spectrum, Simulator._simulate_model"]}
{"id": "C181", "title": "Lags and covariances of an energy band", "statement": "The lag of an energy band uses only the cross power at frequencies in the frequency interval, exists exactly when the cross power does not vanish there, and is the phase of the mean cross power at a frequency inside the interval; a common phase, and at one frequency a delay of less than half a period, are recovered exactly; exchanging the bands changes its sign and scaling leaves it. The squared covariance times the reference power above the noise is the squared mean cross power (less the noise of a band that overlaps the reference) times the width of the interval, with the phase of the cross power or its modulus, and divided by the mean rate when fractional.", "quantifier": "all frequency intervals, cross spectra, phases, delays, noise levels, reference powers and rates", "why_tests_cant": "Tests check simulated lags and covariances within statistical errors; the exact relations, the bounds and the cases without a result hold for all spectra.", "anchors": ["stingray/varenergyspectrum.py:LagSpectrum._spectrum_function", "stingray/varenergyspectrum.py:ComplexCovarianceSpectrum._spectrum_function", "stingray/varenergyspectrum.py:VarEnergySpectrum._get_good_frequency_bins", "stingray/fourier.py:cross_to_covariance"]}
{"id": "C182", "title": "Template fits of pulse profiles", "statement": "The shift returned by a template fit of a pulse profile is in (-0.5, 0.5], and at it the derivative of the correlation of the profile with the shifted template, over the harmonics with at least the mean product of moduli, vanishes. For a profile that is the template rotated by whole bins, scaled and with a background, the correlation is largest at the true shift, and the fitted amplitude at that shift is the scale. The search starts at the best of 64 shifts. Mismatched lengths are refused with IndexError, fewer than 32 bins and flat profiles with ValueError. Subtracting the mean beforehand changes nothing.", "quantifier": "all profiles, templates, rotations, scales, backgrounds and root finders that return roots", "why_tests_cant": "Tests fit a few noisy profiles within tolerances; the stationarity, the exact recovery and the behaviour for short and flat profiles hold for all inputs.", "anchors": ["stingray/pulse/fftfit.py:fftfit", "stingray/pulse/fftfit.py:best_phase_func", "stingray/pulse/fftfit.py:_find_delay_with_ccf", "stingray/pulse/pulsar.py:fftfit"]}
{"id": "C183", "title": "Baselines by asymmetric least squares", "statement": "The baseline of a light curve after each round minimises the weighted sum of squares plus the penalty on second differences, with equal weights in the first round and then p for bins above, 1-p for bins below and 0 for bins on the last curve. One round always gives a curve, a further one exactly when at least two bins are off the last curve. The subtracted light curve and the baseline add up to the light curve; adding a straight line to the light curve adds it to the baseline only; with offset correction the subtracted light curve has zero mean over the bins the offset is fitted to.", "quantifier": "all light curves (any number of bins), penalties, asymmetries, numbers of rounds and added lines", "why_tests_cant": "Tests subtract one simulated baseline within a tolerance; minimality, equivariance and the existence of a result are statements about all light curves.", "anchors": ["stingray/utils.py:baseline_als", "stingray/utils.py:_als", "stingray/utils.py:offset_fit"]}
{"id": "C184", "title": "Symmetrical Poisson errors", "statement": "The error of each bin is half of the sum of the distances of the ends of the confidence interval from its counts, and depends on no other bin; negative counts, and only these, are refused. Counts that are not whole numbers are truncated first, so errors need not increase with the counts.", "quantifier": "all lists of counts and all confidence intervals", "why_tests_cant": "Tests compare the errors of a few simulated light curves; the table of errors is indexed through the set of values that occur, so that an error for a bin could come from another value for some histogram only.", "anchors": ["stingray/utils.py:poisson_symmetrical_errors"]}
{"id": "C185", "title": "Random states from seeds", "statement": "A seed from 1 to 2^32-1 gives a new generator with this seed, a random state is returned unchanged and without argument the global generator is used; other non-zero seeds and other objects that are true are refused. The seed 0 is taken for no seed.", "quantifier": "all integers, random states and other objects", "why_tests_cant": "Tests try one seed, one state and one bad object; the seeds for which results are reproducible are a statement about all integers.", "anchors": ["stingray/utils.py:get_random_state"]}
{"id": "C186", "title": "Relativistic impulse response", "statement": "For a positive time resolution and t1 >= 0 there is a response exactly when t1 < t2 < t3, p1 < p2 and the rise lasts at least one bin. It is zero before t1, p1 there, then rises with values above p1 up to p2, which is reached, until t2, and is positive until t3, with as many bins as fit in each part. The decay starts at 1 four seconds after the start wherever the secondary peak is, so it can exceed the peak.", "quantifier": "all time resolutions, times, heights and slopes", "why_tests_cant": "Tests build a response for one set of parameters; which parameters give one, and its shape, are statements about all of them.", "anchors": ["stingray/simulator/transfer.py:relativistic_ir", "stingray/simulator/simulator.py:Simulator.relativistic_ir"]}
{"id": "C187", "title": "Detection of unsorted times and sorting of events", "statement": "For finite numbers, an array is called sorted exactly when each element is at most all later ones, whether or not numba is installed. Events read from a file come out with sorted times, all columns reordered alike with no row lost or repeated, and are left as they are if sorted. With NaNs the answer depends on numba, and without numba every array of unsigned integers is called sorted.", "quantifier": "all arrays, tables of events and sorting functions", "why_tests_cant": "Tests check a sorted and an unsorted array in one installation; the agreement of the two implementations and the integrity of rows are statements about all inputs.", "anchors": ["stingray/utils.py:is_sorted", "stingray/utils.py:_is_sorted_numba", "stingray/utils.py:order_list_of_arrays", "stingray/io.py:load_events_and_gtis"]}
{"id": "C188", "title": "The squared sinc model and its derivatives", "statement": "The squared sinc lies between zero and its amplitude, is symmetric about the mean, has the amplitude there and vanishes exactly at whole non-zero multiples of pi widths from it. The derivative by the amplitude given to the fitter is right; those by the mean and the width are right exactly when the amplitude, the sine or the cosine of u = (x - mean)/width is zero or u = x, so not in general.", "quantifier": "all points, amplitudes, means and non-zero widths", "why_tests_cant": "Tests fit one pulse; a wrong derivative still converges there. Being the derivative is a limit statement for all parameters.", "anchors": ["stingray/pulse/modeling.py:sinc", "stingray/pulse/modeling.py:sinc_square_model", "stingray/pulse/modeling.py:sinc_square_deriv"]}
{"id": "C189", "title": "Fixed widths in fits of a squared sinc", "statement": "In a fit without the argument `fixed`, the width is kept fixed exactly when the length of the observation is given in this call or was given in any earlier one without this argument. With the argument, earlier calls do not matter. The width at the start is that of the observation's length if given.", "quantifier": "all histories of calls", "why_tests_cant": "The default dictionary is shared by all calls of a session; tests do not look at a fit after another one, and no finite set of histories settles it.", "anchors": ["stingray/pulse/modeling.py:fit_sinc"]}
{"id": "C190", "title": "Shapes of simulated power spectra", "statement": "A generalized Lorentzian (positive width and value) exists exactly for positive powers, has its value at the centre, half of it exactly half a width away, decreases strictly with the distance from the centre and is positive. A smoothly broken power law goes as the low power with the given normalization at low frequencies and as the high power, continued from the break, at high ones. The functions of arrays of parameters agree with these and refuse arrays that are too short.", "quantifier": "all frequencies and parameters", "why_tests_cant": "Tests simulate one spectrum of each shape; monotonicity, the width and the limits are statements about all frequencies.", "anchors": ["stingray/simulator/models.py:GeneralizedLorentz1D", "stingray/simulator/models.py:SmoothBrokenPowerLaw", "stingray/simulator/models.py:generalized_lorentzian", "stingray/simulator/models.py:smoothbknpo"]}
{"id": "C191", "title": "Folding searches with weights or exposure correction", "statement": "With a weight for each event, no exposure correction and a segment size not above the length, a folding search gives the mean, over the segments whose events span at least a fifth of the segment, of the statistic of the profile of the events of the segment with their own weights; GTIs do not matter. Exposure correction without GTIs is refused. Shifting the times changes nothing; shifting times and GTIs alike, or dividing a GTI, should not either, but does with exposure correction.", "quantifier": "all lists of events, weights, GTIs, trial frequencies, segment sizes and statistics", "why_tests_cant": "Tests search one simulated pulsation from time zero; that weights follow their events and that results do not depend on the time origin are statements about all inputs.", "anchors": ["stingray/pulse/search.py:_folding_search", "stingray/pulse/search.py:epoch_folding_search", "stingray/pulse/search.py:z_n_search", "stingray/pulse/pulsar.py:fold_events"]}
{"id": "C192", "title": "Extensions of file names and the format of event files", "statement": "Of a file name made of a directory, a stem and an extension (with `.gz` or without), the extension is found exactly when the name without the extension does not occur in it: always with a directory or a long stem, but not for `f.fits`, whose extension comes out as `.its`. Without a given format a file of events is read as FITS exactly when the extension found contains `fits` or `evt`, in any case.", "quantifier": "all file names", "why_tests_cant": "Tests try a few file names; the names for which the root occurs in its own extension are a statement about all of them.", "anchors": ["stingray/io.py:get_file_extension", "stingray/events.py:EventList.read"]}
{"id": "C193", "title": "Joining light curves after applying GTIs", "statement": "A new light curve starts half a bin before its first time and ends half a bin after its last; two new light curves are always joined, with the one that starts first leading. Applying GTIs keeps exactly the selected samples and sets the length to the span of the GTIs. But it also makes the start of the light curve an array, so that a light curve with two bins or more left cannot be joined with any other afterwards: the join raises a ValueError in either order.", "quantifier": "all light curves, GTIs, masks and orders of the joined curves", "why_tests_cant": "Tests apply GTIs or join, not one after the other; the failure is a statement about every history that does both.", "anchors": ["stingray/lightcurve.py:Lightcurve.apply_gtis", "stingray/lightcurve.py:Lightcurve.join", "stingray/lightcurve.py:Lightcurve.__init__"]}
{"id": "C194", "title": "The baseline of a light curve with several GTIs", "statement": "The baseline of a light curve has one value for each bin: in the bins of each GTI it is what the fit to that GTI alone gives, and it is zero outside all GTIs; it is found exactly when the fits to all GTIs succeed. If the times of the light curve are integers, though, the values are stored in an array of integers, and the fractions of the fitted values are lost.", "quantifier": "all light curves, GTIs without common bins and fits", "why_tests_cant": "Tests use one or two GTIs and times that are not integers; independence of the GTIs is a statement about all of them.", "anchors": ["stingray/lightcurve.py:Lightcurve.baseline"]}
{"id": "C195", "title": "Plotted hues and lines of constant hue", "statement": "The hue drawn for a pair of power colours is their hue about the default centre up to whole turns, in [0, 2 pi) on a polar plot and in [0, 360) degrees on the other. The line drawn at an angle starts at the centre, goes four units to one side, and with the default reference all its later points have that angle as their hue. But the centre of the configuration given for the plot is ignored for the hues: with another centre the hue drawn can be wrong by half a turn.", "quantifier": "all power colours, centres, angles and reference angles (whose line is not vertical)", "why_tests_cant": "Tests draw a few plots and look at no numbers; agreement of lines and hues is a statement about all angles.", "anchors": ["stingray/power_colors.py:plot_hues", "stingray/power_colors.py:_hue_line_data", "stingray/power_colors.py:hue_from_power_color"]}

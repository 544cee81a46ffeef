{
 "C01": "`checkGtis` as a guard returning `Except`; the accepted lists are characterised by an iff, by list induction.",
 "C02": "`gtiMaskComplete`, the loop over GTIs with `|=`; iff by induction on the GTI list.",
 "C03": "`gtiMaskJit`, the one-pass loop with its index state; loop invariant; false in general (a GTI can be skipped), exact when every GTI holds a sample.",
 "C04": "`crossTwoGtis`, the concatenate/argsort algorithm for any sorting order of ties; sweep invariant; false for touching borders.",
 "C05": "`crossGtis` as the fold of C04; induction on the number of lists.",
 "C06": "`getBtis`; structural recursion, covered set and length.",
 "C07": "`joinGtis`; cumulative-sum sweep, invariant relating the running sum to membership.",
 "C08": "`checkSeparate`; iff for the true direction, witness for the false one.",
 "C09": "`appendGtis` on top of C08 and C10.",
 "C10": "`joinEqualGtiBoundaries`; the pop loop as recursion.",
 "C11": "`createGtiFromCondition` over the runs of C12.",
 "C12": "`contiguousRegions` via diff/nonzero; induction on the array.",
 "C13": "The `arange` of segment starts as a list indexed by natural numbers; membership and spacing of starts by arithmetic in an ordered field.",
 "C14": "Bin ranges by `searchsorted` over sorted times; monotonicity of the insertion point gives containment; witnesses for overlapping steps and for a GTI after all data.",
 "C15": "The splitting loop as structural recursion over GTIs; exposure is additive over the pieces.",
 "C16": "`searchsorted` bounds on both sides; an event index is in the range iff its time is in the segment.",
 "C17": "The event loop as a recursion carrying the last kept time; invariant: kept chain is spaced and each dropped event is within the dead time of a kept one.",
 "C18": "`diff > deadtime` on the sorted times; iff by induction on the list; witness for equal times.",
 "C19": "Background events are merged by any sort, filtered, and the source mask is read off; sublist and alignment proofs.",
 "C20": "`rebin_data` as a loop over output bins with fractional edges; telescoping of the overlaps; sum conservation by induction.",
 "C21": "The same loop with squared errors; witness for the code's handling of fractional edges.",
 "C22": "`rebin_data_log`: bin edges by the geometric recurrence with fuel, classes by digitize; classes partition the index set.",
 "C23": "`histogram` loops as folds over events; the count of each bin is the length of a filter; conservation by exchange of sums.",
 "C24": "Comparison of the two neighbouring powers with `Nat.log2`; witness for ties and small input.",
 "C25": "Insertion point and its predecessor; minimal distance by sortedness.",
 "C26": "Column names as lists of characters, splitting and regrouping as recursion; witness for colliding names.",
 "C27": "Masking as `select`; one index list describes all arrays.",
 "C28": "State of the object (times, GTIs, cached mask) with its setters; invariant over sequences of operations; witnesses for setters that keep the cache.",
 "C29": "Shift by an amount; algebra in a field, composition of shifts.",
 "C30": "A two-object state; the operations return new states; witness for the in-place effects.",
 "C31": "Python's slice bounds (`clipBound`) as a specification; index lists; witnesses for negative steps and end points.",
 "C32": "Selection by GTI and concatenation in order of GTIs; rows of the result.",
 "C33": "Any stable or unstable argsort; one permutation moves all columns.",
 "C34": "Counts, rate and errors as a record with the setters; invariant; witnesses for setters that leave the other column stale.",
 "C35": "Both counting methods as folds; each photon falls in exactly one bin; agreement of the two methods.",
 "C36": "`from_lc` as a flatMap of replicates; counting back through C35.",
 "C37": "Half-open filter as `select`; tiles by case analysis on the comparisons.",
 "C38": "`fftfreq` as a list of rationals times a unit; positivity by parity of n.",
 "C39": "Normalisation formulas in a field; algebra; witness where the inverse differs.",
 "C40": "Poisson levels by the same formulas applied to the expected periodogram.",
 "C41": "The loop over segments as a fold with state; invariant: state equals the sum over usable segments; FFT an arbitrary function.",
 "C42": "The same loop with auxiliary powers; witness for the missing division.",
 "C43": "Two loops over the same segments; simulation relation.",
 "C44": "Algebra of complex products.",
 "C45": "Discrete Fourier transform over ℂ with roots of unity; Parseval by orthogonality.",
 "C46": "Trapezoid sums over a band; witnesses for band edges.",
 "C47": "Cauchy-Schwarz for finite sums of complex products.",
 "C48": "Real powers and logarithms; inequalities of Bernoulli type.",
 "C49": "Algebra with square roots.",
 "C50": "The loop of terms of the Poisson sum; real analysis of the partial exponential sum.",
 "C51": "Floor and fractional part.",
 "C52": "Formulas for derivatives of 1/x; algebra; witnesses for the sign and factor errors.",
 "C53": "Phases by fractional part, histogram by C23; sums by class.",
 "C54": "Overlap of each GTI with each phase bin as a sum over periods; witness for the error of the code.",
 "C55": "Recurrence of sines and cosines of multiples; induction on the harmonic.",
 "C56": "Runs above threshold from C12, argmax in each run, any sort of the candidates.",
 "C57": "Loop over segments; witness for the events lost at the end.",
 "C58": "Algebra in an ordered field.",
 "C59": "Sequences of normalisation changes as a list; induction: the state depends on the last one only.",
 "C60": "Array sharing modelled by an explicit store; witness.",
 "C61": "Argmax over a selected slice; witness for the shifted index.",
 "C62": "Association list with its operations; invariant over sequences.",
 "C63": "Mean and variance of an affine image of a list.",
 "C64": "Length of convolution modes and slicing.",
 "C65": "Selection by bounds over the events of the file; GTIs cut to the range.",
 "C66": "Integer and fractional parts with a shift; algebra.",
 "C67": "Loop of subtractions with fuel; range by floor.",
 "C68": "Masks of energy ranges; case analysis of overlaps.",
 "C69": "Blocks of the input with overlap; index arithmetic on sums.",
 "C70": "Loop of the compiled 3-d histogram with its range test on each axis.",
 "C71": "Folds that add weights; sum by class.",
 "C72": "Bin index by floor, both for even and uneven edges; witness for the upper edge.",
 "C73": "Masking, then the GTI list that is stored; witness for the stored list.",
 "C74": "The comparison of attribute lists as in the code; witness of unequal series that compare equal.",
 "C75": "The state of lazily initialised attributes; witness.",
 "C76": "Rounding to whole samples with `rint` as parameter.",
 "C77": "Bound on the number of samples, algebra.",
 "C78": "Merging light curves by time; witness for the overlap handling.",
 "C79": "Parseval (C45) applied to the rms integrals.",
 "C80": "Inequalities for powers; witness for the log branch.",
 "C81": "Rotation of the complex sum of each harmonic.",
 "C82": "Maximum over a list with its first argmax.",
 "C83": "Chi square as a sum; non-negativity, zero case, permutation invariance.",
 "C84": "Sums over the two axes of a matrix; witness for the error of the code.",
 "C85": "Loop over channel names; witness.",
 "C86": "List of zeros and a box by rounding; witness for the start bin.",
 "C87": "Loop over parts; witness for events outside.",
 "C88": "Indexing into the response table.",
 "C89": "Longest common parts of strings as lists of characters; witness.",
 "C90": "Sum of integer and fractional parts.",
 "C91": "Loop over bands with half-open selections; sum over bands.",
 "C92": "Loop over bands with per-band state; witness for state that is carried over.",
 "C93": "Linear and given edges; consecutive pairs.",
 "C94": "Scaling of times; witness.",
 "C95": "The per-band loop; witness.",
 "C96": "Sum of lengths and covered set.",
 "C97": "Sum of prior and likelihood with -inf cases.",
 "C98": "State of the object with the stored model parameters; evaluation as state transformer; invariant over any history, for ties that point backwards; witness for a tie to a later tied parameter.",
 "C99": "Inequalities for log x and x - log x.",
 "C100": "Gamma density of averaged powers, algebra with logs; witness for the missing terms.",
 "C101": "List of free, fixed and tied parameters; witness.",
 "C102": "Formulas, algebra; witness.",
 "C103": "The optimiser is an arbitrary function; what is reported is computed from its result; witness.",
 "C104": "Fraction of simulations above the observed; bounds, witness for NaN.",
 "C105": "Maximum of ratios over the selected range.",
 "C106": "Guards as `Except`; refused iff.",
 "C107": "Correlation sums with SciPy's lag convention; index arithmetic.",
 "C108": "Rearrangement by Cauchy-Schwarz; witness for the first maximum.",
 "C109": "Cauchy-Schwarz; witness for modes that normalise differently.",
 "C110": "Order of `fftfreq`/`fftshift` as permutation; witness.",
 "C111": "Index and time bounds over sorted times.",
 "C112": "Python slices of bins; witness for steps.",
 "C113": "Common bins by GTI mask, row-wise operation.",
 "C114": "C20 applied within each GTI, concatenated; witness for GTIs with too few bins.",
 "C115": "Runs between gaps by recursion.",
 "C116": "Folds of C04, C07 and C09 over any number of lists.",
 "C117": "Concatenation and one argsort; rows by index lists; witnesses for the caller's list, empty series, disjoint GTIs and stale masks.",
 "C118": "The sums of the code against textbook densities (`Spec/Density`); algebra of logarithms.",
 "C119": "get_flux_iterable_from_segments for events and binned series modelled over time_intervals_from_gtis / bin_intervals_from_gtis and the histogram; counts per bin proved equal to the number of events in the bin's half-open interval.",
 "C120": "_safe_array_slice_indices, _shift_and_average_core and shift_and_add modelled loop by loop; induction over the spectra gives each bin as a weighted mean over the spectra that have the bin.",
 "C121": "levels and probabilities modelled with scipy's distribution functions as parameters, which the theorems instantiate with the exact chi square (Mathlib's gamma measure) and beta distributions and any exact inverse of them (existence proved by continuity).",
 "C122": "the three ways of making segments and the loop that calls the function modelled; samples of a segment characterised by their times (events) or by consecutive indices inside one GTI (binned).",
 "C123": "the search loop modelled with fuel, over the counts that analyze_segments gives; induction on the loop, and a bound on the number of turns from the longest GTI.",
 "C124": "the matrix modelled from the segments of events and the filter for segments without flux; columns characterised by counts of events between bin edges.",
 "C125": "the loops over rows and columns modelled around rebin_data (C20); for even grids the result is an explicit overlap-weighted mean around the old times, by a telescoping sum of overlaps.",
 "C126": "the call chain to make_lightcurve and histogram modelled; counts and weighted sums characterised per half-open bin with the lemmas of C23, C35 and C71.",
 "C127": "the generator modelled over the segment indices and make_lightcurve; counts characterised per bin through the slice of sorted events inside the segment.",
 "C128": "colour and intensity functions over analyze_segments (C122); the rows passed to them are the events of the segment, by the selection lemma of C122.",
 "C129": "power_color modelled over integrate_power_in_frequency_range (C46): band integrals for increasing edges; invariance under scaling by commuting the scale through each step.",
 "C130": "arctan2 is the argument of a complex number in Mathlib; range, direction and inverse from the polar form; the loops by induction on the number of turns.",
 "C131": "each round maps x to y + (x - y)/m, with y the solution of the equation: induction over the rounds with the distance to y as invariant.",
 "C132": "the formulas modelled with explicit missing values; existence from Cauchy-Schwarz, relations by algebra with a square root that is only assumed to square to its argument.",
 "C133": "window formulas over the reals of Mathlib; symmetry from cos(2 pi k - x) = cos x, bounds from bounds of the cosine and polynomial inequalities.",
 "C134": "the formulas modelled with explicit missing values; relations by algebra with a square root that is only assumed to square to its argument.",
 "C135": "percentiles modelled as interpolation in the sorted list; monotone and between its neighbours; number of elements below it by the position.",
 "C136": "the Toeplitz matrix is shown to hold the signal, zero outside the observation, at each lag from each time, so that the product with its transpose is the sum of triple products; the scaling matrix is shown to be the cardinality of the set of usable times by cases on the signs of the lags; a witness shows the wrap-around at a largest lag equal to the length",
 "C137": "closed form of the labels, compared with the frequencies of a transform of 2 L + 1 points (they differ by the factor 1 + 1/(2L)); closed form of the window, with a witness that it lacks one of the symmetries",
 "C138": "the gaps of a list of GTIs are consecutive ends and starts; every piece of a split is shown to lie between two consecutive indices, and the indices are those of the edges of the cumulative exposure or of the midpoints of the large gaps",
 "C139": "the random generator is a parameter constrained only by the range and number of its draws; each turn of the loop is shown to give samples inside its interval and the argsort is any sort by time",
 "C140": "from the theorems on join_gtis, applied to the GTIs and the widened intervals",
 "C141": "Model/Covariance.lean models the reference bands; Props/Covariance.lean proves by induction over the bands that reference plus band is the sum of all bands, and that bounds always raise (negation).",
 "C142": "The values are characterised by the identities n(n-1)c = nΣxy - ΣxΣy and n²v = nΣy² - (Σy)² - n²noise, independent of the code's formulas; laws and the Cauchy-Schwarz bound by algebra and induction; the error formula is refuted with a witness over the reals.",
 "C143": "Refuted in general: the number of segments is computed from the end of the first segment, so that every result is that of the first segment (negation, proved for all inputs); a single reference light curve always raises (negation). Partial: equality with the unaveraged spectrum when one segment contains everything.",
 "C144": "The general count of times and energies is proved for every band (the array with both columns is binned); with energies below all times this gives the right counts (partial). Negations: energies binned as times, events on the edge in both bands, bounds ignored for all inputs.",
 "C145": "The bands are characterised from the sorted distinct energies; coverage is proved in general, disjointness if each difference is less than twice the one before (partial), with a negation for other energies.",
 "C146": "Model/TimeSplit.lean on top of the model of slicing; the rows of each part are characterised exactly for sorted times; negations for repeated times at the end, lists without rows (general), and a first list equal to that of the series (general).",
 "C147": "Model/SpecRebin.lean on top of the model of rebin_data; all parts are characterised by the same mean over overlaps; the uncertainties are refuted for every number of bins and every value except 1.",
 "C148": "Model/SpecRebin.lean; proved for positive frequencies from the partition theorem of rebin_data_log; a negation for spectra with negative frequencies.",
 "C149": "Model/Bexvar.lean with the inverse incomplete gamma function and the logarithm as parameters; proved for grids of two or more values; negations for faint sources (all inputs) and rates below 0.1.",
 "C150": "Model/Bexvar.lean; direct proofs about sums.",
 "C151": "Model/Bexvar.lean; the result is characterised from the exposed rows; a negation for all faint sources.",
 "C152": "loop as a fold over pairs of segments accumulating one record per frequency, NaN as none; invariant of the fold gives the averages; relations proved per pair and carried through the mean (Cauchy-Schwarz for the coherence); a witness shows that a segment without photons makes everything undefined",
 "C153": "wrappers modelled around the loop of C152; the result is proved independent of the gti argument, the number of bins computed for every segment length, and the changed GTIs shown on a witness",
 "C154": "h bounded by Poisson tails, A complete as a series over the reals; the spectrum for even N is the specification's sum; the odd case is a negation: the frequencies returned are not those of the powers",
 "C155": "interpolation on an evenly spaced grid is shown to be the line through the two neighbours for every frequency, and linear extrapolation beyond; the documented default of n_approx is a negation",
 "C156": "each attribute is shown to be scaled; the normalised powers of the attached power spectra are not: a negation",
 "C157": "values, bounds and symmetry proved for every frequency; the bias is that of n (bins of a segment) averages, and powers below the noise give coherences above 1: negations",
 "C158": "the shift theorem of the discrete Fourier transform over the real numbers, and the argument of a positive multiple of exp(i theta)",
 "C159": "case distinction on the formulas having values; the lags' uncertainties have no default: a negation",
 "C160": "Model/PowerStats.lean models the selection, the simplification of arrays, the noise and the two rms functions with the merging of unaveraged powers by four; Props/PowerStats.lean proves the value, the error (the case merged by four excepted), the invariance under merging and the default noise. Without a segment size get_rms_from_unnorm_periodogram is not invariant under merging: negation.",
 "C161": "Model/PowerStats.lean models the method over the survival function of the chi-squared distribution; the theorems take Mathlib's distribution and use its closed form for even degrees of freedom.",
 "C162": "Model/PowerStats.lean takes the quantile function and the optimiser as parameters; what power_upper_limit gives is proved under the assumption that the optimiser finds a minimum (partial).",
 "C163": "Model/Missions.lean models nested dictionaries with insertion, update and pop; Props/Missions.lean proves the precedence against a case-insensitive look-up in the original dictionary.",
 "C164": "Model/Missions.lean models the lines, their words and the nested insertions; induction on the lines. Lines are selected by the beginning of their text, so a mission whose name begins that of another gets its keys: negation.",
 "C165": "Model/RxteTable.lean has the table; that its rows tile the channels and increase is checked by the kernel for the whole table, the step function is proved for any rows.",
 "C166": "model the constructor for one parameter, with the shape of chains that emcee documents; prove moments, percentiles, permutation and affine laws; refute the claim on R-hat by a theorem on all permutations of walkers at each step and a witness",
 "C167": "model the loops with fuel and the counters as a list; an invariant says that every product not below x is at least the best one found or still ahead of the counters; the number shown by the counters bounds the turns",
 "C168": "model both loops over the columns, with what each column holds afterwards; prove the values column by column, and refute that the object is unchanged with a witness",
 "C169": "Model: tables as ordered lists of named real or complex columns, the loop of write that splits and the loop of read that joins, with the variable that keeps its value between turns; str.replace as a recursive function. Proof: names without dots pass str.replace and the suffix tests; list surgery of one split column; the second complex column is computed for all values.",
 "C170": "Model: an object as its times, intervals, mask and a list of named values; the classification of attributes; the loops that assign columns and metadata, with the setters of properties. Proof: an invariant of assignment over lists with distinct names; the three classes are disjoint and exhaust what is kept.",
 "C171": "Model: interpret_times on a sum type of inputs, and its three callers with what each does with the returned reference. Proof: algebra of (m - ref) * 86400, and case analysis on the choice of the reference.",
 "C172": "Model: the sum with factorials as in the code, the truncation by the integer type of the result array, and the branches on the number of spectra. The incomplete gamma function is the tail of a chi square distribution of Mathlib. Proof: the identity that the sum of C(m+j, j) / 2^j over j <= m is 2^m by induction; strict monotonicity of the chi square tail.",
 "C173": "Model/Multitaper.lean: functions over an ordered field with the Fourier transform, the integral, sqrt and the tapers as parameters; the iteration by induction on the turns left.",
 "C174": "Model/InverseCdf.lean: the cumulative sum, the linear interpolation and the loop over intervals over an ordered field with the random numbers as arguments; the bin of a value is shown to be the bin of its random number.",
 "C175": "Model/Spectroscopy.lean: NumPy's binary search run on unsorted frequencies, complex arguments, and integrals of the waveform by explicit antiderivatives.",
 "C176": "real model of the two transforms with arctan2 as the argument of a complex number; orthogonality of the shifted sines and cosines, roots of unity for even sampling; explicit witness for the difference between the methods",
 "C177": "real model; positivity through the integral of a square for the kernel min, then exponential and cosine factors; lookups in the dictionary by names without repetition",
 "C178": "The search is modelled from the preparation of the light curve to the table; the Fourier transform, the convolution (modelled separately as overlap-and-save), the response templates and the statistics are parameters. The order in which results arrive is an argument; tables for two orders are permutations of each other. Membership of a row in the table is characterised, without and with interbinning. Interbinning: positions of old and new values, the two-sided case through the sorted list, and the gain for a tone halfway between two frequencies by a geometric sum. Negations: `zmax` is excluded from the grid, a single GTI is ignored, the caller's array is overwritten when gaps are filled, the normalisation uses the counts before filling, negative frequencies are reported as positive ones.",
 "C179": "histogram over equal bins as in numpy; each event is in exactly one bin; affine change of the time axis. Negation: with a reference MJD and no epoch the default epoch mixes seconds and MJD, witness over the rationals",
 "C180": "inverse real transform over the reals, orthogonality of sines and cosines, affine scaling. Negations: the seed does not reach the normal draws; the last frequency of odd sizes; given spectra with red noise; lists; times of impulse responses",
 "C181": "Model/EnergyLags.lean computes lag and covariance from a list of frequencies and complex powers over the reals. The weighted mean frequency is bounded by induction, phases by Complex.arg. Negations: a delay over several frequencies is not recovered exactly; noise shared with an overlapping reference band is left in the lag.",
 "C182": "Model/FftFit.lean over the reals with complex transforms; brentq is a parameter. The minimised function is shown to be the derivative of the correlation (HasDerivAt), rotation multiplies the transform with a phase (induction on the rotation). Negations: one bin never ends; fewer than 32 bins are refused; no default template.",
 "C183": "Model/BaselineAls.lean with Mathlib matrices over the reals: the system W + lam D D^T, its inverse, and NaN when singular. The quadratic form gives minimality; the kernel of the second differences consists of the straight lines. Negation: a constant light curve (no counts, say) has no baseline with the default ten rounds.",
 "C184": "`np.bincount`, `np.nonzero` and `np.searchsorted` are modelled as functions on lists, the confidence interval (astropy) is a parameter. The position of a value among those that occur is found by splitting the range at it.",
 "C185": "Arguments and generators are inductive types; the cases of the function, including Python's truth of an argument, are followed one by one.",
 "C186": "The response is modelled over the reals as the list of its three parts; the rise is bounded by the properties of the maximum it is divided by, the number of bins by floors.",
 "C187": "Comparisons of neighbours with NaNs as `none` are related to `List.Pairwise` by induction; `np.argsort` is a parameter that gives some permutation sorting the times.",
 "C188": "The functions are modelled over the reals. The derivative of the sinc, also at zero, is proved from bounds on the sine and compared with the code's by uniqueness of derivatives.",
 "C189": "The default dictionary is the state of a machine whose steps are calls; the invariant is proved by induction on the history.",
 "C190": "The functions are modelled over the reals with real powers; monotonicity follows from that of powers, the limits from continuity.",
 "C191": "The search is built on the model of folding (C53); the selection of events and weights by the same mask is proved by induction, and the two failures by evaluation of small searches in the kernel.",
 "C192": "Names are lists of characters; `str.replace` and `os.path.splitext` are modelled as loops, and removal of a prefix is characterised by infixes, by induction.",
 "C193": "Model the start as a number or an array with NumPy's truth of comparisons, apply_gtis and join on top of the model of C78; case analysis, induction for the span of the GTIs.",
 "C194": "Model the masked assignments of the loop over GTIs with the fit as a parameter; invariant of the loop by induction over the GTIs.",
 "C195": "Model both functions over the reals on top of the model of C130; trigonometry, with the direction theorem of C130 for the agreement of lines and hues."
}

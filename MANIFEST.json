{
 "claims": [
  {
   "property": "C01",
   "status": "proved",
   "theorems": [
    "Stingray.Gti.check_gtis_accepts_iff",
    "Stingray.Gti.check_gtis_accepted_ordered"
   ],
   "note": "check_gtis accepts exactly the non-empty forward, non-overlapping, time-ordered lists."
  },
  {
   "property": "C02",
   "status": "proved",
   "theorems": [
    "Stingray.Gti.create_gti_mask_complete_iff"
   ],
   "note": ""
  },
  {
   "property": "C03",
   "status": "partial",
   "theorems": [
    "Stingray.Gti.create_gti_mask_sound",
    "Stingray.Gti.create_gti_mask_exact_partial",
    "Stingray.Gti.create_gti_mask_exact_of_populated_partial",
    "Stingray.Gti.create_gti_mask_not_exact",
    "Stingray.Gti.create_gti_mask_min_length_raises",
    "Stingray.Gti.create_gti_mask_empty_raises"
   ],
   "note": "Full property is false (create_gti_mask_not_exact: one GTI per sample); soundness holds always, exactness under the stated hypotheses."
  },
  {
   "property": "C04",
   "status": "partial",
   "theorems": [
    "Stingray.Gti.cross_two_gtis_exact_partial",
    "Stingray.Gti.cross_two_gtis_complete",
    "Stingray.Gti.cross_two_gtis_not_exact_touching",
    "Stingray.Gti.cross_two_gtis_not_exact_empty"
   ],
   "note": "Full property is false for borders that touch and for zero-length GTIs (two negation theorems); exact otherwise; never loses common time."
  },
  {
   "property": "C05",
   "status": "partial",
   "theorems": [
    "Stingray.Gti.cross_gtis_exact_partial",
    "Stingray.Gti.cross_gtis_order_independent_partial"
   ],
   "note": "Follows C04: exact when no start of a list equals a stop of another."
  },
  {
   "property": "C06",
   "status": "proved",
   "theorems": [
    "Stingray.Gti.get_btis_complement",
    "Stingray.Gti.get_btis_default_limits",
    "Stingray.Gti.get_btis_empty"
   ],
   "note": ""
  },
  {
   "property": "C07",
   "status": "partial",
   "theorems": [
    "Stingray.Gti.join_gtis_union",
    "Stingray.Gti.join_gtis_rejects",
    "Stingray.Gti.join_gtis_comm",
    "Stingray.Gti.join_gtis_not_separated"
   ],
   "note": "Covered set is the union for all accepted lists; separation and acceptance need positive-length GTIs (or lists that are not separate), false otherwise (join_gtis_not_separated). The full property is false of the code, with proved witnesses: join_gtis_not_separated."
  },
  {
   "property": "C08",
   "status": "partial",
   "theorems": [
    "Stingray.Gti.check_separate_iff_partial",
    "Stingray.Gti.check_separate_symm",
    "Stingray.Gti.check_separate_not_exact"
   ],
   "note": "Full property is false for borders touching in the middle (check_separate_not_exact). The full property is false of the code, with proved witnesses: check_separate_not_exact."
  },
  {
   "property": "C09",
   "status": "partial",
   "theorems": [
    "Stingray.Gti.append_gtis_union",
    "Stingray.Gti.append_gtis_wellformed_partial",
    "Stingray.Gti.append_gtis_not_accepted",
    "Stingray.Gti.append_gtis_touching_raises"
   ],
   "note": "Union and exposure for all accepted lists; acceptance by check_gtis for positive lengths, false with zero-length GTIs (append_gtis_not_accepted). The full property is false of the code, with proved witnesses: append_gtis_not_accepted, append_gtis_touching_raises."
  },
  {
   "property": "C10",
   "status": "proved",
   "theorems": [
    "Stingray.Gti.join_equal_gti_boundaries_spec"
   ],
   "note": ""
  },
  {
   "property": "C11",
   "status": "proved",
   "theorems": [
    "Stingray.Gti.create_gti_from_condition_iff",
    "Stingray.Gti.create_gti_from_condition_samples",
    "Stingray.Gti.create_gti_from_condition_default",
    "Stingray.Gti.create_gti_from_condition_errors"
   ],
   "note": ""
  },
  {
   "property": "C12",
   "status": "proved",
   "theorems": [
    "Stingray.Gti.contiguous_regions_spec",
    "Stingray.Gti.contiguous_regions_maximal_runs"
   ],
   "note": ""
  },
  {
   "property": "C13",
   "status": "proved",
   "theorems": [
    "Stingray.Gti.time_intervals_from_gtis_iff",
    "Stingray.Gti.time_intervals_from_gtis_disjoint",
    "Stingray.Gti.time_intervals_from_gtis_error"
   ],
   "note": ""
  },
  {
   "property": "C14",
   "status": "partial",
   "theorems": [
    "Stingray.Gti.gti_border_bins_exact",
    "Stingray.Gti.bin_intervals_from_gtis_inside_partial",
    "Stingray.Gti.bin_intervals_from_gtis_complete",
    "Stingray.Gti.bin_intervals_from_gtis_disjoint",
    "Stingray.Gti.bin_intervals_overrun",
    "Stingray.Gti.gti_border_bins_raises"
   ],
   "note": "False for fraction_step<1 (bin_intervals_overrun) and when a GTI lies after all data (gti_border_bins_raises); proved for steps of at least one segment. The full property is false of the code, with proved witnesses: bin_intervals_overrun, gti_border_bins_raises."
  },
  {
   "property": "C15",
   "status": "partial",
   "theorems": [
    "Stingray.Gti.split_gtis_at_indices_concat",
    "Stingray.Gti.split_gtis_by_exposure_preserves",
    "Stingray.Gti.split_gtis_by_exposure_sep_raises"
   ],
   "note": "Proved for split_gtis_at_indices and split_gtis_by_exposure; with new_interval_if_gti_sep and no large gap the code raises (split_gtis_by_exposure_sep_raises). The full property is false of the code, with proved witnesses: split_gtis_by_exposure_sep_raises."
  },
  {
   "property": "C16",
   "status": "proved",
   "theorems": [
    "Stingray.Gti.segment_indices_unbinned_exact",
    "Stingray.Gti.segment_indices_unbinned_disjoint",
    "Stingray.Gti.segment_indices_unbinned_unsorted"
   ],
   "note": ""
  },
  {
   "property": "C17",
   "status": "proved",
   "theorems": [
    "Stingray.Filters.non_paralyzable_exact",
    "Stingray.Filters.non_paralyzable_in_words"
   ],
   "note": ""
  },
  {
   "property": "C18",
   "status": "partial",
   "theorems": [
    "Stingray.Filters.paralyzable_exact_partial",
    "Stingray.Filters.paralyzable_variable_wrong"
   ],
   "note": "The full property is false of the code, with proved witnesses: paralyzable_variable_wrong."
  },
  {
   "property": "C19",
   "status": "proved",
   "theorems": [
    "Stingray.Filters.filter_for_deadtime_sublist",
    "Stingray.Filters.filter_for_deadtime_trivial",
    "Stingray.Filters.get_deadtime_mask_no_bkg",
    "Stingray.Filters.filter_for_deadtime_bkg",
    "Stingray.Filters.filter_for_deadtime_bkg_monotone"
   ],
   "note": ""
  },
  {
   "property": "C20",
   "status": "proved",
   "theorems": [
    "Stingray.Rebin.rebin_data_sum",
    "Stingray.Rebin.rebin_data_covered",
    "Stingray.Rebin.rebin_data_conserves",
    "Stingray.Rebin.rebin_data_mean",
    "Stingray.Rebin.rebin_data_abscissae",
    "Stingray.Rebin.rebin_data_refuses",
    "Stingray.Rebin.rebin_data_dx_zero"
   ],
   "note": ""
  },
  {
   "property": "C21",
   "status": "partial",
   "theorems": [
    "Stingray.Rebin.rebin_data_err_not_quadrature",
    "Stingray.Rebin.rebin_data_err_partial",
    "Stingray.Rebin.rebin_data_err_unit_partial"
   ],
   "note": "The full property is false of the code, with proved witnesses: rebin_data_err_not_quadrature."
  },
  {
   "property": "C22",
   "status": "proved",
   "theorems": [
    "Stingray.RebinLog.rebin_data_log_partition",
    "Stingray.RebinLog.rebin_data_log_refuses"
   ],
   "note": ""
  },
  {
   "property": "C23",
   "status": "proved",
   "theorems": [
    "Stingray.Hist.hist1d_weight_bin",
    "Stingray.Hist.hist1d_bin",
    "Stingray.Hist.hist1d_weight_total",
    "Stingray.Hist.hist2d_weight_bin",
    "Stingray.Hist.hist2d_bin"
   ],
   "note": ""
  },
  {
   "property": "C24",
   "status": "partial",
   "theorems": [
    "Stingray.UtilsMisc.nearest_power_of_two_wrong",
    "Stingray.UtilsMisc.nearest_power_of_two_one",
    "Stingray.UtilsMisc.nearest_power_of_two_partial"
   ],
   "note": "The full property is false of the code, with proved witnesses: nearest_power_of_two_wrong, nearest_power_of_two_one."
  },
  {
   "property": "C25",
   "status": "proved",
   "theorems": [
    "Stingray.UtilsMisc.find_nearest_min",
    "Stingray.UtilsMisc.find_nearest_empty"
   ],
   "note": ""
  },
  {
   "property": "C26",
   "status": "partial",
   "theorems": [
    "Stingray.UtilsMisc.columns_round_trip_partial",
    "Stingray.UtilsMisc.columns_round_trip_wrong",
    "Stingray.UtilsMisc.columns_round_trip_empty"
   ],
   "note": "The full property is false of the code, with proved witnesses: columns_round_trip_wrong, columns_round_trip_empty."
  },
  {
   "property": "C27",
   "status": "proved",
   "theorems": [
    "Stingray.TimeSeries.apply_mask_rows",
    "Stingray.TimeSeries.apply_mask_total",
    "Stingray.TimeSeries.set_time_aligned"
   ],
   "note": ""
  },
  {
   "property": "C28",
   "status": "partial",
   "theorems": [
    "Stingray.TimeSeries.mask_coherent_partial",
    "Stingray.TimeSeries.mask_stale_after_gti_none",
    "Stingray.TimeSeries.mask_stale_after_time"
   ],
   "note": "The full property is false of the code, with proved witnesses: mask_stale_after_gti_none, mask_stale_after_time."
  },
  {
   "property": "C29",
   "status": "proved",
   "theorems": [
    "Stingray.TimeSeries.change_mjdref_absolute",
    "Stingray.TimeSeries.change_mjdref_comp",
    "Stingray.TimeSeries.change_mjdref_sequence"
   ],
   "note": ""
  },
  {
   "property": "C30",
   "status": "partial",
   "theorems": [
    "Stingray.TimeSeries.arithmetic_keeps_operands_partial",
    "Stingray.TimeSeries.arithmetic_mjdref",
    "Stingray.TimeSeries.arithmetic_overwrites_operands"
   ],
   "note": "The full property is false of the code, with proved witnesses: arithmetic_overwrites_operands."
  },
  {
   "property": "C31",
   "status": "partial",
   "theorems": [
    "Stingray.TimeSeries.getitem_slice_partial",
    "Stingray.TimeSeries.getitem_int_partial",
    "Stingray.TimeSeries.getitem_rows",
    "Stingray.TimeSeries.getitem_int_gti",
    "Stingray.TimeSeries.getitem_minus_one_fails",
    "Stingray.TimeSeries.getitem_reversed_fails"
   ],
   "note": "The full property is false of the code, with proved witnesses: getitem_minus_one_fails, getitem_reversed_fails."
  },
  {
   "property": "C32",
   "status": "partial",
   "theorems": [
    "Stingray.TimeSeries.split_by_gti_partial",
    "Stingray.TimeSeries.split_no_doubling",
    "Stingray.TimeSeries.split_by_gti_loses_events"
   ],
   "note": "The full property is false of the code, with proved witnesses: split_by_gti_loses_events."
  },
  {
   "property": "C33",
   "status": "proved",
   "theorems": [
    "Stingray.TimeSeries.sort_rows"
   ],
   "note": ""
  },
  {
   "property": "C34",
   "status": "partial",
   "theorems": [
    "Stingray.Lightcurve.counts_rate_consistent_partial",
    "Stingray.Lightcurve.assignments_refuse",
    "Stingray.Lightcurve.meanrate_first_partial",
    "Stingray.Lightcurve.assigned_errors_consistent_partial",
    "Stingray.Lightcurve.meanrate_stale",
    "Stingray.Lightcurve.meancounts_stale_after_gti",
    "Stingray.Lightcurve.counts_err_depends_on_order",
    "Stingray.Lightcurve.counts_err_stale"
   ],
   "note": "The full property is false of the code, with proved witnesses: meanrate_stale, meancounts_stale_after_gti, counts_err_depends_on_order, counts_err_stale."
  },
  {
   "property": "C35",
   "status": "proved",
   "theorems": [
    "Stingray.Lightcurve.make_lightcurve_counts",
    "Stingray.Lightcurve.make_lightcurve_use_hist"
   ],
   "note": ""
  },
  {
   "property": "C36",
   "status": "partial",
   "theorems": [
    "Stingray.Lightcurve.from_lc_events",
    "Stingray.Lightcurve.from_lc_no_counts",
    "Stingray.Lightcurve.from_lc_to_lc"
   ],
   "note": "The full property is false of the code, with proved witnesses: from_lc_no_counts."
  },
  {
   "property": "C37",
   "status": "proved",
   "theorems": [
    "Stingray.Lightcurve.filter_energy_exact",
    "Stingray.Lightcurve.energy_bands_tile",
    "Stingray.Lightcurve.energy_bands_disjoint"
   ],
   "note": ""
  },
  {
   "property": "C38",
   "status": "proved",
   "theorems": [
    "Stingray.Fourier.positive_fft_bins_exact"
   ],
   "note": ""
  },
  {
   "property": "C39",
   "status": "partial",
   "theorems": [
    "Stingray.Fourier.unnormalize_normalize_partial",
    "Stingray.Fourier.unnormalize_leahy_variance"
   ],
   "note": "The full property is false of the code, with proved witnesses: unnormalize_leahy_variance."
  },
  {
   "property": "C40",
   "status": "proved",
   "theorems": [
    "Stingray.Fourier.poisson_level_consistent",
    "Stingray.Fourier.norm_relations"
   ],
   "note": ""
  },
  {
   "property": "C41",
   "status": "partial",
   "theorems": [
    "Stingray.Fourier.avg_pds_mean",
    "Stingray.Fourier.avg_pds_total",
    "Stingray.Fourier.avg_pds_ignores_unusable",
    "Stingray.Fourier.avg_pds_zero_with_errors"
   ],
   "note": "The full property is false of the code, with proved witnesses: avg_pds_zero_with_errors."
  },
  {
   "property": "C42",
   "status": "partial",
   "theorems": [
    "Stingray.Fourier.aux_pds_average_partial",
    "Stingray.Fourier.aux_pds_are_sums"
   ],
   "note": "The full property is false of the code, with proved witnesses: aux_pds_are_sums."
  },
  {
   "property": "C43",
   "status": "proved",
   "theorems": [
    "Stingray.Fourier.quick_eq_full"
   ],
   "note": ""
  },
  {
   "property": "C44",
   "status": "proved",
   "theorems": [
    "Stingray.Fourier.cross_self",
    "Stingray.Fourier.cross_exchange"
   ],
   "note": ""
  },
  {
   "property": "C45",
   "status": "proved",
   "theorems": [
    "Stingray.Fourier.parseval_frac",
    "Stingray.Fourier.parseval_frac_odd"
   ],
   "note": ""
  },
  {
   "property": "C46",
   "status": "partial",
   "theorems": [
    "Stingray.Fourier.integrate_power_partial",
    "Stingray.Fourier.integrate_power_single_bin",
    "Stingray.Fourier.integrate_power_outside"
   ],
   "note": "The full property is false of the code, with proved witnesses: integrate_power_single_bin, integrate_power_outside."
  },
  {
   "property": "C47",
   "status": "proved",
   "theorems": [
    "Stingray.Fourier.raw_coherence_nonneg",
    "Stingray.Fourier.raw_coherence_noise",
    "Stingray.Fourier.raw_coherence_bounds",
    "Stingray.Fourier.raw_coherence_single"
   ],
   "note": ""
  },
  {
   "property": "C48",
   "status": "partial",
   "theorems": [
    "Stingray.Stats.multi_bounds",
    "Stingray.Stats.multi_accuracy",
    "Stingray.Stats.multi_of_single",
    "Stingray.Stats.single_of_multi_partial",
    "Stingray.Stats.single_of_multi_strip"
   ],
   "note": "The full property is false of the code, with proved witnesses: single_of_multi_strip."
  },
  {
   "property": "C49",
   "status": "proved",
   "theorems": [
    "Stingray.Stats.pulsed_fraction_inverse",
    "Stingray.Stats.pulsed_fraction_range"
   ],
   "note": ""
  },
  {
   "property": "C50",
   "status": "partial",
   "theorems": [
    "Stingray.Stats.classical_pvalue_sum_partial",
    "Stingray.Stats.classical_pvalue_single",
    "Stingray.Stats.pvalue_sum_decreasing",
    "Stingray.Stats.classical_pvalue_zero",
    "Stingray.Stats.classical_pvalue_many",
    "Stingray.Stats.classical_pvalue_errors"
   ],
   "note": "The full property is false of the code, with proved witnesses: classical_pvalue_zero, classical_pvalue_many."
  },
  {
   "property": "C51",
   "status": "proved",
   "theorems": [
    "Stingray.Pulsar.pulse_phase_fract",
    "Stingray.Pulsar.pulse_phase_periodic"
   ],
   "note": ""
  },
  {
   "property": "C52",
   "status": "partial",
   "theorems": [
    "Stingray.Pulsar.p_to_f_involution_partial",
    "Stingray.Pulsar.p_to_f_integers",
    "Stingray.Pulsar.p_to_f_fifth",
    "Stingray.Pulsar.p_to_f_reciprocal",
    "Stingray.Pulsar.p_to_f_rate"
   ],
   "note": "The full property is false of the code, with proved witnesses: p_to_f_integers, p_to_f_fifth."
  },
  {
   "property": "C53",
   "status": "proved",
   "theorems": [
    "Stingray.Pulsar.fold_events_exact",
    "Stingray.Pulsar.fold_events_weights",
    "Stingray.Pulsar.fold_events_few",
    "Stingray.Pulsar.profile_fast_exact"
   ],
   "note": ""
  },
  {
   "property": "C54",
   "status": "partial",
   "theorems": [
    "Stingray.Pulsar.phase_exposure_overlap_partial",
    "Stingray.Pulsar.phase_exposure_total_partial",
    "Stingray.Pulsar.phase_exposure_normalised",
    "Stingray.Pulsar.phase_exposure_negative"
   ],
   "note": "The full property is false of the code, with proved witnesses: phase_exposure_negative."
  },
  {
   "property": "C55",
   "status": "proved",
   "theorems": [
    "Stingray.Pulsar.z_binned_eq",
    "Stingray.Pulsar.z_n_binned",
    "Stingray.Pulsar.z_gauss_eq",
    "Stingray.Pulsar.z_events_eq",
    "Stingray.Pulsar.z_n_kinds"
   ],
   "note": ""
  },
  {
   "property": "C56",
   "status": "proved",
   "theorems": [
    "Stingray.Pulsar.best_peaks_spec",
    "Stingray.Pulsar.best_peaks_none"
   ],
   "note": ""
  },
  {
   "property": "C57",
   "status": "partial",
   "theorems": [
    "Stingray.Pulsar.folding_search_drops_last",
    "Stingray.Pulsar.folding_search_segments_partial"
   ],
   "note": "The full property is false of the code, with proved witnesses: folding_search_drops_last."
  },
  {
   "property": "C58",
   "status": "proved",
   "theorems": [
    "Stingray.DeadTime.r_in_r_det",
    "Stingray.DeadTime.r_det_r_in",
    "Stingray.DeadTime.r_det_strict_mono",
    "Stingray.DeadTime.rate_edges"
   ],
   "note": ""
  },
  {
   "property": "C59",
   "status": "proved",
   "theorems": [
    "Stingray.Spectrum.to_norm_consistent",
    "Stingray.Spectrum.to_norm_path",
    "Stingray.Spectrum.to_norm_errors"
   ],
   "note": ""
  },
  {
   "property": "C60",
   "status": "partial",
   "theorems": [
    "Stingray.Spectrum.rebin_by_n_partial",
    "Stingray.Spectrum.rebin_by_n_original",
    "Stingray.Spectrum.rebin_by_n_twice"
   ],
   "note": "The full property is false of the code, with proved witnesses: rebin_by_n_twice."
  },
  {
   "property": "C61",
   "status": "partial",
   "theorems": [
    "Stingray.Spectrum.trace_maximum_partial",
    "Stingray.Spectrum.trace_maximum_outside"
   ],
   "note": "The full property is false of the code, with proved witnesses: trace_maximum_outside."
  },
  {
   "property": "C62",
   "status": "proved",
   "theorems": [
    "Stingray.Simulator.channels_refine",
    "Stingray.Simulator.get_channel_spec"
   ],
   "note": ""
  },
  {
   "property": "C63",
   "status": "partial",
   "theorems": [
    "Stingray.Simulator.scaled_mean_rms",
    "Stingray.Simulator.scaled_red_noise",
    "Stingray.Simulator.red_noise_rms"
   ],
   "note": "The full property is false of the code, with proved witnesses: red_noise_rms."
  },
  {
   "property": "C64",
   "status": "partial",
   "theorems": [
    "Stingray.Simulator.impulse_response_partial",
    "Stingray.Simulator.impulse_response_one_bin"
   ],
   "note": "The full property is false of the code, with proved witnesses: impulse_response_one_bin."
  },
  {
   "property": "C65",
   "status": "partial",
   "theorems": [
    "Stingray.Io.rows_in_interval",
    "Stingray.Io.whole_file",
    "Stingray.Io.split_file_partial",
    "Stingray.Io.split_file_drops_lists"
   ],
   "note": "The full property is false of the code, with proved witnesses: split_file_drops_lists."
  },
  {
   "property": "C66",
   "status": "partial",
   "theorems": [
    "Stingray.Io.split_numbers_lossless",
    "Stingray.Io.split_numbers_array",
    "Stingray.Io.split_numbers_mutates"
   ],
   "note": "The full property is false of the code, with proved witnesses: split_numbers_mutates."
  },
  {
   "property": "C67",
   "status": "proved",
   "theorems": [
    "Stingray.Pulsar.normalize_phase_spec",
    "Stingray.Pulsar.normalize_phase_fuel"
   ],
   "note": ""
  },
  {
   "property": "C68",
   "status": "partial",
   "theorems": [
    "Stingray.VarEnergy.ref_band_partial",
    "Stingray.VarEnergy.ref_band_shared_border",
    "Stingray.VarEnergy.ref_band_channel_from_zero"
   ],
   "note": "The full property is false of the code, with proved witnesses: ref_band_shared_border, ref_band_channel_from_zero."
  },
  {
   "property": "C69",
   "status": "proved",
   "theorems": [
    "Stingray.Ols.ols_same"
   ],
   "note": ""
  },
  {
   "property": "C70",
   "status": "partial",
   "theorems": [
    "Stingray.Hist.hist3d_weight_bin_partial",
    "Stingray.Hist.hist3d_bin_partial",
    "Stingray.Hist.hist3d_counts_out_of_range",
    "Stingray.Hist.hist3d_fails_out_of_range"
   ],
   "note": "The full property is false of the code, with proved witnesses: hist3d_counts_out_of_range, hist3d_fails_out_of_range."
  },
  {
   "property": "C71",
   "status": "partial",
   "theorems": [
    "Stingray.Hist.hist1d_weight_int_truncates",
    "Stingray.Hist.hist1d_weight_int_partial"
   ],
   "note": "The full property is false of the code, with proved witnesses: hist1d_weight_int_truncates."
  },
  {
   "property": "C72",
   "status": "partial",
   "theorems": [
    "Stingray.Hist.compute_bin_below_first_edge",
    "Stingray.Hist.compute_bin_iff_partial"
   ],
   "note": "The full property is false of the code, with proved witnesses: compute_bin_below_first_edge."
  },
  {
   "property": "C73",
   "status": "partial",
   "theorems": [
    "Stingray.TimeSeries.apply_gtis_inplace",
    "Stingray.TimeSeries.apply_gtis_copy_keeps_old_gtis"
   ],
   "note": "The full property is false of the code, with proved witnesses: apply_gtis_copy_keeps_old_gtis."
  },
  {
   "property": "C74",
   "status": "partial",
   "theorems": [
    "Stingray.TimeSeries.eq_sound_partial",
    "Stingray.TimeSeries.eq_ignores_times"
   ],
   "note": "The full property is false of the code, with proved witnesses: eq_ignores_times."
  },
  {
   "property": "C75",
   "status": "partial",
   "theorems": [
    "Stingray.TimeSeries.eq_symm_partial",
    "Stingray.TimeSeries.eq_depends_on_reading_mask"
   ],
   "note": "The full property is false of the code, with proved witnesses: eq_depends_on_reading_mask."
  },
  {
   "property": "C76",
   "status": "proved",
   "theorems": [
    "Stingray.Lightcurve.fix_segment_size_bounds",
    "Stingray.Lightcurve.fix_segment_size_exact"
   ],
   "note": ""
  },
  {
   "property": "C77",
   "status": "proved",
   "theorems": [
    "Stingray.Lightcurve.suggest_dt_multiple"
   ],
   "note": ""
  },
  {
   "property": "C78",
   "status": "partial",
   "theorems": [
    "Stingray.Lightcurve.join_samples_partial",
    "Stingray.Lightcurve.join_repeated_partial",
    "Stingray.Lightcurve.join_not_sorted"
   ],
   "note": "The full property is false of the code, with proved witnesses: join_not_sorted."
  },
  {
   "property": "C79",
   "status": "proved",
   "theorems": [
    "Stingray.Fourier.rms_is_fractional_std",
    "Stingray.Fourier.rms_unnorm_eq_norm",
    "Stingray.Fourier.rms_unnorm_default_noise",
    "Stingray.Fourier.rms_unnorm_no_variability"
   ],
   "note": ""
  },
  {
   "property": "C80",
   "status": "partial",
   "theorems": [
    "Stingray.Stats.multi_monotone_partial",
    "Stingray.Stats.multi_not_monotone"
   ],
   "note": "The full property is false of the code, with proved witnesses: multi_not_monotone."
  },
  {
   "property": "C81",
   "status": "proved",
   "theorems": [
    "Stingray.Pulsar.z_events_shift",
    "Stingray.Pulsar.z_binned_rotate",
    "Stingray.Pulsar.z_binned_monotone"
   ],
   "note": ""
  },
  {
   "property": "C82",
   "status": "proved",
   "theorems": [
    "Stingray.Pulsar.htest_spec",
    "Stingray.Pulsar.htest_errors"
   ],
   "note": ""
  },
  {
   "property": "C83",
   "status": "proved",
   "theorems": [
    "Stingray.Pulsar.ef_stat_spec",
    "Stingray.Pulsar.ef_stat_default"
   ],
   "note": ""
  },
  {
   "property": "C84",
   "status": "partial",
   "theorems": [
    "Stingray.Simulator.time_response_default_partial",
    "Stingray.Simulator.time_response_drops",
    "Stingray.Simulator.energy_response_spec"
   ],
   "note": "The full property is false of the code, with proved witnesses: time_response_drops."
  },
  {
   "property": "C85",
   "status": "partial",
   "theorems": [
    "Stingray.Simulator.get_channels_spec",
    "Stingray.Simulator.get_channels_order"
   ],
   "note": "The full property is false of the code, with proved witnesses: get_channels_order."
  },
  {
   "property": "C86",
   "status": "partial",
   "theorems": [
    "Stingray.Simulator.simple_ir_spec",
    "Stingray.Simulator.simple_ir_delta"
   ],
   "note": "The full property is false of the code, with proved witnesses: simple_ir_delta."
  },
  {
   "property": "C87",
   "status": "partial",
   "theorems": [
    "Stingray.Io.split_times_in_gti_partial",
    "Stingray.Io.split_times_timezero"
   ],
   "note": "The full property is false of the code, with proved witnesses: split_times_timezero."
  },
  {
   "property": "C88",
   "status": "proved",
   "theorems": [
    "Stingray.Io.pi_to_energy_spec"
   ],
   "note": ""
  },
  {
   "property": "C89",
   "status": "partial",
   "theorems": [
    "Stingray.Io.common_name_spec_partial",
    "Stingray.Io.common_name_underscore"
   ],
   "note": "The full property is false of the code, with proved witnesses: common_name_underscore."
  },
  {
   "property": "C90",
   "status": "proved",
   "theorems": [
    "Stingray.Io.keyword_read_spec"
   ],
   "note": ""
  },
  {
   "property": "C91",
   "status": "proved",
   "theorems": [
    "Stingray.VarEnergy.count_spectrum_spec"
   ],
   "note": ""
  },
  {
   "property": "C92",
   "status": "partial",
   "theorems": [
    "Stingray.VarEnergy.energy_spectrum_local_partial",
    "Stingray.VarEnergy.rms_spectrum_ignores_pi",
    "Stingray.VarEnergy.lag_spectrum_first_ref_band"
   ],
   "note": "The full property is false of the code, with proved witnesses: rms_spectrum_ignores_pi, lag_spectrum_first_ref_band."
  },
  {
   "property": "C93",
   "status": "proved",
   "theorems": [
    "Stingray.VarEnergy.energy_edges_spec",
    "Stingray.VarEnergy.energy_centres_spec"
   ],
   "note": ""
  },
  {
   "property": "C94",
   "status": "partial",
   "theorems": [
    "Stingray.VarEnergy.rms_scales",
    "Stingray.VarEnergy.rms_error_not_homogeneous"
   ],
   "note": "The full property is false of the code, with proved witnesses: rms_error_not_homogeneous."
  },
  {
   "property": "C95",
   "status": "partial",
   "theorems": [
    "Stingray.VarEnergy.excess_variance_spectrum_nan"
   ],
   "note": "The property is false of the code; only its negation is proved: excess_variance_spectrum_nan."
  },
  {
   "property": "C96",
   "status": "proved",
   "theorems": [
    "Stingray.Gti.total_gti_length_spec"
   ],
   "note": ""
  },
  {
   "property": "C97",
   "status": "proved",
   "theorems": [
    "Stingray.Modeling.logprior_spec",
    "Stingray.Modeling.logposterior_spec"
   ],
   "note": ""
  },
  {
   "property": "C98",
   "status": "partial",
   "theorems": [
    "Stingray.Modeling.evaluate_value_partial",
    "Stingray.Modeling.evaluate_history_ties_partial",
    "Stingray.Modeling.evaluate_remembers",
    "Stingray.Modeling.evaluate_history_partial",
    "Stingray.Modeling.evaluate_keeps_fixed"
   ],
   "note": "The full property is false of the code, with proved witnesses: evaluate_remembers."
  },
  {
   "property": "C99",
   "status": "proved",
   "theorems": [
    "Stingray.Modeling.psd_like_max",
    "Stingray.Modeling.gauss_laplace_max",
    "Stingray.Modeling.poisson_like_max",
    "Stingray.Modeling.like_not_positive"
   ],
   "note": ""
  },
  {
   "property": "C100",
   "status": "partial",
   "theorems": [
    "Stingray.Modeling.psd_like_single_partial",
    "Stingray.Modeling.psd_like_averaged_twice",
    "Stingray.Modeling.psd_like_ones"
   ],
   "note": "The full property is false of the code, with proved witnesses: psd_like_averaged_twice, psd_like_ones."
  },
  {
   "property": "C101",
   "status": "partial",
   "theorems": [
    "Stingray.Modeling.psd_posterior_tied_fails",
    "Stingray.Modeling.psd_posterior_value_partial"
   ],
   "note": "The full property is false of the code, with proved witnesses: psd_posterior_tied_fails."
  },
  {
   "property": "C102",
   "status": "partial",
   "theorems": [
    "Stingray.Modeling.deviance_spec",
    "Stingray.Modeling.criteria_wrong"
   ],
   "note": "The full property is false of the code, with proved witnesses: criteria_wrong."
  },
  {
   "property": "C103",
   "status": "partial",
   "theorems": [
    "Stingray.Modeling.fit_value",
    "Stingray.Modeling.bounds_never_used",
    "Stingray.Modeling.fit_spec",
    "Stingray.Modeling.fit_accepts_forbidden"
   ],
   "note": "The full property is false of the code, with proved witnesses: bounds_never_used, fit_accepts_forbidden."
  },
  {
   "property": "C104",
   "status": "partial",
   "theorems": [
    "Stingray.Modeling.pvalue_failed_fits_all",
    "Stingray.Modeling.pvalue_spec",
    "Stingray.Modeling.pvalue_failed_fits"
   ],
   "note": "The full property is false of the code, with proved witnesses: pvalue_failed_fits_all, pvalue_failed_fits."
  },
  {
   "property": "C105",
   "status": "proved",
   "theorems": [
    "Stingray.Modeling.highest_outlier_spec"
   ],
   "note": ""
  },
  {
   "property": "C106",
   "status": "proved",
   "theorems": [
    "Stingray.Fourier.normalize_powers_by_type",
    "Stingray.Fourier.normalize_refuses_iff",
    "Stingray.Fourier.normalize_power_types",
    "Stingray.Fourier.poisson_level_refuses_iff"
   ],
   "note": ""
  },
  {
   "property": "C107",
   "status": "proved",
   "theorems": [
    "Stingray.CrossCorr.cross_correlation_spec",
    "Stingray.CrossCorr.cross_correlation_refuses",
    "Stingray.CrossCorr.cross_correlation_exchange"
   ],
   "note": ""
  },
  {
   "property": "C108",
   "status": "partial",
   "theorems": [
    "Stingray.CrossCorr.autocorrelation_spec",
    "Stingray.CrossCorr.autocorrelation_constant",
    "Stingray.CrossCorr.cross_correlation_changes_dt"
   ],
   "note": "The full property is false of the code, with proved witnesses: autocorrelation_constant, cross_correlation_changes_dt."
  },
  {
   "property": "C109",
   "status": "partial",
   "theorems": [
    "Stingray.CrossCorr.variance_norm_bounds_partial",
    "Stingray.CrossCorr.variance_norm_lengths",
    "Stingray.CrossCorr.variance_norm_errors"
   ],
   "note": "The full property is false of the code, with proved witnesses: variance_norm_lengths, variance_norm_errors."
  },
  {
   "property": "C110",
   "status": "partial",
   "theorems": [
    "Stingray.CrossCorr.cross_spectrum_lags_partial",
    "Stingray.CrossCorr.cross_spectrum_lags_wrong",
    "Stingray.CrossCorr.cross_spectrum_full_wrong"
   ],
   "note": "The full property is false of the code, with proved witnesses: cross_spectrum_lags_wrong, cross_spectrum_full_wrong."
  },
  {
   "property": "C111",
   "status": "partial",
   "theorems": [
    "Stingray.LcOps.truncate_time_partial",
    "Stingray.LcOps.truncate_gti_partial",
    "Stingray.LcOps.truncate_time_zero",
    "Stingray.LcOps.truncate_time_refuses"
   ],
   "note": "The full property is false of the code, with proved witnesses: truncate_time_zero."
  },
  {
   "property": "C112",
   "status": "partial",
   "theorems": [
    "Stingray.LcOps.lc_slice_partial",
    "Stingray.LcOps.lc_slice_beyond",
    "Stingray.LcOps.lc_slice_reversed"
   ],
   "note": "The full property is false of the code, with proved witnesses: lc_slice_beyond, lc_slice_reversed."
  },
  {
   "property": "C113",
   "status": "partial",
   "theorems": [
    "Stingray.LcOps.lc_operation_partial",
    "Stingray.LcOps.lc_operation_mjdref",
    "Stingray.LcOps.lc_sum_of_three_loses_errors",
    "Stingray.LcOps.lc_neg_spec",
    "Stingray.LcOps.lc_neg_neg"
   ],
   "note": "The full property is false of the code, with proved witnesses: lc_sum_of_three_loses_errors, lc_neg_neg."
  },
  {
   "property": "C114",
   "status": "partial",
   "theorems": [
    "Stingray.LcOps.lc_rebin_refuses",
    "Stingray.LcOps.lc_rebin_spec",
    "Stingray.LcOps.lc_rebin_conserves",
    "Stingray.LcOps.ts_rebin_refuses",
    "Stingray.LcOps.ts_rebin_spec_partial",
    "Stingray.LcOps.ts_rebin_keeps_short_gtis"
   ],
   "note": "The full property is false of the code, with proved witnesses: ts_rebin_keeps_short_gtis."
  },
  {
   "property": "C115",
   "status": "proved",
   "theorems": [
    "Stingray.LcOps.split_gtis_spec"
   ],
   "note": ""
  },
  {
   "property": "C116",
   "status": "partial",
   "theorems": [
    "Stingray.Gti.merge_gtis_few",
    "Stingray.Gti.merge_gtis_partial",
    "Stingray.Gti.merge_gtis_append",
    "Stingray.Gti.merge_gtis_hull"
   ],
   "note": ""
  },
  {
   "property": "C117",
   "status": "partial",
   "theorems": [
    "Stingray.Join.join_spec_partial",
    "Stingray.Join.join_changes_list",
    "Stingray.Join.join_two_empty",
    "Stingray.Join.join_disjoint",
    "Stingray.Join.join_stale_mask"
   ],
   "note": "The full property is false of the code, with proved witnesses: join_changes_list, join_two_empty, join_disjoint, join_stale_mask."
  },
  {
   "property": "C118",
   "status": "proved",
   "theorems": [
    "Stingray.Modeling.gauss_like_density",
    "Stingray.Modeling.poisson_like_probability",
    "Stingray.Modeling.laplace_like_density",
    "Stingray.Modeling.like_bad_error"
   ],
   "note": ""
  },
  {
   "property": "C119",
   "status": "partial",
   "theorems": [
    "Stingray.Segments.event_segments_partial",
    "Stingray.Segments.event_segments_error",
    "Stingray.Segments.single_event_lost",
    "Stingray.Segments.whole_ignores_gti",
    "Stingray.Segments.average_ctrate_spec",
    "Stingray.Segments.binned_segments_partial"
   ],
   "note": "The full property is false of the code, with proved witnesses: single_event_lost, whole_ignores_gti."
  },
  {
   "property": "C120",
   "status": "partial",
   "theorems": [
    "Stingray.Segments.shift_and_add_bins",
    "Stingray.Segments.shift_and_add_freqs",
    "Stingray.Segments.shift_and_add_label_partial",
    "Stingray.Segments.shift_and_add_label_off",
    "Stingray.Segments.shift_and_add_too_many"
   ],
   "note": "The full property is false of the code, with proved witnesses: shift_and_add_label_off, shift_and_add_too_many."
  },
  {
   "property": "C121",
   "status": "partial",
   "theorems": [
    "Stingray.Stats.detection_levels",
    "Stingray.Stats.phase_dispersion_level",
    "Stingray.Stats.pds_levels_list",
    "Stingray.Stats.probability_decreasing",
    "Stingray.Stats.classical_is_pds_partial",
    "Stingray.Stats.log_probabilities_partial",
    "Stingray.Stats.fold_log_two_bins"
   ],
   "note": "The full property is false of the code, with proved witnesses: fold_log_two_bins."
  },
  {
   "property": "C122",
   "status": "partial",
   "theorems": [
    "Stingray.Analyze.analyze_events_partial",
    "Stingray.Analyze.analyze_gtis_partial",
    "Stingray.Analyze.analyze_misaligned",
    "Stingray.Analyze.analyze_binned_partial",
    "Stingray.Analyze.analyze_stop_late",
    "Stingray.Analyze.separate_spec",
    "Stingray.Analyze.separate_uneven"
   ],
   "note": "The full property is false of the code, with proved witnesses: analyze_misaligned, analyze_stop_late, separate_uneven."
  },
  {
   "property": "C123",
   "status": "partial",
   "theorems": [
    "Stingray.Analyze.estimate_segment_size_partial",
    "Stingray.Analyze.estimate_default_counts",
    "Stingray.Analyze.estimate_needs_samples",
    "Stingray.Analyze.estimate_ignores_empty",
    "Stingray.Analyze.estimate_terminates"
   ],
   "note": "The full property is false of the code, with proved witnesses: estimate_needs_samples, estimate_ignores_empty."
  },
  {
   "property": "C124",
   "status": "partial",
   "theorems": [
    "Stingray.Dynamic.dynamic_columns_partial",
    "Stingray.Dynamic.dynamic_error",
    "Stingray.Dynamic.dynamic_columns_shift"
   ],
   "note": "The full property is false of the code, with proved witnesses: dynamic_columns_shift."
  },
  {
   "property": "C125",
   "status": "partial",
   "theorems": [
    "Stingray.Dynamic.rebin_time_partial",
    "Stingray.Dynamic.rebin_frequency_partial",
    "Stingray.Dynamic.rebin_time_gap",
    "Stingray.Dynamic.rebin_m_truncated"
   ],
   "note": "The full property is false of the code, with proved witnesses: rebin_time_gap, rebin_m_truncated."
  },
  {
   "property": "C126",
   "status": "proved",
   "theorems": [
    "Stingray.EventBins.to_binned_spec"
   ],
   "note": ""
  },
  {
   "property": "C127",
   "status": "partial",
   "theorems": [
    "Stingray.EventBins.lc_iter_segments_partial",
    "Stingray.EventBins.lc_iter_gtis_partial",
    "Stingray.EventBins.lc_iter_twice",
    "Stingray.EventBins.lc_iter_late_gti"
   ],
   "note": "The full property is false of the code, with proved witnesses: lc_iter_twice, lc_iter_late_gti."
  },
  {
   "property": "C128",
   "status": "partial",
   "theorems": [
    "Stingray.EventBins.evolution_partial",
    "Stingray.EventBins.color_spec",
    "Stingray.EventBins.intensity_spec",
    "Stingray.EventBins.evolution_no_segment",
    "Stingray.EventBins.color_error"
   ],
   "note": "The full property is false of the code, with proved witnesses: evolution_no_segment."
  },
  {
   "property": "C129",
   "status": "partial",
   "theorems": [
    "Stingray.PowerColors.power_color_partial",
    "Stingray.PowerColors.power_color_scale",
    "Stingray.PowerColors.power_color_refuses",
    "Stingray.PowerColors.exclude_no_influence_partial",
    "Stingray.PowerColors.exclude_uses_excluded",
    "Stingray.PowerColors.exclude_modifies",
    "Stingray.PowerColors.exclude_end"
   ],
   "note": "The full property is false of the code, with proved witnesses: exclude_uses_excluded, exclude_modifies, exclude_end."
  },
  {
   "property": "C130",
   "status": "proved",
   "theorems": [
    "Stingray.PowerColors.limit_angle_spec",
    "Stingray.PowerColors.limit_angle_terminates",
    "Stingray.PowerColors.hue_range",
    "Stingray.PowerColors.hue_direction",
    "Stingray.PowerColors.hue_of_direction",
    "Stingray.PowerColors.hue_from_color_power"
   ],
   "note": ""
  },
  {
   "property": "C131",
   "status": "partial",
   "theorems": [
    "Stingray.Fourier.intrinsic_coherence_partial",
    "Stingray.Fourier.intrinsic_coherence_many",
    "Stingray.Fourier.intrinsic_coherence_nonneg",
    "Stingray.Fourier.intrinsic_coherence_cycle"
   ],
   "note": "The full property is false of the code, with proved witnesses: intrinsic_coherence_cycle."
  },
  {
   "property": "C132",
   "status": "partial",
   "theorems": [
    "Stingray.Fourier.cross_errors_spec",
    "Stingray.Fourier.cross_errors_phase",
    "Stingray.Fourier.cross_errors_common_partial",
    "Stingray.Fourier.cross_errors_no_phase",
    "Stingray.Fourier.warns_iff",
    "Stingray.Fourier.covariance_spec",
    "Stingray.Fourier.covariance_none"
   ],
   "note": "The full property is false of the code, with proved witnesses: cross_errors_no_phase, warns_iff."
  },
  {
   "property": "C133",
   "status": "partial",
   "theorems": [
    "Stingray.UtilsStats.window_length",
    "Stingray.UtilsStats.window_symmetric_partial",
    "Stingray.UtilsStats.window_asymmetric",
    "Stingray.UtilsStats.window_bounds",
    "Stingray.UtilsStats.window_peak",
    "Stingray.UtilsStats.window_errors",
    "Stingray.UtilsStats.window_ends",
    "Stingray.UtilsStats.parzen_quarters"
   ],
   "note": "The full property is false of the code, with proved witnesses: window_asymmetric."
  },
  {
   "property": "C134",
   "status": "partial",
   "theorems": [
    "Stingray.UtilsStats.excess_variance_values",
    "Stingray.UtilsStats.excess_variance_errors_partial",
    "Stingray.UtilsStats.excess_variance_no_errors",
    "Stingray.UtilsStats.excess_variance_unit",
    "Stingray.UtilsStats.standard_error_spec"
   ],
   "note": "The full property is false of the code, with proved witnesses: excess_variance_no_errors."
  },
  {
   "property": "C135",
   "status": "partial",
   "theorems": [
    "Stingray.UtilsStats.equal_count_ranges_partial",
    "Stingray.UtilsStats.ranges_ties",
    "Stingray.UtilsStats.ranges_empty"
   ],
   "note": "The full property is false of the code, with proved witnesses: ranges_ties, ranges_empty."
  },
  {
   "property": "C136",
   "status": "partial",
   "theorems": [
    "Stingray.Bispectrum.maxlag_spec",
    "Stingray.Bispectrum.cumulant_biased_partial",
    "Stingray.Bispectrum.cumulant_unbiased_partial",
    "Stingray.Bispectrum.triple_symm",
    "Stingray.Bispectrum.triple_origin",
    "Stingray.Bispectrum.cumulant_shift",
    "Stingray.Bispectrum.cumulant_refuses",
    "Stingray.Bispectrum.cumulant_wraps"
   ],
   "note": "The full property is false of the code, with proved witnesses: cumulant_wraps."
  },
  {
   "property": "C137",
   "status": "partial",
   "theorems": [
    "Stingray.Bispectrum.labels_partial",
    "Stingray.Bispectrum.labels_off",
    "Stingray.Bispectrum.lags_spec",
    "Stingray.Bispectrum.window_partial",
    "Stingray.Bispectrum.window_symm",
    "Stingray.Bispectrum.window_breaks_origin"
   ],
   "note": "The full property is false of the code, with proved witnesses: labels_off, window_breaks_origin."
  },
  {
   "property": "C138",
   "status": "partial",
   "theorems": [
    "Stingray.Gti.large_btis_spec",
    "Stingray.Gti.exposure_chunks_bounded",
    "Stingray.Gti.exposure_sep_partial"
   ],
   "note": ""
  },
  {
   "property": "C139",
   "status": "partial",
   "theorems": [
    "Stingray.FillBti.fill_rows_partial",
    "Stingray.FillBti.fill_even",
    "Stingray.FillBti.fill_nothing",
    "Stingray.FillBti.fill_from_bad_data",
    "Stingray.FillBti.fill_loses_attributes"
   ],
   "note": "The full property is false of the code, with proved witnesses: fill_from_bad_data, fill_loses_attributes."
  },
  {
   "property": "C140",
   "status": "partial",
   "theorems": [
    "Stingray.FillBti.fill_gti_partial",
    "Stingray.FillBti.fill_no_short_raises",
    "Stingray.FillBti.fill_skipped_is_good"
   ],
   "note": "The full property is false of the code, with proved witnesses: fill_no_short_raises, fill_skipped_is_good."
  },
  {
   "property": "C141",
   "status": "partial",
   "theorems": [
    "Stingray.Covariance.reference_excludes_band",
    "Stingray.Covariance.bounds_with_curves_raise"
   ],
   "note": "The full property is false of the code, with proved witnesses: bounds_with_curves_raise."
  },
  {
   "property": "C142",
   "status": "partial",
   "theorems": [
    "Stingray.Covariance.covar_spec",
    "Stingray.Covariance.covar_rows",
    "Stingray.Covariance.cov_laws",
    "Stingray.Covariance.cov_bounded",
    "Stingray.Covariance.covar_error_partial",
    "Stingray.Covariance.covar_error_formula"
   ],
   "note": "The full property is false of the code, with proved witnesses: covar_error_formula."
  },
  {
   "property": "C143",
   "status": "partial",
   "theorems": [
    "Stingray.Covariance.averaged_first_segment_only",
    "Stingray.Covariance.averaged_whole_partial",
    "Stingray.Covariance.averaged_single_reference_raises"
   ],
   "note": "The full property is false of the code, with proved witnesses: averaged_first_segment_only, averaged_single_reference_raises."
  },
  {
   "property": "C144",
   "status": "partial",
   "theorems": [
    "Stingray.Covariance.curveOf_counts",
    "Stingray.Covariance.event_curves_partial",
    "Stingray.Covariance.energies_binned_as_times",
    "Stingray.Covariance.edge_in_both",
    "Stingray.Covariance.bounds_ignored",
    "Stingray.Covariance.reference_kind",
    "Stingray.Covariance.covariance_errors"
   ],
   "note": "The full property is false of the code, with proved witnesses: energies_binned_as_times, edge_in_both, bounds_ignored."
  },
  {
   "property": "C145",
   "status": "partial",
   "theorems": [
    "Stingray.Covariance.default_bands",
    "Stingray.Covariance.default_bands_single",
    "Stingray.Covariance.default_bands_disjoint_partial",
    "Stingray.Covariance.default_bands_overlap"
   ],
   "note": "The full property is false of the code, with proved witnesses: default_bands_overlap."
  },
  {
   "property": "C146",
   "status": "partial",
   "theorems": [
    "Stingray.TimeSeries.split_rows_partial",
    "Stingray.TimeSeries.split_loses_event",
    "Stingray.TimeSeries.split_ignores_lists",
    "Stingray.TimeSeries.split_empty_raises",
    "Stingray.TimeSeries.filter_intervals_partial",
    "Stingray.TimeSeries.filter_intervals_checked_partial"
   ],
   "note": "The full property is false of the code, with proved witnesses: split_loses_event, split_ignores_lists, split_empty_raises."
  },
  {
   "property": "C147",
   "status": "partial",
   "theorems": [
    "Stingray.SpecRebin.rebin_spec",
    "Stingray.SpecRebin.rebinned_blocks",
    "Stingray.SpecRebin.rebin_normalisation",
    "Stingray.SpecRebin.rebin_refuses",
    "Stingray.SpecRebin.rebin_error_constant"
   ],
   "note": "The full property is false of the code, with proved witnesses: rebin_error_constant."
  },
  {
   "property": "C148",
   "status": "partial",
   "theorems": [
    "Stingray.SpecRebin.rebin_log_spec",
    "Stingray.SpecRebin.rebin_log_conserves",
    "Stingray.SpecRebin.rebin_log_negative"
   ],
   "note": "The full property is false of the code, with proved witnesses: rebin_log_negative."
  },
  {
   "property": "C149",
   "status": "partial",
   "theorems": [
    "Stingray.Bexvar.grid_covers_partial",
    "Stingray.Bexvar.grid_ends",
    "Stingray.Bexvar.grid_density",
    "Stingray.Bexvar.grid_faint",
    "Stingray.Bexvar.grid_starts_late"
   ],
   "note": "The full property is false of the code, with proved witnesses: grid_faint, grid_starts_late."
  },
  {
   "property": "C150",
   "status": "proved",
   "theorems": [
    "Stingray.Bexvar.weights_density",
    "Stingray.Bexvar.weights_undefined"
   ],
   "note": ""
  },
  {
   "property": "C151",
   "status": "partial",
   "theorems": [
    "Stingray.Bexvar.bexvar_spec",
    "Stingray.Bexvar.bexvar_discards",
    "Stingray.Bexvar.bexvar_defaults",
    "Stingray.Bexvar.bexvar_faint",
    "Stingray.Bexvar.transform_range"
   ],
   "note": "The full property is false of the code, with proved witnesses: bexvar_faint."
  },
  {
   "property": "C152",
   "status": "partial",
   "theorems": [
    "Stingray.Fad.fad_mean",
    "Stingray.Fad.fad_exchange",
    "Stingray.Fad.fad_total",
    "Stingray.Fad.fad_coherence",
    "Stingray.Fad.fad_refuses",
    "Stingray.Fad.fad_compliant",
    "Stingray.Fad.fad_empty_segment"
   ],
   "note": "The full property is false of the code, with proved witnesses: fad_empty_segment."
  },
  {
   "property": "C153",
   "status": "partial",
   "theorems": [
    "Stingray.Fad.fad_objects",
    "Stingray.Fad.calculate_fad_segments",
    "Stingray.Fad.fad_objects_n",
    "Stingray.Fad.calculate_ignores_gti"
   ],
   "note": "The full property is false of the code, with proved witnesses: fad_objects_n, calculate_ignores_gti."
  },
  {
   "property": "C154",
   "status": "partial",
   "theorems": [
    "Stingray.DeadTime.h_bounds",
    "Stingray.DeadTime.A_complete",
    "Stingray.DeadTime.A_nonneg",
    "Stingray.DeadTime.limit_A_value",
    "Stingray.DeadTime.zhang_spectrum",
    "Stingray.DeadTime.zhang_odd",
    "Stingray.DeadTime.zhang_refuses"
   ],
   "note": "The full property is false of the code, with proved witnesses: zhang_odd."
  },
  {
   "property": "C155",
   "status": "partial",
   "theorems": [
    "Stingray.DeadTime.non_paralyzable_model",
    "Stingray.DeadTime.non_paralyzable_refuses",
    "Stingray.DeadTime.non_paralyzable_defaults",
    "Stingray.DeadTime.non_paralyzable_default_size"
   ],
   "note": "The full property is false of the code, with proved witnesses: non_paralyzable_default_size."
  },
  {
   "property": "C156",
   "status": "partial",
   "theorems": [
    "Stingray.DeadTime.deadtime_correct_scales",
    "Stingray.DeadTime.deadtime_correct_ok",
    "Stingray.DeadTime.deadtime_correct_refuses",
    "Stingray.DeadTime.deadtime_correct_keeps_pds_power"
   ],
   "note": "The full property is false of the code, with proved witnesses: deadtime_correct_keeps_pds_power."
  },
  {
   "property": "C157",
   "status": "partial",
   "theorems": [
    "Stingray.Fourier.coherence_value",
    "Stingray.Fourier.averaged_coherence_range",
    "Stingray.Fourier.averaged_coherence_exchange",
    "Stingray.Fourier.averaged_coherence_bias",
    "Stingray.Fourier.averaged_coherence_above_one",
    "Stingray.Fourier.coherence_warns"
   ],
   "note": "The full property is false of the code, with proved witnesses: averaged_coherence_bias, averaged_coherence_above_one."
  },
  {
   "property": "C158",
   "status": "proved",
   "theorems": [
    "Stingray.Fourier.time_lag_range",
    "Stingray.Fourier.phase_lag_exchange",
    "Stingray.Fourier.time_lag_of_delay"
   ],
   "note": ""
  },
  {
   "property": "C159",
   "status": "partial",
   "theorems": [
    "Stingray.Fourier.calculate_errors_independent",
    "Stingray.Fourier.calculate_errors_default",
    "Stingray.Fourier.calculate_errors_shape",
    "Stingray.Fourier.calculate_errors_refuses",
    "Stingray.Fourier.averaged_time_lag",
    "Stingray.Fourier.calculate_errors_no_lag"
   ],
   "note": "The full property is false of the code, with proved witnesses: calculate_errors_no_lag."
  },
  {
   "property": "C160",
   "status": "partial",
   "theorems": [
    "Stingray.PowerStats.compute_rms_value",
    "Stingray.PowerStats.compute_rms_error",
    "Stingray.PowerStats.compute_rms_error_merged",
    "Stingray.PowerStats.rms_unnorm_value",
    "Stingray.PowerStats.compute_rms_rebinned",
    "Stingray.PowerStats.compute_rms_noise",
    "Stingray.PowerStats.compute_rms_refuses",
    "Stingray.PowerStats.rms_unnorm_rebinned"
   ],
   "note": "The full property is false of the code, with proved witnesses: rms_unnorm_rebinned."
  },
  {
   "property": "C161",
   "status": "proved",
   "theorems": [
    "Stingray.PowerStats.significances_value",
    "Stingray.PowerStats.significances_corrected",
    "Stingray.PowerStats.significances_monotone",
    "Stingray.PowerStats.significances_refuses"
   ],
   "note": ""
  },
  {
   "property": "C162",
   "status": "partial",
   "theorems": [
    "Stingray.PowerStats.amplitude_value",
    "Stingray.PowerStats.amplitude_order",
    "Stingray.PowerStats.pf_value",
    "Stingray.PowerStats.modulation_value",
    "Stingray.PowerStats.modulation_refuses",
    "Stingray.PowerStats.power_limit_partial"
   ],
   "note": ""
  },
  {
   "property": "C163",
   "status": "proved",
   "theorems": [
    "Stingray.Missions.get_key_value",
    "Stingray.Missions.get_key_case",
    "Stingray.Missions.get_key_refuses"
   ],
   "note": ""
  },
  {
   "property": "C164",
   "status": "partial",
   "theorems": [
    "Stingray.Missions.read_mission",
    "Stingray.Missions.read_last",
    "Stingray.Missions.read_refuses",
    "Stingray.Missions.patch_value",
    "Stingray.Missions.read_prefix"
   ],
   "note": "The full property is false of the code, with proved witnesses: read_prefix."
  },
  {
   "property": "C165",
   "status": "proved",
   "theorems": [
    "Stingray.Missions.conversion_increasing",
    "Stingray.Missions.calibration_agrees",
    "Stingray.Missions.calibration_values",
    "Stingray.Missions.calibration_refuses",
    "Stingray.Missions.split_chan",
    "Stingray.Missions.split_list",
    "Stingray.Missions.pca_value",
    "Stingray.Missions.pca_increasing",
    "Stingray.Missions.pca_refuses",
    "Stingray.Missions.local_channels"
   ],
   "note": ""
  },
  {
   "property": "C166",
   "status": "partial",
   "theorems": [
    "Stingray.Sampling.sampling_moments",
    "Stingray.Sampling.sampling_interval",
    "Stingray.Sampling.sampling_interval_count",
    "Stingray.Sampling.sampling_order",
    "Stingray.Sampling.sampling_units",
    "Stingray.Sampling.rhat_value_partial",
    "Stingray.Sampling.rhat_blind",
    "Stingray.Sampling.rhat_stuck",
    "Stingray.Sampling.rhat_units",
    "Stingray.Sampling.sampling_refuses",
    "Stingray.Sampling.sampling_log"
   ],
   "note": "The full property is false of the code, with proved witnesses: rhat_blind, rhat_stuck, rhat_units, sampling_log."
  },
  {
   "property": "C167",
   "status": "partial",
   "theorems": [
    "Stingray.Ols.nextpow_least",
    "Stingray.Ols.nextprod_least",
    "Stingray.Ols.nextprod_refuses",
    "Stingray.Ols.nextprod_rounding"
   ],
   "note": "The full property is false of the code, with proved witnesses: nextprod_rounding."
  },
  {
   "property": "C168",
   "status": "partial",
   "theorems": [
    "Stingray.DynColors.colors_columns",
    "Stingray.DynColors.colors_unchanged",
    "Stingray.DynColors.colors_scale",
    "Stingray.DynColors.colors_refuses",
    "Stingray.DynColors.colors_modifies",
    "Stingray.DynColors.dynamical_rms",
    "Stingray.DynColors.dynamical_rms_frac"
   ],
   "note": "The full property is false of the code, with proved witnesses: colors_modifies."
  },
  {
   "property": "C169",
   "status": "partial",
   "theorems": [
    "Stingray.Tables.complex_round_trip_partial",
    "Stingray.Tables.complex_two_columns",
    "Stingray.Tables.complex_first_real"
   ],
   "note": "The full property is false of the code, with proved witnesses: complex_two_columns, complex_first_real."
  },
  {
   "property": "C170",
   "status": "partial",
   "theorems": [
    "Stingray.Tables.table_round_trip_partial",
    "Stingray.Tables.table_set_time",
    "Stingray.Tables.table_no_rows",
    "Stingray.Tables.table_case",
    "Stingray.Tables.table_none"
   ],
   "note": "The full property is false of the code, with proved witnesses: table_no_rows, table_case, table_none."
  },
  {
   "property": "C171",
   "status": "partial",
   "theorems": [
    "Stingray.Tables.interpret_instants",
    "Stingray.Tables.interpret_total",
    "Stingray.Tables.lightcurve_instants",
    "Stingray.Tables.timeseries_instants_partial",
    "Stingray.Tables.timeseries_instants_lost",
    "Stingray.Tables.from_timeseries_lost",
    "Stingray.Tables.from_timeseries_seconds"
   ],
   "note": "The full property is false of the code, with proved witnesses: timeseries_instants_lost, from_timeseries_lost."
  },
  {
   "property": "C172",
   "status": "partial",
   "theorems": [
    "Stingray.Cospectra.cospectra_pvalue",
    "Stingray.Cospectra.cospectra_gaussian",
    "Stingray.Cospectra.cospectra_refuses",
    "Stingray.Cospectra.cospectra_float_nspec",
    "Stingray.Cospectra.cospectra_integer_power",
    "Stingray.Cospectra.cross_significances",
    "Stingray.Cospectra.cross_significances_refuses"
   ],
   "note": "The full property is false of the code, with proved witnesses: cospectra_float_nspec, cospectra_integer_power."
  },
  {
   "property": "C173",
   "status": "partial",
   "theorems": [
    "Stingray.Multitaper.multitaper_mean",
    "Stingray.Multitaper.multitaper_adaptive",
    "Stingray.Multitaper.multitaper_units",
    "Stingray.Multitaper.multitaper_frequencies_partial",
    "Stingray.Multitaper.multitaper_odd",
    "Stingray.Multitaper.multitaper_tapers",
    "Stingray.Multitaper.multitaper_jackknife"
   ],
   "note": "The full property is false of the code, with proved witnesses: multitaper_odd."
  },
  {
   "property": "C174",
   "status": "partial",
   "theorems": [
    "Stingray.InverseCdf.inverse_cdf_bins_partial",
    "Stingray.InverseCdf.inverse_cdf_refuses",
    "Stingray.InverseCdf.inverse_cdf_single_bin",
    "Stingray.InverseCdf.simulate_times_gtis",
    "Stingray.InverseCdf.simulate_times_aligned_partial",
    "Stingray.InverseCdf.simulate_times_squeezed",
    "Stingray.InverseCdf.simulate_times_refuses",
    "Stingray.InverseCdf.simulate_energies_partial"
   ],
   "note": "The full property is false of the code, with proved witnesses: inverse_cdf_single_bin, simulate_times_squeezed."
  },
  {
   "property": "C175",
   "status": "partial",
   "theorems": [
    "Stingray.Spectroscopy.phase_difference_delay",
    "Stingray.Spectroscopy.phase_lag_difference",
    "Stingray.Spectroscopy.harmonic_odd_partial",
    "Stingray.Spectroscopy.harmonic_even",
    "Stingray.Spectroscopy.waveform_mean_rms",
    "Stingray.Spectroscopy.mean_phase_partial",
    "Stingray.Spectroscopy.mean_phase_above",
    "Stingray.Spectroscopy.mean_phase_stddev",
    "Stingray.Spectroscopy.model_rms",
    "Stingray.Spectroscopy.ccf_average"
   ],
   "note": "The full property is false of the code, with proved witnesses: harmonic_even, mean_phase_above, mean_phase_stddev."
  },
  {
   "property": "C176",
   "status": "partial",
   "theorems": [
    "Stingray.LombScargle.ls_frequencies",
    "Stingray.LombScargle.ls_defaults",
    "Stingray.LombScargle.ls_max_freq",
    "Stingray.LombScargle.ls_df_ignored",
    "Stingray.LombScargle.ls_checks",
    "Stingray.LombScargle.ls_span",
    "Stingray.LombScargle.ls_least_squares",
    "Stingray.LombScargle.ls_affine",
    "Stingray.LombScargle.ls_time_shift",
    "Stingray.LombScargle.ls_even",
    "Stingray.LombScargle.ls_fast_partial",
    "Stingray.LombScargle.ls_fast_differs",
    "Stingray.LombScargle.ls_no_lag",
    "Stingray.LombScargle.ls_method",
    "Stingray.LombScargle.ls_cross",
    "Stingray.LombScargle.ls_symmetry",
    "Stingray.LombScargle.ls_powers_partial",
    "Stingray.LombScargle.ls_unnorm"
   ],
   "note": "The full property is false of the code, with proved witnesses: ls_max_freq, ls_df_ignored, ls_fast_differs, ls_no_lag, ls_unnorm."
  },
  {
   "property": "C177",
   "status": "partial",
   "theorems": [
    "Stingray.GpModel.gp_names",
    "Stingray.GpModel.gp_order",
    "Stingray.GpModel.gp_kernels",
    "Stingray.GpModel.gp_means",
    "Stingray.GpModel.gp_covariance",
    "Stingray.GpModel.gp_flares",
    "Stingray.GpModel.gp_fred_partial",
    "Stingray.GpModel.gp_fred_place",
    "Stingray.GpModel.gp_fred_before",
    "Stingray.GpModel.gp_best"
   ],
   "note": "The full property is false of the code, with proved witnesses: gp_fred_place, gp_fred_before."
  },
  {
   "property": "C178",
   "status": "partial",
   "theorems": [
    "Stingray.AccelSearch.interbin_even",
    "Stingray.AccelSearch.interbin_two_sided",
    "Stingray.AccelSearch.interbin_tone",
    "Stingray.AccelSearch.accel_order",
    "Stingray.AccelSearch.accel_rows",
    "Stingray.AccelSearch.accel_interbin",
    "Stingray.AccelSearch.accel_zmax",
    "Stingray.AccelSearch.accel_one_gti",
    "Stingray.AccelSearch.accel_gaps",
    "Stingray.AccelSearch.accel_refuses",
    "Stingray.AccelSearch.accel_signal",
    "Stingray.AccelSearch.accel_leahy_partial",
    "Stingray.AccelSearch.accel_not_leahy",
    "Stingray.AccelSearch.accel_negative"
   ],
   "note": "The full property is false of the code, with proved witnesses: accel_zmax, accel_one_gti, accel_signal, accel_not_leahy, accel_negative."
  },
  {
   "property": "C179",
   "status": "partial",
   "theorems": [
    "Stingray.Phaseogram.phaseogram_cells",
    "Stingray.Phaseogram.phaseogram_total",
    "Stingray.Phaseogram.phaseogram_refuses",
    "Stingray.Phaseogram.phaseogram_mjd",
    "Stingray.Phaseogram.phaseogram_default_epoch",
    "Stingray.Phaseogram.toa_in_period"
   ],
   "note": "The full property is false of the code, with proved witnesses: phaseogram_default_epoch."
  },
  {
   "property": "C180",
   "status": "partial",
   "theorems": [
    "Stingray.Timmer.timmer_spectrum",
    "Stingray.Timmer.timmer_odd",
    "Stingray.Timmer.timmer_seed",
    "Stingray.Timmer.timmer_seed_unused",
    "Stingray.Timmer.timmer_model",
    "Stingray.Timmer.timmer_user_red_noise",
    "Stingray.Timmer.timmer_user_spectrum",
    "Stingray.Timmer.timmer_power_law",
    "Stingray.Timmer.timmer_poisson",
    "Stingray.Timmer.timmer_refuses",
    "Stingray.Timmer.timmer_list",
    "Stingray.Timmer.timmer_times",
    "Stingray.Timmer.timmer_response_times"
   ],
   "note": "The full property is false of the code, with proved witnesses: timmer_odd, timmer_seed, timmer_user_red_noise, timmer_list, timmer_response_times."
  },
  {
   "property": "C181",
   "status": "partial",
   "theorems": [
    "Stingray.EnergyLags.lag_band",
    "Stingray.EnergyLags.lag_range",
    "Stingray.EnergyLags.lag_phase",
    "Stingray.EnergyLags.lag_delay",
    "Stingray.EnergyLags.lag_exchange",
    "Stingray.EnergyLags.lag_delay_many",
    "Stingray.EnergyLags.lag_common_noise",
    "Stingray.EnergyLags.covariance_of_band"
   ],
   "note": "The full property is false of the code, with proved witnesses: lag_delay_many, lag_common_noise."
  },
  {
   "property": "C182",
   "status": "partial",
   "theorems": [
    "Stingray.FftFit.fftfit_stationary",
    "Stingray.FftFit.fftfit_rotated",
    "Stingray.FftFit.fftfit_start",
    "Stingray.FftFit.fftfit_refuses",
    "Stingray.FftFit.fftfit_one_bin",
    "Stingray.FftFit.fftfit_few_bins",
    "Stingray.FftFit.pulsar_fftfit",
    "Stingray.FftFit.pulsar_fftfit_default",
    "Stingray.FftFit.fftfit_nearest"
   ],
   "note": "The full property is false of the code, with proved witnesses: fftfit_one_bin, fftfit_few_bins, pulsar_fftfit_default."
  },
  {
   "property": "C183",
   "status": "partial",
   "theorems": [
    "Stingray.BaselineAls.als_minimises",
    "Stingray.BaselineAls.als_first",
    "Stingray.BaselineAls.baseline_line",
    "Stingray.BaselineAls.baseline_sum",
    "Stingray.BaselineAls.als_line",
    "Stingray.BaselineAls.baseline_exists",
    "Stingray.BaselineAls.als_next"
   ],
   "note": "The full property is false of the code, with proved witnesses: baseline_exists."
  },
  {
   "property": "C184",
   "status": "partial",
   "theorems": [
    "Stingray.RandomStates.poisson_errors_spec",
    "Stingray.RandomStates.poisson_errors_fractions"
   ],
   "note": "The full property is false of the code, with proved witnesses: poisson_errors_fractions."
  },
  {
   "property": "C185",
   "status": "partial",
   "theorems": [
    "Stingray.RandomStates.random_state_spec",
    "Stingray.RandomStates.random_state_zero"
   ],
   "note": "The full property is false of the code, with proved witnesses: random_state_zero."
  },
  {
   "property": "C186",
   "status": "partial",
   "theorems": [
    "Stingray.Responses.relativistic_ir_spec",
    "Stingray.Responses.relativistic_ir_values",
    "Stingray.Responses.relativistic_ir_peak"
   ],
   "note": "The full property is false of the code, with proved witnesses: relativistic_ir_peak."
  },
  {
   "property": "C187",
   "status": "partial",
   "theorems": [
    "Stingray.Sorting.is_sorted_spec",
    "Stingray.Sorting.is_sorted_unsigned",
    "Stingray.Sorting.sort_events_spec",
    "Stingray.Sorting.is_sorted_nan",
    "Stingray.Sorting.is_sorted_wraps"
   ],
   "note": "The full property is false of the code, with proved witnesses: is_sorted_nan, is_sorted_wraps."
  },
  {
   "property": "C188",
   "status": "partial",
   "theorems": [
    "Stingray.SincSquare.sinc_square_model",
    "Stingray.SincSquare.sinc_square_deriv",
    "Stingray.SincSquare.sinc_square_deriv_wrong"
   ],
   "note": "The full property is false of the code, with proved witnesses: sinc_square_deriv_wrong."
  },
  {
   "property": "C189",
   "status": "partial",
   "theorems": [
    "Stingray.SincSquare.fit_sinc_history",
    "Stingray.SincSquare.fit_sinc_repeat"
   ],
   "note": "The full property is false of the code, with proved witnesses: fit_sinc_repeat."
  },
  {
   "property": "C190",
   "status": "proved",
   "theorems": [
    "Stingray.SpectralShapes.lorentzian_spec",
    "Stingray.SpectralShapes.broken_power_law_limits",
    "Stingray.SpectralShapes.shapes_arrays"
   ],
   "note": ""
  },
  {
   "property": "C191",
   "status": "partial",
   "theorems": [
    "Stingray.WeightedSearch.weighted_search_spec",
    "Stingray.WeightedSearch.weighted_search_refused",
    "Stingray.WeightedSearch.weighted_search_shift",
    "Stingray.WeightedSearch.weighted_search_gti_shift",
    "Stingray.WeightedSearch.weighted_search_gti_count"
   ],
   "note": "The full property is false of the code, with proved witnesses: weighted_search_gti_shift, weighted_search_gti_count."
  },
  {
   "property": "C192",
   "status": "partial",
   "theorems": [
    "Stingray.FileNames.file_extension_iff",
    "Stingray.FileNames.file_extension_long",
    "Stingray.FileNames.file_extension_gz",
    "Stingray.FileNames.event_format_spec",
    "Stingray.FileNames.file_extension_only_gz",
    "Stingray.FileNames.file_extension_short"
   ],
   "note": "The full property is false of the code, with proved witnesses: file_extension_short."
  },
  {
   "property": "C193",
   "status": "partial",
   "theorems": [
    "Stingray.LcStart.join_new",
    "Stingray.LcStart.new_extent",
    "Stingray.LcStart.apply_gtis_spec",
    "Stingray.LcStart.join_after_gtis"
   ],
   "note": "The full property is false of the code, with proved witnesses: join_after_gtis."
  },
  {
   "property": "C194",
   "status": "partial",
   "theorems": [
    "Stingray.LcBaseline.baseline_spec",
    "Stingray.LcBaseline.baseline_integers",
    "Stingray.LcBaseline.baseline_ok",
    "Stingray.LcBaseline.baseline_depends_on_type"
   ],
   "note": "The full property is false of the code, with proved witnesses: baseline_depends_on_type."
  },
  {
   "property": "C195",
   "status": "partial",
   "theorems": [
    "Stingray.HuePlot.plotted_hue_spec",
    "Stingray.HuePlot.hue_line_ray",
    "Stingray.HuePlot.hue_line_hue",
    "Stingray.HuePlot.plotted_hue_ignores_center"
   ],
   "note": "The full property is false of the code, with proved witnesses: plotted_hue_ignores_center."
  }
 ]
}

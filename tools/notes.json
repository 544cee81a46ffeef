{
 "C01": {
  "note": "check_gtis accepts exactly the non-empty forward, non-overlapping, time-ordered lists."
 },
 "C03": {
  "note": "Full property is false (create_gti_mask_not_exact: one GTI per sample); soundness holds always, exactness under the stated hypotheses."
 },
 "C04": {
  "note": "Full property is false for borders that touch and for zero-length GTIs (two negation theorems); exact otherwise; never loses common time."
 },
 "C05": {
  "note": "Follows C04: exact when no start of a list equals a stop of another."
 },
 "C07": {
  "note": "Covered set is the union for all accepted lists; separation and acceptance need positive-length GTIs (or lists that are not separate), false otherwise (join_gtis_not_separated).",
  "status": "partial"
 },
 "C08": {
  "note": "Full property is false for borders touching in the middle (check_separate_not_exact)."
 },
 "C09": {
  "note": "Union and exposure for all accepted lists; acceptance by check_gtis for positive lengths, false with zero-length GTIs (append_gtis_not_accepted)."
 },
 "C14": {
  "note": "False for fraction_step<1 (bin_intervals_overrun) and when a GTI lies after all data (gti_border_bins_raises); proved for steps of at least one segment."
 },
 "C15": {
  "status": "partial",
  "note": "Proved for split_gtis_at_indices and split_gtis_by_exposure; with new_interval_if_gti_sep and no large gap the code raises (split_gtis_by_exposure_sep_raises)."
 }
}
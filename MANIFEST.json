{
 "claims": [
  {
   "property": "C01",
   "status": "proved",
   "theorems": [
    "Verif.Utils.C01_lag_table",
    "Verif.Utils.C01_odd_rejected",
    "Verif.Utils.C01_zero_levels_mismatch"
   ],
   "note": ""
  },
  {
   "property": "C02",
   "status": "proved",
   "theorems": [
    "Verif.Utils.C02_result",
    "Verif.Utils.C02_last_le",
    "Verif.Utils.C02_terminates",
    "Verif.Utils.C02_diverges"
   ],
   "note": ""
  },
  {
   "property": "C03",
   "status": "proved",
   "theorems": [
    "Verif.Utils.C03_accepts_iff",
    "Verif.Utils.C03_valueError_iff",
    "Verif.Utils.C03_nbins",
    "Verif.Utils.C03_step",
    "Verif.Utils.C03_min",
    "Verif.Utils.C03_max",
    "Verif.Utils.C03_gap",
    "Verif.Utils.C03_negative_step_violates_min"
   ],
   "note": ""
  },
  {
   "property": "C04",
   "status": "proved",
   "theorems": [
    "Verif.Utils.C04_subtract",
    "Verif.Utils.C04_valueError_iff"
   ],
   "note": ""
  },
  {
   "property": "C05",
   "status": "proved",
   "theorems": [
    "Verif.Utils.C05_centers",
    "Verif.Utils.C05_inside",
    "Verif.Utils.C05_pairwise"
   ],
   "note": ""
  },
  {
   "property": "C06",
   "status": "proved",
   "theorems": [
    "Verif.Utils.C06_bin1D",
    "Verif.Utils.C06_default_limits",
    "Verif.Utils.C06_default_nx_loses_all"
   ],
   "note": ""
  },
  {
   "property": "C07",
   "status": "partial",
   "theorems": [
    "Verif.Utils.C07_aligned_square_partial",
    "Verif.Utils.C07_misaligned_nonsquare",
    "Verif.Utils.C07_pixel_size_validation"
   ],
   "note": "holds for square images; refuted for every non-square image with >=2 rows and columns"
  },
  {
   "property": "C08",
   "status": "partial",
   "theorems": [
    "Verif.Utils.C08_used_pixels",
    "Verif.Utils.C08_all_used_iff",
    "Verif.Utils.C08_pixel_lost",
    "Verif.Utils.C08_no_double_count_partial"
   ],
   "note": "refuted by witness; exact iff-characterisation of when all pixels are used is proved"
  },
  {
   "property": "C09",
   "status": "proved",
   "theorems": [
    "Verif.Geom.C09_radius",
    "Verif.Geom.C09_angle",
    "Verif.Geom.C09_angle_shape",
    "Verif.Geom.C09_position_determined"
   ],
   "note": "over the reals; np.arctan2 as the argument of x+iy"
  },
  {
   "property": "C10",
   "status": "proved",
   "theorems": [
    "Verif.Geom.C10_q_d_inverse",
    "Verif.Geom.C10_q_d_product",
    "Verif.Geom.C10_twotheta_of_q",
    "Verif.Geom.C10_q_of_twotheta",
    "Verif.Geom.C10_q_strictly_increasing",
    "Verif.Geom.C10_twotheta_strictly_increasing",
    "Verif.Geom.C10_bragg",
    "Verif.Geom.C10_radius_to_twotheta"
   ],
   "note": "over the reals"
  },
  {
   "property": "C11",
   "status": "proved",
   "theorems": [
    "Verif.Dicts.C11_refines_path_map",
    "Verif.Dicts.C11_read_after_write"
   ],
   "note": ""
  },
  {
   "property": "C12",
   "status": "proved",
   "theorems": [
    "Verif.Dicts.C12_rejected_assignment",
    "Verif.Dicts.C12_rejected_deletion"
   ],
   "note": ""
  },
  {
   "property": "C13",
   "status": "proved",
   "theorems": [
    "Verif.Dicts.C13_membership",
    "Verif.Dicts.C13_iteration_lists_leaves",
    "Verif.Dicts.C13_membership_differs"
   ],
   "note": ""
  },
  {
   "property": "C14",
   "status": "partial",
   "theorems": [
    "Verif.Dicts.C14_read_destroys_leaf",
    "Verif.Dicts.C14_read_keeps_leaves_partial"
   ],
   "note": "refuted for every history (reading below a leaf destroys it); proved when no proper prefix of the key is a leaf"
  },
  {
   "property": "C15",
   "status": "partial",
   "theorems": [
    "Verif.Dicts.C15_set_then_get_partial",
    "Verif.Dicts.C15_leaf_as_branch_discards"
   ],
   "note": "read-after-write and frame proved; the KeyError clause is refuted (the leaf is silently discarded)"
  },
  {
   "property": "C16",
   "status": "proved",
   "theorems": [
    "Verif.Dicts.C16_normalises",
    "Verif.Dicts.C16_stored"
   ],
   "note": ""
  },
  {
   "property": "C17",
   "status": "partial",
   "theorems": [
    "Verif.Dicts.C17_membership_always_true",
    "Verif.Dicts.C17_membership_disagrees",
    "Verif.Dicts.C17_iterated_are_members_partial"
   ],
   "note": "refuted for every history; only iterated => member holds"
  },
  {
   "property": "C18",
   "status": "partial",
   "theorems": [
    "Verif.Hist.C18_fill_cells_partial",
    "Verif.Hist.C18_cells_cover",
    "Verif.Hist.C18_in_range_iff",
    "Verif.Hist.C18_strided_nd_wrong"
   ],
   "note": "proved for C-contiguous coordinate arrays; refuted for strided arrays on the N-D path (raw pointers ignore strides)"
  },
  {
   "property": "C19",
   "status": "partial",
   "theorems": [
    "Verif.Hist.C19_no_bad_index_partial",
    "Verif.Hist.C19_rounding_out_of_bounds"
   ],
   "note": "proved in exact arithmetic; refuted under binary64 rounding by a witness just below the upper limit"
  },
  {
   "property": "C20",
   "status": "partial",
   "theorems": [
    "Verif.Hist.C20_strided_refuted",
    "Verif.Hist.C20_type_independent_partial"
   ],
   "note": "refuted for strided arrays on the N-D path; proved for contiguous int64/float64 arrays and any interleaving of types"
  },
  {
   "property": "C21",
   "status": "proved",
   "theorems": [
    "Verif.Hist.C21_order_and_batch_independent",
    "Verif.Hist.C21_total_conserved",
    "Verif.Hist.C21_reset"
   ],
   "note": ""
  },
  {
   "property": "C22",
   "status": "proved",
   "theorems": [
    "Verif.Hist.C22_rejects_iff",
    "Verif.Hist.C22_max_dims"
   ],
   "note": ""
  },
  {
   "property": "C23",
   "status": "partial",
   "theorems": [
    "Verif.Binned.C23_cells_partial",
    "Verif.Binned.C23_near_last_edge_refuted",
    "Verif.Binned.C23_lost_sample_refuted"
   ],
   "note": "refuted within 10^-5 bin widths below/above the last edge; proved for all other samples, any number of dimensions and bins"
  },
  {
   "property": "C24",
   "status": "partial",
   "theorems": [
    "Verif.Binned.C24_sum_partial",
    "Verif.Binned.C24_mean_partial",
    "Verif.Binned.C24_std_partial",
    "Verif.Binned.C24_function_partial",
    "Verif.Binned.C24_lost_value_refuted"
   ],
   "note": "refuted for samples just below the last edge; proved with the same clearance from the last edge as C23; median/user functions get a permutation of the cell's values"
  },
  {
   "property": "C25",
   "status": "partial",
   "theorems": [
    "Verif.Binned.C25_equal_bins_partial",
    "Verif.Binned.C25_refuted"
   ],
   "note": "refuted for unequal bin counts; proved for equal ones"
  },
  {
   "property": "C26",
   "status": "partial",
   "theorems": [
    "Verif.Binned.C26_caller_array_overwritten_refuted",
    "Verif.Binned.C26_integer_masked_counted_refuted",
    "Verif.Binned.C26_sequence_unchanged_partial",
    "Verif.Binned.C26_masked_nowhere_partial"
   ],
   "note": "refuted for array samples (overwritten) and integer arrays (masked samples counted); proved for sequences / float arrays"
  },
  {
   "property": "C27",
   "status": "partial",
   "theorems": [
    "Verif.Roi.C27_rectangles_partial",
    "Verif.Roi.C27_off_image_refuted"
   ],
   "note": "refuted for rectangles ending before the image starts (negative slice end wraps); proved for all others, including partly off-image ones"
  },
  {
   "property": "C28",
   "status": "proved",
   "theorems": [
    "Verif.Roi.C28_rings"
   ],
   "note": "over the reals, every centre, shape and ascending edge list"
  },
  {
   "property": "C29",
   "status": "partial",
   "theorems": [
    "Verif.Roi.C29_result_partial",
    "Verif.Roi.C29_accepted_partial",
    "Verif.Roi.C29_two_lists_refuted",
    "Verif.Roi.C29_inner_truncated_refuted"
   ],
   "note": "refuted: lists of widths and spacings always raise; integer spacings truncate the inner radius; every successful result proved as requested"
  },
  {
   "property": "C30",
   "status": "partial",
   "theorems": [
    "Verif.Roi.C30_labels_partial",
    "Verif.Roi.C30_equal_segments_partial",
    "Verif.Roi.C30_offset_refuted"
   ],
   "note": "refuted with an offset angle (labels collide, label 0 inside a ring); proved for angles within the segments, in particular N equal segments without offset"
  },
  {
   "property": "C31",
   "status": "partial",
   "theorems": [
    "Verif.Roi.C31_bar_partial",
    "Verif.Roi.C31_bar_values_partial",
    "Verif.Roi.C31_bar_rejects",
    "Verif.Roi.C31_vertical_values_ignored_refuted",
    "Verif.Roi.C31_box_values_ignored_refuted",
    "Verif.Roi.C31_box_partial"
   ],
   "note": "refuted: vertical bars and boxes ignore coordinate values; proved without coordinate values and for horizontal bars with them"
  },
  {
   "property": "C32",
   "status": "proved",
   "theorems": [
    "Verif.Roi.C32_indices"
   ],
   "note": ""
  },
  {
   "property": "C33",
   "status": "partial",
   "theorems": [
    "Verif.Roi.C33_pixel_values",
    "Verif.Roi.C33_mean_partial",
    "Verif.Roi.C33_no_background_refuted",
    "Verif.Roi.C33_max_counts_partial",
    "Verif.Roi.C33_max_negative_refuted"
   ],
   "note": "refuted: mean_intensity raises without background pixels, roi_max_counts is at least 0; proved otherwise"
  },
  {
   "property": "C34",
   "status": "proved",
   "theorems": [
    "Verif.Roi.C34_average",
    "Verif.Roi.C34_default_limits"
   ],
   "note": "radii are the (floating-point) values of radial_grid, averages in exact arithmetic"
  },
  {
   "property": "C35",
   "status": "proved",
   "theorems": [
    "Verif.Roi.C35_kymograph",
    "Verif.Roi.C35_rejects"
   ],
   "note": ""
  },
  {
   "property": "C36",
   "status": "proved",
   "theorems": [
    "Verif.Mask.C36_threshold",
    "Verif.Mask.C36_default_mask"
   ],
   "note": "content of each mask at the moment it is yielded; NaN comparisons are False"
  },
  {
   "property": "C37",
   "status": "partial",
   "theorems": [
    "Verif.Mask.C37_margin_partial",
    "Verif.Mask.C37_zero_margin_refuted"
   ],
   "note": "refuted for edge_size 0 (masks everything); proved for every edge_size >= 1"
  },
  {
   "property": "C38",
   "status": "partial",
   "theorems": [
    "Verif.Mask.C38_bad_frames_partial",
    "Verif.Mask.C38_shapes_refuted"
   ],
   "note": "refuted for frames of different shapes (the NaN frame of the first one is reused); proved for equally shaped frames"
  },
  {
   "property": "C39",
   "status": "partial",
   "theorems": [
    "Verif.Mask.C39_outlier_partial",
    "Verif.Mask.C39_first_edge_refuted",
    "Verif.Mask.C39_uniform_bin_refuted"
   ],
   "note": "refuted for pixels on a lower bin edge (compared with the previous or last bin) and for uniform bins; proved for pixels strictly inside a bin"
  },
  {
   "property": "C40",
   "status": "partial",
   "theorems": [
    "Verif.Mask.C40_new_array",
    "Verif.Mask.C40_nand_nor",
    "Verif.Mask.C40_sub_partial",
    "Verif.Mask.C40_sub_inplace_refuted"
   ],
   "note": "refuted for logical_sub with out=x1; nand and nor proved for every aliasing, sub for out not overlapping x1"
  },
  {
   "property": "C41",
   "status": "proved",
   "theorems": [
    "Verif.Grid.C41_voxel_sums",
    "Verif.Grid.C41_voxels_disjoint"
   ],
   "note": "exact arithmetic; zeroed accumulators (see C42), all assignments of points to threads and all event orders"
  },
  {
   "property": "C42",
   "status": "partial",
   "theorems": [
    "Verif.Grid.C42_uncleared_refuted",
    "Verif.Grid.C42_garbage_in_result_refuted",
    "Verif.Grid.C42_sequential_partial"
   ],
   "note": "refuted: the loop counter of the clearing loop is shared between threads; proved for threads that do not overlap"
  },
  {
   "property": "C43",
   "status": "partial",
   "theorems": [
    "Verif.Grid.C43_mean_and_error_partial",
    "Verif.Grid.C43_nan_error_refuted"
   ],
   "note": "proved in exact arithmetic; refuted with rounding (three points of intensity 0.1 give NaN)"
  },
  {
   "property": "C44",
   "status": "partial",
   "theorems": [
    "Verif.Grid.C44_all_points_counted_partial",
    "Verif.Grid.C44_negative_coordinates_refuted",
    "Verif.Grid.C44_negative_coordinates_witness",
    "Verif.Grid.C44_rounding_refuted"
   ],
   "note": "refuted for negative maxima and by rounding; proved in exact arithmetic for non-negative maxima"
  },
  {
   "property": "C45",
   "status": "proved",
   "theorems": [
    "Verif.Grid.C45_mask",
    "Verif.Grid.C45_no_mask"
   ],
   "note": ""
  },
  {
   "property": "C46",
   "status": "proved",
   "theorems": [
    "Verif.Corr.C46_rows_are_pair_means",
    "Verif.Corr.C46_g2_is_normalised_pair_mean",
    "Verif.Corr.C46_one_call_uses_every_frame",
    "Verif.Corr.C46_indices_in_bounds"
   ],
   "note": "for every label image, stream, number of levels and (even) number of buffers; exact rational arithmetic"
  },
  {
   "property": "C47",
   "status": "proved",
   "theorems": [
    "Verif.Corr.C47_instalments",
    "Verif.Corr.C47_batches",
    "Verif.Corr.C47_one_result_per_frame"
   ],
   "note": ""
  },
  {
   "property": "C48",
   "status": "partial",
   "theorems": [
    "Verif.Corr.C48_zero_division_reported",
    "Verif.Corr.C48_past_nonzero_partial",
    "Verif.Corr.C48_positive_data_partial"
   ],
   "note": "refuted by witness (later-frame normalisation zero is not checked); proved for streams of positive values; earlier-frame normalisation non-zero for every state"
  },
  {
   "property": "C49",
   "status": "proved",
   "theorems": [
    "Verif.Corr.C49_rows_match_lags"
   ],
   "note": ""
  },
  {
   "property": "C50",
   "status": "proved",
   "theorems": [
    "Verif.Corr.C50_renumbering",
    "Verif.Corr.C50_injective",
    "Verif.Corr.C50_every_column_has_pixels"
   ],
   "note": ""
  },
  {
   "property": "C51",
   "status": "proved",
   "theorems": [
    "Verif.Corr.C51_symmetric",
    "Verif.Corr.C51_entries"
   ],
   "note": "symmetry for every state; entries for every level count and any lag below the buffer count"
  },
  {
   "property": "C52",
   "status": "proved",
   "theorems": [
    "Verif.Corr.C52_two_time_matrix",
    "Verif.Corr.C52_too_many_frames"
   ],
   "note": "complete characterisation of every matrix cell, including the untouched ones and the IndexError case"
  },
  {
   "property": "C53",
   "status": "proved",
   "theorems": [
    "Verif.Corr.C53_diagonal_means"
   ],
   "note": ""
  },
  {
   "property": "C54",
   "status": "proved",
   "theorems": [
    "Verif.Cross.C54_displacement_sums",
    "Verif.Cross.C54_all_displacements_present",
    "Verif.Cross.C54_mask_counts_pairs",
    "Verif.Cross.C54_inversion"
   ],
   "note": "exact arithmetic; the FFT is replaced by the linear convolution it computes; 1-D curves are one-row images"
  },
  {
   "property": "C55",
   "status": "partial",
   "theorems": [
    "Verif.Speckle.C55_actual",
    "Verif.Speckle.C55_level0_partial",
    "Verif.Speckle.C55_overlap_refuted"
   ],
   "note": "refuted: the level loop never stops early, so every frame is processed at every level, from overlapping binomially weighted sums; the exact behaviour is proved (C55_actual) and level 0 is as documented"
  },
  {
   "property": "C56",
   "status": "proved",
   "theorems": [
    "Verif.Feature.C56_n_largest",
    "Verif.Feature.C56_bad_limit"
   ],
   "note": "for any argsort (ties in any order)"
  },
  {
   "property": "C57",
   "status": "proved",
   "theorems": [
    "Verif.Feature.C57_peak_height",
    "Verif.Feature.C57_outside"
   ],
   "note": "for candidate positions within the data"
  },
  {
   "property": "C58",
   "status": "partial",
   "theorems": [
    "Verif.Feature.C58_errors_partial",
    "Verif.Feature.C58_single_sample_refuted",
    "Verif.Feature.C58_descending"
   ],
   "note": "refuted for a single sample (IndexError); for two or more samples and at least one region ValueError exactly in the documented cases"
  },
  {
   "property": "C59",
   "status": "partial",
   "theorems": [
    "Verif.Feature.C59_right_edges_partial",
    "Verif.Feature.C59_centres_refuted"
   ],
   "note": "refuted: right edges are used instead of centres; the actual behaviour is proved for all inputs"
  },
  {
   "property": "C60",
   "status": "proved",
   "theorems": [
    "Verif.Feature.C60_align_gaussians",
    "Verif.Feature.C60_affine"
   ],
   "note": "exact for Gaussian spectra with find_largest_peak; affine map for any peak finder; least squares taken as the minimiser of the squared residuals"
  },
  {
   "property": "C61",
   "status": "proved",
   "theorems": [
    "Verif.Dpc.C61_raster",
    "Verif.Dpc.C61_resume"
   ],
   "note": "fits are arbitrary functions of the frame"
  },
  {
   "property": "C62",
   "status": "partial",
   "theorems": [
    "Verif.Dpc.C62_image_reduction_partial",
    "Verif.Dpc.C62_array_roi_refuted"
   ],
   "note": "refuted for an ROI given as ndarray (the documented type): always raises; proved for sequences and None"
  },
  {
   "property": "C63",
   "status": "proved",
   "theorems": [
    "Verif.Dpc.C63_pad_crop",
    "Verif.Dpc.C63_recon"
   ],
   "note": "over the reals"
  },
  {
   "property": "C64",
   "status": "partial",
   "theorems": [
    "Verif.Cdi.C64_box_partial",
    "Verif.Cdi.C64_large_box_refuted",
    "Verif.Cdi.C64_float_radius_refuted",
    "Verif.Cdi.C64_disk"
   ],
   "note": "refuted for a float radius (TypeError) and for a radius above half the axis (negative slice start wraps); box proved when it fits, disk proved for all"
  },
  {
   "property": "C65",
   "status": "partial",
   "theorems": [
    "Verif.Cdi.C65_average_partial",
    "Verif.Cdi.C65_nan_refuted",
    "Verif.Cdi.C65_default_start_partial",
    "Verif.Cdi.C65_flag"
   ],
   "note": "refuted when no iteration lies after the start (default 0.8: five iterations or fewer): all NaN; proved otherwise, with the iterates given by the difference map"
  },
  {
   "property": "C66",
   "status": "proved",
   "theorems": [
    "Verif.Snip.C66_snip",
    "Verif.Snip.C66_pass_lowers",
    "Verif.Snip.C66_needs_decrease",
    "Verif.Snip.C66_empty",
    "Verif.Snip.C66_needs_slope",
    "Verif.Snip.C66_needs_range"
   ],
   "note": "over the reals, for non-negative spectra, e_lin not 0, con_val above 0 and xmax not below minus the length; with decrease_factor <= 1, or e_lin = 0 and an offset, the loop is proved not to end, and xmax too far below 0 is proved to raise"
  },
  {
   "property": "C67",
   "status": "partial",
   "theorems": [
    "Verif.Line.C67_gaussian",
    "Verif.Line.C67_lorentzian",
    "Verif.Line.C67_pvoigt",
    "Verif.Line.C67_lorentzian2_refuted",
    "Verif.Line.C67_peaks_partial"
   ],
   "note": "refuted for lorentzian2 (integral is half the area for every width); gaussian, lorentzian and pvoigt proved over the reals"
  },
  {
   "property": "C68",
   "status": "proved",
   "theorems": [
    "Verif.Line.C68_poisson",
    "Verif.Line.C68_nbinom",
    "Verif.Line.C68_gamma"
   ],
   "note": "over the reals; gamma_dist too (integral 1); scipy gamma/gammaln taken as the Gamma function and log |Gamma|"
  },
  {
   "property": "C69",
   "status": "proved",
   "theorems": [
    "Verif.Line.C69_energy",
    "Verif.Line.C69_peak"
   ],
   "note": "over the reals"
  },
  {
   "property": "C70",
   "status": "proved",
   "theorems": [
    "Verif.Xrf.C70_bounds",
    "Verif.Xrf.C70_element_constraint",
    "Verif.Xrf.C70_register"
   ],
   "note": "all parameter dictionaries and strategies; register_strategy included"
  },
  {
   "property": "C71",
   "status": "partial",
   "theorems": [
    "Verif.Xrf.C71_schedule_partial",
    "Verif.Xrf.C71_snip_partial",
    "Verif.Xrf.C71_no_snip_refuted"
   ],
   "note": "refuted for use_snip=False, the default: UnboundLocalError for any pixel; proved for use_snip=True and independently of the schedule of the pool"
  },
  {
   "property": "C72",
   "status": "partial",
   "theorems": [
    "Verif.Xrf.C72_lines_partial",
    "Verif.Xrf.C72_kb2_refuted"
   ],
   "note": "refuted: for K elements kb2-kb5 are dropped and for L elements they are included; what is returned is stated exactly"
  },
  {
   "property": "C73",
   "status": "proved",
   "theorems": [
    "Verif.Xrf.C73_trim",
    "Verif.Xrf.C73_define_range"
   ],
   "note": "exact arithmetic, positive slope for define_range; define_range rounds to channels, so the window is exact to half a channel"
  },
  {
   "property": "C74",
   "status": "partial",
   "theorems": [
    "Verif.Xrf.C74_names_partial",
    "Verif.Xrf.C74_pileup_refuted",
    "Verif.Xrf.C74_pileup_area_partial"
   ],
   "note": "refuted for pileup peaks (the underscore before the kind is missing); proved for elements and user peaks, and for pileup areas"
  },
  {
   "property": "C75",
   "status": "proved",
   "theorems": [
    "Verif.Io.C75_std",
    "Verif.Io.C75_integers"
   ],
   "note": "exact arithmetic for the scale; the printf/parse pair is modelled digit by digit"
  },
  {
   "property": "C76",
   "status": "partial",
   "theorems": [
    "Verif.Io.C76_count_refuted",
    "Verif.Io.C76_esd_partial"
   ],
   "note": "refuted: the count is rounded up to a multiple of five, with zero points appended; the rest is stated exactly. Intensities and errors at most 8 digits"
  },
  {
   "property": "C77",
   "status": "partial",
   "theorems": [
    "Verif.Io.C77_save_output_partial",
    "Verif.Io.C77_gsas_partial",
    "Verif.Io.C77_gsas_refuted"
   ],
   "note": "refuted: gsas_writer deletes the file before raising for a bad mode, no points or negative intensities; save_output never loses a file when it raises"
  },
  {
   "property": "C78",
   "status": "partial",
   "theorems": [
    "Verif.Io.C78_read_partial",
    "Verif.Io.C78_size_refuted",
    "Verif.Io.C78_1d_refuted"
   ],
   "note": "refuted: short files are padded with zeros, long ones cut, nx is ignored for 1D; proved for files of exactly the right size"
  },
  {
   "property": "C79",
   "status": "proved",
   "theorems": [
    "Verif.Consts.C79_lookup",
    "Verif.Consts.C79_order",
    "Verif.Consts.C79_data"
   ],
   "note": "ASCII letter case; the reader of the data file is modelled line by line and the distributed element list is checked to satisfy the hypotheses"
  },
  {
   "property": "C80",
   "status": "proved",
   "theorems": [
    "Verif.Consts.C80_line_near",
    "Verif.Consts.C80_search",
    "Verif.Consts.C80_default"
   ],
   "note": "xraylib's functions are parameters"
  },
  {
   "property": "C81",
   "status": "partial",
   "theorems": [
    "Verif.Consts.C81_sorted",
    "Verif.Consts.C81_from_d_partial",
    "Verif.Consts.C81_short_hkl_refuted",
    "Verif.Consts.C81_two_theta"
   ],
   "note": "refuted: a list of Miller indices shorter than the spacings silently drops reflections; everything else proved over the reals"
  },
  {
   "property": "C82",
   "status": "partial",
   "theorems": [
    "Verif.Dicts.C82_setdefault_never_stores",
    "Verif.Dicts.C82_pop_ignores_default",
    "Verif.Dicts.C82_pop_present_partial"
   ],
   "note": "setdefault and pop-with-default refuted; pop of a present key proved"
  },
  {
   "property": "C83",
   "status": "proved",
   "theorems": [
    "Verif.Corr.C83_peeking_is_harmless"
   ],
   "note": ""
  },
  {
   "property": "C84",
   "status": "proved",
   "theorems": [
    "Verif.Corr.C84_two_time_instalments"
   ],
   "note": ""
  },
  {
   "property": "C85",
   "status": "partial",
   "theorems": [
    "Verif.Corr.C85_first_level_partial",
    "Verif.Corr.C85_refuted",
    "Verif.Corr.C85_single_level_partial"
   ],
   "note": "refuted by witness (unfilled cells stay 0 and are averaged in); proved for every lag below num_bufs, any number of levels and frames"
  },
  {
   "property": "C86",
   "status": "partial",
   "theorems": [
    "Verif.Cross.C86_peak_position_partial",
    "Verif.Cross.C86_shift_direction_refuted",
    "Verif.Cross.C86_shift_direction_witness"
   ],
   "note": "refuted for every pair of single-pixel features: the peak lies on the opposite side"
  },
  {
   "property": "C87",
   "status": "proved",
   "theorems": [
    "Verif.Cross.C87_constant_images"
   ],
   "note": ""
  },
  {
   "property": "C88",
   "status": "partial",
   "theorems": [
    "Verif.Grid.C88_race_out_of_bounds_refuted",
    "Verif.Grid.C88_no_openmp_refuted",
    "Verif.Grid.C88_zero_bins_refuted",
    "Verif.Grid.C88_accumulation_in_bounds_partial"
   ],
   "note": "refuted: race, builds without OpenMP, zero bins; proved for the accumulation loop"
  },
  {
   "property": "C89",
   "status": "partial",
   "theorems": [
    "Verif.Mask.C89_masks_alias_refuted",
    "Verif.Mask.C89_bad_stays_bad_partial"
   ],
   "note": "refuted: every yield is the same array; bad pixels of a yielded mask do stay bad"
  },
  {
   "property": "C90",
   "status": "proved",
   "theorems": [
    "Verif.Line.C90_poisson_mean",
    "Verif.Line.C90_nbinom_mean"
   ],
   "note": "over the reals, real mode numbers"
  },
  {
   "property": "C91",
   "status": "partial",
   "theorems": [
    "Verif.Line.C91_tail_area_refuted",
    "Verif.Line.C91_below_centre_partial"
   ],
   "note": "refuted: the clipped exponential makes the integral strictly smaller than the area for all parameters; the unclipped profile has the area"
  },
  {
   "property": "C92",
   "status": "proved",
   "theorems": [
    "Verif.Line.C92_elastic_width",
    "Verif.Line.C92_elastic_fwhm"
   ],
   "note": "general width with energy-dependent broadening (C92_elastic_width) and without"
  },
  {
   "property": "C93",
   "status": "partial",
   "theorems": [
    "Verif.Speckle.C93_single_image_sets_partial",
    "Verif.Speckle.C93_sets_refuted"
   ],
   "note": "refuted: the average over sets is updated once per frame; proved when each set has one image"
  },
  {
   "property": "C94",
   "status": "partial",
   "theorems": [
    "Verif.Speckle.C94_entries_partial",
    "Verif.Speckle.C94_brightest_refuted"
   ],
   "note": "refuted for the default max_cts (brightest pixels outside the bins); proved when all counts are at most max_cts - 2"
  },
  {
   "property": "C95",
   "status": "proved",
   "theorems": [
    "Verif.Speckle.C95_std_not_nan"
   ],
   "note": "exact arithmetic; rounding can still make the difference negative"
  },
  {
   "property": "C96",
   "status": "proved",
   "theorems": [
    "Verif.Feature.C96_quadratic",
    "Verif.Feature.C96_gaussian"
   ],
   "note": "least squares taken as the minimiser of the squared residuals"
  },
  {
   "property": "C97",
   "status": "proved",
   "theorems": [
    "Verif.Feature.C97_peak_refinement"
   ],
   "note": "any refine function"
  },
  {
   "property": "C98",
   "status": "partial",
   "theorems": [
    "Verif.Feature.C98_gaussian_no_window",
    "Verif.Feature.C98_gaussian_window_partial",
    "Verif.Feature.C98_window_at_start_refuted"
   ],
   "note": "refuted when the window reaches before the first sample (np.max(j - window, 0) is j - window): raises for every such spectrum of at least 2*window+1 points; otherwise exact"
  },
  {
   "property": "C99",
   "status": "partial",
   "theorems": [
    "Verif.Feature.C99_region_samples_partial",
    "Verif.Feature.C99_beyond_limit_refuted",
    "Verif.Feature.C99_sum_over_regions"
   ],
   "note": "refuted when x_max is not a sampling point: one sample beyond it is included; exact when it is"
  },
  {
   "property": "C100",
   "status": "partial",
   "theorems": [
    "Verif.Calib.C100_refine_center_refuted",
    "Verif.Calib.C100_equal_errors_partial"
   ],
   "note": "refuted: row and column corrections are swapped, exactly, for every offset; proved when both errors are equal and pixels square.  Peak finding per sector is not part of the model: its result is taken as the exact ring radius"
  },
  {
   "property": "C101",
   "status": "proved",
   "theorems": [
    "Verif.Calib.C101_distance",
    "Verif.Calib.C101_mean_and_spread"
   ],
   "note": "from the refined peak positions on"
  },
  {
   "property": "C102",
   "status": "proved",
   "theorems": [
    "Verif.Dpc.C102_recon_gradient"
   ],
   "note": "over the reals, DFT written out with NumPy's conventions"
  },
  {
   "property": "C103",
   "status": "partial",
   "theorems": [
    "Verif.Dpc.C103_scale_ignored_refuted",
    "Verif.Dpc.C103_unscaled_unnegated_refuted",
    "Verif.Dpc.C103_scale_false_dependent_refuted",
    "Verif.Dpc.C103_unscaled_partial"
   ],
   "note": "refuted: scale is never read, and omitting pixel size with negate=False raises; proved for negate=True without pixel size"
  },
  {
   "property": "C104",
   "status": "proved",
   "theorems": [
    "Verif.Dpc.C104_cost_minimum"
   ],
   "note": "over the reals"
  },
  {
   "property": "C105",
   "status": "partial",
   "theorems": [
    "Verif.Dpc.C105_snapshot_refuted",
    "Verif.Dpc.C105_last_partial"
   ],
   "note": "refuted for every scan of two or more frames; the last one is right"
  },
  {
   "property": "C106",
   "status": "partial",
   "theorems": [
    "Verif.Dpc.C106_runner_partial",
    "Verif.Dpc.C106_no_frames_refuted",
    "Verif.Dpc.C106_non_square"
   ],
   "note": "refuted for the empty sequence (UnboundLocalError); proved otherwise"
  },
  {
   "property": "C107",
   "status": "proved",
   "theorems": [
    "Verif.Cdi.C107_gauss",
    "Verif.Cdi.C107_positions"
   ],
   "note": "any dimension"
  },
  {
   "property": "C108",
   "status": "partial",
   "theorems": [
    "Verif.Cdi.C108_modulus_partial",
    "Verif.Cdi.C108_modulus_refuted"
   ],
   "note": "refuted for the positive offset the code uses: the modulus is always too small; exact for offset 0"
  },
  {
   "property": "C109",
   "status": "partial",
   "theorems": [
    "Verif.Cdi.C109_callback_refuted",
    "Verif.Cdi.C109_callback_partial"
   ],
   "note": "refuted: called in every iteration or never; right for cb_step 1"
  },
  {
   "property": "C110",
   "status": "partial",
   "theorems": [
    "Verif.Cdi.C110_previous_size_partial",
    "Verif.Cdi.C110_first_size_refuted"
   ],
   "note": "refuted: the entry is the size of the support before; the first is 0"
  },
  {
   "property": "C111",
   "status": "partial",
   "theorems": [
    "Verif.Cdi.C111_caller_object_refuted",
    "Verif.Cdi.C111_last_iterate_partial"
   ],
   "note": "refuted: updated in place; the caller's array ends as the last iterate"
  },
  {
   "property": "C112",
   "status": "proved",
   "theorems": [
    "Verif.Cdi.C112_fixed_point",
    "Verif.Cdi.C112_offset_moves"
   ],
   "note": ""
  },
  {
   "property": "C113",
   "status": "proved",
   "theorems": [
    "Verif.Snip.C113_monotone",
    "Verif.Snip.C113_constant"
   ],
   "note": "over the reals"
  },
  {
   "property": "C114",
   "status": "partial",
   "theorems": [
    "Verif.Xrf.C114_failed_add_refuted",
    "Verif.Xrf.C114_failed_add_partial"
   ],
   "note": "refuted: the element is listed although the call failed; parameters and strategies are unchanged"
  },
  {
   "property": "C115",
   "status": "partial",
   "theorems": [
    "Verif.Xrf.C115_assemble_partial",
    "Verif.Xrf.C115_not_excited_refuted"
   ],
   "note": "refuted: an element below its excitation energy raises; proved for excited elements"
  },
  {
   "property": "C116",
   "status": "proved",
   "theorems": [
    "Verif.Xrf.C116_history"
   ],
   "note": "over all call sequences"
  },
  {
   "property": "C117",
   "status": "proved",
   "theorems": [
    "Verif.Xrf.C117_weighted"
   ],
   "note": "given scipy's nnls contract (Spec.IsNnls), which is shown satisfiable"
  },
  {
   "property": "C118",
   "status": "partial",
   "theorems": [
    "Verif.Xrf.C118_r_squared_partial",
    "Verif.Xrf.C118_r_squared_refuted"
   ],
   "note": "refuted: the residual norm is not squared, so equal only if SS_res is 0 or 1; the bound and the perfect-fit case hold"
  },
  {
   "property": "C119",
   "status": "proved",
   "theorems": [
    "Verif.Xrf.C119_peak_area",
    "Verif.Xrf.C119_area_map",
    "Verif.Xrf.C119_first_peak",
    "Verif.Xrf.C119_sum_area"
   ],
   "note": "over the reals; first_peak_area when the line profiles have equal counts in the window"
  },
  {
   "property": "C120",
   "status": "proved",
   "theorems": [
    "Verif.Xrf.C120_components_sum"
   ],
   "note": "over the reals"
  },
  {
   "property": "C121",
   "status": "partial",
   "theorems": [
    "Verif.Io.C121_positions_partial",
    "Verif.Io.C121_single_refuted"
   ],
   "note": "refuted for one point (NaN); proved for two or more, error bound (1+j)/2e7 degrees from the five decimals of the header"
  },
  {
   "property": "C122",
   "status": "partial",
   "theorems": [
    "Verif.Io.C122_esd_scale_partial",
    "Verif.Io.C122_esd_scale_refuted"
   ],
   "note": "refuted above 999999, and equal scales (one) below; see C76_esd_partial for the exact values"
  },
  {
   "property": "C123",
   "status": "partial",
   "theorems": [
    "Verif.Io.C123_fxye_partial",
    "Verif.Io.C123_fxye_positions_refuted"
   ],
   "note": "refuted: positions are scaled too above 999999; proved with the scale explicit"
  },
  {
   "property": "C124",
   "status": "proved",
   "theorems": [
    "Verif.Io.C124_save_output"
   ],
   "note": "the number format is a parameter whose output contains no line break"
  },
  {
   "property": "C125",
   "status": "proved",
   "theorems": [
    "Verif.Consts.C125_line_constants",
    "Verif.Consts.C125_shell_constants",
    "Verif.Consts.C125_mapping",
    "Verif.Consts.C125_values"
   ],
   "note": "xraylib's functions are parameters"
  },
  {
   "property": "C126",
   "status": "proved",
   "theorems": [
    "Verif.Recip.C126_every_schedule"
   ],
   "note": "real arithmetic; the C loops are modelled as sequences of loads and stores, interleaved arbitrarily between images"
  },
  {
   "property": "C127",
   "status": "proved",
   "theorems": [
    "Verif.Recip.C127_bragg"
   ],
   "note": "real arithmetic"
  },
  {
   "property": "C128",
   "status": "partial",
   "theorems": [
    "Verif.Recip.C128_hkl_partial",
    "Verif.Recip.C128_hkl_norm_refuted"
   ],
   "note": "refuted: hkl_to_q of the hkl rows is the norm of the Miller indices, not |q|, unless UB is orthogonal"
  },
  {
   "property": "C129",
   "status": "partial",
   "theorems": [
    "Verif.Recip.C129_accepts_iff_partial",
    "Verif.Recip.C129_cart_is_phi_refuted"
   ],
   "note": "refuted: the cart frame is identical to the phi frame"
  },
  {
   "property": "C130",
   "status": "partial",
   "theorems": [
    "Verif.Recip.C130_on_axis_partial",
    "Verif.Recip.C130_off_axis_refuted"
   ],
   "note": "refuted for every pixel that is neither in the row nor in the column of the direct beam"
  },
  {
   "property": "C131",
   "status": "partial",
   "theorems": [
    "Verif.Recip.C131_specular_partial",
    "Verif.Recip.C131_tilted_refuted"
   ],
   "note": "refuted for every tilted sample: the tilt correction has the wrong sense"
  },
  {
   "property": "C132",
   "status": "proved",
   "theorems": [
    "Verif.Recip.C132_length"
   ],
   "note": "real arithmetic"
  },
  {
   "property": "C133",
   "status": "partial",
   "theorems": [
    "Verif.Recip.C133_square_partial",
    "Verif.Recip.C133_not_square_refuted"
   ],
   "note": "refuted for detectors that are not square: the two sizes are exchanged"
  },
  {
   "property": "C134",
   "status": "partial",
   "theorems": [
    "Verif.Image.C134_best_mirror_partial",
    "Verif.Image.C134_ring_refuted",
    "Verif.Image.C134_peak_refuted"
   ],
   "note": "refuted for symmetric images (a ring, and a single smooth peak); proved: the pixel about which more than half of rows and columns mirror strictly best is reported"
  },
  {
   "property": "C135",
   "status": "proved",
   "theorems": [
    "Verif.Image.C135_center_in_image"
   ],
   "note": "exact rationals; no NaN"
  },
  {
   "property": "C136",
   "status": "proved",
   "theorems": [
    "Verif.Image.C136_pixel_is_profile",
    "Verif.Image.C136_center_needs_dims",
    "Verif.Image.C136_radially_symmetric"
   ],
   "note": "real arithmetic"
  },
  {
   "property": "C137",
   "status": "partial",
   "theorems": [
    "Verif.Image.C137_left_right_refuted",
    "Verif.Image.C137_right_zero_partial"
   ],
   "note": "refuted: left and right are ignored; only right = 0 behaves as documented"
  },
  {
   "property": "C138",
   "status": "proved",
   "theorems": [
    "Verif.Image.C138_default_size_crops_nothing"
   ],
   "note": "real arithmetic"
  },
  {
   "property": "C139",
   "status": "proved",
   "theorems": [
    "Verif.Image.C139_polar_bilinear",
    "Verif.Image.C139_masked"
   ],
   "note": "real arithmetic; NaN-free polar image, at least two radii"
  },
  {
   "property": "C140",
   "status": "partial",
   "theorems": [
    "Verif.Image.C140_full_turn_refuted",
    "Verif.Image.C140_accepts_partial"
   ],
   "note": "refuted: a full turn raises ValueError; proved for spans below a turn"
  },
  {
   "property": "C141",
   "status": "partial",
   "theorems": [
    "Verif.Image.C141_unchanged_partial",
    "Verif.Image.C141_repeat_refuted"
   ],
   "note": "refuted: the angles are shifted in place; proved when they start at zero and no mask is given"
  },
  {
   "property": "C142",
   "status": "partial",
   "theorems": [
    "Verif.Image.C142_mask_shape_partial",
    "Verif.Image.C142_mask_shape_refuted"
   ],
   "note": "refuted when shape is not given: TypeError"
  },
  {
   "property": "C143",
   "status": "partial",
   "theorems": [
    "Verif.Binned.C143_equal_bins",
    "Verif.Binned.C143_bad_bins",
    "Verif.Binned.C143_all_counted_partial",
    "Verif.Binned.C143_single_bin_refuted"
   ],
   "note": "equal bins proved for every dimension; counting proved for two or more bins in 1-D; refuted for a single bin (sample just below the maximum is lost)"
  },
  {
   "property": "C144",
   "status": "partial",
   "theorems": [
    "Verif.Binned.C144_masked_irrelevant_partial",
    "Verif.Binned.C144_default_range_refuted",
    "Verif.Binned.C144_mask_length"
   ],
   "note": "refuted with the default range, which is taken over masked samples; proved for explicit ranges or edges"
  },
  {
   "property": "C145",
   "status": "partial",
   "theorems": [
    "Verif.Binned.C145_scalar_and_length",
    "Verif.Binned.C145_explicit_edges",
    "Verif.Binned.C145_edges_1d",
    "Verif.Binned.C145_common_edges_partial",
    "Verif.Binned.C145_two_edges_refuted",
    "Verif.Binned.C145_one_element"
   ],
   "note": "refuted for two common edges in the 2-D class, which are read as two numbers of bins"
  },
  {
   "property": "C146",
   "status": "partial",
   "theorems": [
    "Verif.Binned.C146_radial_partial",
    "Verif.Binned.C146_rphi_partial",
    "Verif.Binned.C146_shapes_checked",
    "Verif.Binned.C146_rmap_shape_refuted"
   ],
   "note": "for used pixels not within rounding distance of the last edge, with explicit edges; the maps are arbitrary rational arrays; refuted: the shape of r_map is not checked"
  },
  {
   "property": "C147",
   "status": "proved",
   "theorems": [
    "Verif.Smooth.C147_polynomials",
    "Verif.Smooth.C147_derivatives"
   ],
   "note": "pinv enters by its contract (Moore-Penrose conditions); existence of such a matrix is proved (pinv_exists)"
  },
  {
   "property": "C148",
   "status": "partial",
   "theorems": [
    "Verif.Smooth.C148_scale_and_shift",
    "Verif.Smooth.C148_rising_plane_partial",
    "Verif.Smooth.C148_falling_ramp_refuted"
   ],
   "note": "planes: proved for planes that do not fall along either axis, refuted for falling ones (the padding assumes a rising image)"
  },
  {
   "property": "C149",
   "status": "partial",
   "theorems": [
    "Verif.Smooth.C149_errors",
    "Verif.Smooth.C149_order_not_checked_refuted"
   ],
   "note": "checks of odd window and number of points proved; refuted: order >= window_size is accepted and the derivative is then wrong; an unknown derivative gives None"
  },
  {
   "property": "C150",
   "status": "partial",
   "theorems": [
    "Verif.Line.C150_area_partial",
    "Verif.Line.C150_area_refuted",
    "Verif.Line.C150_floor"
   ],
   "note": "exact area without a step and limit with one; refuted: with any tail the area is smaller than the amplitude"
  },
  {
   "property": "C151",
   "status": "partial",
   "theorems": [
    "Verif.Stats.C151_bins_partial",
    "Verif.Stats.C151_all_used",
    "Verif.Stats.C151_errors",
    "Verif.Stats.C151_above_limit_refuted"
   ],
   "note": "scipy.stats.binned_statistic modelled; proved when no sample lies within 1e-5 bin widths above the upper limit (always with default limits); refuted just above a given upper limit"
  },
  {
   "property": "C152",
   "status": "partial",
   "theorems": [
    "Verif.Hist.C152_edges",
    "Verif.Hist.C152_fill_partial",
    "Verif.Hist.C152_strided_refuted"
   ],
   "note": "fill refuted for strided arrays; proved for contiguous arrays on the N-D path, as in C18; exact arithmetic"
  },
  {
   "property": "C153",
   "status": "proved",
   "theorems": [
    "Verif.Speckle.C153_edges",
    "Verif.Speckle.C153_missing_mean"
   ],
   "note": "exact rationals, mean not zero where it is divided by"
  },
  {
   "property": "C154",
   "status": "partial",
   "theorems": [
    "Verif.Roi.C154_labels_partial",
    "Verif.Roi.C154_ends",
    "Verif.Roi.C154_four_numbers",
    "Verif.Roi.C154_negative_end_refuted",
    "Verif.Roi.C154_start_beyond_refuted"
   ],
   "note": "skimage.draw.line by contract; proved for starts not beyond and ends not before the image; refuted for negative end points (drawn at the opposite border) and starts beyond the image (IndexError)"
  },
  {
   "property": "C155",
   "status": "proved",
   "theorems": [
    "Verif.Cdi.C155_diff_error",
    "Verif.Cdi.C155_error_dict"
   ],
   "note": "2-D, real arithmetic"
  },
  {
   "property": "C156",
   "status": "partial",
   "theorems": [
    "Verif.Cdi.C156_random_start",
    "Verif.Cdi.C156_shift_refuted"
   ],
   "note": "object has the given pattern: proved; refuted for use in cdi_recon, which compares with the shifted pattern"
  },
  {
   "property": "C157",
   "status": "partial",
   "theorems": [
    "Verif.Amira.C157_split_partial",
    "Verif.Amira.C157_no_marker_refuted"
   ],
   "note": "refuted: without the marker line the loop never ends and its list grows without bound"
  },
  {
   "property": "C158",
   "status": "partial",
   "theorems": [
    "Verif.Amira.C158_load_refuted",
    "Verif.Amira.C158_flip_refuted",
    "Verif.Amira.C158_shape_partial",
    "Verif.Amira.C158_negative"
   ],
   "note": "refuted: every file fails with TypeError (str.translate with two arguments under Python 3), and the default flip_z indexes with two ellipses; proved: shape and order of the values with flip_z=False, conversion of bytes to numbers being a parameter"
  },
  {
   "property": "C159",
   "status": "partial",
   "theorems": [
    "Verif.Amira.C159_metadata_partial",
    "Verif.Amira.C159_metadata_3d_partial",
    "Verif.Amira.C159_single_layer_refuted",
    "Verif.Amira.C159_units_refuted"
   ],
   "note": "refuted for volumes one voxel wide (ZeroDivisionError) and for the unit of length (always 'pixels'); words as given by the documented cleaning"
  },
  {
   "property": "C160",
   "status": "partial",
   "theorems": [
    "Verif.Amira.C160_round_trip_partial",
    "Verif.Amira.C160_integer_mask_refuted",
    "Verif.Amira.C160_errors"
   ],
   "note": "fabio by contract (keeps the bits data != 0); refuted for integer masks, which come back all False"
  },
  {
   "property": "C161",
   "status": "proved",
   "theorems": [
    "Verif.Xrf.C161_columns"
   ],
   "note": ""
  },
  {
   "property": "C162",
   "status": "partial",
   "theorems": [
    "Verif.Xrf.C162_ka2_refuted",
    "Verif.Xrf.C162_own_line_partial"
   ],
   "note": "refuted: position and width adjustments of ka2 have no effect (their hints keep the expression tying them to ka1); proved for all L and M lines"
  },
  {
   "property": "C163",
   "status": "partial",
   "theorems": [
    "Verif.Xrf.C163_main_line_partial",
    "Verif.Xrf.C163_user_name_refuted",
    "Verif.Xrf.C163_user_peak_partial",
    "Verif.Xrf.C163_area_dict"
   ],
   "note": "refuted: a user peak with 'area' in its name reports the constant epsilon as its area; main-line area proved when the main line has no ratio_adjust entry (the reported area leaves ratio_adjust out)"
  },
  {
   "property": "C164",
   "status": "proved",
   "theorems": [
    "Verif.Xrf.C164_order",
    "Verif.Xrf.C164_scatter",
    "Verif.Xrf.C164_bad_name"
   ],
   "note": ""
  },
  {
   "property": "C165",
   "status": "partial",
   "theorems": [
    "Verif.Xrf.C165_compton_name_refuted",
    "Verif.Xrf.C165_tied_partial"
   ],
   "note": "lmfit's handling of expressions by contract; refuted for user peaks whose name starts with 'compton', which keep a free calibration of their own"
  },
  {
   "property": "C166",
   "status": "partial",
   "theorems": [
    "Verif.Xrf.C166_line_energy_partial",
    "Verif.Xrf.C166_short_names_refuted",
    "Verif.Xrf.C166_bad_name",
    "Verif.Xrf.C166_pileup"
   ],
   "note": "refuted: the two-letter lines ll, ln, mb, mg are completed to names that do not exist (KeyError); xraylib's energies are a parameter"
  },
  {
   "property": "C167",
   "status": "proved",
   "theorems": [
    "Verif.Xrf.C167_escape",
    "Verif.Xrf.C167_no_calibration",
    "Verif.Xrf.C167_strategy"
   ],
   "note": ""
  },
  {
   "property": "C168",
   "status": "partial",
   "theorems": [
    "Verif.Xrf.C168_elements_partial",
    "Verif.Xrf.C168_tied_partial",
    "Verif.Xrf.C168_lone_partial",
    "Verif.Xrf.C168_bounds_partial",
    "Verif.Xrf.C168_bad_bound",
    "Verif.Xrf.C168_area_refuted"
   ],
   "note": "proved for calibration and Compton parameters, for shift, width and ratio adjustments of all peaks, and for the areas of la1 and ma1; the areas of ka1, user and pile-up peaks keep a default lower limit 0 where the entry asks for none (C168_area_refuted); the other areas and the adjustments of ka2 are tied to the main line whatever their entries say (C168_tied_partial)"
  },
  {
   "property": "C169",
   "status": "proved",
   "theorems": [
    "Verif.Xrf.C169_update",
    "Verif.Xrf.C169_common_energy"
   ],
   "note": ""
  },
  {
   "property": "C170",
   "status": "proved",
   "theorems": [
    "Verif.Line.C170_convolution",
    "Verif.Line.C170_area",
    "Verif.Line.C170_gaussian_limit",
    "Verif.Line.C170_shape"
   ],
   "note": ""
  },
  {
   "property": "C171",
   "status": "proved",
   "theorems": [
    "Verif.Xrf.C171_tables",
    "Verif.Xrf.C171_session",
    "Verif.Xrf.C171_linear_free"
   ],
   "note": ""
  },
  {
   "property": "C172",
   "status": "partial",
   "theorems": [
    "Verif.Xrf.C172_get_para_refuted",
    "Verif.Xrf.C172_get_para_partial",
    "Verif.Xrf.C172_set_default"
   ],
   "note": "refuted: get_para returns the module's own dict although its comment promises a copy, so a strategy set on it stays set for later callers; set_default is proved in full"
  },
  {
   "property": "C173",
   "status": "proved",
   "theorems": [
    "Verif.Corr.C173_siegert",
    "Verif.Corr.C173_decay",
    "Verif.Corr.C173_identifiable"
   ],
   "note": ""
  },
  {
   "property": "C174",
   "status": "partial",
   "theorems": [
    "Verif.Io.NetCdf.C174_scaled",
    "Verif.Io.NetCdf.C174_voxel_size",
    "Verif.Io.NetCdf.C174_missing",
    "Verif.Io.NetCdf.C174_no_scale_refuted",
    "Verif.Io.NetCdf.C174_scale_one_partial"
   ],
   "note": "refuted: without a scale factor AttributeError instead of the documented 1; what the netCDF4 package does with packed variables is outside the model"
  },
  {
   "property": "C175",
   "status": "partial",
   "theorems": [
    "Verif.Roi.Auto.C175_result",
    "Verif.Roi.Auto.C175_points_used_once",
    "Verif.Roi.Auto.C175_no_rings",
    "Verif.Roi.Auto.C175_labels_refuted",
    "Verif.Roi.Auto.C175_labels_partial"
   ],
   "note": "refuted for the image: pixels off the rings keep their grey values, so a pixel of grey value 1 looks like ring 1; proved for grey values below 1; ransac, Canny and circle_perimeter are parameters"
  },
  {
   "property": "C176",
   "status": "partial",
   "theorems": [
    "Verif.Corr.C176_shape",
    "Verif.Corr.C176_standard_error_partial",
    "Verif.Corr.C176_general_partial",
    "Verif.Corr.C176_nan_refuted"
   ],
   "note": "proved when the distance has no NaN entry; refuted with NaN entries: the divisor counts them, so the error is too small by the square root of the fraction of numbers (proved in general)"
  },
  {
   "property": "C177",
   "status": "proved",
   "theorems": [
    "Verif.Cdi.C177_support",
    "Verif.Cdi.C177_no_smoothing",
    "Verif.Cdi.C177_empty",
    "Verif.Cdi.C177_thresholds",
    "Verif.Cdi.C177_scale",
    "Verif.Cdi.C177_uniform",
    "Verif.Cdi.C177_reconstruction"
   ],
   "note": "SciPy's gaussian_filter is modelled from its documented definition (truncate 4, mode reflect), real arithmetic, 2-D arrays"
  },
  {
   "property": "C178",
   "status": "partial",
   "theorems": [
    "Verif.Consts.C178_attributes",
    "Verif.Consts.C178_session",
    "Verif.Consts.C178_session_value",
    "Verif.Consts.C178_kinds",
    "Verif.Consts.C178_readable_refuted",
    "Verif.Consts.C178_readable_partial"
   ],
   "note": "refuted: XrayLibWrap accepts the kinds cs, csb and XrayLibWrap_Energy the kinds without energy, and every read then raises TypeError; proved for the documented kinds; xraylib is a parameter"
  },
  {
   "property": "C179",
   "status": "proved",
   "theorems": [
    "Verif.Dicts.C179_history_independent",
    "Verif.Dicts.C179_text",
    "Verif.Dicts.C179_layout"
   ],
   "note": "formatting of values is a parameter"
  },
  {
   "property": "C180",
   "status": "proved",
   "theorems": [
    "Verif.Corr.C180_one_time_scale",
    "Verif.Corr.C180_two_time_scale",
    "Verif.Corr.C180_unlabelled"
   ],
   "note": "exact arithmetic"
  },
  {
   "property": "C181",
   "status": "partial",
   "theorems": [
    "Verif.Corr.C181_two_time",
    "Verif.Corr.C181_one_time_partial",
    "Verif.Corr.C181_nan_elsewhere_refuted",
    "Verif.Corr.C181_dark_elsewhere_refuted"
   ],
   "note": "two-time: proved; one-time: refuted (a NaN pixel in another region drops the frame for all, a dark region truncates all curves), proved for data without NaN wherever both curves have a row"
  },
  {
   "property": "C182",
   "status": "proved",
   "theorems": [
    "Verif.Corr.C182_routes_agree",
    "Verif.Corr.C182_needs_constant_intensity"
   ],
   "note": "the condition is shown to be needed by an example"
  },
  {
   "property": "C183",
   "status": "partial",
   "theorems": [
    "Verif.Cross.C183_formulas",
    "Verif.Cross.C183_call",
    "Verif.Cross.C183_symmetry",
    "Verif.Cross.C183_scale_partial",
    "Verif.Cross.C183_both_refuted"
   ],
   "note": "formulas, symmetry and unit-freeness proved for 'regular' and 'symavg'; refuted when both are asked for: the result is normalised twice"
  },
  {
   "property": "C184",
   "status": "partial",
   "theorems": [
    "Verif.Grid.C184_integer_mask_refuted",
    "Verif.Grid.C184_outcome",
    "Verif.Grid.C184_witness",
    "Verif.Grid.C184_boolean_partial"
   ],
   "note": "refuted for every integer 0/1 mask (entries are taken as row numbers); holds for boolean masks"
  },
  {
   "property": "C185",
   "status": "partial",
   "theorems": [
    "Verif.Binned.C185_history",
    "Verif.Binned.C185_values_partial",
    "Verif.Binned.C185_median",
    "Verif.Binned.C185_names",
    "Verif.Binned.C185_unknown_name_refuted",
    "Verif.Binned.C185_length_partial",
    "Verif.Binned.C185_length_refuted",
    "Verif.Binned.C185_centers"
   ],
   "note": "refuted: an unknown name passed to the call returns uninitialised memory instead of being refused, and a median or function ignores superfluous values ('count' ignores all); values proved for functions that neither raise nor depend on the order of the values"
  },
  {
   "property": "C186",
   "status": "proved",
   "theorems": [
    "Verif.Calib.C186_peaks",
    "Verif.Calib.C186_errors",
    "Verif.Calib.C186_exact",
    "Verif.Calib.C186_units"
   ],
   "note": "real arithmetic; argrelmax and lstsq by their documented contracts (a solver is shown to exist)"
  },
  {
   "property": "C187",
   "status": "partial",
   "theorems": [
    "Verif.Calib.C187_sectors",
    "Verif.Calib.C187_intensity",
    "Verif.Calib.C187_regions_refuted",
    "Verif.Calib.C187_units_partial",
    "Verif.Calib.C187_units_refuted",
    "Verif.Calib.C187_missing_ring",
    "Verif.Calib.C187_nan_refuted",
    "Verif.Calib.C187_pixels",
    "Verif.Calib.C187_ring_radius",
    "Verif.Calib.C187_length_unit",
    "Verif.Calib.C187_max_peaks",
    "Verif.Calib.C187_inside_out",
    "Verif.Calib.C187_default_bins"
   ],
   "note": "partition of the pixels and conservation of the intensity proved; refuted: there is one region fewer than documented, phi_steps 2 or max_peaks 0 give NaNs, and every image divided by a large enough number raises ValueError (radial bins with a sum up to 10 are dropped); factors that take no bin across 10 are proved harmless"
  },
  {
   "property": "C188",
   "status": "proved",
   "theorems": [
    "Verif.Line.C188_contrast",
    "Verif.Line.C188_poisson_pairs",
    "Verif.Line.C188_poisson_limit",
    "Verif.Line.C188_gamma_moments",
    "Verif.Line.C188_poisson_gamma"
   ],
   "note": "over the real numbers; the pair expectation and the limit include non-integer numbers of modes"
  },
  {
   "property": "C189",
   "status": "partial",
   "theorems": [
    "Verif.Snip.C189_window_partial",
    "Verif.Snip.C189_binned_refuted",
    "Verif.Snip.C189_exact",
    "Verif.Snip.C189_defaults",
    "Verif.Snip.C189_energy_unit",
    "Verif.Snip.C189_no_width"
   ],
   "note": "exact form of the result, unit of energy, width 0 and defaults proved; the windows are right without binning; refuted: with bins of s channels the windows are s/2 times too wide in energy"
  },
  {
   "property": "C190",
   "status": "proved",
   "theorems": [
    "Verif.Corr.C190_zero_lag",
    "Verif.Corr.C190_zero_lag_at_least_one",
    "Verif.Corr.C190_nonneg",
    "Verif.Corr.C190_two_time_covariance",
    "Verif.Corr.C190_two_time_bounds"
   ],
   "note": "in exact arithmetic"
  },
  {
   "property": "C191",
   "status": "proved",
   "theorems": [
    "Verif.Corr.C191_one_time",
    "Verif.Corr.C191_two_time",
    "Verif.Corr.C191_needs_whole_groups"
   ],
   "note": "in exact arithmetic; the divisibility is shown to be needed"
  },
  {
   "property": "C192",
   "status": "proved",
   "theorems": [
    "Verif.Cross.C192_cauchy",
    "Verif.Cross.C192_peak",
    "Verif.Cross.C192_total",
    "Verif.Cross.C192_centre",
    "Verif.Cross.C192_centre_index"
   ],
   "note": "in exact arithmetic"
  },
  {
   "property": "C193",
   "status": "proved",
   "theorems": [
    "Verif.Cdi.C193_modulus_nearest",
    "Verif.Cdi.C193_modulus_twice",
    "Verif.Cdi.C193_energy",
    "Verif.Cdi.C193_support_nearest"
   ],
   "note": "over the complex numbers; the exact discrete Fourier transform"
  },
  {
   "property": "C194",
   "status": "partial",
   "theorems": [
    "Verif.Line.C194_centre",
    "Verif.Line.C194_std_partial",
    "Verif.Line.C194_std_refuted",
    "Verif.Line.C194_half_width",
    "Verif.Line.C194_step"
   ],
   "note": "centre and shape proved for all five, standard deviation for gaussian and lorentzian2; refuted for lorentzian and pvoigt, which have no standard deviation: their sigma is the half width at half maximum of the Lorentzian"
  },
  {
   "property": "C195",
   "status": "partial",
   "theorems": [
    "Verif.Gens.C195_independent_partial",
    "Verif.Gens.C195_resume_partial",
    "Verif.Gens.C195_shared",
    "Verif.Gens.C195_one_time_partial",
    "Verif.Gens.C195_two_time_partial",
    "Verif.Gens.C195_dpc_partial",
    "Verif.Gens.C195_state_is_current",
    "Verif.Gens.C195_snapshot_refuted",
    "Verif.Gens.C195_snapshot_two_time_refuted",
    "Verif.Gens.C195_counter"
   ],
   "note": "independence under every interleaving proved for generators started without a state and for a state used by one generator at a time; refuted: a yielded state is a reference to arrays that go on changing, all generators holding it behave as one (proved as C195_shared), and for lazy_two_time the resumed generator writes over later images"
  },
  {
   "property": "C196",
   "status": "partial",
   "theorems": [
    "Verif.Gens.C196_bad_image_partial",
    "Verif.Gens.C196_raises_iff",
    "Verif.Gens.C196_oversized_refuted",
    "Verif.Gens.C196_bad_image_refuted"
   ],
   "note": "IndexError exactly when a labelled pixel is outside the image, and the curve reported is unchanged; refuted: the ring cursor has already moved, so the continued curve is wrong; images with extra pixels are accepted silently"
  },
  {
   "property": "C197",
   "status": "proved",
   "theorems": [
    "Verif.Dpc.C197_identified",
    "Verif.Dpc.C197_minima",
    "Verif.Dpc.C197_unidentified",
    "Verif.Dpc.C197_frame",
    "Verif.Dpc.C197_amplitude"
   ],
   "note": ""
  },
  {
   "property": "C198",
   "status": "proved",
   "theorems": [
    "Verif.Dpc.C198_least_squares",
    "Verif.Dpc.C198_unique"
   ],
   "note": ""
  },
  {
   "property": "C199",
   "status": "partial",
   "theorems": [
    "Verif.Cdi.C199_stopped_partial",
    "Verif.Cdi.C199_stopped_refuted"
   ],
   "note": "a solution exists at a stopped iteration: it is what pi_modulus makes of the relaxed object (support and modulus proved); refuted: the returned object is another one and can have wrong moduli although it no longer changes"
  },
  {
   "property": "C200",
   "status": "partial",
   "theorems": [
    "Verif.Binning.C200_histogram_partial",
    "Verif.Binning.C200_upper_limit_refuted",
    "Verif.Binning.C200_binned_partial",
    "Verif.Binning.C200_grid"
   ],
   "note": "Histogram against bin_1D: equal in every bin, except that samples exactly at the upper limit are in bin_1D's last bin only (C200_upper_limit_refuted); BinnedStatistic against bin_1D: equal in every bin under the restriction of C23; grid3d against a 3-D Histogram: equal in every voxel"
  },
  {
   "property": "C201",
   "status": "partial",
   "theorems": [
    "Verif.Binning.C201_bin1D",
    "Verif.Binning.C201_histogram_partial",
    "Verif.Binning.C201_grid"
   ],
   "note": "proved; the Histogram theorem carries C18's restriction to contiguous arrays on the N-D path, hence the suffix"
  },
  {
   "property": "C202",
   "status": "partial",
   "theorems": [
    "Verif.Grid.C202_accuracy",
    "Verif.Grid.C202_runs_agree_partial",
    "Verif.Grid.C202_members",
    "Verif.Grid.C202_reproducible_refuted"
   ],
   "note": "the accuracy bound and the assignment of points hold; bitwise reproducibility is false (C202_reproducible_refuted): two runs agree only to twice the bound"
  },
  {
   "property": "C203",
   "status": "partial",
   "theorems": [
    "Verif.Hist.C203_cells_partial",
    "Verif.Hist.C203_neighbour",
    "Verif.Hist.C203_accuracy_partial",
    "Verif.Hist.C203_counts_partial",
    "Verif.Hist.C203_batches_partial",
    "Verif.Hist.C203_order_refuted"
   ],
   "note": "the margin is needed (C19_rounding_out_of_bounds); on the N-D path arrays must be contiguous (C18_strided_nd_wrong); the contents depend on the order of the samples (C203_order_refuted); a sample of the last bin may be refused with IndexError instead of being counted"
  },
  {
   "property": "C204",
   "status": "proved",
   "theorems": [
    "Verif.Corr.C204_rows",
    "Verif.Corr.C204_g2",
    "Verif.Corr.C204_eps"
   ],
   "note": "no overflow or underflow; the bound is an upper bound, not the observed error"
  },
  {
   "property": "C205",
   "status": "partial",
   "theorems": [
    "Verif.Corr.C205_one_time_partial",
    "Verif.Corr.C205_two_time",
    "Verif.Corr.C205_lags_refuted"
   ],
   "note": "the reported entries are as stated; the last clause is false (C205_lags_refuted): the table ends at the first lag without a pair; two-time entries at least num_bufs apart are C52's"
  },
  {
   "property": "C206",
   "status": "proved",
   "theorems": [
    "Verif.Roi.C206_rearranged",
    "Verif.Roi.C206_flip",
    "Verif.Roi.C206_quarter_turn",
    "Verif.Roi.C206_linear",
    "Verif.Roi.C206_bounds",
    "Verif.Roi.C206_monotone"
   ],
   "note": "the radius is any function of the distances along the two axes (symmetric for the quarter turn), so rounding in radial_grid is covered"
  },
  {
   "property": "C207",
   "status": "partial",
   "theorems": [
    "Verif.Recip.C207_routes_partial",
    "Verif.Recip.C207_routes_refuted"
   ],
   "note": "true on the row and column of the direct beam; elsewhere process_to_q gives a strictly larger length (C207_routes_refuted); the difference of the squares is bounded"
  },
  {
   "property": "C208",
   "status": "partial",
   "theorems": [
    "Verif.Feature.C208_quadratic_partial",
    "Verif.Feature.C208_split_partial",
    "Verif.Feature.C208_limits_refuted"
   ],
   "note": "for limits that are samples and an odd number of samples in every region, given the composite rule for simps; refuted for limits between samples (C208_limits_refuted): both are moved up to the next sample; for an even number of samples SciPy's versions differ"
  },
  {
   "property": "C209",
   "status": "partial",
   "theorems": [
    "Verif.Speckle.C209_probabilities",
    "Verif.Speckle.C209_std_partial",
    "Verif.Speckle.C209_nan_refuted"
   ],
   "note": "the bound on the probabilities holds; the variance is accurate to four times that bound, so the standard deviation is a number if the exact variance is larger; in general it is not: in double precision two sets of one and 53 images of two pixels give NaN (C209_nan_refuted); no overflow or underflow"
  },
  {
   "property": "C210",
   "status": "partial",
   "theorems": [
    "Verif.Binned.C210_sum_partial",
    "Verif.Binned.C210_mean_partial",
    "Verif.Binned.C210_std_partial",
    "Verif.Binned.C210_nan_refuted"
   ],
   "note": "the bounds hold (samples as in C23); the standard deviation is a number if the exact variance exceeds the error bound; three values 0.1 in one bin give NaN in double precision (C210_nan_refuted); no overflow or underflow"
  },
  {
   "property": "C211",
   "status": "partial",
   "theorems": [
    "Verif.Utils.C211_edges_partial",
    "Verif.Utils.C211_bins_refuted",
    "Verif.Utils.C211_resolution_refuted"
   ],
   "note": "for steps larger than the rounding errors; the number of bins can be one less than the number of steps that fit (C211_bins_refuted); smaller steps give equal edges (C211_resolution_refuted)"
  },
  {
   "property": "C212",
   "status": "proved",
   "theorems": [
    "Verif.Roi.C212_ring_edges",
    "Verif.Roi.C212_equal_rings",
    "Verif.Roi.C212_segments_of_rings",
    "Verif.Roi.C212_box_of_bars",
    "Verif.Roi.C212_ring_means",
    "Verif.Roi.C212_kymograph_mean",
    "Verif.Roi.C212_parts"
   ],
   "note": "rings with a number of segments and no angle offset (see C30), edges ascending (see C28, C31), means with an explicit index (see C33)"
  },
  {
   "property": "C213",
   "status": "proved",
   "theorems": [
    "Verif.Xrf.C213_composition",
    "Verif.Xrf.C213_units",
    "Verif.Xrf.C213_more_components",
    "Verif.Xrf.C213_decomposition"
   ],
   "note": "given the contract of scipy.optimize.nnls (C117)"
  },
  {
   "property": "C214",
   "status": "partial",
   "theorems": [
    "Verif.Order.C214_centers_partial",
    "Verif.Order.C214_inside_refuted"
   ],
   "note": "in the closed bin; not strictly inside for neighbouring doubles (C214_inside_refuted); no overflow or underflow"
  },
  {
   "property": "C215",
   "status": "partial",
   "theorems": [
    "Verif.Order.C215_edges_partial",
    "Verif.Order.C215_width_refuted"
   ],
   "note": "all but the last statement, which fails for a ring of width 0.1 (C215_width_refuted); no overflow or underflow"
  },
  {
   "property": "C216",
   "status": "partial",
   "theorems": [
    "Verif.Order.C216_conversion_partial",
    "Verif.Order.C216_roundtrip_refuted"
   ],
   "note": "converting forth and back is accurate to three rounding errors, not exact (C216_roundtrip_refuted); no overflow or underflow"
  },
  {
   "property": "C217",
   "status": "partial",
   "theorems": [
    "Verif.Wrap.C217_differences",
    "Verif.Wrap.C217_exact_partial",
    "Verif.Wrap.C217_dim_refuted"
   ],
   "note": "the result is the difference modulo 2^bits (C217_differences), so it is the difference when that fits into the type; for unsigned images every pixel dimmer than the reference comes out brighter than it was (C217_dim_refuted)"
  },
  {
   "property": "C218",
   "status": "partial",
   "theorems": [
    "Verif.Wrap.C218_sums",
    "Verif.Wrap.C218_average",
    "Verif.Wrap.C218_exact_partial",
    "Verif.Wrap.C218_ceiling",
    "Verif.Wrap.C218_flat_refuted"
   ],
   "note": "np.histogram sums weights in their own type: the sums are modulo 2^bits, the counts are right (C218_sums, C218_average); exact when the sums fit; unsigned averages never exceed 2^bits / number of pixels (C218_ceiling), so a flat image is not averaged to its value (C218_flat_refuted)"
  },
  {
   "property": "C219",
   "status": "partial",
   "theorems": [
    "Verif.Wrap.C219_exact_partial",
    "Verif.Wrap.C219_multiples_refuted",
    "Verif.Wrap.C219_center_refuted"
   ],
   "note": "np.correlate multiplies and adds in the type of the image; exact when the squares of every row and column sum to a number of the type; false otherwise (C219_multiples_refuted, C219_center_refuted)"
  },
  {
   "property": "C220",
   "status": "partial",
   "theorems": [
    "Verif.Wrap.C220_interior",
    "Verif.Wrap.C220_exact_partial",
    "Verif.Wrap.C220_unsigned_refuted"
   ],
   "note": "away from the border it holds for every type; at the border when the mirrored differences fit; false for unsigned images at the border, however small the numbers (C220_unsigned_refuted)"
  },
  {
   "property": "C221",
   "status": "partial",
   "theorems": [
    "Verif.Wrap.C221_exact_partial",
    "Verif.Wrap.C221_counts_refuted"
   ],
   "note": "when the largest count times the longest integration time fits into the type; false otherwise (C221_counts_refuted)"
  },
  {
   "property": "C222",
   "status": "partial",
   "theorems": [
    "Verif.Wrap.C222_kept",
    "Verif.Wrap.C222_unsigned_partial",
    "Verif.Wrap.C222_signed_refuted"
   ],
   "note": "holds for unsigned data; signed data: candidates taller than the largest number of the type are dropped (C222_kept, C222_signed_refuted)"
  },
  {
   "property": "C223",
   "status": "partial",
   "theorems": [
    "Verif.Corr.C223_columns",
    "Verif.Corr.C223_every_ring_partial",
    "Verif.Corr.C223_empty_ring_refuted"
   ],
   "note": "holds when every ring contains a pixel; an empty ring gets no column and shifts the columns of all later rings to the left (C223_empty_ring_refuted); C223_columns says where each ring is found in every case"
  },
  {
   "property": "C224",
   "status": "partial",
   "theorems": [
    "Verif.Speckle.C224_table",
    "Verif.Speckle.C224_counts_partial",
    "Verif.Speckle.C224_rows_partial",
    "Verif.Speckle.C224_generator_partial",
    "Verif.Speckle.C224_generator_refuted",
    "Verif.Speckle.C224_default_partial",
    "Verif.Speckle.C224_default_refuted"
   ],
   "note": "the counts are right when max_cts exceeds them by two; row k counts the weighted sums named in Spec.window instead of sums of groups; a generator works only with max_cts given, otherwise every entry stays 0 (C224_generator_refuted); with lists the default leaves no entry for the two largest counts (C224_default_refuted)"
  },
  {
   "property": "C225",
   "status": "proved",
   "theorems": [
    "Verif.Corr.Rnd.C225_matrix",
    "Verif.Corr.Rnd.C225_entries",
    "Verif.Corr.Rnd.C225_one_time",
    "Verif.Corr.Rnd.C225_both",
    "Verif.Corr.Rnd.C225_size"
   ],
   "note": "no overflow or underflow; the errors returned with calc_errors=True are not covered here"
  },
  {
   "property": "C226",
   "status": "partial",
   "theorems": [
    "Verif.Roi.Rnd.C226_error_partial",
    "Verif.Roi.Rnd.C226_sign",
    "Verif.Roi.Rnd.C226_average",
    "Verif.Roi.Rnd.C226_whole",
    "Verif.Roi.Rnd.C226_local_refuted",
    "Verif.Roi.Rnd.C226_range_refuted"
   ],
   "note": "false in general: a bright pixel in an inner ring can wipe out the average of the rings outside it (C226_local_refuted), and an average can exceed all pixels of its ring (C226_range_refuted); proved: the error bound relative to all pixels up to the ring (C226_error_partial), signs, and exact sums for photon counts below 2^53"
  },
  {
   "property": "C227",
   "status": "partial",
   "theorems": [
    "Verif.Roi.Rnd.C227_call",
    "Verif.Roi.Rnd.C227_error_partial",
    "Verif.Roi.Rnd.C227_whole",
    "Verif.Roi.Rnd.C227_range_refuted"
   ],
   "note": "everything but the range, which holds for photon counts (C227_whole) but not for all values (C227_range_refuted)"
  },
  {
   "property": "C228",
   "status": "proved",
   "theorems": [
    "Verif.Dpc.C228_phase"
   ],
   "note": "exact arithmetic; without padding; the solver is a parameter; frames without ROI and bad pixels (C62)"
  },
  {
   "property": "C229",
   "status": "proved",
   "theorems": [
    "Verif.Recip.C229_map"
   ],
   "note": "the accumulators of the gridder are taken as cleared (see C42 for the race in the clearing loop); additions are exact (C202 for rounding)"
  },
  {
   "property": "C230",
   "status": "partial",
   "theorems": [
    "Verif.Roi.Rnd.C230_radius",
    "Verif.Roi.Rnd.C230_rings_partial",
    "Verif.Roi.Rnd.C230_whole",
    "Verif.Roi.Rnd.C230_labels_refuted"
   ],
   "note": "labels: exact for whole-number centre and edges (C230_whole), for pixels away from the edges otherwise (C230_rings_partial); near an edge a pixel can get another label (C230_labels_refuted); overflow and underflow are not modelled"
  },
  {
   "property": "C231",
   "status": "partial",
   "theorems": [
    "Verif.Roi.Rnd.C231_labels_partial",
    "Verif.Roi.Rnd.C231_labels_refuted"
   ],
   "note": "proved for pixels whose radius is not within four roundings of a ring edge and whose azimuth is not within (80+|e|) roundings of a segment edge e (C231_labels_partial); false without this: a pixel just below the axis gets the label of the first segment of the next ring (C231_labels_refuted). arctan2 is trusted to have a relative error of one rounding unit; overflow and underflow are not modelled"
  },
  {
   "property": "C232",
   "status": "partial",
   "theorems": [
    "Verif.Io.C232_finished",
    "Verif.Io.C232_gsas_partial",
    "Verif.Io.C232_save_output_partial",
    "Verif.Io.C232_old_or_new_refuted",
    "Verif.Io.C232_std_partial",
    "Verif.Io.C232_esd_partial",
    "Verif.Io.C232_unnoticed_refuted",
    "Verif.Io.C232_wrong_value_refuted",
    "Verif.Io.C232_fxye_partial"
   ],
   "note": "proved: other files are untouched and the target is as before, absent, or a beginning of the new text (C232_gsas_partial, C232_save_output_partial); gsas_reader returns the points of the complete lines as written followed by at most one line that is not guaranteed, and raises an error if the header is incomplete (C232_std_partial, C232_esd_partial, C232_fxye_partial). False: the old file is lost (C232_old_or_new_refuted), shorter files are read without complaint (C232_unnoticed_refuted), and a number that was cut is read as another one (C232_wrong_value_refuted). Death of the process only, not loss of power"
  },
  {
   "property": "C233",
   "status": "partial",
   "theorems": [
    "Verif.Corr.C233_more_levels",
    "Verif.Corr.C233_same_row_partial",
    "Verif.Corr.C233_buffers_refuted",
    "Verif.Corr.C233_two_time"
   ],
   "note": "proved: more levels only append rows (C233_more_levels), the row of a level and delay does not depend on the settings (C233_same_row_partial), two_time_corr with more levels only fills entries that were 0 (C233_two_time). False for a lag that belongs to different levels: from lag num_bufs on averages of frames are correlated (C233_buffers_refuted). Stated for multi_tau_auto_corr; C01 carries it to lazy_one_time"
  },
  {
   "property": "C234",
   "status": "partial",
   "theorems": [
    "Verif.Grid.C234_order",
    "Verif.Grid.C234_joined",
    "Verif.Grid.C234_intensities",
    "Verif.Grid.C234_units",
    "Verif.Grid.C234_part",
    "Verif.Grid.C234_axes",
    "Verif.Grid.C234_mirror_partial",
    "Verif.Grid.C234_mirror_refuted"
   ],
   "note": "reversing an axis needs points off the boundaries (C234_mirror_partial, C234_mirror_refuted); exact arithmetic (C202 for rounding), the accumulators of the gridder are taken as cleared (see C42)"
  },
  {
   "property": "C235",
   "status": "partial",
   "theorems": [
    "Verif.Binned.C235_order",
    "Verif.Binned.C235_joined",
    "Verif.Binned.C235_values",
    "Verif.Binned.C235_projection_partial",
    "Verif.Binned.C235_merge_bins_partial",
    "Verif.Binned.C235_merge_bins_refuted"
   ],
   "note": "projection and merging are proved for samples not close to the last edge from outside or inside (the restriction of C23); false without it (C235_merge_bins_refuted)"
  },
  {
   "property": "C236",
   "status": "partial",
   "theorems": [
    "Verif.Smooth.C236_least_squares",
    "Verif.Smooth.C236_linear_partial",
    "Verif.Smooth.C236_symmetry_partial",
    "Verif.Smooth.C236_borders_refuted"
   ],
   "note": "proved for pixels whose window lies in the image (C236_least_squares, C236_linear_partial, C236_symmetry_partial); at the borders the filter is not even linear (C236_borders_refuted)"
  },
  {
   "property": "C237",
   "status": "proved",
   "theorems": [
    "Verif.Cross.C237_region_only",
    "Verif.Cross.C237_bilinear",
    "Verif.Cross.C237_transposed"
   ],
   "note": ""
  },
  {
   "property": "C238",
   "status": "partial",
   "theorems": [
    "Verif.Cdi.C238_phase",
    "Verif.Cdi.C238_twin",
    "Verif.Cdi.C238_position_partial",
    "Verif.Cdi.C238_position_refuted"
   ],
   "note": "phase and twin image: proved in full. Position: proved without shrink-wrap or with one that does not smooth (C238_position_partial); with the default width the smoothing continues the object by mirror images, not around the array, so the support of an object depends on where it lies (C238_position_refuted). Exact arithmetic"
  },
  {
   "property": "C239",
   "status": "partial",
   "theorems": [
    "Verif.Speckle.C239_region_only_partial",
    "Verif.Speckle.C239_region_only_refuted"
   ],
   "note": "proved for calls in which the same images have NaN in some region (C239_region_only_partial), in particular without NaN; false otherwise: NaN in another region drops the whole image (C239_region_only_refuted). Given max_cts; the default depends on all regions (C224)"
  },
  {
   "property": "C240",
   "status": "proved",
   "theorems": [
    "Verif.Snip.Rnd.C240_bounds",
    "Verif.Snip.Rnd.C240_flat"
   ],
   "note": "the computed smoothed spectrum is the starting point: the rounding of scipy's convolution, by sums or FFT, is not modelled. np.log and np.exp enter by their relative error v (bound 700 v (counts+1))"
  },
  {
   "property": "C241",
   "status": "proved",
   "theorems": [
    "Verif.Recip.C241_stack",
    "Verif.Recip.C241_wavelength",
    "Verif.Recip.C241_length_units",
    "Verif.Recip.C241_part",
    "Verif.Recip.C241_cell",
    "Verif.Recip.C241_sample_turn",
    "Verif.Recip.C241_full_turns"
   ],
   "note": "exact arithmetic; any schedules of the calls that are compared"
  },
  {
   "property": "C242",
   "status": "proved",
   "theorems": [
    "Verif.Dpc.Laws.C242_linear",
    "Verif.Dpc.Laws.C242_transpose",
    "Verif.Dpc.Laws.C242_steps",
    "Verif.Dpc.Laws.C242_mean",
    "Verif.Dpc.Laws.C242_ramp",
    "Verif.Dpc.Laws.C242_roll",
    "Verif.Dpc.Laws.C242_turn"
   ],
   "note": "exact arithmetic, transforms as in NumPy's documentation"
  },
  {
   "property": "C243",
   "status": "proved",
   "theorems": [
    "Verif.Recip.Gis.C243_length_unit",
    "Verif.Recip.Gis.C243_wavelength",
    "Verif.Recip.Gis.C243_origin",
    "Verif.Recip.Gis.C243_mirror",
    "Verif.Recip.Gis.C243_order",
    "Verif.Recip.Gis.C243_direct_beam"
   ],
   "note": "exact arithmetic"
  },
  {
   "property": "C244",
   "status": "proved",
   "theorems": [
    "Verif.Mask.C244_intensity_unit",
    "Verif.Mask.C244_order",
    "Verif.Mask.C244_position_unit",
    "Verif.Mask.C244_alpha",
    "Verif.Mask.C244_share"
   ],
   "note": "exact arithmetic; at least one bin for the change of position unit; the share is counted over pixels strictly inside the bin (C39_first_edge_refuted for the first edge)"
  },
  {
   "property": "C245",
   "status": "partial",
   "theorems": [
    "Verif.Order.Bragg.C245_twotheta_to_q",
    "Verif.Order.Bragg.C245_q_to_twotheta",
    "Verif.Order.Bragg.C245_roundtrip_partial",
    "Verif.Order.Bragg.C245_roundtrip_refuted"
   ],
   "note": "accuracy proved in full without overflow and underflow, for q up to five units of rounding below the largest and wherever the angle is a number; the last clause is false (C245_roundtrip_refuted: in doubles, wavelength 1.55, two theta = pi gives NaN on the way back)"
  },
  {
   "property": "C246",
   "status": "proved",
   "theorems": [
    "Verif.Image.Laws.C246_linear",
    "Verif.Image.Laws.C246_bounds",
    "Verif.Image.Laws.C246_mono",
    "Verif.Image.Laws.C246_ones",
    "Verif.Image.Laws.C246_units",
    "Verif.Image.Laws.C246_transpose",
    "Verif.Image.Laws.C246_mirror",
    "Verif.Image.Laws.C246_redundant_sample"
   ],
   "note": "exact arithmetic; range, order, ones and redundant samples for ascending radii, the others for any"
  },
  {
   "property": "C247",
   "status": "partial",
   "theorems": [
    "Verif.Dicts.Wrap.C247_fresh_separate",
    "Verif.Dicts.Wrap.C247_view",
    "Verif.Dicts.Wrap.C247_flat_partial",
    "Verif.Dicts.Wrap.C247_nested_refuted",
    "Verif.Dicts.Wrap.C247_as_if_alone"
   ],
   "note": "separation and view proved for all histories (C247_fresh_separate, C247_as_if_alone, C247_view), flat keys too (C247_flat_partial); nested plain dictionaries are lost at the first dotted read (C247_nested_refuted). Branches handed out by a read and then changed by the caller are not modelled"
  },
  {
   "property": "C248",
   "status": "partial",
   "theorems": [
    "Verif.Cdi.Units.C248_axes",
    "Verif.Cdi.Units.C248_units_partial",
    "Verif.Cdi.Units.C248_units_refuted"
   ],
   "note": "axes in full (C248_axes); units if the offset of pi_modulus is in the unit of the amplitudes as well (C248_units_partial); false with the fixed 1e-12 of the code (C248_units_refuted). Exact arithmetic"
  },
  {
   "property": "C249",
   "status": "proved",
   "theorems": [
    "Verif.Image.Polar.C249_bounds",
    "Verif.Image.Polar.C249_profile",
    "Verif.Image.Polar.C249_start",
    "Verif.Image.Polar.C249_mirror",
    "Verif.Image.Polar.C249_turns",
    "Verif.Image.Polar.C249_quarter_turn",
    "Verif.Image.Polar.C249_units",
    "Verif.Image.Polar.C249_linear"
   ],
   "note": "exact arithmetic; scipy's RegularGridInterpolator as documented (C139); mirror image and quarter turn about the middle of the image"
  },
  {
   "property": "C250",
   "status": "proved",
   "theorems": [
    "Verif.Feature.Laws.C250_solver",
    "Verif.Feature.Laws.C250_best",
    "Verif.Feature.Laws.C250_quality",
    "Verif.Feature.Laws.C250_order",
    "Verif.Feature.Laws.C250_affine",
    "Verif.Feature.Laws.C250_log_affine",
    "Verif.Feature.Laws.C250_largest",
    "Verif.Feature.Laws.C250_align"
   ],
   "note": "exact arithmetic; np.linalg.lstsq by its contract (any least-squares minimiser); the fitted curvature is not zero"
  },
  {
   "property": "C251",
   "status": "partial",
   "theorems": [
    "Verif.Version.C251_checkout",
    "Verif.Version.C251_untagged",
    "Verif.Version.C251_identifies",
    "Verif.Version.C251_total_partial",
    "Verif.Version.C251_import_refuted",
    "Verif.Version.C251_archive",
    "Verif.Version.C251_archive_checkout",
    "Verif.Version.C251_branch_refuted",
    "Verif.Version.C251_unknown_partial"
   ],
   "note": "all proved but two sentences: a tree without tags whose commits git cannot count makes the import raise TypeError (C251_import_refuted), never otherwise (C251_total_partial); the archive of an untagged commit at the tip of a branch such as v2 reports version 2 without an error (C251_branch_refuted); 0+unknown if no such branch is there (C251_unknown_partial). Tags without + for C251_identifies; git itself by the documented form of its output"
  },
  {
   "property": "C252",
   "status": "proved",
   "theorems": [
    "Verif.Line.Round.C252_shape",
    "Verif.Line.Round.C252_lorentzian",
    "Verif.Line.Round.C252_gaussian"
   ],
   "note": "scalar arguments that are floats; np.exp monotone and nonnegative (shape) or within a relative error v (accuracy); denominators do not underflow to 0"
  },
  {
   "property": "C253",
   "status": "proved",
   "theorems": [
    "Verif.Feature.C253_linear",
    "Verif.Feature.C253_units",
    "Verif.Feature.C253_order",
    "Verif.Feature.C253_outside"
   ],
   "note": "exact arithmetic; scipy's simps by two laws (linear in the values, scales with x), which Simpson's composite rule is shown to have; upper limits that are not samples include the next sample (C208_limits_refuted)"
  },
  {
   "property": "C254",
   "status": "proved",
   "theorems": [
    "Verif.Recip.Round.C254_q",
    "Verif.Recip.Round.C254_hkl"
   ],
   "note": "no overflow and underflow, no fused multiply-add; one pixel at a time (C126 shows that rows hold what the arithmetic gives for their pixel on every schedule); np.linalg.inv by its error e"
  },
  {
   "property": "C255",
   "status": "partial",
   "theorems": [
    "Verif.Wrap.C255_exact_partial",
    "Verif.Wrap.C255_ascending_partial",
    "Verif.Wrap.C255_descending_refuted",
    "Verif.Wrap.C255_unsorted_refuted"
   ],
   "note": "holds whenever the differences of neighbours fit the type (C255_exact_partial), thus for ascending unsigned numbers (C255_ascending_partial); descending unsigned numbers raise ValueError whatever the limits (C255_descending_refuted), and unsigned numbers out of order are accepted (C255_unsorted_refuted)"
  },
  {
   "property": "C256",
   "status": "partial",
   "theorems": [
    "Verif.Wrap.C256_exact_partial",
    "Verif.Wrap.C256_half_range_partial",
    "Verif.Wrap.C256_overflow_refuted"
   ],
   "note": "holds whenever the sums of neighbouring edges fit the type (C256_exact_partial), thus for edges up to half its range (C256_half_range_partial); beyond, the centre reported lies left of the bin (C256_overflow_refuted)"
  },
  {
   "property": "C257",
   "status": "partial",
   "theorems": [
    "Verif.Consts.C257_history_partial",
    "Verif.Consts.C257_made_partial",
    "Verif.Consts.C257_reflections_refuted"
   ],
   "note": "holds over every history that does not modify the list got from reflections (C257_history_partial, C257_made_partial); that list is the standard's own, so removing an entry changes all later answers (C257_reflections_refuted), for a standard of calibration_standards those of estimate_d_blind too"
  },
  {
   "property": "C258",
   "status": "proved",
   "theorems": [
    "Verif.Recip.GisRound.C258_angles",
    "Verif.Recip.GisRound.C258_q"
   ],
   "note": "no overflow and underflow; np.arctan2 within 4 units, sine and cosine within one, the square root correctly rounded; signed zeros of arctan2 not modelled"
  },
  {
   "property": "C259",
   "status": "partial",
   "theorems": [
    "Verif.Image.Round.C259_accurate",
    "Verif.Image.Round.C259_knots",
    "Verif.Image.Round.C259_monotone",
    "Verif.Image.Round.C259_range_refuted"
   ],
   "note": "all proved but the last sentence: 51 at radius 0.12 and 0 at radius 1.69 gives -7e-15 at the double before 1.69 (C259_range_refuted); the excess is bounded by C259_accurate. np.interp by its documented arithmetic (slope, product, sum); no overflow and underflow"
  },
  {
   "property": "C260",
   "status": "partial",
   "theorems": [
    "Verif.Wrap.C260_iff_partial",
    "Verif.Wrap.C260_large_counts_refuted",
    "Verif.Wrap.C260_even_mean_refuted",
    "Verif.Wrap.C260_negative_refuted"
   ],
   "note": "holds exactly where K^k fits the type (C260_iff_partial); from as many counts as the type has bits on it never does for K >= 2 (C260_large_counts_refuted), an even mean gives 0 there (C260_even_mean_refuted), and with the types of the documentation 19 photons at mean 10 have a negative probability (C260_negative_refuted). Exponential, gamma function and division exact"
  },
  {
   "property": "C261",
   "status": "partial",
   "theorems": [
    "Verif.Wrap.C261_exact_partial",
    "Verif.Wrap.C261_int64_partial",
    "Verif.Wrap.C261_square_refuted"
   ],
   "note": "holds whenever the squares of the abscissae fit the type (C261_exact_partial), thus for int64 channels up to 2^31 (C261_int64_partial); channels 15, 16, 17 of type uint8 with a count at 16 give a peak at -48 (C261_square_refuted)"
  },
  {
   "property": "C262",
   "status": "partial",
   "theorems": [
    "Verif.Wrap.C262_exact_partial",
    "Verif.Wrap.C262_signed_partial",
    "Verif.Wrap.C262_ascending_partial",
    "Verif.Wrap.C262_descending_refuted",
    "Verif.Wrap.C262_segmented_refuted",
    "Verif.Wrap.C262_wide_refuted"
   ],
   "note": "holds whenever the differences of neighbouring edges fit the type (C262_exact_partial), thus for nonnegative edges of signed types (C262_signed_partial) and ascending edges of unsigned types (C262_ascending_partial); descending unsigned edges number the rings from outside (C262_descending_refuted), segmented_rings accepts unsigned edges in any order (C262_segmented_refuted), and bar refuses -100, 100 of type int8 (C262_wide_refuted)"
  },
  {
   "property": "C263",
   "status": "partial",
   "theorems": [
    "Verif.Cross.C263_regions_partial",
    "Verif.Cross.C263_empty",
    "Verif.Cross.C263_merged_refuted",
    "Verif.Cross.C263_ids_refuted"
   ],
   "note": "holds for whole ids from 0 to 2^32 - 1 (C263_regions_partial, C263_empty); ids that agree after the conversion to uint32 are merged (C263_merged_refuted): 1.2 and 1.7, or 1 and 2^32 + 1 (C263_ids_refuted). Conversion of negative floats is undefined in C and not modelled"
  },
  {
   "property": "C264",
   "status": "partial",
   "theorems": [
    "Verif.Wrap.C264_rectangles_partial",
    "Verif.Wrap.C264_box",
    "Verif.Wrap.C264_lost_refuted"
   ],
   "note": "box is exact in every type (C264_box), rectangles whenever their ends fit the type (C264_rectangles_partial); rows 200 to 299 of type uint8 select no pixel (C264_lost_refuted)"
  },
  {
   "property": "C265",
   "status": "proved",
   "theorems": [
    "Verif.Order.Bragg.C265_radius_to_twotheta",
    "Verif.Order.Bragg.C265_radius_to_q",
    "Verif.Order.Bragg.C265_hkl_to_q"
   ],
   "note": "no overflow and underflow; sine, arctangent and square root with a relative error of one unit"
  },
  {
   "property": "C266",
   "status": "partial",
   "theorems": [
    "Verif.Line.C266_nonneg_partial",
    "Verif.Line.C266_number_partial",
    "Verif.Line.C266_nan_refuted",
    "Verif.Line.C266_exact_positive",
    "Verif.Line.C266_formula"
   ],
   "note": "where the computed v2 is not 0 the value is a nonnegative number (C266_nonneg_partial), for all points of a peak alike (C266_number_partial); for gamma from 2^-500 to 0.025 v2 underflows and no point is a number (C266_nan_refuted), though the exact tail is positive (C266_exact_positive) and is what the formula gives without rounding (C266_formula). Overflow is not modelled"
  },
  {
   "property": "C267",
   "status": "partial",
   "theorems": [
    "Verif.Wrap.C267_energy",
    "Verif.Wrap.C267_peaks_partial",
    "Verif.Wrap.C267_int64",
    "Verif.Wrap.C267_lost_refuted",
    "Verif.Wrap.C267_shifted_refuted"
   ],
   "note": "equal exactly if the square fits the type or there is no quadratic term (C267_energy, C267_peaks_partial, C267_int64); 16-bit channels that are multiples of 256 lose the quadratic term (C267_lost_refuted) and the peak is displaced (C267_shifted_refuted)"
  },
  {
   "property": "C268",
   "status": "proved",
   "theorems": [
    "Verif.Consts.C268_window",
    "Verif.Consts.C268_append",
    "Verif.Consts.C268_spelling",
    "Verif.Consts.C268_empty",
    "Verif.Consts.C268_own",
    "Verif.Consts.C268_raises",
    "Verif.Consts.C268_table"
   ],
   "note": "for every xraylib and every table without a symbol twice, which the distributed table is (C268_table)"
  },
  {
   "property": "C269",
   "status": "proved",
   "theorems": [
    "Verif.Xrf.C269_trim_twice",
    "Verif.Xrf.C269_trim_again",
    "Verif.Xrf.C269_trim_pieces",
    "Verif.Xrf.C269_trim_map",
    "Verif.Xrf.C269_wider",
    "Verif.Xrf.C269_cover"
   ],
   "note": "exact arithmetic; the rounding of channel numbers is to the nearest even as in C73"
  },
  {
   "property": "C270",
   "status": "proved",
   "theorems": [
    "Verif.Feature.C270_prefix",
    "Verif.Feature.C270_again",
    "Verif.Feature.C270_order",
    "Verif.Feature.C270_scale"
   ],
   "note": "any sorting permutation; for equal heights the choice among them is the sort's"
  },
  {
   "property": "C271",
   "status": "proved",
   "theorems": [
    "Verif.Stats.C271_values",
    "Verif.Stats.C271_order",
    "Verif.Stats.C271_joined"
   ],
   "note": "without the assumptions of C151: the laws hold also for samples just above the upper limit"
  },
  {
   "property": "C272",
   "status": "proved",
   "theorems": [
    "Verif.Roi.C272_affine",
    "Verif.Roi.C272_series",
    "Verif.Roi.C272_between",
    "Verif.Roi.C272_rename",
    "Verif.Roi.C272_pixels"
   ],
   "note": "exact arithmetic; raised errors included in the equalities (a label array without background raises, C33)"
  },
  {
   "property": "C273",
   "status": "partial",
   "theorems": [
    "Verif.Line.C273_number_partial",
    "Verif.Line.C273_nan_refuted",
    "Verif.Line.C273_zero_refuted",
    "Verif.Line.C273_formula"
   ],
   "note": "a nonnegative number up to 170 photons (C273_number_partial); NaN at means from 64 and counts from 171 on (C273_nan_refuted), 0 at smaller means (C273_zero_refuted); without overflow it is the positive probability (C273_formula). For float arguments; integer ones are C260"
  },
  {
   "property": "C274",
   "status": "partial",
   "theorems": [
    "Verif.Line.C274_number_partial",
    "Verif.Line.C274_infinite_refuted",
    "Verif.Line.C274_modes_refuted",
    "Verif.Line.C274_formula"
   ],
   "note": "a nonnegative number while the coefficient is at most 2^1023 (C274_number_partial); infinite or NaN from 2^1024 on (C274_infinite_refuted, C274_modes_refuted); without overflow it is the formula of C68 (C274_formula). Rounding of the exponent left out"
  },
  {
   "property": "C275",
   "status": "proved",
   "theorems": [
    "Verif.Roi.C275_every_pixel_once",
    "Verif.Roi.C275_map",
    "Verif.Roi.C275_more_sets",
    "Verif.Roi.C275_grouping"
   ],
   "note": "exact arithmetic; the largest count starts from 0, as in the code, so negative intensities give 0 (C33 has the value)"
  },
  {
   "property": "C276",
   "status": "proved",
   "theorems": [
    "Verif.Mask.C276_threshold_parts",
    "Verif.Mask.C276_threshold_order",
    "Verif.Mask.C276_threshold_unit",
    "Verif.Mask.C276_bad_twice",
    "Verif.Mask.C276_subtract_linear",
    "Verif.Mask.C276_subtract_background",
    "Verif.Mask.C276_subtract_parts"
   ],
   "note": "exact arithmetic; for bad_to_nan_gen frames of one shape (C38); the masks are those at the moment they are yielded (C89)"
  },
  {
   "property": "C277",
   "status": "proved",
   "theorems": [
    "Verif.Dpc.C277_linear",
    "Verif.Dpc.C277_sum",
    "Verif.Dpc.C277_transposed",
    "Verif.Dpc.C277_bad_pixels",
    "Verif.Dpc.C277_region_of_region"
   ],
   "note": "exact arithmetic in any commutative monoid; raised errors included in the equalities; regions as sequences with nonnegative bounds (arrays raise, C62)"
  },
  {
   "property": "C278",
   "status": "proved",
   "theorems": [
    "Verif.Roi.C278_rings_move",
    "Verif.Roi.C278_rings_mirror",
    "Verif.Roi.C278_rings_transposed",
    "Verif.Roi.C278_more_rings",
    "Verif.Roi.C278_bar_unit",
    "Verif.Roi.C278_rectangles_transposed"
   ],
   "note": "exact arithmetic; rounding of rings is C230"
  },
  {
   "property": "C279",
   "status": "proved",
   "theorems": [
    "Verif.Feature.C279_twice",
    "Verif.Feature.C279_either_order",
    "Verif.Feature.C279_wider",
    "Verif.Feature.C279_unit",
    "Verif.Feature.C279_parts"
   ],
   "note": "exact arithmetic in any ordered field; integer data is C222"
  },
  {
   "property": "C280",
   "status": "proved",
   "theorems": [
    "Verif.Line.C280_amplitude",
    "Verif.Line.C280_angle",
    "Verif.Line.C280_channels",
    "Verif.Line.C280_forward",
    "Verif.Line.C280_nonnegative"
   ],
   "note": "real arithmetic; widths and tail parameters not zero where the code divides by them"
  },
  {
   "property": "C281",
   "status": "proved",
   "theorems": [
    "Verif.Utils.C281_edges_affine",
    "Verif.Utils.C281_ways_agree",
    "Verif.Utils.C281_centers_affine",
    "Verif.Utils.C281_bin1D_affine"
   ],
   "note": "exact arithmetic; rounding is C211 and C214, where the ways to ask for bins can differ"
  },
  {
   "property": "C282",
   "status": "proved",
   "theorems": [
    "Verif.Recip.Gis.C282_incident",
    "Verif.Recip.Gis.C282_exit",
    "Verif.Recip.Gis.C282_out_of_plane",
    "Verif.Recip.Gis.C282_tilt",
    "Verif.Recip.Gis.C282_beams"
   ],
   "note": "exact arithmetic (rounding is C258); distance positive"
  }
 ]
}
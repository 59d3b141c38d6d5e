{"id": "C01", "title": "Multi-tau lag table is complete, ordered and correctly laid out", "statement": "For every number of levels >= 1 and every even number of channels, multi_tau_lags returns a lag array whose length is the returned total, starts at 0, is strictly increasing, whose entry for channel j of level 1 is j and for channel j of level i>=2 is (channels/2+j)*2^(i-1), and whose per-level dictionary concatenates to exactly that array; an odd channel count raises ValueError.", "quantifier": "all levels, all channel counts", "why_tests_cant": "infinitely many (levels, channels) pairs; tests compare a handful of literal tables", "anchors": ["skbeam/core/utils.py::multi_tau_lags"]}
{"id": "C02", "title": "geometric_series is a maximal geometric progression below the image count", "statement": "Whenever geometric_series returns, element k is first_term*common_ratio^k, every element after the first is < number_of_images, and multiplying the last once more would reach or exceed number_of_images; for integer first_term >= 1 and ratio >= 2 it always returns, and for first_term < number_of_images with ratio 1 it never returns.", "quantifier": "all ratios, counts and first terms, all iteration counts", "why_tests_cant": "termination and maximality range over unboundedly many loop iterations", "anchors": ["skbeam/core/utils.py::geometric_series"]}
{"id": "C03", "title": "bin_edges obeys its documented contract", "statement": "bin_edges raises ValueError unless exactly three arguments are given, the range is non-empty and nbins is positive; otherwise with nbins given it returns nbins+1 edges; with positive step consecutive edges differ by exactly step; every edge is >= range_min and <= range_max whenever those are given, range_min/range_max themselves are hit when anchored there, and with (min,max,step) the gap to range_max is smaller than step.", "quantifier": "all argument combinations with rational values", "why_tests_cant": "real-valued arguments and all None/non-None combinations", "anchors": ["skbeam/core/utils.py::bin_edges"]}
{"id": "C04", "title": "Reference subtraction uses the nearest preceding reference image", "statement": "subtract_reference_images returns one image per non-reference frame, in order, each equal to that frame minus the latest reference frame before it; it raises ValueError exactly when the first frame is not a reference.", "quantifier": "all frame sequences and reference flags of equal length", "why_tests_cant": "every interleaving of reference and measured frames of every length", "anchors": ["skbeam/core/utils.py::subtract_reference_images"]}
{"id": "C05", "title": "Bin centers are the midpoints, strictly inside their bins", "statement": "bin_edges_to_centers maps N+1 edges to N centers; center i is the midpoint of edges i and i+1; for increasing edges it lies strictly between them and the centers are increasing.", "quantifier": "all edge lists", "why_tests_cant": "all lengths and values", "anchors": ["skbeam/core/utils.py::bin_edges_to_centers", "skbeam/core/utils.py::pairwise"]}
{"id": "C06", "title": "bin_1D neither loses nor double counts in-range samples", "statement": "With min_x < max_x and nx >= 1, the counts returned by bin_1D sum to the number of samples in [min_x, max_x], the values sum to the total of their intensities, and each bin holds exactly the samples of its half-open interval (the last one closed).", "quantifier": "all sample lists, ranges and bin counts", "why_tests_cant": "every multiset of samples, including samples exactly on edges", "anchors": ["skbeam/core/utils.py::bin_1D"]}
{"id": "C07", "title": "img_to_relative_xyi pairs every pixel with its own coordinates", "statement": "For every image, the k-th returned (x, y, I) triple consists of one pixel's intensity and that same pixel's offset from the given centre times the pixel size.", "quantifier": "all image shapes, contents, centres and pixel sizes", "why_tests_cant": "depends on all (rows, columns) combinations; tests use square images", "anchors": ["skbeam/core/utils.py::img_to_relative_xyi"]}
{"id": "C08", "title": "bin_grid with default bins uses every unmasked pixel", "statement": "When bins is not given, every unmasked pixel of the image contributes to exactly one bin of the result.", "quantifier": "all images, radius maps and pixel sizes", "why_tests_cant": "depends on the real-valued relation between radius range and pixel size", "anchors": ["skbeam/core/utils.py::bin_grid"]}
{"id": "C09", "title": "Radial and angular grids describe the pixel geometry", "statement": "radial_grid gives each pixel its Euclidean distance (in pixel_size units) to the centre, and angle_grid gives an angle in [-pi, pi] with x = r cos, y = r sin, so the pair determines the pixel position.", "quantifier": "all shapes, centres and pixel sizes", "why_tests_cant": "real-valued centres and sizes", "anchors": ["skbeam/core/utils.py::radial_grid", "skbeam/core/utils.py::angle_grid"]}
{"id": "C10", "title": "q, d and two-theta conversions are mutually inverse", "statement": "q_to_d and d_to_q are inverse to each other on non-zero values; twotheta_to_q and q_to_twotheta are inverse to each other on the physical domain (0 <= 2theta <= pi, |lambda q| <= 4 pi), both strictly increasing there; radius_to_twotheta is strictly increasing with values in (-pi/2, pi/2).", "quantifier": "all real q, d, angles, wavelengths > 0", "why_tests_cant": "real analysis over continuous domains", "anchors": ["skbeam/core/utils.py::q_to_d", "skbeam/core/utils.py::d_to_q", "skbeam/core/utils.py::q_to_twotheta", "skbeam/core/utils.py::twotheta_to_q", "skbeam/core/utils.py::radius_to_twotheta"]}
{"id": "C11", "title": "RCParamDict behaves as a map from dotted paths to values", "statement": "After any sequence of successful assignments and deletions, reading a path returns the value last assigned to it if that path has not since been deleted, overwritten by an ancestor assignment or had an ancestor deleted; assigning one path does not change the value at any unrelated path.", "quantifier": "all histories of set/delete/get with arbitrary dotted keys", "why_tests_cant": "arbitrary operation histories and key nesting", "anchors": ["skbeam/core/utils.py::RCParamDict"]}
{"id": "C12", "title": "A rejected RCParamDict assignment changes nothing", "statement": "An assignment is rejected (KeyError) exactly when a proper prefix of the path already holds a plain value, and then the mapping is left exactly as it was.", "quantifier": "all mappings and keys", "why_tests_cant": "all reachable trees", "anchors": ["skbeam/core/utils.py::RCParamDict.__setitem__"]}
{"id": "C13", "title": "RCParamDict iteration lists exactly the readable leaves", "statement": "Iterating an RCParamDict yields each path that holds a plain value exactly once and nothing else, and len equals that number.", "quantifier": "all reachable mappings", "why_tests_cant": "all histories", "anchors": ["skbeam/core/utils.py::RCParamDict.__iter__", "skbeam/core/utils.py::RCParamDict.__len__"]}
{"id": "C14", "title": "Reading an MD_dict never changes it", "statement": "Looking a key up in an MD_dict leaves every other lookup, the iteration order and the stored leaves unchanged.", "quantifier": "all MD_dicts and keys", "why_tests_cant": "all reachable trees; the effect only shows on later reads", "anchors": ["skbeam/core/utils.py::MD_dict.__getitem__"]}
{"id": "C15", "title": "MD_dict assignment followed by lookup returns the stored value; unrelated keys unaffected", "statement": "After md[key]=v, md[key] returns the normalised value, every key not comparable with key (neither a prefix of the other) keeps its value, and using a leaf as a branch raises KeyError.", "quantifier": "all MD_dicts, keys and values", "why_tests_cant": "all reachable trees", "anchors": ["skbeam/core/utils.py::MD_dict.__setitem__", "skbeam/core/utils.py::MD_dict.__getitem__"]}
{"id": "C16", "title": "MD_dict normalises values to (value, units)", "statement": "A string is stored with units 'text'; a two-element sequence whose second element is a string or None is stored as (value, units); anything else non-indexable or longer is stored whole with units None.", "quantifier": "all values", "why_tests_cant": "all value shapes", "anchors": ["skbeam/core/utils.py::MD_dict.__setitem__"]}
{"id": "C17", "title": "MD_dict membership agrees with iteration", "statement": "key in md holds exactly for the keys produced by iterating md.", "quantifier": "all MD_dicts and keys", "why_tests_cant": "all reachable trees", "anchors": ["skbeam/core/utils.py::MD_dict"]}
{"id": "C18", "title": "Histogram.fill puts each sample's weight into exactly the bin containing it", "statement": "After fill, every bin has grown by exactly the total weight of the samples whose every coordinate lies in that bin's half-open interval low+k*w <= x < low+(k+1)*w; samples outside [low, high) in any dimension change nothing.", "quantifier": "all histograms (any dimension), sample lists and weights", "why_tests_cant": "all sample multisets, dimensions and bin layouts", "anchors": ["skbeam/core/accumulators/histogram.pyx::Histogram.fill", "skbeam/core/accumulators/histogram.pyx::find_indices"]}
{"id": "C19", "title": "Histogram.fill never addresses memory outside the histogram", "statement": "Every index computed for an accepted sample is a valid position of the value array, for 1-D, 2-D and N-D filling.", "quantifier": "all samples, bin layouts", "why_tests_cant": "memory safety over all inputs", "anchors": ["skbeam/core/accumulators/histogram.pyx::find_indices", "skbeam/core/accumulators/histogram.pyx::Histogram._fillnd"]}
{"id": "C20", "title": "N-D filling does not depend on the numeric types of the coordinates", "statement": "Filling with any mixture of integer and float coordinate arrays gives the same histogram as filling with all-float arrays of the same values, and the generic N-D path agrees with the dedicated 1-D and 2-D paths.", "quantifier": "all dimension counts, dtype patterns and samples", "why_tests_cant": "2^dims dtype patterns times all samples", "anchors": ["skbeam/core/accumulators/histogram.pyx::Histogram._fillnd", "skbeam/core/accumulators/histogram.pyx::Histogram._fill1d", "skbeam/core/accumulators/histogram.pyx::Histogram._fill2d"]}
{"id": "C21", "title": "Histogram filling is order- and batch-independent", "statement": "Filling samples in any order, or split into any sequence of fill calls, gives the same values; reset returns to all zeros; total content equals total in-range weight.", "quantifier": "all batches, permutations", "why_tests_cant": "all permutations and splits", "anchors": ["skbeam/core/accumulators/histogram.pyx::Histogram.fill", "skbeam/core/accumulators/histogram.pyx::Histogram.reset"]}
{"id": "C22", "title": "Rejected fills leave the histogram unchanged", "statement": "fill raises exactly when the coordinate count differs from the dimension, coordinate lengths differ, the weight length is neither 1 nor the sample count, or (N-D) a coordinate array has an unsupported type; in those cases the contents are unchanged.", "quantifier": "all argument lists", "why_tests_cant": "all malformed argument combinations", "anchors": ["skbeam/core/accumulators/histogram.pyx::Histogram.fill"]}
{"id": "C23", "title": "Binned statistics assign each sample to its own cell with axes in the caller's order", "statement": "For any number of dimensions and any bin counts, cell (i1..iD) of the result is computed from exactly the samples whose d-th coordinate falls in bin i_d of dimension d (last bin closed), and samples outside the range contribute nowhere.", "quantifier": "all dimensions, bin counts and samples", "why_tests_cant": "the internal flattening sorts axes by bin count; all orderings and ties matter", "anchors": ["skbeam/core/accumulators/binned_statistic.py::BinnedStatisticDD"]}
{"id": "C24", "title": "Binned count, sum, mean, std and median are those of the cell's samples", "statement": "For every cell, 'count' is the number, 'sum' the sum, 'mean' the mean, 'std' the population deviation and 'median' the median of the values of the samples in the cell; empty cells give the documented fill.", "quantifier": "all sample/values lists", "why_tests_cant": "all multisets", "anchors": ["skbeam/core/accumulators/binned_statistic.py::BinnedStatisticDD.__call__"]}
{"id": "C25", "title": "binmap reports every sample's bin numbers", "statement": "BinnedStatisticDD.binmap gives, for each sample and dimension, the bin number the statistic used.", "quantifier": "all dimensions, bin counts and samples", "why_tests_cant": "depends on relation between bin counts of different axes", "anchors": ["skbeam/core/accumulators/binned_statistic.py::BinnedStatisticDD.binmap"]}
{"id": "C26", "title": "Masking does not alter the caller's data", "statement": "Constructing a binned statistic with a mask leaves the sample array passed by the caller unchanged, and masked samples contribute to no bin.", "quantifier": "all samples and masks", "why_tests_cant": "aliasing effect visible only on later use of the array", "anchors": ["skbeam/core/accumulators/binned_statistic.py::BinnedStatisticDD.__init__"]}
{"id": "C27", "title": "rectangles labels exactly the pixels of each rectangle", "statement": "For rectangles lying in the image, pixel (r,c) has label k iff it lies in the k-th rectangle; overlapping rectangles raise ValueError.", "quantifier": "all rectangle lists and image shapes", "why_tests_cant": "all geometric configurations including partly off-image ones", "anchors": ["skbeam/core/roi.py::rectangles"]}
{"id": "C28", "title": "rings labels a pixel by the ring containing its radius", "statement": "For ascending non-overlapping edges, a pixel has label k>0 iff inner_k <= r < outer_k, and 0 otherwise.", "quantifier": "all edge lists, shapes and centres", "why_tests_cant": "all radii, including exactly on edges", "anchors": ["skbeam/core/roi.py::rings", "skbeam/core/roi.py::_make_roi"]}
{"id": "C29", "title": "ring_edges produces the requested rings", "statement": "ring_edges returns num_rings (inner, outer) pairs; ring k has the requested width and starts the requested spacing after ring k-1; the documented combinations of scalar/list width and spacing are accepted.", "quantifier": "all radii, widths, spacings, ring counts", "why_tests_cant": "all list/scalar combinations", "anchors": ["skbeam/core/roi.py::ring_edges"]}
{"id": "C30", "title": "segmented_rings gives every (ring, segment) its own label", "statement": "Pixels of different rings or different angular segments never share a label; pixels outside all rings get 0.", "quantifier": "all edge lists, segment counts, offsets", "why_tests_cant": "all angles and offsets", "anchors": ["skbeam/core/roi.py::segmented_rings"]}
{"id": "C31", "title": "bar and box label a pixel by the bin(s) containing its position", "statement": "bar gives label k iff the pixel's coordinate along the chosen direction is in the k-th edge interval; box labels exactly the intersections, each with its own label.", "quantifier": "all edge lists and shapes", "why_tests_cant": "all pixels and edges", "anchors": ["skbeam/core/roi.py::bar", "skbeam/core/roi.py::box"]}
{"id": "C32", "title": "extract_label_indices enumerates exactly the labelled pixels", "statement": "It returns, in row-major order and without repetition, the flat indices of exactly the pixels with positive label (0 is background), together with their labels.", "quantifier": "all label arrays", "why_tests_cant": "all arrays", "anchors": ["skbeam/core/roi.py::extract_label_indices"]}
{"id": "C33", "title": "ROI statistics are computed over exactly the ROI's pixels", "statement": "mean_intensity gives for each frame and ROI the mean over the pixels with that label; roi_max_counts the maximum over all labelled pixels; roi_pixel_values the pixel values of that ROI.", "quantifier": "all image series and label arrays", "why_tests_cant": "all arrays", "anchors": ["skbeam/core/roi.py::mean_intensity", "skbeam/core/roi.py::roi_max_counts", "skbeam/core/roi.py::roi_pixel_values"]}
{"id": "C34", "title": "circular_average is the mean intensity at each radius bin", "statement": "Each returned value is the mean of the unmasked pixels whose radius lies in the bin, bins with too few pixels are dropped, and no pixel is used twice.", "quantifier": "all images, centres, thresholds", "why_tests_cant": "all images", "anchors": ["skbeam/core/roi.py::circular_average"]}
{"id": "C35", "title": "kymograph rows are the time-ordered ROI pixel values", "statement": "Row t of kymograph is the list of values of frame t at the ROI's pixels in a fixed pixel order.", "quantifier": "all image series and label arrays", "why_tests_cant": "all series", "anchors": ["skbeam/core/roi.py::kymograph"]}
{"id": "C36", "title": "threshold masks only ever lose pixels", "statement": "In the mask yielded for frame n a pixel is 0 iff it was 0 in the given mask or its value was at or above the threshold in some frame up to n (NaN never is); otherwise it keeps its given value, 1 by default.", "quantifier": "all frame sequences", "why_tests_cant": "all histories", "anchors": ["skbeam/core/mask.py::threshold"]}
{"id": "C37", "title": "margin masks exactly the border", "statement": "margin(shape, k) is False exactly on the pixels closer than k to an image edge, for every k >= 0.", "quantifier": "all shapes and margins", "why_tests_cant": "all k including 0 and k larger than half the image", "anchors": ["skbeam/core/mask.py::margin"]}
{"id": "C38", "title": "bad_to_nan_gen blanks exactly the listed frames", "statement": "Each frame whose number is in the bad list is yielded as an all-NaN frame of its own shape, all other frames are yielded unchanged.", "quantifier": "all sequences and bad lists", "why_tests_cant": "all sequences", "anchors": ["skbeam/core/mask.py::bad_to_nan_gen"]}
{"id": "C39", "title": "binned_outlier masks pixels beyond their own radius bin's limits", "statement": "A pixel is masked iff its value lies outside mean +/- alpha*std of the radius bin containing it (or was masked before).", "quantifier": "all images and radius maps", "why_tests_cant": "pixels on bin edges", "anchors": ["skbeam/core/mask.py::binned_outlier"]}
{"id": "C40", "title": "Logical array operations compute their truth tables even with an output array", "statement": "logical_nand, logical_nor and logical_sub return NOT(a AND b), NOT(a OR b), a AND NOT b elementwise, whether or not out is given and whichever array out is.", "quantifier": "all boolean arrays, all aliasings of out", "why_tests_cant": "aliasing", "anchors": ["skbeam/core/arithmetic.py::logical_nand", "skbeam/core/arithmetic.py::logical_nor", "skbeam/core/arithmetic.py::logical_sub"]}
{"id": "C41", "title": "grid3d accumulates every in-range point into its own voxel, for any thread schedule", "statement": "For every partition of the points among threads and every order of merging, occupancy, sum and sum of squares of each voxel equal those of the points in lo <= q < hi falling in it.", "quantifier": "all point lists, thread counts and partitions", "why_tests_cant": "all schedules", "anchors": ["src/ctrans.c::c_grid3d", "skbeam/core/utils.py::grid3d"]}
{"id": "C42", "title": "grid3d starts from zeroed accumulators under every thread schedule", "statement": "Every per-thread accumulator cell is zero before accumulation starts, for every interleaving of the clearing threads.", "quantifier": "all interleavings", "why_tests_cant": "data race", "anchors": ["src/ctrans.c::c_grid3d"]}
{"id": "C43", "title": "grid3d reports mean and standard error of each voxel", "statement": "mean is sum/occupancy, std_err is 0 for empty voxels and sqrt(variance)/sqrt(occupancy)-type error otherwise, and is never the square root of a negative number.", "quantifier": "all voxels and point lists", "why_tests_cant": "all multisets", "anchors": ["src/ctrans.c::c_grid3d", "skbeam/core/utils.py::grid3d"]}
{"id": "C44", "title": "By default grid3d includes every point", "statement": "When no bounds are given, every unmasked point falls into exactly one voxel, so occupancies sum to the number of points.", "quantifier": "all point clouds", "why_tests_cant": "depends on sign/magnitude of the coordinates", "anchors": ["skbeam/core/utils.py::grid3d"]}
{"id": "C45", "title": "grid3d masks pixels consistently across the stack", "statement": "A 2-D mask applies to every image, a 3-D mask per image; a mask of any other shape raises ValueError; masked pixels contribute to no voxel.", "quantifier": "all stacks and masks", "why_tests_cant": "all shapes", "anchors": ["skbeam/core/utils.py::grid3d"]}
{"id": "C46", "title": "Multi-tau one-time correlation equals the average over frame pairs at each lag", "statement": "After any number of frames, the row for lag d of level l equals the mean, over all pairs of level-l frames (averages of 2^l consecutive frames) d*2^l apart that contain no NaN, of the ROI-averaged product, and likewise the past/future normalisations.", "quantifier": "all image series (incl. NaN frames), levels, even buffer counts", "why_tests_cant": "ring buffers wrap, levels update at different times; all lengths matter", "anchors": ["skbeam/core/correlation.py::lazy_one_time", "skbeam/core/correlation.py::_one_time_process"]}
{"id": "C47", "title": "Correlating in instalments equals correlating at once", "statement": "Feeding frames in any number of batches, passing the yielded internal state on, gives the same results as feeding all frames at once; frame k's result is available after frame k.", "quantifier": "all series and all splits", "why_tests_cant": "all split points", "anchors": ["skbeam/core/correlation.py::lazy_one_time", "skbeam/core/correlation.py::lazy_two_time"]}
{"id": "C48", "title": "g2 is only reported where it is defined", "statement": "Every reported g2 row has non-zero normalisation, i.e. no division by zero occurs.", "quantifier": "all image series", "why_tests_cant": "depends on zero pattern of the data", "anchors": ["skbeam/core/correlation.py::lazy_one_time"]}
{"id": "C49", "title": "Rows of g2 line up with lag_steps", "statement": "Row k of the correlation result is the correlation at delay lag_steps[k].", "quantifier": "all levels and buffer counts", "why_tests_cant": "all k", "anchors": ["skbeam/core/correlation.py::lazy_one_time", "skbeam/core/utils.py::multi_tau_lags"]}
{"id": "C50", "title": "ROI labels are renumbered without merging or losing regions", "statement": "For every label array with arbitrary positive labels, the renumbering used by the correlators maps the k-th smallest label to k, keeps background 0, and two pixels get equal new labels iff they had equal labels.", "quantifier": "all label arrays", "why_tests_cant": "in-place sequential renaming could collide; all label sets", "anchors": ["skbeam/core/correlation.py::_validate_and_transform_inputs"]}
{"id": "C51", "title": "The two-time matrix is symmetric and its entries are the normalised frame products", "statement": "After converting the state to results the matrix of every ROI is symmetric with unchanged diagonal; with one level, entry (t1,t2) for |t1-t2| < number of buffers is <I1 I2>/(<I1><I2>).", "quantifier": "all series, ROI sets", "why_tests_cant": "all t1, t2", "anchors": ["skbeam/core/correlation.py::lazy_two_time", "skbeam/core/correlation.py::two_time_state_to_results", "skbeam/core/correlation.py::_two_time_process"]}
{"id": "C52", "title": "Higher two-time levels fill whole blocks exactly", "statement": "A level-l pair of averaged frames is written to exactly the 2^l cells on the lag diagonal that the two averaged frame groups cover.", "quantifier": "all levels, times", "why_tests_cant": "half-integer times and truncation; all levels", "anchors": ["skbeam/core/correlation.py::_two_time_process"]}
{"id": "C53", "title": "one_time_from_two_time averages the diagonals", "statement": "Entry j of the result is the mean of the non-NaN entries at time distance j.", "quantifier": "all matrices", "why_tests_cant": "all sizes", "anchors": ["skbeam/core/correlation.py::one_time_from_two_time"]}
{"id": "C54", "title": "Cross-correlation sums products over all pixel pairs at each displacement", "statement": "The unnormalised correlation at displacement s is the sum over pixels p of a(p)b(p-s), for every displacement; autocorrelation is symmetric under inversion and a mask's own correlation counts valid pairs.", "quantifier": "all images, masks, displacements", "why_tests_cant": "all shapes and displacements", "anchors": ["skbeam/core/correlation.py::CrossCorrelator", "skbeam/core/correlation.py::_cross_corr"]}
{"id": "C55", "title": "xsvs histograms frames summed over the stated integration times", "statement": "At integration level k the photon-count histogram is built from sums of disjoint groups of 2^k consecutive frames.", "quantifier": "all image series", "why_tests_cant": "level updates for every frame", "anchors": ["skbeam/core/speckle.py::xsvs", "skbeam/core/speckle.py::_process"]}
{"id": "C56", "title": "filter_n_largest keeps the n highest peaks", "statement": "It returns min(n, number) of the candidate positions, all distinct candidates, such that no dropped candidate is higher than a kept one; n < 1 raises.", "quantifier": "all candidate lists", "why_tests_cant": "all orders and ties", "anchors": ["skbeam/core/feature.py::filter_n_largest"]}
{"id": "C57", "title": "filter_peak_height drops exactly the candidates below threshold", "statement": "A candidate is kept, in order, iff the difference between the highest and the lowest sample within window positions of it (and within the data) exceeds thresh.", "quantifier": "all data, windows", "why_tests_cant": "windows truncated at array ends", "anchors": ["skbeam/core/feature.py::filter_peak_height"]}
{"id": "C58", "title": "integrate_ROI validates its inputs before integrating", "statement": "ValueError is raised exactly for mismatched shapes, non-monotonic x, unequal bound lists, min >= max or bounds outside the data; otherwise decreasing x gives the same result as the reversed data.", "quantifier": "all inputs", "why_tests_cant": "all malformed inputs", "anchors": ["skbeam/core/spectroscopy.py::integrate_ROI"]}
{"id": "C59", "title": "integrate_ROI_spectrum uses the bin centers", "statement": "The bins whose centers lie within the limits are the ones integrated.", "quantifier": "all bin edges and counts", "why_tests_cant": "all edges", "anchors": ["skbeam/core/spectroscopy.py::integrate_ROI_spectrum"]}
{"id": "C60", "title": "align_and_scale maps every peak to zero with a common width", "statement": "After alignment every spectrum's peak position is at 0 and its width equals the first spectrum's width; counts are untouched.", "quantifier": "all spectra", "why_tests_cant": "all inputs", "anchors": ["skbeam/core/spectroscopy.py::align_and_scale"]}
{"id": "C61", "title": "DPC scan results land on their raster position, also when resumed", "statement": "The n-th processed frame's fit is stored at raster position (n / cols, n mod cols); resuming from a yielded state continues where it stopped; more frames than positions raises.", "quantifier": "all scan sizes, frame counts, splits", "why_tests_cant": "all splits", "anchors": ["skbeam/core/dpc.py::lazy_dpc"]}
{"id": "C62", "title": "image_reduction preserves total intensity and honours ROI and bad pixels", "statement": "The row and column projections both sum to the intensity of the ROI with bad pixels counted as zero, and the input image is not modified.", "quantifier": "all images, ROIs, bad pixel lists", "why_tests_cant": "all shapes", "anchors": ["skbeam/core/dpc.py::image_reduction"]}
{"id": "C63", "title": "DPC padding and cropping are inverse", "statement": "recon embeds the gradients in the centre of the padded grid and crops the same window back, for any padding; weighting outside [0,1] raises ValueError.", "quantifier": "all shapes and paddings", "why_tests_cant": "all sizes", "anchors": ["skbeam/core/dpc.py::recon"]}
{"id": "C64", "title": "CDI supports have the requested shape", "statement": "generate_box_support with a radius (a float, as documented, or an integer) is 1 exactly where every coordinate is from radius below the centre to less than radius above it, clipped to the array, and generate_disk_support exactly at Euclidean distance < radius.", "quantifier": "all shapes and radii", "why_tests_cant": "all sizes", "anchors": ["skbeam/core/cdi.py::generate_box_support", "skbeam/core/cdi.py::generate_disk_support", "skbeam/core/cdi.py::_dist"]}
{"id": "C65", "title": "cdi_recon returns the average of the iterates after the averaging start", "statement": "The returned object is the mean of the iterates n with n > start_avg*n_iterations and at least one iterate is averaged.", "quantifier": "all iteration counts and start fractions", "why_tests_cant": "all n_iterations and start_avg", "anchors": ["skbeam/core/cdi.py::cdi_recon"]}
{"id": "C66", "title": "SNIP background never rises above the smoothed spectrum and always terminates", "statement": "Each snipping pass only lowers the background, never below the minimum of the log-log-transformed smoothed spectrum, and for decrease_factor > 1, a positive threshold and a calibration with nonzero slope the loop ends after finitely many passes; a factor of at most 1, or a zero slope with an offset, makes it run for ever.", "quantifier": "all spectra, widths, iteration counts", "why_tests_cant": "all spectra", "anchors": ["skbeam/core/fitting/background.py::snip_method"]}
{"id": "C67", "title": "Peak functions have the stated area", "statement": "The integral over the real line of gaussian, lorentzian, pvoigt and lorentzian2 equals the area parameter for every center and sigma > 0.", "quantifier": "all areas, centres, widths", "why_tests_cant": "real integrals", "anchors": ["skbeam/core/fitting/lineshapes.py::gaussian", "skbeam/core/fitting/lineshapes.py::lorentzian", "skbeam/core/fitting/lineshapes.py::pvoigt", "skbeam/core/fitting/lineshapes.py::lorentzian2"]}
{"id": "C68", "title": "Photon-count distributions are normalised", "statement": "poisson_dist and nbinom_dist sum to 1 over all counts and gamma_dist integrates to 1.", "quantifier": "all means and mode numbers", "why_tests_cant": "infinite sums", "anchors": ["skbeam/core/fitting/lineshapes.py::poisson_dist", "skbeam/core/fitting/lineshapes.py::nbinom_dist", "skbeam/core/fitting/lineshapes.py::gamma_dist"]}
{"id": "C69", "title": "The Compton peak lies at or below the elastic energy", "statement": "The Compton peak energy never exceeds the incident energy, and is strictly below it unless the angle is a multiple of 360 degrees.", "quantifier": "all energies > 0 and angles", "why_tests_cant": "real domain", "anchors": ["skbeam/core/fitting/lineshapes.py::compton"]}
{"id": "C70", "title": "Applying a fitting strategy sets every parameter's bound type", "statement": "After set_parameter_bound every parameter except non_fitting_values has the bound type of the strategy if listed there, else of the extra configuration, else 'fixed'; nothing else changes; an unknown strategy raises KeyError and changes nothing.", "quantifier": "all parameter dicts, strategies, extra configs", "why_tests_cant": "all dicts", "anchors": ["skbeam/core/fitting/xrf_model.py::set_parameter_bound", "skbeam/core/fitting/xrf_model.py::register_strategy"]}
{"id": "C71", "title": "Per-pixel NNLS fitting works with and without background removal, in pixel order", "statement": "fit_pixel_multiprocess_nnls returns one result per pixel in the order of the input regardless of worker scheduling, with use_snip either True or False.", "quantifier": "all data, schedules, flags", "why_tests_cant": "scheduling", "anchors": ["skbeam/core/fitting/xrf_model.py::fit_per_line_nnls", "skbeam/core/fitting/xrf_model.py::fit_pixel_multiprocess_nnls"]}
{"id": "C72", "title": "Activated lines of a shell belong to that shell", "statement": "get_activated_lines for a K (L, M) element line returns exactly the K (L, M) emission lines with non-zero cross section.", "quantifier": "all cross-section tables", "why_tests_cant": "all tables", "anchors": ["skbeam/core/fitting/xrf_model.py::get_activated_lines", "skbeam/core/fitting/xrf_model.py::_get_activated_line"]}
{"id": "C73", "title": "trim and define_range keep exactly the requested window", "statement": "trim keeps exactly the points with low <= x <= high in order with x and y aligned; define_range does so for channels whose energy lies in the range to rounding.", "quantifier": "all arrays and bounds", "why_tests_cant": "all arrays", "anchors": ["skbeam/core/fitting/xrf_model.py::trim", "skbeam/core/fitting/xrf_model.py::define_range"]}
{"id": "C74", "title": "Element parameters reach the model under the name the model reads", "statement": "A position/width/ratio parameter added for an element, user peak or pileup peak is stored under the name the spectrum model looks up.", "quantifier": "all element names", "why_tests_cant": "all names", "anchors": ["skbeam/core/fitting/xrf_model.py::ParamController.add_param", "skbeam/core/fitting/xrf_model.py::ModelSpectrum.setup_element_model"]}
{"id": "C75", "title": "GSAS STD files round-trip", "statement": "Writing non-negative integer intensities up to 999999 in STD mode and reading the file back returns the same intensities and as many points as were written.", "quantifier": "all intensity lists", "why_tests_cant": "all lengths, values", "anchors": ["skbeam/io/save_powder_output.py::gsas_writer", "skbeam/io/gsas_file_reader.py::gsas_reader", "skbeam/io/gsas_file_reader.py::_get_std_data"]}
{"id": "C76", "title": "GSAS ESD files round-trip", "statement": "Writing and reading back an ESD file returns as many points as were written.", "quantifier": "all lengths", "why_tests_cant": "lengths not divisible by 5", "anchors": ["skbeam/io/save_powder_output.py::gsas_writer", "skbeam/io/gsas_file_reader.py::_get_esd_data"]}
{"id": "C77", "title": "A failed save leaves an existing file intact", "statement": "If save_output or gsas_writer raises because of its arguments, a previously existing file of that name still has its old contents.", "quantifier": "all arguments, all filesystem states", "why_tests_cant": "crash points and error paths", "anchors": ["skbeam/io/save_powder_output.py::save_output", "skbeam/io/save_powder_output.py::gsas_writer", "skbeam/io/save_powder_output.py::_create_file_path"]}
{"id": "C78", "title": "read_binary returns the file's data in the requested shape", "statement": "The header is the first headersize bytes and element (i,j,k) of the array is the element at flat position (i*ny+j)*nz+k of the rest; the result has exactly nx*ny*nz elements.", "quantifier": "all files and shapes", "why_tests_cant": "all files", "anchors": ["skbeam/io/binary.py::read_binary"]}
{"id": "C79", "title": "An element is the same however it is looked up", "statement": "Looking an element up by symbol, name (any letter case) or atomic number gives the same record, and elements are totally ordered by atomic number.", "quantifier": "all tables with distinct keys, all spellings", "why_tests_cant": "all spellings and tables", "anchors": ["skbeam/core/constants/basic.py::BasicElement", "skbeam/core/constants/basic.py::read_atomic_constants"]}
{"id": "C80", "title": "Emission line search returns exactly the lines in the window", "statement": "emission_line_search returns, for exactly the elements that have one, the lines with non-zero cross section and energy strictly within delta_e of the target.", "quantifier": "all tables, energies", "why_tests_cant": "all tables", "anchors": ["skbeam/core/constants/xrf.py::emission_line_search", "skbeam/core/constants/xrf.py::XrfElement.line_near"]}
{"id": "C81", "title": "Powder standards are sorted by q and keep their reflections", "statement": "The reflections of a PowderStandard are the given ones sorted by increasing q, and for standards built from d (or 2theta) d*q = 2 pi.", "quantifier": "all reflection lists", "why_tests_cant": "all lists", "anchors": ["skbeam/core/constants/xrs.py::PowderStandard"]}
{"id": "C82", "title": "MD_dict setdefault and pop honour their default", "statement": "md.setdefault(key, v) stores v when key holds nothing and md.pop(key, v) returns v when key holds nothing; pop of a key that holds a value returns and removes it.", "quantifier": "all histories, keys and defaults", "why_tests_cant": "inherited mixin methods interact with the dotted-path lookup on every possible history", "anchors": ["skbeam/core/utils.py::MD_dict"]}
{"id": "C83", "title": "Looking at intermediate two-time results does not disturb the rest of the computation", "statement": "Converting the two-time state to results between images (which rewrites the state's matrices in place) leaves the results obtained after the remaining images, and any exception, unchanged.", "quantifier": "all states, all remaining image lists", "why_tests_cant": "in-place mutation of a shared state at any point of any history", "anchors": ["skbeam/core/correlation.py::two_time_state_to_results", "skbeam/core/correlation.py::lazy_two_time"]}
{"id": "C84", "title": "Two-time correlation can be computed in instalments", "statement": "Feeding images A and then B from the state reached is the same as feeding A followed by B in one call.", "quantifier": "all states and all splits", "why_tests_cant": "all histories and split points", "anchors": ["skbeam/core/correlation.py::lazy_two_time"]}
{"id": "C85", "title": "The one-time curve derived from a two-time matrix is the mean over the frame pairs at that lag", "statement": "For every lag that the multi-tau scheme computes, one_time_from_two_time of the two-time matrix is the mean of the normalised products of all frame pairs at that lag; in particular it is 1 for a constant signal.", "quantifier": "all series, levels, buffer counts", "why_tests_cant": "depends on how the number of frames and the levels interact", "anchors": ["skbeam/core/correlation.py::one_time_from_two_time", "skbeam/core/correlation.py::two_time_corr"]}
{"id": "C86", "title": "A feature shifted to the right in img2 appears right of the centre of the correlation", "statement": "As the documentation says: if img2 is img1 shifted to the right, the maximum of CrossCorrelator()(img1, img2) is shifted to the right of the centre.", "quantifier": "all masks, all positions of the feature", "why_tests_cant": "direction convention for every mask and offset", "anchors": ["skbeam/core/correlation.py::CrossCorrelator"]}
{"id": "C87", "title": "Normalised correlation of constant images is exactly 1 wherever the mask overlaps itself", "statement": "For images that are non-zero constants on a region, the 'regular' and 'symavg' normalised correlation is 1 at every displacement that occurs between two pixels of the region and NaN at all others.", "quantifier": "all regions of any shape, all displacements, both normalisations", "why_tests_cant": "edge effects depend on every mask shape and displacement", "anchors": ["skbeam/core/correlation.py::CrossCorrelator"]}
{"id": "C88", "title": "grid3d never stores outside the memory it allocated", "statement": "For every number of threads and bins, build configuration and interleaving, all stores of the gridding loop go to cells that were allocated.", "quantifier": "all interleavings, bin counts, with and without OpenMP", "why_tests_cant": "depends on the interleaving and on the build", "anchors": ["src/ctrans.c::c_grid3d"]}
{"id": "C89", "title": "A mask yielded by threshold is not changed by later iterations", "statement": "A mask obtained from mask.threshold for frame n still describes frames 0..n after the generator has been advanced.", "quantifier": "all frame series", "why_tests_cant": "a list of yielded masks shares memory across every later iteration", "anchors": ["skbeam/core/mask.py::threshold"]}
{"id": "C90", "title": "The photon-count distributions have the stated mean", "statement": "The mean of poisson_dist and of nbinom_dist over all counts is the parameter K.", "quantifier": "all K >= 0 and mode numbers M > 0, integer or not", "why_tests_cant": "infinite sums over real parameters", "anchors": ["skbeam/core/fitting/lineshapes.py::poisson_dist", "skbeam/core/fitting/lineshapes.py::nbinom_dist"]}
{"id": "C91", "title": "gaussian_tail has the stated area", "statement": "The integral of gaussian_tail over the real line equals the area parameter.", "quantifier": "all areas, centres, widths and tail parameters", "why_tests_cant": "improper integral with real parameters", "anchors": ["skbeam/core/fitting/lineshapes.py::gaussian_tail"]}
{"id": "C92", "title": "fwhm_offset is the full width at half maximum of the elastic peak", "statement": "The elastic peak reaches half its maximum exactly where the calibrated energy is W/2 away from the incident energy, W^2 = fwhm_offset^2 + 8 ln 2 * energy * epsilon * fwhm_fanoprime; without energy-dependent broadening W = fwhm_offset.", "quantifier": "all amplitudes, energies, widths and calibrations", "why_tests_cant": "real parameters", "anchors": ["skbeam/core/fitting/lineshapes.py::elastic"]}
{"id": "C93", "title": "With several image sets the returned distribution is the mean over the sets", "statement": "xsvs of several image sets returns, for every level, ROI and count, the arithmetic mean of what it returns for each set alone.", "quantifier": "all numbers of sets and images", "why_tests_cant": "running averages over every number of sets and images", "anchors": ["skbeam/core/speckle.py::xsvs"]}
{"id": "C94", "title": "Entry K of the distribution is the fraction of pixels with K photons", "statement": "With integer counts and the default max_cts, entry K of the single-frame distribution of an ROI is the mean over the images of the fraction of its pixels that have count K.", "quantifier": "all images, ROIs, counts", "why_tests_cant": "boundary bins for every maximum count", "anchors": ["skbeam/core/speckle.py::xsvs", "skbeam/core/speckle.py::_process"]}
{"id": "C95", "title": "The standard deviation returned by xsvs is never NaN", "statement": "For any image sets, with or without bad images, every returned standard deviation is the square root of a non-negative number (exact arithmetic).", "quantifier": "all image sets, levels, ROIs, counts", "why_tests_cant": "incremental second-moment formulas on every history", "anchors": ["skbeam/core/speckle.py::xsvs"]}
{"id": "C96", "title": "Peak refinement is exact on the shapes it assumes", "statement": "refine_quadratic on at least three different samples of a parabola returns its vertex, refine_log_quadratic on samples of a Gaussian its centre and height, for any rejection threshold up to 1.", "quantifier": "all sampling points, parameters, thresholds", "why_tests_cant": "real parameters, every choice of sampling points", "anchors": ["skbeam/core/feature.py::refine_quadratic", "skbeam/core/feature.py::refine_log_quadratic", "skbeam/core/fitting/funcs.py::fit_quad_to_peak"]}
{"id": "C97", "title": "peak_refinement passes exactly the window around each candidate", "statement": "The refine function is called once per candidate with the samples within window positions of it, clipped at the ends of the data; the results of non-rejected candidates are returned in order.", "quantifier": "all data, windows, candidate lists, refine functions", "why_tests_cant": "windows truncated at the array ends, arbitrary refine functions", "anchors": ["skbeam/core/feature.py::peak_refinement"]}
{"id": "C98", "title": "find_largest_peak returns centre, height and width of a Gaussian", "statement": "For data that is Gaussian within the window around its maximum the three returned numbers are exact, wherever the maximum lies.", "quantifier": "all Gaussians, sampling points, windows, positions of the maximum", "why_tests_cant": "windows reaching over either end of the data", "anchors": ["skbeam/core/spectroscopy.py::find_largest_peak"]}
{"id": "C99", "title": "integrate_ROI integrates exactly the samples within each region", "statement": "The result is the sum over the regions of Simpson's rule applied to the samples with x_min <= x <= x_max.", "quantifier": "all data and regions", "why_tests_cant": "limits between sampling points", "anchors": ["skbeam/core/spectroscopy.py::integrate_ROI"]}
{"id": "C100", "title": "refine_center moves the centre towards the true ring centre", "statement": "For rings that are circles about a point offset from the estimate by (drow, dcol) pixels, the refined centre is the estimate plus (drow, dcol).", "quantifier": "all offsets, radii, pixel sizes, even numbers of sectors >= 4", "why_tests_cant": "real geometry; asymmetric offsets", "anchors": ["skbeam/core/calibration.py::refine_center"]}
{"id": "C101", "title": "estimate_d_blind returns the distance of a consistent pattern", "statement": "If the peak radii are D tan(2 theta) of the standard's reflections, the estimate is D with zero spread, however many peaks were found and whatever the limit.", "quantifier": "all distances, reflection lists, numbers of peaks", "why_tests_cant": "all combinations of list lengths", "anchors": ["skbeam/core/calibration.py::estimate_d_blind"]}
{"id": "C102", "title": "recon reconstructs a phase from its gradient", "statement": "If gx and gy are the x and y derivatives of a periodic phase (any trigonometric polynomial on the grid), recon without padding returns that phase up to a constant for any weighting in (0,1).", "quantifier": "all grid sizes, odd or even, step sizes, phases, weightings", "why_tests_cant": "frequency ordering for every grid size", "anchors": ["skbeam/core/dpc.py::recon"]}
{"id": "C103", "title": "Scaling of the gradients can be switched off", "statement": "With scale=False, or with pixel_size and focus_to_det omitted, reconstruct_phase_from_partial_info uses the unscaled gradients and ignores pixel size, distance and energy.", "quantifier": "all states and arguments", "why_tests_cant": "all argument combinations", "anchors": ["skbeam/core/dpc.py::reconstruct_phase_from_partial_info"]}
{"id": "C104", "title": "The DPC fit's cost function is minimal at the true transmission and shift", "statement": "The residual is non-negative, and zero at (a, 2 pi d / length) when the line is the reference line times a shifted cyclically by d pixels.", "quantifier": "all lines, lengths, amplitudes, shifts", "why_tests_cant": "frequency ordering for every length", "anchors": ["skbeam/core/dpc.py::_rss_factory", "skbeam/core/dpc.py::lazy_dpc"]}
{"id": "C105", "title": "A yielded DPC state is a snapshot", "statement": "States collected from lazy_dpc keep the values they had when they were yielded.", "quantifier": "all scans", "why_tests_cant": "aliasing across the history of the generator", "anchors": ["skbeam/core/dpc.py::lazy_dpc"]}
{"id": "C106", "title": "dpc_runner reconstructs from all frames", "statement": "The result of dpc_runner is the reconstruction from the state after all frames of the sequence, also for an incomplete scan or an empty sequence; non-square pixels raise ValueError.", "quantifier": "all sequences and arguments", "why_tests_cant": "sequence lengths including zero", "anchors": ["skbeam/core/dpc.py::dpc_runner"]}
{"id": "C107", "title": "gauss is a normalised, centred, decreasing kernel", "statement": "For any shape and width the entries of gauss are positive, sum to one and are smaller the farther they are from the centre of the array.", "quantifier": "all dimensions, sizes, widths", "why_tests_cant": "all shapes in all dimensions", "anchors": ["skbeam/core/cdi.py::gauss", "skbeam/core/cdi.py::_dist"]}
{"id": "C108", "title": "pi_modulus imposes the measured modulus", "statement": "The Fourier transform of the result keeps its phases, has the measured modulus wherever the pattern is positive and is unchanged elsewhere.", "quantifier": "all objects, patterns, sizes, offsets", "why_tests_cant": "real-valued identity over all arrays", "anchors": ["skbeam/core/cdi.py::pi_modulus"]}
{"id": "C109", "title": "cdi_recon calls the callback every cb_step iterations", "statement": "With a callback the number of calls is n_iterations // cb_step.", "quantifier": "all iteration counts and steps", "why_tests_cant": "all combinations of the two numbers", "anchors": ["skbeam/core/cdi.py::cdi_recon"]}
{"id": "C110", "title": "sup_error records the size of the refined support", "statement": "error_dict['sup_error'][n] is the number of pixels in the support found by shrink-wrap in iteration n, and 0 in other iterations.", "quantifier": "all runs", "why_tests_cant": "history of the support", "anchors": ["skbeam/core/cdi.py::cdi_recon", "skbeam/core/cdi.py::find_support"]}
{"id": "C111", "title": "cdi_recon does not modify the caller's initial object", "statement": "After the call the array passed as sample_obj holds what it held before.", "quantifier": "all runs", "why_tests_cant": "aliasing", "anchors": ["skbeam/core/cdi.py::cdi_recon"]}
{"id": "C112", "title": "An object that satisfies both constraints is a fixed point", "statement": "If the object vanishes outside the support and its transform has the measured modulus (and, in real mode, the object is real and non-negative), an iteration of cdi_recon does not change it except for the guard offset in pi_modulus: no pixel moves by more than max(1, |beta|) times the offset (1e-12) times the square root of the number of pixels.", "quantifier": "all objects, supports, patterns, beta", "why_tests_cant": "all arrays", "anchors": ["skbeam/core/cdi.py::cdi_recon", "skbeam/core/cdi.py::pi_modulus", "skbeam/core/cdi.py::pi_support"]}
{"id": "C113", "title": "SNIP backgrounds are monotone in the spectrum", "statement": "Raising any channels of a spectrum never lowers the returned background anywhere, and a constant spectrum without smoothing is its own background.", "quantifier": "all spectra, calibrations, window parameters", "why_tests_cant": "all pairs of spectra", "anchors": ["skbeam/core/fitting/background.py::snip_method"]}
{"id": "C114", "title": "A failed add_param leaves the controller unchanged", "statement": "If ParamController.add_param raises, the element list, lines and parameters are as before the call.", "quantifier": "all states, parameter kinds and element names", "why_tests_cant": "every failing input in every state", "anchors": ["skbeam/core/fitting/xrf_model.py::ParamController"]}
{"id": "C115", "title": "Models are assembled for every element list", "statement": "ModelSpectrum.assemble_models succeeds for every list of known elements, whether or not the incident energy excites each of them, skipping those it does not.", "quantifier": "all element lists and incident energies", "why_tests_cant": "all combinations of elements and energies", "anchors": ["skbeam/core/fitting/xrf_model.py::ModelSpectrum"]}
{"id": "C116", "title": "ParamController stays consistent over every history", "statement": "After any sequence of add_param calls, failed ones included, the element list has no duplicates, the list of lines is the activated lines of the elements, and no parameter has been removed.", "quantifier": "all initial parameters and call sequences", "why_tests_cant": "all histories", "anchors": ["skbeam/core/fitting/xrf_model.py::ParamController"]}
{"id": "C117", "title": "nnls_fit minimises the weighted residual", "statement": "nnls_fit returns non-negative coefficients minimising the sum over channels of weight times squared residual, and the root of that minimum; without weights all weights are one.", "quantifier": "all spectra, matrices, non-negative weights", "why_tests_cant": "optimality over all coefficient vectors", "anchors": ["skbeam/core/fitting/xrf_model.py::nnls_fit"]}
{"id": "C118", "title": "r_squared is the coefficient of determination", "statement": "The r_squared value returned per pixel by fit_pixel_multiprocess_nnls is 1 - SS_res/SS_tot, hence at most one and one exactly for a perfect fit.", "quantifier": "all spectra and matrices", "why_tests_cant": "identity over all real data", "anchors": ["skbeam/core/fitting/xrf_model.py::fit_per_line_nnls"]}
{"id": "C119", "title": "Areas are areas", "statement": "The integral of an element's line is area*ratio*ratio_adjust; sum_area is the total of these over the fitted lines of the shell; each map of calculate_area is the number of counts in that component, or in its first line with first_peak_area.", "quantifier": "all parameters, matrices, coefficients", "why_tests_cant": "real integrals, all sizes", "anchors": ["skbeam/core/fitting/xrf_model.py::element_peak_xrf", "skbeam/core/fitting/xrf_model.py::calculate_area", "skbeam/core/fitting/xrf_model.py::get_relative_cs_ratio"]}
{"id": "C120", "title": "Components of a linear fit add up to the fit", "statement": "For distinct component names, the components in the result dictionary of linear_spectrum_fitting (background apart) add up in each channel to the fitted spectrum.", "quantifier": "all matrices, coefficients, names", "why_tests_cant": "all sizes and zero components", "anchors": ["skbeam/core/fitting/xrf_model.py::linear_spectrum_fitting"]}
{"id": "C121", "title": "Two-theta positions of a GSAS file round-trip", "statement": "For uniformly spaced two-theta values, reading back a file written in STD or ESD mode gives the same positions to the precision of the header, for every number of points.", "quantifier": "all uniform grids, all lengths", "why_tests_cant": "all lengths including one", "anchors": ["skbeam/io/save_powder_output.py::gsas_writer", "skbeam/io/gsas_file_reader.py::gsas_reader"]}
{"id": "C122", "title": "ESD errors and intensities are on one scale", "statement": "In a file written in ESD mode the intensities and their errors are scaled by the same factor.", "quantifier": "all intensity and error lists", "why_tests_cant": "magnitudes beyond six digits", "anchors": ["skbeam/io/save_powder_output.py::gsas_writer", "skbeam/io/gsas_file_reader.py::_get_esd_data"]}
{"id": "C123", "title": "GSAS FXYE files round-trip", "statement": "A file written in FXYE mode holds one record per point, with the written two-theta, and intensity and error on one scale.", "quantifier": "all lists of points", "why_tests_cant": "magnitudes beyond six digits", "anchors": ["skbeam/io/save_powder_output.py::gsas_writer", "skbeam/io/gsas_file_reader.py::_get_fxye_data"]}
{"id": "C124", "title": "save_output writes every point in order", "statement": "A successful save_output leaves a file with eight header lines followed by exactly one line per point, in order, holding the given columns.", "quantifier": "all data, file states, formats", "why_tests_cant": "all lengths and contents", "anchors": ["skbeam/io/save_powder_output.py::save_output"]}
{"id": "C125", "title": "xraylib wrappers behave as mappings", "statement": "XrayLibWrap and XrayLibWrap_Energy iterate over distinct keys, as many as their length; every key in any letter case is a member and has the value xraylib has for that line or shell, 0 where it has none; anything else raises KeyError.", "quantifier": "all elements, quantities, keys", "why_tests_cant": "all keys and spellings", "anchors": ["skbeam/core/constants/xrf.py::XrayLibWrap", "skbeam/core/constants/xrf.py::XrayLibWrap_Energy"]}
{"id": "C126", "title": "process_to_q does not depend on the thread schedule", "statement": "For valid arguments process_to_q returns one row per pixel of every image; row n*nx*ny + j*nx + i is the scattering vector of column i, row j of image n in the requested frame, however many threads run and however their memory accesses interleave.", "quantifier": "all angle tables, detectors, UB matrices, frames, thread schedules, initial memory contents", "why_tests_cant": "schedules of threads cannot be enumerated by tests", "anchors": ["skbeam/core/recip.py::process_to_q", "src/ctrans.c::processImages", "src/ctrans.c::matmulti"]}
{"id": "C127", "title": "Length of the scattering vector obeys Bragg's law", "statement": "In the theta, phi and cart frames, hkl_to_q of the result is (4 pi / lambda) sin(Theta), 2 Theta being the angle between incident and scattered beam: independent of the sample angles and at most 4 pi / lambda.", "quantifier": "all angles, pixels, wavelengths, orientations", "why_tests_cant": "a statement about all real angles", "anchors": ["skbeam/core/recip.py::process_to_q", "skbeam/core/recip.py::hkl_to_q", "src/ctrans.c::calcQTheta", "src/ctrans.c::calcQPhiFromQTheta"]}
{"id": "C128", "title": "hkl rows are Miller indices whose q is given by hkl_to_q", "statement": "In the hkl frame, UB times a row is the scattering vector, and hkl_to_q gives the length of the scattering vector of each pixel.", "quantifier": "all invertible UB matrices, angles and pixels", "why_tests_cant": "all matrices", "anchors": ["skbeam/core/recip.py::process_to_q", "skbeam/core/recip.py::hkl_to_q"]}
{"id": "C129", "title": "process_to_q accepts exactly the documented arguments and frames", "statement": "The call succeeds iff every image has six angles, UB is invertible and the frame is one of the four documented ones (or omitted); the four frames are different frames.", "quantifier": "all angle tables, matrices, strings", "why_tests_cant": "all strings and matrices", "anchors": ["skbeam/core/recip.py::process_to_q"]}
{"id": "C130", "title": "process_to_q uses the direction of the ray to each pixel", "statement": "With the detector perpendicular to the direct beam, the scattered beam direction of a pixel is the direction from the sample to that pixel of the flat detector.", "quantifier": "all detectors and pixels", "why_tests_cant": "all real geometries", "anchors": ["src/ctrans.c::calcDeltaGamma"]}
{"id": "C131", "title": "gisaxs: the reflected beam is specular", "statement": "At the pixel of the reflected beam the exit angle equals the incident angle and the in-plane components of q vanish.", "quantifier": "all beam positions, pixel sizes, distances, wavelengths", "why_tests_cant": "all real geometries", "anchors": ["skbeam/core/recip.py::gisaxs"]}
{"id": "C132", "title": "gisaxs: q is a difference of two wave vectors", "statement": "(qx, qy, qz) has the length of k_f - k_i with |k_f| = |k_i| = 2 pi / lambda, hence at most 4 pi / lambda; it does not depend on the tilt, and qr^2 + qz^2 is its square.", "quantifier": "all arguments and pixels", "why_tests_cant": "all real geometries", "anchors": ["skbeam/core/recip.py::gisaxs"]}
{"id": "C133", "title": "gisaxs: every detector pixel has an entry", "statement": "For detector_size (number of pixels in X, in Y) the returned arrays hold the value of every pixel x < nx, y < ny.", "quantifier": "all detector sizes", "why_tests_cant": "all sizes", "anchors": ["skbeam/core/recip.py::gisaxs"]}
{"id": "C134", "title": "find_ring_center_acorr_1D finds the centre of a mirror-symmetric image", "statement": "For an image that mirrors exactly about a pixel in both directions, the reported centre is that pixel; for other images it is the pixel about which most rows and columns mirror best.", "quantifier": "all images", "why_tests_cant": "all pixel values and sizes", "anchors": ["skbeam/core/image.py::find_ring_center_acorr_1D"]}
{"id": "C135", "title": "find_ring_center_acorr_1D reports a pixel and follows the image", "statement": "The reported centre is a pixel of the image; transposing the image swaps its coordinates; multiplying the image by a positive factor leaves it.", "quantifier": "all images with at least one pixel", "why_tests_cant": "all images", "anchors": ["skbeam/core/image.py::find_ring_center_acorr_1D"]}
{"id": "C136", "title": "construct_circ_avg_image draws the radial profile", "statement": "Every pixel holds the radial profile at its distance from the centre: listed intensities at listed radii, linear in between, the first intensity inside the first radius, zero beyond the last; pixels at equal distance hold equal values. A centre given without image dimensions raises ValueError.", "quantifier": "all ascending profiles, sizes, centres, pixel sizes", "why_tests_cant": "all real profiles and geometries", "anchors": ["skbeam/core/image.py::construct_circ_avg_image"]}
{"id": "C137", "title": "construct_circ_avg_image honours left and right", "statement": "Pixels nearer than the first radius are set to left and pixels farther than the last to right.", "quantifier": "all profiles, values of left and right", "why_tests_cant": "all argument values", "anchors": ["skbeam/core/image.py::construct_circ_avg_image"]}
{"id": "C138", "title": "The default image size crops nothing of the profile", "statement": "Without dims and center the image is centred on its middle pixel and contains every whole-pixel offset not farther than the largest radius, in both directions for rectangular pixels.", "quantifier": "all ascending profiles and pixel sizes", "why_tests_cant": "all real radii and pixel sizes", "anchors": ["skbeam/core/image.py::construct_circ_avg_image"]}
{"id": "C139", "title": "construct_rphi_avg_image interpolates bilinearly on the periodic polar grid", "statement": "Pixels outside the radial range are NaN; every other pixel lies in a cell of the polar grid continued over the full turn and holds the bilinear interpolation of its corners; with a mask it is NaN if one of the corners is masked, and as without the mask otherwise.", "quantifier": "all ascending grids spanning less than a turn, images, sizes, centres, pixel sizes", "why_tests_cant": "all real geometries", "anchors": ["skbeam/core/image.py::construct_rphi_avg_image"]}
{"id": "C140", "title": "construct_rphi_avg_image ignores angles beyond a full turn", "statement": "Angles that span a full turn or more are accepted, the repeated ones being ignored; angles spanning less are accepted.", "quantifier": "all ascending angle lists", "why_tests_cant": "all real angles", "anchors": ["skbeam/core/image.py::construct_rphi_avg_image"]}
{"id": "C141", "title": "construct_rphi_avg_image leaves its arguments alone", "statement": "The caller's arrays are unchanged by the call, so that repeating it gives the same image.", "quantifier": "all arguments, histories of calls", "why_tests_cant": "histories of calls on shared arrays", "anchors": ["skbeam/core/image.py::construct_rphi_avg_image"]}
{"id": "C142", "title": "construct_rphi_avg_image rejects masks of the wrong shape with ValueError", "statement": "A mask of another shape than the image raises ValueError.", "quantifier": "all masks, images and shapes", "why_tests_cant": "all shapes", "anchors": ["skbeam/core/image.py::construct_rphi_avg_image"]}
{"id": "C143", "title": "A number of bins gives equal bins that cover the data", "statement": "With a number n of bins, every dimension gets n bins of equal width over the given range, or over the smallest to largest coordinate (one unit wide around a single value); over the default range every sample is counted exactly once; impossible requests raise.", "quantifier": "all samples, dimensions, numbers of bins, ranges", "why_tests_cant": "all sample values", "anchors": ["skbeam/core/accumulators/binned_statistic.py::BinnedStatisticDD", "skbeam/core/accumulators/binned_statistic.py::BinnedStatistic1D"]}
{"id": "C144", "title": "Masked samples have no influence on a binned statistic", "statement": "Changing the coordinates of masked samples changes nothing in the result. A mask with another number of entries than there are samples raises IndexError.", "quantifier": "all pairs of data sets that differ at masked positions only", "why_tests_cant": "all values of masked samples", "anchors": ["skbeam/core/accumulators/binned_statistic.py::BinnedStatisticDD"]}
{"id": "C145", "title": "The documented forms of bins mean what they say", "statement": "One number stands for all dimensions; explicit edges are used as given; a plain sequence gives the edges of the 1-D class and the common edges of both dimensions of the 2-D class; a sequence of the wrong length is an error.", "quantifier": "all bin specifications, samples and ranges", "why_tests_cant": "all forms and contents of the argument", "anchors": ["skbeam/core/accumulators/binned_statistic.py::BinnedStatistic1D", "skbeam/core/accumulators/binned_statistic.py::BinnedStatistic2D"]}
{"id": "C146", "title": "Radial and polar image statistics bin pixels by their own coordinates", "statement": "Each entry of the sum, mean, count or standard deviation is taken over exactly the unmasked pixels whose radius (and angle) lies in the bin; masks and images of another shape raise ValueError.", "quantifier": "all image shapes, radius and angle maps, masks, edges, images", "why_tests_cant": "all images and maps", "anchors": ["skbeam/core/accumulators/binned_statistic.py::RadialBinnedStatistic", "skbeam/core/accumulators/binned_statistic.py::RPhiBinnedStatistic"]}
{"id": "C147", "title": "Savitzky-Golay smoothing reproduces polynomials and their derivatives", "statement": "At every pixel whose window lies in the image, sgolay2d returns the value of any polynomial of total degree at most the order, 'col' and 'row' return its derivatives along the first and second index, 'both' returns (row, col).", "quantifier": "all images that are locally polynomial, all odd windows, all orders below the window size", "why_tests_cant": "all windows, orders and polynomials", "anchors": ["skbeam/core/smoothing.py::sgolay2d"]}
{"id": "C148", "title": "Savitzky-Golay smoothing treats the borders consistently", "statement": "Scaling by a non-negative factor and adding a constant commutes with smoothing at every pixel; the shape is kept; planes are reproduced at every pixel, borders included.", "quantifier": "all images, windows, orders, factors and offsets", "why_tests_cant": "all images and window sizes", "anchors": ["skbeam/core/smoothing.py::sgolay2d"]}
{"id": "C149", "title": "sgolay2d rejects arguments it cannot serve", "statement": "Even windows, windows of one pixel, and orders that are too high for the window as documented raise ValueError; an unknown derivative is an error.", "quantifier": "all windows, orders and images", "why_tests_cant": "all combinations", "anchors": ["skbeam/core/smoothing.py::sgolay2d"]}
{"id": "C150", "title": "compton_amplitude is the area of the Compton peak", "statement": "The area of the Compton profile over the energy axis equals compton_amplitude when there is no step; with a step the profile levels off at amplitude times the step's share divided by the Compton energy.", "quantifier": "all real parameters", "why_tests_cant": "improper integrals and limits with real parameters", "anchors": ["skbeam/core/fitting/lineshapes.py::compton"]}
{"id": "C151", "title": "statistics_1D applies the statistic to exactly the samples of each bin", "statement": "The edges are equally spaced from the lower to the upper limit (smallest and largest x by default) and each value is the statistic of the y whose x lies in the bin, the last bin including the upper limit; samples outside the limits are ignored; impossible requests raise.", "quantifier": "all samples, statistics, numbers of bins and limits", "why_tests_cant": "all sample values and statistics", "anchors": ["skbeam/core/stats.py::statistics_1D"]}
{"id": "C152", "title": "The edges and centers of a Histogram describe its cells", "statement": "edges gives nbin + 1 equally spaced values from low to high per dimension, centers the mid-points; fill adds to a cell exactly the weight of the samples between the reported edges of that cell.", "quantifier": "all histograms of any dimension, all samples and weights", "why_tests_cant": "all dimensions, bin numbers and samples", "anchors": ["skbeam/core/accumulators/histogram.pyx::Histogram.edges", "skbeam/core/accumulators/histogram.pyx::Histogram.centers", "skbeam/core/accumulators/histogram.pyx::Histogram.fill"]}
{"id": "C153", "title": "normalize_bin_edges divides the counts by the expected count of each integration time", "statement": "For integration time i and region j the edges are 0, 1, 2, ... below max_cts*2^i divided by mean_j*2^i, the centres their mid-points, so that a count falls into the same bin before and after normalisation.", "quantifier": "all numbers of times, regions, means and maximal counts", "why_tests_cant": "all means and counts", "anchors": ["skbeam/core/speckle.py::normalize_bin_edges"]}
{"id": "C154", "title": "lines labels the pixels of each line and nothing else", "statement": "A pixel gets the number of the last line through it and 0 if there is none; parts of lines outside the image are cut off; entries that are not four numbers raise ValueError.", "quantifier": "all lists of lines and image shapes", "why_tests_cant": "all end points and shapes", "anchors": ["skbeam/core/roi.py::lines"]}
{"id": "C155", "title": "The error lists of cdi_recon measure the iterates", "statement": "diff_error and obj_error have one entry per iteration: the relative distance of the Fourier moduli of the object after the iteration from the pattern, and the relative change of the object in it; the former is 0 exactly if the moduli are the pattern.", "quantifier": "all patterns, start objects, supports, numbers of iterations and parameters", "why_tests_cant": "all iteration histories", "anchors": ["skbeam/core/cdi.py::cal_diff_error", "skbeam/core/cdi.py::cdi_recon"]}
{"id": "C156", "title": "generate_random_phase_field gives an object with the given diffraction pattern", "statement": "Whatever phases are drawn, the returned object has exactly the given non-negative pattern as Fourier moduli, so that a reconstruction started from it starts with error 0.", "quantifier": "all patterns and phases", "why_tests_cant": "all random draws", "anchors": ["skbeam/core/cdi.py::generate_random_phase_field", "skbeam/core/cdi.py::cal_diff_error", "skbeam/core/cdi.py::cdi_recon"]}
{"id": "C157", "title": "Reading an AmiraMesh file separates header and data", "statement": "The header is everything up to and including the line '# Data section follows', the data everything after the line that follows it; a file without that line is reported instead of being read forever.", "quantifier": "all file contents", "why_tests_cant": "all texts, truncated files", "anchors": ["skbeam/io/avizo_io.py::_read_amira", "skbeam/io/avizo_io.py::load_amiramesh"]}
{"id": "C158", "title": "load_amiramesh returns the stored volume", "statement": "Every readable AmiraMesh file is loaded: the volume has the shape (z, y, x) of the header and the values of the file in order.", "quantifier": "all file contents and data types", "why_tests_cant": "all files", "anchors": ["skbeam/io/avizo_io.py::load_amiramesh", "skbeam/io/avizo_io.py::_amira_data_to_numpy", "skbeam/io/avizo_io.py::_clean_amira_header"]}
{"id": "C159", "title": "The metadata of an AmiraMesh file are those of its header", "statement": "From the documented header the dictionary gets format, dimensions, type, bounding box, units and the voxel sizes (extent over number of steps, one number when they agree within a per cent).", "quantifier": "all headers of the documented layout, all numbers and names, other lines in between", "why_tests_cant": "all headers", "anchors": ["skbeam/io/avizo_io.py::_create_md_dict"]}
{"id": "C160", "title": "Fit2D masks survive writing and reading", "statement": "A mask saved with fit2d_save is returned unchanged by read_fit2d_msk from the documented path; other files are untouched; missing directories and files raise.", "quantifier": "all masks, names, directories and file systems", "why_tests_cant": "all masks and file-system states", "anchors": ["skbeam/io/fit2d.py::fit2d_save", "skbeam/io/fit2d.py::read_fit2d_msk"]}
{"id": "C161", "title": "A column of the linear model is the sum of the peaks of its shell", "statement": "The column construct_linear_model returns for an element's K, L or M lines is the sum, over the excited lines of that shell, of Gaussian peaks at the line energies with their branching ratios, one common area and the energy calibration and detector resolution of the parameter dict; the area returned with it is that common area.", "quantifier": "all parameter dicts with valid bound types, lists of elemental lines, channels and line tables", "why_tests_cant": "all dicts, elements and channels", "anchors": ["skbeam/core/fitting/xrf_model.py::construct_linear_model", "skbeam/core/fitting/xrf_model.py::ParamController", "skbeam/core/fitting/xrf_model.py::ModelSpectrum.setup_element_model"]}
{"id": "C162", "title": "An adjustment of one emission line moves that line only", "statement": "Setting the position adjustment of one line in the parameter dict shifts the peak of that line by the value given and leaves the other peaks of the spectrum unchanged.", "quantifier": "all parameter dicts, elements and lines", "why_tests_cant": "all dicts and elements", "anchors": ["skbeam/core/fitting/xrf_model.py::ModelSpectrum.setup_element_model"]}
{"id": "C163", "title": "The areas of the linear fit belong to its components", "statement": "The area reported for a component is the area of its main peak; linear_spectrum_fitting reports coefficient times column and coefficient times area for every component with non-zero counts and drops the others from both results.", "quantifier": "all parameter dicts, component names and fit coefficients", "why_tests_cant": "all dicts, names and coefficients", "anchors": ["skbeam/core/fitting/xrf_model.py::construct_linear_model", "skbeam/core/fitting/xrf_model.py::linear_spectrum_fitting"]}
{"id": "C164", "title": "Components of the linear model come in the documented order", "statement": "construct_linear_model returns the excited elemental lines in the order given, then compton, then elastic, with the values of the Compton and elastic line shapes at the parameters of the dict; a name that is neither a line, a user peak nor a pile-up is refused.", "quantifier": "all parameter dicts and lists of names", "why_tests_cant": "all lists", "anchors": ["skbeam/core/fitting/xrf_model.py::construct_linear_model", "skbeam/core/fitting/xrf_model.py::ModelSpectrum.setup_compton_model", "skbeam/core/fitting/xrf_model.py::ModelSpectrum.setup_elastic_model"]}
{"id": "C165", "title": "All peaks of an assembled spectrum share calibration and resolution", "statement": "In the model ModelSpectrum assembles, in every state of a fit, all element, user and elastic peaks use the one global energy calibration and resolution, and the elastic peak the common incident energy.", "quantifier": "all parameter dicts, element lists and parameter values that respect the constraints handed to the fitter", "why_tests_cant": "all states of all fits", "anchors": ["skbeam/core/fitting/xrf_model.py::ModelSpectrum.assemble_models", "skbeam/core/fitting/xrf_model.py::_copy_model_param_hints_EXPR"]}
{"id": "C166", "title": "Line names are resolved to line energies", "statement": "get_line_energy returns the energy of the named line in any capitalization, with abbreviated names completed as documented, and refuses malformed names; a pile-up component is a peak at the sum of the energies of its two lines.", "quantifier": "all elements, line names and parameter dicts", "why_tests_cant": "all names", "anchors": ["skbeam/core/fitting/xrf_model.py::get_line_energy", "skbeam/core/fitting/xrf_model.py::ModelSpectrum.setup_element_model"]}
{"id": "C167", "title": "Escape peaks and strategies are those of the parameter dict", "statement": "compute_escape_peak returns one energy and one intensity per channel, the calibrated energies lowered by the escape energy and the counts times the ratio; extract_strategy returns one setting per fit parameter in order; missing keys raise KeyError.", "quantifier": "all spectra, ratios, escape energies, parameter dicts and strategy names", "why_tests_cant": "all spectra and dicts", "anchors": ["skbeam/core/fitting/xrf_model.py::compute_escape_peak", "skbeam/core/fitting/xrf_model.py::extract_strategy"]}
{"id": "C168", "title": "The fit gets the bounds the parameter dict asks for", "statement": "Every parameter of the assembled model is fixed, free or limited as the bound type of its entry says, starting from the entry's value; an unknown bound type is refused.", "quantifier": "all parameter dicts, names and element lists", "why_tests_cant": "all dicts", "anchors": ["skbeam/core/fitting/xrf_model.py::_set_parameter_hint", "skbeam/core/fitting/xrf_model.py::ModelSpectrum.assemble_models"]}
{"id": "C169", "title": "A fit result is written back to the entries it belongs to", "statement": "update_parameter_dict gives every entry of the parameter dict the fitted value of its parameter (the elastic amplitude and energy under the prefix of the elastic peak, pile-up entries with '-' as '_'), leaves entries that were not fitted, and keeps keys, order, bound types and limits; the common incident energy written back is the one all peaks were fitted with.", "quantifier": "all parameter dicts, fit results and element lists", "why_tests_cant": "all dicts and results", "anchors": ["skbeam/core/fitting/xrf_model.py::update_parameter_dict"]}
{"id": "C170", "title": "voigt is the convolution of a Gaussian and a Lorentzian, with the given area", "statement": "For positive widths, voigt(x, area, center, sigma, gamma) is the convolution of the unit-area Gaussian of standard deviation sigma with the Lorentzian of half width gamma, area and center; its integral over all x is area, with gamma defaulting to sigma; it is symmetric about center and non-negative for non-negative area, and equals the Gaussian for gamma = 0.", "quantifier": "all positions, areas, centers and positive widths", "why_tests_cant": "a statement about all of the real line", "anchors": ["skbeam/core/fitting/lineshapes.py::voigt"]}
{"id": "C171", "title": "The shipped fit parameters and strategies work together", "statement": "Every entry of default_param has a known bound type and a value within its limits, and every shipped strategy names exactly its parameters. A controller built from the defaults and any elemental lines of the tables accepts every shipped strategy without an exception: values stay within limits, default parameters keep value and limits and get the strategy's bound type, element parameters are fixed. With the element areas freed, the strategy 'linear' leaves free exactly the two scattering amplitudes and the element areas.", "quantifier": "all lists of elemental lines of the tables, all shipped strategies, all cross sections", "why_tests_cant": "all combinations of elements and strategies", "anchors": ["skbeam/core/fitting/base/parameter_data.py::default_param", "skbeam/core/fitting/xrf_model.py::ParamController"]}
{"id": "C172", "title": "Parameter dicts are handed out as copies, and set_default follows their bound types", "statement": "get_para returns a fresh dict, so changing it does not affect later callers. set_default gives every argument of the model function after the first that has an entry the hint its bound type asks for, leaves all other hints alone, and raises TypeError exactly when such an entry has an unknown bound type.", "quantifier": "all parameter dicts, argument lists and previous hints", "why_tests_cant": "a property of all later calls and all dicts", "anchors": ["skbeam/core/fitting/base/parameter_data.py::get_para", "skbeam/core/fitting/models.py::set_default"]}
{"id": "C173", "title": "The model of g2 is the Siegert relation and its parameters can be recovered", "statement": "auto_corr_scat_factor(lags, beta, rate, baseline) is beta |g1|^2 + baseline with g1 = exp(-rate lag). For positive beta and rate it starts at beta + baseline, decreases strictly, stays above the baseline and tends to it, and two parameter sets with the same curve are the same.", "quantifier": "all lags, contrasts, rates and baselines", "why_tests_cant": "a statement about whole curves and limits", "anchors": ["skbeam/core/correlation.py::auto_corr_scat_factor"]}
{"id": "C174", "title": "A netCDF volume is loaded with its scale factor applied", "statement": "load_netCDF returns the metadata of the file and the values of VOLUME divided by its scale factor (1 if none was recorded). The entry voxel_size is added exactly for volumes of more than one slice with equal x and y pixel size and z pixel size 0, and holds that size.", "quantifier": "all volumes, scale factors and metadata", "why_tests_cant": "all files", "anchors": ["skbeam/io/net_cdf_io.py::load_netCDF"]}
{"id": "C175", "title": "auto_find_center_rings reports the fits it made", "statement": "The centre is that of the first circle fit cut to integers, the radii are those of no_rings fits in order, each fit sees only the edge points no earlier fit claimed, and the image marks every pixel with the number of the last ring through it, rings being drawn around the first centre, so the ring pixels can be read off the image.", "quantifier": "all images, edge points, results of the circle fits and numbers of rings", "why_tests_cant": "the circle fits are random", "anchors": ["skbeam/core/roi.py::auto_find_center_rings"]}
{"id": "C176", "title": "The error of the one-time curve is the standard error of its mean", "statement": "one_time_from_two_time with calc_errors=True returns the same curves as without, and for every ROI and time distance the standard error (standard deviation over the square root of the number of values) of the mean reported there, by the central limit theorem as documented; NaN entries of the two-time matrix are left out of both.", "quantifier": "all two-time matrices with and without NaN entries, all time distances", "why_tests_cant": "all matrices", "anchors": ["skbeam/core/correlation.py::one_time_from_two_time"]}
{"id": "C177", "title": "find_support keeps the pixels whose smoothed magnitude reaches the threshold", "statement": "A pixel is kept exactly if the Gaussian-weighted mean of the magnitudes around it (edges continued by mirroring) is at least threshold times the largest such mean. The support is non-empty for thresholds up to 1, shrinks as the threshold grows, keeps all pixels for thresholds up to 0 and none above 1 unless the object vanishes, does not depend on phases or overall scale, and keeps all pixels of an object of uniform magnitude. A reconstruction that shrinks its support this way never ends with an empty one.", "quantifier": "all objects, widths, thresholds and numbers of iterations", "why_tests_cant": "all objects and all histories of a reconstruction", "anchors": ["skbeam/core/cdi.py::find_support", "skbeam/core/cdi.py::cdi_recon"]}
{"id": "C178", "title": "The physical quantities of an element are those of that element at the energy asked for", "statement": "The attributes of XrfElement and the cross-section objects it hands out give, for a line or shell named in any letter case, the number xraylib has for that element, and cross sections at the incident energy last assigned to that very object, whatever other objects were made or changed meanwhile. Every wrapper that can be constructed can be read for all its names.", "quantifier": "all elements, line and shell names, energies and sessions of constructions and assignments", "why_tests_cant": "all histories of object creation and mutation", "anchors": ["skbeam/core/constants/xrf.py::XrfElement", "skbeam/core/constants/xrf.py::XrayLibWrap_Energy", "skbeam/core/constants/xrf.py::XrayLibWrap"]}
{"id": "C179", "title": "The text form of an RCParamDict depends only on its contents", "statement": "repr lists the plain values of a level by ascending key, then its groups by ascending key, each a header followed by its own lines four spaces further in, with no key left out or repeated; two dictionaries that answer every key alike print alike, whatever history of assignments, deletions and reads produced them.", "quantifier": "all pairs of histories and all ways to print a value", "why_tests_cant": "all histories", "anchors": ["skbeam/core/utils.py::RCParamDict.__repr__", "skbeam/core/utils.py::RCParamDict._repr_helper"]}
{"id": "C180", "title": "Correlation curves depend neither on the intensity unit nor on pixels outside the regions", "statement": "Multiplying all images by the same non-zero number changes neither the one-time nor the two-time correlation, and neither do the values (NaN included) of pixels that belong to no region.", "quantifier": "all label images, image streams with and without NaN, factors, numbers of levels and buffers", "why_tests_cant": "all streams", "anchors": ["skbeam/core/correlation.py::multi_tau_auto_corr", "skbeam/core/correlation.py::two_time_corr"]}
{"id": "C181", "title": "The correlation of a region does not depend on the other regions", "statement": "Two label images that share a region (under whatever number) give the same correlation for it, however the other regions are drawn and numbered and whatever the images contain there.", "quantifier": "all pairs of label images sharing a region, all image streams", "why_tests_cant": "all streams", "anchors": ["skbeam/core/correlation.py::multi_tau_auto_corr", "skbeam/core/correlation.py::two_time_corr"]}
{"id": "C182", "title": "The two routes to a one-time curve agree for a steady signal", "statement": "If the mean intensity of a region is the same non-zero number in every frame and no pixel is NaN, multi_tau_auto_corr and one_time_from_two_time of two_time_corr report the same number for the region at every lag below num_bufs.", "quantifier": "all label images, regions, streams of steady mean intensity, numbers of levels and buffers", "why_tests_cant": "all streams", "anchors": ["skbeam/core/correlation.py::multi_tau_auto_corr", "skbeam/core/correlation.py::two_time_corr", "skbeam/core/correlation.py::one_time_from_two_time"]}
{"id": "C183", "title": "Normalised cross-correlations are unit-free mean products", "statement": "With 'regular' the value at a displacement is the mean product of the two images over the pixel pairs of the region with that displacement, divided by the product of their means over the region; with 'symavg' it is divided by the product of the means over the two members of those pairs; NaN where there is no pair or a divisor vanishes. Exchanging the images inverts the displacement, so a self-correlation is symmetric about its centre. Whichever normalisations are asked for, multiplying an image by a non-zero number changes nothing.", "quantifier": "all masks, regions, images, displacements and normalisations", "why_tests_cant": "all images", "anchors": ["skbeam/core/correlation.py::CrossCorrelator.__call__"]}
{"id": "C184", "title": "A binary mask given as integers removes the pixels marked 0", "statement": "grid3d with a binary_mask of zeros and ones of the stack's shape grids exactly the pixels marked 1, whether the mask is boolean or integer.", "quantifier": "all stacks and all 0/1 masks", "why_tests_cant": "all masks", "anchors": ["skbeam/core/utils.py::grid3d"]}
{"id": "C185", "title": "A binned-statistic object can be called again and again, and each call means what it says", "statement": "Earlier calls and assignments of the statistic, successful or not, have no effect on a call except that the default statistic is the one assigned last. A call with one of the five names or a callable gives in every bin that statistic of the values of the samples in the bin (the median being the middle value). A statistic that is neither is refused, and values that are not as many as the samples are refused. bin_centers are the midpoints of bin_edges.", "quantifier": "all objects, histories of calls and assignments, values, statistics and contents of uninitialised memory", "why_tests_cant": "all histories", "anchors": ["skbeam/core/accumulators/binned_statistic.py::BinnedStatisticDD.__call__", "skbeam/core/accumulators/binned_statistic.py::BinnedStatisticDD.statistic", "skbeam/core/accumulators/binned_statistic.py::BinnedStatistic1D.bin_centers"]}
{"id": "C186", "title": "estimate_d_blind measures the distance from the profile of a powder pattern", "statement": "The samples taken for peaks are exactly the interior strict maxima within window_size whose window spans more than thresh times the largest intensity. If around each peak that is used the profile is a Gaussian centred on the ring that Bragg's law gives for the corresponding reflection at distance D, the result is (D, 0), whatever the rest of the profile. The unit of the intensities does not matter and the distance comes out in the unit of the radii. An unknown standard raises KeyError, a profile without a peak ValueError.", "quantifier": "all profiles, standards, wavelengths, distances, windows, thresholds and peak limits", "why_tests_cant": "all profiles", "anchors": ["skbeam/core/calibration.py::estimate_d_blind", "skbeam/core/feature.py::filter_peak_height", "skbeam/core/feature.py::peak_refinement"]}
{"id": "C187", "title": "refine_center looks at every pixel once and reports a centre", "statement": "The azimuthal regions, phi_steps in number, contain every pixel of the image exactly once, so that with radial limits the profiles together hold the intensity of every pixel between the limits once. Every ring radius used lies within half a bin of the distance of some pixel of its region from the centre, and max_peaks keeps the innermost rings. Neither the unit of the intensities nor the unit of length matters. A region without a ring raises an exception, otherwise the result is a pair of numbers.", "quantifier": "all images, centres, pixel sizes, numbers of regions, limits and thresholds", "why_tests_cant": "all images", "anchors": ["skbeam/core/calibration.py::refine_center", "skbeam/core/utils.py::bin_1D"]}
{"id": "C188", "title": "The photon-count distributions agree with each other and encode the contrast", "statement": "For mean K and M modes, the negative binomial distribution has pair expectation <k(k-1)> = K^2 (1 + 1/M), the gamma distribution has mean K and second moment K^2 (1 + 1/M), and the Poisson distribution has <k(k-1)> = K^2: the contrast is 1/M, 1/M and 0. Poisson counting of gamma-distributed intensities gives exactly the negative binomial distribution, and with the number of modes growing the negative binomial probabilities tend to the Poisson ones.", "quantifier": "all means K > 0, all numbers of modes M > 0 (not only whole ones) and all counts k", "why_tests_cant": "a limit, infinite sums and integrals over all intensities", "anchors": ["skbeam/core/fitting/lineshapes.py::nbinom_dist", "skbeam/core/fitting/lineshapes.py::gamma_dist", "skbeam/core/fitting/lineshapes.py::poisson_dist"]}
{"id": "C189", "title": "What the SNIP background is: windows, passes and units", "statement": "Every pass of snip_method replaces the double logarithm of the smoothed spectrum, channel by channel, by the smaller of itself and the mean of its values at the two ends of the channel's window (moved inside the spectrum). There are iter_num passes with the full windows and then passes with the windows divided by decrease_factor each time, until all are below the threshold. Windows are width times the detector resolution at the energy of the channel, also for a binned spectrum. The unit of energy of the calibration does not matter, with width 0 the background is the smoothed spectrum, and the defaults are 3 samples and 3 passes, 5 and 5 with binning.", "quantifier": "all spectra, calibrations, widths, decrease factors above one, positive thresholds and binnings", "why_tests_cant": "real-valued parameters and an unbounded number of passes", "anchors": ["skbeam/core/fitting/background.py::snip_method"]}
{"id": "C190", "title": "Correlation values obey the inequalities of the averages they stand for", "statement": "At lag 0 multi_tau_auto_corr reports, for every region, 1 plus the variance of the region's pixel values divided by the square of their mean, over all frames without NaN; it is therefore at least 1, and 1 only if all these values are equal. With no negative intensities no entry is negative at any lag. The entries of a two-time matrix for frames less than num_bufs apart, minus 1, form a covariance matrix: diagonal entries are at least 1 and (g_ab - 1)^2 <= (g_aa - 1)(g_bb - 1).", "quantifier": "all label images, image streams (with NaN), numbers of levels and buffers", "why_tests_cant": "all streams; inequalities between infinitely many values", "anchors": ["skbeam/core/correlation.py::multi_tau_auto_corr", "skbeam/core/correlation.py::two_time_corr"]}
{"id": "C191", "title": "Correlations do not know the direction of time", "statement": "If the number of images is a multiple of 2^(num_levels - 1), playing the images backwards gives the same one-time correlation at every lag both results contain, and the two-time matrix read backwards. With another number of images the coarse levels group the images differently and the curves can differ.", "quantifier": "all label images, image streams (with NaN), numbers of levels and buffers", "why_tests_cant": "all streams", "anchors": ["skbeam/core/correlation.py::multi_tau_auto_corr", "skbeam/core/correlation.py::two_time_corr"]}
{"id": "C192", "title": "Cross-correlation values obey the inequalities of correlations", "statement": "Without normalisation no entry exceeds in size the geometric mean of the central entries of the two self-correlations, a self-correlation is largest in the centre of its array, and the entries add up to the product of the two total intensities of the region. With either normalisation the central entry of a self-correlation is the mean square over the squared mean, hence at least 1.", "quantifier": "all regions, images and displacements", "why_tests_cant": "all images", "anchors": ["skbeam/core/correlation.py::CrossCorrelator.__call__"]}
{"id": "C193", "title": "The constraints of the reconstruction are imposed with the smallest possible change", "statement": "pi_modulus moves an object to the nearest object with the measured modulus, up to the guard offset times the root of the number of pixels; with offset 0 doing it twice is doing it once, and if the pattern is positive everywhere the result holds at most the measured intensity. Setting the pixels outside the support to zero is the nearest object vanishing there.", "quantifier": "all objects, patterns, supports, sizes and non-negative offsets", "why_tests_cant": "a comparison with all objects that meet the constraint", "anchors": ["skbeam/core/cdi.py::pi_modulus", "skbeam/core/cdi.py::cdi_recon"]}
{"id": "C194", "title": "center and sigma of the peak functions mean what the documentation says", "statement": "Every peak function (gaussian, lorentzian, lorentzian2, voigt, pvoigt) with positive area is symmetric about center, has its maximum there and falls off strictly with the distance from it; sigma is its standard deviation. gausssian_step falls strictly from area / peak_e to 0 and has half its height at center.", "quantifier": "all parameters with positive area and widths, all x", "why_tests_cant": "integrals over the whole axis and comparisons of all pairs of points", "anchors": ["skbeam/core/fitting/lineshapes.py::gaussian", "skbeam/core/fitting/lineshapes.py::lorentzian", "skbeam/core/fitting/lineshapes.py::lorentzian2", "skbeam/core/fitting/lineshapes.py::voigt", "skbeam/core/fitting/lineshapes.py::pvoigt", "skbeam/core/fitting/lineshapes.py::gausssian_step"]}
{"id": "C195", "title": "Generators run side by side do not disturb each other, and a yielded state can be kept", "statement": "Any number of lazy_one_time, lazy_two_time or lazy_dpc generators can be advanced in any order: each gives for its images what it would give alone. A state that was yielded can be kept and handed back later; the new generator continues from the moment the state was yielded, whatever has been done with the old one in between.", "quantifier": "all numbers of generators, all interleavings of starting, resuming and advancing them, all images", "why_tests_cant": "all schedules", "anchors": ["skbeam/core/correlation.py::lazy_one_time", "skbeam/core/correlation.py::lazy_two_time", "skbeam/core/dpc.py::lazy_dpc"]}
{"id": "C196", "title": "An image that does not fit is refused and can be dropped", "statement": "lazy_one_time raises IndexError for an image that does not have the shape of the label array. What has been reported so far stays valid, and after dropping the image the correlation can be continued with the last yielded state as if the image had not been there.", "quantifier": "all states, label arrays and images", "why_tests_cant": "a crash in the middle of any history", "anchors": ["skbeam/core/correlation.py::lazy_one_time"]}
{"id": "C197", "title": "The DPC fit identifies a displaced beam", "statement": "If a frame is the reference frame dimmed by a non-zero factor and moved cyclically by (dy, dx) pixels, and the reference has intensity and is not featureless, then the cost functions of lazy_dpc have their global minima exactly at transmission a and at the gradients 2 pi dx / columns and 2 pi dy / rows up to multiples of 2 pi. With a solver that finds global minima, dpc_runner returns the map of transmissions as amplitude image. For a dark frame or a featureless reference every gradient has the same cost.", "quantifier": "all reference frames, frames, transmissions, displacements and scan sizes, all solvers that find global minima", "why_tests_cant": "the minimum is over all real parameters", "anchors": ["skbeam/core/dpc.py::_rss_factory", "skbeam/core/dpc.py::dpc_fit", "skbeam/core/dpc.py::lazy_dpc", "skbeam/core/dpc.py::dpc_runner"]}
{"id": "C198", "title": "The reconstructed phase is the best fit to inconsistent gradients", "statement": "For any measured gradients, whether or not they are the gradients of a phase, and any weighting in [0, 1], no phase fits them better than the one returned by recon (without padding): the sum over the scan of (1 - weighting) times the squared deviation of the x slope and weighting times that of the y slope is smallest. For a weighting strictly between 0 and 1 it is the only best phase up to an additive constant.", "quantifier": "all gradient arrays, all scan sizes even or odd, all steps and weightings, all competing phases", "why_tests_cant": "the competitors form an infinite set", "anchors": ["skbeam/core/dpc.py::recon"]}
{"id": "C199", "title": "A reconstruction that has stopped changing has found a solution", "statement": "If an iteration of cdi_recon does not change the object any more (obj_error is zero), an object has been found that vanishes outside the support and has the measured modulus, and it is the object that is returned.", "quantifier": "all patterns, supports, objects, feedback parameters, both modes", "why_tests_cant": "a fixed point is a statement about a whole infinite continuation", "anchors": ["skbeam/core/cdi.py::cdi_recon", "skbeam/core/cdi.py::pi_modulus"]}
{"id": "C200", "title": "The four binning tools agree", "statement": "On the same equal bins, Histogram, bin_1D, BinnedStatistic and grid3d report the same edges and the same totals for the same data.", "quantifier": "all samples and weights, limits, numbers of bins, strides of the coordinate array; for grid3d all grids, data sets, numbers of threads and schedules", "why_tests_cant": "agreement must hold for every data set, including samples on edges", "anchors": ["skbeam/core/accumulators/histogram.pyx::Histogram", "skbeam/core/utils.py::bin_1D", "skbeam/core/accumulators/binned_statistic.py::BinnedStatistic1D", "src/ctrans.c::ctrans_grid3d"]}
{"id": "C201", "title": "A coarse bin is the sum of the fine bins it is made of", "statement": "Dividing every axis into a whole multiple of bins only splits the contents: every value of the coarse binning by bin_1D, Histogram (any number of dimensions) or grid3d is the total of the fine ones, so rebinning afterwards equals binning coarsely.", "quantifier": "all samples, weights, limits, bin numbers, refinement factors per axis, dimensions; for grid3d all thread numbers and schedules of both runs", "why_tests_cant": "every sample position counts, in particular those on edges", "anchors": ["skbeam/core/utils.py::bin_1D", "skbeam/core/accumulators/histogram.pyx::Histogram.fill", "src/ctrans.c::ctrans_grid3d"]}
{"id": "C202", "title": "grid3d in floating point is accurate and reproducible", "statement": "With rounding arithmetic, whatever the number of threads and the order in which the points are handled: the occupancies are exact integers, the sums differ from the exact sum of the voxel's values by at most ((1+u)^(n+T) - 1) times the sum of their magnitudes (n values, T threads, u the unit roundoff), points that are not within a few rounding errors of a voxel boundary are counted in their own voxel, and two runs on the same data give the same result.", "quantifier": "all rounding functions with unit roundoff u (double precision among them), grids, data sets, thread numbers and schedules", "why_tests_cant": "every order of additions and every rounding pattern", "anchors": ["src/ctrans.c::ctrans_grid3d", "skbeam/core/utils.py::grid3d"]}
{"id": "C203", "title": "Histogram in floating point counts every sample in its bin", "statement": "With rounding arithmetic of unit roundoff u, a call of fill with samples that keep more than 5 u n bins away from the inner and upper bin boundaries (n bins) succeeds and adds to each bin, one after the other, the weights of exactly the samples lying in it; the content is exact for whole-number weights adding up to at most 2^53 in size and otherwise accurate to one rounding of the sum of the absolute values per sample; cutting the samples into several calls changes nothing, and neither does their order. Any sample in range is counted in its own bin or in a neighbouring one.", "quantifier": "all rounding functions with u <= 1/100, histograms of any number of dimensions, array types, samples and weights", "why_tests_cant": "every rounding pattern of three operations per sample and axis", "anchors": ["skbeam/core/accumulators/histogram.pyx::Histogram.fill", "skbeam/core/accumulators/histogram.pyx::_find_indices"]}
{"id": "C204", "title": "multi_tau_auto_corr in floating point is accurate", "statement": "With rounding arithmetic of unit roundoff u, the mean products and mean intensities accumulated by lazy_one_time differ from the exact means over all pairs by at most eps times the (squared) largest intensity, eps being about (8 levels + 2 pixels + images + 10) u. If the mean intensities of all regions are at least the fraction rho of the largest intensity and eps <= rho/8, multi_tau_auto_corr reports the row and its entries differ from the exact g2 by at most 2 eps/rho^2 + 4 g2 eps/rho. The running mean does not accumulate errors faster than that, for any number of images.", "quantifier": "all rounding functions with unit roundoff u (double precision among them), label images, image streams (with NaN, values of any sign), numbers of levels, buffers and images", "why_tests_cant": "every rounding pattern over an unbounded stream", "anchors": ["skbeam/core/correlation.py::_one_time_process", "skbeam/core/correlation.py::lazy_one_time", "skbeam/core/correlation.py::multi_tau_auto_corr"]}
{"id": "C205", "title": "Correlations of a stream with frames marked as bad", "statement": "Feeding the frames that come out of bad_to_nan_gen to the correlators: every entry of the table of multi_tau_auto_corr is the mean product over exactly the pairs of frame groups that contain no listed frame, divided by the mean intensities of the same pairs; an entry of the two-time matrix is NaN exactly if one of the two frames is listed (or the normalisation vanishes) and the normalised product of the two frames otherwise. What the listed frames contain is irrelevant, and every lag with at least one pair of good frames is reported.", "quantifier": "all image streams, lists of bad frames, label images, numbers of levels and buffers, stream lengths", "why_tests_cant": "every choice of bad frames interacts with every group of frames on every level", "anchors": ["skbeam/core/mask.py::bad_to_nan_gen", "skbeam/core/correlation.py::multi_tau_auto_corr", "skbeam/core/correlation.py::two_time_corr", "skbeam/core/correlation.py::_one_time_process"]}
{"id": "C206", "title": "Laws of circular averages", "statement": "circular_average depends only on which intensities occur at which distance from the centre: turning the image upside down about its middle or by a quarter turn (with its mask) gives the same result. It is linear in the image, every value lies between the smallest and largest used intensity of its bin, and an image that rises with the distance from the centre has a rising average.", "quantifier": "all images, masks, centres, numbers of bins, limits and thresholds", "why_tests_cant": "every rearrangement of every image", "anchors": ["skbeam/core/roi.py::circular_average", "skbeam/core/utils.py::bin_1D"]}
{"id": "C207", "title": "The two routes to the length of q agree", "statement": "For a detector at zero angles, perpendicular to the beam, hkl_to_q(process_to_q(...)) of a pixel equals twotheta_to_q(radius_to_twotheta(dist, radial_grid(...)), wavelength) of the same pixel.", "quantifier": "all detectors (sizes, pixel sizes, centres, distances), wavelengths, sample angles, UB matrices, frames other than hkl, thread schedules and pixels", "why_tests_cant": "every pixel of every detector", "anchors": ["skbeam/core/recip.py::process_to_q", "skbeam/core/recip.py::hkl_to_q", "skbeam/core/utils.py::twotheta_to_q", "skbeam/core/utils.py::radius_to_twotheta", "skbeam/core/utils.py::radial_grid", "src/ctrans.c::calcDeltaGamma"]}
{"id": "C208", "title": "integrate_ROI is exact for quadratic signals and additive", "statement": "The integral reported by integrate_ROI for a signal that is a quadratic polynomial of x is the exact integral over the given regions, whatever the spacing of the samples. Cutting a region into two at a sample does not change the result.", "quantifier": "all ascending sample positions with any spacing, all quadratic polynomials, all lists of regions; for the cut all signals", "why_tests_cant": "every spacing and polynomial", "anchors": ["skbeam/core/spectroscopy.py::integrate_ROI"]}
{"id": "C209", "title": "xsvs in floating point is accurate and free of NaN", "statement": "For images of photon counts, xsvs computed with rounding arithmetic of unit roundoff u that represents the occurring counts exactly returns probabilities that differ from the exact ones by at most (6 (K + S) + 4) u, K being the largest number of images in a set and S the number of sets. The standard deviations it returns are numbers.", "quantifier": "all rounding functions (double precision among them), labels, numbers of levels and buffers, images with and without NaN, set sizes", "why_tests_cant": "every rounding pattern over an unbounded stream", "anchors": ["skbeam/core/speckle.py::xsvs", "skbeam/core/speckle.py::_process"]}
{"id": "C210", "title": "BinnedStatistic in floating point is accurate and free of NaN", "statement": "With rounding arithmetic of unit roundoff u, the sums and means returned by BinnedStatistic for a cell of n values differ from the exact ones by at most ((1+u)^n - 1) times the sum, and ((1+u)^(n+1) - 1) times the mean, of the magnitudes of the cell's values; the mean is NaN for empty cells only. The standard deviation is a number, and its square is accurate to ((1+u)^(2n+4) - 1) times twice the mean square.", "quantifier": "all rounding functions with unit roundoff u (double precision among them), numbers of dimensions, edges, samples and values", "why_tests_cant": "every rounding pattern and every assignment of samples to cells", "anchors": ["skbeam/core/accumulators/binned_statistic.py::BinnedStatisticDD.__call__"]}
{"id": "C211", "title": "bin_edges in floating point", "statement": "bin_edges(range_min, range_max, step=...) computed with rounding arithmetic: the edges begin at range_min, ascend strictly, do not exceed range_max, are accurate, and leave less than a step (plus rounding errors) to range_max. As many bins are made as steps fit into the range.", "quantifier": "all rounding functions with unit roundoff u (double precision among them), all limits and steps", "why_tests_cant": "every rounding pattern", "anchors": ["skbeam/core/utils.py::bin_edges"]}
{"id": "C212", "title": "The region-of-interest tools fit together", "statement": "The table returned by ring_edges for widths and spacings that are not negative is accepted by rings, and n equal rings of width w and spacing s are the pixels with inner + k (w+s) <= radius < inner + k (w+s) + w. segmented_rings refines rings: the label of the ring is the label of the segment divided by the number of segments, rounded up. box labels the intersections of the bars drawn by bar. rings followed by mean_intensity gives the mean of every frame over the pixels of each ring (NaN for a ring without pixels), a row of kymograph averages to the entry of mean_intensity, and the mean over a region made of smaller regions is their pixel-weighted mean.", "quantifier": "all centres, shapes, edges, numbers of rings and segments, label images, series of frames and regions", "why_tests_cant": "every image and every set of regions", "anchors": ["skbeam/core/roi.py::ring_edges", "skbeam/core/roi.py::rings", "skbeam/core/roi.py::segmented_rings", "skbeam/core/roi.py::bar", "skbeam/core/roi.py::box", "skbeam/core/roi.py::mean_intensity", "skbeam/core/roi.py::kymograph"]}
{"id": "C213", "title": "Laws of the linear fit", "statement": "nnls_fit takes a spectrum made of its components apart: it returns the coefficients the spectrum was made with, 0 for absent components, and the residual 0. Coefficients and residual follow the units of spectrum, columns and weights. Further components never increase the residual. What the fit leaves over is uncorrelated with every component used, so the (weighted) squares of fitted spectrum and residual add up to those of the spectrum.", "quantifier": "all numbers of channels and components, matrices, spectra and non-negative weights; the first two statements for components that are linearly independent in the channels that count", "why_tests_cant": "a whole cone of spectra and every matrix", "anchors": ["skbeam/core/fitting/xrf_model.py::nnls_fit"]}
{"id": "C214", "title": "bin_edges_to_centers in floating point", "statement": "Computed with correctly rounding arithmetic, every center lies strictly inside its bin, the centers ascend with the edges and each is accurate to one rounding error.", "quantifier": "all correctly rounding arithmetics (double precision among them), all ascending lists of representable edges", "why_tests_cant": "every pair of neighbouring floating-point numbers", "anchors": ["skbeam/core/utils.py::bin_edges_to_centers"]}
{"id": "C215", "title": "ring_edges in floating point", "statement": "Computed with correctly rounding arithmetic, ring_edges returns as many rings as in exact arithmetic, with edges accurate to one rounding error per addition; rings accepts them whatever the roundings; rings with spacing 0 share their edge exactly; the difference of the two edges of a ring is its width.", "quantifier": "all correctly rounding arithmetics (double precision among them), inner radii, widths and spacings that are not negative, centres, shapes", "why_tests_cant": "every rounding pattern of the running sum", "anchors": ["skbeam/core/roi.py::ring_edges", "skbeam/core/roi.py::rings"]}
{"id": "C216", "title": "Conversions between q and d in floating point", "statement": "Computed with correctly rounding arithmetic, q_to_d and d_to_q are accurate to one rounding error, reverse the order, and converting forth and back returns the value.", "quantifier": "all correctly rounding arithmetics (double precision among them), all positive values", "why_tests_cant": "every floating-point number", "anchors": ["skbeam/core/utils.py::q_to_d", "skbeam/core/utils.py::d_to_q"]}
{"id": "C217", "title": "Subtracting reference images of an integer type", "statement": "For images of a NumPy integer type, every image returned by subtract_reference_images is the measured image minus the latest reference image, pixel by pixel.", "quantifier": "all signed and unsigned integer types of any width, lists of images of such a type and reference flags", "why_tests_cant": "every pair of pixel values of the type", "anchors": ["skbeam/core/utils.py::subtract_reference_images"]}
{"id": "C218", "title": "Circular averages of integer images", "statement": "For images of a NumPy integer type, bin_1D returns the sums and counts, and circular_average the means, of the pixels of each bin.", "quantifier": "all signed and unsigned integer types, radii, images, masks, thresholds, numbers of bins and ranges", "why_tests_cant": "sums of every size", "anchors": ["skbeam/core/utils.py::bin_1D", "skbeam/core/roi.py::circular_average"]}
{"id": "C219", "title": "Ring centre of integer images", "statement": "For images of a NumPy integer type, find_ring_center_acorr_1D returns the centre that it returns for the same pixel values as exact numbers.", "quantifier": "all signed and unsigned integer types, image shapes and pixel values", "why_tests_cant": "products and sums of every size", "anchors": ["skbeam/core/image.py::find_ring_center_acorr_1D"]}
{"id": "C220", "title": "Savitzky-Golay filter of integer images", "statement": "For images of a NumPy integer type, sgolay2d returns what it returns for the same pixel values as exact numbers: away from the border and at the border.", "quantifier": "all signed and unsigned integer types, image shapes, pixel values, windows, orders and kinds of derivative", "why_tests_cant": "every pixel value at every border", "anchors": ["skbeam/core/smoothing.py::sgolay2d"]}
{"id": "C221", "title": "Speckle visibility of integer frames", "statement": "For frames of a NumPy integer type, xsvs returns the photon probabilities and standard deviations that it returns for the same counts as exact numbers.", "quantifier": "all signed and unsigned integer types, labels, numbers of levels and buffers, sets of frames (frames marked as bad among them)", "why_tests_cant": "sums of every number of frames", "anchors": ["skbeam/core/speckle.py::xsvs"]}
{"id": "C222", "title": "filter_peak_height on integer data", "statement": "For data of a NumPy integer type, filter_peak_height keeps exactly the candidates whose window has a peak-to-peak height above the threshold.", "quantifier": "all signed and unsigned integer types, data, thresholds that are not negative, windows, candidates", "why_tests_cant": "every pair of sample values", "anchors": ["skbeam/core/feature.py::filter_peak_height"]}
{"id": "C223", "title": "Columns of the correlation of rings", "statement": "When the label image made by rings is given to multi_tau_auto_corr, column k of the table belongs to ring k: in the row of lag i*2^l it contains the normalised correlation over exactly the pixels with inner_k <= radius < outer_k.", "quantifier": "all ascending edges, centres, shapes, numbers of levels and buffers, numbers of frames and pixel values without NaN", "why_tests_cant": "every set of rings and every image, also rings without a pixel", "anchors": ["skbeam/core/roi.py::rings", "skbeam/core/correlation.py::multi_tau_auto_corr"]}
{"id": "C224", "title": "xsvs as it is called", "statement": "Given a label image and sets of images (lists, or generators such as bad_to_nan_gen returns), xsvs returns one row per integration time and one column per label in ascending order; in the first row, entry K of a region is the mean over the images without NaN of the fraction of its pixels with exactly K photons, for every K that occurs; leaving max_cts out is the same as passing the largest count.", "quantifier": "all label images, sets and images of photon counts, NaN anywhere, numbers of images and time bins, with or without max_cts", "why_tests_cant": "every label image and every sequence of images", "anchors": ["skbeam/core/speckle.py::xsvs", "skbeam/core/roi.py::roi_max_counts", "skbeam/core/roi.py::extract_label_indices"]}
{"id": "C225", "title": "Rounding errors of two_time_corr and one_time_from_two_time", "statement": "Computed with correctly rounding arithmetic on images without negative pixels, two_time_corr raises the same exception as in exact arithmetic or returns an exactly symmetric matrix with NaN in the same places, in which every entry has a relative error of at most 4(levels-1) + 3(pixels of the region) + 4 roundings and the cells that are never computed are exactly 0; the one-time correlation computed from it at lag j adds one rounding per averaged entry and one more, however np.nanmean groups its additions.", "quantifier": "all correctly rounding arithmetics (double precision among them), label images, numbers of levels, buffers and frames, images without negative pixels, NaN anywhere", "why_tests_cant": "every rounding pattern of sums of any length", "anchors": ["skbeam/core/correlation.py::two_time_corr", "skbeam/core/correlation.py::lazy_two_time", "skbeam/core/correlation.py::one_time_from_two_time"]}
{"id": "C226", "title": "Rounding errors of circular_average", "statement": "Computed in floating-point arithmetic, the average of a ring depends only on the pixels of that ring, lies between the smallest and the largest of them, differs from the exact mean by a few roundings, is not negative when no pixel of the ring is, and is the exact mean rounded once for photon counts.", "quantifier": "all correctly rounding arithmetics (double precision among them), numbers of pixels, radii, intensities, bin edges and thresholds", "why_tests_cant": "every rounding pattern of sums of any length; the bins are differences of a running sum over all pixels in order of radius", "anchors": ["skbeam/core/roi.py::circular_average", "skbeam/core/utils.py::bin_1D"]}
{"id": "C227", "title": "Rounding errors of mean_intensity", "statement": "Computed in floating-point arithmetic, mean_intensity raises the same exception or has the same shape and index as in exact arithmetic, with NaN exactly for labels without pixels; the mean of a label with m pixels depends only on these pixels, differs from their exact mean by at most m+1 roundings of the mean absolute value, lies between the smallest and the largest of them, and for photon counts is the exact mean rounded once.", "quantifier": "all correctly rounding arithmetics (double precision among them), label images, images and indices", "why_tests_cant": "every rounding pattern of sums of any length", "anchors": ["skbeam/core/roi.py::mean_intensity"]}
{"id": "C228", "title": "From a scan to the phase of the sample", "statement": "If every frame of a complete scan is the reference frame, dimmed by the transmission of the sample at that position and displaced on the detector by the deflection that the slope of the sample's phase causes (slope times wavelength over 2 pi times distance, against the direction of the x slope with negate=True), dpc_runner returns the phase of the sample up to an additive constant, and its transmission.", "quantifier": "all reference frames with structure, scan sizes, periodic phases, transmissions, energies, distances, pixel and step sizes, weightings strictly between 0 and 1, whole-pixel displacements below half a frame, all solvers that find the global minimum nearest to gradient 0", "why_tests_cant": "every phase and every scan size; composition of fitting, scaling and integration", "anchors": ["skbeam/core/dpc.py::dpc_runner", "skbeam/core/dpc.py::lazy_dpc", "skbeam/core/dpc.py::reconstruct_phase_from_partial_info", "skbeam/core/dpc.py::recon"]}
{"id": "C229", "title": "From a stack of images to a map of reciprocal space", "statement": "When the rows returned by process_to_q are given to grid3d with the stack of images (and optionally a mask of one image's shape), the mean of a voxel is that of the intensities of exactly the unmasked pixels without NaN whose scattering vector, computed from the angles of their own image and their own row and column, lies in the voxel.", "quantifier": "all stacks, detector shapes square or not, angles, frames, masks, grids, roundings of the stored vectors, numbers of threads and schedules of both C routines", "why_tests_cant": "every detector shape and thread schedule; the pixel order of two C routines and NumPy must agree", "anchors": ["skbeam/core/recip.py::process_to_q", "skbeam/core/utils.py::grid3d", "src/ctrans.c::ccdToQ", "src/ctrans.c::gridder_3D"]}
{"id": "C230", "title": "Rounding errors of radial_grid and rings", "statement": "Computed in floating-point arithmetic, radial_grid is the distance of each pixel from the centre within four roundings, and rings accepts the same edges and labels every pixel as in exact arithmetic: always when centre and edges are whole numbers, including pixels exactly on an edge, and otherwise for pixels that are not within four roundings of an edge.", "quantifier": "all arithmetics with a relative error (double precision among them), centres, pixel sizes, shapes and edges", "why_tests_cant": "every rounding pattern at every pixel; pixels exactly on an edge", "anchors": ["skbeam/core/utils.py::radial_grid", "skbeam/core/roi.py::rings", "skbeam/core/roi.py::_make_roi"]}
{"id": "C231", "title": "Rounding errors of segmented_rings", "statement": "Computed in floating-point arithmetic, segmented_rings raises the same exception as in exact arithmetic or returns an image of the same shape in which every pixel has the label of the ring and segment that contain it.", "quantifier": "all arithmetics with a relative error (double precision among them), ring edges, numbers or lists of segments, offsets, centres and shapes", "why_tests_cant": "every rounding pattern at every pixel; pixels next to the axis where the azimuth jumps from 2 pi to 0", "anchors": ["skbeam/core/roi.py::segmented_rings", "skbeam/core/utils.py::angle_grid", "skbeam/core/utils.py::radial_grid"]}
{"id": "C232", "title": "Crashes while saving", "statement": "If the process dies at any moment during gsas_writer or save_output, no other file is changed, and the target is the old file or the complete new one; a file that was not finished is recognised by gsas_reader, which raises an error rather than return fewer or wrong points.", "quantifier": "all calls, file systems and crash points: before or after each system call and after any part of a write", "why_tests_cant": "every byte at which a write can stop", "anchors": ["skbeam/io/save_powder_output.py::gsas_writer", "skbeam/io/save_powder_output.py::save_output", "skbeam/io/save_powder_output.py::_create_file_path", "skbeam/io/save_powder_output.py::_encoding_writer", "skbeam/io/gsas_file_reader.py::gsas_reader"]}
{"id": "C233", "title": "Numbers of levels and buffers of a correlation", "statement": "The value that multi_tau_auto_corr, lazy_one_time or two_time_corr reports for a lag is a property of the frames: asking for more levels only appends later lags, and another number of buffers changes which lags are reported but not their values.", "quantifier": "all sequences of frames, label arrays, numbers of levels and (even) buffers", "why_tests_cant": "every pair of settings on every sequence", "anchors": ["skbeam/core/correlation.py::multi_tau_auto_corr", "skbeam/core/correlation.py::lazy_one_time", "skbeam/core/correlation.py::two_time_corr"]}
{"id": "C234", "title": "Laws of grid3d", "statement": "The result of grid3d does not depend on the order of the points; results of separate calls on the same grid can be combined into the result of the joined data (occupancies and sums add, means and standard errors by the usual formulas); intensities c*v+b give means c*m+b and errors |c|*e; other units of the coordinates change nothing; gridding with the limits of a block of voxels gives that block; exchanging axes transposes and reversing an axis reverses the result.", "quantifier": "all data sets, splits, orders, grids, units, blocks, numbers of threads and schedules", "why_tests_cant": "relations between calls on every data set", "anchors": ["skbeam/core/utils.py::grid3d", "src/ctrans.c::gridder_3D"]}
{"id": "C235", "title": "Laws of the binned statistics", "statement": "The results of BinnedStatisticDD do not depend on the order of the samples; those of two data sets on the same edges combine into the result of the joined data (counts and sums add, means and standard deviations by the usual formulas); values c*v+b give sums c*S+b*N, means c*M+b and deviations |c|*sigma; adding up along a dimension gives the binning without it; leaving out an edge adds up the two bins it separated.", "quantifier": "all samples, values, edges, splits and dimensions", "why_tests_cant": "relations between calls on every data set", "anchors": ["skbeam/core/accumulators/binned_statistic.py::BinnedStatisticDD"]}
{"id": "C236", "title": "sgolay2d is the local least-squares fit", "statement": "For every image and every pixel, sgolay2d returns the value at the pixel of the polynomial of the given degree that fits the window around it best in the sense of least squares, and with derivative its derivatives; so the filter obeys superposition and the symmetries of the square.", "quantifier": "all images, window sizes, degrees and pixels", "why_tests_cant": "every image: a statement about a minimum over all polynomials", "anchors": ["skbeam/core/smoothing.py::sgolay2d"]}
{"id": "C237", "title": "What the correlation of a region depends on", "statement": "The correlation image that CrossCorrelator returns for a region depends on nothing but the shape of the region and the two images inside it: neither on the place of the region in the frame, the size of the frame, the number of the region, the other regions, nor on pixels outside it. Exchanging rows and columns exchanges them in the result. Without normalisation it is linear in each image.", "quantifier": "all masks, regions, images, displacements of the region, frame sizes and normalisations", "why_tests_cant": "relations between calls on every mask and image", "anchors": ["skbeam/core/correlation.py::CrossCorrelator"]}
{"id": "C238", "title": "Equivalent starts of a reconstruction", "statement": "cdi_recon treats objects that diffract alike alike: a start multiplied by a phase factor (flag 'complex'), moved around the array together with the support, or replaced by its twin image (turned by 180 degrees and complex conjugate, support turned) gives the average and the last iterate changed in the same way, and exactly the same error lists.", "quantifier": "all diffraction patterns, starts, supports, phases, displacements and parameters, with and without shrink-wrap, any number of iterations", "why_tests_cant": "every iteration of every reconstruction", "anchors": ["skbeam/core/cdi.py::cdi_recon", "skbeam/core/cdi.py::pi_modulus", "skbeam/core/cdi.py::find_support", "skbeam/core/cdi.py::cal_diff_error"]}
{"id": "C239", "title": "What the speckle visibility of a region depends on", "statement": "The distributions that xsvs reports for a region, at every integration time, depend only on the values of the region's own pixels: not on where they lie in the image or how they are ordered, which number the region carries, or on other regions.", "quantifier": "all image sets, label images, orders of pixels, numbers of images, time bins and max_cts", "why_tests_cant": "relations between calls on every sequence of images", "anchors": ["skbeam/core/speckle.py::xsvs", "skbeam/core/speckle.py::_process"]}
{"id": "C240", "title": "Rounding errors of the SNIP background", "statement": "In double precision snip_method never reports a background more than about 1e-13 (relative to counts + 1) above the smoothed spectrum or below its minimum, however many passes it makes and however its windows are rounded; a flat spectrum gives a background that is exactly flat.", "quantifier": "all smoothed spectra with counts from 0 to 2^53, all numbers of passes and all windows, all logarithms and exponentials with a small relative error", "why_tests_cant": "rounding errors of four transcendental functions and any number of passes", "anchors": ["skbeam/core/fitting/background.py::snip_method"]}
{"id": "C241", "title": "Laws of process_to_q", "statement": "The scattering vectors of process_to_q transform as geometry demands: a stack gives the rows of its parts one after the other; k times the wavelength gives vectors k times shorter; the unit of pixel sizes and distance does not matter; a part of the detector gets the vectors it has in the whole; another unit cell changes the Miller indices by its matrix; turning the sample turns the vectors in the phi frame, leaves those in the theta frame and, with UB turned along, the Miller indices; full turns of any circle change nothing.", "quantifier": "all detectors, angle tables, wavelengths, UB matrices, frames and thread schedules", "why_tests_cant": "relations between calls for every geometry", "anchors": ["skbeam/core/recip.py::process_to_q", "src/ctrans.c::ccdToQ", "src/ctrans.c::calcQTheta", "src/ctrans.c::calcDeltaGamma", "src/ctrans.c::calcQPhiFromQTheta"]}
{"id": "C242", "title": "Laws of recon in DPC", "statement": "recon (dpc) is linear in the two gradients; exchanging the axes of the scan (gradients, steps, weighting) exchanges the axes of the phase and raises for the same weightings; steps k times as long give a phase k times as large; without padding the phase has mean zero, constant slopes leave no trace, cyclically shifted gradients give the shifted phase and a scan turned by half a turn gives the turned phase.", "quantifier": "all gradient images, sizes, steps, weightings and (for the first three) paddings", "why_tests_cant": "relations between calls for every scan", "anchors": ["skbeam/core/dpc.py::recon"]}
{"id": "C243", "title": "Laws of gisaxs", "statement": "The fields of gisaxs depend on pixel size and distance through their ratio only; a wavelength k times as long leaves the angles and divides q by k; pixel numbers may count from any corner; the mirror image of an experiment has tilt, horizontal exit angle and q_y of the other sign and all else equal; exit angles grow strictly with the pixel numbers; for an untilted sample q_z is constant along rows, zero in the row of the direct beam, positive above and negative below.", "quantifier": "all beam positions, pixel sizes, distances, wavelengths and pixels", "why_tests_cant": "relations between calls and orders for every pixel", "anchors": ["skbeam/core/recip.py::gisaxs"]}
{"id": "C244", "title": "Laws of binned_outlier", "statement": "The mask of binned_outlier depends neither on unit nor offset of the intensities, nor on unit or zero of positions and bin edges, nor on the order of the pixels; a larger alpha never drops more; and of the good pixels of a bin (unless all are equal) at most a share 1 / alpha^2 is dropped, whatever their distribution.", "quantifier": "all images, positions, masks, bin edges and alphas", "why_tests_cant": "a bound for every distribution of intensities", "anchors": ["skbeam/core/mask.py::binned_outlier"]}
{"id": "C245", "title": "q and two-theta in floating point", "statement": "twotheta_to_q in floating point is Bragg's law within nine units of rounding for all angles up to more than half a turn; q_to_twotheta gives, wherever it gives a number, the exact angle of a q within nine units of the given one, and gives a number for all q at least five units below 4 pi / wavelength; so the round trip from q keeps q within 19 units, and every q obtained from a two theta of at most pi is accepted (refuted: NaN for back scattering at wavelength 1.55).", "quantifier": "all angles, q, wavelengths and every rounding and library function within a relative error u", "why_tests_cant": "holds for every double, not the sampled ones", "anchors": ["skbeam/core/utils.py::q_to_twotheta", "skbeam/core/utils.py::twotheta_to_q"]}
{"id": "C246", "title": "Laws of construct_circ_avg_image", "statement": "The image of a superposition of profiles is the superposition of the images; pixel values never leave the range of the intensities (or are the zero beyond the last radius); a larger profile gives nowhere a smaller pixel; the image of a profile of ones is one exactly at the pixels within the last radius, and every image is zero elsewhere; the unit of radii and pixel sizes does not matter; exchanging axes in the arguments transposes the image; without a centre the image is its own mirror image both ways; samples on the line between their neighbours may be left out.", "quantifier": "all profiles, dimensions, centres, pixel sizes", "why_tests_cant": "relations between calls for every profile", "anchors": ["skbeam/core/image.py::construct_circ_avg_image", "skbeam/core/utils.py::radial_grid"]}
{"id": "C247", "title": "Several MD_dicts side by side", "statement": "MD_dicts made without argument never share anything: each holds what its own calls have made of an empty one, whatever happens to others in between. An MD_dict made over a dictionary of the caller is a view of it: both hold the same at all times; keys without dots read its entries unchanged, and nested dictionaries in it can be read with dotted keys (refuted: they read as None and are destroyed).", "quantifier": "all histories of making dictionaries and MD_dicts and of calls on them", "why_tests_cant": "every interleaving of calls on several objects", "anchors": ["skbeam/core/utils.py::MD_dict"]}
{"id": "C248", "title": "Axes and units of a reconstruction", "statement": "cdi_recon of a transposed diffraction pattern, from a transposed start and support, is the transposed reconstruction with the same recorded errors, with or without shrink-wrap, for real and complex objects; the reconstruction of a pattern in another unit (amplitudes k times as large) from a start in that unit is the reconstruction in that unit, with the same recorded errors and supports (refuted: the fixed offset 1e-12 in pi_modulus has a unit; true if it is scaled too).", "quantifier": "all patterns, starts, supports, iteration numbers and settings", "why_tests_cant": "relations between runs for every pattern", "anchors": ["skbeam/core/cdi.py::cdi_recon", "skbeam/core/cdi.py::pi_modulus", "skbeam/core/cdi.py::find_support", "skbeam/core/cdi.py::cal_diff_error"]}
{"id": "C249", "title": "Laws of construct_rphi_avg_image", "statement": "The image of a superposition of polar images is the superposition of the images (NaN where one is NaN); no pixel leaves the range of the polar image, and without NaN in it the pixels that are not NaN are exactly those from the first to the last radius; a polar image that does not depend on the angle gives there the very pixels of construct_circ_avg_image; angles counted from other whole turns, and a list starting with another of the angles, give the same image; reversing the sense of the angles gives the image upside down, and adding a right angle turns it by a right angle (except a pixel exactly in the middle, which has no direction); the unit of radii and pixel sizes does not matter.", "quantifier": "all polar grids and images, shapes, centres, pixel sizes", "why_tests_cant": "relations between calls for every image", "anchors": ["skbeam/core/image.py::construct_rphi_avg_image", "skbeam/core/image.py::construct_circ_avg_image"]}
{"id": "C250", "title": "Laws of the peak refinement and of the alignment of spectra", "statement": "The parabola of refine_quadratic and refine_log_quadratic deviates (in the sum of squares) from the samples no more than any other, and is the same with any correct least-squares solver and with the samples in any order; the R^2 compared with the threshold lies between 0 and 1 and is 1 exactly if all samples lie on the parabola; abscissae and intensities in other units or counted from another zero give the peak in these units and the same decision to reject it; find_largest_peak likewise (centre a c + b, height k H, width |a| s); and align_and_scale removes miscalibrations: spectra each recorded with its own gain, zero and efficiency come out with the energies of the spectra without, in the unit of the first detector.", "quantifier": "all samples with three different abscissae, all solvers, units, zeros, lists of spectra and calibrations", "why_tests_cant": "relations between calls for every input and every solver", "anchors": ["skbeam/core/feature.py::refine_quadratic", "skbeam/core/feature.py::refine_log_quadratic", "skbeam/core/fitting/funcs.py::fit_quad_to_peak", "skbeam/core/spectroscopy.py::find_largest_peak", "skbeam/core/spectroscopy.py::align_and_scale"]}
{"id": "C251", "title": "The version tells which code is running", "statement": "skbeam.__version__ of a source tree checked out N commits after the tag v1.2 (any tag beginning with v, hyphens included) is 1.2 at the unchanged tag and 1.2.postN[.dev0]+gHEX otherwise; without tags 0.postN[.dev0]+gHEX; with a closest tag that does not begin with v 'unknown'. Two such trees report the same version only if closest tag, distance and presence of changes agree and (away from an unchanged tag) the commit too. An archive reports the first of the tags v... of its commit, the same as the unchanged tree checked out there; importing the package does not fail for want of a version. An archive of a commit without a tag should report 0+unknown.", "quantifier": "all tags, distances, commits, lists of refs and outcomes of the git commands", "why_tests_cant": "all strings and all environments", "anchors": ["skbeam/_version.py::get_versions", "skbeam/_version.py::git_pieces_from_vcs", "skbeam/_version.py::git_versions_from_keywords", "skbeam/_version.py::render_pep440_post", "skbeam/__init__.py::__version__"]}
{"id": "C252", "title": "Peak functions in floating point", "statement": "Computed in floating point, gaussian, lorentzian, lorentzian2 and pvoigt are peaks: no value is negative, two points equally far from the centre have equal values, and a point farther away never has a larger one, whatever the format and with or without underflow of the values; without underflow lorentzian has a relative error of at most 11 units of rounding at every distance, gaussian at most (1 + 6u)(1 + v) e^(8 u z) - 1 with v the error of np.exp and z the exponent.", "quantifier": "all abscissae, areas, centres, widths, fractions, roundings and exponentials", "why_tests_cant": "a step in the last place can sit at any double", "anchors": ["skbeam/core/fitting/lineshapes.py::gaussian", "skbeam/core/fitting/lineshapes.py::lorentzian", "skbeam/core/fitting/lineshapes.py::lorentzian2", "skbeam/core/fitting/lineshapes.py::pvoigt"]}
{"id": "C253", "title": "Laws of integrate_ROI", "statement": "integrate_ROI is linear in the signal, and whether it raises does not depend on the signal's values; x in another unit and from another zero, with the limits in the same unit, gives the integral in that unit and the same errors; the order of the regions does not matter; and the signal at samples outside the regions does not matter if the upper limits are samples.", "quantifier": "all signals, abscissae, limits, units and every quadrature rule with the two laws", "why_tests_cant": "relations between calls for every signal", "anchors": ["skbeam/core/spectroscopy.py::integrate_ROI"]}
{"id": "C254", "title": "Rounding errors of process_to_q", "statement": "For setting angles up to a full turn either way, every component of the q of every pixel that process_to_q returns is within 170 units of rounding (frame theta) or 800 units (frames phi and cart) of the exact scattering vector, in units of 2 pi / wavelength, however far the pixel is from the centre; h, k, l (frame hkl) are within (19 e + 2500 u N) 2 pi / wavelength, where e is the error of the inverted UB matrix and N bounds its elements.", "quantifier": "all angles up to a full turn, detectors, pixels, wavelengths, UB matrices and every arithmetic within the stated accuracy", "why_tests_cant": "an error bound for every double", "anchors": ["skbeam/core/recip.py::process_to_q", "src/ctrans.c::calcDeltaGamma", "src/ctrans.c::calcQTheta", "src/ctrans.c::calcQPhiFromQTheta", "src/ctrans.c::matmulti"]}
{"id": "C255", "title": "integrate_ROI with integer channel numbers", "statement": "integrate_ROI with x an array of any integer type (channel numbers) does what it does with the same numbers as floats: descending x is accepted like ascending x, x out of order raises ValueError.", "quantifier": "all arrays, integer types, signals, limits and quadrature rules", "why_tests_cant": "a difference that wraps around depends on the type and on the values", "anchors": ["skbeam/core/spectroscopy.py::integrate_ROI"]}
{"id": "C256", "title": "Centres of integer bin edges", "statement": "bin_edges_to_centers of edges of any integer type gives the centres of the bins: the mean of the two edges of each bin, which lies in the bin.", "quantifier": "all edges and integer types", "why_tests_cant": "a sum that wraps around depends on the type and on the values", "anchors": ["skbeam/core/utils.py::bin_edges_to_centers"]}
{"id": "C257", "title": "Powder standards give safe access", "statement": "A PowderStandard answers (reflections, iteration, convert_2theta) for the list of reflections it was made from, in order of q, at any time: it makes no difference what is done with that list afterwards, with other standards, or with what the standard has handed out.", "quantifier": "all histories of making standards, asking them and changing lists", "why_tests_cant": "all histories", "anchors": ["skbeam/core/constants/xrs.py::PowderStandard", "skbeam/core/constants/xrs.py::PowderStandard.reflections", "skbeam/core/constants/xrs.py::PowderStandard.convert_2theta"]}
{"id": "C258", "title": "Rounding errors of gisaxs", "statement": "The angles that gisaxs returns are within 13 (tilt), 6 (incident), 19 (exit) and 11 (out of plane) units of rounding of the exact angles, for every pixel, beam position, pixel size and distance; qx is within 90, qy and qz within 200 and qr within 310 units of rounding of the exact values, in units of 2 pi / wavelength.", "quantifier": "all geometries, pixels, wavelengths, incident angles up to a half turn and every arithmetic within the stated accuracy", "why_tests_cant": "an error bound for every double", "anchors": ["skbeam/core/recip.py::gisaxs"]}
{"id": "C259", "title": "construct_circ_avg_image in floating point", "statement": "Computed in floating point, a pixel of construct_circ_avg_image is within 12 units of rounding (in units of the largest intensity) of the exact linear interpolation of the profile at the pixel's distance from the centre; at the given radii it is exactly the given intensity; between two neighbouring radii the image rises and falls with the profile. No pixel is outside the range of the profile: a profile without negative intensities gives no negative pixel.", "quantifier": "all ascending radii, intensities, distances and roundings", "why_tests_cant": "a step in the last place can sit at any double", "anchors": ["skbeam/core/image.py::construct_circ_avg_image"]}
{"id": "C260", "title": "Photon statistics with integer arguments", "statement": "poisson_dist with the documented arguments, an integer mean K and an array of integer counts, gives the Poisson probability e^-K K^k / k! of every count k.", "quantifier": "all means, counts and integer types", "why_tests_cant": "a power that wraps around depends on the type and on the values", "anchors": ["skbeam/core/fitting/lineshapes.py::poisson_dist"]}
{"id": "C261", "title": "Peak refinement with integer channel numbers", "statement": "fit_quad_to_peak and refine_quadratic with x an array of any integer type (channel numbers) do what they do with the same numbers as floats: samples of a parabola give its vertex.", "quantifier": "all arrays, integer types, samples and every correct least-squares solver", "why_tests_cant": "a square that wraps around depends on the type and on the values", "anchors": ["skbeam/core/fitting/funcs.py::fit_quad_to_peak", "skbeam/core/feature.py::refine_quadratic"]}
{"id": "C262", "title": "Ring and bar edges of integer type", "statement": "rings, bar and segmented_rings with edges of any integer type do what they do with the same numbers as floats: edges from r=0 outward give the rings numbered outward, edges in another order raise ValueError.", "quantifier": "all edges, integer types, centres, shapes, segments", "why_tests_cant": "a difference that wraps around depends on the type and on the values", "anchors": ["skbeam/core/roi.py::rings", "skbeam/core/roi.py::segmented_rings", "skbeam/core/roi.py::bar"]}
{"id": "C263", "title": "Regions of a CrossCorrelator", "statement": "A CrossCorrelator gives one correlation per value other than 0 in its mask, in rising order, each of the pixels with that value: two pixels belong to one region exactly if they have the same id, in whatever order the sorting routine leaves equal ids. A mask without any id raises ValueError.", "quantifier": "all masks, images, normalisations and every correct sorting routine", "why_tests_cant": "all masks and every order of equal elements", "anchors": ["skbeam/core/correlation.py::CrossCorrelator"]}
{"id": "C264", "title": "Rectangles and boxes of integer type", "statement": "rectangles and box with coordinates of any integer type label the pixels they label with the same numbers as Python integers.", "quantifier": "all coordinates, edges, integer types and shapes", "why_tests_cant": "a sum that wraps around depends on the type and on the values", "anchors": ["skbeam/core/roi.py::rectangles", "skbeam/core/roi.py::box"]}
{"id": "C265", "title": "Two theta and q of a radius and length of (h, k, l) in floating point", "statement": "In floating point radius_to_twotheta is within 3 units of rounding (relative) of the exact angle for every radius and distance, however small the angle; followed by twotheta_to_q it gives q within 16 units; hkl_to_q is within 5 units of the length of the vector.", "quantifier": "all radii, distances, wavelengths, vectors and every rounding and library function within a relative error u", "why_tests_cant": "an error bound for every double", "anchors": ["skbeam/core/utils.py::radius_to_twotheta", "skbeam/core/utils.py::twotheta_to_q", "skbeam/core/recip.py::hkl_to_q"]}
{"id": "C266", "title": "gaussian_tail is a number for every width of the tail", "statement": "gaussian_tail returns a nonnegative number for every x, area, sigma and gamma greater than 0, as the exact formula does. In floating point this fails for gamma up to 0.025: exp(-0.5 / gamma**2) underflows to 0 and every point is NaN or infinite, whatever x, area, center and sigma.", "quantifier": "all x, areas, centres, sigma, gamma, every monotone rounding with underflow", "why_tests_cant": "the failure depends on the range of the floating point format, not on a sampled shape", "anchors": ["skbeam/core/fitting/lineshapes.py::gaussian_tail"]}
{"id": "C267", "title": "Peak functions of channel numbers of an integer type", "statement": "elastic, compton and element_peak_xrf give the same peak for channel numbers of an integer type as for floats. This holds exactly if there is no quadratic term in the calibration or the squares of the channel numbers fit the type (64-bit channels below 3e9); 16-bit channel numbers from 256 on lose the quadratic term or part of it.", "quantifier": "all channels, integer types, calibrations and peak parameters", "why_tests_cant": "a square that wraps around depends on the type and on the values", "anchors": ["skbeam/core/fitting/lineshapes.py::elastic", "skbeam/core/fitting/lineshapes.py::compton", "skbeam/core/fitting/xrf_model.py::element_peak_xrf"]}
{"id": "C268", "title": "Laws of the emission line search", "statement": "emission_line_search finds at least as much in a wider window; over two lists of elements it finds what the two searches find; order, repetition and spelling of the elements do not matter; an empty window (delta_e <= 0) gives an empty dict; an element is found at the energy of each of its excited lines; it raises exactly if an element is not in the table.", "quantifier": "all energies, windows, incident energies, lists of elements and all values of xraylib", "why_tests_cant": "relations between searches, for every table of line energies", "anchors": ["skbeam/core/constants/xrf.py::emission_line_search", "skbeam/core/constants/xrf.py::XrfElement.line_near"]}
{"id": "C269", "title": "Laws of trim and define_range", "statement": "Trimming a spectrum twice is trimming it once to the common range, again to the same range changes nothing; a spectrum can be trimmed in pieces; what is done to every intensity can be done before or after; a wider range of energies keeps at least the same channels; two ranges that meet cover the whole.", "quantifier": "all spectra, ranges and calibrations with a positive slope", "why_tests_cant": "relations between calls, for all spectra", "anchors": ["skbeam/core/fitting/xrf_model.py::trim", "skbeam/core/fitting/xrf_model.py::define_range"]}
{"id": "C270", "title": "Laws of filter_n_largest", "statement": "The N largest candidates are the first N of the N' largest for N <= N'; filtering the result again keeps all of it; among candidates of different heights the result does not depend on the sorting algorithm, the order of the candidates, nor on scale and offset of the spectrum.", "quantifier": "all spectra, lists of candidates, N and every sorting algorithm", "why_tests_cant": "relations between calls, for all spectra and sorting algorithms", "anchors": ["skbeam/core/feature.py::filter_n_largest"]}
{"id": "C271", "title": "Laws of statistics_1D", "statement": "A change of every intensity that changes the statistic changes every bin alike (scale and offset for the mean, scale for the sum), edges and errors stay; a statistic that ignores the order of the values ignores the order of the samples; with given limits the sums and counts of two data sets add, bin by bin.", "quantifier": "all samples, statistics, numbers of bins and limits", "why_tests_cant": "relations between calls, for all data", "anchors": ["skbeam/core/stats.py::statistics_1D"]}
{"id": "C272", "title": "Laws of mean_intensity", "statement": "Scale and offset of the images are scale and offset of every mean, and labels without pixels stay NaN; the rows of a longer series are the rows of its parts; a mean lies between the bounds of the pixels of its region; renaming the labels renames the columns; pixels rearranged alike in the labels and in every image give the same means.", "quantifier": "all series, labels, indices, scales, renamings and rearrangements", "why_tests_cant": "relations between calls, for all images", "anchors": ["skbeam/core/roi.py::mean_intensity"]}
{"id": "C273", "title": "poisson_dist is a probability for every count", "statement": "poisson_dist returns a number that is not negative for every mean and count. In double precision this holds up to 170 photons while K^k is at most 2^1023; from 171 photons on the factorial overflows, and the result is NaN at every mean from 64 on, e.g. 200 photons at the mean 200, and 0 at small means.", "quantifier": "all means, counts and every arithmetic with the range of doubles", "why_tests_cant": "the failure depends on the range of the floating point format", "anchors": ["skbeam/core/fitting/lineshapes.py::poisson_dist"]}
{"id": "C274", "title": "nbinom_dist is a probability for every count", "statement": "nbinom_dist returns a number that is not negative for every mean, number of modes and count. In double precision this holds while the number of ways to distribute the photons over the modes is at most 2^1023; from 2^1024 on the result is infinite or NaN, e.g. for k photons in k + 1 modes with k from 600 on, at any mean.", "quantifier": "all means, numbers of modes, counts and every arithmetic with the range of doubles", "why_tests_cant": "the failure depends on the range of the floating point format", "anchors": ["skbeam/core/fitting/lineshapes.py::nbinom_dist"]}
{"id": "C275", "title": "Laws of roi_pixel_values and roi_max_counts", "statement": "By default roi_pixel_values lists every pixel with a positive label exactly once over its lists; what is done to every intensity can be done before or after the selection. The largest count of two collections of image sets is the larger one of their largest counts, and the grouping of the images into sets does not matter.", "quantifier": "all images, label arrays, indices and collections of image sets", "why_tests_cant": "relations between calls, for all images", "anchors": ["skbeam/core/roi.py::roi_pixel_values", "skbeam/core/roi.py::roi_max_counts"]}
{"id": "C276", "title": "Laws of threshold, bad_to_nan_gen and subtract_reference_images", "statement": "Thresholding a longer series is thresholding its parts one after the other; the mask of a whole series does not depend on the order of the images, nor, with the threshold converted, on unit and offset of the intensity. Marking bad frames in two steps is marking them in one. An additive change of the images can be made before or after the subtraction of references, a background common to all images has no effect, and a series can be cut before any reference image.", "quantifier": "all series, masks, thresholds, bad lists, additive changes and cuts", "why_tests_cant": "relations between calls, for all series", "anchors": ["skbeam/core/mask.py::threshold", "skbeam/core/mask.py::bad_to_nan_gen", "skbeam/core/utils.py::subtract_reference_images"]}
{"id": "C277", "title": "Laws of image_reduction", "statement": "An additive change of the pixels, e.g. a scale, can be made before or after the reduction; the lines of a sum of two images are the sums of their lines; the transposed image, with region and bad pixels transposed too, has its two lines exchanged; bad pixels may be named in any order, repeatedly and by negative or positive indices; a region within a region is the region at its place in the image.", "quantifier": "all images, regions, lists of bad pixels and additive changes", "why_tests_cant": "relations between calls, for all images", "anchors": ["skbeam/core/dpc.py::image_reduction"]}
{"id": "C278", "title": "Laws of the label images", "statement": "Rings move with their centre, whatever the sizes of the images; they are symmetric about the centre; exchanging rows and columns of shape and centre transposes them; further rings outside the given ones leave the labels of the given ones alone. Bars have the same labels in any increasing unit of the values. Rectangles with their axes exchanged give the transposed label image or the same error.", "quantifier": "all edges, centres, shapes, displacements, units and lists of rectangles", "why_tests_cant": "relations between calls, for all geometries", "anchors": ["skbeam/core/roi.py::rings", "skbeam/core/roi.py::bar", "skbeam/core/roi.py::rectangles"]}
{"id": "C279", "title": "Laws of filter_peak_height", "statement": "Filtering with two thresholds, one after the other, is filtering with the larger one; filters with different windows and thresholds can be applied in either order; a wider window or a lower threshold keeps every peak that is kept; unit, offset and sign of the data do not matter if the threshold is converted; candidates can be filtered in parts.", "quantifier": "all data, candidates within the data, thresholds, windows and units", "why_tests_cant": "relations between calls, for all data", "anchors": ["skbeam/core/feature.py::filter_peak_height"]}
{"id": "C280", "title": "Laws of the elastic and Compton peaks", "statement": "Both peaks are linear in the amplitude and never negative; the Compton peak is the same for scattering to either side and for a full turn more; forward scattering without broadening, step and tails is the elastic peak; only the energies of the channels matter: channels renumbered, with the calibration converted accordingly, give the same spectra.", "quantifier": "all parameters and channels", "why_tests_cant": "relations between calls, for all parameters", "anchors": ["skbeam/core/fitting/lineshapes.py::elastic", "skbeam/core/fitting/lineshapes.py::compton"]}
{"id": "C281", "title": "Laws of bin_edges, bin_edges_to_centers and bin_1D", "statement": "Limits and step converted to another unit and origin give the edges converted, or the same error; the ways to ask for n bins - from the minimum upwards, from the maximum downwards, between the limits, by the step - agree; centres are converted like their edges; bin_1D of converted coordinates has converted edges and the same sums and counts.", "quantifier": "all limits, steps, numbers of bins, samples, units and origins", "why_tests_cant": "relations between calls, for all arguments", "anchors": ["skbeam/core/utils.py::bin_edges", "skbeam/core/utils.py::bin_edges_to_centers", "skbeam/core/utils.py::bin_1D"]}
{"id": "C282", "title": "Angles of gisaxs from beam positions, micrometres and metres", "statement": "With pixel sizes in micrometres and the distance in metres: twice the incident angle is the angle subtended at the sample by the rows from the direct to the reflected beam; exit plus incident angle the one subtended by the rows from the direct beam to the pixel; twice the sum of the two out of plane angles the one subtended by the columns from the direct beam to the pixel; each with the pixel size of its own axis. The tilt angle is the direction on the detector from the direct to the reflected beam, measured from the vertical. Exit and incident angle agree in the row of the reflected beam and are opposite in the row of the direct beam.", "quantifier": "all beam positions, pixel sizes, distances and pixels", "why_tests_cant": "units, axes and signs for every geometry; tests compare a few literals", "anchors": ["skbeam/core/recip.py::gisaxs"]}

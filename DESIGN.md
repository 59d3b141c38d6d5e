# Formal model of scikit-beam in Lean 4

## Layout

* `properties.jsonl` – the English properties (C01 …).
* `lean/Verif/<Area>/Model.lean` – executable model, each definition cites the file and lines of `/repo` it models.
* `lean/Verif/<Area>/Lemmas.lean` – helper lemmas.
* `lean/Verif/<Area>/Props.lean` – the property theorems (names start with the property id), small
  independent specifications, and `example`s showing that hypotheses are met by concrete states.
* `MANIFEST.json` – property → theorems. `seeded/LOG.jsonl` – log of wrong-program experiments.

## Numeric conventions (part of the trusted base)

* Data that the code adds, multiplies, compares or divides is modelled in exact arithmetic: `ℚ`
  (every finite IEEE double is a rational, and inputs are arbitrary rationals) or `ℤ`/`ℕ` for
  integer dtypes. Rounding, overflow, infinities and integer wrap-around of numpy are **not** modelled
  unless a property is about them: rounding in the properties that say so (`Fl`, any rounding with a relative error, and
  round-to-nearest with 53 bits and no exponent limits), wrap-around in C217-C222 (`Verif/Wrap`, integer types of any width).
* Functions that call sin/cos/exp/sqrt/arctan are modelled over Mathlib's `ℝ` (noncomputable).
* NaN, where the code branches on it, is modelled by `Option ℚ` with `none` = NaN.
* Exceptions are values (`Except PyErr α` or an inductive result).
* Loops are folds, structural recursion, or a fuel-indexed iteration; where termination is a property
  it is a theorem.
* A mutable array argument becomes a returned value; where aliasing is the property, the heap/aliasing is modelled.
* numpy primitives (`searchsorted`, `digitize`, `histogram`, `bincount`, `unique`, `argsort(kind=mergesort)`,
  slicing, …) are modelled by their documented behaviour; each model is a definition in the model and can be read there.

## Trusted base

Lean 4.33.0 kernel; axioms `propext`, `Classical.choice`, `Quot.sound` only (no own axioms, no
`native_decide`, no `bv_decide`, no `sorry`). The reading of the Python/Cython/C source into the model
(nothing was executed). The behaviour of numpy/scipy/xraylib/lmfit primitives as written in the model.
In particular, for C217-C222: arithmetic on arrays of an integer type stays in that type and wraps around, and so do
`np.histogram` with integer weights, `np.correlate` and `np.ptp`; Python integer scalars do not change the type.

Axioms used by the manifest theorems are listed per theorem at the end of this file.

## Plan per property

| id | what is modelled | how proved |
|---|---|---|
| C01 | `multi_tau_lags` as list program | induction over levels, arithmetic |
| C02 | `geometric_series` while loop with fuel | loop invariant; bound for ratio>=2; divergence by induction on fuel |
| C03 | `bin_edges` with `Option ℚ` arguments | case analysis, floor arithmetic |
| C04 | `subtract_reference_images` loop | induction, spec by "latest reference index" |
| C05 | `pairwise`, `bin_edges_to_centers` | list induction |
| C06 | `bin_1D` with numpy `histogram` semantics | conservation by induction on samples |
| C07 | `img_to_relative_xyi` index arithmetic | refuted for non-square; `_partial` for square |
| C08 | `bin_grid` default bins | refuted by witness; partial: range covered up to last edge |
| C09 | grids over ℝ | Complex.arg facts |
| C10 | conversions over ℝ | field_simp, arcsin/arctan facts |
| C11–C13 | `RCParamDict` as an inductive tree | refinement to partial map path → value, histories by induction |
| C14–C17 | `MD_dict` as an inductive tree | partial theorems for compatible keys and refutations |
| C18–C22 | Histogram (1-D, 2-D, N-D paths) | induction on samples; floor arithmetic; permutations |
| C23–C26 | BinnedStatisticDD | flat-index bijection; refutations for `binmap`, in-place masking |
| C27–C35 | ROI functions on arrays as `ℕ → ℕ → α` / lists | per-pixel characterisations; refutations for negative slices, 0-width rings |
| C36–C40 | masks and logic operations | induction on frame history; heap model for aliasing |
| C41–C45 | `c_grid3d` and the Python wrapper | fold/partition lemmas, small-step interleaving semantics for the race |
| C46–C49 | one-time correlator state machine | invariants over processed frame lists |
| C50 | relabelling loop | induction over sorted label list |
| C51–C53 | two-time state machine | invariants, index arithmetic |
| C54 | cross-correlation via padded circular convolution | finite sums |
| C55 | xsvs level loop | refutation by witness, partial for level 0/1 |
| C56–C60 | peak/spectroscopy functions | list lemmas |
| C61–C65 | dpc / cdi bookkeeping | induction on frames; index arithmetic |
| C66 | snip | monotonicity by induction, termination measure |
| C67–C69 | lineshapes over ℝ | Mathlib integrals and series |
| C70–C74 | XRF model bookkeeping | association-list lemmas; refutations for confirmed defects |
| C75–C78 | file formats at character level; file system as a map | round-trip, refutations for confirmed defects |
| C79–C81 | constants | list lemmas |
| C82 | `MD_dict` with the inherited `setdefault` and `pop` | refutation over all histories; partial for present keys |
| C83, C84 | two-time state machine, conversion of intermediate states | commutation of conversion and steps; fold over appended frame lists |
| C85 | one-time curve from a two-time matrix | refutation by witness; partial from the complete cell characterisation C52 |
| C86, C87 | `CrossCorrelator` | finite sums over pixel pairs; refutation of the shift direction for all single-pixel features |
| C88 | allocation and indexing of `c_grid3d` | small-step interleavings (refutation); index bound for the accumulation loop |
| C89 | aliasing of the masks yielded by `threshold` | generator model with one shared array |
| C90–C92 | lineshapes over ℝ | series/integrals from Mathlib, monotonicity |
| C93–C95 | `xsvs` averages | invariants over frames and sets; Cauchy–Schwarz for the non-negative variance |
| C96–C99 | peak fitting, windows, integration limits | least squares as a minimiser; list slices; `searchsorted` lemmas |
| C100, C101 | `refine_center`, `estimate_d_blind` from found rings on | trigonometric sums over equally spaced sectors |
| C102–C106 | DPC reconstruction | discrete Fourier inversion written out; Hermitian symmetry; state machine |
| C107–C112 | CDI kernel, modulus projection, difference map | finite sums; DFT inversion; induction over iterations |
| C113 | SNIP monotonicity | induction over passes |
| C114–C120 | XRF parameter controller and linear fits | association lists, invariants over call histories, contract of `nnls` |
| C121–C124 | GSAS and text output | character-level print/parse round trip with rounding error bounds |
| C125 | xraylib wrappers | dictionary lemmas |
| C126–C130 | `process_to_q` with the C loops of `processImages` as loads and stores of per-image turns | frame lemma for disjoint blocks under arbitrary interleavings; rotation matrices; refutations over all off-axis pixels |
| C131–C133 | `gisaxs` over ℝ | trigonometric identities; sign analysis |
| C134, C135 | ring centre: correlation with the mirrored row, votes, `argmax` | correlation as a sum over mirrored pairs; strict maximum; counting; counterexample images by evaluation |
| C136–C138 | `np.interp` on the radial grid, default size over ℝ | position of a value in an ascending list; floor bounds |
| C139–C142 | polar to Cartesian interpolation, with the arrays the call writes to | uniqueness of linear interpolation across cells; angles modulo a turn |
| C143–C145 | constructors of the binned-statistic classes: limits, edges, forms of `bins`, masks | explicit formula of the edges; counting; case analysis on the argument |
| C146 | image classes on top of the constructors | pixels in row-major order; reduction to C23–C26 |
| C147–C149 | `sgolay2d`: exponents, design matrix, padding, convolution; `pinv` by the Moore–Penrose conditions | the design matrix has independent columns for order below the window size, so a kernel row picks the coefficient of its monomial; Taylor expansion of polynomials; padding of planes and affine images |
| C150 | `compton` as a real function | integrals of Gaussian and clipped tails, limits at minus infinity |
| C151 | `statistics_1D` on a model of `scipy.stats.binned_statistic` (digitize and the correction for values on the last edge) | position of a sample among equally spaced edges; counting |
| C152 | properties `edges` and `centers` | `linspace` formula; equivalence with the cells of C18 by induction on the dimensions |
| C153 | `normalize_bin_edges` | explicit entries; division by a positive number keeps the order |
| C154 | `lines` with the drawing routine as a parameter, NumPy index assignment | induction on the list of lines |
| C155, C156 | `cal_diff_error`, error lists of `cdi_recon`, `generate_random_phase_field` over ℂ | induction on iterations; inversion of the transform |
| C157, C158 | `_read_amira` as a transition system on the unread lines, `load_amiramesh` | induction on the number of rounds; invariant that the header holds the marker |
| C159 | `_create_md_dict` on lists of words | one lemma per kind of line, composition over the header |
| C160 | `fit2d_save`/`read_fit2d_msk` on files by path, fabio's encoding by contract | evaluation |
| C161, C164 | `setup_compton_model`, `setup_elastic_model`, `setup_element_model`, `construct_linear_model` on lmfit parameter hints as dicts; lmfit by contract (`setHint`, `clip`, `paramValue`) | one lemma per kind of peak that gives its twelve parameters, induction over the lines of a shell |
| C162, C163 | the same, `linear_spectrum_fitting`'s result and area dicts | C161 for the changed dict; names cannot collide (lengths, underscores); induction over the components |
| C165, C168 | `assemble_models`, `_copy_model_param_hints_EXPR`, `_set_parameter_hint` | every label is a suffix of at most one global name; fold over the labels |
| C166 | `get_line_energy`, pile-up branch of `setup_element_model` | splitting at one separator, table of line names |
| C167 | `compute_escape_peak`, `extract_strategy` | entry by entry; induction over the dict |
| C169 | `update_parameter_dict`, `sum_area` (C119) | entry by entry; induction over the transitions; C165 for the common energy |
| C170 | `voigt`; `scipy.special.wofz` by its integral representation | real part under the integral, substitution, integral of a convolution |
| C112 | the iteration with the guard offset | every coefficient of the transform moves by at most the offset; inverse DFT bound |
| C171 | `default_param`, the five strategies, `ParamController` (C70) | finite tables by evaluation; invariant over the added parameters |
| C172 | `get_para` as an address in a heap of dicts; `set_default` | one update of the heap; induction over the arguments |
| C173 | `auto_corr_scat_factor` over the reals | monotonicity and limit of exp; limits determine the parameters |
| C174 | `load_netCDF`; the netCDF4 package by contract | case by case along the lookups |
| C175 | `auto_find_center_rings`; ransac, Canny and circle_perimeter as parameters | induction over the rings |
| C176 | `one_time_from_two_time(calc_errors=True)`, square roots over the reals | sums over the good entries of a diagonal |
| C177 | `find_support` with SciPy's Gaussian filter (weights, radius, mirrored edges) over the reals | the separable filter is a weighted mean; bounds of weighted means; induction over iterations |
| C178 | wrapper constructors, `incident_energy`, `XrfElement` attributes; xraylib as a parameter | invariant over sessions of constructions and assignments |
| C179 | `RCParamDict.__repr__`, `_repr_helper` | induction over the size of the dictionary; sorted lists with the same members are equal |
| C180 | the correlators of C46–C53 | the specification of C46 and C52 is homogeneous in the pixel values; induction over the stream for the selected pixels |
| C181 | the same | sums over a column reindexed as sums over the flat positions of the region |
| C182 | the same and `one_time_from_two_time` | both sides reduced to the same mean over frame pairs |
| C183 | `CrossCorrelator.__call__` with its normalisations | sums over pixel pairs; bijection of pairs under exchange |
| C184 | integer masks in `grid3d` (NumPy integer indexing) | induction over the mask |
| C185 | `BinnedStatisticDD` with its caches, `statistic` setter, `__call__` on all branches, `np.empty` memory as a parameter | invariant of the caches over histories; the loop over the counts reduced to the values of a cell |
| C186 | `estimate_d_blind` as a whole: `argrelmax`, `filter_peak_height`, `peak_refinement`, `convert_2theta`, mean and spread | peaks characterised; composition of C57, C96, C101; uniqueness of the least-squares parabola for the units |
| C187 | `refine_center` as a whole over the reals: azimuths, regions, `bin_1D`, ring search | every element in exactly one class implies a permutation; scaling of histograms and peaks |
| C188 | `nbinom_dist`, `gamma_dist`, `poisson_dist` over the reals | `(k+1) P(k+1)` is K times the distribution with one more mode, likewise for the density; Gamma integral; induction on k for the limit |
| C189 | `snip_method` as in C66, windows written out | unfolding the passes into a fold over the list of windows; scaling of square roots |
| C190 | multi-tau and two-time correlation as in C46, C52 | the zero-lag row as a mean over frame-pixel pairs, sum of squares; the two-time matrix minus 1 as a Gram matrix of relative deviations |
| C191 | multi-tau and two-time correlation as in C46, C52 | the groups of a reversed stream are the reversed groups when the count divides; the averages are symmetric in past and future |
| C192 | `CrossCorrelator` as in C50, C183 | Cauchy-Schwarz over pixel pairs; summing over all displacements |
| C193 | `pi_modulus` and the support step of `cdi_recon` as in C108 | Parseval for the two-dimensional transform, triangle inequality per frequency, Minkowski over frequencies |
| C194 | peak functions of `lineshapes.py` over the reals | monotonicity of exponential and reciprocal; for `voigt` the convolution folded about the midpoint of the two points; second moments by parts, divergence of the Lorentzian's |
| C195 | a heap of state arrays and generator objects referring to them; `lazy_one_time`, `lazy_two_time`, `lazy_dpc` as machines over it | induction over the history with a frame lemma for everybody else's actions; concrete histories for the refutation |
| C196 | the same, with the assignments made before the exception | case analysis on the pixel selection; a concrete history |
| C197 | reduction, transform and fit of one frame (`fitFrame`), the solver a parameter that finds global minima | the zero-frequency term fixes the transmission, the slowest oscillation the gradient modulo 2 pi; composed with C61 and C106 |
| C198 | `recon` without padding, as in C102 | Parseval, completing the square at each frequency; taking the real part is harmless because the weights are even in the frequency |
| C199 | one iteration of `cdi_recon` | a stopped iteration makes the two projections agree; the object that is returned is a different one, shown by two pixels with explicit transforms and error bounds in the guard offset |
| C200 | compositions of the four models | all four are reduced to the sum over half-open bins of `Verif/Binning/Agree.lean`; the exceptional samples are those at the upper limit |
| C201 | the same models at two bin numbers | telescoping of consecutive half-open intervals, induction over the dimensions |
| C202 | `voxel`, `run`, `out` of the C gridder with a rounding function | standard model of rounding (`Fl.Spec.Rel`, proved for binary64 in `Verif/FlProps.lean`); error of a sum of n terms in any order by induction over the schedule |
| C203 | `fill` of `Verif/Hist/Model.lean` with a rounding function | relative error of the bin position is at most 5u; congruence of the three loops; otherwise the index is off by at most one; the contents are running sums, `Verif/Hist/RoundSum.lean` |
| C204 | `Verif/Corr/RoundModel.lean`: the correlator with a rounding after every operation (equal to `Verif/Corr/Model.lean` for the identity) | the generic ring lemma of C46 with computed averages; error recursion of a running mean, contraction by (k-1)/k absorbs the earlier errors |
| C205 | composition of `Mask.badToNan` with `Corr.multiTauAutoCorr` and `Corr.twoTimeCorr` | the marked stream as a history of pixel values, then C46 and C51; `Free` groups are the groups without NaN |
| C206 | `circularAverage` as in C34 | `bin_1D` is invariant under permutations of its samples; the pixel positions permuted by a bijection of the image; bounds of means |
| C207 | `processToQ`, `hklToQ` composed as in C127; `radialGrid`, `radiusToTwotheta`, `twothetaToQ` of C09, C10 | both cosines of the scattering angle as inverse square roots; comparison of the squares |
| C208 | `integrateROI` as in C58, C99; `scipy.integrate.simps` as a function with the composite Simpson rule for odd numbers of samples | the rule on three points is exact for quadratics (field arithmetic), induction over the triples; the samples within the limits split at the cut |
| C209 | `Verif/Speckle/Round.lean`: xsvs with a rounding after every operation (equal to `Verif/Speckle/Model.lean` for the identity, `xsvsAllR_id`) | simulation: counts and buffers stay equal because whole numbers are exact; error recursion of the running means, also when a mean is pulled repeatedly with the same weight |
| C210 | `Verif/Binned/Round.lean`: `np.bincount` as a loop with a rounding after every addition, mean and variance likewise | the entry of a key is the rounded sum of the values with that key (induction), then the keyed values of C24; calculus of relative errors (`Fl.Near`) |
| C211 | `Verif/Utils/Round.lean`: bin_edges with a rounding after every operation (equal to `binEdges` for the identity, `binEdgesR_id`) | error of one edge; floor of the quotient; both branches of the overshoot test |
| C212 | the definitions of `Verif/Roi/Model.lean` composed | the properties of each tool (C28-C31, C33, C35) combined; the label image read row by row turns list sums into sums over sets of pixels |
| C213 | `nnlsFit` of `Verif/Xrf/Fit.lean` with the contract of nnls (C117) | conditions of optimality from one-sided perturbations, uniqueness from the expansion of the cost along a line |
| C214 | `Verif/Order/Props.lean`: centers with a rounding after every operation; `Verif/FlMono.lean`: double precision is monotone, idempotent and commutes with doubling | doubling an edge is exact, so the rounded sum of two edges lies between the doubled edges |
| C215 | `Verif/Order/Props.lean`: ring_edges with a running sum that rounds after every addition (equal to `ringEdges` for the identity, `ringEdgesR_id`) | a monotone rounding does not bring a sum below its representable first term; relative errors by induction over the sum |
| C216 | `Verif/Order/Props.lean`: the rounded quotient | monotonicity; quotient of two relative errors |
| C217 | `Verif/Wrap/Model.lean`: NumPy integer types (signedness, width), wrap-around, images of such a type; `Utils.subtractReferenceImages` instantiated with them | C04 for any type with a subtraction; the stored number is the representable one congruent to the difference |
| C218 | `Verif/Wrap/Model.lean`: `np.histogram` with weights of integer type (running sums in the type), `bin_1D`, `circular_average` | differences of wrapped running sums are congruent to the sums of the bins; C34 for the rest |
| C219 | `Verif/Wrap/Ring.lean`: `np.correlate` in the type of the image | every autocorrelation value is at most the sum of squares (Cauchy-Schwarz); for pixels that are multiples of 2^(bits/2) all products vanish |
| C220 | `Verif/Wrap/Smooth.lean`: borders of sgolay2d computed in the type of the image | pixel-wise comparison of the padded images; interior windows do not meet the padding |
| C221 | `Verif/Wrap/Xsvs.lean`: xsvs with sums of frames in the type of the frames | invariant: a buffer of level l holds whole numbers up to m 2^l; induction over levels and frames |
| C222 | `Verif/Wrap/Peak.lean`: np.ptp in the type of the data | a height above the largest number wraps to a negative one |
| C223 | `Verif/Corr/Rings.lean`: rings, then multi_tau_auto_corr on the flattened label image | composition of C28, C46, C49 and C50; sums over positions of the label image are sums over pixels |
| C224 | `Verif/Speckle/Top.lean`: the whole call, with the extraction of pixels, the default of max_cts, generators that are used up, and entries that are still 0 | composition with the invariant of C55: the frames are the images restricted to the regions; induction over images for roi_max_counts |
| C225 | `Verif/Corr/TwoRoundModel.lean`: two_time_corr with a rounding after every operation on intensities, np.nanmean with additions in any order | the rounded and the exact run proceed in lockstep (same counters, buffers and entries related by a number of roundings); induction over cells, delays, levels and images; structural induction over the ways to add |
| C226 | `Verif/Roi/AvgRound.lean`: np.histogram for an array of edges as it computes (running sums over the pixels of a block sorted by position, added over blocks, then differences), the order of equal positions left open; circular_average from the edges on | near-exactness of running sums by induction over pixels and blocks; monotone rounding for the signs; whole numbers stay exact |
| C227 | `Verif/Roi/MeanRound.lean`: ndimage.mean as a running sum over the pixels of a label in array order and one division | the running sums of C226; comparison with the exact model of C33 |
| C228 | `Verif/Dpc/Scan.lean`: composition of the models of dpc_runner, of the fits and of recon | the fit of each frame (C197) with the minimum nearest to 0, the raster (C61, C106), the scaling, and the integration (C102) |
| C229 | `Verif/Recip/Map.lean`: composition of the models of process_to_q and grid3d | C126 gives the vector at every flat index, C45 the masked points, C41 the sums; the flat indices of images, rows and columns agree |
| C230 | `Verif/FlReal.lean`: double precision for real numbers, extending round-to-nearest of rationals; `Verif/Roi/RingsRound.lean`: radial_grid and rings with a rounding after every operation | brackets (1-u)^n, (1+u)^n through squares, sum and square root; a whole number below e^2 is at least 1 below, which a rounding of its root cannot bridge for e up to 2^26 |
| C231 | `Verif/Roi/SegRound.lean`: angle_grid and segmented_rings with a rounding after every operation, any arctan2 with a relative error | stretching the coordinates by (1+-u)^2 turns the direction by at most 4u (sine of the difference of the arguments); errors of 2 pi, of the wrapped angle and of the edges added up; for the counterexample the double nearest to pi is pinned by 20 decimals |
| C232 | `Verif/Io/Crash.lean`: gsas_writer and save_output as sequences of remove, create and write steps (proved to end in the result of the C75 model), a crash stops after any step or inside a write; `Verif/Io/Cut.lean`: gsas_reader on a beginning of a written file | case distinction on the cut point: the lines of a beginning are lines of the text and a beginning of the next one; every beginning of a field is blank or a number |
| C233 | `Verif/Corr/Levels.lean`: two calls of the C01/C02 models with different settings | both tables are expressed by the closed form of a level's row; the counterexample is evaluated |
| C234 | `Verif/Grid/Laws.lean`: pairs of calls of the C04 model of grid3d | from the characterisation of a voxel by the points it contains: permutations, concatenation, affine maps of values and coordinates; the bin of a point under scaling, cutting, exchange and reversal of axes |
| C235 | `Verif/Binned/Laws.lean`: pairs of calls of the C23 model | the same for cells given by edges; sum over the bins of one dimension, an edge left out |
| C236 | `Verif/Smooth/LeastSquares.lean`: the C147 model of sgolay2d against a separate definition of the best-fitting polynomial | the pseudo-inverse row solves the normal equations; Pythagoras gives minimality and uniqueness; symmetries by uniqueness |
| C237 | `Verif/Cross/Laws.lean`: pairs of calls of the C54/C183 model of CrossCorrelator | the bounding box and the sub-images move with the region, so the convolutions are literally the same; bilinearity from the sum over pairs |
| C238 | `Verif/Cdi/Ambiguities.lean`: two runs of the C65 model | a symmetry permutes rows and columns and maps Fourier coefficients one by one by isometries; simulation of the two loops; shift and reversal theorems of the DFT; the Gaussian filter with mirrored borders commutes with reversal |
| C239 | `Verif/Speckle/Laws.lean`: two runs of the C224 model of xsvs | pixels are paired; simulation of buffers, counters and histograms by pairs |
| C240 | `Verif/Snip/Round.lean`: the passes in correctly rounded arithmetic with arbitrary index arrays, logarithm and exponential with relative errors | halving is exact and rounding is monotone, so averages stay between floating-point numbers; relative errors followed through two logarithms and two exponentials |
| C241 | `Verif/Recip/Laws.lean`: two or three calls of the C126 model | all rows by C126 in closed form, then rotations and matrix algebra |
| C242 | `Verif/Dpc/Laws.lean`: two or three calls of the `recon` model of C63 | linearity and symmetries of the transforms (C238's rolls and turns), the coefficients in the order of the transform (C198) |
| C243 | `Verif/Recip/GisLaws.lean`: fields of the C131 model for changed arguments | arctan2 under scaling and reflection; sum of sines |
| C244 | `Verif/Mask/Laws.lean`: two calls of the C39 model | mean and deviation of affine images and permutations; Chebyshev's inequality by induction over the pixels |
| C245 | `Verif/Order/Bragg.lean`: the formulas with a rounding after every operation, library sine and arcsine with a relative error, NaN outside [-1, 1] | calculus of relative errors; Lipschitz bound and chord bound of the sine; back scattering by computing in doubles |
| C246 | `Verif/Image/Laws.lean`: two or three calls of the C136 model | the interpolation is linear in the intensities and convex between radii; the profile determines the pixel (C136) |
| C247 | `Verif/Dicts/Wrap.lean`: a memory of dictionaries and references to them; `MD_dict.__init__`, and the calls of C14 to C17 on dictionaries with any entries | invariant: the dictionary of an `MD_dict()` is referred to by it alone; induction over histories; simulation of the earlier model |
| C248 | `Verif/Cdi/Units.lean`: two runs of the C61 to C66 model | transforms, smoothing, projections and errors commute with transposition and scaling; simulation of the loop by induction on the iterations |
| C249 | `Verif/Image/PolarLaws.lean`: two or three calls of the C139 model | C139 determines each pixel from any cell that contains it, so two calls agree when their cells correspond; direct calculation for superposition, turns and units |
| C250 | `Verif/Feature/Laws.lean`: two calls of fit_quad_to_peak, refine_*, find_largest_peak, align_and_scale | the squared deviation is strictly convex on three different abscissae, so the minimiser is unique; an affine change of the samples is a bijection of the parabolas; induction on the spectra |
| C251 | `Verif/Version/Props.lean`: get_versions of _version.py with everything it calls in the configured style, on strings | unique decomposition of a string at the last hyphens, the + and the last digits; least element of a sorted list for the tags of an archive |
| C252 | `Verif/Line/Round.lean`: gaussian, lorentzian, lorentzian2, pvoigt with a rounding after every operation | every operation is monotone in the distance, and so is every rounding; accuracy by composing relative errors, the one of the exponent through exp |
| C253 | `Verif/Feature/RoiLaws.lean`: two calls of the C58 model | every check and every cut of the arrays is invariant under an ascending affine map of x; the rule by its laws |
| C254 | `Verif/Recip/Round.lean`: the arithmetic of one pixel from degrees to h, k, l with a rounding after every operation | absolute errors composed through the Lipschitz constants of sine and cosine; the arc tangent changes by at most a relative change of its argument; three-term sums |
| C255 | `Verif/Wrap/Roi.lean`: the C58 model with the differences of x wrapped into an integer type | wrapped differences are the exact ones when they fit; an unsigned difference is never negative |
| C256 | `Verif/Wrap/Centers.lean`: sums of neighbouring edges wrapped into an integer type | a sum that fits is exact; one that does not is 2^bits too small |
| C257 | `Verif/Consts/Standards.lean`: standards and the caller's lists as a store, every program a list of actions | invariant by induction over the actions; the alias as a counterexample for every standard with a reflection |
| C258 | `Verif/Recip/GisRound.lean`: the arithmetic of gisaxs with a rounding after every operation | the error calculus of C254; the argument of a point changes by at most the relative change of its coordinates |
| C259 | `Verif/Image/InterpRound.lean`: one element of np.interp with a rounding after every operation | relative errors of slope and product, the exact value as a weighted mean; monotone rounding; the counterexample evaluated in double arithmetic by the kernel |
| C260 | `Verif/Wrap/Poisson.lean`: `np.power` of integers wrapped into an integer type | the wrapped power is the power exactly if that fits; powers of two vanish modulo 2^bits |
| C261 | `Verif/Wrap/Quad.lean`: the design matrix with squares wrapped into an integer type, any least-squares solver | a fitting square is exact, then C96; the counterexample by the unique exact solution of the wrapped system |
| C262 | `Verif/Wrap/Edges.lean`: the order check of the edges with differences wrapped into an integer type; np.digitize for ascending and descending edges | the check is exact if the differences fit, and void for unsigned types; edges above and edges below add up to all edges |
| C263 | `Verif/Cross/Init.lean`: np.where, conversion to uint32, any sort, positions of the changes, slices between them | the slices are the runs of equal keys by induction; the runs of a sorted list are its selections by key |
| C264 | `Verif/Wrap/Rect.lean`: ends of rectangles and widths of boxes wrapped into an integer type | wrapping the width and then the end gives the edge back; a wrapped end is left of its start |
| C265 | `Verif/Order/Rings.lean`: the formulas with a rounding after every operation | the relative-error calculus of C245; the arctangent is concave on the positive axis, so it does not enlarge relative errors |
| C266 | `Verif/Line/TailF.lean`: gaussian_tail with a rounding after every operation, an exponential that underflows to 0, division by zero as no number | sign by monotonicity of the rounding; for gamma up to 0.025 the exponent is below -798 after all roundings |
| C267 | `Verif/Wrap/Channel.lean`: the calibration with the square of the channel wrapped into an integer type | wrapping is the identity exactly on the range of the type; squares of multiples of 256 are 0 in 16 bits |
| C268 | `Verif/Consts/Search.lean`: the search of C80 | from the characterisation C80_search of what is found |
| C269 | `Verif/Xrf/TrimLaws.lean`: trim and define_range of C73 | filters of the list of points; rounding to the nearest even is monotone |
| C270 | `Verif/Feature/Largest.lean`: filter_n_largest of C56 | the result is a prefix of one descending arrangement of the candidates, unique for different heights |
| C271 | `Verif/Stats/Laws.lean`: statistics_1D of C151 | the values of a bin are a filter of the samples, which commutes with maps, permutations and joining |
| C272 | `Verif/Roi/MeanLaws.lean`: mean_intensity of C33 | the selection of a label is a filter of the pixels, which commutes with maps, permutations and injective renamings |
| C273 | `Verif/Line/PoissonF.lean`: poisson_dist with numbers, infinity and NaN, every result overflowing on its own | 171! is above 2^1024 and 170! below 2^1023; the rules of IEEE arithmetic for infinity |
| C274 | `Verif/Line/NbinomF.lean`: nbinom_dist with numbers, infinity and NaN | the exponential of the gammaln differences is the number of ways; central binomial coefficients grow as 4^k / 2k |
| C275 | `Verif/Roi/Model.lean` | the regions of labels 1 to the largest one partition the labelled pixels; the fold of maxima splits at any point |
| C276 | `Verif/Mask/Model.lean`, `Verif/Utils/Model.lean` | steps of the threshold loop commute; a reference image resets the subtraction loop |
| C277 | `Verif/Dpc/Model.lean` | the assignments of zeros commute with additive maps and with the transposition; sums through pairs of images |
| C278 | `Verif/Roi/Model.lean` | the squares of the coordinates; digitize commutes with increasing maps; induction over the rectangles |
| C279 | `Verif/Feature/Model.lean` | through the exact condition of C57, which is monotone in window and threshold |
| C280 | `Verif/Line/Model.lean` | the energy of the channels as the only way the channel enters; period and symmetry of the cosine; erfc is not negative |
| C281 | `Verif/Utils/Model.lean` | case analysis over the forms of the call; order and floor are unchanged by increasing affine maps |
| C282 | `Verif/Recip/Model.lean` | specification by tangent and by length, sine and cosine; arctan2 as an argument of a complex number; the specification determines the angles |

Disagreements between documented behaviour and code are listed in the section "Findings".
A refuted property keeps its full English statement; the refutation is a theorem named `..._refuted`
(or similar), and what does hold is a theorem with the suffix `_partial`.

## Which parts of the code are modelled

Generated from the line citations in the comments of the model. A function is listed under "modelled" with the lines of it
that some definition cites; what a definition leaves out or replaces (library calls taken as parameters, exact instead of
floating-point arithmetic, assumptions on arguments) is said in its comment. Lines that are not cited are docstrings or are
not modelled. A function under "not modelled" has no definition at all. Test files, documentation, setup
scripts are outside the model. The compilers, CPython, NumPy, SciPy, lmfit, xraylib, netCDF4 and OpenMP are trusted to do
what the comments say they do.

| file | modelled: function (lines cited), module | not modelled |
|---|---|---|
| skbeam/_version.py | `get_keywords` (17-24), `get_config` (38), `versions_from_parentdir` (96-107), `git_versions_from_keywords` (135-176), `git_pieces_from_vcs` (180-253), `plus_or_dot` (256-259), `render_pep440_post` (301-324), `get_versions` (414-455) — Version | `register_vcs_handler`, `run_command`, `git_get_keywords`, `render_pep440`, `render_pep440_pre`, `render_pep440_old`, `render_git_describe`, `render_git_describe_long`, `render` |
| skbeam/core/accumulators/binned_statistic.py | `BinnedStatisticDD.__init__` (49-184), `BinnedStatisticDD.binmap` (187-211), `BinnedStatisticDD.flatcount` (214-219), `BinnedStatisticDD.argsort_index` (222-227), `BinnedStatisticDD.bin_edges` (230-235), `BinnedStatisticDD.bin_centers` (238-243), `BinnedStatisticDD.statistic` (246-247), `BinnedStatisticDD.statistic` (250-254), `BinnedStatisticDD.__call__` (256-349), `BinnedStatistic1D.__init__` (412-425), `BinnedStatistic1D.bin_edges` (428-433), `BinnedStatistic1D.bin_centers` (436-441), `BinnedStatistic2D.__init__` (500-511), `RPhiBinnedStatistic.__init__` (554-621), `RPhiBinnedStatistic.__call__` (655-661), `RadialBinnedStatistic.__init__` (670-734), `RadialBinnedStatistic.__call__` (736-774) — Binned | `BinnedStatistic2D.__call__` |
| skbeam/core/accumulators/histogram.pyx | `__init__` (54-99), `reset` (102-105), `fill` (108-164), `_fill1d` (165-181), `_fill2d` (182-203), `_fillnd` (204-269), `values` (276), `edges` (277-279, 281), `centers` (282-283), `find_indices` (286-289) — Hist | `_getarrayptr`, `fillonecy` |
| skbeam/core/arithmetic.py | `logical_nand` (58-93), `logical_nor` (96-129), `logical_sub` (132-167) — Mask | nothing |
| skbeam/core/calibration.py | `estimate_d_blind` (57-127), `refine_center` (139-233) — Calib | nothing |
| skbeam/core/cdi.py | `_dist` (51-76), `gauss` (79-97), `pi_modulus` (100-122), `find_support` (125-146), `cal_diff_error` (149-166), `generate_random_phase_field` (169-185), `generate_box_support` (188-207), `generate_disk_support` (210-229), `cdi_recon` (319-400) — Cdi | nothing |
| skbeam/core/constants/basic.py | `read_atomic_constants` (76-113), `BasicElement.__init__` (161-171), `BasicElement.__eq__` (190-191), `BasicElement.__lt__` (193-194) — Consts | `BasicElement.__getitem__`, `BasicElement.__repr__`, `BasicElement.__str__` |
| skbeam/core/constants/xrf.py | `XrayLibWrap.__init__` (269-275), `XrayLibWrap.all` (278-280), `XrayLibWrap.__getitem__` (282-301), `XrayLibWrap.__iter__` (303-304), `XrayLibWrap.__len__` (306-307), `XrayLibWrap.info_type` (310-315), `XrayLibWrap_Energy.__init__` (355-360), `XrayLibWrap_Energy.incident_energy` (363-367), `XrayLibWrap_Energy.incident_energy` (370-377), `XrayLibWrap_Energy.__getitem__` (379-397), `XrfElement.__init__` (503-512), `XrfElement.emission_line` (515-523), `XrfElement.cs` (526-543), `XrfElement.csb` (546-563), `XrfElement.bind_energy` (566-574), `XrfElement.jump_factor` (577-585), `XrfElement.fluor_yield` (588-596), `XrfElement.line_near` (598-622), `emission_line_search` (625-667) — Consts, Xrf | `XraylibNotInstalledError.__init__` |
| skbeam/core/constants/xrs.py | `HKL.__new__` (73-78), `HKL.length` (81-85), `PowderStandard.__init__` (122-125), `PowderStandard.__str__` (127-128), `PowderStandard.name` (133-137), `PowderStandard.reflections` (140-144), `PowderStandard.__iter__` (146-147), `PowderStandard.convert_2theta` (149-164), `PowderStandard.from_lambda_2theta_hkl` (167-198), `PowderStandard.from_d` (201-227), `PowderStandard.__len__` (229-230) — Consts | nothing |
| skbeam/core/correlation.py | `_one_time_process` (128-157), `_init_state_one_time` (236-256), `lazy_one_time` (259-410), `multi_tau_auto_corr` (413-429), `auto_corr_scat_factor` (432-480), `two_time_corr` (483-499), `lazy_two_time` (502-656), `two_time_state_to_results` (673-676), `_two_time_process` (724-754), `_init_state_two_time` (757-817), `_validate_and_transform_inputs` (860-882, 886-892), `one_time_from_two_time` (933-945), `CrossCorrelator.__init__` (984-1134), `CrossCorrelator.__call__` (1136-1234), `_cross_corr` (1237-1267) — Corr, Cross, Gens | nothing |
| skbeam/core/dpc.py | `image_reduction` (51-91), `_rss_factory` (113, 115-146), `dpc_fit` (152-204), `recon` (214-293), `dpc_runner` (301-339), `lazy_dpc` (342-453), `reconstruct_phase_from_partial_info` (456-539) — Dpc, Gens | nothing |
| skbeam/core/feature.py | `peak_refinement` (62-139), `refine_quadratic` (142-178), `refine_log_quadratic` (181-217), `filter_n_largest` (220-254), `filter_peak_height` (257-293) — Feature, Wrap | nothing |
| skbeam/core/fitting/background.py | `snip_method` (124-202) — Snip | nothing |
| skbeam/core/fitting/base/parameter_data.py | `get_para` (279-285) — Xrf | nothing |
| skbeam/core/fitting/funcs.py | `fit_quad_to_peak` (6-44) — Feature, Wrap | nothing |
| skbeam/core/fitting/lineshapes.py | `gaussian` (63-77), `lorentzian` (80-95), `lorentzian2` (98-114), `voigt` (117-139), `pvoigt` (142-159), `gausssian_step` (162-192), `gaussian_tail` (195-234), `elastic` (237-284), `compton` (287-392), `gamma_dist` (395-425), `nbinom_dist` (428-470), `poisson_dist` (473-501) — Line, Wrap | nothing |
| skbeam/core/fitting/models.py | `set_default` (57-92) — Xrf | `_gen_class_docs`, `ElasticModel.__init__`, `ComptonModel.__init__`, `Lorentzian2Model.__init__` |
| skbeam/core/fitting/xrf_model.py | `element_peak_xrf` (98-163), `ElementModel.__init__` (170-171), `_set_parameter_hint` (174-211), `_copy_model_param_hints` (214-269), `_copy_model_param_hints_EXPR` (272-323), `update_parameter_dict` (326-351), `register_strategy` (363-378), `set_parameter_bound` (381-405), `ParamController.__init__` (425-444), `ParamController._initialize_params` (446-453), `ParamController.set_strategy` (455-464), `ParamController.update_element_prop` (466-483), `ParamController.add_param` (485-543), `ParamController._add_area_param` (545-574), `sum_area` (577-606), `ModelSpectrum.__init__` (628-634, 636-643), `ModelSpectrum.setup_compton_model` (652-683), `ModelSpectrum.setup_elastic_model` (685-708), `ModelSpectrum.setup_element_model` (710-1059), `ModelSpectrum.assemble_models` (1061-1079), `get_line_energy` (1107-1137), `trim` (1140-1163), `define_range` (1166-1195), `extract_strategy` (1198-1215), `compute_escape_peak` (1218-1245), `construct_linear_model` (1248-1306), `nnls_fit` (1309-1335), `linear_spectrum_fitting` (1389-1405), `get_activated_lines` (1412-1431), `_get_activated_line` (1434-1485), `fit_per_line_nnls` (1488-1528), `fit_pixel_multiprocess_nnls` (1545-1580), `calculate_area` (1603-1615), `get_relative_cs_ratio` (1624-1649) — Wrap, Xrf | `ModelSpectrum.model_fit`, `_log_and_fit` |
| skbeam/core/image.py | `find_ring_center_acorr_1D` (52-73), `_corr_ax1` (76-101), `construct_circ_avg_image` (104-174), `construct_rphi_avg_image` (177-292) — Image, Wrap | nothing |
| skbeam/core/mask.py | `bad_to_nan_gen` (54-81), `threshold` (84-113), `margin` (116-134), `binned_outlier` (137-187) — Mask | nothing |
| skbeam/core/recip.py | `process_to_q` (131-188), `hkl_to_q` (196-214), `calibrated_pixels_to_q` (217-240), `gisaxs` (248-346) — Order, Recip | nothing |
| skbeam/core/roi.py | `rectangles` (57-96), `rings` (99-137), `ring_edges` (140-221), `segmented_rings` (224-298), `roi_max_counts` (301-324), `roi_pixel_values` (327-362), `mean_intensity` (365-410), `circular_average` (413-469), `kymograph` (472-497), `extract_label_indices` (500-533), `_make_roi` (536-562), `bar` (565-614), `box` (617-671), `lines` (674-710), `auto_find_center_rings` (713-772) — Corr, Order, Roi, Speckle, Wrap | nothing |
| skbeam/core/smoothing.py | `sgolay2d` (40-149) — Smooth, Wrap | nothing |
| skbeam/core/speckle.py | `xsvs` (61-228), `_process` (231-288), `normalize_bin_edges` (291-324) — Speckle, Wrap | nothing |
| skbeam/core/spectroscopy.py | `align_and_scale` (51-88), `find_largest_peak` (91-139), `integrate_ROI_spectrum` (142-181), `integrate_ROI` (227-351) — Feature, Wrap | `_formatter_array_regions` |
| skbeam/core/stats.py | `statistics_1D` (51-93) — Stats | nothing |
| skbeam/core/utils.py | `MD_dict.__init__` (93-99), `MD_dict.__repr__` (101-102), `MD_dict.__setitem__` (105-139), `MD_dict.__getitem__` (141-155), `MD_dict.__delitem__` (157-165), `MD_dict.__len__` (168-169), `MD_dict.__iter__` (171-172), `_iter_helper` (175-184), `verbosedict.__getitem__` (193-211), `RCParamDict.__init__` (232-237), `RCParamDict.__setitem__` (240-259), `RCParamDict.__getitem__` (261-267), `RCParamDict.__delitem__` (269-274), `RCParamDict.__len__` (276-277), `RCParamDict.__iter__` (279-280), `RCParamDict._iter_helper` (282-301), `RCParamDict.__repr__` (303-307), `RCParamDict._repr_helper` (309-337), `subtract_reference_images` (407-456), `img_to_relative_xyi` (459-517), `bin_1D` (520-563), `radial_grid` (566-596), `angle_grid` (599-635), `radius_to_twotheta` (638-656), `bin_edges` (694-793), `grid3d` (796-953), `bin_edges_to_centers` (956-973), `pairwise` (977-981), `q_to_d` (984-1007), `d_to_q` (1010-1033), `q_to_twotheta` (1036-1068), `twotheta_to_q` (1071-1106), `multi_tau_lags` (1109-1165), `geometric_series` (1168-1207), `bin_grid` (1243-1253) — Calib, Consts, Dicts, Geom, Grid, Order, Roi, Utils, Wrap | `wedge_integration` |
| skbeam/io/avizo_io.py | `_read_amira` (9-38), `_amira_data_to_numpy` (41-109), `_clean_amira_header` (112-136), `_create_md_dict` (139-232), `load_amiramesh` (253-257) — Amira | nothing |
| skbeam/io/binary.py | `read_binary` (44-91) — Io | nothing |
| skbeam/io/fit2d.py | `fit2d_save` (9-22), `read_fit2d_msk` (25-40) — Amira | nothing |
| skbeam/io/gsas_file_reader.py | `gsas_reader` (54-88), `_get_fxye_data` (91-133), `_get_esd_data` (136-184), `_get_std_data` (187-240), `_sfloat` (248-264), `_sint` (267-283) — Io | nothing |
| skbeam/io/net_cdf_io.py | `load_netCDF` (68-80) — Io | nothing |
| skbeam/io/save_powder_output.py | `save_output` (52-119), `gsas_writer` (137-242), `_validate_input` (245-272), `_create_file_path` (275-310) — Io | `_encoding_writer` |
| src/ctrans.c | `ccdToQ` (66-161, 163-202), `calcDeltaGamma` (203-221), `calcQTheta` (222-254), `calcQPhiFromQTheta` (255-272), `calcHKLFromQPhi` (273-277), `matmulti` (278-299), `gridder_3D` (302-553) — Grid, Recip | `PyInit_ctrans`, `initctrans` |

## Findings

Disagreements between documented (or evidently intended) behaviour and the code, with the theorem that states them.

| where | behaviour | theorem |
|---|---|---|
| `multi_tau_lags` | zero levels: total and table disagree | `Utils.C01_zero_levels_mismatch` |
| `bin_edges` | negative step with a minimum violates the minimum | `Utils.C03_negative_step_violates_min` |
| `bin_1D` | default `nx` is 0 bins wide when the range is below 1: samples lost | `Utils.C06_default_nx_loses_all` |
| `img_to_relative_xyi` | coordinates and pixels misaligned for every non-square image | `Utils.C07_misaligned_nonsquare` |
| `bin_grid` | a pixel can be missed by the default bins | `Utils.C08_pixel_lost` |
| `RCParamDict` | membership and iteration differ; lookup below a leaf raises TypeError | `Dicts.C13_membership_differs` |
| `MD_dict` | reading below a leaf destroys it; assignment below a leaf silently discards it | `Dicts.C14_read_destroys_leaf`, `Dicts.C15_leaf_as_branch_discards` |
| `MD_dict` | `key in md` is always True; `setdefault` never stores; `pop` ignores its default | `Dicts.C17_membership_always_true`, `Dicts.C82_setdefault_never_stores`, `Dicts.C82_pop_ignores_default` |
| `Histogram.fill` | N-D path ignores strides of its arguments | `Hist.C18_strided_nd_wrong`, `Hist.C20_strided_refuted`, `Hist.C152_strided_refuted` |
| `Histogram.fill` | rounding can address the cell after the last one | `Hist.C19_rounding_out_of_bounds` |
| `BinnedStatisticDD` | samples close to the last edge moved or lost by the decimal rounding | `Binned.C23_near_last_edge_refuted`, `Binned.C23_lost_sample_refuted`, `Binned.C24_lost_value_refuted` |
| `BinnedStatisticDD.binmap` | wrong modulus for unequal bin counts | `Binned.C25_refuted` |
| `BinnedStatisticDD(mask=...)` | overwrites the caller's array; integer arrays keep masked samples | `Binned.C26_caller_array_overwritten_refuted`, `Binned.C26_integer_masked_counted_refuted` |
| `rectangles` | a rectangle left of the image wraps around | `Roi.C27_off_image_refuted` |
| `ring_edges` | widths and spacings as lists always raise; integer spacings truncate the inner radius | `Roi.C29_two_lists_refuted`, `Roi.C29_inner_truncated_refuted` |
| `segmented_rings` | an offset angle makes labels collide and 0 appear inside a ring | `Roi.C30_offset_refuted` |
| `bar`, `box` | coordinate values ignored for vertical bars and boxes | `Roi.C31_vertical_values_ignored_refuted`, `Roi.C31_box_values_ignored_refuted` |
| `mean_intensity`, `roi_max_counts` | ValueError without background pixels; maximum at least 0 | `Roi.C33_no_background_refuted`, `Roi.C33_max_negative_refuted` |
| `margin` | edge 0 masks everything | `Mask.C37_zero_margin_refuted` |
| `bad_to_nan_gen` | frame of the first bad frame's shape reused | `Mask.C38_shapes_refuted` |
| `binned_outlier` | pixels on an edge compared with another bin; a uniform bin is masked completely | `Mask.C39_first_edge_refuted`, `Mask.C39_uniform_bin_refuted` |
| `logical_sub` | wrong with `out=x1` | `Mask.C40_sub_inplace_refuted` |
| `threshold` | all yields are one array | `Mask.C89_masks_alias_refuted` |
| `c_grid3d` | loop counter `j` of the clearing loop shared between threads: cells left uncleared or stores out of bounds | `Grid.C42_uncleared_refuted`, `Grid.C42_garbage_in_result_refuted`, `Grid.C88_race_out_of_bounds_refuted` |
| `c_grid3d` | rounding makes the variance negative: NaN error | `Grid.C43_nan_error_refuted` |
| `grid3d` | `np.spacing` shrinks a negative maximum; padding lost in rounding | `Grid.C44_negative_coordinates_refuted`, `Grid.C44_rounding_refuted` |
| `c_grid3d` | builds without OpenMP write to an array of size 0; zero bins | `Grid.C88_no_openmp_refuted`, `Grid.C88_zero_bins_refuted` |
| `lazy_one_time` | later-frame normalisation may be zero in reported rows | `Corr.C48_zero_division_reported` |
| `two_time_corr` | more images than `num_frames`: IndexError | `Corr.C52_too_many_frames` |
| `one_time_from_two_time` | cells never filled are averaged as 0 | `Corr.C85_refuted` |
| `CrossCorrelator` | shift direction opposite to the documentation | `Cross.C86_shift_direction_refuted` |
| `xsvs` | the level loop never stops early: overlapping sums at every frame | `Speckle.C55_overlap_refuted` |
| `xsvs` | average over sets updated per frame; default `max_cts` drops the brightest pixels | `Speckle.C93_sets_refuted`, `Speckle.C94_brightest_refuted` |
| `integrate_ROI` | single sample: IndexError; one sample beyond `x_max` integrated | `Feature.C58_single_sample_refuted`, `Feature.C99_beyond_limit_refuted` |
| `integrate_ROI_spectrum` | right edges instead of centres | `Feature.C59_centres_refuted` |
| `find_largest_peak` | a peak nearer to the start than the window always raises | `Feature.C98_window_at_start_refuted` |
| `image_reduction` | ROI as ndarray raises | `Dpc.C62_array_roi_refuted` |
| `reconstruct_phase_from_partial_info` | `scale` never read; no pixel size with `negate=False` raises | `Dpc.C103_scale_ignored_refuted`, `Dpc.C103_unscaled_unnegated_refuted` |
| `lazy_dpc`, `dpc_runner` | yields one mutable state; empty input UnboundLocalError | `Dpc.C105_snapshot_refuted`, `Dpc.C106_no_frames_refuted` |
| `generate_box_support` | float radius TypeError; large radius wraps | `Cdi.C64_float_radius_refuted`, `Cdi.C64_large_box_refuted` |
| `cdi_recon` | NaN average for few iterations; callback every iteration or never; `sup_error` of the previous support; in-place update | `Cdi.C65_nan_refuted`, `Cdi.C109_callback_refuted`, `Cdi.C110_first_size_refuted`, `Cdi.C111_caller_object_refuted` |
| `pi_modulus` | offset makes every modulus too small | `Cdi.C108_modulus_refuted` |
| `snip_method` | `decrease_factor` ≤ 1 never ends | `Snip.C66_needs_decrease` |
| `snip_method` | with `e_lin = 0` and an offset the windows are infinite and the call never returns | `Snip.C66_needs_slope` |
| `lorentzian2`, `gaussian_tail` | area is half / strictly smaller than stated | `Line.C67_lorentzian2_refuted`, `Line.C91_tail_area_refuted` |
| `refine_center` | row and column corrections swapped | `Calib.C100_refine_center_refuted` |
| `fit_per_line_nnls` | `use_snip=False` UnboundLocalError; r² with unsquared norm | `Xrf.C71_no_snip_refuted`, `Xrf.C118_r_squared_refuted` |
| `_get_activated_line` | K elements lose kb2–kb5, L elements gain them | `Xrf.C72_kb2_refuted` |
| `ParamController` | pileup names lack "_"; failed `add_param` lists the element | `Xrf.C74_pileup_refuted`, `Xrf.C114_failed_add_refuted` |
| `assemble_models` | raises for a non-excited element | `Xrf.C115_not_excited_refuted` |
| GSAS ESD | reader appends zero points; errors scaled, intensities not | `Io.C76_count_refuted`, `Io.C122_esd_scale_refuted` |
| GSAS FXYE, STD | positions scaled too; one-point files have NaN positions | `Io.C123_fxye_positions_refuted`, `Io.C121_single_refuted` |
| `gsas_writer` | existing file removed before the arguments are checked | `Io.C77_gsas_refuted` |
| `read_binary` | pads or truncates silently; `nx` ignored in 1-D | `Io.C78_size_refuted`, `Io.C78_1d_refuted` |
| `PowderStandard.from_d` | a short `hkl` list drops reflections | `Consts.C81_short_hkl_refuted` |
| `hkl_to_q` | norm of the Miller indices, not the length of q | `Recip.C128_hkl_norm_refuted` |
| `process_to_q` | frame "cart" is the phi frame; off-axis pixel directions are not the rays of a flat detector | `Recip.C129_cart_is_phi_refuted`, `Recip.C130_off_axis_refuted` |
| `gisaxs` | tilt correction in the wrong sense; detector sizes exchanged | `Recip.C131_tilted_refuted`, `Recip.C133_not_square_refuted` |
| `find_ring_center_acorr_1D` | a symmetric ring, and a symmetric smooth peak, are placed at pixel (0, 0) | `Image.C134_ring_refuted`, `Image.C134_peak_refuted` |
| `construct_circ_avg_image` | `left` and `right` are ignored | `Image.C137_left_right_refuted` |
| `construct_rphi_avg_image` | a full turn is rejected; the caller's angles are shifted; wrong mask shape gives TypeError | `Image.C140_full_turn_refuted`, `Image.C141_repeat_refuted`, `Image.C142_mask_shape_refuted` |
| `BinnedStatistic1D(x, bins=1)` | a sample just below the maximum is in no bin | `Binned.C143_single_bin_refuted` |
| `BinnedStatisticDD` with mask | the default range includes the masked samples | `Binned.C144_default_range_refuted` |
| `BinnedStatistic2D(bins=[a, b])` | two common edges are read as two numbers of bins | `Binned.C145_two_edges_refuted` |
| `RadialBinnedStatistic(r_map=)` | the shape of `r_map` is not checked | `Binned.C146_rmap_shape_refuted` |
| `sgolay2d` borders | the padding mirrors upwards/downwards by absolute differences, so falling images are distorted at the borders | `Smooth.C148_falling_ramp_refuted` |
| `sgolay2d(order >= window_size)` | accepted although documented as forbidden; derivative of a ramp is not its slope | `Smooth.C149_order_not_checked_refuted` |
| `compton(compton_f_tail > 0)` | area smaller than `compton_amplitude` (clipped tail) | `Line.C150_area_refuted` |
| `statistics_1D(max_x=)` | samples up to about 1e-6 bin widths above the upper limit are counted in the last bin | `Stats.C151_above_limit_refuted` |
| `roi.lines` end before the image | drawn at the opposite border instead of being cut off | `Roi.C154_negative_end_refuted` |
| `roi.lines` start beyond the image | IndexError instead of being cut off | `Roi.C154_start_beyond_refuted` |
| `generate_random_phase_field` with `cdi_recon` | the object has the unshifted pattern, the reconstruction compares with the shifted one | `Cdi.C156_shift_refuted` |
| `load_amiramesh` on a file without the data marker | reads forever, memory grows | `Amira.C157_no_marker_refuted` |
| `load_amiramesh` on any file | TypeError under Python 3 (`str.translate` with two arguments) | `Amira.C158_load_refuted` |
| `_amira_data_to_numpy(flip_z=True)` | IndexError (two ellipses) | `Amira.C158_flip_refuted` |
| `_create_md_dict` with one voxel along x | ZeroDivisionError | `Amira.C159_single_layer_refuted` |
| `_create_md_dict`, units | "pixels" whatever unit the documented header states | `Amira.C159_units_refuted` |
| `fit2d_save` with an integer mask | read back as all False | `Amira.C160_integer_mask_refuted` |
| `construct_linear_model`, entries `X_ka2_delta_center`, `X_ka2_delta_sigma` | ignored: the hints keep the expression that ties them to ka1 | `Xrf.C162_ka2_refuted` |
| `construct_linear_model`, user peak with "area" in its name | area reported is the constant epsilon | `Xrf.C163_user_name_refuted` |
| `ModelSpectrum.assemble_models`, user peak named "compton..." | not tied to the global calibration | `Xrf.C165_compton_name_refuted` |
| `get_line_energy` for the lines Ll, Ln, Mb, Mg | KeyError | `Xrf.C166_short_names_refuted` |
| area of a K line or user peak with bound type "none" | still limited to non-negative values | `Xrf.C168_area_refuted` |
| `get_para` | returns the module's own dict, so changes are seen by later callers | `Xrf.C172_get_para_refuted` |
| `load_netCDF` without scale factor | AttributeError, not the documented 1.0 | `Io.NetCdf.C174_no_scale_refuted` |
| `auto_find_center_rings` | pixels off the rings keep their grey value; value 1 looks like ring 1 | `Roi.Auto.C175_labels_refuted` |
| `auto_find_center_rings`, `no_rings=0` | UnboundLocalError | `Roi.Auto.C175_no_rings` |
| `one_time_from_two_time`, errors | divided by the number of all entries, NaN included: too small with NaN entries | `Corr.OneErr.C176_nan_refuted` |
| `XrayLibWrap(z, "cs")`, `XrayLibWrap_Energy(z, "lines", e)` | constructed, then every read raises TypeError | `Consts.WrapProps.C178_readable_refuted` |
| `multi_tau_auto_corr`, NaN pixel in one region | the frame is dropped for all regions | `Corr.C181_nan_elsewhere_refuted` |
| `multi_tau_auto_corr`, one dark region | the curves of all regions are cut off | `Corr.C181_dark_elsewhere_refuted` |
| `CrossCorrelator` with both normalisations | normalised twice: depends on the intensity unit, constant images do not give 1 | `Cross.C183_both_refuted` |
| `grid3d`, integer 0/1 mask | entries taken as row numbers: only the first two pixels are gridded, over and over | `Grid.C184_integer_mask_refuted` |
| `BinnedStatisticDD.__call__`, unknown statistic name | not refused: the uninitialised result array is returned | `Binned.C185_unknown_name_refuted` |
| `BinnedStatisticDD.__call__`, median or function | superfluous values are ignored without an error | `Binned.C185_length_refuted` |
| `refine_center`, faint images | radial bins with a sum up to 10 are dropped: any image divided by a large number raises ValueError | `Calib.C187_units_refuted` |
| `refine_center`, `phi_steps = 2` or `max_peaks = 0` | NaNs | `Calib.C187_nan_refuted` |
| `refine_center`, number of regions | phi_steps - 1 instead of phi_steps | `Calib.C187_regions_refuted` |
| `snip_method`, `spectral_binning=s` | the windows, counted in bins, are s/2 times as wide in energy as without binning | `Snip.C189_binned_refuted` |
| `lorentzian`, `pvoigt`, `sigma` | documented as the standard deviation, which these peaks do not have; it is the half width at half maximum | `Line.C194_std_refuted`, `Line.C194_half_width` |
| `lazy_one_time`, `lazy_two_time`, state handed back after the generator went on | continues from the latest image (or writes over it) instead of the image the state was yielded after | `Gens.C195_snapshot_refuted`, `Gens.C195_snapshot_two_time_refuted`, `Gens.C195_state_is_current` |
| `lazy_one_time`, image with too few pixels | IndexError after the ring cursor has moved: continuing gives a wrong curve | `Gens.C196_bad_image_refuted` |
| `lazy_one_time`, image larger than the label array | accepted silently | `Gens.C196_oversized_refuted` |
| `cdi_recon`, an iteration that no longer changes the object | the object handed back need not be a solution: its moduli can all be off, the solution is pi_modulus of another object | `Cdi.C199_stopped_refuted` |
| `Histogram` against `bin_1D`, `BinnedStatistic` | a sample exactly at the upper limit is dropped by the first and counted in the last bin by the other two | `Binning.C200_upper_limit_refuted` |
| `grid3d`, same data, same number of threads | two runs can give different sums (last bits), depending on which thread handles which point | `Grid.C202_reproducible_refuted` |
| `multi_tau_auto_corr` after `bad_to_nan_gen` | the table ends at the first lag without a pair of good frames (e.g. lag 1 when every second frame is bad), later lags with pairs are dropped | `Corr.C205_lags_refuted` |
| `process_to_q` against `radial_grid`, `radius_to_twotheta`, `twotheta_to_q` | different lengths of q for every pixel off the row and column of the direct beam; process_to_q is too long | `Recip.C207_routes_refuted` |
| `integrate_ROI` with limits between samples | both limits are moved up to the next sample, so the region is shifted and its integral wrong even for a constant signal | `Feature.C208_limits_refuted` |
| `xsvs` in double precision | standard deviations are NaN when the exact variance is of the order of the rounding errors: the averages over the sets are updated after every image, so the earlier sets are soon forgotten; two sets of 1 and 53 images suffice | `Speckle.C209_nan_refuted` |
| `BinnedStatistic`, 'std' in double precision | NaN instead of 0 for equal values, e.g. three times 0.1 | `Binned.C210_nan_refuted` |
| `bin_edges` in double precision | the overshoot that "should never happen" does happen and costs a whole bin, e.g. (-6, -1.8, step 2.1) gives one bin; (0, 1, step 0.1) gives nine | `Utils.C211_bins_refuted` |
| `subtract_reference_images`, unsigned images | pixels dimmer than the reference wrap around to large values | `Wrap.C217_dim_refuted` |
| `bin_1D`, `circular_average`, integer images | `np.histogram` sums integer weights in their own type: averages of unsigned images are capped at 2^bits / number of pixels | `Wrap.C218_ceiling`, `Wrap.C218_flat_refuted` |
| `find_ring_center_acorr_1D`, integer images | `np.correlate` wraps around: wrong centre, e.g. (0, 0) | `Wrap.C219_center_refuted` |
| `sgolay2d`, unsigned images | the mirrored borders are computed without negative numbers: wrong results at the border | `Wrap.C220_unsigned_refuted` |
| `xsvs`, integer frames | frames are added in their own type: 150 + 150 photons are counted as 44 in 8 bits | `Wrap.C221_counts_refuted` |
| `filter_peak_height`, signed integer data | the tallest peaks are dropped (`np.ptp` wraps around) | `Wrap.C222_signed_refuted` |
| `rings` then `multi_tau_auto_corr` | a ring without pixels gets no column: the curves of all later rings are found one column to the left, without a warning | `Corr.C223_empty_ring_refuted` |
| `xsvs`, image sets that are generators | without `max_cts` the generators are used up by `roi_max_counts`: every entry of the result is 0 | `Speckle.C224_generator_refuted` |
| `xsvs`, `max_cts` left out | the default leaves no entry for the largest count and the one below | `Speckle.C224_default_refuted` |
| `circular_average`, `bin_1D` | bins are differences of a running sum over all pixels: a bright pixel near the centre costs digits in every ring outside it; a beam-stop pixel of 2^53 turns the next average from 1 to 0 | `Roi.Rnd.C226_local_refuted` |
| `circular_average`, `mean_intensity` | an average of equal pixels can exceed them (0.1, three pixels) | `Roi.Rnd.C226_range_refuted`, `Roi.Rnd.C227_range_refuted` |
| `rings`, subpixel centres | a pixel within rounding of an edge can get another ring's label (centre 2^-60: distance below 1, ring from 1); whole-number centre and edges are safe | `Roi.Rnd.C230_labels_refuted` |
| `segmented_rings`, centre a few roundings below a row | the azimuth of the pixels to the right is rounded up to 2 pi, past the last segment: they get the label of the first segment of the next ring (a label that does not exist, for the last ring) | `Roi.Rnd.C231_labels_refuted` |
| `Histogram.fill`, order of the samples | the weights 2^53, 1, 1 give 2^53 in this order and 2^53 + 2 in the reverse one; cutting into calls changes nothing | `Hist.C203_order_refuted` |
| `gsas_writer`, `save_output`, process dies | the old file is removed before the new one is written: a crash can leave neither | `Io.C232_old_or_new_refuted` |
| `gsas_reader`, unfinished STD file | the number of points in the header is not checked: a file that stops after whole lines is read as a shorter pattern | `Io.C232_unnoticed_refuted` |
| `gsas_reader`, STD file cut inside a number | all points are returned, the last intensity without its last digit | `Io.C232_wrong_value_refuted` |
| `multi_tau_auto_corr`, numbers of buffers | the value for one and the same lag depends on `num_bufs` (lag 2 of five frames: 1 or 33/25) | `Corr.C233_buffers_refuted` |
| `sgolay2d`, borders | the border is extended by a rule that is not linear: neither superposition nor mirror symmetry within half a window of the border | `Smooth.C236_borders_refuted` |
| `cdi_recon`, shrink-wrap | the support depends on where the object lies: smoothing mirrors the object at the borders although the Fourier transform continues it periodically | `Cdi.C238_position_refuted` |
| `xsvs`, NaN in one region | the whole image is dropped for all regions, also those without NaN | `Speckle.C239_region_only_refuted` |
| `q_to_twotheta` | NaN for the q that `twotheta_to_q` gives for back scattering (two theta = pi) at wavelengths such as 1.09, 1.55, 1.72, 1.99: the product rounds to 1.0000000000000002 | `Order.Bragg.C245_roundtrip_refuted` |
| `MD_dict(d)` with nested dictionaries in d | reading `d["a.b"]` gives None and replaces the caller's nested dictionary under "a" by an empty MD_dict | `Dicts.Wrap.C247_nested_refuted` |
| `cdi_recon`, `pi_modulus` | the offset 1e-12 is added to amplitudes of any unit, so results depend on the unit of the pattern (much for patterns with values near 1e-12) | `Cdi.Units.C248_units_refuted` |
| `skbeam.__version__` of an archive | an untagged commit at the tip of a branch named v2 (v and a digit) is reported as version 2, without an error | `Version.C251_branch_refuted` |
| `integrate_ROI` with unsigned x | `np.diff` of unsigned numbers is never negative: descending x raises ValueError whatever the limits, x out of order is accepted and integrated | `Wrap.C255_descending_refuted`, `Wrap.C255_unsorted_refuted` |
| `import skbeam` in a git tree without tags | if `git rev-list HEAD --count` fails, `int(None)` raises TypeError and the package cannot be imported | `Version.C251_import_refuted` |
| `bin_edges_to_centers` of integer edges | the sum of two edges wraps around: edges 0 100 200 of type uint8 have centres 50 and 22 | `Wrap.C256_overflow_refuted` |
| `PowderStandard.reflections` | hands out the standard's own list: a program that shortens or sorts it changes the (process-wide) calibration standard | `Consts.C257_reflections_refuted` |
| `construct_circ_avg_image` in double arithmetic | the interpolation can leave the range of the profile by rounding: intensities 51 and 0 at radii 0.12 and 1.69 give a negative pixel just before 1.69 | `Image.Round.C259_range_refuted` |
| `poisson_dist` with integer K and counts | `np.power` wraps around in int64: at mean 10 the probability of 19 photons is negative | `Wrap.C260_negative_refuted` |
| `fit_quad_to_peak`, `refine_quadratic` with integer x | `x**2` wraps around: a count at channel 16 (15, 16, 17 of type uint8) gives a peak at -48 | `Wrap.C261_square_refuted` |
| `rings`, `segmented_rings`, `bar` with unsigned edges | `np.diff(edges) >= 0` is always true: descending edges number the rings from outside, instead of ValueError | `Wrap.C262_descending_refuted`, `Wrap.C262_segmented_refuted` |
| `CrossCorrelator` with ids that are no whole numbers below 2^32 | ids are converted to uint32: regions 1.2 and 1.7 become one | `Cross.C263_merged_refuted`, `Cross.C263_ids_refuted` |
| `rectangles` with coordinates of a small integer type | start plus width wraps around: rows 200 to 299 of type uint8 select no pixel | `Wrap.C264_lost_refuted` |
| `gaussian_tail` (and `compton`) with gamma up to 0.025 | `exp(-0.5 / gamma**2)` underflows to 0 and is divided by: every point is NaN or infinite | `Line.C266_nan_refuted` |
| `elastic`, `compton`, `element_peak_xrf` with channels of a small integer type | `x**2` wraps around: 16-bit channel 256 loses the quadratic term of the calibration | `Wrap.C267_lost_refuted`, `Wrap.C267_shifted_refuted` |
| `poisson_dist`, floats, 171 photons or more | factorial and power overflow: NaN, e.g. 200 photons at the mean 200; 0 at small means | `Line.C273_nan_refuted`, `Line.C273_zero_refuted` |
| `nbinom_dist`, many photons and modes | the coefficient overflows although the probability is at most 1: infinite or NaN, e.g. 600 photons in 601 modes | `Line.C274_infinite_refuted`, `Line.C274_modes_refuted` |

Seen while reading, not formalised: stray `print("here")` in `MD_dict.__setitem__`; validators of `RCParamDict` never
effective; `ignore_nan` parsed with format "d" into a C int; `BasicElement` defines `__eq__` without `__hash__` and is therefore unhashable.

## Axioms per theorem

Every manifest theorem depends on a subset of `propext`, `Classical.choice`, `Quot.sound` (p, c, q below).

* C01 (proved): `Utils.C01_lag_table` p c q; `Utils.C01_odd_rejected` p; `Utils.C01_zero_levels_mismatch` p
* C02 (proved): `Utils.C02_result` p c q; `Utils.C02_last_le` p c q; `Utils.C02_terminates` p c q; `Utils.C02_diverges` p c q
* C03 (proved): `Utils.C03_accepts_iff` p c q; `Utils.C03_valueError_iff` p c q; `Utils.C03_nbins` p c q; `Utils.C03_step` p c q; `Utils.C03_min` p c q; `Utils.C03_max` p c q; `Utils.C03_gap` p c q; `Utils.C03_negative_step_violates_min` p c q
* C04 (proved): `Utils.C04_subtract` p c q; `Utils.C04_valueError_iff` p c q
* C05 (proved): `Utils.C05_centers` p c q; `Utils.C05_inside` p c q; `Utils.C05_pairwise` p c q
* C06 (proved): `Utils.C06_bin1D` p c q; `Utils.C06_default_limits` p c q; `Utils.C06_default_nx_loses_all` p c q
* C07 (partial): `Utils.C07_aligned_square_partial` p c q; `Utils.C07_misaligned_nonsquare` p c q; `Utils.C07_pixel_size_validation` p c q
* C08 (partial): `Utils.C08_used_pixels` p c q; `Utils.C08_all_used_iff` p c q; `Utils.C08_pixel_lost` p c q; `Utils.C08_no_double_count_partial` p c q
* C09 (proved): `Geom.C09_radius` p c q; `Geom.C09_angle` p c q; `Geom.C09_angle_shape` p c q; `Geom.C09_position_determined` p c q
* C10 (proved): `Geom.C10_q_d_inverse` p c q; `Geom.C10_q_d_product` p c q; `Geom.C10_twotheta_of_q` p c q; `Geom.C10_q_of_twotheta` p c q; `Geom.C10_q_strictly_increasing` p c q; `Geom.C10_twotheta_strictly_increasing` p c q; `Geom.C10_bragg` p c q; `Geom.C10_radius_to_twotheta` p c q
* C11 (proved): `Dicts.C11_refines_path_map` p c q; `Dicts.C11_read_after_write` p q
* C12 (proved): `Dicts.C12_rejected_assignment` p c q; `Dicts.C12_rejected_deletion` p c q
* C13 (proved): `Dicts.C13_membership` p c q; `Dicts.C13_iteration_lists_leaves` p c q; `Dicts.C13_membership_differs` p c q
* C14 (partial): `Dicts.C14_read_destroys_leaf` p q; `Dicts.C14_read_keeps_leaves_partial` p c q
* C15 (partial): `Dicts.C15_set_then_get_partial` p q; `Dicts.C15_leaf_as_branch_discards` p q
* C16 (proved): `Dicts.C16_normalises` p c q; `Dicts.C16_stored` p c q
* C17 (partial): `Dicts.C17_membership_always_true` p; `Dicts.C17_membership_disagrees` p c q; `Dicts.C17_iterated_are_members_partial` p
* C18 (partial): `Hist.C18_fill_cells_partial` p c q; `Hist.C18_cells_cover` p q; `Hist.C18_in_range_iff` p c q; `Hist.C18_strided_nd_wrong` p c q
* C19 (partial): `Hist.C19_no_bad_index_partial` p c q; `Hist.C19_rounding_out_of_bounds` p c q
* C20 (partial): `Hist.C20_strided_refuted` p c q; `Hist.C20_type_independent_partial` p c q
* C21 (proved): `Hist.C21_order_and_batch_independent` p c q; `Hist.C21_total_conserved` p c q; `Hist.C21_reset` p c q
* C22 (proved): `Hist.C22_rejects_iff` p c q; `Hist.C22_max_dims` p q
* C23 (partial): `Binned.C23_cells_partial` p c q; `Binned.C23_near_last_edge_refuted` p c q; `Binned.C23_lost_sample_refuted` p c q
* C24 (partial): `Binned.C24_sum_partial` p c q; `Binned.C24_mean_partial` p c q; `Binned.C24_std_partial` p c q; `Binned.C24_function_partial` p c q; `Binned.C24_lost_value_refuted` p c q
* C25 (partial): `Binned.C25_equal_bins_partial` p c q; `Binned.C25_refuted` p
* C26 (partial): `Binned.C26_caller_array_overwritten_refuted` p c q; `Binned.C26_integer_masked_counted_refuted` p c q; `Binned.C26_sequence_unchanged_partial` p c q; `Binned.C26_masked_nowhere_partial` p c q
* C27 (partial): `Roi.C27_rectangles_partial` p c q; `Roi.C27_off_image_refuted` p c q
* C28 (proved): `Roi.C28_rings` p c q
* C29 (partial): `Roi.C29_result_partial` p c q; `Roi.C29_accepted_partial` p c q; `Roi.C29_two_lists_refuted` p c q; `Roi.C29_inner_truncated_refuted` p c q
* C30 (partial): `Roi.C30_labels_partial` p c q; `Roi.C30_equal_segments_partial` p c q; `Roi.C30_offset_refuted` p c q
* C31 (partial): `Roi.C31_bar_partial` p c q; `Roi.C31_bar_values_partial` p c q; `Roi.C31_bar_rejects` p c q; `Roi.C31_vertical_values_ignored_refuted` p c q; `Roi.C31_box_values_ignored_refuted` none; `Roi.C31_box_partial` p c q
* C32 (proved): `Roi.C32_indices` p c q
* C33 (partial): `Roi.C33_pixel_values` p c q; `Roi.C33_mean_partial` p c q; `Roi.C33_no_background_refuted` p c q; `Roi.C33_max_counts_partial` p c q; `Roi.C33_max_negative_refuted` p q
* C34 (proved): `Roi.C34_average` p c q; `Roi.C34_default_limits` p c q
* C35 (proved): `Roi.C35_kymograph` p c q; `Roi.C35_rejects` p q
* C36 (proved): `Mask.C36_threshold` p c q; `Mask.C36_default_mask` p q
* C37 (partial): `Mask.C37_margin_partial` p c q; `Mask.C37_zero_margin_refuted` p
* C38 (partial): `Mask.C38_bad_frames_partial` p c q; `Mask.C38_shapes_refuted` p q
* C39 (partial): `Mask.C39_outlier_partial` p c q; `Mask.C39_first_edge_refuted` p c q; `Mask.C39_uniform_bin_refuted` p c q
* C40 (partial): `Mask.C40_new_array` p q; `Mask.C40_nand_nor` p q; `Mask.C40_sub_partial` p q; `Mask.C40_sub_inplace_refuted` p q
* C41 (proved): `Grid.C41_voxel_sums` p c q; `Grid.C41_voxels_disjoint` p c q
* C42 (partial): `Grid.C42_uncleared_refuted` p c q; `Grid.C42_garbage_in_result_refuted` p c q; `Grid.C42_sequential_partial` p c q
* C43 (partial): `Grid.C43_mean_and_error_partial` p c q; `Grid.C43_nan_error_refuted` p c q
* C44 (partial): `Grid.C44_all_points_counted_partial` p c q; `Grid.C44_negative_coordinates_refuted` p c q; `Grid.C44_negative_coordinates_witness` p c q; `Grid.C44_rounding_refuted` p c q
* C45 (proved): `Grid.C45_mask` p c q; `Grid.C45_no_mask` p
* C46 (proved): `Corr.C46_rows_are_pair_means` p c q; `Corr.C46_g2_is_normalised_pair_mean` p c q; `Corr.C46_one_call_uses_every_frame` p c q; `Corr.C46_indices_in_bounds` p c q
* C47 (proved): `Corr.C47_instalments` p c q; `Corr.C47_batches` p c q; `Corr.C47_one_result_per_frame` p c q
* C48 (partial): `Corr.C48_zero_division_reported` p c q; `Corr.C48_past_nonzero_partial` p c q; `Corr.C48_positive_data_partial` p c q
* C49 (proved): `Corr.C49_rows_match_lags` p c q
* C50 (proved): `Corr.C50_renumbering` p c q; `Corr.C50_injective` p c q; `Corr.C50_every_column_has_pixels` p c q
* C51 (proved): `Corr.C51_symmetric` p c q; `Corr.C51_entries` p c q
* C52 (proved): `Corr.C52_two_time_matrix` p c q; `Corr.C52_too_many_frames` p c q
* C53 (proved): `Corr.C53_diagonal_means` p c q
* C54 (proved): `Cross.C54_displacement_sums` p c q; `Cross.C54_all_displacements_present` p c q; `Cross.C54_mask_counts_pairs` p c q; `Cross.C54_inversion` p c q
* C55 (partial): `Speckle.C55_actual` p c q; `Speckle.C55_level0_partial` p c q; `Speckle.C55_overlap_refuted` p c q
* C56 (proved): `Feature.C56_n_largest` p q; `Feature.C56_bad_limit` p q
* C57 (proved): `Feature.C57_peak_height` p c q; `Feature.C57_outside` p q
* C58 (partial): `Feature.C58_errors_partial` p c q; `Feature.C58_single_sample_refuted` p c q; `Feature.C58_descending` p c q
* C59 (partial): `Feature.C59_right_edges_partial` p c q; `Feature.C59_centres_refuted` p c q
* C60 (proved): `Feature.C60_align_gaussians` p c q; `Feature.C60_affine` p c q
* C61 (proved): `Dpc.C61_raster` p c q; `Dpc.C61_resume` p
* C62 (partial): `Dpc.C62_image_reduction_partial` p c q; `Dpc.C62_array_roi_refuted` p c q
* C63 (proved): `Dpc.C63_pad_crop` p q; `Dpc.C63_recon` p c q
* C64 (partial): `Cdi.C64_box_partial` p c q; `Cdi.C64_large_box_refuted` p q; `Cdi.C64_float_radius_refuted` none; `Cdi.C64_disk` p c q
* C65 (partial): `Cdi.C65_average_partial` p c q; `Cdi.C65_nan_refuted` p c q; `Cdi.C65_default_start_partial` p c q; `Cdi.C65_flag` p c q
* C66 (proved): `Snip.C66_snip` p c q; `Snip.C66_pass_lowers` p c q; `Snip.C66_needs_decrease` p c q; `Snip.C66_empty` p c q; `Snip.C66_needs_slope` p c q; `Snip.C66_needs_range` p c q
* C67 (partial): `Line.C67_gaussian` p c q; `Line.C67_lorentzian` p c q; `Line.C67_pvoigt` p c q; `Line.C67_lorentzian2_refuted` p c q; `Line.C67_peaks_partial` p c q
* C68 (proved): `Line.C68_poisson` p c q; `Line.C68_nbinom` p c q; `Line.C68_gamma` p c q
* C69 (proved): `Line.C69_energy` p c q; `Line.C69_peak` p c q
* C70 (proved): `Xrf.C70_bounds` p q; `Xrf.C70_element_constraint` p c q; `Xrf.C70_register` p
* C71 (partial): `Xrf.C71_schedule_partial` p q; `Xrf.C71_snip_partial` p c q; `Xrf.C71_no_snip_refuted` p c q
* C72 (partial): `Xrf.C72_lines_partial` p c q; `Xrf.C72_kb2_refuted` p c q
* C73 (proved): `Xrf.C73_trim` p q; `Xrf.C73_define_range` p c q
* C74 (partial): `Xrf.C74_names_partial` p c q; `Xrf.C74_pileup_refuted` p c q; `Xrf.C74_pileup_area_partial` p c q
* C75 (proved): `Io.C75_std` p c q; `Io.C75_integers` p c q
* C76 (partial): `Io.C76_count_refuted` p c q; `Io.C76_esd_partial` p c q
* C77 (partial): `Io.C77_save_output_partial` p c q; `Io.C77_gsas_partial` p c q; `Io.C77_gsas_refuted` p c q
* C78 (partial): `Io.C78_read_partial` p c q; `Io.C78_size_refuted` p q; `Io.C78_1d_refuted` p q
* C79 (proved): `Consts.C79_lookup` p c q; `Consts.C79_order` p c q; `Consts.C79_data` p c q
* C80 (proved): `Consts.C80_line_near` p c q; `Consts.C80_search` p c q; `Consts.C80_default` p c q
* C81 (partial): `Consts.C81_sorted` p c q; `Consts.C81_from_d_partial` p c q; `Consts.C81_short_hkl_refuted` p c q; `Consts.C81_two_theta` p c q
* C82 (partial): `Dicts.C82_setdefault_never_stores` p q; `Dicts.C82_pop_ignores_default` p c q; `Dicts.C82_pop_present_partial` p c q
* C83 (proved): `Corr.C83_peeking_is_harmless` p c q
* C84 (proved): `Corr.C84_two_time_instalments` p c q
* C85 (partial): `Corr.C85_first_level_partial` p c q; `Corr.C85_refuted` p c q; `Corr.C85_single_level_partial` p c q
* C86 (partial): `Cross.C86_peak_position_partial` p c q; `Cross.C86_shift_direction_refuted` p c q; `Cross.C86_shift_direction_witness` p c q
* C87 (proved): `Cross.C87_constant_images` p c q
* C88 (partial): `Grid.C88_race_out_of_bounds_refuted` p c q; `Grid.C88_no_openmp_refuted` p; `Grid.C88_zero_bins_refuted` p c q; `Grid.C88_accumulation_in_bounds_partial` p c q
* C89 (partial): `Mask.C89_masks_alias_refuted` p q; `Mask.C89_bad_stays_bad_partial` p c q
* C90 (proved): `Line.C90_poisson_mean` p c q; `Line.C90_nbinom_mean` p c q
* C91 (partial): `Line.C91_tail_area_refuted` p c q; `Line.C91_below_centre_partial` p c q
* C92 (proved): `Line.C92_elastic_width` p c q; `Line.C92_elastic_fwhm` p c q
* C93 (partial): `Speckle.C93_single_image_sets_partial` p c q; `Speckle.C93_sets_refuted` p c q
* C94 (partial): `Speckle.C94_entries_partial` p c q; `Speckle.C94_brightest_refuted` p c q
* C95 (proved): `Speckle.C95_std_not_nan` p c q
* C96 (proved): `Feature.C96_quadratic` p c q; `Feature.C96_gaussian` p c q
* C97 (proved): `Feature.C97_peak_refinement` p c q
* C98 (partial): `Feature.C98_gaussian_no_window` p c q; `Feature.C98_gaussian_window_partial` p c q; `Feature.C98_window_at_start_refuted` p c q
* C99 (partial): `Feature.C99_region_samples_partial` p c q; `Feature.C99_beyond_limit_refuted` p c q; `Feature.C99_sum_over_regions` p c q
* C100 (partial): `Calib.C100_refine_center_refuted` p c q; `Calib.C100_equal_errors_partial` p c q
* C101 (proved): `Calib.C101_distance` p c q; `Calib.C101_mean_and_spread` p c q
* C102 (proved): `Dpc.C102_recon_gradient` p c q
* C103 (partial): `Dpc.C103_scale_ignored_refuted` p c q; `Dpc.C103_unscaled_unnegated_refuted` p c q; `Dpc.C103_scale_false_dependent_refuted` p c q; `Dpc.C103_unscaled_partial` p c q
* C104 (proved): `Dpc.C104_cost_minimum` p c q
* C105 (partial): `Dpc.C105_snapshot_refuted` p c q; `Dpc.C105_last_partial` p
* C106 (partial): `Dpc.C106_runner_partial` p c q; `Dpc.C106_no_frames_refuted` p c q; `Dpc.C106_non_square` p c q
* C107 (proved): `Cdi.C107_gauss` p c q; `Cdi.C107_positions` p q
* C108 (partial): `Cdi.C108_modulus_partial` p c q; `Cdi.C108_modulus_refuted` p c q
* C109 (partial): `Cdi.C109_callback_refuted` p c q; `Cdi.C109_callback_partial` p c q
* C110 (partial): `Cdi.C110_previous_size_partial` p c q; `Cdi.C110_first_size_refuted` p c q
* C111 (partial): `Cdi.C111_caller_object_refuted` p c q; `Cdi.C111_last_iterate_partial` p c q
* C112 (proved): `Cdi.C112_fixed_point` p c q; `Cdi.C112_offset_moves` p c q
* C113 (proved): `Snip.C113_monotone` p c q; `Snip.C113_constant` p c q
* C114 (partial): `Xrf.C114_failed_add_refuted` p c q; `Xrf.C114_failed_add_partial` p c q
* C115 (partial): `Xrf.C115_assemble_partial` p c q; `Xrf.C115_not_excited_refuted` p c q
* C116 (proved): `Xrf.C116_history` p c q
* C117 (proved): `Xrf.C117_weighted` p c q
* C118 (partial): `Xrf.C118_r_squared_partial` p c q; `Xrf.C118_r_squared_refuted` p c q
* C119 (proved): `Xrf.C119_peak_area` p c q; `Xrf.C119_area_map` p c q; `Xrf.C119_first_peak` p c q; `Xrf.C119_sum_area` p c q
* C120 (proved): `Xrf.C120_components_sum` p c q
* C121 (partial): `Io.C121_positions_partial` p c q; `Io.C121_single_refuted` p c q
* C122 (partial): `Io.C122_esd_scale_partial` p c q; `Io.C122_esd_scale_refuted` p c q
* C123 (partial): `Io.C123_fxye_partial` p c q; `Io.C123_fxye_positions_refuted` p c q
* C124 (proved): `Io.C124_save_output` p c q
* C125 (proved): `Consts.C125_line_constants` p c q; `Consts.C125_shell_constants` p c q; `Consts.C125_mapping` p c q; `Consts.C125_values` p c q
* C126 (proved): `Recip.C126_every_schedule` p c q
* C127 (proved): `Recip.C127_bragg` p c q
* C128 (partial): `Recip.C128_hkl_partial` p c q; `Recip.C128_hkl_norm_refuted` p c q
* C129 (partial): `Recip.C129_accepts_iff_partial` p c q; `Recip.C129_cart_is_phi_refuted` p c q
* C130 (partial): `Recip.C130_on_axis_partial` p c q; `Recip.C130_off_axis_refuted` p c q
* C131 (partial): `Recip.C131_specular_partial` p c q; `Recip.C131_tilted_refuted` p c q
* C132 (proved): `Recip.C132_length` p c q
* C133 (partial): `Recip.C133_square_partial` p c q; `Recip.C133_not_square_refuted` p c q
* C134 (partial): `Image.C134_best_mirror_partial` p c q; `Image.C134_ring_refuted` p c q; `Image.C134_peak_refuted` p c q
* C135 (proved): `Image.C135_center_in_image` p c q
* C136 (proved): `Image.C136_pixel_is_profile` p c q; `Image.C136_center_needs_dims` p c q; `Image.C136_radially_symmetric` p c q
* C137 (partial): `Image.C137_left_right_refuted` p c q; `Image.C137_right_zero_partial` p c q
* C138 (proved): `Image.C138_default_size_crops_nothing` p c q
* C139 (proved): `Image.C139_polar_bilinear` p c q; `Image.C139_masked` p c q
* C140 (partial): `Image.C140_full_turn_refuted` p c q; `Image.C140_accepts_partial` p c q
* C141 (partial): `Image.C141_unchanged_partial` p c q; `Image.C141_repeat_refuted` p c q
* C142 (partial): `Image.C142_mask_shape_partial` p c q; `Image.C142_mask_shape_refuted` p c q
* C143 (partial): `Binned.C143_equal_bins` p c q; `Binned.C143_bad_bins` p c q; `Binned.C143_all_counted_partial` p c q; `Binned.C143_single_bin_refuted` p c q
* C144 (partial): `Binned.C144_masked_irrelevant_partial` p c q; `Binned.C144_default_range_refuted` p c q; `Binned.C144_mask_length` p c q
* C145 (partial): `Binned.C145_scalar_and_length` p c q; `Binned.C145_explicit_edges` p c q; `Binned.C145_edges_1d` p c q; `Binned.C145_common_edges_partial` p c q; `Binned.C145_two_edges_refuted` p c q; `Binned.C145_one_element` p c q
* C146 (partial): `Binned.C146_radial_partial` p c q; `Binned.C146_rphi_partial` p c q; `Binned.C146_shapes_checked` p c q; `Binned.C146_rmap_shape_refuted` p c q
* C147 (proved): `Smooth.C147_polynomials` p c q; `Smooth.C147_derivatives` p c q
* C148 (partial): `Smooth.C148_scale_and_shift` p c q; `Smooth.C148_rising_plane_partial` p c q; `Smooth.C148_falling_ramp_refuted` p c q
* C149 (partial): `Smooth.C149_errors` p c q; `Smooth.C149_order_not_checked_refuted` p c q
* C150 (partial): `Line.C150_area_partial` p c q; `Line.C150_area_refuted` p c q; `Line.C150_floor` p c q
* C151 (partial): `Stats.C151_bins_partial` p c q; `Stats.C151_all_used` p c q; `Stats.C151_errors` p c q; `Stats.C151_above_limit_refuted` p c q
* C152 (partial): `Hist.C152_edges` p c q; `Hist.C152_fill_partial` p c q; `Hist.C152_strided_refuted` p c q
* C153 (proved): `Speckle.C153_edges` p c q; `Speckle.C153_missing_mean` p c q
* C154 (partial): `Roi.C154_labels_partial` p c q; `Roi.C154_ends` p c q; `Roi.C154_four_numbers` p c q; `Roi.C154_negative_end_refuted` p c q; `Roi.C154_start_beyond_refuted` p q
* C155 (proved): `Cdi.C155_diff_error` p c q; `Cdi.C155_error_dict` p c q
* C156 (partial): `Cdi.C156_random_start` p c q; `Cdi.C156_shift_refuted` p c q
* C157 (partial): `Amira.C157_split_partial` p c q; `Amira.C157_no_marker_refuted` p c q
* C158 (partial): `Amira.C158_load_refuted` p c q; `Amira.C158_flip_refuted` p c q; `Amira.C158_shape_partial` p c q; `Amira.C158_negative` p c q
* C159 (partial): `Amira.C159_metadata_partial` p c q; `Amira.C159_metadata_3d_partial` p c q; `Amira.C159_single_layer_refuted` p c q; `Amira.C159_units_refuted` p c q
* C160 (partial): `Amira.C160_round_trip_partial` p c q; `Amira.C160_integer_mask_refuted` p c q; `Amira.C160_errors` p c q
* C161 (proved): `Xrf.C161_columns` p c q
* C162 (partial): `Xrf.C162_ka2_refuted` p c q; `Xrf.C162_own_line_partial` p c q
* C163 (partial): `Xrf.C163_main_line_partial` p c q; `Xrf.C163_user_name_refuted` p c q; `Xrf.C163_user_peak_partial` p c q; `Xrf.C163_area_dict` p c q
* C164 (proved): `Xrf.C164_order` p c q; `Xrf.C164_scatter` p c q; `Xrf.C164_bad_name` p c q
* C165 (partial): `Xrf.C165_compton_name_refuted` p c q; `Xrf.C165_tied_partial` p c q
* C166 (partial): `Xrf.C166_line_energy_partial` p c q; `Xrf.C166_short_names_refuted` p c q; `Xrf.C166_bad_name` p c q; `Xrf.C166_pileup` p c q
* C167 (proved): `Xrf.C167_escape` p c q; `Xrf.C167_no_calibration` p c q; `Xrf.C167_strategy` p q
* C168 (partial): `Xrf.C168_elements_partial` p c q; `Xrf.C168_tied_partial` p c q; `Xrf.C168_lone_partial` p c q; `Xrf.C168_bounds_partial` p c q; `Xrf.C168_bad_bound` p c q; `Xrf.C168_area_refuted` p c q
* C169 (proved): `Xrf.C169_update` p c q; `Xrf.C169_common_energy` p c q
* C170 (proved): `Line.C170_convolution` p c q; `Line.C170_area` p c q; `Line.C170_gaussian_limit` p c q; `Line.C170_shape` p c q
* C171 (proved): `Xrf.C171_tables` p c q; `Xrf.C171_session` p c q; `Xrf.C171_linear_free` p c q
* C172 (partial): `Xrf.C172_get_para_refuted` p c q; `Xrf.C172_get_para_partial` none; `Xrf.C172_set_default` p q
* C173 (proved): `Corr.C173_siegert` p c q; `Corr.C173_decay` p c q; `Corr.C173_identifiable` p c q
* C174 (partial): `Io.NetCdf.C174_scaled` p c q; `Io.NetCdf.C174_voxel_size` p c q; `Io.NetCdf.C174_missing` p c q; `Io.NetCdf.C174_no_scale_refuted` p c q; `Io.NetCdf.C174_scale_one_partial` p c q
* C175 (partial): `Roi.Auto.C175_result` p c q; `Roi.Auto.C175_points_used_once` p c q; `Roi.Auto.C175_no_rings` p c q; `Roi.Auto.C175_labels_refuted` p c q; `Roi.Auto.C175_labels_partial` p c q
* C176 (partial): `Corr.C176_shape` p c q; `Corr.C176_standard_error_partial` p c q; `Corr.C176_general_partial` p c q; `Corr.C176_nan_refuted` p c q
* C177 (proved): `Cdi.C177_support` p c q; `Cdi.C177_no_smoothing` p c q; `Cdi.C177_empty` p c q; `Cdi.C177_thresholds` p c q; `Cdi.C177_scale` p c q; `Cdi.C177_uniform` p c q; `Cdi.C177_reconstruction` p c q
* C178 (partial): `Consts.C178_attributes` p c q; `Consts.C178_session` p c q; `Consts.C178_session_value` p c q; `Consts.C178_kinds` p; `Consts.C178_readable_refuted` p c q; `Consts.C178_readable_partial` p c q
* C179 (proved): `Dicts.C179_history_independent` p c q; `Dicts.C179_text` p c q; `Dicts.C179_layout` p c q
* C180 (proved): `Corr.C180_one_time_scale` p c q; `Corr.C180_two_time_scale` p c q; `Corr.C180_unlabelled` p c q
* C181 (partial): `Corr.C181_two_time` p c q; `Corr.C181_one_time_partial` p c q; `Corr.C181_nan_elsewhere_refuted` p c q; `Corr.C181_dark_elsewhere_refuted` p c q
* C182 (proved): `Corr.C182_routes_agree` p c q; `Corr.C182_needs_constant_intensity` p c q
* C183 (partial): `Cross.C183_formulas` p c q; `Cross.C183_call` p c q; `Cross.C183_symmetry` p c q; `Cross.C183_scale_partial` p c q; `Cross.C183_both_refuted` p c q
* C184 (partial): `Grid.C184_integer_mask_refuted` p q; `Grid.C184_outcome` p q; `Grid.C184_witness` p q; `Grid.C184_boolean_partial` p c q
* C185 (partial): `Binned.C185_history` p c q; `Binned.C185_values_partial` p c q; `Binned.C185_median` p c q; `Binned.C185_names` p c q; `Binned.C185_unknown_name_refuted` p c q; `Binned.C185_length_partial` p c q; `Binned.C185_length_refuted` p c q; `Binned.C185_centers` p c q
* C186 (proved): `Calib.C186_peaks` p c q; `Calib.C186_errors` p c q; `Calib.C186_exact` p c q; `Calib.C186_units` p c q
* C187 (partial): `Calib.C187_sectors` p c q; `Calib.C187_intensity` p c q; `Calib.C187_regions_refuted` p c q; `Calib.C187_units_partial` p c q; `Calib.C187_units_refuted` p c q; `Calib.C187_missing_ring` p c q; `Calib.C187_nan_refuted` p c q; `Calib.C187_pixels` p c q; `Calib.C187_ring_radius` p c q; `Calib.C187_length_unit` p c q; `Calib.C187_max_peaks` p c q; `Calib.C187_inside_out` p c q; `Calib.C187_default_bins` p c q
* C188 (proved): `Line.C188_contrast` p c q; `Line.C188_poisson_pairs` p c q; `Line.C188_poisson_limit` p c q; `Line.C188_gamma_moments` p c q; `Line.C188_poisson_gamma` p c q
* C189 (partial): `Snip.C189_window_partial` p c q; `Snip.C189_binned_refuted` p c q; `Snip.C189_exact` p c q; `Snip.C189_defaults` p c q; `Snip.C189_energy_unit` p c q; `Snip.C189_no_width` p c q
* C190 (proved): `Corr.C190_zero_lag` p c q; `Corr.C190_zero_lag_at_least_one` p c q; `Corr.C190_nonneg` p c q; `Corr.C190_two_time_covariance` p c q; `Corr.C190_two_time_bounds` p c q
* C191 (proved): `Corr.C191_one_time` p c q; `Corr.C191_two_time` p c q; `Corr.C191_needs_whole_groups` p c q
* C192 (proved): `Cross.C192_cauchy` p c q; `Cross.C192_peak` p c q; `Cross.C192_total` p c q; `Cross.C192_centre` p c q; `Cross.C192_centre_index` p q
* C193 (proved): `Cdi.C193_modulus_nearest` p c q; `Cdi.C193_modulus_twice` p c q; `Cdi.C193_energy` p c q; `Cdi.C193_support_nearest` p c q
* C194 (partial): `Line.C194_centre` p c q; `Line.C194_std_partial` p c q; `Line.C194_std_refuted` p c q; `Line.C194_half_width` p c q; `Line.C194_step` p c q
* C195 (partial): `Gens.C195_independent_partial` p c q; `Gens.C195_resume_partial` p c q; `Gens.C195_shared` p q; `Gens.C195_one_time_partial` p c q; `Gens.C195_two_time_partial` p c q; `Gens.C195_dpc_partial` p c q; `Gens.C195_state_is_current` p c q; `Gens.C195_snapshot_refuted` p c q; `Gens.C195_snapshot_two_time_refuted` p c q; `Gens.C195_counter` p c q
* C196 (partial): `Gens.C196_bad_image_partial` p c q; `Gens.C196_raises_iff` p c q; `Gens.C196_oversized_refuted` p c q; `Gens.C196_bad_image_refuted` p c q
* C197 (proved): `Dpc.C197_identified` p c q; `Dpc.C197_minima` p c q; `Dpc.C197_unidentified` p c q; `Dpc.C197_frame` p c q; `Dpc.C197_amplitude` p c q
* C198 (proved): `Dpc.C198_least_squares` p c q; `Dpc.C198_unique` p c q
* C199 (partial): `Cdi.C199_stopped_partial` p c q; `Cdi.C199_stopped_refuted` p c q
* C200 (partial): `Binning.C200_histogram_partial` p c q; `Binning.C200_upper_limit_refuted` p c q; `Binning.C200_binned_partial` p c q; `Binning.C200_grid` p c q
* C201 (partial): `Binning.C201_bin1D` p c q; `Binning.C201_histogram_partial` p c q; `Binning.C201_grid` p c q
* C202 (partial): `Grid.C202_accuracy` p c q; `Grid.C202_runs_agree_partial` p c q; `Grid.C202_members` p c q; `Grid.C202_reproducible_refuted` p c q
* C203 (partial): `Hist.C203_cells_partial` p c q; `Hist.C203_neighbour` p c q; `Hist.C203_accuracy_partial` p c q; `Hist.C203_counts_partial` p c q; `Hist.C203_batches_partial` p c q; `Hist.C203_order_refuted` p c q
* C204 (proved): `Corr.C204_rows` p c q; `Corr.C204_g2` p c q; `Corr.C204_eps` p c q
* C205 (partial): `Corr.C205_one_time_partial` p c q; `Corr.C205_two_time` p c q; `Corr.C205_lags_refuted` p c q
* C206 (proved): `Roi.C206_rearranged` p c q; `Roi.C206_flip` p c q; `Roi.C206_quarter_turn` p c q; `Roi.C206_linear` p c q; `Roi.C206_bounds` p c q; `Roi.C206_monotone` p c q
* C207 (partial): `Recip.C207_routes_partial` p c q; `Recip.C207_routes_refuted` p c q
* C208 (partial): `Feature.C208_quadratic_partial` p c q; `Feature.C208_split_partial` p c q; `Feature.C208_limits_refuted` p c q
* C209 (partial): `Speckle.C209_probabilities` p c q; `Speckle.C209_std_partial` p c q; `Speckle.C209_nan_refuted` p c q
* C210 (partial): `Binned.C210_sum_partial` p c q; `Binned.C210_mean_partial` p c q; `Binned.C210_std_partial` p c q; `Binned.C210_nan_refuted` p c q
* C211 (partial): `Utils.C211_edges_partial` p c q; `Utils.C211_bins_refuted` p c q; `Utils.C211_resolution_refuted` p c q
* C212 (proved): `Roi.C212_ring_edges` p c q; `Roi.C212_equal_rings` p c q; `Roi.C212_segments_of_rings` p c q; `Roi.C212_box_of_bars` p c q; `Roi.C212_ring_means` p c q; `Roi.C212_kymograph_mean` p c q; `Roi.C212_parts` p c q
* C213 (proved): `Xrf.C213_composition` p c q; `Xrf.C213_units` p c q; `Xrf.C213_more_components` p c q; `Xrf.C213_decomposition` p c q
* C214 (partial): `Order.C214_centers_partial` p c q; `Order.C214_inside_refuted` p c q
* C215 (partial): `Order.C215_edges_partial` p c q; `Order.C215_width_refuted` p c q
* C216 (partial): `Order.C216_conversion_partial` p c q; `Order.C216_roundtrip_refuted` p c q
* C217 (partial): `Wrap.C217_differences` p c q; `Wrap.C217_exact_partial` p c q; `Wrap.C217_dim_refuted` p c q
* C218 (partial): `Wrap.C218_sums` p c q; `Wrap.C218_average` p c q; `Wrap.C218_exact_partial` p c q; `Wrap.C218_ceiling` p c q; `Wrap.C218_flat_refuted` p c q
* C219 (partial): `Wrap.C219_exact_partial` p c q; `Wrap.C219_multiples_refuted` p c q; `Wrap.C219_center_refuted` p c q
* C220 (partial): `Wrap.C220_interior` p c q; `Wrap.C220_exact_partial` p c q; `Wrap.C220_unsigned_refuted` p c q
* C221 (partial): `Wrap.C221_exact_partial` p c q; `Wrap.C221_counts_refuted` p c q
* C222 (partial): `Wrap.C222_kept` p c q; `Wrap.C222_unsigned_partial` p c q; `Wrap.C222_signed_refuted` p c q
* C223 (partial): `Corr.C223_columns` p c q; `Corr.C223_every_ring_partial` p c q; `Corr.C223_empty_ring_refuted` p c q
* C224 (partial): `Speckle.C224_table` p c q; `Speckle.C224_counts_partial` p c q; `Speckle.C224_rows_partial` p c q; `Speckle.C224_generator_partial` p c q; `Speckle.C224_generator_refuted` p c q; `Speckle.C224_default_partial` p c q; `Speckle.C224_default_refuted` p c q
* C225 (proved): `Corr.Rnd.C225_matrix` p c q; `Corr.Rnd.C225_entries` p c q; `Corr.Rnd.C225_one_time` p c q; `Corr.Rnd.C225_both` p c q; `Corr.Rnd.C225_size` p c q
* C226 (partial): `Roi.Rnd.C226_error_partial` p c q; `Roi.Rnd.C226_sign` p c q; `Roi.Rnd.C226_average` p c q; `Roi.Rnd.C226_whole` p c q; `Roi.Rnd.C226_local_refuted` p c q; `Roi.Rnd.C226_range_refuted` p c q
* C227 (partial): `Roi.Rnd.C227_call` p c q; `Roi.Rnd.C227_error_partial` p c q; `Roi.Rnd.C227_whole` p c q; `Roi.Rnd.C227_range_refuted` p c q
* C228 (proved): `Dpc.C228_phase` p c q
* C229 (proved): `Recip.C229_map` p c q
* C230 (partial): `Roi.Rnd.C230_radius` p c q; `Roi.Rnd.C230_rings_partial` p c q; `Roi.Rnd.C230_whole` p c q; `Roi.Rnd.C230_labels_refuted` p c q
* C231 (partial): `Roi.Rnd.C231_labels_partial` p c q; `Roi.Rnd.C231_labels_refuted` p c q
* C232 (partial): `Io.C232_finished` p c q; `Io.C232_gsas_partial` p c q; `Io.C232_save_output_partial` p c q; `Io.C232_old_or_new_refuted` p c q; `Io.C232_std_partial` p c q; `Io.C232_esd_partial` p c q; `Io.C232_unnoticed_refuted` p c q; `Io.C232_wrong_value_refuted` p c q; `Io.C232_fxye_partial` p c q
* C233 (partial): `Corr.C233_more_levels` p c q; `Corr.C233_same_row_partial` p c q; `Corr.C233_buffers_refuted` p c q; `Corr.C233_two_time` p c q
* C234 (partial): `Grid.C234_order` p c q; `Grid.C234_joined` p c q; `Grid.C234_intensities` p c q; `Grid.C234_units` p c q; `Grid.C234_part` p c q; `Grid.C234_axes` p c q; `Grid.C234_mirror_partial` p c q; `Grid.C234_mirror_refuted` p c q
* C235 (partial): `Binned.C235_order` p c q; `Binned.C235_joined` p c q; `Binned.C235_values` p c q; `Binned.C235_projection_partial` p c q; `Binned.C235_merge_bins_partial` p c q; `Binned.C235_merge_bins_refuted` p c q
* C236 (partial): `Smooth.C236_least_squares` p c q; `Smooth.C236_linear_partial` p c q; `Smooth.C236_symmetry_partial` p c q; `Smooth.C236_borders_refuted` p c q
* C237 (proved): `Cross.C237_region_only` p c q; `Cross.C237_bilinear` p c q; `Cross.C237_transposed` p c q
* C238 (partial): `Cdi.C238_phase` p c q; `Cdi.C238_twin` p c q; `Cdi.C238_position_partial` p c q; `Cdi.C238_position_refuted` p c q
* C239 (partial): `Speckle.C239_region_only_partial` p c q; `Speckle.C239_region_only_refuted` p c q
* C240 (proved): `Snip.Rnd.C240_bounds` p c q; `Snip.Rnd.C240_flat` p c q
* C241 (proved): `Recip.C241_stack` p c q; `Recip.C241_wavelength` p c q; `Recip.C241_length_units` p c q; `Recip.C241_part` p c q; `Recip.C241_cell` p c q; `Recip.C241_sample_turn` p c q; `Recip.C241_full_turns` p c q
* C242 (proved): `Dpc.Laws.C242_linear` p c q; `Dpc.Laws.C242_transpose` p c q; `Dpc.Laws.C242_steps` p c q; `Dpc.Laws.C242_mean` p c q; `Dpc.Laws.C242_ramp` p c q; `Dpc.Laws.C242_roll` p c q; `Dpc.Laws.C242_turn` p c q
* C243 (proved): `Recip.Gis.C243_length_unit` p c q; `Recip.Gis.C243_wavelength` p c q; `Recip.Gis.C243_origin` p c q; `Recip.Gis.C243_mirror` p c q; `Recip.Gis.C243_order` p c q; `Recip.Gis.C243_direct_beam` p c q
* C244 (proved): `Mask.C244_intensity_unit` p c q; `Mask.C244_order` p c q; `Mask.C244_position_unit` p c q; `Mask.C244_alpha` p c q; `Mask.C244_share` p c q
* C245 (partial): `Order.Bragg.C245_twotheta_to_q` p c q; `Order.Bragg.C245_q_to_twotheta` p c q; `Order.Bragg.C245_roundtrip_partial` p c q; `Order.Bragg.C245_roundtrip_refuted` p c q
* C246 (proved): `Image.Laws.C246_linear` p c q; `Image.Laws.C246_bounds` p c q; `Image.Laws.C246_mono` p c q; `Image.Laws.C246_ones` p c q; `Image.Laws.C246_units` p c q; `Image.Laws.C246_transpose` p c q; `Image.Laws.C246_mirror` p c q; `Image.Laws.C246_redundant_sample` p c q
* C247 (partial): `Dicts.Wrap.C247_fresh_separate` p c q; `Dicts.Wrap.C247_view` p; `Dicts.Wrap.C247_flat_partial` p; `Dicts.Wrap.C247_nested_refuted` p; `Dicts.Wrap.C247_as_if_alone` p c q
* C248 (partial): `Cdi.Units.C248_axes` p c q; `Cdi.Units.C248_units_partial` p c q; `Cdi.Units.C248_units_refuted` p c q
* C249 (proved): `Image.Polar.C249_bounds` p c q; `Image.Polar.C249_profile` p c q; `Image.Polar.C249_start` p c q; `Image.Polar.C249_mirror` p c q; `Image.Polar.C249_turns` p c q; `Image.Polar.C249_quarter_turn` p c q; `Image.Polar.C249_units` p c q; `Image.Polar.C249_linear` p c q
* C250 (proved): `Feature.Laws.C250_solver` p c q; `Feature.Laws.C250_best` p c q; `Feature.Laws.C250_quality` p c q; `Feature.Laws.C250_order` p c q; `Feature.Laws.C250_affine` p c q; `Feature.Laws.C250_log_affine` p c q; `Feature.Laws.C250_largest` p c q; `Feature.Laws.C250_align` p c q
* C251 (partial): `Version.C251_checkout` p c q; `Version.C251_untagged` p c q; `Version.C251_identifies` p c q; `Version.C251_total_partial` p c q; `Version.C251_import_refuted` p c q; `Version.C251_archive` p c q; `Version.C251_archive_checkout` p c q; `Version.C251_branch_refuted` p c q; `Version.C251_unknown_partial` p c q
* C252 (proved): `Line.Round.C252_shape` p c q; `Line.Round.C252_lorentzian` p c q; `Line.Round.C252_gaussian` p c q
* C253 (proved): `Feature.C253_linear` p c q; `Feature.C253_units` p c q; `Feature.C253_order` p c q; `Feature.C253_outside` p c q
* C254 (proved): `Recip.Round.C254_q` p c q; `Recip.Round.C254_hkl` p c q
* C255 (partial): `Wrap.C255_exact_partial` p c q; `Wrap.C255_ascending_partial` p c q; `Wrap.C255_descending_refuted` p c q; `Wrap.C255_unsorted_refuted` p c q
* C256 (partial): `Wrap.C256_exact_partial` p c q; `Wrap.C256_half_range_partial` p c q; `Wrap.C256_overflow_refuted` p c q
* C257 (partial): `Consts.C257_history_partial` p c q; `Consts.C257_made_partial` p c q; `Consts.C257_reflections_refuted` p c q
* C258 (proved): `Recip.GisRound.C258_angles` p c q; `Recip.GisRound.C258_q` p c q
* C259 (partial): `Image.Round.C259_accurate` p c q; `Image.Round.C259_knots` p c q; `Image.Round.C259_monotone` p c q; `Image.Round.C259_range_refuted` p c q
* C260 (partial): `Wrap.C260_iff_partial` p c q; `Wrap.C260_large_counts_refuted` p c q; `Wrap.C260_even_mean_refuted` p c q; `Wrap.C260_negative_refuted` p c q
* C261 (partial): `Wrap.C261_exact_partial` p c q; `Wrap.C261_int64_partial` p c q; `Wrap.C261_square_refuted` p c q
* C262 (partial): `Wrap.C262_exact_partial` p c q; `Wrap.C262_signed_partial` p c q; `Wrap.C262_ascending_partial` p c q; `Wrap.C262_descending_refuted` p c q; `Wrap.C262_segmented_refuted` p c q; `Wrap.C262_wide_refuted` p c q
* C263 (partial): `Cross.C263_regions_partial` p c q; `Cross.C263_empty` p c q; `Cross.C263_merged_refuted` p c q; `Cross.C263_ids_refuted` p c q
* C264 (partial): `Wrap.C264_rectangles_partial` p c q; `Wrap.C264_box` p c q; `Wrap.C264_lost_refuted` p c q
* C265 (proved): `Order.Bragg.C265_radius_to_twotheta` p c q; `Order.Bragg.C265_radius_to_q` p c q; `Order.Bragg.C265_hkl_to_q` p c q
* C266 (partial): `Line.C266_nonneg_partial` p c q; `Line.C266_number_partial` p c q; `Line.C266_nan_refuted` p c q; `Line.C266_exact_positive` p c q; `Line.C266_formula` p c q
* C267 (partial): `Wrap.C267_energy` p c q; `Wrap.C267_peaks_partial` p c q; `Wrap.C267_int64` p c q; `Wrap.C267_lost_refuted` p c q; `Wrap.C267_shifted_refuted` p c q
* C268 (proved): `Consts.C268_window` p c q; `Consts.C268_append` p c q; `Consts.C268_spelling` p c q; `Consts.C268_empty` p c q; `Consts.C268_own` p c q; `Consts.C268_raises` p c q; `Consts.C268_table` p c q
* C269 (proved): `Xrf.C269_trim_twice` p c q; `Xrf.C269_trim_again` p c q; `Xrf.C269_trim_pieces` p c q; `Xrf.C269_trim_map` p q; `Xrf.C269_wider` p c q; `Xrf.C269_cover` p c q
* C270 (proved): `Feature.C270_prefix` p q; `Feature.C270_again` p q; `Feature.C270_order` p c q; `Feature.C270_scale` p c q
* C271 (proved): `Stats.C271_values` p c q; `Stats.C271_order` p c q; `Stats.C271_joined` p c q
* C272 (proved): `Roi.C272_affine` p c q; `Roi.C272_series` p c q; `Roi.C272_between` p c q; `Roi.C272_rename` p c q; `Roi.C272_pixels` p c q
* C273 (partial): `Line.C273_number_partial` p c q; `Line.C273_nan_refuted` p c q; `Line.C273_zero_refuted` p c q; `Line.C273_formula` p c q
* C274 (partial): `Line.C274_number_partial` p c q; `Line.C274_infinite_refuted` p c q; `Line.C274_modes_refuted` p c q; `Line.C274_formula` p c q
* C275 (proved): `Roi.C275_every_pixel_once` p c q; `Roi.C275_map` p q; `Roi.C275_more_sets` p c q; `Roi.C275_grouping` p q
* C276 (proved): `Mask.C276_threshold_parts` p q; `Mask.C276_threshold_order` p q; `Mask.C276_threshold_unit` p c q; `Mask.C276_bad_twice` p c q; `Mask.C276_subtract_linear` p c q; `Mask.C276_subtract_background` p q; `Mask.C276_subtract_parts` p
* C277 (proved): `Dpc.C277_linear` p c q; `Dpc.C277_sum` p c q; `Dpc.C277_transposed` p c q; `Dpc.C277_bad_pixels` p c q; `Dpc.C277_region_of_region` p c q
* C278 (proved): `Roi.C278_rings_move` p c q; `Roi.C278_rings_mirror` p c q; `Roi.C278_rings_transposed` p c q; `Roi.C278_more_rings` p c q; `Roi.C278_bar_unit` p c q; `Roi.C278_rectangles_transposed` p q
* C279 (proved): `Feature.C279_twice` p c q; `Feature.C279_either_order` p c q; `Feature.C279_wider` p c q; `Feature.C279_unit` p c q; `Feature.C279_parts` p q
* C280 (proved): `Line.C280_amplitude` p c q; `Line.C280_angle` p c q; `Line.C280_channels` p c q; `Line.C280_forward` p c q; `Line.C280_nonnegative` p c q
* C281 (proved): `Utils.C281_edges_affine` p c q; `Utils.C281_ways_agree` p c q; `Utils.C281_centers_affine` p c q; `Utils.C281_bin1D_affine` p c q
* C282 (proved): `Recip.Gis.C282_incident` p c q; `Recip.Gis.C282_exit` p c q; `Recip.Gis.C282_out_of_plane` p c q; `Recip.Gis.C282_tilt` p c q; `Recip.Gis.C282_beams` p c q

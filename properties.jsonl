{"id": "C01", "title": "Lazy stack indexing equals materialise-then-index", "statement": "indexing.getitem(generator, args, index, ndim, shapefull, axis) returns exactly what numpy.stack(map(generator,args),axis)[index] returns (same shape, same elements), and evaluates the generator only for stack positions the index selects; it raises exactly when numpy would.", "quantifier": "every number and shape of planes, every stack axis, every index expression (ints, slices, full slices, newaxis, ellipsis, boolean and integer lists)", "why_tests_cant": "The index grammar times dimensionality times stack axis is infinite; the test suite samples random indices.", "anchors": ["src/spectrocrunch/utils/indexing.py: getitem, replacefull_transform, extract_axis, extract_newaxis, expand, decompose_listindexing"]}
{"id": "C02", "title": "Predicted shape equals the real shape after indexing", "statement": "indexing.shape_afterindexing(shape, index) is the shape of numpy.empty(shape)[index], and axesorder_afterindexing gives the axis order of that result.", "quantifier": "every shape and every valid index expression", "why_tests_cant": "Infinite index grammar; corner cases with newaxis, singleton and advanced indices interact.", "anchors": ["src/spectrocrunch/utils/indexing.py: shape_afterindexing, axesorder_afterindexing, expand, lengthadvanced"]}
{"id": "C03", "title": "Index normalisation preserves selection", "statement": "Expanding an ellipsis (expand), replacing an axis (replace), popping newaxes (extract_newaxis) and moving an axis (move_axis) describe the same selection: expand is idempotent, gives exactly one entry per dimension, and leaves the selected elements unchanged.", "quantifier": "every dimension count and index tuple", "why_tests_cant": "Must hold for every tuple length and ellipsis position.", "anchors": ["src/spectrocrunch/utils/indexing.py: expand, replace, extract_newaxis, positiveaxis, axisindex"]}
{"id": "C04", "title": "Slice generation is an exact partition", "statement": "slice_generator(shape, dtype, ...) yields slices that together cover every element of the array exactly once and whose size respects the requested limit.", "quantifier": "every shape, element size and memory limit", "why_tests_cant": "Partition property over all sizes; tests check a few shapes.", "anchors": ["src/spectrocrunch/math/slicing.py: slice_generator, find_slice_axis"]}
{"id": "C05", "title": "ROI clipping is in bounds and idempotent", "statement": "cliproi(shape, roi) returns for every dimension a pair (a,b) with 0<=a, a<=n-1 (n>0), 0<=b<=n; in-range non-negative ROIs are returned unchanged; negative bounds count from the end; the function is idempotent on its own output; the sub-image selected equals the Python slice a:b.", "quantifier": "all dimension lengths and all integer/None bounds", "why_tests_cant": "All integers incl. negative and out of range.", "anchors": ["src/spectrocrunch/utils/roi.py: cliproi"]}
{"id": "C06", "title": "Interval merging preserves the union", "statement": "mergeroi1d(intervals) returns intervals that are sorted, pairwise separated (strict gap) and whose union is the union of the inputs; the result does not depend on the order of the input and merging is idempotent.", "quantifier": "every finite list of valid intervals in any order", "why_tests_cant": "Order independence and union preservation quantify over all lists.", "anchors": ["src/spectrocrunch/utils/roi.py: mergeroi1d"]}
{"id": "C07", "title": "Bounded dictionary never exceeds its limit and evicts oldest first", "statement": "After any sequence of constructions/insertions/overwrites/deletes a LimitedSizeDict holds at most size_limit entries, holds each key at most once, returns the last value stored for every key it still holds, and the keys it holds are the most recently first-inserted ones.", "quantifier": "every operation history and every limit", "why_tests_cant": "History property.", "anchors": ["src/spectrocrunch/utils/cache.py: LimitedSizeDict"]}
{"id": "C08", "title": "Scoped cache: computed once per outermost scope and gone afterwards", "statement": "Inside any nesting of cachectx(subject) the cached value is generated by the outermost scope only; inner scopes with the same subject see the same object; after the outermost scope exits the cache no longer contains the subject, also if the body raised.", "quantifier": "every well-nested program of cache scopes, reads and exceptions", "why_tests_cant": "Quantifies over all nesting trees and crash points.", "anchors": ["src/spectrocrunch/utils/cache.py: Cache.cachectx, Cache.getcache, withcache"]}
{"id": "C09", "title": "Integer base conversion round-trips and is injective", "statement": "base2int(int2base(n, base)) = n for every n >= 0 and every supported base, the digit strings contain only the digits of the base and have no leading zero digit (except for 0 itself), and distinct integers have distinct strings.", "quantifier": "all naturals and all bases >= 2", "why_tests_cant": "Infinite domain.", "anchors": ["src/spectrocrunch/utils/integerbase.py: integerbase.int2base, base2int"]}
{"id": "C10", "title": "Key aggregation preserves per-key totals", "statement": "unique2lists(keys, values, add=True) returns every distinct key exactly once in first-occurrence or sorted order with the sum of its values; sumrepeats preserves the grand total; with add=False the first value is kept.", "quantifier": "every pair of equally long lists", "why_tests_cant": "Holds for every multiset and order.", "anchors": ["src/spectrocrunch/utils/listtools.py: unique2lists, sumrepeats"]}
{"id": "C11", "title": "Look-up table: sorted unique keys through every history", "statement": "After any sequence of add/replace operations a LUT has strictly increasing keys; add accumulates values for repeated keys, replace overwrites them; looking up a stored key returns its stored value, looking up below/above returns the first/last value, and an empty table returns the default.", "quantifier": "every operation history and every query point", "why_tests_cant": "History property plus a real-valued query.", "anchors": ["src/spectrocrunch/utils/lut.py: LUT"]}
{"id": "C12", "title": "Joint list permutations keep pairs together", "statement": "sort2lists returns the same multiset of pairs sorted by the first list, stable; move(lst,i,j), roll and swap are permutations of the input with the documented element moves; flatten preserves left-to-right order of the leaves and is idempotent; unique_everseen keeps the first occurrence of each element in order.", "quantifier": "every list and index", "why_tests_cant": "Permutation properties over all lists.", "anchors": ["src/spectrocrunch/utils/listtools.py: sort2lists, move, roll, swap, flatten, unique_everseen"]}
{"id": "C13", "title": "Operator algebra means function composition", "statement": "For the operators of math/linop (linear, clip, nan-clip, identity) (A*B)(x)=A(B(x)) for every x, A**n is n-fold application, inverses undo the operator on its range, and simplifying a product never changes its value.", "quantifier": "every finite product of operators and every real argument", "why_tests_cant": "Quantifies over all operator words and reals.", "anchors": ["src/spectrocrunch/math/linop.py: Operator, LinearOperator, ClipOperator, NaNClipOperator, CombinedOperator"]}
{"id": "C14", "title": "Image transformation composition and inversion", "statement": "LinearMapping.after/before compose as coordinate maps, inverse() undoes the mapping, and new_frame conjugates it; translation/affine/projective types agree on common inputs.", "quantifier": "all real parameter values, all sequences of compositions", "why_tests_cant": "Real-valued, arbitrary composition sequences.", "anchors": ["src/spectrocrunch/align/transform.py: LinearMapping"]}
{"id": "C15", "title": "Composition fraction conversions round-trip and stay normalised", "statement": "mole->weight->mole, weight->volume->weight and mole->volume->mole conversions are inverse to one another on normalised fractions, each output sums to one, and density/molar-mass helper functions are consistent with them.", "quantifier": "every non-empty list of positive fractions with positive molar masses and densities", "why_tests_cant": "Real-valued lists of any length.", "anchors": ["src/spectrocrunch/materials/stoichiometry.py"]}
{"id": "C16", "title": "Error propagation inverses undo their forward operation", "statement": "reverse_add/sub/mult/div/log and the reversed repeat/compound undo the forward propagation of expectation and variance.", "quantifier": "all expectations and variances in the domain", "why_tests_cant": "Real-valued domain.", "anchors": ["src/spectrocrunch/math/noisepropagation.py"]}
{"id": "C17", "title": "Parameter tree: children see inherited values, own values win", "statement": "Reading a parameter from a node returns the value set on the nearest ancestor-or-self that defines it; setting a value on a node never changes what its ancestors or siblings see; resetting restores the inherited value.", "quantifier": "every tree shape and every history of set/reset operations", "why_tests_cant": "Tree histories.", "anchors": ["src/spectrocrunch/pipelines/parameters.py: Node"]}
{"id": "C18", "title": "Task output is all-or-nothing", "statement": "Running a task leaves at the output location either a complete result or no new result: whatever exception the body raises and at whatever step, the temporary output is removed and a previously existing result of another task is untouched; a second run of the same task does not recompute.", "quantifier": "every crash point of every run and every sequence of runs", "why_tests_cant": "Crash points and histories.", "anchors": ["src/spectrocrunch/process/nxprocess.py: Task", "src/spectrocrunch/process/basetask.py: Task.run"]}
{"id": "C19", "title": "Process lookup is keyed by the parameters", "statement": "Finding or creating an NXprocess returns an existing process only if its stored parameter checksum and dependencies equal the requested ones, otherwise creates a new one with a fresh name; equal parameters give equal checksums independent of dictionary order.", "quantifier": "every set of existing processes and parameters", "why_tests_cant": "Histories of creation.", "anchors": ["src/spectrocrunch/io/nxfs.py: nxprocess, find_nxprocess, updated checksum", "src/spectrocrunch/utils/hashing.py"]}
{"id": "C20", "title": "Termination handling runs teardown once and restores handlers", "statement": "HandleTermination runs the teardown exactly once when a termination signal arrives within the block, never afterwards, and always restores the previous signal handlers.", "quantifier": "every schedule of signals, exits and exceptions", "why_tests_cant": "Schedules.", "anchors": ["src/spectrocrunch/utils/signalhandling.py: HandleTermination"]}
{"id": "C21", "title": "HDF5 opening retries are bounded and faithful", "statement": "Opening an HDF5 file performs at most the configured number of attempts, succeeds iff one attempt within the budget succeeds, returns the handle of the first success and re-raises the last error otherwise.", "quantifier": "every sequence of lock contention outcomes", "why_tests_cant": "Schedules of failures.", "anchors": ["src/spectrocrunch/io/h5fs.py: File context"]}
{"id": "C22", "title": "HDF5 device open modes: what may be created or destroyed", "statement": "Opening in read modes never creates or modifies, 'x' fails on existing nodes, 'a' creates missing nodes and leaves existing ones, 'w' replaces; error classes are determined by existence and kind of node.", "quantifier": "all combinations of mode, node kind, existence and parents", "why_tests_cant": "Decision table times arbitrary store contents.", "anchors": ["src/spectrocrunch/io/h5fs.py: Path._fopen, h5FileIO mode tables"]}
{"id": "C23", "title": "NXdata signal bookkeeping", "statement": "After any sequence of add_signal/default_signal/remove_signal/sort_signals, the signals are pairwise distinct, the default signal is one of them whenever there is any, and the set of signals is that of the abstract history.", "quantifier": "every history of signal operations", "why_tests_cant": "History property.", "anchors": ["src/spectrocrunch/io/nxfs.py: _NXdata"]}
{"id": "C24", "title": "Axis representation round-trips and nearest-index is exact", "statement": "Regular/segmented axes report start, end, size, step consistent with their values; simplifying an arbitrary axis to a regular one preserves its values; the nearest-index lookup returns an index minimising the distance.", "quantifier": "all axis parameters and query positions", "why_tests_cant": "Real-valued, arbitrary length.", "anchors": ["src/spectrocrunch/process/axis.py: Axis, AxisRegular, AxisRegularInc, AxisSegments, AxisNumber, arg_closest_num"]}
{"id": "C25", "title": "Automatic cropping returns the bounding box of valid data", "statement": "The crop ROI (nanval cropping) contains every non-NaN pixel common to the images requested and no smaller box does; the sliced and unsliced computations agree; applying the ROI never produces an out-of-range access.", "quantifier": "every stack of masks and every slicing dimension", "why_tests_cant": "All masks.", "anchors": ["src/spectrocrunch/process/nxcrop.py: calccroproi"]}
{"id": "C26", "title": "HDF5 tile merging does not overlap or lose data", "statement": "tile_indices places the i-th dataset in its own block of the layout, blocks are pairwise disjoint and inside the layout; match_shapes returns shapes of equal total size not larger than the originals.", "quantifier": "all shapes, tile shapes and orders", "why_tests_cant": "All integer shapes.", "anchors": ["src/spectrocrunch/process/h5merge.py: match_shapes, tile_indices, layout_slicing, max_shape"]}
{"id": "C27", "title": "Alignment pad/crop bookkeeping is consistent", "statement": "The destination image size predicted from the transformations equals the size of the padded or cropped image; the transformed axes have that same length, keep the original values in their interior and extrapolate linearly outside.", "quantifier": "all image sizes and all sets of translations", "why_tests_cant": "All sizes and offsets.", "anchors": ["src/spectrocrunch/align/align.py: pad, crop, setextend, transform_axes, dest_imgsize"]}
{"id": "C28", "title": "XIA file names round-trip and grouping loses no file", "statement": "xiafilename followed by XiaNameParser.parse returns the same radix, map number, line number and detector label; sorting and grouping file names by radix/map/line is a partition: every file appears in exactly one group, ordered.", "quantifier": "all radices, numbers and labels; all file lists", "why_tests_cant": "All strings and lists.", "anchors": ["src/spectrocrunch/io/xiaedf.py: XiaNameParser, xiafilename, xiasortkey, xiagroup, xiagroupmaps, xiagrouplines, xiagroupdetectors"]}
{"id": "C29", "title": "XIA statistics survive a save/load cycle", "statement": "Saving statistics of an XIA line and reading them back yields the same statistics per spectrum, detector and statistic for any number of spectra and detectors.", "quantifier": "all numbers of spectra/detectors and all values", "why_tests_cant": "All sizes.", "anchors": ["src/spectrocrunch/io/xiaedf.py: xialine._save_stats, xialine._getstats"]}
{"id": "C30", "title": "XIA dead-time correction and normalisation factors are always usable", "statement": "The dead-time correction factor is a finite number, equals icr/ocr for valid rates and 1 otherwise; the normaliser never divides by zero.", "quantifier": "all input/output count rates", "why_tests_cant": "All values incl. 0 and invalid.", "anchors": ["src/spectrocrunch/io/xiaedf.py: xiadata.deadtimecorrector, normalizer"]}
{"id": "C31", "title": "Polarization representations agree", "statement": "Stokes -> coherency matrix -> Stokes, Jones -> Stokes and Mueller rotations/scattering agree: rotation preserves intensity and degree of polarization, Mueller action equals Jones action on coherency matrices, Thomson intensity equals the first row of the Mueller product, and decomposition into polarized and unpolarized part sums back.", "quantifier": "all Stokes vectors, Jones vectors and angles", "why_tests_cant": "Real/complex valued.", "anchors": ["src/spectrocrunch/sources/polarization.py"]}
{"id": "C32", "title": "Fourier index conventions are inverse permutations", "statement": "fftshift and ifftshift are mutually inverse permutations for every length in both conventions; fft_freqind covers every frequency exactly once and index/frequency maps are inverse. The forward and inverse transforms, also of regions and with sub-pixel sampling, are the discrete Fourier transform and inverse of each other.", "quantifier": "all lengths and both conventions, all complex signals and images", "why_tests_cant": "All lengths.", "anchors": ["src/spectrocrunch/math/ft.py: fft_freqind, fftfreq, fftshift, ifftshift, _realspace, _dft, _dft2"]}
{"id": "C33", "title": "Expression evaluation follows the expression", "statement": "The expression calculator evaluates a formula with {} and {name} placeholders to the arithmetic value of the formula, each placeholder standing for its own dataset, for any number of distinct placeholders.", "quantifier": "all expressions and all placeholder sets", "why_tests_cant": "Infinite expression language.", "anchors": ["src/spectrocrunch/process/nxexpression.py", "src/spectrocrunch/math/.. fourFn MathParser"]}
{"id": "C34", "title": "Scoped configuration is restored", "statement": "Temporarily changing indexing/detector settings (keep_getitem, env_indexing contexts, iter_detectors) restores the previous settings when the scope ends, also if the body raises.", "quantifier": "every nesting and crash point", "why_tests_cant": "Crash points.", "anchors": ["src/spectrocrunch/io/xiaedf.py: xiadict contexts, xiadata.iter_detectors"]}
{"id": "C35", "title": "Sequential pipeline runs stop at the first failure", "statement": "Running a list of tasks executes them in order, stops at the first failing one, and reports success iff all are done; running again executes exactly what is missing; the pipelines list their tasks in dependency order, as asked for.", "quantifier": "every task list and failure position", "why_tests_cant": "All lists.", "anchors": ["src/spectrocrunch/pipelines/run.py: run_sequential", "src/spectrocrunch/process/basetask.py: Task.run, Task.exists, Task.dependencies_done", "src/spectrocrunch/pipelines/fluoxas.py: tasks", "src/spectrocrunch/pipelines/id21_ffxas.py: tasks", "src/spectrocrunch/pipelines/fluoxasjobs.py: processdata_exec"]}
{"id": "C36", "title": "Path algebra", "statement": "Path joining, parent, relative path and root computations are consistent: parent of a joined child is the path, joining the relative path to the base gives back the path, and device/node split recombines.", "quantifier": "all paths", "why_tests_cant": "All strings.", "anchors": ["src/spectrocrunch/io/fs.py: Path", "src/spectrocrunch/io/localfs.py", "src/spectrocrunch/io/h5fs.py: devsplit"]}
{"id": "C37", "title": "Generated names are fresh and terminate", "statement": "Incrementing a name (Name object / nonexisting name search) yields a name different from all existing ones, after finitely many steps, preserving prefix, extension and zero padding.", "quantifier": "all sets of existing names", "why_tests_cant": "All finite sets.", "anchors": ["src/spectrocrunch/io/target.py: Name", "src/spectrocrunch/align/alignDest.py"]}
{"id": "C38", "title": "Content hashing ignores container order where documented", "statement": "calchash of equal values is equal; dict and set hashes do not depend on insertion order, list hashes depend on order; mergehash is deterministic.", "quantifier": "all nested values", "why_tests_cant": "All nested data.", "anchors": ["src/spectrocrunch/utils/hashing.py: calchash, mergehash"]}
{"id": "C39", "title": "Class factory registry", "statement": "After any sequence of class statements a class is found under its name, its aliases and their lower-case spellings in every family it takes part in, later registrations win, lookups of unknown names fail, families stay apart and the listed names are those that can be looked up.", "quantifier": "all registration histories", "why_tests_cant": "History property.", "anchors": ["src/spectrocrunch/utils/classfactory.py"]}
{"id": "C40", "title": "Scan command geometry is self-consistent", "statement": "The positions, range, number of points and pixel size derived from a zapline/ascan command agree: number of values equals the scan size, range is first/last value, pixel size is the spacing.", "quantifier": "all start/end/point numbers", "why_tests_cant": "Real-valued.", "anchors": ["src/spectrocrunch/io/spec.py: zapline_values, zapline_range, zapline_scansize, zapline_pixelsize, ascan_*, zapimage_submap"]}
{"id": "C41", "title": "Compound/mixture composition bookkeeping", "statement": "Building a compound or mixture from repeated elements merges them with summed fractions; adding components preserves total fraction one; element fractions of a mixture are those of the flattened formula.", "quantifier": "all component lists", "why_tests_cant": "All lists.", "anchors": ["src/spectrocrunch/materials/compound.py", "src/spectrocrunch/materials/mixture.py", "src/spectrocrunch/materials/multielementbase.py"]}
{"id": "C42", "title": "Cross-section trees collapse to the weighted sum", "statement": "Collapsing a nested {weight, cross-section} tree equals the sum over leaves of the product of the weights on the path and the leaf value, for every nesting depth; per-element splitting sums to the collapsed value.", "quantifier": "all trees", "why_tests_cant": "All depths.", "anchors": ["src/spectrocrunch/materials/multielementbase.py: csdict_parse, cs_collapse", "src/spectrocrunch/materials/utils.py: elemental_crosssections"]}
{"id": "C43", "title": "Spectra saved in SPEC format are read back, colours are told apart", "statement": "The text written for a spectrum has sixteen values per line with continuation marks and reading its tokens back gives the same number of counts, each the closest number with eight digits, hence exactly the counts when these have at most eight digits; a saved file has the header from which the reader gets the channels, the calibration and the energies back; the RGB encoding of a normalised value gives three bytes that identify one of 2^24 levels within half a level.", "quantifier": "all spectra of any length, rational counts, calibrations, channels, all values in [0,1]", "why_tests_cant": "Lengths around multiples of sixteen and rounding of the last digit are unbounded; there is no test of the reader.", "anchors": ["src/spectrocrunch/io/mca.py: array2SpecMca, save, read", "src/spectrocrunch/visualization/colormap.py: NormalizedToRGB"]}
{"id": "C44", "title": "Linear fits are least-squares fits with the right errors", "statement": "linfit2 and linfit_zerointercept2 return the one line with the least sum of squared residuals whenever the abscissae are not degenerate, with the same errors as linfit and linfit_zerointercept; nanlinfit2 does so for the points that are numbers; lstsq_cov returns the covariance of the least-squares solutions from the covariance of the errors; cor_from_cov the correlations; cramer returns x exactly when x is the one solution of a square system.", "quantifier": "all data sets and matrices of any size, all error distributions over finitely many outcomes", "why_tests_cant": "Existing tests fit one data set of 15 points; minimality quantifies over all lines, covariance over all distributions.", "anchors": ["src/spectrocrunch/math/fit1d.py: xyremovenan, cor_from_cov, lstsq_cov, lstsq_std, linfit, linfit2, nanlinfit2, linfit_zerointercept, linfit_zerointercept2", "src/spectrocrunch/math/linalg.py: cramer"]}
{"id": "C45", "title": "Stacks of images keep every image apart", "statement": "Writing images to a stack (a list of arrays, datasets of an HDF5 file, or single files) for any stack dimension and reading them back gives at every place the last image that was written there, else what was there before; a source sees the number and size of the images of the destination; writes outside of the stack or of images of another size raise. Without overwriting, preparing a destination never changes existing data: new datasets and files get the first free place. Files of different images are different and are in the order of the images.", "quantifier": "all shapes, stack dimensions, names, contents of files and write histories", "why_tests_cant": "Histories of writes and contents of files are unbounded.", "anchors": ["src/spectrocrunch/align/alignDest.py: alignDest", "src/spectrocrunch/align/alignSource.py: alignSource.__init__, initshape, readimg"]}
{"id": "C46", "title": "A file is opened once, closed once, and delayed work runs when closed", "statement": "In any program that opens a file in nested contexts, with exceptions at any place, the file is never opened twice at the same time, is closed as often as it is opened, functions delayed until closing run only while it is closed, exactly once and in order, and exceptions are not swallowed.", "quantifier": "every program of nested contexts, delayed calls and exceptions", "why_tests_cant": "Nesting and exception placement are unbounded.", "anchors": ["src/spectrocrunch/io/fs.py: File.open, File._closectx, onclose", "src/spectrocrunch/io/h5fs.py: h5FileIO.__enter__, __exit__"]}
{"id": "C47", "title": "Padding keeps every pixel, cropping adds no missing data, the reference stays in place", "statement": "With padding every point of every aligned image lies in the destination and the destination could not be smaller; with cropping a pixel is kept exactly when it is inside every image, so that no missing data is added; the mask of the aligned images and their translations give the same cropping; with neither, the translations are shifted together to be centred; the reference image keeps its place and pairwise translations accumulate.", "quantifier": "all image sizes, all lists of translations", "why_tests_cant": "Sets of real translations of any size.", "anchors": ["src/spectrocrunch/align/align.py: align, polygoncollectionbounds, extendfromtransformation, extendfrommask, minimaltransformation, store_transformation, doalign"]}
{"id": "C48", "title": "The translation found by Fourier correlation is the translation", "statement": "When the moving image is a circular translation of the reference by whole pixels within half the image, the translation determined from their Fourier transforms is exactly that translation, for every image whose correlation has one peak, with and without sub-pixel sampling.", "quantifier": "all images, sizes, translations and sampling factors", "why_tests_cant": "All complex-valued images; transforms of any size.", "anchors": ["src/spectrocrunch/align/alignFFT.py: determine_shift, cc_maximum, ftmodulus, ifft_interpolate, execute_alignkernel", "src/spectrocrunch/math/ft.py", "src/spectrocrunch/math/center.py"]}
{"id": "C49", "title": "The position of a peak is the centre of mass around the first maximum", "statement": "fmax gives the first maximum in reading order; fcentroid gives the centre of mass of a window centred on it, which lies inside the data, whose inside exceeds the threshold, and which is exactly the maximum for symmetric peaks; row and column of an image are kept apart.", "quantifier": "all data", "why_tests_cant": "Real-valued arrays of any size.", "anchors": ["src/spectrocrunch/math/center.py: fmax, _centroid, foptimize, fcentroid"]}
{"id": "C50", "title": "Reading XIA data gives the requested parts, corrected according to the settings alone", "statement": "obj[...], obj.data, obj.stats, obj.allstats and obj.counters of a line, image or stack give exactly the requested parts; the data are dead time corrected per detector, summed over the detectors and normalized per spectrum as the settings say, whatever level the corrections are done on and whatever was read or set before; the settings are left as they are.", "quantifier": "every level, all data, every history of settings and reads", "why_tests_cant": "Unbounded histories, crash points and nesting levels.", "anchors": ["src/spectrocrunch/io/xiaedf.py: xiadata.__getitem__, xiadict.setleveldatainfo, xiacompound._getdata, xiacompound._getstats, xiaimage._getcounters, xiadata.data, xiadata.stats"]}
{"id": "C51", "title": "Scan commands are parsed field by field", "statement": "A recorded scan command (zapimage, zapline, ascan, zapenergy, mesh, puzzle) is understood exactly when it has the layout of such a command, and the result then says what the command says: every motor name, position, number of steps and time from its own field with the unit of that command; the positions of a motor derived from it are those of the scan.", "quantifier": "all texts", "why_tests_cant": "Infinitely many texts; tests use a handful.", "anchors": ["src/spectrocrunch/io/spec.py: cmd_parser, spec.getdimensions"]}
{"id": "C52", "title": "The two descriptions of a detector's line shape agree", "statement": "A line shape given by area fractions and broadenings and the one given by PyMca ratios and slopes describe the same line at the conversion energy: the derived values are those of the given ones after construction, conversion, assignment and pickling; converting twice gives back the shape; both give the same profile, in which every part has its fraction of the area and a normalised line has area one.", "quantifier": "all fractions, ratios, broadenings, slopes, energies, switched parts, and all positive norms", "why_tests_cant": "Equalities between formulas over a continuum of parameters; tests sample a few random shapes with tolerances and never assign a single parameter.", "anchors": ["src/spectrocrunch/detectors/xrf.py: XRFDetector.__init__, convert, __getstate__, __setstate__, __eq__, wpeak, fractions, ratios, _calc_ratios, _calc_fractions, lineprofile"]}
{"id": "C53", "title": "A chemical formula means the atoms that it shows", "statement": "A text is read as a formula exactly when it is written according to the grammar (element symbols, optional decimal multipliers, nested parentheses, white space between tokens), and then in one way only; every element is counted as the sum over its occurrences of the product of the multipliers around it; a text that is not a formula is refused. A compound made from it has the corresponding mole and mass fractions. The oxides and sulfides of the tables are electrically neutral, the requested (or highest or lowest) oxidation state is used, and converting between the mass fraction of an element and of its compound is exact in both directions.", "quantifier": "all texts, all nestings of parentheses, all molar masses, all entries of the tables", "why_tests_cant": "Formulas can be nested and long without bound; tests use a few formulas.", "anchors": ["src/spectrocrunch/materials/compoundfromformula.py: FormulaParser, CompoundFromFormula, factory", "src/spectrocrunch/materials/compoundfromelement.py: db, CompoundFromElement"]}
{"id": "C54", "title": "The signals of a diode are those of its chain of electronics", "statement": "The flux at the sample, the current of the diode, the voltage behind its amplifier and the count rate behind its oscillator are tied by one affine chain (dark current, charge per photon, output resistance, oscillator slope and offset); every conversion operator gives the value of this chain, every conversion is undone by its counterpart, and a response given in any unit (with the exposure time for counts) gives back the flux it was made with. Output resistance and largest current are two views of one gain, the gain chosen by the rounding is the nearest setting, and calibrating the dark current, the oscillator offset or the gain from measured responses recovers the values with which the responses were made. The normalization operator for XRF makes a signal proportional to flux and time equal to what the reference flux and time would give.", "quantifier": "all gains, units, oscillators, dark currents, fluxes and times, all lists of responses", "why_tests_cant": "Any sequence of unit conversions and settings is possible; tests check one setting.", "anchors": ["src/spectrocrunch/detectors/diode.py: Oscillator, PNdiode (Rout, Imax, gain, op_*, responsetoflux, fluxop, gainfromresponse, xrfnormop), GainRounder, NonCalibratedPNdiode (calibratedark, calibrateF0)"]}
{"id": "C55", "title": "The charge of a diode per photon at the sample accounts for its current", "statement": "The photons reaching the sample times the charge per sample photon equal the current of the photons absorbed in the diode, for any source lines, weights, filters, optics and secondary target; the weights of the lines at the sample are their shares of the photons there. After a calibration the charge reported is the charge the diode has, and it is the charge asked for; the fit gives the best line with a dark current that is not negative, and calibrating against exact data recovers dark current and charge.", "quantifier": "all numbers of source lines, weights, transmissions, tables, thicknesses and solid angles, all calibration data and all root finders", "why_tests_cant": "Lines, optics and data sets are unbounded and the root finder is external; tests use one set-up.", "anchors": ["src/spectrocrunch/detectors/diode.py: _source_transmission, _detection_rates, _chargepersamplephoton, _calibrate_chargepersamplephoton, _calibrate_*, samplelineweights, NonCalibratedPNdiode.calibrate", "src/spectrocrunch/materials/utils.py: reshape_spectrum_lines", "src/spectrocrunch/optics/base.py: transmission, set_transmission"]}
{"id": "C56", "title": "The geometry of sample, beam and detector is that of the vectors and of the disk it stands for", "statement": "The angles of a flat sample are those between beam, surface and detector direction, and reflection geometry means that the detector is on the side of the beam. The solid angle is that of a disk with the active area seen from its axis; distance and active area computed from a solid angle give that solid angle. A distance set for a motor is the distance read back, a calibration makes the distance the one given, and the solid angle set is the one read back.", "quantifier": "all angles, areas, distances, motor positions, zero distances and solid angles below a half space", "why_tests_cant": "They are real numbers and the disk is an integral; tests compare a few values with the same formulas.", "anchors": ["src/spectrocrunch/geometries/base.py: FlatSample, Centric", "src/spectrocrunch/geometries/xrf.py: LinearMotor, XRFGeometry.distance, LinearXRFGeometry", "src/spectrocrunch/detectors/base.py: CentricCone.solidangle_calc"]}
{"id": "C57", "title": "The attenuators of a detector act once, on their side of the sample", "statement": "Every attenuator is a beam filter, a detector filter, the atmosphere or the detector material, by its name. The source photons pass all beam filters and no other, the photons of the sample all detector filters; adding a filter multiplies the transmission of its side by that of the filter, removing the filters makes it one, and neither changes anything else. The efficiency is the product of both transmissions with the absorption of the detector and is a fraction. Attenuators saved in the configuration of PyMca are those loaded from it.", "quantifier": "all attenuators, names, materials, thicknesses, energies and configurations", "why_tests_cant": "The sets of attenuators and names are unbounded; tests use one or two filters with given names.", "anchors": ["src/spectrocrunch/detectors/base.py: Material.addbeamfilter, addsamplecover, adddetectorfilter, removebeamfilters, removedetectorfilters, attenuators, isbeamfilter, isdetectorfilter, nextbeamfilter, filter_transmission, efficiency, addtopymca, loadfrompymca"]}
{"id": "C58", "title": "Attenuation and fluorescence rates in a layered sample are the integrals they stand for", "statement": "The attenuation down to any depth of a sample of layers is the integral of the attenuation coefficients on the way, and the transmission between two depths is the part of the intensity left. The numerical and the analytical method both give, for every line and every line of the source, the integral over the depth of the intensity arriving, the chance of the interaction and the part that leaves the sample to the detector; without self-absorption the rate is thickness times chance and bounds the rate with self-absorption. The rates detected are these times the weight, the filters of the beam, the filters of the detector and its absorption, each once and at its own energy.", "quantifier": "all numbers of layers, thicknesses, attenuation coefficients, probabilities, angles, source lines and fluorescence lines", "why_tests_cant": "Piecewise closed forms are compared with integrals over all depths and energies; tests compare the methods on a few samples with tolerances.", "anchors": ["src/spectrocrunch/materials/multilayer.py: _cache_layerinfo, _zlayer, _cache_attenuationinfo, _cum_attenuation, _transmission, _prob_interaction, _primary_rates, _primary_rates_numerical, _attenuated_rates, _rates_calc"]}
{"id": "C59", "title": "A layered sample has one composition and one absorbance, and refinement finds the best ones", "statement": "The mass per area of every element in a layered sample is the sum over the layers of density, thickness and mass fraction; its mass fractions add up to one and are those of the mixture of its layers. The transmission of the sample is the product over its layers and the same by absorbance and by depth. Refining thickness, density or composition from measured absorbances changes only layers that are not fixed and gives the sample that describes the data best, under the constraint asked for; with data of a sample of the same kind it is that sample. A sample saved in the configuration of PyMca is the one loaded from it. The flux of the source is the one that gives the flux asked for at the sample.", "quantifier": "all numbers of layers and elements, densities, thicknesses, fractions, attenuation coefficients, data, configurations and filters", "why_tests_cant": "Samples, data and solvers are unbounded; there are no tests of the refinement.", "anchors": ["src/spectrocrunch/materials/multilayer.py: Layer, arealdensity, elemental_massfractions, mixlayers, absorbance, transmission, _refine_linear, _refinerhod, refinecomposition, refinethickness, refinedensity, addtopymca, loadfrompymca, _sourceflux"]}
{"id": "C60", "title": "Materials and settings survive the configuration of PyMca", "statement": "Elements, compounds and mixtures (nested to any depth) that are saved in a configuration of PyMca are loaded from it unchanged: names, densities, parts and mass fractions, no matter what else is in the configuration and how many materials are saved. A name is read as a formula exactly when it is a sequence of element symbols with numbers. Whatever is loaded has distinct parts with fractions that add up to one. The source lines, flux, time, background and fit options are restored as well, only lines that are switched on are loaded, and saving what was loaded does not change it.", "quantifier": "all materials, names, nestings, configurations, source lines and settings", "why_tests_cant": "Materials nest without bound and the configuration may hold anything; tests save one sample and compare a few numbers.", "anchors": ["src/spectrocrunch/materials/pymca.py: PymcaHandle.loadfrompymca_material, addtopymca_beam, loadfrompymca_beam, addtopymca_background, loadfrompymca_background, addtopymca_other, loadfrompymca_other, set_source", "src/spectrocrunch/materials/compound.py: topymca", "src/spectrocrunch/materials/mixture.py: topymca", "src/spectrocrunch/materials/element.py: topymca", "src/spectrocrunch/materials/elementbase.py: pymcaname, namefrompymca"]}
{"id": "C61", "title": "Spectra keep their totals however they are split, grouped, listed or added", "statement": "Shells: expanding a list of shells and groups gives each shell once and in order, shrinking replaces exactly the complete groups by their letter, and expanding what was shrunk gives the shells back. Lines: weighting by the source multiplies each value by its normalised weight, whatever the scale of the weights; summing over the source, splitting scattering lines by energy, grouping lines by shell and listing peaks all keep the total, times the conversion factor; every group of peaks has one label, on its largest peak; peaks have distinct names and are in order of energy. The power is the sum of energy times rate. Adding spectra adds line by line, refuses different types, and changes no array of the other spectrum. The channel of the energy of a channel is that channel and an energy is within half a channel of the energy of its channel. The energy of the Compton line is between that of backscattering and the source, decreases with the angle, and gives the angle back.", "quantifier": "all shells, lines, values, weights, sources, spectra, energies and angles", "why_tests_cant": "Tests compare spectra of a few samples with another program within a tolerance; a line lost or counted twice in a rare combination, or an array shared by two spectra, is not seen.", "anchors": ["src/spectrocrunch/materials/xrayspectrum.py: Shell.expand, expandall, expandselection, shrink, pymcafactory, FluoLine.radrate, FluoLine.energy, Shell.partial_fluoyield, ComptonLine, Spectrum", "src/spectrocrunch/materials/multilayer.py: _parse_fisx_result, _rates_to_spectrum", "src/spectrocrunch/materials/pymca.py: xraygrouprates"]}
{"id": "C62", "title": "The devices of a quantitative setup belong together and its calibration data decide on them", "statement": "Devices: after every assignment that does not raise, and after every history of assignments that neither takes the source away nor names an unknown geometry, the first diode has the optics and the way of calibration of the setup, and the geometry of its secondary target and all geometries have its source; an assignment raises exactly when a name is unknown, changes one attribute, and writes only to devices of this setup; a new setup has what it was given and a restored one is the same with its devices untouched; every new geometry has the detector it was named with. Data: the name of a device is that of the first motor whose nearer position has one; data are accepted exactly when the device that is there is the one used, and a device is made only when it is missing; every quantity comes from the data, else from the motors, with its unit, and is brought to seconds, hertz, amperes or a number without changing it; a rate that is missing is the number per time; quantities of another dimension are refused; validating again changes nothing. Gains are those asked for, else those of the data, refused when they differ; dark data calibrate the dark currents, other data the first diode against the second. The weighted mean lies between its values and depends on ratios of weights only; the flux without beam filters times their transmission is the flux with them.", "quantifier": "all setups, objects, histories of assignments, names, positions, data, units and weights", "why_tests_cant": "Tests set up a beamline once and calibrate with one set of data; shared devices, failed assignments, other units and missing quantities are not covered.", "anchors": ["src/spectrocrunch/geometries/qxrf.py: QXRFGeometry, _update_devices, _check_device, _validate_data, calibrate_diodes", "src/spectrocrunch/instruments/configuration.py: _devicename", "src/spectrocrunch/math/utils.py: weightedsum"]}
{"id": "C63", "title": "A scene shows every item where its coordinates are, however its axes are flipped, shifted, transposed or rescaled", "statement": "Coordinates: the limits of an axis are the smallest interval that holds all coordinates of all items, images with half a pixel on each side; an axis is shown with equal scale and an offset, so that every coordinate is inside of the limits. Flipping an axis mirrors what is shown and its limits about the middle of the data, and flipping it twice is the same as before; moving the origin to a value puts this value at zero and shifts all items by the same amount, so that the picture stays the same, and resetting gives the data back (the code violates this for scenes that were moved or flipped before, see the note); scaling to a range puts the first coordinate at its begin and the last at its end. Transposing exchanges the axes with their units, labels and settings, and is undone by doing it again. The centre of every pixel is at its coordinate. Intensities: there are one or three channels, those asked for first and in order; the limits of an image are the smallest and largest pixel, or percentiles with at most the asked part outside; those of a scene hold those of all images; colours lie between 0 and 1. Items: an item can be selected for exactly the scenes it is in; drawing again removes exactly the objects that are not used anymore, and no object of other scenes. Images of a stack are those with the indices asked for, with their labels.", "quantifier": "all scenes, items, coordinates, settings, channels, pixels, histories of registration and selections", "why_tests_cant": "Plots are looked at, not tested; a combination of flipped, transposed and shifted axes with several items of different size is not covered.", "anchors": ["src/spectrocrunch/visualization/scene.py: Geometry2D, Scene, Item, Image, Scatter", "src/spectrocrunch/visualization/scene_data.py: DataSource, displaydata, XanesSpec", "src/spectrocrunch/process/scenevis.py: scene_modifyaxes, scene_globalscaling"]}
{"id": "C64", "title": "The images of a full-field stack are exposure-normalised, dark-subtracted, cropped and rebinned pixel by pixel, in the order of the stack", "statement": "Pixels: cropping takes the pixels of the region (negative and missing ends as in Python), rebinning sums each complete block and drops the rest, so the total is preserved for the pixels in complete blocks; the value of an axis is the mean of the camera coordinates of the pixels in its block, and the axes have the size of the image. Normalisation: for a detector with its own dark signal for each exposure time and a rate in every pixel, the normalised image is the cropped and rebinned rate whatever exposure times, numbers of frames and order of files; with a dark current from parameters the same holds (the code violates this with rebinning, see the note). Stack: the images of a stack value are those of all files with this value and the camera region of the first file; flat fields are those of the same value and region, halves by name are before and after; values of the stack increase, every value is there once (violated for the same number in different notation), and at every place the sample is divided by the flat field, or the mean of both, of its own value.", "quantifier": "all images, regions, bins, exposure times, frame numbers, headers, files and orders", "why_tests_cant": "Tests use one region and bin size with images of constant exposure; the combination of several files, frames, exposures, darks and bins is never computed.", "anchors": ["src/spectrocrunch/fullfield/import_id21.py: execrebin, execroi, procraw, darklibrary, getroi, axesvalues, dataflatlibrary, getnormalizedimage", "src/spectrocrunch/process/nxfullfield.py: _execute"]}
{"id": "C65", "title": "Resampling on encoder positions gives the signal at the motor positions", "statement": "Grid: the new motor positions are on the grid of the axis, the encoder positions are those of the motor with resolution and offset, the offset puts the middle of the expected on the middle of the measured positions; without cropping all measured positions are inside of the grid, with cropping the grid is inside of the positions measured in all lines (the code violates this for its first and last points, see the note). Interpolation: at a measured position the measured value, between two neighbours on their line, outside the value asked for, whatever the order of the points; data linear in the position are reproduced; degree zero takes a closest point. Task: every element of the resampled signal is written with the value of its own line; a signal that is linear in the position of the motor is resampled to its value at the new positions, up to the difference of the middles of real and nominal positions; without encoders signals are copied; an axis of which nothing would be left is not resampled (violated, it raises), an offset that is given is used (violated, it raises).", "quantifier": "all axes, resolutions, directions, lines, points, degrees, shapes and numbers of encoders", "why_tests_cant": "Tests resample one map with one encoder resolution; directions, cropping, several lines of different range and reversed encoders are combinations that are not sampled.", "anchors": ["src/spectrocrunch/process/nxresample.py: _encoder, _process_indices, _process_data, _execute_grid", "src/spectrocrunch/math/interpolate.py: interpolate_irregular, extrap1d, interp1d_floor, interp1d_ceil"]}
{"id": "C66", "title": "A regular grid of results holds the signals of every detector once, on axes they share, and finds references", "statement": "Groups: a detector number, written in any way ('1', '01', 'xia1', 'detector01'), a sum of detectors and any other name stand for one group; the name and the label of a group give the group back (the code violates this for repeated prefixes and parameter groups, see the note), and different detectors and sums have different groups. Grid: it holds the signals of all groups that are not links, in order, on axes that all of them share, and it is refused when two groups are for the same detector, whatever they are called; the axes of the signals are those of the grid without the axis of signals; the dimensions that are no stack dimensions are those of one image; all values are the stack of the signals (violated unless signals are along the first dimension). References: the reference signal is the last one whose path ends with the given text; the reference image by name or fraction is an image of the stack, within half an image of what is asked (violated close to the end).", "quantifier": "all group names, numbers, signals, axes, stack dimensions and references", "why_tests_cant": "Tests use one naming of groups with the signals along the first dimension; other notations, detector sums, negative dimensions and missing references are not tried.", "anchors": ["src/spectrocrunch/process/nxresult.py: Group, regulargriddata", "src/spectrocrunch/process/regulargrid.py", "src/spectrocrunch/process/h5regulargrid.py: NXRegularGrid, NXSignalRegularGrid", "src/spectrocrunch/process/nxregulargrid.py: reference_signal_index, signal_axes", "src/spectrocrunch/process/nxalign.py: _prepare_reference"]}
{"id": "C67", "title": "A task on a regular grid keeps pixels, axes, signals and their order together", "statement": "For every task that works pixel by pixel (copy, crop, replace, minus logarithm, expressions of several signals), at once or slice by slice: the task succeeds on every grid of signals on shared axes; every signal that is not skipped is in the output exactly once, in the group of the same name, and no other; its pixel at r is the processed pixel of the input at r plus the begin of the region, and the axis values at r are those of the same input pixel; slice by slice gives the same as at once. When nothing is skipped, the order of signals and the default signal are those of the input (when something is skipped the default changes, see the note). Whatever a task does, when it succeeds every data set has the dimensions of the axes. Replacing NaN replaces every NaN, and replacing a number replaces exactly the equal pixels (another NaN object than np.nan replaces nothing).", "quantifier": "all grids, shapes, regions, signals, skipped names, stack dimensions and pixelwise functions", "why_tests_cant": "Tests run each task once on one small map and look at the result of some signals; the alignment of axes with cropped data for several groups with skipped signals is not compared.", "anchors": ["src/spectrocrunch/process/nxregulargrid.py: _execute_grid, _sort, _process_axes, _create_axes, _process_data", "src/spectrocrunch/process/nxcrop.py: _process_indices, _process_axes, signalout_shape", "src/spectrocrunch/process/nxreplace.py", "src/spectrocrunch/process/nxminlog.py", "src/spectrocrunch/process/nxexpression.py"]}
{"id": "C68", "title": "A lazy slice of an XRF stack has the value its function and arguments describe, however slices are nested", "statement": "The value of a reduction slice (sum, nansum, nanmax, nanmean) to which another slice is appended is the pixelwise reduction over all images in it, also when the appended slice is a reduction of the same kind whose arguments are merged; a sum does not depend on the order of appending, is NaN in a pixel exactly when an argument is, and otherwise the sum of all; a slice that corrects a fit result has in every pixel the fit result times reference flux over flux (1 for a zero flux) times the dead time factor input rate / output rate (1 for few counts or unphysical rates), and is the fit result itself when there is no reference and no detector.", "quantifier": "all functions, nested arguments, images of any shape with NaN pixels, files and stack positions", "why_tests_cant": "Evaluation of nested lazy expressions is only exercised by the whole pipeline on one data set.", "anchors": ["src/spectrocrunch/process/nxlazy.py:1-239", "src/spectrocrunch/io/xiaedf.py:750-770"]}
{"id": "C69", "title": "The XRF task adds the detectors it is asked to add, once, and corrects every spectrum once", "statement": "Groups of detectors are numbered 1, 2, \u2026 and their total gets a number no group or detector has; every used detector goes to the sum of its group (and every group to the total) when adding is asked for; what is fitted is either the groups or the single detectors; after adding, the detectors are gone, other groups are unchanged, data sets a sum had already are kept and the others are joined over exactly the detectors that have the data set, in order, by the function of the data set (mean of mass fractions, maximum of chi squares, sum of the rest); the total is the sum over all detectors of all groups; each of the dead time and flux corrections is applied either before or after the fit, never twice and never not at all.", "quantifier": "all lists of included detectors and groups, found detectors, numbers of images and stacks", "why_tests_cant": "The tests run few combinations of parameters and compare shapes, not which detectors were added.", "anchors": ["src/spectrocrunch/process/nxpymca.py:180-269", "src/spectrocrunch/process/nxpymca.py:715-819"]}
{"id": "C70", "title": "A saved pixel of the XRF task belongs to the right image, detector, counter and configuration", "statement": "When the task ends, the energies are ascending and image j of every saved signal comes from the image with the j-th energy: a counter from the counter file of that image, a fit result from the fit of that image and detector with the configuration of the detector, multiplied by the reference flux of that image over the flux calculated from the counter of that image with the diode calibration of that image and by the dead time factor of that detector in that image; a sum of detectors is the sum of these corrected results; images with the same energy stay in order, info axes move along; every saved image has the shape of the first one (missing rows are zero) and nothing else is saved.", "quantifier": "all numbers of images, shapes, energies, counters, fit functions, configurations, reference fluxes and dead times", "why_tests_cant": "Needs unsorted energies together with flux and dead time that differ between images and detectors; the tests have images in order.", "anchors": ["src/spectrocrunch/process/nxpymca.py:93-178", "src/spectrocrunch/process/nxpymca.py:480-726", "src/spectrocrunch/process/nxpymca.py:820-889"]}
{"id": "C71", "title": "Spectra of Bliss scans are corrected for the live time of their own detector and pixel, and summed over the detectors", "statement": "The task before fitting saves, per detector or added, every channel as counts times preset time divided by the live time of that detector in that pixel (counter live_time or else output_live_time), however the data is divided in slices to fit in memory; adding takes every detector once per pattern that matches its name; counters are saved under the last part of their name. The fitting task gives every detector its configuration (one for all or one each) and saves, for every signal, the sum over the detectors that have it, and the counters of the scan unchanged.", "quantifier": "all detectors, patterns, shapes, memory limits, counts, live times, counters and fit results", "why_tests_cant": "Needs several detectors with live times that differ per pixel and data larger than the memory limit; there are no tests for these tasks.", "anchors": ["src/spectrocrunch/process/nxblissmcapre.py:26-190", "src/spectrocrunch/process/nxblisspymca.py:45-170", "src/spectrocrunch/math/slicing.py"]}
{"id": "C72", "title": "Scans are stacked in the order of their positions and tiled row by row, with all points at their own place", "statement": "A task that merges scans collects the results of the same name of all dependencies in order; reads the shape of the scans from the command of the first (fscan2d, l2scan or other meshes); merges every data set, at any depth, from the data sets at the same path in all scans and keeps soft links, pointing into the merged scan; with a motor the stack axis has the positions in increasing order and point (y, x) of image i is point y * fast + x of the scan with the i-th position; when a position is unknown the order is that of the dependencies; a single scan without motor becomes an image; in a mosaic scan i is at row i / columns and column i % columns.", "quantifier": "all numbers of scans, positions, titles, mesh shapes, incomplete scans, trees of groups and tile shapes, and any argsort", "why_tests_cant": "Needs real HDF5 files of several scans with unsorted positions, incomplete meshes and nested groups; the stack and tile tasks have no tests.", "anchors": ["src/spectrocrunch/process/nxmerge.py:15-55", "src/spectrocrunch/process/nxstack.py:18-76", "src/spectrocrunch/process/nxtile.py:15-51", "src/spectrocrunch/process/h5merge.py:91-291"]}
{"id": "C73", "title": "A fit at each energy of a series uses the source lines of that energy, whatever was fitted before", "statement": "Adapting a fit configuration to an energy keeps the order, relative energies, relative weights and scattering of the source lines in use and gives the first the energy and weight one; an additional high energy is added exactly once; adapting a configuration that was adapted before equals adapting the original, so that in a series of energies the result for each energy, file and group of lines is the area of the fit of that spectrum with the original configuration at that energy divided by the normalization of the energy (zero without such a group), chi squared is not normalized, and regions of interest are sums of channels over the same normalization.", "quantifier": "all configurations (lists of any lengths, missing numbers), positive energies, series, stacks of spectra, fit functions, normalizations and regions", "why_tests_cant": "Needs PyMca, and a series of energies with several source lines; no test covers fits at several energies.", "anchors": ["src/spectrocrunch/xrf/fit.py:51-277", "src/spectrocrunch/xrf/fit.py:280-323", "src/spectrocrunch/xrf/fit.py:326-479"]}
{"id": "C74", "title": "An XAS spectrum is the mean over its repeats of the fluorescence divided by I0", "statement": "For synchronised repeats every region is the sum over its channels of max(0, mean over repeats of counts/I0 minus the background), with I0 = (counts/time - background) * exposure time, so that spectra proportional to I0 give exactly the factor; counters are treated alike; repeats with other energies are refused. Repeats which are not synchronised are interpolated at the energies of the first one and averaged. The files of each XIA detector are found.", "quantifier": "All numbers of repeats, energies and channels, all columns, regions, counters, backgrounds and file names", "why_tests_cant": "Tests would need spec and EDF files of real scans for each combination of missing files, counters and labels; a mean over repeats with equal I0 cannot tell the mean of ratios from the ratio of sums.", "anchors": ["src/spectrocrunch/pipelines/id21_xas.py:29-266", "src/spectrocrunch/pipelines/id21_xas.py:269-542", "src/spectrocrunch/xrf/parse_xia.py:10-145"]}
{"id": "C75", "title": "Repeats of XANES scans are grouped with their sum, and no scan is lost or taken twice", "statement": "The list of XANES scans holds in file order the scans in the wanted range with data and a fitting command, with their repeats, except those replaced by an interpolated sum. The groups are, for each sum, the single scans that directly precede it (at most as many as it has repeats) with or without the sum, followed by the scans kept alone; without individual scans each scan is in exactly one group, once.", "quantifier": "All spec files, all lists of scans and repeats, all flags, limits and lists of skipped scans", "why_tests_cant": "The flags, runs and repeats combine in unboundedly many ways; a test file has a few well formed series, not the skipped, incomplete or adjacent ones in which a scan is lost or counted twice.", "anchors": ["src/spectrocrunch/io/spec.py:993-1036", "src/spectrocrunch/io/spec.py:1038-1067", "src/spectrocrunch/io/spec.py:1069-1118"]}
{"id": "C76", "title": "The axes of an image are those of its EDF header, shifted by the compensating motors", "statement": "When the header describes a direction, the fast axis has the centres of its pixels and the slow axis the points of its steps, in the unit of the motor and shifted by the sum of the positions of the compensating motors in the header; without it the command in the header is used, and without that the axes number the pixels.", "quantifier": "All headers, labels, units, compensating motors, name maps and default dimensions", "why_tests_cant": "An image file has one header; that pixel centres and steps, units and several compensating motors fit together for each combination of present and missing keys is not seen in an image.", "anchors": ["src/spectrocrunch/io/spec.py:569-704"]}
{"id": "C77", "title": "Columns, motors and file locations of a spec file are found by name", "statement": "Columns and motor positions are those of the first label equal up to case, in the order asked for, and a missing label raises; the membership tests agree with that. The location of XIA files is what the comment lines of the header say, with any other lines around. The images of a file are listed by name and number, the last scan winning, with the sizes of the scan.", "quantifier": "All lists of labels, rows and motors, all headers and all lists of scans", "why_tests_cant": "Labels that differ in case only, comments with and without colons and repeated names do not occur in test files; the result is a plausible number or an empty location.", "anchors": ["src/spectrocrunch/io/spec.py:721-754", "src/spectrocrunch/io/spec.py:760-782", "src/spectrocrunch/io/spec.py:812-839", "src/spectrocrunch/io/spec.py:908-981"]}
{"id": "C78", "title": "Quadrics have the points they are made for and constrained fits minimise what they should", "statement": "The matrix of a plane, ellipsoid or cylinder is symmetric and vanishes exactly on the points of that surface; a change of frame gives the form in the new coordinates. The quadratic program given to the solver for a constrained least squares fit has as solutions exactly the minimisers of the residuals with the regularization under the inequalities, equalities and bounds; the non negative and the normalised fit likewise.", "quantifier": "All dimensions, points, axes, frames, matrices, data, regularizations, constraints and bounds", "why_tests_cant": "A fit that minimises something close by, or with a bound of the wrong sign that is not active, gives plausible fractions; a matrix has to be right in each entry for each dimension.", "anchors": ["src/spectrocrunch/math/quadrics.py:11-99", "src/spectrocrunch/math/lsqlin.py:103-230"]}
{"id": "C79", "title": "Alignment on a marker finds the movement of the marker", "statement": "The position that the simple alignment takes is that of the brightest (or darkest) pixel that is not missing, the first one in reading order on ties; when a second image is the first one moved and the marker stays inside, the movement found is that movement, and the marker of the corrected image is where the marker of the reference is. Missing pixels never become the marker.", "quantifier": "All image sizes and values, missing pixels, ways to mark missing pixels, positions and movements", "why_tests_cant": "A missing pixel has to be darker than all others to be taken; an exchange of rows and columns in positions cancels in differences for some kernels and not for others; ties are rare in test images.", "anchors": ["src/spectrocrunch/align/alignSimple.py:10-107"]}
{"id": "C80", "title": "Conversions between units keep the values", "statement": "Making a quantity, converting it, taking its magnitude in a unit and making it like another one keep the physical value of every element, for numbers, quantities, arrays and lists; they raise exactly when dimensions differ; the conversion to the first fitting unit of several takes the first with the right dimension; two operands of a comparison are put in one unit, so the comparison is one of physical values.", "quantifier": "All numbers, units, dimensions, lists and arrays of any length, default units", "why_tests_cant": "Tests use a few units with plain numbers; a list that mixes units, or a default unit applied twice, goes wrong only for the second element or in one of the two orders.", "anchors": ["src/spectrocrunch/utils/units.py:36-200"]}
{"id": "C81", "title": "Making, removing, moving and copying files touch only what they should", "statement": "In the local file system making a directory keeps everything and adds only directories on the way; removing a directory or file removes what is below and nothing else, and not recursively only an empty directory; after a move the tree is at the destination, gone at the source, and the rest is unchanged; after a copy both are there; without the force flag a failure loses nothing; a link leads to what it was made for, and one inside a directory moves with it; a temporary tree is renamed or removed and never left behind.", "quantifier": "All trees of directories, files and links, paths, flags, sequences of operations of any length and failures at any point", "why_tests_cant": "Loss of data shows only for certain combinations: destinations inside the source, links, names that are taken, a failure after the first step; tests move a file or two.", "anchors": ["src/spectrocrunch/io/localfs.py:104-263", "src/spectrocrunch/io/fs.py:368-399", "src/spectrocrunch/io/fs.py:706-727"]}
{"id": "C82", "title": "The full-field simulation can be inverted and gives the transmission back", "statement": "Counts are a linear function of the photons, with the slope and offset that photontoDU gives; the backward chain gives the incoming photons back from the counts, expectation and standard deviation; the expectation with noise is the result without noise; the variance is that of a cascade of Bernoulli and Poisson processes plus dark and readout noise; transmission of a measurement without noise is the transmission of the sample for any flux, times and numbers of frames; light yields follow the documented formulas.", "quantifier": "All setups with physical parameters, photons, times and numbers of frames", "why_tests_cant": "The tests compare forward and backward for one detector and arrays; a wrong order of processes or normalisation cancels there, and the noise itself is never compared with an independent formula.", "anchors": ["src/spectrocrunch/simulation/calcnoise.py:17-227", "src/spectrocrunch/detectors/area.py:92-149", "src/spectrocrunch/materials/scintillators.py:64-121", "src/spectrocrunch/materials/lenses.py:66-147", "src/spectrocrunch/materials/multilayer.py:1751-1777"]}
{"id": "C83", "title": "Expressions of lazy functions compute what they show", "statement": "An expression of lazy functions and values gives a function exactly when a function occurs in it; calling it gives the value of the expression with every function called with the same argument; its name shows an expression that computes the same, names can be read in one way only, so functions with the same name compute the same; every expression of the supported operators can be built.", "quantifier": "All expressions of any depth over the sixteen binary and three unary operators, all values, functions and arguments", "why_tests_cant": "The test compares two dozen expressions of depth two at a few points; reflected operators with the operands exchanged or a missing bracket only show for particular operators and nesting.", "anchors": ["src/spectrocrunch/math/lazy.py:9-156"]}
{"id": "C84", "title": "Browsing paths: trees, searches, free names, ancestors and open files", "statement": "A tree lists every entry once with the entry's own path, down to the given depth; a free name is free, keeps the name when possible and otherwise takes the next number of its series; the ancestors of a path are its prefixes and the common ancestor is the longest common prefix; a file object ends closed with no function waiting whatever fails, functions put off until closing never run while the file is open and run in order, once for each request.", "quantifier": "All directory trees of any depth and width, all sets of existing names, all paths, and all programs of nested blocks, requests and exceptions", "why_tests_cant": "Tests browse one small tree and open one file; the interaction of nested opens, exceptions and postponed functions needs all programs, and the end of the search for a free name all directories.", "anchors": ["src/spectrocrunch/io/fs.py:82-145", "src/spectrocrunch/io/fs.py:354-366", "src/spectrocrunch/io/fs.py:484-528", "src/spectrocrunch/io/fs.py:736-767"]}
{"id": "C85", "title": "Batch jobs run as asked and progress is shown truthfully", "statement": "The numbers given on the command line run these jobs in that order, too high numbers are refused without stopping the others, without numbers all jobs run in order up to the first failure; only existing jobs run; the list shows each job with its number, names aligned. A time in seconds is split in the only hours, minutes and seconds that make it up; each line of the pipeline shows a percentage between 0 and 100 of the work that is done, with the time left at the speed so far, and never goes back.", "quantifier": "All numbers of jobs, option values, failing jobs, times, and numbers of spectra, detectors, energies and files", "why_tests_cant": "No test runs batch files or progress lines; wrong widths appear at ten jobs and wrong progress with several detectors.", "anchors": ["src/spectrocrunch/pipelines/batch.py:62-123", "src/spectrocrunch/utils/timing.py:15-77", "src/spectrocrunch/xrf/fit.py:412-477", "src/spectrocrunch/pipelines/id21_xas.py:166-241"]}
{"id": "C86", "title": "Formulas in spreadsheets hold after every operation", "statement": "After values, rows, columns and formulas are added to a sheet in any order in which formulas are added before they are referred to, every column formula holds in every row, every row formula in every column and every cell formula in its cell, with the stated priorities where they meet; entered values outside formulas are kept.", "quantifier": "All sheets with any rows, columns and values, all formulas and all series of operations", "why_tests_cant": "The test adds four formulas to a sheet of three rows; whether one pass over the formulas is enough depends on their order and on where row, column and cell formulas meet.", "anchors": ["src/spectrocrunch/io/excel.py:96-245"]}
{"id": "C87", "title": "XRMC loops and frames put every device where the output name says", "statement": "In an XRMC simulation with nested loops every detector runs exactly once per grid point, in loop order, with a different output suffix of fixed length, and at that moment the loaded steps and retours have moved every device by exactly as many steps of every loop as the suffix says. The frame matrices of a device are each other's inverse, rotations about an axis add up, and the numbers written for quadrics of fixed devices describe the moved surface.", "quantifier": "All numbers of nested loops, steps and detectors, all moves (also rotations that do not commute), all device positions and quadrics, all lists of layers", "why_tests_cant": "The test writes one simulation with at most one loop and needs the xrmc program to look at the result; order effects of retours only appear with nested loops that do not commute.", "anchors": ["src/spectrocrunch/simulation/xrmc.py:279-300", "src/spectrocrunch/simulation/xrmc.py:343-375", "src/spectrocrunch/simulation/xrmc.py:480-499", "src/spectrocrunch/simulation/xrmc.py:574-734", "src/spectrocrunch/simulation/xrmc.py:858-914", "src/spectrocrunch/simulation/xrmc.py:1793-1850"]}
{"id": "C88", "title": "Cross sections for arrays of elements and energies", "statement": "A cross section evaluated for arrays of atomic numbers and energies of any dimensions has the dimensions of the atomic numbers followed by those of the energies, and each value is the cross section of that element at that energy, zero where the library has none; numbers give a number. Partial cross sections from a simulation replace the tabulated ones in the total.", "quantifier": "All shapes and values of both arguments, all cross section functions, with and without numpy support of the library", "why_tests_cant": "The test compares shapes for nine combinations and never the order of the values; the correction with simulated cross sections is only tested where the difference is positive.", "anchors": ["src/spectrocrunch/materials/csutils.py:7-75", "src/spectrocrunch/materials/element.py:287-311"]}
{"id": "C89", "title": "Point measurements on maps and triangles of components", "statement": "A point measurement within half a step of a map pixel is drawn on a picture pixel with the value of that map pixel, whatever the order of the motor positions and however the map is transposed, flipped and given a default origin; the axes and positions are the sum of coarse and fine motor in micron. The intensities of a colour are between zero and one, increase with the value and the high end of the range has full intensity. In a ternary diagram, place and shares of the components determine each other, pure components are the corners and lines of equal share end at the sides.", "quantifier": "All maps on a regular grid, positions, options, colour ranges and all points of the triangle", "why_tests_cant": "Neither plot is tested; one would have to compare pictures for all sixteen combinations of options.", "anchors": ["src/spectrocrunch/visualization/id21_scanoverlap.py:10-100", "src/spectrocrunch/visualization/id21_scanoverlap.py:181-300", "src/spectrocrunch/visualization/ternary_diagram.py:180-260"]}
{"id": "C90", "title": "Conversion of XIA files to a NeXus entry", "statement": "The spectra in the file are those of the XIA files, row by row, whether they are copied at once or in chunks; chunks do not overlap, leave no row out and respect the memory limit. Exactly the included and not excluded counters are stored, each with its own data, and the fluxes of the application are the counters of the instrument for them. Missing times are events per rate, measured times are kept. A conversion that fails leaves the file as it was, one that succeeds adds one entry.", "quantifier": "All numbers of rows, sizes of rows and memory limits, counter names, filters, instruments and statistics, all files", "why_tests_cant": "Data for more than one chunk is over 100 MB, so the chunks are never tested; the filters, the links and failing conversions are not tested either.", "anchors": ["src/spectrocrunch/io/xiaedftonexus.py:121-143", "src/spectrocrunch/io/xiaedftonexus.py:218-256", "src/spectrocrunch/io/xiaedftonexus.py:268-408", "src/spectrocrunch/process/nxxiaedf.py:34-95"]}
{"id": "C91", "title": "Simulations with xmimsim", "statement": "The setup has slits that give the requested beam size, the first sample layer as reference, ten layers and three attenuators with the configured ones unchanged. A simulation succeeds exactly when all its programs do and stops at the first that fails. The patched input files only differ in the output file, the pulse width and the noise. The result that is read is the one with the most interactions of this simulation, with the energies of its calibration.", "quantifier": "All distances, beam sizes, layers, exit codes, input files, headers and result files", "why_tests_cant": "The programs are not available in the test environment, so nothing of this module is tested.", "anchors": ["src/spectrocrunch/simulation/xmimsim.py:36-248", "src/spectrocrunch/io/spe.py:5-24"]}
{"id": "C92", "title": "Outliers and tiles", "statement": "A fixed number of outliers marks that many values, none of which deviates less from the median than a value that is not marked. Otherwise a value is marked exactly when it deviates more than so many times the scaled median deviation, at most half of the values are marked, and the marks do not depend on the unit or the origin. Tiling repeats the source along the rows, the columns or the diagonal blocks and leaves all other memory unchanged.", "quantifier": "All lists of values, limits, numbers of outliers, sources, destinations with their strides and repetitions", "why_tests_cant": "There are no tests of the outlier detection; a test of the tiles can only use some shapes.", "anchors": ["src/spectrocrunch/math/statistics.py:8-36", "src/spectrocrunch/utils/arraytricks.py:8-50"]}
{"id": "C93", "title": "Normal distributions between limits", "statement": "The density between two limits is positive and integrates to one, also for limits above zero where another formula is used. The distribution function is its integral. The quantiles invert the distribution function and are between the limits. The mean and the variance are those of the density. The distribution with a hole has a hole.", "quantifier": "All real limits, values and probabilities", "why_tests_cant": "Samples of a random number generator only test this within their statistical uncertainty, and only for some limits.", "anchors": ["src/spectrocrunch/math/distributions.py:69-159"]}
{"id": "C94", "title": "Logs, saved images and stacks of images", "statement": "A log file gets every line of every message once, indented, after what it had or as the only content; the same lines are printed. Messages are split at every end of line. An existing image is only replaced when that is asked for and other files do not change. The labels of a stack are the file names without directory and extension, its values are the images in the order of the files.", "quantifier": "All messages, indentations, file contents, file names and images", "why_tests_cant": "Tests write a few files in empty directories.", "anchors": ["src/spectrocrunch/io/ascii.py:51-91", "src/spectrocrunch/io/edf.py:62-69", "src/spectrocrunch/process/edfregulargrid.py:13-53"]}
{"id": "C95", "title": "Means over the lines of a spectrum", "statement": "Sampling a table with a spectrum gives the mean over its lines weighted with their intensities: it is between the lowest and the highest value of the table at the lines, does not depend on the scale of the intensities, and is the default of the table without lines. Adding lines makes every sum over the spectrum the sum over both sets of lines, also when they have lines in common.", "quantifier": "All spectra, tables, conversions of units and added lines", "why_tests_cant": "Tests sample with one or two lines.", "anchors": ["src/spectrocrunch/sources/emspectrum.py:28-73", "src/spectrocrunch/utils/lut.py:181-183"]}
{"id": "C96", "title": "Steps, classes, defaults and axes in a NeXus file", "statement": "Processing steps are read in the order in which they were added, whatever the order of the file. Following the default attributes from the root leads to the group that was made the default. The parents of a new group get a class up to the first that has one. Axes that are linked to a data group are read again in the same order. The path and the name of an object are its parts.", "quantifier": "All steps, names, numbers of steps, orders of the file, paths, classes and axes", "why_tests_cant": "With fewer than ten steps the order of the file is the order of the steps; tests do not have more.", "anchors": ["src/spectrocrunch/io/nexus.py:8-22", "src/spectrocrunch/io/nexus.py:117-200", "src/spectrocrunch/io/nexus.py:389-411"]}
{"id": "C97", "title": "Energies, names and order of interactions", "statement": "After any chain of elastic and inelastic scattering the inverse energy is the inverse energy at the start plus the contribution of each inelastic angle, so the energy stays positive, does not grow and does not depend on the order of the angles. Two interactions are equal exactly when they are the same chain of interactions apart from energies and angles. An interaction sorts before its source only when energy was lost.", "quantifier": "All chains of interactions of any length, energies, angles, element names and line names", "why_tests_cant": "Chains have any length, and whether names clash depends on all pairs of chains.", "anchors": ["src/spectrocrunch/materials/interaction.py:8-74", "src/spectrocrunch/utils/comparable.py:10-56"]}

# Design

Formal model in Lean 4 (`/verif/lean/Verif`) of woutdenolf/spectrocrunch (pinned source in `/repo`,
Python 3), and proofs of the properties in `properties.jsonl`.  `MANIFEST.json` lists the theorems of
each property, `seeded/LOG.jsonl` the wrong programs the theorems were tested against, `AXIOMS.md`
the axioms of each theorem.

## Method

- Each function of the code that a property concerns is a total, computable Lean function next to a
  comment with file and lines.  Exceptions are values (`Except`, `Option`), objects with state are
  records, `while` loops have a bound on the number of steps that is proved to be enough (or the loop
  is proved to be endless), programs that use a context manager or can be interrupted are syntax
  trees or small-step machines whose schedules (exceptions, signals, kills, other programs) are
  arbitrary lists.
- A directory `Verif/<Topic>` has the model (`Model.lean` and other files named after the code),
  where needed a specification that does not use the model (`Spec.lean`), auxiliary lemmas
  (`Lemmas*.lean`), the theorems (`Props*.lean` and the files named below) and examples and witnesses
  (`Cases.lean`).  `example`s beside the theorems show that hypotheses can be met.
- Where the code does not have a property, the negation is proved with a concrete input, the
  positive theorem has the exact condition if there is one, and the claim has status `partial` in the
  manifest with the reason in its note.  Where a theorem has the suffix `_partial`, its comment or
  the note says what is missing.
- Theorems are tested against wrong programs: an edit of the model that makes an English claim false
  has to break a proof.  Edits that survived led to stronger theorems (`theorems_tightened` in the log)
  or are equivalent programs (noted there).

## Trusted base

1. The kernel of Lean 4.33.0 and the axioms `propext`, `Classical.choice` and `Quot.sound`
   (`AXIOMS.md`; no other axioms, no `sorry`, no `native_decide`, no `bv_decide`, no
   `implemented_by`).  `decide +kernel` is evaluated by the kernel.
2. That the definitions are what the cited lines do.  Deviations are in the comments and under *Not
   modelled* below.
3. The meaning given to what the code calls, none of which is part of the repository:
   - **Python**: `int`, `list`, `dict` and `OrderedDict` (insertion order, `Verif/Py/Dict.lean`), sorting
     (stable), `itertools.groupby`, `round` (half to even), slices, `str.format` and `%d`, `%.Pg`
     (`Verif/Mca/Format.lean`), `str.replace/split/strip`, `posixpath` (after its source), regular
     expressions as the ordered list of matches of a backtracking matcher (`Verif/Py/Regex.lean`), C3
     method resolution order, `contextlib.contextmanager`, generators being closed when they are no longer
     referenced (CPython), signals being delivered between instructions, `difflib` ratios as an
     arbitrary function, MD5 as an arbitrary function (theorems about different hashes assume no
     collisions).
   - **Numbers**: floats are rational or real numbers, or elements of any (ordered) field, without
     rounding; where the code tests for NaN or infinity these are additional values
     (`Verif/Linop`, `Verif/XiaStats`, `Verif/Align`, `Verif/Crop`).  Integers don't overflow.
   - **numpy**: n-dimensional arrays are a shape and a function of the indices; basic and advanced
     indexing, broadcasting of one-dimensional arrays, `pad`, `linspace`, `arange`, `diff`, `argmin`,
     `argmax`, `unravel_index`, `nonzero`, `stack`, `transpose`, `delete`, `linalg.inv/det/lstsq` by
     their mathematical definition, `fft` by the documented sums.
   - **scipy, shapely, fabio, PyMca, xraylib, pint, uncertainties, pyparsing, jsonpickle**:
     `interp1d` (linear), `ndimage.shift/affine_transform` (sampling at transformed coordinates),
     bounds of unions and intersections of rectangles, EDF files return what was saved, the SPEC reader
     of PyMca is replaced by a specification of the format, tabulated data are arbitrary functions,
     a quantity is a number and a unit name, linear error propagation, parse results of the grammar
     operators, states given by `jsonpickle` are arguments.
   - **HDF5 and file systems**: a file is a finite map from paths to nodes; the outcome of opening a
     file is an arbitrary sequence of results and errors; single steps (rename, move, create) are
     atomic; virtual datasets map the regions they are given; `glob` without special characters.
4. The statements: that the theorems say what the properties say.  The specifications are short and
   don't use the model's helper functions except where a comment says so.

## Properties

### C01 Lazy stack indexing equals materialise-then-index (partial)

indexing.getitem(generator, args, index, ndim, shapefull, axis) returns exactly what numpy.stack(map(generator,args),axis)[index] returns (same shape, same elements), and evaluates the generator only for stack positions the index selects; it raises exactly when numpy would.

- *Code*: utils/indexing.py: getitem, replacefull_transform, extract_axis, extract_newaxis, expand, decompose_listindexing
- *Model and proof*: Arrays over any element type as shape and function. numpy indexing is defined once as the specification (`Verif/Numpy`); `getitem` follows the code: expand the ellipsis, pull out new axes, extract the stack index, evaluate the planes, restack, restore the axes. Refinement theorem: the result is the index applied to the stacked array; and the planes evaluated are exactly the selected ones.
- *Not modelled*: Index lists of different lengths (broadcasting) in one index.
- *Theorems* (8): `Verif/Indexing/Props.lean`
- *Result*: Refinement of getitem to stack-then-index and laziness, for all shapes, axes and index tuples with lists of equal length; the excluded forms are shown to deviate (bool lists next to a list-indexed stack axis, full index plus ellipsis, 1-d non-tuple, wrong-length mask).

### C02 Predicted shape equals the real shape after indexing (partial)

indexing.shape_afterindexing(shape, index) is the shape of numpy.empty(shape)[index], and axesorder_afterindexing gives the axis order of that result.

- *Code*: utils/indexing.py: shape_afterindexing, axesorder_afterindexing, expand, lengthadvanced
- *Model and proof*: The same numpy specification; `shape_afterindexing` and `axesorder_afterindexing` on index tuples; induction over the tuple.
- *Not modelled*: As C01.
- *Theorems* (3): `Verif/Indexing/ShapeProps.lean`
- *Result*: Predicted shape and meaning of the axis labels for all indices with lists of equal length; length-1 broadcasting raises (shape_afterindexing_no_broadcast).

### C03 Index normalisation preserves selection (partial)

Expanding an ellipsis (expand), replacing an axis (replace), popping newaxes (extract_newaxis) and moving an axis (move_axis) describe the same selection: expand is idempotent, gives exactly one entry per dimension, and leaves the selected elements unchanged.

- *Code*: utils/indexing.py: expand, replace, extract_newaxis, positiveaxis, axisindex
- *Model and proof*: `expand`, `replace`, `positiveaxis`, `axisindex`, `move_axis`, `extract_newaxis` as list functions; laws by induction.
- *Not modelled*: As C01 for `extract_newaxis`.
- *Theorems* (8): `Verif/Indexing/Props.lean`
- *Result*: expand, positiveaxis, axisindex, replace, move_axis in full; extract_newaxis for lists of equal length.

### C04 Slice generation is an exact partition (partial)

slice_generator(shape, dtype, ...) yields slices that together cover every element of the array exactly once and whose size respects the requested limit.

- *Code*: math/slicing.py: slice_generator, find_slice_axis
- *Model and proof*: `find_slice_axis` and `slice_generator` over natural numbers; every position is in exactly one slice.
- *Theorems* (6): `Verif/Slicing/Props.lean`
- *Result*: Exact partition, entries per dimension and maximality in full; the size limit holds when the first dimension fits in it and is exceeded otherwise (slice_generator_exceeds).

### C05 ROI clipping is in bounds and idempotent (proved)

cliproi(shape, roi) returns for every dimension a pair (a,b) with 0<=a, a<=n-1 (n>0), 0<=b<=n; in-range non-negative ROIs are returned unchanged; negative bounds count from the end; the function is idempotent on its own output; the sub-image selected equals the Python slice a:b.

- *Code*: utils/roi.py: cliproi
- *Model and proof*: `cliproi` over integers and missing bounds; Python slices as separate specification; case analysis.
- *Theorems* (6): `Verif/Roi/Props.lean`
- *Result*: cliproi bounds, Python-slice meaning, idempotence; lower bounds beyond the end deviate from the Python slice (clip_beyond_end).

### C06 Interval merging preserves the union (proved)

mergeroi1d(intervals) returns intervals that are sorted, pairwise separated (strict gap) and whose union is the union of the inputs; the result does not depend on the order of the input and merging is idempotent.

- *Code*: utils/roi.py: mergeroi1d
- *Model and proof*: `mergeroi1d` as sorting and fold; the union as predicate on points; sortedness and separation by induction.
- *Theorems* (6): `Verif/Roi/Props.lean`
- *Result*: Union, separation, validity, order independence and idempotence for any linear order.

### C07 Bounded dictionary never exceeds its limit and evicts oldest first (proved)

After any sequence of constructions/insertions/overwrites/deletes a LimitedSizeDict holds at most size_limit entries, holds each key at most once, returns the last value stored for every key it still holds, and the keys it holds are the most recently first-inserted ones.

- *Code*: utils/cache.py: LimitedSizeDict
- *Model and proof*: Ordered association list; refinement to a queue and a last-write map over every list of operations.
- *Theorems* (6): `Verif/Cache/DictProps.lean`
- *Result*: Refinement of LimitedSizeDict to a FIFO queue and last-write map over every history.

### C08 Scoped cache: computed once per outermost scope and gone afterwards (partial)

Inside any nesting of cachectx(subject) the cached value is generated by the outermost scope only; inner scopes with the same subject see the same object; after the outermost scope exits the cache no longer contains the subject, also if the body raised.

- *Code*: utils/cache.py: Cache.cachectx, Cache.getcache, withcache
- *Model and proof*: Programs with scopes, reads and exceptions as syntax tree, big-step interpreter; structural induction.
- *Not modelled*: Threads.
- *Theorems* (7): `Verif/Cache/ScopeProps.lean`
- *Result*: Computed once / shared / restored on normal exit proved; restoring after an exception is false of the code (no finally) and refuted by leak_on_exception.

### C09 Integer base conversion round-trips and is injective (proved)

base2int(int2base(n, base)) = n for every n >= 0 and every supported base, the digit strings contain only the digits of the base and have no leading zero digit (except for 0 itself), and distinct integers have distinct strings.

- *Code*: utils/integerbase.py: integerbase.int2base, base2int
- *Model and proof*: Digit lists; strong induction.
- *Theorems* (8): `Verif/IntBase/Props.lean`
- *Result*: Round trip both ways, digits, length, injectivity; negative numbers do not read back (base2int_int2base_neg).

### C10 Key aggregation preserves per-key totals (proved)

unique2lists(keys, values, add=True) returns every distinct key exactly once in first-occurrence or sorted order with the sum of its values; sumrepeats preserves the grand total; with add=False the first value is kept.

- *Code*: utils/listtools.py: unique2lists, sumrepeats
- *Model and proof*: Association lists; sum per key as specification.
- *Theorems* (4): `Verif/ListTools/Props.lean`
- *Result*: Aggregation by key.

### C11 Look-up table: sorted unique keys through every history (proved)

After any sequence of add/replace operations a LUT has strictly increasing keys; add accumulates values for repeated keys, replace overwrites them; looking up a stored key returns its stored value, looking up below/above returns the first/last value, and an empty table returns the default.

- *Code*: utils/lut.py: LUT
- *Model and proof*: Operation lists over the table's state; strictly increasing keys as invariant; refinement to a finite map; linear interpolation as specification.
- *Not modelled*: Unit conversion between compatible units.
- *Theorems* (11): `Verif/Lut/Props.lean`
- *Result*: Every history of add/replace; evaluation at, between and outside keys; pickling. Adding nothing to an empty table and length mismatches deviate (lut_add_nothing, lut_length_mismatch).

### C12 Joint list permutations keep pairs together (proved)

sort2lists returns the same multiset of pairs sorted by the first list, stable; move(lst,i,j), roll and swap are permutations of the input with the documented element moves; flatten preserves left-to-right order of the leaves and is idempotent; unique_everseen keeps the first occurrence of each element in order.

- *Code*: utils/listtools.py: sort2lists, move, roll, swap, flatten, unique_everseen
- *Model and proof*: List functions; permutation theorems.
- *Theorems* (20): `Verif/ListTools/Props.lean`, `Verif/ListTools/Perm.lean`
- *Result*: sort2lists, move, swap, roll, flatten, unique_everseen, selection; roll ignores the sign (roll_neg).

### C13 Operator algebra means function composition (partial)

For the operators of math/linop (linear, clip, nan-clip, identity) (A*B)(x)=A(B(x)) for every x, A**n is n-fold application, inverses undo the operator on its range, and simplifying a product never changes its value.

- *Code*: math/linop.py: Operator, LinearOperator, ClipOperator, NaNClipOperator, CombinedOperator
- *Model and proof*: Operators as chains of linear, clip, NaN-clip and lambda operators over floats with NaN and infinities; evaluation is a homomorphism.
- *Not modelled*: Rounding.
- *Theorems* (10): `Verif/Linop/Props.lean`
- *Result*: Composition, powers (exponent at least 1, without opright) and inverses of chains of linear, clip, NaN-clip and lambda operators over floats with NaN and infinities, slopes non-zero; the excluded cases deviate (mul_zero_slope, pow_zero_wrong, pow_drops_right, inverse_inverse_clip).

### C14 Image transformation composition and inversion (partial)

LinearMapping.after/before compose as coordinate maps, inverse() undoes the mapping, and new_frame conjugates it; translation/affine/projective types agree on common inputs.

- *Code*: align/transform.py: LinearMapping
- *Model and proof*: 3x3 matrices over a field, typed transformations with the simplifications of the code, objects sharing arrays as heap.
- *Not modelled*: Interpolation orders of `ndimage` (sampling points only), `*_fromkeypoints`.
- *Theorems* (26): `Verif/Transform/Props.lean`
- *Result*: Composition, inversion, change of frame, coordinates, type promises and in-place variants in full over any field; image sampling for equal diagonal coefficients. Refuted parts: samplePoint_wrong, newFrameInplace_self, copy_shares, getaffine_wrong, setprojective_type_wrong, setrigid_translation, fromtransform_broken, translation_homogeneous.

### C15 Composition fraction conversions round-trip and stay normalised (proved)

mole->weight->mole, weight->volume->weight and mole->volume->mole conversions are inverse to one another on normalised fractions, each output sums to one, and density/molar-mass helper functions are consistent with them.

- *Code*: materials/stoichiometry.py
- *Model and proof*: Lists over an ordered field; a mixture of masses as specification.
- *Theorems* (5): `Verif/Stoich/Props.lean`
- *Result*: All six conversions and the density and molar-mass helpers against a mixture of masses, molar masses and densities over any ordered field; round trips; add_frac.

### C16 Error propagation inverses undo their forward operation (proved)

reverse_add/sub/mult/div/log and the reversed repeat/compound undo the forward propagation of expectation and variance.

- *Code*: math/noisepropagation.py
- *Model and proof*: Expectation and variance over the reals; linear propagation as specification, compound distributions as finitely supported measures.
- *Not modelled*: General distributions for `compound`.
- *Theorems* (20): `Verif/Noise/Props.lean`
- *Result*: Reverse operations against linear propagation over the reals, both directions; repeat against the variance of independent sums; compound against the law of total variance for finitely supported counts.

### C17 Parameter tree: children see inherited values, own values win (partial)

Reading a parameter from a node returns the value set on the nearest ancestor-or-self that defines it; setting a value on a node never changes what its ancestors or siblings see; resetting restores the inherited value.

- *Code*: pipelines/parameters.py: Node
- *Model and proof*: Forest of nodes with parent pointers as state machine over operation lists; lookup through ancestors as specification.
- *Not modelled*: Deep copies; several items at once in `update_recursive`.
- *Theorems* (21): `Verif/ParamTree/Props.lean`, `Verif/ParamTree/TreeProps.lean`, `Verif/ParamTree/SubNode.lean`
- *Result*: Every tree and history of atomic parameters in full (reading, setting, resetting, moving, inserting, removing, keys); mappings as values (SubNode) inherit only from the parent (getSub_grandparent, getSub_mutates); a value equal to the inherited one is not stored (equal_value_not_stored).

### C18 Task output is all-or-nothing (partial)

Running a task leaves at the output location either a complete result or no new result: whatever exception the body raises and at whatever step, the temporary output is removed and a previously existing result of another task is untouched; a second run of the same task does not recompute.

- *Code*: process/nxprocess.py: Task; process/basetask.py: Task.run
- *Model and proof*: A run of a task as machine; schedules interleave its steps with exceptions, kills, signals, other programs and further runs.
- *Not modelled*: Failing removal.
- *Theorems* (16): `Verif/Process/TaskProps.lean`
- *Result*: A run as a machine whose schedules interleave its steps with exceptions, kills, signals, other programs and further runs, without bound. Proved for all schedules: existing nodes are untouched and every node at a name the task looks for is an old one, somebody else's, or a complete result. Proved for runs disturbed by exceptions only: everything as before or exactly one new complete process and its directory; a second run does not compute. Missing because false: the directory of the result after a kill or signal between rename and move (killed_before_move, signal_before_move), leftovers of a failing setup or a signal (setup_failure, signal_in_setup), set_default may raise after the result is in place (default_raises), an existing directory (nested_directory), a cached existence (stale_cache), reuse of leftovers (leftover_reused). Removing does not fail in the model.

### C19 Process lookup is keyed by the parameters (partial)

Finding or creating an NXprocess returns an existing process only if its stored parameter checksum and dependencies equal the requested ones, otherwise creates a new one with a fresh name; equal parameters give equal checksums independent of dictionary order.

- *Code*: io/nxfs.py: nxprocess, find_nxprocess, updated checksum; utils/hashing.py
- *Model and proof*: Files with entries and processes, requests with parameters and dependencies, checksum by an arbitrary digest.
- *Theorems* (14): `Verif/Process/LookupProps.lean`
- *Result*: All files, requests and digest functions: soundness and completeness of the search, the effect of a request, its termination, and that asking again gives the same process. Stored parameters are assumed to keep their hash and links their checksum (else unstable_not_found). Without collisions the checksum identifies parameters and dependencies among requests with dependencies, and among those without. Missing because false: dependencies and parameters are not kept apart (deps_params_collide), a dictionary with one item equals a list (dict_list_request), a missing entry makes the search global (missing_entry_searches_all).

### C20 Termination handling runs teardown once and restores handlers (partial)

HandleTermination runs the teardown exactly once when a termination signal arrives within the block, never afterwards, and always restores the previous signal handlers.

- *Code*: utils/signalhandling.py: HandleTermination
- *Model and proof*: Instructions of `HandleTermination` as machine with a stack; schedules of signals and exceptions.
- *Not modelled*: Threads.
- *Theorems* (17): `Verif/Signals/Props.lean`
- *Result*: HandleTermination as a machine whose schedules interleave instructions, signals (nested, several) and exceptions without bound. Proved for every schedule: while no cleanup is needed the original handlers are installed; a with statement that ends without exception from setup or cleanup has called the teardown and restored the handlers. Proved for calm schedules: exactly once. Missing because false: a second signal during the teardown (teardown_twice), exceptions of setup (setup_raises) or teardown (teardown_raises, teardown_raises_in_handler), a signal while the handlers are replaced (signal_while_replacing), handlers not installed from Python (unknown_handler), default handlers are never resent (default_swallowed).

### C21 HDF5 opening retries are bounded and faithful (partial)

Opening an HDF5 file performs at most the configured number of attempts, succeeds iff one attempt within the budget succeeds, returns the handle of the first success and re-raises the last error otherwise.

- *Code*: io/h5fs.py: File context
- *Model and proof*: Outcome of each attempt as arbitrary sequence; classification of the messages of HDF5 errors.
- *Not modelled*: Time between attempts.
- *Theorems* (13): `Verif/H5/RetryProps.lean`
- *Result*: Complete behaviour for every sequence of outcomes: at most the configured attempts, first decisive attempt decides, handle of the first success. Missing because false: the last error is not raised again but replaced by LockedError (last_error_lost); no attempt at all with zero retries (no_retries).

### C22 HDF5 device open modes: what may be created or destroyed (partial)

Opening in read modes never creates or modifies, 'x' fails on existing nodes, 'a' creates missing nodes and leaves existing ones, 'w' replaces; error classes are determined by existence and kind of node.

- *Code*: io/h5fs.py: Path._fopen, h5FileIO mode tables
- *Model and proof*: Decision tables over mode and kind of node; file as map from paths; frame conditions.
- *Not modelled*: Attributes; links between files.
- *Theorems* (22): `Verif/H5/ModesProps.lean`
- *Result*: All modes, kinds of node and file contents; frame conditions for every path. Proved for devices of mode r, r+ and a, and inside of an open device of any mode. Missing because false: devices of mode w truncate on every access (read_truncates), devices of mode x create on reading (read_creates), r+ nodes create the file (rplus_creates), mode w destroys before it fails (write_destroys_group, write_destroys_dataset), mode a without arguments does not create.

### C23 NXdata signal bookkeeping (partial)

After any sequence of add_signal/default_signal/remove_signal/sort_signals, the signals are pairwise distinct, the default signal is one of them whenever there is any, and the set of signals is that of the abstract history.

- *Code*: io/nxfs.py: _NXdata
- *Model and proof*: Operation lists over the attributes `signal` and `auxiliary_signals` of groups.
- *Not modelled*: Contents of the datasets.
- *Theorems* (12): `Verif/NXdata/Props.lean`
- *Result*: All histories from a group with any datasets: no signal is lost and there is a default (no_signal_lost); the effect of each operation after any history; set_default over several groups. Distinctness and exact agreement with the abstract history for all histories that neither add a signal again without creating it nor remove the only signal. Missing because false: re-adding duplicates (readd_duplicates), removing the only signal leaves a stale default (remove_only_stale, bookkeeping_false); sorting without signals raises.

### C24 Axis representation round-trips and nearest-index is exact (partial)

Regular/segmented axes report start, end, size, step consistent with their values; simplifying an arbitrary axis to a regular one preserves its values; the nearest-index lookup returns an index minimising the distance.

- *Code*: process/axis.py: Axis, AxisRegular, AxisRegularInc, AxisSegments, AxisNumber, arg_closest_num
- *Model and proof*: Axes over rational numbers.
- *Not modelled*: Unit conversion; rounding; `difflib`.
- *Theorems* (36): `Verif/Axis/Props.lean`, `Verif/Axis/LimitsProps.lean`
- *Result*: Over exact rational numbers and any sizes. Regular, incremental, single and segmented axes agree with their values; simplification is exact with the default precision and bounded by precision*(n-1)^2/8 otherwise; nearest index is the first minimiser; newstart/newend/newlimits on regular axes; interpolate; equality. Missing because false: end of a regular axis without steps (regular_no_steps), start/end/step setters grow the axis (setStart_grows, incStart_grows), end_stepsize of segmented axes (segments_endStep_wrong), simplification may move values by more than the precision (simplify_moves), cropping irregular axes (newstart_irregular) and to one point (newlimits_raises), equality is not symmetric or transitive (axisEq_not_equivalence). Unit conversion and float rounding are not modelled.

### C25 Automatic cropping returns the bounding box of valid data (partial)

The crop ROI (nanval cropping) contains every non-NaN pixel common to the images requested and no smaller box does; the sliced and unsliced computations agree; applying the ROI never produces an out-of-range access.

- *Code*: process/nxcrop.py: calccroproi
- *Model and proof*: Masks from arrays with missing values, bounding box as specification, slices by axis.
- *Not modelled*: HDF5 storage and the new axes.
- *Theorems* (14): `Verif/Crop/Props.lean`
- *Result*: Every array, dimension, nanval. nanfull=False: exactly the bounding box of the common valid pixels; sliced and unsliced agree; every ROI can be applied, slice by slice or at once. nanfull=True: inside the bounding box and exact whenever the valid pixels form a box. Missing because false: with nanfull=True (the default) valid pixels may be dropped (full_drops), a NaN that is not the object np.nan crops nothing (other_nan), empty images raise (empty_raises), user ROIs beyond the image (user_beyond). HDF5 storage and the new axes are not modelled.

### C26 HDF5 tile merging does not overlap or lose data (partial)

tile_indices places the i-th dataset in its own block of the layout, blocks are pairwise disjoint and inside the layout; match_shapes returns shapes of equal total size not larger than the originals.

- *Code*: process/h5merge.py: match_shapes, tile_indices, layout_slicing, max_shape
- *Model and proof*: Shapes, tiles and layouts as lists of natural numbers; datasets as functions.
- *Not modelled*: Reading Bliss files.
- *Theorems* (18): `Verif/Merge/Props.lean`, `Verif/Merge/PlanProps.lean`
- *Result*: All shapes, tile shapes, orders: tile blocks have the dataset's shape, lie in the layout in the tile of their number and are pairwise disjoint (data and tiles of equal rank); match_shapes reduces last dimensions only, to the largest common size. Element-wise for the merged datasets: tiled and stacked one-dimensional scans on a mesh, stacked scans of any lengths with the same detector. Missing because false: unchanged shapes are returned empty (match_unchanged_empty), more tile than data dimensions overlap (tile_rank_overlap), points of incomplete rows are lost (tile_incomplete_loses), detectors with incomplete maps (tile_detector_raises, stack_mesh_scrambles), different detector shapes (stack_scrambles), longer or shorter scans (tile_long_raises, tile_short_raises), the Bliss mesh is never used (bliss_not_reshaped).

### C27 Alignment pad/crop bookkeeping is consistent (partial)

The destination image size predicted from the transformations equals the size of the padded or cropped image; the transformed axes have that same length, keep the original values in their interior and extrapolate linearly outside.

- *Code*: align/align.py: pad, crop, setextend, transform_axes, dest_imgsize
- *Model and proof*: State of the alignment object over sequences of calls with translations.
- *Not modelled*: Other transformations and pre-transformations.
- *Theorems* (8): `Verif/Align/Props.lean`, `Verif/Align/LemmasAxes.lean`, `Verif/Align/Cases.lean`
- *Result*: Translations (rational), any image size, any sequence of align calls on one object: the predicted size is the size of every transformed image (dest_size); pixel-exact for whole-pixel translations (transform_pixel); axes have that length, the original values inside and the straight continuation outside whenever a padded axis has two values and one image keeps its place (axes_partial; C47 shows that the reference does). Missing because false: an axis with one value cannot be padded (single_row_axis_deviation). Other transformations and pre-transformations are not modelled.

### C28 XIA file names round-trip and grouping loses no file (partial)

xiafilename followed by XiaNameParser.parse returns the same radix, map number, line number and detector label; sorting and grouping file names by radix/map/line is a partition: every file appears in exactly one group, ordered.

- *Code*: io/xiaedf.py: XiaNameParser, xiafilename, xiasortkey, xiagroup, xiagroupmaps, xiagrouplines, xiagroupdetectors
- *Model and proof*: Names as texts, the code's regular expressions run by the backtracking matcher, grouping on lists.
- *Not modelled*: Counter names that are regular expressions.
- *Theorems* (39): `Verif/Xia/Props.lean`, `Verif/Xia/PropsGroup.lean`, `Verif/Xia/PropsGroup2.lean`, `Verif/Xia/PropsLabel.lean`, `Verif/Xia/Cases.lean`
- *Result*: All strings, numbers, labels, lists of files and additional (literal) counter names. Exactly which names round-trip: spectra iff the label is xia?? or mca; counters iff radix and label can be told apart (roundTrips_iff). parse is characterised for every string (parse_sound, parse_complete). xiagroup is a partition ordered by label for every list of files, xiagroupmaps, xiagrouplines and xiagroupmaps2 for files agreeing in what they ignore. Missing because false: names with a counter in the radix or label (radix_with_counter, label_with_counter, counter_as_spectra), negative numbers (negative_number), xiagroupdetectors keeps only the last group per detector and label (xiagroupdetectors_loses_lines), xiagroupmaps ignores the radix (xiagroupmaps_loses_radix), xiagrouplines ignores the map (xiagrouplines_loses_map).

### C29 XIA statistics survive a save/load cycle (partial)

Saving statistics of an XIA line and reading them back yields the same statistics per spectrum, detector and statistic for any number of spectra and detectors.

- *Code*: io/xiaedf.py: xialine._save_stats, xialine._getstats
- *Model and proof*: Flattened arrays of statistics; index arithmetic.
- *Not modelled*: EDF encoding; integer overflow.
- *Theorems* (15): `Verif/XiaStats/Props.lean`, `Verif/XiaStats/Lemmas.lean`, `Verif/XiaStats/Cases.lean`
- *Result*: All numbers of spectra and detectors, all values. The array read back is the array saved (six statistics); every selection of detectors and of ICR/OCR gets its own statistics with default labels, and for given labels exactly when each label carries its position (save_load_iff). Missing because false: other labels (labels_swap_stats, labels_raise, label_without_number), other numbers of statistics (other_nstats_scrambled, other_nstats_raise), file names from detector 100 on (default_label_name_iff). The EDF file is taken to return the saved image; integer overflow is not modelled.

### C30 XIA dead-time correction and normalisation factors are always usable (proved)

The dead-time correction factor is a finite number, equals icr/ocr for valid rates and 1 otherwise; the normaliser never divides by zero.

- *Code*: io/xiaedf.py: xiadata.deadtimecorrector, normalizer
- *Model and proof*: Floats with NaN and infinities.
- *Not modelled*: Rounding; signed zero.
- *Theorems* (8): `Verif/XiaStats/Props.lean`, `Verif/XiaStats/Cases.lean`
- *Result*: Over floats without rounding (NaN, infinities, unsigned zero), arrays of any length. Valid rates: finite, icr at least 1000, ocr not 0, ratio at least 1. A NaN monitor stays NaN (nan_monitor).

### C31 Polarization representations agree (partial)

Stokes -> coherency matrix -> Stokes, Jones -> Stokes and Mueller rotations/scattering agree: rotation preserves intensity and degree of polarization, Mueller action equals Jones action on coherency matrices, Thomson intensity equals the first row of the Mueller product, and decomposition into polarized and unpolarized part sums back.

- *Code*: sources/polarization.py
- *Model and proof*: Complex 2x2 and real 4x4 matrices; identities proved over the reals.
- *Not modelled*: Rounding; plotting.
- *Theorems* (41): `Verif/Polar/Props.lean`, `Verif/Polar/PropsMueller.lean`, `Verif/Polar/PropsParams.lean`, `Verif/Polar/Cases.lean`
- *Result*: Real and complex numbers without rounding; all Stokes vectors, Jones vectors and angles. Round trips through the coherency matrix, Jones to Stokes and back, decomposition, rotations and Thomson scattering of Jones and Stokes vectors agree, Thomson intensity is the textbook one (thomson_textbook), Compton intensity of an unpolarized wave is Klein-Nishina. Missing because false: jones_to_mueller is right exactly for symmetric Jones matrices (jones_to_mueller_iff, jones_to_mueller_rotation); the phase is lost when the first component is zero (jones_roundtrip is an iff, phase_lost, thomson_phase_lost). Missing: parameters of a wave polarized at 45 degrees, where from_params takes the tangent of 90 degrees (params_roundtrip_partial).

### C32 Fourier index conventions are inverse permutations (proved)

fftshift and ifftshift are mutually inverse permutations for every length in both conventions; fft_freqind covers every frequency exactly once and index/frequency maps are inverse. The forward and inverse transforms, also of regions and with sub-pixel sampling, are the discrete Fourier transform and inverse of each other.

- *Code*: math/ft.py: fft_freqind, fftfreq, fftshift, ifftshift, _realspace, _dft, _dft2
- *Model and proof*: Index maps; discrete Fourier transform as complex sums.
- *Not modelled*: Rounding.
- *Theorems* (27): `Verif/Ft/Props.lean`, `Verif/Ft/PropsDft.lean`, `Verif/Ft/PropsDft2.lean`
- *Result*: All lengths and shapes, both conventions, any pixel size; real and complex numbers without rounding; np.fft by its documented definition. Exactly when mixing the two conventions is harmless is mixed_conventions; mixing the normalizations multiplies by the length (mixed_norm).

### C33 Expression evaluation follows the expression (partial)

The expression calculator evaluates a formula with {} and {name} placeholders to the arithmetic value of the formula, each placeholder standing for its own dataset, for any number of distinct placeholders.

- *Code*: process/nxexpression.py; math/.. fourFn MathParser
- *Model and proof*: The grammar, the action stack and the evaluation as in the code over any algebra of numbers; separate syntax trees with their value as specification.
- *Not modelled*: Rounding; the datasets' storage.
- *Theorems* (14): `Verif/Expression/Props.lean`, `Verif/Expression/Cases.lean`, `Verif/Expression/Find.lean`
- *Result*: Any text, white space and size; the numbers are any algebra of operations. The compiled expression is the postfix code of the formula and evaluating it gives the formula's value (compile_spec, eval_spec); placeholders are exactly the texts in braces (stands_iff, findall_spec) and renaming keeps the formula. calculate_spec_partial: formulas with at most three fixed placeholders whose functions exist, where the missing values replaced in one operand don't concern variables of the other. Missing because false: the fourth placeholder is read as Euler's number (fourth_placeholder), a formula of the target alone is not evaluated (target_alone), missing values are replaced in place (replaced_everywhere), unknown functions (unknown_function), a sign binds stronger than a power (sign_before_power). pyparsing is modelled by its documented semantics.

### C34 Scoped configuration is restored (partial)

Temporarily changing indexing/detector settings (keep_getitem, env_indexing contexts, iter_detectors) restores the previous settings when the scope ends, also if the body raises.

- *Code*: io/xiaedf.py: xiadict contexts, xiadata.iter_detectors
- *Model and proof*: Settings as state machine; programs with scopes, loops over detectors and exceptions as syntax trees.
- *Theorems* (15): `Verif/XiaConfig/Props.lean`, `Verif/XiaConfig/Cases.lean`
- *Result*: Blocks that don't raise restore the settings for any body (scope_restores, nesting_restores); loops over detectors restore the selection however they are left, as CPython closes the generator (iter_restores), and visit each selected detector alone and in order (iter_visits, iter_alone). nesting_raised tells exactly what remains after an exception. Missing because false: exceptions leave the settings of the innermost scope (handled_not_restored); the levels stay frozen for good (scope_freezes, stays_frozen, frozen_after_scope); files labelled mca are visited with nothing selected (mca_not_selected).

### C35 Sequential pipeline runs stop at the first failure (partial)

Running a list of tasks executes them in order, stops at the first failing one, and reports success iff all are done; running again executes exactly what is missing; the pipelines list their tasks in dependency order, as asked for.

- *Code*: pipelines/run.py: run_sequential; process/basetask.py: Task.run, Task.exists, Task.dependencies_done; pipelines/fluoxas.py: tasks; pipelines/id21_ffxas.py: tasks; pipelines/fluoxasjobs.py: processdata_exec
- *Model and proof*: Tasks with arbitrary effects on a world; the loop of `run_sequential`; the task lists of two pipelines.
- *Not modelled*: `run_parallel`; the tasks' computations.
- *Theorems* (24): `Verif/Pipeline/Props.lean`, `Verif/Pipeline/Props2.lean`, `Verif/Pipeline/Props3.lean`, `Verif/Pipeline/Cases.lean`
- *Result*: Any tasks, worlds and task lists: True exactly when all tasks were run in order and each was done afterwards (returned_true), False exactly when one was not, after which none is run (returned_false), an exception exactly when an output folder can't be made (raised_iff); order (executed_in_order). For tasks that keep each other's outputs and objects that remember nothing wrong: all outputs are there at the end (all_done), the first failure (first_failure), success when tasks work and follow their dependencies (succeeds), running again executes exactly what is missing (resumes), messages name exactly the unfinished tasks (process_spec). The fluoxas and full-field pipelines are in dependency order for all parameters. Missing because false: remembers_removed, removed_by_later, raises_outside, prenormalize_ignored, geometry_needs_place, ffxas_not_normalized. run_parallel is not modelled.

### C36 Path algebra (partial)

Path joining, parent, relative path and root computations are consistent: parent of a joined child is the path, joining the relative path to the base gives back the path, and device/node split recombines.

- *Code*: io/fs.py: Path; io/localfs.py; io/h5fs.py: devsplit
- *Model and proof*: Paths as texts; `posixpath` after its source; HDF5 paths with `::`.
- *Not modelled*: Windows paths; symbolic links on disk.
- *Theorems* (43): `Verif/Paths/Props.lean`, `Verif/Paths/Device.lean`, `Verif/Paths/Cases.lean`
- *Result*: All texts and all normalized paths (posixpath after its source, os.sep '/'). Normalization, joining, parent and name, relative paths, ancestors, common ancestor, siblings, text of links and relinking after a move; splitting into file and node recombines for every text (devsplit_glue), own locations are always split right (splitPath_own) and `p[v]`, factory, sibling and location stay consistent under the stated conditions on the text. Missing because false: paths with different roots (relpath_root_counterexample), append (iadd_counterexample), node names with an extension and '::' (getitem_name_counterexample, splitPath_doc_counterexample), files whose path starts with the path of this file (factory_prefix_counterexample), files without extension (init_noext_counterexample), nodes starting with the path of the file (getitem_prefix_counterexample), '::' in the first name (init_greedy_counterexample), copies into themselves (relink_inside_counterexample).

### C37 Generated names are fresh and terminate (partial)

Incrementing a name (Name object / nonexisting name search) yields a name different from all existing ones, after finitely many steps, preserving prefix, extension and zero padding.

- *Code*: io/target.py: Name; align/alignDest.py
- *Model and proof*: The search with an arbitrary finite set of existing names; pigeonhole.
- *Not modelled*: Names with braces (shown to fail).
- *Theorems* (17): `Verif/Naming/Props.lean`
- *Result*: Proved for all finite sets of existing names and all names without braces: the search ends within |existing| steps, the result is new, differs in the last number only, keeps prefix, suffix and zero padding, and is the first such name; nonexisting_name and the matching regular expressions are characterised. Missing: names with braces, for which the claim is false (braces_diverge: endless search, braces_raise: exception); a locked name is never incremented and cannot be unlocked (unlock_locks, locked_diverges).

### C38 Content hashing ignores container order where documented (partial)

calchash of equal values is equal; dict and set hashes do not depend on insertion order, list hashes depend on order; mergehash is deterministic.

- *Code*: utils/hashing.py: calchash, mergehash
- *Model and proof*: Values as trees with class names; canonical forms as specification.
- *Not modelled*: `jsonpickle`.
- *Theorems* (17): `Verif/Hashing/Props.lean`
- *Result*: Proved for all nested values and every digest function: equal values have equal hashes (sets in any order, unordered mappings with pairwise different key hashes in any order, integers of any type), a value is hashable iff it has at most 100 levels, and without digest collisions equal hashes mean equal canonical forms, so list order matters; mergehash keeps order. The values are modelled as trees with class names; jsonpickle states are given. Missing because false: complex numbers equal to integers (complex_differs), equal empty sets of different class (empty_set_differs), OrderedDict equal to dict (orderedDict_differs), a dict with keys 'a' and b'a' (bytes_key_order); different values that always collide: dict_list_collide, set_list_collide, obj_list_collide, qty_list_collide.

### C39 Class factory registry (partial)

After any sequence of class statements a class is found under its name, its aliases and their lower-case spellings in every family it takes part in, later registrations win, lookups of unknown names fail, families stay apart and the listed names are those that can be looked up.

- *Code*: utils/classfactory.py
- *Model and proof*: Class statements with C3 resolution order; registry as dictionaries.
- *Not modelled*: Classes that redefine the registry attributes.
- *Theorems* (20): `Verif/Factory/Props.lean`, `Verif/Factory/Cases.lean`
- *Result*: All programs of class statements (any bases, C3 resolution order, failing statements), any lower-casing function. A lookup gives the last class of the family with that name, else the last with that alternative spelling (lookup_ok), fails exactly for the others (lookup_unknown, lookup_exists); families (member_root, member_exists, single_member, define_other); listings (names_listed, allnames_found). Missing because false: other spellings than lower case (case_matters), a name wins from a later alias (name_beats_later_alias), a subclass takes the aliases of its base (subclass_takes_alias), classes derived from a class of two families miss the second (second_family_missed). Classes that redefine the registry attributes are not modelled.

### C40 Scan command geometry is self-consistent (partial)

The positions, range, number of points and pixel size derived from a zapline/ascan command agree: number of values equals the scan size, range is first/last value, pixel size is the spacing.

- *Code*: io/spec.py: zapline_values, zapline_range, zapline_scansize, zapline_pixelsize, ascan_*, zapimage_submap
- *Model and proof*: Scan positions over rational numbers.
- *Not modelled*: Rounding.
- *Theorems* (13): `Verif/Scan/Props.lean`, `Verif/Scan/Cases.lean`
- *Result*: All rational starts and ends and all numbers of points. Values, range, size and spacing agree for ascans; for zaplines values, range and size agree. Missing because false: the pixel size of a zapline is not the spacing (zapline_pixelsize_iff, zapline_pixelsize_wrong). Of zapimage_submap: the nearest pixels are chosen (subIndices_nearest), the slow positions (subSlow_values) and upward slices (subSlice_up) are right; the fast positions (subFast_wrong) and downward slices (subSlice_down) are not.

### C41 Compound/mixture composition bookkeeping (partial)

Building a compound or mixture from repeated elements merges them with summed fractions; adding components preserves total fraction one; element fractions of a mixture are those of the flattened formula.

- *Code*: materials/compound.py; materials/mixture.py; materials/multielementbase.py
- *Model and proof*: Ordered dictionaries of parts over an ordered field.
- *Not modelled*: Databases of names; the density of elements.
- *Theorems* (26): `Verif/Compound/Props.lean`, `Verif/Compound/Elemental.lean`
- *Result*: All lists of components, all fraction types, exact arithmetic over any ordered field, and mixtures of mixtures of any depth (mixture_part). Missing because false: the mole fractions of the elements of a mixture are those of the flattened formula only when all parts have the same number of atoms (elemental_molefractions_partial, elemental_molefractions_wrong). Other deviations: different parts with the same name are merged (same_name_lost), superfluous elements or mole fractions are dropped (mole_truncated), one mass fraction is used for all elements (mass_broadcast), setting some of the fractions raises (setfraction_fails).

### C42 Cross-section trees collapse to the weighted sum (partial)

Collapsing a nested {weight, cross-section} tree equals the sum over leaves of the product of the weights on the path and the leaf value, for every nesting depth; per-element splitting sums to the collapsed value.

- *Code*: materials/multielementbase.py: csdict_parse, cs_collapse; materials/utils.py: elemental_crosssections
- *Model and proof*: Trees of weights and cross sections; sum over paths as specification.
- *Not modelled*: The cross sections themselves.
- *Theorems* (13): `Verif/CrossSection/Props.lean`
- *Result*: All trees: splitting per element gives every element the sum over its leaves of the product of the weights on the path and the leaf, and adds up to the weighted sum (split_elements). Decomposed and summed cross sections of compounds and mixtures agree (compound_tree, mixture_tree, compound_lines, mixture_lines). Missing because false: collapsing is right up to one level only, csdict_parse and elemental_crosssections up to two levels (collapse_wrong, parse_wrong, elemental_wrong); a mixture without scatterers gives None (mixture_none).

### C43 Spectra saved in SPEC format are read back, colours are told apart (partial)

The text written for a spectrum has sixteen values per line with continuation marks and reading its tokens back gives the same number of counts, each the closest number with eight digits, hence exactly the counts when these have at most eight digits; a saved file has the header from which the reader gets the channels, the calibration and the energies back; the RGB encoding of a normalised value gives three bytes that identify one of 2^24 levels within half a level.

- *Code*: io/mca.py: array2SpecMca, save, read; visualization/colormap.py: NormalizedToRGB
- *Model and proof*: Text of the file character by character, `%.8g` digit by digit.
- *Not modelled*: PyMca's reader; colour maps of matplotlib.
- *Theorems* (19): `Verif/Mca/FormatProps.lean`, `Verif/Mca/Props.lean`
- *Result*: All spectra, all lengths and all rational numbers; %.8g is modelled digit by digit (fmtG_spec: a closest number with P digits, fmtG_exact). Layout, counts, header, channels and energies (mca_layout, mca_read, mca_roundtrip, save_header, save_counts, read_spec). RGB: rgb_code, rgb_separates, rgb_levels. Missing because false: in Python 3 reading a saved file always raises TypeError (read_fails); a single channel loses its number (read_single_channel); digits beyond the eighth are lost (mca_digits_lost); the encoding of all numbers is not injective (rgb_not_injective). PyMca's reader of SPEC files is replaced by a specification; the zero appended for the last channel is modelled as written.

### C44 Linear fits are least-squares fits with the right errors (partial)

linfit2 and linfit_zerointercept2 return the one line with the least sum of squared residuals whenever the abscissae are not degenerate, with the same errors as linfit and linfit_zerointercept; nanlinfit2 does so for the points that are numbers; lstsq_cov returns the covariance of the least-squares solutions from the covariance of the errors; cor_from_cov the correlations; cramer returns x exactly when x is the one solution of a square system.

- *Code*: math/fit1d.py: xyremovenan, cor_from_cov, lstsq_cov, lstsq_std, linfit, linfit2, nanlinfit2, linfit_zerointercept, linfit_zerointercept2; math/linalg.py: cramer
- *Model and proof*: Sums over lists, matrices over a field; least squares as minimality.
- *Not modelled*: Rounding; `np.linalg.lstsq` for dependent columns; Gaussian fits.
- *Theorems* (25): `Verif/Fit/Props.lean`, `Verif/Fit/Covariance.lean`, `Verif/Fit/Cramer.lean`
- *Result*: All data sets and matrices. Missing because false: a single ordinate is broadcast (linfit2_broadcast_wrong); the errors of linfit_zerointercept and linfit_zerointercept2 differ unless the residuals add up to zero (linfit_zero_errors_differ); a square system with a variance of zero (lstsq_cov_known); an integer matrix truncates the right-hand side (cramer_integers_wrong).

### C45 Stacks of images keep every image apart (partial)

Writing images to a stack (a list of arrays, datasets of an HDF5 file, or single files) for any stack dimension and reading them back gives at every place the last image that was written there, else what was there before; a source sees the number and size of the images of the destination; writes outside of the stack or of images of another size raise. Without overwriting, preparing a destination never changes existing data: new datasets and files get the first free place. Files of different images are different and are in the order of the images.

- *Code*: align/alignDest.py: alignDest; align/alignSource.py: alignSource.__init__, initshape, readimg
- *Model and proof*: Arrays as shape and function, HDF5 files and directories as maps, lists of writes; "last write wins" as specification.
- *Not modelled*: Type conversion, broadcasting of smaller images, EDF and TIFF encoding, special characters of `glob`.
- *Theorems* (21): `Verif/Stack/Props.lean`
- *Result*: All shapes, stack dimensions, names and write histories. Arrays and HDF5 datasets: list_history, h5_history (last write wins everywhere, nothing else changes), exact failure conditions (list_write_cases, list_prepare), first free entry (h5_free), reuse exactly when shapes and types agree (h5_prepare_overwrite_partial: without suffix, all datasets exist). Single files: injective and ordered names, first free directory, histories. Missing because false: several datasets of which some have files are overwritten without overwrite (files_two_finding), also files of an extension that is not supported (files_ext_finding); overwriting HDF5 datasets with a suffix or only some of which exist raises KeyError (h5_overwrite_suffix_finding, h5_overwrite_some_finding); sources with fewer than three axes read the first column or count images along the wrong axis (source_2d_finding, source_2d_stackdim_finding); arrays of different sizes in a list are not detected (source_sizes_finding). No images raise OverflowError (files_prepare). Type conversion, broadcasting of smaller images, EDF/TIFF encoding and special characters in glob patterns are not modelled.

### C46 A file is opened once, closed once, and delayed work runs when closed (partial)

In any program that opens a file in nested contexts, with exceptions at any place, the file is never opened twice at the same time, is closed as often as it is opened, functions delayed until closing run only while it is closed, exactly once and in order, and exceptions are not swallowed.

- *Code*: io/fs.py: File.open, File._closectx, onclose; io/h5fs.py: h5FileIO.__enter__, __exit__
- *Model and proof*: Programs of nested contexts, delayed calls and exceptions as syntax tree.
- *Not modelled*: Threads; failing `close`.
- *Theorems* (4): `Verif/H5/CtxProps.lean`
- *Result*: Proved for every program: never opened twice, closed as often as opened, delayed functions only while closed, exceptions pass. Exactly once and in order when no delayed function raises; otherwise the following ones are lost (callbacks_lost).

### C47 Padding keeps every pixel, cropping adds no missing data, the reference stays in place (partial)

With padding every point of every aligned image lies in the destination and the destination could not be smaller; with cropping a pixel is kept exactly when it is inside every image, so that no missing data is added; the mask of the aligned images and their translations give the same cropping; with neither, the translations are shifted together to be centred; the reference image keeps its place and pairwise translations accumulate.

- *Code*: align/align.py: align, polygoncollectionbounds, extendfromtransformation, extendfrommask, minimaltransformation, store_transformation, doalign
- *Model and proof*: Rectangles moved by translations; padding and cropping as integers.
- *Not modelled*: Other transformations; masks with a ROI.
- *Theorems* (14): `Verif/Align/PropsPad.lean`, `Verif/Align/Cases.lean`
- *Result*: All sizes and translations. Padding: covering and tight for rational translations, no pixel lost for whole pixels. Cropping: exact for whole pixels. Mask and translations agree. Missing because false: sub-pixel cropping leaves missing data (crop_subpixel_deviation), one common pixel counts as nothing (crop_single_pixel_deviation), pad has no priority over crop with NaN and a reference (pad_priority_deviation), a negative reference index is never in place (negative_reference_deviation).

### C48 The translation found by Fourier correlation is the translation (partial)

When the moving image is a circular translation of the reference by whole pixels within half the image, the translation determined from their Fourier transforms is exactly that translation, for every image whose correlation has one peak, with and without sub-pixel sampling.

- *Code*: align/alignFFT.py: determine_shift, cc_maximum, ftmodulus, ifft_interpolate, execute_alignkernel; math/ft.py; math/center.py
- *Model and proof*: Fourier sums over the complex numbers, sub-pixel sampling by the matrix product of the code.
- *Not modelled*: Parabola fit, missing data, rotations and scalings.
- *Theorems* (16): `Verif/AlignFFT/Props.lean`, `Verif/AlignFFT/Lemmas.lean`, `Verif/AlignFFT/Props2.lean`, `Verif/AlignFFT/Cases.lean`
- *Result*: Exact for every circular whole-pixel translation of lines and images with energy above 1 and, for whole-pixel sampling, no period of their own or, for sub-pixel sampling, a non-zero mean and first frequencies. Missing because it is false: constant images (constant_image_moves) and weak images (weak_image_moves; zeros of the cross spectrum's modulus are replaced by 1.0). Not modelled: the parabola fit, missing data, rotations and scalings.

### C49 The position of a peak is the centre of mass around the first maximum (partial)

fmax gives the first maximum in reading order; fcentroid gives the centre of mass of a window centred on it, which lies inside the data, whose inside exceeds the threshold, and which is exactly the maximum for symmetric peaks; row and column of an image are kept apart.

- *Code*: math/center.py: fmax, _centroid, foptimize, fcentroid
- *Model and proof*: Images over an ordered field.
- *Not modelled*: NaN; the Gaussian fit.
- *Theorems* (10): `Verif/Center/Props.lean`, `Verif/Center/Cases.lean`
- *Result*: Nonnegative data of any size over any ordered field, without rounding and NaN. fmax is the first maximum; the one-dimensional centroid is the centre of mass of an interval centred on the maximum; symmetric peaks are found exactly. Missing because false: fcentroid of an image exchanges the deviations along rows and columns (fcentroid2_eq, right exactly when they are equal: fcentroid2_right_iff; axes_swapped). The Gaussian fit is not modelled.

### C50 Reading XIA data gives the requested parts, corrected according to the settings alone (partial)

obj[...], obj.data, obj.stats, obj.allstats and obj.counters of a line, image or stack give exactly the requested parts; the data are dead time corrected per detector, summed over the detectors and normalized per spectrum as the settings say, whatever level the corrections are done on and whatever was read or set before; the settings are left as they are.

- *Code*: io/xiaedf.py: xiadata.__getitem__, xiadict.setleveldatainfo, xiacompound._getdata, xiacompound._getstats, xiaimage._getcounters, xiadata.data, xiadata.stats
- *Model and proof*: Trees of lines, images and stacks; settings as in C34.
- *Not modelled*: Slices as index, the cache, the repair of cancelled maps.
- *Theorems* (11): `Verif/XiaRead/Props2.lean`, `Verif/XiaRead/Cases.lean`
- *Result*: All levels, all data, for settings reached by any history of settings and (failing or successful) reads of objects and items (history_valid): read_spec and the theorems for data, stats, allstats and counters. item_corrected and item_uncorrected tell what items of a larger object give. Missing because false: the data of an item are not corrected after data and statistics of the whole were read (line_depends_on_history), a failing read changes what is requested (failure_changes_request), counters may need statistics (counters_need_stats). Indexing with slices, the cache and the repair of cancelled maps are not modelled.

### C51 Scan commands are parsed field by field (partial)

A recorded scan command (zapimage, zapline, ascan, zapenergy, mesh, puzzle) is understood exactly when it has the layout of such a command, and the result then says what the command says: every motor name, position, number of steps and time from its own field with the unit of that command; the positions of a motor derived from it are those of the scan.

- *Code*: io/spec.py: cmd_parser, spec.getdimensions
- *Model and proof*: The regular expressions run by the matcher; layouts as specification.
- *Not modelled*: Methods that need a SPEC file.
- *Theorems* (12): `Verif/Scan/CmdProps.lean`, `Verif/Scan/CmdCases.lean`, `Verif/Scan/CmdLemmas3.lean`, `Verif/Scan/Dims.lean`
- *Result*: All texts, with the ASCII meaning of \\d, \\s and \\w. parse_iff is a complete characterization: a command is understood iff it has the layout of one of the scan types (IsScan, stated without the regular expression model), with exactly those values; scan_unique, natVal_repr, layout_joined and floatOf_eq make the specification usable. The intended layout is not always accepted or read right: decimals of a time are cut off (time_cut), exponents are ignored (time_exponent) and motors with other characters are not understood (not_understood). Positions are right for a zapimage (dimensions_zapimage); other scan types end in a KeyError (dimensions_keyError). The remaining methods of the spec class that need a SPEC file are not modelled.

### C52 The two descriptions of a detector's line shape agree (partial)

A line shape given by area fractions and broadenings and the one given by PyMca ratios and slopes describe the same line at the conversion energy: the derived values are those of the given ones after construction, conversion, assignment and pickling; converting twice gives back the shape; both give the same profile, in which every part has its fraction of the area and a normalised line has area one.

- *Code*: detectors/xrf.py: XRFDetector.__init__, convert, __getstate__, __setstate__, __eq__, wpeak, fractions, ratios, _calc_ratios, _calc_fractions, lineprofile
- *Model and proof*: Shape parameters over an ordered field with arbitrary norms.
- *Not modelled*: The shape functions themselves (erfc, Voigt).
- *Theorems* (21): `Verif/LineShape/Props.lean`, `Verif/LineShape/Profile.lean`
- *Result*: Any ordered field, any positive norms, any energies and parameters. Construction, conversion, assignment of fractions or ratios and pickling keep both descriptions in sync; converting twice is the identity; areas of the profile (area_fixed, area_ratios) and equal profiles at the conversion energy (same_profile). Missing because false: assigning one broadening leaves the ratios stale (assign_broadening_partial is the exact condition, assign_broadening_stale the witness), converting twice changes the fractions when there is no peak (nopeak_wrong) or when nothing is left for it (peak_without_area_wrong). The shape functions themselves (erfc, Voigt) are not modelled, only heights and norms.

### C53 A chemical formula means the atoms that it shows (partial)

A text is read as a formula exactly when it is written according to the grammar (element symbols, optional decimal multipliers, nested parentheses, white space between tokens), and then in one way only; every element is counted as the sum over its occurrences of the product of the multipliers around it; a text that is not a formula is refused. A compound made from it has the corresponding mole and mass fractions. The oxides and sulfides of the tables are electrically neutral, the requested (or highest or lowest) oxidation state is used, and converting between the mass fraction of an element and of its compound is exact in both directions.

- *Code*: materials/compoundfromformula.py: FormulaParser, CompoundFromFormula, factory; materials/compoundfromelement.py: db, CompoundFromElement
- *Model and proof*: The pyparsing grammar as a deterministic parser with a fuel argument (both pyparsing versions by a flag); the ways of writing a formula as an inductive relation; the tables in full.
- *Not modelled*: The tables of xraylib; tokens that are not ASCII.
- *Theorems* (18): `Verif/Formula/Props.lean`, `Verif/Formula/ElementProps.lean`
- *Result*: All texts, both versions of pyparsing. Reading a formula: formula_written (every way of writing a formula is read as this formula), formula_read and formula_exact (nothing else is), formula_unambiguous, formula_refused, formula_longest; numbers: formula_counts, formula_values; compounds: formula_compound, formula_factory. Tables: table_neutral for every entry, choose_state, choose_refuses, choose_default, element_compound, groupdict_spec. Missing because false: text behind a formula is ignored (formula_tail_partial), an element with a single state and the class Sulfide raise TypeError (choose_single_partial). The symbols known to xraylib are a parameter.

### C54 The signals of a diode are those of its chain of electronics (partial)

The flux at the sample, the current of the diode, the voltage behind its amplifier and the count rate behind its oscillator are tied by one affine chain (dark current, charge per photon, output resistance, oscillator slope and offset); every conversion operator gives the value of this chain, every conversion is undone by its counterpart, and a response given in any unit (with the exposure time for counts) gives back the flux it was made with. Output resistance and largest current are two views of one gain, the gain chosen by the rounding is the nearest setting, and calibrating the dark current, the oscillator offset or the gain from measured responses recovers the values with which the responses were made. The normalization operator for XRF makes a signal proportional to flux and time equal to what the reference flux and time would give.

- *Code*: detectors/diode.py: Oscillator, PNdiode (Rout, Imax, gain, op_*, responsetoflux, fluxop, gainfromresponse, xrfnormop), GainRounder, NonCalibratedPNdiode (calibratedark, calibrateF0)
- *Model and proof*: A diode as a record; operators with the linear operators of `Verif/Linop`; the chain as four formulas in the specification; the rounding of gains over the reals.
- *Not modelled*: pint's unit registry; printing; state saving.
- *Theorems* (16): `Verif/Diode/Props.lean`, `Verif/Diode/Gain.lean`, `Verif/Diode/DarkProps.lean`
- *Result*: All gains, oscillators, dark currents, fluxes and responses. diode_signals (every operator gives the value of the chain), diode_round_trips, diode_response (all units), diode_xrf_norm, diode_gain, diode_gain_rounded; rounding: gain_nearest (the nearest setting on the logarithmic scale), gain_setting, gain_linear, gain_domain; calibrations: dark_from_rates, dark_from_currents, offset_from_rates, gain_from_response. Missing because false: counts cannot be turned into currents or voltages by the methods named so (diode_counts_fail: a method is multiplied, a time is handed to a function without argument), therefore the dark current cannot be calibrated from counts (dark_from_counts_fails). Units are modelled by constructors, not by pint; the code multiplies with the elementary charge, the model uses one unit of charge.

### C55 The charge of a diode per photon at the sample accounts for its current (partial)

The photons reaching the sample times the charge per sample photon equal the current of the photons absorbed in the diode, for any source lines, weights, filters, optics and secondary target; the weights of the lines at the sample are their shares of the photons there. After a calibration the charge reported is the charge the diode has, and it is the charge asked for; the fit gives the best line with a dark current that is not negative, and calibrating against exact data recovers dark current and charge.

- *Code*: detectors/diode.py: _source_transmission, _detection_rates, _chargepersamplephoton, _calibrate_chargepersamplephoton, _calibrate_*, samplelineweights, NonCalibratedPNdiode.calibrate; materials/utils.py: reshape_spectrum_lines; optics/base.py: transmission, set_transmission
- *Model and proof*: Charge and calibrations as functions of the record with exceptions; tables of `Verif/Lut`, least squares of `Verif/Fit`; the physical balance as specification; the root finder and the target's spectrum as arbitrary functions.
- *Not modelled*: scipy's root finder; the target's spectrum; plots and logging.
- *Theorems* (17): `Verif/Diode/ChargeProps.lean`, `Verif/Diode/CalibProps.lean`
- *Result*: charge_target (secondary target, any lines), charge_direct_line_partial (no target: one line), sample_weights, line_weights, calib_consistent (any option, any root finder), calib_search (thickness and optics, a root finder which finds roots), calib_no_root, calib_optics_exists (the transmission looked for exists for one line), calib_solidangle, calib_table, fit_dark, fit_fixed_dark, calib_end_to_end. Missing because false: without target the charge is too large for several lines (charge_direct_lines_over: the summed rate is multiplied with the charge of every line); calibrating a table with n lines gives n times the charge asked for (calib_table); the solid angle has no effect without target (calib_solidangle_direct); a transmission cannot be calibrated with several lines (calib_optics_lines); with bound the bisection of a square raises ValueError (calib_bound). The spectrum emitted by the target and the transmission of the diode are parameters, fsolve is any function.

### C56 The geometry of sample, beam and detector is that of the vectors and of the disk it stands for (partial)

The angles of a flat sample are those between beam, surface and detector direction, and reflection geometry means that the detector is on the side of the beam. The solid angle is that of a disk with the active area seen from its axis; distance and active area computed from a solid angle give that solid angle. A distance set for a motor is the distance read back, a calibration makes the distance the one given, and the solid angle set is the one read back.

- *Code*: geometries/base.py: FlatSample, Centric; geometries/xrf.py: LinearMotor, XRFGeometry.distance, LinearXRFGeometry; detectors/base.py: CentricCone.solidangle_calc
- *Model and proof*: Angles, solid angle and motor as functions of real numbers with exceptions; two-dimensional vectors and an integral over the disk as specification.
- *Not modelled*: Random variables, units, calibrate_fit except its constraints, geometries without motor, sample and detector azimuth.
- *Theorems* (17): `Verif/Geometry/Props.lean`
- *Result*: flat_angles (cosines and scattering angle are scalar products), flat_reflection, flat_setters, solidangle_disk (the solid angle is the integral over the disk), solidangle_range, distance_of_solidangle, solidangle_inverses, area_of_solidangle, solidangle_decreasing, motor_distance, motor_position, motor_calibrate, motor_solidangle, motor_create, calibrate_constraint. Missing because false: a solid angle above a half space gives the distance of the rest of the sphere (solidangle_large); a sign other than plus or minus one is not undone (motor_sign). Not modelled: random variables, units, the fit of calibrate_fit, geometries without motor (their distance cannot be read or set: see DESIGN.md).

### C57 The attenuators of a detector act once, on their side of the sample (partial)

Every attenuator is a beam filter, a detector filter, the atmosphere or the detector material, by its name. The source photons pass all beam filters and no other, the photons of the sample all detector filters; adding a filter multiplies the transmission of its side by that of the filter, removing the filters makes it one, and neither changes anything else. The efficiency is the product of both transmissions with the absorption of the detector and is a fraction. Attenuators saved in the configuration of PyMca are those loaded from it.

- *Code*: detectors/base.py: Material.addbeamfilter, addsamplecover, adddetectorfilter, removebeamfilters, removedetectorfilters, attenuators, isbeamfilter, isdetectorfilter, nextbeamfilter, filter_transmission, efficiency, addtopymca, loadfrompymca
- *Model and proof*: Attenuators as a dictionary with names as texts, arbitrary materials with an absorbance; the product of what every layer passes as specification.
- *Not modelled*: addtofisx, printing, units of thicknesses, the conversion of materials (a parameter).
- *Theorems* (21): `Verif/Detector/Props.lean`, `Verif/Detector/PymcaProps.lean`
- *Result*: beam_names, names_partition, filter_passing, filter_range, attenuation_spec, efficiency_entry, efficiency_range, add_det, add_beam (filters with a name), remove_beam, remove_det, save_entries, load_entries, pymca_round_trip (into a configuration without enabled attenuators). add_unnamed_partial and add_cover_partial: a filter without name and a sample cover when there is no beam filter yet. Missing because false: a further beam filter without name replaces one that is there (add_unnamed, add_unnamed_twice); the atmosphere is left out exactly when it is to be included (atmosphere_ignored, atmosphere_included); what was enabled in the configuration is loaded too (pymca_leftover), and an attenuator called Matrix is not loaded (load_entries). The absorbance of a material is a parameter; addtofisx is not modelled.

### C58 Attenuation and fluorescence rates in a layered sample are the integrals they stand for (partial)

The attenuation down to any depth of a sample of layers is the integral of the attenuation coefficients on the way, and the transmission between two depths is the part of the intensity left. The numerical and the analytical method both give, for every line and every line of the source, the integral over the depth of the intensity arriving, the chance of the interaction and the part that leaves the sample to the detector; without self-absorption the rate is thickness times chance and bounds the rate with self-absorption. The rates detected are these times the weight, the filters of the beam, the filters of the detector and its absorption, each once and at its own energy.

- *Code*: materials/multilayer.py: _cache_layerinfo, _zlayer, _cache_attenuationinfo, _cum_attenuation, _transmission, _prob_interaction, _primary_rates, _primary_rates_numerical, _attenuated_rates, _rates_calc
- *Model and proof*: Layers over the real numbers with arbitrary attenuation coefficients and probabilities; integrals over the depth (Mathlib) as specification; nan as `none`.
- *Not modelled*: Cross-sections of xraylib, pandas look-ups that fail, the quadrature of scipy (an exact integral), secondary interactions (switched off in the code), xrmc and fisx, energies shared by two lines.
- *Theorems* (14): `Verif/Multilayer/Props.lean`
- *Result*: Everything is proved where no attenuation in and out cancels; rayleigh_lost is the deviation (detector straight behind the sample: the analytical rate of Rayleigh scattering is nan for every sample), no_scattering_fails another (a table of interactions without Compton and Rayleigh lines is an error).

### C59 A layered sample has one composition and one absorbance, and refinement finds the best ones (partial)

The mass per area of every element in a layered sample is the sum over the layers of density, thickness and mass fraction; its mass fractions add up to one and are those of the mixture of its layers. The transmission of the sample is the product over its layers and the same by absorbance and by depth. Refining thickness, density or composition from measured absorbances changes only layers that are not fixed and gives the sample that describes the data best, under the constraint asked for; with data of a sample of the same kind it is that sample. A sample saved in the configuration of PyMca is the one loaded from it. The flux of the source is the one that gives the flux asked for at the sample.

- *Code*: materials/multilayer.py: Layer, arealdensity, elemental_massfractions, mixlayers, absorbance, transmission, _refine_linear, _refinerhod, refinecomposition, refinethickness, refinedensity, addtopymca, loadfrompymca, _sourceflux
- *Model and proof*: Layers with the parts of `Verif/Compound` for the composition and with arbitrary attenuation coefficients for the absorbance; solvers as arbitrary functions that find a best solution when there is one; samples that differ by free layers as specification.
- *Not modelled*: Weights of the lines, the solvers of numpy and scipy, fine structure, the conversion of materials for PyMca (a parameter here, C60).
- *Theorems* (24): `Verif/Multilayer/SampleProps.lean`, `Verif/Multilayer/LinkProps.lean`, `Verif/Multilayer/RefineProps.lean`, `Verif/Multilayer/CompositionProps.lean`, `Verif/Multilayer/ConfigProps.lean`
- *Result*: areal_density, layer_massfractions, mix_massfractions, transmission_agrees, thickness_best, thickness_exact, thickness_recovered, thickness_constant, thickness_single, density_best, composition_best, one_layer_round_trip, layers_loaded and sourceflux_at_sample are the positive part. Deviations: a refined density is kept in the layer and ignored by the absorbance and the mixture, but not by the rates (density_not_used, composition_density_not_used, mix_refined_wrong, refined_transmissions_differ); a constant with a constraint fails unless there is one datum more than free layers (constant_constraint_fails); one datum ignores the constraint (single_negative); samples of several layers cannot be saved for PyMca and empty ones not read back (layers_not_saved, empty_not_loaded).

### C60 Materials and settings survive the configuration of PyMca (partial)

Elements, compounds and mixtures (nested to any depth) that are saved in a configuration of PyMca are loaded from it unchanged: names, densities, parts and mass fractions, no matter what else is in the configuration and how many materials are saved. A name is read as a formula exactly when it is a sequence of element symbols with numbers. Whatever is loaded has distinct parts with fractions that add up to one. The source lines, flux, time, background and fit options are restored as well, only lines that are switched on are loaded, and saving what was loaded does not change it.

- *Code*: materials/pymca.py: PymcaHandle.loadfrompymca_material, addtopymca_beam, loadfrompymca_beam, addtopymca_background, loadfrompymca_background, addtopymca_other, loadfrompymca_other, set_source; materials/compound.py: topymca; materials/mixture.py: topymca; materials/element.py: topymca; materials/elementbase.py: pymcaname, namefrompymca
- *Model and proof*: Materials as trees of elements, compounds and mixtures with mass fractions; the configuration as a dictionary; the regular expressions as automata, specified by sequences of symbols with digits. Saving is an update with the entries of all nodes of the tree, loading is proved by induction on the tree.
- *Not modelled*: Mole fractions (C16), comments and default thicknesses of the entries, fit strategies and custom changes, ConfigDict files (lists of one number).
- *Theorems* (25): `Verif/Pymca/Props.lean`, `Verif/Pymca/SettingsProps.lean`
- *Result*: load_saved (materials) and settings_roundtrip, settings_stable (settings) are the round trips. Materials the format cannot hold are excluded by `Fits` and `Consistent`, and the code does not refuse them: a compound whose name looks like a formula is replaced by what the formula says (formula_name_only, formula_name_one, pvc_lost) or by an element (pure_name_element), a part named by its formula gets the density of the mixture (formula_density, water_density_lost), a mixture of elements only becomes a compound (elements_mixture). Source lines with another number of weights are saved but cannot be loaded (weights_lost). Materials are given by mass fractions; the conversion to mole fractions is C16.

### C61 Spectra keep their totals however they are split, grouped, listed or added (partial)

Shells: expanding a list of shells and groups gives each shell once and in order, shrinking replaces exactly the complete groups by their letter, and expanding what was shrunk gives the shells back. Lines: weighting by the source multiplies each value by its normalised weight, whatever the scale of the weights; summing over the source, splitting scattering lines by energy, grouping lines by shell and listing peaks all keep the total, times the conversion factor; every group of peaks has one label, on its largest peak; peaks have distinct names and are in order of energy. The power is the sum of energy times rate. Adding spectra adds line by line, refuses different types, and changes no array of the other spectrum. The channel of the energy of a channel is that channel and an energy is within half a channel of the energy of its channel. The energy of the Compton line is between that of backscattering and the source, decreases with the angle, and gives the angle back.

- *Code*: materials/xrayspectrum.py: Shell.expand, expandall, expandselection, shrink, pymcafactory, FluoLine.radrate, FluoLine.energy, Shell.partial_fluoyield, ComptonLine, Spectrum; materials/multilayer.py: _parse_fisx_result, _rates_to_spectrum; materials/pymca.py: xraygrouprates
- *Model and proof*: Values are numbers or lists, a spectrum is a list of lines with distinct texts. Groups and peaks are given exactly by filters of that list; a second model of the addition has arrays as objects on a heap, with a frame theorem. The Compton line is over the reals.
- *Not modelled*: Tables of xraylib (parameters), values that are functions of the geometry (taken at one geometry), `Line` objects, peak profiles (C52), signal to noise, plotting, `groupspectra` (it raises TypeError: `zip(...)[0]`).
- *Theorems* (64): `Verif/Spectrum/ShellsProps.lean`, `Verif/Spectrum/Props.lean`, `Verif/Spectrum/GroupProps.lean`, `Verif/Spectrum/InfoProps.lean`, `Verif/Spectrum/AddProps.lean`, `Verif/Spectrum/Compton.lean`
- *Result*: Totals are kept by summing, splitting, grouping and listing of lines (sumSources_total, lines_total, linegroups_total, lineinfo_total), with the exact content (lines_spec, linegroups_spec, lineinfo_fluo, lineinfo_scatter, lineinfo_labels). Where the code deviates from its purpose there is a theorem with a witness: splitting of shells loses the other shells (expandselection_spec, split_loses_shells, split_subshell), the parts of a composite line do not add up when one of them has a rate of its own (composite_rate_broken), scattering values are cut when there are too few (lines_truncated), the dictionary of the spectrum counts pairs (spectrumDict_counts), sources of different energies are added (iadd_sources) and the sum shares arrays with what was added, so that adding again changes it (iaddRefs_shares, iadd_changes_other). Names of fluorescence lines and groups contain a dash (`Dashed`), which Spectrum does not check.

### C62 The devices of a quantitative setup belong together and its calibration data decide on them (partial)

Devices: after every assignment that does not raise, and after every history of assignments that neither takes the source away nor names an unknown geometry, the first diode has the optics and the way of calibration of the setup, and the geometry of its secondary target and all geometries have its source; an assignment raises exactly when a name is unknown, changes one attribute, and writes only to devices of this setup; a new setup has what it was given and a restored one is the same with its devices untouched; every new geometry has the detector it was named with. Data: the name of a device is that of the first motor whose nearer position has one; data are accepted exactly when the device that is there is the one used, and a device is made only when it is missing; every quantity comes from the data, else from the motors, with its unit, and is brought to seconds, hertz, amperes or a number without changing it; a rate that is missing is the number per time; quantities of another dimension are refused; validating again changes nothing. Gains are those asked for, else those of the data, refused when they differ; dark data calibrate the dark currents, other data the first diode against the second. The weighted mean lies between its values and depends on ratios of weights only; the flux without beam filters times their transmission is the flux with them.

- *Code*: geometries/qxrf.py: QXRFGeometry, _update_devices, _check_device, _validate_data, calibrate_diodes; instruments/configuration.py: _devicename; math/utils.py: weightedsum
- *Model and proof*: Devices are identities in a world of attributes, an assignment is a step of a state machine that may raise and still change the state; invariants over all histories, frame theorems for other setups. Data are dictionaries of quantities with dimension and factor, validation is characterised name by name.
- *Not modelled*: Single numbers instead of arrays of points, the diodes themselves (C58), the oscillators, reading of data (nxraw), `xrfnormop`, `calibrate_manual`, plots, standard deviations of the errors of a calibration; a time of zero.
- *Theorems* (51): `Verif/Qxrf/Props.lean`, `Verif/Qxrf/DeviceProps.lean`, `Verif/Qxrf/DataProps.lean`, `Verif/Qxrf/StepProps.lean`
- *Result*: Devices belong together after every assignment and history (step_sync, run_sync, construct_sync, restore_same), with frame theorems (step_frame, other_setup, step_other). Where the code deviates there is a theorem with a witness: taking the source away leaves it in the geometries (no_source), a failing list of geometries leaves devices that do not belong together (geoms_failed; repaired by the next assignment, geoms_repaired), a shallow copy shares its diode (copy_shares), too few positions are accepted (positions_short), geometries with one detector share its area (areas_shared), resetting devices never replaces one (reset_refused), currents at ID21 have a unit that is refused (id21_current), calibration without `dark` raises KeyError (dark_needed), removing beam filters without geometries raises IndexError (fluxOp_no_geometry).

### C63 A scene shows every item where its coordinates are, however its axes are flipped, shifted, transposed or rescaled (partial)

Coordinates: the limits of an axis are the smallest interval that holds all coordinates of all items, images with half a pixel on each side; an axis is shown with equal scale and an offset, so that every coordinate is inside of the limits. Flipping an axis mirrors what is shown and its limits about the middle of the data, and flipping it twice is the same as before; moving the origin to a value puts this value at zero and shifts all items by the same amount, so that the picture stays the same, and resetting gives the data back (the code violates this for scenes that were moved or flipped before, see the note); scaling to a range puts the first coordinate at its begin and the last at its end. Transposing exchanges the axes with their units, labels and settings, and is undone by doing it again. The centre of every pixel is at its coordinate. Intensities: there are one or three channels, those asked for first and in order; the limits of an image are the smallest and largest pixel, or percentiles with at most the asked part outside; those of a scene hold those of all images; colours lie between 0 and 1. Items: an item can be selected for exactly the scenes it is in; drawing again removes exactly the objects that are not used anymore, and no object of other scenes. Images of a stack are those with the indices asked for, with their labels.

- *Code*: visualization/scene.py: Geometry2D, Scene, Item, Image, Scatter; visualization/scene_data.py: DataSource, displaydata, XanesSpec; process/scenevis.py: scene_modifyaxes, scene_globalscaling
- *Model and proof*: A scene is a record of settings by data axis with a list of items; ranges are least intervals, and the place of a coordinate is a specification from the range and the settings alone; flips, shifts and transpositions are theorems about places. Intensities are positions in the sorted list of pixels. Registration is a dictionary of scenes with an index.
- *Not modelled*: Drawing (matplotlib), missing pixels (nan), colour bars and legends, text items and polygons, interpolation and saving; limits of equal size divide by zero.
- *Theorems* (61): `Verif/Scene/Props.lean`, `Verif/Scene/AxesProps.lean`, `Verif/Scene/ImageProps.lean`
- *Result*: Where coordinates are shown is a formula of the range of the data and the settings alone (place, axisLim_spec, visible); a new scene looks as its parameters say whatever they are (modifyaxes_spec), the centre of a pixel is at its coordinate (pixel_position). Where the code deviates there is a theorem with the exact effect: an axis that was flipped with its direction kept is not flipped back (flip_negative, flip_stuck, flip_twice), an origin is right only in a scene that was not moved (origin_again), a second originzero moves the smallest coordinate to twice its value (originzero_twice), originreset reverses the offset instead of resetting it (originreset_spec), resetdatarange leaves the second axis shifted by one unit (resetdatarange_spec), the text for the unit of the Y-axis is that of the X-axis (strunit_wrong), data of two channels raise without a selection (channels_two), the upper limit of a scene is shifted by the lower part (globalscaling_spec), channels beyond the list of parts get limits without size (selfscaleAll_spec), without labels only the first file is read (xanes_first). Drawing itself (matplotlib) is outside.

### C64 The images of a full-field stack are exposure-normalised, dark-subtracted, cropped and rebinned pixel by pixel, in the order of the stack (partial)

Pixels: cropping takes the pixels of the region (negative and missing ends as in Python), rebinning sums each complete block and drops the rest, so the total is preserved for the pixels in complete blocks; the value of an axis is the mean of the camera coordinates of the pixels in its block, and the axes have the size of the image. Normalisation: for a detector with its own dark signal for each exposure time and a rate in every pixel, the normalised image is the cropped and rebinned rate whatever exposure times, numbers of frames and order of files; with a dark current from parameters the same holds (the code violates this with rebinning, see the note). Stack: the images of a stack value are those of all files with this value and the camera region of the first file; flat fields are those of the same value and region, halves by name are before and after; values of the stack increase, every value is there once (violated for the same number in different notation), and at every place the sample is divided by the flat field, or the mean of both, of its own value.

- *Code*: fullfield/import_id21.py: execrebin, execroi, procraw, darklibrary, getroi, axesvalues, dataflatlibrary, getnormalizedimage; process/nxfullfield.py: _execute
- *Model and proof*: Images are functions of row and column with a shape; rebinning goes through the reshaped view with C-order indices and is proved to sum blocks. Files are headers with images, a stack is a dictionary of file names. The specification of the normalised image is a detector with a rate and a dark signal; that of the libraries is a filter of the list of files.
- *Not modelled*: Reading of files, `glob`, integers and floating point, broadcasting of images with one row or column, images of different shapes in one dataset, NeXus groups.
- *Theorems* (35): `Verif/Fullfield/Props.lean`, `Verif/Fullfield/NormProps.lean`, `Verif/Fullfield/LibProps.lean`, `Verif/Fullfield/MoreProps.lean`
- *Result*: Proved for all images, files and parameters: pixels and total of a rebinned region (rebin_spec, rebin_total, procraw_pixel), axes as means of camera coordinates (axis_spec, axes_spec), the normalised image is the rate (norm_exact), files of a stack value (collect_spec), halves (split_spec), order and content of the stack (stack_spec, execute_spec, slice_spec). Where the code deviates there is a theorem: a dark current from parameters is subtracted once per bin instead of once per pixel (norm_default, norm_default_wrong), the axes are longer than the image when a region ends beyond the camera (axis_too_long), exposure times and stack values are compared as texts (dark_text, texts_apart), values given for the data with flat fields from headers lose all flat fields (flats_lost), one flat field of before and after raises though it is handled when saving (single_flat), a stack value without flat fields raises (norm_empty). Reading files, floating point and saving are outside.

### C65 Resampling on encoder positions gives the signal at the motor positions (partial)

Grid: the new motor positions are on the grid of the axis, the encoder positions are those of the motor with resolution and offset, the offset puts the middle of the expected on the middle of the measured positions; without cropping all measured positions are inside of the grid, with cropping the grid is inside of the positions measured in all lines (the code violates this for its first and last points, see the note). Interpolation: at a measured position the measured value, between two neighbours on their line, outside the value asked for, whatever the order of the points; data linear in the position are reproduced; degree zero takes a closest point. Task: every element of the resampled signal is written with the value of its own line; a signal that is linear in the position of the motor is resampled to its value at the new positions, up to the difference of the middles of real and nominal positions; without encoders signals are copied; an axis of which nothing would be left is not resampled (violated, it raises), an offset that is given is used (violated, it raises).

- *Code*: process/nxresample.py: _encoder, _process_indices, _process_data, _execute_grid; math/interpolate.py: interpolate_irregular, extrap1d, interp1d_floor, interp1d_ceil
- *Model and proof*: Arrays are functions of lists of indices; the grid uses the model of axes of C24; interpolation is a recursion over sorted points with the two neighbours as specification; what is written is a list of indices with values, and the line an index belongs to is specified from the index alone.
- *Not modelled*: Splines of degree two and three, scattered data in two and more dimensions (parameters), missing values, HDF5, `interpolate_regular`.
- *Theorems* (33): `Verif/Resample/GridProps.lean`, `Verif/Resample/InterpProps.lean`, `Verif/Resample/TaskProps.lean`, `Verif/Resample/MoreProps.lean`
- *Result*: The grid (encoder_spec, grid_covers, crop_inside), interpolation in one dimension with degree zero and one (linear_exact, linear_node, linear_between, interp_outside, interp_perm, nearest_spec), steps (floor_spec, ceil_spec, extrap_spec), methods (kinds), which element is computed from which line (writes_spec, copy_spec) and the result for signals linear in the position (resample_exact, offset_found) are proved for all inputs. Where the code deviates there is a theorem: a cropped grid can begin before all lines (crop_outside), an offset that is given never leads to an encoder and raises AttributeError (offset_given, offset_raises), an axis that is not resampled because nothing is left makes every signal raise ValueError (skipped_axis_raises), the functions of interpolate.py give a map object for arrays (arrays_fail). Splines of higher degree and scattered data in two and more dimensions are scipy and a parameter of the model.

### C66 A regular grid of results holds the signals of every detector once, on axes they share, and finds references (partial)

Groups: a detector number, written in any way ('1', '01', 'xia1', 'detector01'), a sum of detectors and any other name stand for one group; the name and the label of a group give the group back (the code violates this for repeated prefixes and parameter groups, see the note), and different detectors and sums have different groups. Grid: it holds the signals of all groups that are not links, in order, on axes that all of them share, and it is refused when two groups are for the same detector, whatever they are called; the axes of the signals are those of the grid without the axis of signals; the dimensions that are no stack dimensions are those of one image; all values are the stack of the signals (violated unless signals are along the first dimension). References: the reference signal is the last one whose path ends with the given text; the reference image by name or fraction is an image of the stack, within half an image of what is asked (violated close to the end).

- *Code*: process/nxresult.py: Group, regulargriddata; process/regulargrid.py; process/h5regulargrid.py: NXRegularGrid, NXSignalRegularGrid; process/nxregulargrid.py: reference_signal_index, signal_axes; process/nxalign.py: _prepare_reference
- *Model and proof*: Group names are lists of characters parsed as in the source; the grid is a fold over NXdata groups with the axes kept as rational lists; specifications are about the list of groups, list suffixes and the array made by stacking.
- *Not modelled*: HDF5, units, titles, NaN on axes, unicode digits.
- *Theorems* (25): `Verif/Grid/GroupProps.lean`, `Verif/Grid/GridProps.lean`, `Verif/Grid/MoreProps.lean`
- *Result*: Proved for all inputs: the groups of detectors and sums (detector_roundtrip, sum_roundtrip, groups_differ, plain_name, name_roundtrip for names without repeated prefix), the contents of a grid (grid_signals, same_detector_refused, stackdim_of_data), its dimensions (signal_axes_back, other_dims), the values with signals along the first dimension (values_stack), reference signals (reference_last, reference_missing) and images (ref_image, pyRound_near). Deviations, each with a theorem: a repeated prefix (repeated_prefix), names that begin with S (name_with_S), the label of parameter groups (parameters_label), a negative stack dimension (negative_stackdim), the stack dimensions of a single signal (signal_grid_dims), values with signals elsewhere (values_elsewhere), a reference that is the end of another name (reference_end_of_name), a reference image beyond the end (ref_image_beyond).

### C67 A task on a regular grid keeps pixels, axes, signals and their order together (proved)

For every task that works pixel by pixel (copy, crop, replace, minus logarithm, expressions of several signals), at once or slice by slice: the task succeeds on every grid of signals on shared axes; every signal that is not skipped is in the output exactly once, in the group of the same name, and no other; its pixel at r is the processed pixel of the input at r plus the begin of the region, and the axis values at r are those of the same input pixel; slice by slice gives the same as at once. When nothing is skipped, the order of signals and the default signal are those of the input (when something is skipped the default changes, see the note). Whatever a task does, when it succeeds every data set has the dimensions of the axes. Replacing NaN replaces every NaN, and replacing a number replaces exactly the equal pixels (another NaN object than np.nan replaces nothing).

- *Code*: process/nxregulargrid.py: _execute_grid, _sort, _process_axes, _create_axes, _process_data; process/nxcrop.py: _process_indices, _process_axes, signalout_shape; process/nxreplace.py; process/nxminlog.py; process/nxexpression.py
- *Model and proof*: A task is a record with its per-slice function as parameter; the specification of a task is a function of source pixels (`Pixelwise`), a region and the axes values on it; the proof is an induction over slices and one over signals with the attributes of NXdata groups (C23) as invariant.
- *Not modelled*: Tasks that are not pixelwise (align and resample have their own properties), dtype and chunks of the output, broadcasting of results.
- *Theorems* (11): `Verif/Grid/TaskProps.lean`
- *Result*: task_spec is the property for a whole task; new_data, sliced_same, pointwise_ok and combine_ok are its parts for one signal, grid_ready shows that grids of NXdata groups meet its hypotheses, shapes_fit holds for arbitrary tasks. Deviations, each with a theorem: a sliced crop task that finds nothing to crop raises (nothing_to_crop), skipping a signal changes the default signal (skip_changes_default); a region beyond the end of an axis raises (shifted_region_raises).

### C68 A lazy slice of an XRF stack has the value its function and arguments describe, however slices are nested (partial)

The value of a reduction slice (sum, nansum, nanmax, nanmean) to which another slice is appended is the pixelwise reduction over all images in it, also when the appended slice is a reduction of the same kind whose arguments are merged; a sum does not depend on the order of appending, is NaN in a pixel exactly when an argument is, and otherwise the sum of all; a slice that corrects a fit result has in every pixel the fit result times reference flux over flux (1 for a zero flux) times the dead time factor input rate / output rate (1 for few counts or unphysical rates), and is the fit result itself when there is no reference and no detector.

- *Code*: process/nxlazy.py:1-239; io/xiaedf.py:750-770
- *Model and proof*: Slices are an inductive type with a structural evaluator; a reduction is described by the list of images below it, merging by a lemma per function; corrections are compared with an independent formula per pixel.
- *Not modelled*: Memory mapping, caching, data types.
- *Theorems* (13): `Verif/XrfTask/LazyProps.lean`, `Verif/XrfTask/AddProps.lean`
- *Result*: The appended reductions are those of two levels that the task builds; sum_value has any nesting of sums. nanmean of means is merged too, as in the code (nanmean_append). A slice of a file cannot be appended to a slice of a file (readedf_merge_fails). Data sets are read at the position of the evaluated slice. Left out: caching of the slices and the closing of files.

### C69 The XRF task adds the detectors it is asked to add, once, and corrects every spectrum once (partial)

Groups of detectors are numbered 1, 2, … and their total gets a number no group or detector has; every used detector goes to the sum of its group (and every group to the total) when adding is asked for; what is fitted is either the groups or the single detectors; after adding, the detectors are gone, other groups are unchanged, data sets a sum had already are kept and the others are joined over exactly the detectors that have the data set, in order, by the function of the data set (mean of mass fractions, maximum of chi squares, sum of the rest); the total is the sum over all detectors of all groups; each of the dead time and flux corrections is applied either before or after the fit, never twice and never not at all.

- *Code*: process/nxpymca.py:180-269; process/nxpymca.py:715-819
- *Model and proof*: Detectors and sums are groups (C66) in ordered dictionaries; the loop over `_detectors_sumto` has the invariant that every data set of a sum is the fold of its contributors; numbers of groups by induction over the list.
- *Not modelled*: The summation of spectra before the fit belongs to the properties of XIA files; only the choice is here.
- *Theorems* (11): `Verif/XrfTask/DetProps.lean`, `Verif/XrfTask/AddProps.lean`
- *Result*: groups_spec and singles_spec say which detectors are added and fitted, addDetectors_spec, addDetectors_total_group and addDetectors_total what adding does and that it succeeds, addFun_spec which function is used, corrections_once and corrections_spectra the corrections. Missing: lists that mix names and numbers. Deviations, each with a theorem: with a detector in two groups or an empty group the total has the number of a group (total_clash), and a sum given by name alone is split into characters (sum_by_name).

### C70 A saved pixel of the XRF task belongs to the right image, detector, counter and configuration (partial)

When the task ends, the energies are ascending and image j of every saved signal comes from the image with the j-th energy: a counter from the counter file of that image, a fit result from the fit of that image and detector with the configuration of the detector, multiplied by the reference flux of that image over the flux calculated from the counter of that image with the diode calibration of that image and by the dead time factor of that detector in that image; a sum of detectors is the sum of these corrected results; images with the same energy stay in order, info axes move along; every saved image has the shape of the first one (missing rows are zero) and nothing else is saved.

- *Code*: process/nxpymca.py:93-178; process/nxpymca.py:480-726; process/nxpymca.py:820-889
- *Model and proof*: The stacks are dictionaries of dictionaries of slices; one lemma per step gives `get2` (the slices of a data set) after it; saving evaluates slices in a growing file, so evaluation is shown to be monotone; the end theorems compose all steps and unfold the value of a pixel.
- *Not modelled*: Fits, reading of EDF files and statistics are parameters; axes other than the stack axis; parallel or single process fitting; sums of sums in the end theorems.
- *Theorems* (19): `Verif/XrfTask/StackProps.lean`, `Verif/XrfTask/TaskProps.lean`, `Verif/XrfTask/ExportProps.lean`
- *Result*: task_detector and task_sum are the property for whole tasks without a total of groups; counters_spec, fits_spec, pairConfigs_spec, applyPost_spec, sort_spec, sort_stable, export_spec and execute_saved are its parts. Deviations, each with a theorem: the shape of the last image decides on the shape of the counters of all images (counter_shape_last), a counter that a later image lacks is found out only when saving and one that the first lacks raises at once (missing_counter), images with another number of columns raise (export_columns), two groups of one name overwrite each other (export_clash). The fits themselves, dead time statistics and flux calibration are parameters.

### C71 Spectra of Bliss scans are corrected for the live time of their own detector and pixel, and summed over the detectors (partial)

The task before fitting saves, per detector or added, every channel as counts times preset time divided by the live time of that detector in that pixel (counter live_time or else output_live_time), however the data is divided in slices to fit in memory; adding takes every detector once per pattern that matches its name; counters are saved under the last part of their name. The fitting task gives every detector its configuration (one for all or one each) and saves, for every signal, the sum over the detectors that have it, and the counters of the scan unchanged.

- *Code*: process/nxblissmcapre.py:26-190; process/nxblisspymca.py:45-170; math/slicing.py
- *Model and proof*: Detectors are functions on index tuples; slices come from C04, filling an array slice by slice is shown to be the same as evaluating each element; saving is a fold over dictionaries whose lookups are characterised key by key.
- *Not modelled*: The fit is a parameter; HDF5 attributes and types apart from the loss of decimals; the linking of files.
- *Theorems* (20): `Verif/Bliss/PreProps.lean`, `Verif/Bliss/FitProps.lean`
- *Result*: pre_add, dtcor_spec and dtcor_succeeds are the first task, saved_sum and saved_counters_one the second, the others their parts. Deviations, each with a theorem: the live time from the number of events is one second (live_time_events), without correction only one detector can be used (link_two), integer spectra lose decimals (dtcor_truncates), a signal that the first detector lacks is lost (saved_lost), counters are multiplied by the number of detectors (saved_counters). The fit itself is a parameter.

### C72 Scans are stacked in the order of their positions and tiled row by row, with all points at their own place (partial)

A task that merges scans collects the results of the same name of all dependencies in order; reads the shape of the scans from the command of the first (fscan2d, l2scan or other meshes); merges every data set, at any depth, from the data sets at the same path in all scans and keeps soft links, pointing into the merged scan; with a motor the stack axis has the positions in increasing order and point (y, x) of image i is point y * fast + x of the scan with the i-th position; when a position is unknown the order is that of the dependencies; a single scan without motor becomes an image; in a mosaic scan i is at row i / columns and column i % columns.

- *Code*: process/nxmerge.py:15-55; process/nxstack.py:18-76; process/nxtile.py:15-51; process/h5merge.py:91-291
- *Model and proof*: The groups are trees; merging is characterised by the item at each path (induction on the path); a lemma that leading dimensions of length one do not matter lifts the mesh theorems of C26 to the data sets of Bliss scans; the end theorems quantify over every function that behaves as numpy.argsort.
- *Not modelled*: Links in other scans where the first has data; an existing destination; detector dimensions in the end theorems. The parameter `shape` of the tasks is never used by the code.
- *Theorems* (30): `Verif/MergeTask/TreeProps.lean`, `Verif/MergeTask/PlanLemmas.lean`, `Verif/MergeTask/TaskProps.lean`
- *Result*: stack_sorted, stack_unsorted, stack_single and tile_spec are the property for data sets with one scan dimension (after leading dimensions of length one); merge_dset, merge_soft, merge_nothing_else and merge_missing hold for all groups of data sets. Missing: data sets with detector dimensions in the end theorems. Deviations, each with a theorem: a stack without motor has no axis (stack_no_axis), results instead of scans with a motor raise (stack_no_scans), a result that one scan lacks raises (stack_missing), a mosaic of incomplete scans is smaller than its axis (tile_axis_longer).

### C73 A fit at each energy of a series uses the source lines of that energy, whatever was fitted before (partial)

Adapting a fit configuration to an energy keeps the order, relative energies, relative weights and scattering of the source lines in use and gives the first the energy and weight one; an additional high energy is added exactly once; adapting a configuration that was adapted before equals adapting the original, so that in a series of energies the result for each energy, file and group of lines is the area of the fit of that spectrum with the original configuration at that energy divided by the normalization of the energy (zero without such a group), chi squared is not normalized, and regions of interest are sums of channels over the same normalization.

- *Code*: xrf/fit.py:51-277; xrf/fit.py:280-323; xrf/fit.py:326-479
- *Model and proof*: Lines in use are described by their ratios to the first line, which adapting does not change (lemmas adaptEnergy_packed and adaptEnergy_packed_high); idempotence of each part gives adapt_twice; the results are a list of writes to a dictionary of arrays, of which the last one at a place counts.
- *Not modelled*: PyMca itself: the fit is a parameter and configuring it is taken not to change the configuration. The batch fits of images (PerformBatchFit...), plots and progress. Rounding: the ratios are exact.
- *Theorems* (21): `Verif/FitCfg/Props.lean`, `Verif/FitCfg/FitProps.lean`, `Verif/FitCfg/Lemmas.lean`
- *Result*: adapt_active and adapt_high say what the lines are, adapt_twice that earlier energies do not matter, fit_spec is the property for whole series, roi_spec that of regions. Deviations, each with a theorem: a multiple of at most one (addhigh=True) adds a line at each energy (high_accumulates), lines in use without energy get energy zero (zero_energy), an energy that is not finite is fitted with the previous one (adapt_keeps, fit_keeps_energy), no line in use raises (adapt_fails), and a configuration without the flag of the strategy raises unless fits are fast (strategy_missing).

### C74 An XAS spectrum is the mean over its repeats of the fluorescence divided by I0 (partial)

For synchronised repeats every region is the sum over its channels of max(0, mean over repeats of counts/I0 minus the background), with I0 = (counts/time - background) * exposure time, so that spectra proportional to I0 give exactly the factor; counters are treated alike; repeats with other energies are refused. Repeats which are not synchronised are interpolated at the energies of the first one and averaged. The files of each XIA detector are found.

- *Code*: pipelines/id21_xas.py:29-266; pipelines/id21_xas.py:269-542; xrf/parse_xia.py:10-145
- *Model and proof*: The sum over the repeats is computed by induction for any accumulated spectrum (sumXrf_some), the result dictionary by the laws of dictionaries; masks of glob are characterised as texts, and a sorted list of files is determined by its elements.
- *Not modelled*: Reading of spec files, contents and names of saved files, plots, PyMca (fits, XiaCorrect, XiaEdf: `xia.data` is taken to be the sum over the detectors), splines, the median and the logarithm are parameters. Python 3: `counters.keys()` cannot be indexed. Special characters of glob in fixed parts of names. Of pint only that nothing but zero can be subtracted from a quantity with unit and that assigning a quantity to an array drops the unit.
- *Theorems* (40): `Verif/XasPipe/Props.lean`, `Verif/XasPipe/NoSync.lean`, `Verif/XasPipe/Cases.lean`, `Verif/XasPipe/XiaProps.lean`, `Verif/XasPipe/MoreProps.lean`
- *Result*: sync_roi, sync_roi_median, sync_fit, sync_counter, sync_energy and sync_norm are the property for synchronised repeats, sync_exact its aim, sync_required the refusal, sync_each several spectra, sync_total and sync_total_fit that there is a result; nosync_one and nosync_mean are repeats without synchronization, xia_raw and xia_detectors the files. Deviations, each with a theorem: without files in the last repeat nothing is fitted (sync_fit_lost) and without files in the first one the others raise (sync_first_missing), detector files without statistics raise (sync_no_stat), a background of I0 or of a counter other than zero raises because exposure times have units (sync_background, nosync_background), an empty label of exposure times uses I0 counts as times after the first scan (sync_empty_label), the base directory is replaced at every repeat (sync_replace_grows), the default arguments and counters raise without synchronization (nosync_default, nosync_counters) where the background has no effect (nosync_bkgxas), the files with sums of detectors are looked for under the wrong name so that nothing is fitted (xia_sum_lost, xia_single_lost, nosync_nothing), unequal numbers of files mix detectors (xia_raw_mixed). The fits, splines, XiaCorrect and reading of spec files are parameters.

### C75 Repeats of XANES scans are grouped with their sum, and no scan is lost or taken twice (proved)

The list of XANES scans holds in file order the scans in the wanted range with data and a fitting command, with their repeats, except those replaced by an interpolated sum. The groups are, for each sum, the single scans that directly precede it (at most as many as it has repeats) with or without the sum, followed by the scans kept alone; without individual scans each scan is in exactly one group, once.

- *Code*: io/spec.py:993-1036; io/spec.py:1038-1067; io/spec.py:1069-1118
- *Model and proof*: The flags after each step of the loop are given in closed form (flagAt): a single scan belongs to at most one sum, because the sums between would interrupt the run; the groups follow, and the partition from lists without duplicates.
- *Not modelled*: The command parser, the columns and the formatting of labels are parameters of extractxanes; signs and blanks in the number of repeats.
- *Theorems* (14): `Verif/Xanes/Props.lean`, `Verif/Xanes/InfoProps.lean`
- *Result*: groups_eq is the whole grouping, groups_partition, groups_partition_nosum and groups_mem that nothing is lost or taken twice, members_exact a complete series, extractInfo_eq and extractInfo_ok the list and when it is made, extractXanes_spec the columns of the scans asked for. Limits of what the grouping can know, each with a theorem: missing repeats are accepted silently (members_incomplete), with skipped repeats other scans are taken (members_foreign), an interpolated sum as first scan raises (extractInfo_first_fails) and removes another scan when its own sum was skipped (extractInfo_removes).

### C76 The axes of an image are those of its EDF header, shifted by the compensating motors (proved)

When the header describes a direction, the fast axis has the centres of its pixels and the slow axis the points of its steps, in the unit of the motor and shifted by the sum of the positions of the compensating motors in the header; without it the command in the header is used, and without that the axes number the pixels.

- *Code*: io/spec.py:569-704
- *Model and proof*: The values read for compensating motors are followed through the dictionary, the shift is an induction over the motors; the axes are those of C24.
- *Not modelled*: Units of different dimension, NaN in headers, labels with the names of entries of the scan, `time` and other entries of the command.
- *Theorems* (13): `Verif/EdfHead/Props.lean`, `Verif/EdfHead/Cases.lean`
- *Result*: fast_header and slow_header are the property, fast_command and slow_command the use of the command, fast_default and slow_default the axes in pixels, vals_result the positions and name_result the kind of scan. Headers outside of the property, each with a theorem: a header without the end of the range is mixed with the command (mixed), the fast motor of a mesh is lost (mesh_lost), the name of the axis depends on the presence of a compensating motor (name_depends), the numbers of pixels of header and image are not compared (size_unchecked), zero pixels raise ZeroDivisionError (zero_pixels).

### C77 Columns, motors and file locations of a spec file are found by name (partial)

Columns and motor positions are those of the first label equal up to case, in the order asked for, and a missing label raises; the membership tests agree with that. The location of XIA files is what the comment lines of the header say, with any other lines around. The images of a file are listed by name and number, the last scan winning, with the sizes of the scan.

- *Code*: io/spec.py:721-754; io/spec.py:760-782; io/spec.py:812-839; io/spec.py:908-981
- *Model and proof*: First positions are characterised by induction over the labels; splitting at colons by the shape of the line; the dictionary of images by its last writer.
- *Not modelled*: Texts around numbers, motors and units of images, parsing of XIA file names, letters outside of ASCII.
- *Theorems* (14): `Verif/SpecFile/Props.lean`
- *Result*: data_ok, data_error, motors_ok and has_iff are the look-up by name, loc_lines and loc_file the location, images_last the list of images, image_header their key and place, image_fast_partial the fast direction. Missing because it is false: size and step of the slow direction are computed from the fast one (images_slow). Further deviations: of labels that differ in case only the first is found (case_hidden), a directory with a colon is not seen (loc_colon), a comment without colon makes the list of images fail (images_comment).

### C78 Quadrics have the points they are made for and constrained fits minimise what they should (proved)

The matrix of a plane, ellipsoid or cylinder is symmetric and vanishes exactly on the points of that surface; a change of frame gives the form in the new coordinates. The quadratic program given to the solver for a constrained least squares fit has as solutions exactly the minimisers of the residuals with the regularization under the inequalities, equalities and bounds; the non negative and the normalised fit likewise.

- *Code*: math/quadrics.py:11-99; math/lsqlin.py:103-230
- *Model and proof*: Block matrices are evaluated on a vector ending in one; the objective of the program is half of the cost up to a constant, and the rows of the stacked matrices are matched with the constraints one by one.
- *Not modelled*: The solver itself, sparse matrices, initial values and options of the solver.
- *Theorems* (16): `Verif/Quadric/Props.lean`, `Verif/Quadric/LsqProps.lean`
- *Result*: plane_value, ellipsoid_value, cylinder_value, cylinder_axis, plane_symm, quadsum1_symm, changeOfFrame_value, changeOfFrame_comp and ellipsoid_shift are the quadrics; program_ok, program_cost and program_solution are the constrained fit, nonneg_solution and norm_solution the two special ones. Limits, each with a theorem: one single inequality always raises (program_one), a negative regularization is silently ignored (program_negative).

### C79 Alignment on a marker finds the movement of the marker (partial)

The position that the simple alignment takes is that of the brightest (or darkest) pixel that is not missing, the first one in reading order on ties; when a second image is the first one moved and the marker stays inside, the movement found is that movement, and the marker of the corrected image is where the marker of the reference is. Missing pixels never become the marker.

- *Code*: align/alignSimple.py:10-107
- *Model and proof*: The position from nanargmax over the flattened image is characterised as the first best pixel in reading order, whose uniqueness gives the movement; images moved by whole pixels keep the order of pixels.
- *Not modelled*: The fit of a gaussian to the marker and centroids with missing pixels in the window.
- *Theorems* (9): `Verif/AlignSimple/Props.lean`, `Verif/AlignSimple/Cases.lean`, `Verif/AlignSimple/Centroid.lean`
- *Result*: getxy_iff is the marker, kernel_moved the movement, aligned_marker and aligned_moved the corrected image, getxy_none the absence of a marker; kernel_centroid is the movement for centroids on images without missing pixels in the window. Hypothesis: the value for missing pixels is not zero; with zero the missing pixels do count (zero_counts) and a darkest pixel can be a missing one (zero_wrong). centroid_swapped shows that centroids are returned with rows and columns exchanged, which cancels in the movement when the reference is a centroid too. Missing: the fit of a gaussian.

### C80 Conversions between units keep the values (partial)

Making a quantity, converting it, taking its magnitude in a unit and making it like another one keep the physical value of every element, for numbers, quantities, arrays and lists; they raise exactly when dimensions differ; the conversion to the first fitting unit of several takes the first with the right dimension; two operands of a comparison are put in one unit, so the comparison is one of physical values.

- *Code*: utils/units.py:36-200
- *Model and proof*: Units are a dimension and a positive factor over an ordered field; the physical value of every form of value is defined apart from the model and shown to be kept by each function.
- *Not modelled*: Parsing of unit names, offsets such as degrees Celsius, contexts, and rounding of floats.
- *Theorems* (16): `Verif/Units/Props.lean`
- *Result*: magnitude_ok and magnitude_iff are magnitudes, quantity_phys and quantity_force quantities, to_phys and to_mags conversions, umagnitude_ok the magnitudes of quantities, quantityLike_ok quantities like others, unitsto_ok, unitsto_error and unitsto_finds the first fitting unit, operands_ok and operands_lt comparisons. Lists are Uniform: all numbers or all quantities. Without that it is false: after a number a dimensionless quantity gets the default unit (mixed_relabelled). Further limits: numbers are allowed as second operand only (operands_asymmetric), and a list in several units of one dimension cannot be followed (quantityLike_units).

### C81 Making, removing, moving and copying files touch only what they should (partial)

In the local file system making a directory keeps everything and adds only directories on the way; removing a directory or file removes what is below and nothing else, and not recursively only an empty directory; after a move the tree is at the destination, gone at the source, and the rest is unchanged; after a copy both are there; without the force flag a failure loses nothing; a link leads to what it was made for, and one inside a directory moves with it; a temporary tree is renamed or removed and never left behind.

- *Code*: io/localfs.py:104-263; io/fs.py:368-399; io/fs.py:706-727
- *Model and proof*: The state is the list of all entries; each operation returns its outcome and the state. The invariant that everything is in a directory is kept by each operation and gives that nothing is below a missing entry, a file or a link; the lookup after a change of keys is computed by induction over the entries.
- *Not modelled*: Handles and modes, permissions, hard links, several devices, paths through links to directories, copies of a directory into itself and concurrent changes.
- *Theorems* (27): `Verif/LocalFs/Props.lean`, `Verif/LocalFs/Cases.lean`, `Verif/LocalFs/Move.lean`
- *Result*: mkdir_keeps and mkdir_isdir are directories, remove_tree, remove_one and remove_only removal, move_ok and move_error moves, copy_ok and copy_keeps copies, link_dest and moved_link links, renameremove_taken and renameremove_free temporary names, run_wf all sequences. Where it is false: a broken link makes mkdir succeed without a directory (mkdir_broken); removing a link recursively removes the data it leads to (remove_link, remove_link_data) and a circle raises RecursionError (remove_circle); with force a move to its own place, a move of something missing and a copy of a link lose data (move_self_lost, move_missing_lost, copy_link_lost); a link cannot be copied at all without following (copy_link); a failed move leaves new directories (move_leaves_dirs); a link moved alone leads elsewhere (moved_link_alone). Hypotheses: with force the destination is not a link. Missing: paths through links to directories, copies into the own directory, dereference, hard links, several devices.

### C82 The full-field simulation can be inverted and gives the transmission back (partial)

Counts are a linear function of the photons, with the slope and offset that photontoDU gives; the backward chain gives the incoming photons back from the counts, expectation and standard deviation; the expectation with noise is the result without noise; the variance is that of a cascade of Bernoulli and Poisson processes plus dark and readout noise; transmission of a measurement without noise is the transmission of the sample for any flux, times and numbers of frames; light yields follow the documented formulas.

- *Code*: simulation/calcnoise.py:17-227; detectors/area.py:92-149; materials/scintillators.py:64-121; materials/lenses.py:66-147; materials/multilayer.py:1751-1777
- *Model and proof*: Each element is a stage with expectation, variance and inverse, proved from the round trips of C16; the chain composes the stages. The variance is then brought into the closed form by algebra. The measurement is linear, so transmission is a cancellation with explicit non-zero conditions.
- *Not modelled*: Tables of coefficients and efficiencies, units, shapes of arrays and broadcasting, correlations between images, plots and the choice of lens (x20 also gives the 10x lens).
- *Theorems* (27): `Verif/FFSim/Props.lean`, `Verif/FFSim/Noise.lean`
- *Result*: chainPlain_forward, chainPlain_roundtrip and chainPlain_backward are the chain without noise, photontoDU_line the line, transmission_exact and absorbance_exact the measurement, chainNoise_spec the chain with noise (expectation, variance, inverse) and electronVar_poisson its closed form for counting statistics. Where it is false: arrays are propagated without the noise of the processes (chainArray_spec, array_noise_differs); poissonapprox is not known backward, which then has no result (approx_backward_none); the dark current has the variance dc t^2 instead of dc t (dark_variance, dark_variance_iff); without dark images transmission divides by zero (transmission_nodark); flux to flat and back divides by the frame time (flux_flat_roundtrip, flux_flat_iff); flat frames are counted with the time of data frames (getnframes_flat_wrong). Missing: the uncertainty of the transmission, whose images are correlated in the uncertainties package.

### C83 Expressions of lazy functions compute what they show (partial)

An expression of lazy functions and values gives a function exactly when a function occurs in it; calling it gives the value of the expression with every function called with the same argument; its name shows an expression that computes the same, names can be read in one way only, so functions with the same name compute the same; every expression of the supported operators can be built.

- *Code*: math/lazy.py:9-156
- *Model and proof*: Structural induction over expressions; Python's choice of the method (left, reflected, mirrored comparison) is a function of the kinds of the operands. For names a unique reading lemma by induction: an operand starts with a word or a bracket, and what follows an operand starts with neither.
- *Not modelled*: Keyword arguments, numpy arrays as operands, hashing of functions (defining == removes it) and pickling.
- *Theorems* (12): `Verif/Lazy/Props.lean`
- *Result*: build_call is the value, build_lazy when the result is a function, build_total that it can be built, build_name, render_split and name_determines names. Where it is false: divmod of a function raises AttributeError (divmod_error) and of a value and a function computes the remainder under the name divmod (divmod_value, divmod_name); a value with & or | on the left raises TypeError (and_asymmetric); not f is always false (not_wrong); functions without a name share the name of their Python function (same_name). Hypotheses: comparisons of values can be exchanged; names are words or words with one pair of brackets, and texts of values are words (no sign). Missing: values with own operators for functions (numpy arrays), names with a sign.

### C84 Browsing paths: trees, searches, free names, ancestors and open files (partial)

A tree lists every entry once with the entry's own path, down to the given depth; a free name is free, keeps the name when possible and otherwise takes the next number of its series; the ancestors of a path are its prefixes and the common ancestor is the longest common prefix; a file object ends closed with no function waiting whatever fails, functions put off until closing never run while the file is open and run in order, once for each request.

- *Code*: io/fs.py:82-145; io/fs.py:354-366; io/fs.py:484-528; io/fs.py:736-767
- *Model and proof*: Mutual induction over directory trees against the flat list of contents; pigeonhole on the numbered names for the search; prefixes for ancestors; for open files an invariant of the object and its log of events, preserved by every program.
- *Not modelled*: Links, the order of listdir, regular expressions given as text, names with a line break, and postponed functions that open the file themselves.
- *Theorems* (25): `Verif/Browse/Props.lean`, `Verif/Browse/Props2.lean`
- *Result*: tree_all, treeList_all and treeList_depth for trees; find_flat and find_deep for searches; nonexistingName_free, nonexistingName_keep, nonexistingName_series, nonexistingName_first, splitNumber_numbered, splitNumber_sound and numberedFmt_eq for names; mem_iterup, root_eq and common_spec for ancestors; run_closed, run_order and run_all for open files. Where it is false: a negative depth lists everything (treeList_negative); a recursive search with depth zero or more never goes into a directory (find_recursive_flat); names with braces raise or give another name (numberedFmt_braces); a postponed function that fails drops the ones after it (callback_lost). Missing: links, searches with a regular expression as text (match is given a path object, TypeError), postponed functions that open the file again.

### C85 Batch jobs run as asked and progress is shown truthfully (partial)

The numbers given on the command line run these jobs in that order, too high numbers are refused without stopping the others, without numbers all jobs run in order up to the first failure; only existing jobs run; the list shows each job with its number, names aligned. A time in seconds is split in the only hours, minutes and seconds that make it up; each line of the pipeline shows a percentage between 0 and 100 of the work that is done, with the time left at the speed so far, and never goes back.

- *Code*: pipelines/batch.py:62-123; utils/timing.py:15-77; xrf/fit.py:412-477; pipelines/id21_xas.py:166-241
- *Model and proof*: Induction over the list of numbers for jobs; lengths of decimal numbers for the list; uniqueness of hours, minutes and seconds from bounds on integers; closed forms of the states in which the pipeline prints, then bounds on the part done.
- *Not modelled*: argparse, logging, clocks, rounding of floats, and scans of different sizes.
- *Theorems* (19): `Verif/Jobs/Props.lean`
- *Result*: runNumbers_spec, runAll_spec, runAll_fails and execute_exists for jobs; listing_line and listing_aligned for the list; hms_spec and hms_neg for times; printprogress_spec, process_range and process_monotone for progress. Where it is false: a range of jobs raises TypeError before any job runs (range_fails); job 0 is the last job (zero_runs_last); with ten, a hundred, ... jobs the last line is shifted (listing_shifted); elapsed times start again after a day (deltaSeconds_day); printing before any work raises ZeroDivisionError (printprogress_zero); with several detectors the progress starts again with each detector (detectors_eq, process_back). Missing: parsing of the arguments, rounding of floats in times.

### C86 Formulas in spreadsheets hold after every operation (partial)

After values, rows, columns and formulas are added to a sheet in any order in which formulas are added before they are referred to, every column formula holds in every row, every row formula in every column and every cell formula in its cell, with the stated priorities where they meet; entered values outside formulas are kept.

- *Code*: io/excel.py:96-245
- *Model and proof*: For each of the three loops an induction over the ordered list of formulas: a formula holds after the loop because no later formula writes its target or its arguments. An invariant of the sheet then covers all series of operations.
- *Not modelled*: pandas itself (alignment, types, missing values), the text of formulas, formats, criteria, saving to a file.
- *Theorems* (8): `Verif/Excel/Props.lean`
- *Result*: steps_sat for series of operations on a new sheet, step_inv for one operation, applyAll_sat for one pass over the formulas, value_kept for entered values. Sat states where formulas meet: with row priority a column formula need not hold in the rows of row formulas, and formulas that write or read a cell with a cell formula are excepted. Where it is false: a formula that is referred to before it is added is not up to date after a change (stale); a formula with an unknown column stays in the dictionary and every later operation raises KeyError (unknown_column_breaks); a cell formula that refers to another cell of its row is refused (cell_refuses). Missing: replaced formulas, rows and columns added as lists, concat (does not apply formulas), formats and criteria, the evaluation of the text of a formula.

### C87 XRMC loops and frames put every device where the output name says (partial)

In an XRMC simulation with nested loops every detector runs exactly once per grid point, in loop order, with a different output suffix of fixed length, and at that moment the loaded steps and retours have moved every device by exactly as many steps of every loop as the suffix says. The frame matrices of a device are each other's inverse, rotations about an axis add up, and the numbers written for quadrics of fixed devices describe the moved surface.

- *Code*: simulation/xrmc.py:279-300; simulation/xrmc.py:343-375; simulation/xrmc.py:480-499; simulation/xrmc.py:574-734; simulation/xrmc.py:858-914; simulation/xrmc.py:1793-1850
- *Model and proof*: The order of itertools.product as a relation between successive indices (an outer step restarts the inner loops), and an induction over the loops in any monoid of moves: the retours of the inner loops are applied first. Rotations are Rodrigues matrices over the reals, from the rotation vector of scipy.
- *Not modelled*: The xrmc program, which reads the files; scipy is taken as documented; files, sources, detectors and spectra.
- *Theorems* (26): `Verif/Xrmc/LoopProps.lean`, `Verif/Xrmc/FrameProps.lean`
- *Result*: body_runs for the whole main file, with rotationLoop_undo and mkAxis_undo for its hypothesis and retour_undoes for the moves; outputs_distinct, outputs_written, suffix_inj and suffix_length for the names; frames_inverse, rotation_add, rotation_direction, quadricFrame_inverse, quadricFrame_origin, transformed_value for the frames; layers_ordered and layer_inside for layers. Where it is false: a step with two moves that do not commute is not undone by its retour (retour_order, device_twice); userToXrmc and the frame of the quadrics of the same device have opposite angles (userToXrmc_origin, frames_disagree); an axis that is not a unit vector changes the angle (rotation_axis_length); a general quadric of a fixed device loses terms (quadric_lost), a cylinder always fails (cylinder_fails); a layer of negative thickness overlaps the previous one (layers_overlap). Missing: what the xrmc program itself does (its lines are given the matrices of the class), the text of the files, sources, detectors, spectra and the polar rotation loop.

### C88 Cross sections for arrays of elements and energies (partial)

A cross section evaluated for arrays of atomic numbers and energies of any dimensions has the dimensions of the atomic numbers followed by those of the energies, and each value is the cross section of that element at that energy, zero where the library has none; numbers give a number. Partial cross sections from a simulation replace the tabulated ones in the total.

- *Code*: materials/csutils.py:7-75; materials/element.py:287-311
- *Model and proof*: The C order of an index as a number; the position of an index of two parts is the position of the first times the size of the second plus the position of the second.
- *Not modelled*: The values of xraylib; that xraylib_np gives the same as xraylib; data frames and units.
- *Theorems* (6): `Verif/Csutils/Props.lean`
- *Result*: eval_dims and eval_value are the property for arrays, eval_num and eval_zero_dim for numbers, replace_value for the simulated cross sections. The functions of xraylib_np are taken to give the same table as those of xraylib. Where it is false: as soon as a tabulated partial cross section is larger than the total at one energy the correction raises instead of interpolating (replace_fails). Missing: the data frame, units of the energies, the interpolation without any point.

### C89 Point measurements on maps and triangles of components (partial)

A point measurement within half a step of a map pixel is drawn on a picture pixel with the value of that map pixel, whatever the order of the motor positions and however the map is transposed, flipped and given a default origin; the axes and positions are the sum of coarse and fine motor in micron. The intensities of a colour are between zero and one, increase with the value and the high end of the range has full intensity. In a ternary diagram, place and shares of the components determine each other, pure components are the corners and lines of equal share end at the sides.

- *Code*: visualization/id21_scanoverlap.py:10-100; visualization/id21_scanoverlap.py:181-300; visualization/ternary_diagram.py:180-260
- *Model and proof*: A marker is at a fraction within a pixel; each step of the drawing keeps the fraction or takes one minus the fraction. Sorted coordinates of a regular grid are the grid itself. Shares are distances to the sides.
- *Not modelled*: matplotlib (pixels are placed linearly in the extent), the spline, files; one colour instead of three.
- *Theorems* (22): `Verif/Overlay/Props.lean`, `Verif/Overlay/Ternary.lean`
- *Result*: overlay_over and show_over are the property for the markers, origin_increasing, markers_true and orientation for the options, axis_position for the motors. Where it is false: the intensity is divided by the high end of the range instead of by its width, so the high end is only bright when the range starts at zero (intensity_full, intensity_background, intensity_negative), and the default coordinates without fixed motors raise (axis_fails). Missing: the spline itself (a parameter that passes through its data), irregular grids, the reading of the files.

### C90 Conversion of XIA files to a NeXus entry (partial)

The spectra in the file are those of the XIA files, row by row, whether they are copied at once or in chunks; chunks do not overlap, leave no row out and respect the memory limit. Exactly the included and not excluded counters are stored, each with its own data, and the fluxes of the application are the counters of the instrument for them. Missing times are events per rate, measured times are kept. A conversion that fails leaves the file as it was, one that succeeds adds one entry.

- *Code*: io/xiaedftonexus.py:121-143; io/xiaedftonexus.py:218-256; io/xiaedftonexus.py:268-408; process/nxxiaedf.py:34-95
- *Model and proof*: The chunk boundaries are multiples of a step with the number of rows at the end; rows below the current boundary are copied. The counters by induction over the names with the column as index.
- *Not modelled*: HDF5 files (rows, a list of entries); ceil of exact quotients; label parsing (C28) as a parameter; numpy data types.
- *Theorems* (13): `Verif/XiaNx/Props.lean`
- *Result*: chunks_partition, chunks_memory and copy_all are the property for the spectra, skip_spec, counters_stored and link_spec for the counters, times_calculated, times_fraction and times_measured for the times, task_failed and task_done for the file. Where it is false: with one counter for both fluxes the flux before the sample is not linked (same_counter); nothing to copy raises a division by zero (copyIndex_none); an output made in the meantime is kept and the conversion dropped (task_done). Missing: positions, energy, geometry, the NeXus groups and what a second counter of the same name does.

### C91 Simulations with xmimsim (partial)

The setup has slits that give the requested beam size, the first sample layer as reference, ten layers and three attenuators with the configured ones unchanged. A simulation succeeds exactly when all its programs do and stops at the first that fails. The patched input files only differ in the output file, the pulse width and the noise. The result that is read is the one with the most interactions of this simulation, with the energies of its calibration.

- *Code*: simulation/xmimsim.py:36-248; io/spe.py:5-24
- *Model and proof*: Layer names with different numbers differ (decimal digits, C37). Only the first line with a property is replaced. The loop over the result files counts up to the first that is missing.
- *Not modelled*: The programs; the slits are a point source with similar triangles; files as lists of lines, white space of ASCII.
- *Theorems* (17): `Verif/Xmimsim/Props.lean`
- *Result*: Where it is false: layers that are not numbered from zero are overwritten (layers_lost), every pulse width that ends in 1e-5 is replaced (patch_width_other), results of an earlier simulation with more interactions in the same directory are read (last_stale), calibrations with two spaces or three coefficients raise (spe_fails). Missing: the programs and their files, the command line arguments, the conversion of the configuration by PyMca.

### C92 Outliers and tiles (proved)

A fixed number of outliers marks that many values, none of which deviates less from the median than a value that is not marked. Otherwise a value is marked exactly when it deviates more than so many times the scaled median deviation, at most half of the values are marked, and the marks do not depend on the unit or the origin. Tiling repeats the source along the rows, the columns or the diagonal blocks and leaves all other memory unchanged.

- *Code*: math/statistics.py:8-36; utils/arraytricks.py:8-50
- *Model and proof*: The median of the diodes with its counting specification. The marks of a fixed number are the first part of a sorted permutation. The tiles are a list of assignments to memory: the last one to an address wins, and with different addresses for different elements each element is assigned one value.
- *Not modelled*: Exact numbers; finite values; one dimension for outliers, two for tiles; addresses in items.
- *Theorems* (10): `Verif/Outlier/Props.lean`
- *Result*: Weak point of the code: with more than half of the values the same there are no outliers, however far the others are (mad_constant). A negative number of outliers leaves that many values unmarked (fixed_count).

### C93 Normal distributions between limits (partial)

The density between two limits is positive and integrates to one, also for limits above zero where another formula is used. The distribution function is its integral. The quantiles invert the distribution function and are between the limits. The mean and the variance are those of the density. The distribution with a hole has a hole.

- *Code*: math/distributions.py:69-159
- *Model and proof*: The normal density is even and positive, so that its distribution function is strictly increasing and symmetric; the moments from the derivatives of the density and of the value times the density; the quantiles from the intermediate value theorem.
- *Not modelled*: Real numbers instead of floats; the normal quantiles are any left inverse of the distribution function; distributions.py:30-66 is not modelled.
- *Theorems* (11): `Verif/TruncNorm/Props.lean`
- *Result*: Over the real numbers with the integrals of Mathlib. Where it is false: the distribution with a hole is the truncated one, its density is the highest in the middle (hole_not_flipped). Missing: limitednorm_gen, which is not used and lacks its limit and offset; the logarithms; the generic methods of scipy.

### C94 Logs, saved images and stacks of images (partial)

A log file gets every line of every message once, indented, after what it had or as the only content; the same lines are printed. Messages are split at every end of line. An existing image is only replaced when that is asked for and other files do not change. The labels of a stack are the file names without directory and extension, its values are the images in the order of the files.

- *Code*: io/ascii.py:51-91; io/edf.py:62-69; process/edfregulargrid.py:13-53
- *Model and proof*: Splitting by induction on the text, with the three ends of lines; the file is the old content followed by the lines with their ends. Names are split at the last dot.
- *Not modelled*: Files as texts or images; a write either succeeds or fails; autoread_alphatable is not modelled.
- *Theorems* (9): `Verif/TextLog/Props.lean`
- *Result*: Where it is false: when writing fails the old image is already removed (save_loses), a file name without extension has an empty label (label_empty), no lines at all give an empty line (no_lines). Missing: the axes from the headers, stacks of XIA images, reading tables of numbers.

### C95 Means over the lines of a spectrum (partial)

Sampling a table with a spectrum gives the mean over its lines weighted with their intensities: it is between the lowest and the highest value of the table at the lines, does not depend on the scale of the intensities, and is the default of the table without lines. Adding lines makes every sum over the spectrum the sum over both sets of lines, also when they have lines in common.

- *Code*: sources/emspectrum.py:28-73; utils/lut.py:181-183
- *Model and proof*: The mean is specified by its product with the total intensity. Adding uses the specification of the merged lists (C12) and that the sum over distinct keys of the totals is the sum over all entries.
- *Not modelled*: Exact numbers; the table is any function of the lines (C11 says which).
- *Theorems* (7): `Verif/EmSpectrum/Props.lean`
- *Result*: Where it is false: intensities with sum zero have no mean (sample_zero); adding lines in place to a dark source loses the source (dark_lost). Missing: pint units, the conversion is a parameter.

### C96 Steps, classes, defaults and axes in a NeXus file (partial)

Processing steps are read in the order in which they were added, whatever the order of the file. Following the default attributes from the root leads to the group that was made the default. The parents of a new group get a class up to the first that has one. Axes that are linked to a data group are read again in the same order. The path and the name of an object are its parts.

- *Code*: io/nexus.py:8-22; io/nexus.py:117-200; io/nexus.py:389-411
- *Model and proof*: The number before the first dot is read back (decimal digits), so that names differ and the assignments go to different places. The defaults form a chain of suffixes of the path.
- *Not modelled*: The file as a list of groups; step names without slashes; attributes as dictionaries; paths as lists of names from the inside.
- *Theorems* (9): `Verif/NxFile/Props.lean`
- *Result*: Where it is false: axes with a colon in their name and an empty list of axes are not found again (axes_lost); a root without class becomes a subentry (root_subentry); parents above one with a class keep having none (class_stops). Missing: the contents of the steps, steps that are deleted, hard links.

### C97 Energies, names and order of interactions (partial)

After any chain of elastic and inelastic scattering the inverse energy is the inverse energy at the start plus the contribution of each inelastic angle, so the energy stays positive, does not grow and does not depend on the order of the angles. Two interactions are equal exactly when they are the same chain of interactions apart from energies and angles. An interaction sorts before its source only when energy was lost.

- *Code*: materials/interaction.py:8-74; utils/comparable.py:10-56
- *Model and proof*: Induction on the chain of interactions. Names are split at the first dash or bracket, which tells the kinds of interaction apart.
- *Not modelled*: Interactions as an inductive type; energies are rational numbers; the change of the inverse energy is a function of the angle that is not negative; names as lists of characters.
- *Theorems* (7): `Verif/Interact/Props.lean`
- *Result*: Where it is false: an inelastic scattering at angle zero has no energy, because the property calls itself (forward_fails); scattering at different angles is equal although one sorts before the other (angles_ignored). Missing: the conversion of the angle to a change of inverse energy (taken as not negative), energies and probabilities of fluorescence lines, comparison with other objects, rounding.


## Parts of the code that are not modelled

Wholly outside of the model: plots, reading of data and `xrfnormop` of `geometries/qxrf.py`, `geometries/flatarea.py`, `geometries/diode.py`, simulation, drawing and legends of `visualization/scene.py`, the other modules of `visualization`,
instruments, `detectors/area.py`, simulations of `materials/multilayer.py` (xrmc, fisx),
plots and signal to noise of `materials/xrayspectrum.py`, fits of `materials/pymca.py`, batch fits of images in `xrf/fit.py`, `io/excel.py`, `io/nexus.py`,
`io/xiaedftonexus.py`, `align/alignSift.py`, `align/alignElastix.py`, metadata and spectra of `process/nxpymca.py`,
databases (`compoundfromname`, `compoundfromnist`, `compoundfromcif`), command
line and test utilities.  They are numerical computations on external libraries, plotting or data.

## Deviations of the code found by reading that belong to no property

- `geometries/xrf.py`: an `XRFGeometry` without `distancefunc` cannot be used: `super(XRFGeometry, self).distance = d`
  raises AttributeError, the getter calls itself for ever; `LinearXRFGeometry.set_calibrc` calls a method the
  parent class does not have (it is called `_set_calibrc`); `LinearMotor.__call__` takes `zerodistance_rv` in both
  branches; the predefined geometries take `sign` and ignore `positionsign`.
- `materials/utils.py`: `reshape_spectrum_lines` drops `others`.
- `math/fit1d.py`: `np.full(vare, x.size)` has its arguments exchanged.
- `math/statistics.py`: the result for empty data is computed and discarded.
- `pipelines/run.py`: `run_parallel` passes wrong arguments; `pipelines/batch.py`: `ind + range` is a
  TypeError.
- `RegularGrid.__iadd__` and `Dark.__iadd__` return `None`.
- `localfs.copy` of a link passes the method `linkdest` instead of its result; `fs.Path.find` never
  recurses; `readonly` returns `None`.
- `detectors/diode.py`: `np.isfinite(r and r > 0)` in `gainfromresponse` is always true, so that a
  negative ratio raises a math domain error; the state of a diode drops attributes; for a diode
  behind the sample the transmission of its optics divides.
- `materials/multilayer.py`: `xraythicknessout` returns `xraythicknessin`; `transmission(decomposed=True)` returns
  absorbances; `__getstate__` loses the name; the lambda of `energy_to_index` binds its loop variable late, which is
  wrong for two or more interactions; `_rates_xrmc` and the absorbance of fixed layers in the refinement ignore
  the weights of the source.
- `materials/xrayspectrum.py`: `groupspectra` indexes a `zip` (TypeError in Python 3); `energysource` asks a value for its
  energy; the regions of `peakprofiles_selectioninfo` are an iterator that is empty the second time.
- `geometries/qxrf.py`: `quantinfo` calls `getxrfdistance`, which does not exist; the second `except` of the setter of
  `reference` is never reached; the branch of `_calibrate_dark` about currents is disabled by `and False`;
  `addsamplecovers` and `addtransmissionfilters` keep only the last of several filters without name.
- `instruments/configuration.py`: the optics of ID16B are a dictionary of one pair that is unpacked into four values.
- `math/utils.py`: `roundlist` uses `fractions.gcd`, which does not exist since Python 3.9.
- `visualization/scene.py`: the axis names of an image are looked up in `kwargs.get("kwargs", ...)` and ignored; `showaxes`
  calls `get_dataaxisx`, which does not exist; a polygon is given a `zip`; an image that is drawn already keeps its old
  pixels when it is updated; new coordinates of a scatter plot are written to another attribute and lost.
- `utils/comparable.py`: a class without its own `_sortkey` compares bound methods, so that `<` raises TypeError.
- `math/interpolate.py`: in two dimensions `interpolate_regular` with a degree above zero ignores `cval`.
- `process/nxpymca.py`: sorting the stack leaves the other stack axes unsorted; a reference flux of zero switches the normalization off; the
  fit of a measured sum is not corrected for dead time after the fit.
- `align.py`: the result of `.before` is discarded in `calccof`.


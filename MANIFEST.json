{
 "claims": [
  {
   "property": "C01",
   "status": "partial",
   "theorems": [
    "SC.Indexing.getitem_refines_numpy_partial",
    "SC.Indexing.getitem_lazy_partial",
    "SC.Indexing.getitem_bool_list_bug",
    "SC.Indexing.getitem_full_ellipsis_raises",
    "SC.Indexing.getitem_1d_raises",
    "SC.Indexing.getitem_accepts_bad_mask",
    "SC.Indexing.getitem_bool_scalar",
    "SC.Indexing.bool_scalar_numpy"
   ],
   "note": "Refinement of getitem to stack-then-index and laziness, for all shapes, axes and index tuples with lists of equal length; the excluded forms are shown to deviate (bool lists next to a list-indexed stack axis, full index plus ellipsis, 1-d non-tuple, wrong-length mask)."
  },
  {
   "property": "C02",
   "status": "partial",
   "theorems": [
    "SC.Indexing.shape_afterindexing_eq_partial",
    "SC.Indexing.axesorder_meaning_partial",
    "SC.Indexing.shape_afterindexing_no_broadcast"
   ],
   "note": "Predicted shape and meaning of the axis labels for all indices with lists of equal length; length-1 broadcasting raises (shape_afterindexing_no_broadcast)."
  },
  {
   "property": "C03",
   "status": "partial",
   "theorems": [
    "SC.Indexing.expand_same_selection",
    "SC.Indexing.expand_one_per_dim",
    "SC.Indexing.positiveaxis_spec",
    "SC.Indexing.axisindex_spec",
    "SC.Indexing.replace_one",
    "SC.Indexing.extract_newaxis_same_selection_partial",
    "SC.Indexing.move_axis_spec",
    "SC.Indexing.fulldim_spec"
   ],
   "note": "expand, positiveaxis, axisindex, replace, move_axis in full; extract_newaxis for lists of equal length."
  },
  {
   "property": "C04",
   "status": "partial",
   "theorems": [
    "SC.Slicing.slice_generator_partition",
    "SC.Slicing.slice_generator_length",
    "SC.Slicing.slice_generator_limit_partial",
    "SC.Slicing.slice_generator_maximal",
    "SC.Slicing.slice_generator_exceeds",
    "SC.Slicing.slice_generator_0d"
   ],
   "note": "Exact partition, entries per dimension and maximality in full; the size limit holds when the first dimension fits in it and is exceeded otherwise (slice_generator_exceeds)."
  },
  {
   "property": "C05",
   "status": "proved",
   "theorems": [
    "SC.Roi.clip_inBounds",
    "SC.Roi.clip_slice",
    "SC.Roi.clip_beyond_end",
    "SC.Roi.clip_idempotent",
    "SC.Roi.clip_inRange",
    "SC.Roi.cliproi_spec"
   ],
   "note": "cliproi bounds, Python-slice meaning, idempotence; lower bounds beyond the end deviate from the Python slice (clip_beyond_end)."
  },
  {
   "property": "C06",
   "status": "proved",
   "theorems": [
    "SC.Roi.mergeroi1d_union",
    "SC.Roi.mergeroi1d_separated",
    "SC.Roi.mergeroi1d_valid",
    "SC.Roi.mergeroi1d_perm",
    "SC.Roi.mergeroi1d_idempotent",
    "SC.Roi.mergeroi1d_reversed_order_dependent"
   ],
   "note": "Union, separation, validity, order independence and idempotence for any linear order."
  },
  {
   "property": "C07",
   "status": "proved",
   "theorems": [
    "SC.Cache.ldict_bounded",
    "SC.Cache.ldict_fifo",
    "SC.Cache.ldict_read",
    "SC.Cache.ldict_window",
    "SC.Cache.ldict_init",
    "SC.Cache.ldict_negative_limit"
   ],
   "note": "Refinement of LimitedSizeDict to a FIFO queue and last-write map over every history."
  },
  {
   "property": "C08",
   "status": "partial",
   "theorems": [
    "SC.Cache.scope_computes_once",
    "SC.Cache.inner_scope_transparent",
    "SC.Cache.exec_keeps",
    "SC.Cache.exec_restores_store_partial",
    "SC.Cache.leak_on_exception",
    "SC.Cache.stale_forever",
    "SC.Cache.read_outside_scope"
   ],
   "note": "Computed once / shared / restored on normal exit proved; restoring after an exception is false of the code (no finally) and refuted by leak_on_exception."
  },
  {
   "property": "C09",
   "status": "proved",
   "theorems": [
    "SC.IntBase.base2int_int2base",
    "SC.IntBase.int2base_spec",
    "SC.IntBase.int2base_length",
    "SC.IntBase.int2base_injective",
    "SC.IntBase.int2base_base2int",
    "SC.IntBase.base2int_int2base_neg",
    "SC.IntBase.base2int_foreign",
    "SC.IntBase.unary_loop_diverges"
   ],
   "note": "Round trip both ways, digits, length, injectivity; negative numbers do not read back (base2int_int2base_neg)."
  },
  {
   "property": "C10",
   "status": "proved",
   "theorems": [
    "SC.ListTools.unique2listsAdd_spec",
    "SC.ListTools.sumrepeats_spec",
    "SC.ListTools.unique2listsFirst_spec",
    "SC.ListTools.unique2lists_nil"
   ],
   "note": "Aggregation by key."
  },
  {
   "property": "C11",
   "status": "proved",
   "theorems": [
    "SC.Lut.lut_table",
    "SC.Lut.lut_order_independent",
    "SC.Lut.lut_call_empty",
    "SC.Lut.lut_call_key",
    "SC.Lut.lut_call_outside",
    "SC.Lut.lut_call_between",
    "SC.Lut.lut_call_bounded",
    "SC.Lut.lut_restore",
    "SC.Lut.lut_add_nothing",
    "SC.Lut.lut_length_mismatch",
    "SC.Lut.lut_len_empty"
   ],
   "note": "Every history of add/replace; evaluation at, between and outside keys; pickling. Adding nothing to an empty table and length mismatches deviate (lut_add_nothing, lut_length_mismatch)."
  },
  {
   "property": "C12",
   "status": "proved",
   "theorems": [
    "SC.ListTools.sort2lists_spec",
    "SC.ListTools.sort2lists_nil",
    "SC.ListTools.uniqueEverseen_spec",
    "SC.ListTools.uniqueEverseen_nodup",
    "SC.ListTools.swap_spec",
    "SC.ListTools.swap_involutive",
    "SC.ListTools.swap_error",
    "SC.ListTools.move_spec",
    "SC.ListTools.move_perm",
    "SC.ListTools.move_inverse",
    "SC.ListTools.roll_spec",
    "SC.ListTools.roll_neg",
    "SC.ListTools.roll_neg_not_inverse",
    "SC.ListTools.roll_inverse",
    "SC.ListTools.flatten_spec",
    "SC.ListTools.flatten_idempotent",
    "SC.ListTools.listadvancedBool_filter",
    "SC.ListTools.listadvancedBool_partition",
    "SC.ListTools.listadvancedInt_spec",
    "SC.ListTools.where_select"
   ],
   "note": "sort2lists, move, swap, roll, flatten, unique_everseen, selection; roll ignores the sign (roll_neg)."
  },
  {
   "property": "C13",
   "status": "partial",
   "theorems": [
    "SC.Linop.mul_eval_partial",
    "SC.Linop.product_eval_partial",
    "SC.Linop.product_eval_left_partial",
    "SC.Linop.pow_eval_partial",
    "SC.Linop.inverse_apply_partial",
    "SC.Linop.inverse_sound_partial",
    "SC.Linop.mul_zero_slope",
    "SC.Linop.pow_zero_wrong",
    "SC.Linop.pow_drops_right",
    "SC.Linop.inverse_inverse_clip"
   ],
   "note": "Composition, powers (exponent at least 1, without opright) and inverses of chains of linear, clip, NaN-clip and lambda operators over floats with NaN and infinities, slopes non-zero; the excluded cases deviate (mul_zero_slope, pow_zero_wrong, pow_drops_right, inverse_inverse_clip)."
  },
  {
   "property": "C14",
   "status": "partial",
   "theorems": [
    "SC.Transform.hom_before",
    "SC.Transform.hom_after",
    "SC.Transform.hom_sequence",
    "SC.Transform.inverse_spec",
    "SC.Transform.inverse_singular",
    "SC.Transform.newFrame_spec",
    "SC.Transform.coordinates_inverse_spec",
    "SC.Transform.coordinates_spec",
    "SC.Transform.coordinates_after",
    "SC.Transform.coordinates_inverse",
    "SC.Transform.combine_type",
    "SC.Transform.inverse_type",
    "SC.Transform.samplePoint_partial",
    "SC.Transform.samplePoint_wrong",
    "SC.Transform.samplePoint_projective_ignored",
    "SC.Transform.dotinplace_spec",
    "SC.Transform.newFrameInplace_spec",
    "SC.Transform.newFrameInplace_self",
    "SC.Transform.copy_shares",
    "SC.Transform.settranslation_get",
    "SC.Transform.setlinear_get",
    "SC.Transform.getaffine_wrong",
    "SC.Transform.setprojective_type_wrong",
    "SC.Transform.setrigid_translation",
    "SC.Transform.fromtransform_broken",
    "SC.Transform.translation_homogeneous"
   ],
   "note": "Composition, inversion, change of frame, coordinates, type promises and in-place variants in full over any field; image sampling for equal diagonal coefficients. Refuted parts: samplePoint_wrong, newFrameInplace_self, copy_shares, getaffine_wrong, setprojective_type_wrong, setrigid_translation, fromtransform_broken, translation_homogeneous."
  },
  {
   "property": "C15",
   "status": "proved",
   "theorems": [
    "SC.Stoich.conversions_correct",
    "SC.Stoich.densities_correct",
    "SC.Stoich.roundtrips",
    "SC.Stoich.addFrac_spec",
    "SC.Stoich.addFrac_refuses"
   ],
   "note": "All six conversions and the density and molar-mass helpers against a mixture of masses, molar masses and densities over any ordered field; round trips; add_frac."
  },
  {
   "property": "C16",
   "status": "proved",
   "theorems": [
    "SC.Noise.reverseAdd_spec",
    "SC.Noise.reverseAdd_sound",
    "SC.Noise.reverseAdd_none",
    "SC.Noise.reverseSub_spec",
    "SC.Noise.reverseSub_sound",
    "SC.Noise.reverseMult_spec",
    "SC.Noise.reverseMult_sound",
    "SC.Noise.reverseDiv_spec",
    "SC.Noise.reverseDiv_sound",
    "SC.Noise.reverseLog_spec",
    "SC.Noise.reverseLog_total",
    "SC.Noise.repeat_roundtrip",
    "SC.Noise.repeat_snr",
    "SC.Noise.repeat_repeat",
    "SC.Noise.repeat_is_sum",
    "SC.Noise.compound_roundtrip",
    "SC.Noise.compound_fixed",
    "SC.Noise.compound_poisson_bernouilli",
    "SC.Noise.compound_assoc",
    "SC.Noise.compound_total"
   ],
   "note": "Reverse operations against linear propagation over the reals, both directions; repeat against the variance of independent sums; compound against the law of total variance for finitely supported counts."
  },
  {
   "property": "C17",
   "status": "partial",
   "theorems": [
    "SC.ParamTree.getitem_nearest",
    "SC.ParamTree.keys_spec",
    "SC.ParamTree.setitem_get",
    "SC.ParamTree.setitem_local",
    "SC.ParamTree.setitem_inherited",
    "SC.ParamTree.deleteLocal_restores",
    "SC.ParamTree.delitem_spec",
    "SC.ParamTree.updateRecursive_single",
    "SC.ParamTree.remove_spec",
    "SC.ParamTree.insertBefore_new",
    "SC.ParamTree.insertBefore_root",
    "SC.ParamTree.insertAfter_default",
    "SC.ParamTree.insertAfter_new",
    "SC.ParamTree.branch_spec",
    "SC.ParamTree.run_wf",
    "SC.ParamTree.run_getitem",
    "SC.ParamTree.equal_value_not_stored",
    "SC.ParamTree.SubNode.getSub_own",
    "SC.ParamTree.SubNode.getSub_parent_partial",
    "SC.ParamTree.SubNode.getSub_grandparent",
    "SC.ParamTree.SubNode.getSub_mutates"
   ],
   "note": "Every tree and history of atomic parameters in full (reading, setting, resetting, moving, inserting, removing, keys); mappings as values (SubNode) inherit only from the parent (getSub_grandparent, getSub_mutates); a value equal to the inherited one is not stored (equal_value_not_stored)."
  },
  {
   "property": "C18",
   "status": "partial",
   "theorems": [
    "SC.Process.others_untouched",
    "SC.Process.no_partial_result",
    "SC.Process.all_or_nothing_partial",
    "SC.Process.body_exception",
    "SC.Process.success",
    "SC.Process.answered_not_run",
    "SC.Process.second_run",
    "SC.Process.killed_before_move",
    "SC.Process.signal_before_move",
    "SC.Process.setup_failure",
    "SC.Process.signal_in_setup",
    "SC.Process.default_raises",
    "SC.Process.stale_cache",
    "SC.Process.nested_directory",
    "SC.Process.leftover_reused",
    "SC.Process.skipped_only_if_done"
   ],
   "note": "A run as a machine whose schedules interleave its steps with exceptions, kills, signals, other programs and further runs, without bound. Proved for all schedules: existing nodes are untouched and every node at a name the task looks for is an old one, somebody else's, or a complete result. Proved for runs disturbed by exceptions only: everything as before or exactly one new complete process and its directory; a second run does not compute. Missing because false: the directory of the result after a kill or signal between rename and move (killed_before_move, signal_before_move), leftovers of a failing setup or a signal (setup_failure, signal_in_setup), set_default may raise after the result is in place (default_raises), an existing directory (nested_directory), a cached existence (stale_cache), reuse of leftovers (leftover_reused). Removing does not fail in the model."
  },
  {
   "property": "C19",
   "status": "partial",
   "theorems": [
    "SC.Process.find_sound",
    "SC.Process.find_complete",
    "SC.Process.nxprocess_spec",
    "SC.Process.nxprocess_name",
    "SC.Process.nxprocess_total",
    "SC.Process.nxprocess_again_partial",
    "SC.Process.request_dict_order",
    "SC.Process.answer_inj_deps",
    "SC.Process.answer_inj_nodeps",
    "SC.Process.index_after_deps",
    "SC.Process.deps_params_collide",
    "SC.Process.dict_list_request",
    "SC.Process.unstable_not_found",
    "SC.Process.missing_entry_searches_all"
   ],
   "note": "All files, requests and digest functions: soundness and completeness of the search, the effect of a request, its termination, and that asking again gives the same process. Stored parameters are assumed to keep their hash and links their checksum (else unstable_not_found). Without collisions the checksum identifies parameters and dependencies among requests with dependencies, and among those without. Missing because false: dependencies and parameters are not kept apart (deps_params_collide), a dictionary with one item equals a list (dict_list_request), a missing entry makes the search global (missing_entry_searches_all)."
  },
  {
   "property": "C20",
   "status": "partial",
   "theorems": [
    "SC.Signals.idle_handlers",
    "SC.Signals.handlers_two",
    "SC.Signals.finished_partial",
    "SC.Signals.at_most_once_partial",
    "SC.Signals.exactly_once_partial",
    "SC.Signals.after_end",
    "SC.Signals.signal_cleanup",
    "SC.Signals.teardown_twice",
    "SC.Signals.setup_raises",
    "SC.Signals.setup_raises_later",
    "SC.Signals.teardown_raises",
    "SC.Signals.teardown_raises_in_handler",
    "SC.Signals.signal_while_replacing",
    "SC.Signals.unknown_handler",
    "SC.Signals.default_swallowed",
    "SC.Signals.signal_in_setup",
    "SC.Signals.enter_installs"
   ],
   "note": "HandleTermination as a machine whose schedules interleave instructions, signals (nested, several) and exceptions without bound. Proved for every schedule: while no cleanup is needed the original handlers are installed; a with statement that ends without exception from setup or cleanup has called the teardown and restored the handlers. Proved for calm schedules: exactly once. Missing because false: a second signal during the teardown (teardown_twice), exceptions of setup (setup_raises) or teardown (teardown_raises, teardown_raises_in_handler), a signal while the handlers are replaced (signal_while_replacing), handlers not installed from Python (unknown_handler), default handlers are never resent (default_swallowed)."
  },
  {
   "property": "C21",
   "status": "partial",
   "theorems": [
    "SC.H5.open_spec",
    "SC.H5.open_attempts",
    "SC.H5.open_handle_iff",
    "SC.H5.open_mono",
    "SC.H5.open_reraise",
    "SC.H5.open_missing",
    "SC.H5.open_exclusive",
    "SC.H5.errno_known",
    "SC.H5.last_error_lost",
    "SC.H5.no_retries",
    "SC.H5.name_confuses",
    "SC.H5.errno_number",
    "SC.H5.errno_message"
   ],
   "note": "Complete behaviour for every sequence of outcomes: at most the configured attempts, first decisive attempt decides, handle of the first success. Missing because false: the last error is not raised again but replaced by LockedError (last_error_lost); no attempt at all with zero retries (no_retries)."
  },
  {
   "property": "C22",
   "status": "partial",
   "theorems": [
    "SC.H5.Modes.fopen_read",
    "SC.H5.Modes.fopen_exclusive",
    "SC.H5.Modes.fopen_append",
    "SC.H5.Modes.fopen_create",
    "SC.H5.Modes.fopen_write_dataset",
    "SC.H5.Modes.fopen_write_kind",
    "SC.H5.Modes.fopen_readonly",
    "SC.H5.Modes.fopen_wf",
    "SC.H5.Modes.fopen_error_partial",
    "SC.H5.Modes.deviceMode_spec",
    "SC.H5.Modes.open_read_partial",
    "SC.H5.Modes.open_readonly",
    "SC.H5.Modes.open_existing_partial",
    "SC.H5.Modes.open_nested",
    "SC.H5.Modes.open_rplus_missing",
    "SC.H5.Modes.wminus_refused",
    "SC.H5.Modes.read_truncates",
    "SC.H5.Modes.read_creates",
    "SC.H5.Modes.rplus_creates",
    "SC.H5.Modes.write_destroys_group",
    "SC.H5.Modes.write_destroys_dataset",
    "SC.H5.Modes.append_without_arguments"
   ],
   "note": "All modes, kinds of node and file contents; frame conditions for every path. Proved for devices of mode r, r+ and a, and inside of an open device of any mode. Missing because false: devices of mode w truncate on every access (read_truncates), devices of mode x create on reading (read_creates), r+ nodes create the file (rplus_creates), mode w destroys before it fails (write_destroys_group, write_destroys_dataset), mode a without arguments does not create."
  },
  {
   "property": "C23",
   "status": "partial",
   "theorems": [
    "SC.NXdata.bookkeeping_partial",
    "SC.NXdata.no_signal_lost",
    "SC.NXdata.add_is_default",
    "SC.NXdata.default_signal_spec",
    "SC.NXdata.remove_signal_spec",
    "SC.NXdata.sort_signals_spec",
    "SC.NXdata.set_default_spec",
    "SC.NXdata.set_default_none",
    "SC.NXdata.readd_duplicates",
    "SC.NXdata.remove_only_stale",
    "SC.NXdata.bookkeeping_false",
    "SC.NXdata.sort_none_raises"
   ],
   "note": "All histories from a group with any datasets: no signal is lost and there is a default (no_signal_lost); the effect of each operation after any history; set_default over several groups. Distinctness and exact agreement with the abstract history for all histories that neither add a signal again without creating it nor remove the only signal. Missing because false: re-adding duplicates (readd_duplicates), removing the only signal leaves a stale default (remove_only_stale, bookkeeping_false); sorting without signals raises."
  },
  {
   "property": "C24",
   "status": "partial",
   "theorems": [
    "SC.Axis.regular_consistent",
    "SC.Axis.regular_no_steps",
    "SC.Axis.regularInc_consistent",
    "SC.Axis.regular_inc_agree",
    "SC.Axis.number_consistent",
    "SC.Axis.setSize_spec",
    "SC.Axis.incSize_spec",
    "SC.Axis.setStart_grows",
    "SC.Axis.incStart_grows",
    "SC.Axis.zapscan_spec",
    "SC.Axis.ascan_spec",
    "SC.Axis.segments_consistent",
    "SC.Axis.segments_endStep_two",
    "SC.Axis.segments_endStep_wrong",
    "SC.Axis.roundEven_near",
    "SC.Axis.setSteps_exact",
    "SC.Axis.simplify_close",
    "SC.Axis.simplify_exact",
    "SC.Axis.simplify_moves",
    "SC.Axis.simplify_empty",
    "SC.Axis.closest_spec",
    "SC.Axis.closest_self",
    "SC.Axis.closestString_spec",
    "SC.Axis.argIndex_spec",
    "SC.Axis.simplify_prog",
    "SC.Axis.newstart_spec",
    "SC.Axis.newend_spec",
    "SC.Axis.newlimits_spec",
    "SC.Axis.newstart_irregular",
    "SC.Axis.newlimits_raises",
    "SC.Axis.interpolate_spec",
    "SC.Axis.axisEq_iff",
    "SC.Axis.axisEq_refl",
    "SC.Axis.axisEq_symm",
    "SC.Axis.axisEq_zero",
    "SC.Axis.axisEq_not_equivalence"
   ],
   "note": "Over exact rational numbers and any sizes. Regular, incremental, single and segmented axes agree with their values; simplification is exact with the default precision and bounded by precision*(n-1)^2/8 otherwise; nearest index is the first minimiser; newstart/newend/newlimits on regular axes; interpolate; equality. Missing because false: end of a regular axis without steps (regular_no_steps), start/end/step setters grow the axis (setStart_grows, incStart_grows), end_stepsize of segmented axes (segments_endStep_wrong), simplification may move values by more than the precision (simplify_moves), cropping irregular axes (newstart_irregular) and to one point (newlimits_raises), equality is not symmetric or transitive (axisEq_not_equivalence). Unit conversion and float rounding are not modelled."
  },
  {
   "property": "C25",
   "status": "partial",
   "theorems": [
    "SC.Crop.sliced_eq_unsliced",
    "SC.Crop.bounding_box",
    "SC.Crop.none_iff",
    "SC.Crop.full_box",
    "SC.Crop.full_exact",
    "SC.Crop.full_none",
    "SC.Crop.crop_whole",
    "SC.Crop.sliced_crop",
    "SC.Crop.crop_applies",
    "SC.Crop.user_roi",
    "SC.Crop.full_drops",
    "SC.Crop.other_nan",
    "SC.Crop.empty_raises",
    "SC.Crop.user_beyond"
   ],
   "note": "Every array, dimension, nanval. nanfull=False: exactly the bounding box of the common valid pixels; sliced and unsliced agree; every ROI can be applied, slice by slice or at once. nanfull=True: inside the bounding box and exact whenever the valid pixels form a box. Missing because false: with nanfull=True (the default) valid pixels may be dropped (full_drops), a NaN that is not the object np.nan crops nothing (other_nan), empty images raise (empty_raises), user ROIs beyond the image (user_beyond). HDF5 storage and the new axes are not modelled."
  },
  {
   "property": "C26",
   "status": "partial",
   "theorems": [
    "SC.Merge.match_spec",
    "SC.Merge.match_none",
    "SC.Merge.match_equal",
    "SC.Merge.match_unchanged_empty",
    "SC.Merge.tile_spec",
    "SC.Merge.max_spec",
    "SC.Merge.tile_too_many",
    "SC.Merge.tile_rank_overlap",
    "SC.Merge.tile_mesh_partial",
    "SC.Merge.tile_incomplete_loses",
    "SC.Merge.stack_same_partial",
    "SC.Merge.stack_mesh_partial",
    "SC.Merge.bliss_not_reshaped",
    "SC.Merge.tile_detector_raises",
    "SC.Merge.tile_long_raises",
    "SC.Merge.tile_short_raises",
    "SC.Merge.stack_scrambles",
    "SC.Merge.stack_mesh_scrambles"
   ],
   "note": "All shapes, tile shapes, orders: tile blocks have the dataset's shape, lie in the layout in the tile of their number and are pairwise disjoint (data and tiles of equal rank); match_shapes reduces last dimensions only, to the largest common size. Element-wise for the merged datasets: tiled and stacked one-dimensional scans on a mesh, stacked scans of any lengths with the same detector. Missing because false: unchanged shapes are returned empty (match_unchanged_empty), more tile than data dimensions overlap (tile_rank_overlap), points of incomplete rows are lost (tile_incomplete_loses), detectors with incomplete maps (tile_detector_raises, stack_mesh_scrambles), different detector shapes (stack_scrambles), longer or shorter scans (tile_long_raises, tile_short_raises), the Bliss mesh is never used (bliss_not_reshaped)."
  },
  {
   "property": "C27",
   "status": "partial",
   "theorems": [
    "SC.Align.dest_size",
    "SC.Align.transform_size",
    "SC.Align.transform_pixel",
    "SC.Align.alignCall_fits",
    "SC.Align.axes_partial",
    "SC.Align.newAxis_spec",
    "SC.Align.cons_alignCalls",
    "SC.Align.single_row_axis_deviation"
   ],
   "note": "Translations (rational), any image size, any sequence of align calls on one object: the predicted size is the size of every transformed image (dest_size); pixel-exact for whole-pixel translations (transform_pixel); axes have that length, the original values inside and the straight continuation outside whenever a padded axis has two values and one image keeps its place (axes_partial; C47 shows that the reference does). Missing because false: an axis with one value cannot be padded (single_row_axis_deviation). Other transformations and pre-transformations are not modelled."
  },
  {
   "property": "C28",
   "status": "partial",
   "theorems": [
    "SC.Xia.parse_sound",
    "SC.Xia.parse_complete",
    "SC.Xia.xia_roundtrip",
    "SC.Xia.mca_roundtrip",
    "SC.Xia.spectra_roundtrip_iff",
    "SC.Xia.counter_roundtrip_iff",
    "SC.Xia.roundTrips_iff",
    "SC.Xia.parse_path",
    "SC.Xia.xiagroup_lookup",
    "SC.Xia.xiagroup_leaves",
    "SC.Xia.xiagroup_keys",
    "SC.Xia.xiagroup_partition",
    "SC.Xia.xiagroup_fails",
    "SC.Xia.parseAll_some",
    "SC.Xia.parseAll_none",
    "SC.Xia.xiagrouplines_partition",
    "SC.Xia.xiagroupmaps_partition",
    "SC.Xia.mapKey_inj",
    "SC.Xia.xiagroupmaps2_partition",
    "SC.Xia.xiagroupdetectors_last",
    "SC.Xia.xiagroupdetectors_partial",
    "SC.Xia.matchDetector_spec",
    "SC.Xia.matchDetector_isSome",
    "SC.Xia.matchDetector_separated",
    "SC.Xia.xiaparselabel_detector",
    "SC.Xia.xiaparselabel_underscores",
    "SC.Xia.xiaparselabel_nodetector",
    "SC.Xia.xiaparselabel_other",
    "SC.Xia.parse_label",
    "SC.Xia.radix_with_counter",
    "SC.Xia.label_with_counter",
    "SC.Xia.counter_as_spectra",
    "SC.Xia.negative_number",
    "SC.Xia.digits_not_kept",
    "SC.Xia.any_extension_dot",
    "SC.Xia.xiagroupdetectors_loses_lines",
    "SC.Xia.xiagroupdetectors_same_key",
    "SC.Xia.xiagroupmaps_loses_radix",
    "SC.Xia.xiagrouplines_loses_map"
   ],
   "note": "All strings, numbers, labels, lists of files and additional (literal) counter names. Exactly which names round-trip: spectra iff the label is xia?? or mca; counters iff radix and label can be told apart (roundTrips_iff). parse is characterised for every string (parse_sound, parse_complete). xiagroup is a partition ordered by label for every list of files, xiagroupmaps, xiagrouplines and xiagroupmaps2 for files agreeing in what they ignore. Missing because false: names with a counter in the radix or label (radix_with_counter, label_with_counter, counter_as_spectra), negative numbers (negative_number), xiagroupdetectors keeps only the last group per detector and label (xiagroupdetectors_loses_lines), xiagroupmaps ignores the radix (xiagroupmaps_loses_radix), xiagrouplines ignores the map (xiagrouplines_loses_map)."
  },
  {
   "property": "C29",
   "status": "partial",
   "theorems": [
    "SC.XiaStats.saved_cell",
    "SC.XiaStats.save_read",
    "SC.XiaStats.save_load",
    "SC.XiaStats.save_load_default",
    "SC.XiaStats.save_load_iff",
    "SC.XiaStats.restricted_all",
    "SC.XiaStats.default_label_name_iff",
    "SC.XiaStats.toNumber_pad",
    "SC.XiaStats.toNumber_xia_pad",
    "SC.XiaStats.labels_swap_stats",
    "SC.XiaStats.labels_raise",
    "SC.XiaStats.label_without_number",
    "SC.XiaStats.other_nstats_scrambled",
    "SC.XiaStats.other_nstats_raise",
    "SC.XiaStats.default_label_100"
   ],
   "note": "All numbers of spectra and detectors, all values. The array read back is the array saved (six statistics); every selection of detectors and of ICR/OCR gets its own statistics with default labels, and for given labels exactly when each label carries its position (save_load_iff). Missing because false: other labels (labels_swap_stats, labels_raise, label_without_number), other numbers of statistics (other_nstats_scrambled, other_nstats_raise), file names from detector 100 on (default_label_name_iff). The EDF file is taken to return the saved image; integer overflow is not modelled."
  },
  {
   "property": "C30",
   "status": "proved",
   "theorems": [
    "SC.XiaStats.deadtime_valid",
    "SC.XiaStats.deadtime_invalid",
    "SC.XiaStats.deadtime_finite",
    "SC.XiaStats.normalizer_spec",
    "SC.XiaStats.normalizer_length",
    "SC.XiaStats.corrected_finite",
    "SC.XiaStats.low_rates_uncorrected",
    "SC.XiaStats.nan_monitor"
   ],
   "note": "Over floats without rounding (NaN, infinities, unsigned zero), arrays of any length. Valid rates: finite, icr at least 1000, ocr not 0, ratio at least 1. A NaN monitor stays NaN (nan_monitor)."
  },
  {
   "property": "C31",
   "status": "partial",
   "theorems": [
    "SC.Polar.stokes_roundtrip",
    "SC.Polar.coherency_roundtrip",
    "SC.Polar.jones_to_stokes",
    "SC.Polar.jones_dop",
    "SC.Polar.ofCoherency_pure",
    "SC.Polar.decompose_spec",
    "SC.Polar.unpolarized_nonneg_iff",
    "SC.Polar.toJones_spec",
    "SC.Polar.ofCoherency_coherency",
    "SC.Polar.jones_roundtrip",
    "SC.Polar.represents_jones",
    "SC.Polar.represents_mul",
    "SC.Polar.rotation_represents",
    "SC.Polar.rotate_agree",
    "SC.Polar.rotate_invariants",
    "SC.Polar.rotate_intensity_jones",
    "SC.Polar.rotate_add",
    "SC.Polar.rotate_zero",
    "SC.Polar.rotate_polangle",
    "SC.Polar.thomson_represents",
    "SC.Polar.thomson_agree",
    "SC.Polar.thomson_jones_iff",
    "SC.Polar.thomson_textbook",
    "SC.Polar.thomson_intensity",
    "SC.Polar.thomson_deficit",
    "SC.Polar.physical_dop",
    "SC.Polar.thomson_physical",
    "SC.Polar.compton_intensity",
    "SC.Polar.klein_nishina",
    "SC.Polar.compton_forward",
    "SC.Polar.jones_to_mueller_iff",
    "SC.Polar.jones_to_mueller_rotation",
    "SC.Polar.setIntensity_spec",
    "SC.Polar.jones_setIntensity_spec",
    "SC.Polar.phaseDifference_agree",
    "SC.Polar.params_roundtrip_partial",
    "SC.Polar.jones_params_roundtrip_partial",
    "SC.Polar.efield_quarter",
    "SC.Polar.phase_lost",
    "SC.Polar.thomson_phase_lost",
    "SC.Polar.unphysical_accepted"
   ],
   "note": "Real and complex numbers without rounding; all Stokes vectors, Jones vectors and angles. Round trips through the coherency matrix, Jones to Stokes and back, decomposition, rotations and Thomson scattering of Jones and Stokes vectors agree, Thomson intensity is the textbook one (thomson_textbook), Compton intensity of an unpolarized wave is Klein-Nishina. Missing because false: jones_to_mueller is right exactly for symmetric Jones matrices (jones_to_mueller_iff, jones_to_mueller_rotation); the phase is lost when the first component is zero (jones_roundtrip is an iff, phase_lost, thomson_phase_lost). Missing: parameters of a wave polarized at 45 degrees, where from_params takes the tangent of 90 degrees (params_roundtrip_partial)."
  },
  {
   "property": "C32",
   "status": "proved",
   "theorems": [
    "SC.Ft.freqind_spec",
    "SC.Ft.freqs_spec",
    "SC.Ft.freqs_cover",
    "SC.Ft.freqs_centered",
    "SC.Ft.conventions_differ",
    "SC.Ft.fftshift_spec",
    "SC.Ft.ifftshift_spec",
    "SC.Ft.shift_inverse",
    "SC.Ft.ishift_inverse",
    "SC.Ft.fftshift_freqs",
    "SC.Ft.mixed_conventions",
    "SC.Ft.fft_spec",
    "SC.Ft.ifft_region",
    "SC.Ft.ifft_spec",
    "SC.Ft.ifft_fft",
    "SC.Ft.fft_ifft",
    "SC.Ft.mixed_norm",
    "SC.Ft.ifft_region_pixels",
    "SC.Ft.ifft_super",
    "SC.Ft.dft_empty",
    "SC.Ft.fft_linear",
    "SC.Ft.fft2_spec",
    "SC.Ft.ifft2_region",
    "SC.Ft.ifft2_super",
    "SC.Ft.ifft2_spec",
    "SC.Ft.ifft2_fft2",
    "SC.Ft.fft2_ifft2"
   ],
   "note": "All lengths and shapes, both conventions, any pixel size; real and complex numbers without rounding; np.fft by its documented definition. Exactly when mixing the two conventions is harmless is mixed_conventions; mixing the normalizations multiplies by the length (mixed_norm)."
  },
  {
   "property": "C33",
   "status": "partial",
   "theorems": [
    "SC.Expression.compile_spec",
    "SC.Expression.eval_spec",
    "SC.Expression.stands_iff",
    "SC.Expression.findall_spec",
    "SC.Expression.parseExpression_spec",
    "SC.Expression.calculate_values",
    "SC.Expression.calculate_spec_partial",
    "SC.Expression.fourth_placeholder",
    "SC.Expression.target_alone",
    "SC.Expression.no_target",
    "SC.Expression.replaced_everywhere",
    "SC.Expression.unknown_function",
    "SC.Expression.sign_before_power",
    "SC.Expression.findall_found"
   ],
   "note": "Any text, white space and size; the numbers are any algebra of operations. The compiled expression is the postfix code of the formula and evaluating it gives the formula's value (compile_spec, eval_spec); placeholders are exactly the texts in braces (stands_iff, findall_spec) and renaming keeps the formula. calculate_spec_partial: formulas with at most three fixed placeholders whose functions exist, where the missing values replaced in one operand don't concern variables of the other. Missing because false: the fourth placeholder is read as Euler's number (fourth_placeholder), a formula of the target alone is not evaluated (target_alone), missing values are replaced in place (replaced_everywhere), unknown functions (unknown_function), a sign binds stronger than a power (sign_before_power). pyparsing is modelled by its documented semantics."
  },
  {
   "property": "C34",
   "status": "partial",
   "theorems": [
    "SC.XiaConfig.scope_restores",
    "SC.XiaConfig.scope_value",
    "SC.XiaConfig.scope_raised",
    "SC.XiaConfig.iter_restores",
    "SC.XiaConfig.iter_alone",
    "SC.XiaConfig.iter_visits",
    "SC.XiaConfig.nesting_restores",
    "SC.XiaConfig.nesting_raised",
    "SC.XiaConfig.detectors_restored",
    "SC.XiaConfig.stays_frozen",
    "SC.XiaConfig.scope_freezes",
    "SC.XiaConfig.handled_not_restored",
    "SC.XiaConfig.frozen_after_scope",
    "SC.XiaConfig.mca_not_selected",
    "SC.XiaConfig.used_iff"
   ],
   "note": "Blocks that don't raise restore the settings for any body (scope_restores, nesting_restores); loops over detectors restore the selection however they are left, as CPython closes the generator (iter_restores), and visit each selected detector alone and in order (iter_visits, iter_alone). nesting_raised tells exactly what remains after an exception. Missing because false: exceptions leave the settings of the innermost scope (handled_not_restored); the levels stay frozen for good (scope_freezes, stays_frozen, frozen_after_scope); files labelled mca are visited with nothing selected (mca_not_selected)."
  },
  {
   "property": "C35",
   "status": "partial",
   "theorems": [
    "SC.Pipeline.returned_true",
    "SC.Pipeline.returned_false",
    "SC.Pipeline.raised_iff",
    "SC.Pipeline.executed_in_order",
    "SC.Pipeline.all_done",
    "SC.Pipeline.first_failure",
    "SC.Pipeline.succeeds",
    "SC.Pipeline.resumes",
    "SC.Pipeline.missing_dependency",
    "SC.Pipeline.process_spec",
    "SC.Pipeline.fluoxas_chained",
    "SC.Pipeline.fluoxas_steps_partial",
    "SC.Pipeline.fluoxas_exists",
    "SC.Pipeline.fluoxas_succeeds",
    "SC.Pipeline.ffxas_chained",
    "SC.Pipeline.ffxas_succeeds",
    "SC.Pipeline.ffxas_normalized_iff",
    "SC.Pipeline.remembers_removed",
    "SC.Pipeline.removed_by_later",
    "SC.Pipeline.raises_outside",
    "SC.Pipeline.prenormalize_ignored",
    "SC.Pipeline.geometry_needs_place",
    "SC.Pipeline.ffxas_not_normalized",
    "SC.Pipeline.ffxas_steps"
   ],
   "note": "Any tasks, worlds and task lists: True exactly when all tasks were run in order and each was done afterwards (returned_true), False exactly when one was not, after which none is run (returned_false), an exception exactly when an output folder can't be made (raised_iff); order (executed_in_order). For tasks that keep each other's outputs and objects that remember nothing wrong: all outputs are there at the end (all_done), the first failure (first_failure), success when tasks work and follow their dependencies (succeeds), running again executes exactly what is missing (resumes), messages name exactly the unfinished tasks (process_spec). The fluoxas and full-field pipelines are in dependency order for all parameters. Missing because false: remembers_removed, removed_by_later, raises_outside, prenormalize_ignored, geometry_needs_place, ffxas_not_normalized. run_parallel is not modelled."
  },
  {
   "property": "C36",
   "status": "partial",
   "theorems": [
    "SC.Paths.norm_spec",
    "SC.Paths.norm_norm",
    "SC.Paths.norm_cwd",
    "SC.Paths.getitem_spec",
    "SC.Paths.getitem_absolute",
    "SC.Paths.child_spec",
    "SC.Paths.child_inj",
    "SC.Paths.parent_child",
    "SC.Paths.root_spec",
    "SC.Paths.getitem_getitem",
    "SC.Paths.relpath_roundtrip",
    "SC.Paths.relpath_norm",
    "SC.Paths.relpath_shortest",
    "SC.Paths.iterup_spec",
    "SC.Paths.root_is",
    "SC.Paths.common_spec",
    "SC.Paths.common_above",
    "SC.Paths.sibling_spec",
    "SC.Paths.link_roundtrip",
    "SC.Paths.h5link_roundtrip",
    "SC.Paths.relink_absolute",
    "SC.Paths.relink_relative",
    "SC.Paths.devsplit_glue",
    "SC.Paths.devsplit_iff",
    "SC.Paths.splitPath_own",
    "SC.Paths.splitPath_local",
    "SC.Paths.splitPath_file",
    "SC.Paths.init_location",
    "SC.Paths.location_roundtrip",
    "SC.Paths.init_local",
    "SC.Paths.h5Getitem_spec",
    "SC.Paths.factory_location",
    "SC.Paths.factory_other",
    "SC.Paths.h5Sibling_spec",
    "SC.Paths.relpath_root_counterexample",
    "SC.Paths.iadd_counterexample",
    "SC.Paths.getitem_name_counterexample",
    "SC.Paths.factory_prefix_counterexample",
    "SC.Paths.init_noext_counterexample",
    "SC.Paths.getitem_prefix_counterexample",
    "SC.Paths.init_greedy_counterexample",
    "SC.Paths.splitPath_doc_counterexample",
    "SC.Paths.relink_inside_counterexample"
   ],
   "note": "All texts and all normalized paths (posixpath after its source, os.sep '/'). Normalization, joining, parent and name, relative paths, ancestors, common ancestor, siblings, text of links and relinking after a move; splitting into file and node recombines for every text (devsplit_glue), own locations are always split right (splitPath_own) and `p[v]`, factory, sibling and location stay consistent under the stated conditions on the text. Missing because false: paths with different roots (relpath_root_counterexample), append (iadd_counterexample), node names with an extension and '::' (getitem_name_counterexample, splitPath_doc_counterexample), files whose path starts with the path of this file (factory_prefix_counterexample), files without extension (init_noext_counterexample), nodes starting with the path of the file (getitem_prefix_counterexample), '::' in the first name (init_greedy_counterexample), copies into themselves (relink_inside_counterexample)."
  },
  {
   "property": "C37",
   "status": "partial",
   "theorems": [
    "SC.Naming.fresh_numbered_partial",
    "SC.Naming.fresh_unnumbered_partial",
    "SC.Naming.nonexistingName_partial",
    "SC.Naming.fresh_matches_partial",
    "SC.Naming.increment_numbered_partial",
    "SC.Naming.increment_unnumbered_partial",
    "SC.Naming.increment_add",
    "SC.Naming.prepare_spec",
    "SC.Naming.match_numbered",
    "SC.Naming.match_unnumbered",
    "SC.Naming.braces_diverge",
    "SC.Naming.braces_raise",
    "SC.Naming.unlock_locks",
    "SC.Naming.locked_diverges",
    "SC.Naming.nonexistingName_paren_partial",
    "SC.Naming.parenGroups_complete",
    "SC.Naming.add_reset"
   ],
   "note": "Proved for all finite sets of existing names and all names without braces: the search ends within |existing| steps, the result is new, differs in the last number only, keeps prefix, suffix and zero padding, and is the first such name; nonexisting_name and the matching regular expressions are characterised. Missing: names with braces, for which the claim is false (braces_diverge: endless search, braces_raise: exception); a locked name is never incremented and cannot be unlocked (unlock_locks, locked_diverges)."
  },
  {
   "property": "C38",
   "status": "partial",
   "theorems": [
    "SC.Hashing.calchash_same_partial",
    "SC.Hashing.calchash_isSome",
    "SC.Hashing.calchash_set_order",
    "SC.Hashing.calchash_dict_order",
    "SC.Hashing.calchash_eq_iff",
    "SC.Hashing.calchash_list_order",
    "SC.Hashing.mergehash_spec",
    "SC.Hashing.mergehash_inj",
    "SC.Hashing.dict_list_collide",
    "SC.Hashing.set_list_collide",
    "SC.Hashing.obj_list_collide",
    "SC.Hashing.qty_list_collide",
    "SC.Hashing.complex_differs",
    "SC.Hashing.complex_texts_differ",
    "SC.Hashing.empty_set_differs",
    "SC.Hashing.orderedDict_differs",
    "SC.Hashing.bytes_key_order"
   ],
   "note": "Proved for all nested values and every digest function: equal values have equal hashes (sets in any order, unordered mappings with pairwise different key hashes in any order, integers of any type), a value is hashable iff it has at most 100 levels, and without digest collisions equal hashes mean equal canonical forms, so list order matters; mergehash keeps order. The values are modelled as trees with class names; jsonpickle states are given. Missing because false: complex numbers equal to integers (complex_differs), equal empty sets of different class (empty_set_differs), OrderedDict equal to dict (orderedDict_differs), a dict with keys 'a' and b'a' (bytes_key_order); different values that always collide: dict_list_collide, set_list_collide, obj_list_collide, qty_list_collide."
  },
  {
   "property": "C39",
   "status": "partial",
   "theorems": [
    "SC.Factory.lookup_ok",
    "SC.Factory.lookup_unknown",
    "SC.Factory.lookup_exists",
    "SC.Factory.found_by_name",
    "SC.Factory.found_by_spelling",
    "SC.Factory.found_at_once",
    "SC.Factory.member_root",
    "SC.Factory.member_exists",
    "SC.Factory.single_member",
    "SC.Factory.single_lookup",
    "SC.Factory.aliases_own",
    "SC.Factory.aliases_inherited",
    "SC.Factory.define_other",
    "SC.Factory.define_fails",
    "SC.Factory.names_listed",
    "SC.Factory.allnames_found",
    "SC.Factory.case_matters",
    "SC.Factory.name_beats_later_alias",
    "SC.Factory.subclass_takes_alias",
    "SC.Factory.second_family_missed"
   ],
   "note": "All programs of class statements (any bases, C3 resolution order, failing statements), any lower-casing function. A lookup gives the last class of the family with that name, else the last with that alternative spelling (lookup_ok), fails exactly for the others (lookup_unknown, lookup_exists); families (member_root, member_exists, single_member, define_other); listings (names_listed, allnames_found). Missing because false: other spellings than lower case (case_matters), a name wins from a later alias (name_beats_later_alias), a subclass takes the aliases of its base (subclass_takes_alias), classes derived from a class of two families miss the second (second_family_missed). Classes that redefine the registry attributes are not modelled."
  },
  {
   "property": "C40",
   "status": "partial",
   "theorems": [
    "SC.Scan.zapline_consistent",
    "SC.Scan.zapline_axis",
    "SC.Scan.ascan_consistent",
    "SC.Scan.ascan_axis",
    "SC.Scan.zapline_empty",
    "SC.Scan.zapline_pixelsize_iff",
    "SC.Scan.zapline_pixelsize_wrong",
    "SC.Scan.subIndices_nearest",
    "SC.Scan.subSlow_values",
    "SC.Scan.subSlice_up",
    "SC.Scan.subSlice_down",
    "SC.Scan.subFast_wrong",
    "SC.Scan.submap_spec"
   ],
   "note": "All rational starts and ends and all numbers of points. Values, range, size and spacing agree for ascans; for zaplines values, range and size agree. Missing because false: the pixel size of a zapline is not the spacing (zapline_pixelsize_iff, zapline_pixelsize_wrong). Of zapimage_submap: the nearest pixels are chosen (subIndices_nearest), the slow positions (subSlow_values) and upward slices (subSlice_up) are right; the fast positions (subFast_wrong) and downward slices (subSlice_down) are not."
  },
  {
   "property": "C41",
   "status": "partial",
   "theorems": [
    "SC.Compound.new_compound",
    "SC.Compound.compound_fractions",
    "SC.Compound.compound_volume",
    "SC.Compound.add_elements",
    "SC.Compound.add_elements_refuses",
    "SC.Compound.change_compound",
    "SC.Compound.new_mixture",
    "SC.Compound.mixture_fractions",
    "SC.Compound.add_compounds",
    "SC.Compound.add_compounds_refuses",
    "SC.Compound.change_mixture",
    "SC.Compound.elemental_equivalents",
    "SC.Compound.elemental_massfractions",
    "SC.Compound.mixture_molarmass",
    "SC.Compound.mixture_density",
    "SC.Compound.compound_part",
    "SC.Compound.mixture_part",
    "SC.Compound.tocompound_spec",
    "SC.Compound.elemental_molefractions",
    "SC.Compound.elemental_molefractions_partial",
    "SC.Compound.elemental_molefractions_wrong",
    "SC.Compound.same_name_lost",
    "SC.Compound.mole_truncated",
    "SC.Compound.mass_broadcast",
    "SC.Compound.setfraction_fails",
    "SC.Compound.setfraction_all"
   ],
   "note": "All lists of components, all fraction types, exact arithmetic over any ordered field, and mixtures of mixtures of any depth (mixture_part). Missing because false: the mole fractions of the elements of a mixture are those of the flattened formula only when all parts have the same number of atoms (elemental_molefractions_partial, elemental_molefractions_wrong). Other deviations: different parts with the same name are merged (same_name_lost), superfluous elements or mole fractions are dropped (mole_truncated), one mass fraction is used for all elements (mass_broadcast), setting some of the fractions raises (setfraction_fails)."
  },
  {
   "property": "C42",
   "status": "partial",
   "theorems": [
    "SC.CrossSection.value_eq_contributions",
    "SC.CrossSection.split_elements",
    "SC.CrossSection.collapse_partial",
    "SC.CrossSection.parse_partial",
    "SC.CrossSection.elemental_partial",
    "SC.CrossSection.compound_tree",
    "SC.CrossSection.mixture_tree",
    "SC.CrossSection.mixture_none",
    "SC.CrossSection.compound_lines",
    "SC.CrossSection.mixture_lines",
    "SC.CrossSection.collapse_wrong",
    "SC.CrossSection.parse_wrong",
    "SC.CrossSection.elemental_wrong"
   ],
   "note": "All trees: splitting per element gives every element the sum over its leaves of the product of the weights on the path and the leaf, and adds up to the weighted sum (split_elements). Decomposed and summed cross sections of compounds and mixtures agree (compound_tree, mixture_tree, compound_lines, mixture_lines). Missing because false: collapsing is right up to one level only, csdict_parse and elemental_crosssections up to two levels (collapse_wrong, parse_wrong, elemental_wrong); a mixture without scatterers gives None (mixture_none)."
  },
  {
   "property": "C43",
   "status": "partial",
   "theorems": [
    "SC.Mca.fmtG_spec",
    "SC.Mca.fmtG_exact",
    "SC.Mca.isFloat_unique",
    "SC.Mca.hasDigits_int",
    "SC.Mca.mca_layout",
    "SC.Mca.mca_read",
    "SC.Mca.mca_empty",
    "SC.Mca.mca_roundtrip",
    "SC.Mca.mca_digits_lost",
    "SC.Mca.pyFloat_spec",
    "SC.Mca.save_header",
    "SC.Mca.save_counts",
    "SC.Mca.read_fails",
    "SC.Mca.read_spec",
    "SC.Mca.read_single_channel",
    "SC.Mca.rgb_code",
    "SC.Mca.rgb_separates",
    "SC.Mca.rgb_levels",
    "SC.Mca.rgb_not_injective"
   ],
   "note": "All spectra, all lengths and all rational numbers; %.8g is modelled digit by digit (fmtG_spec: a closest number with P digits, fmtG_exact). Layout, counts, header, channels and energies (mca_layout, mca_read, mca_roundtrip, save_header, save_counts, read_spec). RGB: rgb_code, rgb_separates, rgb_levels. Missing because false: in Python 3 reading a saved file always raises TypeError (read_fails); a single channel loses its number (read_single_channel); digits beyond the eighth are lost (mca_digits_lost); the encoding of all numbers is not injective (rgb_not_injective). PyMca's reader of SPEC files is replaced by a specification; the zero appended for the last channel is modelled as written."
  },
  {
   "property": "C44",
   "status": "partial",
   "theorems": [
    "SC.Fit.linfit2_spec",
    "SC.Fit.linfit2_exact",
    "SC.Fit.linfit2_errors",
    "SC.Fit.linfit2_lengths",
    "SC.Fit.linfit2_broadcast_wrong",
    "SC.Fit.linfit_zero_spec",
    "SC.Fit.linfit_zero_errors",
    "SC.Fit.nanlinfit2_spec",
    "SC.Fit.linfit2_roots",
    "SC.Fit.linfit_zero_roots",
    "SC.Fit.least_squares_exists",
    "SC.Fit.lstsq_cov_spec",
    "SC.Fit.lstsq_cov_variances",
    "SC.Fit.lstsq_cov_singular",
    "SC.Fit.lstsq_cov_known",
    "SC.Fit.linfit_same",
    "SC.Fit.linfit_solvable",
    "SC.Fit.linfit_errors_same",
    "SC.Fit.linfit_zero_same",
    "SC.Fit.linfit_zero_errors_differ",
    "SC.Fit.cor_from_cov_spec",
    "SC.Fit.cramer_spec",
    "SC.Fit.cramer_fails",
    "SC.Fit.cramer_integers",
    "SC.Fit.cramer_integers_wrong"
   ],
   "note": "All data sets and matrices. Missing because false: a single ordinate is broadcast (linfit2_broadcast_wrong); the errors of linfit_zerointercept and linfit_zerointercept2 differ unless the residuals add up to zero (linfit_zero_errors_differ); a square system with a variance of zero (lstsq_cov_known); an integer matrix truncates the right-hand side (cramer_integers_wrong)."
  },
  {
   "property": "C45",
   "status": "partial",
   "theorems": [
    "SC.Stack.list_write_cases",
    "SC.Stack.list_history",
    "SC.Stack.destshape_stack",
    "SC.Stack.list_prepare",
    "SC.Stack.h5_free",
    "SC.Stack.h5_prepare_new",
    "SC.Stack.h5_prepare_overwrite_partial",
    "SC.Stack.h5_history",
    "SC.Stack.filename_inj",
    "SC.Stack.filename_order",
    "SC.Stack.fileExt_spec",
    "SC.Stack.files_prepare",
    "SC.Stack.files_history_partial",
    "SC.Stack.files_history_many",
    "SC.Stack.files_two_finding",
    "SC.Stack.files_ext_finding",
    "SC.Stack.h5_overwrite_suffix_finding",
    "SC.Stack.h5_overwrite_some_finding",
    "SC.Stack.source_2d_finding",
    "SC.Stack.source_2d_stackdim_finding",
    "SC.Stack.source_sizes_finding"
   ],
   "note": "All shapes, stack dimensions, names and write histories. Arrays and HDF5 datasets: list_history, h5_history (last write wins everywhere, nothing else changes), exact failure conditions (list_write_cases, list_prepare), first free entry (h5_free), reuse exactly when shapes and types agree (h5_prepare_overwrite_partial: without suffix, all datasets exist). Single files: injective and ordered names, first free directory, histories. Missing because false: several datasets of which some have files are overwritten without overwrite (files_two_finding), also files of an extension that is not supported (files_ext_finding); overwriting HDF5 datasets with a suffix or only some of which exist raises KeyError (h5_overwrite_suffix_finding, h5_overwrite_some_finding); sources with fewer than three axes read the first column or count images along the wrong axis (source_2d_finding, source_2d_stackdim_finding); arrays of different sizes in a list are not detected (source_sizes_finding). No images raise OverflowError (files_prepare). Type conversion, broadcasting of smaller images, EDF/TIFF encoding and special characters in glob patterns are not modelled."
  },
  {
   "property": "C46",
   "status": "partial",
   "theorems": [
    "SC.H5.Ctx.open_close",
    "SC.H5.Ctx.onclose_once_partial",
    "SC.H5.Ctx.exception_passes",
    "SC.H5.Ctx.callbacks_lost"
   ],
   "note": "Proved for every program: never opened twice, closed as often as opened, delayed functions only while closed, exceptions pass. Exactly once and in order when no delayed function raises; otherwise the following ones are lost (callbacks_lost)."
  },
  {
   "property": "C47",
   "status": "partial",
   "theorems": [
    "SC.Align.reference_identity",
    "SC.Align.pairwise_sum",
    "SC.Align.fixed_translation",
    "SC.Align.negative_reference_deviation",
    "SC.Align.pad_covers",
    "SC.Align.pad_keeps_pixels",
    "SC.Align.crop_exact",
    "SC.Align.crop_no_missing",
    "SC.Align.crop_skipped",
    "SC.Align.mask_agrees",
    "SC.Align.minimal_centres",
    "SC.Align.crop_subpixel_deviation",
    "SC.Align.pad_priority_deviation",
    "SC.Align.crop_single_pixel_deviation"
   ],
   "note": "All sizes and translations. Padding: covering and tight for rational translations, no pixel lost for whole pixels. Cropping: exact for whole pixels. Mask and translations agree. Missing because false: sub-pixel cropping leaves missing data (crop_subpixel_deviation), one common pixel counts as nothing (crop_single_pixel_deviation), pad has no priority over crop with NaN and a reference (pad_priority_deviation), a negative reference index is never in place (negative_reference_deviation)."
  },
  {
   "property": "C48",
   "status": "partial",
   "theorems": [
    "SC.AlignFFT.moved_spec",
    "SC.AlignFFT.correlation",
    "SC.AlignFFT.correlation2",
    "SC.AlignFFT.parseval",
    "SC.AlignFFT.parseval2",
    "SC.AlignFFT.unwrap_spec",
    "SC.AlignFFT.shift_pixels",
    "SC.AlignFFT.shift_subpixels",
    "SC.AlignFFT.moved2_spec",
    "SC.AlignFFT.shift2_pixels",
    "SC.AlignFFT.shift2_subpixels",
    "SC.AlignFFT.align_images",
    "SC.AlignFFT.align_line",
    "SC.AlignFFT.align_restores",
    "SC.AlignFFT.constant_image_moves",
    "SC.AlignFFT.weak_image_moves"
   ],
   "note": "Exact for every circular whole-pixel translation of lines and images with energy above 1 and, for whole-pixel sampling, no period of their own or, for sub-pixel sampling, a non-zero mean and first frequencies. Missing because it is false: constant images (constant_image_moves) and weak images (weak_image_moves; zeros of the cross spectrum's modulus are replaced by 1.0). Not modelled: the parabola fit, missing data, rotations and scalings."
  },
  {
   "property": "C49",
   "status": "partial",
   "theorems": [
    "SC.Center.fmax_spec",
    "SC.Center.fmax2_spec",
    "SC.Center.fcentroid_spec",
    "SC.Center.windowMean_symmetric",
    "SC.Center.fcentroid_symmetric",
    "SC.Center.fcentroid_near",
    "SC.Center.fcentroid2_eq",
    "SC.Center.fcentroid2_right_iff",
    "SC.Center.fcentroid2_symmetric",
    "SC.Center.axes_swapped"
   ],
   "note": "Nonnegative data of any size over any ordered field, without rounding and NaN. fmax is the first maximum; the one-dimensional centroid is the centre of mass of an interval centred on the maximum; symmetric peaks are found exactly. Missing because false: fcentroid of an image exchanges the deviations along rows and columns (fcentroid2_eq, right exactly when they are equal: fcentroid2_right_iff; axes_swapped). The Gaussian fit is not modelled."
  },
  {
   "property": "C50",
   "status": "partial",
   "theorems": [
    "SC.XiaRead.read_spec",
    "SC.XiaRead.readData_spec",
    "SC.XiaRead.readStats_spec",
    "SC.XiaRead.readAllStats_spec",
    "SC.XiaRead.readCounters_spec",
    "SC.XiaRead.history_valid",
    "SC.XiaRead.item_corrected",
    "SC.XiaRead.item_uncorrected",
    "SC.XiaRead.line_depends_on_history",
    "SC.XiaRead.failure_changes_request",
    "SC.XiaRead.counters_need_stats"
   ],
   "note": "All levels, all data, for settings reached by any history of settings and (failing or successful) reads of objects and items (history_valid): read_spec and the theorems for data, stats, allstats and counters. item_corrected and item_uncorrected tell what items of a larger object give. Missing because false: the data of an item are not corrected after data and statistics of the whole were read (line_depends_on_history), a failing read changes what is requested (failure_changes_request), counters may need statistics (counters_need_stats). Indexing with slices, the cache and the repair of cancelled maps are not modelled."
  },
  {
   "property": "C51",
   "status": "partial",
   "theorems": [
    "SC.Scan.parse_iff",
    "SC.Scan.scan_unique",
    "SC.Scan.natVal_repr",
    "SC.Scan.layout_joined",
    "SC.Scan.floatOf_eq",
    "SC.Scan.time_cut",
    "SC.Scan.time_exponent",
    "SC.Scan.not_understood",
    "SC.Scan.dimensions_zapimage",
    "SC.Scan.dimensions_unknown",
    "SC.Scan.dimensions_other",
    "SC.Scan.dimensions_keyError"
   ],
   "note": "All texts, with the ASCII meaning of \\\\d, \\\\s and \\\\w. parse_iff is a complete characterization: a command is understood iff it has the layout of one of the scan types (IsScan, stated without the regular expression model), with exactly those values; scan_unique, natVal_repr, layout_joined and floatOf_eq make the specification usable. The intended layout is not always accepted or read right: decimals of a time are cut off (time_cut), exponents are ignored (time_exponent) and motors with other characters are not understood (not_understood). Positions are right for a zapimage (dimensions_zapimage); other scan types end in a KeyError (dimensions_keyError). The remaining methods of the spec class that need a SPEC file are not modelled."
  },
  {
   "property": "C52",
   "status": "partial",
   "theorems": [
    "SC.LineShape.new_fixed",
    "SC.LineShape.new_ratios",
    "SC.LineShape.convert_fixed",
    "SC.LineShape.convert_ratios",
    "SC.LineShape.sync_fractions",
    "SC.LineShape.convert_sync",
    "SC.LineShape.convert_energy",
    "SC.LineShape.no_energy",
    "SC.LineShape.assign_fractions",
    "SC.LineShape.assign_ratios",
    "SC.LineShape.wpeak_spec",
    "SC.LineShape.pickle_sync",
    "SC.LineShape.eq_sync",
    "SC.LineShape.area_fixed",
    "SC.LineShape.area_ratios",
    "SC.LineShape.same_profile",
    "SC.LineShape.assign_broadening_partial",
    "SC.LineShape.assign_broadening_stale",
    "SC.LineShape.nopeak_roundtrip",
    "SC.LineShape.nopeak_wrong",
    "SC.LineShape.peak_without_area_wrong"
   ],
   "note": "Any ordered field, any positive norms, any energies and parameters. Construction, conversion, assignment of fractions or ratios and pickling keep both descriptions in sync; converting twice is the identity; areas of the profile (area_fixed, area_ratios) and equal profiles at the conversion energy (same_profile). Missing because false: assigning one broadening leaves the ratios stale (assign_broadening_partial is the exact condition, assign_broadening_stale the witness), converting twice changes the fractions when there is no peak (nopeak_wrong) or when nothing is left for it (peak_without_area_wrong). The shape functions themselves (erfc, Voigt) are not modelled, only heights and norms."
  },
  {
   "property": "C53",
   "status": "partial",
   "theorems": [
    "SC.Formula.formula_written",
    "SC.Formula.formula_read",
    "SC.Formula.formula_exact",
    "SC.Formula.formula_unambiguous",
    "SC.Formula.formula_refused",
    "SC.Formula.formula_longest",
    "SC.Formula.formula_tail_partial",
    "SC.Formula.formula_counts",
    "SC.Formula.formula_values",
    "SC.Formula.formula_compound",
    "SC.Formula.formula_factory",
    "SC.Formula.table_neutral",
    "SC.Formula.choose_state",
    "SC.Formula.choose_refuses",
    "SC.Formula.choose_default",
    "SC.Formula.choose_single_partial",
    "SC.Formula.element_compound",
    "SC.Formula.groupdict_spec"
   ],
   "note": "All texts, both versions of pyparsing. Reading a formula: formula_written (every way of writing a formula is read as this formula), formula_read and formula_exact (nothing else is), formula_unambiguous, formula_refused, formula_longest; numbers: formula_counts, formula_values; compounds: formula_compound, formula_factory. Tables: table_neutral for every entry, choose_state, choose_refuses, choose_default, element_compound, groupdict_spec. Missing because false: text behind a formula is ignored (formula_tail_partial), an element with a single state and the class Sulfide raise TypeError (choose_single_partial). The symbols known to xraylib are a parameter."
  },
  {
   "property": "C54",
   "status": "partial",
   "theorems": [
    "SC.Diode.diode_signals",
    "SC.Diode.diode_round_trips",
    "SC.Diode.diode_response",
    "SC.Diode.diode_xrf_norm",
    "SC.Diode.diode_gain",
    "SC.Diode.diode_gain_rounded",
    "SC.Diode.diode_counts_fail",
    "SC.Diode.gain_nearest",
    "SC.Diode.gain_setting",
    "SC.Diode.gain_linear",
    "SC.Diode.gain_domain",
    "SC.Diode.dark_from_rates",
    "SC.Diode.dark_from_currents",
    "SC.Diode.dark_from_counts_fails",
    "SC.Diode.offset_from_rates",
    "SC.Diode.gain_from_response"
   ],
   "note": "All gains, oscillators, dark currents, fluxes and responses. diode_signals (every operator gives the value of the chain), diode_round_trips, diode_response (all units), diode_xrf_norm, diode_gain, diode_gain_rounded; rounding: gain_nearest (the nearest setting on the logarithmic scale), gain_setting, gain_linear, gain_domain; calibrations: dark_from_rates, dark_from_currents, offset_from_rates, gain_from_response. Missing because false: counts cannot be turned into currents or voltages by the methods named so (diode_counts_fail: a method is multiplied, a time is handed to a function without argument), therefore the dark current cannot be calibrated from counts (dark_from_counts_fails). Units are modelled by constructors, not by pint; the code multiplies with the elementary charge, the model uses one unit of charge."
  },
  {
   "property": "C55",
   "status": "partial",
   "theorems": [
    "SC.Diode.charge_target",
    "SC.Diode.charge_direct_line_partial",
    "SC.Diode.charge_direct_lines_over",
    "SC.Diode.sample_weights",
    "SC.Diode.line_weights",
    "SC.Diode.calib_consistent",
    "SC.Diode.calib_search",
    "SC.Diode.calib_no_root",
    "SC.Diode.calib_optics_exists",
    "SC.Diode.calib_solidangle",
    "SC.Diode.calib_solidangle_direct",
    "SC.Diode.calib_table",
    "SC.Diode.calib_optics_lines",
    "SC.Diode.calib_bound",
    "SC.Diode.fit_dark",
    "SC.Diode.fit_fixed_dark",
    "SC.Diode.calib_end_to_end"
   ],
   "note": "charge_target (secondary target, any lines), charge_direct_line_partial (no target: one line), sample_weights, line_weights, calib_consistent (any option, any root finder), calib_search (thickness and optics, a root finder which finds roots), calib_no_root, calib_optics_exists (the transmission looked for exists for one line), calib_solidangle, calib_table, fit_dark, fit_fixed_dark, calib_end_to_end. Missing because false: without target the charge is too large for several lines (charge_direct_lines_over: the summed rate is multiplied with the charge of every line); calibrating a table with n lines gives n times the charge asked for (calib_table); the solid angle has no effect without target (calib_solidangle_direct); a transmission cannot be calibrated with several lines (calib_optics_lines); with bound the bisection of a square raises ValueError (calib_bound). The spectrum emitted by the target and the transmission of the diode are parameters, fsolve is any function."
  },
  {
   "property": "C56",
   "status": "partial",
   "theorems": [
    "SC.Geometry.flat_angles",
    "SC.Geometry.flat_reflection",
    "SC.Geometry.flat_setters",
    "SC.Geometry.solidangle_disk",
    "SC.Geometry.solidangle_range",
    "SC.Geometry.distance_of_solidangle",
    "SC.Geometry.solidangle_inverses",
    "SC.Geometry.area_of_solidangle",
    "SC.Geometry.solidangle_decreasing",
    "SC.Geometry.solidangle_large",
    "SC.Geometry.motor_distance",
    "SC.Geometry.motor_position",
    "SC.Geometry.motor_calibrate",
    "SC.Geometry.motor_solidangle",
    "SC.Geometry.motor_sign",
    "SC.Geometry.motor_create",
    "SC.Geometry.calibrate_constraint"
   ],
   "note": "flat_angles (cosines and scattering angle are scalar products), flat_reflection, flat_setters, solidangle_disk (the solid angle is the integral over the disk), solidangle_range, distance_of_solidangle, solidangle_inverses, area_of_solidangle, solidangle_decreasing, motor_distance, motor_position, motor_calibrate, motor_solidangle, motor_create, calibrate_constraint. Missing because false: a solid angle above a half space gives the distance of the rest of the sphere (solidangle_large); a sign other than plus or minus one is not undone (motor_sign). Not modelled: random variables, units, the fit of calibrate_fit, geometries without motor (their distance cannot be read or set: see DESIGN.md)."
  },
  {
   "property": "C57",
   "status": "partial",
   "theorems": [
    "SC.Detector.beam_names",
    "SC.Detector.names_partition",
    "SC.Detector.filter_passing",
    "SC.Detector.filter_range",
    "SC.Detector.attenuation_spec",
    "SC.Detector.efficiency_entry",
    "SC.Detector.efficiency_range",
    "SC.Detector.add_det",
    "SC.Detector.add_beam",
    "SC.Detector.add_unnamed",
    "SC.Detector.add_unnamed_partial",
    "SC.Detector.add_unnamed_twice",
    "SC.Detector.add_cover_partial",
    "SC.Detector.remove_beam",
    "SC.Detector.remove_det",
    "SC.Detector.atmosphere_ignored",
    "SC.Detector.atmosphere_included",
    "SC.Detector.save_entries",
    "SC.Detector.load_entries",
    "SC.Detector.pymca_round_trip",
    "SC.Detector.pymca_leftover"
   ],
   "note": "beam_names, names_partition, filter_passing, filter_range, attenuation_spec, efficiency_entry, efficiency_range, add_det, add_beam (filters with a name), remove_beam, remove_det, save_entries, load_entries, pymca_round_trip (into a configuration without enabled attenuators). add_unnamed_partial and add_cover_partial: a filter without name and a sample cover when there is no beam filter yet. Missing because false: a further beam filter without name replaces one that is there (add_unnamed, add_unnamed_twice); the atmosphere is left out exactly when it is to be included (atmosphere_ignored, atmosphere_included); what was enabled in the configuration is loaded too (pymca_leftover), and an attenuator called Matrix is not loaded (load_entries). The absorbance of a material is a parameter; addtofisx is not modelled."
  },
  {
   "property": "C58",
   "status": "partial",
   "theorems": [
    "SC.Multilayer.zlayer_spec",
    "SC.Multilayer.cumAtt_integral",
    "SC.Multilayer.cumAtt_ends",
    "SC.Multilayer.transmission_left",
    "SC.Multilayer.transmission_mul",
    "SC.Multilayer.numerical_rates",
    "SC.Multilayer.analytical_rates",
    "SC.Multilayer.methods_agree",
    "SC.Multilayer.no_scattering_fails",
    "SC.Multilayer.rayleigh_lost",
    "SC.Multilayer.thin_rates",
    "SC.Multilayer.rate_bounds",
    "SC.Multilayer.one_layer",
    "SC.Multilayer.detected_rates"
   ],
   "note": "Everything is proved where no attenuation in and out cancels; rayleigh_lost is the deviation (detector straight behind the sample: the analytical rate of Rayleigh scattering is nan for every sample), no_scattering_fails another (a table of interactions without Compton and Rayleigh lines is an error)."
  },
  {
   "property": "C59",
   "status": "partial",
   "theorems": [
    "SC.Multilayer.areal_density",
    "SC.Multilayer.layer_massfractions",
    "SC.Multilayer.mix_massfractions",
    "SC.Multilayer.mix_ignores_density",
    "SC.Multilayer.mix_refined_wrong",
    "SC.Multilayer.transmission_agrees",
    "SC.Multilayer.refined_transmissions_differ",
    "SC.Multilayer.thickness_best",
    "SC.Multilayer.thickness_exact",
    "SC.Multilayer.thickness_recovered",
    "SC.Multilayer.thickness_constant",
    "SC.Multilayer.constant_constraint_fails",
    "SC.Multilayer.thickness_single",
    "SC.Multilayer.single_negative",
    "SC.Multilayer.density_not_used",
    "SC.Multilayer.density_best",
    "SC.Multilayer.composition_best",
    "SC.Multilayer.composition_density_not_used",
    "SC.Multilayer.ideal_good",
    "SC.Multilayer.one_layer_round_trip",
    "SC.Multilayer.layers_not_saved",
    "SC.Multilayer.layers_loaded",
    "SC.Multilayer.empty_not_loaded",
    "SC.Multilayer.sourceflux_at_sample"
   ],
   "note": "areal_density, layer_massfractions, mix_massfractions, transmission_agrees, thickness_best, thickness_exact, thickness_recovered, thickness_constant, thickness_single, density_best, composition_best, one_layer_round_trip, layers_loaded and sourceflux_at_sample are the positive part. Deviations: a refined density is kept in the layer and ignored by the absorbance and the mixture, but not by the rates (density_not_used, composition_density_not_used, mix_refined_wrong, refined_transmissions_differ); a constant with a constraint fails unless there is one datum more than free layers (constant_constraint_fails); one datum ignores the constraint (single_negative); samples of several layers cannot be saved for PyMca and empty ones not read back (layers_not_saved, empty_not_loaded)."
  },
  {
   "property": "C60",
   "status": "partial",
   "theorems": [
    "SC.Pymca.save_density",
    "SC.Pymca.nameFrom_pymcaName",
    "SC.Pymca.looksFormula_iff",
    "SC.Pymca.pureElement_iff",
    "SC.Pymca.pure_is_formula",
    "SC.Pymca.load_saved",
    "SC.Pymca.save_name",
    "SC.Pymca.save_frame",
    "SC.Pymca.formula_name_only",
    "SC.Pymca.formula_name_one",
    "SC.Pymca.pure_name_element",
    "SC.Pymca.formula_density",
    "SC.Pymca.elements_mixture",
    "SC.Pymca.pvc_lost",
    "SC.Pymca.water_density_lost",
    "SC.Pymca.load_mono",
    "SC.Pymca.load_cyclic",
    "SC.Pymca.load_fractions",
    "SC.Pymca.settings_roundtrip",
    "SC.Pymca.settings_frame",
    "SC.Pymca.settings_flags",
    "SC.Pymca.loadBeam_lines",
    "SC.Pymca.settings_stable",
    "SC.Pymca.source_roundtrip",
    "SC.Pymca.weights_lost"
   ],
   "note": "load_saved (materials) and settings_roundtrip, settings_stable (settings) are the round trips. Materials the format cannot hold are excluded by `Fits` and `Consistent`, and the code does not refuse them: a compound whose name looks like a formula is replaced by what the formula says (formula_name_only, formula_name_one, pvc_lost) or by an element (pure_name_element), a part named by its formula gets the density of the mixture (formula_density, water_density_lost), a mixture of elements only becomes a compound (elements_mixture). Source lines with another number of weights are saved but cannot be loaded (weights_lost). Materials are given by mass fractions; the conversion to mole fractions is C16."
  },
  {
   "property": "C61",
   "status": "partial",
   "theorems": [
    "SC.Spectrum.mem_expand_letter",
    "SC.Spectrum.expand_shell",
    "SC.Spectrum.expandall_spec",
    "SC.Spectrum.shrink_spec",
    "SC.Spectrum.expandall_shrink",
    "SC.Spectrum.pymcafactory_spec",
    "SC.Spectrum.expandselection_spec",
    "SC.Spectrum.split_loses_shells",
    "SC.Spectrum.split_subshell",
    "SC.Spectrum.composite_rate",
    "SC.Spectrum.own_value",
    "SC.Spectrum.composite_energy",
    "SC.Spectrum.composite_share",
    "SC.Spectrum.composite_rate_broken",
    "SC.Spectrum.fluoyield_lines",
    "SC.Spectrum.weights_values",
    "SC.Spectrum.weights_scale",
    "SC.Spectrum.weights_between",
    "SC.Spectrum.sumSources_total",
    "SC.Spectrum.sumSources_spec",
    "SC.Spectrum.itemsConverted_total",
    "SC.Spectrum.lines_total",
    "SC.Spectrum.lines_spec",
    "SC.Spectrum.lines_sorted",
    "SC.Spectrum.lines_ok",
    "SC.Spectrum.lines_truncated",
    "SC.Spectrum.probabilities_or_rates",
    "SC.Spectrum.power_spec",
    "SC.Spectrum.power_kind",
    "SC.Spectrum.spectrumDict_counts",
    "SC.Spectrum.channel_energy",
    "SC.Spectrum.energy_channel",
    "SC.Spectrum.energy_below",
    "SC.Spectrum.mcaChannels_spec",
    "SC.Spectrum.selection_partition",
    "SC.Spectrum.selection_twice",
    "SC.Spectrum.groupKey_idem",
    "SC.Spectrum.groupRates_spec",
    "SC.Spectrum.collected_examples",
    "SC.Spectrum.parseFisx_spec",
    "SC.Spectrum.ratesToSpectrum_spec",
    "SC.Spectrum.linegroups_spec",
    "SC.Spectrum.linegroups_total",
    "SC.Spectrum.lineinfo_total",
    "SC.Spectrum.lineinfo_labels",
    "SC.Spectrum.lineinfo_fluo",
    "SC.Spectrum.lineinfo_scatter",
    "SC.Spectrum.val_iadd",
    "SC.Spectrum.val_iadd_error",
    "SC.Spectrum.iadd_spec",
    "SC.Spectrum.iadd_total",
    "SC.Spectrum.iadd_kind",
    "SC.Spectrum.iadd_sources",
    "SC.Spectrum.iaddRefs_frame",
    "SC.Spectrum.iaddRefs_value",
    "SC.Spectrum.iaddRefs_shares",
    "SC.Spectrum.iadd_changes_other",
    "SC.Spectrum.compton_formula",
    "SC.Spectrum.compton_inverse",
    "SC.Spectrum.compton_range",
    "SC.Spectrum.compton_decreasing",
    "SC.Spectrum.compton_angle_energy",
    "SC.Spectrum.compton_energy_angle",
    "SC.Spectrum.compton_angle_clipped"
   ],
   "note": "Totals are kept by summing, splitting, grouping and listing of lines (sumSources_total, lines_total, linegroups_total, lineinfo_total), with the exact content (lines_spec, linegroups_spec, lineinfo_fluo, lineinfo_scatter, lineinfo_labels). Where the code deviates from its purpose there is a theorem with a witness: splitting of shells loses the other shells (expandselection_spec, split_loses_shells, split_subshell), the parts of a composite line do not add up when one of them has a rate of its own (composite_rate_broken), scattering values are cut when there are too few (lines_truncated), the dictionary of the spectrum counts pairs (spectrumDict_counts), sources of different energies are added (iadd_sources) and the sum shares arrays with what was added, so that adding again changes it (iaddRefs_shares, iadd_changes_other). Names of fluorescence lines and groups contain a dash (`Dashed`), which Spectrum does not check."
  },
  {
   "property": "C62",
   "status": "partial",
   "theorems": [
    "SC.Qxrf.update_sync",
    "SC.Qxrf.update_same",
    "SC.Qxrf.step_raises",
    "SC.Qxrf.step_sync",
    "SC.Qxrf.step_failed",
    "SC.Qxrf.run_sync",
    "SC.Qxrf.generate_known",
    "SC.Qxrf.construct_iff",
    "SC.Qxrf.construct_sync",
    "SC.Qxrf.step_frame",
    "SC.Qxrf.other_setup",
    "SC.Qxrf.restore_same",
    "SC.Qxrf.no_source",
    "SC.Qxrf.geoms_failed",
    "SC.Qxrf.geoms_repaired",
    "SC.Qxrf.copy_shares",
    "SC.Qxrf.positions_set",
    "SC.Qxrf.positions_short",
    "SC.Qxrf.areas_shared",
    "SC.Qxrf.deviceName_spec",
    "SC.Qxrf.limits_nearest",
    "SC.Qxrf.check_keep",
    "SC.Qxrf.check_create",
    "SC.Qxrf.check_create_agrees",
    "SC.Qxrf.reset_refused",
    "SC.Qxrf.gain_spec",
    "SC.Qxrf.text_injective",
    "SC.Qxrf.validate_ok",
    "SC.Qxrf.validate_get",
    "SC.Qxrf.validate_units",
    "SC.Qxrf.validate_values",
    "SC.Qxrf.validate_twice",
    "SC.Qxrf.id21_current",
    "SC.Qxrf.dataGain_spec",
    "SC.Qxrf.dark_needed",
    "SC.Qxrf.calibrate_gains",
    "SC.Qxrf.calibrate_dark",
    "SC.Qxrf.calibrate_beam",
    "SC.Qxrf.reference_spec",
    "SC.Qxrf.reference_number",
    "SC.Qxrf.weightedSum_bounds",
    "SC.Qxrf.weightedSum_scale",
    "SC.Qxrf.weightedSum_none",
    "SC.Qxrf.fluxOp_remove",
    "SC.Qxrf.fluxOp_no_geometry",
    "SC.Qxrf.step_other",
    "SC.Qxrf.step_value",
    "SC.Qxrf.geoms_linked",
    "SC.Qxrf.initGeoms_spec",
    "SC.Qxrf.positions_frame",
    "SC.Qxrf.areas_set"
   ],
   "note": "Devices belong together after every assignment and history (step_sync, run_sync, construct_sync, restore_same), with frame theorems (step_frame, other_setup, step_other). Where the code deviates there is a theorem with a witness: taking the source away leaves it in the geometries (no_source), a failing list of geometries leaves devices that do not belong together (geoms_failed; repaired by the next assignment, geoms_repaired), a shallow copy shares its diode (copy_shares), too few positions are accepted (positions_short), geometries with one detector share its area (areas_shared), resetting devices never replaces one (reset_refused), currents at ID21 have a unit that is refused (id21_current), calibration without `dark` raises KeyError (dark_needed), removing beam filters without geometries raises IndexError (fluxOp_no_geometry)."
  },
  {
   "property": "C63",
   "status": "partial",
   "theorems": [
    "SC.Scene.range_unique",
    "SC.Scene.minmax_iff",
    "SC.Scene.range_mirror",
    "SC.Scene.range_shift",
    "SC.Scene.collect_range",
    "SC.Scene.datarange_spec",
    "SC.Scene.datarange_error",
    "SC.Scene.axisLim_spec",
    "SC.Scene.sceneLim_axis",
    "SC.Scene.visible",
    "SC.Scene.setdatarange_spec",
    "SC.Scene.place_mirror",
    "SC.Scene.place_toggle",
    "SC.Scene.flip_mirrors",
    "SC.Scene.flip_stuck",
    "SC.Scene.flip_negative",
    "SC.Scene.flip_twice",
    "SC.Scene.origin_first",
    "SC.Scene.origin_again",
    "SC.Scene.originreset_spec",
    "SC.Scene.resetdatarange_spec",
    "SC.Scene.originzero_spec",
    "SC.Scene.originzero_twice",
    "SC.Scene.dataaxis_spec",
    "SC.Scene.transpose_spec",
    "SC.Scene.setUnit_spec",
    "SC.Scene.strunit_wrong",
    "SC.Scene.aspect_spec",
    "SC.Scene.aspect_data",
    "SC.Scene.aspect_direction",
    "SC.Scene.modifyaxes_spec",
    "SC.Scene.channels_count",
    "SC.Scene.channels_given",
    "SC.Scene.channels_default",
    "SC.Scene.channels_two",
    "SC.Scene.pixel_spec",
    "SC.Scene.labels_spec",
    "SC.Scene.percentile_spec",
    "SC.Scene.percentile_zero",
    "SC.Scene.vminmax_all",
    "SC.Scene.percentile_mono",
    "SC.Scene.vminmax_order",
    "SC.Scene.selfscale_spec",
    "SC.Scene.selfscaleAll_spec",
    "SC.Scene.sceneVminmax_spec",
    "SC.Scene.globalscaling_spec",
    "SC.Scene.compcolor_spec",
    "SC.Scene.pixel_position",
    "SC.Scene.display_axes",
    "SC.Scene.border_spec",
    "SC.Scene.border_sides",
    "SC.Scene.select_spec",
    "SC.Scene.select_active",
    "SC.Scene.add_active",
    "SC.Scene.add_same",
    "SC.Scene.refresh_spec",
    "SC.Scene.displaydata_spec",
    "SC.Scene.displaydata_all",
    "SC.Scene.xanes_first",
    "SC.Scene.xanes_default",
    "SC.Scene.xanes_all"
   ],
   "note": "Where coordinates are shown is a formula of the range of the data and the settings alone (place, axisLim_spec, visible); a new scene looks as its parameters say whatever they are (modifyaxes_spec), the centre of a pixel is at its coordinate (pixel_position). Where the code deviates there is a theorem with the exact effect: an axis that was flipped with its direction kept is not flipped back (flip_negative, flip_stuck, flip_twice), an origin is right only in a scene that was not moved (origin_again), a second originzero moves the smallest coordinate to twice its value (originzero_twice), originreset reverses the offset instead of resetting it (originreset_spec), resetdatarange leaves the second axis shifted by one unit (resetdatarange_spec), the text for the unit of the Y-axis is that of the X-axis (strunit_wrong), data of two channels raise without a selection (channels_two), the upper limit of a scene is shifted by the lower part (globalscaling_spec), channels beyond the list of parts get limits without size (selfscaleAll_spec), without labels only the first file is read (xanes_first). Drawing itself (matplotlib) is outside."
  },
  {
   "property": "C64",
   "status": "partial",
   "theorems": [
    "SC.Fullfield.rebin_spec",
    "SC.Fullfield.rebin_one",
    "SC.Fullfield.rebin_total",
    "SC.Fullfield.ends_agree",
    "SC.Fullfield.procraw_pixel",
    "SC.Fullfield.procraw_shape",
    "SC.Fullfield.procraw_linear",
    "SC.Fullfield.axis_spec",
    "SC.Fullfield.axes_spec",
    "SC.Fullfield.axis_too_long",
    "SC.Fullfield.dark_spec",
    "SC.Fullfield.dark_ok",
    "SC.Fullfield.norm_spec",
    "SC.Fullfield.norm_ok",
    "SC.Fullfield.norm_empty",
    "SC.Fullfield.norm_perm",
    "SC.Fullfield.norm_exact",
    "SC.Fullfield.norm_default",
    "SC.Fullfield.norm_default_wrong",
    "SC.Fullfield.dark_text",
    "SC.Fullfield.tokens_joined",
    "SC.Fullfield.getroi_header",
    "SC.Fullfield.getroi_default",
    "SC.Fullfield.stackvalues_spec",
    "SC.Fullfield.collect_spec",
    "SC.Fullfield.flats_lost",
    "SC.Fullfield.split_spec",
    "SC.Fullfield.stack_spec",
    "SC.Fullfield.execute_spec",
    "SC.Fullfield.slice_spec",
    "SC.Fullfield.flatLibs_spec",
    "SC.Fullfield.single_flat",
    "SC.Fullfield.texts_apart",
    "SC.Fullfield.default_exposure",
    "SC.Fullfield.no_stackvalues"
   ],
   "note": "Proved for all images, files and parameters: pixels and total of a rebinned region (rebin_spec, rebin_total, procraw_pixel), axes as means of camera coordinates (axis_spec, axes_spec), the normalised image is the rate (norm_exact), files of a stack value (collect_spec), halves (split_spec), order and content of the stack (stack_spec, execute_spec, slice_spec). Where the code deviates there is a theorem: a dark current from parameters is subtracted once per bin instead of once per pixel (norm_default, norm_default_wrong), the axes are longer than the image when a region ends beyond the camera (axis_too_long), exposure times and stack values are compared as texts (dark_text, texts_apart), values given for the data with flat fields from headers lose all flat fields (flats_lost), one flat field of before and after raises though it is handled when saving (single_flat), a stack value without flat fields raises (norm_empty). Reading files, floating point and saving are outside."
  },
  {
   "property": "C65",
   "status": "partial",
   "theorems": [
    "SC.Resample.minOf_iff",
    "SC.Resample.maxOf_iff",
    "SC.Resample.measured_spec",
    "SC.Resample.encoder_spec",
    "SC.Resample.grid_covers",
    "SC.Resample.crop_inside",
    "SC.Resample.crop_outside",
    "SC.Resample.offset_given",
    "SC.Resample.offset_raises",
    "SC.Resample.linear_exact",
    "SC.Resample.linear_node",
    "SC.Resample.linear_between",
    "SC.Resample.interp_outside",
    "SC.Resample.interp_perm",
    "SC.Resample.nearest_spec",
    "SC.Resample.floor_spec",
    "SC.Resample.ceil_spec",
    "SC.Resample.arrays_fail",
    "SC.Resample.extrap_spec",
    "SC.Resample.kinds",
    "SC.Resample.mem_allIdx",
    "SC.Resample.sel_loc",
    "SC.Resample.loc_sel",
    "SC.Resample.writes_spec",
    "SC.Resample.copy_spec",
    "SC.Resample.skipped_axis_raises",
    "SC.Resample.resample_exact",
    "SC.Resample.offset_found",
    "SC.Resample.plane_mem",
    "SC.Resample.plane_length",
    "SC.Resample.encoder_unchanged",
    "SC.Resample.irregular_1d",
    "SC.Resample.irregular_nd"
   ],
   "note": "The grid (encoder_spec, grid_covers, crop_inside), interpolation in one dimension with degree zero and one (linear_exact, linear_node, linear_between, interp_outside, interp_perm, nearest_spec), steps (floor_spec, ceil_spec, extrap_spec), methods (kinds), which element is computed from which line (writes_spec, copy_spec) and the result for signals linear in the position (resample_exact, offset_found) are proved for all inputs. Where the code deviates there is a theorem: a cropped grid can begin before all lines (crop_outside), an offset that is given never leads to an encoder and raises AttributeError (offset_given, offset_raises), an axis that is not resampled because nothing is left makes every signal raise ValueError (skipped_axis_raises), the functions of interpolate.py give a map object for arrays (arrays_fail). Splines of higher degree and scattered data in two and more dimensions are scipy and a parameter of the model."
  },
  {
   "property": "C66",
   "status": "partial",
   "theorems": [
    "SC.Grid.detector_roundtrip",
    "SC.Grid.sum_roundtrip",
    "SC.Grid.groups_differ",
    "SC.Grid.plain_name",
    "SC.Grid.name_roundtrip",
    "SC.Grid.repeated_prefix",
    "SC.Grid.name_with_S",
    "SC.Grid.parameters_label",
    "SC.Grid.counters_group",
    "SC.Grid.grid_signals",
    "SC.Grid.same_detector_refused",
    "SC.Grid.stackdim_of_data",
    "SC.Grid.signal_axes_back",
    "SC.Grid.negative_stackdim",
    "SC.Grid.other_dims",
    "SC.Grid.signal_grid_dims",
    "SC.Grid.values_stack",
    "SC.Grid.values_elsewhere",
    "SC.Grid.reference_last",
    "SC.Grid.reference_missing",
    "SC.Grid.reference_end_of_name",
    "SC.Grid.pyRound_near",
    "SC.Grid.ref_image",
    "SC.Grid.ref_image_beyond",
    "SC.Grid.grid_ndim"
   ],
   "note": "Proved for all inputs: the groups of detectors and sums (detector_roundtrip, sum_roundtrip, groups_differ, plain_name, name_roundtrip for names without repeated prefix), the contents of a grid (grid_signals, same_detector_refused, stackdim_of_data), its dimensions (signal_axes_back, other_dims), the values with signals along the first dimension (values_stack), reference signals (reference_last, reference_missing) and images (ref_image, pyRound_near). Deviations, each with a theorem: a repeated prefix (repeated_prefix), names that begin with S (name_with_S), the label of parameter groups (parameters_label), a negative stack dimension (negative_stackdim), the stack dimensions of a single signal (signal_grid_dims), values with signals elsewhere (values_elsewhere), a reference that is the end of another name (reference_end_of_name), a reference image beyond the end (ref_image_beyond)."
  },
  {
   "property": "C67",
   "status": "proved",
   "theorems": [
    "SC.Grid.new_data",
    "SC.Grid.sliced_same",
    "SC.Grid.pointwise_ok",
    "SC.Grid.combine_ok",
    "SC.Grid.replace_spec",
    "SC.Grid.task_spec",
    "SC.Grid.grid_ready",
    "SC.Grid.shapes_fit",
    "SC.Grid.nothing_to_crop",
    "SC.Grid.skip_changes_default",
    "SC.Grid.shifted_region_raises"
   ],
   "note": "task_spec is the property for a whole task; new_data, sliced_same, pointwise_ok and combine_ok are its parts for one signal, grid_ready shows that grids of NXdata groups meet its hypotheses, shapes_fit holds for arbitrary tasks. Deviations, each with a theorem: a sliced crop task that finds nothing to crop raises (nothing_to_crop), skipping a signal changes the default signal (skip_changes_default); a region beyond the end of an axis raises (shifted_region_raises)."
  },
  {
   "property": "C68",
   "status": "partial",
   "theorems": [
    "SC.XrfTask.sum_append",
    "SC.XrfTask.nansum_append",
    "SC.XrfTask.nanmax_append",
    "SC.XrfTask.nanmean_append",
    "SC.XrfTask.sum_order",
    "SC.XrfTask.sum_pixel",
    "SC.XrfTask.value_flat_sum",
    "SC.XrfTask.sum_value",
    "SC.XrfTask.readedf_merge_fails",
    "SC.XrfTask.xrfnorm_pixel",
    "SC.XrfTask.xrfnorm_none",
    "SC.XrfTask.xrfnorm_flux",
    "SC.XrfTask.xrfnorm_deadtime"
   ],
   "note": "The appended reductions are those of two levels that the task builds; sum_value has any nesting of sums. nanmean of means is merged too, as in the code (nanmean_append). A slice of a file cannot be appended to a slice of a file (readedf_merge_fails). Data sets are read at the position of the evaluated slice. Left out: caching of the slices and the closing of files."
  },
  {
   "property": "C69",
   "status": "partial",
   "theorems": [
    "SC.XrfTask.groups_spec",
    "SC.XrfTask.singles_spec",
    "SC.XrfTask.sum_new",
    "SC.XrfTask.addDetectors_spec",
    "SC.XrfTask.addDetectors_total",
    "SC.XrfTask.addDetectors_total_group",
    "SC.XrfTask.addFun_spec",
    "SC.XrfTask.corrections_once",
    "SC.XrfTask.corrections_spectra",
    "SC.XrfTask.total_clash",
    "SC.XrfTask.sum_by_name"
   ],
   "note": "groups_spec and singles_spec say which detectors are added and fitted, addDetectors_spec, addDetectors_total_group and addDetectors_total what adding does and that it succeeds, addFun_spec which function is used, corrections_once and corrections_spectra the corrections. Missing: lists that mix names and numbers. Deviations, each with a theorem: with a detector in two groups or an empty group the total has the number of a group (total_clash), and a sum given by name alone is split into characters (sum_by_name)."
  },
  {
   "property": "C70",
   "status": "partial",
   "theorems": [
    "SC.XrfTask.counters_spec",
    "SC.XrfTask.counter_shape",
    "SC.XrfTask.counter_shape_last",
    "SC.XrfTask.missing_counter",
    "SC.XrfTask.pairConfigs_spec",
    "SC.XrfTask.fits_spec",
    "SC.XrfTask.applyPost_spec",
    "SC.XrfTask.addFlux_get2",
    "SC.XrfTask.sort_spec",
    "SC.XrfTask.sort_stable",
    "SC.XrfTask.export_spec",
    "SC.XrfTask.export_columns",
    "SC.XrfTask.export_clash",
    "SC.XrfTask.execute_saved",
    "SC.XrfTask.stacks_spec",
    "SC.XrfTask.corrected_slice",
    "SC.XrfTask.task_detector",
    "SC.XrfTask.task_sum",
    "SC.XrfTask.setup0"
   ],
   "note": "task_detector and task_sum are the property for whole tasks without a total of groups; counters_spec, fits_spec, pairConfigs_spec, applyPost_spec, sort_spec, sort_stable, export_spec and execute_saved are its parts. Deviations, each with a theorem: the shape of the last image decides on the shape of the counters of all images (counter_shape_last), a counter that a later image lacks is found out only when saving and one that the first lacks raises at once (missing_counter), images with another number of columns raise (export_columns), two groups of one name overwrite each other (export_clash). The fits themselves, dead time statistics and flux calibration are parameters."
  },
  {
   "property": "C71",
   "status": "partial",
   "theorems": [
    "SC.Bliss.matching_count",
    "SC.Bliss.matching_sum",
    "SC.Bliss.live_time",
    "SC.Bliss.live_time_events",
    "SC.Bliss.live_time_missing",
    "SC.Bliss.add_spec",
    "SC.Bliss.add_missing",
    "SC.Bliss.pre_add",
    "SC.Bliss.dtcor_spec",
    "SC.Bliss.dtcor_succeeds",
    "SC.Bliss.dtcor_overlap",
    "SC.Bliss.link_two",
    "SC.Bliss.dtcor_truncates",
    "SC.Bliss.addCounters_spec",
    "SC.Bliss.counters_clash",
    "SC.Bliss.pairConfigs_spec",
    "SC.Bliss.saved_sum",
    "SC.Bliss.saved_lost",
    "SC.Bliss.saved_counters",
    "SC.Bliss.saved_counters_one"
   ],
   "note": "pre_add, dtcor_spec and dtcor_succeeds are the first task, saved_sum and saved_counters_one the second, the others their parts. Deviations, each with a theorem: the live time from the number of events is one second (live_time_events), without correction only one detector can be used (link_two), integer spectra lose decimals (dtcor_truncates), a signal that the first detector lacks is lost (saved_lost), counters are multiplied by the number of detectors (saved_counters). The fit itself is a parameter."
  },
  {
   "property": "C72",
   "status": "partial",
   "theorems": [
    "SC.MergeTask.entries_order",
    "SC.MergeTask.entries_task",
    "SC.MergeTask.sources_spec",
    "SC.MergeTask.named_one",
    "SC.MergeTask.split_join",
    "SC.MergeTask.shape_fscan2d",
    "SC.MergeTask.shape_l2scan",
    "SC.MergeTask.shape_mesh",
    "SC.MergeTask.shape_short",
    "SC.MergeTask.merge_dset",
    "SC.MergeTask.merge_soft",
    "SC.MergeTask.merge_nothing_else",
    "SC.MergeTask.merge_missing",
    "SC.MergeTask.relink_absolute",
    "SC.MergeTask.relink_relative",
    "SC.MergeTask.stack_mesh_pre",
    "SC.MergeTask.tile_mesh_pre",
    "SC.MergeTask.stack_sorted",
    "SC.MergeTask.stack_unsorted",
    "SC.MergeTask.stack_no_axis",
    "SC.MergeTask.stack_single",
    "SC.MergeTask.stack_no_scans",
    "SC.MergeTask.stack_missing",
    "SC.MergeTask.tile_spec",
    "SC.MergeTask.tile_axis_longer",
    "SC.MergeTask.merge_scalars",
    "SC.MergeTask.merge_text",
    "SC.MergeTask.image_axes",
    "SC.MergeTask.shape_fallback",
    "SC.MergeTask.shape_first"
   ],
   "note": "stack_sorted, stack_unsorted, stack_single and tile_spec are the property for data sets with one scan dimension (after leading dimensions of length one); merge_dset, merge_soft, merge_nothing_else and merge_missing hold for all groups of data sets. Missing: data sets with detector dimensions in the end theorems. Deviations, each with a theorem: a stack without motor has no axis (stack_no_axis), results instead of scans with a motor raise (stack_no_scans), a result that one scan lacks raises (stack_missing), a mosaic of incomplete scans is smaller than its axis (tile_axis_longer)."
  },
  {
   "property": "C73",
   "status": "partial",
   "theorems": [
    "SC.FitCfg.adapt_active",
    "SC.FitCfg.adapt_lengths",
    "SC.FitCfg.adapt_high",
    "SC.FitCfg.adapt_length",
    "SC.FitCfg.adapt_fails",
    "SC.FitCfg.adapt_count",
    "SC.FitCfg.adaptEnergy_twice",
    "SC.FitCfg.mlines_spec",
    "SC.FitCfg.mlines_twice",
    "SC.FitCfg.quant_spec",
    "SC.FitCfg.adapt_spec",
    "SC.FitCfg.adapt_twice",
    "SC.FitCfg.adapt_keeps",
    "SC.FitCfg.high_accumulates",
    "SC.FitCfg.zero_energy",
    "SC.FitCfg.expand_spec",
    "SC.FitCfg.roi_spec",
    "SC.FitCfg.roi_negative",
    "SC.FitCfg.fit_spec",
    "SC.FitCfg.fit_keeps_energy",
    "SC.FitCfg.strategy_missing"
   ],
   "note": "adapt_active and adapt_high say what the lines are, adapt_twice that earlier energies do not matter, fit_spec is the property for whole series, roi_spec that of regions. Deviations, each with a theorem: a multiple of at most one (addhigh=True) adds a line at each energy (high_accumulates), lines in use without energy get energy zero (zero_energy), an energy that is not finite is fitted with the previous one (adapt_keeps, fit_keeps_energy), no line in use raises (adapt_fails), and a configuration without the flag of the strategy raises unless fits are fast (strategy_missing)."
  },
  {
   "property": "C74",
   "status": "partial",
   "theorems": [
    "SC.XasPipe.sync_each",
    "SC.XasPipe.sync_required",
    "SC.XasPipe.sync_roi",
    "SC.XasPipe.sync_exact",
    "SC.XasPipe.sync_fit",
    "SC.XasPipe.sync_fit_lost",
    "SC.XasPipe.sync_first_missing",
    "SC.XasPipe.sync_no_stat",
    "SC.XasPipe.sync_energy",
    "SC.XasPipe.sync_norm",
    "SC.XasPipe.sync_counter",
    "SC.XasPipe.sync_background",
    "SC.XasPipe.nosync_background",
    "SC.XasPipe.sync_median",
    "SC.XasPipe.sync_roi_median",
    "SC.XasPipe.sync_empty_label",
    "SC.XasPipe.sync_replace",
    "SC.XasPipe.sync_replace_grows",
    "SC.XasPipe.sync_total",
    "SC.XasPipe.sync_total_fit",
    "SC.XasPipe.nosync_default",
    "SC.XasPipe.nosync_counters",
    "SC.XasPipe.nosync_bkgxas",
    "SC.XasPipe.nosync_no_detectors",
    "SC.XasPipe.nosync_one",
    "SC.XasPipe.nosync_mean",
    "SC.XasPipe.nosync_nothing",
    "SC.XasPipe.globStar_iff",
    "SC.XasPipe.xia_sum_lost",
    "SC.XasPipe.xia_single_lost",
    "SC.XasPipe.xia_raw",
    "SC.XasPipe.xia_raw_mixed",
    "SC.XasPipe.xia_no_files",
    "SC.XasPipe.xia_detectors",
    "SC.XasPipe.sync_label_later",
    "SC.XasPipe.sync_required_all",
    "SC.XasPipe.pick_one",
    "SC.XasPipe.pick_many",
    "SC.XasPipe.pick_fails",
    "SC.XasPipe.nosync_detectors"
   ],
   "note": "sync_roi, sync_roi_median, sync_fit, sync_counter, sync_energy and sync_norm are the property for synchronised repeats, sync_exact its aim, sync_required the refusal, sync_each several spectra, sync_total and sync_total_fit that there is a result; nosync_one and nosync_mean are repeats without synchronization, xia_raw and xia_detectors the files. Deviations, each with a theorem: without files in the last repeat nothing is fitted (sync_fit_lost) and without files in the first one the others raise (sync_first_missing), detector files without statistics raise (sync_no_stat), a background of I0 or of a counter other than zero raises because exposure times have units (sync_background, nosync_background), an empty label of exposure times uses I0 counts as times after the first scan (sync_empty_label), the base directory is replaced at every repeat (sync_replace_grows), the default arguments and counters raise without synchronization (nosync_default, nosync_counters) where the background has no effect (nosync_bkgxas), the files with sums of detectors are looked for under the wrong name so that nothing is fitted (xia_sum_lost, xia_single_lost, nosync_nothing), unequal numbers of files mix detectors (xia_raw_mixed). The fits, splines, XiaCorrect and reading of spec files are parameters."
  },
  {
   "property": "C75",
   "status": "proved",
   "theorems": [
    "SC.Xanes.groups_eq",
    "SC.Xanes.groups_partition",
    "SC.Xanes.groups_partition_nosum",
    "SC.Xanes.groups_mem",
    "SC.Xanes.groups_nonempty",
    "SC.Xanes.members_exact",
    "SC.Xanes.members_incomplete",
    "SC.Xanes.members_foreign",
    "SC.Xanes.extractInfo_eq",
    "SC.Xanes.extractInfo_ok",
    "SC.Xanes.extractInfo_first_fails",
    "SC.Xanes.extractInfo_removes",
    "SC.Xanes.extractXanes_look",
    "SC.Xanes.extractXanes_spec"
   ],
   "note": "groups_eq is the whole grouping, groups_partition, groups_partition_nosum and groups_mem that nothing is lost or taken twice, members_exact a complete series, extractInfo_eq and extractInfo_ok the list and when it is made, extractXanes_spec the columns of the scans asked for. Limits of what the grouping can know, each with a theorem: missing repeats are accepted silently (members_incomplete), with skipped repeats other scans are taken (members_foreign), an interpolated sum as first scan raises (extractInfo_first_fails) and removes another scan when its own sum was skipped (extractInfo_removes)."
  },
  {
   "property": "C76",
   "status": "proved",
   "theorems": [
    "SC.EdfHead.fast_header",
    "SC.EdfHead.slow_header",
    "SC.EdfHead.fast_command",
    "SC.EdfHead.slow_command",
    "SC.EdfHead.fast_default",
    "SC.EdfHead.slow_default",
    "SC.EdfHead.vals_result",
    "SC.EdfHead.name_result",
    "SC.EdfHead.mixed",
    "SC.EdfHead.mesh_lost",
    "SC.EdfHead.name_depends",
    "SC.EdfHead.size_unchecked",
    "SC.EdfHead.zero_pixels"
   ],
   "note": "fast_header and slow_header are the property, fast_command and slow_command the use of the command, fast_default and slow_default the axes in pixels, vals_result the positions and name_result the kind of scan. Headers outside of the property, each with a theorem: a header without the end of the range is mixed with the command (mixed), the fast motor of a mesh is lost (mesh_lost), the name of the axis depends on the presence of a compensating motor (name_depends), the numbers of pixels of header and image are not compared (size_unchecked), zero pixels raise ZeroDivisionError (zero_pixels)."
  },
  {
   "property": "C77",
   "status": "partial",
   "theorems": [
    "SC.SpecFile.data_ok",
    "SC.SpecFile.data_error",
    "SC.SpecFile.motors_ok",
    "SC.SpecFile.has_iff",
    "SC.SpecFile.case_hidden",
    "SC.SpecFile.loc_lines",
    "SC.SpecFile.loc_file",
    "SC.SpecFile.loc_colon",
    "SC.SpecFile.images_last",
    "SC.SpecFile.contains_iff",
    "SC.SpecFile.image_header",
    "SC.SpecFile.image_fast_partial",
    "SC.SpecFile.images_slow",
    "SC.SpecFile.images_comment"
   ],
   "note": "data_ok, data_error, motors_ok and has_iff are the look-up by name, loc_lines and loc_file the location, images_last the list of images, image_header their key and place, image_fast_partial the fast direction. Missing because it is false: size and step of the slow direction are computed from the fast one (images_slow). Further deviations: of labels that differ in case only the first is found (case_hidden), a directory with a colon is not seen (loc_colon), a comment without colon makes the list of images fail (images_comment)."
  },
  {
   "property": "C78",
   "status": "proved",
   "theorems": [
    "SC.Quadric.plane_value",
    "SC.Quadric.ellipsoid_value",
    "SC.Quadric.cylinder_value",
    "SC.Quadric.cylinder_axis",
    "SC.Quadric.plane_symm",
    "SC.Quadric.quadsum1_symm",
    "SC.Quadric.changeOfFrame_value",
    "SC.Quadric.changeOfFrame_comp",
    "SC.Quadric.ellipsoid_shift",
    "SC.Lsq.program_ok",
    "SC.Lsq.program_cost",
    "SC.Lsq.program_solution",
    "SC.Lsq.nonneg_solution",
    "SC.Lsq.norm_solution",
    "SC.Lsq.program_one",
    "SC.Lsq.program_negative"
   ],
   "note": "plane_value, ellipsoid_value, cylinder_value, cylinder_axis, plane_symm, quadsum1_symm, changeOfFrame_value, changeOfFrame_comp and ellipsoid_shift are the quadrics; program_ok, program_cost and program_solution are the constrained fit, nonneg_solution and norm_solution the two special ones. Limits, each with a theorem: one single inequality always raises (program_one), a negative regularization is silently ignored (program_negative)."
  },
  {
   "property": "C79",
   "status": "partial",
   "theorems": [
    "SC.AlignSimple.getxy_iff",
    "SC.AlignSimple.kernel_moved",
    "SC.AlignSimple.aligned_marker",
    "SC.AlignSimple.aligned_moved",
    "SC.AlignSimple.getxy_none",
    "SC.AlignSimple.zero_counts",
    "SC.AlignSimple.zero_wrong",
    "SC.AlignSimple.kernel_centroid",
    "SC.AlignSimple.centroid_swapped"
   ],
   "note": "getxy_iff is the marker, kernel_moved the movement, aligned_marker and aligned_moved the corrected image, getxy_none the absence of a marker; kernel_centroid is the movement for centroids on images without missing pixels in the window. Hypothesis: the value for missing pixels is not zero; with zero the missing pixels do count (zero_counts) and a darkest pixel can be a missing one (zero_wrong). centroid_swapped shows that centroids are returned with rows and columns exchanged, which cancels in the movement when the reference is a centroid too. Missing: the fit of a gaussian."
  },
  {
   "property": "C80",
   "status": "partial",
   "theorems": [
    "SC.Units.magnitude_ok",
    "SC.Units.magnitude_iff",
    "SC.Units.quantity_phys",
    "SC.Units.quantity_force",
    "SC.Units.to_phys",
    "SC.Units.to_mags",
    "SC.Units.umagnitude_ok",
    "SC.Units.quantityLike_ok",
    "SC.Units.unitsto_ok",
    "SC.Units.unitsto_error",
    "SC.Units.unitsto_finds",
    "SC.Units.operands_ok",
    "SC.Units.operands_lt",
    "SC.Units.mixed_relabelled",
    "SC.Units.operands_asymmetric",
    "SC.Units.quantityLike_units"
   ],
   "note": "magnitude_ok and magnitude_iff are magnitudes, quantity_phys and quantity_force quantities, to_phys and to_mags conversions, umagnitude_ok the magnitudes of quantities, quantityLike_ok quantities like others, unitsto_ok, unitsto_error and unitsto_finds the first fitting unit, operands_ok and operands_lt comparisons. Lists are Uniform: all numbers or all quantities. Without that it is false: after a number a dimensionless quantity gets the default unit (mixed_relabelled). Further limits: numbers are allowed as second operand only (operands_asymmetric), and a list in several units of one dimension cannot be followed (quantityLike_units)."
  },
  {
   "property": "C81",
   "status": "partial",
   "theorems": [
    "SC.LocalFs.mkdir_keeps",
    "SC.LocalFs.mkdir_existing",
    "SC.LocalFs.destination_below",
    "SC.LocalFs.destination_path",
    "SC.LocalFs.mkdir_isdir",
    "SC.LocalFs.mkdir_broken",
    "SC.LocalFs.remove_tree",
    "SC.LocalFs.remove_one",
    "SC.LocalFs.remove_only",
    "SC.LocalFs.remove_link",
    "SC.LocalFs.remove_link_data",
    "SC.LocalFs.remove_circle",
    "SC.LocalFs.move_ok",
    "SC.LocalFs.move_error",
    "SC.LocalFs.move_self_lost",
    "SC.LocalFs.move_missing_lost",
    "SC.LocalFs.move_leaves_dirs",
    "SC.LocalFs.copy_ok",
    "SC.LocalFs.copy_keeps",
    "SC.LocalFs.copy_link",
    "SC.LocalFs.copy_link_lost",
    "SC.LocalFs.link_dest",
    "SC.LocalFs.moved_link",
    "SC.LocalFs.moved_link_alone",
    "SC.LocalFs.renameremove_taken",
    "SC.LocalFs.renameremove_free",
    "SC.LocalFs.run_wf"
   ],
   "note": "mkdir_keeps and mkdir_isdir are directories, remove_tree, remove_one and remove_only removal, move_ok and move_error moves, copy_ok and copy_keeps copies, link_dest and moved_link links, renameremove_taken and renameremove_free temporary names, run_wf all sequences. Where it is false: a broken link makes mkdir succeed without a directory (mkdir_broken); removing a link recursively removes the data it leads to (remove_link, remove_link_data) and a circle raises RecursionError (remove_circle); with force a move to its own place, a move of something missing and a copy of a link lose data (move_self_lost, move_missing_lost, copy_link_lost); a link cannot be copied at all without following (copy_link); a failed move leaves new directories (move_leaves_dirs); a link moved alone leads elsewhere (moved_link_alone). Hypotheses: with force the destination is not a link. Missing: paths through links to directories, copies into the own directory, dereference, hard links, several devices."
  },
  {
   "property": "C82",
   "status": "partial",
   "theorems": [
    "SC.FFSim.chainPlain_forward",
    "SC.FFSim.chainPlain_roundtrip",
    "SC.FFSim.chainPlain_backward",
    "SC.FFSim.photontoDU_line",
    "SC.FFSim.photontoDU_total",
    "SC.FFSim.transmission_exact",
    "SC.FFSim.absorbance_exact",
    "SC.FFSim.transmission_nodark",
    "SC.FFSim.flux_flat_roundtrip",
    "SC.FFSim.flux_flat_iff",
    "SC.FFSim.flux_from_photons",
    "SC.FFSim.getnframes_min",
    "SC.FFSim.getnframes_data",
    "SC.FFSim.getnframes_flat",
    "SC.FFSim.getnframes_flat_wrong",
    "SC.FFSim.getnframes_flat_indep",
    "SC.FFSim.absorption_bounds",
    "SC.FFSim.absorption_stack",
    "SC.FFSim.lens_transmission_bounds",
    "SC.FFSim.lightyield_formula",
    "SC.FFSim.chainNoise_spec",
    "SC.FFSim.electronVar_poisson",
    "SC.FFSim.dark_variance",
    "SC.FFSim.dark_variance_iff",
    "SC.FFSim.chainArray_spec",
    "SC.FFSim.array_noise_differs",
    "SC.FFSim.approx_backward_none"
   ],
   "note": "chainPlain_forward, chainPlain_roundtrip and chainPlain_backward are the chain without noise, photontoDU_line the line, transmission_exact and absorbance_exact the measurement, chainNoise_spec the chain with noise (expectation, variance, inverse) and electronVar_poisson its closed form for counting statistics. Where it is false: arrays are propagated without the noise of the processes (chainArray_spec, array_noise_differs); poissonapprox is not known backward, which then has no result (approx_backward_none); the dark current has the variance dc t^2 instead of dc t (dark_variance, dark_variance_iff); without dark images transmission divides by zero (transmission_nodark); flux to flat and back divides by the frame time (flux_flat_roundtrip, flux_flat_iff); flat frames are counted with the time of data frames (getnframes_flat_wrong). Missing: the uncertainty of the transmission, whose images are correlated in the uncertainties package."
  },
  {
   "property": "C83",
   "status": "partial",
   "theorems": [
    "SC.Lazy.build_call",
    "SC.Lazy.build_lazy",
    "SC.Lazy.build_total",
    "SC.Lazy.build_name",
    "SC.Lazy.render_split",
    "SC.Lazy.name_determines",
    "SC.Lazy.divmod_error",
    "SC.Lazy.divmod_value",
    "SC.Lazy.divmod_name",
    "SC.Lazy.and_asymmetric",
    "SC.Lazy.not_wrong",
    "SC.Lazy.same_name"
   ],
   "note": "build_call is the value, build_lazy when the result is a function, build_total that it can be built, build_name, render_split and name_determines names. Where it is false: divmod of a function raises AttributeError (divmod_error) and of a value and a function computes the remainder under the name divmod (divmod_value, divmod_name); a value with & or | on the left raises TypeError (and_asymmetric); not f is always false (not_wrong); functions without a name share the name of their Python function (same_name). Hypotheses: comparisons of values can be exchanged; names are words or words with one pair of brackets, and texts of values are words (no sign). Missing: values with own operators for functions (numpy arrays), names with a sign."
  },
  {
   "property": "C84",
   "status": "partial",
   "theorems": [
    "SC.Browse.tree_all",
    "SC.Browse.treeList_all",
    "SC.Browse.treeList_depth",
    "SC.Browse.treeList_negative",
    "SC.Browse.find_flat",
    "SC.Browse.find_recursive_flat",
    "SC.Browse.find_deep",
    "SC.Browse.nonexistingName_free",
    "SC.Browse.nonexistingName_keep",
    "SC.Browse.nonexistingName_series",
    "SC.Browse.nonexistingName_first",
    "SC.Browse.splitNumber_numbered",
    "SC.Browse.splitNumber_sound",
    "SC.Browse.numberedFmt_eq",
    "SC.Browse.numberedFmt_braces",
    "SC.Browse.iterup_eq",
    "SC.Browse.mem_iterup",
    "SC.Browse.root_eq",
    "SC.Browse.common_spec",
    "SC.Browse.common_device",
    "SC.Browse.run_closed",
    "SC.Browse.run_order",
    "SC.Browse.run_asked",
    "SC.Browse.run_all",
    "SC.Browse.callback_lost"
   ],
   "note": "tree_all, treeList_all and treeList_depth for trees; find_flat and find_deep for searches; nonexistingName_free, nonexistingName_keep, nonexistingName_series, nonexistingName_first, splitNumber_numbered, splitNumber_sound and numberedFmt_eq for names; mem_iterup, root_eq and common_spec for ancestors; run_closed, run_order and run_all for open files. Where it is false: a negative depth lists everything (treeList_negative); a recursive search with depth zero or more never goes into a directory (find_recursive_flat); names with braces raise or give another name (numberedFmt_braces); a postponed function that fails drops the ones after it (callback_lost). Missing: links, searches with a regular expression as text (match is given a path object, TypeError), postponed functions that open the file again."
  },
  {
   "property": "C85",
   "status": "partial",
   "theorems": [
    "SC.Jobs.runNumbers_spec",
    "SC.Jobs.runAll_spec",
    "SC.Jobs.runAll_fails",
    "SC.Jobs.execute_exists",
    "SC.Jobs.range_fails",
    "SC.Jobs.zero_runs_last",
    "SC.Jobs.listing_line",
    "SC.Jobs.listing_aligned",
    "SC.Jobs.listing_shifted",
    "SC.Jobs.hms_spec",
    "SC.Jobs.hms_neg",
    "SC.Jobs.deltaSeconds_day",
    "SC.Jobs.deltaSeconds_short",
    "SC.Jobs.printprogress_spec",
    "SC.Jobs.printprogress_zero",
    "SC.Jobs.detectors_eq",
    "SC.Jobs.process_range",
    "SC.Jobs.process_monotone",
    "SC.Jobs.process_back"
   ],
   "note": "runNumbers_spec, runAll_spec, runAll_fails and execute_exists for jobs; listing_line and listing_aligned for the list; hms_spec and hms_neg for times; printprogress_spec, process_range and process_monotone for progress. Where it is false: a range of jobs raises TypeError before any job runs (range_fails); job 0 is the last job (zero_runs_last); with ten, a hundred, ... jobs the last line is shifted (listing_shifted); elapsed times start again after a day (deltaSeconds_day); printing before any work raises ZeroDivisionError (printprogress_zero); with several detectors the progress starts again with each detector (detectors_eq, process_back). Missing: parsing of the arguments, rounding of floats in times."
  },
  {
   "property": "C86",
   "status": "partial",
   "theorems": [
    "SC.Excel.applyAll_sat",
    "SC.Excel.step_inv",
    "SC.Excel.steps_sat",
    "SC.Excel.value_kept",
    "SC.Excel.unknown_column_breaks",
    "SC.Excel.stale",
    "SC.Excel.cell_refuses",
    "SC.Excel.ops1_result"
   ],
   "note": "steps_sat for series of operations on a new sheet, step_inv for one operation, applyAll_sat for one pass over the formulas, value_kept for entered values. Sat states where formulas meet: with row priority a column formula need not hold in the rows of row formulas, and formulas that write or read a cell with a cell formula are excepted. Where it is false: a formula that is referred to before it is added is not up to date after a change (stale); a formula with an unknown column stays in the dictionary and every later operation raises KeyError (unknown_column_breaks); a cell formula that refers to another cell of its row is refused (cell_refuses). Missing: replaced formulas, rows and columns added as lists, concat (does not apply formulas), formats and criteria, the evaluation of the text of a formula."
  },
  {
   "property": "C87",
   "status": "partial",
   "theorems": [
    "SC.Xrmc.body_runs",
    "SC.Xrmc.mkAxis_undo",
    "SC.Xrmc.retour_undoes",
    "SC.Xrmc.rotationLoop_undo",
    "SC.Xrmc.rotationLoop_together",
    "SC.Xrmc.outputs_distinct",
    "SC.Xrmc.outputs_written",
    "SC.Xrmc.suffix_inj",
    "SC.Xrmc.suffix_length",
    "SC.Xrmc.frames_inverse",
    "SC.Xrmc.rotation_add",
    "SC.Xrmc.rotation_neg",
    "SC.Xrmc.rotation_direction",
    "SC.Xrmc.quadricFrame_inverse",
    "SC.Xrmc.quadricFrame_origin",
    "SC.Xrmc.transformed_value",
    "SC.Xrmc.layers_ordered",
    "SC.Xrmc.layer_inside",
    "SC.Xrmc.retour_order",
    "SC.Xrmc.device_twice",
    "SC.Xrmc.userToXrmc_origin",
    "SC.Xrmc.frames_disagree",
    "SC.Xrmc.rotation_axis_length",
    "SC.Xrmc.quadric_lost",
    "SC.Xrmc.cylinder_fails",
    "SC.Xrmc.layers_overlap"
   ],
   "note": "body_runs for the whole main file, with rotationLoop_undo and mkAxis_undo for its hypothesis and retour_undoes for the moves; outputs_distinct, outputs_written, suffix_inj and suffix_length for the names; frames_inverse, rotation_add, rotation_direction, quadricFrame_inverse, quadricFrame_origin, transformed_value for the frames; layers_ordered and layer_inside for layers. Where it is false: a step with two moves that do not commute is not undone by its retour (retour_order, device_twice); userToXrmc and the frame of the quadrics of the same device have opposite angles (userToXrmc_origin, frames_disagree); an axis that is not a unit vector changes the angle (rotation_axis_length); a general quadric of a fixed device loses terms (quadric_lost), a cylinder always fails (cylinder_fails); a layer of negative thickness overlaps the previous one (layers_overlap). Missing: what the xrmc program itself does (its lines are given the matrices of the class), the text of the files, sources, detectors, spectra and the polar rotation loop."
  },
  {
   "property": "C88",
   "status": "partial",
   "theorems": [
    "SC.Csutils.eval_dims",
    "SC.Csutils.eval_value",
    "SC.Csutils.eval_num",
    "SC.Csutils.eval_zero_dim",
    "SC.Csutils.replace_value",
    "SC.Csutils.replace_fails"
   ],
   "note": "eval_dims and eval_value are the property for arrays, eval_num and eval_zero_dim for numbers, replace_value for the simulated cross sections. The functions of xraylib_np are taken to give the same table as those of xraylib. Where it is false: as soon as a tabulated partial cross section is larger than the total at one energy the correction raises instead of interpolating (replace_fails). Missing: the data frame, units of the energies, the interpolation without any point."
  },
  {
   "property": "C89",
   "status": "partial",
   "theorems": [
    "SC.Overlay.arrange_over",
    "SC.Overlay.show_over",
    "SC.Overlay.overlay_over",
    "SC.Overlay.origin_increasing",
    "SC.Overlay.markers_true",
    "SC.Overlay.orientation",
    "SC.Overlay.axis_position",
    "SC.Overlay.axis_fails",
    "SC.Overlay.intensity_range",
    "SC.Overlay.intensity_mono",
    "SC.Overlay.intensity_full",
    "SC.Overlay.intensity_top",
    "SC.Overlay.intensity_background",
    "SC.Overlay.intensity_negative",
    "SC.Ternary.round_trip",
    "SC.Ternary.round_trip'",
    "SC.Ternary.corners",
    "SC.Ternary.barycentric",
    "SC.Ternary.share_distance",
    "SC.Ternary.point_lines",
    "SC.Ternary.grid_lines",
    "SC.Ternary.norm_range"
   ],
   "note": "overlay_over and show_over are the property for the markers, origin_increasing, markers_true and orientation for the options, axis_position for the motors. Where it is false: the intensity is divided by the high end of the range instead of by its width, so the high end is only bright when the range starts at zero (intensity_full, intensity_background, intensity_negative), and the default coordinates without fixed motors raise (axis_fails). Missing: the spline itself (a parameter that passes through its data), irregular grids, the reading of the files."
  },
  {
   "property": "C90",
   "status": "partial",
   "theorems": [
    "SC.XiaNx.chunks_partition",
    "SC.XiaNx.chunks_memory",
    "SC.XiaNx.copyIndex_none",
    "SC.XiaNx.copy_all",
    "SC.XiaNx.skip_spec",
    "SC.XiaNx.counters_stored",
    "SC.XiaNx.link_spec",
    "SC.XiaNx.same_counter",
    "SC.XiaNx.times_calculated",
    "SC.XiaNx.times_fraction",
    "SC.XiaNx.times_measured",
    "SC.XiaNx.task_failed",
    "SC.XiaNx.task_done"
   ],
   "note": "chunks_partition, chunks_memory and copy_all are the property for the spectra, skip_spec, counters_stored and link_spec for the counters, times_calculated, times_fraction and times_measured for the times, task_failed and task_done for the file. Where it is false: with one counter for both fluxes the flux before the sample is not linked (same_counter); nothing to copy raises a division by zero (copyIndex_none); an output made in the meantime is kept and the conversion dropped (task_done). Missing: positions, energy, geometry, the NeXus groups and what a second counter of the same name does."
  },
  {
   "property": "C91",
   "status": "partial",
   "theorems": [
    "SC.Xmimsim.beam_size",
    "SC.Xmimsim.first_layer",
    "SC.Xmimsim.layers_padded",
    "SC.Xmimsim.layers_lost",
    "SC.Xmimsim.attenuators_padded",
    "SC.Xmimsim.run_spec",
    "SC.Xmimsim.last_result",
    "SC.Xmimsim.last_stale",
    "SC.Xmimsim.patch_length",
    "SC.Xmimsim.patch_other",
    "SC.Xmimsim.patch_output",
    "SC.Xmimsim.patch_width",
    "SC.Xmimsim.patch_width_other",
    "SC.Xmimsim.detector_patched",
    "SC.Xmimsim.spe_energy",
    "SC.Xmimsim.spe_default",
    "SC.Xmimsim.spe_fails"
   ],
   "note": "Where it is false: layers that are not numbered from zero are overwritten (layers_lost), every pulse width that ends in 1e-5 is replaced (patch_width_other), results of an earlier simulation with more interactions in the same directory are read (last_stale), calibrations with two spaces or three coefficients raise (spe_fails). Missing: the programs and their files, the command line arguments, the conversion of the configuration by PyMca."
  },
  {
   "property": "C92",
   "status": "proved",
   "theorems": [
    "SC.Outlier.fixed_count",
    "SC.Outlier.fixed_largest",
    "SC.Outlier.mad_spec",
    "SC.Outlier.mad_half",
    "SC.Outlier.mad_constant",
    "SC.Outlier.affine_invariant",
    "SC.Tile.tile_rows",
    "SC.Tile.tile_columns",
    "SC.Tile.tile_diagonal",
    "SC.Tile.inj_c"
   ],
   "note": "Weak point of the code: with more than half of the values the same there are no outliers, however far the others are (mad_constant). A negative number of outliers leaves that many values unmarked (fixed_count)."
  },
  {
   "property": "C93",
   "status": "partial",
   "theorems": [
    "SC.TruncNorm.cdfN_eq",
    "SC.TruncNorm.delta_eq",
    "SC.TruncNorm.pdf_density",
    "SC.TruncNorm.cdf_spec",
    "SC.TruncNorm.ppf_cdf",
    "SC.TruncNorm.cdf_ppf",
    "SC.TruncNorm.mean_spec",
    "SC.TruncNorm.variance_spec",
    "SC.TruncNorm.limited_mean",
    "SC.TruncNorm.hole_not_flipped",
    "SC.TruncNorm.ppfN_exists"
   ],
   "note": "Over the real numbers with the integrals of Mathlib. Where it is false: the distribution with a hole is the truncated one, its density is the highest in the middle (hole_not_flipped). Missing: limitednorm_gen, which is not used and lacks its limit and offset; the logarithms; the generic methods of scipy."
  },
  {
   "property": "C94",
   "status": "partial",
   "theorems": [
    "SC.TextLog.lines_clean",
    "SC.TextLog.lines_found",
    "SC.TextLog.session_spec",
    "SC.TextLog.no_lines",
    "SC.TextLog.save_spec",
    "SC.TextLog.save_loses",
    "SC.TextLog.label_spec",
    "SC.TextLog.label_empty",
    "SC.TextLog.stack_spec"
   ],
   "note": "Where it is false: when writing fails the old image is already removed (save_loses), a file name without extension has an empty label (label_empty), no lines at all give an empty line (no_lines). Missing: the axes from the headers, stacks of XIA images, reading tables of numbers."
  },
  {
   "property": "C95",
   "status": "partial",
   "theorems": [
    "SC.EmSpectrum.sample_mean",
    "SC.EmSpectrum.sample_empty",
    "SC.EmSpectrum.mean_bounds",
    "SC.EmSpectrum.mean_scale",
    "SC.EmSpectrum.add_lines",
    "SC.EmSpectrum.dark_lost",
    "SC.EmSpectrum.sample_zero"
   ],
   "note": "Where it is false: intensities with sum zero have no mean (sample_zero); adding lines in place to a dark source loses the source (dark_lost). Missing: pint units, the conversion is a parameter."
  },
  {
   "property": "C96",
   "status": "partial",
   "theorems": [
    "SC.NxFile.parse_spec",
    "SC.NxFile.steps_roundtrip",
    "SC.NxFile.class_spec",
    "SC.NxFile.class_stops",
    "SC.NxFile.root_subentry",
    "SC.NxFile.default_follow",
    "SC.NxFile.default_dataset",
    "SC.NxFile.axes_roundtrip",
    "SC.NxFile.axes_lost"
   ],
   "note": "Where it is false: axes with a colon in their name and an empty list of axes are not found again (axes_lost); a root without class becomes a subentry (root_subentry); parents above one with a class keep having none (class_stops). Missing: the contents of the steps, steps that are deleted, hard links."
  },
  {
   "property": "C97",
   "status": "partial",
   "theorems": [
    "SC.Interact.energy_spec",
    "SC.Interact.energy_order",
    "SC.Interact.forward_fails",
    "SC.Interact.name_inj",
    "SC.Interact.same_spec",
    "SC.Interact.lt_source",
    "SC.Interact.angles_ignored"
   ],
   "note": "Where it is false: an inelastic scattering at angle zero has no energy, because the property calls itself (forward_fails); scattering at different angles is equal although one sorts before the other (angles_ignored). Missing: the conversion of the angle to a change of inverse energy (taken as not negative), energies and probabilities of fluorescence lines, comparison with other objects, rounding."
  }
 ]
}
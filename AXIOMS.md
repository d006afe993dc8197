# Axioms of the theorems in the manifest

Printed by `#print axioms`. P: `propext`, C: `Classical.choice`, Q: `Quot.sound`; these are the axioms of Lean and Mathlib. No theorem depends on anything else.

## C01

- **P**: `Indexing.getitem_bool_list_bug`, `Indexing.getitem_full_ellipsis_raises`, `Indexing.getitem_accepts_bad_mask`, `Indexing.bool_scalar_numpy`
- **P, C, Q**: `Indexing.getitem_refines_numpy_partial`, `Indexing.getitem_lazy_partial`
- **P, Q**: `Indexing.getitem_1d_raises`, `Indexing.getitem_bool_scalar`

## C02

- **P**: `Indexing.shape_afterindexing_no_broadcast`
- **P, C, Q**: `Indexing.shape_afterindexing_eq_partial`, `Indexing.axesorder_meaning_partial`

## C03

- **P, C, Q**: `Indexing.expand_same_selection`, `Indexing.expand_one_per_dim`, `Indexing.positiveaxis_spec`, `Indexing.axisindex_spec`, `Indexing.replace_one`, `Indexing.extract_newaxis_same_selection_partial`, `Indexing.move_axis_spec`, `Indexing.fulldim_spec`

## C04

- **P, C, Q**: `Slicing.slice_generator_partition`, `Slicing.slice_generator_length`, `Slicing.slice_generator_limit_partial`, `Slicing.slice_generator_maximal`, `Slicing.slice_generator_exceeds`, `Slicing.slice_generator_0d`

## C05

- **P, C, Q**: `Roi.clip_inBounds`, `Roi.clip_slice`, `Roi.clip_idempotent`
- **P, Q**: `Roi.clip_beyond_end`, `Roi.clip_inRange`, `Roi.cliproi_spec`

## C06

- **P**: `Roi.mergeroi1d_reversed_order_dependent`
- **P, C, Q**: `Roi.mergeroi1d_union`, `Roi.mergeroi1d_perm`, `Roi.mergeroi1d_idempotent`
- **P, Q**: `Roi.mergeroi1d_separated`, `Roi.mergeroi1d_valid`

## C07

- **P, Q**: `Cache.ldict_bounded`, `Cache.ldict_fifo`, `Cache.ldict_read`, `Cache.ldict_window`, `Cache.ldict_init`, `Cache.ldict_negative_limit`

## C08

- **P**: `Cache.inner_scope_transparent`, `Cache.read_outside_scope`
- **P, Q**: `Cache.scope_computes_once`, `Cache.exec_keeps`, `Cache.exec_restores_store_partial`, `Cache.leak_on_exception`, `Cache.stale_forever`

## C09

- **P, C, Q**: `IntBase.base2int_int2base`, `IntBase.int2base_spec`, `IntBase.int2base_length`, `IntBase.int2base_injective`, `IntBase.int2base_base2int`, `IntBase.base2int_int2base_neg`
- **P, Q**: `IntBase.base2int_foreign`, `IntBase.unary_loop_diverges`

## C10

- **P**: `ListTools.unique2lists_nil`
- **P, Q**: `ListTools.unique2listsAdd_spec`, `ListTools.sumrepeats_spec`, `ListTools.unique2listsFirst_spec`

## C11

- **P, C, Q**: `Lut.lut_table`, `Lut.lut_order_independent`, `Lut.lut_call_key`, `Lut.lut_call_outside`, `Lut.lut_call_between`, `Lut.lut_call_bounded`, `Lut.lut_restore`, `Lut.lut_length_mismatch`
- **P, Q**: `Lut.lut_call_empty`, `Lut.lut_add_nothing`, `Lut.lut_len_empty`

## C12

- **P**: `ListTools.sort2lists_nil`, `ListTools.swap_error`, `ListTools.roll_neg`, `ListTools.roll_neg_not_inverse`, `ListTools.flatten_idempotent`, `ListTools.listadvancedBool_filter`
- **P, C, Q**: `ListTools.move_spec`, `ListTools.move_inverse`, `ListTools.listadvancedBool_partition`, `ListTools.where_select`
- **P, Q**: `ListTools.sort2lists_spec`, `ListTools.uniqueEverseen_spec`, `ListTools.uniqueEverseen_nodup`, `ListTools.swap_spec`, `ListTools.swap_involutive`, `ListTools.move_perm`, `ListTools.roll_spec`, `ListTools.roll_inverse`, `ListTools.flatten_spec`, `ListTools.listadvancedInt_spec`

## C13

- **P, C, Q**: `Linop.mul_eval_partial`, `Linop.product_eval_partial`, `Linop.product_eval_left_partial`, `Linop.pow_eval_partial`, `Linop.inverse_apply_partial`, `Linop.inverse_sound_partial`, `Linop.mul_zero_slope`, `Linop.pow_zero_wrong`, `Linop.pow_drops_right`, `Linop.inverse_inverse_clip`

## C14

- **P, C, Q**: `Transform.hom_before`, `Transform.hom_after`, `Transform.hom_sequence`, `Transform.inverse_spec`, `Transform.inverse_singular`, `Transform.newFrame_spec`, `Transform.coordinates_inverse_spec`, `Transform.coordinates_spec`, `Transform.coordinates_after`, `Transform.coordinates_inverse`, `Transform.combine_type`, `Transform.inverse_type`, `Transform.samplePoint_partial`, `Transform.samplePoint_wrong`, `Transform.samplePoint_projective_ignored`, `Transform.dotinplace_spec`, `Transform.newFrameInplace_spec`, `Transform.newFrameInplace_self`, `Transform.setprojective_type_wrong`, `Transform.translation_homogeneous`
- **P, Q**: `Transform.copy_shares`, `Transform.settranslation_get`, `Transform.setlinear_get`, `Transform.getaffine_wrong`, `Transform.setrigid_translation`, `Transform.fromtransform_broken`

## C15

- **P, C, Q**: `Stoich.conversions_correct`, `Stoich.densities_correct`, `Stoich.roundtrips`, `Stoich.addFrac_spec`
- **P, Q**: `Stoich.addFrac_refuses`

## C16

- **P, C, Q**: `Noise.reverseAdd_spec`, `Noise.reverseAdd_sound`, `Noise.reverseAdd_none`, `Noise.reverseSub_spec`, `Noise.reverseSub_sound`, `Noise.reverseMult_spec`, `Noise.reverseMult_sound`, `Noise.reverseDiv_spec`, `Noise.reverseDiv_sound`, `Noise.reverseLog_spec`, `Noise.reverseLog_total`, `Noise.repeat_roundtrip`, `Noise.repeat_snr`, `Noise.repeat_repeat`, `Noise.repeat_is_sum`, `Noise.compound_roundtrip`, `Noise.compound_fixed`, `Noise.compound_poisson_bernouilli`, `Noise.compound_assoc`, `Noise.compound_total`

## C17

- **P**: `ParamTree.SubNode.getSub_own`, `ParamTree.SubNode.getSub_parent_partial`, `ParamTree.SubNode.getSub_grandparent`
- **P, C, Q**: `ParamTree.getitem_nearest`, `ParamTree.setitem_get`, `ParamTree.setitem_local`, `ParamTree.setitem_inherited`, `ParamTree.deleteLocal_restores`, `ParamTree.delitem_spec`, `ParamTree.updateRecursive_single`, `ParamTree.remove_spec`, `ParamTree.insertBefore_new`, `ParamTree.insertAfter_new`, `ParamTree.branch_spec`, `ParamTree.run_wf`, `ParamTree.run_getitem`, `ParamTree.equal_value_not_stored`
- **P, Q**: `ParamTree.keys_spec`, `ParamTree.insertBefore_root`, `ParamTree.insertAfter_default`, `ParamTree.SubNode.getSub_mutates`

## C18

- **P**: `Process.nested_directory`
- **P, C, Q**: `Process.others_untouched`, `Process.no_partial_result`, `Process.all_or_nothing_partial`, `Process.body_exception`, `Process.success`, `Process.answered_not_run`, `Process.second_run`, `Process.killed_before_move`, `Process.signal_before_move`, `Process.setup_failure`, `Process.signal_in_setup`, `Process.default_raises`, `Process.stale_cache`, `Process.leftover_reused`, `Process.skipped_only_if_done`

## C19

- **P, C, Q**: `Process.find_sound`, `Process.find_complete`, `Process.nxprocess_spec`, `Process.nxprocess_name`, `Process.nxprocess_total`, `Process.nxprocess_again_partial`, `Process.request_dict_order`, `Process.answer_inj_deps`, `Process.answer_inj_nodeps`, `Process.index_after_deps`, `Process.deps_params_collide`, `Process.dict_list_request`, `Process.unstable_not_found`, `Process.missing_entry_searches_all`

## C20

- **P**: `Signals.teardown_twice`, `Signals.setup_raises`, `Signals.setup_raises_later`, `Signals.teardown_raises`, `Signals.teardown_raises_in_handler`, `Signals.signal_while_replacing`, `Signals.unknown_handler`, `Signals.default_swallowed`, `Signals.signal_in_setup`
- **P, C, Q**: `Signals.at_most_once_partial`, `Signals.signal_cleanup`
- **P, Q**: `Signals.idle_handlers`, `Signals.handlers_two`, `Signals.finished_partial`, `Signals.exactly_once_partial`, `Signals.after_end`, `Signals.enter_installs`

## C21

- **P, C, Q**: `H5.open_spec`, `H5.open_attempts`, `H5.open_handle_iff`, `H5.open_mono`, `H5.open_reraise`, `H5.open_missing`, `H5.open_exclusive`, `H5.errno_known`, `H5.last_error_lost`, `H5.no_retries`, `H5.name_confuses`, `H5.errno_number`, `H5.errno_message`

## C22

- **P**: `H5.Modes.deviceMode_spec`, `H5.Modes.wminus_refused`
- **P, Q**: `H5.Modes.fopen_read`, `H5.Modes.fopen_exclusive`, `H5.Modes.fopen_append`, `H5.Modes.fopen_create`, `H5.Modes.fopen_write_dataset`, `H5.Modes.fopen_write_kind`, `H5.Modes.fopen_readonly`, `H5.Modes.fopen_wf`, `H5.Modes.fopen_error_partial`, `H5.Modes.open_read_partial`, `H5.Modes.open_readonly`, `H5.Modes.open_existing_partial`, `H5.Modes.open_nested`, `H5.Modes.open_rplus_missing`, `H5.Modes.read_truncates`, `H5.Modes.read_creates`, `H5.Modes.rplus_creates`, `H5.Modes.write_destroys_group`, `H5.Modes.write_destroys_dataset`, `H5.Modes.append_without_arguments`

## C23

- **P, C, Q**: `NXdata.bookkeeping_partial`, `NXdata.no_signal_lost`, `NXdata.add_is_default`, `NXdata.default_signal_spec`, `NXdata.remove_signal_spec`, `NXdata.sort_signals_spec`, `NXdata.set_default_spec`, `NXdata.readd_duplicates`, `NXdata.remove_only_stale`, `NXdata.bookkeeping_false`, `NXdata.sort_none_raises`
- **P, Q**: `NXdata.set_default_none`

## C24

- **P, C, Q**: `Axis.regular_consistent`, `Axis.regular_no_steps`, `Axis.regularInc_consistent`, `Axis.regular_inc_agree`, `Axis.number_consistent`, `Axis.setSize_spec`, `Axis.incSize_spec`, `Axis.setStart_grows`, `Axis.incStart_grows`, `Axis.zapscan_spec`, `Axis.ascan_spec`, `Axis.segments_consistent`, `Axis.segments_endStep_two`, `Axis.segments_endStep_wrong`, `Axis.roundEven_near`, `Axis.setSteps_exact`, `Axis.simplify_close`, `Axis.simplify_exact`, `Axis.simplify_moves`, `Axis.simplify_empty`, `Axis.closest_spec`, `Axis.closest_self`, `Axis.closestString_spec`, `Axis.argIndex_spec`, `Axis.simplify_prog`, `Axis.newstart_spec`, `Axis.newend_spec`, `Axis.newlimits_spec`, `Axis.newstart_irregular`, `Axis.newlimits_raises`, `Axis.interpolate_spec`, `Axis.axisEq_iff`, `Axis.axisEq_refl`, `Axis.axisEq_symm`, `Axis.axisEq_zero`, `Axis.axisEq_not_equivalence`

## C25

- **P**: `Crop.empty_raises`
- **P, C, Q**: `Crop.sliced_eq_unsliced`, `Crop.bounding_box`, `Crop.none_iff`, `Crop.full_box`, `Crop.full_exact`, `Crop.full_none`, `Crop.crop_whole`, `Crop.sliced_crop`, `Crop.crop_applies`, `Crop.user_roi`
- **P, Q**: `Crop.full_drops`, `Crop.other_nan`, `Crop.user_beyond`

## C26

- **P**: `Merge.tile_rank_overlap`, `Merge.bliss_not_reshaped`, `Merge.tile_detector_raises`, `Merge.tile_long_raises`, `Merge.tile_short_raises`, `Merge.stack_scrambles`, `Merge.stack_mesh_scrambles`
- **P, C, Q**: `Merge.match_spec`, `Merge.tile_spec`, `Merge.tile_mesh_partial`, `Merge.tile_incomplete_loses`, `Merge.stack_same_partial`, `Merge.stack_mesh_partial`
- **P, Q**: `Merge.match_none`, `Merge.match_equal`, `Merge.max_spec`, `Merge.tile_too_many`
- **none**: `Merge.match_unchanged_empty`

## C27

- **P, C, Q**: `Align.dest_size`, `Align.transform_size`, `Align.transform_pixel`, `Align.alignCall_fits`, `Align.axes_partial`, `Align.newAxis_spec`, `Align.cons_alignCalls`, `Align.single_row_axis_deviation`

## C28

- **P, C, Q**: `Xia.parse_sound`, `Xia.parse_complete`, `Xia.xia_roundtrip`, `Xia.mca_roundtrip`, `Xia.spectra_roundtrip_iff`, `Xia.counter_roundtrip_iff`, `Xia.roundTrips_iff`, `Xia.xiagroup_lookup`, `Xia.xiagroup_leaves`, `Xia.xiagroup_keys`, `Xia.xiagroup_partition`, `Xia.xiagroup_fails`, `Xia.xiagrouplines_partition`, `Xia.xiagroupmaps_partition`, `Xia.mapKey_inj`, `Xia.xiagroupmaps2_partition`, `Xia.xiagroupdetectors_last`, `Xia.xiagroupdetectors_partial`, `Xia.matchDetector_spec`, `Xia.matchDetector_isSome`, `Xia.matchDetector_separated`, `Xia.xiaparselabel_detector`, `Xia.xiaparselabel_underscores`, `Xia.xiaparselabel_nodetector`, `Xia.radix_with_counter`, `Xia.label_with_counter`, `Xia.counter_as_spectra`, `Xia.negative_number`, `Xia.digits_not_kept`, `Xia.any_extension_dot`, `Xia.xiagroupdetectors_loses_lines`, `Xia.xiagroupdetectors_same_key`, `Xia.xiagroupmaps_loses_radix`, `Xia.xiagrouplines_loses_map`
- **P, Q**: `Xia.parse_path`, `Xia.parseAll_some`, `Xia.parseAll_none`, `Xia.xiaparselabel_other`, `Xia.parse_label`

## C29

- **P**: `XiaStats.other_nstats_scrambled`, `XiaStats.other_nstats_raise`
- **P, C, Q**: `XiaStats.save_load`, `XiaStats.save_load_default`, `XiaStats.save_load_iff`, `XiaStats.default_label_name_iff`, `XiaStats.toNumber_pad`, `XiaStats.toNumber_xia_pad`, `XiaStats.labels_swap_stats`, `XiaStats.labels_raise`, `XiaStats.label_without_number`, `XiaStats.default_label_100`
- **P, Q**: `XiaStats.saved_cell`, `XiaStats.save_read`, `XiaStats.restricted_all`

## C30

- **P, C, Q**: `XiaStats.deadtime_invalid`, `XiaStats.deadtime_finite`, `XiaStats.normalizer_spec`, `XiaStats.corrected_finite`, `XiaStats.low_rates_uncorrected`, `XiaStats.nan_monitor`
- **P, Q**: `XiaStats.deadtime_valid`, `XiaStats.normalizer_length`

## C31

- **P, C, Q**: `Polar.stokes_roundtrip`, `Polar.coherency_roundtrip`, `Polar.jones_to_stokes`, `Polar.jones_dop`, `Polar.ofCoherency_pure`, `Polar.decompose_spec`, `Polar.unpolarized_nonneg_iff`, `Polar.toJones_spec`, `Polar.ofCoherency_coherency`, `Polar.jones_roundtrip`, `Polar.represents_jones`, `Polar.represents_mul`, `Polar.rotation_represents`, `Polar.rotate_agree`, `Polar.rotate_invariants`, `Polar.rotate_intensity_jones`, `Polar.rotate_add`, `Polar.rotate_zero`, `Polar.rotate_polangle`, `Polar.thomson_represents`, `Polar.thomson_agree`, `Polar.thomson_jones_iff`, `Polar.thomson_textbook`, `Polar.thomson_intensity`, `Polar.thomson_deficit`, `Polar.physical_dop`, `Polar.thomson_physical`, `Polar.compton_intensity`, `Polar.klein_nishina`, `Polar.compton_forward`, `Polar.jones_to_mueller_iff`, `Polar.jones_to_mueller_rotation`, `Polar.setIntensity_spec`, `Polar.jones_setIntensity_spec`, `Polar.phaseDifference_agree`, `Polar.params_roundtrip_partial`, `Polar.jones_params_roundtrip_partial`, `Polar.efield_quarter`, `Polar.phase_lost`, `Polar.thomson_phase_lost`, `Polar.unphysical_accepted`

## C32

- **P, C, Q**: `Ft.freqind_spec`, `Ft.freqs_spec`, `Ft.freqs_cover`, `Ft.freqs_centered`, `Ft.conventions_differ`, `Ft.fftshift_spec`, `Ft.ifftshift_spec`, `Ft.shift_inverse`, `Ft.ishift_inverse`, `Ft.fftshift_freqs`, `Ft.mixed_conventions`, `Ft.fft_spec`, `Ft.ifft_region`, `Ft.ifft_spec`, `Ft.ifft_fft`, `Ft.fft_ifft`, `Ft.mixed_norm`, `Ft.ifft_region_pixels`, `Ft.ifft_super`, `Ft.dft_empty`, `Ft.fft_linear`, `Ft.fft2_spec`, `Ft.ifft2_region`, `Ft.ifft2_super`, `Ft.ifft2_spec`, `Ft.ifft2_fft2`, `Ft.fft2_ifft2`

## C33

- **P, C, Q**: `Expression.compile_spec`, `Expression.eval_spec`, `Expression.stands_iff`, `Expression.parseExpression_spec`, `Expression.calculate_values`, `Expression.calculate_spec_partial`, `Expression.fourth_placeholder`, `Expression.unknown_function`, `Expression.sign_before_power`
- **P, Q**: `Expression.findall_spec`, `Expression.target_alone`, `Expression.no_target`, `Expression.replaced_everywhere`, `Expression.findall_found`

## C34

- **P**: `XiaConfig.scope_restores`, `XiaConfig.scope_value`, `XiaConfig.scope_raised`, `XiaConfig.iter_restores`, `XiaConfig.iter_visits`, `XiaConfig.nesting_restores`, `XiaConfig.nesting_raised`, `XiaConfig.detectors_restored`, `XiaConfig.stays_frozen`, `XiaConfig.scope_freezes`, `XiaConfig.handled_not_restored`, `XiaConfig.frozen_after_scope`, `XiaConfig.mca_not_selected`
- **P, C, Q**: `XiaConfig.iter_alone`
- **P, Q**: `XiaConfig.used_iff`

## C35

- **P**: `Pipeline.ffxas_chained`, `Pipeline.ffxas_normalized_iff`, `Pipeline.prenormalize_ignored`, `Pipeline.ffxas_steps`
- **P, C, Q**: `Pipeline.process_spec`
- **P, Q**: `Pipeline.returned_true`, `Pipeline.returned_false`, `Pipeline.raised_iff`, `Pipeline.executed_in_order`, `Pipeline.all_done`, `Pipeline.first_failure`, `Pipeline.succeeds`, `Pipeline.resumes`, `Pipeline.missing_dependency`, `Pipeline.fluoxas_chained`, `Pipeline.fluoxas_steps_partial`, `Pipeline.fluoxas_exists`, `Pipeline.fluoxas_succeeds`, `Pipeline.ffxas_succeeds`, `Pipeline.remembers_removed`, `Pipeline.removed_by_later`, `Pipeline.raises_outside`
- **none**: `Pipeline.geometry_needs_place`, `Pipeline.ffxas_not_normalized`

## C36

- **P**: `Paths.getitem_absolute`, `Paths.iadd_counterexample`, `Paths.getitem_name_counterexample`, `Paths.factory_prefix_counterexample`, `Paths.init_noext_counterexample`, `Paths.getitem_prefix_counterexample`, `Paths.init_greedy_counterexample`, `Paths.splitPath_doc_counterexample`, `Paths.relink_inside_counterexample`
- **P, C, Q**: `Paths.norm_spec`, `Paths.norm_norm`, `Paths.relpath_roundtrip`, `Paths.relpath_shortest`, `Paths.link_roundtrip`, `Paths.h5link_roundtrip`, `Paths.relink_absolute`, `Paths.splitPath_own`, `Paths.h5Getitem_spec`, `Paths.factory_location`, `Paths.h5Sibling_spec`
- **P, Q**: `Paths.norm_cwd`, `Paths.getitem_spec`, `Paths.child_spec`, `Paths.child_inj`, `Paths.parent_child`, `Paths.root_spec`, `Paths.getitem_getitem`, `Paths.relpath_norm`, `Paths.iterup_spec`, `Paths.root_is`, `Paths.common_spec`, `Paths.common_above`, `Paths.sibling_spec`, `Paths.relink_relative`, `Paths.devsplit_glue`, `Paths.devsplit_iff`, `Paths.splitPath_local`, `Paths.splitPath_file`, `Paths.init_location`, `Paths.location_roundtrip`, `Paths.init_local`, `Paths.factory_other`, `Paths.relpath_root_counterexample`

## C37

- **P**: `Naming.unlock_locks`, `Naming.locked_diverges`
- **P, C, Q**: `Naming.fresh_numbered_partial`, `Naming.fresh_unnumbered_partial`, `Naming.nonexistingName_partial`, `Naming.fresh_matches_partial`, `Naming.increment_numbered_partial`, `Naming.increment_unnumbered_partial`, `Naming.increment_add`, `Naming.prepare_spec`, `Naming.match_numbered`, `Naming.match_unnumbered`, `Naming.braces_diverge`, `Naming.braces_raise`, `Naming.nonexistingName_paren_partial`, `Naming.add_reset`
- **P, Q**: `Naming.parenGroups_complete`

## C38

- **P, C, Q**: `Hashing.calchash_same_partial`, `Hashing.calchash_isSome`, `Hashing.calchash_set_order`, `Hashing.calchash_dict_order`, `Hashing.calchash_eq_iff`, `Hashing.calchash_list_order`, `Hashing.mergehash_spec`, `Hashing.mergehash_inj`, `Hashing.dict_list_collide`, `Hashing.set_list_collide`, `Hashing.obj_list_collide`, `Hashing.qty_list_collide`, `Hashing.complex_differs`, `Hashing.complex_texts_differ`, `Hashing.empty_set_differs`, `Hashing.orderedDict_differs`, `Hashing.bytes_key_order`

## C39

- **P, C, Q**: `Factory.lookup_ok`, `Factory.lookup_unknown`, `Factory.found_by_name`, `Factory.found_by_spelling`, `Factory.found_at_once`, `Factory.single_lookup`, `Factory.define_other`, `Factory.names_listed`, `Factory.case_matters`, `Factory.name_beats_later_alias`, `Factory.subclass_takes_alias`, `Factory.second_family_missed`
- **P, Q**: `Factory.lookup_exists`, `Factory.member_root`, `Factory.member_exists`, `Factory.single_member`, `Factory.aliases_own`, `Factory.aliases_inherited`, `Factory.define_fails`, `Factory.allnames_found`

## C40

- **P, C, Q**: `Scan.zapline_consistent`, `Scan.zapline_axis`, `Scan.ascan_consistent`, `Scan.ascan_axis`, `Scan.zapline_empty`, `Scan.zapline_pixelsize_iff`, `Scan.zapline_pixelsize_wrong`, `Scan.subIndices_nearest`, `Scan.subSlow_values`, `Scan.subFast_wrong`, `Scan.submap_spec`
- **P, Q**: `Scan.subSlice_up`, `Scan.subSlice_down`

## C41

- **P, C, Q**: `Compound.new_compound`, `Compound.compound_fractions`, `Compound.add_elements`, `Compound.change_compound`, `Compound.new_mixture`, `Compound.mixture_fractions`, `Compound.add_compounds`, `Compound.change_mixture`, `Compound.elemental_massfractions`, `Compound.compound_part`, `Compound.mixture_part`, `Compound.tocompound_spec`, `Compound.elemental_molefractions`, `Compound.elemental_molefractions_partial`, `Compound.elemental_molefractions_wrong`, `Compound.same_name_lost`, `Compound.setfraction_all`
- **P, Q**: `Compound.compound_volume`, `Compound.add_elements_refuses`, `Compound.add_compounds_refuses`, `Compound.elemental_equivalents`, `Compound.mixture_molarmass`, `Compound.mixture_density`, `Compound.mole_truncated`, `Compound.mass_broadcast`, `Compound.setfraction_fails`

## C42

- **P, C, Q**: `CrossSection.mixture_none`, `CrossSection.collapse_wrong`, `CrossSection.parse_wrong`, `CrossSection.elemental_wrong`
- **P, Q**: `CrossSection.value_eq_contributions`, `CrossSection.split_elements`, `CrossSection.collapse_partial`, `CrossSection.parse_partial`, `CrossSection.elemental_partial`, `CrossSection.compound_tree`, `CrossSection.mixture_tree`, `CrossSection.compound_lines`, `CrossSection.mixture_lines`

## C43

- **P, C, Q**: `Mca.fmtG_spec`, `Mca.fmtG_exact`, `Mca.isFloat_unique`, `Mca.hasDigits_int`, `Mca.mca_layout`, `Mca.mca_read`, `Mca.mca_empty`, `Mca.mca_roundtrip`, `Mca.mca_digits_lost`, `Mca.pyFloat_spec`, `Mca.save_header`, `Mca.save_counts`, `Mca.read_fails`, `Mca.read_spec`, `Mca.read_single_channel`, `Mca.rgb_code`, `Mca.rgb_separates`, `Mca.rgb_levels`, `Mca.rgb_not_injective`

## C44

- **P, C, Q**: `Fit.linfit2_spec`, `Fit.linfit2_exact`, `Fit.linfit2_errors`, `Fit.linfit2_broadcast_wrong`, `Fit.linfit_zero_spec`, `Fit.linfit_zero_errors`, `Fit.nanlinfit2_spec`, `Fit.linfit2_roots`, `Fit.linfit_zero_roots`, `Fit.least_squares_exists`, `Fit.lstsq_cov_spec`, `Fit.lstsq_cov_variances`, `Fit.lstsq_cov_singular`, `Fit.lstsq_cov_known`, `Fit.linfit_same`, `Fit.linfit_solvable`, `Fit.linfit_errors_same`, `Fit.linfit_zero_same`, `Fit.linfit_zero_errors_differ`, `Fit.cor_from_cov_spec`, `Fit.cramer_spec`, `Fit.cramer_fails`, `Fit.cramer_integers`, `Fit.cramer_integers_wrong`
- **P, Q**: `Fit.linfit2_lengths`

## C45

- **P**: `Stack.destshape_stack`, `Stack.source_sizes_finding`
- **P, C, Q**: `Stack.list_history`, `Stack.list_prepare`, `Stack.h5_free`, `Stack.h5_prepare_new`, `Stack.h5_prepare_overwrite_partial`, `Stack.h5_history`, `Stack.filename_inj`, `Stack.filename_order`, `Stack.fileExt_spec`, `Stack.files_prepare`, `Stack.files_history_partial`, `Stack.files_history_many`, `Stack.files_two_finding`, `Stack.files_ext_finding`, `Stack.h5_overwrite_suffix_finding`, `Stack.h5_overwrite_some_finding`, `Stack.source_2d_stackdim_finding`
- **P, Q**: `Stack.list_write_cases`, `Stack.source_2d_finding`

## C46

- **P**: `H5.Ctx.open_close`, `H5.Ctx.exception_passes`
- **P, Q**: `H5.Ctx.onclose_once_partial`
- **none**: `H5.Ctx.callbacks_lost`

## C47

- **P, C, Q**: `Align.reference_identity`, `Align.pairwise_sum`, `Align.fixed_translation`, `Align.negative_reference_deviation`, `Align.pad_covers`, `Align.pad_keeps_pixels`, `Align.crop_exact`, `Align.crop_no_missing`, `Align.crop_skipped`, `Align.mask_agrees`, `Align.minimal_centres`, `Align.crop_subpixel_deviation`, `Align.pad_priority_deviation`, `Align.crop_single_pixel_deviation`

## C48

- **P, C, Q**: `AlignFFT.moved_spec`, `AlignFFT.correlation`, `AlignFFT.correlation2`, `AlignFFT.parseval`, `AlignFFT.parseval2`, `AlignFFT.unwrap_spec`, `AlignFFT.shift_pixels`, `AlignFFT.shift_subpixels`, `AlignFFT.moved2_spec`, `AlignFFT.shift2_pixels`, `AlignFFT.shift2_subpixels`, `AlignFFT.align_images`, `AlignFFT.align_line`, `AlignFFT.align_restores`, `AlignFFT.constant_image_moves`, `AlignFFT.weak_image_moves`

## C49

- **P, C, Q**: `Center.fmax_spec`, `Center.fmax2_spec`, `Center.fcentroid_spec`, `Center.windowMean_symmetric`, `Center.fcentroid_symmetric`, `Center.fcentroid_near`, `Center.fcentroid2_eq`, `Center.fcentroid2_right_iff`, `Center.fcentroid2_symmetric`, `Center.axes_swapped`

## C50

- **P, C, Q**: `XiaRead.read_spec`, `XiaRead.readData_spec`, `XiaRead.readStats_spec`, `XiaRead.readAllStats_spec`, `XiaRead.readCounters_spec`, `XiaRead.item_corrected`, `XiaRead.item_uncorrected`, `XiaRead.line_depends_on_history`, `XiaRead.failure_changes_request`, `XiaRead.counters_need_stats`
- **P, Q**: `XiaRead.history_valid`

## C51

- **P, C, Q**: `Scan.parse_iff`, `Scan.scan_unique`, `Scan.natVal_repr`, `Scan.layout_joined`, `Scan.floatOf_eq`, `Scan.time_cut`, `Scan.time_exponent`, `Scan.not_understood`, `Scan.dimensions_zapimage`, `Scan.dimensions_unknown`, `Scan.dimensions_other`, `Scan.dimensions_keyError`

## C52

- **P, C, Q**: `LineShape.new_fixed`, `LineShape.new_ratios`, `LineShape.convert_fixed`, `LineShape.convert_ratios`, `LineShape.sync_fractions`, `LineShape.convert_sync`, `LineShape.convert_energy`, `LineShape.no_energy`, `LineShape.assign_fractions`, `LineShape.assign_ratios`, `LineShape.wpeak_spec`, `LineShape.pickle_sync`, `LineShape.eq_sync`, `LineShape.area_fixed`, `LineShape.area_ratios`, `LineShape.same_profile`, `LineShape.assign_broadening_partial`, `LineShape.assign_broadening_stale`, `LineShape.nopeak_roundtrip`, `LineShape.nopeak_wrong`, `LineShape.peak_without_area_wrong`

## C53

- **P, C, Q**: `Formula.formula_written`, `Formula.formula_read`, `Formula.formula_exact`, `Formula.formula_unambiguous`, `Formula.formula_refused`, `Formula.formula_longest`, `Formula.formula_tail_partial`, `Formula.formula_counts`, `Formula.formula_values`, `Formula.formula_compound`, `Formula.formula_factory`, `Formula.table_neutral`, `Formula.choose_state`, `Formula.choose_refuses`, `Formula.choose_default`, `Formula.choose_single_partial`, `Formula.element_compound`
- **P, Q**: `Formula.groupdict_spec`

## C54

- **P, C, Q**: `Diode.diode_signals`, `Diode.diode_round_trips`, `Diode.diode_response`, `Diode.diode_xrf_norm`, `Diode.diode_gain`, `Diode.gain_nearest`, `Diode.gain_setting`, `Diode.gain_linear`, `Diode.gain_domain`, `Diode.dark_from_rates`, `Diode.dark_from_currents`, `Diode.dark_from_counts_fails`, `Diode.offset_from_rates`, `Diode.gain_from_response`
- **P, Q**: `Diode.diode_gain_rounded`, `Diode.diode_counts_fail`

## C55

- **P, C, Q**: `Diode.charge_target`, `Diode.charge_direct_line_partial`, `Diode.charge_direct_lines_over`, `Diode.sample_weights`, `Diode.line_weights`, `Diode.calib_consistent`, `Diode.calib_search`, `Diode.calib_optics_exists`, `Diode.calib_solidangle`, `Diode.calib_solidangle_direct`, `Diode.calib_table`, `Diode.calib_optics_lines`, `Diode.calib_bound`, `Diode.fit_dark`, `Diode.fit_fixed_dark`, `Diode.calib_end_to_end`
- **P, Q**: `Diode.calib_no_root`

## C56

- **P, C, Q**: `Geometry.flat_angles`, `Geometry.flat_reflection`, `Geometry.flat_setters`, `Geometry.solidangle_disk`, `Geometry.solidangle_range`, `Geometry.distance_of_solidangle`, `Geometry.solidangle_inverses`, `Geometry.area_of_solidangle`, `Geometry.solidangle_decreasing`, `Geometry.solidangle_large`, `Geometry.motor_distance`, `Geometry.motor_position`, `Geometry.motor_calibrate`, `Geometry.motor_solidangle`, `Geometry.motor_sign`, `Geometry.motor_create`, `Geometry.calibrate_constraint`

## C57

- **P, C, Q**: `Detector.beam_names`, `Detector.names_partition`, `Detector.filter_passing`, `Detector.filter_range`, `Detector.attenuation_spec`, `Detector.efficiency_entry`, `Detector.efficiency_range`, `Detector.add_det`, `Detector.add_beam`, `Detector.add_unnamed`, `Detector.add_unnamed_partial`, `Detector.add_unnamed_twice`, `Detector.add_cover_partial`, `Detector.remove_beam`, `Detector.remove_det`, `Detector.atmosphere_ignored`, `Detector.atmosphere_included`, `Detector.save_entries`, `Detector.load_entries`, `Detector.pymca_round_trip`, `Detector.pymca_leftover`

## C58

- **P, C, Q**: `Multilayer.zlayer_spec`, `Multilayer.cumAtt_integral`, `Multilayer.cumAtt_ends`, `Multilayer.transmission_left`, `Multilayer.transmission_mul`, `Multilayer.numerical_rates`, `Multilayer.analytical_rates`, `Multilayer.methods_agree`, `Multilayer.no_scattering_fails`, `Multilayer.rayleigh_lost`, `Multilayer.thin_rates`, `Multilayer.rate_bounds`, `Multilayer.one_layer`, `Multilayer.detected_rates`

## C59

- **P, C, Q**: `Multilayer.areal_density`, `Multilayer.layer_massfractions`, `Multilayer.mix_massfractions`, `Multilayer.mix_ignores_density`, `Multilayer.mix_refined_wrong`, `Multilayer.transmission_agrees`, `Multilayer.refined_transmissions_differ`, `Multilayer.thickness_best`, `Multilayer.thickness_exact`, `Multilayer.thickness_recovered`, `Multilayer.thickness_constant`, `Multilayer.constant_constraint_fails`, `Multilayer.thickness_single`, `Multilayer.single_negative`, `Multilayer.density_not_used`, `Multilayer.density_best`, `Multilayer.composition_best`, `Multilayer.composition_density_not_used`, `Multilayer.ideal_good`, `Multilayer.one_layer_round_trip`, `Multilayer.layers_not_saved`, `Multilayer.layers_loaded`, `Multilayer.empty_not_loaded`, `Multilayer.sourceflux_at_sample`

## C60

- **P, C, Q**: `Pymca.save_density`, `Pymca.nameFrom_pymcaName`, `Pymca.load_saved`, `Pymca.save_name`, `Pymca.save_frame`, `Pymca.formula_name_only`, `Pymca.formula_name_one`, `Pymca.pure_name_element`, `Pymca.formula_density`, `Pymca.elements_mixture`, `Pymca.pvc_lost`, `Pymca.water_density_lost`, `Pymca.load_mono`, `Pymca.load_cyclic`, `Pymca.load_fractions`, `Pymca.settings_roundtrip`, `Pymca.settings_frame`, `Pymca.settings_flags`, `Pymca.loadBeam_lines`, `Pymca.settings_stable`, `Pymca.source_roundtrip`, `Pymca.weights_lost`
- **P, Q**: `Pymca.looksFormula_iff`, `Pymca.pureElement_iff`, `Pymca.pure_is_formula`

## C61

- **P**: `Spectrum.groupKey_idem`
- **P, C, Q**: `Spectrum.mem_expand_letter`, `Spectrum.expand_shell`, `Spectrum.expandall_spec`, `Spectrum.shrink_spec`, `Spectrum.expandall_shrink`, `Spectrum.pymcafactory_spec`, `Spectrum.expandselection_spec`, `Spectrum.split_loses_shells`, `Spectrum.split_subshell`, `Spectrum.composite_rate`, `Spectrum.own_value`, `Spectrum.composite_share`, `Spectrum.composite_rate_broken`, `Spectrum.fluoyield_lines`, `Spectrum.weights_values`, `Spectrum.weights_scale`, `Spectrum.weights_between`, `Spectrum.sumSources_total`, `Spectrum.sumSources_spec`, `Spectrum.itemsConverted_total`, `Spectrum.lines_total`, `Spectrum.lines_spec`, `Spectrum.lines_sorted`, `Spectrum.lines_ok`, `Spectrum.lines_truncated`, `Spectrum.probabilities_or_rates`, `Spectrum.power_spec`, `Spectrum.power_kind`, `Spectrum.spectrumDict_counts`, `Spectrum.channel_energy`, `Spectrum.energy_channel`, `Spectrum.energy_below`, `Spectrum.mcaChannels_spec`, `Spectrum.selection_partition`, `Spectrum.selection_twice`, `Spectrum.groupRates_spec`, `Spectrum.collected_examples`, `Spectrum.parseFisx_spec`, `Spectrum.ratesToSpectrum_spec`, `Spectrum.linegroups_spec`, `Spectrum.linegroups_total`, `Spectrum.lineinfo_total`, `Spectrum.lineinfo_labels`, `Spectrum.lineinfo_fluo`, `Spectrum.lineinfo_scatter`, `Spectrum.val_iadd`, `Spectrum.val_iadd_error`, `Spectrum.iadd_spec`, `Spectrum.iadd_total`, `Spectrum.iadd_kind`, `Spectrum.iadd_sources`, `Spectrum.iaddRefs_frame`, `Spectrum.iaddRefs_value`, `Spectrum.iaddRefs_shares`, `Spectrum.iadd_changes_other`, `Spectrum.compton_formula`, `Spectrum.compton_inverse`, `Spectrum.compton_range`, `Spectrum.compton_decreasing`, `Spectrum.compton_angle_energy`, `Spectrum.compton_energy_angle`, `Spectrum.compton_angle_clipped`
- **P, Q**: `Spectrum.composite_energy`

## C62

- **P**: `Qxrf.geoms_failed`, `Qxrf.check_create`, `Qxrf.check_create_agrees`, `Qxrf.dark_needed`, `Qxrf.calibrate_gains`
- **P, C, Q**: `Qxrf.update_sync`, `Qxrf.update_same`, `Qxrf.step_raises`, `Qxrf.step_sync`, `Qxrf.run_sync`, `Qxrf.construct_iff`, `Qxrf.construct_sync`, `Qxrf.step_frame`, `Qxrf.other_setup`, `Qxrf.restore_same`, `Qxrf.geoms_repaired`, `Qxrf.copy_shares`, `Qxrf.positions_set`, `Qxrf.positions_short`, `Qxrf.areas_shared`, `Qxrf.deviceName_spec`, `Qxrf.limits_nearest`, `Qxrf.validate_ok`, `Qxrf.validate_get`, `Qxrf.validate_units`, `Qxrf.validate_values`, `Qxrf.validate_twice`, `Qxrf.id21_current`, `Qxrf.reference_spec`, `Qxrf.reference_number`, `Qxrf.weightedSum_bounds`, `Qxrf.weightedSum_scale`, `Qxrf.weightedSum_none`, `Qxrf.fluxOp_remove`, `Qxrf.fluxOp_no_geometry`, `Qxrf.geoms_linked`, `Qxrf.areas_set`
- **P, Q**: `Qxrf.step_failed`, `Qxrf.generate_known`, `Qxrf.no_source`, `Qxrf.check_keep`, `Qxrf.reset_refused`, `Qxrf.gain_spec`, `Qxrf.text_injective`, `Qxrf.dataGain_spec`, `Qxrf.calibrate_dark`, `Qxrf.calibrate_beam`, `Qxrf.step_other`, `Qxrf.step_value`, `Qxrf.initGeoms_spec`, `Qxrf.positions_frame`

## C63

- **P**: `Scene.strunit_wrong`, `Scene.display_axes`, `Scene.displaydata_all`
- **P, C, Q**: `Scene.range_unique`, `Scene.minmax_iff`, `Scene.range_mirror`, `Scene.range_shift`, `Scene.collect_range`, `Scene.datarange_spec`, `Scene.datarange_error`, `Scene.axisLim_spec`, `Scene.sceneLim_axis`, `Scene.visible`, `Scene.setdatarange_spec`, `Scene.place_mirror`, `Scene.place_toggle`, `Scene.flip_mirrors`, `Scene.flip_stuck`, `Scene.flip_negative`, `Scene.flip_twice`, `Scene.origin_first`, `Scene.origin_again`, `Scene.originreset_spec`, `Scene.resetdatarange_spec`, `Scene.originzero_spec`, `Scene.originzero_twice`, `Scene.dataaxis_spec`, `Scene.transpose_spec`, `Scene.setUnit_spec`, `Scene.aspect_spec`, `Scene.aspect_data`, `Scene.aspect_direction`, `Scene.modifyaxes_spec`, `Scene.channels_given`, `Scene.pixel_spec`, `Scene.labels_spec`, `Scene.percentile_spec`, `Scene.percentile_zero`, `Scene.vminmax_all`, `Scene.percentile_mono`, `Scene.vminmax_order`, `Scene.selfscale_spec`, `Scene.selfscaleAll_spec`, `Scene.sceneVminmax_spec`, `Scene.globalscaling_spec`, `Scene.compcolor_spec`, `Scene.pixel_position`, `Scene.border_spec`, `Scene.border_sides`, `Scene.select_spec`, `Scene.select_active`, `Scene.add_active`, `Scene.displaydata_spec`, `Scene.xanes_all`
- **P, Q**: `Scene.channels_count`, `Scene.channels_default`, `Scene.refresh_spec`, `Scene.xanes_first`, `Scene.xanes_default`
- **none**: `Scene.channels_two`, `Scene.add_same`

## C64

- **P**: `Fullfield.tokens_joined`, `Fullfield.getroi_default`
- **P, C, Q**: `Fullfield.rebin_spec`, `Fullfield.rebin_one`, `Fullfield.rebin_total`, `Fullfield.procraw_pixel`, `Fullfield.procraw_shape`, `Fullfield.procraw_linear`, `Fullfield.axis_spec`, `Fullfield.axes_spec`, `Fullfield.axis_too_long`, `Fullfield.dark_spec`, `Fullfield.dark_ok`, `Fullfield.norm_spec`, `Fullfield.norm_ok`, `Fullfield.norm_empty`, `Fullfield.norm_perm`, `Fullfield.norm_exact`, `Fullfield.norm_default`, `Fullfield.norm_default_wrong`, `Fullfield.dark_text`, `Fullfield.stackvalues_spec`, `Fullfield.collect_spec`, `Fullfield.flats_lost`, `Fullfield.split_spec`, `Fullfield.stack_spec`, `Fullfield.execute_spec`, `Fullfield.slice_spec`, `Fullfield.flatLibs_spec`, `Fullfield.single_flat`, `Fullfield.texts_apart`, `Fullfield.default_exposure`, `Fullfield.no_stackvalues`
- **P, Q**: `Fullfield.ends_agree`, `Fullfield.getroi_header`

## C65

- **P, C, Q**: `Resample.minOf_iff`, `Resample.maxOf_iff`, `Resample.measured_spec`, `Resample.encoder_spec`, `Resample.grid_covers`, `Resample.crop_inside`, `Resample.crop_outside`, `Resample.offset_given`, `Resample.offset_raises`, `Resample.linear_exact`, `Resample.linear_node`, `Resample.linear_between`, `Resample.interp_outside`, `Resample.interp_perm`, `Resample.nearest_spec`, `Resample.floor_spec`, `Resample.ceil_spec`, `Resample.extrap_spec`, `Resample.skipped_axis_raises`, `Resample.resample_exact`, `Resample.offset_found`, `Resample.encoder_unchanged`, `Resample.irregular_1d`, `Resample.irregular_nd`
- **P, Q**: `Resample.kinds`, `Resample.mem_allIdx`, `Resample.sel_loc`, `Resample.loc_sel`, `Resample.writes_spec`, `Resample.copy_spec`, `Resample.plane_mem`, `Resample.plane_length`
- **none**: `Resample.arrays_fail`

## C66

- **P**: `Grid.repeated_prefix`, `Grid.name_with_S`, `Grid.parameters_label`, `Grid.counters_group`
- **P, C, Q**: `Grid.detector_roundtrip`, `Grid.sum_roundtrip`, `Grid.groups_differ`, `Grid.name_roundtrip`, `Grid.grid_signals`, `Grid.same_detector_refused`, `Grid.stackdim_of_data`, `Grid.signal_axes_back`, `Grid.other_dims`, `Grid.values_stack`, `Grid.reference_last`, `Grid.reference_missing`, `Grid.pyRound_near`, `Grid.ref_image`, `Grid.ref_image_beyond`, `Grid.grid_ndim`
- **P, Q**: `Grid.plain_name`, `Grid.negative_stackdim`, `Grid.signal_grid_dims`, `Grid.values_elsewhere`
- **none**: `Grid.reference_end_of_name`

## C67

- **P**: `Grid.nothing_to_crop`
- **P, C, Q**: `Grid.new_data`, `Grid.sliced_same`, `Grid.pointwise_ok`, `Grid.combine_ok`, `Grid.task_spec`, `Grid.shapes_fit`, `Grid.skip_changes_default`, `Grid.shifted_region_raises`
- **P, Q**: `Grid.replace_spec`, `Grid.grid_ready`

## C68

- **P, C, Q**: `XrfTask.sum_append`, `XrfTask.nansum_append`, `XrfTask.nanmax_append`, `XrfTask.nanmean_append`, `XrfTask.sum_order`, `XrfTask.sum_pixel`, `XrfTask.value_flat_sum`, `XrfTask.sum_value`, `XrfTask.readedf_merge_fails`, `XrfTask.xrfnorm_pixel`, `XrfTask.xrfnorm_none`, `XrfTask.xrfnorm_flux`, `XrfTask.xrfnorm_deadtime`

## C69

- **P**: `XrfTask.corrections_once`, `XrfTask.corrections_spectra`
- **P, C, Q**: `XrfTask.groups_spec`, `XrfTask.singles_spec`, `XrfTask.sum_new`, `XrfTask.addDetectors_spec`, `XrfTask.addDetectors_total`, `XrfTask.addDetectors_total_group`, `XrfTask.addFun_spec`, `XrfTask.total_clash`, `XrfTask.sum_by_name`

## C70

- **P**: `XrfTask.missing_counter`
- **P, C, Q**: `XrfTask.counters_spec`, `XrfTask.counter_shape`, `XrfTask.counter_shape_last`, `XrfTask.fits_spec`, `XrfTask.sort_spec`, `XrfTask.sort_stable`, `XrfTask.export_spec`, `XrfTask.export_columns`, `XrfTask.export_clash`, `XrfTask.execute_saved`, `XrfTask.stacks_spec`, `XrfTask.corrected_slice`, `XrfTask.task_detector`, `XrfTask.task_sum`, `XrfTask.setup0`
- **P, Q**: `XrfTask.pairConfigs_spec`, `XrfTask.applyPost_spec`, `XrfTask.addFlux_get2`

## C71

- **P, C, Q**: `Bliss.matching_sum`, `Bliss.live_time`, `Bliss.live_time_events`, `Bliss.live_time_missing`, `Bliss.add_spec`, `Bliss.add_missing`, `Bliss.pre_add`, `Bliss.dtcor_spec`, `Bliss.dtcor_succeeds`, `Bliss.dtcor_overlap`, `Bliss.dtcor_truncates`, `Bliss.pairConfigs_spec`, `Bliss.saved_sum`, `Bliss.saved_lost`, `Bliss.saved_counters`, `Bliss.saved_counters_one`
- **P, Q**: `Bliss.matching_count`, `Bliss.link_two`, `Bliss.addCounters_spec`, `Bliss.counters_clash`

## C72

- **P**: `MergeTask.entries_order`, `MergeTask.entries_task`, `MergeTask.named_one`, `MergeTask.split_join`, `MergeTask.relink_absolute`, `MergeTask.relink_relative`, `MergeTask.merge_scalars`, `MergeTask.image_axes`, `MergeTask.shape_first`
- **P, C, Q**: `MergeTask.sources_spec`, `MergeTask.shape_fscan2d`, `MergeTask.shape_l2scan`, `MergeTask.shape_mesh`, `MergeTask.stack_mesh_pre`, `MergeTask.tile_mesh_pre`, `MergeTask.stack_sorted`, `MergeTask.stack_unsorted`, `MergeTask.stack_no_axis`, `MergeTask.stack_single`, `MergeTask.stack_no_scans`, `MergeTask.stack_missing`, `MergeTask.tile_spec`, `MergeTask.tile_axis_longer`, `MergeTask.merge_text`
- **P, Q**: `MergeTask.shape_short`, `MergeTask.merge_dset`, `MergeTask.merge_soft`, `MergeTask.merge_nothing_else`, `MergeTask.merge_missing`, `MergeTask.shape_fallback`

## C73

- **P, C, Q**: `FitCfg.adapt_active`, `FitCfg.adapt_lengths`, `FitCfg.adapt_high`, `FitCfg.adapt_length`, `FitCfg.adapt_fails`, `FitCfg.adapt_count`, `FitCfg.adaptEnergy_twice`, `FitCfg.quant_spec`, `FitCfg.adapt_spec`, `FitCfg.adapt_twice`, `FitCfg.adapt_keeps`, `FitCfg.high_accumulates`, `FitCfg.zero_energy`, `FitCfg.expand_spec`, `FitCfg.roi_spec`, `FitCfg.fit_spec`, `FitCfg.fit_keeps_energy`, `FitCfg.strategy_missing`
- **P, Q**: `FitCfg.mlines_spec`, `FitCfg.mlines_twice`, `FitCfg.roi_negative`

## C74

- **P**: `XasPipe.sync_empty_label`, `XasPipe.sync_replace_grows`, `XasPipe.pick_one`, `XasPipe.pick_many`, `XasPipe.pick_fails`
- **P, C, Q**: `XasPipe.sync_each`, `XasPipe.sync_required`, `XasPipe.sync_roi`, `XasPipe.sync_exact`, `XasPipe.sync_fit`, `XasPipe.sync_fit_lost`, `XasPipe.sync_first_missing`, `XasPipe.sync_no_stat`, `XasPipe.sync_energy`, `XasPipe.sync_norm`, `XasPipe.sync_counter`, `XasPipe.sync_background`, `XasPipe.nosync_background`, `XasPipe.sync_median`, `XasPipe.sync_roi_median`, `XasPipe.sync_total`, `XasPipe.sync_total_fit`, `XasPipe.nosync_default`, `XasPipe.nosync_counters`, `XasPipe.nosync_bkgxas`, `XasPipe.nosync_no_detectors`, `XasPipe.nosync_one`, `XasPipe.nosync_mean`, `XasPipe.nosync_nothing`, `XasPipe.xia_sum_lost`, `XasPipe.xia_single_lost`, `XasPipe.xia_raw`, `XasPipe.xia_raw_mixed`, `XasPipe.xia_no_files`, `XasPipe.xia_detectors`, `XasPipe.sync_label_later`, `XasPipe.sync_required_all`, `XasPipe.nosync_detectors`
- **P, Q**: `XasPipe.sync_replace`, `XasPipe.globStar_iff`

## C75

- **P**: `Xanes.members_incomplete`, `Xanes.members_foreign`, `Xanes.extractInfo_first_fails`, `Xanes.extractInfo_removes`
- **P, C, Q**: `Xanes.groups_eq`, `Xanes.groups_partition`, `Xanes.groups_partition_nosum`, `Xanes.groups_mem`, `Xanes.groups_nonempty`, `Xanes.members_exact`, `Xanes.extractXanes_look`, `Xanes.extractXanes_spec`
- **P, Q**: `Xanes.extractInfo_eq`, `Xanes.extractInfo_ok`

## C76

- **P, C, Q**: `EdfHead.fast_header`, `EdfHead.slow_header`, `EdfHead.fast_command`, `EdfHead.slow_command`, `EdfHead.fast_default`, `EdfHead.slow_default`, `EdfHead.vals_result`, `EdfHead.name_result`, `EdfHead.mixed`, `EdfHead.mesh_lost`, `EdfHead.name_depends`, `EdfHead.size_unchecked`, `EdfHead.zero_pixels`

## C77

- **P**: `SpecFile.loc_colon`
- **P, C, Q**: `SpecFile.data_ok`, `SpecFile.motors_ok`, `SpecFile.has_iff`, `SpecFile.loc_lines`, `SpecFile.loc_file`, `SpecFile.images_last`, `SpecFile.image_header`, `SpecFile.image_fast_partial`, `SpecFile.images_slow`, `SpecFile.images_comment`
- **P, Q**: `SpecFile.data_error`, `SpecFile.case_hidden`, `SpecFile.contains_iff`

## C78

- **P, C, Q**: `Quadric.plane_value`, `Quadric.ellipsoid_value`, `Quadric.cylinder_value`, `Quadric.cylinder_axis`, `Quadric.plane_symm`, `Quadric.quadsum1_symm`, `Quadric.changeOfFrame_value`, `Quadric.changeOfFrame_comp`, `Quadric.ellipsoid_shift`, `Lsq.program_ok`, `Lsq.program_cost`, `Lsq.program_solution`, `Lsq.nonneg_solution`, `Lsq.norm_solution`, `Lsq.program_one`, `Lsq.program_negative`

## C79

- **P, C, Q**: `AlignSimple.getxy_iff`, `AlignSimple.kernel_moved`, `AlignSimple.aligned_marker`, `AlignSimple.aligned_moved`, `AlignSimple.getxy_none`, `AlignSimple.zero_counts`, `AlignSimple.zero_wrong`, `AlignSimple.kernel_centroid`, `AlignSimple.centroid_swapped`

## C80

- **P, C, Q**: `Units.magnitude_ok`, `Units.magnitude_iff`, `Units.quantity_phys`, `Units.quantity_force`, `Units.to_phys`, `Units.to_mags`, `Units.umagnitude_ok`, `Units.quantityLike_ok`, `Units.unitsto_ok`, `Units.unitsto_error`, `Units.unitsto_finds`, `Units.operands_ok`, `Units.operands_lt`, `Units.mixed_relabelled`, `Units.operands_asymmetric`, `Units.quantityLike_units`

## C81

- **P**: `LocalFs.mkdir_existing`, `LocalFs.destination_below`, `LocalFs.destination_path`, `LocalFs.mkdir_broken`, `LocalFs.remove_circle`, `LocalFs.move_missing_lost`, `LocalFs.move_leaves_dirs`, `LocalFs.copy_link_lost`, `LocalFs.moved_link_alone`
- **P, C, Q**: `LocalFs.mkdir_keeps`, `LocalFs.mkdir_isdir`, `LocalFs.move_ok`, `LocalFs.move_error`, `LocalFs.copy_ok`, `LocalFs.copy_keeps`, `LocalFs.copy_link`, `LocalFs.moved_link`, `LocalFs.run_wf`
- **P, Q**: `LocalFs.remove_tree`, `LocalFs.remove_one`, `LocalFs.remove_only`, `LocalFs.remove_link`, `LocalFs.move_self_lost`, `LocalFs.link_dest`, `LocalFs.renameremove_taken`, `LocalFs.renameremove_free`
- **none**: `LocalFs.remove_link_data`

## C82

- **P, C, Q**: `FFSim.chainPlain_forward`, `FFSim.chainPlain_roundtrip`, `FFSim.chainPlain_backward`, `FFSim.photontoDU_line`, `FFSim.photontoDU_total`, `FFSim.transmission_exact`, `FFSim.absorbance_exact`, `FFSim.transmission_nodark`, `FFSim.flux_flat_roundtrip`, `FFSim.flux_flat_iff`, `FFSim.flux_from_photons`, `FFSim.getnframes_min`, `FFSim.getnframes_data`, `FFSim.getnframes_flat`, `FFSim.getnframes_flat_wrong`, `FFSim.getnframes_flat_indep`, `FFSim.absorption_bounds`, `FFSim.absorption_stack`, `FFSim.lens_transmission_bounds`, `FFSim.lightyield_formula`, `FFSim.chainNoise_spec`, `FFSim.electronVar_poisson`, `FFSim.dark_variance`, `FFSim.dark_variance_iff`, `FFSim.chainArray_spec`, `FFSim.array_noise_differs`, `FFSim.approx_backward_none`

## C83

- **P**: `Lazy.build_call`, `Lazy.build_lazy`, `Lazy.build_name`, `Lazy.render_split`, `Lazy.name_determines`, `Lazy.divmod_error`, `Lazy.divmod_value`, `Lazy.divmod_name`, `Lazy.and_asymmetric`, `Lazy.not_wrong`
- **P, C, Q**: `Lazy.same_name`
- **P, Q**: `Lazy.build_total`

## C84

- **P**: `Browse.nonexistingName_keep`, `Browse.iterup_eq`, `Browse.root_eq`, `Browse.common_device`, `Browse.run_closed`, `Browse.run_order`, `Browse.run_asked`, `Browse.run_all`
- **P, C, Q**: `Browse.treeList_depth`, `Browse.treeList_negative`, `Browse.find_flat`, `Browse.find_deep`, `Browse.nonexistingName_free`, `Browse.nonexistingName_series`, `Browse.splitNumber_numbered`, `Browse.splitNumber_sound`, `Browse.numberedFmt_braces`
- **P, Q**: `Browse.tree_all`, `Browse.treeList_all`, `Browse.find_recursive_flat`, `Browse.nonexistingName_first`, `Browse.numberedFmt_eq`, `Browse.mem_iterup`, `Browse.common_spec`, `Browse.callback_lost`

## C85

- **P**: `Jobs.range_fails`
- **P, C, Q**: `Jobs.runNumbers_spec`, `Jobs.execute_exists`, `Jobs.zero_runs_last`, `Jobs.listing_aligned`, `Jobs.listing_shifted`, `Jobs.hms_spec`, `Jobs.hms_neg`, `Jobs.printprogress_spec`, `Jobs.printprogress_zero`, `Jobs.process_range`, `Jobs.process_monotone`, `Jobs.process_back`
- **P, Q**: `Jobs.runAll_spec`, `Jobs.runAll_fails`, `Jobs.listing_line`, `Jobs.deltaSeconds_day`, `Jobs.deltaSeconds_short`, `Jobs.detectors_eq`

## C86

- **P**: `Excel.ops1_result`
- **P, Q**: `Excel.applyAll_sat`, `Excel.step_inv`, `Excel.steps_sat`, `Excel.value_kept`, `Excel.unknown_column_breaks`, `Excel.stale`, `Excel.cell_refuses`

## C87

- **P, C, Q**: `Xrmc.body_runs`, `Xrmc.retour_undoes`, `Xrmc.rotationLoop_undo`, `Xrmc.rotationLoop_together`, `Xrmc.outputs_distinct`, `Xrmc.outputs_written`, `Xrmc.suffix_inj`, `Xrmc.suffix_length`, `Xrmc.frames_inverse`, `Xrmc.rotation_add`, `Xrmc.rotation_neg`, `Xrmc.rotation_direction`, `Xrmc.quadricFrame_inverse`, `Xrmc.quadricFrame_origin`, `Xrmc.transformed_value`, `Xrmc.layers_ordered`, `Xrmc.layer_inside`, `Xrmc.retour_order`, `Xrmc.device_twice`, `Xrmc.userToXrmc_origin`, `Xrmc.frames_disagree`, `Xrmc.rotation_axis_length`, `Xrmc.quadric_lost`, `Xrmc.cylinder_fails`, `Xrmc.layers_overlap`
- **P, Q**: `Xrmc.mkAxis_undo`

## C88

- **P, C, Q**: `Csutils.eval_value`, `Csutils.replace_value`, `Csutils.replace_fails`
- **P, Q**: `Csutils.eval_dims`, `Csutils.eval_num`, `Csutils.eval_zero_dim`

## C89

- **P, C, Q**: `Overlay.arrange_over`, `Overlay.show_over`, `Overlay.overlay_over`, `Overlay.origin_increasing`, `Overlay.markers_true`, `Overlay.orientation`, `Overlay.axis_position`, `Overlay.axis_fails`, `Overlay.intensity_range`, `Overlay.intensity_mono`, `Overlay.intensity_full`, `Overlay.intensity_top`, `Overlay.intensity_background`, `Overlay.intensity_negative`, `Ternary.round_trip`, `Ternary.round_trip'`, `Ternary.corners`, `Ternary.barycentric`, `Ternary.share_distance`, `Ternary.point_lines`, `Ternary.grid_lines`, `Ternary.norm_range`

## C90

- **P**: `XiaNx.same_counter`
- **P, C, Q**: `XiaNx.chunks_partition`, `XiaNx.chunks_memory`, `XiaNx.copyIndex_none`, `XiaNx.copy_all`, `XiaNx.counters_stored`, `XiaNx.link_spec`, `XiaNx.times_calculated`, `XiaNx.times_fraction`, `XiaNx.times_measured`, `XiaNx.task_done`
- **P, Q**: `XiaNx.skip_spec`, `XiaNx.task_failed`

## C91

- **P, C, Q**: `Xmimsim.beam_size`, `Xmimsim.first_layer`, `Xmimsim.layers_padded`, `Xmimsim.layers_lost`, `Xmimsim.attenuators_padded`, `Xmimsim.last_stale`, `Xmimsim.patch_length`, `Xmimsim.patch_other`, `Xmimsim.patch_output`, `Xmimsim.patch_width`, `Xmimsim.patch_width_other`, `Xmimsim.detector_patched`, `Xmimsim.spe_energy`, `Xmimsim.spe_default`, `Xmimsim.spe_fails`
- **P, Q**: `Xmimsim.run_spec`, `Xmimsim.last_result`

## C92

- **P, C, Q**: `Outlier.fixed_count`, `Outlier.fixed_largest`, `Outlier.mad_spec`, `Outlier.mad_half`, `Outlier.mad_constant`, `Outlier.affine_invariant`, `Tile.tile_rows`, `Tile.tile_columns`, `Tile.tile_diagonal`
- **P, Q**: `Tile.inj_c`

## C93

- **P, C, Q**: `TruncNorm.cdfN_eq`, `TruncNorm.delta_eq`, `TruncNorm.pdf_density`, `TruncNorm.cdf_spec`, `TruncNorm.ppf_cdf`, `TruncNorm.cdf_ppf`, `TruncNorm.mean_spec`, `TruncNorm.variance_spec`, `TruncNorm.limited_mean`, `TruncNorm.hole_not_flipped`, `TruncNorm.ppfN_exists`

## C94

- **P**: `TextLog.lines_clean`, `TextLog.lines_found`, `TextLog.no_lines`
- **P, C, Q**: `TextLog.stack_spec`
- **P, Q**: `TextLog.session_spec`, `TextLog.save_spec`, `TextLog.save_loses`, `TextLog.label_spec`, `TextLog.label_empty`

## C95

- **P, C, Q**: `EmSpectrum.sample_mean`, `EmSpectrum.sample_empty`, `EmSpectrum.mean_bounds`, `EmSpectrum.mean_scale`, `EmSpectrum.add_lines`, `EmSpectrum.dark_lost`, `EmSpectrum.sample_zero`

## C96

- **P, C, Q**: `NxFile.steps_roundtrip`, `NxFile.class_spec`, `NxFile.default_follow`, `NxFile.default_dataset`
- **P, Q**: `NxFile.parse_spec`, `NxFile.axes_roundtrip`
- **none**: `NxFile.class_stops`, `NxFile.root_subentry`, `NxFile.axes_lost`

## C97

- **P, C, Q**: `Interact.energy_spec`, `Interact.energy_order`, `Interact.forward_fails`, `Interact.name_inj`, `Interact.same_spec`, `Interact.lt_source`, `Interact.angles_ignored`

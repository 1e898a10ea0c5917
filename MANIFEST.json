{
 "claims": [
  {
   "property": "C01",
   "status": "partial",
   "theorems": [
    "Verif.Range.mrange_views_agree_partial",
    "Verif.Range.mrange_no_step_no_values",
    "Verif.Range.mrange_iteration_ends",
    "Verif.Range.mrange_len_matches_iff",
    "Verif.Range.mrange_views_disagree_short",
    "Verif.Range.mrange_views_disagree_backwards"
   ],
   "note": "Holds when at least one step fits between start and stop; the code disagrees with the claim for shorter or backward ranges (negations proved)."
  },
  {
   "property": "C02",
   "status": "proved",
   "theorems": [
    "Verif.Range.mrange_lists_exactly_the_grid"
   ],
   "note": ""
  },
  {
   "property": "C03",
   "status": "partial",
   "theorems": [
    "Verif.Scan.linear_scan_lock_step",
    "Verif.Scan.linear_scan_refuses_mismatch",
    "Verif.Scan.linear_scan_accepts",
    "Verif.Scan.linear_scan_scalar_fails"
   ],
   "note": "A plain scalar or a one-element list makes the code fail with AttributeError instead of being repeated (negation proved)."
  },
  {
   "property": "C04",
   "status": "partial",
   "theorems": [
    "Verif.Scan.grid_scan_is_product_partial",
    "Verif.Scan.rowIndex_lt",
    "Verif.Scan.rowIndex_bijective",
    "Verif.Scan.grid_scan_loses_short_range"
   ],
   "note": "Ranges shorter than one step count as zero points although iterating them gives one value (negation proved)."
  },
  {
   "property": "C05",
   "status": "proved",
   "theorems": [
    "Verif.Scan.command_line_parameters_spec",
    "Verif.Scan.reads_unique",
    "Verif.Scan.parse_list_spec"
   ],
   "note": ""
  },
  {
   "property": "C06",
   "status": "partial",
   "theorems": [
    "Verif.Runner.scan_runs_once_per_point_partial",
    "Verif.Runner.single_run_uses_values",
    "Verif.Runner.scan_points_not_run_with_own_values"
   ],
   "note": "The code passes the whole parameter dictionary at every scan point (negation proved); number of runs and directories are as claimed."
  },
  {
   "property": "C07",
   "status": "proved",
   "theorems": [
    "Verif.Runner.sort_args_moves_blocks",
    "Verif.Runner.sort_args_permutes",
    "Verif.Runner.sort_args_keeps_order",
    "Verif.Runner.sort_args_idempotent",
    "Verif.Runner.cut_unique",
    "Verif.Runner.cut_words"
   ],
   "note": ""
  },
  {
   "property": "C08",
   "status": "proved",
   "theorems": [
    "Verif.DT.promotion_is_max",
    "Verif.DT.promotion_laws",
    "Verif.DT.promotion_order_independent",
    "Verif.DT.division_type",
    "Verif.DT.compatibility_laws",
    "Verif.DT.rank_injective"
   ],
   "note": ""
  },
  {
   "property": "C09",
   "status": "proved",
   "theorems": [
    "Verif.Ex.operators_preserve_value",
    "Verif.Ex.operators_sound"
   ],
   "note": ""
  },
  {
   "property": "C10",
   "status": "partial",
   "theorems": [
    "Verif.Ex.simplify_preserves_value_partial",
    "Verif.Ex.simplify_returns_partial",
    "Verif.Ex.simplify_returns_defined",
    "Verif.Ex.simplify_returns_valued",
    "Verif.Ex.simplify_can_raise"
   ],
   "note": "simplify preserves the value whenever it returns, and returns when under some assignment every divisor is a number other than zero; it can raise otherwise (negation proved)."
  },
  {
   "property": "C11",
   "status": "partial",
   "theorems": [
    "Verif.Ex.evaluate_is_substitution_partial",
    "Verif.Ex.evaluate_all_known_partial",
    "Verif.Ex.evaluate_returns_partial",
    "Verif.Ex.evaluate_returns_defined",
    "Verif.Ex.evaluate_ignores_boxed"
   ],
   "note": "Expressions wrapped in a Value are not substituted (negation proved)."
  },
  {
   "property": "C12",
   "status": "partial",
   "theorems": [
    "Verif.Ex.depends_on_sound_partial",
    "Verif.Ex.verify_parameters_marks",
    "Verif.Ex.verify_parameters_preserves_value",
    "Verif.Ex.verify_parameters_preserves_dependence",
    "Verif.Ex.evaluate_ignores_boxed"
   ],
   "note": "Holds for expressions without a Value wrapping another expression; the negation for the others is proved with that of C11."
  },
  {
   "property": "C13",
   "status": "partial",
   "theorems": [
    "Verif.Ex.print_read_partial",
    "Verif.Ex.readAs_unique",
    "Verif.Ex.quotient_by_product_changes_value",
    "Verif.Ex.opposite_of_negative_product_unreadable",
    "Verif.Ex.negative_factor_changes_value",
    "Verif.Ex.opposite_subtracted_changes_value",
    "Verif.Ex.conditional_in_sum_changes_value",
    "Verif.Ex.comparison_in_product_changes_value"
   ],
   "note": "Holds when every printed operand binds strongly enough for its place (all operators); negations proved for a quotient by a product, the opposite of a product with a negative factor, a product with a negative right factor, a difference with an opposite, a conditional in a sum and a comparison in a product."
  },
  {
   "property": "C14",
   "status": "partial",
   "theorems": [
    "Verif.Ex.equal_hash_partial",
    "Verif.Ex.equal_but_different_hash"
   ],
   "note": "Equal expressions can have different hashes (negation proved)."
  },
  {
   "property": "C15",
   "status": "partial",
   "theorems": [
    "Verif.Orient.resolve_is_composition",
    "Verif.Orient.chain_inverse_partial",
    "Verif.Orient.from_angles_proper",
    "Verif.Orient.half_turn_not_a_rotation"
   ],
   "note": "Composition and from_angles hold in full; a rotation part of 180 degrees is not a rotation in the code (negation proved), so inverses hold for chains without it."
  },
  {
   "property": "C16",
   "status": "partial",
   "theorems": [
    "Verif.Orient.reduce_preserves_partial",
    "Verif.Orient.reduce_no_adjacent_constants",
    "Verif.Orient.reduce_keeps_running_parts"
   ],
   "note": "Holds for chains whose parts are rotations (no 180 degree part, whose matrix the code gets wrong)."
  },
  {
   "property": "C17",
   "status": "partial",
   "theorems": [
    "Verif.Orient.placement_agrees_partial",
    "Verif.Orient.absolute_rotation_ignored",
    "Verif.Orient.half_turn_placement_wrong",
    "Verif.Orient.run_time_angle_placement_wrong"
   ],
   "note": "Negations proved for absolute rotations with a relative position, half turns and run-time angles."
  },
  {
   "property": "C18",
   "status": "partial",
   "theorems": [
    "Verif.Orient.euler_angles_roundtrip_partial",
    "Verif.Orient.fromAngles_lit",
    "Verif.Orient.rotationOfAngles_proper",
    "Verif.Orient.euler_angles_lost_at_quarter_turn"
   ],
   "note": "Holds except at a quarter turn about y, where the angles are lost (negation proved)."
  },
  {
   "property": "C19",
   "status": "partial",
   "theorems": [
    "Verif.Instr.component_names_unique",
    "Verif.Instr.add_component_spec",
    "Verif.Instr.make_instance_spec",
    "Verif.Instr.lookup_returns_added_partial",
    "Verif.Instr.lookup_unknown_raises_partial",
    "Verif.Instr.component_called_previous"
   ],
   "note": "A component named PREVIOUS cannot be looked up (negation proved)."
  },
  {
   "property": "C20",
   "status": "proved",
   "theorems": [
    "Verif.Instr.parameters_are_first_definitions",
    "Verif.Instr.parameter_names_unique",
    "Verif.Instr.get_parameter_first",
    "Verif.Instr.repeated_parameter",
    "Verif.Instr.new_parameter"
   ],
   "note": ""
  },
  {
   "property": "C21",
   "status": "proved",
   "theorems": [
    "Verif.Instr.metadata_is_last_definitions",
    "Verif.Instr.metadata_last_wins"
   ],
   "note": ""
  },
  {
   "property": "C22",
   "status": "partial",
   "theorems": [
    "Verif.Instr.set_parameter_partial",
    "Verif.Instr.overwrite_parameter_partial",
    "Verif.Instr.get_parameter_spec",
    "Verif.Instr.set_parameter_returns",
    "Verif.Instr.overwrite_not_atomic",
    "Verif.Instr.repeated_setting_held_twice"
   ],
   "note": "A failing overwrite loses the old value, and a parameter can be held twice (negations proved)."
  },
  {
   "property": "C23",
   "status": "proved",
   "theorems": [
    "Verif.Instr.collected_metadata_of_instance",
    "Verif.Instr.collected_metadata_of_instrument"
   ],
   "note": ""
  },
  {
   "property": "C24",
   "status": "partial",
   "theorems": [
    "Verif.Instr.split_parts",
    "Verif.Instr.split_succeeds",
    "Verif.Instr.split_placement_partial",
    "Verif.Instr.split_turns_component",
    "Verif.Instr.first_part_refers_to_whole"
   ],
   "note": "Components and references are as claimed in full; the placement holds for literal angles and rotations whose angles can be recovered (negation proved for a quarter turn about y)."
  },
  {
   "property": "C25",
   "status": "partial",
   "theorems": [
    "Verif.Instr.unused_parameters_removed_partial",
    "Verif.Instr.used_parameters_kept",
    "Verif.Instr.user_section_ignored",
    "Verif.Instr.part_of_a_word_counts"
   ],
   "note": "Occurrences in the USERVARS section are not looked at (negation proved)."
  },
  {
   "property": "C26",
   "status": "proved",
   "theorems": [
    "Verif.Instr.groups_collect_members",
    "Verif.Instr.determine_groups_again"
   ],
   "note": "For an instrument without groups, which is how the parser calls it; a second call is shown to go wrong."
  },
  {
   "property": "C27",
   "status": "partial",
   "theorems": [
    "Verif.Trace.jump_targets_partial",
    "Verif.Trace.jump_targets_again",
    "Verif.Trace.copied_jump_wrong",
    "Verif.Trace.translated_jump_stale",
    "Verif.Trace.jump_to_component_called_myself",
    "Verif.Trace.jump_before_first_accepted"
   ],
   "note": "Holds for jumps not shared by components and not translated before; negations proved for copies, for instruments translated before being split, for a component called myself and for targets before the first component."
  },
  {
   "property": "C28",
   "status": "partial",
   "theorems": [
    "Verif.Trace.trace_in_own_frame_partial",
    "Verif.Trace.changeCode_spec",
    "Verif.Trace.eq_one_of_trace",
    "Verif.Trace.references_get",
    "Verif.Trace.skipable_spec",
    "Verif.Trace.skipped_first_component_wrong",
    "Verif.Trace.group_with_skipped_member_wrong_frame"
   ],
   "note": "Refinement of a loop in absolute coordinates, for instruments without jumps whose groups are contiguous and have no member without code; negations proved for a skipped first component away from the origin and for a group member without code."
  },
  {
   "property": "C29",
   "status": "partial",
   "theorems": [
    "Verif.Trace.group_semantics_partial",
    "Verif.Trace.group_left_by_stale_mark",
    "Verif.Trace.group_with_gap_wrong",
    "Verif.Trace.group_with_skipped_leader_wrong"
   ],
   "note": "Holds for contiguous groups whose members have code, when the leader is run or the component before did not scatter; negations proved for the rest."
  },
  {
   "property": "C30",
   "status": "partial",
   "theorems": [
    "Verif.Trace.funnel_agrees_partial",
    "Verif.Trace.funnel_stops_at_group",
    "Verif.Trace.funnel_and_regular_differ",
    "Verif.Trace.funnel_group_not_restored"
   ],
   "note": "Holds without groups; in the FUNNEL layout no particle ever gets past a group (negation proved for every instrument with a group)."
  },
  {
   "property": "C31",
   "status": "partial",
   "theorems": [
    "Verif.Trace.trace_ends",
    "Verif.Trace.split_conserves_weight",
    "Verif.Trace.split_runs_each_copy_once",
    "Verif.Trace.split_zero_never_ends",
    "Verif.Trace.jump_before_first_never_ends",
    "Verif.Trace.split_and_jump_lose_weight"
   ],
   "note": "Holds when every SPLIT makes at least one copy and, for the weight, without jumps; negations proved for SPLIT 0, for a jump before the first component and for a SPLIT followed by an iterated jump."
  },
  {
   "property": "C32",
   "status": "partial",
   "theorems": [
    "Verif.Escape.text_survives_iff",
    "Verif.Escape.literal_ends_at_its_quote",
    "Verif.Escape.literal_on_one_line",
    "Verif.Escape.no_trigraph_no_change",
    "Verif.Escape.latin1_not_utf8",
    "Verif.Escape.hex_digit_swallowed",
    "Verif.Escape.trigraph_hides_quote",
    "Verif.Escape.metadata_name_with_blank"
   ],
   "note": "Exact condition proved; negations for U+0080..U+00FF, control characters before a hexadecimal digit, trigraphs (the compiler is called with -std=c99) and metadata names with blanks."
  },
  {
   "property": "C33",
   "status": "partial",
   "theorems": [
    "Verif.Includes.include_order_sound",
    "Verif.Includes.include_order_transitive",
    "Verif.Includes.cyclic_includes_raise",
    "Verif.Includes.include_order_raises_iff",
    "Verif.Includes.valid_order_not_found"
   ],
   "note": "Sound for every permutation sorted may return; not complete: an example where a valid order exists and the function raises."
  },
  {
   "property": "C34",
   "status": "partial",
   "theorems": [
    "Verif.CDecl.member_name_injective",
    "Verif.CDecl.uservars_partial",
    "Verif.CDecl.particle_members_distinct",
    "Verif.CDecl.instrument_variable_shared",
    "Verif.CDecl.differing_declarations_accepted",
    "Verif.CDecl.builtin_member_names_accepted",
    "Verif.CDecl.array_member_without_size"
   ],
   "note": "The members of different variables and instances are distinct and no name is used twice; negations proved for an instrument variable with the name made for a component, for differing declarations, for the names of built-in members, and arrays lose their size."
  },
  {
   "property": "C35",
   "status": "partial",
   "theorems": [
    "Verif.CDecl.decl_eq_refl",
    "Verif.CDecl.decl_eq_symm",
    "Verif.CDecl.decl_eq_trans_partial",
    "Verif.CDecl.decl_eq_not_transitive",
    "Verif.CDecl.different_types_differ",
    "Verif.CDecl.pointer_equals_scalar"
   ],
   "note": "Reflexive and symmetric; not transitive, and a variable equals a pointer (negations proved)."
  },
  {
   "property": "C36",
   "status": "partial",
   "theorems": [
    "Verif.CDecl.initializer_size_partial",
    "Verif.CDecl.initializer_size_wrong",
    "Verif.CDecl.array_member_sizes",
    "Verif.CDecl.array_with_text_raises"
   ],
   "note": "Holds for lists of any depth whose entries have no commas or braces; negations proved for empty lists, trailing commas and entries with commas; an array initialized by a text makes the translation raise."
  },
  {
   "property": "C37",
   "status": "partial",
   "theorems": [
    "Verif.Macros.sections_tidy",
    "Verif.Macros.trace_section_tidy_partial",
    "Verif.Macros.run_number_macro_stays",
    "Verif.Macros.extend_of_type",
    "Verif.Macros.restore_macro",
    "Verif.Macros.component_code_sees_parameters",
    "Verif.Macros.instrument_code_sees_parameters",
    "Verif.Macros.trace_code_sees",
    "Verif.Macros.extend_code_sees",
    "Verif.Macros.display_code_sees",
    "Verif.Macros.parameter_takes_member_away",
    "Verif.Macros.definitions_balanced_partial",
    "Verif.Macros.save_definitions_unbalanced"
   ],
   "note": "Holds but for mcget_run_num, which stays defined, and for the instrument's SAVE, whose definitions lack a parenthesis (negations proved); a parameter with the name of a member of the particle takes that macro away from later components."
  },
  {
   "property": "C38",
   "status": "partial",
   "theorems": [
    "Verif.Registry.chosen_has_priority",
    "Verif.Registry.chosen_none_iff",
    "Verif.Registry.component_kept",
    "Verif.Registry.added_registry_ignores_priority"
   ],
   "note": "Holds in full for the registries a reader is made with; registries added later (SEARCH, append) are used regardless of priority (negation proved)."
  },
  {
   "property": "C39",
   "status": "partial",
   "theorems": [
    "Verif.Registry.memory_add",
    "Verif.Registry.memory_add_comp_partial",
    "Verif.Registry.capital_extension_not_found",
    "Verif.Registry.memory_instrument_unreadable"
   ],
   "note": "Holds for add and for component names whose extension is not written in capitals; instruments stored in memory cannot be read by name (negations proved)."
  },
  {
   "property": "C40",
   "status": "partial",
   "theorems": [
    "Verif.Registry.remote_has_file",
    "Verif.Registry.remote_file_partial",
    "Verif.Registry.remote_returns_other_file",
    "Verif.Registry.remote_known_raises",
    "Verif.Registry.dir_file",
    "Verif.Registry.dir_unique_file",
    "Verif.Registry.dir_known_raises"
   ],
   "note": "A registry that has the file returns it; one that has only a file whose name ends with the name asked for returns that, or raises (negations proved)."
  },
  {
   "property": "C41",
   "status": "partial",
   "theorems": [
    "Verif.Registry.search_directory",
    "Verif.Registry.searched_is_used_first",
    "Verif.Registry.search_again_partial",
    "Verif.Registry.search_in_instrument_again",
    "Verif.Registry.search_with_blank_raises",
    "Verif.Registry.search_shell_raises"
   ],
   "note": "Holds for directories given without quotes; SEARCH in an instrument keeps the quotes, so it registers again each time; blanks and SEARCH SHELL raise (negations proved)."
  },
  {
   "property": "C42",
   "status": "partial",
   "theorems": [
    "Verif.Hdf5.save_then_load_partial",
    "Verif.Hdf5.unsaved_fields",
    "Verif.Hdf5.saved_is_loaded",
    "Verif.Hdf5.instrument_again_partial",
    "Verif.Hdf5.unknown_class_lost",
    "Verif.Hdf5.dict_order_lost",
    "Verif.Hdf5.radians_lost",
    "Verif.Hdf5.registry_priority_lost",
    "Verif.Hdf5.other_version_refused",
    "Verif.Hdf5.big_integer_refused",
    "Verif.Hdf5.outside_reference_raises",
    "Verif.Hdf5.types_of_one_name_confused",
    "Verif.Hdf5.mode_lost"
   ],
   "note": "Holds for trees of any depth of the values that have handlers and whose unsaved fields have their defaults, and for instruments whose references are to earlier components; negations proved for the rest. RemoteRegistry classes are not modelled."
  },
  {
   "property": "C43",
   "status": "proved",
   "theorems": [
    "Verif.Hdf5.entry_names_ordered",
    "Verif.Hdf5.sequence_again"
   ],
   "note": ""
  },
  {
   "property": "C44",
   "status": "partial",
   "theorems": [
    "Verif.Loader.summary_again_partial",
    "Verif.Loader.empty_text_refused",
    "Verif.Loader.missing_attribute_refused",
    "Verif.Loader.mark_in_title_refused",
    "Verif.Loader.mark_in_parameter_loses",
    "Verif.Loader.blanks_lost",
    "Verif.Loader.data_entries"
   ],
   "note": "Holds for summaries whose texts are stripped, without line breaks and without the begin/end marks; negations proved for the rest."
  },
  {
   "property": "C45",
   "status": "partial",
   "theorems": [
    "Verif.Loader.combined_sums",
    "Verif.Loader.combined_order",
    "Verif.Loader.combined_error",
    "Verif.Loader.quadrature_iff",
    "Verif.Loader.combine_progress",
    "Verif.Loader.other_result_refused",
    "Verif.Loader.no_events_refused",
    "Verif.Loader.combined_mean",
    "Verif.Loader.combined_statistics",
    "Verif.Loader.combined_data",
    "Verif.Loader.first_file_loses",
    "Verif.Loader.error_wrong",
    "Verif.Loader.rays_added_iff",
    "Verif.Loader.repeats_not_added",
    "Verif.Loader.descriptions_kept",
    "Verif.Loader.parameters_kept_iff",
    "Verif.Loader.parameter_lost",
    "Verif.Loader.settings_combined",
    "Verif.Loader.files_sum",
    "Verif.Loader.files_sum_2",
    "Verif.Loader.files_order",
    "Verif.Loader.only_compatible",
    "Verif.Loader.file_errors_wrong",
    "Verif.Loader.parameter_added",
    "Verif.Loader.no_dimension_refused"
   ],
   "note": "Counts and intensities are sums in any order, exactly; the errors are not combined in quadrature unless all later errors vanish (exact condition and negation proved), and the ray numbers of simulations are added only if their directories are the same (exact condition proved). A parameter only the second of two otherwise equal simulations has is lost. Numbers are reals, not floats."
  },
  {
   "property": "C46",
   "status": "partial",
   "theorems": [
    "Verif.Loader.orientation",
    "Verif.Loader.square_table_mixed",
    "Verif.Loader.no_points_refused",
    "Verif.Loader.wrong_size_refused",
    "Verif.Loader.wrong_size_refused_0",
    "Verif.Loader.wrong_size_refused_2",
    "Verif.Loader.orientation2",
    "Verif.Loader.orientation0"
   ],
   "note": "Exact: the orientation is right if and only if the number of points differs from that of the variables or the table is symmetric."
  },
  {
   "property": "C47",
   "status": "partial",
   "theorems": [
    "Verif.Compile.reached_single",
    "Verif.Compile.new_options",
    "Verif.Compile.update_partial",
    "Verif.Compile.update_nothing_iff",
    "Verif.Compile.nexus_lost",
    "Verif.Compile.commands",
    "Verif.Compile.runner_options"
   ],
   "note": "Holds for the number of processes, MPI and OpenACC; every update loses NeXus unless it is asked for again (exact condition and negation proved)."
  },
  {
   "property": "C48",
   "status": "partial",
   "theorems": [
    "Verif.Compile.linux_groups",
    "Verif.Compile.linux_link_after_source",
    "Verif.Compile.linux_flag_kept",
    "Verif.Compile.quoted_blank_broken",
    "Verif.Compile.windows_groups",
    "Verif.Compile.windows_lengths",
    "Verif.Compile.windows_not_split",
    "Verif.Compile.windows_link",
    "Verif.Compile.windows_link_late",
    "Verif.Compile.order_not_determined",
    "Verif.Compile.same_words"
   ],
   "note": "Partition and order are exact for a given list of flags; the list comes from a set, so the order of the DEPENDENCY strings is not determined, quoted blanks are broken on Linux and several flags in one string are not split on Windows (negations proved)."
  },
  {
   "property": "C49",
   "status": "partial",
   "theorems": [
    "Verif.Depend.directives_iff",
    "Verif.Depend.decode_partial",
    "Verif.Depend.nested_directive",
    "Verif.Depend.command_value",
    "Verif.Depend.path_value",
    "Verif.Depend.bare_keyword_refused",
    "Verif.Depend.flag_refused",
    "Verif.Depend.value_scanned_again",
    "Verif.Depend.parentheses_cut"
   ],
   "note": "Exact condition for the directives of one kind; for all three together the texts and values have no letter that could begin a keyword. Negations: flags with a keyword in their name are refused, values are searched again, parentheses in commands are cut."
  },
  {
   "property": "C50",
   "status": "partial",
   "theorems": [
    "Verif.Compile.macro_monotone",
    "Verif.Compile.macro_order",
    "Verif.Compile.minor_out_of_range",
    "Verif.Compile.rest_ignored",
    "Verif.Compile.epoch_ignored",
    "Verif.Compile.no_version"
   ],
   "note": "Order embedding proved for releases of at most three numbers, minor below 100 and patch below 1000; negations for larger numbers, further numbers and suffixes, and epochs."
  },
  {
   "property": "C51",
   "status": "partial",
   "theorems": [
    "Verif.InstrText.reference_again",
    "Verif.InstrText.placement_again_partial",
    "Verif.InstrText.omitted_rotation",
    "Verif.InstrText.references_again_iff",
    "Verif.InstrText.rotation_reference_lost",
    "Verif.InstrText.keyword_names_confused"
   ],
   "note": "Holds when the rotation refers to the same component as the position does when it is zero, and for names that are not keywords; exact condition for the references; negations proved for the rest."
  },
  {
   "property": "C52",
   "status": "partial",
   "theorems": [
    "Verif.InstrText.jumpName_eq_iff",
    "Verif.InstrText.jump_again_iff",
    "Verif.InstrText.counted_jump_refused",
    "Verif.InstrText.jump_target_renamed",
    "Verif.InstrText.translated_jump_refused"
   ],
   "note": "Exact condition for a jump to be read back; negations for relative targets with a count, targets called like a keyword and jumps of translated instruments."
  },
  {
   "property": "C53",
   "status": "partial",
   "theorems": [
    "Verif.InstrText.pyInt_digits",
    "Verif.InstrText.previous_refers",
    "Verif.InstrText.previous_is_last",
    "Verif.InstrText.named_refers",
    "Verif.InstrText.unknown_name_is_absolute",
    "Verif.InstrText.previous_too_far_is_absolute",
    "Verif.InstrText.component_called_none",
    "Verif.InstrText.other_literals"
   ],
   "note": "References that exist resolve as stated; references that do not exist are taken as ABSOLUTE instead of raising (negations proved)."
  },
  {
   "property": "C54",
   "status": "proved",
   "theorems": [
    "Verif.Include.include_spec",
    "Verif.Include.read_instr",
    "Verif.Include.read_ok_iff",
    "Verif.Include.removable_left_out"
   ],
   "note": "The DEPENDENCY flags of an included instrument are not merged: see C57 included_dependency_lost."
  },
  {
   "property": "C55",
   "status": "proved",
   "theorems": [
    "Verif.Comp.component_parameter_names_unique",
    "Verif.Comp.add_parameter_spec",
    "Verif.Comp.add_output_spec",
    "Verif.Comp.output_order_matters",
    "Verif.Comp.get_parameter_finds"
   ],
   "note": ""
  },
  {
   "property": "C56",
   "status": "partial",
   "theorems": [
    "Verif.CEval.sequential_values_partial",
    "Verif.CEval.evaluate_values_partial",
    "Verif.CEval.int_conversion_lost",
    "Verif.CEval.integer_division_wrong",
    "Verif.CEval.known_changed",
    "Verif.CEval.type_of_last",
    "Verif.CEval.type_as_asked_partial",
    "Verif.CEval.numbers_not_shared",
    "Verif.CEval.copied_type_lost"
   ],
   "note": "Assignments are carried out in order with the values before them, and an expression is returned for every variable, if C converts nothing; int conversion and integer division are not those of C; the dictionary given is changed; variables holding the same object get the last type asked for."
  },
  {
   "property": "C57",
   "status": "partial",
   "theorems": [
    "Verif.Flags.parse_flags",
    "Verif.Flags.get_instrument_flags_partial",
    "Verif.Flags.get_instrument_loses_own",
    "Verif.Flags.make_instance_flags",
    "Verif.Flags.assemble_flags",
    "Verif.Flags.included_dependency_lost",
    "Verif.Flags.earlier_flags_kept",
    "Verif.Flags.final_quote_lost"
   ],
   "note": "Exact for parse_mccode_instr with plain literals; Reader.get_instrument loses the instrument's own DEPENDENCY and keeps those of earlier instruments, and that of an included instrument is lost (negations proved)."
  },
  {
   "property": "C58",
   "status": "proved",
   "theorems": [
    "Verif.Runner.runtime_options_spec",
    "Verif.Runner.runtime_args_spec",
    "Verif.Runner.scan_drops_aliases"
   ],
   "note": "The dictionary function is as claimed; mccode_run_scan does not use its result at scan points (scan_drops_aliases)."
  },
  {
   "property": "C59",
   "status": "proved",
   "theorems": [
    "Verif.Range.mrange_text_roundtrip",
    "Verif.Range.mrange_text_fields"
   ],
   "note": ""
  },
  {
   "property": "C60",
   "status": "proved",
   "theorems": [
    "Verif.Scan.bound_singulars_spec"
   ],
   "note": ""
  },
  {
   "property": "C61",
   "status": "partial",
   "theorems": [
    "Verif.Ex.python_numbers_partial",
    "Verif.Ex.number_on_the_left_returns",
    "Verif.Ex.operation_with_number_raises"
   ],
   "note": "Some combinations raise (negation proved)."
  },
  {
   "property": "C62",
   "status": "partial",
   "theorems": [
    "Verif.Ex.floor_division_partial",
    "Verif.Ex.floor_division_by_one_rounds"
   ],
   "note": "Division by one skips the floor (negation proved)."
  },
  {
   "property": "C63",
   "status": "partial",
   "theorems": [
    "Verif.Ex.power_partial",
    "Verif.Ex.power_of_operation_raises",
    "Verif.Ex.zero_to_the_zero"
   ],
   "note": "Powers of operations raise and 0 ** 0 is 0 in the code (negations proved)."
  },
  {
   "property": "C64",
   "status": "partial",
   "theorems": [
    "Verif.Ex.equality_is_equivalence_partial",
    "Verif.Ex.equality_not_symmetric"
   ],
   "note": "Not symmetric in general (negation proved)."
  },
  {
   "property": "C65",
   "status": "partial",
   "theorems": [
    "Verif.Ex.equal_same_value_partial",
    "Verif.Ex.identifier_equals_string"
   ],
   "note": "An identifier compares equal to a string of the same text (negation proved)."
  },
  {
   "property": "C66",
   "status": "partial",
   "theorems": [
    "Verif.Orient.rotation_part_angle_partial",
    "Verif.Orient.half_turn_not_a_rotation",
    "Verif.Orient.radian_part_wrong",
    "Verif.Orient.run_time_angle_wrong"
   ],
   "note": "Holds for literal angles in degrees other than 180; negations proved for the rest."
  },
  {
   "property": "C67",
   "status": "partial",
   "theorems": [
    "Verif.Instr.first_part_groups_partial",
    "Verif.Instr.second_part_groups_stale"
   ],
   "note": "split copies the groups of the whole instrument (negation proved)."
  },
  {
   "property": "C68",
   "status": "partial",
   "theorems": [
    "Verif.Comp.written_section_replaces_partial",
    "Verif.Comp.written_block_appends",
    "Verif.Comp.share_copy_repeats"
   ],
   "note": "Some clauses append instead of replacing (negations proved)."
  },
  {
   "property": "C69",
   "status": "partial",
   "theorems": [
    "Verif.Trace.jump_arrives",
    "Verif.Trace.last_jump_decides",
    "Verif.Trace.runJump_taken",
    "Verif.Trace.iterated_jump",
    "Verif.Trace.jump_in_group_wrong"
   ],
   "note": "Holds outside of groups; a jump taken in a group by a particle that scatters leaves the group without coordinate transformation (negation proved)."
  },
  {
   "property": "C70",
   "status": "partial",
   "theorems": [
    "Verif.Loader.data_file_1d_partial",
    "Verif.Loader.data_file_2d",
    "Verif.Loader.data_file_0d",
    "Verif.Loader.square_data_changed",
    "Verif.Loader.hash_lost",
    "Verif.Loader.other_entries_lost",
    "Verif.Loader.four_variables_refused",
    "Verif.Loader.missing_entry_refused"
   ],
   "note": "Holds for headers with exactly the entries written and plain texts, and for one-dimensional data with as many points as variables only if the table is symmetric (negation proved)."
  },
  {
   "property": "C72",
   "status": "partial",
   "theorems": [
    "Verif.InstrText.instance_again_partial",
    "Verif.InstrText.trace_again_partial",
    "Verif.InstrText.noacc_is_cpu",
    "Verif.InstrText.split_lost",
    "Verif.InstrText.metadata_name_refused",
    "Verif.InstrText.blank_extend_lost"
   ],
   "note": "Holds for lists of any length of instances without SPLIT whose names, metadata and jumps are readable; negations proved for SPLIT, metadata names and blank EXTEND blocks."
  },
  {
   "property": "C71",
   "status": "partial",
   "theorems": [
    "Verif.Depend.keywords_replaced_partial",
    "Verif.Depend.no_keyword_kept",
    "Verif.Depend.backslash_raises",
    "Verif.Depend.backslash_changed",
    "Verif.Depend.shared_at_replaced",
    "Verif.Depend.values_searched"
   ],
   "note": "Holds for values without @ and backslash that are no single word, and texts between keywords that are no words; a backslash in a configured value raises or changes it, the @ ending one keyword may be taken to begin another, and keywords in values are replaced or not depending on where they come from."
  },
  {
   "property": "C73",
   "status": "partial",
   "theorems": [
    "Verif.Instr.mcpl_split_parts",
    "Verif.Instr.mcpl_split_succeeds",
    "Verif.Instr.quotedName_spec",
    "Verif.Instr.mcpl_split_placement_partial",
    "Verif.Instr.mcpl_again_raises",
    "Verif.Instr.split_point_lost",
    "Verif.Instr.reference_to_replaced"
   ],
   "note": "Components, parameters, success and (under the hypotheses of C24) placement are as claimed; a part cannot be split again, what the component at the split point did is lost, and references to it are to a component no longer there."
  },
  {
   "property": "C74",
   "status": "partial",
   "theorems": [
    "Verif.Instr.make_instance_partial",
    "Verif.Instr.make_instance_group_lost",
    "Verif.Instr.make_instance_removable_lost"
   ],
   "note": "Exact without a group and the removable mark; both are passed to the wrong fields."
  },
  {
   "property": "C75",
   "status": "partial",
   "theorems": [
    "Verif.Assembler.component_added_partial",
    "Verif.Assembler.component_returns",
    "Verif.Assembler.assembled_well_formed",
    "Verif.Assembler.absolute_rotation_lost",
    "Verif.Assembler.failed_parameter_adds",
    "Verif.Assembler.failed_placement_keeps_flags",
    "Verif.Assembler.component_called_absolute"
   ],
   "note": "A call that returns adds what was described and sequences of calls keep the instrument well formed; an absolute rotation with a relative position is made relative, and calls that raise may leave the component or flags in the instrument."
  },
  {
   "property": "C76",
   "status": "partial",
   "theorems": [
    "Verif.Setpos.literals_joined_partial",
    "Verif.Setpos.escaped_quote_at_end",
    "Verif.Setpos.escape_continued",
    "Verif.Setpos.prefixed_literal"
   ],
   "note": "Holds for literals that do not end in an escaped quote (where what is written is never a literal) nor in an escape sequence continued by the next one."
  },
  {
   "property": "C77",
   "status": "partial",
   "theorems": [
    "Verif.Setpos.literal_held_iff",
    "Verif.Setpos.literal_held_partial",
    "Verif.Setpos.text_cut",
    "Verif.Setpos.no_text_held",
    "Verif.Setpos.text_expression_held",
    "Verif.Setpos.vector_held",
    "Verif.Setpos.vector_name_held",
    "Verif.Setpos.number_held",
    "Verif.Setpos.null_not_a_text",
    "Verif.Setpos.parameter_in_list",
    "Verif.Setpos.every_parameter_held",
    "Verif.Setpos.instance_name_held_iff"
   ],
   "note": "Exact conditions proved; negations for texts with characters beyond ASCII, NULL for parameters that are no texts, and instrument parameters in lists. The NeXus output is C93."
  },
  {
   "property": "C78",
   "status": "partial",
   "theorems": [
    "Verif.Setpos.array_initialised_partial",
    "Verif.Setpos.scalar_initialised",
    "Verif.Setpos.more_sizes",
    "Verif.Setpos.comma_at_end",
    "Verif.Setpos.expression_with_comma",
    "Verif.Setpos.list_for_scalar"
   ],
   "note": "Exact for arrays with one size and expressions without commas and braces, and for numbers and pointers; negations for the rest."
  },
  {
   "property": "C79",
   "status": "partial",
   "theorems": [
    "Verif.Setpos.row_read_partial",
    "Verif.Setpos.no_default",
    "Verif.Setpos.inch_mark",
    "Verif.Setpos.quote_in_unit",
    "Verif.Setpos.backslash_in_unit"
   ],
   "note": "Holds for defaults and units that are literals or plain texts; a parameter without a default gets the default None."
  },
  {
   "property": "C80",
   "status": "partial",
   "theorems": [
    "Verif.Particle.read_by_name_iff",
    "Verif.Particle.pointer_by_name",
    "Verif.Particle.written_by_name",
    "Verif.Particle.read_by_id_iff",
    "Verif.Particle.int_variable_not_read",
    "Verif.Particle.array_not_written",
    "Verif.Particle.builtin_name_not_written"
   ],
   "note": "Exact for variables of type double and for writing variables that are neither arrays nor pointers; negations for variables of other types (read as double all the same), arrays, pointers and variables with the name of a built-in member."
  },
  {
   "property": "C81",
   "status": "partial",
   "theorems": [
    "Verif.Particle.restored",
    "Verif.Particle.started",
    "Verif.Particle.variables_started_partial",
    "Verif.Particle.variable_not_started"
   ],
   "note": "Restoring and starting are exact; user variables of types other than double, MCNUM and int, pointers and arrays are not initialised, which is proved."
  },
  {
   "property": "C82",
   "status": "partial",
   "theorems": [
    "Verif.Particle.index_by_name_iff",
    "Verif.Particle.parameters_by_name",
    "Verif.Particle.distance_by_name",
    "Verif.Particle.distance_while_placing",
    "Verif.Particle.unknown_name_read"
   ],
   "note": "Exact for names of components; an unknown name in setpos_getdistance or getdistance reads outside of the array of positions, which is proved."
  },
  {
   "property": "C83",
   "status": "proved",
   "theorems": [
    "Verif.InstrText.parameter_again_iff",
    "Verif.InstrText.expression_default_lost",
    "Verif.InstrText.plain_unit_refused",
    "Verif.InstrText.vector_refused",
    "Verif.InstrText.double_is_the_type"
   ],
   "note": "An exact condition for parameters whose name is no keyword; literals with a prefix such as L are outside the model."
  },
  {
   "property": "C84",
   "status": "partial",
   "theorems": [
    "Verif.InstrText.instrument_again_partial",
    "Verif.InstrText.flags_not_same",
    "Verif.InstrText.empty_flag",
    "Verif.InstrText.declare_not_same",
    "Verif.InstrText.flag_with_line_refused",
    "Verif.InstrText.comment_refused",
    "Verif.InstrText.same_parameters_refused"
   ],
   "note": "The exact instrument read is given for all readable instruments. Not the same: several flags become one, an empty flag becomes None, blocks are joined and padded; flags with an end of a line and repeated parameters are refused; SPLIT and REMOVABLE are lost (C72)."
  },
  {
   "property": "C85",
   "status": "partial",
   "theorems": [
    "Verif.Ex.same_reading_iff",
    "Verif.Ex.same_value_iff",
    "Verif.Ex.same_order_same_reading_partial",
    "Verif.Ex.arithmetic_read_as_in_c",
    "Verif.Ex.two_operators_iff",
    "Verif.Ex.two_operators_listed",
    "Verif.Ex.cReadAs_unique",
    "Verif.Ex.generated_meaning_partial",
    "Verif.Ex.generated_arithmetic_partial",
    "Verif.Ex.remainder_changes_meaning",
    "Verif.Ex.shift_changes_meaning",
    "Verif.Ex.logic_printed_as_written"
   ],
   "note": "Which texts the grammar and C read alike is exact; the generated text keeps the meaning for arithmetic printed with enough parentheses (C13). Negations for % and shifts. Integer division in C is not modelled (values are rational numbers), nor the prefix of parameters."
  },
  {
   "property": "C86",
   "status": "partial",
   "theorems": [
    "Verif.Ex.sign_belongs_to_operand_iff",
    "Verif.Ex.sign_after_times_changes_meaning",
    "Verif.Ex.sign_after_minus_changes_meaning",
    "Verif.Ex.sign_after_plus",
    "Verif.Ex.sign_after_divide_refused",
    "Verif.Ex.call_without_arguments_gets_one"
   ],
   "note": "Exact: the sign belongs to the operand except after + - * / ^; the consequences for the generated C are proved for each (silently wrong after * and -, right by accident after +, refused after /)."
  },
  {
   "property": "C87",
   "status": "partial",
   "theorems": [
    "Verif.Ex.generated_whole_numbers_partial",
    "Verif.Ex.generated_floating_point_partial",
    "Verif.Ex.quotient_of_literals_iff",
    "Verif.Ex.factor_one_dropped",
    "Verif.Ex.zero_dropped"
   ],
   "note": "Holds for floating point arithmetic in full, and for whole numbers where no quotient is cut off in either text; negations proved for quotients of integer literals (exact: they agree iff the division is even) and for dropped floating point ones and zeros."
  },
  {
   "property": "C88",
   "status": "partial",
   "theorems": [
    "Verif.Lit.literal_keeps_value_iff",
    "Verif.Lit.hexadecimal_constants",
    "Verif.Lit.decimal_literal_unchanged",
    "Verif.Lit.literal_with_letter_unchanged",
    "Verif.Lit.octal_literal_changes_value",
    "Verif.Lit.sum_of_texts_changes_value",
    "Verif.Lit.multiple_of_text_not_a_number",
    "Verif.Lit.text_plus_number_refused"
   ],
   "note": "Exact for a literal on its own: octal constants other than 0...0d change value (negation). Sums and multiples of literals with letters (hexadecimal, suffix) go wrong (negations)."
  },
  {
   "property": "C89",
   "status": "partial",
   "theorems": [
    "Verif.Names.declared_once_iff",
    "Verif.Names.counters_distinct_partial",
    "Verif.Names.counters_clash",
    "Verif.Names.same_target_clash",
    "Verif.Names.reserved_names_clash"
   ],
   "note": "Exact condition on the names of an instrument; the claim fails as the translator refuses none of the clashing names (negations proved). Names declared by user code, libraries and the runtime are outside the model."
  },
  {
   "property": "C90",
   "status": "partial",
   "theorems": [
    "Verif.Names.uses_declared_partial",
    "Verif.Names.trace_blocks_not_empty",
    "Verif.Names.empty_trace_block_not_declared",
    "Verif.Names.parameter_macro_iff",
    "Verif.Names.definition_parameter_not_declared"
   ],
   "note": "Holds for what the translator writes itself when definitions are filled through the methods of Comp; the macros of DEFINITION parameters stand for no member (negation, exact condition)."
  },
  {
   "property": "C91",
   "status": "proved",
   "theorems": [
    "Verif.Life.initialize_runs",
    "Verif.Life.save_runs",
    "Verif.Life.finally_runs",
    "Verif.Life.display_runs"
   ],
   "note": "Exact sequence of events of every section. What user code does is outside the model; a block of user code is one event."
  },
  {
   "property": "C92",
   "status": "partial",
   "theorems": [
    "Verif.Life.freed_once_iff",
    "Verif.Life.freed_once_partial",
    "Verif.Life.not_freed_iff",
    "Verif.Life.compatible_lists_fit",
    "Verif.Life.list_given_twice"
   ],
   "note": "Exact conditions: fails when a list is given twice for a parameter (freed twice) and for default lists, which are never freed. User code is assumed not to touch the pointers."
  },
  {
   "property": "C93",
   "status": "partial",
   "theorems": [
    "Verif.Setpos.nexus_written_partial",
    "Verif.Setpos.nexus_text_partial",
    "Verif.Setpos.no_default_refused",
    "Verif.Setpos.null_value_refused",
    "Verif.Setpos.value_not_recorded",
    "Verif.Setpos.quotes_inside",
    "Verif.Setpos.group_names_distinct"
   ],
   "note": "Holds for numbers and lists without quotes in them and for texts with a literal default; negations for text parameters without a default, NULL for a number, instrument parameters (recorded by name only) and expressions with a text in them."
  },
  {
   "property": "C94",
   "status": "partial",
   "theorems": [
    "Verif.Ex.power_of_literals_iff",
    "Verif.Ex.power_of_variable_refused"
   ],
   "note": "Fails: exact for two literals (the generated C has the power only if it is known without computing: base 1 or one of the two zero), and powers of variables by literals are refused by C or are an exclusive or. Powers of operations raise (C63)."
  },
  {
   "property": "C95",
   "status": "partial",
   "theorems": [
    "Verif.Runner.run_cmd_runs",
    "Verif.Runner.run_cmd_given_iff",
    "Verif.Runner.first_program_always",
    "Verif.Runner.mccode_run_given",
    "Verif.Runner.second_mccode_run_raises",
    "Verif.Runner.replace_makes_given",
    "Verif.Runner.directory_option_raises",
    "Verif.Runner.nothing_run_without_parameters",
    "Verif.Runner.program_given_raises"
   ],
   "note": "Exact: the command runs whatever program is at the place of its output, so all later calls run the program of the first one (negation); mccode_run never runs another program but raises if there is one. -d and compiled programs always raise. mcstas_run and mcxtrace_run pass their arguments in the wrong order (Path of a dict) and always raise; they are not modelled."
  },
  {
   "property": "C96",
   "status": "partial",
   "theorems": [
    "Verif.Runner.arguments_given",
    "Verif.Runner.arguments_given_iff",
    "Verif.Runner.processes_given",
    "Verif.Runner.process_count_refused"
   ],
   "note": "Exact: holds iff no text is empty or has white space in it; the number of processes from the command line never reaches mpirun as a number (negation)."
  },
  {
   "property": "C97",
   "status": "partial",
   "theorems": [
    "Verif.Registry.generator_agrees_partial",
    "Verif.Registry.directories_agree_partial",
    "Verif.Registry.parsed_ignores_search",
    "Verif.Registry.searched_loses_to_memory"
   ],
   "note": "Holds for Reader.get_instrument when its registries end up in order of priority; negations: parse_mccode_instr keeps none of the SEARCHed directories, and a SEARCHed directory loses to a given registry of higher priority."
  },
  {
   "property": "C98",
   "status": "proved",
   "theorems": [
    "Verif.Reading.read_is_defined",
    "Verif.Reading.read_iff_defined",
    "Verif.Reading.each_file_once",
    "Verif.Reading.cycle_exhausts_limit",
    "Verif.Reading.returned_iff_no_cycle"
   ],
   "note": "The registries are the same for all calls (for SEARCH see C41). The limit is the number of nested calls of get_component; a circle of COPY ends in RecursionError, not in a message about the files."
  },
  {
   "property": "C99",
   "status": "partial",
   "theorems": [
    "Verif.Instr.rows_are",
    "Verif.Instr.under_own_name_iff",
    "Verif.Instr.one_value_partial",
    "Verif.Instr.type_metadata_repeated",
    "Verif.Instr.copied_metadata_repeated",
    "Verif.Instr.same_key_other_value"
   ],
   "note": "The rows are exact; a row is under the name of the instance iff the instance writes it itself. Negations: metadata of types and of copied instances is listed again for each instance under the name of the type or of the copied one, and an instance called like a type shares its rows."
  },
  {
   "property": "C100",
   "status": "partial",
   "theorems": [
    "Verif.AutoNames.refused_iff",
    "Verif.AutoNames.unnamed_never_refused",
    "Verif.AutoNames.included_refused",
    "Verif.AutoNames.written_name_clashes"
   ],
   "note": "Exact for an instrument without inclusion. Negations: an included instrument counts its own instances, so two instruments beginning with an instance without a name can not be combined; a written name can be what the counting gives."
  },
  {
   "property": "C101",
   "status": "partial",
   "theorems": [
    "Verif.UserVars.ensure_is",
    "Verif.UserVars.one_variable_ensured_partial",
    "Verif.UserVars.others_not_ensured",
    "Verif.UserVars.others_declared_twice",
    "Verif.UserVars.ensure_again"
   ],
   "note": "The effect is exact for all texts. Holds for one variable, except that another type declared before stays. Negations: of several variables only the first is looked for, so the others are left out or declared twice. USERVARS of components are not looked at."
  },
  {
   "property": "C102",
   "status": "partial",
   "theorems": [
    "Verif.AsmParams.described_added",
    "Verif.AsmParams.first_ones_added",
    "Verif.AsmParams.unit_first_not_unit",
    "Verif.AsmParams.raised_but_added",
    "Verif.AsmParams.keyword_ignored"
   ],
   "note": "Holds for arguments that describe new parameters of different names. Negations: the pair of the documented usage, unit first, becomes a value without unit; parameters before one that fails stay; a parameter handed over keeps its own name."
  },
  {
   "property": "C103",
   "status": "partial",
   "theorems": [
    "Verif.Html.value_shown",
    "Verif.Html.escape_shown",
    "Verif.Html.block_shown_iff",
    "Verif.Html.include_not_shown",
    "Verif.Html.metadata_extra_quote"
   ],
   "note": "Holds for values and conditions, which are escaped; for sections exactly iff no < begins a tag and no & a character reference, so #include <math.h> is not shown; metadata has a stray quotation mark."
  },
  {
   "property": "C104",
   "status": "partial",
   "theorems": [
    "Verif.CDecl.Visit.members_as_written_partial",
    "Verif.CDecl.Visit.function_pointer_member_partial",
    "Verif.CDecl.Visit.plain_declared",
    "Verif.CDecl.Visit.typedef_declares_nothing",
    "Verif.CDecl.Visit.array_declared",
    "Verif.CDecl.Visit.first_size_kept_iff",
    "Verif.CDecl.Visit.name_removed_from_size",
    "Verif.CDecl.Visit.octal_size_decimal",
    "Verif.CDecl.Visit.blank_in_name",
    "Verif.CDecl.Visit.locals_declared",
    "Verif.CDecl.Visit.other_declarators_wrong"
   ],
   "note": "Holds for arrays with plain sizes not containing the name, and for pointers to functions whose arguments have no parentheses. The size loses the name of the variable if it contains it (double x[max] becomes x[ma]); octal sizes are read as decimal; a blank before the bracket becomes part of the name; locals of functions and prototypes are taken for variables."
  },
  {
   "property": "C105",
   "status": "partial",
   "theorems": [
    "Verif.Registry.Cache.cache_round_trip_iff",
    "Verif.Registry.Cache.answer_kept_iff",
    "Verif.Registry.Cache.given_kept_iff",
    "Verif.Registry.Cache.read_clean",
    "Verif.Registry.Cache.file_used",
    "Verif.Registry.Cache.given_ignored",
    "Verif.Registry.Cache.carriage_return_kept_once",
    "Verif.Registry.Cache.blank_in_key"
   ],
   "note": "Exact conditions proved: a list from the network is kept iff no value ends in a blank or has a carriage return; a given list iff its names have no blanks and its values are one trimmed line. A list given is ignored when a file of an earlier one exists."
  },
  {
   "property": "C106",
   "status": "partial",
   "theorems": [
    "Verif.Ex.Compare.lt_true_iff",
    "Verif.Ex.Compare.gt_true_iff",
    "Verif.Ex.Compare.strict_sound",
    "Verif.Ex.Compare.numbers_compared",
    "Verif.Ex.Compare.lengths_refused",
    "Verif.Ex.Compare.number_with_number",
    "Verif.Ex.Compare.vector_with_number",
    "Verif.Ex.Compare.ge_unary_true",
    "Verif.Ex.Compare.ge_unsound",
    "Verif.Ex.Compare.le_unsound",
    "Verif.Ex.Compare.identifier_compared",
    "Verif.Ex.Compare.number_unsound"
   ],
   "note": "Holds for < and > between expressions and for all comparisons of numbers. Does not hold for >= and <= with unary operations (3 >= -y is always true), nor for an identifier compared with a Python number (x < 3 and x > 3 are both true)."
  },
  {
   "property": "C107",
   "status": "partial",
   "theorems": [
    "Verif.Includes.Libraries.collected_iff",
    "Verif.Includes.Libraries.collected_names",
    "Verif.Includes.Libraries.collect_ends_iff",
    "Verif.Includes.Libraries.written_iff",
    "Verif.Includes.Libraries.in_order_iff",
    "Verif.Includes.Libraries.written_once_partial",
    "Verif.Includes.Libraries.written_twice",
    "Verif.Includes.Libraries.never_written",
    "Verif.Includes.Libraries.header_too_early"
   ],
   "note": "What is collected and what is written is right (as sets). Does not hold: headers that include each other are never done; a library needed only by sources is written once for each source that needs it, and never done if its source needs itself. Partial: exactly once only if the sources need nothing else."
  },
  {
   "property": "C108",
   "status": "partial",
   "theorems": [
    "Verif.Orient.AxisAngle.euler",
    "Verif.Orient.AxisAngle.right_iff",
    "Verif.Orient.AxisAngle.right_or_opposite",
    "Verif.Orient.AxisAngle.either_axis",
    "Verif.Orient.AxisAngle.one_axis_wrong",
    "Verif.Orient.AxisAngle.wrong_angle",
    "Verif.Orient.AxisAngle.rounded",
    "Verif.Orient.AxisAngle.right_about",
    "Verif.Orient.AxisAngle.specialization_same_partial",
    "Verif.Orient.AxisAngle.small_turn_dropped",
    "Verif.Orient.AxisAngle.half_turn_wrong"
   ],
   "note": "The angle is right up to sign, and right exactly if the axis found points the way that makes it positive or some pair of opposite entries of the matrix has different signs. Does not hold otherwise: for the turn of x to y to z the sign depends on the eigenvector. Specialization keeps the transformation except for tiny turns (dropped) and turns by 180 degrees, which get a sine of -1."
  },
  {
   "property": "C109",
   "status": "partial",
   "theorems": [
    "Verif.Registry.Tags.known_versions",
    "Verif.Registry.Tags.known_tags_partial",
    "Verif.Registry.Tags.chosen_partial",
    "Verif.Registry.Tags.found_are_versions",
    "Verif.Registry.Tags.suffix_dropped",
    "Verif.Registry.Tags.word_taken"
   ],
   "note": "Holds if all tags are versions and nothing more. Does not hold otherwise: of v3.5.0-rc1 the version v3.5.0 is made and used although there is no such tag, and dev2024 makes v2024 known."
  },
  {
   "property": "C110",
   "status": "partial",
   "theorems": [
    "Verif.Manage.Cache.asked",
    "Verif.Manage.Cache.removes_version_partial",
    "Verif.Manage.Cache.removes_cache_partial",
    "Verif.Manage.Cache.version_gone",
    "Verif.Manage.Cache.branch_stays",
    "Verif.Manage.Cache.branches_shared",
    "Verif.Manage.Cache.outside_removed"
   ],
   "note": "Holds for plain names and versions beginning with v. Does not hold for other versions (a branch): only the list of files is removed, the files are kept without version and used for every such version. A name like .. or an absolute path removes files outside of the cache."
  },
  {
   "property": "C111",
   "status": "partial",
   "theorems": [
    "Verif.Orient.combine_same",
    "Verif.Orient.combine_reduce_partial",
    "Verif.Orient.sub_self_partial",
    "Verif.Orient.sub_position_iff",
    "Verif.Orient.sub_rotation_iff",
    "Verif.Orient.add_right_iff",
    "Verif.Orient.inverse_right_partial",
    "Verif.Orient.sub_position_wrong",
    "Verif.Orient.sub_rotation_wrong"
   ],
   "note": "combine() is right. a - a is nothing. a - b has the difference of the positions in absolute axes and the rotations in the wrong order: it is a as seen from b only if the axes of b have the difference unchanged and the rotations commute (exact conditions and counterexamples proved); likewise for the positions of a + b and of the inverse. Literal half turns excluded, see C15."
  },
  {
   "property": "C112",
   "status": "partial",
   "theorems": [
    "Verif.Reader.report_partial",
    "Verif.Reader.shown_iff",
    "Verif.Reader.early_not_shown"
   ],
   "note": "Holds from the fifth line on. Does not hold for errors in the first four lines of a source of five or more lines: line - pre is negative, the slice counts from the end and is empty, and the mark is logged with no line above it (exact condition proved)."
  },
  {
   "property": "C113",
   "status": "partial",
   "theorems": [
    "Verif.Configure.keys_replaced",
    "Verif.Configure.values_partial",
    "Verif.Configure.version_unknown",
    "Verif.Configure.configured_iff",
    "Verif.Configure.configured",
    "Verif.Configure.own_copy_refused",
    "Verif.Configure.macro_order"
   ],
   "note": "Keys are replaced and the rest is kept. The values are those of the registry only if it has the name of the flavor: registry_defaults sets them for the project named like the registry (libc) while the replacement reads those of the flavor (mcstas or mcxtrace), so the header gets version {UNKNOWN}, number 0 and a date in 1970 (proved for every registry not named like the flavor). A copy of the header in a second registry is refused rather than used."
  },
  {
   "property": "C114",
   "status": "partial",
   "theorems": [
    "Verif.Include.Fast.parameters_partial",
    "Verif.Include.Fast.all_parameters_iff",
    "Verif.Include.Fast.previous_refused",
    "Verif.Include.Fast.previous_first_refused",
    "Verif.Include.Fast.included_missing"
   ],
   "note": "The parameters written in the instrument itself are returned. Those of included instruments are missing (exact condition proved for inclusion of any depth), and an instrument with PREVIOUS in an expression is refused with an AttributeError because the visitor has no destination."
  },
  {
   "property": "C115",
   "status": "partial",
   "theorems": [
    "Verif.Ex.parsed_unique",
    "Verif.Ex.parsed_beginning",
    "Verif.Ex.whole_partial",
    "Verif.Ex.rest_ignored",
    "Verif.Ex.assignment_read",
    "Verif.Ex.second_number_ignored"
   ],
   "note": "A text that is an expression is read as that. A text that only begins with one is not refused: what follows is ignored, if its first token can not continue the expression (proved for every expression and everything that follows). So WHEN('flag = 1') is WHEN flag. Texts for which ANTLR reports an error and goes on are not modelled."
  },
  {
   "property": "C116",
   "status": "partial",
   "theorems": [
    "Verif.Results.returned_iff",
    "Verif.Results.returned",
    "Verif.Results.all_returned_iff",
    "Verif.Results.results_partial",
    "Verif.Results.rerun_partial",
    "Verif.Results.dry_run_old",
    "Verif.Results.old_returned",
    "Verif.Results.unreadable"
   ],
   "note": "Proved for a directory without data files other than those written anew, and files of distinct names that can all be read. The code lists all data files below the directory and keys them by name only: files of an earlier run are returned (also by a dry run), one of these can be returned in place of the one just written, and one file that can not be read loses all results."
  },
  {
   "property": "C117",
   "status": "partial",
   "theorems": [
    "Verif.Save.source_iff",
    "Verif.Save.saved_iff",
    "Verif.Save.nothing_saved",
    "Verif.Save.contents_partial",
    "Verif.Save.contents_current",
    "Verif.Save.translated_instrument",
    "Verif.Save.contents_after_failure",
    "Verif.Save.contents_stale"
   ],
   "note": "Proved for instrument_source and save, whatever was done before. contents of a translator that was used before is the whole program of the instrument it has or had when it was translated, if no part raises. After a translation that failed contents does not raise: it returns the beginning of a program."
  },
  {
   "property": "C118",
   "status": "partial",
   "theorems": [
    "Verif.Bins.variable_row",
    "Verif.Bins.repeated_refused",
    "Verif.Bins.metadata_found_iff",
    "Verif.Bins.bins_iff",
    "Verif.Bins.bins",
    "Verif.Bins.label_unit",
    "Verif.Bins.bins_beyond_limits",
    "Verif.Bins.single_bin",
    "Verif.Bins.dims_of_file",
    "Verif.Bins.dims_of_image",
    "Verif.Bins.parameter_taken"
   ],
   "note": "The bins are adjacent, equally wide and n in number. They do not end at the limits but half a bin further at both ends, since the limits are taken for the centres of the first and last bin: proved for all limits and all n. With one bin there is a division by zero. A parameter of the instrument hides metadata of the same name, also from dim_metadata. Rounding is not modelled; the key of the number of bins is spelled lenght."
  },
  {
   "property": "C119",
   "status": "partial",
   "theorems": [
    "Verif.Ex.element_at",
    "Verif.Ex.list_accepted_iff",
    "Verif.Ex.list_values_partial",
    "Verif.Ex.list_of_numbers",
    "Verif.Ex.operation_of_one",
    "Verif.Ex.list_without_calls",
    "Verif.Ex.parameter_bare"
   ],
   "note": "Holds where an element is reduced to a number or to a name other than that of a parameter (list_values_partial). A list with an element that remains an operation of two or three operands is refused with an AttributeError (exact: list_accepted_iff). Of an operation with one operand only a list with its operand is kept, so that -s, (s) and !s are the same and what is written is not C (operation_of_one). A parameter of the instrument is written as its bare name (parameter_bare)."
  },
  {
   "property": "C120",
   "status": "partial",
   "theorems": [
    "Verif.Ex.names_prefixed_partial",
    "Verif.Ex.values_in_C_partial",
    "Verif.Ex.conditions_unflagged",
    "Verif.Ex.boxed_unflagged",
    "Verif.Ex.member_prefixed",
    "Verif.Ex.flagged_stays",
    "Verif.Ex.place_text",
    "Verif.Ex.flag_again"
   ],
   "note": "Holds for the parameters of instances without a Value that holds an Expr. Only parameters are flagged before translation: a WHEN, SPLIT or JUMP condition, or a place, made without reading a file keeps bare names (conditions_unflagged); a text given for a place of an Assembler is one identifier, so that 2*E has no prefix, and a parameter added later is not seen (place_text); names inside a Value that holds an Expr have no prefix (boxed_unflagged); a member of a structure with the name of a parameter gets the prefix (member_prefixed); a flag is never removed (flagged_stays)."
  },
  {
   "property": "C121",
   "status": "partial",
   "theorems": [
    "Verif.Registry.cli_order",
    "Verif.Registry.cli_choice",
    "Verif.Registry.h5_ignores_dirs",
    "Verif.Registry.two_below_raise",
    "Verif.Registry.default_output",
    "Verif.Registry.outputs_distinct",
    "Verif.Registry.outputs_collide"
   ],
   "note": "The order and choice hold for all arguments. Where it fails: with an HDF5 file the directories have no effect; two files of one name below a directory make the look-up raise although the library has it; instruments named without .instr lose what follows the last dot and share an output file."
  },
  {
   "property": "C122",
   "status": "partial",
   "theorems": [
    "Verif.Settings.only_save_counts",
    "Verif.Settings.set_lost",
    "Verif.Settings.saved_listing",
    "Verif.Settings.save_keeps_partial",
    "Verif.Settings.save_loses"
   ],
   "note": "set and unset have no effect outside their own process, not even on a save that follows (set_lost, only_save_counts). save keeps every value unless environment variables set a part of the mapping a key belongs to; then values of the user's file are lost (save_loses). The regular expression of list is ignored (saved_listing). The behaviour of the library confuse is assumed as stated in the file."
  },
  {
   "property": "C123",
   "status": "partial",
   "theorems": [
    "Verif.Registry.kept_registries",
    "Verif.Registry.library_once",
    "Verif.Registry.library_found_partial",
    "Verif.Registry.kept_suffices",
    "Verif.Registry.other_library",
    "Verif.Registry.library_missing",
    "Verif.Registry.none_kept"
   ],
   "note": "Holds for all lists in which a registry equal to the library has the files of the library. Where it fails: equality does not compare the lists of files, so a registry made with an own list for the same address replaces the library; parse_mccode_instr without registries uses the McStas library and keeps none in the instrument."
  },
  {
   "property": "C124",
   "status": "partial",
   "theorems": [
    "Verif.Check.compiled_iff_partial",
    "Verif.Check.trial_is_for_target",
    "Verif.Check.works_for_target",
    "Verif.Check.checks_independent",
    "Verif.Check.decorated",
    "Verif.Check.asked_again",
    "Verif.Check.first_answer_stays",
    "Verif.Check.variable_not_found"
   ],
   "note": "Holds for the state at the first check of the compiler for the target (proved for all sequences of calls). Where it fails: later changes of the configuration or of the compilers have no effect; a compiler named with an environment variable is looked for with the variable not replaced."
  },
  {
   "property": "C125",
   "status": "partial",
   "theorems": [
    "Verif.Ex.contains_iff_partial",
    "Verif.Ex.use_seen_partial",
    "Verif.Ex.contains_depends_partial",
    "Verif.Ex.boxed_use_missed",
    "Verif.Ex.string_is_use"
   ],
   "note": "No use is missed in expressions without a Value that holds an Expr, and the answer is given exactly. Where it fails: names in an operation held by a Value are not seen (or the question raises AttributeError); a string constant of the same text counts as a use."
  },
  {
   "property": "C126",
   "status": "partial",
   "theorems": [
    "Verif.Registry.form_directory",
    "Verif.Registry.form_module",
    "Verif.Registry.form_github_partial",
    "Verif.Registry.version_is_file",
    "Verif.Registry.url_alone_raises",
    "Verif.Registry.made_only",
    "Verif.Registry.refused",
    "Verif.Registry.web_address",
    "Verif.Registry.not_address"
   ],
   "note": "The four forms are read as documented, and nothing is made of other texts. Where it fails: if a file of the name of the version exists the fourth form makes a ModuleRemoteRegistry of that file; a URL without a third word raises TypeError instead of giving None; words after the fourth are ignored."
  }
 ]
}
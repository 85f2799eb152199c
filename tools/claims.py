claim("C01", "proved", ["readMesh_ok_iff", "bad_card_rejected", "marker_cards", "accepted_wellSequenced", "wellSequenced_accepted", "accepted_complete", "accepted_complete_iff"])
claim("C02", "partial", ["every_truncation_accepted", "truncated_accepted", "card_after_EN_ub", "missing_terminator_rejected_partial", "all_sections_closed_iff_complete_partial"],
      "The property is violated by the code (end of file is not checked; cards after EN index a table out of range): the negation is proved, with the part that holds.")
claim("C03", "partial", ["stripping_inert_partial", "padding_inert", "comment_line_inert", "blank_line_ub", "long_comment_tail_is_parsed", "long_comment_rejected", "readText_short_lines"],
      "Proved for lines with content and for pure comment lines; violated (negation proved) for white-space-only lines and for comment lines longer than the 1022-character buffer.")
claim("C04", "partial", ["boxes_not_validated", "every_card_accepts_abnormal_box", "accepted_box_partial", "valid_box_accepted", "lumped_source_accepts_long_line"],
      "Violated: the z limits are never checked for order and lumped sources accept long lines; negations proved, with the part that holds.")
claim("C05", "partial", ["bboxType_defined", "bboxType_geometric", "bboxDirection_geometric", "faceBox_nodes", "bboxIsWithin_nodes", "offset_nodes", "field_in_boundary", "field_parallel_boundary_axis", "bboxIsElemental_accepts_everything", "bboxIsElemental_not_geometric", "bboxIsElemental_partial"],
      "Everything but the elemental-box predicate is proved; that predicate accepts every box (negation proved).")
claim("C06", "proved", ["mask_accepts_iff", "mask_roundtrip", "mask_decode_encode", "decodeFaceMask_iff"])
claim("C07", "proved", ["setup_valid", "inner_offset", "nesting", "user_box_lands_inside", "mesh_box_is_user_region", "allocation", "layers_nonneg"])
claim("C08", "proved", ["updateGridEfield_safe", "updateGridHfield_safe", "updatePmlEfield_safe", "updatePmlHfield_safe", "updateMurEfield_safe", "updateMurHfield_safe", "updateGhost_safe", "clear_safe", "clear_complete", "step_safe", "updateDebye_safe", "updateSibcE_safe", "updateSibcH_safe", "updateSourcesE_safe", "updateSourcesH_safe", "updatePlaneWavesE_safe", "updatePlaneWavesH_safe", "sampleItems_valid", "low_face_reads_line_before_first", "swapped_block_negative_size"], "step_safe covers every loop of the time step with all items; its condition on analytic plane waves is shown to be needed")
claim("C09", "proved", ["advanced_exactly_once", "partition", "electric_exactly_once", "magnetic_exactly_once", "mur_edge_never_advanced"])
claim("C10", "proved", ["any_order", "any_schedule", "any_schedule_mur", "electric_independent", "magnetic_independent", "mur_loop_independent", "lockstep_schedule"])
claim("C11", "proved", ["superposition", "homogeneous", "additive", "causal"])
claim("C12", "proved", ["quiet"])
claim("C13", "partial", ["conductor_field_free", "pec_item_field_free_partial", "named_pec_is_free_space", "outer_wall_field_free", "wall_is_metal", "named_pec_carries_field", "plate_on_mur_carries_field"],
      "Proved for the built-in PEC medium in models without field sources on the conductor and off Mur planes; violated for a medium the user declares with type PEC (it behaves as free space) and on a Mur plane: negations proved.")
claim("C14", "proved", ["ampere_law", "faraday_law", "free_space_forced", "passive", "rejects"])
claim("C15", "proved", ["flux_unchanged", "flux_constant", "no_magnetic_charge", "undriven_of_electric"],
      "Every cell of the user's mesh whose faces are not touched by an SIBC correction, a magnetic source or a plane-wave magnetic correction.")
claim("C16", "proved", ["one_step", "locality", "locality_sheets", "sheets_are_faster", "within_interior"],
      "All boundary types, media, sources, plane waves and sheets. Finding: the corrections beside an impedance sheet carry information one and a half cells per step (sheets_are_faster), so the bound with sheets is three half cells, which is proved and sharp.")
claim("C18", "proved", ["edge_lengths", "dual_edges", "reciprocals", "edges_use_mesh_lines_only", "mesh_lines_reproduced", "node_step", "positions_above", "positions_below", "position_strictMono", "sample_location", "uniform_mesh", "uniform_mesh_values", "smallest_largest", "unordered_lines_accepted"],
      "Finding: increasing order of user-supplied mesh lines is never checked (unordered_lines_accepted); monotonicity statements therefore assume it.")
claim("C19", "partial", ["debye_where_the_card_says", "inLim_iff_contains", "point_contains_nothing", "set_medium", "last_wins", "lastWins_unique", "setup_media_partial", "background_covers", "background_safe", "user_fill_safe", "covered_debye_still_acts"],
      "Proved for the update coefficients of every sample; violated for the polarisation current of a Debye block covered by a later block (negation proved).")
claim("C40", "partial", ["layer_media", "continues_partial", "low_layer_takes_second_cell", "slab_not_continued"],
      "What the layers receive is characterised exactly; the half-cell samples of low-side layers are copied from the second cell, so the property fails there (negation proved).")
claim("C41", "partial", ["Vulture.C18.uniform_recognised", "Vulture.C18.cubic_iff", "Vulture.C18.growing_recognised_partial", "Vulture.C18.shrinking_called_uniform"],
      "Violated: the classification compares signed differences, so a mesh whose cells shrink is called uniform (negation proved); the two parts that hold are proved.")

claim("C17", "proved", ["energy_balance", "energy_conserved", "energy_nonincreasing", "energy_positive",
    "stored_bounded", "samples_bounded", "setup_closed", "run_stays_bounded", "silent_step", "bounded_after_sources"],
    "Real arithmetic. Tensor-product (also non-uniform) meshes, arbitrary dielectric, magnetic and conducting "
    "simple media and internal PEC; energy_balance is exact. setup_closed shows that the arrays computed by "
    "initCellEdges, initMedia and the media assignments satisfy the hypotheses. bounded_after_sources covers "
    "driven runs after the sources fall silent.")
claim("C21", "proved", ["ghosts_after_step", "ghosts_always", "pmc_mean_zero"],
      "For every state and every combination of walls, including the edges and corners of the ghost layer; PEC walls included.")
claim("C22", "proved", ["mur_value", "one_way", "one_way_unique", "zeta_value", "zeta_lt_one", "matched_absorbs", "reflection", "reflection_lt_one", "reflection_dispersion", "no_reflection_iff"],
      "Real arithmetic. one_way is about the whole electric half step for samples on one Mur face only (edges shared by two Mur faces are never updated, see C09) with no source acting on the two samples.")
claim("C23", "proved", ["grading", "loss_monotone", "loss_zero", "loss_pos", "graded_damping", "never_amplifies", "reflection_above_one_amplifies", "layer_electric", "layer_magnetic", "stretched_electric", "stretched_magnetic", "lossfree_electric", "lossfree_magnetic", "lossfree_step", "lossfree_run"],
      "Real arithmetic; orders are natural numbers. The parameters are not validated by the program: with a nominal reflection above one the layer amplifies (proved).")
claim("C24", "proved", ["debye_run_law", "pole_equation", "dispersive_ampere", "dispersion_relation", "transient", "normSq_dalpha",
  "file_poles_stable", "card_pole_unchecked", "ex_sample"],
  "All poles, residues, conductivities and histories. Conditions: the sample is in one Debye block only (the manual calls overlap ill-defined), it is advanced by the main grid update, its coefficients are those of the block's medium (C19 says when) and no source, incident wave or impedance surface acts on it: those act after the block has remembered the field, so at such samples the current is driven one step late. Finding card_pole_unchecked: poles on the card are not checked for stability, those of a file are.")
claim("C20", "proved", ["numbered_and_resolved", "later_cards_keep", "duplicate_rejected", "unknown_rejected", "names_unique", "search_order", "faces_resolved", "placeholder_clash"],
  "All histories of cards. names_unique needs that no MT card uses the name __VR_RS_n__ of a lumped source's placeholder medium: those are added without a check (placeholder_clash, a finding). Sequenced (at most one BR card, before the model section) is what C01 proves of accepted files. The fields other than number and name are an arbitrary payload.")

claim("C25", "proved", ["recursive_is_direct", "bounded_output", "pole_decay", "surface_convolution", "ex_face"],
  "Real and complex arithmetic. All sequences, all poles but zero (the code divides by the pole). The interpolant starts from zero one step before the first sample, as the cleared state does. surface_convolution is the same statement for the filters of an impedance surface inside a whole run with arbitrary sources.")
claim("C26", "partial", ["impedance_matches", "impedance_equation", "defined_iff", "dissipative_iff", "stored_blocks", "parameters_read", "two_port_file", "accepted_one_sided_partial", "check_exact_uncoupled_partial", "active_accepted", "passive_rejected", "singular_accepted"],
  "The conversion half is proved. The passivity half is false of the code: the check tests the signs of the entries of (a wrongly computed) I - S'S instead of its definiteness, so it accepts an active symmetric sheet and rejects a passive one (both proved); what the check does guarantee is proved as _partial.")
claim("C42", "proved", ["power_at_ports", "sheet_passive", "turn_isometry", "isotropic_any_angle", "quarter_turn", "flipped", "reference"],
  "All angles, both orientations, all impedance matrices; the law is the memoryless one, by C25 the filters with poles are applied between the same two matrices.")
claim("C27", "partial", ["tag_meaning", "tag_only", "spell_injective", "driven_iff", "driven_total_current", "driven_ampere", "driven_faraday", "hard_field", "hard_magnetic_field", "soft_field", "hard_current", "total_current", "total_magnetic_current", "total_moment", "total_magnetic_moment", "surface_density", "magnetic_surface_density", "voltage", "as_given", "resistive_source_partial", "norton_eq_thevenin", "ideal_source_quarter", "misoriented_drives_nothing", "ex_driven"],
  "Real arithmetic; all tags, boxes, meshes, sizes and prior fields. The lumped source presents its resistance when that is above the program's threshold of 0.01; below it the property fails: the source adds to a perfect conductor and delivers a quarter of the voltage (ideal_source_quarter, a finding). Findings also: a tag whose direction is not that of the line drives nothing, and the current is evaluated at the beginning of the step, half a step late.")
claim("C28", "proved", ["compact_eq", "compact_range", "compact_support", "compact_peak", "compact_deriv", "compact_continuous", "gaussian_eq", "gaussian_range", "gaussian_peak", "diff_gaussian", "ricker", "mod_gaussian", "mod_compact", "ramped_eq", "ramped_bound", "ramped_after", "ramped_continuous", "value_eq", "init_valid", "value_bound", "compact_silent", "narrow_gaussian_truncated", "negative_delay_replaced"],
  "Real arithmetic with the real sine, cosine and exponential. Findings: the differentiated compact pulse is smaller than documented by the factor pi, the Ricker wavelet has the opposite sign of the manual's formula, the default narrow Gaussian starts at a third of its peak, a negative delay is replaced.")
claim("C29", "proved", ["history_free", "thread_free", "stateless", "through_points", "wave_outside", "smooth", "smooth_everywhere", "slope_match", "jump_at_end", "ex_table"],
  "Real arithmetic; the cache of the last interval is modelled, races on it are covered by thread_free (any earlier cached value gives the same result). Slope continuity is about the table's span and, if the end values are zero, about all times.")
claim("C30", "proved", ["direction_of_angles", "uniform_wave", "polarisation_angle", "origin_exists", "corner_sign", "reaches_origin_first", "travelling", "causal_in_box", "incident_pair", "azimuth_360_accepted_then_aborts", "mask_meaning", "mask_total"],
  "Real arithmetic, all angles and boxes. The origin statement excludes an azimuth of exactly 360 degrees, which the card check accepts although the manual does not, and which aborts the run (proved, a finding).")
claim("C31", "proved", ["separation", "total_inside_nothing_outside", "face_value", "lookups_electric", "lookups_magnetic",
  "separation_aux", "axis_wave_solves", "axis_wave_separated", "newton_correction", "fixed_point", "velocity_axis",
  "velocity_found", "rel_axis_one", "no_wave_for_small_steps"],
  "separation/total_inside_nothing_outside: any ring, any incident solution, any box clear of the outer faces, any step count, PML, Mur and wall boundaries. face_value gives the exact error on lossy faces (ALPHA is applied twice by the corrections). axis_wave_separated is for the auxiliary grid along the axes, with the relative phase velocity proved to be one (rel_axis_one) for Courant numbers from about one half; no_wave_for_small_steps is a finding: for Courant numbers up to 3/20 the Newton iteration of the phase velocity has no root.")

claim("C32", "proved", ["time_lines", "waveform_lines", "binary_records", "excite_values", "nodes_selected", "nodes_once", "nodes_count", "for_loop", "window_count", "default_window", "card_window", "outputs_finish", "run_ends", "zero_step_hangs", "Vulture.C35.run_result"],
  "All windows, strides, boxes and run lengths below 2^64, all fields. Findings: a zero stride is accepted by the card and hangs the run at the first step of the window (zero_step_hangs); the state after the last step is never recorded. run_result ties the outputs to the time loop.")
claim("C33", "proved", ["field_transform", "waveform_transform", "quotient_div", "quotient_undefined", "transfer_constant", "window_mismatch", "frequencies", "frequencies_default"],
  "Real arithmetic, all signals, frequencies and lengths. Findings: the field is transformed over the OT window but the waveform over the whole run, so the ratio is not the transfer function when the window is shorter (window_mismatch); magnetic fields are given the time of the electric ones; OF with one frequency divides by zero.")
claim("C34", "proved", ["file_contents", "record_position", "record_count", "header_count", "default_announced", "window_announced", "header_overstates", "header_wraps", "record_nodes", "read_file"],
  "Byte-level, little-endian 4-byte int and float, for coordinates that fit an int. The conversion of a value to its 4 bytes is arbitrary. Finding: a window that reaches beyond the run is announced in full (header_overstates), one of 2^32 steps as empty.")
claim("C35", "proved", ["exact_steps", "run_result", "nt_value", "zero_accepted", "zero_steps_never_end", "courant_range", "courant_used", "courant_default", "within_limit", "courant_zero_accepted"],
  "All step counts of an unsigned long, with wrap-around. Findings: NT 0 is accepted and the run never ends; CN 0 is accepted and gives a zero time step.")

claim("C36", "proved", ["number_range", "number_decodes", "number_injective", "no_overflow", "own_dimension", "own_dimension_total", "points", "node_order", "entity_spec", "export_good", "entity_numbers", "node_section", "one_group", "group_numbers", "dimension_conflict", "served", "source_servable", "external_servable", "plane_wave_servable", "flat_plane_wave_aborts"],
  "All mesh sizes and all histories of requests for boxes in the mesh; int arithmetic is shown not to overflow below 2^31 nodes. Finding: a plane wave on a flat box, which the parser accepts, aborts the export.")
claim("C37", "proved", ["element_address", "elements_disjoint", "elements_inside", "table_inside", "last_index_contiguous", "block_exact"],
  "Any number of dimensions, any extents, any element and pointer size, any base address; 64-bit overflow of the block size is not modelled.")
claim("C38", "proved", ["error_exits", "others_continue", "logged_iff", "run_status", "verbosity", "unknown_option", "missing_value", "thread_count", "flags", "no_mesh_goes_on"],
  "All severities, verbosities and histories. Findings: the thread-count option as last argument hands a null pointer to strtod; a missing mesh name prints the usage and goes on.")

claim("C43", "partial", ["flags_right_partial", "standing_shares_edge", "faceMap_value", "fourth_flag", "fourth_flag_misses", "outer_edge_unwritten", "outer_face_unwritten", "flags_of_opposite_edge"],
  "Proved for seven of the eight flags of every face whose neighbours lie inside the grid. The rest of the statement is false of the code: fourth_flag_misses, outer_edge_unwritten, outer_face_unwritten, flags_of_opposite_edge.")
claim("C44","proved",["mesh_card","block_card","surface_card","wire_card","source_card","observer_card","planeWave_card","limits_iff","sixBits_iff","sixFlags_iff"],
 "Acceptance characterised in both directions for each card; the z-order of the box is C04, and a lumped source is not required to be a single edge (C04/C05).")
claim("C39","partial",["no_preferred_axis_partial","turned_step","turned_states","renamed_exist","three_turns","sheets_prefer_an_axis","lossy_waves_prefer_an_axis"],
 "Proved for every mesh, boundaries, layers, media, Debye blocks, sources, and plane waves whose box lies in a lossless medium. The rest of the statement is false of the code: sheets_prefer_an_axis, lossy_waves_prefer_an_axis.")
claim("C45","proved",["reciprocity","exchange","stepE_driven","stepH_driven"],
 "Closed box with six PEC walls and simple media (C17.setup_closed shows the set-up code produces such arrays); any number of soft electric and magnetic current sources.")
claim("C46","proved",["Vulture.C45.energy_supplied"],
 "Closed box with six PEC walls and simple media; any number of soft current sources.")

claim("C47","proved",["accepted_file_valid","accepted_file_safe","items_are_cards","debye_card_acts","sheet_card_acts","no_other_items","rejected_card_stops"],
 "The third sides of boxes must be ordered because the parser does not check them (C04); a file with an analytic plane wave must keep one cell from the low sides (C08.low_face_reads_line_before_first).")
claim("C48","partial",["delays_shift","amplitudes_scale_partial","hard_field_on_time","hard_magnetic_field_on_time","wave_on_time","incident_half_step_ahead","current_half_step_ahead","magnetic_current_half_step_ahead"],
 "Shift and scaling hold for every file; hard field sources and the auxiliary grid of a wave act on time. The code violates the rest: soft currents and the analytic incident wave act with the waveform taken half a time step ahead of the time of the interval or sample, which is proved. amplitudes_scale_partial is stated for meshes that are not cubic; on cubic ones the size enters through a coefficient, which C58 covers.")
claim("C49","proved",["walls_are_mirrors","images_exist","currents_exist","image_principle","shared_space","half_cut","symmetry_plane","box_acts"],
 "Two conditions are part of the statement: no source drives the magnetic field normal to a conducting wall inside that wall (such a current has no image), and along periodic axes the two end planes carry the same coefficients, currents and dual lengths.")
claim("C50","partial",["reader_returns_partial","overstated_unreadable","times_from_window"],
 "reader_returns_partial covers every observer, selection and window that lies inside the run: nodes, axes and all six fields. The rest is false of the code: a window reaching beyond the run makes the reader fail on the whole file (overstated_unreadable), and the times it returns are those of the steps only if the window starts with the run (times_from_window).")
claim("C51","proved",["fft_transform","xfreq_agrees","tdfdFFT_bins","scripts_give","scripts_agree","xfreq_needs_whole_run","window_shifts_phase"],
 "Recording over the whole run is part of the statement. Beyond it: with a shorter window xfreq stops (xfreq_needs_whole_run) and the binary route divides by the waveform of other steps (window_shifts_phase).")
claim("C52","partial",["no_preferred_side_partial","mirrored_step","mirrored_states","mirrored_exist","image_inMesh","two_mirrors","one_cell_between_mur_faces","sheets_prefer_a_side"],
 "Proved for every mesh, boundaries, layers, media, Debye blocks, sources and plane waves, with at least two cells between opposite Mur faces and plane-wave boxes of at least one cell along the axis. The rest of the statement is false of the code: one_cell_between_mur_faces, sheets_prefer_a_side.")
claim("C53","proved",["process_read","files_read_back","readFiles_eq","rewrite_read"],
 "The digits printed by %g/%e are a parameter of the model; the title must be one line, as the code makes it.")
claim("C54","partial",["memory_never_matters_partial","fields_same_partial","acceptance_same","memory_matters_at_walls"],
 "Proved for files with ordered boxes (C04), plane waves off the low sides of meshes that are not cubic (C08.low_face_reads_line_before_first) and sheets that keep away from the sides of the grid. The rest of the statement is false of the code: memory_matters_at_walls.")
claim("C55","partial",["only_electrical_size_matters_partial","cubes_scale","scaled_accepted","tolerance_is_a_length","small_is_cubic","cubes_are_cubic"],
 "Proved for all meshes of cubes, and for other meshes without plane waves or where the program judges the mesh type alike in both units; files as in C54. The rest of the statement is false of the code: tolerance_is_a_length.")
claim("C56","proved",["cavity_closed","energy_balance","silence_bounded","never_blows_up","pulses_summable","pulses_stay_bounded","lossless_conserved","conductors_free"],
 "Files as described by Spec.Cavity. Bounded for summable drive values, in particular for all built-in waveforms but the ramped sinusoid (which may excite a resonance) and for tables.")
claim("C57","proved",["exchange","states","common","edge_current"],
 "Files as described by Spec.Cavity with one EX card for a current through one edge (tags IX, IY, IZ).")
claim("C58","proved",["linear_in_amplitudes"],
 "Any mesh type, all kinds of sources; plane-wave cards must carry their size (as the grammar requires when later fields are given).")
claim("C59","proved",["sheet_drives_mesh","beside_sheet","edges_zero","normal_zero","metal_wall_leaks"],
 "Samples at which no other sheet lies within half a cell and no magnetic source or plane-wave correction acts. The electric field of the squares themselves is C25.surface_convolution and C42. metal_wall_leaks is a finding: on a metal wall the weight one half is not what the wall requires.")
claim("C60","partial",["box_outline","point_box","box_points","box_defined","blocks_shown","surfaces_shown","wires_shown","outer_faces_shown","mesh_lines_shown","source_cards_shown","arrow_shown","arrow_reads_inside","observers_shown","wave_shown","range_marks","equal_scales","script_complete_partial","flat_arrow_reads","flat_source_reads_outside","no_observers_runs_on","no_external_hides"],
 "The data files are proved for every file. False of the code and proved so: the arrow of a source flat along its field ends two lines beyond it, possibly behind the mesh lines (flat_source_reads_outside); without observers the plot command swallows the next one (no_observers_runs_on); with the option that leaves the outer surfaces out, nothing but the mesh lines is plotted (no_external_hides).")
claim("C61","partial",["run_leaves","leaves_unique","file_names","names_distinct","probe_file","waveform_file","waveform_spectrum","transfer_file","impulse_file","excite_file","probes_in_bounds","files_reproducible_partial","companion_reads_partial","zero_stride_never_ends","no_waveform_accepted"],
 "Contents, names and existence of the files are proved for every accepted file with positive strides and a waveform where one is needed (otherwise the run does not end or indexes out of bounds: zero_stride_never_ends, no_waveform_accepted). Reproducibility is proved under the conditions of C54, outside of which it is false; the reader for windows inside the run (C50.overstated_unreadable).")
claim("C62","proved",["card_text","text_read","file_reads","bad_sequence_rejected","layout_irrelevant","text_leaves","count_cut","newline_after_lines"],
 "Numbers are exact (no overflow of int, no rounding of float); hexadecimal, inf and nan are not in the model. Lines of white space are allowed in a layout only if the byte before the line buffer happens to be no white space (flag `blank`; otherwise undefined behaviour, C03.blank_line_ub).")
claim("C63","proved",["size_meant","steps_meant","times_meant","times_default","freqs_meant","freqs_default","courant_meant","courant_default","spacing_meant","lines_meant","items_meant","wave_meant","wave_file_meant","face_default","face_old","face_named","face_absorber","face_absorber_default","face_sheet_stops","dipole_leaves"],
 "A BE card is documented to set the depth of the absorbing layers; it does so only after a BR card (face_default, face_old).")
claim("C64","proved",["every_sample","coefficients","made_unique","metal_dark","step_positive","bench_setup","bench_made"],
 "Block cards have at most eight fields (a ninth makes the program forget the mask) and do not use the internal media of lumped sources. The numbers of media are in the documented ranges where the difference equations divide by them.")
claim("C65","proved",["sheet_law","one_sample_counts","lone_sheet","passive_sheet","sheet_listed","film_accepted","film_sheet"],
 "For squares whose neighbourhood lies in the grid and where the misplaced adjacency record of C43 makes no difference (always so for a single sheet); poles nonzero.")
claim("C66","partial",["wave_read","wave_rejected","wave_foreign","wave_value","debye_read","debye_short","debye_meant","sheet_read","sheet_read_two","sheet_size_rejected","sheet_meant","missing_file","manual_order","short_sheet","empty_sheet","wave_half_row","kit_meant"],
 "False of the code: a sheet file in the order of the manual's table (residue, then pole) is read with the two exchanged (manual_order; the program reads pole, then residue: sheet_read, sheet_read_two); sheet files that end early are accepted with leftover or uninitialised values (short_sheet, empty_sheet) and their poles are not checked for stability; a last row of a waveform file without its value is dropped silently (wave_half_row). Numbers are exact; hexadecimal, inf and nan are not in the model.")
claim("C67","proved",["fields_unchanged","probes_removable","probe_unchanged","waveform_unchanged","excite_unchanged","impulse_unchanged","fewer_probes_run"],
 "Adding an OP card can make an input unacceptable or endless (C44, C61.zero_stride_never_ends), so the comparison of files is between two inputs that both run to their end.")
claim("C68","proved",["longer_appends","longer_runs","impulse_exact","spectrum_changes"],
 "The window (OT card) is the same in both runs.")
claim("C69","proved",["convolution","run_timed"],
 "Real arithmetic. Plane waves on meshes that are not cubic are injected from the analytic formula at retarded times and are covered by C70.linear_in_waveforms and C48 only.")
claim("C70","proved",["linear_in_waveforms","fields_scaled","transfer_unchanged","louder_scaled"],
 "Where the transform of the waveform is zero the program divides by zero in both runs; the model writes the same (meaningless) number in both.")
claim("C71","proved",["beam","beam_early","all_off_dark","active_iff","line_wave","as_if_endless"],
 "The Courant number is at least 1/2 (below, the program's Newton iteration for the phase velocity along the axis may divide by zero); no Debye media or impedance sheets are declared.")
claim("C72","proved",["ampere","faraday","dispersive_ampere"],
 "Samples under a dispersive block that a later block covers are excluded: there the covered block still acts (C19.covered_debye_still_acts). Samples held by hard, field and voltage sources are the subject of C27, sheets of C65, plane waves of C31/C71, MUR sides of C22.")
claim("C73","proved",["light_cone", "shielding", "same_step"],
 "Samples in dispersive blocks, next to impedance sheets, plane wave sides and MUR sides are not ordinary in the sense of C72; the parts compared contain none of them.")
claim("C74","proved",["fields_same", "probe_same", "output_same", "declarations_first"],
 "As in C64, block cards have at most eight fields and do not use the internal media of lumped sources. Within a kind the order does matter (C64: the last block wins).")
claim("C75","proved",["edge_loop", "node_law", "charge_step", "charge_carried", "uncharged", "flux_step", "no_magnetic_charge", "rectangle_current", "rectangle_voltage"],
 "Mesh lines must increase (the program does not check this) and the numbers of media lie in the documented ranges; dispersive edges are covered by C72.dispersive_ampere only.")
claim("C76","proved",["held", "held_voltage", "added_electric", "added_magnetic", "hard_current"],
 "Samples on plane wave sides, MUR sides (soft), sheets (soft) and dispersive edges (soft) are excluded; metal samples with a soft field source flip the sign of the old field, as the theorem states.")
claim("C77","proved",["any_threads", "reproducible", "threads_fields", "rounded_cone", "zeros_stay"],
 "Excitation values are inputs: with OpenMP the tabulated waveform's cached interval is shared by the threads of the plane wave loops; by C29 any cached interval gives the same value in exact arithmetic. An iteration is assumed to be compiled to a function of the values it reads.")
claim("C78","partial",["status_partial", "extents_not_checked", "row_for_column", "small_not_compared"],
 "Missing: rejection of tables of different extents. The script prints a message and exits with success if shapes differ but can be broadcast, whatever the numbers are; a row passes for a column; numbers up to 5e-3 are never compared, so a run of zeros passes against small reference data.")
claim("C79","proved",["accepted_iff", "fields_same", "files_same"],
 "Names as scanned tokens: the length limit of the scan (31 characters) is text level (C62).")
claim("C80","proved",["energy_step", "energy_first", "energy_total", "metal_tight"],
 "Energy in leapfrog form: the magnetic part is the product of the values half a step before and after. Exact arithmetic.")
claim("C81","proved",["magnetic_side", "conducting_side_image", "periodic_side", "conducting_side", "mur_side", "mur_side_matched", "mur_edge", "periodic_ends"],
 "Mur side: the sample and its inner neighbour are touched by no dispersive block, sheet, plane wave or source; meshes one cell thick between two MUR sides excluded. End planes: ordinary samples, the other sides conducting, magnetic or periodic.")
claim("C82","proved",["errors_add", "rounding_linear", "machine_bounded"],
 "The model computes in exact real arithmetic; this property bounds what single precision can do to it. Cavities as in C56 (SIMPLE media, no sheets, waves or Debye). The error of a whole step is measured, whatever its origin.")
claim("C83","proved",["layer_ampere", "layer_faraday", "metal_behind", "stretch_factor", "reflection", "reflection_default", "manual_differs"],
 "In dispersive matter that continues into a layer the electric equation is not claimed (the layers ignore the poles). Half-cell samples of low layers continue the second cell of the mesh (C40). manual_differs: the manual's formulas have n_eff in the numerator, the program in the denominator (which is what the reflection requires); they agree only for n_eff = 1.")
claim("C84","proved",["one_dimensional", "same_waves", "line_ampere", "line_faraday"],
 "Dispersive blocks, impedance sheets, plane-wave boxes and overwriting (=) sources are not covered.")
claim("C85","proved",["copies_alike", "ends_alike", "uneven_seam"],
 "MUR and PML sides are not mixed in one model; dispersive blocks, impedance sheets, plane-wave boxes and overwriting (=) sources are not covered. The condition on the first and last cell is needed: uneven_seam.")
claim("C86","proved",["two_dimensional", "thickness_free"],
 "MUR and PML sides are not mixed in one model; dispersive blocks, impedance sheets, plane-wave boxes and overwriting (=) sources are not covered.")
claim("C87","proved",["energy_step", "energy_first", "energy_total", "silence_bounded", "lossless_conserved", "never_blows_up", "pulses_stay_bounded"],
 "Exact arithmetic. Dispersive blocks, impedance sheets, plane-wave boxes, overwriting sources and lumped sources in a conducting side are not covered; PML and MUR sides are open (C40, C81, C83).")
claim("C88","proved",["reciprocity", "exchange", "exchange_cards"],
 "Exact arithmetic. The waveform must not be zero in all steps (then both runs are trivial). C57 is the case of a box with conducting walls only; dispersive blocks, impedance sheets and plane-wave boxes are not covered here.")
claim("C89","partial",["lines_read", "cut_short", "gaussian_same", "compact_same_partial", "compact_differs", "db10_is", "db20_is", "db_mono", "db_negative"],
 "Everything but the compact pulse before its delay is proved. There the script does not cut the pulse off: one width before the delay it is at its peak while the program's pulse is silent (compact_differs). Findings: the line reader does not notice a file cut short at a line end or after a line number (cut_short); db10 and db20 give the least value for every negative argument although they take an absolute value, after the clipping (db_negative).")
claim("C90","proved",["medium_passive", "energy_passive", "never_blows_up", "pulses_stay_bounded"],
 "The poles have to be passive one by one, because that is what is proved; the cards are not checked for it (C24.card_pole_unchecked), and a growing pole is accepted. Example: a metal box with a block of a medium with a Debye and a Lorentz pole. Impedance sheets and plane wave boxes are not covered.")
claim("C91","proved",["energy_taken", "energy_bound", "takes"],
 "The energy of the media is a function of the history of the field on the edge (state of its poles); the theorem states that it exists with the stated properties. Example: the food of C90 in its oven. The energy in the fields of an open box need not be positive (its sides are shared).")
claim("C92","proved",["reciprocity", "exchange", "exchange_cards", "of_relaxing"],
 "No passivity is needed. Sources inside the dispersive media are excluded (C11: the block update acts on them). Example: a current in front of the food of C90 and behind it.")
claim("C93","proved",["fading", "heat_finite", "mean_dies", "goes_dark", "becomes_static"],
 "Lossless models need not ring down: cavities (C57) ring for ever. Example: a metal cube filled with a conductor, driven by a pulse.")
claim("C94","proved",["shows", "group_shows", "flat_wave_fails", "zero_step_fails", "cannot_export", "corner_lists", "file_requests"],
 "Coordinates exact (the digits of %e are not modelled); names of media, boundaries and wires are those on the cards, the number-to-name hashes are not modelled.")
claim("C95","proved",["one_meaning", "option_read", "unknown", "mesh_name", "meaning", "stops", "no_name", "draws", "waves_drawn", "observers_drawn", "wave_arrows", "arrows_start", "script_plots", "script_fails", "runs", "runs_gmsh", "runs_gnuplot", "rejected", "azimuth_fails", "cannot_draw"],
 "Exact coordinates; digits and styles are not modelled. The name of the mesh file is not cut at 1024 characters. That a flat source in coordinates reads behind the mesh lines is C60.")
claim("C96","proved",["located", "labelled", "line_count", "in_bounds", "sample_mark", "vacuum_and_metal", "dielectric", "lossy", "looks_metal", "magnetic", "magnetic_hidden", "step_le", "fine_meshes"],
 "Exact numbers; the build without scaled fields. That magnetic matter is hidden is the absolute tolerance in decodeGamma: gamma itself is below it.")
claim("C97","proved",["one_meaning", "meaning", "stops", "unique", "runs_iff", "read_writes_nothing", "read_accepts", "read_rejects", "read_not_enough", "same_outcome", "dump_adds", "preprocess_empties", "preprocess_promises"],
 "vulture.log, process.dat and printing are left out. A -n without a value (a null pointer, C38) and meshes without DM or NT that pass the reader have no outcome in the model. With -p the spectra at probes are quotients of zeros and are left open.")
claim("C98","proved",["fields_later", "probes_later", "transfer_later", "run_later", "builtin_causal", "table_causal"],
 "The hypothesis on waveforms is part of the property: a Gaussian is cut off at the start of the run, and with a longer delay less of it is. Observers without an OT window.")
claim("C99","proved",["fields_before", "probes_before", "state_before", "table_looks_ahead"],
 "Plane waves on meshes that are not cubic, which take their waveform at many times at once, are left out; so are negative delays.")
claim("C100","proved",["frequencies_select", "window_selects"],
 "Exact numbers. A list of one frequency divides by zero in the program (DESIGN, C33); the model's real division gives the start frequency there. With a window, spectra change (C33.window_mismatch).")
claim("C101","proved",["conducting", "magnetic", "periodic", "absorbing", "conducting_spectra", "magnetic_spectra", "periodic_spectra", "absorbing_spectra"],
 "Sides with layers are left out: beyond them lies the layer. On a MUR side sheets and plane waves are excluded, as those that reach the side do write there.")

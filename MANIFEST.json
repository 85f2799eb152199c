{
 "claims": [
  {
   "property": "C01",
   "status": "proved",
   "theorems": [
    "Vulture.C01.readMesh_ok_iff",
    "Vulture.C01.bad_card_rejected",
    "Vulture.C01.marker_cards",
    "Vulture.C01.accepted_wellSequenced",
    "Vulture.C01.wellSequenced_accepted",
    "Vulture.C01.accepted_complete",
    "Vulture.C01.accepted_complete_iff"
   ],
   "note": ""
  },
  {
   "property": "C02",
   "status": "partial",
   "theorems": [
    "Vulture.C02.every_truncation_accepted",
    "Vulture.C02.truncated_accepted",
    "Vulture.C02.card_after_EN_ub",
    "Vulture.C02.missing_terminator_rejected_partial",
    "Vulture.C02.all_sections_closed_iff_complete_partial"
   ],
   "note": "The property is violated by the code (end of file is not checked; cards after EN index a table out of range): the negation is proved, with the part that holds."
  },
  {
   "property": "C03",
   "status": "partial",
   "theorems": [
    "Vulture.C03.stripping_inert_partial",
    "Vulture.C03.padding_inert",
    "Vulture.C03.comment_line_inert",
    "Vulture.C03.blank_line_ub",
    "Vulture.C03.long_comment_tail_is_parsed",
    "Vulture.C03.long_comment_rejected",
    "Vulture.C03.readText_short_lines"
   ],
   "note": "Proved for lines with content and for pure comment lines; violated (negation proved) for white-space-only lines and for comment lines longer than the 1022-character buffer."
  },
  {
   "property": "C04",
   "status": "partial",
   "theorems": [
    "Vulture.C04.boxes_not_validated",
    "Vulture.C04.every_card_accepts_abnormal_box",
    "Vulture.C04.accepted_box_partial",
    "Vulture.C04.valid_box_accepted",
    "Vulture.C04.lumped_source_accepts_long_line"
   ],
   "note": "Violated: the z limits are never checked for order and lumped sources accept long lines; negations proved, with the part that holds."
  },
  {
   "property": "C05",
   "status": "partial",
   "theorems": [
    "Vulture.C05.bboxType_defined",
    "Vulture.C05.bboxType_geometric",
    "Vulture.C05.bboxDirection_geometric",
    "Vulture.C05.faceBox_nodes",
    "Vulture.C05.bboxIsWithin_nodes",
    "Vulture.C05.offset_nodes",
    "Vulture.C05.field_in_boundary",
    "Vulture.C05.field_parallel_boundary_axis",
    "Vulture.C05.bboxIsElemental_accepts_everything",
    "Vulture.C05.bboxIsElemental_not_geometric",
    "Vulture.C05.bboxIsElemental_partial"
   ],
   "note": "Everything but the elemental-box predicate is proved; that predicate accepts every box (negation proved)."
  },
  {
   "property": "C06",
   "status": "proved",
   "theorems": [
    "Vulture.C06.mask_accepts_iff",
    "Vulture.C06.mask_roundtrip",
    "Vulture.C06.mask_decode_encode",
    "Vulture.C06.decodeFaceMask_iff"
   ],
   "note": ""
  },
  {
   "property": "C07",
   "status": "proved",
   "theorems": [
    "Vulture.C07.setup_valid",
    "Vulture.C07.inner_offset",
    "Vulture.C07.nesting",
    "Vulture.C07.user_box_lands_inside",
    "Vulture.C07.mesh_box_is_user_region",
    "Vulture.C07.allocation",
    "Vulture.C07.layers_nonneg"
   ],
   "note": ""
  },
  {
   "property": "C08",
   "status": "proved",
   "theorems": [
    "Vulture.C08.updateGridEfield_safe",
    "Vulture.C08.updateGridHfield_safe",
    "Vulture.C08.updatePmlEfield_safe",
    "Vulture.C08.updatePmlHfield_safe",
    "Vulture.C08.updateMurEfield_safe",
    "Vulture.C08.updateMurHfield_safe",
    "Vulture.C08.updateGhost_safe",
    "Vulture.C08.clear_safe",
    "Vulture.C08.clear_complete",
    "Vulture.C08.step_safe",
    "Vulture.C08.updateDebye_safe",
    "Vulture.C08.updateSibcE_safe",
    "Vulture.C08.updateSibcH_safe",
    "Vulture.C08.updateSourcesE_safe",
    "Vulture.C08.updateSourcesH_safe",
    "Vulture.C08.updatePlaneWavesE_safe",
    "Vulture.C08.updatePlaneWavesH_safe",
    "Vulture.C08.sampleItems_valid",
    "Vulture.C08.low_face_reads_line_before_first",
    "Vulture.C08.swapped_block_negative_size"
   ],
   "note": "step_safe covers every loop of the time step with all items; its condition on analytic plane waves is shown to be needed"
  },
  {
   "property": "C09",
   "status": "proved",
   "theorems": [
    "Vulture.C09.advanced_exactly_once",
    "Vulture.C09.partition",
    "Vulture.C09.electric_exactly_once",
    "Vulture.C09.magnetic_exactly_once",
    "Vulture.C09.mur_edge_never_advanced"
   ],
   "note": ""
  },
  {
   "property": "C10",
   "status": "proved",
   "theorems": [
    "Vulture.C10.any_order",
    "Vulture.C10.any_schedule",
    "Vulture.C10.any_schedule_mur",
    "Vulture.C10.electric_independent",
    "Vulture.C10.magnetic_independent",
    "Vulture.C10.mur_loop_independent",
    "Vulture.C10.lockstep_schedule"
   ],
   "note": ""
  },
  {
   "property": "C11",
   "status": "proved",
   "theorems": [
    "Vulture.C11.superposition",
    "Vulture.C11.homogeneous",
    "Vulture.C11.additive",
    "Vulture.C11.causal"
   ],
   "note": ""
  },
  {
   "property": "C12",
   "status": "proved",
   "theorems": [
    "Vulture.C12.quiet"
   ],
   "note": ""
  },
  {
   "property": "C13",
   "status": "partial",
   "theorems": [
    "Vulture.C13.conductor_field_free",
    "Vulture.C13.pec_item_field_free_partial",
    "Vulture.C13.named_pec_is_free_space",
    "Vulture.C13.outer_wall_field_free",
    "Vulture.C13.wall_is_metal",
    "Vulture.C13.named_pec_carries_field",
    "Vulture.C13.plate_on_mur_carries_field"
   ],
   "note": "Proved for the built-in PEC medium in models without field sources on the conductor and off Mur planes; violated for a medium the user declares with type PEC (it behaves as free space) and on a Mur plane: negations proved."
  },
  {
   "property": "C14",
   "status": "proved",
   "theorems": [
    "Vulture.C14.ampere_law",
    "Vulture.C14.faraday_law",
    "Vulture.C14.free_space_forced",
    "Vulture.C14.passive",
    "Vulture.C14.rejects"
   ],
   "note": ""
  },
  {
   "property": "C15",
   "status": "proved",
   "theorems": [
    "Vulture.C15.flux_unchanged",
    "Vulture.C15.flux_constant",
    "Vulture.C15.no_magnetic_charge",
    "Vulture.C15.undriven_of_electric"
   ],
   "note": "Every cell of the user's mesh whose faces are not touched by an SIBC correction, a magnetic source or a plane-wave magnetic correction."
  },
  {
   "property": "C16",
   "status": "proved",
   "theorems": [
    "Vulture.C16.one_step",
    "Vulture.C16.locality",
    "Vulture.C16.locality_sheets",
    "Vulture.C16.sheets_are_faster",
    "Vulture.C16.within_interior"
   ],
   "note": "All boundary types, media, sources, plane waves and sheets. Finding: the corrections beside an impedance sheet carry information one and a half cells per step (sheets_are_faster), so the bound with sheets is three half cells, which is proved and sharp."
  },
  {
   "property": "C17",
   "status": "proved",
   "theorems": [
    "Vulture.C17.energy_balance",
    "Vulture.C17.energy_conserved",
    "Vulture.C17.energy_nonincreasing",
    "Vulture.C17.energy_positive",
    "Vulture.C17.stored_bounded",
    "Vulture.C17.samples_bounded",
    "Vulture.C17.setup_closed",
    "Vulture.C17.run_stays_bounded",
    "Vulture.C17.silent_step",
    "Vulture.C17.bounded_after_sources"
   ],
   "note": "Real arithmetic. Tensor-product (also non-uniform) meshes, arbitrary dielectric, magnetic and conducting simple media and internal PEC; energy_balance is exact. setup_closed shows that the arrays computed by initCellEdges, initMedia and the media assignments satisfy the hypotheses. bounded_after_sources covers driven runs after the sources fall silent."
  },
  {
   "property": "C18",
   "status": "proved",
   "theorems": [
    "Vulture.C18.edge_lengths",
    "Vulture.C18.dual_edges",
    "Vulture.C18.reciprocals",
    "Vulture.C18.edges_use_mesh_lines_only",
    "Vulture.C18.mesh_lines_reproduced",
    "Vulture.C18.node_step",
    "Vulture.C18.positions_above",
    "Vulture.C18.positions_below",
    "Vulture.C18.position_strictMono",
    "Vulture.C18.sample_location",
    "Vulture.C18.uniform_mesh",
    "Vulture.C18.uniform_mesh_values",
    "Vulture.C18.smallest_largest",
    "Vulture.C18.unordered_lines_accepted"
   ],
   "note": "Finding: increasing order of user-supplied mesh lines is never checked (unordered_lines_accepted); monotonicity statements therefore assume it."
  },
  {
   "property": "C19",
   "status": "partial",
   "theorems": [
    "Vulture.C19.debye_where_the_card_says",
    "Vulture.C19.inLim_iff_contains",
    "Vulture.C19.point_contains_nothing",
    "Vulture.C19.set_medium",
    "Vulture.C19.last_wins",
    "Vulture.C19.lastWins_unique",
    "Vulture.C19.setup_media_partial",
    "Vulture.C19.background_covers",
    "Vulture.C19.background_safe",
    "Vulture.C19.user_fill_safe",
    "Vulture.C19.covered_debye_still_acts"
   ],
   "note": "Proved for the update coefficients of every sample; violated for the polarisation current of a Debye block covered by a later block (negation proved)."
  },
  {
   "property": "C20",
   "status": "proved",
   "theorems": [
    "Vulture.C20.numbered_and_resolved",
    "Vulture.C20.later_cards_keep",
    "Vulture.C20.duplicate_rejected",
    "Vulture.C20.unknown_rejected",
    "Vulture.C20.names_unique",
    "Vulture.C20.search_order",
    "Vulture.C20.faces_resolved",
    "Vulture.C20.placeholder_clash"
   ],
   "note": "All histories of cards. names_unique needs that no MT card uses the name __VR_RS_n__ of a lumped source's placeholder medium: those are added without a check (placeholder_clash, a finding). Sequenced (at most one BR card, before the model section) is what C01 proves of accepted files. The fields other than number and name are an arbitrary payload."
  },
  {
   "property": "C21",
   "status": "proved",
   "theorems": [
    "Vulture.C21.ghosts_after_step",
    "Vulture.C21.ghosts_always",
    "Vulture.C21.pmc_mean_zero"
   ],
   "note": "For every state and every combination of walls, including the edges and corners of the ghost layer; PEC walls included."
  },
  {
   "property": "C22",
   "status": "proved",
   "theorems": [
    "Vulture.C22.mur_value",
    "Vulture.C22.one_way",
    "Vulture.C22.one_way_unique",
    "Vulture.C22.zeta_value",
    "Vulture.C22.zeta_lt_one",
    "Vulture.C22.matched_absorbs",
    "Vulture.C22.reflection",
    "Vulture.C22.reflection_lt_one",
    "Vulture.C22.reflection_dispersion",
    "Vulture.C22.no_reflection_iff"
   ],
   "note": "Real arithmetic. one_way is about the whole electric half step for samples on one Mur face only (edges shared by two Mur faces are never updated, see C09) with no source acting on the two samples."
  },
  {
   "property": "C23",
   "status": "proved",
   "theorems": [
    "Vulture.C23.grading",
    "Vulture.C23.loss_monotone",
    "Vulture.C23.loss_zero",
    "Vulture.C23.loss_pos",
    "Vulture.C23.graded_damping",
    "Vulture.C23.never_amplifies",
    "Vulture.C23.reflection_above_one_amplifies",
    "Vulture.C23.layer_electric",
    "Vulture.C23.layer_magnetic",
    "Vulture.C23.stretched_electric",
    "Vulture.C23.stretched_magnetic",
    "Vulture.C23.lossfree_electric",
    "Vulture.C23.lossfree_magnetic",
    "Vulture.C23.lossfree_step",
    "Vulture.C23.lossfree_run"
   ],
   "note": "Real arithmetic; orders are natural numbers. The parameters are not validated by the program: with a nominal reflection above one the layer amplifies (proved)."
  },
  {
   "property": "C24",
   "status": "proved",
   "theorems": [
    "Vulture.C24.debye_run_law",
    "Vulture.C24.pole_equation",
    "Vulture.C24.dispersive_ampere",
    "Vulture.C24.dispersion_relation",
    "Vulture.C24.transient",
    "Vulture.C24.normSq_dalpha",
    "Vulture.C24.file_poles_stable",
    "Vulture.C24.card_pole_unchecked",
    "Vulture.C24.ex_sample"
   ],
   "note": "All poles, residues, conductivities and histories. Conditions: the sample is in one Debye block only (the manual calls overlap ill-defined), it is advanced by the main grid update, its coefficients are those of the block's medium (C19 says when) and no source, incident wave or impedance surface acts on it: those act after the block has remembered the field, so at such samples the current is driven one step late. Finding card_pole_unchecked: poles on the card are not checked for stability, those of a file are."
  },
  {
   "property": "C25",
   "status": "proved",
   "theorems": [
    "Vulture.C25.recursive_is_direct",
    "Vulture.C25.bounded_output",
    "Vulture.C25.pole_decay",
    "Vulture.C25.surface_convolution",
    "Vulture.C25.ex_face"
   ],
   "note": "Real and complex arithmetic. All sequences, all poles but zero (the code divides by the pole). The interpolant starts from zero one step before the first sample, as the cleared state does. surface_convolution is the same statement for the filters of an impedance surface inside a whole run with arbitrary sources."
  },
  {
   "property": "C26",
   "status": "partial",
   "theorems": [
    "Vulture.C26.impedance_matches",
    "Vulture.C26.impedance_equation",
    "Vulture.C26.defined_iff",
    "Vulture.C26.dissipative_iff",
    "Vulture.C26.stored_blocks",
    "Vulture.C26.parameters_read",
    "Vulture.C26.two_port_file",
    "Vulture.C26.accepted_one_sided_partial",
    "Vulture.C26.check_exact_uncoupled_partial",
    "Vulture.C26.active_accepted",
    "Vulture.C26.passive_rejected",
    "Vulture.C26.singular_accepted"
   ],
   "note": "The conversion half is proved. The passivity half is false of the code: the check tests the signs of the entries of (a wrongly computed) I - S'S instead of its definiteness, so it accepts an active symmetric sheet and rejects a passive one (both proved); what the check does guarantee is proved as _partial."
  },
  {
   "property": "C27",
   "status": "partial",
   "theorems": [
    "Vulture.C27.tag_meaning",
    "Vulture.C27.tag_only",
    "Vulture.C27.spell_injective",
    "Vulture.C27.driven_iff",
    "Vulture.C27.driven_total_current",
    "Vulture.C27.driven_ampere",
    "Vulture.C27.driven_faraday",
    "Vulture.C27.hard_field",
    "Vulture.C27.hard_magnetic_field",
    "Vulture.C27.soft_field",
    "Vulture.C27.hard_current",
    "Vulture.C27.total_current",
    "Vulture.C27.total_magnetic_current",
    "Vulture.C27.total_moment",
    "Vulture.C27.total_magnetic_moment",
    "Vulture.C27.surface_density",
    "Vulture.C27.magnetic_surface_density",
    "Vulture.C27.voltage",
    "Vulture.C27.as_given",
    "Vulture.C27.resistive_source_partial",
    "Vulture.C27.norton_eq_thevenin",
    "Vulture.C27.ideal_source_quarter",
    "Vulture.C27.misoriented_drives_nothing",
    "Vulture.C27.ex_driven"
   ],
   "note": "Real arithmetic; all tags, boxes, meshes, sizes and prior fields. The lumped source presents its resistance when that is above the program's threshold of 0.01; below it the property fails: the source adds to a perfect conductor and delivers a quarter of the voltage (ideal_source_quarter, a finding). Findings also: a tag whose direction is not that of the line drives nothing, and the current is evaluated at the beginning of the step, half a step late."
  },
  {
   "property": "C28",
   "status": "proved",
   "theorems": [
    "Vulture.C28.compact_eq",
    "Vulture.C28.compact_range",
    "Vulture.C28.compact_support",
    "Vulture.C28.compact_peak",
    "Vulture.C28.compact_deriv",
    "Vulture.C28.compact_continuous",
    "Vulture.C28.gaussian_eq",
    "Vulture.C28.gaussian_range",
    "Vulture.C28.gaussian_peak",
    "Vulture.C28.diff_gaussian",
    "Vulture.C28.ricker",
    "Vulture.C28.mod_gaussian",
    "Vulture.C28.mod_compact",
    "Vulture.C28.ramped_eq",
    "Vulture.C28.ramped_bound",
    "Vulture.C28.ramped_after",
    "Vulture.C28.ramped_continuous",
    "Vulture.C28.value_eq",
    "Vulture.C28.init_valid",
    "Vulture.C28.value_bound",
    "Vulture.C28.compact_silent",
    "Vulture.C28.narrow_gaussian_truncated",
    "Vulture.C28.negative_delay_replaced"
   ],
   "note": "Real arithmetic with the real sine, cosine and exponential. Findings: the differentiated compact pulse is smaller than documented by the factor pi, the Ricker wavelet has the opposite sign of the manual's formula, the default narrow Gaussian starts at a third of its peak, a negative delay is replaced."
  },
  {
   "property": "C29",
   "status": "proved",
   "theorems": [
    "Vulture.C29.history_free",
    "Vulture.C29.thread_free",
    "Vulture.C29.stateless",
    "Vulture.C29.through_points",
    "Vulture.C29.wave_outside",
    "Vulture.C29.smooth",
    "Vulture.C29.smooth_everywhere",
    "Vulture.C29.slope_match",
    "Vulture.C29.jump_at_end",
    "Vulture.C29.ex_table"
   ],
   "note": "Real arithmetic; the cache of the last interval is modelled, races on it are covered by thread_free (any earlier cached value gives the same result). Slope continuity is about the table's span and, if the end values are zero, about all times."
  },
  {
   "property": "C30",
   "status": "proved",
   "theorems": [
    "Vulture.C30.direction_of_angles",
    "Vulture.C30.uniform_wave",
    "Vulture.C30.polarisation_angle",
    "Vulture.C30.origin_exists",
    "Vulture.C30.corner_sign",
    "Vulture.C30.reaches_origin_first",
    "Vulture.C30.travelling",
    "Vulture.C30.causal_in_box",
    "Vulture.C30.incident_pair",
    "Vulture.C30.azimuth_360_accepted_then_aborts",
    "Vulture.C30.mask_meaning",
    "Vulture.C30.mask_total"
   ],
   "note": "Real arithmetic, all angles and boxes. The origin statement excludes an azimuth of exactly 360 degrees, which the card check accepts although the manual does not, and which aborts the run (proved, a finding)."
  },
  {
   "property": "C31",
   "status": "proved",
   "theorems": [
    "Vulture.C31.separation",
    "Vulture.C31.total_inside_nothing_outside",
    "Vulture.C31.face_value",
    "Vulture.C31.lookups_electric",
    "Vulture.C31.lookups_magnetic",
    "Vulture.C31.separation_aux",
    "Vulture.C31.axis_wave_solves",
    "Vulture.C31.axis_wave_separated",
    "Vulture.C31.newton_correction",
    "Vulture.C31.fixed_point",
    "Vulture.C31.velocity_axis",
    "Vulture.C31.velocity_found",
    "Vulture.C31.rel_axis_one",
    "Vulture.C31.no_wave_for_small_steps"
   ],
   "note": "separation/total_inside_nothing_outside: any ring, any incident solution, any box clear of the outer faces, any step count, PML, Mur and wall boundaries. face_value gives the exact error on lossy faces (ALPHA is applied twice by the corrections). axis_wave_separated is for the auxiliary grid along the axes, with the relative phase velocity proved to be one (rel_axis_one) for Courant numbers from about one half; no_wave_for_small_steps is a finding: for Courant numbers up to 3/20 the Newton iteration of the phase velocity has no root."
  },
  {
   "property": "C32",
   "status": "proved",
   "theorems": [
    "Vulture.C32.time_lines",
    "Vulture.C32.waveform_lines",
    "Vulture.C32.binary_records",
    "Vulture.C32.excite_values",
    "Vulture.C32.nodes_selected",
    "Vulture.C32.nodes_once",
    "Vulture.C32.nodes_count",
    "Vulture.C32.for_loop",
    "Vulture.C32.window_count",
    "Vulture.C32.default_window",
    "Vulture.C32.card_window",
    "Vulture.C32.outputs_finish",
    "Vulture.C32.run_ends",
    "Vulture.C32.zero_step_hangs",
    "Vulture.Vulture.C35.run_result"
   ],
   "note": "All windows, strides, boxes and run lengths below 2^64, all fields. Findings: a zero stride is accepted by the card and hangs the run at the first step of the window (zero_step_hangs); the state after the last step is never recorded. run_result ties the outputs to the time loop."
  },
  {
   "property": "C33",
   "status": "proved",
   "theorems": [
    "Vulture.C33.field_transform",
    "Vulture.C33.waveform_transform",
    "Vulture.C33.quotient_div",
    "Vulture.C33.quotient_undefined",
    "Vulture.C33.transfer_constant",
    "Vulture.C33.window_mismatch",
    "Vulture.C33.frequencies",
    "Vulture.C33.frequencies_default"
   ],
   "note": "Real arithmetic, all signals, frequencies and lengths. Findings: the field is transformed over the OT window but the waveform over the whole run, so the ratio is not the transfer function when the window is shorter (window_mismatch); magnetic fields are given the time of the electric ones; OF with one frequency divides by zero."
  },
  {
   "property": "C34",
   "status": "proved",
   "theorems": [
    "Vulture.C34.file_contents",
    "Vulture.C34.record_position",
    "Vulture.C34.record_count",
    "Vulture.C34.header_count",
    "Vulture.C34.default_announced",
    "Vulture.C34.window_announced",
    "Vulture.C34.header_overstates",
    "Vulture.C34.header_wraps",
    "Vulture.C34.record_nodes",
    "Vulture.C34.read_file"
   ],
   "note": "Byte-level, little-endian 4-byte int and float, for coordinates that fit an int. The conversion of a value to its 4 bytes is arbitrary. Finding: a window that reaches beyond the run is announced in full (header_overstates), one of 2^32 steps as empty."
  },
  {
   "property": "C35",
   "status": "proved",
   "theorems": [
    "Vulture.C35.exact_steps",
    "Vulture.C35.run_result",
    "Vulture.C35.nt_value",
    "Vulture.C35.zero_accepted",
    "Vulture.C35.zero_steps_never_end",
    "Vulture.C35.courant_range",
    "Vulture.C35.courant_used",
    "Vulture.C35.courant_default",
    "Vulture.C35.within_limit",
    "Vulture.C35.courant_zero_accepted"
   ],
   "note": "All step counts of an unsigned long, with wrap-around. Findings: NT 0 is accepted and the run never ends; CN 0 is accepted and gives a zero time step."
  },
  {
   "property": "C36",
   "status": "proved",
   "theorems": [
    "Vulture.C36.number_range",
    "Vulture.C36.number_decodes",
    "Vulture.C36.number_injective",
    "Vulture.C36.no_overflow",
    "Vulture.C36.own_dimension",
    "Vulture.C36.own_dimension_total",
    "Vulture.C36.points",
    "Vulture.C36.node_order",
    "Vulture.C36.entity_spec",
    "Vulture.C36.export_good",
    "Vulture.C36.entity_numbers",
    "Vulture.C36.node_section",
    "Vulture.C36.one_group",
    "Vulture.C36.group_numbers",
    "Vulture.C36.dimension_conflict",
    "Vulture.C36.served",
    "Vulture.C36.source_servable",
    "Vulture.C36.external_servable",
    "Vulture.C36.plane_wave_servable",
    "Vulture.C36.flat_plane_wave_aborts"
   ],
   "note": "All mesh sizes and all histories of requests for boxes in the mesh; int arithmetic is shown not to overflow below 2^31 nodes. Finding: a plane wave on a flat box, which the parser accepts, aborts the export."
  },
  {
   "property": "C37",
   "status": "proved",
   "theorems": [
    "Vulture.C37.element_address",
    "Vulture.C37.elements_disjoint",
    "Vulture.C37.elements_inside",
    "Vulture.C37.table_inside",
    "Vulture.C37.last_index_contiguous",
    "Vulture.C37.block_exact"
   ],
   "note": "Any number of dimensions, any extents, any element and pointer size, any base address; 64-bit overflow of the block size is not modelled."
  },
  {
   "property": "C38",
   "status": "proved",
   "theorems": [
    "Vulture.C38.error_exits",
    "Vulture.C38.others_continue",
    "Vulture.C38.logged_iff",
    "Vulture.C38.run_status",
    "Vulture.C38.verbosity",
    "Vulture.C38.unknown_option",
    "Vulture.C38.missing_value",
    "Vulture.C38.thread_count",
    "Vulture.C38.flags",
    "Vulture.C38.no_mesh_goes_on"
   ],
   "note": "All severities, verbosities and histories. Findings: the thread-count option as last argument hands a null pointer to strtod; a missing mesh name prints the usage and goes on."
  },
  {
   "property": "C39",
   "status": "partial",
   "theorems": [
    "Vulture.C39.no_preferred_axis_partial",
    "Vulture.C39.turned_step",
    "Vulture.C39.turned_states",
    "Vulture.C39.renamed_exist",
    "Vulture.C39.three_turns",
    "Vulture.C39.sheets_prefer_an_axis",
    "Vulture.C39.lossy_waves_prefer_an_axis"
   ],
   "note": "Proved for every mesh, boundaries, layers, media, Debye blocks, sources, and plane waves whose box lies in a lossless medium. The rest of the statement is false of the code: sheets_prefer_an_axis, lossy_waves_prefer_an_axis."
  },
  {
   "property": "C40",
   "status": "partial",
   "theorems": [
    "Vulture.C40.layer_media",
    "Vulture.C40.continues_partial",
    "Vulture.C40.low_layer_takes_second_cell",
    "Vulture.C40.slab_not_continued"
   ],
   "note": "What the layers receive is characterised exactly; the half-cell samples of low-side layers are copied from the second cell, so the property fails there (negation proved)."
  },
  {
   "property": "C41",
   "status": "partial",
   "theorems": [
    "Vulture.Vulture.C18.uniform_recognised",
    "Vulture.Vulture.C18.cubic_iff",
    "Vulture.Vulture.C18.growing_recognised_partial",
    "Vulture.Vulture.C18.shrinking_called_uniform"
   ],
   "note": "Violated: the classification compares signed differences, so a mesh whose cells shrink is called uniform (negation proved); the two parts that hold are proved."
  },
  {
   "property": "C42",
   "status": "proved",
   "theorems": [
    "Vulture.C42.power_at_ports",
    "Vulture.C42.sheet_passive",
    "Vulture.C42.turn_isometry",
    "Vulture.C42.isotropic_any_angle",
    "Vulture.C42.quarter_turn",
    "Vulture.C42.flipped",
    "Vulture.C42.reference"
   ],
   "note": "All angles, both orientations, all impedance matrices; the law is the memoryless one, by C25 the filters with poles are applied between the same two matrices."
  },
  {
   "property": "C43",
   "status": "partial",
   "theorems": [
    "Vulture.C43.flags_right_partial",
    "Vulture.C43.standing_shares_edge",
    "Vulture.C43.faceMap_value",
    "Vulture.C43.fourth_flag",
    "Vulture.C43.fourth_flag_misses",
    "Vulture.C43.outer_edge_unwritten",
    "Vulture.C43.outer_face_unwritten",
    "Vulture.C43.flags_of_opposite_edge"
   ],
   "note": "Proved for seven of the eight flags of every face whose neighbours lie inside the grid. The rest of the statement is false of the code: fourth_flag_misses, outer_edge_unwritten, outer_face_unwritten, flags_of_opposite_edge."
  },
  {
   "property": "C44",
   "status": "proved",
   "theorems": [
    "Vulture.C44.mesh_card",
    "Vulture.C44.block_card",
    "Vulture.C44.surface_card",
    "Vulture.C44.wire_card",
    "Vulture.C44.source_card",
    "Vulture.C44.observer_card",
    "Vulture.C44.planeWave_card",
    "Vulture.C44.limits_iff",
    "Vulture.C44.sixBits_iff",
    "Vulture.C44.sixFlags_iff"
   ],
   "note": "Acceptance characterised in both directions for each card; the z-order of the box is C04, and a lumped source is not required to be a single edge (C04/C05)."
  },
  {
   "property": "C45",
   "status": "proved",
   "theorems": [
    "Vulture.C45.reciprocity",
    "Vulture.C45.exchange",
    "Vulture.C45.stepE_driven",
    "Vulture.C45.stepH_driven"
   ],
   "note": "Closed box with six PEC walls and simple media (C17.setup_closed shows the set-up code produces such arrays); any number of soft electric and magnetic current sources."
  },
  {
   "property": "C46",
   "status": "proved",
   "theorems": [
    "Vulture.Vulture.C45.energy_supplied"
   ],
   "note": "Closed box with six PEC walls and simple media; any number of soft current sources."
  },
  {
   "property": "C47",
   "status": "proved",
   "theorems": [
    "Vulture.C47.accepted_file_valid",
    "Vulture.C47.accepted_file_safe",
    "Vulture.C47.items_are_cards",
    "Vulture.C47.debye_card_acts",
    "Vulture.C47.sheet_card_acts",
    "Vulture.C47.no_other_items",
    "Vulture.C47.rejected_card_stops"
   ],
   "note": "The third sides of boxes must be ordered because the parser does not check them (C04); a file with an analytic plane wave must keep one cell from the low sides (C08.low_face_reads_line_before_first)."
  },
  {
   "property": "C48",
   "status": "partial",
   "theorems": [
    "Vulture.C48.delays_shift",
    "Vulture.C48.amplitudes_scale_partial",
    "Vulture.C48.hard_field_on_time",
    "Vulture.C48.hard_magnetic_field_on_time",
    "Vulture.C48.wave_on_time",
    "Vulture.C48.incident_half_step_ahead",
    "Vulture.C48.current_half_step_ahead",
    "Vulture.C48.magnetic_current_half_step_ahead"
   ],
   "note": "Shift and scaling hold for every file; hard field sources and the auxiliary grid of a wave act on time. The code violates the rest: soft currents and the analytic incident wave act with the waveform taken half a time step ahead of the time of the interval or sample, which is proved. amplitudes_scale_partial is stated for meshes that are not cubic; on cubic ones the size enters through a coefficient, which C58 covers."
  },
  {
   "property": "C49",
   "status": "proved",
   "theorems": [
    "Vulture.C49.walls_are_mirrors",
    "Vulture.C49.images_exist",
    "Vulture.C49.currents_exist",
    "Vulture.C49.image_principle",
    "Vulture.C49.shared_space",
    "Vulture.C49.half_cut",
    "Vulture.C49.symmetry_plane",
    "Vulture.C49.box_acts"
   ],
   "note": "Two conditions are part of the statement: no source drives the magnetic field normal to a conducting wall inside that wall (such a current has no image), and along periodic axes the two end planes carry the same coefficients, currents and dual lengths."
  },
  {
   "property": "C50",
   "status": "partial",
   "theorems": [
    "Vulture.C50.reader_returns_partial",
    "Vulture.C50.overstated_unreadable",
    "Vulture.C50.times_from_window"
   ],
   "note": "reader_returns_partial covers every observer, selection and window that lies inside the run: nodes, axes and all six fields. The rest is false of the code: a window reaching beyond the run makes the reader fail on the whole file (overstated_unreadable), and the times it returns are those of the steps only if the window starts with the run (times_from_window)."
  },
  {
   "property": "C51",
   "status": "proved",
   "theorems": [
    "Vulture.C51.fft_transform",
    "Vulture.C51.xfreq_agrees",
    "Vulture.C51.tdfdFFT_bins",
    "Vulture.C51.scripts_give",
    "Vulture.C51.scripts_agree",
    "Vulture.C51.xfreq_needs_whole_run",
    "Vulture.C51.window_shifts_phase"
   ],
   "note": "Recording over the whole run is part of the statement. Beyond it: with a shorter window xfreq stops (xfreq_needs_whole_run) and the binary route divides by the waveform of other steps (window_shifts_phase)."
  },
  {
   "property": "C52",
   "status": "partial",
   "theorems": [
    "Vulture.C52.no_preferred_side_partial",
    "Vulture.C52.mirrored_step",
    "Vulture.C52.mirrored_states",
    "Vulture.C52.mirrored_exist",
    "Vulture.C52.image_inMesh",
    "Vulture.C52.two_mirrors",
    "Vulture.C52.one_cell_between_mur_faces",
    "Vulture.C52.sheets_prefer_a_side"
   ],
   "note": "Proved for every mesh, boundaries, layers, media, Debye blocks, sources and plane waves, with at least two cells between opposite Mur faces and plane-wave boxes of at least one cell along the axis. The rest of the statement is false of the code: one_cell_between_mur_faces, sheets_prefer_a_side."
  },
  {
   "property": "C53",
   "status": "proved",
   "theorems": [
    "Vulture.C53.process_read",
    "Vulture.C53.files_read_back",
    "Vulture.C53.readFiles_eq",
    "Vulture.C53.rewrite_read"
   ],
   "note": "The digits printed by %g/%e are a parameter of the model; the title must be one line, as the code makes it."
  },
  {
   "property": "C54",
   "status": "partial",
   "theorems": [
    "Vulture.C54.memory_never_matters_partial",
    "Vulture.C54.fields_same_partial",
    "Vulture.C54.acceptance_same",
    "Vulture.C54.memory_matters_at_walls"
   ],
   "note": "Proved for files with ordered boxes (C04), plane waves off the low sides of meshes that are not cubic (C08.low_face_reads_line_before_first) and sheets that keep away from the sides of the grid. The rest of the statement is false of the code: memory_matters_at_walls."
  },
  {
   "property": "C55",
   "status": "partial",
   "theorems": [
    "Vulture.C55.only_electrical_size_matters_partial",
    "Vulture.C55.cubes_scale",
    "Vulture.C55.scaled_accepted",
    "Vulture.C55.tolerance_is_a_length",
    "Vulture.C55.small_is_cubic",
    "Vulture.C55.cubes_are_cubic"
   ],
   "note": "Proved for all meshes of cubes, and for other meshes without plane waves or where the program judges the mesh type alike in both units; files as in C54. The rest of the statement is false of the code: tolerance_is_a_length."
  },
  {
   "property": "C56",
   "status": "proved",
   "theorems": [
    "Vulture.C56.cavity_closed",
    "Vulture.C56.energy_balance",
    "Vulture.C56.silence_bounded",
    "Vulture.C56.never_blows_up",
    "Vulture.C56.pulses_summable",
    "Vulture.C56.pulses_stay_bounded",
    "Vulture.C56.lossless_conserved",
    "Vulture.C56.conductors_free"
   ],
   "note": "Files as described by Spec.Cavity. Bounded for summable drive values, in particular for all built-in waveforms but the ramped sinusoid (which may excite a resonance) and for tables."
  },
  {
   "property": "C57",
   "status": "proved",
   "theorems": [
    "Vulture.C57.exchange",
    "Vulture.C57.states",
    "Vulture.C57.common",
    "Vulture.C57.edge_current"
   ],
   "note": "Files as described by Spec.Cavity with one EX card for a current through one edge (tags IX, IY, IZ)."
  },
  {
   "property": "C58",
   "status": "proved",
   "theorems": [
    "Vulture.C58.linear_in_amplitudes"
   ],
   "note": "Any mesh type, all kinds of sources; plane-wave cards must carry their size (as the grammar requires when later fields are given)."
  },
  {
   "property": "C59",
   "status": "proved",
   "theorems": [
    "Vulture.C59.sheet_drives_mesh",
    "Vulture.C59.beside_sheet",
    "Vulture.C59.edges_zero",
    "Vulture.C59.normal_zero",
    "Vulture.C59.metal_wall_leaks"
   ],
   "note": "Samples at which no other sheet lies within half a cell and no magnetic source or plane-wave correction acts. The electric field of the squares themselves is C25.surface_convolution and C42. metal_wall_leaks is a finding: on a metal wall the weight one half is not what the wall requires."
  },
  {
   "property": "C60",
   "status": "partial",
   "theorems": [
    "Vulture.C60.box_outline",
    "Vulture.C60.point_box",
    "Vulture.C60.box_points",
    "Vulture.C60.box_defined",
    "Vulture.C60.blocks_shown",
    "Vulture.C60.surfaces_shown",
    "Vulture.C60.wires_shown",
    "Vulture.C60.outer_faces_shown",
    "Vulture.C60.mesh_lines_shown",
    "Vulture.C60.source_cards_shown",
    "Vulture.C60.arrow_shown",
    "Vulture.C60.arrow_reads_inside",
    "Vulture.C60.observers_shown",
    "Vulture.C60.wave_shown",
    "Vulture.C60.range_marks",
    "Vulture.C60.equal_scales",
    "Vulture.C60.script_complete_partial",
    "Vulture.C60.flat_arrow_reads",
    "Vulture.C60.flat_source_reads_outside",
    "Vulture.C60.no_observers_runs_on",
    "Vulture.C60.no_external_hides"
   ],
   "note": "The data files are proved for every file. False of the code and proved so: the arrow of a source flat along its field ends two lines beyond it, possibly behind the mesh lines (flat_source_reads_outside); without observers the plot command swallows the next one (no_observers_runs_on); with the option that leaves the outer surfaces out, nothing but the mesh lines is plotted (no_external_hides)."
  },
  {
   "property": "C61",
   "status": "partial",
   "theorems": [
    "Vulture.C61.run_leaves",
    "Vulture.C61.leaves_unique",
    "Vulture.C61.file_names",
    "Vulture.C61.names_distinct",
    "Vulture.C61.probe_file",
    "Vulture.C61.waveform_file",
    "Vulture.C61.waveform_spectrum",
    "Vulture.C61.transfer_file",
    "Vulture.C61.impulse_file",
    "Vulture.C61.excite_file",
    "Vulture.C61.probes_in_bounds",
    "Vulture.C61.files_reproducible_partial",
    "Vulture.C61.companion_reads_partial",
    "Vulture.C61.zero_stride_never_ends",
    "Vulture.C61.no_waveform_accepted"
   ],
   "note": "Contents, names and existence of the files are proved for every accepted file with positive strides and a waveform where one is needed (otherwise the run does not end or indexes out of bounds: zero_stride_never_ends, no_waveform_accepted). Reproducibility is proved under the conditions of C54, outside of which it is false; the reader for windows inside the run (C50.overstated_unreadable)."
  },
  {
   "property": "C62",
   "status": "proved",
   "theorems": [
    "Vulture.C62.card_text",
    "Vulture.C62.text_read",
    "Vulture.C62.file_reads",
    "Vulture.C62.bad_sequence_rejected",
    "Vulture.C62.layout_irrelevant",
    "Vulture.C62.text_leaves",
    "Vulture.C62.count_cut",
    "Vulture.C62.newline_after_lines"
   ],
   "note": "Numbers are exact (no overflow of int, no rounding of float); hexadecimal, inf and nan are not in the model. Lines of white space are allowed in a layout only if the byte before the line buffer happens to be no white space (flag `blank`; otherwise undefined behaviour, C03.blank_line_ub)."
  },
  {
   "property": "C63",
   "status": "proved",
   "theorems": [
    "Vulture.C63.size_meant",
    "Vulture.C63.steps_meant",
    "Vulture.C63.times_meant",
    "Vulture.C63.times_default",
    "Vulture.C63.freqs_meant",
    "Vulture.C63.freqs_default",
    "Vulture.C63.courant_meant",
    "Vulture.C63.courant_default",
    "Vulture.C63.spacing_meant",
    "Vulture.C63.lines_meant",
    "Vulture.C63.items_meant",
    "Vulture.C63.wave_meant",
    "Vulture.C63.wave_file_meant",
    "Vulture.C63.face_default",
    "Vulture.C63.face_old",
    "Vulture.C63.face_named",
    "Vulture.C63.face_absorber",
    "Vulture.C63.face_absorber_default",
    "Vulture.C63.face_sheet_stops",
    "Vulture.C63.dipole_leaves"
   ],
   "note": "A BE card is documented to set the depth of the absorbing layers; it does so only after a BR card (face_default, face_old)."
  },
  {
   "property": "C64",
   "status": "proved",
   "theorems": [
    "Vulture.C64.every_sample",
    "Vulture.C64.coefficients",
    "Vulture.C64.made_unique",
    "Vulture.C64.metal_dark",
    "Vulture.C64.step_positive",
    "Vulture.C64.bench_setup",
    "Vulture.C64.bench_made"
   ],
   "note": "Block cards have at most eight fields (a ninth makes the program forget the mask) and do not use the internal media of lumped sources. The numbers of media are in the documented ranges where the difference equations divide by them."
  },
  {
   "property": "C65",
   "status": "proved",
   "theorems": [
    "Vulture.C65.sheet_law",
    "Vulture.C65.one_sample_counts",
    "Vulture.C65.lone_sheet",
    "Vulture.C65.passive_sheet",
    "Vulture.C65.sheet_listed",
    "Vulture.C65.film_accepted",
    "Vulture.C65.film_sheet"
   ],
   "note": "For squares whose neighbourhood lies in the grid and where the misplaced adjacency record of C43 makes no difference (always so for a single sheet); poles nonzero."
  },
  {
   "property": "C66",
   "status": "partial",
   "theorems": [
    "Vulture.C66.wave_read",
    "Vulture.C66.wave_rejected",
    "Vulture.C66.wave_foreign",
    "Vulture.C66.wave_value",
    "Vulture.C66.debye_read",
    "Vulture.C66.debye_short",
    "Vulture.C66.debye_meant",
    "Vulture.C66.sheet_read",
    "Vulture.C66.sheet_read_two",
    "Vulture.C66.sheet_size_rejected",
    "Vulture.C66.sheet_meant",
    "Vulture.C66.missing_file",
    "Vulture.C66.manual_order",
    "Vulture.C66.short_sheet",
    "Vulture.C66.empty_sheet",
    "Vulture.C66.wave_half_row",
    "Vulture.C66.kit_meant"
   ],
   "note": "False of the code: a sheet file in the order of the manual's table (residue, then pole) is read with the two exchanged (manual_order; the program reads pole, then residue: sheet_read, sheet_read_two); sheet files that end early are accepted with leftover or uninitialised values (short_sheet, empty_sheet) and their poles are not checked for stability; a last row of a waveform file without its value is dropped silently (wave_half_row). Numbers are exact; hexadecimal, inf and nan are not in the model."
  },
  {
   "property": "C67",
   "status": "proved",
   "theorems": [
    "Vulture.C67.fields_unchanged",
    "Vulture.C67.probes_removable",
    "Vulture.C67.probe_unchanged",
    "Vulture.C67.waveform_unchanged",
    "Vulture.C67.excite_unchanged",
    "Vulture.C67.impulse_unchanged",
    "Vulture.C67.fewer_probes_run"
   ],
   "note": "Adding an OP card can make an input unacceptable or endless (C44, C61.zero_stride_never_ends), so the comparison of files is between two inputs that both run to their end."
  },
  {
   "property": "C68",
   "status": "proved",
   "theorems": [
    "Vulture.C68.longer_appends",
    "Vulture.C68.longer_runs",
    "Vulture.C68.impulse_exact",
    "Vulture.C68.spectrum_changes"
   ],
   "note": "The window (OT card) is the same in both runs."
  },
  {
   "property": "C69",
   "status": "proved",
   "theorems": [
    "Vulture.C69.convolution",
    "Vulture.C69.run_timed"
   ],
   "note": "Real arithmetic. Plane waves on meshes that are not cubic are injected from the analytic formula at retarded times and are covered by C70.linear_in_waveforms and C48 only."
  },
  {
   "property": "C70",
   "status": "proved",
   "theorems": [
    "Vulture.C70.linear_in_waveforms",
    "Vulture.C70.fields_scaled",
    "Vulture.C70.transfer_unchanged",
    "Vulture.C70.louder_scaled"
   ],
   "note": "Where the transform of the waveform is zero the program divides by zero in both runs; the model writes the same (meaningless) number in both."
  },
  {
   "property": "C71",
   "status": "proved",
   "theorems": [
    "Vulture.C71.beam",
    "Vulture.C71.beam_early",
    "Vulture.C71.all_off_dark",
    "Vulture.C71.active_iff",
    "Vulture.C71.line_wave",
    "Vulture.C71.as_if_endless"
   ],
   "note": "The Courant number is at least 1/2 (below, the program's Newton iteration for the phase velocity along the axis may divide by zero); no Debye media or impedance sheets are declared."
  },
  {
   "property": "C72",
   "status": "proved",
   "theorems": [
    "Vulture.C72.ampere",
    "Vulture.C72.faraday",
    "Vulture.C72.dispersive_ampere"
   ],
   "note": "Samples under a dispersive block that a later block covers are excluded: there the covered block still acts (C19.covered_debye_still_acts). Samples held by hard, field and voltage sources are the subject of C27, sheets of C65, plane waves of C31/C71, MUR sides of C22."
  },
  {
   "property": "C73",
   "status": "proved",
   "theorems": [
    "Vulture.C73.light_cone",
    "Vulture.C73.shielding",
    "Vulture.C73.same_step"
   ],
   "note": "Samples in dispersive blocks, next to impedance sheets, plane wave sides and MUR sides are not ordinary in the sense of C72; the parts compared contain none of them."
  },
  {
   "property": "C74",
   "status": "proved",
   "theorems": [
    "Vulture.C74.fields_same",
    "Vulture.C74.probe_same",
    "Vulture.C74.output_same",
    "Vulture.C74.declarations_first"
   ],
   "note": "As in C64, block cards have at most eight fields and do not use the internal media of lumped sources. Within a kind the order does matter (C64: the last block wins)."
  },
  {
   "property": "C75",
   "status": "proved",
   "theorems": [
    "Vulture.C75.edge_loop",
    "Vulture.C75.node_law",
    "Vulture.C75.charge_step",
    "Vulture.C75.charge_carried",
    "Vulture.C75.uncharged",
    "Vulture.C75.flux_step",
    "Vulture.C75.no_magnetic_charge",
    "Vulture.C75.rectangle_current",
    "Vulture.C75.rectangle_voltage"
   ],
   "note": "Mesh lines must increase (the program does not check this) and the numbers of media lie in the documented ranges; dispersive edges are covered by C72.dispersive_ampere only."
  },
  {
   "property": "C76",
   "status": "proved",
   "theorems": [
    "Vulture.C76.held",
    "Vulture.C76.held_voltage",
    "Vulture.C76.added_electric",
    "Vulture.C76.added_magnetic",
    "Vulture.C76.hard_current"
   ],
   "note": "Samples on plane wave sides, MUR sides (soft), sheets (soft) and dispersive edges (soft) are excluded; metal samples with a soft field source flip the sign of the old field, as the theorem states."
  },
  {
   "property": "C77",
   "status": "proved",
   "theorems": [
    "Vulture.C77.any_threads",
    "Vulture.C77.reproducible",
    "Vulture.C77.threads_fields",
    "Vulture.C77.rounded_cone",
    "Vulture.C77.zeros_stay"
   ],
   "note": "Excitation values are inputs: with OpenMP the tabulated waveform's cached interval is shared by the threads of the plane wave loops; by C29 any cached interval gives the same value in exact arithmetic. An iteration is assumed to be compiled to a function of the values it reads."
  },
  {
   "property": "C78",
   "status": "partial",
   "theorems": [
    "Vulture.C78.status_partial",
    "Vulture.C78.extents_not_checked",
    "Vulture.C78.row_for_column",
    "Vulture.C78.small_not_compared"
   ],
   "note": "Missing: rejection of tables of different extents. The script prints a message and exits with success if shapes differ but can be broadcast, whatever the numbers are; a row passes for a column; numbers up to 5e-3 are never compared, so a run of zeros passes against small reference data."
  },
  {
   "property": "C79",
   "status": "proved",
   "theorems": [
    "Vulture.C79.accepted_iff",
    "Vulture.C79.fields_same",
    "Vulture.C79.files_same"
   ],
   "note": "Names as scanned tokens: the length limit of the scan (31 characters) is text level (C62)."
  },
  {
   "property": "C80",
   "status": "proved",
   "theorems": [
    "Vulture.C80.energy_step",
    "Vulture.C80.energy_first",
    "Vulture.C80.energy_total",
    "Vulture.C80.metal_tight"
   ],
   "note": "Energy in leapfrog form: the magnetic part is the product of the values half a step before and after. Exact arithmetic."
  },
  {
   "property": "C81",
   "status": "proved",
   "theorems": [
    "Vulture.C81.magnetic_side",
    "Vulture.C81.conducting_side_image",
    "Vulture.C81.periodic_side",
    "Vulture.C81.conducting_side",
    "Vulture.C81.mur_side",
    "Vulture.C81.mur_side_matched",
    "Vulture.C81.mur_edge",
    "Vulture.C81.periodic_ends"
   ],
   "note": "Mur side: the sample and its inner neighbour are touched by no dispersive block, sheet, plane wave or source; meshes one cell thick between two MUR sides excluded. End planes: ordinary samples, the other sides conducting, magnetic or periodic."
  },
  {
   "property": "C82",
   "status": "proved",
   "theorems": [
    "Vulture.C82.errors_add",
    "Vulture.C82.rounding_linear",
    "Vulture.C82.machine_bounded"
   ],
   "note": "The model computes in exact real arithmetic; this property bounds what single precision can do to it. Cavities as in C56 (SIMPLE media, no sheets, waves or Debye). The error of a whole step is measured, whatever its origin."
  },
  {
   "property": "C83",
   "status": "proved",
   "theorems": [
    "Vulture.C83.layer_ampere",
    "Vulture.C83.layer_faraday",
    "Vulture.C83.metal_behind",
    "Vulture.C83.stretch_factor",
    "Vulture.C83.reflection",
    "Vulture.C83.reflection_default",
    "Vulture.C83.manual_differs"
   ],
   "note": "In dispersive matter that continues into a layer the electric equation is not claimed (the layers ignore the poles). Half-cell samples of low layers continue the second cell of the mesh (C40). manual_differs: the manual's formulas have n_eff in the numerator, the program in the denominator (which is what the reflection requires); they agree only for n_eff = 1."
  },
  {
   "property": "C84",
   "status": "proved",
   "theorems": [
    "Vulture.C84.one_dimensional",
    "Vulture.C84.same_waves",
    "Vulture.C84.line_ampere",
    "Vulture.C84.line_faraday"
   ],
   "note": "Dispersive blocks, impedance sheets, plane-wave boxes and overwriting (=) sources are not covered."
  },
  {
   "property": "C85",
   "status": "proved",
   "theorems": [
    "Vulture.C85.copies_alike",
    "Vulture.C85.ends_alike",
    "Vulture.C85.uneven_seam"
   ],
   "note": "MUR and PML sides are not mixed in one model; dispersive blocks, impedance sheets, plane-wave boxes and overwriting (=) sources are not covered. The condition on the first and last cell is needed: uneven_seam."
  },
  {
   "property": "C86",
   "status": "proved",
   "theorems": [
    "Vulture.C86.two_dimensional",
    "Vulture.C86.thickness_free"
   ],
   "note": "MUR and PML sides are not mixed in one model; dispersive blocks, impedance sheets, plane-wave boxes and overwriting (=) sources are not covered."
  },
  {
   "property": "C87",
   "status": "proved",
   "theorems": [
    "Vulture.C87.energy_step",
    "Vulture.C87.energy_first",
    "Vulture.C87.energy_total",
    "Vulture.C87.silence_bounded",
    "Vulture.C87.lossless_conserved",
    "Vulture.C87.never_blows_up",
    "Vulture.C87.pulses_stay_bounded"
   ],
   "note": "Exact arithmetic. Dispersive blocks, impedance sheets, plane-wave boxes, overwriting sources and lumped sources in a conducting side are not covered; PML and MUR sides are open (C40, C81, C83)."
  },
  {
   "property": "C88",
   "status": "proved",
   "theorems": [
    "Vulture.C88.reciprocity",
    "Vulture.C88.exchange",
    "Vulture.C88.exchange_cards"
   ],
   "note": "Exact arithmetic. The waveform must not be zero in all steps (then both runs are trivial). C57 is the case of a box with conducting walls only; dispersive blocks, impedance sheets and plane-wave boxes are not covered here."
  },
  {
   "property": "C89",
   "status": "partial",
   "theorems": [
    "Vulture.C89.lines_read",
    "Vulture.C89.cut_short",
    "Vulture.C89.gaussian_same",
    "Vulture.C89.compact_same_partial",
    "Vulture.C89.compact_differs",
    "Vulture.C89.db10_is",
    "Vulture.C89.db20_is",
    "Vulture.C89.db_mono",
    "Vulture.C89.db_negative"
   ],
   "note": "Everything but the compact pulse before its delay is proved. There the script does not cut the pulse off: one width before the delay it is at its peak while the program's pulse is silent (compact_differs). Findings: the line reader does not notice a file cut short at a line end or after a line number (cut_short); db10 and db20 give the least value for every negative argument although they take an absolute value, after the clipping (db_negative)."
  },
  {
   "property": "C90",
   "status": "proved",
   "theorems": [
    "Vulture.C90.medium_passive",
    "Vulture.C90.energy_passive",
    "Vulture.C90.never_blows_up",
    "Vulture.C90.pulses_stay_bounded"
   ],
   "note": "The poles have to be passive one by one, because that is what is proved; the cards are not checked for it (C24.card_pole_unchecked), and a growing pole is accepted. Example: a metal box with a block of a medium with a Debye and a Lorentz pole. Impedance sheets and plane wave boxes are not covered."
  },
  {
   "property": "C91",
   "status": "proved",
   "theorems": [
    "Vulture.C91.energy_taken",
    "Vulture.C91.energy_bound",
    "Vulture.C91.takes"
   ],
   "note": "The energy of the media is a function of the history of the field on the edge (state of its poles); the theorem states that it exists with the stated properties. Example: the food of C90 in its oven. The energy in the fields of an open box need not be positive (its sides are shared)."
  },
  {
   "property": "C92",
   "status": "proved",
   "theorems": [
    "Vulture.C92.reciprocity",
    "Vulture.C92.exchange",
    "Vulture.C92.exchange_cards",
    "Vulture.C92.of_relaxing"
   ],
   "note": "No passivity is needed. Sources inside the dispersive media are excluded (C11: the block update acts on them). Example: a current in front of the food of C90 and behind it."
  },
  {
   "property": "C93",
   "status": "proved",
   "theorems": [
    "Vulture.C93.fading",
    "Vulture.C93.heat_finite",
    "Vulture.C93.mean_dies",
    "Vulture.C93.goes_dark",
    "Vulture.C93.becomes_static"
   ],
   "note": "Lossless models need not ring down: cavities (C57) ring for ever. Example: a metal cube filled with a conductor, driven by a pulse."
  },
  {
   "property": "C94",
   "status": "proved",
   "theorems": [
    "Vulture.C94.shows",
    "Vulture.C94.group_shows",
    "Vulture.C94.flat_wave_fails",
    "Vulture.C94.zero_step_fails",
    "Vulture.C94.cannot_export",
    "Vulture.C94.corner_lists",
    "Vulture.C94.file_requests"
   ],
   "note": "Coordinates exact (the digits of %e are not modelled); names of media, boundaries and wires are those on the cards, the number-to-name hashes are not modelled."
  },
  {
   "property": "C95",
   "status": "proved",
   "theorems": [
    "Vulture.C95.one_meaning",
    "Vulture.C95.option_read",
    "Vulture.C95.unknown",
    "Vulture.C95.mesh_name",
    "Vulture.C95.meaning",
    "Vulture.C95.stops",
    "Vulture.C95.no_name",
    "Vulture.C95.draws",
    "Vulture.C95.waves_drawn",
    "Vulture.C95.observers_drawn",
    "Vulture.C95.wave_arrows",
    "Vulture.C95.arrows_start",
    "Vulture.C95.script_plots",
    "Vulture.C95.script_fails",
    "Vulture.C95.runs",
    "Vulture.C95.runs_gmsh",
    "Vulture.C95.runs_gnuplot",
    "Vulture.C95.rejected",
    "Vulture.C95.azimuth_fails",
    "Vulture.C95.cannot_draw"
   ],
   "note": "Exact coordinates; digits and styles are not modelled. The name of the mesh file is not cut at 1024 characters. That a flat source in coordinates reads behind the mesh lines is C60."
  },
  {
   "property": "C96",
   "status": "proved",
   "theorems": [
    "Vulture.C96.located",
    "Vulture.C96.labelled",
    "Vulture.C96.line_count",
    "Vulture.C96.in_bounds",
    "Vulture.C96.sample_mark",
    "Vulture.C96.vacuum_and_metal",
    "Vulture.C96.dielectric",
    "Vulture.C96.lossy",
    "Vulture.C96.looks_metal",
    "Vulture.C96.magnetic",
    "Vulture.C96.magnetic_hidden",
    "Vulture.C96.step_le",
    "Vulture.C96.fine_meshes"
   ],
   "note": "Exact numbers; the build without scaled fields. That magnetic matter is hidden is the absolute tolerance in decodeGamma: gamma itself is below it."
  },
  {
   "property": "C97",
   "status": "proved",
   "theorems": [
    "Vulture.C97.one_meaning",
    "Vulture.C97.meaning",
    "Vulture.C97.stops",
    "Vulture.C97.unique",
    "Vulture.C97.runs_iff",
    "Vulture.C97.read_writes_nothing",
    "Vulture.C97.read_accepts",
    "Vulture.C97.read_rejects",
    "Vulture.C97.read_not_enough",
    "Vulture.C97.same_outcome",
    "Vulture.C97.dump_adds",
    "Vulture.C97.preprocess_empties",
    "Vulture.C97.preprocess_promises"
   ],
   "note": "vulture.log, process.dat and printing are left out. A -n without a value (a null pointer, C38) and meshes without DM or NT that pass the reader have no outcome in the model. With -p the spectra at probes are quotients of zeros and are left open."
  },
  {
   "property": "C98",
   "status": "proved",
   "theorems": [
    "Vulture.C98.fields_later",
    "Vulture.C98.probes_later",
    "Vulture.C98.transfer_later",
    "Vulture.C98.run_later",
    "Vulture.C98.builtin_causal",
    "Vulture.C98.table_causal"
   ],
   "note": "The hypothesis on waveforms is part of the property: a Gaussian is cut off at the start of the run, and with a longer delay less of it is. Observers without an OT window."
  },
  {
   "property": "C99",
   "status": "proved",
   "theorems": [
    "Vulture.C99.fields_before",
    "Vulture.C99.probes_before",
    "Vulture.C99.state_before",
    "Vulture.C99.table_looks_ahead"
   ],
   "note": "Plane waves on meshes that are not cubic, which take their waveform at many times at once, are left out; so are negative delays."
  },
  {
   "property": "C100",
   "status": "proved",
   "theorems": [
    "Vulture.C100.frequencies_select",
    "Vulture.C100.window_selects"
   ],
   "note": "Exact numbers. A list of one frequency divides by zero in the program (DESIGN, C33); the model's real division gives the start frequency there. With a window, spectra change (C33.window_mismatch)."
  },
  {
   "property": "C101",
   "status": "proved",
   "theorems": [
    "Vulture.C101.conducting",
    "Vulture.C101.magnetic",
    "Vulture.C101.periodic",
    "Vulture.C101.absorbing",
    "Vulture.C101.conducting_spectra",
    "Vulture.C101.magnetic_spectra",
    "Vulture.C101.periodic_spectra",
    "Vulture.C101.absorbing_spectra"
   ],
   "note": "Sides with layers are left out: beyond them lies the layer. On a MUR side sheets and plane waves are excluded, as those that reach the side do write there."
  }
 ]
}
{
 "claims": [
  {
   "property": "C01",
   "status": "proved",
   "theorems": [
    "Verif.Sort.compile_order_is_permutation",
    "Verif.Sort.compile_runs_each_pass_once"
   ],
   "note": ""
  },
  {
   "property": "C02",
   "status": "partial",
   "theorems": [
    "Verif.Sort.deps_run_first_partial",
    "Verif.Sort.cyclic_graph_accepted",
    "Verif.Sort.self_dependency_accepted"
   ],
   "note": "False in general: when no pass is without dependencies the sort starts with an arbitrary pass, so a graph without root pass and a self dependency are accepted (negations proved). Proved when some pass has no dependency."
  },
  {
   "property": "C03",
   "status": "partial",
   "theorems": [
    "Verif.Sort.compile_order_spec",
    "Verif.Sort.sort_fails_iff_no_order_partial",
    "Verif.Sort.no_root_no_order",
    "Verif.Sort.sortable_implies_sorted",
    "Verif.Sort.compile_errors"
   ],
   "note": "Completeness (a sortable graph is sorted) is proved in general; the converse only for graphs with a pass without dependencies (otherwise false, see C02)."
  },
  {
   "property": "C04",
   "status": "proved",
   "theorems": [
    "Verif.Groups.pass_ids_unique",
    "Verif.Groups.nth_pass_has_id_n"
   ],
   "note": ""
  },
  {
   "property": "C05",
   "status": "proved",
   "theorems": [
    "Verif.Groups.createPass_throws_iff",
    "Verif.Groups.createPass_throws_unchanged",
    "Verif.Groups.createPass_appends",
    "Verif.Groups.pass_names_unique"
   ],
   "note": ""
  },
  {
   "property": "C06",
   "status": "proved",
   "theorems": [
    "Verif.Groups.createPassGroup_existing",
    "Verif.Groups.createPassGroup_new",
    "Verif.Groups.createPassGroup_idempotent",
    "Verif.Groups.sibling_group_names_unique",
    "Verif.Groups.group_ids_unique"
   ],
   "note": ""
  },
  {
   "property": "C07",
   "status": "proved",
   "theorems": [
    "Verif.Groups.listPasses_complete",
    "Verif.Groups.created_pass_stays"
   ],
   "note": ""
  },
  {
   "property": "C08",
   "status": "partial",
   "theorems": [
    "Verif.set_then_get_sub",
    "Verif.set_then_get_disjoint",
    "Verif.set_then_get_disjoint_first_partial",
    "Verif.set_then_get_other_image",
    "Verif.view3D_partial_levels_stale"
   ],
   "note": "Read back proved for every range; the disjointness part holds for images already tracked; a query of an image never tracked changes answer only through the smallest-layout rule. False for 3D views of several levels (negation)."
  },
  {
   "property": "C09",
   "status": "proved",
   "theorems": [
    "Verif.get_unknown_is_undefined",
    "Verif.get_is_some_subresource",
    "Verif.get_uniform_layout"
   ],
   "note": ""
  },
  {
   "property": "C10",
   "status": "partial",
   "theorems": [
    "Verif.view3D_read_back_partial",
    "Verif.view3D_state_lost"
   ],
   "note": "False when the depth of a level shifts to 0 (negation proved); proved otherwise."
  },
  {
   "property": "C100",
   "status": "partial",
   "theorems": [
    "Verif.Rerec.rerecording_changes_nothing",
    "Verif.Rerec.rerecording_repeats_partial",
    "Verif.Rerec.rerecording_draws_partial",
    "Verif.Rerec.rerecording_idempotent",
    "Verif.Rerec.rerecorded_instances",
    "Verif.Rerec.library_blind",
    "Verif.Rerec.never_recorded",
    "Verif.Rerec.record_erase",
    "Verif.Rerec.example_repeats",
    "Verif.Rerec.example_repeats_what",
    "Verif.Rerec.example_draws",
    "Verif.Rerec.first_rerecording_differs"
   ],
   "note": "That re-recording changes nothing else, that it is idempotent, and that the command buffer is well formed are proved without condition. That it repeats the last recording is proved when each image the pass reads (and each target, for a pass that draws) was known to the tracker at that moment, or is a declared input, or the graph still remembers the same of it; without, it is false for the first recording of a graph (first_rerecording_differs). Callbacks are functions of the recording context and the graph's states; timestamps are C33's and C96's. Mipmap passes' own lookups are covered when the graph's states did not change in between."
  },
  {
   "property": "C101",
   "status": "partial",
   "theorems": [
    "Verif.Flight.objects_outlive_submissions",
    "Verif.Flight.objects_outlive_submissions_partial",
    "Verif.Flight.exProg_tidy",
    "Verif.Flight.exProg_destroys",
    "Verif.Flight.exNew_new",
    "Verif.Flight.reset_destroys_render_pass",
    "Verif.Flight.other_graph_destroys_pipeline",
    "Verif.Flight.rerecording_keeps_iff",
    "Verif.Flight.destroy_in_flight",
    "Verif.Flight.destroy_in_flight_frees"
   ],
   "note": "Without resetPipeline and destruction: proved for every program. With resetPipeline the unrestricted statement is false of the code (reset_destroys_render_pass, other_graph_destroys_pipeline: both destroy objects in flight), and is proved under the discipline of the statement. Whether a pass prepares its objects again is an input of the model (all answers are covered); user-drawn render passes and failing device calls are not in it. ~RunnableGraph doesn't wait, so a graph destroyed in flight frees what is in use (destroy_in_flight, destroy_in_flight_frees)."
  },
  {
   "property": "C102",
   "status": "partial",
   "theorems": [
    "Verif.Dot.passes_text_partial",
    "Verif.Dot.passes_read_partial",
    "Verif.Dot.transitions_text_partial",
    "Verif.Dot.transitions_read_partial",
    "Verif.Dot.sample_named",
    "Verif.Dot.quote_unreadable",
    "Verif.Dot.quote_misread",
    "Verif.Dot.backslash_unreadable",
    "Verif.Dot.newline_misread",
    "Verif.Dot.written_indented",
    "Verif.Dot.indented_zero",
    "Verif.Dot.indented_indented",
    "Verif.Dot.row_indented",
    "Verif.Dot.passes_streams_unindented",
    "Verif.Dot.transitions_streams_unindented"
   ],
   "note": "Proved for names that can be quoted; for other names it is false of the code (quote_unreadable, quote_misread, backslash_unreadable, newline_misread). The reader is a small DOT reader of Spec/DotText.lean. Streams that fail are not modelled. Indentation: what is written to a stream at the beginning of a line is moved right by its indentation, every line of it (written_indented), nested indentations add up, rows of nodes and edges are two columns further, and every stream of an export ends unindented; that the whole text has two columns per open block is not stated."
  },
  {
   "property": "C103",
   "status": "partial",
   "theorems": [
    "Verif.Logger.logger_never_stuck",
    "Verif.Logger.logger_ends",
    "Verif.Logger.mutex_free_in_callbacks",
    "Verif.Logger.disciplined_no_race_partial",
    "Verif.Logger.logging_only_no_race",
    "Verif.Logger.messages_delivered_partial",
    "Verif.Logger.alone_delivered",
    "Verif.Logger.delivered_unique",
    "Verif.Logger.default_text",
    "Verif.Logger.exProgs_disciplined",
    "Verif.Logger.exProgs_end",
    "Verif.Logger.set_races_with_log",
    "Verif.Logger.set_in_callback_races",
    "Verif.Logger.callback_called_twice_at_once",
    "Verif.Logger.lines_mixed"
   ],
   "note": "The mutex only covers the access to the instance, so the unrestricted statement is false: a callback set while another thread logs to its level, or from inside of itself, is replaced while it runs (set_races_with_log, set_in_callback_races). Proved without restriction: nobody is stuck, the mutex isn't held in callbacks, runs end when callbacks don't log; with one thread: delivery. With several: delivery and absence of races when each level whose callback is changed is used by one thread only. Callbacks are not called one at a time (callback_called_twice_at_once, lines_mixed)."
  },
  {
   "property": "C104",
   "status": "partial",
   "theorems": [
    "Verif.Names.fullName_child",
    "Verif.Names.fullName_exists",
    "Verif.Names.full_names_stable",
    "Verif.Names.group_full_names_identify_partial",
    "Verif.Names.pass_full_names_identify_partial",
    "Verif.Names.group_names_identify_partial",
    "Verif.Names.labels_identify",
    "Verif.Names.attachment_names_tell",
    "Verif.Names.attachment_names_start",
    "Verif.Names.attachment_names_identify_partial",
    "Verif.Names.slashes_confuse",
    "Verif.Names.twins_share_group_name",
    "Verif.Names.pass_and_group_share_name",
    "Verif.Names.plainNames"
   ],
   "note": "Identification by full name is proved for names without '/', by the name with the group only for distinct groups' names; slashes_confuse and twins_share_group_name show that it fails otherwise. Labels and names of attachments within a pass are identified without hypotheses on '/' in data names. Names are strings of characters, where the code has bytes."
  },
  {
   "property": "C105",
   "status": "proved",
   "theorems": [
    "Verif.Ind.buffers_never_misused",
    "Verif.Ind.buffers_are_owned",
    "Verif.Ind.buffers_all_deleted",
    "Verif.Ind.texts_as_alone",
    "Verif.Ind.exProg_ends",
    "Verif.Ind.shared_stream_misused",
    "Verif.Ind.shared_stream_leaks"
   ],
   "note": "For programs whose threads use streams of their own, as the property says; each locked function of the table is one step, and writing text to a stream is one. The end of the program (destruction of the table) and moved streams aren't modelled. shared_stream_misused and shared_stream_leaks show that sharing a stream breaks it."
  },
  {
   "property": "C106",
   "status": "partial",
   "theorems": [
    "Verif.Rainbow.rounding_is_single_precision",
    "Verif.Rainbow.nearest_unique",
    "Verif.Rainbow.incr_is_one_eightieth",
    "Verif.Rainbow.colours_vivid",
    "Verif.Rainbow.colour_same_iff",
    "Verif.Rainbow.neighbours_apart",
    "Verif.Rainbow.end_of_round_alike",
    "Verif.Rainbow.blocks_coloured",
    "Verif.Rainbow.blocks_of_each_recording",
    "Verif.Rainbow.process_colours_vivid",
    "Verif.Rainbow.frame_colours_distinct",
    "Verif.Rainbow.recorded_graph_colours",
    "Verif.Rainbow.recorded_again_recoloured"
   ],
   "note": "All but the last sentence, which is false: recorded again, a pass has another colour, unless the number of blocks of the frame is a multiple of 81 (recorded_again_recoloured). IEEE single precision with each operation rounded (no fused or wider arithmetic); the static variable is taken to be used by one thread at a time, which nothing in the code ensures."
  },
  {
   "property": "C11",
   "status": "proved",
   "theorems": [
    "Verif.Tables.context_import_images",
    "Verif.Tables.dependency_states",
    "Verif.Tables.dependency_states_in_frame",
    "Verif.import_keeps_known",
    "Verif.import_first_wins",
    "Verif.Gpu.import_buffers",
    "Verif.Gpu.import_buffers_first_wins",
    "Verif.Gpu.import_previous_state"
   ],
   "note": ""
  },
  {
   "property": "C12",
   "status": "partial",
   "theorems": [
    "Verif.Gpu.barrier_frame",
    "Verif.Gpu.barrier_recorded_tracked",
    "Verif.Gpu.barrier_tracks_wanted_partial",
    "Verif.Gpu.barrier_mixed_range_left_behind",
    "Verif.Gpu.barrier_untracked_not_remembered",
    "Verif.Gpu.gpu_in_wanted_layout_partial"
   ],
   "note": "False for ranges tracked in mixed layouts and for untracked images whose initial layout equals the wanted one (negations); proved otherwise."
  },
  {
   "property": "C13",
   "status": "proved",
   "theorems": [
    "Verif.Tables.aspect_mask_table",
    "Verif.Tables.barrier_range_table",
    "Verif.Gpu.barrier_recorded_iff_tracked",
    "Verif.Gpu.barrier_recorded_iff_untracked",
    "Verif.Gpu.barrier_shape"
   ],
   "note": ""
  },
  {
   "property": "C14",
   "status": "partial",
   "theorems": [
    "Verif.Gpu.tracker_mirrors_gpu",
    "Verif.Gpu.barriers_valid_partial",
    "Verif.Gpu.mixed_range_barrier_invalid",
    "Verif.Gpu.separate_aspects_barrier_invalid",
    "Verif.Gpu.history_valid_partial",
    "Verif.Run.graph_stream_valid_partial",
    "Verif.Run.executions_valid_partial"
   ],
   "note": "False for ranges whose subresources are in different layouts and for separate aspects (negations); proved for histories over non-conflicting views, including whole graph executions."
  },
  {
   "property": "C15",
   "status": "partial",
   "theorems": [
    "Verif.Gpu.buffer_barrier_recorded_iff",
    "Verif.Gpu.sourceState_exists",
    "Verif.Gpu.buffer_barrier_frame",
    "Verif.Gpu.buffer_last_wanted_partial",
    "Verif.Gpu.buffer_untracked_not_remembered"
   ],
   "note": "The decision and frame parts are proved for all inputs; 'afterwards tracked in the wanted state' is false when the initial state equals the wanted one and nothing is tracked (negation)."
  },
  {
   "property": "C16",
   "status": "partial",
   "theorems": [
    "Verif.Tables.buffer_access_table",
    "Verif.Tables.buffer_stage_table",
    "Verif.Run.entered_is_given",
    "Verif.Gpu.buffer_ranges_confused",
    "Verif.Run.buffer_use_separated_partial",
    "Verif.Run.followed_adders",
    "Verif.Run.storage_output_wants_write",
    "Verif.Run.example_separated",
    "Verif.Run.buffer_inout_not_separated",
    "Verif.Run.uniform_read_not_separated",
    "Verif.Run.image_general_not_separated",
    "Verif.Run.image_write_not_made_available"
   ],
   "note": "False for storage images, uniform buffers and consecutive in-out storage buffers (negations); proved for guarded buffers wanted in different states."
  },
  {
   "property": "C17",
   "status": "proved",
   "theorems": [
    "Verif.Run.substitute_runs_once",
    "Verif.Run.example_substitute",
    "Verif.Gpu.use_without_pending",
    "Verif.Gpu.use_enabled_drops",
    "Verif.Gpu.use_disabled_runs",
    "Verif.Gpu.use_keeps_order",
    "Verif.Gpu.implicit_at_most_once",
    "Verif.Gpu.second_registration_waits"
   ],
   "note": ""
  },
  {
   "property": "C18",
   "status": "partial",
   "theorems": [
    "Verif.Run.entered_is_given",
    "Verif.Run.record_runs_enabled",
    "Verif.Run.pipeline_states_partial",
    "Verif.Run.dependency_state_lost",
    "Verif.Run.previous_state_after_disabled"
   ],
   "note": "Current and next states proved; the previous state is the one of the preceding pass whether or not it is enabled, and the one imported from dependencies is lost (negations)."
  },
  {
   "property": "C19",
   "status": "partial",
   "theorems": [
    "Verif.Run.entered_is_given",
    "Verif.Run.record_runs_enabled",
    "Verif.Run.announced_is_wanted",
    "Verif.Run.announced_next_partial",
    "Verif.Run.announced_nothing",
    "Verif.Run.told_next_partial",
    "Verif.Run.told_output",
    "Verif.Run.example_told",
    "Verif.Run.second_shared_image_not_announced",
    "Verif.Run.other_level_hides_next_user"
   ],
   "note": "Whatever is announced is right; that something is announced is false for a second shared image and for partly shared images (negations)."
  },
  {
   "property": "C20",
   "status": "proved",
   "theorems": [
    "Verif.Run.next_lookup",
    "Verif.Run.current_lookup",
    "Verif.Run.current_lookup_remembers",
    "Verif.Run.current_lookup_stable"
   ],
   "note": ""
  },
  {
   "property": "C21",
   "status": "partial",
   "theorems": [
    "Verif.Deps.matchView_iff",
    "Verif.Deps.dependsOn_terminates",
    "Verif.Deps.view_dependency_exact_partial",
    "Verif.Deps.buffer_dependency_exact_partial",
    "Verif.Deps.stores_is_writes",
    "Verif.Deps.chain_ok",
    "Verif.Deps.cyclic_answer_depends_on_history",
    "Verif.Deps.merged_writer_not_seen",
    "Verif.Deps.buffer_writers_confused",
    "Verif.Deps.buffer_answer_confused"
   ],
   "note": "Exact for plain (unmerged) views on acyclic pass declarations, for any history of questions; for buffers used only as output storage buffers whose handles differ in their low 32 bits; termination for all inputs. False for merged views, buffers with equal low handle bits, cyclic declarations (negations)."
  },
  {
   "property": "C22",
   "status": "partial",
   "theorems": [
    "Verif.Deps.view_keys_distinct",
    "Verif.Deps.buffer_keys_distinct_partial",
    "Verif.Deps.buffer_keys_low",
    "Verif.Deps.buffer_key_pass",
    "Verif.Deps.buffer_keys_collide"
   ],
   "note": "View keys never collide for 32-bit ids; buffer keys collide when the handles agree on their low 32 bits (negation)."
  },
  {
   "property": "C23",
   "status": "partial",
   "theorems": [
    "Verif.Deps.overlap_iff_partial",
    "Verif.Deps.overlap_missed",
    "Verif.Deps.overlap_invented",
    "Verif.Deps.covers_iff"
   ],
   "note": "Exact when the layer counts agree; otherwise false both ways (negations): areIntersecting passes lhs.layerCount twice."
  },
  {
   "property": "C24",
   "status": "proved",
   "theorems": [
    "Verif.Deps.view_transitions_distinct",
    "Verif.Deps.buffer_transitions_distinct"
   ],
   "note": ""
  },
  {
   "property": "C25",
   "status": "partial",
   "theorems": [
    "Verif.Deps.graph_connected",
    "Verif.Deps.graph_acyclic",
    "Verif.Deps.graph_rooted",
    "Verif.Deps.edge_carries_data_partial",
    "Verif.Deps.chain_wellFormed"
   ],
   "note": "Rooted, connected, acyclic, successors listed once: for all graphs, merged views included. That an edge carries data from writer to reader: unmerged views; for buffers the dependency is a declared one, maybe not through the buffer (cache keys collide, C22)."
  },
  {
   "property": "C26",
   "status": "partial",
   "theorems": [
    "Verif.Merge.merged_is_bounding_box",
    "Verif.Merge.merged_covers_partial",
    "Verif.Merge.merged_type_holds_partial",
    "Verif.Merge.merged_2d_type",
    "Verif.Merge.merged_cubes_hold_partial",
    "Verif.Merge.unmerged_levels_dropped",
    "Verif.Merge.remaining_levels_lost",
    "Verif.Merge.unmerged_cube_invalid"
   ],
   "note": "Bounding box and cover proved for explicit ranges merged in the asked direction; false when a direction isn't merged but differs, for VK_REMAINING counts, and for cube views whose layers aren't merged (negations)."
  },
  {
   "property": "C27",
   "status": "partial",
   "theorems": [
    "Verif.Res.image_ids_fresh",
    "Verif.Res.view_ids_iff",
    "Verif.Res.image_id_resolves",
    "Verif.Res.view_id_resolves_partial",
    "Verif.Res.view_components_lost"
   ],
   "note": "For fewer than 2^32 calls. A view's component mapping and sources are not part of the comparison: a second view that differs only by them resolves to the first one's (negation)."
  },
  {
   "property": "C28",
   "status": "partial",
   "theorems": [
    "Verif.Res.destroyed_once",
    "Verif.Res.never_destroyed_twice",
    "Verif.Res.repeated_creation_same",
    "Verif.Res.all_closed_nothing_left_partial",
    "Verif.Res.explicit_destroy",
    "Verif.Res.foreign_destroy_ignored",
    "Verif.Res.view_first_leaks",
    "Verif.Res.closing_destroys_foreign_image"
   ],
   "note": "Destruction at most once and same live handle: every history. Nothing left at the end: when images are requested before their views; otherwise the image leaks (negation). A cache can destroy an image another cache re-created (negation)."
  },
  {
   "property": "C29",
   "status": "partial",
   "theorems": [
    "Verif.Res.quad_buffers_same_iff",
    "Verif.Res.cached_destroyed_once",
    "Verif.Res.sampler_same_partial",
    "Verif.Res.sampler_confused"
   ],
   "note": "Quad buffers: proved. Samplers: cached by a 64-bit hash of more than 64 bits of data, hence confused for some descriptions (negation, by pigeonhole)."
  },
  {
   "property": "C30",
   "status": "partial",
   "theorems": [
    "Verif.Sig.emission_calls_each_once",
    "Verif.Sig.emissions_call_connected_partial",
    "Verif.Sig.valid_iff_connected_partial",
    "Verif.Sig.connect_first_correct",
    "Verif.Sig.signal_end_invalidates",
    "Verif.Sig.reconnect_lost",
    "Verif.Sig.reassign_lost",
    "Verif.Sig.disconnecting_later_calls_twice",
    "Verif.Sig.disconnecting_two_undefined",
    "Verif.Sig.connecting_never_ends"
   ],
   "note": "Proved for programs whose new connection number is free (in particular when all connections are made before the first disconnection), slots disconnecting themselves during an emission included. False after disconnecting an earlier slot and connecting again (the new connection is lost), and for callbacks touching other connections (negations)."
  },
  {
   "property": "C31",
   "status": "partial",
   "theorems": [
    "Verif.Sync.fences_respected_partial",
    "Verif.Sync.plain_programs_respect_fences",
    "Verif.Sync.example_disciplined",
    "Verif.Sync.reset_after_timeout",
    "Verif.Sync.wait_after_reset_hangs"
   ],
   "note": "Any number of graphs, any interleaving with the GPU: proved for all programs of run/record/wait/push, and with user resets and submissions that follow the protocol `Disciplined`. False for a user reset after a wait that timed out, and a user reset without submission makes the next record hang (negations)."
  },
  {
   "property": "C32",
   "status": "proved",
   "theorems": [
    "Verif.Run.convert_spec"
   ],
   "note": ""
  },
  {
   "property": "C33",
   "status": "proved",
   "theorems": [
    "Verif.Timer.queries_disjoint_in_pool",
    "Verif.Timer.poolSize_word",
    "Verif.Timer.example_timers"
   ],
   "note": "For at most 2^30 - 2 passes (32-bit offsets)."
  },
  {
   "property": "C34",
   "status": "partial",
   "theorems": [
    "Verif.Timer.reads_iff_recorded_and_notified",
    "Verif.Timer.example_reads",
    "Verif.Timer.reads_submitted_partial",
    "Verif.Timer.example_uses",
    "Verif.Timer.read_hangs"
   ],
   "note": "Exact characterisation of reads in terms of endPass/notify calls for every history. That the queries were submitted: when isEnabled() does not change during a run; otherwise the read waits for ever (negation)."
  },
  {
   "property": "C35",
   "status": "proved",
   "theorems": [
    "Verif.Pipe.pool_sizes_exact",
    "Verif.Pipe.objects_valid",
    "Verif.Pipe.bound_as_configured",
    "Verif.Pipe.exOps_compute",
    "Verif.Pipe.exOps_render",
    "Verif.Pipe.early_reset_invalid",
    "Verif.Pipe.same_binding_invalid"
   ],
   "note": "For bindings with distinct numbers, fewer than 2^32 descriptors, and resetPipeline not before the first recording (negations show these are needed)."
  },
  {
   "property": "C36",
   "status": "partial",
   "theorems": [
    "Verif.Tables.image_stage_table",
    "Verif.Tables.image_access_table",
    "Verif.Tables.buffer_stage_table",
    "Verif.Tables.buffer_access_table",
    "Verif.Att.image_direction",
    "Verif.Att.buffer_direction",
    "Verif.Att.image_access_matches",
    "Verif.Att.buffer_access_matches",
    "Verif.Att.image_layout_allows_partial",
    "Verif.Att.transfer_inout_layout_wrong",
    "Verif.Att.implicit_attachment",
    "Verif.Att.layout_masks_agree",
    "Verif.Att.layout_masks_cover",
    "Verif.Att.sampled_in_compute_stage_wrong",
    "Verif.Att.separate_layout_masks_empty",
    "Verif.Att.layout_follows_direction",
    "Verif.Att.flags_are_bits",
    "Verif.Att.implicit_direction",
    "Verif.Att.image_fields",
    "Verif.Att.buffer_fields",
    "Verif.Att.pipeline_state_omits_shader_write",
    "Verif.Att.pipeline_state_covers"
   ],
   "note": "False for in-out transfer images (layout TRANSFER_DST but read), separate depth/stencil layouts, sampled views in compute passes (negations)."
  },
  {
   "property": "C37",
   "status": "partial",
   "theorems": [
    "Verif.RPass.reuse_fits_tracked",
    "Verif.RPass.reuse_begins_invalid",
    "Verif.RPass.reuse_ignores_final",
    "Verif.RPass.reuse_clears_again"
   ],
   "note": "A kept render pass starts in the layout, access and stages tracked for every target the recording tracks, between the same pipeline states (proved). False for targets the recording tracks nothing of (it is begun from a wrong layout), for the final layouts (not compared) and for load operations (an accumulated target is cleared in every frame): negations on complete frames."
  },
  {
   "property": "C38",
   "status": "partial",
   "theorems": [
    "Verif.Mip.mipmaps_generated_partial",
    "Verif.Mip.mipmaps_work",
    "Verif.Mip.example_good",
    "Verif.Mip.example_work",
    "Verif.Mip.one_level_left_behind",
    "Verif.Mip.remaining_layers_overrun"
   ],
   "note": "The blits: proved for every image and state (mipmaps_work). The layouts: proved for every image with at least two levels, not 3D, whose first level is tracked when the pass records. False for a single level (left in TRANSFER_SRC) and for VK_REMAINING_ARRAY_LAYERS (negations)."
  },
  {
   "property": "C39",
   "status": "proved",
   "theorems": [
    "Verif.Ctx.deduces_lowest_suitable",
    "Verif.Ctx.example_deduce"
   ],
   "note": ""
  },
  {
   "property": "C40",
   "status": "partial",
   "theorems": [
    "Verif.Ctx.dispatch_configured_partial",
    "Verif.Ctx.dispatch_exact",
    "Verif.Ctx.dispatch_wrong",
    "Verif.Ctx.dispatch_undefined"
   ],
   "note": "False with callbacks for Y or Z: the callback of X is called (negations); dispatch_exact gives what is dispatched for every configuration."
  },
  {
   "property": "C41",
   "status": "proved",
   "theorems": [
    "Verif.Run.aligned_size_least",
    "Verif.Run.aligned_size_word",
    "Verif.Run.aligned_size_wraps"
   ],
   "note": "aligned_size_wraps: the 64-bit computation wraps within `align` of 2^64 (outside the hypothesis of aligned_size_word)."
  },
  {
   "property": "C42",
   "status": "partial",
   "theorems": [
    "Verif.Ctx.report_exact_partial",
    "Verif.Ctx.example_history",
    "Verif.Ctx.same_value_forgotten",
    "Verif.Ctx.null_never_removed"
   ],
   "note": "Proved for distinct non-null handle values; objects of different types sharing a handle value are confused (negation)."
  },
  {
   "property": "C43",
   "status": "partial",
   "theorems": [
    "Verif.Sync.destroyed_in_order",
    "Verif.Sync.run_destroys_all",
    "Verif.Sync.destruction_safe_partial",
    "Verif.Sync.destruction_safe_single_partial",
    "Verif.Sync.example_schedule_ok",
    "Verif.Sync.scheduled_after_last_run_never",
    "Verif.Sync.other_graph_destroys",
    "Verif.Sync.destroyed_before_submission"
   ],
   "note": "In order, once each, all done at the next run: proved for every program. Only after the fence: proved when graphs run one at a time; false with two graphs in flight (the queue is shared), for objects scheduled while recording that recorded commands use, and nothing executes what is scheduled after the last run (negations)."
  },
  {
   "property": "C44",
   "status": "proved",
   "theorems": [
    "Verif.Run.initialised_once_before_use",
    "Verif.Run.disabled_pass_records_nothing"
   ],
   "note": ""
  },
  {
   "property": "C45",
   "status": "partial",
   "theorems": [
    "Verif.Gpu.blit_region_partial",
    "Verif.Gpu.blit_region_wrong"
   ],
   "note": "False when an offset is not zero: the second corner recorded is the extent (negation)."
  },
  {
   "property": "C46",
   "status": "partial",
   "theorems": [
    "Verif.Tables.clears_right",
    "Verif.Gpu.history_valid_partial",
    "Verif.Gpu.copy_leaves_final",
    "Verif.Gpu.good_history"
   ],
   "note": "For histories over non-conflicting views with local actions."
  },
  {
   "property": "C47",
   "status": "partial",
   "theorems": [
    "Verif.Run.promised_layouts_ready_partial",
    "Verif.Run.adders_prepared",
    "Verif.Run.noTransition_left_alone",
    "Verif.Tables.declared_images_ready_partial",
    "Verif.Run.entered_is_given",
    "Verif.Run.passes_start_ready_partial",
    "Verif.Run.graph_stream_valid_partial",
    "Verif.Run.executions_valid_partial",
    "Verif.Run.example_tidy",
    "Verif.Run.example_honest"
   ],
   "note": "For graphs of non-conflicting views (TidyGraph) and truthful declared inputs."
  },
  {
   "property": "C48",
   "status": "partial",
   "theorems": [
    "Verif.Run.unused_execution_forgets",
    "Verif.Run.remembered_once_partial"
   ],
   "note": "False: an execution that doesn't use the image forgets it (negation); proved for the next execution."
  },
  {
   "property": "C49",
   "status": "partial",
   "theorems": [
    "Verif.Run.clear_records_fill",
    "Verif.Run.clear_covers_partial",
    "Verif.Run.clear_misses_bytes"
   ],
   "note": "False when the offset isn't a multiple of 4 (negation)."
  },
  {
   "property": "C50",
   "status": "partial",
   "theorems": [
    "Verif.Deps.data_dependency_is_edge_partial",
    "Verif.Deps.partial_write_no_edge",
    "Verif.Deps.merged_view_no_edge",
    "Verif.Deps.buffer_dependency_is_edge_partial",
    "Verif.Deps.adders_fill_take",
    "Verif.Deps.bufferChain_ok",
    "Verif.Deps.copied_buffer_no_edge",
    "Verif.Deps.second_reader_no_edge"
   ],
   "note": "Proved when the reader's view is the writer's, or a single mip level of it; false of other overlapping views and of merged views (negations). Buffers: proved for buffers filled as storage whose handles differ in their low 32 bits, through passes that don't use them as storage; false of buffers filled by transfers and of a second reader (negations)."
  },
  {
   "property": "C51",
   "status": "partial",
   "theorems": [
    "Verif.Deps.connected_attachments_reported_partial",
    "Verif.Deps.outer_attachments_reported_partial",
    "Verif.Deps.outer_buffers_reported_partial",
    "Verif.Deps.remaining_transition_lost"
   ],
   "note": "Proved for an output and the input that depends on it for the same view (or one level of it), and, merged views included, for attachments of passes that read nothing written by their dependencies, when the view is not both read and written in the graph. False otherwise (negation): the transition of an attachment without writer is lost when its pass also reads from another pass."
  },
  {
   "property": "C52",
   "status": "partial",
   "theorems": [
    "Verif.Res.quad_texcoords_plain",
    "Verif.Res.quad_texcoords_inverted"
   ],
   "note": "Holds without inversion; with an inversion the coordinate is off by exactly 1 (quad_texcoords_inverted gives the exact values)."
  },
  {
   "property": "C53",
   "status": "partial",
   "theorems": [
    "Verif.Mip.output_layout_partial",
    "Verif.Mip.output_layout_ignored",
    "Verif.Mip.example_announced"
   ],
   "note": "The parameter is stored and never used: true only when it equals the layout the graph announces, false otherwise (negation)."
  },
  {
   "property": "C54",
   "status": "proved",
   "theorems": [
    "Verif.Pipe.bound_as_configured",
    "Verif.Pipe.exOps_compute",
    "Verif.Pipe.exOps_render"
   ],
   "note": ""
  },
  {
   "property": "C55",
   "status": "partial",
   "theorems": [
    "Verif.Pipe.nothing_left_partial",
    "Verif.Pipe.exOps_compute",
    "Verif.Pipe.exOps_render",
    "Verif.Pipe.compute_pipeline_leaks"
   ],
   "note": "Proved for quad and mesh passes, and for compute passes whose slots are prepared once; a compute pass with one program recorded for several indices leaks pipelines (negation)."
  },
  {
   "property": "C56",
   "status": "partial",
   "theorems": [
    "Verif.Pipe.bound_as_configured",
    "Verif.Pipe.exOps_compute",
    "Verif.Pipe.exOps_render",
    "Verif.Pipe.reset_ignored_with_creator"
   ],
   "note": "With a program creator the pipeline always comes from the creator: a program given to resetPipeline is ignored (negation)."
  },
  {
   "property": "C57",
   "status": "proved",
   "theorems": [
    "Verif.Pipe.never_undefined",
    "Verif.Pipe.exOps_compute",
    "Verif.Pipe.exOps_render"
   ],
   "note": ""
  },
  {
   "property": "C58",
   "status": "proved",
   "theorems": [
    "Verif.RPass.parts_correspond",
    "Verif.RPass.depth_then_stencil_loses_depth"
   ],
   "note": "For passes whose attachments ask for a layout and select at least one subresource. With several depth/stencil attachments only the last is referenced by the subpass, as `Corresponds` says."
  },
  {
   "property": "C59",
   "status": "proved",
   "theorems": [
    "Verif.RPass.targets_are_attachments"
   ],
   "note": "For transfer attachments without extra flags."
  },
  {
   "property": "C60",
   "status": "partial",
   "theorems": [
    "Verif.RPass.render_instance_partial",
    "Verif.RPass.stencil_load_invalid",
    "Verif.RPass.reuse_begins_invalid"
   ],
   "note": "Proved when a reused object fits the images the recording doesn't track (see C37) and a loaded stencil is known; false otherwise (negations)."
  },
  {
   "property": "C61",
   "status": "partial",
   "theorems": [
    "Verif.RPass.graph_with_render_passes_valid_partial",
    "Verif.RPass.aPasses_tidy",
    "Verif.RPass.drawing_renders",
    "Verif.RPass.reuse_begins_invalid",
    "Verif.RPass.stencil_load_invalid"
   ],
   "note": "As C60, for whole frames of tidy graphs."
  },
  {
   "property": "C62",
   "status": "partial",
   "theorems": [
    "Verif.RPass.area_fits_partial",
    "Verif.RPass.area_exceeds_smaller",
    "Verif.RPass.area_of_last_level"
   ],
   "note": "Proved when all targets have one size, at least the configured one; otherwise the area is the largest (negation), and the extent of a level is computed without the minimum 1 (negation)."
  },
  {
   "property": "C63",
   "status": "partial",
   "theorems": [
    "Verif.Xfer.image_copy_contents_partial",
    "Verif.Xfer.image_copy_pass_contents_partial",
    "Verif.Xfer.buffer_copy_contents",
    "Verif.Xfer.buffer_to_image_contents_partial",
    "Verif.Xfer.image_to_buffer_contents_partial",
    "Verif.Xfer.blit_pass_region_partial",
    "Verif.Xfer.copy_skips_levels",
    "Verif.Xfer.buffer_offset_ignored",
    "Verif.Xfer.buffer_offset_overwrites",
    "Verif.Xfer.example_copy"
   ],
   "note": "Buffer copies: proved. Image copies: the first level of each view; the other levels are never copied (negation). Copies between buffers and images ignore the offset of the declared buffer range (negations). Blits: the rectangles are the configured ones exactly when the offsets are zero."
  },
  {
   "property": "C64",
   "status": "partial",
   "theorems": [
    "Verif.Lib.library_graph_valid_partial",
    "Verif.Lib.library_executions_valid_partial",
    "Verif.Lib.example_library",
    "Verif.Lib.example_well",
    "Verif.Lib.example_frames",
    "Verif.Xfer.inout_source_invalid",
    "Verif.Xfer.transfer_inout_layout"
   ],
   "note": "For tidy graphs, sources declared as transfer inputs and destinations as outputs, mipmaps of views over all the (at least two) levels with no transfer layout announced, render pass objects as in C60. A source declared in-out makes the copy invalid (negation)."
  },
  {
   "property": "C65",
   "status": "partial",
   "theorems": [
    "Verif.Lib.image_copy_final_layout_partial"
   ],
   "note": "In the graphs of C64."
  },
  {
   "property": "C66",
   "status": "proved",
   "theorems": [
    "Verif.Run.record_runs_enabled",
    "Verif.Run.entered_is_given"
   ],
   "note": ""
  },
  {
   "property": "C67",
   "status": "partial",
   "theorems": [
    "Verif.Gpu.substitute_copy_contents_partial",
    "Verif.Gpu.substitute_copy_ready_partial",
    "Verif.Gpu.substitute_clear_contents",
    "Verif.Gpu.substitute_blit_contents_partial",
    "Verif.Gpu.substitute_copy_discards_source",
    "Verif.Gpu.substitute_copies_one_layer",
    "Verif.Gpu.example_substitute_copy",
    "Verif.Gpu.example_substitute_clear"
   ],
   "note": "Clears: proved. Copies and blits: the first layer and level only (negation), from a source the recording already tracks; a source known only from the graph's inputs is discarded before it is copied (negation)."
  },
  {
   "property": "C68",
   "status": "partial",
   "theorems": [
    "Verif.RPass.targets_cleared_partial",
    "Verif.RPass.targets_stored",
    "Verif.RPass.drawing_contents_partial",
    "Verif.RPass.declared_contents",
    "Verif.RPass.example_cleared",
    "Verif.RPass.unknown_input_cleared",
    "Verif.RPass.depth_only_loses_stencil",
    "Verif.RPass.input_target_lost",
    "Verif.RPass.example_prepared",
    "Verif.RPass.reuse_clears_again",
    "Verif.Gpu.prepared_contents"
   ],
   "note": "In the render area, when it is within the targets. Storage images: proved when no substitute is pending for the images. A loaded target no layout is known of is cleared, drawing over depth only loses the stencil, a target declared as input only is lost when the pass ends, and a reused render pass clears again (negations)."
  },
  {
   "property": "C69",
   "status": "partial",
   "theorems": [
    "Verif.Run.tracked_never_discarded_partial",
    "Verif.Run.used_images_kept_partial",
    "Verif.Run.drawn_images_kept_partial",
    "Verif.Run.example_used_kept",
    "Verif.Run.example_drawn_kept",
    "Verif.Gpu.substitute_copy_discards_source",
    "Verif.RPass.input_target_lost"
   ],
   "note": "For graphs whose views are not 3D, with bodies that use the recording context or are those of the library's passes. From the first use of the image in the frame on: before it, what a substitute reads from an image known only from previous executions is discarded (negation). A target declared as input only is not stored (negation), and counts as lost in the theorems."
  },
  {
   "property": "C70",
   "status": "partial",
   "theorems": [
    "Verif.RPass.drawing_ordered_partial",
    "Verif.RPass.next_waits_partial",
    "Verif.RPass.drawing_waits",
    "Verif.RPass.library_keeps_pipeline",
    "Verif.RPass.sampled_by_drawing_unordered",
    "Verif.RPass.later_reader_unordered",
    "Verif.RPass.depth_unordered",
    "Verif.RPass.example_ordered"
   ],
   "note": "Proved for colour targets and the passes just before and next: the dependencies are exactly those of their declared states. False for a drawing pass sampling what was drawn in its fragment shader, for readers after the next pass, and for depth and stencil targets (negations): these wait for nothing."
  },
  {
   "property": "C71",
   "status": "partial",
   "theorems": [
    "Verif.Draw.bound_pipeline_fits",
    "Verif.Draw.blends_declared",
    "Verif.Draw.one_index_exact",
    "Verif.Draw.quad_index_exact",
    "Verif.Draw.created_with_live",
    "Verif.Draw.uses_legal",
    "Verif.Draw.uses_exact",
    "Verif.Draw.formats_mixed",
    "Verif.Draw.dependencies_mixed",
    "Verif.Draw.mesh_index_mixed",
    "Verif.Draw.quad_reset_mixed"
   ],
   "note": "Exactly the render pass begun: proved for passes used with one index, and for quad passes with a program per index when resets are for the index recorded last. Always: one with the same target formats and states if each attachment has one format. False otherwise: with several indices the pipeline made for another index is bound (other formats, other dependencies: negations)."
  },
  {
   "property": "C72",
   "status": "partial",
   "theorems": [
    "Verif.Draw.area_covered_iff",
    "Verif.Draw.viewport_configured",
    "Verif.Draw.no_size_draws_nothing",
    "Verif.Draw.coverage_examples"
   ],
   "note": "Exactly when the configured position is the origin and no target is larger than the configured size, after any use; the viewport has the configured size (0x0 if none is configured), not that of the render area (negation)."
  },
  {
   "property": "C73",
   "status": "partial",
   "theorems": [
    "Verif.DrawCmd.quad_draws",
    "Verif.DrawCmd.quad_draws_indirect",
    "Verif.DrawCmd.quad_covers_viewport",
    "Verif.DrawCmd.quad_defaults",
    "Verif.DrawCmd.mesh_draws",
    "Verif.DrawCmd.mesh_draws_indexed_partial",
    "Verif.DrawCmd.mesh_draws_indirect",
    "Verif.DrawCmd.mesh_without_vertices",
    "Verif.DrawCmd.primitive_count_is_index_count",
    "Verif.DrawCmd.example_draws"
   ],
   "note": "Proved except for indexed meshes: the number of primitives is used as a number of indices, so a third of the triangles is drawn (negation)."
  },
  {
   "property": "C74",
   "status": "partial",
   "theorems": [
    "Verif.RPass.unchanged_kept_iff",
    "Verif.RPass.written_tracked_rebuilt",
    "Verif.RPass.drawn_then_sampled_kept",
    "Verif.RPass.sampled_then_drawn_rebuilt"
   ],
   "note": "For tidy graphs: exactly when the recording tracks no layout of the targets the pass only writes. A pass drawing over an image an earlier pass samples makes an identical render pass in every recording (negation)."
  },
  {
   "property": "C75",
   "status": "partial",
   "theorems": [
    "Verif.Settle.settles_partial",
    "Verif.Settle.repeats_exist",
    "Verif.Settle.record_again",
    "Verif.Settle.first_may_differ"
   ],
   "note": "For tidy graphs, starting with no render pass object, whose passes use the recording context, draw with a render pass of their own, transfer (the library's copies and blits), or generate mipmaps (2D, of whole images, told a layout that is neither undefined nor a transfer layout)."
  },
  {
   "property": "C76",
   "status": "partial",
   "theorems": [
    "Verif.Life.never_destroys_twice",
    "Verif.Life.misuse_meaning",
    "Verif.Life.objects_belong_to_graphs",
    "Verif.Life.all_destroyed_nothing_left",
    "Verif.Life.destroyed_graph_leaves_nothing",
    "Verif.Life.refused_graph_leaves_partial",
    "Verif.Life.refused_pass_leaves_nothing",
    "Verif.Life.refused_graph_loses_semaphore"
   ],
   "note": "Destroyed exactly once, and nothing left, for every history (nothing left: with views of images of the same graph). A refused construction leaves nothing only if one of the first four objects was refused; otherwise it leaves the graph's semaphore (for ever: refused_graph_loses_semaphore) and at most one image and its memory: the last part of the property is false."
  },
  {
   "property": "C77",
   "status": "partial",
   "theorems": [
    "Verif.Life.accepted_image_is_made_partial",
    "Verif.Life.refused_image_is_never_made",
    "Verif.Life.refused_sampler_is_null",
    "Verif.Life.refused_quad_is_null",
    "Verif.Life.refused_quad_loses_buffer",
    "Verif.Life.cache_closed_leaves_nothing"
   ],
   "note": "Only for what was never refused; once refused, an image or a sampler stays null and a quad's vertex buffer is a null pointer that is dereferenced (negations, for every later history)."
  },
  {
   "property": "C78",
   "status": "partial",
   "theorems": [
    "Verif.Deps.outer_images_directed_partial",
    "Verif.Deps.outer_buffers_directed_partial",
    "Verif.Deps.outer_input_reported_as_output",
    "Verif.Deps.example_directions"
   ],
   "note": "Proved for buffers, sampled images, colour attachments and whatever is only written, of passes that read nothing written by their dependencies and views not both read and written in the graph. False of depth, stencil, storage and transfer images that are only read (negation, for all such graphs): they are reported as going outside."
  },
  {
   "property": "C79",
   "status": "partial",
   "theorems": [
    "Verif.Queue.tidy_is_safe_partial",
    "Verif.Queue.session_tidy",
    "Verif.Queue.session_safe",
    "Verif.Queue.destroy_chained_waited_safe",
    "Verif.Queue.ignored_result_not_safe",
    "Verif.Queue.destroy_in_flight_not_safe",
    "Verif.Queue.destroy_chained_not_safe"
   ],
   "note": "Proved for every tidy program (one wait per signal; before a graph is destroyed it, and every graph that was given its semaphore, is waited for without limit), in particular every frame loop. The destructor doesn't wait: destroying a graph in flight, or one whose semaphore another graph in flight waits for, isn't allowed (negations); nor is running a graph again when nobody waited for what it returned."
  },
  {
   "property": "C80",
   "status": "partial",
   "theorems": [
    "Verif.Dot.passes_exported_partial",
    "Verif.Dot.compiled_exported_partial",
    "Verif.Dot.passes_shaded_partial",
    "Verif.Dot.transitions_shaded_partial",
    "Verif.Dot.compiled_nodes",
    "Verif.Dot.edges_printed_once",
    "Verif.Dot.common_spec",
    "Verif.Dot.transitions_exported_partial",
    "Verif.Dot.split_exported_partial",
    "Verif.Dot.lone_pass_not_exported",
    "Verif.Dot.transitions_stream_malformed",
    "Verif.Dot.same_name_mixed",
    "Verif.Dot.external_destination_undeclared",
    "Verif.Dot.split_loses_external"
   ],
   "note": "Proved for names of groups that are all different and not empty, and passes that have an edge. False otherwise (negations): a pass without edge isn't exported; groups with the same name under different parents are mixed; displayTransitions to a stream writes the groups again after the graph, so its text is never one graph; an outer destination is declared with the name of an outer source; with splitGroups, outer transitions are lost. Indentation and the quoting of names are not modelled."
  },
  {
   "property": "C81",
   "status": "proved",
   "theorems": [
    "Verif.Thr.linearizable",
    "Verif.Thr.final_state",
    "Verif.Thr.access_owned",
    "Verif.Thr.race_free",
    "Verif.Thr.no_deadlock",
    "Verif.Thr.steps_bounded",
    "Verif.Thr.finishes",
    "Verif.Thr.concurrent_image_ids",
    "Verif.Thr.concurrent_view_ids",
    "Verif.Thr.concurrent_images",
    "Verif.Thr.concurrent_views"
   ],
   "note": "Ids: for less than 2^32 calls."
  },
  {
   "property": "C82",
   "status": "partial",
   "theorems": [
    "Verif.Thr.view_image_made",
    "Verif.Thr.view_of_live_image_partial",
    "Verif.Thr.view_of_destroyed_image"
   ],
   "note": "Made before: always. Not destroyed: if no thread destroys images. Otherwise false (negation): the mutex of the images is released before vkCreateImageView, and another thread can destroy the image in between."
  },
  {
   "property": "C83",
   "status": "partial",
   "theorems": [
    "Verif.Deps.edge_transitions",
    "Verif.Deps.edge_view_transitions_partial",
    "Verif.Deps.edge_buffer_transitions_partial",
    "Verif.Deps.buffer_edge_iff_partial",
    "Verif.Deps.buffer_transitions_fill_take"
   ],
   "note": "Which transitions an edge carries: proved for views that are not merged, and for buffers whose handles differ in their low 32 bits (using a buffer as storage, even to read, counts as writing it). The rest: proved for every well-formed graph."
  },
  {
   "property": "C84",
   "status": "proved",
   "theorems": [
    "Verif.Thr.live_objects",
    "Verif.Thr.destroyed_live",
    "Verif.Thr.destroyed_at_most_once",
    "Verif.Thr.fresh_of_distinct",
    "Verif.Thr.linearizable"
   ],
   "note": "The third sentence is the field `driver` of `Linearizes` in linearizable, for each kind while nobody has its mutex."
  },
  {
   "property": "C85",
   "status": "partial",
   "theorems": [
    "Verif.Brk.frame_instances_partial",
    "Verif.Brk.frame_well_formed_partial",
    "Verif.Brk.frame_commands_placed_partial"
   ],
   "note": "Proved for every recorded frame; what record callbacks and implicit actions of the user record is opaque (taken to be neither begins nor ends of render passes). For re-recordings of single passes (reRecordCurrent) see C100."
  },
  {
   "property": "C86",
   "status": "partial",
   "theorems": [
    "Verif.Times.gpu_time_reported",
    "Verif.Times.gpu_time_exact_partial",
    "Verif.Times.gpu_time_wrong",
    "Verif.Times.gpu_time_rounded",
    "Verif.Times.gpu_time_other_device",
    "Verif.Times.gpu_time_read_again"
   ],
   "note": "What is reported is known exactly (gpu_time_reported): the ticks are divided by the period instead of multiplied, so it is the time taken only on devices whose tick is a nanosecond (proved; wrong on all others, negation), up to 2^24 ticks (the arithmetic is single precision), and the period is a static variable, that of the first device read (negation)."
  },
  {
   "property": "C87",
   "status": "partial",
   "theorems": [
    "Verif.Times.cpu_time_spent_partial",
    "Verif.Times.cpu_time_grows",
    "Verif.Times.blocks_stopped_once",
    "Verif.Times.nested_blocks_miscounted"
   ],
   "note": "Proved for blocks of a timer that don't overlap. Nested blocks of one timer are miscounted (negation)."
  },
  {
   "property": "C88",
   "status": "partial",
   "theorems": [
    "Verif.Use.frame_commands_legal_partial",
    "Verif.Use.kept_object_legal",
    "Verif.Use.mipmaps_depth_illegal"
   ],
   "note": "Proved for every recorded frame, for mipmaps of colour images. Mipmaps of depth or stencil images are generated with linear filtering (negation). Commands of user callbacks are opaque; layouts are C61 and others, the size of framebuffers C62."
  },
  {
   "property": "C89",
   "status": "partial",
   "theorems": [
    "Verif.Skip.disabled_left_out_partial",
    "Verif.Skip.disabled_seen_by_reuse",
    "Verif.Skip.disabled_seen_by_callback"
   ],
   "note": "Proved for the library's passes, drawing passes making their render pass. Whether a drawing pass that already has a render pass makes another one depends on disabled passes (negation), as does the previous pipeline state that callbacks may read (negation)."
  },
  {
   "property": "C90",
   "status": "partial",
   "theorems": [
    "Verif.Cfg.settled_unique",
    "Verif.Cfg.base_configured",
    "Verif.Cfg.quad_pipeline_configured",
    "Verif.Cfg.quad_states_configured",
    "Verif.Cfg.quad_control_configured",
    "Verif.Cfg.quad_commands_configured",
    "Verif.Cfg.mesh_pipeline_configured",
    "Verif.Cfg.mesh_states_configured",
    "Verif.Cfg.mesh_control_configured",
    "Verif.Cfg.mesh_commands_configured",
    "Verif.Cfg.compute_pipeline_configured",
    "Verif.Cfg.compute_control_configured",
    "Verif.Cfg.compute_commands_configured_partial",
    "Verif.Cfg.builder_first_build",
    "Verif.Cfg.builder_second_build_wrong",
    "Verif.Cfg.mesh_cull_mode_fixed_wrong"
   ],
   "note": "Proved for every sequence of calls, except: callbacks for the Y and Z group counts (C40), the cull mode of meshes, which is only asked at construction (negation), and a quad builder used twice, whose second pass has no program (negation). Texture coordinates are C38 and C73."
  },
  {
   "property": "C91",
   "status": "partial",
   "theorems": [
    "Verif.Run.history_kept_partial",
    "Verif.Run.history_kept_for_ever_partial",
    "Verif.Run.remembered_never_discarded_partial",
    "Verif.Run.used_remembered_partial",
    "Verif.Run.drawn_remembered_partial",
    "Verif.Run.accumulated_target_always_discarded",
    "Verif.Run.unused_execution_forgets",
    "Verif.RPass.reuse_clears_again"
   ],
   "note": "Proved for tidy views and passes of the library's kinds, two executions and any number of them, the image being input of sampled, storage, transfer or implicit attachments; render targets when their render pass object doesn't start from UNDEFINED. False for a target that is only drawn over (negation: cleared at every execution) and after an execution that doesn't use the image (negation, C48)."
  },
  {
   "property": "C92",
   "status": "partial",
   "theorems": [
    "Verif.Run.parts_and_whole_declared_partial",
    "Verif.Run.parts_and_whole_ready_partial",
    "Verif.Run.parts_and_whole_valid_partial",
    "Verif.Run.parts_and_whole_executions_partial",
    "Verif.Run.transfer_bodies",
    "Verif.Run.half_used_invalid",
    "Verif.Run.parts_drawn_ready_partial",
    "Verif.Run.parts_drawn_valid_partial",
    "Verif.Run.parts_drawn_executions_partial",
    "Verif.Run.example_parts_drawn",
    "Verif.Run.parts_substituted_ready_partial",
    "Verif.Run.parts_substituted_valid_partial",
    "Verif.Run.parts_substituted_executions_partial",
    "Verif.Run.frameUses_graphUses",
    "Verif.Run.part_substitute_not_run",
    "Verif.Run.example_substituted_runs"
   ],
   "note": "Proved for passes of all kinds: bodies that are calls on the context and commands needing views in declared layouts (compute, user code, the library's transfer passes), passes that draw (with objects that are new or still fit, C37) and passes that make mipmaps, any of them registering actions run in their place when they are disabled (what the actions use counts as uses); without 3D views or separate aspects. Without the condition it is false: a pass writing one level being disabled, the barrier of the whole image is invalid, even if the pass registers an action for the view of that level, which isn't run when a later pass uses the whole (negations)."
  },
  {
   "property": "C93",
   "status": "partial",
   "theorems": [
    "Verif.Run.dependency_data_flows_partial",
    "Verif.Run.dependency_data_flows_declared_partial",
    "Verif.Run.example_flow",
    "Verif.Run.example_flow_declared"
   ],
   "note": "Proved for passes of the library's kinds (drawing, transferring, making mipmaps, user code using the context) with tidy views, and a graph with a pass that has no dependency (C02)."
  },
  {
   "property": "C94",
   "status": "partial",
   "theorems": [
    "Verif.Multi.chained_graphs_valid_partial",
    "Verif.Multi.chained_graphs_declared_partial",
    "Verif.Multi.chained_contents_kept_partial",
    "Verif.Multi.used_known_partial",
    "Verif.Multi.shared_images_valid_partial",
    "Verif.Multi.example_chain",
    "Verif.Multi.example_chain_declared",
    "Verif.Multi.untold_graph_misplaces",
    "Verif.Multi.stale_dependency_misplaces"
   ],
   "note": "Proved for passes of the library's kinds with tidy views, graphs never run before and without declared inputs (shared_images_valid_partial: any inputs and history, if the graphs are well informed). Without the dependency, or with it in another place of the list, it is false (untold_graph_misplaces, stale_dependency_misplaces)."
  },
  {
   "property": "C95",
   "status": "proved",
   "theorems": [
    "Verif.Mem.image_memory",
    "Verif.Mem.image_memory_succeeds",
    "Verif.Mem.quad_memory",
    "Verif.Mem.quad_vertices_read",
    "Verif.Mem.example_memory"
   ],
   "note": "Vulkan's promise that the memory of a buffer is not smaller than the buffer is a hypothesis; a successful vkMapMemory gives a pointer."
  },
  {
   "property": "C96",
   "status": "proved",
   "theorems": [
    "Verif.Lab.command_buffer_anatomy",
    "Verif.Lab.command_buffer_valid",
    "Verif.Lab.example_buffer"
   ],
   "note": "The text of a debug block is represented by the pass's id."
  },
  {
   "property": "C97",
   "status": "partial",
   "theorems": [
    "Verif.Haz.transfers_ordered_partial",
    "Verif.Haz.transfer_then_pass_partial",
    "Verif.Haz.pass_then_transfer_partial",
    "Verif.Haz.pass_then_pass_partial",
    "Verif.Haz.never_forgotten_partial",
    "Verif.Haz.example_ordered",
    "Verif.Haz.two_writes_unordered",
    "Verif.Haz.general_never_ordered",
    "Verif.Haz.clear_then_storage_unordered"
   ],
   "note": "Proved for tidy views and passes of the library's kinds, within a frame, the image being declared for transfers or fragment sampling and left in such layouts; if the first access is made before any pass uses the image (a clear, a substitute), no barrier in between may take it from UNDEFINED. Two writes one after the other have no barrier (negation); storage images are not covered, as nothing waits for the barriers to GENERAL (negations)."
  },
  {
   "property": "C98",
   "status": "partial",
   "theorems": [
    "Verif.BHaz.buffer_uses_ordered_partial",
    "Verif.BHaz.example_buffer_ordered",
    "Verif.BHaz.halves_unordered",
    "Verif.Run.buffer_inout_not_separated",
    "Verif.Run.uniform_read_not_separated"
   ],
   "note": "Proved for passes of the library's kinds and passes that use the recording context, any number of them, for a byte that all attachments of the buffer cover, when the attachments of the buffer in one pass want one state that names a real stage, and when the accesses of the two uses differ or a barrier was recorded. False in general: two uses that want the same state (two passes that read and write) have no barrier between them (buffer_inout_not_separated), uniform buffers are not followed (uniform_read_not_separated), and a use of one part of a buffer hides the state of the others (halves_unordered)."
  },
  {
   "property": "C99",
   "status": "partial",
   "theorems": [
    "Verif.Multi.chained_buffer_uses_ordered_partial",
    "Verif.Multi.chained_image_uses_ordered_partial",
    "Verif.Multi.chained_uses_ordered_partial",
    "Verif.Multi.chained_never_forgotten_partial",
    "Verif.Multi.example_buffer_chain",
    "Verif.Multi.example_image_chain",
    "Verif.Multi.untold_buffer_unordered"
   ],
   "note": "Proved for sessions of any length of graphs that start unrecorded, with no declared inputs, each depending first on the graph run just before; buffers as C98, images as C97 (transferred or sampled, library passes, tidy views), two uses with the same accesses and no barrier between them excepted. Without the dependency a graph doesn't wait for the buffer accesses of another one (untold_buffer_unordered)."
  }
 ]
}
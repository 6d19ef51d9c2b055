import json,re,glob
C=[]
def c(p,status,theorems,note=""): C.append(dict(property=p,status=status,theorems=theorems.split(),note=note))
def q(ns,names): return " ".join(ns.rstrip(".")+"."+n for n in names.split())
S="Verif.Sort";G="Verif.Groups";L="Verif";U="Verif.Gpu";A="Verif.Att";R="Verif.Run";T="Verif.Tables"
c("C01","proved",q(S,"compile_order_is_permutation compile_runs_each_pass_once"))
c("C02","partial",q(S,"deps_run_first_partial cyclic_graph_accepted self_dependency_accepted"),"False in general: when no pass is without dependencies the sort starts with an arbitrary pass, so a graph without root pass and a self dependency are accepted (negations proved). Proved when some pass has no dependency.")
c("C03","partial",q(S,"compile_order_spec sort_fails_iff_no_order_partial no_root_no_order sortable_implies_sorted compile_errors"),"Completeness (a sortable graph is sorted) is proved in general; the converse only for graphs with a pass without dependencies (otherwise false, see C02).")
c("C04","proved",q(G,"pass_ids_unique nth_pass_has_id_n"))
c("C05","proved",q(G,"createPass_throws_iff createPass_throws_unchanged createPass_appends pass_names_unique"))
c("C06","proved",q(G,"createPassGroup_existing createPassGroup_new createPassGroup_idempotent sibling_group_names_unique group_ids_unique"))
c("C07","proved",q(G,"listPasses_complete created_pass_stays"))
c("C08","partial",q(L,"set_then_get_sub set_then_get_disjoint set_then_get_disjoint_first_partial set_then_get_other_image view3D_partial_levels_stale"),"Read back proved for every range; the disjointness part holds for images already tracked; a query of an image never tracked changes answer only through the smallest-layout rule. False for 3D views of several levels (negation).")
c("C09","proved",q(L,"get_unknown_is_undefined get_is_some_subresource get_uniform_layout"))
c("C10","partial",q(L,"view3D_read_back_partial view3D_state_lost"),"False when the depth of a level shifts to 0 (negation proved); proved otherwise.")
c("C11","proved",q(T,"context_import_images dependency_states dependency_states_in_frame")+" "+q(L,"import_keeps_known import_first_wins")+" "+q(U,"import_buffers import_buffers_first_wins import_previous_state"))
c("C12","partial",q(U,"barrier_frame barrier_recorded_tracked barrier_tracks_wanted_partial barrier_mixed_range_left_behind barrier_untracked_not_remembered gpu_in_wanted_layout_partial"),"False for ranges tracked in mixed layouts and for untracked images whose initial layout equals the wanted one (negations); proved otherwise.")
c("C13","proved",q(T,"aspect_mask_table barrier_range_table")+" "+q(U,"barrier_recorded_iff_tracked barrier_recorded_iff_untracked barrier_shape"))
c("C14","partial",q(U,"tracker_mirrors_gpu barriers_valid_partial mixed_range_barrier_invalid separate_aspects_barrier_invalid history_valid_partial")+" "+q(R,"graph_stream_valid_partial executions_valid_partial"),"False for ranges whose subresources are in different layouts and for separate aspects (negations); proved for histories over non-conflicting views, including whole graph executions.")
c("C15","partial",q(U,"buffer_barrier_recorded_iff sourceState_exists buffer_barrier_frame buffer_last_wanted_partial buffer_untracked_not_remembered"),"The decision and frame parts are proved for all inputs; 'afterwards tracked in the wanted state' is false when the initial state equals the wanted one and nothing is tracked (negation).")
c("C16","partial",q(T,"buffer_access_table buffer_stage_table")+" "+q(R,"entered_is_given")+" "+q(U,"buffer_ranges_confused")+" "+q(R,"buffer_use_separated_partial followed_adders storage_output_wants_write example_separated buffer_inout_not_separated uniform_read_not_separated image_general_not_separated image_write_not_made_available"),"False for storage images, uniform buffers and consecutive in-out storage buffers (negations); proved for guarded buffers wanted in different states.")
c("C17","proved",q(R,"substitute_runs_once example_substitute")+" "+q(U,"use_without_pending use_enabled_drops use_disabled_runs use_keeps_order implicit_at_most_once second_registration_waits"))
c("C18","partial",q(R,"entered_is_given record_runs_enabled")+" "+q(R,"pipeline_states_partial dependency_state_lost previous_state_after_disabled"),"Current and next states proved; the previous state is the one of the preceding pass whether or not it is enabled, and the one imported from dependencies is lost (negations).")
c("C19","partial",q(R,"entered_is_given record_runs_enabled")+" "+q(R,"announced_is_wanted announced_next_partial announced_nothing told_next_partial told_output example_told second_shared_image_not_announced other_level_hides_next_user"),"Whatever is announced is right; that something is announced is false for a second shared image and for partly shared images (negations).")
c("C20","proved",q(R,"next_lookup current_lookup current_lookup_remembers current_lookup_stable"))
c("C32","proved",q(R,"convert_spec"))
c("C36","partial",q(T,"image_stage_table image_access_table buffer_stage_table buffer_access_table")+" "+q(A,"image_direction buffer_direction image_access_matches buffer_access_matches image_layout_allows_partial transfer_inout_layout_wrong implicit_attachment layout_masks_agree layout_masks_cover sampled_in_compute_stage_wrong separate_layout_masks_empty layout_follows_direction flags_are_bits implicit_direction image_fields buffer_fields pipeline_state_omits_shader_write pipeline_state_covers"),"False for in-out transfer images (layout TRANSFER_DST but read), separate depth/stencil layouts, sampled views in compute passes (negations).")
c("C41","proved",q(R,"aligned_size_least aligned_size_word aligned_size_wraps"),"aligned_size_wraps: the 64-bit computation wraps within `align` of 2^64 (outside the hypothesis of aligned_size_word).")
c("C44","proved",q(R,"initialised_once_before_use disabled_pass_records_nothing"))
c("C45","partial",q(U,"blit_region_partial blit_region_wrong"),"False when an offset is not zero: the second corner recorded is the extent (negation).")
c("C46","partial",q(T,"clears_right")+" "+q(U,"history_valid_partial copy_leaves_final good_history"),"For histories over non-conflicting views with local actions.")
c("C47","partial",q(R,"promised_layouts_ready_partial adders_prepared noTransition_left_alone")+" "+q(T,"declared_images_ready_partial")+" "+q(R,"entered_is_given")+" "+q(R,"passes_start_ready_partial graph_stream_valid_partial executions_valid_partial example_tidy example_honest"),"For graphs of non-conflicting views (TidyGraph) and truthful declared inputs.")
c("C48","partial",q(R,"unused_execution_forgets remembered_once_partial"),"False: an execution that doesn't use the image forgets it (negation); proved for the next execution.")
c("C49","partial",q(R,"clear_records_fill clear_covers_partial clear_misses_bytes"),"False when the offset isn't a multiple of 4 (negation).")
D="Verif.Deps."
c("C21","partial",q(D,"matchView_iff dependsOn_terminates view_dependency_exact_partial buffer_dependency_exact_partial stores_is_writes chain_ok cyclic_answer_depends_on_history merged_writer_not_seen buffer_writers_confused buffer_answer_confused"),"Exact for plain (unmerged) views on acyclic pass declarations, for any history of questions; for buffers used only as output storage buffers whose handles differ in their low 32 bits; termination for all inputs. False for merged views, buffers with equal low handle bits, cyclic declarations (negations).")
c("C22","partial",q(D,"view_keys_distinct buffer_keys_distinct_partial buffer_keys_low buffer_key_pass buffer_keys_collide"),"View keys never collide for 32-bit ids; buffer keys collide when the handles agree on their low 32 bits (negation).")
c("C23","partial",q(D,"overlap_iff_partial overlap_missed overlap_invented covers_iff"),"Exact when the layer counts agree; otherwise false both ways (negations): areIntersecting passes lhs.layerCount twice.")
c("C24","proved",q(D,"view_transitions_distinct buffer_transitions_distinct"))
c("C25","partial",q(D,"graph_connected graph_acyclic graph_rooted edge_carries_data_partial chain_wellFormed"),"Rooted, connected, acyclic, successors listed once: for all graphs, merged views included. That an edge carries data from writer to reader: unmerged views; for buffers the dependency is a declared one, maybe not through the buffer (cache keys collide, C22).")
c("C50","partial",q(D,"data_dependency_is_edge_partial partial_write_no_edge merged_view_no_edge buffer_dependency_is_edge_partial adders_fill_take bufferChain_ok copied_buffer_no_edge second_reader_no_edge"),"Proved when the reader's view is the writer's, or a single mip level of it; false of other overlapping views and of merged views (negations). Buffers: proved for buffers filled as storage whose handles differ in their low 32 bits, through passes that don't use them as storage; false of buffers filled by transfers and of a second reader (negations).")
c("C51","partial",q(D,"connected_attachments_reported_partial outer_attachments_reported_partial outer_buffers_reported_partial remaining_transition_lost"),"Proved for an output and the input that depends on it for the same view (or one level of it), and, merged views included, for attachments of passes that read nothing written by their dependencies, when the view is not both read and written in the graph. False otherwise (negation): the transition of an attachment without writer is lost when its pass also reads from another pass.")
M="Verif.Merge."
c("C26","partial",q(M,"merged_is_bounding_box merged_covers_partial merged_type_holds_partial merged_2d_type merged_cubes_hold_partial unmerged_levels_dropped remaining_levels_lost unmerged_cube_invalid"),"Bounding box and cover proved for explicit ranges merged in the asked direction; false when a direction isn't merged but differs, for VK_REMAINING counts, and for cube views whose layers aren't merged (negations).")
RS="Verif.Res."
c("C27","partial",q(RS,"image_ids_fresh view_ids_iff image_id_resolves view_id_resolves_partial view_components_lost"),"For fewer than 2^32 calls. A view's component mapping and sources are not part of the comparison: a second view that differs only by them resolves to the first one's (negation).")
c("C28","partial",q(RS,"destroyed_once never_destroyed_twice repeated_creation_same all_closed_nothing_left_partial explicit_destroy foreign_destroy_ignored view_first_leaks closing_destroys_foreign_image"),"Destruction at most once and same live handle: every history. Nothing left at the end: when images are requested before their views; otherwise the image leaks (negation). A cache can destroy an image another cache re-created (negation).")
c("C29","partial",q(RS,"quad_buffers_same_iff cached_destroyed_once sampler_same_partial sampler_confused"),"Quad buffers: proved. Samplers: cached by a 64-bit hash of more than 64 bits of data, hence confused for some descriptions (negation, by pigeonhole).")
c("C52","partial",q(RS,"quad_texcoords_plain quad_texcoords_inverted"),"Holds without inversion; with an inversion the coordinate is off by exactly 1 (quad_texcoords_inverted gives the exact values).")
SG="Verif.Sig."
c("C30","partial",q(SG,"emission_calls_each_once emissions_call_connected_partial valid_iff_connected_partial connect_first_correct signal_end_invalidates reconnect_lost reassign_lost disconnecting_later_calls_twice disconnecting_two_undefined connecting_never_ends"),"Proved for programs whose new connection number is free (in particular when all connections are made before the first disconnection), slots disconnecting themselves during an emission included. False after disconnecting an earlier slot and connecting again (the new connection is lost), and for callbacks touching other connections (negations).")
SY="Verif.Sync."
c("C31","partial",q(SY,"fences_respected_partial plain_programs_respect_fences example_disciplined reset_after_timeout wait_after_reset_hangs"),"Any number of graphs, any interleaving with the GPU: proved for all programs of run/record/wait/push, and with user resets and submissions that follow the protocol `Disciplined`. False for a user reset after a wait that timed out, and a user reset without submission makes the next record hang (negations).")
c("C43","partial",q(SY,"destroyed_in_order run_destroys_all destruction_safe_partial destruction_safe_single_partial example_schedule_ok scheduled_after_last_run_never other_graph_destroys destroyed_before_submission"),"In order, once each, all done at the next run: proved for every program. Only after the fence: proved when graphs run one at a time; false with two graphs in flight (the queue is shared), for objects scheduled while recording that recorded commands use, and nothing executes what is scheduled after the last run (negations).")
TM="Verif.Timer."
c("C33","proved",q(TM,"queries_disjoint_in_pool poolSize_word example_timers"),"For at most 2^30 - 2 passes (32-bit offsets).")
c("C34","partial",q(TM,"reads_iff_recorded_and_notified example_reads reads_submitted_partial example_uses read_hangs"),"Exact characterisation of reads in terms of endPass/notify calls for every history. That the queries were submitted: when isEnabled() does not change during a run; otherwise the read waits for ever (negation).")
CX="Verif.Ctx."
c("C39","proved",q(CX,"deduces_lowest_suitable example_deduce"))
c("C40","partial",q(CX,"dispatch_configured_partial dispatch_exact dispatch_wrong dispatch_undefined"),"False with callbacks for Y or Z: the callback of X is called (negations); dispatch_exact gives what is dispatched for every configuration.")
c("C42","partial",q(CX,"report_exact_partial example_history same_value_forgotten null_never_removed"),"Proved for distinct non-null handle values; objects of different types sharing a handle value are confused (negation).")
MP="Verif.Mip."
c("C38","partial",q(MP,"mipmaps_generated_partial mipmaps_work example_good example_work one_level_left_behind remaining_layers_overrun"),"The blits: proved for every image and state (mipmaps_work). The layouts: proved for every image with at least two levels, not 3D, whose first level is tracked when the pass records. False for a single level (left in TRANSFER_SRC) and for VK_REMAINING_ARRAY_LAYERS (negations).")
c("C53","partial",q(MP,"output_layout_partial output_layout_ignored example_announced"),"The parameter is stored and never used: true only when it equals the layout the graph announces, false otherwise (negation).")
PP="Verif.Pipe."
c("C35","proved",q(PP,"pool_sizes_exact objects_valid bound_as_configured exOps_compute exOps_render early_reset_invalid same_binding_invalid"),"For bindings with distinct numbers, fewer than 2^32 descriptors, and resetPipeline not before the first recording (negations show these are needed).")
c("C54","proved",q(PP,"bound_as_configured exOps_compute exOps_render"))
c("C55","partial",q(PP,"nothing_left_partial exOps_compute exOps_render compute_pipeline_leaks"),"Proved for quad and mesh passes, and for compute passes whose slots are prepared once; a compute pass with one program recorded for several indices leaks pipelines (negation).")
c("C56","partial",q(PP,"bound_as_configured exOps_compute exOps_render reset_ignored_with_creator"),"With a program creator the pipeline always comes from the creator: a program given to resetPipeline is ignored (negation).")
c("C57","proved",q(PP,"never_undefined exOps_compute exOps_render"))
RP="Verif.RPass."
c("C37","partial",q(RP,"reuse_fits_tracked reuse_begins_invalid reuse_ignores_final reuse_clears_again"),"A kept render pass starts in the layout, access and stages tracked for every target the recording tracks, between the same pipeline states (proved). False for targets the recording tracks nothing of (it is begun from a wrong layout), for the final layouts (not compared) and for load operations (an accumulated target is cleared in every frame): negations on complete frames.")
c("C58","proved",q(RP,"parts_correspond depth_then_stencil_loses_depth"),"For passes whose attachments ask for a layout and select at least one subresource. With several depth/stencil attachments only the last is referenced by the subpass, as `Corresponds` says.")
c("C59","proved",q(RP,"targets_are_attachments"),"For transfer attachments without extra flags.")
c("C60","partial",q(RP,"render_instance_partial stencil_load_invalid reuse_begins_invalid"),"Proved when a reused object fits the images the recording doesn't track (see C37) and a loaded stencil is known; false otherwise (negations).")
c("C61","partial",q(RP,"graph_with_render_passes_valid_partial aPasses_tidy drawing_renders reuse_begins_invalid stencil_load_invalid"),"As C60, for whole frames of tidy graphs.")
c("C62","partial",q(RP,"area_fits_partial area_exceeds_smaller area_of_last_level"),"Proved when all targets have one size, at least the configured one; otherwise the area is the largest (negation), and the extent of a level is computed without the minimum 1 (negation).")
XF="Verif.Xfer."
c("C63","partial",q(XF,"image_copy_contents_partial image_copy_pass_contents_partial buffer_copy_contents buffer_to_image_contents_partial image_to_buffer_contents_partial blit_pass_region_partial copy_skips_levels buffer_offset_ignored buffer_offset_overwrites example_copy"),"Buffer copies: proved. Image copies: the first level of each view; the other levels are never copied (negation). Copies between buffers and images ignore the offset of the declared buffer range (negations). Blits: the rectangles are the configured ones exactly when the offsets are zero.")
LB="Verif.Lib."
c("C64","partial",q(LB,"library_graph_valid_partial library_executions_valid_partial example_library example_well example_frames")+" "+q(XF,"inout_source_invalid transfer_inout_layout"),"For tidy graphs, sources declared as transfer inputs and destinations as outputs, mipmaps of views over all the (at least two) levels with no transfer layout announced, render pass objects as in C60. A source declared in-out makes the copy invalid (negation).")
c("C65","partial",q(LB,"image_copy_final_layout_partial"),"In the graphs of C64.")
c("C66","proved",q(R,"record_runs_enabled entered_is_given"))
c("C67","partial",q(U,"substitute_copy_contents_partial substitute_copy_ready_partial substitute_clear_contents substitute_blit_contents_partial substitute_copy_discards_source substitute_copies_one_layer example_substitute_copy example_substitute_clear"),"Clears: proved. Copies and blits: the first layer and level only (negation), from a source the recording already tracks; a source known only from the graph's inputs is discarded before it is copied (negation).")
c("C68","partial",q(RP,"targets_cleared_partial targets_stored drawing_contents_partial declared_contents example_cleared unknown_input_cleared depth_only_loses_stencil input_target_lost example_prepared reuse_clears_again")+" "+q(U,"prepared_contents"),"In the render area, when it is within the targets. Storage images: proved when no substitute is pending for the images. A loaded target no layout is known of is cleared, drawing over depth only loses the stencil, a target declared as input only is lost when the pass ends, and a reused render pass clears again (negations).")
c("C69","partial",q(R,"tracked_never_discarded_partial used_images_kept_partial drawn_images_kept_partial example_used_kept example_drawn_kept")+" "+q(U,"substitute_copy_discards_source")+" "+q(RP,"input_target_lost"),"For graphs whose views are not 3D, with bodies that use the recording context or are those of the library's passes. From the first use of the image in the frame on: before it, what a substitute reads from an image known only from previous executions is discarded (negation). A target declared as input only is not stored (negation), and counts as lost in the theorems.")
c("C70","partial",q(RP,"drawing_ordered_partial next_waits_partial drawing_waits library_keeps_pipeline sampled_by_drawing_unordered later_reader_unordered depth_unordered example_ordered"),"Proved for colour targets and the passes just before and next: the dependencies are exactly those of their declared states. False for a drawing pass sampling what was drawn in its fragment shader, for readers after the next pass, and for depth and stencil targets (negations): these wait for nothing.")
DR="Verif.Draw."
c("C71","partial",q(DR,"bound_pipeline_fits blends_declared one_index_exact quad_index_exact created_with_live uses_legal uses_exact formats_mixed dependencies_mixed mesh_index_mixed quad_reset_mixed"),"Exactly the render pass begun: proved for passes used with one index, and for quad passes with a program per index when resets are for the index recorded last. Always: one with the same target formats and states if each attachment has one format. False otherwise: with several indices the pipeline made for another index is bound (other formats, other dependencies: negations).")
c("C72","partial",q(DR,"area_covered_iff viewport_configured no_size_draws_nothing coverage_examples"),"Exactly when the configured position is the origin and no target is larger than the configured size, after any use; the viewport has the configured size (0x0 if none is configured), not that of the render area (negation).")
DC="Verif.DrawCmd."
c("C73","partial",q(DC,"quad_draws quad_draws_indirect quad_covers_viewport quad_defaults mesh_draws mesh_draws_indexed_partial mesh_draws_indirect mesh_without_vertices primitive_count_is_index_count example_draws"),"Proved except for indexed meshes: the number of primitives is used as a number of indices, so a third of the triangles is drawn (negation).")
c("C74","partial",q(RP,"unchanged_kept_iff written_tracked_rebuilt drawn_then_sampled_kept sampled_then_drawn_rebuilt"),"For tidy graphs: exactly when the recording tracks no layout of the targets the pass only writes. A pass drawing over an image an earlier pass samples makes an identical render pass in every recording (negation).")
ST="Verif.Settle."
c("C75","partial",q(ST,"settles_partial repeats_exist record_again first_may_differ"),"For tidy graphs, starting with no render pass object, whose passes use the recording context, draw with a render pass of their own, transfer (the library's copies and blits), or generate mipmaps (2D, of whole images, told a layout that is neither undefined nor a transfer layout).")
LF="Verif.Life."
c("C76","partial",q(LF,"never_destroys_twice misuse_meaning objects_belong_to_graphs all_destroyed_nothing_left destroyed_graph_leaves_nothing refused_graph_leaves_partial refused_pass_leaves_nothing refused_graph_loses_semaphore"),"Destroyed exactly once, and nothing left, for every history (nothing left: with views of images of the same graph). A refused construction leaves nothing only if one of the first four objects was refused; otherwise it leaves the graph's semaphore (for ever: refused_graph_loses_semaphore) and at most one image and its memory: the last part of the property is false.")
c("C77","partial",q(LF,"accepted_image_is_made_partial refused_image_is_never_made refused_sampler_is_null refused_quad_is_null refused_quad_loses_buffer cache_closed_leaves_nothing"),"Only for what was never refused; once refused, an image or a sampler stays null and a quad's vertex buffer is a null pointer that is dereferenced (negations, for every later history).")
c("C78","partial",q(D,"outer_images_directed_partial outer_buffers_directed_partial outer_input_reported_as_output example_directions"),"Proved for buffers, sampled images, colour attachments and whatever is only written, of passes that read nothing written by their dependencies and views not both read and written in the graph. False of depth, stencil, storage and transfer images that are only read (negation, for all such graphs): they are reported as going outside.")
QU="Verif.Queue."
c("C79","partial",q(QU,"tidy_is_safe_partial session_tidy session_safe destroy_chained_waited_safe ignored_result_not_safe destroy_in_flight_not_safe destroy_chained_not_safe"),"Proved for every tidy program (one wait per signal; before a graph is destroyed it, and every graph that was given its semaphore, is waited for without limit), in particular every frame loop. The destructor doesn't wait: destroying a graph in flight, or one whose semaphore another graph in flight waits for, isn't allowed (negations); nor is running a graph again when nobody waited for what it returned.")
DO="Verif.Dot."
c("C80","partial",q(DO,"passes_exported_partial compiled_exported_partial passes_shaded_partial transitions_shaded_partial compiled_nodes edges_printed_once common_spec transitions_exported_partial split_exported_partial lone_pass_not_exported transitions_stream_malformed same_name_mixed external_destination_undeclared split_loses_external"),"Proved for names of groups that are all different and not empty, and passes that have an edge. False otherwise (negations): a pass without edge isn't exported; groups with the same name under different parents are mixed; displayTransitions to a stream writes the groups again after the graph, so its text is never one graph; an outer destination is declared with the name of an outer source; with splitGroups, outer transitions are lost. Indentation and the quoting of names are not modelled.")
TH="Verif.Thr."
c("C81","proved",q(TH,"linearizable final_state access_owned race_free no_deadlock steps_bounded finishes concurrent_image_ids concurrent_view_ids concurrent_images concurrent_views"),"Ids: for less than 2^32 calls.")
c("C82","partial",q(TH,"view_image_made view_of_live_image_partial view_of_destroyed_image"),"Made before: always. Not destroyed: if no thread destroys images. Otherwise false (negation): the mutex of the images is released before vkCreateImageView, and another thread can destroy the image in between.")
c("C83","partial",q(D,"edge_transitions edge_view_transitions_partial edge_buffer_transitions_partial buffer_edge_iff_partial buffer_transitions_fill_take"),"Which transitions an edge carries: proved for views that are not merged, and for buffers whose handles differ in their low 32 bits (using a buffer as storage, even to read, counts as writing it). The rest: proved for every well-formed graph.")
c("C84","proved",q(TH,"live_objects destroyed_live destroyed_at_most_once fresh_of_distinct linearizable"),"The third sentence is the field `driver` of `Linearizes` in linearizable, for each kind while nobody has its mutex.")
c("C85","partial",q("Verif.Brk.","frame_instances_partial frame_well_formed_partial frame_commands_placed_partial"),"Proved for every recorded frame; what record callbacks and implicit actions of the user record is opaque (taken to be neither begins nor ends of render passes). For re-recordings of single passes (reRecordCurrent) see C100.")
TI="Verif.Times."
c("C86","partial",q(TI,"gpu_time_reported gpu_time_exact_partial gpu_time_wrong gpu_time_rounded gpu_time_other_device gpu_time_read_again"),"What is reported is known exactly (gpu_time_reported): the ticks are divided by the period instead of multiplied, so it is the time taken only on devices whose tick is a nanosecond (proved; wrong on all others, negation), up to 2^24 ticks (the arithmetic is single precision), and the period is a static variable, that of the first device read (negation).")
c("C87","partial",q(TI,"cpu_time_spent_partial cpu_time_grows blocks_stopped_once nested_blocks_miscounted"),"Proved for blocks of a timer that don't overlap. Nested blocks of one timer are miscounted (negation).")
c("C88","partial",q("Verif.Use.","frame_commands_legal_partial kept_object_legal mipmaps_depth_illegal"),"Proved for every recorded frame, for mipmaps of colour images. Mipmaps of depth or stencil images are generated with linear filtering (negation). Commands of user callbacks are opaque; layouts are C61 and others, the size of framebuffers C62.")
c("C89","partial",q("Verif.Skip.","disabled_left_out_partial disabled_seen_by_reuse disabled_seen_by_callback"),"Proved for the library's passes, drawing passes making their render pass. Whether a drawing pass that already has a render pass makes another one depends on disabled passes (negation), as does the previous pipeline state that callbacks may read (negation).")
c("C90","partial",q("Verif.Cfg.","settled_unique base_configured quad_pipeline_configured quad_states_configured quad_control_configured quad_commands_configured mesh_pipeline_configured mesh_states_configured mesh_control_configured mesh_commands_configured compute_pipeline_configured compute_control_configured compute_commands_configured_partial builder_first_build builder_second_build_wrong mesh_cull_mode_fixed_wrong"),"Proved for every sequence of calls, except: callbacks for the Y and Z group counts (C40), the cull mode of meshes, which is only asked at construction (negation), and a quad builder used twice, whose second pass has no program (negation). Texture coordinates are C38 and C73.")
c("C91","partial",q(R,"history_kept_partial history_kept_for_ever_partial remembered_never_discarded_partial used_remembered_partial drawn_remembered_partial accumulated_target_always_discarded unused_execution_forgets")+" "+q(RP,"reuse_clears_again"),"Proved for tidy views and passes of the library's kinds, two executions and any number of them, the image being input of sampled, storage, transfer or implicit attachments; render targets when their render pass object doesn't start from UNDEFINED. False for a target that is only drawn over (negation: cleared at every execution) and after an execution that doesn't use the image (negation, C48).")
c("C92","partial",q(R,"parts_and_whole_declared_partial parts_and_whole_ready_partial parts_and_whole_valid_partial parts_and_whole_executions_partial transfer_bodies half_used_invalid parts_drawn_ready_partial parts_drawn_valid_partial parts_drawn_executions_partial example_parts_drawn parts_substituted_ready_partial parts_substituted_valid_partial parts_substituted_executions_partial frameUses_graphUses part_substitute_not_run example_substituted_runs"),"Proved for passes of all kinds: bodies that are calls on the context and commands needing views in declared layouts (compute, user code, the library's transfer passes), passes that draw (with objects that are new or still fit, C37) and passes that make mipmaps, any of them registering actions run in their place when they are disabled (what the actions use counts as uses); without 3D views or separate aspects. Without the condition it is false: a pass writing one level being disabled, the barrier of the whole image is invalid, even if the pass registers an action for the view of that level, which isn't run when a later pass uses the whole (negations).")
c("C93","partial",q(R,"dependency_data_flows_partial dependency_data_flows_declared_partial example_flow example_flow_declared"),"Proved for passes of the library's kinds (drawing, transferring, making mipmaps, user code using the context) with tidy views, and a graph with a pass that has no dependency (C02).")
c("C94","partial",q("Verif.Multi.","chained_graphs_valid_partial chained_graphs_declared_partial chained_contents_kept_partial used_known_partial shared_images_valid_partial example_chain example_chain_declared untold_graph_misplaces stale_dependency_misplaces"),"Proved for passes of the library's kinds with tidy views, graphs never run before and without declared inputs (shared_images_valid_partial: any inputs and history, if the graphs are well informed). Without the dependency, or with it in another place of the list, it is false (untold_graph_misplaces, stale_dependency_misplaces).")
c("C95","proved",q("Verif.Mem.","image_memory image_memory_succeeds quad_memory quad_vertices_read example_memory"),"Vulkan's promise that the memory of a buffer is not smaller than the buffer is a hypothesis; a successful vkMapMemory gives a pointer.")
c("C96","proved",q("Verif.Lab.","command_buffer_anatomy command_buffer_valid example_buffer"),"The text of a debug block is represented by the pass's id.")
c("C97","partial",q("Verif.Haz.","transfers_ordered_partial transfer_then_pass_partial pass_then_transfer_partial pass_then_pass_partial never_forgotten_partial example_ordered two_writes_unordered general_never_ordered clear_then_storage_unordered"),"Proved for tidy views and passes of the library's kinds, within a frame, the image being declared for transfers or fragment sampling and left in such layouts; if the first access is made before any pass uses the image (a clear, a substitute), no barrier in between may take it from UNDEFINED. Two writes one after the other have no barrier (negation); storage images are not covered, as nothing waits for the barriers to GENERAL (negations).")
c("C98","partial",q("Verif.BHaz.","buffer_uses_ordered_partial example_buffer_ordered halves_unordered")+" "+q("Verif.Run.","buffer_inout_not_separated uniform_read_not_separated"),"Proved for passes of the library's kinds and passes that use the recording context, any number of them, for a byte that all attachments of the buffer cover, when the attachments of the buffer in one pass want one state that names a real stage, and when the accesses of the two uses differ or a barrier was recorded. False in general: two uses that want the same state (two passes that read and write) have no barrier between them (buffer_inout_not_separated), uniform buffers are not followed (uniform_read_not_separated), and a use of one part of a buffer hides the state of the others (halves_unordered).")
c("C99","partial",q("Verif.Multi.","chained_buffer_uses_ordered_partial chained_image_uses_ordered_partial chained_uses_ordered_partial chained_never_forgotten_partial example_buffer_chain example_image_chain untold_buffer_unordered"),"Proved for sessions of any length of graphs that start unrecorded, with no declared inputs, each depending first on the graph run just before; buffers as C98, images as C97 (transferred or sampled, library passes, tidy views), two uses with the same accesses and no barrier between them excepted. Without the dependency a graph doesn't wait for the buffer accesses of another one (untold_buffer_unordered).")
c("C100","partial",q("Verif.Rerec.","rerecording_changes_nothing rerecording_repeats_partial rerecording_draws_partial rerecording_idempotent rerecorded_instances library_blind never_recorded record_erase example_repeats example_repeats_what example_draws first_rerecording_differs"),"That re-recording changes nothing else, that it is idempotent, and that the command buffer is well formed are proved without condition. That it repeats the last recording is proved when each image the pass reads (and each target, for a pass that draws) was known to the tracker at that moment, or is a declared input, or the graph still remembers the same of it; without, it is false for the first recording of a graph (first_rerecording_differs). Callbacks are functions of the recording context and the graph's states; timestamps are C33's and C96's. Mipmap passes' own lookups are covered when the graph's states did not change in between.")
c("C101","partial",q("Verif.Flight.","objects_outlive_submissions objects_outlive_submissions_partial exProg_tidy exProg_destroys exNew_new reset_destroys_render_pass other_graph_destroys_pipeline rerecording_keeps_iff destroy_in_flight destroy_in_flight_frees"),"Without resetPipeline and destruction: proved for every program. With resetPipeline the unrestricted statement is false of the code (reset_destroys_render_pass, other_graph_destroys_pipeline: both destroy objects in flight), and is proved under the discipline of the statement. Whether a pass prepares its objects again is an input of the model (all answers are covered); user-drawn render passes and failing device calls are not in it. ~RunnableGraph doesn't wait, so a graph destroyed in flight frees what is in use (destroy_in_flight, destroy_in_flight_frees).")
c("C102","partial",q("Verif.Dot.","passes_text_partial passes_read_partial transitions_text_partial transitions_read_partial sample_named quote_unreadable quote_misread backslash_unreadable newline_misread written_indented indented_zero indented_indented row_indented passes_streams_unindented transitions_streams_unindented"),"Proved for names that can be quoted; for other names it is false of the code (quote_unreadable, quote_misread, backslash_unreadable, newline_misread). The reader is a small DOT reader of Spec/DotText.lean. Streams that fail are not modelled. Indentation: what is written to a stream at the beginning of a line is moved right by its indentation, every line of it (written_indented), nested indentations add up, rows of nodes and edges are two columns further, and every stream of an export ends unindented; that the whole text has two columns per open block is not stated.")
c("C103","partial",q("Verif.Logger.","logger_never_stuck logger_ends mutex_free_in_callbacks disciplined_no_race_partial logging_only_no_race messages_delivered_partial alone_delivered delivered_unique default_text exProgs_disciplined exProgs_end set_races_with_log set_in_callback_races callback_called_twice_at_once lines_mixed"),"The mutex only covers the access to the instance, so the unrestricted statement is false: a callback set while another thread logs to its level, or from inside of itself, is replaced while it runs (set_races_with_log, set_in_callback_races). Proved without restriction: nobody is stuck, the mutex isn't held in callbacks, runs end when callbacks don't log; with one thread: delivery. With several: delivery and absence of races when each level whose callback is changed is used by one thread only. Callbacks are not called one at a time (callback_called_twice_at_once, lines_mixed).")
c("C104","partial",q("Verif.Names.","fullName_child fullName_exists full_names_stable group_full_names_identify_partial pass_full_names_identify_partial group_names_identify_partial labels_identify attachment_names_tell attachment_names_start attachment_names_identify_partial slashes_confuse twins_share_group_name pass_and_group_share_name plainNames"),"Identification by full name is proved for names without '/', by the name with the group only for distinct groups' names; slashes_confuse and twins_share_group_name show that it fails otherwise. Labels and names of attachments within a pass are identified without hypotheses on '/' in data names. Names are strings of characters, where the code has bytes.")
c("C105","proved",q("Verif.Ind.","buffers_never_misused buffers_are_owned buffers_all_deleted texts_as_alone exProg_ends shared_stream_misused shared_stream_leaks"),"For programs whose threads use streams of their own, as the property says; each locked function of the table is one step, and writing text to a stream is one. The end of the program (destruction of the table) and moved streams aren't modelled. shared_stream_misused and shared_stream_leaks show that sharing a stream breaks it.")
c("C106","partial",q("Verif.Rainbow.","rounding_is_single_precision nearest_unique incr_is_one_eightieth colours_vivid colour_same_iff neighbours_apart end_of_round_alike blocks_coloured blocks_of_each_recording process_colours_vivid frame_colours_distinct recorded_graph_colours recorded_again_recoloured"),"All but the last sentence, which is false: recorded again, a pass has another colour, unless the number of blocks of the frame is a multiple of 81 (recorded_again_recoloured). IEEE single precision with each operation rounded (no fused or wider arithmetic); the static variable is taken to be used by one thread at a time, which nothing in the code ensures.")
#MORE
C.sort(key=lambda x:x["property"])
json.dump({"claims":C},open("/verif/MANIFEST.json","w"),indent=1,ensure_ascii=False)
ids=[json.loads(l)["id"] for l in open("/verif/properties.jsonl")]
have={x["property"] for x in C}
print("missing:",[i for i in ids if i not in have], "unknown:",[i for i in have if i not in ids])

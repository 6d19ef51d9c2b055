# Formal model of DragonJoker/RenderGraph — design

The plan was written before the proofs; the table, the trusted base and the findings are kept current.

## Method

`/repo` is read as text. Each area of the code is transcribed, function by function, to a small total
computable Lean 4 model (`lean/Verif/Model/*.lean`); every definition cites the file and lines modelled and
says where it simplifies. Specifications that don't mention the model's helpers are in
`lean/Verif/Spec/*.lean` (or at the top of a property file when only a couple of lines). Helper lemmas are in
`lean/Verif/Lemmas/*.lean`; the property theorems, with non-vacuity examples, in `lean/Verif/Props/*.lean`.

`properties.jsonl` and `MANIFEST.json` are generated by `tools/props.py` and `tools/manifest.py`.

General modelling decisions
* C++ exceptions are an error outcome; undefined behaviour (dereferencing an empty optional, `vector[]` out of
  range, use of a null pointer) is a distinct outcome (`none` or an error constructor), never made total silently.
* `NDEBUG` builds are modelled: `assert` is absent (as shipped); where an assert guards a branch the model says so.
* `std::map`/`unordered_map` are partial functions or key-sorted association lists; iteration order is modelled
  where the result depends on it (`gatherNextImageLayouts`, `Signal`).
* Enums and flag words are `Nat`; `uint32_t` is `Nat` unless the property is about wrap-around or bit layout (cache keys,
  hashes, aligned sizes, merged ranges, timer offsets), in which case it is `BitVec`/`UInt64` or wraps explicitly.
* Vulkan calls are appended to a command or event list. The *meaning* of that list is a separate specification, written
  after the Vulkan specification and not after the library: `Spec/Gpu.lean` (layouts, validity of barriers, transfers, clears
  and render passes), `Spec/Memory.lean` (contents of images and buffers), `Spec/Sync.lean` (queue, fences),
  `Spec/Pipeline.lean`, `Spec/Resources.lean` (lifetime of objects).
* When a property is false of the code, the full English statement stays in `properties.jsonl`; what holds is proved under the
  suffix `_partial`, with the missing hypothesis explicit, and a *negation* theorem exhibits the failure (on a concrete, or for
  every, offending input).

## Plan per property

| id | modelled | proof |
|----|----------|-------|
| C01-C03 | `sortPasses` (FrameGraph.cpp:22-111) over a heap of passes with address and id, `compile` guard | loop invariant: sorted ++ unsorted is a permutation, sorted prefix closed under dependencies and ordered; failure yields a set without minimal element, hence no order. C02/C03 are false without a root pass: negation by witness + `_partial` |
| C04-C07 | `FramePassGroup` tree, `createPass`, `createPassGroup`, `listPasses` | induction over operation histories; nested tree induction |
| C08-C11 | layout tracker (FrameGraph.cpp:562-638, LayerLayoutStatesHandler.cpp), `addStates` | set/get laws; fold invariant on the state map; C10 false for collapsing depth: negation + partial |
| C12-C15 | `RecordContext` barriers | case analysis; C14 is an invariant over histories with respect to the GPU interpreter; false for mixed ranges: negation + partial |
| C16 | attachment access handling in `RunnablePass::recordInto` + barriers | false for storage images (GENERAL to GENERAL): negation + partial |
| C17 | implicit transition list | refinement to a per-view queue |
| C18-C20 | `RunnableGraph::record` loop, `getNextState`, `gatherNextImageLayouts`, `getCurrentLayoutState` | induction over the pass list; C18, C19 false in part |
| C21-C22 | memoised `dependsOn` | cache invariant on acyclic declarations; bit-level injectivity; buffer keys collide |
| C23-C25, C50, C51 | dependency builder and graph builder | arithmetic; list invariants; reachability of the built graph; C23, C50, C51 false in part |
| C26 | `mergeViews` | fold min/max bounds, with wrap-around |
| C27-C29, C52 | `ResourceHandler`, `ContextResourcesCache`, quad vertex data | invariants over histories with a ghost GPU heap; pigeonhole for the sampler hash |
| C30 | `Signal` | small-step callbacks; per-connection invariant; negations |
| C31, C43 | fence, submissions, deletion queue | protocol automata: driver calls of any program interleaved with any GPU progress |
| C32 | `SemaphoreWait` conversion | list induction |
| C33, C34 | timers, query pool | arithmetic; history invariant |
| C35, C54-C57 | `PipelineHolder`, `ComputePass`, quad and mesh holders | trace invariants over histories of record/reset/destroy |
| C36, C59 | Attachment decision tables | exhaustive case analysis lifted to all flag words produced by the `add…` methods |
| C37, C58, C60-C62 | `RenderPassHolder` | parallel-list invariant for descriptions, references and views; GPU interpreter of render pass instances; two-frame negations |
| C38, C53 | `GenerateMipmaps` commands | loop invariant with respect to the GPU interpreter, for every level count and layer range |
| C39, C40, C42 | memory type, dispatch, object registry | direct induction |
| C41, C49 | aligned sizes, buffer clears | arithmetic |
| C44 | lazy initialisation | history invariant |
| C45, C46 | implicit copy, blit, clear actions | as C14, for histories with actions |
| C47, C48, C61, C64 | whole frames: `RunnableGraph::record` of any pass list, several executions | one invariant (`Inv`, Props/Ready.lean) carried through attachments, implicit actions, bodies and passes; each kind of body keeps it |
| C63, C65 | copy and blit passes | memory semantics of transfer commands; frame conditions between pairs of attachments |
| C66 | `RunnableGraph::record` and `recordInto` calling bodies | log of body calls; the outcome depends on a body only through what it does with the recording it is entered with |
| C67 | actions replacing disabled passes (`RecordContext.cpp`) | contents semantics (`Spec/Memory`) of the commands recorded when the view is used, with the oldest pending action |
| C68 | load/store operations and clear values of render passes, clears of storage images | contents semantics of the commands around the body of a pass; `Corresponds` gives the operations of each target |
| C69 | every command of a frame that may discard contents (transitions from UNDEFINED, load/store operations) | invariant of the recording: nothing tracked is UNDEFINED, so no barrier discards a tracked subresource; induction over the passes of a frame |
| C70 | the subpass dependencies of render pass objects, new or reused, and the pipeline states of the recording they are made with | the dependencies of every object made are computed; `pipeline_states_partial` gives the states in a frame; concrete frames show what is not ordered |
| C71 | a quad or mesh pass as a whole: render pass objects and pipelines together, under any sequence of recordings, resets, runs | invariant relating the pipelines in the slots to the render passes made; two render passes of one pass have the same references (`initialise_alike`) |
| C72 | the viewport and scissor states pipelines are created with | composition of C71's invariant with the computation of the render area (C62) |
| C73 | the drawing commands of quad and mesh passes | semantics of bound buffers and draws (`Spec/DrawCommands`); plane geometry of the quad's triangle |
| C74 | `RenderPassHolder::initialise` in a second context that tracks the same of the targets | the entries of an object are computed from the context it was made in (`createAll_ctx`), and compared with the tracked states |
| C75 | whole recordings (`record`) of graphs whose bodies are calls, drawing, transfers or mipmap generation, repeated from what the one before left (`Spec/Settle.lean`: `Repeats`) | at each point of a recording, the tracked state of a subresource is a fixed function of the remembered one, of one of three idempotent shapes (`Tr`, `val_val`); this determines the context (`sim_unique`), hence what is remembered next; then two frames are compared in lockstep |
| C76 | constructor and destructor of `RunnableGraph` and `RunnablePass`, images and views of the handler, with a driver that may refuse any call (`Model/Lifetime.lean`) | invariant: the live objects are, up to order, those the graphs own, those registered, and those lost; each creation and destruction keeps it; the order of destruction respects pools |
| C77 | images, samplers and quad vertex buffers asked for again after a refusal | entries are never removed nor repaired: by induction on the later requests |
| C78 | as C51, with the side of the transition on which the attachment is | the invariant of C51's proof carries the side; `adder_side` computes it for each method |
| C79 | `run`, `record`, `convert` and the destructor as sequences of driver calls on any number of graphs (`Model/Queue.lean`, on `Model/Sync.lean`); a device whose submissions finish at any moment (`Spec/Queue.lean`) | invariant: device, library and the user's book of semaphores agree; induction over the program; negations by executing the driver calls when nothing finishes |
| C80 | the visit of the nodes, the streams of groups (a tree) and their assembly into text by name of group (`Model/Dot.lean`); text is a list of lines, read back as nesting and located nodes and edges (`Spec/Dot.lean`) | the visit prints each edge once (induction with the set of visited nodes); an invariant of the streams; mutual induction over the tree for the text; negations by execution and by a general lemma (nothing may follow a graph) |
| C81 | the methods of the handler as programs of steps (lock, unlock, access to a container, call of the driver), run by any number of threads in any order (`Model/Threads.lean`); what calls do one after the other (`Spec/Threads.lean`) | two-phase locking: a call takes effect at its first release of a mutex; invariant relating the memory, the mutexes held and the memory after the calls that took effect (`Lemmas/Threads.lean`); each program alone equals the sequential call; mutexes are taken in one order (no deadlock); a bound on the length of programs |
| C82 | the same, with the calls of the driver | invariant: images in the container have been made when their mutex is free, and programs only make views of those; negation by execution |
| C83 | as C50, with the transitions of each edge (`Graph.attaches`) | induction over the transitions: each edge's lists have no equal pair, so merging leaves them alone; the cache of dependency tests is exact (C25) |
| C84 | as C81, with the calls of the driver of each kind as part of what its mutex protects | the invariant of C81 extended by them: programs call the driver for a kind only while they have its mutex; balance of creations, destructions and entries by induction over the calls in order |
| C85 | the recording of a frame (as C24), with the bodies of drawing, transfer, mipmap and context-using passes; well formed command buffers as an inductive specification with the instances they hold | each recording function continues the commands without instance, by induction over the attachments, pending implicit actions, levels and layers; a drawing pass adds one; induction over the passes; the counts at each command follow from the specification by induction |
| C86 | the queries of C33/C34 with the values the device writes, the static period, the conversion to nanoseconds with an abstract rounding to single precision | invariants over the history: what other timers do, the period of the first reader; inequalities of rationals for the wrong conversion |
| C87 | the clock readings of a timer, and blocks with move construction and destruction | induction over a specification of histories with disjoint blocks; starts and stops balanced by the number of blocks not moved from |
| C88 | a specification of legal commands (Spec/Usage), of which the ranges, regions, filters and sizes are those of `vkCmd…` | invariant over all recording functions: what is recorded is legal, what is pending has legal parameters |
| C89 | `record` on the list of passes and on the list without the disabled ones | bisimulation: both recordings differ in what is announced only; every recording function commutes with that, and what is looked up in the announcement is the same |
| C90 | the configuration structures, their setters, the constructors of the holders and what these ask of the device | `Settled`: the last call that says something decides; one fold lemma, instantiated for each thing that can be configured; observables are commands, pipeline states, pipeline layout and program of each index |
| C91 | two and any number of consecutive recordings, the second from the final state of the first; the memory of Spec/Memory.lean | invariant along the commands: the image's layout is tracked, or no pending substitute touches it; every source of a discard (barrier from UNDEFINED, render pass) is shown to know the layout the previous execution left, until C69 takes over |
| C92 | the recordings of Model/RunnableGraph.lean; uses of views as a list, the layout each leaves (Spec/Mixed.lean, which knows nothing of the tracker) | invariant along the passes: the tracked layouts are exactly those the uses left, and the GPU's; each use found settled keeps it, whatever views came before; passes that draw and passes that make mipmaps too (Spec/MixedDraw.lean, Props/MixedDraw.lean); actions of disabled passes: the list of pending ones is carried along and what they use is inserted where they run (Spec/MixedImplicit.lean, Props/MixedImplicit.lean) |
| C93 | `compile` (order, runnable passes) composed with the recording and the memory of Spec/Memory.lean | the order puts dependencies before (C02); between the end of one body and the start of another one, nothing discards what is tracked but what the passes in between may lose (C69); layouts by C47 |
| C94 | several graphs (Model/Multi.lean): `World.record` is `record` with the final states the dependencies have at that moment | induction on the session: the GPU is as the last run that knows the subresource says (`Mirrors` per run); along a chain, what one graph knows the last one knows (the first dependency wins per image, and a recording forgets nothing); contents by C69's `Steady` per run |
| C95 | the calls around `vkAllocateMemory`, mapping, the floats written, the vertex input state (Model/Allocation.lean) | the type by C39; every prefix of the calls is checked against Vulkan's rules (Spec/Allocation.lean) |
| C96 | the command buffer with timestamps and debug blocks (Model/Labels.lean), over the commands of Model/RunnableGraph.lean and the timers of Model/Timer.lean | induction on the passes: each adds a block around what it appends (C85's instances); a scan of the commands (Spec/Labels.lean) goes through each block unchanged, as the queries of different timers are disjoint (C33) |
| C97 | the barriers of Model/RecordContext.lean with both scopes, in whole frames | invariant of every step of a recording: what is tracked, pending and recorded for the image has the accesses of its layout; then induction on the valid stream (C64): each barrier starts from the accesses the previous one ended with; nothing forgets the image after a pass uses it (C69) |
| C98 | the buffer barriers of Model/RecordContext.lean, the buffer attachments of Model/RunnableGraph.lean and the bodies of Model/Transfer.lean, in whole frames | invariant of every step of a recording: the tracked state is the end of the last barrier on the buffer, each barrier starts there, each transfer is recorded in its state; then induction on the commands between two uses |
| C99 | the sessions of Model/Multi.lean | buffers: invariant of sessions, the state the last run leaves is the end of the last barrier in the stream, and the next run starts from it; images: validity of the whole stream (C94) and well-formedness of every run (C97), then the same induction on the commands between two uses |
| C100 | graphs whose passes keep a copy of the recording context and can be recorded alone (Model/Rerecord.lean), over the recording of Model/RunnableGraph.lean and render passes | recording functions commute with more commands before (by induction on each); what the tracker knows stays known; the snapshot is the context of the last recording (induction over passes and histories), so the same function runs on the same arguments |
| C101 | several graphs of compute, quad and mesh passes, the shared deletion queue and the calls they make (Model/Flight.lean, over the holders of Model/Pipeline.lean), against a device that finishes submissions whenever it likes (Spec/Flight.lean) | an invariant over programs: every handle is held in one place of its pass, or scheduled once, or destroyed once; what is scheduled is idle, or belongs to a graph whose program was changed in flight; what was freed belongs to graphs destroyed; calls proved safe one by one with continuations |
| C102 | the characters the export writes: indent buffers, quotes, colours, the assembly of streams (Model/DotText.lean) next to the lines of Model/Dot.lean; a reader of DOT, lexer and statements (Spec/DotText.lean) | simulation: every stream holds, up to blanks before rows, the rows of the lines of C80; the reader goes over a row and finds its tokens; tokens give statements; then C80 |
| C103 | the logger: the mutex of `doGetInstance`, calls and assignments of the five callbacks as steps of interleaved threads, callbacks as lists of operations (Model/Log.lean), against what a thread alone observes (Spec/Log.lean) | invariants over reachable states: the mutex is given back at once; assignments don't overlap other accesses under an ownership discipline; a simulation of each thread by itself; a lexicographic measure for termination; negations by schedules |
| C104 | the names given to groups, passes, labels and attachments (Model/Names.lean), over the tree of groups of Model/Groups.lean | words on letters: the last separator splits a name when what follows has none; induction on the path for full names, on the history for their stability |
| C105 | the table of indent buffers, its mutex, installation and callback of streams, under threads (Model/Indent.lean), over the characters of Model/DotText.lean | every address is in a phase of the thread that has its stream (Lemmas/Indent.lean); a step of a thread changes one address and one buffer; texts by simulation of each thread alone |
| C106 | `getNextRainbowColour` in exact single precision (Model/Colours.lean), over the command buffers of Model/Labels.lean | the rounding is proved to be nearest-even for all numbers; after 81 calls the static variable is 0 again, which the kernel computes, hence the colours of all histories by induction and reduction modulo 81; distinctness by computation on one whole round |

No property is declared inexpressible.

## Trusted base

1. Lean 4.33.0's kernel (every module is replayed by the checker), and the axioms listed below. No axiom is added;
   `native_decide`/`bv_decide` are not used; `decide` is evaluated by the kernel.
2. That the definitions in `Model/` transcribe the cited lines. They were written by hand from the text of `/repo`; nothing links
   them to the C++ mechanically. The mutation log (`seeded/LOG.jsonl`, made by `tools/mutate.py` from `seeded/mutations.py`) shows
   which theorems notice which realistic changes of these definitions.
3. That the definitions in `Spec/` say what the English says, and that the fragments of the Vulkan specification in
   `Spec/Gpu.lean`, `Spec/Memory.lean`, `Spec/Sync.lean`, `Spec/Queue.lean`, `Spec/Pipeline.lean` are right, as are the numeric values of the Vulkan
   enums in `Model/Vk.lean`.

Axioms of the theorems named in `MANIFEST.json` (output of `#print axioms`, by `tools/axioms.py`):

<!--AXIOMS-->

**Classical.choice, Quot.sound, propext** (346 theorems):
`Sort.compile_order_is_permutation`, `Sort.compile_runs_each_pass_once`, `Sort.deps_run_first_partial`, `Sort.cyclic_graph_accepted`, `Sort.compile_order_spec`, `Sort.sort_fails_iff_no_order_partial`, `Sort.sortable_implies_sorted`, `Groups.pass_ids_unique`, `Groups.createPassGroup_existing`, `Groups.createPassGroup_idempotent`, `Groups.group_ids_unique`, `set_then_get_sub`, `set_then_get_disjoint`, `set_then_get_disjoint_first_partial`, `get_unknown_is_undefined`, `get_is_some_subresource`, `get_uniform_layout`, `view3D_read_back_partial`, `Rerec.rerecording_repeats_partial`, `Rerec.rerecording_draws_partial`, `Rerec.example_repeats`, `Rerec.example_draws`, `Flight.objects_outlive_submissions`, `Flight.objects_outlive_submissions_partial`, `Flight.rerecording_keeps_iff`, `Dot.passes_text_partial`, `Dot.passes_read_partial`, `Dot.transitions_text_partial`, `Dot.transitions_read_partial`, `Dot.sample_named`, `Dot.quote_unreadable`, `Dot.quote_misread`, `Dot.backslash_unreadable`, `Dot.newline_misread`, `Dot.passes_streams_unindented`, `Dot.transitions_streams_unindented`, `Logger.logger_ends`, `Logger.mutex_free_in_callbacks`, `Logger.messages_delivered_partial`, `Logger.alone_delivered`, `Logger.default_text`, `Names.group_full_names_identify_partial`, `Names.pass_full_names_identify_partial`, `Names.group_names_identify_partial`, `Names.labels_identify`, `Names.attachment_names_tell`, `Names.attachment_names_start`, `Names.attachment_names_identify_partial`, `Names.twins_share_group_name`, `Names.plainNames`, `Ind.exProg_ends`, `Rainbow.nearest_unique`, `Gpu.barrier_frame`, `Gpu.barrier_recorded_tracked`, `Gpu.barrier_tracks_wanted_partial`, `Gpu.gpu_in_wanted_layout_partial`, `Tables.aspect_mask_table`, `Tables.barrier_range_table`, `Gpu.barrier_recorded_iff_tracked`, `Gpu.barrier_recorded_iff_untracked`, `Gpu.barrier_shape`, `Gpu.tracker_mirrors_gpu`, `Gpu.barriers_valid_partial`, `Gpu.history_valid_partial`, `Run.graph_stream_valid_partial`, `Run.executions_valid_partial`, `Gpu.buffer_barrier_recorded_iff`, `Gpu.buffer_barrier_frame`, `Gpu.buffer_last_wanted_partial`, `Tables.buffer_access_table`, `Tables.buffer_stage_table`, `Run.buffer_use_separated_partial`, `Run.storage_output_wants_write`, `Run.example_separated`, `Run.substitute_runs_once`, `Gpu.use_enabled_drops`, `Gpu.use_disabled_runs`, `Gpu.use_keeps_order`, `Gpu.implicit_at_most_once`, `Gpu.second_registration_waits`, `Run.pipeline_states_partial`, `Run.dependency_state_lost`, `Run.announced_is_wanted`, `Run.announced_next_partial`, `Run.announced_nothing`, `Run.told_next_partial`, `Run.told_output`, `Run.example_told`, `Run.current_lookup_remembers`, `Run.current_lookup_stable`, `Deps.matchView_iff`, `Deps.dependsOn_terminates`, `Deps.view_dependency_exact_partial`, `Deps.buffer_dependency_exact_partial`, `Deps.view_keys_distinct`, `Deps.buffer_keys_distinct_partial`, `Deps.buffer_keys_low`, `Deps.buffer_key_pass`, `Deps.buffer_keys_collide`, `Deps.overlap_iff_partial`, `Deps.view_transitions_distinct`, `Deps.graph_connected`, `Deps.graph_acyclic`, `Deps.graph_rooted`, `Deps.edge_carries_data_partial`, `Merge.merged_is_bounding_box`, `Merge.merged_covers_partial`, `Merge.merged_type_holds_partial`, `Merge.merged_2d_type`, `Merge.merged_cubes_hold_partial`, `Res.view_ids_iff`, `Res.image_id_resolves`, `Res.view_id_resolves_partial`, `Res.repeated_creation_same`, `Res.all_closed_nothing_left_partial`, `Res.explicit_destroy`, `Res.quad_buffers_same_iff`, `Res.cached_destroyed_once`, `Res.sampler_same_partial`, `Res.sampler_confused`, `Sig.emission_calls_each_once`, `Sig.emissions_call_connected_partial`, `Sig.connect_first_correct`, `Sig.reconnect_lost`, `Sig.reassign_lost`, `Sig.connecting_never_ends`, `Timer.queries_disjoint_in_pool`, `Timer.reads_submitted_partial`, `Pipe.pool_sizes_exact`, `Pipe.objects_valid`, `Pipe.bound_as_configured`, `Tables.image_stage_table`, `Tables.image_access_table`, `Att.image_direction`, `Att.buffer_direction`, `Att.image_access_matches`, `Att.buffer_access_matches`, `Att.image_layout_allows_partial`, `Att.transfer_inout_layout_wrong`, `Att.implicit_attachment`, `Att.layout_masks_agree`, `Att.sampled_in_compute_stage_wrong`, `Att.implicit_direction`, `Att.buffer_fields`, `RPass.reuse_fits_tracked`, `Mip.mipmaps_generated_partial`, `Mip.mipmaps_work`, `Mip.example_good`, `Mip.one_level_left_behind`, `Mip.remaining_layers_overrun`, `Run.aligned_size_least`, `Sync.destruction_safe_partial`, `Sync.destruction_safe_single_partial`, `Gpu.blit_region_partial`, `Gpu.blit_region_wrong`, `Tables.clears_right`, `Gpu.copy_leaves_final`, `Gpu.good_history`, `Run.promised_layouts_ready_partial`, `Run.adders_prepared`, `Tables.declared_images_ready_partial`, `Run.passes_start_ready_partial`, `Run.remembered_once_partial`, `Run.clear_records_fill`, `Run.clear_covers_partial`, `Deps.data_dependency_is_edge_partial`, `Deps.buffer_dependency_is_edge_partial`, `Deps.adders_fill_take`, `Deps.connected_attachments_reported_partial`, `Deps.outer_attachments_reported_partial`, `Deps.outer_buffers_reported_partial`, `Res.quad_texcoords_plain`, `Res.quad_texcoords_inverted`, `Mip.output_layout_partial`, `Mip.output_layout_ignored`, `Pipe.nothing_left_partial`, `Pipe.never_undefined`, `RPass.parts_correspond`, `RPass.render_instance_partial`, `RPass.graph_with_render_passes_valid_partial`, `RPass.area_fits_partial`, `Xfer.image_copy_contents_partial`, `Xfer.image_copy_pass_contents_partial`, `Xfer.buffer_to_image_contents_partial`, `Xfer.image_to_buffer_contents_partial`, `Xfer.blit_pass_region_partial`, `Xfer.copy_skips_levels`, `Xfer.buffer_offset_ignored`, `Xfer.buffer_offset_overwrites`, `Xfer.example_copy`, `Lib.library_graph_valid_partial`, `Lib.library_executions_valid_partial`, `Lib.example_library`, `Lib.example_frames`, `Lib.image_copy_final_layout_partial`, `Gpu.substitute_copy_contents_partial`, `Gpu.substitute_copy_ready_partial`, `Gpu.substitute_clear_contents`, `Gpu.substitute_blit_contents_partial`, `Gpu.example_substitute_copy`, `Gpu.example_substitute_clear`, `RPass.targets_cleared_partial`, `RPass.targets_stored`, `RPass.drawing_contents_partial`, `RPass.example_cleared`, `RPass.example_prepared`, `Gpu.prepared_contents`, `Run.tracked_never_discarded_partial`, `Run.used_images_kept_partial`, `Run.drawn_images_kept_partial`, `Run.example_used_kept`, `Run.example_drawn_kept`, `RPass.drawing_ordered_partial`, `RPass.next_waits_partial`, `RPass.library_keeps_pipeline`, `RPass.example_ordered`, `Draw.bound_pipeline_fits`, `Draw.blends_declared`, `Draw.one_index_exact`, `Draw.quad_index_exact`, `Draw.created_with_live`, `Draw.area_covered_iff`, `Draw.coverage_examples`, `DrawCmd.quad_draws`, `DrawCmd.quad_draws_indirect`, `DrawCmd.quad_covers_viewport`, `DrawCmd.mesh_draws`, `DrawCmd.mesh_draws_indexed_partial`, `DrawCmd.mesh_draws_indirect`, `DrawCmd.mesh_without_vertices`, `RPass.unchanged_kept_iff`, `RPass.written_tracked_rebuilt`, `Settle.settles_partial`, `Settle.repeats_exist`, `Settle.record_again`, `Life.never_destroys_twice`, `Life.misuse_meaning`, `Life.objects_belong_to_graphs`, `Life.all_destroyed_nothing_left`, `Life.destroyed_graph_leaves_nothing`, `Life.refused_graph_leaves_partial`, `Life.refused_pass_leaves_nothing`, `Life.refused_graph_loses_semaphore`, `Life.accepted_image_is_made_partial`, `Life.refused_image_is_never_made`, `Life.refused_sampler_is_null`, `Life.refused_quad_is_null`, `Life.cache_closed_leaves_nothing`, `Deps.outer_images_directed_partial`, `Deps.outer_buffers_directed_partial`, `Deps.outer_input_reported_as_output`, `Deps.example_directions`, `Dot.passes_exported_partial`, `Dot.compiled_exported_partial`, `Dot.passes_shaded_partial`, `Dot.transitions_shaded_partial`, `Dot.compiled_nodes`, `Dot.edges_printed_once`, `Dot.transitions_exported_partial`, `Dot.split_exported_partial`, `Dot.lone_pass_not_exported`, `Dot.transitions_stream_malformed`, `Dot.external_destination_undeclared`, `Thr.linearizable`, `Thr.final_state`, `Thr.access_owned`, `Thr.race_free`, `Thr.no_deadlock`, `Thr.finishes`, `Thr.concurrent_image_ids`, `Thr.concurrent_view_ids`, `Thr.concurrent_images`, `Thr.concurrent_views`, `Thr.view_image_made`, `Thr.view_of_live_image_partial`, `Deps.edge_transitions`, `Deps.edge_view_transitions_partial`, `Deps.edge_buffer_transitions_partial`, `Deps.buffer_edge_iff_partial`, `Thr.live_objects`, `Thr.destroyed_live`, `Thr.destroyed_at_most_once`, `Thr.fresh_of_distinct`, `Brk.frame_commands_placed_partial`, `Times.gpu_time_reported`, `Times.gpu_time_exact_partial`, `Times.gpu_time_wrong`, `Times.gpu_time_rounded`, `Times.gpu_time_other_device`, `Times.gpu_time_read_again`, `Times.cpu_time_spent_partial`, `Times.cpu_time_grows`, `Times.blocks_stopped_once`, `Times.nested_blocks_miscounted`, `Use.frame_commands_legal_partial`, `Use.kept_object_legal`, `Use.mipmaps_depth_illegal`, `Run.history_kept_partial`, `Run.history_kept_for_ever_partial`, `Run.remembered_never_discarded_partial`, `Run.used_remembered_partial`, `Run.drawn_remembered_partial`, `Run.parts_and_whole_declared_partial`, `Run.parts_and_whole_ready_partial`, `Run.parts_and_whole_valid_partial`, `Run.parts_and_whole_executions_partial`, `Run.transfer_bodies`, `Run.half_used_invalid`, `Run.parts_drawn_ready_partial`, `Run.parts_drawn_valid_partial`, `Run.parts_drawn_executions_partial`, `Run.example_parts_drawn`, `Run.parts_substituted_ready_partial`, `Run.parts_substituted_valid_partial`, `Run.parts_substituted_executions_partial`, `Run.part_substitute_not_run`, `Run.example_substituted_runs`, `Run.dependency_data_flows_partial`, `Run.dependency_data_flows_declared_partial`, `Run.example_flow`, `Run.example_flow_declared`, `Multi.chained_graphs_valid_partial`, `Multi.chained_graphs_declared_partial`, `Multi.chained_contents_kept_partial`, `Multi.used_known_partial`, `Multi.shared_images_valid_partial`, `Mem.image_memory`, `Mem.image_memory_succeeds`, `Mem.quad_memory`, `Mem.quad_vertices_read`, `Lab.command_buffer_valid`, `Lab.example_buffer`, `Haz.transfers_ordered_partial`, `Haz.transfer_then_pass_partial`, `Haz.pass_then_transfer_partial`, `Haz.pass_then_pass_partial`, `Haz.never_forgotten_partial`, `Haz.example_ordered`, `BHaz.buffer_uses_ordered_partial`, `BHaz.example_buffer_ordered`, `Multi.chained_buffer_uses_ordered_partial`, `Multi.chained_image_uses_ordered_partial`, `Multi.chained_uses_ordered_partial`, `Multi.chained_never_forgotten_partial`, `Multi.example_buffer_chain`, `Multi.example_image_chain`

**Quot.sound, propext** (174 theorems):
`Sort.self_dependency_accepted`, `Sort.compile_errors`, `Groups.nth_pass_has_id_n`, `Groups.createPass_throws_iff`, `Groups.createPass_throws_unchanged`, `Groups.createPass_appends`, `Groups.pass_names_unique`, `Groups.createPassGroup_new`, `Groups.sibling_group_names_unique`, `Groups.listPasses_complete`, `Groups.created_pass_stays`, `Rerec.rerecording_changes_nothing`, `Rerec.rerecording_idempotent`, `Rerec.rerecorded_instances`, `Rerec.library_blind`, `Rerec.never_recorded`, `Rerec.record_erase`, `Flight.exProg_tidy`, `Dot.written_indented`, `Dot.indented_zero`, `Dot.indented_indented`, `Dot.row_indented`, `Logger.disciplined_no_race_partial`, `Logger.logging_only_no_race`, `Logger.exProgs_end`, `Logger.set_races_with_log`, `Logger.set_in_callback_races`, `Logger.callback_called_twice_at_once`, `Logger.lines_mixed`, `Names.fullName_child`, `Names.fullName_exists`, `Names.full_names_stable`, `Names.slashes_confuse`, `Names.pass_and_group_share_name`, `Ind.buffers_never_misused`, `Ind.buffers_are_owned`, `Ind.buffers_all_deleted`, `Ind.texts_as_alone`, `Rainbow.rounding_is_single_precision`, `Rainbow.incr_is_one_eightieth`, `Rainbow.colours_vivid`, `Rainbow.colour_same_iff`, `Rainbow.neighbours_apart`, `Rainbow.end_of_round_alike`, `Rainbow.process_colours_vivid`, `Rainbow.frame_colours_distinct`, `Rainbow.recorded_graph_colours`, `Rainbow.recorded_again_recoloured`, `Tables.context_import_images`, `Tables.dependency_states`, `import_keeps_known`, `import_first_wins`, `Gpu.import_buffers`, `Gpu.import_buffers_first_wins`, `Gpu.import_previous_state`, `Run.entered_is_given`, `Gpu.buffer_ranges_confused`, `Run.example_substitute`, `Gpu.use_without_pending`, `Run.record_runs_enabled`, `Run.previous_state_after_disabled`, `Run.second_shared_image_not_announced`, `Run.other_level_hides_next_user`, `Deps.chain_ok`, `Deps.merged_writer_not_seen`, `Deps.overlap_invented`, `Deps.buffer_transitions_distinct`, `Res.image_ids_fresh`, `Res.view_components_lost`, `Res.destroyed_once`, `Res.never_destroyed_twice`, `Res.foreign_destroy_ignored`, `Res.view_first_leaks`, `Res.closing_destroys_foreign_image`, `Sig.valid_iff_connected_partial`, `Sig.signal_end_invalidates`, `Sync.fences_respected_partial`, `Sync.plain_programs_respect_fences`, `Sync.reset_after_timeout`, `Sync.wait_after_reset_hangs`, `Run.convert_spec`, `Timer.poolSize_word`, `Timer.reads_iff_recorded_and_notified`, `Pipe.exOps_compute`, `Pipe.exOps_render`, `Att.layout_masks_cover`, `Att.pipeline_state_covers`, `RPass.reuse_begins_invalid`, `RPass.reuse_ignores_final`, `RPass.reuse_clears_again`, `Ctx.deduces_lowest_suitable`, `Run.aligned_size_word`, `Ctx.report_exact_partial`, `Ctx.example_history`, `Ctx.same_value_forgotten`, `Ctx.null_never_removed`, `Sync.destroyed_in_order`, `Sync.run_destroys_all`, `Sync.example_schedule_ok`, `Sync.scheduled_after_last_run_never`, `Sync.other_graph_destroys`, `Sync.destroyed_before_submission`, `Run.initialised_once_before_use`, `Run.noTransition_left_alone`, `Run.example_tidy`, `Run.clear_misses_bytes`, `Deps.partial_write_no_edge`, `Deps.merged_view_no_edge`, `Deps.bufferChain_ok`, `Deps.copied_buffer_no_edge`, `Deps.second_reader_no_edge`, `Mip.example_announced`, `Pipe.compute_pipeline_leaks`, `RPass.stencil_load_invalid`, `RPass.aPasses_tidy`, `RPass.area_exceeds_smaller`, `Xfer.buffer_copy_contents`, `Xfer.inout_source_invalid`, `Gpu.substitute_copy_discards_source`, `Gpu.substitute_copies_one_layer`, `RPass.unknown_input_cleared`, `RPass.depth_only_loses_stencil`, `RPass.input_target_lost`, `RPass.sampled_by_drawing_unordered`, `RPass.later_reader_unordered`, `RPass.depth_unordered`, `Draw.uses_exact`, `Draw.formats_mixed`, `Draw.dependencies_mixed`, `Draw.mesh_index_mixed`, `Draw.quad_reset_mixed`, `Draw.viewport_configured`, `Draw.no_size_draws_nothing`, `DrawCmd.primitive_count_is_index_count`, `Queue.tidy_is_safe_partial`, `Queue.session_tidy`, `Queue.session_safe`, `Queue.destroy_chained_waited_safe`, `Queue.ignored_result_not_safe`, `Queue.destroy_in_flight_not_safe`, `Queue.destroy_chained_not_safe`, `Dot.common_spec`, `Thr.steps_bounded`, `Thr.view_of_destroyed_image`, `Deps.buffer_transitions_fill_take`, `Brk.frame_instances_partial`, `Brk.frame_well_formed_partial`, `Skip.disabled_left_out_partial`, `Skip.disabled_seen_by_reuse`, `Cfg.base_configured`, `Cfg.quad_pipeline_configured`, `Cfg.quad_states_configured`, `Cfg.quad_control_configured`, `Cfg.quad_commands_configured`, `Cfg.mesh_pipeline_configured`, `Cfg.mesh_states_configured`, `Cfg.mesh_control_configured`, `Cfg.mesh_commands_configured`, `Cfg.compute_pipeline_configured`, `Cfg.compute_control_configured`, `Cfg.compute_commands_configured_partial`, `Cfg.builder_first_build`, `Cfg.builder_second_build_wrong`, `Cfg.mesh_cull_mode_fixed_wrong`, `Run.accumulated_target_always_discarded`, `Run.frameUses_graphUses`, `Multi.example_chain`, `Multi.untold_graph_misplaces`, `Multi.stale_dependency_misplaces`, `Lab.command_buffer_anatomy`, `Haz.two_writes_unordered`, `Haz.general_never_ordered`, `Haz.clear_then_storage_unordered`, `Multi.untold_buffer_unordered`

**none** (5 theorems):
`Logger.delivered_unique`, `Gpu.buffer_untracked_not_remembered`, `Timer.example_reads`, `Mip.example_work`, `RPass.area_of_last_level`

**propext** (86 theorems):
`Sort.no_root_no_order`, `set_then_get_other_image`, `view3D_partial_levels_stale`, `view3D_state_lost`, `Rerec.example_repeats_what`, `Rerec.first_rerecording_differs`, `Flight.exProg_destroys`, `Flight.exNew_new`, `Flight.reset_destroys_render_pass`, `Flight.other_graph_destroys_pipeline`, `Flight.destroy_in_flight`, `Flight.destroy_in_flight_frees`, `Logger.logger_never_stuck`, `Logger.exProgs_disciplined`, `Ind.shared_stream_misused`, `Ind.shared_stream_leaks`, `Rainbow.blocks_coloured`, `Rainbow.blocks_of_each_recording`, `Tables.dependency_states_in_frame`, `Gpu.barrier_mixed_range_left_behind`, `Gpu.barrier_untracked_not_remembered`, `Gpu.mixed_range_barrier_invalid`, `Gpu.separate_aspects_barrier_invalid`, `Gpu.sourceState_exists`, `Run.followed_adders`, `Run.buffer_inout_not_separated`, `Run.uniform_read_not_separated`, `Run.image_general_not_separated`, `Run.image_write_not_made_available`, `Run.next_lookup`, `Run.current_lookup`, `Deps.stores_is_writes`, `Deps.cyclic_answer_depends_on_history`, `Deps.buffer_writers_confused`, `Deps.buffer_answer_confused`, `Deps.overlap_missed`, `Deps.covers_iff`, `Deps.chain_wellFormed`, `Merge.unmerged_levels_dropped`, `Merge.remaining_levels_lost`, `Merge.unmerged_cube_invalid`, `Sig.disconnecting_later_calls_twice`, `Sig.disconnecting_two_undefined`, `Sync.example_disciplined`, `Timer.example_timers`, `Timer.example_uses`, `Timer.read_hangs`, `Pipe.early_reset_invalid`, `Pipe.same_binding_invalid`, `Att.separate_layout_masks_empty`, `Att.layout_follows_direction`, `Att.flags_are_bits`, `Att.image_fields`, `Att.pipeline_state_omits_shader_write`, `Ctx.example_deduce`, `Ctx.dispatch_configured_partial`, `Ctx.dispatch_exact`, `Ctx.dispatch_wrong`, `Ctx.dispatch_undefined`, `Run.aligned_size_wraps`, `Run.disabled_pass_records_nothing`, `Run.example_honest`, `Run.unused_execution_forgets`, `Deps.remaining_transition_lost`, `Pipe.reset_ignored_with_creator`, `RPass.depth_then_stencil_loses_depth`, `RPass.targets_are_attachments`, `RPass.drawing_renders`, `Lib.example_well`, `Xfer.transfer_inout_layout`, `RPass.declared_contents`, `RPass.drawing_waits`, `Draw.uses_legal`, `DrawCmd.quad_defaults`, `DrawCmd.example_draws`, `RPass.drawn_then_sampled_kept`, `RPass.sampled_then_drawn_rebuilt`, `Settle.first_may_differ`, `Life.refused_quad_loses_buffer`, `Dot.same_name_mixed`, `Dot.split_loses_external`, `Skip.disabled_seen_by_callback`, `Cfg.settled_unique`, `Multi.example_chain_declared`, `Mem.example_memory`, `BHaz.halves_unordered`

<!--/AXIOMS-->

### Modelled

| code | model |
|------|-------|
| FrameGraph.cpp 22-153, 155-332, 403-683 (sorting, groups, inputs/outputs/final states, range helpers, masks) | Sort, Groups, Layout, Vk, RunnableGraph, Dependency |
| FramePassGroup.cpp 15-127 | Groups |
| FramePass.cpp 18-142, 156-264 (dependsOn), 266-275, 277-541, 642-974 (add… methods), 544-638 (mergeViews) | Dependency, Sort, Attachment, Merge |
| Attachment.hpp, Attachment.cpp | Attachment |
| FramePassDependenciesBuilder.cpp, GraphBuilder.cpp, GraphNode.cpp, AttachmentTransition.cpp | Dependency |
| LayerLayoutStatesHandler.cpp, RecordContext.cpp | Layout, RecordContext |
| RunnablePass.cpp (constructor, initialise, recordInto, fence, semaphores), RunnableGraph.cpp (record, run, lookup of states) | RunnableGraph, Sync, Timer |
| ResourceHandler.cpp, ImageViewData.hpp, Id.hpp | Resources |
| RunnableGraph.cpp 163-285, RunnablePass.cpp 130-262, 326-350, 528-547, ResourceHandler.cpp (creation and destruction under a refusing driver) | Lifetime |
| ResourceHandler.cpp 177-232, 306-415 (memory, quad vertices) | Allocation |
| GraphContext.cpp 201-244, RunnablePass.cpp 384-386 (colours of debug blocks) | Colours |
| RunnablePass.cpp 383-388, 492-494, RunnableGraph.cpp 311-313, 339-340 (timestamps, debug blocks) | Labels |
| RunnablePass.cpp 253-257, 326-370 (snapshots, reRecordCurrent) | Rerecord |
| RunnableGraph.cpp 287-345, 362-393, RunnablePass.cpp 326-361, RenderPassHolder.cpp 115-186, `resetPipeline` of the passes, GraphContext.hpp 345-369, `~RunnableGraph` (267-285), `~Fence`, `~PipelineHolder`, `~RenderPassHolder` (objects in flight) | Flight |
| FrameGraph.hpp 66-69, 115-118 (`addDependency`), RunnableGraph.cpp 287-345 across graphs | Multi |
| RunnableGraph.cpp 267-285, 362-393, RunnablePass.cpp 44-59, 130-198 (use of the queue) | Queue |
| DotExport.cpp 253-855 (what is written where), GraphNode.cpp 94-99 | Dot |
| DotExport.cpp 25-93, 185-855 (the characters: indent buffers, quotes, colours) | DotText |
| DotExport.cpp 95-183, 211-246 (table of indent buffers, under threads) | Indent |
| Signal.hpp | Signal |
| Log.cpp, Log.hpp | Log |
| FramePassGroup.cpp 196-201, FramePass.cpp 144-156 and 982-990, suffixes of the `add…` methods, RunnablePass.cpp 385 (names) | Names |
| FramePassTimer.cpp | Timer, Times |
| GraphContext.cpp (deduceMemoryType, object registry), ComputePass.cpp | Context |
| PipelineHolder.cpp, RenderQuadHolder.cpp, RenderMeshHolder.cpp, RenderQuad.cpp, RenderMesh.cpp, WriteDescriptorSet.hpp | Pipeline, Drawing, DrawCommands |
| PipelineConfig.hpp, RenderQuadConfig.hpp, RenderMeshConfig.hpp, configuration of ComputePass.hpp, RenderQuad.hpp (builder), PipelineHolder.hpp (builder) | Config |
| RenderPassHolder.cpp, RenderPass.cpp | RenderPass |
| ResourceHandler.cpp:142-511 with its mutexes | Threads |
| GenerateMipmaps.cpp | Mipmaps |
| BufferCopy.cpp, ImageCopy.cpp, ImageBlit.cpp, BufferToImageCopy.cpp, ImageToBufferCopy.cpp | Transfer |

### Not modelled

DotExport.cpp 114-130 (end of the table of indent buffers), the visitor interface; real GPU execution times; driver errors other than refused creations of `Model/Lifetime.lean` (elsewhere only the throwing decision is modelled where a property needs it);
threads other than those that call a `ResourceHandler` (C81, C82, C84: its mutexes and the order of steps are modelled; everything else takes each call of the handler as atomic, which C81 justifies); rasterisation and input assembly states, push
constants, shader contents; the components of clear values and blend states (each is an opaque number); sample counts; names and sampler descriptions
in the equality of attachments. Each model file's header says
what it leaves out.

## Findings

Behaviour of the code that contradicts the property a user would expect; each is a theorem (negation) in the named module.

* **Ordering** (C02, C03): without a pass that has no dependency, or with the chosen first pass, compile's behaviour departs from
  "fails iff no order" — see the negations in Props/Sort.
* **3D views** (C10): the state of a 3D view with a mip level whose depth collapses is not read back.
* **Mixed ranges** (C13, C14): the old layout of a barrier over subresources in different layouts is wrong for some of them.
* **Storage images** (C16): a write followed by a read in GENERAL records no barrier when layout and stage agree.
* **Announced layouts** (C19): only the first shared image of the next user is announced; a partly shared image hides later users.
* **Buffer dependency keys** (C21, C22): handles agreeing on their low 32 bits share cache entries.
* **areIntersecting** (C23): uses the left layer count twice: overlaps missed and invented.
* **Edges for buffers** (C50): a buffer filled by a transfer leads to no edge, and a pass that only reads a storage buffer hides the pass that fills it from later readers, which become successors of the root (Props/EdgeBuffers).
* **Edges** (C50, C51): merged views and partial overlaps produce no edge; transitions of attachments without writer get lost.
* **mergeViews** (C26): non-merged direction dropped, VK_REMAINING counts wrap, cube views with a single face.
* **Views compared without components** (C27); **view before image leaks the image**, and a cache can destroy an image another cache
  recreated (C28); **sampler cache keyed by a hash** (C29).
* **Quad texture coordinates** (C52): inverted coordinates are off by exactly one.
* **Signal** (C30): connection numbers are reused: a new connection can be lost, a slot called twice.
* **Fences and deletion** (C31, C43): reset after a timed out wait; the deletion queue is shared between graphs in flight.
* **Timer** (C34): a pass disabled between record and run makes the read wait for ever.
* **In-out transfer attachments** (C36, C64): put in TRANSFER_DST, hence a copy from them is invalid.
* **Render pass reuse** (C37, C60): begun from the wrong layout when the recording doesn't track the image; final layouts and load operations
  not compared (an accumulated target is cleared every frame); stencil loaded from UNDEFINED.
* **Render area** (C62): the largest attachment, not the smallest; level extents without the minimum 1.
* **What drawing waits for** (C70): a drawing pass sampling, in its fragment shader, what was drawn just before waits for nothing at that
  stage; nor do readers after the next pass, nor anything about depth and stencil targets.
* **Pipelines of passes with several indices** (C71): the pipeline bound may have been made for the render pass of another index
  (one program; or a mesh pass; or `resetPipeline` for another index than the last one recorded).
* **Viewport** (C72): the configured size, not the render area: without a configured size nothing is drawn.
* **Indexed meshes** (C73): the primitive count is passed as an index count.
* **Render passes rebuilt every frame** (C74): a target the pass only writes is remembered with input layout UNDEFINED, which differs from any tracked layout; if an earlier pass of the frame uses the image, an identical render pass (and all pipelines) is made at every recording.
* **GenerateMipmaps** (C38, C53): single level left in TRANSFER_SRC, VK_REMAINING_ARRAY_LAYERS overruns, output layout ignored.
* **Dispatch callbacks** (C40): the callback of X is called for Y and Z.
* **Object registry** (C42): objects of different types with one handle value are confused.
* **Blits** (C45, C63): second corner is the extent, not offset + extent.
* **Remembered states** (C48): one execution that doesn't use an image forgets it.
* **Buffer clears** (C49): unaligned offsets are rounded up: the first bytes are not cleared.
* **Copy passes** (C63): only the first level of the views is copied; the offset of the declared buffer range is ignored by copies
  between buffers and images (the start of the buffer is read or overwritten).
* **Compute passes** (C55): one program recorded for several indices leaks pipelines; **resetPipeline with a program creator** is ignored (C56).
* **Refused creations** (C76, C77): a runnable graph's semaphore is not destroyed if its constructor throws after creating it; an image or a sampler
  the driver refused stays registered with a null handle, which every later request gets; a quad vertex buffer the driver refused
  leaves a null pointer that later requests dereference, and leaks its buffer and memory.
* **Outer transitions** (C78): a depth, stencil, storage or transfer image that is only read, and that no pass writes, is reported as an output to the
  outside instead of an input from it.
* **Destruction of graphs** (C79): `~RunnableGraph` destroys the semaphore and frees the command buffer without waiting for the graph's fence, so a graph
  must be waited for by the user before; waiting for its own fence isn't enough if another graph in flight was given its semaphore.
  The semaphore is signaled by each run, so a graph whose results are ignored can't be run twice.
* **DOT export** (C80): `displayPasses` shows edges only, so a pass without edge isn't shown. `displayTransitions` to a stream prints the texts of
  the groups again after the closed graph, so what it prints is never valid DOT. Streams are keyed by the *name* of the group, so groups with the
  same name under different parents are mixed. An attachment outside of the graph is always declared as "ExternalSource", even if it is a
  destination. With `splitGroups`, transitions from or to outside are in no text.
* **Threads** (C82): `createImageView` takes the image's handle from `createImage`, which releases the mutex of the images before it returns;
  `destroyImage` in another thread can then destroy the image before `vkCreateImageView` uses it.
* **GPU times** (C86): `retrieveGpuTime` divides the ticks by `timestampPeriod` (nanoseconds per tick) instead of multiplying, in single precision, and keeps the period of the first device in a static variable (Props/Times).
* **CPU times** (C87): `start` overwrites the start of a block of the same timer that is still open.
* **Depth mipmaps** (C88): `GenerateMipmaps` blits with `VK_FILTER_LINEAR` even for depth and stencil images, which Vulkan forbids.
* **Disabled passes** (C89): the pipeline states announced step over every pass of the list, disabled ones too, so a render pass made in an earlier frame is remade, or used again though it doesn't fit, depending on passes that don't run (Props/Skip).
* **Quad builder used twice** (C90): `RenderQuadBuilderT::build` moves the builder's pipeline configuration away, so the second pass built has no program (and no program creator, push constants): creating its pipeline is out of range (Props/Config, `builder_second_build_wrong`).
* **Cull mode of meshes** (C90): the callback is asked once, when the pass is constructed; every other callback is asked at each recording.
* **Push constants** (C90): `cp::Config::pushConstants( VkPushConstantRangeArray )` calls the member variable `m_pushConstants` as a function and does not compile when used; `rq::Config` and `rm::Config` have no such setter (only through `baseConfig`), and the quad builder has no setter for layouts, end callback and indirect buffer.
* **Accumulated targets** (C91): a colour target that is only drawn over is cleared by every execution, for ever: the render pass made when nothing was known of it is used again whatever is known later (Props/History, `accumulated_target_always_discarded`).
* **Half used images** (C92): if one of the passes writing the levels (or layers) of an image is disabled, the barrier of the whole image states for all of it the layout of the parts used in this execution, though the others are in the layout the previous execution left: the fallbacks to the inputs and to the final state are by view, not by subresource (Props/Mixed, `half_used_invalid`).
* **Graphs sharing images** (C94): a graph that isn't told of the others (no `addDependency` on the one run just before) believes its images are where it left them; and if it has several dependencies that know the image, the first one added wins, even if another one moved the image since. Both give barriers from a layout the image isn't in (Props/Multi, `untold_graph_misplaces`, `stale_dependency_misplaces`). Two graphs run in turn must depend on each other.
* **Two writes** (C97): two passes that write a same image by transfers, one after the other, or a transfer target that is cleared and then written by its pass, have no barrier in between, layout and stage being the same (Props/Hazards, `two_writes_unordered`).
* **Parts of a buffer** (C98): a pass that reads one part of a buffer makes the next reader of another part skip its barrier, the state being kept by buffer and the barrier covering only the attachment's range (Props/BufferHazards, `halves_unordered`).
* **Buffers between graphs** (C99): a graph that doesn't depend on the one that wrote a buffer starts from no state, and its barrier waits for no access (Props/MultiHazards, `untold_buffer_unordered`); a graph's own previous execution is no dependency.
* **Storage images** (C97): barriers to GENERAL end in BOTTOM_OF_PIPE without accesses, so that storage accesses wait for nothing, even the clear of a clearable storage image (Props/Hazards, `clear_then_storage_unordered`).
- C100: `reRecordCurrent` looks an image the snapshot doesn't know up in the states the graph remembers *now*, not in those
  of the moment of the snapshot. After the first recording of a graph, re-recording a pass therefore gives other barriers
  (`first_rerecording_differs`). The command buffer it records into is never submitted by the library.
- C101: `resetPipeline` of a quad or mesh pass of a graph in flight re-records the pass; when that makes its render pass again
  (it does as soon as an earlier pass used a target the pass only writes: `rerecording_keeps_iff`), the framebuffer and render pass
  the device is using are destroyed at once, and for a mesh pass its pools, sets and pipelines too (`reset_destroys_render_pass`).
  And the pipeline `resetPipeline` schedules is destroyed by the next run of *any* graph of the context, which only waits for its own
  fence (`other_graph_destroys_pipeline`).
- C102: names are written between quotes as they are. A name with a quote makes the text unreadable (`quote_unreadable`) or say
  something else (`quote_misread`: one pass becomes two nodes), one that ends with a backslash makes it unreadable, and a name of
  several lines is changed by the indentation (`newline_misread`).
* **Substitutes of parts** (C92): an action registered for the view of one level is not run when a later pass uses a view of the whole image; the whole's barrier then names a wrong old layout (Props/MixedImplicit).
- C101: `~RunnableGraph` neither waits for its fence nor asks for it to have been waited for: a graph destroyed in flight frees its semaphore, command buffer, fence and the objects of its passes while the device uses them (`destroy_in_flight`). A pipeline replaced and not executed from the deletion queue before the graph is destroyed is destroyed later, by the run of any other graph, which is fine.
- C103: the logger's mutex is released before its callbacks are read or assigned: setting a callback while another thread logs to that level is a data race (`set_races_with_log`), and a callback that replaces itself is destroyed while it runs (`set_in_callback_races`). Calls of one callback overlap; with the default ones lines of different threads get mixed (`lines_mixed`). On the other hand a callback may log.
- C104: `getGroupName`, which names nodes, timers and objects, does not tell passes of groups called alike apart, though `getFullName` does; and no name is checked for '/', so full names clash too when one contains it.
- C106: a pass's debug colour depends on the number of blocks begun before in the process: recorded again, every pass of a frame changes colour unless the number of blocks is a multiple of 81 (`recorded_again_recoloured`); the last two colours of a round are the same red to the eye (`end_of_round_alike`).

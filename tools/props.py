import json
P=[]
def p(title,statement,quantifier,why,anchors):
    P.append(dict(id="C%02d"%(len(P)+1),title=title,statement=statement,quantifier=quantifier,why_tests_cant=why,anchors=anchors))
S="source/RenderGraph/";I="include/RenderGraph/"
# A sort
p("Compilation executes every declared pass exactly once",
 "Whenever FrameGraph::compile orders the passes without throwing, the resulting execution order contains every pass declared on the graph (in any group) exactly once: none is dropped, duplicated or invented.",
 "every finite set of declared passes and every dependency relation between them, including dependencies on passes of other graphs",
 "a dropped pass would only show for particular dependency shapes; the number of graphs is infinite",
 [S+"FrameGraph.cpp: fgph::sortPasses, FrameGraph::compile",S+"FramePass.cpp: FramePass::dependsOn"])
p("A pass runs after every pass it depends on",
 "If compile succeeds, then for every pass P and every pass D given to P.addDependency, D is executed before P.",
 "every finite set of passes and every dependency relation",
 "requires an order argument over all DAG shapes and all declaration orders",
 [S+"FrameGraph.cpp: fgph::sortPasses",I+"FramePass.hpp: addDependency"])
p("Pass ordering fails exactly when no valid order exists",
 "compile throws 'Couldn't sort passes' if and only if no ordering of the declared passes puts all dependencies first (a dependency cycle, or a dependency that is not a pass of this graph); it always terminates.",
 "every finite set of passes and every dependency relation",
 "completeness (no spurious rejection, no missed cycle, no infinite loop) quantifies over all graphs",
 [S+"FrameGraph.cpp: fgph::sortPasses"])
# groups
p("Pass ids are unique graph-wide",
 "However pass creations are interleaved over the nested groups, all passes of a graph have pairwise different ids, and the n-th successfully created pass gets id n.",
 "every history of createPass/createPassGroup calls on every group",
 "ids are recomputed by counting a tree; a collision depends on the shape of the history",
 [S+"FramePassGroup.cpp: createPass, countPasses, getOutermost"])
p("Duplicate pass names are rejected, and only those",
 "createPass on a group throws if and only if that group already holds a pass with this name; a throwing call leaves the graph unchanged; in every reachable graph the pass names of one group are pairwise different.",
 "every history of createPass/createPassGroup calls, every group and name",
 "must hold for every name and history",
 [S+"FramePassGroup.cpp: createPass, hasPass"])
p("createPassGroup is get-or-create and group ids are unique",
 "createPassGroup(name) returns the existing child of that name, unchanged, when there is one, else a new empty child; sibling groups always have different names and all groups of a graph different ids.",
 "every history of createPass/createPassGroup calls",
 "idempotence and uniqueness over all histories",
 [S+"FramePassGroup.cpp: createPassGroup, countGroups"])
p("Compilation sees every created pass",
 "The list of passes handed to compilation consists exactly of the passes successfully created, in any group at any depth, each once.",
 "every history of createPass/createPassGroup calls, any nesting depth",
 "unbounded depth and breadth of the group tree",
 [S+"FramePassGroup.cpp: listPasses",S+"FrameGraph.cpp: FrameGraph::compile"])
# layout tracking
p("Layout tracking reads back what was written and touches nothing else",
 "After setting the layout state of a (non empty) subresource range of an image, reading the state of that range, or any non-empty sub range of it, returns it; and reading any range disjoint from it, or any other image, returns what it returned before.",
 "every history of state writes, every image, view type and range",
 "ranges and histories are unbounded; aliasing only shows in particular overlaps",
 [S+"LayerLayoutStatesHandler.cpp: setLayoutState, getLayoutState",S+"FrameGraph.cpp: addSubresourceRangeLayout, getSubresourceRangeLayout"])
p("A layout query answers a state some subresource of the range is really in",
 "The layout returned for a range is UNDEFINED when no subresource of the range has ever been given a state, and otherwise is the layout of at least one subresource of the range, the numerically smallest; when all known subresources share one layout it is that layout and the reported access mask covers the access of each of them.",
 "every tracked state and every range",
 "quantifies over all maps and all ranges",
 [S+"FrameGraph.cpp: getSubresourceRangeLayout"])
p("A 3D view's state survives",
 "Setting the layout state of a 3D view and reading it back returns it, for every mip level of the image (slices of a 3D mip are tracked as virtual layers).",
 "every 3D image extent, mip count and view range",
 "only fails for extents whose depth collapses at small mips",
 [S+"FrameGraph.cpp: getVirtualRange",S+"LayerLayoutStatesHandler.cpp"])
p("Importing another graph's final states never overwrites known ones",
 "When states of a previously executed graph are added to a recording context, an image or buffer that already has a state in the context keeps it, an image or buffer that had none gets the imported one, and importing several graphs in turn gives priority to the first.",
 "every context, every sequence of imported contexts",
 "priority between arbitrarily many sources, all keys",
 [S+"RecordContext.cpp: addStates",S+"LayerLayoutStatesHandler.cpp: addStates",S+"RunnableGraph.cpp: record"])
# barriers
p("After an image barrier request the image is in the wanted layout",
 "After memoryBarrier(view, wanted), whether or not a command was recorded, the tracked layout of the view's range is the wanted one (unless wanted is UNDEFINED and the barrier isn't forced) and no other subresource's tracked state changed.",
 "every tracked state, view, initial layout, wanted state and force flag",
 "all combinations of tracked state and arguments",
 [S+"RecordContext.cpp: memoryBarrier(image)"])
p("Image barriers are recorded exactly when needed and state the right layouts",
 "memoryBarrier records a VkImageMemoryBarrier iff it is forced or the tracked layout or stage differs from the wanted one (and wanted is not UNDEFINED); the recorded barrier goes from the tracked state (or from the given initial layout when untracked) to the wanted state.",
 "every tracked state, view, initial layout, wanted state and force flag",
 "all combinations of tracked state and arguments",
 [S+"RecordContext.cpp: memoryBarrier(image)"])
p("Recorded old layouts are the real ones",
 "Executing the recorded command stream on a GPU that starts with every image UNDEFINED, every recorded image barrier's old layout is UNDEFINED or the layout the GPU really has for every subresource of its range, at every point of every sequence of barrier requests.",
 "every sequence of image barrier requests over any images and ranges",
 "requires an invariant relating the tracker to the GPU over all histories",
 [S+"RecordContext.cpp: memoryBarrier, adaptRange, setLayoutState, getLayoutState"])
p("Buffer barriers are recorded exactly when needed",
 "memoryBarrier(buffer, initial, wanted) records a buffer barrier iff it is forced or the known access/stage (the given initial one when none is known or the known stage is BOTTOM_OF_PIPE) differs from the wanted one, the barrier's source is the last state set for that buffer, and afterwards the buffer is tracked in the wanted state; other buffers are unaffected.",
 "every sequence of buffer barrier requests",
 "all histories of buffer states",
 [S+"RecordContext.cpp: memoryBarrier(buffer), setAccessState, getAccessState"])
p("Writes are separated from later reads",
 "Between a pass that writes a storage image or buffer and a later pass that reads it, the recorded stream contains a barrier on that resource whose source access includes the write.",
 "every pair of passes and every intermediate sequence",
 "hazards depend on the whole history of states",
 [S+"RunnablePass.cpp: recordInto",S+"RecordContext.cpp: memoryBarrier",S+"FrameGraph.cpp: makeLayoutState"])
p("Implicit transitions run at most once, and only for disabled passes",
 "An action registered for a view and pass is executed at a later use of that view (pending actions of one view are served one per use, in registration order) and only if its pass is disabled at that time; it is removed either way, so it never runs twice, and actions on other views stay pending in order.",
 "every sequence of registrations and uses",
 "interleavings of registrations and uses are unbounded",
 [S+"RecordContext.cpp: registerImplicitTransition, runImplicitTransition"])
# record
p("Each recorded pass sees its own pipeline state as current",
 "While RunnableGraph::record records enabled pass i, the context's current pipeline state is the one pass i declares, the next state is that of the first enabled pass after i (pass i's own if none), and the previous state is that of the pass before.",
 "every list of passes, every subset of disabled ones",
 "2^n enablement patterns for each n",
 [S+"RunnableGraph.cpp: record, getNextState",S+"RecordContext.cpp: setNextPipelineState"])
p("The announced next layout of an image is the one its next user wants",
 "While pass i is recorded, the next layout announced for an image used by pass i is the layout in which the first later enabled pass using that image expects it, or else the graph's declared output layout.",
 "every list of passes with any images and any enablement",
 "depends on the interplay of several shared images and passes",
 [S+"RunnableGraph.cpp: gatherNextImageLayouts, mergeRanges"])
p("Current-layout lookup falls back in a fixed order",
 "The layout a pass assumes for an input is the tracked one if known, else the one declared with FrameGraph::addInput if any, else the final one of the first graph dependency order / previous execution that knows it; when the fallback is used the context is updated so that the next lookup gives the same answer.",
 "every context, graph input set, previous state and view",
 "combinations of partially known sources",
 [S+"RunnableGraph.cpp: getCurrentLayoutState, getNextLayoutState, getOutputLayoutState"])
# dependsOn
p("Per-resource dependency equals reachability through passes that don't touch the resource",
 "FramePass::dependsOn(pass, view, cache) answers true iff there is a dependency path from the pass to `pass` whose intermediate passes neither read nor write the view and whose last pass writes it; the answer doesn't depend on what was asked before with the same cache.",
 "every acyclic dependency graph, every view, every history of earlier queries with the cache",
 "memoisation correctness quantifies over all query orders",
 [S+"FramePass.cpp: FramePass::dependsOn(view), isInOutputs, isInInputs"])
p("Dependency-cache keys don't collide",
 "Two queries with a different target pass or a different view/buffer never share a cache entry.",
 "all pass ids, view ids and buffer handles of the machine's word size",
 "a collision requires specific handle values",
 [S+"FramePass.cpp: makeHash"])
p("Subresource overlap is decided correctly",
 "Two attachments are considered to share data iff some (layer, mip) subresource belongs to both views of the same image.",
 "all pairs of ranges",
 "infinitely many range pairs",
 [S+"FramePassDependenciesBuilder.cpp: areIntersecting, areOverlapping, isInRange"])
p("Transitions are not duplicated",
 "The list of attachment transitions produced by compilation never contains the same (data, writer attachment, reader attachment) triple twice.",
 "every sequence of transition insertions",
 "all insertion orders",
 [S+"FramePassDependenciesBuilder.cpp: insertTransition",S+"AttachmentTransition.cpp: mergeIdenticalTransitions"])
p("The compiled graph is rooted, connected and acyclic",
 "Every pass node is reachable from the root node; an edge A->B exists only if a transition carries data from A to B and B depends on A for it; each successor is listed once; hence the node graph has no cycle when dependencies have none.",
 "every set of nodes and transitions",
 "graph property over all inputs",
 [S+"GraphBuilder.cpp: buildGraph",S+"GraphNode.cpp: attachNode"])
p("A merged view covers all its sources",
 "The view created by mergeViews covers every subresource of every source view, within the bounding box of the sources, and keeps the sources' image and format; its view type can hold its layer count.",
 "every non-empty list of views of one image",
 "all ranges and view types",
 [S+"FramePass.cpp / FrameGraph: mergeViews"])
# resources
p("Image ids are fresh; equal views share one id and different views never do",
 "Each createImageId returns an id never returned before; createViewId returns an already returned id iff the same image and view description were given before, and ids of different descriptions differ; every id resolves to the data it was created with.",
 "every history of createImageId/createViewId calls",
 "uniqueness over all histories",
 [S+"ResourceHandler.cpp: createImageId, createViewId"])
p("A GPU image or view is created once and destroyed once",
 "Over any history of create/destroy calls through resource caches on one handler, each Vulkan image (or view) is destroyed at most once after its creation, repeated creation requests return the same live handle, and when all caches and the handler are gone every created image was destroyed.",
 "every interleaving of create/destroy calls by any number of caches",
 "ownership bookkeeping across several caches and orders",
 [S+"ResourceHandler.cpp: createImage, createImageView, destroyImage, destroyImageView, ContextResourcesCache"])
p("Samplers and quad vertex buffers are cached without confusion",
 "Two requests for a quad vertex buffer return the same buffer iff they ask for the same (texCoord, invertU, invertV); every cached sampler/vertex buffer is created once and destroyed exactly once at the end.",
 "every sequence of requests",
 "key collisions are invisible to sampled tests",
 [S+"ResourceHandler.cpp: createSampler, createQuadTriVertexBuffer, makeHash"])
p("A connected slot is called on each emission until disconnected",
 "After connect, every emission calls the slot exactly once until its connection is disconnected, after which it is never called; disconnecting one connection does not affect the others.",
 "every interleaving of connect, disconnect, move and emission",
 "histories of connections are unbounded",
 [I+"Signal.hpp: Signal::connect, disconnect, operator(), SignalConnection"])
# sync
p("A fence is never reset while its submission may be in flight",
 "Over any sequence of wait/reset/submit through the graph's fence, the fence is only reset after a wait for the latest submission, and a command buffer is resubmitted only with a reset fence.",
 "every sequence of run/wait/reset calls",
 "protocol over all histories",
 [S+"RunnablePass.cpp: Fence",S+"RunnableGraph.cpp: run"])
p("Semaphore lists handed to the queue are well formed",
 "convert keeps each distinct non-null semaphore exactly once, in first-occurrence order, with the stage mask of its first occurrence; both arrays have equal length.",
 "every list of semaphores to wait for",
 "all lists",
 [S+"RunnablePass.cpp: convert"])
p("Timer queries of different passes never alias and stay inside the pool",
 "In a graph of n passes, the timestamp queries used by the graph timer and by each pass timer are pairwise disjoint and all below the size of the query pool.",
 "every number of passes",
 "unbounded n",
 [S+"FramePassTimer.cpp",S+"RunnableGraph.cpp: constructor"])
p("GPU times are read only for queries that were written",
 "retrieveGpuTime reads query results only if the corresponding begin/end were recorded and the submission was notified since the last read.",
 "every sequence of beginPass/endPass/notify/retrieve calls",
 "all call interleavings",
 [S+"FramePassTimer.cpp: beginPass, endPass, notifyPassRender, retrieveGpuTime"])
p("Descriptor pools are large enough for the sets they serve",
 "The pool sizes computed from the bindings are, per descriptor type, the number of descriptors of this type times the set count, one entry per type; hence allocating the sets never exceeds the pool; and written bindings are exactly those declared in the layout with the same type.",
 "every list of bindings/attachments",
 "all lists",
 [S+"RunnablePasses/RenderPass.cpp: getBindingsSizes",S+"RunnablePasses/PipelineHolder.cpp: doFillDescriptorBindings, createDescriptorSet"])
p("Attachment layouts, accesses and stages are consistent with their kind",
 "For every attachment flag combination produced by the FramePass::add* methods, the layout, access mask and stage mask derived are mutually consistent: writable layouts iff the attachment is an output, access masks contain a write bit iff output, read bit iff input, stages compatible with the access.",
 "all flag combinations, formats and pipeline stages",
 "the whole decision table times all formats",
 [S+"Attachment.cpp: getImageLayout, getAccessMask, getPipelineStageFlags",S+"FramePass.cpp: add*"])
p("A cached render pass is reused only when it still fits",
 "RenderPassHolder::initialise keeps an existing VkRenderPass only if every attachment's initial and final layout it was created with are those the current recording requires.",
 "every sequence of recordings with changing contexts",
 "depends on the history of contexts",
 [S+"RunnablePasses/RenderPassHolder.cpp: initialise, checkAttaches"])
p("Mipmap generation leaves every level in the layout of the next user",
 "After GenerateMipmaps recorded its commands, every blit read a level already generated in TRANSFER_SRC and wrote a level in TRANSFER_DST, every level from 1 on was written exactly once from the previous one, and every mip level of every layer is in the announced next layout.",
 "every mip count, layer count and extent",
 "unbounded mip/layer counts",
 [S+"RunnablePasses/GenerateMipmaps.cpp"])
p("Memory type deduction returns a compatible type or throws",
 "deduceMemoryType returns the lowest memory type index allowed by the bit mask with all required properties, and throws exactly when there is none.",
 "all masks, property requirements and device memory tables",
 "all tables",
 [S+"GraphContext.cpp: deduceMemoryType"])
p("Compute dispatch uses the three configured group counts",
 "ComputePass dispatches (X, Y, Z) where each component is the value of its own configuration (callback or constant).",
 "every configuration",
 "all combinations of configured callbacks",
 [S+"RunnablePasses/ComputePass.cpp"])
p("Buffer sizes are aligned up minimally",
 "The aligned size used for clears is the least multiple of the alignment that is not smaller than the size.",
 "all sizes and power-of-two alignments",
 "64-bit arithmetic",
 [S+"RunnablePass.cpp: getAlignedSize"])
p("Object leak report is exact",
 "After any history of object registrations and unregistrations, the context holds exactly the objects registered and not yet unregistered.",
 "every history",
 "all histories",
 [S+"GraphContext.cpp: doRegisterObject, doUnregisterObject"])
p("Deferred destruction happens exactly once, after the fence",
 "Every destruction scheduled in the context's deletion queue is executed exactly once, in order, and only after the fence of the previous submission was waited for.",
 "every history of scheduling and runs",
 "all histories",
 [I+"GraphContext.hpp: ContextDeletionQueue",S+"RunnableGraph.cpp: run"])
p("A pass's GPU objects are initialised once per index, before first use",
 "Over any sequence of recordings and enable/disable changes, the initialise callback runs at most once per pass index between resets and always before record for that index; a disabled pass records no command of its own.",
 "every sequence of recordings",
 "all histories of enablement and indices",
 [S+"RunnablePass.cpp: recordInto, recordCurrentInto, reRecordCurrent"])
p("A blit done on behalf of a disabled pass covers the requested rectangles",
 "The implicit blit action reads exactly the source rectangle (offset, extent) and writes exactly the destination rectangle it was created with.",
 "all offsets and extents",
 "all rectangles, not only those at the origin",
 [S+"RecordContext.cpp: RecordContext::blitImage"])
p("Implicit copies, blits and clears are valid and leave the requested layout",
 "Whenever an implicit copy, blit or clear action runs, the GPU has the source in TRANSFER_SRC and the destination in TRANSFER_DST when the transfer executes, and the destination is in the requested final layout afterwards.",
 "every history of barriers, registrations and uses, with any nesting of pending actions",
 "actions nest through their source views; all histories and enablements",
 [S+"RecordContext.cpp: copyImage, blitImage, clearAttachment, runImplicitTransition"])
p("Every executed pass finds its images in the declared layouts",
 "In every execution of a graph, when the commands of an enabled pass start, each image it declares as sampled, storage, transfer or implicit attachment is on the GPU in the layout the declaration calls for, and all commands recorded by the library so far are valid, whatever passes were enabled in this and previous executions.",
 "every graph of non-conflicting views, every enablement, every number of executions",
 "enablement sets and histories are unbounded",
 [S+"RunnablePass.cpp: recordInto",S+"RunnableGraph.cpp: record"])
p("An image's state is remembered across executions",
 "The layout an image has at the end of an execution is the one later executions start from, even if some executions in between don't use the image.",
 "every sequence of executions and enablement changes",
 "only shows after particular sequences of executions",
 [S+"RunnableGraph.cpp: record, getCurrentLayoutState",S+"FrameGraph.cpp: registerFinalState, getFinalLayoutState"])
p("Clearing a buffer range fills that range",
 "When a pass declares a clearable buffer range, the fill recorded before the pass covers every byte of that range.",
 "every offset and size",
 "64-bit offsets and sizes",
 [S+"RunnablePass.cpp: recordInto, getAlignedSize"])
p("Every data dependency is an edge of the compiled graph",
  "If a pass declares (directly or through passes not touching the data) that it depends on another pass, and reads data that pass writes, then the compiled graph has an edge from the writer to the reader.",
  "every set of passes, attachments and declared dependencies",
  "all graphs, all combinations of views",
  ["source/RenderGraph/FramePassDependenciesBuilder.cpp: buildPassAttachDependencies","source/RenderGraph/GraphBuilder.cpp: buildGraph"])
p("Every attachment appears in a reported transition",
  "After compilation, the list of all transitions contains, for every input or output attachment of a pass, a transition that starts or ends at it.",
  "every set of passes and attachments",
  "all graphs",
  ["source/RenderGraph/FramePassDependenciesBuilder.cpp: addRemainingDependency"])
p("The quad's texture coordinates cover the image exactly",
  "Over the visible part of the full-screen quad, each texture coordinate runs from 0 to 1, or from 1 to 0 when its inversion is asked for.",
  "every point of the screen, every combination of inversions",
  "all points of a continuous area",
  ["source/RenderGraph/ResourceHandler.cpp: createQuadTriVertexBuffer"])
p("The output layout given to mipmap generation is honoured",
  "After a GenerateMipmaps pass, every level of the image is in the output layout given when the pass was created.",
  "every output layout, graph, mip count and layer count",
  "depends on what follows the pass in every graph",
  ["source/RenderGraph/RunnablePasses/GenerateMipmaps.cpp: GenerateMipmaps, doRecordInto"])
p("A program pass binds exactly the resources declared for its index",
  "When a compute, quad or mesh pass has been recorded for an index, the descriptor set it binds holds, for each binding declared through the pass's add... calls, exactly one descriptor, of the type the call asks for, naming the resource given for that index (the only one if a single one was given), images in the layout the type requires; and no other descriptor.",
  "every list of declarations with distinct binding numbers, every pass count, index, and history of recordings, pipeline resets, re-created render passes and graph runs",
  "histories and declaration lists are unbounded",
  [S+"RunnablePasses/PipelineHolder.cpp: createDescriptorSet, recordInto, doFillDescriptorBindings",S+"Attachment.cpp: getWrite"])
p("A program pass leaves no GPU object behind",
  "After a compute, quad or mesh pass is destroyed and the graph's deletion queue has run, every descriptor set layout, pipeline layout, pool, set and pipeline the pass created has been destroyed, each exactly once.",
  "every history of recordings, pipeline resets, re-created render passes and graph runs",
  "histories are unbounded",
  [S+"RunnablePasses/PipelineHolder.cpp: cleanup, resetPipeline, createPipeline",S+"RunnablePasses/ComputePass.cpp: doInitialise, resetPipeline"])
p("A recorded pass uses the program configured last",
  "When a compute, quad or mesh pass has been recorded for an index, the pipeline it binds was created from the program last given for that index: by the configuration, by a later resetPipeline, or by the program creator.",
  "every sequence of recordings and pipeline resets with any programs and indices",
  "histories are unbounded",
  [S+"RunnablePasses/PipelineHolder.cpp: getProgram, getPipeline, resetPipeline, recordInto"])
p("Program passes are memory safe for indices in range",
  "As long as indices are below the pass count, have a program and a resource in each attachment, no use of a compute, quad or mesh pass fails an assertion or accesses an array out of range.",
  "every history of operations with such indices",
  "histories are unbounded",
  [S+"RunnablePasses/PipelineHolder.cpp: getProgram, getPipeline, createDescriptorSet"])
p("A render pass object is built from the declared render targets, position by position",
  "In every render pass and framebuffer a drawing pass (quad, mesh or custom render pass) creates, there is one attachment for each colour, depth or stencil attachment declared on the pass, in declaration order: its description, its framebuffer view and the subpass reference to it all come from that declaration (format, load/store operations, layout), an attachment that is not an input starts UNDEFINED, one that starts UNDEFINED is never loaded, and the final layout is never UNDEFINED.",
  "every list of attachments, index, graph state and recording context",
  "attachment lists and the tracked states they meet are unbounded; a shifted index only shows with particular mixtures of attachments",
  [S+"RunnablePasses/RenderPassHolder.cpp: doCreateRenderPass, doCreateFramebuffer, addAttach"])
p("Exactly the colour, depth and stencil attachments become render targets",
  "Every image attachment is either moved to its layout by a barrier before the pass's body (sampled, storage, transfer, implicit) or made an attachment of the pass's render pass (colour, depth, stencil): never both, never neither.",
  "every public method declaring an image attachment, every binding and view list",
  "the classification is spread over flag tests in different classes",
  [I+"Attachment.hpp: isColourAttach, isDepthAttach, isStencilAttach",S+"RunnablePass.cpp: recordInto"])
p("A drawing pass begins its render pass validly and leaves the targets in the announced layout",
  "When a drawing pass is recorded, each render target is, when the render pass is begun, in the layout the render pass starts from (or its contents are discarded), in the declared layout while the pass draws, and afterwards in the layout its next user wants, which the graph then tracks; no other image changes.",
  "every graph state, tracked state, pass, index and previous recording",
  "depends on everything recorded before, in any graph",
  [S+"RunnablePasses/RenderPassHolder.cpp: initialise, begin, end",S+"RunnablePasses/RenderPass.cpp: doRecordInto"])
p("Graphs mixing drawing and other passes record valid frames",
  "For any graph mixing drawing passes with passes that only use the recording context, every recorded frame is a valid command stream: each barrier, copy and render pass finds the images in the layouts it states, and the layouts remembered afterwards are the real ones.",
  "every list of passes, enabled set, pass index, input declaration and previous execution",
  "frames and histories are unbounded",
  [S+"RunnableGraph.cpp: recordContext, record",S+"RunnablePass.cpp: recordInto",S+"RunnablePasses/RenderPassHolder.cpp: initialise, begin, end"])
p("The framebuffer is not larger than its attachments",
  "The framebuffer and render area of a drawing pass are never larger, in width, height or layers, than any of its attachments, and at least as large as the configured size.",
  "every list of attachments, mip level, index and configured size",
  "sizes and mixtures are unbounded",
  [S+"RunnablePasses/RenderPassHolder.cpp: doInitialiseRenderArea, doCreateFramebuffer"])
p("Copy and blit passes transfer exactly the configured region",
  "After a copy pass (image to image, buffer to buffer, buffer to image, image to buffer) has executed, every texel or byte of the configured region of its destination - in all the levels and layers of the declared view, from the start of the declared buffer range - holds what the corresponding texel or byte of the source held before, and no other texel or byte changed; a blit pass blits the configured source rectangle to the configured destination rectangle.",
  "every size, offset, view, number of attachment pairs and contents of memory",
  "regions and contents are unbounded",
  [S+"RunnablePasses/ImageCopy.cpp: doRecordInto",S+"RunnablePasses/BufferCopy.cpp: doRecordInto",S+"RunnablePasses/ImageBlit.cpp: doRecordInto",S+"RunnablePasses/BufferToImageCopy.cpp: doRecordInto",S+"RunnablePasses/ImageToBufferCopy.cpp: doRecordInto"])
p("Graphs of library passes record valid frames",
  "For any graph of passes provided by the library - drawing, copying or blitting images and buffers, generating mipmaps - and of passes using only the recording context, every recorded frame is a valid command stream, and the layouts remembered afterwards are the real ones.",
  "every list of passes, configuration, enabled set, pass index, input declaration and previous execution",
  "frames and histories are unbounded",
  [S+"RunnableGraph.cpp: record",S+"RunnablePass.cpp: recordInto",S+"RunnablePasses/ImageCopy.cpp",S+"RunnablePasses/ImageBlit.cpp",S+"RunnablePasses/BufferToImageCopy.cpp",S+"RunnablePasses/ImageToBufferCopy.cpp",S+"RunnablePasses/GenerateMipmaps.cpp",S+"RunnablePasses/RenderPassHolder.cpp"])
p("An image copy leaves its destination in the requested final layout",
  "After an image copy pass has recorded, each of its destinations is in the final layout given to the pass (TRANSFER_DST if none was given), each of its sources is in TRANSFER_SRC, and the recorded commands are valid.",
  "every graph, previous recording, number of attachment pairs, size and final layout",
  "depends on everything recorded before, in any graph",
  [S+"RunnablePasses/ImageCopy.cpp: doRecordInto"])
p("A recording runs each enabled pass's body exactly once, in order",
  "Recording a graph calls the body of every enabled pass exactly once, in the order of the graph's pass list, with the index the pass asked for, and the body of no disabled pass; each body is given the recording context as left by the preceding enabled passes, after the layouts and buffer states the pass asked for were established.",
  "every list of passes, enabled set, index, declared input and body",
  "lists, enabled sets and bodies are unbounded",
  [S+"RunnableGraph.cpp: record, recordPass",S+"RunnablePass.cpp: recordInto, recordCurrentInto"])
p("What replaces a disabled pass leaves the promised contents",
  "When an image written by a disabled pass is used and a copy was registered to replace the pass, the image then holds, in every layer and level of the views and over the configured size, what the source image held; with a clear, all of the view holds the registered clear value; with a blit, only the destination changes. Nothing else in memory changes.",
  "every recording, registered action, size, clear value and contents of memory",
  "depends on what is tracked and pending when the image is used; contents are unbounded",
  [S+"RecordContext.cpp: registerImplicitTransition, runImplicitTransition, copyImage, blitImage, clearAttachment",I+"RecordContext.hpp: ImplicitTransition"])
p("A pass starts with its targets cleared or loaded as declared",
  "When a drawing pass starts drawing, each target declared as output only or as cleared holds its declared clear value, and each target declared as an input holds what it held; when it ends, targets declared as outputs keep what was drawn. When another pass starts, each of its clearable storage images holds zeroes, and the images it only reads hold what they held. Nothing else in memory changes.",
  "every pass, attachment list, clear value, tracked state, graph state and contents of memory",
  "depends on everything recorded before; contents are unbounded",
  [S+"RunnablePasses/RenderPassHolder.cpp: doCreateRenderPass, begin, end",I+"Attachment.hpp: getLoadOp, getStoreOp, getClearValue, isClearableImage",S+"RunnablePass.cpp: recordInto",I+"FramePass.hpp: addOutputColourView, addInOutColourView, addOutputDepthView, addClearableOutputStorageView"])
p("Images in use are not discarded",
  "What an image holds when a pass that uses it starts, and what it holds when that pass ends, stays there for the rest of the frame until a command writes it: no layout transition recorded later discards it, and no render pass does either, unless an enabled pass draws to it without both loading and storing it.",
  "every graph, enabled set, pass index, previous execution and history of the image",
  "depends on every pass recorded between; one transition from UNDEFINED in a rarely taken path loses the contents without any error",
  [S+"RecordContext.cpp: memoryBarrier, runImplicitTransition",S+"RunnablePass.cpp: recordInto",S+"RunnablePasses/RenderPassHolder.cpp: createOne, doCreateRenderPass",S+"RunnableGraph.cpp: record"])
p("A drawing pass waits for the pass before it and the next pass waits for what it drew",
  "What a drawing pass draws waits for what the pass recorded just before it does, and what any later pass of the frame reads of the images it drew waits for the drawing: the subpass dependencies of its render pass, or barriers recorded between, have the writing stage and accesses before them and the reading ones after them.",
  "every graph, enabled set, pass index, kind of target and of reader, previous recording",
  "missing synchronization shows as rare corruption on some devices, in some orders",
  [S+"RunnablePasses/RenderPassHolder.cpp: doCreateRenderPass",S+"FrameGraph.cpp: getPipelineState",S+"RunnableGraph.cpp: record",S+"RunnablePasses/RenderQuad.cpp: RenderQuad",S+"RunnablePasses/RenderMesh.cpp: RenderMesh"])
p("The pipeline a drawing pass binds fits the render pass it is used in",
  "Whenever a quad or mesh pass records for an index, the pipeline it binds was created with the render pass begun for that index, or one compatible with it: the same formats for corresponding targets and the same dependencies, hence the same viewport and blend states. Pipelines are only ever created with a render pass that still exists.",
  "every attachment list, program list, order of recordings for any indices, pipeline resets, runs and contexts of the recordings",
  "depends on the whole history of recordings: which index was recorded between, and which render passes were replaced",
  [S+"RunnablePasses/RenderQuad.cpp: doRecordInto, resetPipeline",S+"RunnablePasses/RenderMesh.cpp: doRecordInto, resetPipeline",S+"RunnablePasses/RenderQuadHolder.cpp: initialise, resetRenderPass, record",S+"RunnablePasses/RenderMeshHolder.cpp",S+"RunnablePasses/RenderPassHolder.cpp: initialise"])
p("A drawing pass can reach its whole render area",
  "The viewport and scissor of the pipeline a quad or mesh pass binds cover the render area of the render pass it is used in.",
  "every configured size and position, attachment list, and history of the pass",
  "sizes, attachments and histories are unbounded",
  [S+"RunnablePasses/RenderQuadHolder.cpp: doPreparePipelineStates, doCreateViewportState",S+"RunnablePasses/RenderMeshHolder.cpp: doCreateViewportState",I+"RunnablePasses/RenderPassHolder.hpp: getRenderSize",S+"RunnablePasses/RenderPassHolder.cpp: doInitialiseRenderArea"])
p("Quad and mesh passes draw what they are configured to draw",
  "A quad pass draws, after what its callback records, one triangle per configured instance (or what the indirect buffer describes), and that triangle covers the whole viewport; a mesh pass draws the configured number of vertices of its vertex buffer, or of primitives through its index buffer, or what the indirect buffer describes. The buffers are those for the pass index.",
  "every configuration, callback, pass index, number of buffers, and point of the viewport",
  "configurations, counts and callbacks are unbounded",
  [S+"RunnablePasses/RenderQuadHolder.cpp: record, getPassIndex, isEnabled",S+"RunnablePasses/RenderMeshHolder.cpp: record",I+"RunnablePasses/RenderMeshConfig.hpp: getPrimitiveCount, getVertexCount",I+"FrameGraphPrerequisites.hpp: Buffer::buffer",S+"ResourceHandler.cpp: createQuadTriVertexBuffer"])
p("Drawing passes do not rebuild their render pass when nothing changed",
  "When a drawing pass is recorded again for an index, and nothing changed for its targets (the layouts tracked of them) nor for the passes around it, it uses the render pass and framebuffer it made before instead of making new ones.",
  "every graph, pass, index, tracked layouts of the images, and history",
  "depends on what every pass before it did to its targets",
  [S+"RunnablePasses/RenderPassHolder.cpp: initialise, checkAttaches, doCreateRenderPass",S+"RunnablePasses/RenderPass.cpp: doRecordInto"])
p("A graph recorded again without any change settles",
  "If the passes, the enabled passes, their indices, what they record and the final states of the dependencies stay the same, then every recording leaves the graph remembering the same states of its images, and from the second recording on, every recording records the same commands (the first one may take images from other layouts).",
  "every graph, set of enabled passes, indices, dependencies, initial knowledge, and number of recordings",
  "any number of recordings of any graph, each starting from what the one before left",
  [S+"RunnableGraph.cpp: record, getCurrentLayoutState, getNextLayoutState",S+"RunnablePass.cpp: recordInto",S+"FrameGraph.cpp: registerFinalState, getFinalLayoutState",S+"RunnablePasses/RenderPassHolder.cpp: initialise"])
p("A refused creation leaves nothing behind",
  "The GPU objects a runnable graph creates (query pool, command pool, command buffers, fences, semaphores, and the images, memories and views it was first to create) are destroyed exactly once, with it; nothing is destroyed twice or after the pool it came from, whatever the order in which graphs are made, re-recorded and destroyed; once all graphs are destroyed nothing is left. If the driver refuses any creation while a runnable graph is built, the exception leaves no object behind.",
  "every history of graphs made, re-recorded and destroyed, every shape of graph, and every set of driver calls that fail",
  "each creation is a crash point; unit tests use drivers that accept everything",
  [S+"RunnableGraph.cpp: RunnableGraph, ~RunnableGraph",I+"RunnableGraph.hpp: member order",S+"RunnablePass.cpp: PassData, Fence, reRecordCurrent",S+"ResourceHandler.cpp: createImage, createImageView, destroyImage, destroyImageView, ContextResourcesCache"])
p("A creation the driver refused can be asked for again",
  "When the driver refuses an image, a sampler or a quad's vertex buffer, the request throws; asking again later, when the driver accepts, gives a valid object, and closing the cache destroys every object it created.",
  "every history of requests and every set of driver calls that fail",
  "depends on which call fails and on everything asked for afterwards",
  [S+"ResourceHandler.cpp: createImage, createImageView, createSampler, createQuadTriVertexBuffer, ContextResourcesCache"])
p("What a graph takes from outside is reported as an input",
  "In the transitions reported by the compiled graph, an image or buffer that a pass reads and no pass writes appears as coming from outside the graph (to the attachment), and one that a pass writes and no pass reads as going outside (from the attachment).",
  "every set of passes, attachments and dependencies",
  "all graphs",
  [S+"FramePassDependenciesBuilder.cpp: addRemainingDependency, insertTransition"])
p("Runnable graphs can be chained by what run returns, and destroyed",
  "If every semaphore (those returned by run and the user's own) is waited for exactly once between two signals, then every submission of every graph, in any interleaving, is allowed by Vulkan: it waits only for semaphores that are or will be signaled, each once, signals none that is signaled already, and reuses no fence or command buffer in flight. A graph can then be destroyed: no object of it is destroyed while the GPU may use it.",
  "every program of runs, waits, own submissions and destructions of any number of graphs, and every progress of the GPU",
  "interleavings of any number of graphs with a GPU that finishes at any moment",
  [S+"RunnableGraph.cpp: run, record, ~RunnableGraph",S+"RunnablePass.cpp: convert, Fence::wait, Fence::reset",I+"RunnableGraph.hpp: getFence"])
p("The exported DOT text shows every pass and transition once",
  "The text dot::displayPasses and dot::displayTransitions give for a runnable graph is one graph with balanced blocks. Every pass is declared exactly once, in the cluster of its group (when groups are asked for), and every transition of the graph is shown exactly once, as two edges through a box with the name of its data, in the cluster of the innermost group of both passes. With splitGroups every group has a graph of its own instead.",
  "every compiled graph, every nesting of groups, every set of transitions and every configuration",
  "arbitrary graphs, trees of groups and names",
  [S+"DotExport.cpp: displayPasses, displayTransitions, DotOutVisitor, FramePassGroupStreams",I+"DotExport.hpp: Config"])
p("A resource handler can be shared by threads",
  "Threads may call the methods of one ResourceHandler at the same time, with a driver that accepts what it is asked for: no container is accessed by two of them at once, none waits for ever, every call ends after a bounded number of its own steps, and at every moment the calls made returned, and the containers have, what the same calls made one after the other give, in an order that respects that of calls that didn't overlap. So image ids are all different, view ids are equal exactly for the same view, and an image or view that isn't destroyed is made once, with one handle for all threads.",
  "every number of threads, every list of calls of each and every interleaving of their steps",
  "interleavings of arbitrarily many threads and calls",
  [S+"ResourceHandler.cpp: createImageId, createViewId, createImage, createImageView, createSampler, createQuadTriVertexBuffer, destroyImage, destroyImageView, destroySampler, destroyVertexBuffer",I+"ResourceHandler.hpp: m_imagesMutex, m_viewsMutex, m_samplersMutex, m_buffersMutex"])
p("A view is made of an image that exists, whatever other threads do",
  "When threads share a resource handler, every image given to vkCreateImageView was made by vkCreateImage before and has not been destroyed.",
  "every number of threads, every list of calls of each and every interleaving of their steps",
  "interleavings of arbitrarily many threads and calls",
  [S+"ResourceHandler.cpp: createImageView, createImage, destroyImage"])
p("The edges of the compiled graph carry the transitions they stand for",
  "In the graph a FrameGraph compiles to, what a node gets from a predecessor that is a pass is not empty: each transition it gets is one of the graph's, from an output attachment of the predecessor to an input attachment of the node, and none comes twice. It gets exactly those through whose view the node's pass depends on the predecessor's, directly or through other passes. Nothing comes from the root.",
  "every graph of passes, whatever their dependencies and attachments, and every pair of nodes",
  "arbitrary graphs",
  [S+"GraphNode.cpp: addAttaches, attachNode, getInputAttaches",S+"GraphBuilder.cpp: buildGraph",S+"AttachmentTransition.cpp: mergeIdenticalTransitions"])
p("Objects of a shared resource handler are destroyed once, and none is lost",
  "When threads share a resource handler, the driver is asked to destroy an image, view, sampler or buffer only while it exists, so never twice. When no call is being made, the objects the driver made and didn't destroy are those the handler has: what a thread made is neither lost nor forgotten. What the driver was asked for about a kind of object is what the calls, one after the other, would ask for, in the same order.",
  "every number of threads, every list of calls of each, every interleaving of their steps, every handle; for the second sentence, every driver that gives no new object the handle of an existing one",
  "interleavings of arbitrarily many threads and calls",
  [S+"ResourceHandler.cpp: createImage, createImageView, createSampler, createQuadTriVertexBuffer, destroyImage, destroyImageView, destroySampler, destroyVertexBuffer"])
p("Render pass instances are well formed",
  "In the commands a graph of library passes records for a frame, render pass instances don't nest, each one that is begun is ended, by the end of the same render pass, and barriers, copies, blits, clears and fills are recorded outside of them. Each enabled drawing pass has exactly one instance, in the order of the passes, that holds all the draws of its record callback and nothing else; disabled passes have none.",
  "every list of passes, attachments, enabled passes, indices, implicit actions, states of the graph and its dependencies and render pass objects kept from earlier frames",
  "arbitrary lists of passes and histories",
  [S+"RunnablePasses/RenderPass.cpp: doRecordInto",S+"RenderPassHolder.cpp: begin, end, initialise",S+"RunnablePass.cpp: recordInto",S+"RunnableGraph.cpp: record",S+"RecordContext.cpp: memoryBarrier, runImplicitTransition"])
p("The GPU time of a pass is the time the device took",
  "After a run in which a pass was enabled, and whatever other timers are used for in between, retrieveGpuTime makes getGpuTime the time between the two timestamps the device wrote for the pass in that run, in nanoseconds.",
  "every history of runs, recordings and retrievals of any number of timers and devices, every pair of timestamps and every timestamp period",
  "arbitrary histories, periods and timestamps",
  [S+"FramePassTimer.cpp: retrieveGpuTime, beginPass, endPass, notifyPassRender",I+"FramePassTimer.hpp: getGpuTime",S+"RunnableGraph.cpp: run"])
p("The CPU time of a timer is the time spent in its blocks",
  "getCpuTime is the time spent in the FramePassTimerBlocks of the timer, and in its retrieveGpuTime, since it was made or reset. However a block is moved, the time it measures is stopped exactly once.",
  "every history of calls to any number of timers and every program that moves and destroys blocks",
  "arbitrary histories",
  [S+"FramePassTimer.cpp: start, stop, reset, retrieveGpuTime, FramePassTimerBlock",I+"FramePassTimer.hpp: getCpuTime"])
p("Every recorded command is legal on the images it names",
  "If what the user declares is legal (views inside of their images and with aspects of the format, regions inside of the levels, filters allowed for the formats), every command a graph of library passes records for a frame is legal on the images and buffers it names: the levels, layers and aspects of its ranges exist, a barrier names depth and stencil together where the device requires it, source and destination of copies and blits match and their regions are inside of the level, filtering is only used on colours, a clear is of the kind of the format, attachments of render passes have one level, fills are aligned.",
  "every list of passes, attachments, ranges, sizes, substitutes, enabled passes, indices, states of the graph and its dependencies and render pass objects kept from earlier frames",
  "arbitrary images, ranges, sizes and histories",
  [S+"RecordContext.cpp: adaptRange, memoryBarrier, copyImage, blitImage, clearAttachment",S+"RunnablePass.cpp: recordInto",S+"RunnablePasses/ImageCopy.cpp: doRecordInto",S+"RunnablePasses/ImageBlit.cpp: doRecordInto",S+"RunnablePasses/GenerateMipmaps.cpp: doRecordInto",S+"RunnablePasses/RenderPassHolder.cpp: initialise, begin"])
p("A disabled pass without substitute is as if it weren't there",
  "If the disabled passes of a graph have no implicit actions, what the frame records is what it would record if these passes were left out of the list: the same commands, or a failure for both, the same passes are initialised and recorded, the same transitions stay pending, and the same states of images and buffers are tracked and remembered for the next frame.",
  "every list of passes, attachments, enabled passes, indices, states of the graph, its inputs, outputs and dependencies",
  "arbitrary lists of passes and sets of enabled passes",
  [S+"RunnableGraph.cpp: record, gatherNextImageLayouts, getNextState, getNextLayoutState",S+"RunnablePass.cpp: recordInto",S+"RenderPassHolder.cpp: initialise"])
p("Passes use what was configured",
  "A quad, mesh or compute pass uses, of each thing that can be configured, what the last call to its configuration that says something about it said, and the documented default if none did: shader programs (one for every index, one per index, or from a creator), additional descriptor set layouts (after the pass's own) and push constants, viewport and scissor, depth and stencil state, cull mode, instances, vertex, index and indirect buffers, counts, group counts, index type, callbacks, enabled variable or callback, pass index. Variables and callbacks are read when the pass is recorded. Each pass built by a quad builder is configured as the builder was.",
  "every sequence of calls to the configurations and builders, every value, every moment, index and buffer",
  "arbitrary sequences of calls",
  [I+"RunnablePasses/PipelineConfig.hpp: pp::ConfigT",I+"RunnablePasses/RenderQuadConfig.hpp: rq::ConfigT",I+"RunnablePasses/RenderMeshConfig.hpp: rm::ConfigT",I+"RunnablePasses/ComputePass.hpp: cp::ConfigT",I+"RunnablePasses/RenderQuad.hpp: RenderQuadBuilderT",S+"RunnablePasses/RenderQuadHolder.cpp: RenderQuadHolder, doCreateViewportState, record, isEnabled, getPassIndex",S+"RunnablePasses/RenderMeshHolder.cpp: RenderMeshHolder, doCreateViewportState, record",S+"RunnablePasses/ComputePass.cpp: ComputePass, doRecordInto",S+"RunnablePasses/PipelineHolder.cpp: PipelineHolder, doCreatePipelineLayout"])
p("What an execution leaves in an image is there for the next one",
  "If an execution of a graph uses an image (any attachment) and the next execution reads it (sampled, storage, transfer or implicit input, or a render target declared as loaded and stored), what the first left there is still there when the pass of the second one that reads it starts, unless a pass that runs before declares the image as a pure output, draws to it without loading and storing it, or overwrites it. The same over any number of executions.",
  "every two, and every number of, consecutive executions, with any passes, attachments, enabled passes, indices, and every byte of every image",
  "arbitrary histories of executions",
  [S+"RunnableGraph.cpp: record, getCurrentLayoutState",S+"RunnablePass.cpp: recordInto",S+"RecordContext.cpp: memoryBarrier, runImplicitTransition",S+"FrameGraph.cpp: registerFinalState, getFinalLayoutState",S+"RunnablePasses/RenderPassHolder.cpp: initialise, checkAttaches"])
p("Parts and the whole of an image can be mixed",
  "Passes may use overlapping views: levels or layers of an image one by one, then the image as a whole, then parts again. As long as each use finds all of its view last left in one same layout by the uses before it, those made in place of disabled passes included (or all of it untouched, and then known as a whole or not at all), every command recorded is valid, every pass starts with its images in the layouts its attachments declare (those it draws to being in these layouts while it draws), and what the graph remembers is, subresource by subresource, the layout the last use left. The same over any number of executions.",
  "every graph, every sequence of uses of every view (range of levels and layers), every set of enabled passes, every number of executions",
  "arbitrary sequences of overlapping views",
  [S+"RecordContext.cpp: memoryBarrier, setLayoutState, getLayoutState",S+"FrameGraph.cpp: addSubresourceRangeLayout, getSubresourceRangeLayout",S+"RunnablePass.cpp: recordInto",S+"RunnableGraph.cpp: record, getCurrentLayoutState"])
p("A pass finds what the passes it depends on left",
  "If a pass depends on another one, directly or through other passes, and both are enabled in a frame of the compiled graph: the other one is recorded first, whatever the order of creation; every image the pass uses is in the layout it asked for when its own commands start; and in each image the other one uses or draws, it finds what that one left there, unless a command recorded in between writes it, or a pass in between draws to it without loading and storing it.",
  "every set of passes, dependencies, attachments, enabled passes, indices, states of the graph, and every byte of every image",
  "arbitrary graphs, orders and interposed passes",
  [S+"FrameGraph.cpp: compile, sortPasses",S+"RunnableGraph.cpp: RunnableGraph, record",S+"RunnablePass.cpp: recordInto",S+"RecordContext.cpp: memoryBarrier, runImplicitTransition",S+"RunnablePasses/RenderPassHolder.cpp: begin, end"])
p("Graphs that share images can be chained",
  "Several graphs, each with its own passes, are recorded and submitted one after the other, in any order and any number of times, and use the same images. If each time the graph has the one run just before as its first dependency (`addDependency`), every command the GPU is given is valid, every pass of every graph starts with its images in the layouts its attachments declare, wherever the other graphs left them, and what a graph left in an image it used stays there, through any number of runs of the other graphs, until a command writes it, or a pass draws to it without loading and storing it.",
  "every set of graphs, every order and number of runs, every set of enabled passes and indices per run, every byte of every image",
  "arbitrary interleavings and histories of several graphs",
  [I+"FrameGraph.hpp: addDependency, getDependencies, getFinalStates",S+"RunnableGraph.cpp: record, getCurrentLayoutState",S+"RecordContext.cpp: addStates",S+"FrameGraph.cpp: registerFinalState, getFinalLayoutState"])
p("Memory is suitable, and the quad's vertices are read as written",
  "The memory bound to an image is of the first memory type the driver allows for it that is device local, that of a quad's vertex buffer of the first one that is host visible; it is as large as required and bound at a valid offset. The request throws, and allocates nothing, exactly when the device has no such type. A quad's vertices are written to memory that is mapped, within what was allocated, flushed and unmapped; a vertex shader fed through the vertex input state handed with the buffer reads exactly these vertices: the position in location 0 and, only if asked for, the texture coordinates in location 1.",
  "every list of memory types and flags, every mask of allowed types, size and alignment, every answer of the driver, every texture coordinate configuration",
  "arbitrary devices and masks",
  [S+"GraphContext.cpp: deduceMemoryType",S+"ResourceHandler.cpp: createImage, createQuadTriVertexBuffer"])
p("Timestamps and debug blocks surround what passes record",
  "In the command buffer of a graph whose passes are the library's, or record no render pass instance of their own: debug blocks are balanced; there is one per enabled pass, in order, named after it, that holds a pair of timestamps and, between them, everything the pass records (barriers, clears, pending substitutes, callbacks) and nothing else; the graph's own timestamps are before the first and after the last. No query is reset inside a render pass instance, each is reset before it is written and written once, whatever was recorded, re-recorded or read before. None of it changes the other commands.",
  "every graph, set of enabled passes, index, state and history of the timers",
  "arbitrary graphs and histories of the timers",
  [S+"RunnablePass.cpp: recordInto",S+"RunnableGraph.cpp: record",S+"FramePassTimer.cpp: beginPass, endPass",S+"GraphContext.cpp: vkCmdBeginDebugBlock, vkCmdEndDebugBlock"])
p("Transfers and sampling of an image wait for each other",
  "Take an image that the passes of a graph only transfer (copy, blit, upload, download, clear, mipmaps) and sample in fragment shaders. For any two accesses recorded in a frame to a same subresource of it, a write and then a read, a read and then a write, by transfer commands or by passes that sample it, the image barriers recorded between them make the second wait for the first and see what it wrote: the first barrier waits for the first access, each other one for all that the previous one released, and the last one releases the second access. This holds whatever passes, pending substitutes and other images are in between.",
  "every graph, set of enabled passes, index, state of the graph, pair of accesses, aspect, layer and level",
  "arbitrary sequences of passes, and a race only shows on some hardware and timings",
  [S+"RecordContext.cpp: memoryBarrier, runImplicitTransition",S+"RunnablePass.cpp: recordInto",S+"RunnablePasses/GenerateMipmaps.cpp: doRecordInto",S+"RunnablePasses/ImageCopy.cpp: doRecordInto",S+"FrameGraph.cpp: makeLayoutState, getAccessMask, getStageMask"])
p("Uses of a buffer wait for each other",
  "For any two uses of a same byte of a buffer in a frame, at least one of which writes it, be they passes it is attached to (storage, transfer or transition attachments) or transfer commands (fills of clearable buffers, buffer copies, uploads, downloads), the buffer barriers recorded between them that cover the byte make the second wait for the first and see what it wrote: the first barrier waits for the accesses of the first use, each other one for all that the previous one released, and the last one releases the accesses the second use declares. This holds whatever passes, image accesses and other buffers are in between.",
  "every graph, set of enabled passes, index, imported state, pair of uses, buffer and byte",
  "arbitrary sequences of passes, and a race only shows on some hardware and timings",
  [S+"RecordContext.cpp: memoryBarrier (buffers), setAccessState, getAccessState",S+"RunnablePass.cpp: recordInto",S+"RunnablePasses/BufferCopy.cpp: doRecordInto",S+"RunnablePasses/BufferToImageCopy.cpp: doRecordInto",S+"RunnablePasses/ImageToBufferCopy.cpp: doRecordInto",S+"Attachment.cpp: getAccessMask, getPipelineStageFlags"])
p("Uses of shared resources by different graphs wait for each other",
  "Graphs that share images and buffers are recorded and submitted to one queue one after the other, in any order and any number of times, each depending (addDependency) first on the graph run just before it. For any two uses of a same byte of a buffer, or of a same subresource of an image that is transferred and sampled, by passes or transfer commands of whatever graphs and executions, at least one of which writes, the barriers in the command buffers submitted between them make the second wait for the first and see what it wrote; and once a pass used an image no graph discards its contents to change its layout.",
  "every session of executions, all graphs, sets of enabled passes and indices, pair of uses, buffer byte and image subresource",
  "unbounded numbers of graphs and executions, and a race only shows on some hardware and timings",
  [S+"RunnableGraph.cpp: record",I+"FrameGraph.hpp: addDependency, registerFinalState",S+"FrameGraph.cpp: registerFinalState",S+"RecordContext.cpp: addStates, memoryBarrier, setAccessState, setLayoutState"])
p("Re-recording a pass repeats it and changes nothing else",
  "Recording a resettable pass again on its own (reRecordCurrent, what resetting a pipeline does), any number of times and at any moment, changes nothing of what the graph records afterwards, of the commands it submits, nor of the states it remembers and gives to the graphs that depend on it. What it records for the pass is exactly what the last recording of the graph that recorded the pass at that index recorded for it - its barriers, clears, pending substitutes, callbacks, render pass instance - whatever happened in between, and the same each time; the result is a well formed command buffer.",
  "every graph, history of recordings of the graph and of its passes, set of enabled passes, index, state of the tracker",
  "unbounded histories",
  [S+"RunnablePass.cpp: reRecordCurrent, recordOne, recordInto, RunnablePass::RunnablePass",S+"RunnableGraph.cpp: record, getCurrentLayoutState",S+"RenderPassHolder.cpp: initialise",S+"RecordContext.cpp: memoryBarrier, runImplicitTransition"])
p("What a submission in flight uses is not destroyed or changed","When graphs of compute, quad and mesh passes are recorded and run, several of them in flight at a time, and programs of passes are changed with resetPipeline, no pipeline, layout, descriptor pool or set, render pass or framebuffer is destroyed while a submission in flight uses it, nor destroyed twice, nor destroyed before a submission that uses it; no descriptor set in use is rewritten; a graph's fence and command buffer are only reset when nothing of it is in flight; and when a graph is destroyed, what it owns is freed once, not in flight, and not used afterwards. Without resetPipeline and destruction this holds whatever the passes rebuild; a graph may be destroyed when it was waited for since its last run, even while others are in flight; with resetPipeline, as long as no pass of a graph in flight is made to build its render pass again and no other graph is run before the changed one was waited for.","all numbers of graphs, passes, indices and programs, all sequences of record, run, fence wait, resetPipeline and destruction of graphs, all decisions to rebuild objects, and all times at which the device finishes submissions","whether an object is still in use depends on when the device finishes; tests run one graph on a mock device that finishes at once",
  [S+"RunnableGraph.cpp: record, run",S+"RunnablePasses/RenderPassHolder.cpp: initialise, PassData::cleanup",S+"RunnablePasses/PipelineHolder.cpp: resetPipeline, createDescriptorSet, cleanup",S+"RunnablePasses/RenderQuad.cpp: resetPipeline",S+"RunnablePasses/RenderMesh.cpp: resetPipeline",S+"RunnablePasses/ComputePass.cpp: resetPipeline",I+"GraphContext.hpp: DeletionQueue"])
p("The exported text is DOT and says what was drawn","Read as DOT, character by character, the text displayPasses exports is one graph with balanced blocks: two labelled edges per transition through a box, each in the clusters of the groups both passes are in, one ellipse per linked pass with its identifier and colours if asked for; every other text (split groups, transitions) says exactly what its lines are meant to say. This holds for names without quotes, line ends and trailing backslash, which the export does not escape.","all graphs, groups, names, identifiers and configurations","tests look for fragments of the text on fixed graphs; that quoting, indentation and nesting make readable DOT depends on every name and every nesting of groups",
  [S+"DotExport.cpp: BasicIndentBuffer::overflow, indent, operator<<, displayNode, displayPassNode, displayEdge, FramePassGroupStreams::write, displayPasses, displayTransitions"])
p("The logger works when several threads use it","Any number of threads may log messages and set callbacks of the logger, and callbacks may themselves log: no thread is blocked for ever, no thread holds the logger's mutex while a callback runs, each message reaches once, in the order its thread logged them, the callback set last for its level, and no callback is called or replaced while it is being replaced. With the default callbacks traces and debug messages come out on clog, information and warnings on cout, errors on cerr, each with its line end.",
  "all numbers of threads, programs of log and set calls, behaviours of callbacks, and interleavings of the threads","interleavings; a test sees a few of them",
  [S+"Log.cpp: doLog, Logger::Logger, logTrace, logDebug, logInfo, logWarning, logError, setTraceCallback, setDebugCallback, setInfoCallback, setWarningCallback, setErrorCallback, doGetInstance","include/RenderGraph/Log.hpp: Logger"])
p("Names tell what they name",
"In a graph whose groups and passes were created through the API under names without '/', the full name (getFullName) of a group identifies the group, and that of a pass the pass. The full name of the default group is the graph's name, that of any other one its parent's followed by '/' and its name, and nothing created later changes it. The shorter name with which nodes of the exported graph, timers and registered objects are called (getGroupName) identifies the pass if no two groups anywhere in the graph have the same name; the label around the commands of a pass always does, since it holds the pass's number. Among the attachments of a pass, the name of an attachment tells the data (the buffer, or the first view) and the sort of attachment, up to the three implicit views and to clearing of output storage buffers. With a '/' in a name, or two groups of the same name in different groups, distinct passes have the same names.",
"every history of pass and group creations, all names, every pair of passes, groups and attachments",
"names that clash are those of the one application whose groups are called alike; tests use distinct ones",
[S+"FramePassGroup.cpp:getFullName",S+"FramePass.cpp:getFullName",S+"FramePass.cpp:getGroupName",S+"FramePass.cpp:adjustName",S+"GraphNode.cpp:FramePassNode",S+"RunnablePass.cpp:recordInto",I+"FramePass.hpp:addColourView"])
p("Exported streams keep their indentation, and lose their buffers",
"Threads may export graphs at the same time, each to streams of its own (streams are constructed, indented, written to and destroyed by one thread; addresses are used again). In any interleaving no stream and no indent buffer is used before it exists or after it is deleted, and no buffer is deleted twice; every buffer belongs to one stream that exists, and the table of buffers has no entry for one that doesn't; once every thread has destroyed its streams no buffer is left and the table is empty; and the text of each stream is the one it has when its thread is alone and the indentation is kept in the stream. With a stream that two threads share, a buffer may be used after deletion, or never be deleted.",
"any number of threads, every list of operations on streams, every interleaving of the accesses to the table",
"leaks and double deletions show in no output, and the interleavings of several exports cannot be enumerated",
[S+"DotExport.cpp:BasicIndentBufferManager",S+"DotExport.cpp:installIndentBuffer",S+"DotExport.cpp:callback",S+"DotExport.cpp:displayPasses"])
p("Debug blocks have valid colours that go round",
"Each debug block of a command buffer (one per enabled pass, in order) gets the next colour of the process: an opaque, bright, saturated colour with components between 0 and 1. Two blocks have the same colour exactly when the number of blocks begun from one to the other, in all recordings of all graphs, is a multiple of 81: the blocks of a frame of at most 81 passes all differ, neighbours by at least 1/21 in a component (except the two reds at the end of a round). A pass keeps its colour when its frame is recorded again.",
"every history of recordings of any graphs, any number of colours given before",
"the colours come from a variable of the process that accumulates rounding errors: what a block gets depends on everything recorded before, and its bounds on single precision rounding",
[S+"GraphContext.cpp:getNextRainbowColour",S+"GraphContext.cpp:vkCmdBeginDebugBlock",S+"RunnablePass.cpp:recordInto"])
#MORE
with open("/verif/properties.jsonl","w") as f:
    for x in P: f.write(json.dumps(x,ensure_ascii=False)+"\n")
print(len(P))

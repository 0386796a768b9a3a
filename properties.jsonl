{"id": "C01", "title": "Splitting text on a separator loses nothing", "statement": "Splitting a text on a separator character and re-joining the pieces with that character gives back the text; no piece contains the separator; and the pieces are the only list with these two properties (the empty text gives no pieces).", "quantifier": "every text and every separator character", "why_tests_cant": "The claim is about all strings, including empty ones and ones ending in or consisting of separators; a test can only sample a few.", "anchors": ["include/lstk/lstk.hpp: lstk::split_on(std::string_view,char)"]}
{"id": "C02", "title": "Instructions in the LLI grammar survive print and parse", "statement": "Printing an instruction of any kind the LLI reader understands (non-negated, ids below 2^31) and reading the line back gives an instruction with the same operation and the same operands.", "quantifier": "every operation of a kind in the LLI grammar with arbitrary operand ids, operators and operand lists", "why_tests_cant": "Operand lists and ids are unbounded, so the printed forms are infinitely many.", "anchors": ["src/ls_instructions/ls_instructions.cpp: operator<<", "src/ls_instructions/ls_instructions_parse.cpp: parse_ls_instruction", "src/ls_instructions/parse_utils.cpp: parse_patch_id"]}
{"id": "C03", "title": "Output of --printlli can always be read back", "statement": "For every instruction the compiler can emit, the printed line is accepted by the LLI reader and means the same instruction.", "quantifier": "every instruction value the compiler can construct", "why_tests_cant": "The emitted instruction set is larger than what the reader tests enumerate; the statement fails on kinds nobody wrote a test for.", "anchors": ["src/ls_instructions/ls_instructions.cpp: operator<<", "src/ls_instructions/ls_instructions_parse.cpp: parse_ls_instruction", "include/lstk/lstk.hpp: lstk::join"]}
{"id": "C04", "title": "Reading an LLI program keeps every instruction, in order", "statement": "Reading a multi-line LLI program yields exactly the instructions of its non-blank lines in source order, with exactly one declaration of logical qubits; a second declaration, or a malformed line, makes the whole read fail.", "quantifier": "every list of lines", "why_tests_cant": "Programs have unbounded length and blank lines / declarations may occur anywhere.", "anchors": ["src/ls_instructions/ls_instructions_parse.cpp: parse_ls_instructions", "src/ls_instructions/ls_instruction_stream.cpp: LSInstructionStreamFromFile"]}
{"id": "C05", "title": "Character escaping for graph labels keeps the text", "statement": "Replacing a character by an escape sequence in a label changes only occurrences of that character: all other text is kept.", "quantifier": "every text, target character and replacement", "why_tests_cant": "Needs all texts; in particular those with text after the last target.", "anchors": ["include/lstk/lstk.hpp: lstk::str_replace", "include/lsqecc/dag/dependency_dag.hpp: to_graphviz"]}
{"id": "C06", "title": "QASM two-qubit gates keep control and target apart", "statement": "Reading `cx q[a],q[b]` gives a controlled-X with control a and target b for every pair of indices, and likewise for `cz`; single-qubit lines act on the index written.", "quantifier": "every register name without special characters and all qubit indices", "why_tests_cant": "All indices and names; index parsing is digit-by-digit.", "anchors": ["src/gates/parse_gates.cpp: parse_qasm_gate, split_instruction_and_args, get_index_arg"]}
{"id": "C07", "title": "CNOT placement annotations survive print and parse", "statement": "Each CNOT type and each ancilla-placement value is recovered from its textual name, and no other name is accepted.", "quantifier": "every value of the two enumerations and every string", "why_tests_cant": "Rejecting every other string is a universal statement.", "anchors": ["src/gates/gates.cpp: CNOTType_toString, CNOTType_fromString, CNOTAncillaPlacement_toString, CNOTAncillaPlacement_fromString"]}
{"id": "C08", "title": "Gate decomposition yields only basic gates and keeps program order", "statement": "The decomposed gate stream delivers, for every input program, the concatenation of the decompositions of its gates in order, and every delivered gate is a basic gate.", "quantifier": "every gate program and every rotation approximation", "why_tests_cant": "Programs are unbounded and the approximation is a parameter.", "anchors": ["src/gates/decompose_rotation_stream.cpp: get_next_gate", "src/gates/gates.cpp: decompose, is_decomposed"]}
{"id": "C09", "title": "Controlled rotations decompose to the same diagonal unitary", "statement": "The gate sequence produced for a controlled-RZ multiplies every computational basis state by the same phase as the controlled rotation it replaces.", "quantifier": "every angle fraction, every qubit pair, every basis state of any number of qubits", "why_tests_cant": "Angles and register sizes are unbounded.", "anchors": ["src/gates/gates.cpp: decompose_CRZ_gate"]}
{"id": "C10", "title": "Rotation angles read from QASM mean what they say", "statement": "`rz` with angle num*pi/den is turned into a gate whose phase equals that angle.", "quantifier": "every numerator, denominator and sign", "why_tests_cant": "Angles range over all integers.", "anchors": ["src/gates/parse_gates.cpp: parse_angle, parse_qasm_gate", "src/ls_instructions/ls_instruction_stream.cpp: get_next_instruction"]}
{"id": "C11", "title": "Compiler-generated patch ids are fresh", "statement": "When compiling a gate program, no ancilla or magic-state id handed out equals a core qubit id or any id handed out before.", "quantifier": "every gate program, register size and compilation mode", "why_tests_cant": "Freshness must hold along every unbounded sequence of requests from several generators sharing a counter.", "anchors": ["include/lsqecc/ls_instructions/id_generator.hpp", "src/pipelines/slicer.cpp: run_slicer_program", "src/ls_instructions/ls_instructions_from_gates.cpp"]}
{"id": "C12", "title": "Ids generated for LLI input do not collide with declared ids", "statement": "When slicing an LLI program, ids generated by S-gate expansion differ from every id declared in the program.", "quantifier": "every declared id list", "why_tests_cant": "Depends on the declared ids; the initial counter value is computed from them.", "anchors": ["src/pipelines/slicer.cpp: run_slicer_program (set_start)", "include/lsqecc/ls_instructions/id_generator.hpp"]}
{"id": "C13", "title": "Every generated ancilla is created once, used while alive, and destroyed once", "statement": "In the instruction stream compiled from gates, each non-core patch id is created exactly once, is mentioned only after that, and is measured away exactly once with no later use.", "quantifier": "every gate program and every correction mode", "why_tests_cant": "A resource-lifetime property over all programs.", "anchors": ["src/ls_instructions/ls_instructions_from_gates.cpp: make_t_gate_instructions, make_cnot_instructions", "src/ls_instructions/ls_instruction_stream.cpp"]}
{"id": "C14", "title": "Boundary-rotation injection only adds rotations", "statement": "Dropping the rotations it injected from the output of the boundary-rotation stage gives back the input instruction sequence unchanged, including order and ids.", "quantifier": "every instruction sequence and every initial orientation of the core qubits", "why_tests_cant": "Conservation must hold for all unbounded streams.", "anchors": ["src/ls_instructions/boundary_rotation_injection_stream.cpp: get_next_instruction"]}
{"id": "C15", "title": "After injection, joint measurements always face exposed boundaries", "statement": "At the point where a multi-patch measurement leaves the boundary-rotation stage, every core patch it touches exposes the measured operator, according to the initial layout orientation toggled by each rotation and Hadamard that left the stage before.", "quantifier": "every instruction sequence and every initial orientation in which each patch shows X, Z or both, in particular those of the compact layouts of every size", "why_tests_cant": "The orientation depends on the whole history.", "anchors": ["src/ls_instructions/boundary_rotation_injection_stream.cpp", "src/layout/dynamic_layouts/determine_exposed_operators.cpp"]}
{"id": "C16", "title": "S-gate expansion removes S gates on core qubits and keeps everything else", "statement": "The teleported and the catalytic S-gate stages deliver, for every input, the concatenation of per-instruction expansions in order: instructions other than S on a core qubit are passed unchanged, and no S on a core qubit is delivered.", "quantifier": "every instruction sequence and core-qubit set", "why_tests_cant": "All unbounded streams.", "anchors": ["src/ls_instructions/teleported_s_gate_injection_stream.cpp", "src/ls_instructions/catalytic_s_gate_injection_stream.cpp"]}
{"id": "C17", "title": "Dependency graph keeps forward and backward edges mirrored", "statement": "After any sequence of graph operations, a is listed as predecessor of b exactly when b is listed as successor of a, and all edges join existing nodes.", "quantifier": "every sequence of add/remove/expand operations", "why_tests_cant": "Histories are unbounded.", "anchors": ["src/dag/directed_graph.cpp: DirectedGraph"]}
{"id": "C18", "title": "Instructions that do not commute are executed in program order", "statement": "Whatever order in which ready instructions are taken from the dependency graph, two instructions that do not commute leave it in program order.", "quantifier": "every program and every choice sequence of ready instructions", "why_tests_cant": "The schedule is chosen by resource availability, so all linearisations must be covered.", "anchors": ["include/lsqecc/dag/dependency_dag.hpp: push_instruction_based_on_commutation, pop_head, applicable_instructions"]}
{"id": "C19", "title": "The dependency graph never deadlocks", "statement": "While instructions remain in the graph there is always at least one ready instruction, so taking ready instructions empties the graph after exactly as many steps as there are instructions.", "quantifier": "every program, every choice sequence", "why_tests_cant": "Acyclicity for all histories.", "anchors": ["include/lsqecc/dag/dependency_dag.hpp", "src/dag/directed_graph.cpp: heads"]}
{"id": "C20", "title": "Topological order lists every node once, after its successors", "statement": "For an acyclic graph the tails-first order is a permutation of the nodes in which every node comes after all of its successors.", "quantifier": "every finite acyclic graph", "why_tests_cant": "All graphs.", "anchors": ["src/dag/directed_graph.cpp: topological_order_tails_first"]}
{"id": "C21", "title": "Expanding an instruction keeps its place in the order", "statement": "Replacing a node by a chain keeps reachability among all the other nodes, puts the whole chain between the old predecessors and the old successors, and keeps the graph acyclic.", "quantifier": "every graph, node and non-empty replacement list of new labels", "why_tests_cant": "All graphs and list lengths.", "anchors": ["src/dag/directed_graph.cpp: expand"]}
{"id": "C22", "title": "Wave scheduling preserves per-patch program order", "statement": "In every run of the wave scheduler, two source instructions that touch a common patch are executed in program order, and a follow-up runs before any later instruction on its patches.", "quantifier": "every program, every outcome sequence of attempts to apply instructions", "why_tests_cant": "Outcomes depend on routing congestion and magic-state timing.", "anchors": ["src/scheduler/wave_scheduler.cpp: WaveScheduler, schedule_wave, schedule_dependent_instructions"]}
{"id": "C23", "title": "The wave scheduler loses and duplicates nothing", "statement": "At every moment each source instruction is in exactly one of the states waiting, ready, done; when the scheduler reports done every instruction has been executed exactly once.", "quantifier": "every program and outcome sequence (no deferral)", "why_tests_cant": "All interleavings.", "anchors": ["src/scheduler/wave_scheduler.cpp: schedule_instructions, done"]}
{"id": "C24", "title": "Deferred instructions are not lost", "statement": "An instruction deferred to the end of a wave (edge-disjoint-path mode) is executed in that wave or is still pending afterwards.", "quantifier": "every outcome sequence", "why_tests_cant": "Depends on rare outcome combinations in the second round.", "anchors": ["src/scheduler/wave_scheduler.cpp: schedule_wave, schedule_instructions"]}
{"id": "C25", "title": "Reported slice count equals the number of emitted slices", "statement": "For each pipeline, the slice count reported to the user equals the number of slices handed to the output.", "quantifier": "every program and outcome sequence", "why_tests_cant": "Depends on how often instructions have to wait.", "anchors": ["src/patches/dense_patch_computation.cpp: run_through_dense_slices_streamed, run_through_dense_slices_wave, run_through_dense_slices_dag"]}
{"id": "C26", "title": "Streamed slicing executes in source order and finishes each instruction first", "statement": "In the streamed pipeline the instructions handed to the visitor are the source instructions in order, with all follow-ups of an instruction completed before the next source instruction is attempted.", "quantifier": "every program and outcome sequence", "why_tests_cant": "All outcome sequences.", "anchors": ["src/patches/dense_patch_computation.cpp: run_through_dense_slices_streamed"]}
{"id": "C27", "title": "Waiting is bounded by the instruction's budget", "statement": "An instruction with waiting budget w is attempted at most w+1 times; the pipeline stops with an error exactly when the budget is used up, never earlier.", "quantifier": "every program, budget and outcome sequence", "why_tests_cant": "Unbounded budgets and sequences.", "anchors": ["src/patches/dense_patch_computation.cpp: run_through_dense_slices_streamed", "src/scheduler/wave_scheduler.cpp"]}
{"id": "C28", "title": "Two patches never share a cell or an id", "statement": "Starting from the initial slice of any layout, after any sequence of instructions with fresh ids and slice advances, no id names two cells, and placing a patch on an occupied cell fails instead of overwriting.", "quantifier": "every layout, instruction sequence and routing outcome", "why_tests_cant": "All histories.", "anchors": ["src/patches/dense_slice.cpp: place_single_cell_sparse_patch, constructor", "src/patches/dense_patch_computation.cpp"]}
{"id": "C29", "title": "Core qubits survive every slice advance", "statement": "Advancing to the next slice keeps every qubit patch that is not being measured, at the same cell with the same id.", "quantifier": "every slice", "why_tests_cant": "All slices.", "anchors": ["src/patches/dense_patch_computation.cpp: advance_slice"]}
{"id": "C30", "title": "Queued magic states are real", "statement": "In every reachable slice each queued magic-state location holds an unbound prepared state, and a request binds exactly one of them and removes it from the queue.", "quantifier": "every layout and history", "why_tests_cant": "All histories.", "anchors": ["src/patches/dense_patch_computation.cpp: advance_slice, try_apply_instruction_direct_followup"]}
{"id": "C31", "title": "A patch rotation restores the patch, rotated, after its fixed duration", "statement": "A single-patch rotation occupies the patch and one free neighbour for its duration and then leaves the same patch with rough and smooth boundaries exchanged and the neighbour free.", "quantifier": "every slice and patch position", "why_tests_cant": "All slices.", "anchors": ["src/patches/dense_patch_computation.cpp: single_patch_rotation_a_la_litinski, BusyRegion"]}
{"id": "C32", "title": "Marking a route only touches the route", "statement": "Marking a routing region changes no cell outside it, and the next slice advance frees exactly the cells that were marked.", "quantifier": "every slice and routing region over free cells", "why_tests_cant": "All slices and routes.", "anchors": ["src/patches/dense_patch_computation.cpp: mark_routing_region, clear_routing_region, advance_slice"]}
{"id": "C33", "title": "Routes are contiguous, free and correctly attached", "statement": "A route returned by the graph-search router is a chain of pairwise distinct free cells, consecutive cells being neighbours, whose ends touch the source and target patches on boundaries of the requested types.", "quantifier": "every slice, every pair of patches, every operator pair, every tie-breaking of the search queue", "why_tests_cant": "All grids and obstacle patterns.", "anchors": ["src/layout/graph_search/custom_graph_search.cpp: do_graph_search_route_ancilla"]}
{"id": "C34", "title": "Routes are shortest", "statement": "With the default search, no admissible route between the two patches is shorter than the one returned.", "quantifier": "every slice, pair of patches and tie-breaking", "why_tests_cant": "Optimality over all alternatives.", "anchors": ["src/layout/graph_search/custom_graph_search.cpp: do_graph_search_route_ancilla"]}
{"id": "C35", "title": "The router finds a route whenever one exists", "statement": "The router reports no route only if no admissible chain of free cells connects the patches.", "quantifier": "every slice and pair of patches", "why_tests_cant": "Completeness over all grids.", "anchors": ["src/layout/graph_search/custom_graph_search.cpp: do_graph_search_route_ancilla"]}
{"id": "C36", "title": "Cached routes are still usable", "statement": "A route returned by the cached router consists of cells free in the slice it is asked about.", "quantifier": "every sequence of route queries on changing slices", "why_tests_cant": "History dependent.", "anchors": ["src/layout/router.cpp: CachedRouter::find_routing_ancilla"]}
{"id": "C37", "title": "Long-range Bell preparation uses only neighbouring route cells", "statement": "Every local operation generated for a Bell-based CNOT or Bell pair acts on one or two neighbouring cells of its route (or their end patches), never outside, for every route length.", "quantifier": "every route length and endpoint", "why_tests_cant": "Length is unbounded and parity-dependent.", "anchors": ["src/patches/dense_patch_computation.cpp: compile_long_range_Bell"]}
{"id": "C38", "title": "Each local operation of a compiled instruction runs exactly once, in order", "statement": "Over the slices in which a Bell-based instruction is worked on, the windows of local operations it reports are consecutive and together cover the whole list exactly once.", "quantifier": "every local-operation list and every slicing of it into phases", "why_tests_cant": "All lengths and phase boundaries.", "anchors": ["src/patches/dense_patch_computation.cpp: try_apply_instruction_direct_followup (BellBasedCNOT, BellPairInit)", "src/ls_instructions/ls_instructions.cpp"]}
{"id": "C39", "title": "The compact layout provides exactly the requested qubits", "statement": "For every number of qubits the compact layout is rectangular and has exactly that many logical-qubit cells, each with a routing cell as vertical neighbour.", "quantifier": "every number of core qubits", "why_tests_cant": "All sizes.", "anchors": ["src/layout/dynamic_layouts/compact_layout.cpp: make_compact_layout"]}
{"id": "C40", "title": "The EDPC layout provides exactly the requested qubits", "statement": "For every number of qubits and of lanes for which the sizes fit into size_t, the uncondensed EDPC layout exists and has exactly that many logical-qubit cells, none on the border; with at least one lane no two of them are adjacent and the four cells around each are empty. Without distillation inside the layout, the qubits fill the smallest square they fit in row by row, and on the border around it lie the cells for magic states, or those and the ones for Y states in turn. With distillation inside, everything further out is for distillation or dead. The condensed layout has exactly that many logical-qubit cells too, none on the border, and with at least one lane every one of them has a routing cell above or below it and one to its left or right. Which cells on its border are for states depends on the number of qubits even where the size of the square does not.", "quantifier": "every number of qubits and lanes", "why_tests_cant": "All sizes.", "anchors": ["src/layout/dynamic_layouts/edpc_layout.cpp: make_edpc_layout"]}
{"id": "C41", "title": "Layout text and layout grid correspond", "statement": "Printing a layout grid and parsing it back gives the same grid; parsing fails exactly on characters outside the alphabet; cell queries return all and only the cells of that kind in row-major order.", "quantifier": "every grid and text", "why_tests_cant": "All grids.", "anchors": ["src/layout/ascii_layout_spec.cpp: parse_grid, find_all_cells_of_type, furthest_cell"]}
{"id": "C42", "title": "Distillation regions are the connected components", "statement": "The region grown from a cell contains exactly the cells reachable from it through neighbouring cells of the same kind, each once. A grid is accepted exactly if it is a nonempty rectangle without both factories and reserved magic cells; its regions are disjoint whole components covering all factory cells, each with its own queue and time.", "quantifier": "every grid, options and start cell", "why_tests_cant": "All grids.", "anchors": ["src/layout/ascii_layout_spec.cpp: connected_component"]}
{"id": "C43", "title": "Volume statistics account for every cell exactly once", "statement": "The categories reported for a slice add up to the number of cells of the slice, and totals over slices are the sums.", "quantifier": "every slice and sequence of slices", "why_tests_cant": "All slices.", "anchors": ["src/patches/slice_stats.cpp: compute_volume_counts"]}
{"id": "C44", "title": "Rotating a patch's boundaries four times changes nothing", "statement": "One in-place rotation exchanges the rough and smooth sides of a standard patch, two restore its type pattern, and four restore any patch exactly; direction and boundary complements are involutions, and boundary lookup agrees between neighbouring cells.", "quantifier": "every patch and cell", "why_tests_cant": "All boundary assignments and coordinates.", "anchors": ["src/patches/patches.cpp: instant_rotate, operator!, get_boundary_with"]}
{"id": "C45", "title": "Gate-level measurement patterns implement the gates", "statement": "The instruction sequences emitted for CNOT act on the logical Pauli operators as a CNOT up to Pauli corrections determined by the measurement outcomes.", "quantifier": "every control/target id pair, both CNOT types, all outcome combinations and all input Pauli operators on any register", "why_tests_cant": "Outcome combinations and register contexts.", "anchors": ["src/ls_instructions/ls_instructions_from_gates.cpp: make_cnot_instructions"]}
{"id": "C46", "title": "The rest of a proximate chain follows on the next slices", "statement": "When an instruction expanded as proximate is taken out of the dependency graph, the next instruction of its chain becomes proximate, so it is tried first on the next slice.", "quantifier": "every graph state and every proximate chain", "why_tests_cant": "Depends on the whole history of expansions and pops.", "anchors": ["include/lsqecc/dag/dependency_dag.hpp: pop_head, expand, proximate_instructions"]}
{"id": "C47", "title": "Instructions treated as commuting share no patch", "statement": "Whenever the dependency graph is allowed to reorder two instructions, no patch is mentioned by both of them: neither as a target nor as the patch next to which something is placed.", "quantifier": "every pair of instructions", "why_tests_cant": "Pairs of instructions with arbitrary ids, operand lists and client sets are unboundedly many; the exceptions are kinds whose neighbour operand is easy to overlook.", "anchors": ["include/lsqecc/ls_instructions/ls_instructions.hpp: CommutationTrait<LSInstruction>::can_commute", "src/ls_instructions/ls_instructions.cpp: get_operating_patches"]}
{"id": "C48", "title": "The layout's default ancilla placement applies to every unannotated CNOT", "statement": "When the layout has no dedicated ancilla cells the compiler switches the default ancilla placement; from then on every controlled gate of the input file that carries no placement annotation uses that default.", "quantifier": "every QASM file and both defaults", "why_tests_cant": "Depends on when each gate of an arbitrary file is read relative to the switch.", "anchors": ["src/pipelines/slicer.cpp: run_slicer_program_from_input_options (GateStreamFromFile, default_ancilla_placement)", "src/gates/parse_gates.cpp: GateStreamFromFile"]}
{"id": "C49", "title": "Gates outside the declared register are rejected", "statement": "A gate naming a qubit index not below the declared register size makes compilation fail with an error rather than silently acting on a qubit that does not exist.", "quantifier": "every register size and index", "why_tests_cant": "Unboundedly many sizes and indices; ids above the register size are also used for generated ancillas.", "anchors": ["src/gates/parse_gates.cpp: parse_qasm_gate, GateStreamFromFile"]}
{"id": "C50", "title": "A QASM file is delivered gate by gate in source order", "statement": "Reading a QASM file delivers exactly the gates of its lines, in order, each once; it succeeds exactly when every line with text is a gate, a register or an ignorable instruction and exactly one register is declared, before the first gate.", "quantifier": "every file", "why_tests_cant": "Files of every length with blank and ignored lines anywhere; the reader prefetches one gate.", "anchors": ["src/gates/parse_gates.cpp: GateStreamFromFile::advance_gate, get_next_gate", "src/gates/parse_gates.cpp: parse_gate"]}
{"id": "C51", "title": "DAG slicing respects dependencies and completes every instruction once", "statement": "In the DAG pipeline, if two source instructions do not commute, nothing stemming from the later one is executed before something stemming from the earlier one; when the pipeline ends every source instruction has been completed exactly once; and the bookkeeping itself never reaches undefined behaviour.", "quantifier": "every program and outcome sequence", "why_tests_cant": "All programs and all sequences of successes, failures and follow-ups.", "anchors": ["src/patches/dense_patch_computation.cpp: run_through_dense_slices_dag", "include/lsqecc/dag/dependency_dag.hpp: expand, pop_head, make_proximate"]}
{"id": "C52", "title": "A follow-up is executed in a later slice than the instruction that produced it", "statement": "In each pipeline, when applying an instruction produces follow-ups that take time, at least one slice is handed to the output before any of the follow-ups is applied; in the wave pipeline a follow-up that takes no time may be applied at once.", "quantifier": "every program and outcome sequence", "why_tests_cant": "All outcome sequences; the violation needs chains of follow-ups.", "anchors": ["src/patches/dense_patch_computation.cpp: run_through_dense_slices_streamed, run_through_dense_slices_dag", "src/scheduler/wave_scheduler.cpp: schedule_wave, schedule_instruction"]}
{"id": "C53", "title": "The first slice shows exactly the layout", "statement": "For every accepted layout grid and at most as many ids as qubit cells, the first slice exists and shows the ids in order on the qubit cells, resource states, factories, reserved and dead cells where they are drawn and nothing elsewhere; with more ids it is rejected.", "quantifier": "every grid, options and list of ids", "why_tests_cant": "All grids.", "anchors": ["src/patches/dense_slice.cpp: DenseSlice::DenseSlice", "src/layout/ascii_layout_spec.cpp: LayoutFromSpec"]}
{"id": "C54", "title": "T, S and Clifford gates are implemented by their instruction sequences", "statement": "Read as operations on state vectors, the instructions emitted for a T gate do a T gate up to Pauli corrections given by the outcomes (the final S being applied when the first outcome says so), the teleported and the catalytic sequence for S do an S gate, and in local mode the instructions compiled from a program of Clifford gates do what the program does.", "quantifier": "every register, state, outcome sequence, ids and program", "why_tests_cant": "All states, registers and outcomes.", "anchors": ["src/ls_instructions/ls_instructions_from_gates.cpp: make_t_gate_instructions", "src/ls_instructions/teleported_s_gate_injection_stream.cpp", "src/ls_instructions/catalytic_s_gate_injection_stream.cpp", "src/ls_instructions/ls_instruction_stream.cpp: LSInstructionStreamFromGateStream"]}
{"id": "C55", "title": "The local operations of a long-range CNOT do a CNOT, those of a Bell pair prepare one", "statement": "Read as lattice surgery on state vectors, the local operations a Bell-based CNOT is broken down into, carried out in order and with any outcomes, can be run whenever the cells of the route are free, do a CNOT from control to target up to Pauli corrections given by the outcomes, and leave the route free again; those of a Bell pair instruction prepare a Bell pair in the two ends of the route.", "quantifier": "every route and its length, every division into EDPC segments, every state, outcome sequence and field of amplitudes", "why_tests_cant": "All route lengths, states and outcomes.", "anchors": ["src/patches/dense_patch_computation.cpp: try_apply_instruction_direct_followup (BellBasedCNOT, BellPairInit)", "src/patches/dense_patch_computation.cpp: compile_long_range_Bell"]}
{"id": "C56", "title": "Every slice shown has been reached by steps the slice theorems speak of", "statement": "Every slice given to the slice visitor by the streamed, DAG or wave pipeline is reached from the first slice by attempts, advances and resets in which each new id is neither on the slice nor promised when its instruction is first attempted; hence on every slice shown no id occurs twice, nothing is outside the grid, looking an id up finds its cell, and the queue of magic states holds idle magic states only.", "quantifier": "every program with new ids for new patches, every layout, router, timeout and length of run", "why_tests_cant": "All programs and runs.", "anchors": ["src/patches/dense_patch_computation.cpp: run_through_dense_slices_streamed, run_through_dense_slices_dag, run_through_dense_slices_wave"]}
{"id": "C57", "title": "What the visitors see is a faithful account of the run", "statement": "The calls of the instruction visitor and of the slice visitor, taken in order, are those of a run of attempts and advances on one slice: an instruction is shown exactly when an attempt on the slice at hand has succeeded, a slice is shown as it is after all attempts before and before any attempt after, the next attempt sees that slice advanced exactly once, and the last slice is shown when the streamed pipeline ends.", "quantifier": "every program, outcome sequence and length of run, each pipeline", "why_tests_cant": "All runs; a slice shown too early or advanced twice differs only in some combinations of failures and follow-ups.", "anchors": ["src/patches/dense_patch_computation.cpp: run_through_dense_slices_streamed, run_through_dense_slices_dag, run_through_dense_slices_wave"]}
{"id": "C58", "title": "The search based on Boost finds routes, and only routes", "statement": "With the graph search provider Boost, a route that is returned is a chain of free cells that meets both patches on sides of the requested types, a route is returned whenever there is one, and nothing outside the graph is read.", "quantifier": "every slice that fits its layout, every pair of patches and operators, every order in which the queue hands out vertices", "why_tests_cant": "The provider is not built by default and no test uses it; all slices and pairs of patches.", "anchors": ["src/layout/graph_search/boost_based_graph_search.cpp: graph_search_route_ancilla", "src/layout/router.cpp: CustomDPRouter::find_routing_ancilla"]}
{"id": "C59", "title": "A qubit stays on its cell until it is measured, rotated or handed back", "statement": "A qubit patch of the first slice is on the same cell with the same id, as a qubit that is idle or undergoing a gate, on every slice shown before an instruction is shown that measures it, rotates it or hands it back as a Y state; no merge, route, long-range CNOT, magic state, other instruction or failed attempt overwrites, moves or renames it.", "quantifier": "every layout, program, router option, pipeline, outcome sequence and length of run", "why_tests_cant": "All programs and layouts: a patch is overwritten only if routes, factories and gates of several instructions meet in a particular way.", "anchors": ["src/patches/dense_patch_computation.cpp: try_apply_instruction_direct_followup, advance_slice, mark_routing_region, stitch_boundaries", "src/layout/router.cpp"]}
{"id": "C60", "title": "The JSON of a slice shows what the slice holds", "statement": "The JSON written for a slice is an array of one row for each row of the grid with one entry for each cell; null is shown exactly for free cells and an id exactly on the cell holding the patch with that id; the first cell of a factory shows its time to the next magic state; two slices give the same JSON exactly if they have the same patches up to the distinctions the drawing does not make (which are listed).", "quantifier": "every layout and every slice of its size", "why_tests_cant": "All slices; tests compare a handful of outputs.", "anchors": ["src/patches/slices_to_json.cpp: slice_to_json, dense_patch_to_json, annotate_time_to_next_distilled_state, boundaries_to_array_edges_json"]}
{"id": "C61", "title": "What is written for the slices is one JSON array", "statement": "When a run ends, the text written for the slices is JSON and denotes the array of the drawings of the slices shown, in order, so that their number and looks can be read off.", "quantifier": "every layout made from a grid, program, pipeline, router and run", "why_tests_cant": "All runs; the text is put together piecewise by a visitor and its well-formedness depends on how many slices are shown.", "anchors": ["src/pipelines/slicer.cpp: run_slicer_program (slice_visitor, print_slices)", "src/patches/slices_to_json.cpp: slice_to_json"]}
{"id": "C62", "title": "Qubits never move", "statement": "A qubit of the first slice is, on every slice shown before it is measured or handed back, either on the cell it started on or that cell is kept busy by a rotation; and it is on no other cell.", "quantifier": "every layout, program that makes no patch of that name, pipeline, and run (also one that ends in an exception later)", "why_tests_cant": "All runs and all slices; rotations, routes and teardown all write cells.", "anchors": ["src/patches/dense_patch_computation.cpp: try_apply_instruction_direct_followup, run_through_dense_slices_*", "src/patches/dense_slice.cpp: DenseSlice"]}
{"id": "C63", "title": "Instructions written slice by slice can be read back", "statement": "With --printlli sliced one line is written for each slice shown and one more; the entries of a line, told apart by semicolons outside square brackets, are the instructions shown since the slice before, in their order, as they are printed, and nothing else is on the line. Entries of the kinds the text can carry read back to the operation shown. Writing never fails and never reads outside a list of local operations.", "quantifier": "every layout, program, pipeline, router and run", "why_tests_cant": "All runs; which windows of local operations are printed depends on how far each attempt came.", "anchors": ["src/pipelines/slicer.cpp: run_slicer_program (instruction_visitor, slice_visitor)", "src/ls_instructions/ls_instructions.cpp: operator<<"]}
{"id": "C64", "title": "Gates read from a database are delivered as stored", "statement": "Reading gates from a Pandora database until the stream says it has ended delivers the gates its rows stand for, layer by layer from layer 1 on in the order of the rows, each once and none left out; rows for wires, resets and measurements give no gate and rows of other kinds are refused.", "quantifier": "every database contents and every number of gates taken", "why_tests_cant": "There is no database in the tests, and the number of layers, their gates and the parameters are unbounded.", "anchors": ["src/gates/postgres_gate_stream.cpp: advance_layer, has_next_gate, get_next_gate"]}
{"id": "C65", "title": "Options of the slicer do what the help text says", "statement": "Options that are left out act like their documented defaults, short and long names of formats agree, values that are not documented are refused and documented ones accepted; --noslices leaves out the slices and nothing else, --graceful changes nothing unless slicing fails, -t changes nothing unless a slice is late and otherwise only stops slicing, and -f changes the report but neither the slices nor what is written of them.", "quantifier": "every set of options and every input, layout file and timing", "why_tests_cant": "Combinations of options and inputs are unbounded, and the time a slice takes cannot be controlled in a test.", "anchors": ["src/pipelines/slicer.cpp: run_slicer_program"]}
{"id": "C66", "title": "From the input text to the output text", "statement": "When the slicer ends without an exception, the program it sliced is the compilation, in the way that belongs to the options, of the decomposed gates on the lines of its input in their order, for a register of fewer than 2^32 qubits; it uses no patch before it is made or after it is gone; the run is the one of the pipeline, the layout and the router asked for; on every slice shown each qubit of the register is on the cell of the layout given to it, or that cell is being rotated, and on no other cell; patches are within the grid and have different ids; what is written is the JSON array of exactly the slices shown (or with --printlli sliced the instructions shown, slice by slice), on the standard output nothing else; the volumes reported add up; the number of instructions read is that of the program.", "quantifier": "every set of options, input text, layout, router, pipeline and run", "why_tests_cant": "Input texts and layouts are unbounded; tests compare the output for a few of them.", "anchors": ["src/pipelines/slicer.cpp: run_slicer_program"]}
{"id": "C67", "title": "What is reported about a run", "statement": "With -o or --noslices, the slicer writes besides the slices exactly the report asked for with -f: by default a progress line for slices as they are made and a summary; for machines one line of three numbers; with stats the summary and the total, distillation, unused, dead and other volume of the slices shown; or nothing. The numbers of instructions and slices in it are those of the program and of the slices shown.", "quantifier": "every set of options, input, layout, router and run that ends without an exception", "why_tests_cant": "The counts are kept apart from the visitors, in each pipeline in a different way; a test compares them for single runs.", "anchors": ["src/pipelines/slicer.cpp:608-684", "src/patches/dense_patch_computation.cpp: run_through_dense_slices_streamed, run_through_dense_slices_dag, run_through_dense_slices_wave", "src/patches/slice_stats.cpp"]}
{"id": "C68", "title": "Every instruction is carried out in full, step by step", "statement": "At any time each instruction shown by a pipeline is a step of one instruction of the program, and the steps shown of an instruction are a beginning of the steps in which it is carried out in full: most instructions are one step; an S gate is followed by its correction; a rotation occupies its two cells for three more steps and puts the same qubit back; the steps of a Bell pair or a long-range CNOT carry out the local instructions compiled for it, each once and in their order. No step of an instruction comes after one of a later instruction with a patch in common. When the run is finished, all steps of all instructions have been shown.", "quantifier": "every program, layout, router, pipeline and number of steps of the run", "why_tests_cant": "Instructions are interleaved, deferred and resumed depending on the whole state; the tests compare the output of short programs only.", "anchors": ["src/patches/dense_patch_computation.cpp: try_apply_instruction_direct_followup and its helpers", "src/patches/dense_patch_computation.cpp:1040-1180", "src/pipelines/wave_scheduler.cpp"]}
{"id": "C69", "title": "Slicing comes to an end", "statement": "The loops of the pipelines end: after a number of rounds that can be told from the program alone, every instruction has been carried out or the run has stopped with an error. Rounds in which no instruction is shown are limited in number in any case. Once the slicer program has come to its end, nothing depends on how long it might have gone on.", "quantifier": "every program, layout, router, pipeline, first slice and number of rounds; every set of options and every input of the slicer program", "why_tests_cant": "No test can show that a loop ends for every input, nor that it never ends for one; how long an instruction is retried depends on the whole state, and the limits are numbers like 2^64.", "anchors": ["src/patches/dense_patch_computation.cpp:1461-1593", "src/pipelines/wave_scheduler.cpp:62-105", "src/patches/dense_patch_computation.cpp:1238-1250", "src/patches/router.cpp:9-37"]}
{"id": "C70", "title": "The dependency graph of gates keeps what matters of their order", "statement": "Gates that are taken to commute do commute, whatever the gates on one qubit mean. The dependency graph of a program of gates has one node for each gate and an arrow from one to a later one exactly when they share a qubit on which they cannot be swapped. Every order of the gates that respects the arrows, in particular every order in which the graph can be worked off, means the same as the program.", "quantifier": "every program of gates, every field and every assignment of matrices to gates on one qubit, every order", "why_tests_cant": "The number of orders grows with the factorial of the length of the program; the tests look at one graph of a few gates and do not evaluate the gates.", "anchors": ["include/lsqecc/gates/gates.hpp:160-182", "src/dag/domain_dags.cpp: full_dependency_dag_from_gate_stream", "include/lsqecc/dag/dependency_dag.hpp:25-36"]}
{"id": "C71", "title": "The text of a graph depicts the graph", "statement": "The GraphViz text of a dependency graph can be read back: it has exactly one node for each node of the graph, labelled with the text of its instruction or gate, one arrow for each arrow of the graph, and the marks of nodes and arrows, each once; also after nodes were taken out, replaced or marked.", "quantifier": "every program of instructions or gates, every sequence of operations on the graph", "why_tests_cant": "Labels contain arbitrary printed instructions, whose characters may collide with those of the format; the tests compare few fixed texts.", "anchors": ["src/dag/directed_graph.cpp: to_graphviz", "include/lsqecc/dag/dependency_dag.hpp: to_graphviz", "src/gates/gates.cpp: operator<<"]}
{"id": "C72", "title": "What the slicer program prints instead of slicing is what it would slice", "statement": "With `--printlli before` the slicer program lists exactly the instructions it slices without that option, one on each line in their order; with `--printdag processedlli` it draws the graph of these, and with `--printdag input` the graph of the gates of the input. Whatever is listed or drawn was asked for and is made from the input. A program that can be sliced can be listed and drawn.", "quantifier": "every set of options and every input", "why_tests_cant": "The statement compares two runs of the program for every input.", "anchors": ["src/pipelines/slicer.cpp:386-420", "src/pipelines/slicer.cpp:524-550", "src/ls_instructions/ls_instruction_stream.cpp:201-206"]}
{"id": "C73", "title": "Factories keep their clock", "statement": "On a layout with factories the k-th slice shown (from 0) shows for a factory with time T > 0 the time T - (k mod T), whatever instructions are carried out, refused or waiting. After the slices T-1, 2T-1, ... and only then the factory delivers: it puts one magic state on the first cell of its queue that is free once what has been measured is gone, if there is one, and that cell joins the queue of magic states; factories that deliver at the same time do so in their order; nothing else appears or disappears. On a layout with cells reserved for magic states, between one slice and the next each reserved cell that is empty once what has been measured is gone starts a new magic state taking the time of the layout; one at work has a slice less to go and holds a magic state, queued, after the last; one holding a qubit or a prepared state stays as it is; the cells not reserved, and their places in the queue, do not change except that what has been measured is gone.", "quantifier": "every layout with factories or with reserved cells, every program, router and pipeline, every point of a run", "why_tests_cant": "The period shows only in runs longer than the times of several staggered factories, with every mixture of instructions; the counter is a 32-bit number.", "anchors": ["src/patches/dense_patch_computation.cpp:79-174", "src/patches/dense_patch_computation.cpp:49-57", "src/layout/ascii_layout_spec.cpp:140-196"]}
{"id": "C74", "title": "No more magic states are handed out than the factories make", "statement": "On a layout with factories the magic states handed out before the k-th slice and those waiting on it are at most the sum of floor(k / T) over the times T of the factories. A finished run of the slicer program has shown enough slices for all magic states the program asks for.", "quantifier": "every layout with factories, every program, router and pipeline", "why_tests_cant": "It is a bound on every run; a magic state handed out twice or delivered too often shows only in long runs.", "anchors": ["src/patches/dense_patch_computation.cpp:79-174", "src/patches/dense_patch_computation.cpp: MagicStateRequest in try_apply_instruction_direct_followup"]}
{"id": "C75", "title": "Gates survive print and parse", "statement": "Reading the QASM text printed for a gate gives the same gate, for every gate that can be read from QASM: basic gates, rotations, CNOT, CZ, controlled rotations and resets, with its qubits, angle and annotations; and different gates have different texts.", "quantifier": "every gate, any qubits, angle, annotations, default placement", "why_tests_cant": "The printer and the reader are written apart; what is lost or cannot be read shows only by going through all kinds of gates with all angles, and that the text tells all other gates apart is a statement about pairs of gates.", "anchors": ["src/gates/gates.cpp:195-258", "src/gates/parse_gates.cpp:47-278"]}
{"id": "C76", "title": "Callers of the interface by strings get the output, the messages and the exit code of the program", "statement": "run_slicer_program_from_strings runs the program on the words of the command line, and returns the text of a JSON object from which a reader of JSON gets back exactly the output, the messages and the exit code of the run, or, when the program throws, the exit code 100 and the text of the exception as last line of the messages. In particular the drawings of the slices arrive as a list of all drawings in their order.", "quantifier": "every program, command line, input, output, messages and exit code", "why_tests_cant": "Quotes, control characters and bytes outside ASCII in messages and output, and command lines with any spacing, are an unbounded set; tests look at a few texts.", "anchors": ["src/pipelines/slicer.cpp:696-728", "npm/src/index.ts:48-70", "src/emscripten_bindings.cpp:8"]}
{"id": "C77", "title": "Edge-disjoint routes leave the sides of patches as they were", "statement": "While the CNOTs of a wave are given edge-disjoint routes, the patches on the lattice stay what they are, and nothing but labels of sides that were rough or smooth changes on them. Along every route the two sides of an edge carry the same label, however routes cross. When the sides noted are reset before the local instructions run, every patch is again exactly what it was before the routes were marked, and all that is left are the routing marks on cells that were free.", "quantifier": "every layout and slice without routing marks, every number and order of CNOTs, every route the router returns, every way in which routes cross", "why_tests_cant": "The labels depend on how several routes cross, and a chain of crossings is flipped as a whole; tests see a few patterns of crossings and compare drawings of slices only.", "anchors": ["src/patches/dense_slice.cpp:275-526", "src/patches/dense_patch_computation.cpp:195-288", "src/scheduler/wave_scheduler.cpp:81-92"]}
{"id": "C78", "title": "Routes are edge-disjoint, and a crossing keeps the two routes apart", "statement": "The routes given to the CNOTs of a wave by the EDPC router share no edge: no two of them go between the same two cells in either direction. A free cell is used by at most two of them, and the cells recorded as crossings are exactly those on two routes. Every step of a route is labelled on both of its sides with the same label. At a crossing the sides of one route carry one label and the sides of the other route the other label, so that the two can be told apart. A route the router has found can be marked.", "quantifier": "every layout and slice without routing marks, every number and order of CNOTs, every order of expansion of the search", "why_tests_cant": "What happens at a crossing depends on all routes marked before; faults appear only for particular arrangements of three routes whose crossings touch.", "anchors": ["src/patches/dense_slice.cpp:275-526", "src/patches/dense_patch_computation.cpp:195-288", "src/layout/graph_search/custom_graph_search.cpp", "src/layout/router.cpp"]}
{"id": "C79", "title": "Any two qubits of a generated layout can be connected", "statement": "In the EDPC layout, condensed or not, with or without distillation inside, for every number of qubits and every positive number of lanes for which the sizes fit into size_t: any two logical qubits can be connected by a walk over touching cells on which nothing is placed, starting above or below the first (where it is smooth) or beside it (where it is rough), and ending above or below, or beside the second, as wanted. In the same way every qubit can be connected to every cell for magic states and every Y state, in the condensed layout to those that are not in a corner. In the compact layout any two qubits can be connected above or below them. When a computation starts on such a layout, the default search, with edge-disjoint routing or without, finds a route between any two qubits, for any two of the operators X and Z on the EDPC layout and for Z on both qubits on the compact layout. Without local instructions and without edge-disjoint routing a joint measurement of two qubits with these operators as the first instruction succeeds at once.", "quantifier": "every number of qubits and lanes, every pair of qubits and sides", "why_tests_cant": "All sizes; a single cell in the wrong place, for instance in the last row of an odd square, cuts off one pair of qubits of one size.", "anchors": ["src/layout/dynamic_layouts/edpc_layout.cpp: make_edpc_layout", "src/layout/dynamic_layouts/compact_layout.cpp", "src/layout/graph_search/custom_graph_search.cpp"]}

# Formal model of liblsqecc — design

Source: `/repo` (latticesurgery-com/liblsqecc, C++20), read as text, never built or run.
Model and proofs: Lean 4.33.0, Lake project in `/verif/lean`, modules under `lean/Verif/`.

## Trusted base

* The Lean 4 kernel.
* The axioms `propext`, `Classical.choice` and `Quot.sound`. Every theorem named in `MANIFEST.json` depends on a subset of
  these three (checked with `#print axioms`). No axiom is declared here; there is no `sorry`, `admit`, `native_decide` or
  `bv_decide`.
* The reading of the C++ text: that each definition says what the cited lines do. The definitions are small and each cites
  its lines, so they can be compared side by side. Nothing connects the Lean text to the C++ text mechanically.
* The statements: the definitions in the `Spec` namespaces and the theorems listed in `MANIFEST.json`. Proofs need not be
  read.
* A few Mathlib modules are imported (`Nat.sqrt`, `ring`, `linarith`, `linear_combination`, `ZMod`, `ℂ`, `Real.sqrt`); they are
  checked by the same kernel.

Concrete runs closed by `decide` or `rfl` occur only as `example`s (non-vacuity) and as witnesses of negations.

## How undefined behaviour, exceptions and non-termination are represented

`Outcome α = ok a | throws | ub`. `throws` is a C++ exception (also a failed `assert`, when the flag `asserts` says that
assertions are compiled in: the CMake Release build keeps them, the Debug build defines `NDEBUG`). `ub` is an operation the
standard leaves undefined: reading past the end, `front()` of an empty queue, dereferencing an empty optional or `end()`,
signed overflow. A property about what the code does says `= .ok …` about the outcome, so an `ub` result never makes it true.
Loops that need not end (`while` loops of the pipelines) are run for an arbitrary number of rounds and the theorems quantify
over that number; searches use fuel and the theorems show that it never runs out.

## Layout of the Lean development

`X.lean` holds the model of an area (each definition cites file and lines), `XLemmas`, `XInv`, … hold helper lemmas, and
`XProps.lean` holds the specification vocabulary and the property theorems with an `example` beside each.

| modules | code modelled |
|---|---|
| `Basic` | `Outcome`, function update, ordered sets |
| `Lstk`, `LstkProps` | `lstk::split_on`, `str_replace`, `join`, decimal numbers (`include/lstk/lstk.hpp`, `std::from_chars`, `stoul`) |
| `Instr`, `InstrProps` | `ls_instructions/ls_instructions.*`: the instruction variant, operating patches, commutation |
| `Lli*` | `ls_instructions_parse.cpp`, printing in `ls_instructions.cpp`, `local_instructions.cpp`, LLI file stream |
| `Gates*` | `gates/gates.*`, `gates/decompose_rotation_stream.*`, `gates/gate_approximator.cpp` (the table of approximations and the external program are parameters) |
| `Qasm*` | `gates/parse_gates.cpp`: lines, angles, annotations, the file stream |
| `Stream*` | `ls_instructions_from_gates.cpp`, `id_generator.hpp`, boundary rotation injection, teleported and catalytic S gates |
| `Graph*`, `Dag*` | `dag/directed_graph.*`, `dag/dependency_dag.hpp`, `dag/commutation_trait.hpp`, `domain_dags.hpp` |
| `Wave*` | `scheduler/wave_scheduler.*` over an arbitrary function applying instructions |
| `Pipeline*` | `dense_patch_computation.cpp:1448-1732`: streamed, DAG and wave pipelines over an arbitrary function applying instructions |
| `Patch`, `Slice*` | `patches/patches.*`, `dense_slice.*`, `advance_slice`, the first slice |
| `Apply`, `Bell*` | `try_apply_instruction_direct_followup` and everything it calls, local instructions, `compile_long_range_Bell`, EDPC |
| `RealEnv`, `RealProps`, `Reach*`, `Play*`, `Later*`, `Stay*`, `Home*` | the pipelines run with the modelled application function |
| `Search*`, `Router*` | `layout/graph_search/custom_graph_search.cpp`, `layout/router.*` (graph-search router and cached router) |
| `Boost*` | `layout/graph_search/boost_based_graph_search.cpp` |
| `Sliced*` | the visitors of `pipelines/slicer.cpp` for `--printlli sliced` |
| `Compiled*` | not code: the theorems on runs put together for programs that come from the compiler |
| `Salvage*` | the pipelines again, with what they have shown when an exception leaves them (proved to be the same functions otherwise) |
| `Slicer*` | `run_slicer_program` of `pipelines/slicer.cpp`: options, input, choice of layout, router and pipeline, visitors, reports |
| `Pandora*` | `gates/postgres_gate_stream.cpp`: translation of rows and delivery layer by layer |
| `Exposed*` | `layout/dynamic_layouts/determine_exposed_operators.cpp`: what each patch shows on the first slice |
| `FromStrings*` | `run_slicer_program_from_strings` of `pipelines/slicer.cpp`, the command line of `npm/src/index.ts`, of nlohmann/json the writing of strings |
| `Json*` | `patches/slices_to_json.cpp`, the slice visitor of `pipelines/slicer.cpp`, of nlohmann/json the access operators and `dump` |
| `Layout*` | `layout/ascii_layout_spec.*`, `layout.cpp`, `compact_layout.cpp`, `edpc_layout.cpp` |
| `Dot*`, `GateDagProps`, `GatePrint` | the graph of gates, GraphViz output of graphs, printing of gates |
| `Timed`, `Clock*` | not code: the times of the factories and the queue of magic states over runs |
| `Stats*` | `patches/slice_stats.*` (volume counts) |
| `Quantum*` | not code: state-vector semantics of the emitted instruction sequences (`Quantum`) and of local instructions (`QuantumLocal`) |

## Not modelled

* The Boost library itself (C58 assumes what `Boost.lean` states of it); the heuristic search is modelled, its optimality is not claimed.
* Sparse slices (`patches/sparse_slice.*`).
* The external rotation synthesis program and the table of approximations (parameters).
* the database driver behind `gates/postgres_gate_stream` (the rows it returns are given), JSON output of sparse slices, the Python and
  Emscripten bindings.
* Of `slicer.cpp`: argparse (options arrive parsed); the text of exceptions (a parameter);
  what has been written when `--graceful` catches an exception thrown by the input (the model gives no result; see `program_unknown`). Input is read
  completely before slicing starts, while the code reads it as it goes: when input is faulty further on, the code may have shown slices before it throws.
* Timings, `std::cout` formatting of numbers, error messages (only whether there is an error), memory exhaustion.
* `size_t` wrap-around except where it can be reached (C11, C40, C43, waiting budget); labels of `DirectedGraph` are unbounded.


## Properties: plan and result

| id | modelled | how proved | status | remarks |
|---|---|---|---|---|
| C01 Splitting text on a separator loses nothing | `split_on(char)` loop over a character list | induction on the text; uniqueness by induction on pieces | proved |  |
| C02 Instructions in the LLI grammar survive print and parse | printer and parser over character lists | per-kind round trip, induction over operand lists and decimal digits | partial | Holds for all kinds except declarations and logical Paulis, which the reader understands but which are printed in another form; c03_exact shows the hypothesis is also necessary. |
| C03 Output of --printlli can always be read back | same | negation with witnesses and the exact set of operations that survive | partial | False for the code: negations proved for every id. c03_exact gives the exact set of operations that survive printing and reading. |
| C04 Reading an LLI program keeps every instruction, in order | `parse_ls_instructions` fold and the file stream | induction on lines | partial | Exact behaviour of both readers for every list of lines; 'exactly one declaration' is false for both and the negation is proved. |
| C05 Character escaping for graph labels keeps the text | `str_replace` loop | negation with witness; exact condition | partial | False for the code: text after the last target is lost. Exact condition proved. |
| C06 QASM two-qubit gates keep control and target apart | QASM line parser | round trip over decimal indices | proved | Every index below 2^32, any register name without separators, any spacing and annotation; larger indices wrap (c06_index_wraps). |
| C07 CNOT placement annotations survive print and parse | string tables | case analysis | proved |  |
| C08 Gate decomposition yields only basic gates and keeps program order | `DecomposeRotationStream` queue machine | induction over the stream | proved | The rotation approximation is a parameter; an empty approximation makes the stream read an empty queue (c08_empty_undefined). |
| C09 Controlled rotations decompose to the same diagonal unitary | `decompose_CRZ_gate`, phase semantics on basis states | arithmetic on rational phases | partial | Holds for positive angles under the decomposition's own reading of the angle; negations for negative angles and for the OpenQASM reading. |
| C10 Rotation angles read from QASM mean what they say | angle parser and gate selection | negation for the lossy cases, partial theorem elsewhere | partial | Holds for pi/d and n*pi/d forms with d>1; false otherwise, negations proved. The sign of a rotation is also ignored when gates are compiled to instructions. Controlled rotations are read for the angle pi/d only; all others are refused (c10_crz_refused). |
| C11 Compiler-generated patch ids are fresh | `IdGenerator` threaded through all stages | invariant on the counter | proved | Exact ids for every program, mode and stage composition; fresh as long as ids fit in 32 bits, the wrap-around case is shown separately. |
| C12 Ids generated for LLI input do not collide with declared ids | `set_start(*std::max(begin,end))` | `ub` outcome; negation; partial with a proper start | partial | False for the code: the start value is read past the end of the id set. With a proper start value the claim holds (c12_partial). |
| C13 Every generated ancilla is created once, used while alive, and destroyed once | instruction templates and stages | lifetime automaton, induction over the program | proved | Programs within the register, ids fitting in 32 bits; every stage composition. |
| C14 Boundary-rotation injection only adds rotations | injection stage over an arbitrary source | induction over the stream | proved | Over an arbitrary source of instructions. |
| C15 After injection, joint measurements always face exposed boundaries | same with a replay of what each patch shows (X, Z or both), turned by rotations and Hadamards; starting point computed from the first slice of the layout | invariant; patches at the end of a row of a compact layout show both operators, so the map may say anything about them | partial | Proved for all gate programs through the whole compact pipeline, from what the patches of compact layouts of every size show on the first slice, and for suitable sources; false for sources that rotate core patches themselves or measure Y. Qubits at the end of a row show both operators and may be turned without need. |
| C16 S-gate expansion removes S gates on core qubits and keeps everything else | S-gate stages | induction over the stream | proved | The Hadamard-rotation insertion of the stages is part of the statement. |
| C17 Dependency graph keeps forward and backward edges mirrored | `DirectedGraph` operations | invariant over operation lists | proved | Every history of public calls. remove_node is modelled with the libstdc++ behaviour of erasing while iterating; the strict reading is characterised by c17_remove_node_strict. |
| C18 Instructions that do not commute are executed in program order | `DependencyDag` | invariant over pop/expand sequences | proved | Any commutation test, any program, any interleaving of pops and expansions. |
| C19 The dependency graph never deadlocks | same | rank argument | proved |  |
| C20 Topological order lists every node once, after its successors | DFS post-order with fuel | invariant on visited/order, fuel suffices | proved |  |
| C21 Expanding an instruction keeps its place in the order | `expand` | exact edge characterisation, path mapping | proved |  |
| C22 Wave scheduling preserves per-patch program order | `WaveScheduler` with abstract `apply`, storage moves as `ub` | invariant over all outcome functions; discharged for the modelled `apply` | partial | Proved for every run that neither uses a dangling reference nor stops with an exception; c22_dangling shows a run that uses freed memory. The function applying instructions is a parameter with at most one follow-up per application (as in the code) and the deferral protocol of the code. For the modelled application function the assumptions are proved without EDPC (c22_code_partial); with EDPC for runs in which no routed CNOT meets a busy end patch. c22_code_dangling is a dangling run of the whole model. |
| C23 The wave scheduler loses and duplicates nothing | same | token-conservation invariant | partial | As for C22: between waves and at the end, for all runs without undefined behaviour; deferral is covered. The _code_ and _edpc_ theorems are about the modelled application function. |
| C24 Deferred instructions are not lost | same, EDPC rounds | negation with witness, partial theorem under the deferral protocol | partial | Holds for the deferral protocol of the code; for arbitrary outcomes it is false (an instruction failing in the second round is dropped, one deferred again is queued twice). Without EDPC the code never defers. |
| C25 Reported slice count equals the number of emitted slices | pipelines with abstract `apply` | exact formula, negations | partial | False as stated. Streamed: the slices shown exceed the count by the number of attempts after which an instruction had to wait (exact equation proved, counterexample run). DAG and wave: the count is always one too high. |
| C26 Streamed slicing executes in source order and finishes each instruction first | streamed pipeline | invariant relating the queue, the stream and the events | proved | Application of instructions to slices is an arbitrary function that leaves the waiting budget alone on plain failure. c26_code: this holds of the modelled application function. |
| C27 Waiting is bounded by the instruction's budget | all pipelines | invariant on attempts; negations for DAG and waves | partial | Proved for the streamed pipeline. False for the DAG pipeline (fixed 100 retries, budget ignored), for follow-ups in the DAG and wave pipelines (first failure is an error) and for immediate attempts of the wave scheduler (not counted). |
| C28 Two patches never share a cell or an id | slice and application, any router | invariant over histories of attempts, advances and resets | proved | Over every interleaving of first attempts, repeated attempts, slice advances and resets, for every layout, option and routing function; the new ids of an instruction must be new. |
| C29 Core qubits survive every slice advance | `advance_slice` | case analysis of one advance | proved | For every slice and layout; the advance itself succeeds when the layout's lists fit together. |
| C30 Queued magic states are real | same with magic queue | invariant over histories | partial | Proved over all histories without Bell operations when assertions are on or magic states have a queue of locations; false for reserved cells with assertions off (witness). Bell operations are not covered. Binding is proved for every state. |
| C31 A patch rotation restores the patch, rotated, after its fixed duration | rotation and busy regions | invariant over histories ("calm" slices) | partial | Proved for layouts whose magic states have a queue of locations, over all histories without Bell operations and for a whole run on any slice; false for reserved cells (witness). The label of the patch is lost (part of the statement). |
| C32 Marking a route only touches the route | `mark_routing_region` | induction over the region | partial | Proved for measurement routes (and the marking half for rotations). EDPC routes can relabel sides outside the route and are kept as reserved by the advance, so for them it is false. |
| C33 Routes are contiguous, free and correctly attached | search loop with arbitrary tie-breaking | invariants of the search; chain from the predecessor map | proved | Every order of handing out queued vertices, with and without the heuristic, with and without edge-disjoint routing. For the Boost search see C58. |
| C34 Routes are shortest | same, queue of least distance | layered distances | proved | Search without heuristic (the default). Assumes that the queue hands out a vertex of least distance; c34_keys shows that the keys of queued vertices never change, which std::priority_queue needs for that. |
| C35 The router finds a route whenever one exists | same | closure of the set of reached vertices | proved |  |
| C36 Cached routes are still usable | cached router | negation, history invariant | partial | The property fails: c36_stale is a cached route across a patch prepared since. c36_partial: a returned route was admissible in the slice of some query so far. |
| C37 Long-range Bell preparation uses only neighbouring route cells | `compile_long_range_Bell` | induction on route length, tiling of the route by operations | proved | For every route length, route and division into labelled segments, over all attempts. Proved more strongly: every two consecutive route cells are used by exactly one operation and rounds act on disjoint cells. That consecutive route cells are neighbours is C33. |
| C38 Each local operation of a compiled instruction runs exactly once, in order | counters and phases | induction on attempts | partial | Proved for Bell pairs and CNOTs without EDPC. With EDPC it needs that the fourth set of operations is empty when the third is; this holds when no step with the second label stands alone (c38_edpc_sets), otherwise operations are skipped (witness). c55_edpc_shown_partial: when no round is skipped, the operations shown do the CNOT. |
| C39 The compact layout provides exactly the requested qubits | `make_compact_layout` | cell-wise description of the table | proved | c39_picture draws the whole layout. |
| C40 The EDPC layout provides exactly the requested qubits | `make_edpc_layout` | loop invariants for placement, edges, burying | proved | Assumes that the sizes fit into size_t. c40_picture draws the whole layout when distillation is outside it: which cells hold qubits, magic states and Y states. c40_outside: with distillation inside, no route leaves the square. c40_no_lanes: without lanes, which the command line allows, qubits touch. c40_condensed: the condensed variant has exactly the requested qubits too, and with at least one lane every one of them has a routing cell above or below and one beside it; which cells on its border are for states is not covered in general (c40_condensed_states: they depend on the number of qubits even where the size does not; one state is missing with five qubits). |
| C41 Layout text and layout grid correspond | grid text | induction on rows | proved | Blank lines are skipped, so only grids without empty rows are read back. |
| C42 Distillation regions are the connected components | `connected_component`, `init_cache` | search invariant; component = reachability | proved |  |
| C43 Volume statistics account for every cell exactly once | volume counts | induction over cells | proved | Assumes that the counts fit into int and that the slice has the dimensions of the layout; otherwise the code overflows or reads out of bounds. c43_run: in runs on a layout made from a grid all slices shown have the dimensions of the layout. |
| C44 Rotating a patch's boundaries four times changes nothing | boundary rotation | case analysis | proved |  |
| C45 Gate-level measurement patterns implement the gates | CNOT templates | state vectors over any field with w^4 = -1, all outcomes symbolic | partial | The property fails: whatever the outcomes, the emitted sequence measures X of the target (c45_measures_target) and so is no CNOT up to Pauli corrections (c45_not_cnot). The _partial theorems: it is one if the ancilla is measured in Z (control first) or prepared in zero (target first). |
| C46 The rest of a proximate chain follows on the next slices | `pop_head` | negation, general statement | partial | The property is false for the code: pop_head looks at predecessors, so the promotion never happens. Negation with witness plus the general statement that pop never promotes. |
| C47 Instructions treated as commuting share no patch | `get_operating_patches`, commutation | case analysis; negation | partial | False for neighbour operands (negation proved); holds for all other operands. c47_exact: exactly which pairs are treated as commuting. |
| C48 The layout's default ancilla placement applies to every unannotated CNOT | default placement | negation for the first gate, induction for the others | partial | False for the first gate of the file (negation proved); holds for all later gates. |
| C49 Gates outside the declared register are rejected | `check` of indices | negation for every index | partial | False for the code: every index is accepted, whatever the register size. |
| C50 A QASM file is delivered gate by gate in source order | QASM file stream | induction on lines | proved |  |
| C51 DAG slicing respects dependencies and completes every instruction once | DAG pipeline | invariant of C18/C19 carried through the rounds | proved | For application functions yielding at most one follow-up, as every return statement of try_apply_instruction_direct_followup does. Proved of the modelled application function (c51_code_*). |
| C52 A follow-up is executed in a later slice than the instruction that produced it | the three pipelines | event invariant; counterexample runs; for waves, what is tried in a wave existed before it or is immediate | partial | Proved for the streamed pipeline; false for the DAG pipeline, where heads created by the proximate loop are applied again in the same slice. Proved for the wave pipeline too (with EDPC for runs in which no CNOT that has its route meets a busy end patch). c52_code_dag_wrong: in the code a rotation takes one slice less in the DAG pipeline. |
| C53 The first slice shows exactly the layout | `DenseSlice` constructor on layouts from grids | description of each assignment loop | proved | c53_shape: the first slice meets the assumptions the theorems about slices and routes make on the layout. |
| C54 T, S and Clifford gates are implemented by their instruction sequences | T, S and Clifford templates | state vectors as for C45 | partial | The catalytic S gate without local instructions uses the CNOT sequences of C45 and is no S gate (c54_catalytic_wrong). Clifford programs are covered with local instructions, in which a CNOT is one instruction; without them they fail with C45. |
| C55 The local operations of a long-range CNOT do a CNOT, those of a Bell pair prepare one | `compile*`, `applyCnot*`, `applyBell` and a semantics of local instructions | chain of two-qubit maps contracted by path order; roles of each operation by induction on the compilation; combined with C33 and C38 | proved | c55_cnot and c55_bell hold for any router that returns distinct cells, the _routed versions for the search of the code on slices of the size of the layout. The _shown versions speak of the operations shown over all slices; with EDPC see C38. |
| C56 Every slice shown has been reached by steps the slice theorems speak of | the three loops with the slices they show | an arbitrary statement about slice and unfinished instructions is carried through each pipeline (`Ambient`), then instantiated with the histories of C28 | partial | Complete for the streamed and DAG pipelines and for the wave pipeline without EDPC. With EDPC, runs in which a CNOT that has its route meets a busy end patch are missing (c56_edpc_partial). The statement on magic states is for programs without long-range CNOTs and Bell pairs. c56_compiled: for every compiled program, with no hypothesis on names left. |
| C57 What the visitors see is a faithful account of the run | the three loops with the order of visitor calls | an inductive relation `Play` of attempts, resets and advances, followed step by step | proved | For every function applying instructions, advancing and resetting, hence for that of the code. |
| C58 The search based on Boost finds routes, and only routes | the search based on Boost; of Boost only the queue order is left open | the shape of the graph: every chain of predecessors has at most three edges | partial | The property fails: the test for free cells is the wrong way round, so the graph has no edges between free cells. Routes of two free cells are missed (c58_missed), patches are crossed (c58_crosses, which makes the pipelines throw, c58_code_throws), sides are not checked (c58_side), no patch is joined to itself (c58_twist_wrong), and a vertex that is not there is read (c58_no_vertex). The _partial theorems say exactly what is found instead. c58_stored_partial: with the router that stores routes on top. |
| C59 A qubit stays on its cell until it is measured, rotated or handed back | application of every instruction, advance, routers, the three loops | the run is repeated with what has been shown as part of the state (`ghost`, a natural transformation of runs), on which the invariant "not taken yet, so still there" is carried through all three loops by `Keeps` (what each single step keeps, whatever the order) | proved | In every pipeline, for the default router, the one that stores routes, edge-disjoint routing (EDPC), the one that uses Boost with or without storing routes, and, without local instructions, any router. The layout has no routing marks on it when it is handed over, which holds for all layouts made from a grid (c59_grid). |
| C60 The JSON of a slice shows what the slice holds | `slice_to_json` on the JSON values it builds | the drawing is the table of a function of the cell; that function is inverted | proved | For slices of the size of the layout, which by c61_drawable all slices shown are. On the first cell of a factory the text of the patch is replaced by the time, so an id there would be hidden. |
| C61 What is written for the slices is one JSON array | the slice visitor of `slicer.cpp` that writes JSON, `dump(3)` | an independent tokenizer and grammar (`Denotes`) that determine the value; induction over values; the size of slices is carried through the pipelines by `Keeps` | partial | The property fails if no slice is shown: only the closing bracket is written (c61_empty). This happens in the DAG and wave pipelines for programs without instructions (c61_no_slice), not in the streamed one (c61_streamed). It holds whenever a slice is shown (c61_run). |
| C62 Qubits never move | application of every instruction, advance, routers, the three loops | the invariant of C59, extended by "this cell may be part of a rotation", together with "no other cell has this name", carried through all three loops by `Keeps` | proved | In every pipeline, for the default router, the one that stores routes, edge-disjoint routing (EDPC), the one that uses Boost with or without storing routes, and, without local instructions, any router. Programs that make a patch named like the qubit are excluded; an example shows that then there may be two. The layout has no routing marks on it when it is handed over, which holds for all layouts made from a grid. c62_boost_waits: where Boost leads the route of a CNOT across a qubit, the qubit stays, and the CNOT tries without end. c62_compiled: for compiled programs, whose patches are never named like a qubit of the register, on the qubit cells of the grid in reading order. |
| C63 Instructions written slice by slice can be read back | the instruction and slice visitors of `slicer.cpp` for `--printlli sliced`, `operator<<` | printed instructions have semicolons in brackets only; that the windows of local operations stay within their lists is carried through the pipelines by `Keeps` | proved | Entries are told apart by semicolons outside square brackets. Readers that cut at every semicolon, as the help text of the option suggests, do not get the instructions if there are local operations (c63_semicolons). c63_compiled: for every compiled program. |
| C64 Gates read from a database are delivered as stored | translation of rows, `advance_layer`, `has_next_gate`, `get_next_gate`, the loop of a consumer | case analysis on the row type; induction over layers; two databases that agree up to a layer without gates cannot be told apart | partial | Holds for databases whose layers from 1 on each have a gate until the gates end and which have no powers of X, Y or CZ. Otherwise false: such powers are read as other gates, and a layer without gates ends the stream. |
| C65 Options of the slicer do what the help text says | `run_slicer_program`, `make_layout`-like choices and the table of options of `slicer.cpp`; the parsing of options by argparse is not modelled, the options arrive parsed | runs of the program with two sets of options are compared step by step (`prepare_congr`, `visitAll_congr`, `perform_congr`) | partial | The property fails in three ways: the documented value noprogress of -f is refused (c65_noprogress), instructions as input, the default, are never accepted (c65_lli), and without --graceful a timeout ends in an exception (c65_late). The rest is proved. c65_caught and c65_graceful_lives: what --graceful does with an exception that leaves the pipeline. c65_caught_time and c65_late_graceful: with --graceful a timeout is caught, and the slices before the first late one are written. c65_always_caught: every exception that ends the slicing without --graceful is caught with it, because writing a slice or an instruction never throws (unseen_never). Missing: with --graceful, exceptions while the input is read during the run; the model gives no result for them (program_unknown). |
| C66 From the input text to the output text | the same, from the text of the input to the text on the output, put together from the models of the parser, the compiler, the layouts, the pipelines and the writers | a run of the program is an account of a pipeline (`slice_traced`), to which the theorems of C56, C61, C62, C43 and C63 apply | partial | c66_ids is without edge-disjoint routing. The number of instructions read is right in the streamed pipeline only (c66_read_partial, c66_read_wrong). With --graceful and without -o the message about the exception is written into the JSON text (c66_graceful_wrong). c66_qasm and c66_pandora name the gates, the mode, the layout and the way of compiling that belong to the options; c66_run names the pipeline, the router and the settings of the run. c66_lifetimes and c66_facing carry C13 and C15 over to the program sliced, for gates on the register. c66_caught_json and c66_caught_sliced: the JSON text and the listing are whole, too, when an exception was caught. c66_caught_home: c66_home until an exception that is caught. c66_factories: the times of the factories are those asked for. |
| C67 What is reported about a run | the report written besides the slices, as text, and the numbers in it compared with what was shown | the text is what arrives outside the channel of the slices; the counts are carried over from the pipelines (C25) | partial | The texts are proved. The number of slices in them is wrong: one too large in the DAG and wave pipelines (c67_count_more), too small in the streamed pipeline whenever an instruction had to wait (c67_count_wrong: 7 reported, 21 shown); c67_count_partial gives the bound that holds. For the number of instructions see c66_read_partial and c66_read_wrong. c67_caught, c67_caught_more and c67_caught_progress: the numbers and the text after an exception caught by --graceful. |
| C68 Every instruction is carried out in full, step by step | application of every instruction with its follow-ups, the three loops | `Going`: what of an instruction has been done and what is pending; kept by every attempt (`going_apply`), carried through the loops with the list of what has been shown as part of the state (`ghost`) | partial | Proved for all three pipelines without EDPC, for any router, and for the slicer program from its options and input text on (c68_slicer). With EDPC the property fails: a CNOT whose third set of local instructions is empty is finished after the second one, and the fourth one is dropped (c68_dropped, a finished run on a layout of six qubits). c68_edpc_partial says what is carried out in either case. Missing there: runs in which a CNOT that has its route meets a busy or missing end patch. |
| C69 Slicing comes to an end | the loops of the pipelines and the waiting of instructions; the program as a whole with its number of steps | a measure: how often each pending instruction may still fail, plus what has been shown (`srun_bound`, `drun_bound`, `wrun_bound`); with C68 the number of steps of an instruction is bounded by 4; for a CNOT made of Bell pairs, what the first attempt leaves is laid over resting cells and can be done at once in any later slice in which those still rest (`Ready`, `ready_kept`); for the run without end an invariant (`Blocked`) kept by every round | partial | Rounds in which nothing is shown are bounded for every program (c69_*_waits). Without Bell pairs and CNOTs made of them every pipeline ends, whatever the layout, the router and the first slice, with an explicit bound (c69_*_partial, c69_slicer_partial); for the slicer program that is the case without --local when no gate asks for Bell pairs (c69_qasm). With --local and --router graph_search_cached the property is false: c69_forever gives the options, the layout file and a file with two CNOT gates on which the program is still running after any number of steps, because a magic state came to lie on the stored route; c69_blocked is the general reason. With CNOTs made of Bell pairs between different patches the streamed pipeline ends too when routes are searched anew each time (c69_streamed_cnots, clear_dp): a CNOT is done in two steps, because the second attempt either does the rest or changes nothing (c69_cnot_twice). For the slicer program: the default pipeline, no cache and no Boost, gates within the register and on different qubits, with --local or without (c69_local). Missing: CNOTs made of Bell pairs in the DAG and wave pipelines, and EDPC. |
| C70 The dependency graph of gates keeps what matters of their order | the dependency graph of gates (`can_commute` of gates, `full_dependency_dag_from_gate_stream`) | gates on one qubit have arbitrary matrices as meaning; gates without a clash commute by the locality of matrices; orders that keep the arrows differ by swaps of commuting gates | partial | Proved for programs without resets, for arbitrary matrices as meaning of the gates on one qubit. A reset next to any other gate makes the building of the graph throw (c70_reset_throws). |
| C71 The text of a graph depicts the graph | `to_graphviz` of graphs and dependency graphs, `operator<<` of gates | an independent reader (`readGraph`) of the statements of the text; every line written is read as the statement it stands for | partial | The text is read back by an independent reader of the GraphViz statements. Fails: a node does not show next to what a patch is to be made (c71_place_lost, from the escaping of C05), and a declaration whose first id is printed as a special character (C03) breaks the text. Gates with a reset: see C70. |
| C72 What the slicer program prints instead of slicing is what it would slice | the parts of `slicer.cpp` for `--printlli before` and `--printdag` | the run with the option is compared with the run without it (`printed`, `asked_prints`), C66 and C71 apply | partial | Proved for every run: what is listed or drawn is what is sliced without these options, and what is listed or drawn is made from the input. Fails: the graph of an input with a reset cannot be drawn though it can be sliced (c72_reset); the graph of instructions leaves out places (c72_place_unseen). Instructions as input are never drawn or listed (C65). |
| C73 Factories keep their clock | `advance_slice` and all instructions, as to the times of the factories | no attempt and no reset changes the times (`timed_apply`); what one advance does to times, cells and queue is computed for all factories at once (`factories_worked`); induction over accounts of runs (`Play`, C57) | proved | Layouts with factories: c73_clock, c73_delivery, and c73_slicer for the slicer program; a factory time of zero is taken as 2^32 (c73_zero). Layouts with reserved cells: c73_reserved. That a reserved cell used as a route or for a rotation is overwritten is a finding (c30_reserved_wrong, c31_reserved_wrong). |
| C74 No more magic states are handed out than the factories make | the same, as to the queue of magic states | each request that succeeds takes one cell from the queue, each advance adds at most one for each factory whose time is over; with C68 all requests of a finished program have succeeded | partial | Proved on layouts with factories. With --disttime 0 --nostagger no magic state is ever made within 2^32 - 1 slices (c74_no_time). Missing: layouts with reserved cells; with EDPC, that a finished run has handed out all magic states asked for (the bound on those handed out is proved). |
| C75 Gates survive print and parse | `operator<<` for gates and `parse_gate` | each kind of gate is printed and the text followed through the reader; the text is taken apart from the left to show what it says | partial | c75_read says what the reader makes of the text of every gate, c75_survives_partial which gates survive, c75_text what a text says about its gate. Not satisfied by the code for rotations and resets (c75_rotations_wrong), controlled rotations by other angles than +pi/d (c75_controlled_wrong), Y, S, T and H under a control, and annotations of CNOTs. |
| C76 Callers of the interface by strings get the output, the messages and the exit code of the program | `run_slicer_program_from_strings`, the command line of the npm package, and writing of JSON strings | a reader of JSON objects is the specification; the table of the UTF-8 decoder is shown to accept exactly the encodings of characters (Lean's `String.utf8EncodeChar`); drawings by C61 | partial | The program that is run is a parameter. Proved: the arguments (c76_words, c76_npm), the reply to a program that returns or throws if the texts are UTF-8 (c76_returned, c76_exception), and that drawings of slices arrive (c76_drawn). Not satisfied by the code when the output is not UTF-8: there is no reply but an exception (c76_throws), which happens for a printed declaration whose first id is 128 to 255 modulo 256 (c76_declared). A word with a space in it cannot be given (c76_no_space). |
| C77 Edge-disjoint routes leave the sides of patches as they were | `mark_routing_region` for EDPC, `mark_boundaries_for_crossing_cell`, `flip_crossing_chain`, the reset in `schedule_wave` | invariant of the slice relative to the slice before: sides of patches are as they were or noted with their type; labels agree across every edge of a route (`Inv`); flipping keeps it because both sides of an edge are flipped together (`Ev`, `flip_edge`), a crossing fills exactly the two sides of the new route by counting (`markCrossing_sides`), and the router offers rough and smooth ends only (C33) | proved | For the router of the edpc pipeline, on any slice without routing marks, and for any number of attempts at CNOTs that have no local instructions yet (the first passes and the deferred round before the sides are reset). Instructions of other kinds between these attempts are not part of the statement. |
| C78 Routes are edge-disjoint, and a crossing keeps the two routes apart | `CustomDPRouter` for EDPC, `mark_routing_region`, `mark_boundaries_for_crossing_cell`, `flip_crossing_chain` | a predicate on the routes so far, the label and the slice is carried along the marking of a route (`Follows`, `Tracked`): every step is labelled, every free cell counted, and with crossings apart the labels at a crossing are those of its routes (`markCrossing_apart`); edges are disjoint because the router passes over labelled sides (`Admissible.untaken`) | partial | Proved for the router of the edpc pipeline: edge-disjointness, the number of routes through a cell, and the labels along a route. That a crossing keeps its two routes apart is proved if no two crossings touch (c78_apart_partial); where they touch the code can give the two sides of one route different labels (c78_mixed), and a route the router has found can end the program with an exception (c78_throws). Instructions of other kinds between the attempts are not part of the statement. |
| C79 Any two qubits of a generated layout can be connected | `make_edpc_layout`, `make_compact_layout` | the rows and columns between the groups of qubits are routing cells (C40, `Post.lane`); every cell of a lane is joined to a crossing of two lanes (`to_hub`); routing cells are vacant in the layout and empty in the first slice (C53), so the walk is an admissible route and the search finds one (C35); what it finds is free and without repetitions (C33), so it can be marked (C32) and the measurement is done | proved | c79_states: the same for the cells of magic states and Y states; those in the corners of the condensed layout are left out. c79_edpc_route and c79_compact_route: the default search finds a route in the first slice (through C35). c79_edpc_measure and c79_compact_measure: a first joint measurement succeeds (through C32 and C33), without local instructions and with the default router without edge-disjoint routing. Assumes that the sizes fit into size_t and that there is a lane; without lanes it fails (c79_no_lanes: the qubit in the middle of nine). |

A property is `proved` when the theorems cover its whole statement for all inputs, possibly under the hypotheses named in the
remarks that the statement itself or the types of the code impose; `partial` when the code violates it (negation proved with a
witness, plus a theorem for what does hold) or when some part is missing.

## Findings about the code

Each is proved in the model (theorem in brackets) unless marked "read".

* Printing and reading LLI: negated multi-body measurements, declarations and several other kinds do not survive
  (`c03_fails`, `c03_negated_multi_changes_id`, `c03_output_refused`); a program without a declaration is accepted
  (`c04_declaration_not_enforced`); `str_replace` loses the text after the last target (`c05_loses_text`).
* QASM: indices wrap at 2^32 (`c06_index_wraps`); even multiples of pi are read wrongly and a missing denominator is undefined
  behaviour (`c10_*`); the sign of an angle is dropped by the CRZ decomposition and the compiler (`c09_sign_*`,
  `c10_sign_ignored_by_compiler`); no index is checked against the register (`c49_*`), and an index outside it collides with
  generated ids (`c11_out_of_register_collides`); the first gate of a file is parsed with the old default placement
  (`c48_first_gate_old_default`); an empty rotation approximation reads an empty queue (`c08_empty_undefined`); the cached
  synthesis always throws (`c08_cached_always_throws`).
* Id generator for LLI input starts from a dereferenced end iterator (`c12_start_undefined`).
* Dependency graph: `remove_node` erases from the set it iterates over (`c17_remove_node_strict`); `pop_head` examines
  predecessors, so chains are never promoted (`c46_*`); the patch next to which a state is placed is not an operand
  (`c47_neighbour_ignored`).
* Wave scheduler: references into `records_` dangle when it grows (`c22_dangling`, `c22_code_dangling`); a deferred instruction
  failing in the last round is dropped and one deferred twice is duplicated (`c24_lost`, `c24_duplicated`); immediate attempts do
  not use the waiting budget (`c27_wave_more`).
* Pipelines: reported slice counts are off (`c25_*`); the DAG pipeline ignores the waiting budget and stops at the first failure of
  a follow-up (`c27_dag_ignored`, `c27_followups_stop`) and may apply follow-ups in the slice in which they arise
  (`c52_dag_wrong`; a rotation is one slice shorter, `c52_code_dag_wrong`).
* Boost search (not built by default): the graph has no edges between free cells (`c58_*`). Where it leads the route of a long-range CNOT across a qubit, every attempt counts as a success without doing anything, so that the limit on attempts does not apply and the CNOT tries without end (`c62_boost_waits`).
* Slices: a reserved magic-state cell used by a route or a rotation is overwritten by the respawn (`c30_reserved_wrong`,
  `c31_reserved_wrong`); EDPC marks relabel sides outside the route and survive the advance (`c32_edpc*`); a rotation loses the
  label and the operation id of the patch (part of `c31_run`); a cached route may cross a patch (`c36_stale`); EDPC operations
  are skipped when the third set is empty and the fourth is not (`c38_edpc_skipped`).
* Y states (read, modelled in `Apply.applyY`): a predistilled cell whose patch was measured away is dereferenced empty
  (dense_patch_computation.cpp:1343); unbinding increments the number of predistilled states for any Y state; when that number is
  not zero but no state is free there is no fallback to a twist.
* Read: the mismatch exceptions at dense_patch_computation.cpp:834, 839 are constructed but not thrown; the range check at 546 uses
  `>` instead of `>=`; `getCells` of a multi-cell patch prepends as many zero cells (patches.cpp:78-94); a printed EDPC CNOT has no
  separator between phases; `marked_*_boundaries_` references are reset after the cells may have changed
  (wave_scheduler.cpp:81-92); waiting Bell routes are not protected against other instructions.
* Layouts: without lanes qubits of the EDPC layout touch (`c40_no_lanes`; the command line allows it); in its condensed variant a
  state on the border is lost when the last qubits of the square are not needed (`c40_condensed_states`); letters `T` and `D` are
  accepted but nothing is placed there; distillation queues may contain a cell twice; blank lines are skipped.
* Database input: powers of X and Y are read as powers of Z and powers of CZ as CNOT (`c64_misread`, `c64_wrong_gate`; a comment in
  the code admits it); a layer without gates ends the stream and the rest is silently lost (`c64_lost`, `c64_lost_gate`); asking
  for a gate at the end is undefined (`c64_past_end`).
* Options: `-f noprogress` is documented but only the misspelled `noprogres` is accepted (`c65_noprogress`); `-L` silently overrides `-l` (`c65_layout_ignored`);
  instructions, the default input format, always end in an exception or undefined behaviour (`c65_lli`); `-t` ends in an exception and leaves the JSON text without its
  closing bracket (`c65_late`); the message of `--graceful` lands within the JSON text if there is no `-o` (`c66_graceful_wrong`); "LS Instructions read" is the number
  of instructions in the streamed pipeline only, the others count follow-ups again (`c66_read_wrong`).
* Boundary rotations: a qubit at the end of a row of a compact layout shows both operators but is turned after a Hadamard all the
  same (`c15_superfluous`).
* Edge-disjoint routes: flipping the labels along a chain of crossings does not follow the routes it crosses, so that a route can enter a crossing with one label
  and leave it with the other (`c78_mixed`); a route the router has found can be one whose marking throws, which ends the program (`c78_throws`).
* Printing gates: rotations are printed `rz(3pi/8)` and resets `resetq[2]`, controlled rotations `crz(3*pipi/8)`; the reader refuses
  all of these (`c75_rotations_wrong`, `c75_controlled_wrong`); the sign of an angle is not printed.
* Interface by strings: if the output is not UTF-8 there is no reply but an exception that nothing catches (`c76_throws`); the printed
  declaration of qubits is not UTF-8 when the first id is 128 to 255 modulo 256 (`c76_declared`). A word with a space in it, such as the
  name of a file, cannot be given (`c76_no_space`).
* Emitted gate sequences: both ancilla CNOT patterns measure X of the target for every outcome and are no CNOT
  (`c45_measures_target`, `c45_not_cnot`): control-first would have to measure its ancilla in Z at the end, target-first to prepare
  it in zero (`c45_*_partial`). The non-local catalytic S gate uses them and is no S gate (`c54_catalytic_wrong`).

## Mutation tests

`seeded/LOG.jsonl` records edits of model definitions (in a scratch copy) meant to break a claimed property, and the theorems that then
fail to check. The runner builds the modules that depend on the edited one, maps every error to the enclosing declaration, and
follows dependencies from the theorems in `MANIFEST.json`. Many of the later runs stop at the first module in which a theorem of the
manifest is lost, so `theorems_failed` need not be complete; the edits `y…` and some `w…` were run against the modules on layouts only.
"killed" means that a theorem of the manifest has no proof any more with the proofs as they are. That is weaker than the theorem being
false for the edited model: a proof can also fail because it follows the definition too closely. Where that was noticed the outcome is
"proof only"; the edits `y…` were all evaluated on samples to see whether they really break what is stated, the other entries were not. A survivor leads to a stronger theorem, recorded in the same line, or to
a note saying why the edit changes nothing.

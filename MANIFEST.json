{
 "claims": [
  {
   "property": "C01",
   "status": "proved",
   "theorems": [
    "Verif.Spec.c01_split"
   ],
   "note": ""
  },
  {
   "property": "C02",
   "status": "partial",
   "theorems": [
    "Verif.Lli.Spec.c02_roundtrip_partial",
    "Verif.Lli.Spec.c03_exact",
    "Verif.Lli.Spec.c03_fails"
   ],
   "note": "Holds for all kinds except declarations and logical Paulis, which the reader understands but which are printed in another form; c03_exact shows the hypothesis is also necessary."
  },
  {
   "property": "C03",
   "status": "partial",
   "theorems": [
    "Verif.Lli.Spec.c03_exact",
    "Verif.Lli.Spec.c03_fails",
    "Verif.Lli.Spec.c03_negated_multi_changes_id",
    "Verif.Lli.Spec.c03_output_refused"
   ],
   "note": "False for the code: negations proved for every id. c03_exact gives the exact set of operations that survive printing and reading."
  },
  {
   "property": "C04",
   "status": "partial",
   "theorems": [
    "Verif.Lli.Spec.c04_program_partial",
    "Verif.Lli.Spec.c04_second_declaration",
    "Verif.Lli.Spec.c04_file_partial",
    "Verif.Lli.Spec.c04_declaration_not_enforced"
   ],
   "note": "Exact behaviour of both readers for every list of lines; 'exactly one declaration' is false for both and the negation is proved."
  },
  {
   "property": "C05",
   "status": "partial",
   "theorems": [
    "Verif.Spec.c05_loses_text",
    "Verif.Spec.c05_replace_partial"
   ],
   "note": "False for the code: text after the last target is lost. Exact condition proved."
  },
  {
   "property": "C06",
   "status": "proved",
   "theorems": [
    "Verif.Qasm.Spec.c06_two_qubit",
    "Verif.Qasm.Spec.c06_single_qubit",
    "Verif.Qasm.Spec.c06_index_wraps"
   ],
   "note": "Every index below 2^32, any register name without separators, any spacing and annotation; larger indices wrap (c06_index_wraps)."
  },
  {
   "property": "C07",
   "status": "proved",
   "theorems": [
    "Verif.Qasm.Spec.c07_names",
    "Verif.Qasm.Spec.c07_annotated_line"
   ],
   "note": ""
  },
  {
   "property": "C08",
   "status": "proved",
   "theorems": [
    "Verif.Gates.Spec.c08_stream",
    "Verif.Gates.Spec.c08_prefix",
    "Verif.Gates.Spec.c08_basic",
    "Verif.Gates.Spec.c08_gridsynth_basic",
    "Verif.Gates.Spec.c08_empty_undefined",
    "Verif.Gates.Spec.c08_cached_always_throws"
   ],
   "note": "The rotation approximation is a parameter; an empty approximation makes the stream read an empty queue (c08_empty_undefined)."
  },
  {
   "property": "C09",
   "status": "partial",
   "theorems": [
    "Verif.Gates.Spec.c09_crz_partial",
    "Verif.Gates.Spec.c09_sign_dropped",
    "Verif.Gates.Spec.c09_sign_wrong_phase",
    "Verif.Gates.Spec.c09_not_openqasm_crz"
   ],
   "note": "Holds for positive angles under the decomposition's own reading of the angle; negations for negative angles and for the OpenQASM reading."
  },
  {
   "property": "C10",
   "status": "partial",
   "theorems": [
    "Verif.Qasm.Spec.c10_angle_partial",
    "Verif.Qasm.Spec.c10_even_multiples_wrong",
    "Verif.Qasm.Spec.c10_no_denominator_undefined",
    "Verif.Stream.Spec.c10_sign_ignored_by_compiler",
    "Verif.Qasm.Spec.c10_crz_partial",
    "Verif.Qasm.Spec.c10_crz_refused"
   ],
   "note": "Holds for pi/d and n*pi/d forms with d>1; false otherwise, negations proved. The sign of a rotation is also ignored when gates are compiled to instructions. Controlled rotations are read for the angle pi/d only; all others are refused (c10_crz_refused)."
  },
  {
   "property": "C11",
   "status": "proved",
   "theorems": [
    "Verif.Stream.Spec.c11_ids",
    "Verif.Stream.Spec.c11_fresh",
    "Verif.Stream.Spec.c11_wraps_around",
    "Verif.Stream.Spec.c11_out_of_register_collides"
   ],
   "note": "Exact ids for every program, mode and stage composition; fresh as long as ids fit in 32 bits, the wrap-around case is shown separately."
  },
  {
   "property": "C12",
   "status": "partial",
   "theorems": [
    "Verif.Stream.Spec.c12_start_undefined",
    "Verif.Stream.Spec.c12_partial",
    "Verif.Stream.Spec.c12_bad_start_collides"
   ],
   "note": "False for the code: the start value is read past the end of the id set. With a proper start value the claim holds (c12_partial)."
  },
  {
   "property": "C13",
   "status": "proved",
   "theorems": [
    "Verif.Stream.Spec.c13_lifetimes",
    "Verif.Stream.Spec.c13_needs_register"
   ],
   "note": "Programs within the register, ids fitting in 32 bits; every stage composition."
  },
  {
   "property": "C14",
   "status": "proved",
   "theorems": [
    "Verif.Stream.Spec.c14_only_rotations",
    "Verif.Stream.Spec.c14_drop"
   ],
   "note": "Over an arbitrary source of instructions."
  },
  {
   "property": "C15",
   "status": "partial",
   "theorems": [
    "Verif.Stream.Spec.c15_partial",
    "Verif.Stream.Spec.c15_compact",
    "Verif.Stream.Spec.c15_exposed",
    "Verif.Stream.Spec.c15_layout",
    "Verif.Stream.Spec.c15_superfluous",
    "Verif.Stream.Spec.c15_source_rotation",
    "Verif.Stream.Spec.c15_y_measurement"
   ],
   "note": "Proved for all gate programs through the whole compact pipeline, from what the patches of compact layouts of every size show on the first slice, and for suitable sources; false for sources that rotate core patches themselves or measure Y. Qubits at the end of a row show both operators and may be turned without need."
  },
  {
   "property": "C16",
   "status": "proved",
   "theorems": [
    "Verif.Stream.Spec.c16_teleported",
    "Verif.Stream.Spec.c16_catalytic",
    "Verif.Stream.Spec.c16_teleported_gates",
    "Verif.Stream.Spec.c16_catalytic_gates",
    "Verif.Stream.Spec.c16_no_s"
   ],
   "note": "The Hadamard-rotation insertion of the stages is part of the statement."
  },
  {
   "property": "C17",
   "status": "proved",
   "theorems": [
    "Verif.Dag.Spec.c17_mirror",
    "Verif.Dag.Spec.c17_effect",
    "Verif.Dag.Spec.c17_remove_node_strict",
    "Verif.Dag.Spec.c17_remove_absent_edge_ub"
   ],
   "note": "Every history of public calls. remove_node is modelled with the libstdc++ behaviour of erasing while iterating; the strict reading is characterised by c17_remove_node_strict."
  },
  {
   "property": "C18",
   "status": "proved",
   "theorems": [
    "Verif.Dag.Spec.c18_build",
    "Verif.Dag.Spec.c18_order"
   ],
   "note": "Any commutation test, any program, any interleaving of pops and expansions."
  },
  {
   "property": "C19",
   "status": "proved",
   "theorems": [
    "Verif.Dag.Spec.c19_progress",
    "Verif.Dag.Spec.c19_count",
    "Verif.Dag.Spec.c19_exhaust"
   ],
   "note": ""
  },
  {
   "property": "C20",
   "status": "proved",
   "theorems": [
    "Verif.Dag.Spec.c20_topological"
   ],
   "note": ""
  },
  {
   "property": "C21",
   "status": "proved",
   "theorems": [
    "Verif.Dag.Spec.c21_expand"
   ],
   "note": ""
  },
  {
   "property": "C22",
   "status": "partial",
   "theorems": [
    "Verif.Wave.Spec.c22_order_partial",
    "Verif.Wave.Spec.c22_origins",
    "Verif.Wave.Spec.c22_dangling",
    "Verif.Real.Spec.c22_code_partial",
    "Verif.Real.Spec.c22_edpc_partial",
    "Verif.Real.Spec.c22_code_dangling"
   ],
   "note": "Proved for every run that neither uses a dangling reference nor stops with an exception; c22_dangling shows a run that uses freed memory. The function applying instructions is a parameter with at most one follow-up per application (as in the code) and the deferral protocol of the code. For the modelled application function the assumptions are proved without EDPC (c22_code_partial); with EDPC for runs in which no routed CNOT meets a busy end patch. c22_code_dangling is a dangling run of the whole model."
  },
  {
   "property": "C23",
   "status": "partial",
   "theorems": [
    "Verif.Wave.Spec.c23_states_partial",
    "Verif.Wave.Spec.c23_done_partial",
    "Verif.Real.Spec.c23_code_partial",
    "Verif.Real.Spec.c23_edpc_partial"
   ],
   "note": "As for C22: between waves and at the end, for all runs without undefined behaviour; deferral is covered. The _code_ and _edpc_ theorems are about the modelled application function."
  },
  {
   "property": "C24",
   "status": "partial",
   "theorems": [
    "Verif.Wave.Spec.c24_partial",
    "Verif.Wave.Spec.c24_lost",
    "Verif.Wave.Spec.c24_duplicated",
    "Verif.Real.Spec.c24_code",
    "Verif.Real.Spec.c24_edpc_partial"
   ],
   "note": "Holds for the deferral protocol of the code; for arbitrary outcomes it is false (an instruction failing in the second round is dropped, one deferred again is queued twice). Without EDPC the code never defers."
  },
  {
   "property": "C25",
   "status": "partial",
   "theorems": [
    "Verif.Pipe.Spec.c25_streamed_partial",
    "Verif.Pipe.Spec.c25_streamed_wrong",
    "Verif.Pipe.Spec.c25_dag_wrong",
    "Verif.Pipe.Spec.c25_wave_wrong"
   ],
   "note": "False as stated. Streamed: the slices shown exceed the count by the number of attempts after which an instruction had to wait (exact equation proved, counterexample run). DAG and wave: the count is always one too high."
  },
  {
   "property": "C26",
   "status": "proved",
   "theorems": [
    "Verif.Pipe.Spec.c26_order",
    "Verif.Real.Spec.c26_code"
   ],
   "note": "Application of instructions to slices is an arbitrary function that leaves the waiting budget alone on plain failure. c26_code: this holds of the modelled application function."
  },
  {
   "property": "C27",
   "status": "partial",
   "theorems": [
    "Verif.Pipe.Spec.c27_streamed",
    "Verif.Pipe.Spec.c27_dag_ignored",
    "Verif.Pipe.Spec.c27_followups_stop",
    "Verif.Pipe.Spec.c27_wave_more",
    "Verif.Real.Spec.c27_code"
   ],
   "note": "Proved for the streamed pipeline. False for the DAG pipeline (fixed 100 retries, budget ignored), for follow-ups in the DAG and wave pipelines (first failure is an error) and for immediate attempts of the wave scheduler (not counted)."
  },
  {
   "property": "C28",
   "status": "proved",
   "theorems": [
    "Verif.Slices.Spec.c28_unique",
    "Verif.Slices.Spec.c28_away",
    "Verif.Slices.Spec.c28_inside",
    "Verif.Slices.Spec.c28_lookup",
    "Verif.Slices.Spec.c28_found",
    "Verif.Slices.Spec.c28_occupied",
    "Verif.Slices.Spec.c28_placed"
   ],
   "note": "Over every interleaving of first attempts, repeated attempts, slice advances and resets, for every layout, option and routing function; the new ids of an instruction must be new."
  },
  {
   "property": "C29",
   "status": "proved",
   "theorems": [
    "Verif.Slices.Spec.c29_survive",
    "Verif.Slices.Spec.c29_stem",
    "Verif.Slices.Spec.c29_defined"
   ],
   "note": "For every slice and layout; the advance itself succeeds when the layout's lists fit together."
  },
  {
   "property": "C30",
   "status": "partial",
   "theorems": [
    "Verif.Slices.Spec.c30_queue_partial",
    "Verif.Slices.Spec.c30_bind",
    "Verif.Slices.Spec.c30_served",
    "Verif.Slices.Spec.c30_reserved_wrong"
   ],
   "note": "Proved over all histories without Bell operations when assertions are on or magic states have a queue of locations; false for reserved cells with assertions off (witness). Bell operations are not covered. Binding is proved for every state."
  },
  {
   "property": "C31",
   "status": "partial",
   "theorems": [
    "Verif.Slices.Spec.c31_begin",
    "Verif.Slices.Spec.c31_meanwhile",
    "Verif.Slices.Spec.c31_attempt",
    "Verif.Slices.Spec.c31_run",
    "Verif.Slices.Spec.c31_reserved_wrong"
   ],
   "note": "Proved for layouts whose magic states have a queue of locations, over all histories without Bell operations and for a whole run on any slice; false for reserved cells (witness). The label of the patch is lost (part of the statement)."
  },
  {
   "property": "C32",
   "status": "partial",
   "theorems": [
    "Verif.Slices.Spec.c32_mark",
    "Verif.Slices.Spec.c32_possible",
    "Verif.Slices.Spec.c32_freed",
    "Verif.Slices.Spec.c32_merge",
    "Verif.Slices.Spec.c32_edpc",
    "Verif.Slices.Spec.c32_edpc_stays"
   ],
   "note": "Proved for measurement routes (and the marking half for rotations). EDPC routes can relabel sides outside the route and are kept as reserved by the advance, so for them it is false."
  },
  {
   "property": "C33",
   "status": "proved",
   "theorems": [
    "Verif.Router.Spec.c33_route",
    "Verif.Router.Spec.c33_free"
   ],
   "note": "Every order of handing out queued vertices, with and without the heuristic, with and without edge-disjoint routing. For the Boost search see C58."
  },
  {
   "property": "C34",
   "status": "proved",
   "theorems": [
    "Verif.Router.Spec.c34_shortest",
    "Verif.Router.Spec.c34_keys"
   ],
   "note": "Search without heuristic (the default). Assumes that the queue hands out a vertex of least distance; c34_keys shows that the keys of queued vertices never change, which std::priority_queue needs for that."
  },
  {
   "property": "C35",
   "status": "proved",
   "theorems": [
    "Verif.Router.Spec.c35_returns",
    "Verif.Router.Spec.c35_found",
    "Verif.Router.Spec.c35_none"
   ],
   "note": ""
  },
  {
   "property": "C36",
   "status": "partial",
   "theorems": [
    "Verif.Router.Spec.c36_stale",
    "Verif.Router.Spec.c36_partial"
   ],
   "note": "The property fails: c36_stale is a cached route across a patch prepared since. c36_partial: a returned route was admissible in the slice of some query so far."
  },
  {
   "property": "C37",
   "status": "proved",
   "theorems": [
    "Verif.Slices.Spec.c37_bell",
    "Verif.Slices.Spec.c37_bell_defined",
    "Verif.Slices.Spec.c37_cnot",
    "Verif.Slices.Spec.c37_cnot_defined",
    "Verif.Slices.Spec.c37_neighbours"
   ],
   "note": "For every route length, route and division into labelled segments, over all attempts. Proved more strongly: every two consecutive route cells are used by exactly one operation and rounds act on disjoint cells. That consecutive route cells are neighbours is C33."
  },
  {
   "property": "C38",
   "status": "partial",
   "theorems": [
    "Verif.Slices.Spec.c38_bell",
    "Verif.Slices.Spec.c38_cnot",
    "Verif.Slices.Spec.c38_edpc_partial",
    "Verif.Slices.Spec.c38_edpc_sets",
    "Verif.Slices.Spec.c38_edpc_skipped",
    "Verif.Slices.Spec.c38_printed",
    "Verif.Quantum.Spec.c55_edpc_shown_partial"
   ],
   "note": "Proved for Bell pairs and CNOTs without EDPC. With EDPC it needs that the fourth set of operations is empty when the third is; this holds when no step with the second label stands alone (c38_edpc_sets), otherwise operations are skipped (witness). c55_edpc_shown_partial: when no round is skipped, the operations shown do the CNOT."
  },
  {
   "property": "C39",
   "status": "proved",
   "theorems": [
    "Verif.Layouts.Spec.c39_compact",
    "Verif.Layouts.Spec.c39_picture"
   ],
   "note": "c39_picture draws the whole layout."
  },
  {
   "property": "C40",
   "status": "proved",
   "theorems": [
    "Verif.Layouts.Spec.c40_edpc",
    "Verif.Layouts.Spec.c40_picture",
    "Verif.Layouts.Spec.c40_condensed",
    "Verif.Layouts.Spec.c40_condensed_states",
    "Verif.Layouts.Spec.c40_outside",
    "Verif.Layouts.Spec.c40_no_lanes"
   ],
   "note": "Assumes that the sizes fit into size_t. c40_picture draws the whole layout when distillation is outside it: which cells hold qubits, magic states and Y states. c40_outside: with distillation inside, no route leaves the square. c40_no_lanes: without lanes, which the command line allows, qubits touch. c40_condensed: the condensed variant has exactly the requested qubits too, and with at least one lane every one of them has a routing cell above or below and one beside it; which cells on its border are for states is not covered in general (c40_condensed_states: they depend on the number of qubits even where the size does not; one state is missing with five qubits)."
  },
  {
   "property": "C41",
   "status": "proved",
   "theorems": [
    "Verif.Layouts.Spec.c41_read_back",
    "Verif.Layouts.Spec.c41_rejected",
    "Verif.Layouts.Spec.c41_rows",
    "Verif.Layouts.Spec.c41_query",
    "Verif.Layouts.Spec.c41_bounds"
   ],
   "note": "Blank lines are skipped, so only grids without empty rows are read back."
  },
  {
   "property": "C42",
   "status": "proved",
   "theorems": [
    "Verif.Layouts.Spec.c42_component",
    "Verif.Layouts.Spec.c42_accepted",
    "Verif.Layouts.Spec.c42_regions"
   ],
   "note": ""
  },
  {
   "property": "C43",
   "status": "proved",
   "theorems": [
    "Verif.Stats.Spec.c43_slice",
    "Verif.Stats.Spec.c43_totals",
    "Verif.Stats.Spec.c43_run"
   ],
   "note": "Assumes that the counts fit into int and that the slice has the dimensions of the layout; otherwise the code overflows or reads out of bounds. c43_run: in runs on a layout made from a grid all slices shown have the dimensions of the layout."
  },
  {
   "property": "C44",
   "status": "proved",
   "theorems": [
    "Verif.Slices.Spec.c44_exchange",
    "Verif.Slices.Spec.c44_two",
    "Verif.Slices.Spec.c44_four",
    "Verif.Slices.Spec.c44_least",
    "Verif.Slices.Spec.c44_type",
    "Verif.Slices.Spec.c44_direction",
    "Verif.Slices.Spec.c44_sides",
    "Verif.Slices.Spec.c44_lookup",
    "Verif.Slices.Spec.c44_turn"
   ],
   "note": ""
  },
  {
   "property": "C45",
   "status": "partial",
   "theorems": [
    "Verif.Quantum.Spec.c45_measures_target",
    "Verif.Quantum.Spec.c45_not_cnot",
    "Verif.Quantum.Spec.c45_control_first_partial",
    "Verif.Quantum.Spec.c45_target_first_partial"
   ],
   "note": "The property fails: whatever the outcomes, the emitted sequence measures X of the target (c45_measures_target) and so is no CNOT up to Pauli corrections (c45_not_cnot). The _partial theorems: it is one if the ancilla is measured in Z (control first) or prepared in zero (target first)."
  },
  {
   "property": "C46",
   "status": "partial",
   "theorems": [
    "Verif.Dag.Spec.c46_next_not_promoted",
    "Verif.Dag.Spec.c46_pop_never_promotes_partial"
   ],
   "note": "The property is false for the code: pop_head looks at predecessors, so the promotion never happens. Negation with witness plus the general statement that pop never promotes."
  },
  {
   "property": "C47",
   "status": "partial",
   "theorems": [
    "Verif.Spec.c47_neighbour_ignored",
    "Verif.Spec.c47_commuting_disjoint_partial",
    "Verif.Spec.c47_symmetric",
    "Verif.Spec.c47_exact"
   ],
   "note": "False for neighbour operands (negation proved); holds for all other operands. c47_exact: exactly which pairs are treated as commuting."
  },
  {
   "property": "C48",
   "status": "partial",
   "theorems": [
    "Verif.Qasm.Spec.c48_first_gate_old_default",
    "Verif.Qasm.Spec.c48_defaults_partial"
   ],
   "note": "False for the first gate of the file (negation proved); holds for all later gates."
  },
  {
   "property": "C49",
   "status": "partial",
   "theorems": [
    "Verif.Qasm.Spec.c49_index_not_checked",
    "Verif.Qasm.Spec.c49_any_index_accepted"
   ],
   "note": "False for the code: every index is accepted, whatever the register size."
  },
  {
   "property": "C50",
   "status": "proved",
   "theorems": [
    "Verif.Qasm.Spec.c50_file"
   ],
   "note": ""
  },
  {
   "property": "C51",
   "status": "proved",
   "theorems": [
    "Verif.Pipe.Spec.c51_order",
    "Verif.Pipe.Spec.c51_complete",
    "Verif.Pipe.Spec.c51_defined",
    "Verif.Real.Spec.c51_code_order",
    "Verif.Real.Spec.c51_code_complete"
   ],
   "note": "For application functions yielding at most one follow-up, as every return statement of try_apply_instruction_direct_followup does. Proved of the modelled application function (c51_code_*)."
  },
  {
   "property": "C52",
   "status": "partial",
   "theorems": [
    "Verif.Pipe.Spec.c52_streamed",
    "Verif.Pipe.Spec.c52_dag_wrong",
    "Verif.Pipe.Spec.c52_wave",
    "Verif.Real.Spec.c52_code_wave",
    "Verif.Real.Spec.c52_edpc_wave_partial",
    "Verif.Real.Spec.c52_code_dag_wrong"
   ],
   "note": "Proved for the streamed pipeline; false for the DAG pipeline, where heads created by the proximate loop are applied again in the same slice. Proved for the wave pipeline too (with EDPC for runs in which no CNOT that has its route meets a busy end patch). c52_code_dag_wrong: in the code a rotation takes one slice less in the DAG pipeline."
  },
  {
   "property": "C53",
   "status": "proved",
   "theorems": [
    "Verif.Layouts.Spec.c53_first_slice",
    "Verif.Layouts.Spec.c53_too_many",
    "Verif.Layouts.Spec.c53_shape"
   ],
   "note": "c53_shape: the first slice meets the assumptions the theorems about slices and routes make on the layout."
  },
  {
   "property": "C54",
   "status": "partial",
   "theorems": [
    "Verif.Quantum.Spec.c54_t",
    "Verif.Quantum.Spec.c54_teleported_s",
    "Verif.Quantum.Spec.c54_catalytic_s",
    "Verif.Quantum.Spec.c54_catalytic_wrong",
    "Verif.Quantum.Spec.c54_clifford"
   ],
   "note": "The catalytic S gate without local instructions uses the CNOT sequences of C45 and is no S gate (c54_catalytic_wrong). Clifford programs are covered with local instructions, in which a CNOT is one instruction; without them they fail with C45."
  },
  {
   "property": "C55",
   "status": "proved",
   "theorems": [
    "Verif.Quantum.Spec.c55_cnot",
    "Verif.Quantum.Spec.c55_cnot_routed",
    "Verif.Quantum.Spec.c55_cnot_shown",
    "Verif.Quantum.Spec.c55_bell",
    "Verif.Quantum.Spec.c55_bell_routed",
    "Verif.Quantum.Spec.c55_bell_shown"
   ],
   "note": "c55_cnot and c55_bell hold for any router that returns distinct cells, the _routed versions for the search of the code on slices of the size of the layout. The _shown versions speak of the operations shown over all slices; with EDPC see C38."
  },
  {
   "property": "C56",
   "status": "partial",
   "theorems": [
    "Verif.Real.Spec.c56_history",
    "Verif.Real.Spec.c56_edpc_partial",
    "Verif.Real.Spec.c56_ids",
    "Verif.Real.Spec.c56_magic_partial",
    "Verif.Compiled.Spec.c56_compiled"
   ],
   "note": "Complete for the streamed and DAG pipelines and for the wave pipeline without EDPC. With EDPC, runs in which a CNOT that has its route meets a busy end patch are missing (c56_edpc_partial). The statement on magic states is for programs without long-range CNOTs and Bell pairs. c56_compiled: for every compiled program, with no hypothesis on names left."
  },
  {
   "property": "C57",
   "status": "proved",
   "theorems": [
    "Verif.Pipe.Spec.c57_streamed",
    "Verif.Pipe.Spec.c57_dag",
    "Verif.Pipe.Spec.c57_wave"
   ],
   "note": "For every function applying instructions, advancing and resetting, hence for that of the code."
  },
  {
   "property": "C58",
   "status": "partial",
   "theorems": [
    "Verif.Boost.Spec.c58_route_partial",
    "Verif.Boost.Spec.c58_found_partial",
    "Verif.Boost.Spec.c58_missed",
    "Verif.Boost.Spec.c58_crosses",
    "Verif.Boost.Spec.c58_side",
    "Verif.Boost.Spec.c58_twist_wrong",
    "Verif.Boost.Spec.c58_no_vertex",
    "Verif.Boost.Spec.c58_code_throws",
    "Verif.Boost.Spec.c58_stored_partial"
   ],
   "note": "The property fails: the test for free cells is the wrong way round, so the graph has no edges between free cells. Routes of two free cells are missed (c58_missed), patches are crossed (c58_crosses, which makes the pipelines throw, c58_code_throws), sides are not checked (c58_side), no patch is joined to itself (c58_twist_wrong), and a vertex that is not there is read (c58_no_vertex). The _partial theorems say exactly what is found instead. c58_stored_partial: with the router that stores routes on top."
  },
  {
   "property": "C59",
   "status": "proved",
   "theorems": [
    "Verif.Real.Spec.c59_stays",
    "Verif.Real.Spec.c59_cached",
    "Verif.Real.Spec.c59_edpc",
    "Verif.Real.Spec.c59_boost",
    "Verif.Real.Spec.c59_stored",
    "Verif.Real.Spec.c59_any",
    "Verif.Compiled.Spec.c59_grid"
   ],
   "note": "In every pipeline, for the default router, the one that stores routes, edge-disjoint routing (EDPC), the one that uses Boost with or without storing routes, and, without local instructions, any router. The layout has no routing marks on it when it is handed over, which holds for all layouts made from a grid (c59_grid)."
  },
  {
   "property": "C60",
   "status": "proved",
   "theorems": [
    "Verif.Json.Spec.c60_drawn",
    "Verif.Json.Spec.c60_shows",
    "Verif.Json.Spec.c60_factory",
    "Verif.Json.Spec.c60_exact"
   ],
   "note": "For slices of the size of the layout, which by c61_drawable all slices shown are. On the first cell of a factory the text of the patch is replaced by the time, so an id there would be hidden."
  },
  {
   "property": "C61",
   "status": "partial",
   "theorems": [
    "Verif.Json.Spec.c61_array",
    "Verif.Json.Spec.c61_faithful",
    "Verif.Json.Spec.c61_drawable",
    "Verif.Json.Spec.c61_run",
    "Verif.Json.Spec.c61_streamed",
    "Verif.Json.Spec.c61_empty",
    "Verif.Json.Spec.c61_no_slice"
   ],
   "note": "The property fails if no slice is shown: only the closing bracket is written (c61_empty). This happens in the DAG and wave pipelines for programs without instructions (c61_no_slice), not in the streamed one (c61_streamed). It holds whenever a slice is shown (c61_run)."
  },
  {
   "property": "C62",
   "status": "proved",
   "theorems": [
    "Verif.Real.Spec.c62_home",
    "Verif.Real.Spec.c62_cached",
    "Verif.Real.Spec.c62_edpc",
    "Verif.Real.Spec.c62_boost",
    "Verif.Real.Spec.c62_stored",
    "Verif.Real.Spec.c62_any",
    "Verif.Real.Spec.c62_boost_waits",
    "Verif.Compiled.Spec.c62_compiled"
   ],
   "note": "In every pipeline, for the default router, the one that stores routes, edge-disjoint routing (EDPC), the one that uses Boost with or without storing routes, and, without local instructions, any router. Programs that make a patch named like the qubit are excluded; an example shows that then there may be two. The layout has no routing marks on it when it is handed over, which holds for all layouts made from a grid. c62_boost_waits: where Boost leads the route of a CNOT across a qubit, the qubit stays, and the CNOT tries without end. c62_compiled: for compiled programs, whose patches are never named like a qubit of the register, on the qubit cells of the grid in reading order."
  },
  {
   "property": "C63",
   "status": "proved",
   "theorems": [
    "Verif.Sliced.Spec.c63_lines",
    "Verif.Sliced.Spec.c63_faithful",
    "Verif.Sliced.Spec.c63_read",
    "Verif.Sliced.Spec.c63_defined",
    "Verif.Sliced.Spec.c63_streamed",
    "Verif.Sliced.Spec.c63_semicolons",
    "Verif.Compiled.Spec.c63_compiled"
   ],
   "note": "Entries are told apart by semicolons outside square brackets. Readers that cut at every semicolon, as the help text of the option suggests, do not get the instructions if there are local operations (c63_semicolons). c63_compiled: for every compiled program."
  },
  {
   "property": "C64",
   "status": "partial",
   "theorems": [
    "Verif.Pandora.Spec.c64_row",
    "Verif.Pandora.Spec.c64_partial",
    "Verif.Pandora.Spec.c64_misread",
    "Verif.Pandora.Spec.c64_wrong_gate",
    "Verif.Pandora.Spec.c64_lost",
    "Verif.Pandora.Spec.c64_lost_gate",
    "Verif.Pandora.Spec.c64_past_end"
   ],
   "note": "Holds for databases whose layers from 1 on each have a gate until the gates end and which have no powers of X, Y or CZ. Otherwise false: such powers are read as other gates, and a layer without gates ends the stream."
  },
  {
   "property": "C65",
   "status": "partial",
   "theorems": [
    "Verif.Slicer.Spec.c65_defaults",
    "Verif.Slicer.Spec.c65_short",
    "Verif.Slicer.Spec.c65_layout_ignored",
    "Verif.Slicer.Spec.c65_generator",
    "Verif.Slicer.Spec.c65_refused",
    "Verif.Slicer.Spec.c65_unsliced",
    "Verif.Slicer.Spec.c65_report_alone",
    "Verif.Slicer.Spec.c65_noslices",
    "Verif.Slicer.Spec.c65_graceful",
    "Verif.Slicer.Spec.c65_timeout",
    "Verif.Slicer.Spec.c65_report",
    "Verif.Slicer.Spec.c65_noprogress",
    "Verif.Slicer.Spec.c65_lli",
    "Verif.Slicer.Spec.c65_late",
    "Verif.Slicer.Spec.c65_caught",
    "Verif.Slicer.Spec.c65_graceful_lives",
    "Verif.Slicer.Spec.c65_caught_time",
    "Verif.Slicer.Spec.c65_late_graceful",
    "Verif.Slicer.Spec.c65_always_caught"
   ],
   "note": "The property fails in three ways: the documented value noprogress of -f is refused (c65_noprogress), instructions as input, the default, are never accepted (c65_lli), and without --graceful a timeout ends in an exception (c65_late). The rest is proved. c65_caught and c65_graceful_lives: what --graceful does with an exception that leaves the pipeline. c65_caught_time and c65_late_graceful: with --graceful a timeout is caught, and the slices before the first late one are written. c65_always_caught: every exception that ends the slicing without --graceful is caught with it, because writing a slice or an instruction never throws (unseen_never). Missing: with --graceful, exceptions while the input is read during the run; the model gives no result for them (program_unknown)."
  },
  {
   "property": "C66",
   "status": "partial",
   "theorems": [
    "Verif.Slicer.Spec.c66_input",
    "Verif.Slicer.Spec.c66_home",
    "Verif.Slicer.Spec.c66_ids",
    "Verif.Slicer.Spec.c66_json",
    "Verif.Slicer.Spec.c66_some_slice",
    "Verif.Slicer.Spec.c66_stdout",
    "Verif.Slicer.Spec.c66_stats",
    "Verif.Slicer.Spec.c66_sliced",
    "Verif.Slicer.Spec.c66_read_partial",
    "Verif.Slicer.Spec.c66_read_wrong",
    "Verif.Slicer.Spec.c66_graceful_wrong",
    "Verif.Slicer.Spec.c66_qasm",
    "Verif.Slicer.Spec.c66_pandora",
    "Verif.Slicer.Spec.c66_run",
    "Verif.Slicer.Spec.c66_lifetimes",
    "Verif.Slicer.Spec.c66_facing",
    "Verif.Slicer.Spec.c66_factories",
    "Verif.Slicer.Spec.c66_caught_home",
    "Verif.Slicer.Spec.c66_caught_json",
    "Verif.Slicer.Spec.c66_caught_sliced"
   ],
   "note": "c66_ids is without edge-disjoint routing. The number of instructions read is right in the streamed pipeline only (c66_read_partial, c66_read_wrong). With --graceful and without -o the message about the exception is written into the JSON text (c66_graceful_wrong). c66_qasm and c66_pandora name the gates, the mode, the layout and the way of compiling that belong to the options; c66_run names the pipeline, the router and the settings of the run. c66_lifetimes and c66_facing carry C13 and C15 over to the program sliced, for gates on the register. c66_caught_json and c66_caught_sliced: the JSON text and the listing are whole, too, when an exception was caught. c66_caught_home: c66_home until an exception that is caught. c66_factories: the times of the factories are those asked for."
  },
  {
   "property": "C67",
   "status": "partial",
   "theorems": [
    "Verif.Slicer.Spec.c67_progress",
    "Verif.Slicer.Spec.c67_machine",
    "Verif.Slicer.Spec.c67_volumes",
    "Verif.Slicer.Spec.c67_nothing",
    "Verif.Slicer.Spec.c67_count_partial",
    "Verif.Slicer.Spec.c67_count_wrong",
    "Verif.Slicer.Spec.c67_count_more",
    "Verif.Slicer.Spec.c67_caught",
    "Verif.Slicer.Spec.c67_caught_more",
    "Verif.Slicer.Spec.c67_caught_progress"
   ],
   "note": "The texts are proved. The number of slices in them is wrong: one too large in the DAG and wave pipelines (c67_count_more), too small in the streamed pipeline whenever an instruction had to wait (c67_count_wrong: 7 reported, 21 shown); c67_count_partial gives the bound that holds. For the number of instructions see c66_read_partial and c66_read_wrong. c67_caught, c67_caught_more and c67_caught_progress: the numbers and the text after an exception caught by --graceful."
  },
  {
   "property": "C68",
   "status": "partial",
   "theorems": [
    "Verif.Course.Spec.c68_streamed",
    "Verif.Course.Spec.c68_dag",
    "Verif.Course.Spec.c68_wave",
    "Verif.Course.Spec.c68_slicer",
    "Verif.Course.Spec.c68_edpc_partial",
    "Verif.Course.Spec.c68_dropped"
   ],
   "note": "Proved for all three pipelines without EDPC, for any router, and for the slicer program from its options and input text on (c68_slicer). With EDPC the property fails: a CNOT whose third set of local instructions is empty is finished after the second one, and the fourth one is dropped (c68_dropped, a finished run on a layout of six qubits). c68_edpc_partial says what is carried out in either case. Missing there: runs in which a CNOT that has its route meets a busy or missing end patch."
  },
  {
   "property": "C69",
   "status": "partial",
   "theorems": [
    "Verif.Ends.Spec.c69_streamed_waits",
    "Verif.Ends.Spec.c69_dag_waits",
    "Verif.Ends.Spec.c69_wave_waits",
    "Verif.Ends.Spec.c69_streamed_partial",
    "Verif.Ends.Spec.c69_dag_partial",
    "Verif.Ends.Spec.c69_wave_partial",
    "Verif.Ends.Spec.c69_slicer_waits",
    "Verif.Ends.Spec.c69_slicer_partial",
    "Verif.Ends.Spec.c69_qasm",
    "Verif.Ends.Spec.c69_blocked",
    "Verif.Ends.Spec.c69_cnot_twice",
    "Verif.Ends.Spec.c69_streamed_cnots",
    "Verif.Ends.Spec.clear_dp",
    "Verif.Ends.Spec.c69_slicer_local_partial",
    "Verif.Ends.Spec.c69_local",
    "Verif.Slicer.Spec.c69_steps",
    "Verif.Slicer.Spec.c69_forever"
   ],
   "note": "Rounds in which nothing is shown are bounded for every program (c69_*_waits). Without Bell pairs and CNOTs made of them every pipeline ends, whatever the layout, the router and the first slice, with an explicit bound (c69_*_partial, c69_slicer_partial); for the slicer program that is the case without --local when no gate asks for Bell pairs (c69_qasm). With --local and --router graph_search_cached the property is false: c69_forever gives the options, the layout file and a file with two CNOT gates on which the program is still running after any number of steps, because a magic state came to lie on the stored route; c69_blocked is the general reason. With CNOTs made of Bell pairs between different patches the streamed pipeline ends too when routes are searched anew each time (c69_streamed_cnots, clear_dp): a CNOT is done in two steps, because the second attempt either does the rest or changes nothing (c69_cnot_twice). For the slicer program: the default pipeline, no cache and no Boost, gates within the register and on different qubits, with --local or without (c69_local). Missing: CNOTs made of Bell pairs in the DAG and wave pipelines, and EDPC."
  },
  {
   "property": "C70",
   "status": "partial",
   "theorems": [
    "Verif.Gates.Spec.c70_commute",
    "Verif.Gates.Spec.c70_graph_partial",
    "Verif.Gates.Spec.c70_reset_throws",
    "Verif.Gates.Spec.c70_orders",
    "Verif.Gates.Spec.c70_work_off"
   ],
   "note": "Proved for programs without resets, for arbitrary matrices as meaning of the gates on one qubit. A reset next to any other gate makes the building of the graph throw (c70_reset_throws)."
  },
  {
   "property": "C71",
   "status": "partial",
   "theorems": [
    "Verif.Dag.Spec.c71_runs_partial",
    "Verif.Dag.Spec.c71_instructions_partial",
    "Verif.Dag.Spec.c71_shown_partial",
    "Verif.Dag.Spec.c71_gates_partial",
    "Verif.Dag.Spec.c71_printed",
    "Verif.Dag.Spec.c71_place_lost"
   ],
   "note": "The text is read back by an independent reader of the GraphViz statements. Fails: a node does not show next to what a patch is to be made (c71_place_lost, from the escaping of C05), and a declaration whose first id is printed as a special character (C03) breaks the text. Gates with a reset: see C70."
  },
  {
   "property": "C72",
   "status": "partial",
   "theorems": [
    "Verif.Slicer.Spec.c72_same",
    "Verif.Slicer.Spec.c72_listing",
    "Verif.Slicer.Spec.c72_graph",
    "Verif.Slicer.Spec.c72_reset",
    "Verif.Slicer.Spec.c72_place_unseen"
   ],
   "note": "Proved for every run: what is listed or drawn is what is sliced without these options, and what is listed or drawn is made from the input. Fails: the graph of an input with a reset cannot be drawn though it can be sliced (c72_reset); the graph of instructions leaves out places (c72_place_unseen). Instructions as input are never drawn or listed (C65)."
  },
  {
   "property": "C73",
   "status": "proved",
   "theorems": [
    "Verif.Clock.Spec.c73_clock",
    "Verif.Clock.Spec.c73_zero",
    "Verif.Clock.Spec.c73_delivery",
    "Verif.Clock.Spec.c73_slicer",
    "Verif.Clock.Spec.c73_reserved"
   ],
   "note": "Layouts with factories: c73_clock, c73_delivery, and c73_slicer for the slicer program; a factory time of zero is taken as 2^32 (c73_zero). Layouts with reserved cells: c73_reserved. That a reserved cell used as a route or for a rotation is overwritten is a finding (c30_reserved_wrong, c31_reserved_wrong)."
  },
  {
   "property": "C74",
   "status": "partial",
   "theorems": [
    "Verif.Clock.Spec.c74_bound",
    "Verif.Clock.Spec.c74_slicer_shown",
    "Verif.Clock.Spec.c74_slicer",
    "Verif.Clock.Spec.c74_no_time"
   ],
   "note": "Proved on layouts with factories. With --disttime 0 --nostagger no magic state is ever made within 2^32 - 1 slices (c74_no_time). Missing: layouts with reserved cells; with EDPC, that a finished run has handed out all magic states asked for (the bound on those handed out is proved)."
  },
  {
   "property": "C75",
   "status": "partial",
   "theorems": [
    "Verif.Qasm.Spec.c75_read",
    "Verif.Qasm.Spec.c75_survives_partial",
    "Verif.Qasm.Spec.c75_text",
    "Verif.Qasm.Spec.c75_rotations_wrong",
    "Verif.Qasm.Spec.c75_controlled_wrong"
   ],
   "note": "c75_read says what the reader makes of the text of every gate, c75_survives_partial which gates survive, c75_text what a text says about its gate. Not satisfied by the code for rotations and resets (c75_rotations_wrong), controlled rotations by other angles than +pi/d (c75_controlled_wrong), Y, S, T and H under a control, and annotations of CNOTs."
  },
  {
   "property": "C76",
   "status": "partial",
   "theorems": [
    "Verif.FromStrings.Spec.c76_words",
    "Verif.FromStrings.Spec.c76_no_space",
    "Verif.FromStrings.Spec.c76_npm",
    "Verif.FromStrings.Spec.c76_returned",
    "Verif.FromStrings.Spec.c76_exception",
    "Verif.FromStrings.Spec.c76_throws",
    "Verif.FromStrings.Spec.c76_declared",
    "Verif.FromStrings.Spec.c76_drawn"
   ],
   "note": "The program that is run is a parameter. Proved: the arguments (c76_words, c76_npm), the reply to a program that returns or throws if the texts are UTF-8 (c76_returned, c76_exception), and that drawings of slices arrive (c76_drawn). Not satisfied by the code when the output is not UTF-8: there is no reply but an exception (c76_throws), which happens for a printed declaration whose first id is 128 to 255 modulo 256 (c76_declared). A word with a space in it cannot be given (c76_no_space)."
  },
  {
   "property": "C77",
   "status": "proved",
   "theorems": [
    "Verif.Edpc.Spec.c77_restored",
    "Verif.Edpc.Spec.c77_sides",
    "Verif.Edpc.Spec.c77_labels"
   ],
   "note": "For the router of the edpc pipeline, on any slice without routing marks, and for any number of attempts at CNOTs that have no local instructions yet (the first passes and the deferred round before the sides are reset). Instructions of other kinds between these attempts are not part of the statement."
  },
  {
   "property": "C78",
   "status": "partial",
   "theorems": [
    "Verif.Edpc.Spec.c78_disjoint",
    "Verif.Edpc.Spec.c78_shape",
    "Verif.Edpc.Spec.c78_twice",
    "Verif.Edpc.Spec.c78_labelled",
    "Verif.Edpc.Spec.c78_apart_partial",
    "Verif.Edpc.Spec.c78_mixed",
    "Verif.Edpc.Spec.c78_throws"
   ],
   "note": "Proved for the router of the edpc pipeline: edge-disjointness, the number of routes through a cell, and the labels along a route. That a crossing keeps its two routes apart is proved if no two crossings touch (c78_apart_partial); where they touch the code can give the two sides of one route different labels (c78_mixed), and a route the router has found can end the program with an exception (c78_throws). Instructions of other kinds between the attempts are not part of the statement."
  },
  {
   "property": "C79",
   "status": "proved",
   "theorems": [
    "Verif.Layouts.Spec.c79_edpc",
    "Verif.Layouts.Spec.c79_states",
    "Verif.Layouts.Spec.c79_compact",
    "Verif.Layouts.Spec.c79_edpc_route",
    "Verif.Layouts.Spec.c79_compact_route",
    "Verif.Layouts.Spec.c79_edpc_measure",
    "Verif.Layouts.Spec.c79_compact_measure",
    "Verif.Layouts.Spec.c79_no_lanes"
   ],
   "note": "c79_states: the same for the cells of magic states and Y states; those in the corners of the condensed layout are left out. c79_edpc_route and c79_compact_route: the default search finds a route in the first slice (through C35). c79_edpc_measure and c79_compact_measure: a first joint measurement succeeds (through C32 and C33), without local instructions and with the default router without edge-disjoint routing. Assumes that the sizes fit into size_t and that there is a lane; without lanes it fails (c79_no_lanes: the qubit in the middle of nine)."
  }
 ]
}
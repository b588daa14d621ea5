{
 "claims": [
  {
   "property": "C01",
   "status": "proved",
   "theorems": [
    "Plaquette.C01_commutator_sign_zero",
    "Plaquette.C01_commutator_sign_one",
    "Plaquette.C01_commutator_sign_binary"
   ],
   "note": ""
  },
  {
   "property": "C02",
   "status": "proved",
   "theorems": [
    "Plaquette.C02_multiply_two",
    "Plaquette.C02_multiply_two_commuting"
   ],
   "note": ""
  },
  {
   "property": "C03",
   "status": "partial",
   "theorems": [
    "Plaquette.C03_multiply_counterexample",
    "Plaquette.C03_multiply_bits_partial",
    "Plaquette.C03_multiply_phase_partial",
    "Plaquette.C03_multiply_one",
    "Plaquette.C03_multiply_nil"
   ],
   "note": "The full statement is false of the code for three or more operators (C03_multiply_counterexample); proved: bits for every k, phase when no proper suffix product is negative, k = 2 exactly (C02)."
  },
  {
   "property": "C04",
   "status": "proved",
   "theorems": [
    "Plaquette.C04_gate_unitary",
    "Plaquette.C04_gate_conjugates",
    "Plaquette.C04_gates_represent",
    "Plaquette.C04_cx_same_qubit_breaks"
   ],
   "note": ""
  },
  {
   "property": "C05",
   "status": "proved",
   "theorems": [
    "Plaquette.C05_zero_state",
    "Plaquette.C05_valid_invariant",
    "Plaquette.C05_reachable_valid"
   ],
   "note": ""
  },
  {
   "property": "C06",
   "status": "proved",
   "theorems": [
    "Plaquette.C06_random_measurement",
    "Plaquette.C06_forced_measurement"
   ],
   "note": ""
  },
  {
   "property": "C07",
   "status": "proved",
   "theorems": [
    "Plaquette.C07_deterministic_measurement"
   ],
   "note": ""
  },
  {
   "property": "C08",
   "status": "proved",
   "theorems": [
    "Plaquette.C08_repeatable"
   ],
   "note": ""
  },
  {
   "property": "C09",
   "status": "partial",
   "theorems": [
    "Plaquette.C09_measure_identity_counterexample",
    "Plaquette.C09_measure_total_partial"
   ],
   "note": "False for +-I (IndexError, C09_measure_identity_counterexample); proved for every other operator."
  },
  {
   "property": "C10",
   "status": "proved",
   "theorems": [
    "Plaquette.C10_reset_certain",
    "Plaquette.C10_reset_keeps_rest",
    "Plaquette.C10_reset_Y_counterexample"
   ],
   "note": "For Z/X eigenstates. Reset to a Y eigenstate is not corrected on outcome 1 (C10_reset_Y_counterexample); the code comment excludes Y."
  },
  {
   "property": "C11",
   "status": "partial",
   "theorems": [
    "Plaquette.C11_identity_counterexample",
    "Plaquette.C11_canonical_roundtrip_partial",
    "Plaquette.C11_short_roundtrip_partial"
   ],
   "note": "False for identity operators: string_to_pauli raises on the text of +-I (C11_identity_counterexample). Proved round trip for every operator that is not +-I, canonical and index form."
  },
  {
   "property": "C12",
   "status": "partial",
   "theorems": [
    "Plaquette.C12_unknown_letter_counterexample",
    "Plaquette.C12_canonical_accepts_partial"
   ],
   "note": "False of the code: unknown letters are silently read as identity (C12_unknown_letter_counterexample). Proved: what canonical strings are accepted."
  },
  {
   "property": "C13",
   "status": "partial",
   "theorems": [
    "Plaquette.C13_identity_counterexample",
    "Plaquette.C13_operator_roundtrip_partial",
    "Plaquette.C13_dict_roundtrip",
    "Plaquette.C13_too_few_qubits"
   ],
   "note": "False for identity (C13_identity_counterexample); round trip proved otherwise, and the dictionary direction in full."
  },
  {
   "property": "C14",
   "status": "partial",
   "theorems": [
    "Plaquette.C14_string_to_state_counterexample",
    "Plaquette.C14_state_check_partial"
   ],
   "note": "False: the check of mixed pairs j > i is unreachable (C14_string_to_state_counterexample); proved what the check does guarantee. For destabilisers=None see C99."
  },
  {
   "property": "C15",
   "status": "partial",
   "theorems": [
    "Plaquette.C15_two_targets_counterexample",
    "Plaquette.C15_destructive_counterexample",
    "Plaquette.C15_single_target_partial",
    "Plaquette.C15_destabilisers_counterexample",
    "Plaquette.C15_results_belong_to_targets"
   ],
   "note": "False: two or more targets always raise (C15_two_targets_counterexample) and a single target may return destabilisers that do not commute (C15_destabilisers_counterexample). Proved for one target: total, stabilisers/destabiliser pairing and represented vector; and for non-destructive lists, that results belong to their targets."
  },
  {
   "property": "C16",
   "status": "proved",
   "theorems": [
    "Plaquette.C16_tensor_operators",
    "Plaquette.C16_tensor_states",
    "Plaquette.C16_tensor_commutation",
    "Plaquette.C16_tensor_many",
    "Plaquette.C16_tensor_none",
    "Plaquette.C16_pad_operator",
    "Plaquette.C16_pad_operator_small"
   ],
   "note": ""
  },
  {
   "property": "C17",
   "status": "partial",
   "theorems": [
    "Plaquette.C17_append_raises",
    "Plaquette.C17_append_one_qubit",
    "Plaquette.C17_append_qubit_never_valid",
    "Plaquette.C17_append_qubit_counterexample",
    "Plaquette.C17_append_by_tensor_partial"
   ],
   "note": "False for every state (C17_append_qubit_never_valid): n >= 2 raises IndexError, n = 1 returns an identity stabiliser. Proved for tensor_product(state, zero_state(1)) instead."
  },
  {
   "property": "C18",
   "status": "proved",
   "theorems": [
    "Plaquette.C18_text_roundtrip",
    "Plaquette.C18_append_text",
    "Plaquette.C18_blanks"
   ],
   "note": "Python floats are an arbitrary type F with parse(repr f) = f and blank-free repr as hypotheses (FloatApi.Lawful, met by natApi); ASCII digits and blanks only."
  },
  {
   "property": "C19",
   "status": "partial",
   "theorems": [
    "Plaquette.C19_fits",
    "Plaquette.C19_nested_channel_counterexample",
    "Plaquette.C19_smallest_partial"
   ],
   "note": "Every qubit fits (C19_fits, full). Minimality is false for a channel nested in a conditional error (C19_nested_channel_counterexample); proved otherwise."
  },
  {
   "property": "C20",
   "status": "proved",
   "theorems": [
    "Plaquette.C20_run",
    "Plaquette.C20_fresh_run",
    "Plaquette.C20_counts",
    "Plaquette.C20_total"
   ],
   "note": "Random generator: arbitrary oracle. Negative qubit indices are an explicit 'unmodelled' error (no theorem claims anything there); two-qubit gates on equal qubits are excluded (TwoOk), counts exclude conditional M / E_ERASE as stated. State-vector semantics VRun independent of tableaus."
  },
  {
   "property": "C21",
   "status": "proved",
   "theorems": [
    "Plaquette.C21_first_drawn",
    "Plaquette.C21_none_drawn",
    "Plaquette.C21_after_chain",
    "Plaquette.C21_orphan",
    "Plaquette.C21_gate_ends_chain"
   ],
   "note": "Any number of alternatives and continuations, any draws, any simulator state; equality of state, results, erasures, number of draws and of exceptions."
  },
  {
   "property": "C22",
   "status": "proved",
   "theorems": [
    "Plaquette.C22_reset_run",
    "Plaquette.C22_accumulate"
   ],
   "note": "The error flags survive reset(); proved harmless for every circuit a new simulator accepts."
  },
  {
   "property": "C23",
   "status": "partial",
   "theorems": [
    "Plaquette.C23_reset_dropped_counterexample",
    "Plaquette.C23_export_partial",
    "Plaquette.C23_classical_bits",
    "Plaquette.C23_unsupported_refused"
   ],
   "note": "False: resets are silently dropped (C23_reset_dropped_counterexample). Proved for circuits without R; classical bits numbering and refusal of unsupported instructions for all circuits."
  },
  {
   "property": "C24",
   "status": "proved",
   "theorems": [
    "Plaquette.C24_equiprobable",
    "Plaquette.C24_probabilities",
    "Plaquette.C24_chain_shape",
    "Plaquette.C24_erasure"
   ],
   "note": "Exact real arithmetic in place of floats; the probability of alternative i is Stim's documented rule."
  },
  {
   "property": "C25",
   "status": "proved",
   "theorems": [
    "Plaquette.C25_batches",
    "Plaquette.C25_each_row_once"
   ],
   "note": "The sampler is an arbitrary function (batch number, row); batch size >= 1."
  },
  {
   "property": "C26",
   "status": "partial",
   "theorems": [
    "Plaquette.C26_empty_record_counterexample",
    "Plaquette.C26_split_partial",
    "Plaquette.C26_ancilla_fresh",
    "Plaquette.C26_targets",
    "Plaquette.C26_negative"
   ],
   "note": "False for circuits without any measurement or erasure (C26_empty_record_counterexample: ~ on an empty float array). Proved for all other translated circuits; also that Stim's record has as many entries as there are flags and that the ancilla is no qubit of the circuit."
  },
  {
   "property": "C27",
   "status": "partial",
   "theorems": [
    "Plaquette.C27_layout",
    "Plaquette.C27_run",
    "Plaquette.C27_weight_counterexample",
    "Plaquette.C27_unpack_partial"
   ],
   "note": "False without ancillas if the chosen logical operator has another weight than the first one (C27_weight_counterexample: logical Z of the repetition code 3). Proved: the order of the measured qubits in every generated circuit with any errors (C27_layout), the number of results of every run (C27_run), and that all results are unpacked into these blocks otherwise (C27_unpack_partial)."
  },
  {
   "property": "C28",
   "status": "partial",
   "theorems": [
    "Plaquette.C28_counterexample",
    "Plaquette.C28_ancilla_partial",
    "Plaquette.C28_direct_partial",
    "Plaquette.C28_circuit",
    "Plaquette.C28_memory"
   ],
   "note": "False in the default mode (no logical ancilla) for X-type logical operators: H before M is not undone, so the final toggle is random (C28_counterexample, repetition code 3). Proved: with logical ancillas for every family, size, number of rounds and commuting selection (C28_ancilla_partial, C28_circuit); without ancillas for Z-type operators of equal weight (C28_direct_partial, C28_memory)."
  },
  {
   "property": "C29",
   "status": "proved",
   "theorems": [
    "Plaquette.C29_planar",
    "Plaquette.C29_toric",
    "Plaquette.C29_rotated",
    "Plaquette.C29_repetition",
    "Plaquette.C29_all",
    "Plaquette.C29_small"
   ],
   "note": "All sizes >= 2 (odd >= 3 for the repetition code) and both small codes; size 0/1 raise or are not modelled (negative coordinates)."
  },
  {
   "property": "C30",
   "status": "proved",
   "theorems": [
    "Plaquette.C30_planar",
    "Plaquette.C30_toric",
    "Plaquette.C30_rotated",
    "Plaquette.C30_repetition"
   ],
   "note": ""
  },
  {
   "property": "C31",
   "status": "proved",
   "theorems": [
    "Plaquette.C31_step",
    "Plaquette.C31_fabrication"
   ],
   "note": "Any well-formed lattice without Y (C31_step), hence any sequence of fabrication errors on any of the constructors' lattices (C31_fabrication); default handling (keep_gauge 'none', boundary_join False)."
  },
  {
   "property": "C32",
   "status": "proved",
   "theorems": [
    "Plaquette.C32_edges",
    "Plaquette.C32_defined"
   ],
   "note": "A graph of a code with a single stabiliser is modelled as NumPy before 2.1 treats it."
  },
  {
   "property": "C33",
   "status": "proved",
   "theorems": [
    "Plaquette.C33_weights",
    "Plaquette.C33_parallel",
    "Plaquette.C33_no_vertices"
   ],
   "note": "Weights range over any linear order with a predicate for infinite weights; NaN is none. Parallel edges of which only some have weights make the construction raise ValueError."
  },
  {
   "property": "C34",
   "status": "proved",
   "theorems": [
    "Plaquette.C34_vertices",
    "Plaquette.C34_edges",
    "Plaquette.C34_copy"
   ],
   "note": ""
  },
  {
   "property": "C35",
   "status": "proved",
   "theorems": [
    "Plaquette.C35_peeling",
    "Plaquette.C35_total",
    "Plaquette.C35_disable",
    "Plaquette.C35_odd_cluster",
    "Plaquette.C35_explained_correctable"
   ],
   "note": "Also the converse: a syndrome explained by selected edges is correctable, so the decoder finds an explanation whenever there is one."
  },
  {
   "property": "C36",
   "status": "proved",
   "theorems": [
    "Plaquette.C36_growth",
    "Plaquette.C36_connected",
    "Plaquette.C36_refused"
   ],
   "note": "For all graphs, not only connected ones (C36_connected is the listed statement); growth is in exact rationals rather than floats. C36_refused: an AssertionError is raised exactly for syndromes that are not correctable."
  },
  {
   "property": "C37",
   "status": "proved",
   "theorems": [
    "Plaquette.C37_decode",
    "Plaquette.C37_iff",
    "Plaquette.C37_weights_refused"
   ],
   "note": "Both classes; no weights, or nonnegative weights that are not all zero. Exact rationals rather than floats."
  },
  {
   "property": "C38",
   "status": "proved",
   "theorems": [
    "Plaquette.C38_correction",
    "Plaquette.C38_residual",
    "Plaquette.C38_unionFind"
   ],
   "note": "For every backend whose answers for the components explain their syndromes; the union find decoders are proved to be such backends, for all weights with which they can be set up."
  },
  {
   "property": "C39",
   "status": "proved",
   "theorems": [
    "Plaquette.C39_refused",
    "Plaquette.C39_components"
   ],
   "note": "Whole decoding run and single component; the refusals are ValueErrors. The backend must handle every correctable syndrome (proved for union find)."
  },
  {
   "property": "C40",
   "status": "proved",
   "theorems": [
    "Plaquette.C40_measured",
    "Plaquette.C40_success",
    "Plaquette.C40_residual"
   ],
   "note": "Also stated in terms of an error: success exactly if correction times error commutes with every measured logical operator."
  },
  {
   "property": "C41",
   "status": "partial",
   "theorems": [
    "Plaquette.C41_errordata_partial",
    "Plaquette.C41_manager",
    "Plaquette.C41_refused",
    "Plaquette.C41_weights_counterexample",
    "Plaquette.C41_defined_partial",
    "Plaquette.C41_noweights_refused"
   ],
   "note": "The first half is false: from_code with weights raises ValueError for every code (C41_refused, C41_weights_counterexample); a manager made with weights does use them (C41_manager). Second half proved up to the documented replacement of zeros by 1e-15; also when such a decoder exists."
  },
  {
   "property": "C42",
   "status": "partial",
   "theorems": [
    "Plaquette.C42_parts",
    "Plaquette.C42_weights",
    "Plaquette.C42_certain_counterexample",
    "Plaquette.C42_order_partial",
    "Plaquette.C42_nan",
    "Plaquette.C42_disabled"
   ],
   "note": "The edge of an error with probability exactly 1 is disabled too (C42_certain_counterexample). Proved otherwise, with exact real logarithm (floats are not rounded)."
  },
  {
   "property": "C43",
   "status": "proved",
   "theorems": [
    "Plaquette.C43_string",
    "Plaquette.C43_indices"
   ],
   "note": ""
  },
  {
   "property": "C44",
   "status": "proved",
   "theorems": [
    "Plaquette.C44_check",
    "Plaquette.C44_reject"
   ],
   "note": ""
  },
  {
   "property": "C45",
   "status": "proved",
   "theorems": [
    "Plaquette.C45_two",
    "Plaquette.C45_one"
   ],
   "note": "CX/CZ channels (15 slots) and the one-qubit channels of H, R, M; the random choice is an input, so 'with probability p' is: the number 4a+b has weight p['ab'] in the list handed to the choice."
  },
  {
   "property": "C46",
   "status": "proved",
   "theorems": [
    "Plaquette.C46_check"
   ],
   "note": "For dictionaries with distinct names. An integer key for CX/CZ raises TypeError rather than ValueError (example)."
  },
  {
   "property": "C47",
   "status": "proved",
   "theorems": [
    "Plaquette.C47_planar",
    "Plaquette.C47_toric",
    "Plaquette.C47_rotated"
   ],
   "note": "Planar and toric with any order that contains the four directions; rotated with the default order."
  },
  {
   "property": "C48",
   "status": "partial",
   "theorems": [
    "Plaquette.C48_fabrication_counterexample",
    "Plaquette.C48_fabrication_partial"
   ],
   "note": "False of the code: LatticeCode.apply_fabrication_errors changes the lattice only; stabilisers, logical operators and number of qubits of the code object stay those of the old lattice (C48_fabrication_counterexample). C48_fabrication_partial: the lattice is the one with the errors."
  },
  {
   "property": "C49",
   "status": "partial",
   "theorems": [
    "Plaquette.C49_zero_counterexample",
    "Plaquette.C49_accepts_partial",
    "Plaquette.C49_instantiate",
    "Plaquette.C49_fromDict",
    "Plaquette.C49_update"
   ],
   "note": "False: size 0 and zero rounds are accepted (C49_zero_counterexample). Proved: exactly which configurations are accepted (C49_accepts_partial), and that accepted ones with size at least two (odd for the repetition code) make a valid code with the given number of rounds (C49_instantiate)."
  },
  {
   "property": "C50",
   "status": "proved",
   "theorems": [
    "Plaquette.C50_state_unique"
   ],
   "note": ""
  },
  {
   "property": "C51",
   "status": "partial",
   "theorems": [
    "Plaquette.C51_builder_counterexample",
    "Plaquette.C51_builder_repeats",
    "Plaquette.C51_circuit_partial"
   ],
   "note": "False for circuit builders (C51_builder_counterexample, C51_builder_repeats: with a fixed seed every run returns the same sample). Proved for circuits."
  },
  {
   "property": "C52",
   "status": "proved",
   "theorems": [
    "Plaquette.C52_planar",
    "Plaquette.C52_toric",
    "Plaquette.C52_rotated"
   ],
   "note": "Default orders."
  },
  {
   "property": "C54",
   "status": "partial",
   "theorems": [
    "Plaquette.C54_boundary_join_counterexample"
   ],
   "note": "False of the code: at a corner of the planar code of size 3, boundary_join=True leaves stabilisers that do not commute (C54_boundary_join_counterexample). The default handling is proved correct (C31)."
  },
  {
   "property": "C55",
   "status": "proved",
   "theorems": [
    "Plaquette.C55_data",
    "Plaquette.C55_measurement"
   ],
   "note": ""
  },
  {
   "property": "C56",
   "status": "partial",
   "theorems": [
    "Plaquette.C56_growth",
    "Plaquette.C56_decode",
    "Plaquette.C56_confined",
    "Plaquette.C56_erased_partial",
    "Plaquette.C56_erased_counterexample",
    "Plaquette.C56_erased_failure"
   ],
   "note": "False as stated: the erasure of a qubit whose edge is disabled as a duplicate is lost. Witness: rotated planar code of size 3, erasure and flip of the qubits 2 and 5, the correction leaves a logical error. Proved when the edges of the errors are enabled, and for cluster growth and union find on every graph."
  },
  {
   "property": "C57",
   "status": "partial",
   "theorems": [
    "Plaquette.C57_weights",
    "Plaquette.C57_measurement",
    "Plaquette.C57_unweighted_counterexample",
    "Plaquette.C57_unweighted_partial"
   ],
   "note": "False: from_code(code, None) fills in probabilities 1e-15 and gives weights; all measurement edges are disabled. With weighted=False there are no weights."
  },
  {
   "property": "C58",
   "status": "partial",
   "theorems": [
    "Plaquette.C58_unchanged_counterexample",
    "Plaquette.C58_changes",
    "Plaquette.C58_unchanged_partial",
    "Plaquette.C58_again"
   ],
   "note": "False: zeros are replaced in the dictionary of the caller. Proved: what changes, and that nothing changes if all Pauli probabilities are non-zero."
  },
  {
   "property": "C59",
   "status": "proved",
   "theorems": [
    "Plaquette.C59_flips",
    "Plaquette.C59_graph"
   ],
   "note": ""
  },
  {
   "property": "C60",
   "status": "proved",
   "theorems": [
    "Plaquette.C60_planar",
    "Plaquette.C60_toric",
    "Plaquette.C60_rotated",
    "Plaquette.C60_repetition",
    "Plaquette.C60_small"
   ],
   "note": ""
  },
  {
   "property": "C61",
   "status": "partial",
   "theorems": [
    "Plaquette.C61_half_counterexample",
    "Plaquette.C61_planar_partial",
    "Plaquette.C61_toric_partial",
    "Plaquette.C61_rotated_partial",
    "Plaquette.C61_repetition_partial"
   ],
   "note": "False for half the distance: seven errors on the repetition code of size 15 are corrected wrongly. Proved: all faults with 3t + e < size are corrected, for t errors and wrong outcomes and e erased qubits, any number of rounds, all sizes of the planar, toric and repetition codes (bit flips only) and, without erasures, of the rotated and XZZX codes."
  },
  {
   "property": "C62",
   "status": "partial",
   "theorems": [
    "Plaquette.C62_some_counterexample",
    "Plaquette.C62_all_partial"
   ],
   "note": "False if only some data qubits have erasure parameters: ValueError (C62_some_counterexample). Proved if all data qubits have them, for any number of rounds and any further errors."
  },
  {
   "property": "C63",
   "status": "partial",
   "theorems": [
    "Plaquette.C63_identity_counterexample",
    "Plaquette.C63_string_counterexample",
    "Plaquette.C63_short_counterexample",
    "Plaquette.C63_channels_partial",
    "Plaquette.C63_simulated",
    "Plaquette.C63_qubit",
    "Plaquette.C63_noname",
    "Plaquette.C63_device"
   ],
   "note": "False: 'II' is accepted, any string is accepted as distribution, and there may be more induced errors than distributions, which then raises in simulated_errors (three counterexamples). Proved: with equally many and without 'II', accepted iff well formed (C63_channels_partial), all channels passed on (C63_simulated), characterisation for qubit errors (C63_qubit, C63_noname)."
  },
  {
   "property": "C64",
   "status": "partial",
   "theorems": [
    "Plaquette.C64_gate_config",
    "Plaquette.C64_gate_empty",
    "Plaquette.C64_user_rows",
    "Plaquette.C64_gaussian",
    "Plaquette.C64_two_counterexample",
    "Plaquette.C64_gaussian_counterexample",
    "Plaquette.C64_constant_partial",
    "Plaquette.C64_targets",
    "Plaquette.C64_file"
   ],
   "note": "False: of two channels of one gate only the last one is kept, and gaussian errors of CX and CZ raise KeyError (counterexamples). Proved for constant errors with at most one channel per gate, all lattices, all iteration orders. C64_gate_config, C64_gate_empty and C64_user_rows: what is read for the gates, which channels are skipped, and errors given by a file. C64_gaussian: gaussian errors are not cut off."
  },
  {
   "property": "C65",
   "status": "partial",
   "theorems": [
    "Plaquette.C65_default_counterexample",
    "Plaquette.C65_one_partial"
   ],
   "note": "False: if both are switched off, X, Y, Z errors with probability 0.1 are made (C65_default_counterexample). Proved if the other kind is sampled."
  },
  {
   "property": "C66",
   "status": "partial",
   "theorems": [
    "Plaquette.C66_direct_counterexample",
    "Plaquette.C66_sample_partial",
    "Plaquette.C66_unpacks"
   ],
   "note": "False in the default mode without logical ancilla for logical operators X (C66_direct_counterexample, as C28). Proved with ancilla, and without it for operators of letters Z of the weight of the first operator. Gate errors: see C83."
  },
  {
   "property": "C67",
   "status": "proved",
   "theorems": [
    "Plaquette.C67_planar",
    "Plaquette.C67_toric",
    "Plaquette.C67_rotated",
    "Plaquette.C67_repetition"
   ],
   "note": "From the generated circuit over the simulator, the unpacking and the decoder to check_success. Half the distance in place of a third is false for the decoder (C61)."
  },
  {
   "property": "C68",
   "status": "partial",
   "theorems": [
    "Plaquette.C68_always_none",
    "Plaquette.C68_classes",
    "Plaquette.C68_rateOf",
    "Plaquette.C68_rate_partial",
    "Plaquette.C68_run_counterexample",
    "Plaquette.C68_build_run"
   ],
   "note": "False: run always returns None, because a class is looked up in a set of names (C68_always_none). The part of the code that is never reached computes the fraction of failed shots (C68_rate_partial). C68_build_run: build and run never give a rate."
  },
  {
   "property": "C69",
   "status": "partial",
   "theorems": [
    "Plaquette.C69_default_counterexample",
    "Plaquette.C69_planar_partial",
    "Plaquette.C69_toric_partial",
    "Plaquette.C69_rotated_partial"
   ],
   "note": "False for the default configuration with the logical operator X, even without errors (C69_default_counterexample, as C28). Proved for logical operators of letters Z, for the rate computed in the unreachable part of run. The rotated code without erasures; the repetition code cannot be unpacked in this mode (C27)."
  },
  {
   "property": "C70",
   "status": "partial",
   "theorems": [
    "Plaquette.C70_default_counterexample",
    "Plaquette.C70_config_partial",
    "Plaquette.C70_noweights",
    "Plaquette.C70_update_leaves"
   ],
   "note": "False: from_dict has the default weighted=False, the class True; a refused update leaves the wrong name (C70_update_leaves)."
  },
  {
   "property": "C71",
   "status": "partial",
   "theorems": [
    "Plaquette.C71_validate_raises",
    "Plaquette.C71_schema",
    "Plaquette.C71_validate_counterexample"
   ],
   "note": "False for every experiment: validate always raises AttributeError (C71_validate_raises)."
  },
  {
   "property": "C72",
   "status": "proved",
   "theorems": [
    "Plaquette.C72_setup",
    "Plaquette.C72_sane",
    "Plaquette.C72_minimal",
    "Plaquette.C72_answers",
    "Plaquette.C72_erased"
   ],
   "note": "Set-up (exact condition), minimality, answers and erasures. PyMatching and Fusion Blossom themselves are assumed to satisfy the contracts IsPyMatching and IsFusionBlossom (Spec/Matching.lean), which are satisfiable (exists_pyMatching, exists_fusionBlossom)."
  },
  {
   "property": "C73",
   "status": "partial",
   "theorems": [
    "Plaquette.C73_rounding_counterexample",
    "Plaquette.C73_sane_partial",
    "Plaquette.C73_answers_partial",
    "Plaquette.C73_rounded_partial",
    "Plaquette.C73_unweighted_partial"
   ],
   "note": "False: the weights are rounded down to hundredths of the largest in the component (C73_rounding_counterexample). Proved: minimal without weights; otherwise at most a hundredth of the largest weight per edge above the minimum; exactly the explainable syndromes are answered; set-up for absent or positive weights. PyMatching and Fusion Blossom themselves are assumed to satisfy the contracts IsPyMatching and IsFusionBlossom (Spec/Matching.lean), which are satisfiable (exists_pyMatching, exists_fusionBlossom)."
  },
  {
   "property": "C74",
   "status": "proved",
   "theorems": [
    "Plaquette.C74_planar",
    "Plaquette.C74_toric",
    "Plaquette.C74_rotated",
    "Plaquette.C74_repetition"
   ],
   "note": "Unweighted decoders. For the rotated codes without erasures; for the repetition code without phase flips. PyMatching and Fusion Blossom themselves are assumed to satisfy the contracts IsPyMatching and IsFusionBlossom (Spec/Matching.lean), which are satisfiable (exists_pyMatching, exists_fusionBlossom)."
  },
  {
   "property": "C75",
   "status": "proved",
   "theorems": [
    "Plaquette.C75_planar",
    "Plaquette.C75_toric",
    "Plaquette.C75_rotated",
    "Plaquette.C75_repetition",
    "Plaquette.C75_planar_rate_fb",
    "Plaquette.C75_planar_rate_pm",
    "Plaquette.C75_toric_rate_fb",
    "Plaquette.C75_toric_rate_pm",
    "Plaquette.C75_rotated_rate_fb",
    "Plaquette.C75_rotated_rate_pm"
   ],
   "note": "Errors on qubits and measurements, no gate errors (see C84); PyMatching without erasures. The rates are those of the part of run that is never reached (C68), for the logical operators of letters Z. PyMatching and Fusion Blossom themselves are assumed to satisfy the contracts IsPyMatching and IsFusionBlossom (Spec/Matching.lean), which are satisfiable (exists_pyMatching, exists_fusionBlossom)."
  },
  {
   "property": "C76",
   "status": "proved",
   "theorems": [
    "Plaquette.C76_pymatching",
    "Plaquette.C76_fusionBlossom"
   ],
   "note": "Over the enabled edges that end somewhere (of parallel edges all but one are disabled, C33). PyMatching and Fusion Blossom themselves are assumed to satisfy the contracts IsPyMatching and IsFusionBlossom (Spec/Matching.lean), which are satisfiable (exists_pyMatching, exists_fusionBlossom)."
  },
  {
   "property": "C77",
   "status": "partial",
   "theorems": [
    "Plaquette.C77_dict",
    "Plaquette.C77_length_counterexample",
    "Plaquette.C77_label_counterexample",
    "Plaquette.C77_add_partial",
    "Plaquette.C77_refused"
   ],
   "note": "False: lists of unequal length are cut without a complaint, and an unknown number enlarges the table so that the dictionary raises KeyError. Proved: the dictionary has exactly the values of the tables (C77_dict), and additions of qubits of the table are in it, all other values unchanged (C77_add_partial)."
  },
  {
   "property": "C78",
   "status": "partial",
   "theorems": [
    "Plaquette.C78_accepts",
    "Plaquette.C78_label_counterexample",
    "Plaquette.C78_update_partial"
   ],
   "note": "False for unknown numbers of qubits. Proved for the qubits of the table, with the exact conditions of acceptance (C78_accepts). The names qubit_id and qubit_type, which the code accepts, are not modelled."
  },
  {
   "property": "C79",
   "status": "partial",
   "theorems": [
    "Plaquette.C79_unknown_counterexample",
    "Plaquette.C79_add_partial",
    "Plaquette.C79_never_updated"
   ],
   "note": "False for names of gates that are not known: these are accepted and have no effect. Proved for the five gates; update_gate_error is not implemented (C79_never_updated)."
  },
  {
   "property": "C80",
   "status": "partial",
   "theorems": [
    "Plaquette.C80_gates",
    "Plaquette.C80_fromCsv",
    "Plaquette.C80_new_counterexample",
    "Plaquette.C80_overwrite_counterexample",
    "Plaquette.C80_csv_partial",
    "Plaquette.C80_dataframe_counterexample"
   ],
   "note": "False for new columns (not enabled), for overwrite (rows are numbered anew), and for dataframes (update raises for each of them). Proved for from_csv, with gate errors, and for update_from_csv with columns that exist. pandas.read_csv is not modelled: the file is a table already; numbers are read by a function that inverts the writing."
  },
  {
   "property": "C81",
   "status": "partial",
   "theorems": [
    "Plaquette.C81_gates_refused",
    "Plaquette.C81_counterexample",
    "Plaquette.C81_qubits_partial"
   ],
   "note": "False for every table with an error of a gate (C81_gates_refused). Proved for errors of qubits."
  },
  {
   "property": "C82",
   "status": "proved",
   "theorems": [
    "Plaquette.C82_pauli_frame"
   ],
   "note": "For circuits whose two-qubit gates act on different qubits. The other direction (every run without errors, together with every choice of errors, comes from a run with errors) is not stated."
  },
  {
   "property": "C83",
   "status": "proved",
   "theorems": [
    "Plaquette.C83_gate_faults",
    "Plaquette.C83_unpacks",
    "Plaquette.C83_sparse"
   ],
   "note": "The default mode without ancilla for other logical operators is excluded: there the sample is random (C28, C66)."
  },
  {
   "property": "C84",
   "status": "proved",
   "theorems": [
    "Plaquette.C84_planar",
    "Plaquette.C84_toric",
    "Plaquette.C84_rotated",
    "Plaquette.C84_repetition"
   ],
   "note": "The contracts of PyMatching and Fusion Blossom are assumed (Spec/Matching.lean). The numbers 20 and 6 are not claimed to be the smallest."
  },
  {
   "property": "C85",
   "status": "partial",
   "theorems": [
    "Plaquette.C85_objects_counterexample",
    "Plaquette.C85_again_partial"
   ],
   "note": "The claim is false; the theorem says exactly when it holds."
  },
  {
   "property": "C86",
   "status": "partial",
   "theorems": [
    "Plaquette.C86_general_counterexample",
    "Plaquette.C86_weighted_counterexample",
    "Plaquette.C86_sample_counterexample",
    "Plaquette.C86_fabrication_counterexample",
    "Plaquette.C86_values_partial",
    "Plaquette.C86_constructor"
   ],
   "note": "The claim is false in four places (one counterexample for each); the theorem gives the values that are read. Values of unexpected types are not modelled. C86_constructor (default values of the class and of an empty section differ)."
  },
  {
   "property": "C87",
   "status": "partial",
   "theorems": [
    "Plaquette.C87_device_counterexample",
    "Plaquette.C87_device_raises",
    "Plaquette.C87_build_partial",
    "Plaquette.C87_getters",
    "Plaquette.C87_order",
    "Plaquette.C87_general"
   ],
   "note": "The claim is false for the property device. The functions that make the errors, the circuit and the decoder are parameters here; see C65, C28, C70 for them."
  },
  {
   "property": "C88",
   "status": "partial",
   "theorems": [
    "Plaquette.C88_errors_counterexample",
    "Plaquette.C88_size_counterexample",
    "Plaquette.C88_reads_partial",
    "Plaquette.C88_load"
   ],
   "note": "The claim is false in two ways; the theorem has hypotheses for both."
  },
  {
   "property": "C89",
   "status": "partial",
   "theorems": [
    "Plaquette.C89_builder_counterexample",
    "Plaquette.C89_keeps_partial",
    "Plaquette.C89_new",
    "Plaquette.C89_reset",
    "Plaquette.C89_sample",
    "Plaquette.C89_reset_backend"
   ],
   "note": "The claim is false for builders. Only the simulator of the package, not Stim. C89_reset_backend (reset_backend and n_qubits)."
  },
  {
   "property": "C90",
   "status": "proved",
   "theorems": [
    "Plaquette.C90_planar",
    "Plaquette.C90_toric",
    "Plaquette.C90_rotated",
    "Plaquette.C90_repetition",
    "Plaquette.C90_pymatching",
    "Plaquette.C90_fusionblossom"
   ],
   "note": "The weights are not used (the decoders are built from the code alone, each edge has weight 1). PyMatching and Fusion Blossom are assumed to find matchings of minimal weight (as in C74). Rotated codes without erasures, since erasures are lost there (C56)."
  },
  {
   "property": "C91",
   "status": "proved",
   "theorems": [
    "Plaquette.C91_independent"
   ],
   "note": "The generator of random numbers is an input of the model; fair means that conditional on the earlier draws each draw has the given probability (an upper bound suffices). A fair generator is constructed (FairRng). The rate of a channel is the sum of its probabilities."
  },
  {
   "property": "C92",
   "status": "proved",
   "theorems": [
    "Plaquette.C92_planar",
    "Plaquette.C92_toric",
    "Plaquette.C92_rotated",
    "Plaquette.C92_repetition",
    "Plaquette.C92_pymatching",
    "Plaquette.C92_fusionblossom"
   ],
   "note": "Single shot from any start state. The decoders are used without weights, and are assumed to find matchings of minimal weight (as in C74). Rotated codes without erasures (lost there, C56); the repetition code with the logical operator Z and an ancilla. The logical operators are measured with ancillas, or are products of Z."
  },
  {
   "property": "C93",
   "status": "proved",
   "theorems": [
    "Plaquette.C93_planar",
    "Plaquette.C93_toric",
    "Plaquette.C93_rotated",
    "Plaquette.C93_repetition",
    "Plaquette.C93_pymatching",
    "Plaquette.C93_fusionblossom"
   ],
   "note": "As C92. The exponent 20 comes from a union bound: one failed gate causes at most 20 errors and wrong outcomes; the constant is far from optimal."
  },
  {
   "property": "C94",
   "status": "proved",
   "theorems": [
    "Plaquette.C94_planar",
    "Plaquette.C94_toric",
    "Plaquette.C94_rotated",
    "Plaquette.C94_pymatching",
    "Plaquette.C94_fusionblossom"
   ],
   "note": "About the loop over shots and the returned rate (Experiment.rate); ExperimentConfig.run itself returns None because of the finding in C68. If an exception is raised, the rate counts as 0. Decoders without weights; logical operators that are products of Z, as measured without ancillas."
  },
  {
   "property": "C95",
   "status": "proved",
   "theorems": [
    "Plaquette.C95_instrument",
    "Plaquette.C95_distribution",
    "Plaquette.C95_total",
    "Plaquette.C95_device",
    "Plaquette.C95_coin"
   ],
   "note": "The generator is a parameter with exact real probabilities (numpy draws 53-bit floats); an exact generator exists (fairRng_exact)."
  },
  {
   "property": "C96",
   "status": "partial",
   "theorems": [
    "Plaquette.C96_distribution_partial",
    "Plaquette.C96_length",
    "Plaquette.C96_results_partial",
    "Plaquette.C96_agree_partial",
    "Plaquette.C96_meaning_partial",
    "Plaquette.C96_depolarize_counterexample"
   ],
   "note": "Fails for DEPOLARIZE, which is translated to an instruction that Stim does not have (C96_depolarize_counterexample); proved for all other circuits. Probabilities are exact reals; the meaning of Stim instructions is a specification written from the documentation of Stim."
  },
  {
   "property": "C97",
   "status": "partial",
   "theorems": [
    "Plaquette.C97_zip_counterexample",
    "Plaquette.C97_prefix",
    "Plaquette.C97_same_size_partial",
    "Plaquette.C97_symmetric",
    "Plaquette.C97_not_transitive"
   ],
   "note": "Fails: the operators are compared with zip, so that a code equals every code that it is a prefix of (C97_zip_counterexample), and equality is not transitive (C97_not_transitive). Proved for codes with equal numbers of operators."
  },
  {
   "property": "C98",
   "status": "proved",
   "theorems": [
    "Plaquette.C98_remove",
    "Plaquette.C98_remove_any",
    "Plaquette.C98_apply",
    "Plaquette.C98_no_assertion",
    "Plaquette.C98_repetition",
    "Plaquette.C98_five",
    "Plaquette.C98_half_isolated"
   ],
   "note": "With keep_gauge half, a data qubit on which no operator acts any more raises IndexError instead (C98_half_isolated); the theorems say where. The five-qubit code, which is not CSS, is outside the statement: there every removal raises AssertionError (C98_five)."
  },
  {
   "property": "C53",
   "status": "partial",
   "theorems": [
    "Plaquette.C53_code_partial",
    "Plaquette.C53_plus_partial",
    "Plaquette.C53_accepts",
    "Plaquette.C53_sign_counterexample",
    "Plaquette.C53_many",
    "Plaquette.C53_many_counterexample",
    "Plaquette.C53_identity",
    "Plaquette.C53_no_events",
    "Plaquette.C53_circuit",
    "Plaquette.C53_sample"
   ],
   "note": "Fails: signs are lost (C53_sign_counterexample), codes with more stabilisers or logical operators than qubits such as the [[6,4,2]] code raise IndexError (C53_many_counterexample), stabilisers equal to the identity are refused (C53_identity). C53_accepts says exactly which operators are accepted; C53_code_partial proves the rest up to signs. Circuits and events: operators without the letter Y."
  },
  {
   "property": "C99",
   "status": "partial",
   "theorems": [
    "Plaquette.C99_bytes",
    "Plaquette.C99_refused",
    "Plaquette.C99_bell",
    "Plaquette.C99_y",
    "Plaquette.C99_counterexample",
    "Plaquette.C99_product_partial",
    "Plaquette.C99_minus"
   ],
   "note": "Fails (C99_counterexample): whenever a destabiliser found by the pseudo-inverse has an entry strictly between 0 and 1 it is truncated to 0 and the state is refused (C99_refused), for example the Bell state (C99_bell) and the state of one qubit with stabiliser Y (C99_y); negative entries become large bytes (C99_minus). C99_product_partial: states of qubits each with stabiliser X or Z and any signs are right. C99_bytes: which commutators are computed of bytes other than 0 and 1."
  },
  {
   "property": "C100",
   "status": "proved",
   "theorems": [
    "Plaquette.C100_state_roundtrip",
    "Plaquette.C100_short_roundtrip",
    "Plaquette.C100_short_size",
    "Plaquette.C100_injective"
   ],
   "note": "All valid states, with and without destabilisers."
  },
  {
   "property": "C101",
   "status": "partial",
   "theorems": [
    "Plaquette.C101_operator",
    "Plaquette.C101_plus_counterexample",
    "Plaquette.C101_reset_partial",
    "Plaquette.C101_guard",
    "Plaquette.C101_guard_counterexample",
    "Plaquette.C101_state_reset",
    "Plaquette.C101_range"
   ],
   "note": "Fails for the sign \"+\" (C101_plus_counterexample): an outcome -1 is corrected only for the texts X, Z, -X, -Z; QuantumState.reset_qubits_to_eigenstate accepts the empty text, every single character and \"XZ\" (C101_guard says exactly which, C101_guard_counterexample: the qubits are then not reset). C101_reset_partial: bases without sign or with \"-\", letters X and Z."
  },
  {
   "property": "C102",
   "status": "partial",
   "theorems": [
    "Plaquette.C102_zero",
    "Plaquette.C102_counterexample",
    "Plaquette.C102_gaussian_partial",
    "Plaquette.C102_constant"
   ],
   "note": "Fails for standard deviation 0: ZeroDivisionError (C102_zero, C102_counterexample). C102_gaussian_partial: all other standard deviations, for a generator of truncated normal values which keeps to the limits it is given."
  },
  {
   "property": "C103",
   "status": "partial",
   "theorems": [
    "Plaquette.C103_never",
    "Plaquette.C103_counterexample",
    "Plaquette.C103_rows_partial"
   ],
   "note": "Fails always: the check of the type is inverted, so that apply_operator never returns (C103_never). C103_rows_partial: with the check the other way round it would multiply every row."
  },
  {
   "property": "C104",
   "status": "proved",
   "theorems": [
    "Plaquette.C104_edges",
    "Plaquette.C104_vertices",
    "Plaquette.C104_components",
    "Plaquette.C104_combine",
    "Plaquette.C104_combine_length"
   ],
   "note": "All syndrome graphs; results of the components as lists of booleans."
  },
  {
   "property": "C105",
   "status": "partial",
   "theorems": [
    "Plaquette.C105_distribution_partial",
    "Plaquette.C105_agree_partial",
    "Plaquette.C105_resets_dropped",
    "Plaquette.C105_reset_counterexample",
    "Plaquette.C105_initial_partial",
    "Plaquette.C105_initial_agree_partial"
   ],
   "note": "Fails for circuits with resets, which are dropped (C105_reset_counterexample: the circuit gives 0, the program 1; C105_resets_dropped for all circuits). Proved for circuits without R, from the characters of the text on (C105_distribution_partial), and compared with the simulator of the project (C105_agree_partial); the same with resets at the beginning of the circuit (C105_initial_partial, C105_initial_agree_partial). The meaning of OpenQASM is a specification written from the description of the language."
  },
  {
   "property": "C106",
   "status": "proved",
   "theorems": [
    "Plaquette.C106_combine",
    "Plaquette.C106_flag_false",
    "Plaquette.C106_probabilities",
    "Plaquette.C106_certain",
    "Plaquette.C106_ignored"
   ],
   "note": "Probabilities are rational numbers. C106_combine: the rule; C106_probabilities: the computed arrays; C106_flag_false, C106_ignored: the flag as in the class; C106_certain: a certain erasure gives the weight 0."
  },
  {
   "property": "C107",
   "status": "partial",
   "theorems": [
    "Plaquette.C107_segments",
    "Plaquette.C107_frames",
    "Plaquette.C107_vertices",
    "Plaquette.C107_markers_partial",
    "Plaquette.C107_library_partial",
    "Plaquette.C107_separate",
    "Plaquette.C107_read",
    "Plaquette.C107_colours_partial",
    "Plaquette.C107_bare_counterexample",
    "Plaquette.C107_stabs_counterexample",
    "Plaquette.C107_again_counterexample",
    "Plaquette.C107_unchanged"
   ],
   "note": "Violated: an operator as returned by decode() raises AssertionError (C107_bare_counterexample; examples/quickstart.py does this), draw_stabs=False also hides the logical operators (C107_stabs_counterexample), and a lattice with an edge Y raises KeyError and leaves the visualizer unusable for grey figures (C107_again_counterexample). Proved for frames given as a list with one operator and lattices without edges Y: C107_markers_partial, C107_separate, C107_read, C107_colours_partial, C107_vertices. Plotly, colours and sizes are not modelled; positions are rational numbers. Lines and accepted frames: C107_segments, C107_frames."
  },
  {
   "property": "C108",
   "status": "partial",
   "theorems": [
    "Plaquette.C108_never",
    "Plaquette.C108_counterexample",
    "Plaquette.C108_plain_partial"
   ],
   "note": "Violated for every configuration: self.__dict__ has objects of other classes as values, so json.dump raises TypeError and the file has only the beginning of a text, its former content being lost (C108_never, C108_counterexample). Proved instead: values without such objects are written (C108_plain_partial). dump_toml is not modelled (behaviour of the toml library for objects)."
  },
  {
   "property": "C109",
   "status": "partial",
   "theorems": [
    "Plaquette.C109_reuse",
    "Plaquette.C109_unionFind",
    "Plaquette.C109_unweighted",
    "Plaquette.C109_update_counterexample",
    "Plaquette.C109_update_partial",
    "Plaquette.C109_not_combined"
   ],
   "note": "The first half is proved in full (C109_reuse, C109_unionFind). The second half is violated for graphs without weights: update_weights makes all growth increments of UnionFindDecoder NaN and raises ValueError for UnionFindNoWeights (C109_unweighted, C109_update_counterexample); proved for graphs with weights (C109_update_partial). update_weights is called only if a subclass of SyndromeGraphManager asks for it. C109_not_combined: no correction before the results are combined."
  },
  {
   "property": "C110",
   "status": "proved",
   "theorems": [
    "Plaquette.C110_planar",
    "Plaquette.C110_toric",
    "Plaquette.C110_rotated",
    "Plaquette.C110_repetition",
    "Plaquette.C110_pymatching",
    "Plaquette.C110_fusionblossom"
   ],
   "note": "The libraries pymatching and fusion_blossom are specified (IsPyMatching, IsFusionBlossom: minimum weight), as in C72 and C73. Erasures are excluded on the rotated code, where Fusion Blossom loses some of them, and for PyMatching, which refuses them."
  },
  {
   "property": "C111",
   "status": "proved",
   "theorems": [
    "Plaquette.C111_planar",
    "Plaquette.C111_toric",
    "Plaquette.C111_rotated",
    "Plaquette.C111_repetition",
    "Plaquette.C111_logarithms",
    "Plaquette.C111_equal"
   ],
   "note": "The logarithm is a parameter: the hypotheses hold for every function with a relative error below 1 (RoundedLog). A measurement probability of 0 has an infinite weight and is outside of the hypotheses."
  },
  {
   "property": "C112",
   "status": "proved",
   "theorems": [
    "Plaquette.C112_planar",
    "Plaquette.C112_toric",
    "Plaquette.C112_rotated",
    "Plaquette.C112_repetition"
   ],
   "note": "As in C92, C93 and C111: fair generator, exact rates, logarithm as a parameter, specified matching libraries."
  },
  {
   "property": "C113",
   "status": "proved",
   "theorems": [
    "Plaquette.C113_rates",
    "Plaquette.C113_below",
    "Plaquette.C113_total",
    "Plaquette.C113_counterexample",
    "Plaquette.C113_partial"
   ],
   "note": "C113_rates, C113_below and C113_total are proved in full. That only probabilities between 0 and 1 are accepted is false (C113_counterexample); C113_partial says what is checked: the flips of measurements."
  },
  {
   "property": "C114",
   "status": "proved",
   "theorems": [
    "Plaquette.C114_planar",
    "Plaquette.C114_toric",
    "Plaquette.C114_rotated",
    "Plaquette.C114_pymatching",
    "Plaquette.C114_fusionblossom"
   ],
   "note": "C112 (one shot) and C94 (many shots) together, with rates taken from the error data by C113; only operators that consist of letters Z, as the logical operators are measured without ancillas."
  },
  {
   "property": "C115",
   "status": "proved",
   "theorems": [
    "Plaquette.C115_builds",
    "Plaquette.C115_gates",
    "Plaquette.C115_unweighted",
    "Plaquette.C115_experiment"
   ],
   "note": "C115_builds, C115_gates, C115_unweighted (any error data with small probabilities) and C115_experiment. The rate is that of the loop of ExperimentConfig.run, which itself returns None (C68). The floats of the configuration are rational numbers."
  },
  {
   "property": "C116",
   "status": "partial",
   "theorems": [
    "Plaquette.C116_build",
    "Plaquette.C116_repeat_partial",
    "Plaquette.C116_repeat_counterexample"
   ],
   "note": "Fails for gaussian errors (C116_repeat_counterexample, a five-qubit code with the rates 0 and 1); C116_build and C116_repeat_partial for configurations without enabled gaussian channels. The Clifford simulator is meant; the Stim simulator has its own generator."
  },
  {
   "property": "C117",
   "status": "partial",
   "theorems": [
    "Plaquette.C117_track",
    "Plaquette.C117_after_build",
    "Plaquette.C117_recipes",
    "Plaquette.C117_rate_partial",
    "Plaquette.C117_stale_counterexample",
    "Plaquette.C117_failed_build_counterexample",
    "Plaquette.C117_changes",
    "Plaquette.C117_code_change",
    "Plaquette.C117_later_run_partial"
   ],
   "note": "Both claims fail (C117_stale_counterexample, C117_failed_build_counterexample: rates 0 and 1 on the five-qubit code). Proved: C117_track (any history), C117_after_build, C117_recipes, C117_rate_partial (all objects current). The generator is at its start; later runs continue with later numbers (C117_later_run_partial). What changes of sections do: C117_changes, C117_code_change."
  },
  {
   "property": "C118",
   "status": "proved",
   "theorems": [
    "Plaquette.C118_shots",
    "Plaquette.C118_rate",
    "Plaquette.C118_generated",
    "Plaquette.C118_transfer",
    "Plaquette.C118_planar",
    "Plaquette.C118_toric",
    "Plaquette.C118_rotated",
    "Plaquette.C118_samplers"
   ],
   "note": "The circuit measures or erases at least once (Stim raises otherwise, C26). The sampler is assumed to be faithful: independent rows with the distribution of the Stim circuit; such samplers exist (C118_samplers)."
  },
  {
   "property": "C119",
   "status": "proved",
   "theorems": [
    "Plaquette.C119_planar",
    "Plaquette.C119_toric",
    "Plaquette.C119_rotated",
    "Plaquette.C119_repetition"
   ],
   "note": "Decoders without weights. Rotated codes without erased qubits; PyMatching without erased qubits everywhere (C73). M is the number of error instructions of the circuit, counted with gates of rate 0."
  },
  {
   "property": "C120",
   "status": "proved",
   "theorems": [
    "Plaquette.C120_shot",
    "Plaquette.C120_rates",
    "Plaquette.C120_stim",
    "Plaquette.C120_data",
    "Plaquette.C120_planar",
    "Plaquette.C120_toric",
    "Plaquette.C120_rotated",
    "Plaquette.C120_repetition",
    "Plaquette.C120_order"
   ],
   "note": "No errors of gates; erasures on all data qubits or on none. Planar, toric, rotated and XZZX codes, and single shots with ancillas of the repetition code. The random generator is exact (ExactFrom), the sampler of Stim faithful."
  },
  {
   "property": "C121",
   "status": "partial",
   "theorems": [
    "Plaquette.C121_split_growth",
    "Plaquette.C121_off",
    "Plaquette.C121_iff",
    "Plaquette.C121_choose",
    "Plaquette.C121_choose_counterexample",
    "Plaquette.C121_split_weights",
    "Plaquette.C121_coefficient",
    "Plaquette.C121_endless"
   ],
   "note": "Explanations are proved for all values of the switches (C121_iff, C121_split_growth). False: with chosen increments the correction does not depend on the weights (C121_choose_counterexample, C121_choose); with split edges the weights of the graph are refused (C121_split_weights); a coefficient of infinity is accepted and decoding does not end (C121_endless). Halves of edges are numbered differently from the code, see the model."
  },
  {
   "property": "C122",
   "status": "partial",
   "theorems": [
    "Plaquette.C122_equal_counterexample",
    "Plaquette.C122_scale",
    "Plaquette.C122_equal_partial"
   ],
   "note": "Multiplying all weights is proved for all coefficients. Equal weights: false for the coefficient of a new decoder, 2 (C122_equal_counterexample: on a graph with the shape of a planar code of size 4 the two corrections differ by a logical operator), proved for the coefficient 1."
  },
  {
   "property": "C123",
   "status": "partial",
   "theorems": [
    "Plaquette.C123_hole_counterexample",
    "Plaquette.C123_quiet_partial",
    "Plaquette.C123_boundary",
    "Plaquette.C123_skipped"
   ],
   "note": "False for lattices with time steps when stabilisers are joined (C123_hole_counterexample: the rotated code of size 3 without the middle qubit has syndrome events in a run without errors), because the new edges have no time step and are skipped (C123_skipped). Proved for all fabricated lattices that are measured sequentially or whose stabiliser edges all have a time step, which qubits at the boundary keep (C123_boundary)."
  },
  {
   "property": "C124",
   "status": "proved",
   "theorems": [
    "Plaquette.C124_flips",
    "Plaquette.C124_graph",
    "Plaquette.C124_decode",
    "Plaquette.C124_unionFind",
    "Plaquette.C124_pymatching",
    "Plaquette.C124_fusionBlossom"
   ],
   "note": "C124_flips, C124_graph, C124_decode and its instances for union find, PyMatching and fusion blossom (the external matchers as specified by IsPyMatching and IsFusionBlossom). The code of the lattice must exist (mkLatCode), which can fail when gauge operators are kept."
  },
  {
   "property": "C125",
   "status": "proved",
   "theorems": [
    "Plaquette.C125_lift",
    "Plaquette.C125_distance",
    "Plaquette.C125_planar",
    "Plaquette.C125_toric",
    "Plaquette.C125_rotated",
    "Plaquette.C125_tight"
   ],
   "note": "C125_lift (errors of the new code come from errors of the old one), C125_distance, C125_planar, C125_toric, C125_rotated; C125_tight: the bound is attained by the rotated code of size 3 without the middle qubit. Undetected logical errors are those that commute with all stabilisers and anticommute with a listed logical operator, so errors of the gauge qubits alone do not count."
  },
  {
   "property": "C126",
   "status": "proved",
   "theorems": [
    "Plaquette.C126_distance",
    "Plaquette.C126_half",
    "Plaquette.C126_fabricated",
    "Plaquette.C126_pymatching",
    "Plaquette.C126_fusionBlossom"
   ],
   "note": "C126_distance (letters and errors together fewer than d), C126_half, C126_fabricated, C126_pymatching, C126_fusionBlossom. Without weights and without erasures; the solvers are assumed to find a lightest matching (IsPyMatching, IsFusionBlossom). C74 is the sharper statement, with Y counted once, for lattices with parallel logical lines."
  },
  {
   "property": "C127",
   "status": "partial",
   "theorems": [
    "Plaquette.C127_circuit",
    "Plaquette.C127_one_length",
    "Plaquette.C127_second",
    "Plaquette.C127_counterexample",
    "Plaquette.C127_first_partial",
    "Plaquette.C127_no_rounds",
    "Plaquette.C127_dictionaries"
   ],
   "note": "C127_counterexample (the second circuit of a generator); C127_first_partial (the first circuit, at least one round). Also C127_circuit (what several calls give), C127_second (the results can never be unpacked), C127_no_rounds (nor without rounds), C127_one_length, C127_dictionaries. What a call has appended before an exception is not followed up."
  },
  {
   "property": "C128",
   "status": "partial",
   "theorems": [
    "Plaquette.C128_odd_counterexample",
    "Plaquette.C128_iff_partial",
    "Plaquette.C128_error"
   ],
   "note": "C128_odd_counterexample (CX with three qubits); C128_iff_partial (exactly which circuits can be exported), C128_error (which exception)."
  },
  {
   "property": "C129",
   "status": "partial",
   "theorems": [
    "Plaquette.C129_read",
    "Plaquette.C129_device_counterexample",
    "Plaquette.C129_circuit_counterexample",
    "Plaquette.C129_gate_counterexample",
    "Plaquette.C129_checked",
    "Plaquette.C129_valid_partial",
    "Plaquette.C129_exception",
    "Plaquette.C129_keywords",
    "Plaquette.C129_attributes"
   ],
   "note": "C129_device_counterexample (name and shots), C129_circuit_counterexample, C129_gate_counterexample; C129_valid_partial (changes of the code, the decoder and qubit errors). Also C129_read (what is read is valid), C129_checked, C129_exception, C129_keywords (unknown keywords are ignored). Keywords that name methods are not modelled. C129_attributes (each update is the loop over the keywords, and the check)."
  },
  {
   "property": "C130",
   "status": "partial",
   "theorems": [
    "Plaquette.C130_sample_partial",
    "Plaquette.C130_success",
    "Plaquette.C130_third",
    "Plaquette.C130_hole_counterexample"
   ],
   "note": "C130_hole_counterexample (rotated code of size 3 without the middle qubit: events without faults); C130_sample_partial (all edges have a time step, or no time steps); C130_success and C130_third for lattices made of letters X and Z that are scheduled, without erasures; the solvers are assumed to return a lightest matching."
  },
  {
   "property": "C131",
   "status": "proved",
   "theorems": [
    "Plaquette.C131_gate_faults",
    "Plaquette.C131_success",
    "Plaquette.C131_order"
   ],
   "note": "C131_gate_faults (samples of runs with faulty gates), C131_success (fewer than a third of d - k faults), C131_order (shots, and rates with the Clifford simulator and Stim; rates are measured without logical ancillas, for operators of letters Z that have the weight of the first logical operator, see C66). The solvers are assumed to return a lightest matching."
  },
  {
   "property": "C132",
   "status": "partial",
   "theorems": [
    "Plaquette.C132_plain_partial",
    "Plaquette.C132_z_counterexample",
    "Plaquette.C132_z_erases",
    "Plaquette.C132_z_is_x",
    "Plaquette.C132_hadamard_counterexample",
    "Plaquette.C132_hadamard_invalid",
    "Plaquette.C132_iterator_counterexample",
    "Plaquette.C132_counterexample",
    "Plaquette.C132_iterators",
    "Plaquette.C132_refused",
    "Plaquette.C132_hadamard_half",
    "Plaquette.C132_arguments",
    "Plaquette.C132_exception",
    "Plaquette.C132_circuit",
    "Plaquette.C132_calls_partial"
   ],
   "note": "C132_counterexample, C132_z_counterexample (C132_z_erases, C132_z_is_x in general), C132_hadamard_counterexample, C132_hadamard_invalid, C132_iterator_counterexample (C132_iterators in general); C132_plain_partial and C132_calls_partial for calls without iterators, where negative indices occur only in x, cx and cz; C132_refused and C132_hadamard_half (indices that are too large), C132_circuit (circuits with negative indices are accepted). C132_arguments and C132_exception: the arguments of gates and the exceptions of calls."
  },
  {
   "property": "C133",
   "status": "partial",
   "theorems": [
    "Plaquette.C133_channels_partial",
    "Plaquette.C133_all_partial",
    "Plaquette.C133_channel_erases",
    "Plaquette.C133_channels_counterexample",
    "Plaquette.C133_equal_partial",
    "Plaquette.C133_partial",
    "Plaquette.C133_z_counterexample",
    "Plaquette.C133_hadamard_counterexample",
    "Plaquette.C133_counterexample",
    "Plaquette.C133_refused",
    "Plaquette.C133_z_erases"
   ],
   "note": "C133_counterexample (C133_z_counterexample, C133_hadamard_counterexample; C133_z_erases and C133_refused in general); C133_equal_partial and C133_partial for circuits in which negative indices occur in X, CX and CZ only: equal to the model of C13 and later properties, exceptions included. E_ERASE, E_PAULI and E_PAULI2: C133_channels_partial (no Y or Z drawn for a negative index), C133_channels_counterexample, C133_channel_erases; together with gates in circuits: C133_all_partial. ERROR, ERROR_ELSE and ERROR_CONTINUE are left out."
  },
  {
   "property": "C134",
   "status": "partial",
   "theorems": [
    "Plaquette.C134_run",
    "Plaquette.C134_order",
    "Plaquette.C134_steps",
    "Plaquette.C134_stop",
    "Plaquette.C134_counterexample",
    "Plaquette.C134_reset_partial",
    "Plaquette.C134_after_run",
    "Plaquette.C134_device"
   ],
   "note": "C134_run, C134_order, C134_steps, C134_stop, C134_device are general; C134_counterexample: reset keeps the instruction pointer (C134_after_run: after a run and a reset nothing is executed, for all circuits); C134_reset_partial: with a new iterator after the reset. A step that raises an exception other than StopIteration ends the sequence of calls in the model."
  },
  {
   "property": "C135",
   "status": "proved",
   "theorems": [
    "Plaquette.C135_str",
    "Plaquette.C135_injective",
    "Plaquette.C135_pprint",
    "Plaquette.C135_same_vectors"
   ],
   "note": "C135_str, C135_injective, C135_pprint, C135_same_vectors, for at least one qubit."
  },
  {
   "property": "C136",
   "status": "partial",
   "theorems": [
    "Plaquette.C136_lines",
    "Plaquette.C136_initial_partial",
    "Plaquette.C136_distribution_partial",
    "Plaquette.C136_reset_counterexample"
   ],
   "note": "C136_lines for all circuits; C136_distribution_partial for circuits without resets, C136_initial_partial with resets at the beginning. C136_reset_counterexample: resets are not drawn, as the export drops them. The parser of Qiskit is replaced by Spec/CircuitDrawing.lean."
  }
 ]
}
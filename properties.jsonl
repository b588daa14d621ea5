{"id": "C01", "title": "commutator_sign is the symplectic parity for every number of qubits", "statement": "commutator_sign(a, b) is 0 exactly when the two Pauli operators commute as matrices and 1 exactly when they anticommute, even though the array product is accumulated in 8-bit unsigned integers that wrap around.", "quantifier": "all numbers of qubits n, all pairs of n-qubit Pauli operators (any sign)", "why_tests_cant": "The uint8 accumulator wraps from 256 overlapping qubits on; unit tests use a handful of qubits and cannot enumerate the 4^(2n) pairs for any n.", "anchors": ["src/plaquette/pauli.py:commutator_sign", "src/plaquette/pauli.py:unpack_tableau"]}
{"id": "C02", "title": "multiply of two operators is the exact Pauli-group product", "statement": "multiply(a, b) returns (c, phase) such that the matrix product A\u00b7B equals phase times the matrix of c's unsigned bits, with phase in {1,-1,i,-i}; when a and b commute the sign bit of c is the sign of the product.", "quantifier": "all n, all pairs of n-qubit operators with any signs", "why_tests_cant": "Phase bookkeeping depends on the whole row; the number of pairs grows as 16^n.", "anchors": ["src/plaquette/pauli.py:multiply", "src/plaquette/pauli.py:_g"]}
{"id": "C03", "title": "multiply of any number of operators is the product in order", "statement": "multiply(op_1, ..., op_k) returns the product of all k operators: its X and Z bits are the XOR of the inputs and its phase is the phase of the matrix product.", "quantifier": "all k >= 2, all n, all lists of k operators", "why_tests_cant": "The fold threads a running phase and a running sign bit through an unbounded number of operators; a test fixes k.", "anchors": ["src/plaquette/pauli.py:multiply"]}
{"id": "C04", "title": "Clifford gates on the tableau are conjugation by the gate's unitary", "statement": "Applying x, y, z, hadamard, phase_gate, cx or cz to a state that stabilises a vector psi yields a state that stabilises U\u00b7psi where U is the unitary of that gate on the given qubits (with correct signs), and every row becomes U P U\u2020.", "quantifier": "all n, all states, all target (and distinct control/target) indices, all lists of targets", "why_tests_cant": "Needs all Pauli rows times all positions; tests check a few columns of the zero state.", "anchors": ["src/plaquette/pauli.py:x", "src/plaquette/pauli.py:y", "src/plaquette/pauli.py:z", "src/plaquette/pauli.py:hadamard", "src/plaquette/pauli.py:phase_gate", "src/plaquette/pauli.py:control_not_gate", "src/plaquette/pauli.py:control_phase_gate"]}
{"id": "C05", "title": "Every reachable tableau is a valid stabiliser tableau", "statement": "Starting from zero_state(n), any sequence of gates, measurements (random, forced or deterministic) and resets leaves a tableau whose stabilisers commute pairwise, whose destabilisers commute pairwise and whose i-th destabiliser anticommutes with exactly the i-th stabiliser.", "quantifier": "all n, all finite histories of gates on valid qubit indices, measurements of non-identity operators with any outcomes and resets", "why_tests_cant": "Histories are unbounded; an invariant broken after a rare interleaving silently corrupts every later measurement.", "anchors": ["src/plaquette/pauli.py:zero_state", "src/plaquette/pauli.py:measure", "src/plaquette/pauli.py:reset_qubits_to_eigenstate"]}
{"id": "C06", "title": "A random measurement follows the Born rule and projects the state", "statement": "If the measured Pauli operator anticommutes with some stabiliser, then both outcomes have probability 1/2 for the represented vector, the returned outcome is the drawn (or forced) bit, and the returned tableau stabilises the vector projected on that outcome.", "quantifier": "all n, all valid tableaus and vectors they stabilise, all signed Pauli operators, both outcomes, forced or drawn", "why_tests_cant": "A sampled simulator can be statistically almost right; only a proof relates every tableau to the projected state.", "anchors": ["src/plaquette/pauli.py:measure"]}
{"id": "C07", "title": "A deterministic measurement returns the certain outcome and keeps the state", "statement": "If the measured operator commutes with all stabilisers of a valid tableau, measure returns without randomness the bit m with P\u00b7psi = (-1)^m psi for the represented vector, and returns the state unchanged.", "quantifier": "all n, all valid tableaus, all signed non-identity Pauli operators in the commutant of the stabiliser group", "why_tests_cant": "The sign comes from a product of up to n rows selected by destabilisers; tests cover product states only.", "anchors": ["src/plaquette/pauli.py:measure", "src/plaquette/pauli.py:multiply"]}
{"id": "C08", "title": "Measuring the same operator again repeats the outcome", "statement": "After measure(state, P) returned (state', m), measure(state', P) returns m and leaves state' unchanged, whatever the random generator does.", "quantifier": "all valid tableaus, all non-identity signed operators, all random draws", "why_tests_cant": "Quantifies over every state and draw.", "anchors": ["src/plaquette/pauli.py:measure"]}
{"id": "C09", "title": "measure accepts every operator on the right number of qubits", "statement": "measure(state, P) returns a result for every Pauli operator P acting on as many qubits as the state, including the identity.", "quantifier": "all valid tableaus and all n-qubit operators", "why_tests_cant": "A test cannot show that no operator/state pair hits the failing branch.", "anchors": ["src/plaquette/pauli.py:measure"]}
{"id": "C10", "title": "reset leaves the target qubits in |0>", "statement": "After reset(state, qubits) the state is stabilised by +Z on every listed qubit, so measuring any of them in the Z basis deterministically gives 0; operators in the stabiliser group that do not touch the listed qubits stay in it.", "quantifier": "all valid tableaus, all lists of qubit indices, all random draws", "why_tests_cant": "Multi-target resets interact through entanglement; infinitely many states.", "anchors": ["src/plaquette/pauli.py:reset_qubits_to_eigenstate", "src/plaquette/pauli.py:_measure_base"]}
{"id": "C11", "title": "Pauli operators survive the trip through strings", "statement": "string_to_pauli(pauli_to_string(op)) = op, both for the canonical form and for the index form (when the number of qubits is given).", "quantifier": "all n >= 1 and all n-qubit signed operators", "why_tests_cant": "Parser/printer pairs fail on corner cases (identity, multi-digit indices); tests list a few strings.", "anchors": ["src/plaquette/pauli.py:string_to_pauli", "src/plaquette/pauli.py:pauli_to_string", "src/plaquette/pauli.py:dict_to_pauli"]}
{"id": "C12", "title": "Malformed Pauli strings are rejected", "statement": "string_to_pauli raises an error for a canonical-form string containing a character other than I, X, Y, Z (after the optional sign).", "quantifier": "all strings", "why_tests_cant": "The set of malformed strings is infinite.", "anchors": ["src/plaquette/pauli.py:string_to_pauli", "src/plaquette/pauli.py:dict_to_pauli"]}
{"id": "C13", "title": "Pauli operators survive the trip through dictionaries", "statement": "dict_to_pauli(pauli_to_dict(op), n) is op with a positive sign, and pauli_to_dict(dict_to_pauli(d, n)) = d for every dictionary of X/Y/Z on indices below n.", "quantifier": "all n, all operators, all dictionaries", "why_tests_cant": "Infinite domain.", "anchors": ["src/plaquette/pauli.py:dict_to_pauli", "src/plaquette/pauli.py:pauli_to_dict"]}
{"id": "C14", "title": "string_to_state only accepts valid stabiliser/destabiliser sets", "statement": "If string_to_state(stabilisers, destabilisers) returns a state then that state is a valid tableau: stabilisers commute, destabilisers commute, and destabiliser i anticommutes exactly with stabiliser i.", "quantifier": "all lists of equally many stabilisers and destabilisers", "why_tests_cant": "A validation gap is invisible unless the right invalid input is tried.", "anchors": ["src/plaquette/pauli.py:string_to_state"]}
{"id": "C15", "title": "Destructive measurement removes exactly the measured qubits", "statement": "A destructive measurement (remove the measured qubits from the state) of any list of distinct qubits returns one outcome per qubit and a valid stabiliser state of the remaining qubits, which stabilises the remaining part of the projected vector.", "quantifier": "all valid tableaus with n >= 2, all lists of distinct targets", "why_tests_cant": "Depends on the pivot chosen in the partial trace and on index shifts between successive removals.", "anchors": ["src/plaquette/pauli.py:_measure_base", "src/plaquette/pauli.py:_ptrace"]}
{"id": "C16", "title": "tensor_product and pad_operator embed operators", "statement": "tensor_product(a, b) acts as a on the first and as b on the last qubits (bits concatenated, signs multiplied); pad_operator(op, n) acts as op on the first qubits and as identity on the others; commutation relations are preserved.", "quantifier": "all operator sizes", "why_tests_cant": "Infinite domain.", "anchors": ["src/plaquette/pauli.py:tensor_product", "src/plaquette/pauli.py:pad_operator"]}
{"id": "C17", "title": "append_qubit adds a qubit in |0>", "statement": "append_qubit(state) of a valid n-qubit tableau is a valid (n+1)-qubit tableau that stabilises psi tensor |0>.", "quantifier": "all n >= 1 and all valid tableaus", "why_tests_cant": "Needs every n; the function is untested in the repository.", "anchors": ["src/plaquette/pauli.py:append_qubit", "src/plaquette/pauli.py:insert_qubit_at"]}
{"id": "C18", "title": "Circuits survive the trip through text", "statement": "Circuit.from_str(str(circuit)) has exactly the gates of circuit for every circuit built through append.", "quantifier": "all circuits accepted by append (any length, any argument values)", "why_tests_cant": "Parsing and validation have per-gate rules; circuits are unbounded.", "anchors": ["src/plaquette/circuit/__init__.py:Circuit.append", "src/plaquette/circuit/__init__.py:Circuit.append_from_str", "src/plaquette/circuit/__init__.py:Circuit.from_str", "src/plaquette/circuit/__init__.py:Circuit.__str__"]}
{"id": "C19", "title": "number_of_qubits is the smallest register that fits every gate", "statement": "For a circuit with non-negative integer qubit arguments every qubit index is below number_of_qubits, and no smaller number has that property (except that it is 1 for a circuit without qubit arguments).", "quantifier": "all circuits", "why_tests_cant": "Unbounded circuits and indices.", "anchors": ["src/plaquette/circuit/__init__.py:Circuit.number_of_qubits"]}
{"id": "C20", "title": "A circuit run returns one result per measured qubit, in circuit order, from the represented quantum state", "statement": "Running a circuit on the Clifford simulator produces number_measured_qubits measurement results in the order of the M instructions (for circuits without conditional measurements) and one erasure flag per E_ERASE; along the run the tableau always stabilises the vector obtained by applying the gates' unitaries, the drawn Pauli errors and the projections on the recorded outcomes.", "quantifier": "all circuits, all random draws, all start states", "why_tests_cant": "Unbounded circuits and random histories.", "anchors": ["src/plaquette/device/_circuitsim.py:CircuitSimulator._handle_gate", "src/plaquette/device/_circuitsim.py:CircuitSimulator.run", "src/plaquette/circuit/__init__.py:Circuit.number_measured_qubits"]}
{"id": "C21", "title": "At most one branch of an ERROR / ERROR_ELSE chain is executed", "statement": "In a chain ERROR, ERROR_ELSE..., each with any ERROR_CONTINUE after them, at most one alternative is applied, an ERROR_CONTINUE gate is applied exactly when the alternative it follows was applied, and gates outside the chain are unaffected.", "quantifier": "all chains (any number of alternatives and continuations), all random draws", "why_tests_cant": "The state machine keeps three flags across instructions; chains and draws are unbounded.", "anchors": ["src/plaquette/device/_circuitsim.py:CircuitSimulator._handle_error"]}
{"id": "C22", "title": "Runs after reset do not depend on earlier runs; runs without reset accumulate", "statement": "For a circuit that is accepted from a fresh simulator, run() after reset produces, for the same random draws, the same results as a fresh simulator whatever was run before; run(after_reset=False) appends the new results to the old ones.", "quantifier": "all circuits, all previous histories, all draws", "why_tests_cant": "Hidden state can survive the reset only in rare histories.", "anchors": ["src/plaquette/device/_circuitsim.py:CircuitSimulator.run", "src/plaquette/device/_circuitsim.py:CircuitSimulator.reset", "src/plaquette/device/__init__.py:Device.run"]}
{"id": "C23", "title": "OpenQASM export emits every instruction of the circuit in order", "statement": "circuit_to_openqasm3 (the OpenQASM export) emits, for each gate and each of its targets in order, the corresponding QASM statement; the k-th measured qubit is written to classical bit k; nothing is dropped silently.", "quantifier": "all error-free circuits", "why_tests_cant": "A dropped instruction only shows on circuits that contain it.", "anchors": ["src/plaquette/circuit/openqasm.py"]}
{"id": "C24", "title": "Equally likely alternatives translated for stim are equally likely", "statement": "The chain of conditional error probabilities emitted for a list of k equally likely alternatives with total probability k*p gives every alternative exactly probability p and no error probability 1 - k*p.", "quantifier": "all k and all real p with k*p <= 1", "why_tests_cant": "Probability identity for every k and p; sampling cannot settle an equality.", "anchors": ["src/plaquette/device/_stimsim.py:_append_equiprobable"]}
{"id": "C25", "title": "Batched stim sampling hands out each sample exactly once, in order", "statement": "With batch size B, the j-th run of the stim backend on one circuit returns row j mod B of the (j div B)-th batch drawn from the sampler.", "quantifier": "all batch sizes B >= 1, all numbers of runs", "why_tests_cant": "Off-by-one errors in the negative indexing only appear at particular batch positions.", "anchors": ["src/plaquette/device/_stimsim.py:StimSimulator.run"]}
{"id": "C26", "title": "Measurement results and erasure flags are separated correctly for stim", "statement": "The measurement record of the translated circuit interleaves real measurements and erasure flags; the backend returns exactly the real measurements in circuit order as results and exactly the erasure flags in circuit order as erasures.", "quantifier": "all circuits of supported gates, all measurement records", "why_tests_cant": "Interleavings are unbounded.", "anchors": ["src/plaquette/device/_stimsim.py:circuit_to_stim", "src/plaquette/device/_stimsim.py:StimSimulator.process_results"]}
{"id": "C27", "title": "Raw results of a generated QEC circuit are unpacked into the right rounds", "statement": "For a circuit produced by generate_qec_circuit, the raw result vector splits into initial logical, (n_rounds+1) stabiliser rounds and final logical outcomes; MeasurementSample.from_code_and_raw_results returns exactly those blocks, the syndrome is the XOR of consecutive rounds and the logical toggle the XOR of initial and final parities.", "quantifier": "all codes, all numbers of rounds, all choices of measured logical operators, with and without logical ancilla", "why_tests_cant": "Depends on operator weights, number of logical qubits and rounds; tests fix planar codes.", "anchors": ["src/plaquette/device/__init__.py:MeasurementSample.from_code_and_raw_results", "src/plaquette/circuit/generator.py:QECCircuitGenerator.get_circuit"]}
{"id": "C28", "title": "Without errors the syndrome and the logical toggle are zero", "statement": "Running the circuit generated for any valid code without error parameters gives an all-zero syndrome and a zero logical toggle, for every random draw.", "quantifier": "all valid stabiliser codes on a lattice, all rounds, all commuting logical operator choices, all draws", "why_tests_cant": "Random outcomes in the preparation round; needs all draws and all codes.", "anchors": ["src/plaquette/circuit/generator.py:QECCircuitGenerator.measure_logical_ops", "src/plaquette/circuit/generator.py:QECCircuitGenerator.measure_op", "src/plaquette/circuit/generator.py:QECCircuitGenerator.get_circuit"]}
{"id": "C29", "title": "Every size of every lattice family is a valid stabiliser code", "statement": "For the repetition, planar, rotated planar (CSS and XZZX) and toric families at every supported size, all stabilisers commute with each other and with all logical operators, logical X_i and Z_j anticommute exactly when i = j and all other pairs of logical operators commute.", "quantifier": "all sizes", "why_tests_cant": "Tests instantiate a few sizes.", "anchors": ["src/plaquette/codes/latticeinstances.py:RepetitionCodeLattice", "src/plaquette/codes/latticeinstances.py:PlanarCodeLattice", "src/plaquette/codes/latticeinstances.py:RotatedPlanarCodeLattice", "src/plaquette/codes/latticeinstances.py:ToricCodeLattice", "src/plaquette/codes/__init__.py:StabilizerCode.check"]}
{"id": "C30", "title": "Every size of every lattice family has the advertised parameters", "statement": "The families have the advertised number of data qubits, stabilisers and logical operators at every size (e.g. rotated planar: d^2 data qubits, d^2-1 stabilisers, 2 logical operators of weight d), with all data qubits distinct.", "quantifier": "all sizes", "why_tests_cant": "Tests instantiate a few sizes.", "anchors": ["src/plaquette/codes/latticeinstances.py"]}
{"id": "C31", "title": "Fabrication errors keep the code valid", "statement": "Merging two stabilisers into a super-stabiliser, multiplying a logical operator by a stabiliser and removing a data qubit (with the default gauge handling) turn a valid code into a valid code: all stabilisers commute with each other and with the logical operators and the logical commutation relations are kept.", "quantifier": "all valid CSS lattices, all data qubits/stabilisers, any sequence of removals that does not raise", "why_tests_cant": "Arbitrary sequences of fabrication errors on arbitrary lattices.", "anchors": ["src/plaquette/codes/latticebase.py:CodeLattice.create_superstab", "src/plaquette/codes/latticebase.py:CodeLattice.multiply_logical_with_stab", "src/plaquette/codes/latticebase.py:CodeLattice.remove_dataqubit", "src/plaquette/codes/latticebase.py:CodeLattice.apply_fabrication_errors"]}
{"id": "C32", "title": "The syndrome graph edges are exactly the stabilisers flipped by each error", "statement": "In the syndrome graph of a code, the edge for Pauli error E on a data qubit in round t connects exactly the vertices (t, s) of the stabilisers s that anticommute with E, and the edge of a measurement error of stabiliser s between rounds t-1 and t connects (t-1, s) and (t, s).", "quantifier": "all codes whose single-qubit errors flip at most two stabilisers, all numbers of rounds", "why_tests_cant": "Index arithmetic over rounds, qubits and stabilisers for every size.", "anchors": ["src/plaquette/syngraph/__init__.py:SyndromeGraph._init_vertices", "src/plaquette/syngraph/__init__.py:SyndromeGraph._init_qubit_error_edges", "src/plaquette/syngraph/__init__.py:SyndromeGraph._init_measurement_error_edges"]}
{"id": "C33", "title": "Among parallel edges exactly one lightest edge stays enabled", "statement": "After construction, for each set of edges with the same end vertices exactly one edge of minimal weight is enabled if that minimal weight is finite, and none otherwise; every remaining edge keeps its weight.", "quantifier": "all graphs and all (non-NaN) weights", "why_tests_cant": "Depends on iteration order with repeated disabling.", "anchors": ["src/plaquette/syngraph/__init__.py:SyndromeGraph._check_edges_duplicate", "src/plaquette/syngraph/__init__.py:SyndromeGraph._select_lightest_edge", "src/plaquette/syngraph/__init__.py:SyndromeGraph._check_edges_infweight"]}
{"id": "C34", "title": "Connected components partition the graph", "statement": "The components handed to the decoders partition the vertices: two vertices are in the same component exactly when they are joined by a path of enabled edges, and each enabled edge with at least one vertex belongs to exactly the component of its end vertices.", "quantifier": "all graphs", "why_tests_cant": "Reachability over unbounded graphs.", "anchors": ["src/plaquette/syngraph/__init__.py:SyndromeGraph._init_conn_components", "src/plaquette/syngraph/__init__.py:SyndromeGraph._find_connected_component"]}
{"id": "C35", "title": "The erasure (peeling) decoder returns a correction inside the erasure that explains the syndrome", "statement": "For every graph, set of selected (erased) edges and syndrome such that each connected cluster of selected edges has an even number of syndrome vertices or a dangling edge, the erasure decoder terminates without error and returns a set of selected edges whose boundary is exactly the syndrome.", "quantifier": "all graphs with dangling edges, all selections, all syndromes", "why_tests_cant": "Unbounded graphs; spanning forest order.", "anchors": ["src/plaquette/decoders/unionfind_erasure.py:ErasureDecoder.decode", "src/plaquette/decoders/unionfind_erasure.py:ErasureDecoder.construct_forest", "src/plaquette/decoders/unionfind_erasure.py:ErasureDecoder.peel_forest"]}
{"id": "C36", "title": "Union-find cluster growth terminates with correctable clusters", "statement": "For every connected graph, every set of erased edges and every syndrome that is even or on a graph with a dangling edge, cluster growth terminates, never violates one of its internal assertions, and ends with every cluster even or containing a dangling edge.", "quantifier": "all connected graphs, weights > 0, erasures, decodable syndromes", "why_tests_cant": "Termination and absence of assertion failures over all graphs.", "anchors": ["src/plaquette/decoders/unionfind_decoder.py:UnionFindNoWeights.step", "src/plaquette/decoders/unionfind_decoder.py:UnionFindNoWeights.handle_new_edges", "src/plaquette/decoders/unionfind_decoder.py:Cluster", "src/plaquette/decoders/unionfind_decoder.py:Graph"]}
{"id": "C37", "title": "The union-find decoder's output explains the syndrome", "statement": "UnionFindDecoder and UnionFindNoWeights return, for every decodable input, a set of edges whose boundary is exactly the syndrome.", "quantifier": "all connected graphs, weights, erasures, decodable syndromes", "why_tests_cant": "Composition of two unbounded algorithms.", "anchors": ["src/plaquette/decoders/unionfind_decoder.py:UnionFindDecoder.decode", "src/plaquette/decoders/unionfind_erasure.py:ErasureDecoder.decode"]}
{"id": "C38", "title": "The decoded correction returns the state to the code space", "statement": "decoder.decode(erasure, syndrome) returns a Pauli operator whose commutator with each stabiliser s equals the XOR over all rounds of the syndrome bits of s, so applying it undoes the net change of every stabiliser.", "quantifier": "all codes, rounds, weights, erasures and syndromes for which decode returns", "why_tests_cant": "Composition of graph construction, component splitting, decoding and result mapping.", "anchors": ["src/plaquette/decoders/decoderbase.py:DecoderInterface.decode", "src/plaquette/syngraph/__init__.py:SyndromeGraph.result_as_pauli_frame", "src/plaquette/syngraph/__init__.py:SyndromeGraph.set_syndrome"]}
{"id": "C39", "title": "Undecodable syndromes are refused, decodable ones are not", "statement": "A component decoder raises exactly when the component has no dangling edge and an odd number of syndrome vertices (or has syndrome but no way to explain it).", "quantifier": "all components, all syndromes", "why_tests_cant": "All inputs.", "anchors": ["src/plaquette/decoders/decoderbase.py:ComponentDecoder._check_decodable", "src/plaquette/decoders/decoderbase.py:ComponentDecoder.decode"]}
{"id": "C40", "title": "check_success reports exactly whether the measured logical operators were restored", "statement": "check_success(code, correction, toggle, logical_ops) is true exactly when for every measured logical operator its measured toggle equals the commutator of the correction with it.", "quantifier": "all codes, corrections, toggles, logical operator choices", "why_tests_cant": "All inputs.", "anchors": ["src/plaquette/decoders/decoderbase.py:check_success"]}
{"id": "C41", "title": "User-supplied decoder weights are honoured", "statement": "from_code(code, None, weights=w) builds a decoder that uses w; from_code(code, errordata) uses the weights computed from errordata.", "quantifier": "all codes and weight dictionaries", "why_tests_cant": "Control flow over optional arguments.", "anchors": ["src/plaquette/decoders/decoderbase.py:DecoderInterface.from_code", "src/plaquette/syngraph/__init__.py:SyndromeGraphManager.__init__"]}
{"id": "C42", "title": "Edge weights order errors by likelihood", "statement": "The weight of an error is -log(p/(1-p)) of the total probability of the Pauli errors that flip the corresponding stabilisers: it decreases strictly with p, is positive for p < 1/2, zero at 1/2, infinite (edge disabled) exactly when the error cannot happen.", "quantifier": "all probabilities in [0, 1]", "why_tests_cant": "Real-valued inputs.", "anchors": ["src/plaquette/syngraph/weights.py"]}
{"id": "C43", "title": "Logical operator strings select the right operators", "statement": "logical_ops_to_indices maps a string over {X, Z} with one letter per logical qubit to the index of that logical operator of that qubit, and rejects every other string and every index out of range.", "quantifier": "all strings and index lists, all numbers of logical qubits", "why_tests_cant": "All inputs.", "anchors": ["src/plaquette/codes/__init__.py:StabilizerCode.logical_ops_to_indices"]}
{"id": "C44", "title": "StabilizerCode.check accepts exactly the valid codes", "statement": "check() passes exactly when stabilisers commute with each other and with the logical operators, and logical X_i/Z_j anticommute iff i = j, X's commute and Z's commute.", "quantifier": "all codes", "why_tests_cant": "All inputs.", "anchors": ["src/plaquette/codes/__init__.py:StabilizerCode.check"]}
{"id": "C45", "title": "Two-qubit gate errors are applied to the intended qubits with the intended probabilities", "statement": "For a two-qubit Pauli channel given as {'xz': p, ...} on (ancilla, data), the generated E_PAULI2 instruction makes the simulator apply Pauli a on the ancilla and b on the data qubit with probability p['ab'].", "quantifier": "all channel dictionaries and all draws", "why_tests_cant": "15 slots in two files must agree; one transposition is a silent error.", "anchors": ["src/plaquette/circuit/generator.py:QECCircuitGenerator.apply_gate_error", "src/plaquette/device/_circuitsim.py:CircuitSimulator._handle_gate"]}
{"id": "C46", "title": "check_against_code accepts exactly error data that fits the code", "statement": "ErrorData.check_against_code raises exactly when some error entry names an unknown qubit, gate or parameter for the code.", "quantifier": "all codes and error dictionaries", "why_tests_cant": "All inputs.", "anchors": ["src/plaquette/errors/__init__.py:ErrorData.check_against_code"]}
{"id": "C47", "title": "Parallel stabiliser measurement schedules are conflict free", "statement": "In the lattice families' parallel schedules no data qubit and no ancilla takes part in two gates of the same time step, and every stabiliser edge is scheduled exactly once.", "quantifier": "all sizes of all families", "why_tests_cant": "Tests instantiate a few sizes.", "anchors": ["src/plaquette/codes/latticebase.py:CodeLattice.assign_stab_edge_order", "src/plaquette/circuit/generator.py:QECCircuitGenerator.measure_stabgens_pl"]}
{"id": "C48", "title": "LatticeCode stays consistent with its lattice after fabrication errors", "statement": "After LatticeCode.apply_fabrication_errors the stabilisers and logical operators reported by the code are those of the modified lattice.", "quantifier": "all lattice codes and fabrication errors", "why_tests_cant": "Histories of modifications.", "anchors": ["src/plaquette/codes/__init__.py:LatticeCode.apply_fabrication_errors"]}
{"id": "C49", "title": "Experiment code configuration only accepts positive sizes and rounds", "statement": "CodeConfig(name, size, rounds) raises for every non-positive size or number of rounds of a sized code and for unknown names.", "quantifier": "all names, sizes, rounds", "why_tests_cant": "All inputs.", "anchors": ["src/plaquette/frontend/__init__.py:CodeConfig.__post_init__"]}
{"id": "C50", "title": "A tableau determines the quantum state", "statement": "Every valid tableau stabilises a nonzero vector, and any two nonzero vectors it stabilises are scalar multiples of each other, so the simulator's classical state is a faithful description of one quantum state.", "quantifier": "all n, all valid tableaus, all vectors", "why_tests_cant": "Existence and uniqueness range over a 2^n-dimensional complex vector space for every n.", "anchors": ["src/plaquette/pauli.py:zero_state", "src/plaquette/pauli.py:measure"]}
{"id": "C51", "title": "Repeated runs of one circuit on a device continue the sample stream", "statement": "Calling Device.run repeatedly with the same circuit or circuit builder on the stim backend returns the rows of the sampler one after the other; the backend is made anew only if a different circuit is given.", "quantifier": "all circuits and builders, all batch sizes, all numbers of runs, any fixed seed", "why_tests_cant": "With a random seed a needlessly remade backend is invisible; with a fixed seed only repeated runs of a builder show it.", "anchors": ["src/plaquette/device/__init__.py:Device.run", "src/plaquette/device/_stimsim.py:StimSimulator.__init__"]}
{"id": "C52", "title": "Parallel schedules keep the order of overlapping stabilisers", "statement": "In the default schedules of the planar, toric and rotated lattices, of any two stabilisers the same one acts first on all data qubits on which they have different letters, so that measuring them in parallel does not entangle the ancillas.", "quantifier": "all sizes, both rotated variants, all pairs of stabilisers", "why_tests_cant": "Tests check a handful of sizes; the order relation is needed for every pair of stabilisers of every size.", "anchors": ["src/plaquette/codes/latticebase.py:CodeLattice.assign_stab_edge_order", "src/plaquette/codes/latticeinstances.py", "src/plaquette/circuit/generator.py:QECCircuitGenerator.measure_stabgens_pl"]}
{"id": "C54", "title": "Joining stabilisers at the boundary keeps the code valid", "statement": "Applying fabrication errors with boundary_join=True to a valid lattice code leaves a valid code: all stabilisers commute with each other and with the logical operators.", "quantifier": "all lattices, all fabrication errors that do not raise", "why_tests_cant": "Depends on the position of the removed qubit (edge or corner) and on the history of removals; the tests only look at a few positions.", "anchors": ["src/plaquette/codes/latticebase.py:CodeLattice._boundary_qubit_join_stabilizers", "src/plaquette/codes/latticebase.py:CodeLattice.apply_fabrication_errors"]}
{"id": "C55", "title": "Qubit and measurement errors act on the intended qubit with the intended probabilities", "statement": "For every data qubit with parameters in the dictionary 'pauli' (or 'erasure') the generator appends in each round one instruction that applies X, Y, Z to that qubit (erases it) with the probabilities of the dictionary, and for every ancilla with a measurement error one instruction that applies X to it with that probability; qubits without parameters get none.", "quantifier": "all codes, all dictionaries, all draws", "why_tests_cant": "slots and qubit indices have to agree between the generator, the circuit and the simulator for every dictionary.", "anchors": ["src/plaquette/circuit/generator.py:QECCircuitGenerator.apply_dataqubit_errors", "src/plaquette/circuit/generator.py:QECCircuitGenerator.apply_measurement_error"]}
{"id": "C56", "title": "Erasures alone are corrected inside the erasure", "statement": "If errors on erased data qubits alone explain the syndrome, then the union find decoder returns a correction that acts on erased qubits only. In particular every erasure of fewer qubits than the distance of the code is corrected.", "quantifier": "all codes with a syndrome graph, all weights, erasures and syndromes", "why_tests_cant": "The number of pairs of erasures and errors is exponential; the tests decode random samples and do not look at single failures.", "anchors": ["src/plaquette/decoders/unionfind_decoder.py:UnionFindNoWeights.union_find", "src/plaquette/decoders/unionfind_decoder.py:Graph.init_erasure_clusters", "src/plaquette/syngraph/__init__.py:SyndromeGraph.set_erasure", "src/plaquette/syngraph/__init__.py:SyndromeGraph._check_edges_duplicate"]}
{"id": "C57", "title": "Without error data a decoder is unweighted", "statement": "from_code(code, None) makes a decoder without weights, as documented (weights are used if errordata or weights is given).", "quantifier": "all codes", "why_tests_cant": "Tests decode with such a decoder but do not look at its edge weights; the effect (measurement errors are impossible for it) only shows for syndromes with measurement errors.", "anchors": ["src/plaquette/decoders/decoderbase.py:DecoderInterface.from_code", "src/plaquette/syngraph/__init__.py:SyndromeGraphManager.__init__"]}
{"id": "C58", "title": "Making a decoder leaves the error data of the caller unchanged", "statement": "from_code does not change the errordata dictionary that it is given.", "quantifier": "all codes and error dictionaries", "why_tests_cant": "The change only matters when the same dictionary is used again, e.g. to make the circuit; tests do not compare the dictionary before and after.", "anchors": ["src/plaquette/decoders/decoderbase.py:DecoderInterface.from_code"]}
{"id": "C59", "title": "Every built-in code has a syndrome graph", "statement": "On every code made by the class methods of LatticeCode an X or Z error on one data qubit anticommutes with at most two stabilisers, so that the syndrome graph exists for every number of rounds.", "quantifier": "all code families, sizes and numbers of rounds", "why_tests_cant": "The graph is made for a few sizes in tests; whether an error of one qubit flips at most two stabilisers must hold at every site of every size.", "anchors": ["src/plaquette/syngraph/__init__.py:SyndromeGraph", "src/plaquette/codes/__init__.py:LatticeCode.make_planar", "src/plaquette/codes/__init__.py:LatticeCode.make_toric", "src/plaquette/codes/__init__.py:LatticeCode.make_rotated_planar", "src/plaquette/codes/__init__.py:LatticeCode.make_repetition", "src/plaquette/codes/__init__.py:LatticeCode.make_five_qubit", "src/plaquette/codes/__init__.py:LatticeCode.make_shor"]}
{"id": "C60", "title": "Distance of the code families", "statement": "The least weight of an operator that commutes with all stabilisers and anticommutes with a logical operator is size for the planar, toric and rotated planar codes (also XZZX), 3 for the five-qubit and Shor codes, and 1 for the repetition code, where bit flips alone have the distance size.", "quantifier": "all sizes, all Pauli operators on the data qubits", "why_tests_cant": "The number of operators is exponential in the number of qubits; tests only look at the weight of the listed logical operators.", "anchors": ["src/plaquette/codes/__init__.py:LatticeCode.make_planar", "src/plaquette/codes/__init__.py:LatticeCode.make_toric", "src/plaquette/codes/__init__.py:LatticeCode.make_rotated_planar", "src/plaquette/codes/__init__.py:LatticeCode.make_repetition", "src/plaquette/codes/__init__.py:LatticeCode.make_five_qubit", "src/plaquette/codes/__init__.py:LatticeCode.make_shor"]}
{"id": "C61", "title": "Union find corrects errors up to half the distance", "statement": "Without weights, errors on t qubits with 2t < d are corrected by the union find decoder: what is left after the correction commutes with all logical operators.", "quantifier": "all built-in codes and sizes, all sets of faulty qubits and wrong outcomes, any number of rounds", "why_tests_cant": "The number of error patterns is exponential; the smallest failing pattern found has seven errors on fifteen qubits, one of 6435.", "anchors": ["src/plaquette/decoders/unionfind_decoder.py:UnionFindDecoder", "src/plaquette/decoders/unionfind_erasure.py:ErasureDecoder", "src/plaquette/decoders/decoderbase.py:DecoderInterface.decode"]}
{"id": "C62", "title": "Erasure flags are unpacked for the right qubit and round", "statement": "For a circuit generated with erasure errors, the erasure flags of a run are returned by MeasurementSample.from_code_and_raw_results as one row per round, with the flag of data qubit q of round t at position (t, q).", "quantifier": "all codes of the library, all numbers of rounds, all error dictionaries with at least one erasable data qubit, all raw results and flags", "why_tests_cant": "The flags are a flat vector whose layout depends on which qubits have parameters; tests use erasures on all qubits or none.", "anchors": ["src/plaquette/circuit/generator.py:QECCircuitGenerator.apply_dataqubit_errors", "src/plaquette/device/__init__.py:MeasurementSample.from_code_and_raw_results"]}
{"id": "C63", "title": "Accepted error configurations are well formed", "statement": "Gate error metadata accepted by the configuration have as many distributions as induced errors and parameters, each distribution is known and has the right number of parameters, each induced error is a Pauli error other than the identity, and the only distributions given as a string are the empty one and 'user'. All channels are then passed on by simulated_errors.", "quantifier": "all metadata of gate and qubit errors", "why_tests_cant": "All strings, lists of all lengths.", "anchors": ["src/plaquette/frontend/__init__.py:_GateErrorMetadata.__post_init__", "src/plaquette/frontend/__init__.py:_QubitErrorMetadata.__post_init__", "src/plaquette/frontend/__init__.py:GateErrorsConfig.simulated_errors"]}
{"id": "C64", "title": "Every configured channel reaches the error dictionaries", "statement": "The error data made from a configuration contain every enabled channel with the configured probability for exactly the qubits or pairs of qubits it acts on: Pauli errors and erasure for data qubits, measurement errors for the ancillas of stabilisers, errors of H, M and R for the ancillas, errors of CX and CZ for the pairs of ancilla and data qubit.", "quantifier": "all lattices, all configurations, all iteration orders of the sets", "why_tests_cant": "All combinations of channels; the tests use single channels.", "anchors": ["src/plaquette/errors/__init__.py:assimilate_qubit_errors", "src/plaquette/errors/__init__.py:assimilate_gate_errors", "src/plaquette/errors/__init__.py:ErrorData.qubit_errors_dict", "src/plaquette/errors/__init__.py:ErrorData.gate_errors_dict", "src/plaquette/frontend/__init__.py:ErrorsConfig.instantiate"]}
{"id": "C65", "title": "Errors that are not sampled do not occur", "statement": "If the sampling of qubit errors (gate errors) is switched off in the configuration, the error data contain no qubit errors (gate errors).", "quantifier": "all lattices and configurations", "why_tests_cant": "All configurations.", "anchors": ["src/plaquette/errors/__init__.py:ErrorData.from_lattice", "src/plaquette/frontend/__init__.py:QubitErrorsConfig.simulated_errors", "src/plaquette/frontend/__init__.py:ErrorsConfig.instantiate"]}
{"id": "C66", "title": "The sample of a noisy experiment is the sample of the faults that happened", "statement": "For an experiment with errors on qubits (Pauli channels, erasures, wrong measurement outcomes), the syndrome of the sample is exactly the one of the faults chosen by the random generator, the qubits marked as erased are those that were erased, and a logical operator is toggled exactly if an odd number of errors on the data anticommute with it.", "quantifier": "all built-in codes and sizes, numbers of rounds, error dictionaries for qubits, choices of logical operators, with and without ancilla, and all draws of the random generator", "why_tests_cant": "Each run is one random history of one circuit; tests compare averages or noiseless runs, and cannot compare the sample with the errors that the simulator applied.", "anchors": ["src/plaquette/circuit/generator.py:QECCircuitGenerator.get_circuit", "src/plaquette/circuit/generator.py:generate_qec_circuit", "src/plaquette/device/_circuitsim.py:CircuitSimulator.run", "src/plaquette/device/__init__.py:MeasurementSample.from_code_and_raw_results"]}
{"id": "C67", "title": "Runs with few faults are decoded successfully", "statement": "If in a run of an experiment with errors on qubits there are t Pauli errors (on qubits that were not erased) and wrong outcomes, and e erasures, with 3t + e < size, then the union find decoder without weights and check_success report success for the sample of this run.", "quantifier": "all sizes of the planar and toric code, of the rotated and XZZX code without erasures, and of the repetition code for the logical operator Z; all numbers of rounds, error dictionaries, and draws; logical operators measured with an ancilla, or of letters Z", "why_tests_cant": "A statement about every error pattern of bounded weight in every round of circuits of every size; tests sample a few patterns of small codes.", "anchors": ["src/plaquette/circuit/generator.py:QECCircuitGenerator.get_circuit", "src/plaquette/circuit/generator.py:generate_qec_circuit", "src/plaquette/device/_circuitsim.py:CircuitSimulator.run", "src/plaquette/device/__init__.py:MeasurementSample.from_code_and_raw_results", "src/plaquette/decoders/decoderbase.py:check_success", "src/plaquette/decoders/unionfind_interfaces.py:UnionFindNoWeights"]}
{"id": "C68", "title": "Running an experiment returns the logical error rate", "statement": "If every shot of an experiment goes through, ExperimentConfig.run returns the fraction of the shots for which check_success reports a failure: a number between 0 and 1, which is 0 exactly if all shots succeeded.", "quantifier": "all codes, circuits, decoders, numbers of shots, logical operators, devices and draws of the random generator", "why_tests_cant": "Tests only call run on one small configuration and do not look at the value (and run returns None).", "anchors": ["src/plaquette/frontend/__init__.py:ExperimentConfig.run", "src/plaquette/device/__init__.py:Device.run"]}
{"id": "C69", "title": "Experiments with few faults have the logical error rate 0", "statement": "If in every shot of an experiment there are t Pauli errors and wrong outcomes and e erasures with 3t + e < size (in particular without errors), the logical error rate with the union find decoder without weights is 0.", "quantifier": "all sizes and numbers of rounds of the planar, toric and rotated codes, all error dictionaries for qubits, numbers of shots, logical operators and draws", "why_tests_cant": "The rate is a random number; tests cannot distinguish a wrong rate from a statistical fluctuation, nor quantify over all sizes.", "anchors": ["src/plaquette/frontend/__init__.py:ExperimentConfig.run", "src/plaquette/device/__init__.py:Device.run", "src/plaquette/decoders/decoderbase.py:DecoderInterface.from_code", "src/plaquette/decoders/decoderbase.py:check_success"]}
{"id": "C70", "title": "The configuration of the decoder means the same however it is written", "statement": "A decoder configuration made from a dictionary is the one of the class with the same values, including the documented defaults; exactly the four known decoders are accepted; UnionFindNoWeights is refused exactly if weights are asked for; an update that is refused changes nothing.", "quantifier": "all names and values of weighted", "why_tests_cant": "Tests look at a few literals and never compare the two ways of making a configuration.", "anchors": ["src/plaquette/frontend/__init__.py:DecoderConfig.from_dict", "src/plaquette/frontend/__init__.py:DecoderConfig.instantiate", "src/plaquette/frontend/__init__.py:DecoderConfig.update"]}
{"id": "C71", "title": "A configuration that satisfies the schema can be validated", "statement": "ExperimentConfig.validate returns True for an experiment whose configuration satisfies the schema.", "quantifier": "all experiments, built or not", "why_tests_cant": "validate is not called by the tests.", "anchors": ["src/plaquette/frontend/__init__.py:ExperimentConfig.validate", "src/plaquette/frontend/__init__.py:ExperimentConfig.as_dict"]}
{"id": "C72", "title": "The PyMatching interface returns errors of minimum weight", "statement": "The graph handed to PyMatching is accepted whenever the weights are absent or finite and not negative; the operator returned is the product of the errors of enabled edges that explain the syndrome with the smallest total weight in the whole syndrome graph; without erasures exactly the explainable syndromes are answered; with a relevant erasure nothing is returned.", "quantifier": "all stabilisers, weights, numbers of rounds, syndromes, erasures and solvers that satisfy the contract of PyMatching", "why_tests_cant": "Tests decode single errors on small codes; they do not compare with all other explanations, and cannot range over codes and weights.", "anchors": ["src/plaquette/decoders/matching.py:PyMatchingDecoder.set_syngraph", "src/plaquette/decoders/matching.py:PyMatchingDecoder.decode"]}
{"id": "C73", "title": "The Fusion Blossom interface returns errors of minimum weight", "statement": "The operator returned is the product of the errors of enabled edges that explain the syndrome with the smallest total weight, where erased edges have weight 0.", "quantifier": "all stabilisers, weights, numbers of rounds, syndromes, erasures and solvers that satisfy the contract of Fusion Blossom", "why_tests_cant": "The rounding of the weights only shows for weights of different magnitude, which the tests do not use.", "anchors": ["src/plaquette/decoders/fusionblossom.py:FusionBlossomDecoder.set_syngraph", "src/plaquette/decoders/fusionblossom.py:FusionBlossomDecoder.decode"]}
{"id": "C74", "title": "Matching corrects all errors up to half the size of the code", "statement": "PyMatching and Fusion Blossom, without weights, correct every combination of t errors of qubits and outcomes with 2t < size, and Fusion Blossom also e erasures with 2t + e < size.", "quantifier": "all sizes and numbers of rounds of the planar, toric, rotated and repetition codes, all faults and syndromes", "why_tests_cant": "The number of combinations grows exponentially; tests look at single errors.", "anchors": ["src/plaquette/decoders/matching.py:PyMatchingDecoder.set_syngraph", "src/plaquette/decoders/matching.py:PyMatchingDecoder.decode", "src/plaquette/decoders/fusionblossom.py:FusionBlossomDecoder.set_syngraph", "src/plaquette/decoders/fusionblossom.py:FusionBlossomDecoder.decode"]}
{"id": "C75", "title": "Matching decodes experiments with few faults successfully", "statement": "In a shot of a generated circuit with less than half as many faults as the size of the code, the correction of PyMatching and Fusion Blossom is successful for the measured logical operators, and the logical error rate of an experiment of such shots is 0.", "quantifier": "all sizes and numbers of rounds, error dictionaries for qubits, logical operators, modes, draws of the random generator and numbers of shots", "why_tests_cant": "Runs are random; tests cannot enumerate the faults of a shot.", "anchors": ["src/plaquette/decoders/matching.py:PyMatchingDecoder.set_syngraph", "src/plaquette/decoders/matching.py:PyMatchingDecoder.decode", "src/plaquette/decoders/fusionblossom.py:FusionBlossomDecoder.set_syngraph", "src/plaquette/decoders/fusionblossom.py:FusionBlossomDecoder.decode", "src/plaquette/decoders/decoderbase.py:check_success"]}
{"id": "C76", "title": "Matching finds the most likely errors", "statement": "With the weights -log(p/(1-p)), the errors returned are the most likely ones of all that explain the syndrome, if the errors of the edges are independent; the loss due to inexact weights is bounded.", "quantifier": "all graphs, probabilities, syndromes and precisions of the weights", "why_tests_cant": "Likelihoods of all explanations cannot be enumerated by tests.", "anchors": ["src/plaquette/decoders/matching.py:PyMatchingDecoder.set_syngraph", "src/plaquette/decoders/matching.py:PyMatchingDecoder.decode", "src/plaquette/decoders/fusionblossom.py:FusionBlossomDecoder.set_syngraph", "src/plaquette/decoders/fusionblossom.py:FusionBlossomDecoder.decode", "src/plaquette/syngraph/weights.py:WeightComputation.get_edge_weights"]}
{"id": "C77", "title": "Errors added to a table are in the dictionary", "statement": "The dictionary of errors has exactly the values of the tables for the enabled errors, and of several rows for the same gate and qubits the bottom-most one counts; the errors given to add_qubit_error, if it accepts them, are in the dictionary.", "quantifier": "all tables, names, lists of qubits and probabilities, and orders of the set of enabled errors", "why_tests_cant": "Tests look at single tables; wrong lengths and labels are not tried.", "anchors": ["src/plaquette/errors/__init__.py:ErrorData.add_qubit_error", "src/plaquette/errors/__init__.py:ErrorData.error_data_dict", "src/plaquette/errors/__init__.py:ErrorData.qubit_errors_dict", "src/plaquette/errors/__init__.py:ErrorData.gate_errors_dict"]}
{"id": "C78", "title": "Updating changes the errors given and no others", "statement": "update_qubit_error accepts a float with an integer or two lists of the same length for a column that exists, changes the values given, and keeps all others.", "quantifier": "all tables, names, arguments and qubits", "why_tests_cant": "Preservation of all other values cannot be enumerated.", "anchors": ["src/plaquette/errors/__init__.py:ErrorData.update_qubit_error", "src/plaquette/errors/__init__.py:ErrorData.error_data_dict"]}
{"id": "C79", "title": "Errors of gates added are in the dictionary", "statement": "An error added for a gate and qubits is in the dictionary, replaces earlier ones for the same gate and qubits and keeps the others.", "quantifier": "all tables and rows", "why_tests_cant": "The precedence of rows shows only for several overlapping rows.", "anchors": ["src/plaquette/errors/__init__.py:ErrorData.add_gate_error", "src/plaquette/errors/__init__.py:ErrorData.update_gate_error", "src/plaquette/errors/__init__.py:ErrorData.gate_errors_dict"]}
{"id": "C80", "title": "Errors in files are in the dictionary", "statement": "Files of the documented form are read as they are written, and the errors read with from_csv and update_from_csv are those of the dictionary.", "quantifier": "all files of the documented form, tables and flags", "why_tests_cant": "Tests read one file each.", "anchors": ["src/plaquette/errors/__init__.py:ErrorData.from_csv", "src/plaquette/errors/__init__.py:ErrorData.update_from_csv", "src/plaquette/errors/__init__.py:ErrorData.update", "src/plaquette/errors/__init__.py:delimited_string_list_to_series"]}
{"id": "C81", "title": "Errors survive saving and reading", "statement": "A table saved with save_to_csv and read with from_csv gives the same dictionary of errors.", "quantifier": "all tables whose errors are enabled", "why_tests_cant": "A round trip over all tables cannot be tested.", "anchors": ["src/plaquette/errors/__init__.py:ErrorData.save_to_csv", "src/plaquette/errors/__init__.py:ErrorData.from_csv"]}
{"id": "C82", "title": "A run with Pauli errors is a run without, up to a Pauli frame", "statement": "A run of the simulator with Pauli channels, erasures and conditional Pauli errors has the results of some run of the circuit without errors, flipped exactly at the measurements of qubits with an X in the Pauli frame; the frame is carried along by the gates, forgotten by resets and multiplied with each error drawn; the final state is that of the run without errors multiplied with the frame.", "quantifier": "all circuits whose conditional errors are Pauli matrices, all random generators, all valid states to start from", "why_tests_cant": "The correspondence of runs with and without errors ranges over all circuits and all random decisions; tests look at single errors in small circuits.", "anchors": ["src/plaquette/device/_circuitsim.py:CircuitSimulator._handle_gate", "src/plaquette/device/_circuitsim.py:CircuitSimulator._handle_error", "src/plaquette/pauli.py:measure"]}
{"id": "C83", "title": "Faulty gates amount to a bounded number of errors of data qubits and outcomes", "statement": "In an experiment with errors of qubits, measurements and gates, measured with logical ancillas (or for logical operators of letters Z of the weight of the first one), the sample is that of an experiment in which only data qubits have Pauli errors between the rounds and outcomes are wrong; it needs at most one such fault for each error of a data qubit and each flipped outcome, and w (deg + 1) for each faulty gate, where every stabiliser acts on at most w qubits and at most deg act on each qubit; no more qubits are reported erased than are erased. For planar, toric and rotated codes w = deg = 4, for the repetition code 2.", "quantifier": "all codes the package makes, all configurations of errors, numbers of rounds, random generators and runs", "why_tests_cant": "A gate can fail anywhere in a circuit, and its error spreads through the gates that follow; the claim covers every circuit of every size and every combination of failures.", "anchors": ["src/plaquette/circuit/generator.py:QECCircuitGenerator.apply_gate_and_error", "src/plaquette/circuit/generator.py:QECCircuitGenerator.apply_gate_error", "src/plaquette/circuit/generator.py:generate_qec_circuit", "src/plaquette/device/__init__.py:MeasurementSample.from_code_and_raw_results"]}
{"id": "C84", "title": "Experiments with faulty gates are decoded successfully when there are few faults", "statement": "If in a run with errors of qubits, measurements and gates the number of faults, a faulty gate counting as 20 (as 6 for the repetition code), is less than a third (union find) or half (PyMatching and Fusion Blossom) of the size of the code, each erased qubit counting once, the decoder predicts the change of the logical operators.", "quantifier": "planar, toric, rotated and XZZX codes (these two without erasures) and the repetition code with its operator Z of all sizes, all configurations of errors, numbers of rounds, random generators and runs", "why_tests_cant": "The failing combinations of errors are too many and too rare to be found by sampling; the claim covers all of them for codes of any size.", "anchors": ["src/plaquette/circuit/generator.py:QECCircuitGenerator.apply_gate_and_error", "src/plaquette/circuit/generator.py:generate_qec_circuit", "src/plaquette/decoders/interfaces.py:UnionFindDecoder", "src/plaquette/frontend/__init__.py:ExperimentConfig.run"]}
{"id": "C85", "title": "A dictionary from which an experiment was read can be read again", "statement": "Reading an experiment from a dictionary a second time gives the same experiment. (False: the reading puts objects into the sections of errors of the caller's dictionary, and the second reading raises AttributeError. True exactly if the dictionary says nothing about errors.)", "quantifier": "all dictionaries (of the expected types), file systems, installed devices and iteration orders of the sets of keys", "why_tests_cant": "The tests read each dictionary once; the claim is about every dictionary and the state in which it is left.", "anchors": ["src/plaquette/frontend/__init__.py:ExperimentConfig.from_dict", "src/plaquette/frontend/__init__.py:ErrorsConfig.from_dict", "src/plaquette/frontend/__init__.py:QubitErrorsConfig.from_dict", "src/plaquette/frontend/__init__.py:GateErrorsConfig.from_dict"]}
{"id": "C86", "title": "An experiment has the values of its dictionary and the defaults of the classes", "statement": "What a dictionary says is what the experiment has, and what it does not say has the default value of the class. (False: without `general` there is None, the decoder is not weighted, gate errors are not sampled, and the channel `fabrication` of gates is dropped. Everything else holds.)", "quantifier": "all dictionaries, file systems, installed devices and iteration orders", "why_tests_cant": "There are too many combinations of present and missing keys to be tried; each default is written in two places.", "anchors": ["src/plaquette/frontend/__init__.py:ExperimentConfig.from_dict", "src/plaquette/frontend/__init__.py:DecoderConfig.from_dict", "src/plaquette/frontend/__init__.py:DeviceConfig.from_dict", "src/plaquette/frontend/__init__.py:CircuitConfig.from_dict", "src/plaquette/frontend/__init__.py:QubitErrorsConfig.from_dict", "src/plaquette/frontend/__init__.py:GateErrorsConfig.from_dict"]}
{"id": "C87", "title": "What build builds, and what the properties of an experiment give", "statement": "After `build` the five properties give objects, the errors are those made for the built code, and circuit and decoder are made for this code and these errors; a property that raises nothing gives an object that was built. (False for `device`, which looks at the circuit. An experiment read without `general` cannot be built: TypeError.)", "quantifier": "all experiments, all functions that make the parts, all states of the object", "why_tests_cant": "The order in which the parts are built and asked for is up to the caller; the claim covers all of them.", "anchors": ["src/plaquette/frontend/__init__.py:ExperimentConfig.build", "src/plaquette/frontend/__init__.py:ExperimentConfig.build_errors", "src/plaquette/frontend/__init__.py:ExperimentConfig.build_circuit", "src/plaquette/frontend/__init__.py:ExperimentConfig.build_decoder", "src/plaquette/frontend/__init__.py:ExperimentConfig.device", "src/plaquette/frontend/__init__.py:ExperimentConfig.code"]}
{"id": "C88", "title": "Dictionaries accepted by the schema can be read", "statement": "A dictionary that the JSON schema accepts is read without an exception, if all files are there and the devices are installed. (False: the schema checks nothing in the sections of errors, because `items` says nothing about objects, and does not ask for the size of the code. True if a size is given where needed and the channels are readable.) What is loaded has a number of rounds of at least 1, shots from 1 to 1000000, a known decoder, and a code that can be built for sizes of at least 2 (odd for the repetition code).", "quantifier": "all dictionaries, file systems, devices and iteration orders", "why_tests_cant": "The schema and the checks of the classes are written independently; that one implies the other is a claim about all dictionaries.", "anchors": ["src/plaquette/frontend/__init__.py:_validate_config", "src/plaquette/frontend/__init__.py:ExperimentConfig.load_toml", "src/plaquette/frontend/__init__.py:ExperimentConfig.load_json", "src/plaquette/frontend/__init__.py:ExperimentConfig.from_dict", "src/plaquette/frontend/__init__.py:CodeConfig.instantiate"]}
{"id": "C89", "title": "Runs of a device with and without reset", "statement": "A run without reset leaves the results of the run before in the sample. (False for a builder of circuits: a new simulator is made for every run. True for circuit objects.) A run with reset gives the sample of a new device at the same position of the random generator.", "quantifier": "all circuits, random generators and sequences of runs", "why_tests_cant": "The sample depends on everything the device did before; the claim covers all histories.", "anchors": ["src/plaquette/device/__init__.py:Device.run", "src/plaquette/device/__init__.py:Device.get_sample", "src/plaquette/device/__init__.py:Device.reset_backend", "src/plaquette/device/_circuitsim.py:CircuitSimulator.reset"]}
{"id": "C90", "title": "PyMatching and Fusion Blossom have a threshold", "statement": "For random faults of rate p (errors of data qubits and wrong outcomes in any number of rounds, of which any set occurs with probability at most p to the power of its size; they need not be independent), the decoders PyMatching and Fusion Blossom without weights fail with probability at most 32 rounds size^2 q^size / (1 - q), where 100 p <= q^2 <= 1 (36 p <= q^2 for the repetition code and bit flips). So below 1/100 the probability of a failure goes to zero with the size of the code, for numbers of rounds up to any power of the size.", "quantifier": "all sizes of planar, toric, rotated, XZZX and repetition codes, all numbers of rounds, all probability spaces, random faults, erasures (Fusion Blossom, codes where they are not lost) and solvers that find a matching of minimal weight", "why_tests_cant": "Tests estimate failure rates of a few small codes by sampling; the claim bounds the rate for every size, including rates far too small to be sampled.", "anchors": ["src/plaquette/decoders/decoderbase.py:DecoderInterface.decode", "src/plaquette/decoders/interfaces.py:PyMatchingDecoder", "src/plaquette/decoders/interfaces.py:FusionBlossomDecoder", "src/plaquette/codes/__init__.py:LatticeCode"]}
{"id": "C91", "title": "Errors of a simulated circuit are random with the given rates, independently", "statement": "If the generator of random numbers is fair (each draw is below p with probability p, and each choice takes an entry with its probability, independently of the draws before), then for every set of error instructions of a circuit, the probability that all of them do something is at most the product of their rates.", "quantifier": "all circuits, start states, fair generators, sets of instructions, and events that happened before the run", "why_tests_cant": "Independence is a statement about the distribution of the results of all runs; tests see a few runs with fixed seeds.", "anchors": ["src/plaquette/device/_circuitsim.py:CircuitSimulator", "src/plaquette/circuit/__init__.py:Circuit"]}
{"id": "C92", "title": "Whole experiments have a threshold for errors of qubits and measurements", "statement": "A shot of an experiment (circuit generated for the code, run on the simulator with a fair generator, sample read from the results, decoded by PyMatching or Fusion Blossom) gives a wrong logical result with probability at most 32 rounds size^2 q^size / (1 - q), if the errors of data qubits and measurements (Pauli errors, erasures, wrong outcomes) have rates at most q^2/200 (q^2/72 for the repetition code). Below the rate 1/200 the probability of failure goes to zero with the size of the code.", "quantifier": "all sizes of planar, toric, rotated, XZZX and repetition codes, numbers of rounds, dictionaries of errors, sets of logical operators, and fair generators", "why_tests_cant": "The statement joins five parts of the code (generator of circuits, simulator, reading of samples, decoding graph, decoder) and holds for all sizes; tests estimate rates of failure of small codes.", "anchors": ["src/plaquette/circuit/generator.py:generate_qec_circuit", "src/plaquette/device/_circuitsim.py:CircuitSimulator", "src/plaquette/decoders/interfaces.py:PyMatchingDecoder", "src/plaquette/decoders/interfaces.py:FusionBlossomDecoder"]}
{"id": "C93", "title": "Whole experiments have a threshold also if gates fail", "statement": "The same as C92 where also the gates of the stabiliser measurements fail (one- and two-qubit errors after gates): the bound holds for rates at most x^20 with 14400 x <= q^2 (x^6 with 1008 x <= q^2 for the repetition code). So there is a positive rate below which the probability of failure goes to zero with the size of the code.", "quantifier": "all sizes of planar, toric, rotated, XZZX and repetition codes, numbers of rounds, dictionaries of errors of qubits and gates, sets of logical operators, and fair generators", "why_tests_cant": "An error of a gate spreads through the circuit to several qubits and outcomes; that this never makes failures likely on large codes is not visible in single runs.", "anchors": ["src/plaquette/circuit/generator.py:generate_qec_circuit", "src/plaquette/device/_circuitsim.py:CircuitSimulator", "src/plaquette/decoders/interfaces.py:PyMatchingDecoder", "src/plaquette/decoders/interfaces.py:FusionBlossomDecoder"]}
{"id": "C94", "title": "The logical error rate of an experiment is small below the threshold", "statement": "In ExperimentConfig.run (its loop over shots, with a fair generator of random numbers), sets of shots fail with at most the product of the single bounds of C92 and C93: the shots are independent in that sense. So the expected logical error rate that is returned is at most 32 rounds size^2 q^size / (1 - q), the probability that m or more of N shots fail is at most binomial(N, m) times the m-th power of this, and both go to zero with the size of the code below the threshold.", "quantifier": "all sizes of planar, toric, rotated and XZZX codes, numbers of rounds and shots, dictionaries of errors of qubits and gates, and fair generators", "why_tests_cant": "The shots share the simulator and the stream of random numbers; that nothing is carried over that makes failures of later shots more likely is a statement about all runs.", "anchors": ["src/plaquette/frontend/__init__.py:ExperimentConfig.run", "src/plaquette/device/_circuitsim.py:CircuitSimulator", "src/plaquette/decoders/interfaces.py:PyMatchingDecoder", "src/plaquette/decoders/interfaces.py:FusionBlossomDecoder"]}
{"id": "C95", "title": "The results of the Clifford simulator have the distribution of quantum mechanics", "statement": "If each answer of the random generator has exactly the probability that is asked for, whatever the answers before were, then the probability that a run of CircuitSimulator ends with given measurement results and erasure flags is the probability that Born's rule gives for the circuit: every instruction is a list of weighted operators on states (unitaries, projections, Pauli channels, erasures, chains of conditional errors), the circuit is their composition, and the probability is the trace of what the operators with this record make of the all-zero density matrix. Almost every run succeeds.", "quantifier": "all numbers of qubits, all circuits of executable instructions and chains of conditional errors whose probabilities are distributions, all records, all exact generators, all states before the reset and all events of the past", "why_tests_cant": "Tests compare frequencies of a few circuits with expected values within statistical error; equality of the distributions for all circuits needs a proof.", "anchors": ["src/plaquette/device/_circuitsim.py:CircuitSimulator.run", "src/plaquette/device/_circuitsim.py:CircuitSimulator._handle_gate", "src/plaquette/device/_circuitsim.py:CircuitSimulator._handle_error", "src/plaquette/pauli.py:measure", "src/plaquette/device/__init__.py:Device"]}
{"id": "C96", "title": "The translation to Stim keeps the distribution of the results", "statement": "For every circuit with an instrument that circuit_to_stim translates, the Stim circuit is valid, and the probability of a measurement record of the Stim circuit is the probability that Born's rule gives for the circuit itself and the two parts of the record (measurement results, erasure flags) told apart by meas_is_erasure; so the results of StimSimulator and of CircuitSimulator have the same distribution. Erasures are heralded by an ancilla and a chain of four correlated errors.", "quantifier": "all numbers of qubits, all circuits of executable instructions and conditional Pauli errors, all real probabilities in [0, 1], all records", "why_tests_cant": "Tests compare a few sampled frequencies of the two simulators; equality of the distributions for all circuits needs a proof.", "anchors": ["src/plaquette/device/_stimsim.py:circuit_to_stim", "src/plaquette/device/_stimsim.py:_append_equiprobable", "src/plaquette/device/_stimsim.py:StimSimulator.process_results"]}
{"id": "C97", "title": "Equality of codes compares the stabilisers and logical operators", "statement": "Two codes are equal (StabilizerCode.__eq__) if and only if they have the same stabilisers and logical operators, as the documentation says; in particular equality is transitive.", "quantifier": "all pairs of codes", "why_tests_cant": "Tests compare a code with copies of itself and with codes of another family; codes of which one has more operators than the other are not compared.", "anchors": ["src/plaquette/codes/__init__.py:StabilizerCode.__eq__"]}
{"id": "C98", "title": "Fabrication errors are applied or refused with NoLogicalOperatorError", "statement": "On the lattices of the planar, toric, rotated (also XZZX), repetition and Shor code of every size, after any number of earlier fabrication errors, a data qubit is removed if and only if every logical operator at it can be multiplied by a stabiliser at the qubit with the same letter; otherwise NoLogicalOperatorError is raised. No assertion in the code fails, exactly the named data qubits disappear and all logical operators stay, for every documented value of keep_gauge and boundary_join.", "quantifier": "all sizes, all sequences of fabrication errors, all references to qubits, gates and stabilisers", "why_tests_cant": "Tests remove a few qubits of small lattices; which removals succeed after arbitrarily many earlier removals is out of reach of tests.", "anchors": ["src/plaquette/codes/latticebase.py:CodeLattice.remove_dataqubit", "src/plaquette/codes/latticebase.py:CodeLattice.apply_fabrication_errors", "src/plaquette/codes/latticebase.py:CodeLattice._handle_dataqubit_edgegroups"]}
{"id": "C53", "title": "Codes made from operators have these operators", "statement": "LatticeCode.from_operators accepts every valid code (stabilisers and logical operators in binary form) and returns a code with exactly these stabilisers and logical operators; the generated circuit of such a code exists, and without errors there are no events.", "quantifier": "all valid codes on any number of qubits, with any number of logical operators and any signs", "why_tests_cant": "Tests make one or two small codes from operators; which operators are accepted, and whether the result is the same code, concerns all codes.", "anchors": ["src/plaquette/codes/__init__.py:LatticeCode.from_operators", "src/plaquette/codes/latticebase.py:CodeLatticeFromStab"]}
{"id": "C99", "title": "States given by stabilisers only", "statement": "string_to_state without destabilisers returns, for every list of n independent commuting signed Pauli strings on n qubits, a valid tableau whose stabilisers are these operators.", "quantifier": "all lists of n commuting independent signed Pauli strings on n qubits, every numerically accurate pseudo-inverse and every conversion to unsigned bytes which truncates", "why_tests_cant": "Tests use two or three small states; whether the pseudo-inverse over the reals gives destabilisers over GF(2) depends on the stabilisers.", "anchors": ["src/plaquette/pauli.py:string_to_state"]}
{"id": "C100", "title": "States written as strings are read back unchanged", "statement": "string_to_state applied to the strings of state_to_stabiliser_string (with destabilisers) gives back the state; without destabilisers the strings are the stabilisers, one for each qubit.", "quantifier": "all valid tableaus on any number of qubits", "why_tests_cant": "Tests convert a handful of states; the round trip concerns all states, phases and the letter Y.", "anchors": ["src/plaquette/pauli.py:state_to_stabiliser_string", "src/plaquette/pauli.py:string_to_state"]}
{"id": "C101", "title": "Resetting qubits to an eigenstate given as text", "statement": "reset_qubits_to_eigenstate with basis '+P', '-P' or 'P' (P = X, Y, Z) leaves every named qubit in the eigenstate of P with the sign given, for every state and every outcome of the measurements; all other bases are refused.", "quantifier": "all valid tableaus on any number of qubits, all lists of qubits, all outcomes, all strings as basis", "why_tests_cant": "Tests reset a few qubits of fixed states; the outcome of the measurement is random, and the sign matters for one outcome only.", "anchors": ["src/plaquette/pauli.py:reset_qubits_to_eigenstate", "src/plaquette/pauli.py:single_qubit_pauli_operator", "src/plaquette/device/__init__.py:QuantumState.reset_qubits_to_eigenstate"]}
{"id": "C102", "title": "Generated error probabilities are probabilities", "statement": "generate_gaussian_errors and generate_constant_errors return the number of values asked for, each between 0 and 1, for every mean between 0 and 1 and every standard deviation which is not negative, and refuse all other means.", "quantifier": "all means, standard deviations, numbers of values and values of the random number generator", "why_tests_cant": "The values are random; a test sees a few samples for one mean and one deviation.", "anchors": ["src/plaquette/errors/__init__.py:generate_gaussian_errors", "src/plaquette/errors/__init__.py:generate_constant_errors"]}
{"id": "C103", "title": "Applying an operator to a list of operators", "statement": "apply_operator multiplies every row of a state (or a single operator) with the operator given.", "quantifier": "all operators and all lists of operators on any number of qubits", "why_tests_cant": "No test calls the function; it holds for all inputs or none.", "anchors": ["src/plaquette/pauli.py:apply_operator"]}
{"id": "C104", "title": "Statistics and combined results of a syndrome graph", "statement": "The numbers returned by get_statistics add up: edges by number of vertices and by kind sum to the number of edges, the vertices of the components with edges and the trivial components together are all vertices, the edges of the components are the enabled edges with at least one vertex. combine_decoding_results puts the result for every edge of every component at the place of the edge in the graph, and all other edges are not selected.", "quantifier": "all syndrome graphs: any number of rounds, any stabilisers, any weights, with results of any values for the components", "why_tests_cant": "Tests look at a few graphs; the counts concern every graph, including those with several components or disabled edges.", "anchors": ["src/plaquette/syngraph/__init__.py:SyndromeGraph.get_statistics", "src/plaquette/syngraph/__init__.py:SyndromeGraph.combine_decoding_results"]}
{"id": "C105", "title": "Exported OpenQASM programs have the distribution of the circuit", "statement": "The text made by convert_to_openqasm is an OpenQASM 2.0 program on number_of_qubits qubits whose classical bits have, by Born's rule, the same distribution as the results of the circuit.", "quantifier": "all circuits that are exported without an error, all values of the results", "why_tests_cant": "Running an exported program needs another program; tests compare the text of a few circuits.", "anchors": ["src/plaquette/circuit/openqasm.py:convert_to_openqasm"]}
{"id": "C106", "title": "Independent sources of errors are combined correctly", "statement": "With any value of erasure_weights, the probability of a qubit edge computed by WeightComputation is the probability that the independent sources of errors on the qubit (Pauli errors, and with the flag erasures, which put a uniformly random Pauli matrix on the qubit) together put that factor (X or Z) on the qubit; the rule of _update_p_eff is right for any number of sources.", "quantifier": "all codes with consistent indices, all error data accepted by the constructor, both values of the flag; all lists of sources whose probabilities sum to 1", "why_tests_cant": "The flag is False in the class and no test sets it; the formula is only stated in the documentation.", "anchors": ["src/plaquette/syngraph/weights.py:WeightComputation"]}
{"id": "C107", "title": "Figures show the syndrome, the errors and the correction", "statement": "draw_latticedata draws exactly one kind of marker per fact: a marker for each data qubit, logical operator and stabiliser generator (toggled exactly where the syndrome bit is set) and one for each factor X or Z of the error and of the correction at the right data qubit; different markers are never at the same position, so the figure determines the syndrome and both Pauli frames; colours and hover texts of data qubits belong to the right qubit; the frames may be the operators returned by the decoders, draw_stabs=False hides the stabilisers only, and a failed call does not disturb later calls.", "quantifier": "all lattices with up-to-date indices whose vertices were added and removed in any order, all syndromes, frames, probabilities and options", "why_tests_cant": "Figures are not compared in tests.", "anchors": ["src/plaquette/visualizer/__init__.py:LatticeVisualizer"]}
{"id": "C108", "title": "Configurations can be saved", "statement": "dump_json writes a configuration to the given file without an exception, for every configuration.", "quantifier": "all configurations, contents of the file before and texts of strings", "why_tests_cant": "dump_json is not called in any test.", "anchors": ["src/plaquette/frontend/__init__.py:ExperimentConfig.dump_json"]}
{"id": "C109", "title": "Decoders can be used again", "statement": "Every call of decode of a decoder returns (or raises) what a new decoder would, whatever was decoded before and even if earlier calls raised an exception; update_weights gives a decoder the weights of its syndrome graph, as if it were made anew.", "quantifier": "all syndrome graphs, all sequences of erasures and syndromes (also of wrong shape or not decodable), both union find decoders with arbitrary remains of earlier runs in their fields, and all backends whose answers do not depend on earlier calls", "why_tests_cant": "Tests make a new decoder for each graph or compare single calls; remains of earlier runs show up only for particular sequences.", "anchors": ["src/plaquette/decoders/decoderbase.py:DecoderInterface.decode", "src/plaquette/decoders/decoderbase.py:ComponentDecoder.decode", "src/plaquette/decoders/unionfind_decoder.py:Graph.reset", "src/plaquette/decoders/unionfind_erasure.py:ErasureDecoder.decode", "src/plaquette/decoders/unionfind_interfaces.py:UnionFindBase.update_weights"]}
{"id": "C110", "title": "Thresholds of decoders with weights", "statement": "With positive weights that differ by at most a factor rho, PyMatching fails on random faults of a rate of at most (q/10)^(rho+1) ((q/6)^(rho+1) for the repetition code) with probability at most 32 rounds size^2 q^size/(1-q), so that failures become rare on large codes; the same holds for Fusion Blossom, which rounds the weights to hundredths of the largest one of a component, also with erased qubits (for rho that divide 100; otherwise with a larger exponent).", "quantifier": "all sizes of the four families of codes, all numbers of rounds, all lists of weights for the qubits and stabilisers, all distributions of faults in which k places are faulty together with probability at most p^k", "why_tests_cant": "Probabilities of this size cannot be seen by sampling, and the weights range over a continuum.", "anchors": ["src/plaquette/decoders/matching.py:PyMatchingDecoder", "src/plaquette/decoders/fusionblossom.py:FusionBlossomDecoder", "src/plaquette/syngraph/__init__.py:SyndromeGraph.set_edge_weights", "src/plaquette/decoders/decoderbase.py:DecoderInterface.decode"]}
{"id": "C111", "title": "Decoders made from error data below the threshold", "statement": "If the error data give every edge of the syndrome graph a probability whose weight (the logarithm of the odds, up to rounding) is a number, and these weights differ by at most a factor rho, then from_code makes a PyMatching or Fusion Blossom decoder, and it fails on random faults of a rate of at most (q/10)^(rho+1) ((q/6)^(rho+1) for the repetition code) with probability at most 32 rounds size^2 q^size/(1-q), even if the error data do not describe the faults. For equally likely edges rho is 1.", "quantifier": "all sizes of the four families of codes, all numbers of rounds, all error data with known keys and names, all values of weighted other than False, all functions that round the logarithm, all distributions of faults in which k places are faulty together with probability at most p^k", "why_tests_cant": "Error data range over a continuum, and failures of this probability cannot be seen by sampling.", "anchors": ["src/plaquette/decoders/decoderbase.py:DecoderInterface.from_code", "src/plaquette/syngraph/__init__.py:SyndromeGraph.set_edge_weights", "src/plaquette/decoders/matching.py:PyMatchingDecoder", "src/plaquette/decoders/fusionblossom.py:FusionBlossomDecoder"]}
{"id": "C112", "title": "Experiments with random errors and decoders made from error data", "statement": "A shot of an experiment, with a fair random generator, is decoded to a wrong result with probability at most 32 rounds size^2 q^size/(1-q) by a PyMatching or Fusion Blossom decoder that from_code made from error data with weights that differ by at most a factor rho: if only qubits and measurements have errors, for instructions of rates at most x with 10^(rho+1) 2 x <= q^(rho+1) (6 instead of 10 for the repetition code); if gates also fail, for rates at most x^20 with 10^(rho+1) 144 x <= q^(rho+1) (x^6 and 28 for the repetition code).", "quantifier": "all sizes of the four families of codes, all numbers of rounds, all error data of the experiment and of the decoder (the same or different ones), all selections of logical operators that are measured reliably, all fair generators", "why_tests_cant": "An end-to-end statement about probabilities that are too small to be sampled, over a continuum of error rates.", "anchors": ["src/plaquette/decoders/decoderbase.py:DecoderInterface.from_code", "src/plaquette/decoders/decoderbase.py:check_success", "src/plaquette/circuit/generator.py:generate_qec_circuit", "src/plaquette/device/__init__.py:MeasurementSample.from_code_and_raw_results", "src/plaquette/device/_circuitsim.py:CircuitSimulator.run"]}
{"id": "C113", "title": "Errors in circuits have the rates of the error data", "statement": "Every error instruction of a generated circuit belongs to an entry of the error data: it is the instruction of the kind of error, acts on the qubits of the entry (ancilla and data qubit for controlled gates), and its probability is the sum of the values of the entry, missing parameters being 0. A circuit is generated for all error data whose entries fit the code and are numbers (those of measurements between 0 and 1) and all selections of commuting logical operators. Other probabilities above 1 are accepted.", "quantifier": "all codes, all dictionaries of qubit and gate errors, all selections of operators, with and without logical ancilla, all number types", "why_tests_cant": "Error data are dictionaries over eight kinds and arbitrary keys; tests check a few generated circuits.", "anchors": ["src/plaquette/circuit/generator.py:QECCircuitGenerator.apply_dataqubit_errors", "src/plaquette/circuit/generator.py:QECCircuitGenerator.apply_gate_error", "src/plaquette/circuit/generator.py:QECCircuitGenerator.get_gate_error", "src/plaquette/circuit/generator.py:QECCircuitGenerator.apply_measurement_error", "src/plaquette/circuit/generator.py:generate_qec_circuit", "src/plaquette/errors/__init__.py:ErrorData.check_against_code"]}
{"id": "C114", "title": "Logical error rates of experiments with decoders made from error data", "statement": "On planar, toric and rotated codes, the shots of an experiment whose decoder was made by from_code from error data with weights that differ by at most a factor, and whose circuit was generated from error data with small probabilities, fail independently with small probability: the expected logical error rate, and the probability that many shots fail, are bounded, with explicit constants. Below a threshold the rates go to zero with the size of the code.", "quantifier": "all sizes and numbers of rounds and shots, all error data with bounded probabilities and weights, PyMatching and Fusion Blossom, all random number generators with fair draws", "why_tests_cant": "Expectations over all shots of all experiments cannot be tested; tests simulate single experiments.", "anchors": ["src/plaquette/frontend/__init__.py:ExperimentConfig.run", "src/plaquette/decoders/decoderbase.py:DecoderInterface.from_code", "src/plaquette/circuit/generator.py:generate_qec_circuit"]}
{"id": "C115", "title": "From a configuration to the logical error rate", "statement": "A configuration with constant probabilities of errors of qubits and measurements, for a planar, toric or rotated code and a matching decoder (with or without weights), is built without exceptions, and the shots of the experiment that was built fail independently with a small probability that is given by the numbers in the configuration. If a decoder with weights is built, the configuration has no errors of gates: these are refused.", "quantifier": "all configurations of these kinds, all sizes, rounds, probabilities, numbers of shots, all fair random number generators", "why_tests_cant": "The chain from the dictionary of the user to the rate goes through error data, circuit generation, simulation and decoding; tests check the parts for single configurations.", "anchors": ["src/plaquette/frontend/__init__.py:ExperimentConfig.build", "src/plaquette/frontend/__init__.py:ErrorsConfig.instantiate", "src/plaquette/frontend/__init__.py:CircuitConfig.instantiate", "src/plaquette/frontend/__init__.py:DecoderConfig.instantiate", "src/plaquette/frontend/__init__.py:ExperimentConfig.run", "src/plaquette/decoders/decoderbase.py:DecoderInterface.from_code"]}
{"id": "C116", "title": "The seed determines the logical error rate", "statement": "Building an experiment and measuring its logical error rate twice, in two processes with the same configuration, files and seed, gives the same rate, whatever objects were built before and in whatever order python goes through its sets of strings. This fails: the probabilities of gaussian errors are drawn from a generator without seed, and the rate can be 0 in one run and 1 in the other. It holds when no enabled channel is gaussian; then code, circuit, device and decoder are equal as well.", "quantifier": "all configurations, environments (files, draws without seed, orders of sets), random number generators, previously built objects", "why_tests_cant": "Orders of sets change between processes and draws without seed between runs; a test in one process sees a single order, and a difference is seen only by accident.", "anchors": ["src/plaquette/frontend/__init__.py:ExperimentConfig.update_rng", "src/plaquette/frontend/__init__.py:ExperimentConfig.build", "src/plaquette/frontend/__init__.py:ExperimentConfig.run", "src/plaquette/errors/__init__.py:assimilate_qubit_errors", "src/plaquette/errors/__init__.py:assimilate_gate_errors"]}
{"id": "C117", "title": "The experiment follows its configuration", "statement": "An ExperimentConfig object may be changed and built in parts, with exceptions caught. Claims: after calls without exceptions the rate is that of the configuration; a call that raises does not change the rate. Both fail: changes after build have no effect until the parts are built again, and a build that raises leaves the new circuit together with the old decoder. What holds: after any history the objects that a table of dependencies gives as current are those of the configuration; after a build without exception, or after repeating the methods that depend on a changed section, the rate is that of a new object.", "quantifier": "all configurations, all finite sequences of changes, partial builds and builds, all environments and generators", "why_tests_cant": "The state depends on the whole history of calls; tests call build once on a new object.", "anchors": ["src/plaquette/frontend/__init__.py:ExperimentConfig.build", "src/plaquette/frontend/__init__.py:ExperimentConfig.build_code", "src/plaquette/frontend/__init__.py:ExperimentConfig.build_errors", "src/plaquette/frontend/__init__.py:ExperimentConfig.build_circuit", "src/plaquette/frontend/__init__.py:ExperimentConfig.build_device", "src/plaquette/frontend/__init__.py:ExperimentConfig.build_decoder", "src/plaquette/frontend/__init__.py:CodeConfig.update", "src/plaquette/frontend/__init__.py:DecoderConfig.update", "src/plaquette/frontend/__init__.py:ExperimentConfig.run"]}
{"id": "C118", "title": "Experiments with Stim and with the Clifford simulator agree", "statement": "An experiment run with the Stim simulator returns every logical error rate with the same probability as with the Clifford simulator, if Stim's sampler is faithful to the translated circuit and the generator of the Clifford simulator is exact. Generated circuits with probabilities are translated, and their translation has a meaning. So shots with Stim also fail independently with the probabilities of C94 and C114.", "quantifier": "all experiments, circuits with instruments, batch sizes, samplers; all planar, toric and rotated codes with all error data below the bounds", "why_tests_cant": "A statement about distributions of sequences of shots, in batches; tests compare a few frequencies.", "anchors": ["src/plaquette/device/_stimsim.py:StimSimulator.run", "src/plaquette/device/_stimsim.py:circuit_to_stim", "src/plaquette/frontend/__init__.py:ExperimentConfig.run", "src/plaquette/device/__init__.py:Device.run"]}
{"id": "C119", "title": "The logical error rate is of high order in the error rates", "statement": "If a generated circuit has M error instructions of rates at most x, shots fail independently with probability at most (M choose k) x^k, where k is the size of the code divided by 3 (union find) or 2 (matching), rounded up; if gates fail too, divided by 60 and 40. This holds for the Clifford simulator and for Stim, for planar, toric and rotated codes, and for single shots of the repetition code.", "quantifier": "all sizes and numbers of rounds, all error data, all rates, all numbers of shots, all matching solvers", "why_tests_cant": "Rates this small are not visible in any feasible number of shots; the order in x is a statement about all x.", "anchors": ["src/plaquette/frontend/__init__.py:ExperimentConfig.run", "src/plaquette/decoders/interfaces.py:UnionFindDecoder", "src/plaquette/decoders/interfaces.py:FusionBlossomDecoder", "src/plaquette/decoders/interfaces.py:PyMatchingDecoder", "src/plaquette/circuit/generator.py:generate_qec_circuit", "src/plaquette/device/_circuitsim.py:CircuitSimulator.run"]}
{"id": "C120", "title": "No decoder corrects more than half of the distance", "statement": "If every data qubit has each of the errors X, Y and Z with probability at least y, and each of the M error instructions of the generated circuit strikes with probability at most z, then a shot fails with probability at least y^k (1 - z)^M, where k is half of the size of the code, rounded up, whatever function of the erased qubits and the syndrome the decoder is. Sets of shots of an experiment succeed with at most the power of one minus this bound, and the expected logical error rate is at least this bound, with both simulators. With C119 the order of the failure probability for matching is exactly k.", "quantifier": "all decoders, all sizes and numbers of rounds, all error data of data qubits and measurements, all rates and numbers of shots", "why_tests_cant": "A lower bound for every decoder cannot be tested by running the decoders there are.", "anchors": ["src/plaquette/frontend/__init__.py:ExperimentConfig.run", "src/plaquette/decoders/decoderbase.py:check_success", "src/plaquette/circuit/generator.py:generate_qec_circuit", "src/plaquette/device/_circuitsim.py:CircuitSimulator.run", "src/plaquette/device/_stimsim.py:StimSimulator.run"]}
{"id": "C121", "title": "The switches of union find", "statement": "With split edges, chosen growth increments, both or none, the union find decoder gives an explanation of the syndrome whenever there is one and raises an AssertionError otherwise. With chosen growth increments the weights decide how the edges grow. The normalisation coefficient is a number that is not negative, and decoding ends for each coefficient that is accepted.", "quantifier": "all decoding graphs, erasures, syndromes, weights, coefficients and values of the two switches", "why_tests_cant": "No class of the project turns the switches on, so no test reaches the code; that the weights do not matter is a statement about all weights, and that decoding does not end cannot be observed.", "anchors": ["src/plaquette/decoders/unionfind_decoder.py:UnionFindNoWeights.choose_growth_increment", "src/plaquette/decoders/unionfind_decoder.py:UnionFindNoWeights.normalization_coefficient", "src/plaquette/decoders/unionfind_decoder.py:Graph.set_vertices_split_edges", "src/plaquette/decoders/unionfind_decoder.py:Graph.get_complete_edges", "src/plaquette/decoders/unionfind_decoder.py:UnionFind"]}
{"id": "C122", "title": "Only the ratios of weights matter to union find", "statement": "Multiplying all weights by a positive number does not change the correction of the union find decoder, and weights that are all equal give the correction without weights.", "quantifier": "all decoding graphs, weights, erasures and syndromes", "why_tests_cant": "Equality of corrections for all graphs and syndromes; tests compare a few corrections with expected ones, with weights or without.", "anchors": ["src/plaquette/decoders/unionfind_decoder.py:UnionFindNoWeights.set_weights", "src/plaquette/decoders/unionfind_decoder.py:UnionFind", "src/plaquette/decoders/unionfind_decoder.py:UnionFindNoWeights.step"]}
{"id": "C123", "title": "Circuits of codes with fabrication errors are quiet without errors", "statement": "Without errors of qubits and gates, the circuit generated for a code with fabrication errors (default handling) gives neither syndrome events nor logical toggles when the logical operators are measured with ancillas.", "quantifier": "all lattices made by the constructors, all sequences of fabrication errors, numbers of rounds, selections and random draws", "why_tests_cant": "Needs the generated circuits of all fabricated lattices and all random outcomes; no test applies fabrication errors to a lattice and runs its circuit.", "anchors": ["src/plaquette/circuit/generator.py:generate_qec_circuit", "src/plaquette/circuit/generator.py:QECCircuitGenerator.measure_stabgens_pl", "src/plaquette/codes/latticebase.py:CodeLattice.create_superstab", "src/plaquette/codes/latticebase.py:CodeLattice.apply_fabrication_errors"]}
{"id": "C124", "title": "Codes with fabrication errors can be decoded", "statement": "Whatever data qubits of a planar, toric, rotated, XZZX, repetition or Shor code are removed, with any treatment of gauge operators and of the boundary: an error X or Z on one qubit flips at most two stabilisers, so the code has a syndrome graph for every number of rounds, and all decoders answer the syndrome of every set of faults with a correction that fits the stabilisers.", "quantifier": "all sizes, sequences of fabrication errors, treatments of gauge operators and boundaries, numbers of rounds, faults, erasures and backends", "why_tests_cant": "An invariant (at most two stabilisers per letter and qubit) over all sequences of merges and truncations; the tests of fabrication errors never build a syndrome graph or decode.", "anchors": ["src/plaquette/codes/latticebase.py:CodeLattice.apply_fabrication_errors", "src/plaquette/codes/latticebase.py:CodeLattice.create_superstab", "src/plaquette/syngraph/__init__.py", "src/plaquette/decoders/interfaces.py:UnionFindDecoder", "src/plaquette/decoders/interfaces.py:PyMatchingDecoder", "src/plaquette/decoders/interfaces.py:FusionBlossomDecoder"]}
{"id": "C125", "title": "A removed data qubit lowers the distance by at most one", "statement": "Whatever fabrication errors are applied to a planar, toric, rotated, XZZX, repetition or Shor code, with any treatment of gauge operators and of the boundary: every undetected error of the new code that acts on its logical operators comes from such an error of the old code that in addition acts at most on the removed qubits. So each removed data qubit lowers the distance by at most one, and a planar, toric or rotated code of size d without k data qubits has at least the distance d - k.", "quantifier": "all sizes, sequences of fabrication errors, treatments of gauge operators and boundaries, and all errors of the new code", "why_tests_cant": "A statement about all errors of codes of all sizes after all sequences of merges and truncations; the tests compare a few lists of operators.", "anchors": ["src/plaquette/codes/latticebase.py:CodeLattice.apply_fabrication_errors", "src/plaquette/codes/latticebase.py:CodeLattice.remove_dataqubit", "src/plaquette/codes/latticebase.py:CodeLattice.create_superstab", "src/plaquette/codes/latticebase.py:CodeLattice.multiply_logical_with_stab"]}
{"id": "C126", "title": "Matching corrects fewer faults than half the distance, on every code", "statement": "If a code has a syndrome graph and no undetected logical error of weight less than d, then PyMatching and fusion blossom without weights undo the effect on all stabilisers and all logical operators of every set of faults (errors on data qubits in the rounds, wrong outcomes) with fewer than d/2 letters, where Y counts as two. So a planar, toric or rotated code of size d from which k data qubits were removed as fabrication errors corrects every set of fewer than (d - k)/2 letters.", "quantifier": "all codes with a syndrome graph, numbers of rounds, sets of faults, and solvers that find a lightest matching; all sequences of fabrication errors", "why_tests_cant": "A statement about all sets of faults on all codes; the tests decode a few random syndromes on a few lattices and do not decode codes with fabrication errors.", "anchors": ["src/plaquette/decoders/interfaces.py:PyMatchingDecoder", "src/plaquette/decoders/interfaces.py:FusionBlossomDecoder", "src/plaquette/decoders/decoderbase.py:check_success", "src/plaquette/codes/latticebase.py:CodeLattice.apply_fabrication_errors"]}
{"id": "C127", "title": "A circuit generator is good for one circuit, and a code needs a round", "statement": "Every circuit that a circuit generator returns can be used: the results of its measurements can be unpacked. (False: get_circuit appends to the circuit that it has returned before, so after a second call the circuits of all calls follow each other in one object and from_code_and_raw_results raises ValueError for its results, always. A code with n_rounds = 0 is accepted and has the circuit of one round, whose results can never be unpacked either. from_code_and_raw_results accepts results of exactly one length. The keys that the generator adds to the dictionaries of the caller change nothing for another generator.)", "quantifier": "all codes of the factories, error dictionaries, numbers of rounds, selections of logical operators and sequences of calls", "why_tests_cant": "The tests call get_circuit once per generator and use at least one round.", "anchors": ["src/plaquette/circuit/generator.py:QECCircuitGenerator.get_circuit", "src/plaquette/circuit/generator.py:QECCircuitGenerator.__init__", "src/plaquette/device/__init__.py:MeasurementSample.from_code_and_raw_results"]}
{"id": "C128", "title": "Which circuits can be exported to OpenQASM", "statement": "Every circuit whose gates all have a counterpart in OpenQASM can be exported. (False: Circuit.append accepts CX and CZ with an odd number of qubits, and the export then raises IndexError. A circuit can be exported if and only if every CX and CZ has an even number of arguments and, unless unsupported gates are ignored, every gate has a counterpart; the first gate that fails decides about the exception.)", "quantifier": "all circuits and both values of the flag to ignore unsupported gates", "why_tests_cant": "The tests export a few well-formed circuits.", "anchors": ["src/plaquette/circuit/openqasm.py:convert_to_openqasm", "src/plaquette/circuit/__init__.py:Circuit.append"]}
{"id": "C129", "title": "Changing a configuration", "statement": "A configuration that has been read from a dictionary, and then changed by calls of update that raise nothing, is one that the constructors of its parts accept. (False: DeviceConfig.update, CircuitConfig.update, _GateErrorMetadata.update and the update methods of the two sections of errors check nothing, so that an unknown device is refused only by build and zero shots only by a division by zero in run. True for the code, the decoder and the metadata of qubit errors, whatever the object was before. An exception does not undo the change; a change to a code without a size loses the size; a misspelt keyword is ignored.)", "quantifier": "all configurations, file systems, sets of devices and sequences of calls of update", "why_tests_cant": "The tests call update with valid values, or check single exceptions.", "anchors": ["src/plaquette/frontend/__init__.py:CodeConfig.update", "src/plaquette/frontend/__init__.py:DeviceConfig.update", "src/plaquette/frontend/__init__.py:CircuitConfig.update", "src/plaquette/frontend/__init__.py:DecoderConfig.update", "src/plaquette/frontend/__init__.py:_QubitErrorMetadata.update", "src/plaquette/frontend/__init__.py:_GateErrorMetadata.update"]}
{"id": "C130", "title": "Experiments with fabrication errors", "statement": "For every lattice with fabrication errors, the sample of a shot (syndrome, erasures and toggles) is that of the faults that the random decisions of the run caused; if the code had distance d and k data qubits were removed, and no qubit can be erased, both matching decoders judge a shot successful when the letters of the errors, the wrong outcomes and the errors together are fewer than d - k (in particular with fewer than a third of d - k faults). (The first part is false where stabilisers were joined in a lattice with time steps: without any fault there are events. Both parts hold if all edges of the stabilisers have a time step.)", "quantifier": "all codes of the package and sequences of fabrication errors on them, error dictionaries without gate errors, random streams, numbers of rounds, selections of logical operators and optimal matching solvers", "why_tests_cant": "Fabrication errors are tested without circuits, and no test decodes a code with them.", "anchors": ["src/plaquette/codes/latticebase.py:CodeLattice.apply_fabrication_errors", "src/plaquette/circuit/generator.py:generate_qec_circuit", "src/plaquette/device/_circuitsim.py:CircuitSimulator.run", "src/plaquette/device/__init__.py:MeasurementSample.from_code_and_raw_results", "src/plaquette/decoders/interfaces.py:PyMatchingDecoder", "src/plaquette/decoders/interfaces.py:FusionBlossomDecoder", "src/plaquette/decoders/decoderbase.py:check_success"]}
{"id": "C131", "title": "Order of the logical error rate with fabrication errors", "statement": "Let a code made of letters X and Z have distance d, let k data qubits be removed by fabrication errors, and let all edges of the remaining lattice be scheduled. If a generated circuit has M error instructions of rates at most x and no qubit can be erased, shots decoded by matching fail independently with probability at most (M choose m) x^m, where m is (d - k) / 3 rounded up; if gates fail too, (d - k) / (3 w (g + 1)), where stabilisers act on at most w qubits and at most g stabilisers act on a qubit.", "quantifier": "all such lattices, all fabrication errors, all numbers of rounds, all error data, all rates, all numbers of shots, all matching solvers", "why_tests_cant": "The statement ranges over all patterns of fabrication errors and all error rates; rates this small cannot be seen in a feasible number of shots.", "anchors": ["src/plaquette/codes/latticebase.py:CodeLattice.apply_fabrication_errors", "src/plaquette/frontend/__init__.py:ExperimentConfig.run", "src/plaquette/circuit/generator.py:generate_qec_circuit", "src/plaquette/device/_circuitsim.py:CircuitSimulator.run", "src/plaquette/device/_stimsim.py:StimSimulator.run", "src/plaquette/decoders/interfaces.py:PyMatchingDecoder", "src/plaquette/decoders/interfaces.py:FusionBlossomDecoder"]}
{"id": "C132", "title": "The gates of a QuantumState", "statement": "The methods cx, cz, hadamard, x, y and z of a QuantumState apply the gates to the qubits that are given, in order: as integers, in sequences, or by iterators where the annotations allow them; negative indices count from the end; indices that are out of range are refused. Sequences of calls on a new state give the state of the product of the unitaries. (The first part is false for negative indices in z, y and hadamard, which index the whole tableau with its column of signs: z(-1) erases all signs; and for iterators, which are used up by the check of the indices.)", "quantifier": "all numbers of qubits, all states, all calls and sequences of calls", "why_tests_cant": "Tests use a few small states and nonnegative indices in lists; wrong signs of a tableau are not visible without a comparison to state vectors.", "anchors": ["src/plaquette/device/__init__.py:QuantumState", "src/plaquette/pauli.py:x", "src/plaquette/pauli.py:y", "src/plaquette/pauli.py:z", "src/plaquette/pauli.py:hadamard", "src/plaquette/pauli.py:control_not_gate", "src/plaquette/pauli.py:control_phase_gate"]}
{"id": "C133", "title": "Negative qubit indices in circuits", "statement": "On the Clifford simulator a circuit with negative qubit indices, which Circuit accepts, does what the same circuit with indices from 0 on does: negative indices count from the end. (False: Z -1 takes away all signs, so that X 0, Z -1, M 0 gives 0; after H -1 a measurement can raise IndexError; M and R refuse negative indices with ValueError. True if negative indices occur in X, CX and CZ only, and for an error channel if no Y or Z is drawn for a negative index.)", "quantifier": "all numbers of qubits, all circuits of instructions on qubits, all error channels, all states of the simulator, all draws", "why_tests_cant": "Tests do not use negative indices, and the wrong result is a normal outcome without any exception.", "anchors": ["src/plaquette/device/_circuitsim.py:CircuitSimulator", "src/plaquette/device/__init__.py:QuantumState", "src/plaquette/pauli.py:single_qubit_pauli_operator"]}
{"id": "C134", "title": "Stepping through a circuit", "statement": "run of the Clifford simulator is the loop of __next__ after __iter__; after __iter__, k steps execute the first k instructions on the state as it is, in order, and StopIteration is raised exactly when all instructions have been executed, without changing the state; after reset, the circuit can be stepped through from the beginning with the results of a run (this last part is false without a new iterator: reset keeps the instruction pointer).", "quantifier": "all circuits, all states of the simulator, all draws, all sequences of calls of __iter__, __next__, reset and run", "why_tests_cant": "Tests step through one or two small circuits from the start; mixed calls are not tested.", "anchors": ["src/plaquette/device/_circuitsim.py:CircuitSimulator", "src/plaquette/device/__init__.py:Device"]}
{"id": "C135", "title": "The printed text of states", "statement": "The text of a QuantumState is its destabilisers, a line of dashes and its stabilisers, a line for each, and is read back as the state, so that two states with the same text are the same; pprint_state prints a heading and a line for each operator, and states that it prints alike, with or without identities and destabilisers, represent the same vectors.", "quantifier": "all numbers of qubits, all valid tableaux, all options", "why_tests_cant": "Tests compare the text of a few small states.", "anchors": ["src/plaquette/device/__init__.py:QuantumState", "src/plaquette/pauli.py:pprint_state", "src/plaquette/pauli.py:state_to_stabiliser_string"]}
{"id": "C136", "title": "Drawn circuits", "statement": "A circuit is drawn from the exported OpenQASM text with the header of OpenQASM 3 in place of its two header lines, with an exception just when the export has one; the program has the meaning of the exported one, so that its results have the distribution of the results of the circuit.", "quantifier": "all circuits; the distribution: all circuits of gates and measurements with a meaning", "why_tests_cant": "The drawing is made by Qiskit; tests do not look at the program that is drawn.", "anchors": ["src/plaquette/visualizer/__init__.py:CircuitVisualizer", "src/plaquette/circuit/openqasm.py:convert_to_openqasm"]}

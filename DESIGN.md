# Formal model of plaquette

Source: `/repo` (python, read as text, never run). Model and proofs: `/verif/lean` (Lean 4.33.0, Mathlib
modules imported one at a time). This file says, per property of `properties.jsonl`, what is modelled and how
it is proved, and states the trusted base. Sections "Findings" and "Modelled / not modelled" are kept current.

## Conventions

* Exceptions are values (`Except Err α` or `Option α`), loops are folds or structural recursion (or recursion on
  a fuel argument together with a proof that the fuel suffices).
* Random numbers are explicit inputs: theorems quantify over every draw.
* Every definition of the model cites file and lines of `/repo`.
* Model files: `Verif/Model/*.lean`. Independent specifications: `Verif/Spec/*.lean`. Helper lemmas:
  `Verif/Lemmas/*.lean`. Property theorems with non-vacuity examples: `Verif/Props/*.lean`.
* Where the code violates a property the negation is proved on a concrete witness (`..._counterexample`/`..._fails`) and
  the part that does hold is proved as `..._partial`.

## Plan per property

| id | model | spec and proof |
|----|-------|----------------|
| C01 | rows as bit functions; `commutator_sign` with an explicit mod-256 accumulator | matrices/operators on `(Fin n → Bool) → ℂ`; parity survives mod 256; operators commute iff 0 |
| C02, C03 | `multiply` with `_g` and `i^k` phase | operator product on vectors; C03 false for k ≥ 3 (sign), partial: bits |
| C04 | row maps of each gate | gate unitaries as functions on vectors, intertwining |
| C05 | zero_state, gates, measure, reset | symplectic invariant, induction over histories |
| C06–C10 | `measure`, `_measure_base`, `reset` branch by branch | projector, Born weight; symplectic nondegeneracy for the deterministic case |
| C11–C13 | character-list parser/printer | round-trip by induction |
| C14 | validation loop | counterexample + partial |
| C15 | `_ptrace`, `_measure_base` destructive | single target: remaining stabilisers; several targets: always raises (finding) |
| C16 | tensor_product, pad_operator | operator embedding |
| C17 | numpy insert semantics on raw lists | negation |
| C18, C19 | token level circuit parser/printer | round trip, extremal characterisation |
| C20–C22 | Clifford simulator as step function with explicit draws | induction over the circuit |
| C23 | qasm emitter | compare with specification list; R dropped (finding) |
| C24–C26 | stim translation | rational arithmetic; list refinement |
| C27, C28, C62 | generator and unpacking | images of the emitted instructions (Lemmas/Layout), cutting the results into blocks (Lemmas/Unpack); stabiliser argument |
| C29, C30, C47 | lattice constructors for every size | parity of overlaps by arithmetic case analysis |
| C31, C48 | lattice mutation | symmetric-difference algebra |
| C32–C34 | syndrome graph construction | index arithmetic, graph reachability |
| C35–C37 | erasure decoder and union-find, as state machines; growth in exact rationals | boundary operator over Bool; one invariant for the cluster forest (`UInv`), kept by each operation; the measure is how often the edges can still be grown |
| C38–C40 | decoder interface over an arbitrary backend; `check_success` | boundary of the selected edges, summed over the rounds; union find is a backend as required |
| C41, C42 | `WeightComputation`, `SyndromeGraphManager`, `from_code`; weights in any linear order, the logarithm a parameter or the real one | probability of an edge from the dictionaries by loop invariants; `ENNReal.log` for the order |
| C57, C58 | `from_code` without error data; the dictionary of the caller afterwards | counterexample by computation on the repetition code, partial |
| C43, C44, C46, C49, C63 | decision logic | iff-characterisations |
| C45 | slot order in generator and simulator | finite table lifted to all channels |
| C50 | tableau | the vector represented by a valid tableau is unique up to a factor |
| C51 | `Device.run` | counterexample for circuit builders, partial for circuits |
| C52 | parallel schedules of the planar, toric and rotated lattices | order of overlapping stabilisers, default orders |
| C53 | `fromOperators` over the lattice with one vertex per operator; operators as arrays of any number of qubits | the lattice written down in closed form (`FromOps.lat`) and shown to be what the loop makes; counterexamples by evaluation (sign, [[6,4,2]] code) |
| C54 | `boundary_join=True` | counterexample on a planar corner |
| C56 | erasures alone, on graphs and for decoding runs | nothing grows when the erased edges form correctable clusters; the frame of erased edges; counterexample by computation |
| C59 | all built-in codes, syndrome graph | degree of a qubit per letter, by geometry for the families, by computation for the small codes |
| C60 | distance (`StabCode.HasDistance`) | `size` disjoint translates of a logical operator, each of which an undetected error must meet; small codes by computation |
| C61 | faults in all rounds (`Faults`), the correction of union find without weights | false for half the distance: counterexample by computation on the repetition code of size 15. Bound: each cluster reaches over an arc, a step lengthens the arcs of the growing clusters by two half edges, each growing cluster has an error at its boundary, and an error pays for at most six half edges (`unionFind_lines`). Parallel logical operators make the vertices of the syndrome graph rows (`Lattice.Lines`, `LineSystem`); if errors and correction miss a row, they agree on the logical operator. Hence `C61_*_partial`: corrected if 3t + e < size |
| C66 | decisions of the random generator at the error instructions of a run (`Sim.events`), the faults they amount to (`Noise`) | the state after each round is an eigenstate of all stabilisers and chosen logical operators, with signs given by the errors so far (`Holds`, `After`, `noisy_rounds`); the generated circuit is cut into preparation, errors and rounds (`noisy_circuit`), the record into the sample (`noisy_sample`) |
| C67 | the same runs, union find, `check_success` | C66 with C61 and C40 |
| C68 | `Experiment.run` with the membership test on a class, the loop over the shots | the test is false for every class; the rate by induction over the shots |
| C69 | the loop over the shots with the simulator of the previous shot | C67 for each shot; counterexample by computation |
| C70, C71 | `DecoderConfig`, `as_dict`, `validate` | case distinction |
| C72, C73 | `pmSetup`, `pmDecode`, `fbSetup`, `fbDecode`: the graphs handed to the libraries; the libraries are functions that satisfy a contract | the graphs show the components edge by edge; lightest explanations of the components make a lightest one of the whole graph; rounding by arithmetic; counterexample by computation and case distinction |
| C74, C75 | `Few K`: decoders whose explanations cross at most K lines per error | the argument of C61, C67 and C69 with K = 2 instead of 3 |
| C76 | product of the probabilities of the edges | logarithm of the likelihood is a sum of weights |
| C77, C78, C79 | `ErrTable`: labelled rows, columns, rows of gate errors, enabled names | the columns as functions of name and label (`look`); dictionary of C64 for proper tables; bottom-most row by induction over the rows; counterexamples by computation |
| C80, C81 | files as tables of strings and values, `readGateCsv`, `updateFromCsv`, `fromCsv`, `saveQubits`, `saveGates` | splitting undoes joining; columns one by one; counterexamples by computation |
| C82 | frames as pairs of functions `PFrame`, steps of a run `frameSteps`, circuit without errors `noiseless` | simulation relation on tableaus: rows equal up to signs, signs of stabilisers differ by the commutation with the frame; one lemma per gate, random and determined measurements, resets; random bits of the accompanying run chosen piece by piece |
| C83 | the error instructions of a run and the matrices they applied (`Sim.trace`), counted by kind | C82 turns the run into one without errors and a frame; the frame is followed through each block of a stabiliser measurement (`block_frame`), round (`round_frame`) and circuit (`rounds_frame`): what a faulty gate leaves on the data lies in the supports of the stabilisers it belongs to, and changes only the outcomes of stabilisers that meet them (`blame_sets`) |
| C84 | the same runs, the decoders of C67 and C75 | C83 with the lines of C61 and C74 |
| C85, C86 | `from_dict` of all sections as functions from a dictionary to a dictionary and a result, since they change their argument; sections are records of optional values, a channel is a dictionary or an object | inversion lemmas for each section (`…fromDict_ok`); counterexamples by computation |
| C87 | the five parts as optional values; the makers of errors, circuits and decoders as parameters | case distinction along `build` |
| C88 | the JSON schema as a boolean function, file systems as predicates on paths | `schemaOk_iff`, and each section in turn |
| C89 | a device as an optional backend and a position in the random generator; a circuit is named by a number, as in C43 | case distinction on whether the backend is kept |
| C90 | random faults as a function on a measure space with the bound `p^k` for every set of `k` places (`LocalNoise`) | a failure gives a closed trail of edges or one between boundaries that crosses the lines of the logical operator an odd number of times (`Failure`), at least half of it faults; the trails of a length are counted (`Trail`) and their probabilities summed (`Rare`) |
| C91 | random generator as a function on a measure space with a filtration, fair if conditional on the past each draw has its probability (`FairFrom`, Spec/Random) | induction over the instructions (`struck_bound`, `struck_prod`); a fair generator is built from independent uniform draws (`fairRng`) |
| C92, C93 | a shot is the composition of the models of generator, simulator, reading and decoder; `failedShots` is the set of outcomes where the decoder is wrong | every error or wrong outcome of the sample is traced to instructions that did something (`gate_blame`, `qubitCauses`, `gateCauses`); with C91 the faults obey the bound of C90 (`local_of_blame`), then `rare_logs` |
| C94 | the loop of `run` on a random generator; `FailIndependently` collects the three bounds | conditional on the state before a shot (countably many, each event known when the shot begins) the generator is fair from there on (`fair_cond`), so C92/C93 apply to each shot (`markedFail_bound`); expectation and binomial bound follow |
| C95 | `Spec/Distribution`: `ExactFrom` (exact generator), instruments (weighted operators with records), `DenotesRun`, Born's rule | `Realises f I`: for every continuation whose conditional probability is a value of the represented vector, so is `f` followed by it, with the value summed over the branches of `I`; composition (`realises_bind`), random choices (`realises_draw`), measurements (`realises_measureLike`), then all instructions and chains |
| C96 | `Spec/StimSemantics`: meaning of the Stim instructions (unitaries, M, R, Pauli channels, chains of correlated errors with their flag) as lists of weighted operators | states with one more qubit (`lift`), `Corr I J fl`: the Stim instrument acts as the instrument of the circuit on the first qubits, whatever the ancilla and the flag are; instruction by instruction, then composition |
| C97 | `StabCode.eqv` of the model against equality of the lists of operators | counterexample by evaluation; `zipWith` of lists of the same length |
| C98 | `Spec/CssLattice`: the lattices reached by fabrication errors, `Movable` (every logical operator at the qubit shares its letter with a stabiliser there) | invariant `Css` (one letter per operator up to a change of basis of single qubits, at most two stabilisers of a letter at a qubit) kept by every step; each step shown to succeed under it |
| C99 | `stringToState'`: the pseudo-inverse is a parameter, exact up to what `Accurate` says; conversion to bytes is a parameter which truncates | the exact pseudo-inverse of the bit matrix is computed by hand for the witnesses and product states; general refusal theorem from the entries of the pseudo-inverse |
| C100, C101 | `stateToStrings`, `resetText`: characters of the strings as in the code | composition with the parser (C61) and with the reset of the simulator; witness by evaluation |
| C102 | `gaussianErrors`, `constantErrors` over the rationals, the generator of truncated normal values is a parameter | case analysis |
| C103 | `applyOperator` on arrays with one or two dimensions | case analysis |
| C104 | `SynGraph.statistics`, `SynGraph.combine` | the components partition vertices and enabled edges (from C34); induction over the components |
| C105 | `openqasm`: the characters of the text; `Spec/Qasm.lean`: tokens, statements and meaning of OpenQASM 2.0 (registers, the six gates, measure, reset) | the text is read back as the statements of the lines; the statements have the instrument of the circuit (C95), results stored in bits 0, 1, ...; resets at the beginning keep the state zero, so that dropping them is right |
| C106 | `edgeProbsFlag` (both values of `erasure_weights`); sources of errors as lists of outcomes with probabilities | the product of the sources, by induction; the loops set each entry once (as for C42) |
| C107 | `mkDf`, `mkFrameDf`, `drawFig`, `Viz.drawData`: the rows given to Plotly and the stored options; `VLists`: the order of `vertices` | loops over vertices and factors in closed form; offsets are no integers, so markers are apart and can be read back |
| C108 | `jsonDump`: the parts written by `json.dump` and the exception; `dumpJson` | by computation; plain values by induction |
| C109 | `DecState`, `UfObj`: the fields of decoders, syndrome graphs and components between calls; exceptions leave them half changed | invariant of the fields; after `reset` and `set_syndrome` the fields are those of a new object, results of edges are overwritten or were never set |
| C110 | `numberWeights`, `Alike`, `CorrectsWith`; noise as in C90 | on a failure, a closed trail that crosses all lines has one faulty edge in `rho + 1`, because exchanging it must not make the correction lighter; union bound over trails; rounded weights of Fusion Blossom lie between `100 / rho` and 100 |
| C111 | `fromCode` of C41; `DataBetween`, `LogBetween`, `RoundedLog` | the weights computed from the data are numbers that are alike, so C110 applies to the decoder that `from_code` returns |
| C112 | C92, C93 and C111 together: `failedShotsOn` for the graph and decoders that `fromCode` returns | the faults of shots are `Trials` (`ShotTrials`), weights of the data are alike, `rare_weighted_logs` for the measured operators |
| C113 | `FromEntry`: instruction, qubits and probability of an entry of the error data; `Fits`, `Numbers` for accepted data | `Gen.Walk`: what holds for the pieces a generator emits holds for the circuit, used for "every error is an entry", "no exception" and "flips have probabilities" |
| C114 | `FailIndependently` (C94) for experiments with decoders of `from_code`; hypotheses are on the error data of the decoder and of the circuit, not on circuits | shots of C112 are independent given the past; `Lattice.OddZ` for the selections "ZZ…" |
| C115 | `BuildEnv.makers` puts the models of `ErrorsConfig`, `CircuitConfig` and `DecoderConfig.instantiate` into `ExperimentConf.build` (C87); `MatchConf`, `QubitNoise`: the configurations meant | `ConstData`: the dictionaries of constant errors have an entry per qubit with the configured values; then C113 (circuit), C94 (no weights), C114 (weights) |
| C116 | `ExperimentConf.buildAndRate`: `build`, then the loop of `run` with the generator of the seed; `SameInputs`: two environments that differ in draws without seed and orders of sets | false for gaussian errors (five-qubit code, evaluated in the kernel); `SameData`: dictionaries with the same entries in another order give the same circuit and decoder |
| C117 | `Session`, `Session.call`: an object with configuration, built parts and seed, and the state after each call, also after exceptions; `outdated`, `renewed`: table of dependencies | both claims false (histories of two and four calls, evaluated in the kernel); the table is sound for every history (case distinction over calls) |
| C118 | `Experiment.stimLoop`: the loop of `run` with a Stim simulator, batch by batch; `Faithful`: the rows of Stim's sampler are independent and follow Born's rule for the Stim circuit | proved: the shots are functions of the rows (C25), the distribution of a row is that of a run of the circuit (C96), runs of the Clifford simulator have the same distribution (C95); gates of generated circuits have instruments and translations |
| C119 | bounds on the number of error instructions that strike in a run, `Kicked1` traces of C84 | proved: a failed shot needs at least k instructions that strike (C84, a fault counts at most 20 times, once without errors of gates); a fixed set of k instructions strikes with probability at most x^k (C93); union over the sets; independence of the shots as in C94, Stim through C118 |
| C120 | `Plan` (a run with prescribed decisions and a lower bound of its probability), `AnyDecoder`, `Attacked`, `FailOften` | proved: an undetected operator of weight d that changes the result is split into two halves before the first round; both runs have the same syndrome and erased qubits and different results, so the decoder fails in one of them; the probability of a run with prescribed decisions is bounded from below gate by gate; independence of shots as in C94, Stim through C118, probabilities of the circuit from the error data through a walk over the generator |
| C121 | `halfEdge`, `splitEdges`, `UGraph.stepWith`, `switchedDecode`, `setCoefficient` | partial: split graphs are decoding graphs, a set of halves explains a syndrome if and only if it consists of whole edges which do, so C35 and C36 carry over; with maximal growth one an edge is not grown at all or complete, so every chosen increment is one and the weights drop out; increments zero (coefficient infinity) leave the state unchanged |
| C122 | `ufWeights`, `unionFindDecode`; `UState.sc`, `UGraph.sc` (growth multiplied by a number) | partial: every function of union find commutes with multiplying growth values, so results are the same; the weights are divided by the least one, so a common factor drops out; the counterexample for equal weights and coefficient 2 is computed |
| C123 | `Lattice.applyFabrication`, `mkLatCode`, `generateCircuit`, `Sim.run`, `Sample.fromRaw` | partial: fabrication errors only remove edges with a time step and only add edges without one (`Edited`), so the schedule stays free of conflicts if no stabiliser edge lacks a step, and C28 applies; the counterexample is a computed run |
| C124 | `Lattice.applyFabrication`, `mkLatCode`, `mkSynGraph`, `decode` | proved: the invariant of C98 (at most two stabilisers with the same letter at a data qubit, no letter `Y`) is `TwoAt`, so C32 gives the graph; faults show explainable syndromes, C38 gives the correction, and wrong outcomes cancel in pairs |
| C125 | `Lattice.removeDataqubit`, `Lattice.handleGroups`, `Lattice.applyFabrication`, `mkLatCode` | proved: errors as functions of the position; for every group of stabilisers at the removed qubit all of them have the same commutation with the error (`Back`), so a letter at the qubit can be chosen that makes the error undetected before (`remove_back`); logical operators change by stabilisers only (`Moved`) |
| C126 | `decode`, `pmBackend`, `fbBackend`, `mkSynGraph`, `Lattice.applyFabrication` | proved: the enabled edges parallel to the edges of the faults explain the syndrome and are at most as many as letters (`rep_explain`, `rep_card`), so the correction has at most as many edges; correction times errors commutes with all stabilisers and is lighter than the distance (`residual_weight`, `light_corrected`) |
| C127 | `GenObj.calls`, `Sample.fromRaw`, `generateCircuit` | counterexample and partial: the circuit after several calls is the concatenation (`calls_make`); the slice without both ends has one length (`fromRaw_length`); zero rounds and one round give the same gates (`no_rounds_circuit`) |
| C128 | `convertToQasm`, `appendAll` | counterexample and partial: induction over the gates before the first one that fails (`loop_first`, `loop_all`) |
| C129 | `ExperimentConf.changes`, `setAttrs`, `ExperimentConf.Valid` | counterexamples and partial: case distinction over the changes; what is read is valid by the lemmas of C85 and C86 |
| C130 | `Lattice.applyFabrication`, `generateCircuit`, `Sim.run`, `Sample.fromRaw`, `decode`, `pmBackend`, `fbBackend` | counterexample and partial: the sample of C66 for every scheduled lattice, the graph of C124, the lifting of logical operators of C125 and the bound of C126 |
| C131 | as C130, with `Kicked1` traces of C84 | proved: samples of faulty gates as in C83 (which only uses that the lattice is scheduled), success as in C130, the union bound of C119, Stim through C118 |
| C132 | `GateCall.exec`, `execCalls` (python indices into the parts and into the whole tableau, changes in place, iterators) | counterexamples and partial: a call with good indices is a list of gates of C04, then C04 and C05 |
| C133 | `Sim.pyRun`: instructions with integers as the calls of C132; `Sim.runGates` for the circuit with indices from 0 on | counterexamples by computation; partial: the two models are equal, instruction by instruction. Error channels: `Sim.pyChannel`, and circuits with both: `Sim.pyRunAll` |
| C134 | `Stepper`: the simulator with its instruction pointer, `run` as the loop of `__next__`; `executed`: the instructions that calls execute | induction over the calls; runs of appended lists of instructions; counterexample by computation |
| C135 | `stateText`, `printedText`; `splitLines`: the lines of a text | no operator has a newline in its text, so that lines are found again; then C100 and C11 |
| C136 | `drawnText`; `OpenQasm3.program`: the meaning of OpenQASM 3 texts | the text is put together again from its lines; the tokens of both headers; then C105. Resets: counterexample |
| C64, C65 | configuration objects, table of errors, dictionaries; iteration orders of sets and draws are arguments | loop invariants over the columns and rows; counterexamples by computation on the repetition code |
| C55 | errors on data qubits and measurements | emitted instruction, characterised by the vector semantics |

## Findings

"proved" means that a theorem states the defect on a concrete witness. "read" means found while reading the source, without
a theorem.

| where | what | status |
|-------|------|--------|
| pauli.py multiply | for three or more operators the sign is counted twice | proved, C03 |
| pauli.py measure | IndexError for the operators +I and -I | proved, C09 |
| pauli.py reset | reset to a Y eigenstate is not corrected after outcome 1 | proved, C10 |
| pauli.py text forms | identity strings and dictionaries raise ValueError | proved, C11, C13 |
| pauli.py string_to_pauli | unknown characters are silently the identity | proved, C12 |
| pauli.py string_to_state | invalid sets are accepted: the branch `elif j > i` is unreachable | proved, C14 |
| pauli.py destructive measurement | always raises for two or more targets | proved, C15 |
| pauli.py append_qubit | never returns a valid state | proved, C17 |
| circuit | an integer probability in a nested channel is counted as a qubit | proved, C19 |
| openqasm | resets are dropped silently | proved, C23 |
| openqasm | an odd number of CX arguments gives IndexError | proved, C128 |
| stim back end | process_results raises TypeError if nothing was recorded | proved, C26 |
| device | Device.run with a builder recreates the back end, so a fixed stim_seed repeats the same sample | proved, C51 |
| generator | without a logical ancilla H before M is not undone: the toggle of a logical X is random | proved, C28 |
| generator | without ancillas the weight of the first logical operator is used for all of them: the logical Z of the repetition code gives ValueError | proved, C27 |
| generator | erasure parameters for some of the data qubits only: from_code_and_raw_results raises ValueError | proved, C62 |
| generator | n_rounds = 0 still measures two rounds of stabilisers, which from_code_and_raw_results cannot unpack | proved, C127 |
| generator | the dictionaries of the caller are mutated by setdefault; get_circuit twice appends twice | proved, C127 |
| codes | the code object is not updated after fabrication errors | proved, C48 |
| codes | boundary_join=True at a planar corner gives stabilisers that do not commute | proved, C54 |
| codes | edges made by create_superstab have no time step and are skipped by the parallel schedule: the circuit of a planar, rotated or toric code with joined stabilisers measures other operators, which do not commute, and has syndrome events without errors | proved, C123 |
| errors | an integer key for CX/CZ raises TypeError, so the integer fallback of get_gate_error is unreachable after the check | proved (example at C46) |
| decoders | the erasure decoder returns a wrong correction without an error for an odd cluster without dangling edge | proved, C35 |
| decoders | union find with weights that are all zero raises `ValueError` (minimum of an empty array) | proved, C37 |
| decoders | union find: the comment that edges of weight zero are complete already does not hold for `UnionFind`; such an edge has an infinite increment and is complete once it is grown | read |
| decoders | union find grows in floats: for extreme ratios of weights an increment may be absorbed by rounding, and growth never ends. The theorems are for exact arithmetic | read |
| decoders | `split_edges` and `choose_growth_increment` of union find are never called | read |
| decoders | with `choose_growth_increment_enabled` the correction does not depend on the weights: the increment is a part of the growth, all edges have the maximal growth 1, so that a cluster completes all its edges in one step | proved, C121 |
| decoders | with `split_edges` the weights of the graph (one for each edge) are refused, as the graph of union find has twice as many edges | proved, C121 |
| decoders | `normalization_coefficient` accepts infinity, for which union find does not end (and NaN, for which no edge is ever complete either) | proved, C121 (NaN: read) |
| syngraph | the erasure of a qubit whose edge was disabled as a duplicate is lost: on the rotated planar code of size 3 two erasures lead to a logical error | proved, C56 |
| union find | all clusters with the smallest boundary grow in the same step, so that errors below half the distance may fail: on the repetition code of size 15 flips of the qubits 1, 3, 4, 7, 10, 11, 13 are answered with flips of the other eight qubits (the only failing pattern of at most seven flips in the model for odd and even lengths up to 15, by a search outside the proofs) | proved, C61 |
| decoders | from_code(..., weights=w) always raises ValueError | proved, C41 |
| decoders | from_code(code, None) makes a weighted decoder, contrary to the documentation, and disables all measurement edges | proved, C57 |
| decoders | from_code changes the dictionary of the caller: a circuit made from it afterwards has other errors | proved, C58 |
| decoders | UnionFindNoWeights.from_code raises ValueError unless weighted=False | proved, C41 |
| weights | the edge of an error with probability 1 is disabled, like that of an impossible error | proved, C42 |
| weights | probabilities are not checked: a sum above 1 gives the weight nan | proved, C42 (C42_nan) |
| weights | the probabilities of parallel edges are not combined; only the lightest edge is kept | proved, C33 |
| weights | gate errors in the error data: ValueError | proved, C115 (C115_gates) |
| frontend | CodeConfig accepts size 0 and rounds 0 | proved, C49 |
| frontend | the number of rounds is not checked for the Shor and five-qubit codes | proved, C49 (C49_accepts_partial) |
| frontend | the induced error II is accepted: `difference("II")` removes the characters, not the string | proved, C63 |
| frontend | a misspelt distribution of gate errors is accepted as a string and gives no errors | proved, C63 |
| frontend | fewer distributions than induced errors are accepted, and simulated_errors then raises IndexError | proved, C63 |
| frontend | parameters of qubit errors without a distribution are accepted and ignored | proved, C63 (C63_noname) |
| errors | of two channels of one gate only the last row is kept by gate_errors_dict | proved, C64 |
| errors | gaussian errors of CX and CZ: the name is split into letters, KeyError | proved, C64 |
| errors | with all sampling switched off there are X, Y, Z errors with probability 0.1 (0.01 in the documentation) | proved, C65 |
| errors | Gaussian probabilities are drawn from a generator without seed: the same configuration and seed give different logical error rates | proved, C116 |
| errors | Gaussian probabilities are not cut off at 0 and 1 | proved, C64 (C64_gaussian) |
| frontend | GateErrorsConfig.from_dict drops `fabrication` | proved, C86 |
| frontend | from_dict changes the dictionary of the caller, so that a second call raises AttributeError | proved, C85 |
| frontend | the schema checks nothing in the sections of errors: `items` says nothing about objects | proved, C88 |
| frontend | the schema does not ask for the size of the code, which is then refused by CodeConfig | proved, C88 |
| device | given a builder of circuits, Device.run makes a new simulator each time, so that `after_reset=False` loses the earlier results | proved, C89 |
| decoders | fusionblossom.py rounds weights down to hundredths of the largest weight of the component, so that small weights become 0 | proved, C73 |
| decoders | fusionblossom.py divides 0 by 0 if all weights of a component are 0 | read |
| errors | add_qubit_error cuts lists of unequal length without a complaint | proved, C77 |
| errors | a number that is no qubit enlarges the table, and the dictionary then raises KeyError | proved, C77 |
| errors | update_qubit_error accepts the names qubit_id and qubit_type | read |
| errors | add_gate_error accepts unknown gates, which then have no errors | proved, C79 |
| errors | ErrorData.update raises ValueError for every dataframe (truth value), and has a misspelt attribute `colums` | proved, C80 |
| errors | update_from_csv does not enable new columns | proved, C80 |
| errors | update_from_csv with overwrite numbers the rows anew, so that qubits get the errors of others | proved, C80 |
| errors | a saved file of gate errors cannot be read again | proved, C81 |
| device | circuit_to_stim translates DEPOLARIZE to an instruction `DEPOLARIZE(1.0)`. Stim has no instruction of this name (only DEPOLARIZE1 and DEPOLARIZE2, and DEPOLARIZE1 accepts probabilities up to 3/4), so circuits with DEPOLARIZE do not run on the Stim backend. | proved, C96 |
| codes | StabilizerCode.__eq__ compares with zip: codes with different numbers of operators can be equal, and equality is not transitive | proved, C97 |
| codes | no data qubit of the repetition code can be removed by fabrication errors (NoLogicalOperatorError) | proved, C98 |
| codes | fabrication errors cannot be applied to the five-qubit code: removing any data qubit raises AssertionError, since the code assumes CSS stabilisers | proved, C98 |
| codes | with keep_gauge half, removing a data qubit that no operator acts on raises IndexError | proved, C98 |
| codes | LatticeCode.from_operators drops the signs: the code of -ZZ becomes that of +ZZ | proved, C53 |
| codes | LatticeCode.from_operators raises IndexError for codes with more stabilisers or logical operators than data qubits, such as the [[6,4,2]] code | proved, C53 |
| codes | LatticeCode.from_operators refuses stabilisers equal to the identity | proved, C53 |
| pauli | string_to_state without destabilisers refuses the Bell state and the eigenstates of Y: entries 1/2 of the pseudo-inverse are truncated to 0 | proved, C99 |
| pauli | string_to_state without destabilisers can return bytes other than 0 and 1 (entries -1 of the pseudo-inverse) | proved, C99 |
| pauli | reset_qubits_to_eigenstate with "+X" does not correct the state when the outcome is -1 | proved, C101 |
| device | QuantumState.reset_qubits_to_eigenstate accepts "XZ" and "Y" and then does not reset the qubits | proved, C101 |
| errors | generate_gaussian_errors divides by zero for standard deviation 0 | proved, C102 |
| pauli | apply_operator never returns: arrays as operator raise TypeError, everything else AttributeError | proved, C103 |
| circuit | exported programs of circuits with resets, such as all generated circuits, have other results than the circuit | proved, C105 |
| visualizer | draw_latticedata is annotated to take the operator returned by a decoder, but raises AssertionError unless it is in a list (also in examples/quickstart.py) | proved, C107 |
| visualizer | draw_stabs=False also hides the markers of the logical operators | proved, C107 |
| visualizer | an edge Y raises KeyError, after which every grey figure raises AssertionError | proved, C107 |
| frontend | ExperimentConfig.dump_json raises TypeError for every configuration, after the file was emptied | proved, C108 |
| decoders | UnionFindBase.update_weights passes NaN as weights if the graph has none: NaN increments or ValueError | proved, C109 |
| circuit | generate_qec_circuit accepts "probabilities" above 1 for Pauli errors, erasures and gate errors; only those of measurements are checked | proved, C113 (C113_counterexample) |
| frontend | A configuration with errors of gates cannot be used with a decoder with weights: the errors of gates are passed to the decoder, which raises ValueError for kinds it does not know | proved, C115 (C115_gates) |
| frontend | Changes of the configuration after build are not seen by run, except shots, logical_op and qec_property, which are read again: the rate is that of no configuration | proved, C117 |
| frontend | A build that raises an exception keeps the objects made before the exception: new circuit, old decoder | proved, C117 |
| decoders | union find with equal weights gives other corrections than without weights: with the coefficient 2 an edge grows in quarters, and an edge that is half grown and between two growing clusters is complete half a step earlier | proved, C122 |
| frontend | ExperimentConfig.run looks up a class in a set of names and always returns None; no shot is run | proved, C68 |
| frontend | the default logical operator X is measured without ancilla, which gives random failures without errors | proved, C69 |
| frontend | DecoderConfig: `weighted` is True by default in the class, False in from_dict; so `DecoderConfig(name="UnionFindNoWeights")` cannot be built | proved, C70 |
| frontend | a refused DecoderConfig.update leaves the wrong name | proved, C70 |
| frontend | ExperimentConfig.as_dict and validate always raise AttributeError | proved, C71 |
| frontend | dump_json raises TypeError | proved, C108 |
| frontend | the property `device` looks at the circuit; from_dict without `general` leaves None, and build raises TypeError | proved, C87 |
| frontend | DeviceConfig.update and _GateErrorMetadata.update do not check again | proved, C129 |
| frontend | `GateErrorsConfig()` samples errors and reads the file by default, `from_dict({})` does neither | proved, C86 |
| frontend | an update that raises leaves the invalid values in the object; a change to a code without a size loses the size | proved, C129 |
| states | z(state, -1) erases all signs of the tableau, z(state, -2) acts like X on the last qubit; hadamard with a negative index exchanges the wrong columns and can leave an invalid tableau; x, cx and cz count negative indices from the end. Circuit.append accepts such instructions | proved, C132 |
| states | x, y and z with an iterator do nothing: the check of the indices uses it up | proved, C132 |
| states | hadamard with an index that is too large raises after the gates before it have been applied to the state | proved, C132 |
| simulator | circuits may have negative indices: X 0, Z -1, M 0 measures 0; M and R refuse negative indices; after H -1 a measurement can raise IndexError; a Z drawn by E_PAULI for the index -1 takes away all signs | proved, C133 |
| simulator | reset keeps the instruction pointer: stepping goes on in the middle of the circuit on the new state, and after a run nothing is executed | proved, C134 |
| device | a device cannot be stepped through before its first run (AttributeError), and afterwards stepping begins on the state that the run has left | proved, C134 |
| visualizer | resets are missing in drawn circuits, as the export drops them | proved, C136 |
| frontend | with zero shots run raises ZeroDivisionError (the rates of the model are for at least one shot) | read |

## Modelled / not modelled

* Modelled: `pauli.py` (the pseudo-inverse of string_to_state is a parameter), `circuit` (language, OpenQASM, generator), `device`
  (Clifford simulator, Stim translation, unpacking of samples), `codes` (lattices, code objects, fabrication errors),
  the check of error dictionaries in `errors`.
* Modelled as well: `syngraph` (graph, weights of edges, components), the erasure decoder, union find (edges with two equal ends excepted), `decoderbase.py` and the union find interfaces.
* Modelled as well: `syngraph/weights.py` without erasure weights (`erasure_weights=True` cannot be reached from `from_code`).
* Modelled as well: the configuration of codes, qubit errors, gate errors, devices and decoders and the running of experiments in `frontend`, and the tables of errors
  made from it in `errors` (from_lattice, assimilate_*, the dictionaries). A row of the table is found by the index of the
  qubit; the code uses the row number, which is the same for lattices with up to date indices.
* Modelled as well: the reading of whole configurations and the building of experiments. Parsing of TOML and JSON and the writing of such files are not modelled.
* Not modelled: the drawing libraries (`visualizer` is modelled up to what is given to Plotly), `CircuitVisualizer`, the samplers inside the Stim library, third-party matching libraries.
* Negative lattice coordinates (size 0) and error dictionary keys that are neither integers nor tuples are not modelled.

## Trusted base

* Lean's kernel; axioms `propext`, `Classical.choice`, `Quot.sound` only.
* The reading of the python source (numpy semantics as noted at each definition).
* Floats are modelled as rationals/reals (no rounding, no NaN) unless stated.
* The libraries PyMatching and Fusion Blossom (C72–C76): they are assumed to satisfy the contracts `IsPyMatching` and
  `IsFusionBlossom` of `Spec/Matching.lean`: a matching of minimal weight is returned if there is one. (PyMatching itself
  rounds weights to multiples of a small fraction of the largest, which the contract does not show.) Solvers that satisfy the
  contracts exist (`exists_pyMatching`, `exists_fusionBlossom`).
* The meaning of Stim instructions (`Spec/StimSemantics.lean`, C96) and of OpenQASM programs (`Spec/Qasm.lean`, `Spec/CircuitDrawing.lean`, C105, C136)
  is written from their documentation.
* Random numbers: numpy's generator is an explicit stream of answers; where probabilities are claimed (C24, C91 to C96, C105)
  the stream is assumed to be fair or exact (`FairFrom`, `ExactFrom`).
* The pseudo-inverse of numpy and the conversion of floats to bytes (C99): `Accurate` and `Truncates` of `Spec/StringState.lean`.

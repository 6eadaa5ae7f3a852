{"id": "C01", "title": "STARK proof survives serialization", "statement": "Deserializing the bytes produced by serializing a proof gives back exactly the same proof, field by field.", "quantifier": "every proof whose lengths fit in 64 bits and whose FRI decommitments carry at least one evaluation", "why_tests_cant": "Proofs have unbounded numbers of roots, queries, openings and path lengths; tests sample a few shapes.", "anchors": ["src/starks/proof/stark.rs: StarkProof::serialize, StarkProof::deserialize", "src/starks/utils.rs: serialize_proof, deserialize_proof"]}
{"id": "C02", "title": "Public inputs survive serialization", "statement": "Deserializing the serialization of Cairo public inputs gives back the same registers, range-check bounds, memory segments, public memory, and step count.", "quantifier": "every public input value whose counters fit in 64 bits", "why_tests_cant": "Maps of arbitrary size and optional fields in any combination.", "anchors": ["src/cairo/air.rs: PublicInputs::serialize, PublicInputs::deserialize"]}
{"id": "C03", "title": "Out-of-domain frame survives serialization", "statement": "Deserializing the serialization of an evaluation frame gives back the same rows and row width.", "quantifier": "every frame with 64-bit lengths", "why_tests_cant": "Any number of columns and rows.", "anchors": ["src/starks/frame.rs: Frame::serialize, Frame::deserialize"]}
{"id": "C04", "title": "FRI decommitment survives serialization", "statement": "Deserializing the serialization of a FRI decommitment gives back the same authentication paths, symmetric evaluations and evaluations.", "quantifier": "every decommitment with at least one evaluation and 64-bit lengths", "why_tests_cant": "Any number of layers and path lengths; the empty boundary case.", "anchors": ["src/starks/fri/fri_decommit.rs: FriDecommitment::serialize, deserialize"]}
{"id": "C05", "title": "DEEP openings survive serialization", "statement": "Deserializing the serialization of the openings of one query gives back the same composition and trace openings.", "quantifier": "every opening with 64-bit lengths", "why_tests_cant": "Any number of trace columns, trace trees and path lengths.", "anchors": ["src/starks/proof/stark.rs: DeepPolynomialOpenings::serialize, deserialize"]}
{"id": "C06", "title": "Parsing proof bytes never panics", "statement": "Deserializing any byte string as a proof returns a proof or an error; it never panics.", "quantifier": "every byte string", "why_tests_cant": "The input is attacker-controlled and unbounded; fuzzing samples it.", "anchors": ["src/starks/proof/stark.rs: StarkProof::deserialize", "src/starks/frame.rs: Frame::deserialize", "src/starks/fri/fri_decommit.rs: FriDecommitment::deserialize", "src/starks/utils.rs: deserialize_proof"]}
{"id": "C07", "title": "Parsing public-input bytes never panics", "statement": "Deserializing any byte string as public inputs returns public inputs or an error; it never panics.", "quantifier": "every byte string", "why_tests_cant": "The input is attacker-controlled and unbounded.", "anchors": ["src/cairo/air.rs: PublicInputs::deserialize"]}
{"id": "C08", "title": "Proof file written by `prove` is read back by `verify`", "statement": "The file the command line writes for a proof and its public inputs is parsed by the verify command into the same proof and public inputs; a file shorter than its declared length is rejected.", "quantifier": "every proof and public input, every file content", "why_tests_cant": "The container mixes two variable-length encodings.", "anchors": ["src/main.rs: main (prove and verify commands)"]}
{"id": "C09", "title": "Proof encoding is unambiguous", "statement": "Two byte strings accepted as proofs that decode to the same proof are equal (no malleability), and two different proofs never have the same encoding.", "quantifier": "every pair of byte strings and every pair of proofs", "why_tests_cant": "Needs all pairs of inputs.", "anchors": ["src/starks/proof/stark.rs: StarkProof::serialize, StarkProof::deserialize"]}
{"id": "C10", "title": "Register trace import is exact", "statement": "Importing a binary register trace yields one register state per 24-byte row, in order, with ap, fp, pc read little-endian; it is the inverse of the trace writer; lengths that are not a multiple of 24 are rejected.", "quantifier": "every byte string and every list of 64-bit register triples", "why_tests_cant": "Arbitrary trace lengths.", "anchors": ["src/cairo/register_states.rs: RegisterStates::from_bytes_le", "src/cairo/runner/vec_writer.rs: write_encoded_trace"]}
{"id": "C11", "title": "Memory import is exact", "statement": "Importing a binary memory dump maps each address to the value of its last row, contains no other address, rejects lengths that are not a multiple of 40, and inverts the memory writer.", "quantifier": "every byte string and every relocated memory", "why_tests_cant": "Arbitrary lengths, repeated addresses.", "anchors": ["src/cairo/cairo_mem.rs: CairoMemory::from_bytes_le", "src/cairo/runner/vec_writer.rs: write_encoded_memory"]}
{"id": "C12", "title": "Instruction flag decoding follows the Cairo encoding", "statement": "Decoding an instruction word succeeds exactly when every multi-bit flag group has at most one bit set, and then yields the registers, op1 source, result logic and updates the Cairo encoding assigns to those bits.", "quantifier": "every field element used as an instruction word", "why_tests_cant": "2^63 flag/offset combinations and arbitrary high bits.", "anchors": ["src/cairo/decode/instruction_flags.rs: CairoInstructionFlags::try_from and the per-field TryFrom impls"]}
{"id": "C13", "title": "Instruction offset decoding is the biased 16-bit encoding", "statement": "Each decoded offset lies in [-2^15, 2^15) and equals the corresponding 16-bit field of the word minus 2^15; re-biasing it returns the field.", "quantifier": "every instruction word", "why_tests_cant": "Full 48-bit offset space.", "anchors": ["src/cairo/decode/instruction_offsets.rs: InstructionOffsets::new, decode_offset, to_trace_representation"]}
{"id": "C14", "title": "The trace columns of an instruction re-assemble to the instruction word", "statement": "For a decodable instruction word, the 16 flag columns are bits that follow the word's flag bits and flags plus biased offsets re-assemble to the word, so the instruction-packing constraint holds.", "quantifier": "every decodable instruction word below 2^63", "why_tests_cant": "All words.", "anchors": ["src/cairo/decode/instruction_flags.rs: to_trace_representation", "src/cairo/air.rs: compute_instr_constraints"]}
{"id": "C15", "title": "A trace row holds the operands Cairo semantics assigns", "statement": "For every step the row's dst, op0, op1, res and their addresses equal the ones the Cairo machine semantics defines from the registers and memory.", "quantifier": "every register state, memory and decodable instruction whose accesses are defined", "why_tests_cant": "All flag combinations, memories and register values.", "anchors": ["src/cairo/execution_trace.rs: compute_dst, compute_op0, compute_op1, compute_res, build_cairo_execution_trace"]}
{"id": "C16", "title": "Consecutive rows of an honest run satisfy all instruction constraints", "statement": "For every two consecutive states related by one Cairo step, the rows built by the prover satisfy every instruction, operand, register and opcode constraint of the AIR.", "quantifier": "every memory, register state and valid Cairo step", "why_tests_cant": "All instructions and operands.", "anchors": ["src/cairo/air.rs: compute_instr_constraints, compute_operand_constraints, compute_register_constraints, compute_opcode_constraints", "src/cairo/execution_trace.rs: build_cairo_execution_trace"]}
{"id": "C17", "title": "Range-check padding makes the offsets contiguous", "statement": "The values added to the offset columns are exactly the missing values between the smallest and largest offset (plus repeats of the largest), so the padded columns take every value between the reported minimum and maximum and no other.", "quantifier": "every set of offset columns", "why_tests_cant": "Arbitrary gaps and lengths.", "anchors": ["src/cairo/execution_trace.rs: get_rc_holes, fill_rc_holes"]}
{"id": "C18", "title": "Memory padding makes the accessed addresses contiguous", "statement": "After adding the missing addresses, the addresses accessed by the trace together with the public memory form a contiguous interval.", "quantifier": "every sorted address list and code length", "why_tests_cant": "Arbitrary access patterns; the output builtin.", "anchors": ["src/cairo/execution_trace.rs: get_memory_holes, fill_memory_holes"]}
{"id": "C19", "title": "Public memory is placed in the trace without loss", "statement": "The dummy accesses reserved for the public memory, once replaced, contain exactly the public memory cells and the other accesses of the trace are unchanged.", "quantifier": "every trace and public memory", "why_tests_cant": "Arbitrary public memory size.", "anchors": ["src/cairo/execution_trace.rs: add_pub_memory_dummy_accesses", "src/cairo/air.rs: add_pub_memory_in_public_input_section, get_pub_memory_addrs"]}
{"id": "C20", "title": "The main trace is rectangular and has power-of-two length", "statement": "The main trace built for any run has all columns of the same length and that length is a power of two not smaller than the number of steps.", "quantifier": "every run", "why_tests_cant": "All lengths.", "anchors": ["src/cairo/execution_trace.rs: build_main_trace, pad_with_last_row, pad_with_last_row_and_zeros"]}
{"id": "C21", "title": "Range-check builtin decomposition is exact", "statement": "The eight limb columns of a range-check builtin row are 16-bit values and re-assemble to the low 128 bits of the cell value, so the builtin constraint holds exactly when the value is below 2^128.", "quantifier": "every builtin value", "why_tests_cant": "2^252 values.", "anchors": ["src/cairo/execution_trace.rs: decompose_rc_values_into_trace_columns", "src/cairo/air.rs: range_check_builtin"]}
{"id": "C22", "title": "Sorted auxiliary columns are sorted permutations", "statement": "The auxiliary memory columns contain the same (address, value) pairs as the accesses with public memory substituted, ordered by address; the auxiliary range-check columns contain the same offsets in increasing order.", "quantifier": "every main trace and public memory", "why_tests_cant": "Arbitrary multisets with repetitions.", "anchors": ["src/cairo/air.rs: CairoAIR::build_auxiliary_trace, sort_columns_by_memory_address"]}
{"id": "C23", "title": "Permutation-argument columns satisfy their constraints", "statement": "For honest columns the memory and range-check running products satisfy every permutation constraint and end at the value the boundary constraints demand, for every challenge that avoids a zero denominator.", "quantifier": "every trace, public memory and challenges", "why_tests_cant": "All challenges and lengths.", "anchors": ["src/cairo/air.rs: generate_memory_permutation_argument_column, generate_range_check_permutation_argument_column, permutation_argument, permutation_argument_range_check, boundary_constraints"]}
{"id": "C24", "title": "Honest Cairo traces pass trace validation", "statement": "The main and auxiliary trace the prover builds for a valid Cairo run satisfies all boundary and transition constraints of the Cairo AIR.", "quantifier": "every valid run and challenges", "why_tests_cant": "All programs.", "anchors": ["src/cairo/air.rs: CairoAIR", "src/cairo/execution_trace.rs: build_main_trace", "src/starks/debug.rs: validate_trace"]}
{"id": "C25", "title": "Two rows satisfying the constraints are one Cairo step", "statement": "If two consecutive rows satisfy all instruction constraints with an active selector, the decoded instruction word takes the machine from the first row's registers to the second row's according to Cairo semantics.", "quantifier": "every pair of rows", "why_tests_cant": "All field values.", "anchors": ["src/cairo/air.rs: compute_transition and its helpers"]}
{"id": "C26", "title": "Execution constraints apply to every step", "statement": "The AIR forces the operand, register and opcode constraints at every executed step.", "quantifier": "every trace accepted by the AIR", "why_tests_cant": "All traces, including adversarial selector columns.", "anchors": ["src/cairo/air.rs: enforce_selector, boundary_constraints"]}
{"id": "C27", "title": "Memory is read-only and contiguous", "statement": "In a trace satisfying the memory constraints, the sorted accesses never give two values to one address and their addresses increase by at most one.", "quantifier": "every trace of every length", "why_tests_cant": "Induction over the trace length.", "anchors": ["src/cairo/air.rs: memory_is_increasing"]}
{"id": "C28", "title": "Memory permutation argument is sound", "statement": "If the memory permutation constraints hold for more challenges than the degree bound, the sorted accesses are a permutation of the accesses with the public memory in place of the dummy accesses.", "quantifier": "every trace, public memory and challenge set", "why_tests_cant": "All challenges.", "anchors": ["src/cairo/air.rs: permutation_argument, boundary_constraints"]}
{"id": "C29", "title": "Memory permutation column is anchored", "statement": "The first value of the memory running product is forced by the AIR to be the first accumulator factor, so the product constraint really compares the whole trace.", "quantifier": "every accepted trace", "why_tests_cant": "Adversarial auxiliary columns.", "anchors": ["src/cairo/air.rs: boundary_constraints, permutation_argument"]}
{"id": "C30", "title": "Offsets are range-checked", "statement": "If the range-check constraints hold, every offset cell lies between the public range_check_min and range_check_max, hence is a 16-bit value.", "quantifier": "every trace and challenges", "why_tests_cant": "All traces.", "anchors": ["src/cairo/air.rs: permutation_argument_range_check, boundary_constraints"]}
{"id": "C31", "title": "Range-check builtin values are bounded", "statement": "A trace accepted by the AIR with the range-check builtin only contains builtin values below 2^128.", "quantifier": "every accepted trace", "why_tests_cant": "Adversarial limbs.", "anchors": ["src/cairo/air.rs: range_check_builtin"]}
{"id": "C32", "title": "Boundary constraints pin the claimed initial and final state", "statement": "Accepted traces start at the public initial pc and ap, end the execution at the public final pc and ap, and start with fp equal to ap.", "quantifier": "every accepted trace", "why_tests_cant": "All traces.", "anchors": ["src/cairo/air.rs: boundary_constraints"]}
{"id": "C33", "title": "Trace table rows and columns agree", "statement": "Row, column, cell, sub-table and concatenation accessors of a trace table agree with one another and with the columns the table was built from.", "quantifier": "every table and index", "why_tests_cant": "Arbitrary shapes.", "anchors": ["src/starks/trace.rs: TraceTable"]}
{"id": "C34", "title": "Evaluation frames read the right rows", "statement": "A frame read at step i with given offsets contains exactly the rows i+offset, wrapping at the domain end, for both the trace and its low-degree extension.", "quantifier": "every table, step, blowup and offset list", "why_tests_cant": "All indices incl. wrap-around.", "anchors": ["src/starks/frame.rs: Frame::read_from_trace"]}
{"id": "C35", "title": "Trace validation decides constraint satisfaction", "statement": "validate_trace returns true exactly when every boundary constraint holds and every transition constraint vanishes on every row outside its exemptions.", "quantifier": "every AIR and trace", "why_tests_cant": "All AIRs and traces.", "anchors": ["src/starks/debug.rs: validate_trace"]}
{"id": "C36", "title": "Boundary polynomials encode the boundary constraints", "statement": "The zerofier of a column vanishes exactly at the constrained steps and the interpolated values equal the constrained values, so column minus interpolant is divisible by the zerofier exactly when the boundary constraints of the column hold.", "quantifier": "every set of boundary constraints", "why_tests_cant": "All constraint sets.", "anchors": ["src/starks/constraints/boundary.rs"]}
{"id": "C37", "title": "Prover and verifier use the same transition exemptions", "statement": "The exemption factors the prover evaluates on the extended domain and those the verifier evaluates at the out-of-domain point are evaluations of the same polynomials, which vanish exactly on the exempted last rows.", "quantifier": "every AIR, trace length and point", "why_tests_cant": "All lengths and exemption counts.", "anchors": ["src/starks/traits.rs: transition_exemptions, transition_exemptions_verifier", "src/starks/constraints/evaluator.rs: evaluate_transition_exemptions"]}
{"id": "C38", "title": "The constraint evaluator computes the composition polynomial", "statement": "On every point of the extended domain the evaluator's output is the value of the composition polynomial; for a satisfying trace that polynomial exists and is below the declared degree bound.", "quantifier": "every satisfying trace, challenges and domain", "why_tests_cant": "All traces and sizes.", "anchors": ["src/starks/constraints/evaluator.rs: ConstraintEvaluator::evaluate", "src/starks/constraints/evaluation_table.rs"]}
{"id": "C39", "title": "The out-of-domain check accepts honest evaluations", "statement": "For an honest prover the verifier's consistency check between the trace frame and the composition evaluations succeeds.", "quantifier": "every satisfying trace, challenges and out-of-domain point", "why_tests_cant": "All z.", "anchors": ["src/starks/verifier.rs: step_2_verify_claimed_composition_polynomial", "src/starks/prover.rs: round_3_evaluate_polynomials_in_out_of_domain_element"]}
{"id": "C40", "title": "The out-of-domain check rejects unsatisfying traces except at few points", "statement": "For fixed committed trace and composition polynomials and fixed challenges, if the check passes at more points than the degree bound then the combined constraints hold on the whole trace domain.", "quantifier": "every polynomials, challenges and point sets", "why_tests_cant": "Quantifies over sets of points.", "anchors": ["src/starks/verifier.rs: step_2_verify_claimed_composition_polynomial"]}
{"id": "C41", "title": "FRI folding halves the degree and commutes with evaluation", "statement": "Folding a polynomial of degree below 2n gives one of degree below n whose value at x^2 is the random combination of the even and odd parts, computable from the values at x and -x.", "quantifier": "every polynomial, challenge and point", "why_tests_cant": "All polynomials.", "anchors": ["src/starks/fri/fri_functions.rs: fold_polynomial", "src/starks/verifier.rs: verify_query_and_sym_openings"]}
{"id": "C42", "title": "FRI queries answered honestly are accepted", "statement": "For an honest FRI commitment each query answer is accepted by the verifier.", "quantifier": "every polynomial, challenge list and query index", "why_tests_cant": "All layers and indices.", "anchors": ["src/starks/fri/mod.rs: fri_commit_phase, fri_query_phase", "src/starks/verifier.rs: verify_query_and_sym_openings"]}
{"id": "C43", "title": "The DEEP evaluation the verifier reconstructs is the prover's", "statement": "The value the verifier reconstructs from the openings equals the prover's DEEP composition polynomial at the queried point.", "quantifier": "every trace, composition, challenges and query", "why_tests_cant": "All polynomials.", "anchors": ["src/starks/prover.rs: compute_deep_composition_poly", "src/starks/verifier.rs: reconstruct_deep_composition_poly_evaluation"]}
{"id": "C44", "title": "Honest proofs verify", "statement": "A proof produced by the prover for a trace that satisfies the AIR is accepted by the verifier with the same options and public inputs.", "quantifier": "every AIR, satisfying trace and options", "why_tests_cant": "All traces.", "anchors": ["src/starks/prover.rs: prove", "src/starks/verifier.rs: verify"]}
{"id": "C45", "title": "Acceptance implies every documented check", "statement": "If the verifier accepts, the query count is the configured one, the grinding target is met, the out-of-domain identity holds, and for every query the FRI and opening checks hold.", "quantifier": "every proof", "why_tests_cant": "Adversarial proofs.", "anchors": ["src/starks/verifier.rs: verify"]}
{"id": "C46", "title": "No proof of a false statement is accepted by construction alone", "statement": "The verifier never accepts a proof assembled without any trace satisfying the AIR, other than by breaking the hash function or guessing challenges.", "quantifier": "every proof and public input", "why_tests_cant": "Adversarial proofs.", "anchors": ["src/starks/verifier.rs: verify, step_3_verify_fri, step_4_verify_deep_composition_polynomial"]}
{"id": "C47", "title": "Challenges are bound to the public inputs", "statement": "Changing the public inputs changes the transcript, so that a proof's challenges depend on the statement proved.", "quantifier": "every pair of public inputs", "why_tests_cant": "All inputs.", "anchors": ["src/starks/prover.rs: prove", "src/starks/verifier.rs: step_1_replay_rounds_and_recover_challenges"]}
{"id": "C48", "title": "Trace openings are authenticated", "statement": "If the verifier accepts, the opened trace values are the committed ones: every trace Merkle path verifies against the trace roots.", "quantifier": "every proof", "why_tests_cant": "Adversarial openings.", "anchors": ["src/starks/verifier.rs: step_4_verify_deep_composition_polynomial"]}
{"id": "C49", "title": "Prover and verifier derive the same challenges", "statement": "Replaying an honest proof the verifier recovers exactly the challenges the prover used, including query indices.", "quantifier": "every honest execution", "why_tests_cant": "All transcripts.", "anchors": ["src/starks/prover.rs: prove", "src/starks/verifier.rs: step_1_replay_rounds_and_recover_challenges"]}
{"id": "C50", "title": "Challenge derivation is unbiased within its range", "statement": "Mapping transcript bytes to a field element keeps the low bits unchanged: the result is the big-endian integer with the top bits masked, always smaller than the modulus, and equal only for inputs equal on the kept bits.", "quantifier": "every 32-byte digest", "why_tests_cant": "2^256 digests.", "anchors": ["src/starks/transcript.rs: randomness_to_field, transcript_to_field"]}
{"id": "C51", "title": "The out-of-domain point is outside the domains", "statement": "The sampled point is never in the trace domain nor in the extended domain.", "quantifier": "every transcript and domain", "why_tests_cant": "All transcripts.", "anchors": ["src/starks/transcript.rs: sample_z_ood"]}
{"id": "C52", "title": "Grinding returns the smallest valid nonce and the verifier accepts it", "statement": "The nonce search returns the first 64-bit nonce whose digest meets the target, and the verifier's check accepts exactly nonces meeting it.", "quantifier": "every digest, hash and factor", "why_tests_cant": "2^64 nonces.", "anchors": ["src/starks/grinding.rs: generate_nonce_with_grinding, hash_transcript_with_int_and_get_leading_zeros"]}
{"id": "C53", "title": "Checked proof options reach the requested security", "statement": "Options accepted by the checked constructors have at least the requested number of security bits and the preset options pass the matching check.", "quantifier": "every option value and security target", "why_tests_cant": "All parameter combinations incl. overflow.", "anchors": ["src/starks/proof/options.rs: ProofOptions"]}
{"id": "C54", "title": "Example AIRs characterise their sequences", "statement": "A trace satisfies the Fibonacci (one and two column) and quadratic example AIRs exactly when it is the corresponding sequence from the public start values, and the trace generators produce such traces.", "quantifier": "every length, start values and trace", "why_tests_cant": "All lengths.", "anchors": ["src/starks/example/simple_fibonacci.rs", "src/starks/example/fibonacci_2_columns.rs", "src/starks/example/quadratic_air.rs"]}
{"id": "C55", "title": "Verification never panics", "statement": "The verifier returns true or false on every decoded proof and public input.", "quantifier": "every proof and public input", "why_tests_cant": "Adversarial proofs.", "anchors": ["src/starks/verifier.rs: verify", "src/cairo/air.rs: boundary_constraints"]}
{"id": "C56", "title": "Fibonacci RAP example accepts its honest traces", "statement": "The trace and auxiliary column of the Fibonacci RAP example satisfy its constraints for every challenge, and a trace satisfying them is a permutation of its first column.", "quantifier": "every length and challenge", "why_tests_cant": "All lengths.", "anchors": ["src/starks/example/fibonacci_rap.rs"]}
{"id": "C57", "title": "Results do not depend on parallel scheduling", "statement": "Building with the parallel feature, the computed low-degree extensions, constraint evaluations and proof do not depend on how the work is scheduled.", "quantifier": "every schedule", "why_tests_cant": "Schedules cannot be enumerated by tests.", "anchors": ["src/starks/constraints/evaluator.rs: evaluate (parallel)", "src/starks/prover.rs: round_1, round_4 (parallel)"]}
{"id": "C58", "title": "The prover's arguments come from the virtual machine's run", "statement": "Running a program hands the prover exactly the virtual machine's relocated trace, the defined cells of its relocated memory, the program length and the used range of the range-check segment, although trace and memory pass through their byte encodings; failures of the virtual machine are returned as errors; the segment map holds exactly the given segments. The arguments depend on one run only: that of the program with its version and the layout of that version (small for version 0, plain for version 1).", "quantifier": "every program, version and result of the virtual machine whose numbers fit in 64 bits", "why_tests_cant": "All runs and memories, including holes and builtin segments.", "anchors": ["src/cairo/runner/run.rs: run_program, generate_prover_args, create_memory_segment_map"]}
{"id": "C59", "title": "A file written by prove is accepted by verify", "statement": "If the command prove wrote a file for an honest run of the virtual machine, it wrote it to the output path and the command verify on this file reports success; and prove writes a file for every honest run whose challenges meet no zero denominator, if a nonce exists. The version is that of the file name; failures to read, run or write are reported as such, and nothing but the output path is written.", "quantifier": "every program, honest run, file system, argument list, transcript and hash function", "why_tests_cant": "End to end over every run and every file.", "anchors": ["src/main.rs: main, generate_proof, verify_proof"]}
{"id": "C60", "title": "prove_and_verify agrees with prove followed by verify", "statement": "If prove wrote a file, then verify on that file ends like prove_and_verify on the program, whether the run was honest or not.", "quantifier": "every program and result of the virtual machine", "why_tests_cant": "Equality of two executions for every input.", "anchors": ["src/main.rs: main"]}
{"id": "C61", "title": "verify accepts only files of genuine runs", "statement": "The command verify reports success only for files whose public inputs are those of a run of the Cairo machine. It gives a verdict only for files that can be read and decoded, and reports the other ones as such.", "quantifier": "every file", "why_tests_cant": "Adversarial files cannot be enumerated.", "anchors": ["src/main.rs: main, verify_proof", "src/cairo/air.rs: verify_cairo_proof"]}
{"id": "C62", "title": "Shape and size of generated proofs", "statement": "A generated proof has one opening and one query answer per FRI query, one root per tree and FRI layer, authentication paths of the height of their trees, and an encoded size that depends only on the trace length, blowup factor, columns, offsets and number of queries.", "quantifier": "every trace, options and constraints the prover accepts", "why_tests_cant": "All trace lengths and options.", "anchors": ["src/starks/prover.rs: prove", "src/starks/fri/mod.rs: fri_commit_phase, fri_query_phase", "src/starks/proof/stark.rs: StarkProof::serialize"]}
{"id": "C63", "title": "Public inputs describe the run", "statement": "The public inputs given to the prover for a run hold its first and last registers, its length, its segments, the least and greatest instruction offset, and as public memory exactly the cells of the program and of the output segment; they are obtained exactly when the trace is not empty and these cells exist; and the file written by prove carries them.", "quantifier": "every run of the Cairo machine, program size and segments", "why_tests_cant": "All runs and memories.", "anchors": ["src/cairo/air.rs: PublicInputs::from_regs_and_mem", "src/cairo/execution_trace.rs: build_main_trace, set_rc_permutation_column", "src/main.rs"]}
{"id": "C64", "title": "Results do not depend on hash map iteration order", "statement": "Public inputs (and memories) with the same content give the same trace, the same proof and the same verdict, also through files, whatever order their hash maps iterate in.", "quantifier": "every pair of public inputs and memories with the same content, every proof, trace and option", "why_tests_cant": "The iteration order of the hash maps is randomised per process and cannot be chosen by a test.", "anchors": ["src/cairo/air.rs: boundary_constraints, PublicInputs::serialize, add_pub_memory_in_public_input_section", "src/cairo/execution_trace.rs: build_main_trace"]}
{"id": "C65", "title": "Accepted traces only exist for true claims", "statement": "If the Cairo AIR accepts traces for given public inputs and for almost all values of the challenges, then the claim made by the public inputs is true: there is a read-only memory that contains the public memory and in which the Cairo machine goes, in the claimed number of steps, from the claimed first pc, ap and fp to the claimed last pc and ap.", "quantifier": "all public inputs, all trace lengths, all families of traces indexed by challenges, all memories and register sequences", "why_tests_cant": "tests exhibit traces of true claims; that no trace exists for a false claim ranges over all traces and all challenges, and depends on algebra (polynomial identities over the whole field) and on the semantics of the machine at once", "anchors": ["/repo/src/cairo/air.rs: CairoAIR::boundary_constraints, compute_transition, build_auxiliary_trace", "/repo/src/cairo/air.rs: PublicInputs"]}
{"id": "C66", "title": "Opened values are the committed ones", "statement": "Whatever proof is presented, a value that the verifier accepts as opened at an index of a committed table is the value at that index of the table, unless the opening exhibits a collision of the hash function.", "quantifier": "all hash functions, all committed tables, all roots, indices, paths and values, all accepted proofs", "why_tests_cant": "tests open honest trees; binding is about every alternative path and value an adversary could send, and about every hash function", "anchors": ["/repo/src/starks/verifier.rs: step_4_verify_deep_composition_polynomial, verify_query_and_sym_openings", "/repo/src/starks/config.rs: FriMerkleTreeBackend, BatchedMerkleTreeBackend", "/repo/src/starks/fri/fri_decommit.rs"]}
{"id": "C67", "title": "Accepted FRI answers mean closeness to a low-degree polynomial", "statement": "If the values claimed for the first FRI layer differ from every polynomial of degree below the trace length at more than R points of the extended domain, then however the prover commits to the layers and the last value, more than R of the possible queries are rejected, except for an explicitly bounded number of challenges in each round (R + 1 for R up to a third of the distance, and more for R up to the part 1 - 1/cuberoot(blowup) of the points); and every query of an accepted proof is checked against the committed layers.", "quantifier": "all fields, domain sizes and blowup factors, all committed words, all adaptive choices of layers and last value, all challenges and queries, all accepted proofs of honest shape", "why_tests_cant": "tests run honest provers; soundness is about every strategy of a cheating prover and counts challenges over the whole field", "anchors": ["/repo/src/starks/verifier.rs: step_3_verify_fri, verify_query_and_sym_openings", "/repo/src/starks/fri/mod.rs: fri_commit_phase, fri_query_phase", "/repo/src/starks/fri/fri_functions.rs: fold_polynomial"]}
{"id": "C68", "title": "Accepted proofs mean that the committed columns are close to a trace that satisfies the AIR", "statement": "If no polynomials that agree with the committed trace columns at all but R points of the extended domain have values on the trace domain that satisfy the AIR, then however the prover continues after committing to the columns (composition polynomial, claimed out-of-domain values, FRI layers), the probability over the draws of the verifier that its checks pass is bounded by an explicit sum of the number of exceptional draws over the size of the field and of the probability that the queries miss R+1 points; and an accepted proof whose trace openings are those of the columns wins this game or exhibits a hash collision.", "quantifier": "all AIRs with polynomial constraints of the declared degrees, all fields, trace lengths and blowup factors, all committed columns, all adaptive strategies of the prover, all draws of the verifier, all accepted proofs of honest shape", "why_tests_cant": "tests run honest provers; soundness is about every strategy of a cheating prover and bounds a probability over the whole field", "anchors": ["/repo/src/starks/verifier.rs: verify, step_2_verify_claimed_composition_polynomial, step_4_verify_deep_composition_polynomial, reconstruct_deep_composition_poly_evaluation", "/repo/src/starks/verifier.rs: step_1_replay_rounds_and_recover_challenges"]}
{"id": "C69", "title": "Debug builds return the same proofs and only log", "statement": "The checks that debug builds add do not change the result: when the debug build returns a proof the release build returns the same proof, and on traces of the right shape the converse holds. The validation that the debug build logs succeeds exactly when the trace, with its auxiliary columns, satisfies the AIR. The divisibility check reports exactly the boundary polynomials that are not multiples of their zerofiers, but the prover gives it none. The assertion of debug builds that the columns of a table have one length never fires in the prover; where it would fire, the release build panics if a column is shorter than the first and otherwise leaves out what the columns have more.", "quantifier": "all inputs for the first part; all AIRs with polynomial constraints and all traces of the declared shape, satisfying or not, for the second; all lists of polynomials and non-zero zerofiers for the third; all lists of columns, and all AIRs and traces on domains whose sizes are powers of two, for the assertion", "why_tests_cant": "tests run in one build profile, on valid traces", "anchors": ["/repo/src/starks/prover.rs: prove", "/repo/src/starks/debug.rs: validate_trace, check_boundary_polys_divisibility", "/repo/src/starks/constraints/evaluator.rs: evaluate", "/repo/src/starks/trace.rs: TraceTable::new_from_cols"]}
{"id": "C70", "title": "The prover does not check the trace", "statement": "For every main trace of the declared shape whose auxiliary trace can be built, whether or not it satisfies the constraints, the prover returns a proof and does not panic. For Cairo the auxiliary trace is built exactly when the public memory fits and has a value at every address that the prover expects (those from one on, and the output range) and no denominator is zero; otherwise the prover panics.", "quantifier": "all AIRs with polynomial constraints, all traces of the declared shape, all fields with the required roots of unity", "why_tests_cant": "tests prove valid traces; an invalid trace leaves a composition polynomial of the largest degree, which takes other branches of the evaluation on the extended domain", "anchors": ["/repo/src/starks/prover.rs: prove, evaluate_polynomial_on_lde_domain, round_2_compute_composition_polynomial", "/repo/src/starks/fri/mod.rs: fri_commit_phase, fri_query_phase", "src/cairo/air.rs: build_auxiliary_trace, add_pub_memory_in_public_input_section"]}
{"id": "C71", "title": "The trace tables built column by column are the rows of the steps", "statement": "The main trace that the prover builds column by column on a flat table (with columns updated in place, pushed one after the other, padded and extended by loops) is the table whose row i holds the cells computed from the registers of step i and the memory alone, followed by the padding rows; it panics exactly when the row-by-row construction does. The same holds for the auxiliary trace, built by scanning the main table.", "quantifier": "all register traces, memories and public inputs; all main tables with the width of a main trace; all challenges", "why_tests_cant": "tests compare a few columns of short runs; an index slip in an in-place update shows only on steps with the flags that reach it", "anchors": ["/repo/src/cairo/execution_trace.rs: build_main_trace, build_cairo_execution_trace, compute_res, compute_dst, compute_op0, compute_op1, update_values, rows_to_cols, add_rc_builtin_columns, fill_rc_holes, fill_memory_holes, pad_with_last_row", "/repo/src/cairo/air.rs: build_auxiliary_trace, add_pub_memory_in_public_input_section, generate_memory_permutation_argument_column, generate_range_check_permutation_argument_column"]}
{"id": "C72", "title": "Reading runs from files, decoding all steps and writing dumps", "statement": "Importing a register trace or a memory from a file gives the I/O error when the file cannot be read, the length error when it is not made of whole rows, and otherwise exactly the rows of the file (for a memory, as many entries as there are distinct addresses); it never panics and inverts the writer. Decoding all steps of a run succeeds exactly when every step decodes and otherwise reports the error of the first that does not. The file writer counts exactly the bytes written, and its error carries the position of the chunk that failed. Layout names are distinct and those of cairo-vm.", "quantifier": "all file systems, paths and file contents; all runs; all sequences of chunks and all files that fail at any point", "why_tests_cant": "tests read a few sample files and never meet a failing write", "anchors": ["/repo/src/cairo/register_states.rs: from_file, flags_and_offsets", "/repo/src/cairo/cairo_mem.rs: from_file, len, is_empty", "/repo/src/cairo/runner/file_writer.rs: FileWriter", "/repo/src/cairo/cairo_layout.rs: as_str"]}
{"id": "C73", "title": "Provers that fix auxiliary columns after the challenges, and what acceptance says for each AIR", "statement": "In the game between the verifier and a prover that commits to main columns, then sees the random challenges and commits to auxiliary columns, and adapts to every later draw, the prover wins with probability at most an explicit small error unless the main columns decode to a trace with the property the AIR stands for: the Fibonacci numbers from the public values (one or two columns), the repeated squares, the Fibonacci numbers of the RAP example up to its last step, and for Cairo rows that start and end at the public pc and ap and in which every selected row with 16-bit offsets and a legal instruction is followed by its successor state.", "quantifier": "all fields with the roots of unity, all options and public inputs, all main columns, all functions giving auxiliary columns from the challenges, all adaptive strategies", "why_tests_cant": "soundness ranges over all dishonest provers and is a statement about probability", "anchors": ["/repo/src/starks/prover.rs: round_1_randomized_air_with_preprocessing", "/repo/src/starks/verifier.rs: step_1_replay_rounds_and_recover_challenges, step_2_verify_claimed_composition_polynomial, step_4_verify_deep_composition_polynomial", "/repo/src/starks/example/simple_fibonacci.rs: FibonacciAIR", "/repo/src/starks/example/fibonacci_2_columns.rs: Fibonacci2ColsAIR", "/repo/src/starks/example/quadratic_air.rs: QuadraticAIR", "/repo/src/starks/example/fibonacci_rap.rs: FibonacciRAP", "/repo/src/cairo/air.rs: CairoAIR"]}
{"id": "C74", "title": "Debug and release builds of the verifier agree whenever the debug build answers", "statement": "For every proof, public inputs and options with a blowup factor that is a power of two, the debug build of the verifier of Cairo proofs (subtractions that underflow panic, debug assertions are checked) and the release build (subtractions wrap around) return the same outcome, except that the debug build panics where the release build may answer, and only in these cases: the claimed number of steps is zero, the trace length is not a power of two, or the proof has more FRI layers than the extended domain can be halved plus one. In the release build a claim of zero steps has the same answer as the claim that the number of steps is the trace length, and it is accepted for some proofs.", "quantifier": "all proofs with a trace length below 2^63, all public inputs, all options with a power of two as blowup factor, all hash functions and transcripts", "why_tests_cant": "a test runs in one build mode, and the claim ranges over all proofs a prover may send, also malformed ones", "anchors": ["/repo/src/starks/verifier.rs: verify, step_2_verify_claimed_composition_polynomial, verify_query_and_sym_openings, step_4_verify_deep_composition_polynomial", "/repo/src/cairo/air.rs: CairoAIR::new, boundary_constraints, verify_cairo_proof"]}
{"id": "C75", "title": "The verdict is that of the listed checks for the challenges of the documented interaction", "statement": "Whenever the verifier answers on a proof of the shape the prover makes that has enough queries, there is an interaction on the transcript in the documented order (send the trace commitment, draw the challenges of the auxiliary trace, send the auxiliary commitment, draw the composition coefficients, send the composition commitment, draw the out-of-domain point as the first one outside both domains, send the claimed values, draw the DEEP coefficients, alternate the FRI commitments with their challenges, send the last value, draw the grinding seed, send the nonce, draw the queries), and the answer is yes exactly when: there are enough queries, the nonce has the required zeros, the claimed values satisfy the composition identity at the out-of-domain point, every query folds consistently with opened values in every layer down to the last value, and every opening of the composition polynomial is authentic and its DEEP value is the first value of the query. The prover uses the challenges of the same interaction.", "quantifier": "all AIRs of the supported form, all proofs of the prover's shape, honest or not, all hash functions, transcripts and options", "why_tests_cant": "a test compares the verdict with an expected one on a few proofs; that no check is missing, added or made with a challenge drawn at another moment is a statement about all of them", "anchors": ["/repo/src/starks/verifier.rs: verify, step_1_replay_rounds_and_recover_challenges, step_2_verify_claimed_composition_polynomial, step_3_verify_fri, step_4_verify_deep_composition_polynomial", "/repo/src/starks/prover.rs: prove", "/repo/docs/src/starks/protocol.md"]}
{"id": "C76", "title": "Verification is succinct", "statement": "What the verifier computes and stores is bounded by the size of the proof file: no file of a few kilobytes makes the verifier list more elements than some bound that does not depend on the trace length the file claims.", "quantifier": "all proof files, honest or not, and all trace lengths they claim", "why_tests_cant": "the tests verify proofs of short traces made by the prover; how the cost grows with the length that a file claims, for files no prover made, is a statement about all lengths", "anchors": ["/repo/src/starks/domain.rs: Domain::new", "/repo/src/starks/verifier.rs: verify", "/repo/src/starks/transcript.rs: sample_z_ood", "/repo/src/main.rs: main"]}
{"id": "C77", "title": "A proof is tied to its public inputs", "statement": "A proof that the Cairo verifier accepts for some public inputs is rejected when it is presented with other public inputs: another initial or final pc or ap, another initial fp, other bounds of the range checks, another public memory, or other memory segments (such as the output).", "quantifier": "all proofs, honest or not, all pairs of different public inputs, all options", "why_tests_cant": "the tests present one proof with one changed cell of the public memory and one changed range bound; that no change of any field, and no combination of changes, is accepted is a statement about all pairs of public inputs and all proofs", "anchors": ["/repo/src/cairo/air.rs: verify_cairo_proof, CairoAIR::boundary_constraints, PublicInputs", "/repo/src/starks/verifier.rs: verify, step_2_verify_claimed_composition_polynomial", "/repo/tests/integration_tests.rs: test_verifier_rejects_proof_of_a_slightly_different_program, test_verifier_rejects_proof_with_different_range_bounds"]}
{"id": "C78", "title": "Verifying with other security parameters than the prover's", "statement": "A proof made under some options is, under other options with the same blowup factor and coset offset, accepted exactly when the verifier asks for no more queries than the prover made and for no more grinding than the nonce gives. In particular a proof made with one of the security presets is accepted with a preset exactly when that preset is not stronger, and the verifier never panics on it.", "quantifier": "all satisfying traces and honest Cairo runs of any length, all pairs of options that agree on blowup factor and coset offset, all pairs of presets; for acceptance with fewer queries, every accepted proof, honest or not", "why_tests_cant": "the test presents one proof of one program, made for 80 bits, to a verifier for 128 bits; that every weaker choice is accepted and every stronger one rejected, for all programs, is a statement about all pairs of options", "anchors": ["/repo/src/starks/proof/options.rs: ProofOptions::new_secure", "/repo/src/starks/verifier.rs: verify, step_1_replay_rounds_and_recover_challenges", "/repo/tests/integration_tests.rs: test_verifier_rejects_proof_with_different_security_params"]}
{"id": "C79", "title": "The proof of a trace that breaks the constraints is rejected", "statement": "The prover makes a proof of whatever trace it is given. When the trace, together with the auxiliary trace for the challenges drawn, breaks a constraint, the verifier rejects that proof, except when the coefficients drawn for the constraints or the out-of-domain point drawn afterwards are exceptional. The exceptions are fixed before these are drawn and rare: for one of the constraints at most one value of a coefficient whatever the others are, and fewer points than the trace has rows. The proof is always well formed, so the verifier answers without panicking.", "quantifier": "all AIRs with polynomial constraints, all traces of any length, transcripts and hash functions; all Cairo main traces and public inputs; all Cairo main traces in which some range-check value is not the number made of its limbs", "why_tests_cant": "the test changes one cell of the trace of one program by one value and checks that one proof is rejected; which of all changed traces are rejected, and for which challenges, is a statement about all traces and all transcripts", "anchors": ["/repo/src/starks/prover.rs: prove", "/repo/src/starks/verifier.rs: verify, step_2_verify_claimed_composition_polynomial", "/repo/tests/integration_tests.rs: test_verifier_rejects_proof_with_changed_range_check_value"]}
{"id": "C80", "title": "The prover gives the same proof in every build", "statement": "For a main trace of the layout and a number of steps between one and the number of rows, the debug build of the prover (checked arithmetic, debug assertions, validation of the trace) returns a proof exactly when the release build (wrapping arithmetic) does, and it is the same proof. Every proof of the debug build is the proof of the release build. On a trace length that is not a power of two, on zero steps and on more steps than rows the debug build panics; the release build takes the number of steps modulo the trace length. The main trace is the same in both builds unless a call is executed whose return address does not fit in 64 bits. The release build proves and accepts every honest run.", "quantifier": "all traces with fewer than 2^56 rows, all public inputs, options, transcripts and hash functions; all register states and memories; all honest Cairo runs", "why_tests_cant": "the tests run in one build with checked arithmetic; that no subtraction or addition on the way to a proof wraps around unnoticed is a statement about all traces and public inputs", "anchors": ["/repo/src/starks/prover.rs: prove", "/repo/src/starks/constraints/evaluator.rs: ConstraintEvaluator::evaluate", "/repo/src/cairo/air.rs: generate_cairo_proof, CairoAIR::new, boundary_constraints, build_auxiliary_trace, get_pub_memory_addrs", "/repo/src/cairo/execution_trace.rs: build_main_trace, update_values"]}
{"id": "C81", "title": "An honest run is proved and the proof accepted, except with small probability", "statement": "When the digests of the transcript and of the proof of work are independent uniform draws, then for every honest run of the Cairo machine `generate_cairo_proof` returns a proof and `verify_cairo_proof` accepts it, except with probability at most 11·2^a/2^251 (a challenge is a denominator of the auxiliary trace) + ((2^(a+b)+2^a)/2^251)^r (r candidates for the out-of-domain point are all in a domain) + (1-2^-g)^n (none of the first n nonces meets the target of g bits). The same holds for the commands `prove` and `verify` with the default options. With the hash function of the transcript and that of the proof of work drawn from all functions instead, the same bounds hold with N(N+1)/2/2^256 added, where N is the number of challenges the transcript is asked for.", "quantifier": "all honest runs with 2^a rows, all options with an extension by 2^b, a coset offset that is not a square and at most 64 bits of proof of work, all numbers r of candidates and n < 2^64 of nonces, all encodings, Merkle hashes and later digests; for random functions, all bounds L on the length of messages that are at least those of the run", "why_tests_cant": "a test sees the digests of one run; the failures have probabilities no test meets, and that nothing else can fail is a statement about all runs and digests", "anchors": ["/repo/src/cairo/air.rs: generate_cairo_proof, verify_cairo_proof, build_rap_challenges, build_auxiliary_trace, boundary_constraints", "/repo/src/starks/prover.rs: prove", "/repo/src/starks/transcript.rs: transcript_to_field, sample_z_ood", "/repo/src/starks/grinding.rs: generate_nonce_with_grinding", "/repo/src/main.rs: main"]}
{"id": "C82", "title": "The public sum of constraint evaluations is what prover and verifier compute", "statement": "`compute_constraint_composition_poly_evaluations_sum` returns the documented sum of T_i(x)(alpha_i x^(D-D_i) + beta_i)/Z_i(x) over the constraints for which every list has an entry. As documented for both scenarios, it equals what the prover computes for the transition constraints at each point of the extended domain, and what the verifier computes for them at the out-of-domain point, when the inverse denominators are the inverse of the common zerofier times the constraint's exemption.", "quantifier": "all lists of evaluations, inverse denominators, powers and coefficients, all AIRs, points and frames", "why_tests_cant": "the function is called by nothing in the crate, so no run exercises it; that it agrees with the code written out twice elsewhere is a statement about all inputs", "anchors": ["/repo/src/starks/constraints/evaluator.rs: compute_constraint_composition_poly_evaluations_sum, evaluate", "/repo/src/starks/verifier.rs: step_2_verify_claimed_composition_polynomial"]}
{"id": "C83", "title": "The output of a program can be made part of the claim and proved", "statement": "When the caller of `generate_prover_args` passes the range of addresses holding the program's output, the public inputs contain exactly the cells of the program and of that range with the values the run left there, and the proof that `generate_cairo_proof` makes of them is accepted by `verify_cairo_proof`.", "quantifier": "all programs, honest runs and output ranges after the program, all hash functions and options", "why_tests_cant": "no test or command passes an output range; whether the trace is wide enough and the addresses are contiguous depends on the builtins, on the range and on the whole access pattern of the run", "anchors": ["/repo/src/cairo/runner/run.rs: generate_prover_args, create_memory_segment_map", "/repo/src/cairo/air.rs: PublicInputs::from_regs_and_mem, CairoAIR::new, compute_transition", "/repo/src/cairo/execution_trace.rs: build_main_trace"]}
{"id": "C84", "title": "The prover returns no proof for parameters the protocol cannot work with", "statement": "`prove` (and `generate_cairo_proof`) only returns a proof when the trace has a column, its number of rows and the blowup factor are powers of two, the extended domain has at most as many points as the largest two-power subgroup of the field and as a machine integer can count, the coset offset is not zero, and no point of the extended domain lies in the trace domain. With any other parameters it panics; it never returns a proof.", "quantifier": "all AIRs, traces, options, public inputs, hash functions and transcripts", "why_tests_cant": "tests use two blowup factors, one offset and trace lengths that were padded; whether some combination of other parameters slips through every transform and division cannot be sampled", "anchors": ["/repo/src/starks/prover.rs: prove, interpolate_and_commit, evaluate_polynomial_on_lde_domain", "/repo/src/starks/domain.rs: Domain::new", "/repo/src/starks/constraints/evaluator.rs: ConstraintEvaluator::evaluate", "/repo/src/cairo/air.rs: generate_cairo_proof"]}
{"id": "C85", "title": "Deriving the challenges from digests costs almost nothing in soundness", "statement": "The challenges are not drawn uniformly: a field challenge is a 32-byte digest cut to 251 bits, a query position is the first eight bytes of a digest modulo the number of positions, and the out-of-domain point is the first of successive challenges that lies in neither domain. When the digests are independent and uniform, query positions are exactly uniform (for any extended domain of at most 2^64 points), no event becomes more likely than by the factor (P/2^251)^c * P/(2^251 - D) for c challenges and D excluded points, and this factor is below 1 + 2^-40 for all practical sizes. So the bound on the error of the verifier of committed columns holds with digests in place of ideal challenges up to that factor, for every AIR over the field and for the Cairo AIR.", "quantifier": "all events, all numbers of challenges and queries, all domains, all AIRs over the Stark field, all committed columns and all public inputs", "why_tests_cant": "a bias of the sampler is a statement about the distribution over 2^256 digests; a test sees a handful of digests", "anchors": ["/repo/src/starks/transcript.rs: transcript_to_field, randomness_to_field, transcript_to_usize, sample_z_ood, batch_sample_challenges", "/repo/src/starks/fri/mod.rs: fri_query_phase", "/repo/src/starks/verifier.rs: step_1_replay_rounds_and_recover_challenges"]}
{"id": "C86", "title": "An accepted proof cannot be altered and still be accepted", "statement": "If an accepted proof is altered in a part that its challenges do not depend on, the verifier notices. Two accepted proofs with the same commitments to the trace and to the composition polynomial and the same claimed trace values claim the same value of the composition polynomial; changing one claimed half of it makes the verifier reject. Two accepted proofs that agree in all that is sent before the queries have the same answers to the queries, openings and authentication paths, or exhibit a collision of the hash.", "quantifier": "all AIRs over all fields, public inputs, options, hash functions and transcripts, all accepted proofs and all altered ones", "why_tests_cant": "a test alters a few bytes of one proof; that no alteration at all goes unnoticed is a statement over all values and paths, and the one that does go unnoticed keeps a random linear combination fixed, which no random alteration hits", "anchors": ["/repo/src/starks/verifier.rs: verify, step_2_verify_claimed_composition_polynomial, verify_query_and_sym_openings, step_4_verify_deep_composition_polynomial, reconstruct_deep_composition_poly_evaluation", "/repo/src/starks/proof/stark.rs: StarkProof, DeepPolynomialOpenings", "/repo/src/starks/fri/fri_decommit.rs: FriDecommitment"]}
{"id": "C87", "title": "A proof of work costs about two to the grinding factor digests", "statement": "With the digests of the proof of work drawn at random, whoever learns N of them, choosing each message from the digests seen before, and then presents a claim and a proof, has the proof accepted with probability at most (N + 1) / 2^factor. The honest prover finds its nonce after 2^factor candidates on average: it returns the nonce n with probability (1 - 2^-factor)^n 2^-factor and fails with probability (1 - 2^-factor)^(2^64 - 1).", "quantifier": "all AIRs, options, transcripts and other hash functions, all adaptive strategies of the one who presents the proof, all numbers of digests, all factors", "why_tests_cant": "the bound is about every strategy and about the average over all hash functions; a test sees one strategy with one hash function, and an acceptance without work can come from any path through the verifier", "anchors": ["/repo/src/starks/grinding.rs: hash_transcript_with_int_and_get_leading_zeros, generate_nonce_with_grinding", "/repo/src/starks/verifier.rs: verify, step_1_replay_rounds_and_recover_challenges", "/repo/src/starks/prover.rs: prove"]}
{"id": "C88", "title": "The options bound what a prover gains by trying again", "statement": "The work digest and the positions of the queries of an accepted proof are those of its seed and nonce, and of nothing the prover can choose after them. With these digests drawn at random for every seed and nonce, whoever makes N attempts, choosing every seed and nonce from the digests seen so far, meets the proof of work and has all q positions miss the ones that find the claim out with probability at most N 2^-factor (1 - r/2^n)^q, if at least r of the 2^n positions find it out. For options that new_with_checked_security accepts for a target of t bits, and all but 1/blowup of the positions finding the claim out, that is at most N / 2^t; so it is for the provable levels of new_secure when the square of the missing part is at most 1/blowup. In the game of C85 with the proof of work, where the prover may pick the best of M nonces after all its messages, it wins with at most M / 2^factor times the probability of C85; for the Cairo AIR with the levels of new_secure and at most 2^40 rows that is at most M / 2^53, M / 2^63 and M / 2^78 for the provable and M / 2^32, M / 2^37 and M / 2^42 for the conjectured levels, and from 128 rows on at most M / 2^73, M / 2^89 and M / 2^113 and M / 2^40, M / 2^47 and M / 2^56.", "quantifier": "all adaptive strategies, numbers of attempts, sets of positions depending on the seed, options, domains of at most 2^64 points", "why_tests_cant": "it is a bound over all strategies and the average over all digests, at a probability far below what can be sampled", "anchors": ["/repo/src/starks/proof/options.rs: new_secure, new_with_checked_security", "/repo/src/starks/verifier.rs: step_1_replay_rounds_and_recover_challenges, verify", "/repo/src/starks/grinding.rs: hash_transcript_with_int_and_get_leading_zeros", "/repo/src/starks/transcript.rs: transcript_to_usize"]}
{"id": "C89", "title": "Attempts in any round do not add up to more than the work put in", "statement": "A prover computes the challenges itself, from its own messages, and may do so for as many messages as it likes, going back to any round and continuing differently. Let the verifier's digests after each message be the values of a random function of all the messages so far (commitment of the main trace, of the auxiliary trace, of the composition polynomial, out-of-domain values, every FRI layer, last value and nonce). Whoever asks for N such values, choosing what to ask from the values so far, comes upon a complete sequence of messages that convinces the verifier, although the main trace columns that it commits to do not decode to a table with a property that the constraints force, with probability at most N times the error of a single attempt: the exceptional values of all challenges over the number of values a challenge can take, and 2^-factor times the probability that the queries miss. For the Cairo AIR, the levels of new_secure and 2^7 to 2^40 rows that is at most N / 2^73, N / 2^89 and N / 2^113 for the provable and N / 2^40, N / 2^47 and N / 2^56 for the conjectured levels. Conversely, with whatever function is used for the transcript, the challenges that the verifier draws for a proof are those of this game when its digests after each message are the ones the transcript gives for the messages so far, so the messages of an accepted proof whose trace openings are honest are such a convincing sequence, or the proof exhibits a collision.", "quantifier": "all adaptive strategies, numbers of attempts, meanings of the messages, AIRs with polynomial constraints, options; for the Cairo AIR all public inputs and all lengths from 2^7 to 2^40", "why_tests_cant": "it is a bound over all strategies and the average over all functions, at a probability far below what can be sampled", "anchors": ["/repo/src/starks/verifier.rs: step_1_replay_rounds_and_recover_challenges, verify", "/repo/src/starks/prover.rs: prove", "/repo/src/starks/transcript.rs", "/repo/src/starks/proof/options.rs: new_secure"]}
{"id": "C90", "title": "Answering a query in two ways takes about 2^128 hashes", "statement": "The commitments of a proof bind whoever makes it, as far as the hash does. With the hash function of the Merkle trees drawn at random, whoever asks for N hashes, choosing every message from the hashes seen so far, finds two messages with the same hash with probability at most N^2 / 2^257; ends with two different accepted openings of one root at one index, with paths of the same length of at most h, with probability at most (N + 2 (h + 1))^2 / 2^257; and with the same bound ends with two proofs for one statement that the verifier accepts, that agree in all that is sent before the queries, and that differ somewhere in the opened values of the composition polynomial or of the layers of FRI or in the paths to them, if these have the same length of at most h. The transcript may use the same hash function or any other.", "quantifier": "all adaptive strategies and numbers of hashes, all AIRs over all fields with injective 32-byte encodings, public inputs, options, all transcripts, also such that depend on the hash function", "why_tests_cant": "it is a bound over all strategies and the average over all functions, at a probability far below what can be sampled", "anchors": ["/repo/src/starks/config.rs: BatchedMerkleTreeBackend, FriMerkleTreeBackend", "/repo/src/starks/verifier.rs: step_3_verify_fri, step_4_verify_deep_composition_polynomial, verify"]}
{"id": "C91", "title": "A commitment is fixed when it is made", "statement": "What a root can be opened to is settled by the hashes computed before it was named. With the hash function of the Merkle trees drawn at random, someone asks for N hashes, choosing every message from the hashes seen so far, and names a root after the first s. The values in the tree can be read off these s messages. The probability that in the end an opening of the root with a path of length at most h is accepted for another value than the one read off at that index is at most 4 (N + h + 1)^2 / 2^256. With the same bound, no proof that the verifier accepts and that has this root for the composition polynomial or a layer of FRI opens it to other values than those read off. The transcript may use the same hash function or any other.", "quantifier": "all adaptive strategies, numbers of hashes and times of the commitment, all AIRs over all fields with 32-byte encodings, public inputs, options, all transcripts, also such that depend on the hash function", "why_tests_cant": "it is a bound over all strategies and the average over all functions, at a probability far below what can be sampled", "anchors": ["/repo/src/starks/config.rs: BatchedMerkleTreeBackend, FriMerkleTreeBackend", "/repo/src/starks/verifier.rs: step_3_verify_fri, step_4_verify_deep_composition_polynomial, verify"]}
{"id": "C92", "title": "An accepted proof gives a run that can be read off the hashes", "statement": "The hash function of the Merkle trees and the digests of the transcript are drawn at random. A prover asks for N hashes and digests, choosing every question from the answers so far, and then puts out a proof. Suppose the proof is accepted with these hashes and digests, has the expected shape and opens the rows of the trace rightly. Then the columns of the main trace can be read off the messages that had been hashed when the prover first asked about messages that begin with the first root of the proof: they decode to a trace that satisfies the AIR (for Cairo: to a run of the program with the public input), except with a probability of at most N' times the error of one attempt plus 4 N'^2 / 2^256, where N' counts the questions of the prover, once for every message they contain, and those of the verifier. For Cairo and the levels of new_secure this is N' / 2^bits + 4 N'^2 / 2^256 with 40 to 113 bits. In particular a claim that no trace satisfies is accepted with no greater probability.", "quantifier": "all adaptive strategies and numbers of questions, all AIRs with polynomial constraints, public inputs, options, offsets; for the levels 2^7 to 2^40 rows", "why_tests_cant": "it is a bound over all strategies and the average over all functions, at a probability far below what can be sampled", "anchors": ["/repo/src/starks/verifier.rs: step_1_replay_rounds_and_recover_challenges, step_2_verify_claimed_composition_polynomial, step_3_verify_fri, step_4_verify_deep_composition_polynomial, verify", "/repo/src/starks/config.rs: BatchedMerkleTreeBackend, FriMerkleTreeBackend", "/repo/src/cairo/air.rs: CairoAIR, verify_cairo_proof", "/repo/src/starks/proof/options.rs: ProofOptions::new_secure"]}
{"id": "C93", "title": "The openings of the trace in generated proofs are right", "statement": "Whatever trace the prover is given, also one that does not satisfy the AIR: if it makes a proof, then for every query the authentication path for each of the trace commitments leads from the opened row, at the index of the query, to the root in the proof. The first part of the opened values is the row of the main trace, the rest the row of the auxiliary trace. There is one root if the AIR has no auxiliary trace and there are two otherwise. So a verifier that also checked these paths, which the code leaves out, would accept all honest proofs.", "quantifier": "all AIRs, public inputs, options, traces with 2^a rows of equal width, hash functions and transcripts; for Cairo all main traces", "why_tests_cant": "the verifier does not look at these paths, so no test that proves and verifies can notice wrong ones", "anchors": ["/repo/src/starks/prover.rs: round_1_randomized_air_with_preprocessing, interpolate_and_commit, open_deep_composition_poly, prove", "/repo/src/starks/config.rs: BatchedMerkleTree"]}
{"id": "C94", "title": "An accepted proof with all its parts is evidence", "statement": "Suppose a proof is accepted and has all the parts that a generated proof has: two trace commitments, a layer for every halving, as many queries and openings as the options ask for, and paths and rows of the right lengths. Then it is evidence that a trace satisfies the claim.", "quantifier": "all AIRs and public inputs, all commitments to the trace, claimed values of the trace and authentication paths, all lengths of the trace; for Cairo all challenges but a part of negligible probability", "why_tests_cant": "tests try a few altered proofs, not proofs assembled for the challenges that they lead to; the property fails although every altered honest proof of a test may be rejected", "anchors": ["/repo/src/starks/verifier.rs: step_4_verify_deep_composition_polynomial, reconstruct_deep_composition_poly_evaluation, step_3_verify_fri, verify", "/repo/src/starks/proof/stark.rs: StarkProof, DeepPolynomialOpenings", "/repo/src/cairo/air.rs: verify_cairo_proof"]}
{"id": "C95", "title": "Traces are built exactly for the runs that can be laid out", "statement": "Building the main trace succeeds exactly when the register trace is not empty, every step has a decodable instruction at its pc whose operands are in the memory at addresses of 64 bits, and the memory has the cells of the range-check segment; building the auxiliary trace succeeds exactly when the accesses have room for the public memory, every public address has a value, the output segment is a range that fits, and no challenge is one of at most four (memory) and three (range check) values for a row. In all other cases the calls panic; runs of the Cairo machine are always laid out.", "quantifier": "all register traces, memories and public inputs, whether or not they come from a run of the machine; all main traces of 34 columns or more and all challenges", "why_tests_cant": "tests build the traces of a few runs; they cannot show that no other step of the construction fails, nor list all inputs on which it stops", "anchors": ["/repo/src/cairo/execution_trace.rs: build_main_trace, build_cairo_execution_trace, compute_dst, compute_op0, compute_op1, compute_res, update_values, get_rc_holes, get_memory_holes", "/repo/src/cairo/air.rs: build_auxiliary_trace, add_pub_memory_in_public_input_section, get_pub_memory_addrs, generate_memory_permutation_argument_column, generate_range_check_permutation_argument_column"]}
{"id": "C96", "title": "Trace polynomials and extensions are exact, whatever the degree", "statement": "For a power of two of rows and a power of two as blowup factor, the evaluation domain is built exactly when its size fits the machine word and the field has a root of unity of that order; its points are then the powers of roots of unity of the right orders (times the offset). The trace polynomials are the only ones of degree less than the number of rows with the entries of the columns as values. Evaluating a polynomial on the extended domain returns its values at the points of the domain, in order, also when it has more coefficients than there are rows, as long as the field has a root of unity for the larger transform. For other even numbers of rows and other blowup factors the domain is built under the same conditions, from roots of unity of the orders of the even parts, so that its points repeat. Computing trace polynomials fails when the number of rows is not a power of two, extending fails when there are no rows or the blowup factor is not a power of two, and every call fails when a root of unity is missing.", "quantifier": "all fields with roots of unity of two-power order, all AIRs, tables, polynomials of any degree, row counts, blowup factors and offsets", "why_tests_cant": "tests extend the polynomials of one Fibonacci trace and one monomial; the degrees, sizes and fields are not enumerable", "anchors": ["/repo/src/starks/prover.rs: evaluate_polynomial_on_lde_domain", "/repo/src/starks/domain.rs: Domain::new", "/repo/src/starks/trace.rs: TraceTable::compute_trace_polys"]}
{"id": "C97", "title": "The verifier only accepts row counts that the prover can produce", "statement": "A proof that `verify` (or `verify_cairo_proof`) accepts claims a trace length that is a power of two, as every proof does that the prover returns; proofs with other trace lengths are rejected.", "quantifier": "all AIRs, proofs, public inputs, options, hash functions and transcripts", "why_tests_cant": "tests verify proofs that the prover made, and these have powers of two as trace lengths; a claimed length of another form has to be tried with a proof made for it", "anchors": ["/repo/src/starks/verifier.rs: verify, step_1_replay_rounds_and_recover_challenges, step_2_verify_claimed_composition_polynomial", "/repo/src/starks/domain.rs: Domain::new", "/repo/src/starks/proof/stark.rs: StarkProof"]}

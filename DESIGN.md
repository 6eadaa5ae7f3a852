# Formal model of lambdaworks_cairo_prover in Lean 4

## Layout

* `lean/Verif/Model/*.lean`: the model. One definition per Rust function; each carries the file and lines it models.
* `lean/Verif/Spec/*.lean`: small specifications written without reference to the model's helpers.
* `lean/Verif/Lemmas/*.lean`: helper lemmas.
* `lean/Verif/Props/*.lean`: the property theorems (`Cnn_...`) and, beside each, an `example` that meets its hypotheses.

## Modelling decisions

* A Rust `Result` that may also panic is `Outcome ε α = ok a | err e | panic`. A panic (index out of range, `unwrap`, inverse of zero, `todo!`) is the value `panic`, never a default.
* Bytes are `List UInt8`. `usize`/`u64` values are `Nat`; where the code encodes or compares them at 64 bits the bound is explicit.
* The Stark252 field is `ZMod p` with `p = 2^251 + 17*2^192 + 1`; its primality is proved (Lucas certificate), not assumed. Generic STARK code is over any field.
* External code (lambdaworks math/crypto, sha3, cairo-vm, rayon) is a parameter, with the assumed behaviour listed under "Trusted base".

## Plan per property

| Id | What is modelled | How it is proved |
|----|------------------|------------------|
| C01, C03, C04, C05 | byte encoders/decoders of frame.rs, fri_decommit.rs, stark.rs | round trip, induction over every list |
| C02 | PublicInputs encoder/decoder | round trip; maps as association lists with unique keys |
| C06, C07 | decoders with explicit panics | structural proof that `panic` is unreachable; for C07 a witness that it is reachable, plus a characterisation |
| C08, C09 | CLI container; proof codec | round trip; injectivity; witness of malleability; the decoders read exactly the strings of the format in `Spec/Format.lean` |
| C10, C11 | trace/memory import and the writers | induction over rows |
| C12, C13, C14 | flags/offset decoders over the low 64 bits of the word | bit arithmetic on naturals, all words |
| C15, C16, C25 | compute_dst/op0/op1/res, row builder, all Cairo constraints; an independent Cairo step semantics | refinement in both directions over `ZMod p` |
| C17, C18, C19, C20, C21 | hole filling, padding, dummy accesses, limb decomposition | induction over lists; number arithmetic |
| C22, C23, C24 | auxiliary trace construction and the permutation products | list permutations and telescoping products; composition of the previous results |
| C26, C29, C31, C32 | the AIR as a predicate on whole traces | expected false of the code: negation by a constructed trace, plus the part that holds |
| C27, C28, C30 | memory and range-check constraints on whole traces | induction over rows; polynomial identity / root counting |
| C33, C34, C35 | TraceTable, Frame, validate_trace | index arithmetic, list lemmas |
| C36-C39 | boundary.rs, traits.rs, evaluator.rs, verifier step 2 | Mathlib polynomials |
| C40 | the out-of-domain check on a committed trace | root counting over the coefficients and the out-of-domain point |
| C41-C43 | fri_functions.rs, fri/mod.rs, DEEP composition and its reconstruction | Mathlib polynomials, induction over layers |
| C44, C49 | prover and verifier over an abstract transcript and Merkle backend | composition of C36-C43 along the transcript |
| C45-C48 | the verifier with explicit panics | decision logic; forged proofs as witnesses |
| C55 | the verifier and the AIR with explicit panics | exactly the proofs on which it panics, for any AIR; proof shapes on which it answers, with a bound on the probability that it does not for drawn digests and for random hash functions; decodable proofs on which it panics |
| C50, C51, C52 | transcript.rs, grinding.rs | arithmetic; least-witness search |
| C53 | options.rs | arithmetic on naturals with 64-bit wrap-around |
| C54, C56 | example AIRs and trace generators | induction over rows |
| C57 | rayon maps as a pool of tasks that start and end in any order | invariant of the pool over every execution; the real work-stealing runtime is not modelled |
| C58 | run.rs around the virtual machine, whose result is a parameter | round trips of the byte encodings |
| C59, C60, C61 | main.rs: the three commands over a file system and a virtual machine | composition of C44, C08 and C62; for C61 forged files as witnesses |
| C62 | the same prover and encoder | lengths through every round of the prover |
| C63 | from_regs_and_mem, build_main_trace, the command line | C17, C19 and the execution trace of an honest run |
| C64 | hash maps as lists of entries in iteration order | every use of a map is a lookup, a length or a commutative product |
| C65 | `Accepted` traces of the Cairo AIR, `ClaimTrue` (Spec/Sound.lean) | composition of C26, C27, C28, C30 and C32 over a grid of challenges; refutations by forged traces |
| C66 | `Merkle.verify`, the Keccak backends (Model/Backends.lean), `Collide` (Spec/Binding.lean) | induction on the path: two paths of equal length to one root agree or meet in a collision; refutation: leaves and nodes are hashed alike and the length of the path is not checked |
| C67 | `step3`, `verifyQuery`; words, strategies and queries (Spec/Proximity.lean) | many close combinations on a line determine both words (counting arguments, with one pair of combinations for up to a third of the distance and with all triples of them for more errors, up to the part `1 - 2^(-b/3)` of the points); induction on the rounds keeps the surviving queries far from polynomials of the halved degree; counting over a finite field; binding (C66) for the link to accepted proofs |
| C68 | `step1`, `step2`, `step4`, the game between a prover and the verifier (Spec/Soundness.lean, Spec/Probability.lean) | the columns decode to at most one list of polynomials; an unsatisfied constraint leaves a non-zero combination in some row for all but few coefficients; the identity at the out-of-domain point then fails for all but few points unless the DEEP quotients are far from polynomials; random combinations of far words are far; FRI (C67); composition of the bounds as a probability |
| C69 | `proveDebug` with the assertion of `new_from_cols`, `checkBoundaryPolysDivisibility` (Model/Debug.lean) | the added steps are inverted; all columns are evaluated on domains of one size, so that the assertion holds; the first round leaves polynomials whose values are the rows (C44), so that the validation is that of the table (C35) |
| C70 | `prove`, `evaluateOnLde` on polynomials with too many coefficients | the values on the larger domain that `step_by` picks are those on the extended domain; every composition is interpolated by some polynomial below the size of that domain; the later rounds do not use its degree; for Cairo, the exact conditions under which `buildAuxiliaryTrace` succeeds on any table (`Placeable`, Spec/Placed.lean) |
| C71 | the column-wise construction on flat tables (Model/MainTable.lean) | each pass over columns is a pass over rows (inversion of the loops); the in-place updates of a step only touch its own entries; equality of the two programs, panics included |
| C72 | `from_file`, `flags_and_offsets`, `FileWriter`, `as_str` (Model/Files.lean) | reduction to C10 and C11; induction on the steps and on the chunks |
| C73 | the game of C68 preceded by the draw of the RAP challenges (Spec/Probability.lean), the example AIRs and the Cairo AIR | C68 for each value of the challenges and the average over them; decoding of a prefix of the columns; the meaning of each AIR (C32, C26, C60 and so on) for the decoded rows |
| C74 | the verifier with wrapping subtractions and `CairoAIR::new` with its assertions (Model/Release.lean) | a relation between outcomes, equal or a panic in a listed case, kept by every step; the zero steps by the order of the trace domain's generator; the hypotheses on the hash functions hold for random ones except with the stated probability |
| C75 | the verifier (Model/Verifier.lean); the interaction as a list of events and the checks without loops (Spec/Verdict.lean) | the first step recovers the challenges of the interaction, and each of the other steps returns the truth value of its check; the prover by C49 |
| C76 | the domain the verifier lists (Model/Poly.lean) and the forged files of C61 | false: whenever the verifier answers it has listed a domain of the claimed length, and for every length there is an accepted file of at most 4100 bytes. In part: every question the verifier asks of the lists is answered by a power; the hypotheses on the hash functions hold for random ones except with the stated probability |
| C77 | two runs of `verify` on the same proof, through the verdict of C75 (Spec/Inputs.lean) | false: the initial `fp`, the contents of the segment table and a cell of zeros do not change the verdict, and for every initial `pc` an initial `ap` can be computed for which the proof is accepted. In part: a single changed register or bound, or a changed public memory, is accepted exactly when the drawn coefficients satisfy one equation; few challenges make different memories agree; with drawn digests (C81) an honest proof is accepted for a changed register or bound with probability at most `1/2^251`, and for another public memory with probability at most `(4N^2+2N+1)/2^251`; the same for random hash functions, where the program of C81 also returns the challenges, from which the verdicts follow without hashing |
| C78 | two runs of `verify` on the same proof with different options (Spec/Security.lean) | the queries of the weaker run are a prefix of the queries of the stronger run, so its checks are among those that held; the number of answers in an honest proof (C62) rejects the stronger options; instance for Cairo runs and the presets |
| C79 | `prove` on an arbitrary trace and `verify` on its output (Spec/Unsatisfied.lean) | the out-of-domain values are those of the interpolated columns and of the two halves of the interpolated composition polynomial, so acceptance makes the chosen point a root of a polynomial of degree below the trace length that is determined before the point; it vanishes only for coefficients that C40's argument counts; instances for Cairo traces and for a changed range-check value; with drawn digests (C81) the exceptions become a probability, and so they do for random hash functions |
| C80 | the prover, the main and the auxiliary trace with wrapping arithmetic (Model/ReleaseProver.lean), `CairoAIR::new` with its assertions | the relation between outcomes of C74, kept by every round; an output segment that makes a subtraction wrap around makes the columns too long or too short, which panics later; the number of steps enters a proof only as an exponent of the generator of the trace domain; completeness from C44, C62 and C74 |
| C81 | the prover, verifier and commands with drawn digests (Spec/Random.lean) | completeness (C44) at the state of the transcript that the run reaches instead of all states; each field element is the challenge of at most 32 digests (C50), a fraction `2^-g` of the digests meets the target (C52); union bound over the draws. For random functions (Spec/Oracle.lean), the prover is written as a program that sends bytes, draws challenges and hashes nonces; as long as the transcript is in a new state for each challenge, the answers of the function are independent draws, and the states repeat with probability at most `N(N+1)/2/2^256` |
| C82 | compute_constraint_composition_poly_evaluations_sum (Model/CompositionSum.lean), which nothing in the crate calls | induction on the lists; the sums of the prover's row and of the verifier's second step are shown to be instances of it |
| C83 | generate_prover_args with an output range, followed by the prover and the verifier | the claim from C63, acceptance from C44; false without the range-check builtin: the width of the table on which the constraints are evaluated is followed through the first round, and reading the constraints' columns panics |
| C84 | the domains, the transforms and the divisions of the prover, with explicit panics (Spec/Parameters.lean) | inversion of the steps of a run that returned a proof; a point in both domains would be a zero among the values of the zerofier that are inverted |
| C85 | the samplers of the transcript as functions of the digests (Spec/Derivation.lean), the verifier's random draws of C73 | counting the digests behind each challenge and position, a product bound over independent digests, transfer of the bound of C73; `C85_samplers` ties the specification to the code's samplers |
| C86 | the verifier on two proofs that share a prefix of the messages; openings as in C66 | inversion of two accepting runs with the same challenges; a path is determined by its root unless hashes collide; false of the trace openings: values of two columns can be changed along the kernel of the DEEP combination |
| C87 | `verify` and `generateNonce` with the digests of the 40-byte messages given by a uniformly drawn function (`working`, Spec/Work.lean); searchers as functions from the digests seen to the next message | the seed does not depend on these digests; the value of a random function at a point not yet asked is independent of the answers, so each new question hits with probability 2^-factor; union bound over the first hit; the honest search by induction over the candidates |
| C88 | attempts as pairs of a seed and a nonce, each answered by a work digest and `q` digests for the positions, all drawn independently (an idealisation: the transcript derives the later digests of one attempt from the first); `verify` with the transcript in use for the claim that seed and nonce determine them | inversion of `step1`; the search bound of C87 for a property of question and answer, the product of the probabilities of work and of missing positions (C85), and the exact description of the constructor's check (C53); for the game, a union bound over the nonces on top of C85. The bits proved for the provable levels of `new_secure` (53, 63, 78 for all lengths; 73, 89, 113 from `2^7` rows on) are below their names, because C67 is proved up to the part `1 - 2^(-b/3)` of the points, where the names assume `1 - 2^(-b/2)` |
| C89 | the messages of a prover as elements of an arbitrary finite type, with a fixed meaning (`Spec.Reading`: the columns, words, claims and values that a message stands for, which openings are assumed to respect); the digests after each message as a random function of the messages so far (`Spec.digestsFor`), the challenges derived from them as in C85, and the check of the verifier as in C68 (`Spec.Reading.Convinces`) | round by round: the partial executions that are lost whatever the verifier draws next are described by the exceptional sets of C66 to C68; a lost execution stays lost after the next message, but for a bounded part of the replies; a search lemma for a random function, where what counts as found may depend on the values at shorter histories, adds up the rounds; the transcript of the code is written as one function of the messages so far (`Spec.replyFor`), `C89_transcript` follows `step1` state by state, and `C89_accepted_partial` adds what C68 says of accepted proofs |
| C90 | the hash of the Merkle trees as a random function of the messages of at most L bytes (`Spec.drawnHash`, L at least 64), used by leaves and nodes alike as in C66; a searcher as a function from the hashes seen so far to the next message (`Spec.answers`); what the verifier of the code does with an opening | birthday bound for adaptive questions, by conditioning on the answers so far; the searcher is made to also ask for the hashes on the two paths, and two different ways to one hash along paths of the same length contain a collision; C45 gives that the openings of accepted proofs are such ways |
| C91 | the setting of C90; what a root stands for, read off the messages hashed so far from the root down (`Spec.standsFor`) | a new hash equals one that was come across before (a hash, a half of a message, the named root) with the probability bounded; without that every way to the root consists of messages asked for before the root was named, found again from the root down by induction on the path |
| C92 | one random function that answers both kinds of questions, for hashes and for digests (`Spec.Question`); the words behind the roots, read off what had been hashed (`Spec.extracted`); acceptance by steps 2 to 4 of the verifier and the proof of work (`Spec.Accepts`, met by whatever `verify` accepts: `C92_code`) | the questions for digests are an attempt at the game of C89 with messages that carry what was hashed before; by C91 the openings agree with the words behind the roots unless hashes collide; a prover that does not ask in order or not for all hashes is first made to ask for everything that the verifier will ask for, in blocks; partial: the code does not check the openings of the trace nor the shape, and the two random functions are independent |
| C93 | `prove` with the trees of round 1 and `open_deep_composition_poly` | inversion of round 1 and of the openings along C49; the path that a built tree gives for an index verifies (induction on the height); `C93_cairo_run` puts it together with C44 and C62 for honest runs |
| C94 | `verify` on proofs of the shape of C59 with free trace commitments and paths; the factor of an opened value in the DEEP value (`Spec.openedWeight`) | refuted: commit to zero as composition polynomial and as FRI layers, compute the claimed composition value from the claimed frame, and solve one linear equation for the opened value of a column at every query; with drawn digests, and for random hash functions, the equation can be solved except with negligible probability; the forged proof can be written to a file. C92 says that the check of the trace paths, together with the shape, is all that is missing, and C46 that the check of the paths without the shape would not be enough |
| C95 | `build_main_trace` and `build_auxiliary_trace` on arbitrary inputs, in debug builds (C80 compares release builds); `Spec.RunLaidOut` and `Spec.AuxLaidOut` state the conditions with the data types alone | each call that may panic is characterised exactly, and the others are shown not to fail once the execution rows exist; C71 carries the result to the flat tables. The excluded challenges are the values of the replaced accesses and of the offsets, counted |
| C96 | `Domain.new`, `computeTracePolys` and `evaluateOnLde` (Model/Poly.lean); the transforms of lambdaworks-math are external and given by the values they compute | the larger transform is taken with a root whose power is the root of the domain, and every `2^j`-th value is kept; uniqueness by counting zeros; the failing calls are listed |
| C97 | `verify` on proofs whose `trace_length` is `m * 2^a` with `m` odd | refuted: `Domain::new` takes the root of unity of the order of the largest power of two that divides the length, so the points of the domain repeat, and the forged proof of C46 is accepted when the field has no further `m`-th roots of unity (m = 3 for the field of Cairo). What holds is that the length is not zero and the extended domain is counted by a machine integer |

## Trusted base

**Kernel and axioms.** Every theorem is checked by Lean's kernel. The property theorems depend on at most `propext`, `Classical.choice` and `Quot.sound`; there are no axioms of our own, no `sorry`, no `native_decide` and no `bv_decide`. `decide +kernel` is used for finite facts and for the examples.

**The reading of the code.** The code was read as text and never run. The only tie between model and code is the citation on each definition.

### What is modelled

| Code | Model |
|------|-------|
| src/main.rs | `Model/Cli.lean` |
| src/cairo/runner/run.rs, vec_writer.rs, cairo_layout.rs | `Model/Runner.lean`, `Model/CairoImport.lean`, `Model/Files.lean` (names of layouts) |
| src/cairo/runner/file_writer.rs | `Model/Files.lean` |
| src/cairo/register_states.rs, cairo_mem.rs | `Model/CairoImport.lean` (from bytes), `Model/Files.lean` (from files) |
| src/cairo/decode/*.rs | `Model/Decode.lean` |
| src/cairo/execution_trace.rs | `Model/ExecutionTrace.lean` (row by row), `Model/MainTable.lean` (column by column, as in the code) |
| src/cairo/air.rs | `Model/CairoAir.lean`, `Model/Air.lean`, `Model/ExecutionTrace.lean`, `Model/PublicInputs.lean`, `Model/CairoProof.lean` |
| src/starks/trace.rs, frame.rs, context.rs, debug.rs | `Model/Trace.lean`, `Model/Air.lean`, `Model/Debug.lean` |
| src/starks/domain.rs, traits.rs, constraints/*.rs | `Model/Poly.lean`, `Model/Evaluator.lean` |
| src/starks/transcript.rs, grinding.rs, proof/options.rs | `Model/Transcript.lean`, `Model/Grinding.lean`, `Model/Options.lean` |
| src/starks/fri/*.rs | `Model/Fri.lean`, `Model/Verifier.lean`, `Model/ProofCodec.lean` |
| src/starks/prover.rs, verifier.rs | `Model/Prover.lean`, `Model/Verifier.lean` |
| src/starks/proof/stark.rs, utils.rs | `Model/ProofCodec.lean` |
| src/starks/config.rs (leaf and node hashes) | `Model/Backends.lean` |
| compute_constraint_composition_poly_evaluations_sum in constraints/evaluator.rs | `Model/CompositionSum.lean` |
| the arithmetic of release builds | `Model/Release.lean`, `Model/ReleaseProver.lean`, `Model/Options.lean` |
| src/starks/example/*.rs | `Model/ExampleAirs.lean` |
| the `parallel` feature in prover.rs and evaluator.rs | `Model/Parallel.lean` |

### What is not modelled

* The file system: reading a file and `write_all` are parameters (Model/Files.lean).
* Logging, timing output, and the texts of messages and errors.
* Overflow of `usize` additions on addresses (run.rs:216-232) and memory exhaustion.
* Subtractions that wrap around in release builds and panic in debug builds follow the debug build, unless a definition says otherwise (C53 covers both). For the verifier the wrapping variants are in Model/Release.lean and C74 compares the two; for the prover they are in Model/ReleaseProver.lean and C80 compares them. The `debug_assert!`s are in Model/Debug.lean and in `newDebug` (Model/Release.lean); C69, C74 and C80 say what they change.
* Benchmarks, tests and fuzz targets.

### External code and what is assumed of it

* **lambdaworks-math.** The field Stark252 is the prime field `ZMod p` (the primality of `p` is proved). `FieldElement::inv` and batch inversion panic on zero. Byte conversions use 32 bytes; reading reduces modulo `p`. Polynomials are Mathlib polynomials; the FFT routines are given by their values (evaluation at the powers of a primitive root on a coset, and its inverse). `TwoAdic` holds the field's roots of unity with their defining equations, and is instantiated for Stark252 by a proved root of order `2^192`.
* **lambdaworks-crypto.** The transcript is an arbitrary state machine with `append` and `challenge`. The leaf and node hashes of the Merkle trees are arbitrary functions; no collision resistance is assumed. Tree building, path extraction and path checking are modelled from the library's documented behaviour.
* **sha3.** Keccak256 is an arbitrary function from bytes to 32 bytes. C81 idealises Keccak: the digests that an honest run asks for, one challenge after the other and one nonce after the other, are independent uniform draws of 32 bytes (`Spec.answering`); C94_forged_probability draws the digests of its forged proof in the same way. The transcript it uses ignores what is appended, which is no restriction for completeness, because the digests are given from outside. The theorems whose names end in `random_hash` (of C24, C46, C55, C61, C74, C76, C77, C79, C81, C94 and C97) do without it: there the transcript is `DefaultTranscript` of lambdaworks-crypto (it collects the bytes it is sent; a challenge is the digest of the bytes collected, and the collection restarts with that digest), its hash function and that of the proof of work are drawn uniformly and independently from all functions (`Spec.hashing`), and the hashes of the Merkle trees are fixed. C85 takes the digests of one execution as independent uniform draws, in place of the ideal challenges of C73. C87 draws only the digests of the 40-byte messages of the proof of work; the transcript and all other hashes are arbitrary. C88 draws, for every seed and nonce, the digest of the proof of work and those for the positions independently. C89 draws, for every sequence of messages, all the digests that the verifier may use after it independently. C90 and C91 draw the hash function of the Merkle trees for all messages of bounded length. C92 draws both independently, this hash function and the digests as in C89. Only theorems with a `probability` over digests or functions in their statement use these idealisations.
* **cairo-vm.** The result of a run (`VmRun`) is a parameter. `HonestVmRun` in `Spec/Cli.lean` states what a correct machine leaves behind.
* **rayon.** A parallel map is a pool of independent tasks that start and end in any order; every task that starts also ends.
* **std.** `HashMap` is a list of entries with distinct keys in an arbitrary iteration order. `sort` and `sort_by` are stable sorts, modelled by insertion sort (a stable sort is determined by its input).
* **Rejection sampling** of the out-of-domain point and the search for a nonce are loops without a bound. The first is modelled as the first draw that is accepted, and a run without one as a panic; theorems that need it to end say so in a hypothesis.

## Findings

Properties that do not hold of the code. Each has a theorem with a witness, and a `_partial` theorem for what does hold.

1. **Proofs can be forged (C46, C61).** The verifier takes the number of FRI layers, of openings and of queries from the proof. A proof with no FRI layers and no openings passes every check, once the composition value at the out-of-domain point is computed from the claimed frame. Public inputs that no trace satisfies are accepted, also from a file. With digests drawn at random the forgery fails with negligible probability (`C46_forged_probability`, `C61_forged_file_probability`).
2. **Trace openings are not authenticated (C48).** The result of the Merkle check on the trace openings is computed and dropped (src/starks/verifier.rs:411-423). This alone makes forgeries possible: also with all parts of a proof present and of the right lengths, a false claim is accepted, except with negligible probability over drawn digests or random hash functions (C94).
3. **Weak Fiat-Shamir (C47).** The transcript starts empty and never absorbs the public inputs, so one proof can be accepted for two statements.
4. **The verifier panics on malformed input (C55, C07).** Proofs without a trace root, frames of width zero and public inputs without range-check bounds or steps make it panic. So does every accepted proof once an opening that is read lacks a column or an answer that is read is empty; neither is in the transcript, so anyone who relays a proof can do this (`C55_relayed_file_panics` for files). A file of `prove` that is not complete is refused, except for four lengths at which it ends inside the range-check bounds and `verify` panics (`C61_incomplete_files_partial`). `C55_panics_exactly` lists all cases. The parser of public inputs slices without checking; that of proofs does not (C06).
5. **An honest proof can make the verifier panic (C44).** If the square of the out-of-domain point is on the queried domain the DEEP denominator is zero. This cannot happen with the coset offset 3 of the preset options, which is not a square.
6. **The Cairo constraints leave gaps.** The selector column is free, so a trace can skip steps (C26). The memory product is not tied to 1 at the start (C28, C29) and neither is the range-check product (C30). The limbs of the range-check builtin are not range-checked (C31). The initial `fp` is not a boundary constraint (C32).
7. **A program with an output segment and no range-check builtin cannot be proved (C24).** The main trace has 34 columns and the AIR expects 43. With an output segment the memory holes can also leave a gap (C18): as many addresses after zero as there are public cells are never filled up, although the output cells are elsewhere. `C24_exact` says which honest runs pass validation, `C24_fails_output_gap` is one with both segments that does not, and `C24_gap_rejected_random_hash` says that the verifier rejects the proofs of such runs. `C83_output_needs_range_check` says that without the range-check builtin `generate_cairo_proof` panics for every output range, hash function and run; so do the debug and the release build (`C83_output_panics_in_every_build`).
8. **The declared degree bound can be exceeded (C38).** A constraint that is exempted from more rows than its degree exceeds the bound.
9. **Security checks of the options (C53).** The provable-security check accepts insecure options and rejects the presets. The conjectured check can underflow in release builds.
10. **Grinding (C52).** The check counts trailing zero bits of the first eight digest bytes read as a big-endian number, not the documented leading zeros; the last nonce is never tried; factors above 64 never succeed.
11. **Encodings are malleable (C09).** Trailing bytes and unreduced field elements are accepted. `C09_encodings_exactly_partial` says exactly which strings encode a proof; `C09_another_of_same_length` and `C09_another_file` give a second encoding of the same length for every encoding.
12. **Fibonacci RAP example (C56).** The boundary constraints ignore the public inputs and the permutation is not enforced.
13. **False claims have accepted traces for almost all challenges (C65).** `C65_false_claim_accepted`: any final `pc` can be claimed for `simple_program`.
    Repairing the anchor of the memory product (finding on C29) is not enough: the sorted memory columns are part of the auxiliary trace, which is committed after the challenges are drawn, so they can be made to fit the challenge (`C65_sorted_after_challenges`).
    With both repaired, the dummy accesses `(0, 0)` can still be anywhere, so that address zero has two values (`C65_address_zero_two_values`).
    `C65_claims_true_partial` shows that nothing else is missing but the selectors, the start of `fp` and the legality of the words.
14. **Path lengths are not checked (C66).** The verifier folds whatever path it is given. Leaves and inner nodes are hashed without a tag that separates them, so a path that is one node too short opens the concatenation of two leaf hashes as a pair of values (`C66_path_length_unchecked`), when these hashes are encodings of field elements.
    With paths of the right length, openings are binding (`C66_two_openings_agree`, `C66_composition_openings_partial`, `C66_fri_openings_partial`).
15. **The divisibility check of debug builds checks nothing (C69).** The lists of boundary polynomials and zerofiers it is given are created empty and never filled (evaluator.rs:84-85, 117-121), so it reports nothing whatever the trace (`C69_same_proof`). Invalid traces are only logged, in debug builds; the prover returns a proof for them (`C70_prover_total`, `C70_cairo`).
16. **A claim of zero steps is accepted in release builds (C74).** `num_steps - 1` wraps around, and the exponent `2^64 - 1` is the last row of the trace. The debug build panics (`C74_zero_steps_accepted`).
17. **The verifier lists the domain of the claimed length (C76).** `verify` lists the whole trace domain and extended domain of the length that the proof claims, before it checks anything but the number of queries (domain.rs:31-46, verifier.rs `verify`). A file of 4100 bytes can claim 2^61 rows, for which the extended domain has 2^63 elements, so a verifier of untrusted files can be made to run out of memory. Membership, indexing and the last point can each be computed with one power (`C76_powers_suffice_partial`).
18. **A proof is not tied to all its public inputs (C77).** The initial `fp` and the contents of the segment table, such as the range of the output, do not enter the verdict (`C77_ignored_inputs`). The number of steps is bound only modulo the trace length, so a claim of more steps than the trace has rows is accepted with the proof of an honest run (`C77_steps_modulo`). A cell with address and value zero can be added to the public memory (`C77_zero_cell`). Since the challenges do not depend on the public inputs (finding 3), any accepted proof is accepted for every initial `pc`, with an initial `ap` computed from the proof (`C77_cairo_proof_transfers`).
19. **The release build proves claims of steps that were not made (C80).** Zero steps, or more steps than the trace has rows, make the debug build panic, in `boundary_constraints` or in the validation of the trace. The release build returns the proof for the number of steps modulo the trace length, and its verifier accepts it for both claims (`C80_debug_panics`, `C80_release_steps_modulo`).
20. **The opened trace values can be altered (C86).** They enter the verdict only through the DEEP value, because their paths are not checked (finding 2). In every accepted proof of a trace with two columns, the values of any opening can be replaced by others such that the proof is still accepted (`C86_trace_values_changed`). The claimed composition values and the openings of the composition polynomial and of the FRI layers cannot be altered, unless hashes collide or the length of a path is changed.
21. **Row counts that no trace has are accepted (C97).** The verifier does not check that the claimed trace length is a power of two. `Domain::new` uses the number of trailing zero bits of the length (src/starks/domain.rs:28), so a length of `3 * 2^a` passes, with a forged proof as in finding 1. The prover panics on such lengths (C84).

{"id": "C01", "title": "SRS holds the powers of the secret", "statement": "Srs::new_from_secret(s, n) returns exactly n+3 G1 points, the i-th being s^i times the G1 generator, together with the G2 generator and s times it.", "quantifier": "every secret s and every size n", "why_tests_cant": "holds for every index and every secret; a test fixes one size", "anchors": ["kzg/src/srs.rs: Srs::new_from_secret, g1_points, g2, g2s"]}
{"id": "C02", "title": "A commitment is the polynomial evaluated at the secret", "statement": "KzgScheme::commit(p) is p(s) times the G1 generator whenever p has at most as many coefficients as the SRS has points, and the call panics on every polynomial of larger degree. commit_vector on a coefficient vector (with any trailing zeros) and commit_para on a constant agree with commit.", "quantifier": "every secret, SRS size and polynomial / coefficient vector", "why_tests_cant": "all degrees and coefficients, incl. the boundary degree and trailing zeros", "anchors": ["kzg/src/scheme.rs: commit, commit_vector, commit_para, evaluate_in_s"]}
{"id": "C03", "title": "Commitments are linear", "statement": "Adding, subtracting, negating and scaling KzgCommitments commutes with doing the same to the committed polynomials.", "quantifier": "every pair of polynomials within the SRS bound, every scalar", "why_tests_cant": "algebraic law over all polynomials of different lengths and cancelling leading terms", "anchors": ["kzg/src/scheme.rs: impl Add/Sub/Mul/Neg for KzgCommitment"]}
{"id": "C04", "title": "Honest openings verify", "statement": "For every non-zero polynomial p within the SRS bound and every point z, open(p,z) returns the value p(z) and verify(commit(p), open(p,z), z) is true; open_vector behaves the same on coefficient vectors. open panics exactly on the zero polynomial and on polynomials too large for the SRS.", "quantifier": "every polynomial, point, secret", "why_tests_cant": "completeness must hold for every polynomial including constants, p(z)=0, z=0, z=s", "anchors": ["kzg/src/scheme.rs: open, open_vector, verify"]}
{"id": "C05", "title": "verify decides exactly the KZG equation", "statement": "verify(C,(W,y),z) returns true if and only if (s-z)*W = C - y*G1, i.e. nothing else is accepted or rejected.", "quantifier": "every group element C, W, scalar y, point z and secret", "why_tests_cant": "an iff over all group elements", "anchors": ["kzg/src/scheme.rs: verify"]}
{"id": "C06", "title": "Evaluation binding", "statement": "For z different from the secret: with an honest witness only the true value p(z) is accepted; and any two accepted openings of one commitment at one point with different values yield G1/(s-z) by a fixed formula (the t-SDH solution).", "quantifier": "every commitment, point, pair of accepted openings", "why_tests_cant": "quantifies over all adversarial openings", "anchors": ["kzg/src/scheme.rs: verify, open"]}
{"id": "C07", "title": "Commitment binding", "statement": "Two polynomials with the same commitment are equal unless the secret is a root of their non-zero difference; at most max-degree many secrets admit a collision between two given different polynomials.", "quantifier": "every pair of polynomials, all secrets", "why_tests_cant": "needs a root-counting argument over all secrets", "anchors": ["kzg/src/scheme.rs: commit"]}
{"id": "C08", "title": "aggregate_commitments is the power combination", "statement": "aggregate_commitments([c0..cn], v) = sum v^i c_i (identity for the empty list), hence it is the commitment of sum v^i p_i when c_i commits to p_i.", "quantifier": "every list of commitments and every challenge", "why_tests_cant": "all lengths", "anchors": ["kzg/src/scheme.rs: aggregate_commitments"]}
{"id": "C09", "title": "batch_verify accepts valid batches", "statement": "If every (commitment_i, point_i, opening_i) verifies individually, batch_verify accepts for every RNG output; unequal lengths panic.", "quantifier": "every batch length, every randomness", "why_tests_cant": "all lengths and all RNG streams", "anchors": ["kzg/src/scheme.rs: batch_verify"]}
{"id": "C10", "title": "batch_verify rejects batches with an invalid opening except for one value of its random coefficient", "statement": "If opening k does not verify on its own then, whatever the other random coefficients, batch_verify accepts for at most one value of the k-th coefficient (at most one of the 2^128 sampled values).", "quantifier": "every batch, every index k of a failing opening, all other randomness", "why_tests_cant": "soundness bound over all adversarial batches", "anchors": ["kzg/src/scheme.rs: batch_verify"]}
{"id": "C11", "title": "Adding openings combines openings", "statement": "For two openings of p and q at the same point the sum of the openings verifies against the sum of the commitments.", "quantifier": "every pair of polynomials and every point", "why_tests_cant": "algebraic law over all pairs", "anchors": ["kzg/src/opening.rs: impl Add for KzgOpening"]}
{"id": "C12", "title": "Merkle proofs of real leaves verify", "statement": "For a tree over 2^k leaves every index yields a proof that verifies and that reveals that leaf; for any non-empty leaf vector a proof returned for an index below the number of supplied leaves verifies.", "quantifier": "every leaf vector, every index, every hash function", "why_tests_cant": "all sizes and indices", "anchors": ["fri/src/merkle_tree.rs: MerkleTree::new, generate_proof, verify_merkle_proof"]}
{"id": "C13", "title": "Merkle proof generation on a non-power-of-two tree", "statement": "For n leaves (n not a power of two) generate_proof(index) for index < n panics exactly when on some level the node on the path is an unpaired last node; for an index in the zero padding it never yields a proof against the padded value that is backed by the tree (it panics or the proof is over a node that is not in the tree).", "quantifier": "every n >= 1, every index", "why_tests_cant": "needs all n and levels", "anchors": ["fri/src/merkle_tree.rs: MerkleTree::new, generate_proof"]}
{"id": "C14", "title": "Merkle binding", "statement": "Two accepted proofs with the same root, index and path length but different leaf values exhibit a collision of the leaf hash or of the two-to-one hash.", "quantifier": "every pair of accepted proofs", "why_tests_cant": "all adversarial proofs", "anchors": ["fri/src/merkle_tree.rs: verify_merkle_proof", "fri/src/hasher.rs: hash, hash_slice"]}
{"id": "C15", "title": "Node hashing separates its inputs", "statement": "hash_slice distinguishes different child pairs up to collisions of SHA-256.", "quantifier": "every pair of two-element slices", "why_tests_cant": "all pairs; fails for concatenation without separator", "anchors": ["fri/src/hasher.rs: hash_slice"]}
{"id": "C16", "title": "fold_polynomial is the FRI fold", "statement": "fold_polynomial(p, r) evaluated at x^2 equals (p(x)+p(-x))/2 + r*(p(x)-p(-x))/(2x) for x != 0, and has at most ceil(len/2) coefficients.", "quantifier": "every polynomial, r, x", "why_tests_cant": "all polynomials", "anchors": ["fri/src/prover.rs: fold_polynomial"]}
{"id": "C17", "title": "FRI layers commit to the evaluations on the coset", "statement": "FriLayer::from_poly(p, c, n) with n a supported power of two holds p(c*w^i) at index i for all i<n, where w generates the order-n subgroup, and its Merkle tree is over exactly these values.", "quantifier": "every polynomial, coset, domain size", "why_tests_cant": "all indices and sizes", "anchors": ["fri/src/fri_layer.rs: FriLayer::from_poly"]}
{"id": "C18", "title": "FRI completeness", "statement": "Whenever generate_proof returns a proof, verify accepts it; and generate_proof returns for every polynomial with d>=1 coefficients and blowup b with 2 <= d*b within the field's two-adicity unless the folded constant is zero.", "quantifier": "every polynomial, blowup, number of queries, hash function and challenge stream", "why_tests_cant": "all sizes, all challenges, all query positions", "anchors": ["fri/src/prover.rs: generate_proof, folding_phase, query_phase", "fri/src/verifier.rs: verify, verify_query"]}
{"id": "C19", "title": "FRI prover panics exactly on degenerate input", "statement": "generate_proof panics exactly when the product of coefficient count and blowup is at most one, the domain exceeds the two-adicity, or the final folded polynomial is zero (has no coefficient).", "quantifier": "every polynomial, blowup, query count, challenge stream", "why_tests_cant": "characterises all inputs", "anchors": ["fri/src/prover.rs: generate_proof, folding_phase"]}
{"id": "C20", "title": "FRI verify checks every layer of every supplied query", "statement": "On decommitments with one entry per layer root, verify returns Ok if and only if for every pair of (re-derived query position, supplied decommitment) each layer has the right index pair, leaf values matching its Merkle paths, valid paths, and the fold of layer i equals the value in layer i+1, the last fold equalling the constant.", "quantifier": "every proof accepted", "why_tests_cant": "all adversarial proofs", "anchors": ["fri/src/verifier.rs: verify, verify_query"]}
{"id": "C21", "title": "FRI verify authenticates values against the committed roots", "statement": "verify only accepts query values that are authenticated by the layer roots from which the challenges were derived.", "quantifier": "every proof", "why_tests_cant": "adversarial proofs", "anchors": ["fri/src/verifier.rs: verify, verify_query (path.root is never compared with layers_root)"]}
{"id": "C22", "title": "FRI verify requires all queries", "statement": "verify rejects a proof with fewer decommitments than number_of_queries.", "quantifier": "every proof", "why_tests_cant": "adversarial proofs", "anchors": ["fri/src/verifier.rs: verify (zip)"]}
{"id": "C23", "title": "FRI proof shape", "statement": "A returned proof has domain_size the least power of two >= len*blowup, log2(domain_size) layer roots, number_of_queries decommitments, each with one entry per layer, at symmetric indices below the layer size.", "quantifier": "every polynomial, blowup, query count", "why_tests_cant": "all sizes", "anchors": ["fri/src/prover.rs: generate_proof, query_phase"]}
{"id": "C24", "title": "FRI transcript guard", "statement": "Generating challenges panics unless something was digested since the last generation; after any digest it succeeds (for digests of at least 8 bytes) and returns the requested number of challenges.", "quantifier": "every history of digest / generate calls", "why_tests_cant": "all interleavings", "anchors": ["fri/src/fiat_shamir/transcript.rs: Transcript"]}
{"id": "C25", "title": "FRI transcript binding and replay", "statement": "Equal digest histories give equal challenges whatever generations happened in between; two different histories (shorter than 2^56) reaching the same internal state exhibit a collision of the hash.", "quantifier": "every pair of histories", "why_tests_cant": "all histories", "anchors": ["fri/src/fiat_shamir/transcript.rs: digest, generate_*"]}
{"id": "C26", "title": "Vector and matrix helpers compute linear algebra", "statement": "matrix_vector_product, hadamard_product, vector_elem_product, vec_add, vec_sub, vec_equal agree with matrix/vector algebra entry by entry; vec_add/vec_sub panic exactly on unequal lengths, hadamard_product exactly when the second is shorter.", "quantifier": "every matrix (also ragged) and vectors", "why_tests_cant": "all sizes", "anchors": ["nova/src/utils.rs"]}
{"id": "C27", "title": "is_r1cs_satisfied decides relaxed R1CS with matching commitments", "statement": "is_r1cs_satisfied returns Ok exactly when the lengths match, (Az)o(Bz) = u(Cz)+E holds row by row for z=(W,x,u), and the instance commitments are the commitments of W and E.", "quantifier": "every R1CS, instance, witness", "why_tests_cant": "iff over all inputs", "anchors": ["nova/src/r1cs/mod.rs: is_r1cs_satisfied"]}
{"id": "C28", "title": "Fresh instances encode plain R1CS", "statement": "FWitness::new(w, rows).commit(x) satisfies is_r1cs_satisfied exactly when (Az)o(Bz)=Cz for z=(w,x,1).", "quantifier": "every R1CS, w, x", "why_tests_cant": "iff over all inputs", "anchors": ["nova/src/r1cs/mod.rs: FWitness::new, commit"]}
{"id": "C29", "title": "Folding preserves satisfaction", "statement": "If both inputs of the NIFS prover satisfy the R1CS then the folded pair it returns satisfies it, for every challenge.", "quantifier": "every R1CS, every two satisfying pairs, every challenge/transcript", "why_tests_cant": "all instances and challenges", "anchors": ["nova/src/nifs/mod.rs: compute_t, fold_witness, fold_instance", "nova/src/nifs/nifs_prover.rs: prover"]}
{"id": "C30", "title": "Folding is 3-special-sound", "statement": "If for three distinct challenges the folds of fixed (z1,u1,E1), (z2,u2,E2), T satisfy the relation then both inputs satisfy it and T is the cross term computed by compute_t.", "quantifier": "every R1CS, vectors, three distinct challenges", "why_tests_cant": "all adversarial inputs", "anchors": ["nova/src/nifs/mod.rs: compute_t, fold_witness"]}
{"id": "C31", "title": "Folded commitments match folded witnesses", "statement": "fold_instance of the commitments equals the commitments of fold_witness.", "quantifier": "every pair, T, challenge", "why_tests_cant": "all vectors", "anchors": ["nova/src/nifs/mod.rs: fold_witness, fold_instance"]}
{"id": "C32", "title": "NIFS completeness", "statement": "For every two committed pairs (with matching shapes, and folded E and W not identically zero), NIFS::prover + prove + verifier + verify accepts when prover and verifier transcripts start equal.", "quantifier": "every pairs, transcripts", "why_tests_cant": "all inputs", "anchors": ["nova/src/nifs/nifs_prover.rs: prover, prove", "nova/src/nifs/nifs_verifier.rs: verifier, verify"]}
{"id": "C33", "title": "NIFS verify decides exactly its checks", "statement": "NIFS::verify returns Ok iff r is the transcript challenge of (u1,u2,comT), the opening point is the next challenge of the folded commitments, and both KZG equations hold.", "quantifier": "every proof and instances", "why_tests_cant": "iff", "anchors": ["nova/src/nifs/nifs_verifier.rs: verify, verify_challenge, verify_opening"]}
{"id": "C34", "title": "NIFS verify implies a satisfiable folded instance", "statement": "An accepted NIFS proof produced by the library's own prover implies that the folded witness satisfies the R1CS.", "quantifier": "every R1CS and witness", "why_tests_cant": "adversarial witnesses", "anchors": ["nova/src/nifs/nifs_verifier.rs: verify"]}
{"id": "C35", "title": "The folding challenge binds both instances", "statement": "Changing com_W, com_E or x of either instance changes the transcript input from which r is derived.", "quantifier": "every pair of instances", "why_tests_cant": "adversarial", "anchors": ["nova/src/nifs/nifs_prover.rs: prover (feeds u1,u2,comT only)"]}
{"id": "C36", "title": "The trivial pair satisfies the R1CS", "statement": "create_trivial_pair returns a pair that satisfies every R1CS of matching shape.", "quantifier": "every R1CS", "why_tests_cant": "all R1CS", "anchors": ["nova/src/r1cs/mod.rs: create_trivial_pair"]}
{"id": "C37", "title": "F' tracks the iterated function", "statement": "After any sequence of successful run/next_step rounds from AugmentedCircuit::new the step counter is the number of rounds, z_i is F applied successively to the witnesses from z_0, and h_i is hash_io(i,z_0,z_i,U_i) of the instance used in the last round.", "quantifier": "every circuit F, every history of rounds", "why_tests_cant": "all histories", "anchors": ["nova/src/circuit.rs: AugmentedCircuit::new, run, next_step"]}
{"id": "C38", "title": "F' rejects inconsistent inputs and leaves its state unchanged", "statement": "For i>0 run returns an error exactly if U_i/comT or the stored hash is missing, or u.x[0] differs from the stored hash, or u.comE differs from the trivial one, or u.u != 1; an error leaves the state unchanged.", "quantifier": "every state and inputs", "why_tests_cant": "all inputs", "anchors": ["nova/src/circuit.rs: run"]}
{"id": "C39", "title": "hash_io binds the IVC state", "statement": "Equal hash inputs of hash_io imply equal i, z_0, z_i and U_i (fixed-width serialisation), so equal outputs with different inputs are a hash collision (before reduction into the field).", "quantifier": "every pair of inputs", "why_tests_cant": "all inputs", "anchors": ["nova/src/circuit.rs: hash_io"]}
{"id": "C40", "title": "IVC completeness for any number of steps", "statement": "Driving IVC as in the example (run, verify, next_step, prove) for any number of steps on F-instances whose folded witnesses are not identically zero, every verify returns Ok, every run succeeds.", "quantifier": "every F, every number of steps, all witnesses", "why_tests_cant": "unbounded number of steps", "anchors": ["nova/src/ivc/ivc_prover.rs: prove", "nova/src/ivc/ivc_verifier.rs: verify", "nova/examples/examples.rs"]}
{"id": "C41", "title": "IVC verify decides exactly its checks", "statement": "IVC::verify at step 0 returns Ok iff z_0=z_i; at later steps Ok iff comT and the folding proof are present, u.x[0] is the hash of (i,z_0,z_i,U), u.comE is the trivial commitment, u.u=1 and NIFS::verify accepts on NIFS::verifier's instance.", "quantifier": "every proof and state", "why_tests_cant": "iff", "anchors": ["nova/src/ivc/ivc_verifier.rs: verify"]}
{"id": "C42", "title": "Nova transcript guard, replay and binding", "statement": "generate_challenges panics without a feed since the last generation; same feed histories give same challenges; different histories with the same state exhibit a hash collision.", "quantifier": "every history", "why_tests_cant": "all histories", "anchors": ["nova/src/transcript.rs: Transcript"]}
{"id": "C43", "title": "Gate constructors encode their equation", "statement": "The selector equation of an addition / multiplication / constant / dummy gate with public input pi holds for (a,b,c) iff a+b-c=pi, ab-c=pi, a-const=pi, true respectively.", "quantifier": "all field elements", "why_tests_cant": "iff over the field", "anchors": ["plonk/src/gate.rs: Gate::new_*"]}
{"id": "C44", "title": "Padding", "statement": "compile panics on circuits with fewer than two gates and otherwise produces a size that is the least power of two >= the number of gates, appending only dummy gates.", "quantifier": "every circuit", "why_tests_cant": "all sizes", "anchors": ["plonk/src/circuit.rs: pad_circuit, compile"]}
{"id": "C45", "title": "Compiled polynomials interpolate the circuit", "statement": "Each selector / wire / public-input polynomial of the compiled circuit takes the i-th gate's value at w^i (zero on padding rows) and has degree below the circuit size.", "quantifier": "every circuit built from the API, every row", "why_tests_cant": "all sizes", "anchors": ["plonk/src/circuit.rs: get_assignment, compile"]}
{"id": "C46", "title": "Permutation polynomials encode the wiring", "statement": "S_sigma_j(w^i) is the label of the position stored for wire j of gate i (its own label on padding rows); compile panics on out-of-range positions. The labels of the 3n positions are pairwise distinct for BLS12-381 Fr with k1=2,k2=3 for every supported size.", "quantifier": "every circuit, every size up to 2^32", "why_tests_cant": "all sizes up to 2^32", "anchors": ["plonk/src/circuit.rs: cal_permutation, find_cosets"]}
{"id": "C47", "title": "Quotient slicing", "statement": "SlicePoly::new(t) splits any non-zero t into three slices with t = lo + X^m mid + X^2m hi, m=degree+1, compact(x) evaluated at x equals t(x); the zero polynomial panics.", "quantifier": "every polynomial, every point", "why_tests_cant": "all lengths mod 3", "anchors": ["plonk/src/slice_polynomial.rs: SlicePoly"]}
{"id": "C48", "title": "Accumulator polynomial", "statement": "compute_acc returns acc with acc(1)=1 and acc(w^(i+1)) * denominator_i = acc(w^i) * numerator_i for i+1<n, and acc_w(x)=acc(w x) everywhere; it panics exactly if one of the first n-1 denominators vanishes.", "quantifier": "every compiled circuit, beta, gamma", "why_tests_cant": "all sizes", "anchors": ["plonk/src/prover.rs: compute_acc"]}
{"id": "C49", "title": "PLONK: whatever proof the prover returns verifies", "statement": "If generate_proof returns a proof then verify with the same circuit, SRS and digest returns Ok, unless the evaluation challenge is 1 (division by zero panics).", "quantifier": "every compiled circuit (also not from compile), SRS, blinders, challenge stream", "why_tests_cant": "all circuits, blinding values, challenges", "anchors": ["plonk/src/prover.rs: generate_proof", "plonk/src/verifier.rs: verify"]}
{"id": "C50", "title": "PLONK: the prover returns a proof for satisfying circuits", "statement": "For a circuit whose gate equations hold and whose wiring is a value-preserving permutation, generate_proof returns a proof (and verify accepts) for every blinding and all challenges outside an explicit degenerate set, given an SRS of the documented size.", "quantifier": "every satisfying circuit, blinders, challenges", "why_tests_cant": "all circuits", "anchors": ["plonk/src/prover.rs", "plonk/src/circuit.rs"]}
{"id": "C51", "title": "PLONK: the prover never returns a proof for violated gates", "statement": "If some gate equation does not hold for the assignment, generate_proof panics for all blinders and challenges.", "quantifier": "every circuit with a violated gate", "why_tests_cant": "all circuits", "anchors": ["plonk/src/prover.rs: compute_quotient_polynomial"]}
{"id": "C52", "title": "PLONK: the prover does not return a proof for violated copy constraints except for few challenges", "statement": "If the assignment does not respect the wiring permutation then generate_proof panics for all but few (beta,gamma), unless the challenge alpha is 0: for every beta outside a set of at most 3n values at most 3n values of gamma survive.", "quantifier": "every circuit, all challenges", "why_tests_cant": "counting over all challenges", "anchors": ["plonk/src/prover.rs: compute_quotient_polynomial, compute_acc"]}
{"id": "C53", "title": "PLONK verify decides exactly its equation", "statement": "verify returns Ok iff the recomputed u equals proof.u and the batched opening equation (s*(W+uW') = z*W + u*z*w*W' + F - E) holds in G1; it panics only when the evaluation challenge is 1 and u agrees.", "quantifier": "every circuit, proof, SRS", "why_tests_cant": "iff over adversarial proofs", "anchors": ["plonk/src/verifier.rs: verify"]}
{"id": "C54", "title": "PLONK verify ignores the witness part of the compiled circuit", "statement": "The verdict depends only on selectors, permutation polynomials, k1,k2, public input and size.", "quantifier": "every pair of compiled circuits with equal public parts", "why_tests_cant": "all inputs", "anchors": ["plonk/src/verifier.rs: verify"]}
{"id": "C55", "title": "PLONK prover and verifier use the caller's digest", "statement": "generate_proof::<T> followed by verify::<T> accepts for every digest T.", "quantifier": "every digest", "why_tests_cant": "all digests; prover hardwires Sha256", "anchors": ["plonk/src/prover.rs: generate_proof", "plonk/src/verifier.rs: verify"]}
{"id": "C56", "title": "PLONK arithmetization soundness", "statement": "If the quotient identity t*Z_H = gates + alpha*perm + alpha^2*start holds as polynomials for three distinct alpha (same wires, z), then every gate equation holds on every row and the grand product telescopes; and if it does so for sufficiently many (beta,gamma), wires connected by the permutation carry equal values.", "quantifier": "every polynomials, challenges", "why_tests_cant": "adversarial witnesses", "anchors": ["plonk/src/prover.rs: compute_quotient_polynomial", "plonk/src/verifier.rs"]}
{"id": "C57", "title": "PLONK challenge generator guard, replay and binding", "statement": "generate_challenges panics without a feed since the last generation or with no feed at all; same feeds give same challenges; different feed histories with the same state exhibit a hash collision.", "quantifier": "every history", "why_tests_cant": "all histories", "anchors": ["plonk/src/challenge.rs: ChallengeGenerator"]}
{"id": "C58", "title": "Normalisation ignores spaces and case and expands powers", "statement": "parse_string(s) does not depend on spaces or ASCII case, is the identity on already normalised strings without '^', and expands v^k (v a single letter, k>=1 in i32) to v*...*v.", "quantifier": "every string", "why_tests_cant": "all strings", "anchors": ["plonk/src/parser.rs: parse_string"]}
{"id": "C59", "title": "Powers of any base expand correctly", "statement": "parse_string expands b^k to b*...*b for every base written in the input language (numbers, multi-letter names) and every k>=0.", "quantifier": "every base", "why_tests_cant": "fails for numeric / multi-letter bases and k=0", "anchors": ["plonk/src/parser.rs: parse_string"]}
{"id": "C60", "title": "Generated wiring is the cyclic permutation of equal wires", "statement": "gen_circuit never panics on the output of prepare_gen_circuit; the stored positions form a permutation of all wire positions, whose cycles are exactly the classes of positions with the same wire expression.", "quantifier": "every parsable input", "why_tests_cant": "all inputs", "anchors": ["plonk/src/parser.rs: prepare_gen_circuit, gen_circuit, push_into_position_map_or_insert"]}
{"id": "C61", "title": "Parsed circuits compute the equation", "statement": "For every equation of the input language and every witness assignment that covers its variables, all gates of parse(s) hold except possibly the last one, and the circuit is satisfied (gates and copies) iff the equation holds.", "quantifier": "every equation, every assignment", "why_tests_cant": "all equations", "anchors": ["plonk/src/parser.rs: parse"]}
{"id": "C62", "title": "A parsed circuit forces the equation", "statement": "Any assignment of wire values satisfying the gates and copy constraints of parse(s) corresponds to variable values satisfying the equation.", "quantifier": "every equation and every (adversarial) wire assignment", "why_tests_cant": "adversarial", "anchors": ["plonk/src/parser.rs: get_witness_value (negated variables are unrelated wires)"]}
{"id": "C63", "title": "End to end", "statement": "For every equation other than variable = variable whose number of gates fits in the largest evaluation domain of the field: parse and compile succeed; if it holds under the witnesses then generate_proof returns a proof that verify accepts, outside degenerate challenges; if it does not hold then generate_proof panics. For variable = variable compile panics.", "quantifier": "every equation, assignment, blinders, challenges", "why_tests_cant": "all inputs", "anchors": ["plonk/src/parser.rs", "plonk/src/prover.rs", "plonk/src/verifier.rs"]}
{"id": "C64", "title": "Preprocessed input matches the prover's circuit", "statement": "For every equation whose tokens are canonical (no variable named by digits only, right-hand side not starting with a negative literal), compute_common_preprocessed_input yields the same size, k1,k2, selector and permutation commitments and public input as commit on the prover's compiled circuit.", "quantifier": "every equation, every witness assignment", "why_tests_cant": "all inputs", "anchors": ["plonk/src/common_preprocessed_input/cpi_parser.rs", "plonk/src/common_preprocessed_input/cpi_circuit.rs"]}
{"id": "C65", "title": "Missing witnesses and malformed equations are rejected", "statement": "parse panics if an operand is neither a witness name nor an i32 literal, and unless there is exactly one '='.", "quantifier": "every string, witness map", "why_tests_cant": "all inputs", "anchors": ["plonk/src/parser.rs: get_witness_value, prepare_gen_circuit"]}
{"id": "C66", "title": "FRI verify rejects decommitments of the wrong shape", "statement": "verify rejects a decommitment whose vectors do not have exactly one entry per layer root, so that the last fold is always compared with the claimed constant.", "quantifier": "every proof", "why_tests_cant": "adversarial shapes are unbounded", "anchors": ["fri/src/verifier.rs: verify_query"]}
{"id": "C67", "title": "The FRI constant is the multilinear combination of the coefficients", "statement": "The constant of a returned proof is the sum over i of p_i times the product of the folding challenges r_j over the set bits j of i.", "quantifier": "every polynomial, blowup, digest, challenge list", "why_tests_cant": "all sizes and challenge sequences", "anchors": ["fri/src/prover.rs: generate_proof, fold_polynomial"]}
{"id": "C68", "title": "Folding is 2-special-sound", "statement": "If for two different folding challenges the fold of a word f on a symmetric set of points agrees with polynomials of fewer than m coefficients, then f agrees there with a polynomial of fewer than 2m coefficients.", "quantifier": "every word, every symmetric point set, every pair of challenges", "why_tests_cant": "algebraic statement over all words", "anchors": ["fri/src/verifier.rs: verify_query", "fri/src/prover.rs: fold_polynomial"]}
{"id": "C69", "title": "Folding with the trivial pair is complete for every R1CS shape", "statement": "Folding a satisfying fresh instance-witness pair with create_trivial_pair's pair of the same R1CS, honestly, is accepted by NIFS::verify for every number of constraints and variables.", "quantifier": "every R1CS, every satisfying witness", "why_tests_cant": "all shapes (rows, columns, inputs)", "anchors": ["nova/src/r1cs/mod.rs: create_trivial_pair", "nova/src/nifs/mod.rs: fold_witness", "nova/src/nifs/nifs_verifier.rs: verify"]}
{"id": "C70", "title": "An accepted IVC step used a satisfying witness", "statement": "If IVC::verify accepts an honestly folded step, then the fresh witness of the step satisfies the R1CS.", "quantifier": "every R1CS, every (adversarial) witness", "why_tests_cant": "adversarial witnesses", "anchors": ["nova/src/ivc/ivc_verifier.rs: verify", "nova/src/ivc/ivc_prover.rs: prove"]}
{"id": "C71", "title": "A parsed circuit's number of gates is linear in the equation", "statement": "A parsed circuit has at most one gate per literal, multiplication sign and summand of the equation; it has at least one gate, and exactly one iff the equation equates two single variables.", "quantifier": "every equation, every assignment covering its variables", "why_tests_cant": "all equations", "anchors": ["plonk/src/parser.rs: parse, prepare_gen_circuit, gen_circuit"]}
{"id": "C72", "title": "CPICircuit and Circuit compile to the same public part", "statement": "For the same sequence of gate calls with positions in the three layers, CPICircuit::compile and Circuit::compile agree on size, selectors, public input, permutation polynomials and coset constants, and panic on the same circuits.", "quantifier": "every sequence of gate calls", "why_tests_cant": "all circuits", "anchors": ["plonk/src/common_preprocessed_input/cpi_circuit.rs: compile, cal_permutation", "plonk/src/circuit.rs: compile"]}
{"id": "C73", "title": "PLONK: algebraic provers of violated circuits are rejected", "statement": "For a circuit that fits the SRS, a prover whose group elements are commitments to polynomials of its choice (each chosen with knowledge of the earlier challenges) and whose wire polynomials violate a gate or a connection is rejected by verify, unless a challenge falls in an explicitly bounded set that is fixed before it is drawn; in particular if no wire values satisfy the circuit. Over a field with q elements at most (6 size + 2 + M(4N+2M) + 6M + N) q^6 of the q^7 challenges and secrets are accepted.", "quantifier": "every compiled circuit, every algebraic prover strategy, every hash and random generator", "why_tests_cant": "quantifies over all adversaries and challenges", "anchors": ["plonk/src/verifier.rs: verify", "plonk/src/prover.rs: generate_proof"]}
{"id": "C74", "title": "PLONK: an accepted proof is bound to the public inputs", "statement": "A prover cannot make a proof that is accepted for public inputs for which the circuit is not satisfiable, even if it may choose the public inputs itself.", "quantifier": "every circuit, every prover strategy", "why_tests_cant": "adversarial", "anchors": ["plonk/src/challenge.rs: ChallengeGenerator", "plonk/src/verifier.rs: verify, verify_challenges"]}
{"id": "C75", "title": "FRI: query soundness against committed layers", "statement": "For a prover that fixes the word of each layer before that layer's folding challenge is drawn and whose decommitments reveal values of these words: if the first word differs from every polynomial with at most 2^L coefficients (L layers) in more than 2^L*B positions, then for all but one challenge per round more than B of the domain_size query positions are rejected by verify_query, whatever words and constant the prover sends. If it differs from them in more than B positions, where 3B + 2^L <= domain_size, the same holds for all but B/2^i + 1 challenges in round i = 1, 2, .... If 2B + 2^L <= domain_size (up to half the distance between such polynomials), it holds for all but domain_size/2^i challenges in round i. In all cases at most (domain_size-B-1)^q of the lists of q positions pass. Conversely words of polynomials with at most 2^L coefficients are accepted everywhere.", "quantifier": "every word, every adaptive prover strategy, every challenge sequence", "why_tests_cant": "quantifies over all adversaries and challenges", "anchors": ["fri/src/verifier.rs: verify_query", "fri/src/prover.rs: fold_polynomial"]}
{"id": "C76", "title": "FRI: an accepted proof bounds the degree", "statement": "An accepted proof over a domain of size D made with blowup factor b attests that the word committed to by the first root is close to a polynomial with at most D/b coefficients.", "quantifier": "every proof", "why_tests_cant": "adversarial; the number of layers is log2(domain_size) whatever the blowup factor", "anchors": ["fri/src/verifier.rs: verify", "fri/src/prover.rs: generate_proof"]}
{"id": "C77", "title": "KZG openings of algebraic provers are sound", "statement": "A prover whose group elements are linear combinations of the SRS points, with coefficients p for the commitment, cannot open it to a value different from p(z): for every claimed false value and every witness, verify accepts for at most n+3 secrets. The same holds for a list of commitments aggregated with a challenge v (all but len-1 values of v) and for batch_verify (all but one value of the random coefficient of the false claim).", "quantifier": "every coefficient vectors, points, claimed values", "why_tests_cant": "quantifies over all adversaries and secrets", "anchors": ["kzg/src/scheme.rs: verify, aggregate_commitments, batch_verify"]}
{"id": "C78", "title": "PLONK blinding hides wires and accumulator", "statement": "For every witness, every evaluation challenge zeta off the domain with zeta and zeta*omega different from the secret, and each b7: every possible value of the four commitments to wires and accumulator and of the evaluations a(zeta), b(zeta), c(zeta), z(zeta*omega) is produced by exactly one choice of the other eight blinding values (unless a denominator of the grand product vanishes), so that this part of the proof is distributed independently of the witness. If zeta is the domain point of a row, the proof contains the wire values of the row.", "quantifier": "every circuit, witness, secret, challenge, hash and random generator", "why_tests_cant": "a statement about distributions over all blinding values", "anchors": ["plonk/src/prover.rs: generate_proof"]}
{"id": "C79", "title": "PLONK proofs are zero knowledge", "statement": "Two satisfying witnesses of the same circuit have the same set of possible proofs (over the blinding values), when secret and evaluation challenge are off the domain.", "quantifier": "every circuit, every pair of witnesses", "why_tests_cant": "a statement about all blinding values; the commitments to the quotient slices are not blinded", "anchors": ["plonk/src/prover.rs: generate_proof", "plonk/src/slice_polynomial.rs: SlicePoly"]}
{"id": "C80", "title": "Verifiers do not panic on attacker-supplied proofs", "statement": "FRI verify and IVC::verify return a Result, and do not panic, for every proof a prover may send.", "quantifier": "every (adversarial) proof", "why_tests_cant": "adversarial proofs are unbounded", "anchors": ["fri/src/verifier.rs: verify, verify_query", "nova/src/ivc/ivc_verifier.rs: verify"]}
{"id": "C81", "title": "Folding any number of instances and checking the accumulator at the end is sound", "statement": "If an instance folded by NIFS::verifier, or the accumulator it is folded into, is not satisfied by the vectors its commitments are combinations of, then for all but two values of the folding challenge, and of the challenge of every later folding of any instances and cross terms the prover chooses adaptively, no witness makes is_r1cs_satisfied accept the final accumulator, except for at most n+2 secrets of the SRS. Conversely vectors that satisfy the relation are accepted.", "quantifier": "every R1CS, every number of foldings, every adaptive algebraic prover", "why_tests_cant": "quantifies over all adversaries, numbers of foldings and challenges", "anchors": ["nova/src/nifs/nifs_verifier.rs: verifier", "nova/src/nifs/mod.rs: fold_instance", "nova/src/r1cs/mod.rs: is_r1cs_satisfied"]}
{"id": "C82", "title": "PLONK: honest proving fails only for few challenges", "statement": "For a satisfied circuit with n rows and blinding values with b1,b3,b5,b7 non-zero and b1+b3 different from b5, generate_proof returns a proof that verify accepts, for all but one value of beta, all but 3n values of gamma, all but 3 values of alpha and all but 6n+8 values of the evaluation challenge.", "quantifier": "every satisfied circuit, blinding values, challenges, hash, secret", "why_tests_cant": "a count over all challenges", "anchors": ["plonk/src/prover.rs: generate_proof", "plonk/src/verifier.rs: verify"]}
{"id": "C83", "title": "Challenges and query positions are drawn from the whole space", "statement": "Every field element can be a challenge, and every list of query positions can be drawn, for a suitable history: challenges are not confined to a small subset fixed by the random generator.", "quantifier": "every history, every digest", "why_tests_cant": "all histories; the random generator is seeded with only 64 bits of the digest", "anchors": ["plonk/src/challenge.rs: generate_rng_with_seed", "nova/src/transcript.rs: generate_rng_with_seed", "fri/src/fiat_shamir/transcript.rs: generate_rng_with_seed"]}
{"id": "C84", "title": "FRI and Nova: honest proving fails only for few challenges", "statement": "For a polynomial that is not zero, of a size the field supports, FRI generate_proof returns a proof that verify accepts unless one of the folding challenges takes the one exceptional value of its round (at most k q^(k-1) of the q^k lists of k challenges). For two committed pairs whose witnesses are not both zero and whose error vectors and cross terms are not all zero, NIFS::prove returns an accepted proof for all but three values of the folding challenge; for other pairs, such as a satisfying fresh pair folded with itself, it panics for every challenge.", "quantifier": "every polynomial, blowup, number of queries, R1CS, pair of instances, hash, challenges", "why_tests_cant": "a count over all challenges", "anchors": ["fri/src/prover.rs: generate_proof", "nova/src/nifs/nifs_prover.rs: prover, prove"]}
{"id": "C85", "title": "64-bit machine arithmetic does not break the protocols", "statement": "On a 64-bit target, with and without overflow checks: FRI verify gives the same verdict as with unbounded integers for every proof; FRI generate_proof with checks behaves as with unbounded integers for every input, and without checks every proof it returns is accepted, even if len*blowup wraps; PLONK verify agrees for every proof with degree < 2^63-1 and so accepts honest proofs; for larger degree fields it panics (checks on, correct u) or wraps (checks off), and algebraic provers of violated circuits are still rejected outside small sets of challenges, for every 64-bit value of degree chosen after all challenges.", "quantifier": "every proof, polynomial, blowup, circuit, algebraic prover, both kinds of build", "why_tests_cant": "needs all 2^64 values of attacker-chosen fields", "anchors": ["fri/src/prover.rs: generate_proof, query_phase", "fri/src/verifier.rs: verify, verify_query", "plonk/src/verifier.rs: verify"]}
{"id": "C86", "title": "Accepted openings, folding proofs and PLONK proofs are determined by the rest", "statement": "For every commitment, value and point other than the secret, KZG verify accepts exactly one witness (the one open returns, for the true value). Two folding proofs accepted for the same instances, cross-term commitment and transcript have the same r and opening point, and are equal or exhibit (s-z)^-1 g1. An accepted PLONK proof is rejected once u is changed, and stays accepted for another degree exactly if the recombined quotient is the same at the evaluation challenge, which happens for few challenges only.", "quantifier": "every commitment, point, proof, circuit, hash, secret", "why_tests_cant": "uniqueness ranges over all group elements", "anchors": ["kzg/src/scheme.rs: verify, open", "nova/src/nifs/nifs_verifier.rs: verify", "plonk/src/verifier.rs: verify"]}
{"id": "C87", "title": "FRI and IVC proofs cannot be altered", "statement": "A proof accepted by FRI verify or IVC::verify is rejected once any of its parts is altered.", "quantifier": "every accepted proof, every alteration", "why_tests_cant": "adversarial", "anchors": ["fri/src/verifier.rs: verify", "nova/src/ivc/ivc_verifier.rs: verify"]}
{"id": "C88", "title": "The shipped example programs run to their end", "statement": "The KZG example program runs to its end, with all its assertions, for every secret. The FRI, PLONK and Nova example programs never fail an assertion and panic only if a challenge takes one of few values: one per round for FRI; 1 value of beta, 24 of gamma, 3 of alpha and 56 of the evaluation challenge for PLONK (blinding values non-degenerate); three per folding for Nova, for every number of steps.", "quantifier": "every secret, blinding values, digest and challenge, every number of steps", "why_tests_cant": "the programs draw their randomness and run once per test", "anchors": ["kzg/examples/example.rs: main", "fri/examples/example.rs: main", "plonk/examples/example.rs: main", "nova/examples/examples.rs: main"]}
{"id": "C89", "title": "IVC objects keep F's iteration through every history of calls", "statement": "After any sequence of run, next_step and verify calls on a new object, whether or not they succeed and in any order, the counter is the number of next_step calls, the initial state is unchanged, the state is F iterated over the witnesses of the last successful run before each next_step, and the stored hash is that of the state and of the instance accumulated in the last completed round; next_step panics exactly if no run succeeded since the last one.", "quantifier": "every F, every history of calls with any arguments", "why_tests_cant": "all interleavings of calls", "anchors": ["nova/src/circuit.rs: run, next_step", "nova/src/ivc/ivc_verifier.rs: verify"]}
{"id": "C90", "title": "Checked IVC steps chain the accumulator", "statement": "If every step is checked by run and by IVC::verify, as in the example program, then the accumulated instance presented in the second step is the trivial one and that of each later step is the fold of the two instances presented before, or two colliding states are exhibited; run alone binds nothing: it accepts every accumulated instance.", "quantifier": "every F, every number of steps, every (adversarial) instances and proofs", "why_tests_cant": "adversarial instances, unbounded number of steps", "anchors": ["nova/src/circuit.rs: run", "nova/src/ivc/ivc_verifier.rs: verify"]}
{"id": "C91", "title": "An accepted IVC proof attests the state", "statement": "If IVC::verify accepts a proof for an object with counter i, initial state z0 and state z, then z is F iterated i times on z0.", "quantifier": "every object, every proof", "why_tests_cant": "adversarial proofs", "anchors": ["nova/src/ivc/ivc_verifier.rs: verify"]}
{"id": "C92", "title": "The shipped IVC program folds satisfied instances", "statement": "Every instance the Nova example program folds is satisfied by its witness.", "quantifier": "every input and hash", "why_tests_cant": "the hash of the state is put where the R1CS reads its output", "anchors": ["nova/examples/examples.rs: main, gen_test_values"]}
{"id": "C93", "title": "Parsing reveals no witness values", "statement": "For every source text and every two witness assignments that define the same names, parsing and compiling succeed for both or neither, and the public part of the result (selectors, permutation, size, coset generators) is the same, so verify gives the same verdict for every proof. Only the values of names that occur in the normalised text influence the parsed circuit.", "quantifier": "every text, every pair of witness assignments, every proof", "why_tests_cant": "all texts and witnesses: a comparison or a constant folded from witness values would leak them into the verifier key", "anchors": ["plonk/src/parser.rs: parse, prepare_gen_circuit, gen_circuit, get_witness_value", "plonk/src/circuit.rs: compile_circuit", "plonk/src/verifier.rs: verify"]}
{"id": "C94", "title": "A Merkle root binds the whole list of leaves", "statement": "Two lists of leaves whose trees have the same depth (in particular two lists of the same length, of any length) and the same root are equal, or the two trees exhibit two different inputs of the leaf hash or of the node hash, at the same place, with the same value.", "quantifier": "every pair of leaf lists, of any lengths, every hash", "why_tests_cant": "all pairs of lists; odd levels have an unpaired node", "anchors": ["fri/src/merkle_tree.rs: MerkleTree::new, root", "fri/src/hasher.rs: hash, hash_slice"]}
{"id": "C95", "title": "Every accepted text means what it says", "statement": "With witness names that do not start with a digit or sign and contain no white space: whatever text the parser accepts (without a plus sign on the right-hand side) reads, uniquely, as sum of products = product of names and i32 numbers with optional minus signs, and the circuit is about that reading: its gates hold iff both sides have the same value, a proof is returned and accepted if they do, and generate_proof panics if they do not. Sums on the right-hand side are rejected, not misread.", "quantifier": "every text, every witness assignment with plain names", "why_tests_cant": "all texts, also oddly written ones (tabs, leading zeros, repeated signs)", "anchors": ["plonk/src/parser.rs: parse, prepare_gen_circuit, get_witness_value"]}
{"id": "C96", "title": "Altered FRI openings and constants are rejected", "statement": "Take any complete accepted FRI proof (one decommitment per query, one entry per layer; all honest proofs are). Replacing the constant, any revealed evaluation, or any authentication path by one with another index, leaf or root makes verify return an error, without panicking; replacing the siblings of a path does too unless the two paths exhibit a hash collision. Another non-zero coset, or other layer roots, are accepted exactly if the change does not show in any of the checked folding equations and query positions.", "quantifier": "every accepted proof, every altered entry, every hash and random generator", "why_tests_cant": "adversarial alterations; the repository tests one altered constant", "anchors": ["fri/src/verifier.rs: verify, verify_query", "fri/src/merkle_tree.rs: verify_merkle_proof"]}
{"id": "C97", "title": "A PLONK proof is tied to its circuit", "statement": "A proof accepted for one circuit is accepted for another of the same size exactly if an explicit combination of the differences of their selectors, public inputs and permutation polynomials vanishes. Hence no proof whatsoever (honest or forged) is accepted for two circuits of the same shape that differ in a constant, for all but size-1 secrets; nor for two that differ in a public input, for all but size-1 evaluation challenges; nor, with given evaluations and challenges, for two that are wired differently, for all but five values of v and then size-1 secrets. In particular both assertions of the repository's parser_constant_test hold for all but 15 secrets and the evaluation challenge 1.", "quantifier": "every pair of circuits, every proof, hash, secret", "why_tests_cant": "adversarial proofs; the repository tests one pair of circuits with one proof each", "anchors": ["plonk/src/verifier.rs: verify", "plonk/src/circuit.rs: compile", "plonk/src/parser.rs: parser_constant_test"]}
{"id": "C98", "title": "The repository's own tests pass for every randomness", "statement": "Each #[test] of the workspace, with the numbers it draws at random (secrets, blinding values, digests, generator, coefficients) as arguments: the deterministic and should_panic tests and all KZG tests behave as expected for every value; tests that prove and verify never fail an assertion, and panic only if a challenge takes one of few values; test_slice_poly passes exactly if three of its coefficients are not zero; the tests that compare challenges of different histories pass exactly if the generator separates the two digests.", "quantifier": "every secret, blinding value, digest, generator and coefficient", "why_tests_cant": "the tests are run once, with one randomness", "anchors": ["kzg/src/commitment.rs: tests", "fri/src: tests", "nova/src: tests", "plonk/src: tests"]}
{"id": "C99", "title": "A proof fits one setup", "statement": "An opening (alone or in a batch), a folding proof or an IVC proof accepted under the setup with secret s is accepted under the setup with secret s' exactly if s'=s or its witnesses (their combination, for a batch) are the neutral element; an honest opening of a non-constant polynomial made under s is accepted by another setup for at most deg+1 values of s. A PLONK proof, honest or forged, is accepted under every setup or under at most max(1,size-1) of them, and moving an accepted proof from one secret to another is governed by one explicit equation.", "quantifier": "every commitment, opening, folding proof, IVC proof, PLONK proof, pair of secrets and SRS sizes", "why_tests_cant": "all proofs and all secrets", "anchors": ["kzg/src/scheme.rs: verify, batch_verify", "kzg/src/srs.rs: new_from_secret", "nova/src/nifs/nifs_verifier.rs: verify", "nova/src/ivc/ivc_verifier.rs: verify", "plonk/src/verifier.rs: verify"]}
{"id": "C100", "title": "The setup secret is a trapdoor", "statement": "Whoever knows the secret of an SRS can, without any witness, open every group element to every value at every point other than the secret (and for a true value obtains exactly the opening that open returns), make NIFS::verify accept any three instances with any cross-term commitment, and turn any proof object for any compiled circuit, satisfiable or not, into a PLONK proof that verify accepts. So secrecy of the value given to new_from_secret is necessary for soundness of all three protocols.", "quantifier": "every secret, commitment, value, point; every triple of instances and transcript; every compiled circuit and proof object", "why_tests_cant": "all inputs", "anchors": ["kzg/src/srs.rs: new_from_secret", "kzg/src/scheme.rs: verify", "nova/src/nifs/nifs_verifier.rs: verify", "plonk/src/verifier.rs: verify"]}
{"id": "C101", "title": "Names are only names", "statement": "Renaming the characters of witness names, in the text and in the assignment, changes neither the parsed circuit (gates, values, connections) nor the verifier's preprocessed input, nor which texts panic, whatever the text. Renaming whole names, also to names of other lengths, does so for texts with corresponding normal forms (powers are expanded for one-character names only).", "quantifier": "every text, accepted or not, every witness assignment, every renaming", "why_tests_cant": "all texts and renamings: keys are concatenated strings, so names could interfere", "anchors": ["plonk/src/parser.rs: parse, parse_string, prepare_gen_circuit, gen_circuit", "plonk/src/common_preprocessed_input/cpi_parser.rs: compute_common_preprocessed_input"]}
{"id": "C102", "title": "Exactly when the prover returns a proof", "statement": "For every compiled circuit, satisfied or not, generate_proof returns a proof if and only if the relation of every gate holds, the two grand products of the copy constraints over all positions agree or the challenge alpha is zero, and the run is not degenerate (a vanishing denominator or a zero polynomial); the proof is then the honest one, and verify accepts it unless the evaluation challenge is 1, where it panics. In all other cases generate_proof panics. In particular copy constraints are not checked at all when alpha is zero.", "quantifier": "every circuit, witness values, blinding values, hash, random generator, secret", "why_tests_cant": "an equivalence over all circuits and challenges", "anchors": ["plonk/src/prover.rs: generate_proof, compute_quotient_polynomial", "plonk/src/verifier.rs: verify"]}
{"id": "C103", "title": "The verifier's preprocessing of arbitrary texts", "statement": "CPIGenerator returns a circuit exactly for the texts that can be normalised, have exactly one equals sign and are not merely one non-numeric operand on each side (given a field with large enough domains, and an SRS of sufficient size for compute_common_preprocessed_input); operands are not checked otherwise, so it accepts texts the prover's parser refuses. For every text the prover's parser accepts, with canonically written operands, names that are not numbers and no plus sign on the right-hand side, it compiles exactly the public part of the prover's circuit, and a verifier using it gives every proof the same verdict as one holding the prover's circuit.", "quantifier": "every text, witness assignment, SRS, proof", "why_tests_cant": "texts and proofs are unbounded; agreement relates two independent parsers", "anchors": ["plonk/src/common_preprocessed_input/cpi_parser.rs: CPIGenerator::compute_common_preprocessed_input, prepare_generation, gen_circuit", "plonk/src/parser.rs: Parser::parse", "plonk/src/verifier.rs: verify"]}
{"id": "C104", "title": "A witness is used under the name it was registered with", "statement": "The circuit parse returns depends on the last add_witness call for each name only, and is about these values: a name written in the text stands for the value registered under that name, and a number stands for itself. (False of the code: texts are lower-cased and names are not, so names with capitals are ignored; a witness named like a number replaces the number; the right-hand side is one operand even if it contains a plus sign.)", "quantifier": "every sequence of add_witness calls, every text", "why_tests_cant": "sequences of calls, names and texts are unbounded", "anchors": ["plonk/src/parser.rs: Parser::add_witness, Parser::parse, Parser::parse_string, Parser::get_witness_value"]}
{"id": "C105", "title": "The private fields of Merkle paths protect FRI verification", "statement": "A program that only uses the public interface of the fri crate (authentication paths can only be taken out of proofs returned by generate_proof; their index and leaf value, and all other proof fields, can be set freely) cannot assemble a proof that verify accepts although its values are not those committed to by its layer roots. (False of the code: paths of constant polynomials pass under any index, and the roots are not compared. What holds: an accepted path shows the value the prover revealed, up to a collision.)", "quantifier": "every program built from the public interface: all assembled proofs, roots, constants", "why_tests_cant": "the set of assembled values is unbounded", "anchors": ["fri/src/merkle_tree.rs: MerkleProof, verify_merkle_proof", "fri/src/prover.rs: Proof, Decommitment, generate_proof", "fri/src/verifier.rs: verify", "fri/src/lib.rs"]}
{"id": "C106", "title": "Dummy gates do not change the circuit of the verifier", "statement": "For every sequence of public calls on a CPICircuit, add_dummy_gate included, the compiled selectors, public input and permutation of row i are those of the i-th call; a dummy gate only adds a row without constraints. (False of the code: dummy gates are left out of the selectors but counted in the permutation, so it holds exactly if no dummy gate precedes another gate.)", "quantifier": "every sequence of calls", "why_tests_cant": "all sequences of calls; the repository tests no dummy gates", "anchors": ["plonk/src/common_preprocessed_input/cpi_circuit.rs: add_dummy_gate, get_assignment, cal_permutation, compile"]}
{"id": "C107", "title": "PLONK: trying many transcripts does not help", "statement": "Let the generator behind the challenges be a function of the 64-bit seed. An algebraic prover that may compute the challenges of any transcripts it likes, adaptively, q evaluations in all, and then returns a proof for wires that violate the circuit (or any proof, if the circuit is unsatisfiable) is accepted for at most a fraction q(6 size + 2 + M(4(n+3)+2M) + 5M)/r of all generators, where M bounds the degree field, unless two different partial transcripts of its run have the same seed or the polynomial behind the opening equation, which the prover knows, is not zero and vanishes at the secret of the setup.", "quantifier": "every compiled circuit, digest, secret, every adaptive algebraic prover with any number of evaluations", "why_tests_cant": "quantifies over all adversaries and generators", "anchors": ["plonk/src/challenge.rs: feed, generate_challenges", "plonk/src/verifier.rs: verify"]}
{"id": "C108", "title": "Nova: non-interactive folding checked at the end is sound", "statement": "A user folds instances with NIFS::verify and NIFS::verifier and in the end checks the accumulator with is_r1cs_satisfied. A prover that may compute the challenges of any transcripts it likes cannot, except with small probability over the generator, be accepted if one of the folded instances is not satisfied. (False of the code: the challenge does not depend on the commitments of the instances, so a fresh instance without any witness can be folded and passes the final check for every non-zero challenge. What holds: it is so if no two different partial transcripts of the run have the same seed.)", "quantifier": "every R1CS, number of foldings, hash, secret, every adaptive algebraic prover", "why_tests_cant": "quantifies over all adversaries and generators", "anchors": ["nova/src/nifs/nifs_verifier.rs: verify, verify_challenge, verifier", "nova/src/r1cs/mod.rs: is_r1cs_satisfied", "nova/src/transcript.rs"]}
{"id": "C109", "title": "FRI: trying many transcripts does not help against committed layers", "statement": "Take the generator of the transcript to be a function of the 64-bit seed of which a prover knows only the values it asked for. A prover that commits to its layers with Merkle trees, evaluates the generator at most n times (adaptively, counting the evaluations of the verifier), and returns a complete proof (one decommitment per query, one entry per layer, paths that lead to the roots of the proof) for m layers over a coset of size 2^k, gets a first layer that differs from every polynomial with at most 2^m coefficients in more than 2^m*B places accepted for at most a fraction n*(1/|F| + (1-(B+1)*e/|F|)^q) of all generators, where q is the number of queries and e the least number of field elements mapped to a query position (at least floor(p/2^k) over Goldilocks), unless the run contains an explicit hash collision or two different partial transcripts with the same seed; and a first layer that differs from these polynomials in more than B places, where 3B + 2^m <= 2^k, for at most a fraction n*((B/2+1)/|F| + (1-(B+1)*e/|F|)^q); where 2B + 2^m <= 2^k, for at most a fraction n*(2^(k-1)/|F| + (1-(B+1)*e/|F|)^q).", "quantifier": "every prover strategy, every generator, every number of layers, queries and questions, every domain size, distance, hash and digest", "why_tests_cant": "A test runs one prover; the statement counts generators for all adaptive provers.", "anchors": ["fri/src/verifier.rs: verify", "fri/src/fiat_shamir/transcript.rs: Transcript::digest", "fri/src/fiat_shamir/transcript.rs: Transcript::generate_a_challenge", "fri/src/fiat_shamir/transcript.rs: Transcript::generate_challenge_list_usize", "fri/src/prover.rs: folding_phase"]}
{"id": "C110", "title": "The verifier's circuit identifies the equation", "statement": "If the verifier's preprocessing gives the same circuit for two texts, then the texts state the same equation up to the names of the variables; in particular a proof accepted for the one shows that the other can be satisfied. (False of the code: x and -x are two unrelated operands, so x+1=x, which nothing satisfies, has the circuit of x+1=y, and the honest proofs of the latter are accepted for it. What holds, and exactly: two texts have the same circuit iff their operands are the same up to a renaming of the signed operands that keeps numbers, 0 and differences; and if no variable occurs with both signs in the second text, satisfiability carries over.)", "quantifier": "every pair of texts, every witness, all but few challenges, every SRS and pairing", "why_tests_cant": "quantifies over all pairs of texts; a test compares two", "anchors": ["plonk/src/common_preprocessed_input/cpi_parser.rs: CPIGenerator::compute_common_preprocessed_input", "plonk/src/common_preprocessed_input/cpi_parser.rs: CPIGenerator::gen_circuit", "plonk/src/common_preprocessed_input/cpi_circuit.rs: CPICircuit::compile", "plonk/src/parser.rs: Parser::parse_string"]}
{"id": "C111", "title": "How large the setup must be", "statement": "Setups with the same secret differ only in being large enough: whatever commit, open, the Nova provers and relation check, generate_proof, the PLONK verifier and the verifier's preprocessing return under a setup, they return under every larger one; KZG, folding and IVC verification do not depend on the size at all. With non-zero blinding value b7, generate_proof can succeed under a setup of size n exactly if n is at least the circuit size, and its proof is then the same for all of them; the PLONK verifier gives the same verdict under all setups with at least as many points as the circuit has rows; vectors of n+3 entries fit a setup of size n, longer ones make commit panic.", "quantifier": "every polynomial, vector, circuit, proof, R1CS, transcript, secret and pair of sizes", "why_tests_cant": "the sizes, circuits and vectors are unbounded; tests use one size", "anchors": ["kzg/src/srs.rs: Srs::new_from_secret", "kzg/src/scheme.rs: KzgScheme::evaluate_in_s", "plonk/src/prover.rs: generate_proof", "plonk/src/verifier.rs: verify", "nova/src/nifs/nifs_prover.rs: NIFS::prover", "nova/src/r1cs/mod.rs: is_r1cs_satisfied"]}
{"id": "C112", "title": "What commitments, openings, instances and FRI proofs reveal", "statement": "A KZG commitment with openings at points other than the secret reveals exactly the value at the secret (times the generator) and the opened values: two polynomials look the same iff they agree there, so after up to n+1 openings every value at a further point is still possible; as many openings as coefficients determine the polynomial. Commitments are deterministic: guesses of the polynomial can be checked against the commitment, and guesses of a Nova witness against its instance, for all but few secrets. Each query of a FRI proof reveals two true values of the polynomial, at opposite points of the coset, and the proof determines the polynomial once it opens as many different points as the polynomial has coefficients.", "quantifier": "every polynomial, witness, list of points, list of guesses, secret, setup size, number of queries", "why_tests_cant": "what stays possible for an observer is a statement about all other polynomials", "anchors": ["kzg/src/scheme.rs: KzgScheme::commit", "kzg/src/scheme.rs: KzgScheme::open", "nova/src/r1cs/mod.rs: FWitness::commit", "fri/src/prover.rs: generate_proof"]}
{"id": "C113", "title": "A circuit is about as large as its text", "statement": "The number of gates parse returns, and the size the verifier's preprocessing computes, is bounded by a small multiple of the length of the text. (False of the code: powers are written out, so the 14 characters x^2147483647=y give 2147483647 gates, and the 40 characters a^2147483647+b^2147483647+c^2147483647=d a circuit that panics when it is compiled. What holds, and exactly: there is one gate per different number, one per different beginning with at least two factors of a product, and one per plus or equals sign; texts without powers give at most two gates per character; the preprocessing accepts a text exactly if it gives at least 2 and at most 2^32 gates, and its size is the next power of two.)", "quantifier": "every text (without plus sign on the right-hand side), every witness assignment", "why_tests_cant": "all texts; the largest ones cannot be run", "anchors": ["plonk/src/parser.rs: Parser::parse", "plonk/src/parser.rs: Parser::parse_string", "plonk/src/common_preprocessed_input/cpi_parser.rs: CPIGenerator::compute_common_preprocessed_input", "plonk/src/circuit.rs: Circuit::compile"]}
{"id": "C114", "title": "An accepted opening of an aggregated commitment opens every commitment in it", "statement": "Accepted openings of single commitments at one point combine, with the powers of the challenge, to an accepted opening of the aggregated commitment. Conversely, from accepted openings of the aggregated commitment to the aggregated values, for as many different challenges as there are commitments, accepted openings of every single commitment to its claimed value are computed by fixed coefficients that depend on the challenges only. If a claimed value is wrong for the committed polynomials, the aggregated claim is true for fewer challenges than there are commitments; for any fewer challenges there are wrong values that all of them pass.", "quantifier": "every secret, srs size, list of commitments, evaluation point, values, witnesses and challenges", "why_tests_cant": "all secrets, group elements and tuples of challenges", "anchors": ["kzg/src/scheme.rs: KzgScheme::aggregate_commitments", "kzg/src/scheme.rs: KzgScheme::verify"]}
{"id": "C115", "title": "batch_verify accepts no batch with an invalid opening, whatever generator it is given", "statement": "For every source of coefficients, batch_verify returns true only if every opening of the batch is valid. (False of the code: any RngCore is taken, and whoever knows two of the coefficients, both not zero, turns any valid batch into an accepted one with two invalid openings, keeping the witnesses and choosing the change of one value freely; an opening whose coefficient is zero is not checked. What holds: a batch with exactly one invalid opening is accepted exactly if its coefficient is zero in the field, and of all vectors of u128 coefficients at most one in 2^128 accepts a given batch that has an invalid opening.)", "quantifier": "every secret, srs size, batch and sequence of coefficients", "why_tests_cant": "all batches and all 2^(128k) coefficient vectors", "anchors": ["kzg/src/scheme.rs: KzgScheme::batch_verify", "kzg/src/scheme.rs: KzgScheme::verify"]}
{"id": "C116", "title": "IVC: a proof whose folded instance is satisfied attests a satisfied step", "statement": "A user accepts a step if IVC::verify accepts the proof for the object's counter and states and, in addition, is_r1cs_satisfied accepts the folded instance with a witness that the prover shows. Then the fresh instance of the step is satisfiable. (False of the code: for every object after the first step there are a satisfied accumulated instance and a proof, accepted by both checks, whose fresh instance has no witness, unless the challenge or the hash of the state is zero. What holds: the fresh instance fits one counter, initial state, state and accumulated instance, or two colliding states are exhibited; and honest steps with satisfied pairs pass both checks.)", "quantifier": "every object, transcript, hash, secret, accumulated instance and proof", "why_tests_cant": "all states and proofs, adversarial commitments", "anchors": ["nova/src/ivc/ivc_verifier.rs: IVC::verify", "nova/src/nifs/nifs_verifier.rs: NIFS::verify", "nova/src/r1cs/mod.rs: is_r1cs_satisfied"]}
{"id": "C117", "title": "Verifier errors name the first failed check", "statement": "A verifier that rejects says why. The message that fri::verifier::verify, plonk::verifier::verify, NIFS::verify, IVC::verify and AugmentedCircuit::run return is that of the first check that fails in a fixed, documented order: for FRI query position by query position and layer by layer the indices, the revealed values, the Merkle paths and the folding; for PLONK the recomputed challenge u, then the pairing equation; for NIFS the folding challenge, the opening point, the opening of W, the opening of E; for IVC the presence of the cross term and of the folding proof, the public input, the error commitment, the scalar and then the NIFS checks; for run the parameters, the stored hash, the public input, the error commitment and the scalar. Ok is returned exactly if no check fails, and run leaves the object as it was when it returns an error.", "quantifier": "every proof (of any shape), transcript, hash function, reference string and object state", "why_tests_cant": "every combination of failing checks in every query and layer", "anchors": ["fri/src/verifier.rs: verify, verify_query", "plonk/src/verifier.rs: verify", "nova/src/nifs/nifs_verifier.rs: NIFS::verify", "nova/src/ivc/ivc_verifier.rs: IVC::verify", "nova/src/circuit.rs: AugmentedCircuit::run"]}
{"id": "C118", "title": "A KZG setup has the requested size on 64 bits", "statement": "On a 64-bit target, with and without overflow checks and with any amount of memory, Srs::new_from_secret(s, n) either panics or returns a setup of n + 3 points, under which every polynomial of degree up to n + 2 other than zero can be committed to, opened and verified. (False of builds without overflow checks, for exactly the three largest sizes: usize::MAX - 2, usize::MAX - 1 and usize::MAX return setups of 0, 1 and 2 points without an error; with 0 points every later commitment panics. It holds for all other sizes, and for all sizes with overflow checks.)", "quantifier": "every size, secret, amount of memory, polynomial and point; both kinds of build", "why_tests_cant": "the failing sizes are three of 2^64", "anchors": ["kzg/src/srs.rs: Srs::new, Srs::new_from_secret"]}
{"id": "C119", "title": "Compiling a circuit does not depend on overflow checks", "statement": "On a 64-bit target Circuit::compile and CPICircuit::compile give, with and without overflow checks, what they give on unbounded integers: in particular they panic on every circuit with fewer than two gates. (False of builds without overflow checks, for exactly the empty circuit: new_len wraps to 1 and it compiles to a constraint system of one row, which no other circuit compiles to and on which generate_proof panics for every setup and all challenges. It holds for all circuits with at least one gate, hence for whatever Parser::parse returns, and for all circuits with overflow checks.)", "quantifier": "every circuit, text and witness assignment; both kinds of build", "why_tests_cant": "quantifies over all circuits and over both kinds of build; the repository's tests run with overflow checks", "anchors": ["plonk/src/circuit.rs: pad_circuit, compile", "plonk/src/common_preprocessed_input/cpi_circuit.rs: pad_circuit, compile", "plonk/src/parser.rs: Parser::parse"]}
{"id": "C120", "title": "A machine that can hold a FRI proof can verify it", "statement": "If the elements of a proof fit into memory, fri::verifier::verify gives its verdict, and the verdict depends on no more hash values than the proof has field elements; for a proof of generate_proof for a domain of 2^k elements and q queries these are q k (k+3) hash values and k+2 transcript digests, and the proof has k+2+q k (k+7) field elements: the logarithm of the polynomial's size enters, not the size. (False of the code for memory: verify draws number_of_queries positions into a vector before it looks at any of them, and this number comes with the proof, unchecked; a proof of two field elements, without roots and decommitments, with number_of_queries = 2^63 would be accepted but exhausts every memory, and with this number every other proof does. What holds: the bounds on the hash values and on the length, for every proof, and the verdict whenever number_of_queries elements fit into memory.)", "quantifier": "every proof of any shape, every polynomial, blowup factor, number of queries, hash functions and amount of memory", "why_tests_cant": "quantifies over all proofs, functions and memory sizes; unit tests verify a few small proofs of the prover", "anchors": ["fri/src/verifier.rs: verify, verify_query", "fri/src/fiat_shamir/transcript.rs: generate_challenges, generate_challenge_list_usize", "fri/src/merkle_tree.rs: verify_merkle_proof", "fri/src/prover.rs: generate_proof, Proof, Decommitment"]}
{"id": "C121", "title": "Verifying needs only a verification key", "statement": "Of a setup the verifiers use only the verification key, the two points of G2: with any two setups that share them, whatever and however many their other points, KZG verify and batch_verify, NIFS::verify, IVC::verify and the PLONK verifier return the same. (False of the PLONK verifier: it commits to the selector and permutation polynomials of the circuit anew in every verification, so it needs the prover's setup; there is a proof accepted under a setup and not processed, but answered by a panic, under the key of that setup, and without the points of G1 it panics on every circuit and proof. What holds: the KZG and Nova verifiers use the two points only, and of setup and circuit the PLONK verdict depends on a key of constant size: these two points, the first point of G1, the eight commitments, the number of rows, the constants k1 and k2, and the public-input polynomial.)", "quantifier": "every pair of setups (honest or not), circuit, proof, opening, batch and transcript", "why_tests_cant": "quantifies over all setups, also those that no secret produces; unit tests use one setup for prover and verifier", "anchors": ["kzg/src/scheme.rs: verify, batch_verify", "nova/src/nifs/nifs_verifier.rs: verify", "nova/src/ivc/ivc_verifier.rs: verify", "plonk/src/verifier.rs: verify", "plonk/src/verifier.rs: get_circuit_commitment"]}
{"id": "C122", "title": "The documented security level of FRI", "statement": "With the parameters of fri/fri.md the FRI implementation has 64 bits of security: the field has at least 2^64 elements, finding two openings of one Merkle root takes about 2^64 hash evaluations, and with blowup factor b and q queries a word that differs from every polynomial of the claimed degree in almost all positions is accepted with probability about b^-q. (False of the code on all three counts: the Goldilocks field has fewer than 2^64 elements; hash and hash_slice reduce the 256-bit digest to one of them, so that among any 2^64 inputs two collide for certain, and any 2^33 hashed leaves contain, for at least half of all functions the leaf hash may be, two that open the same root at every index with every path; and the degree is not bound, so that no number of queries helps: a word far from every polynomial of the claimed degree is answered successfully at all positions for all challenges. What holds: among the functions the leaf hash may be, the share for which a set S of leaves contains a collision is at most |S|^2/p.)", "quantifier": "every digest function, set of hashed leaves, index, path, domain size, degree bound, challenges and list of queried positions", "why_tests_cant": "a statement about all functions the hash may be and about the best attack; tests run one hash on a few inputs", "anchors": ["fri/fri.md: How it works", "fri/src/hasher.rs: hash, hash_slice", "fri/src/merkle_tree.rs: verify_merkle_proof", "fri/src/fields/goldilocks.rs: Goldilocks", "fri/src/verifier.rs: verify_query"]}
{"id": "C123", "title": "A constant number of hash values decides PLONK and Nova verdicts", "statement": "Verifying a PLONK proof evaluates the digest on at most 15 strings and draws at most 6 field elements, NIFS::verify evaluates it on at most 5 strings and draws 2 elements, IVC::verify on at most 6 and draws 2: replacing digest and generator by any others that agree on these few values does not change the verdict. Which values these are depends only on the proof (for PLONK also on the first point of the setup): not on the circuit, the number of its gates or public inputs, the R1CS, the rest of the setup, the pairing or the number of IVC steps.", "quantifier": "every proof, circuit, R1CS, setup, pairing, transcript, number of steps, digest function and generator", "why_tests_cant": "quantifies over all digest functions and generators and all circuit sizes; unit tests run SHA-256 on small circuits", "anchors": ["plonk/src/verifier.rs: verify, verify_challenges", "plonk/src/challenge.rs: feed, generate_challenges", "nova/src/nifs/nifs_verifier.rs: verify, verify_challenge, verify_opening", "nova/src/ivc/ivc_verifier.rs: verify", "nova/src/circuit.rs: hash_io", "nova/src/transcript.rs: feed, feed_scalar_num"]}
{"id": "C124", "title": "FRI queries are at different positions", "statement": "Asking for q FRI queries checks q different positions of the domain (all of them if q is at least the domain size), each position being about equally likely. (False of the code: positions are drawn independently and reduced modulo the domain size, so with more queries than points every proof contains the same decommitment twice, and two queries over D points coincide for at least a share 1/D of the field elements they are made from. What holds: every decommitment answers a position below the domain size, decommitments of one proof that answer the same position are equal, and over the Goldilocks field each position below 2^k is drawn for exactly (p-1)/2^k elements, position 0 for one more.)", "quantifier": "every polynomial, blowup factor, number of queries, digest, generator, domain size and position", "why_tests_cant": "a statement about every transcript and a count over the whole field; tests see the positions of one seed", "anchors": ["fri/src/prover.rs: query_phase, generate_proof", "fri/src/verifier.rs: verify", "fri/src/fiat_shamir/transcript.rs: generate_challenge_list_usize"]}
{"id": "C125", "title": "A checked Nova instance has one witness", "statement": "is_r1cs_satisfied accepts at most one witness for an R1CS and an instance: if it accepts two different ones, their W vectors differ and the secret of the setup is a root of the polynomial whose coefficients are the differences of the entries, so two given witnesses with m entries are both accepted for a common instance under at most m-1 secrets, whatever the R1CS, the instance and the size of the setup. Conversely, a second witness that satisfies the equations is accepted exactly if the secret is a root of the differences of W and of E. The instance that NIFS::prover returns for two checked pairs is accepted with the witness it returns and with no other, up to the same exception.", "quantifier": "every R1CS, instance, pair of witnesses, secret and setup size", "why_tests_cant": "a statement about all pairs of witnesses and a count over all secrets", "anchors": ["nova/src/r1cs/mod.rs: is_r1cs_satisfied, FWitness::commit", "nova/src/nifs/nifs_prover.rs: prover", "kzg/src/scheme.rs: commit_vector"]}

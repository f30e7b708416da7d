# Formal model of sota-zk-labs/zkp-implementation in Lean 4

## Layout

* `properties.jsonl`    – the English properties C01…
* `MANIFEST.json`       – property → theorem map, with status and a note for everything that is not simply proved.
* `seeded/LOG.jsonl`    – wrong-program experiments.
* `lean/Verif/Ark/*`    – the external library behaviour the code relies on: arkworks dense polynomials (`Poly`),
  radix-2 evaluation domains (`Domain`), BLS12-381 `Fr` and Goldilocks with kernel-checked primality (`Fields`),
  little-endian byte encodings (`Bytes`).
* `lean/Verif/Kzg/{Model,Lemmas,Props,AlgSoundness}` – `kzg/src/*`.
* `lean/Verif/Fri/{Merkle,Model}` – `fri/src/*`; `MerkleProps`, `Fold`, `Props`, `Soundness`, `OracleSoundness`, `TranscriptProps` – proofs.
* `lean/Verif/Nova/Model` – `nova/src/*`; `R1cs`, `Nifs`, `Circuit`, `TranscriptProps` – proofs.
* `lean/Verif/Plonk/{Model,Parser,Cpi}` – `plonk/src/*`; the other files prove: `Circuit` (C43–C46), `Acc` (C48),
  `ProverLemmas`/`Completeness` (C47, C49, C53, C54), `Soundness` and `Quotient` (C51, C52, C56), `Honest`/`HonestRun` (C50),
  `Compiled` (composition with `compile`, C55), `Transcript` (C57), `Normalise` (C58, C59), `Wiring` (C60),
  `ParserSem`/`ParserRun`/`Equation` (C61, C65), `Forgery`/`Forces`/`ForgeryRun` (C62), `EndToEnd` (C63, C71),
  `CpiMatch` (C64, C72), `AlgSoundness` (C73), `PublicInput` (C74).  Further files are named in the plan below.

## Modelling conventions

* A Rust panic (failed `assert!`, `unwrap`, out-of-bounds index, division by zero, `ilog2(0)`, …) is
  `none : Option α`.  A Rust `Result<(), String>` is `Except String Unit`.
* `usize`/`u64` counters are `Nat` (most are lengths of in-memory vectors).  The 64-bit behaviour, with overflow
  checks on and off, is modelled separately for the places where a value from outside reaches the arithmetic:
  `Ark/Machine`, `Fri/Machine`, `Plonk/Machine` (C85), `Kzg/Machine` (C118), `Plonk/PadMachine` (C119).
* `Vec` is `List`; `&mut self` methods return the new state.
* Scalars: any field `F` with an `FftField` structure (two-adic root of unity, generator).  The two
  concrete fields of the code (BLS12-381 `Fr`, Goldilocks) are instances with kernel-checked primality
  and root-of-unity facts, so nothing is assumed about them.
* G1, G2, GT: arbitrary `F`-modules with generators and a bilinear non-degenerate pairing
  (`PairingGroups`); every G1 element is a multiple of the generator (prime order group): curve points outside
  the prime-order subgroup, which a caller could build by hand (`KzgCommitment(pub G1Point)`), are not modelled.  A concrete
  instance witnesses consistency.  Affine/projective conversions are identities.
* Hash functions (SHA-256 through `Digest`), byte serialisation (`serialize_uncompressed`,
  `to_string`) and `StdRng::seed_from_u64` + `Fr::rand` are parameters, i.e. theorems hold for every
  such function; injectivity / fixed width / output length are explicit hypotheses where needed.
* Arkworks polynomials are coefficient lists with the library's truncation behaviour; FFT based
  multiplication and interpolation are modelled by the naive formulas they compute.

## Trusted base

Lean 4 kernel; axioms `propext`, `Classical.choice`, `Quot.sound` only (checked by `vcheck`); Mathlib
statements used; the faithfulness of the definitions to the cited lines of `/repo` and of `Ark/*` to
arkworks 0.4 (not available in the sandbox, modelled from its documented behaviour).

Not modelled: probability distributions / computational hardness (statements are about explicit
equations, counts of bad challenges, or extraction of explicit collisions), running time, memory (outside the functions of C118 and C120),
printing, `u64`/`usize` overflow outside the functions of C85, C118 and C119, the internals of SHA-256, ChaCha, curve arithmetic and pairing.

## Per-property plan

| id | what is modelled | how it is proved |
|----|------------------|------------------|
| C01–C03 | `Srs`, `evaluate_in_s`, commitment operators | induction over coefficient lists; bridge to `Polynomial.eval` |
| C04–C06 | `open`, `verify` | long division by X−z = exact quotient; bilinearity and non-degeneracy |
| C07 | `commit` | roots of the difference polynomial, `card_roots` |
| C08–C10 | `aggregate_commitments`, `batch_verify` with explicit RNG outputs | induction over the loop; linear equation in one coefficient |
| C11 | `KzgOpening::add` | FALSE of the code (doubles the left witness): negation with witness + partial theorem |
| C12–C14 | Merkle tree, parametric hashes | induction over levels; collision extraction |
| C15 | `hash_slice` concatenates decimal strings | FALSE: explicit collision; partial: separation when the encodings have equal split |
| C16–C19, C23 | `fold_polynomial`, layers, folding, query phase | polynomial algebra; induction over layers |
| C20–C22 | FRI `verify` | C20 proved; C21, C22 FALSE: explicit accepted forgeries + partial theorems |
| C24, C25 | FRI transcript state machine | induction over histories; collision extraction |
| C26–C33 | Nova R1CS and NIFS | list algebra, cross-term identity, KZG lemmas |
| C34–C36 | negative facts about NIFS / trivial pair | C34, C35, C36 FALSE: negation with witnesses + partial |
| C37–C42 | F', IVC, transcript | state-machine invariants, induction over steps |
| C43–C48 | gates, circuit compile, slices, accumulator | interpolation lemmas, roots of unity |
| C49–C57 | PLONK prover / verifier | evaluate all commitments at the secret; polynomial identities; divisibility by X^n−1; counting roots |
| C58–C61, C65 | parser on character lists, Unicode tables as parameters | structural induction over the scanner; invariants of the position map; meaning of wire expressions; C59 FALSE: witnesses |
| C62 | satisfying assignments of parsed circuits | FALSE: every assignment can be completed; kernel-computed accepted proof of `1=2`; partial theorem |
| C63, C71 | parse → compile → prove → verify; number of gates | composition of C61 with C44, C50, C51; counting induction |
| C64, C72 | `common_preprocessed_input/*` | simulation between the two parsers; congruence of the two compilers |
| C73 | `verify` against algebraic provers | polynomial identity testing, challenge by challenge: opening equation ↔ polynomial vanishing at the secret; root counting for u, v, ζ, α; grand-product counting for β, γ; then a counting bound over strategies |
| C74 | transcript of `verify` | FALSE: forger that adapts a public input after ζ; partial: public inputs fixed first (from C73) |
| C75, C76 | `verify_query` against provers committed to their layers | contrapositive: two bad challenges in a round make the word close to a polynomial, induction over rounds (2-special soundness, C68); without the loss of a factor 2 per layer (`C75_proximity`, `Fri/Proximity.lean`): many bad challenges make even and odd part two words that are polynomials wherever one of the folds is (`line_agree`), and up to half the distance (`C75_unique_decoding`): the polynomials nearest to the words of a line lie on a line but for as many as there are errors (`Fri/LineGap.lean`: Welch-Berlekamp interpolation over the rational functions of the parameter, degree bounds by Cramer's rule, the Polishchuk-Spielman divisibility lemma by resultants); C76 FALSE: interpolation + C75's converse, complete proofs from C18 |
| C77 | `verify`, `aggregate_commitments`, `batch_verify` against algebraic provers | the verification equation is a polynomial in the secret that does not vanish at z; root counting |
| C78 | blinding in `generate_proof` | linear algebra: two evaluations off the domain determine a blinding line; on the domain the vanishing polynomial removes it |
| C79 | quotient commitments of `generate_proof` | FALSE: the quotient is affine in the accumulator, so its slices lie on a line; two witnesses with different lines, computed in the kernel |
| C80 | FRI `verify`, `IVC::verify` on arbitrary proofs | FALSE: panics characterised exactly (induction over the layer loop), crashing proofs constructed |
| C81 | `NIFS::verifier` iterated, then `is_r1cs_satisfied`, against algebraic provers | a game with k foldings (induction on k); three accepting challenges make both folded claims hold (Vandermonde, C30); root counting in the secret |
| C82 | degenerate challenges of `generate_proof` | coefficients of the blinded polynomials: each degenerate case is a root of a non-zero polynomial in the next challenge; root counting |
| C83 | seeds of the three transcripts | FALSE: images of the 2^64 seeds; counting |
| C84 | `generate_proof` (FRI), `NIFS::prover`, `NIFS::prove` | C19/C32 plus: a fold of a non-zero polynomial vanishes for one challenge at most; a quadratic in r has two roots |
| C85 | FRI and PLONK functions with 64-bit arithmetic (`Fri/Machine.lean`, `Plonk/Machine.lean`) | refinement to the model on natural numbers; C73's counting argument for wrapped exponents |
| C86, C87 | verifiers of all four crates (`*/Unique.lean`) | C86 linear algebra on C05, C33, C53; C87 FALSE: explicit alterations + partial |
| C88 | `main` of the four example programs (`*/Program.lean`) | C04; C84 counts for FRI and for each fold of the Nova loop; C82 for PLONK on the shipped circuit (kernel computation of its wiring) |
| C89 | histories of `run`, `next_step`, `verify` calls on one IVC object (`Nova/History.lean`) | invariant over the history, by induction from its end |
| C90 | steps checked by `run` and `verify` as in the example program | C37 stored hash + the hash check of `verify`; extraction of an explicit collision |
| C91 | forged IVC proof from the claimed state (all commitments zero) | **false of the code**; C41 equations; partial: driven objects (C89) |
| C92 | witness and instances of the shipped Nova program | **false of the code**; C28 on the shipped R1CS with the hash as public input |
| C93 | parser + compiler run on two witness assignments | relational induction over the parser (gates, copy positions and constants agree up to witness values); locality by infix tracking of names |
| C94 | `MerkleTree.new`, `root?` on two lists | induction over levels: equal nodes have equal children or collide; roots have 64 bits in the shipped field, so collisions exist for every hash (pigeonhole) |
| C95 | parser on arbitrary accepted texts, against a relational reading (`Denotes`, `ProductDenotes`, `SumDenotes`) | converse direction of C61: from acceptance (C65) to the reading; uniqueness by cases |
| C96 | FRI `verify` on altered accepted proofs (`Fri/Tamper.lean`) | exact decision C20 + panic freedom C80 applied to both proofs; collision extraction along paths |
| C97 | one proof, two circuits (`Plonk/TwoCircuits.lean`) | exact decision C53 for both circuits: the difference of the two opening equations is the mismatch polynomial at the secret; roots of interpolated differences; the repository's test evaluated by the kernel |
| C98 | the `#[test]` functions of all four crates as programs (`Kzg/RepoTests.lean`, `Fri/RepoTests.lean`, `Nova/RepoTests.lean`, `Plonk/RepoTests.lean`) | each test reduced to the general completeness, panic and transcript theorems; concrete circuits and texts evaluated by the kernel |
| C99 | `verify`, `batch_verify`, `NIFS::verify`, `IVC::verify`, PLONK `verify` under two secrets (`Kzg/Setup.lean`, `Nova/Setup.lean`, `Plonk/Setup.lean`) | subtract the two verification equations; the PLONK equation is a polynomial in the secret of degree at most max(1, size-1): root counting |
| C100 | the same verifiers against a prover who knows the secret | solve the opening equations with the secret; PLONK: the two openings are solved separately so that the last challenge does not matter |
| C101 | both parsers run on a text and on the renamed text | equivariance of every function of the parsers under a permutation of strings that respects the operators; instances: permutations of characters, and of whole names via a recursive replacement |
| C102 | `generateProof` on every well-formed circuit, satisfied or not | rounds of C50 with the divisibility conditions as hypotheses; divisibility of the gate part ⇔ gate equations; of the permutation part ⇔ α = 0 or equal grand products (telescoping in both directions); positions and labels of the calls via C45/C46 |
| C103 | `CPIGenerator` on every text; agreement with `Parser::parse` on every text the latter accepts | invariant of the preprocessing parser's state (position map = occurrences, constants parse), gate count bounds, gates lifted to valued gates so that the queue argument of C60 applies; simulation of C64 at the level of texts |
| C104 | `Parser::add_witness` call sequences followed by `parse` on any text (`Plonk/Names.lean`) | the map after the calls is the last value per name; locality (C93) and an invariant of the normalisation loop on the characters of the result; counterexamples run in the kernel |
| C105 | values of `MerkleProof` and `Proof` constructible through the exported interface (`Fri/Api.lean`), `verify` on them | inductive set of constructible paths; trees over copies of one value have index-independent paths, obtained from proofs of constant polynomials; collision extraction with equal siblings and different indices |
| C106 | sequences of calls on `CPICircuit`, dummies included (`Plonk/CpiDummies.lean`) | entry-wise description of the permutation loop by induction, interpolation, induction on the calls for the equivalence |
| C107 | provers as decision trees asking for challenges of message lists (`Oracle.lean`), the generator a function `Fin (2^64) → F × F` (`Plonk/FiatShamir.lean`) | counting of functions by induction on the tree: round-by-round soundness (doomed states, at most `k` dangerous answers per round) carries over; the rounds of C73 are the doomed states |
| C108 | foldings with threaded transcript followed by the satisfaction check, provers as in C107 (`Nova/FiatShamir.lean`) | explicit attack (also as a prover asking three questions); positive part: the doomed-states theorem of `Oracle.lean` with `fold_not_holds` (C81) as round |
| C109 | FRI with the generator replaced by an arbitrary function `Fin (2^64) → Fin q → F` (`Fri/FiatShamir.lean`); provers as in C107, committing to layers they know; proofs that pass the checks the verifier omits (completeness, paths leading to the roots, C21/C22) | doomed states of `Oracle.lean`: C75's `ResistsBut` with the challenges drawn so far (one, `B/2+1`, or `2^(k-1)`, dangerous challenges per folding round), then "some query position is rejected" (counted by the fibres of `low64`); acceptance unfolded with `C21_authentication_partial`; example: a prover that fools the verifier for a suitable generator |
| C110 | `cpiCompiled` on arbitrary texts, compared through a separate reading of the text as sums of products of operands (`operands`, `Renames` in `Plonk/SameForm.lean`; `Plonk/SameCircuit.lean`, `Plonk/Twins.lean`) | FALSE. If: the compiled circuit is invariant under renamings injective on the wires. Only if: selectors give the gate kinds, the permutation gives equality of wires, and a fold over the gates recovers the operands. Counterexample via C82's honest proofs; positive part by transporting values along the renaming |
| C111 | the functions that take an SRS, under two sizes (`Kzg/SetupSize.lean`, `Nova/SetupSize.lean`, `Plonk/SetupSize.lean`) | panic-refinement of every function by composition; degree of the blinded accumulator; C102 for the converse |
| C112 | `commit`, `open`, `FWitness::commit`, `generate_proof` of FRI (`Kzg/Reveals.lean`, `Nova/Reveals.lean`, `Fri/Reveals.lean`) | equality of what is seen, solved for the polynomial; interpolation for the hidden part; root counting for the determined part |
| C113 | both parsers (`Plonk/GateCount.lean`) | FALSE. The gates asked for (C110) without repetitions, counted as three disjoint images; induction over the normalisation for the length; powers through C58 |
| C114 | `aggregate_commitments`, `verify` (`Kzg/Batch.lean`) | the coefficients of the Lagrange polynomials recover the summands of a power sum; linearity of C05; roots of the error polynomial |
| C115 | `batch_verify` (`Kzg/Batch.lean`) | FALSE. Changes of two values that cancel; the accepted sum is one term if one opening is invalid; counting by an injection into the other coefficients from C10 |
| C116 | `IVC::verify`, `is_r1cs_satisfied` (`Nova/Decider.lean`) | FALSE. The commitment to the fresh witness is solved for after the challenge, with the public input fixed by the state hash; C39 for the state; C34 and C41 for honest steps |
| C117 | the five verifiers (`Checks.lean`, `Fri/Errors.lean`, `Plonk/Errors.lean`, `Nova/Errors.lean`) | the relation `FirstFailed` between a list of checks with messages and a result; case analysis of each verifier, for FRI induction over the layers and the queries, without any assumption on the shape of the proof |
| C118 | `new_from_secret` with the sum on 64 bits and bounded memory (`Kzg/Machine.lean`) | FALSE for three sizes without overflow checks; refinement to the setup on natural numbers for all other sizes, then C02 and C04 |
| C119 | `pad_circuit` and `compile` of both compilers on 64 bits (`Plonk/PadMachine.lean`) | FALSE for the empty circuit without overflow checks; refinement to the model on natural numbers otherwise; the parser returns at least one gate; the linearisation of the compiled empty circuit has no first coefficient |
| C120 | the verifier with vectors of at most `cap` elements (`Fri/Cost.lean`); cost stated by what the verdict depends on: hash functions that agree on a short list of strings give the same verdict | FALSE for memory (`number_of_queries` is not checked); the strings read are listed path by path and counted; lengths by C23 |
| C121 | the verifiers of KZG, Nova and PLONK with arbitrary setups (`VerifierKey.lean`) | FALSE for PLONK (without points of G1 every commitment panics); congruence of the verifiers in the parts of the setup that they use |
| C122 | counting over all functions `Goldilocks → Goldilocks` the leaf hash may be; C75/C76 for the queries (`Fri/Security.lean`) | FALSE of the code: pigeonhole on the field, birthday bound `2·p!/(p-2m)! ≤ p^(2m)` for `p ≤ m²`, and far words accepted at all positions; union bound for the partial part |
| C123 | the verifiers run with two digests and generators (`HashCost.lean`); cost as what the verdict depends on, as in C120 | the strings fed are computed along the transcript; congruence of the monadic verifiers, one generation at a time |
| C124 | `generate_proof` and the reduction of field elements to positions (`Fri/Queries.lean`) | FALSE of the code: pigeonhole on the positions, Cauchy-Schwarz on their counts; exact count of the residues modulo `2^k` |
| C125 | `is_r1cs_satisfied` and `NIFS::prover` over generated setups (`Nova/OneWitness.lean`) | `E` is determined by `W` row by row; equal commitments make the secret a root of the difference; root count; C29 for the folded pair |
| C66–C70 | FRI shape checks, FRI constant, fold soundness, Nova shapes, IVC | C66, C69, C70 FALSE: witnesses + partial; C67, C68 polynomial algebra; C68 also at `verify_query` (`Fri/OracleSoundness.lean`) |

Every property could be expressed in the model; none is `not_applicable`.

## What exactly is modelled

Modelled function by function (each definition cites file and lines): `kzg/src/{srs,scheme,commitment,opening}.rs`;
`fri/src/{hasher,merkle_tree,fri_layer,prover,verifier}.rs`, `fri/src/fiat_shamir/transcript.rs`;
`nova/src/{utils,transcript,circuit}.rs`, `nova/src/r1cs/mod.rs`, `nova/src/nifs/*`, `nova/src/ivc/*`;
`plonk/src/{gate,circuit,constraint,compiled_circuit,challenge,slice_polynomial,prover,verifier,parser}.rs` and
`plonk/src/common_preprocessed_input/*`.

The four example programs (`*/Program.lean`, C88) and the repository's own tests (`*/RepoTests.lean`, C98) are modelled
too.

Not modelled: benches, `Debug`/printing, random
sampling (its outputs are arguments), curve arithmetic and pairing (abstract groups), SHA-256, ChaCha, arkworks'
FFT algorithms (the functions they compute are modelled), `HashMap` iteration order (the code only uses lookups, and
per-key transformations), wrap-around of `usize` outside the functions treated in C85, C118 and C119.

## Findings: properties that are false of the code

| id | theorem | what is wrong |
|----|---------|---------------|
| C11 | `C11_opening_add_fails` | `KzgOpening::add` adds `self.w` to itself: the sum of two openings does not open the sum |
| C15 | `C15_hash_slice_ambiguous` | `hash_slice` concatenates decimal strings without separator: (1,23) and (12,3) collide for every hash |
| C21 | `C21_forgery` | FRI `verify` never compares the Merkle roots of the paths with `layers_root` |
| C22 | `C22_no_queries_accepted` | `zip` truncates: a FRI proof without decommitments is accepted |
| C34 | `C34_accepts_unsatisfied` | `NIFS::verify` accepts foldings of unsatisfied instances |
| C35 | `C35_challenge_ignores_instances`, `C35_forgery` | the folding challenge depends on `u1.u`, `u2.u`, `com_T` only |
| C36 | `C36_trivial_pair_fails` | `create_trivial_pair` satisfies the relation only for special shapes |
| C55 | `C55_other_digest_rejected` | the PLONK prover hard-wires `Sha256`; `verify::<T>` with another `T` rejects |
| C59 | `C59_numeric_and_long_bases_fail`, `C59_zero_exponent` | `2^3` becomes 23 factors, `ab^2` becomes `ab*b`, `x^0` becomes `x` |
| C62 | `C62_forgery`, `C62_accepted_proof_of_false_equation`, `C62_negated_unrelated`, `C62_leading_zero_unconstrained` | the last output wire is not constrained to zero: every assignment satisfies a parsed circuit after changing that one wire, and an accepted proof of `1=2` is computed in the kernel; the wires of `x` and `-x` are unrelated, and so are the wire of a number written with leading zeros and its constant |
| C66 | `C66_constant_unchecked`, `C66_empty_decommitment` | over-long `evaluations` vectors skip the comparison with the constant |
| C69 | `C69_tall_rejected` | `fold_witness` zips truncate `E`, so honest folding with the trivial pair fails for R1CS with more rows than variables |
| C74 | `C74_public_input_forgery`, `C74_false_statement_accepted` | the PLONK transcript contains neither the circuit nor the public inputs (nor the field `degree` of the proof): a prover can choose a public input after the evaluation challenge |
| C76 | `C76_every_word_accepted`, `C76_degree_not_bound` | the FRI prover folds `log2(domain_size)` times whatever the blowup factor: every word on the domain passes, nothing about the degree is attested |
| C79 | `C79_slices_on_a_line`, `C79_not_zero_knowledge` | the commitments to the quotient slices are not blinded (PLONK adds two more random values): a proof made with one witness cannot be made with another |
| C80 | `C80_fri_crash`, `C80_ivc_panics_iff` | the FRI verifier takes domain size, coset and number of layers from the proof without checking them (division by zero, missing domain); `IVC::verify` indexes `u_i.x[0]` |
| C83 | `C83_*_challenge_space`, `C83_*_missing` | all challenge generators are seeded with 64 bits of the digest: at most 2^64 lists of challenges or query positions exist, whatever field, digest and number of queries |
| C87 | `C87_fri_malleable`, `C87_fri_not_unique`, `C87_ivc_malleable` | FRI proofs can be shortened or extended and their `number_of_queries` replaced (`C87_fri_query_count`), public inputs of an IVC proof after the first changed, without being rejected |
| C70 | `C70_unsatisfied_step_accepted` | IVC never checks that the step's witness satisfies the R1CS |
| C91 | `C91_any_state_accepted` | nothing links the claimed state to the committed instances: a proof computed from the claimed state alone is accepted |
| C92 | `C92_shipped_instance_iff` | the shipped IVC program overwrites the public output its R1CS reads with the hash of the next state |
| C104 | `C104_capital_name_ignored`, `C104_capital_name_fails`, `C104_number_name_overrides`, `C104_sum_as_name` | texts are lower-cased but the names given to `add_witness` are not; witnesses are looked up before numbers are read; the right-hand side is not split at `+` |
| C105 | `C105_api_forgery`, `C105_api_constant_unchecked` | the forgeries of C21 and C66 do not need access to private fields: paths taken from proofs of constant polynomials suffice |
| C106 | `C106_rows_right_iff` | `CPICircuit::add_dummy_gate` is public; dummies are skipped in the selectors and counted in the permutation, so a dummy before another gate shifts selectors against wiring |
| C108 | `C108_unsatisfiable_accepted`, `C108_cheating_prover` | weak Fiat–Shamir: `r` is derived from `u1`, `u2`, `com_T` only, so `com_W` can be chosen after `r`; a fresh instance that no witness satisfies is folded into a satisfied accumulator that passes `is_r1cs_satisfied` |
| C110 | `C110_unsatisfiable_twin`, `C110_accepted_for_twin` | `x` and `-x` are unrelated wires: `x+1=x` has the circuit of `x+1=y`, and honest proofs of the latter are accepted for it |
| C113 | `C113_short_texts_large_circuits`, `C113_powers` | powers are written out: 14 characters give 2^31-1 gates, 40 characters a circuit that cannot be compiled |
| C115 | `C115_predictable_coefficients` | `batch_verify` takes any `RngCore`: two known non-zero coefficients let two wrong values cancel |
| C116 | `C116_decider_fooled` | an IVC step without any witness passes `IVC::verify` and a check that the folded instance is satisfied |
| C118 | `C118_wrong_size`, `C118_useless_setup` | without overflow checks `Srs::new(usize::MAX - 2)` returns a setup without points instead of panicking; likewise the two larger sizes |
| C119 | `C119_empty_compiles`, `C119_cpi_empty_compiles`, `C119_empty_no_proof` | without overflow checks `Circuit::default().compile()` returns a circuit of size 1 instead of panicking; proving it panics |
| C120 | `C120_short_proof_exhausts_memory` | `fri::verifier::verify` allocates `number_of_queries` elements (a number in the proof) before any check: a proof of a few bytes exhausts the memory |
| C121 | `C121_plonk_key_only_panics`, `C121_plonk_needs_setup` | `plonk::verifier::verify` recommits to the whole circuit in every verification and therefore needs the full setup; with the verification key alone it panics |
| C122 | `C122_field_and_hash_too_small`, `C122_half_of_hashes_broken`, `C122_no_query_soundness` | `fri/fri.md` claims 64 bits of security from the 256 bits of SHA256; `hash` and `hash_slice` reduce the digest to a Goldilocks element, so 2^33 evaluations find a collision; the degree is not bound, so queries give no security |
| C124 | `C124_more_queries_than_points`, `C124_two_queries_repeat` | FRI query positions are drawn with repetition: more queries than points do not open everything, and a proof carries the same decommitment several times |

C81 assumes that the instances have `num_io` public inputs: `fold_instance` zips the public inputs, so that surplus
inputs of one side are silently dropped; `is_r1cs_satisfied` only checks the length of the accumulator's.

For each, the theorem with suffix `_partial` is the strongest repaired statement that is proved.

Other behaviours established on the way (panics and edge cases): `KzgScheme::open` panics on the zero polynomial and
accepts one degree more than `commit` (C04_open_panics_iff); FRI proving panics for zero layers and Merkle trees of
non-power-of-two size (C13, C19); PLONK `compile` panics below two gates, so `parse("x=y")` cannot be compiled
(C44, C63_single_variables_panic); the PLONK verifier divides by zero at ζ = 1 (C49's side condition); the challenge α = 0 switches the permutation argument off
(C52_alpha_zero, a kernel-run counterexample to C52 without its condition α ≠ 0); `CPIGenerator`
disagrees with the prover's parser on `x=-1` (C64_noncanonical_differ) and on position layers ≥ 3 (C72_layer_three_differs).

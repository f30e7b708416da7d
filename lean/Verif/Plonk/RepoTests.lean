import Verif.Plonk.Program
import Verif.Plonk.TwoCircuits
import Verif.Plonk.CpiMatch

/-!
# C98 (PLONK): the repository's own tests

Every `#[test]` of the crate as a program: `none` if it panics, `some false` if an assertion fails, `some true` if it
passes.  The environment supplies the digest, the serialisation and the random generator; the secret of the trusted
setup and the blinding values drawn by the prover are arguments.
-/

set_option linter.unusedSectionVars false
set_option linter.unusedDecidableInType false
set_option linter.unusedVariables false

namespace Verif.Plonk

open Verif.Ark Verif.Kzg Polynomial

/-! ## The tests -/

/-- `is_ok`. -/
def isOk : Except String Unit → Bool
  | .ok _ => true
  | .error _ => false

section proving
variable {G1 G2 GT : Type} [AddCommGroup G1] [Module BlsFr G1] [AddCommGroup G2] [Module BlsFr G2]
  [AddCommGroup GT] [Module BlsFr GT] [DecidableEq GT]

/-- The common shape of the tests that prove: compile the circuit, make an SRS of size `n(size)`, prove, verify
and assert `is_ok`. -/
noncomputable def provingTest (env : Env BlsFr G1) (P : PairingGroups BlsFr G1 G2 GT) (s : BlsFr) (bl : Blinders BlsFr)
    (circuit : Option (Circuit BlsFr)) (n : ℕ → ℕ) : Option Bool := do
  let c ← circuit
  let cc ← c.compile
  let srs := Srs.newFromSecret P s (n cc.size)
  let proof ← generateProof env env.sha256 cc srs bl
  let res ← verify env env.sha256 P cc srs proof
  some (isOk res)

end proving

/-- The gate calls of `verifier_accepted_test_01` for `z = 25`, `plonk/src/verifier.rs` lines 233-258, and of
`verifier_rejected_test_01` for `z = 20`, lines 271-295. -/
def pythagorasCalls (z : BlsFr) : List (GateCall BlsFr) :=
  [⟨.multiplication, (1, 0, 3), (0, 0, 3), (0, 3, 9), 0⟩, ⟨.multiplication, (1, 1, 4), (0, 1, 4), (1, 3, 16), 0⟩,
   ⟨.multiplication, (1, 2, 5), (0, 2, 5), (2, 3, 25), 0⟩, ⟨.addition, (2, 0, 9), (2, 1, 16), (2, 2, z), 0⟩]

/-- The gate calls of `verifier_accepted_test_03`, `plonk/src/verifier.rs` lines 362-375. -/
def xyzCalls : List (GateCall BlsFr) :=
  [⟨.multiplication, (0, 0, 1), (1, 0, 2), (0, 1, 2), 0⟩, ⟨.multiplication, (2, 0, 2), (1, 1, 3), (2, 1, 6), 0⟩]

/-- The witnesses of `parser_negative_witness_test`: `x = -1`, `y = -2`, `z = -3`. -/
def negWit : List Char → Option BlsFr :=
  addWitness (addWitness (addWitness noWitness ['x'] (-1)) ['y'] (-2)) ['z'] (-3)

/-- The tests that expect an accepted proof, as circuit and size of the SRS: `verifier_accepted_test_01`, `_02` (the
circuit of the shipped program), `_03` (`plonk/src/verifier.rs` lines 231-266, 305-358, 360-384),
`parser_prover_test` and `parser_negative_witness_test` (`plonk/src/parser.rs` lines 431-444, 582-594). -/
def acceptedTests : List (Option (Circuit BlsFr) × (ℕ → ℕ)) :=
  [(some (build (pythagorasCalls 25)), id), (some (build shippedCalls), id), (some (build xyzCalls), id),
   (parse asciiTables exWit "x*y+3*x^2+x*y*z=11".toList, fun _ => 20),
   (parse asciiTables negWit "x*y+3*x*x+x*y*z=-1".toList, fun _ => 20)]

section tests
variable {G1 G2 GT : Type} [AddCommGroup G1] [Module BlsFr G1] [DecidableEq G1] [AddCommGroup G2] [Module BlsFr G2]
  [AddCommGroup GT] [Module BlsFr GT] [DecidableEq GT]

/-- `parser_circuit_test`, `plonk/src/parser.rs` lines 483-566: the parsed circuit is compared with a hand-written one,
whose calls are `calls11`; the latter is compiled and proven. -/
noncomputable def parserCircuitTest (env : Env BlsFr G1) (P : PairingGroups BlsFr G1 G2 GT) (s : BlsFr)
    (bl : Blinders BlsFr) : Option Bool := do
  let generated ← parse asciiTables exWit "x*y+3*x*x+x*y*z=11".toList
  if build calls11 ≠ generated then some false
  else provingTest env P s bl (some (build calls11)) fun _ => 20

/-- `parser_constant_test`, `plonk/src/parser.rs` lines 446-469, after parsing; the two provers draw `bl` and `bl'`. -/
noncomputable def constantTest (env : Env BlsFr G1) (P : PairingGroups BlsFr G1 G2 GT) (s : BlsFr)
    (bl bl' : Blinders BlsFr) (circuit circuit1 : Option (Circuit BlsFr)) : Option Bool := do
  let c ← circuit
  let cc ← c.compile
  let srs := Srs.newFromSecret P s 20
  let proof ← generateProof env env.sha256 cc srs bl
  let c1 ← circuit1
  let cc1 ← c1.compile
  let proof1 ← generateProof env env.sha256 cc1 srs bl'
  let r ← verify env env.sha256 P cc srs proof1
  if isOk r then some false
  else do
    let r1 ← verify env env.sha256 P cc1 srs proof
    some (!isOk r1)

/-- `parser_constant_test`, `plonk/src/parser.rs` lines 446-469. -/
noncomputable def parserConstantTest (env : Env BlsFr G1) (P : PairingGroups BlsFr G1 G2 GT) (s : BlsFr)
    (bl bl' : Blinders BlsFr) : Option Bool :=
  constantTest env P s bl bl' (parse asciiTables exWit "x*y+3*x^2+x*y*z=11".toList)
    (parse asciiTables wit4 "x*y+3*x^2+x*y*z=13".toList)

/-- `verifier_rejected_test_01` (`#[should_panic]`), `plonk/src/verifier.rs` lines 268-303. -/
noncomputable def rejectedTest (env : Env BlsFr G1) (P : PairingGroups BlsFr G1 G2 GT) (s : BlsFr)
    (bl : Blinders BlsFr) : Option Bool :=
  provingTest env P s bl (some (build (pythagorasCalls 20))) id

/-- Compile and prove with an SRS of size 20, `plonk/src/parser.rs` lines 477-480. -/
noncomputable def proveOnly (env : Env BlsFr G1) (P : PairingGroups BlsFr G1 G2 GT) (s : BlsFr)
    (bl : Blinders BlsFr) (circuit : Option (Circuit BlsFr)) : Option Bool := do
  let c ← circuit
  let cc ← c.compile
  let _ ← generateProof env env.sha256 cc (Srs.newFromSecret P s 20) bl
  some true

/-- `parser_false_witness_test` (`#[should_panic]`), `plonk/src/parser.rs` lines 470-481. -/
noncomputable def falseWitnessTest (env : Env BlsFr G1) (P : PairingGroups BlsFr G1 G2 GT) (s : BlsFr)
    (bl : Blinders BlsFr) : Option Bool :=
  proveOnly env P s bl (parse asciiTables exWit "x+y+z=0".toList)

/-- The comparisons of `parser_prover_test`, `plonk/src/common_preprocessed_input/cpi_parser.rs` lines 445-490. -/
noncomputable def compareCpi (srs : Srs G1 G2) (input : Option (CommonPreprocessedInput BlsFr G1))
    (circuit : Option (Circuit BlsFr)) : Option Bool := do
  let cpi ← input
  let c ← circuit
  let cc ← c.compile
  let ql ← commit srs cc.gate.qlx
  let qr ← commit srs cc.gate.qrx
  let qm ← commit srs cc.gate.qmx
  let qo ← commit srs cc.gate.qox
  let qc ← commit srs cc.gate.qcx
  let s1 ← commit srs cc.copy.s1
  let s2 ← commit srs cc.copy.s2
  let s3 ← commit srs cc.copy.s3
  some (decide (cpi.n = cc.size) && decide (cpi.k1 = cc.copy.k1) && decide (cpi.k2 = cc.copy.k2) &&
    decide (cpi.comQl = ql) && decide (cpi.comQr = qr) && decide (cpi.comQm = qm) && decide (cpi.comQo = qo) &&
    decide (cpi.comQc = qc) && decide (cpi.comS1 = s1) && decide (cpi.comS2 = s2) && decide (cpi.comS3 = s3) &&
    decide (cpi.pix = cc.gate.pix))

/-- `parser_prover_test` of the preprocessed input, `plonk/src/common_preprocessed_input/cpi_parser.rs` lines 431-490. -/
noncomputable def cpiTest (P : PairingGroups BlsFr G1 G2 GT) (s : BlsFr) : Option Bool :=
  compareCpi (Srs.newFromSecret P s 20)
    (computeCommonPreprocessedInput (F := BlsFr) asciiTables "x*y+3*x^2+x*y*z=11".toList (Srs.newFromSecret P s 20))
    (parse asciiTables exWit "x*y+3*x^2+x*y*z=11".toList)

end tests

/-- `parser_missing_witness_test` (`#[should_panic]`), `plonk/src/parser.rs` lines 568-579. -/
def missingWitnessTest : Option Bool := do
  let _ ← parse asciiTables exWit "x*y+3*x*x+x*y*z*a=0".toList
  some true

/-- `parse_string_test`, `plonk/src/parser.rs` lines 596-601. -/
def parseStringTest : Option Bool := do
  let result ← parseString asciiTables "x * y + 3 * x ^ 2 + x * y * z = 11".toList
  some (decide (result = "x*y+3*x*x+x*y*z=11".toList))

/-- `parse_string_panic_test` (`#[should_panic]`), `plonk/src/parser.rs` lines 603-610. -/
def parseStringPanicTest : Option Bool := do
  let _ ← parseString asciiTables "x * y + 3 * x ^ x + x * y * z=0".toList
  some true

/-- `create_circuit_test`, `plonk/src/circuit.rs` lines 252-282. -/
def createCircuitTest : Option Bool := do
  let circuit : Circuit BlsFr := build
    [⟨.multiplication, (0, 0, 1), (0, 0, 1), (2, 0, 1), 0⟩, ⟨.multiplication, (0, 0, 1), (1, 1, 2), (2, 1, 2), 0⟩,
     ⟨.addition, (2, 1, 2), (1, 2, -3), (2, 2, -1), 0⟩, ⟨.addition, (2, 0, 1), (2, 2, -1), (2, 3, 0), 0⟩]
  let x ← circuit.va[2]?
  let y ← circuit.vc[1]?
  some (decide (x = y))

/-- `create_circuit_test` of the preprocessed circuit, `plonk/src/common_preprocessed_input/cpi_circuit.rs` lines
225-233. -/
noncomputable def cpiCreateCircuitTest : Option Bool := do
  let circuit : CPICircuit BlsFr :=
    (((CPICircuit.default.addMultiplicationGate (0, 0) (0, 0) (2, 0) 0).addMultiplicationGate (0, 0) (1, 1) (2, 1)
      0).addAdditionGate (2, 1) (1, 2) (2, 2) 0).addAdditionGate (2, 0) (2, 2) (2, 3) 0
  let _ ← circuit.compile
  some true

/-- `test_slice_poly`, `plonk/src/slice_polynomial.rs` lines 79-112; the twelve coefficients and the point are
the numbers drawn from `test_rng`. -/
def slicePolyTest {F : Type} [Field F] [DecidableEq F] (c : Fin 12 → F) (x : F) : Option Bool := do
  let coeffs := List.ofFn c
  let sp ← SlicePoly.new (fromCoeffs coeffs)
  let part := fun i => (coeffs.drop (i * 4)).take 4
  let expected := add (add (smul (fromCoeffs (part 0)) (x ^ (4 * 0))) (smul (fromCoeffs (part 1)) (x ^ (4 * 1))))
    (smul (fromCoeffs (part 2)) (x ^ (4 * 2)))
  some (decide (sp.degree = 3) && decide (sp.lo = part 0) && decide (sp.mid = part 1) && decide (sp.hi = part 2) &&
    decide (sp.compact x = expected))

section transcript
variable {F G1 : Type} [DecidableEq F]

/-- `aggregation_digest_test`, `plonk/src/challenge.rs` lines 119-139; `c1`, `c2` are the two commitments. -/
def aggregationTest (env : Env F G1) (c1 c2 : G1) : Option Bool := do
  let a ← (ChallengeGenerator.fromCommitments env env.sha256 [c1, c2]).generateChallenges env 3
  let b ← (ChallengeGenerator.fromCommitments env env.sha256 [c2]).generateChallenges env 1
  let c ← (ChallengeGenerator.fromCommitments env env.sha256 [c1, c2]).generateChallenges env 3
  some (decide (a.1[0]? ≠ b.1[0]?) && decide (a.1 = c.1))

/-- `safe_guard` (`#[should_panic]`), `plonk/src/challenge.rs` lines 141-149. -/
def safeGuardTest (env : Env F G1) (c1 : G1) : Option Bool := do
  let a ← (ChallengeGenerator.fromCommitments env env.sha256 [c1]).generateChallenges env 3
  let _ ← a.2.generateChallenges env 3
  some true

end transcript

/-! ## The circuits -/

theorem small_compiles (calls : List (GateCall BlsFr)) (k : ℕ) (hk : k ≤ 4) (hl : 2 ≤ calls.length)
    (h1 : calls.length ≤ 2 ^ k) (h2 : 2 ^ (k - 1) < calls.length)
    (hv : ∀ call ∈ calls, ∀ p ∈ [call.a, call.b, call.c], p.1 ≤ 2 ∧ p.2.1 < 2 ^ k) :
    ∃ cc, (build calls).compile = some cc ∧ cc.size = 2 ^ k := by
  have e : nextPow2 calls.length = 2 ^ k := by
    unfold nextPow2
    congr 1
    refine le_antisymm ((Nat.clog_le_iff_le_pow (by norm_num)).2 h1) ?_
    by_contra h
    push Not at h
    have := (Nat.clog_le_iff_le_pow (b := 2) (by norm_num)).1 (show Nat.clog 2 calls.length ≤ k - 1 by omega)
    omega
  have hs : ((build calls).compile).isSome := by
    by_contra h
    rw [Bool.not_eq_true, Option.isSome_eq_false_iff, Option.isNone_iff_eq_none, C44_compile_panics_iff] at h
    have e2 : FftField.twoAdicity BlsFr = 32 := rfl
    rw [e, e2] at h
    rcases h with h | h | ⟨call, hc, p, hp, hn⟩
    · omega
    · have := Nat.pow_le_pow_right (n := 2) (by norm_num) (show k ≤ 32 by omega)
      omega
    · exact hn (hv call hc p hp)
  obtain ⟨cc, hcc⟩ := Option.isSome_iff_exists.1 hs
  obtain ⟨d, -, -, hsz, -⟩ := compile_some calls cc hcc
  obtain ⟨⟨j, hj⟩, h3, h4⟩ := C44_compile_size calls cc hcc
  refine ⟨cc, hcc, ?_⟩
  have h5 := h4 k h1
  rw [hj] at h3 h5 ⊢
  have : j ≤ k := (Nat.pow_le_pow_iff_right (by norm_num)).1 h5
  have : k - 1 < j := by
    by_contra hk3
    have := Nat.pow_le_pow_right (n := 2) (by norm_num) (Nat.le_of_not_lt hk3)
    omega
  by_cases hk0 : k = 0
  · subst hk0
    simp at h1; omega
  rw [show j = k by omega]

/-- The permutation of the wires of a small circuit. -/
def wirePermOf (n : ℕ) [NeZero n] (calls : List (GateCall BlsFr)) (p : Fin 3 × Fin n) : Fin 3 × Fin n :=
  (Fin.ofNat 3 (target calls p.1 p.2).1, Fin.ofNat n (target calls p.1 p.2).2)

theorem smallWiring (n : ℕ) [NeZero n] (calls : List (GateCall BlsFr)) (hinj : Function.Injective (wirePermOf n calls))
    (h : ∀ p, target calls p.1 p.2 = (((wirePermOf n calls p).1 : ℕ), ((wirePermOf n calls p).2 : ℕ)) ∧
      callVal calls (wirePermOf n calls p).1 (wirePermOf n calls p).2 = callVal calls p.1 p.2) : WiringOk n calls :=
  ⟨Equiv.ofBijective _ ⟨hinj, Finite.injective_iff_surjective.1 hinj⟩, h⟩

/-- The calls made for `x*y+3*x*x+x*y*z=-1` with `x = -1`, `y = -2`, `z = -3`. -/
def callsNeg : List (GateCall BlsFr) :=
  [⟨.multiplication, (1, 2, -1), (1, 0, -2), (0, 4, 2), 0⟩, ⟨.constant, (0, 2, 3), (1, 7, 0), (2, 1, 3), 0⟩,
   ⟨.multiplication, (0, 1, 3), (1, 3, -1), (0, 3, -3), 0⟩, ⟨.multiplication, (2, 2, -3), (0, 0, -1), (1, 4, 3), 0⟩,
   ⟨.addition, (0, 5, 2), (2, 3, 3), (0, 6, 5), 0⟩, ⟨.multiplication, (2, 0, 2), (1, 5, -3), (1, 6, -6), 0⟩,
   ⟨.addition, (2, 4, 5), (2, 5, -6), (0, 8, -1), 0⟩, ⟨.constant, (1, 8, 1), (1, 1, 0), (2, 7, 1), 0⟩,
   ⟨.addition, (2, 6, -1), (0, 7, 1), (2, 8, 0), 0⟩]

theorem callsNeg_eq : parse asciiTables negWit "x*y+3*x*x+x*y*z=-1".toList = some (build callsNeg) := by decide +kernel

theorem calls11_eq' : parse asciiTables exWit "x*y+3*x*x+x*y*z=11".toList = some (build calls11) := by decide +kernel

/-- The calls made for `x+y+z=0` with `x = 1`, `y = 2`, `z = 3`. -/
def callsFalse : List (GateCall BlsFr) :=
  [⟨.addition, (0, 0, 1), (1, 0, 2), (0, 1, 3), 0⟩, ⟨.addition, (2, 0, 3), (1, 1, 3), (0, 3, 6), 0⟩,
    ⟨.constant, (1, 3, 0), (1, 2, 0), (2, 2, 0), 0⟩, ⟨.addition, (2, 1, 6), (0, 2, 0), (2, 3, 0), 0⟩]

theorem callsFalse_eq : parse asciiTables exWit "x+y+z=0".toList = some (build callsFalse) := by decide +kernel

/-- What the accepted tests have in common: a circuit built by calls all of whose relations hold, with proper wiring,
compiled to at most sixteen rows, and an SRS large enough. -/
structure Good (circuit : Option (Circuit BlsFr)) (n : ℕ → ℕ) (calls : List (GateCall BlsFr)) (cc : CompiledCircuit BlsFr) :
    Prop where
  eq : circuit = some (build calls)
  compiled : (build calls).compile = some cc
  relations : AllRelations calls
  wiring : WiringOk cc.size calls
  small : cc.size ≤ 16
  srs : cc.size ≤ n cc.size

theorem good_of (circuit : Option (Circuit BlsFr)) (n : ℕ → ℕ) (calls : List (GateCall BlsFr)) (k : ℕ) (hk : k ≤ 4)
    (heq : circuit = some (build calls)) (hl : 2 ≤ calls.length) (h1 : calls.length ≤ 2 ^ k)
    (h2 : 2 ^ (k - 1) < calls.length)
    (hv : ∀ call ∈ calls, ∀ p ∈ [call.a, call.b, call.c], p.1 ≤ 2 ∧ p.2.1 < 2 ^ k) (hrel : AllRelations calls)
    (hw : WiringOk (2 ^ k) calls) (hn : 2 ^ k ≤ n (2 ^ k)) : ∃ cc, Good circuit n calls cc := by
  obtain ⟨cc, hcc, hs⟩ := small_compiles calls k hk hl h1 h2 hv
  refine ⟨cc, heq, hcc, hrel, by rw [hs]; exact hw, ?_, by rw [hs]; exact hn⟩
  rw [hs]
  exact (Nat.pow_le_pow_right (by norm_num) hk).trans (by norm_num)

theorem calls11_relations : AllRelations calls11 := by
  intro call hc
  simp only [calls11, List.mem_cons, List.not_mem_nil, or_false] at hc
  rcases hc with rfl | rfl | rfl | rfl | rfl | rfl | rfl | rfl | rfl <;> norm_num [GateCall.Relation]

theorem calls11_wiring : WiringOk 16 calls11 := smallWiring 16 _ (by decide +kernel) (by decide +kernel)

theorem accepted_good (t : Option (Circuit BlsFr) × (ℕ → ℕ)) (ht : t ∈ acceptedTests) :
    ∃ calls cc, Good t.1 t.2 calls cc := by
  simp only [acceptedTests, List.mem_cons, List.not_mem_nil, or_false] at ht
  rcases ht with rfl | rfl | rfl | rfl | rfl
  · refine ⟨_, good_of _ _ (pythagorasCalls 25) 2 (by norm_num) rfl (by decide) (by decide) (by decide) (by decide) ?_
      (smallWiring 4 _ (by decide +kernel) (by decide +kernel)) (by norm_num)⟩
    intro call hc
    simp only [pythagorasCalls, List.mem_cons, List.not_mem_nil, or_false] at hc
    rcases hc with rfl | rfl | rfl | rfl <;> norm_num [GateCall.Relation]
  · exact ⟨_, good_of _ _ shippedCalls 3 (by norm_num) rfl (by decide) (by decide) (by decide) (by decide)
      shipped_relations shipped_wiring (by norm_num)⟩
  · refine ⟨_, good_of _ _ xyzCalls 1 (by norm_num) rfl (by decide) (by decide) (by decide) (by decide) ?_
      (smallWiring 2 _ (by decide +kernel) (by decide +kernel)) (by norm_num)⟩
    intro call hc
    simp only [xyzCalls, List.mem_cons, List.not_mem_nil, or_false] at hc
    rcases hc with rfl | rfl <;> norm_num [GateCall.Relation]
  · exact ⟨_, good_of _ _ calls11 4 (by norm_num) calls11_eq (by decide) (by decide) (by decide) (by decide)
      calls11_relations calls11_wiring (by norm_num)⟩
  · refine ⟨_, good_of _ _ callsNeg 4 (by norm_num) callsNeg_eq (by decide) (by decide) (by decide) (by decide) ?_
      (smallWiring 16 _ (by decide +kernel) (by decide +kernel)) (by norm_num)⟩
    intro call hc
    simp only [callsNeg, List.mem_cons, List.not_mem_nil, or_false] at hc
    rcases hc with rfl | rfl | rfl | rfl | rfl | rfl | rfl | rfl | rfl <;> norm_num [GateCall.Relation]

/-! ## The theorems -/

section
variable {G1 G2 GT : Type} [AddCommGroup G1] [Module BlsFr G1] [DecidableEq G1] [AddCommGroup G2] [Module BlsFr G2]
  [AddCommGroup GT] [Module BlsFr GT] [DecidableEq GT]

theorem provingTest_ne (env : Env BlsFr G1) (hdig : ∀ b, 8 ≤ (env.sha256 b).length) (P : PairingGroups BlsFr G1 G2 GT)
    (s : BlsFr) (bl : Blinders BlsFr) (circuit : Option (Circuit BlsFr)) (n : ℕ → ℕ) (calls : List (GateCall BlsFr))
    (cc : CompiledCircuit BlsFr) (h : Good circuit n calls cc) : provingTest env P s bl circuit n ≠ some false := by
  intro ht
  unfold provingTest at ht
  rw [h.eq] at ht
  simp only [Option.bind_eq_bind, Option.bind_some, Option.bind_eq_some_iff, h.compiled] at ht
  obtain ⟨p, hp, r, hv, hr⟩ := ht
  obtain ⟨h1, h2⟩ := C49_proof_verifies env env.sha256 hdig P s _ cc (compile_wellFormed _ _ h.compiled)
    (h.srs.trans (Nat.le_add_right _ 3)) bl p hp
  by_cases hev : (p.challenges env env.sha256 P.g1).ev = 1
  · rw [h2 hev] at hv; cases hv
  · rw [h1 hev, Option.some.injEq] at hv
    subst hv
    simp [isOk] at hr

end

/-- The conclusion of `C98_plonk_pass` for one test: for blinding values with `b1, b3, b5, b7 ≠ 0` and `b1 + b3 ≠ b5`
it passes for all but one value of `β`, `3k` values of `γ`, three values of `α` and `6k + 8` values of the evaluation
challenge, `k` being the size of the circuit. -/
def PassesMost (cc : CompiledCircuit BlsFr) (d : Domain BlsFr)
    (test : ∀ (G1 G2 GT : Type) [AddCommGroup G1] [Module BlsFr G1] [DecidableEq G1] [AddCommGroup G2] [Module BlsFr G2]
      [AddCommGroup GT] [Module BlsFr GT] [DecidableEq GT], Env BlsFr G1 → PairingGroups BlsFr G1 G2 GT → BlsFr →
      Blinders BlsFr → Option Bool) : Prop :=
  ∀ bl : Blinders BlsFr, bl.b1 ≠ 0 → bl.b3 ≠ 0 → bl.b5 ≠ 0 → bl.b7 ≠ 0 → bl.b1 + bl.b3 ≠ bl.b5 →
    AllBut 1 fun β : BlsFr => AllBut (3 * cc.size) fun γ : BlsFr => AllBut 3 fun α : BlsFr =>
    AllBut (6 * cc.size + 8) fun ζ : BlsFr =>
      ∀ (G1 G2 GT : Type) [AddCommGroup G1] [Module BlsFr G1] [DecidableEq G1] [AddCommGroup G2] [Module BlsFr G2]
        [AddCommGroup GT] [Module BlsFr GT] [DecidableEq GT]
        (env : Env BlsFr G1) (P : PairingGroups BlsFr G1 G2 GT) (s : BlsFr)
        (H : Honest BlsFr G1), H = ⟨env, P.g1, s, cc, d.gen, bl⟩ → (∀ b, 8 ≤ (env.sha256 b).length) →
        H.β = β → H.γ = γ → H.α = α → H.ζ = ζ → test G1 G2 GT env P s bl = some true

theorem good_passes (circuit : Option (Circuit BlsFr)) (n : ℕ → ℕ) (calls : List (GateCall BlsFr))
    (cc : CompiledCircuit BlsFr) (h : Good circuit n calls cc) (d : Domain BlsFr) (hd : Domain.new? cc.size = some d) :
    PassesMost cc d fun G1 G2 GT _ _ _ _ _ _ _ _ env P s bl => provingTest env P s bl circuit n := by
  intro bl h1 h3 h5 h7 hsum
  refine (C82_honest_proving_succeeds calls cc h.compiled h.relations h.wiring d hd bl h1 h3 h5 h7 hsum).mono le_rfl
    fun β hh => hh.mono le_rfl fun γ hh => hh.mono le_rfl fun α hh => hh.mono le_rfl fun ζ hh => ?_
  intro G1 G2 GT _ _ _ _ _ _ _ _ env P s H hH hdig e1 e2 e3 e4
  obtain ⟨p, hp, hv⟩ := hh G1 G2 GT env env.sha256 P s (n cc.size) H hH h.srs hdig e1 e2 e3 e4
  unfold provingTest
  rw [h.eq]
  simp only [Option.bind_eq_bind, Option.bind_some, h.compiled, hp, hv, isOk]

/-- **C98** (PLONK, tests that expect an accepted proof): the circuit compiles to at most sixteen rows; no randomness makes the
assertion fail (the test may panic), and for most it passes.  The same holds for `parser_circuit_test`, whose
comparison of circuits always succeeds. -/
theorem C98_plonk_pass :
    (∀ t ∈ acceptedTests, ∃ (cc : CompiledCircuit BlsFr) (d : Domain BlsFr), t.1.bind Circuit.compile = some cc ∧
      Domain.new? cc.size = some d ∧ cc.size ≤ 16 ∧
      (∀ (G1 G2 GT : Type) [AddCommGroup G1] [Module BlsFr G1] [AddCommGroup G2] [Module BlsFr G2]
        [AddCommGroup GT] [Module BlsFr GT] [DecidableEq GT] (env : Env BlsFr G1) (P : PairingGroups BlsFr G1 G2 GT)
        (s : BlsFr) (bl : Blinders BlsFr), (∀ b, 8 ≤ (env.sha256 b).length) →
        provingTest env P s bl t.1 t.2 ≠ some false) ∧
      PassesMost cc d fun G1 G2 GT _ _ _ _ _ _ _ _ env P s bl => provingTest env P s bl t.1 t.2) ∧
    ∃ (cc : CompiledCircuit BlsFr) (d : Domain BlsFr), (build calls11).compile = some cc ∧
      Domain.new? cc.size = some d ∧ cc.size ≤ 16 ∧
      (∀ (G1 G2 GT : Type) [AddCommGroup G1] [Module BlsFr G1] [AddCommGroup G2] [Module BlsFr G2]
        [AddCommGroup GT] [Module BlsFr GT] [DecidableEq GT] (env : Env BlsFr G1) (P : PairingGroups BlsFr G1 G2 GT)
        (s : BlsFr) (bl : Blinders BlsFr), (∀ b, 8 ≤ (env.sha256 b).length) →
        parserCircuitTest env P s bl ≠ some false) ∧
      PassesMost cc d fun G1 G2 GT _ _ _ _ _ _ _ _ env P s bl => parserCircuitTest env P s bl := by
  constructor
  · intro t ht
    obtain ⟨calls, cc, h⟩ := accepted_good t ht
    obtain ⟨d, hd, -⟩ := compile_some calls cc h.compiled
    refine ⟨cc, d, by rw [h.eq]; exact h.compiled, hd, h.small, ?_, good_passes _ _ calls cc h d hd⟩
    intro G1 G2 GT _ _ _ _ _ _ _ env P s bl hdig
    classical
    exact provingTest_ne env hdig P s bl _ _ calls cc h
  · obtain ⟨cc, h⟩ : ∃ cc, Good (some (build calls11)) (fun _ => 20) calls11 cc := by
      obtain ⟨calls, cc, h⟩ := accepted_good (parse asciiTables exWit "x*y+3*x^2+x*y*z=11".toList, fun _ => 20)
        (by simp [acceptedTests])
      have hb : build calls = build calls11 := Option.some.inj (h.eq.symm.trans calls11_eq)
      refine ⟨cc, rfl, by rw [← hb]; exact h.compiled, ?_, ?_, h.small, h.srs⟩
      · exact calls11_relations
      · obtain ⟨cc', hc', hs'⟩ := nine_compiles calls11 rfl (by decide)
        have : cc = cc' := by
          have := h.compiled
          rw [hb, hc'] at this
          exact (Option.some.inj this).symm
        rw [this, hs']
        exact calls11_wiring
    obtain ⟨d, hd, -⟩ := compile_some calls11 cc h.compiled
    have heq : ∀ (G1 G2 GT : Type) [AddCommGroup G1] [Module BlsFr G1] [AddCommGroup G2] [Module BlsFr G2]
        [AddCommGroup GT] [Module BlsFr GT] [DecidableEq GT] (env : Env BlsFr G1) (P : PairingGroups BlsFr G1 G2 GT)
        (s : BlsFr) (bl : Blinders BlsFr),
        parserCircuitTest env P s bl = provingTest env P s bl (some (build calls11)) fun _ => 20 := by
      intro G1 G2 GT _ _ _ _ _ _ _ env P s bl
      unfold parserCircuitTest
      rw [calls11_eq', Option.bind_eq_bind, Option.bind_some, if_neg (not_not.2 rfl)]
    refine ⟨cc, d, h.compiled, hd, h.small, ?_, ?_⟩
    · intro G1 G2 GT _ _ _ _ _ _ _ env P s bl hdig
      rw [heq]
      classical
      exact provingTest_ne env hdig P s bl _ _ calls11 cc h
    · intro bl h1 h3 h5 h7 hsum
      refine (good_passes _ _ calls11 cc h d hd bl h1 h3 h5 h7 hsum).mono le_rfl
        fun β hh => hh.mono le_rfl fun γ hh => hh.mono le_rfl fun α hh => hh.mono le_rfl fun ζ hh => ?_
      intro G1 G2 GT _ _ _ _ _ _ _ _ env P s H hH hdig e1 e2 e3 e4
      dsimp only
      rw [heq]
      exact hh G1 G2 GT env P s H hH hdig e1 e2 e3 e4

theorem constantTest_of {G1 G2 GT : Type} [AddCommGroup G1] [Module BlsFr G1] [AddCommGroup G2] [Module BlsFr G2]
    [AddCommGroup GT] [Module BlsFr GT] [DecidableEq GT] (env : Env BlsFr G1) (hdig : ∀ b, 8 ≤ (env.sha256 b).length)
    (P : PairingGroups BlsFr G1 G2 GT) (s : BlsFr) (bl bl' : Blinders BlsFr) (c c1 : Circuit BlsFr)
    (cc cc' : CompiledCircuit BlsFr) (hcc : c.compile = some cc) (hcc' : c1.compile = some cc')
    (hwf : cc.WellFormed) (hwf' : cc'.WellFormed) (hsz : cc.size ≤ 23) (hsz' : cc'.size ≤ 23)
    (d d' : Domain BlsFr) (hd : Domain.new? cc.size = some d) (hd' : Domain.new? cc'.size = some d')
    (h : ∀ proof proof1 : Proof BlsFr G1,
      generateProof env env.sha256 cc (Srs.newFromSecret P s 20) bl = some proof →
      generateProof env env.sha256 cc' (Srs.newFromSecret P s 20) bl' = some proof1 →
      ((proof1.challenges env env.sha256 P.g1).ev ≠ 1 →
        ∃ e, verify env env.sha256 P cc (Srs.newFromSecret P s 20) proof1 = some (.error e)) ∧
      ((proof.challenges env env.sha256 P.g1).ev ≠ 1 →
        ∃ e, verify env env.sha256 P cc' (Srs.newFromSecret P s 20) proof = some (.error e))) :
    constantTest env P s bl bl' (some c) (some c1) ≠ some false ∧
    (provingTest env P s bl (some c) (fun _ => 20) = some true →
      provingTest env P s bl' (some c1) (fun _ => 20) = some true →
      constantTest env P s bl bl' (some c) (some c1) = some true) := by
  constructor
  · intro ht
    unfold constantTest at ht
    simp only [Option.bind_eq_bind, Option.bind_some, Option.bind_eq_some_iff, hcc, hcc'] at ht
    obtain ⟨p, hp, p1, hp1, r, hr, ht⟩ := ht
    obtain ⟨h1, h2⟩ := h p p1 hp hp1
    by_cases e1 : (p1.challenges env env.sha256 P.g1).ev = 1
    · have hown := (C49_proof_verifies env env.sha256 hdig P s 20 cc' hwf' (by omega) bl' p1 hp1).2 e1
      have hu := ((C53_verify env env.sha256 hdig P s 20 cc' hwf' (by omega) d' hd' p1).1.1 hown).1
      rw [((C53_verify env env.sha256 hdig P s 20 cc hwf (by omega) d hd p1).1.2 ⟨hu, e1⟩)] at hr
      cases hr
    obtain ⟨m, hm⟩ := h1 e1
    rw [hm, Option.some.injEq] at hr
    subst hr
    simp only [isOk, Bool.false_eq_true, if_false, Option.bind_eq_some_iff] at ht
    obtain ⟨r1, hr1, ht⟩ := ht
    by_cases e2 : (p.challenges env env.sha256 P.g1).ev = 1
    · have hown := (C49_proof_verifies env env.sha256 hdig P s 20 cc hwf (by omega) bl p hp).2 e2
      have hu := ((C53_verify env env.sha256 hdig P s 20 cc hwf (by omega) d hd p).1.1 hown).1
      rw [((C53_verify env env.sha256 hdig P s 20 cc' hwf' (by omega) d' hd' p).1.2 ⟨hu, e2⟩)] at hr1
      cases hr1
    obtain ⟨m, hm⟩ := h2 e2
    rw [hm, Option.some.injEq] at hr1
    subst hr1
    simp at ht
  · intro t1 t2
    unfold provingTest at t1 t2
    simp only [Option.bind_eq_bind, Option.bind_some, Option.bind_eq_some_iff, hcc, hcc'] at t1 t2
    obtain ⟨p, hp, r, hv, hr⟩ := t1
    obtain ⟨p1, hp1, r1, hv1, hr1⟩ := t2
    obtain ⟨h1, h2⟩ := h p p1 hp hp1
    have e2 : (p.challenges env env.sha256 P.g1).ev ≠ 1 := by
      intro e
      rw [(C49_proof_verifies env env.sha256 hdig P s 20 cc hwf (by omega) bl p hp).2 e] at hv
      cases hv
    have e1 : (p1.challenges env env.sha256 P.g1).ev ≠ 1 := by
      intro e
      rw [(C49_proof_verifies env env.sha256 hdig P s 20 cc' hwf' (by omega) bl' p1 hp1).2 e] at hv1
      cases hv1
    obtain ⟨m, hm⟩ := h1 e1
    obtain ⟨m', hm'⟩ := h2 e2
    unfold constantTest
    simp only [Option.bind_eq_bind, Option.bind_some, hcc, hcc', hp, hp1, hm, hm', isOk, Bool.false_eq_true, if_false,
      Bool.not_false]

theorem bind_compile {o : Option (Circuit BlsFr)} {c : Circuit BlsFr} (h : o = some c) {cc : CompiledCircuit BlsFr}
    (hb : o.bind Circuit.compile = some cc) : c.compile = some cc := by
  subst h
  exact hb

theorem size_le_sixteen {calls : List (GateCall BlsFr)} {cc : CompiledCircuit BlsFr}
    (hcc : (build calls).compile = some cc) (h : calls.length ≤ 2 ^ 4) : cc.size ≤ 16 :=
  (C44_compile_size calls cc hcc).2.2 4 h

/-- **C98** (`parser_constant_test`): except for at most 15 secrets of the trusted setup, no randomness makes an assertion fail,
and the test passes whenever each of the two proofs it makes is accepted for its own circuit. -/
theorem C98_plonk_two_circuits : AllBut 15 fun s : BlsFr =>
    ∀ (G1 G2 GT : Type) [AddCommGroup G1] [Module BlsFr G1] [AddCommGroup G2] [Module BlsFr G2] [AddCommGroup GT]
      [Module BlsFr GT] [DecidableEq GT] (env : Env BlsFr G1) (P : PairingGroups BlsFr G1 G2 GT) (bl bl' : Blinders BlsFr),
      (∀ b, 8 ≤ (env.sha256 b).length) →
      parserConstantTest env P s bl bl' ≠ some false ∧
      (provingTest env P s bl (parse asciiTables exWit "x*y+3*x^2+x*y*z=11".toList) (fun _ => 20) = some true →
        provingTest env P s bl' (parse asciiTables wit4 "x*y+3*x^2+x*y*z=13".toList) (fun _ => 20) = some true →
        parserConstantTest env P s bl bl' = some true) := by
  obtain ⟨cc, cc', hc, hc', h⟩ := C97_repository_test
  have hcc := bind_compile calls11_eq hc
  have hcc' := bind_compile calls13_eq hc'
  obtain ⟨d, hd, -⟩ := compile_some calls11 cc hcc
  obtain ⟨d', hd', -⟩ := compile_some calls13 cc' hcc'
  have hsz := size_le_sixteen hcc (by decide)
  have hsz' := size_le_sixteen hcc' (by decide)
  have hwf := compile_wellFormed _ _ hcc
  have hwf' := compile_wellFormed _ _ hcc'
  have heq := calls11_eq
  have heq' := calls13_eq
  unfold parserConstantTest
  generalize parse asciiTables exWit "x*y+3*x^2+x*y*z=11".toList = o at heq ⊢
  generalize parse asciiTables wit4 "x*y+3*x^2+x*y*z=13".toList = o' at heq' ⊢
  generalize build calls11 = c at heq hcc
  generalize build calls13 = c1 at heq' hcc'
  subst heq heq'
  refine h.mono le_rfl fun s h => ?_
  intro G1 G2 GT _ _ _ _ _ _ _ env P bl bl' hdig
  obtain ⟨-, h⟩ := h G1 G2 GT env P hdig
  exact constantTest_of env hdig P s bl bl' c c1 cc cc' hcc hcc' hwf hwf' (by omega) (by omega) d d' hd hd'
    fun p p1 hp hp1 => h bl bl' p p1 hp hp1

theorem proveOnly_none {G1 G2 GT : Type} [AddCommGroup G1] [Module BlsFr G1] [AddCommGroup G2]
    [Module BlsFr G2] [AddCommGroup GT] [Module BlsFr GT] [DecidableEq GT] (env : Env BlsFr G1)
    (P : PairingGroups BlsFr G1 G2 GT) (s : BlsFr) (bl : Blinders BlsFr) (circuit : Option (Circuit BlsFr))
    (c : Circuit BlsFr) (heq : circuit = some c) (cc : CompiledCircuit BlsFr) (hcc : c.compile = some cc)
    (h : generateProof env env.sha256 cc (Srs.newFromSecret P s 20) bl = none) : proveOnly env P s bl circuit = none := by
  subst heq
  unfold proveOnly
  simp only [Option.bind_eq_bind, Option.bind_some, hcc, h, Option.bind_none]

theorem provingTest_none {G1 G2 GT : Type} [AddCommGroup G1] [Module BlsFr G1] [AddCommGroup G2]
    [Module BlsFr G2] [AddCommGroup GT] [Module BlsFr GT] [DecidableEq GT] (env : Env BlsFr G1)
    (P : PairingGroups BlsFr G1 G2 GT) (s : BlsFr) (bl : Blinders BlsFr) (n : ℕ → ℕ)
    (c : Circuit BlsFr) (cc : CompiledCircuit BlsFr) (hcc : c.compile = some cc)
    (h : ∀ srs : Srs G1 G2, generateProof env env.sha256 cc srs bl = none) :
    provingTest env P s bl (some c) n = none := by
  unfold provingTest
  simp only [Option.bind_eq_bind, Option.bind_some, hcc, h, Option.bind_none]

theorem missing_none : missingWitnessTest = none := by decide +kernel

theorem parseStringPanic_none : parseStringPanicTest = none := by decide +kernel

theorem parseString_true : parseStringTest = some true := by decide +kernel

theorem createCircuit_true : createCircuitTest = some true := by decide +kernel

theorem exEq_text' : parseString asciiTables "x*y+3*x^2+x*y*z=11".toList = some exEq.text := by decide +kernel

theorem compareCpi_true {G1 G2 : Type} [AddCommGroup G1] [Module BlsFr G1] [DecidableEq G1] [AddCommGroup G2]
    [Module BlsFr G2] (srs : Srs G1 G2) (input : Option (CommonPreprocessedInput BlsFr G1))
    (circuit : Option (Circuit BlsFr)) (c : Circuit BlsFr) (heq : circuit = some c) (cc : CompiledCircuit BlsFr)
    (hcc : c.compile = some cc) (com : DP BlsFr → G1)
    (hm : ∀ p ∈ [cc.gate.qlx, cc.gate.qrx, cc.gate.qmx, cc.gate.qox, cc.gate.qcx, cc.copy.s1, cc.copy.s2, cc.copy.s3],
      commit srs p = some (com p))
    (h : ∀ pre : CommonPreprocessedInput BlsFr G1, input = some pre ↔
        (pre.n = cc.size ∧ pre.k1 = cc.copy.k1 ∧ pre.k2 = cc.copy.k2 ∧ pre.pix = cc.gate.pix) ∧
        (commit srs cc.gate.qlx = some pre.comQl ∧ commit srs cc.gate.qrx = some pre.comQr ∧
          commit srs cc.gate.qmx = some pre.comQm ∧ commit srs cc.gate.qox = some pre.comQo ∧
          commit srs cc.gate.qcx = some pre.comQc) ∧
        commit srs cc.copy.s1 = some pre.comS1 ∧ commit srs cc.copy.s2 = some pre.comS2 ∧
          commit srs cc.copy.s3 = some pre.comS3) : compareCpi srs input circuit = some true := by
  subst heq
  simp only [List.mem_cons, List.not_mem_nil, or_false, forall_eq_or_imp, forall_eq] at hm
  obtain ⟨m1, m2, m3, m4, m5, m6, m7, m8⟩ := hm
  have hcpi := (h ⟨cc.size, cc.copy.k1, cc.copy.k2, _, _, _, _, _, _, _, _, cc.gate.pix⟩).2
    ⟨⟨rfl, rfl, rfl, rfl⟩, ⟨m1, m2, m3, m4, m5⟩, m6, m7, m8⟩
  unfold compareCpi
  simp only [hcpi, hcc, m1, m2, m3, m4, m5, m6, m7, m8, Option.bind_eq_bind, Option.bind_some, decide_true,
    Bool.and_true]

/-- **C98** (PLONK, `#[should_panic]`): the tests marked so panic, whatever the randomness. -/
theorem C98_plonk_should_panic {G1 G2 GT : Type} [AddCommGroup G1] [Module BlsFr G1] [AddCommGroup G2]
    [Module BlsFr G2] [AddCommGroup GT] [Module BlsFr GT] [DecidableEq GT] (env : Env BlsFr G1)
    (P : PairingGroups BlsFr G1 G2 GT) (s : BlsFr) (bl : Blinders BlsFr) (c1 : G1) :
    rejectedTest env P s bl = none ∧ falseWitnessTest env P s bl = none ∧ missingWitnessTest = none ∧
      parseStringPanicTest = none ∧ safeGuardTest env c1 = none := by
  refine ⟨?_, ?_, missing_none, parseStringPanic_none, ?_⟩
  · obtain ⟨cc, hcc, hs⟩ := small_compiles (pythagorasCalls 20) 2 (by norm_num) (by decide) (by decide) (by decide)
      (by decide)
    exact provingTest_none env P s bl id _ cc hcc fun srs => C51_compiled env env.sha256 (pythagorasCalls 20) cc hcc srs bl
      ⟨.addition, (2, 0, 9), (2, 1, 16), (2, 2, 20), 0⟩ (by simp [pythagorasCalls])
      (by simp only [GateCall.Relation]; decide +kernel)
  · obtain ⟨cc, hcc, hs⟩ := small_compiles callsFalse 2 (by norm_num) (by decide) (by decide) (by decide)
      (by decide)
    exact proveOnly_none env P s bl _ _ callsFalse_eq cc hcc (C51_compiled env env.sha256 callsFalse cc hcc _ bl
      ⟨.addition, (2, 1, 6), (0, 2, 0), (2, 3, 0), 0⟩ (by simp [callsFalse])
      (by simp only [GateCall.Relation]; decide +kernel))
  · unfold safeGuardTest
    cases h : (ChallengeGenerator.fromCommitments env env.sha256 [c1]).generateChallenges env 3 with
    | none => rfl
    | some r =>
      obtain ⟨-, D, -, -, hr⟩ := (generateChallenges_iff env _ 3 r).1 h
      subst hr
      simp [ChallengeGenerator.generateChallenges, ChallengeGenerator.rngSeed]

/-- **C98** (PLONK, deterministic tests): they pass; the comparison of the two preprocessed inputs passes for every
secret. -/
theorem C98_plonk_deterministic {G1 G2 GT : Type} [AddCommGroup G1] [Module BlsFr G1] [DecidableEq G1] [AddCommGroup G2]
    [Module BlsFr G2] [AddCommGroup GT] [Module BlsFr GT] [DecidableEq GT] (P : PairingGroups BlsFr G1 G2 GT) (s : BlsFr) :
    parseStringTest = some true ∧ createCircuitTest = some true ∧ cpiCreateCircuitTest = some true ∧
      cpiTest P s = some true := by
  refine ⟨parseString_true, createCircuit_true, ?_, ?_⟩
  · let calls : List (GateCall BlsFr) :=
      [⟨.multiplication, (0, 0, 0), (0, 0, 0), (2, 0, 0), 0⟩, ⟨.multiplication, (0, 0, 0), (1, 1, 0), (2, 1, 0), 0⟩,
       ⟨.addition, (2, 1, 0), (1, 2, 0), (2, 2, 0), 0⟩, ⟨.addition, (2, 0, 0), (2, 2, 0), (2, 3, 0), 0⟩]
    obtain ⟨cc, hcc, hs⟩ := small_compiles calls 2 (by norm_num) (by decide) (by decide) (by decide) (by decide)
    have := C72_compile_agrees calls (by decide)
    rw [hcc, Option.map_some] at this
    show ((buildCpi calls).compile).bind (fun _ => some true) = some true
    rw [this]
    rfl
  · obtain ⟨cc, hcc, hs⟩ := nine_compiles calls11 rfl (by decide)
    have hwf := compile_wellFormed _ _ hcc
    refine compareCpi_true _ _ _ _ calls11_eq cc hcc (fun p => (toPoly p).eval s • P.g1) ?_
      ((C64_preprocessed_input (G1 := G1) (G2 := G2) asciiTables asciiTables_sane exEq exEq_ok exEq_canonical exWit exRho
        exEq_covers _ exEq_text' (build calls11) calls11_eq (Srs.newFromSecret P s 20)).2 cc hcc)
    intro p hp
    have hp' : p ∈ cc.polys := by
      simp only [CompiledCircuit.polys, List.mem_cons, List.not_mem_nil, or_false] at hp ⊢
      rcases hp with h | h | h | h | h | h | h | h <;> simp [h]
    refine (C02_commit P s 20 (hwf.canon p hp')).1 ?_
    have := natDegree_lt_of_length (hwf.len p hp') (by omega)
    omega

/-- **C98** (`test_slice_poly`): the test passes exactly for the numbers whose fourth, eighth and twelfth
coefficients are not zero. -/
theorem C98_plonk_slices {F : Type} [Field F] [DecidableEq F] (c : Fin 12 → F) (x : F) :
    slicePolyTest c x = some true ↔ c 3 ≠ 0 ∧ c 7 ≠ 0 ∧ c 11 ≠ 0 := by
  have hl : List.ofFn c = [c 0, c 1, c 2, c 3, c 4, c 5, c 6, c 7, c 8, c 9, c 10, c 11] := by
    simp [List.ofFn_succ]
  have canon4 : ∀ a b e f : F, Canon [a, b, e, f] ↔ f ≠ 0 := by
    intro a b e f
    simp [Canon]
  unfold slicePolyTest
  rw [hl]
  generalize c 0 = c0, c 1 = c1, c 2 = c2, c 3 = c3, c 4 = c4, c 5 = c5, c 6 = c6, c 7 = c7, c 8 = c8, c 9 = c9,
    c 10 = c10, c 11 = c11
  simp only [Option.bind_eq_bind, Option.bind_eq_some_iff, Option.some.injEq, Bool.and_eq_true, decide_eq_true_eq,
    Nat.zero_mul, Nat.one_mul, Nat.reduceMul, List.drop_zero, List.take_succ_cons, List.take_zero, List.drop_succ_cons]
  constructor
  · rintro ⟨sp, hsp, ⟨⟨⟨h1, h2⟩, h3⟩, h4⟩, -⟩
    have hcan : Canon sp.lo ∧ Canon sp.mid ∧ Canon sp.hi := by
      unfold SlicePoly.new at hsp
      dsimp only at hsp
      split at hsp
      all_goals
        split at hsp
        · cases hsp
        · cases hsp
          exact ⟨canon_fromCoeffs _, canon_fromCoeffs _, canon_fromCoeffs _⟩
    rw [h2, h3, h4, canon4, canon4, canon4] at hcan
    exact hcan
  · rintro ⟨h3, h7, h11⟩
    have e : fromCoeffs [c0, c1, c2, c3, c4, c5, c6, c7, c8, c9, c10, c11] =
        [c0, c1, c2, c3, c4, c5, c6, c7, c8, c9, c10, c11] := truncate_eq_self (by simpa [Canon] using h11)
    have e1 : fromCoeffs [c0, c1, c2, c3] = [c0, c1, c2, c3] := truncate_eq_self ((canon4 _ _ _ _).2 h3)
    have e2 : fromCoeffs [c4, c5, c6, c7] = [c4, c5, c6, c7] := truncate_eq_self ((canon4 _ _ _ _).2 h7)
    have e3 : fromCoeffs [c8, c9, c10, c11] = [c8, c9, c10, c11] := truncate_eq_self ((canon4 _ _ _ _).2 h11)
    rw [e]
    refine ⟨⟨fromCoeffs [c0, c1, c2, c3], fromCoeffs [c4, c5, c6, c7], fromCoeffs [c8, c9, c10, c11], 3⟩,
      by simp [SlicePoly.new], ⟨⟨⟨rfl, ?_⟩, ?_⟩, ?_⟩, rfl⟩
    · exact e1
    · exact e2
    · exact e3

/-- With a zero in one of these places the test fails, and with zeros everywhere it panics. -/
example : slicePolyTest (fun i => ((i : ℕ) : ℚ) + 1) 7 = some true ∧
    slicePolyTest (fun i => ((i : ℕ) : ℚ) - 7) 7 = some false ∧ slicePolyTest (fun _ => (0 : ℚ)) 7 = none := by
  decide +kernel

/-- **C98** (`aggregation_digest_test`): with digests of at least eight bytes it never panics, and it fails exactly if
the generator returns the same first element for the (first eight bytes of the) two digests. -/
theorem C98_plonk_randomness {F G1 : Type} [DecidableEq F] (env : Env F G1) (hdig : ∀ b, 8 ≤ (env.sha256 b).length)
    (c1 c2 : G1) : aggregationTest env c1 c2 = some (decide
      (env.rand (fromLeBytes ((env.sha256 (env.sha256 (env.serG c1) ++ env.serG c2)).take 8)) 0 ≠
        env.rand (fromLeBytes ((env.sha256 (env.serG c2)).take 8)) 0)) := by
  have hgen : ∀ (t : ChallengeGenerator) (n : ℕ) (D : List UInt8), t.generated = false → t.data = some D → 8 ≤ D.length →
      t.generateChallenges env n = some ((List.range n).map (env.rand (fromLeBytes (D.take 8))),
        { t with generated := true }) := by
    intro t n D h1 h2 h3
    exact (generateChallenges_iff env t n _).2 ⟨h1, D, h2, h3, rfl⟩
  unfold aggregationTest
  rw [hgen (ChallengeGenerator.fromCommitments env env.sha256 [c1, c2]) 3 _ rfl rfl (hdig _),
    hgen (ChallengeGenerator.fromCommitments env env.sha256 [c2]) 1 _ rfl rfl (hdig _)]
  simp only [Option.bind_eq_bind, Option.bind_some, decide_true, Bool.and_true]
  simp [ChallengeGenerator.default, ChallengeGenerator.feed, List.range_succ]

/-- Non-vacuity of `PassesMost`: blinding values as required exist, and the exceptional challenges are few compared with
the size of the field. -/
example : ∃ bl : Blinders BlsFr, bl.b1 ≠ 0 ∧ bl.b3 ≠ 0 ∧ bl.b5 ≠ 0 ∧ bl.b7 ≠ 0 ∧ bl.b1 + bl.b3 ≠ bl.b5 :=
  ⟨⟨1, 1, 1, 1, 1, 1, 1, 1, 1⟩, by decide +kernel, by decide +kernel, by decide +kernel, by decide +kernel,
    by decide +kernel⟩

end Verif.Plonk

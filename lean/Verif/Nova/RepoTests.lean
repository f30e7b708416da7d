import Verif.Nova.Program
import Verif.Nova.TranscriptProps

/-!
# C98 (Nova): the repository's own tests

Every `#[test]` of the crate as a program: `none` if it panics, `some false` if an assertion fails, `some true` if it
passes.  The environment supplies the digest, the serialisations and the random generator; the trusted setup of every
test draws the secret `s`.
-/

set_option linter.unusedSectionVars false

namespace Verif.Nova

open Verif.Ark Verif.Kzg

variable {F G1 G2 GT B : Type} [Field F] [DecidableEq F] [AddCommGroup G1] [Module F G1] [DecidableEq G1]
  [AddCommGroup G2] [Module F G2] [AddCommGroup GT] [Module F GT] [DecidableEq GT]
  [Field B] [DecidableEq B]

/-- `TestCircuit::run`, `nova/src/circuit.rs` lines 182-193 and `nova/src/ivc/ivc_verifier.rs` lines 92-104; `conv` is
`BaseField::from_le_bytes_mod_order(&res.into_bigint().to_bytes_le())`. -/
def testCircuit (conv : F → B) (z : B) (w : FWitness F) : Option B := do
  let x ← w.w[0]?
  some (z + conv (x * x * x + x + 5))

/-- `is_ok`. -/
def isOk {α : Type} : Except String α → Bool
  | .ok _ => true
  | .error _ => false

/-- `test_r1cs_satisfaction_condition`, `nova/src/r1cs/mod.rs` lines 136-167. -/
def testSatisfied (srs : Srs G1 G2) (F : Type) [Field F] [DecidableEq F] [Module F G1] : Option Bool := do
  let w : FWitness F := FWitness.new (testW 3) 4
  let u ← w.commit srs (testX 3)
  let ok ← isR1csSatisfied testR1cs u w srs
  some (isOk ok)

/-- `test_prover_folding`, `nova/src/nifs/nifs_prover.rs` lines 77-112. -/
def testProverFolding (env : Env F G1 B) (srs : Srs G1 G2) : Option Bool := do
  let w0 : FWitness F := FWitness.new (testW 3) 4
  let w1 : FWitness F := FWitness.new (testW 4) 4
  let u0 ← w0.commit srs (testX 3)
  let u1 ← w1.commit srs (testX 4)
  let out ← nifsProver env testR1cs w0 w1 u0 u1 srs .default
  let ok ← isR1csSatisfied testR1cs out.1.2.1 out.1.1 srs
  some (isOk ok)

/-- `test_one_fold`, `nova/src/nifs/nifs_verifier.rs` lines 154-208. -/
def testOneFold (env : Env F G1 B) (P : PairingGroups F G1 G2 GT) (srs : Srs G1 G2) : Option Bool := do
  let fw1 : FWitness F := FWitness.new (testW 3) 4
  let fw2 : FWitness F := FWitness.new (testW 4) 4
  let fi1 ← fw1.commit srs (testX 3)
  let fi2 ← fw2.commit srs (testX 4)
  let out ← nifsProver env testR1cs fw1 fw2 fi1 fi2 srs .default
  let proof ← nifsProve env out.1.2.2.2 out.1.1 out.1.2.1 srs out.2
  let v := nifsVerifier out.1.2.2.2 fi1 fi2 out.1.2.2.1
  let result ← nifsVerify env P proof.1 fi1 fi2 v out.1.2.2.1 srs .default
  some (isOk result.1)

/-- `test_augmented_circuit_01`, `nova/src/circuit.rs` lines 195-263. -/
def testAug1 (env : Env F G1 B) (conv : F → B) (srs : Srs G1 G2) : Option Bool := do
  let w0 : FWitness F := FWitness.new (testW 3) 4
  let u0 ← w0.commit srs (testX 3)
  let pair ← createTrivialPair 1 4 srs
  let a : Aug F G1 B := ⟨0, pair.2, 0, 0, none, none, none⟩
  let res ← a.run env (testCircuit conv) u0 none w0 none
  match res.1 with
  | .error _ => some false
  | .ok hash =>
    if hash ≠ hashIo env 1 0 35 pair.2 then some false
    else do
      let a' ← res.2.nextStep
      some (decide (a'.zi = 35))

/-- `test_augmented_circuit_02` with `z2 = 108`, `nova/src/circuit.rs` lines 265-358, and `test_augmented_circuit_03`
(`#[should_panic]`) with `z2 = 130`, lines 360-455. -/
def testAug2 (env : Env F G1 B) (conv : F → B) (srs : Srs G1 G2) (z2 : B) : Option Bool := do
  let w1 : FWitness F := FWitness.new (testW 4) 4
  let u0 ← w1.commit srs (testX 4)
  let pair ← createTrivialPair 1 4 srs
  let u1x := hashIo env 1 0 35 pair.2
  let u1 : FInstance F G1 := ⟨u0.comE, u0.u, u0.comW, [env.toScalar u1x]⟩
  let out ← nifsProver env testR1cs w1 pair.1 u1 pair.2 srs .default
  let a : Aug F G1 B := ⟨1, pair.2, 0, 35, none, some u1x, none⟩
  let res ← a.run env (testCircuit conv) u1 (some pair.2) w1 (some out.1.2.2.1)
  match res.1 with
  | .error _ => some false
  | .ok hash =>
    if hash ≠ hashIo env 2 0 z2 out.1.2.1 then some false
    else do
      let a' ← res.2.nextStep
      some (decide (a'.zi = z2))

/-- The states `z`, `nova/src/ivc/ivc_verifier.rs` lines 146-155 and 281-282. -/
def testStates (f : B → FWitness F → Option B) : B → List (FWitness F) → Option (List B)
  | z, [] => some [z]
  | z, w :: ws => do
    let z' ← f z w
    let rest ← testStates f z' ws
    some (z :: rest)

/-- The loop of `test_ivc`, `nova/src/ivc/ivc_verifier.rs` lines 179-234, and the steps of `test_ivc_step_by_step`, lines
320-437: `z` are the states computed before, `expect` the ones the circuit's state is compared with, `i` the counter
the test keeps itself; an error is a failed assertion.  Unlike `Loop.drive` the public input is computed from `z`
and `i`, not from the circuit's fields.  (The tests commit to all the witnesses before the loop.) -/
def testIvcLoop (env : Env F G1 B) (P : PairingGroups F G1 G2 GT) (srs : Srs G1 G2) (f : B → FWitness F → Option B)
    (r1cs : R1CS F) (z expect : List B) : B → Loop F G1 B → List (List F × List F) →
    Option (Except String (Aug F G1 B))
  | _, st, [] => st.check env P srs f
  | i, st, wx :: rest =>
    match st.check env P srs f with
    | none => none
    | some (.error e) => some (.error e)
    | some (.ok a) => do
      let a' ← a.nextStep
      let zz ← expect[st.step + 1]?
      if a'.zi ≠ zz then some (.error "assertion failed")
      else do
        let z0 ← z[0]?
        let z1 ← z[st.step + 1]?
        let w := FWitness.new wx.1 r1cs.matrixA.length
        let u0 ← w.commit srs wx.2
        let u : FInstance F G1 := ⟨u0.comE, u0.u, u0.comW, [env.toScalar (hashIo env (i + 1) z0 z1 st.fi)]⟩
        let ivc : IVCProof F G1 := ⟨u, w, st.fi, st.fw⟩
        let out ← ivcProve env srs a' r1cs ivc .default
        testIvcLoop env P srs f r1cs z expect (i + 1) ⟨st.step + 1, a', u, w, ivc, out.1.2.2, out.1.1, out.1.2.1⟩ rest

/-- The raw witness and output of `gen_test_values` for one input. -/
def testPair (input : ℕ) : List F × List F := (testW input, testX input)

/-- `test_ivc`, `nova/src/ivc/ivc_verifier.rs` lines 106-236. -/
def testIvc (env : Env F G1 B) (conv : F → B) (P : PairingGroups F G1 G2 GT) (srs : Srs G1 G2) : Option Bool := do
  let st ← Loop.init srs testR1cs 0 (testPair 3)
  let z ← testStates (testCircuit conv) 0 ([3, 4, 1, 2].map fun n => FWitness.new (testW n) 4)
  let res ← testIvcLoop env P srs (testCircuit conv) testR1cs z z 0 st [testPair 4, testPair 1, testPair 2]
  some (isOk res)

/-- `test_ivc_step_by_step`, `nova/src/ivc/ivc_verifier.rs` lines 238-447. -/
def testIvcSteps (env : Env F G1 B) (conv : F → B) (P : PairingGroups F G1 G2 GT) (srs : Srs G1 G2) : Option Bool := do
  let st ← Loop.init srs testR1cs 0 (testPair 3)
  let z ← testStates (testCircuit conv) 0 ([3, 4].map fun n => FWitness.new (testW n) 4)
  let res ← testIvcLoop env P srs (testCircuit conv) testR1cs z [0, 35, 108] 0 st [testPair 4, testPair 1]
  match res with
  | .error _ => some false
  | .ok a => do
    let a' ← a.nextStep
    some (decide (a'.zi = 115))

/-- `aggregation_digest_test`, `nova/src/transcript.rs` lines 145-164; `c1`, `c2` are the two commitments. -/
def testAggregation (env : Env F G1 B) (c1 c2 : G1) : Option Bool := do
  let a ← (Transcript.fromCommitment env [c1, c2]).generateChallenges env 3
  let b ← (Transcript.fromCommitment env [c2]).generateChallenges env 1
  let c ← (Transcript.fromCommitment env [c1, c2]).generateChallenges env 3
  some (decide (a.1[0]? ≠ b.1[0]?) && decide (a.1 = c.1))

/-- `transcript_test_01`, `nova/src/transcript.rs` lines 166-177. -/
def testTranscript1 (env : Env F G1 B) : Option Bool := do
  let x ← (Transcript.fromScalarNumber env [15, 20]).generateChallenges env 3
  let x1 ← (Transcript.fromScalarNumber env [15, 20]).generateChallenges env 3
  some (decide (x.1 = x1.1))

/-- `transcript_test_02`, `nova/src/transcript.rs` lines 179-204. -/
def testTranscript2 (env : Env F G1 B) (c1 c2 : G1) : Option Bool := do
  let ts1 := (((Transcript.default.feedScalarNum env 15).feedScalarNum env 20).feed env c1).feed env c2
  let ts2 := (((Transcript.default.feedScalarNum env 15).feedScalarNum env 20).feed env c1).feed env c2
  let x ← ts1.generateChallenges env 3
  let x1 ← ts2.generateChallenges env 3
  some (decide (x.1 = x1.1))

/-- `safe_guard`, `nova/src/transcript.rs` lines 206-214 (`#[should_panic]`). -/
def testSafeGuard (env : Env F G1 B) (c1 : G1) : Option Bool := do
  let a ← (Transcript.fromCommitment env [c1]).generateChallenges env 3
  let _ ← a.2.generateChallenges env 3
  some true

/-! ## The theorems -/

section lemmas

theorem srs6 (P : PairingGroups F G1 G2 GT) (s : F) : (Srs.newFromSecret P s 6).g1Points.length = 9 :=
  srs_length P s 6

/-- Committing to a witness of the tests. -/
theorem test_commit (P : PairingGroups F G1 G2 GT) (s : F) (w x : List F) (hw : w.length = 4) :
    ∃ c, commitVector (Srs.newFromSecret P s 6) w = some c ∧
      commitVector (Srs.newFromSecret P s 6) (FWitness.new w 4).e = some 0 ∧
      (FWitness.new w 4).commit (Srs.newFromSecret P s 6) x = some ⟨0, 1, c, x⟩ := by
  have hsl := srs6 P s
  have h1 : commitVector (Srs.newFromSecret P s 6) w = some _ :=
    (commitVector_iff _ _ _).2 ⟨by omega, fun i hi => getD_eq_of_le (by omega), rfl⟩
  have h2 : commitVector (Srs.newFromSecret P s 6) (FWitness.new w 4).e = some 0 := by
    rw [commitVector_iff]
    have hd : ∀ i, (FWitness.new w 4).e.getD i 0 = 0 := by
      intro i
      show (List.replicate 4 (0 : F)).getD i 0 = 0
      by_cases h : i < 4
      · rw [getD_lt (by simpa using h), List.getElem_replicate]
      · rw [getD_eq_of_le (by simpa using h)]
    exact ⟨by omega, fun i _ => hd i, by simp only [hd, zero_smul, Finset.sum_const_zero]⟩
  refine ⟨_, h1, h2, ?_⟩
  unfold FWitness.commit
  rw [h2, show (FWitness.new w 4).w = w from rfl, h1]
  rfl

theorem testW_length (n : ℕ) : (testW n : List F).length = 4 := rfl

/-- The cross term of the tests' folds. -/
theorem test_prover (P : PairingGroups F G1 G2 GT) (s : F) (fw1 fw2 : FWitness F) (fi1 fi2 : FInstance F G1) :
    ∃ t cT, computeT testR1cs fi1.u fi2.u (zVec fw1 fi1) (zVec fw2 fi2) = some t ∧
      commitVector (Srs.newFromSecret P s 6) t = some cT := by
  have hsl := srs6 P s
  have ht : computeT testR1cs fi1.u fi2.u (zVec fw1 fi1) (zVec fw2 fi2) = some
      ((List.range 4).map (crossTerm testR1cs fi1.u fi2.u (zVec fw1 fi1) (zVec fw2 fi2))) := by
    refine (computeT_iff _ _ _ _ _ _).2 ⟨le_refl 4, rfl, rfl, ?_⟩
    intro i hi
    have hi' : i < 4 := hi
    rw [getD_lt (by simpa using hi')]; simp
  exact ⟨_, _, ht, (commitVector_iff _ _ _).2 ⟨by omega, fun i hi => getD_eq_of_le (by simp; omega), rfl⟩⟩

/-- One application of the test circuit. -/
theorem testCircuit_eq {conv : F → B} (hconv : ∀ n : ℕ, n < 2 ^ 64 → conv (n : F) = (n : B)) (z : B) (n m : ℕ)
    (hm : n * n * n + n + 5 = m) (h64 : m < 2 ^ 64) :
    testCircuit conv z (FWitness.new (testW n : List F) 4) = some (z + (m : B)) := by
  have : (n : F) * n * n + n + 5 = (m : F) := by rw [← hm]; push_cast; ring
  simp only [testCircuit, FWitness.new, testW, toFVec, List.map_cons, List.getElem?_cons_zero, Option.bind_eq_bind,
    Option.bind_some, this, hconv m h64]

end lemmas

/-- **C98** (Nova, tests that always pass): for every digest of at least eight bytes, every generator and every secret
`test_r1cs_satisfaction_condition`, `test_prover_folding`, `test_augmented_circuit_01` and `_02` and the two transcript
tests pass; `safe_guard` panics, and `test_augmented_circuit_03` never passes its assertions (`conv` is the conversion of
scalars to base field elements, the identity on numbers below `2 ^ 64`). -/
theorem C98_nova_always (env : Env F G1 B) (P : PairingGroups F G1 G2 GT) (s : F) (conv : F → B)
    (hdig : ∀ b, 8 ≤ (env.digest b).length) (hconv : ∀ n : ℕ, n < 2 ^ 64 → conv (n : F) = (n : B)) (c1 c2 : G1) :
    testSatisfied (Srs.newFromSecret P s 6) F = some true ∧
    testProverFolding env (Srs.newFromSecret P s 6) = some true ∧
    testAug1 env conv (Srs.newFromSecret P s 6) = some true ∧
    testAug2 env conv (Srs.newFromSecret P s 6) 108 = some true ∧
    ((22 : B) ≠ 0 → testAug2 env conv (Srs.newFromSecret P s 6) 130 = some false) ∧
    testTranscript1 env = some true ∧ testTranscript2 env c1 c2 = some true ∧ testSafeGuard env c1 = none := by
  have hsl := srs6 P s
  have hgen : ∀ (t : Transcript) (n : ℕ), t.generated = false → 8 ≤ (t.data.getD []).length →
      ∃ l, t.generateChallenges env n = some (l, { t with generated := true }) := by
    intro t n h1 h2
    unfold Transcript.generateChallenges Transcript.rngSeed
    rw [if_neg (by simp [h1]), if_neg (by omega)]
    exact ⟨_, rfl⟩
  have htriv := createTrivialPair_some (F := F) 1 4 (Srs.newFromSecret P s 6) (by omega)
  -- the second step of the augmented circuit
  have haug2 : ∀ z2 : B, testAug2 env conv (Srs.newFromSecret P s 6) z2 = some (decide (108 = z2)) := by
    intro z2
    obtain ⟨c, -, -, hu⟩ := test_commit P s (testW 4) (testX 4) rfl
    obtain ⟨t, cT, ht, hT⟩ := test_prover P s (FWitness.new (testW 4) 4) ⟨List.replicate 4 0, List.replicate 4 0⟩
      ⟨0, 1, c, [env.toScalar (hashIo env 1 0 35 (⟨0, 1, 0, [0]⟩ : FInstance F G1))]⟩ ⟨0, 1, 0, [0]⟩
    have hp := nifsProver_eq env hdig _ _ _ _ _ _ .default t cT ht hT
    have h73 := testCircuit_eq hconv 35 4 73 (by norm_num) (by norm_num)
    have h108 : (35 : B) + ((73 : ℕ) : B) = 108 := by norm_num
    unfold testAug2
    simp only [hu, htriv, Option.bind_eq_bind, Option.bind_some, List.replicate_one]
    rw [hp]
    simp only [Option.bind_some, Aug.run, List.head?_cons]
    rw [if_pos one_ne_zero]
    simp only [ne_eq, not_true, if_false, Option.bind_eq_bind, Option.bind_some, h73, h108, pure,
      generateOne_feedFold env hdig, nifsVerifier]
    rw [show (1 : B) + 1 = 2 by norm_num]
    by_cases hz : (108 : B) = z2
    · subst hz
      simp [Aug.nextStep]
    · split
      · simp [hz]
      · simp [Aug.nextStep, hz]
  refine ⟨?_, ?_, ?_, ?_, ?_, ?_, ?_, ?_⟩
  · obtain ⟨fi, h1, h2⟩ := C28_example_circuit (F := F) 3 (Srs.newFromSecret P s 6) (by omega)
    simp only [testSatisfied, h1, h2, Option.bind_eq_bind, Option.bind_some, isOk]
  · obtain ⟨fi, h1, h2⟩ := C28_example_circuit (F := F) 3 (Srs.newFromSecret P s 6) (by omega)
    obtain ⟨fi', h1', h2'⟩ := C28_example_circuit (F := F) 4 (Srs.newFromSecret P s 6) (by omega)
    obtain ⟨t, cT, ht, hT⟩ := test_prover P s (FWitness.new (testW 3) 4) (FWitness.new (testW 4) 4) fi fi'
    have hp := nifsProver_eq env hdig _ _ _ _ _ _ .default t cT ht hT
    have := C29_prover_satisfied env testR1cs _ _ _ fi fi' _ _ _ _ _ _ h2 h2' hp
    simp only [testProverFolding, h1, h1', hp, this, Option.bind_eq_bind, Option.bind_some, isOk]
  · obtain ⟨c, -, -, hu⟩ := test_commit P s (testW 3) (testX 3) rfl
    have h35 := testCircuit_eq hconv 0 3 35 (by norm_num) (by norm_num)
    have e35 : (0 : B) + ((35 : ℕ) : B) = 35 := by norm_num
    simp [testAug1, hu, htriv, Aug.run, h35, Aug.nextStep]
  · rw [haug2]; simp
  · intro h22
    rw [haug2]
    have : ¬ (108 : B) = 130 := by
      intro h
      apply h22
      linear_combination -h
    simp [this]
  · obtain ⟨l, h⟩ := hgen (Transcript.fromScalarNumber env [15, 20]) 3 rfl (hdig _)
    simp [testTranscript1, h]
  · obtain ⟨l, h⟩ := hgen ((((Transcript.default.feedScalarNum env 15).feedScalarNum env 20).feed env c1).feed env c2)
      3 rfl (hdig _)
    simp [testTranscript2, h]
  · obtain ⟨l, h⟩ := hgen (Transcript.fromCommitment env [c1]) 3 rfl (hdig _)
    unfold testSafeGuard
    rw [h]
    simp [Transcript.generateChallenges, Transcript.rngSeed]

/-- **C98** (`test_one_fold`): its assertion never fails, and it passes for every digest, generator and serialisation
under which the folding challenge is not one of at most three values, which depend on the secret only. -/
theorem C98_nova_one_fold (P : PairingGroups F G1 G2 GT) (s : F) (h3 : (3 : F) ≠ 0) :
    (∀ env : Env F G1 B, testOneFold env P (Srs.newFromSecret P s 6) ≠ some false) ∧
    ∃ cT : G1, AllBut 3 fun r : F => ∀ env : Env F G1 B, (∀ b, 8 ≤ (env.digest b).length) →
      challengeOf env (foldDigest env [] 1 1 cT) = r →
      testOneFold env P (Srs.newFromSecret P s 6) = some true := by
  obtain ⟨c3, hc3, hE3, hu3⟩ := test_commit P s (testW 3) (testX 3) rfl
  obtain ⟨c4, hc4, hE4, hu4⟩ := test_commit P s (testW 4) (testX 4) rfl
  obtain ⟨t, cT, ht, hT⟩ := test_prover P s (FWitness.new (testW 3) 4) (FWitness.new (testW 4) 4)
    ⟨0, 1, c3, testX 3⟩ ⟨0, 1, c4, testX 4⟩
  have h84 := C84_nova_honest_proving (B := B) P s 6 testR1cs (FWitness.new (testW 3) 4) (FWitness.new (testW 4) 4)
    ⟨0, 1, c3, testX 3⟩ ⟨0, 1, c4, testX 4⟩ rfl rfl rfl hc3 hc4 hE3 hE4
    ⟨3, by simp [FWitness.new, testW, toFVec], h3⟩ (.inr ⟨0, by show 0 < 4; norm_num, by
      have : crossTerm (testR1cs : R1CS F) 1 1 (zVec (FWitness.new (testW 3) 4) (⟨0, 1, c3, testX 3⟩ : FInstance F G1))
          (zVec (FWitness.new (testW 4) 4) (⟨0, 1, c4, testX 4⟩ : FInstance F G1)) 0 = -1 := by
        simp [crossTerm, testR1cs, toFMatrix, toFVec, testW, testX, zVec, FWitness.new, dot, Finset.sum_range_succ]
        norm_num
      show crossTerm (testR1cs : R1CS F) 1 1 _ _ 0 ≠ 0
      rw [this]; exact neg_ne_zero.2 one_ne_zero⟩)
  have l1 : (FWitness.new (testW 3 : List F) 4).w.length = (FWitness.new (testW 4 : List F) 4).w.length := rfl
  have l2 : (FWitness.new (testW 3 : List F) 4).e.length = (testR1cs : R1CS F).matrixA.length := rfl
  have l3 : (FWitness.new (testW 4 : List F) 4).e.length = (testR1cs : R1CS F).matrixA.length := rfl
  change commitVector _ (FWitness.new (testW 3 : List F) 4).w = _ at hc3
  change commitVector _ (FWitness.new (testW 4 : List F) 4).w = _ at hc4
  unfold testOneFold
  generalize FWitness.new (testW 3 : List F) 4 = fw1 at *
  generalize FWitness.new (testW 4 : List F) 4 = fw2 at *
  generalize (testR1cs : R1CS F) = r1cs at *
  constructor
  · intro env h
    simp only [hu3, hu4, Option.bind_eq_bind, Option.bind_some, Option.bind_eq_some_iff] at h
    obtain ⟨⟨⟨fw, fi, cT', r⟩, tr1⟩, hp, ⟨proof, tr2⟩, hpr, ⟨res, tr3⟩, hv, hf⟩ := h
    have := C32_complete env P s 6 r1cs _ _ fw _ _ fi cT' r proof .default tr1 tr2 l1 l2 l3 hc3 hc4 hE3 hE4 hp hpr
    have hr : proof.r = r := by
      simp only [nifsProve, Option.bind_eq_bind, Option.bind_eq_some_iff, pure, Option.some.injEq, Prod.mk.injEq] at hpr
      obtain ⟨_, _, _, _, _, _, rfl, _⟩ := hpr
      rfl
    rw [hr] at this
    dsimp only at hv hf
    rw [this] at hv
    simp only [Option.some.injEq, Prod.mk.injEq] at hv
    obtain ⟨rfl, -⟩ := hv
    cases hf
  · refine ⟨cT, allBut_mono (fun r h env hdig hr => ?_) h84⟩
    have hp := nifsProver_eq env hdig _ _ _ _ _ _ .default t cT ht hT
    dsimp only [Transcript.default, Option.getD_none] at hp
    rw [hr] at hp
    obtain ⟨proof, tr2, hpr, hv⟩ := h env .default _ _ _ _ hdig hp
    have hpr' : proof.r = r := by
      have hpr1 := hpr
      simp only [nifsProve, Option.bind_eq_bind, Option.bind_eq_some_iff, pure, Option.some.injEq, Prod.mk.injEq] at hpr1
      obtain ⟨_, _, _, _, _, _, rfl, _⟩ := hpr1
      rfl
    rw [hpr'] at hv
    have hp' : nifsProver env r1cs fw1 fw2
        ⟨0, 1, c3, testX 3⟩ ⟨0, 1, c4, testX 4⟩ (Srs.newFromSecret P s 6) .default = _ := hp
    simp only [hu3, hu4, Option.bind_eq_bind, Option.bind_some]
    rw [hp']
    simp only [Option.bind_some]
    rw [hpr]
    simp only [Option.bind_some, hv, isOk]

/-- The loop of the tests is the loop of the example program, if the states they computed before are those of `F`. -/
theorem testIvcLoop_eq (env : Env F G1 B) (P : PairingGroups F G1 G2 GT) (s : F) (n : ℕ)
    (f : B → FWitness F → Option B) (r1cs : R1CS F) (wLen : ℕ) (z0 : B) (z expect : List B)
    (hz0 : z[0]? = some z0) (rest : List (List F × List F)) :
    ∀ (i : B) (st : Loop F G1 B), LoopInv env P s n r1cs wLen z0 st → st.aug.i = i →
      (∀ k, 0 < k → k ≤ st.step + rest.length → (k : B) ≠ 0) → (∀ wx ∈ rest, wx.1.length = wLen) →
      z[st.step]? = some st.aug.zi → (if st.step = 0 then st.w else st.ivc.wi) = st.w →
      (∀ k zk zk1 wx, (st.w.w :: rest.map Prod.fst)[k]? = some wx → k < rest.length → z[st.step + k]? = some zk →
        f zk ⟨(if k = 0 then st.w.e else List.replicate r1cs.matrixA.length 0), wx⟩ = some zk1 →
        z[st.step + k + 1]? = some zk1 ∧ expect[st.step + k + 1]? = some zk1) →
      (testIvcLoop env P (Srs.newFromSecret P s n) f r1cs z expect i st rest =
        match st.drive env P (Srs.newFromSecret P s n) f r1cs rest with
        | none => none
        | some (.error e) => some (.error e)
        | some (.ok st') => st'.check env P (Srs.newFromSecret P s n) f) ∧
      ∀ a, testIvcLoop env P (Srs.newFromSecret P s n) f r1cs z expect i st rest = some (.ok a) →
        ∃ zl e wl zn, z[st.step + rest.length]? = some zl ∧ (st.w.w :: rest.map Prod.fst)[rest.length]? = some wl ∧
          f zl ⟨e, wl⟩ = some zn ∧ a.zi1 = some zn := by
  induction rest with
  | nil =>
    intro i st hinv hi hchar hlen hzs hw hz
    refine ⟨rfl, fun a h => ?_⟩
    obtain ⟨zn, hzn, ha⟩ := (check_ok f hinv (fun h => hchar st.step (by omega) (by simp))).2.1 a h
    rw [hw] at hzn
    exact ⟨st.aug.zi, st.w.e, st.w.w, zn, hzs, rfl, hzn, by rw [ha]⟩
  | cons wx rest ih =>
    intro i st hinv hi hchar hlen hzs hw hz
    simp only [List.length_cons] at hchar
    obtain ⟨hc1, hc2, -⟩ := check_ok f hinv (fun h => hchar st.step (by omega) (by omega))
    unfold testIvcLoop Loop.drive
    cases hck : st.check env P (Srs.newFromSecret P s n) f with
    | none => exact ⟨rfl, fun _ h => by cases h⟩
    | some res =>
      cases res with
      | error e => exact absurd hck (hc1 e)
      | ok a =>
        simp only
        obtain ⟨zn, hzn, ha⟩ := hc2 a hck
        rw [hw] at hzn
        obtain ⟨e1, e2⟩ := hz 0 st.aug.zi zn st.w.w rfl (by simp) hzs (by rw [if_pos rfl]; exact hzn)
        simp only [add_zero] at e1 e2
        have ha' : a.nextStep = some { a with zi := zn, zi1 := none, i := a.i + 1, hi := a.hi1, hi1 := none } := by
          rw [ha]; rfl
        have hai : a.i = i := by rw [ha]; exact hi
        have haz : a.z0 = z0 := by rw [ha]; exact hinv.hz0
        rw [ha']
        simp only [Option.bind_eq_bind, Option.bind_some, e1, e2, hz0, ne_eq, not_true, if_false]
        have hadv : st.advance env (Srs.newFromSecret P s n) r1cs a wx = (do
            let u0 ← (FWitness.new wx.1 r1cs.matrixA.length).commit (Srs.newFromSecret P s n) wx.2
            let u : FInstance F G1 := ⟨u0.comE, u0.u, u0.comW, [env.toScalar (hashIo env (i + 1) z0 zn st.fi)]⟩
            let ivc : IVCProof F G1 := ⟨u, FWitness.new wx.1 r1cs.matrixA.length, st.fi, st.fw⟩
            let out ← ivcProve env (Srs.newFromSecret P s n)
              { a with zi := zn, zi1 := none, i := a.i + 1, hi := a.hi1, hi1 := none } r1cs ivc .default
            some ⟨st.step + 1, { a with zi := zn, zi1 := none, i := a.i + 1, hi := a.hi1, hi1 := none }, u,
              FWitness.new wx.1 r1cs.matrixA.length, ivc, out.1.2.2, out.1.1, out.1.2.1⟩) := by
          unfold Loop.advance
          rw [ha']
          simp only [Option.bind_eq_bind, Option.bind_some, hai, haz]
          rfl
        cases hu0 : (FWitness.new wx.1 r1cs.matrixA.length).commit (Srs.newFromSecret P s n) wx.2 with
        | none =>
          rw [hu0] at hadv
          rw [hadv]
          exact ⟨rfl, fun _ h => by cases h⟩
        | some u0 =>
          rw [hu0] at hadv
          simp only [Option.bind_eq_bind, Option.bind_some] at hadv ⊢
          cases hout : ivcProve env (Srs.newFromSecret P s n)
              { a with zi := zn, zi1 := none, i := a.i + 1, hi := a.hi1, hi1 := none } r1cs
              ⟨⟨u0.comE, u0.u, u0.comW, [env.toScalar (hashIo env (i + 1) z0 zn st.fi)]⟩,
                FWitness.new wx.1 r1cs.matrixA.length, st.fi, st.fw⟩ .default with
          | none =>
            rw [hout] at hadv
            rw [hadv]
            exact ⟨rfl, fun _ h => by cases h⟩
          | some out =>
            rw [hout] at hadv
            simp only [Option.bind_some] at hadv ⊢
            obtain ⟨hinv1, hstep⟩ := advance_inv hinv (hchar _ (by omega) (by omega)) ha (hlen wx (by simp)) hadv
            rw [hadv]
            simp only
            have key := ih (i + 1) _ hinv1 (by simp only [hai]) (fun k h1 h2 => hchar k h1 (by simp only at h2; omega))
              (fun y hy => hlen y (by simp [hy])) e1 (by simp) ?_
            · refine ⟨key.1, fun a' h' => ?_⟩
              obtain ⟨zl, e, wl, zn', k1, k2, k3, k4⟩ := key.2 a' h'
              exact ⟨zl, e, wl, zn', by rw [← k1]; congr 1; simp only [List.length_cons]; omega,
                by rw [List.length_cons, List.getElem?_cons_succ]; exact k2, k3, k4⟩
            intro k zk zk1 w' hk hkl hzk hf
            have := hz (k + 1) zk zk1 w' (by rw [List.getElem?_cons_succ]; exact hk) (by simp; omega)
              (by rw [← hzk]; congr 1; simp only; omega)
              (by
                rw [if_neg (by omega)]
                by_cases h0 : k = 0
                · rw [if_pos h0] at hf; exact hf
                · rw [if_neg h0] at hf; exact hf)
            simp only
            rw [show st.step + 1 + k + 1 = st.step + (k + 1) + 1 by omega]
            exact this

/-- What the test runs is the example program; the states it computes are 0, 35, 108, 115 and so on. -/
theorem testIvc_eq (env : Env F G1 B) (P : PairingGroups F G1 G2 GT) (s : F) (conv : F → B)
    (hconv : ∀ n : ℕ, n < 2 ^ 64 → conv (n : F) = (n : B)) (hb2 : (2 : B) ≠ 0) (hb3 : (3 : B) ≠ 0) :
    testIvc env conv P (Srs.newFromSecret P s 6) =
      (exampleMain env P (Srs.newFromSecret P s 6) (testCircuit conv) testR1cs 0 (testPair 3)
        [testPair 4, testPair 1, testPair 2]).map isOk ∧
    testIvcSteps env conv P (Srs.newFromSecret P s 6) =
      (exampleMain env P (Srs.newFromSecret P s 6) (testCircuit conv) testR1cs 0 (testPair 3)
        [testPair 4, testPair 1]).map isOk := by
  have f0 := testCircuit_eq hconv 0 3 35 (by norm_num) (by norm_num)
  have f1 := testCircuit_eq hconv 35 4 73 (by norm_num) (by norm_num)
  have f2 := testCircuit_eq hconv 108 1 7 (by norm_num) (by norm_num)
  have f3 := testCircuit_eq hconv 115 2 15 (by norm_num) (by norm_num)
  rw [show (0 : B) + ((35 : ℕ) : B) = 35 by norm_num] at f0
  rw [show (35 : B) + ((73 : ℕ) : B) = 108 by norm_num] at f1
  rw [show (108 : B) + ((7 : ℕ) : B) = 115 by norm_num] at f2
  rw [show (115 : B) + ((15 : ℕ) : B) = 130 by norm_num] at f3
  have hchar : ∀ k : ℕ, 0 < k → k ≤ 3 → (k : B) ≠ 0 := by
    intro k h1 h2
    have : k = 1 ∨ k = 2 ∨ k = 3 := by omega
    rcases this with rfl | rfl | rfl
    · simp
    · exact_mod_cast hb2
    · exact_mod_cast hb3
  have hs4 : testStates (testCircuit conv) 0 ([3, 4, 1, 2].map fun n => FWitness.new (testW n : List F) 4) =
      some [0, 35, 108, 115, 130] := by
    simp [testStates, f0, f1, f2, f3]
  have hs2 : testStates (testCircuit conv) 0 ([3, 4].map fun n => FWitness.new (testW n : List F) 4) =
      some [0, 35, 108] := by
    simp [testStates, f0, f1]
  have hfe : ∀ (z : B) (e w : List F), testCircuit conv z ⟨e, w⟩ = testCircuit conv z (FWitness.new w 4) := fun _ _ _ => rfl
  unfold testIvc testIvcSteps exampleMain
  rw [hs4, hs2]
  cases h0 : Loop.init (Srs.newFromSecret P s 6) (testR1cs : R1CS F) (0 : B) (testPair 3) with
  | none => exact ⟨rfl, rfl⟩
  | some st =>
    have hw : (testR1cs : R1CS F).matrixA.length ≤ (testPair 3 : List F × List F).1.length := le_refl 4
    obtain ⟨hinv, hstep⟩ := init_inv (env := env) hw h0
    have hst : st.w = FWitness.new (testW 3) 4 ∧ st.aug.zi = 0 ∧ st.aug.i = 0 := by
      simp only [Loop.init, Option.bind_eq_bind, Option.bind_eq_some_iff, pure, Option.some.injEq] at h0
      obtain ⟨u, -, pair, -, rfl⟩ := h0
      exact ⟨rfl, rfl, rfl⟩
    obtain ⟨hw0, hz0, hi0⟩ := hst
    simp only [Option.bind_eq_bind, Option.bind_some]
    constructor
    · have key := (testIvcLoop_eq env P s 6 (testCircuit conv) testR1cs _ 0 [0, 35, 108, 115, 130]
        [0, 35, 108, 115, 130] rfl [testPair 4, testPair 1, testPair 2] 0 st hinv hi0
        (fun k h1 h2 => hchar k h1 (by rw [hstep] at h2; simpa using h2))
        (by intro wx hwx; simp only [List.mem_cons, List.not_mem_nil, or_false] at hwx
            rcases hwx with rfl | rfl | rfl <;> rfl)
        (by rw [hstep, hz0]; rfl) (by rw [hstep, if_pos rfl]) (by
          intro k zk zk1 wx hk hkl hzk hf
          rw [hfe] at hf
          rw [hstep] at hzk ⊢
          rw [hw0] at hk
          simp only [List.length_cons, List.length_nil] at hkl
          have : k = 0 ∨ k = 1 ∨ k = 2 := by omega
          rcases this with rfl | rfl | rfl
          · simp [testPair] at hk hzk; subst hk hzk; rw [show (FWitness.new (testW 3 : List F) 4).w = testW 3 from rfl, f0] at hf
            simpa using hf
          · simp [testPair] at hk hzk; subst hk hzk; rw [f1] at hf; simpa using hf
          · simp [testPair] at hk hzk; subst hk hzk; rw [f2] at hf; simpa using hf)).1
      rw [key]
      cases st.drive env P (Srs.newFromSecret P s 6) (testCircuit conv) testR1cs [testPair 4, testPair 1, testPair 2] with
      | none => rfl
      | some res =>
        cases res with
        | error e => rfl
        | ok st' => simp only; cases st'.check env P (Srs.newFromSecret P s 6) (testCircuit conv) <;> rfl
    · obtain ⟨key, hlast⟩ := testIvcLoop_eq env P s 6 (testCircuit conv) testR1cs _ 0 [0, 35, 108]
        [0, 35, 108] rfl [testPair 4, testPair 1] 0 st hinv hi0
        (fun k h1 h2 => hchar k h1 (by rw [hstep] at h2; simp at h2; omega))
        (by intro wx hwx; simp only [List.mem_cons, List.not_mem_nil, or_false] at hwx
            rcases hwx with rfl | rfl <;> rfl)
        (by rw [hstep, hz0]; rfl) (by rw [hstep, if_pos rfl]) (by
          intro k zk zk1 wx hk hkl hzk hf
          rw [hfe] at hf
          rw [hstep] at hzk ⊢
          rw [hw0] at hk
          simp only [List.length_cons, List.length_nil] at hkl
          have : k = 0 ∨ k = 1 := by omega
          rcases this with rfl | rfl
          · simp [testPair] at hk hzk; subst hk hzk; rw [show (FWitness.new (testW 3 : List F) 4).w = testW 3 from rfl, f0] at hf
            simpa using hf
          · simp [testPair] at hk hzk; subst hk hzk; rw [f1] at hf; simpa using hf)
      refine Eq.trans (b := Option.map isOk (testIvcLoop env P (Srs.newFromSecret P s 6) (testCircuit conv) testR1cs
        [0, 35, 108] [0, 35, 108] 0 st [testPair 4, testPair 1])) ?_ ?_
      swap
      · rw [key]
        all_goals
          cases st.drive env P (Srs.newFromSecret P s 6) (testCircuit conv) testR1cs [testPair 4, testPair 1] with
          | none => rfl
          | some res => cases res <;> rfl
      cases hres : testIvcLoop env P (Srs.newFromSecret P s 6) (testCircuit conv) testR1cs [0, 35, 108]
        [0, 35, 108] 0 st [testPair 4, testPair 1] with
      | none => rfl
      | some res =>
        cases res with
        | error e => rfl
        | ok a =>
          obtain ⟨zl, e, wl, zn, k1, k2, k3, k4⟩ := hlast a hres
          rw [hstep] at k1
          simp [testPair] at k1 k2
          subst k1 k2
          rw [hfe, f2] at k3
          obtain rfl := Option.some.inj k3
          simp [Aug.nextStep, k4, isOk]

/-- **C98** (`test_ivc` and `test_ivc_step_by_step`): no assertion of them ever fails, whatever the digest, the generator and the secret. -/
theorem C98_nova_ivc_never_fail (env : Env F G1 B) (P : PairingGroups F G1 G2 GT) (s : F) (conv : F → B)
    (hconv : ∀ n : ℕ, n < 2 ^ 64 → conv (n : F) = (n : B)) (hb2 : (2 : B) ≠ 0) (hb3 : (3 : B) ≠ 0) :
    testIvc env conv P (Srs.newFromSecret P s 6) ≠ some false ∧
    testIvcSteps env conv P (Srs.newFromSecret P s 6) ≠ some false := by
  obtain ⟨h1, h2⟩ := testIvc_eq env P s conv hconv hb2 hb3
  have hchar : ∀ k : ℕ, 0 < k → k ≤ 3 → (k : B) ≠ 0 := by
    intro k h1 h2
    have : k = 1 ∨ k = 2 ∨ k = 3 := by omega
    rcases this with rfl | rfl | rfl
    · simp
    · exact_mod_cast hb2
    · exact_mod_cast hb3
  have key : ∀ rest : List (List F × List F), (∀ wx ∈ rest, wx.1.length = 4) → rest.length ≤ 3 →
      (exampleMain env P (Srs.newFromSecret P s 6) (testCircuit conv) testR1cs 0 (testPair 3) rest).map isOk ≠ some false := by
    intro rest hl hr h
    have hne := C40_never_rejected env P s 6 testR1cs 0 (testCircuit conv) (testPair 3) rest (le_refl 4) hl
      (fun k h1 h2 => hchar k h1 (by omega))
    cases hm : exampleMain env P (Srs.newFromSecret P s 6) (testCircuit conv) testR1cs 0 (testPair 3) rest with
    | none => rw [hm] at h; cases h
    | some res =>
      cases res with
      | error e => exact hne e hm
      | ok a => rw [hm] at h; cases h
  rw [h1, h2]
  refine ⟨key _ ?_ (by simp), key _ ?_ (by simp)⟩
  · intro wx hwx; simp only [List.mem_cons, List.not_mem_nil, or_false] at hwx
    rcases hwx with rfl | rfl | rfl <;> rfl
  · intro wx hwx; simp only [List.mem_cons, List.not_mem_nil, or_false] at hwx
    rcases hwx with rfl | rfl <;> rfl

/-- **C98** (`test_ivc` and `test_ivc_step_by_step` pass): there are sets of at most three exceptional challenges per fold such that
each of the two tests passes, for every digest of at least eight bytes, generator and secret, unless one of its folding
challenges is exceptional. -/
theorem C98_nova_ivc_pass (h2 : (2 : F) ≠ 0) (hb2 : (2 : B) ≠ 0) (hb3 : (3 : B) ≠ 0) :
    ∃ Bad : List F → F → FWitness F → FInstance F G1 → Finset F, (∀ w x fw fi, (Bad w x fw fi).card ≤ 3) ∧
      ∀ (env : Env F G1 B) (P : PairingGroups F G1 G2 GT) (s : F) (conv : F → B),
        (∀ b, 8 ≤ (env.digest b).length) → (∀ n : ℕ, n < 2 ^ 64 → conv (n : F) = (n : B)) →
        ((∀ st0, Loop.init (Srs.newFromSecret P s 6) testR1cs 0 (testPair 3) = some st0 →
            AvoidsBad env P (Srs.newFromSecret P s 6) (testCircuit conv) testR1cs st0
              [testPair 4, testPair 1, testPair 2] Bad) →
          testIvc env conv P (Srs.newFromSecret P s 6) = some true) ∧
        ((∀ st0, Loop.init (Srs.newFromSecret P s 6) testR1cs 0 (testPair 3) = some st0 →
            AvoidsBad env P (Srs.newFromSecret P s 6) (testCircuit conv) testR1cs st0 [testPair 4, testPair 1] Bad) →
          testIvcSteps env conv P (Srs.newFromSecret P s 6) = some true) := by
  obtain ⟨Bad, hcard, h⟩ := C88_nova_program (F := F) (G1 := G1) (G2 := G2) (GT := GT) (B := B) testR1cs rfl rfl
  refine ⟨Bad, hcard, fun env P s conv hdig hconv => ?_⟩
  have hchar : ∀ k : ℕ, 0 < k → k ≤ 3 → (k : B) ≠ 0 := by
    intro k h1 h2
    have : k = 1 ∨ k = 2 ∨ k = 3 := by omega
    rcases this with rfl | rfl | rfl
    · simp
    · exact_mod_cast hb2
    · exact_mod_cast hb3
  have hf : ∀ (z : B) (w : FWitness F), w.w.length = (testPair 3 : List F × List F).1.length → testCircuit conv z w ≠ none := by
    intro z w hw
    have hw' : w.w.length = 4 := hw
    simp [testCircuit, List.getElem?_eq_getElem (show 0 < w.w.length by omega)]
  obtain ⟨e1, e2⟩ := testIvc_eq env P s conv hconv hb2 hb3
  rw [e1, e2]
  constructor
  · intro hav
    obtain ⟨a, ha⟩ := h env P s 6 0 (testCircuit conv) (testPair 3) _ hdig hf (le_refl 4)
      (by intro wx hwx; simp only [List.mem_cons, List.not_mem_nil, or_false] at hwx
          rcases hwx with rfl | rfl | rfl <;> rfl)
      (fun k h1 h2 => hchar k h1 (by simpa using h2)) (by show 4 ≤ 9; omega)
      (by intro wx hwx x
          simp only [List.head?_cons, Option.some.injEq] at hwx
          subst hwx
          exact example_nondegenerate h2 x) hav
    rw [ha]; rfl
  · intro hav
    obtain ⟨a, ha⟩ := h env P s 6 0 (testCircuit conv) (testPair 3) _ hdig hf (le_refl 4)
      (by intro wx hwx; simp only [List.mem_cons, List.not_mem_nil, or_false] at hwx
          rcases hwx with rfl | rfl <;> rfl)
      (fun k h1 h2 => hchar k h1 (by simp at h2; omega)) (by show 4 ≤ 9; omega)
      (by intro wx hwx x
          simp only [List.head?_cons, Option.some.injEq] at hwx
          subst hwx
          exact example_nondegenerate h2 x) hav
    rw [ha]; rfl

/-- **C98** (`aggregation_digest_test`): with digests of at least eight bytes it never panics, and it fails exactly if
the generator returns the same first element for the (first eight bytes of the) two digests. -/
theorem C98_nova_randomness (env : Env F G1 B) (hdig : ∀ b, 8 ≤ (env.digest b).length) (c1 c2 : G1) :
    testAggregation env c1 c2 = some (decide
      (env.rand (fromLeBytes ((env.digest (env.digest (env.serG c1) ++ env.serG c2)).take 8)) 0 ≠
        env.rand (fromLeBytes ((env.digest (env.serG c2)).take 8)) 0)) := by
  have hgen : ∀ (t : Transcript) (n : ℕ), t.generated = false → 8 ≤ (t.data.getD []).length →
      t.generateChallenges env n = some ((List.range n).map (env.rand (fromLeBytes ((t.data.getD []).take 8))),
        { t with generated := true }) := by
    intro t n h1 h2
    unfold Transcript.generateChallenges Transcript.rngSeed
    rw [if_neg (by simp [h1]), if_neg (by omega)]
    rfl
  unfold testAggregation
  rw [hgen (Transcript.fromCommitment env [c1, c2]) 3 rfl (hdig _), hgen (Transcript.fromCommitment env [c2]) 1 rfl (hdig _)]
  simp only [Option.bind_eq_bind, Option.bind_some, decide_true, Bool.and_true]
  simp [Transcript.fromCommitment, Transcript.feed, Transcript.default, List.range_succ]

/-! ## Non-vacuity: the modelled tests run in the kernel, with the environment `toyEnv` -/

example : testOneFold toyEnv (trivialGroups ℚ) (Srs.newFromSecret (trivialGroups ℚ) 7 6) = some true ∧
    testIvc toyEnv id (trivialGroups ℚ) (Srs.newFromSecret (trivialGroups ℚ) 7 6) = some true ∧
    testIvcSteps toyEnv id (trivialGroups ℚ) (Srs.newFromSecret (trivialGroups ℚ) 7 6) = some true ∧
    testAug2 toyEnv id (Srs.newFromSecret (trivialGroups ℚ) 7 6) 130 = some false := by
  decide +kernel

/-- The exceptional challenges exist: if every challenge is zero the folded error vector is zero and both tests panic. -/
example :
    let env : Env ℚ ℚ ℚ := { toyEnv with rand := fun _ _ => 0 }
    testOneFold env (trivialGroups ℚ) (Srs.newFromSecret (trivialGroups ℚ) 7 6) = none ∧
    testIvc env id (trivialGroups ℚ) (Srs.newFromSecret (trivialGroups ℚ) 7 6) = none := by
  decide +kernel

example : ∀ n : ℕ, n < 2 ^ 64 → (id (n : ℚ) : ℚ) = n := fun _ _ => rfl

end Verif.Nova

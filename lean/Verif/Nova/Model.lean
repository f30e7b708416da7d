import Verif.Kzg.Model
import Verif.Ark.Bytes

/-!
# Model of the `nova` crate

Panics are `none`; `Result<_, String>` is `Except String`.  `ScalarField` is an arbitrary field `F`,
`BaseField` an arbitrary field `B`, the curve is `PairingGroups` of `Verif/Kzg/Model.lean`.  The digest,
the (de)serialisations and the seeded random generator are the parameters collected in `Env`; `StdRng` is
a deterministic function of its seed.
-/

set_option linter.unusedSectionVars false

namespace Verif.Nova

open Verif.Ark Verif.Kzg

/-- The library functions the crate calls. -/
structure Env (F G1 B : Type) where
  /-- `T::finalize` of all bytes given to `update` -/
  digest : List UInt8 → List UInt8
  /-- `serialize_uncompressed` of a scalar -/
  serF : F → List UInt8
  /-- `serialize_uncompressed` of a G1 point -/
  serG : G1 → List UInt8
  /-- `serialize_uncompressed` of a base field element -/
  serB : B → List UInt8
  /-- `BaseField::from_le_bytes_mod_order` -/
  toBase : List UInt8 → B
  /-- `ScalarField::from_le_bytes_mod_order(&h.into_bigint().to_bytes_le())` -/
  toScalar : B → F
  /-- the `k`-th `Fr::rand` of `StdRng::seed_from_u64(seed)` -/
  rand : ℕ → ℕ → F

/-! ## utils.rs -/

section utils
variable {F : Type} [Field F] [DecidableEq F]

/-- `matrix_vector_product`, `nova/src/utils.rs` lines 14-22: the inner loop runs over the entries of `z`,
at most as many as the row has. -/
def matrixVectorProduct (m : List (List F)) (z : List F) : List F :=
  m.map fun row => (row.zip z).foldl (fun acc az => acc + az.1 * az.2) 0

/-- `hadamard_product`, `nova/src/utils.rs` lines 35-41 (`b[i]` panics if `b` is shorter). -/
def hadamardProduct : List F → List F → Option (List F)
  | [], _ => some []
  | _ :: _, [] => none
  | a :: as, b :: bs => do
    let rest ← hadamardProduct as bs
    pure (a * b :: rest)

/-- `vector_elem_product`, `nova/src/utils.rs` lines 54-60. -/
def vectorElemProduct (a : List F) (u : F) : List F := a.map fun x => x * u

/-- `vec_sub`, `nova/src/utils.rs` lines 73-80. -/
def vecSub (a b : List F) : Option (List F) :=
  if a.length ≠ b.length then none else some (List.zipWith (fun x y => x - y) a b)

/-- `vec_add`, `nova/src/utils.rs` lines 93-100. -/
def vecAdd (a b : List F) : Option (List F) :=
  if a.length ≠ b.length then none else some (List.zipWith (fun x y => x + y) a b)

/-- `vec_equal`, `nova/src/utils.rs` lines 113-124. -/
def vecEqual (a b : List F) : Bool :=
  if a.length ≠ b.length then false else (a.zip b).all fun xy => decide (xy.1 = xy.2)

/-- `to_f_matrix`, `nova/src/utils.rs` lines 136-145. -/
def toFMatrix (m : List (List ℕ)) : List (List F) := m.map fun row => row.map fun (x : ℕ) => (x : F)

/-- `to_f_vec`, `nova/src/utils.rs` lines 157-163. -/
def toFVec (z : List ℕ) : List F := z.map fun (x : ℕ) => (x : F)

end utils

variable {F G1 G2 GT B : Type} [Field F] [DecidableEq F] [AddCommGroup G1] [Module F G1] [DecidableEq G1]
  [AddCommGroup G2] [Module F G2] [AddCommGroup GT] [Module F GT] [DecidableEq GT]
  [Field B] [DecidableEq B]

/-! ## transcript.rs -/

/-- `struct Transcript`, `nova/src/transcript.rs` lines 17-24. -/
structure Transcript where
  /-- `data` -/
  data : Option (List UInt8)
  /-- `generated` -/
  generated : Bool

/-- Derived `Default`, `nova/src/transcript.rs` line 16. -/
def Transcript.default : Transcript := ⟨none, false⟩

/-- `Transcript::feed`, `nova/src/transcript.rs` lines 69-78. -/
def Transcript.feed {F G1 B : Type} (env : Env F G1 B) (t : Transcript) (c : G1) : Transcript :=
  { data := some (env.digest (t.data.getD [] ++ env.serG c)), generated := false }

/-- `Transcript::feed_scalar_num`, `nova/src/transcript.rs` lines 81-88. -/
def Transcript.feedScalarNum {F G1 B : Type} (env : Env F G1 B) (t : Transcript) (x : F) : Transcript :=
  { data := some (env.digest (t.data.getD [] ++ env.serF x)), generated := false }

/-- `Transcript::from_commitment`, `nova/src/transcript.rs` lines 37-43. -/
def Transcript.fromCommitment {F G1 B : Type} (env : Env F G1 B) (cs : List G1) : Transcript :=
  cs.foldl (Transcript.feed env) .default

/-- `Transcript::from_scalar_number`, `nova/src/transcript.rs` lines 54-60. -/
def Transcript.fromScalarNumber {F G1 B : Type} (env : Env F G1 B) (xs : List F) : Transcript :=
  xs.foldl (Transcript.feedScalarNum env) .default

/-- `Transcript::generate_rng_with_seed`, `nova/src/transcript.rs` lines 91-100: panics after a generation
without feed, and if fewer than eight bytes are stored. -/
def Transcript.rngSeed (t : Transcript) : Option (ℕ × Transcript) :=
  if t.generated then none
  else if (t.data.getD []).length < 8 then none
  else some (fromLeBytes ((t.data.getD []).take 8), { t with generated := true })

/-- `Transcript::generate_challenges`, `nova/src/transcript.rs` lines 110-114. -/
def Transcript.generateChallenges {F G1 B : Type} (env : Env F G1 B) (t : Transcript) (number : ℕ) :
    Option (List F × Transcript) := do
  let st ← t.rngSeed
  pure ((List.range number).map (env.rand st.1), st.2)

/-- `let [r] = transcript.generate_challenges();` -/
def Transcript.generateOne {F G1 B : Type} (env : Env F G1 B) (t : Transcript) :
    Option (F × Transcript) := do
  let ct ← t.generateChallenges env 1
  let r ← ct.1.head?
  pure (r, ct.2)

/-! ## r1cs/mod.rs -/

/-- `struct R1CS`, `nova/src/r1cs/mod.rs` lines 11-17. -/
structure R1CS (F : Type) where
  /-- `matrix_a` -/
  matrixA : List (List F)
  /-- `matrix_b` -/
  matrixB : List (List F)
  /-- `matrix_c` -/
  matrixC : List (List F)
  /-- `num_io` -/
  numIo : ℕ
  /-- `num_vars` -/
  numVars : ℕ

/-- `struct FInstance`, `nova/src/r1cs/mod.rs` lines 22-27. -/
structure FInstance (F G1 : Type) where
  /-- `com_e` -/
  comE : G1
  /-- `u` -/
  u : F
  /-- `com_w` -/
  comW : G1
  /-- `x` -/
  x : List F

/-- `struct FWitness`, `nova/src/r1cs/mod.rs` lines 32-37. -/
structure FWitness (F : Type) where
  /-- `e` -/
  e : List F
  /-- `w` -/
  w : List F

/-- `FWitness::new`, `nova/src/r1cs/mod.rs` lines 40-47. -/
def FWitness.new (w : List F) (len : ℕ) : FWitness F := ⟨List.replicate len 0, w⟩

/-- `FWitness::new_trivial_witness`, `nova/src/r1cs/mod.rs` lines 50-55. -/
def FWitness.newTrivialWitness (len : ℕ) : FWitness F := ⟨List.replicate len 0, List.replicate len 0⟩

/-- `FWitness::commit`, `nova/src/r1cs/mod.rs` lines 58-70. -/
def FWitness.commit (fw : FWitness F) (srs : Srs G1 G2) (x : List F) : Option (FInstance F G1) := do
  let comE ← commitVector srs fw.e
  let comW ← commitVector srs fw.w
  pure ⟨comE, 1, comW, x⟩

/-- `create_trivial_pair`, `nova/src/r1cs/mod.rs` lines 75-84. -/
def createTrivialPair (xLen wLen : ℕ) (srs : Srs G1 G2) : Option (FWitness F × FInstance F G1) := do
  let fi ← (FWitness.newTrivialWitness wLen).commit srs (List.replicate xLen (0 : F))
  pure (FWitness.newTrivialWitness wLen, fi)

/-- The vector `z = (W, x, u)`, `nova/src/r1cs/mod.rs` lines 103-105, `nova/src/nifs/nifs_prover.rs`
lines 21-27. -/
def zVec (fw : FWitness F) (fi : FInstance F G1) : List F := fw.w ++ fi.x ++ [fi.u]

/-- `res_com` of `is_r1cs_satisfied`, `nova/src/r1cs/mod.rs` lines 118-119 (`&&` does not evaluate its
right side if the left one is false). -/
def checkCommitments (srs : Srs G1 G2) (fi : FInstance F G1) (fw : FWitness F) : Option Bool := do
  let cw ← commitVector srs fw.w
  if fi.comW = cw then do
    let ce ← commitVector srs fw.e
    pure (decide (fi.comE = ce))
  else pure false

/-- `is_r1cs_satisfied`, `nova/src/r1cs/mod.rs` lines 89-126. -/
def isR1csSatisfied (r1cs : R1CS F) (fi : FInstance F G1) (fw : FWitness F) (srs : Srs G1 G2) :
    Option (Except String Unit) := do
  if r1cs.numVars ≠ fw.w.length then
    pure (.error "Witness does not match with matrices")
  else if r1cs.numIo ≠ fi.x.length then
    pure (.error "Instance does not match with matrices")
  else do
    let z := zVec fw fi
    let az := matrixVectorProduct r1cs.matrixA z
    let bz := matrixVectorProduct r1cs.matrixB z
    let cz := matrixVectorProduct r1cs.matrixC z
    let leftSide ← hadamardProduct az bz
    let ucz := vectorElemProduct cz fi.u
    let rightSide ← vecAdd ucz fw.e
    let resEq := vecEqual leftSide rightSide
    let resCom ← checkCommitments srs fi fw
    pure (if resCom && resEq then .ok () else .error "Instance does not satisfy the Witness.")

/-! ## nifs -/

/-- `struct NIFSProof`, `nova/src/nifs/mod.rs` lines 20-25. -/
structure NIFSProof (F G1 : Type) where
  /-- `r` -/
  r : F
  /-- `opening_point` -/
  openingPoint : F
  /-- `opening_e` -/
  openingE : Opening F G1
  /-- `opening_w` -/
  openingW : Opening F G1

/-- `NIFS::compute_t`, `nova/src/nifs/mod.rs` lines 34-58. -/
def computeT (r1cs : R1CS F) (u1 u2 : F) (z1 z2 : List F) : Option (List F) := do
  let az1 := matrixVectorProduct r1cs.matrixA z1
  let bz1 := matrixVectorProduct r1cs.matrixB z1
  let cz1 := matrixVectorProduct r1cs.matrixC z1
  let az2 := matrixVectorProduct r1cs.matrixA z2
  let bz2 := matrixVectorProduct r1cs.matrixB z2
  let cz2 := matrixVectorProduct r1cs.matrixC z2
  let az1bz2 ← hadamardProduct az1 bz2
  let az2bz1 ← hadamardProduct az2 bz1
  let u1cz2 := vectorElemProduct cz2 u1
  let u2cz1 := vectorElemProduct cz1 u2
  let t ← vecAdd az1bz2 az2bz1
  let t ← vecSub t u1cz2
  vecSub t u2cz1

/-- `NIFS::fold_witness`, `nova/src/nifs/mod.rs` lines 63-81. -/
def foldWitness (r : F) (fw1 fw2 : FWitness F) (t : List F) : FWitness F where
  e := ((fw1.e.zip t).zip fw2.e).map fun p => p.1.1 + r * p.1.2 + r * r * p.2
  w := (fw1.w.zip fw2.w).map fun p => p.1 + p.2 * r

/-- `NIFS::fold_instance`, `nova/src/nifs/mod.rs` lines 88-107. -/
def foldInstance (r : F) (fi1 fi2 : FInstance F G1) (comT : G1) : FInstance F G1 where
  comE := fi1.comE + r • comT + (r * r) • fi2.comE
  u := fi1.u + fi2.u * r
  comW := fi1.comW + r • fi2.comW
  x := (fi1.x.zip fi2.x).map fun p => p.1 + p.2 * r

/-- The transcript after feeding `u1`, `u2`, `com_t`: `nova/src/nifs/nifs_prover.rs` lines 32-34,
`nova/src/nifs/nifs_verifier.rs` lines 52-54, `nova/src/circuit.rs` lines 104-106. -/
def feedFold (env : Env F G1 B) (t : Transcript) (u1 u2 : F) (comT : G1) : Transcript :=
  ((t.feedScalarNum env u1).feedScalarNum env u2).feed env comT

/-- `NIFS::prover`, `nova/src/nifs/nifs_prover.rs` lines 11-41. -/
def nifsProver (env : Env F G1 B) (r1cs : R1CS F) (fw1 fw2 : FWitness F) (fi1 fi2 : FInstance F G1)
    (srs : Srs G1 G2) (tr : Transcript) :
    Option ((FWitness F × FInstance F G1 × G1 × F) × Transcript) := do
  let z1 := zVec fw1 fi1
  let z2 := zVec fw2 fi2
  let t ← computeT r1cs fi1.u fi2.u z1 z2
  let comT ← commitVector srs t
  let ct ← (feedFold env tr fi1.u fi2.u comT).generateOne env
  pure ((foldWitness ct.1 fw1 fw2 t, foldInstance ct.1 fi1 fi2 comT, comT, ct.1), ct.2)

/-- `NIFS::prove`, `nova/src/nifs/nifs_prover.rs` lines 44-65. -/
def nifsProve (env : Env F G1 B) (r : F) (fw : FWitness F) (fi : FInstance F G1) (srs : Srs G1 G2)
    (tr : Transcript) : Option (NIFSProof F G1 × Transcript) := do
  let ct ← ((tr.feed env fi.comE).feed env fi.comW).generateOne env
  let openingE ← openVector srs fw.e ct.1
  let openingW ← openVector srs fw.w ct.1
  pure (⟨r, ct.1, openingE, openingW⟩, ct.2)

/-- `NIFS::verifier`, `nova/src/nifs/nifs_verifier.rs` lines 12-19. -/
def nifsVerifier (r : F) (fi1 fi2 : FInstance F G1) (comT : G1) : FInstance F G1 :=
  foldInstance r fi1 fi2 comT

/-- `NIFS::verify_challenge`, `nova/src/nifs/nifs_verifier.rs` lines 44-64. -/
def verifyChallenge (env : Env F G1 B) (r u1 u2 : F) (comT : G1) (tr : Transcript) :
    Option (Except String Unit × Transcript) := do
  let ct ← (feedFold env tr u1 u2 comT).generateOne env
  if ct.1 ≠ r then pure (.error "Verify: Error in computing random r", ct.2)
  else pure (.ok (), ct.2)

/-- `NIFS::verify_opening`, `nova/src/nifs/nifs_verifier.rs` lines 67-93. -/
def verifyOpening (env : Env F G1 B) (P : PairingGroups F G1 G2 GT) (proof : NIFSProof F G1)
    (fi3 : FInstance F G1) (srs : Srs G1 G2) (tr : Transcript) :
    Option (Except String Unit × Transcript) := do
  let ct ← ((tr.feed env fi3.comE).feed env fi3.comW).generateOne env
  if ct.1 ≠ proof.openingPoint then pure (.error "Verify: Error in computing random opening point", ct.2)
  else if !Kzg.verify P srs fi3.comW proof.openingW ct.1 then
    pure (.error "Verify: Folding wrong at W", ct.2)
  else if !Kzg.verify P srs fi3.comE proof.openingE ct.1 then
    pure (.error "Verify: Folding wrong at E", ct.2)
  else pure (.ok (), ct.2)

/-- `NIFS::verify`, `nova/src/nifs/nifs_verifier.rs` lines 23-41. -/
def nifsVerify (env : Env F G1 B) (P : PairingGroups F G1 G2 GT) (proof : NIFSProof F G1)
    (fi1 fi2 fi3 : FInstance F G1) (comT : G1) (srs : Srs G1 G2) (tr : Transcript) :
    Option (Except String Unit × Transcript) := do
  let res ← verifyChallenge env proof.r fi1.u fi2.u comT tr
  match res.1 with
  | .error e => pure (.error e, res.2)
  | .ok () => verifyOpening env P proof fi3 srs res.2

/-- `gen_test_values`, `nova/src/nifs/nifs_verifier.rs` lines 98-144: the R1CS of `x³ + x + 5 = y`. -/
def testR1cs : R1CS F where
  matrixA := toFMatrix [[1, 0, 0, 0, 0, 0], [0, 1, 0, 0, 0, 0], [1, 0, 1, 0, 0, 0], [0, 0, 0, 1, 0, 5]]
  matrixB := toFMatrix [[1, 0, 0, 0, 0, 0], [1, 0, 0, 0, 0, 0], [0, 0, 0, 0, 0, 1], [0, 0, 0, 0, 0, 1]]
  matrixC := toFMatrix [[0, 1, 0, 0, 0, 0], [0, 0, 1, 0, 0, 0], [0, 0, 0, 1, 0, 0], [0, 0, 0, 0, 1, 0]]
  numIo := 1
  numVars := 4

/-- The witness vector of `gen_test_values` for one input, lines 125-130. -/
def testW (input : ℕ) : List F :=
  toFVec [input, input * input, input * input * input, input * input * input + input]

/-- The public output of `gen_test_values` for one input, line 132. -/
def testX (input : ℕ) : List F := toFVec [input * input * input + input + 5]

/-! ## circuit.rs -/

/-- `struct AugmentedCircuit`, `nova/src/circuit.rs` lines 26-44; `State` (lines 15-17) is its only field,
a base field element.  The function `F` (`f_circuit`, trait `FCircuit`, lines 20-23) is a parameter of the
functions below (`none` if it panics). -/
structure Aug (F G1 B : Type) where
  /-- `i` -/
  i : B
  /-- `trivial_instance` -/
  trivialInstance : FInstance F G1
  /-- `z_0` -/
  z0 : B
  /-- `z_i` -/
  zi : B
  /-- `z_i1` -/
  zi1 : Option B
  /-- `h_i` -/
  hi : Option B
  /-- `h_i1` -/
  hi1 : Option B

/-- `AugmentedCircuit::new`, `nova/src/circuit.rs` lines 48-60. -/
def Aug.new (trivialInstance : FInstance F G1) (z0 : B) : Aug F G1 B :=
  ⟨0, trivialInstance, z0, z0, none, none, none⟩

/-- The bytes hashed by `hash_io`, `nova/src/circuit.rs` lines 154-164. -/
def hashIoInput {F G1 B : Type} (env : Env F G1 B) (i z0 zi : B) (bigU : FInstance F G1) : List UInt8 :=
  env.serB i ++ env.serB z0 ++ env.serB zi ++ env.serG bigU.comE ++ env.serF bigU.u ++
    env.serG bigU.comW ++ bigU.x.flatMap env.serF

/-- `AugmentedCircuit::hash_io`, `nova/src/circuit.rs` lines 152-168. -/
def hashIo {F G1 B : Type} (env : Env F G1 B) (i z0 zi : B) (bigU : FInstance F G1) : B :=
  env.toBase (env.digest (hashIoInput env i z0 zi bigU))

/-- `AugmentedCircuit::run`, `nova/src/circuit.rs` lines 61-140: result and state afterwards. -/
def Aug.run (env : Env F G1 B) (f : B → FWitness F → Option B) (a : Aug F G1 B) (ui : FInstance F G1)
    (bigUi : Option (FInstance F G1)) (wi : FWitness F) (comT : Option G1) :
    Option (Except String B × Aug F G1 B) :=
  if a.i ≠ 0 then
    match bigUi, comT with
    | some bigU, some ct =>
      match a.hi with
      | none => some (.error "The hash public IO must exist", a)
      | some hashX => do
        let uDotX ← ui.x.head?
        if uDotX ≠ env.toScalar hashX then some (.error "Public IO is wrong ", a)
        else if ui.comE ≠ a.trivialInstance.comE then some (.error "Commitment of E is wrong", a)
        else if ui.u ≠ 1 then some (.error "Scalar u is wrong", a)
        else do
          let rt ← (feedFold env .default ui.u bigU.u ct).generateOne env
          let bigU1 := nifsVerifier rt.1 ui bigU ct
          let zi1 ← f a.zi wi
          let newHash := hashIo env (a.i + 1) a.z0 zi1 bigU1
          pure (.ok newHash, { a with hi1 := some newHash, zi1 := some zi1 })
    | _, _ => some (.error "Wrong parameters.", a)
  else do
    let zi1 ← f a.zi wi
    let newHash := hashIo env 1 a.z0 zi1 a.trivialInstance
    pure (.ok newHash, { a with hi1 := some newHash, zi1 := some zi1 })

/-- `AugmentedCircuit::next_step`, `nova/src/circuit.rs` lines 143-149 (panics without a next state). -/
def Aug.nextStep (a : Aug F G1 B) : Option (Aug F G1 B) := do
  let z ← a.zi1
  pure { a with zi := z, zi1 := none, i := a.i + 1, hi := a.hi1, hi1 := none }

/-! ## ivc -/

/-- `struct ZkIVCProof`, `nova/src/ivc/mod.rs` lines 14-19. -/
structure ZkIVCProof (F G1 : Type) where
  /-- `u_i` -/
  ui : FInstance F G1
  /-- `big_u_i` -/
  bigUi : FInstance F G1
  /-- `com_t` -/
  comT : Option G1
  /-- `folded_u_proof` -/
  foldedUProof : Option (NIFSProof F G1)

/-- `struct IVCProof`, `nova/src/ivc/mod.rs` lines 22-27 (`IVCProof::new` is the constructor). -/
structure IVCProof (F G1 : Type) where
  /-- `u_i` -/
  ui : FInstance F G1
  /-- `w_i` -/
  wi : FWitness F
  /-- `big_u_i` -/
  bigUi : FInstance F G1
  /-- `big_w_i` -/
  bigWi : FWitness F

/-- `ZkIVCProof::trivial_zk_ivc_proof`, `nova/src/ivc/mod.rs` lines 53-60. -/
def ZkIVCProof.trivial (ti : FInstance F G1) : ZkIVCProof F G1 := ⟨ti, ti, none, none⟩

/-- `IVC::prove`, `nova/src/ivc/ivc_prover.rs` lines 14-59. -/
def ivcProve (env : Env F G1 B) (srs : Srs G1 G2) (a : Aug F G1 B) (r1cs : R1CS F) (p : IVCProof F G1)
    (tr : Transcript) : Option ((FWitness F × FInstance F G1 × ZkIVCProof F G1) × Transcript) :=
  if a.i ≠ 0 then do
    let out ← nifsProver env r1cs p.wi p.bigWi p.ui p.bigUi srs tr
    let pr ← nifsProve env out.1.2.2.2 out.1.1 out.1.2.1 srs out.2
    pure ((out.1.1, out.1.2.1, ⟨p.ui, p.bigUi, some out.1.2.2.1, some pr.1⟩), pr.2)
  else some ((p.bigWi, p.bigUi, ⟨p.ui, p.bigUi, none, none⟩), tr)

/-- `IVC::verify`, `nova/src/ivc/ivc_verifier.rs` lines 13-76. -/
def ivcVerify (env : Env F G1 B) (P : PairingGroups F G1 G2 GT) (srs : Srs G1 G2) (a : Aug F G1 B)
    (zk : ZkIVCProof F G1) (tr : Transcript) : Option (Except String Unit × Transcript) :=
  if a.i = 0 then
    if a.z0 = a.zi then some (.ok (), tr) else some (.error "Verify failed: wrong state", tr)
  else
    match zk.comT with
    | none => some (.error "Verify failed: commitment of cross term T must exist", tr)
    | some comT =>
      match zk.foldedUProof with
      | none => some (.error "Verify failed: folding proof must exist", tr)
      | some proof => do
        let x0 ← zk.ui.x.head?
        if x0 ≠ env.toScalar (hashIo env a.i a.z0 a.zi zk.bigUi) then
          some (.error "Verify failed: Public IO is wrong", tr)
        else if zk.ui.comE ≠ a.trivialInstance.comE then
          some (.error "Verify failed: Commitment of E is wrong", tr)
        else if zk.ui.u ≠ 1 then some (.error "Verify failed: Scalar u is wrong", tr)
        else
          let bigUOut := nifsVerifier proof.r zk.ui zk.bigUi comT
          nifsVerify env P proof zk.ui zk.bigUi bigUOut comT srs tr

end Verif.Nova

import Verif.Ark.Domain
import Verif.Ark.Bytes

/-!
# Model of the `fri` crate

Panics are `none`; `Result<(), String>` is `Except String Unit`.  The hash functions, the conversion
of digests to field elements, the decimal printing of field elements and the seeded PRNG are the
parameters collected in `Env`.  `eprintln!` output is not modelled.
-/

set_option linter.unusedSectionVars false

namespace Verif.Fri

open Verif.Ark

/-- External functions used by the crate. -/
structure Env (F : Type) where
  /-- SHA-256 as used in `fri/src/hasher.rs` lines 15-17 and 32-34 -/
  sha : List UInt8 → List UInt8
  /-- `F::from_le_bytes_mod_order` -/
  fromBytes : List UInt8 → F
  /-- `F::to_string` -/
  toStr : F → List UInt8
  /-- the digest `T` of the transcript -/
  digest : List UInt8 → List UInt8
  /-- `rand seed i`: the `i`-th `F::rand` drawn from `StdRng::seed_from_u64(seed)` -/
  rand : ℕ → ℕ → F
  /-- `field.into_bigint().as_ref()[0] as usize` -/
  low64 : F → ℕ

variable {F : Type} [FftField F] [DecidableEq F]

/-! ## hasher.rs -/

/-- `hash`, `fri/src/hasher.rs` lines 14-19. -/
def hash {F : Type} (env : Env F) (x : F) : F := env.fromBytes (env.sha (env.toStr x))

/-- `hash_slice`, `fri/src/hasher.rs` lines 31-36: the decimal strings are fed to the hasher one after
the other, i.e. their concatenation is hashed. -/
def hashSlice {F : Type} (env : Env F) (xs : List F) : F := env.fromBytes (env.sha (xs.flatMap env.toStr))

/-! ## merkle_tree.rs -/

/-- `struct MerkleProof`, `fri/src/merkle_tree.rs` lines 7-16. -/
structure MerkleProof (F : Type) where
  /-- `index` -/
  index : ℕ
  /-- `leaf_val` -/
  leafVal : F
  /-- `hash_proof` -/
  hashProof : List F
  /-- `root` -/
  root : F

/-- `struct MerkleTree`, `fri/src/merkle_tree.rs` lines 20-27. -/
structure MerkleTree (F : Type) where
  /-- `internal_nodes`, level 0 = hashed leaves -/
  internalNodes : List (List F)
  /-- `leaves`, padded with zeros -/
  leaves : List F
  /-- `depth` -/
  depth : ℕ

/-- `internal_nodes[i].chunks(2).map(hash_slice)`, `fri/src/merkle_tree.rs` line 51. -/
def nextLevel {F : Type} (env : Env F) : List F → List F
  | [] => []
  | [a] => [hashSlice env [a]]
  | a :: b :: t => hashSlice env [a, b] :: nextLevel env t

/-- The loop of `fri/src/merkle_tree.rs` lines 50-53: the levels above (and including) `level`. -/
def buildLevels {F : Type} (env : Env F) : ℕ → List F → List (List F)
  | 0, level => [level]
  | d + 1, level => level :: buildLevels env d (nextLevel env level)

/-- `MerkleTree::new`, `fri/src/merkle_tree.rs` lines 42-62. -/
def MerkleTree.new (env : Env F) (evaluations : List F) : MerkleTree F :=
  let newLen := nextPow2 evaluations.length
  let depth := Nat.log 2 newLen
  { internalNodes := buildLevels env depth (evaluations.map (hash env))
    leaves := evaluations ++ List.replicate (newLen - evaluations.length) 0
    depth := depth }

/-- `MerkleTree::root`, `fri/src/merkle_tree.rs` lines 69-71 (panics on a tree without leaves). -/
def MerkleTree.root? (t : MerkleTree F) : Option F := do
  let lvl ← t.internalNodes.getLast?
  lvl.head?

/-- The sibling of node `cur`, `fri/src/merkle_tree.rs` lines 87-92 (panics out of bounds). -/
def neighbour? (lvl : List F) (cur : ℕ) : Option F :=
  if cur % 2 = 0 then lvl[cur + 1]? else lvl[cur - 1]?

/-- The loop of `MerkleTree::generate_proof`, `fri/src/merkle_tree.rs` lines 86-95: `k` levels remain,
`i` is the current level. -/
def genPath (nodes : List (List F)) : ℕ → ℕ → ℕ → Option (List F)
  | 0, _, _ => some []
  | k + 1, i, cur => do
    let lvl ← nodes[i]?
    let neighbour ← neighbour? lvl cur
    let rest ← genPath nodes k (i + 1) (cur / 2)
    pure (neighbour :: rest)

/-- `MerkleTree::generate_proof`, `fri/src/merkle_tree.rs` lines 82-103. -/
def MerkleTree.generateProof (t : MerkleTree F) (index : ℕ) : Option (MerkleProof F) := do
  let leafVal ← t.leaves[index]?
  let hashProof ← genPath t.internalNodes t.depth 0 index
  let root ← t.root?
  pure { index := index, leafVal := leafVal, hashProof := hashProof, root := root }

/-- The loop of `verify_merkle_proof`, `fri/src/merkle_tree.rs` lines 120-130. -/
def merkleLoop {F : Type} (env : Env F) : List F → ℕ → F → F
  | [], _, curHash => curHash
  | nb :: rest, cur, curHash =>
    merkleLoop env rest (cur / 2)
      (if cur % 2 = 0 then hashSlice env [curHash, nb] else hashSlice env [nb, curHash])

/-- `verify_merkle_proof`, `fri/src/merkle_tree.rs` lines 117-132. -/
def verifyMerkleProof (env : Env F) (p : MerkleProof F) : Bool :=
  decide (merkleLoop env p.hashProof p.index (hash env p.leafVal) = p.root)

/-! ## fiat_shamir/transcript.rs -/

/-- `struct Transcript`, `fri/src/fiat_shamir/transcript.rs` lines 40-49. -/
structure Transcript where
  /-- `data` -/
  data : Option (List UInt8)
  /-- `index` -/
  index : ℕ
  /-- `generated` -/
  generated : Bool

/-- `Default for Transcript` (derived, `fri/src/fiat_shamir/transcript.rs` line 39). -/
def Transcript.default : Transcript := ⟨none, 0, false⟩

/-- `Transcript::digest`, `fri/src/fiat_shamir/transcript.rs` lines 80-88. -/
def Transcript.feed {F : Type} (env : Env F) (t : Transcript) (message : F) : Transcript :=
  { data := some (env.digest (t.data.getD [] ++ leBytes8 t.index ++ env.toStr message))
    index := t.index + 1
    generated := false }

/-- `Transcript::new`, `fri/src/fiat_shamir/transcript.rs` lines 61-71. -/
def Transcript.new {F : Type} (env : Env F) (message : F) : Transcript :=
  Transcript.feed env ⟨none, 0, true⟩ message

/-- `Transcript::generate_rng_with_seed`, `fri/src/fiat_shamir/transcript.rs` lines 90-99: returns the
seed.  Panics if nothing was digested since the last generation or if the digest is shorter than eight
bytes. -/
def Transcript.rngSeed (t : Transcript) : Option (ℕ × Transcript) :=
  if t.generated then none
  else
    let d := t.data.getD []
    if d.length < 8 then none
    else some (fromLeBytes (d.take 8), { t with generated := true })

/-- `Transcript::generate_a_challenge`, `fri/src/fiat_shamir/transcript.rs` lines 106-109. -/
def Transcript.generateAChallenge {F : Type} (env : Env F) (t : Transcript) :
    Option (F × Transcript) := do
  let st ← t.rngSeed
  pure (env.rand st.1 0, st.2)

/-- `Transcript::generate_challenges`, `fri/src/fiat_shamir/transcript.rs` lines 120-123. -/
def Transcript.generateChallenges {F : Type} (env : Env F) (t : Transcript) (number : ℕ) :
    Option (List F × Transcript) := do
  let st ← t.rngSeed
  pure ((List.range number).map (env.rand st.1), st.2)

/-- `Transcript::generate_challenge_list_usize`, `fri/src/fiat_shamir/transcript.rs` lines 134-139. -/
def Transcript.generateChallengeListUsize {F : Type} (env : Env F) (t : Transcript) (number : ℕ) :
    Option (List ℕ × Transcript) := do
  let ct ← t.generateChallenges env number
  pure (ct.1.map env.low64, ct.2)

/-! ## fri_layer.rs -/

/-- `struct FriLayer`, `fri/src/fri_layer.rs` lines 9-18. -/
structure FriLayer (F : Type) where
  /-- `evaluations` -/
  evaluations : List F
  /-- `merkle_tree` -/
  merkleTree : MerkleTree F
  /-- `coset` -/
  coset : F
  /-- `domain_size` -/
  domainSize : ℕ

/-- `FriLayer::from_poly`, `fri/src/fri_layer.rs` lines 36-56. -/
def FriLayer.fromPoly (env : Env F) (poly : DP F) (coset : F) (domainSize : ℕ) :
    Option (FriLayer F) := do
  let domain ← Domain.new? (F := F) domainSize
  let evaluations := domain.elements.map fun root => eval poly (root * coset)
  pure { evaluations := evaluations
         merkleTree := MerkleTree.new env evaluations
         coset := coset
         domainSize := domainSize }

/-! ## prover.rs -/

/-- `struct Decommitment`, `fri/src/prover.rs` lines 12-20. -/
structure Decommitment (F : Type) where
  /-- `evaluations` -/
  evaluations : List F
  /-- `auth_paths` -/
  authPaths : List (MerkleProof F)
  /-- `sym_evaluations` -/
  symEvaluations : List F
  /-- `sym_auth_paths` -/
  symAuthPaths : List (MerkleProof F)

/-- `struct Proof`, `fri/src/prover.rs` lines 23-31. -/
structure Proof (F : Type) where
  /-- `domain_size` -/
  domainSize : ℕ
  /-- `coset` -/
  coset : F
  /-- `number_of_queries` -/
  numberOfQueries : ℕ
  /-- `layers_root` -/
  layersRoot : List F
  /-- `const_val` -/
  constVal : F
  /-- `decommitment_list` -/
  decommitmentList : List (Decommitment F)

/-- `iter().step_by(2)`: the elements at even positions. -/
def evens {α : Type} : List α → List α
  | [] => []
  | [a] => [a]
  | a :: _ :: t => a :: evens t

/-- `fold_polynomial`, `fri/src/prover.rs` lines 34-42. -/
def foldPolynomial (poly : DP F) (r : F) : DP F :=
  let evenPoly := fromCoeffs (evens poly)
  let oddPoly := fromCoeffs (evens (poly.drop 1))
  add evenPoly (smul oddPoly r)

/-- The loop of `folding_phase`, `fri/src/prover.rs` lines 56-68. -/
def foldLoop (env : Env F) : ℕ → DP F → F → ℕ → Transcript →
    Option (DP F × Transcript × List (FriLayer F))
  | 0, poly, _, _, t => some (poly, t, [])
  | k + 1, poly, coset, domainSize, t => do
    let layer ← FriLayer.fromPoly env poly coset domainSize
    let root ← layer.merkleTree.root?
    let ct ← (t.feed env root).generateAChallenge env
    let rest ← foldLoop env k (foldPolynomial poly ct.1) (coset * coset) (domainSize / 2) ct.2
    pure (rest.1, rest.2.1, layer :: rest.2.2)

/-- `folding_phase`, `fri/src/prover.rs` lines 47-75.  `ilog2` panics on zero layers (line 53), the
assertion of line 70 on a folded polynomial that does not have exactly one coefficient. -/
def foldingPhase (env : Env F) (poly : DP F) (coset : F) (domainSize numberLayers : ℕ) :
    Option (F × Transcript × List (FriLayer F)) := do
  if numberLayers = 0 then none
  else
    let res ← foldLoop env numberLayers poly coset domainSize (Transcript.new env 0)
    if res.1.length ≠ 1 then none
    else
      let constant := eval res.1 0
      pure (constant, res.2.1.feed env constant, res.2.2)

/-- One layer of a decommitment, `fri/src/prover.rs` lines 107-121 (`%` panics on zero). -/
def queryLayer (challenge : ℕ) (layer : FriLayer F) :
    Option (F × MerkleProof F × F × MerkleProof F) := do
  if layer.domainSize = 0 then none
  else
    let index := challenge % layer.domainSize
    let symIndex := (index + layer.domainSize / 2) % layer.domainSize
    let evaluation ← layer.evaluations[index]?
    let symEvaluation ← layer.evaluations[symIndex]?
    let authPath ← layer.merkleTree.generateProof index
    let symAuthPath ← layer.merkleTree.generateProof symIndex
    pure (evaluation, authPath, symEvaluation, symAuthPath)

/-- One iteration of the outer loop of `query_phase`, `fri/src/prover.rs` lines 99-131. -/
def queryOne (layers : List (FriLayer F)) (challenge : ℕ) : Option (Decommitment F) := do
  let rows ← layers.mapM (queryLayer challenge)
  pure { evaluations := rows.map fun r => r.1
         authPaths := rows.map fun r => r.2.1
         symEvaluations := rows.map fun r => r.2.2.1
         symAuthPaths := rows.map fun r => r.2.2.2 }

/-- `query_phase`, `fri/src/prover.rs` lines 81-134 (the second component, unused by the caller, is
the challenge list). -/
def queryPhase (env : Env F) (numberOfQueries domainSize : ℕ) (t : Transcript)
    (layers : List (FriLayer F)) : Option (List (Decommitment F) × List ℕ) := do
  if layers.isEmpty then pure ([], [])
  else
    let cs ← t.generateChallengeListUsize env numberOfQueries
    if domainSize = 0 ∧ cs.1 ≠ [] then none
    else
      let challengeList := cs.1.map fun v => v % domainSize
      let decs ← challengeList.mapM (queryOne layers)
      pure (decs, challengeList)

/-- `generate_proof`, `fri/src/prover.rs` lines 141-168. -/
def generateProof (env : Env F) (poly : DP F) (blowupFactor numberOfQueries : ℕ) :
    Option (Proof F) := do
  let domainSize := nextPow2 (poly.length * blowupFactor)
  let coset := FftField.generator (F := F)
  let numberOfLayers := Nat.log 2 domainSize
  let fp ← foldingPhase env poly coset domainSize numberOfLayers
  let qp ← queryPhase env numberOfQueries domainSize fp.2.1 fp.2.2
  let layersRoot ← fp.2.2.mapM fun layer => layer.merkleTree.root?
  pure { domainSize := domainSize
         coset := coset
         numberOfQueries := numberOfQueries
         layersRoot := layersRoot
         constVal := fp.1
         decommitmentList := qp.1 }

/-! ## verifier.rs -/

/-- The stateful `map` of `fri/src/verifier.rs` lines 18-24: digest each root, draw a challenge. -/
def regenerate (env : Env F) : List F → Transcript → Option (List F × Transcript)
  | [], t => some ([], t)
  | root :: rest, t => do
    let ct ← (t.feed env root).generateAChallenge env
    let r ← regenerate env rest ct.2
    pure (ct.1 :: r.1, r.2)

/-- The items the loop of `verify_query` iterates over (`fri/src/verifier.rs` lines 63-70). -/
def queryItems (d : Decommitment F) (rs : List F) :
    List ((((F × MerkleProof F) × F) × MerkleProof F) × F) :=
  (((d.evaluations.zip d.authPaths).zip d.symEvaluations).zip d.symAuthPaths).zip rs

/-- The loop of `verify_query`, `fri/src/verifier.rs` lines 63-112; `i` is the enumeration index. -/
def verifyQueryLoop (env : Env F) (challenge : ℕ) (evaluations : List F) (constVal : F) :
    ℕ → List ((((F × MerkleProof F) × F) × MerkleProof F) × F) → ℕ → F →
    Option (Except String Unit)
  | _, [], _, _ => some (.ok ())
  | i, ((((ev, path), symEv), symPath), r) :: rest, curDomainSize, curCoset =>
    if curDomainSize = 0 then none
    else
      let index := challenge % curDomainSize
      let symIndex := (index + curDomainSize / 2) % curDomainSize
      match Domain.new? (F := F) curDomainSize with
      | none => none
      | some curDomain =>
        if index ≠ path.index ∨ symIndex ≠ symPath.index then some (.error "wrong index!")
        else if ev ≠ path.leafVal ∨ symEv ≠ symPath.leafVal then
          some (.error "the evaluation does not correspond to given path!")
        else if !verifyMerkleProof env path || !verifyMerkleProof env symPath then
          some (.error "verify Merkle path failed!")
        else
          let w := curDomain.element index * curCoset
          if 2 * w = 0 then none
          else
            let qFold := (r + w) * ev / (2 * w) - (r - w) * symEv / (2 * w)
            if i ≠ evaluations.length - 1 then
              match evaluations[i + 1]? with
              | none => none
              | some nextEv =>
                if qFold ≠ nextEv then some (.error "folding wrong!")
                else verifyQueryLoop env challenge evaluations constVal (i + 1) rest
                  (curDomainSize / 2) (curCoset * curCoset)
            else if qFold ≠ constVal then some (.error "folding wrong!")
            else verifyQueryLoop env challenge evaluations constVal (i + 1) rest curDomainSize curCoset

/-- `verify_query`, `fri/src/verifier.rs` lines 51-114. -/
def verifyQuery (env : Env F) (challenge : ℕ) (d : Decommitment F) (rs : List F) (domainSize : ℕ)
    (constVal coset : F) : Option (Except String Unit) :=
  verifyQueryLoop env challenge d.evaluations constVal 0 (queryItems d rs) domainSize coset

/-- The query loop of `verify`, `fri/src/verifier.rs` lines 35-47 (`?` returns the first error). -/
def verifyQueries (env : Env F) (rs : List F) (domainSize : ℕ) (constVal coset : F) :
    List (ℕ × Decommitment F) → Option (Except String Unit)
  | [] => some (.ok ())
  | (challenge, d) :: rest =>
    match verifyQuery env challenge d rs domainSize constVal coset with
    | none => none
    | some (.error e) => some (.error e)
    | some (.ok ()) => verifyQueries env rs domainSize constVal coset rest

/-- `verify`, `fri/src/verifier.rs` lines 14-49. -/
def verify (env : Env F) (proof : Proof F) : Option (Except String Unit) := do
  let rt ← regenerate env proof.layersRoot (Transcript.new env 0)
  let cs ← (rt.2.feed env proof.constVal).generateChallengeListUsize env proof.numberOfQueries
  if proof.domainSize = 0 ∧ cs.1 ≠ [] then none
  else
    let challengeList := cs.1.map fun v => v % proof.domainSize
    verifyQueries env rt.1 proof.domainSize proof.constVal proof.coset
      (challengeList.zip proof.decommitmentList)

end Verif.Fri

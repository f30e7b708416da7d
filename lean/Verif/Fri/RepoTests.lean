import Verif.Fri.Program
import Verif.Fri.Tamper

/-!
# C98 (FRI): the repository's own tests

Every `#[test]` of the crate as a program: `none` if it panics, `some false` if an assertion fails, `some true` if it
passes.  The environment supplies the digests and the random generator; values the tests draw from the entropy of
the machine are arguments.
-/

set_option linter.unusedSectionVars false

namespace Verif.Fri

open Verif.Ark

/-- The polynomial `1 + 2X + 3X² + 4X³` of the tests. -/
noncomputable def testPoly : DP Goldilocks := fromCoeffs [1, 2, 3, 4]

/-- The polynomial of `test_verifier2`. -/
noncomputable def testPoly6 : DP Goldilocks := fromCoeffs [1, 2, 3, 4, 5, 6]

/-- `test_fold_polynomial`, `fri/src/prover.rs` lines 180-192. -/
noncomputable def testFoldPolynomial : Option Bool :=
  some (decide (foldPolynomial (fromCoeffs [1, 2, 3, 4]) (1 : Goldilocks) = fromCoeffs [3, 7]))

/-- `test_commit_phase`, `fri/src/prover.rs` lines 194-205 (`Fq::GENERATOR` is 7). -/
noncomputable def testCommitPhase (env : Env Goldilocks) : Option Bool := do
  let fp ← foldingPhase env testPoly FftField.generator 4 2
  let layer ← fp.2.2[1]?
  some (decide (layer.coset = 49) && decide (layer.domainSize = 2))

/-- `test_query_phase`, `fri/src/prover.rs` lines 207-221. -/
noncomputable def testQueryPhase (env : Env Goldilocks) : Option Bool := do
  let fp ← foldingPhase env testPoly FftField.generator 4 2
  let qp ← queryPhase env 1 4 fp.2.1 fp.2.2
  let d ← qp.1[0]?
  let path ← d.authPaths[0]?
  let symPath ← d.symAuthPaths[0]?
  some (decide ((path.index + 2) % 4 = symPath.index))

/-- `is_ok`. -/
def isOk : Except String Unit → Bool
  | .ok _ => true
  | .error _ => false

/-- `test_verifier` and `test_verifier2`, `fri/src/verifier.rs` lines 127-156. -/
noncomputable def testVerifier (env : Env Goldilocks) (poly : DP Goldilocks) : Option Bool := do
  let proof ← generateProof env poly 2 2
  let result ← verify env proof
  some (isOk result)

/-- `test_verifier3`, `fri/src/verifier.rs` lines 158-170. -/
noncomputable def testVerifier3 (env : Env Goldilocks) : Option Bool := do
  let proof ← generateProof env testPoly 2 2
  let result ← verify env { proof with constVal := proof.constVal - 1 }
  some (!isOk result)

/-- `test_merkle`, `fri/src/merkle_tree.rs` lines 140-151. -/
noncomputable def testMerkle (env : Env Goldilocks) : Option Bool := do
  let pf ← (MerkleTree.new env [1, 2, 3, 4]).generateProof 1
  some (verifyMerkleProof env pf)

/-- `test_generate_a_challenge_should_return_different`, `fri/src/fiat_shamir/transcript.rs` lines 153-163;
`query` is the random message. -/
def testChallengeDifferent (env : Env Goldilocks) (query : Goldilocks) : Option Bool := do
  let c1 ← ((Transcript.new env 0).feed env query).generateAChallenge env
  let c2 ← (c1.2.feed env query).generateAChallenge env
  some (decide (c1.1 ≠ c2.1))

/-- `test_generate_a_challenge_deterministic`, `fri/src/fiat_shamir/transcript.rs` lines 165-177. -/
def testChallengeDeterministic (env : Env Goldilocks) : Option Bool := do
  let c1 ← ((Transcript.new env 0).feed env 928459).generateAChallenge env
  let c2 ← ((Transcript.new env 0).feed env 928459).generateAChallenge env
  some (decide (c1.1 = c2.1))

/-- `g.len() == size` and the double loop of `test_generate_challenge_list_diff_elements` and
`test_generate_index_list_diff_elements`, `fri/src/fiat_shamir/transcript.rs` lines 186-191 and 226-231. -/
def fiveDifferent {α : Type} [DecidableEq α] (g : List α) : Bool :=
  decide (g.length = 5) && (List.range g.length).all fun i => (List.range i).all fun j => decide (g[i]? ≠ g[j]?)

/-- `test_generate_challenge_list_diff_elements`, `fri/src/fiat_shamir/transcript.rs` lines 179-192. -/
def testListDifferent (env : Env Goldilocks) : Option Bool := do
  let g ← ((Transcript.new env 0).feed env 31313213).generateChallenges env 5
  some (fiveDifferent g.1)

/-- `test_generate_challenge_list_deterministic`, `fri/src/fiat_shamir/transcript.rs` lines 194-207. -/
def testListDeterministic (env : Env Goldilocks) : Option Bool := do
  let g ← ((Transcript.new env 0).feed env 31313213).generateChallenges env 5
  let g2 ← ((Transcript.new env 0).feed env 31313213).generateChallenges env 5
  some (decide (g.1.length = 5) && decide (g.1 = g2.1))

/-- `safe_guard`, `fri/src/fiat_shamir/transcript.rs` lines 209-218 (`#[should_panic]`); `query` is the random message. -/
def testSafeGuard (env : Env Goldilocks) (query : Goldilocks) : Option Bool := do
  let g ← ((Transcript.new env 0).feed env query).generateChallenges env 5
  let _ ← g.2.generateChallenges env 5
  some true

/-- `test_generate_index_list_diff_elements`, `fri/src/fiat_shamir/transcript.rs` lines 219-232. -/
def testIndexDifferent (env : Env Goldilocks) : Option Bool := do
  let g ← ((Transcript.new env 0).feed env 31313213).generateChallengeListUsize env 5
  some (fiveDifferent g.1)

/-- `test_generate_index_list_deterministic`, `fri/src/fiat_shamir/transcript.rs` lines 234-247. -/
def testIndexDeterministic (env : Env Goldilocks) : Option Bool := do
  let g ← ((Transcript.new env 0).feed env 31313213).generateChallengeListUsize env 5
  let g2 ← ((Transcript.new env 0).feed env 31313213).generateChallengeListUsize env 5
  some (decide (g.1.length = 5) && decide (g.1 = g2.1))

/-! ## The theorems -/

theorem testPoly_eq : testPoly = [1, 2, 3, 4] := by unfold testPoly; decide +kernel

theorem testPoly6_eq : testPoly6 = [1, 2, 3, 4, 5, 6] := by unfold testPoly6; decide +kernel

/-- **C98** (FRI, deterministic tests): `test_fold_polynomial`, `test_merkle` and the three determinism tests pass
whatever the digest and the generator, and the second generation of `safe_guard` panics; only a digest
shorter than eight bytes makes the determinism tests panic. -/
theorem C98_fri_deterministic (env : Env Goldilocks) (hdig : ∀ b, 8 ≤ (env.digest b).length) (query : Goldilocks) :
    testFoldPolynomial = some true ∧ testMerkle env = some true ∧ testChallengeDeterministic env = some true ∧
    testListDeterministic env = some true ∧ testIndexDeterministic env = some true ∧ testSafeGuard env query = none := by
  have hs : ∀ m : Goldilocks, ((Transcript.new env 0).feed env m).rngSeed =
      some (fromLeBytes (((Transcript.new env 0).feed env m).data.getD [] |>.take 8),
        { (Transcript.new env 0).feed env m with generated := true }) := by
    intro m
    unfold Transcript.rngSeed
    rw [if_neg (by simp [Transcript.feed])]
    dsimp only
    rw [if_neg (by simp only [Transcript.feed, Option.getD_some]; exact not_lt.2 (hdig _))]
  refine ⟨?_, ?_, ?_, ?_, ?_, ?_⟩
  · unfold testFoldPolynomial; decide +kernel
  · obtain ⟨pf, h1, h2, -⟩ := C12_pow2 env [1, 2, 3, 4] 2 rfl 1 (by norm_num)
    unfold testMerkle
    simp only [h1, h2, Option.bind_eq_bind, Option.bind_some]
  · simp [testChallengeDeterministic, Transcript.generateAChallenge, hs]
  · simp [testListDeterministic, Transcript.generateChallenges, hs]
  · simp [testIndexDeterministic, Transcript.generateChallengeListUsize, Transcript.generateChallenges, hs]
  · have hg : ((Transcript.new env 0).feed env query).generateChallenges env 5 = some ((List.range 5).map
        (env.rand (fromLeBytes (((Transcript.new env 0).feed env query).data.getD [] |>.take 8))),
        { (Transcript.new env 0).feed env query with generated := true }) := by
      simp [Transcript.generateChallenges, hs]
    unfold testSafeGuard
    rw [hg]
    simp [Transcript.generateChallenges, Transcript.rngSeed]

theorem foldingPhase_two {env : Env Goldilocks} {p : DP Goldilocks} {g : Goldilocks}
    {fp : Goldilocks × Transcript × List (FriLayer Goldilocks)} (h : foldingPhase env p g 4 2 = some fp) :
    ∃ l0 l1, fp.2.2 = [l0, l1] ∧ l0.domainSize = 4 ∧ l1.coset = g * g ∧ l1.domainSize = 2 := by
  unfold foldingPhase at h
  rw [if_neg (by norm_num)] at h
  simp only [Option.bind_eq_bind, Option.bind_eq_some_iff] at h
  obtain ⟨res, h1, h2⟩ := h
  split at h2
  · cases h2
  simp only [pure, Option.some.injEq] at h2
  subst h2
  have hl : ∀ {q : DP Goldilocks} {c : Goldilocks} {n : ℕ} {l : FriLayer Goldilocks},
      FriLayer.fromPoly env q c n = some l → l.coset = c ∧ l.domainSize = n := by
    intro q c n l hl
    unfold FriLayer.fromPoly at hl
    simp only [Option.bind_eq_bind, Option.bind_eq_some_iff, pure, Option.some.injEq] at hl
    obtain ⟨d, -, rfl⟩ := hl
    exact ⟨rfl, rfl⟩
  unfold foldLoop at h1
  simp only [Option.bind_eq_bind, Option.bind_eq_some_iff, pure, Option.some.injEq] at h1
  obtain ⟨l0, e0, r0, -, ct, -, rest, h1, rfl⟩ := h1
  unfold foldLoop at h1
  simp only [Option.bind_eq_bind, Option.bind_eq_some_iff, pure, Option.some.injEq] at h1
  obtain ⟨l1, e1, r1, -, ct1, -, rest1, h1, rfl⟩ := h1
  unfold foldLoop at h1
  obtain rfl := Option.some.inj h1
  exact ⟨l0, l1, rfl, (hl e0).2, (hl e1).1, (hl e1).2⟩

theorem generateProof_index {t : MerkleTree Goldilocks} {i : ℕ} {pf : MerkleProof Goldilocks}
    (h : t.generateProof i = some pf) : pf.index = i := by
  unfold MerkleTree.generateProof at h
  simp only [Option.bind_eq_bind, Option.bind_eq_some_iff, pure, Option.some.injEq] at h
  obtain ⟨_, _, _, _, _, _, rfl⟩ := h
  rfl

/-- **C98** (FRI, protocol tests never fail): no assertion of `test_commit_phase`, `test_query_phase`, `test_verifier`,
`test_verifier2` and `test_verifier3` fails, whatever the digest and the generator. -/
theorem C98_fri_never_fail (env : Env Goldilocks) (hdig : ∀ b, 8 ≤ (env.digest b).length) :
    testCommitPhase env ≠ some false ∧ testQueryPhase env ≠ some false ∧ testVerifier env testPoly ≠ some false ∧
    testVerifier env testPoly6 ≠ some false ∧ testVerifier3 env ≠ some false := by
  have h49 : (FftField.generator : Goldilocks) * FftField.generator = 49 := by
    show (7 : Goldilocks) * 7 = 49
    decide +kernel
  have hver : ∀ p, testVerifier env p ≠ some false := by
    intro p h
    unfold testVerifier at h
    simp only [Option.bind_eq_bind, Option.bind_eq_some_iff] at h
    obtain ⟨pf, h1, res, h2, h3⟩ := h
    rw [C18_completeness env _ 2 2 h1] at h2
    obtain rfl := Option.some.inj h2
    cases h3
  refine ⟨fun h => ?_, fun h => ?_, hver _, hver _, fun h => ?_⟩
  · unfold testCommitPhase at h
    simp only [Option.bind_eq_bind, Option.bind_eq_some_iff] at h
    obtain ⟨fp, h1, l, h2, h3⟩ := h
    obtain ⟨l0, l1, e, -, e1, e2⟩ := foldingPhase_two h1
    rw [e] at h2
    simp only [List.getElem?_cons_succ, List.getElem?_cons_zero, Option.some.injEq] at h2
    subst h2
    rw [e1, e2, h49] at h3
    simp at h3
  · unfold testQueryPhase at h
    simp only [Option.bind_eq_bind, Option.bind_eq_some_iff] at h
    obtain ⟨fp, h1, qp, h2, d, h3, p, h4, sp, h5, h6⟩ := h
    obtain ⟨l0, l1, e, e0, -, -⟩ := foldingPhase_two h1
    unfold queryPhase at h2
    rw [e] at h2
    simp only [List.isEmpty_cons, Bool.false_eq_true, if_false, Option.bind_eq_bind, Option.bind_eq_some_iff] at h2
    obtain ⟨cs, -, h2⟩ := h2
    split at h2
    · cases h2
    simp only [Option.bind_eq_some_iff, pure, Option.some.injEq] at h2
    obtain ⟨decs, h2, rfl⟩ := h2
    obtain ⟨hl, hg⟩ := mapM_getElem h2
    dsimp only at h3
    obtain ⟨ch, hch⟩ : ∃ ch, (cs.1.map fun v => v % 4)[0]? = some ch :=
      ⟨_, List.getElem?_eq_getElem (hl ▸ (List.getElem?_eq_some_iff.1 h3).1)⟩
    obtain ⟨d', hd', hq⟩ := hg 0 _ hch
    obtain rfl := Option.some.inj (h3.symm.trans hd')
    unfold queryOne at hq
    simp only [Option.bind_eq_bind, Option.bind_eq_some_iff, pure, Option.some.injEq] at hq
    obtain ⟨rows, hrows, rfl⟩ := hq
    obtain ⟨row, hr0, hrow⟩ := (mapM_getElem hrows).2 0 l0 rfl
    simp only [List.getElem?_map, hr0, Option.map_some, Option.some.injEq] at h4 h5
    unfold queryLayer at hrow
    rw [e0, if_neg (by norm_num)] at hrow
    simp only [Option.bind_eq_bind, Option.bind_eq_some_iff, pure, Option.some.injEq] at hrow
    obtain ⟨ev, -, sev, -, ap, hap, sap, hsap, rfl⟩ := hrow
    dsimp only at h4 h5
    subst h4 h5
    rw [generateProof_index hap, generateProof_index hsap] at h6
    simp at h6
  · unfold testVerifier3 at h
    simp only [Option.bind_eq_bind, Option.bind_eq_some_iff] at h
    obtain ⟨pf, h1, res, h2, h3⟩ := h
    obtain ⟨e, he⟩ := C96_fri_constant env hdig pf (complete_of_honest env _ 2 2 (by norm_num) h1) (pf.constVal - 1)
      (by intro h0; have : (1 : Goldilocks) = 0 := by linear_combination -h0
          exact absurd this one_ne_zero)
    rw [he] at h2
    obtain rfl := Option.some.inj h2
    cases h3

/-- **C98** (FRI, protocol tests pass): with a digest of at least eight bytes each of these tests passes unless
one of its folding challenges takes the one exceptional value of its round. -/
theorem C98_fri_pass :
    (ForMostChallenges 2 fun rs : List Goldilocks => ∀ env : Env Goldilocks, (∀ b, 8 ≤ (env.digest b).length) →
      HonestChallenges env testPoly 2 rs → testCommitPhase env = some true ∧ testQueryPhase env = some true) ∧
    (ForMostChallenges 3 fun rs : List Goldilocks => ∀ env : Env Goldilocks, (∀ b, 8 ≤ (env.digest b).length) →
      HonestChallenges env testPoly 3 rs → testVerifier env testPoly = some true ∧ testVerifier3 env = some true) ∧
    ForMostChallenges 4 fun rs : List Goldilocks => ∀ env : Env Goldilocks, (∀ b, 8 ≤ (env.digest b).length) →
      HonestChallenges env testPoly6 4 rs → testVerifier env testPoly6 = some true := by
  have c4 : Nat.clog 2 4 = 2 := by decide
  have c8 : Nat.clog 2 8 = 3 := by decide
  have c12 : Nat.clog 2 12 = 4 := by decide
  rw [testPoly_eq, testPoly6_eq]
  refine ⟨?_, ?_, ?_⟩
  · have h := C84_fri_honest_proving ([1, 2, 3, 4] : DP Goldilocks) 1 ⟨1, by simp, one_ne_zero⟩ (by simp)
      (by show 2 ^ Nat.clog 2 4 ≤ 2 ^ 32
          rw [c4]; norm_num)
    have e : Nat.clog 2 (([1, 2, 3, 4] : DP Goldilocks).length * 1) = 2 := c4
    rw [e] at h
    refine forMost_mono (fun rs hrs env hdig hch => ?_) h
    obtain ⟨pf, h1, -⟩ := hrs env 1 hdig hch
    have hn : nextPow2 (([1, 2, 3, 4] : DP Goldilocks).length * 1) = 4 := by
      show 2 ^ Nat.clog 2 4 = 4
      rw [c4]; norm_num
    have hlog : Nat.log 2 4 = 2 := by decide
    unfold generateProof at h1
    simp only [hn, hlog, Option.bind_eq_bind, Option.bind_eq_some_iff] at h1
    obtain ⟨fp, hfp, qp, hqp, -⟩ := h1
    obtain ⟨n1, n2, -⟩ := C98_fri_never_fail env hdig
    obtain ⟨l0, l1, el, e0, e1, e2⟩ := foldingPhase_two hfp
    constructor
    · unfold testCommitPhase at n1 ⊢
      rw [testPoly_eq] at n1 ⊢
      simp only [hfp, el, Option.bind_eq_bind, Option.bind_some, List.getElem?_cons_succ, List.getElem?_cons_zero] at n1 ⊢
      revert n1
      cases decide (l1.coset = 49) && decide (l1.domainSize = 2) <;> simp
    · have hq := hqp
      unfold queryPhase at hqp
      rw [el] at hqp
      simp only [List.isEmpty_cons, Bool.false_eq_true, if_false, Option.bind_eq_bind, Option.bind_eq_some_iff] at hqp
      obtain ⟨cs, hcs, hqp⟩ := hqp
      split at hqp
      · cases hqp
      simp only [Option.bind_eq_some_iff, pure, Option.some.injEq] at hqp
      obtain ⟨decs, hqp, rfl⟩ := hqp
      obtain ⟨hl, hg⟩ := mapM_getElem hqp
      have hlc := length_challengeList hcs
      rw [List.length_map] at hl
      obtain ⟨ch, hch⟩ : ∃ ch, (cs.1.map fun v => v % 4)[0]? = some ch :=
        ⟨_, List.getElem?_eq_getElem (by rw [List.length_map]; omega)⟩
      obtain ⟨d, hd, hq1⟩ := hg 0 _ hch
      unfold queryOne at hq1
      simp only [Option.bind_eq_bind, Option.bind_eq_some_iff, pure, Option.some.injEq] at hq1
      obtain ⟨rows, hrows, hq1⟩ := hq1
      obtain ⟨row, hr0, -⟩ := (mapM_getElem hrows).2 0 l0 rfl
      have ha : d.authPaths[0]? = some row.2.1 := by
        rw [← hq1]; simp only [List.getElem?_map, hr0, Option.map_some]
      have hs : d.symAuthPaths[0]? = some row.2.2.2 := by
        rw [← hq1]; simp only [List.getElem?_map, hr0, Option.map_some]
      unfold testQueryPhase at n2 ⊢
      rw [testPoly_eq] at n2 ⊢
      simp only [hfp, hq, Option.bind_eq_bind, Option.bind_some, hd, ha, hs] at n2 ⊢
      revert n2
      cases decide ((row.2.1.index + 2) % 4 = row.2.2.2.index) <;> simp
  · have h := C84_fri_honest_proving ([1, 2, 3, 4] : DP Goldilocks) 2 ⟨1, by simp, one_ne_zero⟩ (by simp)
      (by show 2 ^ Nat.clog 2 8 ≤ 2 ^ 32
          rw [c8]; norm_num)
    have e : Nat.clog 2 (([1, 2, 3, 4] : DP Goldilocks).length * 2) = 3 := c8
    rw [e] at h
    refine forMost_mono (fun rs hrs env hdig hch => ?_) h
    obtain ⟨pf, h1, h2⟩ := hrs env 2 hdig hch
    constructor
    · unfold testVerifier
      simp only [h1, h2, Option.bind_eq_bind, Option.bind_some, isOk]
    · obtain ⟨-, -, -, -, n5⟩ := C98_fri_never_fail env hdig
      obtain ⟨e, he⟩ := C96_fri_constant env hdig pf (complete_of_honest env _ 2 2 (by norm_num) h1) (pf.constVal - 1)
        (by intro h0; have : (1 : Goldilocks) = 0 := by linear_combination -h0
            exact absurd this one_ne_zero)
      unfold testVerifier3
      rw [testPoly_eq]
      simp only [h1, he, Option.bind_eq_bind, Option.bind_some, isOk, Bool.not_false]
  · have h := C84_fri_honest_proving ([1, 2, 3, 4, 5, 6] : DP Goldilocks) 2 ⟨1, by simp, one_ne_zero⟩ (by simp)
      (by show 2 ^ Nat.clog 2 12 ≤ 2 ^ 32
          rw [c12]; norm_num)
    have e : Nat.clog 2 (([1, 2, 3, 4, 5, 6] : DP Goldilocks).length * 2) = 4 := c12
    rw [e] at h
    refine forMost_mono (fun rs hrs env hdig hch => ?_) h
    obtain ⟨pf, h1, h2⟩ := hrs env 2 hdig hch
    unfold testVerifier
    simp only [h1, h2, Option.bind_eq_bind, Option.bind_some, isOk]

/-- The digest after the first and after the second message of
`test_generate_a_challenge_should_return_different`. -/
def digests (env : Env Goldilocks) (query : Goldilocks) : List UInt8 × List UInt8 :=
  let t := (Transcript.new env 0).feed env query
  (t.data.getD [], (t.feed env query).data.getD [])

/-- **C98** (FRI, randomness tests): `test_generate_a_challenge_should_return_different` fails exactly if the generator returns
the same element for the (first eight bytes of the) two digests, and the two tests for different elements exactly if the five elements drawn
from the one seed, respectively their low 64 bits, are not pairwise different. -/
theorem C98_fri_randomness (env : Env Goldilocks) (hdig : ∀ b, 8 ≤ (env.digest b).length) (query : Goldilocks) :
    testChallengeDifferent env query = some (decide
      (env.rand (fromLeBytes ((digests env query).1.take 8)) 0 ≠ env.rand (fromLeBytes ((digests env query).2.take 8)) 0)) ∧
    testListDifferent env ≠ none ∧ testIndexDifferent env ≠ none ∧
    ∃ seed, (testListDifferent env = some true ↔ ∀ i < 5, ∀ j < i, env.rand seed i ≠ env.rand seed j) ∧
      (testIndexDifferent env = some true ↔
        ∀ i < 5, ∀ j < i, env.low64 (env.rand seed i) ≠ env.low64 (env.rand seed j)) := by
  have hs : ∀ (t : Transcript) (m : Goldilocks), (t.feed env m).rngSeed =
      some (fromLeBytes ((t.feed env m).data.getD [] |>.take 8), { t.feed env m with generated := true }) := by
    intro t m
    unfold Transcript.rngSeed
    rw [if_neg (by simp [Transcript.feed])]
    dsimp only
    rw [if_neg (by simp only [Transcript.feed, Option.getD_some]; exact not_lt.2 (hdig _))]
  have hfive : ∀ {α : Type} [DecidableEq α] (f : ℕ → α), fiveDifferent ((List.range 5).map f) = true ↔
      ∀ i < 5, ∀ j < i, f i ≠ f j := by
    intro α _ f
    simp only [fiveDifferent, List.length_map, List.length_range, decide_true, Bool.true_and, List.all_eq_true,
      List.mem_range, decide_eq_true_eq]
    refine forall_congr' fun i => forall_congr' fun hi => forall_congr' fun j => forall_congr' fun hj => ?_
    simp only [List.getElem?_map, List.getElem?_range hi, List.getElem?_range (hj.trans hi), Option.map_some, ne_eq,
      Option.some.injEq]
  have h1 : testListDifferent env = some (fiveDifferent ((List.range 5).map
      (env.rand (fromLeBytes (((Transcript.new env 0).feed env 31313213).data.getD [] |>.take 8))))) := by
    simp only [testListDifferent, Transcript.generateChallenges, hs, Option.bind_eq_bind, Option.bind_some, pure]
  have h2 : testIndexDifferent env = some (fiveDifferent ((List.range 5).map fun i => env.low64
      (env.rand (fromLeBytes (((Transcript.new env 0).feed env 31313213).data.getD [] |>.take 8)) i))) := by
    simp only [testIndexDifferent, Transcript.generateChallengeListUsize, Transcript.generateChallenges, hs,
      Option.bind_eq_bind, Option.bind_some, pure, List.map_map]
    rfl
  refine ⟨?_, by simp [h1], by simp [h2],
    fromLeBytes (((Transcript.new env 0).feed env 31313213).data.getD [] |>.take 8), ?_, ?_⟩
  · simp only [testChallengeDifferent, Transcript.generateAChallenge, hs, Option.bind_eq_bind, Option.bind_some, pure, digests]
    rfl
  · rw [h1, Option.some.injEq]
    exact hfive _
  · rw [h2, Option.some.injEq]
    exact hfive _

end Verif.Fri

import Verif.Nova.R1cs
import Verif.Kzg.Props

/-!
# Properties C32–C35: the folding prover and verifier
-/

set_option linter.unusedSectionVars false

namespace Verif.Nova

open Verif.Ark Verif.Kzg

variable {F G1 G2 GT B : Type} [Field F] [DecidableEq F] [AddCommGroup G1] [Module F G1] [DecidableEq G1]
  [AddCommGroup G2] [Module F G2] [AddCommGroup GT] [Module F GT] [DecidableEq GT]
  [Field B] [DecidableEq B]

/-! ## Specification vocabulary -/

/-- The challenge drawn from a transcript digest: first output of the generator seeded with the first
eight bytes (little endian). -/
def challengeOf (env : Env F G1 B) (d : List UInt8) : F := env.rand (fromLeBytes (d.take 8)) 0

/-- Digest of the transcript (starting from the bytes `d0`) after the folding verifier has absorbed
`u1`, `u2` and `com_T`. -/
def foldDigest (env : Env F G1 B) (d0 : List UInt8) (u1 u2 : F) (comT : G1) : List UInt8 :=
  env.digest (env.digest (env.digest (d0 ++ env.serF u1) ++ env.serF u2) ++ env.serG comT)

/-- Digest after two further commitments. -/
def openDigest (env : Env F G1 B) (d : List UInt8) (comE comW : G1) : List UInt8 :=
  env.digest (env.digest (d ++ env.serG comE) ++ env.serG comW)

/-! ## Lemmas -/

theorem generateOne_eq (env : Env F G1 B) (t : Transcript) :
    t.generateOne env = if t.generated = true ∨ (t.data.getD []).length < 8 then none
      else some (challengeOf env (t.data.getD []), { t with generated := true }) := by
  unfold Transcript.generateOne Transcript.generateChallenges Transcript.rngSeed
  by_cases h : t.generated = true
  · simp [h]
  · by_cases h' : (t.data.getD []).length < 8
    · simp [h']
    · simp [h, h', challengeOf, List.range_succ]

theorem feedFold_eq (env : Env F G1 B) (t : Transcript) (u1 u2 : F) (comT : G1) :
    feedFold env t u1 u2 comT = ⟨some (foldDigest env (t.data.getD []) u1 u2 comT), false⟩ := rfl

theorem generateOne_feedFold (env : Env F G1 B) (hdig : ∀ b, 8 ≤ (env.digest b).length) (t : Transcript)
    (u1 u2 : F) (comT : G1) :
    (feedFold env t u1 u2 comT).generateOne env =
      some (challengeOf env (foldDigest env (t.data.getD []) u1 u2 comT),
        ⟨some (foldDigest env (t.data.getD []) u1 u2 comT), true⟩) := by
  rw [generateOne_eq, feedFold_eq, if_neg]
  · rfl
  · simpa [foldDigest] using hdig _

theorem generateOne_feed2 (env : Env F G1 B) (hdig : ∀ b, 8 ≤ (env.digest b).length) (t : Transcript)
    (a b : G1) :
    ((t.feed env a).feed env b).generateOne env =
      some (challengeOf env (openDigest env (t.data.getD []) a b),
        ⟨some (openDigest env (t.data.getD []) a b), true⟩) := by
  rw [generateOne_eq, if_neg]
  · rfl
  · simpa [Transcript.feed] using hdig _

/-- Opening a committed vector with a nonzero entry yields an accepted opening. -/
theorem openVector_verifies (P : PairingGroups F G1 G2 GT) (s : F) (n : ℕ) {v : List F} {c : G1}
    (hne : ∃ x ∈ v, x ≠ 0) (hc : commitVector (Srs.newFromSecret P s n) v = some c) (z : F) :
    ∃ o, openVector (Srs.newFromSecret P s n) v z = some o ∧
      Kzg.verify P (Srs.newFromSecret P s n) c o z = true := by
  have hz : toPoly (fromCoeffs v) ≠ 0 := by
    rw [toPoly_fromCoeffs, Ne, toPoly_eq_zero_iff]
    push Not
    exact hne
  obtain ⟨o, h1, -, h2⟩ := C04_open_verifies P s n (canon_fromCoeffs v) hz hc z
  exact ⟨o, h1, h2⟩

/-- Opening an all-zero vector panics. -/
theorem openVector_zero (srs : Srs G1 G2) {v : List F} (h : ∀ x ∈ v, x = 0) (z : F) :
    openVector srs v z = none := by
  have : fromCoeffs v = [] :=
    canon_zero_eq_nil (canon_fromCoeffs v) (by rw [toPoly_fromCoeffs, toPoly_eq_zero_iff]; exact h)
  unfold openVector
  simp [this, subFirst]

/-! ## C33 -/

/-- **C33**: `NIFS::verify` never panics (digests of at least eight bytes) and returns `Ok` exactly if
`r` is the challenge of `(u1, u2, com_T)`, the opening point is the challenge after also absorbing the
folded commitments, and the two KZG equations hold. -/
theorem C33_verify_iff (env : Env F G1 B) (P : PairingGroups F G1 G2 GT) (s : F) (n : ℕ)
    (hdig : ∀ b, 8 ≤ (env.digest b).length) (proof : NIFSProof F G1) (fi1 fi2 fi3 : FInstance F G1)
    (comT : G1) (tr : Transcript) :
    ∃ res tr', nifsVerify env P proof fi1 fi2 fi3 comT (Srs.newFromSecret P s n) tr = some (res, tr') ∧
      (res = .ok () ↔
        proof.r = challengeOf env (foldDigest env (tr.data.getD []) fi1.u fi2.u comT) ∧
        proof.openingPoint = challengeOf env (openDigest env
          (foldDigest env (tr.data.getD []) fi1.u fi2.u comT) fi3.comE fi3.comW) ∧
        (s - proof.openingPoint) • proof.openingW.witness = fi3.comW - proof.openingW.eval • P.g1 ∧
        (s - proof.openingPoint) • proof.openingE.witness = fi3.comE - proof.openingE.eval • P.g1) := by
  unfold nifsVerify verifyChallenge
  rw [generateOne_feedFold env hdig]
  simp only [Option.bind_eq_bind, Option.bind_some]
  generalize foldDigest env (tr.data.getD []) fi1.u fi2.u comT = d
  by_cases h1 : challengeOf env d = proof.r
  swap
  · rw [if_pos h1]
    refine ⟨_, _, rfl, ?_⟩
    simp only [reduceCtorEq, false_iff, not_and]
    intro h; exact absurd h.symm h1
  rw [if_neg (by simpa using h1)]
  simp only [pure, Option.bind_some]
  unfold verifyOpening
  rw [generateOne_feed2 env hdig]
  simp only [Option.bind_eq_bind, Option.bind_some, Option.getD_some, h1, true_and]
  generalize openDigest env d fi3.comE fi3.comW = d'
  by_cases h2 : challengeOf env d' = proof.openingPoint
  swap
  · rw [if_pos h2]
    refine ⟨_, _, rfl, ?_⟩
    simp only [reduceCtorEq, false_iff, not_and]
    intro h; exact absurd h.symm h2
  rw [if_neg (by simpa using h2), h2, ← verify_iff, ← verify_iff]
  cases h3 : Kzg.verify P (Srs.newFromSecret P s n) fi3.comW proof.openingW proof.openingPoint with
  | false => exact ⟨_, _, rfl, by simp⟩
  | true =>
    cases h4 : Kzg.verify P (Srs.newFromSecret P s n) fi3.comE proof.openingE proof.openingPoint with
    | false => exact ⟨_, _, rfl, by simp⟩
    | true => exact ⟨_, _, rfl, by simp⟩

/-! ## C32 -/

/-- An honest run: whatever the transcript, if the folded instance carries the commitments of the folded
witness then the proof made for it is accepted by a verifier that starts with an equal transcript, and both
transcripts end equal. -/
theorem nifs_accepts (env : Env F G1 B) (P : PairingGroups F G1 G2 GT) (s : F) (n : ℕ)
    (r1cs : R1CS F) (fw1 fw2 fw : FWitness F) (fi1 fi2 fi : FInstance F G1) (comT : G1) (r : F)
    (proof : NIFSProof F G1) (tr tr1 tr2 : Transcript)
    (hp : nifsProver env r1cs fw1 fw2 fi1 fi2 (Srs.newFromSecret P s n) tr = some ((fw, fi, comT, r), tr1))
    (hpr : nifsProve env r fw fi (Srs.newFromSecret P s n) tr1 = some (proof, tr2))
    (hW : commitVector (Srs.newFromSecret P s n) fw.w = some fi.comW)
    (hE : commitVector (Srs.newFromSecret P s n) fw.e = some fi.comE) :
    fi = nifsVerifier proof.r fi1 fi2 comT ∧
    nifsVerify env P proof fi1 fi2 (nifsVerifier proof.r fi1 fi2 comT) comT (Srs.newFromSecret P s n) tr =
      some (.ok (), tr2) := by
  simp only [nifsProver, Option.bind_eq_bind, Option.bind_eq_some_iff, pure, Option.some.injEq,
    Prod.mk.injEq] at hp
  obtain ⟨t, ht, cT, hT, ct, hct, ⟨rfl, rfl, rfl, rfl⟩, rfl⟩ := hp
  simp only [nifsProve, Option.bind_eq_bind, Option.bind_eq_some_iff, pure, Option.some.injEq,
    Prod.mk.injEq] at hpr
  obtain ⟨ct2, hct2, oE, hoE, oW, hoW, rfl, rfl⟩ := hpr
  have hne : ∀ {v : List F} {o : Opening F G1},
      openVector (Srs.newFromSecret P s n) v ct2.1 = some o → ∃ x ∈ v, x ≠ 0 := by
    intro v o ho
    by_contra hcon
    push Not at hcon
    rw [openVector_zero _ hcon] at ho; cases ho
  obtain ⟨oE', hE1, hE2⟩ := openVector_verifies P s n (hne hoE) hE ct2.1
  obtain ⟨oW', hW1, hW2⟩ := openVector_verifies P s n (hne hoW) hW ct2.1
  rw [hoE] at hE1; cases hE1
  rw [hoW] at hW1; cases hW1
  refine ⟨rfl, ?_⟩
  unfold nifsVerify verifyChallenge
  simp only [hct, Option.bind_eq_bind, Option.bind_some]
  rw [if_neg (by simp)]
  simp only [pure, Option.bind_some]
  unfold verifyOpening nifsVerifier
  simp only [hct2, Option.bind_eq_bind, Option.bind_some]
  rw [if_neg (by simp)]
  rw [hE2, hW2]
  rfl

/-- What `NIFS::prover` returns. -/
theorem nifsProver_eq (env : Env F G1 B) (hdig : ∀ b, 8 ≤ (env.digest b).length) (srs : Srs G1 G2)
    (r1cs : R1CS F) (fw1 fw2 : FWitness F) (fi1 fi2 : FInstance F G1) (tr : Transcript) (t : List F) (cT : G1)
    (ht : computeT r1cs fi1.u fi2.u (zVec fw1 fi1) (zVec fw2 fi2) = some t)
    (hT : commitVector srs t = some cT) :
    let r := challengeOf env (foldDigest env (tr.data.getD []) fi1.u fi2.u cT)
    nifsProver env r1cs fw1 fw2 fi1 fi2 srs tr =
      some ((foldWitness r fw1 fw2 t, foldInstance r fi1 fi2 cT, cT, r),
        ⟨some (foldDigest env (tr.data.getD []) fi1.u fi2.u cT), true⟩) := by
  intro r
  unfold nifsProver
  simp only [ht, hT, generateOne_feedFold env hdig tr fi1.u fi2.u cT, Option.bind_eq_bind, Option.bind_some]
  rfl

/-- `NIFS::prove` on a committed pair returns exactly if neither vector is identically zero. -/
theorem nifsProve_iff (env : Env F G1 B) (P : PairingGroups F G1 G2 GT) (s : F) (n : ℕ)
    (hdig : ∀ b, 8 ≤ (env.digest b).length) (r : F) (fw : FWitness F) (fi : FInstance F G1) (tr : Transcript)
    (hcw : commitVector (Srs.newFromSecret P s n) fw.w = some fi.comW)
    (hce : commitVector (Srs.newFromSecret P s n) fw.e = some fi.comE) :
    (∃ proof tr2, nifsProve env r fw fi (Srs.newFromSecret P s n) tr = some (proof, tr2)) ↔
      (∃ x ∈ fw.e, x ≠ 0) ∧ (∃ x ∈ fw.w, x ≠ 0) := by
  unfold nifsProve
  rw [generateOne_feed2 env hdig]
  simp only [Option.bind_eq_bind, Option.bind_some]
  constructor
  · rintro ⟨proof, tr2, h⟩
    simp only [Option.bind_eq_some_iff] at h
    obtain ⟨oE, hoE, oW, hoW, -⟩ := h
    constructor
    · by_contra hcon
      push Not at hcon
      rw [openVector_zero _ hcon] at hoE; cases hoE
    · by_contra hcon
      push Not at hcon
      rw [openVector_zero _ hcon] at hoW; cases hoW
  · rintro ⟨h1, h2⟩
    obtain ⟨oE, hoE, -⟩ := openVector_verifies P s n h1 hce
      (challengeOf env (openDigest env (tr.data.getD []) fi.comE fi.comW))
    obtain ⟨oW, hoW, -⟩ := openVector_verifies P s n h2 hcw
      (challengeOf env (openDigest env (tr.data.getD []) fi.comE fi.comW))
    exact ⟨⟨r, _, oE, oW⟩, _, by rw [hoE, hoW]; rfl⟩

/-- **C32** (an honest proof is accepted): if `NIFS::prover` and `NIFS::prove` return for two committed
pairs of matching shape — satisfying or not — then `NIFS::verifier` and `NIFS::verify` accept, starting
from an equal transcript. -/
theorem C32_complete (env : Env F G1 B) (P : PairingGroups F G1 G2 GT) (s : F) (n : ℕ)
    (r1cs : R1CS F) (fw1 fw2 fw : FWitness F) (fi1 fi2 fi : FInstance F G1) (comT : G1) (r : F)
    (proof : NIFSProof F G1) (tr tr1 tr2 : Transcript)
    (hw : fw1.w.length = fw2.w.length) (he1 : fw1.e.length = r1cs.matrixA.length)
    (he2 : fw2.e.length = r1cs.matrixA.length)
    (hW1 : commitVector (Srs.newFromSecret P s n) fw1.w = some fi1.comW)
    (hW2 : commitVector (Srs.newFromSecret P s n) fw2.w = some fi2.comW)
    (hE1 : commitVector (Srs.newFromSecret P s n) fw1.e = some fi1.comE)
    (hE2 : commitVector (Srs.newFromSecret P s n) fw2.e = some fi2.comE)
    (hp : nifsProver env r1cs fw1 fw2 fi1 fi2 (Srs.newFromSecret P s n) tr = some ((fw, fi, comT, r), tr1))
    (hpr : nifsProve env r fw fi (Srs.newFromSecret P s n) tr1 = some (proof, tr2)) :
    nifsVerify env P proof fi1 fi2 (nifsVerifier proof.r fi1 fi2 comT) comT (Srs.newFromSecret P s n) tr =
      some (.ok (), tr2) := by
  have hp' := hp
  simp only [nifsProver, Option.bind_eq_bind, Option.bind_eq_some_iff, pure, Option.some.injEq,
    Prod.mk.injEq] at hp'
  obtain ⟨t, ht, cT, hT, ct, hct, ⟨rfl, rfl, rfl, rfl⟩, rfl⟩ := hp'
  have htl := ((computeT_iff _ _ _ _ _ _).1 ht).2.2.1
  obtain ⟨hcw, hce⟩ := C31_fold_commitments (Srs.newFromSecret P s n) ct.1 fw1 fw2 t fi1 fi2 cT hw
    (by omega) (by omega) hW1 hW2 hE1 hE2 hT
  exact (nifs_accepts env P s n r1cs fw1 fw2 _ fi1 fi2 _ cT ct.1 proof tr _ tr2 hp hpr hcw hce).2

/-- **C32** (the prover returns): with digests of at least eight bytes, equally many matrix rows and
vectors that fit the SRS, `NIFS::prover` returns; `NIFS::prove` on its result returns exactly if neither
the folded `E` nor the folded `W` is identically zero. -/
theorem C32_returns (env : Env F G1 B) (P : PairingGroups F G1 G2 GT) (s : F) (n : ℕ)
    (hdig : ∀ b, 8 ≤ (env.digest b).length) (r1cs : R1CS F) (fw1 fw2 : FWitness F)
    (fi1 fi2 : FInstance F G1) (tr : Transcript)
    (hw : fw1.w.length = fw2.w.length) (he1 : fw1.e.length = r1cs.matrixA.length)
    (he2 : fw2.e.length = r1cs.matrixA.length) (hB : r1cs.matrixB.length = r1cs.matrixA.length)
    (hC : r1cs.matrixC.length = r1cs.matrixA.length)
    (hsize : r1cs.matrixA.length ≤ n + 3)
    (hW1 : commitVector (Srs.newFromSecret P s n) fw1.w = some fi1.comW)
    (hW2 : commitVector (Srs.newFromSecret P s n) fw2.w = some fi2.comW)
    (hE1 : commitVector (Srs.newFromSecret P s n) fw1.e = some fi1.comE)
    (hE2 : commitVector (Srs.newFromSecret P s n) fw2.e = some fi2.comE) :
    ∃ fw fi comT r tr1,
      nifsProver env r1cs fw1 fw2 fi1 fi2 (Srs.newFromSecret P s n) tr = some ((fw, fi, comT, r), tr1) ∧
      ((∃ proof tr2, nifsProve env r fw fi (Srs.newFromSecret P s n) tr1 = some (proof, tr2)) ↔
        (∃ x ∈ fw.e, x ≠ 0) ∧ (∃ x ∈ fw.w, x ≠ 0)) := by
  have ht : ∃ t, computeT r1cs fi1.u fi2.u (zVec fw1 fi1) (zVec fw2 fi2) = some t := by
    refine ⟨(List.range r1cs.matrixA.length).map (crossTerm r1cs fi1.u fi2.u (zVec fw1 fi1) (zVec fw2 fi2)),
      (computeT_iff _ _ _ _ _ _).2 ⟨by omega, hC, by simp, ?_⟩⟩
    intro i hi
    rw [getD_lt (by simpa using hi)]; simp
  obtain ⟨t, ht⟩ := ht
  have htl := ((computeT_iff _ _ _ _ _ _).1 ht).2.2.1
  have hsl : (Srs.newFromSecret P s n).g1Points.length = n + 3 := srs_length P s n
  obtain ⟨cT, hT⟩ : ∃ c, commitVector (Srs.newFromSecret P s n) t = some c :=
    ⟨_, (commitVector_iff _ _ _).2 ⟨by omega, fun i hi => getD_eq_of_le (by omega), rfl⟩⟩
  have heq := nifsProver_eq env hdig (Srs.newFromSecret P s n) r1cs fw1 fw2 fi1 fi2 tr t cT ht hT
  refine ⟨_, _, cT, _, _, heq, ?_⟩
  obtain ⟨hcw, hce⟩ := C31_fold_commitments (Srs.newFromSecret P s n)
    (challengeOf env (foldDigest env (tr.data.getD []) fi1.u fi2.u cT)) fw1 fw2 t fi1 fi2 cT hw
    (by omega) (by omega) hW1 hW2 hE1 hE2 hT
  exact nifsProve_iff env P s n hdig _ _ _ _ hcw hce

/-! ## C34 -/

/-- One row: `w · u = 0`. -/
def badR1cs : R1CS F := ⟨[[1, 0, 0]], [[0, 0, 1]], [[0, 0, 0]], 1, 1⟩

/-- **C34** (counterexample): acceptance says nothing about satisfaction.  For the one-row R1CS
`w · u = 0`, folding the fresh pairs with `w = 1` and `w = 0` gives, for every challenge other than
zero, a proof that is accepted although the folded pair does not satisfy the R1CS. -/
theorem C34_accepts_unsatisfied (env : Env F G1 B) (P : PairingGroups F G1 G2 GT) (s : F) (n : ℕ)
    (hdig : ∀ b, 8 ≤ (env.digest b).length) (hrand : ∀ seed < 2 ^ 64, env.rand seed 0 ≠ 0) (x1 x2 : F)
    (tr : Transcript) :
    ∃ fi1 fi2 fw fi comT r tr1 proof tr2,
      (FWitness.new [1] 1).commit (Srs.newFromSecret P s n) [x1] = some fi1 ∧
      (FWitness.new [0] 1).commit (Srs.newFromSecret P s n) [x2] = some fi2 ∧
      nifsProver env badR1cs (FWitness.new [1] 1) (FWitness.new [0] 1) fi1 fi2 (Srs.newFromSecret P s n) tr =
        some ((fw, fi, comT, r), tr1) ∧
      nifsProve env r fw fi (Srs.newFromSecret P s n) tr1 = some (proof, tr2) ∧
      nifsVerify env P proof fi1 fi2 (nifsVerifier proof.r fi1 fi2 comT) comT (Srs.newFromSecret P s n) tr =
        some (.ok (), tr2) ∧
      isR1csSatisfied badR1cs fi fw (Srs.newFromSecret P s n) ≠ some (.ok ()) := by
  have hsl : (Srs.newFromSecret P s n).g1Points.length = n + 3 := srs_length P s n
  have hc : ∀ v : List F, v.length = 1 → ∃ c, commitVector (Srs.newFromSecret P s n) v = some c := fun v hv =>
    ⟨_, (commitVector_iff _ _ _).2 ⟨by omega, fun i hi => getD_eq_of_le (by omega), rfl⟩⟩
  obtain ⟨c0, h0⟩ := hc [0] rfl
  obtain ⟨c1, h1⟩ := hc [1] rfl
  obtain ⟨fw, fi, comT, r, tr1, hp, hiff⟩ := C32_returns env P s n hdig badR1cs (FWitness.new [1] 1)
    (FWitness.new [0] 1) ⟨c0, 1, c1, [x1]⟩ ⟨c0, 1, c0, [x2]⟩ tr (by simp [FWitness.new])
    (by simp [FWitness.new, badR1cs]) (by simp [FWitness.new, badR1cs]) (by simp [badR1cs])
    (by simp [badR1cs]) (by simp [badR1cs]) h1 h0 h0 h0
  have hp' := hp
  simp only [nifsProver, Option.bind_eq_bind, Option.bind_eq_some_iff, pure, Option.some.injEq,
    Prod.mk.injEq] at hp'
  obtain ⟨t, ht, cT, hT, ct, hct, ⟨hfw, hfi, rfl, rfl⟩, rfl⟩ := hp'
  have hr : ct.1 ≠ 0 := by
    rw [generateOne_feedFold env hdig] at hct
    rw [← (Option.some.inj hct)]
    exact hrand _ (seed_lt _)
  obtain ⟨-, -, htl, htc⟩ := (computeT_iff _ _ _ _ _ _).1 ht
  have ht1 : t = [1] := by
    apply ext_getD (d := 0) (by rw [htl]; rfl)
    intro i hi
    have hi' : i < 1 := by rw [htl] at hi; simpa [badR1cs] using hi
    rw [htc i (by rw [← htl]; exact hi)]
    obtain rfl : i = 0 := by omega
    simp [crossTerm, badR1cs, dot, zVec, FWitness.new, Finset.sum_range_succ]
  subst ht1
  have hfw' : fw = ⟨[ct.1], [1]⟩ := by
    rw [← hfw]; simp [foldWitness, FWitness.new]
  obtain ⟨proof, tr2, hpr⟩ := hiff.2 (by rw [hfw']; simp [hr])
  refine ⟨⟨c0, 1, c1, [x1]⟩, ⟨c0, 1, c0, [x2]⟩, fw, fi, cT, ct.1, ct.2, proof, tr2, ?_, ?_, hp, hpr, ?_, ?_⟩
  · simp [FWitness.commit, FWitness.new, h0, h1]
  · simp [FWitness.commit, FWitness.new, h0]
  · exact C32_complete env P s n badR1cs _ _ fw _ _ fi cT ct.1 proof tr ct.2 tr2 (by simp [FWitness.new])
      (by simp [FWitness.new, badR1cs]) (by simp [FWitness.new, badR1cs]) h1 h0 h0 h0 hp hpr
  · rw [Ne, C27_satisfied_iff]
    rintro ⟨-, -, hs, -⟩
    have := hs.row 0 (by rw [hfw']; simp)
    rw [hfw', ← hfi] at this
    simp [badR1cs, dot, foldInstance, Finset.sum_range_succ] at this

/-- **C34** (what holds): if both input pairs satisfy the R1CS, the accepted folded pair does. -/
theorem C34_partial (env : Env F G1 B) (P : PairingGroups F G1 G2 GT) (s : F) (n : ℕ)
    (r1cs : R1CS F) (fw1 fw2 fw : FWitness F) (fi1 fi2 fi : FInstance F G1) (comT : G1) (r : F)
    (proof : NIFSProof F G1) (tr tr1 tr2 : Transcript)
    (h1 : isR1csSatisfied r1cs fi1 fw1 (Srs.newFromSecret P s n) = some (.ok ()))
    (h2 : isR1csSatisfied r1cs fi2 fw2 (Srs.newFromSecret P s n) = some (.ok ()))
    (hp : nifsProver env r1cs fw1 fw2 fi1 fi2 (Srs.newFromSecret P s n) tr = some ((fw, fi, comT, r), tr1))
    (hpr : nifsProve env r fw fi (Srs.newFromSecret P s n) tr1 = some (proof, tr2)) :
    nifsVerify env P proof fi1 fi2 (nifsVerifier proof.r fi1 fi2 comT) comT (Srs.newFromSecret P s n) tr =
      some (.ok (), tr2) ∧
    isR1csSatisfied r1cs (nifsVerifier proof.r fi1 fi2 comT) fw (Srs.newFromSecret P s n) = some (.ok ()) := by
  have hs := C29_prover_satisfied env r1cs _ fw1 fw2 fi1 fi2 tr tr1 fw fi comT r h1 h2 hp
  have hs' := (C27_satisfied_iff _ _ _ _).1 hs
  obtain ⟨hfi, hv⟩ := nifs_accepts env P s n r1cs fw1 fw2 fw fi1 fi2 fi comT r proof tr tr1 tr2 hp hpr
    ((commitVector_iff _ _ _).2 hs'.2.2.2.1) ((commitVector_iff _ _ _).2 hs'.2.2.2.2)
  exact ⟨hv, hfi ▸ hs⟩

/-! ## C35 -/

/-- **C35** (counterexample 1): the verdict of `NIFS::verify` and the challenge it recomputes do not
depend on the commitments and public inputs of the two instances, only on `u1`, `u2`, `com_T` and the
folded instance passed along. -/
theorem C35_challenge_ignores_instances (env : Env F G1 B) (P : PairingGroups F G1 G2 GT) (srs : Srs G1 G2)
    (proof : NIFSProof F G1) (fi1 fi1' fi2 fi2' fi3 : FInstance F G1) (comT : G1) (tr : Transcript)
    (hu1 : fi1.u = fi1'.u) (hu2 : fi2.u = fi2'.u) :
    nifsVerify env P proof fi1 fi2 fi3 comT srs tr = nifsVerify env P proof fi1' fi2' fi3 comT srs tr := by
  unfold nifsVerify
  rw [hu1, hu2]

/-- **C35** (counterexample 2, an attack): since `r` is known before the instances are chosen, for any
running instance `fi2`, any `com_T` and any committed nonzero vectors `e*`, `w*` there is a first
instance (with any `u` and any `x`) whose fold with `fi2` is accepted with openings of `e*` and `w*`. -/
theorem C35_forgery (env : Env F G1 B) (P : PairingGroups F G1 G2 GT) (s : F) (n : ℕ)
    (hdig : ∀ b, 8 ≤ (env.digest b).length) (fi2 : FInstance F G1) (comT : G1) (u1 : F) (x1 : List F)
    (eStar wStar : List F) (cE cW : G1) (hE : commitVector (Srs.newFromSecret P s n) eStar = some cE)
    (hW : commitVector (Srs.newFromSecret P s n) wStar = some cW) (hEne : ∃ x ∈ eStar, x ≠ 0)
    (hWne : ∃ x ∈ wStar, x ≠ 0) (tr : Transcript) :
    ∃ fi1 proof tr2, fi1.u = u1 ∧ fi1.x = x1 ∧
      (nifsVerifier proof.r fi1 fi2 comT).comE = cE ∧ (nifsVerifier proof.r fi1 fi2 comT).comW = cW ∧
      nifsVerify env P proof fi1 fi2 (nifsVerifier proof.r fi1 fi2 comT) comT (Srs.newFromSecret P s n) tr =
        some (.ok (), tr2) := by
  set r := challengeOf env (foldDigest env (tr.data.getD []) u1 fi2.u comT) with hr
  set z := challengeOf env (openDigest env (foldDigest env (tr.data.getD []) u1 fi2.u comT) cE cW) with hz
  obtain ⟨oE, -, hvE⟩ := openVector_verifies P s n hEne hE z
  obtain ⟨oW, -, hvW⟩ := openVector_verifies P s n hWne hW z
  have hcE : (nifsVerifier r ⟨cE - (r • comT + (r * r) • fi2.comE), u1, cW - r • fi2.comW, x1⟩ fi2 comT).comE =
      cE := by simp only [nifsVerifier, foldInstance]; abel
  have hcW : (nifsVerifier r ⟨cE - (r • comT + (r * r) • fi2.comE), u1, cW - r • fi2.comW, x1⟩ fi2 comT).comW =
      cW := by simp only [nifsVerifier, foldInstance]; abel
  obtain ⟨res, tr', hv, hiff⟩ := C33_verify_iff env P s n hdig ⟨r, z, oE, oW⟩
    ⟨cE - (r • comT + (r * r) • fi2.comE), u1, cW - r • fi2.comW, x1⟩ fi2
    (nifsVerifier r ⟨cE - (r • comT + (r * r) • fi2.comE), u1, cW - r • fi2.comW, x1⟩ fi2 comT) comT tr
  refine ⟨_, ⟨r, z, oE, oW⟩, tr', rfl, rfl, hcE, hcW, ?_⟩
  rw [hv]
  have : res = .ok () := hiff.2 ⟨hr, by rw [hcE, hcW], by rw [hcW]; exact (verify_iff _ _ _ _ _ _).1 hvW,
    by rw [hcE]; exact (verify_iff _ _ _ _ _ _).1 hvE⟩
  rw [this]

/-- Equal digests absorbed equal values, or exhibit a collision. -/
theorem foldDigest_binding (env : Env F G1 B) (hF : Function.Injective env.serF)
    (hG : Function.Injective env.serG) (d0 : List UInt8) (L : ℕ) (hL : ∀ b, (env.digest b).length = L)
    (u1 u2 u1' u2' : F) (comT comT' : G1)
    (h : foldDigest env d0 u1 u2 comT = foldDigest env d0 u1' u2' comT') :
    (u1 = u1' ∧ u2 = u2' ∧ comT = comT') ∨
    ∃ p ∈ [(d0 ++ env.serF u1, d0 ++ env.serF u1'),
        (env.digest (d0 ++ env.serF u1) ++ env.serF u2, env.digest (d0 ++ env.serF u1') ++ env.serF u2'),
        (env.digest (env.digest (d0 ++ env.serF u1) ++ env.serF u2) ++ env.serG comT,
          env.digest (env.digest (d0 ++ env.serF u1') ++ env.serF u2') ++ env.serG comT')],
      p.1 ≠ p.2 ∧ env.digest p.1 = env.digest p.2 := by
  unfold foldDigest at h
  by_cases h3 : env.digest (env.digest (d0 ++ env.serF u1) ++ env.serF u2) ++ env.serG comT =
      env.digest (env.digest (d0 ++ env.serF u1') ++ env.serF u2') ++ env.serG comT'
  swap
  · right; exact ⟨(_, _), List.mem_cons_of_mem _ (List.mem_cons_of_mem _ (List.mem_cons_self ..)), h3, h⟩
  obtain ⟨h3a, h3b⟩ := List.append_inj h3 (by rw [hL, hL])
  by_cases h2 : env.digest (d0 ++ env.serF u1) ++ env.serF u2 =
      env.digest (d0 ++ env.serF u1') ++ env.serF u2'
  swap
  · right; exact ⟨(_, _), List.mem_cons_of_mem _ (List.mem_cons_self ..), h2, h3a⟩
  obtain ⟨h2a, h2b⟩ := List.append_inj h2 (by rw [hL, hL])
  by_cases h1 : d0 ++ env.serF u1 = d0 ++ env.serF u1'
  swap
  · right; exact ⟨(_, _), List.mem_cons_self .., h1, h2a⟩
  left
  exact ⟨hF (List.append_cancel_left h1), hF h2b, hG h3b⟩

/-- The byte strings that a hash with output `digest` has to hash when `u1`, `u2`, `com_T`, and then the commitments
`com_E`, `com_W` of the folded instance, are absorbed one after the other, starting from the bytes `d0`. -/
def absorbed (env : Env F G1 B) (d0 : List UInt8) (u1 u2 : F) (comT comE comW : G1) : List (List UInt8) :=
  let d1 := env.digest (d0 ++ env.serF u1)
  let d2 := env.digest (d1 ++ env.serF u2)
  let d3 := env.digest (d2 ++ env.serG comT)
  let d4 := env.digest (d3 ++ env.serG comE)
  [d0 ++ env.serF u1, d1 ++ env.serF u2, d2 ++ env.serG comT, d3 ++ env.serG comE, d4 ++ env.serG comW]

/-- **C35** (what holds, prover): two runs of `NIFS::prover` from the same transcript, for whatever R1CS, witnesses and
instances, that leave the transcript with the same digest (from which `r` is drawn) had instances with the same `u1` and
the same `u2` and computed the same `com_T`, or exhibit two different absorbed strings, at the same place, with the same digest. -/
theorem C35_binding_partial (env : Env F G1 B) (hF : Function.Injective env.serF)
    (hG : Function.Injective env.serG) (L : ℕ) (hL : ∀ b, (env.digest b).length = L)
    (r1cs r1cs' : R1CS F) (fw1 fw2 fw1' fw2' : FWitness F) (fi1 fi2 fi1' fi2' : FInstance F G1) (srs srs' : Srs G1 G2)
    (tr : Transcript) (fw fw' : FWitness F) (fi fi' : FInstance F G1) (comT comT' : G1) (r r' : F) (t t' : Transcript)
    (h : nifsProver env r1cs fw1 fw2 fi1 fi2 srs tr = some ((fw, fi, comT, r), t))
    (h' : nifsProver env r1cs' fw1' fw2' fi1' fi2' srs' tr = some ((fw', fi', comT', r'), t'))
    (hd : t.data = t'.data) :
    r = r' ∧ ((fi1.u = fi1'.u ∧ fi2.u = fi2'.u ∧ comT = comT') ∨
      ∃ i < 3, ∃ x y, (absorbed env (tr.data.getD []) fi1.u fi2.u comT 0 0)[i]? = some x ∧
        (absorbed env (tr.data.getD []) fi1'.u fi2'.u comT' 0 0)[i]? = some y ∧
        x ≠ y ∧ env.digest x = env.digest y) := by
  have key : ∀ (r1cs : R1CS F) (fw1 fw2 : FWitness F) (fi1 fi2 : FInstance F G1) (srs : Srs G1 G2) (fw : FWitness F)
      (fi : FInstance F G1) (comT : G1) (r : F) (t : Transcript),
      nifsProver env r1cs fw1 fw2 fi1 fi2 srs tr = some ((fw, fi, comT, r), t) →
      t.data = some (foldDigest env (tr.data.getD []) fi1.u fi2.u comT) ∧
        r = challengeOf env (foldDigest env (tr.data.getD []) fi1.u fi2.u comT) := by
    intro r1cs fw1 fw2 fi1 fi2 srs fw fi comT r t h
    simp only [nifsProver, Option.bind_eq_bind, Option.bind_eq_some_iff, Option.pure_def, Option.some.injEq,
      Prod.mk.injEq] at h
    obtain ⟨T, -, cT, -, ct, hct, ⟨-, -, rfl, rfl⟩, rfl⟩ := h
    rw [generateOne_eq, feedFold_eq] at hct
    split at hct
    · cases hct
    · rw [Option.some.injEq] at hct
      subst hct
      exact ⟨rfl, rfl⟩
  obtain ⟨k1, k2⟩ := key _ _ _ _ _ _ _ _ _ _ _ h
  obtain ⟨k1', k2'⟩ := key _ _ _ _ _ _ _ _ _ _ _ h'
  rw [k1, k1', Option.some.injEq] at hd
  refine ⟨by rw [k2, k2', hd], ?_⟩
  rcases foldDigest_binding env hF hG _ L hL _ _ _ _ _ _ hd with h | ⟨p, hp, h1, h2⟩
  · exact Or.inl h
  · right
    simp only [List.mem_cons, List.not_mem_nil, or_false] at hp
    rcases hp with rfl | rfl | rfl
    · exact ⟨0, by norm_num, _, _, rfl, rfl, h1, h2⟩
    · exact ⟨1, by norm_num, _, _, rfl, rfl, h1, h2⟩
    · exact ⟨2, by norm_num, _, _, rfl, rfl, h1, h2⟩

/-- **C35** (what holds, verifier): two accepting runs of `NIFS::verify` from the same transcript, for whatever proofs
and instances, that leave the transcript with the same digest had the same `u1`, `u2`, `com_T` and the same commitments in
the folded instance, or exhibit two different absorbed strings, at the same place, with the same digest. -/
theorem C35_verify_binding_partial (env : Env F G1 B) (hF : Function.Injective env.serF)
    (hG : Function.Injective env.serG) (L : ℕ) (hL : ∀ b, (env.digest b).length = L) (P : PairingGroups F G1 G2 GT)
    (proof proof' : NIFSProof F G1) (fi1 fi2 fi3 fi1' fi2' fi3' : FInstance F G1) (comT comT' : G1) (srs srs' : Srs G1 G2)
    (tr t t' : Transcript)
    (h : nifsVerify env P proof fi1 fi2 fi3 comT srs tr = some (.ok (), t))
    (h' : nifsVerify env P proof' fi1' fi2' fi3' comT' srs' tr = some (.ok (), t'))
    (hd : t.data = t'.data) :
    (fi1.u = fi1'.u ∧ fi2.u = fi2'.u ∧ comT = comT' ∧ fi3.comE = fi3'.comE ∧ fi3.comW = fi3'.comW) ∨
      ∃ (i : ℕ) (x y : List UInt8), (absorbed env (tr.data.getD []) fi1.u fi2.u comT fi3.comE fi3.comW)[i]? = some x ∧
        (absorbed env (tr.data.getD []) fi1'.u fi2'.u comT' fi3'.comE fi3'.comW)[i]? = some y ∧
        x ≠ y ∧ env.digest x = env.digest y := by
  have key : ∀ (proof : NIFSProof F G1) (fi1 fi2 fi3 : FInstance F G1) (comT : G1) (srs : Srs G1 G2) (t : Transcript),
      nifsVerify env P proof fi1 fi2 fi3 comT srs tr = some (.ok (), t) →
      t.data = some (openDigest env (foldDigest env (tr.data.getD []) fi1.u fi2.u comT) fi3.comE fi3.comW) := by
    intro proof fi1 fi2 fi3 comT srs t h
    simp only [nifsVerify, Option.bind_eq_bind, Option.bind_eq_some_iff] at h
    obtain ⟨res, hres, h⟩ := h
    split at h
    · simp at h
    · rename_i hok
      simp only [verifyChallenge, Option.bind_eq_bind, Option.bind_eq_some_iff] at hres
      obtain ⟨ct, hct, hres⟩ := hres
      rw [generateOne_eq, feedFold_eq] at hct
      split at hct
      · cases hct
      rw [Option.some.injEq] at hct
      subst hct
      have hres2 : res.2 = ⟨some (foldDigest env (tr.data.getD []) fi1.u fi2.u comT), true⟩ := by
        split at hres <;> (rw [Option.pure_def, Option.some.injEq] at hres; subst hres; rfl)
      rw [hres2] at h
      simp only [verifyOpening, Option.bind_eq_bind, Option.bind_eq_some_iff] at h
      obtain ⟨ct, hct, h⟩ := h
      rw [generateOne_eq] at hct
      split at hct
      · cases hct
      rw [Option.some.injEq] at hct
      subst hct
      split at h
      · simp at h
      split at h
      · simp at h
      split at h
      · simp at h
      rw [Option.pure_def, Option.some.injEq, Prod.mk.injEq] at h
      obtain ⟨-, rfl⟩ := h
      rfl
  have k := key _ _ _ _ _ _ _ h
  have k' := key _ _ _ _ _ _ _ h'
  rw [k, k', Option.some.injEq] at hd
  unfold openDigest at hd
  set D := foldDigest env (tr.data.getD []) fi1.u fi2.u comT with hD
  set D' := foldDigest env (tr.data.getD []) fi1'.u fi2'.u comT' with hD'
  by_cases h5 : env.digest (D ++ env.serG fi3.comE) ++ env.serG fi3.comW =
      env.digest (D' ++ env.serG fi3'.comE) ++ env.serG fi3'.comW
  swap
  · exact Or.inr ⟨4, _, _, rfl, rfl, h5, hd⟩
  obtain ⟨h5a, h5b⟩ := List.append_inj h5 (by rw [hL, hL])
  by_cases h4 : D ++ env.serG fi3.comE = D' ++ env.serG fi3'.comE
  swap
  · exact Or.inr ⟨3, _, _, rfl, rfl, h4, h5a⟩
  obtain ⟨h4a, h4b⟩ := List.append_inj h4 (by rw [hD, hD']; unfold foldDigest; rw [hL, hL])
  rcases foldDigest_binding env hF hG _ L hL _ _ _ _ _ _ h4a with ⟨a1, a2, a3⟩ | ⟨p, hp, h1, h2⟩
  · exact Or.inl ⟨a1, a2, a3, hG h4b, hG h5b⟩
  · right
    simp only [List.mem_cons, List.not_mem_nil, or_false] at hp
    rcases hp with rfl | rfl | rfl
    · exact ⟨0, _, _, rfl, rfl, h1, h2⟩
    · exact ⟨1, _, _, rfl, rfl, h1, h2⟩
    · exact ⟨2, _, _, rfl, rfl, h1, h2⟩

/-! ## Non-vacuity -/

/-- A stand-in environment over `ℚ` with 32-byte digests and challenges that are never zero. -/
def toyEnv : Env ℚ ℚ ℚ where
  digest := fun b => (b ++ List.replicate 32 0).take 32
  serF := fun _ => List.replicate 32 0
  serG := fun _ => List.replicate 96 0
  serB := fun _ => List.replicate 48 0
  toBase := fun b => (b.length : ℚ)
  toScalar := fun x => x
  rand := fun seed k => (seed + k + 1 : ℕ)

theorem toyEnv_digest (b : List UInt8) : (toyEnv.digest b).length = 32 := by simp [toyEnv]

/-- Sign, numerator and denominator in unary. -/
def serRat (x : ℚ) : List UInt8 :=
  (if 0 ≤ x.num then 1 else 3) :: (List.replicate x.num.natAbs 1 ++ List.replicate x.den 2)

theorem serRat_injective : Function.Injective serRat := by
  intro x y h
  unfold serRat at h
  rw [List.cons.injEq] at h
  obtain ⟨h0, h⟩ := h
  have h1 := congrArg (List.count 1) h
  have h2 := congrArg (List.count 2) h
  simp only [List.count_append, List.count_replicate] at h1 h2
  have e1 : ¬ ((1 : UInt8) == 2) = true := by decide
  have e2 : ¬ ((2 : UInt8) == 1) = true := by decide
  simp only [e1, e2, Bool.false_eq_true, if_false, beq_self_eq_true, if_true, Nat.add_zero, Nat.zero_add] at h1 h2
  have hs : 0 ≤ x.num ↔ 0 ≤ y.num := by
    by_cases hx : 0 ≤ x.num <;> by_cases hy : 0 ≤ y.num <;> simp [hx, hy] at h0 ⊢
  exact Rat.ext (by omega) h2

/-- A stand-in environment with injective serialisation. -/
def countEnv : Env ℚ ℚ ℚ :=
  { toyEnv with
    serF := serRat
    serG := serRat }

/-- The hypotheses of `C35_binding_partial` and `C35_verify_binding_partial` are met by a concrete environment in which
the prover returns and the verifier accepts. -/
example : Function.Injective countEnv.serF ∧ Function.Injective countEnv.serG ∧
    (∀ b, (countEnv.digest b).length = 32) ∧ ∃ fi1 fi2 fw fi comT r tr1 proof tr2,
      nifsProver countEnv badR1cs (FWitness.new [1] 1) (FWitness.new [0] 1) fi1 fi2
        (Srs.newFromSecret (trivialGroups ℚ) 7 4) .default = some ((fw, fi, comT, r), tr1) ∧
      nifsVerify countEnv (trivialGroups ℚ) proof fi1 fi2 (nifsVerifier proof.r fi1 fi2 comT) comT
        (Srs.newFromSecret (trivialGroups ℚ) 7 4) .default =
        some (.ok (), tr2) := by
  refine ⟨serRat_injective, serRat_injective, fun b => toyEnv_digest b, ?_⟩
  obtain ⟨fi1, fi2, fw, fi, comT, r, tr1, proof, tr2, -, -, h1, -, h3, -⟩ := C34_accepts_unsatisfied countEnv
    (trivialGroups ℚ) 7 4 (fun b => by rw [show countEnv.digest b = toyEnv.digest b from rfl, toyEnv_digest]; norm_num)
    (fun seed k => by simp only [countEnv, toyEnv]; positivity) 0 0 .default
  exact ⟨fi1, fi2, fw, fi, comT, r, tr1, proof, tr2, h1, h3⟩

/-- `C32_returns`, `C32_complete`, `C34_accepts_unsatisfied` apply to a concrete environment. -/
example : ∃ fi1 fi2 fw fi comT r tr1 proof tr2,
    nifsProver toyEnv badR1cs (FWitness.new [1] 1) (FWitness.new [0] 1) fi1 fi2
      (Srs.newFromSecret (trivialGroups ℚ) 7 4) .default = some ((fw, fi, comT, r), tr1) ∧
    nifsProve toyEnv r fw fi (Srs.newFromSecret (trivialGroups ℚ) 7 4) tr1 = some (proof, tr2) := by
  obtain ⟨fi1, fi2, fw, fi, comT, r, tr1, proof, tr2, -, -, h1, h2, -⟩ := C34_accepts_unsatisfied toyEnv
    (trivialGroups ℚ) 7 4 (fun b => by rw [toyEnv_digest]; norm_num)
    (fun seed k => by simp only [toyEnv]; positivity) 0 0 .default
  exact ⟨fi1, fi2, fw, fi, comT, r, tr1, proof, tr2, h1, h2⟩

end Verif.Nova

import Verif.Nova.FiatShamir
import Verif.Nova.History

/-!
# C116: an IVC proof together with a check of the folded instance

`IVC::verify` (`nova/src/ivc/ivc_verifier.rs`) checks openings of the folded instance only.  A user may add the check that the
folded instance is satisfied.  This does not make up for the missing commitments in the transcript: the attack of C108 works
within IVC, where the fresh instance is tied to the state by its public input.
-/

set_option linter.constructorNameAsVariable false
set_option linter.unusedSectionVars false
set_option linter.unusedVariables false

namespace Verif.Nova

open Verif.Ark Verif.Kzg Verif.Oracle

variable {F G1 G2 GT B : Type} [Field F] [DecidableEq F] [AddCommGroup G1] [Module F G1] [DecidableEq G1]
  [AddCommGroup G2] [Module F G2] [AddCommGroup GT] [Module F GT] [DecidableEq GT]
  [Field B] [DecidableEq B]

/-- **C116** (false of the code): for every object after the first step, whatever its counter and states, there is a satisfied
accumulated instance `U` with its witness and a cross term, such that, unless the folding challenge or the hash of the state
is zero, there is a proof which `IVC::verify` accepts for this object and whose folded instance passes `is_r1cs_satisfied`,
although no witness satisfies the fresh instance of the step. -/
theorem C116_decider_fooled (env : Env F G1 B) (P : PairingGroups F G1 G2 GT) (s : F) (n : ℕ)
    (hdig : ∀ b, 8 ≤ (env.digest b).length) (a : Aug F G1 B) (h0 : a.i ≠ 0) (ht : a.trivialInstance.comE = 0)
    (tr : Transcript) :
    ∃ (comT : G1) (U : FInstance F G1),
      isR1csSatisfied trapR1cs U (FWitness.new [1, 1] 2) (Srs.newFromSecret P s n) = some (.ok ()) ∧
      (challengeOf env (foldDigest env (tr.data.getD []) 1 1 comT) ≠ 0 →
        env.toScalar (stateHash env a.i a.z0 a.zi U) ≠ 0 →
        ∃ (zk : ZkIVCProof F G1) (proof : NIFSProof F G1) (fw : FWitness F) (tr' : Transcript),
          zk.bigUi = U ∧ zk.comT = some comT ∧ zk.foldedUProof = some proof ∧
          ivcVerify env P (Srs.newFromSecret P s n) a zk tr = some (.ok (), tr') ∧
          isR1csSatisfied trapR1cs (nifsVerifier proof.r zk.ui zk.bigUi comT) fw (Srs.newFromSecret P s n) =
            some (.ok ()) ∧
          ∀ w : List F, isR1csSatisfied trapR1cs zk.ui (FWitness.new w 2) (Srs.newFromSecret P s n) ≠ some (.ok ())) := by
  obtain ⟨cT, hT⟩ := commits_ex P s n [0, 1] (by simp)
  obtain ⟨c2, h2⟩ := commits_ex P s n [1, 1] (by simp)
  obtain ⟨c0, hz0⟩ := commits_ex P s n [0, 0] (by simp)
  have hc0 : c0 = 0 := by
    obtain ⟨-, -, h⟩ := (commitVector_iff _ _ _).1 hz0
    rw [h]
    refine Finset.sum_eq_zero fun i _ => ?_
    have : ([0, 0] : List F).getD i 0 = 0 := by
      rcases i with _ | _ | i <;> simp
    rw [this, zero_smul]
  subst hc0
  refine ⟨cT, ⟨0, 1, c2, [0]⟩, ?_, ?_⟩
  · rw [C27_satisfied_iff]
    refine ⟨rfl, rfl, ⟨rfl, le_rfl, rfl, fun i hi => ?_⟩, (commitVector_iff _ _ _).1 h2, (commitVector_iff _ _ _).1 hz0⟩
    simp only [FWitness.new, List.length_replicate] at hi
    obtain rfl | rfl : i = 0 ∨ i = 1 := by omega
    · simp [trapR1cs, FWitness.new, dot, Finset.sum_range_succ]
    · simp [trapR1cs, FWitness.new, dot, Finset.sum_range_succ]
  · intro hr hh
    set r := challengeOf env (foldDigest env (tr.data.getD []) 1 1 cT) with hrdef
    set h := env.toScalar (stateHash env a.i a.z0 a.zi ⟨0, 1, c2, [0]⟩) with hhdef
    obtain ⟨cW, hW⟩ := commits_ex P s n [r / h, (1 + r) * (1 + r) * h / r] (by simp)
    obtain ⟨cE, hE⟩ := commits_ex P s n [0, r] (by simp)
    have hcE : cE = r • cT := by
      obtain ⟨-, -, h⟩ := (commitVector_iff _ _ _).1 hE
      obtain ⟨-, -, h'⟩ := (commitVector_iff _ _ _).1 hT
      rw [h, h', Finset.smul_sum]
      refine Finset.sum_congr rfl fun i _ => ?_
      rw [smul_smul]
      congr 1
      rcases i with _ | _ | i <;> simp
    have hfold : nifsVerifier r ⟨0, 1, cW - r • c2, [h]⟩ ⟨0, 1, c2, [0]⟩ cT = ⟨cE, 1 + r, cW, [h]⟩ := by
      simp [nifsVerifier, foldInstance, hcE]
    set z := challengeOf env (openDigest env (foldDigest env (tr.data.getD []) 1 1 cT) cE cW) with hz
    obtain ⟨oE, -, hvE⟩ := openVector_verifies P s n ⟨r, by simp, hr⟩ hE z
    obtain ⟨oW, -, hvW⟩ := openVector_verifies P s n ⟨r / h, by simp, div_ne_zero hr hh⟩ hW z
    obtain ⟨res, tr', hv, hiff⟩ := C33_verify_iff env P s n hdig ⟨r, z, oE, oW⟩ ⟨0, 1, cW - r • c2, [h]⟩ ⟨0, 1, c2, [0]⟩
      ⟨cE, 1 + r, cW, [h]⟩ cT tr
    have hok : res = .ok () := hiff.2 ⟨hrdef, hz, (verify_iff _ _ _ _ _ _).1 hvW, (verify_iff _ _ _ _ _ _).1 hvE⟩
    subst hok
    refine ⟨⟨⟨0, 1, cW - r • c2, [h]⟩, ⟨0, 1, c2, [0]⟩, some cT, some ⟨r, z, oE, oW⟩⟩, ⟨r, z, oE, oW⟩,
      ⟨[0, r], [r / h, (1 + r) * (1 + r) * h / r]⟩, tr', rfl, rfl, rfl, ?_, ?_, ?_⟩
    · rw [C41_verify_iff env P _ a h0]
      refine ⟨cT, ⟨r, z, oE, oW⟩, rfl, rfl, rfl, ht.symm, rfl, ?_⟩
      rw [← foldInstance_eq]
      change nifsVerify env P _ _ _ (nifsVerifier r _ _ cT) cT _ tr = _
      rw [hfold]
      exact hv
    · dsimp only
      rw [hfold, C27_satisfied_iff]
      refine ⟨rfl, rfl, ⟨rfl, le_rfl, rfl, fun i hi => ?_⟩, (commitVector_iff _ _ _).1 hW, (commitVector_iff _ _ _).1 hE⟩
      simp only [List.length_cons, List.length_nil] at hi
      obtain rfl | rfl : i = 0 ∨ i = 1 := by omega
      · simp [trapR1cs, dot, Finset.sum_range_succ]
        field_simp
      · simp [trapR1cs, dot, Finset.sum_range_succ]
        field_simp
    · intro w hs
      rw [C27_satisfied_iff] at hs
      obtain ⟨hl, -, hs, -, -⟩ := hs
      have hl' : w.length = 2 := hl.symm
      obtain ⟨w0, w1, rfl⟩ := List.length_eq_two.1 hl'
      have r0 := hs.row 0 (by simp [FWitness.new])
      have r1 := hs.row 1 (by simp [FWitness.new])
      simp [trapR1cs, FWitness.new, dot, Finset.sum_range_succ] at r0 r1
      rcases r1 with r1 | r1
      · rw [r1, zero_mul] at r0
        exact zero_ne_one r0
      · exact hh r1

/-- **C116** (what holds): a fresh instance fits one state.  If proofs with the same fresh instance are accepted for two
objects after the first step, the two objects have the same counter, initial state and current state, and the proofs the same
accumulated instance, or two different states that collide are exhibited. -/
theorem C116_one_state_partial (env : Env F G1 B) (LF LG LB : ℕ) (hLF : ∀ x, (env.serF x).length = LF)
    (hLG : ∀ x, (env.serG x).length = LG) (hLB : ∀ x, (env.serB x).length = LB) (hpos : 0 < LF)
    (hF : Function.Injective env.serF) (hG : Function.Injective env.serG) (hB : Function.Injective env.serB)
    (P P' : PairingGroups F G1 G2 GT) (srs srs' : Srs G1 G2) (a a' : Aug F G1 B) (h0 : a.i ≠ 0) (h0' : a'.i ≠ 0)
    (zk zk' : ZkIVCProof F G1) (tr t tr' t' : Transcript) (hx : zk.ui.x = zk'.ui.x)
    (h : ivcVerify env P srs a zk tr = some (.ok (), t)) (h' : ivcVerify env P' srs' a' zk' tr' = some (.ok (), t')) :
    (a.i = a'.i ∧ a.z0 = a'.z0 ∧ a.zi = a'.zi ∧ zk.bigUi = zk'.bigUi) ∨
      StateCollision env a.i a.z0 a.zi zk.bigUi a'.i a'.z0 a'.zi zk'.bigUi := by
  have e := (verify_input h0 h).1
  have e' := (verify_input h0' h').1
  rw [hx, e', Option.some.injEq] at e
  by_cases hh : stateHash env a.i a.z0 a.zi zk.bigUi = stateHash env a'.i a'.z0 a'.zi zk'.bigUi
  · rcases C39_binding env LF LG LB hLF hLG hLB hpos hF hG hB _ _ _ _ _ _ zk.bigUi zk'.bigUi
      (by rw [hashIo_eq, hashIo_eq]; exact hh) with h1 | h1 | h1
    · exact .inl h1
    · exact .inr (.inl h1)
    · exact .inr (.inr (.inl ⟨h1.1, hh⟩))
  · exact .inr (.inr (.inr ⟨hh, e.symm⟩))

/-- **C116** (what holds): the completeness of the additional check.  If the fresh and the accumulated pair are satisfied, the
folded pair the prover computes passes it together with `NIFS::verify`, whatever the transcript. -/
theorem C116_honest_partial (env : Env F G1 B) (P : PairingGroups F G1 G2 GT) (s : F) (n : ℕ)
    (r1cs : R1CS F) (a : Aug F G1 B) (h0 : a.i ≠ 0) (fw1 fw2 fw : FWitness F) (fi1 fi2 fi : FInstance F G1) (comT : G1) (r : F)
    (proof : NIFSProof F G1) (tr tr1 tr2 : Transcript)
    (h1 : isR1csSatisfied r1cs fi1 fw1 (Srs.newFromSecret P s n) = some (.ok ()))
    (h2 : isR1csSatisfied r1cs fi2 fw2 (Srs.newFromSecret P s n) = some (.ok ()))
    (hx : fi1.x.head? = some (env.toScalar (stateHash env a.i a.z0 a.zi fi2))) (hE : fi1.comE = a.trivialInstance.comE)
    (hu : fi1.u = 1)
    (hp : nifsProver env r1cs fw1 fw2 fi1 fi2 (Srs.newFromSecret P s n) tr = some ((fw, fi, comT, r), tr1))
    (hpr : nifsProve env r fw fi (Srs.newFromSecret P s n) tr1 = some (proof, tr2)) :
    ivcVerify env P (Srs.newFromSecret P s n) a ⟨fi1, fi2, some comT, some proof⟩ tr = some (.ok (), tr2) ∧
    isR1csSatisfied r1cs (nifsVerifier proof.r fi1 fi2 comT) fw (Srs.newFromSecret P s n) = some (.ok ()) := by
  obtain ⟨hv, hs⟩ := C34_partial env P s n r1cs fw1 fw2 fw fi1 fi2 fi comT r proof tr tr1 tr2 h1 h2 hp hpr
  refine ⟨?_, hs⟩
  rw [C41_verify_iff env P _ a h0]
  refine ⟨comT, proof, rfl, rfl, hx, hE, hu, ?_⟩
  rw [← foldInstance_eq]
  exact hv

/-- Non-vacuity: with the stand-in environment neither the challenge nor the hash of the state is zero, so the attack succeeds
for an object in step 3 with states 10 and 99. -/
example (tr : Transcript) : ∃ (zk : ZkIVCProof ℚ ℚ) (proof : NIFSProof ℚ ℚ) (comT : ℚ) (fw : FWitness ℚ) (tr' : Transcript),
    ivcVerify toyEnv (trivialGroups ℚ) (Srs.newFromSecret (trivialGroups ℚ) 7 1)
      ⟨3, ⟨0, 1, 0, [0]⟩, 10, 99, none, none, none⟩ zk tr = some (.ok (), tr') ∧
    isR1csSatisfied trapR1cs (nifsVerifier proof.r zk.ui zk.bigUi comT) fw (Srs.newFromSecret (trivialGroups ℚ) 7 1) =
      some (.ok ()) := by
  obtain ⟨comT, U, -, h⟩ := C116_decider_fooled toyEnv (trivialGroups ℚ) 7 1
    (fun b => by rw [toyEnv_digest]; norm_num) (⟨3, ⟨0, 1, 0, [0]⟩, 10, 99, none, none, none⟩ : Aug ℚ ℚ ℚ) (by norm_num) rfl tr
  obtain ⟨zk, proof, fw, tr', -, -, -, h1, h2, -⟩ := h (by
    unfold challengeOf
    generalize fromLeBytes _ = x
    simp only [toyEnv]
    push_cast
    positivity) (by
    have : (toyEnv.digest (stateBytes toyEnv 3 10 99 U)).length = 32 := toyEnv_digest _
    simp only [stateHash]
    change ((toyEnv.digest (stateBytes toyEnv 3 10 99 U)).length : ℚ) ≠ 0
    rw [this]
    norm_num)
  exact ⟨zk, proof, comT, fw, tr', h1, h2⟩

/-- Non-vacuity: proofs accepted for two objects in different states, with injective serialisations of fixed widths. -/
example [Fact (Nat.Prime 7)] (tr : Transcript) : ∃ (zk zk' : ZkIVCProof (ZMod 7) (ZMod 7)) (t t' : Transcript),
    ivcVerify byteEnv (trivialGroups (ZMod 7)) (Srs.newFromSecret (trivialGroups (ZMod 7)) 3 1)
      (⟨1, ⟨0, 1, 0, []⟩, 5, 6, none, none, none⟩ : Aug (ZMod 7) (ZMod 7) (ZMod 7)) zk tr = some (.ok (), t) ∧
    ivcVerify byteEnv (trivialGroups (ZMod 7)) (Srs.newFromSecret (trivialGroups (ZMod 7)) 3 1)
      (⟨2, ⟨0, 1, 0, []⟩, 5, 4, none, none, none⟩ : Aug (ZMod 7) (ZMod 7) (ZMod 7)) zk' tr = some (.ok (), t') := by
  have h1 : (1 : ZMod 7) ≠ 0 := by decide +revert
  have h2 : (2 : ZMod 7) ≠ 0 := by decide +revert
  obtain ⟨t, h⟩ := C91_any_state_accepted byteEnv (trivialGroups (ZMod 7)) 3 1 (fun b => by simp [byteEnv])
    (⟨1, ⟨0, 1, 0, []⟩, 5, 6, none, none, none⟩ : Aug (ZMod 7) (ZMod 7) (ZMod 7)) h1 rfl tr
  obtain ⟨t', h'⟩ := C91_any_state_accepted byteEnv (trivialGroups (ZMod 7)) 3 1 (fun b => by simp [byteEnv])
    (⟨2, ⟨0, 1, 0, []⟩, 5, 4, none, none, none⟩ : Aug (ZMod 7) (ZMod 7) (ZMod 7)) h2 rfl tr
  exact ⟨_, _, t, t', h, h'⟩

end Verif.Nova

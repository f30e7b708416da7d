import Verif.Nova.Circuit
import Verif.Kzg.SetupSize

/-!
# C111 (Nova): the size of a setup
-/

set_option linter.unusedSectionVars false

namespace Verif.Nova

open Verif.Ark Verif.Kzg

variable {F G1 G2 GT B : Type} [Field F] [DecidableEq F] [AddCommGroup G1] [Module F G1] [DecidableEq G1]
  [AddCommGroup G2] [Module F G2] [AddCommGroup GT] [Module F GT] [DecidableEq GT] [Field B] [DecidableEq B]

theorem commitVector_refines (P : PairingGroups F G1 G2 GT) (s : F) {n n' : ℕ} (h : n ≤ n') (v : List F) :
    Refines (commitVector (Srs.newFromSecret P s n) v) (commitVector (Srs.newFromSecret P s n') v) :=
  (C111_kzg_larger_setup P s h [] v 0).2.1

theorem openVector_refines (P : PairingGroups F G1 G2 GT) (s : F) {n n' : ℕ} (h : n ≤ n') (v : List F) (z : F) :
    Refines (openVector (Srs.newFromSecret P s n) v z) (openVector (Srs.newFromSecret P s n') v z) :=
  (C111_kzg_larger_setup P s h [] v z).2.2.2

theorem witnessCommit_refines (P : PairingGroups F G1 G2 GT) (s : F) {n n' : ℕ} (h : n ≤ n') (fw : FWitness F) (x : List F) :
    Refines (fw.commit (Srs.newFromSecret P s n) x) (fw.commit (Srs.newFromSecret P s n') x) :=
  Refines.bind (commitVector_refines P s h _) fun _ =>
    Refines.bind (commitVector_refines P s h _) fun _ => Refines.refl _

theorem nifsProver_refines (env : Env F G1 B) (P : PairingGroups F G1 G2 GT) (s : F) {n n' : ℕ} (h : n ≤ n') (r1cs : R1CS F)
    (fw1 fw2 : FWitness F) (fi1 fi2 : FInstance F G1) (tr : Transcript) :
    Refines (nifsProver env r1cs fw1 fw2 fi1 fi2 (Srs.newFromSecret P s n) tr)
      (nifsProver env r1cs fw1 fw2 fi1 fi2 (Srs.newFromSecret P s n') tr) :=
  Refines.bind (Refines.refl _) fun _ => Refines.bind (commitVector_refines P s h _) fun _ => Refines.refl _

theorem nifsProve_refines (env : Env F G1 B) (P : PairingGroups F G1 G2 GT) (s : F) {n n' : ℕ} (h : n ≤ n') (r : F)
    (fw : FWitness F) (fi : FInstance F G1) (tr : Transcript) :
    Refines (nifsProve env r fw fi (Srs.newFromSecret P s n) tr) (nifsProve env r fw fi (Srs.newFromSecret P s n') tr) :=
  Refines.bind (Refines.refl _) fun _ => Refines.bind (openVector_refines P s h _ _) fun _ =>
    Refines.bind (openVector_refines P s h _ _) fun _ => Refines.refl _

theorem ivcProve_refines (env : Env F G1 B) (P : PairingGroups F G1 G2 GT) (s : F) {n n' : ℕ} (h : n ≤ n') (a : Aug F G1 B)
    (r1cs : R1CS F) (p : IVCProof F G1) (tr : Transcript) :
    Refines (ivcProve env (Srs.newFromSecret P s n) a r1cs p tr) (ivcProve env (Srs.newFromSecret P s n') a r1cs p tr) := by
  unfold ivcProve
  split
  · exact Refines.bind (nifsProver_refines env P s h _ _ _ _ _ _) fun _ =>
      Refines.bind (nifsProve_refines env P s h _ _ _ _) fun _ => Refines.refl _
  · exact Refines.refl _

theorem isR1csSatisfied_refines (P : PairingGroups F G1 G2 GT) (s : F) {n n' : ℕ} (h : n ≤ n') (r1cs : R1CS F)
    (fi : FInstance F G1) (fw : FWitness F) :
    Refines (isR1csSatisfied r1cs fi fw (Srs.newFromSecret P s n)) (isR1csSatisfied r1cs fi fw (Srs.newFromSecret P s n')) := by
  unfold isR1csSatisfied
  split
  · exact Refines.refl _
  split
  · exact Refines.refl _
  refine Refines.bind (Refines.refl _) fun _ => Refines.bind (Refines.refl _) fun _ => Refines.bind ?_ fun _ => Refines.refl _
  refine Refines.bind (commitVector_refines P s h _) fun cw => ?_
  split
  · exact Refines.bind (commitVector_refines P s h _) fun _ => Refines.refl _
  · exact Refines.refl _

/-- **C111** (Nova): whatever `FWitness::commit`, `create_trivial_pair`, `is_r1cs_satisfied`, `NIFS::prover`, `NIFS::prove`
and `IVC::prove` return under a setup, they return under every larger setup with the same secret. -/
theorem C111_nova_larger_setup (env : Env F G1 B) (P : PairingGroups F G1 G2 GT) (s : F) {n n' : ℕ} (h : n ≤ n') :
    (∀ (fw : FWitness F) x r, fw.commit (Srs.newFromSecret P s n) x = some r →
      fw.commit (Srs.newFromSecret P s n') x = some r) ∧
    (∀ xLen wLen (r : FWitness F × FInstance F G1), createTrivialPair (F := F) xLen wLen (Srs.newFromSecret P s n) = some r →
      createTrivialPair (F := F) xLen wLen (Srs.newFromSecret P s n') = some r) ∧
    (∀ (r1cs : R1CS F) (fi : FInstance F G1) (fw : FWitness F) r, isR1csSatisfied r1cs fi fw (Srs.newFromSecret P s n) = some r →
      isR1csSatisfied r1cs fi fw (Srs.newFromSecret P s n') = some r) ∧
    (∀ (r1cs : R1CS F) fw1 fw2 fi1 fi2 tr r, nifsProver env r1cs fw1 fw2 fi1 fi2 (Srs.newFromSecret P s n) tr = some r →
      nifsProver env r1cs fw1 fw2 fi1 fi2 (Srs.newFromSecret P s n') tr = some r) ∧
    (∀ (r : F) fw fi tr q, nifsProve env r fw fi (Srs.newFromSecret P s n) tr = some q →
      nifsProve env r fw fi (Srs.newFromSecret P s n') tr = some q) ∧
    (∀ a (r1cs : R1CS F) p tr r, ivcProve env (Srs.newFromSecret P s n) a r1cs p tr = some r →
      ivcProve env (Srs.newFromSecret P s n') a r1cs p tr = some r) :=
  ⟨fun fw x => witnessCommit_refines P s h fw x,
    fun _ _ => Refines.bind (witnessCommit_refines P s h _ _) fun _ => Refines.refl _,
    isR1csSatisfied_refines P s h, nifsProver_refines env P s h, nifsProve_refines env P s h, ivcProve_refines env P s h⟩

/-- **C111** (Nova): the verifiers do not depend on the size of the setup. -/
theorem C111_nova_verify_any_setup (env : Env F G1 B) (P : PairingGroups F G1 G2 GT) (s : F) (n n' : ℕ) :
    (∀ proof fi1 fi2 fi3 comT tr, nifsVerify env P proof fi1 fi2 fi3 comT (Srs.newFromSecret P s n) tr =
      nifsVerify env P proof fi1 fi2 fi3 comT (Srs.newFromSecret P s n') tr) ∧
    (∀ a zk tr, ivcVerify env P (Srs.newFromSecret P s n) a zk tr = ivcVerify env P (Srs.newFromSecret P s n') a zk tr) :=
  ⟨fun _ _ _ _ _ _ => rfl, fun _ _ _ => rfl⟩

theorem nifsProver_size (env : Env F G1 B) (P : PairingGroups F G1 G2 GT) (s : F) {n n' : ℕ} (h : n ≤ n') (r1cs : R1CS F)
    (hr : r1cs.matrixA.length ≤ n + 3) (fw1 fw2 : FWitness F) (fi1 fi2 : FInstance F G1) (tr : Transcript) :
    nifsProver env r1cs fw1 fw2 fi1 fi2 (Srs.newFromSecret P s n) tr =
      nifsProver env r1cs fw1 fw2 fi1 fi2 (Srs.newFromSecret P s n') tr := by
  unfold nifsProver
  dsimp only
  rcases ht : computeT r1cs fi1.u fi2.u (zVec fw1 fi1) (zVec fw2 fi2) with _ | t
  · rfl
  · have hl := ((computeT_iff _ _ _ _ _ _).1 ht).2.2.1
    simp only [Option.bind_eq_bind, Option.bind_some]
    rw [commitVector_size P s t (n := n) (n' := n') (by omega) (by omega)]

/-- **C111** (Nova): `n + 3` rows and variables fit a setup of size `n`: `commit`, `create_trivial_pair`,
`is_r1cs_satisfied`, `NIFS::prover` and `NIFS::prove` give the same result under every larger setup with the same
secret, panics included; `commit` and `create_trivial_pair` do not panic. -/
theorem C111_nova_fits (env : Env F G1 B) (P : PairingGroups F G1 G2 GT) (s : F) {n n' : ℕ} (h : n ≤ n') (r1cs : R1CS F)
    (fw : FWitness F) (he : fw.e.length ≤ n + 3) (hw : fw.w.length ≤ n + 3) :
    (∀ x, (fw.commit (Srs.newFromSecret P s n) x).isSome ∧
      fw.commit (Srs.newFromSecret P s n) x = fw.commit (Srs.newFromSecret P s n') x) ∧
    (∀ xLen wLen, wLen ≤ n + 3 → (createTrivialPair (F := F) xLen wLen (Srs.newFromSecret P s n)).isSome ∧
      createTrivialPair (F := F) xLen wLen (Srs.newFromSecret P s n) = createTrivialPair (F := F) xLen wLen (Srs.newFromSecret P s n')) ∧
    (∀ fi, isR1csSatisfied r1cs fi fw (Srs.newFromSecret P s n) = isR1csSatisfied r1cs fi fw (Srs.newFromSecret P s n')) ∧
    (r1cs.matrixA.length ≤ n + 3 → ∀ fw2 fi1 fi2 tr, nifsProver env r1cs fw fw2 fi1 fi2 (Srs.newFromSecret P s n) tr =
      nifsProver env r1cs fw fw2 fi1 fi2 (Srs.newFromSecret P s n') tr) ∧
    (∀ r fi tr, nifsProve env r fw fi (Srs.newFromSecret P s n) tr = nifsProve env r fw fi (Srs.newFromSecret P s n') tr) := by
  have hcommit : ∀ (fw : FWitness F) x, fw.e.length ≤ n + 3 → fw.w.length ≤ n + 3 →
      (fw.commit (Srs.newFromSecret P s n) x).isSome ∧
      fw.commit (Srs.newFromSecret P s n) x = fw.commit (Srs.newFromSecret P s n') x := by
    intro fw x he hw
    obtain ⟨a, ha, ha'⟩ := (C111_kzg_fits P s h fw.e 0).1 he
    obtain ⟨b, hb, hb'⟩ := (C111_kzg_fits P s h fw.w 0).1 hw
    unfold FWitness.commit
    rw [ha, ha', hb, hb']
    exact ⟨rfl, rfl⟩
  refine ⟨fun x => hcommit fw x he hw, ?_, ?_, ?_, ?_⟩
  · intro xLen wLen hl
    have := hcommit (FWitness.newTrivialWitness wLen) (List.replicate xLen (0 : F))
      (by simpa [FWitness.newTrivialWitness] using hl) (by simpa [FWitness.newTrivialWitness] using hl)
    obtain ⟨a, ha⟩ := Option.isSome_iff_exists.1 this.1
    unfold createTrivialPair
    rw [← this.2, ha]
    exact ⟨rfl, rfl⟩
  · intro fi
    unfold isR1csSatisfied checkCommitments
    rw [commitVector_size P s fw.w (n := n) (n' := n') hw (by omega),
      commitVector_size P s fw.e (n := n) (n' := n') he (by omega)]
  · intro hr fw2 fi1 fi2 tr
    exact nifsProver_size env P s h r1cs hr fw fw2 fi1 fi2 tr
  · intro r fi tr
    unfold nifsProve
    congr 1
    funext ct
    rw [(C111_kzg_fits P s h fw.e ct.1).2 (by omega), (C111_kzg_fits P s h fw.w ct.1).2 (by omega)]

/-- **C111** (Nova, limit): a witness or error vector whose last non-zero entry is at position `n + 3` or later (counted
from 0) cannot be committed to. -/
theorem C111_nova_too_small (P : PairingGroups F G1 G2 GT) (s : F) (n : ℕ) (fw : FWitness F) (x : List F) (i : ℕ)
    (hi : n + 3 ≤ i) (h : fw.w.getD i 0 ≠ 0 ∨ fw.e.getD i 0 ≠ 0) : fw.commit (Srs.newFromSecret P s n) x = none := by
  have key : ∀ v : List F, v.getD i 0 ≠ 0 → commitVector (Srs.newFromSecret P s n) v = none := by
    intro v hv
    refine (C02_commit_vector P s n v).2 (hi.trans (Polynomial.le_natDegree_of_ne_zero ?_))
    rwa [coeff_toPoly]
  unfold FWitness.commit
  rcases h with h | h
  · rw [key _ h]
    cases commitVector (Srs.newFromSecret P s n) fw.e <;> rfl
  · rw [key _ h]; rfl

/-- Non-vacuity: a witness of three entries under the sizes 0 and 7; with a fourth non-zero entry size 0 is too small. -/
example : ((⟨[0, 0], [1, 2, 3]⟩ : FWitness ℚ).commit (Srs.newFromSecret (trivialGroups ℚ) 7 0) [5]).isSome ∧
    (⟨[0, 0], [1, 2, 3, 4]⟩ : FWitness ℚ).commit (Srs.newFromSecret (trivialGroups ℚ) 7 0) [5] = none :=
  ⟨by decide +kernel, C111_nova_too_small (trivialGroups ℚ) 7 0 _ _ 3 (by omega) (Or.inl (by decide +kernel))⟩

end Verif.Nova

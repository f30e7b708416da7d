import Verif.Nova.Circuit
import Verif.Kzg.Unique

/-!
# C86, C87 (Nova): how far an accepted folding proof is determined, and what `IVC::verify` ignores
-/

set_option linter.unusedSectionVars false

namespace Verif.Nova

open Verif.Ark Verif.Kzg

variable {F G1 G2 GT B : Type} [Field F] [DecidableEq F] [AddCommGroup G1] [Module F G1] [DecidableEq G1]
  [AddCommGroup G2] [Module F G2] [AddCommGroup GT] [Module F GT] [DecidableEq GT]
  [Field B] [DecidableEq B]

/-- **C86** (Nova, folding proofs): two folding proofs accepted for the same instances, cross-term commitment and
transcript carry the same `r` and opening point; unless that point is the secret of the SRS they are equal as soon
as they claim the same two evaluations, and if they claim different evaluations they exhibit `(s - z)⁻¹ • g1`,
the element no one should be able to compute without the secret. -/
theorem C86_nifs_proof_unique (env : Env F G1 B) (P : PairingGroups F G1 G2 GT) (s : F) (n : ℕ)
    (hdig : ∀ b, 8 ≤ (env.digest b).length) (p p' : NIFSProof F G1) (fi1 fi2 fi3 : FInstance F G1)
    (comT : G1) (tr t1 t2 : Transcript)
    (h : nifsVerify env P p fi1 fi2 fi3 comT (Srs.newFromSecret P s n) tr = some (.ok (), t1))
    (h' : nifsVerify env P p' fi1 fi2 fi3 comT (Srs.newFromSecret P s n) tr = some (.ok (), t2)) :
    p.r = p'.r ∧ p.openingPoint = p'.openingPoint ∧
      (p.openingPoint ≠ s →
        (p = p' ∨
          (p.openingW.eval ≠ p'.openingW.eval ∧
            (p'.openingW.eval - p.openingW.eval)⁻¹ • (p.openingW.witness - p'.openingW.witness) =
              (s - p.openingPoint)⁻¹ • P.g1) ∨
          (p.openingE.eval ≠ p'.openingE.eval ∧
            (p'.openingE.eval - p.openingE.eval)⁻¹ • (p.openingE.witness - p'.openingE.witness) =
              (s - p.openingPoint)⁻¹ • P.g1))) := by
  obtain ⟨res, tr1, e1, e2⟩ := C33_verify_iff env P s n hdig p fi1 fi2 fi3 comT tr
  rw [h] at e1
  simp only [Option.some.injEq, Prod.mk.injEq] at e1
  obtain ⟨a1, a2, a3, a4⟩ := e2.1 e1.1.symm
  obtain ⟨res', tr1', e1', e2'⟩ := C33_verify_iff env P s n hdig p' fi1 fi2 fi3 comT tr
  rw [h'] at e1'
  simp only [Option.some.injEq, Prod.mk.injEq] at e1'
  obtain ⟨b1, b2, b3, b4⟩ := e2'.1 e1'.1.symm
  have hr : p.r = p'.r := a1.trans b1.symm
  have hz : p.openingPoint = p'.openingPoint := a2.trans b2.symm
  refine ⟨hr, hz, fun hs => ?_⟩
  rw [← hz] at b3 b4
  have hsz : s - p.openingPoint ≠ 0 := sub_ne_zero.2 (Ne.symm hs)
  by_cases hW : p.openingW.eval = p'.openingW.eval
  swap
  · right; left
    exact ⟨hW, C06_binding P s n fi3.comW _ _ _ _ p.openingPoint hs hW
      ((C05_verify_iff P s n _ _ _ _).2 a3) ((C05_verify_iff P s n _ _ _ _).2 b3)⟩
  by_cases hE : p.openingE.eval = p'.openingE.eval
  swap
  · right; right
    exact ⟨hE, C06_binding P s n fi3.comE _ _ _ _ p.openingPoint hs hE
      ((C05_verify_iff P s n _ _ _ _).2 a4) ((C05_verify_iff P s n _ _ _ _).2 b4)⟩
  left
  rw [hW] at a3
  rw [hE] at a4
  have w1 := smul_left_cancel hsz (a3.trans b3.symm)
  have w2 := smul_left_cancel hsz (a4.trans b4.symm)
  obtain ⟨r, z, ⟨wE, yE⟩, ⟨wW, yW⟩⟩ := p
  obtain ⟨r', z', ⟨wE', yE'⟩, ⟨wW', yW'⟩⟩ := p'
  simp only at hr hz hW hE w1 w2
  subst hr hz hW hE w1 w2
  rfl

/-- **C87** (`IVC::verify` is malleable): whatever `IVC::verify` returns, it returns the same when the public
inputs of `u_i` after the first are replaced, and at step zero when the whole proof is replaced. -/
theorem C87_ivc_malleable (env : Env F G1 B) (P : PairingGroups F G1 G2 GT) (srs : Srs G1 G2) (a : Aug F G1 B)
    (zk : ZkIVCProof F G1) (tr : Transcript) :
    (∀ (x0 : F) (xs xs' : List F), zk.ui.x = x0 :: xs →
      ivcVerify env P srs a { zk with ui := { zk.ui with x := x0 :: xs' } } tr = ivcVerify env P srs a zk tr) ∧
    (a.i = 0 → ∀ zk' : ZkIVCProof F G1, ivcVerify env P srs a zk' tr = ivcVerify env P srs a zk tr) := by
  constructor
  · intro x0 xs xs' hx
    obtain ⟨ui, bigUi, comT, prf⟩ := zk
    obtain ⟨cE, u, cW, x⟩ := ui
    simp only at hx
    subst hx
    unfold ivcVerify
    cases comT <;> cases prf <;> rfl
  · intro h zk'
    unfold ivcVerify
    rw [if_pos h, if_pos h]

/-- An accepted folding proof exists (hypotheses of `C86_nifs_proof_unique`). -/
example : ∃ fi1 fi2 fi comT proof tr tr3, nifsVerify toyEnv (trivialGroups ℚ) proof fi1 fi2 fi comT
    (Srs.newFromSecret (trivialGroups ℚ) 7 4) tr = some (.ok (), tr3) := by
  obtain ⟨fi1, fi2, fw, fi, comT, r, tr1, proof, tr2, -, -, -, -, h, -⟩ := C34_accepts_unsatisfied toyEnv
    (trivialGroups ℚ) 7 4 (fun b => by rw [toyEnv_digest]; norm_num)
    (fun seed k => by simp only [toyEnv]; positivity) 0 0 .default
  exact ⟨fi1, fi2, _, comT, proof, .default, tr2, h⟩

end Verif.Nova

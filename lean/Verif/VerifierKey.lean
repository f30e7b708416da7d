import Verif.Kzg.Props
import Verif.Nova.Model
import Verif.Plonk.Compiled

/-!
# C121: verifying with a verification key only

Which parts of a setup the verifiers use.  The setups are arbitrary here: nothing says that they come from a secret.
-/

set_option linter.unusedSectionVars false

namespace Verif.VerifierKey

open Verif.Ark

/-! ## Specification -/

/-- Two setups with the same two points of G2; the points of G1 are arbitrary, also in number. -/
def SameKey {G1 G2 : Type} (srs srs' : Kzg.Srs G1 G2) : Prop := srs.g2 = srs'.g2 ∧ srs.g2s = srs'.g2s

/-! ## KZG and Nova -/

section nova

variable {F G1 G2 GT B : Type} [Field F] [DecidableEq F] [AddCommGroup G1] [Module F G1]
  [AddCommGroup G2] [Module F G2] [AddCommGroup GT] [Module F GT] [DecidableEq GT] [Field B] [DecidableEq B] [DecidableEq G1]

/-- **C121** (KZG): `verify` and `batch_verify` use only the two points of G2. -/
theorem C121_kzg_partial (P : Kzg.PairingGroups F G1 G2 GT) {srs srs' : Kzg.Srs G1 G2} (h : SameKey srs srs') :
    (∀ (c : G1) (o : Kzg.Opening F G1) (z : F), Kzg.verify P srs c o z = Kzg.verify P srs' c o z) ∧
    ∀ (cs : List G1) (zs : List F) (os : List (Kzg.Opening F G1)) (rng : ℕ → ℕ),
      Kzg.batchVerify P srs cs zs os rng = Kzg.batchVerify P srs' cs zs os rng := by
  constructor
  · intro c o z
    unfold Kzg.verify
    rw [h.1, h.2]
  · intro cs zs os rng
    unfold Kzg.batchVerify
    rw [h.1, h.2]

/-- **C121** (Nova): `NIFS::verify` and `IVC::verify` use only the two points of G2. -/
theorem C121_nova_partial (env : Nova.Env F G1 B) (P : Kzg.PairingGroups F G1 G2 GT) {srs srs' : Kzg.Srs G1 G2}
    (h : SameKey srs srs') :
    (∀ proof fi1 fi2 fi3 comT tr, Nova.nifsVerify env P proof fi1 fi2 fi3 comT srs tr =
      Nova.nifsVerify env P proof fi1 fi2 fi3 comT srs' tr) ∧
    ∀ a zk tr, Nova.ivcVerify env P srs a zk tr = Nova.ivcVerify env P srs' a zk tr := by
  have hv := (C121_kzg_partial P h).1
  have hn : ∀ proof fi1 fi2 fi3 comT tr, Nova.nifsVerify env P proof fi1 fi2 fi3 comT srs tr =
      Nova.nifsVerify env P proof fi1 fi2 fi3 comT srs' tr := by
    intro proof fi1 fi2 fi3 comT tr
    unfold Nova.nifsVerify Nova.verifyOpening
    simp only [hv]
  refine ⟨hn, fun a zk tr => ?_⟩
  unfold Nova.ivcVerify
  simp only [hn]

end nova

/-! ## PLONK -/

section plonk

open Verif.Plonk

variable {F : Type} [FftField F] [DecidableEq F] {G1 G2 GT : Type} [AddCommGroup G1] [Module F G1]
  [AddCommGroup G2] [Module F G2] [AddCommGroup GT] [Module F GT] [DecidableEq GT]

theorem evaluateInS_empty (srs : Kzg.Srs G1 G2) (h : srs.g1Points = []) (p : DP F) : Kzg.evaluateInS srs p = none := by
  unfold Kzg.evaluateInS
  rw [h]
  cases degree? p <;> rfl

/-- **C121** is false of the code, for PLONK: from a setup of which only the key is left (the two points of G2, no point of
G1) the verifier panics, for every circuit and every proof. -/
theorem C121_plonk_key_only_panics (env : Plonk.Env F G1) (dig : List UInt8 → List UInt8) (P : Kzg.PairingGroups F G1 G2 GT)
    (cc : CompiledCircuit F) (srs : Kzg.Srs G1 G2) (h : srs.g1Points = []) (p : Proof F G1) :
    verify env dig P cc srs p = none := by
  unfold verify getCircuitCommitment Kzg.commit
  rw [evaluateInS_empty _ h]
  rfl

/-- **C121** is false of the code, for PLONK: there are a circuit, a setup, and a proof accepted under it, on which the verifier
panics under another setup with the same key. -/
theorem C121_plonk_needs_setup : ∃ (cc : CompiledCircuit BlsFr) (srs srs' : Kzg.Srs BlsFr BlsFr) (p : Proof BlsFr BlsFr),
    SameKey srs srs' ∧ verify exEnv exEnv.sha256 (Kzg.trivialGroups BlsFr) cc srs p = some (.ok ()) ∧
      verify exEnv exEnv.sha256 (Kzg.trivialGroups BlsFr) cc srs' p = none := by
  obtain ⟨p, hp⟩ := Option.isSome_iff_exists.1 exRun_isSome
  refine ⟨exCC, Kzg.Srs.newFromSecret (Kzg.trivialGroups BlsFr) 11 2,
    { Kzg.Srs.newFromSecret (Kzg.trivialGroups BlsFr) 11 2 with g1Points := [] }, p, ⟨rfl, rfl⟩, ?_,
    C121_plonk_key_only_panics _ _ _ _ _ rfl _⟩
  refine C49_compiled exEnv exEnv.sha256 exEnv_len (Kzg.trivialGroups BlsFr) 11 2 exampleCalls exCC exCC_compiled
    (by decide) exBl p (by rw [exRun_eq, hp]) ?_
  have := exRun_ev
  rw [hp, Option.map_some, Option.some.injEq, decide_eq_false_iff_not] at this
  exact this

theorem feedBars_head (env : Plonk.Env F G1) (dig : List UInt8 → List UInt8) {srs srs' : Kzg.Srs G1 G2}
    (h : srs.g1Points.head? = srs'.g1Points.head?) (bar : Bars F) (ch : ChallengeGenerator) :
    feedBars env dig srs bar ch = feedBars env dig srs' bar ch := by
  unfold feedBars Kzg.commitPara
  rw [h]

/-- **C121** (what holds for PLONK): of setup and circuit the verdict depends only on a key of constant size: the two points of
G2, the first point of G1, the eight commitments to selector and permutation polynomials, the number of rows, and the
public-input polynomial.  Missing: the verifier recomputes these commitments from the whole setup instead of being given them. -/
theorem C121_plonk_key_partial (env : Plonk.Env F G1) (dig : List UInt8 → List UInt8) (P : Kzg.PairingGroups F G1 G2 GT)
    (cc cc' : CompiledCircuit F) {srs srs' : Kzg.Srs G1 G2} (h : SameKey srs srs')
    (h1 : srs.g1Points.head? = srs'.g1Points.head?)
    (hc : [cc.gate.qmx, cc.gate.qlx, cc.gate.qrx, cc.gate.qox, cc.gate.qcx, cc.copy.s1, cc.copy.s2, cc.copy.s3].map
        (Kzg.commit srs) =
      [cc'.gate.qmx, cc'.gate.qlx, cc'.gate.qrx, cc'.gate.qox, cc'.gate.qcx, cc'.copy.s1, cc'.copy.s2, cc'.copy.s3].map
        (Kzg.commit srs'))
    (hsize : cc.size = cc'.size) (hpi : cc.gate.pix = cc'.gate.pix) (hk1 : cc.copy.k1 = cc'.copy.k1)
    (hk2 : cc.copy.k2 = cc'.copy.k2) (p : Proof F G1) :
    verify env dig P cc srs p = verify env dig P cc' srs' p := by
  simp only [List.map_cons, List.map_nil, List.cons.injEq, and_true] at hc
  obtain ⟨e1, e2, e3, e4, e5, e6, e7, e8⟩ := hc
  unfold verify getCircuitCommitment verifyChallenges Kzg.commitPara
  have hD : ∀ (k : CircuitCommitment G1) (c : Challenges F) (x y : F), verifierD cc k p c x y = verifierD cc' k p c x y := by
    intro k c x y
    unfold verifierD
    rw [hk1, hk2]
  simp only [feedBars_head env dig h1, hD, e1, e2, e3, e4, e5, e6, e7, e8, hsize, hpi, h1, h.1, h.2]

/-- Non-vacuity: setups of sizes 2 and 9 with the same secret have the same key and the same first point, and the
polynomials of the example circuit the same commitments. -/
example : SameKey (Kzg.Srs.newFromSecret (Kzg.trivialGroups BlsFr) 11 2) (Kzg.Srs.newFromSecret (Kzg.trivialGroups BlsFr) 11 9) ∧
    (Kzg.Srs.newFromSecret (Kzg.trivialGroups BlsFr) 11 2).g1Points.head? =
      (Kzg.Srs.newFromSecret (Kzg.trivialGroups BlsFr) 11 9).g1Points.head? ∧
    [exCC.gate.qmx, exCC.gate.qlx, exCC.gate.qrx, exCC.gate.qox, exCC.gate.qcx, exCC.copy.s1, exCC.copy.s2, exCC.copy.s3].map
        (Kzg.commit (Kzg.Srs.newFromSecret (Kzg.trivialGroups BlsFr) 11 2)) =
      [exCC.gate.qmx, exCC.gate.qlx, exCC.gate.qrx, exCC.gate.qox, exCC.gate.qcx, exCC.copy.s1, exCC.copy.s2, exCC.copy.s3].map
        (Kzg.commit (Kzg.Srs.newFromSecret (Kzg.trivialGroups BlsFr) 11 9)) := by
  refine ⟨⟨rfl, rfl⟩, rfl, ?_⟩
  decide +kernel

end plonk

end Verif.VerifierKey

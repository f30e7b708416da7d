import Verif.Nova.Unique
import Verif.Kzg.Setup

/-!
# C99, C100 (Nova): folding and IVC proofs and setups
-/

set_option linter.unusedSectionVars false

namespace Verif.Nova

open Verif.Ark Verif.Kzg

variable {F G1 G2 GT B : Type} [Field F] [DecidableEq F] [AddCommGroup G1] [Module F G1] [DecidableEq G1]
  [AddCommGroup G2] [Module F G2] [AddCommGroup GT] [Module F GT] [DecidableEq GT]
  [Field B] [DecidableEq B]

/-- One opening equation under two secrets. -/
theorem opening_two_setups {s s' z : F} {W c : G1} (h : (s - z) • W = c) :
    (s' - z) • W = c ↔ s' = s ∨ W = 0 := by
  constructor
  · intro h'
    by_cases hs : s' = s
    · exact Or.inl hs
    · right
      refine smul_eq_zero_left (a := s' - s) ?_ (sub_ne_zero.2 hs)
      have : (s' - s) • W = (s' - z) • W - (s - z) • W := by rw [← sub_smul]; congr 1; ring
      rw [this, h', h, sub_self]
  · rintro (rfl | rfl)
    · exact h
    · rw [smul_zero] at h ⊢; exact h

/-- **C99** (Nova, folding): a folding proof accepted under the setup with secret `s` is accepted under the setup with
secret `s'` exactly if the secrets agree or both openings have the neutral element as witness. -/
theorem C99_nifs_one_setup (env : Env F G1 B) (P : PairingGroups F G1 G2 GT) (s s' : F) (n n' : ℕ)
    (hdig : ∀ b, 8 ≤ (env.digest b).length) (p : NIFSProof F G1) (fi1 fi2 fi3 : FInstance F G1)
    (comT : G1) (tr t1 : Transcript)
    (h : nifsVerify env P p fi1 fi2 fi3 comT (Srs.newFromSecret P s n) tr = some (.ok (), t1)) :
    (∃ t2, nifsVerify env P p fi1 fi2 fi3 comT (Srs.newFromSecret P s' n') tr = some (.ok (), t2)) ↔
      s' = s ∨ (p.openingW.witness = 0 ∧ p.openingE.witness = 0) := by
  obtain ⟨res, tr1, e1, e2⟩ := C33_verify_iff env P s n hdig p fi1 fi2 fi3 comT tr
  rw [h] at e1
  simp only [Option.some.injEq, Prod.mk.injEq] at e1
  obtain ⟨a1, a2, a3, a4⟩ := e2.1 e1.1.symm
  obtain ⟨res', tr1', e1', e2'⟩ := C33_verify_iff env P s' n' hdig p fi1 fi2 fi3 comT tr
  have hok : (∃ t2, nifsVerify env P p fi1 fi2 fi3 comT (Srs.newFromSecret P s' n') tr = some (.ok (), t2)) ↔
      res' = .ok () := by
    rw [e1']
    constructor
    · rintro ⟨t2, ht⟩
      simp only [Option.some.injEq, Prod.mk.injEq] at ht
      exact ht.1
    · rintro rfl; exact ⟨_, rfl⟩
  rw [hok, e2', opening_two_setups a3, opening_two_setups a4]
  constructor
  · rintro ⟨-, -, h1 | h1, h2⟩
    · exact Or.inl h1
    · rcases h2 with h2 | h2
      · exact Or.inl h2
      · exact Or.inr ⟨h1, h2⟩
  · rintro (h1 | ⟨h1, h2⟩)
    · exact ⟨a1, a2, Or.inl h1, Or.inl h1⟩
    · exact ⟨a1, a2, Or.inr h1, Or.inr h2⟩

/-- **C99** (Nova, IVC): the same for `IVC::verify` of a later step. -/
theorem C99_ivc_one_setup (env : Env F G1 B) (P : PairingGroups F G1 G2 GT) (s s' : F) (n n' : ℕ)
    (hdig : ∀ b, 8 ≤ (env.digest b).length) (a : Aug F G1 B) (h0 : a.i ≠ 0) (zk : ZkIVCProof F G1)
    (p : NIFSProof F G1) (hp : zk.foldedUProof = some p) (tr t1 : Transcript)
    (h : ivcVerify env P (Srs.newFromSecret P s n) a zk tr = some (.ok (), t1)) :
    (∃ t2, ivcVerify env P (Srs.newFromSecret P s' n') a zk tr = some (.ok (), t2)) ↔
      s' = s ∨ (p.openingW.witness = 0 ∧ p.openingE.witness = 0) := by
  obtain ⟨comT, proof, h1, h2, h3, h4, h5, h6⟩ := (C41_verify_iff env P _ a h0 zk tr t1).1 h
  rw [hp, Option.some.injEq] at h2
  subst h2
  rw [← C99_nifs_one_setup env P s s' n n' hdig p _ _ _ comT tr t1 h6]
  constructor
  · rintro ⟨t2, h'⟩
    obtain ⟨comT', proof', g1, g2, -, -, -, g6⟩ := (C41_verify_iff env P _ a h0 zk tr t2).1 h'
    rw [hp, Option.some.injEq] at g2
    subst g2
    rw [h1, Option.some.injEq] at g1
    subst g1
    exact ⟨t2, g6⟩
  · rintro ⟨t2, h'⟩
    exact ⟨t2, (C41_verify_iff env P _ a h0 zk tr t2).2 ⟨comT, p, h1, hp, h3, h4, h5, h'⟩⟩

/-- **C99** (Nova, before the first step): the setup plays no role. -/
theorem C99_ivc_zero (env : Env F G1 B) (P : PairingGroups F G1 G2 GT) (srs srs' : Srs G1 G2) (a : Aug F G1 B)
    (h0 : a.i = 0) (zk : ZkIVCProof F G1) (tr : Transcript) :
    ivcVerify env P srs a zk tr = ivcVerify env P srs' a zk tr := by
  unfold ivcVerify
  rw [if_pos h0, if_pos h0]

/-- **C100** (Nova): whoever knows the secret makes `NIFS::verify` accept any three instances and any cross-term
commitment, with any claimed evaluations, provided the opening challenge is not the secret itself. -/
theorem C100_nifs (env : Env F G1 B) (P : PairingGroups F G1 G2 GT) (s : F) (n : ℕ)
    (hdig : ∀ b, 8 ≤ (env.digest b).length) (fi1 fi2 fi3 : FInstance F G1) (comT : G1) (tr : Transcript)
    (yW yE : F) :
    let d := foldDigest env (tr.data.getD []) fi1.u fi2.u comT
    let z := challengeOf env (openDigest env d fi3.comE fi3.comW)
    z ≠ s →
      ∃ t, nifsVerify env P
        { r := challengeOf env d, openingPoint := z
          openingE := ⟨(s - z)⁻¹ • (fi3.comE - yE • P.g1), yE⟩
          openingW := ⟨(s - z)⁻¹ • (fi3.comW - yW • P.g1), yW⟩ }
        fi1 fi2 fi3 comT (Srs.newFromSecret P s n) tr = some (.ok (), t) := by
  intro d z hz
  have hsz : s - z ≠ 0 := sub_ne_zero.2 (Ne.symm hz)
  obtain ⟨res, tr', e1, e2⟩ := C33_verify_iff env P s n hdig
    { r := challengeOf env d, openingPoint := z
      openingE := ⟨(s - z)⁻¹ • (fi3.comE - yE • P.g1), yE⟩
      openingW := ⟨(s - z)⁻¹ • (fi3.comW - yW • P.g1), yW⟩ } fi1 fi2 fi3 comT tr
  have : res = .ok () := by
    rw [e2]
    refine ⟨rfl, rfl, ?_, ?_⟩
    · show (s - z) • (s - z)⁻¹ • _ = _
      rw [smul_smul, mul_inv_cancel₀ hsz, one_smul]
    · show (s - z) • (s - z)⁻¹ • _ = _
      rw [smul_smul, mul_inv_cancel₀ hsz, one_smul]
  exact ⟨tr', by rw [e1, this]⟩

/-! ## Non-vacuity -/

/-- Honest folding of the witnesses for the inputs 3 and 4 of the repository's R1CS, up to the proof. -/
private def honestFold (srs : Srs ℚ ℚ) : Option (NIFSProof ℚ ℚ × FInstance ℚ ℚ × FInstance ℚ ℚ × ℚ) := do
  let fw1 : FWitness ℚ := FWitness.new (testW 3) 4
  let fw2 : FWitness ℚ := FWitness.new (testW 4) 4
  let fi1 ← fw1.commit srs (testX 3)
  let fi2 ← fw2.commit srs (testX 4)
  let out ← nifsProver toyEnv testR1cs fw1 fw2 fi1 fi2 srs .default
  let proof ← nifsProve toyEnv out.1.2.2.2 out.1.1 out.1.2.1 srs out.2
  some (proof.1, fi1, fi2, out.1.2.2.1)

/-- C99 on an honest folding made under the secret 7: accepted under 7 and under no other secret. -/
example : ∃ p fi1 fi2 comT t, honestFold (Srs.newFromSecret (trivialGroups ℚ) 7 6) = some (p, fi1, fi2, comT) ∧
    nifsVerify toyEnv (trivialGroups ℚ) p fi1 fi2 (nifsVerifier p.r fi1 fi2 comT) comT
      (Srs.newFromSecret (trivialGroups ℚ) 7 6) .default = some (.ok (), t) ∧
    ∀ s' n', (∃ t2, nifsVerify toyEnv (trivialGroups ℚ) p fi1 fi2 (nifsVerifier p.r fi1 fi2 comT) comT
      (Srs.newFromSecret (trivialGroups ℚ) s' n') .default = some (.ok (), t2)) ↔ s' = 7 := by
  have key : (honestFold (Srs.newFromSecret (trivialGroups ℚ) 7 6)).map (fun q =>
      ((nifsVerify toyEnv (trivialGroups ℚ) q.1 q.2.1 q.2.2.1 (nifsVerifier q.1.r q.2.1 q.2.2.1 q.2.2.2) q.2.2.2
        (Srs.newFromSecret (trivialGroups ℚ) 7 6) .default).map (fun r => r.1.isOk), decide (q.1.openingW.witness = 0))) =
      some (some true, false) := by decide +kernel
  rw [Option.map_eq_some_iff] at key
  obtain ⟨⟨p, fi1, fi2, comT⟩, h1, h2⟩ := key
  simp only [Prod.mk.injEq, Option.map_eq_some_iff, decide_eq_false_iff_not] at h2
  obtain ⟨⟨⟨res, t⟩, h3, h4⟩, h5⟩ := h2
  cases res with
  | error e => cases h4
  | ok u =>
    refine ⟨p, fi1, fi2, comT, t, h1, h3, fun s' n' => ?_⟩
    rw [C99_nifs_one_setup toyEnv (trivialGroups ℚ) 7 s' 6 n' (fun b => by rw [toyEnv_digest]; norm_num) p _ _ _ comT
      .default t h3]
    exact or_iff_left fun h => h5 h.1

/-- C100: three unrelated instances, accepted with the help of the secret 7 (and C99 applies to the result). -/
example : ∃ p t, nifsVerify toyEnv (trivialGroups ℚ) p ⟨1, 2, 3, [4]⟩ ⟨5, 6, 7, [8]⟩ ⟨100, 200, 300, [400]⟩ 9
    (Srs.newFromSecret (trivialGroups ℚ) 7 6) .default = some (.ok (), t) := by
  obtain ⟨t, h⟩ := C100_nifs toyEnv (trivialGroups ℚ) 7 6 (fun b => by rw [toyEnv_digest]; norm_num)
    ⟨1, 2, 3, [4]⟩ ⟨5, 6, 7, [8]⟩ ⟨100, 200, 300, [400]⟩ 9 .default 0 0 (by decide +kernel)
  exact ⟨_, t, h⟩

/-- C99 for IVC: an accepted proof of the claim "one step from 10 to 20" that is accepted under the secret 7 only. -/
example : ∃ (a : Aug ℚ ℚ ℚ) (zk : ZkIVCProof ℚ ℚ) (t : Transcript), a.i ≠ 0 ∧
    ivcVerify toyEnv (trivialGroups ℚ) (Srs.newFromSecret (trivialGroups ℚ) 7 6) a zk .default = some (.ok (), t) ∧
    ∀ s' n', (∃ t2, ivcVerify toyEnv (trivialGroups ℚ) (Srs.newFromSecret (trivialGroups ℚ) s' n') a zk .default =
      some (.ok (), t2)) ↔ s' = 7 := by
  have hlen : ∀ b, 8 ≤ (toyEnv.digest b).length := fun b => by rw [toyEnv_digest]; norm_num
  let a : Aug ℚ ℚ ℚ := ⟨1, ⟨0, 0, 0, [0]⟩, 10, 20, none, none, none⟩
  have ha : a.i ≠ 0 := one_ne_zero
  let U : FInstance ℚ ℚ := ⟨0, 1, 3, [0]⟩
  let u : FInstance ℚ ℚ := ⟨0, 1, 5, [toyEnv.toScalar (stateHash toyEnv 1 10 20 U)]⟩
  let r := challengeOf toyEnv (foldDigest toyEnv [] 1 1 (2 : ℚ))
  obtain ⟨t, h⟩ := C100_nifs toyEnv (trivialGroups ℚ) 7 6 hlen u U (foldedBy r u U 2) 2 .default 0 0 (by decide +kernel)
  have hv := (C41_verify_iff toyEnv (trivialGroups ℚ) (Srs.newFromSecret (trivialGroups ℚ) 7 6) a ha
    ⟨u, U, some 2, some _⟩ .default t).2 ⟨2, _, rfl, rfl, rfl, rfl, rfl, h⟩
  refine ⟨a, _, t, ha, hv, fun s' n' => ?_⟩
  rw [C99_ivc_one_setup toyEnv (trivialGroups ℚ) 7 s' 6 n' hlen a ha _ _ rfl .default t hv]
  refine or_iff_left fun hw => absurd hw.1 ?_
  decide +kernel

end Verif.Nova

import Verif.Plonk.Compiled
import Verif.Plonk.AlgSoundness

/-!
# C86 (PLONK): how far an accepted proof is determined
-/

set_option linter.unusedSectionVars false

namespace Verif.Plonk

open Verif.Ark Verif.Kzg Polynomial

variable {F : Type} [FftField F] [DecidableEq F] {G1 G2 GT : Type} [AddCommGroup G1] [Module F G1]
  [AddCommGroup G2] [Module F G2] [AddCommGroup GT] [Module F GT] [DecidableEq GT]

/-- **C86** (PLONK, `u`): an accepted proof is rejected with the challenge error once its field `u` is changed. -/
theorem C86_plonk_u_forced (env : Env F G1) (dig : List UInt8 → List UInt8)
    (hdig : ∀ b, 8 ≤ (dig b).length) (P : PairingGroups F G1 G2 GT) (s : F) (n : ℕ)
    (cc : CompiledCircuit F) (hwf : cc.WellFormed) (hn : cc.size ≤ n + 3) (d : Domain F)
    (hd : Domain.new? cc.size = some d) (p : Proof F G1)
    (h : verify env dig P cc (Srs.newFromSecret P s n) p = some (.ok ())) (u' : F) (hu : u' ≠ p.u) :
    verify env dig P cc (Srs.newFromSecret P s n) { p with u := u' } =
      some (.error "Verify: Challenge verification failed.") := by
  have h1 := ((C53_verify env dig hdig P s n cc hwf hn d hd p).2.1 h).1
  unfold verify
  simp only [getCircuitCommitment_eq P s n hwf hn, verifyChallenges_eq env dig hdig P s n,
    Option.bind_eq_bind, Option.bind_some]
  have h2 : (Proof.challenges env dig P.g1 { p with u := u' }).u = p.u := h1
  rw [h2, if_pos (Ne.symm hu)]

/-- **C86** (PLONK, `degree`): the field `degree` enters no challenge.  An accepted proof stays accepted with the
field changed to `k'` exactly if, at the evaluation challenge `ζ`, the two ways of recombining the quotient give the
same element (or `ζ` is a root of the vanishing polynomial). -/
theorem C86_plonk_degree (env : Env F G1) (dig : List UInt8 → List UInt8)
    (hdig : ∀ b, 8 ≤ (dig b).length) (P : PairingGroups F G1 G2 GT) (s : F) (n : ℕ)
    (cc : CompiledCircuit F) (hwf : cc.WellFormed) (hn : cc.size ≤ n + 3) (d : Domain F)
    (hd : Domain.new? cc.size = some d) (p : Proof F G1)
    (h : verify env dig P cc (Srs.newFromSecret P s n) p = some (.ok ())) (k' : ℕ) :
    let ζ := (p.challenges env dig P.g1).ev
    verify env dig P cc (Srs.newFromSecret P s n) { p with degree := k' } = some (.ok ()) ↔
      ζ ^ cc.size = 1 ∨
        ζ ^ (k' + 1) • p.tMidC + ζ ^ (2 * (k' + 1)) • p.tHiC =
          ζ ^ (p.degree + 1) • p.tMidC + ζ ^ (2 * (p.degree + 1)) • p.tHiC := by
  intro ζ
  obtain ⟨hu, hev, hop⟩ := (C53_verify env dig hdig P s n cc hwf hn d hd p).2.1 h
  rw [(C53_verify env dig hdig P s n cc hwf hn d hd { p with degree := k' }).2]
  have hch : Proof.challenges env dig P.g1 { p with degree := k' } = p.challenges env dig P.g1 := rfl
  rw [hch]
  simp only [hu, hev, ne_eq, not_false_eq_true, true_and]
  have key : OpeningEquation P.g1 s cc.size d.gen cc { p with degree := k' } (p.challenges env dig P.g1) ↔
      (ζ ^ cc.size - 1) • (ζ ^ (k' + 1) • p.tMidC + ζ ^ (2 * (k' + 1)) • p.tHiC) =
        (ζ ^ cc.size - 1) • (ζ ^ (p.degree + 1) • p.tMidC + ζ ^ (2 * (p.degree + 1)) • p.tHiC) := by
    unfold OpeningEquation at hop ⊢
    dsimp only at hop ⊢
    change _ = _ at hop
    rw [hop]
    rw [← sub_eq_zero, ← sub_eq_zero (a := (ζ ^ cc.size - 1) • (ζ ^ (k' + 1) • p.tMidC + _))]
    refine Eq.congr_left ?_ |>.trans (Iff.rfl)
    simp only [show (p.challenges env dig P.g1).ev = ζ from rfl]
    module
  rw [key]
  constructor
  · intro e
    by_cases h0 : ζ ^ cc.size - 1 = 0
    · exact Or.inl (sub_eq_zero.1 h0)
    · right
      have := congrArg ((ζ ^ cc.size - 1)⁻¹ • ·) e
      simpa only [smul_smul, inv_mul_cancel₀ h0, one_smul] using this
  · rintro (e | e)
    · rw [e, sub_self, zero_smul, zero_smul]
    · rw [e]

/-- **C86** (PLONK, `degree` is fixed for most challenges): unless both the middle and the high part of the quotient
commit to zero, changing `degree` to another value keeps the recombination for few evaluation challenges only. -/
theorem C86_plonk_degree_few (P : PairingGroups F G1 G2 GT) (tMid tHi : G1) (h : tMid ≠ 0 ∨ tHi ≠ 0) (k k' : ℕ)
    (hk : k ≠ k') :
    AllBut (2 * (max k k' + 1)) fun ζ : F =>
      ζ ^ (k' + 1) • tMid + ζ ^ (2 * (k' + 1)) • tHi ≠ ζ ^ (k + 1) • tMid + ζ ^ (2 * (k + 1)) • tHi := by
  obtain ⟨a, rfl⟩ := P.cyclic tMid
  obtain ⟨b, rfl⟩ := P.cyclic tHi
  have hab : a ≠ 0 ∨ b ≠ 0 := by
    rcases h with h | h
    · left; rintro rfl; exact h (zero_smul _ _)
    · right; rintro rfl; exact h (zero_smul _ _)
  set q : F[X] := C a * X ^ (k' + 1) + C b * X ^ (2 * (k' + 1)) - (C a * X ^ (k + 1) + C b * X ^ (2 * (k + 1))) with hq
  have hne : q ≠ 0 := by
    intro h0
    have hc : ∀ j, q.coeff j = 0 := fun j => by rw [h0]; simp
    have c1 := hc (2 * (max k k' + 1))
    have c2 := hc (min k k' + 1)
    rw [hq] at c1 c2
    simp only [coeff_sub, coeff_add, coeff_C_mul, coeff_X_pow] at c1 c2
    rcases lt_or_gt_of_ne hk with hlt | hlt
    · rw [max_eq_right hlt.le, if_neg (by omega), if_pos rfl, if_neg (by omega), if_neg (by omega)] at c1
      rw [min_eq_left hlt.le, if_neg (by omega), if_neg (by omega), if_pos rfl, if_neg (by omega)] at c2
      rcases hab with h | h
      · apply h; simpa using c2
      · apply h; simpa using c1
    · rw [max_eq_left hlt.le, if_neg (by omega), if_neg (by omega), if_neg (by omega), if_pos rfl] at c1
      rw [min_eq_right hlt.le, if_pos rfl, if_neg (by omega), if_neg (by omega), if_neg (by omega)] at c2
      rcases hab with h | h
      · apply h; simpa using c2
      · apply h; simpa using c1
  have hdeg : q.natDegree ≤ 2 * (max k k' + 1) := by
    have h1 : k ≤ max k k' := le_max_left _ _
    have h2 : k' ≤ max k k' := le_max_right _ _
    rw [hq]
    refine (natDegree_sub_le _ _).trans (max_le ?_ ?_) <;>
      refine (natDegree_add_le _ _).trans (max_le ?_ ?_) <;>
      refine (natDegree_C_mul_X_pow_le _ _).trans ?_ <;> omega
  refine (AllBut.eval_ne_zero hne hdeg).mono le_rfl fun ζ hζ e => hζ ?_
  rw [hq]
  simp only [eval_sub, eval_add, eval_mul, eval_C, eval_pow, eval_X]
  apply P.smul_g1_inj
  rw [zero_smul, ← sub_eq_zero.2 e]
  module

/-- **C86** (PLONK, `degree`, at the verifier): for a proof whose middle or high quotient part does not commit to zero and any
other value `k'` of the field `degree`, there are at most `2·(max + 1) + size` evaluation challenges for which `verify` accepts
both the proof and the proof with the other degree, whatever the digest and the generator are. -/
theorem C86_plonk_degree_forced (P : PairingGroups F G1 G2 GT) (s : F) (n : ℕ)
    (cc : CompiledCircuit F) (hwf : cc.WellFormed) (hn : cc.size ≤ n + 3) (d : Domain F)
    (hd : Domain.new? cc.size = some d) (p : Proof F G1) (hp : p.tMidC ≠ 0 ∨ p.tHiC ≠ 0) (k' : ℕ) (hk : k' ≠ p.degree) :
    AllBut (2 * (max p.degree k' + 1) + cc.size) fun ζ : F => ∀ (env : Env F G1) (dig : List UInt8 → List UInt8),
      (∀ b, 8 ≤ (dig b).length) → (p.challenges env dig P.g1).ev = ζ →
      ¬ (verify env dig P cc (Srs.newFromSecret P s n) p = some (.ok ()) ∧
        verify env dig P cc (Srs.newFromSecret P s n) { p with degree := k' } = some (.ok ())) := by
  have hsz : 0 < cc.size := by
    obtain ⟨k, hk⟩ := hwf.pow2
    rw [hk]
    exact Nat.two_pow_pos k
  have hne : (X ^ cc.size - 1 : F[X]) ≠ 0 := X_pow_sub_C_ne_zero hsz 1
  refine ((C86_plonk_degree_few P p.tMidC p.tHiC hp p.degree k' hk.symm).and (AllBut.eval_ne_zero hne (k := cc.size) ?_)).mono
    le_rfl fun ζ hζ env dig hdig hev hacc => ?_
  · exact (natDegree_X_pow_sub_C (n := cc.size) (r := (1 : F))).le
  · have := (C86_plonk_degree env dig hdig P s n cc hwf hn d hd p hacc.1 k').1 hacc.2
    rw [hev] at this
    rcases this with h | h
    · apply hζ.2
      simp [h]
    · exact hζ.1 h

/-- The hypotheses of `C86_plonk_u_forced` and `C86_plonk_degree` are met by the run of `exRun`. -/
example : ∃ p, verify exEnv exEnv.sha256 (trivialGroups BlsFr) exCC
    (Srs.newFromSecret (trivialGroups BlsFr) 11 2) p = some (.ok ()) ∧
    exCC.WellFormed ∧ exCC.size ≤ 2 + 3 ∧ Domain.new? exCC.size = some exD := by
  obtain ⟨p, hp⟩ := Option.isSome_iff_exists.1 exRun_isSome
  refine ⟨p, ?_, compile_wellFormed _ _ exCC_compiled, by decide, exD_eq⟩
  refine C49_compiled exEnv exEnv.sha256 exEnv_len (trivialGroups BlsFr) 11 2 exampleCalls exCC exCC_compiled
    (by decide) exBl p (by rw [exRun_eq, hp]) ?_
  have := exRun_ev
  rw [hp, Option.map_some, Option.some.injEq, decide_eq_false_iff_not] at this
  exact this

theorem exRun_tMid : exRun.map (fun p => decide (p.tMidC = 0)) = some false := by decide +kernel

/-- The hypotheses of `C86_plonk_degree_forced` are met by the proof of `exRun`: its middle quotient part is not zero. -/
example : ∃ p, exRun = some p ∧ (p.tMidC ≠ 0 ∨ p.tHiC ≠ 0) ∧ p.degree + 1 ≠ p.degree := by
  obtain ⟨p, hp⟩ := Option.isSome_iff_exists.1 exRun_isSome
  refine ⟨p, hp, Or.inl ?_, by omega⟩
  have := exRun_tMid
  rw [hp, Option.map_some, Option.some.injEq, decide_eq_false_iff_not] at this
  exact this

end Verif.Plonk

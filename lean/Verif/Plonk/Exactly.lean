import Verif.Plonk.AlphaZero

/-!
# Property C102: exactly when the prover returns a proof

C50 describes `generate_proof` on satisfied circuits, C51 and C52 exclude proofs of unsatisfied ones.  Here both are
one equivalence, for every well-formed circuit, satisfied or not: `generate_proof` returns a proof exactly if all gate
equations hold, the two grand products of the copy constraints agree (or the challenge `α` is zero), and the run is
not degenerate; and the proof returned is then the one of the specification `Honest`.
-/

set_option linter.unusedSectionVars false
set_option linter.unusedVariables false

namespace Verif.Plonk

open Verif.Ark Verif.Kzg Polynomial

variable {F : Type} [FftField F] [DecidableEq F]
  {G1 G2 GT : Type} [AddCommGroup G1] [Module F G1] [AddCommGroup G2] [Module F G2]
  [AddCommGroup GT] [Module F GT] [DecidableEq GT]

namespace Setting
variable {H : Honest F G1} {P : PairingGroups F G1 G2 GT} {d : Domain F} {N : ℕ} (S : Setting H P d N)
include S

theorem dvd_gate_iff : H.Z ∣ gatePoly H.cc H.a H.b H.c ↔ GatesSatisfied H.cc H.w := by
  have := gatePoly_iff S.hv H.cc H.a H.b H.c
  rw [S.hs] at this
  refine this.trans ?_
  refine forall_congr' fun i => forall_congr' fun hi => ?_
  rw [← S.w_eq, S.eval_a, S.eval_b, S.eval_c]

theorem dvd_perm_iff (h : ∀ i, i + 1 < H.n → H.rowDen i ≠ 0) : H.Z ∣ C H.α * H.permPoly ↔
    H.α = 0 ∨ ∏ i ∈ Finset.range H.n, H.rowNum i = ∏ i ∈ Finset.range H.n, H.rowDen i := by
  constructor
  · intro hdvd
    rw [or_iff_not_imp_left]
    intro hα
    have hperm : (X ^ d.size - 1 : F[X]) ∣ C H.α * H.permPoly := by rw [S.hs]; exact hdvd
    rw [S.hv.vanishing_dvd_iff] at hperm
    have htel := telescope S.hv S.eval_z_one (N := numPoly H.cc H.β H.γ H.a H.b H.c)
      (D := denPoly H.cc H.β H.γ H.a H.b H.c) (by
        intro i hi
        have := hperm i hi
        rw [eval_mul, eval_C, Honest.permPoly, eval_sub, eval_mul, eval_mul, eval_comp, eval_mul, eval_C, eval_X,
          S.w_eq, ← pow_succ'] at this
        rcases mul_eq_zero.1 this with h3 | h3
        · exact absurd h3 hα
        · linear_combination h3)
    rw [S.hs] at htel
    simp only [← S.w_eq, S.eval_num, S.eval_den] at htel
    exact htel
  · rintro (h0 | hp)
    · rw [h0, C_0, zero_mul]; exact dvd_zero _
    · exact (S.dvd_perm hp h).mul_left _

theorem round3_none (hn : ¬ (H.Z ∣ gatePoly H.cc H.a H.b H.c ∧ H.Z ∣ C H.α * H.permPoly)) :
    round3 H.env H.cc (Srs.newFromSecret P H.s N) d
      ⟨listOf H.a, listOf H.b, listOf H.c, H.com H.a, H.com H.b, H.com H.c⟩
      ⟨H.β, H.γ, listOf H.z, listOf (H.z.comp (C H.w * X)), H.com H.z,
        ⟨some (digestChain H.env H.env.sha256 H.feeds1), true⟩⟩ = none := by
  have hq : computeQuotient H.β H.γ H.α (listOf H.a) (listOf H.b) (listOf H.c) (listOf H.z)
      (listOf (H.z.comp (C H.w * X))) d H.cc = none := by
    rw [Option.eq_none_iff_forall_ne_some]
    intro t ht
    rw [computeQuotient_iff (canon_listOf _), quotLine1_eq, permNum_eq, permDen_eq] at ht
    simp only [toPoly_listOf, S.hs] at ht
    exact hn ⟨ht.2.2.1, ht.2.2.2.1⟩
  have hdc : H.env.sha256 (digestChain H.env H.env.sha256 H.feeds1 ++ H.env.serG (H.com H.z)) =
    digestChain H.env H.env.sha256 H.feeds2 := by
    rw [← digestChain_append H.env H.env.sha256 H.feeds1 (H.com H.z)]; rfl
  have hα : H.env.rand (fromLeBytes (List.take 8 (digestChain H.env H.env.sha256 H.feeds2))) 0 = H.α := rfl
  have hg1 := S.gen1 (D := digestChain H.env H.env.sha256 H.feeds2) (by rw [← hdc]; exact S.hdig _)
  unfold round3
  simp only [feed_eq, Option.getD_some, hdc, hg1, Option.bind_eq_bind, Option.bind_some, hα, hq]
  rfl

end Setting

/-- **C102**: for every well-formed circuit (whether satisfied or not), every secret, SRS of size at least the circuit
size, blinding values, hash function (of at least 8 bytes) and random generator: `generate_proof` returns a proof if
and only if every gate equation holds at the wire values, the grand products of the copy constraints agree over the
`n` rows or the challenge `α` is zero, and the run is not degenerate; in this case it returns the honest proof, and
in all other cases it panics. -/
theorem C102_exactly (H : Honest F G1) (T : List UInt8 → List UInt8) (P : PairingGroups F G1 G2 GT) (N : ℕ)
    (d : Domain F) (hd : Domain.new? H.cc.size = some d) (hw : H.w = d.gen) (hgen : H.g = P.g1)
    (hwf : H.cc.WellFormed) (hN : H.cc.size ≤ N) (hdig : ∀ b, 8 ≤ (H.env.sha256 b).length) :
    let Complete := GatesSatisfied H.cc H.w ∧
      (H.α = 0 ∨ ∏ i ∈ Finset.range H.n, H.rowNum i = ∏ i ∈ Finset.range H.n, H.rowDen i) ∧ ¬ H.Degenerate
    (Complete → generateProof H.env T H.cc (Srs.newFromSecret P H.s N) H.bl = some H.proof) ∧
    (¬ Complete → generateProof H.env T H.cc (Srs.newFromSecret P H.s N) H.bl = none) := by
  intro Complete
  have S : Setting H P d N := ⟨hgen, hw, hd, hwf, hN, hdig⟩
  unfold generateProof
  simp only [hd, Option.bind_eq_bind, Option.bind_some, S.round1_eq]
  constructor
  · rintro ⟨hg, hp, hnd⟩
    have hnd' := hnd
    unfold Honest.Degenerate at hnd'
    push Not at hnd'
    have hg' := S.dvd_gate_iff.2 hg
    have hp' := (S.dvd_perm_iff hnd'.1).2 hp
    simp only [S.round2_some hnd'.1, Option.bind_some, (S.round3_eq hg' hp').2 hnd'.2.1, S.round4_eq,
      S.round5_some hg' hp' hnd]
  · intro hno
    by_cases hden : ∃ i, i + 1 < H.n ∧ H.rowDen i = 0
    · rw [S.round2_none hden]; rfl
    · push Not at hden
      rw [S.round2_some hden, Option.bind_some]
      by_cases hdv : H.Z ∣ gatePoly H.cc H.a H.b H.c ∧ H.Z ∣ C H.α * H.permPoly
      · by_cases ht : H.t = 0
        · rw [(S.round3_eq hdv.1 hdv.2).1 ht]; rfl
        · rw [(S.round3_eq hdv.1 hdv.2).2 ht, Option.bind_some, S.round4_eq, Option.bind_some]
          apply S.round5_none
          have hdeg : H.Degenerate := by
            by_contra hnd
            exact hno ⟨S.dvd_gate_iff.1 hdv.1, (S.dvd_perm_iff hden).1 hdv.2, hnd⟩
          unfold Honest.Degenerate at hdeg
          rcases hdeg with ⟨i, hi, h0⟩ | h0 | hdeg
          · exact absurd h0 (hden i hi)
          · exact absurd h0 ht
          · exact hdeg
      · rw [S.round3_none hdv]; rfl

/-- The product over all `3n` positions of a circuit, wired or not, of the factors of the permutation argument.
`label w l i` is the label of wire `l` of row `i`. -/
noncomputable def positionProduct (calls : List (GateCall F)) (n : ℕ) (w β γ : F) : F :=
  ∏ p : Fin 3 × Fin n, (callVal calls p.1 p.2 + β * label w p.1 p.2 + γ)

/-- The same product, with the label of the position to which each position is wired. -/
noncomputable def wiredProduct (calls : List (GateCall F)) (n : ℕ) (w β γ : F) : F :=
  ∏ p : Fin 3 × Fin n, (callVal calls p.1 p.2 +
    β * label w (target calls p.1 p.2).1 (target calls p.1 p.2).2 + γ)

/-- **C102** for circuits built with the gate calls: `generate_proof` returns a proof if and only if the relation of
every call holds at its values, the two products over the positions agree or `α = 0`, and the run is not degenerate;
a returned proof is the honest one and is accepted unless the evaluation challenge is 1, in which case the
verifier panics. -/
theorem C102_compiled (H : Honest F G1) (T : List UInt8 → List UInt8) (P : PairingGroups F G1 G2 GT) (N : ℕ)
    (calls : List (GateCall F)) (hc : (build calls).compile = some H.cc)
    (d : Domain F) (hd : Domain.new? H.cc.size = some d) (hw : H.w = d.gen) (hgen : H.g = P.g1)
    (hN : H.cc.size ≤ N) (hdig : ∀ b, 8 ≤ (H.env.sha256 b).length) :
    ((generateProof H.env T H.cc (Srs.newFromSecret P H.s N) H.bl).isSome = true ↔
      AllRelations calls ∧
      (H.α = 0 ∨ positionProduct calls H.cc.size H.w H.β H.γ = wiredProduct calls H.cc.size H.w H.β H.γ) ∧
      ¬ H.Degenerate) ∧
    ∀ p, generateProof H.env T H.cc (Srs.newFromSecret P H.s N) H.bl = some p → p = H.proof ∧
      verify H.env H.env.sha256 P H.cc (Srs.newFromSecret P H.s N) p =
        if H.ζ = 1 then none else some (.ok ()) := by
  have hwf := compile_wellFormed calls H.cc hc
  have S : Setting H P d N := ⟨hgen, hw, hd, hwf, hN, hdig⟩
  obtain ⟨h1, h2⟩ := C102_exactly H T P N d hd hw hgen hwf hN hdig
  have e1 : GatesSatisfied H.cc H.w ↔ AllRelations calls := by rw [hw]; exact gatesSatisfied_iff hc hd
  have e2 : ∏ i ∈ Finset.range H.n, H.rowNum i = positionProduct calls H.cc.size H.w H.β H.γ := by
    unfold positionProduct
    rw [show ∏ i ∈ Finset.range H.n, H.rowNum i = _ from (prod_positions fun l i =>
      wireVal H.cc H.w l i + H.β * posLabel H.cc H.w l i + H.γ).symm]
    refine Finset.prod_congr rfl fun p _ => ?_
    rw [hw, wireVal_compiled hc hd _ p.2.2, posLabel_compiled hc _ p.1.2]
  have e3 : ∏ i ∈ Finset.range H.n, H.rowDen i = wiredProduct calls H.cc.size H.w H.β H.γ := by
    unfold wiredProduct
    rw [show ∏ i ∈ Finset.range H.n, H.rowDen i = _ from (prod_positions fun l i =>
      wireVal H.cc H.w l i + H.β * sigmaVal H.cc H.w l i + H.γ).symm]
    refine Finset.prod_congr rfl fun p _ => ?_
    rw [hw, wireVal_compiled hc hd _ p.2.2, sigmaVal_compiled hc hd p.1.2 p.2.2]
  rw [e1, e2, e3] at h1 h2
  have hproof : ∀ p, generateProof H.env T H.cc (Srs.newFromSecret P H.s N) H.bl = some p → p = H.proof := by
    intro p hp
    by_cases hC : AllRelations calls ∧ (H.α = 0 ∨ positionProduct calls H.cc.size H.w H.β H.γ =
        wiredProduct calls H.cc.size H.w H.β H.γ) ∧ ¬ H.Degenerate
    · rw [h1 hC] at hp; exact (Option.some.inj hp).symm
    · rw [h2 hC] at hp; cases hp
  refine ⟨⟨fun hs => ?_, fun hC => by rw [h1 hC]; rfl⟩, fun p hp => ⟨hproof p hp, ?_⟩⟩
  · by_contra hC
    rw [h2 hC] at hs
    cases hs
  · have h49 := C49_proof_verifies H.env T hdig P H.s N H.cc hwf (hN.trans (Nat.le_add_right _ _)) H.bl p hp
    have hz : (p.challenges H.env H.env.sha256 P.g1).ev = H.ζ := by
      have hf : p.feedsBefore P.g1 3 = H.feeds3 := by
        rw [hproof p hp]
        simp only [Proof.feedsBefore, Honest.proof, Honest.feeds3, Honest.feeds2, Honest.feeds1, List.cons_append,
          List.nil_append]
      unfold Proof.challenges
      dsimp only
      rw [hf]; rfl
    rw [hz] at h49
    by_cases h : H.ζ = 1
    · rw [if_pos h]; exact h49.2 h
    · rw [if_neg h]; exact h49.1 h

/-- **C102** (copy constraints are not checked for `α = 0`): for every circuit whose gate relations hold — whatever its
wiring and however many copy constraints are violated — every non-degenerate run in which the challenge `α` is zero
and the evaluation challenge is not 1 returns a proof that the verifier accepts. -/
theorem C102_alpha_zero (H : Honest F G1) (T : List UInt8 → List UInt8) (P : PairingGroups F G1 G2 GT) (N : ℕ)
    (calls : List (GateCall F)) (hc : (build calls).compile = some H.cc)
    (d : Domain F) (hd : Domain.new? H.cc.size = some d) (hw : H.w = d.gen) (hgen : H.g = P.g1)
    (hN : H.cc.size ≤ N) (hdig : ∀ b, 8 ≤ (H.env.sha256 b).length)
    (hrel : AllRelations calls) (hα : H.α = 0) (hnd : ¬ H.Degenerate) (hζ : H.ζ ≠ 1) :
    ∃ p, generateProof H.env T H.cc (Srs.newFromSecret P H.s N) H.bl = some p ∧
      verify H.env H.env.sha256 P H.cc (Srs.newFromSecret P H.s N) p = some (.ok ()) := by
  obtain ⟨h1, h2⟩ := C102_compiled H T P N calls hc d hd hw hgen hN hdig
  obtain ⟨p, hp⟩ := Option.isSome_iff_exists.1 (h1.2 ⟨hrel, Or.inl hα, hnd⟩)
  refine ⟨p, hp, ?_⟩
  have := (h2 p hp).2
  rwa [if_neg hζ] at this

/-! ## Concrete runs -/

/-- Non-vacuity of `C102_compiled`: in the run `exHonest` all three conditions hold. -/
example : AllRelations exampleCalls ∧
    positionProduct exampleCalls 2 (-1) exHonest.β exHonest.γ =
      wiredProduct exampleCalls 2 (-1) exHonest.β exHonest.γ ∧ ¬ exHonest.Degenerate := by
  refine ⟨exCalls_relations, ?_, exHonest_nondegenerate⟩
  obtain ⟨σ, hσ⟩ := exCalls_wiring
  unfold positionProduct wiredProduct
  rw [← Equiv.prod_comp σ]
  refine Finset.prod_congr rfl fun p _ => ?_
  rw [(hσ p).1, (hσ p).2]

/-- The setting of `zeroAlphaRun`: a violated copy constraint and `α = 0`. -/
noncomputable def zeroAlphaHonest : Honest BlsFr BlsFr := ⟨zeroAlphaEnv, 1, 11, badCopyCC, -1, exBl⟩

theorem zeroAlpha_complete (T : List UInt8 → List UInt8) : AllRelations badCopyCalls ∧
    ¬ zeroAlphaHonest.Degenerate ∧
    generateProof zeroAlphaEnv T badCopyCC (Srs.newFromSecret (trivialGroups BlsFr) 11 2) exBl =
      some zeroAlphaHonest.proof := by
  obtain ⟨h1, h2⟩ := C102_compiled zeroAlphaHonest T (trivialGroups BlsFr) 2 badCopyCalls badCopyCC_compiled exD exD_eq
    rfl rfl (le_refl _) (fun b => by simp [zeroAlphaHonest, zeroAlphaEnv])
  have hsome : (generateProof zeroAlphaEnv T badCopyCC (Srs.newFromSecret (trivialGroups BlsFr) 11 2)
    exBl).isSome = true := by rw [zeroAlphaRun_eq]; exact zeroAlphaRun_isSome
  have h3 := h1.1 hsome
  obtain ⟨p, hp⟩ := Option.isSome_iff_exists.1 hsome
  refine ⟨h3.1, h3.2.2, ?_⟩
  rw [hp, (h2 p hp).1]

/-- Non-vacuity of `C102_alpha_zero`: the run `zeroAlphaHonest` meets its hypotheses, and a copy constraint is
violated. -/
example : AllRelations badCopyCalls ∧ zeroAlphaHonest.α = 0 ∧ ¬ zeroAlphaHonest.Degenerate ∧ zeroAlphaHonest.ζ ≠ 1 ∧
    callVal badCopyCalls 2 0 ≠ callVal badCopyCalls (target badCopyCalls 2 0).1 (target badCopyCalls 2 0).2 := by
  obtain ⟨h1, h2, h3⟩ := zeroAlpha_complete zeroAlphaEnv.sha256
  rw [zeroAlphaRun_eq] at h3
  refine ⟨h1, ?_, h2, ?_, ?_⟩
  · have := zeroAlphaRun_alpha
    rw [h3] at this
    exact Option.some.inj this
  · have := zeroAlphaRun_ev
    rw [h3, Option.map_some, Option.some.injEq, decide_eq_false_iff_not] at this
    exact this
  · simp only [callVal, target, rowVal, badCopyCalls]
    decide +kernel

end Verif.Plonk

import Verif.Plonk.Exactly

/-!
# C56 at the code: when `compute_quotient_polynomial` succeeds

`C56_quotient_identity` reasons about the polynomial identity; here the identity is tied to the function of the
prover that divides by the vanishing polynomial and panics on a remainder.
-/

set_option linter.unusedSectionVars false
set_option linter.unusedVariables false

namespace Verif.Plonk

open Polynomial Verif.Ark Verif.Kzg

variable {F : Type} [FftField F] [DecidableEq F]

/-- Value at row `i` of the wire of layer `l`, for three wire polynomials given by coefficients. -/
def rowValue (ax bx cx : DP F) (w : F) (l i : ℕ) : F :=
  match l with
  | 0 => Ark.eval ax (w ^ i)
  | 1 => Ark.eval bx (w ^ i)
  | _ => Ark.eval cx (w ^ i)

/-- **C56** (at the code): for any wire polynomials, accumulator `z` with its shift, circuit and challenges with
`α ≠ 0`, the quotient polynomial is computed, without a panic, if and only if every gate equation holds on every
row, the accumulator starts at one and every step of the accumulator multiplies by the ratio of the labelled wire
values. -/
theorem C56_computed_quotient {d : Domain F} (hv : d.Valid) (cc : CompiledCircuit F) (β γ α : F) (hα : α ≠ 0)
    (ax bx cx zx zwx : DP F) (hz : Canon zx)
    (hzw : ∀ i < d.size, Ark.eval zwx (d.gen ^ i) = Ark.eval zx (d.gen ^ (i + 1))) :
    (∃ t : DP F, computeQuotient β γ α ax bx cx zx zwx d cc = some t) ↔
      (∀ i < d.size, GateEq cc d.gen i (rowValue ax bx cx d.gen 0 i) (rowValue ax bx cx d.gen 1 i)
        (rowValue ax bx cx d.gen 2 i)) ∧
      Ark.eval zx 1 = 1 ∧
      ∀ i < d.size,
        (∏ l : Fin 3, (rowValue ax bx cx d.gen l i + β * posLabel cc d.gen l i + γ)) * Ark.eval zx (d.gen ^ i) =
        (∏ l : Fin 3, (rowValue ax bx cx d.gen l i + β * sigmaVal cc d.gen l i + γ)) *
          Ark.eval zx (d.gen ^ (i + 1)) := by
  have hα2 : α ^ 2 ≠ 0 := pow_ne_zero _ hα
  have unit : ∀ (k : F) (p : F[X]), k ≠ 0 → ((X ^ d.size - 1 : F[X]) ∣ C k * p ↔ (X ^ d.size - 1 : F[X]) ∣ p) := by
    intro k p hk
    exact (isUnit_C.2 hk.isUnit).dvd_mul_left
  have hgate : (X ^ d.size - 1 : F[X]) ∣ gatePoly cc (toPoly ax) (toPoly bx) (toPoly cx) ↔
      ∀ i < d.size, GateEq cc d.gen i (rowValue ax bx cx d.gen 0 i) (rowValue ax bx cx d.gen 1 i)
        (rowValue ax bx cx d.gen 2 i) := by
    rw [gatePoly_iff hv]
    simp only [rowValue, eval_eq]
  have hstart : (X ^ d.size - 1 : F[X]) ∣ (toPoly zx - 1) * toPoly (l1Poly d) ↔ Ark.eval zx 1 = 1 := by
    rw [hv.vanishing_dvd_iff]
    constructor
    · intro h
      have := h 0 d.size_pos
      rw [eval_mul, eval_l1_domain hv d.size_pos, if_pos rfl, pow_zero, mul_one, eval_sub, eval_one,
        ← eval_eq] at this
      linear_combination this
    · intro h i hi
      rw [eval_mul, eval_l1_domain hv hi]
      split
      · next h0 => subst h0; rw [pow_zero, eval_sub, eval_one, ← eval_eq, h]; ring
      · rw [mul_zero]
  have hperm : (X ^ d.size - 1 : F[X]) ∣ numPoly cc β γ (toPoly ax) (toPoly bx) (toPoly cx) * toPoly zx -
        denPoly cc β γ (toPoly ax) (toPoly bx) (toPoly cx) * toPoly zwx ↔
      ∀ i < d.size,
        (∏ l : Fin 3, (rowValue ax bx cx d.gen l i + β * posLabel cc d.gen l i + γ)) * Ark.eval zx (d.gen ^ i) =
        (∏ l : Fin 3, (rowValue ax bx cx d.gen l i + β * sigmaVal cc d.gen l i + γ)) *
          Ark.eval zx (d.gen ^ (i + 1)) := by
    rw [hv.vanishing_dvd_iff]
    refine forall_congr' fun i => forall_congr' fun hi => ?_
    rw [eval_sub, eval_mul, eval_mul, sub_eq_zero, ← eval_eq zwx, hzw i hi, ← eval_eq, Fin.prod_univ_three, Fin.prod_univ_three]
    simp only [numPoly, denPoly, rowValue, posLabel, sigmaVal, eval_add, eval_mul, eval_C, eval_X, ← eval_eq,
      Fin.val_zero, Fin.val_one, Fin.val_two, mul_assoc]
  constructor
  · rintro ⟨t, ht⟩
    rw [computeQuotient_iff hz, quotLine1_eq, permNum_eq, permDen_eq, unit _ _ hα, unit _ _ hα2] at ht
    exact ⟨hgate.1 ht.2.2.1, hstart.1 ht.2.2.2.2.1, hperm.1 ht.2.2.2.1⟩
  · rintro ⟨h1, h2, h3⟩
    have d1 := hgate.2 h1
    have d2 := (unit _ _ hα2).2 (hstart.2 h2)
    have d3 := (unit _ _ hα).2 (hperm.2 h3)
    have hne : zx ≠ [] := by
      rintro rfl
      simp [Ark.eval] at h2
    obtain ⟨q, hq⟩ := dvd_add (dvd_add d1 d3) d2
    refine ⟨listOf q, (computeQuotient_iff hz _).2 ?_⟩
    rw [quotLine1_eq, permNum_eq, permDen_eq]
    refine ⟨hne, canon_listOf q, d1, d3, d2, ?_⟩
    rw [toPoly_listOf, hq, mul_comm]

/-- **C56** (copies, at the code): for wire polynomials that violate the wiring `σ` at some position, all but `3n`
values of `β` have at most `3n` values of `γ` for which the quotient polynomial can be computed for any accumulator,
whatever `α ≠ 0`. -/
theorem C56_computed_quotient_copies {d : Domain F} (hv : d.Valid) (cc : CompiledCircuit F)
    (σ : Fin 3 × Fin d.size → Fin 3 × Fin d.size) (hσ : Wiring cc d.gen σ)
    (hlab : LabelsDistinct d.size cc d.gen) (ax bx cx : DP F) (p0 : Fin 3 × Fin d.size)
    (hbad : rowValue ax bx cx d.gen p0.1 p0.2 ≠ rowValue ax bx cx d.gen (σ p0).1 (σ p0).2) :
    ∃ B : Finset F, B.card ≤ 3 * d.size ∧ ∀ β ∉ B, ∃ Γ : Finset F, Γ.card ≤ 3 * d.size ∧
      ∀ (γ α : F) (zx zwx t : DP F), α ≠ 0 → Canon zx →
        (∀ i < d.size, Ark.eval zwx (d.gen ^ i) = Ark.eval zx (d.gen ^ (i + 1))) →
        computeQuotient β γ α ax bx cx zx zwx d cc = some t → γ ∈ Γ := by
  have hval : ∀ q : Fin 3 × Fin d.size, rowValue ax bx cx d.gen q.1 q.2 =
      polyVal (toPoly ax) (toPoly bx) (toPoly cx) d.gen q.1 q.2 := by
    rintro ⟨l, i⟩
    fin_cases l <;> simp [rowValue, polyVal, eval_eq]
  obtain ⟨B, hB, h⟩ := grand_product_counting (fun q : Fin 3 × Fin d.size => rowValue ax bx cx d.gen q.1 q.2)
    (fun q => posLabel cc d.gen q.1 q.2) hlab σ p0 hbad
  rw [Fintype.card_prod, Fintype.card_fin, Fintype.card_fin] at hB h
  refine ⟨B, hB, fun β hβ => ?_⟩
  obtain ⟨Γ, hΓ, hh⟩ := h β hβ
  refine ⟨Γ, hΓ, fun γ α zx zwx t hα hz hzw ht => hh _ ?_⟩
  obtain ⟨-, h1, h2⟩ := (C56_computed_quotient hv cc β γ α hα ax bx cx zx zwx hz hzw).1 ⟨t, ht⟩
  have htel := telescope hv (z := toPoly zx) (N := numPoly cc β γ (toPoly ax) (toPoly bx) (toPoly cx))
    (D := denPoly cc β γ (toPoly ax) (toPoly bx) (toPoly cx)) (by rw [← eval_eq]; exact h1) (by
      intro i hi
      have := h2 i hi
      rw [Fin.prod_univ_three, Fin.prod_univ_three] at this
      simp only [numPoly, denPoly, rowValue, posLabel, sigmaVal, eval_add, eval_mul, eval_C, eval_X, ← eval_eq,
        Fin.val_zero, Fin.val_one, Fin.val_two, mul_assoc] at this ⊢
      exact this)
  rw [prod_num, prod_den] at htel
  simp only [← hval] at htel
  rw [htel]
  refine Finset.prod_congr rfl fun q _ => ?_
  rw [hσ q]

/-- The hypotheses are met, and the quotient is computed, for the compiled circuit of the two-gate example with the
wires and accumulator the prover computes. -/
example : ∃ zx zwx t : DP BlsFr, Canon zx ∧
    (∀ i < exD.size, Ark.eval zwx (exD.gen ^ i) = Ark.eval zx (exD.gen ^ (i + 1))) ∧
    computeQuotient 5 7 3 (wirePoly exCC.gate.fax exBl.b1 exBl.b2 exD) (wirePoly exCC.gate.fbx exBl.b3 exBl.b4 exD)
      (wirePoly exCC.gate.fcx exBl.b5 exBl.b6 exD) zx zwx exD exCC = some t := by
  have hrun : ((accPolys 5 7 exBl exD exCC).bind fun z => computeQuotient 5 7 3
      (wirePoly exCC.gate.fax exBl.b1 exBl.b2 exD) (wirePoly exCC.gate.fbx exBl.b3 exBl.b4 exD)
      (wirePoly exCC.gate.fcx exBl.b5 exBl.b6 exD) z.1 z.2 exD exCC).isSome = true := by decide +kernel
  obtain ⟨t, ht⟩ := Option.isSome_iff_exists.1 hrun
  obtain ⟨⟨zx, zwx⟩, hz, ht⟩ := Option.bind_eq_some_iff.1 ht
  obtain ⟨-, -, -, -, hzw, hc, -⟩ := accPolys_spec (d := exD) (by exact exD_eq) rfl hz
  refine ⟨zx, zwx, t, hc, fun i _ => ?_, ht⟩
  rw [eval_eq, eval_eq, hzw, eval_comp, eval_mul, eval_C, eval_X, ← pow_succ']

/-- The wiring of `badCopyCC`. -/
def badCopyWiring : Fin 3 × Fin 2 → Fin 3 × Fin 2 := fun p =>
  match p.1.val, p.2.val with
  | 0, 0 => (0, 0)
  | 1, 0 => (1, 0)
  | 2, 0 => (0, 1)
  | 0, _ => (2, 0)
  | 1, _ => (1, 1)
  | _, _ => (2, 1)

/-- The hypotheses of the copy theorem are met by the circuit with a violated copy of `AlphaZero`. -/
example : exD.Valid ∧ Wiring badCopyCC exD.gen badCopyWiring ∧ LabelsDistinct 2 badCopyCC exD.gen ∧
    rowValue badCopyCC.gate.fax badCopyCC.gate.fbx badCopyCC.gate.fcx exD.gen 2 0 ≠
      rowValue badCopyCC.gate.fax badCopyCC.gate.fbx badCopyCC.gate.fcx exD.gen (badCopyWiring (2, 0)).1
        (badCopyWiring (2, 0)).2 := by
  refine ⟨(Domain.new?_valid exD_eq).1, ?_, ?_, ?_⟩
  · unfold Wiring; decide +kernel
  · unfold LabelsDistinct; decide +kernel
  · decide +kernel

end Verif.Plonk

import Verif.Plonk.Compiled
import Verif.Plonk.AlgSoundness

/-!
# Property C82: honest proving succeeds for all but a few challenges

`C50_honest_prover` says that for a satisfied circuit the prover returns the honest proof unless one of the
degenerate cases listed in `Honest.Degenerate` occurs.  Here the degenerate cases are counted: for every fixed
circuit and fixed blinding values (with non-zero leading coefficients) they occur only for few values of the
challenges, counted in the order in which the transcript produces them.
-/

set_option linter.unusedSectionVars false
set_option linter.unusedSimpArgs false
set_option linter.unusedVariables false

namespace Verif.Plonk

open Verif.Ark Verif.Kzg Polynomial

/-! ## Polynomials of the honest prover as functions of the challenges -/

section params
variable {F : Type} [FftField F] [DecidableEq F]

/-- `Xⁿ - 1` for the circuit. -/
noncomputable def pZ (cc : CompiledCircuit F) : F[X] := X ^ cc.size - 1
/-- left wire polynomial -/
noncomputable def pA (cc : CompiledCircuit F) (bl : Blinders F) : F[X] :=
  toPoly cc.gate.fax + (C bl.b2 + C bl.b1 * X) * pZ cc
/-- right wire polynomial -/
noncomputable def pB (cc : CompiledCircuit F) (bl : Blinders F) : F[X] :=
  toPoly cc.gate.fbx + (C bl.b4 + C bl.b3 * X) * pZ cc
/-- output wire polynomial -/
noncomputable def pC (cc : CompiledCircuit F) (bl : Blinders F) : F[X] :=
  toPoly cc.gate.fcx + (C bl.b6 + C bl.b5 * X) * pZ cc
/-- accumulator polynomial for challenges `β γ` -/
noncomputable def pz (cc : CompiledCircuit F) (w : F) (bl : Blinders F) (β γ : F) : F[X] :=
  Lagrange.interpolate (Finset.range cc.size) (fun i => w ^ i)
    (fun i => ∏ j ∈ Finset.range i,
      ((wireVal cc w 0 j + β * posLabel cc w 0 j + γ) * (wireVal cc w 1 j + β * posLabel cc w 1 j + γ) *
        (wireVal cc w 2 j + β * posLabel cc w 2 j + γ)) /
      ((wireVal cc w 0 j + β * sigmaVal cc w 0 j + γ) * (wireVal cc w 1 j + β * sigmaVal cc w 1 j + γ) *
        (wireVal cc w 2 j + β * sigmaVal cc w 2 j + γ))) +
  (C bl.b9 + C bl.b8 * X + C bl.b7 * X ^ 2) * pZ cc
/-- first Lagrange polynomial -/
noncomputable def pL (cc : CompiledCircuit F) (w : F) : F[X] :=
  Lagrange.basis (Finset.range cc.size) (fun i => w ^ i) 0
/-- part of the quotient numerator multiplied by `α` -/
noncomputable def pPerm (cc : CompiledCircuit F) (w : F) (bl : Blinders F) (β γ : F) : F[X] :=
  numPoly cc β γ (pA cc bl) (pB cc bl) (pC cc bl) * pz cc w bl β γ -
    denPoly cc β γ (pA cc bl) (pB cc bl) (pC cc bl) * (pz cc w bl β γ).comp (C w * X)
/-- part of the quotient numerator multiplied by `α²` -/
noncomputable def pStart (cc : CompiledCircuit F) (w : F) (bl : Blinders F) (β γ : F) : F[X] :=
  (pz cc w bl β γ - 1) * pL cc w
/-- quotient polynomial -/
noncomputable def pT (cc : CompiledCircuit F) (w : F) (bl : Blinders F) (β γ α : F) : F[X] :=
  (gatePoly cc (pA cc bl) (pB cc bl) (pC cc bl) + C α * pPerm cc w bl β γ + C (α ^ 2) * pStart cc w bl β γ) /ₘ pZ cc
/-- slice length -/
noncomputable def pM (cc : CompiledCircuit F) (w : F) (bl : Blinders F) (β γ α : F) : ℕ :=
  (pT cc w bl β γ α).natDegree / 3 + 1
/-- The value at 0 of the linearisation polynomial, as a polynomial in the evaluation challenge. -/
noncomputable def pR0 (cc : CompiledCircuit F) (w : F) (bl : Blinders F) (β γ α : F) : F[X] :=
  let z := pz cc w bl β γ
  let t := pT cc w bl β γ α
  let m := pM cc w bl β γ α
  pA cc bl * pB cc bl * C ((toPoly cc.gate.qmx).eval 0) + pA cc bl * C ((toPoly cc.gate.qlx).eval 0) +
    pB cc bl * C ((toPoly cc.gate.qrx).eval 0) + pC cc bl * C ((toPoly cc.gate.qox).eval 0) +
    C ((toPoly cc.gate.qcx).eval 0) + toPoly cc.gate.pix +
    C (α * z.eval 0) * numPoly cc β γ (pA cc bl) (pB cc bl) (pC cc bl) -
    C α * ((pA cc bl + C β * toPoly cc.copy.s1 + C γ) * (pB cc bl + C β * toPoly cc.copy.s2 + C γ) *
      z.comp (C w * X) * (pC cc bl + C (β * (toPoly cc.copy.s3).eval 0 + γ))) +
    C (α ^ 2 * (z.eval 0 - 1)) * pL cc w -
    pZ cc * (C ((t %ₘ X ^ m).eval 0) + C (((t /ₘ X ^ m) %ₘ X ^ m).eval 0) * X ^ m +
      C (((t /ₘ X ^ m) /ₘ X ^ m).eval 0) * X ^ (2 * m))
/-- The value at 1 (first row) of the selector part of the linearisation polynomial, as a polynomial in the
evaluation challenge. -/
noncomputable def pLin (cc : CompiledCircuit F) (bl : Blinders F) : F[X] :=
  pA cc bl * pB cc bl * C ((toPoly cc.gate.qmx).eval 1) + pA cc bl * C ((toPoly cc.gate.qlx).eval 1) +
    pB cc bl * C ((toPoly cc.gate.qrx).eval 1) + pC cc bl * C ((toPoly cc.gate.qox).eval 1) +
    C ((toPoly cc.gate.qcx).eval 1)

end params

/-! ## Links with the honest prover -/

section
variable {F : Type} [FftField F] [DecidableEq F]
  {G1 G2 GT : Type} [AddCommGroup G1] [Module F G1] [AddCommGroup G2] [Module F G2]
  [AddCommGroup GT] [Module F GT] [DecidableEq GT]

namespace Honest
variable (H : Honest F G1)

theorem a_eq_p : H.a = pA H.cc H.bl := rfl
theorem b_eq_p : H.b = pB H.cc H.bl := rfl
theorem c_eq_p : H.c = pC H.cc H.bl := rfl
theorem z_eq_p : H.z = pz H.cc H.w H.bl H.β H.γ := rfl
theorem t_eq_p : H.t = pT H.cc H.w H.bl H.β H.γ H.α := rfl

theorem r_eval0 : H.r.eval 0 = (pR0 H.cc H.w H.bl H.β H.γ H.α).eval H.ζ := by
  unfold Honest.r Honest.lin1 pR0 Honest.bar numPoly
  simp only [eval_add, eval_sub, eval_mul, eval_C, eval_X, eval_pow, eval_one, eval_comp, ← a_eq_p, ← b_eq_p,
    ← c_eq_p, ← z_eq_p, ← t_eq_p]
  have e1 : (H.tLo).eval 0 = (H.t %ₘ X ^ pM H.cc H.w H.bl H.β H.γ H.α).eval 0 := rfl
  have e2 : (H.tMid).eval 0 = ((H.t /ₘ X ^ pM H.cc H.w H.bl H.β H.γ H.α) %ₘ X ^ pM H.cc H.w H.bl H.β H.γ H.α).eval 0 := rfl
  have e3 : (H.tHi).eval 0 = ((H.t /ₘ X ^ pM H.cc H.w H.bl H.β H.γ H.α) /ₘ X ^ pM H.cc H.w H.bl H.β H.γ H.α).eval 0 := rfl
  have e4 : H.m = pM H.cc H.w H.bl H.β H.γ H.α := rfl
  have e5 : (pZ H.cc).eval H.ζ = H.ζ ^ H.n - 1 := by simp [pZ, Honest.n]
  have e6 : pL H.cc H.w = H.L1 := rfl
  rw [e1, e2, e3, e4, e5, e6, mul_comm H.w H.ζ]
  ring

theorem lin1_eval1 : H.lin1.eval 1 = (pLin H.cc H.bl).eval H.ζ := by
  unfold Honest.lin1 pLin Honest.bar
  simp only [eval_add, eval_sub, eval_mul, eval_C, ← a_eq_p, ← b_eq_p, ← c_eq_p]

end Honest

namespace Setting
variable {H : Honest F G1} {P : PairingGroups F G1 G2 GT} {d : Domain F} {N : ℕ} (S : Setting H P d N)
include S

theorem coeff_wire {f : DP F} (hf : f ∈ H.cc.polys) (x y : F) :
    (toPoly f + (C x + C y * X) * H.Z).coeff (H.n + 1) = y := by
  have hn : 0 < H.n := S.npos
  have h1 : (toPoly f).coeff (H.n + 1) = 0 := coeff_eq_zero_of_natDegree_lt (by have := S.len hf; omega)
  have h2 : ((C x + C y * X) * H.Z).coeff (1 + H.n) = (C x + C y * X : F[X]).coeff 1 * H.Z.coeff H.n :=
    coeff_mul_add_eq_of_natDegree_le (natDegree_blind1 x y) (natDegree_Z_le (F := F) H.n)
  rw [coeff_add, h1, add_comm H.n 1, h2, Honest.Z]
  simp [coeff_one, hn.ne', coeff_C]

theorem coeff_a : H.a.coeff (H.n + 1) = H.bl.b1 := S.coeff_wire (by simp [CompiledCircuit.polys]) _ _
theorem coeff_b : H.b.coeff (H.n + 1) = H.bl.b3 := S.coeff_wire (by simp [CompiledCircuit.polys]) _ _
theorem coeff_c : H.c.coeff (H.n + 1) = H.bl.b5 := S.coeff_wire (by simp [CompiledCircuit.polys]) _ _

theorem coeff_z : H.z.coeff (H.n + 2) = H.bl.b7 := by
  have hn : 0 < H.n := S.npos
  have h1 : H.acc.coeff (H.n + 2) = 0 := coeff_eq_zero_of_natDegree_lt (by have := S.deg_acc; omega)
  have h2 : ((C H.bl.b9 + C H.bl.b8 * X + C H.bl.b7 * X ^ 2) * H.Z).coeff (2 + H.n) =
      (C H.bl.b9 + C H.bl.b8 * X + C H.bl.b7 * X ^ 2 : F[X]).coeff 2 * H.Z.coeff H.n :=
    coeff_mul_add_eq_of_natDegree_le (natDegree_blind2 _ _ _) (natDegree_Z_le (F := F) H.n)
  rw [Honest.z, coeff_add, h1, add_comm H.n 2, h2, Honest.Z]
  simp [coeff_one, hn.ne', coeff_C, coeff_X]

theorem w_ne : H.w ≠ 0 := by
  rw [S.w_eq]
  intro h0
  have := S.hv.pow_size
  rw [h0, zero_pow d.size_pos.ne'] at this
  exact zero_ne_one this

theorem coeff_zw : (H.z.comp (C H.w * X)).coeff (H.n + 2) = H.bl.b7 * H.w ^ (H.n + 2) := by
  rw [comp_C_mul_X_coeff, S.coeff_z]

theorem deg_L1 : H.L1.natDegree ≤ H.n := by
  rw [← S.toPoly_l1']
  exact natDegree_of_length ((d.length_interpolate_le _).trans (by rw [S.hs]; exact Nat.le_succ _))

theorem coeff_blindFactor {p q : F[X]} (x g : F) (hq : q.natDegree ≤ H.n) :
    (p + C x * q + C g).coeff (H.n + 1) = p.coeff (H.n + 1) := by
  rw [coeff_add, coeff_add, coeff_C_mul, coeff_eq_zero_of_natDegree_lt (p := q) (by omega), mul_zero, add_zero,
    coeff_C_of_ne_zero (by omega), add_zero]

theorem deg_blindFactor {p q : F[X]} (x g : F) (hp : p.natDegree ≤ H.n + 1) (hq : q.natDegree ≤ H.n) :
    (p + C x * q + C g).natDegree ≤ H.n + 1 :=
  natDegree_add_le_of_le' (natDegree_add_le_of_le' hp (natDegree_C_mul_le' _ (hq.trans (by omega))))
    (by rw [natDegree_C]; omega)

/-- The polynomial `pR0` has degree at most `4n+5`, and its leading coefficient is non-zero. -/
theorem r0_spec : (pR0 H.cc H.w H.bl H.β H.γ H.α).natDegree ≤ 4 * H.n + 5 ∧
    (pR0 H.cc H.w H.bl H.β H.γ H.α).coeff (4 * H.n + 5) =
      - (H.α * (H.bl.b1 * H.bl.b3 * (H.bl.b7 * H.w ^ (H.n + 2)) * H.bl.b5)) := by
  have hn : 0 < H.n := S.npos
  have da := S.deg_a
  have db := S.deg_b
  have dc := S.deg_c
  have dz := S.deg_z
  have hm := S.m_le
  have sel : ∀ p ∈ H.cc.polys, (toPoly p).natDegree ≤ H.n := fun p hp => (S.len hp).trans (by omega)
  have lin : ∀ x : F, (C x * X : F[X]).natDegree ≤ H.n + 1 := fun x =>
    ((natDegree_C_mul_le _ _).trans natDegree_X_le).trans (by omega)
  have con : ∀ (x : F) (k : ℕ), (C x : F[X]).natDegree ≤ k := fun x k => by rw [natDegree_C]; omega
  have hnum : (numPoly H.cc H.β H.γ H.a H.b H.c).natDegree ≤ 3 * H.n + 3 := by
    unfold numPoly
    have := natDegree_mul_le_of_le' (natDegree_mul_le_of_le'
      (natDegree_add_le_of_le' (natDegree_add_le_of_le' da (lin H.β)) (con H.γ _))
      (natDegree_add_le_of_le' (natDegree_add_le_of_le' db (lin (H.β * H.cc.copy.k1))) (con H.γ _)))
      (natDegree_add_le_of_le' (natDegree_add_le_of_le' dc (lin (H.β * H.cc.copy.k2))) (con H.γ _))
    exact this.trans (by omega)
  have s1 := sel H.cc.copy.s1 (by simp [CompiledCircuit.polys])
  have s2 := sel H.cc.copy.s2 (by simp [CompiledCircuit.polys])
  have fa := S.deg_blindFactor H.β H.γ da s1
  have fb := S.deg_blindFactor H.β H.γ db s2
  have fz : (H.z.comp (C H.w * X)).natDegree ≤ H.n + 2 := (natDegree_comp_scale _ _).trans dz
  have fc : (H.c + C (H.β * (toPoly H.cc.copy.s3).eval 0 + H.γ)).natDegree ≤ H.n + 1 :=
    natDegree_add_le_of_le' dc (con _ _)
  have fabz := natDegree_mul_le_of_le' (natDegree_mul_le_of_le' fa fb) fz
  have hcoeff : ((H.a + C H.β * toPoly H.cc.copy.s1 + C H.γ) * (H.b + C H.β * toPoly H.cc.copy.s2 + C H.γ) *
      H.z.comp (C H.w * X) * (H.c + C (H.β * (toPoly H.cc.copy.s3).eval 0 + H.γ))).coeff
        ((H.n + 1) + (H.n + 1) + (H.n + 2) + (H.n + 1)) =
      H.bl.b1 * H.bl.b3 * (H.bl.b7 * H.w ^ (H.n + 2)) * H.bl.b5 := by
    rw [coeff_mul_add_eq_of_natDegree_le fabz fc,
      coeff_mul_add_eq_of_natDegree_le (natDegree_mul_le_of_le' fa fb) fz,
      coeff_mul_add_eq_of_natDegree_le fa fb, S.coeff_blindFactor _ _ s1, S.coeff_blindFactor _ _ s2, S.coeff_zw,
      coeff_add, coeff_C_of_ne_zero (by omega), add_zero, S.coeff_a, S.coeff_b, S.coeff_c]
  have hdeg := natDegree_mul_le_of_le' fabz fc
  have eN : (H.n + 1) + (H.n + 1) + (H.n + 2) + (H.n + 1) = 4 * H.n + 5 := by omega
  rw [eN] at hcoeff hdeg
  unfold pR0
  dsimp only
  simp only [← Honest.a_eq_p, ← Honest.b_eq_p, ← Honest.c_eq_p, ← Honest.z_eq_p, ← Honest.t_eq_p]
  generalize (H.a + C H.β * toPoly H.cc.copy.s1 + C H.γ) * (H.b + C H.β * toPoly H.cc.copy.s2 + C H.γ) *
      H.z.comp (C H.w * X) * (H.c + C (H.β * (toPoly H.cc.copy.s3).eval 0 + H.γ)) = T at hcoeff hdeg ⊢
  have h1 : (H.a * H.b * C ((toPoly H.cc.gate.qmx).eval 0) + H.a * C ((toPoly H.cc.gate.qlx).eval 0) +
    H.b * C ((toPoly H.cc.gate.qrx).eval 0) + H.c * C ((toPoly H.cc.gate.qox).eval 0) +
    C ((toPoly H.cc.gate.qcx).eval 0) + toPoly H.cc.gate.pix +
    C (H.α * H.z.eval 0) * numPoly H.cc H.β H.γ H.a H.b H.c).natDegree ≤ 4 * H.n + 4 := by
    refine natDegree_add_le_of_le' (natDegree_add_le_of_le' (natDegree_add_le_of_le' (natDegree_add_le_of_le'
      (natDegree_add_le_of_le' (natDegree_add_le_of_le' ?_ ?_) ?_) ?_) (con _ _)) ?_) (natDegree_C_mul_le' _ ?_)
    · exact (natDegree_mul_le_of_le' (natDegree_mul_le_of_le' da db) (con _ 0)).trans (by omega)
    · exact (natDegree_mul_le_of_le' da (con _ 0)).trans (by omega)
    · exact (natDegree_mul_le_of_le' db (con _ 0)).trans (by omega)
    · exact (natDegree_mul_le_of_le' dc (con _ 0)).trans (by omega)
    · exact (sel _ (by simp [CompiledCircuit.polys])).trans (by omega)
    · omega
  have h2 : (C (H.α ^ 2 * (H.z.eval 0 - 1)) * pL H.cc H.w).natDegree ≤ 4 * H.n + 4 := by
    have := S.deg_L1
    exact natDegree_C_mul_le' _ (show H.L1.natDegree ≤ _ by omega)
  have hm' : pM H.cc H.w H.bl H.β H.γ H.α ≤ H.n + 2 := hm
  have h3 : ∀ x y u : F, (pZ H.cc * (C x + C y * X ^ pM H.cc H.w H.bl H.β H.γ H.α +
      C u * X ^ (2 * pM H.cc H.w H.bl H.β H.γ H.α))).natDegree ≤ 4 * H.n + 4 := by
    intro x y u
    have hx : ∀ k : ℕ, (X ^ k : F[X]).natDegree ≤ k := fun k => natDegree_X_pow_le k
    have h4 : (C x + C y * X ^ pM H.cc H.w H.bl H.β H.γ H.α +
      C u * X ^ (2 * pM H.cc H.w H.bl H.β H.γ H.α) : F[X]).natDegree ≤ 2 * H.n + 4 := by
      refine natDegree_add_le_of_le' (natDegree_add_le_of_le' (con _ _) (natDegree_C_mul_le' _ ?_))
        (natDegree_C_mul_le' _ ?_)
      · exact (hx _).trans (by omega)
      · exact (hx _).trans (by omega)
    have h5 : (pZ H.cc).natDegree ≤ H.n := natDegree_Z_le _
    exact (natDegree_mul_le_of_le' h5 h4).trans (by omega)
  specialize h3 ((H.t %ₘ X ^ pM H.cc H.w H.bl H.β H.γ H.α).eval 0)
    (((H.t /ₘ X ^ pM H.cc H.w H.bl H.β H.γ H.α) %ₘ X ^ pM H.cc H.w H.bl H.β H.γ H.α).eval 0)
    (((H.t /ₘ X ^ pM H.cc H.w H.bl H.β H.γ H.α) /ₘ X ^ pM H.cc H.w H.bl H.β H.γ H.α).eval 0)
  constructor
  · exact natDegree_sub_le_of_le' (natDegree_add_le_of_le' (natDegree_sub_le_of_le' (h1.trans (by omega))
      (natDegree_C_mul_le' _ hdeg)) (h2.trans (by omega))) (h3.trans (by omega))
  · have z1 := coeff_eq_zero_of_natDegree_lt (lt_of_le_of_lt h1 (by omega : 4 * H.n + 4 < 4 * H.n + 5))
    have z2 := coeff_eq_zero_of_natDegree_lt (lt_of_le_of_lt h2 (by omega : 4 * H.n + 4 < 4 * H.n + 5))
    have z3 := coeff_eq_zero_of_natDegree_lt (lt_of_le_of_lt h3 (by omega : 4 * H.n + 4 < 4 * H.n + 5))
    rw [coeff_sub, coeff_add, coeff_sub, z1, z2, z3, coeff_C_mul, hcoeff]
    ring

/-- `t = 0` only for roots of a non-zero quadratic. -/
theorem t_ne (h7 : H.bl.b7 ≠ 0) : pStart H.cc H.w H.bl H.β H.γ ≠ 0 := by
  have hn : 0 < H.n := S.npos
  refine mul_ne_zero ?_ ?_
  · intro h
    have : (pz H.cc H.w H.bl H.β H.γ - 1).coeff (H.n + 2) = (0 : F[X]).coeff (H.n + 2) := by rw [h]
    rw [← Honest.z_eq_p, coeff_sub, S.coeff_z, coeff_zero, coeff_one, if_neg (by omega), sub_zero] at this
    exact h7 this
  · intro h
    have := S.eval_L1 hn
    rw [show H.L1 = pL H.cc H.w from rfl, h, eval_zero, if_pos rfl] at this
    exact zero_ne_one this

/-- The polynomial `pLin` has degree at most `2n+2` and is not zero when the first row is a gate call. -/
theorem lin_spec {calls : List (GateCall F)} (hc : (build calls).compile = some H.cc)
    (h1 : H.bl.b1 ≠ 0) (h3 : H.bl.b3 ≠ 0) (hsum : H.bl.b1 + H.bl.b3 ≠ H.bl.b5) :
    (pLin H.cc H.bl).natDegree ≤ 2 * H.n + 2 ∧ pLin H.cc H.bl ≠ 0 := by
  have hn : 0 < H.n := S.npos
  have da := S.deg_a
  have db := S.deg_b
  have dc := S.deg_c
  have con : ∀ (x : F) (k : ℕ), (C x : F[X]).natDegree ≤ k := fun x k => by rw [natDegree_C]; omega
  obtain ⟨d', hd', -, hint⟩ := C45_interpolates calls H.cc hc
  have h2 : 2 ≤ calls.length := (compile_some calls H.cc hc).choose_spec.2.2.2.1
  obtain ⟨call, hcall⟩ : ∃ call, calls[0]? = some call := ⟨calls[0], List.getElem?_eq_getElem (by omega)⟩
  simp only [List.mem_cons, List.not_mem_nil, or_false, forall_eq_or_imp, forall_eq] at hint
  obtain ⟨-, -, -, hl, hr, ho, hm, hq, -⟩ := hint
  have hl := hl.1 0 S.npos
  have hr := hr.1 0 S.npos
  have ho := ho.1 0 S.npos
  have hm := hm.1 0 S.npos
  have hq := hq.1 0 S.npos
  simp only [rowVal, hcall, pow_zero, eval_eq] at hl hr ho hm hq
  constructor
  · unfold pLin
    refine natDegree_add_le_of_le' (natDegree_add_le_of_le' (natDegree_add_le_of_le' (natDegree_add_le_of_le'
      ?_ ?_) ?_) ?_) (con _ _)
    · exact (natDegree_mul_le_of_le' (natDegree_mul_le_of_le' da db) (con _ 0)).trans (by omega)
    · exact (natDegree_mul_le_of_le' da (con _ 0)).trans (by omega)
    · exact (natDegree_mul_le_of_le' db (con _ 0)).trans (by omega)
    · exact (natDegree_mul_le_of_le' dc (con _ 0)).trans (by omega)
  · unfold pLin
    simp only [← Honest.a_eq_p, ← Honest.b_eq_p, ← Honest.c_eq_p]
    rw [hl, hr, ho, hm, hq]
    unfold GateCall.gate
    cases call.ty with
    | addition =>
      intro h0
      have e : (H.a + H.b - H.c).coeff (H.n + 1) = 0 := by
        have : H.a + H.b - H.c = 0 := by
          rw [← h0]; simp [Gate.newAdd]; ring
        rw [this, coeff_zero]
      rw [coeff_sub, coeff_add, S.coeff_a, S.coeff_b, S.coeff_c] at e
      exact hsum (sub_eq_zero.1 e)
    | multiplication =>
      intro h0
      have e : (H.a * H.b - H.c).coeff ((H.n + 1) + (H.n + 1)) = 0 := by
        have : H.a * H.b - H.c = 0 := by
          rw [← h0]; simp [Gate.newMul]; ring
        rw [this, coeff_zero]
      rw [coeff_sub, coeff_mul_add_eq_of_natDegree_le da db, S.coeff_a, S.coeff_b,
        coeff_eq_zero_of_natDegree_lt (p := H.c) (by omega), sub_zero] at e
      exact mul_ne_zero h1 h3 e
    | constant =>
      intro h0
      have e : (H.a - C call.a.2.2).coeff (H.n + 1) = 0 := by
        have : H.a - C call.a.2.2 = 0 := by
          rw [← h0]; simp [Gate.newConstant]; ring
        rw [this, coeff_zero]
      rw [coeff_sub, S.coeff_a, coeff_C_of_ne_zero (by omega), sub_zero] at e
      exact h1 e

end Setting
end

/-! ## The count -/

section count
variable {F : Type} [FftField F] [DecidableEq F]

/-- A set covering the roots of a polynomial of degree at most `k`. -/
noncomputable def rootSet (k : ℕ) (p : F[X]) : Finset F := if p.natDegree ≤ k then p.roots.toFinset else ∅

theorem card_rootSet (k : ℕ) (p : F[X]) : (rootSet k p).card ≤ k := by
  unfold rootSet
  split
  · rename_i h
    exact (Multiset.toFinset_card_le _).trans ((card_roots' p).trans h)
  · simp

theorem mem_rootSet {k : ℕ} {p : F[X]} {x : F} (h1 : p.natDegree ≤ k) (h2 : p ≠ 0) (h3 : p.eval x = 0) :
    x ∈ rootSet k p := by
  unfold rootSet
  rw [if_pos h1, Multiset.mem_toFinset, mem_roots h2]
  exact h3

/-- Values of `α` for which the quotient is zero. -/
noncomputable def alphaPoly (cc : CompiledCircuit F) (w : F) (bl : Blinders F) (β γ : F) : F[X] :=
  let k := (pStart cc w bl β γ).natDegree
  C ((gatePoly cc (pA cc bl) (pB cc bl) (pC cc bl)).coeff k) + C ((pPerm cc w bl β γ).coeff k) * X +
    C ((pStart cc w bl β γ).coeff k) * X ^ 2

end count

section bls

theorem label_ne_zero_bls {d : Domain BlsFr} (hv : d.Valid) {l : ℕ} (hl : l < 3) (i : ℕ) :
    label d.gen l i ≠ 0 := by
  unfold label
  refine mul_ne_zero ?_ (pow_ne_zero _ ?_)
  · rcases l with _ | _ | _ | l
    · decide +kernel
    · decide +kernel
    · decide +kernel
    · omega
  · intro h0
    have := hv.pow_size
    rw [h0, zero_pow d.size_pos.ne'] at this
    exact zero_ne_one this

theorem sigma_ne_zero_bls {calls : List (GateCall BlsFr)} {cc : CompiledCircuit BlsFr}
    (hc : (build calls).compile = some cc) :
    toPoly cc.copy.s1 ≠ 0 ∧ toPoly cc.copy.s2 ≠ 0 ∧ toPoly cc.copy.s3 ≠ 0 := by
  obtain ⟨d, hd, hv, hs, h2, hle, hval, -⟩ := compile_some calls cc hc
  have hpos : 0 < cc.size := by omega
  obtain ⟨call, hcall⟩ : ∃ call, calls[0]? = some call := ⟨calls[0], List.getElem?_eq_getElem (by omega)⟩
  have key : ∀ l < 3, sigmaVal cc d.gen l 0 ≠ 0 := by
    intro l hl
    rw [sigmaVal_compiled hc hd hl hpos]
    refine label_ne_zero_bls hv ?_ _
    unfold target
    rw [hcall]
    obtain ⟨h1, h2, h3⟩ := hval call (List.mem_of_getElem? hcall)
    dsimp only
    split
    · exact h1.1
    · exact h2.1
    · exact h3.1
  refine ⟨fun h => key 0 (by omega) ?_, fun h => key 1 (by omega) ?_, fun h => key 2 (by omega) ?_⟩
  · show Ark.eval cc.copy.s1 _ = 0
    rw [eval_eq, h, eval_zero]
  · show Ark.eval cc.copy.s2 _ = 0
    rw [eval_eq, h, eval_zero]
  · show Ark.eval cc.copy.s3 _ = 0
    rw [eval_eq, h, eval_zero]

/-- **C82**: fix a circuit over BLS12-381 `Fr` built with the gate calls whose relations hold and whose
positions form a value-preserving permutation, and blinding values with `b1, b3, b5, b7 ≠ 0` and `b1 + b3 ≠ b5`.
Then for all but one value of `β`, all but `3n` values of `γ`, all but 3 values of `α` and all but `6n + 8`
values of the evaluation challenge, `generate_proof` returns a proof and `verify` accepts it: for every pairing,
secret, SRS of size at least the circuit size, hash function (of at least 8 bytes) and random generator which
produce these challenges in the honest run.  (`H.β`, `H.γ`, `H.α`, `H.ζ` are the challenges of the
specification `Honest`: hash of the honest commitments so far.) -/
theorem C82_honest_proving_succeeds (calls : List (GateCall BlsFr)) (cc : CompiledCircuit BlsFr)
    (hc : (build calls).compile = some cc) (hrel : AllRelations calls) (hwire : WiringOk cc.size calls)
    (d : Domain BlsFr) (hd : Domain.new? cc.size = some d)
    (bl : Blinders BlsFr) (h1 : bl.b1 ≠ 0) (h3 : bl.b3 ≠ 0) (h5 : bl.b5 ≠ 0) (h7 : bl.b7 ≠ 0)
    (hsum : bl.b1 + bl.b3 ≠ bl.b5) :
    AllBut 1 fun β : BlsFr => AllBut (3 * cc.size) fun γ : BlsFr => AllBut 3 fun α : BlsFr =>
    AllBut (6 * cc.size + 8) fun ζ : BlsFr =>
      ∀ (G1 G2 GT : Type) [AddCommGroup G1] [Module BlsFr G1] [AddCommGroup G2] [Module BlsFr G2]
        [AddCommGroup GT] [Module BlsFr GT] [DecidableEq GT]
        (env : Env BlsFr G1) (T : List UInt8 → List UInt8) (P : PairingGroups BlsFr G1 G2 GT) (s : BlsFr) (N : ℕ)
        (H : Honest BlsFr G1), H = ⟨env, P.g1, s, cc, d.gen, bl⟩ →
        cc.size ≤ N → (∀ b, 8 ≤ (env.sha256 b).length) →
        H.β = β → H.γ = γ → H.α = α → H.ζ = ζ →
        ∃ p, generateProof env T cc (Srs.newFromSecret P s N) bl = some p ∧
          verify env env.sha256 P cc (Srs.newFromSecret P s N) p = some (.ok ()) := by
  refine ⟨{0}, by simp, fun β hβ => ?_⟩
  refine ⟨(Finset.range 3 ×ˢ Finset.range cc.size).image
    (fun q => -(wireVal cc d.gen q.1 q.2 + β * sigmaVal cc d.gen q.1 q.2)), ?_, fun γ hγ => ?_⟩
  · exact Finset.card_image_le.trans (by simp)
  refine ⟨{0} ∪ rootSet 2 (alphaPoly cc d.gen bl β γ), ?_, fun α hα => ?_⟩
  · refine (Finset.card_union_le _ _).trans ?_
    have := card_rootSet 2 (alphaPoly cc d.gen bl β γ)
    rw [Finset.card_singleton]; omega
  refine ⟨{1} ∪ (rootSet (4 * cc.size + 5) (pR0 cc d.gen bl β γ α) ∪ rootSet (2 * cc.size + 2) (pLin cc bl)), ?_,
    fun ζ hζ => ?_⟩
  · refine (Finset.card_union_le _ _).trans ?_
    have := card_rootSet (4 * cc.size + 5) (pR0 cc d.gen bl β γ α)
    have := card_rootSet (2 * cc.size + 2) (pLin cc bl)
    have := Finset.card_union_le (rootSet (4 * cc.size + 5) (pR0 cc d.gen bl β γ α))
      (rootSet (2 * cc.size + 2) (pLin cc bl))
    rw [Finset.card_singleton]; omega
  intro G1 G2 GT _ _ _ _ _ _ _ env T P s N H hH hN hdig eβ eγ eα eζ
  have ecc : H.cc = cc := by rw [hH]
  have ebl : H.bl = bl := by rw [hH]
  have ew : H.w = d.gen := by rw [hH]
  have eg : H.g = P.g1 := by rw [hH]
  have ee : H.env = env := by rw [hH]
  have es : H.s = s := by rw [hH]
  clear hH
  subst ecc ebl ee es eβ eγ eα eζ
  rw [← ew] at hγ hα hζ
  have S : Setting H P d N := ⟨eg, ew, hd, compile_wellFormed calls H.cc hc, hN, hdig⟩
  have hn : 0 < H.n := S.npos
  simp only [Finset.mem_singleton, Finset.mem_union, not_or] at hβ hα hζ
  obtain ⟨hα0, hα⟩ := hα
  obtain ⟨hζ1, hζr, hζl⟩ := hζ
  have hw0 : H.w ≠ 0 := S.w_ne
  have hden : ∀ i < H.n, ∀ l < 3, wireVal H.cc H.w l i + H.β * sigmaVal H.cc H.w l i + H.γ ≠ 0 := by
    intro i hi l hl h0
    refine hγ (Finset.mem_image.2 ⟨(l, i), by simp [hl]; exact hi, ?_⟩)
    dsimp only
    linear_combination -h0
  have hnd : ¬ H.Degenerate := by
    unfold Honest.Degenerate
    push Not
    obtain ⟨hs1, hs2, hs3⟩ := sigma_ne_zero_bls hc
    refine ⟨?_, ?_, ?_, hβ, ?_, ?_, ?_, ?_, hs1, hs2, hs3⟩
    · intro i hi
      exact mul_ne_zero (mul_ne_zero (hden i (by omega) 0 (by omega)) (hden i (by omega) 1 (by omega)))
        (hden i (by omega) 2 (by omega))
    · intro ht
      have hg := hrel
      have hmul := S.t_mul (S.dvd_gate (ew ▸ (gatesSatisfied_iff hc hd).2 hrel))
        ((S.dvd_perm (S.prod_rows (ew ▸ copiesSatisfied_of hc hd hwire))
        (fun i hi => mul_ne_zero (mul_ne_zero (hden i (by omega) 0 (by omega)) (hden i (by omega) 1 (by omega)))
        (hden i (by omega) 2 (by omega)))).mul_left _)
      have hq : H.qnum = 0 := by rw [← hmul, ht]; ring
      have hst := S.t_ne h7
      have hlead : (pStart H.cc H.w H.bl H.β H.γ).coeff (pStart H.cc H.w H.bl H.β H.γ).natDegree ≠ 0 := by
        rw [coeff_natDegree]; exact leadingCoeff_ne_zero.2 hst
      refine hα (mem_rootSet (natDegree_blind2 _ _ _) ?_ ?_)
      · intro h0
        apply hlead
        have e : (alphaPoly H.cc H.w H.bl H.β H.γ).coeff 2 = (0 : BlsFr[X]).coeff 2 := by rw [h0]
        unfold alphaPoly at e
        simpa [coeff_C, coeff_X] using e
      · have e : H.qnum.coeff (pStart H.cc H.w H.bl H.β H.γ).natDegree = 0 := by rw [hq, coeff_zero]
        have e2 : H.qnum = gatePoly H.cc (pA H.cc H.bl) (pB H.cc H.bl) (pC H.cc H.bl) +
          C H.α * pPerm H.cc H.w H.bl H.β H.γ + C (H.α ^ 2) * pStart H.cc H.w H.bl H.β H.γ := rfl
        rw [e2, coeff_add, coeff_add, coeff_C_mul, coeff_C_mul] at e
        unfold alphaPoly
        simp only [eval_add, eval_mul, eval_C, eval_X, eval_pow]
        linear_combination e
    · intro hl0
      obtain ⟨hdl, hne⟩ := S.lin_spec hc h1 h3 hsum
      refine hζl (mem_rootSet hdl hne ?_)
      rw [← Honest.lin1_eval1, hl0, eval_zero]
    · intro hr0
      obtain ⟨hdr, hcr⟩ := S.r0_spec
      refine hζr (mem_rootSet hdr ?_ ?_)
      · intro h0
        rw [h0, coeff_zero] at hcr
        exact neg_ne_zero.2 (mul_ne_zero hα0 (mul_ne_zero (mul_ne_zero (mul_ne_zero h1 h3)
          (mul_ne_zero h7 (pow_ne_zero _ hw0))) h5)) hcr.symm
      · rw [← Honest.r_eval0, hr0, eval_zero]
    · intro h0
      have := S.coeff_a
      rw [h0, coeff_zero] at this
      exact h1 this.symm
    · intro h0
      have := S.coeff_b
      rw [h0, coeff_zero] at this
      exact h3 this.symm
    · intro h0
      have := S.coeff_c
      rw [h0, coeff_zero] at this
      exact h5 this.symm
  obtain ⟨hp, hv⟩ := C50_compiled H T P N calls hc d hd ew eg hN hdig hrel hwire hnd
  exact ⟨H.proof, hp, hv hζ1⟩

end bls

/-- Non-vacuity of C82: the two-gate example satisfies the hypotheses, and its honest run has challenges. -/
example : AllBut 1 fun β : BlsFr => AllBut 6 fun γ : BlsFr => AllBut 3 fun α : BlsFr => AllBut 20 fun ζ : BlsFr =>
    exHonest.β = β → exHonest.γ = γ → exHonest.α = α → exHonest.ζ = ζ →
    ∃ p, generateProof exEnv exEnv.sha256 exCC (Srs.newFromSecret (trivialGroups BlsFr) 11 2) exBl = some p ∧
      verify exEnv exEnv.sha256 (trivialGroups BlsFr) exCC (Srs.newFromSecret (trivialGroups BlsFr) 11 2) p =
        some (.ok ()) :=
  (C82_honest_proving_succeeds exampleCalls exCC exCC_compiled exCalls_relations exCalls_wiring exD exD_eq exBl
    (by decide +kernel) (by decide +kernel) (by decide +kernel) (by decide +kernel) (by decide +kernel)).mono le_rfl
    fun β h => h.mono le_rfl fun γ h => h.mono le_rfl fun α h => h.mono le_rfl fun ζ h =>
      h BlsFr BlsFr BlsFr exEnv exEnv.sha256 (trivialGroups BlsFr) 11 2 exHonest rfl (le_refl _) exEnv_len

end Verif.Plonk

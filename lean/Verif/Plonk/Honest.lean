import Verif.Plonk.Soundness
import Mathlib.LinearAlgebra.Lagrange

/-!
# Property C50: the prover against a polynomial-level specification of honest PLONK proving

`Honest` below is an independent functional specification of the PLONK prover with Mathlib polynomials.
-/

set_option linter.unusedSectionVars false
set_option linter.unusedSimpArgs false
set_option linter.unusedVariables false

namespace Verif.Plonk

open Verif.Ark Verif.Kzg Polynomial

/-! ## Specification -/

/-- Everything the honest prover works with: hash and random generator, generator `g` of G1, secret `s`,
compiled circuit, generator `w` of the domain, blinding values. -/
structure Honest (F G1 : Type) where
  /-- environment -/
  env : Env F G1
  /-- G1 generator -/
  g : G1
  /-- KZG secret -/
  s : F
  /-- circuit -/
  cc : CompiledCircuit F
  /-- root of unity -/
  w : F
  /-- blinding values -/
  bl : Blinders F

namespace Honest
variable {F : Type} [FftField F] [DecidableEq F] {G1 : Type} [AddCommGroup G1] [Module F G1]
variable (H : Honest F G1)

/-- number of rows -/
def n : ℕ := H.cc.size
/-- commitment -/
noncomputable def com (p : F[X]) : G1 := p.eval H.s • H.g
/-- `Xⁿ - 1` -/
noncomputable def Z : F[X] := X ^ H.n - 1
/-- blinded wire polynomials -/
noncomputable def a : F[X] := toPoly H.cc.gate.fax + (C H.bl.b2 + C H.bl.b1 * X) * H.Z
/-- blinded wire polynomial -/
noncomputable def b : F[X] := toPoly H.cc.gate.fbx + (C H.bl.b4 + C H.bl.b3 * X) * H.Z
/-- blinded wire polynomial -/
noncomputable def c : F[X] := toPoly H.cc.gate.fcx + (C H.bl.b6 + C H.bl.b5 * X) * H.Z
/-- points hashed for `β, γ` -/
noncomputable def feeds1 : List G1 := [H.com H.a, H.com H.b, H.com H.c]
/-- challenge -/
noncomputable def β : F := challengeAfter H.env H.env.sha256 H.feeds1 0
/-- challenge -/
noncomputable def γ : F := challengeAfter H.env H.env.sha256 H.feeds1 1
/-- numerator of row `i` -/
noncomputable def rowNum (i : ℕ) : F :=
  (wireVal H.cc H.w 0 i + H.β * posLabel H.cc H.w 0 i + H.γ) *
  (wireVal H.cc H.w 1 i + H.β * posLabel H.cc H.w 1 i + H.γ) *
  (wireVal H.cc H.w 2 i + H.β * posLabel H.cc H.w 2 i + H.γ)
/-- denominator of row `i` -/
noncomputable def rowDen (i : ℕ) : F :=
  (wireVal H.cc H.w 0 i + H.β * sigmaVal H.cc H.w 0 i + H.γ) *
  (wireVal H.cc H.w 1 i + H.β * sigmaVal H.cc H.w 1 i + H.γ) *
  (wireVal H.cc H.w 2 i + H.β * sigmaVal H.cc H.w 2 i + H.γ)
/-- the grand product as an interpolated polynomial -/
noncomputable def acc : F[X] :=
  Lagrange.interpolate (Finset.range H.n) (fun i => H.w ^ i)
    (fun i => ∏ j ∈ Finset.range i, H.rowNum j / H.rowDen j)
/-- blinded accumulator -/
noncomputable def z : F[X] := H.acc + (C H.bl.b9 + C H.bl.b8 * X + C H.bl.b7 * X ^ 2) * H.Z
/-- points hashed for `α` -/
noncomputable def feeds2 : List G1 := H.feeds1 ++ [H.com H.z]
/-- challenge -/
noncomputable def α : F := challengeAfter H.env H.env.sha256 H.feeds2 0
/-- first Lagrange polynomial -/
noncomputable def L1 : F[X] := Lagrange.basis (Finset.range H.n) (fun i => H.w ^ i) 0
/-- numerator of the quotient -/
noncomputable def qnum : F[X] := gatePoly H.cc H.a H.b H.c +
  C H.α * (numPoly H.cc H.β H.γ H.a H.b H.c * H.z - denPoly H.cc H.β H.γ H.a H.b H.c * H.z.comp (C H.w * X)) +
  C (H.α ^ 2) * ((H.z - 1) * H.L1)
/-- quotient -/
noncomputable def t : F[X] := H.qnum /ₘ H.Z
/-- length of a slice: a third of the number of coefficients of `t`, rounded up -/
noncomputable def m : ℕ := H.t.natDegree / 3 + 1
/-- low slice -/
noncomputable def tLo : F[X] := H.t %ₘ X ^ H.m
/-- middle slice -/
noncomputable def tMid : F[X] := (H.t /ₘ X ^ H.m) %ₘ X ^ H.m
/-- high slice -/
noncomputable def tHi : F[X] := (H.t /ₘ X ^ H.m) /ₘ X ^ H.m
/-- points hashed for the evaluation challenge -/
noncomputable def feeds3 : List G1 := H.feeds2 ++ [H.com H.tLo, H.com H.tMid, H.com H.tHi]
/-- evaluation challenge -/
noncomputable def ζ : F := challengeAfter H.env H.env.sha256 H.feeds3 0
/-- evaluations -/
noncomputable def bar : Bars F where
  a := H.a.eval H.ζ
  b := H.b.eval H.ζ
  c := H.c.eval H.ζ
  s1 := (toPoly H.cc.copy.s1).eval H.ζ
  s2 := (toPoly H.cc.copy.s2).eval H.ζ
  zw := H.z.eval (H.ζ * H.w)
/-- points hashed for `v` -/
noncomputable def feeds4 : List G1 := H.feeds3 ++
  [H.bar.a • H.g, H.bar.b • H.g, H.bar.c • H.g, H.bar.s1 • H.g, H.bar.s2 • H.g, H.bar.zw • H.g]
/-- challenge -/
noncomputable def v : F := challengeAfter H.env H.env.sha256 H.feeds4 0
/-- selector part of the linearisation polynomial -/
noncomputable def lin1 : F[X] := C (H.bar.a * H.bar.b) * toPoly H.cc.gate.qmx +
  C H.bar.a * toPoly H.cc.gate.qlx + C H.bar.b * toPoly H.cc.gate.qrx + C H.bar.c * toPoly H.cc.gate.qox +
  toPoly H.cc.gate.qcx
/-- linearisation polynomial -/
noncomputable def r : F[X] := H.lin1 + C ((toPoly H.cc.gate.pix).eval H.ζ) +
  C (H.α * (H.bar.a + H.β * H.ζ + H.γ) * (H.bar.b + H.β * H.cc.copy.k1 * H.ζ + H.γ) *
    (H.bar.c + H.β * H.cc.copy.k2 * H.ζ + H.γ)) * H.z -
  C (H.α * (H.bar.a + H.β * H.bar.s1 + H.γ) * (H.bar.b + H.β * H.bar.s2 + H.γ) * H.bar.zw) *
    (C H.bar.c + C H.β * toPoly H.cc.copy.s3 + C H.γ) +
  C (H.α ^ 2 * H.L1.eval H.ζ) * (H.z - 1) -
  C (H.ζ ^ H.n - 1) * (H.tLo + C (H.ζ ^ H.m) * H.tMid + C (H.ζ ^ (2 * H.m)) * H.tHi)
/-- opening polynomial at `ζ` -/
noncomputable def W : F[X] := (H.r + C H.v * (H.a - C H.bar.a) + C (H.v ^ 2) * (H.b - C H.bar.b) +
  C (H.v ^ 3) * (H.c - C H.bar.c) + C (H.v ^ 4) * (toPoly H.cc.copy.s1 - C H.bar.s1) +
  C (H.v ^ 5) * (toPoly H.cc.copy.s2 - C H.bar.s2)) /ₘ (X - C H.ζ)
/-- opening polynomial at `ζw` -/
noncomputable def Ww : F[X] := (H.z - C H.bar.zw) /ₘ (X - C (H.ζ * H.w))
/-- points hashed for `u` -/
noncomputable def feeds5 : List G1 := H.feeds4 ++ [H.com H.W, H.com H.Ww]
/-- challenge -/
noncomputable def u : F := challengeAfter H.env H.env.sha256 H.feeds5 0
/-- the honest proof -/
noncomputable def proof : Proof F G1 where
  aC := H.com H.a
  bC := H.com H.b
  cC := H.com H.c
  zC := H.com H.z
  tLoC := H.com H.tLo
  tMidC := H.com H.tMid
  tHiC := H.com H.tHi
  wC := H.com H.W
  wwC := H.com H.Ww
  barA := H.bar.a
  barB := H.bar.b
  barC := H.bar.c
  barS1 := H.bar.s1
  barS2 := H.bar.s2
  barZw := H.bar.zw
  u := H.u
  degree := H.m - 1

/-- The degenerate cases in which the implementation panics although the circuit is satisfied: a
denominator of the accumulator vanishes, or one of the polynomials whose constant coefficient is accessed
(or which is sliced) is zero. -/
def Degenerate : Prop :=
  (∃ i, i + 1 < H.n ∧ H.rowDen i = 0) ∨ H.t = 0 ∨ H.lin1 = 0 ∨ H.β = 0 ∨ H.r = 0 ∨
  H.a = 0 ∨ H.b = 0 ∨ H.c = 0 ∨ toPoly H.cc.copy.s1 = 0 ∨ toPoly H.cc.copy.s2 = 0 ∨ toPoly H.cc.copy.s3 = 0

end Honest

section
variable {F : Type} [FftField F] [DecidableEq F]

/-- The wire values satisfy all gate equations. -/
def GatesSatisfied (cc : CompiledCircuit F) (w : F) : Prop :=
  ∀ i < cc.size, GateEq cc w i (wireVal cc w 0 i) (wireVal cc w 1 i) (wireVal cc w 2 i)

/-- The wiring is a permutation of the positions that preserves the wire values. -/
def CopiesSatisfied (cc : CompiledCircuit F) (w : F) : Prop :=
  ∃ σ : Equiv.Perm (Fin 3 × Fin cc.size), Wiring cc w σ ∧
    ∀ p : Fin 3 × Fin cc.size, wireVal cc w (σ p).1 (σ p).2 = wireVal cc w p.1 p.2

theorem CopiesSatisfied.prod {cc : CompiledCircuit F} {w : F} (h : CopiesSatisfied cc w) (β γ : F) :
    ∏ p : Fin 3 × Fin cc.size, (wireVal cc w p.1 p.2 + β * posLabel cc w p.1 p.2 + γ) =
      ∏ p : Fin 3 × Fin cc.size, (wireVal cc w p.1 p.2 + β * sigmaVal cc w p.1 p.2 + γ) := by
  obtain ⟨σ, hσ, hval⟩ := h
  rw [← Equiv.prod_comp σ]
  refine Finset.prod_congr rfl fun p _ => ?_
  rw [hσ p, hval p]


/-! ## Lists of polynomials -/

/-- The coefficient vector of a polynomial. -/
noncomputable def listOf (p : F[X]) : DP F := fromCoeffs ((List.range (p.natDegree + 1)).map p.coeff)

theorem toPoly_listOf (p : F[X]) : toPoly (listOf p) = p := by
  rw [listOf, toPoly_fromCoeffs, toPoly_map_range]
  exact (as_sum_range_C_mul_X_pow p).symm

theorem canon_listOf (p : F[X]) : Canon (listOf p) := canon_fromCoeffs _

theorem eq_listOf {q : DP F} (h : Canon q) {p : F[X]} (hp : toPoly q = p) : q = listOf p :=
  canon_ext h (canon_listOf _) (by rw [toPoly_listOf, hp])

theorem listOf_eq_nil_iff (p : F[X]) : listOf p = [] ↔ p = 0 := by
  constructor
  · intro h; rw [← toPoly_listOf p, h, toPoly_nil]
  · intro h; exact canon_zero_eq_nil (canon_listOf p) (by rw [toPoly_listOf, h])

theorem canon_eq_nil_iff {p : DP F} (h : Canon p) : p = [] ↔ toPoly p = 0 :=
  ⟨fun h => by rw [h, toPoly_nil], fun h' => canon_zero_eq_nil h h'⟩

/-! ## Degrees -/

theorem natDegree_Z_le (k : ℕ) : (X ^ k - 1 : F[X]).natDegree ≤ k := by
  refine (natDegree_sub_le _ _).trans ?_
  simp

theorem natDegree_blind1 (x y : F) : (C x + C y * X : F[X]).natDegree ≤ 1 := by
  refine (natDegree_add_le _ _).trans ?_
  rw [natDegree_C]
  exact max_le (by omega) ((natDegree_C_mul_le _ _).trans natDegree_X_le)

theorem natDegree_blind2 (x y u : F) : (C x + C y * X + C u * X ^ 2 : F[X]).natDegree ≤ 2 := by
  refine (natDegree_add_le _ _).trans (max_le ((natDegree_blind1 x y).trans (by omega)) ?_)
  exact natDegree_C_mul_X_pow_le _ _

theorem natDegree_add_le_of_le' {p q : F[X]} {k : ℕ} (hp : p.natDegree ≤ k) (hq : q.natDegree ≤ k) :
    (p + q).natDegree ≤ k := (natDegree_add_le _ _).trans (max_le hp hq)

theorem natDegree_sub_le_of_le' {p q : F[X]} {k : ℕ} (hp : p.natDegree ≤ k) (hq : q.natDegree ≤ k) :
    (p - q).natDegree ≤ k := (natDegree_sub_le _ _).trans (max_le hp hq)

theorem natDegree_C_mul_le' {p : F[X]} {k : ℕ} (x : F) (hp : p.natDegree ≤ k) : (C x * p).natDegree ≤ k :=
  (natDegree_C_mul_le _ _).trans hp

theorem natDegree_mul_le_of_le' {p q : F[X]} {k l : ℕ} (hp : p.natDegree ≤ k) (hq : q.natDegree ≤ l) :
    (p * q).natDegree ≤ k + l := natDegree_mul_le.trans (by omega)

theorem natDegree_of_length {p : DP F} {k : ℕ} (h : p.length ≤ k + 1) : (toPoly p).natDegree ≤ k := by
  have := natDegree_lt_of_length (F := F) h (by omega)
  omega

theorem natDegree_comp_scale (p : F[X]) (w : F) : (p.comp (C w * X)).natDegree ≤ p.natDegree := by
  rw [natDegree_comp]
  calc _ ≤ p.natDegree * 1 := Nat.mul_le_mul_left _ ((natDegree_C_mul_le _ _).trans natDegree_X_le)
    _ = _ := by ring

end

end Verif.Plonk

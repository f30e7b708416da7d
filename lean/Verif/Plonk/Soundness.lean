import Verif.Plonk.Completeness
import Mathlib.Algebra.Polynomial.BigOperators
import Mathlib.Algebra.Polynomial.Roots

/-!
# Properties C51, C52, C56: no proofs for violated constraints
-/

set_option linter.unusedSectionVars false
set_option linter.unusedSimpArgs false
set_option linter.unusedVariables false

namespace Verif.Plonk

open Verif.Ark Verif.Kzg Polynomial

section counting
variable {F : Type} [Field F] [DecidableEq F]

/-- Grand-product counting: if the value of some wire differs from the value of the wire it is copied
from, then for all but `|ι|` values of `β` at most `|ι|` values of `γ` make the two products equal. -/
theorem grand_product_counting {ι : Type} [Fintype ι] [DecidableEq ι] (v l : ι → F)
    (hl : Function.Injective l) (σ : ι → ι) (p0 : ι) (h : v p0 ≠ v (σ p0)) :
    ∃ B : Finset F, B.card ≤ Fintype.card ι ∧ ∀ β ∉ B, ∃ Γ : Finset F, Γ.card ≤ Fintype.card ι ∧
      ∀ γ, ∏ p, (v p + β * l p + γ) = ∏ p, (v p + β * l (σ p) + γ) → γ ∈ Γ := by
  refine ⟨Finset.univ.image fun q => (v q - v p0) / (l (σ p0) - l q),
    Finset.card_image_le.trans (by simp), fun β hβ => ?_⟩
  set f : F[X] := ∏ p, (X + C (v p + β * l p)) - ∏ p, (X + C (v p + β * l (σ p))) with hf
  have hev : ∀ γ, f.eval γ = ∏ p, (v p + β * l p + γ) - ∏ p, (v p + β * l (σ p) + γ) := by
    intro γ
    rw [hf, eval_sub, eval_prod, eval_prod]
    simp [add_comm]
  have hne : f ≠ 0 := by
    intro h0
    have h1 := hev (-(v p0 + β * l (σ p0)))
    rw [h0, eval_zero, Finset.prod_eq_zero (i := p0) (f := fun p => v p + β * l (σ p) + _)
      (Finset.mem_univ _) (by ring), sub_zero, eq_comm, Finset.prod_eq_zero_iff] at h1
    obtain ⟨q, -, hq⟩ := h1
    by_cases hlq : l q = l (σ p0)
    · have : q = σ p0 := hl hlq
      subst this
      apply h
      linear_combination -hq
    · apply hβ
      rw [Finset.mem_image]
      refine ⟨q, Finset.mem_univ _, ?_⟩
      have : l (σ p0) - l q ≠ 0 := sub_ne_zero.2 (Ne.symm hlq)
      field_simp
      linear_combination hq
  refine ⟨f.roots.toFinset, ?_, fun γ hγ => ?_⟩
  · refine (Multiset.toFinset_card_le _).trans ((card_roots' f).trans ?_)
    have hd : ∀ g : ι → F, (∏ p, (X + C (g p)) : F[X]).natDegree = Fintype.card ι := by
      intro g
      rw [natDegree_prod_of_monic _ _ fun i _ => monic_X_add_C _]
      simp
    rw [hf]
    refine (natDegree_sub_le _ _).trans ?_
    rw [hd fun p => v p + β * l p, hd fun p => v p + β * l (σ p), max_self]
  · rw [Multiset.mem_toFinset, mem_roots hne, IsRoot.def, hev, hγ, sub_self]

end counting

section
variable {F : Type} [FftField F] [DecidableEq F]

/-! ## Specification vocabulary -/

/-- The gate equation of row `i` of a compiled circuit for wire values `a b c` (selectors read off the
selector polynomials at `w^i`). -/
def GateEq (cc : CompiledCircuit F) (w : F) (i : ℕ) (a b c : F) : Prop :=
  Ark.eval cc.gate.qlx (w ^ i) * a + Ark.eval cc.gate.qrx (w ^ i) * b +
    Ark.eval cc.gate.qmx (w ^ i) * (a * b) + Ark.eval cc.gate.qox (w ^ i) * c +
    Ark.eval cc.gate.qcx (w ^ i) + Ark.eval cc.gate.pix (w ^ i) = 0

/-- Wire value of the compiled circuit at layer `l ∈ {0,1,2}`, row `i`. -/
def wireVal (cc : CompiledCircuit F) (w : F) (l i : ℕ) : F :=
  match l with
  | 0 => Ark.eval cc.gate.fax (w ^ i)
  | 1 => Ark.eval cc.gate.fbx (w ^ i)
  | _ => Ark.eval cc.gate.fcx (w ^ i)

/-- Label of position `(l, i)`: `w^i`, `k1·w^i`, `k2·w^i`. -/
def posLabel (cc : CompiledCircuit F) (w : F) (l i : ℕ) : F :=
  match l with
  | 0 => w ^ i
  | 1 => cc.copy.k1 * w ^ i
  | _ => cc.copy.k2 * w ^ i

/-- Value of the permutation polynomial of layer `l` at row `i`. -/
def sigmaVal (cc : CompiledCircuit F) (w : F) (l i : ℕ) : F :=
  match l with
  | 0 => Ark.eval cc.copy.s1 (w ^ i)
  | 1 => Ark.eval cc.copy.s2 (w ^ i)
  | _ => Ark.eval cc.copy.s3 (w ^ i)

/-- `σ` describes the wiring: the permutation polynomials hold the labels of the images under `σ`. -/
def Wiring {n : ℕ} (cc : CompiledCircuit F) (w : F) (σ : Fin 3 × Fin n → Fin 3 × Fin n) : Prop :=
  ∀ p : Fin 3 × Fin n, sigmaVal cc w p.1 p.2 = posLabel cc w (σ p).1 (σ p).2

/-- The labels of the `3n` positions are pairwise distinct. -/
def LabelsDistinct (n : ℕ) (cc : CompiledCircuit F) (w : F) : Prop :=
  Function.Injective fun p : Fin 3 × Fin n => posLabel cc w p.1 p.2

/-! ## Telescoping -/

theorem telescope {d : Domain F} (hv : d.Valid) {N D z : F[X]} (h1 : z.eval 1 = 1)
    (hrec : ∀ i < d.size, N.eval (d.gen ^ i) * z.eval (d.gen ^ i) =
      D.eval (d.gen ^ i) * z.eval (d.gen ^ (i + 1))) :
    ∏ i ∈ Finset.range d.size, N.eval (d.gen ^ i) = ∏ i ∈ Finset.range d.size, D.eval (d.gen ^ i) := by
  have key : ∀ k ≤ d.size, z.eval (d.gen ^ k) * ∏ i ∈ Finset.range k, D.eval (d.gen ^ i) =
      ∏ i ∈ Finset.range k, N.eval (d.gen ^ i) := by
    intro k
    induction k with
    | zero => intro _; simp [h1]
    | succ k ih =>
      intro hk
      rw [Finset.prod_range_succ, Finset.prod_range_succ, ← ih (by omega)]
      have := hrec k (by omega)
      linear_combination -(∏ i ∈ Finset.range k, D.eval (d.gen ^ i)) * this
  have := key d.size le_rfl
  rw [hv.pow_size, h1, one_mul] at this
  exact this.symm

/-- Product over positions as a product over rows. -/
theorem prod_positions {n : ℕ} (f : ℕ → ℕ → F) :
    ∏ p : Fin 3 × Fin n, f p.1 p.2 = ∏ i ∈ Finset.range n, f 0 i * f 1 i * f 2 i := by
  rw [Fintype.prod_prod_type, Fin.prod_univ_three, ← Finset.prod_mul_distrib, ← Finset.prod_mul_distrib,
    Finset.prod_range]
  rfl

theorem eval_Z_domain {d : Domain F} (hv : d.Valid) (i : ℕ) :
    (X ^ d.size - 1 : F[X]).eval (d.gen ^ i) = 0 := by
  rw [eval_sub, eval_pow, eval_X, eval_one, ← pow_mul, mul_comm, pow_mul, hv.pow_size]; simp

theorem eval_wirePoly {d : Domain F} (hv : d.Valid) (f : DP F) (hi lo : F) (i : ℕ) :
    (toPoly (wirePoly f hi lo d)).eval (d.gen ^ i) = Ark.eval f (d.gen ^ i) := by
  rw [toPoly_wirePoly, eval_add, eval_mul, eval_Z_domain hv, mul_zero, add_zero, eval_eq]


/-- Polynomial form of the gate equations for wire polynomials `a b c`. -/
noncomputable def gatePoly (cc : CompiledCircuit F) (a b c : F[X]) : F[X] :=
  a * b * toPoly cc.gate.qmx + a * toPoly cc.gate.qlx + b * toPoly cc.gate.qrx +
    c * toPoly cc.gate.qox + toPoly cc.gate.pix + toPoly cc.gate.qcx

/-- Numerator of the permutation argument. -/
noncomputable def numPoly (cc : CompiledCircuit F) (β γ : F) (a b c : F[X]) : F[X] :=
  (a + C β * X + C γ) * (b + C (β * cc.copy.k1) * X + C γ) * (c + C (β * cc.copy.k2) * X + C γ)

/-- Denominator of the permutation argument. -/
noncomputable def denPoly (cc : CompiledCircuit F) (β γ : F) (a b c : F[X]) : F[X] :=
  (a + C β * toPoly cc.copy.s1 + C γ) * (b + C β * toPoly cc.copy.s2 + C γ) *
    (c + C β * toPoly cc.copy.s3 + C γ)

theorem gatePoly_iff {d : Domain F} (hv : d.Valid) (cc : CompiledCircuit F) (a b c : F[X]) :
    (X ^ d.size - 1 : F[X]) ∣ gatePoly cc a b c ↔ ∀ i < d.size, GateEq cc d.gen i (a.eval (d.gen ^ i))
      (b.eval (d.gen ^ i)) (c.eval (d.gen ^ i)) := by
  rw [hv.vanishing_dvd_iff]
  refine forall_congr' fun i => forall_congr' fun _ => ?_
  unfold gatePoly GateEq
  simp only [eval_add, eval_mul, eval_eq]
  constructor <;> intro h <;> linear_combination h

theorem quotLine1_eq (cc : CompiledCircuit F) (ax bx cx : DP F) :
    toPoly (quotLine1 cc ax bx cx) = gatePoly cc (toPoly ax) (toPoly bx) (toPoly cx) := toPoly_quotLine1 _ _ _ _

theorem permNum_eq (cc : CompiledCircuit F) (β γ : F) (ax bx cx : DP F) :
    toPoly (permNum cc β γ ax bx cx) = numPoly cc β γ (toPoly ax) (toPoly bx) (toPoly cx) := by
  rw [toPoly_permNum, numPoly]; ring

theorem permDen_eq (cc : CompiledCircuit F) (β γ : F) (ax bx cx : DP F) :
    toPoly (permDen cc β γ ax bx cx) = denPoly cc β γ (toPoly ax) (toPoly bx) (toPoly cx) := toPoly_permDen _ _ _ _ _ _

/-- Value of wire polynomials at a position. -/
noncomputable def polyVal (a b c : F[X]) (w : F) (l i : ℕ) : F :=
  match l with
  | 0 => a.eval (w ^ i)
  | 1 => b.eval (w ^ i)
  | _ => c.eval (w ^ i)

theorem prod_num {n : ℕ} (cc : CompiledCircuit F) (w β γ : F) (a b c : F[X]) :
    ∏ i ∈ Finset.range n, (numPoly cc β γ a b c).eval (w ^ i) =
      ∏ p : Fin 3 × Fin n, (polyVal a b c w p.1 p.2 + β * posLabel cc w p.1 p.2 + γ) := by
  rw [prod_positions fun l i => polyVal a b c w l i + β * posLabel cc w l i + γ]
  refine Finset.prod_congr rfl fun i _ => ?_
  simp only [numPoly, eval_add, eval_mul, eval_C, eval_X, polyVal, posLabel]
  ring

theorem prod_den {n : ℕ} (cc : CompiledCircuit F) (w β γ : F) (a b c : F[X]) :
    ∏ i ∈ Finset.range n, (denPoly cc β γ a b c).eval (w ^ i) =
      ∏ p : Fin 3 × Fin n, (polyVal a b c w p.1 p.2 + β * sigmaVal cc w p.1 p.2 + γ) := by
  rw [prod_positions fun l i => polyVal a b c w l i + β * sigmaVal cc w l i + γ]
  refine Finset.prod_congr rfl fun i _ => ?_
  simp only [denPoly, eval_add, eval_mul, eval_C, eval_X, polyVal, sigmaVal, eval_eq]

/-! ## What a returned proof implies -/

section gen
variable {G1 G2 GT : Type} [AddCommGroup G1] [Module F G1] [AddCommGroup G2] [Module F G2]
  [AddCommGroup GT] [Module F GT] [DecidableEq GT]

/-- The facts about rounds 1-3 behind a returned proof. -/
theorem generateProof_quotient {env : Env F G1} {T : List UInt8 → List UInt8} {cc : CompiledCircuit F}
    {srs : Srs G1 G2} {b : Blinders F} {p : Proof F G1} (h : generateProof env T cc srs b = some p) :
    ∃ d β γ α zx zwx t, Domain.new? cc.size = some d ∧
      accPolys β γ b d cc = some (zx, zwx) ∧
      computeQuotient β γ α (wirePoly cc.gate.fax b.b1 b.b2 d) (wirePoly cc.gate.fbx b.b3 b.b4 d)
        (wirePoly cc.gate.fcx b.b5 b.b6 d) zx zwx d cc = some t ∧
      β = challengeAfter env env.sha256 [p.aC, p.bC, p.cC] 0 ∧
      γ = challengeAfter env env.sha256 [p.aC, p.bC, p.cC] 1 ∧
      α = challengeAfter env env.sha256 [p.aC, p.bC, p.cC, p.zC] 0 := by
  unfold generateProof at h
  simp only [Option.bind_eq_bind, Option.bind_eq_some_iff] at h
  obtain ⟨d, hd, r1, h1, r2, h2, r3, h3, r4, h4, h5⟩ := h
  unfold round1 commitRound1 at h1
  simp only [Option.bind_eq_bind, Option.bind_eq_some_iff, pure, Option.some.injEq] at h1
  obtain ⟨com1, ⟨cA, hcA, cB, hcB, cC, hcC, rfl⟩, rfl⟩ := h1
  unfold round2 at h2
  simp only [Option.bind_eq_bind, Option.bind_eq_some_iff, pure, Option.some.injEq] at h2
  obtain ⟨bg, hbg, ⟨zx, zwx⟩, hzz, zC, hzC, rfl⟩ := h2
  unfold round3 SlicePoly.commit at h3
  simp only [Option.bind_eq_bind, Option.bind_eq_some_iff, pure, Option.some.injEq] at h3
  obtain ⟨al, hal, tx, htx, sp, hsp, tC, ⟨cLo, hcLo, cMid, hcMid, cHi, hcHi, rfl⟩, rfl⟩ := h3
  unfold round4 at h4
  simp only [Option.bind_eq_bind, Option.bind_eq_some_iff, pure, Option.some.injEq] at h4
  obtain ⟨evc, hevc, rfl⟩ := h4
  unfold round5 at h5
  simp only [Option.bind_eq_bind, Option.bind_eq_some_iff, pure, Option.some.injEq] at h5
  obtain ⟨ch3, hch3, vc, hvc, rx, hrx, wP, hwP, w, hw, wwP, hwwP, ww, hww, wC, hwC, wwC, hwwC, uc, huc, hp⟩ := h5
  dsimp only at *
  rw [generate2_iff] at hbg
  obtain ⟨-, D, hD, -, rfl⟩ := hbg
  rw [generate1_iff] at hal
  obtain ⟨-, D', hD', -, rfl⟩ := hal
  simp only [feed_eq, Option.some.injEq] at hD hD'
  subst hD hD' hp
  exact ⟨d, _, _, _, zx, zwx, tx, hd, hzz, htx, rfl, rfl, rfl⟩

/-- **C51**: if some gate equation does not hold for the wire values of the compiled circuit, then
`generate_proof` panics, whatever the SRS, the digest, the blinding values and the challenges are. -/
theorem C51_violated_gate_no_proof (env : Env F G1) (T : List UInt8 → List UInt8) (cc : CompiledCircuit F)
    (srs : Srs G1 G2) (b : Blinders F) (d : Domain F) (hd : Domain.new? cc.size = some d) (i : ℕ)
    (hi : i < d.size)
    (hgate : ¬ GateEq cc d.gen i (wireVal cc d.gen 0 i) (wireVal cc d.gen 1 i) (wireVal cc d.gen 2 i)) :
    generateProof env T cc srs b = none := by
  cases h : generateProof env T cc srs b with
  | none => rfl
  | some p =>
    exfalso
    obtain ⟨d', β, γ, α, zx, zwx, t, hd', hzz, htx, -⟩ := generateProof_quotient h
    rw [hd, Option.some.injEq] at hd'
    subst hd'
    obtain ⟨hv, -⟩ := Domain.new?_valid hd
    have hcz : Canon zx := by
      unfold accPolys at hzz
      simp only [Option.bind_eq_bind, Option.bind_eq_some_iff, pure, Option.some.injEq, Prod.mk.injEq] at hzz
      obtain ⟨_, _, rfl, _⟩ := hzz
      exact canon_add _ _
    rw [computeQuotient_iff hcz, quotLine1_eq, gatePoly_iff hv] at htx
    have := htx.2.2.1 i hi
    rw [eval_wirePoly hv, eval_wirePoly hv, eval_wirePoly hv] at this
    exact hgate this

/-- **C51** for circuits built with the gate calls: if the `i`-th call's relation does not hold for the
values passed with it, the prover never returns a proof for the compiled circuit. -/
theorem C51_compiled (env : Env F G1) (T : List UInt8 → List UInt8) (calls : List (GateCall F))
    (cc : CompiledCircuit F) (hc : (build calls).compile = some cc) (srs : Srs G1 G2) (b : Blinders F)
    (call : GateCall F) (hcall : call ∈ calls) (hbad : ¬ call.Relation call.a.2.2 call.b.2.2 call.c.2.2) :
    generateProof env T cc srs b = none := by
  obtain ⟨i, hi, rfl⟩ := List.getElem_of_mem hcall
  obtain ⟨d, hd, hv, hsz, h2, hle, hval, hcc⟩ := compile_some calls cc hc
  obtain ⟨d', hd', hrel⟩ := C45_gate_relation calls cc hc
  rw [hd, Option.some.injEq] at hd'
  subst hd'
  obtain ⟨d', hd', -, hint⟩ := C45_interpolates calls cc hc
  rw [hd, Option.some.injEq] at hd'
  subst hd'
  have hi' : i < cc.size := by
    have := C44_compile_size calls cc hc
    have h3 := le_nextPow2 calls.length
    omega
  have hva : ∀ pf ∈ [(cc.gate.fax, fun k : GateCall F => k.a.2.2), (cc.gate.fbx, fun k => k.b.2.2),
        (cc.gate.fcx, fun k => k.c.2.2)], Ark.eval pf.1 (d.gen ^ i) = pf.2 calls[i] := by
    intro pf hpf
    have := (hint pf (by
      simp only [List.mem_cons, List.not_mem_nil, or_false] at hpf ⊢
      rcases hpf with h | h | h <;> simp [h])).1 i hi'
    rw [this]
    simp [rowVal, hi]
  simp only [List.mem_cons, List.not_mem_nil, or_false, forall_eq_or_imp, forall_eq] at hva
  obtain ⟨va, vb, vc⟩ := hva
  refine C51_violated_gate_no_proof env T cc srs b d hd i (by omega) ?_
  intro hg
  apply hbad
  unfold GateEq at hg
  rw [hrel i hi' (wireVal cc d.gen 0 i) (wireVal cc d.gen 1 i) (wireVal cc d.gen 2 i)] at hg
  have := hg calls[i] (by simp [hi])
  simp only [wireVal, va, vb, vc] at this
  exact this

/-- A returned proof implies that the grand products of the permutation argument agree, if `α ≠ 0`. -/
theorem generateProof_product {env : Env F G1} {T : List UInt8 → List UInt8} {cc : CompiledCircuit F}
    {srs : Srs G1 G2} {b : Blinders F} {p : Proof F G1} (h : generateProof env T cc srs b = some p)
    {d : Domain F} (hd : Domain.new? cc.size = some d) (hs : d.size = cc.size)
    (hα : challengeAfter env env.sha256 [p.aC, p.bC, p.cC, p.zC] 0 ≠ 0) :
    let β := challengeAfter env env.sha256 [p.aC, p.bC, p.cC] 0
    let γ := challengeAfter env env.sha256 [p.aC, p.bC, p.cC] 1
    ∏ q : Fin 3 × Fin d.size, (wireVal cc d.gen q.1 q.2 + β * posLabel cc d.gen q.1 q.2 + γ) =
      ∏ q : Fin 3 × Fin d.size, (wireVal cc d.gen q.1 q.2 + β * sigmaVal cc d.gen q.1 q.2 + γ) := by
  intro β γ
  obtain ⟨d', β', γ', α, zx, zwx, t, hd', hzz, htx, hβ, hγ, hα'⟩ := generateProof_quotient h
  rw [hd, Option.some.injEq] at hd'
  subst hd'
  obtain ⟨hv, -⟩ := Domain.new?_valid hd
  obtain ⟨acc, accw, hacc, hz, hcomp, hcz, -⟩ := accPolys_spec hd hs hzz
  rw [computeQuotient_iff hcz] at htx
  rw [← hα'] at hα
  have hperm := htx.2.2.2.1
  rw [permNum_eq, permDen_eq] at hperm
  rw [hv.vanishing_dvd_iff] at hperm
  obtain ⟨h1, -⟩ := C48_accumulator cc d hd hs β' γ' acc accw hacc
  have hz1 : (toPoly zx).eval 1 = 1 := by
    have e := eval_Z_domain hv 0
    rw [pow_zero] at e
    rw [hz, eval_add, eval_mul, e, mul_zero, zero_add, ← eval_eq, h1]
  have htel := telescope hv hz1 (N := numPoly cc β' γ' (toPoly (wirePoly cc.gate.fax b.b1 b.b2 d))
      (toPoly (wirePoly cc.gate.fbx b.b3 b.b4 d)) (toPoly (wirePoly cc.gate.fcx b.b5 b.b6 d)))
    (D := denPoly cc β' γ' (toPoly (wirePoly cc.gate.fax b.b1 b.b2 d))
      (toPoly (wirePoly cc.gate.fbx b.b3 b.b4 d)) (toPoly (wirePoly cc.gate.fcx b.b5 b.b6 d))) (by
    intro i hi
    have := hperm i hi
    rw [eval_mul, eval_C, eval_sub, eval_mul, eval_mul] at this
    have h2 : (toPoly zwx).eval (d.gen ^ i) = (toPoly zx).eval (d.gen ^ (i + 1)) := by
      rw [hcomp, eval_comp, eval_mul, eval_C, eval_X, pow_succ']
    rw [h2] at this
    rcases mul_eq_zero.1 this with h3 | h3
    · exact absurd h3 hα
    · linear_combination h3)
  rw [prod_num, prod_den] at htel
  have hpv : ∀ l i, polyVal (toPoly (wirePoly cc.gate.fax b.b1 b.b2 d))
      (toPoly (wirePoly cc.gate.fbx b.b3 b.b4 d)) (toPoly (wirePoly cc.gate.fcx b.b5 b.b6 d)) d.gen l i =
      wireVal cc d.gen l i := by
    intro l i
    unfold polyVal wireVal
    split <;> exact eval_wirePoly hv _ _ _ _
  simp only [hpv, hβ, hγ] at htel
  exact htel

/-- **C52**: if the wiring map `σ` connects some position to a position with a different value, then there
are at most `3n` values of `β`, and for every other `β` at most `3n` values of `γ`, for which
`generate_proof` can return a proof with `α ≠ 0`: these sets depend only on the circuit, not on SRS, digest,
blinding values or the behaviour of hash function and random generator.  (For `α = 0` the permutation part
of the quotient is multiplied by zero and not checked.) -/
theorem C52_violated_copy (cc : CompiledCircuit F) (d : Domain F) (hd : Domain.new? cc.size = some d)
    (hs : d.size = cc.size) (σ : Fin 3 × Fin cc.size → Fin 3 × Fin cc.size) (hσ : Wiring cc d.gen σ)
    (hlab : LabelsDistinct cc.size cc d.gen) (p0 : Fin 3 × Fin cc.size)
    (hbad : wireVal cc d.gen p0.1 p0.2 ≠ wireVal cc d.gen (σ p0).1 (σ p0).2) :
    ∃ B : Finset F, B.card ≤ 3 * cc.size ∧ ∀ β ∉ B, ∃ Γ : Finset F, Γ.card ≤ 3 * cc.size ∧
      ∀ (env : Env F G1) (T : List UInt8 → List UInt8) (srs : Srs G1 G2) (b : Blinders F) (p : Proof F G1),
        generateProof env T cc srs b = some p →
        challengeAfter env env.sha256 [p.aC, p.bC, p.cC, p.zC] 0 ≠ 0 →
        challengeAfter env env.sha256 [p.aC, p.bC, p.cC] 0 = β →
        challengeAfter env env.sha256 [p.aC, p.bC, p.cC] 1 ∈ Γ := by
  obtain ⟨B, hB, h⟩ := grand_product_counting (fun q : Fin 3 × Fin cc.size => wireVal cc d.gen q.1 q.2)
    (fun q => posLabel cc d.gen q.1 q.2) hlab σ p0 hbad
  rw [Fintype.card_prod, Fintype.card_fin, Fintype.card_fin] at hB h
  refine ⟨B, hB, fun β hβ => ?_⟩
  obtain ⟨Γ, hΓ, hh⟩ := h β hβ
  refine ⟨Γ, hΓ, fun env T srs b p hp hα hβe => ?_⟩
  refine hh _ ?_
  have := generateProof_product hp hd hs hα
  dsimp only at this
  rw [hs, hβe] at this
  rw [this]
  refine Finset.prod_congr rfl fun q _ => ?_
  rw [hσ q]

end gen

/-! ## C56 -/

/-- If the gate, permutation and start polynomials vanish on the domain, then all gates hold and the grand
products agree. -/
theorem constraints_of_vanish {d : Domain F} (hv : d.Valid) (cc : CompiledCircuit F) (β γ : F)
    (a b c z : F[X])
    (hpt : ∀ i < d.size,
      (gatePoly cc a b c).eval (d.gen ^ i) = 0 ∧
      (numPoly cc β γ a b c * z - denPoly cc β γ a b c * z.comp (C d.gen * X)).eval (d.gen ^ i) = 0 ∧
      ((z - 1) * L1 d.size).eval (d.gen ^ i) = 0) :
    (∀ i < d.size, GateEq cc d.gen i (a.eval (d.gen ^ i)) (b.eval (d.gen ^ i)) (c.eval (d.gen ^ i))) ∧
    z.eval 1 = 1 ∧
    ∏ p : Fin 3 × Fin d.size, (polyVal a b c d.gen p.1 p.2 + β * posLabel cc d.gen p.1 p.2 + γ) =
      ∏ p : Fin 3 × Fin d.size, (polyVal a b c d.gen p.1 p.2 + β * sigmaVal cc d.gen p.1 p.2 + γ) := by
  have hz1 : z.eval 1 = 1 := by
    have := (hpt 0 d.size_pos).2.2
    rw [eval_mul, ← toPoly_l1Poly, eval_l1_domain hv d.size_pos, if_pos rfl, pow_zero, eval_sub, eval_one,
      mul_one] at this
    linear_combination this
  refine ⟨(gatePoly_iff hv cc a b c).1 ((hv.vanishing_dvd_iff _).2 fun i hi => (hpt i hi).1), hz1, ?_⟩
  have htel := telescope hv hz1 (N := numPoly cc β γ a b c) (D := denPoly cc β γ a b c) (by
    intro i hi
    have := (hpt i hi).2.1
    rw [eval_sub, eval_mul, eval_mul, eval_comp, eval_mul, eval_C, eval_X, ← pow_succ'] at this
    linear_combination this)
  rw [prod_num, prod_den] at htel
  exact htel

/-- **C56** (gates, start and product): whatever polynomials `a b c z` an adversary uses, if the quotient
identity `t·(Xⁿ-1) = gates + α·perm + α²·start` holds for three different `α` (with any three quotients),
then every gate equation holds on every row and the grand products over all positions agree. -/
theorem C56_quotient_identity {d : Domain F} (hv : d.Valid) (cc : CompiledCircuit F) (β γ : F)
    (a b c z : F[X]) (α : Fin 3 → F) (tt : Fin 3 → F[X]) (hα : Function.Injective α)
    (hid : ∀ k, tt k * (X ^ d.size - 1) = gatePoly cc a b c +
      C (α k) * (numPoly cc β γ a b c * z - denPoly cc β γ a b c * z.comp (C d.gen * X)) +
      C (α k ^ 2) * ((z - 1) * L1 d.size)) :
    (∀ i < d.size, GateEq cc d.gen i (a.eval (d.gen ^ i)) (b.eval (d.gen ^ i)) (c.eval (d.gen ^ i))) ∧
    z.eval 1 = 1 ∧
    ∏ p : Fin 3 × Fin d.size, (polyVal a b c d.gen p.1 p.2 + β * posLabel cc d.gen p.1 p.2 + γ) =
      ∏ p : Fin 3 × Fin d.size, (polyVal a b c d.gen p.1 p.2 + β * sigmaVal cc d.gen p.1 p.2 + γ) := by
  have hpt : ∀ i < d.size,
      (gatePoly cc a b c).eval (d.gen ^ i) = 0 ∧
      (numPoly cc β γ a b c * z - denPoly cc β γ a b c * z.comp (C d.gen * X)).eval (d.gen ^ i) = 0 ∧
      ((z - 1) * L1 d.size).eval (d.gen ^ i) = 0 := by
    intro i hi
    set G := (gatePoly cc a b c).eval (d.gen ^ i)
    set Q := (numPoly cc β γ a b c * z - denPoly cc β γ a b c * z.comp (C d.gen * X)).eval (d.gen ^ i) with hQ
    set S := ((z - 1) * L1 d.size).eval (d.gen ^ i) with hS
    have e : ∀ k, G + α k * Q + α k ^ 2 * S = 0 := by
      intro k
      have := congrArg (fun q => q.eval (d.gen ^ i)) (hid k)
      rw [eval_mul, eval_Z_domain hv, mul_zero, eval_add, eval_add, eval_mul (p := C (α k)), eval_C,
        eval_mul (p := C (α k ^ 2)), eval_C] at this
      exact this.symm
    have n01 : α 0 - α 1 ≠ 0 := sub_ne_zero.2 fun h => by have := hα h; simp at this
    have n02 : α 0 - α 2 ≠ 0 := sub_ne_zero.2 fun h => by have := hα h; simp at this
    have n12 : α 1 - α 2 ≠ 0 := sub_ne_zero.2 fun h => by have := hα h; simp at this
    have f1 : Q + (α 0 + α 1) * S = 0 := by
      apply mul_left_cancel₀ n01
      linear_combination e 0 - e 1
    have f2 : Q + (α 0 + α 2) * S = 0 := by
      apply mul_left_cancel₀ n02
      linear_combination e 0 - e 2
    have hS0 : S = 0 := by
      apply mul_left_cancel₀ n12
      linear_combination f1 - f2
    have hQ0 : Q = 0 := by rw [hS0] at f1; linear_combination f1
    have hG0 : G = 0 := by have := e 0; rw [hS0, hQ0] at this; linear_combination this
    exact ⟨hG0, hQ0, hS0⟩
  exact constraints_of_vanish hv cc β γ a b c z hpt

/-- **C56** (copies): for any wire polynomials that violate the wiring `σ` at some position, all but `3n`
values of `β` have at most `3n` values of `γ` for which any accumulator `z` and quotients can satisfy the
quotient identity for three different `α`. -/
theorem C56_copy_soundness {d : Domain F} (hv : d.Valid) (cc : CompiledCircuit F)
    (σ : Fin 3 × Fin d.size → Fin 3 × Fin d.size) (hσ : Wiring cc d.gen σ)
    (hlab : LabelsDistinct d.size cc d.gen) (a b c : F[X]) (p0 : Fin 3 × Fin d.size)
    (hbad : polyVal a b c d.gen p0.1 p0.2 ≠ polyVal a b c d.gen (σ p0).1 (σ p0).2) :
    ∃ B : Finset F, B.card ≤ 3 * d.size ∧ ∀ β ∉ B, ∃ Γ : Finset F, Γ.card ≤ 3 * d.size ∧
      ∀ (γ : F) (z : F[X]) (α : Fin 3 → F) (tt : Fin 3 → F[X]), Function.Injective α →
        (∀ k, tt k * (X ^ d.size - 1) = gatePoly cc a b c +
          C (α k) * (numPoly cc β γ a b c * z - denPoly cc β γ a b c * z.comp (C d.gen * X)) +
          C (α k ^ 2) * ((z - 1) * L1 d.size)) → γ ∈ Γ := by
  obtain ⟨B, hB, h⟩ := grand_product_counting (fun q : Fin 3 × Fin d.size => polyVal a b c d.gen q.1 q.2)
    (fun q => posLabel cc d.gen q.1 q.2) hlab σ p0 hbad
  rw [Fintype.card_prod, Fintype.card_fin, Fintype.card_fin] at hB h
  refine ⟨B, hB, fun β hβ => ?_⟩
  obtain ⟨Γ, hΓ, hh⟩ := h β hβ
  refine ⟨Γ, hΓ, fun γ z α tt hα hid => ?_⟩
  refine hh _ ?_
  rw [(C56_quotient_identity hv cc β γ a b c z α tt hα hid).2.2]
  refine Finset.prod_congr rfl fun q _ => ?_
  rw [hσ q]

end

end Verif.Plonk

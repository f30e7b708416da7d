import Verif.Plonk.Acc
import Verif.Kzg.Lemmas

/-!
# Polynomial meaning of the steps of the PLONK prover
-/

set_option linter.unusedSectionVars false
set_option linter.unusedSimpArgs false
set_option linter.unusedVariables false

namespace Verif.Plonk

open Verif.Ark Verif.Kzg Polynomial

section polys
variable {F : Type} [FftField F] [DecidableEq F]

theorem toPoly_two (a b : F) : toPoly (fromCoeffs [a, b]) = C a + C b * X := by
  rw [toPoly_fromCoeffs]; simp

theorem toPoly_one (a : F) : toPoly (fromCoeffs [a]) = C a := by
  rw [toPoly_fromCoeffs]; simp

theorem toPoly_three (a b c : F) : toPoly (fromCoeffs [a, b, c]) = C a + C b * X + C c * X ^ 2 := by
  rw [toPoly_fromCoeffs]; simp; ring

theorem toPoly_wirePoly (f : DP F) (hi lo : F) (d : Domain F) :
    toPoly (wirePoly f hi lo d) = toPoly f + (C lo + C hi * X) * (X ^ d.size - 1) := by
  rw [wirePoly, toPoly_add, toPoly_mulByVanishing, toPoly_two]

theorem canon_wirePoly (f : DP F) (hi lo : F) (d : Domain F) : Canon (wirePoly f hi lo d) :=
  canon_add _ _

theorem toPoly_quotLine1 (cc : CompiledCircuit F) (ax bx cx : DP F) :
    toPoly (quotLine1 cc ax bx cx) = toPoly ax * toPoly bx * toPoly cc.gate.qmx +
      toPoly ax * toPoly cc.gate.qlx + toPoly bx * toPoly cc.gate.qrx +
      toPoly cx * toPoly cc.gate.qox + toPoly cc.gate.pix + toPoly cc.gate.qcx := by
  simp only [quotLine1, toPoly_add, toPoly_mul]

theorem toPoly_permNum (cc : CompiledCircuit F) (beta gamma : F) (ax bx cx : DP F) :
    toPoly (permNum cc beta gamma ax bx cx) = (toPoly ax + (C gamma + C beta * X)) *
      (toPoly bx + (C gamma + C (beta * cc.copy.k1) * X)) *
      (toPoly cx + (C gamma + C (beta * cc.copy.k2) * X)) := by
  simp only [permNum, toPoly_mul, toPoly_add, toPoly_two]

theorem toPoly_permDen (cc : CompiledCircuit F) (beta gamma : F) (ax bx cx : DP F) :
    toPoly (permDen cc beta gamma ax bx cx) = (toPoly ax + C beta * toPoly cc.copy.s1 + C gamma) *
      (toPoly bx + C beta * toPoly cc.copy.s2 + C gamma) *
      (toPoly cx + C beta * toPoly cc.copy.s3 + C gamma) := by
  simp only [permDen, toPoly_mul, toPoly_add, toPoly_smul, toPoly_one]

theorem canon_permNum (cc : CompiledCircuit F) (beta gamma : F) (ax bx cx : DP F) :
    Canon (permNum cc beta gamma ax bx cx) := canon_mul _ _

theorem canon_permDen (cc : CompiledCircuit F) (beta gamma : F) (ax bx cx : DP F) :
    Canon (permDen cc beta gamma ax bx cx) := canon_mul _ _

theorem monic_Z (d : Domain F) : (X ^ d.size - 1 : F[X]).Monic := monic_X_pow_sub_C 1 d.size_pos.ne'

theorem divideVanishing_iff {p : DP F} (hp : CanonOrZero p) (d : Domain F) (q : DP F) :
    divideVanishing p d = some q ↔ Canon q ∧ toPoly q * (X ^ d.size - 1) = toPoly p := by
  obtain ⟨q', r', h, hq, hr, hcq, hcr⟩ := divideByVanishing_spec hp d
  unfold divideVanishing
  simp only [h, Option.bind_eq_bind, Option.bind_some]
  have hZ := monic_Z d
  constructor
  · intro hh
    split at hh
    · next hz =>
      rw [Option.some.injEq] at hh
      subst hh
      rw [isZero_iff, hr] at hz
      refine ⟨hcq, ?_⟩
      rw [hq, mul_comm]
      have := modByMonic_add_div (toPoly p) (X ^ d.size - 1 : F[X])
      rw [hz, zero_add] at this
      exact this
    · cases hh
  · rintro ⟨hc, he⟩
    have h1 : toPoly p %ₘ (X ^ d.size - 1) = 0 := by
      rw [modByMonic_eq_zero_iff_dvd hZ, ← he]; exact dvd_mul_left _ _
    rw [if_pos (by rw [isZero_iff, hr, h1])]
    congr 1
    refine canon_ext hcq hc ?_
    rw [hq, ← he, mul_comm, mul_divByMonic_cancel_left _ hZ]

theorem divideVanishing_exists {p : DP F} (hp : CanonOrZero p) (d : Domain F) :
    (∃ q, divideVanishing p d = some q) ↔ (X ^ d.size - 1 : F[X]) ∣ toPoly p := by
  constructor
  · rintro ⟨q, hq⟩
    rw [divideVanishing_iff hp] at hq
    rw [← hq.2]; exact dvd_mul_left _ _
  · rintro ⟨q, hq⟩
    obtain ⟨q', r', h, hq', hr, hcq, hcr⟩ := divideByVanishing_spec hp d
    refine ⟨q', (divideVanishing_iff hp d q').2 ⟨hcq, ?_⟩⟩
    rw [hq', hq, mul_divByMonic_cancel_left _ (monic_Z d), mul_comm]

theorem divideRoot_iff {p : DP F} (hp : CanonOrZero p) (a : F) (q : DP F) :
    divideRoot p a = some q ↔ Canon q ∧ toPoly q * (X - C a) = toPoly p := by
  obtain ⟨q', r', h, hq, hr, hcq, hcr⟩ := divideWithQAndR_monic (d := [-a, (1 : F)])
    (by simp [Canon]) (by simp) (by rw [toPoly_root]; exact monic_X_sub_C a) hp
  rw [toPoly_root] at hq hr
  unfold divideRoot
  simp only [fromCoeffs_root, h, Option.bind_eq_bind, Option.bind_some]
  have hZ := monic_X_sub_C a
  constructor
  · intro hh
    split at hh
    · next hz =>
      rw [Option.some.injEq] at hh
      subst hh
      subst hz
      rw [toPoly_nil] at hr
      refine ⟨hcq, ?_⟩
      rw [hq, mul_comm]
      have := modByMonic_add_div (toPoly p) (X - C a : F[X])
      rw [← hr, zero_add] at this
      exact this
    · cases hh
  · rintro ⟨hc, he⟩
    have h1 : toPoly p %ₘ (X - C a) = 0 := by
      rw [modByMonic_eq_zero_iff_dvd hZ, ← he]; exact dvd_mul_left _ _
    rw [if_pos (canon_zero_eq_nil hcr (by rw [hr, h1]))]
    congr 1
    refine canon_ext hcq hc ?_
    rw [hq, ← he, mul_comm, mul_divByMonic_cancel_left _ hZ]

theorem divideRoot_exists {p : DP F} (hp : CanonOrZero p) (a : F) :
    (∃ q, divideRoot p a = some q) ↔ (toPoly p).eval a = 0 := by
  rw [← IsRoot.def, ← dvd_iff_isRoot]
  constructor
  · rintro ⟨q, hq⟩
    rw [divideRoot_iff hp] at hq
    rw [← hq.2]; exact dvd_mul_left _ _
  · rintro ⟨q, hq⟩
    obtain ⟨q', r', h, hq', hr, hcq, hcr⟩ := divideWithQAndR_monic (d := [-a, (1 : F)])
      (by simp [Canon]) (by simp) (by rw [toPoly_root]; exact monic_X_sub_C a) hp
    refine ⟨q', (divideRoot_iff hp a q').2 ⟨hcq, ?_⟩⟩
    rw [hq', toPoly_root, hq, mul_divByMonic_cancel_left _ (monic_X_sub_C a), mul_comm]

theorem polySubPara_isSome {p : DP F} (hne : p ≠ []) (y : F) : ∃ q, polySubPara p y = some q := by
  cases p with
  | nil => exact absurd rfl hne
  | cons a l => exact ⟨_, rfl⟩

theorem polySubPara_ne_nil {p q : DP F} {y : F} (h : polySubPara p y = some q) : p ≠ [] := by
  rintro rfl; cases h

theorem addFirst_ne_nil {p q : DP F} {y : F} (h : addFirst p y = some q) : p ≠ [] := by
  rintro rfl; cases h

theorem addFirst_isSome {p : DP F} (hne : p ≠ []) (y : F) : ∃ q, addFirst p y = some q := by
  cases p with
  | nil => exact absurd rfl hne
  | cons a l => exact ⟨_, rfl⟩

theorem toPoly_addFirst {p q : DP F} {y : F} (h : addFirst p y = some q) :
    toPoly q = toPoly p + C y := by
  cases p with
  | nil => cases h
  | cons a l =>
    simp only [addFirst, Option.some.injEq] at h
    subst h; simp; ring

theorem toPoly_polySubPara {p q : DP F} {y : F} (h : polySubPara p y = some q) :
    toPoly q = toPoly p - C y := toPoly_subFirst h

/-- Specification: the first Lagrange polynomial of a domain with `n` elements, `(1 + X + … + X^(n-1)) / n`. -/
noncomputable def L1 (n : ℕ) : F[X] := C (n : F)⁻¹ * ∑ i ∈ Finset.range n, X ^ i

theorem toPoly_l1Poly (d : Domain F) : toPoly (l1Poly d) = L1 d.size := by
  unfold L1
  rw [l1Poly, d.toPoly_interpolate, Finset.mul_sum]
  refine Finset.sum_congr rfl fun j hj => ?_
  congr 2
  rw [Finset.sum_eq_single_of_mem 0 (Finset.mem_range.2 d.size_pos)]
  · have := d.size_pos
    simp [List.getD_eq_getElem?_getD, this]
  · intro b hb h0
    have : ((List.replicate d.size (0 : F)).set 0 1).getD b 0 = 0 := by
      have hb' := Finset.mem_range.1 hb
      rw [List.getD_eq_getElem?_getD, List.getElem?_set_ne (by omega)]
      simp [hb']
    rw [this, zero_mul]

/-- The first Lagrange polynomial. -/
theorem toPoly_l1 {d : Domain F} (hv : d.Valid) :
    toPoly (l1Poly d) * (C (d.size : F) * (X - 1)) = X ^ d.size - 1 := by
  have hn := hv.size_ne_zero
  rw [toPoly_l1Poly, L1]
  calc _ = (C (d.size : F)⁻¹ * C (d.size : F)) * ((∑ i ∈ Finset.range d.size, X ^ i) * (X - 1)) := by ring
    _ = _ := by rw [← C_mul, inv_mul_cancel₀ hn, geom_sum_mul]; simp

theorem eval_l1 {d : Domain F} (hv : d.Valid) {x : F} (hx : x ≠ 1) :
    Ark.eval (l1Poly d) x = (x ^ d.size - 1) / ((d.size : F) * (x - 1)) := by
  have hn := hv.size_ne_zero
  have h1 : x - 1 ≠ 0 := sub_ne_zero.2 hx
  have := congrArg (fun p => p.eval x) (toPoly_l1 hv)
  simp only [eval_mul, eval_C, eval_sub, eval_X, eval_one, eval_pow] at this
  rw [eval_eq, eq_div_iff (mul_ne_zero hn h1), this]

theorem eval_l1_domain {d : Domain F} (hv : d.Valid) {i : ℕ} (hi : i < d.size) :
    (toPoly (l1Poly d)).eval (d.gen ^ i) = if i = 0 then 1 else 0 := by
  rw [l1Poly, hv.eval_interpolate _ hi]
  split
  · next h => subst h; simp [List.getD_eq_getElem?_getD, d.size_pos]
  · next h =>
    rw [List.getD_eq_getElem?_getD, List.getElem?_set_ne (by omega)]
    simp [hi]

theorem canon_l1 (d : Domain F) : Canon (l1Poly d) := d.canon_interpolate _

/-- `z_wx` is `z_x` composed with `w X`. -/
theorem accPolys_spec {cc : CompiledCircuit F} {d : Domain F} (hd : Domain.new? cc.size = some d)
    (hs : d.size = cc.size) {beta gamma : F} {b : Blinders F} {zx zwx : DP F}
    (h : accPolys beta gamma b d cc = some (zx, zwx)) :
    ∃ acc accw, computeAcc beta gamma d cc = some (acc, accw) ∧
      toPoly zx = (C b.b9 + C b.b8 * X + C b.b7 * X ^ 2) * (X ^ d.size - 1) + toPoly acc ∧
      toPoly zwx = (toPoly zx).comp (C d.gen * X) ∧ Canon zx ∧ Canon zwx := by
  unfold accPolys at h
  simp only [Option.bind_eq_bind, Option.bind_eq_some_iff, pure, Option.some.injEq, Prod.mk.injEq] at h
  obtain ⟨acc, ha, rfl, rfl⟩ := h
  have hz : toPoly (add (mulByVanishing (fromCoeffs [b.b9, b.b8, b.b7]) d) acc.1) =
      (C b.b9 + C b.b8 * X + C b.b7 * X ^ 2) * (X ^ d.size - 1) + toPoly acc.1 := by
    rw [toPoly_add, toPoly_mulByVanishing, toPoly_three]
  refine ⟨acc.1, acc.2, ha, hz, ?_, canon_add _ _, canon_add _ _⟩
  obtain ⟨hv, -⟩ := Domain.new?_valid hd
  rw [hz, toPoly_add, toPoly_mulByVanishing, toPoly_three, accw_comp cc d hd hs beta gamma acc.1 acc.2 ha]
  simp only [add_comp, mul_comp, C_comp, X_comp, sub_comp, pow_comp, one_comp, Domain.element, pow_one,
    mul_pow, C_mul, C_pow]
  have hg : (C d.gen : F[X]) ^ d.size = 1 := by rw [← C_pow, hv.pow_size, C_1]
  rw [hg]; ring

/-- Quotient polynomial: when it exists and what it is. -/
theorem computeQuotient_iff {beta gamma alpha : F} {ax bx cx zx zwx : DP F} {d : Domain F}
    {cc : CompiledCircuit F} (hz : Canon zx) (t : DP F) :
    computeQuotient beta gamma alpha ax bx cx zx zwx d cc = some t ↔
      zx ≠ [] ∧ Canon t ∧
      (X ^ d.size - 1 : F[X]) ∣ toPoly (quotLine1 cc ax bx cx) ∧
      (X ^ d.size - 1 : F[X]) ∣ C alpha * (toPoly (permNum cc beta gamma ax bx cx) * toPoly zx -
        toPoly (permDen cc beta gamma ax bx cx) * toPoly zwx) ∧
      (X ^ d.size - 1 : F[X]) ∣ C (alpha ^ 2) * ((toPoly zx - 1) * toPoly (l1Poly d)) ∧
      toPoly t * (X ^ d.size - 1) = toPoly (quotLine1 cc ax bx cx) +
        C alpha * (toPoly (permNum cc beta gamma ax bx cx) * toPoly zx -
          toPoly (permDen cc beta gamma ax bx cx) * toPoly zwx) +
        C (alpha ^ 2) * ((toPoly zx - 1) * toPoly (l1Poly d)) := by
  have hc1 : CanonOrZero (quotLine1 cc ax bx cx) := (canon_add _ _).orZero
  have hc2 : CanonOrZero (sub (smul (mul (permNum cc beta gamma ax bx cx) zx) alpha)
    (smul (mul (permDen cc beta gamma ax bx cx) zwx) alpha)) := (canon_sub _ _).orZero
  have ht2 : toPoly (sub (smul (mul (permNum cc beta gamma ax bx cx) zx) alpha)
    (smul (mul (permDen cc beta gamma ax bx cx) zwx) alpha)) =
      C alpha * (toPoly (permNum cc beta gamma ax bx cx) * toPoly zx -
        toPoly (permDen cc beta gamma ax bx cx) * toPoly zwx) := by
    rw [toPoly_sub, toPoly_smul, toPoly_smul, toPoly_mul, toPoly_mul]; ring
  have hc3 : ∀ z2, polySubPara zx 1 = some z2 →
      CanonOrZero (smul (mul z2 (l1Poly d)) (alpha ^ 2)) ∧
      toPoly (smul (mul z2 (l1Poly d)) (alpha ^ 2)) =
        C (alpha ^ 2) * ((toPoly zx - 1) * toPoly (l1Poly d)) := by
    intro z2 h2
    refine ⟨(canon_smul (canon_mul _ _) _).orZero, ?_⟩
    rw [toPoly_smul, toPoly_mul, toPoly_polySubPara h2, C_1]
  unfold computeQuotient
  simp only [Option.bind_eq_bind, Option.bind_eq_some_iff, pure, Option.some.injEq]
  constructor
  · rintro ⟨q1, h1, q23, h2, z2, h3, q4, h4, rfl⟩
    rw [divideVanishing_iff hc1] at h1
    rw [divideVanishing_iff hc2, ht2] at h2
    rw [divideVanishing_iff (hc3 z2 h3).1, (hc3 z2 h3).2] at h4
    refine ⟨polySubPara_ne_nil h3, canon_add _ _, ?_, ?_, ?_, ?_⟩
    · rw [← h1.2]; exact dvd_mul_left _ _
    · rw [← h2.2]; exact dvd_mul_left _ _
    · rw [← h4.2]; exact dvd_mul_left _ _
    · rw [← h1.2, ← h2.2, ← h4.2, toPoly_add, toPoly_add]; ring
  · rintro ⟨hne, hct, d1, d2, d3, ht⟩
    obtain ⟨q1, h1⟩ := (divideVanishing_exists hc1 d).2 d1
    obtain ⟨q2, h2⟩ := (divideVanishing_exists hc2 d).2 (by rw [ht2]; exact d2)
    obtain ⟨z2, h3⟩ := polySubPara_isSome hne (1 : F)
    obtain ⟨q4, h4⟩ := (divideVanishing_exists (hc3 z2 h3).1 d).2 (by rw [(hc3 z2 h3).2]; exact d3)
    refine ⟨q1, h1, q2, h2, z2, h3, q4, h4, ?_⟩
    refine canon_ext (canon_add _ _) hct ?_
    rw [divideVanishing_iff hc1] at h1
    rw [divideVanishing_iff hc2, ht2] at h2
    rw [divideVanishing_iff (hc3 z2 h3).1, (hc3 z2 h3).2] at h4
    apply mul_right_cancel₀ (monic_Z d).ne_zero
    rw [ht, ← h1.2, ← h2.2, ← h4.2, toPoly_add, toPoly_add]; ring

/-- The linearisation polynomial as a polynomial. -/
noncomputable def linPoly (beta gamma alpha ev : F) (bar : Bars F) (piE : F) (t z l1e : F[X])
    (n : ℕ) (cc : CompiledCircuit F) : F[X] :=
  toPoly (linLine1 cc bar) + C piE +
    C ((bar.a + beta * ev + gamma) * (bar.b + beta * cc.copy.k1 * ev + gamma) *
      (bar.c + beta * cc.copy.k2 * ev + gamma) * alpha) * z -
    C ((bar.a + beta * bar.s1 + gamma) * (bar.b + beta * bar.s2 + gamma) * bar.zw * alpha) *
      (C beta * toPoly cc.copy.s3 + C (bar.c + gamma)) +
    C (alpha ^ 2) * (l1e * (z - 1)) - C (ev ^ n - 1) * t

theorem toPoly_linLine1 (cc : CompiledCircuit F) (bar : Bars F) :
    toPoly (linLine1 cc bar) = C (bar.a * bar.b) * toPoly cc.gate.qmx + C bar.a * toPoly cc.gate.qlx +
      C bar.b * toPoly cc.gate.qrx + C bar.c * toPoly cc.gate.qox + toPoly cc.gate.qcx := by
  simp only [linLine1, toPoly_add, toPoly_smul]

/-- The assertion in the middle of `compute_linearisation_polynomial`. -/
def LinAssertion (beta gamma alpha ev : F) (bar : Bars F) (zx ax bx cx zwx : DP F)
    (cc : CompiledCircuit F) : Prop :=
  (toPoly (permDen cc beta gamma ax bx cx)).eval ev * alpha * (toPoly zwx).eval ev -
    (toPoly (permNum cc beta gamma ax bx cx)).eval ev * alpha * (toPoly zx).eval ev =
  (bar.a + beta * bar.s1 + gamma) * (bar.b + beta * bar.s2 + gamma) * bar.zw * alpha *
      (beta * (toPoly cc.copy.s3).eval ev + (bar.c + gamma)) -
    (bar.a + beta * ev + gamma) * (bar.b + beta * cc.copy.k1 * ev + gamma) *
      (bar.c + beta * cc.copy.k2 * ev + gamma) * alpha * (toPoly zx).eval ev

theorem computeLinearisation_iff {beta gamma alpha ev : F} {bar : Bars F} {piE : F}
    {tc zx ax bx cx zwx : DP F} {d : Domain F} {cc : CompiledCircuit F} (rx : DP F) :
    computeLinearisation beta gamma alpha ev bar piE tc zx ax bx cx zwx d cc = some rx ↔
      linLine1 cc bar ≠ [] ∧ smul cc.copy.s3 beta ≠ [] ∧ zx ≠ [] ∧
      LinAssertion beta gamma alpha ev bar zx ax bx cx zwx cc ∧ Canon rx ∧
      toPoly rx = linPoly beta gamma alpha ev bar piE (toPoly tc) (toPoly zx)
        (C (Ark.eval (l1Poly d) ev)) d.size cc := by
  unfold computeLinearisation
  simp only [Option.bind_eq_bind, Option.bind_eq_some_iff, pure, Option.some.injEq]
  have key : ∀ l1 tmp2 : DP F, addFirst (linLine1 cc bar) piE = some l1 →
      addFirst (smul cc.copy.s3 beta) (bar.c + gamma) = some tmp2 →
      ((Ark.eval (mul (smul (permDen cc beta gamma ax bx cx) alpha) zwx) ev -
        Ark.eval (mul (smul (permNum cc beta gamma ax bx cx) alpha) zx) ev =
        Ark.eval (smul tmp2 ((bar.a + beta * bar.s1 + gamma) * (bar.b + beta * bar.s2 + gamma) * bar.zw *
          alpha)) ev - Ark.eval (smul zx ((bar.a + beta * ev + gamma) *
          (bar.b + beta * cc.copy.k1 * ev + gamma) *
          (bar.c + beta * cc.copy.k2 * ev + gamma) * alpha)) ev) ↔
        LinAssertion beta gamma alpha ev bar zx ax bx cx zwx cc) := by
    intro l1 tmp2 h1 h2
    simp only [eval_eq, toPoly_mul, toPoly_smul, toPoly_addFirst h2, eval_mul, eval_C, eval_add]
    unfold LinAssertion
    constructor <;> intro h <;> linear_combination h
  have key2 : ∀ l1 tmp2 z2 : DP F, addFirst (linLine1 cc bar) piE = some l1 →
      addFirst (smul cc.copy.s3 beta) (bar.c + gamma) = some tmp2 →
      polySubPara zx 1 = some z2 →
      toPoly (add (add (add (add l1 (smul zx ((bar.a + beta * ev + gamma) *
          (bar.b + beta * cc.copy.k1 * ev + gamma) *
          (bar.c + beta * cc.copy.k2 * ev + gamma) * alpha)))
        (neg (smul tmp2 ((bar.a + beta * bar.s1 + gamma) * (bar.b + beta * bar.s2 + gamma) * bar.zw *
          alpha)))) (smul (smul z2 (Ark.eval (l1Poly d) ev)) (alpha ^ 2)))
        (neg (smul tc (ev ^ d.size - 1)))) =
      linPoly beta gamma alpha ev bar piE (toPoly tc) (toPoly zx)
        (C (Ark.eval (l1Poly d) ev)) d.size cc := by
    intro l1 tmp2 z2 h1 h2 h3
    simp only [toPoly_add, toPoly_neg, toPoly_smul, toPoly_addFirst h1, toPoly_addFirst h2,
      toPoly_polySubPara h3, C_1]
    unfold linPoly
    ring
  constructor
  · rintro ⟨l1, h1, tmp2, h2, h⟩
    split at h
    · next hass =>
      rw [Option.bind_eq_some_iff] at h
      obtain ⟨z2, h3, h4⟩ := h
      rw [Option.some.injEq] at h4
      subst h4
      exact ⟨addFirst_ne_nil h1, addFirst_ne_nil h2, polySubPara_ne_nil h3, (key l1 tmp2 h1 h2).1 hass,
        canon_add _ _, key2 l1 tmp2 z2 h1 h2 h3⟩
    · cases h
  · rintro ⟨n1, n2, n3, hass, hc, ht⟩
    obtain ⟨l1, h1⟩ := addFirst_isSome n1 piE
    obtain ⟨tmp2, h2⟩ := addFirst_isSome n2 (bar.c + gamma)
    obtain ⟨z2, h3⟩ := polySubPara_isSome n3 (1 : F)
    refine ⟨l1, h1, tmp2, h2, ?_⟩
    rw [if_pos ((key l1 tmp2 h1 h2).2 hass), Option.bind_eq_some_iff]
    refine ⟨z2, h3, ?_⟩
    congr 1
    exact canon_ext (canon_add _ _) hc (by rw [key2 l1 tmp2 z2 h1 h2 h3, ht])

/-- The batched opening polynomial. -/
theorem openingPoly_iff {cc : CompiledCircuit F} {v : F} {bar : Bars F} {rx ax bx cx : DP F} {barR : F}
    (w : DP F) :
    openingPoly cc v bar rx ax bx cx barR = some w ↔
      rx ≠ [] ∧ ax ≠ [] ∧ bx ≠ [] ∧ cx ≠ [] ∧ cc.copy.s1 ≠ [] ∧ cc.copy.s2 ≠ [] ∧ Canon w ∧
      toPoly w = (toPoly rx - C barR) + C v * (toPoly ax - C bar.a) + C (v ^ 2) * (toPoly bx - C bar.b) +
        C (v ^ 3) * (toPoly cx - C bar.c) + C (v ^ 4) * (toPoly cc.copy.s1 - C bar.s1) +
        C (v ^ 5) * (toPoly cc.copy.s2 - C bar.s2) := by
  have key : ∀ p0 p1 p2 p3 p4 p5 : DP F, polySubPara rx barR = some p0 → polySubPara ax bar.a = some p1 →
      polySubPara bx bar.b = some p2 → polySubPara cx bar.c = some p3 →
      polySubPara cc.copy.s1 bar.s1 = some p4 → polySubPara cc.copy.s2 bar.s2 = some p5 →
      toPoly (add (add (add (add (add p0 (smul p1 v)) (smul p2 (v ^ 2))) (smul p3 (v * v * v)))
        (smul p4 (v * v * v * v))) (smul p5 (v * v * v * v * v))) =
      (toPoly rx - C barR) + C v * (toPoly ax - C bar.a) + C (v ^ 2) * (toPoly bx - C bar.b) +
        C (v ^ 3) * (toPoly cx - C bar.c) + C (v ^ 4) * (toPoly cc.copy.s1 - C bar.s1) +
        C (v ^ 5) * (toPoly cc.copy.s2 - C bar.s2) := by
    intro p0 p1 p2 p3 p4 p5 h0 h1 h2 h3 h4 h5
    simp only [toPoly_add, toPoly_smul, toPoly_polySubPara h0, toPoly_polySubPara h1,
      toPoly_polySubPara h2, toPoly_polySubPara h3, toPoly_polySubPara h4, toPoly_polySubPara h5]
    simp only [C_pow, C_mul]; ring
  unfold openingPoly
  simp only [Option.bind_eq_bind, Option.bind_eq_some_iff, pure, Option.some.injEq]
  constructor
  · rintro ⟨p0, h0, p1, h1, p2, h2, p3, h3, p4, h4, p5, h5, rfl⟩
    exact ⟨polySubPara_ne_nil h0, polySubPara_ne_nil h1, polySubPara_ne_nil h2, polySubPara_ne_nil h3,
      polySubPara_ne_nil h4, polySubPara_ne_nil h5, canon_add _ _, key _ _ _ _ _ _ h0 h1 h2 h3 h4 h5⟩
  · rintro ⟨n0, n1, n2, n3, n4, n5, hc, ht⟩
    obtain ⟨p0, h0⟩ := polySubPara_isSome n0 barR
    obtain ⟨p1, h1⟩ := polySubPara_isSome n1 bar.a
    obtain ⟨p2, h2⟩ := polySubPara_isSome n2 bar.b
    obtain ⟨p3, h3⟩ := polySubPara_isSome n3 bar.c
    obtain ⟨p4, h4⟩ := polySubPara_isSome n4 bar.s1
    obtain ⟨p5, h5⟩ := polySubPara_isSome n5 bar.s2
    refine ⟨p0, h0, p1, h1, p2, h2, p3, h3, p4, h4, p5, h5, ?_⟩
    exact canon_ext (canon_add _ _) hc (by rw [key _ _ _ _ _ _ h0 h1 h2 h3 h4 h5, ht])

end polys

end Verif.Plonk

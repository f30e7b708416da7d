import Mathlib.RingTheory.Polynomial.Resultant.Basic
import Mathlib.RingTheory.Polynomial.UniqueFactorization
import Mathlib.Algebra.Polynomial.Bivariate
import Mathlib.RingTheory.Localization.Integral
import Mathlib.LinearAlgebra.FiniteDimensional.Lemmas
import Mathlib.LinearAlgebra.Dimension.Constructions

/-!
# Lines of words close to polynomials

If many points of the line `f0 + r f1` are, each in all but `e` places, values of polynomials with `m` coefficients, where
`2e + m` is at most the number of places, then these polynomials lie on a line.  (Ben-Sasson, Carmon, Ishai, Kopparty, Saraf,
"Proximity gaps for Reed-Solomon codes", Theorem 4.1; the divisibility argument is due to Polishchuk and Spielman.)
-/

namespace Verif.LineGap

open Polynomial
open scoped Polynomial.Bivariate

theorem resultant_ne_zero_of_isRelPrime {R : Type} [CommRing R] [IsDomain R] [UniqueFactorizationMonoid R] (A B : R[X])
    (h : IsRelPrime A B) (hA : A ≠ 0) : resultant A B ≠ 0 := by
  intro h0
  let K := FractionRing R
  let φ := algebraMap R K
  have hφ : Function.Injective φ := IsFractionRing.injective R K
  have h1 : resultant (A.map φ) (B.map φ) = 0 := by
    rw [natDegree_map_eq_of_injective hφ, natDegree_map_eq_of_injective hφ, resultant_map_map, h0, map_zero]
  have h2 := (resultant_eq_zero_iff.1 h1).2
  rw [← isRelPrime_iff_isCoprime] at h2
  unfold IsRelPrime at h2
  push Not at h2
  obtain ⟨d, ⟨A1, hA1⟩, ⟨B1, hB1⟩, hd⟩ := h2
  have hA' : A.map φ ≠ 0 := (Polynomial.map_ne_zero_iff hφ).2 hA
  have hd0 : d ≠ 0 := fun e => hA' (by rw [hA1, e, zero_mul])
  have hA10 : A1 ≠ 0 := fun e => hA' (by rw [hA1, e, mul_zero])
  have hdeg : 0 < d.natDegree := by
    by_contra hc
    refine hd ?_
    rw [eq_C_of_natDegree_eq_zero (by omega : d.natDegree = 0)] at hd0 ⊢
    exact isUnit_C.2 (isUnit_iff_ne_zero.2 fun e => hd0 (by rw [e, C_0]))
  obtain ⟨b1, hb1, e1⟩ := IsLocalization.integerNormalization_spec (nonZeroDivisors R) A1
  obtain ⟨b2, hb2, e2⟩ := IsLocalization.integerNormalization_spec (nonZeroDivisors R) B1
  set t := IsLocalization.integerNormalization (nonZeroDivisors R) A1 with ht
  set u := IsLocalization.integerNormalization (nonZeroDivisors R) B1 with hu
  rw [← IsScalarTower.algebraMap_smul K, smul_eq_C_mul] at e1 e2
  have n1 : φ b1 ≠ 0 := (map_ne_zero_iff φ hφ).2 (nonZeroDivisors.ne_zero hb1)
  have n2 : φ b2 ≠ 0 := (map_ne_zero_iff φ hφ).2 (nonZeroDivisors.ne_zero hb2)
  have key : A * (C b1 * u) = B * (C b2 * t) := by
    apply Polynomial.map_injective φ hφ
    rw [Polynomial.map_mul, Polynomial.map_mul, Polynomial.map_mul, Polynomial.map_mul, map_C, map_C, e1, e2, hA1, hB1]
    ring
  have hdvd : A ∣ C b2 * t := h.dvd_of_dvd_mul_left ⟨_, key.symm⟩
  have ht0 : (C b2 * t).map φ = C (φ b2) * (C (φ b1) * A1) := by rw [Polynomial.map_mul, map_C, e1]
  have hne : C b2 * t ≠ 0 := by
    intro e
    rw [e, Polynomial.map_zero] at ht0
    exact mul_ne_zero (C_ne_zero.2 n2) (mul_ne_zero (C_ne_zero.2 n1) hA10) ht0.symm
  have d1 := natDegree_le_of_dvd hdvd hne
  have d2 : (C b2 * t).natDegree = A1.natDegree := by
    rw [← natDegree_map_eq_of_injective hφ, ht0, natDegree_C_mul n2, natDegree_C_mul n1]
  have d3 : A.natDegree = d.natDegree + A1.natDegree := by
    rw [← natDegree_map_eq_of_injective hφ A, hA1, natDegree_mul hd0 hA10]
  omega

/-- The degree of a resultant of polynomials with polynomial coefficients. -/
theorem natDegree_resultant_le {F : Type} [Field F] (A B : F[X][Y]) (a b α β : ℕ) (hA : ∀ i, (A.coeff i).natDegree ≤ α)
    (hB : ∀ i, (B.coeff i).natDegree ≤ β) : (resultant A B a b).natDegree ≤ a * β + b * α := by
  unfold resultant
  rw [Matrix.det_apply]
  refine natDegree_sum_le_of_forall_le _ _ fun σ _ => ?_
  refine (natDegree_smul_le _ _).trans ?_
  refine (natDegree_prod_le _ _).trans ?_
  rw [Fin.sum_univ_add]
  refine Nat.add_le_add ?_ ?_
  · refine (Finset.sum_le_card_nsmul _ _ β fun i _ => ?_).trans (by simp)
    simp only [sylvester, Matrix.of_apply, Fin.addCases_left]
    split_ifs
    · exact hB _
    · simp
  · refine (Finset.sum_le_card_nsmul _ _ α fun i _ => ?_).trans (by simp)
    simp only [sylvester, Matrix.of_apply, Fin.addCases_right]
    split_ifs
    · exact hA _
    · simp

variable {F : Type} [Field F]

/-- Two relatively prime polynomials, one of which divides the other when the inner variable is specialised to the elements of
`S`: there are not too many of these. -/
theorem specialised_dvd (A B : F[X][Y]) (h : IsRelPrime A B) (hA : A ≠ 0) (α β c : ℕ)
    (hα : ∀ i, (A.coeff i).natDegree ≤ α) (hβ : ∀ i, (B.coeff i).natDegree ≤ β) (hB : B.natDegree ≤ A.natDegree + c)
    (S : Finset F) (hS : ∀ t ∈ S, ∃ p : F[X], p.natDegree ≤ c ∧ B.map (evalRingHom t) = A.map (evalRingHom t) * p) :
    A.natDegree * S.card ≤ A.natDegree * β + (A.natDegree + c) * α := by
  set a := A.natDegree with ha
  obtain ⟨k, hk⟩ := Nat.exists_eq_add_of_le hB
  have hR : resultant A B a (a + c) ≠ 0 := by
    rw [hk, resultant_add_right_deg _ _ _ _ _ le_rfl]
    exact mul_ne_zero (pow_ne_zero _ (leadingCoeff_ne_zero.2 hA)) (resultant_ne_zero_of_isRelPrime A B h hA)
  have hdvd : ∀ t ∈ S, (X - C t) ^ a ∣ resultant A B a (a + c) := by
    intro t ht
    obtain ⟨p, hp, he⟩ := hS t ht
    have hz : (B - A * p.map C).map (evalRingHom t) = 0 := by
      rw [Polynomial.map_sub, Polynomial.map_mul, he, Polynomial.map_map]
      have : (evalRingHom t).comp C = RingHom.id F := by ext; simp
      rw [this, Polynomial.map_id, sub_self]
    obtain ⟨Q, hQ⟩ : C (X - C t) ∣ B - A * p.map C := by
      rw [C_dvd_iff_dvd_coeff]
      intro i
      rw [dvd_iff_isRoot, IsRoot]
      have := congrArg (fun q => q.coeff i) hz
      rwa [coeff_map, coe_evalRingHom, coeff_zero] at this
    have e : B = C (X - C t) * Q + A * p.map C := by rw [← hQ]; ring
    rw [e, resultant_add_mul_right _ _ _ _ _ (by rw [add_comm]; exact Nat.add_le_add_left ((natDegree_map_le).trans hp) _) le_rfl,
      resultant_C_mul_right]
    exact dvd_mul_right _ _
  have hprod : (∏ t ∈ S, (X - C t) ^ a) ∣ resultant A B a (a + c) := by
    refine Finset.prod_dvd_of_coprime (fun t _ t' _ hne => ?_) hdvd
    exact IsCoprime.pow (isCoprime_X_sub_C_of_isUnit_sub (sub_ne_zero.2 hne).isUnit)
  have hdeg := natDegree_le_of_dvd hprod hR
  rw [natDegree_prod_of_monic _ _ fun t _ => (monic_X_sub_C t).pow a] at hdeg
  simp only [natDegree_pow, natDegree_X_sub_C, mul_one, Finset.sum_const, smul_eq_mul] at hdeg
  rw [mul_comm]
  exact hdeg.trans (natDegree_resultant_le A B a (a + c) α β hα hβ)

open Polynomial.Bivariate (swap)

theorem coeff_coeff_swap (P : F[X][Y]) (i j : ℕ) : ((swap P).coeff i).coeff j = (P.coeff j).coeff i := by
  induction P using Polynomial.induction_on' with
  | add p q hp hq => simp only [map_add, coeff_add, hp, hq]
  | monomial n f =>
    induction f using Polynomial.induction_on' with
    | add p q hp hq => simp only [map_add, coeff_add, hp, hq]
    | monomial k r =>
      rw [Bivariate.swap_monomial_monomial]
      simp only [coeff_monomial]
      split_ifs <;> simp_all [coeff_monomial]

theorem map_swap (P : F[X][Y]) (z : F) : (swap P).map (evalRingHom z) = P.eval (C z) := by
  have := Bivariate.aveal_eq_map_swap z P
  rw [← coe_aeval_eq_evalRingHom] at *
  simpa [aeval_def] using this.symm

theorem natDegree_coeff_le (P : F[X][Y]) (i : ℕ) : (P.coeff i).natDegree ≤ (swap P).natDegree := by
  rw [natDegree_le_iff_coeff_eq_zero]
  intro j hj
  rw [← coeff_coeff_swap, coeff_eq_zero_of_natDegree_lt hj, coeff_zero]

theorem natDegree_swap_le (P : F[X][Y]) (d : ℕ) (h : ∀ i, (P.coeff i).natDegree ≤ d) : (swap P).natDegree ≤ d := by
  rw [natDegree_le_iff_coeff_eq_zero]
  intro j hj
  ext i
  rw [coeff_coeff_swap, coeff_zero]
  exact coeff_eq_zero_of_natDegree_lt ((h i).trans_lt hj)

/-- The outer degree is seen in enough specialisations. -/
theorem natDegree_le_of_map (P : F[X][Y]) (d N : ℕ) (hN : (swap P).natDegree ≤ N) (D : Finset F) (hD : N < D.card)
    (h : ∀ x ∈ D, (P.map (evalRingHom x)).natDegree ≤ d) : P.natDegree ≤ d := by
  rw [natDegree_le_iff_coeff_eq_zero]
  intro j hj
  refine eq_zero_of_natDegree_lt_card_of_eval_eq_zero' _ D (fun x hx => ?_)
    (((natDegree_coeff_le P j).trans hN).trans_lt hD)
  have := coeff_eq_zero_of_natDegree_lt ((h x hx).trans_lt hj)
  rwa [coeff_map, coe_evalRingHom] at this

open Classical in
/-- A polynomial vanishes in few specialisations. -/
theorem card_map_ne_zero (G : F[X][Y]) (hG : G ≠ 0) (D : Finset F) :
    D.card ≤ (D.filter fun x => G.map (evalRingHom x) ≠ 0).card + (swap G).natDegree := by
  have h1 := Finset.card_filter_add_card_filter_not (s := D) (p := fun x => G.map (evalRingHom x) ≠ 0)
  have h2 : (D.filter fun x => ¬ G.map (evalRingHom x) ≠ 0).card ≤ (swap G).natDegree := by
    by_contra hlt
    refine hG (leadingCoeff_eq_zero.1 ?_)
    refine eq_zero_of_natDegree_lt_card_of_eval_eq_zero' _ (D.filter fun x => ¬ G.map (evalRingHom x) ≠ 0) (fun x hx => ?_)
      ((natDegree_coeff_le G _).trans_lt (not_le.1 hlt))
    have := congrArg (fun q => q.coeff G.natDegree) (not_not.1 (Finset.mem_filter.1 hx).2)
    rwa [coeff_map, coe_evalRingHom, coeff_zero] at this
  omega

theorem natDegree_le_of_mul_left {R : Type} [CommRing R] [IsDomain R] (G B0 B : R[X]) (h : G * B0 = B) (hG : G ≠ 0) :
    B0.natDegree ≤ B.natDegree := by
  by_cases h0 : B0 = 0
  · rw [h0]; simp
  · rw [← h, natDegree_mul hG h0]; omega

theorem degrees_zero (ax ay gx gy n e d s : ℕ) (hy : gy + ay ≤ e) (hx : gx + ax ≤ e) (hd : 2 * e + n + 1 ≤ d + gx)
    (hs : 2 * e + n + 2 ≤ s + gy) (k1 : ay * d ≤ ay * (ax + n) + (ay + 1) * ax)
    (k2 : ax * s ≤ ax * (ay + 1) + (ax + n) * ay) : ax = 0 ∧ ay = 0 := by
  have m1 : ay * (2 * ax + gx + n + 1) ≤ ay * d := Nat.mul_le_mul_left _ (by omega)
  have m2 : ax * (2 * ay + gy + n + 2) ≤ ax * s := Nat.mul_le_mul_left _ (by omega)
  have i1 : ay * (gx + 1) ≤ ax := by linarith
  have i2 : ay ≤ ax := (Nat.le_mul_of_pos_right _ (Nat.succ_pos gx)).trans i1
  have i3 : ax * (gy + n + 1) ≤ n * ay := by linarith
  have i4 : n * ay ≤ n * ax := Nat.mul_le_mul_left _ i2
  have i5 : ax * (gy + 1) ≤ 0 := by linarith
  have ax0 : ax = 0 := by
    have := (Nat.le_mul_of_pos_right ax (Nat.succ_pos gy)).trans i5
    omega
  exact ⟨ax0, by omega⟩

open Classical in
/-- **Polishchuk–Spielman** for a quotient that is linear in the outer variable. -/
theorem dvd_of_specialised (A B : F[X][Y]) (hA : A ≠ 0) (e n : ℕ) (hAy : A.natDegree ≤ e) (hAx : (swap A).natDegree ≤ e)
    (hBy : B.natDegree ≤ e + 1) (hBx : (swap B).natDegree ≤ e + n) (D S : Finset F) (hD : 2 * e + n + 1 ≤ D.card)
    (hS : 2 * e + n + 2 ≤ S.card)
    (hDx : ∀ x ∈ D, ∃ p : F[X], p.natDegree ≤ 1 ∧ B.map (evalRingHom x) = A.map (evalRingHom x) * p)
    (hSz : ∀ z ∈ S, ∃ p : F[X], p.natDegree ≤ n ∧ (swap B).map (evalRingHom z) = (swap A).map (evalRingHom z) * p) :
    A ∣ B := by
  obtain ⟨A0, B0, G, hrel, hGA, hGB⟩ := UniqueFactorizationMonoid.exists_reduced_factors A hA B
  have hG : G ≠ 0 := fun h => hA (by rw [← hGA, h, zero_mul])
  have hA0 : A0 ≠ 0 := fun h => hA (by rw [← hGA, h, mul_zero])
  have hsG : swap G ≠ 0 := (map_ne_zero_iff _ swap.injective).2 hG
  have hsA0 : swap A0 ≠ 0 := (map_ne_zero_iff _ swap.injective).2 hA0
  have hsGA : swap G * swap A0 = swap A := by rw [← map_mul, hGA]
  have hsGB : swap G * swap B0 = swap B := by rw [← map_mul, hGB]
  have dy : G.natDegree + A0.natDegree ≤ e := by rw [← natDegree_mul hG hA0, hGA]; exact hAy
  have dx : (swap G).natDegree + (swap A0).natDegree ≤ e := by rw [← natDegree_mul hsG hsA0, hsGA]; exact hAx
  have hB0y := (natDegree_le_of_mul_left _ _ _ hGB hG).trans hBy
  have hB0x := (natDegree_le_of_mul_left _ _ _ hsGB hsG).trans hBx
  set D0 := D.filter fun x => G.map (evalRingHom x) ≠ 0 with hD0
  set S0 := S.filter fun z => (swap G).map (evalRingHom z) ≠ 0 with hS0
  have cD : D.card ≤ D0.card + (swap G).natDegree := card_map_ne_zero G hG D
  have cS : S.card ≤ S0.card + G.natDegree := by
    have := card_map_ne_zero (swap G) hsG S
    rwa [Bivariate.swap_swap_apply] at this
  have hDx0 : ∀ x ∈ D0, ∃ p : F[X], p.natDegree ≤ 1 ∧ B0.map (evalRingHom x) = A0.map (evalRingHom x) * p := by
    intro x hx
    obtain ⟨h1, h2⟩ := Finset.mem_filter.1 hx
    obtain ⟨p, hp, he⟩ := hDx x h1
    refine ⟨p, hp, mul_left_cancel₀ h2 ?_⟩
    rw [← mul_assoc, ← Polynomial.map_mul, ← Polynomial.map_mul, hGA, hGB, he]
  have hSz0 : ∀ z ∈ S0, ∃ p : F[X], p.natDegree ≤ n ∧
      (swap B0).map (evalRingHom z) = (swap A0).map (evalRingHom z) * p := by
    intro z hz
    obtain ⟨h1, h2⟩ := Finset.mem_filter.1 hz
    obtain ⟨p, hp, he⟩ := hSz z h1
    refine ⟨p, hp, mul_left_cancel₀ h2 ?_⟩
    rw [← mul_assoc, ← Polynomial.map_mul, ← Polynomial.map_mul, hsGA, hsGB, he]
  have degmul : ∀ (P Q : F[X][Y]) (t : F) (p : F[X]) (c : ℕ), p.natDegree ≤ c →
      Q.map (evalRingHom t) = P.map (evalRingHom t) * p → (Q.map (evalRingHom t)).natDegree ≤ P.natDegree + c := by
    intro P Q t p c hp he
    rw [he]
    exact natDegree_mul_le.trans (Nat.add_le_add natDegree_map_le hp)
  have bx : (swap B0).natDegree ≤ (swap A0).natDegree + n := by
    refine natDegree_le_of_map (swap B0) _ (e + 1) (by rw [Bivariate.swap_swap_apply]; exact hB0y) S0 (by omega)
      fun z hz => ?_
    obtain ⟨p, hp, he⟩ := hSz0 z hz
    exact degmul _ _ z p n hp he
  have bY : B0.natDegree ≤ A0.natDegree + 1 := by
    refine natDegree_le_of_map B0 _ (e + n) hB0x D0 (by omega) fun x hx => ?_
    obtain ⟨p, hp, he⟩ := hDx0 x hx
    exact degmul _ _ x p 1 hp he
  have hrel' : IsRelPrime (swap A0) (swap B0) := by
    intro d h1 h2
    have e1 : swap d ∣ A0 := by
      have := map_dvd (swap (R := F)) h1
      rwa [Bivariate.swap_swap_apply] at this
    have e2 : swap d ∣ B0 := by
      have := map_dvd (swap (R := F)) h2
      rwa [Bivariate.swap_swap_apply] at this
    have := (hrel e1 e2).map (swap (R := F))
    rwa [Bivariate.swap_swap_apply] at this
  have k1 := specialised_dvd A0 B0 hrel hA0 _ _ 1 (natDegree_coeff_le A0) (fun i => (natDegree_coeff_le B0 i).trans bx) bY
    D0 hDx0
  have k2 := specialised_dvd (swap A0) (swap B0) hrel' hsA0 A0.natDegree (A0.natDegree + 1) n
    (fun i => (natDegree_coeff_le (swap A0) i).trans (by rw [Bivariate.swap_swap_apply]))
    (fun i => (natDegree_coeff_le (swap B0) i).trans (by rw [Bivariate.swap_swap_apply]; exact bY)) bx S0 hSz0
  generalize hay : A0.natDegree = ay at *
  generalize hax : (swap A0).natDegree = ax at *
  generalize G.natDegree = gy at *
  generalize (swap G).natDegree = gx at *
  obtain ⟨ax0, ay0⟩ := degrees_zero ax ay gx gy n e _ _ dy dx (by omega) (by omega) k1 k2
  rw [ay0] at hay
  rw [ax0] at hax
  obtain ⟨a, rfl⟩ : ∃ a : F[X], A0 = C a := ⟨_, eq_C_of_natDegree_eq_zero hay⟩
  rw [Bivariate.swap_C, natDegree_map_eq_of_injective C_injective] at hax
  obtain ⟨r, rfl⟩ : ∃ r : F, a = C r := ⟨_, eq_C_of_natDegree_eq_zero hax⟩
  have hr : r ≠ 0 := fun h => hA0 (by rw [h, C_0, C_0])
  have hu : IsUnit (C (C r) : F[X][Y]) := isUnit_C.2 (isUnit_C.2 (isUnit_iff_ne_zero.2 hr))
  rw [← hGA, hu.mul_right_dvd, ← hGB]
  exact dvd_mul_right _ _

/-- The bivariate polynomial with given coefficients. -/
noncomputable def ofCoeffs (p q : ℕ) : (Fin p → Fin q → F) →ₗ[F] F[X][Y] where
  toFun a := ∑ j : Fin p, ∑ i : Fin q, monomial (j : ℕ) (monomial (i : ℕ) (a j i))
  map_add' a b := by simp [Finset.sum_add_distrib]
  map_smul' c a := by simp [Finset.smul_sum, smul_monomial]

theorem coeff_ofCoeffs (p q : ℕ) (a : Fin p → Fin q → F) (j : Fin p) (i : Fin q) :
    ((ofCoeffs p q a).coeff j).coeff i = a j i := by
  simp only [ofCoeffs, LinearMap.coe_mk, AddHom.coe_mk, finsetSum_coeff, coeff_monomial]
  rw [Finset.sum_eq_single j, Finset.sum_eq_single i]
  · simp
  · intro b _ hb
    simp [coeff_monomial, Fin.val_ne_of_ne hb]
  · simp
  · intro b _ hb
    simp [Fin.val_ne_of_ne hb]
  · simp

theorem natDegree_ofCoeffs (p q : ℕ) (a : Fin (p + 1) → Fin (q + 1) → F) :
    (ofCoeffs (p + 1) (q + 1) a).natDegree ≤ p ∧ (swap (ofCoeffs (p + 1) (q + 1) a)).natDegree ≤ q := by
  constructor
  · simp only [ofCoeffs, LinearMap.coe_mk, AddHom.coe_mk]
    refine natDegree_sum_le_of_forall_le _ _ fun j _ => natDegree_sum_le_of_forall_le _ _ fun i _ => ?_
    exact (natDegree_monomial_le _).trans (by omega)
  · refine natDegree_swap_le _ _ fun k => ?_
    simp only [ofCoeffs, LinearMap.coe_mk, AddHom.coe_mk, finsetSum_coeff, coeff_monomial]
    refine natDegree_sum_le_of_forall_le _ _ fun j _ => natDegree_sum_le_of_forall_le _ _ fun i _ => ?_
    split_ifs
    · exact (natDegree_monomial_le _).trans (by omega)
    · simp

/-- Berlekamp–Welch along the line: there are more unknowns than equations. -/
theorem exists_interpolant (e n : ℕ) (D : Finset F) (hD : D.card = 2 * e + n + 1) (u0 u1 : F → F) :
    ∃ A B : F[X][Y], A ≠ 0 ∧ A.natDegree ≤ e ∧ (swap A).natDegree ≤ e ∧ B.natDegree ≤ e + 1 ∧ (swap B).natDegree ≤ e + n ∧
      ∀ x ∈ D, B.map (evalRingHom x) = A.map (evalRingHom x) * (C (u1 x) * X + C (u0 x)) := by
  let q : F → F[X] := fun x => C (u1 x) * X + C (u0 x)
  let sp : F → F[X][Y] →ₗ[F] F[X] := fun x => (mapAlgHom (aeval x)).toLinearMap
  let φ : (Fin (e + 1) → Fin (e + 1) → F) × (Fin (e + 1 + 1) → Fin (e + n + 1) → F) →ₗ[F] (D → Fin (e + 1 + 1) → F) :=
    LinearMap.pi fun x => LinearMap.pi fun j => lcoeff F (j : ℕ) ∘ₗ
      (LinearMap.mulRight F (q x) ∘ₗ sp x ∘ₗ ofCoeffs (e + 1) (e + 1) ∘ₗ LinearMap.fst F _ _ -
        sp x ∘ₗ ofCoeffs (e + 1 + 1) (e + n + 1) ∘ₗ LinearMap.snd F _ _)
  have hlt : Module.finrank F (D → Fin (e + 1 + 1) → F) <
      Module.finrank F ((Fin (e + 1) → Fin (e + 1) → F) × (Fin (e + 1 + 1) → Fin (e + n + 1) → F)) := by
    simp only [Module.finrank_prod, Module.finrank_pi_fintype, Module.finrank_self, Finset.sum_const, Finset.card_univ, Fintype.card_fin,
      Fintype.card_coe, smul_eq_mul, hD]
    nlinarith
  have hker := LinearMap.ker_ne_bot_of_finrank_lt (f := φ) hlt
  obtain ⟨⟨a, b⟩, hab, hne⟩ := (Submodule.ne_bot_iff _).1 hker
  obtain ⟨dA1, dA2⟩ := natDegree_ofCoeffs e e a
  obtain ⟨dB1, dB2⟩ := natDegree_ofCoeffs (e + 1) (e + n) b
  have hsp : ∀ x (P : F[X][Y]), sp x P = P.map (evalRingHom x) := by
    intro x P
    simp only [sp, AlgHom.toLinearMap_apply, coe_mapAlgHom]
    congr 1
  have heq : ∀ x ∈ D, (ofCoeffs (e + 1 + 1) (e + n + 1) b).map (evalRingHom x) =
      (ofCoeffs (e + 1) (e + 1) a).map (evalRingHom x) * q x := by
    intro x hx
    ext j
    by_cases hj : j < e + 1 + 1
    · have := congrFun (congrFun (LinearMap.mem_ker.1 hab) ⟨x, hx⟩) ⟨j, hj⟩
      simp only [φ, LinearMap.pi_apply, LinearMap.comp_apply, LinearMap.sub_apply, LinearMap.fst_apply, LinearMap.snd_apply,
        LinearMap.mulRight_apply, hsp, lcoeff_apply, coeff_sub, Pi.zero_apply] at this
      exact (sub_eq_zero.1 this).symm
    · rw [coeff_eq_zero_of_natDegree_lt, coeff_eq_zero_of_natDegree_lt]
      · refine (natDegree_mul_le.trans (Nat.add_le_add (natDegree_map_le.trans dA1) ?_)).trans_lt (not_lt.1 hj)
        exact natDegree_linear_le
      · exact (natDegree_map_le.trans dB1).trans_lt (not_lt.1 hj)
  refine ⟨ofCoeffs (e + 1) (e + 1) a, ofCoeffs (e + 1 + 1) (e + n + 1) b, ?_, dA1, dA2, dB1, dB2, heq⟩
  intro hA
  refine hne ?_
  have ha : a = 0 := by
    funext j i
    have := coeff_ofCoeffs (e + 1) (e + 1) a j i
    rw [hA] at this
    simpa using this.symm
  have hB : ofCoeffs (e + 1 + 1) (e + n + 1) b = 0 := by
    by_contra hB
    classical
    have h1 := card_map_ne_zero _ hB D
    rw [Finset.filter_false_of_mem fun x hx => by rw [heq x hx, hA, Polynomial.map_zero, zero_mul]; simp] at h1
    simp only [Finset.card_empty] at h1
    omega
  have hb : b = 0 := by
    funext j i
    have := coeff_ofCoeffs (e + 1 + 1) (e + n + 1) b j i
    rw [hB] at this
    simpa using this.symm
  rw [ha, hb]
  rfl

theorem eval_map_swap (P : F[X][Y]) (x z : F) :
    ((swap P).map (evalRingHom z)).eval x = (P.map (evalRingHom x)).eval z := by
  rw [map_swap, map_evalRingHom_eval]

open Classical in
/-- If more than `2e + n + 1` points of a line of words are polynomials of degree at most `n` in all but `e` places, out of at
least `2e + n + 1`, then all but `e` of these polynomials lie on a line. -/
theorem line_of_close (D : Finset F) (e n : ℕ) (hD : 2 * e + n + 1 ≤ D.card) (u0 u1 : F → F) (S : Finset F)
    (hS : 2 * e + n + 2 ≤ S.card) (P : F → F[X]) (hP : ∀ z ∈ S, (P z).natDegree ≤ n)
    (hclose : ∀ z ∈ S, (D.filter fun x => ¬ u0 x + z * u1 x = (P z).eval x).card ≤ e) :
    ∃ v0 v1 : F[X], v0.natDegree ≤ n ∧ v1.natDegree ≤ n ∧ ∃ S' ⊆ S, S.card ≤ S'.card + e ∧
      ∀ z ∈ S', P z = v0 + C z * v1 := by
  obtain ⟨D', hD', hcard⟩ := Finset.exists_subset_card_eq hD
  obtain ⟨A, B, hA, dA1, dA2, dB1, dB2, hAB⟩ := exists_interpolant e n D' hcard u0 u1
  have hSz : ∀ z ∈ S, (swap B).map (evalRingHom z) = (swap A).map (evalRingHom z) * P z := by
    intro z hz
    rw [← sub_eq_zero]
    refine eq_zero_of_natDegree_lt_card_of_eval_eq_zero' _ (D'.filter fun x => u0 x + z * u1 x = (P z).eval x) ?_ ?_
    · intro x hx
      obtain ⟨h1, h2⟩ := Finset.mem_filter.1 hx
      rw [eval_sub, eval_mul, eval_map_swap, eval_map_swap, hAB x h1, ← h2]
      simp only [eval_mul, eval_add, eval_C, eval_X]
      ring
    · have h1 := Finset.card_filter_add_card_filter_not (s := D') (p := fun x => u0 x + z * u1 x = (P z).eval x)
      have h2 : (D'.filter fun x => ¬ u0 x + z * u1 x = (P z).eval x).card ≤ e :=
        (Finset.card_le_card (Finset.filter_subset_filter _ hD')).trans (hclose z hz)
      have h3 : ((swap B).map (evalRingHom z) - (swap A).map (evalRingHom z) * P z).natDegree ≤ e + n :=
        (natDegree_sub_le_of_le (natDegree_map_le.trans dB2)
          (natDegree_mul_le.trans (Nat.add_le_add (natDegree_map_le.trans dA2) (hP z hz)))).trans (max_self _).le
      omega
  obtain ⟨Q, rfl⟩ := dvd_of_specialised A B hA e n dA1 dA2 dB1 dB2 D' S hcard.ge hS
    (fun x hx => ⟨_, natDegree_linear_le, hAB x hx⟩) (fun z hz => ⟨P z, hP z hz, hSz z hz⟩)
  have hsA : swap A ≠ 0 := (map_ne_zero_iff _ swap.injective).2 hA
  have hQ1 : Q.natDegree ≤ 1 := by
    refine natDegree_le_of_map Q 1 (e + n) ?_ (D'.filter fun x => A.map (evalRingHom x) ≠ 0) ?_ ?_
    · exact (natDegree_le_of_mul_left (swap A) (swap Q) (swap (A * Q)) (by rw [map_mul]) hsA).trans dB2
    · have := card_map_ne_zero A hA D'
      omega
    · intro x hx
      obtain ⟨h1, h2⟩ := Finset.mem_filter.1 hx
      have := hAB x h1
      rw [Polynomial.map_mul] at this
      rw [mul_left_cancel₀ h2 this]
      exact natDegree_linear_le
  have hQz : ∀ z ∈ S.filter (fun z => (swap A).map (evalRingHom z) ≠ 0), (swap Q).map (evalRingHom z) = P z := by
    intro z hz
    obtain ⟨h1, h2⟩ := Finset.mem_filter.1 hz
    have := hSz z h1
    rw [map_mul, Polynomial.map_mul] at this
    exact mul_left_cancel₀ h2 this
  have hcS : S.card ≤ (S.filter fun z => (swap A).map (evalRingHom z) ≠ 0).card + e := by
    have := card_map_ne_zero (swap A) hsA S
    rw [Bivariate.swap_swap_apply] at this
    omega
  have hQn : (swap Q).natDegree ≤ n := by
    refine natDegree_le_of_map (swap Q) n 1 (by rw [Bivariate.swap_swap_apply]; exact hQ1)
      (S.filter fun z => (swap A).map (evalRingHom z) ≠ 0) (by omega) fun z hz => ?_
    rw [hQz z hz]
    exact hP z (Finset.mem_filter.1 hz).1
  refine ⟨Q.coeff 0, Q.coeff 1, (natDegree_coeff_le Q 0).trans hQn, (natDegree_coeff_le Q 1).trans hQn, _,
    Finset.filter_subset _ _, hcS, fun z hz => ?_⟩
  rw [← hQz z hz, map_swap]
  conv_lhs => rw [eq_X_add_C_of_natDegree_le_one hQ1]
  simp only [eval_add, eval_mul, eval_C, eval_X]
  ring

end Verif.LineGap

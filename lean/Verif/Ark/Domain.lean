import Verif.Ark.Poly
import Mathlib.RingTheory.RootsOfUnity.PrimitiveRoots
import Mathlib.LinearAlgebra.Lagrange
import Mathlib.Data.Nat.Log
import Mathlib.Algebra.Field.GeomSum

/-!
# arkworks evaluation domains

Model of `ark_ff::FftField` and `ark_poly::GeneralEvaluationDomain` / `Radix2EvaluationDomain`
(external library, behaviour documented in ark-poly 0.4).
-/

set_option linter.unusedSectionVars false

namespace Verif.Ark

open Polynomial Finset

/-- `ark_ff::FftField`: a field with a primitive `2^twoAdicity`-th root of unity and a generator used
as coset offset.  (`TWO_ADICITY`, `TWO_ADIC_ROOT_OF_UNITY`, `GENERATOR`.) -/
class FftField (F : Type*) extends Field F where
  /-- `TWO_ADICITY` -/
  twoAdicity : ℕ
  /-- `TWO_ADIC_ROOT_OF_UNITY` -/
  root : F
  /-- the root is primitive -/
  root_prim : IsPrimitiveRoot root (2 ^ twoAdicity)
  /-- `GENERATOR` -/
  generator : F
  /-- the generator is invertible -/
  generator_ne_zero : generator ≠ 0

/-- `usize::next_power_of_two` (`0` and `1` map to `1`). -/
def nextPow2 (n : ℕ) : ℕ := 2 ^ Nat.clog 2 n

/-- `GeneralEvaluationDomain<F>`: size `2^log` and group generator (offset one). -/
structure Domain (F : Type*) where
  /-- base-2 logarithm of the number of elements -/
  log : ℕ
  /-- generator of the subgroup -/
  gen : F

variable {F : Type*} [FftField F] [DecidableEq F]

/-- `EvaluationDomain::size`. -/
def Domain.size {F : Type*} (d : Domain F) : ℕ := 2 ^ d.log

/-- `EvaluationDomain::new(n)` (ark-poly): the subgroup of the least power of two `≥ n` elements;
`None` if the field has no such subgroup.  The generator is the two-adic root squared down. -/
def Domain.new? {F : Type*} [FftField F] (n : ℕ) : Option (Domain F) :=
  let k := Nat.clog 2 n
  if k ≤ FftField.twoAdicity F then
    some ⟨k, (FftField.root : F) ^ 2 ^ (FftField.twoAdicity F - k)⟩
  else none

/-- `EvaluationDomain::element(i)` (ark-poly): `gen^i`. -/
def Domain.element (d : Domain F) (i : ℕ) : F := d.gen ^ i

/-- `EvaluationDomain::elements()` (ark-poly). -/
def Domain.elements (d : Domain F) : List F := (List.range d.size).map d.element

/-- `Evaluations::from_vec_and_domain(v, d).interpolate()` (ark-poly): inverse DFT of `v` resized to
the domain size (zero padding), then truncation of leading zeros. -/
def Domain.interpolate (d : Domain F) (v : List F) : DP F :=
  fromCoeffs ((List.range d.size).map fun j =>
    (d.size : F)⁻¹ * ∑ i ∈ Finset.range d.size, v.getD i 0 * (d.gen⁻¹) ^ (i * j))

/-- `EvaluationDomain::vanishing_polynomial()` (ark-poly): `X^n - 1`. -/
def Domain.vanishing (d : Domain F) : DP F := (-1 : F) :: (List.replicate (d.size - 1) 0 ++ [1])

/-- `DensePolynomial::mul_by_vanishing_poly` (ark-poly): multiplication by `X^n - 1`. -/
def mulByVanishing (p : DP F) (d : Domain F) : DP F :=
  fromCoeffs (zipAdd (List.replicate d.size 0 ++ p) (neg p))

/-- `DensePolynomial::divide_by_vanishing_poly` (ark-poly): quotient and remainder by `X^n - 1`. -/
def divideByVanishing (p : DP F) (d : Domain F) : Option (DP F × DP F) :=
  divideWithQAndR p d.vanishing

/-! ## Facts -/

theorem le_nextPow2 (n : ℕ) : n ≤ nextPow2 n := Nat.le_pow_clog (by norm_num) n

theorem nextPow2_pos (n : ℕ) : 0 < nextPow2 n := by unfold nextPow2; positivity

theorem nextPow2_le_of_le {n k : ℕ} (h : n ≤ 2 ^ k) : nextPow2 n ≤ 2 ^ k :=
  Nat.pow_le_pow_right (by norm_num) (Nat.clog_le_of_le_pow h)

theorem nextPow2_pow (k : ℕ) : nextPow2 (2 ^ k) = 2 ^ k := by
  unfold nextPow2; rw [Nat.clog_pow 2 k (by norm_num)]

/-- The domain's generator is a primitive `size`-th root of unity. -/
def Domain.Valid (d : Domain F) : Prop := IsPrimitiveRoot d.gen d.size

theorem Domain.size_pos {F : Type*} (d : Domain F) : 0 < d.size := by unfold Domain.size; positivity

theorem Domain.new?_valid {n : ℕ} {d : Domain F} (h : Domain.new? n = some d) :
    d.Valid ∧ d.size = nextPow2 n := by
  unfold Domain.new? at h
  simp only at h
  split at h
  · next hk =>
    cases h
    refine ⟨?_, rfl⟩
    have := (FftField.root_prim (F := F)).pow (n := 2 ^ FftField.twoAdicity F) (by positivity)
      (a := 2 ^ (FftField.twoAdicity F - Nat.clog 2 n)) (b := 2 ^ Nat.clog 2 n)
      (by rw [← pow_add]; congr 1; omega)
    exact this
  · cases h

theorem Domain.new?_isSome_iff (n : ℕ) :
    (Domain.new? (F := F) n).isSome ↔ nextPow2 n ≤ 2 ^ FftField.twoAdicity F := by
  unfold Domain.new? nextPow2
  simp only
  rw [Nat.pow_le_pow_iff_right (by norm_num)]
  split <;> simp_all

theorem Domain.Valid.gen_ne_zero {d : Domain F} (h : d.Valid) : d.gen ≠ 0 :=
  h.ne_zero d.size_pos.ne'

theorem Domain.Valid.size_ne_zero {d : Domain F} (h : d.Valid) : (d.size : F) ≠ 0 := by
  have : NeZero d.size := ⟨d.size_pos.ne'⟩
  exact (IsPrimitiveRoot.neZero' h).out

theorem Domain.Valid.pow_size {d : Domain F} (h : d.Valid) : d.gen ^ d.size = 1 := h.pow_eq_one

theorem Domain.Valid.pow_inj {d : Domain F} (h : d.Valid) {i j : ℕ} (hi : i < d.size)
    (hj : j < d.size) (he : d.gen ^ i = d.gen ^ j) : i = j := IsPrimitiveRoot.pow_inj h hi hj he

theorem Domain.Valid.pow_mod {d : Domain F} (h : d.Valid) (i : ℕ) :
    d.gen ^ (i % d.size) = d.gen ^ i := by
  conv_rhs => rw [← Nat.div_add_mod i d.size, pow_add, pow_mul, h.pow_size, one_pow, one_mul]

/-- Orthogonality of the characters of the domain. -/
theorem Domain.Valid.sum_pow {d : Domain F} (h : d.Valid) {i k : ℕ} (hi : i < d.size)
    (hk : k < d.size) :
    ∑ j ∈ Finset.range d.size, (d.gen ^ k * (d.gen⁻¹) ^ i) ^ j = if i = k then (d.size : F) else 0 := by
  have hg := h.gen_ne_zero
  split
  · next he => subst he; simp [hg]
  · next hne =>
    have hr : d.gen ^ k * (d.gen⁻¹) ^ i ≠ 1 := by
      intro he
      apply hne
      rw [inv_pow, mul_inv_eq_one₀ (pow_ne_zero _ hg)] at he
      exact (h.pow_inj hk hi he).symm
    have hs := geom_sum_eq hr d.size
    rw [hs]
    have : (d.gen ^ k * (d.gen⁻¹) ^ i) ^ d.size = 1 := by
      rw [mul_pow, ← pow_mul, ← pow_mul, mul_comm k, mul_comm i, pow_mul, pow_mul, h.pow_size,
        inv_pow, h.pow_size]; simp
    rw [this]; simp

theorem toPoly_map_range (n : ℕ) (f : ℕ → F) :
    toPoly ((List.range n).map f) = ∑ j ∈ Finset.range n, C (f j) * X ^ j := by
  induction n with
  | zero => simp
  | succ n ih =>
    rw [List.range_succ, List.map_append, List.map_singleton, toPoly_append_singleton, ih,
      Finset.sum_range_succ]; simp

theorem Domain.toPoly_interpolate (d : Domain F) (v : List F) :
    toPoly (d.interpolate v) = ∑ j ∈ Finset.range d.size,
      C ((d.size : F)⁻¹ * ∑ i ∈ Finset.range d.size, v.getD i 0 * (d.gen⁻¹) ^ (i * j)) * X ^ j := by
  rw [Domain.interpolate, toPoly_fromCoeffs, toPoly_map_range]

/-- Interpolation takes the given values (zero where the vector is too short). -/
theorem Domain.Valid.eval_interpolate {d : Domain F} (h : d.Valid) (v : List F) {k : ℕ}
    (hk : k < d.size) : (toPoly (d.interpolate v)).eval (d.gen ^ k) = v.getD k 0 := by
  rw [d.toPoly_interpolate, eval_finsetSum]
  simp only [eval_mul, eval_C, eval_pow, eval_X]
  have h1 : ∀ j, (d.size : F)⁻¹ * (∑ i ∈ Finset.range d.size, v.getD i 0 * (d.gen⁻¹) ^ (i * j)) *
      (d.gen ^ k) ^ j = ∑ i ∈ Finset.range d.size,
        (d.size : F)⁻¹ * v.getD i 0 * (d.gen ^ k * (d.gen⁻¹) ^ i) ^ j := by
    intro j
    rw [Finset.mul_sum, Finset.sum_mul]
    refine Finset.sum_congr rfl fun i _ => ?_
    rw [mul_pow, pow_mul]; ring
  simp_rw [h1]
  rw [Finset.sum_comm]
  simp_rw [← Finset.mul_sum]
  rw [Finset.sum_congr rfl fun i hi => by rw [h.sum_pow (Finset.mem_range.1 hi) hk]]
  simp only [mul_ite, mul_zero]
  rw [Finset.sum_ite_eq' (Finset.range d.size) k]
  rw [if_pos (Finset.mem_range.2 hk)]
  have := h.size_ne_zero
  field_simp

theorem Domain.length_interpolate_le (d : Domain F) (v : List F) :
    (d.interpolate v).length ≤ d.size := by
  rw [Domain.interpolate, fromCoeffs]
  refine (length_truncate_le _).trans ?_
  simp

theorem Domain.canon_interpolate (d : Domain F) (v : List F) : Canon (d.interpolate v) :=
  canon_fromCoeffs _

theorem Domain.degree_interpolate_lt (d : Domain F) (v : List F) :
    (toPoly (d.interpolate v)).degree < d.size :=
  (degree_toPoly_lt _).trans_le (by exact_mod_cast d.length_interpolate_le v)

/-- The vanishing polynomial `X^n - 1` of a domain. -/
theorem Domain.toPoly_vanishing (d : Domain F) : toPoly d.vanishing = X ^ d.size - 1 := by
  rw [Domain.vanishing, toPoly_cons, toPoly_append_singleton, toPoly_replicate_zero]
  have := d.size_pos
  obtain ⟨m, hm⟩ : ∃ m, d.size = m + 1 := ⟨d.size - 1, by omega⟩
  rw [hm]; simp; ring

theorem Domain.canon_vanishing (d : Domain F) : Canon d.vanishing := by
  unfold Canon Domain.vanishing
  rw [← List.cons_append, List.getLast?_append]; simp

theorem Domain.monic_vanishing (d : Domain F) : (toPoly d.vanishing).Monic := by
  rw [d.toPoly_vanishing]
  exact monic_X_pow_sub_C 1 d.size_pos.ne'

theorem toPoly_mulByVanishing (p : DP F) (d : Domain F) :
    toPoly (mulByVanishing p d) = toPoly p * (X ^ d.size - 1) := by
  rw [mulByVanishing, toPoly_fromCoeffs, toPoly_zipAdd, toPoly_append, toPoly_replicate_zero,
    toPoly_neg]
  simp; ring

theorem canon_mulByVanishing (p : DP F) (d : Domain F) : Canon (mulByVanishing p d) :=
  canon_fromCoeffs _

/-- Division by the vanishing polynomial does not panic and is Euclidean division by `X^n - 1`. -/
theorem divideByVanishing_spec {p : DP F} (hp : CanonOrZero p) (d : Domain F) :
    ∃ q r, divideByVanishing p d = some (q, r) ∧ toPoly q = toPoly p /ₘ (X ^ d.size - 1) ∧
      toPoly r = toPoly p %ₘ (X ^ d.size - 1) ∧ Canon q ∧ Canon r := by
  rw [divideByVanishing, ← d.toPoly_vanishing]
  exact divideWithQAndR_monic d.canon_vanishing (by simp [Domain.vanishing]) d.monic_vanishing hp

/-- A polynomial is divisible by `X^n - 1` iff it vanishes on the whole domain. -/
theorem Domain.Valid.vanishing_dvd_iff {d : Domain F} (h : d.Valid) (p : F[X]) :
    (X ^ d.size - 1 : F[X]) ∣ p ↔ ∀ i < d.size, p.eval (d.gen ^ i) = 0 := by
  constructor
  · rintro ⟨q, rfl⟩ i _
    rw [eval_mul]
    have : (X ^ d.size - 1 : F[X]).eval (d.gen ^ i) = 0 := by
      rw [eval_sub, eval_pow, eval_X, eval_one, ← pow_mul, mul_comm, pow_mul, h.pow_size]; simp
    rw [this, zero_mul]
  · intro hz
    have hm : (X ^ d.size - 1 : F[X]).Monic := monic_X_pow_sub_C 1 d.size_pos.ne'
    rw [← Polynomial.modByMonic_eq_zero_iff_dvd hm]
    set r := p %ₘ (X ^ d.size - 1) with hr
    have hdeg : r.degree < d.size := by
      have := degree_modByMonic_lt p hm
      have h1 : (X ^ d.size - 1 : F[X]).degree = d.size := degree_X_pow_sub_C d.size_pos 1
      rw [h1] at this; exact this
    have hroots : ∀ i < d.size, r.eval (d.gen ^ i) = 0 := by
      intro i hi
      have h1 := modByMonic_add_div p (X ^ d.size - 1 : F[X])
      have h2 := congrArg (fun q => q.eval (d.gen ^ i)) h1
      simp only [eval_add, eval_mul, eval_sub, eval_pow, eval_X, eval_one] at h2
      rw [← pow_mul, mul_comm i, pow_mul, h.pow_size, one_pow, sub_self, zero_mul, add_zero,
        hz i hi] at h2
      exact h2
    refine Polynomial.eq_zero_of_degree_lt_of_eval_index_eq_zero (s := Finset.range d.size)
      (v := fun i => d.gen ^ i) ?_ (by simpa using hdeg) (by simpa using hroots)
    intro a ha b hb hab
    exact h.pow_inj (by simpa using ha) (by simpa using hb) hab

/-- Two polynomials of degree below the domain size agreeing on the domain are equal. -/
theorem Domain.Valid.ext {d : Domain F} (h : d.Valid) {p q : F[X]} (hp : p.degree < d.size)
    (hq : q.degree < d.size) (he : ∀ i < d.size, p.eval (d.gen ^ i) = q.eval (d.gen ^ i)) :
    p = q := by
  refine Polynomial.eq_of_degrees_lt_of_eval_index_eq (s := Finset.range d.size)
      (v := fun i => d.gen ^ i) ?_ (by simpa using hp) (by simpa using hq) (by simpa using he)
  intro a ha b hb hab
  exact h.pow_inj (by simpa using ha) (by simpa using hb) hab

end Verif.Ark

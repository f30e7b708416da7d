import Verif.Ark.Domain
import Mathlib.NumberTheory.LucasPrimality
import Mathlib.FieldTheory.Finite.Basic
import Mathlib.Tactic.NormNum.Prime

/-!
# The concrete scalar fields of the code

* BLS12-381 `Fr` (`ark_bls12_381::Fr`, used in `kzg/src/types.rs`, `plonk/src/types.rs` and
  `nova/src/*`), two-adicity 32, generator 7.
* Goldilocks (`fri/src/fields/goldilocks.rs` lines 1-8), modulus 18446744069414584321, generator 7.

Primality is proved by Lucas' criterion, modular powers are evaluated by the kernel.
-/

namespace Verif.Ark

/-- Square-and-multiply `a^e % m` with fuel, evaluated by kernel arithmetic. -/
def powMod (m : ℕ) : ℕ → ℕ → ℕ → ℕ
  | 0, _, _ => 1 % m
  | f + 1, a, e => ((if e % 2 = 1 then a else 1) * powMod m f (a * a % m) (e / 2)) % m

theorem powMod_eq (m f : ℕ) : ∀ a e, e < 2 ^ f → powMod m f a e = a ^ e % m := by
  induction f with
  | zero => intro a e h; obtain rfl : e = 0 := by simpa using h
            simp [powMod]
  | succ f ih =>
    intro a e h
    rw [powMod, ih _ _ (by rw [Nat.div_lt_iff_lt_mul (by norm_num)]; rw [pow_succ] at h; exact h)]
    have hpow : (a * a % m) ^ (e / 2) % m = (a * a) ^ (e / 2) % m := (Nat.pow_mod _ _ _).symm
    rw [Nat.mul_mod, Nat.mod_mod, hpow, ← Nat.mul_mod]
    congr 1
    conv_rhs => rw [← Nat.div_add_mod e 2, pow_add, pow_mul]
    rcases Nat.mod_two_eq_zero_or_one e with h | h <;> rw [h] <;> simp [pow_two, mul_comm]

theorem zmod_pow_eq_one_iff {m : ℕ} (hm : 1 < m) (f a e : ℕ) (he : e < 2 ^ f) :
    ((a : ZMod m) ^ e = 1) ↔ powMod m f a e = 1 := by
  rw [powMod_eq m f a e he, ← Nat.cast_pow, ← Nat.cast_one, ZMod.natCast_eq_natCast_iff',
    Nat.mod_eq_of_lt hm]

/-- BLS12-381 scalar field modulus. -/
def blsR : ℕ := 52435875175126190479447740508185965837690552500527637822603658699938581184513

/-- Goldilocks modulus (`fri/src/fields/goldilocks.rs` line 5). -/
def goldP : ℕ := 18446744069414584321

theorem blsR_factor : blsR - 1 = 2 ^ 32 * 3 * 11 * 19 * 10177 * 125527 * 859267 * 906349 ^ 2 *
    2508409 * 2529403 * 52437899 * 254760293 ^ 2 := by norm_num [blsR]

theorem goldP_factor : goldP - 1 = 2 ^ 32 * 3 * 5 * 17 * 257 * 65537 := by norm_num [goldP]

theorem blsR_gt : 1 < blsR := by norm_num [blsR]
theorem goldP_gt : 1 < goldP := by norm_num [goldP]

private theorem prime_eq_of_dvd_pow {q p k : ℕ} (hq : q.Prime) (hp : p.Prime) (h : q ∣ p ^ k) :
    q = p := (Nat.prime_dvd_prime_iff_eq hq hp).1 (hq.dvd_of_dvd_pow h)

theorem blsR_prime : blsR.Prime := by
  refine lucas_primality blsR ((7 : ℕ) : ZMod blsR) ?_ ?_
  · rw [zmod_pow_eq_one_iff blsR_gt 256 _ _ (by decide +kernel)]; decide +kernel
  · intro q hq hd
    rw [blsR_factor] at hd
    have key : ∀ q' ∈ [2, 3, 11, 19, 10177, 125527, 859267, 906349, 2508409, 2529403, 52437899,
        254760293], ((7 : ℕ) : ZMod blsR) ^ ((blsR - 1) / q') ≠ 1 := by
      intro q' hq'
      have hlt : (blsR - 1) / q' < 2 ^ 256 :=
        (Nat.div_le_self _ _).trans_lt (by decide +kernel)
      rw [Ne, zmod_pow_eq_one_iff blsR_gt 256 _ _ hlt]
      revert q'
      decide +kernel
    apply key
    have p1 : Nat.Prime 3 := by norm_num
    have p2 : Nat.Prime 11 := by norm_num
    have p3 : Nat.Prime 19 := by norm_num
    have p4 : Nat.Prime 10177 := by norm_num
    have p5 : Nat.Prime 125527 := by norm_num
    have p6 : Nat.Prime 859267 := by norm_num
    have p7 : Nat.Prime 906349 := by norm_num
    have p8 : Nat.Prime 2508409 := by norm_num
    have p9 : Nat.Prime 2529403 := by norm_num
    have p10 : Nat.Prime 52437899 := by norm_num
    have p11 : Nat.Prime 254760293 := by norm_num
    rcases hq.dvd_mul.1 hd with hd | hd
    · rcases hq.dvd_mul.1 hd with hd | hd
      · rcases hq.dvd_mul.1 hd with hd | hd
        · rcases hq.dvd_mul.1 hd with hd | hd
          · rcases hq.dvd_mul.1 hd with hd | hd
            · rcases hq.dvd_mul.1 hd with hd | hd
              · rcases hq.dvd_mul.1 hd with hd | hd
                · rcases hq.dvd_mul.1 hd with hd | hd
                  · rcases hq.dvd_mul.1 hd with hd | hd
                    · rcases hq.dvd_mul.1 hd with hd | hd
                      · rcases hq.dvd_mul.1 hd with hd | hd
                        · simp [prime_eq_of_dvd_pow hq Nat.prime_two hd]
                        · simp [(Nat.prime_dvd_prime_iff_eq hq p1).1 hd]
                      · simp [(Nat.prime_dvd_prime_iff_eq hq p2).1 hd]
                    · simp [(Nat.prime_dvd_prime_iff_eq hq p3).1 hd]
                  · simp [(Nat.prime_dvd_prime_iff_eq hq p4).1 hd]
                · simp [(Nat.prime_dvd_prime_iff_eq hq p5).1 hd]
              · simp [(Nat.prime_dvd_prime_iff_eq hq p6).1 hd]
            · simp [prime_eq_of_dvd_pow hq p7 hd]
          · simp [(Nat.prime_dvd_prime_iff_eq hq p8).1 hd]
        · simp [(Nat.prime_dvd_prime_iff_eq hq p9).1 hd]
      · simp [(Nat.prime_dvd_prime_iff_eq hq p10).1 hd]
    · simp [prime_eq_of_dvd_pow hq p11 hd]

theorem goldP_prime : goldP.Prime := by
  refine lucas_primality goldP ((7 : ℕ) : ZMod goldP) ?_ ?_
  · rw [zmod_pow_eq_one_iff goldP_gt 64 _ _ (by decide +kernel)]; decide +kernel
  · intro q hq hd
    rw [goldP_factor] at hd
    have key : ∀ q' ∈ [2, 3, 5, 17, 257, 65537],
        ((7 : ℕ) : ZMod goldP) ^ ((goldP - 1) / q') ≠ 1 := by
      intro q' hq'
      have hlt : (goldP - 1) / q' < 2 ^ 64 :=
        (Nat.div_le_self _ _).trans_lt (by decide +kernel)
      rw [Ne, zmod_pow_eq_one_iff goldP_gt 64 _ _ hlt]
      revert q'
      decide +kernel
    apply key
    have p1 : Nat.Prime 3 := by norm_num
    have p2 : Nat.Prime 5 := by norm_num
    have p3 : Nat.Prime 17 := by norm_num
    have p4 : Nat.Prime 257 := by norm_num
    have p5 : Nat.Prime 65537 := by norm_num
    rcases hq.dvd_mul.1 hd with hd | hd
    · rcases hq.dvd_mul.1 hd with hd | hd
      · rcases hq.dvd_mul.1 hd with hd | hd
        · rcases hq.dvd_mul.1 hd with hd | hd
          · rcases hq.dvd_mul.1 hd with hd | hd
            · simp [prime_eq_of_dvd_pow hq Nat.prime_two hd]
            · simp [(Nat.prime_dvd_prime_iff_eq hq p1).1 hd]
          · simp [(Nat.prime_dvd_prime_iff_eq hq p2).1 hd]
        · simp [(Nat.prime_dvd_prime_iff_eq hq p3).1 hd]
      · simp [(Nat.prime_dvd_prime_iff_eq hq p4).1 hd]
    · simp [(Nat.prime_dvd_prime_iff_eq hq p5).1 hd]

instance blsR_fact : Fact blsR.Prime := ⟨blsR_prime⟩
instance goldP_fact : Fact goldP.Prime := ⟨goldP_prime⟩

/-- BLS12-381 scalar field. -/
abbrev BlsFr := ZMod blsR

/-- Goldilocks field (`fri/src/fields/goldilocks.rs` line 8). -/
abbrev Goldilocks := ZMod goldP

/-- `7^((p-1)/2^32)` is a primitive `2^32`-th root of unity once `7^((p-1)/2) ≠ 1`. -/
private theorem root_prim_of {p : ℕ} [Fact p.Prime] (h32 : 2 ^ 32 ∣ p - 1)
    (h7 : ((7 : ℕ) : ZMod p) ≠ 0) (hns : ((7 : ℕ) : ZMod p) ^ ((p - 1) / 2) ≠ 1) :
    IsPrimitiveRoot (((7 : ℕ) : ZMod p) ^ ((p - 1) / 2 ^ 32)) (2 ^ 32) := by
  have : orderOf (((7 : ℕ) : ZMod p) ^ ((p - 1) / 2 ^ 32)) = 2 ^ (31 + 1) := by
    refine orderOf_eq_prime_pow ?_ ?_
    · rw [← pow_mul]
      have : (p - 1) / 2 ^ 32 * 2 ^ 31 = (p - 1) / 2 := by
        obtain ⟨k, hk⟩ := h32
        rw [hk, Nat.mul_div_cancel_left _ (by norm_num)]; omega
      rw [this]; exact hns
    · rw [← pow_mul, Nat.div_mul_cancel h32]
      exact ZMod.pow_card_sub_one_eq_one h7
  have h2 := IsPrimitiveRoot.orderOf (((7 : ℕ) : ZMod p) ^ ((p - 1) / 2 ^ 32))
  rw [this] at h2
  exact h2

theorem bls_seven_ne_zero : ((7 : ℕ) : BlsFr) ≠ 0 := by
  rw [Ne, ZMod.natCast_eq_zero_iff]; decide +kernel

theorem gold_seven_ne_zero : ((7 : ℕ) : Goldilocks) ≠ 0 := by
  rw [Ne, ZMod.natCast_eq_zero_iff]; decide +kernel

/-- `ark_bls12_381::Fr` as an `FftField`. -/
noncomputable instance : FftField BlsFr where
  twoAdicity := 32
  root := ((7 : ℕ) : BlsFr) ^ ((blsR - 1) / 2 ^ 32)
  root_prim := root_prim_of (by decide +kernel) bls_seven_ne_zero (by
    rw [Ne, zmod_pow_eq_one_iff blsR_gt 256 _ _ (by decide +kernel)]; decide +kernel)
  generator := ((7 : ℕ) : BlsFr)
  generator_ne_zero := bls_seven_ne_zero

/-- Goldilocks as an `FftField`. -/
noncomputable instance : FftField Goldilocks where
  twoAdicity := 32
  root := ((7 : ℕ) : Goldilocks) ^ ((goldP - 1) / 2 ^ 32)
  root_prim := root_prim_of (by decide +kernel) gold_seven_ne_zero (by
    rw [Ne, zmod_pow_eq_one_iff goldP_gt 64 _ _ (by decide +kernel)]; decide +kernel)
  generator := ((7 : ℕ) : Goldilocks)
  generator_ne_zero := gold_seven_ne_zero

/-- No product of `2^(2^k)`, `k ≤ 32`: the cosets `H`, `2H`, `3H` of the `2^32`-th roots of unity are
disjoint in BLS12-381 `Fr`. -/
theorem bls_two_pow_ne {k : ℕ} (hk : k ≤ 32) : (2 : BlsFr) ^ 2 ^ k ≠ 1 := by
  intro h
  have : (((2 : ℕ) : BlsFr)) ^ 2 ^ 32 = 1 := by
    rw [show (2 : ℕ) ^ 32 = 2 ^ k * 2 ^ (32 - k) by rw [← pow_add]; congr 1; omega, pow_mul]
    push_cast
    rw [h, one_pow]
  rw [zmod_pow_eq_one_iff blsR_gt 33 _ _ (by decide +kernel)] at this
  revert this; decide +kernel

theorem bls_three_pow_ne {k : ℕ} (hk : k ≤ 32) : (3 : BlsFr) ^ 2 ^ k ≠ 1 := by
  intro h
  have : (((3 : ℕ) : BlsFr)) ^ 2 ^ 32 = 1 := by
    rw [show (2 : ℕ) ^ 32 = 2 ^ k * 2 ^ (32 - k) by rw [← pow_add]; congr 1; omega, pow_mul]
    push_cast
    rw [h, one_pow]
  rw [zmod_pow_eq_one_iff blsR_gt 33 _ _ (by decide +kernel)] at this
  revert this; decide +kernel

theorem bls_two_three_pow_ne {k : ℕ} (hk : k ≤ 32) : (2 : BlsFr) ^ 2 ^ k ≠ (3 : BlsFr) ^ 2 ^ k := by
  intro h
  have : (((2 : ℕ) : BlsFr)) ^ 2 ^ 32 = (((3 : ℕ) : BlsFr)) ^ 2 ^ 32 := by
    rw [show (2 : ℕ) ^ 32 = 2 ^ k * 2 ^ (32 - k) by rw [← pow_add]; congr 1; omega, pow_mul, pow_mul]
    push_cast
    rw [h]
  rw [← Nat.cast_pow, ← Nat.cast_pow, ZMod.natCast_eq_natCast_iff', ← powMod_eq blsR 33 _ _ (by decide +kernel),
    ← powMod_eq blsR 33 _ _ (by decide +kernel)] at this
  revert this; decide +kernel

end Verif.Ark

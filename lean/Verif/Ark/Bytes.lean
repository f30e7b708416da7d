import Mathlib.Data.Nat.Digits.Lemmas
import Mathlib.Algebra.Order.Group.Nat
import Mathlib.Tactic.Ring

/-!
# Bytes

Little-endian encodings used by the three transcripts (`u64::to_le_bytes`, `u64::from_le_bytes`,
`usize::to_le_bytes` on a 64-bit target).
-/

namespace Verif.Ark

/-- `k` little-endian base-256 digits of `n` (higher digits are dropped). -/
def leBytes : ℕ → ℕ → List UInt8
  | 0, _ => []
  | k + 1, n => UInt8.ofNat (n % 256) :: leBytes k (n / 256)

/-- `u64::to_le_bytes`. -/
def leBytes8 (n : ℕ) : List UInt8 := leBytes 8 n

/-- `uN::from_le_bytes`. -/
def fromLeBytes : List UInt8 → ℕ
  | [] => 0
  | b :: l => b.toNat + 256 * fromLeBytes l

@[simp] theorem length_leBytes (k n : ℕ) : (leBytes k n).length = k := by
  induction k generalizing n with
  | zero => rfl
  | succ k ih => simp [leBytes, ih]

@[simp] theorem length_leBytes8 (n : ℕ) : (leBytes8 n).length = 8 := length_leBytes 8 n

theorem fromLeBytes_leBytes (k n : ℕ) : fromLeBytes (leBytes k n) = n % 256 ^ k := by
  induction k generalizing n with
  | zero => simp [leBytes, fromLeBytes, Nat.mod_one]
  | succ k ih =>
    rw [leBytes, fromLeBytes, ih]
    have : (UInt8.ofNat (n % 256)).toNat = n % 256 := by
      simp
    rw [this, pow_succ', Nat.mod_mul]

/-- Fixed-width little-endian encoding is injective on values that fit. -/
theorem leBytes_inj {k a b : ℕ} (ha : a < 256 ^ k) (hb : b < 256 ^ k)
    (h : leBytes k a = leBytes k b) : a = b := by
  have := congrArg fromLeBytes h
  rwa [fromLeBytes_leBytes, fromLeBytes_leBytes, Nat.mod_eq_of_lt ha, Nat.mod_eq_of_lt hb] at this

theorem leBytes8_inj {a b : ℕ} (ha : a < 2 ^ 64) (hb : b < 2 ^ 64)
    (h : leBytes8 a = leBytes8 b) : a = b :=
  leBytes_inj (k := 8) (by norm_num; exact ha) (by norm_num; exact hb) h

/-- `k` bytes encode a number below `256^k`. -/
theorem fromLeBytes_lt (b : List UInt8) : fromLeBytes b < 256 ^ b.length := by
  induction b with
  | nil => simp [fromLeBytes]
  | cons x xs ih =>
    rw [fromLeBytes, List.length_cons, pow_succ]
    have hx : x.toNat < 256 := x.toNat_lt
    have : x.toNat + 256 * fromLeBytes xs < 256 * (fromLeBytes xs + 1) := by omega
    calc _ < 256 * (fromLeBytes xs + 1) := this
      _ ≤ 256 * 256 ^ xs.length := Nat.mul_le_mul_left _ ih
      _ = _ := Nat.mul_comm _ _

/-- A seed made of the first eight bytes is a 64-bit number. -/
theorem seed_lt (D : List UInt8) : fromLeBytes (D.take 8) < 2 ^ 64 := by
  refine (fromLeBytes_lt _).trans_le ?_
  calc 256 ^ (D.take 8).length ≤ 256 ^ 8 := Nat.pow_le_pow_right (by norm_num) (by simp)
    _ = 2 ^ 64 := by norm_num

/-- The most significant byte of an encoded counter below `2^56` is zero. -/
theorem leBytes8_top {a : ℕ} (ha : a < 2 ^ 56) : (leBytes8 a)[7]? = some 0 := by
  simp only [leBytes8, leBytes]
  have : a / 256 / 256 / 256 / 256 / 256 / 256 / 256 = 0 := by omega
  simp [this]

/-- Decimal representation without leading zeros; the empty string for zero.  This is
`Display for Fp` of ark-ff 0.4 (`into_bigint().to_string().trim_start_matches('0')`). -/
def decimalTrim (n : ℕ) : List UInt8 := ((Nat.digits 10 n).reverse).map fun d => UInt8.ofNat (48 + d)

theorem decimalTrim_inj {a b : ℕ} (h : decimalTrim a = decimalTrim b) : a = b := by
  unfold decimalTrim at h
  have hinj : ∀ l l' : List ℕ, (∀ d ∈ l, d < 10) → (∀ d ∈ l', d < 10) →
      (l.map fun d => UInt8.ofNat (48 + d)) = (l'.map fun d => UInt8.ofNat (48 + d)) → l = l' := by
    intro l
    induction l with
    | nil => intro l' _ _ h; cases l' with
      | nil => rfl
      | cons => simp at h
    | cons x l ih =>
      intro l' h1 h2 h
      cases l' with
      | nil => simp at h
      | cons y l' =>
        simp only [List.map_cons, List.cons.injEq] at h
        have hx := h1 x (by simp)
        have hy := h2 y (by simp)
        have hxy : x = y := by
          have := congrArg UInt8.toNat h.1
          simp at this
          omega
        rw [hxy, ih l' (fun d hd => h1 d (by simp [hd])) (fun d hd => h2 d (by simp [hd])) h.2]
  have h3 := hinj _ _ (fun d hd => Nat.digits_lt_base (by norm_num) (List.mem_reverse.1 hd))
    (fun d hd => Nat.digits_lt_base (by norm_num) (List.mem_reverse.1 hd)) h
  exact Nat.digits_inj_iff.1 (List.reverse_injective h3)

theorem decimalTrim_ne_zero {a : ℕ} {b : UInt8} (h : b ∈ decimalTrim a) : b ≠ 0 := by
  unfold decimalTrim at h
  obtain ⟨d, hd, rfl⟩ := List.mem_map.1 h
  have : d < 10 := Nat.digits_lt_base (by norm_num) (List.mem_reverse.1 hd)
  intro h0
  have := congrArg UInt8.toNat h0
  simp at this
  omega

end Verif.Ark

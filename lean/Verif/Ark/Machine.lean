import Verif.Ark.Domain

/-!
# Machine integers

The model uses natural numbers for `usize` and `u64`.  On the 64-bit targets the library is used on, `+`, `*` and
`next_power_of_two` panic on overflow in a build with overflow checks (the default of debug builds) and wrap around in
a build without (the default of release builds).
-/

namespace Verif.Ark

/-- How `rustc` compiles integer arithmetic: with overflow checks or without. -/
inductive Build
  /-- overflow panics -/
  | checked
  /-- overflow wraps -/
  | wrapping

/-- The value of a 64-bit arithmetic expression whose mathematical value is `x` (for
`usize::next_power_of_two`: zero, if it wraps). -/
def Build.u64 : Build → ℕ → Option ℕ
  | .checked, x => if x < 2 ^ 64 then some x else none
  | .wrapping, x => some (x % 2 ^ 64)

theorem Build.u64_lt (b : Build) {x : ℕ} (h : x < 2 ^ 64) : b.u64 x = some x := by
  cases b
  · exact if_pos h
  · simp only [Build.u64, Nat.mod_eq_of_lt h]

theorem Build.checked_ge {x : ℕ} (h : ¬ x < 2 ^ 64) : Build.checked.u64 x = none := if_neg h

end Verif.Ark

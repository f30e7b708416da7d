import Verif.Kzg.Props
import Verif.Ark.Machine

/-!
# C118: the setup on 64 bits

`Srs::new_from_secret` computes `circuit_size + 3` (`kzg/src/srs.rs` line 51) on 64 bits and allocates that many
elements.  Here it is modelled once more with this sum computed on 64 bits, for builds with and without overflow checks,
and with an arbitrary limit on the number of points that can be allocated.
-/

set_option linter.unusedSectionVars false

namespace Verif.Kzg

open Verif.Ark Polynomial

variable {F G1 G2 GT : Type} [Field F] [DecidableEq F] [AddCommGroup G1] [Module F G1]
  [AddCommGroup G2] [Module F G2] [AddCommGroup GT] [Module F GT] [DecidableEq GT]

/-- `Srs::new_from_secret`, `kzg/src/srs.rs` lines 48-69, on 64 bits: the sum of line 51 may overflow, and allocating
more than `cap` points fails ("capacity overflow" or out of memory; `cap` stands for the memory there is). -/
def newFromSecret64 (bd : Build) (cap : ℕ) (P : PairingGroups F G1 G2 GT) (secret : F) (circuitSize : ℕ) :
    Option (Srs G1 G2) := do
  let n ← bd.u64 (circuitSize + 3)
  if cap < n then none
  else
    some { g1Points := srsLoop P secret n 1, g2 := P.g2, g2s := secret • P.g2 }

/-- **C118** (what holds): with overflow checks, or without them for sizes up to `usize::MAX - 3`, the setup is the one
of the model on natural numbers, with `circuit_size + 3` points, or there is none (panic). -/
theorem C118_size_partial (bd : Build) (cap : ℕ) (P : PairingGroups F G1 G2 GT) (s : F) (n : ℕ)
    (h : bd = .checked ∨ n + 3 < 2 ^ 64) :
    (∀ srs, newFromSecret64 bd cap P s n = some srs →
      srs = Srs.newFromSecret P s n ∧ srs.g1Points.length = n + 3) ∧
    (newFromSecret64 bd cap P s n = none ↔ 2 ^ 64 ≤ n + 3 ∨ cap < n + 3) := by
  by_cases hn : n + 3 < 2 ^ 64
  · unfold newFromSecret64
    rw [bd.u64_lt hn]
    simp only [Option.bind_eq_bind, Option.bind_some]
    by_cases hc : cap < n + 3
    · rw [if_pos hc]
      exact ⟨fun _ h => (by cases h), ⟨fun _ => Or.inr hc, fun _ => rfl⟩⟩
    · rw [if_neg hc]
      refine ⟨fun srs e => ?_, ⟨fun e => (by cases e), fun e => (by omega)⟩⟩
      cases e
      exact ⟨rfl, (C01_srs_powers P s n).1⟩
  · obtain rfl : bd = .checked := h.resolve_right hn
    have : newFromSecret64 .checked cap P s n = none := by
      unfold newFromSecret64; rw [Build.checked_ge hn]; rfl
    rw [this]
    exact ⟨fun _ h => (by cases h), ⟨fun _ => Or.inl (by omega), fun _ => rfl⟩⟩

/-- **C118** (what holds, used): under such a setup every polynomial of degree at most `n + 2` other than zero has a
commitment and an opening at every point, with the right value, and the opening verifies. -/
theorem C118_usable_partial (bd : Build) (cap : ℕ) (P : PairingGroups F G1 G2 GT) (s : F) (n : ℕ)
    (h : bd = .checked ∨ n + 3 < 2 ^ 64) (srs : Srs G1 G2) (hs : newFromSecret64 bd cap P s n = some srs)
    (p : DP F) (hp : Canon p) (hne : toPoly p ≠ 0) (hd : (toPoly p).natDegree ≤ n + 2) (z : F) :
    ∃ c o, commit srs p = some c ∧ openAt srs p z = some o ∧ o.eval = (toPoly p).eval z ∧
      verify P srs c o z = true := by
  obtain ⟨rfl, -⟩ := (C118_size_partial bd cap P s n h).1 srs hs
  have hc := (C02_commit P s n hp).1 (by omega)
  obtain ⟨o, h1, h2, h3⟩ := C04_open_verifies P s n hp hne hc z
  exact ⟨_, o, hc, h1, h2, h3⟩

/-- **C118** (false of the code, and for which sizes): without overflow checks a setup is returned with a number of points
other than `circuit_size + 3` for the three largest sizes, and only for them: `usize::MAX - 2`, `usize::MAX - 1` and
`usize::MAX` give 0, 1 and 2 points. -/
theorem C118_wrong_size (cap : ℕ) (P : PairingGroups F G1 G2 GT) (s : F) (n : ℕ) (hn : n < 2 ^ 64) (hcap : 2 ≤ cap) :
    ((∃ srs, newFromSecret64 .wrapping cap P s n = some srs ∧ srs.g1Points.length ≠ n + 3) ↔ 2 ^ 64 - 3 ≤ n) ∧
    (2 ^ 64 - 3 ≤ n → ∃ srs, newFromSecret64 .wrapping cap P s n = some srs ∧
      srs.g1Points.length = n - (2 ^ 64 - 3)) := by
  have key : 2 ^ 64 - 3 ≤ n → ∃ srs, newFromSecret64 .wrapping cap P s n = some srs ∧
      srs.g1Points.length = n - (2 ^ 64 - 3) := by
    intro h
    have e : (n + 3) % 2 ^ 64 = n - (2 ^ 64 - 3) := by omega
    unfold newFromSecret64
    simp only [Build.u64, Option.bind_eq_bind, Option.bind_some]
    rw [e, if_neg (by omega)]
    exact ⟨_, rfl, by simp only [srsLoop_eq P s, List.length_map, List.length_range]⟩
  refine ⟨⟨?_, fun h => ?_⟩, key⟩
  · rintro ⟨srs, h1, h2⟩
    by_contra hlt
    exact h2 ((C118_size_partial .wrapping cap P s n (Or.inr (by omega))).1 srs h1).2
  · obtain ⟨srs, h1, h2⟩ := key h
    exact ⟨srs, h1, by omega⟩

/-- **C118** (false of the code, consequences): without overflow checks the size `usize::MAX - 2` gives, without any
error, a setup under which every commitment panics, and `usize::MAX` one under which committing to `X^2` panics. -/
theorem C118_useless_setup (cap : ℕ) (P : PairingGroups F G1 G2 GT) (s : F) (hcap : 2 ≤ cap) :
    (∃ srs, newFromSecret64 .wrapping cap P s (2 ^ 64 - 3) = some srs ∧
      ∀ (p : DP F) (v : List F) (a : F), commit srs p = none ∧ commitVector srs v = none ∧ commitPara srs a = none) ∧
    (∃ srs, newFromSecret64 .wrapping cap P s (2 ^ 64 - 1) = some srs ∧ commitVector srs ([0, 0, 1] : List F) = none) := by
  constructor
  · refine ⟨⟨[], P.g2, s • P.g2⟩, ?_, fun p v a => ?_⟩
    · unfold newFromSecret64
      simp only [Build.u64, Option.bind_eq_bind, Option.bind_some]
      rw [if_neg (by norm_num)]
      rfl
    · have h : ∀ q : DP F, evaluateInS (⟨[], P.g2, s • P.g2⟩ : Srs G1 G2) q = none := by
        intro q
        unfold evaluateInS
        cases degree? q <;> simp
      exact ⟨h p, h _, rfl⟩
  · refine ⟨⟨[(1 : F) • P.g1, (1 * s) • P.g1], P.g2, s • P.g2⟩, ?_, ?_⟩
    · unfold newFromSecret64
      simp only [Build.u64, Option.bind_eq_bind, Option.bind_some]
      rw [if_neg (by norm_num; omega)]
      rfl
    · unfold commitVector evaluateInS
      have : fromCoeffs ([0, 0, 1] : List F) = [0, 0, 1] := by simp [fromCoeffs, truncate]
      rw [this]
      simp [degree?, isZero]

/-- Non-vacuity: on the trivial groups over `ℚ` with room for a thousand points, size 5 gives a setup in both builds;
`usize::MAX` panics with checks. -/
example : (∀ bd, ∃ srs, newFromSecret64 bd 1000 (trivialGroups ℚ) 7 5 = some srs ∧ srs.g1Points[2]? = some 49 ∧
      srs.g1Points.length = 8) ∧
    newFromSecret64 .checked 1000 (trivialGroups ℚ) 7 (2 ^ 64 - 1) = none := by
  refine ⟨fun bd => ?_, ((C118_size_partial .checked 1000 (trivialGroups ℚ) 7 _ (Or.inl rfl)).2).2 (Or.inl (by norm_num))⟩
  cases h : newFromSecret64 bd 1000 (trivialGroups ℚ) 7 5 with
  | none => have := ((C118_size_partial bd 1000 (trivialGroups ℚ) 7 5 (Or.inr (by norm_num))).2).1 h; omega
  | some srs =>
    obtain ⟨rfl, hl⟩ := (C118_size_partial bd 1000 (trivialGroups ℚ) 7 5 (Or.inr (by norm_num))).1 srs h
    refine ⟨_, rfl, ?_, hl⟩
    rw [(C01_srs_powers (trivialGroups ℚ) (7 : ℚ) 5).2.1 2 (by norm_num)]
    norm_num [trivialGroups]

end Verif.Kzg

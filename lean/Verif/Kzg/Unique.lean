import Verif.Kzg.Props

/-!
# C86 (KZG): how far an accepted opening is determined
-/

set_option linter.unusedSectionVars false

namespace Verif.Kzg

open Verif.Ark

variable {F G1 G2 GT : Type} [Field F] [DecidableEq F] [AddCommGroup G1] [Module F G1]
  [AddCommGroup G2] [Module F G2] [AddCommGroup GT] [Module F GT] [DecidableEq GT]

theorem smul_left_cancel {a : F} (ha : a ≠ 0) {x y : G1} (h : a • x = a • y) : x = y := by
  have := congrArg (a⁻¹ • ·) h
  simpa only [smul_smul, inv_mul_cancel₀ ha, one_smul] using this

/-- **C86** (KZG, witness): for every commitment, claimed value and point different from the secret there is
exactly one witness `verify` accepts.  An accepted opening cannot be changed while keeping its value. -/
theorem C86_kzg_witness_unique (P : PairingGroups F G1 G2 GT) (s : F) (n : ℕ) (c : G1) (y z : F) (hz : z ≠ s) :
    ∃! W : G1, verify P (Srs.newFromSecret P s n) c ⟨W, y⟩ z = true := by
  have hsz : s - z ≠ 0 := sub_ne_zero.2 (Ne.symm hz)
  refine ⟨(s - z)⁻¹ • (c - y • P.g1), ?_, fun W hW => ?_⟩
  · show verify P (Srs.newFromSecret P s n) c ⟨(s - z)⁻¹ • (c - y • P.g1), y⟩ z = true
    rw [C05_verify_iff, smul_smul, mul_inv_cancel₀ hsz, one_smul]
  · dsimp only at hW
    rw [C05_verify_iff] at hW
    rw [← hW, smul_smul, inv_mul_cancel₀ hsz, one_smul]

/-- **C86** (KZG, at the secret): at the point `z = s` the witness is not checked at all: either every witness or
none is accepted, according to whether the commitment is that of the constant `y`. -/
theorem C86_kzg_at_secret (P : PairingGroups F G1 G2 GT) (s : F) (n : ℕ) (c : G1) (y : F) (W : G1) :
    verify P (Srs.newFromSecret P s n) c ⟨W, y⟩ s = true ↔ c = y • P.g1 := by
  rw [C05_verify_iff, sub_self, zero_smul]
  exact ⟨fun h => sub_eq_zero.1 h.symm, fun h => (sub_eq_zero.2 h).symm⟩

/-- **C86** (KZG, honest openings): an opening accepted for the commitment of `p` at `z ≠ s` and carrying the true
value is the one `open` returns. -/
theorem C86_kzg_honest (P : PairingGroups F G1 G2 GT) (s : F) (n : ℕ) {p : DP F} (hp : Canon p) {c : G1}
    (hc : commit (Srs.newFromSecret P s n) p = some c) {z : F} (hz : z ≠ s) {o o' : Opening F G1}
    (ho : openAt (Srs.newFromSecret P s n) p z = some o)
    (hv : verify P (Srs.newFromSecret P s n) c o' z = true) (hy : o'.eval = (toPoly p).eval z) : o' = o := by
  have hne : toPoly p ≠ 0 := by
    intro h
    rw [(C04_open_panics_iff P s n hp z).2 (Or.inl h)] at ho; cases ho
  obtain ⟨o1, ho1, hev, hver⟩ := C04_open_verifies P s n hp hne hc z
  rw [ho] at ho1; cases ho1
  obtain ⟨W, y⟩ := o
  obtain ⟨W', y'⟩ := o'
  simp only at hy hev
  subst hy hev
  obtain ⟨_, -, huniq⟩ := C86_kzg_witness_unique P s n c ((toPoly p).eval z) z hz
  rw [huniq W' hv, huniq W hver]

/-- The hypotheses of `C86_kzg_honest` are met: `p = 1 + 2X`, secret 5, point 3. -/
example : ∃ c o, commit (Srs.newFromSecret (trivialGroups ℚ) 5 2) ([1, 2] : DP ℚ) = some c ∧
    openAt (Srs.newFromSecret (trivialGroups ℚ) 5 2) ([1, 2] : DP ℚ) 3 = some o ∧
    verify (trivialGroups ℚ) (Srs.newFromSecret (trivialGroups ℚ) 5 2) c o 3 = true ∧
    o.eval = (toPoly ([1, 2] : DP ℚ)).eval 3 := by
  have hp : Canon ([1, 2] : DP ℚ) := by simp [Canon]
  have hne : toPoly ([1, 2] : DP ℚ) ≠ 0 := by
    intro h
    have := congrArg (Polynomial.eval 0) h
    simp [toPoly] at this
  have hd : (toPoly ([1, 2] : DP ℚ)).natDegree < 2 + 3 := by
    have h := canon_length hp hne
    have h2 : ([1, 2] : DP ℚ).length = 2 := rfl
    omega
  have hc := (C02_commit (trivialGroups ℚ) 5 2 hp).1 hd
  obtain ⟨o, h1, h2, h3⟩ := C04_open_verifies (trivialGroups ℚ) 5 2 hp hne hc 3
  exact ⟨_, o, hc, h1, h3, h2⟩

end Verif.Kzg

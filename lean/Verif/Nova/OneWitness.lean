import Verif.Nova.Reveals

/-!
# C125: a checked instance has one witness

`is_r1cs_satisfied` accepts at most one witness for an instance, unless the secret of the setup is a root of the
non-zero polynomial whose coefficients are the differences of the two `W`s.
-/

set_option linter.unusedSectionVars false

namespace Verif.Nova

open Verif.Ark Verif.Kzg

variable {F G1 G2 GT B : Type} [Field F] [DecidableEq F] [AddCommGroup G1] [Module F G1] [DecidableEq G1]
  [AddCommGroup G2] [Module F G2] [AddCommGroup GT] [Module F GT] [DecidableEq GT]
  [Field B] [DecidableEq B]

/-- `Σ (vᵢ - v'ᵢ) xⁱ` over the first `m` entries (specification vocabulary). -/
def diffAt (m : ℕ) (v v' : List F) (x : F) : F := ∑ i ∈ Finset.range m, (v.getD i 0 - v'.getD i 0) * x ^ i

theorem eval_toPoly_sum (v : List F) (x : F) {m : ℕ} (h : v.length ≤ m) :
    (toPoly v).eval x = ∑ i ∈ Finset.range m, v.getD i 0 * x ^ i := by
  rcases Nat.eq_zero_or_pos v.length with h0 | h0
  · rw [List.length_eq_zero_iff.1 h0]; simp [toPoly]
  · have hd := natDegree_toPoly_lt v (v.length - 1) (by omega)
    rw [Polynomial.eval_eq_sum_range' (n := m) (by omega)]
    exact Finset.sum_congr rfl fun i _ => by rw [coeff_toPoly]

theorem diffAt_eq {m : ℕ} {v v' : List F} (h : v.length ≤ m) (h' : v'.length ≤ m) (x : F) :
    diffAt m v v' x = (toPoly v - toPoly v').eval x := by
  rw [Polynomial.eval_sub, eval_toPoly_sum v x h, eval_toPoly_sum v' x h', ← Finset.sum_sub_distrib]
  exact Finset.sum_congr rfl fun i _ => by ring

/-- A vector that is committed to commits to its value at the secret. -/
theorem commitVector_some (P : PairingGroups F G1 G2 GT) (s : F) (n : ℕ) (v : List F) (c : G1)
    (h : commitVector (Srs.newFromSecret P s n) v = some c) : c = (toPoly v).eval s • P.g1 := by
  unfold commitVector at h
  rw [evaluateInS_eq P s n (Or.inl (canon_fromCoeffs v)), toPoly_fromCoeffs] at h
  split at h
  · exact (Option.some.inj h).symm
  · simp at h

theorem toPoly_injOn {v v' : List F} (hl : v.length = v'.length) (h : toPoly v = toPoly v') : v = v' :=
  ext_getD (d := 0) hl fun i _ => by rw [← coeff_toPoly, ← coeff_toPoly, h]

/-- The error vector is determined by the witness vector and the instance. -/
theorem RelaxedSat.error_unique {r1cs : R1CS F} {z e e' : List F} {u : F} (h : RelaxedSat r1cs z e u)
    (h' : RelaxedSat r1cs z e' u) : e = e' := by
  have hl : e.length = e'.length := h.lenA.symm.trans h'.lenA
  refine ext_getD (d := 0) hl fun i hi => ?_
  have a := h.row i hi
  have b := h'.row i (hl ▸ hi)
  rw [a] at b
  exact add_left_cancel b

/-- **C125** (one witness): two witnesses that `is_r1cs_satisfied` accepts for the same R1CS and instance are equal, unless
their vectors `W` differ and the secret is a root of the polynomial of the differences. The setup may be of any size and no
assumption is made on the matrices. -/
theorem C125_one_witness (P : PairingGroups F G1 G2 GT) (s : F) (n : ℕ) (r1cs : R1CS F) (fi : FInstance F G1)
    (fw fw' : FWitness F)
    (h : isR1csSatisfied r1cs fi fw (Srs.newFromSecret P s n) = some (.ok ()))
    (h' : isR1csSatisfied r1cs fi fw' (Srs.newFromSecret P s n) = some (.ok ())) :
    fw' = fw ∨ (fw'.w ≠ fw.w ∧ fw'.w.length = fw.w.length ∧ diffAt fw.w.length fw'.w fw.w s = 0) := by
  rw [C27_satisfied_iff] at h h'
  obtain ⟨hv, -, hs, hw, -⟩ := h
  obtain ⟨hv', -, hs', hw', -⟩ := h'
  have hl : fw'.w.length = fw.w.length := by omega
  by_cases e : fw'.w = fw.w
  · left
    rw [e] at hs'
    have := hs'.error_unique hs
    cases fw; cases fw'
    simp_all
  · refine Or.inr ⟨e, hl, ?_⟩
    rw [← commitVector_iff] at hw hw'
    have a := commitVector_some P s n _ _ hw
    have b := commitVector_some P s n _ _ hw'
    rw [diffAt_eq hl.le le_rfl, Polynomial.eval_sub, sub_eq_zero]
    exact smul_g1_inj P (b.symm.trans a)

/-- **C125** (few secrets): two different witnesses with `W` of length `m` are both accepted for a common R1CS and instance
under at most `m - 1` secrets, whatever the size of the setup, the R1CS and the instance. -/
theorem C125_few_secrets (P : PairingGroups F G1 G2 GT) (fw fw' : FWitness F) (hne : fw' ≠ fw) :
    ∃ S : Finset F, S.card ≤ fw.w.length - 1 ∧ ∀ s ∉ S, ∀ (n : ℕ) (r1cs : R1CS F) (fi : FInstance F G1),
      isR1csSatisfied r1cs fi fw (Srs.newFromSecret P s n) = some (.ok ()) →
      isR1csSatisfied r1cs fi fw' (Srs.newFromSecret P s n) ≠ some (.ok ()) := by
  classical
  by_cases hc : fw'.w ≠ fw.w ∧ fw'.w.length = fw.w.length
  · obtain ⟨e, hl⟩ := hc
    have hd : toPoly fw'.w - toPoly fw.w ≠ 0 := fun h => e (toPoly_injOn hl (sub_eq_zero.1 h))
    refine ⟨(toPoly fw'.w - toPoly fw.w).roots.toFinset, ?_, fun s hs n r1cs fi h h' => ?_⟩
    · refine (Multiset.toFinset_card_le _).trans ((Polynomial.card_roots' _).trans
        ((Polynomial.natDegree_sub_le _ _).trans (max_le ?_ ?_)))
      · by_cases z : fw.w.length = 0
        · rw [List.length_eq_zero_iff.1 (hl.trans z)]; simp [toPoly]
        · have := natDegree_toPoly_lt fw'.w (fw.w.length - 1) (by omega); omega
      · by_cases z : fw.w.length = 0
        · rw [List.length_eq_zero_iff.1 z]; simp [toPoly]
        · have := natDegree_toPoly_lt fw.w (fw.w.length - 1) (by omega); omega
    · rcases C125_one_witness P s n r1cs fi fw fw' h h' with h0 | ⟨-, -, h0⟩
      · exact hne h0
      · rw [diffAt_eq hl.le le_rfl] at h0
        exact hs (by rw [Multiset.mem_toFinset, Polynomial.mem_roots hd]; exact h0)
  · refine ⟨∅, by simp, fun s _ n r1cs fi h h' => ?_⟩
    rcases C125_one_witness P s n r1cs fi fw fw' h h' with h0 | ⟨h1, h2, -⟩
    · exact hne h0
    · exact hc ⟨h1, h2⟩

/-- **C125** (exactly when there is a second): if `fw` is accepted, another witness with as many entries, all within the
setup, is accepted if and only if it satisfies the equations of the R1CS and the secret is a root of both differences. -/
theorem C125_second_iff (P : PairingGroups F G1 G2 GT) (s : F) (n : ℕ) (r1cs : R1CS F) (fi : FInstance F G1)
    (fw fw' : FWitness F) (hw : fw'.w.length = fw.w.length) (he : fw'.e.length = fw.e.length)
    (fitw : fw.w.length ≤ n + 3) (fite : fw.e.length ≤ n + 3)
    (h : isR1csSatisfied r1cs fi fw (Srs.newFromSecret P s n) = some (.ok ())) :
    isR1csSatisfied r1cs fi fw' (Srs.newFromSecret P s n) = some (.ok ()) ↔
      RelaxedSat r1cs (fw'.w ++ fi.x ++ [fi.u]) fw'.e fi.u ∧
      diffAt fw.w.length fw'.w fw.w s = 0 ∧ diffAt fw.e.length fw'.e fw.e s = 0 := by
  rw [C27_satisfied_iff, ← commitVector_iff, ← commitVector_iff] at h ⊢
  obtain ⟨hv, hx, -, cw, ce⟩ := h
  rw [commitVector_secret P s (by omega)] at cw ce
  rw [commitVector_secret P s (v := fw'.w) (by omega), commitVector_secret P s (v := fw'.e) (by omega), ← cw, ← ce,
    diffAt_eq hw.le le_rfl, diffAt_eq he.le le_rfl, Polynomial.eval_sub, Polynomial.eval_sub, sub_eq_zero, sub_eq_zero,
    Option.some.injEq, Option.some.injEq]
  constructor
  · rintro ⟨-, -, a, b, c⟩
    exact ⟨a, smul_g1_inj P b, smul_g1_inj P c⟩
  · rintro ⟨a, b, c⟩
    exact ⟨by omega, hx, a, by rw [b], by rw [c]⟩

/-- **C125** (after folding): the instance that `NIFS::prover` returns for two checked pairs is accepted with the witness it
returns and with no other, unless the secret is a root of the difference. -/
theorem C125_folded (env : Env F G1 B) (P : PairingGroups F G1 G2 GT) (s : F) (n : ℕ) (r1cs : R1CS F)
    (fw1 fw2 : FWitness F) (fi1 fi2 : FInstance F G1) (tr tr' : Transcript) (fw fw' : FWitness F) (fi : FInstance F G1)
    (comT : G1) (r : F)
    (h1 : isR1csSatisfied r1cs fi1 fw1 (Srs.newFromSecret P s n) = some (.ok ()))
    (h2 : isR1csSatisfied r1cs fi2 fw2 (Srs.newFromSecret P s n) = some (.ok ()))
    (hp : nifsProver env r1cs fw1 fw2 fi1 fi2 (Srs.newFromSecret P s n) tr = some ((fw, fi, comT, r), tr')) :
    isR1csSatisfied r1cs fi fw (Srs.newFromSecret P s n) = some (.ok ()) ∧
    (isR1csSatisfied r1cs fi fw' (Srs.newFromSecret P s n) = some (.ok ()) →
      fw' = fw ∨ (fw'.w ≠ fw.w ∧ fw'.w.length = fw.w.length ∧ diffAt fw.w.length fw'.w fw.w s = 0)) := by
  have h := C29_prover_satisfied env r1cs _ fw1 fw2 fi1 fi2 tr tr' fw fi comT r h1 h2 hp
  exact ⟨h, fun h' => C125_one_witness P s n r1cs fi fw fw' h h'⟩

/-- The R1CS `0 · 0 = 0` with two variables (for the example). -/
def freeR1cs : R1CS ℚ := ⟨[[]], [[]], [[]], 0, 2⟩

/-- An instance of `freeR1cs` (for the example). -/
def freeInst : FInstance ℚ ℚ := ⟨0, 1, 2, []⟩

/-- Non-vacuity: of `0 · 0 = 0` with two variables the witness 2, 0 is accepted under every secret, and the witness 0, 1
for the same instance exactly under the secret 2. -/
example (s : ℚ) :
    isR1csSatisfied freeR1cs freeInst ⟨[0], [2, 0]⟩ (Srs.newFromSecret (trivialGroups ℚ) s 0) = some (.ok ()) ∧
    (isR1csSatisfied freeR1cs freeInst ⟨[0], [0, 1]⟩ (Srs.newFromSecret (trivialGroups ℚ) s 0) = some (.ok ()) ↔
      s = 2) := by
  have sat : ∀ z : List ℚ, RelaxedSat freeR1cs z [0] 1 := fun z =>
    ⟨rfl, by simp [freeR1cs], rfl, fun i hi => by
      have : i = 0 := by simpa using hi
      subst this; simp [dot, freeR1cs]⟩
  have h1 : isR1csSatisfied freeR1cs freeInst ⟨[0], [2, 0]⟩ (Srs.newFromSecret (trivialGroups ℚ) s 0) =
      some (.ok ()) := by
    rw [C27_satisfied_iff, ← commitVector_iff, ← commitVector_iff, commitVector_secret _ _ (by simp),
      commitVector_secret _ _ (by simp)]
    refine ⟨rfl, rfl, sat _, ?_, ?_⟩ <;> simp [toPoly, trivialGroups, freeInst]
  refine ⟨h1, ?_⟩
  rw [C125_second_iff _ _ _ _ _ _ _ (by simp) (by simp) (by simp) (by simp) h1]
  have e : diffAt 2 [0, 1] [2, 0] s = s - 2 := by simp [diffAt, Finset.sum_range_succ]; ring
  have e' : diffAt 1 [0] [0] s = 0 := by simp [diffAt]
  constructor
  · rintro ⟨-, h, -⟩
    have h : diffAt 2 [0, 1] [2, 0] s = 0 := h
    rw [e] at h; linarith
  · intro h
    exact ⟨sat _, by show diffAt 2 [0, 1] [2, 0] s = 0; rw [e, h]; ring, e'⟩

end Verif.Nova

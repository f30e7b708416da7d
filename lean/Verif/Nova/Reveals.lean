import Verif.Nova.SetupSize
import Verif.Kzg.Reveals

/-!
# C112 (Nova): what instances reveal

Instances carry unblinded commitments to the witness.
-/

set_option linter.unusedSectionVars false

namespace Verif.Nova

open Verif.Ark Verif.Kzg

variable {F G1 G2 GT : Type} [Field F] [DecidableEq F] [AddCommGroup G1] [Module F G1]
  [AddCommGroup G2] [Module F G2] [AddCommGroup GT] [Module F GT] [DecidableEq GT]

theorem commitVector_secret (P : PairingGroups F G1 G2 GT) (s : F) {n : ℕ} {v : List F} (h : v.length ≤ n + 3) :
    commitVector (Srs.newFromSecret P s n) v = some ((toPoly v).eval s • P.g1) := by
  have := (C02_commit P s n (canon_fromCoeffs v)).1 (by
    rw [toPoly_fromCoeffs]
    rcases Nat.eq_zero_or_pos v.length with h0 | h0
    · rw [List.length_eq_zero_iff.1 h0]; simp [toPoly]
    · exact lt_of_le_of_lt (natDegree_toPoly_lt v (v.length - 1) (by omega)) (by omega))
  rw [toPoly_fromCoeffs] at this
  exact this

/-- **C112** (Nova, exactly what is revealed): two witnesses that fit the setup are committed to by the same instance if and
only if the public inputs are the same and the vectors `E`, and the vectors `W`, read as coefficients, agree at the secret. -/
theorem C112_nova_seen_iff (P : PairingGroups F G1 G2 GT) (s : F) (n : ℕ) (fw fw' : FWitness F) (x x' : List F)
    (he : fw.e.length ≤ n + 3) (he' : fw'.e.length ≤ n + 3) (hw : fw.w.length ≤ n + 3) (hw' : fw'.w.length ≤ n + 3) :
    fw.commit (Srs.newFromSecret P s n) x = fw'.commit (Srs.newFromSecret P s n) x' ↔
      x = x' ∧ (toPoly fw.e).eval s = (toPoly fw'.e).eval s ∧ (toPoly fw.w).eval s = (toPoly fw'.w).eval s := by
  unfold FWitness.commit
  rw [commitVector_secret P s he, commitVector_secret P s hw, commitVector_secret P s he', commitVector_secret P s hw']
  simp only [Option.bind_eq_bind, Option.bind_some, pure, Option.some.injEq, FInstance.mk.injEq, true_and]
  constructor
  · rintro ⟨h1, h2, h3⟩
    exact ⟨h3, smul_g1_inj P h1, smul_g1_inj P h2⟩
  · rintro ⟨h1, h2, h3⟩
    rw [h1, h2, h3]
    exact ⟨rfl, rfl, rfl⟩

/-- **C112** (Nova, guesses can be checked): an instance singles out the witness among any list of guesses with the same
numbers of entries, except for at most `(number of guesses) · (2n + 4)` secrets. -/
theorem C112_nova_guess (P : PairingGroups F G1 G2 GT) (n : ℕ) (fw : FWitness F) (x : List F)
    (he : fw.e.length ≤ n + 3) (hw : fw.w.length ≤ n + 3) (L : List (FWitness F))
    (hL : ∀ g ∈ L, g.e.length = fw.e.length ∧ g.w.length = fw.w.length) :
    ∃ S : Finset F, S.card ≤ L.length * (2 * n + 4) ∧ ∀ s ∉ S, ∀ g ∈ L,
      g.commit (Srs.newFromSecret P s n) x = fw.commit (Srs.newFromSecret P s n) x → g = fw := by
  have fit : ∀ v : List F, v.length ≤ n + 3 → (toPoly (fromCoeffs v)).natDegree < n + 3 := by
    intro v h
    rw [toPoly_fromCoeffs]
    rcases Nat.eq_zero_or_pos v.length with h0 | h0
    · rw [List.length_eq_zero_iff.1 h0]; simp [toPoly]
    · exact lt_of_le_of_lt (natDegree_toPoly_lt v (v.length - 1) (by omega)) (by omega)
  have inj : ∀ v v' : List F, v.length = v'.length → fromCoeffs v = fromCoeffs v' → v = v' := by
    intro v v' hl h
    have h' := congrArg toPoly h
    rw [toPoly_fromCoeffs, toPoly_fromCoeffs] at h'
    refine List.ext_getElem hl fun i h1 h2 => ?_
    have := congrArg (fun p => p.coeff i) h'
    simpa [coeff_toPoly, List.getD_eq_getElem?_getD, List.getElem?_eq_getElem h1, List.getElem?_eq_getElem h2] using this
  obtain ⟨S, hS, h⟩ := C112_kzg_guess P n (canon_fromCoeffs fw.e) (fit _ he) (L.map fun g => fromCoeffs g.e) (by
    intro q hq
    obtain ⟨g, hg, rfl⟩ := List.mem_map.1 hq
    exact ⟨canon_fromCoeffs _, fit _ (by rw [(hL g hg).1]; exact he)⟩)
  obtain ⟨T, hT, h'⟩ := C112_kzg_guess P n (canon_fromCoeffs fw.w) (fit _ hw) (L.map fun g => fromCoeffs g.w) (by
    intro q hq
    obtain ⟨g, hg, rfl⟩ := List.mem_map.1 hq
    exact ⟨canon_fromCoeffs _, fit _ (by rw [(hL g hg).2]; exact hw)⟩)
  refine ⟨S ∪ T, (Finset.card_union_le _ _).trans ?_, fun s hs g hg e => ?_⟩
  · rw [List.length_map] at hS hT
    calc S.card + T.card ≤ L.length * (n + 2) + L.length * (n + 2) := Nat.add_le_add hS hT
      _ = L.length * (2 * n + 4) := by ring
  · rw [Finset.mem_union, not_or] at hs
    obtain ⟨le, lw⟩ := hL g hg
    rw [C112_nova_seen_iff P s n g fw x x (by omega) he (by omega) hw] at e
    have c : ∀ v : List F, v.length ≤ n + 3 → commit (Srs.newFromSecret P s n) (fromCoeffs v) =
        some ((toPoly v).eval s • P.g1) := fun v hv => commitVector_secret P s hv
    have e1 := h s hs.1 _ (List.mem_map.2 ⟨g, hg, rfl⟩) (by rw [c _ (by omega), c _ he, e.2.1])
    have e2 := h' s hs.2 _ (List.mem_map.2 ⟨g, hg, rfl⟩) (by rw [c _ (by omega), c _ hw, e.2.2])
    have f1 := inj _ _ le e1
    have f2 := inj _ _ lw e2
    cases g; cases fw
    simp only at f1 f2
    rw [f1, f2]

/-- Non-vacuity: the witness 3, 9 of an instance of `x · x = y` is told from the guess 4, 16 under the secret 7, and is not
under the secret −1/7. -/
example : (FWitness.mk [0] [3, 9] : FWitness ℚ).commit (Srs.newFromSecret (trivialGroups ℚ) 7 0) [] ≠
      (FWitness.mk [0] [4, 16] : FWitness ℚ).commit (Srs.newFromSecret (trivialGroups ℚ) 7 0) [] ∧
    (FWitness.mk [0] [3, 9] : FWitness ℚ).commit (Srs.newFromSecret (trivialGroups ℚ) (-1 / 7) 0) [] =
      (FWitness.mk [0] [4, 16] : FWitness ℚ).commit (Srs.newFromSecret (trivialGroups ℚ) (-1 / 7) 0) [] := by
  constructor
  · rw [Ne, C112_nova_seen_iff _ _ _ _ _ _ _ (by simp) (by simp) (by simp) (by simp)]
    simp [toPoly]; norm_num
  · rw [C112_nova_seen_iff _ _ _ _ _ _ _ (by simp) (by simp) (by simp) (by simp)]
    simp [toPoly]; norm_num

end Verif.Nova

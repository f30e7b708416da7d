import Verif.Kzg.Props
import Verif.Kzg.AlgSoundness

/-!
# C111 (KZG): the size of a setup

The number given to `Srs::new_from_secret` plays no role beyond being large enough: a larger setup with the same secret
gives the same commitments and openings, and verification does not depend on the size at all.
-/

set_option linter.unusedSectionVars false

namespace Verif.Kzg

open Verif.Ark Polynomial

variable {F G1 G2 GT : Type} [Field F] [DecidableEq F] [AddCommGroup G1] [Module F G1]
  [AddCommGroup G2] [Module F G2] [AddCommGroup GT] [Module F GT] [DecidableEq GT]

/-- `y` returns what `x` returns whenever `x` does not panic. -/
def Refines {α : Type} (x y : Option α) : Prop := ∀ r, x = some r → y = some r

theorem Refines.refl {α : Type} (x : Option α) : Refines x x := fun _ h => h

theorem Refines.bind {α β : Type} {x y : Option α} {f g : α → Option β} (h : Refines x y)
    (hf : ∀ a, Refines (f a) (g a)) : Refines (x.bind f) (y.bind g) := by
  intro r hr
  obtain ⟨a, ha, hb⟩ := Option.bind_eq_some_iff.1 hr
  rw [h a ha]
  exact hf a r hb

theorem evaluateInS_refines (P : PairingGroups F G1 G2 GT) (s : F) {n n' : ℕ} (h : n ≤ n') (p : DP F) :
    Refines (evaluateInS (Srs.newFromSecret P s n) p) (evaluateInS (Srs.newFromSecret P s n') p) := by
  intro r hr
  by_cases hp : CanonOrZero p
  · rw [evaluateInS_eq P s _ hp] at hr ⊢
    split at hr
    · next hd => rw [if_pos (by omega)]; exact hr
    · cases hr
  · rw [evaluateInS_eq_none _ hp] at hr; cases hr

theorem commitPara_size (P : PairingGroups F G1 G2 GT) (s : F) (n n' : ℕ) (a : F) :
    commitPara (Srs.newFromSecret P s n) a = commitPara (Srs.newFromSecret P s n') a := by
  rw [(C02_commit_para P s n a).1, (C02_commit_para P s n' a).1]

/-- **C111** (KZG): under a larger setup with the same secret `commit`, `commit_vector`, `open` and `open_vector` return
what they return under the smaller one, if they return at all. -/
theorem C111_kzg_larger_setup (P : PairingGroups F G1 G2 GT) (s : F) {n n' : ℕ} (h : n ≤ n') (p : DP F) (v : List F) (z : F) :
    (∀ c, commit (Srs.newFromSecret P s n) p = some c → commit (Srs.newFromSecret P s n') p = some c) ∧
    (∀ c, commitVector (Srs.newFromSecret P s n) v = some c → commitVector (Srs.newFromSecret P s n') v = some c) ∧
    (∀ o, openAt (Srs.newFromSecret P s n) p z = some o → openAt (Srs.newFromSecret P s n') p z = some o) ∧
    (∀ o, openVector (Srs.newFromSecret P s n) v z = some o → openVector (Srs.newFromSecret P s n') v z = some o) := by
  refine ⟨evaluateInS_refines P s h p, evaluateInS_refines P s h _, ?_, ?_⟩
  · refine Refines.bind (Refines.refl _) fun q => ?_
    refine Refines.bind (Refines.refl _) fun qr => ?_
    exact Refines.bind (evaluateInS_refines P s h _) fun _ => Refines.refl _
  · refine Refines.bind (Refines.refl _) fun q => ?_
    refine Refines.bind (Refines.refl _) fun qr => ?_
    exact Refines.bind (evaluateInS_refines P s h _) fun _ => Refines.refl _

/-- **C111** (KZG): `commit_para`, `verify` and `batch_verify` do not depend on the size of the setup. -/
theorem C111_kzg_any_setup (P : PairingGroups F G1 G2 GT) (s : F) (n n' : ℕ) :
    (∀ a : F, commitPara (Srs.newFromSecret P s n) a = commitPara (Srs.newFromSecret P s n') a) ∧
    (∀ (c : G1) (o : Opening F G1) (z : F),
      verify P (Srs.newFromSecret P s n) c o z = verify P (Srs.newFromSecret P s n') c o z) ∧
    (∀ (cs : List G1) (zs : List F) (os : List (Opening F G1)) (rng : ℕ → ℕ),
      batchVerify P (Srs.newFromSecret P s n) cs zs os rng = batchVerify P (Srs.newFromSecret P s n') cs zs os rng) :=
  ⟨commitPara_size P s n n', fun _ _ _ => rfl, fun _ _ _ _ => rfl⟩

/-- Commitments to vectors that fit. -/
theorem commitVector_size (P : PairingGroups F G1 G2 GT) (s : F) {n n' : ℕ} (v : List F) (h : v.length ≤ n + 3)
    (h' : v.length ≤ n' + 3) :
    commitVector (Srs.newFromSecret P s n) v = commitVector (Srs.newFromSecret P s n') v := by
  have e := natDegree_toPoly_lt v (n + 2) (by omega)
  have e' := natDegree_toPoly_lt v (n' + 2) (by omega)
  rw [(C02_commit_vector P s n v).1 (by omega), (C02_commit_vector P s n' v).1 (by omega)]

/-- **C111** (KZG): a vector of up to `n + 3` coefficients (for the opening: `n + 4`) is within the size `n`: larger
setups give the same result, panics included. -/
theorem C111_kzg_fits (P : PairingGroups F G1 G2 GT) (s : F) {n n' : ℕ} (h : n ≤ n') (v : List F) (z : F) :
    (v.length ≤ n + 3 → ∃ c, commitVector (Srs.newFromSecret P s n) v = some c ∧
      commitVector (Srs.newFromSecret P s n') v = some c) ∧
    (v.length ≤ n + 4 → openVector (Srs.newFromSecret P s n) v z = openVector (Srs.newFromSecret P s n') v z) := by
  constructor
  · intro hv
    have e := (C02_commit_vector P s n v).1 (by have := natDegree_toPoly_lt v (n + 2) (by omega); omega)
    exact ⟨_, e, by rw [← commitVector_size P s v hv (by omega)]; exact e⟩
  · intro hv
    have ho : ∀ k, openVector (Srs.newFromSecret P s k) v z = openAt (Srs.newFromSecret P s k) (fromCoeffs v) z := fun _ => rfl
    rcases hx : openVector (Srs.newFromSecret P s n) v z with _ | o
    · rw [ho, C04_open_panics_iff P s n (canon_fromCoeffs v) z, toPoly_fromCoeffs] at hx
      symm
      rw [ho, C04_open_panics_iff P s n' (canon_fromCoeffs v) z, toPoly_fromCoeffs]
      rcases hx with hx | hx
      · exact Or.inl hx
      · have := natDegree_toPoly_lt v (n + 3) (by omega)
        omega
    · exact ((C111_kzg_larger_setup P s h [] v z).2.2.2 o hx).symm

/-- Non-vacuity: the vector (1,2,3,4) is committed to under the sizes 1 and 5 alike. -/
example : ∃ c, commitVector (Srs.newFromSecret (trivialGroups ℚ) 7 1) ([1, 2, 3, 4] : List ℚ) = some c ∧
    commitVector (Srs.newFromSecret (trivialGroups ℚ) 7 5) ([1, 2, 3, 4] : List ℚ) = some c :=
  (C111_kzg_fits (trivialGroups ℚ) 7 (n := 1) (n' := 5) (by omega) [1, 2, 3, 4] 0).1 (by decide)

end Verif.Kzg

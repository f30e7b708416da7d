import Verif.Kzg.Props

/-!
# C88 (KZG): the shipped program
-/

set_option linter.unusedSectionVars false

namespace Verif.Kzg

open Verif.Ark

variable {F G1 G2 GT : Type} [Field F] [DecidableEq F] [AddCommGroup G1] [Module F G1]
  [AddCommGroup G2] [Module F G2] [AddCommGroup GT] [Module F GT] [DecidableEq GT]

/-- `main`, `kzg/examples/example.rs` lines 7-26: `none` if it panics or an assertion fails.  The secret drawn by
`Srs::new` is an argument. -/
def exampleMain (P : PairingGroups F G1 G2 GT) (s : F) : Option Unit := do
  let srs := Srs.newFromSecret P s 10
  let poly : DP F := fromCoeffs [5, 3, 0, 1]
  if Ark.eval poly 1 ≠ 9 then none
  else do
    let commitment ← commit srs poly
    let opening ← openAt srs poly 4
    if verify P srs commitment opening 4 then some () else none

/-- **C88** (KZG): the shipped program runs to its end, all assertions included, for every secret. -/
theorem C88_kzg_example (P : PairingGroups F G1 G2 GT) (s : F) : exampleMain P s = some () := by
  have hp : Canon (fromCoeffs [5, 3, 0, 1] : DP F) := canon_fromCoeffs _
  have hpoly : toPoly (fromCoeffs [5, 3, 0, 1] : DP F) = toPoly ([5, 3, 0, 1] : List F) := toPoly_fromCoeffs _
  have hcoeff : (toPoly ([5, 3, 0, 1] : List F)).coeff 3 = 1 := by simp
  have hne : toPoly (fromCoeffs [5, 3, 0, 1] : DP F) ≠ 0 := by
    rw [hpoly]
    intro h
    rw [h] at hcoeff
    simp at hcoeff
  have hdeg : (toPoly (fromCoeffs [5, 3, 0, 1] : DP F)).natDegree < 10 + 3 := by
    rw [hpoly, Nat.lt_iff_le_pred (by norm_num), Polynomial.natDegree_le_iff_coeff_eq_zero]
    intro i hi
    rw [coeff_toPoly]
    simp only [List.getD]
    rw [List.getElem?_eq_none (by simp; omega)]
    rfl
  have hev : Ark.eval (fromCoeffs [5, 3, 0, 1] : DP F) 1 = 9 := by
    rw [eval_eq, hpoly]
    simp [toPoly]
    norm_num
  have hc := (C02_commit P s 10 hp).1 hdeg
  obtain ⟨o, ho, -, hver⟩ := C04_open_verifies P s 10 hp hne hc 4
  unfold exampleMain
  simp only [hev, ne_eq, not_true, if_false, hc, ho, hver, Option.bind_eq_bind, Option.bind_some, if_true]

end Verif.Kzg

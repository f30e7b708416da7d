import Verif.Fri.Degenerate

/-!
# C88 (FRI): the shipped program
-/

set_option linter.unusedSectionVars false

namespace Verif.Fri

open Verif.Ark

/-- `main`, `fri/examples/example.rs` lines 9-30: `none` if it panics, `false` if the final assertion fails.  The
environment supplies the digest and the generator. -/
noncomputable def exampleMain (env : Env Goldilocks) : Option Bool := do
  let poly : DP Goldilocks := fromCoeffs [1, 2, 3, 4, 5, 6]
  let proof ← generateProof env poly 2 2
  let result ← verify env proof
  some (match result with | .ok () => true | .error _ => false)

/-- **C88** (FRI): the final assertion of the shipped program never fails, for any digest and generator; with a digest
of at least eight bytes the program runs to its end unless one of its four folding challenges takes the one
exceptional value of its round. -/
theorem C88_fri_example :
    (∀ env : Env Goldilocks, exampleMain env ≠ some false) ∧
    ForMostChallenges 4 fun rs : List Goldilocks => ∀ env : Env Goldilocks, (∀ b, 8 ≤ (env.digest b).length) →
      HonestChallenges env (fromCoeffs [1, 2, 3, 4, 5, 6]) 4 rs → exampleMain env = some true := by
  have hfc : (fromCoeffs [1, 2, 3, 4, 5, 6] : DP Goldilocks) = [1, 2, 3, 4, 5, 6] := by decide +kernel
  have hc : Nat.clog 2 12 = 4 := by decide
  constructor
  · intro env h
    unfold exampleMain at h
    simp only [Option.bind_eq_bind, Option.bind_eq_some_iff] at h
    obtain ⟨pf, h1, res, h2, h3⟩ := h
    rw [C18_completeness env _ 2 2 h1] at h2
    obtain rfl := Option.some.inj h2
    cases h3
  · rw [hfc]
    have h := C84_fri_honest_proving ([1, 2, 3, 4, 5, 6] : DP Goldilocks) 2 ⟨1, by simp, one_ne_zero⟩ (by simp)
      (by show 2 ^ Nat.clog 2 12 ≤ 2 ^ 32
          rw [hc]; norm_num)
    have e : Nat.clog 2 (([1, 2, 3, 4, 5, 6] : DP Goldilocks).length * 2) = 4 := hc
    rw [e] at h
    refine forMost_mono (fun rs hrs env hdig hch => ?_) h
    obtain ⟨pf, h1, h2⟩ := hrs env 2 hdig hch
    unfold exampleMain
    rw [hfc]
    simp only [h1, h2, Option.bind_eq_bind, Option.bind_some]

end Verif.Fri

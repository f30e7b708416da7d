import Verif.Checks
import Verif.Plonk.Compiled

/-!
# C117: which error the PLONK verifier returns
-/

namespace Verif.Plonk

open Verif.Ark Verif.Kzg Polynomial

variable {F G1 G2 GT : Type} [FftField F] [DecidableEq F] [AddCommGroup G1] [Module F G1]
  [AddCommGroup G2] [Module F G2] [AddCommGroup GT] [Module F GT] [DecidableEq GT]

/-- **C117** (PLONK): unless it panics, `verify` first compares the challenge `u` and then checks the opening equation;
its result is the message of the first of the two that fails. -/
theorem C117_plonk (env : Env F G1) (dig : List UInt8 → List UInt8)
    (hdig : ∀ b, 8 ≤ (dig b).length) (P : PairingGroups F G1 G2 GT) (s : F) (n : ℕ)
    (cc : CompiledCircuit F) (hwf : cc.WellFormed) (hn : cc.size ≤ n + 3) (d : Domain F)
    (hd : Domain.new? cc.size = some d) (p : Proof F G1) :
    let c := p.challenges env dig P.g1
    (c.u ≠ p.u ∨ c.ev ≠ 1) → ∃ res, verify env dig P cc (Srs.newFromSecret P s n) p = some res ∧
      FirstFailed [(c.u = p.u, "Verify: Challenge verification failed."),
        (OpeningEquation P.g1 s cc.size d.gen cc p c, "Verify: Pairing failed, rejected")] res := by
  intro c hc
  obtain ⟨h1, h2⟩ := C53_verify env dig hdig P s n cc hwf hn d hd p
  have hne : verify env dig P cc (Srs.newFromSecret P s n) p ≠ none := fun h => by
    have := h1.1 h
    rcases hc with h | h
    · exact h this.1
    · exact h this.2
  obtain ⟨res, hres⟩ := Option.ne_none_iff_exists'.1 hne
  refine ⟨res, hres, ?_⟩
  have hv := hres
  unfold verify at hv
  simp only [getCircuitCommitment_eq P s n hwf hn, verifyChallenges_eq env dig hdig P s n p,
    Option.bind_eq_bind, Option.bind_some, hd] at hv
  by_cases hu : c.u = p.u
  swap
  · rw [if_pos (show (p.challenges env dig P.g1).u ≠ p.u from hu)] at hv
    cases hv
    exact .fail _ _ _ hu
  rw [if_neg (not_not.2 (show (p.challenges env dig P.g1).u = p.u from hu))] at hv
  refine .pass _ _ _ _ hu ?_
  have hev : c.ev ≠ 1 := by
    rcases hc with h | h
    · exact absurd hu h
    · exact h
  cases res with
  | ok u => exact .pass _ _ _ _ (h2.1 hres).2.2 .done
  | error e =>
    have hnot : ¬OpeningEquation P.g1 s cc.size d.gen cc p c := fun h => by
      have := h2.2 ⟨hu, hev, h⟩
      rw [hres] at this
      cases this
    have he : e = "Verify: Pairing failed, rejected" := by
      split at hv
      · cases hv
      · simp only [commitPara_eq, Option.bind_some] at hv
        split at hv
        · cases hv; rfl
        · cases hv
    subst he
    exact .fail _ _ _ hnot

/-! ## Examples -/

/-- A stand-in environment in which every challenge is 2. -/
def twoEnv : Env BlsFr BlsFr := { exEnv with rand := fun _ _ => 2 }

/-- Both errors occur for a concrete circuit: a proof with a wrong `u`, and one with the right `u` (every challenge is 2)
whose opening equation fails. -/
example : (∃ p, verify twoEnv exEnv.sha256 (trivialGroups BlsFr) exCC
      (Srs.newFromSecret (trivialGroups BlsFr) 11 2) p = some (.error "Verify: Challenge verification failed.")) ∧
    ∃ p, verify twoEnv exEnv.sha256 (trivialGroups BlsFr) exCC
      (Srs.newFromSecret (trivialGroups BlsFr) 11 2) p = some (.error "Verify: Pairing failed, rejected") := by
  have h12 : (2 : BlsFr) ≠ 1 := by decide +kernel
  have key := fun p => C117_plonk twoEnv exEnv.sha256 exEnv_len (trivialGroups BlsFr) 11 2
    exCC (compile_wellFormed _ _ exCC_compiled) (by decide) exD exD_eq p
  constructor
  · obtain ⟨res, h1, h2⟩ := key ⟨0, 0, 0, 0, 0, 0, 0, 0, 0, 0, 0, 0, 0, 0, 0, 1, 0⟩ (Or.inl h12)
    refine ⟨_, h1.trans (congrArg some (h2.unique (.fail _ _ _ h12)))⟩
  · by_contra hno
    have hop : ∀ x : BlsFr, OpeningEquation (1 : BlsFr) 11 exCC.size exD.gen exCC
        ⟨0, 0, 0, 0, 0, 0, 0, x, 0, 0, 0, 0, 0, 0, 0, 2, 0⟩ ⟨2, 2, 2, 2, 2, 2⟩ := by
      intro x
      by_contra hx
      obtain ⟨res, h1, h2⟩ := key ⟨0, 0, 0, 0, 0, 0, 0, x, 0, 0, 0, 0, 0, 0, 0, 2, 0⟩ (Or.inr h12)
      exact hno ⟨_, h1.trans (congrArg some (h2.unique (.pass _ _ _ _ rfl (.fail _ _ _ hx))))⟩
    have e0 := hop 0
    have e1 := hop 1
    unfold OpeningEquation at e0 e1
    dsimp only at e0 e1
    simp only [smul_eq_mul] at e0 e1
    have : (9 : BlsFr) = 0 := by linear_combination e1 - e0
    revert this
    decide +kernel

end Verif.Plonk

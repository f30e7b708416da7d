import Verif.Plonk.Compiled

/-!
# C52: the condition `α ≠ 0` is necessary

C52 excludes proofs whose challenge `α` is zero.  Here is a run of the prover and the verifier with `α = 0` on a circuit
whose copy constraint is violated: the prover returns a proof and the verifier accepts it.
-/

set_option linter.unusedSectionVars false

namespace Verif.Plonk

open Verif.Ark Verif.Kzg Polynomial

/-- The compiled circuit of `badCopyCalls`. -/
noncomputable def badCopyCC : CompiledCircuit BlsFr where
  size := 2
  gate :=
    { fax := exD.interpolate (badCopyCalls.map fun r => r.a.2.2)
      fbx := exD.interpolate (badCopyCalls.map fun r => r.b.2.2)
      fcx := exD.interpolate (badCopyCalls.map fun r => r.c.2.2)
      qlx := exD.interpolate (badCopyCalls.map fun r => r.gate.qL)
      qrx := exD.interpolate (badCopyCalls.map fun r => r.gate.qR)
      qox := exD.interpolate (badCopyCalls.map fun r => r.gate.qO)
      qmx := exD.interpolate (badCopyCalls.map fun r => r.gate.qM)
      qcx := exD.interpolate (badCopyCalls.map fun r => r.gate.qC)
      pix := exD.interpolate (badCopyCalls.map fun r => r.gate.pi) }
  copy :=
    { s1 := exD.interpolate (overwrite exD.elements 0 (badCopyCalls.map fun c => label exD.gen c.a.1 c.a.2.1))
      s2 := exD.interpolate (overwrite (exD.elements.map fun r => r * 2) 0
        (badCopyCalls.map fun c => label exD.gen c.b.1 c.b.2.1))
      s3 := exD.interpolate (overwrite (exD.elements.map fun r => r * 3) 0
        (badCopyCalls.map fun c => label exD.gen c.c.1 c.c.2.1))
      k1 := 2
      k2 := 3 }

theorem badCopyCC_compiled : (build badCopyCalls).compile = some badCopyCC := by
  have hval : AllValid 2 badCopyCalls := by
    intro call hc
    simp only [badCopyCalls, List.mem_cons, List.not_mem_nil, or_false] at hc
    rcases hc with rfl | rfl <;> simp [ValidPos]
  exact (compile_build badCopyCalls exD (by exact exD_eq) (by simp [badCopyCalls])).2 hval

/-- An environment whose digest counts the messages, and whose generator returns zero after the fourth message (the
commitment to the accumulator): the challenge `α` is zero. -/
def zeroAlphaEnv : Env BlsFr BlsFr where
  sha256 b := (if b.length = 1 then 1 else b.headD 0 + 1) :: List.replicate 7 0
  serG x := [UInt8.ofNat x.val]
  rand s k := if s = 4 then 0 else ((s + k + 2 : ℕ) : BlsFr)

/-- The rounds of the prover on the domain of size 2 (see `exRun`). -/
noncomputable def zeroAlphaRun : Option (Proof BlsFr BlsFr) :=
  (round1 badCopyCC (Srs.newFromSecret (trivialGroups BlsFr) 11 2) exBl exD).bind fun r1 =>
  (round2 zeroAlphaEnv badCopyCC (Srs.newFromSecret (trivialGroups BlsFr) 11 2) exBl exD r1).bind fun r2 =>
  (round3 zeroAlphaEnv badCopyCC (Srs.newFromSecret (trivialGroups BlsFr) 11 2) exD r1 r2).bind fun r3 =>
  (round4 zeroAlphaEnv badCopyCC exD r1 r2 r3).bind fun r4 =>
  round5 zeroAlphaEnv badCopyCC (Srs.newFromSecret (trivialGroups BlsFr) 11 2) exD r1 r2 r3 r4

theorem zeroAlphaRun_eq (T : List UInt8 → List UInt8) :
    generateProof zeroAlphaEnv T badCopyCC (Srs.newFromSecret (trivialGroups BlsFr) 11 2) exBl = zeroAlphaRun := by
  unfold generateProof
  rw [show badCopyCC.size = 2 from rfl, exD_eq]
  rfl

theorem zeroAlphaRun_isSome : zeroAlphaRun.isSome = true := by decide +kernel

theorem zeroAlphaRun_alpha : (zeroAlphaRun.map fun p =>
    challengeAfter zeroAlphaEnv zeroAlphaEnv.sha256 [p.aC, p.bC, p.cC, p.zC] 0) = some 0 := by decide +kernel

theorem zeroAlphaRun_ev : (zeroAlphaRun.map fun p =>
    decide ((p.challenges zeroAlphaEnv zeroAlphaEnv.sha256 1).ev = 1)) = some false := by decide +kernel

/-- **C52** (the condition `α ≠ 0` cannot be dropped): a circuit with a violated copy constraint for which
`generate_proof` returns a proof with `α = 0` that `verify` accepts. -/
theorem C52_alpha_zero : ∃ (calls : List (GateCall BlsFr)) (cc : CompiledCircuit BlsFr) (env : Env BlsFr BlsFr)
    (bl : Blinders BlsFr) (p : Proof BlsFr BlsFr),
    (build calls).compile = some cc ∧
    callVal calls 2 0 ≠ callVal calls (target calls 2 0).1 (target calls 2 0).2 ∧
    generateProof env env.sha256 cc (Srs.newFromSecret (trivialGroups BlsFr) 11 2) bl = some p ∧
    challengeAfter env env.sha256 [p.aC, p.bC, p.cC, p.zC] 0 = 0 ∧
    verify env env.sha256 (trivialGroups BlsFr) cc (Srs.newFromSecret (trivialGroups BlsFr) 11 2) p =
      some (.ok ()) := by
  obtain ⟨p, hp⟩ := Option.isSome_iff_exists.1 zeroAlphaRun_isSome
  have hgen : generateProof zeroAlphaEnv zeroAlphaEnv.sha256 badCopyCC
      (Srs.newFromSecret (trivialGroups BlsFr) 11 2) exBl = some p := by rw [zeroAlphaRun_eq, hp]
  refine ⟨badCopyCalls, badCopyCC, zeroAlphaEnv, exBl, p, badCopyCC_compiled, ?_, hgen, ?_, ?_⟩
  · simp only [callVal, target, rowVal, badCopyCalls]
    decide +kernel
  · have := zeroAlphaRun_alpha
    rw [hp] at this
    exact Option.some.inj this
  · refine C49_compiled zeroAlphaEnv zeroAlphaEnv.sha256 (fun b => by simp [zeroAlphaEnv]) (trivialGroups BlsFr) 11 2
      badCopyCalls badCopyCC badCopyCC_compiled (by decide) exBl p hgen ?_
    have := zeroAlphaRun_ev
    rw [hp, Option.map_some, Option.some.injEq, decide_eq_false_iff_not] at this
    exact this

end Verif.Plonk

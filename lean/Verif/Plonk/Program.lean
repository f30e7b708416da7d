import Verif.Plonk.Degenerate

/-!
# C88 (PLONK): the shipped program
-/

set_option linter.unusedSectionVars false

namespace Verif.Plonk

open Verif.Ark Verif.Kzg Polynomial

/-- The gate calls of `main`, `plonk/examples/example.rs` lines 12-55. -/
def shippedCalls : List (GateCall BlsFr) :=
  [⟨.multiplication, (0, 1, 1), (1, 0, 2), (0, 3, 2), 0⟩,
   ⟨.multiplication, (1, 1, 1), (0, 0, 1), (0, 2, 1), 0⟩,
   ⟨.multiplication, (2, 1, 1), (2, 6, 3), (1, 3, 3), 0⟩,
   ⟨.addition, (0, 4, 2), (2, 2, 3), (0, 5, 5), 0⟩,
   ⟨.multiplication, (2, 0, 2), (1, 4, 3), (1, 5, 6), 0⟩,
   ⟨.addition, (2, 3, 5), (2, 4, 6), (2, 5, 11), 0⟩,
   ⟨.constant, (0, 6, 3), (1, 6, 0), (1, 2, 3), 0⟩]

/-- `main`, `plonk/examples/example.rs` lines 8-65 (`Srs::new(compiled_circuit.size)`); `none` if it panics.  The
secret and the blinding values it draws are arguments. -/
noncomputable def exampleMain {G1 G2 GT : Type} [AddCommGroup G1] [Module BlsFr G1] [AddCommGroup G2] [Module BlsFr G2]
    [AddCommGroup GT] [Module BlsFr GT] [DecidableEq GT] (env : Env BlsFr G1) (P : PairingGroups BlsFr G1 G2 GT)
    (s : BlsFr) (bl : Blinders BlsFr) : Option (Except String Unit) := do
  let cc ← (build shippedCalls).compile
  let srs := Srs.newFromSecret P s cc.size
  let proof ← generateProof env env.sha256 cc srs bl
  verify env env.sha256 P cc srs proof

theorem shipped_relations : AllRelations shippedCalls := by
  intro call hc
  simp only [shippedCalls, List.mem_cons, List.not_mem_nil, or_false] at hc
  rcases hc with rfl | rfl | rfl | rfl | rfl | rfl | rfl <;> norm_num [GateCall.Relation]

/-- The permutation of the wires of the shipped circuit. -/
def shippedPerm (p : Fin 3 × Fin 8) : Fin 3 × Fin 8 :=
  (Fin.ofNat 3 (target shippedCalls p.1 p.2).1, Fin.ofNat 8 (target shippedCalls p.1 p.2).2)

theorem shipped_wiring : WiringOk 8 shippedCalls := by
  have hinj : Function.Injective shippedPerm := by decide +kernel
  refine ⟨Equiv.ofBijective shippedPerm ⟨hinj, Finite.injective_iff_surjective.1 hinj⟩, fun p => ?_⟩
  have h : ∀ p, target shippedCalls p.1 p.2 = (((shippedPerm p).1 : ℕ), ((shippedPerm p).2 : ℕ)) ∧
      callVal shippedCalls (shippedPerm p).1 (shippedPerm p).2 = callVal shippedCalls p.1 p.2 := by
    decide +kernel
  exact h p

theorem shipped_compiles : ∃ cc d, (build shippedCalls).compile = some cc ∧ cc.size = 8 ∧
    (Domain.new? cc.size : Option (Domain BlsFr)) = some d := by
  have h7 : nextPow2 7 = 8 := by
    have : Nat.clog 2 7 = 3 := by decide +kernel
    simp [nextPow2, this]
  have hsome : (Domain.new? 7 : Option (Domain BlsFr)).isSome = true := by
    rw [Domain.new?_isSome_iff, h7]
    show 8 ≤ 2 ^ 32
    norm_num
  obtain ⟨d, hd⟩ := Option.isSome_iff_exists.1 hsome
  have hsize : d.size = 8 := by
    have := (Domain.new?_valid hd).2
    omega
  have hval : AllValid d.size shippedCalls := by
    rw [hsize]
    intro call hc
    simp only [shippedCalls, List.mem_cons, List.not_mem_nil, or_false] at hc
    rcases hc with rfl | rfl | rfl | rfl | rfl | rfl | rfl <;> simp [ValidPos]
  have hcomp := (compile_build shippedCalls d (by exact hd) (by simp [shippedCalls])).2 hval
  have hsome8 : (Domain.new? 8 : Option (Domain BlsFr)).isSome = true := by
    rw [Domain.new?_isSome_iff, show nextPow2 8 = 8 from by
      have : Nat.clog 2 8 = 3 := by decide +kernel
      simp [nextPow2, this]]
    show 8 ≤ 2 ^ 32
    norm_num
  obtain ⟨d8, hd8⟩ := Option.isSome_iff_exists.1 hsome8
  generalize hcc : (build shippedCalls).compile = o at hcomp
  subst hcomp
  exact ⟨_, d8, rfl, hsize, by dsimp only; rw [hsize]; exact hd8⟩

/-- **C88** (PLONK): the circuit of the shipped program compiles to eight rows.  Whatever hash, generator,
secret and blinding values, the program never ends with a rejected proof (it may panic); and for blinding values with `b1, b3, b5, b7 ≠ 0` and `b1 + b3 ≠ b5` it runs to its end for all but one value of `β`, 24 values of `γ`,
3 values of `α` and 56 values of the evaluation challenge. -/
theorem C88_plonk_example :
    ∃ (cc : CompiledCircuit BlsFr) (d : Domain BlsFr), (build shippedCalls).compile = some cc ∧ cc.size = 8 ∧
    Domain.new? cc.size = some d ∧
    (∀ (G1 G2 GT : Type) [AddCommGroup G1] [Module BlsFr G1] [AddCommGroup G2] [Module BlsFr G2]
      [AddCommGroup GT] [Module BlsFr GT] [DecidableEq GT]
      (env : Env BlsFr G1) (P : PairingGroups BlsFr G1 G2 GT) (s : BlsFr) (bl : Blinders BlsFr) (e : String),
      (∀ b, 8 ≤ (env.sha256 b).length) → exampleMain env P s bl ≠ some (.error e)) ∧
    ∀ bl : Blinders BlsFr, bl.b1 ≠ 0 → bl.b3 ≠ 0 → bl.b5 ≠ 0 → bl.b7 ≠ 0 → bl.b1 + bl.b3 ≠ bl.b5 →
      AllBut 1 fun β : BlsFr => AllBut 24 fun γ : BlsFr => AllBut 3 fun α : BlsFr => AllBut 56 fun ζ : BlsFr =>
        ∀ (G1 G2 GT : Type) [AddCommGroup G1] [Module BlsFr G1] [AddCommGroup G2] [Module BlsFr G2]
          [AddCommGroup GT] [Module BlsFr GT] [DecidableEq GT]
          (env : Env BlsFr G1) (P : PairingGroups BlsFr G1 G2 GT) (s : BlsFr)
          (H : Honest BlsFr G1), H = ⟨env, P.g1, s, cc, d.gen, bl⟩ → (∀ b, 8 ≤ (env.sha256 b).length) →
          H.β = β → H.γ = γ → H.α = α → H.ζ = ζ → exampleMain env P s bl = some (.ok ()) := by
  obtain ⟨cc, d, hc, hs, hd⟩ := shipped_compiles
  refine ⟨cc, d, hc, hs, hd, ?_, ?_⟩
  · intro G1 G2 GT _ _ _ _ _ _ _ env P s bl e hdig h
    unfold exampleMain at h
    rw [hc] at h
    simp only [Option.bind_eq_bind, Option.bind_some, Option.bind_eq_some_iff] at h
    obtain ⟨p, hp, hv⟩ := h
    obtain ⟨h1, h2⟩ := C49_proof_verifies env env.sha256 hdig P s cc.size cc (compile_wellFormed _ _ hc)
      (by omega) bl p hp
    by_cases hev : (p.challenges env env.sha256 P.g1).ev = 1
    · rw [h2 hev] at hv; cases hv
    · rw [h1 hev] at hv; cases hv
  · intro bl h1 h3 h5 h7 hsum
    have h := C82_honest_proving_succeeds shippedCalls cc hc shipped_relations (by rw [hs]; exact shipped_wiring)
      d hd bl h1 h3 h5 h7 hsum
    rw [hs] at h
    refine h.mono le_rfl fun β h => h.mono le_rfl fun γ h => h.mono le_rfl fun α h => h.mono le_rfl fun ζ h => ?_
    intro G1 G2 GT _ _ _ _ _ _ _ env P s H hH hdig e1 e2 e3 e4
    obtain ⟨p, hp, hv⟩ := h G1 G2 GT env env.sha256 P s cc.size H hH (by omega) hdig e1 e2 e3 e4
    unfold exampleMain
    simp only [hc, hp, hv, Option.bind_eq_bind, Option.bind_some]

end Verif.Plonk

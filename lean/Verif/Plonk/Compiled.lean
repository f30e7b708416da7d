import Verif.Plonk.HonestRun
import Verif.Ark.Fields

/-!
# C49, C50, C52 for circuits built with the gate calls, a concrete run, and C55
-/

set_option linter.unusedSectionVars false
set_option linter.unusedSimpArgs false
set_option linter.unusedVariables false

namespace Verif.Plonk

open Verif.Ark Verif.Kzg Polynomial

/-! ## Specification vocabulary on gate calls -/

section spec
variable {F : Type} [FftField F] [DecidableEq F]

/-- The value on wire `(layer, i)`: the value passed with the `i`-th call, zero on padding rows. -/
def callVal (calls : List (GateCall F)) (layer i : ℕ) : F :=
  match layer with
  | 0 => rowVal calls (fun k => k.a.2.2) i
  | 1 => rowVal calls (fun k => k.b.2.2) i
  | _ => rowVal calls (fun k => k.c.2.2) i

/-- Every call's relation holds for the values passed with it. -/
def AllRelations (calls : List (GateCall F)) : Prop :=
  ∀ call ∈ calls, call.Relation call.a.2.2 call.b.2.2 call.c.2.2

/-- The positions passed with the calls form a permutation of the `3n` wire positions (padding rows fixed)
that only connects wires with equal values. -/
def WiringOk (n : ℕ) (calls : List (GateCall F)) : Prop :=
  ∃ σ : Equiv.Perm (Fin 3 × Fin n), ∀ p : Fin 3 × Fin n,
    target calls p.1 p.2 = (((σ p).1 : ℕ), ((σ p).2 : ℕ)) ∧
    callVal calls (σ p).1 (σ p).2 = callVal calls p.1 p.2

end spec

section
variable {F : Type} [FftField F] [DecidableEq F]

theorem wireVal_compiled {calls : List (GateCall F)} {cc : CompiledCircuit F}
    (h : (build calls).compile = some cc) {d : Domain F} (hd : Domain.new? cc.size = some d) (l : ℕ) {i : ℕ}
    (hi : i < cc.size) : wireVal cc d.gen l i = callVal calls l i := by
  obtain ⟨d', hd', -, hint⟩ := C45_interpolates calls cc h
  rw [hd, Option.some.injEq] at hd'
  subst hd'
  simp only [List.mem_cons, List.not_mem_nil, or_false, forall_eq_or_imp, forall_eq] at hint
  rcases l with _ | _ | l
  · exact hint.1.1 i hi
  · exact hint.2.1.1 i hi
  · exact hint.2.2.1.1 i hi

theorem sigmaVal_compiled {calls : List (GateCall F)} {cc : CompiledCircuit F}
    (h : (build calls).compile = some cc) {d : Domain F} (hd : Domain.new? cc.size = some d) {l i : ℕ}
    (hl : l < 3) (hi : i < cc.size) :
    sigmaVal cc d.gen l i = label d.gen (target calls l i).1 (target calls l i).2 := by
  obtain ⟨d', hd', -, -, hint⟩ := C46_sigma calls cc h
  rw [hd, Option.some.injEq] at hd'
  subst hd'
  simp only [List.mem_cons, List.not_mem_nil, or_false, forall_eq_or_imp, forall_eq] at hint
  rcases l with _ | _ | _ | l
  · exact hint.1.2 i hi
  · exact hint.2.1.2 i hi
  · exact hint.2.2.2 i hi
  · omega

theorem posLabel_compiled {calls : List (GateCall F)} {cc : CompiledCircuit F}
    (h : (build calls).compile = some cc) (w : F) {l : ℕ} (hl : l < 3) (i : ℕ) :
    posLabel cc w l i = label w l i := by
  obtain ⟨d', hd', h1, h2, hint⟩ := C46_sigma calls cc h
  unfold posLabel label
  rw [h1, h2]
  rcases l with _ | _ | _ | l
  · simp
  · simp only [zero_add, Nat.cast_one]; norm_num
  · simp only [zero_add, Nat.reduceAdd, Nat.cast_ofNat]; norm_num
  · omega

theorem gatesSatisfied_iff {calls : List (GateCall F)} {cc : CompiledCircuit F}
    (h : (build calls).compile = some cc) {d : Domain F} (hd : Domain.new? cc.size = some d) :
    GatesSatisfied cc d.gen ↔ AllRelations calls := by
  obtain ⟨d', hd', hrel⟩ := C45_gate_relation calls cc h
  rw [hd, Option.some.injEq] at hd'
  subst hd'
  have hle : calls.length ≤ cc.size := (compile_some calls cc h).choose_spec.2.2.2.2.1
  have key : ∀ i < cc.size, GateEq cc d.gen i (wireVal cc d.gen 0 i) (wireVal cc d.gen 1 i) (wireVal cc d.gen 2 i) ↔
      ∀ call, calls[i]? = some call → call.Relation call.a.2.2 call.b.2.2 call.c.2.2 := by
    intro i hi
    unfold GateEq
    rw [hrel i hi, wireVal_compiled h hd _ hi, wireVal_compiled h hd _ hi, wireVal_compiled h hd _ hi]
    refine forall_congr' fun call => forall_congr' fun hc => ?_
    simp only [callVal, rowVal, hc]
  unfold GatesSatisfied AllRelations
  constructor
  · intro hg call hcall
    obtain ⟨i, hi, rfl⟩ := List.getElem_of_mem hcall
    exact (key i (by omega)).1 (hg i (by omega)) _ (List.getElem?_eq_getElem hi)
  · intro hall i hi
    refine (key i hi).2 fun call hc => hall call (List.mem_of_getElem? hc)

theorem copiesSatisfied_of {calls : List (GateCall F)} {cc : CompiledCircuit F}
    (h : (build calls).compile = some cc) {d : Domain F} (hd : Domain.new? cc.size = some d)
    (hw : WiringOk cc.size calls) : CopiesSatisfied cc d.gen := by
  obtain ⟨σ, hσ⟩ := hw
  refine ⟨σ, fun p => ?_, fun p => ?_⟩
  · rw [sigmaVal_compiled h hd p.1.2 p.2.2, (hσ p).1, posLabel_compiled h _ (σ p).1.2]
  · rw [wireVal_compiled h hd _ (σ p).2.2, wireVal_compiled h hd _ p.2.2, (hσ p).2]

variable {G1 G2 GT : Type} [AddCommGroup G1] [Module F G1] [AddCommGroup G2] [Module F G2]
  [AddCommGroup GT] [Module F GT] [DecidableEq GT]

/-- **C49** for circuits built with the gate calls. -/
theorem C49_compiled (env : Env F G1) (T : List UInt8 → List UInt8)
    (hdig : ∀ b, 8 ≤ (env.sha256 b).length) (P : PairingGroups F G1 G2 GT) (s : F) (n : ℕ)
    (calls : List (GateCall F)) (cc : CompiledCircuit F) (hc : (build calls).compile = some cc)
    (hn : cc.size ≤ n + 3) (b : Blinders F) (p : Proof F G1)
    (h : generateProof env T cc (Srs.newFromSecret P s n) b = some p)
    (hev : (p.challenges env env.sha256 P.g1).ev ≠ 1) :
    verify env env.sha256 P cc (Srs.newFromSecret P s n) p = some (.ok ()) :=
  (C49_proof_verifies env T hdig P s n cc (compile_wellFormed calls cc hc) hn b p h).1 hev

/-- **C50** for circuits built with the gate calls: if all call relations hold and the positions form a
value-preserving permutation, then proving succeeds with the honest proof and verification accepts, outside
the degenerate challenges. -/
theorem C50_compiled (H : Honest F G1) (T : List UInt8 → List UInt8) (P : PairingGroups F G1 G2 GT) (N : ℕ)
    (calls : List (GateCall F)) (hc : (build calls).compile = some H.cc)
    (d : Domain F) (hd : Domain.new? H.cc.size = some d) (hw : H.w = d.gen) (hgen : H.g = P.g1)
    (hN : H.cc.size ≤ N) (hdig : ∀ b, 8 ≤ (H.env.sha256 b).length)
    (hrel : AllRelations calls) (hwire : WiringOk H.cc.size calls) (hnd : ¬ H.Degenerate) :
    generateProof H.env T H.cc (Srs.newFromSecret P H.s N) H.bl = some H.proof ∧
    (H.ζ ≠ 1 → verify H.env H.env.sha256 P H.cc (Srs.newFromSecret P H.s N) H.proof = some (.ok ())) := by
  obtain ⟨-, h2, h3⟩ := C50_honest_prover H T P N d hd hw hgen (compile_wellFormed calls H.cc hc) hN hdig
    (hw ▸ (gatesSatisfied_iff hc hd).2 hrel) (hw ▸ copiesSatisfied_of hc hd hwire)
  exact ⟨h2 hnd, h3 hnd⟩

end

section bls
variable {G1 G2 GT : Type} [AddCommGroup G1] [Module BlsFr G1] [AddCommGroup G2] [Module BlsFr G2]
  [AddCommGroup GT] [Module BlsFr GT] [DecidableEq GT]

theorem labelsDistinct_bls (calls : List (GateCall BlsFr)) (cc : CompiledCircuit BlsFr)
    (hc : (build calls).compile = some cc) (d : Domain BlsFr) (hd : Domain.new? cc.size = some d) :
    LabelsDistinct cc.size cc d.gen := by
  have hs : d.size = cc.size := WellFormed.size_eq (compile_wellFormed calls cc hc) hd
  intro p q hpq
  dsimp only at hpq
  rw [posLabel_compiled hc _ p.1.2, posLabel_compiled hc _ q.1.2] at hpq
  obtain ⟨h1, h2⟩ := C46_labels_distinct _ d hd p.1.2 q.1.2 (by rw [hs]; exact p.2.2) (by rw [hs]; exact q.2.2) hpq
  exact Prod.ext (Fin.ext h1) (Fin.ext h2)

/-- **C52** for circuits over BLS12-381 `Fr` built with the gate calls: if the position `(l, i)` is connected
to `target` and carries a different value, then for all but `3n` values of `β` at most `3n` values of `γ`
allow `generate_proof` to return a proof with `α ≠ 0`. -/
theorem C52_compiled (calls : List (GateCall BlsFr)) (cc : CompiledCircuit BlsFr)
    (hc : (build calls).compile = some cc) (l i : ℕ) (hl : l < 3) (hi : i < cc.size)
    (hbad : callVal calls l i ≠ callVal calls (target calls l i).1 (target calls l i).2) :
    ∃ B : Finset BlsFr, B.card ≤ 3 * cc.size ∧ ∀ β ∉ B, ∃ Γ : Finset BlsFr, Γ.card ≤ 3 * cc.size ∧
      ∀ (env : Env BlsFr G1) (T : List UInt8 → List UInt8) (srs : Srs G1 G2) (b : Blinders BlsFr)
        (p : Proof BlsFr G1), generateProof env T cc srs b = some p →
        challengeAfter env env.sha256 [p.aC, p.bC, p.cC, p.zC] 0 ≠ 0 →
        challengeAfter env env.sha256 [p.aC, p.bC, p.cC] 0 = β →
        challengeAfter env env.sha256 [p.aC, p.bC, p.cC] 1 ∈ Γ := by
  obtain ⟨d, hd, hv, hs, -, hle, hval, -⟩ := compile_some calls cc hc
  have hT : ∀ p : Fin 3 × Fin cc.size, (target calls p.1 p.2).1 < 3 ∧ (target calls p.1 p.2).2 < cc.size := by
    rintro ⟨⟨l, hl⟩, ⟨i, hi⟩⟩
    unfold target
    dsimp only
    cases hci : calls[i]? with
    | none => exact ⟨hl, hi⟩
    | some call =>
      have hm := hval call (List.mem_of_getElem? hci)
      rw [hs] at hm
      obtain ⟨h1, h2, h3⟩ := hm
      dsimp only
      split
      · exact h1
      · exact h2
      · exact h3
  refine C52_violated_copy cc d hd hs
    (fun p => (⟨_, (hT p).1⟩, ⟨_, (hT p).2⟩)) ?_ (labelsDistinct_bls calls cc hc d hd) (⟨l, hl⟩, ⟨i, hi⟩) ?_
  · intro p
    rw [sigmaVal_compiled hc hd p.1.2 p.2.2, posLabel_compiled hc _ (hT p).1]
  · dsimp only
    rw [wireVal_compiled hc hd _ hi, wireVal_compiled hc hd _ (hT (⟨l, hl⟩, ⟨i, hi⟩)).2]
    exact hbad

end bls

/-! ## A concrete run over BLS12-381 `Fr` -/

/-- A hash function with 8-byte digests, a point serialisation and a random generator. -/
def exEnv : Env BlsFr BlsFr where
  sha256 b := (b.foldl (fun s x => s * 31 + x) 7) :: List.replicate 7 0
  serG x := [UInt8.ofNat x.val]
  rand s k := ((s + k + 2 : ℕ) : BlsFr)

/-- Another hash function with 8-byte digests. -/
def exDigest (b : List UInt8) : List UInt8 := (b.foldl (fun s x => s * 17 + x) 3) :: List.replicate 7 0

/-- The domain of size 2. -/
def exD : Domain BlsFr := ⟨1, -1⟩

theorem exD_eq : (Domain.new? 2 : Option (Domain BlsFr)) = some exD := by
  have hsome : (Domain.new? 2 : Option (Domain BlsFr)).isSome = true := by
    rw [Domain.new?_isSome_iff]
    have e : FftField.twoAdicity BlsFr = 32 := rfl
    have : Nat.clog 2 2 = 1 := by decide +kernel
    simp [e, this, nextPow2]
  obtain ⟨d, hd⟩ := Option.isSome_iff_exists.1 hsome
  obtain ⟨hv, hsz⟩ := Domain.new?_valid hd
  have h2 : d.size = 2 := by
    rw [hsz]
    have : Nat.clog 2 2 = 1 := by decide +kernel
    simp [nextPow2, this]
  have hlog : d.log = 1 := by
    unfold Domain.size at h2
    exact Nat.pow_right_injective (le_refl 2) (by simpa using h2)
  have hgen : d.gen = -1 := by
    have hv' : IsPrimitiveRoot d.gen 2 := h2 ▸ hv
    exact hv'.eq_neg_one_of_two_right
  rw [hd]
  obtain ⟨l, g⟩ := d
  dsimp only at hlog hgen
  subst hlog hgen
  rfl

/-- The compiled circuit of `exampleCalls`. -/
noncomputable def exCC : CompiledCircuit BlsFr where
  size := 2
  gate :=
    { fax := exD.interpolate (exampleCalls.map fun r => r.a.2.2)
      fbx := exD.interpolate (exampleCalls.map fun r => r.b.2.2)
      fcx := exD.interpolate (exampleCalls.map fun r => r.c.2.2)
      qlx := exD.interpolate (exampleCalls.map fun r => r.gate.qL)
      qrx := exD.interpolate (exampleCalls.map fun r => r.gate.qR)
      qox := exD.interpolate (exampleCalls.map fun r => r.gate.qO)
      qmx := exD.interpolate (exampleCalls.map fun r => r.gate.qM)
      qcx := exD.interpolate (exampleCalls.map fun r => r.gate.qC)
      pix := exD.interpolate (exampleCalls.map fun r => r.gate.pi) }
  copy :=
    { s1 := exD.interpolate (overwrite exD.elements 0 (exampleCalls.map fun c => label exD.gen c.a.1 c.a.2.1))
      s2 := exD.interpolate (overwrite (exD.elements.map fun r => r * 2) 0
        (exampleCalls.map fun c => label exD.gen c.b.1 c.b.2.1))
      s3 := exD.interpolate (overwrite (exD.elements.map fun r => r * 3) 0
        (exampleCalls.map fun c => label exD.gen c.c.1 c.c.2.1))
      k1 := 2
      k2 := 3 }

theorem exCC_compiled : (build exampleCalls).compile = some exCC := by
  obtain ⟨cc, hcc⟩ := exampleCalls_compiles
  have hval : AllValid 2 exampleCalls := by
    intro call hc
    simp only [exampleCalls, List.mem_cons, List.not_mem_nil, or_false] at hc
    rcases hc with rfl | rfl <;> simp [ValidPos]
  have := (compile_build exampleCalls exD (by exact exD_eq) (by simp [exampleCalls])).2 hval
  exact this

/-- Blinding values. -/
def exBl : Blinders BlsFr := ⟨1, 2, 3, 4, 5, 6, 7, 8, 9⟩

/-- The rounds of the prover on a given domain. -/
noncomputable def exRun : Option (Proof BlsFr BlsFr) :=
  (round1 exCC (Srs.newFromSecret (trivialGroups BlsFr) 11 2) exBl exD).bind fun r1 =>
  (round2 exEnv exCC (Srs.newFromSecret (trivialGroups BlsFr) 11 2) exBl exD r1).bind fun r2 =>
  (round3 exEnv exCC (Srs.newFromSecret (trivialGroups BlsFr) 11 2) exD r1 r2).bind fun r3 =>
  (round4 exEnv exCC exD r1 r2 r3).bind fun r4 =>
  round5 exEnv exCC (Srs.newFromSecret (trivialGroups BlsFr) 11 2) exD r1 r2 r3 r4

theorem exRun_eq (T : List UInt8 → List UInt8) :
    generateProof exEnv T exCC (Srs.newFromSecret (trivialGroups BlsFr) 11 2) exBl = exRun := by
  unfold generateProof
  rw [show exCC.size = 2 from rfl, exD_eq]
  rfl

/-- The prover returns a proof for the example circuit. -/
theorem exRun_isSome : exRun.isSome = true := by decide +kernel

theorem exEnv_len (b : List UInt8) : 8 ≤ (exEnv.sha256 b).length := by simp [exEnv]

/-- The evaluation challenge of this run is not 1. -/
theorem exRun_ev : (exRun.map fun p => decide ((p.challenges exEnv exEnv.sha256 1).ev = 1)) = some false := by
  decide +kernel

/-- Under the other digest, the recomputed `u` differs. -/
theorem exRun_u : (exRun.map fun p => decide ((p.challenges exEnv exDigest 1).u = p.u)) = some false := by
  decide +kernel

/-- Non-vacuity of C49: a proof is returned and accepted. -/
example : ∃ p, generateProof exEnv exEnv.sha256 exCC (Srs.newFromSecret (trivialGroups BlsFr) 11 2) exBl = some p ∧
    verify exEnv exEnv.sha256 (trivialGroups BlsFr) exCC (Srs.newFromSecret (trivialGroups BlsFr) 11 2) p =
      some (.ok ()) := by
  obtain ⟨p, hp⟩ := Option.isSome_iff_exists.1 exRun_isSome
  refine ⟨p, by rw [exRun_eq, hp], ?_⟩
  refine C49_compiled exEnv exEnv.sha256 exEnv_len (trivialGroups BlsFr) 11 2 exampleCalls exCC exCC_compiled
    (by decide) exBl p (by rw [exRun_eq, hp]) ?_
  have := exRun_ev
  rw [hp, Option.map_some, Option.some.injEq, decide_eq_false_iff_not] at this
  exact this

theorem exCalls_relations : AllRelations exampleCalls := by
  intro call hc
  simp only [exampleCalls, List.mem_cons, List.not_mem_nil, or_false] at hc
  rcases hc with rfl | rfl <;> norm_num [GateCall.Relation]

theorem exCalls_wiring : WiringOk 2 exampleCalls := by
  refine ⟨Equiv.swap (0, 1) (2, 0), ?_⟩
  decide +kernel

/-- The setting of the concrete run. -/
noncomputable def exHonest : Honest BlsFr BlsFr := ⟨exEnv, 1, 11, exCC, -1, exBl⟩

/-- Non-vacuity of C50: the hypotheses hold for the example and the challenges are not degenerate. -/
theorem exHonest_nondegenerate : ¬ exHonest.Degenerate := by
  intro hdeg
  have := (C50_honest_prover exHonest exEnv.sha256 (trivialGroups BlsFr) 2 exD exD_eq rfl rfl
    (compile_wellFormed _ _ exCC_compiled) (le_refl _) exEnv_len
    ((gatesSatisfied_iff exCC_compiled exD_eq).2 exCalls_relations)
    (copiesSatisfied_of exCC_compiled exD_eq exCalls_wiring)).1 hdeg
  have h2 : generateProof exEnv exEnv.sha256 exCC (Srs.newFromSecret (trivialGroups BlsFr) 11 2) exBl = none := this
  rw [exRun_eq] at h2
  have := exRun_isSome
  rw [h2] at this
  cases this

/-- Calls with a violated gate (`2 · 3 = 7`) and with a violated copy constraint (`2` and `5`). -/
def badGateCalls : List (GateCall BlsFr) :=
  [⟨.multiplication, (0, 0, 1), (1, 0, 2), (0, 1, 2), 0⟩,
   ⟨.multiplication, (2, 0, 2), (1, 1, 3), (2, 1, 7), 0⟩]

/-- Calls with a violated copy constraint. -/
def badCopyCalls : List (GateCall BlsFr) :=
  [⟨.multiplication, (0, 0, 1), (1, 0, 2), (0, 1, 2), 0⟩,
   ⟨.multiplication, (2, 0, 5), (1, 1, 3), (2, 1, 15), 0⟩]

theorem two_calls_compile (calls : List (GateCall BlsFr)) (hl : calls.length = 2) (hval : AllValid 2 calls) :
    ∃ cc, (build calls).compile = some cc ∧ cc.size = 2 := by
  have := (compile_build calls exD (by rw [hl]; exact exD_eq) (by omega)).2 hval
  exact ⟨_, this, rfl⟩

/-- Non-vacuity of C51: a circuit with a violated gate compiles. -/
example : ∃ cc call, (build badGateCalls).compile = some cc ∧ call ∈ badGateCalls ∧
    ¬ call.Relation call.a.2.2 call.b.2.2 call.c.2.2 := by
  obtain ⟨cc, h, -⟩ := two_calls_compile badGateCalls rfl (by
    intro call hc
    simp only [badGateCalls, List.mem_cons, List.not_mem_nil, or_false] at hc
    rcases hc with rfl | rfl <;> simp [ValidPos])
  refine ⟨cc, _, h, List.mem_cons_of_mem _ (List.mem_singleton.2 rfl), ?_⟩
  simp only [GateCall.Relation]
  decide +kernel

/-- Non-vacuity of C52: a circuit with all gates satisfied and a violated copy constraint compiles. -/
example : ∃ cc, (build badCopyCalls).compile = some cc ∧ AllRelations badCopyCalls ∧ 0 < cc.size ∧
    callVal badCopyCalls 2 0 ≠ callVal badCopyCalls (target badCopyCalls 2 0).1 (target badCopyCalls 2 0).2 := by
  obtain ⟨cc, h, hs⟩ := two_calls_compile badCopyCalls rfl (by
    intro call hc
    simp only [badCopyCalls, List.mem_cons, List.not_mem_nil, or_false] at hc
    rcases hc with rfl | rfl <;> simp [ValidPos])
  refine ⟨cc, h, ?_, by omega, ?_⟩
  · intro call hc
    simp only [badCopyCalls, List.mem_cons, List.not_mem_nil, or_false] at hc
    rcases hc with rfl | rfl <;> norm_num [GateCall.Relation]
  · simp only [callVal, target, rowVal, badCopyCalls]
    decide +kernel

/-- Non-vacuity of C56: on the honest polynomials of the concrete run the quotient identity holds for every
`α`, in particular for three different ones. -/
example : ∃ (α : Fin 3 → BlsFr) (tt : Fin 3 → BlsFr[X]), Function.Injective α ∧
    ∀ k, tt k * (X ^ exD.size - 1) = gatePoly exCC exHonest.a exHonest.b exHonest.c +
      C (α k) * (numPoly exCC exHonest.β exHonest.γ exHonest.a exHonest.b exHonest.c * exHonest.z -
        denPoly exCC exHonest.β exHonest.γ exHonest.a exHonest.b exHonest.c * exHonest.z.comp (C exD.gen * X)) +
      C (α k ^ 2) * ((exHonest.z - 1) * L1 exD.size) := by
  have S : Setting exHonest (trivialGroups BlsFr) exD 2 := ⟨rfl, rfl, exD_eq,
    compile_wellFormed _ _ exCC_compiled, le_refl _, exEnv_len⟩
  have hnd := exHonest_nondegenerate
  unfold Honest.Degenerate at hnd
  push Not at hnd
  obtain ⟨t1, h1⟩ := S.dvd_gate ((gatesSatisfied_iff exCC_compiled exD_eq).2 exCalls_relations)
  obtain ⟨t2, h2⟩ := S.dvd_perm (S.prod_rows (copiesSatisfied_of exCC_compiled exD_eq exCalls_wiring)) hnd.1
  obtain ⟨t3, h3⟩ := S.dvd_start
  have hZ : exHonest.Z = X ^ exD.size - 1 := rfl
  rw [hZ] at h1 h2 h3
  rw [← toPoly_l1Poly, S.toPoly_l1']
  refine ⟨fun k => ((k : ℕ) : BlsFr), fun k => t1 + C ((k : ℕ) : BlsFr) * t2 + C (((k : ℕ) : BlsFr) ^ 2) * t3, ?_, ?_⟩
  · decide +kernel
  · intro k
    have h2' : numPoly exCC exHonest.β exHonest.γ exHonest.a exHonest.b exHonest.c * exHonest.z -
        denPoly exCC exHonest.β exHonest.γ exHonest.a exHonest.b exHonest.c * exHonest.z.comp (C exD.gen * X) =
        (X ^ exD.size - 1) * t2 := h2
    have h1' : gatePoly exCC exHonest.a exHonest.b exHonest.c = (X ^ exD.size - 1) * t1 := h1
    rw [h1', h2', h3]
    ring

/-! ## C55 -/

/-- **C55** is false: there are a digest `T`, a satisfied circuit, an SRS and blinding values for which
`generate_proof::<T>` returns a proof that `verify::<T>` rejects (the prover ignores `T`). -/
theorem C55_other_digest_rejected : ¬ ∀ (env : Env BlsFr BlsFr) (T : List UInt8 → List UInt8),
    (∀ b, 8 ≤ (env.sha256 b).length) → (∀ b, 8 ≤ (T b).length) →
    ∀ (s : BlsFr) (n : ℕ) (calls : List (GateCall BlsFr)) (cc : CompiledCircuit BlsFr),
      (build calls).compile = some cc → AllRelations calls → WiringOk cc.size calls → cc.size ≤ n →
      ∀ (b : Blinders BlsFr) (p : Proof BlsFr BlsFr),
        generateProof env T cc (Srs.newFromSecret (trivialGroups BlsFr) s n) b = some p →
        (p.challenges env T 1).ev ≠ 1 →
        verify env T (trivialGroups BlsFr) cc (Srs.newFromSecret (trivialGroups BlsFr) s n) p = some (.ok ()) := by
  intro hall
  obtain ⟨p, hp⟩ := Option.isSome_iff_exists.1 exRun_isSome
  have hu := exRun_u
  have hev : (exRun.map fun p => decide ((p.challenges exEnv exDigest 1).ev = 1)) = some false := by decide +kernel
  rw [hp] at hu hev
  simp only [Option.map_some, Option.some.injEq, decide_eq_false_iff_not] at hu hev
  have h1 := hall exEnv exDigest exEnv_len (fun b => by simp [exDigest]) 11 2 exampleCalls exCC exCC_compiled
    exCalls_relations exCalls_wiring (le_refl _) exBl p (by rw [exRun_eq, hp]) hev
  have h2 := (C53_verify exEnv exDigest (fun b => by simp [exDigest]) (trivialGroups BlsFr) 11 2 exCC
    (compile_wellFormed _ _ exCC_compiled) (by decide) exD exD_eq p).2
  rw [h2] at h1
  exact hu h1.1

section
variable {F : Type} [FftField F] [DecidableEq F]
  {G1 G2 GT : Type} [AddCommGroup G1] [Module F G1] [AddCommGroup G2] [Module F G2]
  [AddCommGroup GT] [Module F GT] [DecidableEq GT]

theorem mem_hashedInputs_append (env : Env F G1) (T : List UInt8 → List UInt8) (acc : List UInt8) (cs ds : List G1)
    (x : List UInt8) (h : x ∈ hashedInputs env T acc cs) : x ∈ hashedInputs env T acc (cs ++ ds) := by
  induction cs generalizing acc with
  | nil => simp [hashedInputs] at h
  | cons c cs ih =>
    simp only [hashedInputs, List.mem_cons, List.cons_append] at h ⊢
    exact h.imp_right (ih _)

theorem digestChain_congr (env : Env F G1) (T T' : List UInt8 → List UInt8) (acc : List UInt8) (cs : List G1)
    (h : ∀ b ∈ hashedInputs env T acc cs, T' b = T b) :
    cs.foldl (fun a x => T' (a ++ env.serG x)) acc = cs.foldl (fun a x => T (a ++ env.serG x)) acc := by
  induction cs generalizing acc with
  | nil => rfl
  | cons c cs ih =>
    simp only [hashedInputs, List.mem_cons, forall_eq_or_imp] at h
    rw [List.foldl_cons, List.foldl_cons, h.1]
    exact ih _ h.2

/-- **C55** (what holds): the proof does not depend on the digest type parameter; `verify::<T>` accepts it
whenever `T` agrees with SHA-256 on the strings hashed in this run (in particular for `T = Sha256`), and
returns the challenge error whenever the challenge `u` recomputed with `T` differs from the one in the proof.
Missing: acceptance for every digest `T`, which is false (`C55_other_digest_rejected`). -/
theorem C55_digest_partial (env : Env F G1) (T T' : List UInt8 → List UInt8)
    (hdig : ∀ b, 8 ≤ (env.sha256 b).length) (hT : ∀ b, 8 ≤ (T b).length)
    (P : PairingGroups F G1 G2 GT) (s : F) (n : ℕ)
    (cc : CompiledCircuit F) (hwf : cc.WellFormed) (hn : cc.size ≤ n + 3) (b : Blinders F) :
    generateProof env T cc (Srs.newFromSecret P s n) b = generateProof env T' cc (Srs.newFromSecret P s n) b ∧
    ∀ p, generateProof env T cc (Srs.newFromSecret P s n) b = some p →
      ((∀ x ∈ hashedInputs env env.sha256 [] (p.feedsBefore P.g1 5), T x = env.sha256 x) →
        (p.challenges env env.sha256 P.g1).ev ≠ 1 →
        verify env T P cc (Srs.newFromSecret P s n) p = some (.ok ())) ∧
      ((p.challenges env T P.g1).u ≠ p.u →
        verify env T P cc (Srs.newFromSecret P s n) p =
          some (.error "Verify: Challenge verification failed.")) := by
  refine ⟨rfl, fun p hp => ⟨fun hagree hev => ?_, fun hu => ?_⟩⟩
  · have hacc := (C49_proof_verifies env T hdig P s n cc hwf hn b p hp).1 hev
    have hpre : ∀ k, ∃ suf, p.feedsBefore P.g1 5 = p.feedsBefore P.g1 k ++ suf ∨ k = 0 ∨ 5 < k := by
      intro k
      rcases k with _ | _ | _ | _ | _ | _ | k
      · exact ⟨[], by simp⟩
      · exact ⟨_, Or.inl rfl⟩
      · exact ⟨_, Or.inl rfl⟩
      · exact ⟨_, Or.inl rfl⟩
      · exact ⟨_, Or.inl rfl⟩
      · exact ⟨[], Or.inl (by simp)⟩
      · exact ⟨[], Or.inr (Or.inr (by omega))⟩
    have hch : ∀ k, 0 < k → k ≤ 5 → digestChain env T (p.feedsBefore P.g1 k) =
        digestChain env env.sha256 (p.feedsBefore P.g1 k) := by
      intro k hk0 hk5
      refine digestChain_congr env env.sha256 T [] _ fun x hx => hagree x ?_
      obtain ⟨suf, h | h | h⟩ := hpre k
      · rw [h]; exact mem_hashedInputs_append _ _ _ _ _ _ hx
      · omega
      · omega
    have hcc : p.challenges env T P.g1 = p.challenges env env.sha256 P.g1 := by
      unfold Proof.challenges challengeAfter
      rw [hch 1 (by omega) (by omega), hch 2 (by omega) (by omega), hch 3 (by omega) (by omega),
        hch 4 (by omega) (by omega), hch 5 (by omega) (by omega)]
    have hvc : verifyChallenges env T p (Srs.newFromSecret P s n) =
        verifyChallenges env env.sha256 p (Srs.newFromSecret P s n) := by
      rw [verifyChallenges_eq env T hT P s n p, verifyChallenges_eq env env.sha256 hdig P s n p, hcc]
    unfold verify at hacc ⊢
    rw [hvc]
    exact hacc
  · unfold verify
    simp only [getCircuitCommitment_eq P s n hwf hn, verifyChallenges_eq env T hT P s n p, Option.bind_eq_bind,
      Option.bind_some]
    rw [if_pos hu]

end

end Verif.Plonk

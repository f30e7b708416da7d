import Verif.Plonk.Compiled
import Verif.Plonk.Cpi
import Verif.Plonk.ParserSem
import Verif.Fri.Machine

/-!
# C119: compiling on 64 bits

`pad_circuit` (`plonk/src/circuit.rs` lines 148-157, `plonk/src/common_preprocessed_input/cpi_circuit.rs` lines 172-181)
computes `(len - 1).ilog2() + 1` and `1 << exponent` on machine integers.  The model of C44 is the one of a build with
overflow checks.  Here both compilers are modelled once more for builds with and without these checks.
-/

set_option linter.unusedSectionVars false

namespace Verif.Plonk

open Verif.Ark Verif.Kzg Polynomial

/-! ## Model -/

/-- `len - 1` on 64 bits: zero minus one panics, or wraps to `usize::MAX` (`plonk/src/circuit.rs` line 151). -/
def pred64 : Build → ℕ → Option ℕ
  | .checked, 0 => none
  | .wrapping, 0 => some (2 ^ 64 - 1)
  | _, n + 1 => some n

/-- `1 << exponent` on 64 bits: a shift by 64 or more panics, or is taken modulo 64 (`plonk/src/circuit.rs` line 152). -/
def shl64 : Build → ℕ → Option ℕ
  | .checked, e => if e < 64 then some (2 ^ e) else none
  | .wrapping, e => some (2 ^ (e % 64))

/-- `new_len` of `pad_circuit`, `plonk/src/circuit.rs` lines 149-152 and `cpi_circuit.rs` lines 173-175: `ilog2` panics for
zero in every build. -/
def padLen64 (bd : Build) (len : ℕ) : Option ℕ := do
  let m ← pred64 bd len
  if m = 0 then none else shl64 bd (Nat.log2 m + 1)

section
variable {F : Type} [FftField F] [DecidableEq F]

/-- `Circuit::pad_circuit` on 64 bits, `plonk/src/circuit.rs` lines 148-157. -/
def Circuit.pad64 (bd : Build) (c : Circuit F) : Option (Circuit F) := do
  let newLen ← padLen64 bd c.gates.length
  pure (Circuit.addDummies (newLen - c.gates.length) c)

/-- `Circuit::compile` on 64 bits, `plonk/src/circuit.rs` lines 166-200 (as `Circuit.compile`, with `pad64`). -/
def Circuit.compile64 (bd : Build) (c : Circuit F) : Option (CompiledCircuit F) := do
  let c ← c.pad64 bd
  let d ← Domain.new? c.gates.length
  let rows ← c.getAssignment
  let gc : GateConstraints F :=
    { fax := d.interpolate (rows.map fun r => r.a)
      fbx := d.interpolate (rows.map fun r => r.b)
      fcx := d.interpolate (rows.map fun r => r.c)
      qlx := d.interpolate (rows.map fun r => r.gate.qL)
      qrx := d.interpolate (rows.map fun r => r.gate.qR)
      qox := d.interpolate (rows.map fun r => r.gate.qO)
      qmx := d.interpolate (rows.map fun r => r.gate.qM)
      qcx := d.interpolate (rows.map fun r => r.gate.qC)
      pix := d.interpolate (rows.map fun r => r.gate.pi) }
  let cc ← calPermutation c.gates
  pure ⟨c.gates.length, gc, cc⟩

/-- `CPICircuit::pad_circuit` on 64 bits, `cpi_circuit.rs` lines 172-181. -/
def CPICircuit.pad64 (bd : Build) (s : CPICircuit F) : Option (CPICircuit F) := do
  let newLen ← padLen64 bd s.gates.length
  pure (CPICircuit.addDummies (newLen - s.gates.length) s)

/-- `CPICircuit::compile` on 64 bits, `cpi_circuit.rs` lines 184-212 (as `CPICircuit.compile`, with `pad64`). -/
def CPICircuit.compile64 (bd : Build) (s : CPICircuit F) : Option (GateConstraints F × CopyConstraints F × ℕ) := do
  let s ← s.pad64 bd
  let d ← Domain.new? s.gates.length
  let rows := s.getAssignment
  let gc : GateConstraints F :=
    { fax := [], fbx := [], fcx := []
      qlx := d.interpolate (rows.map fun g => g.qL)
      qrx := d.interpolate (rows.map fun g => g.qR)
      qox := d.interpolate (rows.map fun g => g.qO)
      qmx := d.interpolate (rows.map fun g => g.qM)
      qcx := d.interpolate (rows.map fun g => g.qC)
      pix := d.interpolate (rows.map fun g => g.pi) }
  let cc ← cpiCalPermutation s.gates
  pure (gc, cc, s.gates.length)

/-! ## Circuits with a gate -/

theorem padLen64_eq (bd : Build) {len : ℕ} (h1 : bd = .checked ∨ len ≠ 0) (h2 : len ≤ 2 ^ 63) :
    padLen64 bd len = if len < 2 then none else some (2 ^ (Nat.log2 (len - 1) + 1)) := by
  unfold padLen64
  rcases len with _ | m
  · obtain rfl : bd = .checked := h1.resolve_right (by simp)
    rfl
  · have hp : pred64 bd (m + 1) = some m := by cases bd <;> rfl
    rw [hp]
    simp only [Option.bind_eq_bind, Option.bind_some, Nat.add_sub_cancel]
    by_cases hm : m = 0
    · rw [if_pos hm, if_pos (by omega)]
    · rw [if_neg hm, if_neg (by omega)]
      have hlt : Nat.log2 m + 1 < 64 := by
        have : Nat.log2 m < 63 := (Nat.log2_lt hm).2 (by omega)
        omega
      cases bd
      · exact if_pos hlt
      · show some (2 ^ ((Nat.log2 m + 1) % 64)) = _
        rw [Nat.mod_eq_of_lt hlt]

/-- Above `2^63` there is no domain, however the circuit is padded. -/
theorem addDummies_length (k : ℕ) (c : Circuit F) : (Circuit.addDummies k c).gates.length = c.gates.length + k := by
  induction k generalizing c with
  | zero => rfl
  | succ k ih =>
    rw [Circuit.addDummies, ih]
    simp [Circuit.addDummyGate]
    omega

theorem cpiAddDummies_length (k : ℕ) (c : CPICircuit F) :
    (CPICircuit.addDummies k c).gates.length = c.gates.length + k := by
  induction k generalizing c with
  | zero => rfl
  | succ k ih =>
    rw [CPICircuit.addDummies, ih]
    simp [CPICircuit.addDummyGate]
    omega

/-- **C119** (what holds): with overflow checks, or for circuits with at least one gate, `compile` on 64 bits gives what it
gives on unbounded integers (C44: it panics exactly if there are fewer than two gates, no domain, or a wire position out of
range). -/
theorem C119_compile_partial (bd : Build) (hta : FftField.twoAdicity F ≤ 63) (c : Circuit F)
    (h : bd = .checked ∨ c.gates ≠ []) : c.compile64 bd = c.compile := by
  by_cases hlen : c.gates.length ≤ 2 ^ 63
  · unfold Circuit.compile64 Circuit.compile Circuit.pad64 Circuit.pad
    rw [padLen64_eq bd (h.imp_right fun h h0 => h (List.length_eq_zero_iff.1 h0)) hlen]
    dsimp only
    split <;> rfl
  · have key : ∀ k, Domain.new? (F := F) (Circuit.addDummies k c).gates.length = none := fun k => by
      rw [addDummies_length]
      exact Fri.domain_none_of_large hta (by omega)
    have h1 : c.compile64 bd = none := by
      unfold Circuit.compile64 Circuit.pad64
      cases padLen64 bd c.gates.length with
      | none => rfl
      | some n =>
        simp only [Option.bind_eq_bind, Option.bind_some, Option.pure_def, key]
        rfl
    have h2 : c.compile = none := by
      unfold Circuit.compile Circuit.pad
      dsimp only
      rw [if_neg (by omega)]
      simp only [Option.bind_eq_bind, Option.bind_some, key]
      rfl
    rw [h1, h2]

/-- **C119** (what holds) for the compiler of the preprocessed input. -/
theorem C119_cpi_compile_partial (bd : Build) (hta : FftField.twoAdicity F ≤ 63) (c : CPICircuit F)
    (h : bd = .checked ∨ c.gates ≠ []) : c.compile64 bd = c.compile := by
  by_cases hlen : c.gates.length ≤ 2 ^ 63
  · unfold CPICircuit.compile64 CPICircuit.compile CPICircuit.pad64 CPICircuit.pad
    rw [padLen64_eq bd (h.imp_right fun h h0 => h (List.length_eq_zero_iff.1 h0)) hlen]
    dsimp only
    split <;> rfl
  · have key : ∀ k, Domain.new? (F := F) (CPICircuit.addDummies k c).gates.length = none := fun k => by
      rw [cpiAddDummies_length]
      exact Fri.domain_none_of_large hta (by omega)
    have h1 : c.compile64 bd = none := by
      unfold CPICircuit.compile64 CPICircuit.pad64
      cases padLen64 bd c.gates.length with
      | none => rfl
      | some n =>
        simp only [Option.bind_eq_bind, Option.bind_some, Option.pure_def, key]
        rfl
    have h2 : c.compile = none := by
      unfold CPICircuit.compile CPICircuit.pad
      dsimp only
      rw [if_neg (by omega)]
      simp only [Option.bind_eq_bind, Option.bind_some, key]
      rfl
    rw [h1, h2]

/-- **C119** (what holds) from a text: whatever the text and the witnesses, the circuit the parser returns has a gate, so
that compiling it does not depend on the build. -/
theorem C119_parsed_partial (bd : Build) (hta : FftField.twoAdicity F ≤ 63) (U : Unicode) (wit : List Char → Option F)
    (input : List Char) (c : Circuit F) (h : parse U wit input = some c) : c.compile64 bd = c.compile := by
  refine C119_compile_partial bd hta c (.inr ?_)
  simp only [parse, Option.bind_eq_bind, Option.bind_eq_some_iff] at h
  obtain ⟨s, -, ⟨gates, pm⟩, hp, hg⟩ := h
  rw [genCircuit_eq gates pm (prepare_pm hp), Option.some.injEq] at hg
  have hne : gates ≠ [] := by
    simp only [prepareGenCircuit, Option.bind_eq_bind, Option.bind_eq_some_iff] at hp
    obtain ⟨terms, -, hp⟩ := hp
    rcases terms with _ | ⟨t, ts⟩
    · cases hp
    · simp only [Option.bind_eq_some_iff, Option.pure_def, Option.some.injEq, Prod.mk.injEq] at hp
      obtain ⟨-, -, q, -, g', hz, rfl, -⟩ := hp
      unfold zeroLast at hz
      split at hz
      · cases hz
      · cases hz
        simp
  intro h0
  rw [← hg, build_eq] at h0
  exact hne (by simpa [← List.length_eq_zero_iff, wiredCalls_length] using congrArg List.length h0)

end

/-! ## The empty circuit -/

/-- The domain of size 1. -/
def oneD : Domain BlsFr := ⟨0, 1⟩

theorem oneD_eq : (Domain.new? 1 : Option (Domain BlsFr)) = some oneD := by
  have h := Fri.new?_pow (F := BlsFr) 0 (Nat.zero_le _)
  rw [pow_zero] at h
  rw [h, Nat.sub_zero]
  have := (Fri.rootOf_prim (F := BlsFr) 0 (Nat.zero_le _)).pow_eq_one
  rw [pow_zero, pow_one] at this
  unfold Fri.rootOf at this
  rw [Nat.sub_zero] at this
  rw [this]
  rfl

/-- A constraint system of one row without selectors, every position being its own successor. -/
def emptyCC : CompiledCircuit BlsFr where
  size := 1
  gate := { fax := [], fbx := [], fcx := [], qlx := [], qrx := [], qox := [], qmx := [], qcx := [], pix := [] }
  copy := { s1 := [1], s2 := [2], s3 := [3], k1 := 2, k2 := 3 }

theorem padLen64_zero : padLen64 .wrapping 0 = some 1 := by decide +kernel

theorem compile64_default : (Circuit.default : Circuit BlsFr).compile64 .wrapping = some emptyCC := by
  have h0 : oneD.interpolate ([] : List BlsFr) = [] := by decide +kernel
  have h1 : oneD.interpolate [(1 : BlsFr)] = [1] := by decide +kernel
  have h2 : oneD.interpolate [(1 : BlsFr) * (1 + 1)] = [2] := by decide +kernel
  have h3 : oneD.interpolate [(1 : BlsFr) * (1 + 1 + 1)] = [3] := by decide +kernel
  have he : oneD.elements = [1] := by decide +kernel
  have e2 : (1 : BlsFr) + 1 = 2 := by norm_num
  have e3 : (1 : BlsFr) + 1 + 1 = 3 := by norm_num
  unfold Circuit.compile64 Circuit.pad64
  rw [show (Circuit.default : Circuit BlsFr).gates.length = 0 from rfl, padLen64_zero]
  simp only [Option.bind_eq_bind, Option.bind_some, Option.pure_def]
  have hp : (Circuit.addDummies (1 - 0) (Circuit.default : Circuit BlsFr)).gates = [Gate.newDummy] := rfl
  have hr : (Circuit.addDummies (1 - 0) (Circuit.default : Circuit BlsFr)).getAssignment = some [] := rfl
  rw [hp, hr, List.length_singleton, oneD_eq]
  simp only [Option.bind_some, List.map_nil, h0]
  have hc : calPermutation [(Gate.newDummy : Gate BlsFr)] = some ⟨[1], [2], [3], 2, 3⟩ := by
    unfold calPermutation
    rw [List.length_singleton, oneD_eq]
    simp only [Option.bind_eq_bind, Option.bind_some, he, List.getElem?_cons_zero, List.map_cons, List.map_nil]
    rw [show sigmaLoop (mapElement [(1 : BlsFr)] [1 * (1 + 1)] [1 * (1 + 1 + 1)]) [Gate.newDummy] 0
      ([1], [1 * (1 + 1)], [1 * (1 + 1 + 1)]) = some ([1], [1 * (1 + 1)], [1 * (1 + 1 + 1)]) from rfl]
    simp only [Option.bind_some, h1, h2, h3, Option.pure_def]
    rw [e3, e2]
  rw [hc]
  rfl

/-- **C119** is false of the code: without overflow checks the empty circuit compiles, to a constraint system of one row that
no circuit with a gate compiles to; with overflow checks it panics. -/
theorem C119_empty_compiles :
    (Circuit.default : Circuit BlsFr).compile64 .checked = none ∧
    ∃ cc, (Circuit.default : Circuit BlsFr).compile64 .wrapping = some cc ∧ cc.size = 1 ∧
      ∀ (calls : List (GateCall BlsFr)) (bd : Build), calls ≠ [] → (build calls).compile64 bd ≠ some cc := by
  refine ⟨rfl, emptyCC, compile64_default, rfl, ?_⟩
  intro calls bd hne h
  rw [C119_compile_partial bd (by show 32 ≤ 63; norm_num) _ (.inr (by rw [build_eq]; simpa using hne))] at h
  obtain ⟨-, h1, -⟩ := C44_compile_size calls emptyCC h
  have h2 : ¬ calls.length < 2 := fun hlt => by rw [compile_build_short _ hlt] at h; cases h
  have : emptyCC.size = 1 := rfl
  omega

/-- **C119** is false of the code, for the compiler of the preprocessed input too. -/
theorem C119_cpi_empty_compiles :
    (⟨[]⟩ : CPICircuit BlsFr).compile64 .checked = none ∧
    ∃ t, (⟨[]⟩ : CPICircuit BlsFr).compile64 .wrapping = some t ∧ t.2.2 = 1 := by
  refine ⟨rfl, ?_⟩
  unfold CPICircuit.compile64 CPICircuit.pad64
  rw [show (⟨[]⟩ : CPICircuit BlsFr).gates.length = 0 from rfl, padLen64_zero]
  simp only [Option.bind_eq_bind, Option.bind_some, Option.pure_def]
  have hp : (CPICircuit.addDummies (1 - 0) (⟨[]⟩ : CPICircuit BlsFr)).gates = [Gate.newDummy] := rfl
  rw [hp, List.length_singleton, oneD_eq]
  simp only [Option.bind_some]
  have hc : ∃ c, cpiCalPermutation [(Gate.newDummy : Gate BlsFr)] = some c := by
    unfold cpiCalPermutation
    have he : oneD.elements = [1] := by decide +kernel
    rw [List.length_singleton, oneD_eq]
    simp only [Option.bind_eq_bind, Option.bind_some, he, List.getElem?_cons_zero]
    exact ⟨_, rfl⟩
  obtain ⟨c, hc⟩ := hc
  rw [hc]
  exact ⟨_, rfl, rfl⟩

/-- **C119**, continued: the compiled empty circuit is useless, for `generate_proof` panics on it, whatever the setup, hashes,
challenges and blinding values (it adds the public input to the first coefficient of a polynomial without coefficients). -/
theorem C119_empty_no_proof : ∃ cc, (Circuit.default : Circuit BlsFr).compile64 .wrapping = some cc ∧
    ∀ (G1 G2 : Type) [AddCommGroup G1] [Module BlsFr G1] (env : Env BlsFr G1) (T : List UInt8 → List UInt8) (srs : Srs G1 G2)
      (bl : Blinders BlsFr), generateProof env T cc srs bl = none := by
  refine ⟨emptyCC, compile64_default, ?_⟩
  intro G1 G2 _ _ env T srs bl
  have hlin : ∀ (β γ α ev : BlsFr) (bar : Bars BlsFr) (piE : BlsFr) (tc zx ax bx cx zwx : DP BlsFr) (d : Domain BlsFr),
      computeLinearisation β γ α ev bar piE tc zx ax bx cx zwx d emptyCC = none := by
    intro β γ α ev bar piE tc zx ax bx cx zwx d
    have h : linLine1 emptyCC bar = [] := by
      have h0 : ∀ x : BlsFr, smul ([] : DP BlsFr) x = [] := fun x => by simp [smul]
      have h1 : add ([] : DP BlsFr) [] = [] := by decide +kernel
      simp only [linLine1, emptyCC, h0, h1]
    unfold computeLinearisation
    rw [h]
    rfl
  have h5 : ∀ d r1 r2 r3 r4, round5 env emptyCC srs d r1 r2 r3 r4 = none := by
    intro d r1 r2 r3 r4
    unfold round5
    simp only [hlin, Option.bind_eq_bind, Option.bind_none, Option.bind_fun_none]
  unfold generateProof
  simp only [h5, Option.bind_eq_bind, Option.bind_fun_none]

/-- The hypotheses of `C119_compile_partial` and `C119_parsed_partial` are met by a text with two gates. -/
example (bd : Build) : (build exampleCalls).compile64 bd = some exCC ∧
    ∃ c : Circuit BlsFr, parse asciiTables (addWitness noWitness "x".toList 1) "x*x=1".toList = some c ∧
      c.compile64 bd = c.compile := by
  refine ⟨?_, ?_⟩
  · rw [C119_compile_partial bd (by show 32 ≤ 63; norm_num) _ (.inr (by rw [build_eq]; simp [exampleCalls])), exCC_compiled]
  · obtain ⟨c, hc⟩ := Option.isSome_iff_exists.1 (show (parse asciiTables
      (addWitness noWitness "x".toList (1 : BlsFr)) "x*x=1".toList).isSome = true by decide +kernel)
    exact ⟨c, hc, C119_parsed_partial bd (by show 32 ≤ 63; norm_num) _ _ _ _ hc⟩

end Verif.Plonk

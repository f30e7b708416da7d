import Verif.Plonk.Parser

/-!
# Model of the common preprocessed input (`plonk/src/common_preprocessed_input/`)

`CPIGenerator` re-parses the equation without witnesses and commits to the public part of the circuit.  Panics are
`none`; the `Result` of `compute_common_preprocessed_input` is always `Ok` when it is reached.
-/

set_option linter.unusedSectionVars false

namespace Verif.Plonk

open Verif.Ark Verif.Kzg

/-! ## `cpi_circuit.rs` -/

/-- `struct CPICircuit`, `cpi_circuit.rs` lines 11-15. -/
structure CPICircuit (F : Type) where
  /-- `gates` -/
  gates : List (Gate F)

/-- `CPICircuit::default` (derived), `cpi_circuit.rs` line 12. -/
def CPICircuit.default {F : Type} : CPICircuit F := ⟨[]⟩

section circuit
variable {F : Type} [Field F]

/-- `CPICircuit::add_addition_gate`, `cpi_circuit.rs` lines 32-46. -/
def CPICircuit.addAdditionGate (s : CPICircuit F) (a b c : ℕ × ℕ) (pi : F) : CPICircuit F :=
  ⟨s.gates ++ [Gate.newAdd (.pos a.1 a.2) (.pos b.1 b.2) (.pos c.1 c.2) (some pi)]⟩

/-- `CPICircuit::add_multiplication_gate`, `cpi_circuit.rs` lines 49-63. -/
def CPICircuit.addMultiplicationGate (s : CPICircuit F) (a b c : ℕ × ℕ) (pi : F) : CPICircuit F :=
  ⟨s.gates ++ [Gate.newMul (.pos a.1 a.2) (.pos b.1 b.2) (.pos c.1 c.2) (some pi)]⟩

/-- `CPICircuit::add_constant_gate`, `cpi_circuit.rs` lines 66-82. -/
def CPICircuit.addConstantGate (s : CPICircuit F) (a b c : ℕ × ℕ) (value pi : F) : CPICircuit F :=
  ⟨s.gates ++ [Gate.newConstant (.pos a.1 a.2) (.pos b.1 b.2) (.pos c.1 c.2) value (some pi)]⟩

/-- `CPICircuit::add_dummy_gate`, `cpi_circuit.rs` lines 85-87. -/
def CPICircuit.addDummyGate (s : CPICircuit F) : CPICircuit F := ⟨s.gates ++ [Gate.newDummy]⟩

/-- `for _ in len..new_len { self.add_dummy_gate(); }`, `cpi_circuit.rs` lines 177-179. -/
def CPICircuit.addDummies : ℕ → CPICircuit F → CPICircuit F
  | 0, s => s
  | k + 1, s => CPICircuit.addDummies k s.addDummyGate

/-- `CPICircuit::pad_circuit`, `cpi_circuit.rs` lines 172-181: panics on fewer than two gates. -/
def CPICircuit.pad (s : CPICircuit F) : Option (CPICircuit F) :=
  let len := s.gates.length
  if len < 2 then none
  else
    let exponent := Nat.log2 (len - 1) + 1
    let newLen := 2 ^ exponent
    some (CPICircuit.addDummies (newLen - len) s)

/-- `CPICircuit::get_assignment`, `cpi_circuit.rs` lines 90-111: the gates that are not dummies, whose selectors are
pushed into the six vectors. -/
def CPICircuit.getAssignment {F : Type} (s : CPICircuit F) : List (Gate F) := s.gates.filter fun g => !g.isDummy

/-- `map_element`, `cpi_circuit.rs` lines 142-158: every layer other than 0 and 1 is the second coset. -/
def cpiMapElement (roots coset1 coset2 : List F) : Position → Option F
  | .pos 0 j => roots[j]?
  | .pos 1 j => coset1[j]?
  | .pos _ j => coset2[j]?
  | .dummy => none

end circuit

section compile
variable {F : Type} [FftField F] [DecidableEq F]

/-- `CPICircuit::cal_permutation` and `find_cosets`, `cpi_circuit.rs` lines 114-169; the loop over the gates
(lines 137-163) is the text of `circuit.rs` lines 214-231. -/
def cpiCalPermutation (gates : List (Gate F)) : Option (CopyConstraints F) := do
  let d ← Domain.new? gates.length
  let roots := d.elements
  let r0 ← roots[0]?
  let k1 := r0 + 1
  let k2 := k1 + 1
  let coset1 := roots.map fun r => r * k1
  let coset2 := roots.map fun r => r * k2
  let s ← sigmaLoop (cpiMapElement roots coset1 coset2) gates 0 (roots, coset1, coset2)
  pure ⟨d.interpolate s.1, d.interpolate s.2.1, d.interpolate s.2.2, k1, k2⟩

/-- `CPICircuit::compile`, `cpi_circuit.rs` lines 184-212: the wire polynomials are `DensePolynomial::default()`. -/
def CPICircuit.compile (s : CPICircuit F) : Option (GateConstraints F × CopyConstraints F × ℕ) := do
  let s ← s.pad
  let d ← Domain.new? s.gates.length
  let rows := s.getAssignment
  let gc : GateConstraints F :=
    { fax := [], fbx := [], fcx := []
      qlx := d.interpolate (rows.map fun g => g.qL)
      qrx := d.interpolate (rows.map fun g => g.qR)
      qox := d.interpolate (rows.map fun g => g.qO)
      qmx := d.interpolate (rows.map fun g => g.qM)
      qcx := d.interpolate (rows.map fun g => g.qC)
      pix := d.interpolate (rows.map fun g => g.pi) }
  let cc ← cpiCalPermutation s.gates
  pure (gc, cc, s.gates.length)

end compile

/-! ## `cpi_parser.rs`: gates with named wires -/

/-- `struct ParserGate` (and `ParserWire`), `cpi_parser.rs` lines 22-57: wires are just their expressions. -/
structure CGate where
  /-- `left.value_string` -/
  left : List Char
  /-- `right.value_string` -/
  right : List Char
  /-- `bottom.value_string` -/
  bottom : List Char
  /-- `type_of_circuit` -/
  ty : GateType
  deriving DecidableEq

/-- `gate_list`, `gate_set`, `position_map`, `cpi_parser.rs` lines 131-134. -/
structure CState where
  /-- `gate_list` -/
  gates : List CGate
  /-- `gate_set` -/
  set : List CGate
  /-- `position_map` -/
  pm : PosMap

/-- Common end of the gate generators, `cpi_parser.rs` lines 177-203, 295-306, 329-339. -/
def CState.insertGate (st : CState) (g : CGate) : CState :=
  if g ∈ st.set then st
  else
    let n := st.gates.length
    { gates := st.gates ++ [g]
      set := g :: st.set
      pm := ((st.pm.push 0 n g.left).push 1 n g.right).push 2 n g.bottom }

/-- `generate_constant_gate`, `cpi_parser.rs` lines 311-340. -/
def cConstantGate (st : CState) (value : List Char) : CState :=
  st.insertGate ⟨value, ['0'], value ++ '+' :: ['0'], .constant⟩

/-- `check_constant`, `cpi_parser.rs` lines 343-353. -/
def checkConstant (st : CState) (value : List Char) : CState :=
  if (parseI32 value).isSome then cConstantGate st value else st

/-- `generate_additional_gate`, `cpi_parser.rs` lines 280-308. -/
def cAdditionalGate (st : CState) (left right : List Char) : List Char × CState :=
  (left ++ '+' :: right, st.insertGate ⟨left, right, left ++ '+' :: right, .addition⟩)

/-- The closure of the product `reduce`, `cpi_parser.rs` lines 165-204. -/
def cMultiplicationGate (st : CState) (left right : List Char) : List Char × CState :=
  (left ++ '*' :: right, st.insertGate ⟨left, right, left ++ '*' :: right, .multiplication⟩)

/-- The wires of one product, `cpi_parser.rs` lines 147-159. -/
def cTokens (U : Unicode) : List (List Char) → CState → List (List Char) × CState
  | [], st => ([], st)
  | s :: rest, st =>
    let q := cTokens U rest (checkConstant st (trim U s))
    (trim U s :: q.1, q.2)

/-- `reduce` of one product, `cpi_parser.rs` lines 163-205. -/
def cMulReduce : List Char → List (List Char) → CState → List Char × CState
  | w, [], st => (w, st)
  | w, v :: rest, st =>
    let r := cMultiplicationGate st w v
    cMulReduce r.1 rest r.2

/-- One summand, `cpi_parser.rs` lines 146-206. -/
def cTerm (U : Unicode) (term : List Char) (st : CState) : Option (List Char × CState) :=
  let r := cTokens U (term.splitOn '*') st
  match r.1 with
  | [] => none
  | w :: ws => some (cMulReduce w ws r.2)

/-- `reduce` over the remaining summands, `cpi_parser.rs` lines 207-218. -/
def cAddReduce (U : Unicode) : List (List Char) → List Char → CState → Option (List Char × CState)
  | [], w, st => some (w, st)
  | t :: ts, w, st => do
    let r ← cTerm U t st
    let q := cAdditionalGate r.2 w r.1
    cAddReduce U ts q.1 q.2

/-- `prepare_generation`, `cpi_parser.rs` lines 127-221; the splitting (lines 136-145) is the text of `parser.rs`
lines 103-112. -/
def prepareGeneration (U : Unicode) (string : List Char) : Option (List CGate × PosMap) := do
  let terms ← splitTerms string
  match terms with
  | [] => none
  | t :: ts =>
    let r ← cTerm U t ⟨[], [], fun _ => []⟩
    let q ← cAddReduce U ts r.1 r.2
    pure (q.2.gates, q.2.pm)

section gen
variable {F : Type} [Field F]

/-- Body of the loop of `gen_circuit`, `cpi_parser.rs` lines 238-275: the constant is read off the wire's expression,
`parse::<i32>().unwrap()`. -/
def cGenStep (circuit : CPICircuit F) (pm : PosMap) (g : CGate) : Option (CPICircuit F × PosMap) := do
  let l ← pm.pop g.left
  let r ← l.2.pop g.right
  let b ← r.2.pop g.bottom
  match g.ty with
  | .addition => pure (circuit.addAdditionGate l.1 r.1 b.1 0, b.2)
  | .multiplication => pure (circuit.addMultiplicationGate l.1 r.1 b.1 0, b.2)
  | .constant =>
    let k ← parseI32 g.left
    pure (circuit.addConstantGate l.1 r.1 b.1 (k : F) 0, b.2)

/-- The loop of `gen_circuit`. -/
def cGenLoop : List CGate → CPICircuit F → PosMap → Option (CPICircuit F)
  | [], c, _ => some c
  | g :: gs, c, pm => (cGenStep c pm g).bind fun r => cGenLoop gs r.1 r.2

/-- `CPIGenerator::gen_circuit`, `cpi_parser.rs` lines 224-278. -/
def cGenCircuit (gates : List CGate) (pm : PosMap) : Option (CPICircuit F) :=
  cGenLoop gates CPICircuit.default (fun key => reverseRotate (pm key))

end gen

/-- `struct CommonPreprocessedInput`, `cpi_parser.rs` lines 60-73. -/
structure CommonPreprocessedInput (F G1 : Type) where
  /-- `n` -/
  n : ℕ
  /-- `k1` -/
  k1 : F
  /-- `k2` -/
  k2 : F
  /-- `com_q_lx` -/
  comQl : G1
  /-- `com_q_rx` -/
  comQr : G1
  /-- `com_q_mx` -/
  comQm : G1
  /-- `com_q_ox` -/
  comQo : G1
  /-- `com_q_cx` -/
  comQc : G1
  /-- `com_s_sigma_1` -/
  comS1 : G1
  /-- `com_s_sigma_2` -/
  comS2 : G1
  /-- `com_s_sigma_3` -/
  comS3 : G1
  /-- `pi_x` -/
  pix : DP F

section cpi
variable {F : Type} [FftField F] [DecidableEq F] {G1 G2 : Type} [AddCommGroup G1] [Module F G1]

/-- `CommonPreprocessedInput::new`, `cpi_parser.rs` lines 76-107 (`none` when `scheme.commit` panics). -/
def CommonPreprocessedInput.new (cc : GateConstraints F × CopyConstraints F × ℕ) (srs : Srs G1 G2) :
    Option (CommonPreprocessedInput F G1) := do
  let qm ← Kzg.commit srs cc.1.qmx
  let ql ← Kzg.commit srs cc.1.qlx
  let qr ← Kzg.commit srs cc.1.qrx
  let qo ← Kzg.commit srs cc.1.qox
  let qc ← Kzg.commit srs cc.1.qcx
  let s1 ← Kzg.commit srs cc.2.1.s1
  let s2 ← Kzg.commit srs cc.2.1.s2
  let s3 ← Kzg.commit srs cc.2.1.s3
  pure { n := cc.2.2, k1 := cc.2.1.k1, k2 := cc.2.1.k2, comQl := ql, comQr := qr, comQm := qm, comQo := qo,
         comQc := qc, comS1 := s1, comS2 := s2, comS3 := s3, pix := cc.1.pix }

/-- The circuit `CPIGenerator` builds and compiles: `cpi_parser.rs` lines 120-123; `normalize` (lines 379-420) is the
text of `Parser::parse_string`. -/
def cpiCompiled (U : Unicode) (input : List Char) : Option (GateConstraints F × CopyConstraints F × ℕ) := do
  let s ← parseString U input
  let r ← prepareGeneration U s
  let circuit ← cGenCircuit (F := F) r.1 r.2
  circuit.compile

/-- `CPIGenerator::compute_common_preprocessed_input`, `cpi_parser.rs` lines 115-124. -/
def computeCommonPreprocessedInput (U : Unicode) (input : List Char) (srs : Srs G1 G2) :
    Option (CommonPreprocessedInput F G1) := do
  let cc ← cpiCompiled (F := F) U input
  CommonPreprocessedInput.new cc srs

end cpi

end Verif.Plonk

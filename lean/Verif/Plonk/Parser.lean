import Verif.Plonk.Circuit

/-!
# Model of the equation parser (`plonk/src/parser.rs`)

Strings are lists of characters.  The three Unicode tables the code consults (`str::to_lowercase`,
`char::is_numeric`, `char::is_whitespace` inside `str::trim`) are parameters.  Panics are `none`.
-/

set_option linter.unusedSectionVars false

namespace Verif.Plonk

open Verif.Ark

/-- The Unicode functions of the Rust standard library used by the parser (`plonk/src/parser.rs` lines
118, 374, 385). -/
structure Unicode where
  /-- `str::to_lowercase` -/
  lower : List Char → List Char
  /-- `char::is_numeric` -/
  isNumeric : Char → Bool
  /-- `char::is_whitespace` -/
  isWhitespace : Char → Bool

/-- `'0'..='9'` -/
def isAsciiDigit (c : Char) : Bool := '0'.toNat ≤ c.toNat && c.toNat ≤ '9'.toNat

/-- The digits of a number after its sign: at least one ASCII digit, nothing else, value within 32 bits. -/
def parseDigits (neg : Bool) (ds : List Char) : Option ℤ :=
  if ds ≠ [] ∧ ds.all isAsciiDigit then
    let v : ℤ := if neg then -(Nat.ofDigitChars 10 ds 0 : ℤ) else (Nat.ofDigitChars 10 ds 0 : ℤ)
    if -2 ^ 31 ≤ v ∧ v < 2 ^ 31 then some v else none
  else none

/-- `str::parse::<i32>()` (`plonk/src/parser.rs` lines 327, 388, 409): an optional sign, at least one ASCII
digit, nothing else, and the value must fit in 32 bits.  `none` is `Err`. -/
def parseI32 : List Char → Option ℤ
  | '-' :: ds => parseDigits true ds
  | '+' :: ds => parseDigits false ds
  | ds => parseDigits false ds

/-- `i32::to_string` (`plonk/src/parser.rs` lines 330, 334). -/
def showInt (c : ℤ) : List Char :=
  if c < 0 then '-' :: Nat.toDigits 10 c.natAbs else Nat.toDigits 10 c.natAbs

/-- `str::trim` (`plonk/src/parser.rs` line 118). -/
def trim (U : Unicode) (s : List Char) : List Char :=
  ((s.dropWhile U.isWhitespace).reverse.dropWhile U.isWhitespace).reverse

/-! ## `parse_string` -/

/-- Local variables of `parse_string`, `plonk/src/parser.rs` lines 375-378. -/
structure NormState where
  /-- `result` -/
  result : List Char
  /-- `last_char` -/
  last : Char
  /-- `number_buffer` -/
  buf : List Char
  /-- `flag` -/
  flag : Bool

/-- `for _ in 0..k { result.push('*'); result.push(last_char); }`, `plonk/src/parser.rs` lines 388-391 and
409-412. -/
def starCopies (last : Char) (k : ℕ) : List Char := (List.replicate k ['*', last]).flatten

/-- Body of the loop of `parse_string`, `plonk/src/parser.rs` lines 379-407 (and of `CPIGenerator::normalize`,
`plonk/src/common_preprocessed_input/cpi_parser.rs` lines 384-412, the same text).  A buffer without sign
cannot parse to a negative number, so `- 1` does not overflow; the range is empty when the bound is not
positive. -/
def normStep (U : Unicode) (s : NormState) (ch : Char) : Option NormState :=
  if ch = ' ' then some s
  else if ch = '^' then some { s with flag := true }
  else if !U.isNumeric ch then
    if s.flag then
      if s.buf = [] then none
      else (parseI32 s.buf).map fun n =>
        { result := s.result ++ starCopies s.last (n - 1).toNat ++ [ch], last := ch, buf := [], flag := false }
    else some { result := s.result ++ [ch], last := ch, buf := [], flag := s.flag }
  else
    if s.flag then some { s with buf := s.buf ++ [ch] }
    else some { s with buf := s.buf ++ [ch], last := ch, result := s.result ++ [ch] }

/-- The loop of `parse_string`. -/
def normLoop (U : Unicode) : List Char → NormState → Option NormState
  | [], s => some s
  | ch :: rest, s => (normStep U s ch).bind (normLoop U rest)

/-- The code after the loop, `plonk/src/parser.rs` lines 408-414. -/
def normFinish (s : NormState) : Option (List Char) :=
  if s.flag ∧ s.buf ≠ [] then
    (parseI32 s.buf).map fun n => s.result ++ starCopies s.last (n - 1).toNat
  else some s.result

/-- `Parser::parse_string`, `plonk/src/parser.rs` lines 373-415; `CPIGenerator::normalize`,
`plonk/src/common_preprocessed_input/cpi_parser.rs` lines 378-420, is the same text. -/
def parseString (U : Unicode) (s : List Char) : Option (List Char) :=
  (normLoop U (U.lower s) ⟨[], ' ', [], false⟩).bind normFinish

/-! ## Gates with named wires -/

/-- `struct Wire`, `plonk/src/parser.rs` lines 47-50. -/
structure Wire (F : Type) where
  /-- `value_string` -/
  name : List Char
  /-- `value_fr` -/
  val : F
  deriving DecidableEq

deriving instance DecidableEq for GateType

/-- `struct Gate` of the parser, `plonk/src/parser.rs` lines 19-28; its `TypeOfCircuit` (lines 12-16) has the
same three constructors as `GateType`. -/
structure PGate (F : Type) where
  /-- `left` -/
  left : Wire F
  /-- `right` -/
  right : Wire F
  /-- `bottom` -/
  bottom : Wire F
  /-- `type_of_circuit` -/
  ty : GateType
  deriving DecidableEq

/-- `HashMap<String, Vec<(usize, usize)>>`; a missing key is the empty vector: no stored vector is ever empty,
and both a missing key and an empty vector make `gen_circuit` panic. -/
abbrev PosMap := List Char → List (ℕ × ℕ)

/-- `push_into_position_map_or_insert`, `plonk/src/parser.rs` lines 350-365
(`cpi_parser.rs` lines 355-370). -/
def PosMap.push (pm : PosMap) (wire gate : ℕ) (key : List Char) : PosMap :=
  Function.update pm key (pm key ++ [(wire, gate)])

/-- The three collections `gate_list`, `gate_set`, `position_map`, `plonk/src/parser.rs` lines 97-101. -/
structure PState (F : Type) where
  /-- `gate_list` -/
  gates : List (PGate F)
  /-- `gate_set` -/
  set : List (PGate F)
  /-- `position_map` -/
  pm : PosMap

section parser
variable {F : Type} [Field F] [DecidableEq F]

/-- Common end of the three gate generators: skip if the gate is already in the set, otherwise push the gate
and its three positions (`plonk/src/parser.rs` lines 146-169, 264-272, 295-303). -/
def PState.insertGate (st : PState F) (g : PGate F) : PState F :=
  if g ∈ st.set then st
  else
    let n := st.gates.length
    { gates := st.gates ++ [g]
      set := g :: st.set
      pm := ((st.pm.push 0 n g.left.name).push 1 n g.right.name).push 2 n g.bottom.name }

/-- `generate_constant_gate`, `plonk/src/parser.rs` lines 280-305 (the result is not used by the caller). -/
def generateConstantGate (st : PState F) (value : Wire F) : PState F :=
  let right : Wire F := ⟨['0'], 0⟩
  let result : Wire F := ⟨value.name ++ '+' :: ['0'], value.val + 0⟩
  st.insertGate ⟨value, right, result, .constant⟩

/-- `generate_additional_gate`, `plonk/src/parser.rs` lines 249-274. -/
def generateAdditionalGate (st : PState F) (left right : Wire F) : Wire F × PState F :=
  let result : Wire F := ⟨left.name ++ '+' :: right.name, left.val + right.val⟩
  (result, st.insertGate ⟨left, right, result, .addition⟩)

/-- The closure of the product `reduce`, `plonk/src/parser.rs` lines 138-171. -/
def generateMultiplicationGate (st : PState F) (left right : Wire F) : Wire F × PState F :=
  let result : Wire F := ⟨left.name ++ '*' :: right.name, left.val * right.val⟩
  (result, st.insertGate ⟨left, right, result, .multiplication⟩)

/-- `get_witness_value`, `plonk/src/parser.rs` lines 309-347.  `&value[..1]` panics on the empty string and
when the first character takes more than one byte. -/
def getWitnessValue (wit : List Char → Option F) (value : List Char) (st : PState F) : Option (F × PState F) :=
  match value with
  | [] => none
  | c :: rest =>
    if 128 ≤ c.toNat then none
    else
      let neg : Bool := c = '-'
      let body := if neg then rest else value
      match wit body with
      | some v => some (if neg then -v else v, st)
      | none =>
        (parseI32 body).map fun k =>
          let wire : Wire F := if neg then ⟨'-' :: showInt k, -(k : F)⟩ else ⟨showInt k, (k : F)⟩
          (if neg then -(k : F) else (k : F), generateConstantGate st wire)

/-- The wires of one product, left to right: lines 116-131 of `plonk/src/parser.rs`. -/
def tokenWires (U : Unicode) (wit : List Char → Option F) :
    List (List Char) → PState F → Option (List (Wire F) × PState F)
  | [], st => some ([], st)
  | s :: rest, st => do
    let s := trim U s
    let r ← getWitnessValue wit s st
    let q ← tokenWires U wit rest r.2
    pure (⟨s, r.1⟩ :: q.1, q.2)

/-- `reduce` of the wires of one product, lines 136-172 of `plonk/src/parser.rs`. -/
def mulReduce : Wire F → List (Wire F) → PState F → Wire F × PState F
  | w, [], st => (w, st)
  | w, v :: rest, st =>
    let r := generateMultiplicationGate st w v
    mulReduce r.1 rest r.2

/-- One summand: split at `*`, make the wires, multiply them (lines 115-173 of `plonk/src/parser.rs`). -/
def termWire (U : Unicode) (wit : List Char → Option F) (term : List Char) (st : PState F) :
    Option (Wire F × PState F) := do
  let r ← tokenWires U wit (term.splitOn '*') st
  match r.1 with
  | [] => none
  | w :: ws => pure (mulReduce w ws r.2)

/-- `reduce` over the remaining summands, lines 174-185 of `plonk/src/parser.rs`.  The iterator is lazy: a
summand is produced right before it is added. -/
def addReduce (U : Unicode) (wit : List Char → Option F) :
    List (List Char) → Wire F → PState F → Option (Wire F × PState F)
  | [], w, st => some (w, st)
  | t :: ts, w, st => do
    let r ← termWire U wit t st
    let q := generateAdditionalGate r.2 w r.1
    addReduce U wit ts q.1 q.2

/-- `gate_list.last_mut().unwrap().change_result(Fr::from(0))`, lines 187-191 of `plonk/src/parser.rs`. -/
def zeroLast (gates : List (PGate F)) : Option (List (PGate F)) :=
  match gates.getLast? with
  | none => none
  | some g => some (gates.dropLast ++ [{ g with bottom := { g.bottom with val := 0 } }])

/-- The list of summands, lines 103-112 of `plonk/src/parser.rs`: `none` unless there is exactly one `=`. -/
def splitTerms (string : List Char) : Option (List (List Char)) :=
  match string.splitOn '=' with
  | [lhs, rhs] => some (lhs.splitOn '+' ++ ['-' :: rhs])
  | _ => none

/-- `prepare_gen_circuit`, `plonk/src/parser.rs` lines 93-194. -/
def prepareGenCircuit (U : Unicode) (wit : List Char → Option F) (string : List Char) :
    Option (List (PGate F) × PosMap) := do
  let terms ← splitTerms string
  match terms with
  | [] => none
  | t :: ts =>
    let r ← termWire U wit t ⟨[], [], fun _ => []⟩
    let q ← addReduce U wit ts r.1 r.2
    let gates ← zeroLast q.2.gates
    pure (gates, q.2.pm)

/-! ## `gen_circuit` -/

/-- `vec.reverse(); vec.rotate_right(1);`, lines 205-206 of `plonk/src/parser.rs`. -/
def reverseRotate {α : Type} (l : List α) : List α :=
  match l.reverse.getLast? with
  | none => []
  | some x => x :: l.reverse.dropLast

/-- `position_map.get_mut(key).unwrap().pop().unwrap()`, lines 213-217 of `plonk/src/parser.rs`. -/
def PosMap.pop (pm : PosMap) (key : List Char) : Option ((ℕ × ℕ) × PosMap) :=
  match (pm key).getLast? with
  | none => none
  | some p => some (p, Function.update pm key (pm key).dropLast)

/-- Body of the loop of `gen_circuit`, lines 210-244 of `plonk/src/parser.rs`. -/
def genStep (circuit : Circuit F) (pm : PosMap) (g : PGate F) : Option (Circuit F × PosMap) := do
  let l ← pm.pop g.left.name
  let r ← l.2.pop g.right.name
  let b ← r.2.pop g.bottom.name
  let left := (l.1.1, l.1.2, g.left.val)
  let right := (r.1.1, r.1.2, g.right.val)
  let bottom := (b.1.1, b.1.2, g.bottom.val)
  match g.ty with
  | .addition => pure (circuit.addAdditionGate left right bottom 0, b.2)
  | .multiplication => pure (circuit.addMultiplicationGate left right bottom 0, b.2)
  | .constant => pure (circuit.addConstantGate left right bottom 0, b.2)

/-- The loop of `gen_circuit`. -/
def genLoop : List (PGate F) → Circuit F → PosMap → Option (Circuit F)
  | [], c, _ => some c
  | g :: gs, c, pm => (genStep c pm g).bind fun r => genLoop gs r.1 r.2

/-- `gen_circuit`, `plonk/src/parser.rs` lines 197-246. -/
def genCircuit (gates : List (PGate F)) (pm : PosMap) : Option (Circuit F) :=
  genLoop gates Circuit.default (fun key => reverseRotate (pm key))

/-- `Parser::parse`, `plonk/src/parser.rs` lines 85-90.  The witnesses (lines 66, 81-83) are the lookup
function of the hash map. -/
def parse (U : Unicode) (wit : List Char → Option F) (input : List Char) : Option (Circuit F) := do
  let s ← parseString U input
  let r ← prepareGenCircuit U wit s
  genCircuit r.1 r.2

end parser

/-- `Parser::add_witness`, `plonk/src/parser.rs` lines 81-83. -/
def addWitness {F : Type} (wit : List Char → Option F) (name : List Char) (value : F) :
    List Char → Option F := Function.update wit name (some value)

/-- `Parser::default` (derived), `plonk/src/parser.rs` lines 64-67. -/
def noWitness {F : Type} : List Char → Option F := fun _ => none

/-! ## An executable instance for examples -/

/-- The ASCII part of the Unicode tables. -/
def asciiTables : Unicode where
  lower s := s.map Char.toLower
  isNumeric := isAsciiDigit
  isWhitespace c := c = ' ' || c = '\t' || c = '\n' || c = '\r'

end Verif.Plonk

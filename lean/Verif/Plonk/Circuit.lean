import Verif.Plonk.Model
import Verif.Ark.Fields

/-!
# C43–C46: gates, padding, compiled polynomials, permutation polynomials
-/

set_option linter.unusedSectionVars false
set_option linter.unusedSimpArgs false
set_option linter.unusedVariables false

namespace Verif.Plonk

open Verif.Ark Verif.Kzg Polynomial

/-! ## Specification vocabulary -/

/-- The gate equation that the selectors of `g` impose on wire values `a b c`. -/
def Gate.Holds {F : Type} [Field F] (g : Gate F) (a b c : F) : Prop :=
  g.qL * a + g.qR * b + g.qM * (a * b) + g.qO * c + g.qC + g.pi = 0

/-- A call of one of the three public functions `add_addition_gate`, `add_multiplication_gate`,
`add_constant_gate`. -/
structure GateCall (F : Type) where
  /-- which function -/
  ty : GateType
  /-- first argument: position the left wire is copied to, and its value -/
  a : ℕ × ℕ × F
  /-- second argument -/
  b : ℕ × ℕ × F
  /-- third argument -/
  c : ℕ × ℕ × F
  /-- public input -/
  pi : F

section spec
variable {F : Type} [Field F]

/-- Perform one call. -/
def GateCall.apply (c : Circuit F) (call : GateCall F) : Circuit F :=
  match call.ty with
  | .addition => c.addAdditionGate call.a call.b call.c call.pi
  | .multiplication => c.addMultiplicationGate call.a call.b call.c call.pi
  | .constant => c.addConstantGate call.a call.b call.c call.pi

/-- The circuit after a sequence of calls on `Circuit::default()`. -/
def build (calls : List (GateCall F)) : Circuit F := calls.foldl GateCall.apply .default

/-- The relation requested by a call: `a+b-c = pi`, `ab-c = pi`, or `a - const = pi`, where the constant
is the value passed for the left wire. -/
def GateCall.Relation (call : GateCall F) (a b c : F) : Prop :=
  match call.ty with
  | .addition => a + b - c = call.pi
  | .multiplication => a * b - c = call.pi
  | .constant => a - call.a.2.2 = call.pi

/-- The gate pushed by a call. -/
def GateCall.gate (call : GateCall F) : Gate F :=
  match call.ty with
  | .addition => Gate.newAdd (.pos call.a.1 call.a.2.1) (.pos call.b.1 call.b.2.1)
      (.pos call.c.1 call.c.2.1) (some call.pi)
  | .multiplication => Gate.newMul (.pos call.a.1 call.a.2.1) (.pos call.b.1 call.b.2.1)
      (.pos call.c.1 call.c.2.1) (some call.pi)
  | .constant => Gate.newConstant (.pos call.a.1 call.a.2.1) (.pos call.b.1 call.b.2.1)
      (.pos call.c.1 call.c.2.1) call.a.2.2 (some call.pi)

end spec

/-! ## C43 -/

section C43
variable {F : Type} [Field F]

/-- **C43** addition gate. -/
theorem C43_add_gate (pa pb pc : Position) (pi a b c : F) :
    (Gate.newAdd pa pb pc (some pi)).Holds a b c ↔ a + b - c = pi := by
  simp only [Gate.Holds, Gate.newAdd, Option.getD_some]
  constructor
  · intro h; linear_combination h
  · intro h; linear_combination h

/-- **C43** multiplication gate. -/
theorem C43_mul_gate (pa pb pc : Position) (pi a b c : F) :
    (Gate.newMul pa pb pc (some pi)).Holds a b c ↔ a * b - c = pi := by
  simp only [Gate.Holds, Gate.newMul, Option.getD_some]
  constructor
  · intro h; linear_combination h
  · intro h; linear_combination h

/-- **C43** constant gate. -/
theorem C43_constant_gate (pa pb pc : Position) (k pi a b c : F) :
    (Gate.newConstant pa pb pc k (some pi)).Holds a b c ↔ a - k = pi := by
  simp only [Gate.Holds, Gate.newConstant, Option.getD_some]
  constructor
  · intro h; linear_combination h
  · intro h; linear_combination h

/-- **C43** without public input. -/
theorem C43_no_public_input (pa pb pc : Position) (k a b c : F) :
    ((Gate.newAdd pa pb pc none).Holds a b c ↔ a + b = c) ∧
    ((Gate.newMul pa pb pc none).Holds a b c ↔ a * b = c) ∧
    ((Gate.newConstant pa pb pc k none).Holds a b c ↔ a = k) := by
  simp only [Gate.Holds, Gate.newAdd, Gate.newMul, Gate.newConstant, Option.getD_none]
  refine ⟨⟨fun h => ?_, fun h => ?_⟩, ⟨fun h => ?_, fun h => ?_⟩, ⟨fun h => ?_, fun h => ?_⟩⟩ <;>
    linear_combination h

/-- **C43** dummy gate. -/
theorem C43_dummy_gate (a b c : F) : (Gate.newDummy : Gate F).Holds a b c := by
  simp [Gate.Holds, Gate.newDummy]

/-- **C43** the gate pushed by a call imposes exactly the relation requested by the call. -/
theorem C43_call_gate (call : GateCall F) (a b c : F) :
    call.gate.Holds a b c ↔ call.Relation a b c := by
  unfold GateCall.gate GateCall.Relation
  cases call.ty with
  | addition => exact C43_add_gate ..
  | multiplication => exact C43_mul_gate ..
  | constant => exact C43_constant_gate ..

end C43

example : (Gate.newMul (.pos 0 0) (.pos 1 0) (.pos 2 0) (some (1 : ℚ))).Holds 2 3 5 :=
  (C43_mul_gate ..).2 (by norm_num)

/-! ## The circuit built by a sequence of calls -/

section build
variable {F : Type} [Field F]

theorem apply_gates (c : Circuit F) (call : GateCall F) :
    call.apply c = ⟨c.gates ++ [call.gate], c.va ++ [call.a.2.2], c.vb ++ [call.b.2.2],
      c.vc ++ [call.c.2.2]⟩ := by
  unfold GateCall.apply GateCall.gate
  cases call.ty <;> rfl

theorem foldl_apply (calls : List (GateCall F)) (c : Circuit F) :
    calls.foldl GateCall.apply c =
      ⟨c.gates ++ calls.map GateCall.gate, c.va ++ calls.map fun k => k.a.2.2,
        c.vb ++ calls.map fun k => k.b.2.2, c.vc ++ calls.map fun k => k.c.2.2⟩ := by
  induction calls generalizing c with
  | nil => simp
  | cons call calls ih =>
    rw [List.foldl_cons, ih, apply_gates]
    simp

theorem build_eq (calls : List (GateCall F)) :
    build calls = ⟨calls.map GateCall.gate, calls.map fun k => k.a.2.2,
        calls.map fun k => k.b.2.2, calls.map fun k => k.c.2.2⟩ := by
  rw [build, foldl_apply]; simp [Circuit.default]

theorem gate_not_dummy (call : GateCall F) : call.gate.isDummy = false := by
  unfold GateCall.gate
  cases call.ty <;> simp [Gate.newAdd, Gate.newMul, Gate.newConstant, Gate.isDummy]

theorem gate_pos (call : GateCall F) : call.gate.aPos = .pos call.a.1 call.a.2.1 ∧
    call.gate.bPos = .pos call.b.1 call.b.2.1 ∧ call.gate.cPos = .pos call.c.1 call.c.2.1 := by
  unfold GateCall.gate
  cases call.ty <;> simp [Gate.newAdd, Gate.newMul, Gate.newConstant]

theorem dummy_isDummy : (Gate.newDummy : Gate F).isDummy = true := by
  simp [Gate.newDummy, Gate.isDummy]

theorem addDummies_eq (k : ℕ) (c : Circuit F) :
    Circuit.addDummies k c = { c with gates := c.gates ++ List.replicate k Gate.newDummy } := by
  induction k generalizing c with
  | zero => simp [Circuit.addDummies]
  | succ k ih =>
    rw [Circuit.addDummies, ih]
    simp [Circuit.addDummyGate, List.replicate_succ]

/-- The padded length. -/
theorem pad_length {n : ℕ} (hn : 2 ≤ n) : 2 ^ (Nat.log2 (n - 1) + 1) = nextPow2 n := by
  unfold nextPow2
  congr 1
  have h1 : 2 ^ Nat.log2 (n - 1) ≤ n - 1 := Nat.log2_self_le (by omega)
  have h2 : n - 1 < 2 ^ (Nat.log2 (n - 1) + 1) := Nat.lt_log2_self
  have h3 : Nat.clog 2 n ≤ Nat.log2 (n - 1) + 1 := Nat.clog_le_of_le_pow (by omega)
  have h4 : Nat.log2 (n - 1) < Nat.clog 2 n := (Nat.lt_clog_iff_pow_lt (by norm_num)).2 (by omega)
  omega

/-- **C44** (pad_circuit): fewer than two gates panic; otherwise only dummy gates are appended and the
new number of gates is a power of two, at least the old one and less than its double. -/
theorem C44_pad (c : Circuit F) :
    (c.gates.length < 2 → c.pad = none) ∧
    (2 ≤ c.gates.length → ∃ k e, c.pad = some { c with gates := c.gates ++ List.replicate k Gate.newDummy } ∧
      c.gates.length + k = 2 ^ e ∧ c.gates.length ≤ 2 ^ e ∧ 2 ^ e < 2 * c.gates.length) := by
  constructor
  · intro h; simp [Circuit.pad, h]
  · intro h
    have h1 : 2 ^ Nat.log2 (c.gates.length - 1) ≤ c.gates.length - 1 := Nat.log2_self_le (by omega)
    have h2 : c.gates.length - 1 < 2 ^ (Nat.log2 (c.gates.length - 1) + 1) := Nat.lt_log2_self
    refine ⟨2 ^ (Nat.log2 (c.gates.length - 1) + 1) - c.gates.length, Nat.log2 (c.gates.length - 1) + 1,
      ?_, by omega, by omega, ?_⟩
    · simp only [Circuit.pad]
      rw [if_neg (by omega), addDummies_eq]
    · rw [pow_succ]; omega

theorem pad_build (calls : List (GateCall F)) :
    (build calls).pad = if calls.length < 2 then none else
      some ⟨calls.map GateCall.gate ++ List.replicate (nextPow2 calls.length - calls.length) Gate.newDummy,
        calls.map fun k => k.a.2.2, calls.map fun k => k.b.2.2, calls.map fun k => k.c.2.2⟩ := by
  rw [build_eq]
  simp only [Circuit.pad, List.length_map]
  split
  · rfl
  · next h => rw [addDummies_eq, pad_length (by omega)]

/-- rows of a call -/
def GateCall.row (call : GateCall F) : Row F := ⟨call.a.2.2, call.b.2.2, call.c.2.2, call.gate⟩

theorem assignmentLoop_dummies (c : Circuit F) (k i : ℕ) :
    c.assignmentLoop (List.replicate k Gate.newDummy) i = some [] := by
  induction k generalizing i with
  | zero => rfl
  | succ k ih => rw [List.replicate_succ, Circuit.assignmentLoop, if_pos dummy_isDummy, ih]

theorem assignmentLoop_calls (c : Circuit F) (pre calls : List (GateCall F)) (k : ℕ)
    (ha : c.va = (pre ++ calls).map fun k => k.a.2.2) (hb : c.vb = (pre ++ calls).map fun k => k.b.2.2)
    (hc : c.vc = (pre ++ calls).map fun k => k.c.2.2) :
    c.assignmentLoop (calls.map GateCall.gate ++ List.replicate k Gate.newDummy) pre.length =
      some (calls.map GateCall.row) := by
  induction calls generalizing pre with
  | nil => simpa using assignmentLoop_dummies c k pre.length
  | cons call calls ih =>
    have := ih (pre ++ [call]) (by simpa using ha) (by simpa using hb) (by simpa using hc)
    rw [List.map_cons, List.cons_append, Circuit.assignmentLoop, if_neg (by simp [gate_not_dummy])]
    rw [List.length_append, List.length_singleton] at this
    rw [this, ha, hb, hc]
    simp [GateCall.row]

end build

section compile
variable {F : Type} [FftField F] [DecidableEq F]

/-- A position is valid in a circuit of `n` rows. -/
def ValidPos (n : ℕ) (p : ℕ × ℕ × F) : Prop := p.1 < 3 ∧ p.2.1 < n

instance (n : ℕ) (p : ℕ × ℕ × F) : Decidable (ValidPos n p) := by unfold ValidPos; infer_instance

/-- The label of position `(layer, index)`: `w^index`, `2 w^index`, `3 w^index` for layers 0, 1, 2. -/
def label (w : F) (layer index : ℕ) : F := ((layer : F) + 1) * w ^ index

theorem mapElement_eq (d : Domain F) (layer index : ℕ) :
    mapElement d.elements (d.elements.map fun r => r * (1 + 1)) (d.elements.map fun r => r * (1 + 1 + 1))
      (.pos layer index) = if layer < 3 ∧ index < d.size then some (label d.gen layer index) else none := by
  rcases layer with _ | _ | _ | layer
  · simp only [mapElement, label, Domain.elements, List.getElem?_map]
    by_cases h : index < d.size
    · simp [List.getElem?_range, h, Domain.element]
    · simp [List.getElem?_eq_none, h]
  · simp only [mapElement, label, Domain.elements, List.getElem?_map]
    by_cases h : index < d.size
    · simp [List.getElem?_range, h, Domain.element, mul_comm]
    · simp [List.getElem?_eq_none, h]
  · simp only [mapElement, label, Domain.elements, List.getElem?_map]
    by_cases h : index < d.size
    · simp [List.getElem?_range, h, Domain.element, mul_comm]
      left; norm_num
    · simp [List.getElem?_eq_none, h]
  · simp [mapElement]

theorem sigmaLoop_dummies (elem : Position → Option F) (k i : ℕ) (s : List F × List F × List F) :
    sigmaLoop elem (List.replicate k Gate.newDummy) i s = some s := by
  induction k generalizing i with
  | zero => rfl
  | succ k ih => rw [List.replicate_succ, sigmaLoop, if_pos dummy_isDummy, ih]

/-- All positions used by the calls are valid for `n` rows. -/
def AllValid (n : ℕ) (calls : List (GateCall F)) : Prop :=
  ∀ call ∈ calls, ValidPos n call.a ∧ ValidPos n call.b ∧ ValidPos n call.c

/-- overwrite the entries from index `i` on -/
def overwrite (l : List F) (i : ℕ) (v : List F) : List F := l.take i ++ v ++ l.drop (i + v.length)

theorem overwrite_nil (l : List F) (i : ℕ) : overwrite l i [] = l := by simp [overwrite]

theorem overwrite_set (l : List F) (i : ℕ) (x : F) (v : List F) (h : i < l.length) :
    overwrite (l.set i x) (i + 1) v = overwrite l i (x :: v) := by
  unfold overwrite
  have h1 : (l.set i x).take (i + 1) = l.take i ++ [x] := by
    rw [List.take_add_one, List.take_set_of_le (le_refl i), List.getElem?_set_self h]; rfl
  have h2 : (l.set i x).drop (i + 1 + v.length) = l.drop (i + (v.length + 1)) := by
    rw [List.drop_set_of_lt (by omega)]; congr 1; omega
  rw [h1, h2]; simp

theorem getD_overwrite (l : List F) (v : List F) (h : v.length ≤ l.length) (j : ℕ) :
    (overwrite l 0 v).getD j 0 = if j < v.length then v.getD j 0 else l.getD j 0 := by
  unfold overwrite
  simp only [List.take_zero, List.nil_append, Nat.zero_add, List.getD_eq_getElem?_getD]
  split
  · next h => rw [List.getElem?_append_left h]
  · next h =>
    rw [List.getElem?_append_right (by omega), List.getElem?_drop]
    congr 2; omega

theorem sigmaLoop_calls (d : Domain F) (calls : List (GateCall F)) (k i : ℕ)
    (s : List F × List F × List F) (h1 : i + calls.length ≤ s.1.length)
    (h2 : i + calls.length ≤ s.2.1.length) (h3 : i + calls.length ≤ s.2.2.length) :
    (¬ AllValid d.size calls → sigmaLoop (mapElement d.elements (d.elements.map fun r => r * (1 + 1))
        (d.elements.map fun r => r * (1 + 1 + 1)))
        (calls.map GateCall.gate ++ List.replicate k Gate.newDummy) i s = none) ∧
    (AllValid d.size calls → sigmaLoop (mapElement d.elements (d.elements.map fun r => r * (1 + 1))
        (d.elements.map fun r => r * (1 + 1 + 1)))
        (calls.map GateCall.gate ++ List.replicate k Gate.newDummy) i s =
      some (overwrite s.1 i (calls.map fun c => label d.gen c.a.1 c.a.2.1),
        overwrite s.2.1 i (calls.map fun c => label d.gen c.b.1 c.b.2.1),
        overwrite s.2.2 i (calls.map fun c => label d.gen c.c.1 c.c.2.1))) := by
  induction calls generalizing i s with
  | nil =>
    refine ⟨fun h => absurd (by intro c hc; simp at hc) h, fun _ => ?_⟩
    simpa [overwrite_nil] using sigmaLoop_dummies _ k i s
  | cons call calls ih =>
    simp only [List.length_cons] at h1 h2 h3
    rw [List.map_cons, List.cons_append, sigmaLoop, if_neg (by simp [gate_not_dummy])]
    obtain ⟨ga, gb, gc⟩ := gate_pos call
    rw [ga, gb, gc, mapElement_eq, mapElement_eq, mapElement_eq]
    by_cases hA : ValidPos d.size call.a
    swap
    · refine ⟨fun _ => ?_, fun h => absurd (h call (by simp)).1 hA⟩
      unfold ValidPos at hA
      rw [if_neg hA]; rfl
    by_cases hB : ValidPos d.size call.b
    swap
    · refine ⟨fun _ => ?_, fun h => absurd (h call (by simp)).2.1 hB⟩
      unfold ValidPos at hA hB
      rw [if_pos hA, if_neg hB]; rfl
    by_cases hC : ValidPos d.size call.c
    swap
    · refine ⟨fun _ => ?_, fun h => absurd (h call (by simp)).2.2 hC⟩
      unfold ValidPos at hA hB hC
      rw [if_pos hA, if_pos hB, if_neg hC]; rfl
    have hiff : AllValid d.size (call :: calls) ↔ AllValid d.size calls := by
      constructor
      · intro h c hc; exact h c (by simp [hc])
      · intro h c hc
        rcases List.mem_cons.1 hc with rfl | hc
        · exact ⟨hA, hB, hC⟩
        · exact h c hc
    unfold ValidPos at hA hB hC
    rw [if_pos hA, if_pos hB, if_pos hC]
    simp only [Option.bind_eq_bind, Option.bind_some]
    have := ih (i + 1) (s.1.set i (label d.gen call.a.1 call.a.2.1),
      s.2.1.set i (label d.gen call.b.1 call.b.2.1), s.2.2.set i (label d.gen call.c.1 call.c.2.1))
      (by simp; omega) (by simp; omega) (by simp; omega)
    rw [hiff]
    refine ⟨this.1, fun h => ?_⟩
    rw [this.2 h]
    simp only [List.map_cons]
    rw [overwrite_set _ _ _ _ (by omega), overwrite_set _ _ _ _ (by omega), overwrite_set _ _ _ _ (by omega)]

theorem nextPow2_idem (n : ℕ) : nextPow2 (nextPow2 n) = nextPow2 n := nextPow2_pow _

theorem new?_nextPow2 (n : ℕ) : (Domain.new? (nextPow2 n) : Option (Domain F)) = Domain.new? n := by
  unfold Domain.new? nextPow2
  rw [Nat.clog_pow 2 _ (by norm_num)]

theorem elements_getD (d : Domain F) {i : ℕ} (h : i < d.size) : d.elements.getD i 0 = d.gen ^ i := by
  simp [Domain.elements, List.getD, List.getElem?_map, List.getElem?_range, h, Domain.element]

theorem elements_length (d : Domain F) : d.elements.length = d.size := by simp [Domain.elements]

/-- The whole of `compile` on a circuit built with the API. -/
theorem compile_build (calls : List (GateCall F)) (d : Domain F)
    (hd : Domain.new? calls.length = some d) (h2 : 2 ≤ calls.length) :
    (¬ AllValid d.size calls → (build calls).compile = none) ∧
    (AllValid d.size calls → (build calls).compile = some
      { size := d.size
        gate :=
          { fax := d.interpolate (calls.map fun r => r.a.2.2)
            fbx := d.interpolate (calls.map fun r => r.b.2.2)
            fcx := d.interpolate (calls.map fun r => r.c.2.2)
            qlx := d.interpolate (calls.map fun r => r.gate.qL)
            qrx := d.interpolate (calls.map fun r => r.gate.qR)
            qox := d.interpolate (calls.map fun r => r.gate.qO)
            qmx := d.interpolate (calls.map fun r => r.gate.qM)
            qcx := d.interpolate (calls.map fun r => r.gate.qC)
            pix := d.interpolate (calls.map fun r => r.gate.pi) }
        copy :=
          { s1 := d.interpolate (overwrite d.elements 0 (calls.map fun c => label d.gen c.a.1 c.a.2.1))
            s2 := d.interpolate (overwrite (d.elements.map fun r => r * 2) 0
              (calls.map fun c => label d.gen c.b.1 c.b.2.1))
            s3 := d.interpolate (overwrite (d.elements.map fun r => r * 3) 0
              (calls.map fun c => label d.gen c.c.1 c.c.2.1))
            k1 := 2
            k2 := 3 } }) := by
  obtain ⟨hv, hsz⟩ := Domain.new?_valid hd
  have hle : calls.length ≤ d.size := hsz ▸ le_nextPow2 _
  have hlen : (calls.map GateCall.gate ++
      List.replicate (nextPow2 calls.length - calls.length) Gate.newDummy).length = d.size := by
    simp; omega
  have hd' : (Domain.new? d.size : Option (Domain F)) = some d := by rw [hsz, new?_nextPow2, hd]
  have hass := assignmentLoop_calls
    (⟨calls.map GateCall.gate ++ List.replicate (nextPow2 calls.length - calls.length) Gate.newDummy,
        calls.map fun k => k.a.2.2, calls.map fun k => k.b.2.2, calls.map fun k => k.c.2.2⟩ : Circuit F)
    [] calls (nextPow2 calls.length - calls.length) rfl rfl rfl
  have hroot : d.elements[0]? = some 1 := by
    have := d.size_pos
    simp [Domain.elements, Domain.element, this]
  have hsig := sigmaLoop_calls d calls (nextPow2 calls.length - calls.length) 0
    (d.elements, d.elements.map fun r => r * (1 + 1), d.elements.map fun r => r * (1 + 1 + 1))
    (by simpa [elements_length] using hle) (by simpa [elements_length] using hle)
    (by simpa [elements_length] using hle)
  unfold Circuit.compile
  rw [pad_build, if_neg (by omega)]
  simp only [Option.bind_eq_bind, Option.bind_some]
  unfold calPermutation Circuit.getAssignment
  rw [hlen, hd']
  simp only [Option.bind_some, Option.bind_eq_bind]
  simp only [List.length_nil] at hass
  rw [hass, hroot]
  simp only [Option.bind_some]
  have e2 : (1 : F) + 1 = 2 := by norm_num
  have e3 : (1 : F) + 1 + 1 = 3 := by norm_num
  constructor
  · intro h
    rw [hsig.1 h]; rfl
  · intro h
    rw [hsig.2 h]
    simp only [Option.bind_some, List.map_map, pure, Option.some.injEq]
    rw [e3, e2]
    rfl

theorem compile_build_short (calls : List (GateCall F)) (h : calls.length < 2) :
    (build calls).compile = none := by
  unfold Circuit.compile
  rw [pad_build, if_pos h]; rfl

theorem compile_build_noDomain (calls : List (GateCall F)) (h : (Domain.new? calls.length : Option (Domain F)) = none) :
    (build calls).compile = none := by
  unfold Circuit.compile
  rw [pad_build]
  split
  · rfl
  · next h2 =>
    have hlen : (calls.map GateCall.gate ++
      List.replicate (nextPow2 calls.length - calls.length) Gate.newDummy).length = nextPow2 calls.length := by
      have := le_nextPow2 calls.length
      simp; omega
    simp only [Option.bind_eq_bind, Option.bind_some]
    rw [hlen, new?_nextPow2, h]; rfl

/-- **C44** (compile): compiling a circuit built with the API panics exactly if there are fewer than two
gates, or the next power of two exceeds the field's two-adic subgroup, or a wire position is not one of
the three layers or lies outside the padded circuit. -/
theorem C44_compile_panics_iff (calls : List (GateCall F)) :
    (build calls).compile = none ↔
      calls.length < 2 ∨ 2 ^ FftField.twoAdicity F < nextPow2 calls.length ∨
      ∃ call ∈ calls, ∃ p ∈ [call.a, call.b, call.c], ¬ (p.1 ≤ 2 ∧ p.2.1 < nextPow2 calls.length) := by
  by_cases h1 : calls.length < 2
  · simp [h1, compile_build_short]
  cases hd : (Domain.new? calls.length : Option (Domain F)) with
  | none =>
    have := (Domain.new?_isSome_iff (F := F) calls.length).not
    rw [hd] at this
    simp only [Option.isSome_none, Bool.false_eq_true, not_false_eq_true, true_iff, not_le] at this
    simp [compile_build_noDomain _ hd, this]
  | some d =>
    have hle := (Domain.new?_isSome_iff (F := F) calls.length).1 (by rw [hd]; rfl)
    obtain ⟨hv, hsz⟩ := Domain.new?_valid hd
    obtain ⟨hno, hyes⟩ := compile_build calls d hd (by omega)
    by_cases hval : AllValid d.size calls
    · rw [hyes hval]
      simp only [reduceCtorEq, false_iff]
      rintro (h | h | ⟨call, hc, p, hp, hn⟩)
      · exact h1 h
      · omega
      · apply hn
        obtain ⟨⟨ha, ha'⟩, ⟨hb, hb'⟩, ⟨hcc, hcc'⟩⟩ := hval call hc
        rw [← hsz]
        simp only [List.mem_cons, List.not_mem_nil, or_false] at hp
        rcases hp with rfl | rfl | rfl <;> omega
    · rw [hno hval]
      simp only [true_iff]
      right; right
      unfold AllValid at hval
      push Not at hval
      obtain ⟨call, hc, hbad⟩ := hval
      refine ⟨call, hc, ?_⟩
      rw [← hsz]
      by_contra hcon
      push Not at hcon
      have ga := hcon call.a (by simp)
      have gb := hcon call.b (by simp)
      have gc := hcon call.c (by simp)
      exact hbad ⟨by omega, ga.2⟩ ⟨by omega, gb.2⟩ ⟨by omega, gc.2⟩

/-- **C44** (size): the size of the compiled circuit is the least power of two that is at least the number
of gates. -/
theorem C44_compile_size (calls : List (GateCall F)) (cc : CompiledCircuit F)
    (h : (build calls).compile = some cc) :
    (∃ e, cc.size = 2 ^ e) ∧ calls.length ≤ cc.size ∧ ∀ e, calls.length ≤ 2 ^ e → cc.size ≤ 2 ^ e := by
  by_cases h1 : calls.length < 2
  · rw [compile_build_short _ h1] at h; cases h
  cases hd : (Domain.new? calls.length : Option (Domain F)) with
  | none => rw [compile_build_noDomain _ hd] at h; cases h
  | some d =>
    obtain ⟨hv, hsz⟩ := Domain.new?_valid hd
    obtain ⟨hno, hyes⟩ := compile_build calls d hd (by omega)
    by_cases hval : AllValid d.size calls
    swap
    · rw [hno hval] at h; cases h
    rw [hyes hval, Option.some.injEq] at h
    subst h
    dsimp only
    rw [hsz]
    exact ⟨⟨_, rfl⟩, le_nextPow2 _, fun e he => nextPow2_le_of_le he⟩

/-- compile success data -/
theorem compile_some (calls : List (GateCall F)) (cc : CompiledCircuit F)
    (h : (build calls).compile = some cc) :
    ∃ d : Domain F, Domain.new? cc.size = some d ∧ d.Valid ∧ d.size = cc.size ∧ 2 ≤ calls.length ∧
      calls.length ≤ cc.size ∧ AllValid d.size calls ∧
      (build calls).compile = some
      { size := d.size
        gate :=
          { fax := d.interpolate (calls.map fun r => r.a.2.2)
            fbx := d.interpolate (calls.map fun r => r.b.2.2)
            fcx := d.interpolate (calls.map fun r => r.c.2.2)
            qlx := d.interpolate (calls.map fun r => r.gate.qL)
            qrx := d.interpolate (calls.map fun r => r.gate.qR)
            qox := d.interpolate (calls.map fun r => r.gate.qO)
            qmx := d.interpolate (calls.map fun r => r.gate.qM)
            qcx := d.interpolate (calls.map fun r => r.gate.qC)
            pix := d.interpolate (calls.map fun r => r.gate.pi) }
        copy :=
          { s1 := d.interpolate (overwrite d.elements 0 (calls.map fun c => label d.gen c.a.1 c.a.2.1))
            s2 := d.interpolate (overwrite (d.elements.map fun r => r * 2) 0
              (calls.map fun c => label d.gen c.b.1 c.b.2.1))
            s3 := d.interpolate (overwrite (d.elements.map fun r => r * 3) 0
              (calls.map fun c => label d.gen c.c.1 c.c.2.1))
            k1 := 2
            k2 := 3 } } := by
  by_cases h1 : calls.length < 2
  · rw [compile_build_short _ h1] at h; cases h
  cases hd : (Domain.new? calls.length : Option (Domain F)) with
  | none => rw [compile_build_noDomain _ hd] at h; cases h
  | some d =>
    obtain ⟨hv, hsz⟩ := Domain.new?_valid hd
    obtain ⟨hno, hyes⟩ := compile_build calls d hd (by omega)
    by_cases hval : AllValid d.size calls
    swap
    · rw [hno hval] at h; cases h
    have hc : cc.size = d.size := by
      rw [hyes hval, Option.some.injEq] at h; rw [← h]
    refine ⟨d, ?_, hv, hc.symm, by omega, ?_, hval, hyes hval⟩
    · rw [hc, hsz, new?_nextPow2, hd]
    · rw [hc, hsz]; exact le_nextPow2 _

/-! ## C45 -/

/-- The value of `f` on the `i`-th call, zero if there is no such call. -/
def rowVal (calls : List (GateCall F)) (f : GateCall F → F) (i : ℕ) : F :=
  match calls[i]? with
  | some call => f call
  | none => 0

theorem getD_map_rowVal (calls : List (GateCall F)) (f : GateCall F → F) (i : ℕ) :
    (calls.map f).getD i 0 = rowVal calls f i := by
  unfold rowVal
  rw [List.getD_eq_getElem?_getD, List.getElem?_map]
  cases calls[i]? <;> rfl

/-- **C45**: there is a primitive root of unity `w` of order `size` (the generator of the evaluation
domain) such that every wire, selector and public-input polynomial of the compiled circuit takes at `w^i`
the value of the `i`-th gate, zero on padding rows, and has degree below the size. -/
theorem C45_interpolates (calls : List (GateCall F)) (cc : CompiledCircuit F)
    (h : (build calls).compile = some cc) :
    ∃ d : Domain F, Domain.new? cc.size = some d ∧ IsPrimitiveRoot d.gen cc.size ∧
      ∀ pf ∈ [(cc.gate.fax, fun k : GateCall F => k.a.2.2), (cc.gate.fbx, fun k => k.b.2.2),
        (cc.gate.fcx, fun k => k.c.2.2), (cc.gate.qlx, fun k => k.gate.qL),
        (cc.gate.qrx, fun k => k.gate.qR), (cc.gate.qox, fun k => k.gate.qO),
        (cc.gate.qmx, fun k => k.gate.qM), (cc.gate.qcx, fun k => k.gate.qC),
        (cc.gate.pix, fun k => k.gate.pi)],
        (∀ i < cc.size, Ark.eval pf.1 (d.gen ^ i) = rowVal calls pf.2 i) ∧
        pf.1.length ≤ cc.size := by
  obtain ⟨d, hd, hv, hsz, h2, hle, hval, hc⟩ := compile_some calls cc h
  rw [hc, Option.some.injEq] at h
  refine ⟨d, hd, hsz ▸ hv, ?_⟩
  intro pf hpf
  have key : pf.1 = d.interpolate (calls.map pf.2) := by
    subst h
    simp only [List.mem_cons, List.not_mem_nil, or_false] at hpf
    rcases hpf with rfl | rfl | rfl | rfl | rfl | rfl | rfl | rfl | rfl <;> rfl
  rw [key]
  refine ⟨fun i hi => ?_, hsz ▸ d.length_interpolate_le _⟩
  rw [eval_eq, hv.eval_interpolate _ (by omega), getD_map_rowVal]

/-- **C45** (gates): the selector equation on row `i` of the compiled polynomials is the relation of the
`i`-th call; on padding rows it always holds. -/
theorem C45_gate_relation (calls : List (GateCall F)) (cc : CompiledCircuit F)
    (h : (build calls).compile = some cc) :
    ∃ d : Domain F, Domain.new? cc.size = some d ∧ ∀ i < cc.size, ∀ a b c : F,
      (Ark.eval cc.gate.qlx (d.gen ^ i) * a + Ark.eval cc.gate.qrx (d.gen ^ i) * b +
        Ark.eval cc.gate.qmx (d.gen ^ i) * (a * b) + Ark.eval cc.gate.qox (d.gen ^ i) * c +
        Ark.eval cc.gate.qcx (d.gen ^ i) + Ark.eval cc.gate.pix (d.gen ^ i) = 0 ↔
        ∀ call, calls[i]? = some call → call.Relation a b c) := by
  obtain ⟨d, hd, -, hall⟩ := C45_interpolates calls cc h
  refine ⟨d, hd, fun i hi a b c => ?_⟩
  simp only [List.mem_cons, List.not_mem_nil, or_false, forall_eq_or_imp, forall_eq] at hall
  obtain ⟨-, -, -, hl, hr, ho, hm, hcc, hpi⟩ := hall
  rw [hl.1 i hi, hr.1 i hi, ho.1 i hi, hm.1 i hi, hcc.1 i hi, hpi.1 i hi]
  unfold rowVal
  cases hc : calls[i]? with
  | none => simp
  | some call =>
    simp only [Option.some.injEq, forall_eq']
    exact C43_call_gate call a b c

/-! ## C46 -/

/-- Where wire `(layer, i)` is copied to: the position stored in the call, itself on padding rows. -/
def target (calls : List (GateCall F)) (layer i : ℕ) : ℕ × ℕ :=
  match calls[i]? with
  | some call =>
    match layer with
    | 0 => (call.a.1, call.a.2.1)
    | 1 => (call.b.1, call.b.2.1)
    | _ => (call.c.1, call.c.2.1)
  | none => (layer, i)

/-- **C46**: `k1 = 2`, `k2 = 3`, and the permutation polynomials of degree below the size take at `w^i` the
label of the position stored for the wire (its own label on padding rows). -/
theorem C46_sigma (calls : List (GateCall F)) (cc : CompiledCircuit F)
    (h : (build calls).compile = some cc) :
    ∃ d : Domain F, Domain.new? cc.size = some d ∧ cc.copy.k1 = 2 ∧ cc.copy.k2 = 3 ∧
      ∀ pl ∈ [(cc.copy.s1, 0), (cc.copy.s2, 1), (cc.copy.s3, 2)],
        pl.1.length ≤ cc.size ∧ ∀ i < cc.size,
          Ark.eval pl.1 (d.gen ^ i) = label d.gen (target calls pl.2 i).1 (target calls pl.2 i).2 := by
  obtain ⟨d, hd, hv, hsz, h2, hle, hval, hc⟩ := compile_some calls cc h
  rw [hc, Option.some.injEq] at h
  have key : ∀ (l : List F) (f : GateCall F → F) (i : ℕ), l.length = d.size → i < d.size →
      (toPoly (d.interpolate (overwrite l 0 (calls.map f)))).eval (d.gen ^ i) =
        match calls[i]? with
        | some call => f call
        | none => l.getD i 0 := by
    intro l f i hl hi
    rw [hv.eval_interpolate _ hi, getD_overwrite _ _ (by simp; omega), List.length_map]
    split
    · next hlt =>
      rw [getD_map_rowVal, rowVal]
      simp [List.getElem?_eq_getElem hlt]
    · next hge =>
      rw [List.getElem?_eq_none (by omega)]
  refine ⟨d, hd, by rw [← h], by rw [← h], ?_⟩
  intro pl hpl
  subst h
  dsimp only at hsz hpl ⊢
  simp only [List.mem_cons, List.not_mem_nil, or_false] at hpl
  rcases hpl with rfl | rfl | rfl
  · refine ⟨d.length_interpolate_le _, fun i hi => ?_⟩
    rw [eval_eq, key _ _ _ (elements_length d) hi]
    unfold target
    cases hci : calls[i]? with
    | some call => rfl
    | none => simp only [label]; rw [elements_getD d hi]; simp
  · refine ⟨d.length_interpolate_le _, fun i hi => ?_⟩
    rw [eval_eq, key _ _ _ (by simp [elements_length]) hi]
    unfold target
    cases hci : calls[i]? with
    | some call => rfl
    | none =>
      simp only [label]
      rw [List.getD_eq_getElem?_getD, List.getElem?_map]
      have := elements_getD d hi
      rw [List.getD_eq_getElem?_getD] at this
      have hsome : d.elements[i]? = some (d.elements[i]'(by rw [elements_length]; exact hi)) :=
        List.getElem?_eq_getElem _
      rw [hsome] at this ⊢
      simp only [Option.getD_some] at this
      simp only [Option.map_some, Option.getD_some]
      rw [this]; push_cast; ring
  · refine ⟨d.length_interpolate_le _, fun i hi => ?_⟩
    rw [eval_eq, key _ _ _ (by simp [elements_length]) hi]
    unfold target
    cases hci : calls[i]? with
    | some call => rfl
    | none =>
      simp only [label]
      rw [List.getD_eq_getElem?_getD, List.getElem?_map]
      have := elements_getD d hi
      rw [List.getD_eq_getElem?_getD] at this
      have hsome : d.elements[i]? = some (d.elements[i]'(by rw [elements_length]; exact hi)) :=
        List.getElem?_eq_getElem _
      rw [hsome] at this ⊢
      simp only [Option.getD_some] at this
      simp only [Option.map_some, Option.getD_some]
      rw [this]; push_cast; ring

end compile

/-- Labels of different positions are different whenever `1, 2, 3` lie in different cosets. -/
theorem label_inj_of {F : Type} [FftField F] [DecidableEq F] {d : Domain F} (hv : d.Valid)
    (h2 : (2 : F) ^ d.size ≠ 1) (h3 : (3 : F) ^ d.size ≠ 1) (h23 : (2 : F) ^ d.size ≠ 3 ^ d.size)
    (h20 : (2 : F) ≠ 0) (h30 : (3 : F) ≠ 0)
    {l i l' i' : ℕ} (hl : l < 3) (hl' : l' < 3) (hi : i < d.size) (hi' : i' < d.size)
    (h : label d.gen l i = label d.gen l' i') : l = l' ∧ i = i' := by
  unfold label at h
  have hp : ∀ j, (d.gen ^ j) ^ d.size = 1 := fun j => by
    rw [← pow_mul, mul_comm, pow_mul, hv.pow_size, one_pow]
  have hpow := congrArg (fun x => x ^ d.size) h
  simp only [mul_pow, hp, mul_one] at hpow
  have e1 : (1 : F) + 1 = 2 := by norm_num
  have e2 : (2 : F) + 1 = 3 := by norm_num
  have hll : l = l' := by
    rcases l with _ | _ | _ | l <;> rcases l' with _ | _ | _ | l' <;> try omega
    all_goals simp only [Nat.cast_zero, zero_add, Nat.cast_one, Nat.cast_ofNat, one_pow, Nat.reduceAdd,
      e1, e2] at hpow
    · exact absurd hpow.symm h2
    · exact absurd hpow.symm h3
    · exact absurd hpow h2
    · exact absurd hpow h23
    · exact absurd hpow h3
    · exact absurd hpow.symm h23
  subst hll
  refine ⟨rfl, hv.pow_inj hi hi' ?_⟩
  have hne : ((l : F) + 1) ≠ 0 := by
    rcases l with _ | _ | _ | l
    · simp
    · simpa [e1] using h20
    · simpa [e2] using h30
    · omega
  exact mul_left_cancel₀ hne h

/-- **C46** (labels): over BLS12-381 `Fr`, for every domain the library offers, the labels of the `3n`
wire positions are pairwise distinct. -/
theorem C46_labels_distinct (n : ℕ) (d : Domain BlsFr) (hd : Domain.new? n = some d)
    {l i l' i' : ℕ} (hl : l < 3) (hl' : l' < 3) (hi : i < d.size) (hi' : i' < d.size)
    (h : label d.gen l i = label d.gen l' i') : l = l' ∧ i = i' := by
  obtain ⟨hv, hsz⟩ := Domain.new?_valid hd
  have h32 : Nat.clog 2 n ≤ 32 := by
    unfold Domain.new? at hd
    simp only at hd
    by_contra hcon
    have : FftField.twoAdicity BlsFr = 32 := rfl
    rw [if_neg (by rw [this]; exact hcon)] at hd
    cases hd
  have hpow : d.size = 2 ^ Nat.clog 2 n := hsz
  have two : (2 : BlsFr) ≠ 0 := by
    have : ((2 : ℕ) : BlsFr) ≠ 0 := by rw [Ne, ZMod.natCast_eq_zero_iff]; decide +kernel
    exact_mod_cast this
  have three : (3 : BlsFr) ≠ 0 := by
    have : ((3 : ℕ) : BlsFr) ≠ 0 := by rw [Ne, ZMod.natCast_eq_zero_iff]; decide +kernel
    exact_mod_cast this
  exact label_inj_of hv (hpow ▸ bls_two_pow_ne h32) (hpow ▸ bls_three_pow_ne h32)
    (hpow ▸ bls_two_three_pow_ne h32) two three hl hl' hi hi' h

/-- A concrete circuit of two multiplication gates, `1*2 = 2` and `2*3 = 6`, in the style of the
`plonk/src/verifier.rs` tests; it compiles over BLS12-381 `Fr`. -/
def exampleCalls : List (GateCall BlsFr) :=
  [⟨.multiplication, (0, 0, 1), (1, 0, 2), (0, 1, 2), 0⟩,
   ⟨.multiplication, (2, 0, 2), (1, 1, 3), (2, 1, 6), 0⟩]

theorem exampleCalls_compiles : ∃ cc, (build exampleCalls).compile = some cc := by
  rw [← Option.isSome_iff_exists]
  by_contra h
  rw [Bool.not_eq_true, Option.isSome_eq_false_iff, Option.isNone_iff_eq_none, C44_compile_panics_iff] at h
  have e : nextPow2 exampleCalls.length = 2 := by
    have : Nat.clog 2 2 = 1 := by decide +kernel
    simp [exampleCalls, nextPow2, this]
  have e2 : FftField.twoAdicity BlsFr = 32 := rfl
  rw [e, e2] at h
  rcases h with h | h | ⟨call, hc, p, hp, hn⟩
  · simp [exampleCalls] at h
  · norm_num at h
  · simp only [exampleCalls, List.mem_cons, List.not_mem_nil, or_false] at hc
    rcases hc with rfl | rfl <;> simp only [List.mem_cons, List.not_mem_nil, or_false] at hp <;>
      rcases hp with rfl | rfl | rfl <;> simp at hn

end Verif.Plonk

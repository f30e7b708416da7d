import Verif.Ark.Domain
import Verif.Ark.Bytes
import Verif.Kzg.Model

/-!
# Model of the `plonk` crate: gates, circuits, challenge generator, prover, verifier

Panics are `none`.  The scalar field is any `FftField` (BLS12-381 `Fr` is an instance), the digests,
the point serialisation and the seeded random generator are parameters (`Env`), the random blinders
drawn from `StdRng::from_entropy` are an argument of the prover (`Blinders`).
-/

set_option linter.unusedSectionVars false

namespace Verif.Plonk

open Verif.Ark Verif.Kzg

/-- External functions used by the `plonk` crate: SHA-256, `serialize_uncompressed` of a G1 point
(`plonk/src/challenge.rs` lines 50-53) and the `k`-th `Fr::rand` of `StdRng::seed_from_u64(seed)`
(`plonk/src/challenge.rs` lines 58-71, 82-89). -/
structure Env (F G1 : Type) where
  /-- `sha2::Sha256` -/
  sha256 : List UInt8 → List UInt8
  /-- `serialize_uncompressed` -/
  serG : G1 → List UInt8
  /-- `k`-th field element drawn after seeding -/
  rand : ℕ → ℕ → F

/-! ## Gates (`plonk/src/gate.rs`) -/

/-- `enum Position`, `plonk/src/gate.rs` lines 6-11. -/
inductive Position where
  /-- `Dummy` -/
  | dummy
  /-- `Pos(layer, index)` -/
  | pos (i j : ℕ)
  deriving DecidableEq

/-- `struct Gate`, `plonk/src/gate.rs` lines 15-34. -/
structure Gate (F : Type) where
  /-- `a_pos` -/
  aPos : Position
  /-- `b_pos` -/
  bPos : Position
  /-- `c_pos` -/
  cPos : Position
  /-- `q_l` -/
  qL : F
  /-- `q_r` -/
  qR : F
  /-- `q_o` -/
  qO : F
  /-- `q_m` -/
  qM : F
  /-- `q_c` -/
  qC : F
  /-- `pi` -/
  pi : F

section gates
variable {F : Type} [Field F]

/-- `Gate::new_add_gate`, `plonk/src/gate.rs` lines 38-56. -/
def Gate.newAdd (a b c : Position) (pi : Option F) : Gate F :=
  { aPos := a, bPos := b, cPos := c, qL := 1, qR := 1, qM := 0, qO := -1, qC := 0, pi := -(pi.getD 0) }

/-- `Gate::new_mul_gate`, `plonk/src/gate.rs` lines 59-77. -/
def Gate.newMul (a b c : Position) (pi : Option F) : Gate F :=
  { aPos := a, bPos := b, cPos := c, qL := 0, qR := 0, qM := 1, qO := -1, qC := 0, pi := -(pi.getD 0) }

/-- `Gate::new_constant_gate`, `plonk/src/gate.rs` lines 80-99. -/
def Gate.newConstant (a b c : Position) (constant : F) (pi : Option F) : Gate F :=
  { aPos := a, bPos := b, cPos := c, qL := 1, qR := 0, qM := 0, qO := 0, qC := -constant,
    pi := -(pi.getD 0) }

/-- `Gate::new_dummy_gate`, `plonk/src/gate.rs` lines 102-114. -/
def Gate.newDummy : Gate F :=
  { aPos := .dummy, bPos := .dummy, cPos := .dummy, qL := 0, qR := 0, qM := 0, qO := 0, qC := 0, pi := 0 }

/-- `Gate::is_dummy_gate`, `plonk/src/gate.rs` lines 117-119. -/
def Gate.isDummy {F : Type} (g : Gate F) : Bool := decide (g.aPos = Position.dummy)

end gates

/-! ## Circuits (`plonk/src/circuit.rs`, `constraint.rs`, `compiled_circuit.rs`) -/

/-- `struct GateConstraints`, `plonk/src/constraint.rs` lines 7-26. -/
structure GateConstraints (F : Type) where
  /-- `f_ax` -/
  fax : DP F
  /-- `f_bx` -/
  fbx : DP F
  /-- `f_cx` -/
  fcx : DP F
  /-- `q_lx` -/
  qlx : DP F
  /-- `q_rx` -/
  qrx : DP F
  /-- `q_ox` -/
  qox : DP F
  /-- `q_mx` -/
  qmx : DP F
  /-- `q_cx` -/
  qcx : DP F
  /-- `pi_x` -/
  pix : DP F

/-- `struct CopyConstraints`, `plonk/src/constraint.rs` lines 87-98. -/
structure CopyConstraints (F : Type) where
  /-- `s_sigma_1` -/
  s1 : DP F
  /-- `s_sigma_2` -/
  s2 : DP F
  /-- `s_sigma_3` -/
  s3 : DP F
  /-- `k1` -/
  k1 : F
  /-- `k2` -/
  k2 : F

/-- `struct CompiledCircuit`, `plonk/src/compiled_circuit.rs` lines 5-11. -/
structure CompiledCircuit (F : Type) where
  /-- `size` -/
  size : ℕ
  /-- `gate_constraint` -/
  gate : GateConstraints F
  /-- `copy_constraint` -/
  copy : CopyConstraints F

/-- `struct Circuit`, `plonk/src/circuit.rs` lines 13-17; `vals` has the three components `va vb vc`. -/
structure Circuit (F : Type) where
  /-- `gates` -/
  gates : List (Gate F)
  /-- `vals[0]` -/
  va : List F
  /-- `vals[1]` -/
  vb : List F
  /-- `vals[2]` -/
  vc : List F

/-- `Circuit::default`, `plonk/src/circuit.rs` lines 19-30. -/
def Circuit.default {F : Type} : Circuit F := ⟨[], [], [], []⟩

/-- `enum GateType`, `plonk/src/circuit.rs` lines 284-289. -/
inductive GateType where
  /-- `Addition` -/
  | addition
  /-- `Multiplication` -/
  | multiplication
  /-- `Constant` -/
  | constant

section circuit
variable {F : Type} [Field F]

/-- `Circuit::add_gate`, `plonk/src/circuit.rs` lines 46-82.  (`Arc::get_mut(..).unwrap()` cannot fail:
the vectors are never shared.) -/
def Circuit.addGate (c : Circuit F) (a b o : ℕ × ℕ × F) (ty : GateType) (pi : F) : Circuit F :=
  let pa := Position.pos a.1 a.2.1
  let pb := Position.pos b.1 b.2.1
  let pc := Position.pos o.1 o.2.1
  let gate := match ty with
    | .addition => Gate.newAdd pa pb pc (some pi)
    | .multiplication => Gate.newMul pa pb pc (some pi)
    | .constant => Gate.newConstant pa pb pc a.2.2 (some pi)
  { gates := c.gates ++ [gate], va := c.va ++ [a.2.2], vb := c.vb ++ [b.2.2], vc := c.vc ++ [o.2.2] }

/-- `Circuit::add_addition_gate`, `plonk/src/circuit.rs` lines 85-93. -/
def Circuit.addAdditionGate (c : Circuit F) (a b o : ℕ × ℕ × F) (pi : F) : Circuit F :=
  c.addGate a b o .addition pi

/-- `Circuit::add_multiplication_gate`, `plonk/src/circuit.rs` lines 96-104. -/
def Circuit.addMultiplicationGate (c : Circuit F) (a b o : ℕ × ℕ × F) (pi : F) : Circuit F :=
  c.addGate a b o .multiplication pi

/-- `Circuit::add_constant_gate`, `plonk/src/circuit.rs` lines 107-115. -/
def Circuit.addConstantGate (c : Circuit F) (a b o : ℕ × ℕ × F) (pi : F) : Circuit F :=
  c.addGate a b o .constant pi

/-- The nine vectors of `get_assignment`, one entry per non-dummy gate. -/
structure Row (F : Type) where
  /-- `vec_a` -/
  a : F
  /-- `vec_b` -/
  b : F
  /-- `vec_c` -/
  c : F
  /-- the gate (`vec_ql`, `vec_qr`, `vec_qm`, `vec_qo`, `vec_qc`, `vec_pi`) -/
  gate : Gate F

/-- The loop of `Circuit::get_assignment`, `plonk/src/circuit.rs` lines 130-143, from gate index `i`
on; `self.vals[k][i]` panics if out of bounds.  The nine vectors are returned as one list of rows. -/
def Circuit.assignmentLoop {F : Type} (c : Circuit F) : List (Gate F) → ℕ → Option (List (Row F))
  | [], _ => some []
  | g :: gs, i =>
    if g.isDummy then c.assignmentLoop gs (i + 1)
    else do
      let a ← c.va[i]?
      let b ← c.vb[i]?
      let o ← c.vc[i]?
      let rest ← c.assignmentLoop gs (i + 1)
      pure (⟨a, b, o, g⟩ :: rest)

/-- `Circuit::get_assignment`, `plonk/src/circuit.rs` lines 118-145. -/
def Circuit.getAssignment {F : Type} (c : Circuit F) : Option (List (Row F)) :=
  c.assignmentLoop c.gates 0

/-- `Circuit::add_dummy_gate`, `plonk/src/circuit.rs` lines 160-163. -/
def Circuit.addDummyGate (c : Circuit F) : Circuit F := { c with gates := c.gates ++ [Gate.newDummy] }

/-- `for _ in 0..k { self.add_dummy_gate() }`, `plonk/src/circuit.rs` lines 154-156. -/
def Circuit.addDummies : ℕ → Circuit F → Circuit F
  | 0, c => c
  | k + 1, c => Circuit.addDummies k c.addDummyGate

/-- `Circuit::pad_circuit`, `plonk/src/circuit.rs` lines 148-157: `len - 1` underflows for `len = 0`
(overflow check panic) and `ilog2` panics for `len = 1`. -/
def Circuit.pad (c : Circuit F) : Option (Circuit F) :=
  let len := c.gates.length
  if len < 2 then none
  else
    let exponent := Nat.log2 (len - 1) + 1
    let newLen := 2 ^ exponent
    some (Circuit.addDummies (newLen - len) c)

/-- `map_element`, `plonk/src/circuit.rs` lines 219-226. -/
def mapElement (roots coset1 coset2 : List F) : Position → Option F
  | .pos 0 j => roots[j]?
  | .pos 1 j => coset1[j]?
  | .pos 2 j => coset2[j]?
  | _ => none

/-- The loop of `Circuit::cal_permutation`, `plonk/src/circuit.rs` lines 214-231, from gate index `i`.
(`index` is in bounds of the sigma vectors: the domain has at least as many elements as gates.) -/
def sigmaLoop (elem : Position → Option F) :
    List (Gate F) → ℕ → List F × List F × List F → Option (List F × List F × List F)
  | [], _, s => some s
  | g :: gs, i, s =>
    if g.isDummy then sigmaLoop elem gs (i + 1) s
    else do
      let x ← elem g.aPos
      let y ← elem g.bPos
      let z ← elem g.cPos
      sigmaLoop elem gs (i + 1) (s.1.set i x, s.2.1.set i y, s.2.2.set i z)

end circuit

section compile
variable {F : Type} [FftField F] [DecidableEq F]

/-- `Circuit::cal_permutation` and `Circuit::find_cosets`, `plonk/src/circuit.rs` lines 203-249, on the
gate vector. -/
def calPermutation (gates : List (Gate F)) : Option (CopyConstraints F) := do
  let d ← Domain.new? gates.length
  let roots := d.elements
  let r0 ← roots[0]?
  let k1 := r0 + 1
  let k2 := k1 + 1
  let coset1 := roots.map fun r => r * k1
  let coset2 := roots.map fun r => r * k2
  let s ← sigmaLoop (mapElement roots coset1 coset2) gates 0 (roots, coset1, coset2)
  pure ⟨d.interpolate s.1, d.interpolate s.2.1, d.interpolate s.2.2, k1, k2⟩

/-- `Circuit::compile`, `plonk/src/circuit.rs` lines 166-200.  (It never returns `Err`.) -/
def Circuit.compile (c : Circuit F) : Option (CompiledCircuit F) := do
  let c ← c.pad
  let d ← Domain.new? c.gates.length
  let rows ← c.getAssignment
  let gc : GateConstraints F :=
    { fax := d.interpolate (rows.map fun r => r.a)
      fbx := d.interpolate (rows.map fun r => r.b)
      fcx := d.interpolate (rows.map fun r => r.c)
      qlx := d.interpolate (rows.map fun r => r.gate.qL)
      qrx := d.interpolate (rows.map fun r => r.gate.qR)
      qox := d.interpolate (rows.map fun r => r.gate.qO)
      qmx := d.interpolate (rows.map fun r => r.gate.qM)
      qcx := d.interpolate (rows.map fun r => r.gate.qC)
      pix := d.interpolate (rows.map fun r => r.gate.pi) }
  let cc ← calPermutation c.gates
  pure ⟨c.gates.length, gc, cc⟩

end compile

/-! ## Challenge generator (`plonk/src/challenge.rs`) -/

/-- `struct ChallengeGenerator`, `plonk/src/challenge.rs` lines 16-22. -/
structure ChallengeGenerator where
  /-- `data` -/
  data : Option (List UInt8)
  /-- `generated` -/
  generated : Bool

/-- `ChallengeGenerator::default` (derived), `plonk/src/challenge.rs` line 15. -/
def ChallengeGenerator.default : ChallengeGenerator := ⟨none, false⟩

section challenge
variable {F G1 : Type}

/-- `ChallengeGenerator::<T>::feed`, `plonk/src/challenge.rs` lines 48-56; `dig` is the digest `T`. -/
def ChallengeGenerator.feed (env : Env F G1) (dig : List UInt8 → List UInt8) (c : ChallengeGenerator)
    (x : G1) : ChallengeGenerator :=
  { data := some (dig (c.data.getD [] ++ env.serG x)), generated := false }

/-- `ChallengeGenerator::from_commitments`, `plonk/src/challenge.rs` lines 34-40. -/
def ChallengeGenerator.fromCommitments (env : Env F G1) (dig : List UInt8 → List UInt8)
    (cs : List G1) : ChallengeGenerator :=
  cs.foldl (ChallengeGenerator.feed env dig) .default

/-- `ChallengeGenerator::generate_rng_with_seed`, `plonk/src/challenge.rs` lines 58-69: panics if
already generated, without data, and if `data[..8]` is out of bounds. -/
def ChallengeGenerator.rngSeed (c : ChallengeGenerator) : Option (ℕ × ChallengeGenerator) :=
  if c.generated then none
  else do
    let data ← c.data
    if data.length < 8 then none
    else some (fromLeBytes (data.take 8), { c with generated := true })

/-- `ChallengeGenerator::generate_challenges::<N>`, `plonk/src/challenge.rs` lines 80-87. -/
def ChallengeGenerator.generateChallenges (env : Env F G1) (c : ChallengeGenerator) (n : ℕ) :
    Option (List F × ChallengeGenerator) := do
  let st ← c.rngSeed
  pure ((List.range n).map (env.rand st.1), st.2)

/-- `let [x] = challenge.generate_challenges();` -/
def ChallengeGenerator.generate1 (env : Env F G1) (c : ChallengeGenerator) :
    Option (F × ChallengeGenerator) := do
  let r ← c.generateChallenges env 1
  let x ← r.1[0]?
  pure (x, r.2)

/-- `let [x, y] = challenge.generate_challenges();` -/
def ChallengeGenerator.generate2 (env : Env F G1) (c : ChallengeGenerator) :
    Option ((F × F) × ChallengeGenerator) := do
  let r ← c.generateChallenges env 2
  let x ← r.1[0]?
  let y ← r.1[1]?
  pure ((x, y), r.2)

end challenge

/-! ## Slice polynomial (`plonk/src/slice_polynomial.rs`) -/

/-- `struct SlicePoly`, `plonk/src/slice_polynomial.rs` lines 15-18. -/
structure SlicePoly (F : Type) where
  /-- `slices[0]` -/
  lo : DP F
  /-- `slices[1]` -/
  mid : DP F
  /-- `slices[2]` -/
  hi : DP F
  /-- `degree` -/
  degree : ℕ

section slice
variable {F : Type} [Field F] [DecidableEq F]

/-- `SlicePoly::new`, `plonk/src/slice_polynomial.rs` lines 22-44: `chunks(0)` panics; a missing chunk
leaves `Polynomial::zero()`. -/
def SlicePoly.new (p : DP F) : Option (SlicePoly F) :=
  let tmp0 := p.length / 3
  let tmp := if tmp0 * 3 < p.length then tmp0 + 1 else tmp0
  if tmp = 0 then none
  else some
    { lo := fromCoeffs (p.take tmp)
      mid := fromCoeffs ((p.drop tmp).take tmp)
      hi := fromCoeffs ((p.drop (2 * tmp)).take tmp)
      degree := tmp - 1 }

/-- `SlicePoly::compact`, `plonk/src/slice_polynomial.rs` lines 57-70. -/
def SlicePoly.compact (sp : SlicePoly F) (x : F) : DP F :=
  add (add (smul sp.lo (x ^ ((sp.degree + 1) * 0))) (smul sp.mid (x ^ ((sp.degree + 1) * 1))))
    (smul sp.hi (x ^ ((sp.degree + 1) * 2)))

variable {G1 G2 : Type} [AddCommGroup G1] [Module F G1]

/-- `SlicePoly::commit`, `plonk/src/slice_polynomial.rs` lines 52-54. -/
def SlicePoly.commit (sp : SlicePoly F) (srs : Srs G1 G2) : Option (G1 × G1 × G1) := do
  let a ← Kzg.commit srs sp.lo
  let b ← Kzg.commit srs sp.mid
  let c ← Kzg.commit srs sp.hi
  pure (a, b, c)

end slice

/-! ## Prover (`plonk/src/prover.rs`) -/

/-- `struct Proof`, `plonk/src/prover.rs` lines 24-58. -/
structure Proof (F G1 : Type) where
  /-- `a_commit` -/
  aC : G1
  /-- `b_commit` -/
  bC : G1
  /-- `c_commit` -/
  cC : G1
  /-- `z_commit` -/
  zC : G1
  /-- `t_lo_commit` -/
  tLoC : G1
  /-- `t_mid_commit` -/
  tMidC : G1
  /-- `t_hi_commit` -/
  tHiC : G1
  /-- `w_ev_x_commit` -/
  wC : G1
  /-- `w_ev_wx_commit` -/
  wwC : G1
  /-- `bar_a` -/
  barA : F
  /-- `bar_b` -/
  barB : F
  /-- `bar_c` -/
  barC : F
  /-- `bar_s_sigma_1` -/
  barS1 : F
  /-- `bar_s_sigma_2` -/
  barS2 : F
  /-- `bar_z_w` -/
  barZw : F
  /-- `u` -/
  u : F
  /-- `degree` -/
  degree : ℕ

/-- The nine values drawn from `StdRng::from_entropy()`, `plonk/src/prover.rs` lines 72-77, 104-106. -/
structure Blinders (F : Type) where
  /-- `b1` -/
  b1 : F
  /-- `b2` -/
  b2 : F
  /-- `b3` -/
  b3 : F
  /-- `b4` -/
  b4 : F
  /-- `b5` -/
  b5 : F
  /-- `b6` -/
  b6 : F
  /-- `b7` -/
  b7 : F
  /-- `b8` -/
  b8 : F
  /-- `b9` -/
  b9 : F

section prover
variable {F : Type} [FftField F] [DecidableEq F]

/-- `coeffs[0] += y` (`plonk/src/prover.rs` lines 498, 511): panics on an empty vector. -/
def addFirst (p : DP F) (y : F) : Option (DP F) :=
  match p with
  | [] => none
  | a :: l => some ((a + y) :: l)

/-- `poly_sub_para`, `plonk/src/prover.rs` lines 296-300; also `zx2.coeffs[0] -= 1`, lines 436, 558. -/
def polySubPara (p : DP F) (y : F) : Option (DP F) := subFirst p y

/-- Numerator of `compute_acc`, `plonk/src/prover.rs` lines 317-334. -/
def accNum (cc : CompiledCircuit F) (beta gamma w : F) : F :=
  (Ark.eval cc.gate.fax w + beta * w + gamma) *
    (Ark.eval cc.gate.fbx w + beta * cc.copy.k1 * w + gamma) *
    (Ark.eval cc.gate.fcx w + beta * cc.copy.k2 * w + gamma)

/-- Denominator of `compute_acc`, `plonk/src/prover.rs` lines 336-365. -/
def accDen (cc : CompiledCircuit F) (beta gamma w : F) : F :=
  (Ark.eval cc.gate.fax w + beta * Ark.eval cc.copy.s1 w + gamma) *
    (Ark.eval cc.gate.fbx w + beta * Ark.eval cc.copy.s2 w + gamma) *
    (Ark.eval cc.gate.fcx w + beta * Ark.eval cc.copy.s3 w + gamma)

/-- The loop of `compute_acc`, `plonk/src/prover.rs` lines 314-369 over the roots `roots[i-1]`;
division by zero panics. -/
def accLoop (num den : F → F) : List F → F → Option (List F)
  | [], _ => some []
  | w :: ws, pre =>
    if den w = 0 then none
    else do
      let pre' := pre * num w / den w
      let rest ← accLoop num den ws pre'
      pure (pre' :: rest)

/-- `compute_acc`, `plonk/src/prover.rs` lines 302-377. -/
def computeAcc (beta gamma : F) (d : Domain F) (cc : CompiledCircuit F) : Option (DP F × DP F) := do
  let tail ← accLoop (accNum cc beta gamma) (accDen cc beta gamma) (d.elements.take (cc.size - 1)) 1
  let accE := 1 :: tail
  pure (d.interpolate accE, d.interpolate (accE.rotate 1))

/-- `divide_by_vanishing_poly(..).expect(..)`, `plonk/src/prover.rs` lines 446-455: panics if there is a
remainder. -/
def divideVanishing (p : DP F) (d : Domain F) : Option (DP F) := do
  let qr ← divideByVanishing p d
  if isZero qr.2 then some qr.1 else none

/-- `l1_poly`, `plonk/src/prover.rs` lines 459-464. -/
def l1Poly (d : Domain F) : DP F := d.interpolate ((List.replicate d.size (0 : F)).set 0 1)

/-- `line1` of `compute_quotient_polynomial`, `plonk/src/prover.rs` lines 396-401. -/
def quotLine1 (cc : CompiledCircuit F) (ax bx cx : DP F) : DP F :=
  add (add (add (add (add (mul (mul ax bx) cc.gate.qmx) (mul ax cc.gate.qlx)) (mul bx cc.gate.qrx))
    (mul cx cc.gate.qox)) cc.gate.pix) cc.gate.qcx

/-- `line2` without `z_x` and `alpha`, `plonk/src/prover.rs` lines 406-408 (also 516-530). -/
def permNum (cc : CompiledCircuit F) (beta gamma : F) (ax bx cx : DP F) : DP F :=
  mul (mul (add ax (fromCoeffs [gamma, beta])) (add bx (fromCoeffs [gamma, beta * cc.copy.k1])))
    (add cx (fromCoeffs [gamma, beta * cc.copy.k2]))

/-- `line3` without `z_wx` and `alpha`, `plonk/src/prover.rs` lines 412-424 (also 534-546). -/
def permDen (cc : CompiledCircuit F) (beta gamma : F) (ax bx cx : DP F) : DP F :=
  mul (mul (add (add ax (smul cc.copy.s1 beta)) (fromCoeffs [gamma]))
    (add (add bx (smul cc.copy.s2 beta)) (fromCoeffs [gamma])))
    (add (add cx (smul cc.copy.s3 beta)) (fromCoeffs [gamma]))

/-- `compute_quotient_polynomial`, `plonk/src/prover.rs` lines 381-444. -/
def computeQuotient (beta gamma alpha : F) (ax bx cx zx zwx : DP F) (d : Domain F)
    (cc : CompiledCircuit F) : Option (DP F) := do
  let q1 ← divideVanishing (quotLine1 cc ax bx cx) d
  let line2 := smul (mul (permNum cc beta gamma ax bx cx) zx) alpha
  let line3 := smul (mul (permDen cc beta gamma ax bx cx) zwx) alpha
  let q23 ← divideVanishing (sub line2 line3) d
  let zx2 ← polySubPara zx 1
  let line4 := smul (mul zx2 (l1Poly d)) (alpha ^ 2)
  let q4 ← divideVanishing line4 d
  pure (add (add q1 q23) q4)

/-- The six evaluations of round 4, `plonk/src/prover.rs` lines 162-173. -/
structure Bars (F : Type) where
  /-- `bar_a` -/
  a : F
  /-- `bar_b` -/
  b : F
  /-- `bar_c` -/
  c : F
  /-- `bar_s_sigma_1` -/
  s1 : F
  /-- `bar_s_sigma_2` -/
  s2 : F
  /-- `bar_z_w` -/
  zw : F

/-- `line1` of `compute_linearisation_polynomial` before `+= pi_e`, `plonk/src/prover.rs` lines
490-497. -/
def linLine1 (cc : CompiledCircuit F) (bar : Bars F) : DP F :=
  add (add (add (add (smul cc.gate.qmx (bar.a * bar.b)) (smul cc.gate.qlx bar.a))
    (smul cc.gate.qrx bar.b)) (smul cc.gate.qox bar.c)) cc.gate.qcx

/-- `compute_linearisation_polynomial`, `plonk/src/prover.rs` lines 469-568. -/
def computeLinearisation (beta gamma alpha ev : F) (bar : Bars F) (piE : F)
    (txCompact zx ax bx cx zwx : DP F) (d : Domain F) (cc : CompiledCircuit F) : Option (DP F) := do
  let line1 ← addFirst (linLine1 cc bar) piE
  let line2 := smul zx ((bar.a + beta * ev + gamma) * (bar.b + beta * cc.copy.k1 * ev + gamma) *
    (bar.c + beta * cc.copy.k2 * ev + gamma) * alpha)
  let tmp2 ← addFirst (smul cc.copy.s3 beta) (bar.c + gamma)
  let line3 := smul tmp2 ((bar.a + beta * bar.s1 + gamma) * (bar.b + beta * bar.s2 + gamma) * bar.zw *
    alpha)
  let line22 := mul (smul (permNum cc beta gamma ax bx cx) alpha) zx
  let line32 := mul (smul (permDen cc beta gamma ax bx cx) alpha) zwx
  if Ark.eval line32 ev - Ark.eval line22 ev = Ark.eval line3 ev - Ark.eval line2 ev then do
    let l1e := Ark.eval (l1Poly d) ev
    let zx2 ← polySubPara zx 1
    let line4 := smul (smul zx2 l1e) (alpha ^ 2)
    let line5 := smul txCompact (ev ^ d.size - 1)
    pure (add (add (add (add line1 line2) (neg line3)) line4) (neg line5))
  else none

/-- The division by `X - point` with the preceding assertion that the remainder is the empty vector,
`plonk/src/prover.rs` lines 230-245 and 249-265. -/
def divideRoot (p : DP F) (point : F) : Option (DP F) := do
  let qr ← divideWithQAndR p (fromCoeffs [-point, 1])
  if qr.2 = [] then do
    let qr' ← divideWithQAndR p (fromCoeffs [-point, 1])
    some qr'.1
  else none

/-- The batched polynomial `w_ev_x` before division, `plonk/src/prover.rs` lines 214-227. -/
def openingPoly (cc : CompiledCircuit F) (v : F) (bar : Bars F) (rx ax bx cx : DP F) (barR : F) :
    Option (DP F) := do
  let p0 ← polySubPara rx barR
  let p1 ← polySubPara ax bar.a
  let p2 ← polySubPara bx bar.b
  let p3 ← polySubPara cx bar.c
  let p4 ← polySubPara cc.copy.s1 bar.s1
  let p5 ← polySubPara cc.copy.s2 bar.s2
  pure (add (add (add (add (add p0 (smul p1 v)) (smul p2 (v ^ 2))) (smul p3 (v * v * v)))
    (smul p4 (v * v * v * v))) (smul p5 (v * v * v * v * v)))

variable {G1 G2 GT : Type} [AddCommGroup G1] [Module F G1]

/-- `commit_round1`, `plonk/src/prover.rs` lines 571-581. -/
def commitRound1 (ax bx cx : DP F) (srs : Srs G1 G2) : Option (G1 × G1 × G1) := do
  let a ← commit srs ax
  let b ← commit srs bx
  let c ← commit srs cx
  pure (a, b, c)

/-- Rounds 1: the blinded wire polynomial, `plonk/src/prover.rs` lines 79-90. -/
def wirePoly (f : DP F) (hi lo : F) (d : Domain F) : DP F :=
  add f (mulByVanishing (fromCoeffs [lo, hi]) d)

/-- Round 2: `z_x` and `z_wx`, `plonk/src/prover.rs` lines 108-121. -/
def accPolys (beta gamma : F) (b : Blinders F) (d : Domain F) (cc : CompiledCircuit F) :
    Option (DP F × DP F) := do
  let pre4 := mulByVanishing (fromCoeffs [b.b9, b.b8, b.b7]) d
  let pre4w := mulByVanishing (fromCoeffs [b.b9, b.b8 * d.element 1, b.b7 * d.element 2]) d
  let acc ← computeAcc beta gamma d cc
  pure (add pre4 acc.1, add pre4w acc.2)

/-- Feeding the six `commit_para` commitments, `plonk/src/prover.rs` lines 183-188 and
`plonk/src/verifier.rs` lines 206-211. -/
def feedBars (env : Env F G1) (dig : List UInt8 → List UInt8) (srs : Srs G1 G2) (bar : Bars F)
    (ch : ChallengeGenerator) : Option ChallengeGenerator := do
  let c1 ← commitPara srs bar.a
  let c2 ← commitPara srs bar.b
  let c3 ← commitPara srs bar.c
  let c4 ← commitPara srs bar.s1
  let c5 ← commitPara srs bar.s2
  let c6 ← commitPara srs bar.zw
  pure ((((((ch.feed env dig c1).feed env dig c2).feed env dig c3).feed env dig c4).feed env dig c5).feed
    env dig c6)

/-- Values computed in round 1. -/
structure Round1 (F G1 : Type) where
  /-- `ax` -/
  ax : DP F
  /-- `bx` -/
  bx : DP F
  /-- `cx` -/
  cx : DP F
  /-- `a_commit` -/
  aC : G1
  /-- `b_commit` -/
  bC : G1
  /-- `c_commit` -/
  cC : G1

/-- Round 1 of `generate_proof`, `plonk/src/prover.rs` lines 68-92. -/
def round1 (cc : CompiledCircuit F) (srs : Srs G1 G2) (b : Blinders F) (d : Domain F) :
    Option (Round1 F G1) := do
  let ax := wirePoly cc.gate.fax b.b1 b.b2 d
  let bx := wirePoly cc.gate.fbx b.b3 b.b4 d
  let cx := wirePoly cc.gate.fcx b.b5 b.b6 d
  let com1 ← commitRound1 ax bx cx srs
  pure ⟨ax, bx, cx, com1.1, com1.2.1, com1.2.2⟩

/-- Values computed in round 2. -/
structure Round2 (F G1 : Type) where
  /-- `beta` -/
  beta : F
  /-- `gamma` -/
  gamma : F
  /-- `z_x` -/
  zx : DP F
  /-- `z_wx` -/
  zwx : DP F
  /-- `z_commit` -/
  zC : G1
  /-- `challenge` -/
  ch : ChallengeGenerator

/-- Round 2 of `generate_proof`, `plonk/src/prover.rs` lines 98-123.  The challenge generator is
`ChallengeGenerator::<Sha256>` (line 98). -/
def round2 (env : Env F G1) (cc : CompiledCircuit F) (srs : Srs G1 G2) (b : Blinders F) (d : Domain F)
    (r1 : Round1 F G1) : Option (Round2 F G1) := do
  let bg ← (((ChallengeGenerator.default.feed env env.sha256 r1.aC).feed env env.sha256 r1.bC).feed
    env env.sha256 r1.cC).generate2 env
  let zz ← accPolys bg.1.1 bg.1.2 b d cc
  let zC ← commit srs zz.1
  pure ⟨bg.1.1, bg.1.2, zz.1, zz.2, zC, bg.2⟩

/-- Values computed in round 3. -/
structure Round3 (F G1 : Type) where
  /-- `alpha` -/
  alpha : F
  /-- `slice_poly` -/
  sp : SlicePoly F
  /-- `t_lo_commit` -/
  tLoC : G1
  /-- `t_mid_commit` -/
  tMidC : G1
  /-- `t_hi_commit` -/
  tHiC : G1
  /-- `challenge` -/
  ch : ChallengeGenerator

/-- Round 3 of `generate_proof`, `plonk/src/prover.rs` lines 133-150. -/
def round3 (env : Env F G1) (cc : CompiledCircuit F) (srs : Srs G1 G2) (d : Domain F)
    (r1 : Round1 F G1) (r2 : Round2 F G1) : Option (Round3 F G1) := do
  let al ← (r2.ch.feed env env.sha256 r2.zC).generate1 env
  let tx ← computeQuotient r2.beta r2.gamma al.1 r1.ax r1.bx r1.cx r2.zx r2.zwx d cc
  let sp ← SlicePoly.new tx
  let tC ← sp.commit srs
  pure ⟨al.1, sp, tC.1, tC.2.1, tC.2.2, al.2⟩

/-- Values computed in round 4. -/
structure Round4 (F : Type) where
  /-- `evaluation_challenge` -/
  ev : F
  /-- `bar_*` -/
  bar : Bars F
  /-- `pi_e` -/
  piE : F
  /-- `tx_compact` -/
  tc : DP F
  /-- `challenge` -/
  ch : ChallengeGenerator

/-- Round 4 of `generate_proof`, `plonk/src/prover.rs` lines 156-178. -/
def round4 (env : Env F G1) (cc : CompiledCircuit F) (d : Domain F) (r1 : Round1 F G1)
    (r2 : Round2 F G1) (r3 : Round3 F G1) : Option (Round4 F) := do
  let evc ← (((r3.ch.feed env env.sha256 r3.tLoC).feed env env.sha256 r3.tMidC).feed env env.sha256
    r3.tHiC).generate1 env
  pure
    { ev := evc.1
      bar :=
        { a := Ark.eval r1.ax evc.1, b := Ark.eval r1.bx evc.1, c := Ark.eval r1.cx evc.1
          s1 := Ark.eval cc.copy.s1 evc.1, s2 := Ark.eval cc.copy.s2 evc.1
          zw := Ark.eval r2.zx (evc.1 * d.element 1) }
      piE := Ark.eval cc.gate.pix evc.1
      tc := r3.sp.compact evc.1
      ch := evc.2 }

/-- Round 5 of `generate_proof`, `plonk/src/prover.rs` lines 183-292. -/
def round5 (env : Env F G1) (cc : CompiledCircuit F) (srs : Srs G1 G2) (d : Domain F) (r1 : Round1 F G1)
    (r2 : Round2 F G1) (r3 : Round3 F G1) (r4 : Round4 F) : Option (Proof F G1) := do
  let ch3 ← feedBars env env.sha256 srs r4.bar r4.ch
  let vc ← ch3.generate1 env
  let rx ← computeLinearisation r2.beta r2.gamma r3.alpha r4.ev r4.bar r4.piE r4.tc r2.zx r1.ax r1.bx
    r1.cx r2.zwx d cc
  let wPoly ← openingPoly cc vc.1 r4.bar rx r1.ax r1.bx r1.cx (Ark.eval rx r4.ev)
  let w ← divideRoot wPoly r4.ev
  let wwPoly ← polySubPara r2.zx r4.bar.zw
  let ww ← divideRoot wwPoly (r4.ev * d.element 1)
  let wC ← commit srs w
  let wwC ← commit srs ww
  let uc ← ((vc.2.feed env env.sha256 wC).feed env env.sha256 wwC).generate1 env
  pure { aC := r1.aC, bC := r1.bC, cC := r1.cC, zC := r2.zC, tLoC := r3.tLoC, tMidC := r3.tMidC,
         tHiC := r3.tHiC, wC := wC, wwC := wwC, barA := r4.bar.a, barB := r4.bar.b, barC := r4.bar.c,
         barS1 := r4.bar.s1, barS2 := r4.bar.s2, barZw := r4.bar.zw, u := uc.1, degree := r3.sp.degree }

/-- `generate_proof::<T>`, `plonk/src/prover.rs` lines 61-293.  The digest `T` is not used: the
challenge generator is `ChallengeGenerator::<Sha256>` (line 98).  `b` are the random blinders.
(The `#[cfg(test)]` assertions and the `println!`s are not part of the model.) -/
def generateProof (env : Env F G1) (_T : List UInt8 → List UInt8) (cc : CompiledCircuit F)
    (srs : Srs G1 G2) (b : Blinders F) : Option (Proof F G1) := do
  let d ← Domain.new? cc.size
  let r1 ← round1 cc srs b d
  let r2 ← round2 env cc srs b d r1
  let r3 ← round3 env cc srs d r1 r2
  let r4 ← round4 env cc d r1 r2 r3
  round5 env cc srs d r1 r2 r3 r4

/-! ## Verifier (`plonk/src/verifier.rs`) -/

/-- The result of `get_circuit_commitment`. -/
structure CircuitCommitment (G1 : Type) where
  /-- `q_m_c` -/
  qM : G1
  /-- `q_l_c` -/
  qL : G1
  /-- `q_r_c` -/
  qR : G1
  /-- `q_o_c` -/
  qO : G1
  /-- `q_c_c` -/
  qC : G1
  /-- `s_sigma_1_c` -/
  s1 : G1
  /-- `s_sigma_2_c` -/
  s2 : G1
  /-- `s_sigma_3_c` -/
  s3 : G1

/-- `get_circuit_commitment`, `plonk/src/verifier.rs` lines 160-185. -/
def getCircuitCommitment (cc : CompiledCircuit F) (srs : Srs G1 G2) : Option (CircuitCommitment G1) := do
  let qM ← commit srs cc.gate.qmx
  let qL ← commit srs cc.gate.qlx
  let qR ← commit srs cc.gate.qrx
  let qO ← commit srs cc.gate.qox
  let qC ← commit srs cc.gate.qcx
  let s1 ← commit srs cc.copy.s1
  let s2 ← commit srs cc.copy.s2
  let s3 ← commit srs cc.copy.s3
  pure ⟨qM, qL, qR, qO, qC, s1, s2, s3⟩

/-- The challenges recomputed by the verifier. -/
structure Challenges (F : Type) where
  /-- `alpha` -/
  alpha : F
  /-- `beta` -/
  beta : F
  /-- `gamma` -/
  gamma : F
  /-- `evaluation_challenge` -/
  ev : F
  /-- `v` -/
  v : F
  /-- `u` -/
  u : F

/-- The evaluations contained in a proof. -/
def Proof.bars {F G1 : Type} (p : Proof F G1) : Bars F := ⟨p.barA, p.barB, p.barC, p.barS1, p.barS2, p.barZw⟩

/-- `verify_challenges::<T>`, `plonk/src/verifier.rs` lines 188-220; `dig` is the digest `T`. -/
def verifyChallenges (env : Env F G1) (dig : List UInt8 → List UInt8) (p : Proof F G1)
    (srs : Srs G1 G2) : Option (Challenges F) := do
  let bg ← (ChallengeGenerator.fromCommitments env dig [p.aC, p.bC, p.cC]).generate2 env
  let al ← (bg.2.feed env dig p.zC).generate1 env
  let evc ← (((al.2.feed env dig p.tLoC).feed env dig p.tMidC).feed env dig p.tHiC).generate1 env
  let ch3 ← feedBars env dig srs p.bars evc.2
  let vc ← ch3.generate1 env
  let uc ← ((vc.2.feed env dig p.wC).feed env dig p.wwC).generate1 env
  pure { alpha := al.1, beta := bg.1.1, gamma := bg.1.2, ev := evc.1, v := vc.1, u := uc.1 }

/-- `r_0`, `plonk/src/verifier.rs` lines 55-61. -/
def verifierR0 (p : Proof F G1) (c : Challenges F) (l1e piE : F) : F :=
  piE - l1e * c.alpha * c.alpha -
    c.alpha * (p.barA + p.barS1 * c.beta + c.gamma) * (p.barB + p.barS2 * c.beta + c.gamma) *
      (p.barC + c.gamma) * p.barZw

/-- `[D]`, `plonk/src/verifier.rs` lines 66-102. -/
def verifierD (cc : CompiledCircuit F) (k : CircuitCommitment G1) (p : Proof F G1) (c : Challenges F)
    (zhe l1e : F) : G1 :=
  let line1 := (p.barA * p.barB) • k.qM + p.barA • k.qL + p.barB • k.qR + p.barC • k.qO + k.qC
  let line2 := ((p.barA + c.beta * c.ev + c.gamma) * (p.barB + c.beta * cc.copy.k1 * c.ev + c.gamma) *
    (p.barC + c.beta * cc.copy.k2 * c.ev + c.gamma) * c.alpha + l1e * c.alpha * c.alpha + c.u) • p.zC
  let line3 := ((p.barA + c.beta * p.barS1 + c.gamma) * (p.barB + c.beta * p.barS2 + c.gamma) * c.alpha *
    c.beta * p.barZw) • k.s3
  let line4 := zhe • (p.tLoC + (c.ev ^ (p.degree + 1)) • p.tMidC + (c.ev ^ (p.degree * 2 + 2)) • p.tHiC)
  line1 + line2 - line3 - line4

/-- `[F]`, `plonk/src/verifier.rs` lines 107-112. -/
def verifierF (k : CircuitCommitment G1) (p : Proof F G1) (v : F) (d : G1) : G1 :=
  d + v • p.aC + (v * v) • p.bC + (v * v * v) • p.cC + (v * v * v * v) • k.s1 +
    (v * v * v * v * v) • k.s2

/-- The scalar of `[E]`, `plonk/src/verifier.rs` lines 116-122. -/
def verifierE (p : Proof F G1) (v u r0 : F) : F :=
  -r0 + v * p.barA + v * v * p.barB + v * v * v * p.barC + v * v * v * v * p.barS1 +
    v * v * v * v * v * p.barS2 + u * p.barZw

variable [AddCommGroup G2] [Module F G2] [AddCommGroup GT] [Module F GT] [DecidableEq GT]

/-- `verify::<T>`, `plonk/src/verifier.rs` lines 19-157; `dig` is the digest `T`.  Panics if a circuit
polynomial is too large for the SRS, if no challenge can be generated, if there is no domain of the
given size, and (division by zero) if the evaluation challenge is 1. -/
def verify (env : Env F G1) (dig : List UInt8 → List UInt8) (P : PairingGroups F G1 G2 GT)
    (cc : CompiledCircuit F) (srs : Srs G1 G2) (p : Proof F G1) : Option (Except String Unit) := do
  let k ← getCircuitCommitment cc srs
  let c ← verifyChallenges env dig p srs
  if c.u ≠ p.u then
    some (.error "Verify: Challenge verification failed.")
  else do
    let d ← Domain.new? cc.size
    let w := d.element 1
    let zhe := c.ev ^ d.size - 1
    if (cc.size : F) * (c.ev - 1) = 0 then none
    else do
      let l1e := zhe / ((cc.size : F) * (c.ev - 1))
      let piE := Ark.eval cc.gate.pix c.ev
      let r0 := verifierR0 p c l1e piE
      let dd := verifierD cc k p c zhe l1e
      let f := verifierF k p c.v dd
      let e ← commitPara srs (verifierE p c.v c.u r0)
      let left := P.e (p.wC + c.u • p.wwC) srs.g2s
      let right := P.e (c.ev • p.wC + (c.u * c.ev * w) • p.wwC + f - e) srs.g2
      if left ≠ right then some (.error "Verify: Pairing failed, rejected")
      else some (.ok ())

end prover

end Verif.Plonk

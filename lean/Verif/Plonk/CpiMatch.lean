import Verif.Plonk.Cpi
import Verif.Plonk.EndToEnd

/-!
# C64, C72: the verifier's preprocessed input matches the prover's circuit
-/

set_option linter.unusedSectionVars false
set_option linter.unusedSimpArgs false
set_option linter.unusedVariables false

namespace Verif.Plonk

open Verif.Ark Verif.Kzg

/-! ## Compilation -/

section compile
variable {F : Type} [FftField F] [DecidableEq F]

/-- The public part of a compiled circuit, as `CPICircuit::compile` returns it. -/
def CompiledCircuit.publicPart (cc : CompiledCircuit F) : GateConstraints F × CopyConstraints F × ℕ :=
  ({ cc.gate with fax := [], fbx := [], fcx := [] }, cc.copy, cc.size)

theorem cpi_addDummies_eq (k : ℕ) (s : CPICircuit F) :
    CPICircuit.addDummies k s = ⟨s.gates ++ List.replicate k Gate.newDummy⟩ := by
  induction k generalizing s with
  | zero => simp [CPICircuit.addDummies]
  | succ k ih =>
    rw [CPICircuit.addDummies, ih]
    simp [CPICircuit.addDummyGate, List.replicate_succ]

theorem cpi_pad_build (calls : List (GateCall F)) :
    (⟨calls.map GateCall.gate⟩ : CPICircuit F).pad = if calls.length < 2 then none else
      some ⟨calls.map GateCall.gate ++ List.replicate (nextPow2 calls.length - calls.length) Gate.newDummy⟩ := by
  simp only [CPICircuit.pad, List.length_map]
  split
  · rfl
  · next h => rw [cpi_addDummies_eq, pad_length (by omega)]

theorem filter_calls (calls : List (GateCall F)) (k : ℕ) :
    ((calls.map GateCall.gate ++ List.replicate k Gate.newDummy).filter fun g => !g.isDummy) =
      calls.map GateCall.gate := by
  rw [List.filter_append]
  have h1 : (calls.map GateCall.gate).filter (fun g => !g.isDummy) = calls.map GateCall.gate := by
    rw [List.filter_eq_self]
    intro g hg
    obtain ⟨call, -, rfl⟩ := List.mem_map.1 hg
    rw [gate_not_dummy]
    rfl
  have h2 : (List.replicate k (Gate.newDummy : Gate F)).filter (fun g => !g.isDummy) = [] := by
    rw [List.filter_eq_nil_iff]
    intro g hg
    rw [(List.mem_replicate.1 hg).2, dummy_isDummy]
    decide
  rw [h1, h2, List.append_nil]

theorem sigmaLoop_congr {elem elem' : Position → Option F} (gs : List (Gate F)) (i : ℕ)
    (s : List F × List F × List F)
    (h : ∀ g ∈ gs, g.isDummy = false → elem g.aPos = elem' g.aPos ∧ elem g.bPos = elem' g.bPos ∧
      elem g.cPos = elem' g.cPos) : sigmaLoop elem gs i s = sigmaLoop elem' gs i s := by
  induction gs generalizing i s with
  | nil => rfl
  | cons g gs ih =>
    have ih' := fun i s => ih i s (fun x hx => h x (List.mem_cons_of_mem _ hx))
    unfold sigmaLoop
    by_cases hd : g.isDummy = true
    · rw [if_pos hd, if_pos hd, ih']
    · rw [if_neg hd, if_neg hd]
      obtain ⟨h1, h2, h3⟩ := h g (by simp) (by simpa using hd)
      rw [h1, h2, h3]
      simp only [ih']

/-- The same call made on a `CPICircuit`, whose `add_*_gate` functions take positions but no values; the constant of
a constant gate is passed separately. -/
def GateCall.applyCpi (s : CPICircuit F) (call : GateCall F) : CPICircuit F :=
  match call.ty with
  | .addition => s.addAdditionGate (call.a.1, call.a.2.1) (call.b.1, call.b.2.1) (call.c.1, call.c.2.1) call.pi
  | .multiplication =>
    s.addMultiplicationGate (call.a.1, call.a.2.1) (call.b.1, call.b.2.1) (call.c.1, call.c.2.1) call.pi
  | .constant =>
    s.addConstantGate (call.a.1, call.a.2.1) (call.b.1, call.b.2.1) (call.c.1, call.c.2.1) call.a.2.2 call.pi

/-- The `CPICircuit` after a sequence of calls on `CPICircuit::default()`. -/
def buildCpi (calls : List (GateCall F)) : CPICircuit F := calls.foldl GateCall.applyCpi .default

theorem buildCpi_eq (calls : List (GateCall F)) : buildCpi calls = ⟨(build calls).gates⟩ := by
  have key : ∀ (cs : List (GateCall F)) (s : CPICircuit F),
      cs.foldl GateCall.applyCpi s = ⟨s.gates ++ cs.map GateCall.gate⟩ := by
    intro cs
    induction cs with
    | nil => intro s; simp
    | cons c cs ih =>
      intro s
      rw [List.foldl_cons, ih]
      have : (GateCall.applyCpi s c).gates = s.gates ++ [c.gate] := by
        unfold GateCall.applyCpi GateCall.gate
        cases c.ty <;> rfl
      rw [this]
      simp
  rw [build_eq, buildCpi, key]
  simp [CPICircuit.default]

theorem compile_agrees_aux (calls : List (GateCall F))
    (h3 : ∀ call ∈ calls, call.a.1 < 3 ∧ call.b.1 < 3 ∧ call.c.1 < 3) :
    (⟨(build calls).gates⟩ : CPICircuit F).compile = ((build calls).compile).map CompiledCircuit.publicPart := by
  have hg : (build calls).gates = calls.map GateCall.gate := by rw [build_eq]
  rw [hg]
  unfold CPICircuit.compile Circuit.compile
  rw [cpi_pad_build, pad_build]
  by_cases hlen : calls.length < 2
  · rw [if_pos hlen, if_pos hlen]; rfl
  rw [if_neg hlen, if_neg hlen]
  simp only [Option.bind_eq_bind, Option.bind_some]
  have hass := assignmentLoop_calls
    (⟨calls.map GateCall.gate ++ List.replicate (nextPow2 calls.length - calls.length) Gate.newDummy,
      calls.map fun k => k.a.2.2, calls.map fun k => k.b.2.2, calls.map fun k => k.c.2.2⟩ : Circuit F) [] calls
    (nextPow2 calls.length - calls.length) rfl rfl rfl
  unfold Circuit.getAssignment CPICircuit.getAssignment
  rw [List.length_nil] at hass
  dsimp only at hass ⊢
  rw [hass, filter_calls]
  have hperm : cpiCalPermutation (calls.map GateCall.gate ++
        List.replicate (nextPow2 calls.length - calls.length) Gate.newDummy) =
      calPermutation (calls.map GateCall.gate ++
        List.replicate (nextPow2 calls.length - calls.length) (Gate.newDummy : Gate F)) := by
    unfold cpiCalPermutation calPermutation
    congr 1
    funext d
    dsimp only
    congr 1
    funext r0
    congr 1
    apply sigmaLoop_congr
    intro g hg hd
    rcases List.mem_append.1 hg with hg | hg
    · obtain ⟨call, hcall, rfl⟩ := List.mem_map.1 hg
      obtain ⟨e1, e2, e3⟩ := gate_pos call
      obtain ⟨l1, l2, l3⟩ := h3 call hcall
      rw [e1, e2, e3]
      have key : ∀ l j, l < 3 → cpiMapElement d.elements (d.elements.map fun r => r * (r0 + 1))
          (d.elements.map fun r => r * (r0 + 1 + 1)) (.pos l j) = mapElement d.elements
          (d.elements.map fun r => r * (r0 + 1)) (d.elements.map fun r => r * (r0 + 1 + 1)) (.pos l j) := by
        intro l j hl
        obtain rfl | rfl | rfl : l = 0 ∨ l = 1 ∨ l = 2 := by omega
        · rfl
        · rfl
        · rfl
      exact ⟨key _ _ l1, key _ _ l2, key _ _ l3⟩
    · rw [(List.mem_replicate.1 hg).2, dummy_isDummy] at hd
      cases hd
  rw [hperm]
  cases (Domain.new? (calls.map GateCall.gate ++
      List.replicate (nextPow2 calls.length - calls.length) (Gate.newDummy : Gate F)).length : Option (Domain F)) with
  | none => rfl
  | some d =>
    cases calPermutation (calls.map GateCall.gate ++
        List.replicate (nextPow2 calls.length - calls.length) (Gate.newDummy : Gate F)) with
    | none => rfl
    | some cp =>
      simp only [Option.bind_some, Option.pure_def, Option.map_some, CompiledCircuit.publicPart, List.map_map]
      rfl

/-- **C72**: on circuits built with the same calls, all wired to one of the three layers, `CPICircuit::compile` and
`Circuit::compile` agree on everything but the wire polynomials, and panic on the same circuits. -/
theorem C72_compile_agrees (calls : List (GateCall F))
    (h3 : ∀ call ∈ calls, call.a.1 < 3 ∧ call.b.1 < 3 ∧ call.c.1 < 3) :
    (buildCpi calls).compile = ((build calls).compile).map CompiledCircuit.publicPart := by
  rw [buildCpi_eq]
  exact compile_agrees_aux calls h3

end compile

/-! ## The parser without witnesses -/

/-- A gate of the prover's parser without its values. -/
def PGate.erase {F : Type} (g : PGate F) : CGate := ⟨g.left.name, g.right.name, g.bottom.name, g.ty⟩

section sim
variable {F : Type} [Field F] [DecidableEq F]

/-- Both parsers are in the same state, up to values. -/
structure Sim (st : PState F) (cs : CState) : Prop where
  gates : cs.gates = st.gates.map PGate.erase
  set : cs.set = st.set.map PGate.erase
  pm : cs.pm = st.pm
  consts : ∀ g ∈ cs.gates, g.ty = .constant → (parseI32 g.left).isSome

/-- All wires of the gate carry the value of their expression. -/
def PGate.Good (wit : List Char → Option F) (g : PGate F) : Prop :=
  g.left.Good wit ∧ g.right.Good wit ∧ g.bottom.Good wit

theorem Wire.ext_good {wit : List Char → Option F} {v w : Wire F} (hv : v.Good wit) (hw : w.Good wit)
    (h : v.name = w.name) : v = w := by
  obtain ⟨n, x⟩ := v
  obtain ⟨m, y⟩ := w
  simp only [Wire.Good] at hv hw h
  subst h
  rw [hv, hw]

theorem erase_inj {wit : List Char → Option F} {g g' : PGate F} (hg : g.Good wit) (hg' : g'.Good wit)
    (h : g.erase = g'.erase) : g = g' := by
  obtain ⟨l, r, b, t⟩ := g
  obtain ⟨l', r', b', t'⟩ := g'
  simp only [PGate.erase, CGate.mk.injEq] at h
  obtain ⟨h1, h2, h3, h4⟩ := h
  have e1 := Wire.ext_good hg.1 hg'.1 h1
  have e2 := Wire.ext_good hg.2.1 hg'.2.1 h2
  have e3 := Wire.ext_good hg.2.2 hg'.2.2 h3
  dsimp only at e1 e2 e3
  rw [e1, e2, e3, h4]

theorem Sim.insertGate {wit : List Char → Option F} {K : ℕ} {st : PState F} {cs : CState} (h : Sim st cs)
    (hst : st.Inv wit K) {g : PGate F} (hg : g.Good wit)
    (hconst : g.ty = .constant → (parseI32 g.left.name).isSome) : Sim (st.insertGate g) (cs.insertGate g.erase) := by
  have hmem : g.erase ∈ cs.set ↔ g ∈ st.set := by
    rw [h.set]
    constructor
    · intro hx
      obtain ⟨g', hg', he⟩ := List.mem_map.1 hx
      have := erase_inj (hst.gates g' (hst.set g' hg')).good hg he
      rwa [← this]
    · exact fun hx => List.mem_map_of_mem hx
  unfold PState.insertGate CState.insertGate
  by_cases hin : g ∈ st.set
  · rw [if_pos hin, if_pos (hmem.2 hin)]
    exact h
  · rw [if_neg hin, if_neg (fun hx => hin (hmem.1 hx))]
    refine ⟨?_, ?_, ?_, ?_⟩
    · dsimp only; rw [h.gates, List.map_append]; rfl
    · dsimp only; rw [h.set]; rfl
    · dsimp only
      rw [h.pm, h.gates, List.length_map]
      rfl
    · intro x hx ht
      rcases List.mem_append.1 hx with hx | hx
      · exact h.consts x hx ht
      · rw [List.mem_singleton] at hx
        subst hx
        exact hconst ht

variable {wit : List Char → Option F} (hw : ∀ nm v, wit nm = some v → parseI32 nm = none)
include hw

/-- Operands on which both parsers agree: a witness whose operand text (with sign) is not a number, or a number
written the way the prover's parser writes it. -/
def Canonical (wit : List Char → Option F) (tok : List Char) : Prop :=
  match wit (tokBody tok) with
  | some _ => parseI32 tok = none
  | none => ∀ k, parseI32 (tokBody tok) = some k →
      (constWire (tokNeg tok) k : Wire F).name = tok ∧ (parseI32 tok).isSome

theorem sim_operand {K : ℕ} (hK : 0 < K) {tok : List Char} (hcan : Canonical wit tok) {st : PState F} {cs : CState}
    (hs : Sim st cs) (hst : st.Inv wit K) {r : F × PState F} (h : getWitnessValue wit tok st = some r) :
    Sim r.2 (checkConstant cs tok) := by
  by_cases hok : OperandOk wit tok
  · rw [(getWitnessValue_eq wit tok st).2 hok, Option.some.injEq] at h
    subst h
    dsimp only
    unfold Canonical at hcan
    cases hwt : wit (tokBody tok) with
    | some v =>
      rw [hwt] at hcan
      dsimp only at hcan ⊢
      unfold checkConstant
      rw [hcan]
      exact hs
    | none =>
      rw [hwt] at hcan
      dsimp only at hcan ⊢
      cases hp : parseI32 (tokBody tok) with
      | none =>
        obtain ⟨-, h | h⟩ := hok
        · rw [hwt] at h; cases h
        · rw [hp] at h; cases h
      | some k =>
        obtain ⟨hn, hsome⟩ := hcan k hp
        obtain ⟨h1, h2⟩ := parseI32_range hp
        have hpos : tokNeg tok = true ∨ 0 ≤ k := by
          cases hn : tokNeg tok with
          | true => exact Or.inl rfl
          | false =>
            right
            refine parseI32_nonneg hp fun r hr => ?_
            have hne : tok ≠ [] := by
              rintro rfl
              simp [tokBody] at hr
            obtain ⟨c, rest, rfl⟩ := List.exists_cons_of_ne_nil hne
            rw [tokNeg_cons, decide_eq_false_iff_not] at hn
            rw [tokBody_cons, if_neg hn, List.cons.injEq] at hr
            exact hn hr.1
        have hok' := constGate_ok hw hK h1 h2 hpos
        have := hs.insertGate hst hok'.good (fun _ => by dsimp only; rw [hn]; exact hsome)
        unfold checkConstant
        rw [if_pos hsome]
        unfold generateConstantGate cConstantGate
        simp only [PGate.erase] at this
        rw [hn] at this
        simpa only [hn] using this
  · rw [(getWitnessValue_eq wit tok st).1 hok] at h
    cases h

theorem sim_tokens (U : Unicode) {K : ℕ} (hK : 0 < K) (toks : List (List Char))
    (hcan : ∀ tok ∈ toks, Canonical wit (trim U tok)) {st : PState F} {cs : CState}
    (hs : Sim st cs) (hst : st.Inv wit K) {r : List (Wire F) × PState F} (h : tokenWires U wit toks st = some r) :
    (cTokens U toks cs).1 = r.1.map Wire.name ∧ Sim r.2 (cTokens U toks cs).2 := by
  induction toks generalizing st cs r with
  | nil => simp only [tokenWires, Option.some.injEq] at h; subst h; exact ⟨rfl, hs⟩
  | cons s rest ih =>
    simp only [tokenWires, Option.bind_eq_bind, Option.bind_eq_some_iff, Option.pure_def, Option.some.injEq] at h
    obtain ⟨a, ha, b, hb, rfl⟩ := h
    have h1 := sim_operand hw hK (hcan s (by simp)) hs hst ha
    obtain ⟨h2, h3⟩ := ih (r := b) (fun t ht => hcan t (by simp [ht])) h1 (getWitnessValue_run hw hK hst ha) hb
    refine ⟨?_, h3⟩
    simp only [cTokens, List.map_cons, h2]

omit hw in
theorem sim_mul {K : ℕ} (hK : 0 < K) (ws : List (Wire F)) (w : Wire F) {st : PState F} {cs : CState}
    (hs : Sim st cs) (hst : st.Inv wit K) (hgw : w.Good wit) (hpw : '+' ∉ w.name)
    (hws : ∀ v ∈ ws, v.Good wit ∧ '+' ∉ v.name) :
    (cMulReduce w.name (ws.map Wire.name) cs).1 = (mulReduce w ws st).1.name ∧
      Sim (mulReduce w ws st).2 (cMulReduce w.name (ws.map Wire.name) cs).2 := by
  induction ws generalizing w st cs with
  | nil => exact ⟨rfl, hs⟩
  | cons v ws ih =>
    obtain ⟨hv, hpv⟩ := hws v (by simp)
    have hrun := mulReduce_run hK [v] w hst hgw hpw (by intro x hx; rw [List.mem_singleton] at hx; subst hx; exact ⟨hv, hpv⟩)
    obtain ⟨r1, r2, r3, -, -⟩ := hrun
    have hsim := hs.insertGate hst (g := ⟨w, v, ⟨w.name ++ '*' :: v.name, w.val * v.val⟩, .multiplication⟩)
      ⟨hgw, hv, r2⟩ (by intro h; cases h)
    exact ih (⟨w.name ++ '*' :: v.name, w.val * v.val⟩ : Wire F) hsim r1 r2 r3 (fun x hx => hws x (by simp [hx]))

theorem sim_term (U : Unicode) {K : ℕ} (hK : 0 < K) {t : List Char} (ht : '+' ∉ t)
    (hcan : ∀ tok ∈ t.splitOn '*', Canonical wit (trim U tok)) {st : PState F} {cs : CState}
    (hs : Sim st cs) (hst : st.Inv wit K) {r : Wire F × PState F} (h : termWire U wit t st = some r) :
    ∃ r', cTerm U t cs = some r' ∧ r'.1 = r.1.name ∧ Sim r.2 r'.2 := by
  simp only [termWire, Option.bind_eq_bind, Option.bind_eq_some_iff] at h
  obtain ⟨a, ha, h⟩ := h
  have hinv := tokenWires_run hw U hK _ hst ha
  have hws := tokenWires_length U _ ha
  have hall : ∀ v ∈ a.1, v.Good wit ∧ '+' ∉ v.name := by
    intro v hv
    rw [hws] at hv
    obtain ⟨tok, htok, rfl⟩ := List.mem_map.1 hv
    have hmem := mem_splitOn htok
    have hp : '+' ∉ trim U tok := fun hx => ht (hmem _ (mem_trim hx)).1
    have hs : '*' ∉ trim U tok := fun hx => (hmem _ (mem_trim hx)).2 rfl
    exact ⟨(exprVal_token wit hp hs).symm, hp⟩
  obtain ⟨e1, e2⟩ := sim_tokens hw U hK _ hcan hs hst ha
  split at h
  · cases h
  · rename_i w ws heq
    simp only [Option.pure_def, Option.some.injEq] at h
    subst h
    rw [heq] at hall e1
    obtain ⟨f1, f2⟩ := sim_mul hK ws w e2 hinv (hall w (by simp)).1 (hall w (by simp)).2
      (fun v hv => hall v (by simp [hv]))
    refine ⟨cMulReduce w.name (ws.map Wire.name) (cTokens U (t.splitOn '*') cs).2, ?_, f1, f2⟩
    unfold cTerm
    dsimp only
    rw [e1]
    rfl

theorem sim_add (U : Unicode) {K : ℕ} (hK : 0 < K) (ts : List (List Char)) (hts : ∀ t ∈ ts, '+' ∉ t)
    (hcan : ∀ t ∈ ts, ∀ tok ∈ t.splitOn '*', Canonical wit (trim U tok)) {w : Wire F}
    {st : PState F} {cs : CState} (hs : Sim st cs) (hst : st.Inv wit K) (hgw : w.Good wit)
    (hc : w.name.count '+' + ts.length ≤ K) {r : Wire F × PState F} (h : addReduce U wit ts w st = some r) :
    ∃ r', cAddReduce U ts w.name cs = some r' ∧ r'.1 = r.1.name ∧ Sim r.2 r'.2 := by
  induction ts generalizing w st cs with
  | nil =>
    simp only [addReduce, Option.some.injEq] at h
    subst h
    exact ⟨_, rfl, rfl, hs⟩
  | cons t ts ih =>
    simp only [addReduce, Option.bind_eq_bind, Option.bind_eq_some_iff] at h
    obtain ⟨a, ha, h⟩ := h
    obtain ⟨h1, h2, h3, h4, -⟩ := termWire_run hw U hK (hts t (by simp)) hst ha
    obtain ⟨a', ha', e1, e2⟩ := sim_term hw U hK (hts t (by simp)) (hcan t (by simp)) hs hst ha
    rw [List.length_cons] at hc
    have hgn : (⟨w.name ++ '+' :: a.1.name, w.val + a.1.val⟩ : Wire F).Good wit := by
      unfold Wire.Good at hgw h2 ⊢
      rw [exprVal_add, ← hgw, ← h2]
    have hsim := e2.insertGate h1 (g := ⟨w, a.1, ⟨w.name ++ '+' :: a.1.name, w.val + a.1.val⟩, .addition⟩)
      ⟨hgw, h2, hgn⟩ (by intro h; cases h)
    have hred : cAddReduce U (t :: ts) w.name cs = cAddReduce U ts (w.name ++ '+' :: a.1.name)
        (a'.2.insertGate ⟨w.name, a.1.name, w.name ++ '+' :: a.1.name, .addition⟩) := by
      simp only [cAddReduce, ha', Option.bind_eq_bind, Option.bind_some, cAdditionalGate, e1]
    rw [hred]
    cases ts with
    | nil =>
      simp only [addReduce, Option.some.injEq] at h
      subst h
      exact ⟨_, rfl, rfl, hsim⟩
    | cons t' ts' =>
      rw [List.length_cons] at hc
      have hcn : (w.name ++ '+' :: a.1.name).count '+' = w.name.count '+' + 1 := by
        rw [List.count_append, List.count_cons_self, List.count_eq_zero.2 h3]
      have hok : (⟨w, a.1, ⟨w.name ++ '+' :: a.1.name, w.val + a.1.val⟩, .addition⟩ : PGate F).Ok wit K := by
        refine ⟨rfl, ⟨hgw, h2, hgn⟩, Or.inl (by dsimp only; omega), Or.inl ?_, Or.inl ?_⟩
        · rw [List.count_eq_zero.2 h3]; exact hK
        · dsimp only; rw [hcn]; omega
      exact ih (w := ⟨w.name ++ '+' :: a.1.name, w.val + a.1.val⟩) (fun x hx => hts x (by simp [hx]))
        (fun x hx => hcan x (by simp [hx])) hsim (h1.insertGate hok) hgn
        (by dsimp only; rw [hcn, List.length_cons]; omega) h

end sim

/-! ## Generating the circuit -/

section gen
variable {F : Type} [Field F] [DecidableEq F]

/-- A number written by the prover's parser and read back by `CPIGenerator` has the same value. -/
theorem constWire_parse {neg : Bool} {k k' : ℤ} (h1 : -2 ^ 31 ≤ k) (h2 : k < 2 ^ 31) (hpos : neg = true ∨ 0 ≤ k)
    (h : parseI32 (constWire neg k : Wire F).name = some k') : (k' : F) = (constWire neg k : Wire F).val := by
  cases neg with
  | false =>
    simp only [constWire, Bool.false_eq_true, if_false] at h ⊢
    rw [parseI32_showInt h1 h2, Option.some.injEq] at h
    rw [h]
  | true =>
    simp only [constWire, if_true] at h ⊢
    rcases lt_trichotomy k 0 with hk | rfl | hk
    · rw [showInt_neg hk] at h
      simp only [parseI32, parseDigits] at h
      rw [if_neg (by simp [isAsciiDigit])] at h
      cases h
    · have : showInt 0 = ['0'] := by decide
      rw [this] at h
      have h0 : parseI32 ['-', '0'] = some 0 := by decide
      rw [h0, Option.some.injEq] at h
      rw [← h]
      simp
    · have : '-' :: showInt k = showInt (-k) := by
        rw [showInt_neg (k := -k) (by omega), showInt_nonneg (k := k) (by omega), Int.natAbs_neg]
      rw [this, parseI32_showInt (by omega) (by omega), Option.some.injEq] at h
      rw [← h]
      simp

theorem sim_genStep {g : PGate F} (hg : g.ty = .constant → ∃ k, parseI32 g.left.name = some k ∧ (k : F) = g.left.val)
    {c c' : Circuit F} {pm pm' : PosMap} (h : genStep c pm g = some (c', pm')) :
    cGenStep ⟨c.gates⟩ pm g.erase = some (⟨c'.gates⟩, pm') := by
  simp only [genStep, Option.bind_eq_bind, Option.bind_eq_some_iff] at h
  obtain ⟨l, hl, r, hr, b, hb, h⟩ := h
  unfold cGenStep
  simp only [PGate.erase, hl, hr, hb, Option.bind_eq_bind, Option.bind_some]
  cases ht : g.ty with
  | addition =>
    rw [ht] at h
    simp only [Option.pure_def, Option.some.injEq, Prod.mk.injEq] at h
    obtain ⟨rfl, rfl⟩ := h
    rfl
  | multiplication =>
    rw [ht] at h
    simp only [Option.pure_def, Option.some.injEq, Prod.mk.injEq] at h
    obtain ⟨rfl, rfl⟩ := h
    rfl
  | constant =>
    rw [ht] at h
    simp only [Option.pure_def, Option.some.injEq, Prod.mk.injEq] at h
    obtain ⟨rfl, rfl⟩ := h
    obtain ⟨k, hk, hv⟩ := hg ht
    simp only [hk, Option.bind_some, Option.pure_def, hv]
    rfl

theorem sim_genLoop (gs : List (PGate F))
    (hg : ∀ g ∈ gs, g.ty = .constant → ∃ k, parseI32 g.left.name = some k ∧ (k : F) = g.left.val)
    {c c' : Circuit F} {pm : PosMap} (h : genLoop gs c pm = some c') :
    cGenLoop (gs.map PGate.erase) ⟨c.gates⟩ pm = some ⟨c'.gates⟩ := by
  induction gs generalizing c pm with
  | nil => simp only [genLoop, Option.some.injEq] at h; subst h; rfl
  | cons g gs ih =>
    simp only [genLoop, Option.bind_eq_some_iff] at h
    obtain ⟨⟨a1, a2⟩, ha, h⟩ := h
    rw [List.map_cons, cGenLoop, sim_genStep (hg g (by simp)) ha, Option.bind_some]
    exact ih (fun x hx => hg x (by simp [hx])) h

theorem zeroLast_erase {gates gates' : List (PGate F)} (h : zeroLast gates = some gates') :
    gates'.map PGate.erase = gates.map PGate.erase ∧
      ∀ g ∈ gates', ∃ g₀ ∈ gates, g.left = g₀.left ∧ g.ty = g₀.ty := by
  unfold zeroLast at h
  split at h
  · cases h
  · rename_i g hl
    simp only [Option.some.injEq] at h
    subst h
    obtain ⟨ys, rfl⟩ := List.getLast?_eq_some_iff.1 hl
    rw [List.dropLast_concat]
    constructor
    · simp [PGate.erase]
    · intro x hx
      rcases List.mem_append.1 hx with hx | hx
      · exact ⟨x, by simp [hx], rfl, rfl⟩
      · rw [List.mem_singleton] at hx
        subst hx
        exact ⟨g, by simp, rfl, rfl⟩

/-- Both parsers make the same gates, at the same positions. -/
theorem sim_prepare {wit : List Char → Option F} (hw : ∀ nm v, wit nm = some v → parseI32 nm = none) (U : Unicode)
    (hU : U.isWhitespace '-' = false) {lhs rhs : List Char} (hl : '=' ∉ lhs)
    (hr : '=' ∉ rhs) (hrp : '+' ∉ rhs)
    (hcan : ∀ t, t ∈ lhs.splitOn '+' ∨ t = '-' :: rhs → ∀ tok ∈ t.splitOn '*', Canonical wit (trim U tok))
    {gates : List (PGate F)} {pm : PosMap} (h : prepareGenCircuit U wit (lhs ++ '=' :: rhs) = some (gates, pm)) :
    prepareGeneration U (lhs ++ '=' :: rhs) = some (gates.map PGate.erase, pm) ∧
      ∀ g ∈ gates, g.ty = .constant → ∃ k, parseI32 g.left.name = some k ∧ (k : F) = g.left.val := by
  have hrun := prepare_run hw U hU hl hr hrp h
  simp only [prepareGenCircuit, Option.bind_eq_bind, Option.bind_eq_some_iff] at h
  obtain ⟨terms, hterms, h⟩ := h
  have hst := (splitTerms_eq_some (lhs ++ '=' :: rhs) _).2 ⟨lhs, rhs, rfl, hl, hr, rfl⟩
  rw [hst, Option.some.injEq] at hterms
  subst hterms
  cases hs : lhs.splitOn '+' with
  | nil => exact absurd hs (List.splitOn_ne_nil _ _)
  | cons t ts =>
    rw [hs, List.cons_append] at h hst
    simp only [Option.bind_eq_some_iff, Option.pure_def, Option.some.injEq, Prod.mk.injEq] at h
    obtain ⟨a, ha, q, hq, g', hg', rfl, rfl⟩ := h
    have hnp : ∀ x ∈ t :: ts, '+' ∉ x := by
      intro x hx hp
      exact (mem_splitOn (hs ▸ hx) _ hp).2 rfl
    have hK : 0 < ts.length + 1 := Nat.succ_pos _
    have h0 : (⟨[], [], fun _ => []⟩ : PState F).Inv wit (ts.length + 1) :=
      ⟨pmOk_empty, fun g hg => (List.not_mem_nil hg).elim, fun g hg => (List.not_mem_nil hg).elim⟩
    have hs0 : Sim (⟨[], [], fun _ => []⟩ : PState F) ⟨[], [], fun _ => []⟩ :=
      ⟨rfl, rfl, rfl, fun g hg => (List.not_mem_nil hg).elim⟩
    obtain ⟨a1, a2, a3, a4, -⟩ := termWire_run hw U hK (hnp t (by simp)) h0 ha
    obtain ⟨a', ha', b1, b2⟩ := sim_term hw U hK (hnp t (by simp)) (hcan t (Or.inl (by rw [hs]; simp))) hs0 h0 ha
    obtain ⟨q', hq', c1, c2⟩ := sim_add hw U hK (ts ++ ['-' :: rhs])
      (by
        intro x hx
        rcases List.mem_append.1 hx with hx | hx
        · exact hnp x (by simp [hx])
        · rw [List.mem_singleton] at hx; subst hx; simp [hrp])
      (by
        intro x hx
        rcases List.mem_append.1 hx with hx | hx
        · exact hcan x (Or.inl (by rw [hs]; simp [hx]))
        · rw [List.mem_singleton] at hx; exact hcan x (Or.inr hx))
      b2 a1 a2 (by rw [List.count_eq_zero.2 a3]; simp) hq
    obtain ⟨z1, z2⟩ := zeroLast_erase hg'
    constructor
    · simp only [prepareGeneration, hst, Option.bind_eq_bind, Option.bind_some, ha', Option.pure_def]
      rw [b1, hq', Option.bind_some, c2.gates, c2.pm, z1]
    · intro g hg ht
      obtain ⟨init, l, r, N, K, hgs, hok, -⟩ := hrun
      rw [hgs] at hg
      rcases List.mem_append.1 hg with hgi | hgi
      · have hshape := (hok g hgi).shape
        unfold PGate.Shape at hshape
        rw [ht] at hshape
        obtain ⟨neg, k, k1, k2, e1, -, -⟩ := hshape
        obtain ⟨g₀, hg₀, w1, w2⟩ := z2 g (by rw [hgs]; exact hg)
        have hsome := c2.consts g₀.erase (by rw [c2.gates]; exact List.mem_map_of_mem hg₀) (by
          simp only [PGate.erase]; rw [← w2, ht])
        simp only [PGate.erase] at hsome
        rw [← w1] at hsome
        obtain ⟨k', hk'⟩ := Option.isSome_iff_exists.1 hsome
        refine ⟨k', hk', ?_⟩
        rw [e1] at hk' ⊢
        by_cases hpos : neg = true ∨ 0 ≤ k
        · exact constWire_parse k1 k2 hpos hk'
        · push Not at hpos
          obtain ⟨hneg, hneg'⟩ := hpos
          have : neg = false := by simpa using hneg
          subst this
          simp only [constWire, Bool.false_eq_true, if_false] at hk' ⊢
          rw [parseI32_showInt k1 k2, Option.some.injEq] at hk'
          rw [hk']
      · rw [List.mem_singleton] at hgi
        subst hgi
        cases ht

end gen

/-! ## Equations -/

/-- The equation is written so that both parsers read the same numbers: no variable is named like a string of
digits, and the right-hand side does not start with a negative literal. -/
structure Equation.Canonical (e : Equation) : Prop where
  names : ∀ nm, e.Uses nm → ∃ c ∈ nm, isAsciiDigit c = false
  rhs : ∀ k, Factor.lit k ∈ e.rhs.head? → 0 ≤ k

theorem parseDigits_none {neg : Bool} {nm : List Char} (h : ∃ c ∈ nm, isAsciiDigit c = false) :
    parseDigits neg nm = none := by
  obtain ⟨c, hc, hd⟩ := h
  unfold parseDigits
  rw [if_neg]
  rintro ⟨-, hall⟩
  rw [List.all_eq_true] at hall
  rw [hall c hc] at hd
  cases hd

section eqs
variable {F : Type} [FftField F] [DecidableEq F]

theorem canonical_lit {wit : List Char → Option F} (hw : ∀ nm v, wit nm = some v → parseI32 nm = none) {k : ℤ}
    (hk : k.natAbs < 2 ^ 31) : Canonical wit (showInt k) := by
  unfold Canonical
  have hp : parseI32 (showInt k) = some k := parseI32_showInt (by omega) (by omega)
  by_cases hneg : k < 0
  · have e : showInt k = '-' :: showInt (-k) := by
      rw [showInt_neg hneg, showInt_nonneg (k := -k) (by omega), Int.natAbs_neg]
    have hp' : parseI32 (showInt (-k)) = some (-k) := parseI32_showInt (by omega) (by omega)
    rw [e, tokBody_cons, if_pos rfl, wit_none_of_parse hw hp']
    dsimp only
    intro k' hk'
    rw [hp', Option.some.injEq] at hk'
    subst hk'
    rw [← e, hp, e, tokNeg_cons]
    exact ⟨rfl, rfl⟩
  · obtain ⟨c, r, hd, -, hne, -⟩ := digits_head (n := k.natAbs)
    have e : showInt k = c :: r := by rw [showInt_nonneg (by omega), hd]
    have hb : tokBody (showInt k) = showInt k := by rw [e, tokBody_cons, if_neg hne]
    have hn : tokNeg (showInt k) = false := by rw [e, tokNeg_cons]; simp [hne]
    rw [hb, wit_none_of_parse hw hp]
    dsimp only
    intro k' hk'
    rw [hp, Option.some.injEq] at hk'
    subst hk'
    rw [hn, hp]
    exact ⟨rfl, rfl⟩

theorem canonical_minus_lit {wit : List Char → Option F} (hw : ∀ nm v, wit nm = some v → parseI32 nm = none) {k : ℤ}
    (hk : k.natAbs < 2 ^ 31) (hk0 : 0 ≤ k) : Canonical wit ('-' :: showInt k) := by
  unfold Canonical
  have hp : parseI32 (showInt k) = some k := parseI32_showInt (by omega) (by omega)
  rw [tokBody_cons, if_pos rfl, wit_none_of_parse hw hp]
  dsimp only
  intro k' hk'
  rw [hp, Option.some.injEq] at hk'
  subst hk'
  refine ⟨by rw [tokNeg_cons]; rfl, ?_⟩
  rcases hk0.eq_or_lt with rfl | hk0
  · decide
  · have e : '-' :: showInt k = showInt (-k) := by
      rw [showInt_neg (k := -k) (by omega), showInt_nonneg (k := k) (by omega), Int.natAbs_neg]
    rw [e, parseI32_showInt (by omega) (by omega)]
    rfl

theorem canonical_var {U : Unicode} {wit : List Char → Option F} {nm : List Char} (hnm : NameOk U nm)
    (hwit : (wit nm).isSome) (hd : ∃ c ∈ nm, isAsciiDigit c = false) (neg : Bool) :
    Canonical wit (Factor.var neg nm).text := by
  have hb : tokBody (Factor.var neg nm).text = nm := by
    obtain ⟨c, hc, -, hne⟩ := NameOk.head hnm
    have hnn : nm ≠ [] := by rintro rfl; simp at hc
    obtain ⟨c', rest, rfl⟩ := List.exists_cons_of_ne_nil hnn
    simp only [List.head?_cons, Option.mem_def, Option.some.injEq] at hc
    subst hc
    cases neg with
    | true => simp [Factor.text, tokBody_cons]
    | false => simp [Factor.text, tokBody_cons, hne]
  unfold Canonical
  rw [hb]
  obtain ⟨v, hv⟩ := Option.isSome_iff_exists.1 hwit
  rw [hv]
  dsimp only
  cases neg with
  | false => exact hnm.notNumber
  | true => exact parseDigits_none hd

theorem canonical_factor {U : Unicode} (hU : U.Sane) {wit : List Char → Option F}
    (hw : ∀ nm v, wit nm = some v → parseI32 nm = none) {f : Factor} (hf : f.Ok U)
    (hv : ∀ neg nm, f = .var neg nm → (wit nm).isSome ∧ ∃ c ∈ nm, isAsciiDigit c = false) :
    Canonical wit (trim U f.text) := by
  rw [trim_id fun c hc => (factor_chars hU hf c hc).2.2.2]
  cases f with
  | lit k => exact canonical_lit hw hf
  | var neg nm => exact canonical_var hf (hv neg nm rfl).1 (hv neg nm rfl).2 neg

theorem canonical_equation {U : Unicode} (hU : U.Sane) {e : Equation} (he : e.Ok U) (hcan : e.Canonical)
    {wit : List Char → Option F} {ρ : List Char → F} (hc : Covers wit e ρ) :
    ∀ t, t ∈ e.lhsText.splitOn '+' ∨ t = '-' :: termText e.rhs → ∀ tok ∈ t.splitOn '*', Canonical wit (trim U tok) := by
  have hvar : ∀ (_ : Bool) (nm : List Char), e.Uses nm → (wit nm).isSome ∧ ∃ c ∈ nm, isAsciiDigit c = false := by
    intro neg nm hu
    rw [hc.vars nm hu]
    exact ⟨rfl, hcan.names nm hu⟩
  rintro t (ht | rfl) tok htok
  · rw [lhs_split hU he] at ht
    obtain ⟨t', ht', rfl⟩ := List.mem_map.1 ht
    rw [term_split hU (he.term_ne t' ht') (he.lhs_ok t' ht')] at htok
    obtain ⟨f, hf, rfl⟩ := List.mem_map.1 htok
    refine canonical_factor hU hc.names (he.lhs_ok t' ht' f hf) ?_
    rintro neg nm rfl
    exact hvar neg nm ⟨neg, Or.inl ⟨t', ht', hf⟩⟩
  · obtain ⟨f, fs, hf, hs⟩ := rhs_split hU he
    rw [hs] at htok
    rcases List.mem_cons.1 htok with rfl | htok
    · have hfok : f.Ok U := he.rhs_ok f (by rw [hf]; simp)
      have htr : trim U ('-' :: f.text) = '-' :: f.text := by
        refine trim_id fun c hc => ?_
        rcases List.mem_cons.1 hc with rfl | hc
        · exact hU.minus
        · exact (factor_chars hU hfok c hc).2.2.2
      rw [htr]
      cases f with
      | lit k => exact canonical_minus_lit hc.names hfok (hcan.rhs k (by rw [hf]; rfl))
      | var neg nm =>
        cases neg with
        | true => exact absurd (by rw [hf]; rfl) (he.rhs_head nm)
        | false =>
          obtain ⟨h1, h2⟩ := hvar false nm ⟨false, Or.inr (by rw [hf]; simp)⟩
          exact canonical_var hfok h1 h2 true
    · obtain ⟨g, hg, rfl⟩ := List.mem_map.1 htok
      have hg' : g ∈ e.rhs := by rw [hf]; simp [hg]
      refine canonical_factor hU hc.names (he.rhs_ok g hg') ?_
      rintro neg nm rfl
      exact hvar neg nm ⟨neg, Or.inr hg'⟩

variable {G1 G2 GT : Type} [AddCommGroup G1] [Module F G1] [AddCommGroup G2] [Module F G2]
  [AddCommGroup GT] [Module F GT] [DecidableEq GT]

/-- What `CommonPreprocessedInput::new` returns. -/
theorem new_eq_some (cc : GateConstraints F × CopyConstraints F × ℕ) (srs : Srs G1 G2)
    (pre : CommonPreprocessedInput F G1) : CommonPreprocessedInput.new cc srs = some pre ↔
      (pre.n = cc.2.2 ∧ pre.k1 = cc.2.1.k1 ∧ pre.k2 = cc.2.1.k2 ∧ pre.pix = cc.1.pix) ∧
      (commit srs cc.1.qlx = some pre.comQl ∧ commit srs cc.1.qrx = some pre.comQr ∧
        commit srs cc.1.qmx = some pre.comQm ∧ commit srs cc.1.qox = some pre.comQo ∧
        commit srs cc.1.qcx = some pre.comQc) ∧
      commit srs cc.2.1.s1 = some pre.comS1 ∧ commit srs cc.2.1.s2 = some pre.comS2 ∧
        commit srs cc.2.1.s3 = some pre.comS3 := by
  simp only [CommonPreprocessedInput.new, Option.bind_eq_bind, Option.bind_eq_some_iff, Option.pure_def,
    Option.some.injEq]
  constructor
  · rintro ⟨a1, h1, a2, h2, a3, h3, a4, h4, a5, h5, a6, h6, a7, h7, a8, h8, rfl⟩
    exact ⟨⟨rfl, rfl, rfl, rfl⟩, ⟨h2, h3, h1, h4, h5⟩, h6, h7, h8⟩
  · rintro ⟨⟨e1, e2, e3, e4⟩, ⟨h2, h3, h1, h4, h5⟩, h6, h7, h8⟩
    refine ⟨_, h1, _, h2, _, h3, _, h4, _, h5, _, h6, _, h7, _, h8, ?_⟩
    cases pre
    simp only at e1 e2 e3 e4
    subst e1 e2 e3 e4
    rfl

/-- **C64**, compiled circuits: without the witnesses, `CPIGenerator` compiles exactly the public part of the circuit
the prover compiles (and panics when the prover's `compile` does). -/
theorem C64_same_compiled (U : Unicode) (hU : U.Sane) (e : Equation) (he : e.Ok U) (hcan : e.Canonical)
    (wit : List Char → Option F) (ρ : List Char → F) (hc : Covers wit e ρ) (input : List Char)
    (hin : parseString U input = some e.text) :
    cpiCompiled U input = ((parse U wit input).bind Circuit.compile).map fun cc =>
      ({ cc.gate with fax := [], fbx := [], fcx := [] }, cc.copy, cc.size) := by
  obtain ⟨gates, pm, hp⟩ := prepare_equation hU he hc
  obtain ⟨calls, h1, hcalls, hlen, -⟩ := parse_run hc.names U hU.minus (lhs_noEq hU he)
    (rhs_noEq hU he) (rhs_noPlus hU he) hp
  obtain ⟨s1, s2⟩ := sim_prepare hc.names U hU.minus (lhs_noEq hU he) (rhs_noEq hU he) (rhs_noPlus hU he)
    (canonical_equation hU he hcan hc) hp
  have hpar : parse U wit input = some (build calls) := by
    unfold parse
    rw [hin]
    simp [hp, h1]
  have hgen : cGenCircuit (F := F) (gates.map PGate.erase) pm = some ⟨(build calls).gates⟩ := by
    unfold genCircuit at h1
    exact sim_genLoop gates s2 h1
  have hb : ∀ call ∈ calls, call.a.1 < 3 ∧ call.b.1 < 3 ∧ call.c.1 < 3 := by
    intro call hcall
    have hb := wirePerm_bounds (gates.map PGate.names) (n := gates.length) (by rw [List.length_map])
    obtain ⟨i, hi, hcalli⟩ := List.getElem_of_mem hcall
    have hi2 : i < gates.length := by omega
    have hget := wiredCalls_getElem? (gates.map PGate.names) 0 gates i
    rw [← hcalls, List.getElem?_eq_getElem hi, hcalli, List.getElem?_eq_getElem hi2, Option.map_some,
      Option.some.injEq, Nat.zero_add] at hget
    rw [hget]
    exact ⟨(hb (0, i) ⟨by norm_num, hi2⟩).1.1, (hb (1, i) ⟨by norm_num, hi2⟩).1.1, (hb (2, i) ⟨by norm_num, hi2⟩).1.1⟩
  have hs1 : prepareGeneration U e.text = some (gates.map PGate.erase, pm) := s1
  unfold cpiCompiled
  simp only [hin, hs1, hgen, Option.bind_eq_bind, Option.bind_some, hpar]
  exact compile_agrees_aux calls hb

/-- **C64**: for every canonically written equation and every witness assignment covering its variables: whenever the
prover's circuit compiles, `compute_common_preprocessed_input` returns `pre` iff `pre` consists of that circuit's size,
`k1`, `k2`, public-input polynomial and the commitments of its selector and permutation polynomials. -/
theorem C64_preprocessed_input (U : Unicode) (hU : U.Sane) (e : Equation) (he : e.Ok U) (hcan : e.Canonical)
    (wit : List Char → Option F) (ρ : List Char → F) (hc : Covers wit e ρ) (input : List Char)
    (hin : parseString U input = some e.text) (circuit : Circuit F) (hpar : parse U wit input = some circuit)
    (srs : Srs G1 G2) :
    (circuit.compile = none → computeCommonPreprocessedInput (F := F) U input srs = none) ∧
    ∀ cc, circuit.compile = some cc → ∀ pre : CommonPreprocessedInput F G1,
      computeCommonPreprocessedInput U input srs = some pre ↔
        (pre.n = cc.size ∧ pre.k1 = cc.copy.k1 ∧ pre.k2 = cc.copy.k2 ∧ pre.pix = cc.gate.pix) ∧
        (commit srs cc.gate.qlx = some pre.comQl ∧ commit srs cc.gate.qrx = some pre.comQr ∧
          commit srs cc.gate.qmx = some pre.comQm ∧ commit srs cc.gate.qox = some pre.comQo ∧
          commit srs cc.gate.qcx = some pre.comQc) ∧
        commit srs cc.copy.s1 = some pre.comS1 ∧ commit srs cc.copy.s2 = some pre.comS2 ∧
          commit srs cc.copy.s3 = some pre.comS3 := by
  have h := C64_same_compiled U hU e he hcan wit ρ hc input hin
  rw [hpar, Option.bind_some] at h
  unfold computeCommonPreprocessedInput
  constructor
  · intro hn
    rw [h, hn]
    rfl
  · intro cc hcc pre
    rw [h, hcc, Option.map_some, Option.bind_eq_bind, Option.bind_some]
    exact new_eq_some _ srs pre

/-- **C64**, consequence: a verifier that uses the circuit compiled by `CPIGenerator`, from the equation alone, gives
the same verdict on every proof as one that uses the prover's compiled circuit. -/
theorem C64_same_verdict (U : Unicode) (hU : U.Sane) (e : Equation) (he : e.Ok U) (hcan : e.Canonical)
    (wit : List Char → Option F) (ρ : List Char → F) (hc : Covers wit e ρ) (input : List Char)
    (hin : parseString U input = some e.text) (circuit : Circuit F) (hpar : parse U wit input = some circuit)
    (cc : CompiledCircuit F) (hcc : circuit.compile = some cc) :
    ∃ t : GateConstraints F × CopyConstraints F × ℕ, cpiCompiled U input = some t ∧
      ∀ (env : Env F G1) (dig : List UInt8 → List UInt8) (P : PairingGroups F G1 G2 GT) (srs : Srs G1 G2)
        (p : Proof F G1), verify env dig P ⟨t.2.2, t.1, t.2.1⟩ srs p = verify env dig P cc srs p := by
  have h := C64_same_compiled U hU e he hcan wit ρ hc input hin
  rw [hpar, Option.bind_some, hcc, Option.map_some] at h
  refine ⟨_, h, ?_⟩
  intro env dig P srs p
  exact C54_ignores_witness env dig P _ _ srs p rfl ⟨rfl, rfl, rfl, rfl, rfl, rfl⟩ rfl

end eqs

/-! ## Non-vacuity and counterexamples -/

theorem exEq_canonical : exEq.Canonical := by
  constructor
  · rintro nm ⟨neg, h | h⟩
    · simp only [exEq, List.mem_cons, List.not_mem_nil, or_false, exists_eq_or_imp, exists_eq_left, Factor.var.injEq,
        reduceCtorEq, false_or] at h
      rcases h with (⟨-, rfl⟩ | ⟨-, rfl⟩) | (⟨-, rfl⟩ | ⟨-, rfl⟩) | ⟨-, rfl⟩ | ⟨-, rfl⟩ | ⟨-, rfl⟩ <;>
        exact ⟨_, List.mem_singleton_self _, by decide⟩
    · simp [exEq] at h
  · intro k hk
    simp only [exEq, List.head?_cons, Option.mem_def, Option.some.injEq, Factor.lit.injEq] at hk
    omega

/-- Non-vacuity of C64: the repository's example. -/
example : ∃ (circuit : Circuit BlsFr), parse asciiTables exWit "x * y + 3 * X ^ 2 + x * Y * z = 11".toList = some circuit ∧
    cpiCompiled asciiTables "x * y + 3 * X ^ 2 + x * Y * z = 11".toList =
      circuit.compile.map fun cc => ({ cc.gate with fax := [], fbx := [], fcx := [] }, cc.copy, cc.size) := by
  obtain ⟨circuit, h, -⟩ := C71_number_of_gates asciiTables asciiTables_sane exEq exEq_ok exWit exRho exEq_covers _
    exEq_text
  refine ⟨circuit, h, ?_⟩
  rw [C64_same_compiled asciiTables asciiTables_sane exEq exEq_ok exEq_canonical exWit exRho exEq_covers _ exEq_text,
    h, Option.bind_some]

/-- The equation `x=-1`. -/
def eqxm1 : Equation := ⟨[[.var false ['x']]], [.lit (-1)]⟩

theorem eqxm1_ok : eqxm1.Ok asciiTables := by
  have hx := nameOk_letter (c := 'x') (by simp)
  refine ⟨by simp [eqxm1], by simp [eqxm1], by simp [eqxm1], ?_, ?_, by simp [eqxm1]⟩
  · simp only [eqxm1, List.mem_cons, List.not_mem_nil, or_false, forall_eq, Factor.Ok]
    exact hx
  · simp only [eqxm1, List.mem_cons, List.not_mem_nil, or_false, forall_eq, Factor.Ok]
    decide

theorem eqxm1_covers : Covers exWit eqxm1 exRho := by
  refine ⟨?_, exEq_covers.names⟩
  rintro nm ⟨neg, h | h⟩
  · simp only [eqxm1, List.mem_cons, List.not_mem_nil, or_false, exists_eq_left, Factor.var.injEq] at h
    obtain ⟨-, rfl⟩ := h
    decide +kernel
  · simp [eqxm1] at h

/-- The hypothesis of C64 on literals is needed: on `x=-1` the prover's parser makes a constant gate for the token
`--1` and the circuit compiles; `CPIGenerator` makes none and panics. -/
theorem C64_noncanonical_differ :
    (∃ cc : CompiledCircuit BlsFr, (parse asciiTables exWit "x=-1".toList).bind Circuit.compile = some cc) ∧
    (cpiCompiled asciiTables "x=-1".toList : Option (GateConstraints BlsFr × CopyConstraints BlsFr × ℕ)) = none := by
  have ht : parseString asciiTables "x=-1".toList = some eqxm1.text := by decide +kernel
  constructor
  · obtain ⟨circuit, cc, d, h1, h2, -⟩ := C63_end_to_end (G1 := BlsFr) (G2 := BlsFr) (GT := BlsFr) asciiTables
      asciiTables_sane eqxm1 eqxm1_ok exWit exRho eqxm1_covers _ ht (by
        rintro ⟨neg, x, y, -, h⟩
        simp [eqxm1] at h) (by
        have e : FftField.twoAdicity BlsFr = 32 := rfl
        rw [e]; decide)
    exact ⟨cc, by rw [h1, Option.bind_some, h2]⟩
  · have h1 : parseString asciiTables "x=-1".toList = some "x=-1".toList := by decide +kernel
    have h2 : (prepareGeneration asciiTables "x=-1".toList).map (fun r => r.1) =
        some [⟨['x'], ['-', '-', '1'], "x+--1".toList, .addition⟩] := by decide +kernel
    unfold cpiCompiled
    rw [h1]
    simp only [Option.bind_eq_bind, Option.bind_some]
    cases h3 : prepareGeneration asciiTables "x=-1".toList with
    | none => rfl
    | some r =>
      rw [h3, Option.map_some, Option.some.injEq] at h2
      rw [Option.bind_some]
      cases h4 : (cGenCircuit r.1 r.2 : Option (CPICircuit BlsFr)) with
      | none => rfl
      | some c =>
        rw [Option.bind_some]
        have hlen : c.gates.length = 1 := by
          rw [h2] at h4
          unfold cGenCircuit at h4
          simp only [cGenLoop, cGenStep, Option.bind_eq_bind, Option.bind_eq_some_iff, Option.pure_def,
            Option.some.injEq] at h4
          obtain ⟨x, ⟨l, -, r, -, b, -, rfl⟩, rfl⟩ := h4
          simp [CPICircuit.addAdditionGate, CPICircuit.default]
        unfold CPICircuit.compile CPICircuit.pad
        rw [if_pos (by omega)]
        rfl

section clamp
variable {F : Type} [FftField F] [DecidableEq F]

/-- A call whose layers beyond the second are read as the second. -/
def GateCall.clampLayers (call : GateCall F) : GateCall F :=
  { call with a := (min call.a.1 2, call.a.2), b := (min call.b.1 2, call.b.2), c := (min call.c.1 2, call.c.2) }

theorem cpiMapElement_min (r c1 c2 : List F) (l j : ℕ) :
    cpiMapElement r c1 c2 (.pos (min l 2) j) = cpiMapElement r c1 c2 (.pos l j) := by
  match l with
  | 0 => rfl
  | 1 => rfl
  | 2 => rfl
  | l + 3 =>
    have : min (l + 3) 2 = 2 := by omega
    rw [this]
    rfl

theorem sigmaLoop_clamp (r c1 c2 : List F) (calls : List (GateCall F)) (rest : List (Gate F)) (i : ℕ)
    (s : List F × List F × List F) :
    sigmaLoop (cpiMapElement r c1 c2) (calls.map GateCall.gate ++ rest) i s =
      sigmaLoop (cpiMapElement r c1 c2) ((calls.map GateCall.clampLayers).map GateCall.gate ++ rest) i s := by
  induction calls generalizing i s with
  | nil => rfl
  | cons call calls ih =>
    obtain ⟨e1, e2, e3⟩ := gate_pos call
    obtain ⟨f1, f2, f3⟩ := gate_pos call.clampLayers
    have g1 : cpiMapElement r c1 c2 call.clampLayers.gate.aPos = cpiMapElement r c1 c2 call.gate.aPos := by
      rw [e1, f1]; exact cpiMapElement_min ..
    have g2 : cpiMapElement r c1 c2 call.clampLayers.gate.bPos = cpiMapElement r c1 c2 call.gate.bPos := by
      rw [e2, f2]; exact cpiMapElement_min ..
    have g3 : cpiMapElement r c1 c2 call.clampLayers.gate.cPos = cpiMapElement r c1 c2 call.gate.cPos := by
      rw [e3, f3]; exact cpiMapElement_min ..
    simp only [List.map_cons, List.cons_append]
    unfold sigmaLoop
    rw [gate_not_dummy, gate_not_dummy, g1, g2, g3]
    simp only [ih]

/-- A `CPICircuit` silently reads every layer beyond the second as the second. -/
theorem C72_layer_clamped (calls : List (GateCall F)) :
    (buildCpi calls).compile = (buildCpi (calls.map GateCall.clampLayers)).compile := by
  rw [buildCpi_eq, buildCpi_eq, build_eq, build_eq]
  unfold CPICircuit.compile
  dsimp only
  rw [cpi_pad_build, cpi_pad_build]
  rw [List.length_map]
  by_cases hlen : calls.length < 2
  · rw [if_pos hlen, if_pos hlen]
  rw [if_neg hlen, if_neg hlen]
  simp only [Option.bind_eq_bind, Option.bind_some]
  unfold CPICircuit.getAssignment
  dsimp only
  rw [filter_calls, filter_calls]
  have hp : ∀ f : Gate F → F, (∀ call : GateCall F, f call.clampLayers.gate = f call.gate) →
      ((calls.map GateCall.clampLayers).map GateCall.gate).map f = (calls.map GateCall.gate).map f := by
    intro f hf
    simp only [List.map_map]
    apply List.map_congr_left
    intro call _
    exact hf call
  have hall : ∀ call : GateCall F, call.clampLayers.gate.qL = call.gate.qL ∧
      call.clampLayers.gate.qR = call.gate.qR ∧ call.clampLayers.gate.qO = call.gate.qO ∧
      call.clampLayers.gate.qM = call.gate.qM ∧ call.clampLayers.gate.qC = call.gate.qC ∧
      call.clampLayers.gate.pi = call.gate.pi := by
    intro call
    unfold GateCall.gate GateCall.clampLayers
    dsimp only
    cases call.ty <;> exact ⟨rfl, rfl, rfl, rfl, rfl, rfl⟩
  rw [hp (·.qL) (fun c => (hall c).1), hp (·.qR) (fun c => (hall c).2.1), hp (·.qO) (fun c => (hall c).2.2.1),
    hp (·.qM) (fun c => (hall c).2.2.2.1), hp (·.qC) (fun c => (hall c).2.2.2.2.1),
    hp (·.pi) (fun c => (hall c).2.2.2.2.2)]
  have hl : ((calls.map GateCall.clampLayers).map GateCall.gate ++
      List.replicate (nextPow2 calls.length - calls.length) (Gate.newDummy : Gate F)).length =
      (calls.map GateCall.gate ++
      List.replicate (nextPow2 calls.length - calls.length) (Gate.newDummy : Gate F)).length := by simp
  unfold cpiCalPermutation
  rw [hl]
  simp only [← sigmaLoop_clamp]

/-- … where a `Circuit` built with the same calls panics in `compile`; the two therefore differ on every list of calls
that mentions such a layer and is otherwise in range. -/
theorem C72_layer_three_differs (calls : List (GateCall F)) (h2 : 2 ≤ calls.length)
    (hn : nextPow2 calls.length ≤ 2 ^ FftField.twoAdicity F)
    (hi : ∀ call ∈ calls, ∀ p ∈ [call.a, call.b, call.c], p.2.1 < nextPow2 calls.length)
    (h3 : ∃ call ∈ calls, ∃ p ∈ [call.a, call.b, call.c], 2 < p.1) :
    (build calls).compile = none ∧ (buildCpi calls).compile.isSome := by
  constructor
  · rw [C44_compile_panics_iff]
    obtain ⟨call, hc, p, hp, hl⟩ := h3
    exact .inr (.inr ⟨call, hc, p, hp, fun h => by omega⟩)
  · rw [C72_layer_clamped, C72_compile_agrees, Option.isSome_map]
    · by_contra hno
      rw [Bool.not_eq_true, Option.isSome_eq_false_iff, Option.isNone_iff_eq_none, C44_compile_panics_iff,
        List.length_map] at hno
      rcases hno with h | h | ⟨call, hc, p, hp, hl⟩
      · omega
      · omega
      · obtain ⟨call, hc', rfl⟩ := List.mem_map.1 hc
        apply hl
        simp only [GateCall.clampLayers, List.mem_cons, List.not_mem_nil, or_false] at hp
        have := hi call hc'
        simp only [List.mem_cons, List.not_mem_nil, or_false, forall_eq_or_imp, forall_eq] at this
        rcases hp with rfl | rfl | rfl <;> dsimp only <;> omega
    · intro call hc
      obtain ⟨call, hc, rfl⟩ := List.mem_map.1 hc
      simp only [GateCall.clampLayers]
      omega
end clamp

/-- Non-vacuity: one wire on layer 3. -/
example : ∃ calls : List (GateCall BlsFr), (build calls).compile = none ∧ (buildCpi calls).compile.isSome :=
  ⟨[⟨.addition, (3, 0, 1), (1, 0, 1), (2, 0, 2), 0⟩, ⟨.addition, (0, 1, 1), (1, 1, 1), (2, 1, 2), 0⟩],
    C72_layer_three_differs _ (by simp) (by
      have : nextPow2 2 = 2 := by decide
      simp only [List.length_cons, List.length_nil, Nat.zero_add, Nat.reduceAdd, this]
      exact Nat.le_self_pow (by decide) 2)
      (by
        have : nextPow2 2 = 2 := by decide
        simp [this]) ⟨_, List.mem_cons_self .., _, List.mem_cons_self .., by decide⟩⟩
end Verif.Plonk

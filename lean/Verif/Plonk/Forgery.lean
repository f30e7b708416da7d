import Verif.Plonk.Equation

/-!
# C62, C63: proving and forging parsed equations

The bottom wire of the last gate of a parsed circuit is not constrained to be zero, so that every assignment can be
completed to one satisfying the parsed circuit, whether or not the equation holds.
-/

set_option linter.unusedSectionVars false
set_option linter.unusedSimpArgs false
set_option linter.unusedVariables false

namespace Verif.Plonk

open Verif.Ark Verif.Kzg

/-! ## Circuits with the same public part -/

section pub
variable {F : Type} [FftField F] [DecidableEq F]

theorem gate_positions {c c' : GateCall F} (h : c.gate = c'.gate) :
    (c.a.1 = c'.a.1 ∧ c.a.2.1 = c'.a.2.1) ∧ (c.b.1 = c'.b.1 ∧ c.b.2.1 = c'.b.2.1) ∧
      (c.c.1 = c'.c.1 ∧ c.c.2.1 = c'.c.2.1) := by
  have h1 := gate_pos c
  have h2 := gate_pos c'
  rw [h] at h1
  obtain ⟨a1, a2, a3⟩ := h1
  obtain ⟨b1, b2, b3⟩ := h2
  rw [a1] at b1
  rw [a2] at b2
  rw [a3] at b3
  simp only [Position.pos.injEq] at b1 b2 b3
  exact ⟨b1, b2, b3⟩

/-- Two sequences of calls that push the same gates (selectors, public inputs and positions) compile to circuits
that differ at most in the wire polynomials. -/
theorem compile_samePublic {calls calls' : List (GateCall F)}
    (h : calls'.map GateCall.gate = calls.map GateCall.gate) {cc : CompiledCircuit F}
    (hc : (build calls).compile = some cc) :
    ∃ cc', (build calls').compile = some cc' ∧ cc'.size = cc.size ∧
      (cc'.gate.qlx = cc.gate.qlx ∧ cc'.gate.qrx = cc.gate.qrx ∧ cc'.gate.qox = cc.gate.qox ∧
        cc'.gate.qmx = cc.gate.qmx ∧ cc'.gate.qcx = cc.gate.qcx ∧ cc'.gate.pix = cc.gate.pix) ∧
      cc'.copy = cc.copy := by
  have hlen : calls'.length = calls.length := by simpa using congrArg List.length h
  have hf : ∀ {β : Type} (f : Gate F → β), calls'.map (fun r => f r.gate) = calls.map (fun r => f r.gate) := by
    intro β f
    have := congrArg (List.map f) h
    rw [List.map_map, List.map_map] at this
    exact this
  have hpos : ∀ (f : GateCall F → F), (∀ c c' : GateCall F, c.gate = c'.gate → f c = f c') →
      calls'.map f = calls.map f := by
    intro f hf'
    apply List.ext_getElem (by simpa using hlen)
    intro i h1 h2
    simp only [List.getElem_map]
    apply hf'
    have := congrArg (fun l => l[i]?) h
    simp only [List.getElem?_map] at this
    rw [List.getElem?_eq_getElem (by simpa using h1), List.getElem?_eq_getElem (by simpa using h2)] at this
    simpa using this
  obtain ⟨d, hd, hv, hs, h2, hle, hval, heq⟩ := compile_some calls cc hc
  have hd' : (Domain.new? calls.length : Option (Domain F)) = some d := by
    cases hx : (Domain.new? calls.length : Option (Domain F)) with
    | none => rw [compile_build_noDomain _ hx] at hc; cases hc
    | some d' =>
      obtain ⟨hno, hyes⟩ := compile_build calls d' hx h2
      by_cases hva : AllValid d'.size calls
      · rw [hyes hva, Option.some.injEq] at hc
        have : cc.size = d'.size := by rw [← hc]
        rw [this, (Domain.new?_valid hx).2, new?_nextPow2, hx] at hd
        exact hd
      · rw [hno hva] at hc; cases hc
  have hval' : AllValid d.size calls' := by
    intro call hcall
    obtain ⟨i, hi, rfl⟩ := List.getElem_of_mem hcall
    have hi' : i < calls.length := by omega
    have hg : calls'[i].gate = calls[i].gate := by
      have := congrArg (fun l => l[i]?) h
      simp only [List.getElem?_map] at this
      rw [List.getElem?_eq_getElem hi, List.getElem?_eq_getElem hi'] at this
      simpa using this
    obtain ⟨e1, e2, e3⟩ := gate_positions hg
    have := hval _ (List.getElem_mem hi')
    unfold ValidPos at this ⊢
    rw [e1.1, e1.2, e2.1, e2.2, e3.1, e3.2]
    exact this
  have h' := (compile_build calls' d (by rw [hlen]; exact hd') (by omega)).2 hval'
  have h'' := (compile_build calls d hd' h2).2 hval
  rw [h'', Option.some.injEq] at hc
  subst hc
  refine ⟨_, h', rfl, ⟨?_, ?_, ?_, ?_, ?_, ?_⟩, ?_⟩
  · dsimp only; rw [hf Gate.qL]
  · dsimp only; rw [hf Gate.qR]
  · dsimp only; rw [hf Gate.qO]
  · dsimp only; rw [hf Gate.qM]
  · dsimp only; rw [hf Gate.qC]
  · dsimp only; rw [hf Gate.pi]
  · dsimp only
    rw [hpos (fun c => label d.gen c.a.1 c.a.2.1), hpos (fun c => label d.gen c.b.1 c.b.2.1),
      hpos (fun c => label d.gen c.c.1 c.c.2.1)]
    · intro c c' hcc; rw [(gate_positions hcc).2.2.1, (gate_positions hcc).2.2.2]
    · intro c c' hcc; rw [(gate_positions hcc).2.1.1, (gate_positions hcc).2.1.2]
    · intro c c' hcc; rw [(gate_positions hcc).1.1, (gate_positions hcc).1.2]

end pub

/-! ## The forged calls -/

section forge
variable {F : Type} [FftField F] [DecidableEq F]

theorem wiredCalls_append (T : List Names) (i : ℕ) (gs hs : List (PGate F)) :
    wiredCalls T i (gs ++ hs) = wiredCalls T i gs ++ wiredCalls T (i + gs.length) hs := by
  induction gs generalizing i with
  | nil => simp [wiredCalls]
  | cons g gs ih =>
    rw [List.cons_append, wiredCalls, wiredCalls, ih, List.length_cons, List.cons_append]
    congr 3
    omega

/-- Replacing the value of the last wire by the value of its expression gives calls with the same public part,
all of whose relations hold. -/
theorem forge_run {wit : List Char → Option F} (hw : ∀ nm v, wit nm = some v → parseI32 nm = none)
    (U : Unicode) (hU : U.isWhitespace '-' = false) {lhs rhs : List Char} (hl : '=' ∉ lhs)
    (hr : '=' ∉ rhs) (hrp : '+' ∉ rhs) {gates : List (PGate F)} {pm : PosMap}
    (h : prepareGenCircuit U wit (lhs ++ '=' :: rhs) = some (gates, pm)) :
    ∃ calls calls' : List (GateCall F), genCircuit gates pm = some (build calls) ∧
      calls'.map GateCall.gate = calls.map GateCall.gate ∧ calls'.dropLast = calls.dropLast ∧
      AllRelations calls' ∧ ∀ n, calls'.length ≤ n → WiringOk n calls' := by
  obtain ⟨init, l, r, N, K, hg, hinit, hgl, hgr, hN, hfin, hnl, hnr, hsum, htriv, -⟩ := prepare_run hw U hU hl hr hrp h
  set gates' : List (PGate F) := init ++ [⟨l, r, ⟨N, l.val + r.val⟩, .addition⟩] with hgates'
  have hT : gates'.map PGate.names = gates.map PGate.names := by
    rw [hg, hgates']
    simp [PGate.names]
  refine ⟨_, wiredCalls (gates.map PGate.names) 0 gates', genCircuit_eq gates pm (prepare_pm h), ?_, ?_, ?_, ?_⟩
  · generalize gates.map PGate.names = T
    rw [hg, hgates', wiredCalls_append, wiredCalls_append, List.map_append, List.map_append]
    rfl
  · generalize gates.map PGate.names = T
    rw [hg, hgates', wiredCalls_append, wiredCalls_append]
    simp [wiredCalls]
  · generalize gates.map PGate.names = T
    intro call hcall
    obtain ⟨j, hj, rfl⟩ := List.getElem_of_mem hcall
    have hj' : j < gates'.length := by simpa [wiredCalls_length] using hj
    have hget := wiredCalls_getElem? T 0 gates' j
    rw [List.getElem?_eq_getElem hj, List.getElem?_eq_getElem hj', Option.map_some, Option.some.injEq] at hget
    rw [hget]
    refine PGate.Shape.relation ?_ _ _
    have hmem : gates'[j] ∈ gates' := List.getElem_mem hj'
    generalize gates'[j] = g at hmem
    rw [hgates'] at hmem
    rcases List.mem_append.1 hmem with hm | hm
    · exact (hinit g hm).shape
    · rw [List.mem_singleton] at hm
      subst hm
      simp [PGate.Shape, hN]
  · intro n hn
    rw [wiredCalls_length] at hn
    rw [← hT]
    refine wiringOk_of gates' n hn ?_
    have hgood : ∀ p w, wireAt gates' p = some w → w.Good wit := by
      intro p w hp
      obtain ⟨g, hg', hw'⟩ := wireAt_mem hp
      have hmem := List.mem_of_getElem? hg'
      rw [hgates'] at hmem
      rcases List.mem_append.1 hmem with hm | hm
      · have := hinit g hm
        rcases hw' with rfl | rfl | rfl
        · exact this.good.1
        · exact this.good.2.1
        · exact this.good.2.2
      · rw [List.mem_singleton] at hm
        subst hm
        rcases hw' with rfl | rfl | rfl
        · exact hgl
        · exact hgr
        · unfold Wire.Good at hgl hgr ⊢
          dsimp only
          rw [hN, exprVal_add, ← hgl, ← hgr]
    intro p q w v hp hq hname
    have h1 := hgood p w hp
    have h2 := hgood q v hq
    unfold Wire.Good at h1 h2
    rw [h1, h2, hname]

/-- An assignment of values to all wire positions satisfies the public part of a circuit: every requested relation
holds and every position carries the value of the position it is connected to. -/
def Satisfies (calls : List (GateCall F)) (V : ℕ → ℕ → F) : Prop :=
  (∀ (i : ℕ) (call : GateCall F), calls[i]? = some call → call.Relation (V 0 i) (V 1 i) (V 2 i)) ∧
  ∀ l, l < 3 → ∀ i, i < calls.length → V (target calls l i).1 (target calls l i).2 = V l i

theorem target_samePublic {calls calls' : List (GateCall F)}
    (h : calls'.map GateCall.gate = calls.map GateCall.gate) (l i : ℕ) : target calls' l i = target calls l i := by
  have := congrArg (fun l => l[i]?) h
  simp only [List.getElem?_map] at this
  unfold target
  cases h1 : calls'[i]? with
  | none =>
    rw [h1] at this
    cases h2 : calls[i]? with
    | none => rfl
    | some c => rw [h2] at this; cases this
  | some c' =>
    rw [h1] at this
    cases h2 : calls[i]? with
    | none => rw [h2] at this; cases this
    | some c =>
      rw [h2, Option.map_some, Option.map_some, Option.some.injEq] at this
      obtain ⟨e1, e2, e3⟩ := gate_positions this
      dsimp only
      rw [e1.1, e1.2, e2.1, e2.2, e3.1, e3.2]

theorem satisfies_of {calls calls' : List (GateCall F)}
    (h : calls'.map GateCall.gate = calls.map GateCall.gate) (hrel : AllRelations calls')
    (hwire : WiringOk calls'.length calls') : Satisfies calls (callVal calls') := by
  have hlen : calls'.length = calls.length := by simpa using congrArg List.length h
  constructor
  · intro i call hi
    have := congrArg (fun l => l[i]?) h
    simp only [List.getElem?_map] at this
    rw [hi] at this
    cases h1 : calls'[i]? with
    | none => rw [h1] at this; cases this
    | some c' =>
      rw [h1, Option.map_some, Option.map_some, Option.some.injEq] at this
      have hr := hrel c' (List.mem_of_getElem? h1)
      rw [← C43_call_gate, this, C43_call_gate] at hr
      simpa only [callVal, rowVal, h1] using hr
  · intro l hl i hi
    obtain ⟨σ, hσ⟩ := hwire
    have := hσ (⟨l, hl⟩, ⟨i, by omega⟩)
    rw [target_samePublic h] at this
    rw [this.1, this.2]

end forge

/-! ## C62 -/

section C62
variable {F : Type} [FftField F] [DecidableEq F]

theorem parse_forge {U : Unicode} (hU : U.Sane) {e : Equation} (he : e.Ok U) {wit : List Char → Option F}
    {ρ : List Char → F} (hc : Covers wit e ρ) {input : List Char} (hin : parseString U input = some e.text) :
    ∃ calls calls' : List (GateCall F), parse U wit input = some (build calls) ∧
      calls'.map GateCall.gate = calls.map GateCall.gate ∧ calls'.dropLast = calls.dropLast ∧
      AllRelations calls' ∧ ∀ n, calls'.length ≤ n → WiringOk n calls' := by
  obtain ⟨gates, pm, hp⟩ := prepare_equation hU he hc
  obtain ⟨calls, calls', h1, h2⟩ := forge_run hc.names U hU.minus (lhs_noEq hU he) (rhs_noEq hU he)
    (rhs_noPlus hU he) hp
  refine ⟨calls, calls', ?_, h2⟩
  unfold parse
  rw [hin]
  simp [hp, h1]

/-- **C62** is false, in the strongest way: for *every* equation and *every* values `ρ` of its variables, whether or
not the equation holds, there are wire values that satisfy the gates and copy constraints of the parsed circuit and
agree with the parser's own values on every wire except the last output wire. -/
theorem C62_every_assignment_satisfies (U : Unicode) (hU : U.Sane) (e : Equation) (he : e.Ok U)
    (wit : List Char → Option F) (ρ : List Char → F) (hc : Covers wit e ρ) (input : List Char)
    (hin : parseString U input = some e.text) :
    ∃ calls : List (GateCall F), parse U wit input = some (build calls) ∧
      ∃ V, Satisfies calls V ∧ ∀ l i, i + 1 < calls.length → V l i = callVal calls l i := by
  obtain ⟨calls, calls', h1, h2, h3, h4, h5⟩ := parse_forge hU he hc hin
  refine ⟨calls, h1, callVal calls', satisfies_of h2 h4 (h5 _ le_rfl), ?_⟩
  have hlen : calls'.length = calls.length := by simpa using congrArg List.length h2
  intro l i hi
  have hget : calls'[i]? = calls[i]? := by
    have := congrArg (fun l => l[i]?) h3
    rwa [List.getElem?_dropLast, List.getElem?_dropLast, if_pos (by omega), if_pos (by omega)] at this
  unfold callVal rowVal
  rw [hget]

variable {G1 G2 GT : Type} [AddCommGroup G1] [Module F G1] [AddCommGroup G2] [Module F G2]
  [AddCommGroup GT] [Module F GT] [DecidableEq GT]

/-- **C62**, consequence for the proof system: a prover who changes the value of the last output wire gets, outside
degenerate challenges, a proof that the verifier accepts for the circuit of the equation, for every equation and
every values of its variables, whether or not the equation holds. -/
theorem C62_forgery (U : Unicode) (hU : U.Sane) (e : Equation) (he : e.Ok U)
    (wit : List Char → Option F) (ρ : List Char → F) (hc : Covers wit e ρ) (input : List Char)
    (hin : parseString U input = some e.text) (circuit : Circuit F) (hpar : parse U wit input = some circuit)
    (cc : CompiledCircuit F) (hcc : circuit.compile = some cc) :
    ∃ cc' : CompiledCircuit F, cc'.size = cc.size ∧
      ∀ (env : Env F G1) (T : List UInt8 → List UInt8) (P : PairingGroups F G1 G2 GT) (s : F) (N : ℕ)
        (d : Domain F) (bl : Blinders F), Domain.new? cc.size = some d → cc.size ≤ N →
        (∀ b, 8 ≤ (env.sha256 b).length) →
        ¬ (⟨env, P.g1, s, cc', d.gen, bl⟩ : Honest F G1).Degenerate →
        (⟨env, P.g1, s, cc', d.gen, bl⟩ : Honest F G1).ζ ≠ 1 →
        ∃ p, generateProof env T cc' (Srs.newFromSecret P s N) bl = some p ∧
          verify env env.sha256 P cc (Srs.newFromSecret P s N) p = some (.ok ()) := by
  obtain ⟨calls, calls', h1, h2, h3, h4, h5⟩ := parse_forge hU he hc hin
  rw [h1, Option.some.injEq] at hpar
  subst hpar
  obtain ⟨cc', k1, k2, k3, k4⟩ := compile_samePublic h2 hcc
  refine ⟨cc', k2, ?_⟩
  intro env T P s N d bl hd hN hdig hnd hz
  have hle := (C44_compile_size calls' cc' k1).2.1
  obtain ⟨q1, q2⟩ := C50_compiled (⟨env, P.g1, s, cc', d.gen, bl⟩ : Honest F G1) T P N calls' k1 d
    (by dsimp only; rw [k2]; exact hd) rfl rfl (by dsimp only; rw [k2]; exact hN) hdig h4 (h5 _ hle) hnd
  refine ⟨_, q1, ?_⟩
  rw [C54_ignores_witness env env.sha256 P cc cc' _ _ k2.symm
    ⟨k3.1.symm, k3.2.1.symm, k3.2.2.1.symm, k3.2.2.2.1.symm, k3.2.2.2.2.1.symm, k3.2.2.2.2.2.symm⟩ k4.symm]
  exact q2 hz

end C62

end Verif.Plonk

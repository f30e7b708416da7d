import Verif.Plonk.CpiMatch

/-!
# Property C106: dummy gates in the verifier's circuits

`CPICircuit::add_dummy_gate` is public (`plonk/src/common_preprocessed_input/cpi_circuit.rs` lines 85-87), unlike
`Circuit::add_dummy_gate`.  `get_assignment` (lines 90-111) skips dummy gates, `cal_permutation` (lines 126-169) counts
them.
-/

set_option linter.unusedSectionVars false
set_option linter.unusedSimpArgs false

namespace Verif.Plonk

open Verif.Ark Verif.Kzg

variable {F : Type} [FftField F] [DecidableEq F]

/-- One public call on a `CPICircuit`: `some call` is one of the three `add_*_gate` functions, `none` is
`add_dummy_gate` (`cpi_circuit.rs` lines 32-87). -/
def applyCpiCall (s : CPICircuit F) : Option (GateCall F) → CPICircuit F
  | some call => call.applyCpi s
  | none => s.addDummyGate

/-- The circuit after a sequence of public calls on `CPICircuit::default()`. -/
def buildCpiCalls (calls : List (Option (GateCall F))) : CPICircuit F := calls.foldl applyCpiCall .default

/-- What the `i`-th row of a selector polynomial should be: the value for the `i`-th call, zero for dummies and
padding. -/
def wantedVal (calls : List (Option (GateCall F))) (f : GateCall F → F) (i : ℕ) : F :=
  match calls[i]? with
  | some (some call) => f call
  | _ => 0

/-- Where wire `(layer, i)` should be copied to: the position given in the `i`-th call (every layer beyond 2 is read as
2, `cpi_circuit.rs` lines 144-152), itself for dummies and padding. -/
def wantedTarget (calls : List (Option (GateCall F))) (layer i : ℕ) : ℕ × ℕ :=
  match calls[i]? with
  | some (some call) =>
    match layer with
    | 0 => (min call.a.1 2, call.a.2.1)
    | 1 => (min call.b.1 2, call.b.2.1)
    | _ => (min call.c.1 2, call.c.2.1)
  | _ => (layer, i)

/-- All dummy gates come after all other gates. -/
def DummiesLast (calls : List (Option (GateCall F))) : Prop :=
  ∃ (gs : List (GateCall F)) (k : ℕ), calls = gs.map some ++ List.replicate k none

/-- The gate pushed by a call. -/
def cpiGate : Option (GateCall F) → Gate F
  | some call => call.gate
  | none => Gate.newDummy

theorem buildCpiCalls_eq (calls : List (Option (GateCall F))) : buildCpiCalls calls = ⟨calls.map cpiGate⟩ := by
  have key : ∀ (cs : List (Option (GateCall F))) (s : CPICircuit F),
      cs.foldl applyCpiCall s = ⟨s.gates ++ cs.map cpiGate⟩ := by
    intro cs
    induction cs with
    | nil => intro s; simp
    | cons c cs ih =>
      intro s
      rw [List.foldl_cons, ih]
      have : (applyCpiCall s c).gates = s.gates ++ [cpiGate c] := by
        cases c with
        | none => rfl
        | some c =>
          show (GateCall.applyCpi s c).gates = s.gates ++ [c.gate]
          unfold GateCall.applyCpi GateCall.gate
          cases c.ty <;> rfl
      rw [this]
      simp
  rw [buildCpiCalls, key]
  simp [CPICircuit.default]

theorem mem_gatesOf (cs : List (Option (GateCall F))) (x : GateCall F) : x ∈ (cs.filterMap id) ↔ some x ∈ cs := by
  simp [List.mem_filterMap]

theorem filter_cpiGate (calls : List (Option (GateCall F))) (k : ℕ) :
    ((calls.map cpiGate ++ List.replicate k Gate.newDummy).filter fun g => !g.isDummy) =
      (calls.filterMap id).map GateCall.gate := by
  rw [List.filter_append]
  have h2 : (List.replicate k (Gate.newDummy : Gate F)).filter (fun g => !g.isDummy) = [] := by
    rw [List.filter_eq_nil_iff]
    intro g hg
    rw [(List.mem_replicate.1 hg).2, dummy_isDummy]
    decide
  rw [h2, List.append_nil]
  induction calls with
  | nil => rfl
  | cons c cs ih =>
    cases c with
    | none => rw [List.map_cons, cpiGate, List.filter_cons_of_neg (by simp [dummy_isDummy]), ih,
        List.filterMap_cons_none (f := id) (rfl : id (none : Option (GateCall F)) = none)]
    | some c =>
      rw [List.map_cons, cpiGate, List.filter_cons_of_pos (by simp [gate_not_dummy]), ih,
        List.filterMap_cons_some (f := id) rfl, List.map_cons]

/-- What the permutation loop does to each entry. -/
theorem sigmaLoop_entries {elem : Position → Option F} (gs : List (Gate F)) (i : ℕ) (s s' : List F × List F × List F)
    (h : sigmaLoop elem gs i s = some s') (j : ℕ) :
    ((j < s.1.length → ∀ g, i ≤ j → gs[j - i]? = some g → g.isDummy = false → elem g.aPos = s'.1[j]?) ∧
     (j < s.2.1.length → ∀ g, i ≤ j → gs[j - i]? = some g → g.isDummy = false → elem g.bPos = s'.2.1[j]?) ∧
     (j < s.2.2.length → ∀ g, i ≤ j → gs[j - i]? = some g → g.isDummy = false → elem g.cPos = s'.2.2[j]?)) ∧
    ((∀ g, i ≤ j → gs[j - i]? = some g → g.isDummy = true) →
      s'.1[j]? = s.1[j]? ∧ s'.2.1[j]? = s.2.1[j]? ∧ s'.2.2[j]? = s.2.2[j]?) := by
  induction gs generalizing i s with
  | nil =>
    rw [sigmaLoop, Option.some.injEq] at h
    subst h
    simp
  | cons g gs ih =>
    rw [sigmaLoop] at h
    by_cases hd : g.isDummy = true
    · rw [if_pos hd] at h
      obtain ⟨⟨a1, a2, a3⟩, b⟩ := ih _ _ h
      have tr : ∀ g', i ≤ j → (g :: gs)[j - i]? = some g' → g'.isDummy = false → i + 1 ≤ j ∧ gs[j - (i + 1)]? = some g' := by
        intro g' hij hg' hd'
        rcases Nat.eq_or_lt_of_le hij with rfl | hlt
        · rw [Nat.sub_self, List.getElem?_cons_zero, Option.some.injEq] at hg'
          rw [hg'] at hd; rw [hd] at hd'; cases hd'
        · rw [show j - i = (j - (i + 1)) + 1 by omega, List.getElem?_cons_succ] at hg'
          exact ⟨hlt, hg'⟩
      refine ⟨⟨fun hl g' hij hg' hd' => ?_, fun hl g' hij hg' hd' => ?_, fun hl g' hij hg' hd' => ?_⟩, fun hall => ?_⟩
      · exact a1 hl g' (tr g' hij hg' hd').1 (tr g' hij hg' hd').2 hd'
      · exact a2 hl g' (tr g' hij hg' hd').1 (tr g' hij hg' hd').2 hd'
      · exact a3 hl g' (tr g' hij hg' hd').1 (tr g' hij hg' hd').2 hd'
      · refine b fun g' hij hg' => hall g' (by omega) ?_
        rw [show j - i = (j - (i + 1)) + 1 by omega, List.getElem?_cons_succ]; exact hg'
    · rw [if_neg hd] at h
      simp only [Option.bind_eq_bind, Option.bind_eq_some_iff] at h
      obtain ⟨x, hx, y, hy, z, hz, h⟩ := h
      obtain ⟨⟨a1, a2, a3⟩, b⟩ := ih _ _ h
      dsimp only at a1 a2 a3 b
      rw [List.length_set] at a1 a2 a3
      by_cases hij : j = i
      · subst hij
        have b' := b (fun g' hlt => absurd hlt (by omega))
        rw [Nat.sub_self, List.getElem?_cons_zero]
        refine ⟨⟨fun hl g' _ hg' _ => ?_, fun hl g' _ hg' _ => ?_, fun hl g' _ hg' _ => ?_⟩, fun hall => ?_⟩
        · rw [Option.some.injEq] at hg'; subst hg'
          rw [b'.1, List.getElem?_set_self hl, hx]
        · rw [Option.some.injEq] at hg'; subst hg'
          rw [b'.2.1, List.getElem?_set_self hl, hy]
        · rw [Option.some.injEq] at hg'; subst hg'
          rw [b'.2.2, List.getElem?_set_self hl, hz]
        · exact absurd (hall g le_rfl rfl) hd
      · have tr : ∀ g', i ≤ j → (g :: gs)[j - i]? = some g' → i + 1 ≤ j ∧ gs[j - (i + 1)]? = some g' := by
          intro g' hle hg'
          rw [show j - i = (j - (i + 1)) + 1 by omega, List.getElem?_cons_succ] at hg'
          exact ⟨by omega, hg'⟩
        refine ⟨⟨fun hl g' hle hg' hd' => a1 hl g' (tr g' hle hg').1 (tr g' hle hg').2 hd',
          fun hl g' hle hg' hd' => a2 hl g' (tr g' hle hg').1 (tr g' hle hg').2 hd',
          fun hl g' hle hg' hd' => a3 hl g' (tr g' hle hg').1 (tr g' hle hg').2 hd'⟩, fun hall => ?_⟩
        obtain ⟨c1, c2, c3⟩ := b fun g' hlt hg' => hall g' (by omega) (by
          rw [show j - i = (j - (i + 1)) + 1 by omega, List.getElem?_cons_succ]; exact hg')
        rw [c1, c2, c3, List.getElem?_set_ne (Ne.symm hij), List.getElem?_set_ne (Ne.symm hij),
          List.getElem?_set_ne (Ne.symm hij)]
        exact ⟨rfl, rfl, rfl⟩

theorem cpiMapElement_eq (d : Domain F) (layer index : ℕ) :
    cpiMapElement d.elements (d.elements.map fun r => r * (1 + 1)) (d.elements.map fun r => r * (1 + 1 + 1))
      (.pos layer index) = if index < d.size then some (label d.gen (min layer 2) index) else none := by
  have h3 : ∀ l, cpiMapElement d.elements (d.elements.map fun r => r * (1 + 1)) (d.elements.map fun r => r * (1 + 1 + 1))
      (.pos l index) = mapElement d.elements (d.elements.map fun r => r * (1 + 1))
        (d.elements.map fun r => r * (1 + 1 + 1)) (.pos (min l 2) index) := by
    intro l
    rcases l with _ | _ | l
    · rfl
    · rfl
    · have : min (l + 1 + 1) 2 = 2 := by omega
      rw [this]; rfl
  rw [h3, mapElement_eq]
  have : min layer 2 < 3 := by omega
  simp [this]

theorem compile_cpi_some (calls : List (Option (GateCall F))) (gc : GateConstraints F) (cp : CopyConstraints F) (n : ℕ)
    (h : (buildCpiCalls calls).compile = some (gc, cp, n)) :
    ∃ (d : Domain F) (s : List F × List F × List F), Domain.new? n = some d ∧ d.Valid ∧ d.size = n ∧ 2 ≤ calls.length ∧
      n = nextPow2 calls.length ∧
      gc = { fax := [], fbx := [], fcx := [],
             qlx := d.interpolate ((calls.filterMap id).map fun c => c.gate.qL),
             qrx := d.interpolate ((calls.filterMap id).map fun c => c.gate.qR),
             qox := d.interpolate ((calls.filterMap id).map fun c => c.gate.qO),
             qmx := d.interpolate ((calls.filterMap id).map fun c => c.gate.qM),
             qcx := d.interpolate ((calls.filterMap id).map fun c => c.gate.qC),
             pix := d.interpolate ((calls.filterMap id).map fun c => c.gate.pi) } ∧
      sigmaLoop (cpiMapElement d.elements (d.elements.map fun r => r * (1 + 1)) (d.elements.map fun r => r * (1 + 1 + 1)))
        (calls.map cpiGate ++ List.replicate (nextPow2 calls.length - calls.length) Gate.newDummy) 0
        (d.elements, d.elements.map fun r => r * (1 + 1), d.elements.map fun r => r * (1 + 1 + 1)) = some s ∧
      cp = ⟨d.interpolate s.1, d.interpolate s.2.1, d.interpolate s.2.2, 2, 3⟩ := by
  rw [buildCpiCalls_eq] at h
  unfold CPICircuit.compile CPICircuit.pad at h
  simp only [List.length_map] at h
  by_cases hlen : calls.length < 2
  · rw [if_pos hlen] at h; cases h
  rw [if_neg hlen, cpi_addDummies_eq, pad_length (by omega)] at h
  simp only [Option.bind_eq_bind, Option.bind_some, Option.bind_eq_some_iff, pure, Option.some.injEq] at h
  obtain ⟨d, hd, cp', hcp, heq⟩ := h
  have hn : (calls.map cpiGate ++ List.replicate (nextPow2 calls.length - calls.length) Gate.newDummy).length =
      nextPow2 calls.length := by
    have := le_nextPow2 calls.length
    simp; omega
  rw [hn] at hd
  obtain ⟨hv, hsz⟩ := Domain.new?_valid hd
  rw [nextPow2_idem] at hsz
  have hroot : d.elements[0]? = some 1 := by
    have := d.size_pos
    simp [Domain.elements, Domain.element, this]
  unfold cpiCalPermutation at hcp
  rw [hn, hd] at hcp
  simp only [Option.bind_eq_bind, Option.bind_some, hroot, Option.bind_eq_some_iff, pure, Option.some.injEq] at hcp
  obtain ⟨s, hs, hcp⟩ := hcp
  simp only [Prod.mk.injEq] at heq
  obtain ⟨e1, e2, e3⟩ := heq
  rw [hn] at e3
  refine ⟨d, s, by rw [← e3]; exact hd, hv, by rw [hsz, e3], by omega, e3.symm, ?_, hs, ?_⟩
  · rw [← e1]
    simp only [CPICircuit.getAssignment, filter_cpiGate, List.map_map]
    rfl
  · rw [← e2, ← hcp]
    have h2 : (1 : F) + 1 = 2 := by norm_num
    have h3 : (1 : F) + 1 + 1 = 3 := by norm_num
    rw [h3, h2]

/-- **C106**, what `compile` does (selectors): row `i` of every selector and of the public input is that of the `i`-th
call *once the dummy calls are left out*. -/
theorem C106_selectors_skip_dummies (calls : List (Option (GateCall F))) (gc : GateConstraints F) (cp : CopyConstraints F)
    (n : ℕ) (h : (buildCpiCalls calls).compile = some (gc, cp, n)) :
    ∃ d : Domain F, Domain.new? n = some d ∧ IsPrimitiveRoot d.gen n ∧
      ∀ pf ∈ [(gc.qlx, fun k : GateCall F => k.gate.qL), (gc.qrx, fun k => k.gate.qR), (gc.qox, fun k => k.gate.qO),
        (gc.qmx, fun k => k.gate.qM), (gc.qcx, fun k => k.gate.qC), (gc.pix, fun k => k.gate.pi)],
        ∀ i < n, Ark.eval pf.1 (d.gen ^ i) = rowVal (calls.filterMap id) pf.2 i := by
  obtain ⟨d, s, hd, hv, hsz, h2, hn, hgc, hs, hcp⟩ := compile_cpi_some calls gc cp n h
  refine ⟨d, hd, hsz ▸ hv, fun pf hpf i hi => ?_⟩
  have key : pf.1 = d.interpolate ((calls.filterMap id).map pf.2) := by
    subst hgc
    simp only [List.mem_cons, List.not_mem_nil, or_false] at hpf
    rcases hpf with rfl | rfl | rfl | rfl | rfl | rfl <;> rfl
  rw [key, eval_eq, hv.eval_interpolate _ (by omega), getD_map_rowVal]

/-- **C106**, what `compile` does (wiring): row `i` of the permutation polynomials is that of the `i`-th call, dummy calls
*counted*. -/
theorem C106_wiring_counts_dummies (calls : List (Option (GateCall F))) (gc : GateConstraints F) (cp : CopyConstraints F)
    (n : ℕ) (h : (buildCpiCalls calls).compile = some (gc, cp, n)) :
    ∃ d : Domain F, Domain.new? n = some d ∧ cp.k1 = 2 ∧ cp.k2 = 3 ∧
      ∀ pl ∈ [(cp.s1, 0), (cp.s2, 1), (cp.s3, 2)], ∀ i < n,
        Ark.eval pl.1 (d.gen ^ i) = label d.gen (wantedTarget calls pl.2 i).1 (wantedTarget calls pl.2 i).2 := by
  obtain ⟨d, s, hd, hv, hsz, h2, hn, hgc, hs, hcp⟩ := compile_cpi_some calls gc cp n h
  refine ⟨d, hd, by rw [hcp], by rw [hcp], fun pl hpl i hi => ?_⟩
  have hi' : i < d.size := by omega
  obtain ⟨⟨a1, a2, a3⟩, b⟩ := sigmaLoop_entries _ _ _ _ hs i
  dsimp only at a1 a2 a3 b
  simp only [List.length_map, elements_length, Nat.zero_le, Nat.sub_zero, forall_const] at a1 a2 a3 b
  have hel : d.elements[i]? = some (d.gen ^ i) := by
    simp [Domain.elements, List.getElem?_map, List.getElem?_range, hi', Domain.element]
  have hcall : ∀ call : GateCall F, calls[i]? = some (some call) →
      (calls.map cpiGate ++ List.replicate (nextPow2 calls.length - calls.length) Gate.newDummy)[i]? = some call.gate := by
    intro call hc
    have := (List.getElem?_eq_some_iff.1 hc).1
    rw [List.getElem?_append_left (by simpa using this), List.getElem?_map, hc]
    rfl
  have hdum : (∀ call : GateCall F, calls[i]? ≠ some (some call)) → ∀ g,
      (calls.map cpiGate ++ List.replicate (nextPow2 calls.length - calls.length) Gate.newDummy)[i]? = some g →
        g.isDummy = true := by
    intro hno g hg
    rcases List.mem_append.1 (List.mem_of_getElem? hg) with _ | hm
    · by_cases hlt : i < calls.length
      · rw [List.getElem?_append_left (by simpa using hlt), List.getElem?_map] at hg
        cases hc : calls[i]? with
        | none => rw [hc] at hg; cases hg
        | some o =>
          cases o with
          | some call => exact absurd hc (hno call)
          | none =>
            rw [hc] at hg
            simp only [Option.map_some, Option.some.injEq] at hg
            rw [← hg]; exact dummy_isDummy
      · rw [List.getElem?_append_right (by simpa using hlt)] at hg
        rw [(List.mem_replicate.1 (List.mem_of_getElem? hg)).2]; exact dummy_isDummy
    · rw [(List.mem_replicate.1 hm).2]; exact dummy_isDummy
  have hev : ∀ l : List F, ∀ x, l[i]? = some x → Ark.eval (d.interpolate l) (d.gen ^ i) = x := by
    intro l x hx
    rw [eval_eq, hv.eval_interpolate _ hi', List.getD_eq_getElem?_getD, hx]; rfl
  by_cases hsome : ∃ call : GateCall F, calls[i]? = some (some call)
  · obtain ⟨call, hc⟩ := hsome
    obtain ⟨ga, gb, gc'⟩ := gate_pos call
    have e1 := a1 hi' _ (hcall call hc) (gate_not_dummy call)
    have e2 := a2 hi' _ (hcall call hc) (gate_not_dummy call)
    have e3 := a3 hi' _ (hcall call hc) (gate_not_dummy call)
    rw [ga, cpiMapElement_eq] at e1
    rw [gb, cpiMapElement_eq] at e2
    rw [gc', cpiMapElement_eq] at e3
    have l1 : i < s.1.length ∧ i < s.2.1.length ∧ i < s.2.2.length := by
      have hlen : ∀ (gs : List (Gate F)) (i : ℕ) (s s' : List F × List F × List F) (elem : Position → Option F),
          sigmaLoop elem gs i s = some s' → s'.1.length = s.1.length ∧ s'.2.1.length = s.2.1.length ∧
            s'.2.2.length = s.2.2.length := by
        intro gs
        induction gs with
        | nil => intro i s s' elem h; rw [sigmaLoop, Option.some.injEq] at h; subst h; exact ⟨rfl, rfl, rfl⟩
        | cons g gs ih =>
          intro i s s' elem h
          rw [sigmaLoop] at h
          split at h
          · exact ih _ _ _ _ h
          · simp only [Option.bind_eq_bind, Option.bind_eq_some_iff] at h
            obtain ⟨x, -, y, -, z, -, h⟩ := h
            have := ih _ _ _ _ h
            simpa using this
      obtain ⟨m1, m2, m3⟩ := hlen _ _ _ _ _ hs
      simp only [List.length_map, elements_length] at m1 m2 m3
      omega
    have pick : ∀ (l : List F) (ix ly : ℕ), i < l.length →
        (if ix < d.size then some (label d.gen ly ix) else none) = l[i]? → l[i]? = some (label d.gen ly ix) := by
      intro l ix ly hl he
      split at he
      · exact he.symm
      · rw [List.getElem?_eq_getElem hl] at he; cases he
    have t : ∀ ly, wantedTarget calls ly i = match ly with
        | 0 => (min call.a.1 2, call.a.2.1)
        | 1 => (min call.b.1 2, call.b.2.1)
        | _ => (min call.c.1 2, call.c.2.1) := by
      intro ly; unfold wantedTarget; rw [hc]
    subst hcp
    simp only [List.mem_cons, List.not_mem_nil, or_false] at hpl
    rcases hpl with rfl | rfl | rfl
    · rw [t]; exact hev _ _ (pick _ _ _ l1.1 e1)
    · rw [t]; exact hev _ _ (pick _ _ _ l1.2.1 e2)
    · rw [t]; exact hev _ _ (pick _ _ _ l1.2.2 e3)
  · have hno : ∀ call : GateCall F, calls[i]? ≠ some (some call) := fun call hc => hsome ⟨call, hc⟩
    obtain ⟨c1, c2, c3⟩ := b (hdum hno)
    rw [hel] at c1
    rw [List.getElem?_map, hel] at c2 c3
    have t : ∀ ly, wantedTarget calls ly i = (ly, i) := by
      intro ly; unfold wantedTarget
      split
      · next call hc => exact absurd hc (hno call)
      · rfl
    subst hcp
    simp only [List.mem_cons, List.not_mem_nil, or_false] at hpl
    rcases hpl with rfl | rfl | rfl
    · rw [t, hev _ _ c1]; simp [label]
    · rw [t, hev _ _ c2]; simp [label, mul_comm, one_add_one_eq_two]
    · rw [t, hev _ _ c3]; simp [label]; ring

theorem dummiesLast_iff (calls : List (Option (GateCall F))) :
    DummiesLast calls ↔ ∀ (i : ℕ) (call : GateCall F), (calls.filterMap id)[i]? = some call ↔ calls[i]? = some (some call) := by
  constructor
  · rintro ⟨gs, k, rfl⟩ i call
    have h0 : ∀ k, ((List.replicate k (none : Option (GateCall F))).filterMap id) = [] := by
      intro k
      induction k with
      | zero => rfl
      | succ k ih => rw [List.replicate_succ, List.filterMap_cons_none (f := id) (rfl : id (none : Option (GateCall F)) = none), ih]
    have h1 : ∀ gs : List (GateCall F), ((gs.map some).filterMap id) = gs := by
      intro gs
      induction gs with
      | nil => rfl
      | cons g gs ih => rw [List.map_cons, List.filterMap_cons_some (f := id) rfl, ih]
    have : (gs.map some ++ List.replicate k none).filterMap id = gs := by
      rw [List.filterMap_append, h0, h1, List.append_nil]
    rw [this]
    by_cases hi : i < gs.length
    · rw [List.getElem?_append_left (by simpa using hi), List.getElem?_map]
      cases gs[i]? <;> simp
    · rw [List.getElem?_append_right (by simpa using hi), List.getElem?_eq_none (l := gs) (by omega)]
      rw [List.getElem?_replicate]
      split <;> simp
  · induction calls with
    | nil => intro _; exact ⟨[], 0, rfl⟩
    | cons c cs ih =>
      intro h
      cases c with
      | some c =>
        rw [List.filterMap_cons_some (f := id) rfl] at h
        obtain ⟨gs, k, rfl⟩ := ih fun i call => by
          have := h (i + 1) call
          simpa using this
        exact ⟨c :: gs, k, rfl⟩
      | none =>
        rw [List.filterMap_cons_none (f := id) (rfl : id (none : Option (GateCall F)) = none)] at h
        have hnil : (cs.filterMap id) = [] := by
          cases hr : (cs.filterMap id) with
          | nil => rfl
          | cons x xs =>
            have := (h 0 x).1 (by rw [hr]; rfl)
            simp at this
        refine ⟨[], cs.length + 1, ?_⟩
        rw [List.map_nil, List.nil_append, List.replicate_succ]
        congr 1
        rw [List.eq_replicate_iff]
        refine ⟨rfl, fun o ho => ?_⟩
        cases o with
        | none => rfl
        | some x =>
          have := (mem_gatesOf cs x).2 ho
          rw [hnil] at this
          cases this

theorem gate_selectors_ne (call : GateCall F) : call.gate.qL ≠ 0 ∨ call.gate.qM ≠ 0 := by
  unfold GateCall.gate
  cases call.ty <;> simp [Gate.newAdd, Gate.newMul, Gate.newConstant]

/-- **C106** is false of the code, exactly: the selector rows of a `CPICircuit` are those of its calls if and only if no
dummy gate was added before another gate.  Otherwise (`C106_selectors_skip_dummies`, `C106_wiring_counts_dummies`) the
selectors of later gates stand in other rows than their wiring. -/
theorem C106_rows_right_iff (calls : List (Option (GateCall F))) (gc : GateConstraints F) (cp : CopyConstraints F)
    (n : ℕ) (h : (buildCpiCalls calls).compile = some (gc, cp, n)) :
    ∃ d : Domain F, Domain.new? n = some d ∧
      ((∀ pf ∈ [(gc.qlx, fun k : GateCall F => k.gate.qL), (gc.qrx, fun k => k.gate.qR), (gc.qox, fun k => k.gate.qO),
          (gc.qmx, fun k => k.gate.qM), (gc.qcx, fun k => k.gate.qC), (gc.pix, fun k => k.gate.pi)],
          ∀ i < n, Ark.eval pf.1 (d.gen ^ i) = wantedVal calls pf.2 i) ↔
        DummiesLast calls) := by
  obtain ⟨d, hd, -, hsel⟩ := C106_selectors_skip_dummies calls gc cp n h
  obtain ⟨d', s, hd', hv, hsz, h2, hn, hgc, hs, hcp⟩ := compile_cpi_some calls gc cp n h
  refine ⟨d, hd, ?_⟩
  constructor
  · intro hall
    have hL : ∀ i < n, rowVal (calls.filterMap id) (fun k => k.gate.qL) i = wantedVal calls (fun k => k.gate.qL) i :=
      fun i hi => by
        rw [← hsel (gc.qlx, fun k : GateCall F => k.gate.qL) (by simp) i hi,
          ← hall (gc.qlx, fun k : GateCall F => k.gate.qL) (by simp) i hi]
    have hM : ∀ i < n, rowVal (calls.filterMap id) (fun k => k.gate.qM) i = wantedVal calls (fun k => k.gate.qM) i :=
      fun i hi => by
        rw [← hsel (gc.qmx, fun k : GateCall F => k.gate.qM) (by simp) i hi,
          ← hall (gc.qmx, fun k : GateCall F => k.gate.qM) (by simp) i hi]
    have key : ∀ (cs : List (Option (GateCall F))) (m : ℕ), cs.length ≤ m →
        (∀ i < m, rowVal (cs.filterMap id) (fun k => k.gate.qL) i = wantedVal cs (fun k => k.gate.qL) i) →
        (∀ i < m, rowVal (cs.filterMap id) (fun k => k.gate.qM) i = wantedVal cs (fun k => k.gate.qM) i) →
        DummiesLast cs := by
      intro cs
      induction cs with
      | nil => intro m _ _ _; exact ⟨[], 0, rfl⟩
      | cons c cs ih =>
        intro m hm kL kM
        rw [List.length_cons] at hm
        cases c with
        | some c =>
          rw [List.filterMap_cons_some (f := id) rfl] at kL kM
          obtain ⟨gs, k, rfl⟩ := ih (m - 1) (by omega)
            (fun i hi => by simpa [rowVal, wantedVal] using kL (i + 1) (by omega))
            (fun i hi => by simpa [rowVal, wantedVal] using kM (i + 1) (by omega))
          exact ⟨c :: gs, k, rfl⟩
        | none =>
          rw [List.filterMap_cons_none (f := id) (rfl : id (none : Option (GateCall F)) = none)] at kL kM
          have hnil : (cs.filterMap id) = [] := by
            cases hr : (cs.filterMap id) with
            | nil => rfl
            | cons x xs =>
              rw [hr] at kL kM
              have l0 := kL 0 (by omega)
              have m0 := kM 0 (by omega)
              simp only [rowVal, wantedVal, List.getElem?_cons_zero] at l0 m0
              rcases gate_selectors_ne x with hx | hx
              · exact absurd l0 hx
              · exact absurd m0 hx
          refine ⟨[], cs.length + 1, ?_⟩
          rw [List.map_nil, List.nil_append, List.replicate_succ]
          congr 1
          rw [List.eq_replicate_iff]
          refine ⟨rfl, fun o ho => ?_⟩
          cases o with
          | none => rfl
          | some x =>
            have := (mem_gatesOf cs x).2 ho
            rw [hnil] at this
            cases this
    exact key calls n (by rw [hn]; exact le_nextPow2 _) hL hM
  · intro hlast pf hpf i hi
    rw [hsel pf hpf i hi]
    have := (dummiesLast_iff calls).1 hlast i
    unfold rowVal wantedVal
    cases hr : (calls.filterMap id)[i]? with
    | some call => rw [(this call).1 hr]
    | none =>
      cases hc : calls[i]? with
      | none => rfl
      | some o =>
        cases o with
        | none => rfl
        | some call => rw [(this call).2 hc] at hr; cases hr

/-- **C106**, the part that holds: with dummy gates at the end only, the gate equation and the wiring of every row are
those of the call made for it.  (Missing, and false: dummy gates elsewhere.) -/
theorem C106_dummies_last_partial (gs : List (GateCall F)) (k : ℕ) (gc : GateConstraints F) (cp : CopyConstraints F)
    (n : ℕ) (h : (buildCpiCalls (gs.map some ++ List.replicate k none)).compile = some (gc, cp, n)) :
    ∃ d : Domain F, Domain.new? n = some d ∧ n = nextPow2 (gs.length + k) ∧ ∀ i < n,
      (∀ a b c : F, Ark.eval gc.qlx (d.gen ^ i) * a + Ark.eval gc.qrx (d.gen ^ i) * b +
        Ark.eval gc.qmx (d.gen ^ i) * (a * b) + Ark.eval gc.qox (d.gen ^ i) * c +
        Ark.eval gc.qcx (d.gen ^ i) + Ark.eval gc.pix (d.gen ^ i) = 0 ↔
        ∀ call, gs[i]? = some call → call.Relation a b c) ∧
      ∀ pl ∈ [(cp.s1, 0), (cp.s2, 1), (cp.s3, 2)],
        Ark.eval pl.1 (d.gen ^ i) = label d.gen (wantedTarget (gs.map some) pl.2 i).1 (wantedTarget (gs.map some) pl.2 i).2 := by
  obtain ⟨d, hd, hiff⟩ := C106_rows_right_iff _ gc cp n h
  obtain ⟨d', hd', -, -, hw⟩ := C106_wiring_counts_dummies _ gc cp n h
  rw [hd, Option.some.injEq] at hd'
  subst hd'
  obtain ⟨-, -, -, -, -, -, hn, -⟩ := compile_cpi_some _ gc cp n h
  have hall := hiff.2 ⟨gs, k, rfl⟩
  have hval : ∀ f i, wantedVal (gs.map some ++ List.replicate k none) f i = rowVal gs f i := by
    intro f i
    unfold wantedVal rowVal
    by_cases hi : i < gs.length
    · rw [List.getElem?_append_left (by simpa using hi), List.getElem?_map, List.getElem?_eq_getElem hi]; rfl
    · rw [List.getElem?_append_right (by simpa using hi), List.getElem?_eq_none (l := gs) (by omega), List.getElem?_replicate]
      split <;> simp_all
  have htar : ∀ l i, wantedTarget (gs.map some ++ List.replicate k none) l i = wantedTarget (gs.map some) l i := by
    intro l i
    unfold wantedTarget
    by_cases hi : i < gs.length
    · rw [List.getElem?_append_left (by simpa using hi)]
    · rw [List.getElem?_append_right (by simpa using hi), List.getElem?_replicate,
        List.getElem?_eq_none (l := gs.map some) (by simpa using hi)]
      split <;> simp_all
  refine ⟨d, hd, by rw [hn]; simp, fun i hi => ⟨fun a b c => ?_, fun pl hpl => ?_⟩⟩
  · simp only [List.mem_cons, List.not_mem_nil, or_false, forall_eq_or_imp, forall_eq] at hall
    obtain ⟨hl, hr, ho, hm, hcc, hpi⟩ := hall
    rw [hl i hi, hr i hi, ho i hi, hm i hi, hcc i hi, hpi i hi]
    simp only [hval]
    unfold rowVal
    cases hc : gs[i]? with
    | none => simp
    | some call =>
      simp only [Option.some.injEq, forall_eq']
      exact C43_call_gate call a b c
  · rw [hw pl hpl i hi, htar]

/-- Non-vacuity: a dummy gate in front of two gates, and one behind them; both circuits compile, and only the second is
one of which `C106_rows_right_iff` says that its selector rows are those of its calls. -/
def dummyFirst : List (Option (GateCall BlsFr)) := none :: exampleCalls.map some

/-- See `dummyFirst`. -/
def dummyLast : List (Option (GateCall BlsFr)) := exampleCalls.map some ++ List.replicate 1 none

example : (buildCpiCalls dummyFirst).compile.isSome ∧ (buildCpiCalls dummyLast).compile.isSome ∧
    ¬ DummiesLast dummyFirst ∧ DummiesLast dummyLast := by
  refine ⟨by decide +kernel, by decide +kernel, ?_, ⟨exampleCalls, 1, rfl⟩⟩
  intro h
  have := ((dummiesLast_iff dummyFirst).1 h 0 ⟨.multiplication, (0, 0, 1), (1, 0, 2), (0, 1, 2), 0⟩).1 rfl
  cases this

end Verif.Plonk

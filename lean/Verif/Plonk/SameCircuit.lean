import Verif.Plonk.CpiTexts
import Verif.Plonk.TwoCircuits

/-!
# Circuits of `CPIGenerator` that are equal

Two lists of gates with named wires compile to the same public circuit exactly when they differ by an injective renaming of the
wires that keeps the constants (used by C110).
-/

set_option linter.unusedSectionVars false
set_option linter.unusedSimpArgs false
set_option linter.unusedVariables false

namespace Verif.Plonk

open Verif.Ark Verif.Kzg

/-- The gate with other wire expressions. -/
def CGate.withNames (f : List Char → List Char) (g : CGate) : CGate := ⟨f g.left, f g.right, f g.bottom, g.ty⟩

/-- The wire expressions of some gates. -/
def wireNames (gates : List CGate) : List (List Char) := gates.flatMap fun g => [g.left, g.right, g.bottom]

theorem mem_wireNames {gates : List CGate} {nm : List Char} :
    nm ∈ wireNames gates ↔ ∃ g ∈ gates, nm = g.left ∨ nm = g.right ∨ nm = g.bottom := by
  simp [wireNames]

/-- All three expressions replaced. -/
def Names.ren (f : List Char → List Char) (t : Names) : Names := (f t.1, f t.2.1, f t.2.2)

theorem names_ren (f : List Char → List Char) (gates : List CGate) :
    (gates.map (CGate.withNames f)).map CGate.names = (gates.map CGate.names).map (Names.ren f) := by
  simp only [List.map_map]; rfl

theorem nameAt_ren (f : List Char → List Char) (T : List Names) (p : ℕ × ℕ) :
    nameAt (T.map (Names.ren f)) p = (nameAt T p).map f := by
  unfold nameAt
  rw [List.getElem?_map]
  cases T[p.2]? with
  | none => rfl
  | some t =>
    obtain ⟨l, r⟩ := p
    rcases l with _ | _ | _ | l <;> rfl

theorem slotsFrom_ren (f : List Char → List Char) (i : ℕ) (T : List Names) :
    slotsFrom i (T.map (Names.ren f)) = (slotsFrom i T).map fun s => (f s.1, s.2) := by
  induction T generalizing i with
  | nil => rfl
  | cons t T ih => simp [slotsFrom, ih, Names.ren]

theorem occ_ren (f : List Char → List Char) (T : List Names)
    (hf : ∀ p q a b, nameAt T p = some a → nameAt T q = some b → f a = f b → a = b) {p : ℕ × ℕ} {key : List Char}
    (hp : nameAt T p = some key) : occ (T.map (Names.ren f)) (f key) = occ T key := by
  unfold occ
  rw [slotsFrom_ren, List.filter_map, List.map_map]
  have : (slotsFrom 0 T).filter ((fun s : List Char × (ℕ × ℕ) => decide (s.1 = f key)) ∘ fun s => (f s.1, s.2)) =
      (slotsFrom 0 T).filter fun s => decide (s.1 = key) := by
    apply List.filter_congr
    rintro ⟨nm, q⟩ hs
    have hq := ((mem_slotsFrom _ _ _ _).1 hs).2
    simp only [Function.comp, decide_eq_decide]
    exact ⟨fun h => hf _ _ _ _ hq hp h, fun h => by rw [h]⟩
  rw [this]
  rfl

theorem wirePerm_ren (f : List Char → List Char) (T : List Names)
    (hf : ∀ p q a b, nameAt T p = some a → nameAt T q = some b → f a = f b → a = b) :
    wirePerm (T.map (Names.ren f)) = wirePerm T := by
  ext1 p
  rw [wirePerm_apply, wirePerm_apply]
  cases h : nameAt T p with
  | none =>
    have h' : nameAt (T.map (Names.ren f)) p = none := by rw [nameAt_ren, h]; rfl
    simp [nextPos, h, h']
  | some key =>
    have h' : nameAt (T.map (Names.ren f)) p = some (f key) := by rw [nameAt_ren, h]; rfl
    rw [nextPos_some h, nextPos_some h', occ_ren f T hf h]

theorem nameAt_mem {gates : List CGate} {p : ℕ × ℕ} {a : List Char} (h : nameAt (gates.map CGate.names) p = some a) :
    a ∈ wireNames gates := by
  unfold nameAt at h
  rw [List.getElem?_map] at h
  cases hg : gates[p.2]? with
  | none => rw [hg] at h; cases h
  | some g =>
    rw [hg] at h
    rw [mem_wireNames]
    refine ⟨g, List.mem_of_getElem? hg, ?_⟩
    obtain ⟨l, r⟩ := p
    rcases l with _ | _ | _ | l <;> simp [CGate.names] at h <;> simp [h]

/-- The calls of `gen_circuit` for these gates. -/
def callsOf (F : Type) [Field F] [DecidableEq F] (gates : List CGate) : List (GateCall F) :=
  wiredCalls (gates.map CGate.names) 0 (gates.map (CGate.inflate F))

section field
variable {F : Type} [FftField F] [DecidableEq F]

theorem names_inflate (gates : List CGate) : (gates.map (CGate.inflate F)).map PGate.names = gates.map CGate.names := by
  rw [List.map_map]; rfl

theorem callsOf_getElem? (gates : List CGate) (i : ℕ) :
    (callsOf F gates)[i]? = (gates[i]?).map fun g => wiredCall (gates.map CGate.names) i (g.inflate F) := by
  unfold callsOf
  rw [wiredCalls_getElem?, List.getElem?_map, Option.map_map, Nat.zero_add]
  rfl

theorem callsOf_length (gates : List CGate) : (callsOf F gates).length = gates.length := by
  unfold callsOf
  rw [wiredCalls_length, List.length_map]

theorem target_callsOf (gates : List CGate) {l : ℕ} (hl : l < 3) (i : ℕ) :
    target (callsOf F gates) l i = wirePerm (gates.map CGate.names) (l, i) :=
  target_wiredCalls _ _ (names_inflate gates).symm hl i

/-- The circuit the verifier compiles, from the state of its parser. -/
theorem cpi_of_gates {st : CState} (h : st.Ok) :
    (cGenCircuit (F := F) st.gates st.pm).bind CPICircuit.compile =
      ((build (callsOf F st.gates)).compile).map CompiledCircuit.publicPart := by
  have he : (st.gates.map (CGate.inflate F)).map PGate.erase = st.gates := by
    rw [List.map_map]
    have : PGate.erase ∘ CGate.inflate F = id := by funext g; rfl
    rw [this, List.map_id]
  have hg := genCircuit_eq (st.gates.map (CGate.inflate F)) st.pm (by rw [names_inflate]; exact h.pm)
  have hs := sim_genLoop (st.gates.map (CGate.inflate F)) (by
      intro g hg ht
      obtain ⟨g₀, h₀, rfl⟩ := List.mem_map.1 hg
      obtain ⟨k, hk⟩ := Option.isSome_iff_exists.1 (h.consts g₀ h₀ ht)
      refine ⟨k, hk, ?_⟩
      simp only [CGate.inflate, hk, Option.getD_some]) (by unfold genCircuit at hg; exact hg)
  rw [he, names_inflate] at hs
  have hc : cGenCircuit (F := F) st.gates st.pm = some ⟨(build (callsOf F st.gates)).gates⟩ := hs
  rw [hc, Option.bind_some]
  apply compile_agrees_aux
  intro call hcall
  obtain ⟨i, hi⟩ := List.mem_iff_getElem?.1 hcall
  have hb := wirePerm_bounds (st.gates.map CGate.names) (n := st.gates.length) (by rw [List.length_map])
  rw [callsOf_getElem?] at hi
  obtain ⟨g, hg1, rfl⟩ := Option.map_eq_some_iff.1 hi
  have hi3 : i < st.gates.length := (List.getElem?_eq_some_iff.1 hg1).1
  exact ⟨(hb (0, i) ⟨by norm_num, hi3⟩).1.1, (hb (1, i) ⟨by norm_num, hi3⟩).1.1, (hb (2, i) ⟨by norm_num, hi3⟩).1.1⟩

/-- Renamed gates: the same circuit. -/
theorem compile_ren (f : List Char → List Char) (gates : List CGate)
    (hf : ∀ a ∈ wireNames gates, ∀ b ∈ wireNames gates, f a = f b → a = b)
    (hc : ∀ g ∈ gates, g.ty = .constant →
      (parseI32 (f g.left)).map (fun k : ℤ => (k : F)) = (parseI32 g.left).map (fun k : ℤ => (k : F))) :
    ((build (callsOf F (gates.map (CGate.withNames f)))).compile).map CompiledCircuit.publicPart =
      ((build (callsOf F gates)).compile).map CompiledCircuit.publicPart := by
  have hperm : wirePerm ((gates.map (CGate.withNames f)).map CGate.names) = wirePerm (gates.map CGate.names) := by
    rw [names_ren]
    exact wirePerm_ren f _ fun p q a b ha hb => hf a (nameAt_mem ha) b (nameAt_mem hb)
  have hg : (callsOf F (gates.map (CGate.withNames f))).map GateCall.gate = (callsOf F gates).map GateCall.gate := by
    apply List.ext_getElem?
    intro i
    rw [List.getElem?_map, List.getElem?_map, callsOf_getElem?, callsOf_getElem?, List.getElem?_map]
    cases hgi : gates[i]? with
    | none => rfl
    | some g =>
      simp only [Option.map_some, Option.some.injEq]
      unfold wiredCall
      rw [hperm]
      have hm := List.mem_of_getElem? hgi
      cases ht : g.ty with
      | addition => simp only [GateCall.gate, CGate.inflate, CGate.withNames, ht]
      | multiplication => simp only [GateCall.gate, CGate.inflate, CGate.withNames, ht]
      | constant =>
        have hv := hc g hm ht
        have : (((parseI32 (f g.left)).getD 0 : ℤ) : F) = (((parseI32 g.left).getD 0 : ℤ) : F) := by
          cases h1 : parseI32 (f g.left) with
          | none =>
            rw [h1] at hv
            cases h2 : parseI32 g.left with
            | none => rfl
            | some k => rw [h2] at hv; cases hv
          | some k =>
            rw [h1] at hv
            cases h2 : parseI32 g.left with
            | none => rw [h2] at hv; cases hv
            | some k' => rw [h2] at hv; exact Option.some.inj hv
        simp only [GateCall.gate, CGate.inflate, CGate.withNames, ht, this]
  have hb : ∀ cs : List CGate, ∀ call ∈ callsOf F cs, call.a.1 < 3 ∧ call.b.1 < 3 ∧ call.c.1 < 3 := by
    intro cs call hcall
    obtain ⟨i, hi⟩ := List.mem_iff_getElem?.1 hcall
    have hb := wirePerm_bounds (cs.map CGate.names) (n := cs.length) (by rw [List.length_map])
    rw [callsOf_getElem?] at hi
    obtain ⟨g, hg1, rfl⟩ := Option.map_eq_some_iff.1 hi
    have hi3 : i < cs.length := (List.getElem?_eq_some_iff.1 hg1).1
    exact ⟨(hb (0, i) ⟨by norm_num, hi3⟩).1.1, (hb (1, i) ⟨by norm_num, hi3⟩).1.1, (hb (2, i) ⟨by norm_num, hi3⟩).1.1⟩
  rw [← compile_agrees_aux _ (hb _), ← compile_agrees_aux _ (hb _)]
  congr 2
  rw [build_eq, build_eq]
  exact hg

end field

/-- The type of a gate with the value of its constant. -/
def CGate.kind (g : CGate) : GateType × Option BlsFr :=
  (g.ty, if g.ty = .constant then some (((parseI32 g.left).getD 0 : ℤ) : BlsFr) else none)

/-- The same circuit: the same wiring and the same gates. -/
theorem same_of_compile {gates gates' : List CGate} {c : GateConstraints BlsFr × CopyConstraints BlsFr × ℕ}
    (h : ((build (callsOf BlsFr gates)).compile).map CompiledCircuit.publicPart = some c)
    (h' : ((build (callsOf BlsFr gates')).compile).map CompiledCircuit.publicPart = some c) :
    gates'.map CGate.kind = gates.map CGate.kind ∧
      wirePerm (gates'.map CGate.names) = wirePerm (gates.map CGate.names) := by
  obtain ⟨cc, hcc, e⟩ := Option.map_eq_some_iff.1 h
  obtain ⟨cc', hcc', e'⟩ := Option.map_eq_some_iff.1 h'
  have hpub : cc'.publicPart = cc.publicPart := by rw [e, e']
  simp only [CompiledCircuit.publicPart, Prod.mk.injEq, GateConstraints.mk.injEq, true_and] at hpub
  obtain ⟨⟨el, er, eo, em, ec, -⟩, ecopy, esize⟩ := hpub
  obtain ⟨d, hd, -, hrow⟩ := C45_interpolates _ _ hcc
  obtain ⟨d', hd', -, hrow'⟩ := C45_interpolates _ _ hcc'
  have hdd : d' = d := by
    rw [esize, hd] at hd'
    exact (Option.some.inj hd').symm
  subst hdd
  obtain ⟨d0, hd0, -, hsz, -, hle, -, -⟩ := compile_some _ cc hcc
  have hdd : d0 = d' := Option.some.inj (hd0.symm.trans hd)
  subst hdd
  obtain ⟨-, -, -, -, -, hle', -, -⟩ := compile_some _ cc' hcc'
  rw [callsOf_length] at hle hle'
  have two : (1 : BlsFr) ≠ 0 := one_ne_zero
  have row : ∀ i < cc.size, ∀ (q q' : DP BlsFr) (fn : GateCall BlsFr → BlsFr), q' = q →
      (q, fn) ∈ [(cc.gate.fax, fun k : GateCall BlsFr => k.a.2.2), (cc.gate.fbx, fun k => k.b.2.2),
        (cc.gate.fcx, fun k => k.c.2.2), (cc.gate.qlx, fun k => k.gate.qL),
        (cc.gate.qrx, fun k => k.gate.qR), (cc.gate.qox, fun k => k.gate.qO),
        (cc.gate.qmx, fun k => k.gate.qM), (cc.gate.qcx, fun k => k.gate.qC),
        (cc.gate.pix, fun k => k.gate.pi)] →
      (q', fn) ∈ [(cc'.gate.fax, fun k : GateCall BlsFr => k.a.2.2), (cc'.gate.fbx, fun k => k.b.2.2),
        (cc'.gate.fcx, fun k => k.c.2.2), (cc'.gate.qlx, fun k => k.gate.qL),
        (cc'.gate.qrx, fun k => k.gate.qR), (cc'.gate.qox, fun k => k.gate.qO),
        (cc'.gate.qmx, fun k => k.gate.qM), (cc'.gate.qcx, fun k => k.gate.qC),
        (cc'.gate.pix, fun k => k.gate.pi)] →
      rowVal (callsOf BlsFr gates') fn i = rowVal (callsOf BlsFr gates) fn i := by
    intro i hi q q' fn hq hm hm'
    rw [← (hrow _ hm).1 i hi, ← (hrow' _ hm').1 i (esize ▸ hi), hq]
  refine ⟨?_, ?_⟩
  · apply List.ext_getElem?
    intro i
    by_cases hi : i < cc.size
    · have rl := row i hi _ _ (fun k => k.gate.qL) el (by simp) (by simp)
      have rr := row i hi _ _ (fun k => k.gate.qR) er (by simp) (by simp)
      have rm := row i hi _ _ (fun k => k.gate.qM) em (by simp) (by simp)
      have rc := row i hi _ _ (fun k => k.gate.qC) ec (by simp) (by simp)
      simp only [rowVal, callsOf_getElem?] at rl rr rm rc
      rw [List.getElem?_map, List.getElem?_map]
      cases hg : gates[i]? with
      | none =>
        cases hg' : gates'[i]? with
        | none => rfl
        | some g' =>
          exfalso
          simp only [hg, hg', Option.map_none, Option.map_some] at rl rm
          cases ht : g'.ty <;>
            simp [wiredCall, CGate.inflate, GateCall.gate, ht, Gate.newAdd, Gate.newMul, Gate.newConstant] at rl rm
      | some g =>
        cases hg' : gates'[i]? with
        | none =>
          exfalso
          simp only [hg, hg', Option.map_none, Option.map_some] at rl rm
          cases ht : g.ty <;>
            simp [wiredCall, CGate.inflate, GateCall.gate, ht, Gate.newAdd, Gate.newMul, Gate.newConstant] at rl rm
        | some g' =>
          simp only [hg, hg', Option.map_some] at rl rm rr rc
          simp only [Option.map_some, Option.some.injEq, CGate.kind, Prod.mk.injEq]
          cases ht : g.ty <;> cases ht' : g'.ty <;>
            simp [wiredCall, CGate.inflate, GateCall.gate, ht, ht', Gate.newAdd, Gate.newMul, Gate.newConstant]
              at rl rm rr rc
          · simp
          · simp
          · simp [rc]
    · rw [List.getElem?_eq_none (by rw [List.length_map]; omega), List.getElem?_eq_none (by rw [List.length_map]; omega)]
  · obtain ⟨d1, hd1, -, -, hs⟩ := C46_sigma _ _ hcc
    obtain ⟨d2, hd2, -, -, hs'⟩ := C46_sigma _ _ hcc'
    have h1 : d1 = d0 := Option.some.inj (hd1.symm.trans hd)
    have h2 : d2 = d0 := by
      rw [esize, hd] at hd2
      exact (Option.some.inj hd2).symm
    subst h1
    subst h2
    ext1 p
    obtain ⟨l, i⟩ := p
    by_cases hp : l < 3 ∧ i < cc.size
    · obtain ⟨hl, hi⟩ := hp
      rw [← target_callsOf (F := BlsFr) gates hl, ← target_callsOf (F := BlsFr) gates' hl]
      obtain ⟨t1, t2⟩ := target_valid hcc hl hi
      obtain ⟨t1', t2'⟩ := target_valid hcc' hl (esize ▸ hi)
      have key : label d2.gen (target (callsOf BlsFr gates') l i).1 (target (callsOf BlsFr gates') l i).2 =
          label d2.gen (target (callsOf BlsFr gates) l i).1 (target (callsOf BlsFr gates) l i).2 := by
        obtain rfl | rfl | rfl : l = 0 ∨ l = 1 ∨ l = 2 := by omega
        · have e1 := (hs' (cc'.copy.s1, 0) (by simp)).2 i (esize ▸ hi)
          have e2 := (hs (cc.copy.s1, 0) (by simp)).2 i hi
          dsimp only at e1 e2
          rw [← e1, ← e2, ecopy]
        · have e1 := (hs' (cc'.copy.s2, 1) (by simp)).2 i (esize ▸ hi)
          have e2 := (hs (cc.copy.s2, 1) (by simp)).2 i hi
          dsimp only at e1 e2
          rw [← e1, ← e2, ecopy]
        · have e1 := (hs' (cc'.copy.s3, 2) (by simp)).2 i (esize ▸ hi)
          have e2 := (hs (cc.copy.s3, 2) (by simp)).2 i hi
          dsimp only at e1 e2
          rw [← e1, ← e2, ecopy]
      obtain ⟨e1, e2⟩ := C46_labels_distinct _ d2 hd t1' t1 (by rw [hsz, ← esize]; exact t2') (by rw [hsz]; exact t2) key
      exact Prod.ext e1 e2
    · have hn : ∀ cs : List CGate, cs.length ≤ cc.size → nameAt (cs.map CGate.names) (l, i) = none := by
        intro cs hcs
        unfold nameAt
        rw [List.getElem?_map]
        cases hg : cs[i]? with
        | none => rfl
        | some g =>
          have hi : i < cs.length := (List.getElem?_eq_some_iff.1 hg).1
          have hl : ¬ l < 3 := fun hl => hp ⟨hl, by omega⟩
          rcases l with _ | _ | _ | l
          · omega
          · omega
          · omega
          · rfl
      rw [wirePerm_apply, wirePerm_apply]
      simp [nextPos, hn gates hle, hn gates' (by omega)]

/-- The same wiring and the same gates: a renaming. -/
theorem ren_of_same {gates gates' : List CGate} (hk : gates'.map CGate.kind = gates.map CGate.kind)
    (hw : wirePerm (gates'.map CGate.names) = wirePerm (gates.map CGate.names)) :
    ∃ f : List Char → List Char, gates' = gates.map (CGate.withNames f) ∧
      ∀ a ∈ wireNames gates, ∀ b ∈ wireNames gates, f a = f b → a = b := by
  have hlen : gates'.length = gates.length := by simpa using congrArg List.length hk
  set T := gates.map CGate.names with hT
  set T' := gates'.map CGate.names with hT'
  have hsome : ∀ p, (nameAt T p).isSome → (nameAt T' p).isSome := by
    intro p h
    unfold nameAt at h ⊢
    rw [hT, List.getElem?_map] at h
    rw [hT', List.getElem?_map]
    cases hg : gates[p.2]? with
    | none => rw [hg] at h; cases h
    | some g =>
      have : p.2 < gates'.length := by rw [hlen]; exact (List.getElem?_eq_some_iff.1 hg).1
      rw [hg] at h
      rw [List.getElem?_eq_getElem this]
      obtain ⟨l, r⟩ := p
      rcases l with _ | _ | _ | l
      · rfl
      · rfl
      · rfl
      · cases h
  have heq : ∀ p q, (nameAt T p).isSome → (nameAt T p = nameAt T q ↔ nameAt T' p = nameAt T' q) := by
    intro p q hp
    rw [← sameCycle_wirePerm T p q hp, ← sameCycle_wirePerm T' p q (hsome p hp), hw]
  classical
  let f : List Char → List Char := fun key =>
    if h : ∃ p, nameAt T p = some key then (nameAt T' h.choose).getD [] else []
  have hfp : ∀ p a, nameAt T p = some a → nameAt T' p = some (f a) := by
    intro p a ha
    have hex : ∃ p, nameAt T p = some a := ⟨p, ha⟩
    have hc := hex.choose_spec
    have h1 := (heq p hex.choose (by rw [ha]; rfl)).1 (by rw [ha, hc])
    obtain ⟨b, hb⟩ := Option.isSome_iff_exists.1 (hsome p (by rw [ha]; rfl))
    have : f a = b := by
      simp only [f]
      rw [dif_pos hex, ← h1, hb]
      rfl
    rw [this, hb]
  have hname : ∀ a ∈ wireNames gates, ∃ p, nameAt T p = some a := by
    intro a ha
    obtain ⟨g, hg, h⟩ := mem_wireNames.1 ha
    obtain ⟨i, hi⟩ := List.mem_iff_getElem?.1 hg
    rcases h with h | h | h
    · exact ⟨(0, i), by simp [nameAt, hT, hi, CGate.names, h]⟩
    · exact ⟨(1, i), by simp [nameAt, hT, hi, CGate.names, h]⟩
    · exact ⟨(2, i), by simp [nameAt, hT, hi, CGate.names, h]⟩
  refine ⟨f, ?_, ?_⟩
  · apply List.ext_getElem?
    intro i
    rw [List.getElem?_map]
    cases hg : gates[i]? with
    | none =>
      have := List.getElem?_eq_none_iff.1 hg
      rw [List.getElem?_eq_none (by omega)]
      rfl
    | some g =>
      have hi : i < gates.length := (List.getElem?_eq_some_iff.1 hg).1
      have hg' : gates'[i]? = some gates'[i] := List.getElem?_eq_getElem (by omega)
      set g' := gates'[i] with hgd
      rw [hg', Option.map_some, Option.some.injEq]
      have k := congrArg (fun l => l[i]?) hk
      simp only [List.getElem?_map, hg, hg', Option.map_some, Option.some.injEq, CGate.kind, Prod.mk.injEq] at k
      have n0 := hfp (0, i) g.left (by simp [nameAt, hT, hg, CGate.names])
      have n1 := hfp (1, i) g.right (by simp [nameAt, hT, hg, CGate.names])
      have n2 := hfp (2, i) g.bottom (by simp [nameAt, hT, hg, CGate.names])
      simp only [nameAt, hT', List.getElem?_map, hg', Option.map_some, Option.bind_some, CGate.names,
        Option.some.injEq] at n0 n1 n2
      unfold CGate.withNames
      rw [← n0, ← n1, ← n2, ← k.1]
  · intro a ha b hb hab
    obtain ⟨p, hp⟩ := hname a ha
    obtain ⟨q, hq⟩ := hname b hb
    have := (heq p q (by rw [hp]; rfl)).2 (by rw [hfp p a hp, hfp q b hq, hab])
    rw [hp, hq] at this
    exact Option.some.inj this

end Verif.Plonk

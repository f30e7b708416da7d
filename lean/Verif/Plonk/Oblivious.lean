import Verif.Plonk.CpiMatch

/-!
# C93: the public part of a parsed circuit does not depend on the witness values

The prover's parser compares gates together with the values of their wires when it removes duplicates
(`plonk/src/parser.rs` lines 146-148, 261-263, 292-294), so that it is not obvious that the circuit depends on the
*names* of the witnesses only.  The theorems hold for every text, not only for the equations of the input language.
-/

set_option linter.unusedSectionVars false
set_option linter.unusedSimpArgs false
set_option linter.unusedVariables false

namespace Verif.Plonk

open Verif.Ark Verif.Kzg

section lockstep
variable {F : Type} [Field F] [DecidableEq F]

/-- Value of a product of operands. -/
def prodVal (wit : List Char → Option F) (name : List Char) : F := ((name.splitOn '*').map (tokVal wit)).prod

theorem prodVal_token (wit : List Char → Option F) {s : List Char} (h : '*' ∉ s) : prodVal wit s = tokVal wit s := by
  simp [prodVal, List.splitOn_eq_singleton h]

theorem prodVal_mul (wit : List Char → Option F) (l r : List Char) :
    prodVal wit (l ++ '*' :: r) = prodVal wit l * prodVal wit r := by
  simp [prodVal, List.splitOn_append_cons_self]

theorem exprVal_prod (wit : List Char → Option F) {s : List Char} (h : '+' ∉ s) : exprVal wit s = prodVal wit s := by
  simp [exprVal, prodVal, List.splitOn_eq_singleton h]

/-- What is left of a gate without the witness values: its expressions, its type and the constant it fixes. -/
def PGate.mask (g : PGate F) : CGate × Option F := (g.erase, if g.ty = .constant then some g.left.val else none)

/-- The values of a gate are determined by its expressions (and its constant). -/
def PGate.Det (wit : List Char → Option F) (g : PGate F) : Prop :=
  match g.ty with
  | .constant => g.right.val = 0 ∧ g.bottom.val = g.left.val
  | .multiplication => g.left.val = prodVal wit g.left.name ∧ g.right.val = prodVal wit g.right.name ∧
      g.bottom.val = g.left.val * g.right.val
  | .addition => g.left.val = exprVal wit g.left.name ∧ g.right.val = prodVal wit g.right.name ∧
      g.bottom.val = g.left.val + g.right.val

theorem wire_ext {v w : Wire F} (h1 : v.name = w.name) (h2 : v.val = w.val) : v = w := by
  cases v; cases w; simp only at h1 h2; subst h1 h2; rfl

theorem mask_inj {wit : List Char → Option F} {g h : PGate F} (hg : g.Det wit) (hh : h.Det wit)
    (e : g.mask = h.mask) : g = h := by
  obtain ⟨gl, gr, gb, gt⟩ := g
  obtain ⟨hl, hr, hb, ht⟩ := h
  simp only [PGate.mask, PGate.erase, Prod.mk.injEq, CGate.mk.injEq] at e
  obtain ⟨⟨e1, e2, e3, rfl⟩, e4⟩ := e
  unfold PGate.Det at hg hh
  cases gt with
  | constant =>
    simp only [if_true, Option.some.injEq] at e4 hg hh
    rw [wire_ext e1 e4, wire_ext e2 (hg.1.trans hh.1.symm), wire_ext e3 (hg.2.trans (e4.trans hh.2.symm))]
  | multiplication =>
    simp only at hg hh
    have l := hg.1.trans ((congrArg _ e1).trans hh.1.symm)
    have r := hg.2.1.trans ((congrArg _ e2).trans hh.2.1.symm)
    rw [wire_ext e1 l, wire_ext e2 r, wire_ext e3 (hg.2.2.trans (by rw [l, r, hh.2.2]))]
  | addition =>
    simp only at hg hh
    have l := hg.1.trans ((congrArg _ e1).trans hh.1.symm)
    have r := hg.2.1.trans ((congrArg _ e2).trans hh.2.1.symm)
    rw [wire_ext e1 l, wire_ext e2 r, wire_ext e3 (hg.2.2.trans (by rw [l, r, hh.2.2]))]

/-- Two runs of the parser with different witness values are in the same state, up to these values. -/
structure Lock (wit wit' : List Char → Option F) (st st' : PState F) : Prop where
  gates : st.gates.map PGate.mask = st'.gates.map PGate.mask
  set : st.set.map PGate.mask = st'.set.map PGate.mask
  det : ∀ g ∈ st.set, g.Det wit
  det' : ∀ g ∈ st'.set, g.Det wit'

variable {wit wit' : List Char → Option F}

theorem mem_iff_mask {l : List (PGate F)} (hl : ∀ g ∈ l, g.Det wit) {g : PGate F} (hg : g.Det wit) :
    g ∈ l ↔ g.mask ∈ l.map PGate.mask := by
  constructor
  · exact fun h => List.mem_map_of_mem h
  · intro h
    obtain ⟨x, hx, e⟩ := List.mem_map.1 h
    rw [← mask_inj (hl x hx) hg e]
    exact hx

theorem Lock.insertGate {st st' : PState F} (h : Lock wit wit' st st') {g g' : PGate F} (hg : g.Det wit)
    (hg' : g'.Det wit') (e : g.mask = g'.mask) : Lock wit wit' (st.insertGate g) (st'.insertGate g') := by
  have hmem : g ∈ st.set ↔ g' ∈ st'.set := by
    rw [mem_iff_mask h.det hg, mem_iff_mask h.det' hg', h.set, e]
  unfold PState.insertGate
  by_cases hin : g ∈ st.set
  · rw [if_pos hin, if_pos (hmem.1 hin)]
    exact h
  · rw [if_neg hin, if_neg (fun hx => hin (hmem.2 hx))]
    refine ⟨by simp [h.gates, e], by simp [h.set, e], ?_, ?_⟩
    · intro x hx
      rcases List.mem_cons.1 hx with rfl | hx
      · exact hg
      · exact h.det x hx
    · intro x hx
      rcases List.mem_cons.1 hx with rfl | hx
      · exact hg'
      · exact h.det' x hx

variable (hdom : ∀ nm, (wit nm).isSome = (wit' nm).isSome)
include hdom

theorem operandOk_congr (tok : List Char) : OperandOk wit tok ↔ OperandOk wit' tok := by
  unfold OperandOk
  rw [hdom]

theorem lock_operand {tok : List Char} {st st' : PState F} (h : Lock wit wit' st st') {r r' : F × PState F}
    (hr : getWitnessValue wit tok st = some r) (hr' : getWitnessValue wit' tok st' = some r') :
    Lock wit wit' r.2 r'.2 := by
  by_cases hok : OperandOk wit tok
  · rw [(getWitnessValue_eq wit tok st).2 hok, Option.some.injEq] at hr
    rw [(getWitnessValue_eq wit' tok st').2 ((operandOk_congr hdom tok).1 hok), Option.some.injEq] at hr'
    subst hr hr'
    dsimp only
    have hd := hdom (tokBody tok)
    cases hw : wit (tokBody tok) with
    | some v =>
      rw [hw] at hd
      obtain ⟨v', hv'⟩ := Option.isSome_iff_exists.1 hd.symm
      simp only [hv']
      exact h
    | none =>
      rw [hw] at hd
      have hn : wit' (tokBody tok) = none := by
        simpa using hd.symm
      simp only [hn]
      cases parseI32 (tokBody tok) with
      | none => exact h
      | some k =>
        refine h.insertGate ?_ ?_ rfl
        · simp [PGate.Det]
        · simp [PGate.Det]
  · rw [(getWitnessValue_eq wit tok st).1 hok] at hr
    cases hr

theorem lock_tokens (U : Unicode) (toks : List (List Char)) {st st' : PState F} (h : Lock wit wit' st st')
    {r r' : List (Wire F) × PState F} (hr : tokenWires U wit toks st = some r)
    (hr' : tokenWires U wit' toks st' = some r') : Lock wit wit' r.2 r'.2 := by
  induction toks generalizing st st' r r' with
  | nil =>
    simp only [tokenWires, Option.some.injEq] at hr hr'
    subst hr hr'
    exact h
  | cons s rest ih =>
    simp only [tokenWires, Option.bind_eq_bind, Option.bind_eq_some_iff, Option.pure_def, Option.some.injEq] at hr hr'
    obtain ⟨a, ha, b, hb, rfl⟩ := hr
    obtain ⟨a', ha', b', hb', rfl⟩ := hr'
    exact ih (r := b) (r' := b') (lock_operand hdom h ha ha') hb hb'

omit hdom in
theorem lock_mul (ws ws' : List (Wire F)) (w w' : Wire F) {st st' : PState F} (h : Lock wit wit' st st')
    (hn : w.name = w'.name) (hv : w.val = prodVal wit w.name) (hv' : w'.val = prodVal wit' w'.name)
    (hws : ws.map Wire.name = ws'.map Wire.name) (hg : ∀ v ∈ ws, v.val = prodVal wit v.name)
    (hg' : ∀ v ∈ ws', v.val = prodVal wit' v.name) :
    (mulReduce w ws st).1.name = (mulReduce w' ws' st').1.name ∧
    (mulReduce w ws st).1.val = prodVal wit (mulReduce w ws st).1.name ∧
    (mulReduce w' ws' st').1.val = prodVal wit' (mulReduce w' ws' st').1.name ∧
    Lock wit wit' (mulReduce w ws st).2 (mulReduce w' ws' st').2 := by
  induction ws generalizing w w' st st' ws' with
  | nil =>
    cases ws' with
    | nil => exact ⟨hn, hv, hv', h⟩
    | cons v' ws' => simp at hws
  | cons v ws ih =>
    cases ws' with
    | nil => simp at hws
    | cons v' ws' =>
      simp only [List.map_cons, List.cons.injEq] at hws
      have e := hg v (by simp)
      have e' := hg' v' (by simp)
      simp only [mulReduce, generateMultiplicationGate]
      refine ih ws' _ _ ?_ ?_ ?_ ?_ hws.2 (fun x hx => hg x (by simp [hx])) (fun x hx => hg' x (by simp [hx]))
      · refine h.insertGate ?_ ?_ ?_
        · exact ⟨hv, e, rfl⟩
        · exact ⟨hv', e', rfl⟩
        · simp [PGate.mask, PGate.erase, hn, hws.1]
      · simp [hn, hws.1]
      · dsimp only
        rw [prodVal_mul, ← hv, ← e]
      · dsimp only
        rw [prodVal_mul, ← hv', ← e']

theorem lock_term (U : Unicode) (t : List Char) {st st' : PState F} (h : Lock wit wit' st st')
    {r r' : Wire F × PState F} (hr : termWire U wit t st = some r) (hr' : termWire U wit' t st' = some r') :
    r.1.name = r'.1.name ∧ r.1.val = prodVal wit r.1.name ∧ r'.1.val = prodVal wit' r'.1.name ∧
      Lock wit wit' r.2 r'.2 := by
  simp only [termWire, Option.bind_eq_bind, Option.bind_eq_some_iff] at hr hr'
  obtain ⟨a, ha, hr⟩ := hr
  obtain ⟨a', ha', hr'⟩ := hr'
  have hl := lock_tokens hdom U _ h ha ha'
  have hw := tokenWires_length U _ ha
  have hw' := tokenWires_length U _ ha'
  have hgood : ∀ (wt : List Char → Option F) (l : List (Wire F)),
      l = (t.splitOn '*').map (fun s => (⟨trim U s, tokVal wt (trim U s)⟩ : Wire F)) →
      ∀ v ∈ l, v.val = prodVal wt v.name := by
    rintro wt l rfl v hv
    obtain ⟨tok, htok, rfl⟩ := List.mem_map.1 hv
    exact (prodVal_token wt (fun hx => (mem_splitOn htok _ (mem_trim hx)).2 rfl)).symm
  have hn : a.1.map Wire.name = a'.1.map Wire.name := by
    rw [hw, hw', List.map_map, List.map_map]
    rfl
  have g := hgood wit _ hw
  have g' := hgood wit' _ hw'
  split at hr
  · cases hr
  · rename_i w ws heq
    split at hr'
    · cases hr'
    · rename_i w' ws' heq'
      simp only [Option.pure_def, Option.some.injEq] at hr hr'
      subst hr hr'
      rw [heq] at g hn
      rw [heq'] at g' hn
      simp only [List.map_cons, List.cons.injEq] at hn
      exact lock_mul ws ws' w w' hl hn.1 (g w (by simp)) (g' w' (by simp)) hn.2 (fun v hv => g v (by simp [hv]))
        (fun v hv => g' v (by simp [hv]))

omit hdom in
theorem lock_addGate {w w' v v' : Wire F} {st st' : PState F} (h : Lock wit wit' st st')
    (hn : w.name = w'.name) (hv : w.val = exprVal wit w.name) (hv' : w'.val = exprVal wit' w'.name)
    (en : v.name = v'.name) (e : v.val = prodVal wit v.name) (e' : v'.val = prodVal wit' v'.name) :
    Lock wit wit' (generateAdditionalGate st w v).2 (generateAdditionalGate st' w' v').2 := by
  refine h.insertGate ?_ ?_ ?_
  · exact ⟨hv, e, rfl⟩
  · exact ⟨hv', e', rfl⟩
  · simp [PGate.mask, PGate.erase, hn, en]

omit hdom in
theorem mulReduce_noPlus (ws : List (Wire F)) (w : Wire F) (st : PState F) (h : '+' ∉ w.name)
    (hws : ∀ v ∈ ws, '+' ∉ v.name) : '+' ∉ (mulReduce w ws st).1.name := by
  induction ws generalizing w st with
  | nil => exact h
  | cons v ws ih =>
    simp only [mulReduce, generateMultiplicationGate]
    refine ih _ _ ?_ (fun x hx => hws x (by simp [hx]))
    have := hws v (by simp)
    simp [h, this]

omit hdom in
theorem termWire_noPlus (U : Unicode) {t : List Char} (ht : '+' ∉ t) {st : PState F} {r : Wire F × PState F}
    (hr : termWire U wit t st = some r) : '+' ∉ r.1.name := by
  simp only [termWire, Option.bind_eq_bind, Option.bind_eq_some_iff] at hr
  obtain ⟨a, ha, hr⟩ := hr
  have hw := tokenWires_length U _ ha
  have hall : ∀ v ∈ a.1, '+' ∉ v.name := by
    intro v hv
    rw [hw] at hv
    obtain ⟨tok, htok, rfl⟩ := List.mem_map.1 hv
    exact fun hx => ht (mem_splitOn htok _ (mem_trim hx)).1
  split at hr
  · cases hr
  · rename_i w ws heq
    simp only [Option.pure_def, Option.some.injEq] at hr
    subst hr
    rw [heq] at hall
    exact mulReduce_noPlus ws w _ (hall w (by simp)) (fun v hv => hall v (by simp [hv]))

theorem lock_add (U : Unicode) (ts : List (List Char)) (hts : ∀ t ∈ ts, '+' ∉ t) {w w' : Wire F} {st st' : PState F}
    (h : Lock wit wit' st st') (hn : w.name = w'.name) (hv : w.val = exprVal wit w.name)
    (hv' : w'.val = exprVal wit' w'.name) {r r' : Wire F × PState F} (hr : addReduce U wit ts w st = some r)
    (hr' : addReduce U wit' ts w' st' = some r') :
    r.1.name = r'.1.name ∧ r.1.val = exprVal wit r.1.name ∧ r'.1.val = exprVal wit' r'.1.name ∧
      Lock wit wit' r.2 r'.2 := by
  induction ts generalizing w w' st st' with
  | nil =>
    simp only [addReduce, Option.some.injEq] at hr hr'
    subst hr hr'
    exact ⟨hn, hv, hv', h⟩
  | cons t ts ih =>
    simp only [addReduce, Option.bind_eq_bind, Option.bind_eq_some_iff] at hr hr'
    obtain ⟨a, ha, hr⟩ := hr
    obtain ⟨a', ha', hr'⟩ := hr'
    obtain ⟨e1, e2, e3, e4⟩ := lock_term hdom U t h ha ha'
    have np := termWire_noPlus U (hts t (by simp)) ha
    have np' := termWire_noPlus U (hts t (by simp)) ha'
    refine ih (fun x hx => hts x (by simp [hx])) (lock_addGate e4 hn hv hv' e1 e2 e3) ?_ ?_ ?_ hr hr'
    · simp [generateAdditionalGate, hn, e1]
    · simp only [generateAdditionalGate]
      rw [exprVal_add, ← hv, exprVal_prod wit np, ← e2]
    · simp only [generateAdditionalGate]
      rw [exprVal_add, ← hv', exprVal_prod wit' np', ← e3]

omit hdom in
theorem zeroLast_mask {gates gates' : List (PGate F)} (h : zeroLast gates = some gates') :
    gates'.map PGate.mask = gates.map PGate.mask := by
  unfold zeroLast at h
  split at h
  · cases h
  · rename_i g hl
    simp only [Option.some.injEq] at h
    subst h
    obtain ⟨ys, rfl⟩ := List.getLast?_eq_some_iff.1 hl
    rw [List.dropLast_concat]
    simp [PGate.mask, PGate.erase]

theorem lock_prepare (U : Unicode) (s : List Char) {g g' : List (PGate F)} {pm pm' : PosMap}
    (h : prepareGenCircuit U wit s = some (g, pm)) (h' : prepareGenCircuit U wit' s = some (g', pm')) :
    g.map PGate.mask = g'.map PGate.mask := by
  simp only [prepareGenCircuit, Option.bind_eq_bind, Option.bind_eq_some_iff] at h h'
  obtain ⟨terms, hterms, h⟩ := h
  obtain ⟨terms', hterms', h'⟩ := h'
  rw [hterms, Option.some.injEq] at hterms'
  subst hterms'
  obtain ⟨lhs, rhs, -, -, -, rfl⟩ := (splitTerms_eq_some s terms).1 hterms
  cases hs : lhs.splitOn '+' with
  | nil => exact absurd hs (List.splitOn_ne_nil _ _)
  | cons t ts =>
    rw [hs, List.cons_append] at h h'
    simp only [Option.bind_eq_some_iff, Option.pure_def, Option.some.injEq, Prod.mk.injEq] at h h'
    obtain ⟨a, ha, q, hq, z, hz, rfl, -⟩ := h
    obtain ⟨a', ha', q', hq', z', hz', rfl, -⟩ := h'
    have hnp : ∀ x ∈ t :: ts, '+' ∉ x := by
      intro x hx hp
      exact (mem_splitOn (hs ▸ hx) _ hp).2 rfl
    have h0 : Lock wit wit' (⟨[], [], fun _ => []⟩ : PState F) ⟨[], [], fun _ => []⟩ :=
      ⟨rfl, rfl, fun g hg => (List.not_mem_nil hg).elim, fun g hg => (List.not_mem_nil hg).elim⟩
    obtain ⟨e1, e2, e3, e4⟩ := lock_term hdom U t h0 ha ha'
    have np := termWire_noPlus U (hnp t (by simp)) ha
    have np' := termWire_noPlus U (hnp t (by simp)) ha'
    rw [addReduce_append, Option.bind_eq_some_iff] at hq hq'
    obtain ⟨b, hb, hq⟩ := hq
    obtain ⟨b', hb', hq'⟩ := hq'
    obtain ⟨f1, f2, f3, f4⟩ := lock_add hdom U ts (fun x hx => hnp x (by simp [hx])) e4 e1
      (by rw [exprVal_prod wit np, e2]) (by rw [exprVal_prod wit' np', e3]) hb hb'
    simp only [addReduce, Option.bind_eq_bind, Option.bind_eq_some_iff] at hq hq'
    obtain ⟨c, hc, hq⟩ := hq
    obtain ⟨c', hc', hq'⟩ := hq'
    rw [Option.some.injEq] at hq hq'
    subst hq hq'
    obtain ⟨k1, k2, k3, k4⟩ := lock_term hdom U _ f4 hc hc'
    rw [zeroLast_mask hz, zeroLast_mask hz']
    exact (lock_addGate k4 f1 f2 f3 k1 k2 k3).gates

theorem prepare_isSome_congr (U : Unicode) (s : List Char) :
    (prepareGenCircuit U wit s).isSome ↔ (prepareGenCircuit U wit' s).isSome := by
  rw [prepare_isSome, prepare_isSome]
  simp only [operandOk_congr hdom]

end lockstep

section publicPart
variable {F G1 G2 GT : Type} [FftField F] [DecidableEq F] [AddCommGroup G1] [Module F G1]
  [AddCommGroup G2] [Module F G2] [AddCommGroup GT] [Module F GT] [DecidableEq GT]

theorem mask_names {g g' : List (PGate F)} (h : g.map PGate.mask = g'.map PGate.mask) :
    g.map PGate.names = g'.map PGate.names := by
  have := congrArg (List.map fun m : CGate × Option F => ((m.1.left, m.1.right, m.1.bottom) : Names)) h
  rw [List.map_map, List.map_map] at this
  exact this

theorem applyCpi_congr (T : List Names) {g g' : PGate F} (h : g.mask = g'.mask) (i : ℕ) (s : CPICircuit F) :
    GateCall.applyCpi s (wiredCall T i g) = GateCall.applyCpi s (wiredCall T i g') := by
  simp only [PGate.mask, PGate.erase, Prod.mk.injEq, CGate.mk.injEq] at h
  obtain ⟨⟨-, -, -, ht⟩, hv⟩ := h
  unfold GateCall.applyCpi wiredCall
  rw [← ht] at hv ⊢
  dsimp only
  cases hc : g.ty with
  | addition => rfl
  | multiplication => rfl
  | constant =>
    rw [hc] at hv
    simp only [if_true, Option.some.injEq] at hv
    simp only [hv]

theorem buildCpi_congr (T : List Names) {g g' : List (PGate F)} (h : g.map PGate.mask = g'.map PGate.mask) :
    buildCpi (wiredCalls T 0 g) = buildCpi (wiredCalls T 0 g') := by
  unfold buildCpi
  generalize (CPICircuit.default : CPICircuit F) = s
  generalize (0 : ℕ) = i
  induction g generalizing g' i s with
  | nil =>
    cases g' with
    | nil => rfl
    | cons x l => simp at h
  | cons x l ih =>
    cases g' with
    | nil => simp at h
    | cons y l' =>
      simp only [List.map_cons, List.cons.injEq] at h
      simp only [wiredCalls, List.foldl_cons]
      rw [applyCpi_congr T h.1]
      exact ih h.2 _ _

theorem wiredCalls_layers (gates : List (PGate F)) :
    ∀ call ∈ wiredCalls (gates.map PGate.names) 0 gates, call.a.1 < 3 ∧ call.b.1 < 3 ∧ call.c.1 < 3 := by
  intro call hcall
  have hb := wirePerm_bounds (gates.map PGate.names) (n := gates.length) (by rw [List.length_map])
  obtain ⟨i, hi, hcalli⟩ := List.getElem_of_mem hcall
  have hi2 : i < gates.length := by rw [wiredCalls_length] at hi; exact hi
  have hget := wiredCalls_getElem? (gates.map PGate.names) 0 gates i
  rw [List.getElem?_eq_getElem hi, hcalli, List.getElem?_eq_getElem hi2, Option.map_some,
    Option.some.injEq, Nat.zero_add] at hget
  rw [hget]
  exact ⟨(hb (0, i) ⟨by norm_num, hi2⟩).1.1, (hb (1, i) ⟨by norm_num, hi2⟩).1.1, (hb (2, i) ⟨by norm_num, hi2⟩).1.1⟩

/-- **C93**: for every text, parsing and compiling with two witness maps that define the same names, whatever the
values, succeeds for both or neither, and gives circuits with the same size, selectors, public input, permutation
polynomials and coset constants. -/
theorem C93_public_part (U : Unicode) (wit wit' : List Char → Option F)
    (hdom : ∀ nm, (wit nm).isSome = (wit' nm).isSome) (input : List Char) :
    ((parse U wit input).bind Circuit.compile).map CompiledCircuit.publicPart =
      ((parse U wit' input).bind Circuit.compile).map CompiledCircuit.publicPart := by
  unfold parse
  cases hs : parseString U input with
  | none => rfl
  | some s =>
    simp only [Option.bind_eq_bind, Option.bind_some]
    have hiff := prepare_isSome_congr hdom U s
    cases hp : prepareGenCircuit U wit s with
    | none =>
      rw [hp] at hiff
      have : prepareGenCircuit U wit' s = none := by
        rw [← Option.not_isSome_iff_eq_none, ← hiff]
        simp
      rw [this]
    | some r =>
      rw [hp] at hiff
      obtain ⟨r', hp'⟩ := Option.isSome_iff_exists.1 (hiff.1 rfl)
      rw [hp']
      have hm := lock_prepare hdom U s (g := r.1) (g' := r'.1) (pm := r.2) (pm' := r'.2) hp hp'
      simp only [Option.bind_some]
      rw [genCircuit_eq r.1 r.2 (prepare_pm hp), genCircuit_eq r'.1 r'.2 (prepare_pm hp'), Option.bind_some,
        Option.bind_some, ← C72_compile_agrees _ (wiredCalls_layers r.1),
        ← C72_compile_agrees _ (wiredCalls_layers r'.1), ← mask_names hm]
      rw [buildCpi_congr _ hm]

/-- **C93** (consequence): a verifier that compiles the text with arbitrary values for the prover's names gives the same
verdict on every proof as one that uses the prover's own compiled circuit. -/
theorem C93_same_verdict (U : Unicode) (wit wit' : List Char → Option F)
    (hdom : ∀ nm, (wit nm).isSome = (wit' nm).isSome) (input : List Char) (cc : CompiledCircuit F)
    (h : (parse U wit input).bind Circuit.compile = some cc) :
    ∃ cc', (parse U wit' input).bind Circuit.compile = some cc' ∧
      ∀ (env : Env F G1) (dig : List UInt8 → List UInt8) (P : PairingGroups F G1 G2 GT) (srs : Srs G1 G2)
        (p : Proof F G1), verify env dig P cc' srs p = verify env dig P cc srs p := by
  have e := C93_public_part U wit wit' hdom input
  rw [h, Option.map_some] at e
  obtain ⟨cc', h1, h2⟩ := Option.map_eq_some_iff.1 e.symm
  refine ⟨cc', h1, ?_⟩
  intro env dig P srs p
  unfold CompiledCircuit.publicPart at h2
  simp only [Prod.mk.injEq, GateConstraints.mk.injEq] at h2
  obtain ⟨⟨-, -, -, a1, a2, a3, a4, a5, a6⟩, b, c⟩ := h2
  exact C54_ignores_witness env dig P _ _ srs p c ⟨a1, a2, a3, a4, a5, a6⟩ b

end publicPart

/-! ## Locality -/

section locality
variable {F : Type} [Field F] [DecidableEq F]

theorem tokenWires_congr (U : Unicode) (wit wit' : List Char → Option F) (toks : List (List Char)) (st : PState F)
    (h : ∀ t ∈ toks, wit (tokBody (trim U t)) = wit' (tokBody (trim U t))) :
    tokenWires U wit toks st = tokenWires U wit' toks st := by
  induction toks generalizing st with
  | nil => rfl
  | cons s rest ih =>
    have key : getWitnessValue wit (trim U s) st = getWitnessValue wit' (trim U s) st := by
      have e := h s (by simp)
      unfold getWitnessValue
      split
      · rfl
      · rename_i c r heq
        rw [heq, tokBody_cons] at e
        split
        · rfl
        · by_cases hc : c = '-'
          · simp only [hc, if_true, decide_true] at e ⊢
            rw [e]
          · simp only [hc, if_false, decide_false, Bool.false_eq_true] at e ⊢
            rw [heq, e]
    simp only [tokenWires, key, Option.bind_eq_bind]
    congr 1
    funext r
    rw [ih _ (fun t ht => h t (by simp [ht]))]

theorem termWire_congr (U : Unicode) (wit wit' : List Char → Option F) (t : List Char) (st : PState F)
    (h : ∀ tok ∈ t.splitOn '*', wit (tokBody (trim U tok)) = wit' (tokBody (trim U tok))) :
    termWire U wit t st = termWire U wit' t st := by
  unfold termWire
  rw [tokenWires_congr U wit wit' _ st h]

theorem addReduce_congr (U : Unicode) (wit wit' : List Char → Option F) (ts : List (List Char)) (w : Wire F)
    (st : PState F)
    (h : ∀ t ∈ ts, ∀ tok ∈ t.splitOn '*', wit (tokBody (trim U tok)) = wit' (tokBody (trim U tok))) :
    addReduce U wit ts w st = addReduce U wit' ts w st := by
  induction ts generalizing w st with
  | nil => rfl
  | cons t ts ih =>
    simp only [addReduce, termWire_congr U wit wit' t st (h t (by simp)), Option.bind_eq_bind]
    congr 1
    funext r
    exact ih _ _ (fun x hx => h x (by simp [hx]))

theorem splitOn_infix {c : Char} {s p : List Char} (h : p ∈ s.splitOn c) : p <:+: s := by
  have hI := List.intercalate_splitOn (xs := s) c
  have key : ∀ l : List (List Char), p ∈ l → p <:+: [c].intercalate l := by
    intro l
    induction l with
    | nil => intro h; cases h
    | cons a l ih =>
      intro hp
      cases l with
      | nil =>
        rw [List.mem_singleton] at hp
        subst hp
        simp [List.intercalate]
      | cons b l =>
        have e : [c].intercalate (a :: b :: l) = a ++ ([c] ++ [c].intercalate (b :: l)) := by
          simp [List.intercalate, List.intersperse]
        rw [e]
        rcases List.mem_cons.1 hp with rfl | hp
        · exact (List.prefix_append _ _).isInfix
        · exact (ih hp).trans ((List.suffix_append _ _).isInfix.trans (List.suffix_append _ _).isInfix)
  rw [← hI]
  exact key _ h

theorem trim_infix (U : Unicode) (s : List Char) : trim U s <:+: s := by
  unfold trim
  have h1 : (s.dropWhile U.isWhitespace) <:+ s := List.dropWhile_suffix _
  have h2 := (List.dropWhile_suffix (l := (s.dropWhile U.isWhitespace).reverse) U.isWhitespace)
  have h3 := List.reverse_prefix.2 h2
  rw [List.reverse_reverse] at h3
  exact h3.isInfix.trans h1.isInfix

theorem tokBody_suffix (t : List Char) : tokBody t <:+ t := by
  cases t with
  | nil => exact List.suffix_refl _
  | cons c r =>
    rw [tokBody_cons]
    split
    · exact List.suffix_cons _ _
    · exact List.suffix_refl _

/-- An infix of `-rhs` loses its leading minus sign or is an infix of `rhs`. -/
theorem tokBody_infix {rhs t : List Char} (h : t <:+: '-' :: rhs) : tokBody t <:+: rhs := by
  rcases List.infix_cons_iff.1 h with h | h
  · cases t with
    | nil => exact List.nil_infix
    | cons c r =>
      obtain ⟨rfl, h2⟩ := List.cons_prefix_cons.1 h
      rw [tokBody_cons, if_pos rfl]
      exact h2.isInfix
  · exact (tokBody_suffix t).isInfix.trans h

/-- **C93** (locality): the circuit depends only on the witnesses whose names occur in the normalised text: witness maps
that agree on all names occurring there as a contiguous part give the same circuit, for every text. -/
theorem C93_locality (U : Unicode) (wit wit' : List Char → Option F) (input : List Char)
    (h : ∀ s, parseString U input = some s → ∀ nm, nm <:+: s → wit nm = wit' nm) :
    parse U wit input = parse U wit' input := by
  unfold parse
  cases hs : parseString U input with
  | none => rfl
  | some s =>
    have h' := h s hs
    simp only [Option.bind_eq_bind, Option.bind_some]
    have key : prepareGenCircuit U wit s = prepareGenCircuit U wit' s := by
      unfold prepareGenCircuit
      cases ht : splitTerms s with
      | none => rfl
      | some terms =>
        obtain ⟨lhs, rhs, rfl, -, -, hterms⟩ := (splitTerms_eq_some s terms).1 ht
        have hall : ∀ t ∈ terms, ∀ tok ∈ t.splitOn '*', wit (tokBody (trim U tok)) = wit' (tokBody (trim U tok)) := by
          intro t htm tok htok
          apply h'
          have hi : trim U tok <:+: t := (trim_infix U tok).trans (splitOn_infix htok)
          rw [hterms] at htm
          rcases List.mem_append.1 htm with htm | htm
          · exact ((tokBody_suffix _).isInfix.trans hi).trans ((splitOn_infix htm).trans (List.prefix_append _ _).isInfix)
          · rw [List.mem_singleton] at htm
            subst htm
            exact (tokBody_infix hi).trans
              ((List.suffix_cons _ _).isInfix.trans (List.suffix_append _ _).isInfix)
        simp only [Option.bind_eq_bind, Option.bind_some]
        cases terms with
        | nil => rfl
        | cons t ts =>
          simp only [termWire_congr U wit wit' t _ (hall t (by simp))]
          congr 1
          funext r
          rw [addReduce_congr U wit wit' ts _ _ (fun x hx => hall x (by simp [hx]))]
    rw [key]

end locality

/-! ## Non-vacuity -/

/-- Values for the names `x`, `y`, `z` of the repository's test, all zero. -/
def zeroWit : List Char → Option BlsFr := fun nm => (exWit nm).map fun _ => 0

/-- The hypothesis of `C93_public_part` is met by the repository's test assignment and the all-zero assignment, and both
texts parse. -/
example : (∀ nm, (exWit nm).isSome = (zeroWit nm).isSome) ∧
    (parse asciiTables exWit "x*y+3*x^2+x*y*z=11".toList).isSome ∧
    (parse asciiTables zeroWit "x*y+3*x^2+x*y*z=11".toList).isSome := by
  refine ⟨fun nm => by simp [zeroWit], ?_, ?_⟩ <;> decide +kernel

/-- `C93_locality` for an additional witness that does not occur in the text. -/
example : parse asciiTables (addWitness exWit "unused".toList 5) "x*y+3*x^2+x*y*z=11".toList =
    parse asciiTables exWit "x*y+3*x^2+x*y*z=11".toList := by
  apply C93_locality
  intro s hs nm hnm
  have : s = "x*y+3*x*x+x*y*z=11".toList := by
    have e : parseString asciiTables "x*y+3*x^2+x*y*z=11".toList = some "x*y+3*x*x+x*y*z=11".toList := by decide +kernel
    rw [e, Option.some.injEq] at hs
    exact hs.symm
  subst this
  unfold addWitness
  rw [Function.update_of_ne]
  rintro rfl
  have : 'u' ∈ "x*y+3*x*x+x*y*z=11".toList := hnm.subset (by decide)
  revert this
  decide

end Verif.Plonk

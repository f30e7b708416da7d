import Verif.Plonk.Forgery

/-!
# C62 (what a parsed circuit does force), and counterexamples
-/

set_option linter.unusedSectionVars false
set_option linter.unusedSimpArgs false
set_option linter.unusedVariables false

namespace Verif.Plonk

open Verif.Ark Verif.Kzg

section forces
variable {F : Type} [Field F] [DecidableEq F]

/-- The relation of a gate for values given to the wire expressions. -/
def PGate.HoldsFor (W : List Char → F) (g : PGate F) : Prop :=
  match g.ty with
  | .constant => W g.left.name = g.left.val
  | .multiplication => W g.left.name * W g.right.name = W g.bottom.name
  | .addition => W g.left.name + W g.right.name = W g.bottom.name

variable {W : List Char → F}

theorem prefix_insert (l : List (PGate F)) : ∀ (st : PState F) (g : PGate F), l <+: st.gates → l <+: (st.insertGate g).gates :=
  fun st g h => h.trans (insertGate_prefix st g)

theorem mulReduce_forces (ws : List (Wire F)) (w : Wire F) {st : PState F} (hs : st.SetOk)
    (hW : ∀ g ∈ (mulReduce w ws st).2.gates, g.HoldsFor W) :
    W (mulReduce w ws st).1.name = W w.name * (ws.map fun v => W v.name).prod := by
  induction ws generalizing w st with
  | nil => simp [mulReduce]
  | cons v ws ih =>
    have hmem := insertGate_mem hs (⟨w, v, ⟨w.name ++ '*' :: v.name, w.val * v.val⟩, .multiplication⟩ : PGate F)
    have hpre := mulReduce_inv (I := fun st' => (st.insertGate
        (⟨w, v, ⟨w.name ++ '*' :: v.name, w.val * v.val⟩, .multiplication⟩ : PGate F)).gates <+: st'.gates)
      (prefix_insert _) ws (⟨w.name ++ '*' :: v.name, w.val * v.val⟩ : Wire F) (st := st.insertGate
        (⟨w, v, ⟨w.name ++ '*' :: v.name, w.val * v.val⟩, .multiplication⟩ : PGate F)) List.prefix_rfl
    have hg : (⟨w, v, ⟨w.name ++ '*' :: v.name, w.val * v.val⟩, .multiplication⟩ : PGate F).HoldsFor W :=
      hW _ (hpre.subset hmem)
    have := ih (⟨w.name ++ '*' :: v.name, w.val * v.val⟩ : Wire F) (hs.insertGate _) hW
    rw [List.map_cons, List.prod_cons, ← mul_assoc]
    have hg' : W w.name * W v.name = W (w.name ++ '*' :: v.name) := hg
    rw [hg']
    exact this

/-- The value of a summand from the values of its operand texts. -/
def termValW (U : Unicode) (W : List Char → F) (t : List Char) : F :=
  ((t.splitOn '*').map fun tok => W (trim U tok)).prod

variable {wit : List Char → Option F}

theorem termWire_forces (U : Unicode) {t : List Char} {st : PState F} (hs : st.SetOk) {r : Wire F × PState F}
    (h : termWire U wit t st = some r) (hW : ∀ g ∈ r.2.gates, g.HoldsFor W) :
    W r.1.name = termValW U W t := by
  simp only [termWire, Option.bind_eq_bind, Option.bind_eq_some_iff] at h
  obtain ⟨a, ha, h⟩ := h
  have hs' := tokenWires_inv (I := PState.SetOk) (fun st g hst => hst.insertGate g) U _ ha hs
  have hws := tokenWires_length U _ ha
  split at h
  · cases h
  · rename_i w ws heq
    simp only [Option.pure_def, Option.some.injEq] at h
    subst h
    rw [mulReduce_forces ws w hs' hW, ← List.prod_cons, ← List.map_cons (f := fun v : Wire F => W v.name), ← heq,
      hws, List.map_map]
    rfl

theorem addReduce_forces (U : Unicode) (ts : List (List Char)) {w : Wire F} {st : PState F} (hs : st.SetOk)
    {r : Wire F × PState F} (h : addReduce U wit ts w st = some r) (hW : ∀ g ∈ r.2.gates, g.HoldsFor W) :
    W r.1.name = W w.name + (ts.map (termValW U W)).sum := by
  induction ts generalizing w st with
  | nil =>
    simp only [addReduce, Option.some.injEq] at h
    subst h
    simp
  | cons t ts ih =>
    simp only [addReduce, Option.bind_eq_bind, Option.bind_eq_some_iff] at h
    obtain ⟨a, ha, h⟩ := h
    have hs' := termWire_inv (I := PState.SetOk) (fun st g hst => hst.insertGate g) U _ ha hs
    have hmem := insertGate_mem hs' (⟨w, a.1, ⟨w.name ++ '+' :: a.1.name, w.val + a.1.val⟩, .addition⟩ : PGate F)
    have hpre := addReduce_inv (I := fun st' => (a.2.insertGate
        (⟨w, a.1, ⟨w.name ++ '+' :: a.1.name, w.val + a.1.val⟩, .addition⟩ : PGate F)).gates <+: st'.gates)
      (prefix_insert _) U ts h List.prefix_rfl
    have hpre2 := (insertGate_prefix a.2
      (⟨w, a.1, ⟨w.name ++ '+' :: a.1.name, w.val + a.1.val⟩, .addition⟩ : PGate F)).trans hpre
    have hg : W w.name + W a.1.name = W (w.name ++ '+' :: a.1.name) := hW _ (hpre.subset hmem)
    have h1 := ih (hs'.insertGate _) h
    rw [termWire_forces U hs ha (fun g hg => hW g (hpre2.subset hg))] at hg
    rw [h1, List.map_cons, List.sum_cons, ← add_assoc, hg]
    rfl

/-! ## Constants -/

/-- The gate of a literal operand. -/
def constGate (neg : Bool) (k : ℤ) : PGate F :=
  ⟨constWire neg k, ⟨['0'], 0⟩, ⟨(constWire neg k : Wire F).name ++ '+' :: ['0'], (constWire neg k : Wire F).val + 0⟩,
    .constant⟩

theorem tokenWires_const (U : Unicode) (toks : List (List Char)) {st : PState F} (hs : st.SetOk)
    {r : List (Wire F) × PState F} (h : tokenWires U wit toks st = some r) {tok : List Char} (ht : tok ∈ toks) {k : ℤ}
    (hwt : wit (tokBody (trim U tok)) = none) (hk : parseI32 (tokBody (trim U tok)) = some k) :
    constGate (tokNeg (trim U tok)) k ∈ r.2.gates := by
  induction toks generalizing st r with
  | nil => cases ht
  | cons s rest ih =>
    simp only [tokenWires, Option.bind_eq_bind, Option.bind_eq_some_iff, Option.pure_def, Option.some.injEq] at h
    obtain ⟨a, ha, b, hb, rfl⟩ := h
    have hs' := getWitnessValue_inv (I := PState.SetOk) (fun st g hst => hst.insertGate g) ha hs
    rcases List.mem_cons.1 ht with rfl | ht
    · have hpre := tokenWires_inv (I := fun st' => a.2.gates <+: st'.gates) (prefix_insert _) U rest hb List.prefix_rfl
      refine hpre.subset ?_
      by_cases hok : OperandOk wit (trim U tok)
      · rw [(getWitnessValue_eq wit (trim U tok) st).2 hok, Option.some.injEq, hwt, hk] at ha
        subst ha
        exact insertGate_mem hs _
      · rw [(getWitnessValue_eq wit (trim U tok) st).1 hok] at ha
        cases ha
    · exact ih (r := b) hs' hb ht

theorem termWire_const (U : Unicode) {t : List Char} {st : PState F} (hs : st.SetOk) {r : Wire F × PState F}
    (h : termWire U wit t st = some r) {tok : List Char} (ht : tok ∈ t.splitOn '*') {k : ℤ}
    (hwt : wit (tokBody (trim U tok)) = none) (hk : parseI32 (tokBody (trim U tok)) = some k) :
    constGate (tokNeg (trim U tok)) k ∈ r.2.gates := by
  simp only [termWire, Option.bind_eq_bind, Option.bind_eq_some_iff] at h
  obtain ⟨a, ha, h⟩ := h
  have := tokenWires_const U _ hs ha ht hwt hk
  split at h
  · cases h
  · rename_i w ws heq
    simp only [Option.pure_def, Option.some.injEq] at h
    subst h
    exact (mulReduce_inv (I := fun st' => a.2.gates <+: st'.gates) (prefix_insert _) ws w List.prefix_rfl).subset this

theorem addReduce_const (U : Unicode) (ts : List (List Char)) {w : Wire F} {st : PState F} (hs : st.SetOk)
    {r : Wire F × PState F} (h : addReduce U wit ts w st = some r) {t : List Char} (ht : t ∈ ts) {tok : List Char}
    (htok : tok ∈ t.splitOn '*') {k : ℤ} (hwt : wit (tokBody (trim U tok)) = none)
    (hk : parseI32 (tokBody (trim U tok)) = some k) : constGate (tokNeg (trim U tok)) k ∈ r.2.gates := by
  induction ts generalizing w st with
  | nil => cases ht
  | cons t' ts ih =>
    simp only [addReduce, Option.bind_eq_bind, Option.bind_eq_some_iff] at h
    obtain ⟨a, ha, h⟩ := h
    have hs' := termWire_inv (I := PState.SetOk) (fun st g hst => hst.insertGate g) U _ ha hs
    rcases List.mem_cons.1 ht with rfl | ht
    · have hm := termWire_const U hs ha htok hwt hk
      have hpre := addReduce_inv (I := fun st' => a.2.gates <+: st'.gates) (prefix_insert _) U ts h
        (insertGate_prefix _ _)
      exact hpre.subset hm
    · exact ih (hs'.insertGate _) h ht

/-- What values satisfying all gates of a string must be. -/
theorem prepare_forces (hw : ∀ nm v, wit nm = some v → parseI32 nm = none) (U : Unicode)
    (hU : U.isWhitespace '-' = false) {lhs rhs : List Char} (hl : '=' ∉ lhs)
    (hr : '=' ∉ rhs) (hrp : '+' ∉ rhs) {gates : List (PGate F)} {pm : PosMap}
    (h : prepareGenCircuit U wit (lhs ++ '=' :: rhs) = some (gates, pm)) (hW : ∀ g ∈ gates, g.HoldsFor W) :
    (∃ g, gates[gates.length - 1]? = some g ∧ W g.bottom.name =
      ((lhs.splitOn '+').map (termValW U W)).sum + termValW U W ('-' :: rhs)) ∧
    ∀ t ∈ lhs.splitOn '+' ++ ['-' :: rhs], ∀ tok ∈ t.splitOn '*', ∀ k, wit (tokBody (trim U tok)) = none →
      parseI32 (tokBody (trim U tok)) = some k →
      W (constWire (tokNeg (trim U tok)) k : Wire F).name = (constWire (tokNeg (trim U tok)) k : Wire F).val := by
  obtain ⟨init, l, r, N, K, hg, -, -, -, -, -, -, -, -, -, t, ts, a, q, hs, ha, hq, hqg, hqn⟩ :=
    prepare_run hw U hU hl hr hrp h
  have hW' : ∀ g ∈ q.2.gates, g.HoldsFor W := by
    intro g hgm
    rw [hqg] at hgm
    rcases List.mem_append.1 hgm with hm | hm
    · exact hW g (by rw [hg]; exact List.mem_append_left _ hm)
    · rw [List.mem_singleton] at hm
      subst hm
      exact hW (⟨l, r, ⟨N, 0⟩, .addition⟩ : PGate F) (by rw [hg]; simp)
  have h0 : (⟨[], [], fun _ => []⟩ : PState F).SetOk := fun g hg => (List.not_mem_nil hg).elim
  have ha' := termWire_inv (I := PState.SetOk) (fun st g hst => hst.insertGate g) U _ ha h0
  have hpre := addReduce_inv (I := fun st' => a.2.gates <+: st'.gates) (prefix_insert _) U _ hq List.prefix_rfl
  constructor
  · refine ⟨⟨l, r, ⟨N, 0⟩, .addition⟩, by rw [hg]; simp, ?_⟩
    dsimp only
    rw [← hqn, addReduce_forces U _ ha' hq hW',
      termWire_forces U h0 ha (fun g hgm => hW' g (hpre.subset hgm)), hs, List.map_append, List.sum_append,
      List.map_cons, List.sum_cons]
    simp [add_assoc]
  · intro t' ht' tok htok k hwt hk
    rw [hs, List.cons_append] at ht'
    have hmem : constGate (tokNeg (trim U tok)) k ∈ q.2.gates := by
      rcases List.mem_cons.1 ht' with rfl | ht'
      · exact hpre.subset (termWire_const U h0 ha htok hwt hk)
      · exact addReduce_const U _ ha' hq ht' htok hwt hk
    exact hW' _ hmem

end forces

/-! ## From wire values to values of expressions -/

section C62
variable {F : Type} [FftField F] [DecidableEq F]

/-- Values satisfying the copy constraints depend only on the wire expression. -/
theorem satisfies_expr {gs : List (PGate F)} {V : ℕ → ℕ → F}
    (hV : Satisfies (wiredCalls (gs.map PGate.names) 0 gs) V) :
    ∃ W : List Char → F, ∀ l i nm, nameAt (gs.map PGate.names) (l, i) = some nm → V l i = W nm := by
  classical
  set T := gs.map PGate.names with hT
  have hstep : ∀ p : ℕ × ℕ, V (wirePerm T p).1 (wirePerm T p).2 = V p.1 p.2 := by
    intro p
    by_cases hp : (nameAt T p).isSome
    · obtain ⟨h1, h2⟩ := (nameAt_isSome T p).1 hp
      have := hV.2 p.1 h1 p.2 (by rw [wiredCalls_length]; simpa [hT] using h2)
      rw [target_wiredCalls T gs hT h1] at this
      exact this
    · have : wirePerm T p = p := by
        rw [wirePerm_apply]
        unfold nextPos
        rw [Bool.not_eq_true, Option.isSome_eq_false_iff, Option.isNone_iff_eq_none] at hp
        rw [hp]
      rw [this]
  have hpow : ∀ (k : ℕ) (p : ℕ × ℕ), V ((wirePerm T ^ k) p).1 ((wirePerm T ^ k) p).2 = V p.1 p.2 := by
    intro k
    induction k with
    | zero => intro p; rfl
    | succ k ih =>
      intro p
      rw [pow_succ, Equiv.Perm.mul_apply, ih, hstep]
  have hz : ∀ (k : ℤ) (p : ℕ × ℕ), V ((wirePerm T ^ k) p).1 ((wirePerm T ^ k) p).2 = V p.1 p.2 := by
    intro k p
    cases k with
    | ofNat k => exact hpow k p
    | negSucc k =>
      have := hpow (k + 1) ((wirePerm T ^ (Int.negSucc k)) p)
      rw [← zpow_natCast, ← Equiv.Perm.mul_apply, ← zpow_add] at this
      have e : ((k + 1 : ℕ) : ℤ) + Int.negSucc k = 0 := by omega
      rw [e] at this
      exact this.symm
  refine ⟨fun nm => if h : ∃ p, nameAt T p = some nm then V h.choose.1 h.choose.2 else 0, ?_⟩
  intro l i nm hnm
  have hex : ∃ p, nameAt T p = some nm := ⟨_, hnm⟩
  dsimp only
  rw [dif_pos hex]
  have hc := hex.choose_spec
  obtain ⟨k, hk⟩ := (sameCycle_wirePerm T (l, i) hex.choose (by rw [hnm]; rfl)).2 (by rw [hnm, hc])
  rw [← hk, hz]

theorem holdsFor_of {gs : List (PGate F)} {V : ℕ → ℕ → F}
    (hV : Satisfies (wiredCalls (gs.map PGate.names) 0 gs) V) {W : List Char → F}
    (hW : ∀ l i nm, nameAt (gs.map PGate.names) (l, i) = some nm → V l i = W nm) : ∀ g ∈ gs, g.HoldsFor W := by
  intro g hg
  obtain ⟨i, hi, rfl⟩ := List.getElem_of_mem hg
  set T := gs.map PGate.names with hT
  have hnames : ∀ l, nameAt T (l, i) = (wireAt gs (l, i)).map Wire.name := fun l => nameAt_wireAt gs (l, i)
  have hget : gs[i]? = some gs[i] := List.getElem?_eq_getElem hi
  have e0 : V 0 i = W gs[i].left.name := hW 0 i _ (by rw [hnames, wireAt, hget]; rfl)
  have e1 : V 1 i = W gs[i].right.name := hW 1 i _ (by rw [hnames, wireAt, hget]; rfl)
  have e2 : V 2 i = W gs[i].bottom.name := hW 2 i _ (by rw [hnames, wireAt, hget]; rfl)
  have hr := hV.1 i (wiredCall T (0 + i) gs[i]) (by rw [wiredCalls_getElem?, hget]; rfl)
  rw [e0, e1, e2] at hr
  unfold GateCall.Relation wiredCall at hr
  unfold PGate.HoldsFor
  cases hty : gs[i].ty with
  | constant => rw [hty] at hr; dsimp only at hr ⊢; exact sub_eq_zero.1 hr
  | multiplication => rw [hty] at hr; dsimp only at hr ⊢; exact sub_eq_zero.1 hr
  | addition => rw [hty] at hr; dsimp only at hr ⊢; exact sub_eq_zero.1 hr

/-- Variables for which the parser makes a wire with a minus sign: those written with one, and the first factor of
the right-hand side. -/
def Equation.Negated (e : Equation) (nm : List Char) : Prop :=
  (∃ t ∈ e.lhs, Factor.var true nm ∈ t) ∨ Factor.var true nm ∈ e.rhs ∨ Factor.var false nm ∈ e.rhs.head?

/-- The difference of the two sides of an equation. -/
def Equation.diff (e : Equation) (ρ : List Char → F) : F :=
  (e.lhs.map fun t => (t.map (Factor.val ρ)).prod).sum - (e.rhs.map (Factor.val ρ)).prod

theorem lit_token (wit : List Char → Option F) (hw : ∀ nm v, wit nm = some v → parseI32 nm = none) {k : ℤ}
    (hk : k.natAbs < 2 ^ 31) :
    wit (tokBody (showInt k)) = none ∧ parseI32 (tokBody (showInt k)) = some (k.natAbs : ℤ) ∧
      (constWire (tokNeg (showInt k)) (k.natAbs : ℤ) : Wire F) = ⟨showInt k, (k : F)⟩ := by
  obtain ⟨c, r, hd, -, hne, hlt⟩ := digits_head (n := k.natAbs)
  have hp : parseI32 (Nat.toDigits 10 k.natAbs) = some (k.natAbs : ℤ) := parseI32_toDigits hk
  have hn := wit_none_of_parse hw hp
  have hs : showInt (k.natAbs : ℤ) = Nat.toDigits 10 k.natAbs := by
    rw [showInt_nonneg (by omega)]; rfl
  rcases lt_or_ge k 0 with h | h
  · rw [showInt_neg h, tokBody_cons, if_pos rfl, tokNeg_cons]
    refine ⟨hn, hp, ?_⟩
    simp only [constWire, decide_true, if_true, hs, Wire.mk.injEq, true_and]
    have : (k : ℤ) = -(k.natAbs : ℤ) := by omega
    conv_rhs => rw [this]
    push_cast
    rfl
  · rw [showInt_nonneg h]
    have e : tokBody (Nat.toDigits 10 k.natAbs) = Nat.toDigits 10 k.natAbs := by
      rw [hd, tokBody_cons, if_neg hne]
    have e2 : tokNeg (Nat.toDigits 10 k.natAbs) = false := by rw [hd, tokNeg_cons]; simp [hne]
    rw [e, e2]
    refine ⟨hn, hp, ?_⟩
    simp only [constWire, Bool.false_eq_true, if_false, hs, Wire.mk.injEq, true_and]
    have : (k : ℤ) = (k.natAbs : ℤ) := by omega
    conv_rhs => rw [this]

/-- **C62**, the part that holds: the values of any satisfying assignment depend only on the wire expression
(`τ`), and if the wires with minus signs carry the negatives of the variables, then the last output wire carries the
difference of the two sides of the equation under these values; so if moreover that wire is zero, the equation
holds.  Missing for C62, and not enforced by the code: both conditions. -/
theorem C62_forces_partial (U : Unicode) (hU : U.Sane) (e : Equation) (he : e.Ok U)
    (wit : List Char → Option F) (ρ : List Char → F) (hc : Covers wit e ρ) (input : List Char)
    (hin : parseString U input = some e.text) (gates : List (PGate F)) (pm : PosMap)
    (hp : prepareGenCircuit U wit e.text = some (gates, pm)) :
    ∃ calls : List (GateCall F), parse U wit input = some (build calls) ∧ calls.length = gates.length ∧
      ∀ V, Satisfies calls V → ∃ τ : List Char → F,
        (∀ l i nm, nameAt (gates.map PGate.names) (l, i) = some nm → V l i = τ nm) ∧
        ((∀ nm, e.Negated nm → τ ('-' :: nm) = -τ nm) →
          V 2 (calls.length - 1) = e.diff τ ∧ (V 2 (calls.length - 1) = 0 ↔ e.Holds τ)) := by
  refine ⟨wiredCalls (gates.map PGate.names) 0 gates, ?_, wiredCalls_length _ _ _, ?_⟩
  · unfold parse
    rw [hin]
    simp only [Option.bind_eq_bind, Option.bind_some, hp]
    exact genCircuit_eq gates pm (prepare_pm hp)
  intro V hV
  obtain ⟨τ, hτ⟩ := satisfies_expr hV
  refine ⟨τ, hτ, fun hneg => ?_⟩
  obtain ⟨⟨g, hg, hsum⟩, hconst⟩ := prepare_forces hc.names U hU.minus (lhs_noEq hU he) (rhs_noEq hU he)
    (rhs_noPlus hU he) hp (holdsFor_of hV hτ)
  have hlast : V 2 ((wiredCalls (gates.map PGate.names) 0 gates).length - 1) = τ g.bottom.name := by
    rw [wiredCalls_length]
    refine hτ _ _ _ ?_
    rw [nameAt_wireAt]
    unfold wireAt
    dsimp only
    rw [hg]
    rfl
  -- literal factors
  have hlit : ∀ t ∈ e.lhsText.splitOn '+' ++ ['-' :: termText e.rhs], ∀ k : ℤ, k.natAbs < 2 ^ 31 →
      showInt k ∈ t.splitOn '*' → τ (showInt k) = (k : F) := by
    intro t ht k hk hm
    obtain ⟨h1, h2, h3⟩ := lit_token wit hc.names hk
    have htr : trim U (showInt k) = showInt k :=
      trim_id fun c hc => (factor_chars (f := .lit k) hU hk c hc).2.2.2
    have := hconst t ht _ hm (k.natAbs : ℤ) (by rw [htr]; exact h1) (by rw [htr]; exact h2)
    rw [htr, h3] at this
    exact this
  have hfac : ∀ t ∈ e.lhsText.splitOn '+' ++ ['-' :: termText e.rhs], ∀ f : Factor, f.Ok U →
      f.text ∈ t.splitOn '*' → (∀ nm, f = .var true nm → e.Negated nm) → τ (trim U f.text) = f.val τ := by
    intro t ht f hf hm hn
    rw [trim_id fun c hc => (factor_chars hU hf c hc).2.2.2]
    cases f with
    | lit k => exact hlit t ht k hf hm
    | var neg nm =>
      cases neg with
      | false => rfl
      | true => exact hneg nm (hn nm rfl)
  have hL : ((e.lhsText.splitOn '+').map (termValW U τ)).sum =
      (e.lhs.map fun t => (t.map (Factor.val τ)).prod).sum := by
    rw [lhs_split hU he, List.map_map]
    congr 1
    apply List.map_congr_left
    intro t ht
    rw [Function.comp_apply, termValW, term_split hU (he.term_ne t ht) (he.lhs_ok t ht), List.map_map]
    congr 1
    apply List.map_congr_left
    intro f hf
    refine hfac (termText t) ?_ f (he.lhs_ok t ht f hf) ?_ ?_
    · rw [lhs_split hU he]
      exact List.mem_append_left _ (List.mem_map_of_mem ht)
    · rw [term_split hU (he.term_ne t ht) (he.lhs_ok t ht)]
      exact List.mem_map_of_mem hf
    · rintro nm rfl
      exact Or.inl ⟨t, ht, hf⟩
  have hR : termValW U τ ('-' :: termText e.rhs) = -(e.rhs.map (Factor.val τ)).prod := by
    obtain ⟨f, fs, hf, hs⟩ := rhs_split hU he
    have hmemT : ('-' :: termText e.rhs) ∈ e.lhsText.splitOn '+' ++ ['-' :: termText e.rhs] := by simp
    have hfok : f.Ok U := he.rhs_ok f (by rw [hf]; simp)
    have htr : trim U ('-' :: f.text) = '-' :: f.text := by
      refine trim_id fun c hc => ?_
      rcases List.mem_cons.1 hc with rfl | hc
      · exact hU.minus
      · exact (factor_chars hU hfok c hc).2.2.2
    have hhead : τ ('-' :: f.text) = -(f.val τ) := by
      cases f with
      | var neg nm =>
        cases neg with
        | true => exact absurd (by rw [hf]; rfl) (he.rhs_head nm)
        | false => exact hneg nm (Or.inr (Or.inr (by rw [hf]; rfl)))
      | lit k =>
        have hk : k.natAbs < 2 ^ 31 := hfok
        have hpk : parseI32 (showInt k) = some k := parseI32_showInt (by omega) (by omega)
        have := hconst _ hmemT ('-' :: showInt k) (by rw [hs]; exact List.mem_cons_self ..) k
          (by
            have htr' : trim U ('-' :: showInt k) = '-' :: showInt k := htr
            rw [htr', tokBody_cons, if_pos rfl]; exact wit_none_of_parse hc.names hpk)
          (by
            have htr' : trim U ('-' :: showInt k) = '-' :: showInt k := htr
            rw [htr', tokBody_cons, if_pos rfl]; exact hpk)
        have htr' : trim U ('-' :: showInt k) = '-' :: showInt k := htr
        rw [htr', tokNeg_cons] at this
        simp only [constWire, decide_true, if_true] at this
        exact this
    rw [termValW, hs, hf, List.map_cons, List.map_cons, List.prod_cons, List.prod_cons, htr, hhead, List.map_map,
      neg_mul]
    congr 3
    apply List.map_congr_left
    intro x hx
    have hx' : x ∈ e.rhs := by rw [hf]; simp [hx]
    refine hfac _ hmemT x (he.rhs_ok x hx') ?_ ?_
    · rw [hs]
      exact List.mem_cons_of_mem _ (List.mem_map_of_mem hx)
    · rintro nm rfl
      exact Or.inr (Or.inl hx')
  have hdiff : V 2 ((wiredCalls (gates.map PGate.names) 0 gates).length - 1) = e.diff τ := by
    rw [hlast, hsum, hL, hR, ← sub_eq_add_neg]
    rfl
  refine ⟨hdiff, ?_⟩
  rw [hdiff]
  exact sub_eq_zero

end C62

end Verif.Plonk

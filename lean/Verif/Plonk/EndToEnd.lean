import Verif.Plonk.ForgeryRun

/-!
# C63: parse, compile, prove, verify; and the size of parsed circuits (C71)
-/

set_option linter.unusedSectionVars false
set_option linter.unusedSimpArgs false
set_option linter.unusedVariables false

namespace Verif.Plonk

open Verif.Ark Verif.Kzg

/-! ## Number of gates -/

section count
variable {F : Type} [Field F] [DecidableEq F] {wit : List Char → Option F}

/-- Gates needed for an operand: none for a witness, one for a literal. -/
def opCost (wit : List Char → Option F) (tok : List Char) : ℕ := if (wit (tokBody tok)).isSome then 0 else 1

/-- Gates needed for a summand: its literals, and one less than the number of factors. -/
def termCost (U : Unicode) (wit : List Char → Option F) (t : List Char) : ℕ :=
  ((t.splitOn '*').map fun tok => opCost wit (trim U tok)).sum + ((t.splitOn '*').length - 1)

theorem insertGate_length (st : PState F) (g : PGate F) : (st.insertGate g).gates.length ≤ st.gates.length + 1 := by
  unfold PState.insertGate
  split <;> simp

theorem getWitnessValue_count {tok : List Char} {st : PState F} {r : F × PState F}
    (h : getWitnessValue wit tok st = some r) : r.2.gates.length ≤ st.gates.length + opCost wit tok := by
  by_cases hok : OperandOk wit tok
  · rw [(getWitnessValue_eq wit tok st).2 hok, Option.some.injEq] at h
    subst h
    dsimp only
    unfold opCost
    cases hwt : wit (tokBody tok) with
    | some v => simp
    | none =>
      cases hp : parseI32 (tokBody tok) with
      | none => simp
      | some k => exact insertGate_length _ _
  · rw [(getWitnessValue_eq wit tok st).1 hok] at h
    cases h

theorem tokenWires_count (U : Unicode) (toks : List (List Char)) {st : PState F}
    {r : List (Wire F) × PState F} (h : tokenWires U wit toks st = some r) :
    r.2.gates.length ≤ st.gates.length + (toks.map fun tok => opCost wit (trim U tok)).sum := by
  induction toks generalizing st r with
  | nil => simp only [tokenWires, Option.some.injEq] at h; subst h; simp
  | cons s rest ih =>
    simp only [tokenWires, Option.bind_eq_bind, Option.bind_eq_some_iff, Option.pure_def, Option.some.injEq] at h
    obtain ⟨a, ha, b, hb, rfl⟩ := h
    have h1 := getWitnessValue_count ha
    have h2 := ih (r := b) hb
    rw [List.map_cons, List.sum_cons]
    dsimp only
    omega

theorem mulReduce_count (ws : List (Wire F)) (w : Wire F) (st : PState F) :
    (mulReduce w ws st).2.gates.length ≤ st.gates.length + ws.length := by
  induction ws generalizing w st with
  | nil => simp [mulReduce]
  | cons v ws ih =>
    have h1 := ih (⟨w.name ++ '*' :: v.name, w.val * v.val⟩ : Wire F)
      (st.insertGate ⟨w, v, ⟨w.name ++ '*' :: v.name, w.val * v.val⟩, .multiplication⟩)
    have h2 := insertGate_length st ⟨w, v, ⟨w.name ++ '*' :: v.name, w.val * v.val⟩, .multiplication⟩
    rw [List.length_cons]
    have e : mulReduce w (v :: ws) st = mulReduce (⟨w.name ++ '*' :: v.name, w.val * v.val⟩ : Wire F) ws
      (st.insertGate ⟨w, v, ⟨w.name ++ '*' :: v.name, w.val * v.val⟩, .multiplication⟩) := rfl
    rw [e]
    omega

theorem termWire_count (U : Unicode) {t : List Char} {st : PState F} {r : Wire F × PState F}
    (h : termWire U wit t st = some r) : r.2.gates.length ≤ st.gates.length + termCost U wit t := by
  simp only [termWire, Option.bind_eq_bind, Option.bind_eq_some_iff] at h
  obtain ⟨a, ha, h⟩ := h
  have h1 := tokenWires_count U _ ha
  have hws := congrArg List.length (tokenWires_length U _ ha)
  rw [List.length_map] at hws
  split at h
  · cases h
  · rename_i w ws heq
    simp only [Option.pure_def, Option.some.injEq] at h
    subst h
    have h2 := mulReduce_count ws w a.2
    rw [heq, List.length_cons] at hws
    unfold termCost
    omega

theorem addReduce_count (U : Unicode) (ts : List (List Char)) {w : Wire F} {st : PState F}
    {r : Wire F × PState F} (h : addReduce U wit ts w st = some r) :
    r.2.gates.length ≤ st.gates.length + (ts.map (termCost U wit)).sum + ts.length := by
  induction ts generalizing w st with
  | nil => simp only [addReduce, Option.some.injEq] at h; subst h; simp
  | cons t ts ih =>
    simp only [addReduce, Option.bind_eq_bind, Option.bind_eq_some_iff] at h
    obtain ⟨a, ha, h⟩ := h
    have h1 := termWire_count U ha
    have h2 := ih h
    have h3 := insertGate_length a.2 (⟨w, a.1, ⟨w.name ++ '+' :: a.1.name, w.val + a.1.val⟩, .addition⟩ : PGate F)
    rw [List.map_cons, List.sum_cons, List.length_cons]
    have e : (generateAdditionalGate a.2 w a.1).2 =
      a.2.insertGate (⟨w, a.1, ⟨w.name ++ '+' :: a.1.name, w.val + a.1.val⟩, .addition⟩ : PGate F) := rfl
    rw [e] at h2
    omega

theorem prepare_count (U : Unicode) {lhs rhs : List Char} (hl : '=' ∉ lhs) (hr : '=' ∉ rhs)
    {gates : List (PGate F)} {pm : PosMap} (h : prepareGenCircuit U wit (lhs ++ '=' :: rhs) = some (gates, pm)) :
    gates.length ≤ ((lhs.splitOn '+').map (termCost U wit)).sum + termCost U wit ('-' :: rhs) +
      (lhs.splitOn '+').length := by
  simp only [prepareGenCircuit, Option.bind_eq_bind, Option.bind_eq_some_iff] at h
  obtain ⟨terms, hterms, h⟩ := h
  rw [(splitTerms_eq_some _ _).2 ⟨lhs, rhs, rfl, hl, hr, rfl⟩, Option.some.injEq] at hterms
  subst hterms
  cases hs : lhs.splitOn '+' with
  | nil => exact absurd hs (List.splitOn_ne_nil _ _)
  | cons t ts =>
    rw [hs, List.cons_append] at h
    simp only [Option.bind_eq_some_iff, Option.pure_def, Option.some.injEq, Prod.mk.injEq] at h
    obtain ⟨a, ha, q, hq, g', hg', rfl, rfl⟩ := h
    have h1 := termWire_count U ha
    have h2 := addReduce_count U _ hq
    have h3 := congrArg List.length (zeroLast_names hg')
    rw [List.length_map, List.length_map] at h3
    rw [List.map_append, List.sum_append, List.length_append] at h2
    simp only [List.map_cons, List.map_nil, List.sum_cons, List.sum_nil, List.length_singleton, List.length_nil,
      List.length_cons] at h1 h2 ⊢
    omega

end count

/-! ## Equations -/

/-- 1 for literals. -/
def Factor.lits : Factor → ℕ
  | .var _ _ => 0
  | .lit _ => 1

/-- An upper bound of the number of gates: one per literal, one per multiplication sign, one per summand. -/
def Equation.gateBound (e : Equation) : ℕ :=
  (e.lhs.map fun t => (t.map Factor.lits).sum + (t.length - 1)).sum +
    ((e.rhs.map Factor.lits).sum + (e.rhs.length - 1)) + e.lhs.length

section eqs
variable {F : Type} [FftField F] [DecidableEq F]

theorem opCost_factor {U : Unicode} (hU : U.Sane) {wit : List Char → Option F}
    (hw : ∀ nm v, wit nm = some v → parseI32 nm = none) {f : Factor} (hf : f.Ok U)
    (hv : ∀ neg nm, f = .var neg nm → (wit nm).isSome) : opCost wit (trim U f.text) = f.lits := by
  rw [trim_id fun c hc => (factor_chars hU hf c hc).2.2.2]
  unfold opCost
  cases f with
  | lit k =>
    rw [show (Factor.lit k).text = showInt k from rfl, (lit_token wit hw hf).1]
    rfl
  | var neg nm =>
    have h1 := hv neg nm rfl
    have : tokBody (Factor.var neg nm).text = nm := by
      obtain ⟨c, hc, -, hne⟩ := NameOk.head hf
      have hnn : nm ≠ [] := by rintro rfl; simp at hc
      obtain ⟨c', rest, rfl⟩ := List.exists_cons_of_ne_nil hnn
      simp only [List.head?_cons, Option.mem_def, Option.some.injEq] at hc
      subst hc
      cases neg with
      | true => simp [Factor.text, tokBody_cons]
      | false => simp [Factor.text, tokBody_cons, hne]
    rw [this, if_pos h1]
    rfl

theorem opCost_minus {U : Unicode} (hU : U.Sane) {wit : List Char → Option F}
    (hw : ∀ nm v, wit nm = some v → parseI32 nm = none) {f : Factor} (hf : f.Ok U)
    (hv : ∀ neg nm, f = .var neg nm → neg = false ∧ (wit nm).isSome) :
    opCost wit (trim U ('-' :: f.text)) = f.lits := by
  have htr : trim U ('-' :: f.text) = '-' :: f.text := by
    refine trim_id fun c hc => ?_
    rcases List.mem_cons.1 hc with rfl | hc
    · exact hU.minus
    · exact (factor_chars hU hf c hc).2.2.2
  rw [htr]
  unfold opCost
  rw [tokBody_cons, if_pos rfl]
  cases f with
  | lit k =>
    have hk : k.natAbs < 2 ^ 31 := hf
    have hp : parseI32 (showInt k) = some k := parseI32_showInt (by omega) (by omega)
    rw [show (Factor.lit k).text = showInt k from rfl, wit_none_of_parse hw hp]
    rfl
  | var neg nm =>
    obtain ⟨rfl, h⟩ := hv neg nm rfl
    rw [show (Factor.var false nm).text = nm from rfl, if_pos h]
    rfl

theorem termCosts {U : Unicode} (hU : U.Sane) {e : Equation} (he : e.Ok U) {wit : List Char → Option F}
    {ρ : List Char → F} (hc : Covers wit e ρ) :
    ((e.lhsText.splitOn '+').map (termCost U wit)).sum + termCost U wit ('-' :: termText e.rhs) +
      (e.lhsText.splitOn '+').length = e.gateBound := by
  have hA : ((e.lhsText.splitOn '+').map (termCost U wit)).sum =
      (e.lhs.map fun t => (t.map Factor.lits).sum + (t.length - 1)).sum := by
    rw [lhs_split hU he, List.map_map]
    refine congrArg List.sum (List.map_congr_left ?_)
    intro t ht
    rw [Function.comp_apply, termCost, term_split hU (he.term_ne t ht) (he.lhs_ok t ht), List.map_map, List.length_map]
    have : t.map ((fun tok => opCost wit (trim U tok)) ∘ Factor.text) = t.map Factor.lits := by
      refine List.map_congr_left ?_
      intro f hf
      refine opCost_factor hU hc.names (he.lhs_ok t ht f hf) ?_
      rintro neg nm rfl
      rw [hc.vars nm ⟨neg, Or.inl ⟨t, ht, hf⟩⟩]
      rfl
    rw [this]
  have hB : termCost U wit ('-' :: termText e.rhs) = (e.rhs.map Factor.lits).sum + (e.rhs.length - 1) := by
    obtain ⟨f, fs, hf, hs⟩ := rhs_split hU he
    have hfok : f.Ok U := he.rhs_ok f (by rw [hf]; simp)
    have h1 : opCost wit (trim U ('-' :: f.text)) = f.lits := by
      refine opCost_minus hU hc.names hfok ?_
      rintro neg nm rfl
      constructor
      · cases neg with
        | false => rfl
        | true => exact absurd (by rw [hf]; rfl) (he.rhs_head nm)
      · rw [hc.vars nm ⟨neg, Or.inr (by rw [hf]; simp)⟩]
        rfl
    have h2 : fs.map ((fun tok => opCost wit (trim U tok)) ∘ Factor.text) = fs.map Factor.lits := by
      refine List.map_congr_left ?_
      intro g hg
      have hg' : g ∈ e.rhs := by rw [hf]; simp [hg]
      refine opCost_factor hU hc.names (he.rhs_ok g hg') ?_
      rintro neg nm rfl
      rw [hc.vars nm ⟨neg, Or.inr hg'⟩]
      rfl
    rw [termCost, hs, hf, List.map_cons, List.map_cons, List.sum_cons, List.sum_cons, List.length_cons,
      List.length_map, List.length_cons, List.map_map, h1, h2]
  have hC : (e.lhsText.splitOn '+').length = e.lhs.length := by rw [lhs_split hU he, List.length_map]
  rw [hA, hB, hC]
  rfl

/-- The equation equates two single variables. -/
def Equation.SingleVariables (e : Equation) : Prop :=
  ∃ neg x y, e.lhs = [[.var neg x]] ∧ e.rhs = [.var false y]

theorem nonTrivial_of {U : Unicode} (hU : U.Sane) {e : Equation} (he : e.Ok U) {wit : List Char → Option F}
    {ρ : List Char → F} (hc : Covers wit e ρ) (hs : ¬ e.SingleVariables) :
    NonTrivial U wit e.lhsText (termText e.rhs) := by
  by_cases h1 : 2 ≤ e.lhs.length
  · left
    rw [lhs_split hU he, List.length_map]
    exact h1
  right
  obtain ⟨t, hlt⟩ : ∃ t, e.lhs = [t] := by
    have : e.lhs.length ≠ 0 := fun h => he.lhs_ne (List.length_eq_zero_iff.1 h)
    exact List.length_eq_one_iff.1 (by omega)
  have ht : t ∈ e.lhs := by rw [hlt]; simp
  have hsplit := term_split hU (he.term_ne t ht) (he.lhs_ok t ht)
  have hmem : termText t ∈ e.lhsText.splitOn '+' := by rw [lhs_split hU he, hlt]; simp
  obtain ⟨g, gs, hg, hrs⟩ := rhs_split hU he
  by_cases h2 : 2 ≤ t.length
  · refine ⟨termText t, Or.inl hmem, Or.inl ?_⟩
    rw [hsplit, List.length_map]
    exact h2
  obtain ⟨f, hft⟩ : ∃ f, t = [f] := by
    have : t.length ≠ 0 := fun h => he.term_ne t ht (List.length_eq_zero_iff.1 h)
    exact List.length_eq_one_iff.1 (by omega)
  by_cases h3 : gs = []
  swap
  · refine ⟨_, Or.inr rfl, Or.inl ?_⟩
    rw [hrs, List.length_cons, List.length_map]
    have := List.length_pos_iff.2 h3
    omega
  subst h3
  have hfok : f.Ok U := he.lhs_ok t ht f (by rw [hft]; simp)
  have hgok : g.Ok U := he.rhs_ok g (by rw [hg]; simp)
  cases f with
  | lit k =>
    refine ⟨termText t, Or.inl hmem, Or.inr ⟨showInt k, ?_, ?_⟩⟩
    · rw [hsplit, hft]; exact List.mem_cons_self ..
    · have htr : trim U (showInt k) = showInt k :=
        trim_id fun c hc => (factor_chars (f := .lit k) hU hfok c hc).2.2.2
      rw [htr]
      exact (lit_token wit hc.names hfok).1
  | var neg x =>
    cases g with
    | lit k =>
      have hk : k.natAbs < 2 ^ 31 := hgok
      refine ⟨_, Or.inr rfl, Or.inr ⟨'-' :: showInt k, ?_, ?_⟩⟩
      · rw [hrs]; exact List.mem_cons_self ..
      · have htr : trim U ('-' :: showInt k) = '-' :: showInt k := by
          refine trim_id fun c hc => ?_
          rcases List.mem_cons.1 hc with rfl | hc
          · exact hU.minus
          · exact (factor_chars (f := .lit k) hU hgok c hc).2.2.2
        rw [htr, tokBody_cons, if_pos rfl]
        exact wit_none_of_parse hc.names (parseI32_showInt (by omega) (by omega))
    | var neg' y =>
      cases neg' with
      | true => exact absurd (by rw [hg]; rfl) (he.rhs_head y)
      | false => exact absurd ⟨neg, x, y, by rw [hlt, hft], hg⟩ hs

/-- **C71**: a parsed circuit has at most one gate per literal, multiplication sign and summand; it has at least one
gate, and exactly one iff the equation equates two single variables. -/
theorem C71_number_of_gates (U : Unicode) (hU : U.Sane) (e : Equation) (he : e.Ok U) (wit : List Char → Option F)
    (ρ : List Char → F) (hc : Covers wit e ρ) (input : List Char) (hin : parseString U input = some e.text) :
    ∃ circuit : Circuit F, parse U wit input = some circuit ∧ circuit.gates.length ≤ e.gateBound ∧
      1 ≤ circuit.gates.length ∧ (circuit.gates.length = 1 ↔ e.SingleVariables) := by
  obtain ⟨gates, pm, hp⟩ := prepare_equation hU he hc
  obtain ⟨calls, h1, hcalls, hlen, -, -, -, hnt⟩ := parse_run hc.names U hU.minus (lhs_noEq hU he) (rhs_noEq hU he)
    (rhs_noPlus hU he) hp
  obtain ⟨init, l, r, N, K, hg, -⟩ := prepare_run hc.names U hU.minus (lhs_noEq hU he) (rhs_noEq hU he)
    (rhs_noPlus hU he) hp
  have hcount := prepare_count U (lhs_noEq hU he) (rhs_noEq hU he) hp
  rw [termCosts hU he hc] at hcount
  have hgl : (build calls).gates.length = gates.length := by rw [build_eq]; simp [hlen]
  have hpos : 1 ≤ gates.length := by rw [hg]; simp
  refine ⟨build calls, ?_, by rw [hgl]; exact hcount, by rw [hgl]; exact hpos, ?_⟩
  · unfold parse
    rw [hin]
    simp [hp, h1]
  · rw [hgl]
    constructor
    · intro hone
      by_contra hns
      have := hnt (nonTrivial_of hU he hc hns)
      omega
    · rintro ⟨neg, x, y, e1, e2⟩
      have : e.gateBound = 1 := by
        unfold Equation.gateBound
        rw [e1, e2]
        rfl
      omega

variable {G1 G2 GT : Type} [AddCommGroup G1] [Module F G1] [AddCommGroup G2] [Module F G2]
  [AddCommGroup GT] [Module F GT] [DecidableEq GT]

/-- **C63**: for every equation of the input language that is not of the form variable = variable and fits in the
field's largest domain, and every assignment covering its variables: parsing and compiling succeed; if the equation
holds then, outside degenerate challenges, proving succeeds and the proof is accepted; and if it does not hold, then
`generate_proof` panics, for all blinders, challenges and SRS. -/
theorem C63_end_to_end (U : Unicode) (hU : U.Sane) (e : Equation) (he : e.Ok U) (wit : List Char → Option F)
    (ρ : List Char → F) (hc : Covers wit e ρ) (input : List Char) (hin : parseString U input = some e.text)
    (hns : ¬ e.SingleVariables) (hsize : e.gateBound ≤ 2 ^ FftField.twoAdicity F) :
    ∃ (circuit : Circuit F) (cc : CompiledCircuit F) (d : Domain F), parse U wit input = some circuit ∧
      circuit.compile = some cc ∧ Domain.new? cc.size = some d ∧
      (e.Holds ρ → ∀ (env : Env F G1) (T : List UInt8 → List UInt8) (P : PairingGroups F G1 G2 GT) (s : F) (N : ℕ)
        (bl : Blinders F), cc.size ≤ N → (∀ b, 8 ≤ (env.sha256 b).length) →
        ¬ (⟨env, P.g1, s, cc, d.gen, bl⟩ : Honest F G1).Degenerate →
        (⟨env, P.g1, s, cc, d.gen, bl⟩ : Honest F G1).ζ ≠ 1 →
        ∃ p, generateProof env T cc (Srs.newFromSecret P s N) bl = some p ∧
          verify env env.sha256 P cc (Srs.newFromSecret P s N) p = some (.ok ())) ∧
      (¬ e.Holds ρ → ∀ (env : Env F G1) (T : List UInt8 → List UInt8) (srs : Srs G1 G2) (bl : Blinders F),
        generateProof env T cc srs bl = none) := by
  obtain ⟨gates, pm, hp⟩ := prepare_equation hU he hc
  obtain ⟨calls, h1, hcalls, hlen, h3, h4, h5, hnt⟩ := parse_run hc.names U hU.minus (lhs_noEq hU he)
    (rhs_noEq hU he) (rhs_noPlus hU he) hp
  have hcount := prepare_count U (lhs_noEq hU he) (rhs_noEq hU he) hp
  rw [termCosts hU he hc] at hcount
  have h2 := hnt (nonTrivial_of hU he hc hns)
  have hpar : parse U wit input = some (build calls) := by
    unfold parse
    rw [hin]
    simp [hp, h1]
  have hcomp : ∃ cc, (build calls).compile = some cc := by
    rw [← Option.isSome_iff_exists]
    by_contra hno
    rw [Bool.not_eq_true, Option.isSome_eq_false_iff, Option.isNone_iff_eq_none, C44_compile_panics_iff] at hno
    rcases hno with h | h | ⟨call, hcall, p, hp', hbad⟩
    · omega
    · have : nextPow2 calls.length ≤ 2 ^ FftField.twoAdicity F := by
        unfold nextPow2
        exact Nat.pow_le_pow_right (by norm_num) (Nat.clog_le_of_le_pow (by omega))
      omega
    · apply hbad
      have hb := wirePerm_bounds (gates.map PGate.names) (n := nextPow2 calls.length)
        (by rw [List.length_map, ← hlen]; exact le_nextPow2 _)
      obtain ⟨i, hi, hcalli⟩ := List.getElem_of_mem hcall
      have hi' : i < nextPow2 calls.length := lt_of_lt_of_le hi (le_nextPow2 _)
      have hi2 : i < gates.length := by omega
      have hget := wiredCalls_getElem? (gates.map PGate.names) 0 gates i
      rw [← hcalls, List.getElem?_eq_getElem hi, hcalli, List.getElem?_eq_getElem hi2, Option.map_some,
        Option.some.injEq, Nat.zero_add] at hget
      rw [hget] at hp'
      simp only [wiredCall, List.mem_cons, List.not_mem_nil, or_false] at hp'
      rcases hp' with rfl | rfl | rfl
      · have := (hb (0, i) ⟨by norm_num, hi'⟩).1
        exact ⟨by dsimp only; omega, this.2⟩
      · have := (hb (1, i) ⟨by norm_num, hi'⟩).1
        exact ⟨by dsimp only; omega, this.2⟩
      · have := (hb (2, i) ⟨by norm_num, hi'⟩).1
        exact ⟨by dsimp only; omega, this.2⟩
  obtain ⟨cc, hcc⟩ := hcomp
  obtain ⟨d, hd, -⟩ := compile_some calls cc hcc
  have hle := (C44_compile_size calls cc hcc).2.1
  have hiff := h5.trans (equation_sum hU he hc)
  refine ⟨build calls, cc, d, hpar, hcc, hd, ?_, ?_⟩
  · intro hh env T P s N bl hN hdig hnd hz
    obtain ⟨q1, q2⟩ := C50_compiled (⟨env, P.g1, s, cc, d.gen, bl⟩ : Honest F G1) T P N calls hcc d hd rfl rfl hN hdig
      (hiff.2 hh) (h4 _ hle) hnd
    exact ⟨_, q1, q2 hz⟩
  · intro hh env T srs bl
    have : ¬ AllRelations calls := fun h => hh (hiff.1 h)
    unfold AllRelations at this
    push Not at this
    obtain ⟨call, hcall, hbad⟩ := this
    exact C51_compiled env T calls cc hcc srs bl call hcall hbad

/-- The excluded case of C63: an equation between two single variables makes `compile` panic. -/
theorem C63_single_variables_panic (U : Unicode) (hU : U.Sane) (e : Equation) (he : e.Ok U)
    (wit : List Char → Option F) (ρ : List Char → F) (hc : Covers wit e ρ) (input : List Char)
    (hin : parseString U input = some e.text) (hs : e.SingleVariables) :
    ∃ circuit : Circuit F, parse U wit input = some circuit ∧ circuit.compile = none := by
  obtain ⟨circuit, h1, -, -, h2⟩ := C71_number_of_gates U hU e he wit ρ hc input hin
  refine ⟨circuit, h1, ?_⟩
  have := h2.2 hs
  unfold Circuit.compile Circuit.pad
  rw [if_pos (by omega)]
  rfl

end eqs

/-! ## Non-vacuity -/

/-- The equation of the repository's example, with the power already expanded. -/
def exEq : Equation :=
  ⟨[[.var false ['x'], .var false ['y']], [.lit 3, .var false ['x'], .var false ['x']],
    [.var false ['x'], .var false ['y'], .var false ['z']]], [.lit 11]⟩

/-- The assignment `x = 1`, `y = 2`, `z = 3`. -/
def exRho (nm : List Char) : BlsFr := if nm = ['x'] then 1 else if nm = ['y'] then 2 else if nm = ['z'] then 3 else 0

theorem nameOk_letter {c : Char} (h : c = 'x' ∨ c = 'y' ∨ c = 'z') : NameOk asciiTables [c] := by
  rcases h with rfl | rfl | rfl <;>
  · refine ⟨⟨_, rfl, by decide, by decide⟩, ?_, by decide⟩
    intro c hc
    rw [List.mem_singleton] at hc
    subst hc
    decide

theorem exEq_ok : exEq.Ok asciiTables := by
  have hx := nameOk_letter (c := 'x') (by simp)
  have hy := nameOk_letter (c := 'y') (by simp)
  have hz := nameOk_letter (c := 'z') (by simp)
  refine ⟨by simp [exEq], by simp [exEq], by simp [exEq], ?_, ?_, by simp [exEq]⟩
  · simp only [exEq, List.mem_cons, List.not_mem_nil, or_false, forall_eq_or_imp, forall_eq, Factor.Ok]
    exact ⟨⟨hx, hy⟩, ⟨by decide, hx, hx⟩, hx, hy, hz⟩
  · simp only [exEq, List.mem_cons, List.not_mem_nil, or_false, forall_eq, Factor.Ok]
    decide

theorem exEq_covers : Covers exWit exEq exRho := by
  constructor
  · rintro nm ⟨neg, h | h⟩
    · simp only [exEq, List.mem_cons, List.not_mem_nil, or_false, exists_eq_or_imp, exists_eq_left, Factor.var.injEq,
        reduceCtorEq, false_or] at h
      rcases h with (⟨-, rfl⟩ | ⟨-, rfl⟩) | (⟨-, rfl⟩ | ⟨-, rfl⟩) | ⟨-, rfl⟩ | ⟨-, rfl⟩ | ⟨-, rfl⟩ <;> decide +kernel
    · simp [exEq] at h
  · intro nm v h
    simp only [exWit, addWitness, noWitness, Function.update_apply] at h
    split at h
    · rename_i e; rw [e]; decide
    split at h
    · rename_i e; rw [e]; decide
    split at h
    · rename_i e; rw [e]; decide
    · cases h

theorem exEq_holds : exEq.Holds exRho := by
  simp only [Equation.Holds, exEq, Factor.val, List.map_cons, List.map_nil, List.prod_cons, List.prod_nil,
    List.sum_cons, List.sum_nil]
  decide +kernel

theorem exEq_not_single : ¬ exEq.SingleVariables := by
  rintro ⟨neg, x, y, h, -⟩
  simp [exEq] at h

theorem exEq_text : parseString asciiTables "x * y + 3 * X ^ 2 + x * Y * z = 11".toList = some exEq.text := by
  decide +kernel

/-- Non-vacuity of C61, C63 and C71: the repository's example satisfies all hypotheses, and its equation holds. -/
example : ∃ (circuit : Circuit BlsFr) (cc : CompiledCircuit BlsFr),
    parse asciiTables exWit "x * y + 3 * X ^ 2 + x * Y * z = 11".toList = some circuit ∧
    circuit.compile = some cc ∧ circuit.gates.length ≤ 10 ∧ exEq.Holds exRho := by
  obtain ⟨circuit, cc, d, h1, h2, -⟩ := C63_end_to_end (G1 := BlsFr) (G2 := BlsFr) (GT := BlsFr) asciiTables
    asciiTables_sane exEq exEq_ok exWit exRho exEq_covers _ exEq_text exEq_not_single (by
      have e : FftField.twoAdicity BlsFr = 32 := rfl
      rw [e]; decide)
  obtain ⟨c', h3, h4, -⟩ := C71_number_of_gates asciiTables asciiTables_sane exEq exEq_ok exWit exRho exEq_covers _
    exEq_text
  rw [h1, Option.some.injEq] at h3
  subst h3
  exact ⟨circuit, cc, h1, h2, h4, exEq_holds⟩

end Verif.Plonk

import Verif.Plonk.SameForm
import Verif.Plonk.Degenerate
import Verif.Plonk.CpiMatch

/-!
# C110: honest proofs accepted for other equations

Consequences of C110: the honest proof of `x+1=y` is accepted by a verifier who preprocessed `x+1=x`, which no value of `x`
satisfies.
-/

set_option linter.unusedSectionVars false
set_option linter.unusedSimpArgs false
set_option linter.unusedVariables false

namespace Verif.Plonk

open Verif.Ark Verif.Kzg

/-- **C110** (consequence): let the equation `e` hold for the values `ρ`, and let another text be preprocessed to the same circuit
(by `C110_same_circuit_iff_partial`: let its operands be a renaming of those of `e`).  Then, for blinding values and all but few
challenges as in C82, the honest prover of `e` gets a proof, and the verifier who preprocessed the *other* text accepts it. -/
theorem C110_accepted_for_twin (U : Unicode) (hU : U.Sane) (e : Equation) (he : e.Ok U) (hcan : e.Canonical)
    (wit : List Char → Option BlsFr) (ρ : List Char → BlsFr) (hc : Covers wit e ρ) (hold : e.Holds ρ)
    (input input' : List Char) (hin : parseString U input = some e.text) (hns : ¬ e.SingleVariables)
    (hsize : e.gateBound ≤ 2 ^ 32)
    (htwin : cpiCompiled (F := BlsFr) U input' = cpiCompiled U input) :
    ∃ (circuit : Circuit BlsFr) (cc : CompiledCircuit BlsFr) (d : Domain BlsFr)
      (t : GateConstraints BlsFr × CopyConstraints BlsFr × ℕ),
      parse U wit input = some circuit ∧ circuit.compile = some cc ∧ Domain.new? cc.size = some d ∧
      cpiCompiled U input' = some t ∧
      ∀ bl : Blinders BlsFr, bl.b1 ≠ 0 → bl.b3 ≠ 0 → bl.b5 ≠ 0 → bl.b7 ≠ 0 → bl.b1 + bl.b3 ≠ bl.b5 →
        AllBut 1 fun β : BlsFr => AllBut (3 * cc.size) fun γ : BlsFr => AllBut 3 fun α : BlsFr =>
        AllBut (6 * cc.size + 8) fun ζ : BlsFr =>
          ∀ (G1 G2 GT : Type) [AddCommGroup G1] [Module BlsFr G1] [AddCommGroup G2] [Module BlsFr G2]
            [AddCommGroup GT] [Module BlsFr GT] [DecidableEq GT]
            (env : Env BlsFr G1) (T : List UInt8 → List UInt8) (P : PairingGroups BlsFr G1 G2 GT) (s : BlsFr) (N : ℕ)
            (H : Honest BlsFr G1), H = ⟨env, P.g1, s, cc, d.gen, bl⟩ →
            cc.size ≤ N → (∀ b, 8 ≤ (env.sha256 b).length) →
            H.β = β → H.γ = γ → H.α = α → H.ζ = ζ →
            ∃ p, generateProof env T cc (Srs.newFromSecret P s N) bl = some p ∧
              verify env env.sha256 P ⟨t.2.2, t.1, t.2.1⟩ (Srs.newFromSecret P s N) p = some (.ok ()) := by
  obtain ⟨gates, pm, hp⟩ := prepare_equation hU he hc
  obtain ⟨calls, h1, hcalls, hlen, h3, h4, h5, hnt⟩ := parse_run hc.names U hU.minus (lhs_noEq hU he)
    (rhs_noEq hU he) (rhs_noPlus hU he) hp
  have hpar : parse U wit input = some (build calls) := by
    unfold parse
    rw [hin]
    simp [hp, h1]
  obtain ⟨circuit, cc, d, q1, q2, q3, -⟩ := C63_end_to_end (F := BlsFr) (G1 := BlsFr) (G2 := BlsFr) (GT := BlsFr) U hU e he wit
    ρ hc input hin hns hsize
  rw [hpar, Option.some.injEq] at q1
  subst q1
  have t1 := C64_same_compiled U hU e he hcan wit ρ hc input hin
  rw [hpar, Option.bind_some, q2, Option.map_some] at t1
  have hle := (C44_compile_size calls cc q2).2.1
  refine ⟨build calls, cc, d, _, hpar, q2, q3, htwin.trans t1, ?_⟩
  intro bl b1 b3 b5 b7 bs
  refine (C82_honest_proving_succeeds calls cc q2 ((h5.trans (equation_sum hU he hc)).2 hold) (h4 _ hle) d q3 bl b1 b3 b5 b7
    bs).mono le_rfl fun β h => h.mono le_rfl fun γ h => h.mono le_rfl fun α h => h.mono le_rfl fun ζ h => ?_
  intro G1 G2 GT _ _ _ _ _ _ _ env T P s N H hH hN hdig e1 e2 e3 e4
  obtain ⟨p, hp, hv⟩ := h G1 G2 GT env T P s N H hH hN hdig e1 e2 e3 e4
  refine ⟨p, hp, ?_⟩
  rw [← hv]
  exact C54_ignores_witness env env.sha256 P _ _ _ p rfl ⟨rfl, rfl, rfl, rfl, rfl, rfl⟩ rfl

/-! ## An unsatisfiable twin -/

/-- The equation `x+1=y`. -/
def eqSucc : Equation := ⟨[[.var false ['x']], [.lit 1]], [.var false ['y']]⟩

/-- The equation `x+1=x`. -/
def eqLoop : Equation := ⟨[[.var false ['x']], [.lit 1]], [.var false ['x']]⟩

/-- No value of `x` satisfies `x+1=x`. -/
theorem eqLoop_false (ρ : List Char → BlsFr) : ¬ eqLoop.Holds ρ := by
  simp only [Equation.Holds, eqLoop, Factor.val, List.map_cons, List.map_nil, List.prod_cons, List.prod_nil,
    List.sum_cons, List.sum_nil]
  simp

theorem eqLoop_ok : eqLoop.Ok asciiTables := by
  have hx := nameOk_letter (c := 'x') (by simp)
  refine ⟨by simp [eqLoop], by simp [eqLoop], by simp [eqLoop], ?_, ?_, by simp [eqLoop]⟩
  · simp only [eqLoop, List.mem_cons, List.not_mem_nil, or_false, forall_eq_or_imp, forall_eq, Factor.Ok]
    exact ⟨hx, by decide⟩
  · simp only [eqLoop, List.mem_cons, List.not_mem_nil, or_false, forall_eq, Factor.Ok]
    exact hx

theorem eqSucc_ok : eqSucc.Ok asciiTables := by
  have hx := nameOk_letter (c := 'x') (by simp)
  have hy := nameOk_letter (c := 'y') (by simp)
  refine ⟨by simp [eqSucc], by simp [eqSucc], by simp [eqSucc], ?_, ?_, by simp [eqSucc]⟩
  · simp only [eqSucc, List.mem_cons, List.not_mem_nil, or_false, forall_eq_or_imp, forall_eq, Factor.Ok]
    exact ⟨hx, by decide⟩
  · simp only [eqSucc, List.mem_cons, List.not_mem_nil, or_false, forall_eq, Factor.Ok]
    exact hy

theorem eqSucc_canonical : eqSucc.Canonical := by
  constructor
  · rintro nm ⟨neg, h | h⟩
    · simp only [eqSucc, List.mem_cons, List.not_mem_nil, or_false, exists_eq_or_imp, exists_eq_left, Factor.var.injEq,
        reduceCtorEq] at h
      obtain ⟨-, rfl⟩ := h
      exact ⟨_, List.mem_singleton_self _, by decide⟩
    · simp only [eqSucc, List.mem_singleton, Factor.var.injEq] at h
      obtain ⟨-, rfl⟩ := h
      exact ⟨_, List.mem_singleton_self _, by decide⟩
  · intro k hk
    simp [eqSucc] at hk

/-- The witnesses `x = a`, `y = a + 1`. -/
def succWit (a : BlsFr) : List Char → Option BlsFr := addWitness (addWitness noWitness ['x'] a) ['y'] (a + 1)

theorem eqSucc_covers (a : BlsFr) : Covers (succWit a) eqSucc (fun nm => if nm = ['y'] then a + 1 else a) := by
  constructor
  · rintro nm ⟨neg, h | h⟩
    · simp only [eqSucc, List.mem_cons, List.not_mem_nil, or_false, exists_eq_or_imp, exists_eq_left, Factor.var.injEq,
        reduceCtorEq] at h
      obtain ⟨-, rfl⟩ := h
      simp [succWit, addWitness, Function.update_apply]
    · simp only [eqSucc, List.mem_singleton, Factor.var.injEq] at h
      obtain ⟨-, rfl⟩ := h
      simp [succWit, addWitness, Function.update_apply]
  · intro nm v h
    simp only [succWit, addWitness, noWitness, Function.update_apply] at h
    split at h
    · rename_i e; rw [e]; decide
    split at h
    · rename_i e; rw [e]; decide
    · cases h

theorem eqSucc_holds (a : BlsFr) : eqSucc.Holds (fun nm => if nm = ['y'] then a + 1 else a) := by
  simp only [Equation.Holds, eqSucc, Factor.val, List.map_cons, List.map_nil, List.prod_cons, List.prod_nil,
    List.sum_cons, List.sum_nil]
  simp

theorem operandsSucc : operands asciiTables "x+1=y".toList = some [[['x']], [['1']], [['-', 'y']]] := by decide +kernel
theorem operandsLoop : operands asciiTables "x+1=x".toList = some [[['x']], [['1']], [['-', 'x']]] := by decide +kernel

/-- The renaming of `-y` to `-x`. -/
def minusYtoX (a : List Char) : List Char := if a = ['-', 'y'] then ['-', 'x'] else a

theorem succ_renames_loop : Renames BlsFr minusYtoX [[['x']], [['1']], [['-', 'y']]] [[['x']], [['1']], [['-', 'x']]] := by
  refine ⟨by decide, by decide, ?_, by decide⟩
  have h : ∀ a ∈ ([[['x']], [['1']], [['-', 'y']]] : List (List (List Char))).flatten,
      parseI32 (minusYtoX a) = parseI32 a := by decide +kernel
  intro a ha
  rw [h a ha]

/-- The two equations share a circuit. -/
theorem loop_same_circuit :
    cpiCompiled (F := BlsFr) asciiTables "x+1=x".toList = cpiCompiled asciiTables "x+1=y".toList :=
  C110_renamed_same_circuit asciiTables (by decide +kernel : parseString asciiTables "x+1=y".toList = some "x+1=y".toList)
    (by decide +kernel : parseString asciiTables "x+1=x".toList = some "x+1=x".toList) operandsSucc operandsLoop
    (by decide) (by decide) minusYtoX succ_renames_loop

/-- **C110**, counterexample: the circuit does not determine the equation up to names.  `x+1=x` holds for no value of `x`; for every
`a`, the honest proof of `x+1=y` with `x = a`, `y = a + 1` is accepted by the verifier who preprocessed `x+1=x` (for blinding
values and all but few challenges as in C82). -/
theorem C110_unsatisfiable_twin (a : BlsFr) :
    eqLoop.Ok asciiTables ∧ eqLoop.text = "x+1=x".toList ∧ (∀ ρ : List Char → BlsFr, ¬ eqLoop.Holds ρ) ∧
    ∃ (circuit : Circuit BlsFr) (cc : CompiledCircuit BlsFr) (d : Domain BlsFr)
      (t : GateConstraints BlsFr × CopyConstraints BlsFr × ℕ),
      parse asciiTables (succWit a) "x+1=y".toList = some circuit ∧ circuit.compile = some cc ∧
      Domain.new? cc.size = some d ∧ cpiCompiled asciiTables "x+1=x".toList = some t ∧
      ∀ bl : Blinders BlsFr, bl.b1 ≠ 0 → bl.b3 ≠ 0 → bl.b5 ≠ 0 → bl.b7 ≠ 0 → bl.b1 + bl.b3 ≠ bl.b5 →
        AllBut 1 fun β : BlsFr => AllBut (3 * cc.size) fun γ : BlsFr => AllBut 3 fun α : BlsFr =>
        AllBut (6 * cc.size + 8) fun ζ : BlsFr =>
          ∀ (G1 G2 GT : Type) [AddCommGroup G1] [Module BlsFr G1] [AddCommGroup G2] [Module BlsFr G2]
            [AddCommGroup GT] [Module BlsFr GT] [DecidableEq GT]
            (env : Env BlsFr G1) (T : List UInt8 → List UInt8) (P : PairingGroups BlsFr G1 G2 GT) (s : BlsFr) (N : ℕ)
            (H : Honest BlsFr G1), H = ⟨env, P.g1, s, cc, d.gen, bl⟩ →
            cc.size ≤ N → (∀ b, 8 ≤ (env.sha256 b).length) →
            H.β = β → H.γ = γ → H.α = α → H.ζ = ζ →
            ∃ p, generateProof env T cc (Srs.newFromSecret P s N) bl = some p ∧
              verify env env.sha256 P ⟨t.2.2, t.1, t.2.1⟩ (Srs.newFromSecret P s N) p = some (.ok ()) := by
  refine ⟨eqLoop_ok, by decide +kernel, eqLoop_false, ?_⟩
  exact C110_accepted_for_twin asciiTables asciiTables_sane eqSucc eqSucc_ok eqSucc_canonical (succWit a) _ (eqSucc_covers a)
    (eqSucc_holds a) _ _ (by decide +kernel) (by
      rintro ⟨neg, x, y, h, -⟩
      simp [eqSucc] at h) (by decide) loop_same_circuit

/-- **C110**, non-vacuity and use: `x+1=y` and `x+1=x` share a circuit, `x+1=y` and `x+2=y` do not. -/
example :
    cpiCompiled (F := BlsFr) asciiTables "x+1=x".toList = cpiCompiled asciiTables "x+1=y".toList ∧
    cpiCompiled (F := BlsFr) asciiTables "x+2=y".toList ≠ cpiCompiled asciiTables "x+1=y".toList ∧
    (cpiCompiled (F := BlsFr) asciiTables "x+1=y".toList).isSome := by
  obtain ⟨_, _, _, circuit, cc, d, t, -, -, -, h, -⟩ := C110_unsatisfiable_twin 0
  have hs : (cpiCompiled (F := BlsFr) asciiTables "x+1=y".toList).isSome := by
    rw [← loop_same_circuit, h]; rfl
  refine ⟨loop_same_circuit, ?_, hs⟩
  intro he
  obtain ⟨σ, hσ⟩ := (C110_same_circuit_iff_partial asciiTables
    (by decide +kernel : parseString asciiTables "x+1=y".toList = some "x+1=y".toList)
    (by decide +kernel : parseString asciiTables "x+2=y".toList = some "x+2=y".toList) operandsSucc
    (by decide +kernel : operands asciiTables "x+2=y".toList = some [[['x']], [['2']], [['-', 'y']]])
    (by decide) (by decide) hs).1 he
  have h1 := hσ.form
  simp only [List.map_cons, List.map_nil, List.cons.injEq, and_true] at h1
  have h2 := hσ.number ['1'] (by decide)
  rw [← h1.2.1] at h2
  have e1 : parseI32 ['1'] = some 1 := by decide
  have e2 : parseI32 ['2'] = some 2 := by decide
  rw [e1, e2] at h2
  revert h2
  decide +kernel

/-! ## When every variable has one sign -/

/-- Value of an operand: a number, or a variable with its sign. -/
def opVal {F : Type} [Field F] (ρ : List Char → F) (a : List Char) : F :=
  match parseI32 a with
  | some k => (k : F)
  | none =>
    match a with
    | '-' :: nm => -ρ nm
    | nm => ρ nm

/-- The operands of an equation: the right-hand side is one more summand, its first factor with a minus sign. -/
theorem operands_text {U : Unicode} (hU : U.Sane) {e : Equation} (he : e.Ok U) :
    ∃ f fs, e.rhs = f :: fs ∧
      operands U e.text = some (e.lhs.map (List.map Factor.text) ++ [('-' :: f.text) :: fs.map Factor.text]) := by
  obtain ⟨f, fs, hf, hsp⟩ := rhs_split hU he
  refine ⟨f, fs, hf, ?_⟩
  have htrim : ∀ g : Factor, g.Ok U → trim U g.text = g.text := fun g hg =>
    trim_id fun c hc => (factor_chars hU hg c hc).2.2.2
  have hs : e.text.splitOn '=' = [e.lhsText, termText e.rhs] := by
    unfold Equation.text
    rw [← Equation.lhsText, List.splitOn_append_cons_self, List.splitOn_eq_singleton (lhs_noEq hU he),
      List.splitOn_eq_singleton (rhs_noEq hU he)]
    rfl
  unfold operands
  rw [hs]
  simp only [Option.some.injEq, List.map_append, List.map_cons, List.map_nil, hsp, lhs_split hU he, List.map_map]
  congr 1
  · refine List.map_congr_left fun t ht => ?_
    simp only [Function.comp, term_split hU (he.term_ne t ht) (he.lhs_ok t ht), List.map_map]
    exact List.map_congr_left fun g hg => htrim g (he.lhs_ok t ht g hg)
  · have hfo : f.Ok U := he.rhs_ok f (by rw [hf]; simp)
    congr 1
    congr 1
    · refine trim_id fun c hc => ?_
      rcases List.mem_cons.1 hc with rfl | hc
      · exact hU.minus
      · exact (factor_chars hU hfo c hc).2.2.2
    · exact List.map_congr_left fun g hg => htrim g (he.rhs_ok g (by rw [hf]; simp [hg]))

theorem operands_noPlus {U : Unicode} (hU : U.Sane) {e : Equation} (he : e.Ok U) {A : List (List (List Char))}
    (hA : operands U e.text = some A) : ∀ t ∈ A, ∀ a ∈ t, '+' ∉ a := by
  obtain ⟨f, fs, hf, h⟩ := operands_text hU he
  rw [hA, Option.some.injEq] at h
  subst h
  intro t ht a ha
  rcases List.mem_append.1 ht with ht | ht
  · obtain ⟨u, hu, rfl⟩ := List.mem_map.1 ht
    obtain ⟨g, hg, rfl⟩ := List.mem_map.1 ha
    exact fun hc => (factor_chars hU (he.lhs_ok u hu g hg) _ hc).1 rfl
  · rw [List.mem_singleton] at ht
    subst ht
    rcases List.mem_cons.1 ha with rfl | ha
    · intro hc
      rcases List.mem_cons.1 hc with h | hc
      · revert h; decide
      · exact (factor_chars hU (he.rhs_ok f (by rw [hf]; simp)) _ hc).1 rfl
    · obtain ⟨g, hg, rfl⟩ := List.mem_map.1 ha
      exact fun hc => (factor_chars hU (he.rhs_ok g (by rw [hf]; simp [hg])) _ hc).1 rfl

theorem parseI32_minus_name {nm : List Char} (h : ∃ c ∈ nm, isAsciiDigit c = false) : parseI32 ('-' :: nm) = none := by
  have : parseI32 ('-' :: nm) = parseDigits true nm := rfl
  rw [this]
  exact parseDigits_none h

theorem opVal_var {F : Type} [Field F] {U : Unicode} (ρ : List Char → F) {nm : List Char} (hnm : NameOk U nm)
    (hd : ∃ c ∈ nm, isAsciiDigit c = false) : opVal ρ nm = ρ nm ∧ opVal ρ ('-' :: nm) = -ρ nm := by
  obtain ⟨c, hc, -, hne⟩ := hnm.head
  constructor
  · unfold opVal
    rw [hnm.notNumber]
    cases nm with
    | nil => rfl
    | cons c' r =>
      simp only [List.head?_cons, Option.mem_def, Option.some.injEq] at hc
      subst hc
      dsimp only
      split
      · next h => simp only [List.cons.injEq] at h; exact absurd h.1 hne
      · rfl
  · unfold opVal
    rw [parseI32_minus_name hd]
    rfl

theorem opVal_factor {F : Type} [Field F] {U : Unicode} (ρ : List Char → F) {f : Factor} (hf : f.Ok U)
    (hd : ∀ neg nm, f = .var neg nm → ∃ c ∈ nm, isAsciiDigit c = false) : opVal ρ f.text = f.val ρ := by
  cases f with
  | var neg nm =>
    have := opVal_var ρ hf (hd neg nm rfl)
    cases neg with
    | false => exact this.1
    | true => exact this.2
  | lit k =>
    have hk : k.natAbs < 2 ^ 31 := hf
    unfold opVal Factor.text Factor.val
    rw [parseI32_showInt (by omega) (by omega)]

/-- The equation in terms of its operands. -/
theorem holds_operands {F : Type} [Field F] {U : Unicode} (hU : U.Sane) {e : Equation} (he : e.Ok U) (hcan : e.Canonical)
    {A : List (List (List Char))} (hA : operands U e.text = some A) (ρ : List Char → F) :
    e.Holds ρ ↔ (A.map fun t => (t.map (opVal ρ)).prod).sum = 0 := by
  obtain ⟨f, fs, hf, h⟩ := operands_text hU he
  rw [hA, Option.some.injEq] at h
  subst h
  have hl : ∀ t ∈ e.lhs, (t.map Factor.text).map (opVal ρ) = t.map (Factor.val ρ) := by
    intro t ht
    rw [List.map_map]
    refine List.map_congr_left fun g hg => opVal_factor ρ (he.lhs_ok t ht g hg) ?_
    rintro neg nm rfl
    exact hcan.names nm ⟨neg, Or.inl ⟨t, ht, hg⟩⟩
  have hr : (fs.map Factor.text).map (opVal ρ) = fs.map (Factor.val ρ) := by
    rw [List.map_map]
    refine List.map_congr_left fun g hg => opVal_factor ρ (he.rhs_ok g (by rw [hf]; simp [hg])) ?_
    rintro neg nm rfl
    exact hcan.names nm ⟨neg, Or.inr (by rw [hf]; simp [hg])⟩
  have hh : opVal ρ ('-' :: f.text) = -f.val ρ := by
    have hfo : f.Ok U := he.rhs_ok f (by rw [hf]; simp)
    cases hfe : f with
    | var neg nm =>
      subst hfe
      cases neg with
      | true => exact absurd (by rw [hf]; rfl) (he.rhs_head nm)
      | false => exact (opVal_var ρ hfo (hcan.names nm ⟨false, Or.inr (by rw [hf]; simp)⟩)).2
    | lit k =>
      subst hfe
      have hk : k.natAbs < 2 ^ 31 := hfo
      have hk0 : 0 ≤ k := hcan.rhs k (by rw [hf]; rfl)
      rcases hk0.eq_or_lt with rfl | hk0
      · have : parseI32 ('-' :: (Factor.lit 0).text) = some 0 := by decide
        unfold opVal
        rw [this]
        simp [Factor.val]
      · have e : '-' :: (Factor.lit k).text = showInt (-k) := by
          show '-' :: showInt k = _
          rw [showInt_neg (k := -k) (by omega), showInt_nonneg (k := k) (by omega), Int.natAbs_neg]
        unfold opVal
        rw [e, parseI32_showInt (by omega) (by omega)]
        simp [Factor.val]
  unfold Equation.Holds
  rw [List.map_append, List.sum_append, List.map_map, List.map_singleton, List.sum_singleton, List.map_cons, List.prod_cons,
    hh, hr, hf, List.map_cons, List.prod_cons]
  have : e.lhs.map ((fun t => (t.map (opVal ρ)).prod) ∘ List.map Factor.text) =
      e.lhs.map fun t => (t.map (Factor.val ρ)).prod :=
    List.map_congr_left fun t ht => by simp only [Function.comp, hl t ht]
  rw [this, neg_mul, ← sub_eq_add_neg, sub_eq_zero]

/-- Values of the variables of renamed operands. -/
theorem renamed_values {F : Type} [Field F] {σ : List Char → List Char} {A B : List (List (List Char))} (h : Renames F σ A B)
    (hsign : ∀ nm, parseI32 ('-' :: nm) = none → ¬ (nm ∈ B.flatten ∧ '-' :: nm ∈ B.flatten)) (ρ : List Char → F) :
    ∃ ρ' : List Char → F, ∀ a ∈ A.flatten, opVal ρ' (σ a) = opVal ρ a := by
  classical
  let ρ' : List Char → F := fun nm =>
    if h1 : ∃ a ∈ A.flatten, σ a = nm then opVal ρ h1.choose
    else if h2 : ∃ a ∈ A.flatten, σ a = '-' :: nm then -opVal ρ h2.choose else 0
  refine ⟨ρ', fun a ha => ?_⟩
  have hB : ∀ b ∈ A.flatten, σ b ∈ B.flatten := by
    intro b hb
    obtain ⟨t, ht, hbt⟩ := List.mem_flatten.1 hb
    rw [h.form]
    exact List.mem_flatten.2 ⟨t.map σ, List.mem_map_of_mem ht, List.mem_map_of_mem hbt⟩
  have hnum := h.number a ha
  cases hp : parseI32 (σ a) with
  | some k =>
    rw [hp] at hnum
    cases hp' : parseI32 a with
    | none => rw [hp'] at hnum; cases hnum
    | some k' =>
      rw [hp'] at hnum
      simp only [Option.map_some, Option.some.injEq] at hnum
      simp only [opVal, hp, hp', hnum]
  | none =>
    have key : ∀ s, σ a = s → opVal ρ' s = opVal ρ a := by
      intro s hs
      rw [hs] at hp
      unfold opVal
      rw [hp]
      dsimp only
      split
      · next nm =>
        have hno : ¬ ∃ b ∈ A.flatten, σ b = nm := by
          rintro ⟨b, hb, hbn⟩
          exact hsign nm hp ⟨hbn ▸ hB b hb, hs ▸ hB a ha⟩
        have hex : ∃ b ∈ A.flatten, σ b = '-' :: nm := ⟨a, ha, hs⟩
        have hc := hex.choose_spec
        have : hex.choose = a := h.inj _ hc.1 a ha (hc.2.trans hs.symm)
        simp only [ρ']
        rw [dif_neg hno, dif_pos hex, this, neg_neg]
        rfl
      · have hex : ∃ b ∈ A.flatten, σ b = s := ⟨a, ha, hs⟩
        have hc := hex.choose_spec
        have : hex.choose = a := h.inj _ hc.1 a ha (hc.2.trans hs.symm)
        simp only [ρ']
        rw [dif_pos hex, this]
        rfl
    exact key _ rfl

/-- **C110** (positive part): if the second equation uses no variable with both signs (its right-hand side counted with the
minus sign the parser puts in front), then sharing a circuit with a satisfiable equation makes it satisfiable: the confusion of
`C110_unsatisfiable_twin` needs a variable with both signs. -/
theorem C110_one_sign_partial (U : Unicode) (hU : U.Sane) (e e' : Equation) (he : e.Ok U) (he' : e'.Ok U) (hcan : e.Canonical)
    (hcan' : e'.Canonical) (input input' : List Char) (hin : parseString U input = some e.text)
    (hin' : parseString U input' = some e'.text)
    (hsign : ∀ B, operands U e'.text = some B → ∀ nm, parseI32 ('-' :: nm) = none →
      ¬ (nm ∈ B.flatten ∧ '-' :: nm ∈ B.flatten))
    (hsome : (cpiCompiled (F := BlsFr) U input).isSome)
    (htwin : cpiCompiled (F := BlsFr) U input' = cpiCompiled U input)
    (hsat : ∃ ρ : List Char → BlsFr, e.Holds ρ) : ∃ ρ' : List Char → BlsFr, e'.Holds ρ' := by
  obtain ⟨f, fs, -, hA⟩ := operands_text hU he
  obtain ⟨f', fs', -, hB⟩ := operands_text hU he'
  obtain ⟨σ, hσ⟩ := (C110_same_circuit_iff_partial U hin hin' hA hB (operands_noPlus hU he hA) (operands_noPlus hU he' hB)
    hsome).1 htwin
  obtain ⟨ρ, hρ⟩ := hsat
  obtain ⟨ρ', hρ'⟩ := renamed_values hσ (hsign _ hB) ρ
  refine ⟨ρ', (holds_operands hU he' hcan' hB ρ').2 ?_⟩
  rw [← (holds_operands hU he hcan hA ρ).1 hρ]
  conv_lhs => rw [hσ.form]
  rw [List.map_map]
  congr 1
  refine List.map_congr_left fun t ht => ?_
  simp only [Function.comp, List.map_map]
  congr 1
  exact List.map_congr_left fun a ha => hρ' a (List.mem_flatten.2 ⟨t, ht, ha⟩)

/-- Non-vacuity of `C110_one_sign_partial`: `x+1=y` and itself; no variable has both signs. -/
example : ∃ ρ' : List Char → BlsFr, eqSucc.Holds ρ' := by
  have hs : (cpiCompiled (F := BlsFr) asciiTables "x+1=y".toList).isSome := by
    obtain ⟨_, _, _, circuit, cc, d, t, -, -, -, h, -⟩ := C110_unsatisfiable_twin 0
    rw [← loop_same_circuit, h]; rfl
  refine C110_one_sign_partial asciiTables asciiTables_sane eqSucc eqSucc eqSucc_ok eqSucc_ok eqSucc_canonical eqSucc_canonical
    "x+1=y".toList "x+1=y".toList (by decide +kernel) (by decide +kernel) ?_ hs rfl ⟨_, eqSucc_holds 5⟩
  intro B hB nm _ ⟨h1, h2⟩
  have e : eqSucc.text = "x+1=y".toList := by decide +kernel
  rw [e, operandsSucc, Option.some.injEq] at hB
  subst hB
  simp only [List.flatten_cons, List.flatten_nil, List.append_nil, List.cons_append, List.nil_append, List.mem_cons,
    List.not_mem_nil, or_false, List.cons.injEq] at h1 h2
  rcases h2 with h2 | h2 | ⟨-, rfl⟩
  · exact absurd h2.1 (by decide)
  · exact absurd h2.1 (by decide)
  · revert h1; decide

end Verif.Plonk

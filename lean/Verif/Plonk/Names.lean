import Verif.Plonk.Oblivious
import Verif.Plonk.RepoTests

/-!
# Property C104: a witness is used under the name it was registered with — false of the code

`Parser::add_witness` (`plonk/src/parser.rs` lines 81-83) stores the name as it is given, and `parse` (lines 86-90)
looks names up in the *normalised* text, which is lower case.  Besides, `get_witness_value` (lines 309-347) consults the
witnesses before it tries to read an operand as a number.
-/

set_option linter.unusedSectionVars false
set_option linter.unusedVariables false

namespace Verif.Plonk

open Verif.Ark Verif.Kzg

section calls
variable {F : Type} [Field F] [DecidableEq F]

/-- The witnesses of a parser on which `add_witness` was called with these names and values, in this order
(`plonk/src/parser.rs` lines 64-83). -/
def witnessesAfter {F : Type} (adds : List (List Char × F)) : List Char → Option F :=
  adds.foldl (fun w c => addWitness w c.1 c.2) noWitness

/-- Specification: the value given by the last of the calls for the name. -/
def lastValue {F : Type} (adds : List (List Char × F)) (nm : List Char) : Option F :=
  ((adds.filter fun c => c.1 = nm).getLast?).map Prod.snd

theorem witnessesAfter_eq {F : Type} (adds : List (List Char × F)) (nm : List Char) :
    witnessesAfter adds nm = lastValue adds nm := by
  induction adds using List.reverseRecOn with
  | nil => rfl
  | append_singleton l c ih =>
    unfold witnessesAfter lastValue at ih ⊢
    rw [List.foldl_append, List.filter_append]
    simp only [List.foldl_cons, List.foldl_nil]
    conv_lhs => rw [addWitness, Function.update_apply]
    by_cases h : nm = c.1
    · subst h
      simp
    · rw [if_neg h, ih]
      have : (c.1 = nm) = False := by simpa using fun e => h e.symm
      simp [this]

/-- **C104** (the last call wins, the order does not matter): for every text, two sequences of `add_witness` calls whose
last calls agree for every name occurring in the normalised text give the same circuit (or both panic). -/
theorem C104_call_sequences (U : Unicode) (adds adds' : List (List Char × F)) (input : List Char)
    (h : ∀ s, parseString U input = some s → ∀ nm, nm <:+: s → lastValue adds nm = lastValue adds' nm) :
    parse U (witnessesAfter adds) input = parse U (witnessesAfter adds') input :=
  C93_locality U _ _ input fun s hs nm hnm => by rw [witnessesAfter_eq, witnessesAfter_eq]; exact h s hs nm hnm

end calls

section values
variable {F : Type} [FftField F] [DecidableEq F]

/-- **C104**, for names that the text can contain: for every equation, every text that normalises to it and every
sequence of `add_witness` calls whose last call for each variable gives the value `ρ` and none of which names a number,
`parse` returns a circuit that is about the values `ρ`: its gates hold iff the equation holds for `ρ`. -/
theorem C104_registered_values_partial (U : Unicode) (hU : U.Sane) (e : Equation) (he : e.Ok U)
    (adds : List (List Char × F)) (ρ : List Char → F) (hvars : ∀ nm, e.Uses nm → lastValue adds nm = some (ρ nm))
    (hnum : ∀ c ∈ adds, parseI32 c.1 = none) (input : List Char) (hin : parseString U input = some e.text) :
    ∃ calls : List (GateCall F), parse U (witnessesAfter adds) input = some (build calls) ∧
      (∀ call ∈ calls.dropLast, call.Relation call.a.2.2 call.b.2.2 call.c.2.2) ∧
      (∀ n, calls.length ≤ n → WiringOk n calls) ∧ (AllRelations calls ↔ e.Holds ρ) := by
  refine C61_parsed_circuit U hU e he _ ρ ⟨fun nm h => ?_, fun nm v h => ?_⟩ input hin
  · rw [witnessesAfter_eq]; exact hvars nm h
  · rw [witnessesAfter_eq] at h
    unfold lastValue at h
    obtain ⟨c, hc, -⟩ := Option.map_eq_some_iff.1 h
    have := List.mem_filter.1 (List.mem_of_getLast? hc)
    have e1 : c.1 = nm := by simpa using this.2
    rw [← e1]
    exact hnum c this.1

end values

/-! ## Characters of a normalised text -/

/-- A character that a normalised text can contain. -/
def FromText (U : Unicode) (input : List Char) (c : Char) : Prop :=
  (c ∈ U.lower input ∧ c ≠ '^') ∨ c = '*' ∨ c = ' '

theorem mem_starCopies {last c : Char} {k : ℕ} (h : c ∈ starCopies last k) : c = '*' ∨ c = last := by
  unfold starCopies at h
  obtain ⟨l, hl, hc⟩ := List.mem_flatten.1 h
  rw [List.eq_of_mem_replicate hl] at hc
  simpa using hc

theorem normLoop_chars (U : Unicode) (Q : Char → Prop) (hstar : Q '*') (l : List Char) (hl : ∀ c ∈ l, c ≠ '^' → Q c) :
    ∀ (s s' : NormState), (∀ c ∈ s.result, Q c) → Q s.last → normLoop U l s = some s' →
      (∀ c ∈ s'.result, Q c) ∧ Q s'.last := by
  induction l with
  | nil =>
    intro s s' h1 h2 h
    simp only [normLoop, Option.some.injEq] at h
    subst h
    exact ⟨h1, h2⟩
  | cons ch rest ih =>
    intro s s' h1 h2 h
    rw [normLoop, Option.bind_eq_some_iff] at h
    obtain ⟨s1, hs1, h⟩ := h
    refine ih (fun c hc => hl c (by simp [hc])) s1 s' ?_ ?_ h
    all_goals
      unfold normStep at hs1
      split at hs1
      · cases hs1; first | exact h1 | exact h2
      · split at hs1
        · cases hs1; first | exact h1 | exact h2
        · rename_i hne
          have hq : Q ch := hl ch (by simp) hne
          split at hs1
          · split at hs1
            · split at hs1
              · cases hs1
              · obtain ⟨n, -, rfl⟩ := Option.map_eq_some_iff.1 hs1
                first
                  | exact hq
                  | (intro c hc
                     simp only [List.mem_append, List.mem_singleton] at hc
                     rcases hc with (hc | hc) | rfl
                     · exact h1 c hc
                     · rcases mem_starCopies hc with rfl | rfl
                       · exact hstar
                       · exact h2
                     · exact hq)
            · cases hs1
              first
                | exact hq
                | (intro c hc
                   simp only [List.mem_append, List.mem_singleton] at hc
                   rcases hc with hc | rfl
                   · exact h1 c hc
                   · exact hq)
          · split at hs1
            · cases hs1; first | exact h1 | exact h2
            · cases hs1
              first
                | exact hq
                | (intro c hc
                   simp only [List.mem_append, List.mem_singleton] at hc
                   rcases hc with hc | rfl
                   · exact h1 c hc
                   · exact hq)

theorem parseString_chars (U : Unicode) (input s : List Char) (h : parseString U input = some s) :
    ∀ c ∈ s, FromText U input c := by
  unfold parseString at h
  obtain ⟨st, hst, h⟩ := Option.bind_eq_some_iff.1 h
  obtain ⟨h1, h2⟩ := normLoop_chars U (FromText U input) (Or.inr (Or.inl rfl)) _ (fun c hc hne => Or.inl ⟨hc, hne⟩) _ st
    (by simp) (Or.inr (Or.inr rfl)) hst
  unfold normFinish at h
  split at h
  · obtain ⟨n, -, rfl⟩ := Option.map_eq_some_iff.1 h
    intro c hc
    rcases List.mem_append.1 hc with hc | hc
    · exact h1 c hc
    · rcases mem_starCopies hc with rfl | rfl
      · exact Or.inr (Or.inl rfl)
      · exact h2
  · simp only [Option.some.injEq] at h
    subst h
    exact h1

section upper
variable {F : Type} [Field F] [DecidableEq F]

/-- **C104** (false: names with capitals): a witness registered under a name that contains a capital letter (or a `^`)
has no effect, on any text, whatever was registered before: the text is converted to lower case, the name is not. -/
theorem C104_capital_name_ignored (U : Unicode) (hlow : ∀ t, ∀ c ∈ U.lower t, c.isUpper = false)
    (wit : List Char → Option F) (nm : List Char) (hnm : ∃ c ∈ nm, c.isUpper = true ∨ c = '^') (v : F)
    (input : List Char) : parse U (addWitness wit nm v) input = parse U wit input := by
  refine C93_locality U _ _ input fun s hs nm' hin => ?_
  unfold addWitness
  rw [Function.update_of_ne]
  rintro rfl
  obtain ⟨c, hc, hup⟩ := hnm
  have hch := parseString_chars U input s hs c (hin.subset hc)
  rcases hch with ⟨h1, h2⟩ | rfl | rfl
  · rcases hup with hup | hup
    · rw [hlow _ c h1] at hup; cases hup
    · exact h2 hup
  · rcases hup with hup | hup <;> revert hup <;> decide
  · rcases hup with hup | hup <;> revert hup <;> decide

end upper

/-- The ASCII tables meet the hypothesis of `C104_capital_name_ignored`. -/
theorem asciiTables_lower : ∀ t, ∀ c ∈ asciiTables.lower t, c.isUpper = false := by
  intro t c hc
  obtain ⟨d, -, rfl⟩ := List.mem_map.1 hc
  unfold Char.toLower
  split
  · next h =>
    rw [Bool.eq_false_iff]
    intro hu
    simp only [Char.isUpper, ge_iff_le, decide_eq_true_eq, UInt32.le_iff_toNat_le, UInt32.toNat_add,
      UInt32.toNat_sub] at hu h
    have e1 : ('A' : Char).val.toNat = 65 := rfl
    have e2 : ('Z' : Char).val.toNat = 90 := rfl
    have e3 : ('a' : Char).val.toNat = 97 := rfl
    rw [e1, e2] at h hu
    rw [e3] at hu
    omega
  · next h =>
    rw [Bool.eq_false_iff]
    intro hu
    simp only [Char.isUpper, decide_eq_true_eq] at hu
    exact h hu

/-- **C104** (false: the name as written in the text): the witness `X` is registered, the text says `X`, and `parse`
panics; registered next to `x`, it is silently replaced by `x`. -/
theorem C104_capital_name_fails :
    parse asciiTables (witnessesAfter [(['X'], (1 : BlsFr))]) "X*X=1".toList = none ∧
    ∀ v w : BlsFr, parse asciiTables (witnessesAfter [(['x'], v), (['X'], w)]) "X*X=1".toList =
      parse asciiTables (witnessesAfter [(['x'], v)]) "x*x=1".toList := by
  constructor
  · decide +kernel
  · intro v w
    have h1 : parse asciiTables (witnessesAfter [(['x'], v), (['X'], w)]) "X*X=1".toList =
        parse asciiTables (witnessesAfter [(['x'], v)]) "X*X=1".toList :=
      C104_capital_name_ignored asciiTables asciiTables_lower (witnessesAfter [(['x'], v)]) ['X'] ⟨'X', by simp, by decide⟩ w _
    rw [h1]
    have h2 : parseString asciiTables "X*X=1".toList = parseString asciiTables "x*x=1".toList := by decide +kernel
    unfold parse
    rw [h2]

/-- The calls made for `x*x=3` when `x` is registered as `2` and `3` as `4`. -/
def callsThree : List (GateCall BlsFr) :=
  [⟨.multiplication, (1, 0, 2), (0, 0, 2), (0, 1, 4), 0⟩, ⟨.addition, (2, 0, 4), (1, 1, -4), (2, 1, 0), 0⟩]

theorem callsThree_eq : parse asciiTables (witnessesAfter [(['x'], (2 : BlsFr)), (['3'], 4)]) "x*x=3".toList =
    some (build callsThree) := by decide +kernel

/-- **C104** (false: names that are numbers): a witness registered under the name of a number replaces the number
wherever it is written.  With `3` registered as `4` the circuit of `x*x=3` is satisfied by `x = 2`, and contains no
constant at all. -/
theorem C104_number_name_overrides :
    parse asciiTables (witnessesAfter [(['x'], (2 : BlsFr)), (['3'], 4)]) "x*x=3".toList = some (build callsThree) ∧
      AllRelations callsThree ∧ WiringOk 2 callsThree ∧ (∀ call ∈ callsThree, call.ty ≠ .constant) ∧
      (2 : BlsFr) * 2 ≠ 3 := by
  refine ⟨callsThree_eq, ?_, smallWiring 2 _ (by decide +kernel) (by decide +kernel), by decide, by decide +kernel⟩
  intro call hc
  simp only [callsThree, List.mem_cons, List.not_mem_nil, or_false] at hc
  rcases hc with rfl | rfl <;> norm_num [GateCall.Relation]

/-- The calls of the documentation example, with a first value that is overwritten and a name that is never used. -/
def exAdds : List (List Char × BlsFr) := [(['y'], 7), (['x'], 1), (['y'], 2), (['z'], 3), ("Unused".toList, 5)]

theorem exAdds_last (nm : List Char) (h : nm = ['x'] ∨ nm = ['y'] ∨ nm = ['z']) :
    lastValue exAdds nm = some (exRho nm) := by
  rcases h with rfl | rfl | rfl <;> decide +kernel

theorem exEq_uses (nm : List Char) (h : exEq.Uses nm) : nm = ['x'] ∨ nm = ['y'] ∨ nm = ['z'] := by
  obtain ⟨neg, h | h⟩ := h
  · simp only [exEq, List.mem_cons, List.not_mem_nil, or_false, exists_eq_or_imp, exists_eq_left, Factor.var.injEq,
      reduceCtorEq, false_or] at h
    rcases h with (⟨-, rfl⟩ | ⟨-, rfl⟩) | (⟨-, rfl⟩ | ⟨-, rfl⟩) | ⟨-, rfl⟩ | ⟨-, rfl⟩ | ⟨-, rfl⟩ <;> simp
  · simp [exEq] at h

/-- The hypotheses of `C104_registered_values_partial` are met by the documentation example. -/
example : ∃ calls : List (GateCall BlsFr),
    parse asciiTables (witnessesAfter exAdds) "x*y+3*x^2+x*y*z=11".toList = some (build calls) ∧ AllRelations calls := by
  obtain ⟨calls, h, -, -, hiff⟩ := C104_registered_values_partial asciiTables asciiTables_sane exEq exEq_ok exAdds exRho
    (fun nm h => exAdds_last nm (exEq_uses nm h)) (by decide +kernel) _ exEq_text
  exact ⟨calls, h, hiff.2 exEq_holds⟩

/-- The hypothesis of `C104_call_sequences` is met by two different sequences of calls. -/
example : parse asciiTables (witnessesAfter [(['x'], (2 : BlsFr)), (['y'], 5), (['x'], 1)]) "x*y=5".toList =
    parse asciiTables (witnessesAfter [(['x'], (1 : BlsFr)), (['y'], 5)]) "x*y=5".toList := by
  refine C104_call_sequences asciiTables _ _ _ fun s hs nm hnm => ?_
  unfold lastValue
  by_cases h1 : ['x'] = nm
  · subst h1; simp
  · by_cases h2 : ['y'] = nm <;> simp [h1, h2]

/-- **C104** (false: the right-hand side is not split at `+`): with `a` and `b` registered, `x*y=a+b` panics; a witness
registered under the name `a+b` is found. -/
theorem C104_sum_as_name :
    parse asciiTables (witnessesAfter [(['x'], (3 : BlsFr)), (['y'], 1), (['a'], 1), (['b'], 2)]) "x*y=a+b".toList = none ∧
    parse asciiTables (witnessesAfter [(['x'], (3 : BlsFr)), (['y'], 1), (['a', '+', 'b'], 3)]) "x*y=a+b".toList ≠ none := by
  constructor
  · decide +kernel
  · intro h
    have : (parse asciiTables (witnessesAfter [(['x'], (3 : BlsFr)), (['y'], 1), (['a', '+', 'b'], 3)])
      "x*y=a+b".toList).isSome = true := by decide +kernel
    rw [h] at this
    cases this

end Verif.Plonk

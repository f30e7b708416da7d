import Verif.Plonk.Normalise
import Verif.Plonk.Wiring

/-!
# Meaning of wire expressions, and what `prepare_gen_circuit` leaves in its gate list
-/

set_option linter.unusedSectionVars false
set_option linter.unusedSimpArgs false
set_option linter.unusedVariables false

namespace Verif.Plonk

open Verif.Ark

/-! ## Splitting and trimming -/

theorem mem_splitOn {c : Char} {s p : List Char} (h : p ∈ s.splitOn c) : ∀ x ∈ p, x ∈ s ∧ x ≠ c := by
  induction s generalizing p with
  | nil =>
    simp only [List.splitOn_nil, List.mem_singleton] at h
    subst h
    simp
  | cons a s ih =>
    rw [List.splitOn_cons_eq_if_modifyHead] at h
    split at h
    · rcases List.mem_cons.1 h with rfl | h
      · simp
      · exact fun x hx => ⟨List.mem_cons_of_mem _ (ih h x hx).1, (ih h x hx).2⟩
    · rename_i hne
      cases hs : s.splitOn c with
      | nil => exact absurd hs (List.splitOn_ne_nil _ _)
      | cons q qs =>
        rw [hs, List.modifyHead_cons] at h
        rcases List.mem_cons.1 h with rfl | h
        · intro x hx
          rcases List.mem_cons.1 hx with rfl | hx
          · exact ⟨by simp, by simpa using hne⟩
          · have := ih (by rw [hs]; simp) x hx
            exact ⟨List.mem_cons_of_mem _ this.1, this.2⟩
        · intro x hx
          have := ih (by rw [hs]; simp [h]) x hx
          exact ⟨List.mem_cons_of_mem _ this.1, this.2⟩

theorem length_splitOn (c : Char) (s : List Char) : (s.splitOn c).length = s.count c + 1 := by
  induction s with
  | nil => simp
  | cons a s ih =>
    rw [List.splitOn_cons_eq_if_modifyHead, List.count_cons]
    split
    · rw [List.length_cons, ih]
    · rw [List.length_modifyHead, ih]

theorem mem_trim {U : Unicode} {s : List Char} {x : Char} (h : x ∈ trim U s) : x ∈ s := by
  unfold trim at h
  rw [List.mem_reverse] at h
  have h1 := (List.dropWhile_sublist _).subset h
  rw [List.mem_reverse] at h1
  exact (List.dropWhile_sublist _).subset h1

theorem trim_cons {U : Unicode} {c : Char} (hc : U.isWhitespace c = false) (s : List Char) :
    ∃ s', trim U (c :: s) = c :: s' := by
  unfold trim
  rw [List.dropWhile_cons_of_neg (by simp [hc]), List.reverse_cons]
  rw [List.dropWhile_append]
  split
  · rw [List.dropWhile_cons_of_neg (by simp [hc])]
    exact ⟨[], by simp⟩
  · exact ⟨(List.dropWhile U.isWhitespace s.reverse).reverse, by simp⟩

theorem trim_id {U : Unicode} {s : List Char} (h : ∀ c ∈ s, U.isWhitespace c = false) : trim U s = s := by
  have key : ∀ t : List Char, (∀ c ∈ t, U.isWhitespace c = false) → t.dropWhile U.isWhitespace = t := by
    intro t ht
    cases t with
    | nil => rfl
    | cons a t => rw [List.dropWhile_cons_of_neg (by simp [ht a (by simp)])]
  unfold trim
  rw [key s h, key _ (fun c hc => h c (List.mem_reverse.1 hc)), List.reverse_reverse]

/-! ## Meaning of operands and wire expressions -/

/-- An operand without its minus sign. -/
def tokBody : List Char → List Char
  | '-' :: rest => rest
  | t => t

/-- The operand starts with a minus sign. -/
def tokNeg : List Char → Bool
  | '-' :: _ => true
  | _ => false

/-- An operand the parser can resolve: not empty, starting with a one-byte character, and a witness name or
an `i32` literal after an optional minus sign. -/
def OperandOk {F : Type} (wit : List Char → Option F) (tok : List Char) : Prop :=
  (∃ c ∈ tok.head?, c.toNat < 128) ∧ ((wit (tokBody tok)).isSome ∨ (parseI32 (tokBody tok)).isSome)

theorem tokBody_cons (c : Char) (rest : List Char) :
    tokBody (c :: rest) = if c = '-' then rest else c :: rest := by
  by_cases h : c = '-'
  · subst h; rfl
  · rw [if_neg h]
    unfold tokBody
    split
    · rename_i heq
      simp only [List.cons.injEq] at heq
      exact absurd heq.1 h
    · rfl

theorem tokNeg_cons (c : Char) (rest : List Char) : tokNeg (c :: rest) = decide (c = '-') := by
  by_cases h : c = '-'
  · subst h; rfl
  · unfold tokNeg
    split
    · rename_i heq
      simp only [List.cons.injEq] at heq
      exact absurd heq.1 h
    · simp [h]

section sem
variable {F : Type} [Field F] [DecidableEq F]

/-- Value of an operand body. -/
def bodyVal (wit : List Char → Option F) (body : List Char) : F :=
  match wit body with
  | some v => v
  | none =>
    match parseI32 body with
    | some k => (k : F)
    | none => 0

/-- Value of an operand. -/
def tokVal (wit : List Char → Option F) (tok : List Char) : F :=
  if tokNeg tok then -(bodyVal wit (tokBody tok)) else bodyVal wit (tokBody tok)

/-- Value of a wire expression: sum of products of operands. -/
def exprVal (wit : List Char → Option F) (name : List Char) : F :=
  ((name.splitOn '+').map fun t => ((t.splitOn '*').map (tokVal wit)).prod).sum

theorem exprVal_token (wit : List Char → Option F) {s : List Char} (h1 : '+' ∉ s) (h2 : '*' ∉ s) :
    exprVal wit s = tokVal wit s := by
  simp [exprVal, List.splitOn_eq_singleton h1, List.splitOn_eq_singleton h2]

theorem exprVal_add (wit : List Char → Option F) (l r : List Char) :
    exprVal wit (l ++ '+' :: r) = exprVal wit l + exprVal wit r := by
  simp [exprVal, List.splitOn_append_cons_self]

theorem exprVal_mul (wit : List Char → Option F) {l r : List Char} (hl : '+' ∉ l) (hr : '+' ∉ r) :
    exprVal wit (l ++ '*' :: r) = exprVal wit l * exprVal wit r := by
  have h : '+' ∉ l ++ '*' :: r := by simp [hl, hr]
  simp [exprVal, List.splitOn_eq_singleton h, List.splitOn_eq_singleton hl, List.splitOn_eq_singleton hr,
    List.splitOn_append_cons_self]

/-- The wire made for a constant: lines 327-335 of `plonk/src/parser.rs`. -/
def constWire (neg : Bool) (k : ℤ) : Wire F :=
  if neg then ⟨'-' :: showInt k, -(k : F)⟩ else ⟨showInt k, (k : F)⟩

/-- `get_witness_value` on an operand. -/
theorem getWitnessValue_eq (wit : List Char → Option F) (tok : List Char) (st : PState F) :
    (¬ OperandOk wit tok → getWitnessValue wit tok st = none) ∧
    (OperandOk wit tok → getWitnessValue wit tok st = some (tokVal wit tok,
      match wit (tokBody tok) with
      | some _ => st
      | none => match parseI32 (tokBody tok) with
        | some k => generateConstantGate st (constWire (tokNeg tok) k)
        | none => st)) := by
  cases tok with
  | nil => simp [OperandOk, getWitnessValue]
  | cons c rest =>
    unfold getWitnessValue
    dsimp only
    by_cases hc : 128 ≤ c.toNat
    · rw [if_pos hc]
      have : ¬ OperandOk wit (c :: rest) := by
        rintro ⟨⟨c', h1, h2⟩, -⟩
        simp only [List.head?_cons, Option.mem_def, Option.some.injEq] at h1
        subst h1
        omega
      exact ⟨fun _ => rfl, fun h => absurd h this⟩
    · rw [if_neg hc]
      have hbody : (if decide (c = '-') = true then rest else c :: rest) = tokBody (c :: rest) := by
        rw [tokBody_cons]
        by_cases h : c = '-' <;> simp [h]
      rw [hbody]
      unfold tokVal bodyVal
      have hneg := tokNeg_cons c rest
      have hok : OperandOk wit (c :: rest) ↔
          ((wit (tokBody (c :: rest))).isSome ∨ (parseI32 (tokBody (c :: rest))).isSome) := by
        unfold OperandOk
        simp only [List.head?_cons, Option.mem_def, Option.some.injEq, exists_eq_left', and_iff_right_iff_imp]
        intro _; omega
      rw [hok, hneg]
      cases hw : wit (tokBody (c :: rest)) with
      | some v => simp
      | none =>
        cases hp : parseI32 (tokBody (c :: rest)) with
        | none => simp
        | some k =>
          simp only [Option.isSome_none, Bool.false_eq_true, Option.isSome_some, or_true, not_true, false_imp_iff,
            true_and, Option.map_some, Option.some.injEq, Prod.mk.injEq, constWire, forall_const]

/-! ## Success of the parser -/

theorem tokenWires_isSome (U : Unicode) (wit : List Char → Option F) (toks : List (List Char)) (st : PState F) :
    (tokenWires U wit toks st).isSome ↔ ∀ t ∈ toks, OperandOk wit (trim U t) := by
  induction toks generalizing st with
  | nil => simp [tokenWires]
  | cons s rest ih =>
    by_cases h : OperandOk wit (trim U s)
    · simp only [tokenWires, (getWitnessValue_eq wit (trim U s) st).2 h, Option.bind_eq_bind, Option.bind_some,
        Option.isSome_bind, Option.pure_def, List.mem_cons, forall_eq_or_imp, h, true_and]
      rw [← ih (match wit (tokBody (trim U s)) with
          | some val => st
          | none =>
            match parseI32 (tokBody (trim U s)) with
            | some k => generateConstantGate st (constWire (tokNeg (trim U s)) k)
            | none => st)]
      simp [Option.isSome_iff_exists, Option.any_eq_true]
    · simp [tokenWires, (getWitnessValue_eq wit (trim U s) st).1 h, h]

theorem tokenWires_length (U : Unicode) {wit : List Char → Option F} (toks : List (List Char)) {st : PState F}
    {r : List (Wire F) × PState F} (h : tokenWires U wit toks st = some r) :
    r.1 = toks.map (fun s => (⟨trim U s, tokVal wit (trim U s)⟩ : Wire F)) := by
  induction toks generalizing st r with
  | nil => simp only [tokenWires, Option.some.injEq] at h; subst h; rfl
  | cons s rest ih =>
    simp only [tokenWires, Option.bind_eq_bind, Option.bind_eq_some_iff, Option.pure_def, Option.some.injEq] at h
    obtain ⟨a, ha, b, hb, rfl⟩ := h
    by_cases hok : OperandOk wit (trim U s)
    · rw [(getWitnessValue_eq wit (trim U s) st).2 hok, Option.some.injEq] at ha
      subst ha
      rw [List.map_cons, ← ih (r := b) hb]
    · rw [(getWitnessValue_eq wit (trim U s) st).1 hok] at ha
      cases ha

theorem termWire_isSome (U : Unicode) (wit : List Char → Option F) (t : List Char) (st : PState F) :
    (termWire U wit t st).isSome ↔ ∀ tok ∈ t.splitOn '*', OperandOk wit (trim U tok) := by
  rw [← tokenWires_isSome U wit _ st]
  unfold termWire
  cases h : tokenWires U wit (t.splitOn '*') st with
  | none => simp
  | some r =>
    have := tokenWires_length U _ h
    cases hs : t.splitOn '*' with
    | nil => exact absurd hs (List.splitOn_ne_nil _ _)
    | cons a l =>
      rw [hs, List.map_cons] at this
      simp [this]

theorem addReduce_isSome (U : Unicode) (wit : List Char → Option F) (ts : List (List Char)) (w : Wire F)
    (st : PState F) :
    (addReduce U wit ts w st).isSome ↔ ∀ t ∈ ts, ∀ tok ∈ t.splitOn '*', OperandOk wit (trim U tok) := by
  induction ts generalizing w st with
  | nil => simp [addReduce]
  | cons t ts ih =>
    simp only [addReduce, Option.bind_eq_bind, List.mem_cons, forall_eq_or_imp]
    rw [← termWire_isSome U wit t st]
    cases h : termWire U wit t st with
    | none => simp
    | some r => simp [ih]

theorem addReduce_gates_ne_nil (U : Unicode) {wit : List Char → Option F} (ts : List (List Char)) (w : Wire F)
    {st : PState F} {r : Wire F × PState F} (h : addReduce U wit ts w st = some r) (hts : ts ≠ [] ∨ st.gates ≠ [])
    (hset : st.SetOk) : r.2.gates ≠ [] := by
  have hI : ∀ (st : PState F) (g : PGate F), (st.gates ≠ [] ∧ st.SetOk) →
      ((st.insertGate g).gates ≠ [] ∧ (st.insertGate g).SetOk) := by
    intro st g hst
    exact ⟨fun e => hst.1 (List.prefix_nil.1 (e ▸ insertGate_prefix st g)), hst.2.insertGate g⟩
  cases ts with
  | nil =>
    simp only [addReduce, Option.some.injEq] at h
    subst h
    simpa using hts
  | cons t ts =>
    simp only [addReduce, Option.bind_eq_bind, Option.bind_eq_some_iff] at h
    obtain ⟨a, ha, h⟩ := h
    have hset' := termWire_inv (I := PState.SetOk) (fun st g hst => hst.insertGate g) U _ ha hset
    refine (addReduce_inv (I := fun st => st.gates ≠ [] ∧ st.SetOk) hI U ts h ⟨?_, ?_⟩).1
    · intro e
      have := insertGate_mem hset' ⟨w, a.1, ⟨w.name ++ '+' :: a.1.name, w.val + a.1.val⟩, .addition⟩
      unfold generateAdditionalGate at e
      dsimp only at e
      rw [e] at this
      cases this
    · exact hset'.insertGate _

theorem splitTerms_eq_some (s : List Char) (terms : List (List Char)) :
    splitTerms s = some terms ↔ ∃ lhs rhs, s = lhs ++ '=' :: rhs ∧ '=' ∉ lhs ∧ '=' ∉ rhs ∧
      terms = lhs.splitOn '+' ++ ['-' :: rhs] := by
  unfold splitTerms
  constructor
  · intro h
    split at h
    · rename_i lhs rhs heq
      simp only [Option.some.injEq] at h
      have hI := List.intercalate_splitOn (xs := s) '='
      rw [heq] at hI
      refine ⟨lhs, rhs, by rw [← hI]; simp [List.intercalate], ?_, ?_, h.symm⟩
      · exact fun hm => (mem_splitOn (heq ▸ List.mem_cons_self) _ hm).2 rfl
      · exact fun hm => (mem_splitOn (heq ▸ List.mem_cons_of_mem _ List.mem_cons_self) _ hm).2 rfl
    · cases h
  · rintro ⟨lhs, rhs, rfl, h1, h2, rfl⟩
    rw [List.splitOn_append_cons_self, List.splitOn_eq_singleton h1, List.splitOn_eq_singleton h2]
    rfl

theorem prepare_isSome (U : Unicode) (wit : List Char → Option F) (s : List Char) :
    (prepareGenCircuit U wit s).isSome ↔ ∃ terms, splitTerms s = some terms ∧
      ∀ t ∈ terms, ∀ tok ∈ t.splitOn '*', OperandOk wit (trim U tok) := by
  unfold prepareGenCircuit
  cases hs : splitTerms s with
  | none => simp
  | some terms =>
    obtain ⟨lhs, rhs, -, -, -, hterms⟩ := (splitTerms_eq_some s terms).1 hs
    obtain ⟨t, ts, rfl, hts⟩ : ∃ t ts, terms = t :: ts ∧ ts ≠ [] := by
      cases hl : lhs.splitOn '+' with
      | nil => exact absurd hl (List.splitOn_ne_nil _ _)
      | cons a l => exact ⟨a, l ++ ['-' :: rhs], by rw [hterms, hl]; rfl, by simp⟩
    simp only [Option.bind_eq_bind, Option.bind_some, Option.some.injEq, exists_eq_left', List.mem_cons,
      forall_eq_or_imp]
    rw [← termWire_isSome U wit t ⟨[], [], fun _ => []⟩]
    cases h1 : termWire U wit t ⟨[], [], fun _ => []⟩ with
    | none => simp
    | some r =>
      rw [Option.bind_some, ← addReduce_isSome U wit ts r.1 r.2]
      cases h2 : addReduce U wit ts r.1 r.2 with
      | none => simp
      | some q =>
        have hset := termWire_inv (I := PState.SetOk) (fun st g hst => hst.insertGate g) U _ h1
          (by intro g hg; cases hg)
        have hne := addReduce_gates_ne_nil U ts r.1 h2 (Or.inl hts) hset
        simp [zeroLast, List.getLast?_eq_some_getLast hne]

theorem parse_isSome (U : Unicode) (wit : List Char → Option F) (input : List Char) :
    (parse U wit input).isSome ↔ ∃ s terms, parseString U input = some s ∧ splitTerms s = some terms ∧
      ∀ t ∈ terms, ∀ tok ∈ t.splitOn '*', OperandOk wit (trim U tok) := by
  unfold parse
  cases hs : parseString U input with
  | none => simp
  | some s =>
    simp only [Option.bind_eq_bind, Option.bind_some, Option.some.injEq, exists_and_left, exists_eq_left']
    rw [← prepare_isSome]
    cases hp : prepareGenCircuit U wit s with
    | none => simp
    | some r => simp [genCircuit_eq r.1 r.2 (prepare_pm hp)]

end sem

/-! ## C65 -/

section C65
variable {F : Type} [Field F] [DecidableEq F]

/-- **C65**: `parse` panics unless the normalised input contains exactly one `=`. -/
theorem C65_one_equals_sign (U : Unicode) (wit : List Char → Option F) (input s : List Char)
    (hs : parseString U input = some s) (h : s.count '=' ≠ 1) : parse U wit input = none := by
  rw [← Option.not_isSome_iff_eq_none, parse_isSome]
  rintro ⟨s', terms, h1, h2, -⟩
  rw [hs, Option.some.injEq] at h1
  subst h1
  obtain ⟨lhs, rhs, rfl, h3, h4, -⟩ := (splitTerms_eq_some _ _).1 h2
  apply h
  rw [List.count_append, List.count_cons_self, List.count_eq_zero.2 h3, List.count_eq_zero.2 h4]

/-! ### Specification of operands -/

/-- The value of a decimal digit string. -/
def decimal (ds : List Char) : ℕ := ds.foldl (fun v c => 10 * v + (c.toNat - '0'.toNat)) 0

/-- `s` is the text of the 32-bit number `k`: an optional sign, at least one decimal digit, nothing else. -/
def Literal (s : List Char) (k : ℤ) : Prop :=
  ∃ ds : List Char, ds ≠ [] ∧ (∀ c ∈ ds, c ∈ ['0', '1', '2', '3', '4', '5', '6', '7', '8', '9']) ∧
    (((s = ds ∨ s = '+' :: ds) ∧ k = decimal ds) ∨ (s = '-' :: ds ∧ k = -decimal ds)) ∧ -2147483648 ≤ k ∧ k ≤ 2147483647

/-- `t` is `s` without the white space at its ends. -/
def Trimmed (U : Unicode) (s t : List Char) : Prop :=
  ∃ a b, s = a ++ t ++ b ∧ (∀ c ∈ a, U.isWhitespace c = true) ∧ (∀ c ∈ b, U.isWhitespace c = true) ∧
    (∀ c ∈ t.head?, U.isWhitespace c = false) ∧ (∀ c ∈ t.getLast?, U.isWhitespace c = false)

/-- The operand `t` can be resolved: it starts with a one-byte character, and it is, up to one minus sign in front, the
name of a witness or the text of a number. -/
def Resolvable {F : Type} (wit : List Char → Option F) (t : List Char) : Prop :=
  ∃ c rest, t = c :: rest ∧ c.toNat < 128 ∧
    ((c = '-' ∧ ((∃ v, wit rest = some v) ∨ ∃ k, Literal rest k)) ∨
     (c ≠ '-' ∧ ((∃ v, wit t = some v) ∨ ∃ k, Literal t k)))

theorem isAsciiDigit_iff (c : Char) :
    isAsciiDigit c = true ↔ c ∈ ['0', '1', '2', '3', '4', '5', '6', '7', '8', '9'] := by
  constructor
  · intro h
    simp only [isAsciiDigit, Bool.and_eq_true, decide_eq_true_eq] at h
    have h1 : 48 ≤ c.toNat := h.1
    have h2 : c.toNat ≤ 57 := h.2
    have e : c = Char.ofNat c.toNat := (Char.ofNat_toNat c).symm
    rw [e]
    generalize c.toNat = n at h1 h2
    interval_cases n <;> decide
  · intro h
    simp only [List.mem_cons, List.not_mem_nil, or_false] at h
    rcases h with rfl | rfl | rfl | rfl | rfl | rfl | rfl | rfl | rfl | rfl <;> rfl

theorem ofDigitChars_eq (ds : List Char) : Nat.ofDigitChars 10 ds 0 = decimal ds := rfl

theorem parseDigits_iff (neg : Bool) (ds : List Char) (k : ℤ) :
    parseDigits neg ds = some k ↔
      ds ≠ [] ∧ (∀ c ∈ ds, c ∈ ['0', '1', '2', '3', '4', '5', '6', '7', '8', '9']) ∧
        k = (if neg then -(decimal ds : ℤ) else decimal ds) ∧ -2147483648 ≤ k ∧ k ≤ 2147483647 := by
  unfold parseDigits
  simp only [← isAsciiDigit_iff, List.all_eq_true]
  by_cases h : ds ≠ [] ∧ ∀ c ∈ ds, isAsciiDigit c = true
  · rw [if_pos h]
    change (if -2 ^ 31 ≤ (if neg then -(decimal ds : ℤ) else (decimal ds : ℤ)) ∧
      (if neg then -(decimal ds : ℤ) else (decimal ds : ℤ)) < 2 ^ 31 then
      some (if neg then -(decimal ds : ℤ) else (decimal ds : ℤ)) else none) = some k ↔ _
    generalize (if neg then -(decimal ds : ℤ) else (decimal ds : ℤ)) = v
    by_cases hr : -2 ^ 31 ≤ v ∧ v < 2 ^ 31
    · rw [if_pos hr, Option.some.injEq]
      constructor
      · rintro rfl
        exact ⟨h.1, h.2, rfl, by omega, by omega⟩
      · rintro ⟨-, -, rfl, -⟩; rfl
    · rw [if_neg hr]
      constructor
      · intro h'; cases h'
      · rintro ⟨-, -, rfl, h1, h2⟩
        exact absurd ⟨by omega, by omega⟩ hr
  · rw [if_neg h]
    constructor
    · intro h'; cases h'
    · rintro ⟨h1, h2, -⟩; exact absurd ⟨h1, h2⟩ h

/-- `str::parse::<i32>` accepts exactly the texts of 32-bit numbers. -/
theorem parseI32_iff (s : List Char) (k : ℤ) : parseI32 s = some k ↔ Literal s k := by
  have hdig : ∀ {c : Char} {ds : List Char},
      (∀ x ∈ c :: ds, x ∈ ['0', '1', '2', '3', '4', '5', '6', '7', '8', '9']) → c ≠ '-' ∧ c ≠ '+' := by
    intro c ds h
    have := h c (by simp)
    constructor <;> (rintro rfl; revert this; decide)
  unfold Literal
  constructor
  · intro h
    unfold parseI32 at h
    split at h
    · next ds =>
      obtain ⟨h1, h2, h3, h4⟩ := (parseDigits_iff _ _ _).1 h
      exact ⟨ds, h1, h2, Or.inr ⟨rfl, h3⟩, h4⟩
    · next ds =>
      obtain ⟨h1, h2, h3, h4⟩ := (parseDigits_iff _ _ _).1 h
      exact ⟨ds, h1, h2, Or.inl ⟨Or.inr rfl, h3⟩, h4⟩
    · obtain ⟨h1, h2, h3, h4⟩ := (parseDigits_iff _ _ _).1 h
      exact ⟨_, h1, h2, Or.inl ⟨Or.inl rfl, h3⟩, h4⟩
  · rintro ⟨ds, h1, h2, (⟨rfl | rfl, h3⟩ | ⟨rfl, h3⟩), h4⟩
    · have := (parseDigits_iff false s k).2 ⟨h1, h2, h3, h4⟩
      cases s with
      | nil => exact absurd rfl h1
      | cons c ds =>
        obtain ⟨n1, n2⟩ := hdig h2
        unfold parseI32
        split
        · next e => rw [List.cons.injEq] at e; exact absurd e.1 n1
        · next e => rw [List.cons.injEq] at e; exact absurd e.1 n2
        · exact this
    · exact (parseDigits_iff false ds k).2 ⟨h1, h2, h3, h4⟩
    · exact (parseDigits_iff true ds k).2 ⟨h1, h2, h3, h4⟩

theorem dropWhile_spec (p : Char → Bool) (s : List Char) :
    ∃ a, s = a ++ s.dropWhile p ∧ (∀ c ∈ a, p c = true) ∧ ∀ c ∈ (s.dropWhile p).head?, p c = false := by
  refine ⟨s.takeWhile p, List.takeWhile_append_dropWhile.symm, ?_, ?_⟩
  · intro c hc
    exact (List.all_eq_true.1 (List.all_takeWhile (p := p) (l := s))) c hc
  intro c hc
  have := List.head?_dropWhile_not p s
  rw [Option.mem_def] at hc
  rw [hc] at this
  simpa using this

theorem dropWhile_all_append (p : Char → Bool) {a t : List Char} (ha : ∀ c ∈ a, p c = true)
    (ht : ∀ c ∈ t.head?, p c = false) : (a ++ t).dropWhile p = t := by
  induction a with
  | nil =>
    cases t with
    | nil => rfl
    | cons c t => exact List.dropWhile_cons_of_neg (by simp [ht c (by simp)])
  | cons c a ih =>
    rw [List.cons_append, List.dropWhile_cons_of_pos (ha c (by simp))]
    exact ih fun c hc => ha c (by simp [hc])

/-- `str::trim` removes the white space at both ends and nothing else. -/
theorem trim_iff (U : Unicode) (s t : List Char) : trim U s = t ↔ Trimmed U s t := by
  constructor
  · rintro rfl
    unfold trim
    obtain ⟨a, h1, h2, h3⟩ := dropWhile_spec U.isWhitespace s
    set m := s.dropWhile U.isWhitespace
    obtain ⟨b, h4, h5, h6⟩ := dropWhile_spec U.isWhitespace m.reverse
    set r := m.reverse.dropWhile U.isWhitespace
    have hm : m = r.reverse ++ b.reverse := by
      rw [← List.reverse_append, ← h4, List.reverse_reverse]
    refine ⟨a, b.reverse, ?_, h2, fun c hc => h5 c (List.mem_reverse.1 hc), ?_, ?_⟩
    · rw [List.append_assoc, ← hm]; exact h1
    · intro c hc
      apply h3 c
      rw [hm]
      cases hr : r.reverse with
      | nil => rw [hr] at hc; cases hc
      | cons x xs => rw [hr] at hc; exact hc
    · intro c hc
      rw [List.getLast?_reverse] at hc
      exact h6 c hc
  · rintro ⟨a, b, rfl, ha, hb, hh, hl⟩
    unfold trim
    rcases List.eq_nil_or_concat t with rfl | ⟨t', x, rfl⟩
    · have e : ∀ c ∈ a ++ [] ++ b, U.isWhitespace c = true := by
        intro c hc
        rw [List.append_nil, List.mem_append] at hc
        exact hc.elim (ha c) (hb c)
      have : (a ++ [] ++ b).dropWhile U.isWhitespace = [] := by
        have := dropWhile_all_append U.isWhitespace e (t := []) (by simp)
        rwa [List.append_nil] at this
      rw [this]; rfl
    · rw [List.append_assoc, dropWhile_all_append _ ha, List.reverse_append, dropWhile_all_append, List.reverse_reverse]
      · intro c hc; exact hb c (List.mem_reverse.1 hc)
      · intro c hc
        rw [List.head?_reverse] at hc
        exact hl c hc
      · intro c hc
        apply hh c
        cases h : t'.concat x with
        | nil => simp at h
        | cons y ys => rw [h] at hc; exact hc

theorem operandOk_iff {wit : List Char → Option F} (t : List Char) : OperandOk wit t ↔ Resolvable wit t := by
  unfold OperandOk Resolvable
  cases t with
  | nil => simp
  | cons c rest =>
    rw [tokBody_cons]
    have hex : ∀ s, (parseI32 s).isSome ↔ ∃ k, Literal s k := by
      intro s
      rw [Option.isSome_iff_exists]
      exact exists_congr fun k => parseI32_iff s k
    constructor
    · rintro ⟨⟨c', hc', hlt⟩, h⟩
      rw [List.head?_cons, Option.mem_some_iff] at hc'
      subst hc'
      refine ⟨c, rest, rfl, hlt, ?_⟩
      by_cases hm : c = '-'
      · rw [if_pos hm, Option.isSome_iff_exists, hex] at h
        exact Or.inl ⟨hm, h⟩
      · rw [if_neg hm, Option.isSome_iff_exists, hex] at h
        exact Or.inr ⟨hm, h⟩
    · rintro ⟨c', rest', e, hlt, h⟩
      rw [List.cons.injEq] at e
      obtain ⟨rfl, rfl⟩ := e
      refine ⟨⟨c, rfl, hlt⟩, ?_⟩
      rcases h with ⟨hm, h⟩ | ⟨hm, h⟩
      · rw [if_pos hm, Option.isSome_iff_exists, hex]; exact h
      · rw [if_neg hm, Option.isSome_iff_exists, hex]; exact h

/-- **C65**: `parse` panics if an operand (a piece between `+`, `*` and `=`, without the white space around it, where
the right-hand side is one summand with a minus sign in front) is empty, does not start with a one-byte character, or
is neither a witness name nor the text of a 32-bit number after dropping one minus sign. -/
theorem C65_unknown_operand (U : Unicode) (wit : List Char → Option F) (input lhs rhs : List Char)
    (hs : parseString U input = some (lhs ++ '=' :: rhs)) (hl : '=' ∉ lhs) (hr : '=' ∉ rhs)
    (t tok op : List Char) (ht : t ∈ lhs.splitOn '+' ∨ t = '-' :: rhs) (htok : tok ∈ t.splitOn '*')
    (hop : Trimmed U tok op) (hbad : ¬ Resolvable wit op) : parse U wit input = none := by
  rw [← Option.not_isSome_iff_eq_none, parse_isSome]
  rintro ⟨s', terms, h1, h2, h3⟩
  rw [hs, Option.some.injEq] at h1
  rw [← h1, (splitTerms_eq_some _ _).2 ⟨lhs, rhs, rfl, hl, hr, rfl⟩, Option.some.injEq] at h2
  subst h2
  have := h3 t (by simpa using ht) tok htok
  rw [(trim_iff U tok op).2 hop, operandOk_iff] at this
  exact hbad this

/-- **C65** (exactly these inputs are rejected): `parse` returns a circuit iff normalisation succeeds, there is
exactly one `=`, and every operand, without the white space around it, can be resolved. -/
theorem C65_accepts_iff (U : Unicode) (wit : List Char → Option F) (input : List Char) :
    (parse U wit input).isSome ↔ ∃ lhs rhs, parseString U input = some (lhs ++ '=' :: rhs) ∧ '=' ∉ lhs ∧ '=' ∉ rhs ∧
      ∀ t, (t ∈ lhs.splitOn '+' ∨ t = '-' :: rhs) → ∀ tok ∈ t.splitOn '*', ∃ op, Trimmed U tok op ∧ Resolvable wit op := by
  rw [parse_isSome]
  have key : ∀ tok, OperandOk wit (trim U tok) ↔ ∃ op, Trimmed U tok op ∧ Resolvable wit op := by
    intro tok
    constructor
    · intro h; exact ⟨_, (trim_iff U tok _).1 rfl, (operandOk_iff _).1 h⟩
    · rintro ⟨op, h1, h2⟩
      rw [(trim_iff U tok op).2 h1]; exact (operandOk_iff _).2 h2
  constructor
  · rintro ⟨s, terms, h1, h2, h3⟩
    obtain ⟨lhs, rhs, rfl, h4, h5, rfl⟩ := (splitTerms_eq_some _ _).1 h2
    exact ⟨lhs, rhs, h1, h4, h5, fun t ht tok htok => (key tok).1 (h3 t (by simpa using ht) tok htok)⟩
  · rintro ⟨lhs, rhs, h1, h4, h5, h6⟩
    exact ⟨_, _, h1, (splitTerms_eq_some _ _).2 ⟨lhs, rhs, rfl, h4, h5, rfl⟩, fun t ht tok htok =>
      (key tok).2 (h6 t (by simpa using ht) tok htok)⟩

/-- Non-vacuity: an accepted equation, an unknown operand, two equals signs. -/
example : (parse asciiTables exWit "x*y+-3*x=11".toList).isSome = true ∧
    parse asciiTables exWit "x*y+a=11".toList = none ∧ parse asciiTables exWit "x=y=1".toList = none := by
  refine ⟨by decide +kernel, ?_, ?_⟩ <;>
  · rw [← Option.isNone_iff_eq_none]
    decide +kernel

end C65

end Verif.Plonk

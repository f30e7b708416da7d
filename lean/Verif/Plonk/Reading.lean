import Verif.Plonk.EndToEnd
import Verif.Plonk.ForgeryRun

/-!
# Property C95: every text the parser accepts means what it says

C61 starts from an equation and its canonical text.  Here the texts are arbitrary: whatever the parser accepts
is read by a separate specification of sums, products, names and numbers, and the parsed circuit is about that
reading.
-/

set_option linter.unusedSectionVars false
set_option linter.unusedSimpArgs false
set_option linter.unusedVariables false

namespace Verif.Plonk

open Verif.Ark Verif.Kzg

/-! ## Specification: the reading of a text -/

/-- Witness names as users write them: not empty, not starting with a digit or a sign, without white space. -/
def PlainNames {F : Type} (U : Unicode) (wit : List Char → Option F) : Prop :=
  ∀ nm v, wit nm = some v →
    (∃ c rest, nm = c :: rest ∧ c ∉ ['+', '-', '0', '1', '2', '3', '4', '5', '6', '7', '8', '9']) ∧
    ∀ c ∈ nm, U.isWhitespace c = false

section spec
variable {F : Type} [Field F]

/-- The operand `t` denotes `v`: it is a witness name or a number, or one of these after a minus sign. -/
def Denotes (wit : List Char → Option F) (t : List Char) (v : F) : Prop :=
  wit t = some v ∨ (∃ k : ℤ, Literal t k ∧ v = k) ∨
    ∃ rest, t = '-' :: rest ∧ ((∃ u, wit rest = some u ∧ v = -u) ∨ ∃ k : ℤ, Literal rest k ∧ v = -k)

/-- A product denotes the product of the values of the operands between its `*` signs, white space around them
ignored. -/
def ProductDenotes (U : Unicode) (wit : List Char → Option F) (t : List Char) (v : F) : Prop :=
  ∃ vs : List F, List.Forall₂ (fun tok u => ∃ op, Trimmed U tok op ∧ Denotes wit op u) (t.splitOn '*') vs ∧
    v = vs.prod

/-- A sum denotes the sum of the values of the products between its `+` signs. -/
def SumDenotes (U : Unicode) (wit : List Char → Option F) (s : List Char) (v : F) : Prop :=
  ∃ vs : List F, List.Forall₂ (ProductDenotes U wit) (s.splitOn '+') vs ∧ v = vs.sum

end spec

/-! ## The reading is unique -/

section unique
variable {F : Type} [Field F] [DecidableEq F] {U : Unicode} {wit : List Char → Option F}

theorem Literal.unique {s : List Char} {k k' : ℤ} (h : Literal s k) (h' : Literal s k') : k = k' := by
  rw [← parseI32_iff] at h h'
  rw [h] at h'
  exact Option.some.inj h'

/-- A number starts with a digit or a sign. -/
theorem Literal.head {s : List Char} {k : ℤ} (h : Literal s k) :
    ∃ c rest, s = c :: rest ∧ c ∈ ['+', '-', '0', '1', '2', '3', '4', '5', '6', '7', '8', '9'] := by
  obtain ⟨ds, h1, h2, h3, -⟩ := h
  obtain ⟨d, ds', rfl⟩ := List.exists_cons_of_ne_nil h1
  have hd := h2 d (by simp)
  rcases h3 with ⟨rfl | rfl, -⟩ | ⟨rfl, -⟩
  · exact ⟨d, ds', rfl, List.mem_cons_of_mem _ (List.mem_cons_of_mem _ hd)⟩
  · exact ⟨'+', _, rfl, by simp⟩
  · exact ⟨'-', _, rfl, by simp⟩

theorem PlainNames.not_literal (hp : PlainNames U wit) {nm : List Char} {v : F} (h : wit nm = some v) (k : ℤ) :
    ¬ Literal nm k := by
  intro hk
  obtain ⟨c, rest, rfl, hc⟩ := (hp nm v h).1
  obtain ⟨c', rest', e, hc'⟩ := hk.head
  simp only [List.cons.injEq] at e
  exact hc (e.1 ▸ hc')

theorem PlainNames.not_minus (hp : PlainNames U wit) {rest : List Char} : wit ('-' :: rest) = none := by
  cases h : wit ('-' :: rest) with
  | none => rfl
  | some v =>
    obtain ⟨c, r, e, hc⟩ := (hp _ v h).1
    simp only [List.cons.injEq] at e
    exact absurd (by rw [← e.1]; simp) hc

theorem PlainNames.parse_none (hp : PlainNames U wit) : ∀ nm v, wit nm = some v → parseI32 nm = none := by
  intro nm v h
  cases hk : parseI32 nm with
  | none => rfl
  | some k => exact absurd ((parseI32_iff nm k).1 hk) (hp.not_literal h k)

/-- A number with a minus sign in front is the negative of the number without it. -/
theorem minus_consistent (hp : PlainNames U wit) {rest : List Char} {k : ℤ} {w : F} (hk : Literal ('-' :: rest) k)
    (hw : (∃ u, wit rest = some u ∧ w = -u) ∨ ∃ k : ℤ, Literal rest k ∧ w = -k) : (k : F) = w := by
  obtain ⟨ds, h1, h2, h3, h4⟩ := hk
  rcases h3 with ⟨h | h, -⟩ | ⟨h, rfl⟩
  · rw [← h] at h2
    have := h2 '-' (by simp)
    exact absurd this (by decide)
  · simp at h
  · simp only [List.cons.injEq, true_and] at h
    subst h
    rcases hw with ⟨u, hu, rfl⟩ | ⟨k', hk', rfl⟩
    · obtain ⟨c, r, e, hc⟩ := (hp _ u hu).1
      have := h2 c (by rw [e]; simp)
      exact absurd (List.mem_cons_of_mem _ (List.mem_cons_of_mem _ this)) hc
    · obtain ⟨ds', h1', h2', h3', -⟩ := hk'
      rcases h3' with ⟨e | e, rfl⟩ | ⟨e, -⟩
      · rw [e]; push_cast; rfl
      · have := h2 '+' (by rw [e]; simp)
        exact absurd this (by decide)
      · have := h2 '-' (by rw [e]; simp)
        exact absurd this (by decide)

theorem Denotes.unique (hp : PlainNames U wit) {t : List Char} {v v' : F} (h : Denotes wit t v)
    (h' : Denotes wit t v') : v = v' := by
  rcases h with h | ⟨k, hk, rfl⟩ | ⟨rest, rfl, h⟩
  · rcases h' with h' | ⟨k', hk', rfl⟩ | ⟨rest, rfl, h'⟩
    · rw [h] at h'; exact Option.some.inj h'
    · exact absurd hk' (hp.not_literal h k')
    · rw [hp.not_minus] at h; cases h
  · rcases h' with h' | ⟨k', hk', rfl⟩ | ⟨rest, rfl, h'⟩
    · exact absurd hk (hp.not_literal h' k)
    · rw [hk.unique hk']
    · exact minus_consistent hp hk h'
  · rcases h' with h' | ⟨k', hk', rfl⟩ | ⟨rest', e, h'⟩
    · rw [hp.not_minus] at h'; cases h'
    · exact (minus_consistent hp hk' h).symm
    · simp only [List.cons.injEq, true_and] at e
      subst e
      rcases h with ⟨u, hu, rfl⟩ | ⟨k, hk, rfl⟩
      · rcases h' with ⟨u', hu', rfl⟩ | ⟨k', hk', rfl⟩
        · rw [hu] at hu'; rw [Option.some.inj hu']
        · exact absurd hk' (hp.not_literal hu k')
      · rcases h' with ⟨u', hu', rfl⟩ | ⟨k', hk', rfl⟩
        · exact absurd hk (hp.not_literal hu' k)
        · rw [hk.unique hk']

theorem forall₂_unique {α β : Type} {R : α → β → Prop} (hR : ∀ a b b', R a b → R a b' → b = b') :
    ∀ {l : List α} {m m' : List β}, List.Forall₂ R l m → List.Forall₂ R l m' → m = m' := by
  intro l
  induction l with
  | nil => intro m m' h h'; cases h; cases h'; rfl
  | cons a l ih =>
    intro m m' h h'
    cases h with
    | cons h1 h2 => cases h' with
      | cons h1' h2' => rw [hR _ _ _ h1 h1', ih h2 h2']

theorem ProductDenotes.unique (hp : PlainNames U wit) {t : List Char} {v v' : F} (h : ProductDenotes U wit t v)
    (h' : ProductDenotes U wit t v') : v = v' := by
  obtain ⟨vs, h, rfl⟩ := h
  obtain ⟨vs', h', rfl⟩ := h'
  rw [forall₂_unique _ h h']
  rintro tok b b' ⟨op, h1, h2⟩ ⟨op', h1', h2'⟩
  rw [← trim_iff] at h1 h1'
  rw [← h1, h1'] at h2
  exact h2.unique hp h2'

/-- **C95** (unambiguous): a text has at most one reading. -/
theorem C95_reading_unique (hp : PlainNames U wit) {s : List Char} {v v' : F} (h : SumDenotes U wit s v)
    (h' : SumDenotes U wit s v') : v = v' := by
  obtain ⟨vs, h, rfl⟩ := h
  obtain ⟨vs', h', rfl⟩ := h'
  rw [forall₂_unique (fun _ _ _ a b => a.unique hp b) h h']

end unique

/-! ## The parser follows the reading -/

section reading
variable {F : Type} [Field F] [DecidableEq F] {U : Unicode} {wit : List Char → Option F}

theorem denotes_body (hp : PlainNames U wit) {t : List Char}
    (h : (wit t).isSome ∨ (parseI32 t).isSome) : Denotes wit t (bodyVal wit t) ∧
      (wit t = some (bodyVal wit t) ∨ ∃ k : ℤ, Literal t k ∧ bodyVal wit t = k) := by
  have key : wit t = some (bodyVal wit t) ∨ ∃ k : ℤ, Literal t k ∧ bodyVal wit t = k := by
    unfold bodyVal
    cases hw : wit t with
    | some v => exact Or.inl rfl
    | none =>
      rw [hw] at h
      cases hk : parseI32 t with
      | none => rw [hk] at h; simp at h
      | some k => exact Or.inr ⟨k, (parseI32_iff t k).1 hk, rfl⟩
  refine ⟨?_, key⟩
  rcases key with h | h
  · exact Or.inl h
  · exact Or.inr (Or.inl h)

theorem denotes_token (hp : PlainNames U wit) {t : List Char} (h : OperandOk wit t) : Denotes wit t (tokVal wit t) := by
  obtain ⟨⟨c, hc, -⟩, h⟩ := h
  cases t with
  | nil => simp at hc
  | cons c rest =>
    unfold tokVal
    rw [tokNeg_cons, tokBody_cons] at *
    by_cases hm : c = '-'
    · subst hm
      simp only [if_true, decide_true] at h ⊢
      refine Or.inr (Or.inr ⟨rest, rfl, ?_⟩)
      rcases (denotes_body hp h).2 with h | ⟨k, h1, h2⟩
      · exact Or.inl ⟨_, h, rfl⟩
      · exact Or.inr ⟨k, h1, by rw [h2]⟩
    · simp only [hm, if_false, decide_false, Bool.false_eq_true] at h ⊢
      exact (denotes_body hp h).1

theorem denotes_product (hp : PlainNames U wit) {t : List Char}
    (h : ∀ tok ∈ t.splitOn '*', OperandOk wit (trim U tok)) : ProductDenotes U wit t (termVal U wit t) := by
  refine ⟨_, ?_, rfl⟩
  rw [List.forall₂_map_right_iff]
  rw [List.forall₂_same]
  intro tok htok
  exact ⟨trim U tok, (trim_iff U tok _).1 rfl, denotes_token hp (h tok htok)⟩

theorem denotes_sum (hp : PlainNames U wit) {s : List Char}
    (h : ∀ t ∈ s.splitOn '+', ∀ tok ∈ t.splitOn '*', OperandOk wit (trim U tok)) :
    SumDenotes U wit s ((s.splitOn '+').map (termVal U wit)).sum := by
  refine ⟨_, ?_, rfl⟩
  rw [List.forall₂_map_right_iff, List.forall₂_same]
  exact fun t ht => denotes_product hp (h t ht)

/-- White space before an operand after a minus sign is not accepted, so trimming commutes with the minus sign. -/
theorem trim_minus (hU : U.Sane) (hp : PlainNames U wit) {t : List Char} (hplus : '+' ∉ t)
    (h : OperandOk wit (trim U ('-' :: t))) :
    trim U ('-' :: t) = '-' :: trim U t ∧ ((wit (trim U t)).isSome ∨ (parseI32 (trim U t)).isSome) := by
  obtain ⟨s', hs'⟩ := trim_cons hU.minus t
  have htr := (trim_iff U _ _).1 hs'
  obtain ⟨a, b, he, ha, hb, h1, h2⟩ := htr
  have ha0 : a = [] := by
    cases a with
    | nil => rfl
    | cons x a =>
      simp only [List.cons_append, List.append_assoc, List.cons.injEq] at he
      have := ha x (by simp)
      rw [← he.1, hU.minus] at this
      cases this
  subst ha0
  simp only [List.nil_append, List.cons_append, List.cons.injEq, true_and] at he
  rw [hs'] at h
  obtain ⟨-, h⟩ := h
  rw [tokBody_cons, if_pos rfl] at h
  have hne : s' ≠ [] := by
    rintro rfl
    rcases h with h | h
    · obtain ⟨v, hv⟩ := Option.isSome_iff_exists.1 h
      obtain ⟨c, r, e, -⟩ := (hp _ v hv).1
      cases e
    · revert h; decide
  have hhead : ∀ c ∈ s'.head?, U.isWhitespace c = false := by
    intro c hc
    rcases h with h | h
    · obtain ⟨v, hv⟩ := Option.isSome_iff_exists.1 h
      exact (hp _ v hv).2 c (List.mem_of_mem_head? hc)
    · obtain ⟨k, hk⟩ := Option.isSome_iff_exists.1 h
      obtain ⟨c', r, e, hc'⟩ := ((parseI32_iff _ _).1 hk).head
      rw [e, List.head?_cons, Option.mem_def, Option.some.injEq] at hc
      subst hc
      rcases List.mem_cons.1 hc' with rfl | hc'
      · exact absurd (by rw [he, e]; simp) hplus
      · rcases List.mem_cons.1 hc' with rfl | hc'
        · exact hU.minus
        · refine hU.digits _ ?_
          rw [isAsciiDigit_iff]
          exact hc'
  have ht : trim U t = s' := by
    rw [trim_iff]
    refine ⟨[], b, by rw [he]; rfl, by simp, hb, hhead, ?_⟩
    intro c hc
    refine h2 c ?_
    rw [List.getLast?_cons, Option.mem_def] at *
    rw [hc]; rfl
  rw [ht]
  exact ⟨hs', h⟩

theorem denotes_rhs (hU : U.Sane) (hp : PlainNames U wit) {rhs : List Char} (hplus : '+' ∉ rhs)
    (h : ∀ tok ∈ ('-' :: rhs).splitOn '*', OperandOk wit (trim U tok)) :
    ∃ r, ProductDenotes U wit rhs r ∧ termVal U wit ('-' :: rhs) = -r := by
  have hsplit : ∃ t ts, rhs.splitOn '*' = t :: ts ∧ ('-' :: rhs).splitOn '*' = ('-' :: t) :: ts := by
    rw [List.splitOn_cons_eq_if_modifyHead, if_neg (by decide)]
    cases hs : rhs.splitOn '*' with
    | nil => exact absurd hs (List.splitOn_ne_nil _ _)
    | cons t ts => exact ⟨t, ts, rfl, rfl⟩
  obtain ⟨t, ts, h1, h2⟩ := hsplit
  rw [h2] at h
  have hpt : '+' ∉ t := fun hm => hplus ((mem_splitOn (h1 ▸ List.mem_cons_self) _ hm).1)
  obtain ⟨e, hr⟩ := trim_minus hU hp hpt (h _ (by simp))
  refine ⟨bodyVal wit (trim U t) * (ts.map fun tok => tokVal wit (trim U tok)).prod, ?_, ?_⟩
  · refine ⟨bodyVal wit (trim U t) :: ts.map fun tok => tokVal wit (trim U tok), ?_, by simp⟩
    rw [h1]
    refine List.Forall₂.cons ⟨trim U t, (trim_iff U t _).1 rfl, (denotes_body hp hr).1⟩ ?_
    rw [List.forall₂_map_right_iff, List.forall₂_same]
    intro tok htok
    exact ⟨trim U tok, (trim_iff U tok _).1 rfl, denotes_token hp (h tok (by simp [htok]))⟩
  · rw [termVal, h2, List.map_cons, List.prod_cons, e, tokVal, tokNeg_cons, tokBody_cons]
    simp

end reading

/-! ## C95 -/

section C95
variable {F : Type} [FftField F] [DecidableEq F]

theorem accepted_reading {U : Unicode} (hU : U.Sane) {wit : List Char → Option F} (hp : PlainNames U wit)
    {input : List Char} {circuit : Circuit F} (h : parse U wit input = some circuit)
    (hplus : ∀ lhs rhs, parseString U input = some (lhs ++ '=' :: rhs) → '=' ∉ lhs → '+' ∉ rhs) :
    ∃ (lhs rhs : List Char) (l r : F) (gates : List (PGate F)) (pm : PosMap) (calls : List (GateCall F)),
      parseString U input = some (lhs ++ '=' :: rhs) ∧ '=' ∉ lhs ∧ '=' ∉ rhs ∧
      SumDenotes U wit lhs l ∧ ProductDenotes U wit rhs r ∧ circuit = build calls ∧
      calls = wiredCalls (gates.map PGate.names) 0 gates ∧ calls.length = gates.length ∧
      (∀ call ∈ calls.dropLast, call.Relation call.a.2.2 call.b.2.2 call.c.2.2) ∧
      (∀ n, calls.length ≤ n → WiringOk n calls) ∧ (AllRelations calls ↔ l = r) := by
  unfold parse at h
  cases hs : parseString U input with
  | none => rw [hs] at h; cases h
  | some s =>
    rw [hs] at h
    simp only [Option.bind_eq_bind, Option.bind_some, Option.bind_eq_some_iff] at h
    obtain ⟨⟨gates, pm⟩, hprep, hgen⟩ := h
    have hsome : (prepareGenCircuit U wit s).isSome := by rw [hprep]; rfl
    rw [prepare_isSome] at hsome
    obtain ⟨terms, hterms, hops⟩ := hsome
    obtain ⟨lhs, rhs, rfl, hl, hr, rfl⟩ := (splitTerms_eq_some s terms).1 hterms
    have hpl := hplus lhs rhs hs hl
    obtain ⟨calls, h1, h2, h3, h4, h5, h6, -⟩ := parse_run hp.parse_none U hU.minus hl hr hpl hprep
    obtain ⟨r, hr1, hr2⟩ := denotes_rhs hU hp hpl (fun tok htok => hops _ (by simp) tok htok)
    have hsum := denotes_sum hp (s := lhs) (fun t ht tok htok => hops t (by simp [ht]) tok htok)
    dsimp only at hgen
    rw [h1, Option.some.injEq] at hgen
    refine ⟨lhs, rhs, _, r, gates, pm, calls, rfl, hl, hr, hsum, hr1, hgen.symm, h2, h3, h4, h5, ?_⟩
    rw [h6, hr2, ← sub_eq_add_neg, sub_eq_zero]

/-- **C95**: let the witness names be plain.  Whatever text the parser accepts (without a plus sign on the
right-hand side), the text is, after normalisation, of the form `lhs=rhs`, where `lhs` reads as a sum of products
with value `l` and `rhs` as a product with value `r`; and the circuit computes this reading: its gates except possibly
the last hold, its wiring is for every padded size a permutation that connects only wires with equal values, and
all gates hold iff `l = r`. -/
theorem C95_accepted_texts (U : Unicode) (hU : U.Sane) (wit : List Char → Option F) (hp : PlainNames U wit)
    (input : List Char) (circuit : Circuit F) (h : parse U wit input = some circuit)
    (hplus : ∀ lhs rhs, parseString U input = some (lhs ++ '=' :: rhs) → '=' ∉ lhs → '+' ∉ rhs) :
    ∃ (lhs rhs : List Char) (l r : F) (calls : List (GateCall F)),
      parseString U input = some (lhs ++ '=' :: rhs) ∧ '=' ∉ lhs ∧ '=' ∉ rhs ∧
      SumDenotes U wit lhs l ∧ ProductDenotes U wit rhs r ∧ circuit = build calls ∧
      (∀ call ∈ calls.dropLast, call.Relation call.a.2.2 call.b.2.2 call.c.2.2) ∧
      (∀ n, calls.length ≤ n → WiringOk n calls) ∧ (AllRelations calls ↔ l = r) := by
  obtain ⟨lhs, rhs, l, r, -, -, calls, h1, h2, h3, h4, h5, h6, -, -, h7, h8, h9⟩ := accepted_reading hU hp h hplus
  exact ⟨lhs, rhs, l, r, calls, h1, h2, h3, h4, h5, h6, h7, h8, h9⟩

/-- A number has no plus sign after its first character. -/
theorem Literal.no_inner_plus {x y : List Char} {c : Char} {k : ℤ} (h : Literal (x ++ c :: '+' :: y) k) : False := by
  obtain ⟨ds, h1, h2, h3, -⟩ := h
  have hd : '+' ∉ ds := fun hm => absurd (h2 '+' hm) (by decide)
  rcases h3 with ⟨h | h, -⟩ | ⟨h, -⟩
  · exact hd (by rw [← h]; simp)
  · cases x with
    | nil =>
      simp only [List.nil_append, List.cons.injEq] at h
      exact hd (by rw [← h.2]; simp)
    | cons a x =>
      simp only [List.cons_append, List.cons.injEq] at h
      exact hd (by rw [← h.2]; simp)
  · cases x with
    | nil =>
      simp only [List.nil_append, List.cons.injEq] at h
      exact hd (by rw [← h.2]; simp)
    | cons a x =>
      simp only [List.cons_append, List.cons.injEq] at h
      exact hd (by rw [← h.2]; simp)

/-- **C95** (sums on the right): a text with a sum on the right-hand side (an operand with a plus sign that is not
its first character or after a minus sign) is rejected, not misread, unless a witness name contains a plus sign. -/
theorem C95_sum_on_right_rejected (U : Unicode) (hU : U.Sane) (wit : List Char → Option F)
    (hn : ∀ nm v, wit nm = some v → '+' ∉ nm) (input lhs rhs : List Char)
    (hs : parseString U input = some (lhs ++ '=' :: rhs)) (hl : '=' ∉ lhs) (hr : '=' ∉ rhs)
    (tok op a b : List Char) (c : Char) (htok : tok ∈ rhs.splitOn '*') (hop : Trimmed U tok op)
    (e : op = a ++ c :: '+' :: b) (hc : c ≠ '-') : parse U wit input = none := by
  have hbad : ∀ x y : List Char, ¬ ((∃ v, wit (x ++ c :: '+' :: y) = some v) ∨
      ∃ k, Literal (x ++ c :: '+' :: y) k) := by
    rintro x y (⟨v, hv⟩ | ⟨k, hk⟩)
    · exact hn _ v hv (by simp)
    · exact hk.no_inner_plus
  have hres : ∀ x, ¬ Resolvable wit (x ++ op) := by
    rintro x ⟨d, rest, h1, -, h2⟩
    rw [e] at h1
    rcases h2 with ⟨rfl, h2⟩ | ⟨-, h2⟩
    · have : ∃ z, rest = z ++ c :: '+' :: b := by
        cases hx : x ++ a with
        | nil =>
          rw [← List.append_assoc, hx, List.nil_append, List.cons.injEq] at h1
          exact absurd h1.1 hc
        | cons d' z =>
          rw [← List.append_assoc, hx, List.cons_append, List.cons.injEq] at h1
          exact ⟨z, h1.2.symm⟩
      obtain ⟨z, rfl⟩ := this
      exact hbad z b h2
    · rw [e, ← List.append_assoc] at h2
      exact hbad (x ++ a) b h2
  obtain ⟨t, ts, h1, h2⟩ : ∃ t ts, rhs.splitOn '*' = t :: ts ∧ ('-' :: rhs).splitOn '*' = ('-' :: t) :: ts := by
    rw [List.splitOn_cons_eq_if_modifyHead, if_neg (by decide)]
    cases hs : rhs.splitOn '*' with
    | nil => exact absurd hs (List.splitOn_ne_nil _ _)
    | cons t ts => exact ⟨t, ts, rfl, rfl⟩
  rw [h1] at htok
  rcases List.mem_cons.1 htok with rfl | hmem
  · obtain ⟨a0, b0, e0, ha0, hb0, hh, hlast⟩ := hop
    refine C65_unknown_operand U wit input lhs rhs hs hl hr ('-' :: rhs) ('-' :: tok) (('-' :: a0) ++ op) (Or.inr rfl)
      (by rw [h2]; simp) ⟨[], b0, by rw [e0]; simp, by simp, hb0, ?_, ?_⟩ (hres _)
    · intro x hx
      simp only [List.cons_append, List.head?_cons, Option.mem_def, Option.some.injEq] at hx
      rw [← hx]; exact hU.minus
    · intro x hx
      refine hlast x ?_
      rw [List.getLast?_append] at hx
      cases hol : op.getLast? with
      | none => rw [List.getLast?_eq_none_iff] at hol; rw [hol] at e; simp at e
      | some y => rw [hol] at hx; simpa using hx
  · exact C65_unknown_operand U wit input lhs rhs hs hl hr ('-' :: rhs) tok op (Or.inr rfl)
      (by rw [h2]; simp [hmem]) hop (by simpa using hres [])

variable {G1 G2 GT : Type} [AddCommGroup G1] [Module F G1] [AddCommGroup G2] [Module F G2]
  [AddCommGroup GT] [Module F GT] [DecidableEq GT]

/-- **C95** (end to end): if a text is accepted and its circuit compiles, then the prover proves exactly the reading
of the text: when both sides have the same value `generate_proof` returns a proof that `verify` accepts (outside degenerate
challenges), and when they differ `generate_proof` panics. -/
theorem C95_end_to_end (U : Unicode) (hU : U.Sane) (wit : List Char → Option F) (hp : PlainNames U wit)
    (input : List Char) (circuit : Circuit F) (h : parse U wit input = some circuit)
    (hplus : ∀ lhs rhs, parseString U input = some (lhs ++ '=' :: rhs) → '=' ∉ lhs → '+' ∉ rhs)
    (cc : CompiledCircuit F) (hcc : circuit.compile = some cc) :
    ∃ (lhs rhs : List Char) (l r : F) (d : Domain F),
      parseString U input = some (lhs ++ '=' :: rhs) ∧ '=' ∉ lhs ∧ '=' ∉ rhs ∧
      SumDenotes U wit lhs l ∧ ProductDenotes U wit rhs r ∧ Domain.new? cc.size = some d ∧
      (l = r → ∀ (env : Env F G1) (T : List UInt8 → List UInt8) (P : PairingGroups F G1 G2 GT) (s : F) (N : ℕ)
        (bl : Blinders F), cc.size ≤ N → (∀ b, 8 ≤ (env.sha256 b).length) →
        ¬ (⟨env, P.g1, s, cc, d.gen, bl⟩ : Honest F G1).Degenerate →
        (⟨env, P.g1, s, cc, d.gen, bl⟩ : Honest F G1).ζ ≠ 1 →
        ∃ p, generateProof env T cc (Srs.newFromSecret P s N) bl = some p ∧
          verify env env.sha256 P cc (Srs.newFromSecret P s N) p = some (.ok ())) ∧
      (l ≠ r → ∀ (env : Env F G1) (T : List UInt8 → List UInt8) (srs : Srs G1 G2) (bl : Blinders F),
        generateProof env T cc srs bl = none) := by
  obtain ⟨lhs, rhs, l, r, calls, h1, h2, h3, h4, h5, rfl, h7, h8, hiff⟩ := C95_accepted_texts U hU wit hp input circuit h hplus
  obtain ⟨d, hd, -⟩ := compile_some calls cc hcc
  have hle := (C44_compile_size calls cc hcc).2.1
  refine ⟨lhs, rhs, l, r, d, h1, h2, h3, h4, h5, hd, ?_, ?_⟩
  · intro hh env T P s N bl hN hdig hnd hz
    obtain ⟨q1, q2⟩ := C50_compiled (⟨env, P.g1, s, cc, d.gen, bl⟩ : Honest F G1) T P N calls hcc d hd rfl rfl hN hdig
      (hiff.2 hh) (h8 _ hle) hnd
    exact ⟨_, q1, q2 hz⟩
  · intro hh env T srs bl
    have : ¬ AllRelations calls := fun h => hh (hiff.1 h)
    unfold AllRelations at this
    push Not at this
    obtain ⟨call, hcall, hbad⟩ := this
    exact C51_compiled env T calls cc hcc srs bl call hcall hbad

end C95

/-! ## Numbers that are not written canonically -/

/-- The calls made for `x=07` with `x = 7`. -/
def leadingZeroCalls : List (GateCall BlsFr) :=
  [⟨.constant, (0, 0, -7), (1, 0, 0), (2, 0, -7), 0⟩, ⟨.addition, (0, 1, 7), (1, 1, -7), (2, 1, 0), 0⟩]

/-- **C62** fails for numbers with leading zeros even if minus signs and the last output wire were constrained: in
`x=07` the constant is fixed on the wire `-7`, but the equation uses the wire `-07`, which is not connected to it;
the values `x = 5`, `-07 = -5` satisfy the circuit with last output wire 0. -/
theorem C62_leading_zero_unconstrained :
    parse asciiTables (addWitness noWitness ['x'] 7) "x=07".toList = some (build leadingZeroCalls) ∧
    Satisfies leadingZeroCalls (fun l i => match l, i with
      | 0, 0 => -7 | 2, 0 => -7 | 0, 1 => 5 | 1, 1 => -5 | _, _ => 0) := by
  constructor
  · decide +kernel
  · constructor
    · intro i call hi
      rcases i with _ | _ | i
      · simp only [leadingZeroCalls, List.getElem?_cons_zero, Option.some.injEq] at hi
        subst hi
        simp only [GateCall.Relation]
        decide +kernel
      · simp only [leadingZeroCalls, List.getElem?_cons_zero, List.getElem?_cons_succ, Option.some.injEq] at hi
        subst hi
        simp only [GateCall.Relation]
        decide +kernel
      · simp [leadingZeroCalls] at hi
    · decide +kernel

/-! ## Non-vacuity -/

theorem exWit_plain : PlainNames asciiTables exWit := by
  intro nm v h
  simp only [exWit, addWitness, noWitness, Function.update_apply] at h
  have : nm = ['x'] ∨ nm = ['y'] ∨ nm = ['z'] := by
    by_contra hno
    push Not at hno
    simp [hno.1, hno.2.1, hno.2.2] at h
  rcases this with rfl | rfl | rfl
  · exact ⟨⟨_, _, rfl, by decide⟩, by decide⟩
  · exact ⟨⟨_, _, rfl, by decide⟩, by decide⟩
  · exact ⟨⟨_, _, rfl, by decide⟩, by decide⟩

/-- An oddly written text that is no `Equation.text`: tabs, leading zeros, a doubled minus sign. -/
def oddText : List Char := "X *\ty + 007 + --3*x^2 = 0022 * y".toList

theorem oddText_normal : parseString asciiTables oddText = some ("x*\ty+007+--3*x*x".toList ++ '=' :: "0022*y".toList) := by
  decide +kernel

/-- The hypotheses of C95 hold for the odd text. -/
example : (parse asciiTables exWit oddText).isSome ∧
    ((parse asciiTables exWit oddText).bind Circuit.compile).isSome ∧
    (∀ lhs rhs, parseString asciiTables oddText = some (lhs ++ '=' :: rhs) → '=' ∉ lhs → '+' ∉ rhs) := by
  refine ⟨by decide +kernel, ?_, ?_⟩
  · decide +kernel
  · intro lhs rhs h hl
    rw [oddText_normal, Option.some.injEq] at h
    have h1 := congrArg (List.splitOn '=') h
    rw [List.splitOn_append_cons_self, List.splitOn_append_cons_self, List.splitOn_eq_singleton hl,
      List.splitOn_eq_singleton (show '=' ∉ "x*\ty+007+--3*x*x".toList by decide),
      List.splitOn_eq_singleton (show '=' ∉ "0022*y".toList by decide)] at h1
    simp only [List.singleton_append, List.cons.injEq] at h1
    intro hm
    have hI := List.intercalate_splitOn (xs := rhs) '='
    rw [← h1.2] at hI
    simp only [List.intercalate_singleton] at hI
    rw [← hI] at hm
    revert hm
    decide

/-- Its reading, for `x = 1`, `y = 2`, `z = 3`: `1·2 + 7 + 3·1·1 = 12` on the left, `22·2 = 44` on the right. -/
example : SumDenotes asciiTables exWit "x*\ty+007+--3*x*x".toList (12 : BlsFr) ∧
    ProductDenotes asciiTables exWit "0022*y".toList (44 : BlsFr) := by
  constructor
  · have := denotes_sum exWit_plain (s := "x*\ty+007+--3*x*x".toList) (by
      have hs : (prepareGenCircuit asciiTables exWit ("x*\ty+007+--3*x*x".toList ++ '=' :: "0".toList)).isSome := by
        decide +kernel
      rw [prepare_isSome] at hs
      obtain ⟨terms, hterms, hops⟩ := hs
      rw [(splitTerms_eq_some _ _).2 ⟨_, _, rfl, by decide, by decide, rfl⟩, Option.some.injEq] at hterms
      subst hterms
      exact fun t ht => hops t (by simp only [List.mem_append]; exact Or.inl ht))
    have e : ((("x*\ty+007+--3*x*x".toList).splitOn '+').map (termVal asciiTables exWit)).sum = (12 : BlsFr) := by
      decide +kernel
    rwa [e] at this
  · have := denotes_product exWit_plain (t := "0022*y".toList) (by
      have hs : (prepareGenCircuit asciiTables exWit ("0022*y".toList ++ '=' :: "0".toList)).isSome := by
        decide +kernel
      rw [prepare_isSome] at hs
      obtain ⟨terms, hterms, hops⟩ := hs
      rw [(splitTerms_eq_some _ _).2 ⟨_, _, rfl, by decide, by decide, rfl⟩, Option.some.injEq] at hterms
      subst hterms
      exact fun tok htok => hops "0022*y".toList (by decide) tok htok)
    have e : termVal asciiTables exWit "0022*y".toList = (44 : BlsFr) := by decide +kernel
    rwa [e] at this

/-- A sum on the right-hand side is rejected. -/
example : parse asciiTables exWit "x=1+z".toList = none := by
  refine C95_sum_on_right_rejected asciiTables asciiTables_sane exWit ?_ _ ['x'] ['1', '+', 'z'] (by decide +kernel)
    (by decide) (by decide) ['1', '+', 'z'] ['1', '+', 'z'] [] ['z'] '1' (by decide +kernel) ?_ rfl (by decide)
  · intro nm v h
    simp only [exWit, addWitness, noWitness, Function.update_apply] at h
    intro hm
    have : nm = ['x'] ∨ nm = ['y'] ∨ nm = ['z'] := by
      by_contra hno
      push Not at hno
      simp [hno.1, hno.2.1, hno.2.2] at h
    rcases this with rfl | rfl | rfl <;> revert hm <;> decide
  · rw [← trim_iff]; decide +kernel

end Verif.Plonk

import Verif.Plonk.ParserRun

/-!
# C61, C63: parsed circuits compute the equation
-/

set_option linter.unusedSectionVars false
set_option linter.unusedSimpArgs false
set_option linter.unusedVariables false

namespace Verif.Plonk

open Verif.Ark Verif.Kzg

/-! ## Specification: equations, their text and their meaning -/

/-- A factor: a variable, possibly with a minus sign, or an integer literal. -/
inductive Factor where
  /-- `x` or `-x` -/
  | var (neg : Bool) (name : List Char)
  /-- an integer -/
  | lit (k : ℤ)

/-- How a factor is written. -/
def Factor.text : Factor → List Char
  | .var neg nm => if neg then '-' :: nm else nm
  | .lit k => showInt k

/-- Value of a factor. -/
def Factor.val {F : Type} [Field F] (ρ : List Char → F) : Factor → F
  | .var neg nm => if neg then -ρ nm else ρ nm
  | .lit k => (k : F)

/-- An equation: a sum of products on the left, one product on the right. -/
structure Equation where
  /-- summands -/
  lhs : List (List Factor)
  /-- right-hand side -/
  rhs : List Factor

/-- A product as text. -/
def termText (t : List Factor) : List Char := ['*'].intercalate (t.map Factor.text)

/-- An equation as text, without spaces. -/
def Equation.text (e : Equation) : List Char :=
  ['+'].intercalate (e.lhs.map termText) ++ '=' :: termText e.rhs

/-- The equation holds for the variable assignment `ρ`. -/
def Equation.Holds {F : Type} [Field F] (e : Equation) (ρ : List Char → F) : Prop :=
  (e.lhs.map fun t => (t.map (Factor.val ρ)).prod).sum = (e.rhs.map (Factor.val ρ)).prod

/-- Variable names: not empty, first character ASCII and not a minus sign, no operator characters and no
white space, not readable as an `i32` literal. -/
structure NameOk (U : Unicode) (nm : List Char) : Prop where
  head : ∃ c ∈ nm.head?, c.toNat < 128 ∧ c ≠ '-'
  chars : ∀ c ∈ nm, c ≠ '+' ∧ c ≠ '*' ∧ c ≠ '=' ∧ U.isWhitespace c = false
  notNumber : parseI32 nm = none

/-- Factors of the input language: literals are at most `2^31 - 1` in absolute value. -/
def Factor.Ok (U : Unicode) : Factor → Prop
  | .var _ nm => NameOk U nm
  | .lit k => k.natAbs < 2 ^ 31

/-- Equations of the input language: no empty sums or products, and the right-hand side does not start with a
negated variable (the parser prefixes it with a minus sign, and cannot resolve `--x`). -/
structure Equation.Ok (U : Unicode) (e : Equation) : Prop where
  lhs_ne : e.lhs ≠ []
  term_ne : ∀ t ∈ e.lhs, t ≠ []
  rhs_ne : e.rhs ≠ []
  lhs_ok : ∀ t ∈ e.lhs, ∀ f ∈ t, f.Ok U
  rhs_ok : ∀ f ∈ e.rhs, f.Ok U
  rhs_head : ∀ nm, Factor.var true nm ∉ e.rhs.head?

/-- Variables of an equation. -/
def Equation.Uses (e : Equation) (nm : List Char) : Prop :=
  ∃ neg, (∃ t ∈ e.lhs, Factor.var neg nm ∈ t) ∨ Factor.var neg nm ∈ e.rhs

/-- The witnesses given to the parser: every variable of the equation has the value `ρ` assigns to it, and no
witness is named like a number. -/
structure Covers {F : Type} (wit : List Char → Option F) (e : Equation) (ρ : List Char → F) : Prop where
  vars : ∀ nm, e.Uses nm → wit nm = some (ρ nm)
  names : ∀ nm v, wit nm = some v → parseI32 nm = none

/-- White space does not include the minus sign and digits. -/
structure Unicode.Sane (U : Unicode) : Prop where
  minus : U.isWhitespace '-' = false
  digits : ∀ c, isAsciiDigit c = true → U.isWhitespace c = false

/-! ## From text back to factors -/

section text
variable {U : Unicode} (hU : U.Sane)

theorem factor_chars (hU : U.Sane) {f : Factor} (hf : f.Ok U) :
    ∀ c ∈ f.text, c ≠ '+' ∧ c ≠ '*' ∧ c ≠ '=' ∧ U.isWhitespace c = false := by
  intro c hc
  have hminus : '-' ≠ '+' ∧ '-' ≠ '*' ∧ '-' ≠ '=' ∧ U.isWhitespace '-' = false :=
    ⟨by decide, by decide, by decide, hU.minus⟩
  cases f with
  | var neg nm =>
    cases neg with
    | false => exact hf.chars c hc
    | true =>
      rcases List.mem_cons.1 hc with rfl | hc
      · exact hminus
      · exact hf.chars c hc
  | lit k =>
    rcases mem_showInt hc with rfl | hd
    · exact hminus
    · refine ⟨?_, ?_, ?_, hU.digits c hd⟩ <;> (rintro rfl; revert hd; decide)

theorem term_split (hU : U.Sane) {t : List Factor} (hne : t ≠ []) (ht : ∀ f ∈ t, f.Ok U) :
    (termText t).splitOn '*' = t.map Factor.text := by
  refine List.splitOn_intercalate '*' ?_ (by simpa using hne)
  intro l hl hm
  obtain ⟨f, hf, rfl⟩ := List.mem_map.1 hl
  exact (factor_chars hU (ht f hf) _ hm).2.1 rfl

theorem mem_intercalate_char {sep : Char} {ls : List (List Char)} {c : Char} (h : c ∈ [sep].intercalate ls) :
    c = sep ∨ ∃ l ∈ ls, c ∈ l := by
  induction ls with
  | nil => simp [List.intercalate] at h
  | cons a ls ih =>
    cases ls with
    | nil =>
      simp only [List.intercalate_singleton] at h
      exact Or.inr ⟨a, by simp, h⟩
    | cons b ls =>
      rw [List.intercalate_cons_cons] at h
      rcases List.mem_append.1 h with h | h
      · rcases List.mem_append.1 h with h | h
        · exact Or.inr ⟨a, by simp, h⟩
        · exact Or.inl (by simpa using h)
      · rcases ih h with h | ⟨l, hl, hc⟩
        · exact Or.inl h
        · exact Or.inr ⟨l, by simp [hl], hc⟩

theorem term_chars (hU : U.Sane) {t : List Factor} (ht : ∀ f ∈ t, f.Ok U) :
    ∀ c ∈ termText t, c ≠ '+' ∧ c ≠ '=' := by
  intro c hc
  rcases mem_intercalate_char hc with rfl | ⟨l, hl, hc⟩
  · exact ⟨by decide, by decide⟩
  · obtain ⟨f, hf, rfl⟩ := List.mem_map.1 hl
    have := factor_chars hU (ht f hf) c hc
    exact ⟨this.1, this.2.2.1⟩

/-- The left-hand side as text. -/
def Equation.lhsText (e : Equation) : List Char := ['+'].intercalate (e.lhs.map termText)

theorem lhs_split (hU : U.Sane) {e : Equation} (he : e.Ok U) : e.lhsText.splitOn '+' = e.lhs.map termText := by
  refine List.splitOn_intercalate '+' ?_ (by simpa using he.lhs_ne)
  intro l hl hm
  obtain ⟨t, ht, rfl⟩ := List.mem_map.1 hl
  exact (term_chars hU (he.lhs_ok t ht) _ hm).1 rfl

theorem lhs_noEq (hU : U.Sane) {e : Equation} (he : e.Ok U) : '=' ∉ e.lhsText := by
  intro h
  rcases mem_intercalate_char h with h | ⟨l, hl, hc⟩
  · revert h; decide
  · obtain ⟨t, ht, rfl⟩ := List.mem_map.1 hl
    exact (term_chars hU (he.lhs_ok t ht) _ hc).2 rfl

theorem rhs_noEq (hU : U.Sane) {e : Equation} (he : e.Ok U) : '=' ∉ termText e.rhs :=
  fun h => (term_chars hU he.rhs_ok _ h).2 rfl

theorem rhs_noPlus (hU : U.Sane) {e : Equation} (he : e.Ok U) : '+' ∉ termText e.rhs :=
  fun h => (term_chars hU he.rhs_ok _ h).1 rfl

/-- The right-hand side with a minus sign in front splits into its factors, the first with a minus sign. -/
theorem rhs_split (hU : U.Sane) {e : Equation} (he : e.Ok U) : ∃ f fs, e.rhs = f :: fs ∧
    ('-' :: termText e.rhs).splitOn '*' = ('-' :: f.text) :: fs.map Factor.text := by
  obtain ⟨f, fs, hf⟩ := List.exists_cons_of_ne_nil he.rhs_ne
  refine ⟨f, fs, hf, ?_⟩
  rw [List.splitOn_cons_eq_if_modifyHead, if_neg (by decide), term_split hU he.rhs_ne he.rhs_ok, hf]
  rfl

end text

/-! ## Values of factors -/

section vals
variable {F : Type} [Field F] [DecidableEq F] {U : Unicode} {wit : List Char → Option F}

theorem tokVal_var {nm : List Char} (hnm : NameOk U nm) {v : F} (hv : wit nm = some v) (neg : Bool) :
    OperandOk wit (Factor.var neg nm).text ∧ tokVal wit (Factor.var neg nm).text = if neg then -v else v := by
  obtain ⟨c, hc, hlt, hne⟩ := hnm.head
  have hnn : nm ≠ [] := by rintro rfl; simp at hc
  obtain ⟨c', rest, rfl⟩ := List.exists_cons_of_ne_nil hnn
  simp only [List.head?_cons, Option.mem_def, Option.some.injEq] at hc
  subst hc
  cases neg with
  | true =>
    simp only [Factor.text, if_true, OperandOk, tokVal, tokBody_cons, tokNeg_cons, bodyVal, hv, List.head?_cons,
      Option.mem_def, Option.some.injEq, exists_eq_left', decide_true, Option.isSome_some, true_or, and_true]
    decide
  | false =>
    simp [Factor.text, OperandOk, tokVal, tokBody_cons, tokNeg_cons, bodyVal, hv, hne, hlt]

variable (hw : ∀ nm v, wit nm = some v → parseI32 nm = none)
include hw

theorem tokVal_lit {k : ℤ} (hk : k.natAbs < 2 ^ 31) :
    OperandOk wit (Factor.lit k).text ∧ tokVal wit (Factor.lit k).text = (k : F) := by
  simp only [Factor.text]
  obtain ⟨c, r, hd, -, hne, hlt⟩ := digits_head (n := k.natAbs)
  have hp : parseI32 (Nat.toDigits 10 k.natAbs) = some (k.natAbs : ℤ) := parseI32_toDigits hk
  have hb := bodyVal_of_parse hw hp
  rcases lt_or_ge k 0 with h | h
  · rw [showInt_neg h]
    constructor
    · refine ⟨⟨'-', rfl, by decide⟩, Or.inr ?_⟩
      rw [tokBody_cons, if_pos rfl, hp]
      rfl
    · unfold tokVal
      rw [tokNeg_cons, tokBody_cons, if_pos rfl, hb]
      simp only [decide_true, if_true]
      have : (k : ℤ) = -(k.natAbs : ℤ) := by omega
      conv_rhs => rw [this]
      push_cast
      rfl
  · rw [showInt_nonneg h]
    rw [hd] at hp hb ⊢
    constructor
    · refine ⟨⟨c, rfl, hlt⟩, Or.inr ?_⟩
      rw [tokBody_cons, if_neg hne, hp]
      rfl
    · unfold tokVal
      rw [tokNeg_cons, tokBody_cons, if_neg hne, hb]
      simp only [hne, decide_false, Bool.false_eq_true, if_false]
      have : (k : ℤ) = (k.natAbs : ℤ) := by omega
      conv_rhs => rw [this]

/-- A literal or a plain variable with an extra minus sign in front. -/
theorem tokVal_minus {f : Factor} (hf : f.Ok U) (ρ : List Char → F)
    (hv : ∀ neg nm, f = .var neg nm → neg = false ∧ wit nm = some (ρ nm)) :
    OperandOk wit ('-' :: f.text) ∧ tokVal wit ('-' :: f.text) = -(f.val ρ) := by
  have key : ∀ v : F, (wit f.text).isSome ∨ (parseI32 f.text).isSome → bodyVal wit f.text = v →
      OperandOk wit ('-' :: f.text) ∧ tokVal wit ('-' :: f.text) = -v := by
    intro v h1 h2
    constructor
    · refine ⟨⟨'-', rfl, by decide⟩, ?_⟩
      rw [tokBody_cons, if_pos rfl]
      exact h1
    · unfold tokVal
      rw [tokNeg_cons, tokBody_cons, if_pos rfl, h2]
      simp
  cases f with
  | var neg nm =>
    obtain ⟨rfl, hr⟩ := hv neg nm rfl
    refine key _ (Or.inl ?_) ?_
    · simp [Factor.text, hr]
    · simp [Factor.text, Factor.val, bodyVal, hr]
  | lit k =>
    have hk : k.natAbs < 2 ^ 31 := hf
    have hp : parseI32 (showInt k) = some k := parseI32_showInt (by omega) (by omega)
    refine key _ (Or.inr ?_) ?_
    · simp [Factor.text, hp]
    · exact bodyVal_of_parse hw hp

theorem tokVal_factor {f : Factor} (hf : f.Ok U) (ρ : List Char → F)
    (hv : ∀ neg nm, f = .var neg nm → wit nm = some (ρ nm)) :
    OperandOk wit f.text ∧ tokVal wit f.text = f.val ρ := by
  cases f with
  | var neg nm => exact tokVal_var hf (hv neg nm rfl) neg
  | lit k => exact tokVal_lit hw hf

end vals

section eqvals
variable {F : Type} [Field F] [DecidableEq F] {U : Unicode} {wit : List Char → Option F} {e : Equation}
  {ρ : List Char → F}

theorem lhs_operands (hU : U.Sane) (he : e.Ok U) (hc : Covers wit e ρ) {t : List Factor} (ht : t ∈ e.lhs) :
    (∀ tok ∈ (termText t).splitOn '*', OperandOk wit (trim U tok)) ∧
    termVal U wit (termText t) = (t.map (Factor.val ρ)).prod := by
  have hall : ∀ f ∈ t, trim U f.text = f.text ∧ OperandOk wit f.text ∧ tokVal wit f.text = f.val ρ := by
    intro f hf
    refine ⟨trim_id fun c hc => (factor_chars hU (he.lhs_ok t ht f hf) c hc).2.2.2,
      tokVal_factor hc.names (he.lhs_ok t ht f hf) ρ ?_⟩
    rintro neg nm rfl
    exact hc.vars nm ⟨neg, Or.inl ⟨t, ht, hf⟩⟩
  rw [termVal, term_split hU (he.term_ne t ht) (he.lhs_ok t ht)]
  constructor
  · intro tok htok
    obtain ⟨f, hf, rfl⟩ := List.mem_map.1 htok
    rw [(hall f hf).1]
    exact (hall f hf).2.1
  · rw [List.map_map]
    congr 1
    apply List.map_congr_left
    intro f hf
    simp only [Function.comp_apply]
    rw [(hall f hf).1, (hall f hf).2.2]

theorem rhs_operands (hU : U.Sane) (he : e.Ok U) (hc : Covers wit e ρ) :
    (∀ tok ∈ ('-' :: termText e.rhs).splitOn '*', OperandOk wit (trim U tok)) ∧
    termVal U wit ('-' :: termText e.rhs) = -(e.rhs.map (Factor.val ρ)).prod := by
  obtain ⟨f, fs, hf, hs⟩ := rhs_split hU he
  have hfok : f.Ok U := he.rhs_ok f (by rw [hf]; simp)
  have hall : ∀ g ∈ fs, trim U g.text = g.text ∧ OperandOk wit g.text ∧ tokVal wit g.text = g.val ρ := by
    intro g hg
    have hg' : g ∈ e.rhs := by rw [hf]; simp [hg]
    refine ⟨trim_id fun c hc => (factor_chars hU (he.rhs_ok g hg') c hc).2.2.2,
      tokVal_factor hc.names (he.rhs_ok g hg') ρ ?_⟩
    rintro neg nm rfl
    exact hc.vars nm ⟨neg, Or.inr hg'⟩
  have htrim : trim U ('-' :: f.text) = '-' :: f.text := by
    refine trim_id fun c hc => ?_
    rcases List.mem_cons.1 hc with rfl | hc
    · exact hU.minus
    · exact (factor_chars hU hfok c hc).2.2.2
  have hmin := tokVal_minus hc.names hfok ρ (by
    rintro neg nm rfl
    constructor
    · cases neg with
      | false => rfl
      | true => exact absurd (by rw [hf]; rfl) (he.rhs_head nm)
    · exact hc.vars nm ⟨neg, Or.inr (by rw [hf]; simp)⟩)
  rw [termVal, hs]
  constructor
  · intro tok htok
    rcases List.mem_cons.1 htok with rfl | htok
    · rw [htrim]; exact hmin.1
    · obtain ⟨g, hg, rfl⟩ := List.mem_map.1 htok
      rw [(hall g hg).1]
      exact (hall g hg).2.1
  · rw [hf, List.map_cons, List.map_cons, List.prod_cons, List.prod_cons, htrim, hmin.2, List.map_map, neg_mul]
    congr 3
    apply List.map_congr_left
    intro g hg
    simp only [Function.comp_apply]
    rw [(hall g hg).1, (hall g hg).2.2]

end eqvals

/-! ## Relations and wiring of the generated calls -/

section calls
variable {F : Type} [FftField F] [DecidableEq F]

theorem wiredCall_relation (T : List Names) (i : ℕ) (g : PGate F) :
    (wiredCall T i g).Relation (wiredCall T i g).a.2.2 (wiredCall T i g).b.2.2 (wiredCall T i g).c.2.2 ↔
      match g.ty with
      | .constant => True
      | .multiplication => g.left.val * g.right.val = g.bottom.val
      | .addition => g.left.val + g.right.val = g.bottom.val := by
  unfold GateCall.Relation wiredCall
  cases g.ty <;> simp [sub_eq_zero]

theorem PGate.Shape.relation {g : PGate F} (h : g.Shape) (T : List Names) (i : ℕ) :
    (wiredCall T i g).Relation (wiredCall T i g).a.2.2 (wiredCall T i g).b.2.2 (wiredCall T i g).c.2.2 := by
  rw [wiredCall_relation]
  unfold PGate.Shape at h
  cases hty : g.ty with
  | constant => trivial
  | multiplication => rw [hty] at h; dsimp only at h ⊢; rw [h]
  | addition => rw [hty] at h; dsimp only at h ⊢; rw [h]

/-- The value at a wire position. -/
def wireAt (gs : List (PGate F)) (p : ℕ × ℕ) : Option (Wire F) :=
  (gs[p.2]?).bind fun g =>
    match p.1 with
    | 0 => some g.left
    | 1 => some g.right
    | 2 => some g.bottom
    | _ => none

theorem nameAt_wireAt (gs : List (PGate F)) (p : ℕ × ℕ) :
    nameAt (gs.map PGate.names) p = (wireAt gs p).map Wire.name := by
  unfold nameAt wireAt
  rw [List.getElem?_map]
  cases gs[p.2]? with
  | none => rfl
  | some g => rcases p.1 with _ | _ | _ | l <;> rfl

theorem callVal_wired (T : List Names) (gs : List (PGate F)) {l : ℕ} (hl : l < 3) (i : ℕ) :
    callVal (wiredCalls T 0 gs) l i = ((wireAt gs (l, i)).map Wire.val).getD 0 := by
  unfold callVal wireAt rowVal
  have := wiredCalls_getElem? T 0 gs i
  rw [Nat.zero_add] at this
  rcases l with _ | _ | _ | l
  · dsimp only; rw [this]; cases gs[i]? <;> rfl
  · dsimp only; rw [this]; cases gs[i]? <;> rfl
  · dsimp only; rw [this]; cases gs[i]? <;> rfl
  · omega

/-- If equal expressions carry equal values, then the generated wiring is a value-preserving permutation. -/
theorem wiringOk_of (gs : List (PGate F)) (n : ℕ) (hn : gs.length ≤ n)
    (hval : ∀ p q w v, wireAt gs p = some w → wireAt gs q = some v → w.name = v.name → w.val = v.val) :
    WiringOk n (wiredCalls (gs.map PGate.names) 0 gs) := by
  set T := gs.map PGate.names with hT
  obtain ⟨σ, h1, -⟩ := restrict_perm (wirePerm T) n
    (fun p hp => (wirePerm_bounds T (by simpa [hT] using hn) p hp).1)
    (fun p hp => (wirePerm_bounds T (by simpa [hT] using hn) p hp).2)
  refine ⟨σ, fun p => ⟨by rw [target_wiredCalls T gs hT p.1.2, h1], ?_⟩⟩
  rw [callVal_wired _ _ (σ p).1.2, callVal_wired _ _ p.1.2, ← h1]
  have hname : nameAt T (wirePerm T ((p.1 : ℕ), (p.2 : ℕ))) = nameAt T ((p.1 : ℕ), (p.2 : ℕ)) := nameAt_nextPos _ _
  rw [hT, nameAt_wireAt, nameAt_wireAt, ← hT] at hname
  cases ha : wireAt gs (wirePerm T ((p.1 : ℕ), (p.2 : ℕ))) with
  | none =>
    rw [ha] at hname
    cases hb : wireAt gs ((p.1 : ℕ), (p.2 : ℕ)) with
    | none => rfl
    | some v => rw [hb] at hname; cases hname
  | some w =>
    rw [ha] at hname
    cases hb : wireAt gs ((p.1 : ℕ), (p.2 : ℕ)) with
    | none => rw [hb] at hname; cases hname
    | some v =>
      rw [hb, Option.map_some, Option.map_some, Option.some.injEq] at hname
      simp only [Option.map_some, Option.getD_some]
      exact hval _ _ _ _ ha hb hname

theorem wireAt_mem {gs : List (PGate F)} {p : ℕ × ℕ} {w : Wire F} (h : wireAt gs p = some w) :
    ∃ g, gs[p.2]? = some g ∧ (w = g.left ∨ w = g.right ∨ w = g.bottom) := by
  unfold wireAt at h
  rw [Option.bind_eq_some_iff] at h
  obtain ⟨g, hg, h⟩ := h
  refine ⟨g, hg, ?_⟩
  split at h
  · simp only [Option.some.injEq] at h; exact Or.inl h.symm
  · simp only [Option.some.injEq] at h; exact Or.inr (Or.inl h.symm)
  · simp only [Option.some.injEq] at h; exact Or.inr (Or.inr h.symm)
  · cases h

/-- The generated circuit of a string `lhs=rhs`. -/
theorem parse_run {wit : List Char → Option F} (hw : ∀ nm v, wit nm = some v → parseI32 nm = none)
    (U : Unicode) (hU : U.isWhitespace '-' = false) {lhs rhs : List Char} (hl : '=' ∉ lhs)
    (hr : '=' ∉ rhs) (hrp : '+' ∉ rhs) {gates : List (PGate F)} {pm : PosMap}
    (h : prepareGenCircuit U wit (lhs ++ '=' :: rhs) = some (gates, pm)) :
    ∃ calls : List (GateCall F), genCircuit gates pm = some (build calls) ∧
      calls = wiredCalls (gates.map PGate.names) 0 gates ∧ calls.length = gates.length ∧
      (∀ call ∈ calls.dropLast, call.Relation call.a.2.2 call.b.2.2 call.c.2.2) ∧
      (∀ n, calls.length ≤ n → WiringOk n calls) ∧
      (AllRelations calls ↔ ((lhs.splitOn '+').map (termVal U wit)).sum + termVal U wit ('-' :: rhs) = 0) ∧
      (NonTrivial U wit lhs rhs → 2 ≤ calls.length) := by
  obtain ⟨init, l, r, N, K, hg, hinit, hgl, hgr, hN, hfin, hnl, hnr, hsum, htriv, -⟩ := prepare_run hw U hU hl hr hrp h
  refine ⟨_, genCircuit_eq gates pm (prepare_pm h), rfl, wiredCalls_length _ _ _, ?_, ?_, ?_, ?_⟩
  · generalize gates.map PGate.names = T
    intro call hcall
    obtain ⟨j, hj, rfl⟩ := List.getElem_of_mem hcall
    rw [List.getElem_dropLast]
    have hj' : j < init.length := by
      rw [List.length_dropLast, wiredCalls_length, hg] at hj
      simpa using hj
    have hget : (wiredCalls T 0 gates)[j]? = some (wiredCall T (0 + j) init[j]) := by
      rw [wiredCalls_getElem?, hg, List.getElem?_append_left hj', List.getElem?_eq_getElem hj']
      rfl
    have hlt : j < (wiredCalls T 0 gates).length := by
      rw [wiredCalls_length, hg, List.length_append]; omega
    rw [List.getElem?_eq_getElem hlt, Option.some.injEq] at hget
    rw [hget]
    exact (hinit _ (List.getElem_mem hj')).shape.relation _ _
  · intro n hn
    rw [wiredCalls_length] at hn
    refine wiringOk_of gates n hn ?_
    -- every wire is either good with a non-final name, or the bottom wire of the final gate
    have hcase : ∀ p w, wireAt gates p = some w → (w.Good wit ∧ NotFinal K w.name) ∨ w = ⟨N, 0⟩ := by
      intro p w hp
      obtain ⟨g, hg', hw'⟩ := wireAt_mem hp
      have hmem := List.mem_of_getElem? hg'
      rw [hg] at hmem
      rcases List.mem_append.1 hmem with hm | hm
      · have := hinit g hm
        rcases hw' with rfl | rfl | rfl
        · exact Or.inl ⟨this.good.1, this.notFinal.1⟩
        · exact Or.inl ⟨this.good.2.1, this.notFinal.2.1⟩
        · exact Or.inl ⟨this.good.2.2, this.notFinal.2.2⟩
      · rw [List.mem_singleton] at hm
        subst hm
        rcases hw' with rfl | rfl | rfl
        · exact Or.inl ⟨hgl, hnl⟩
        · exact Or.inl ⟨hgr, hnr⟩
        · exact Or.inr rfl
    intro p q w v hp hq hname
    rcases hcase p w hp with ⟨h1, h2⟩ | rfl <;> rcases hcase q v hq with ⟨h3, h4⟩ | rfl
    · unfold Wire.Good at h1 h3
      rw [h1, h3, hname]
    · exact absurd (by dsimp only at hname; rw [← hname]; exact h2) hfin
    · exact absurd (by dsimp only at hname; rw [hname]; exact h4) hfin
    · rfl
  · rw [← hsum]
    generalize gates.map PGate.names = T
    have hlen : gates.length = init.length + 1 := by rw [hg]; simp
    have hlast : (wiredCalls T 0 gates)[init.length]? =
        some (wiredCall T init.length ⟨l, r, ⟨N, 0⟩, .addition⟩) := by
      rw [wiredCalls_getElem?, hg]
      simp
    constructor
    · intro hall
      have := hall _ (List.mem_of_getElem? hlast)
      rw [wiredCall_relation] at this
      exact this
    · intro h0 call hcall
      obtain ⟨j, hj, rfl⟩ := List.getElem_of_mem hcall
      have hj2 := hj
      rw [wiredCalls_length, hlen] at hj
      by_cases hjl : j = init.length
      · subst hjl
        rw [List.getElem?_eq_getElem hj2, Option.some.injEq] at hlast
        rw [hlast, wiredCall_relation]
        exact h0
      · have hj' : j < init.length := by omega
        have hget : (wiredCalls T 0 gates)[j]? = some (wiredCall T (0 + j) init[j]) := by
          rw [wiredCalls_getElem?, hg, List.getElem?_append_left hj', List.getElem?_eq_getElem hj']
          rfl
        rw [List.getElem?_eq_getElem hj2, Option.some.injEq] at hget
        rw [hget]
        exact (hinit _ (List.getElem_mem hj')).shape.relation _ _
  · intro ht
    rw [wiredCalls_length, hg, List.length_append, List.length_singleton]
    have := List.length_pos_iff.2 (htriv ht)
    omega

end calls

/-! ## C61 -/

section C61
variable {F : Type} [FftField F] [DecidableEq F]

theorem prepare_equation {U : Unicode} (hU : U.Sane) {e : Equation} (he : e.Ok U) {wit : List Char → Option F}
    {ρ : List Char → F} (hc : Covers wit e ρ) : ∃ gates pm, prepareGenCircuit U wit e.text = some (gates, pm) := by
  have : (prepareGenCircuit U wit e.text).isSome := by
    rw [prepare_isSome]
    refine ⟨_, (splitTerms_eq_some _ _).2 ⟨e.lhsText, termText e.rhs, rfl, lhs_noEq hU he, rhs_noEq hU he, rfl⟩, ?_⟩
    rw [lhs_split hU he]
    intro t ht
    rcases List.mem_append.1 ht with ht | ht
    · obtain ⟨t', ht', rfl⟩ := List.mem_map.1 ht
      exact (lhs_operands hU he hc ht').1
    · rw [List.mem_singleton] at ht
      subst ht
      exact (rhs_operands hU he hc).1
  obtain ⟨⟨gates, pm⟩, h⟩ := Option.isSome_iff_exists.1 this
  exact ⟨gates, pm, h⟩

theorem equation_sum {U : Unicode} (hU : U.Sane) {e : Equation} (he : e.Ok U) {wit : List Char → Option F}
    {ρ : List Char → F} (hc : Covers wit e ρ) :
    ((e.lhsText.splitOn '+').map (termVal U wit)).sum + termVal U wit ('-' :: termText e.rhs) = 0 ↔ e.Holds ρ := by
  rw [(rhs_operands hU he hc).2, lhs_split hU he, List.map_map, ← sub_eq_add_neg, sub_eq_zero]
  unfold Equation.Holds
  have : e.lhs.map (termVal U wit ∘ termText) = e.lhs.map fun t => (t.map (Factor.val ρ)).prod := by
    apply List.map_congr_left
    intro t ht
    exact (lhs_operands hU he hc ht).2
  rw [this]

/-- **C61**: for every equation `e` of the input language, every input string that normalises to the text of `e`,
and every witness map giving the variables the values `ρ`: `parse` returns a circuit; all its gates except possibly
the last hold; its wiring is, for every padded size, a permutation of the wire positions that connects only wires
with equal values; and all gates hold iff the equation holds for `ρ`. -/
theorem C61_parsed_circuit (U : Unicode) (hU : U.Sane) (e : Equation) (he : e.Ok U) (wit : List Char → Option F)
    (ρ : List Char → F) (hc : Covers wit e ρ) (input : List Char) (hin : parseString U input = some e.text) :
    ∃ calls : List (GateCall F), parse U wit input = some (build calls) ∧
      (∀ call ∈ calls.dropLast, call.Relation call.a.2.2 call.b.2.2 call.c.2.2) ∧
      (∀ n, calls.length ≤ n → WiringOk n calls) ∧
      (AllRelations calls ↔ e.Holds ρ) := by
  obtain ⟨gates, pm, hp⟩ := prepare_equation hU he hc
  obtain ⟨calls, h1, -, -, h3, h4, h5, -⟩ := parse_run hc.names U hU.minus (lhs_noEq hU he) (rhs_noEq hU he)
    (rhs_noPlus hU he) hp
  refine ⟨calls, ?_, h3, h4, h5.trans (equation_sum hU he hc)⟩
  unfold parse
  rw [hin]
  simp [hp, h1]

end C61

end Verif.Plonk

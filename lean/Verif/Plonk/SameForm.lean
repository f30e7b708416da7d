import Verif.Plonk.SameCircuit
import Verif.Plonk.EndToEnd

/-!
# C110: which equations share a verifier

Two texts are preprocessed to the same circuit exactly when one arises from the other by replacing operands.  An operand is
a name *with its sign*: `x` and `-x` are different operands, nothing relates them, and the right-hand side gets a minus sign.
-/

set_option linter.unusedSectionVars false
set_option linter.unusedSimpArgs false
set_option linter.unusedVariables false

namespace Verif.Plonk

open Verif.Ark Verif.Kzg

/-! ## Specification -/

/-- The operands of a normalised text, summand by summand: the left-hand side is split at `+`, the right-hand side is one more
summand with a minus sign in front; every summand is split at `*` and the parts are trimmed. -/
def operands (U : Unicode) (s : List Char) : Option (List (List (List Char))) :=
  match s.splitOn '=' with
  | [l, r] => some ((l.splitOn '+' ++ ['-' :: r]).map fun t => (t.splitOn '*').map (trim U))
  | _ => none

/-- The operands `B` are the operands `A` with other names: `σ` replaces every operand (`x` and `-x` independently of one
another), different operands by different operands, numbers by numbers with the same value in the field, and, if there are
numbers at all, `0` by `0` and nothing else by `0`. -/
structure Renames (F : Type) [Field F] (σ : List Char → List Char) (A B : List (List (List Char))) : Prop where
  /-- same sums of products -/
  form : B = A.map (List.map σ)
  /-- different operands stay different -/
  inj : ∀ a ∈ A.flatten, ∀ b ∈ A.flatten, σ a = σ b → a = b
  /-- numbers keep their value -/
  number : ∀ a ∈ A.flatten, (parseI32 (σ a)).map (fun k : ℤ => (k : F)) = (parseI32 a).map (fun k : ℤ => (k : F))
  /-- zero stays zero -/
  zero : (∃ a ∈ A.flatten, (parseI32 a).isSome) → ∀ b ∈ A.flatten, σ b = ['0'] ↔ b = ['0']

/-! ## Names -/

/-- The wire expression of a sum of products of operands. -/
def exprName (L : List (List (List Char))) : List Char := ['+'].intercalate (L.map ['*'].intercalate)

theorem intercalate_snoc (sep : List Char) (l : List (List Char)) (h : l ≠ []) (x : List Char) :
    sep.intercalate (l ++ [x]) = sep.intercalate l ++ sep ++ x := by
  induction l with
  | nil => exact absurd rfl h
  | cons a l ih =>
    cases l with
    | nil => simp [List.intercalate_cons_cons]
    | cons b l =>
      rw [List.cons_append, List.cons_append, List.intercalate_cons_cons, List.intercalate_cons_cons,
        ← List.cons_append, ih (by simp)]
      simp only [List.append_assoc]

theorem exprName_snoc {L : List (List (List Char))} (h : L ≠ []) (t : List (List Char)) :
    exprName (L ++ [t]) = exprName L ++ '+' :: exprName [t] := by
  unfold exprName
  rw [List.map_append, List.map_singleton, intercalate_snoc _ _ (by simpa using h)]
  simp

theorem exprName_mul {p : List (List Char)} (h : p ≠ []) (v : List Char) :
    exprName [p ++ [v]] = exprName [p] ++ '*' :: v := by
  unfold exprName
  simp only [List.map_singleton, List.intercalate_singleton]
  rw [intercalate_snoc _ _ h]
  simp

theorem exprName_token (a : List Char) : exprName [[a]] = a := by simp [exprName]

/-- Operands without operator signs, no empty sums or products. -/
structure Plain (L : List (List (List Char))) : Prop where
  ne : L ≠ []
  terms : ∀ t ∈ L, t ≠ []
  chars : ∀ t ∈ L, ∀ a ∈ t, '+' ∉ a ∧ '*' ∉ a

/-- The operands of an expression. -/
def tree (s : List Char) : List (List (List Char)) := (s.splitOn '+').map fun t => t.splitOn '*'

theorem tree_exprName {L : List (List (List Char))} (h : Plain L) : tree (exprName L) = L := by
  unfold tree exprName
  rw [List.splitOn_intercalate '+' ?_ (by simpa using h.ne), List.map_map]
  · conv_rhs => rw [← List.map_id L]
    refine List.map_congr_left fun t ht => ?_
    exact List.splitOn_intercalate '*' (fun l hl => (h.chars t ht l hl).2) (h.terms t ht)
  · intro l hl hm
    obtain ⟨t, ht, rfl⟩ := List.mem_map.1 hl
    rcases mem_intercalate_char hm with h' | ⟨a, ha, hc⟩
    · revert h'; decide
    · exact (h.chars t ht a ha).1 hc

theorem exprName_inj {L L' : List (List (List Char))} (h : Plain L) (h' : Plain L') (e : exprName L = exprName L') :
    L = L' := by rw [← tree_exprName h, e, tree_exprName h']

/-! ## The gates asked for -/

/-- Constant gate of a number. -/
def constReq (a : List Char) : CGate := ⟨exprName [[a]], exprName [[['0']]], exprName [[a], [['0']]], .constant⟩

/-- Multiplication gate. -/
def mulReq (p : List (List Char)) (v : List Char) : CGate :=
  ⟨exprName [p], exprName [[v]], exprName [p ++ [v]], .multiplication⟩

/-- Addition gate. -/
def addReq (L : List (List (List Char))) (t : List (List Char)) : CGate :=
  ⟨exprName L, exprName [t], exprName (L ++ [t]), .addition⟩

/-- Constants of a product. -/
def consts (t : List (List Char)) : List CGate := (t.filter fun a => (parseI32 a).isSome).map constReq

/-- Multiplications of a product. -/
def muls : List (List Char) → List (List Char) → List CGate
  | _, [] => []
  | p, v :: rest => mulReq p v :: muls (p ++ [v]) rest

/-- Gates of a product. -/
def termReqs (t : List (List Char)) : List CGate := consts t ++ muls (t.take 1) (t.drop 1)

/-- Gates of further summands. -/
def adds : List (List (List Char)) → List (List (List Char)) → List CGate
  | _, [] => []
  | L, t :: rest => termReqs t ++ addReq L t :: adds (L ++ [t]) rest

/-- All gates asked for, with repetitions. -/
def reqs : List (List (List Char)) → List CGate
  | [] => []
  | t :: rest => termReqs t ++ adds [t] rest

/-- Collections after asking for gates. -/
def ask (rs : List CGate) (st : CState) : CState := rs.foldl CState.insertGate st

theorem ask_append (a b : List CGate) (st : CState) : ask (a ++ b) st = ask b (ask a st) := List.foldl_append

theorem cTokens_ask (U : Unicode) (toks : List (List Char)) (st : CState) :
    cTokens U toks st = (toks.map (trim U), ask (consts (toks.map (trim U))) st) := by
  induction toks generalizing st with
  | nil => rfl
  | cons s rest ih =>
    simp only [cTokens, ih, List.map_cons]
    congr 1
    unfold consts checkConstant
    by_cases hp : (parseI32 (trim U s)).isSome
    · rw [if_pos hp, List.filter_cons, if_pos hp, List.map_cons]
      unfold ask
      rw [List.foldl_cons]
      congr 2
      unfold cConstantGate constReq
      simp [exprName]
    · rw [if_neg hp, List.filter_cons, if_neg hp]

theorem cMulReduce_ask (ws p : List (List Char)) (hp : p ≠ []) (st : CState) :
    cMulReduce (exprName [p]) ws st = (exprName [p ++ ws], ask (muls p ws) st) := by
  induction ws generalizing p st with
  | nil => simp [cMulReduce, muls, ask]
  | cons v ws ih =>
    unfold cMulReduce muls
    simp only [cMultiplicationGate]
    rw [← exprName_mul hp, ih (p ++ [v]) (by simp)]
    simp only [List.append_assoc, List.singleton_append, ask, List.foldl_cons]
    unfold mulReq
    rw [exprName_token]

theorem cTerm_ask (U : Unicode) (t : List Char) (st : CState) :
    cTerm U t st = some (exprName [(t.splitOn '*').map (trim U)], ask (termReqs ((t.splitOn '*').map (trim U))) st) := by
  unfold cTerm
  rw [cTokens_ask]
  dsimp only
  cases hs : t.splitOn '*' with
  | nil => exact absurd hs (List.splitOn_ne_nil _ _)
  | cons a toks =>
    simp only [List.map_cons]
    rw [← exprName_token (trim U a), cMulReduce_ask _ [trim U a] (by simp)]
    rw [exprName_token, termReqs, ask_append]
    simp

theorem cAddReduce_ask (U : Unicode) (ts : List (List Char)) (L : List (List (List Char))) (hL : L ≠ []) (st : CState) :
    cAddReduce U ts (exprName L) st =
      some (exprName (L ++ ts.map fun t => (t.splitOn '*').map (trim U)),
        ask (adds L (ts.map fun t => (t.splitOn '*').map (trim U))) st) := by
  induction ts generalizing L st with
  | nil => simp [cAddReduce, adds, ask]
  | cons t ts ih =>
    simp only [cAddReduce, cTerm_ask, Option.bind_eq_bind, Option.bind_some, cAdditionalGate]
    rw [← exprName_snoc hL, ih _ (by simp), List.map_cons, adds, ask_append]
    simp only [List.append_assoc, List.singleton_append, ask, List.foldl_cons]
    rfl

theorem prepareGeneration_ask (U : Unicode) {s : List Char} {A : List (List (List Char))} (h : operands U s = some A) :
    prepareGeneration U s = some ((ask (reqs A) ⟨[], [], fun _ => []⟩).gates, (ask (reqs A) ⟨[], [], fun _ => []⟩).pm) := by
  unfold operands at h
  unfold prepareGeneration splitTerms
  split at h
  · next l r hs =>
    rw [Option.some.injEq] at h
    subst h
    simp only [hs, Option.bind_eq_bind, Option.bind_some]
    cases hl : l.splitOn '+' with
    | nil => exact absurd hl (List.splitOn_ne_nil _ _)
    | cons t ts =>
      simp only [List.cons_append, cTerm_ask, Option.bind_some, List.map_cons, reqs]
      rw [cAddReduce_ask U _ _ (by simp), ask_append]
      rfl
  · cases h

theorem operands_shape (U : Unicode) {s : List Char} {A : List (List (List Char))} (h : operands U s = some A) :
    2 ≤ A.length ∧ (∀ t ∈ A, t ≠ []) ∧ ∀ t ∈ A, ∀ a ∈ t, '*' ∉ a := by
  unfold operands at h
  split at h
  · next l r hs =>
    rw [Option.some.injEq] at h
    subst h
    refine ⟨?_, ?_, ?_⟩
    · have : 0 < (l.splitOn '+').length := List.length_pos_iff.2 (List.splitOn_ne_nil _ _)
      simp only [List.length_map, List.length_append, List.length_singleton]
      omega
    · intro t ht
      obtain ⟨u, -, rfl⟩ := List.mem_map.1 ht
      simp [List.splitOn_ne_nil]
    · intro t ht a ha hm
      obtain ⟨u, -, rfl⟩ := List.mem_map.1 ht
      obtain ⟨b, hb, rfl⟩ := List.mem_map.1 ha
      have : '*' ∈ b := by
        unfold trim at hm
        have h1 := (List.dropWhile_sublist _).mem (List.mem_reverse.1 hm)
        exact (List.dropWhile_sublist _).mem (List.mem_reverse.1 h1)
      exact (mem_splitOn hb _ this).2 rfl
  · cases h

/-! ## Gates after removing repetitions -/

/-- The empty collections. -/
abbrev noGates : CState := ⟨[], [], fun _ => []⟩

/-- The gates of the verifier's circuit. -/
def gatesOf (A : List (List (List Char))) : List CGate := (ask (reqs A) noGates).gates

theorem ask_ok {rs : List CGate} (hrs : ∀ g ∈ rs, g.ty = .constant → (parseI32 g.left).isSome) {st : CState} (h : st.Ok) :
    (ask rs st).Ok := by
  induction rs generalizing st with
  | nil => exact h
  | cons g rs ih =>
    exact ih (fun x hx => hrs x (List.mem_cons_of_mem _ hx)) (h.insertGate (hrs g (by simp))).1

/-- The list and the set have the same elements. -/
def Tight (st : CState) : Prop := ∀ g, g ∈ st.gates ↔ g ∈ st.set

theorem tight_insert {st : CState} (h : Tight st) (g : CGate) :
    Tight (st.insertGate g) ∧ ∀ x, x ∈ (st.insertGate g).gates ↔ x ∈ st.gates ∨ x = g := by
  unfold CState.insertGate
  by_cases hin : g ∈ st.set
  · rw [if_pos hin]
    refine ⟨h, fun x => ⟨Or.inl, ?_⟩⟩
    rintro (hx | rfl)
    · exact hx
    · exact (h x).2 hin
  · rw [if_neg hin]
    refine ⟨fun x => ?_, fun x => ?_⟩
    · simp only [List.mem_append, List.mem_cons, List.not_mem_nil, or_false, h x]
      exact Or.comm
    · simp

theorem mem_ask (rs : List CGate) {st : CState} (h : Tight st) (x : CGate) :
    x ∈ (ask rs st).gates ↔ x ∈ st.gates ∨ x ∈ rs := by
  induction rs generalizing st with
  | nil => simp [ask]
  | cons g rs ih =>
    show x ∈ (ask rs (st.insertGate g)).gates ↔ _
    rw [ih (tight_insert h g).1, (tight_insert h g).2, List.mem_cons, or_assoc]

theorem mem_gatesOfOperands {A : List (List (List Char))} {g : CGate} : g ∈ gatesOf A ↔ g ∈ reqs A := by
  unfold gatesOf
  rw [mem_ask _ (fun g => by simp)]
  simp

theorem ask_ren (f : List Char → List Char) (rs : List CGate) (st st' : CState)
    (hinj : ∀ x ∈ st.set ++ rs, ∀ y ∈ st.set ++ rs, CGate.withNames f x = CGate.withNames f y → x = y)
    (hg : st'.gates = st.gates.map (CGate.withNames f)) (hs : st'.set = st.set.map (CGate.withNames f)) :
    (ask (rs.map (CGate.withNames f)) st').gates = (ask rs st).gates.map (CGate.withNames f) := by
  induction rs generalizing st st' with
  | nil => exact hg
  | cons g rs ih =>
    show (ask (rs.map (CGate.withNames f)) (st'.insertGate (CGate.withNames f g))).gates =
      (ask rs (st.insertGate g)).gates.map (CGate.withNames f)
    have hmem : CGate.withNames f g ∈ st'.set ↔ g ∈ st.set := by
      rw [hs]
      constructor
      · intro h
        obtain ⟨y, hy, e⟩ := List.mem_map.1 h
        have := hinj y (by simp [hy]) g (by simp) e
        rwa [← this]
      · exact fun h => List.mem_map_of_mem h
    by_cases hin : g ∈ st.set
    · have e1 : st.insertGate g = st := by unfold CState.insertGate; rw [if_pos hin]
      have e2 : st'.insertGate (CGate.withNames f g) = st' := by unfold CState.insertGate; rw [if_pos (hmem.2 hin)]
      rw [e1, e2]
      refine ih st st' (fun x hx y hy => hinj x ?_ y ?_) hg hs
      · rcases List.mem_append.1 hx with h | h <;> simp [h]
      · rcases List.mem_append.1 hy with h | h <;> simp [h]
    · refine ih _ _ ?_ ?_ ?_
      · intro x hx y hy
        apply hinj
        · unfold CState.insertGate at hx
          rw [if_neg hin] at hx
          simp only [List.cons_append, List.mem_cons, List.mem_append] at hx ⊢
          rcases hx with h | h | h <;> simp [h]
        · unfold CState.insertGate at hy
          rw [if_neg hin] at hy
          simp only [List.cons_append, List.mem_cons, List.mem_append] at hy ⊢
          rcases hy with h | h | h <;> simp [h]
      · unfold CState.insertGate
        rw [if_neg hin, if_neg (fun h => hin (hmem.1 h))]
        simp [hg]
      · unfold CState.insertGate
        rw [if_neg hin, if_neg (fun h => hin (hmem.1 h))]
        simp [hs]

/-! ## Which gates are asked for -/

theorem mem_consts {t : List (List Char)} {g : CGate} :
    g ∈ consts t ↔ ∃ a ∈ t, (parseI32 a).isSome ∧ g = constReq a := by
  unfold consts
  simp only [List.mem_map, List.mem_filter]
  constructor
  · rintro ⟨a, ⟨h1, h2⟩, rfl⟩; exact ⟨a, h1, h2, rfl⟩
  · rintro ⟨a, h1, h2, rfl⟩; exact ⟨a, ⟨h1, h2⟩, rfl⟩

theorem mem_muls {p rest : List (List Char)} {g : CGate} :
    g ∈ muls p rest ↔ ∃ q v, q ++ [v] <+: rest ∧ g = mulReq (p ++ q) v := by
  induction rest generalizing p with
  | nil => simp [muls]
  | cons w rest ih =>
    rw [muls, List.mem_cons, ih]
    constructor
    · rintro (rfl | ⟨q, v, h, rfl⟩)
      · exact ⟨[], w, by simp, by simp⟩
      · exact ⟨w :: q, v, by simpa using h, by simp⟩
    · rintro ⟨q, v, h, rfl⟩
      cases q with
      | nil =>
        left
        have : v = w := by
          have := h
          rw [List.nil_append, List.cons_prefix_cons] at this
          exact this.1
        simp [this]
      | cons w' q =>
        rw [List.cons_append, List.cons_prefix_cons] at h
        obtain ⟨rfl, h⟩ := h
        exact Or.inr ⟨q, v, h, by simp⟩

theorem mem_termMuls {t : List (List Char)} {g : CGate} :
    g ∈ muls (t.take 1) (t.drop 1) ↔ ∃ q v, q ≠ [] ∧ q ++ [v] <+: t ∧ g = mulReq q v := by
  cases t with
  | nil =>
    simp [muls]
  | cons a t =>
    rw [mem_muls]
    simp only [List.take_succ_cons, List.take_zero, List.drop_succ_cons, List.drop_zero, List.singleton_append]
    constructor
    · rintro ⟨q, v, h, rfl⟩
      exact ⟨a :: q, v, by simp, by simpa using h, rfl⟩
    · rintro ⟨q, v, hq, h, rfl⟩
      cases q with
      | nil => exact absurd rfl hq
      | cons a' q =>
        rw [List.cons_append, List.cons_prefix_cons] at h
        obtain ⟨rfl, h⟩ := h
        exact ⟨q, v, h, rfl⟩

theorem mem_adds {L rest : List (List (List Char))} {g : CGate} :
    g ∈ adds L rest ↔ (∃ t ∈ rest, g ∈ termReqs t) ∨ ∃ q t, q ++ [t] <+: rest ∧ g = addReq (L ++ q) t := by
  induction rest generalizing L with
  | nil => simp [adds]
  | cons w rest ih =>
    rw [adds, List.mem_append, List.mem_cons, ih]
    constructor
    · rintro (h | rfl | ⟨t, ht, h⟩ | ⟨q, t, h, rfl⟩)
      · exact Or.inl ⟨w, by simp, h⟩
      · exact Or.inr ⟨[], w, by simp, by simp⟩
      · exact Or.inl ⟨t, by simp [ht], h⟩
      · exact Or.inr ⟨w :: q, t, by simpa using h, by simp⟩
    · rintro (⟨t, ht, h⟩ | ⟨q, t, h, rfl⟩)
      · rcases List.mem_cons.1 ht with rfl | ht
        · exact Or.inl h
        · exact Or.inr (Or.inr (Or.inl ⟨t, ht, h⟩))
      · cases q with
        | nil =>
          right; left
          rw [List.nil_append, List.cons_prefix_cons] at h
          simp [h.1]
        | cons w' q =>
          rw [List.cons_append, List.cons_prefix_cons] at h
          obtain ⟨rfl, h⟩ := h
          exact Or.inr (Or.inr (Or.inr ⟨q, t, h, by simp⟩))

/-- All gates asked for: a constant gate for every number, a multiplication gate for every proper prefix of a product, an
addition gate for every proper prefix of the sum. -/
theorem mem_reqs {A : List (List (List Char))} {g : CGate} :
    g ∈ reqs A ↔ (∃ t ∈ A, ∃ a ∈ t, (parseI32 a).isSome ∧ g = constReq a) ∨
      (∃ t ∈ A, ∃ q v, q ≠ [] ∧ q ++ [v] <+: t ∧ g = mulReq q v) ∨
      ∃ L t, L ≠ [] ∧ L ++ [t] <+: A ∧ g = addReq L t := by
  have hterm : ∀ t, g ∈ termReqs t ↔ (∃ a ∈ t, (parseI32 a).isSome ∧ g = constReq a) ∨
      ∃ q v, q ≠ [] ∧ q ++ [v] <+: t ∧ g = mulReq q v := by
    intro t
    rw [termReqs, List.mem_append, mem_consts, mem_termMuls]
  cases A with
  | nil => simp [reqs]
  | cons a A =>
    rw [reqs, List.mem_append, mem_adds]
    constructor
    · rintro (h | ⟨t, ht, h⟩ | ⟨q, t, h, rfl⟩)
      · rcases (hterm a).1 h with h | h
        · exact Or.inl ⟨a, by simp, h⟩
        · exact Or.inr (Or.inl ⟨a, by simp, h⟩)
      · rcases (hterm t).1 h with h | h
        · exact Or.inl ⟨t, by simp [ht], h⟩
        · exact Or.inr (Or.inl ⟨t, by simp [ht], h⟩)
      · exact Or.inr (Or.inr ⟨[a] ++ q, t, by simp, by simpa using h, rfl⟩)
    · have hin : ∀ t ∈ a :: A, g ∈ termReqs t → g ∈ termReqs a ∨ (∃ t ∈ A, g ∈ termReqs t) ∨
          ∃ q t, q ++ [t] <+: A ∧ g = addReq ([a] ++ q) t := by
        intro t ht h
        rcases List.mem_cons.1 ht with rfl | ht
        · exact Or.inl h
        · exact Or.inr (Or.inl ⟨t, ht, h⟩)
      rintro (⟨t, ht, h⟩ | ⟨t, ht, h⟩ | ⟨L, t, hL, h, rfl⟩)
      · exact hin t ht ((hterm t).2 (Or.inl h))
      · exact hin t ht ((hterm t).2 (Or.inr h))
      · cases L with
        | nil => exact absurd rfl hL
        | cons a' L =>
          rw [List.cons_append, List.cons_prefix_cons] at h
          obtain ⟨rfl, h⟩ := h
          exact Or.inr (Or.inr ⟨L, t, h, rfl⟩)

/-! ## Renamed operands give renamed gates -/

theorem plain_of_sub {L : List (List (List Char))} (ne : L ≠ []) (h : ∀ t ∈ L, t ≠ [] ∧ ∀ a ∈ t, '+' ∉ a ∧ '*' ∉ a) : Plain L :=
  ⟨ne, fun t ht => (h t ht).1, fun t ht => (h t ht).2⟩

/-- The wire expression with other operands. -/
def renExpr (σ : List Char → List Char) (s : List Char) : List Char := exprName ((tree s).map (List.map σ))

theorem renExpr_exprName (σ : List Char → List Char) {L : List (List (List Char))} (h : Plain L) :
    renExpr σ (exprName L) = exprName (L.map (List.map σ)) := by
  unfold renExpr
  rw [tree_exprName h]

theorem renExpr_token (σ : List Char → List Char) {a : List Char} (h : '+' ∉ a ∧ '*' ∉ a) : renExpr σ a = σ a := by
  have : Plain [[a]] := plain_of_sub (by simp) (by simpa using h)
  have e := renExpr_exprName σ this
  rw [exprName_token] at e
  rw [e]
  simp [exprName_token]

theorem plain_zero : Plain [[['0']]] := plain_of_sub (by simp) (by simp)

theorem ren_constReq (σ : List Char → List Char) {a : List Char} (h : '+' ∉ a ∧ '*' ∉ a) (h0 : σ ['0'] = ['0']) :
    CGate.withNames (renExpr σ) (constReq a) = constReq (σ a) := by
  unfold constReq CGate.withNames
  have h1 : Plain [[a]] := plain_of_sub (by simp) (by simpa using h)
  have h2 : Plain [[a], [['0']]] := plain_of_sub (by simp) (by simpa using h)
  simp only [renExpr_exprName σ h1, renExpr_exprName σ h2, renExpr_exprName σ plain_zero, List.map_cons, List.map_nil, h0]

theorem ren_mulReq (σ : List Char → List Char) {p : List (List Char)} {v : List Char} (hp : p ≠ [])
    (h : ∀ a ∈ p ++ [v], '+' ∉ a ∧ '*' ∉ a) :
    CGate.withNames (renExpr σ) (mulReq p v) = mulReq (p.map σ) (σ v) := by
  unfold mulReq CGate.withNames
  have h1 : Plain [p] := plain_of_sub (by simp) (by
    intro t ht; rw [List.mem_singleton] at ht; subst ht; exact ⟨hp, fun a ha => h a (by simp [ha])⟩)
  have h2 : Plain [[v]] := plain_of_sub (by simp) (by
    intro t ht; rw [List.mem_singleton] at ht; subst ht
    exact ⟨by simp, fun a ha => h a (by rw [List.mem_singleton] at ha; simp [ha])⟩)
  have h3 : Plain [p ++ [v]] := plain_of_sub (by simp) (by
    intro t ht; rw [List.mem_singleton] at ht; subst ht; exact ⟨by simp, h⟩)
  simp only [renExpr_exprName σ h1, renExpr_exprName σ h2, renExpr_exprName σ h3, List.map_cons, List.map_nil,
    List.map_append]

theorem ren_addReq (σ : List Char → List Char) {L : List (List (List Char))} {t : List (List Char)} (hL : L ≠ [])
    (h : ∀ u ∈ L ++ [t], u ≠ [] ∧ ∀ a ∈ u, '+' ∉ a ∧ '*' ∉ a) :
    CGate.withNames (renExpr σ) (addReq L t) = addReq (L.map (List.map σ)) (t.map σ) := by
  unfold addReq CGate.withNames
  have h1 : Plain L := plain_of_sub hL fun u hu => h u (by simp [hu])
  have h2 : Plain [t] := plain_of_sub (by simp) (by
    intro u hu; rw [List.mem_singleton] at hu; subst hu; exact h u (by simp))
  have h3 : Plain (L ++ [t]) := plain_of_sub (by simp) h
  simp only [renExpr_exprName σ h1, renExpr_exprName σ h2, renExpr_exprName σ h3, List.map_cons, List.map_nil,
    List.map_append]

theorem muls_ren (σ : List Char → List Char) (rest p : List (List Char)) (hp : p ≠ [])
    (h : ∀ a ∈ p ++ rest, '+' ∉ a ∧ '*' ∉ a) :
    muls (p.map σ) (rest.map σ) = (muls p rest).map (CGate.withNames (renExpr σ)) := by
  induction rest generalizing p with
  | nil => rfl
  | cons v rest ih =>
    simp only [muls, List.map_cons]
    rw [ren_mulReq σ hp (fun a ha => h a (by
      rcases List.mem_append.1 ha with ha | ha
      · simp [ha]
      · rw [List.mem_singleton] at ha; simp [ha])), ← ih (p ++ [v]) (by simp) (by simpa using h)]
    simp

theorem consts_ren (σ : List Char → List Char) (t : List (List Char)) (h : ∀ a ∈ t, '+' ∉ a ∧ '*' ∉ a)
    (hnum : ∀ a ∈ t, (parseI32 (σ a)).isSome = (parseI32 a).isSome)
    (h0 : (∃ a ∈ t, (parseI32 a).isSome) → σ ['0'] = ['0']) :
    consts (t.map σ) = (consts t).map (CGate.withNames (renExpr σ)) := by
  unfold consts
  rw [List.filter_map, List.map_map, List.map_map]
  have : t.filter ((fun a => (parseI32 a).isSome) ∘ σ) = t.filter fun a => (parseI32 a).isSome :=
    List.filter_congr fun a ha => hnum a ha
  rw [this]
  refine List.map_congr_left fun a ha => ?_
  rw [List.mem_filter] at ha
  exact (ren_constReq σ (h a ha.1) (h0 ⟨a, ha.1, ha.2⟩)).symm

theorem termReqs_ren (σ : List Char → List Char) (t : List (List Char)) (h : ∀ a ∈ t, '+' ∉ a ∧ '*' ∉ a)
    (hnum : ∀ a ∈ t, (parseI32 (σ a)).isSome = (parseI32 a).isSome)
    (h0 : (∃ a ∈ t, (parseI32 a).isSome) → σ ['0'] = ['0']) :
    termReqs (t.map σ) = (termReqs t).map (CGate.withNames (renExpr σ)) := by
  unfold termReqs
  rw [List.map_append, consts_ren σ t h hnum h0]
  congr 1
  cases t with
  | nil => simp [muls]
  | cons a t =>
    have := muls_ren σ t [a] (by simp) (by simpa using h)
    simpa using this

theorem adds_ren (σ : List Char → List Char) (rest L : List (List (List Char))) (hL : L ≠ [])
    (h : ∀ u ∈ L ++ rest, u ≠ [] ∧ ∀ a ∈ u, '+' ∉ a ∧ '*' ∉ a)
    (hnum : ∀ t ∈ rest, ∀ a ∈ t, (parseI32 (σ a)).isSome = (parseI32 a).isSome)
    (h0 : (∃ t ∈ rest, ∃ a ∈ t, (parseI32 a).isSome) → σ ['0'] = ['0']) :
    adds (L.map (List.map σ)) (rest.map (List.map σ)) = (adds L rest).map (CGate.withNames (renExpr σ)) := by
  induction rest generalizing L with
  | nil => rfl
  | cons t rest ih =>
    simp only [adds, List.map_cons, List.map_append]
    rw [termReqs_ren σ t (h t (by simp)).2 (hnum t (by simp)) (fun ⟨a, ha⟩ => h0 ⟨t, by simp, a, ha⟩),
      ren_addReq σ hL (fun u hu => h u (by
        rcases List.mem_append.1 hu with hu | hu
        · simp [hu]
        · rw [List.mem_singleton] at hu; simp [hu])),
      ← ih (L ++ [t]) (by simp) (by simpa using h) (fun t ht => hnum t (by simp [ht]))
        (fun ⟨t, ht, x⟩ => h0 ⟨t, by simp [ht], x⟩)]
    simp

theorem reqs_ren (σ : List Char → List Char) (A : List (List (List Char)))
    (h : ∀ u ∈ A, u ≠ [] ∧ ∀ a ∈ u, '+' ∉ a ∧ '*' ∉ a)
    (hnum : ∀ t ∈ A, ∀ a ∈ t, (parseI32 (σ a)).isSome = (parseI32 a).isSome)
    (h0 : (∃ t ∈ A, ∃ a ∈ t, (parseI32 a).isSome) → σ ['0'] = ['0']) :
    reqs (A.map (List.map σ)) = (reqs A).map (CGate.withNames (renExpr σ)) := by
  cases A with
  | nil => rfl
  | cons t A =>
    simp only [reqs, List.map_cons, List.map_append]
    rw [termReqs_ren σ t (h t (by simp)).2 (hnum t (by simp)) (fun ⟨a, ha⟩ => h0 ⟨t, by simp, a, ha⟩),
      ← adds_ren σ A [t] (by simp) (by simpa using h) (fun t ht => hnum t (by simp [ht]))
        (fun ⟨t, ht, x⟩ => h0 ⟨t, by simp [ht], x⟩)]
    simp

/-- Every wire expression is a sum of products of operands, or of the zero of a constant gate. -/
theorem wire_shape {A : List (List (List Char))} (h : ∀ u ∈ A, u ≠ [] ∧ ∀ a ∈ u, '+' ∉ a ∧ '*' ∉ a) {nm : List Char}
    (hn : nm ∈ wireNames (reqs A)) :
    ∃ L, Plain L ∧ nm = exprName L ∧ ∀ t ∈ L, ∀ a ∈ t, a ∈ A.flatten ∨
      (a = ['0'] ∧ ∃ b ∈ A.flatten, (parseI32 b).isSome) := by
  have hfl : ∀ t ∈ A, ∀ a ∈ t, a ∈ A.flatten := fun t ht a ha => List.mem_flatten.2 ⟨t, ht, ha⟩
  obtain ⟨g, hg, hnm⟩ := mem_wireNames.1 hn
  rcases mem_reqs.1 hg with ⟨t, ht, a, ha, hp, rfl⟩ | ⟨t, ht, q, v, hq, hpre, rfl⟩ | ⟨L, t, hL, hpre, rfl⟩
  · have hs := (h t ht).2 a ha
    have hf := hfl t ht a ha
    rcases hnm with rfl | rfl | rfl
    · refine ⟨[[a]], plain_of_sub (by simp) (by simpa using hs), rfl, ?_⟩
      intro u hu b hb
      simp only [List.mem_singleton] at hu
      subst hu
      simp only [List.mem_singleton] at hb
      subst hb
      exact Or.inl hf
    · refine ⟨[[['0']]], plain_zero, rfl, ?_⟩
      intro u hu b hb
      simp only [List.mem_singleton] at hu
      subst hu
      simp only [List.mem_singleton] at hb
      exact Or.inr ⟨hb, a, hf, hp⟩
    · refine ⟨[[a], [['0']]], plain_of_sub (by simp) (by simpa using hs), rfl, ?_⟩
      intro u hu b hb
      simp only [List.mem_cons, List.not_mem_nil, or_false] at hu
      rcases hu with rfl | rfl
      · simp only [List.mem_singleton] at hb
        subst hb
        exact Or.inl hf
      · simp only [List.mem_singleton] at hb
        exact Or.inr ⟨hb, a, hf, hp⟩
  · have hs := (h t ht).2
    have hsub : ∀ a ∈ q ++ [v], a ∈ t := fun a ha => hpre.subset ha
    have one : ∀ w : List (List Char), w ≠ [] → (∀ a ∈ w, a ∈ t) → ∃ L, Plain L ∧ exprName [w] = exprName L ∧
        ∀ t ∈ L, ∀ a ∈ t, a ∈ A.flatten ∨ (a = ['0'] ∧ ∃ b ∈ A.flatten, (parseI32 b).isSome) := by
      intro w hw hwt
      refine ⟨[w], plain_of_sub (by simp) ?_, rfl, ?_⟩
      · intro u hu
        rw [List.mem_singleton] at hu
        subst hu
        exact ⟨hw, fun a ha => hs a (hwt a ha)⟩
      · intro u hu a ha
        rw [List.mem_singleton] at hu
        subst hu
        exact Or.inl (hfl t ht a (hwt a ha))
    rcases hnm with rfl | rfl | rfl
    · exact one q hq fun a ha => hsub a (by simp [ha])
    · exact one [v] (by simp) fun a ha => hsub a (by rw [List.mem_singleton] at ha; simp [ha])
    · exact one (q ++ [v]) (by simp) hsub
  · have hsub : ∀ u ∈ L ++ [t], u ∈ A := fun u hu => hpre.subset hu
    have many : ∀ M : List (List (List Char)), M ≠ [] → (∀ u ∈ M, u ∈ A) → ∃ L, Plain L ∧ exprName M = exprName L ∧
        ∀ t ∈ L, ∀ a ∈ t, a ∈ A.flatten ∨ (a = ['0'] ∧ ∃ b ∈ A.flatten, (parseI32 b).isSome) := by
      intro M hM hMA
      exact ⟨M, plain_of_sub hM fun u hu => h u (hMA u hu), rfl, fun u hu a ha => Or.inl (hfl u (hMA u hu) a ha)⟩
    rcases hnm with rfl | rfl | rfl
    · exact many L hL fun u hu => hsub u (by simp [hu])
    · exact many [t] (by simp) fun u hu => hsub u (by rw [List.mem_singleton] at hu; simp [hu])
    · exact many (L ++ [t]) (by simp) hsub

theorem ren_inj_of {f : List Char → List Char} {rs : List CGate}
    (hf : ∀ a ∈ wireNames rs, ∀ b ∈ wireNames rs, f a = f b → a = b) :
    ∀ x ∈ rs, ∀ y ∈ rs, CGate.withNames f x = CGate.withNames f y → x = y := by
  intro x hx y hy e
  obtain ⟨xl, xr, xb, xt⟩ := x
  obtain ⟨yl, yr, yb, yt⟩ := y
  simp only [CGate.withNames, CGate.mk.injEq] at e
  obtain ⟨e1, e2, e3, rfl⟩ := e
  have h1 := hf xl (mem_wireNames.2 ⟨_, hx, Or.inl rfl⟩) yl (mem_wireNames.2 ⟨_, hy, Or.inl rfl⟩) e1
  have h2 := hf xr (mem_wireNames.2 ⟨_, hx, Or.inr (Or.inl rfl)⟩) yr (mem_wireNames.2 ⟨_, hy, Or.inr (Or.inl rfl)⟩) e2
  have h3 := hf xb (mem_wireNames.2 ⟨_, hx, Or.inr (Or.inr rfl)⟩) yb (mem_wireNames.2 ⟨_, hy, Or.inr (Or.inr rfl)⟩) e3
  rw [h1, h2, h3]

theorem wireNames_gatesOf {A : List (List (List Char))} {nm : List Char} :
    nm ∈ wireNames (gatesOf A) ↔ nm ∈ wireNames (reqs A) := by
  simp only [mem_wireNames, mem_gatesOfOperands]

theorem map_inj_on {α β : Type} {f : α → β} {P : α → Prop} (hf : ∀ a b, P a → P b → f a = f b → a = b) :
    ∀ {l l' : List α}, (∀ a ∈ l, P a) → (∀ a ∈ l', P a) → l.map f = l'.map f → l = l'
  | [], [], _, _, _ => rfl
  | [], _ :: _, _, _, e => by simp at e
  | _ :: _, [], _, _, e => by simp at e
  | a :: l, b :: l', h, h', e => by
    simp only [List.map_cons, List.cons.injEq] at e
    rw [hf a b (h a (by simp)) (h' b (by simp)) e.1,
      map_inj_on hf (fun x hx => h x (by simp [hx])) (fun x hx => h' x (by simp [hx])) e.2]

/-- Renamed operands: the gates differ by an injective renaming of the wires. -/
theorem gates_of_renames {F : Type} [Field F] {σ : List Char → List Char} {A B : List (List (List Char))}
    (h : Renames F σ A B) (hA : ∀ u ∈ A, u ≠ [] ∧ ∀ a ∈ u, '+' ∉ a ∧ '*' ∉ a)
    (hB : ∀ u ∈ B, ∀ a ∈ u, '+' ∉ a ∧ '*' ∉ a) :
    ∃ f : List Char → List Char, gatesOf B = (gatesOf A).map (CGate.withNames f) ∧
      (∀ a ∈ wireNames (gatesOf A), ∀ b ∈ wireNames (gatesOf A), f a = f b → a = b) ∧
      ∀ a ∈ A.flatten, f a = σ a := by
  classical
  let num : Prop := ∃ a ∈ A.flatten, (parseI32 a).isSome
  let τ : List Char → List Char := fun a => if num ∧ a = ['0'] then ['0'] else σ a
  have hτ : ∀ a ∈ A.flatten, τ a = σ a := by
    intro a ha
    simp only [τ]
    split
    · next hc => exact ((h.zero hc.1 a ha).2 hc.2).symm
    · rfl
  have hτ0 : num → τ ['0'] = ['0'] := fun hn => by simp only [τ]; rw [if_pos ⟨hn, trivial⟩]
  have hmap : A.map (List.map τ) = B := by
    rw [h.form]
    refine List.map_congr_left fun t ht => List.map_congr_left fun a ha => ?_
    exact hτ a (List.mem_flatten.2 ⟨t, ht, ha⟩)
  have hP : ∀ a b, (a ∈ A.flatten ∨ (a = ['0'] ∧ num)) → (b ∈ A.flatten ∨ (b = ['0'] ∧ num)) → τ a = τ b → a = b := by
    rintro a b (ha | ⟨rfl, hn⟩) (hb | ⟨rfl, hn'⟩) e
    · rw [hτ a ha, hτ b hb] at e
      exact h.inj a ha b hb e
    · rw [hτ a ha, hτ0 hn'] at e
      exact (h.zero hn' a ha).1 e
    · rw [hτ b hb, hτ0 hn] at e
      exact ((h.zero hn b hb).1 e.symm).symm
    · rfl
  have hchars : ∀ a, (a ∈ A.flatten ∨ (a = ['0'] ∧ num)) → '+' ∉ τ a ∧ '*' ∉ τ a := by
    rintro a (ha | ⟨rfl, hn⟩)
    · obtain ⟨t, ht, hat⟩ := List.mem_flatten.1 ha
      refine hB (t.map τ) ?_ (τ a) (List.mem_map_of_mem hat)
      rw [← hmap]
      exact List.mem_map_of_mem ht
    · rw [hτ0 hn]; decide
  have hnum : ∀ t ∈ A, ∀ a ∈ t, (parseI32 (τ a)).isSome = (parseI32 a).isSome := by
    intro t ht a ha
    have hf := List.mem_flatten.2 ⟨t, ht, ha⟩
    have := congrArg Option.isSome (h.number a hf)
    rw [hτ a hf]
    simpa using this
  have hreqs := reqs_ren τ A hA hnum (fun ⟨t, ht, a, ha, hp⟩ => hτ0 ⟨a, List.mem_flatten.2 ⟨t, ht, ha⟩, hp⟩)
  rw [hmap] at hreqs
  have hinj : ∀ a ∈ wireNames (reqs A), ∀ b ∈ wireNames (reqs A), renExpr τ a = renExpr τ b → a = b := by
    intro a ha b hb e
    obtain ⟨L, pL, rfl, hL⟩ := wire_shape hA ha
    obtain ⟨M, pM, rfl, hM⟩ := wire_shape hA hb
    rw [renExpr_exprName τ pL, renExpr_exprName τ pM] at e
    have pl : ∀ L : List (List (List Char)), Plain L → (∀ t ∈ L, ∀ a ∈ t, a ∈ A.flatten ∨ (a = ['0'] ∧ num)) →
        Plain (L.map (List.map τ)) := by
      intro L pL hL
      refine plain_of_sub (by simpa using pL.ne) ?_
      intro u hu
      obtain ⟨t, ht, rfl⟩ := List.mem_map.1 hu
      refine ⟨by simpa using pL.terms t ht, ?_⟩
      intro x hx
      obtain ⟨y, hy, rfl⟩ := List.mem_map.1 hx
      exact hchars y (hL t ht y hy)
    have e2 := exprName_inj (pl L pL hL) (pl M pM hM) e
    rw [map_inj_on (P := fun t : List (List Char) => ∀ a ∈ t, a ∈ A.flatten ∨ (a = ['0'] ∧ num))
      (fun t u ht hu => map_inj_on (P := fun a => a ∈ A.flatten ∨ (a = ['0'] ∧ num)) hP ht hu) hL hM e2]
  refine ⟨renExpr τ, ?_, ?_, ?_⟩
  · unfold gatesOf
    rw [hreqs]
    exact ask_ren _ _ _ _ (by simpa using ren_inj_of hinj) rfl rfl
  · intro a ha b hb
    exact hinj a (wireNames_gatesOf.1 ha) b (wireNames_gatesOf.1 hb)
  · intro a ha
    obtain ⟨t, ht, hat⟩ := List.mem_flatten.1 ha
    rw [renExpr_token τ ((hA t ht).2 a hat), hτ a ha]

/-! ## Renamed gates come from renamed operands -/

theorem prefix_snoc_of_ne {α : Type} {Q B : List α} (h : Q <+: B) (hne : Q ≠ B) : ∃ t, Q ++ [t] <+: B := by
  obtain ⟨r, rfl⟩ := h
  cases r with
  | nil => simp at hne
  | cons t r => exact ⟨t, r, by simp⟩

/-- Two lists of operands whose gates differ by a renaming. -/
structure Decoding (f : List Char → List Char) (A B : List (List (List Char))) : Prop where
  a : ∀ u ∈ A, u ≠ [] ∧ ∀ a ∈ u, '+' ∉ a ∧ '*' ∉ a
  b : ∀ u ∈ B, u ≠ [] ∧ ∀ a ∈ u, '+' ∉ a ∧ '*' ∉ a
  two : 2 ≤ A.length
  inj : ∀ a ∈ wireNames (reqs A), ∀ b ∈ wireNames (reqs A), f a = f b → a = b
  fwd : ∀ g ∈ reqs A, CGate.withNames f g ∈ reqs B
  bwd : ∀ g' ∈ reqs B, ∃ g ∈ reqs A, g' = CGate.withNames f g

namespace Decoding
variable {f : List Char → List Char} {A B : List (List (List Char))}

theorem plain_sum {A L : List (List (List Char))} (h : ∀ u ∈ A, u ≠ [] ∧ ∀ a ∈ u, '+' ∉ a ∧ '*' ∉ a) (hL : L ≠ [])
    (hp : L <+: A) : Plain L := plain_of_sub hL fun u hu => h u (hp.subset hu)

theorem plain_prod {A : List (List (List Char))} (h : ∀ u ∈ A, u ≠ [] ∧ ∀ a ∈ u, '+' ∉ a ∧ '*' ∉ a) {t p : List (List Char)}
    (ht : t ∈ A) (hp : p ≠ []) (hpt : ∀ a ∈ p, a ∈ t) : Plain [p] := by
  refine plain_of_sub (by simp) fun u hu => ?_
  rw [List.mem_singleton] at hu
  subst hu
  exact ⟨hp, fun a ha => (h t ht).2 a (hpt a ha)⟩

/-- A multiplication gate asked for. -/
theorem mul_inv {A : List (List (List Char))} (h : ∀ u ∈ A, u ≠ [] ∧ ∀ a ∈ u, '+' ∉ a ∧ '*' ∉ a) {g : CGate}
    (hg : g ∈ reqs A) (ht : g.ty = .multiplication) :
    ∃ t ∈ A, ∃ q v, q ≠ [] ∧ q ++ [v] <+: t ∧ g = mulReq q v := by
  rcases mem_reqs.1 hg with ⟨t, _, a, _, _, rfl⟩ | hm | ⟨L, t, _, _, rfl⟩
  · cases ht
  · exact hm
  · cases ht

theorem add_inv {A : List (List (List Char))} {g : CGate}
    (hg : g ∈ reqs A) (ht : g.ty = .addition) : ∃ L t, L ≠ [] ∧ L ++ [t] <+: A ∧ g = addReq L t := by
  rcases mem_reqs.1 hg with ⟨t, _, a, _, _, rfl⟩ | ⟨t, _, q, v, _, _, rfl⟩ | hm
  · cases ht
  · cases ht
  · exact hm

theorem const_inv {A : List (List (List Char))} {g : CGate}
    (hg : g ∈ reqs A) (ht : g.ty = .constant) : ∃ t ∈ A, ∃ a ∈ t, (parseI32 a).isSome ∧ g = constReq a := by
  rcases mem_reqs.1 hg with hm | ⟨t, _, q, v, _, _, rfl⟩ | ⟨L, t, _, _, rfl⟩
  · exact hm
  · cases ht
  · cases ht

/-- Every product of a sum is on a wire. -/
theorem term_wire (h2 : 2 ≤ A.length) {t : List (List Char)} (ht : t ∈ A) : exprName [t] ∈ wireNames (reqs A) := by
  obtain ⟨X, Y, rfl⟩ := List.append_of_mem ht
  cases X with
  | nil =>
    cases Y with
    | nil => simp at h2
    | cons u Y =>
      exact mem_wireNames.2 ⟨addReq [t] u, mem_reqs.2 (Or.inr (Or.inr ⟨[t], u, by simp, ⟨Y, by simp⟩, rfl⟩)), Or.inl rfl⟩
  | cons w X =>
    exact mem_wireNames.2 ⟨addReq (w :: X) t, mem_reqs.2 (Or.inr (Or.inr ⟨w :: X, t, by simp, ⟨Y, by simp⟩, rfl⟩)),
      Or.inr (Or.inl rfl)⟩

/-- Every prefix of a product is on a wire. -/
theorem prod_wire (h2 : 2 ≤ A.length) {t p : List (List Char)} (ht : t ∈ A) (hp : p ≠ []) (hpt : p <+: t) :
    exprName [p] ∈ wireNames (reqs A) := by
  by_cases he : p = t
  · subst he; exact term_wire h2 ht
  · obtain ⟨v, hv⟩ := prefix_snoc_of_ne hpt he
    exact mem_wireNames.2 ⟨mulReq p v, mem_reqs.2 (Or.inr (Or.inl ⟨t, ht, p, v, hp, hv, rfl⟩)), Or.inl rfl⟩

/-- Every operand is on a wire. -/
theorem operand_wire (h2 : 2 ≤ A.length) {t : List (List Char)} {a : List Char} (ht : t ∈ A) (ha : a ∈ t) :
    a ∈ wireNames (reqs A) := by
  obtain ⟨X, Y, rfl⟩ := List.append_of_mem ha
  cases X with
  | nil =>
    have := prod_wire h2 ht (p := [a]) (by simp) ⟨Y, by simp⟩
    rwa [exprName_token] at this
  | cons w X =>
    exact mem_wireNames.2 ⟨mulReq (w :: X) a, mem_reqs.2 (Or.inr (Or.inl ⟨_, ht, w :: X, a, by simp, ⟨Y, by simp⟩, rfl⟩)),
      Or.inr (Or.inl (exprName_token a).symm)⟩

/-- Every prefix of the sum is on a wire. -/
theorem sum_wire (h2 : 2 ≤ A.length) {L : List (List (List Char))} (hL : L ≠ []) (hp : L <+: A) :
    exprName L ∈ wireNames (reqs A) := by
  by_cases he : L = A
  · subst he
    obtain ⟨M, t, rfl⟩ : ∃ M t, L = M ++ [t] := ⟨L.dropLast, L.getLast hL, (List.dropLast_append_getLast hL).symm⟩
    have hM : M ≠ [] := by rintro rfl; simp at h2
    exact mem_wireNames.2 ⟨addReq M t, mem_reqs.2 (Or.inr (Or.inr ⟨M, t, hM, List.prefix_refl _, rfl⟩)),
      Or.inr (Or.inr rfl)⟩
  · obtain ⟨t, ht⟩ := prefix_snoc_of_ne hp he
    exact mem_wireNames.2 ⟨addReq L t, mem_reqs.2 (Or.inr (Or.inr ⟨L, t, hL, ht, rfl⟩)), Or.inl rfl⟩

/-- Products. -/
theorem prod (d : Decoding f A B) (n : ℕ) : ∀ {t t' p p' : List (List Char)}, p.length = n → t ∈ A → t' ∈ B → p ≠ [] → p' ≠ [] →
    p <+: t → p' <+: t' → f (exprName [p]) = exprName [p'] → p' = p.map f := by
  induction n with
  | zero =>
    intro t t' p p' hn _ _ hp
    exact absurd (List.length_eq_zero_iff.1 hn) hp
  | succ n ih =>
    intro t t' p p' hn ht ht' hp hp' hpt hpt' e
    obtain ⟨q, v, rfl⟩ : ∃ q v, p = q ++ [v] := ⟨p.dropLast, p.getLast hp, (List.dropLast_append_getLast hp).symm⟩
    have pp' : Plain [p'] := plain_prod d.b ht' hp' fun a ha => hpt'.subset ha
    by_cases hq : q = []
    · subst hq
      rw [List.nil_append, exprName_token] at e
      obtain ⟨q', v', rfl⟩ : ∃ q v, p' = q ++ [v] := ⟨p'.dropLast, p'.getLast hp', (List.dropLast_append_getLast hp').symm⟩
      by_cases hq' : q' = []
      · subst hq'
        rw [List.nil_append, exprName_token] at e
        simp [e]
      · exfalso
        obtain ⟨g, hg, he⟩ := d.bwd (mulReq q' v') (mem_reqs.2 (Or.inr (Or.inl ⟨t', ht', q', v', hq', hpt', rfl⟩)))
        have hty : g.ty = .multiplication := (congrArg CGate.ty he).symm
        obtain ⟨u, hu, r, w, hr, hru, rfl⟩ := mul_inv d.a hg hty
        have hb : exprName [q' ++ [v']] = f (exprName [r ++ [w]]) := congrArg CGate.bottom he
        have hv : v ∈ t := hpt.subset (by simp)
        have := d.inj v (operand_wire d.two ht hv) _ (mem_wireNames.2 ⟨_, hg, Or.inr (Or.inr rfl)⟩) (e.trans hb)
        have hv2 : exprName [[v]] = exprName [r ++ [w]] := by rw [exprName_token]; exact this
        have := exprName_inj (plain_prod d.a ht (by simp) (by simpa using hv))
          (plain_prod d.a hu (by simp) fun a ha => hru.subset ha) hv2
        simp only [List.cons.injEq, and_true] at this
        have hl := congrArg List.length this
        simp only [List.length_singleton, List.length_append] at hl
        exact hr (List.length_eq_zero_iff.1 (by omega))
    · have hg : mulReq q v ∈ reqs A := mem_reqs.2 (Or.inr (Or.inl ⟨t, ht, q, v, hq, hpt, rfl⟩))
      obtain ⟨u', hu', q', v', hq', hpu', he⟩ := mul_inv d.b (d.fwd _ hg) rfl
      have e1 : f (exprName [q]) = exprName [q'] := congrArg CGate.left he
      have e2 : f (exprName [[v]]) = exprName [[v']] := congrArg CGate.right he
      have e3 : f (exprName [q ++ [v]]) = exprName [q' ++ [v']] := congrArg CGate.bottom he
      rw [exprName_token, exprName_token] at e2
      have h3 := exprName_inj pp' (plain_prod d.b hu' (by simp) fun a ha => hpu'.subset ha) (e.symm.trans e3)
      simp only [List.cons.injEq, and_true] at h3
      have := ih (t := t) (t' := u') (p := q) (p' := q') (by simpa using hn) ht hu' hq hq'
        ((List.prefix_append q [v]).trans hpt) ((List.prefix_append q' [v']).trans hpu') e1
      rw [h3, this, List.map_append, List.map_singleton, e2]

/-- Sums. -/
theorem sum (d : Decoding f A B) (n : ℕ) : ∀ {P Q : List (List (List Char))}, P.length = n → P ≠ [] → Q ≠ [] →
    P <+: A → Q <+: B → f (exprName P) = exprName Q → Q = P.map (List.map f) := by
  induction n with
  | zero =>
    intro P Q hn hP
    exact absurd (List.length_eq_zero_iff.1 hn) hP
  | succ n ih =>
    intro P Q hn hP hQ hPA hQB e
    obtain ⟨P0, t, rfl⟩ : ∃ q v, P = q ++ [v] := ⟨P.dropLast, P.getLast hP, (List.dropLast_append_getLast hP).symm⟩
    have ht : t ∈ A := hPA.subset (by simp)
    by_cases hP0 : P0 = []
    · subst hP0
      rw [List.nil_append] at e
      obtain ⟨Q0, t', rfl⟩ : ∃ q v, Q = q ++ [v] := ⟨Q.dropLast, Q.getLast hQ, (List.dropLast_append_getLast hQ).symm⟩
      have ht' : t' ∈ B := hQB.subset (by simp)
      by_cases hQ0 : Q0 = []
      · subst hQ0
        rw [List.nil_append] at e
        have := d.prod t.length (t := t) (t' := t') (p := t) (p' := t') rfl ht ht' (d.a t ht).1 (d.b t' ht').1
          (List.prefix_refl _) (List.prefix_refl _) e
        simp [this]
      · exfalso
        obtain ⟨g, hg, he⟩ := d.bwd (addReq Q0 t') (mem_reqs.2 (Or.inr (Or.inr ⟨Q0, t', hQ0, hQB, rfl⟩)))
        have hty : g.ty = .addition := (congrArg CGate.ty he).symm
        obtain ⟨R, w, hR, hRA, rfl⟩ := add_inv hg hty
        have hb : exprName (Q0 ++ [t']) = f (exprName (R ++ [w])) := congrArg CGate.bottom he
        have := d.inj _ (term_wire d.two ht) _ (mem_wireNames.2 ⟨_, hg, Or.inr (Or.inr rfl)⟩) (e.trans hb)
        have := exprName_inj (plain_prod d.a ht (d.a t ht).1 fun a ha => ha) (plain_sum d.a (by simp) hRA) this
        have hl := congrArg List.length this
        simp only [List.length_singleton, List.length_append] at hl
        exact hR (List.length_eq_zero_iff.1 (by omega))
    · have hg : addReq P0 t ∈ reqs A := mem_reqs.2 (Or.inr (Or.inr ⟨P0, t, hP0, hPA, rfl⟩))
      obtain ⟨Q0, t', hQ0, hQ0B, he⟩ := add_inv (d.fwd _ hg) rfl
      have e1 : f (exprName P0) = exprName Q0 := congrArg CGate.left he
      have e2 : f (exprName [t]) = exprName [t'] := congrArg CGate.right he
      have e3 : f (exprName (P0 ++ [t])) = exprName (Q0 ++ [t']) := congrArg CGate.bottom he
      have h3 := exprName_inj (plain_sum d.b hQ hQB) (plain_sum d.b (by simp) hQ0B) (e.symm.trans e3)
      have ht' : t' ∈ B := hQ0B.subset (by simp)
      have h4 := ih (P := P0) (Q := Q0) (by simpa using hn) hP0 hQ0
        ((List.prefix_append P0 [t]).trans hPA) ((List.prefix_append Q0 [t']).trans hQ0B) e1
      have h5 := d.prod t.length (t := t) (t' := t') (p := t) (p' := t') rfl ht ht' (d.a t ht).1 (d.b t' ht').1
        (List.prefix_refl _) (List.prefix_refl _) e2
      rw [h3, h4, h5, List.map_append, List.map_singleton]

/-- The last wire is the last wire. -/
theorem anchor (d : Decoding f A B) : f (exprName A) = exprName B := by
  have hne : A ≠ [] := by rintro h; have := d.two; rw [h] at this; simp at this
  obtain ⟨M, t, hA⟩ : ∃ q v, A = q ++ [v] := ⟨A.dropLast, A.getLast hne, (List.dropLast_append_getLast hne).symm⟩
  have hM : M ≠ [] := by rintro rfl; have := d.two; rw [hA] at this; simp at this
  have hg : addReq M t ∈ reqs A := mem_reqs.2 (Or.inr (Or.inr ⟨M, t, hM, by rw [hA], rfl⟩))
  obtain ⟨Q0, t', hQ0, hQB, he⟩ := add_inv (d.fwd _ hg) rfl
  have e3 : f (exprName (M ++ [t])) = exprName (Q0 ++ [t']) := congrArg CGate.bottom he
  rw [← hA] at e3
  by_cases hB : Q0 ++ [t'] = B
  · rw [e3, hB]
  · exfalso
    obtain ⟨u, hu⟩ := prefix_snoc_of_ne hQB hB
    obtain ⟨g, hg', he'⟩ := d.bwd (addReq (Q0 ++ [t']) u) (mem_reqs.2 (Or.inr (Or.inr ⟨_, u, by simp, hu, rfl⟩)))
    have hty : g.ty = .addition := (congrArg CGate.ty he').symm
    obtain ⟨R, w, hR, hRA, rfl⟩ := add_inv hg' hty
    have hl : exprName (Q0 ++ [t']) = f (exprName R) := congrArg CGate.left he'
    have := d.inj _ (sum_wire d.two hne (List.prefix_refl _)) _ (mem_wireNames.2 ⟨_, hg', Or.inl rfl⟩) (e3.trans hl)
    have := exprName_inj (plain_sum d.a hne (List.prefix_refl _))
      (plain_sum d.a hR ((List.prefix_append R [w]).trans hRA)) this
    have hlen := hRA.length_le
    rw [← this] at hlen
    simp at hlen

/-- The renaming of the wires renames the operands. -/
theorem form (d : Decoding f A B) (hB : B ≠ []) : B = A.map (List.map f) := by
  have hne : A ≠ [] := by rintro h; have := d.two; rw [h] at this; simp at this
  exact d.sum A.length rfl hne hB (List.prefix_refl _) (List.prefix_refl _) d.anchor

theorem renames (d : Decoding f A B) (hB : B ≠ []) {F : Type} [Field F]
    (hc : ∀ g ∈ reqs A, g.ty = .constant → (((parseI32 (f g.left)).getD 0 : ℤ) : F) = (((parseI32 g.left).getD 0 : ℤ) : F)) :
    Renames F f A B := by
  have hform := d.form hB
  have hw : ∀ a ∈ A.flatten, a ∈ wireNames (reqs A) := by
    intro a ha
    obtain ⟨t, ht, hat⟩ := List.mem_flatten.1 ha
    exact operand_wire d.two ht hat
  refine ⟨hform, fun a ha b hb => d.inj a (hw a ha) b (hw b hb), ?_, ?_⟩
  · intro a ha
    obtain ⟨t, ht, hat⟩ := List.mem_flatten.1 ha
    have hiff : (parseI32 (f a)).isSome ↔ (parseI32 a).isSome := by
      constructor
      · intro h
        have hfa : constReq (f a) ∈ reqs B := by
          refine mem_reqs.2 (Or.inl ⟨t.map f, ?_, f a, List.mem_map_of_mem hat, h, rfl⟩)
          rw [hform]
          exact List.mem_map_of_mem ht
        obtain ⟨g, hg, he⟩ := d.bwd _ hfa
        obtain ⟨u, hu, b, hb, hp, rfl⟩ := const_inv hg (congrArg CGate.ty he).symm
        have hl : exprName [[f a]] = f (exprName [[b]]) := congrArg CGate.left he
        rw [exprName_token, exprName_token] at hl
        rw [d.inj a (hw a ha) b (operand_wire d.two hu hb) hl]
        exact hp
      · intro h
        have hca : constReq a ∈ reqs A := mem_reqs.2 (Or.inl ⟨t, ht, a, hat, h, rfl⟩)
        obtain ⟨u, hu, b, hb, hp, he⟩ := const_inv (d.fwd _ hca) rfl
        have hl : f (exprName [[a]]) = exprName [[b]] := congrArg CGate.left he
        rw [exprName_token, exprName_token] at hl
        rw [hl]
        exact hp
    cases h : parseI32 a with
    | none =>
      cases h' : parseI32 (f a) with
      | none => rfl
      | some k => exact absurd (hiff.1 (by rw [h']; rfl)) (by rw [h]; simp)
    | some k =>
      have hca : constReq a ∈ reqs A := mem_reqs.2 (Or.inl ⟨t, ht, a, hat, by rw [h]; rfl, rfl⟩)
      have hv := hc _ hca rfl
      have hl : (constReq a).left = a := exprName_token a
      rw [hl, h] at hv
      cases h' : parseI32 (f a) with
      | none => exact absurd (hiff.2 (by rw [h]; rfl)) (by rw [h']; simp)
      | some k' =>
        rw [h'] at hv
        simpa using hv
  · rintro ⟨a, ha, hp⟩ b hb
    obtain ⟨t, ht, hat⟩ := List.mem_flatten.1 ha
    have hca : constReq a ∈ reqs A := mem_reqs.2 (Or.inl ⟨t, ht, a, hat, hp, rfl⟩)
    obtain ⟨u, hu, c, hcu, hpc, he⟩ := const_inv (d.fwd _ hca) rfl
    have h0 : f (exprName [[['0']]]) = exprName [[['0']]] := congrArg CGate.right he
    rw [exprName_token] at h0
    have hw0 : ['0'] ∈ wireNames (reqs A) := mem_wireNames.2 ⟨_, hca, Or.inr (Or.inl (exprName_token _).symm)⟩
    constructor
    · intro e
      exact d.inj b (hw b hb) _ hw0 (e.trans h0.symm)
    · rintro rfl
      exact h0

end Decoding

/-! ## C110 -/

section main
variable {F : Type} [FftField F] [DecidableEq F]

theorem reqs_const {A : List (List (List Char))} : ∀ g ∈ reqs A, g.ty = .constant → (parseI32 g.left).isSome := by
  intro g hg ht
  obtain ⟨t, -, a, -, hp, rfl⟩ := Decoding.const_inv hg ht
  show (parseI32 (exprName [[a]])).isSome
  rw [exprName_token]
  exact hp

theorem cpiCompiled_gatesOf (U : Unicode) {input s : List Char} (hs : parseString U input = some s)
    {A : List (List (List Char))} (hA : operands U s = some A) :
    cpiCompiled (F := F) U input = ((build (callsOf F (gatesOf A))).compile).map CompiledCircuit.publicPart := by
  unfold cpiCompiled
  simp only [hs, prepareGeneration_ask U hA, Option.bind_eq_bind, Option.bind_some]
  exact cpi_of_gates (ask_ok reqs_const CState.ok_empty)

/-- **C110** (renamed equations share the circuit): if the operands of two equations differ only by a renaming, the verifier's
preprocessing computes the same circuit for both (or panics on both). -/
theorem C110_renamed_same_circuit (U : Unicode) {input input' s s' : List Char} {A B : List (List (List Char))}
    (hs : parseString U input = some s) (hs' : parseString U input' = some s')
    (hA : operands U s = some A) (hB : operands U s' = some B)
    (pA : ∀ t ∈ A, ∀ a ∈ t, '+' ∉ a) (pB : ∀ t ∈ B, ∀ a ∈ t, '+' ∉ a)
    (σ : List Char → List Char) (h : Renames F σ A B) :
    cpiCompiled (F := F) U input' = cpiCompiled (F := F) U input := by
  obtain ⟨a1, a2, a3⟩ := operands_shape U hA
  obtain ⟨b1, b2, b3⟩ := operands_shape U hB
  obtain ⟨f, h1, h2, h3⟩ := gates_of_renames h (fun u hu => ⟨a2 u hu, fun a ha => ⟨pA u hu a ha, a3 u hu a ha⟩⟩)
    (fun u hu a ha => ⟨pB u hu a ha, b3 u hu a ha⟩)
  rw [cpiCompiled_gatesOf U hs hA, cpiCompiled_gatesOf U hs' hB, h1]
  refine compile_ren f _ h2 ?_
  intro g hg ht
  obtain ⟨t, htA, a, ha, hp, rfl⟩ := Decoding.const_inv (mem_gatesOfOperands.1 hg) ht
  have hl : (constReq a).left = a := exprName_token a
  have hfl : a ∈ A.flatten := List.mem_flatten.2 ⟨t, htA, ha⟩
  rw [hl, h3 a hfl]
  exact h.number a hfl

/-- **C110**: what the verifier's preprocessed circuit remembers of an equation.  Two equations whose operands contain no plus
sign are preprocessed to the same circuit if and only if the operands of one are the operands of the other under a renaming;
a renaming may map `x` and `-x` to unrelated operands, and the right-hand side is a negated summand, so the circuit does
not determine the equation up to the names of its variables (`C110_unsatisfiable_twin`). -/
theorem C110_same_circuit_iff_partial (U : Unicode) {input input' s s' : List Char} {A B : List (List (List Char))}
    (hs : parseString U input = some s) (hs' : parseString U input' = some s')
    (hA : operands U s = some A) (hB : operands U s' = some B)
    (pA : ∀ t ∈ A, ∀ a ∈ t, '+' ∉ a) (pB : ∀ t ∈ B, ∀ a ∈ t, '+' ∉ a)
    (hc : (cpiCompiled (F := BlsFr) U input).isSome) :
    cpiCompiled (F := BlsFr) U input' = cpiCompiled (F := BlsFr) U input ↔ ∃ σ, Renames BlsFr σ A B := by
  constructor
  · intro h
    obtain ⟨c, hc⟩ := Option.isSome_iff_exists.1 hc
    rw [hc] at h
    rw [cpiCompiled_gatesOf U hs hA] at hc
    rw [cpiCompiled_gatesOf U hs' hB] at h
    obtain ⟨hk, hw⟩ := same_of_compile hc h
    obtain ⟨f, hf, hinj⟩ := ren_of_same hk hw
    obtain ⟨a1, a2, a3⟩ := operands_shape U hA
    obtain ⟨b1, b2, b3⟩ := operands_shape U hB
    have d : Decoding f A B :=
      { a := fun u hu => ⟨a2 u hu, fun a ha => ⟨pA u hu a ha, a3 u hu a ha⟩⟩
        b := fun u hu => ⟨b2 u hu, fun a ha => ⟨pB u hu a ha, b3 u hu a ha⟩⟩
        two := a1
        inj := fun a ha b hb => hinj a (wireNames_gatesOf.2 ha) b (wireNames_gatesOf.2 hb)
        fwd := by
          intro g hg
          rw [← mem_gatesOfOperands, hf]
          exact List.mem_map_of_mem (mem_gatesOfOperands.2 hg)
        bwd := by
          intro g' hg'
          rw [← mem_gatesOfOperands, hf] at hg'
          obtain ⟨g, hg, rfl⟩ := List.mem_map.1 hg'
          exact ⟨g, mem_gatesOfOperands.1 hg, rfl⟩ }
    refine ⟨f, d.renames (by rintro rfl; simp at b1) ?_⟩
    intro g hg ht
    obtain ⟨i, hi⟩ := List.mem_iff_getElem?.1 (mem_gatesOfOperands.2 hg)
    have k := congrArg (fun l => l[i]?) hk
    rw [hf] at k
    simp only [List.getElem?_map, hi, Option.map_some, Option.some.injEq, CGate.kind, CGate.withNames, ht, if_true,
      Prod.mk.injEq, true_and] at k
    exact k
  · rintro ⟨σ, h⟩
    exact C110_renamed_same_circuit U hs hs' hA hB pA pB σ h

end main

end Verif.Plonk

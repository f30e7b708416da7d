import Verif.Plonk.ParserSem

/-!
# The run of `prepare_gen_circuit`: values, names and uniqueness of the final gate
-/

set_option linter.unusedSectionVars false
set_option linter.unusedSimpArgs false
set_option linter.unusedVariables false

namespace Verif.Plonk

open Verif.Ark

section run
variable {F : Type} [Field F] [DecidableEq F]

/-- The value of the wire is the value of its expression. -/
def Wire.Good (wit : List Char → Option F) (w : Wire F) : Prop := w.val = exprVal wit w.name

/-- Expressions that differ from the expression of the whole equation, which has `K` plus signs and does not
end with `+0`. -/
def NotFinal (K : ℕ) (name : List Char) : Prop := name.count '+' < K ∨ ∃ c, name = c ++ ['+', '0']

/-- How the bottom wire is computed from the other two. -/
def PGate.Shape (g : PGate F) : Prop :=
  match g.ty with
  | .constant => ∃ neg k, -2 ^ 31 ≤ k ∧ k < 2 ^ 31 ∧ g.left = constWire neg k ∧ g.right = ⟨['0'], 0⟩ ∧
      g.bottom = ⟨g.left.name ++ ['+', '0'], g.left.val + 0⟩
  | .multiplication => g.bottom = ⟨g.left.name ++ '*' :: g.right.name, g.left.val * g.right.val⟩
  | .addition => g.bottom = ⟨g.left.name ++ '+' :: g.right.name, g.left.val + g.right.val⟩

/-- What is known about every gate inserted before the final one. -/
structure PGate.Ok (wit : List Char → Option F) (K : ℕ) (g : PGate F) : Prop where
  shape : g.Shape
  good : g.left.Good wit ∧ g.right.Good wit ∧ g.bottom.Good wit
  notFinal : NotFinal K g.left.name ∧ NotFinal K g.right.name ∧ NotFinal K g.bottom.name

/-- The invariant of the run. -/
structure PState.Inv (wit : List Char → Option F) (K : ℕ) (st : PState F) : Prop where
  pm : st.PmOk
  set : st.SetOk
  gates : ∀ g ∈ st.gates, g.Ok wit K

theorem PState.Inv.insertGate {wit : List Char → Option F} {K : ℕ} {st : PState F} (h : st.Inv wit K) {g : PGate F}
    (hg : g.Ok wit K) : (st.insertGate g).Inv wit K := by
  refine ⟨h.pm.insertGate g, h.set.insertGate g, fun x hx => ?_⟩
  unfold PState.insertGate at hx
  split at hx
  · exact h.gates x hx
  · simp only [List.mem_append, List.mem_singleton] at hx
    rcases hx with hx | rfl
    · exact h.gates x hx
    · exact hg

theorem parseDigits_some {neg : Bool} {ds : List Char} {k : ℤ} (h : parseDigits neg ds = some k) :
    (-2 ^ 31 ≤ k ∧ k < 2 ^ 31) ∧ (neg = false → 0 ≤ k) := by
  unfold parseDigits at h
  by_cases h1 : ds ≠ [] ∧ ds.all isAsciiDigit
  · rw [if_pos h1] at h
    dsimp only at h
    by_cases h2 : -2 ^ 31 ≤ (if neg then -(Nat.ofDigitChars 10 ds 0 : ℤ) else (Nat.ofDigitChars 10 ds 0 : ℤ)) ∧
        (if neg then -(Nat.ofDigitChars 10 ds 0 : ℤ) else (Nat.ofDigitChars 10 ds 0 : ℤ)) < 2 ^ 31
    · rw [if_pos h2, Option.some.injEq] at h
      rw [h] at h2
      refine ⟨h2, fun hn => ?_⟩
      subst hn
      rw [← h]
      simp
    · rw [if_neg h2] at h
      cases h
  · rw [if_neg h1] at h
    cases h

theorem parseI32_range {s : List Char} {k : ℤ} (h : parseI32 s = some k) : -2 ^ 31 ≤ k ∧ k < 2 ^ 31 := by
  unfold parseI32 at h
  split at h
  · exact (parseDigits_some h).1
  · exact (parseDigits_some h).1
  · exact (parseDigits_some h).1

/-- An operand that does not start with a minus sign is not a negative number. -/
theorem parseI32_nonneg {s : List Char} {k : ℤ} (h : parseI32 s = some k) (hs : ∀ r, s ≠ '-' :: r) : 0 ≤ k := by
  unfold parseI32 at h
  split at h
  · exact absurd rfl (hs _)
  · exact (parseDigits_some h).2 rfl
  · exact (parseDigits_some h).2 rfl

theorem mem_showInt {k : ℤ} {c : Char} (h : c ∈ showInt k) : c = '-' ∨ isAsciiDigit c = true := by
  unfold showInt at h
  split at h
  · rcases List.mem_cons.1 h with rfl | h
    · exact Or.inl rfl
    · exact Or.inr (toDigits_mem h)
  · exact Or.inr (toDigits_mem h)

theorem showInt_nonneg {k : ℤ} (h : 0 ≤ k) : showInt k = Nat.toDigits 10 k.natAbs := by
  unfold showInt
  rw [if_neg (by omega)]

theorem showInt_neg {k : ℤ} (h : k < 0) : showInt k = '-' :: Nat.toDigits 10 k.natAbs := by
  unfold showInt
  rw [if_pos h]

theorem digits_head {n : ℕ} : ∃ c r, Nat.toDigits 10 n = c :: r ∧ isAsciiDigit c = true ∧ c ≠ '-' ∧ c.toNat < 128 := by
  obtain ⟨c, r, h⟩ := List.exists_cons_of_ne_nil (Nat.toDigits_ne_nil (n := n) (b := 10))
  have hc : isAsciiDigit c = true := toDigits_mem (n := n) (by rw [h]; simp)
  refine ⟨c, r, h, hc, ?_, ?_⟩
  · rintro rfl; revert hc; decide
  · simp only [isAsciiDigit, Bool.and_eq_true, decide_eq_true_eq] at hc
    have : '9'.toNat = 57 := rfl
    omega

theorem constWire_name_mem {neg : Bool} {k : ℤ} {c : Char} (h : c ∈ (constWire neg k : Wire F).name) :
    c = '-' ∨ isAsciiDigit c = true := by
  unfold constWire at h
  split at h
  · rcases List.mem_cons.1 h with rfl | h
    · exact Or.inl rfl
    · exact mem_showInt h
  · exact mem_showInt h

theorem constWire_noPlus (neg : Bool) (k : ℤ) : '+' ∉ (constWire neg k : Wire F).name := by
  intro h
  have := constWire_name_mem h
  revert this
  decide

theorem constWire_noStar (neg : Bool) (k : ℤ) : '*' ∉ (constWire neg k : Wire F).name := by
  intro h
  have := constWire_name_mem h
  revert this
  decide

variable {wit : List Char → Option F} (hw : ∀ nm v, wit nm = some v → parseI32 nm = none)
include hw

theorem wit_none_of_parse {s : List Char} {k : ℤ} (h : parseI32 s = some k) : wit s = none := by
  cases hs : wit s with
  | none => rfl
  | some v => rw [hw s v hs] at h; cases h

theorem bodyVal_of_parse {s : List Char} {k : ℤ} (h : parseI32 s = some k) : bodyVal wit s = (k : F) := by
  unfold bodyVal
  rw [wit_none_of_parse hw h, h]

theorem constWire_good {neg : Bool} {k : ℤ} (h1 : -2 ^ 31 ≤ k) (h2 : k < 2 ^ 31) (h : neg = true ∨ 0 ≤ k) :
    (constWire neg k : Wire F).Good wit := by
  unfold Wire.Good
  rw [exprVal_token wit (constWire_noPlus _ _) (constWire_noStar _ _)]
  have hp := bodyVal_of_parse hw (parseI32_showInt h1 h2)
  cases neg with
  | true => simp [constWire, tokVal, tokNeg_cons, tokBody_cons, hp]
  | false =>
    have hk : 0 ≤ k := by simpa using h
    obtain ⟨c, r, hd, -, hne, -⟩ := digits_head (n := k.natAbs)
    rw [showInt_nonneg hk, hd] at hp
    simp only [constWire, Bool.false_eq_true, if_false, showInt_nonneg hk, tokVal]
    rw [hd, tokNeg_cons, tokBody_cons, if_neg hne]
    simp [hne, hp]

theorem zero_good : (⟨['0'], 0⟩ : Wire F).Good wit := by
  unfold Wire.Good
  rw [exprVal_token wit (s := ['0']) (by decide) (by decide)]
  have hp : parseI32 ['0'] = some 0 := by decide
  have := bodyVal_of_parse hw hp
  simp [tokVal, tokNeg_cons, tokBody_cons, this]

theorem constGate_ok {K : ℕ} (hK : 0 < K) {neg : Bool} {k : ℤ} (h1 : -2 ^ 31 ≤ k) (h2 : k < 2 ^ 31)
    (h : neg = true ∨ 0 ≤ k) : (⟨constWire neg k, ⟨['0'], 0⟩,
      ⟨(constWire neg k : Wire F).name ++ '+' :: ['0'], (constWire neg k : Wire F).val + 0⟩, .constant⟩ :
        PGate F).Ok wit K := by
  have hg := constWire_good hw h1 h2 h
  refine ⟨⟨neg, k, h1, h2, rfl, rfl, rfl⟩, ⟨hg, zero_good hw, ?_⟩, ?_, ?_, ?_⟩
  · unfold Wire.Good at hg ⊢
    rw [exprVal_add, ← hg]
    dsimp only
    congr 1
    exact zero_good hw
  · left; rw [List.count_eq_zero.2 (constWire_noPlus _ _)]; exact hK
  · left; exact hK
  · right; exact ⟨_, rfl⟩

theorem getWitnessValue_run {K : ℕ} (hK : 0 < K) {tok : List Char} {st : PState F} (hst : st.Inv wit K)
    {r : F × PState F} (h : getWitnessValue wit tok st = some r) : r.2.Inv wit K := by
  by_cases hok : OperandOk wit tok
  · rw [(getWitnessValue_eq wit tok st).2 hok, Option.some.injEq] at h
    subst h
    dsimp only
    cases hwt : wit (tokBody tok) with
    | some v => exact hst
    | none =>
      cases hp : parseI32 (tokBody tok) with
      | none => exact hst
      | some k =>
        obtain ⟨h1, h2⟩ := parseI32_range hp
        refine hst.insertGate (constGate_ok hw hK h1 h2 ?_)
        cases hn : tokNeg tok with
        | true => exact Or.inl rfl
        | false =>
          right
          refine parseI32_nonneg hp fun r hr => ?_
          have hne : tok ≠ [] := by
            rintro rfl
            simp [tokBody] at hr
          obtain ⟨c, rest, rfl⟩ := List.exists_cons_of_ne_nil hne
          rw [tokNeg_cons, decide_eq_false_iff_not] at hn
          rw [tokBody_cons, if_neg hn, List.cons.injEq] at hr
          exact hn hr.1
  · rw [(getWitnessValue_eq wit tok st).1 hok] at h
    cases h

theorem tokenWires_run (U : Unicode) {K : ℕ} (hK : 0 < K) (toks : List (List Char)) {st : PState F}
    (hst : st.Inv wit K) {r : List (Wire F) × PState F} (h : tokenWires U wit toks st = some r) :
    r.2.Inv wit K := by
  induction toks generalizing st r with
  | nil => simp only [tokenWires, Option.some.injEq] at h; subst h; exact hst
  | cons s rest ih =>
    simp only [tokenWires, Option.bind_eq_bind, Option.bind_eq_some_iff, Option.pure_def, Option.some.injEq] at h
    obtain ⟨a, ha, b, hb, rfl⟩ := h
    exact ih (r := b) (getWitnessValue_run hw hK hst ha) hb

omit hw in
theorem mulReduce_run {K : ℕ} (hK : 0 < K) (ws : List (Wire F)) (w : Wire F) {st : PState F} (hst : st.Inv wit K)
    (hgw : w.Good wit) (hpw : '+' ∉ w.name) (hws : ∀ v ∈ ws, v.Good wit ∧ '+' ∉ v.name) :
    (mulReduce w ws st).2.Inv wit K ∧ (mulReduce w ws st).1.Good wit ∧ '+' ∉ (mulReduce w ws st).1.name ∧
      (mulReduce w ws st).1.val = w.val * (ws.map Wire.val).prod ∧
      w.name <+: (mulReduce w ws st).1.name := by
  induction ws generalizing w st with
  | nil => exact ⟨hst, hgw, hpw, by simp [mulReduce], List.prefix_rfl⟩
  | cons v ws ih =>
    obtain ⟨hv, hpv⟩ := hws v (by simp)
    have hpn : '+' ∉ w.name ++ '*' :: v.name := by simp [hpw, hpv]
    have hgn : (⟨w.name ++ '*' :: v.name, w.val * v.val⟩ : Wire F).Good wit := by
      unfold Wire.Good at hgw hv ⊢
      rw [exprVal_mul wit hpw hpv, ← hgw, ← hv]
    have hok : (⟨w, v, ⟨w.name ++ '*' :: v.name, w.val * v.val⟩, .multiplication⟩ : PGate F).Ok wit K := by
      refine ⟨rfl, ⟨hgw, hv, hgn⟩, Or.inl ?_, Or.inl ?_, Or.inl ?_⟩
      · rw [List.count_eq_zero.2 hpw]; exact hK
      · rw [List.count_eq_zero.2 hpv]; exact hK
      · dsimp only; rw [List.count_eq_zero.2 hpn]; exact hK
    have := ih (⟨w.name ++ '*' :: v.name, w.val * v.val⟩ : Wire F) (hst.insertGate hok) hgn hpn
      (fun x hx => hws x (by simp [hx]))
    obtain ⟨h1, h2, h3, h4, h5⟩ := this
    refine ⟨h1, h2, h3, ?_, ?_⟩
    · rw [List.map_cons, List.prod_cons, ← mul_assoc]
      exact h4
    · exact (List.prefix_append _ _).trans h5

/-- The value of a summand: the product of its operands. -/
def termVal (U : Unicode) (wit : List Char → Option F) (t : List Char) : F :=
  ((t.splitOn '*').map fun tok => tokVal wit (trim U tok)).prod

theorem termWire_run (U : Unicode) {K : ℕ} (hK : 0 < K) {t : List Char} (ht : '+' ∉ t) {st : PState F}
    (hst : st.Inv wit K) {r : Wire F × PState F} (h : termWire U wit t st = some r) :
    r.2.Inv wit K ∧ r.1.Good wit ∧ '+' ∉ r.1.name ∧ r.1.val = termVal U wit t ∧
      (∀ tok ∈ (t.splitOn '*').head?, trim U tok <+: r.1.name) := by
  simp only [termWire, Option.bind_eq_bind, Option.bind_eq_some_iff] at h
  obtain ⟨a, ha, h⟩ := h
  have hinv := tokenWires_run hw U hK _ hst ha
  have hws := tokenWires_length U _ ha
  have hall : ∀ v ∈ a.1, v.Good wit ∧ '+' ∉ v.name := by
    intro v hv
    rw [hws] at hv
    obtain ⟨tok, htok, rfl⟩ := List.mem_map.1 hv
    have hmem := mem_splitOn htok
    have hp : '+' ∉ trim U tok := fun hx => ht (hmem _ (mem_trim hx)).1
    have hs : '*' ∉ trim U tok := fun hx => (hmem _ (mem_trim hx)).2 rfl
    exact ⟨(exprVal_token wit hp hs).symm, hp⟩
  split at h
  · cases h
  · rename_i w ws heq
    simp only [Option.pure_def, Option.some.injEq] at h
    subst h
    rw [heq] at hall
    obtain ⟨h1, h2, h3, h4, h5⟩ := mulReduce_run hK ws w hinv (hall w (by simp)).1 (hall w (by simp)).2
      (fun v hv => hall v (by simp [hv]))
    refine ⟨h1, h2, h3, ?_, ?_⟩
    · rw [h4, termVal, ← List.prod_cons, ← List.map_cons, ← heq, hws, List.map_map]
      rfl
    · intro tok htok
      cases hs : t.splitOn '*' with
      | nil => exact absurd hs (List.splitOn_ne_nil _ _)
      | cons x xs =>
        rw [hs, List.head?_cons, Option.mem_def, Option.some.injEq] at htok
        subst htok
        rw [heq, hs, List.map_cons, List.cons.injEq] at hws
        have e : w.name = trim U x := by rw [hws.1]
        rw [← e]
        exact h5

theorem addReduce_run (U : Unicode) {K : ℕ} (hK : 0 < K) (ts : List (List Char)) (hts : ∀ t ∈ ts, '+' ∉ t) {w : Wire F}
    {st : PState F} (hst : st.Inv wit K) (hgw : w.Good wit) (hc : w.name.count '+' + ts.length < K)
    {r : Wire F × PState F} (h : addReduce U wit ts w st = some r) :
    r.2.Inv wit K ∧ r.1.Good wit ∧ r.1.name.count '+' = w.name.count '+' + ts.length ∧
      r.1.val = w.val + (ts.map (termVal U wit)).sum := by
  induction ts generalizing w st with
  | nil =>
    simp only [addReduce, Option.some.injEq] at h
    subst h
    exact ⟨hst, hgw, by simp, by simp⟩
  | cons t ts ih =>
    simp only [addReduce, Option.bind_eq_bind, Option.bind_eq_some_iff] at h
    obtain ⟨a, ha, h⟩ := h
    obtain ⟨h1, h2, h3, h4, -⟩ := termWire_run hw U hK (hts t (by simp)) hst ha
    rw [List.length_cons] at hc
    have hcn : (w.name ++ '+' :: a.1.name).count '+' = w.name.count '+' + 1 := by
      rw [List.count_append, List.count_cons_self, List.count_eq_zero.2 h3]
    have hgn : (⟨w.name ++ '+' :: a.1.name, w.val + a.1.val⟩ : Wire F).Good wit := by
      unfold Wire.Good at hgw h2 ⊢
      rw [exprVal_add, ← hgw, ← h2]
    have hok : (⟨w, a.1, ⟨w.name ++ '+' :: a.1.name, w.val + a.1.val⟩, .addition⟩ : PGate F).Ok wit K := by
      refine ⟨rfl, ⟨hgw, h2, hgn⟩, Or.inl (by dsimp only; omega), Or.inl ?_, Or.inl ?_⟩
      · rw [List.count_eq_zero.2 h3]; exact hK
      · dsimp only; rw [hcn]; omega
    have := ih (fun x hx => hts x (by simp [hx])) (h1.insertGate hok) hgn (by dsimp only; rw [hcn]; omega) h
    obtain ⟨e1, e2, e3, e4⟩ := this
    refine ⟨e1, e2, ?_, ?_⟩
    · rw [e3]
      dsimp only
      rw [hcn, List.length_cons]; omega
    · rw [e4, List.map_cons, List.sum_cons, ← h4]
      ring

omit hw in
theorem addReduce_append (U : Unicode) (ts us : List (List Char)) (w : Wire F) (st : PState F) :
    addReduce U wit (ts ++ us) w st = (addReduce U wit ts w st).bind fun r => addReduce U wit us r.1 r.2 := by
  induction ts generalizing w st with
  | nil => rfl
  | cons t ts ih =>
    simp only [List.cons_append, addReduce, Option.bind_eq_bind, Option.bind_assoc, ih]

omit hw in
theorem tokenWires_ne_nil (U : Unicode) (toks : List (List Char)) {st : PState F} (hset : st.SetOk)
    {r : List (Wire F) × PState F} (h : tokenWires U wit toks st = some r)
    (hlit : ∃ tok ∈ toks, wit (tokBody (trim U tok)) = none) : r.2.gates ≠ [] := by
  have hI : ∀ (st : PState F) (g : PGate F), (st.gates ≠ [] ∧ st.SetOk) →
      ((st.insertGate g).gates ≠ [] ∧ (st.insertGate g).SetOk) := by
    intro st g hst
    exact ⟨fun e => hst.1 (List.prefix_nil.1 (e ▸ insertGate_prefix st g)), hst.2.insertGate g⟩
  induction toks generalizing st r with
  | nil => obtain ⟨tok, h1, -⟩ := hlit; cases h1
  | cons s rest ih =>
    simp only [tokenWires, Option.bind_eq_bind, Option.bind_eq_some_iff, Option.pure_def, Option.some.injEq] at h
    obtain ⟨a, ha, b, hb, rfl⟩ := h
    have hset' := getWitnessValue_inv (I := PState.SetOk) (fun st g hst => hst.insertGate g) ha hset
    by_cases hs : wit (tokBody (trim U s)) = none
    · refine (tokenWires_inv (I := fun st => st.gates ≠ [] ∧ st.SetOk) hI U rest hb ⟨?_, hset'⟩).1
      by_cases hok : OperandOk wit (trim U s)
      · have hp : ∃ k, parseI32 (tokBody (trim U s)) = some k := by
          rcases hok.2 with h | h
          · rw [hs] at h; cases h
          · exact Option.isSome_iff_exists.1 h
        obtain ⟨k, hk⟩ := hp
        rw [(getWitnessValue_eq wit (trim U s) st).2 hok, hs, hk, Option.some.injEq] at ha
        subst ha
        intro e
        have := insertGate_mem hset ⟨constWire (tokNeg (trim U s)) k, ⟨['0'], 0⟩,
          ⟨(constWire (tokNeg (trim U s)) k : Wire F).name ++ '+' :: ['0'],
            (constWire (tokNeg (trim U s)) k : Wire F).val + 0⟩, .constant⟩
        unfold generateConstantGate at e
        dsimp only at e
        rw [e] at this
        cases this
      · rw [(getWitnessValue_eq wit (trim U s) st).1 hok] at ha
        cases ha
    · obtain ⟨tok, h1, h2⟩ := hlit
      rcases List.mem_cons.1 h1 with rfl | h1
      · exact absurd h2 hs
      · exact ih hset' (r := b) hb ⟨tok, h1, h2⟩

omit hw in
theorem termWire_ne_nil (U : Unicode) {t : List Char} {st : PState F} (hset : st.SetOk) {r : Wire F × PState F}
    (h : termWire U wit t st = some r)
    (hnt : 2 ≤ (t.splitOn '*').length ∨ ∃ tok ∈ t.splitOn '*', wit (tokBody (trim U tok)) = none) :
    r.2.gates ≠ [] := by
  have hI : ∀ (st : PState F) (g : PGate F), (st.gates ≠ [] ∧ st.SetOk) →
      ((st.insertGate g).gates ≠ [] ∧ (st.insertGate g).SetOk) := by
    intro st g hst
    exact ⟨fun e => hst.1 (List.prefix_nil.1 (e ▸ insertGate_prefix st g)), hst.2.insertGate g⟩
  simp only [termWire, Option.bind_eq_bind, Option.bind_eq_some_iff] at h
  obtain ⟨a, ha, h⟩ := h
  have hset' := tokenWires_inv (I := PState.SetOk) (fun st g hst => hst.insertGate g) U _ ha hset
  have hws := tokenWires_length U _ ha
  split at h
  · cases h
  · rename_i w ws heq
    simp only [Option.pure_def, Option.some.injEq] at h
    subst h
    rcases hnt with hnt | hnt
    · rw [← List.length_map (f := fun s => (⟨trim U s, tokVal wit (trim U s)⟩ : Wire F)), ← hws, heq] at hnt
      cases ws with
      | nil => simp at hnt
      | cons v ws =>
        refine (mulReduce_inv (I := fun st => st.gates ≠ [] ∧ st.SetOk) hI ws _ ⟨?_, hset'.insertGate _⟩).1
        intro e
        have := insertGate_mem hset' ⟨w, v, ⟨w.name ++ '*' :: v.name, w.val * v.val⟩, .multiplication⟩
        rw [e] at this
        cases this
    · exact (mulReduce_inv (I := fun st => st.gates ≠ [] ∧ st.SetOk) hI ws _
        ⟨tokenWires_ne_nil U _ hset ha hnt, hset'⟩).1

/-- The equation needs more than one gate: it is not of the form variable = variable. -/
def NonTrivial (U : Unicode) (wit : List Char → Option F) (lhs rhs : List Char) : Prop :=
  2 ≤ (lhs.splitOn '+').length ∨ ∃ t, (t ∈ lhs.splitOn '+' ∨ t = '-' :: rhs) ∧
    (2 ≤ (t.splitOn '*').length ∨ ∃ tok ∈ t.splitOn '*', wit (tokBody (trim U tok)) = none)

/-- The final gate list: gates satisfying `PGate.Ok`, then one addition gate whose expression differs from the
expressions of all other wires, with the bottom value replaced by zero. -/
theorem prepare_run (U : Unicode) (hU : U.isWhitespace '-' = false) {lhs rhs : List Char} (hl : '=' ∉ lhs)
    (hr : '=' ∉ rhs) (hrp : '+' ∉ rhs) {gates : List (PGate F)} {pm : PosMap}
    (h : prepareGenCircuit U wit (lhs ++ '=' :: rhs) = some (gates, pm)) :
    ∃ (init : List (PGate F)) (l r : Wire F) (N : List Char) (K : ℕ),
      gates = init ++ [⟨l, r, ⟨N, 0⟩, .addition⟩] ∧ (∀ g ∈ init, g.Ok wit K) ∧ l.Good wit ∧ r.Good wit ∧
      N = l.name ++ '+' :: r.name ∧ ¬ NotFinal K N ∧ NotFinal K l.name ∧ NotFinal K r.name ∧
      l.val + r.val = ((lhs.splitOn '+').map (termVal U wit)).sum + termVal U wit ('-' :: rhs) ∧
      (NonTrivial U wit lhs rhs → init ≠ []) ∧
      ∃ t ts a q, lhs.splitOn '+' = t :: ts ∧ termWire U wit t ⟨[], [], fun _ => []⟩ = some a ∧
        addReduce U wit (ts ++ ['-' :: rhs]) a.1 a.2 = some q ∧
        q.2.gates = init ++ [⟨l, r, ⟨N, l.val + r.val⟩, .addition⟩] ∧ q.1.name = N := by
  simp only [prepareGenCircuit, Option.bind_eq_bind, Option.bind_eq_some_iff] at h
  obtain ⟨terms, hterms, h⟩ := h
  rw [(splitTerms_eq_some _ _).2 ⟨lhs, rhs, rfl, hl, hr, rfl⟩, Option.some.injEq] at hterms
  subst hterms
  cases hs : lhs.splitOn '+' with
  | nil => exact absurd hs (List.splitOn_ne_nil _ _)
  | cons t ts =>
    rw [hs, List.cons_append] at h
    simp only [Option.bind_eq_some_iff, Option.pure_def, Option.some.injEq, Prod.mk.injEq] at h
    obtain ⟨a, ha, q, hq, g', hg', rfl, rfl⟩ := h
    have hnp : ∀ x ∈ t :: ts, '+' ∉ x := by
      intro x hx hp
      exact (mem_splitOn (hs ▸ hx) _ hp).2 rfl
    have hK : 0 < ts.length + 1 := Nat.succ_pos _
    have h0 : (⟨[], [], fun _ => []⟩ : PState F).Inv wit (ts.length + 1) :=
      ⟨pmOk_empty, fun g hg => (List.not_mem_nil hg).elim, fun g hg => (List.not_mem_nil hg).elim⟩
    obtain ⟨a1, a2, a3, a4, -⟩ := termWire_run hw U hK (hnp t (by simp)) h0 ha
    have hq0 := hq
    rw [addReduce_append, Option.bind_eq_some_iff] at hq
    obtain ⟨b, hb, hq⟩ := hq
    obtain ⟨b1, b2, b3, b4⟩ := addReduce_run hw U hK ts (fun x hx => hnp x (by simp [hx])) a1 a2
      (by rw [List.count_eq_zero.2 a3]; omega) hb
    rw [List.count_eq_zero.2 a3, Nat.zero_add] at b3
    simp only [addReduce, Option.bind_eq_bind, Option.bind_eq_some_iff, Option.some.injEq] at hq
    obtain ⟨c, hc, hq⟩ := hq
    obtain ⟨c1, c2, c3, c4, c5⟩ := termWire_run hw U hK (t := '-' :: rhs) (by simp [hrp]) b1 hc
    -- the name of the last summand starts with a minus sign
    have hminus : ∃ z, c.1.name = '-' :: z := by
      have hsplit : ∃ x xs, ('-' :: rhs).splitOn '*' = ('-' :: x) :: xs := by
        rw [List.splitOn_cons_eq_if_modifyHead, if_neg (by decide)]
        cases hs' : rhs.splitOn '*' with
        | nil => exact absurd hs' (List.splitOn_ne_nil _ _)
        | cons x xs => exact ⟨x, xs, rfl⟩
      obtain ⟨x, xs, hx⟩ := hsplit
      have := c5 ('-' :: x) (by rw [hx]; rfl)
      obtain ⟨s', hs'⟩ := trim_cons hU x
      rw [hs'] at this
      obtain ⟨z, hz⟩ := this
      exact ⟨s' ++ z, hz.symm⟩
    have hcount : (b.1.name ++ '+' :: c.1.name).count '+' = ts.length + 1 := by
      rw [List.count_append, List.count_cons_self, List.count_eq_zero.2 c3, b3]
    have hfin : ¬ NotFinal (ts.length + 1) (b.1.name ++ '+' :: c.1.name) := by
      rintro (h | ⟨d, hd⟩)
      · omega
      · have := congrArg (List.splitOn '+') hd
        rw [List.splitOn_append_cons_self, List.splitOn_append_cons_self, List.splitOn_eq_singleton c3,
          List.splitOn_eq_singleton (show '+' ∉ ['0'] by decide)] at this
        have h2 := congrArg List.getLast? this
        rw [List.getLast?_append, List.getLast?_append] at h2
        simp only [List.getLast?_singleton, Option.some_or, Option.some.injEq] at h2
        obtain ⟨z, hz⟩ := hminus
        rw [hz] at h2
        simp at h2
    have hnotin : (⟨b.1, c.1, ⟨b.1.name ++ '+' :: c.1.name, b.1.val + c.1.val⟩, .addition⟩ : PGate F) ∉ c.2.set := by
      intro hm
      exact hfin (c1.gates _ (c1.set _ hm)).notFinal.2.2
    have hgates : q.2.gates = c.2.gates ++
        [⟨b.1, c.1, ⟨b.1.name ++ '+' :: c.1.name, b.1.val + c.1.val⟩, .addition⟩] := by
      rw [← hq]
      unfold generateAdditionalGate PState.insertGate
      dsimp only
      rw [if_neg hnotin]
    refine ⟨c.2.gates, b.1, c.1, _, ts.length + 1, ?_, c1.gates, b2, c2, rfl, hfin, Or.inl (by omega),
      Or.inl (by rw [List.count_eq_zero.2 c3]; omega), ?_, ?_, t, ts, a, q, rfl, ha, hq0, hgates,
      by rw [← hq]; rfl⟩
    · rw [hgates] at hg'
      simp only [zeroLast, List.getLast?_append, List.getLast?_singleton, Option.some_or, List.dropLast_concat,
        Option.some.injEq] at hg'
      exact hg'.symm
    · rw [b4, a4, c4, List.map_cons, List.sum_cons]
    · have hI : ∀ (st : PState F) (g : PGate F), (st.gates ≠ [] ∧ st.SetOk) →
          ((st.insertGate g).gates ≠ [] ∧ (st.insertGate g).SetOk) := by
        intro st g hst
        exact ⟨fun e => hst.1 (List.prefix_nil.1 (e ▸ insertGate_prefix st g)), hst.2.insertGate g⟩
      have fromB : b.2.gates ≠ [] → c.2.gates ≠ [] := fun h =>
        (termWire_inv (I := fun st => st.gates ≠ [] ∧ st.SetOk) hI U _ hc ⟨h, b1.set⟩).1
      rintro (hnt | ⟨t', ht', hnt⟩)
      · refine fromB (addReduce_gates_ne_nil U ts a.1 hb (Or.inl ?_) a1.set)
        rintro rfl
        rw [hs] at hnt
        simp at hnt
      · by_cases hts : ts = []
        · subst hts
          rw [hs, List.mem_singleton] at ht'
          rcases ht' with rfl | rfl
          · refine fromB (addReduce_gates_ne_nil U [] a.1 hb (Or.inr ?_) a1.set)
            exact termWire_ne_nil U h0.set ha hnt
          · exact termWire_ne_nil U b1.set hc hnt
        · exact fromB (addReduce_gates_ne_nil U ts a.1 hb (Or.inl hts) a1.set)

end run

end Verif.Plonk

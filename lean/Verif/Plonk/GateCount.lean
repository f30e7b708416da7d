import Verif.Plonk.Twins
import Verif.Plonk.CpiTexts

/-!
# C113: how large the circuit of a text is

The exact number of gates, and its relation to the length of the text.
-/

set_option linter.unusedSectionVars false
set_option linter.unusedSimpArgs false
set_option linter.unusedVariables false

namespace Verif.Plonk

open Verif.Ark Verif.Kzg

/-! ## Specification -/

/-- The different numbers among the operands. -/
def numbersOf (A : List (List (List Char))) : Finset (List Char) := (A.flatten.filter fun a => (parseI32 a).isSome).toFinset

/-- The different beginnings with at least two factors of the products. -/
def partialProducts (A : List (List (List Char))) : Finset (List (List Char)) :=
  (A.flatMap fun t => t.inits.filter fun q => 2 ≤ q.length).toFinset

/-- One gate per number, one per partial product, one per plus sign (the equals sign counts as one). -/
def gateCount (A : List (List (List Char))) : ℕ := (numbersOf A).card + (partialProducts A).card + (A.length - 1)

/-! ## Proofs -/

theorem ask_nodup (rs : List CGate) {st : CState} (h : Tight st) (hn : st.gates.Nodup) : (ask rs st).gates.Nodup := by
  induction rs generalizing st with
  | nil => exact hn
  | cons g rs ih =>
    refine ih (tight_insert h g).1 ?_
    unfold CState.insertGate
    by_cases hin : g ∈ st.set
    · rw [if_pos hin]; exact hn
    · rw [if_neg hin]
      have : g ∉ st.gates := fun hg => hin ((h g).1 hg)
      exact List.nodup_append.2 ⟨hn, by simp, by
        intro a ha b hb e
        rw [List.mem_singleton] at hb
        subst hb; subst e
        exact this ha⟩

theorem mem_numbersOf {A : List (List (List Char))} {a : List Char} :
    a ∈ numbersOf A ↔ ∃ t ∈ A, a ∈ t ∧ (parseI32 a).isSome := by
  unfold numbersOf
  simp only [List.mem_toFinset, List.mem_filter, List.mem_flatten]
  constructor
  · rintro ⟨⟨t, h1, h2⟩, h3⟩; exact ⟨t, h1, h2, h3⟩
  · rintro ⟨t, h1, h2, h3⟩; exact ⟨⟨t, h1, h2⟩, h3⟩

theorem mem_partialProducts {A : List (List (List Char))} {q : List (List Char)} :
    q ∈ partialProducts A ↔ ∃ t ∈ A, q <+: t ∧ 2 ≤ q.length := by
  unfold partialProducts
  simp only [List.mem_toFinset, List.mem_flatMap, List.mem_filter, List.mem_inits, decide_eq_true_eq]

/-- Multiplication gate of a partial product. -/
def mulOf (q : List (List Char)) : CGate := mulReq q.dropLast (q.getLastD [])

/-- Addition gate number `i`. -/
def addOf (A : List (List (List Char))) (i : ℕ) : CGate := addReq (A.take (i + 1)) (A.getD (i + 1) [])

theorem reqs_toFinset (A : List (List (List Char))) :
    (reqs A).toFinset = (numbersOf A).image constReq ∪ (partialProducts A).image mulOf ∪
      (Finset.range (A.length - 1)).image (addOf A) := by
  ext g
  simp only [List.mem_toFinset, mem_reqs, Finset.mem_union, Finset.mem_image, mem_numbersOf, mem_partialProducts,
    Finset.mem_range]
  rw [or_assoc]
  refine or_congr ?_ (or_congr ?_ ?_)
  · constructor
    · rintro ⟨t, ht, a, ha, hp, rfl⟩; exact ⟨a, ⟨t, ht, ha, hp⟩, rfl⟩
    · rintro ⟨a, ⟨t, ht, ha, hp⟩, rfl⟩; exact ⟨t, ht, a, ha, hp, rfl⟩
  · constructor
    · rintro ⟨t, ht, q, v, hq, hpre, rfl⟩
      refine ⟨q ++ [v], ⟨t, ht, hpre, ?_⟩, ?_⟩
      · have := List.length_pos_iff.2 hq
        rw [List.length_append, List.length_singleton]; omega
      · simp [mulOf]
    · rintro ⟨q, ⟨t, ht, hpre, hl⟩, rfl⟩
      have hne : q ≠ [] := by intro h; rw [h] at hl; simp at hl
      refine ⟨t, ht, q.dropLast, q.getLast hne, ?_, by rw [List.dropLast_append_getLast]; exact hpre, ?_⟩
      · intro h
        have := congrArg List.length h
        rw [List.length_dropLast, List.length_nil] at this
        omega
      · unfold mulOf
        rw [List.getLastD_eq_getLast?, List.getLast?_eq_getLast_of_ne_nil hne]; rfl
  · constructor
    · rintro ⟨L, t, hL, ⟨r, hr⟩, rfl⟩
      have hl := List.length_pos_iff.2 hL
      have e : A = L ++ t :: r := by rw [← hr]; simp
      refine ⟨L.length - 1, ?_, ?_⟩
      · rw [e, List.length_append, List.length_cons]; omega
      · unfold addOf
        rw [show L.length - 1 + 1 = L.length by omega, e, List.take_left, List.getD_eq_getElem?_getD,
          List.getElem?_append_right (le_refl _)]
        simp
    · rintro ⟨i, hi, rfl⟩
      have h1 : i + 1 < A.length := by omega
      refine ⟨A.take (i + 1), A[i + 1], ?_, ?_, ?_⟩
      · intro h
        have := congrArg List.length h
        rw [List.length_take, List.length_nil] at this
        omega
      · rw [List.take_concat_get' A (i + 1) h1]
        exact List.take_prefix _ _
      · unfold addOf
        rw [List.getD_eq_getElem?_getD, List.getElem?_eq_getElem h1]; rfl

theorem length_gatesOf {A : List (List (List Char))} (hA : ∀ u ∈ A, u ≠ [] ∧ ∀ a ∈ u, '+' ∉ a ∧ '*' ∉ a) :
    (gatesOf A).length = gateCount A := by
  have hnd : (gatesOf A).Nodup := ask_nodup _ (fun g => by simp) (by simp)
  have hset : (gatesOf A).toFinset = (reqs A).toFinset := by
    ext g; rw [List.mem_toFinset, List.mem_toFinset, mem_gatesOfOperands]
  rw [← List.toFinset_card_of_nodup hnd, hset, reqs_toFinset, Finset.card_union_of_disjoint, Finset.card_union_of_disjoint,
    Finset.card_image_of_injOn, Finset.card_image_of_injOn, Finset.card_image_of_injOn, Finset.card_range]
  · rfl
  · intro i hi j hj e
    have hi' : i < A.length - 1 := by simpa using hi
    have hj' : j < A.length - 1 := by simpa using hj
    have pl : ∀ k, k < A.length - 1 → Plain (A.take (k + 1)) := by
      intro k hk
      refine plain_of_sub ?_ fun u hu => hA u (List.mem_of_mem_take hu)
      intro h
      have := congrArg List.length h
      rw [List.length_take, List.length_nil] at this
      omega
    have := exprName_inj (pl i hi') (pl j hj') (congrArg CGate.left e)
    have := congrArg List.length this
    rw [List.length_take, List.length_take] at this
    omega
  · intro q hq q' hq' e
    obtain ⟨t, ht, hpre, hl⟩ := mem_partialProducts.1 hq
    obtain ⟨t', ht', hpre', hl'⟩ := mem_partialProducts.1 hq'
    have hb : ∀ q : List (List Char), 2 ≤ q.length → (mulOf q).bottom = exprName [q] := by
      intro q hl
      have hne : q ≠ [] := by intro h; rw [h] at hl; simp at hl
      show exprName [q.dropLast ++ [q.getLastD []]] = _
      rw [List.getLastD_eq_getLast?, List.getLast?_eq_getLast_of_ne_nil hne]
      show exprName [q.dropLast ++ [q.getLast hne]] = _
      rw [List.dropLast_append_getLast]
    have pl : ∀ q t : List (List Char), t ∈ A → q <+: t → 2 ≤ q.length → Plain [q] := by
      intro q t ht hp hl
      refine plain_of_sub (by simp) fun u hu => ?_
      rw [List.mem_singleton] at hu; subst hu
      exact ⟨by intro h; rw [h] at hl; simp at hl, fun a ha => (hA t ht).2 a (hp.subset ha)⟩
    have e' := congrArg CGate.bottom e
    rw [hb q hl, hb q' hl'] at e'
    have := exprName_inj (pl q t ht hpre hl) (pl q' t' ht' hpre' hl') e'
    simpa using this
  · intro a _ b _ e
    have := congrArg CGate.left e
    simpa [constReq, exprName_token] using this
  · rw [Finset.disjoint_left]
    intro g h1 h2
    obtain ⟨a, -, rfl⟩ := Finset.mem_image.1 h1
    obtain ⟨q, -, e⟩ := Finset.mem_image.1 h2
    have := congrArg CGate.ty e
    simp [mulOf, mulReq, constReq] at this
  · rw [Finset.disjoint_left]
    intro g h1 h2
    obtain ⟨i, -, rfl⟩ := Finset.mem_image.1 h2
    rcases Finset.mem_union.1 h1 with h1 | h1
    · obtain ⟨a, -, e⟩ := Finset.mem_image.1 h1
      have := congrArg CGate.ty e
      simp [addOf, addReq, constReq] at this
    · obtain ⟨q, -, e⟩ := Finset.mem_image.1 h1
      have := congrArg CGate.ty e
      simp [mulOf, mulReq, addOf, addReq] at this

/-! ## C113 -/

theorem operands_eq (U : Unicode) {lhs rhs : List Char} (hl : '=' ∉ lhs) (hr : '=' ∉ rhs) :
    operands U (lhs ++ '=' :: rhs) =
      some ((lhs.splitOn '+' ++ ['-' :: rhs]).map fun t => (t.splitOn '*').map (trim U)) := by
  unfold operands
  rw [List.splitOn_append_cons_self, List.splitOn_eq_singleton hl, List.splitOn_eq_singleton hr]
  rfl

theorem operands_noPlus' (U : Unicode) {lhs rhs : List Char} (hl : '=' ∉ lhs) (hr : '=' ∉ rhs) (hrp : '+' ∉ rhs)
    {A : List (List (List Char))} (h : operands U (lhs ++ '=' :: rhs) = some A) : ∀ t ∈ A, ∀ a ∈ t, '+' ∉ a := by
  rw [operands_eq U hl hr, Option.some.injEq] at h
  subst h
  intro t ht a ha hm
  obtain ⟨u, hu, rfl⟩ := List.mem_map.1 ht
  obtain ⟨b, hb, rfl⟩ := List.mem_map.1 ha
  have h1 : '+' ∈ b := by
    unfold trim at hm
    have h1 := (List.dropWhile_sublist _).mem (List.mem_reverse.1 hm)
    exact (List.dropWhile_sublist _).mem (List.mem_reverse.1 h1)
  have h2 : '+' ∈ u := (mem_splitOn hb _ h1).1
  rcases List.mem_append.1 hu with hu | hu
  · exact (mem_splitOn hu _ h2).2 rfl
  · rw [List.mem_singleton] at hu
    subst hu
    rcases List.mem_cons.1 h2 with h2 | h2
    · exact absurd h2 (by decide)
    · exact hrp h2

section count
variable {F : Type} [FftField F] [DecidableEq F]

/-- **C113** (prover, exact number of gates): a parsed circuit has one gate per different number, one per different beginning
(with at least two factors) of a product, and one per plus and equals sign. -/
theorem C113_prover_gates (U : Unicode) (hU : U.isWhitespace '-' = false) (wit : List Char → Option F)
    (hw : ∀ nm v, wit nm = some v → parseI32 nm = none) (input lhs rhs : List Char)
    (hs : parseString U input = some (lhs ++ '=' :: rhs)) (hl : '=' ∉ lhs) (hr : '=' ∉ rhs) (hrp : '+' ∉ rhs)
    (hcan : ∀ t, t ∈ lhs.splitOn '+' ∨ t = '-' :: rhs → ∀ tok ∈ t.splitOn '*', Canonical wit (trim U tok))
    (circuit : Circuit F) (hpar : parse U wit input = some circuit) :
    ∃ A, operands U (lhs ++ '=' :: rhs) = some A ∧ circuit.gates.length = gateCount A := by
  unfold parse at hpar
  simp only [hs, Option.bind_eq_bind, Option.bind_some, Option.bind_eq_some_iff] at hpar
  obtain ⟨⟨gates, pm⟩, hp, hgen⟩ := hpar
  obtain ⟨calls, h1, hcalls, hlen, -⟩ := parse_run hw U hU hl hr hrp hp
  obtain ⟨s1, s2⟩ := sim_prepare hw U hU hl hr hrp hcan hp
  dsimp only at hgen
  rw [h1, Option.some.injEq] at hgen
  have hA := operands_eq U hl hr
  obtain ⟨a1, a2, a3⟩ := operands_shape U hA
  have a4 := operands_noPlus' U hl hr hrp hA
  refine ⟨_, hA, ?_⟩
  rw [← length_gatesOf fun u hu => ⟨a2 u hu, fun a ha => ⟨a4 u hu a ha, a3 u hu a ha⟩⟩, ← hgen, build_eq]
  have e := prepareGeneration_ask U hA
  rw [s1, Option.some.injEq, Prod.mk.injEq] at e
  have e1 := congrArg List.length e.1
  rw [List.length_map] at e1
  simp only [List.length_map, hlen, e1]
  rfl

/-- **C113** (verifier, exact size): the verifier's preprocessing accepts a text (without plus sign on the right) exactly if it
gives at least two gates and not more than the field's largest domain has elements; the size is the next power of two. -/
theorem C113_verifier_size (U : Unicode) {input lhs rhs : List Char}
    (hs : parseString U input = some (lhs ++ '=' :: rhs)) (hl : '=' ∉ lhs) (hr : '=' ∉ rhs) (hrp : '+' ∉ rhs) :
    ∃ A, operands U (lhs ++ '=' :: rhs) = some A ∧
      ((cpiCompiled (F := F) U input).isSome ↔ 2 ≤ gateCount A ∧ gateCount A ≤ 2 ^ FftField.twoAdicity F) ∧
      ∀ t, cpiCompiled (F := F) U input = some t → t.2.2 = 2 ^ Nat.clog 2 (gateCount A) := by
  have hA := operands_eq U hl hr
  obtain ⟨a1, a2, a3⟩ := operands_shape U hA
  have a4 := operands_noPlus' U hl hr hrp hA
  refine ⟨_, hA, ?_⟩
  have hlen := length_gatesOf fun u hu => ⟨a2 u hu, fun a ha => ⟨a4 u hu a ha, a3 u hu a ha⟩⟩
  have hcl : (callsOf F (gatesOf ((lhs.splitOn '+' ++ ['-' :: rhs]).map fun t => (t.splitOn '*').map (trim U)))).length =
      gateCount ((lhs.splitOn '+' ++ ['-' :: rhs]).map fun t => (t.splitOn '*').map (trim U)) := by
    rw [callsOf_length, hlen]
  rw [cpiCompiled_gatesOf U hs hA, Option.isSome_map]
  generalize (lhs.splitOn '+' ++ ['-' :: rhs]).map (fun t => (t.splitOn '*').map (trim U)) = A at *
  constructor
  · rw [Option.isSome_iff_ne_none, Ne, C44_compile_panics_iff, hcl]
    have hlt : ∀ call ∈ callsOf F (gatesOf A), ∀ p ∈ [call.a, call.b, call.c],
        p.1 ≤ 2 ∧ p.2.1 < nextPow2 (gateCount A) := by
      intro call hc p hp
      have hb := wirePerm_bounds ((gatesOf A).map CGate.names) (n := (gatesOf A).length) (by rw [List.length_map])
      have hle : gateCount A ≤ nextPow2 (gateCount A) := Nat.le_pow_clog (by norm_num) _
      obtain ⟨i, hi⟩ := List.mem_iff_getElem?.1 hc
      rw [callsOf_getElem?, Option.map_eq_some_iff] at hi
      obtain ⟨g, hg, rfl⟩ := hi
      have hil := (List.getElem?_eq_some_iff.1 hg).1
      simp only [wiredCall, List.mem_cons, List.not_mem_nil, or_false] at hp
      rcases hp with rfl | rfl | rfl
      · have := (hb (0, i) ⟨by norm_num, hil⟩).1; rw [hlen] at this; dsimp only; exact ⟨by omega, by omega⟩
      · have := (hb (1, i) ⟨by norm_num, hil⟩).1; rw [hlen] at this; dsimp only; exact ⟨by omega, by omega⟩
      · have := (hb (2, i) ⟨by norm_num, hil⟩).1; rw [hlen] at this; dsimp only; exact ⟨by omega, by omega⟩
    have hpow : nextPow2 (gateCount A) ≤ 2 ^ FftField.twoAdicity F ↔ gateCount A ≤ 2 ^ FftField.twoAdicity F := by
      unfold nextPow2
      rw [Nat.pow_le_pow_iff_right (by norm_num), Nat.clog_le_iff_le_pow (by norm_num)]
    constructor
    · intro h
      push Not at h
      exact ⟨h.1, hpow.1 h.2.1⟩
    · rintro ⟨q1, q2⟩ (h | h | ⟨call, hc, p, hp, h⟩)
      · omega
      · have := hpow.2 q2; omega
      · exact h (hlt call hc p hp)
  · intro t ht
    obtain ⟨cc, hcc, rfl⟩ := Option.map_eq_some_iff.1 ht
    obtain ⟨⟨e, he⟩, h1, h2⟩ := C44_compile_size _ cc hcc
    rw [hcl] at h1 h2
    show cc.size = _
    refine le_antisymm (h2 _ (Nat.le_pow_clog (by norm_num) _)) ?_
    rw [he] at h1 ⊢
    exact Nat.pow_le_pow_right (by norm_num) ((Nat.clog_le_iff_le_pow (by norm_num)).2 h1)

end count

/-! ## Size and length of the text -/

theorem gateCount_le (A : List (List (List Char))) (h : ∀ t ∈ A, t ≠ []) : gateCount A ≤ 2 * (A.map List.length).sum := by
  have h1 : (numbersOf A).card ≤ (A.map List.length).sum := by
    unfold numbersOf
    refine (List.toFinset_card_le _).trans ((List.length_filter_le _ _).trans ?_)
    rw [List.length_flatten]
  have h2 : (partialProducts A).card + A.length ≤ (A.map List.length).sum := by
    unfold partialProducts
    have hc := List.toFinset_card_le (A.flatMap fun t => t.inits.filter fun q => 2 ≤ q.length)
    rw [List.length_flatMap] at hc
    refine le_trans (Nat.add_le_add_right hc _) ?_
    clear hc h1
    induction A with
    | nil => simp
    | cons t A ih =>
      have ht : ((t.inits.filter fun q => 2 ≤ q.length).length) + 1 ≤ t.length := by
        have hne := h t (by simp)
        obtain ⟨a, r, rfl⟩ := List.exists_cons_of_ne_nil hne
        rw [List.inits, List.filter_cons_of_neg (by simp), List.filter_map, List.length_map]
        cases r with
        | nil => simp
        | cons b r =>
          rw [List.inits, List.filter_cons_of_neg (by simp)]
          refine Nat.succ_le_succ ((List.length_filter_le _ _).trans ?_)
          simp
      have := ih fun u hu => h u (by simp [hu])
      simp only [List.map_cons, List.sum_cons, List.length_cons]
      omega
  unfold gateCount
  omega

theorem operands_count (U : Unicode) {lhs rhs : List Char} (hl : '=' ∉ lhs) (hr : '=' ∉ rhs)
    {A : List (List (List Char))} (hA : operands U (lhs ++ '=' :: rhs) = some A) :
    (A.map List.length).sum ≤ (lhs ++ '=' :: rhs).length + 1 := by
  rw [operands_eq U hl hr, Option.some.injEq] at hA
  subst hA
  have h1 : ∀ L : List (List Char), ((L.map fun t => (t.splitOn '*').map (trim U)).map List.length).sum =
      (L.map fun t => t.count '*').sum + L.length := by
    intro L
    induction L with
    | nil => simp
    | cons t L ih =>
      simp only [List.map_cons, List.sum_cons, List.length_cons, List.length_map, length_splitOn_star] at ih ⊢
      omega
  rw [h1, List.map_append, List.sum_append, sum_count_splitOn, List.length_append, length_splitOn_star]
  have h2 : lhs.count '*' + lhs.count '+' ≤ lhs.length := by
    clear hl h1
    induction lhs with
    | nil => simp
    | cons c l ih =>
      rw [List.count_cons, List.count_cons, List.length_cons]
      by_cases h : c = '*'
      · subst h; simp; omega
      · by_cases h' : c = '+'
        · subst h'; simp; omega
        · simp [h, h']; omega
  have h3 : (rhs.count '*') ≤ rhs.length := List.count_le_length
  have h4 : ('-' :: rhs).count '*' = rhs.count '*' := by rw [List.count_cons]; simp
  simp only [List.map_cons, List.map_nil, List.sum_cons, List.sum_nil, h4, List.length_append, List.length_cons, List.length_nil]
  omega

theorem length_starCopies (c : Char) (k : ℕ) : (starCopies c k).length = 2 * k := by
  unfold starCopies
  induction k with
  | zero => rfl
  | succ k ih => rw [List.replicate_succ, List.flatten_cons, List.length_append, ih]; simp; omega

theorem copies_bound {ds : List Char} {n : ℤ} (h : parseI32 ds = some n) : 2 * (n - 1).toNat + 4 ≤ 2 ^ 32 ∨ (n - 1).toNat = 0 := by
  have hb : ∀ b l, parseDigits b l = some n → n < 2 ^ 31 := by
    intro b l h
    unfold parseDigits at h
    split at h
    · dsimp only at h
      generalize (if b = true then -(Nat.ofDigitChars 10 l 0 : ℤ) else (Nat.ofDigitChars 10 l 0 : ℤ)) = v at h
      by_cases hv : -2 ^ 31 ≤ v ∧ v < 2 ^ 31
      · rw [if_pos hv, Option.some.injEq] at h
        rw [← h]; exact hv.2
      · rw [if_neg hv] at h; exact absurd h (by simp)
    · exact absurd h (by simp)
  have : n < 2 ^ 31 := by
    unfold parseI32 at h
    split at h
    · exact hb _ _ h
    · exact hb _ _ h
    · exact hb _ _ h
  omega

theorem normLoop_length (U : Unicode) (l : List Char) {st st' : NormState} (h : normLoop U l st = some st') :
    st'.result.length ≤ st.result.length + 2 ^ 32 * l.length := by
  induction l generalizing st with
  | nil => cases h; simp
  | cons c l ih =>
    unfold normLoop at h
    rw [Option.bind_eq_some_iff] at h
    obtain ⟨m, hm, h⟩ := h
    have := ih h
    have hs : m.result.length ≤ st.result.length + 2 ^ 32 := by
      unfold normStep at hm
      split at hm
      · cases hm; omega
      split at hm
      · cases hm; simp
      split at hm
      · split at hm
        · split at hm
          · cases hm
          · obtain ⟨n, hn, rfl⟩ := Option.map_eq_some_iff.1 hm
            have := copies_bound hn
            simp only [List.length_append, length_starCopies, List.length_singleton]
            omega
        · cases hm; simp
      · split at hm
        · cases hm; simp
        · cases hm; simp
    rw [List.length_cons]
    omega

theorem normLoop_noPower (U : Unicode) (l : List Char) (hl : '^' ∉ l) {st st' : NormState} (hf : st.flag = false)
    (h : normLoop U l st = some st') : st'.flag = false ∧ st'.result.length ≤ st.result.length + l.length := by
  induction l generalizing st with
  | nil => cases h; exact ⟨hf, by simp⟩
  | cons c l ih =>
    unfold normLoop at h
    rw [Option.bind_eq_some_iff] at h
    obtain ⟨m, hm, h⟩ := h
    have hs : m.flag = false ∧ m.result.length ≤ st.result.length + 1 := by
      unfold normStep at hm
      rw [hf] at hm
      split at hm
      · cases hm; exact ⟨hf, by omega⟩
      split at hm
      · next hc => exact absurd (by rw [hc]; simp) hl
      split at hm
      · simp only [Bool.false_eq_true, if_false, Option.some.injEq] at hm
        rw [← hm]; exact ⟨rfl, by simp⟩
      · simp only [Bool.false_eq_true, if_false, Option.some.injEq] at hm
        rw [← hm]; exact ⟨rfl, by simp⟩
    obtain ⟨h1, h2⟩ := ih (fun hc => hl (by simp [hc])) hs.1 h
    refine ⟨h1, ?_⟩
    rw [List.length_cons]
    omega

/-- **C113** (what holds): a text without `^` gives at most twice as many gates as it has characters (plus two). Missing: texts
with powers, for which it is false (`C113_short_texts_large_circuits`). -/
theorem C113_linear_partial (U : Unicode) {input lhs rhs : List Char} (hpow : '^' ∉ U.lower input)
    (hs : parseString U input = some (lhs ++ '=' :: rhs)) (hl : '=' ∉ lhs) (hr : '=' ∉ rhs)
    {A : List (List (List Char))} (hA : operands U (lhs ++ '=' :: rhs) = some A) :
    gateCount A ≤ 2 * ((U.lower input).length + 1) := by
  have h1 := gateCount_le A (operands_shape U hA).2.1
  have h2 := operands_count U hl hr hA
  unfold parseString at hs
  rw [Option.bind_eq_some_iff] at hs
  obtain ⟨st, hst, hfin⟩ := hs
  obtain ⟨h3, h4⟩ := normLoop_noPower U _ hpow (st := ⟨[], ' ', [], false⟩) rfl hst
  unfold normFinish at hfin
  rw [h3] at hfin
  simp only [Bool.false_eq_true, false_and, if_false, Option.some.injEq] at hfin
  rw [← hfin] at h2
  simp only [List.length_nil] at h4
  omega

/-- **C113** (what holds for every text): a power stands for less than `2^31` factors, so no text gives more than `2^33` gates
per character. -/
theorem C113_bound_partial (U : Unicode) {input lhs rhs : List Char}
    (hs : parseString U input = some (lhs ++ '=' :: rhs)) (hl : '=' ∉ lhs) (hr : '=' ∉ rhs)
    {A : List (List (List Char))} (hA : operands U (lhs ++ '=' :: rhs) = some A) :
    gateCount A ≤ 2 ^ 33 * ((U.lower input).length + 1) := by
  have h1 := gateCount_le A (operands_shape U hA).2.1
  have h2 := operands_count U hl hr hA
  unfold parseString at hs
  rw [Option.bind_eq_some_iff] at hs
  obtain ⟨st, hst, hfin⟩ := hs
  have h4 := normLoop_length U _ hst
  simp only [List.length_nil] at h4
  unfold normFinish at hfin
  split at hfin
  · obtain ⟨n, hn, e⟩ := Option.map_eq_some_iff.1 hfin
    have := copies_bound hn
    have e' := congrArg List.length e
    rw [List.length_append, length_starCopies] at e'
    omega
  · rw [Option.some.injEq] at hfin
    rw [← hfin] at h2
    omega

/-! ## Powers -/

/-- The equation `v₁^k + … + vₘ^k = y`. -/
def powEq (vs : List Char) (k : ℕ) (y : Char) : Equation where
  lhs := vs.map fun v => List.replicate k (.var false [v])
  rhs := [.var false [y]]

/-- How it is written. -/
def powText (vs : List Char) (k : ℕ) (y : Char) : List Char :=
  ['+'].intercalate (vs.map fun v => v :: '^' :: Nat.toDigits 10 k) ++ ['=', y]

/-- The pieces of the text. -/
def powSegs (k : ℕ) (y : Char) : List Char → List Seg
  | [] => [.plain '=', .plain y]
  | [v] => [.power v k, .plain '=', .plain y]
  | v :: w :: vs => .power v k :: .plain '+' :: powSegs k y (w :: vs)

theorem powSegs_source (k : ℕ) (y : Char) (vs : List Char) :
    ((powSegs k y vs).map Seg.source).flatten = powText vs k y := by
  unfold powText
  induction vs with
  | nil => rfl
  | cons v vs ih =>
    cases vs with
    | nil => simp [powSegs, Seg.source]
    | cons w vs =>
      rw [powSegs, List.map_cons, List.map_cons, List.flatten_cons, List.flatten_cons, ih]
      simp [Seg.source, List.intercalate_cons_cons]

theorem powSegs_meaning (k : ℕ) (y : Char) (vs : List Char) :
    ((powSegs k y vs).map Seg.meaning).flatten = (powEq vs k y).text := by
  unfold powEq Equation.text
  induction vs with
  | nil => simp [powSegs, Seg.meaning, termText, Factor.text]
  | cons v vs ih =>
    cases vs with
    | nil => simp [powSegs, Seg.meaning, termText, Factor.text]
    | cons w vs =>
      rw [powSegs, List.map_cons, List.map_cons, List.flatten_cons, List.flatten_cons, ih]
      simp [Seg.meaning, List.intercalate_cons_cons, termText, Factor.text]

/-- A lower-case letter. -/
def Letter (c : Char) : Prop := 97 ≤ c.toNat ∧ c.toNat ≤ 122

instance (c : Char) : Decidable (Letter c) := by unfold Letter; infer_instance

theorem Letter.ne {c d : Char} (h : Letter c) (hd : d.toNat < 97) : c ≠ d := by
  rintro rfl
  have := h.1
  omega

theorem lower_of {c : Char} (h : c.toNat < 65 ∨ 90 < c.toNat) : c.toLower = c := by
  unfold Char.toLower
  rw [dif_neg]
  rintro ⟨h1, h2⟩
  have e1 : 65 ≤ c.toNat := h1
  have e2 : c.toNat ≤ 90 := h2
  omega

theorem Letter.digit {c : Char} (h : Letter c) : isAsciiDigit c = false := by
  unfold isAsciiDigit
  have := h.1
  simp only [Bool.and_eq_false_iff, decide_eq_false_iff_not, not_le]
  right
  show 57 < c.toNat
  omega

theorem Letter.nameOk {c : Char} (h : Letter c) : NameOk asciiTables [c] := by
  have h1 := h.1
  have h2 := h.2
  refine ⟨⟨c, by simp, by omega, h.ne (by decide)⟩, ?_, ?_⟩
  · intro d hd
    rw [List.mem_singleton] at hd
    subst hd
    refine ⟨h.ne (by decide), h.ne (by decide), h.ne (by decide), ?_⟩
    simp [asciiTables, h.ne (d := ' ') (by decide), h.ne (d := '\t') (by decide), h.ne (d := '\n') (by decide),
      h.ne (d := '\r') (by decide)]
  · have hd : parseDigits false [c] = none := parseDigits_none ⟨c, by simp, h.digit⟩
    unfold parseI32
    split
    · next e => simp at e; exact absurd e.1 (h.ne (by decide))
    · next e => simp at e; exact absurd e.1 (h.ne (by decide))
    · exact hd

theorem powSegs_ok {k : ℕ} (hk : 1 ≤ k) (hk' : k < 2 ^ 31) {y : Char} (hy : Letter y) (vs : List Char) (hv : ∀ v ∈ vs, Letter v) :
    (∀ x ∈ powSegs k y vs, x.Ok asciiTables) ∧ (powSegs k y vs).IsChain (Seg.Follow asciiTables) ∧
      ∀ x ∈ (powSegs k y vs).head?, asciiTables.isNumeric x.head = false := by
  have ho : ∀ v ∈ vs, (Seg.power v k).Ok asciiTables := fun v h =>
    ⟨(hv v h).ne (by decide), (hv v h).ne (by decide), (hv v h).digit, hk, hk'⟩
  have hyo : (Seg.plain y).Ok asciiTables := ⟨hy.ne (by decide), hy.ne (by decide)⟩
  have he : (Seg.plain '=').Ok asciiTables := ⟨by decide, by decide⟩
  have hp : (Seg.plain '+').Ok asciiTables := ⟨by decide, by decide⟩
  induction vs with
  | nil =>
    refine ⟨?_, ?_, ?_⟩
    · intro x hx
      simp only [powSegs, List.mem_cons, List.not_mem_nil, or_false] at hx
      rcases hx with rfl | rfl <;> assumption
    · simp [powSegs, Seg.Follow]
    · simp [powSegs, Seg.head, asciiTables, isAsciiDigit]
  | cons v vs ih =>
    cases vs with
    | nil =>
      refine ⟨?_, ?_, ?_⟩
      · intro x hx
        simp only [powSegs, List.mem_cons, List.not_mem_nil, or_false] at hx
        rcases hx with rfl | rfl | rfl
        · exact ho v (by simp)
        · exact he
        · exact hyo
      · simp [powSegs, Seg.Follow, Seg.head, asciiTables, isAsciiDigit]
      · simpa [powSegs, Seg.head, asciiTables] using (hv v (by simp)).digit
    | cons w vs =>
      obtain ⟨i1, i2, i3⟩ := ih (fun x hx => hv x (by simp [hx])) fun x hx => ho x (by simp [hx])
      refine ⟨?_, ?_, ?_⟩
      · intro x hx
        rw [powSegs, List.mem_cons, List.mem_cons] at hx
        rcases hx with rfl | rfl | hx
        · exact ho v (by simp)
        · exact hp
        · exact i1 x hx
      · rw [powSegs, List.isChain_cons_cons]
        refine ⟨by simp [Seg.Follow, Seg.head, asciiTables, isAsciiDigit], ?_⟩
        rw [List.isChain_cons]
        exact ⟨fun _ _ => trivial, i2⟩
      · simpa [powSegs, Seg.head, asciiTables] using (hv v (by simp)).digit

theorem pow_normal {k : ℕ} (hk : 1 ≤ k) (hk' : k < 2 ^ 31) {y : Char} (hy : Letter y) {vs : List Char}
    (hv : ∀ v ∈ vs, Letter v) : parseString asciiTables (powText vs k y) = some (powEq vs k y).text := by
  obtain ⟨h1, h2, -⟩ := powSegs_ok hk hk' hy vs hv
  rw [← powSegs_meaning]
  refine C58_powers asciiTables (fun c h => h) _ h1 h2 _ ?_
  rw [powSegs_source]
  show (powText vs k y).map Char.toLower = _
  conv_rhs => rw [← List.map_id (powText vs k y)]
  refine List.map_congr_left fun c hc => ?_
  show c.toLower = c
  have hl : ∀ c, Letter c → c.toLower = c := fun c h => lower_of (Or.inr (by have := h.1; omega))
  unfold powText at hc
  rcases List.mem_append.1 hc with hc | hc
  · rcases mem_intercalate_char hc with h | ⟨l, hl', hcl⟩
    · rw [h]; decide
    · obtain ⟨v, hvm, rfl⟩ := List.mem_map.1 hl'
      rcases List.mem_cons.1 hcl with rfl | hcl
      · exact hl _ (hv _ hvm)
      · rcases List.mem_cons.1 hcl with rfl | hcl
        · decide
        · have := toDigits_mem hcl
          unfold isAsciiDigit at this
          simp only [Bool.and_eq_true, decide_eq_true_eq] at this
          have h9 : c.toNat ≤ 57 := this.2
          exact lower_of (Or.inl (by omega))
  · simp only [List.mem_cons, List.not_mem_nil, or_false] at hc
    rcases hc with rfl | rfl
    · decide
    · exact hl _ hy

theorem powEq_ok {k : ℕ} (hk : 1 ≤ k) {y : Char} (hy : Letter y) {vs : List Char} (hne : vs ≠ [])
    (hv : ∀ v ∈ vs, Letter v) : (powEq vs k y).Ok asciiTables where
  lhs_ne := by simpa [powEq] using hne
  term_ne := by
    intro t ht h
    obtain ⟨v, -, rfl⟩ := List.mem_map.1 ht
    have := congrArg List.length h
    rw [List.length_replicate, List.length_nil] at this
    omega
  rhs_ne := by simp [powEq]
  lhs_ok := by
    intro t ht f hf
    obtain ⟨v, hvm, rfl⟩ := List.mem_map.1 ht
    rw [(List.mem_replicate.1 hf).2]
    exact (hv v hvm).nameOk
  rhs_ok := by
    intro f hf
    rw [powEq, List.mem_singleton] at hf
    rw [hf]
    exact hy.nameOk
  rhs_head := by simp [powEq]

theorem powEq_canonical {k : ℕ} {y : Char} (hy : Letter y) {vs : List Char} (hv : ∀ v ∈ vs, Letter v) :
    (powEq vs k y).Canonical where
  names := by
    rintro nm ⟨neg, h⟩
    rcases h with ⟨t, ht, h⟩ | h
    · obtain ⟨v, hvm, rfl⟩ := List.mem_map.1 ht
      have := (List.mem_replicate.1 h).2
      rw [Factor.var.injEq] at this
      rw [this.2]
      exact ⟨v, by simp, (hv v hvm).digit⟩
    · rw [powEq, List.mem_singleton, Factor.var.injEq] at h
      rw [h.2]
      exact ⟨y, by simp, hy.digit⟩
  rhs := by simp [powEq]

theorem gateCount_pow {k : ℕ} (hk : 1 ≤ k) {y : Char} (hy : Letter y) {vs : List Char} (hne : vs ≠ [])
    (hnd : vs.Nodup) (hv : ∀ v ∈ vs, Letter v) {A : List (List (List Char))}
    (hA : operands asciiTables (powEq vs k y).text = some A) : gateCount A = vs.length * k := by
  obtain ⟨f, fs, hf, h⟩ := operands_text asciiTables_sane (powEq_ok hk hy hne hv)
  rw [hA, Option.some.injEq] at h
  simp only [powEq, List.cons.injEq] at hf
  obtain ⟨rfl, rfl⟩ := hf
  subst h
  have hnone : ∀ c : Char, Letter c → parseI32 [c] = none := fun c h => h.nameOk.notNumber
  have hneg : parseI32 ('-' :: [y]) = none := parseDigits_none ⟨y, by simp, hy.digit⟩
  have e : (powEq vs k y).lhs.map (List.map Factor.text) = vs.map fun v => List.replicate k [v] := by
    simp [powEq, Factor.text]
  rw [e]
  have hnum : numbersOf ((vs.map fun v => List.replicate k [v]) ++
      [('-' :: (Factor.var false [y]).text) :: ([] : List Factor).map Factor.text]) = ∅ := by
    rw [Finset.eq_empty_iff_forall_notMem]
    intro a ha
    obtain ⟨t, ht, hat, hp⟩ := mem_numbersOf.1 ha
    rcases List.mem_append.1 ht with ht | ht
    · obtain ⟨v, hvm, rfl⟩ := List.mem_map.1 ht
      rw [(List.mem_replicate.1 hat).2, hnone v (hv v hvm)] at hp
      cases hp
    · rw [List.mem_singleton] at ht
      subst ht
      simp only [List.map_nil, List.mem_singleton] at hat
      rw [hat] at hp
      have : parseI32 ('-' :: (Factor.var false [y]).text) = none := hneg
      rw [this] at hp
      cases hp
  have hprod : partialProducts ((vs.map fun v => List.replicate k [v]) ++
      [('-' :: (Factor.var false [y]).text) :: ([] : List Factor).map Factor.text]) =
      (vs.toFinset ×ˢ Finset.Icc 2 k).image fun p => List.replicate p.2 [p.1] := by
    ext q
    rw [mem_partialProducts, Finset.mem_image]
    constructor
    · rintro ⟨t, ht, hpre, hl⟩
      rcases List.mem_append.1 ht with ht | ht
      · obtain ⟨v, hvm, rfl⟩ := List.mem_map.1 ht
        have hle := hpre.length_le
        rw [List.length_replicate] at hle
        refine ⟨(v, q.length), by simp [hvm, hl, hle], ?_⟩
        symm
        exact List.eq_replicate_iff.2 ⟨rfl, fun b hb => (List.mem_replicate.1 (hpre.subset hb)).2⟩
      · rw [List.mem_singleton] at ht
        subst ht
        have := hpre.length_le
        simp at this
        omega
    · rintro ⟨⟨v, j⟩, hp, rfl⟩
      simp only [Finset.mem_product, List.mem_toFinset, Finset.mem_Icc] at hp
      refine ⟨List.replicate k [v], List.mem_append_left _ (List.mem_map.2 ⟨v, hp.1, rfl⟩), ?_, ?_⟩
      · rw [show k = j + (k - j) by omega, List.replicate_add]
        exact List.prefix_append _ _
      · rw [List.length_replicate]; exact hp.2.1
  unfold gateCount
  rw [hnum, hprod, Finset.card_image_of_injOn, Finset.card_product, List.toFinset_card_of_nodup hnd, Nat.card_Icc]
  · simp only [Finset.card_empty, List.length_append, List.length_map, List.length_singleton]
    obtain ⟨j, rfl⟩ : ∃ j, k = j + 1 := ⟨k - 1, by omega⟩
    rw [show j + 1 + 1 - 2 = j by omega, Nat.mul_add]
    omega
  · rintro ⟨v, j⟩ hp ⟨w, i⟩ hq e
    simp only [Finset.coe_product, Set.mem_prod, Finset.mem_coe, Finset.mem_Icc] at hp hq
    have hl := congrArg List.length e
    simp only [List.length_replicate] at hl
    subst hl
    have h0 := congrArg (fun l => l[0]?) e
    simp only [List.getElem?_replicate, if_pos (show 0 < j by omega), Option.some.injEq, List.cons.injEq, and_true] at h0
    rw [h0]

theorem length_intercalate_plus (L : List (List Char)) (h : L ≠ []) :
    (['+'].intercalate L).length + 1 = (L.map fun l => l.length + 1).sum := by
  induction L with
  | nil => exact absurd rfl h
  | cons a L ih =>
    cases L with
    | nil => simp
    | cons b L =>
      rw [List.intercalate_cons_cons, List.map_cons, List.sum_cons, ← ih (by simp)]
      simp only [List.length_append, List.length_singleton]
      omega

/-- Circuits that are not much larger than their texts: at most `c` gates per character. -/
def SizeFollowsText (c : ℕ) : Prop :=
  ∀ (wit : List Char → Option BlsFr) (input : List Char) (circuit : Circuit BlsFr),
    parse asciiTables wit input = some circuit → circuit.gates.length ≤ c * input.length

/-- **C113** (short texts with large circuits): for different letters `v₁ … vₘ` and `1 ≤ k < 2^31` the text `v₁^k+…+vₘ^k=y` has
at most `13 m + 1` characters; whatever the values of the letters, the parser returns a circuit with exactly `m k` gates. The
verifier's preprocessing accepts the text exactly if there are at least two and at most `2^32` gates; otherwise it panics, and
so does compiling the prover's circuit. -/
theorem C113_powers {k : ℕ} (hk : 1 ≤ k) (hk' : k < 2 ^ 31) {y : Char} (hy : Letter y) {vs : List Char} (hne : vs ≠ [])
    (hnd : vs.Nodup) (hv : ∀ v ∈ vs, Letter v) (wit : List Char → Option BlsFr)
    (hw : ∀ nm v, wit nm = some v → parseI32 nm = none) (hvs : ∀ v ∈ y :: vs, (wit [v]).isSome) :
    (powText vs k y).length ≤ 13 * vs.length + 1 ∧
    ∃ circuit, parse asciiTables wit (powText vs k y) = some circuit ∧ circuit.gates.length = vs.length * k ∧
      ((cpiCompiled (F := BlsFr) asciiTables (powText vs k y)).isSome ↔ 2 ≤ vs.length * k ∧ vs.length * k ≤ 2 ^ 32) ∧
      (circuit.compile.isSome ↔ 2 ≤ vs.length * k ∧ vs.length * k ≤ 2 ^ 32) := by
  have hin := pow_normal hk hk' hy hv
  have he := powEq_ok hk hy hne hv
  have hcan := powEq_canonical (k := k) hy hv
  have hc : Covers wit (powEq vs k y) fun nm => (wit nm).getD 0 := by
    refine ⟨?_, hw⟩
    rintro nm ⟨neg, h⟩
    have : ∃ v ∈ y :: vs, nm = [v] := by
      rcases h with ⟨t, ht, h⟩ | h
      · obtain ⟨v, hvm, rfl⟩ := List.mem_map.1 ht
        have := (List.mem_replicate.1 h).2
        rw [Factor.var.injEq] at this
        exact ⟨v, by simp [hvm], this.2⟩
      · rw [powEq, List.mem_singleton, Factor.var.injEq] at h
        exact ⟨y, by simp, h.2⟩
    obtain ⟨v, hvm, rfl⟩ := this
    obtain ⟨x, hx⟩ := Option.isSome_iff_exists.1 (hvs v hvm)
    rw [hx]; rfl
  obtain ⟨circuit, hpar, -⟩ := C71_number_of_gates asciiTables asciiTables_sane _ he wit _ hc _ hin
  have hU := asciiTables_sane
  have hcan' := canonical_equation hU he hcan hc
  obtain ⟨A, hA, hcount⟩ := C113_prover_gates asciiTables hU.minus wit hw _ _ _ hin (lhs_noEq hU he) (rhs_noEq hU he)
    (rhs_noPlus hU he) hcan' circuit hpar
  obtain ⟨A', hA', hiff, -⟩ := C113_verifier_size (F := BlsFr) asciiTables hin (lhs_noEq hU he) (rhs_noEq hU he)
    (rhs_noPlus hU he)
  have hAA : A' = A := by
    have := hA'.symm.trans hA
    exact Option.some.inj this
  subst hAA
  have hg := gateCount_pow hk hy hne hnd hv hA
  rw [hg] at hcount hiff
  have hsame := C103_same_compiled asciiTables hU.minus wit hw _ _ _ hin (lhs_noEq hU he) (rhs_noEq hU he)
    (rhs_noPlus hU he) hcan' circuit hpar
  refine ⟨?_, circuit, hpar, hcount, hiff, ?_⟩
  · have hd : (Nat.toDigits 10 k).length ≤ 10 := by
      rw [Nat.length_toDigits_le_iff (by norm_num) (by norm_num)]
      calc k < 2 ^ 31 := hk'
        _ ≤ 10 ^ 10 := by norm_num
    unfold powText
    have := length_intercalate_plus (vs.map fun v => v :: '^' :: Nat.toDigits 10 k) (by simpa using hne)
    rw [List.map_map] at this
    have hsum : (vs.map ((fun l => l.length + 1) ∘ fun v => v :: '^' :: Nat.toDigits 10 k)).sum ≤ 13 * vs.length := by
      have := List.sum_le_card_nsmul (vs.map ((fun l : List Char => l.length + 1) ∘ fun v => v :: '^' :: Nat.toDigits 10 k)) 13 (by
        intro x hx
        obtain ⟨v, -, rfl⟩ := List.mem_map.1 hx
        simp only [Function.comp, List.length_cons]
        omega)
      rw [List.length_map, smul_eq_mul] at this
      omega
    rw [List.length_append]
    simp only [List.length_cons, List.length_nil]
    omega
  · refine Iff.trans ?_ hiff
    rw [hsame, Option.isSome_map]

/-- **C113** is false: 14 characters give 2147483647 gates, so no bound below 2^27 gates per character holds; and 40 characters
give a circuit that is too large to be compiled. -/
theorem C113_short_texts_large_circuits :
    (∀ c < 2 ^ 27, ¬ SizeFollowsText c) ∧
    ("a^2147483647+b^2147483647+c^2147483647=d".toList).length = 40 ∧
    cpiCompiled (F := BlsFr) asciiTables "a^2147483647+b^2147483647+c^2147483647=d".toList = none ∧
    ∀ wit : List Char → Option BlsFr, (∀ nm v, wit nm = some v → parseI32 nm = none) →
      (∀ v ∈ ['d', 'a', 'b', 'c'], (wit [v]).isSome) →
      ∃ circuit, parse asciiTables wit "a^2147483647+b^2147483647+c^2147483647=d".toList = some circuit ∧
        circuit.compile = none := by
  have key : ∀ wit : List Char → Option BlsFr, (∀ nm v, wit nm = some v → parseI32 nm = none) →
      (∀ v ∈ ['d', 'a', 'b', 'c'], (wit [v]).isSome) →
      cpiCompiled (F := BlsFr) asciiTables "a^2147483647+b^2147483647+c^2147483647=d".toList = none ∧
      ∃ circuit, parse asciiTables wit "a^2147483647+b^2147483647+c^2147483647=d".toList = some circuit ∧
        circuit.compile = none := by
    intro wit hw hvs
    obtain ⟨-, circuit, h1, -, h3, h4⟩ := C113_powers (k := 2147483647) (by norm_num) (by norm_num) (y := 'd') (by decide)
      (vs := ['a', 'b', 'c']) (by simp) (by decide) (by decide) wit hw hvs
    have hbig : ¬ (2 ≤ ['a', 'b', 'c'].length * 2147483647 ∧ ['a', 'b', 'c'].length * 2147483647 ≤ 2 ^ 32) := by
      simp only [List.length_cons, List.length_nil]; norm_num
    have ht : powText ['a', 'b', 'c'] 2147483647 'd' = "a^2147483647+b^2147483647+c^2147483647=d".toList := by
      decide +kernel
    rw [ht] at h1 h3
    refine ⟨?_, circuit, h1, ?_⟩
    · rw [← Option.not_isSome_iff_eq_none, h3]; exact hbig
    · rw [← Option.not_isSome_iff_eq_none, h4]; exact hbig
  let W : List Char → Option BlsFr := fun nm => if parseI32 nm = none then some 1 else none
  have hW : ∀ nm v, W nm = some v → parseI32 nm = none := by
    intro nm v h
    by_contra hc
    simp [W, hc] at h
  have hL : ∀ c, Letter c → (W [c]).isSome := by
    intro c h
    simp [W, h.nameOk.notNumber]
  refine ⟨?_, by decide +kernel, (key W hW fun v hv => hL v (by revert v; decide)).1, fun wit hw hvs => (key wit hw hvs).2⟩
  intro c hc hall
  obtain ⟨-, circuit, h1, h2, -⟩ := C113_powers (k := 2147483647) (by norm_num) (by norm_num) (y := 'y') (by decide)
    (vs := ['x']) (by simp) (by decide) (by decide) W hW fun v hv => hL v (by revert v; decide)
  have ht : powText ['x'] 2147483647 'y' = "x^2147483647=y".toList := by decide +kernel
  rw [ht] at h1
  have := hall W _ circuit h1
  rw [h2] at this
  have hlen : ("x^2147483647=y".toList).length = 14 := by decide +kernel
  rw [hlen] at this
  simp only [List.length_cons, List.length_nil] at this
  omega

/-- Non-vacuity: the repository's example has the numbers 3 and −11, the partial products `x*y`, `3*x`, `3*x*x`, `x*y*z` and three
sums, hence nine gates. -/
example : ∃ A, operands asciiTables "x*y+3*x*x+x*y*z=11".toList = some A ∧ gateCount A = 9 ∧
    (numbersOf A).card = 2 ∧ (partialProducts A).card = 4 := ⟨_, rfl, by decide +kernel, by decide +kernel, by decide +kernel⟩

example : ((parse asciiTables exWit "x * y + 3 * X ^ 2 + x * Y * z = 11".toList).map fun c => c.gates.length) = some 9 := by
  decide +kernel

end Verif.Plonk

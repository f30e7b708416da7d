import Verif.Plonk.Parser

/-!
# C58, C59: normalisation of the input string
-/

set_option linter.unusedSectionVars false
set_option linter.unusedSimpArgs false
set_option linter.unusedVariables false

namespace Verif.Plonk

open Verif.Ark

/-! ## Numbers -/

theorem isAsciiDigit_of_isDigit {c : Char} (h : c.isDigit = true) : isAsciiDigit c = true := by
  have : '0'.val ≤ c.val ∧ c.val ≤ '9'.val := by
    simpa [Char.isDigit, Bool.and_eq_true, decide_eq_true_eq] using h
  simp only [isAsciiDigit, Bool.and_eq_true, decide_eq_true_eq]
  exact ⟨this.1, this.2⟩

theorem toDigits_all (n : ℕ) : (Nat.toDigits 10 n).all isAsciiDigit = true := by
  rw [List.all_eq_true]
  intro c hc
  exact isAsciiDigit_of_isDigit (Nat.isDigit_of_mem_toDigits (by decide) (by decide) hc)

theorem toDigits_mem {n : ℕ} {c : Char} (h : c ∈ Nat.toDigits 10 n) : isAsciiDigit c = true :=
  List.all_eq_true.1 (toDigits_all n) c h

/-- An unsigned digit string. -/
theorem parseI32_digits {ds : List Char} (h0 : ds ≠ []) (hd : ds.all isAsciiDigit = true) :
    parseI32 ds = if Nat.ofDigitChars 10 ds 0 < 2 ^ 31 then some (Nat.ofDigitChars 10 ds 0 : ℤ) else none := by
  obtain ⟨c, cs, rfl⟩ := List.exists_cons_of_ne_nil h0
  have hc : isAsciiDigit c = true := List.all_eq_true.1 hd c (by simp)
  have h1 : c ≠ '-' := by rintro rfl; revert hc; decide
  have h2 : c ≠ '+' := by rintro rfl; revert hc; decide
  unfold parseI32
  split
  · rename_i ds heq
    simp only [List.cons.injEq] at heq
    exact absurd heq.1 h1
  · rename_i ds heq
    simp only [List.cons.injEq] at heq
    exact absurd heq.1 h2
  · simp only [parseDigits, ne_eq, reduceCtorEq, not_false_eq_true, hd, and_self, if_true, Bool.false_eq_true, if_false]
    congr 1
    apply propext
    constructor
    · intro h; exact_mod_cast h.2
    · intro h
      have h3 : (0 : ℤ) ≤ (Nat.ofDigitChars 10 (c :: cs) 0 : ℤ) := by positivity
      have h4 : (0 : ℤ) ≤ 2 ^ 31 := by norm_num
      exact ⟨by linarith, by exact_mod_cast h⟩

theorem parseI32_toDigits {n : ℕ} (h : n < 2 ^ 31) : parseI32 (Nat.toDigits 10 n) = some (n : ℤ) := by
  rw [parseI32_digits Nat.toDigits_ne_nil (toDigits_all n), Nat.ofDigitChars_ten_toDigits, if_pos h]

/-- A negated digit string. -/
theorem parseI32_neg {ds : List Char} (h0 : ds ≠ []) (hd : ds.all isAsciiDigit = true) :
    parseI32 ('-' :: ds) =
      if Nat.ofDigitChars 10 ds 0 ≤ 2 ^ 31 then some (-(Nat.ofDigitChars 10 ds 0 : ℤ)) else none := by
  simp only [parseI32, parseDigits, ne_eq, h0, not_false_eq_true, hd, and_self, if_true]
  congr 1
  apply propext
  constructor
  · intro h
    have := h.1
    have h2 : (Nat.ofDigitChars 10 ds 0 : ℤ) ≤ 2 ^ 31 := by linarith
    exact_mod_cast h2
  · intro h
    have h2 : (Nat.ofDigitChars 10 ds 0 : ℤ) ≤ 2 ^ 31 := by exact_mod_cast h
    have h3 : (0 : ℤ) ≤ (Nat.ofDigitChars 10 ds 0 : ℤ) := by positivity
    constructor
    · linarith
    · have : (0 : ℤ) < 2 ^ 31 := by norm_num
      linarith

/-- Printing and parsing an `i32`. -/
theorem parseI32_showInt {c : ℤ} (h1 : -2 ^ 31 ≤ c) (h2 : c < 2 ^ 31) : parseI32 (showInt c) = some c := by
  unfold showInt
  split
  · rename_i hneg
    rw [parseI32_neg Nat.toDigits_ne_nil (toDigits_all _), Nat.ofDigitChars_ten_toDigits, if_pos (by omega)]
    congr 1
    omega
  · rw [parseI32_toDigits (by omega)]
    congr 1
    omega

/-! ## Specification of the notation -/

/-- A piece of source text: a plain character, or a power `v^k`. -/
inductive Seg where
  /-- any character other than `^` and space -/
  | plain (c : Char)
  /-- `v^k` with `k` in decimal -/
  | power (v : Char) (k : ℕ)

/-- How a piece is written. -/
def Seg.source : Seg → List Char
  | .plain c => [c]
  | .power v k => v :: '^' :: Nat.toDigits 10 k

/-- What a piece stands for: `v^k` is `v*…*v` with `k` factors. -/
def Seg.meaning : Seg → List Char
  | .plain c => [c]
  | .power v k => ['*'].intercalate (List.replicate k [v])

/-- First character of a piece. -/
def Seg.head : Seg → Char
  | .plain c => c
  | .power v _ => v

/-- The piece is not `^` or a space; powers have a non-numeric base and an exponent in `1..2^31`. -/
def Seg.Ok (U : Unicode) : Seg → Prop
  | .plain c => c ≠ '^' ∧ c ≠ ' '
  | .power v k => v ≠ '^' ∧ v ≠ ' ' ∧ U.isNumeric v = false ∧ 1 ≤ k ∧ k < 2 ^ 31

/-- A power is not directly followed by a numeric character. -/
def Seg.Follow (U : Unicode) : Seg → Seg → Prop
  | .power _ _, t => U.isNumeric t.head = false
  | .plain _, _ => True

/-! ## Lemmas on the loop -/

theorem normStep_space (U : Unicode) (st : NormState) : normStep U st ' ' = some st := by
  simp [normStep]

theorem normLoop_filter (U : Unicode) (s : List Char) (st : NormState) :
    normLoop U s st = normLoop U (s.filter (· ≠ ' ')) st := by
  induction s generalizing st with
  | nil => rfl
  | cons c s ih =>
    by_cases hc : c = ' '
    · subst hc
      rw [normLoop, normStep_space, Option.bind_some, ih]
      congr 1
    · rw [List.filter_cons_of_pos (by simpa using hc), normLoop, normLoop]
      congr 1
      funext st'
      exact ih st'

theorem normLoop_append (U : Unicode) (s t : List Char) (st : NormState) :
    normLoop U (s ++ t) st = (normLoop U s st).bind (normLoop U t) := by
  induction s generalizing st with
  | nil => rfl
  | cons c s ih =>
    rw [List.cons_append, normLoop, normLoop, Option.bind_assoc]
    congr 1
    funext st'
    exact ih st'

theorem normStep_plain (U : Unicode) {c : Char} (h1 : c ≠ '^') (h2 : c ≠ ' ') (r : List Char) (l : Char)
    (b : List Char) : normStep U ⟨r, l, b, false⟩ c =
      some ⟨r ++ [c], c, if U.isNumeric c then b ++ [c] else [], false⟩ := by
  unfold normStep
  rw [if_neg h2, if_neg h1]
  cases hn : U.isNumeric c <;> simp

/-- The number buffer after a text without `^`. -/
def plainBuf (U : Unicode) (b s : List Char) : List Char :=
  s.foldl (fun b c => if U.isNumeric c then b ++ [c] else []) b

theorem plainBuf_nil (U : Unicode) (s : List Char) :
    plainBuf U [] s = (s.reverse.takeWhile U.isNumeric).reverse := by
  induction s using List.reverseRecOn with
  | nil => rfl
  | append_singleton s c ih =>
    unfold plainBuf at ih ⊢
    rw [List.foldl_append, List.foldl_cons, List.foldl_nil, ih]
    cases hn : U.isNumeric c <;> simp [hn]

/-- The state after a text without `^` and spaces. -/
theorem normLoop_plain (U : Unicode) (s : List Char) (h : ∀ c ∈ s, c ≠ '^' ∧ c ≠ ' ') (r : List Char) (l : Char)
    (b : List Char) : normLoop U s ⟨r, l, b, false⟩ =
      some ⟨r ++ s, s.getLast?.getD l, plainBuf U b s, false⟩ := by
  induction s generalizing r l b with
  | nil => simp [normLoop, plainBuf]
  | cons c s ih =>
    have hc := h c (by simp)
    rw [normLoop, normStep_plain U hc.1 hc.2, Option.bind_some, ih (fun x hx => h x (by simp [hx]))]
    congr 1
    simp [plainBuf]
    cases s <;> simp [List.getLast?_cons]

/-- The state after `^` and digits. -/
theorem normLoop_digits (U : Unicode) (hU : ∀ c, isAsciiDigit c = true → U.isNumeric c = true)
    (ds : List Char) (hd : ∀ c ∈ ds, isAsciiDigit c = true) (r : List Char) (l : Char) (b : List Char) :
    normLoop U ds ⟨r, l, b, true⟩ = some ⟨r, l, b ++ ds, true⟩ := by
  induction ds generalizing b with
  | nil => simp [normLoop]
  | cons c ds ih =>
    have hc := hd c (by simp)
    have h1 : c ≠ ' ' := by rintro rfl; revert hc; decide
    have h2 : c ≠ '^' := by rintro rfl; revert hc; decide
    rw [normLoop, normStep, if_neg h1, if_neg h2]
    simp only [hU c hc, Bool.not_true, Bool.false_eq_true, if_false, if_true, Option.bind_some]
    rw [ih (fun x hx => hd x (by simp [hx]))]
    simp

theorem meaning_power (v : Char) {k : ℕ} (h : 1 ≤ k) :
    (Seg.power v k).meaning = v :: starCopies v (k - 1) := by
  obtain ⟨k, rfl⟩ : ∃ j, k = j + 1 := ⟨k - 1, by omega⟩
  rw [Nat.add_sub_cancel]
  simp only [Seg.meaning, starCopies]
  clear h
  induction k with
  | zero => simp
  | succ k ih =>
    rw [List.replicate_succ, List.replicate_succ, List.intercalate_cons_cons, ← List.replicate_succ, ih]
    simp [List.replicate_succ]

/-! ## C58 -/

/-- **C58** (spaces and case): the result only depends on the lower-cased string without its spaces. -/
theorem C58_spaces_and_case (U : Unicode) (s t : List Char)
    (h : (U.lower s).filter (· ≠ ' ') = (U.lower t).filter (· ≠ ' ')) :
    parseString U s = parseString U t := by
  unfold parseString
  rw [normLoop_filter U (U.lower s), normLoop_filter U (U.lower t), h]

/-- **C58** for ASCII texts: two texts that are equal after removing spaces and mapping `A..Z` to `a..z` are
normalised to the same string. -/
theorem C58_ascii (U : Unicode) (hU : ∀ s : List Char, (∀ c ∈ s, c.toNat < 128) → U.lower s = s.map Char.toLower)
    (s t : List Char) (hs : ∀ c ∈ s, c.toNat < 128) (ht : ∀ c ∈ t, c.toNat < 128)
    (h : (s.filter (· ≠ ' ')).map Char.toLower = (t.filter (· ≠ ' ')).map Char.toLower) :
    parseString U s = parseString U t := by
  have key : ∀ s : List Char, (s.map Char.toLower).filter (· ≠ ' ') = (s.filter (· ≠ ' ')).map Char.toLower := by
    intro s
    rw [List.filter_map]
    congr 1
    apply List.filter_congr
    intro c _
    simp only [Function.comp_apply, ne_eq, decide_not]
    rw [show ∀ a b : Bool, ((!a) = !b) = (a = b) from by decide, decide_eq_decide]
    constructor
    · intro hc
      by_contra hne
      unfold Char.toLower at hc
      split at hc
      · rename_i h1
        have := congrArg Char.toNat hc
        have h3 : c.val.toNat + 32 < 1000 := by
          have := h1.2
          have : c.val.toNat ≤ 90 := this
          omega
        have h4 : (65 : ℕ) ≤ c.val.toNat := h1.1
        simp only [Char.toNat] at this
        rw [UInt32.toNat_add] at this
        have h5 : (' '.val.toNat) = 32 := rfl
        rw [h5] at this
        have h6 : ('a'.val - 'A'.val).toNat = 32 := rfl
        omega
      · exact hne hc
    · rintro rfl; decide
  apply C58_spaces_and_case
  rw [hU s hs, hU t ht, key, key, h]

/-- **C58** (identity): a lower-case string without spaces and `^` is returned unchanged. -/
theorem C58_identity (U : Unicode) (s : List Char) (hl : U.lower s = s) (h : ∀ c ∈ s, c ≠ '^' ∧ c ≠ ' ') :
    parseString U s = some s := by
  unfold parseString
  rw [hl, normLoop_plain U s h]
  simp [normFinish]

theorem normLoop_segs (U : Unicode) (hU : ∀ c, isAsciiDigit c = true → U.isNumeric c = true)
    (segs : List Seg) (hok : ∀ x ∈ segs, x.Ok U) (hfol : segs.IsChain (Seg.Follow U)) (r : List Char) :
    (∀ l b, (normLoop U (segs.map Seg.source).flatten ⟨r, l, b, false⟩).bind normFinish =
      some (r ++ (segs.map Seg.meaning).flatten)) ∧
    (∀ v k, 1 ≤ k → k < 2 ^ 31 → (∀ x ∈ segs.head?, U.isNumeric x.head = false) →
      (normLoop U (segs.map Seg.source).flatten ⟨r, v, Nat.toDigits 10 k, true⟩).bind normFinish =
      some (r ++ starCopies v (k - 1) ++ (segs.map Seg.meaning).flatten)) := by
  induction segs generalizing r with
  | nil =>
    refine ⟨fun l b => by simp [normLoop, normFinish], fun v k h1 h2 _ => ?_⟩
    simp only [List.map_nil, List.flatten_nil, normLoop, Option.bind_some, normFinish, ne_eq,
      Nat.toDigits_ne_nil, not_false_eq_true, and_self, if_true, parseI32_toDigits h2, Option.map_some,
      List.append_nil]
    congr 3
    omega
  | cons x segs ih =>
    have hx := hok x (by simp)
    have htail : segs.IsChain (Seg.Follow U) := by
      cases segs with
      | nil => simp
      | cons y ys => exact (List.isChain_cons_cons.1 hfol).2
    have IH := fun r => ih (fun y hy => hok y (by simp [hy])) htail r
    have hhead : ∀ v k, x = Seg.power v k → ∀ y ∈ segs.head?, U.isNumeric y.head = false := by
      rintro v k rfl y hy
      cases segs with
      | nil => simp at hy
      | cons z zs =>
        simp only [List.head?_cons, Option.mem_def, Option.some.injEq] at hy
        subst hy
        exact (List.isChain_cons_cons.1 hfol).1
    -- the part after the first character of the piece
    have hrest : ∀ r, ((normLoop U (x.source.tail ++ (segs.map Seg.source).flatten)
        ⟨r ++ [x.head], x.head, [], false⟩).bind normFinish =
        some (r ++ x.meaning ++ (segs.map Seg.meaning).flatten)) ∧
        ∀ b, x = .plain x.head → (normLoop U (x.source.tail ++ (segs.map Seg.source).flatten)
        ⟨r ++ [x.head], x.head, b, false⟩).bind normFinish =
        some (r ++ x.meaning ++ (segs.map Seg.meaning).flatten) := by
      intro r
      cases x with
      | plain c =>
        have : ∀ b, (normLoop U ((Seg.plain c).source.tail ++ (segs.map Seg.source).flatten)
            ⟨r ++ [c], c, b, false⟩).bind normFinish =
            some (r ++ (Seg.plain c).meaning ++ (segs.map Seg.meaning).flatten) := by
          intro b
          exact (IH (r ++ [c])).1 c b
        exact ⟨this _, fun b _ => this b⟩
      | power v k =>
        refine ⟨?_, fun b h => by cases h⟩
        obtain ⟨h1, h2, h3, h4, h5⟩ := hx
        simp only [Seg.source, Seg.head, List.tail_cons, List.cons_append]
        rw [normLoop]
        have : normStep U ⟨r ++ [v], v, [], false⟩ '^' = some ⟨r ++ [v], v, [], true⟩ := by
          unfold normStep
          rw [if_neg (by decide), if_pos rfl]
        rw [this, Option.bind_some, normLoop_append, normLoop_digits U hU _ (fun c hc => toDigits_mem hc),
          Option.bind_some, List.nil_append, (IH (r ++ [v])).2 v k h4 h5 (hhead v k rfl), meaning_power v h4]
        simp
    have hsrc : x.source = x.head :: x.source.tail := by cases x <;> rfl
    have hne : x.head ≠ '^' ∧ x.head ≠ ' ' := by
      cases x with
      | plain c => exact hx
      | power v k => exact ⟨hx.1, hx.2.1⟩
    rw [List.map_cons, List.flatten_cons, List.map_cons, List.flatten_cons, hsrc, List.cons_append]
    constructor
    · intro l b
      rw [normLoop, normStep_plain U hne.1 hne.2, Option.bind_some, ← List.append_assoc]
      cases hp : x with
      | plain c =>
        have := (hrest r).2 (if U.isNumeric x.head then b ++ [x.head] else []) (by rw [hp]; rfl)
        rw [hp] at this
        exact this
      | power v k =>
        have hn : U.isNumeric x.head = false := by rw [hp] at hx ⊢; exact hx.2.2.1
        have := (hrest r).1
        rw [hp] at this hn
        rw [hn]
        exact this
    · intro v k h1 h2 h3
      have hn : U.isNumeric x.head = false := h3 x (by simp)
      rw [normLoop]
      have : normStep U ⟨r, v, Nat.toDigits 10 k, true⟩ x.head =
          some ⟨r ++ starCopies v (k - 1) ++ [x.head], x.head, [], false⟩ := by
        unfold normStep
        rw [if_neg hne.2, if_neg hne.1]
        simp only [hn, Bool.not_false, if_true, Nat.toDigits_ne_nil, if_false, parseI32_toDigits h2, Option.map_some]
        congr 5
        omega
      rw [this, Option.bind_some]
      have := (hrest (r ++ starCopies v (k - 1))).1
      rw [this]
      simp

/-- **C58** (powers): in a text made of plain characters and powers `v^k` of a single non-numeric character,
where no power is directly followed by a numeric character, every power is replaced by `v*…*v` with `k`
factors and nothing else changes. -/
theorem C58_powers (U : Unicode) (hU : ∀ c, isAsciiDigit c = true → U.isNumeric c = true)
    (segs : List Seg) (hok : ∀ x ∈ segs, x.Ok U) (hfol : segs.IsChain (Seg.Follow U))
    (s : List Char) (hs : U.lower s = (segs.map Seg.source).flatten) :
    parseString U s = some (segs.map Seg.meaning).flatten := by
  unfold parseString
  rw [hs]
  simpa using (normLoop_segs U hU segs hok hfol []).1 ' ' []

/-- Non-vacuity: a text with two powers and its normal form. -/
example : ∃ segs : List Seg, (∀ x ∈ segs, x.Ok asciiTables) ∧ segs.IsChain (Seg.Follow asciiTables) ∧
    (segs.map Seg.source).flatten = "3*x^2+y^12=11".toList ∧
    (segs.map Seg.meaning).flatten = "3*x*x+y*y*y*y*y*y*y*y*y*y*y*y=11".toList := by
  refine ⟨[.plain '3', .plain '*', .power 'x' 2, .plain '+', .power 'y' 12, .plain '=', .plain '1', .plain '1'],
    ?_, ?_, by decide, by decide⟩
  · intro x hx
    simp only [List.mem_cons, List.not_mem_nil, or_false] at hx
    rcases hx with rfl | rfl | rfl | rfl | rfl | rfl | rfl | rfl <;> (simp only [Seg.Ok]; decide)
  · simp only [List.isChain_cons_cons, Seg.Follow, List.isChain_singleton, true_and, and_true, Seg.head]
    decide

example : parseString asciiTables "x * y + 3 * X ^ 2 + x * Y * z = 11".toList =
    some "x*y+3*x*x+x*y*z=11".toList := by decide

/-! ## C59 -/

/-- Correct normalisation of a text that contains a single power `b^k` between two plain texts. -/
def PowersExpand (U : Unicode) : Prop :=
  ∀ (pre b post : List Char) (k : ℕ), b ≠ [] → (∀ c ∈ pre ++ b ++ post, c ≠ '^' ∧ c ≠ ' ') → 1 ≤ k → k < 2 ^ 31 →
    (∀ c ∈ b, c.isAlphanum = true) → (∀ c ∈ pre.getLast?, c = '+' ∨ c = '*' ∨ c = '=') →
    (∀ c ∈ post.head?, c = '+' ∨ c = '*' ∨ c = '=') →
    U.lower (pre ++ b ++ '^' :: Nat.toDigits 10 k ++ post) = pre ++ b ++ '^' :: Nat.toDigits 10 k ++ post →
    parseString U (pre ++ b ++ '^' :: Nat.toDigits 10 k ++ post) =
      some (pre ++ ['*'].intercalate (List.replicate k b) ++ post)

/-- **C59** is false: `2^3` becomes a product of 23 factors, `ab^2` becomes `ab*b`. -/
theorem C59_numeric_and_long_bases_fail : ¬ PowersExpand asciiTables ∧
    parseString asciiTables "2^3=8".toList ≠ some "2*2*2=8".toList ∧
    parseString asciiTables "2^3=8".toList = some ((List.replicate 22 ['2', '*']).flatten ++ "2=8".toList) ∧
    parseString asciiTables "ab^2=8".toList = some "ab*b=8".toList := by
  refine ⟨?_, by decide, by decide, by decide⟩
  intro h
  have := h [] "ab".toList "=8".toList 2 (by decide) (by decide) (by decide) (by decide) (by decide) (by decide)
    (by decide) (by decide)
  revert this
  decide

/-- **C59** is false for the exponent 0 as well: `x^0` becomes `x`, not the empty product; a `^` without
exponent at the end of the text is silently dropped. -/
theorem C59_zero_exponent : parseString asciiTables "x^0=1".toList = some "x=1".toList ∧
    parseString asciiTables "1=x^".toList = some "1=x".toList := by decide

/-- **C59** (what the code does instead): for a base text `t` (without `^`) followed by `^`, digits `ds` and a
text `post` that is empty or starts with a non-numeric character, only the *last character* of `t` is
repeated, and the repetition count is read from the digits that end `t` followed by `ds`.
Missing: the correct expansion for numeric and multi-letter bases, which is false
(`C59_numeric_and_long_bases_fail`). -/
theorem C59_powers_partial (U : Unicode) (hU : ∀ c, U.isNumeric c = isAsciiDigit c)
    (t ds post : List Char) (ht : t ≠ []) (h : ∀ c ∈ t ++ post, c ≠ '^' ∧ c ≠ ' ')
    (hds : ds ≠ []) (hdig : ∀ c ∈ ds, isAsciiDigit c = true)
    (hpost : ∀ c ∈ post.head?, isAsciiDigit c = false)
    (s : List Char) (hs : U.lower s = t ++ '^' :: ds ++ post) :
    parseString U s =
      if Nat.ofDigitChars 10 ((t.reverse.takeWhile isAsciiDigit).reverse ++ ds) 0 < 2 ^ 31 then
        some (t ++ starCopies (t.getLast ht)
          (Nat.ofDigitChars 10 ((t.reverse.takeWhile isAsciiDigit).reverse ++ ds) 0 - 1) ++ post)
      else none := by
  set run := (t.reverse.takeWhile isAsciiDigit).reverse with hrun
  have hfun : U.isNumeric = isAsciiDigit := funext hU
  have hrund : ∀ c ∈ run, isAsciiDigit c = true := by
    intro c hc
    rw [hrun, List.mem_reverse] at hc
    exact (List.all_eq_true.1 List.all_takeWhile) c hc
  have hne : run ++ ds ≠ [] := by simp [hds]
  have hall : (run ++ ds).all isAsciiDigit = true := by
    rw [List.all_eq_true]
    intro c hc
    rcases List.mem_append.1 hc with h | h
    · exact hrund c h
    · exact hdig c h
  have hP := parseI32_digits hne hall
  unfold parseString
  rw [hs, List.append_assoc, normLoop_append, normLoop_plain U t (fun c hc => h c (by simp [hc])), Option.bind_some,
    plainBuf_nil, hfun, ← hrun, List.nil_append, List.cons_append, normLoop]
  have hcaret : ∀ r l b, normStep U ⟨r, l, b, false⟩ '^' = some ⟨r, l, b, true⟩ := by
    intro r l b
    unfold normStep
    rw [if_neg (by decide), if_pos rfl]
  rw [hcaret, Option.bind_some, normLoop_append, normLoop_digits U (fun c hc => by rw [hU, hc]) ds hdig,
    Option.bind_some, List.getLast?_eq_some_getLast ht, Option.getD_some]
  cases post with
  | nil =>
    simp only [normLoop, Option.bind_some, normFinish, ne_eq, hne, not_false_eq_true, and_self, if_true, hP,
      List.append_nil]
    split
    · simp only [Option.map_some]
      congr 3
      omega
    · rfl
  | cons c post =>
    have hc : isAsciiDigit c = false := hpost c (by simp)
    have hcc := h c (by simp)
    rw [normLoop]
    have : normStep U ⟨t, t.getLast ht, run ++ ds, true⟩ c = if Nat.ofDigitChars 10 (run ++ ds) 0 < 2 ^ 31 then
        some ⟨t ++ starCopies (t.getLast ht) (Nat.ofDigitChars 10 (run ++ ds) 0 - 1) ++ [c], c, [], false⟩
        else none := by
      unfold normStep
      rw [if_neg hcc.2, if_neg hcc.1]
      simp only [hU, hc, Bool.not_false, if_true, hne, if_false, hP]
      split
      · simp only [Option.map_some]
        congr 5
        omega
      · rfl
    rw [this]
    split
    · rw [Option.bind_some, normLoop_plain U post (fun x hx => h x (by simp [hx])), Option.bind_some]
      simp [normFinish]
    · rfl

/-- Non-vacuity of the partial theorem: the text `12^3=5`. -/
example : (∀ c ∈ "12".toList ++ "=5".toList, c ≠ '^' ∧ c ≠ ' ') ∧ (∀ c ∈ ['3'], isAsciiDigit c = true) ∧
    asciiTables.lower "12^3=5".toList = "12".toList ++ '^' :: ['3'] ++ "=5".toList := by decide

end Verif.Plonk

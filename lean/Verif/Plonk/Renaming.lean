import Verif.Plonk.Oblivious
import Verif.Plonk.Cpi

/-!
# C101: names are only names

The parser works on strings, uses concatenated strings as keys and compares single characters, so that it is not obvious
that names are only names.  The theorems hold for every text, accepted or not: renaming characters commutes with the
whole parser; renaming whole names, which may change their lengths, commutes with everything after normalisation (where
`ab^2` becomes `ab*b`, so that powers only work for names of one character).
-/

set_option linter.unusedSectionVars false

namespace Verif.Plonk

open Verif.Ark Verif.Kzg

/-- The characters with a meaning of their own: digits, operators, space. -/
def isSyntax (c : Char) : Bool := isAsciiDigit c || c ∈ ['+', '-', '*', '=', '^', ' ']

/-- A permutation of the characters is a renaming if it keeps the characters with a meaning and is compatible with the
Unicode tables: lower-casing, numeric and white-space characters, and characters of one byte. -/
structure IsRenaming (U : Unicode) (π : Equiv.Perm Char) : Prop where
  /-- digits, operators and the space are kept -/
  keeps : ∀ c, isSyntax c = true → π c = c
  /-- lower-casing a renamed text renames the lower-cased text -/
  lower : ∀ s, U.lower (s.map π) = (U.lower s).map π
  /-- numeric characters stay numeric -/
  numeric : ∀ c, U.isNumeric (π c) = U.isNumeric c
  /-- white space stays white space -/
  white : ∀ c, U.isWhitespace (π c) = U.isWhitespace c
  /-- ASCII characters stay ASCII characters -/
  ascii : ∀ c, 128 ≤ (π c).toNat ↔ 128 ≤ c.toNat

section ren
variable {U : Unicode} {π : Equiv.Perm Char}

theorem IsRenaming.eq_iff (h : IsRenaming U π) {a : Char} (ha : isSyntax a = true) (c : Char) : π c = a ↔ c = a := by
  constructor
  · intro e; rw [← h.keeps a ha] at e; exact π.injective e
  · rintro rfl; exact h.keeps c ha

theorem IsRenaming.digit (h : IsRenaming U π) (c : Char) : isAsciiDigit (π c) = isAsciiDigit c := by
  by_cases hc : isAsciiDigit c = true
  · rw [h.keeps c (by simp [isSyntax, hc])]
  · by_cases hp : isAsciiDigit (π c) = true
    · have h1 := (h.eq_iff (a := π c) (by simp [isSyntax, hp]) c).1 rfl
      rw [← h1]
    · simp only [Bool.not_eq_true] at hc hp; rw [hc, hp]

theorem IsRenaming.map_digits (h : IsRenaming U π) {l : List Char} (hl : l.all isAsciiDigit = true) : l.map π = l := by
  rw [List.map_congr_left (g := id), List.map_id]
  intro c hc
  exact h.keeps c (by simp [isSyntax, List.all_eq_true.1 hl c hc])

theorem IsRenaming.all_digits (h : IsRenaming U π) (l : List Char) :
    (l.map π).all isAsciiDigit = l.all isAsciiDigit := by
  rw [List.all_map]; congr 1; funext c; exact h.digit c

theorem IsRenaming.ren_parseDigits (h : IsRenaming U π) (b : Bool) (l : List Char) :
    parseDigits b (l.map π) = parseDigits b l := by
  unfold parseDigits
  rw [h.all_digits]
  by_cases hl : l.all isAsciiDigit = true
  · rw [h.map_digits hl]
  · simp only [hl]; simp

theorem parseI32_eq (l : List Char) : parseI32 l =
    if l.head? = some '-' then parseDigits true l.tail
    else if l.head? = some '+' then parseDigits false l.tail else parseDigits false l := by
  unfold parseI32
  split
  · simp
  · simp
  · next h1 h2 =>
    cases l with
    | nil => simp
    | cons c l =>
      have e1 : c ≠ '-' := by rintro rfl; exact h1 l rfl
      have e2 : c ≠ '+' := by rintro rfl; exact h2 l rfl
      simp [e1, e2]

theorem IsRenaming.head (h : IsRenaming U π) {a : Char} (ha : isSyntax a = true) (l : List Char) :
    (l.map π).head? = some a ↔ l.head? = some a := by
  cases l with
  | nil => simp
  | cons c l => simp [h.eq_iff ha]

theorem IsRenaming.ren_parseI32 (h : IsRenaming U π) (l : List Char) : parseI32 (l.map π) = parseI32 l := by
  rw [parseI32_eq, parseI32_eq, ← List.map_tail, h.ren_parseDigits, h.ren_parseDigits, h.ren_parseDigits]
  simp only [h.head (a := '-') (by decide), h.head (a := '+') (by decide)]

/-! ### Normalisation -/

/-- Renaming the variables of the normalisation loop. -/
def NormState.ren (π : Equiv.Perm Char) (s : NormState) : NormState :=
  ⟨s.result.map π, π s.last, s.buf.map π, s.flag⟩

theorem IsRenaming.ren_starCopies (h : IsRenaming U π) (c : Char) (k : ℕ) :
    starCopies (π c) k = (starCopies c k).map π := by
  unfold starCopies
  rw [List.map_flatten, List.map_replicate]
  simp [h.keeps '*' (by decide)]

theorem IsRenaming.ren_normStep (h : IsRenaming U π) (s : NormState) (c : Char) :
    normStep U (s.ren π) (π c) = (normStep U s c).map (NormState.ren π) := by
  unfold normStep
  simp only [h.eq_iff (a := ' ') (by decide), h.eq_iff (a := '^') (by decide), h.numeric]
  split
  · rfl
  split
  · rfl
  split
  · have hf : (s.ren π).flag = s.flag := rfl
    have hb : (s.ren π).buf = s.buf.map π := rfl
    rw [hf, hb, h.ren_parseI32]
    split
    · by_cases hbuf : s.buf = []
      · simp [hbuf]
      · rw [if_neg (by simpa using hbuf), if_neg hbuf, Option.map_map]
        congr 1
        funext n
        simp [NormState.ren, h.ren_starCopies]
    · simp [NormState.ren]
  · have hf : (s.ren π).flag = s.flag := rfl
    rw [hf]
    split <;> simp [NormState.ren]

theorem IsRenaming.ren_normLoop (h : IsRenaming U π) (l : List Char) (s : NormState) :
    normLoop U (l.map π) (s.ren π) = (normLoop U l s).map (NormState.ren π) := by
  induction l generalizing s with
  | nil => rfl
  | cons c l ih =>
    rw [List.map_cons]
    unfold normLoop
    rw [h.ren_normStep]
    cases normStep U s c with
    | none => rfl
    | some t => exact ih t

theorem IsRenaming.ren_parseString (h : IsRenaming U π) (s : List Char) :
    parseString U (s.map π) = (parseString U s).map (List.map π) := by
  unfold parseString
  rw [h.lower]
  have e : (⟨[], ' ', [], false⟩ : NormState) = NormState.ren π ⟨[], ' ', [], false⟩ := by
    simp [NormState.ren, h.keeps ' ' (by decide)]
  conv_lhs => rw [e]
  rw [h.ren_normLoop]
  cases normLoop U (U.lower s) ⟨[], ' ', [], false⟩ with
  | none => rfl
  | some t =>
    simp only [Option.map_some, Option.bind_some]
    unfold normFinish
    have hf : (t.ren π).flag = t.flag := rfl
    have hb : (t.ren π).buf = t.buf.map π := rfl
    have hr : (t.ren π).result = t.result.map π := rfl
    have hl : (t.ren π).last = π t.last := rfl
    rw [hf, hb, hr, hl, h.ren_parseI32]
    simp only [ne_eq, List.map_eq_nil_iff]
    split
    · rw [Option.map_map]; congr 1; funext n; simp [h.ren_starCopies]
    · rfl

/-! ### Splitting and trimming -/

theorem IsRenaming.ren_splitOn (h : IsRenaming U π) {a : Char} (ha : isSyntax a = true) (l : List Char) :
    (l.map π).splitOn a = (l.splitOn a).map (List.map π) := by
  induction l with
  | nil => simp
  | cons c l ih =>
    rw [List.map_cons, List.splitOn_cons_eq_if_modifyHead, List.splitOn_cons_eq_if_modifyHead, ih]
    simp only [beq_iff_eq, h.eq_iff ha]
    split
    · simp
    · cases l.splitOn a <;> simp

theorem dropWhile_ren {p : Char → Bool} (hp : ∀ c, p (π c) = p c) (l : List Char) :
    (l.map π).dropWhile p = (l.dropWhile p).map π := by
  induction l with
  | nil => rfl
  | cons c l ih =>
    rw [List.map_cons, List.dropWhile_cons, List.dropWhile_cons, hp, ih]
    split <;> simp

theorem IsRenaming.ren_trim (h : IsRenaming U π) (l : List Char) : trim U (l.map π) = (trim U l).map π := by
  unfold trim
  rw [dropWhile_ren h.white, ← List.map_reverse, dropWhile_ren h.white, List.map_reverse]

end ren

/-! ### Renamings of strings -/

/-- What the parser relies on when the strings it handles are renamed by a permutation of all strings. -/
structure StrRen (U : Unicode) (φ : Equiv.Perm (List Char)) : Prop where
  /-- sums are kept -/
  plus : ∀ l r, φ (l ++ '+' :: r) = φ l ++ '+' :: φ r
  /-- products are kept -/
  star : ∀ l r, φ (l ++ '*' :: r) = φ l ++ '*' :: φ r
  /-- leading minus signs are kept -/
  minus : ∀ l, φ ('-' :: l) = '-' :: φ l
  /-- other first characters: not a minus sign, ASCII or not as before -/
  first : ∀ c l, c ≠ '-' → ∃ c' l', φ (c :: l) = c' :: l' ∧ c' ≠ '-' ∧ (128 ≤ c'.toNat ↔ 128 ≤ c.toNat)
  /-- splitting commutes with renaming -/
  split : ∀ a, a = '+' ∨ a = '*' ∨ a = '=' → ∀ l, (φ l).splitOn a = (l.splitOn a).map φ
  /-- numbers are recognised as before -/
  number : ∀ l, parseI32 (φ l) = parseI32 l
  /-- digits are kept -/
  digits : ∀ l : List Char, l.all isAsciiDigit = true → φ l = l
  /-- trimming commutes with renaming -/
  trimming : ∀ l, trim U (φ l) = φ (trim U l)

section strRen
variable {U : Unicode} {φ : Equiv.Perm (List Char)}

theorem StrRen.nil (h : StrRen U φ) : φ [] = [] := h.digits [] rfl

theorem StrRen.ren_showInt (h : StrRen U φ) (k : ℤ) : φ (showInt k) = showInt k := by
  have hd : ∀ n : ℕ, φ (Nat.toDigits 10 n) = Nat.toDigits 10 n := fun n =>
    h.digits _ (List.all_eq_true.2 fun c hc => by
      have := Nat.isDigit_of_mem_toDigits (by norm_num) (by norm_num) hc
      simp only [Char.isDigit, Bool.and_eq_true, decide_eq_true_eq, ge_iff_le, UInt32.le_iff_toNat_le] at this
      simp only [isAsciiDigit, Bool.and_eq_true, decide_eq_true_eq]
      exact this)
  unfold showInt
  split
  · rw [h.minus, hd]
  · exact hd _

theorem StrRen.zero (h : StrRen U φ) : φ ['0'] = ['0'] := h.digits _ (by decide)

theorem StrRen.ren_splitTerms (h : StrRen U φ) (s : List Char) :
    splitTerms (φ s) = (splitTerms s).map (List.map φ) := by
  unfold splitTerms
  rw [h.split '=' (by decide)]
  match s.splitOn '=' with
  | [] => rfl
  | [_] => rfl
  | [l, r] => simp [h.split '+' (by decide), h.minus]
  | _ :: _ :: _ :: _ => rfl

/-! ### Gates and positions -/

variable {F : Type} [Field F] [DecidableEq F]

/-- Renamed wire. -/
def Wire.ren (φ : Equiv.Perm (List Char)) (w : Wire F) : Wire F := ⟨φ w.name, w.val⟩

/-- Renamed gate. -/
def PGate.ren (φ : Equiv.Perm (List Char)) (g : PGate F) : PGate F := ⟨g.left.ren φ, g.right.ren φ, g.bottom.ren φ, g.ty⟩

/-- Renamed position map: the positions of a name are found under the renamed name. -/
def PosMap.ren (φ : Equiv.Perm (List Char)) (pm : PosMap) : PosMap := fun k => pm (φ.symm k)

/-- Renamed collections. -/
def PState.ren (φ : Equiv.Perm (List Char)) (st : PState F) : PState F :=
  ⟨st.gates.map (PGate.ren φ), st.set.map (PGate.ren φ), PosMap.ren φ st.pm⟩

theorem Wire.ren_inj (v w : Wire F) (h : v.ren φ = w.ren φ) : v = w := by
  simp only [Wire.ren, Wire.mk.injEq] at h
  exact wire_ext (φ.injective h.1) h.2

theorem PGate.ren_inj : Function.Injective (PGate.ren (F := F) φ) := by
  intro g g' h
  obtain ⟨a, b, c, t⟩ := g
  obtain ⟨a', b', c', t'⟩ := g'
  simp only [PGate.ren, PGate.mk.injEq] at h
  rw [Wire.ren_inj _ _ h.1, Wire.ren_inj _ _ h.2.1, Wire.ren_inj _ _ h.2.2.1, h.2.2.2]

theorem PosMap.ren_apply (pm : PosMap) (k : List Char) : PosMap.ren φ pm (φ k) = pm k := by
  simp [PosMap.ren]

theorem PosMap.ren_update (pm : PosMap) (k : List Char) (v : List (ℕ × ℕ)) :
    PosMap.ren φ (Function.update pm k v) = Function.update (PosMap.ren φ pm) (φ k) v := by
  funext j
  unfold PosMap.ren
  by_cases hj : j = φ k
  · subst hj; simp
  · rw [Function.update_of_ne hj, Function.update_of_ne]
    rintro rfl
    exact hj (by simp)

theorem PosMap.ren_push (pm : PosMap) (w g : ℕ) (k : List Char) :
    PosMap.ren φ (pm.push w g k) = (PosMap.ren φ pm).push w g (φ k) := by
  unfold PosMap.push
  rw [PosMap.ren_update, PosMap.ren_apply]

theorem ren_insertGate (st : PState F) (g : PGate F) :
    (st.insertGate g).ren φ = (st.ren φ).insertGate (g.ren φ) := by
  unfold PState.insertGate
  have hmem : g.ren φ ∈ (st.ren φ).set ↔ g ∈ st.set := by
    simp only [PState.ren, List.mem_map]
    constructor
    · rintro ⟨g', h1, h2⟩; rwa [← PGate.ren_inj h2]
    · exact fun h => ⟨g, h, rfl⟩
  by_cases hg : g ∈ st.set
  · rw [if_pos hg, if_pos (hmem.2 hg)]
  · rw [if_neg hg, if_neg (fun h => hg (hmem.1 h))]
    simp only [PState.ren, PosMap.ren_push, List.map_append, List.map_cons, List.map_nil, List.length_map]
    rfl

theorem StrRen.ren_constantGate (h : StrRen U φ) (st : PState F) (w : Wire F) :
    (generateConstantGate st w).ren φ = generateConstantGate (st.ren φ) (w.ren φ) := by
  unfold generateConstantGate
  rw [ren_insertGate]
  simp [PGate.ren, Wire.ren, h.plus, h.zero]

theorem StrRen.ren_additionalGate (h : StrRen U φ) (st : PState F) (v w : Wire F) :
    generateAdditionalGate (st.ren φ) (v.ren φ) (w.ren φ) =
      ((generateAdditionalGate st v w).1.ren φ, (generateAdditionalGate st v w).2.ren φ) := by
  unfold generateAdditionalGate
  rw [ren_insertGate]
  simp [PGate.ren, Wire.ren, h.plus]

theorem StrRen.ren_multiplicationGate (h : StrRen U φ) (st : PState F) (v w : Wire F) :
    generateMultiplicationGate (st.ren φ) (v.ren φ) (w.ren φ) =
      ((generateMultiplicationGate st v w).1.ren φ, (generateMultiplicationGate st v w).2.ren φ) := by
  unfold generateMultiplicationGate
  rw [ren_insertGate]
  simp [PGate.ren, Wire.ren, h.star]

/-- The witnesses under the new names. -/
def renWit (φ : Equiv.Perm (List Char)) (wit : List Char → Option F) : List Char → Option F := fun n => wit (φ.symm n)

theorem renWit_map (wit : List Char → Option F) (n : List Char) : renWit φ wit (φ n) = wit n := by
  simp [renWit]

theorem StrRen.ren_getWitnessValue (h : StrRen U φ) (wit : List Char → Option F) (v : List Char)
    (st : PState F) : getWitnessValue (renWit φ wit) (φ v) (st.ren φ) =
      (getWitnessValue wit v st).map fun r => (r.1, r.2.ren φ) := by
  cases v with
  | nil => rw [h.nil]; rfl
  | cons c rest =>
    by_cases hm : c = '-'
    · subst hm
      rw [h.minus]
      unfold getWitnessValue
      simp only [decide_true, if_true, renWit_map, h.number]
      split
      · rfl
      cases wit rest with
      | some x => rfl
      | none =>
        simp only [Option.map_map]
        congr 1
        funext k
        simp [h.ren_constantGate, Wire.ren, h.ren_showInt, h.minus]
    · obtain ⟨c', l', e, hc', ha⟩ := h.first c rest hm
      have hn := h.number (c :: rest)
      have hw := renWit_map (φ := φ) wit (c :: rest)
      rw [e] at hn hw ⊢
      unfold getWitnessValue
      simp only [hc', hm, decide_false, ha]
      split
      · rfl
      simp only [Bool.false_eq_true, if_false, hn, hw]
      cases wit (c :: rest) with
      | some x => rfl
      | none =>
        simp only [Option.map_map]
        congr 1
        funext k
        simp [h.ren_constantGate, Wire.ren, h.ren_showInt]

theorem StrRen.ren_tokenWires (h : StrRen U φ) (wit : List Char → Option F) (l : List (List Char))
    (st : PState F) : tokenWires U (renWit φ wit) (l.map φ) (st.ren φ) =
      (tokenWires U wit l st).map fun r => (r.1.map (Wire.ren φ), r.2.ren φ) := by
  induction l generalizing st with
  | nil => rfl
  | cons s l ih =>
    rw [List.map_cons]
    unfold tokenWires
    simp only [Option.bind_eq_bind, h.trimming, h.ren_getWitnessValue]
    cases getWitnessValue wit (trim U s) st with
    | none => rfl
    | some r =>
      simp only [Option.map_some, Option.bind_some, ih]
      cases tokenWires U wit l r.2 with
      | none => rfl
      | some q => rfl

theorem StrRen.ren_mulReduce (h : StrRen U φ) (w : Wire F) (ws : List (Wire F)) (st : PState F) :
    mulReduce (w.ren φ) (ws.map (Wire.ren φ)) (st.ren φ) = ((mulReduce w ws st).1.ren φ, (mulReduce w ws st).2.ren φ) := by
  induction ws generalizing w st with
  | nil => rfl
  | cons v ws ih =>
    rw [List.map_cons]
    unfold mulReduce
    simp only [h.ren_multiplicationGate]
    exact ih _ _

theorem StrRen.ren_termWire (h : StrRen U φ) (wit : List Char → Option F) (t : List Char) (st : PState F) :
    termWire U (renWit φ wit) (φ t) (st.ren φ) = (termWire U wit t st).map fun r => (r.1.ren φ, r.2.ren φ) := by
  unfold termWire
  simp only [Option.bind_eq_bind, h.split '*' (by decide), h.ren_tokenWires]
  cases tokenWires U wit (t.splitOn '*') st with
  | none => rfl
  | some r =>
    obtain ⟨ws, st'⟩ := r
    cases ws with
    | nil => rfl
    | cons w ws =>
      simp only [Option.map_some, Option.bind_some, List.map_cons, h.ren_mulReduce, pure]

theorem StrRen.ren_addReduce (h : StrRen U φ) (wit : List Char → Option F) (l : List (List Char)) (w : Wire F)
    (st : PState F) : addReduce U (renWit φ wit) (l.map φ) (w.ren φ) (st.ren φ) =
      (addReduce U wit l w st).map fun r => (r.1.ren φ, r.2.ren φ) := by
  induction l generalizing w st with
  | nil => rfl
  | cons t l ih =>
    rw [List.map_cons]
    unfold addReduce
    simp only [Option.bind_eq_bind, h.ren_termWire]
    cases termWire U wit t st with
    | none => rfl
    | some r =>
      simp only [Option.map_some, Option.bind_some, h.ren_additionalGate]
      exact ih _ _

theorem ren_zeroLast (l : List (PGate F)) : zeroLast (l.map (PGate.ren φ)) = (zeroLast l).map (List.map (PGate.ren φ)) := by
  unfold zeroLast
  rw [List.getLast?_map]
  cases l.getLast? with
  | none => rfl
  | some g => simp [PGate.ren, Wire.ren, List.map_dropLast]

theorem StrRen.ren_prepareGenCircuit (h : StrRen U φ) (wit : List Char → Option F) (s : List Char) :
    prepareGenCircuit U (renWit φ wit) (φ s) =
      (prepareGenCircuit U wit s).map fun r => (r.1.map (PGate.ren φ), PosMap.ren φ r.2) := by
  unfold prepareGenCircuit
  simp only [Option.bind_eq_bind, h.ren_splitTerms]
  cases splitTerms s with
  | none => rfl
  | some l =>
    cases l with
    | nil => rfl
    | cons t ts =>
      have e : (⟨[], [], fun _ => []⟩ : PState F) = PState.ren φ ⟨[], [], fun _ => []⟩ := rfl
      simp only [Option.map_some, Option.bind_some, List.map_cons]
      conv_lhs => rw [e]
      rw [h.ren_termWire]
      cases termWire U wit t ⟨[], [], fun _ => []⟩ with
      | none => rfl
      | some r =>
        simp only [Option.map_some, Option.bind_some, h.ren_addReduce]
        cases addReduce U wit ts r.1 r.2 with
        | none => rfl
        | some q =>
          simp only [Option.map_some, Option.bind_some]
          rw [show (q.2.ren φ).gates = q.2.gates.map (PGate.ren φ) from rfl, ren_zeroLast]
          cases zeroLast q.2.gates with
          | none => rfl
          | some gs => rfl

theorem PosMap.ren_pop (pm : PosMap) (k : List Char) :
    (PosMap.ren φ pm).pop (φ k) = (pm.pop k).map fun r => (r.1, PosMap.ren φ r.2) := by
  unfold PosMap.pop
  rw [PosMap.ren_apply]
  cases (pm k).getLast? with
  | none => rfl
  | some p => simp only [Option.map_some]; rw [PosMap.ren_update]

theorem ren_genStep (c : Circuit F) (pm : PosMap) (g : PGate F) :
    genStep c (PosMap.ren φ pm) (g.ren φ) = (genStep c pm g).map fun r => (r.1, PosMap.ren φ r.2) := by
  unfold genStep
  simp only [Option.bind_eq_bind]
  rw [show (g.ren φ).left.name = φ g.left.name from rfl, show (g.ren φ).right.name = φ g.right.name from rfl,
    show (g.ren φ).bottom.name = φ g.bottom.name from rfl, PosMap.ren_pop]
  cases pm.pop g.left.name with
  | none => rfl
  | some l =>
    simp only [Option.map_some, Option.bind_some]
    rw [PosMap.ren_pop]
    cases l.2.pop g.right.name with
    | none => rfl
    | some r =>
      simp only [Option.map_some, Option.bind_some]
      rw [PosMap.ren_pop]
      cases r.2.pop g.bottom.name with
      | none => rfl
      | some b =>
        simp only [Option.map_some, Option.bind_some]
        obtain ⟨gl, gr, gb, ty⟩ := g
        cases ty <;> rfl

theorem ren_genLoop (gs : List (PGate F)) (c : Circuit F) (pm : PosMap) :
    genLoop (gs.map (PGate.ren φ)) c (PosMap.ren φ pm) = genLoop gs c pm := by
  induction gs generalizing c pm with
  | nil => rfl
  | cons g gs ih =>
    rw [List.map_cons]
    unfold genLoop
    rw [ren_genStep]
    cases genStep c pm g with
    | none => rfl
    | some r => exact ih _ _

theorem StrRen.ren_parse (h : StrRen U φ) (wit : List Char → Option F) {text text' : List Char}
    (ht : parseString U text' = (parseString U text).map φ) : parse U (renWit φ wit) text' = parse U wit text := by
  unfold parse
  simp only [Option.bind_eq_bind, ht]
  cases parseString U text with
  | none => rfl
  | some s =>
    simp only [Option.map_some, Option.bind_some, h.ren_prepareGenCircuit]
    cases prepareGenCircuit U wit s with
    | none => rfl
    | some r =>
      simp only [Option.map_some, Option.bind_some]
      exact ren_genLoop r.1 Circuit.default (fun key => reverseRotate (r.2 key))

/-! ### The verifier's own parser -/

/-- Renamed gate of `cpi_parser.rs`. -/
def CGate.ren (φ : Equiv.Perm (List Char)) (g : CGate) : CGate := ⟨φ g.left, φ g.right, φ g.bottom, g.ty⟩

/-- Renamed collections of `cpi_parser.rs`. -/
def CState.ren (φ : Equiv.Perm (List Char)) (st : CState) : CState :=
  ⟨st.gates.map (CGate.ren φ), st.set.map (CGate.ren φ), PosMap.ren φ st.pm⟩

theorem CGate.ren_inj : Function.Injective (CGate.ren φ) := by
  intro g g' h
  obtain ⟨a, b, c, t⟩ := g
  obtain ⟨a', b', c', t'⟩ := g'
  simp only [CGate.ren, CGate.mk.injEq] at h
  have hi := φ.injective
  rw [hi h.1, hi h.2.1, hi h.2.2.1, h.2.2.2]

theorem ren_cInsertGate (st : CState) (g : CGate) : (st.insertGate g).ren φ = (st.ren φ).insertGate (g.ren φ) := by
  unfold CState.insertGate
  have hmem : g.ren φ ∈ (st.ren φ).set ↔ g ∈ st.set := by
    simp only [CState.ren, List.mem_map]
    constructor
    · rintro ⟨g', h1, h2⟩; rwa [← CGate.ren_inj h2]
    · exact fun h => ⟨g, h, rfl⟩
  by_cases hg : g ∈ st.set
  · rw [if_pos hg, if_pos (hmem.2 hg)]
  · rw [if_neg hg, if_neg (fun h => hg (hmem.1 h))]
    simp only [CState.ren, PosMap.ren_push, List.map_append, List.map_cons, List.map_nil, List.length_map]
    rfl

theorem StrRen.ren_checkConstant (h : StrRen U φ) (st : CState) (v : List Char) :
    checkConstant (st.ren φ) (φ v) = (checkConstant st v).ren φ := by
  unfold checkConstant cConstantGate
  rw [h.number]
  split
  · rw [ren_cInsertGate]; simp [CGate.ren, h.plus, h.zero]
  · rfl

theorem StrRen.ren_cAdditionalGate (h : StrRen U φ) (st : CState) (v w : List Char) :
    cAdditionalGate (st.ren φ) (φ v) (φ w) =
      (φ (cAdditionalGate st v w).1, (cAdditionalGate st v w).2.ren φ) := by
  unfold cAdditionalGate
  rw [ren_cInsertGate]
  simp [CGate.ren, h.plus]

theorem StrRen.ren_cMultiplicationGate (h : StrRen U φ) (st : CState) (v w : List Char) :
    cMultiplicationGate (st.ren φ) (φ v) (φ w) =
      (φ (cMultiplicationGate st v w).1, (cMultiplicationGate st v w).2.ren φ) := by
  unfold cMultiplicationGate
  rw [ren_cInsertGate]
  simp [CGate.ren, h.star]

theorem StrRen.ren_cTokens (h : StrRen U φ) (l : List (List Char)) (st : CState) :
    cTokens U (l.map φ) (st.ren φ) = ((cTokens U l st).1.map φ, (cTokens U l st).2.ren φ) := by
  induction l generalizing st with
  | nil => rfl
  | cons s l ih =>
    rw [List.map_cons]
    unfold cTokens
    simp only [h.trimming, h.ren_checkConstant, ih, List.map_cons]

theorem StrRen.ren_cMulReduce (h : StrRen U φ) (w : List Char) (ws : List (List Char)) (st : CState) :
    cMulReduce (φ w) (ws.map φ) (st.ren φ) = (φ (cMulReduce w ws st).1, (cMulReduce w ws st).2.ren φ) := by
  induction ws generalizing w st with
  | nil => rfl
  | cons v ws ih =>
    rw [List.map_cons]
    unfold cMulReduce
    simp only [h.ren_cMultiplicationGate]
    exact ih _ _

theorem StrRen.ren_cTerm (h : StrRen U φ) (t : List Char) (st : CState) :
    cTerm U (φ t) (st.ren φ) = (cTerm U t st).map fun r => (φ r.1, r.2.ren φ) := by
  unfold cTerm
  simp only [h.split '*' (by decide), h.ren_cTokens]
  cases (cTokens U (t.splitOn '*') st).1 with
  | nil => rfl
  | cons w ws => simp only [List.map_cons, h.ren_cMulReduce, Option.map_some]

theorem StrRen.ren_cAddReduce (h : StrRen U φ) (l : List (List Char)) (w : List Char) (st : CState) :
    cAddReduce U (l.map φ) (φ w) (st.ren φ) =
      (cAddReduce U l w st).map fun r => (φ r.1, r.2.ren φ) := by
  induction l generalizing w st with
  | nil => rfl
  | cons t l ih =>
    rw [List.map_cons]
    unfold cAddReduce
    simp only [Option.bind_eq_bind, h.ren_cTerm]
    cases cTerm U t st with
    | none => rfl
    | some r =>
      simp only [Option.map_some, Option.bind_some, h.ren_cAdditionalGate]
      exact ih _ _

theorem StrRen.ren_prepareGeneration (h : StrRen U φ) (s : List Char) :
    prepareGeneration U (φ s) =
      (prepareGeneration U s).map fun r => (r.1.map (CGate.ren φ), PosMap.ren φ r.2) := by
  unfold prepareGeneration
  simp only [Option.bind_eq_bind, h.ren_splitTerms]
  cases splitTerms s with
  | none => rfl
  | some l =>
    cases l with
    | nil => rfl
    | cons t ts =>
      have e : (⟨[], [], fun _ => []⟩ : CState) = CState.ren φ ⟨[], [], fun _ => []⟩ := rfl
      simp only [Option.map_some, Option.bind_some, List.map_cons]
      conv_lhs => rw [e]
      rw [h.ren_cTerm]
      cases cTerm U t ⟨[], [], fun _ => []⟩ with
      | none => rfl
      | some r =>
        simp only [Option.map_some, Option.bind_some, h.ren_cAddReduce]
        cases cAddReduce U ts r.1 r.2 with
        | none => rfl
        | some q => rfl

theorem StrRen.ren_cGenStep (h : StrRen U φ) (c : CPICircuit F) (pm : PosMap) (g : CGate) :
    cGenStep c (PosMap.ren φ pm) (g.ren φ) = (cGenStep c pm g).map fun r => (r.1, PosMap.ren φ r.2) := by
  unfold cGenStep
  simp only [Option.bind_eq_bind]
  rw [show (g.ren φ).left = φ g.left from rfl, show (g.ren φ).right = φ g.right from rfl,
    show (g.ren φ).bottom = φ g.bottom from rfl, PosMap.ren_pop]
  cases pm.pop g.left with
  | none => rfl
  | some l =>
    simp only [Option.map_some, Option.bind_some]
    rw [PosMap.ren_pop]
    cases l.2.pop g.right with
    | none => rfl
    | some r =>
      simp only [Option.map_some, Option.bind_some]
      rw [PosMap.ren_pop]
      cases r.2.pop g.bottom with
      | none => rfl
      | some b =>
        simp only [Option.map_some, Option.bind_some, h.number]
        obtain ⟨gl, gr, gb, ty⟩ := g
        cases ty with
        | addition => rfl
        | multiplication => rfl
        | constant =>
          simp only [CGate.ren]
          cases parseI32 gl <;> rfl

theorem StrRen.ren_cGenLoop (h : StrRen U φ) (gs : List CGate) (c : CPICircuit F) (pm : PosMap) :
    cGenLoop (gs.map (CGate.ren φ)) c (PosMap.ren φ pm) = cGenLoop gs c pm := by
  induction gs generalizing c pm with
  | nil => rfl
  | cons g gs ih =>
    rw [List.map_cons]
    unfold cGenLoop
    rw [h.ren_cGenStep]
    cases cGenStep c pm g with
    | none => rfl
    | some r => exact ih _ _

end strRen

section cpi
variable {U : Unicode} {φ : Equiv.Perm (List Char)} {F : Type} [FftField F] [DecidableEq F] {G1 G2 : Type}
  [AddCommGroup G1] [Module F G1]

theorem StrRen.ren_cpi (h : StrRen U φ) {text text' : List Char}
    (ht : parseString U text' = (parseString U text).map φ) (srs : Srs G1 G2) :
    computeCommonPreprocessedInput (F := F) U text' srs = computeCommonPreprocessedInput U text srs := by
  unfold computeCommonPreprocessedInput cpiCompiled
  simp only [Option.bind_eq_bind, ht]
  cases parseString U text with
  | none => rfl
  | some s =>
    simp only [Option.map_some, Option.bind_some, h.ren_prepareGeneration]
    cases prepareGeneration U s with
    | none => rfl
    | some r =>
      simp only [Option.map_some, Option.bind_some]
      have e : cGenCircuit (F := F) (r.1.map (CGate.ren φ)) (PosMap.ren φ r.2) = cGenCircuit r.1 r.2 :=
        h.ren_cGenLoop r.1 CPICircuit.default (fun key => reverseRotate (r.2 key))
      rw [e]

end cpi

/-! ### Renaming characters -/

/-- The renaming of strings belonging to a renaming of characters. -/
def charPerm (π : Equiv.Perm Char) : Equiv.Perm (List Char) where
  toFun l := l.map π
  invFun l := l.map π.symm
  left_inv l := by simp
  right_inv l := by simp

theorem IsRenaming.strRen {U : Unicode} {π : Equiv.Perm Char} (h : IsRenaming U π) : StrRen U (charPerm π) where
  plus l r := by simp [charPerm, h.keeps '+' (by decide)]
  star l r := by simp [charPerm, h.keeps '*' (by decide)]
  minus l := by simp [charPerm, h.keeps '-' (by decide)]
  first c l hc := ⟨π c, l.map π, rfl, fun e => hc ((h.eq_iff (by decide) c).1 e), h.ascii c⟩
  split a ha l := h.ren_splitOn (by rcases ha with rfl | rfl | rfl <;> decide) l
  number l := h.ren_parseI32 l
  digits l hl := h.map_digits hl
  trimming l := h.ren_trim l

/-- **C101** (characters): for every text, witnesses and renaming of characters, parsing the renamed text with the
renamed witnesses gives the same circuit (wires, selectors, values, connections), or panics in both cases. -/
theorem C101_characters {U : Unicode} {π : Equiv.Perm Char} (h : IsRenaming U π) {F : Type} [Field F] [DecidableEq F]
    (wit : List Char → Option F) (text : List Char) :
    parse U (fun n => wit (n.map π.symm)) (text.map π) = parse U wit text :=
  h.strRen.ren_parse wit (h.ren_parseString text)

/-- **C101** (characters): the verifier's own parser, too, prepares the same input for the renamed text, or panics on
both. -/
theorem C101_characters_preprocessed {U : Unicode} {π : Equiv.Perm Char} (h : IsRenaming U π) {F : Type} [FftField F]
    [DecidableEq F] {G1 G2 : Type} [AddCommGroup G1] [Module F G1] (text : List Char) (srs : Srs G1 G2) :
    computeCommonPreprocessedInput (F := F) U (text.map π) srs = computeCommonPreprocessedInput U text srs :=
  h.strRen.ren_cpi (h.ren_parseString text) srs

/-! ### Renaming whole names -/

/-- The characters that end a name: operators and white space. -/
def endsName (U : Unicode) (c : Char) : Bool := c ∈ ['+', '-', '*', '='] || U.isWhitespace c

/-- A string that contains no such character. -/
def IsName (U : Unicode) (t : List Char) : Prop := ∀ c ∈ t, endsName U c = false

/-- Replaces every name of a string, operators and white space stay; `run` holds the characters of the current name. -/
def replaceRun (U : Unicode) (ν : List Char → List Char) : List Char → List Char → List Char
  | run, [] => ν run
  | run, c :: l => if endsName U c then ν run ++ c :: replaceRun U ν [] l else replaceRun U ν (run ++ [c]) l

/-- Replaces every name of a string. -/
def replaceNames (U : Unicode) (ν : List Char → List Char) (s : List Char) : List Char := replaceRun U ν [] s

/-- A permutation of strings renames names if it maps names to names, keeps numbers, and a name begins with an ASCII
character exactly if the new name does. -/
structure RenamesNames (U : Unicode) (ν : Equiv.Perm (List Char)) : Prop where
  /-- names become names -/
  name : ∀ t, IsName U (ν t) ↔ IsName U t
  /-- numbers (and the empty string) are kept -/
  number : ∀ t : List Char, t.all isAsciiDigit = true → ν t = t
  /-- first characters stay ASCII -/
  ascii : ∀ c t c' t', ν (c :: t) = c' :: t' → (128 ≤ c'.toNat ↔ 128 ≤ c.toNat)

section names
variable {U : Unicode}

theorem replaceRun_name (ν : List Char → List Char) (t : List Char) (ht : IsName U t) (run l : List Char) :
    replaceRun U ν run (t ++ l) = replaceRun U ν (run ++ t) l := by
  induction t generalizing run with
  | nil => simp
  | cons c t ih =>
    rw [List.cons_append, replaceRun, if_neg (by simp [ht c (by simp)]), ih (fun x hx => ht x (by simp [hx]))]
    simp

theorem replaceNames_name (ν : List Char → List Char) {t : List Char} (ht : IsName U t) : replaceNames U ν t = ν t := by
  have := replaceRun_name ν t ht [] []
  rw [List.append_nil] at this
  rw [replaceNames, this, List.nil_append, replaceRun]

theorem replaceNames_cons (ν : List Char → List Char) {t : List Char} (ht : IsName U t) {c : Char}
    (hc : endsName U c = true) (l : List Char) :
    replaceNames U ν (t ++ c :: l) = ν t ++ c :: replaceNames U ν l := by
  rw [replaceNames, replaceRun_name ν t ht [] (c :: l), List.nil_append, replaceRun, if_pos hc, replaceNames]

theorem name_or (s : List Char) : IsName U s ∨ ∃ t c l, IsName U t ∧ endsName U c = true ∧ s = t ++ c :: l := by
  induction s with
  | nil => exact .inl (by simp [IsName])
  | cons d s ih =>
    by_cases hd : endsName U d = true
    · exact .inr ⟨[], d, s, by simp [IsName], hd, rfl⟩
    · have hd' : endsName U d = false := by simpa using hd
      rcases ih with h | ⟨t, c, l, ht, hc, rfl⟩
      · left; intro x hx
        rcases List.mem_cons.1 hx with rfl | hx
        · exact hd'
        · exact h x hx
      · right
        refine ⟨d :: t, c, l, ?_, hc, rfl⟩
        intro x hx
        rcases List.mem_cons.1 hx with rfl | hx
        · exact hd'
        · exact ht x hx

theorem name_induction {P : List Char → Prop} (h1 : ∀ t, IsName U t → P t)
    (h2 : ∀ t c l, IsName U t → endsName U c = true → P l → P (t ++ c :: l)) (s : List Char) : P s := by
  generalize hn : s.length = n
  induction n using Nat.strong_induction_on generalizing s with
  | _ n ih =>
    rcases name_or (U := U) s with h | ⟨t, c, l, ht, hc, rfl⟩
    · exact h1 s h
    · exact h2 t c l ht hc (ih l.length (by rw [← hn]; simp; omega) l rfl)

theorem replaceNames_append (ν : List Char → List Char) {c : Char} (hc : endsName U c = true) (l r : List Char) :
    replaceNames U ν (l ++ c :: r) = replaceNames U ν l ++ c :: replaceNames U ν r := by
  induction l using name_induction (U := U) with
  | h1 t ht => rw [replaceNames_cons ν ht hc, replaceNames_name ν ht]
  | h2 t d l ht hd ih =>
    rw [List.append_assoc, List.cons_append, replaceNames_cons ν ht hd, ih, replaceNames_cons ν ht hd]
    simp

theorem replaceNames_inverse {ν ν' : List Char → List Char} (hn : ∀ t, IsName U t → IsName U (ν t))
    (hi : ∀ t, ν' (ν t) = t) (s : List Char) : replaceNames U ν' (replaceNames U ν s) = s := by
  induction s using name_induction (U := U) with
  | h1 t ht => rw [replaceNames_name ν ht, replaceNames_name ν' (hn t ht), hi]
  | h2 t c l ht hc ih =>
    rw [replaceNames_cons ν ht hc, replaceNames_cons ν' (hn t ht) hc, ih, hi]

variable {ν : Equiv.Perm (List Char)}

/-- Replacing names is a permutation of all strings. -/
def RenamesNames.perm (h : RenamesNames U ν) : Equiv.Perm (List Char) where
  toFun := replaceNames U ν
  invFun := replaceNames U ν.symm
  left_inv := replaceNames_inverse (fun t ht => (h.name t).2 ht) (by simp)
  right_inv := replaceNames_inverse (fun t ht => by rw [← h.name]; simpa using ht) (by simp)

theorem RenamesNames.perm_apply (h : RenamesNames U ν) (s : List Char) : h.perm s = replaceNames U ν s := rfl

theorem RenamesNames.empty (h : RenamesNames U ν) : ν [] = [] := h.number [] rfl

theorem RenamesNames.ne_nil (h : RenamesNames U ν) {t : List Char} (ht : t ≠ []) : ν t ≠ [] := fun e =>
  ht (ν.injective (by rw [e, h.empty]))

theorem RenamesNames.replace_digits (h : RenamesNames U ν) (s : List Char) (hs : s.all isAsciiDigit = true) :
    replaceNames U ν s = s := by
  induction s using name_induction (U := U) with
  | h1 t ht => rw [replaceNames_name _ ht, h.number t hs]
  | h2 t c l ht hc ih =>
    simp only [List.all_append, List.all_cons, Bool.and_eq_true] at hs
    rw [replaceNames_cons _ ht hc, h.number t hs.1, ih hs.2.2]

/-- The first character of a renamed string. -/
theorem RenamesNames.replace_first (h : RenamesNames U ν) (c : Char) (l : List Char) :
    (endsName U c = true → replaceNames U ν (c :: l) = c :: replaceNames U ν l) ∧
    (endsName U c = false → ∃ c' l', replaceNames U ν (c :: l) = c' :: l' ∧ endsName U c' = false ∧
      (128 ≤ c'.toNat ↔ 128 ≤ c.toNat)) := by
  constructor
  · intro hc
    have := replaceNames_cons (U := U) ν (t := []) (by simp [IsName]) hc l
    rw [List.nil_append, h.empty, List.nil_append] at this
    exact this
  · intro hc
    have key : ∀ t, IsName U (c :: t) → ∃ c' t', ν (c :: t) = c' :: t' ∧ endsName U c' = false ∧
        (128 ≤ c'.toNat ↔ 128 ≤ c.toNat) := by
      intro t ht
      cases e : ν (c :: t) with
      | nil => exact absurd e (h.ne_nil (by simp))
      | cons c' t' => exact ⟨c', t', rfl, (h.name _).2 ht c' (by rw [e]; simp), h.ascii c t c' t' e⟩
    rcases name_or (U := U) (c :: l) with ht | ⟨t, d, r, ht, hd, e⟩
    · obtain ⟨c', t', e, h1, h2⟩ := key l ht
      exact ⟨c', t', by rw [replaceNames_name _ ht, e], h1, h2⟩
    · cases t with
      | nil =>
        rw [List.nil_append, List.cons.injEq] at e
        rw [e.1, hd] at hc; exact absurd hc (by decide)
      | cons c2 t =>
        rw [List.cons_append, List.cons.injEq] at e
        obtain ⟨rfl, rfl⟩ := e
        obtain ⟨c', t', e, h1, h2⟩ := key t ht
        refine ⟨c', t' ++ d :: replaceNames U ν r, ?_, h1, h2⟩
        rw [← List.cons_append, replaceNames_cons _ ht hd, e, List.cons_append]

theorem RenamesNames.replace_dropWhile (h : RenamesNames U ν) (s : List Char) :
    (replaceNames U ν s).dropWhile U.isWhitespace = replaceNames U ν (s.dropWhile U.isWhitespace) := by
  induction s with
  | nil =>
    rw [List.dropWhile_nil, replaceNames_name _ (by simp [IsName]), h.empty]; rfl
  | cons c l ih =>
    obtain ⟨h1, h2⟩ := h.replace_first c l
    by_cases hc : U.isWhitespace c = true
    · rw [h1 (by simp [endsName, hc]), List.dropWhile_cons_of_pos hc, List.dropWhile_cons_of_pos hc, ih]
    · rw [List.dropWhile_cons_of_neg hc]
      by_cases hs : endsName U c = true
      · rw [h1 hs, List.dropWhile_cons_of_neg hc]
      · obtain ⟨c', l', e, h3, -⟩ := h2 (by simpa using hs)
        rw [e, List.dropWhile_cons_of_neg]
        intro hw
        rw [endsName, hw, Bool.or_true] at h3
        exact absurd h3 (by decide)

/-- The last character of a renamed string. -/
theorem RenamesNames.replace_last (h : RenamesNames U ν) (c : Char) (l : List Char) :
    (endsName U c = true → replaceNames U ν (l ++ [c]) = replaceNames U ν l ++ [c]) ∧
    (endsName U c = false → ∃ l' c', replaceNames U ν (l ++ [c]) = l' ++ [c'] ∧ endsName U c' = false) := by
  constructor
  · intro hc
    rw [replaceNames_append _ hc, replaceNames_name _ (t := []) (by simp [IsName]), h.empty]
  · intro hc
    induction l using name_induction (U := U) with
    | h1 t ht =>
      have hn : IsName U (t ++ [c]) := by
        intro x hx
        rcases List.mem_append.1 hx with hx | hx
        · exact ht x hx
        · rw [List.mem_singleton.1 hx]; exact hc
      rw [replaceNames_name _ hn]
      have hne : ν (t ++ [c]) ≠ [] := h.ne_nil (by simp)
      refine ⟨(ν (t ++ [c])).dropLast, (ν (t ++ [c])).getLast hne, (List.dropLast_append_getLast hne).symm, ?_⟩
      exact (h.name _).2 hn _ (List.getLast_mem hne)
    | h2 t d l ht hd ih =>
      obtain ⟨l', c', e, h1⟩ := ih
      refine ⟨ν t ++ d :: l', c', ?_, h1⟩
      rw [List.append_assoc, List.cons_append, replaceNames_cons _ ht hd, e]
      simp

theorem RenamesNames.replace_dropEnd (h : RenamesNames U ν) (s : List Char) :
    ((replaceNames U ν s).reverse.dropWhile U.isWhitespace).reverse =
      replaceNames U ν ((s.reverse.dropWhile U.isWhitespace).reverse) := by
  induction s using List.reverseRecOn with
  | nil =>
    have e : replaceNames U ν [] = [] := by rw [replaceNames_name _ (by simp [IsName]), h.empty]
    simp [e]
  | append_singleton l c ih =>
    obtain ⟨h1, h2⟩ := h.replace_last c l
    by_cases hc : U.isWhitespace c = true
    · rw [h1 (by simp [endsName, hc]), List.reverse_append, List.reverse_append, List.reverse_singleton,
        List.singleton_append, List.singleton_append, List.dropWhile_cons_of_pos hc, List.dropWhile_cons_of_pos hc, ih]
    · rw [List.reverse_append, List.reverse_singleton, List.singleton_append, List.dropWhile_cons_of_neg hc,
        List.reverse_cons, List.reverse_reverse]
      by_cases hs : endsName U c = true
      · rw [h1 hs, List.reverse_append, List.reverse_singleton, List.singleton_append, List.dropWhile_cons_of_neg hc]
        simp
      · obtain ⟨l', c', e, h3⟩ := h2 (by simpa using hs)
        rw [e, List.reverse_append, List.reverse_singleton, List.singleton_append, List.dropWhile_cons_of_neg]
        · simp
        intro hw
        rw [endsName, hw, Bool.or_true] at h3
        exact absurd h3 (by decide)

theorem RenamesNames.replace_splitOn (h : RenamesNames U ν) {a : Char} (ha : endsName U a = true) (s : List Char) :
    (replaceNames U ν s).splitOn a = (s.splitOn a).map (replaceNames U ν) := by
  have free : ∀ t, IsName U t → a ∉ t := fun t ht hm => by
    have := ht a hm; rw [ha] at this; exact absurd this (by decide)
  induction s using name_induction (U := U) with
  | h1 t ht =>
    rw [replaceNames_name _ ht, List.splitOn_eq_singleton (free t ht),
      List.splitOn_eq_singleton (free _ ((h.name t).2 ht)), List.map_singleton, replaceNames_name _ ht]
  | h2 t c l ht hc ih =>
    rw [replaceNames_cons _ ht hc]
    by_cases hca : c = a
    · subst hca
      rw [List.splitOn_append_cons_self, List.splitOn_append_cons_self, ih,
        List.splitOn_eq_singleton (free t ht), List.splitOn_eq_singleton (free _ ((h.name t).2 ht))]
      simp [replaceNames_name _ ht]
    · have gen : ∀ (t : List Char), a ∉ t → ∀ m : List Char, (t ++ c :: m).splitOn a =
          (m.splitOn a).modifyHead fun p => t ++ c :: p := by
        intro t
        induction t with
        | nil =>
          intro _ m
          rw [List.nil_append, List.splitOn_cons_eq_if_modifyHead, if_neg (by simpa using hca)]
          rfl
        | cons d t iht =>
          intro hm m
          rw [List.cons_append, List.splitOn_cons_eq_if_modifyHead,
            if_neg (by simp only [beq_iff_eq]; rintro rfl; exact hm (by simp)), iht (fun hx => hm (by simp [hx]))]
          cases m.splitOn a <;> rfl
      rw [gen _ (free _ ((h.name t).2 ht)), gen _ (free t ht), ih]
      cases l.splitOn a with
      | nil => rfl
      | cons p ps => simp [replaceNames_cons _ ht hc]

theorem RenamesNames.strRen (h : RenamesNames U ν) : StrRen U h.perm where
  plus l r := replaceNames_append _ (by simp [endsName]) l r
  star l r := replaceNames_append _ (by simp [endsName]) l r
  minus l := (h.replace_first '-' l).1 (by simp [endsName])
  first c l hc := by
    by_cases hs : endsName U c = true
    · exact ⟨c, replaceNames U ν l, (h.replace_first c l).1 hs, hc, Iff.rfl⟩
    · obtain ⟨c', l', e, h1, h2⟩ := (h.replace_first c l).2 (by simpa using hs)
      refine ⟨c', l', e, ?_, h2⟩
      rintro rfl
      simp [endsName] at h1
  split a ha l := h.replace_splitOn (by rcases ha with rfl | rfl | rfl <;> simp [endsName]) l
  number l := by
    have hd : ∀ (b : Bool) (l : List Char), parseDigits b (h.perm l) = parseDigits b l := by
      intro b l
      by_cases hl : l.all isAsciiDigit = true
      · rw [h.perm_apply, h.replace_digits l hl]
      · have hl' : ¬ (h.perm l).all isAsciiDigit = true := by
          intro hx
          have e := h.replace_digits _ hx
          have e2 : h.perm l = l := h.perm.injective e
          rw [e2] at hx; exact hl hx
        unfold parseDigits
        rw [if_neg (fun hx => hl' hx.2), if_neg (fun hx => hl hx.2)]
    cases l with
    | nil => rw [h.perm_apply, h.replace_digits [] rfl]
    | cons c l =>
      obtain ⟨h1, h2⟩ := h.replace_first c l
      by_cases hs : endsName U c = true
      · have e : h.perm (c :: l) = c :: h.perm l := h1 hs
        have hd2 := hd false (c :: l)
        rw [e] at hd2 ⊢
        rw [parseI32_eq, parseI32_eq]
        simp only [List.head?_cons, List.tail_cons, hd, hd2]
        rfl
      · obtain ⟨c', l', e, h3, -⟩ := h2 (by simpa using hs)
        have e : h.perm (c :: l) = c' :: l' := e
        have hd2 := hd false (c :: l)
        rw [e] at hd2 ⊢
        have n1 : ∀ x, x = '-' ∨ x = '+' → c ≠ x ∧ c' ≠ x := by
          rintro x (rfl | rfl) <;> constructor <;> rintro rfl <;> simp [endsName] at hs h3
        rw [parseI32_eq, parseI32_eq]
        simp [(n1 '-' (by simp)).1, (n1 '-' (by simp)).2, (n1 '+' (by simp)).1, (n1 '+' (by simp)).2, hd2]
  digits l hl := h.replace_digits l hl
  trimming l := by
    unfold trim
    rw [h.perm_apply, h.replace_dropWhile, h.replace_dropEnd]
    rfl

/-- **C101** (names): take a text, and a text whose normal form is that of the first with other names.  Parsing gives
the same circuit if the witnesses are renamed in the same way (whatever the text: the names may have other lengths,
there may be names inside longer names, equations or not). -/
theorem C101_names (h : RenamesNames U ν) {F : Type} [Field F] [DecidableEq F] (wit wit' : List Char → Option F)
    (hw : ∀ n, wit' (replaceNames U ν n) = wit n) (text text' : List Char)
    (ht : parseString U text' = (parseString U text).map (replaceNames U ν)) : parse U wit' text' = parse U wit text := by
  rw [← h.strRen.ren_parse wit ht]
  congr 1
  funext n
  obtain ⟨m, rfl⟩ := h.perm.surjective n
  rw [renWit_map]
  exact hw m

/-- **C101** (names): so does the verifier's own parser. -/
theorem C101_names_preprocessed (h : RenamesNames U ν) {F : Type} [FftField F] [DecidableEq F] {G1 G2 : Type}
    [AddCommGroup G1] [Module F G1] (text text' : List Char)
    (ht : parseString U text' = (parseString U text).map (replaceNames U ν)) (srs : Srs G1 G2) :
    computeCommonPreprocessedInput (F := F) U text' srs = computeCommonPreprocessedInput U text srs :=
  h.strRen.ren_cpi ht srs

/-- **C101** (names): the case of texts that are their own normal form: lower case, no spaces, no powers. -/
theorem C101_plain_texts (h : RenamesNames U ν) {F : Type} [Field F] [DecidableEq F] (wit wit' : List Char → Option F)
    (hw : ∀ n, wit' (replaceNames U ν n) = wit n) (text : List Char) (hl : U.lower text = text)
    (hp : ∀ c ∈ text, c ≠ '^' ∧ c ≠ ' ') (hl' : U.lower (replaceNames U ν text) = replaceNames U ν text)
    (hp' : ∀ c ∈ replaceNames U ν text, c ≠ '^' ∧ c ≠ ' ') :
    parse U wit' (replaceNames U ν text) = parse U wit text :=
  C101_names h wit wit' hw text _ (by rw [C58_identity U text hl hp, C58_identity U _ hl' hp']; rfl)

end names

/-! ### Non-vacuity -/

/-- `x` and `a` change places, and so do `X` and `A`. -/
def swapXA : Equiv.Perm Char := Equiv.swap 'x' 'a' * Equiv.swap 'X' 'A'

theorem swapXA_of_ne {c : Char} (h1 : c ≠ 'x') (h2 : c ≠ 'a') (h3 : c ≠ 'X') (h4 : c ≠ 'A') : swapXA c = c := by
  simp [swapXA, Equiv.swap_apply_of_ne_of_ne, h1, h2, h3, h4]

theorem toLower_eq {c d : Char} (h : c.toLower = d) : c = d ∨ (c.toNat + 32 = d.toNat ∧ 65 ≤ c.toNat ∧ c.toNat ≤ 90) := by
  unfold Char.toLower at h
  split at h
  · right
    rename_i hc
    have h1 : 65 ≤ c.val.toNat := UInt32.le_iff_toNat_le.1 hc.1
    have h2 : c.val.toNat ≤ 90 := UInt32.le_iff_toNat_le.1 hc.2
    subst h
    refine ⟨?_, h1, h2⟩
    show c.val.toNat + 32 = (c.val + _).toNat
    rw [UInt32.toNat_add]
    show c.val.toNat + 32 = (c.val.toNat + 32) % _
    omega
  · exact .inl h

theorem swapXA_renaming : IsRenaming asciiTables swapXA where
  keeps c hc := by
    apply swapXA_of_ne <;> (rintro rfl; exact absurd hc (by decide))
  lower s := by
    show (s.map swapXA).map Char.toLower = (s.map Char.toLower).map swapXA
    rw [List.map_map, List.map_map]
    apply List.map_congr_left
    intro c _
    show (swapXA c).toLower = swapXA c.toLower
    by_cases h1 : c = 'x'
    · subst h1; decide
    by_cases h2 : c = 'a'
    · subst h2; decide
    by_cases h3 : c = 'X'
    · subst h3; decide
    by_cases h4 : c = 'A'
    · subst h4; decide
    rw [swapXA_of_ne h1 h2 h3 h4, swapXA_of_ne]
    · intro e
      rcases toLower_eq e with rfl | ⟨e, -, -⟩
      · exact h1 rfl
      · exact h3 (Char.toNat_inj.1 (by have : 'x'.toNat = 120 := rfl; have : 'X'.toNat = 88 := rfl; omega))
    · intro e
      rcases toLower_eq e with rfl | ⟨e, -, -⟩
      · exact h2 rfl
      · exact h4 (Char.toNat_inj.1 (by have : 'a'.toNat = 97 := rfl; have : 'A'.toNat = 65 := rfl; omega))
    · intro e
      rcases toLower_eq e with rfl | ⟨e, e', -⟩
      · exact h3 rfl
      · have : 'X'.toNat = 88 := rfl
        omega
    · intro e
      rcases toLower_eq e with rfl | ⟨e, e', -⟩
      · exact h4 rfl
      · have : 'A'.toNat = 65 := rfl
        omega
  numeric c := by
    show isAsciiDigit (swapXA c) = isAsciiDigit c
    by_cases h1 : c = 'x'
    · subst h1; decide
    by_cases h2 : c = 'a'
    · subst h2; decide
    by_cases h3 : c = 'X'
    · subst h3; decide
    by_cases h4 : c = 'A'
    · subst h4; decide
    rw [swapXA_of_ne h1 h2 h3 h4]
  white c := by
    by_cases h1 : c = 'x'
    · subst h1; decide
    by_cases h2 : c = 'a'
    · subst h2; decide
    by_cases h3 : c = 'X'
    · subst h3; decide
    by_cases h4 : c = 'A'
    · subst h4; decide
    rw [swapXA_of_ne h1 h2 h3 h4]
  ascii c := by
    by_cases h1 : c = 'x'
    · subst h1; decide
    by_cases h2 : c = 'a'
    · subst h2; decide
    by_cases h3 : c = 'X'
    · subst h3; decide
    by_cases h4 : c = 'A'
    · subst h4; decide
    rw [swapXA_of_ne h1 h2 h3 h4]

/-- The repository's own test equation with `a` for `x` is the same circuit, and it is accepted. -/
example : parse asciiTables (fun n => exWit (n.map swapXA.symm)) "A*y+3*a^2+a*y*z=11".toList =
      parse asciiTables exWit "X*y+3*x^2+x*y*z=11".toList ∧
    exWit (['a'].map swapXA.symm) = some 1 ∧ (parse asciiTables exWit "X*y+3*x^2+x*y*z=11".toList).isSome := by
  refine ⟨?_, by decide +kernel, by decide +kernel⟩
  rw [← C101_characters swapXA_renaming exWit "X*y+3*x^2+x*y*z=11".toList]
  have e : "X*y+3*x^2+x*y*z=11".toList.map swapXA = "A*y+3*a^2+a*y*z=11".toList := by decide +kernel
  rw [e]

/-- `x` becomes `price` (and `price` becomes `x`). -/
def swapPrice : Equiv.Perm (List Char) := Equiv.swap ['x'] "price".toList

theorem swapPrice_of_ne {t : List Char} (h1 : t ≠ ['x']) (h2 : t ≠ "price".toList) : swapPrice t = t :=
  Equiv.swap_apply_of_ne_of_ne h1 h2

theorem swapPrice_x : swapPrice ['x'] = "price".toList := Equiv.swap_apply_left _ _

theorem swapPrice_price : swapPrice "price".toList = ['x'] := Equiv.swap_apply_right _ _

theorem swapPrice_renames : RenamesNames asciiTables swapPrice where
  name t := by
    have e1 : IsName asciiTables ['x'] := by unfold IsName; decide +kernel
    have e2 : IsName asciiTables "price".toList := by unfold IsName; decide +kernel
    by_cases h1 : t = ['x']
    · subst h1; rw [swapPrice_x]; exact ⟨fun _ => e1, fun _ => e2⟩
    by_cases h2 : t = "price".toList
    · subst h2; rw [swapPrice_price]; exact ⟨fun _ => e2, fun _ => e1⟩
    rw [swapPrice_of_ne h1 h2]
  number t ht := by
    apply swapPrice_of_ne <;> (rintro rfl; exact absurd ht (by decide +kernel))
  ascii c t c' t' e := by
    by_cases h1 : c :: t = ['x']
    · rw [h1, swapPrice_x] at e
      obtain ⟨rfl, -⟩ := List.cons.inj h1
      obtain ⟨rfl, -⟩ := List.cons.inj (show 'p' :: "rice".toList = c' :: t' from e)
      decide
    by_cases h2 : c :: t = "price".toList
    · rw [h2, swapPrice_price] at e
      obtain ⟨rfl, -⟩ := List.cons.inj (show c :: t = 'p' :: "rice".toList from h2)
      obtain ⟨rfl, -⟩ := List.cons.inj e
      decide
    rw [swapPrice_of_ne h1 h2] at e
    rw [(List.cons.inj e).1]

/-- The witnesses of the repository's own test with `price` instead of `x`. -/
def priceWit : List Char → Option BlsFr :=
  addWitness (addWitness (addWitness noWitness "price".toList 1) ['y'] 2) ['z'] 3

/-- The repository's own test equation with `price` for `x` (and the power written out) is the same circuit, and it is
accepted. -/
example : parse asciiTables priceWit "price * y + 3 * Price * price + price * y * z = 11".toList =
      parse asciiTables exWit "x*y+3*x^2+x*y*z=11".toList ∧
    (parse asciiTables exWit "x*y+3*x^2+x*y*z=11".toList).isSome := by
  refine ⟨?_, by decide +kernel⟩
  apply C101_names swapPrice_renames
  · have hx : replaceNames asciiTables swapPrice ['x'] = "price".toList := by decide +kernel
    have hy : replaceNames asciiTables swapPrice ['y'] = ['y'] := by decide +kernel
    have hz : replaceNames asciiTables swapPrice ['z'] = ['z'] := by decide +kernel
    have inj : Function.Injective (replaceNames asciiTables swapPrice) := swapPrice_renames.perm.injective
    intro n
    by_cases h1 : n = ['x']
    · subst h1; rw [hx]; decide +kernel
    by_cases h2 : n = ['y']
    · subst h2; rw [hy]; decide +kernel
    by_cases h3 : n = ['z']
    · subst h3; rw [hz]; decide +kernel
    have k1 : replaceNames asciiTables swapPrice n ≠ "price".toList := fun e => h1 (inj (e.trans hx.symm))
    have k2 : replaceNames asciiTables swapPrice n ≠ ['y'] := fun e => h2 (inj (e.trans hy.symm))
    have k3 : replaceNames asciiTables swapPrice n ≠ ['z'] := fun e => h3 (inj (e.trans hz.symm))
    unfold priceWit exWit addWitness
    rw [Function.update_of_ne k3, Function.update_of_ne k2, Function.update_of_ne k1, Function.update_of_ne h3,
      Function.update_of_ne h2, Function.update_of_ne h1]
    rfl
  · decide +kernel

/-- Why the theorem on names speaks of normal forms: in a text with powers, the new name must have one character. -/
example : parseString asciiTables "x^2".toList = some "x*x".toList ∧
    parseString asciiTables "price^2".toList = some "price*e".toList := by
  decide +kernel

end Verif.Plonk

import Mathlib.Algebra.Polynomial.Div
import Mathlib.Algebra.Polynomial.Roots
import Mathlib.Algebra.Field.Basic
import Mathlib.Tactic.Ring
import Mathlib.Tactic.FieldSimp
import Mathlib.Tactic.LinearCombination

/-!
# arkworks dense univariate polynomials

Model of `ark_poly::univariate::DensePolynomial` (ark-poly 0.4, an external dependency of every
crate in `/repo`, see `kzg/Cargo.toml`): a vector of coefficients, constant coefficient first.  The
library source is not in `/repo`; the operations below follow its documented behaviour:
`from_coefficients_vec/slice` drop zero leading coefficients, arithmetic results are truncated the
same way, `degree()` of the zero polynomial is `0` and asserts that the last coefficient is non-zero
otherwise.  FFT multiplication is modelled by the convolution it computes, the division loop by
schoolbook division (quotient and remainder are unique).
-/

set_option linter.unusedSectionVars false

namespace Verif.Ark

open Polynomial

variable {F : Type*} [Field F] [DecidableEq F]

/-- `DensePolynomial<F>`: the coefficient vector (`coeffs`), constant term first. -/
abbrev DP (F : Type*) := List F

/-- Mathlib polynomial with the given coefficients: the *meaning* of a coefficient vector. -/
noncomputable def toPoly {F : Type*} [Field F] : DP F → F[X]
  | [] => 0
  | a :: l => C a + X * toPoly l

/-- `truncate_leading_zeros` (ark-poly): pop zero coefficients from the end of the vector. -/
def truncate : DP F → DP F
  | [] => []
  | a :: l =>
    match truncate l with
    | [] => if a = 0 then [] else [a]
    | b :: t => a :: b :: t

/-- `DenseUVPolynomial::from_coefficients_vec` / `from_coefficients_slice` (ark-poly). -/
def fromCoeffs (l : List F) : DP F := truncate l

/-- A coefficient vector without superfluous leading zero. -/
def Canon {F : Type*} [Zero F] (p : DP F) : Prop := p.getLast? ≠ some 0

/-- `Zero::is_zero` for `DensePolynomial` (ark-poly): all coefficients are zero. -/
def isZero (p : DP F) : Bool := p.all (fun c => decide (c = 0))

/-- `Polynomial::degree` (ark-poly): `0` for zero, otherwise `len - 1`; panics (`none`) if the vector
is non-zero but its last coefficient is zero. -/
def degree? (p : DP F) : Option ℕ :=
  if isZero p then some 0
  else if p.getLast? = some 0 then none
  else some (p.length - 1)

/-- `Polynomial::evaluate` (ark-poly): Horner evaluation. -/
def eval {F : Type*} [Field F] (p : DP F) (x : F) : F := p.foldr (fun c acc => c + x * acc) 0

/-- Padded coefficientwise sum (no truncation). -/
def zipAdd {F : Type*} [Field F] : List F → List F → List F
  | [], q => q
  | p, [] => p
  | a :: p, b :: q => (a + b) :: zipAdd p q

/-- `Add for DensePolynomial` (ark-poly). -/
def add (p q : DP F) : DP F := truncate (zipAdd p q)

/-- `Neg for DensePolynomial` (ark-poly). -/
def neg {F : Type*} [Field F] (p : DP F) : DP F := p.map (fun c => -c)

/-- `Sub for &DensePolynomial` (ark-poly). -/
def sub (p q : DP F) : DP F := truncate (zipAdd p (neg q))

/-- `Mul<F> for DensePolynomial` (ark-poly): the zero vector is returned for a zero operand. -/
def smul (p : DP F) (c : F) : DP F := if isZero p ∨ c = 0 then [] else p.map (fun a => a * c)

/-- Convolution of coefficient vectors. -/
def conv {F : Type*} [Field F] : List F → List F → List F
  | [], _ => []
  | a :: p, q => zipAdd (q.map (fun b => a * b)) (0 :: conv p q)

/-- `Mul for &DensePolynomial` (ark-poly).  Simplification: the panic for products larger than the
largest FFT domain is not modelled. -/
def mul (p q : DP F) : DP F := truncate (conv p q)

/-- Schoolbook division by a divisor `d` with non-zero last coefficient. -/
def divModCore (d : DP F) : List F → DP F × DP F
  | [] => ([], [])
  | a :: l =>
    let qr := divModCore d l
    let r' := truncate (a :: qr.2)
    if r'.length < d.length then (0 :: qr.1, r')
    else
      let c := r'.getLast?.getD 0 / d.getLast?.getD 0
      (c :: qr.1, truncate (zipAdd r' (d.map (fun b => -(c * b)))))

/-- `DenseOrSparsePolynomial::divide_with_q_and_r` (ark-poly): quotient and remainder.  Panics
(`none`) on a zero divisor unless the dividend is zero, and (through `degree()`) on a non-zero
dividend with a zero leading coefficient.  The divisor is assumed to be free of leading zeros (it is
`[-z, 1]` or `X^n - 1` everywhere in `/repo`). -/
def divideWithQAndR (p d : DP F) : Option (DP F × DP F) :=
  if isZero p then some ([], [])
  else if isZero d then none
  else if p.getLast? = some 0 then none
  else
    let qr := divModCore d p
    some (truncate qr.1, qr.2)

/-! ## Meaning of the operations -/

@[simp] theorem toPoly_nil : toPoly ([] : DP F) = 0 := rfl
@[simp] theorem toPoly_cons (a : F) (l : DP F) : toPoly (a :: l) = C a + X * toPoly l := rfl

@[simp] theorem eval_nil (x : F) : eval ([] : DP F) x = 0 := rfl
@[simp] theorem eval_cons (a x : F) (l : DP F) : eval (a :: l) x = a + x * eval l x := rfl

theorem eval_eq (p : DP F) (x : F) : eval p x = (toPoly p).eval x := by
  induction p with
  | nil => simp
  | cons a l ih => simp [ih]

theorem toPoly_truncate (p : DP F) : toPoly (truncate p) = toPoly p := by
  induction p with
  | nil => rfl
  | cons a l ih =>
    rw [truncate]
    split
    · next h =>
      rw [h] at ih
      by_cases ha : a = 0 <;> simp [ha, ← ih]
    · next b t h =>
      rw [h] at ih
      rw [toPoly_cons, ih, toPoly_cons]

theorem toPoly_fromCoeffs (p : DP F) : toPoly (fromCoeffs p) = toPoly p := toPoly_truncate p

theorem isZero_iff_forall (p : DP F) : isZero p = true ↔ ∀ c ∈ p, c = 0 := by
  simp [isZero]

theorem toPoly_eq_zero_iff (p : DP F) : toPoly p = 0 ↔ ∀ c ∈ p, c = 0 := by
  induction p with
  | nil => simp
  | cons a l ih =>
    constructor
    · intro h
      have h0 : a = 0 := by
        have := congrArg (fun q => Polynomial.coeff q 0) h
        simpa using this
      subst h0
      have hX : X * toPoly l = 0 := by simpa using h
      have hl : toPoly l = 0 := by
        rcases mul_eq_zero.1 hX with h | h
        · exact absurd h X_ne_zero
        · exact h
      intro c hc
      rcases List.mem_cons.1 hc with rfl | hc
      · rfl
      · exact (ih.1 hl) c hc
    · intro h
      have ha : a = 0 := h a (by simp)
      have hl : toPoly l = 0 := ih.2 (fun c hc => h c (by simp [hc]))
      simp [ha, hl]

theorem isZero_iff (p : DP F) : isZero p = true ↔ toPoly p = 0 := by
  rw [isZero_iff_forall, toPoly_eq_zero_iff]

theorem canon_nil : Canon ([] : DP F) := by simp [Canon]

theorem canon_truncate (p : DP F) : Canon (truncate p) := by
  induction p with
  | nil => simp [truncate, Canon]
  | cons a l ih =>
    rw [truncate]
    split
    · by_cases ha : a = 0 <;> simp [ha, Canon]
    · next b t h =>
      rw [h] at ih
      simpa [Canon, List.getLast?_cons_cons] using ih

theorem canon_fromCoeffs (p : DP F) : Canon (fromCoeffs p) := canon_truncate p

theorem truncate_eq_self {p : DP F} (h : Canon p) : truncate p = p := by
  induction p with
  | nil => rfl
  | cons a l ih =>
    cases l with
    | nil =>
      have ha : a ≠ 0 := by simpa [Canon] using h
      simp [truncate, ha]
    | cons b t =>
      have hc : Canon (b :: t) := by simpa [Canon, List.getLast?_cons_cons] using h
      rw [truncate, ih hc]

theorem length_truncate_le (p : DP F) : (truncate p).length ≤ p.length := by
  induction p with
  | nil => simp [truncate]
  | cons a l ih =>
    rw [truncate]
    split
    · split <;> simp
    · next b t h => rw [h] at ih; simpa using ih

theorem canon_zero_eq_nil {p : DP F} (h : Canon p) (hz : toPoly p = 0) : p = [] := by
  rcases List.eq_nil_or_concat p with rfl | ⟨l, a, rfl⟩
  · rfl
  · have := (toPoly_eq_zero_iff _).1 hz a (by simp)
    simp [Canon, this] at h

theorem coeff_toPoly (p : DP F) (n : ℕ) : (toPoly p).coeff n = p.getD n 0 := by
  induction p generalizing n with
  | nil => simp
  | cons a l ih =>
    cases n with
    | zero => simp
    | succ n => simp [ih, coeff_C_succ]

theorem degree_toPoly_lt (p : DP F) : (toPoly p).degree < p.length := by
  rw [degree_lt_iff_coeff_zero]
  intro m hm
  rw [coeff_toPoly]
  simp [List.getD, List.getElem?_eq_none hm]

/-- The length of a canonical vector is determined by its polynomial. -/
theorem canon_length {p : DP F} (h : Canon p) (hz : toPoly p ≠ 0) :
    p.length = (toPoly p).natDegree + 1 := by
  rcases List.eq_nil_or_concat p with rfl | ⟨l, a, rfl⟩
  · simp at hz
  · rw [List.concat_eq_append] at *
    have ha : a ≠ 0 := by simpa [Canon] using h
    have hc : (toPoly (l ++ [a])).coeff l.length = a := by
      rw [coeff_toPoly]; simp
    have h1 : l.length ≤ (toPoly (l ++ [a])).natDegree :=
      le_natDegree_of_ne_zero (by rw [hc]; exact ha)
    have h2 := degree_toPoly_lt (l ++ [a])
    have h3 : (toPoly (l ++ [a])).natDegree < (l ++ [a]).length := by
      rw [← Nat.cast_lt (α := WithBot ℕ), ← degree_eq_natDegree hz]; exact h2
    simp only [List.length_append, List.length_singleton] at *
    omega

/-- Canonical vectors with the same polynomial are equal. -/
theorem canon_ext {p q : DP F} (hp : Canon p) (hq : Canon q) (h : toPoly p = toPoly q) : p = q := by
  by_cases hz : toPoly p = 0
  · rw [canon_zero_eq_nil hp hz, canon_zero_eq_nil hq (h ▸ hz)]
  · have hl : p.length = q.length := by
      rw [canon_length hp hz, canon_length hq (h ▸ hz), h]
    apply List.ext_getElem hl
    intro n h1 h2
    have := congrArg (fun r => Polynomial.coeff r n) h
    simp only [coeff_toPoly] at this
    simpa [List.getD, List.getElem?_eq_getElem h1, List.getElem?_eq_getElem h2] using this

theorem toPoly_zipAdd (p q : DP F) : toPoly (zipAdd p q) = toPoly p + toPoly q := by
  induction p generalizing q with
  | nil => simp [zipAdd]
  | cons a p ih =>
    cases q with
    | nil => simp [zipAdd]
    | cons b q => simp [zipAdd, ih]; ring

theorem length_zipAdd (p q : DP F) : (zipAdd p q).length = max p.length q.length := by
  induction p generalizing q with
  | nil => simp [zipAdd]
  | cons a p ih =>
    cases q with
    | nil => simp [zipAdd]
    | cons b q => simp [zipAdd, ih]

theorem toPoly_neg (p : DP F) : toPoly (neg p) = - toPoly p := by
  induction p with
  | nil => simp [neg]
  | cons a p ih =>
    have : neg (a :: p) = (-a) :: neg p := rfl
    rw [this, toPoly_cons, ih, toPoly_cons]; simp; ring

theorem toPoly_map_mul (p : DP F) (c : F) : toPoly (p.map (fun b => c * b)) = C c * toPoly p := by
  induction p with
  | nil => simp
  | cons a p ih => rw [List.map_cons, toPoly_cons, ih, toPoly_cons]; simp; ring

theorem toPoly_add (p q : DP F) : toPoly (add p q) = toPoly p + toPoly q := by
  rw [add, toPoly_truncate, toPoly_zipAdd]

theorem toPoly_sub (p q : DP F) : toPoly (sub p q) = toPoly p - toPoly q := by
  rw [sub, toPoly_truncate, toPoly_zipAdd, toPoly_neg, sub_eq_add_neg]

theorem toPoly_smul (p : DP F) (c : F) : toPoly (smul p c) = C c * toPoly p := by
  rw [smul]
  split
  · next h =>
    rcases h with h | h
    · rw [(isZero_iff p).1 h]; simp
    · simp [h]
  · simp_rw [mul_comm _ c]; exact toPoly_map_mul p c

theorem toPoly_conv (p q : DP F) : toPoly (conv p q) = toPoly p * toPoly q := by
  induction p with
  | nil => simp [conv]
  | cons a p ih =>
    rw [conv, toPoly_zipAdd, toPoly_map_mul, toPoly_cons, toPoly_cons, ih]; simp; ring

theorem toPoly_mul (p q : DP F) : toPoly (mul p q) = toPoly p * toPoly q := by
  rw [mul, toPoly_truncate, toPoly_conv]

theorem canon_add (p q : DP F) : Canon (add p q) := canon_truncate _
theorem canon_sub (p q : DP F) : Canon (sub p q) := canon_truncate _
theorem canon_mul (p q : DP F) : Canon (mul p q) := canon_truncate _

theorem canon_smul {p : DP F} (h : Canon p) (c : F) : Canon (smul p c) := by
  rw [smul]
  split
  · simp [Canon]
  · next h' =>
    rcases List.eq_nil_or_concat p with rfl | ⟨l, a, rfl⟩
    · simp [Canon]
    · have ha : a ≠ 0 := by simpa [Canon] using h
      push Not at h'
      simp [Canon, ha, h'.2]

/-- `degree()` of a canonical vector never panics. -/
theorem degree?_canon {p : DP F} (h : Canon p) : degree? p = some (toPoly p).natDegree := by
  rw [degree?]
  by_cases hz : isZero p = true
  · rw [if_pos hz, (isZero_iff p).1 hz]; simp
  · rw [if_neg hz, if_neg h, canon_length h (fun h' => hz ((isZero_iff p).2 h'))]; simp

theorem degree?_of_isZero {p : DP F} (h : isZero p = true) : degree? p = some 0 := by
  rw [degree?, if_pos h]

/-! ## Division -/

theorem toPoly_append_singleton (l : DP F) (a : F) :
    toPoly (l ++ [a]) = toPoly l + C a * X ^ l.length := by
  induction l with
  | nil => simp
  | cons b l ih => rw [List.cons_append, toPoly_cons, ih, toPoly_cons]; simp; ring

theorem toPoly_append (l m : DP F) :
    toPoly (l ++ m) = toPoly l + X ^ l.length * toPoly m := by
  induction l with
  | nil => simp
  | cons b l ih => rw [List.cons_append, toPoly_cons, ih, toPoly_cons]; simp; ring

theorem toPoly_replicate_zero (n : ℕ) : toPoly (List.replicate n (0 : F)) = 0 := by
  rw [toPoly_eq_zero_iff]
  intro c hc
  exact (List.mem_replicate.1 hc).2

/-- Cancelling the leading coefficient shortens the vector. -/
theorem length_truncate_lt_of_last_zero {l : DP F} (hne : l ≠ []) (h : l.getLast? = some 0) :
    (truncate l).length < l.length := by
  by_contra hcon
  have hle := length_truncate_le l
  have heq : (truncate l).length = l.length := by omega
  rcases List.eq_nil_or_concat l with rfl | ⟨m, a, rfl⟩
  · exact hne rfl
  · have ha : a = 0 := by simpa using h
    subst ha
    have hlt := degree_toPoly_lt m
    have hp : toPoly (m ++ [0]) = toPoly m := by rw [toPoly_append_singleton]; simp
    have h2 : toPoly (truncate (m ++ [0])) = toPoly m := by rw [toPoly_truncate, hp]
    by_cases hz : toPoly m = 0
    · rw [hz] at h2
      have := canon_zero_eq_nil (canon_truncate _) h2
      simp only [List.concat_eq_append] at heq
      rw [this] at heq; simp at heq
    · have h3 := canon_length (canon_truncate (m ++ [0])) (by rw [h2]; exact hz)
      rw [h2] at h3
      have h4 : (toPoly m).natDegree < m.length := by
        rw [← Nat.cast_lt (α := WithBot ℕ), ← degree_eq_natDegree hz]; exact hlt
      simp only [List.concat_eq_append, List.length_append, List.length_singleton] at heq
      omega

theorem getLast?_zipAdd_same {p q : DP F} (h : p.length = q.length) (a b : F)
    (hp : p.getLast? = some a) (hq : q.getLast? = some b) :
    (zipAdd p q).getLast? = some (a + b) := by
  induction p generalizing q with
  | nil => simp at hp
  | cons x p ih =>
    cases q with
    | nil => simp at hq
    | cons y q =>
      cases p with
      | nil =>
        cases q with
        | nil => simp [zipAdd] at *; rw [hp, hq]
        | cons z q => simp at h
      | cons x' p =>
        cases q with
        | nil => simp at h
        | cons y' q =>
          have := ih (q := y' :: q) (by simpa using h) (by simpa using hp) (by simpa using hq)
          rw [zipAdd]
          rw [zipAdd] at this ⊢
          rw [List.getLast?_cons_cons]; exact this

theorem divModCore_spec {d : DP F} (hd : Canon d) (hd0 : d ≠ []) (p : DP F) :
    toPoly p = toPoly (divModCore d p).1 * toPoly d + toPoly (divModCore d p).2 ∧
      (divModCore d p).2.length < d.length ∧ Canon (divModCore d p).2 := by
  induction p with
  | nil => simpa [divModCore, Canon] using List.length_pos_iff.2 hd0
  | cons a l ih =>
    obtain ⟨h1, h2, h3⟩ := ih
    rw [divModCore]
    simp only
    split
    · next hlt =>
      refine ⟨?_, hlt, canon_truncate _⟩
      rw [toPoly_cons, h1, toPoly_truncate, toPoly_cons, toPoly_cons]; simp; ring
    · next hge =>
      set r := (divModCore d l).2 with hr
      set r' := truncate (a :: r) with hr'
      have hlen : r'.length = d.length := by
        have := length_truncate_le (a :: r)
        rw [← hr'] at this
        simp at this; omega
      have hr'ne : r' ≠ [] := by
        intro h; rw [h] at hlen; simp at hlen; exact hd0 (List.length_eq_zero_iff.1 hlen.symm)
      obtain ⟨x, hx⟩ : ∃ x, r'.getLast? = some x := by
        rw [← Option.isSome_iff_exists, List.getLast?_isSome]; exact hr'ne
      obtain ⟨y, hy⟩ : ∃ y, d.getLast? = some y := by
        rw [← Option.isSome_iff_exists, List.getLast?_isSome]; exact hd0
      have hy0 : y ≠ 0 := by
        intro h; rw [h] at hy; exact hd hy
      rw [hx, hy]
      simp only [Option.getD_some]
      refine ⟨?_, ?_, canon_truncate _⟩
      · rw [toPoly_cons, h1, toPoly_truncate, toPoly_zipAdd, hr', toPoly_truncate, toPoly_cons,
          toPoly_cons]
        have : (d.map fun b => -(x / y * b)) = neg (d.map fun b => x / y * b) := by
          simp [neg]
        rw [this, toPoly_neg, toPoly_map_mul]; ring
      · have hl : (zipAdd r' (d.map fun b => -(x / y * b))).length = d.length := by
          rw [length_zipAdd]; simp [hlen]
        rw [← hl]
        apply length_truncate_lt_of_last_zero
        · intro h; rw [h] at hl; simp at hl; exact hd0 (List.length_eq_zero_iff.1 hl.symm)
        · rw [getLast?_zipAdd_same (by simp [hlen]) x (-(x / y * y)) hx (by simp [hy])]
          congr 1; field_simp; ring

theorem isZero_false_iff (p : DP F) : isZero p = false ↔ toPoly p ≠ 0 := by
  rw [← Bool.not_eq_true, isZero_iff]

/-- Vectors on which `degree()` does not panic. -/
def CanonOrZero (p : DP F) : Prop := Canon p ∨ toPoly p = 0

theorem Canon.orZero {p : DP F} (h : Canon p) : CanonOrZero p := Or.inl h

theorem degree?_canonOrZero {p : DP F} (h : CanonOrZero p) :
    degree? p = some (toPoly p).natDegree := by
  rcases h with h | h
  · exact degree?_canon h
  · rw [degree?_of_isZero ((isZero_iff p).2 h), h]; simp

/-- `degree()` panics exactly on non-zero vectors with a zero leading coefficient. -/
theorem degree?_eq_none_iff (p : DP F) : degree? p = none ↔ ¬ CanonOrZero p := by
  unfold degree? CanonOrZero Canon
  rw [← isZero_iff]
  by_cases h1 : isZero p = true <;> by_cases h2 : p.getLast? = some 0 <;> simp [h1, h2]

/-- The library division panics on a non-zero dividend with a zero leading coefficient. -/
theorem divideWithQAndR_eq_none {d p : DP F} (hp : ¬ CanonOrZero p) : divideWithQAndR p d = none := by
  unfold CanonOrZero Canon at hp
  push Not at hp
  rw [divideWithQAndR, if_neg (by rw [isZero_iff]; exact hp.2)]
  split <;> simp [hp.1]

/-- The library division returns the Euclidean quotient and remainder. -/
theorem divideWithQAndR_spec {d : DP F} (hd : Canon d) (hd0 : d ≠ []) {p : DP F}
    (hp : CanonOrZero p) :
    ∃ q r, divideWithQAndR p d = some (q, r) ∧ toPoly p = toPoly q * toPoly d + toPoly r ∧
      (toPoly r).degree < (toPoly d).degree ∧ Canon q ∧ Canon r := by
  have hdz : toPoly d ≠ 0 := fun h => hd0 (canon_zero_eq_nil hd h)
  rw [divideWithQAndR]
  by_cases hz : isZero p = true
  · refine ⟨[], [], by rw [if_pos hz], ?_, ?_, by simp [Canon], by simp [Canon]⟩
    · rw [(isZero_iff p).1 hz]; simp
    · simp [bot_lt_iff_ne_bot, hdz]
  · rw [if_neg hz, if_neg (by rw [isZero_iff]; exact hdz),
      if_neg (hp.resolve_right fun h => hz ((isZero_iff p).2 h))]
    obtain ⟨h1, h2, h3⟩ := divModCore_spec hd hd0 p
    refine ⟨_, _, rfl, ?_, ?_, canon_truncate _, h3⟩
    · rw [toPoly_truncate]; exact h1
    · calc _ < ((divModCore d p).2.length : WithBot ℕ) := degree_toPoly_lt _
        _ ≤ _ := by
          rw [degree_eq_natDegree hdz]
          have := canon_length hd hdz
          exact_mod_cast (by omega)

/-- Quotient and remainder are `Polynomial.divByMonic`/`modByMonic` for monic divisors. -/
theorem divideWithQAndR_monic {d : DP F} (hd : Canon d) (hd0 : d ≠ []) (hm : (toPoly d).Monic)
    {p : DP F} (hp : CanonOrZero p) :
    ∃ q r, divideWithQAndR p d = some (q, r) ∧ toPoly q = toPoly p /ₘ toPoly d ∧
      toPoly r = toPoly p %ₘ toPoly d ∧ Canon q ∧ Canon r := by
  obtain ⟨q, r, h1, h2, h3, h4, h5⟩ := divideWithQAndR_spec hd hd0 hp
  have := div_modByMonic_unique (f := toPoly p) (toPoly q) (toPoly r) hm ⟨by rw [h2]; ring, h3⟩
  exact ⟨q, r, h1, this.1.symm, this.2.symm, h4, h5⟩

end Verif.Ark

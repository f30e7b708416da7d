import Verif.Fri.Props

/-!
# C80: on which proofs the FRI verifier panics

`verify` takes `domain_size`, `coset`, the number of layers and the number of queries from the proof.  C80 determines
the values of these four header fields for which no choice of the remaining fields makes the verifier panic.
-/

set_option linter.unusedSectionVars false
set_option linter.unusedVariables false

namespace Verif.Fri

open Verif.Ark

variable {F : Type} [FftField F] [DecidableEq F]

/-! ## Specification -/

/-- The header of a proof: the fields the verifier uses as sizes and for divisions. -/
def Proof.HasHeader {F : Type} (pf : Proof F) (domainSize : ℕ) (coset : F) (layers queries : ℕ) : Prop :=
  pf.domainSize = domainSize ∧ pf.coset = coset ∧ pf.layersRoot.length = layers ∧ pf.numberOfQueries = queries

/-- Headers no one can crash the verifier with: no query at all, or a positive domain size and either no layer, or
a domain size within the field's two-adic subgroup, a non-zero coset in odd characteristic, and at most one layer
more than the domain can be halved. -/
def SafeHeader {F : Type} [FftField F] (domainSize : ℕ) (coset : F) (layers queries : ℕ) : Prop :=
  queries = 0 ∨ domainSize ≠ 0 ∧ (layers = 0 ∨
    domainSize ≤ 2 ^ FftField.twoAdicity F ∧ (2 : F) ≠ 0 ∧ coset ≠ 0 ∧ layers ≤ Nat.log 2 domainSize + 1)

/-! ## Safe headers -/

theorem new?_isSome_of_le {n : ℕ} (h : n ≤ 2 ^ FftField.twoAdicity F) :
    ∃ d, Domain.new? (F := F) n = some d := by
  rw [← Option.isSome_iff_exists, Domain.new?_isSome_iff]
  exact nextPow2_le_of_le h

theorem new?_none_of_lt {n : ℕ} (h : 2 ^ FftField.twoAdicity F < n) : Domain.new? (F := F) n = none := by
  rw [← Option.isNone_iff_eq_none, ← Option.isSome_eq_false_iff, ← Bool.not_eq_true, Domain.new?_isSome_iff]
  have := le_nextPow2 n
  omega

theorem verifyQueryLoop_ne_none (env : Env F) (pos : ℕ) (evs : List F) (cv : F) (h2 : (2 : F) ≠ 0)
    (items : List ((((F × MerkleProof F) × F) × MerkleProof F) × F)) (i D : ℕ) (c : F)
    (hi : i + items.length ≤ evs.length) (hD0 : D ≠ 0) (hD : D ≤ 2 ^ FftField.twoAdicity F) (hc : c ≠ 0)
    (hl : items.length ≤ Nat.log 2 D + 1) : verifyQueryLoop env pos evs cv i items D c ≠ none := by
  induction items generalizing i D c with
  | nil => simp [verifyQueryLoop]
  | cons x rest ih =>
    obtain ⟨⟨⟨⟨ev, path⟩, sev⟩, sp⟩, r⟩ := x
    rw [List.length_cons] at hi hl
    obtain ⟨dom, hdom⟩ := new?_isSome_of_le hD
    obtain ⟨hv, -⟩ := Domain.new?_valid hdom
    have hw : ¬ 2 * (dom.element (pos % D) * c) = 0 :=
      mul_ne_zero h2 (mul_ne_zero (pow_ne_zero _ hv.gen_ne_zero) hc)
    rw [verifyQueryLoop, if_neg hD0]
    dsimp only
    rw [hdom]
    dsimp only
    split
    · simp
    split
    · simp
    split
    · simp
    try rw [if_neg hw]
    split
    · rename_i hne
      have hlt : i + 1 < evs.length := by omega
      rw [List.getElem?_eq_getElem hlt]
      dsimp only
      split
      · simp
      · cases rest with
        | nil => simp [verifyQueryLoop]
        | cons y rest =>
          rw [List.length_cons] at hi hl
          have hD2 : 2 ≤ D := by
            by_contra hn
            have : D = 1 := by omega
            subst this
            simp at hl
          have hlog : Nat.log 2 (D / 2) = Nat.log 2 D - 1 := Nat.log_div_base 2 D
          exact ih (i + 1) (D / 2) (c * c) (by rw [List.length_cons]; omega) (by omega) (by omega)
            (mul_ne_zero hc hc) (by rw [List.length_cons]; omega)
    · rename_i hne
      split
      · simp
      · have : rest = [] := by
          rw [← List.length_eq_zero_iff]
          rw [not_not] at hne
          omega
        subst this
        simp [verifyQueryLoop]

theorem length_queryItems_le (d : Decommitment F) (rs : List F) :
    (queryItems d rs).length ≤ rs.length ∧ (queryItems d rs).length ≤ d.evaluations.length := by
  simp only [queryItems, List.length_zip]
  omega

theorem verifyQueries_ne_none (env : Env F) (rs : List F) (D : ℕ) (cv c : F) (l : List (ℕ × Decommitment F))
    (h : ∀ x ∈ l, verifyQuery env x.1 x.2 rs D cv c ≠ none) : verifyQueries env rs D cv c l ≠ none := by
  induction l with
  | nil => simp [verifyQueries]
  | cons x l ih =>
    obtain ⟨p, d⟩ := x
    have h0 := h (p, d) (by simp)
    dsimp only at h0
    rw [verifyQueries]
    cases hq : verifyQuery env p d rs D cv c with
    | none => exact absurd hq h0
    | some e =>
      cases e with
      | error e => simp
      | ok u => exact ih fun x hx => h x (List.mem_cons_of_mem _ hx)

theorem safe_ne_none (env : Env F) (hdig : ∀ b, 8 ≤ (env.digest b).length) (pf : Proof F)
    (hs : SafeHeader pf.domainSize pf.coset pf.layersRoot.length pf.numberOfQueries) : verify env pf ≠ none := by
  obtain ⟨⟨rs, t⟩, hreg⟩ := regenerate_isSome env hdig pf.layersRoot (Transcript.new env 0)
  obtain ⟨⟨vs, t'⟩, hvs⟩ := generateChallengeListUsize_feed env hdig t pf.constVal pf.numberOfQueries
  have hvl := length_challengeList hvs
  have hrl := length_regenerate hreg
  unfold verify
  simp only [hreg, Option.bind_eq_bind, Option.bind_some, hvs]
  have h0 : ¬ (pf.domainSize = 0 ∧ vs ≠ []) := by
    rintro ⟨h1, h2⟩
    rcases hs with h | h
    · rw [h] at hvl
      exact h2 (List.length_eq_zero_iff.1 hvl)
    · exact h.1 h1
  rw [if_neg h0]
  apply verifyQueries_ne_none
  rintro ⟨pos, d⟩ hx
  obtain ⟨hl1, hl2⟩ := length_queryItems_le d rs
  unfold verifyQuery
  rcases hs with h | ⟨hD0, h | ⟨hD, h2, hc, hL⟩⟩
  · rw [h] at hvl
    rw [List.length_eq_zero_iff.1 hvl] at hx
    simp at hx
  · have : queryItems d rs = [] := by
      rw [← List.length_eq_zero_iff]
      omega
    dsimp only
    rw [this]
    simp [verifyQueryLoop]
  · dsimp only
    exact verifyQueryLoop_ne_none env pos d.evaluations pf.constVal h2 _ 0 _ _ (by omega) hD0 hD hc (by omega)

/-! ## Unsafe headers -/

/-- Paths without siblings for the leaf 0, at the positions of a query in successively halved domains. -/
def crashPaths (env : Env F) (index : ℕ → ℕ) : ℕ → ℕ → List (MerkleProof F)
  | 0, _ => []
  | k + 1, D => ⟨index D, 0, [], hash env 0⟩ :: crashPaths env index k (D / 2)

/-- A decommitment that makes the verifier go through as many layers as possible: all values are 0. -/
def crashDec (env : Env F) (pos L D : ℕ) : Decommitment F where
  evaluations := List.replicate L 0
  authPaths := crashPaths env (fun D => pos % D) L D
  symEvaluations := List.replicate L 0
  symAuthPaths := crashPaths env (fun D => (pos % D + D / 2) % D) L D

theorem crash_loop (env : Env F) (pos L : ℕ) (cv : F) (rs : List F) (i D : ℕ) (c : F) (hr : rs ≠ [])
    (hi : i + rs.length = L)
    (hbad : ¬ (D ≠ 0 ∧ D ≤ 2 ^ FftField.twoAdicity F ∧ (2 : F) ≠ 0 ∧ c ≠ 0 ∧ rs.length ≤ Nat.log 2 D + 1)) :
    verifyQueryLoop env pos (List.replicate L 0) cv i
      (queryItems (crashDec env pos rs.length D) rs) D c = none := by
  induction rs generalizing i D c with
  | nil => exact absurd rfl hr
  | cons r rs ih =>
    have hitems : queryItems (crashDec env pos (r :: rs).length D) (r :: rs) =
        ((((0, ⟨pos % D, 0, [], hash env 0⟩), 0), ⟨(pos % D + D / 2) % D, 0, [], hash env 0⟩), r) ::
          queryItems (crashDec env pos rs.length (D / 2)) rs := by
      simp [queryItems, crashDec, crashPaths, List.replicate_succ]
    rw [hitems, verifyQueryLoop]
    by_cases hD0 : D = 0
    · rw [if_pos hD0]
    rw [if_neg hD0]
    dsimp only
    by_cases hD : D ≤ 2 ^ FftField.twoAdicity F
    · obtain ⟨dom, hdom⟩ := new?_isSome_of_le hD
      rw [hdom]
      dsimp only
      rw [if_neg (by simp), if_neg (by simp), if_neg (by simp [verifyMerkleProof, merkleLoop])]
      by_cases hw : 2 * (dom.element (pos % D) * c) = 0
      · rw [if_pos hw]
      rw [if_neg hw]
      have h2 : (2 : F) ≠ 0 := fun h => hw (by rw [h, zero_mul])
      have hc : c ≠ 0 := fun h => hw (by rw [h, mul_zero, mul_zero])
      have hlong : Nat.log 2 D + 1 < (r :: rs).length := by
        by_contra hn
        exact hbad ⟨hD0, hD, h2, hc, by omega⟩
      rw [List.length_cons] at hlong hi
      rw [if_pos (by rw [List.length_replicate]; omega)]
      have hnext : (List.replicate L (0 : F))[i + 1]? = some 0 := by
        rw [List.getElem?_replicate, if_pos (by omega)]
      rw [hnext]
      dsimp only
      rw [if_neg (by simp)]
      apply ih (i + 1) (D / 2) (c * c) (by intro h; rw [h] at hlong; simp at hlong) (by omega)
      rintro ⟨g0, -, -, -, gl⟩
      have hlog : Nat.log 2 (D / 2) = Nat.log 2 D - 1 := Nat.log_div_base 2 D
      have : 1 ≤ Nat.log 2 D := Nat.log_pos (by norm_num) (by omega)
      omega
    · rw [new?_none_of_lt (not_le.1 hD)]

theorem unsafe_panics (env : Env F) (hdig : ∀ b, 8 ≤ (env.digest b).length) (D : ℕ) (c : F) (L q : ℕ)
    (hs : ¬ SafeHeader D c L q) : ∃ pf : Proof F, pf.HasHeader D c L q ∧ verify env pf = none := by
  have hq : q ≠ 0 := fun h => hs (.inl h)
  obtain ⟨⟨rs, t⟩, hreg⟩ := regenerate_isSome env hdig (List.replicate L 0) (Transcript.new env 0)
  obtain ⟨⟨vs, t'⟩, hvs⟩ := generateChallengeListUsize_feed env hdig t 0 q
  have hvl := length_challengeList hvs
  have hrl := length_regenerate hreg
  rw [List.length_replicate] at hrl
  cases vs with
  | nil => exact absurd hvl.symm hq
  | cons v vs =>
    refine ⟨⟨D, c, q, List.replicate L 0, 0, [crashDec env (v % D) L D]⟩,
      ⟨rfl, rfl, List.length_replicate, rfl⟩, ?_⟩
    unfold verify
    simp only [hreg, Option.bind_eq_bind, Option.bind_some, hvs]
    by_cases hD : D = 0
    · rw [if_pos ⟨hD, by simp⟩]
    rw [if_neg (fun h => hD h.1)]
    have hL : L ≠ 0 := fun h => hs (.inr ⟨hD, .inl h⟩)
    rw [List.map_cons, List.zip_cons_cons, verifyQueries]
    have key := crash_loop env (v % D) L 0 rs 0 D c (by intro h; rw [h] at hrl; exact hL hrl.symm) (by omega) (by
      rintro ⟨g0, g1, g2, g3, g4⟩
      exact hs (.inr ⟨hD, .inr ⟨g1, g2, g3, by omega⟩⟩))
    rw [hrl] at key
    have : verifyQuery env (v % D) (crashDec env (v % D) L D) rs D 0 c = none := key
    rw [this]

/-! ## The property -/

/-- **C80** (FRI): the verifier panics on no proof with a given header exactly if the header is safe.  In
particular headers of honest proofs are safe, and C80 is false of the code: whoever controls the header can crash the
verifier. -/
theorem C80_fri_panic_free_iff (env : Env F) (hdig : ∀ b, 8 ≤ (env.digest b).length) (D : ℕ) (c : F) (L q : ℕ) :
    (∀ pf : Proof F, pf.HasHeader D c L q → verify env pf ≠ none) ↔ SafeHeader D c L q := by
  constructor
  · intro h
    by_contra hn
    obtain ⟨pf, h1, h2⟩ := unsafe_panics env hdig D c L q hn
    exact h pf h1 h2
  · rintro h pf ⟨rfl, rfl, rfl, rfl⟩
    exact safe_ne_none env hdig pf h

/-- **C80** (FRI): the headers the prover writes are safe. -/
theorem C80_fri_honest_header (env : Env F) (hdig : ∀ b, 8 ≤ (env.digest b).length) (poly : DP F) (b q : ℕ)
    (pf : Proof F) (h : generateProof env poly b q = some pf) :
    SafeHeader pf.domainSize pf.coset pf.layersRoot.length pf.numberOfQueries := by
  obtain ⟨rs, t, t', vs, hl, hpos, hta, hD, hc, hq, hroots, hreg, hconst, hvs, hdecs⟩ := generateProof_spec env h
  rw [hD, hc, ← length_regenerate hreg]
  refine .inr ⟨by positivity, .inr ⟨Nat.pow_le_pow_right (by norm_num) hta, two_ne_zero_of (by omega),
    FftField.generator_ne_zero, ?_⟩⟩
  rw [Nat.log_pow (by norm_num)]
  omega

/-- **C80** is false of the code: proofs on which the FRI verifier panics, with one query and one layer. -/
theorem C80_fri_crash (env : Env F) (hdig : ∀ b, 8 ≤ (env.digest b).length) :
    (∃ pf : Proof F, pf.domainSize = 0 ∧ verify env pf = none) ∧
    (∃ pf : Proof F, pf.domainSize = 2 ∧ pf.coset = 0 ∧ verify env pf = none) ∧
    (∃ pf : Proof F, pf.domainSize = 2 ∧ pf.coset = 1 ∧ pf.layersRoot.length = 3 ∧ verify env pf = none) ∧
    (∃ pf : Proof F, pf.domainSize = 2 ^ FftField.twoAdicity F + 1 ∧ pf.coset = 1 ∧ verify env pf = none) := by
  refine ⟨?_, ?_, ?_, ?_⟩
  · obtain ⟨pf, ⟨h1, -, -, -⟩, h⟩ := unsafe_panics env hdig 0 (1 : F) 1 1 (by simp [SafeHeader])
    exact ⟨pf, h1, h⟩
  · obtain ⟨pf, ⟨h1, h2, -, -⟩, h⟩ := unsafe_panics env hdig 2 (0 : F) 1 1 (by simp [SafeHeader])
    exact ⟨pf, h1, h2, h⟩
  · obtain ⟨pf, ⟨h1, h2, h3, -⟩, h⟩ := unsafe_panics env hdig 2 (1 : F) 3 1 (by
      have : Nat.log 2 2 = 1 := by decide
      simp [SafeHeader, this])
    exact ⟨pf, h1, h2, h3, h⟩
  · obtain ⟨pf, ⟨h1, h2, -, -⟩, h⟩ := unsafe_panics env hdig (2 ^ FftField.twoAdicity F + 1) (1 : F) 1 1 (by
      simp [SafeHeader])
    exact ⟨pf, h1, h2, h⟩

/-- Non-vacuity: a safe header with layers and queries, and one that is not safe, over Goldilocks. -/
example : SafeHeader 8 (7 : Goldilocks) 3 5 ∧ ¬ SafeHeader 8 (0 : Goldilocks) 3 5 := by
  have : Nat.log 2 8 = 3 := by decide
  refine ⟨.inr ⟨by norm_num, .inr ⟨?_, two_ne_zero_of (by show 1 ≤ 32; norm_num), ?_, by omega⟩⟩, ?_⟩
  · show 8 ≤ 2 ^ 32
    norm_num
  · decide
  · simp [SafeHeader]

end Verif.Fri

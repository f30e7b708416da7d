import Verif.Kzg.Props

/-!
# C98 (KZG): the repository's own tests

Every `#[test]` of the crate as a program: `none` if it panics, `some false` if an assertion fails, `some true` if it
passes.  The secret drawn by `Srs::new` and the random numbers drawn are arguments.
-/

set_option linter.unusedSectionVars false

namespace Verif.Kzg

open Verif.Ark

variable {F G1 G2 GT : Type} [Field F] [DecidableEq F] [AddCommGroup G1] [Module F G1] [DecidableEq G1]
  [AddCommGroup G2] [Module F G2] [AddCommGroup GT] [Module F GT] [DecidableEq GT]

/-- `commit`, `kzg/src/commitment.rs` lines 31-53.  The test uses the secret 2; here it is an argument. -/
def testCommit (P : PairingGroups F G1 G2 GT) (secret : F) : Option Bool := do
  let srs := Srs.newFromSecret P secret 10
  let poly : DP F := fromCoeffs [1, 2, 3]
  let commitment ← commit srs poly
  let d : F := 1
  if Ark.eval poly d ≠ 6 then some false
  else if commitment ≠ Ark.eval poly secret • P.g1 then some false
  else do
    let opening ← openAt srs poly d
    some (verify P srs commitment opening d)

/-- `scalar_mul`, `kzg/src/commitment.rs` lines 55-71. -/
def testScalarMul (P : PairingGroups F G1 G2 GT) (s : F) : Option Bool := do
  let srs := Srs.newFromSecret P s 5
  let poly : DP F := fromCoeffs [1, 2, 3, 4, 5]
  let commit1 ← commit srs poly
  let commit2 ← commit srs (smul poly 9)
  some (decide (commitmentMul commit1 (9 : F) = commit2))

/-- `aggregate_commitments`, `kzg/src/commitment.rs` lines 73-89; `r` is the random `u128`. -/
def testAggregate (P : PairingGroups F G1 G2 GT) (s : F) (r : ℕ) : Option Bool := do
  let srs := Srs.newFromSecret P s 5
  let c1 ← commit srs (fromCoeffs [1, 2, 3, 4, 5] : DP F)
  let c2 ← commit srs (fromCoeffs [1, 2, 3, 4, 8] : DP F)
  some (decide (aggregateCommitments [c1, c2] (r : F) = c1 + (r : F) • c2))

/-- The five polynomials and points of `batch_verify`, `kzg/src/commitment.rs` lines 98-110. -/
def batchInputs (F : Type) [Field F] [DecidableEq F] : List (DP F × F) :=
  [(fromCoeffs [1, 2, 3, 4, 5], 12), (fromCoeffs [1, 8, 3, 4, 8], 4), (fromCoeffs [12, 8, 3, 9, 8], 2003),
    (fromCoeffs [95, 8, 0, 9, 8], 13), (fromCoeffs [12, 0, 3, 9, 0], 9)]

/-- `batch_verify`, `kzg/src/commitment.rs` lines 91-119; `rng i` is the `i`-th number drawn. -/
def testBatchVerify (P : PairingGroups F G1 G2 GT) (s : F) (rng : ℕ → ℕ) : Option Bool := do
  let srs := Srs.newFromSecret P s 5
  let openings ← (batchInputs F).mapM fun fz => openAt srs fz.1 fz.2
  let c ← (batchInputs F).mapM fun fz => commit srs fz.1
  batchVerify P srs c ((batchInputs F).map Prod.snd) openings rng

theorem short_natDegree {v : List F} {n : ℕ} (h : v.length ≤ n) (hn : 0 < n) :
    (toPoly (fromCoeffs v)).natDegree < n := by
  rw [toPoly_fromCoeffs, Nat.lt_iff_le_pred hn, Polynomial.natDegree_le_iff_coeff_eq_zero]
  intro i hi
  rw [coeff_toPoly]
  simp only [List.getD]
  rw [List.getElem?_eq_none (by omega)]
  rfl

theorem ne_zero_of_coeff {v : List F} (i : ℕ) (h : v.getD i 0 ≠ 0) : toPoly (fromCoeffs v) ≠ 0 := by
  rw [toPoly_fromCoeffs]
  intro h0
  apply h
  rw [← coeff_toPoly, h0, Polynomial.coeff_zero]

theorem batchInputs_canon (p : DP F × F) (hp : p ∈ batchInputs F) :
    Canon p.1 ∧ (toPoly p.1).natDegree < 5 + 3 := by
  simp only [batchInputs, List.mem_cons, List.not_mem_nil, or_false] at hp
  rcases hp with h | h | h | h | h <;> subst h <;>
    exact ⟨canon_fromCoeffs _, short_natDegree (by simp) (by norm_num)⟩

theorem batchInputs_ne (h3 : (3 : F) ≠ 0) (p : DP F × F) (hp : p ∈ batchInputs F) : toPoly p.1 ≠ 0 := by
  have nine8 : ¬ ((9 : F) = 0 ∧ (8 : F) = 0) := by
    rintro ⟨h9, h8⟩
    have : (9 : F) - 8 = 1 := by norm_num
    rw [h9, h8, sub_zero] at this
    exact zero_ne_one this
  have key : ∀ v : List F, v.getD 3 0 = 9 → v.getD 4 0 = 8 → toPoly (fromCoeffs v) ≠ 0 := by
    intro v a b
    by_cases h9 : (9 : F) = 0
    · exact ne_zero_of_coeff 4 (by rw [b]; exact fun h8 => nine8 ⟨h9, h8⟩)
    · exact ne_zero_of_coeff 3 (by rw [a]; exact h9)
  simp only [batchInputs, List.mem_cons, List.not_mem_nil, or_false] at hp
  rcases hp with h | h | h | h | h <;> subst h
  · exact ne_zero_of_coeff 0 (by simp)
  · exact ne_zero_of_coeff 0 (by simp)
  · exact key _ rfl rfl
  · exact key _ rfl rfl
  · exact ne_zero_of_coeff 2 (by simpa using h3)

theorem mapM_some_of {α β : Type} (f : α → Option β) (g : α → β) (l : List α) (h : ∀ a ∈ l, f a = some (g a)) :
    l.mapM f = some (l.map g) := by
  induction l with
  | nil => rfl
  | cons a l ih =>
    rw [List.mapM_cons, h a (by simp), ih (fun b hb => h b (List.mem_cons_of_mem _ hb))]
    rfl

/-- **C98** (KZG): every test of the crate passes, for every secret of the trusted setup and all random numbers
drawn. -/
theorem C98_kzg (P : PairingGroups F G1 G2 GT) (s : F) (h3 : (3 : F) ≠ 0) (r : ℕ) (rng : ℕ → ℕ) :
    testCommit P s = some true ∧ testScalarMul P s = some true ∧ testAggregate P s r = some true ∧
      testBatchVerify P s rng = some true := by
  have hcom : ∀ (n : ℕ) (v : List F), v.length ≤ n + 3 →
      commit (Srs.newFromSecret P s n) (fromCoeffs v) = some ((toPoly (fromCoeffs v)).eval s • P.g1) := fun n v h =>
    (C02_commit P s n (canon_fromCoeffs v)).1 (short_natDegree h (by omega))
  refine ⟨?_, ?_, ?_, ?_⟩
  · have hc := hcom 10 [1, 2, 3] (by simp)
    obtain ⟨o, ho, -, hver⟩ :=
      C04_open_verifies P s 10 (canon_fromCoeffs [1, 2, 3]) (ne_zero_of_coeff 0 (by simp)) hc 1
    have hev : Ark.eval (fromCoeffs [1, 2, 3] : DP F) 1 = 6 := by
      rw [eval_eq, toPoly_fromCoeffs]
      simp [toPoly]
      norm_num
    unfold testCommit
    simp only [hc, Option.bind_eq_bind, Option.bind_some, hev, ne_eq, not_true, if_false]
    rw [eval_eq, if_neg (not_not.2 rfl), ho]
    simp [hver]
  · have hc := hcom 5 [1, 2, 3, 4, 5] (by simp)
    have h9 := (C03_linear P s 5 (canon_fromCoeffs [1, 2, 3, 4, 5]) (canon_fromCoeffs [1, 2, 3, 4, 5]) hc hc 9).2.2.2
    unfold testScalarMul
    simp only [hc, h9, Option.bind_eq_bind, Option.bind_some, decide_true]
  · have hc := hcom 5 [1, 2, 3, 4, 5] (by simp)
    have hc' := hcom 5 [1, 2, 3, 4, 8] (by simp)
    unfold testAggregate
    simp only [hc, hc', Option.bind_eq_bind, Option.bind_some]
    rw [decide_eq_true]
    simp [aggregateCommitments, aggregateLoop]
  · have hcs : ∀ p ∈ batchInputs F,
        commit (Srs.newFromSecret P s 5) p.1 = some ((toPoly p.1).eval s • P.g1) := fun p hp =>
      (C02_commit P s 5 (batchInputs_canon p hp).1).1 (batchInputs_canon p hp).2
    have hop : ∀ p ∈ batchInputs F, ∃ o, openAt (Srs.newFromSecret P s 5) p.1 p.2 = some o ∧
        verify P (Srs.newFromSecret P s 5) ((toPoly p.1).eval s • P.g1) o p.2 = true := by
      intro p hp
      obtain ⟨o, h1, -, h2⟩ :=
        C04_open_verifies P s 5 (batchInputs_canon p hp).1 (batchInputs_ne h3 p hp) (hcs p hp) p.2
      exact ⟨o, h1, h2⟩
    let op : DP F × F → Opening F G1 := fun p => (openAt (Srs.newFromSecret P s 5) p.1 p.2).getD ⟨0, 0⟩
    have hop' : ∀ p ∈ batchInputs F, openAt (Srs.newFromSecret P s 5) p.1 p.2 = some (op p) ∧
        verify P (Srs.newFromSecret P s 5) ((toPoly p.1).eval s • P.g1) (op p) p.2 = true := by
      intro p hp
      obtain ⟨o, h1, h2⟩ := hop p hp
      have : op p = o := by simp only [op, h1, Option.getD_some]
      rw [this]
      exact ⟨h1, h2⟩
    unfold testBatchVerify
    simp only [mapM_some_of _ op _ (fun p hp => (hop' p hp).1),
      mapM_some_of _ (fun p : DP F × F => (toPoly p.1).eval s • P.g1) _ hcs, Option.bind_eq_bind, Option.bind_some]
    refine C09_batch_complete P s 5 _ _ _ rng (by simp) (by simp) ?_
    rintro ⟨k, hk⟩
    have hk' : k < (batchInputs F).length := by simpa using hk
    have := (hop' _ (List.getElem_mem hk')).2
    simpa using this

/-- The tests are programs the kernel can run, and the hypothesis on the field matters: `f5 = 12 + 3x² + 9x³` is the
zero polynomial in characteristic 3, and `open` panics on it. -/
example : testCommit (trivialGroups ℚ) 2 = some true := by decide +kernel

example : testBatchVerify (trivialGroups ℚ) 7 (fun i => i + 5) = some true := by decide +kernel

example : testBatchVerify (trivialGroups (ZMod 3)) 7 (fun i => i + 5) = none := by decide +kernel

end Verif.Kzg

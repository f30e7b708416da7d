import Verif.Nova.Model
import Verif.Kzg.Lemmas
import Mathlib.Algebra.BigOperators.Fin
import Mathlib.Tactic.LinearCombination
import Mathlib.Tactic.FieldSimp

/-!
# Properties C26–C31 and C36: linear algebra helpers, relaxed R1CS, folding of pairs
-/

set_option linter.unusedSectionVars false

namespace Verif.Nova

open Verif.Ark Verif.Kzg

variable {F G1 G2 GT B : Type} [Field F] [DecidableEq F] [AddCommGroup G1] [Module F G1] [DecidableEq G1]
  [AddCommGroup G2] [Module F G2] [AddCommGroup GT] [Module F GT] [DecidableEq GT]
  [Field B] [DecidableEq B]

/-! ## Specification vocabulary -/

/-- Inner product of a matrix row with a vector, missing entries read as zero. -/
def dot (row z : List F) : F := ∑ j ∈ Finset.range z.length, row.getD j 0 * z.getD j 0

/-- The relaxed R1CS relation `(A z) ∘ (B z) = u (C z) + E`, row by row, for matrices that have as many
rows as `E` (`B` may have more: the code never looks at the surplus rows). -/
structure RelaxedSat (r1cs : R1CS F) (z e : List F) (u : F) : Prop where
  /-- rows of A -/
  lenA : r1cs.matrixA.length = e.length
  /-- rows of B -/
  lenB : e.length ≤ r1cs.matrixB.length
  /-- rows of C -/
  lenC : r1cs.matrixC.length = e.length
  /-- the equation of every row -/
  row : ∀ i < e.length, dot (r1cs.matrixA.getD i []) z * dot (r1cs.matrixB.getD i []) z =
    u * dot (r1cs.matrixC.getD i []) z + e.getD i 0

/-- Commitment to a vector: `Σ vᵢ · Sᵢ` over the SRS points, defined if no nonzero entry lies beyond
the SRS. -/
def CommitsTo (srs : Srs G1 G2) (v : List F) (c : G1) : Prop :=
  0 < srs.g1Points.length ∧ (∀ i ≥ srs.g1Points.length, v.getD i 0 = 0) ∧
    c = ∑ i ∈ Finset.range srs.g1Points.length, v.getD i 0 • srs.g1Points.getD i 0

/-! ## Lemmas -/

theorem getD_eq_of_le {α : Type} {l : List α} {i : ℕ} {d : α} (h : l.length ≤ i) : l.getD i d = d := by
  simp [List.getD, List.getElem?_eq_none h]

theorem getD_lt {α : Type} {l : List α} {i : ℕ} {d : α} (h : i < l.length) : l.getD i d = l[i] := by
  simp [List.getD, h]

theorem ext_getD {α : Type} {l l' : List α} {d : α} (hl : l.length = l'.length)
    (h : ∀ i < l.length, l.getD i d = l'.getD i d) : l = l' := by
  apply List.ext_getElem hl
  intro i h1 h2
  have := h i h1
  simpa [List.getD, h1, h2] using this

theorem foldl_dot (row z : List F) (acc : F) :
    (row.zip z).foldl (fun acc az => acc + az.1 * az.2) acc = acc + dot row z := by
  unfold dot
  induction row generalizing z acc with
  | nil => simp
  | cons a row ih =>
    cases z with
    | nil => simp
    | cons b z =>
      rw [List.zip_cons_cons, List.foldl_cons, ih, List.length_cons, Finset.sum_range_succ']
      simp; ring

theorem dot_nil (z : List F) : dot [] z = 0 := by simp [dot]

theorem mvp_length (m : List (List F)) (z : List F) : (matrixVectorProduct m z).length = m.length := by
  simp [matrixVectorProduct]

theorem mvp_getD (m : List (List F)) (z : List F) (i : ℕ) :
    (matrixVectorProduct m z).getD i 0 = dot (m.getD i []) z := by
  by_cases h : i < m.length
  · have h' : i < (matrixVectorProduct m z).length := by rw [mvp_length]; exact h
    rw [getD_lt h', getD_lt h]
    simp [matrixVectorProduct, foldl_dot]
  · rw [getD_eq_of_le (by rw [mvp_length]; omega), getD_eq_of_le (by omega), dot_nil]

theorem hadamard_eq (a b : List F) :
    hadamardProduct a b = if a.length ≤ b.length then some (List.zipWith (· * ·) a b) else none := by
  induction a generalizing b with
  | nil => simp [hadamardProduct]
  | cons x a ih =>
    cases b with
    | nil => simp [hadamardProduct]
    | cons y b =>
      rw [hadamardProduct, ih]
      by_cases h : a.length ≤ b.length
      · simp [h]
      · simp [h]

theorem zipWith_getD (f : F → F → F) (hf : f 0 0 = 0) (a b : List F) (h : a.length = b.length) (i : ℕ) :
    (List.zipWith f a b).getD i 0 = f (a.getD i 0) (b.getD i 0) := by
  by_cases hi : i < a.length
  · have hb : i < b.length := by omega
    have hz : i < (List.zipWith f a b).length := by simp; omega
    rw [getD_lt hz, getD_lt hi, getD_lt hb]
    simp
  · rw [getD_eq_of_le (by simp; omega), getD_eq_of_le (by omega), getD_eq_of_le (by omega), hf]

/-- As `zipWith_getD` for indices within both lists. -/
theorem zipWith_getD_lt (f : F → F → F) (a b : List F) (i : ℕ) (ha : i < a.length) (hb : i < b.length) :
    (List.zipWith f a b).getD i 0 = f (a.getD i 0) (b.getD i 0) := by
  have hz : i < (List.zipWith f a b).length := by simp; omega
  rw [getD_lt hz, getD_lt ha, getD_lt hb]
  simp

theorem vep_getD (a : List F) (u : F) (i : ℕ) : (vectorElemProduct a u).getD i 0 = a.getD i 0 * u := by
  unfold vectorElemProduct
  by_cases h : i < a.length
  · have h' : i < (a.map fun x => x * u).length := by simpa using h
    rw [getD_lt h', getD_lt h]; simp
  · rw [getD_eq_of_le (by simp; omega), getD_eq_of_le (by omega)]; simp

theorem vecEqual_iff (a b : List F) : vecEqual a b = true ↔ a = b := by
  unfold vecEqual
  by_cases h : a.length = b.length
  · rw [if_neg (by simpa using h)]
    induction a generalizing b with
    | nil => cases b with
      | nil => simp
      | cons y b => simp at h
    | cons x a ih => cases b with
      | nil => simp at h
      | cons y b =>
        have := ih b (by simpa using h)
        rw [List.zip_cons_cons, List.all_cons, Bool.and_eq_true, this]
        simp
  · rw [if_pos h]
    simp; intro hab; exact h (by rw [hab])

theorem getD_truncate (v : List F) (i : ℕ) : (truncate v).getD i 0 = v.getD i 0 := by
  rw [← coeff_toPoly, ← coeff_toPoly, toPoly_truncate]

theorem sum_zip_smul (p : List F) (S : List G1) :
    ((p.zip S).map fun cs => cs.1 • cs.2).sum =
      ∑ i ∈ Finset.range S.length, p.getD i 0 • S.getD i 0 := by
  induction S generalizing p with
  | nil => simp
  | cons s S ih =>
    cases p with
    | nil => simp
    | cons a p =>
      rw [List.zip_cons_cons, List.map_cons, List.sum_cons, ih, List.length_cons,
        Finset.sum_range_succ']
      simp [add_comm]

/-- `commit_vector` computes `CommitsTo` for every SRS (also one not generated by the library). -/
theorem commitVector_iff (srs : Srs G1 G2) (v : List F) (c : G1) :
    commitVector srs v = some c ↔ CommitsTo srs v c := by
  unfold commitVector evaluateInS fromCoeffs CommitsTo
  rw [degree?_canon (canon_truncate v), toPoly_truncate]
  simp only [Option.bind_eq_bind, Option.bind_some]
  by_cases h : srs.g1Points.length > (toPoly v).natDegree
  · rw [if_pos h, reduce?_getD, sum_zip_smul]
    simp only [pure, Option.some.injEq, getD_truncate]
    constructor
    · intro hc
      refine ⟨by omega, fun i hi => ?_, hc.symm⟩
      rw [← coeff_toPoly]
      exact Polynomial.coeff_eq_zero_of_natDegree_lt (by omega)
    · rintro ⟨-, -, hc⟩; exact hc.symm
  · rw [if_neg h]
    simp only [reduceCtorEq, false_iff, not_and]
    intro h0 h1 _
    apply h
    by_cases hz : toPoly v = 0
    · rw [hz]; simpa using h0
    · rw [gt_iff_lt, Polynomial.natDegree_lt_iff_degree_lt hz, Polynomial.degree_lt_iff_coeff_zero]
      intro m hm
      rw [coeff_toPoly]; exact h1 m hm

theorem CommitsTo.unique {srs : Srs G1 G2} {v : List F} {c c' : G1} (h : CommitsTo srs v c)
    (h' : CommitsTo srs v c') : c = c' := by rw [h.2.2, h'.2.2]

/-- Commitments are linear. -/
theorem CommitsTo.linear {srs : Srs G1 G2} {v1 v2 v3 : List F} {c1 c2 : G1} (h1 : CommitsTo srs v1 c1)
    (h2 : CommitsTo srs v2 c2) (r : F) (h : ∀ i, v3.getD i 0 = v1.getD i 0 + r * v2.getD i 0) :
    CommitsTo srs v3 (c1 + r • c2) := by
  refine ⟨h1.1, fun i hi => by rw [h, h1.2.1 i hi, h2.2.1 i hi]; simp, ?_⟩
  rw [h1.2.2, h2.2.2, Finset.smul_sum, ← Finset.sum_add_distrib]
  refine Finset.sum_congr rfl fun i _ => ?_
  rw [h, add_smul, mul_smul]

/-! ## C26 -/

/-- **C26** (matrix times vector): one entry per row, the inner product. -/
theorem C26_matrix_vector (m : List (List F)) (z : List F) :
    (matrixVectorProduct m z).length = m.length ∧
    ∀ i < m.length, (matrixVectorProduct m z).getD i 0 =
      ∑ j ∈ Finset.range z.length, (m.getD i []).getD j 0 * z.getD j 0 :=
  ⟨mvp_length m z, fun i _ => mvp_getD m z i⟩

/-- **C26** (entrywise product): panics iff the second vector is shorter; else entry by entry. -/
theorem C26_hadamard (a b : List F) :
    (hadamardProduct a b = none ↔ b.length < a.length) ∧
    ∀ c, hadamardProduct a b = some c → c.length = a.length ∧
      ∀ i < a.length, c.getD i 0 = a.getD i 0 * b.getD i 0 := by
  rw [hadamard_eq]
  by_cases h : a.length ≤ b.length
  · simp only [h, if_true, reduceCtorEq, false_iff, not_lt, true_and, Option.some.injEq]
    rintro c rfl
    refine ⟨by simp [h], fun i hi => zipWith_getD_lt _ a b i hi (by omega)⟩
  · simp only [h, if_false, true_iff]
    exact ⟨by omega, by simp⟩

/-- **C26** (scaling) -/
theorem C26_scale (a : List F) (u : F) :
    (vectorElemProduct a u).length = a.length ∧
    ∀ i < a.length, (vectorElemProduct a u).getD i 0 = a.getD i 0 * u :=
  ⟨by simp [vectorElemProduct], fun i _ => vep_getD a u i⟩

/-- **C26** (sum): panics iff the lengths differ. -/
theorem C26_add (a b : List F) :
    (vecAdd a b = none ↔ a.length ≠ b.length) ∧
    ∀ c, vecAdd a b = some c → c.length = a.length ∧
      ∀ i < a.length, c.getD i 0 = a.getD i 0 + b.getD i 0 := by
  unfold vecAdd
  by_cases h : a.length = b.length
  · simp only [h, ne_eq, not_true, if_false, reduceCtorEq, Option.some.injEq, true_and]
    rintro c rfl
    exact ⟨by simp [h], fun i hi => zipWith_getD_lt _ a b i (by omega) hi⟩
  · simp [h]

/-- **C26** (difference): panics iff the lengths differ. -/
theorem C26_sub (a b : List F) :
    (vecSub a b = none ↔ a.length ≠ b.length) ∧
    ∀ c, vecSub a b = some c → c.length = a.length ∧
      ∀ i < a.length, c.getD i 0 = a.getD i 0 - b.getD i 0 := by
  unfold vecSub
  by_cases h : a.length = b.length
  · simp only [h, ne_eq, not_true, if_false, reduceCtorEq, Option.some.injEq, true_and]
    rintro c rfl
    exact ⟨by simp [h], fun i hi => zipWith_getD_lt _ a b i (by omega) hi⟩
  · simp [h]

/-- **C26** (equality) -/
theorem C26_equal (a b : List F) : vecEqual a b = true ↔ a = b := vecEqual_iff a b

/-- **C26** (conversions): entries are the images of the integers. -/
theorem C26_conversions (m : List (List ℕ)) (v : List ℕ) (i j : ℕ) :
    ((toFMatrix m : List (List F)).getD i []).getD j 0 = (((m.getD i []).getD j 0 : ℕ) : F) ∧
    (toFVec v : List F).getD i 0 = ((v.getD i 0 : ℕ) : F) := by
  have key : ∀ (l : List ℕ) (k : ℕ), (l.map fun (x : ℕ) => (x : F)).getD k 0 = ((l.getD k 0 : ℕ) : F) := by
    intro l k
    by_cases h : k < l.length
    · have h' : k < (l.map fun (x : ℕ) => (x : F)).length := by simpa using h
      rw [getD_lt h', getD_lt h]; simp
    · rw [getD_eq_of_le (by simp; omega), getD_eq_of_le (by omega)]; simp
  refine ⟨?_, key v i⟩
  unfold toFMatrix
  by_cases h : i < m.length
  · have h' : i < (m.map fun row => row.map fun (x : ℕ) => (x : F)).length := by simpa using h
    rw [getD_lt h', getD_lt h, List.getElem_map]
    exact key _ j
  · rw [getD_eq_of_le (l := m.map _) (by simp; omega), getD_eq_of_le (l := m) (by omega)]; simp

/-! ## C27 -/

theorem checkCommitments_iff (srs : Srs G1 G2) (fi : FInstance F G1) (fw : FWitness F) :
    checkCommitments srs fi fw = some true ↔
      commitVector srs fw.w = some fi.comW ∧ commitVector srs fw.e = some fi.comE := by
  unfold checkCommitments
  cases hw : commitVector srs fw.w with
  | none => simp
  | some cw =>
    simp only [Option.bind_eq_bind, Option.bind_some]
    by_cases h : fi.comW = cw
    · rw [if_pos h]
      cases he : commitVector srs fw.e with
      | none => simp
      | some ce => simp [h, eq_comm]
    · rw [if_neg h]
      simp [Ne.symm h]

/-- **C27**: `is_r1cs_satisfied` returns `Ok` exactly if the lengths match, the relaxed R1CS relation
holds for `z = (W, x, u)`, and the instance holds the commitments to `W` and `E`. -/
theorem C27_satisfied_iff (r1cs : R1CS F) (fi : FInstance F G1) (fw : FWitness F) (srs : Srs G1 G2) :
    isR1csSatisfied r1cs fi fw srs = some (.ok ()) ↔
      r1cs.numVars = fw.w.length ∧ r1cs.numIo = fi.x.length ∧
      RelaxedSat r1cs (fw.w ++ fi.x ++ [fi.u]) fw.e fi.u ∧
      CommitsTo srs fw.w fi.comW ∧ CommitsTo srs fw.e fi.comE := by
  rw [← commitVector_iff, ← commitVector_iff, ← checkCommitments_iff]
  unfold isR1csSatisfied
  by_cases h1 : r1cs.numVars = fw.w.length
  swap
  · rw [if_pos h1]; simp [h1]
  rw [if_neg (by simpa using h1)]
  by_cases h2 : r1cs.numIo = fi.x.length
  swap
  · rw [if_pos h2]; simp [h2]
  rw [if_neg (by simpa using h2)]
  simp only [h1, h2, true_and]
  have hz : zVec fw fi = fw.w ++ fi.x ++ [fi.u] := rfl
  rw [← hz]
  generalize zVec fw fi = z
  rw [hadamard_eq, mvp_length, mvp_length]
  by_cases hAB : r1cs.matrixA.length ≤ r1cs.matrixB.length
  swap
  · rw [if_neg hAB]
    simp only [Option.bind_eq_bind, Option.bind_none, reduceCtorEq, false_iff, not_and]
    intro hs; exact absurd (hs.lenA ▸ hs.lenB) hAB
  rw [if_pos hAB]
  simp only [Option.bind_eq_bind, Option.bind_some, vecAdd]
  have hlen : (vectorElemProduct (matrixVectorProduct r1cs.matrixC z) fi.u).length =
      r1cs.matrixC.length := by simp [vectorElemProduct, mvp_length]
  rw [hlen]
  by_cases hC : r1cs.matrixC.length = fw.e.length
  swap
  · rw [if_pos hC]
    simp only [Option.bind_none, reduceCtorEq, false_iff, not_and]
    intro hs; exact absurd hs.lenC hC
  rw [if_neg (by simpa using hC)]
  simp only [Option.bind_some]
  have hkey : vecEqual
      (List.zipWith (· * ·) (matrixVectorProduct r1cs.matrixA z) (matrixVectorProduct r1cs.matrixB z))
      (List.zipWith (fun x y => x + y) (vectorElemProduct (matrixVectorProduct r1cs.matrixC z) fi.u)
        fw.e) = true ↔ RelaxedSat r1cs z fw.e fi.u := by
    rw [vecEqual_iff]
    constructor
    · intro h
      have hl := congrArg List.length h
      simp only [List.length_zipWith, mvp_length, hlen] at hl
      have hA : r1cs.matrixA.length = fw.e.length := by omega
      refine ⟨hA, by omega, hC, fun i hi => ?_⟩
      have := congrArg (fun l : List F => l.getD i 0) h
      beta_reduce at this
      rw [zipWith_getD_lt _ _ _ _ (by rw [mvp_length]; omega) (by rw [mvp_length]; omega),
        zipWith_getD_lt _ _ _ _ (by rw [hlen]; omega) hi, vep_getD, mvp_getD, mvp_getD, mvp_getD] at this
      rw [this]; ring
    · intro hs
      have hA := hs.lenA
      have hB := hs.lenB
      apply ext_getD (d := 0)
      · simp only [List.length_zipWith, mvp_length, hlen]; omega
      · intro i hi
        simp only [List.length_zipWith, mvp_length] at hi
        rw [zipWith_getD_lt _ _ _ _ (by rw [mvp_length]; omega) (by rw [mvp_length]; omega),
          zipWith_getD_lt _ _ _ _ (by rw [hlen]; omega) (by omega), vep_getD, mvp_getD, mvp_getD,
          mvp_getD, hs.row i (by omega)]
        ring
  generalize vecEqual
      (List.zipWith (· * ·) (matrixVectorProduct r1cs.matrixA z) (matrixVectorProduct r1cs.matrixB z))
      (List.zipWith (fun x y => x + y) (vectorElemProduct (matrixVectorProduct r1cs.matrixC z) fi.u)
        fw.e) = b at hkey ⊢
  rw [← hkey]
  cases checkCommitments srs fi fw with
  | none => simp
  | some c => cases b <;> cases c <;> simp

/-- **C27** (no other positive answer): the result is `Ok` or one of the three errors, or a panic; a
panic happens only for matrices of unequal row counts or vectors longer than the SRS. -/
theorem C27_panic_cause (r1cs : R1CS F) (fi : FInstance F G1) (fw : FWitness F) (srs : Srs G1 G2)
    (hrows : r1cs.matrixA.length ≤ r1cs.matrixB.length) (hC : r1cs.matrixC.length = fw.e.length)
    (h0 : 0 < srs.g1Points.length) (hw : fw.w.length ≤ srs.g1Points.length)
    (he : fw.e.length ≤ srs.g1Points.length) :
    isR1csSatisfied r1cs fi fw srs ≠ none := by
  have hcw : ∃ c, commitVector srs fw.w = some c :=
    ⟨_, (commitVector_iff _ _ _).2 ⟨h0, fun i hi => getD_eq_of_le (by omega), rfl⟩⟩
  have hce : ∃ c, commitVector srs fw.e = some c :=
    ⟨_, (commitVector_iff _ _ _).2 ⟨h0, fun i hi => getD_eq_of_le (by omega), rfl⟩⟩
  obtain ⟨cw, hcw⟩ := hcw
  obtain ⟨ce, hce⟩ := hce
  unfold isR1csSatisfied
  split
  · simp
  split
  · simp
  dsimp only
  rw [hadamard_eq, mvp_length, mvp_length, if_pos hrows]
  simp only [vecAdd, Option.bind_eq_bind, Option.bind_some]
  rw [if_neg (by simpa [vectorElemProduct, mvp_length] using hC)]
  unfold checkCommitments
  rw [hcw, hce]
  by_cases h : fi.comW = cw <;> simp [h]

/-- **C27** (all results): which of its four results `is_r1cs_satisfied` gives is decided by the shapes, the relation and the
commitments: the length errors come first, then the panics (`A` with more rows than `B`, `C` with another number of rows than
`E`, a vector the setup cannot commit to, where `E` is only committed to if the commitment to `W` agrees). -/
theorem C27_results (r1cs : R1CS F) (fi : FInstance F G1) (fw : FWitness F) (srs : Srs G1 G2) :
    (isR1csSatisfied r1cs fi fw srs = some (.error "Witness does not match with matrices") ↔
      r1cs.numVars ≠ fw.w.length) ∧
    (isR1csSatisfied r1cs fi fw srs = some (.error "Instance does not match with matrices") ↔
      r1cs.numVars = fw.w.length ∧ r1cs.numIo ≠ fi.x.length) ∧
    (isR1csSatisfied r1cs fi fw srs = none ↔
      r1cs.numVars = fw.w.length ∧ r1cs.numIo = fi.x.length ∧
      (r1cs.matrixB.length < r1cs.matrixA.length ∨ r1cs.matrixC.length ≠ fw.e.length ∨
        commitVector srs fw.w = none ∨
        (commitVector srs fw.w = some fi.comW ∧ commitVector srs fw.e = none))) ∧
    (isR1csSatisfied r1cs fi fw srs = none ∨ isR1csSatisfied r1cs fi fw srs = some (.ok ()) ∨
      isR1csSatisfied r1cs fi fw srs = some (.error "Witness does not match with matrices") ∨
      isR1csSatisfied r1cs fi fw srs = some (.error "Instance does not match with matrices") ∨
      isR1csSatisfied r1cs fi fw srs = some (.error "Instance does not satisfy the Witness.")) := by
  unfold isR1csSatisfied
  by_cases h1 : r1cs.numVars = fw.w.length
  swap
  · simp [h1]
  by_cases h2 : r1cs.numIo = fi.x.length
  swap
  · simp [h1, h2]
  rw [if_neg (by simpa using h1), if_neg (by simpa using h2)]
  dsimp only
  rw [hadamard_eq, mvp_length, mvp_length]
  by_cases h3 : r1cs.matrixA.length ≤ r1cs.matrixB.length
  swap
  · rw [if_neg h3]
    have := Nat.lt_of_not_le h3
    simp [h1, h2, this]
  rw [if_pos h3]
  simp only [vecAdd, Option.bind_eq_bind, Option.bind_some]
  by_cases h4 : r1cs.matrixC.length = fw.e.length
  swap
  · rw [if_pos (by simpa [vectorElemProduct, mvp_length] using h4)]
    simp [h1, h2, h4]
  rw [if_neg (by simpa [vectorElemProduct, mvp_length] using h4)]
  have h3' := Nat.not_lt.2 h3
  unfold checkCommitments
  cases hcw : commitVector srs fw.w with
  | none => simp [h1, h2]
  | some cw =>
    by_cases h5 : fi.comW = cw
    · subst h5
      cases hce : commitVector srs fw.e with
      | none => simp [h1, h2]
      | some ce =>
        simp only [h1, h2, h3', h4, pure, Option.bind_eq_bind, Option.bind_some, if_true]
        split <;> simp
    · have h5' := Ne.symm h5
      simp [h1, h2, h3', h4, h5, h5']

/-! ## C28 -/

/-- **C28**: a fresh witness committed with its public input satisfies the relaxed R1CS exactly if
`(A z) ∘ (B z) = C z` for `z = (w, x, 1)`. -/
theorem C28_fresh_iff (r1cs : R1CS F) (w x : List F) (rows : ℕ) (srs : Srs G1 G2) (fi : FInstance F G1)
    (hA : r1cs.matrixA.length = rows) (hB : r1cs.matrixB.length = rows)
    (hC : r1cs.matrixC.length = rows) (hw : r1cs.numVars = w.length) (hx : r1cs.numIo = x.length)
    (hfi : (FWitness.new w rows).commit srs x = some fi) :
    isR1csSatisfied r1cs fi (FWitness.new w rows) srs = some (.ok ()) ↔
      ∀ i < rows, dot (r1cs.matrixA.getD i []) (w ++ x ++ [1]) * dot (r1cs.matrixB.getD i []) (w ++ x ++ [1]) =
        dot (r1cs.matrixC.getD i []) (w ++ x ++ [1]) := by
  simp only [FWitness.commit, Option.bind_eq_bind, Option.bind_eq_some_iff, pure,
    Option.some.injEq] at hfi
  obtain ⟨ce, hce, cw, hcw, rfl⟩ := hfi
  rw [commitVector_iff] at hce hcw
  rw [C27_satisfied_iff]
  have hlen : (FWitness.new w rows).e.length = rows := by simp [FWitness.new]
  have hzero : ∀ i, (FWitness.new w rows).e.getD i 0 = 0 := by
    intro i
    by_cases h : i < rows
    · rw [getD_lt (by rw [hlen]; exact h)]; simp [FWitness.new]
    · rw [getD_eq_of_le (by rw [hlen]; omega)]
  constructor
  · rintro ⟨-, -, hs, -, -⟩ i hi
    have := hs.row i (by rw [hlen]; exact hi)
    rw [hzero] at this
    simpa [FWitness.new] using this
  · intro h
    refine ⟨hw, hx, ⟨by rw [hA, hlen], by rw [hB, hlen], by rw [hC, hlen], fun i hi => ?_⟩, hcw, hce⟩
    rw [hzero]
    rw [hlen] at hi
    simpa [FWitness.new] using h i hi

/-! ## C31 -/

theorem foldW_getD (r : F) (w1 w2 : List F)
    (h1 : ∀ i ≥ min w1.length w2.length, w1.getD i 0 = 0 ∧ w2.getD i 0 = 0) (i : ℕ) :
    ((w1.zip w2).map fun p => p.1 + p.2 * r).getD i 0 = w1.getD i 0 + r * w2.getD i 0 := by
  by_cases h : i < min w1.length w2.length
  · have h' : i < ((w1.zip w2).map fun p => p.1 + p.2 * r).length := by simpa using h
    rw [getD_lt h', getD_lt (by omega : i < w1.length),
      getD_lt (by omega : i < w2.length)]
    simp; ring
  · rw [getD_eq_of_le (by simp; omega), (h1 i (by omega)).1, (h1 i (by omega)).2]; simp

theorem foldE_getD (r : F) (e1 t e2 : List F)
    (h1 : ∀ i ≥ min (min e1.length t.length) e2.length,
      e1.getD i 0 = 0 ∧ t.getD i 0 = 0 ∧ e2.getD i 0 = 0) (i : ℕ) :
    (((e1.zip t).zip e2).map fun p => p.1.1 + r * p.1.2 + r * r * p.2).getD i 0 =
      e1.getD i 0 + r * t.getD i 0 + r * r * e2.getD i 0 := by
  by_cases h : i < min (min e1.length t.length) e2.length
  · have h' : i < (((e1.zip t).zip e2).map fun p => p.1.1 + r * p.1.2 + r * r * p.2).length := by
      simpa using h
    rw [getD_lt h', getD_lt (by omega : i < e1.length),
      getD_lt (by omega : i < t.length),
      getD_lt (by omega : i < e2.length)]
    simp
  · obtain ⟨a, b, c⟩ := h1 i (by omega)
    rw [getD_eq_of_le (by simp; omega), a, b, c]; simp

/-- **C31** (general form): whenever the vectors zipped together lose no nonzero entry, the instance
folded by `fold_instance` holds the commitments to the witness folded by `fold_witness`. -/
theorem C31_fold_commitments_gen (srs : Srs G1 G2) (r : F) (fw1 fw2 : FWitness F) (t : List F)
    (fi1 fi2 : FInstance F G1) (comT : G1)
    (hw : ∀ i ≥ min fw1.w.length fw2.w.length, fw1.w.getD i 0 = 0 ∧ fw2.w.getD i 0 = 0)
    (he : ∀ i ≥ min (min fw1.e.length t.length) fw2.e.length,
      fw1.e.getD i 0 = 0 ∧ t.getD i 0 = 0 ∧ fw2.e.getD i 0 = 0)
    (hW1 : commitVector srs fw1.w = some fi1.comW) (hW2 : commitVector srs fw2.w = some fi2.comW)
    (hE1 : commitVector srs fw1.e = some fi1.comE) (hE2 : commitVector srs fw2.e = some fi2.comE)
    (hT : commitVector srs t = some comT) :
    commitVector srs (foldWitness r fw1 fw2 t).w = some (foldInstance r fi1 fi2 comT).comW ∧
    commitVector srs (foldWitness r fw1 fw2 t).e = some (foldInstance r fi1 fi2 comT).comE := by
  rw [commitVector_iff] at *
  refine ⟨hW1.linear hW2 r (foldW_getD r _ _ hw), ?_⟩
  rw [commitVector_iff]
  refine ⟨hE1.1, fun i hi => ?_, ?_⟩
  · rw [foldWitness, foldE_getD r _ _ _ he, hE1.2.1 i hi, hE2.2.1 i hi, hT.2.1 i hi]; simp
  · change fi1.comE + r • comT + (r * r) • fi2.comE = _
    rw [hE1.2.2, hT.2.2, hE2.2.2, Finset.smul_sum, Finset.smul_sum, ← Finset.sum_add_distrib,
      ← Finset.sum_add_distrib]
    refine Finset.sum_congr rfl fun i _ => ?_
    rw [foldWitness, foldE_getD r _ _ _ he, add_smul, add_smul, mul_smul r (t.getD i 0),
      mul_smul (r * r)]

/-- **C31**: for vectors of equal lengths the folded instance commits to the folded witness. -/
theorem C31_fold_commitments (srs : Srs G1 G2) (r : F) (fw1 fw2 : FWitness F) (t : List F)
    (fi1 fi2 : FInstance F G1) (comT : G1) (hw : fw1.w.length = fw2.w.length)
    (he : fw1.e.length = t.length) (he2 : fw2.e.length = t.length)
    (hW1 : commitVector srs fw1.w = some fi1.comW) (hW2 : commitVector srs fw2.w = some fi2.comW)
    (hE1 : commitVector srs fw1.e = some fi1.comE) (hE2 : commitVector srs fw2.e = some fi2.comE)
    (hT : commitVector srs t = some comT) :
    commitVector srs (foldWitness r fw1 fw2 t).w = some (foldInstance r fi1 fi2 comT).comW ∧
    commitVector srs (foldWitness r fw1 fw2 t).e = some (foldInstance r fi1 fi2 comT).comE :=
  C31_fold_commitments_gen srs r fw1 fw2 t fi1 fi2 comT
    (fun i hi => ⟨getD_eq_of_le (by omega), getD_eq_of_le (by omega)⟩)
    (fun i hi => ⟨getD_eq_of_le (by omega), getD_eq_of_le (by omega), getD_eq_of_le (by omega)⟩)
    hW1 hW2 hE1 hE2 hT

/-! ## C29 -/

/-- The cross term of row `i`. -/
def crossTerm (r1cs : R1CS F) (u1 u2 : F) (z1 z2 : List F) (i : ℕ) : F :=
  dot (r1cs.matrixA.getD i []) z1 * dot (r1cs.matrixB.getD i []) z2 +
    dot (r1cs.matrixA.getD i []) z2 * dot (r1cs.matrixB.getD i []) z1 -
    u1 * dot (r1cs.matrixC.getD i []) z2 - u2 * dot (r1cs.matrixC.getD i []) z1

/-- `compute_t` succeeds iff A has no more rows than B and as many as C; it returns the cross terms. -/
theorem computeT_iff (r1cs : R1CS F) (u1 u2 : F) (z1 z2 t : List F) :
    computeT r1cs u1 u2 z1 z2 = some t ↔
      r1cs.matrixA.length ≤ r1cs.matrixB.length ∧ r1cs.matrixC.length = r1cs.matrixA.length ∧
      t.length = r1cs.matrixA.length ∧
      ∀ i < r1cs.matrixA.length, t.getD i 0 = crossTerm r1cs u1 u2 z1 z2 i := by
  unfold computeT
  simp only [hadamard_eq, mvp_length]
  by_cases hAB : r1cs.matrixA.length ≤ r1cs.matrixB.length
  swap
  · simp [hAB]
  simp only [hAB, if_true, Option.bind_eq_bind, Option.bind_some, true_and]
  have hl1 : ∀ z z' : List F, (List.zipWith (· * ·) (matrixVectorProduct r1cs.matrixA z)
      (matrixVectorProduct r1cs.matrixB z')).length = r1cs.matrixA.length := by
    intro z z'; simp [mvp_length, hAB]
  have hl2 : ∀ (z : List F) (u : F), (vectorElemProduct (matrixVectorProduct r1cs.matrixC z) u).length =
      r1cs.matrixC.length := by intro z u; simp [vectorElemProduct, mvp_length]
  unfold vecAdd vecSub
  rw [if_neg (by rw [hl1, hl1]; simp)]
  simp only [Option.bind_some]
  have hl3 : (List.zipWith (fun x y => x + y) (List.zipWith (· * ·) (matrixVectorProduct r1cs.matrixA z1)
      (matrixVectorProduct r1cs.matrixB z2)) (List.zipWith (· * ·) (matrixVectorProduct r1cs.matrixA z2)
      (matrixVectorProduct r1cs.matrixB z1))).length = r1cs.matrixA.length := by
    rw [List.length_zipWith, hl1, hl1]; simp
  rw [hl3, hl2]
  by_cases hC : r1cs.matrixC.length = r1cs.matrixA.length
  swap
  · rw [if_pos (Ne.symm hC)]; simp [hC]
  rw [if_neg (by simpa using hC.symm)]
  simp only [Option.bind_some]
  have hl4 : (List.zipWith (fun x y => x - y) (List.zipWith (fun x y => x + y) (List.zipWith (· * ·)
      (matrixVectorProduct r1cs.matrixA z1) (matrixVectorProduct r1cs.matrixB z2))
      (List.zipWith (· * ·) (matrixVectorProduct r1cs.matrixA z2) (matrixVectorProduct r1cs.matrixB z1)))
      (vectorElemProduct (matrixVectorProduct r1cs.matrixC z2) u1)).length = r1cs.matrixA.length := by
    rw [List.length_zipWith, hl3, hl2, hC]; simp
  rw [hl4, hl2, if_neg (by simpa using hC.symm)]
  have key : ∀ i < r1cs.matrixA.length, (List.zipWith (fun x y => x - y) (List.zipWith (fun x y => x - y)
      (List.zipWith (fun x y => x + y) (List.zipWith (· * ·) (matrixVectorProduct r1cs.matrixA z1)
      (matrixVectorProduct r1cs.matrixB z2)) (List.zipWith (· * ·) (matrixVectorProduct r1cs.matrixA z2)
      (matrixVectorProduct r1cs.matrixB z1))) (vectorElemProduct (matrixVectorProduct r1cs.matrixC z2) u1))
      (vectorElemProduct (matrixVectorProduct r1cs.matrixC z1) u2)).getD i 0 =
      crossTerm r1cs u1 u2 z1 z2 i := by
    intro i hi
    rw [zipWith_getD_lt _ _ _ _ (by rw [hl4]; exact hi) (by rw [hl2, hC]; exact hi),
      zipWith_getD_lt _ _ _ _ (by rw [hl3]; exact hi) (by rw [hl2, hC]; exact hi),
      zipWith_getD_lt _ _ _ _ (by rw [hl1]; exact hi) (by rw [hl1]; exact hi),
      zipWith_getD_lt _ _ _ _ (by rw [mvp_length]; exact hi) (by rw [mvp_length]; omega),
      zipWith_getD_lt _ _ _ _ (by rw [mvp_length]; exact hi) (by rw [mvp_length]; omega),
      vep_getD, vep_getD, mvp_getD, mvp_getD, mvp_getD, mvp_getD, mvp_getD, mvp_getD, crossTerm]
    ring
  simp only [Option.some.injEq, hC, true_and]
  constructor
  · rintro rfl
    exact ⟨by rw [List.length_zipWith, hl4, hl2, hC]; simp, key⟩
  · rintro ⟨h1, h2⟩
    apply ext_getD (d := 0)
    · rw [h1, List.length_zipWith, hl4, hl2, hC]; simp
    · intro i hi
      have hi' : i < r1cs.matrixA.length := by
        rw [List.length_zipWith, hl4, hl2, hC] at hi; simpa using hi
      rw [key i hi', h2 i hi']

theorem dot_fold (row z1 z2 z3 : List F) (r : F) (h2 : z2.length = z1.length) (h3 : z3.length = z1.length)
    (h : ∀ i < z1.length, z3.getD i 0 = z1.getD i 0 + r * z2.getD i 0) :
    dot row z3 = dot row z1 + r * dot row z2 := by
  unfold dot
  rw [h2, h3, Finset.mul_sum, ← Finset.sum_add_distrib]
  refine Finset.sum_congr rfl fun i hi => ?_
  rw [h i (Finset.mem_range.1 hi)]; ring

/-- The vector `(W, x, u)` of the folded pair is the fold of the two vectors. -/
theorem zVec_fold (r : F) (fw1 fw2 : FWitness F) (fi1 fi2 : FInstance F G1) (t : List F) (comT : G1)
    (hw : fw1.w.length = fw2.w.length) (hx : fi1.x.length = fi2.x.length) :
    (zVec fw2 fi2).length = (zVec fw1 fi1).length ∧
    (zVec (foldWitness r fw1 fw2 t) (foldInstance r fi1 fi2 comT)).length = (zVec fw1 fi1).length ∧
    ∀ i < (zVec fw1 fi1).length,
      (zVec (foldWitness r fw1 fw2 t) (foldInstance r fi1 fi2 comT)).getD i 0 =
        (zVec fw1 fi1).getD i 0 + r * (zVec fw2 fi2).getD i 0 := by
  have hz : zVec (foldWitness r fw1 fw2 t) (foldInstance r fi1 fi2 comT) =
      ((zVec fw1 fi1).zip (zVec fw2 fi2)).map fun p => p.1 + p.2 * r := by
    simp only [zVec, foldWitness, foldInstance]
    rw [List.zip_append (by simp [hw, hx]), List.zip_append hw]
    simp
  have hl : (zVec fw2 fi2).length = (zVec fw1 fi1).length := by simp [zVec, hw, hx]
  refine ⟨hl, by rw [hz]; simp [hl], fun i hi => ?_⟩
  rw [hz, foldW_getD]
  intro j hj
  exact ⟨getD_eq_of_le (by omega), getD_eq_of_le (by omega)⟩

/-- Every row's defect of the folded pair is the quadratic polynomial in `r` of the two defects and the
cross term. -/
theorem row_fold (r1cs : R1CS F) (r : F) (fw1 fw2 : FWitness F) (fi1 fi2 : FInstance F G1) (t : List F)
    (comT : G1) (hw : fw1.w.length = fw2.w.length) (hx : fi1.x.length = fi2.x.length) (i : ℕ) :
    let z3 := zVec (foldWitness r fw1 fw2 t) (foldInstance r fi1 fi2 comT)
    let a := r1cs.matrixA.getD i []
    let b := r1cs.matrixB.getD i []
    let c := r1cs.matrixC.getD i []
    dot a z3 * dot b z3 - (fi1.u + fi2.u * r) * dot c z3 =
      (dot a (zVec fw1 fi1) * dot b (zVec fw1 fi1) - fi1.u * dot c (zVec fw1 fi1)) +
      r * crossTerm r1cs fi1.u fi2.u (zVec fw1 fi1) (zVec fw2 fi2) i +
      r * r * (dot a (zVec fw2 fi2) * dot b (zVec fw2 fi2) - fi2.u * dot c (zVec fw2 fi2)) := by
  obtain ⟨h1, h2, h3⟩ := zVec_fold r fw1 fw2 fi1 fi2 t comT hw hx
  simp only
  rw [dot_fold _ _ _ _ r h1 h2 h3, dot_fold _ _ _ _ r h1 h2 h3, dot_fold _ _ _ _ r h1 h2 h3, crossTerm]
  ring

/-- **C29**: if two pairs satisfy the R1CS, the pair folded with the computed cross term satisfies it
for every challenge `r`. -/
theorem C29_fold_satisfied (r1cs : R1CS F) (srs : Srs G1 G2) (r : F) (fw1 fw2 : FWitness F)
    (fi1 fi2 : FInstance F G1) (t : List F) (comT : G1)
    (h1 : isR1csSatisfied r1cs fi1 fw1 srs = some (.ok ()))
    (h2 : isR1csSatisfied r1cs fi2 fw2 srs = some (.ok ()))
    (ht : computeT r1cs fi1.u fi2.u (fw1.w ++ fi1.x ++ [fi1.u]) (fw2.w ++ fi2.x ++ [fi2.u]) = some t)
    (hT : commitVector srs t = some comT) :
    isR1csSatisfied r1cs (foldInstance r fi1 fi2 comT) (foldWitness r fw1 fw2 t) srs = some (.ok ()) := by
  rw [C27_satisfied_iff] at *
  obtain ⟨hv1, hi1, hs1, hw1, he1⟩ := h1
  obtain ⟨hv2, hi2, hs2, hw2, he2⟩ := h2
  obtain ⟨-, -, htl, htc⟩ := (computeT_iff _ _ _ _ _ _).1 ht
  have hw : fw1.w.length = fw2.w.length := by omega
  have hx : fi1.x.length = fi2.x.length := by omega
  have hA1 := hs1.lenA
  have hA2 := hs2.lenA
  have hB1 := hs1.lenB
  have hC1 := hs1.lenC
  obtain ⟨hcw, hce⟩ := C31_fold_commitments srs r fw1 fw2 t fi1 fi2 comT hw (by omega) (by omega)
    ((commitVector_iff _ _ _).2 hw1) ((commitVector_iff _ _ _).2 hw2) ((commitVector_iff _ _ _).2 he1)
    ((commitVector_iff _ _ _).2 he2) hT
  have hel : (foldWitness r fw1 fw2 t).e.length = fw1.e.length := by
    simp [foldWitness]; omega
  refine ⟨by simp [foldWitness]; omega, by simp [foldInstance]; omega,
    ⟨by omega, by omega, by omega, fun i hi => ?_⟩,
    (commitVector_iff _ _ _).1 hcw, (commitVector_iff _ _ _).1 hce⟩
  have hrow := row_fold r1cs r fw1 fw2 fi1 fi2 t comT hw hx i
  simp only at hrow
  have e1 := hs1.row i (by omega)
  have e2 := hs2.row i (by omega)
  have e3 := htc i (by omega)
  have e4 : (foldWitness r fw1 fw2 t).e.getD i 0 =
      fw1.e.getD i 0 + r * t.getD i 0 + r * r * fw2.e.getD i 0 := by
    rw [foldWitness, foldE_getD]
    intro j hj
    exact ⟨getD_eq_of_le (by omega), getD_eq_of_le (by omega), getD_eq_of_le (by omega)⟩
  rw [e4, e3]
  change dot _ (zVec _ _) * dot _ (zVec _ _) = (fi1.u + fi2.u * r) * dot _ (zVec _ _) + _
  change dot _ (zVec _ _) * dot _ (zVec _ _) = _ * dot _ (zVec _ _) + _ at e1 e2
  change _ = _ + r * crossTerm r1cs fi1.u fi2.u (zVec fw1 fi1) (zVec fw2 fi2) i + _ at hrow
  change _ = _ + (_ + r * crossTerm r1cs fi1.u fi2.u (zVec fw1 fi1) (zVec fw2 fi2) i + _)
  linear_combination hrow + e1 + r * r * e2

/-- **C29** (through the prover): whatever the transcript, a successful `NIFS::prover` on two satisfying
pairs returns a satisfying pair. -/
theorem C29_prover_satisfied (env : Env F G1 B) (r1cs : R1CS F) (srs : Srs G1 G2) (fw1 fw2 : FWitness F)
    (fi1 fi2 : FInstance F G1) (tr tr' : Transcript) (fw : FWitness F) (fi : FInstance F G1) (comT : G1)
    (r : F) (h1 : isR1csSatisfied r1cs fi1 fw1 srs = some (.ok ()))
    (h2 : isR1csSatisfied r1cs fi2 fw2 srs = some (.ok ()))
    (hp : nifsProver env r1cs fw1 fw2 fi1 fi2 srs tr = some ((fw, fi, comT, r), tr')) :
    isR1csSatisfied r1cs fi fw srs = some (.ok ()) := by
  simp only [nifsProver, Option.bind_eq_bind, Option.bind_eq_some_iff, pure, Option.some.injEq,
    Prod.mk.injEq] at hp
  obtain ⟨t, ht, cT, hT, ct, hct, ⟨rfl, rfl, rfl, rfl⟩, rfl⟩ := hp
  exact C29_fold_satisfied r1cs srs ct.1 fw1 fw2 fi1 fi2 t cT h1 h2 ht hT

/-! ## C30 -/

/-- **C30**: if folding fixed vectors with a fixed cross term satisfies the relation for three distinct
challenges, then both inputs satisfy it and the cross term is the one `compute_t` computes. -/
theorem C30_three_special_sound (r1cs : R1CS F) (fw1 fw2 : FWitness F) (fi1 fi2 : FInstance F G1)
    (t : List F) (comT : G1) (r1 r2 r3 : F) (h12 : r1 ≠ r2) (h13 : r1 ≠ r3) (h23 : r2 ≠ r3)
    (hw : fw1.w.length = fw2.w.length) (hx : fi1.x.length = fi2.x.length)
    (he1 : fw1.e.length = t.length) (he2 : fw2.e.length = t.length)
    (h : ∀ r ∈ [r1, r2, r3], RelaxedSat r1cs
      ((foldWitness r fw1 fw2 t).w ++ (foldInstance r fi1 fi2 comT).x ++ [(foldInstance r fi1 fi2 comT).u])
      (foldWitness r fw1 fw2 t).e (foldInstance r fi1 fi2 comT).u) :
    RelaxedSat r1cs (fw1.w ++ fi1.x ++ [fi1.u]) fw1.e fi1.u ∧
    RelaxedSat r1cs (fw2.w ++ fi2.x ++ [fi2.u]) fw2.e fi2.u ∧
    computeT r1cs fi1.u fi2.u (fw1.w ++ fi1.x ++ [fi1.u]) (fw2.w ++ fi2.x ++ [fi2.u]) = some t := by
  have hel : ∀ r, (foldWitness r fw1 fw2 t).e.length = t.length := by
    intro r; simp [foldWitness]; omega
  have hA := (h r1 (by simp)).lenA
  have hB := (h r1 (by simp)).lenB
  have hC := (h r1 (by simp)).lenC
  rw [hel] at hA hB hC
  have hrows : ∀ i < t.length,
      (dot (r1cs.matrixA.getD i []) (zVec fw1 fi1) * dot (r1cs.matrixB.getD i []) (zVec fw1 fi1) -
        fi1.u * dot (r1cs.matrixC.getD i []) (zVec fw1 fi1) - fw1.e.getD i 0 = 0) ∧
      (crossTerm r1cs fi1.u fi2.u (zVec fw1 fi1) (zVec fw2 fi2) i - t.getD i 0 = 0) ∧
      (dot (r1cs.matrixA.getD i []) (zVec fw2 fi2) * dot (r1cs.matrixB.getD i []) (zVec fw2 fi2) -
        fi2.u * dot (r1cs.matrixC.getD i []) (zVec fw2 fi2) - fw2.e.getD i 0 = 0) := by
    intro i hi
    have hq : ∀ r ∈ [r1, r2, r3],
        (dot (r1cs.matrixA.getD i []) (zVec fw1 fi1) * dot (r1cs.matrixB.getD i []) (zVec fw1 fi1) -
          fi1.u * dot (r1cs.matrixC.getD i []) (zVec fw1 fi1) - fw1.e.getD i 0) +
        r * (crossTerm r1cs fi1.u fi2.u (zVec fw1 fi1) (zVec fw2 fi2) i - t.getD i 0) +
        r * r * (dot (r1cs.matrixA.getD i []) (zVec fw2 fi2) * dot (r1cs.matrixB.getD i []) (zVec fw2 fi2) -
          fi2.u * dot (r1cs.matrixC.getD i []) (zVec fw2 fi2) - fw2.e.getD i 0) = 0 := by
      intro r hr
      have e := (h r hr).row i (by rw [hel]; exact hi)
      have hrow := row_fold r1cs r fw1 fw2 fi1 fi2 t comT hw hx i
      simp only at hrow
      have e4 : (foldWitness r fw1 fw2 t).e.getD i 0 =
          fw1.e.getD i 0 + r * t.getD i 0 + r * r * fw2.e.getD i 0 := by
        rw [foldWitness, foldE_getD]
        intro j hj
        exact ⟨getD_eq_of_le (by omega), getD_eq_of_le (by omega), getD_eq_of_le (by omega)⟩
      rw [e4] at e
      change dot _ (zVec _ _) * dot _ (zVec _ _) = (fi1.u + fi2.u * r) * dot _ (zVec _ _) + _ at e
      linear_combination e - hrow
    generalize dot (r1cs.matrixA.getD i []) (zVec fw1 fi1) * dot (r1cs.matrixB.getD i []) (zVec fw1 fi1) -
          fi1.u * dot (r1cs.matrixC.getD i []) (zVec fw1 fi1) - fw1.e.getD i 0 = a at hq ⊢
    generalize crossTerm r1cs fi1.u fi2.u (zVec fw1 fi1) (zVec fw2 fi2) i - t.getD i 0 = b at hq ⊢
    generalize dot (r1cs.matrixA.getD i []) (zVec fw2 fi2) * dot (r1cs.matrixB.getD i []) (zVec fw2 fi2) -
          fi2.u * dot (r1cs.matrixC.getD i []) (zVec fw2 fi2) - fw2.e.getD i 0 = c at hq ⊢
    have q1 := hq r1 (by simp)
    have q2 := hq r2 (by simp)
    have q3 := hq r3 (by simp)
    have d12 : b + (r1 + r2) * c = 0 := by
      have : (r1 - r2) * (b + (r1 + r2) * c) = 0 := by linear_combination q1 - q2
      exact (mul_eq_zero.1 this).resolve_left (sub_ne_zero.2 h12)
    have d13 : b + (r1 + r3) * c = 0 := by
      have : (r1 - r3) * (b + (r1 + r3) * c) = 0 := by linear_combination q1 - q3
      exact (mul_eq_zero.1 this).resolve_left (sub_ne_zero.2 h13)
    have hc : c = 0 := by
      have : (r2 - r3) * c = 0 := by linear_combination d12 - d13
      exact (mul_eq_zero.1 this).resolve_left (sub_ne_zero.2 h23)
    have hb : b = 0 := by linear_combination d12 - (r1 + r2) * hc
    exact ⟨by linear_combination q1 - r1 * hb - r1 * r1 * hc, hb, hc⟩
  refine ⟨⟨by omega, by omega, by omega, fun i hi => ?_⟩, ⟨by omega, by omega, by omega, fun i hi => ?_⟩, ?_⟩
  · have := (hrows i (by omega)).1
    change dot _ (zVec _ _) * dot _ (zVec _ _) = _ * dot _ (zVec _ _) + _
    linear_combination this
  · have := (hrows i (by omega)).2.2
    change dot _ (zVec _ _) * dot _ (zVec _ _) = _ * dot _ (zVec _ _) + _
    linear_combination this
  · rw [computeT_iff]
    refine ⟨by omega, by omega, by omega, fun i hi => ?_⟩
    have := (hrows i (by omega)).2.1
    change t.getD i 0 = crossTerm r1cs fi1.u fi2.u (zVec fw1 fi1) (zVec fw2 fi2) i
    linear_combination -this

/-! ## C36 -/

theorem dot_unit (row : List F) (n m : ℕ) :
    dot row (List.replicate n 0 ++ List.replicate m 0 ++ [1]) = row.getD (n + m) 0 := by
  unfold dot
  rw [List.length_append, List.length_append, List.length_replicate, List.length_replicate,
    List.length_singleton, Finset.sum_range_succ]
  have hz : ∀ j < n + m, (List.replicate n (0 : F) ++ List.replicate m 0 ++ [1]).getD j 0 = 0 := by
    intro j hj
    rw [← List.replicate_add, getD_lt (by simp; omega), List.getElem_append_left (by simpa using hj)]
    simp
  rw [Finset.sum_eq_zero fun j hj => by rw [hz j (Finset.mem_range.1 hj), mul_zero]]
  rw [← List.replicate_add, getD_lt (l := _ ++ [1]) (by simp), List.getElem_append_right (by simp)]
  simp

/-- **C36** (exact characterisation; partial because the property as stated fails): the trivial pair
satisfies an R1CS of matching shape exactly if in every row the entries of the last column (the one
multiplied by `u = 1`) satisfy `a · b = c`. -/
theorem C36_trivial_pair_partial (r1cs : R1CS F) (xLen wLen : ℕ) (srs : Srs G1 G2) (fw : FWitness F)
    (fi : FInstance F G1) (h : createTrivialPair xLen wLen srs = some (fw, fi))
    (hw : r1cs.numVars = wLen) (hx : r1cs.numIo = xLen) (hA : r1cs.matrixA.length = wLen)
    (hB : r1cs.matrixB.length = wLen) (hC : r1cs.matrixC.length = wLen) :
    isR1csSatisfied r1cs fi fw srs = some (.ok ()) ↔
      ∀ i < wLen, (r1cs.matrixA.getD i []).getD (wLen + xLen) 0 * (r1cs.matrixB.getD i []).getD (wLen + xLen) 0 =
        (r1cs.matrixC.getD i []).getD (wLen + xLen) 0 := by
  simp only [createTrivialPair, Option.bind_eq_bind, Option.bind_eq_some_iff, pure, Option.some.injEq,
    Prod.mk.injEq] at h
  obtain ⟨fi', hfi, rfl, rfl⟩ := h
  have := C28_fresh_iff r1cs (List.replicate wLen 0) (List.replicate xLen 0) wLen srs fi' hA hB hC
    (by simpa using hw) (by simpa using hx) hfi
  simp only [dot_unit] at this
  exact this

/-- **C36** (counterexample): for the repository's own example R1CS, the trivial pair of matching shape
never satisfies it (row four reads `5 · 1 = 0`), in every field where `5 ≠ 0`. -/
theorem C36_trivial_pair_fails (h5 : (5 : F) ≠ 0) (srs : Srs G1 G2) (fw : FWitness F)
    (fi : FInstance F G1) (h : createTrivialPair 1 4 srs = some (fw, fi)) :
    isR1csSatisfied testR1cs fi fw srs ≠ some (.ok ()) := by
  rw [Ne, C36_trivial_pair_partial testR1cs 1 4 srs fw fi h rfl rfl rfl rfl rfl]
  intro hall
  have := hall 3 (by norm_num)
  simp [testR1cs, toFMatrix] at this
  exact h5 this

/-- `create_trivial_pair` returns for every nonempty SRS, also a short one, as zeros are truncated. -/
theorem createTrivialPair_some (xLen wLen : ℕ) (srs : Srs G1 G2) (h0 : 0 < srs.g1Points.length) :
    createTrivialPair xLen wLen srs =
      some (⟨List.replicate wLen (0 : F), List.replicate wLen 0⟩, ⟨0, 1, 0, List.replicate xLen 0⟩) := by
  have hz : ∀ n, commitVector srs (List.replicate n (0 : F)) = some 0 := by
    intro n
    have hd : ∀ i, (List.replicate n (0 : F)).getD i 0 = 0 := by
      intro i
      by_cases h : i < n
      · rw [getD_lt (by simpa using h)]; simp
      · rw [getD_eq_of_le (by simpa using h)]
    rw [commitVector_iff]
    exact ⟨h0, fun i _ => hd i, by simp only [hd, zero_smul, Finset.sum_const_zero]⟩
  simp [createTrivialPair, FWitness.commit, FWitness.newTrivialWitness, hz]

/-! ## Non-vacuity: the example circuit of the repository -/

/-- **C28** (the repository's example): for every input, the witness and output computed by
`gen_test_values` form a satisfying fresh pair of the example R1CS. -/
theorem C28_example_circuit (input : ℕ) (srs : Srs G1 G2) (hlen : 4 ≤ srs.g1Points.length) :
    ∃ fi, (FWitness.new (testW input : List F) 4).commit srs (testX input) = some fi ∧
      isR1csSatisfied testR1cs fi (FWitness.new (testW input) 4) srs = some (.ok ()) := by
  have hc : ∀ v : List F, v.length = 4 → ∃ c, commitVector srs v = some c := fun v hv =>
    ⟨_, (commitVector_iff _ _ _).2 ⟨by omega, fun i hi => getD_eq_of_le (by omega), rfl⟩⟩
  obtain ⟨ce, hce⟩ := hc (List.replicate 4 0) (by simp)
  obtain ⟨cw, hcw⟩ := hc (testW input) (by simp [testW, toFVec])
  have hfi : (FWitness.new (testW input : List F) 4).commit srs (testX input) =
      some ⟨ce, 1, cw, testX input⟩ := by
    unfold FWitness.commit FWitness.new
    simp only [hce, hcw]
    rfl
  refine ⟨_, hfi, ?_⟩
  rw [C28_fresh_iff testR1cs (testW input) (testX input) 4 srs _ rfl rfl rfl rfl rfl hfi]
  intro i hi
  simp only [testW, testX, testR1cs, toFVec, toFMatrix, dot]
  interval_cases i <;> simp [Finset.sum_range_succ, add_comm]

/-- The hypotheses of `C29_fold_satisfied` and `C30_three_special_sound` are met by two different
satisfying pairs of the example circuit. -/
example :
    let srs := Srs.newFromSecret (trivialGroups ℚ) 7 4
    ∃ fi1 fi2 t comT, isR1csSatisfied testR1cs fi1 (FWitness.new (testW 3 : List ℚ) 4) srs = some (.ok ()) ∧
      isR1csSatisfied testR1cs fi2 (FWitness.new (testW 4 : List ℚ) 4) srs = some (.ok ()) ∧
      computeT testR1cs fi1.u fi2.u (testW 3 ++ fi1.x ++ [fi1.u]) (testW 4 ++ fi2.x ++ [fi2.u]) = some t ∧
      commitVector srs t = some comT := by
  intro srs
  have hlen : srs.g1Points.length = 7 := by simp [srs, Srs.newFromSecret, srsLoop]
  obtain ⟨fi1, -, h1⟩ := C28_example_circuit (F := ℚ) 3 srs (by omega)
  obtain ⟨fi2, -, h2⟩ := C28_example_circuit (F := ℚ) 4 srs (by omega)
  have ht : ∃ t, computeT testR1cs fi1.u fi2.u (testW 3 ++ fi1.x ++ [fi1.u])
      (testW 4 ++ fi2.x ++ [fi2.u]) = some t := by
    refine ⟨(List.range 4).map (crossTerm testR1cs fi1.u fi2.u (testW 3 ++ fi1.x ++ [fi1.u])
      (testW 4 ++ fi2.x ++ [fi2.u])), (computeT_iff _ _ _ _ _ _).2 ⟨by simp [testR1cs, toFMatrix], rfl, rfl, ?_⟩⟩
    intro i hi
    have hi' : i < 4 := by simpa [testR1cs, toFMatrix] using hi
    rw [getD_lt (by simpa using hi')]; simp
  obtain ⟨t, ht⟩ := ht
  have htl := ((computeT_iff _ _ _ _ _ _).1 ht).2.2.1
  have htl' : t.length = 4 := htl
  exact ⟨fi1, fi2, t, _, h1, h2, ht, (commitVector_iff _ _ _).2
    ⟨by omega, fun i hi => getD_eq_of_le (by omega), rfl⟩⟩

/-- The trivial pair satisfies some R1CS (first three rows of the example padded) and `create_trivial_pair`
returns: hypotheses of `C36_trivial_pair_partial` and `C36_trivial_pair_fails`. -/
example : ∃ (fw : FWitness ℚ) (fi : FInstance ℚ ℚ), createTrivialPair 1 4 (Srs.newFromSecret (trivialGroups ℚ) 7 4) = some (fw, fi) ∧
    (5 : ℚ) ≠ 0 :=
  ⟨_, _, createTrivialPair_some 1 4 _ (by simp [Srs.newFromSecret, srsLoop]), by norm_num⟩

end Verif.Nova

import Verif.Kzg.Model
import Mathlib.Algebra.BigOperators.Fin
import Mathlib.Algebra.Polynomial.FieldDivision

/-! # Helper lemmas about the KZG model -/

set_option linter.unusedSectionVars false

namespace Verif.Kzg

open Verif.Ark Polynomial

variable {F G1 G2 GT : Type} [Field F] [DecidableEq F] [AddCommGroup G1] [Module F G1]
  [AddCommGroup G2] [Module F G2] [AddCommGroup GT] [Module F GT] [DecidableEq GT]

/-- Scalar multiples of the generator determine the scalar. -/
theorem PairingGroups.smul_g1_inj (P : PairingGroups F G1 G2 GT) {a b : F}
    (h : a • P.g1 = b • P.g1) : a = b := by
  have h1 : P.e (a • P.g1) P.g2 = P.e (b • P.g1) P.g2 := by rw [h]
  simp only [map_smul, LinearMap.smul_apply] at h1
  have h2 : (a - b) • P.e P.g1 P.g2 = 0 := by rw [sub_smul, h1, sub_self]
  rcases smul_eq_zero.1 h2 with h3 | h3
  · exact sub_eq_zero.1 h3
  · exact absurd h3 P.nondeg

theorem PairingGroups.g1_ne_zero (P : PairingGroups F G1 G2 GT) : P.g1 ≠ 0 := by
  intro h; apply P.nondeg; rw [h]; simp

/-- Pairing with the G2 generator is injective on G1. -/
theorem PairingGroups.e_g2_inj (P : PairingGroups F G1 G2 GT) {A B : G1}
    (h : P.e A P.g2 = P.e B P.g2) : A = B := by
  obtain ⟨a, rfl⟩ := P.cyclic A
  obtain ⟨b, rfl⟩ := P.cyclic B
  simp only [map_smul, LinearMap.smul_apply] at h
  have h2 : (a - b) • P.e P.g1 P.g2 = 0 := by rw [sub_smul, h, sub_self]
  rcases smul_eq_zero.1 h2 with h3 | h3
  · rw [sub_eq_zero.1 h3]
  · exact absurd h3 P.nondeg

theorem PairingGroups.e_g2_iff (P : PairingGroups F G1 G2 GT) (A B : G1) :
    P.e A P.g2 = P.e B P.g2 ↔ A = B := ⟨P.e_g2_inj, fun h => by rw [h]⟩

theorem srsLoop_eq (P : PairingGroups F G1 G2 GT) (s : F) (k : ℕ) (cur : F) :
    srsLoop P s k cur = (List.range k).map fun i => (cur * s ^ i) • P.g1 := by
  induction k generalizing cur with
  | zero => rfl
  | succ k ih =>
    rw [srsLoop, ih, List.range_succ_eq_map]
    simp [pow_succ']
    intro a _
    congr 1
    ring

theorem srs_length (P : PairingGroups F G1 G2 GT) (s : F) (n : ℕ) :
    (Srs.newFromSecret P s n).g1Points.length = n + 3 := by
  simp [Srs.newFromSecret, srsLoop_eq]

theorem foldl_add_eq (l : List G1) (a : G1) : l.foldl (fun acc e => acc + e) a = a + l.sum := by
  induction l generalizing a with
  | nil => simp
  | cons b l ih => simp [ih, add_assoc]

theorem reduce?_getD (l : List G1) : (reduce? (fun acc e => acc + e) l).getD 0 = l.sum := by
  cases l with
  | nil => rfl
  | cons a l => simp [reduce?, foldl_add_eq]

theorem sum_zip_srsLoop (P : PairingGroups F G1 G2 GT) (s : F) (p : DP F) (k : ℕ) (cur : F) :
    (((p.zip (srsLoop P s k cur)).map fun cs => cs.1 • cs.2)).sum =
      (cur * eval (p.take k) s) • P.g1 := by
  induction p generalizing k cur with
  | nil => simp
  | cons a p ih =>
    cases k with
    | zero => simp [srsLoop]
    | succ k =>
      rw [srsLoop, List.zip_cons_cons, List.map_cons, List.sum_cons, ih, List.take_succ_cons,
        eval_cons, smul_smul, ← add_smul]
      congr 1; ring

theorem eval_take_of_natDegree_lt {p : DP F} {k : ℕ} (h : (toPoly p).natDegree < k) (s : F) :
    eval (p.take k) s = (toPoly p).eval s := by
  rw [eval_eq]
  congr 1
  ext n
  rw [coeff_toPoly, coeff_toPoly]
  by_cases hn : n < k
  · simp [List.getD, hn]
  · have : (toPoly p).coeff n = 0 := coeff_eq_zero_of_natDegree_lt (by omega)
    rw [coeff_toPoly] at this
    rw [this]; simp [List.getD, hn]

/-- Exact behaviour of `evaluate_in_s` on an honest SRS. -/
theorem evaluateInS_eq (P : PairingGroups F G1 G2 GT) (s : F) (n : ℕ) {p : DP F}
    (hp : CanonOrZero p) :
    evaluateInS (Srs.newFromSecret P s n) p =
      if (toPoly p).natDegree < n + 3 then some ((toPoly p).eval s • P.g1) else none := by
  rw [evaluateInS, degree?_canonOrZero hp]
  simp only [Option.bind_eq_bind, Option.bind_some, srs_length]
  split
  · next h =>
    rw [reduce?_getD]
    simp only [Srs.newFromSecret]
    rw [sum_zip_srsLoop, eval_take_of_natDegree_lt h, one_mul]; rfl
  · rfl

theorem evaluateInS_eq_none (srs : Srs G1 G2) {p : DP F} (hp : ¬ CanonOrZero p) :
    evaluateInS srs p = none := by
  rw [evaluateInS, (degree?_eq_none_iff p).2 hp]; rfl

theorem canonOrZero_subFirst {p q : DP F} (hp : Canon p) {y : F} (h : subFirst p y = some q) :
    CanonOrZero q := by
  cases p with
  | nil => simp [subFirst] at h
  | cons a l =>
    simp only [subFirst, Option.some.injEq] at h
    subst h
    cases l with
    | nil =>
      by_cases h : a - y = 0
      · right; simp [h]
      · left; simp [Canon, h]
    | cons b l => left; simpa [Canon, List.getLast?_cons_cons] using hp

theorem toPoly_subFirst {p q : DP F} {y : F} (h : subFirst p y = some q) :
    toPoly q = toPoly p - C y := by
  cases p with
  | nil => simp [subFirst] at h
  | cons a l =>
    simp only [subFirst, Option.some.injEq] at h
    subst h; simp; ring

theorem fromCoeffs_root (z : F) : fromCoeffs [-z, 1] = [-z, 1] := by
  simp [fromCoeffs, truncate]

theorem toPoly_root (z : F) : toPoly [-z, (1 : F)] = X - C z := by
  simp [toPoly]; ring

/-- `open` on a canonical non-zero polynomial: quotient by `X - z`. -/
theorem openAt_eq (P : PairingGroups F G1 G2 GT) (s : F) (n : ℕ) {p : DP F} (hp : Canon p)
    (hne : toPoly p ≠ 0) (z : F) :
    openAt (Srs.newFromSecret P s n) p z =
      if (toPoly p).natDegree < n + 4 then
        some ⟨((toPoly p /ₘ (X - C z)).eval s) • P.g1, (toPoly p).eval z⟩
      else none := by
  have hpn : p ≠ [] := by rintro rfl; simp at hne
  obtain ⟨a, l, rfl⟩ := List.exists_cons_of_ne_nil hpn
  obtain ⟨q, hq⟩ : ∃ q, subFirst (a :: l) (eval (a :: l) z) = some q := ⟨_, rfl⟩
  have hcq := canonOrZero_subFirst hp hq
  have htq := toPoly_subFirst hq
  rw [openAt]
  simp only [hq, Option.bind_eq_bind, Option.bind_some, fromCoeffs_root]
  obtain ⟨qq, r, hdiv, hqq, -, hqqc, -⟩ := divideWithQAndR_monic (d := [-z, (1 : F)])
    (by simp [Canon]) (by simp) (by rw [toPoly_root]; exact monic_X_sub_C z) hcq
  rw [hdiv, toPoly_root, htq] at *
  have hquot : toPoly qq = toPoly (a :: l) /ₘ (X - C z) := by
    rw [hqq, eval_eq, ← modByMonic_X_sub_C_eq_C_eval, ← X_sub_C_mul_divByMonic_eq_sub_modByMonic,
      mul_divByMonic_cancel_left _ (monic_X_sub_C z)]
  simp only [Option.bind_some]
  rw [evaluateInS_eq P s n hqqc.orZero, hquot]
  have hdeg : (toPoly (a :: l) /ₘ (X - C z)).natDegree < n + 3 ↔
      (toPoly (a :: l)).natDegree < n + 4 := by
    rw [natDegree_divByMonic _ (monic_X_sub_C z), natDegree_X_sub_C]; omega
  by_cases h : (toPoly (a :: l)).natDegree < n + 4
  · rw [if_pos h, if_pos (hdeg.2 h), eval_eq]; rfl
  · rw [if_neg h, if_neg (fun h' => h (hdeg.1 h'))]; rfl

theorem openAt_nil (srs : Srs G1 G2) (z : F) : openAt srs ([] : DP F) z = none := rfl

/-- `verify` decides the KZG equation. -/
theorem verify_iff (P : PairingGroups F G1 G2 GT) (s : F) (n : ℕ) (c : G1) (o : Opening F G1)
    (z : F) :
    verify P (Srs.newFromSecret P s n) c o z = true ↔
      (s - z) • o.witness = c - o.eval • P.g1 := by
  unfold verify Srs.newFromSecret
  simp only [decide_eq_true_eq]
  rw [← sub_smul, map_smul, ← LinearMap.smul_apply, ← map_smul]
  exact ⟨fun h => P.e_g2_inj h, fun h => by rw [h]⟩

theorem aggregateLoop_eq (v : F) (l : List G1) (pow : F) (res : G1) :
    aggregateLoop v l pow res = res + pow • ∑ i : Fin l.length, v ^ (i : ℕ) • l[i] := by
  induction l generalizing pow res with
  | nil => simp [aggregateLoop]
  | cons c cs ih =>
    rw [aggregateLoop, ih]
    simp only [List.length_cons]
    rw [Fin.sum_univ_succ]
    simp only [Fin.val_zero, pow_zero, one_smul, Fin.val_succ, pow_succ', mul_smul, smul_add,
      ← Finset.smul_sum]
    simp [add_assoc]

/-- The pair of accumulators of `batch_verify` in closed form. -/
theorem batchLoop_eq (P : PairingGroups F G1 G2 GT) (rng : ℕ → ℕ)
    (l : List ((G1 × F) × Opening F G1)) (i : ℕ) (e1 e2 : G1) :
    batchLoop P rng l i e1 e2 =
      (e1 + ∑ k : Fin l.length, (rng (i + k) : F) •
          (l[k].1.1 - l[k].2.eval • P.g1 + l[k].1.2 • l[k].2.witness),
       e2 + ∑ k : Fin l.length, (rng (i + k) : F) • l[k].2.witness) := by
  induction l generalizing i e1 e2 with
  | nil => simp [batchLoop]
  | cons c cs ih =>
    obtain ⟨⟨cm, z⟩, o⟩ := c
    rw [batchLoop, ih]
    simp only [List.length_cons]
    rw [Fin.sum_univ_succ, Fin.sum_univ_succ]
    have hi : ∀ k : ℕ, i + 1 + k = i + (k + 1) := fun k => by omega
    simp [add_assoc, hi]

end Verif.Kzg

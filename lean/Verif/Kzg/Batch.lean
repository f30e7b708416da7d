import Verif.Kzg.AlgSoundness
import Mathlib.LinearAlgebra.Lagrange
import Mathlib.Data.Fintype.BigOperators

/-!
# C114, C115: openings of aggregated commitments and batches with predictable coefficients
-/

set_option linter.unusedSectionVars false
set_option linter.constructorNameAsVariable false

namespace Verif.Kzg

open Verif.Ark Polynomial

variable {F G1 G2 GT : Type} [Field F] [DecidableEq F] [AddCommGroup G1] [Module F G1]
  [AddCommGroup G2] [Module F G2] [AddCommGroup GT] [Module F GT] [DecidableEq GT]

/-! ## C114 -/

/-- **C114** (complete): openings of the single commitments at one point, combined with the powers of the challenge, open the
aggregated commitment. -/
theorem C114_aggregate_complete (P : PairingGroups F G1 G2 GT) (s : F) (n : ℕ) (cs : List G1) (z v : F)
    (W : Fin cs.length → G1) (y : Fin cs.length → F)
    (h : ∀ i, verify P (Srs.newFromSecret P s n) cs[i] ⟨W i, y i⟩ z = true) :
    verify P (Srs.newFromSecret P s n) (aggregateCommitments cs v)
      ⟨∑ i : Fin cs.length, v ^ (i : ℕ) • W i, ∑ i : Fin cs.length, v ^ (i : ℕ) * y i⟩ z = true := by
  rw [C05_verify_iff, C08_aggregate, Finset.smul_sum, Finset.sum_smul, ← Finset.sum_sub_distrib]
  refine Finset.sum_congr rfl fun i _ => ?_
  have := (C05_verify_iff P s n _ _ _ _).1 (h i)
  rw [smul_comm, this, smul_sub, mul_smul]

/-- Coefficients of the Lagrange polynomials recover the summands of a power sum. -/
theorem lagrange_recover {k : ℕ} (v : Fin k → F) (hv : Function.Injective v) (i m : Fin k) :
    ∑ j, (Lagrange.basis Finset.univ v j).coeff i * v j ^ (m : ℕ) = if i = m then 1 else 0 := by
  have e : (X ^ (m : ℕ) : F[X]) = Lagrange.interpolate Finset.univ v fun j => v j ^ (m : ℕ) := by
    refine Lagrange.eq_interpolate_of_eval_eq _ (hv.injOn) ?_ fun j _ => by simp
    rw [degree_X_pow, Finset.card_univ, Fintype.card_fin]
    exact_mod_cast m.2
  have c := congrArg (fun p => p.coeff i) e
  simp only [coeff_X_pow, Lagrange.interpolate_apply, finsetSum_coeff, coeff_C_mul] at c
  rw [Finset.sum_congr rfl fun j _ => mul_comm _ _, ← c]
  by_cases h : i = m
  · simp [h]
  · rw [if_neg h, if_neg fun h' => h (Fin.ext h')]

/-- **C114** (sound): there are coefficients, depending on the challenges only, by which anyone recovers from openings of an
aggregated commitment, for as many different challenges as there are commitments, accepted openings of every single commitment
to the claimed value. -/
theorem C114_aggregate_extract {k : ℕ} (v : Fin k → F) (hv : Function.Injective v) :
    ∃ l : Fin k → Fin k → F, ∀ (P : PairingGroups F G1 G2 GT) (s : F) (n : ℕ) (cs : List G1) (hk : cs.length = k) (z : F)
      (y : Fin k → F) (W : Fin k → G1),
      (∀ j, verify P (Srs.newFromSecret P s n) (aggregateCommitments cs (v j)) ⟨W j, ∑ i : Fin k, v j ^ (i : ℕ) * y i⟩ z = true) →
      ∀ i : Fin k, verify P (Srs.newFromSecret P s n) (cs[i]'(by rw [hk]; exact i.2)) ⟨∑ j, l i j • W j, y i⟩ z = true := by
  refine ⟨fun i j => (Lagrange.basis Finset.univ v j).coeff i, ?_⟩
  rintro P s n cs rfl z y W h i
  have rec2 : ∀ (M : Type) [AddCommGroup M] [Module F M] (a : Fin cs.length → M),
      ∑ j, (Lagrange.basis Finset.univ v j).coeff i • ∑ m : Fin cs.length, v j ^ (m : ℕ) • a m = a i := by
    intro M _ _ a
    simp only [Finset.smul_sum, smul_smul]
    rw [Finset.sum_comm]
    have : ∀ m : Fin cs.length, ∑ j, ((Lagrange.basis Finset.univ v j).coeff i * v j ^ (m : ℕ)) • a m = if i = m then a m else 0 := by
      intro m
      rw [← Finset.sum_smul, lagrange_recover v hv i m]
      split <;> simp
    rw [Finset.sum_congr rfl fun m _ => this m, Finset.sum_ite_eq]
    simp
  rw [C05_verify_iff, Finset.smul_sum]
  have e1 := rec2 G1 (fun m => cs[m])
  have e2 := rec2 G1 (fun m => y m • P.g1)
  show _ = cs[i] - y i • P.g1
  rw [← e1, ← e2, ← Finset.sum_sub_distrib]
  refine Finset.sum_congr rfl fun j _ => ?_
  have := (C05_verify_iff P s n _ _ _ _).1 (h j)
  rw [smul_comm, this, C08_aggregate, Finset.sum_smul, smul_sub]
  congr 2
  exact Finset.sum_congr rfl fun m _ => by rw [mul_smul]

/-- **C114** (algebraic provers): if one of the claimed values is wrong, the aggregated claim is true for at most as many
challenges as there are commitments, less one. -/
theorem C114_aggregate_few_challenges (ps : List (DP F)) (z : F) (y : Fin ps.length → F) (i : Fin ps.length)
    (hi : y i ≠ (toPoly ps[i]).eval z) :
    ∃ S : Finset F, S.card ≤ ps.length - 1 ∧ ∀ v : F,
      (∑ i : Fin ps.length, C (v ^ (i : ℕ)) * toPoly ps[i]).eval z = ∑ i : Fin ps.length, v ^ (i : ℕ) * y i → v ∈ S := by
  let E : F[X] := ∑ i : Fin ps.length, C ((toPoly ps[i]).eval z - y i) * X ^ (i : ℕ)
  have hc : E.coeff i = (toPoly ps[i]).eval z - y i := by
    simp only [E, finsetSum_coeff, coeff_C_mul, coeff_X_pow]
    rw [Finset.sum_eq_single i]
    · simp
    · intro b _ hb
      rw [if_neg fun h => hb (Fin.ext h.symm), mul_zero]
    · simp
  have hE : E ≠ 0 := by
    intro h
    rw [h, coeff_zero] at hc
    exact hi (sub_eq_zero.1 hc.symm).symm
  have hd : E.natDegree ≤ ps.length - 1 := by
    refine natDegree_sum_le_of_forall_le _ _ fun j _ => ?_
    refine (natDegree_C_mul_X_pow_le _ _).trans ?_
    have := j.2
    omega
  refine ⟨E.roots.toFinset, (Multiset.toFinset_card_le _).trans ((card_roots' _).trans hd), fun v h => ?_⟩
  rw [Multiset.mem_toFinset, mem_roots hE, IsRoot.def]
  simp only [E, eval_finsetSum, eval_mul, eval_C, eval_pow, eval_X] at h ⊢
  rw [← sub_eq_zero, ← Finset.sum_sub_distrib] at h
  rw [← h]
  exact Finset.sum_congr rfl fun j _ => by ring

/-- **C114** (tight): for fewer challenges than commitments there are wrong values, whatever the polynomials, for which the
claims about the aggregated polynomials are all true. -/
theorem C114_aggregate_tight (ps : List (DP F)) (z : F) (S : Finset F) (hS : S.card < ps.length) :
    ∃ y : Fin ps.length → F, (∃ i, y i ≠ (toPoly ps[i]).eval z) ∧ ∀ v ∈ S,
      (∑ i : Fin ps.length, C (v ^ (i : ℕ)) * toPoly ps[i]).eval z = ∑ i : Fin ps.length, v ^ (i : ℕ) * y i := by
  let M : F[X] := ∏ a ∈ S, (X - C a)
  have hM : M.Monic := monic_prod_of_monic _ _ fun a _ => monic_X_sub_C a
  have hMd : M.natDegree = S.card := by
    rw [natDegree_prod_of_monic _ _ fun a _ => monic_X_sub_C a]; simp
  refine ⟨fun i => (toPoly ps[i]).eval z - M.coeff i, ⟨⟨S.card, hS⟩, ?_⟩, fun v hv => ?_⟩
  · have h1 : M.coeff S.card = 1 := by rw [← hMd, hM.coeff_natDegree]
    simp [h1]
  · have h0 : M.eval v = 0 := by
      rw [eval_prod]
      exact Finset.prod_eq_zero hv (by simp)
    rw [eval_eq_sum_range' (n := ps.length) (by omega), Finset.sum_range] at h0
    simp only [eval_finsetSum, eval_mul, eval_C]
    rw [← sub_eq_zero, ← Finset.sum_sub_distrib, ← h0]
    exact Finset.sum_congr rfl fun j _ => by ring

/-- **C114** (tight, run on the code): for fewer challenges than commitments there are values, at least one of them wrong,
such that for all these challenges a prover who does not know the secret makes `verify` accept the aggregated commitment opened
to the aggregated values, whatever the secret. (By `C77_aggregate` this is possible for less challenges than commitments only.) -/
theorem C114_aggregate_tight_accepted (P : PairingGroups F G1 G2 GT) (n : ℕ) (ps : List (List F))
    (hps : ∀ p ∈ ps, p.length ≤ n + 3) (z : F) (S : Finset F) (hS : S.card < ps.length) :
    ∃ y : Fin ps.length → F, (∃ i, y i ≠ Ark.eval ps[i] z) ∧ ∀ v ∈ S, ∃ w : List F, w.length ≤ n + 3 ∧ ∀ s : F,
      verify P (Srs.newFromSecret P s n) (aggregateCommitments (ps.map (combine (Srs.newFromSecret P s n))) v)
        ⟨combine (Srs.newFromSecret P s n) w, ∑ i : Fin ps.length, v ^ (i : ℕ) * y i⟩ z = true := by
  obtain ⟨y, ⟨i, hi⟩, hy⟩ := C114_aggregate_tight ps z S hS
  refine ⟨y, ⟨i, by rw [eval_eq]; exact hi⟩, fun v hv => ?_⟩
  let Q : F[X] := ∑ i : Fin ps.length, C (v ^ (i : ℕ)) * toPoly ps[i]
  let W : F[X] := Q /ₘ (X - C z)
  have hQd : Q.natDegree ≤ n + 2 := by
    refine natDegree_sum_le_of_forall_le _ _ fun i _ => ?_
    refine natDegree_mul_le.trans ?_
    rw [natDegree_C, zero_add]
    exact natDegree_toPoly_lt _ _ (hps _ (List.getElem_mem _))
  have hWd : W.natDegree ≤ n + 2 := (natDegree_divByMonic _ (monic_X_sub_C z)).le.trans ((Nat.sub_le _ _).trans hQd)
  have hW : toPoly ((List.range (n + 3)).map W.coeff) = W := by
    ext j
    rw [coeff_toPoly, List.getD_eq_getElem?_getD]
    by_cases hj : j < n + 3
    · simp [List.getElem?_map, List.getElem?_range hj]
    · rw [List.getElem?_eq_none (by simpa using hj)]
      exact (coeff_eq_zero_of_natDegree_lt (by omega)).symm
  refine ⟨(List.range (n + 3)).map W.coeff, by simp, fun s => ?_⟩
  have hQs : aggregateCommitments (ps.map (combine (Srs.newFromSecret P s n))) v = Q.eval s • P.g1 := by
    rw [C08_aggregate, eval_finsetSum, Finset.sum_smul]
    refine Finset.sum_equiv (finCongr (by simp)) (by simp) fun i _ => ?_
    simp only [Fin.getElem_fin, List.getElem_map, finCongr_apply, Fin.val_cast, eval_mul, eval_C]
    rw [combine_eq P s n _ (hps _ (List.getElem_mem _)), smul_smul]
  have e := congrArg (eval s) (modByMonic_add_div Q (X - C z))
  rw [modByMonic_X_sub_C_eq_C_eval] at e
  simp only [eval_add, eval_C, eval_mul, eval_sub, eval_X] at e
  rw [verify_iff]
  dsimp only
  rw [combine_eq P s n _ (by simp), hW, hQs, ← hy v hv, smul_smul, ← sub_smul, ← e]
  congr 1
  ring

/-- Non-vacuity: two polynomials within the setup and one challenge. -/
example : ({2} : Finset ℚ).card < [[1, 2], [(3 : ℚ)]].length ∧ ∀ p ∈ [[1, 2], [(3 : ℚ)]], p.length ≤ 2 + 3 := by
  simp

/-- Non-vacuity: two commitments under the secret 5, aggregated with the challenges 2 and 3. -/
example : (∀ j : Fin 2, verify (trivialGroups ℚ) (Srs.newFromSecret (trivialGroups ℚ) 5 2)
      (aggregateCommitments [(11 : ℚ), 7] ((![2, 3] : Fin 2 → ℚ) j))
      ⟨(![4, 5] : Fin 2 → ℚ) j, ∑ i : Fin 2, (![2, 3] : Fin 2 → ℚ) j ^ (i : ℕ) * (![7, 5] : Fin 2 → ℚ) i⟩ 3 = true) ∧
    Function.Injective (![2, 3] : Fin 2 → ℚ) := by
  refine ⟨?_, ?_⟩
  · intro j
    rw [C05_verify_iff]
    fin_cases j <;> simp [Fin.sum_univ_two, aggregateCommitments, aggregateLoop, trivialGroups] <;> norm_num
  · intro a b
    fin_cases a <;> fin_cases b <;> simp

/-! ## C115 -/

/-- **C115** is false of the code: whoever knows two of the coefficients the generator will yield (both non-zero, as all but one
in `2 ^ 128` are) turns any batch of valid openings into one that is accepted although two of its openings are invalid. -/
theorem C115_predictable_coefficients (P : PairingGroups F G1 G2 GT) (s : F) (n : ℕ) (cs : List G1) (zs : List F)
    (os : List (Opening F G1)) (rng : ℕ → ℕ) (h1 : cs.length = zs.length) (h2 : os.length = zs.length)
    (h : ∀ k : Fin zs.length, verify P (Srs.newFromSecret P s n) cs[k] os[k] zs[k] = true)
    (i j : Fin zs.length) (hij : i ≠ j) (hi : (rng i : F) ≠ 0) (hj : (rng j : F) ≠ 0) (d : F) (hd : d ≠ 0) :
    ∃ os' : List (Opening F G1), ∃ h2' : os'.length = zs.length,
      batchVerify P (Srs.newFromSecret P s n) cs zs os' rng = some true ∧
      verify P (Srs.newFromSecret P s n) cs[i] os'[i] zs[i] = false ∧
      verify P (Srs.newFromSecret P s n) cs[j] os'[j] zs[j] = false ∧
      (∀ k : Fin zs.length, os'[k].witness = os[k].witness) ∧ os'[i].eval = os[i].eval + d / rng i := by
  let D : Fin zs.length → F := fun k => if k = i then d / rng i else if k = j then - d / rng j else 0
  let os' : List (Opening F G1) := List.ofFn fun k : Fin zs.length => ⟨os[k].witness, os[k].eval + D k⟩
  have h2' : os'.length = zs.length := by simp [os']
  have g : ∀ k : Fin zs.length, os'[k] = ⟨os[k].witness, os[k].eval + D k⟩ := by
    intro k
    simp [os']
  have T : ∀ k : Fin zs.length, cs[k] - os'[k].eval • P.g1 - (s - zs[k]) • os'[k].witness = - (D k • P.g1) := by
    intro k
    have := (verify_iff P s n _ _ _).1 (h k)
    rw [g k]
    dsimp only
    rw [this, add_smul]
    abel
  have bad : ∀ k : Fin zs.length, D k ≠ 0 → verify P (Srs.newFromSecret P s n) cs[k] os'[k] zs[k] = false := by
    intro k hk
    rw [← Bool.not_eq_true, verify_iff]
    intro hv
    have t := T k
    rw [hv, sub_self, eq_comm, neg_eq_zero] at t
    exact hk (P.smul_g1_inj (by rw [t, zero_smul]))
  have Di : D i = d / rng i := by simp [D]
  have Dj : D j = - d / rng j := by simp [D, hij.symm]
  refine ⟨os', h2', ?_, bad i ?_, bad j ?_, fun k => by rw [g k], by rw [g i, ← Di]⟩
  · rw [batchVerify_iff P s n cs zs os' rng h1 h2']
    rw [Finset.sum_congr rfl fun k _ => by rw [T k]]
    rw [← Finset.add_sum_erase _ _ (Finset.mem_univ i), ← Finset.add_sum_erase _ _
      (Finset.mem_erase.2 ⟨hij.symm, Finset.mem_univ j⟩), Finset.sum_eq_zero, add_zero, Di, Dj]
    · rw [smul_neg, smul_neg, smul_smul, smul_smul, mul_div_cancel₀ _ hi, mul_div_cancel₀ _ hj, neg_smul]
      abel
    · intro k hk
      have hk' := Finset.mem_erase.1 hk
      have hk'' := Finset.mem_erase.1 hk'.2
      have : D k = 0 := by simp [D, hk'.1, hk''.1]
      rw [this, zero_smul, neg_zero, smul_zero]
  · rw [Di]; exact div_ne_zero hd hi
  · rw [Dj]; exact div_ne_zero (neg_ne_zero.2 hd) hj

/-- **C115** (one invalid opening): a batch with exactly one invalid opening is accepted exactly if the coefficient of that
opening is zero. -/
theorem C115_single_partial (P : PairingGroups F G1 G2 GT) (s : F) (n : ℕ) (cs : List G1) (zs : List F)
    (os : List (Opening F G1)) (rng : ℕ → ℕ) (h1 : cs.length = zs.length) (h2 : os.length = zs.length) (i : Fin zs.length)
    (h : ∀ k : Fin zs.length, k ≠ i → verify P (Srs.newFromSecret P s n) cs[k] os[k] zs[k] = true)
    (hi : verify P (Srs.newFromSecret P s n) cs[i] os[i] zs[i] = false) :
    batchVerify P (Srs.newFromSecret P s n) cs zs os rng = some true ↔ (rng i : F) = 0 := by
  rw [batchVerify_iff P s n cs zs os rng h1 h2, Finset.sum_eq_single i]
  · rw [← Bool.not_eq_true, verify_iff, eq_comm, ← sub_eq_zero] at hi
    exact smul_eq_zero_iff_left hi
  · intro k _ hk
    have := (verify_iff P s n _ _ _).1 (h k hk)
    rw [← this, sub_self, smul_zero]
  · simp

/-- At most one in `N` of the coefficient vectors with entries below `N` accepts a batch with an invalid opening. -/
theorem batch_count {G1 G2 GT : Type} [AddCommGroup G1] [Module BlsFr G1]
    [AddCommGroup G2] [Module BlsFr G2] [AddCommGroup GT] [Module BlsFr GT] [DecidableEq GT]
    (P : PairingGroups BlsFr G1 G2 GT) (s : BlsFr) (n : ℕ) (cs : List G1)
    (zs : List BlsFr) (os : List (Opening BlsFr G1)) (h1 : cs.length = zs.length)
    (h2 : os.length = zs.length) (i : Fin zs.length)
    (hbad : verify P (Srs.newFromSecret P s n) cs[i] os[i] zs[i] = false) (N : ℕ) (hN : N ≤ 2 ^ 128) :
    (Finset.univ.filter fun r : Fin zs.length → Fin N =>
      batchVerify P (Srs.newFromSecret P s n) cs zs os
        (fun t => if h : t < zs.length then (r ⟨t, h⟩ : ℕ) else 0) = some true).card * N ≤ N ^ zs.length := by
  set A := Finset.univ.filter fun r : Fin zs.length → Fin N =>
      batchVerify P (Srs.newFromSecret P s n) cs zs os
        (fun t => if h : t < zs.length then (r ⟨t, h⟩ : ℕ) else 0) = some true with hA
  have hc : A.card ≤ Fintype.card ({j : Fin zs.length // j ≠ i} → Fin N) := by
    rw [← Finset.card_univ]
    refine Finset.card_le_card_of_injOn (fun r j => r j) (fun _ _ => Finset.mem_coe.2 (Finset.mem_univ _)) ?_
    intro r hr r' hr' he
    have ha := (Finset.mem_filter_univ _).1 (Finset.mem_coe.1 hr)
    have ha' := (Finset.mem_filter_univ _).1 (Finset.mem_coe.1 hr')
    have hb : ∀ (r : Fin zs.length → Fin N) (t : ℕ), (if h : t < zs.length then (r ⟨t, h⟩ : ℕ) else 0) < 2 ^ 128 := by
      intro r t
      split
      · exact (r _).2.trans_le hN
      · positivity
    have := C10_batch_sound_bls P s n cs zs os h1 h2 i hbad _ _ ?_ (hb r) (hb r') ha ha'
    · funext j
      have := congrFun this j
      rw [dif_pos j.2, dif_pos j.2] at this
      exact Fin.ext this
    · intro t ht
      split
      · rename_i h
        have := congrFun he ⟨⟨t, h⟩, fun h' => ht (congrArg Fin.val h')⟩
        dsimp only at this
        rw [this]
      · rfl
  rw [Fintype.card_fun, Fintype.card_fin, Fintype.card_subtype_compl, Fintype.card_fin, Fintype.card_subtype_eq] at hc
  refine (Nat.mul_le_mul_right N hc).trans (le_of_eq ?_)
  rw [← pow_succ]
  have := i.2
  congr 1
  omega

/-- **C115** (fresh coefficients): over the field of the code, of all vectors of `u128` coefficients at most one in `2 ^ 128`
accepts a batch that contains an invalid opening, whatever the batch. -/
theorem C115_fresh_coefficients_partial {G1 G2 GT : Type} [AddCommGroup G1] [Module BlsFr G1]
    [AddCommGroup G2] [Module BlsFr G2] [AddCommGroup GT] [Module BlsFr GT] [DecidableEq GT]
    (P : PairingGroups BlsFr G1 G2 GT) (s : BlsFr) (n : ℕ) (cs : List G1)
    (zs : List BlsFr) (os : List (Opening BlsFr G1)) (h1 : cs.length = zs.length)
    (h2 : os.length = zs.length) (i : Fin zs.length)
    (hbad : verify P (Srs.newFromSecret P s n) cs[i] os[i] zs[i] = false) :
    (Finset.univ.filter fun r : Fin zs.length → Fin (2 ^ 128) =>
      batchVerify P (Srs.newFromSecret P s n) cs zs os
        (fun t => if h : t < zs.length then (r ⟨t, h⟩ : ℕ) else 0) = some true).card * 2 ^ 128 ≤ (2 ^ 128) ^ zs.length :=
  batch_count P s n cs zs os h1 h2 i hbad (2 ^ 128) le_rfl

/-- Non-vacuity: under the secret 5, a batch of two valid openings, and one with exactly one invalid opening. -/
example : (∀ k : Fin 2, verify (trivialGroups ℚ) (Srs.newFromSecret (trivialGroups ℚ) 5 2)
      ([(11 : ℚ), 7] : List ℚ)[k] ([⟨2, 7⟩, ⟨1, 5⟩] : List (Opening ℚ ℚ))[k] ([3, 3] : List ℚ)[k] = true) ∧
    verify (trivialGroups ℚ) (Srs.newFromSecret (trivialGroups ℚ) 5 2) (11 : ℚ) ⟨2, 8⟩ 3 = false := by
  refine ⟨?_, ?_⟩
  · intro k
    rw [verify_iff]
    fin_cases k <;> simp [trivialGroups] <;> norm_num
  · rw [← Bool.not_eq_true, verify_iff]
    simp [trivialGroups]
    norm_num

end Verif.Kzg

import Verif.Kzg.Props

/-!
# C77: KZG openings by algebraic provers

An algebraic prover computes every group element as a linear combination, with coefficients of its choice, of
the G1 points of the SRS.  It does not know the secret: its coefficients do not depend on it.
-/

set_option linter.unusedSectionVars false
set_option linter.unusedVariables false

namespace Verif.Kzg

open Verif.Ark Polynomial

variable {F G1 G2 GT : Type} [Field F] [DecidableEq F] [AddCommGroup G1] [Module F G1]
  [AddCommGroup G2] [Module F G2] [AddCommGroup GT] [Module F GT] [DecidableEq GT]

/-! ## Specification -/

/-- The linear combination of the SRS points with the given coefficients. -/
def combine (srs : Srs G1 G2) (coeffs : List F) : G1 := ((coeffs.zip srs.g1Points).map fun x => x.1 • x.2).sum

/-- The event depends on the secret, and at most `k` secrets satisfy it. -/
def FewSecrets (k : ℕ) (E : F → Prop) : Prop := ∃ S : Finset F, S.card ≤ k ∧ ∀ s, E s → s ∈ S

/-! ## Proofs -/

theorem combine_eq (P : PairingGroups F G1 G2 GT) (s : F) (n : ℕ) (p : List F) (hp : p.length ≤ n + 3) :
    combine (Srs.newFromSecret P s n) p = (toPoly p).eval s • P.g1 := by
  unfold combine Srs.newFromSecret
  rw [sum_zip_srsLoop, one_mul, List.take_of_length_le hp, eval_eq]

theorem natDegree_toPoly_lt (p : List F) (m : ℕ) (hp : p.length ≤ m + 1) : (toPoly p).natDegree ≤ m := by
  rw [natDegree_le_iff_coeff_eq_zero]
  intro j hj
  rw [coeff_toPoly, List.getD_eq_getElem?_getD, List.getElem?_eq_none (by omega)]; rfl

theorem fewSecrets_of_poly {k : ℕ} {E : F → Prop} (Q : F[X]) (h0 : Q ≠ 0) (hd : Q.natDegree ≤ k)
    (h : ∀ s, E s → Q.eval s = 0) : FewSecrets k E :=
  ⟨Q.roots.toFinset, (Multiset.toFinset_card_le _).trans ((card_roots' Q).trans hd), fun s hs => by
    rw [Multiset.mem_toFinset, mem_roots h0]; exact h s hs⟩

/-- The polynomial that vanishes at the secret iff the opening verifies. -/
noncomputable def openPoly (p w : List F) (y z : F) : F[X] := toPoly p - C y - (X - C z) * toPoly w

theorem openPoly_eval (p w : List F) (y z : F) : (openPoly p w y z).eval z = Ark.eval p z - y := by
  simp [openPoly, eval_eq]

theorem openPoly_ne_zero (p w : List F) (y z : F) (h : Ark.eval p z ≠ y) : openPoly p w y z ≠ 0 := by
  intro h0
  have := openPoly_eval p w y z
  rw [h0, eval_zero] at this
  exact h (sub_eq_zero.1 this.symm)

theorem openPoly_natDegree (p w : List F) (y z : F) (n : ℕ) (hp : p.length ≤ n + 3) (hw : w.length ≤ n + 3) :
    (openPoly p w y z).natDegree ≤ n + 3 := by
  unfold openPoly
  refine (natDegree_sub_le _ _).trans (max_le ((natDegree_sub_le _ _).trans (max_le ?_ ?_)) ?_)
  · exact (natDegree_toPoly_lt p (n + 2) (by omega)).trans (by omega)
  · simp
  · refine natDegree_mul_le.trans ?_
    have h1 := natDegree_toPoly_lt w (n + 2) (by omega)
    have h2 : (X - C z : F[X]).natDegree ≤ 1 := natDegree_X_sub_C_le z
    omega

/-- **C77** (single opening): if the committed coefficients do not evaluate to the claimed value, then whatever
witness the prover combines, `verify` accepts for at most `n + 3` secrets. -/
theorem C77_opening (P : PairingGroups F G1 G2 GT) (n : ℕ) (p w : List F) (hp : p.length ≤ n + 3)
    (hw : w.length ≤ n + 3) (y z : F) (hy : Ark.eval p z ≠ y) :
    FewSecrets (n + 3) fun s : F => verify P (Srs.newFromSecret P s n) (combine (Srs.newFromSecret P s n) p)
      ⟨combine (Srs.newFromSecret P s n) w, y⟩ z = true := by
  refine fewSecrets_of_poly _ (openPoly_ne_zero p w y z hy) (openPoly_natDegree p w y z n hp hw) fun s hs => ?_
  rw [verify_iff, combine_eq P s n p hp, combine_eq P s n w hw, smul_smul, ← sub_smul] at hs
  have := P.smul_g1_inj hs
  simp only [openPoly, eval_sub, eval_mul, eval_X, eval_C]
  rw [this, sub_self]

/-- **C77** (aggregation): if one of the aggregated polynomials does not evaluate to the value claimed for it, then for
all but `len - 1` challenges `v`, whatever the witness, the aggregate opened to `∑ v^i y_i` is accepted for at most
`n + 3` secrets. -/
theorem C77_aggregate (P : PairingGroups F G1 G2 GT) (n : ℕ) (ps : List (List F)) (ys : List F)
    (hps : ∀ p ∈ ps, p.length ≤ n + 3) (hlen : ps.length = ys.length) (z : F) (i : ℕ) (p : List F) (y : F)
    (hi : ps[i]? = some p) (hyi : ys[i]? = some y) (hy : Ark.eval p z ≠ y) :
    ∃ V : Finset F, V.card ≤ ps.length - 1 ∧ ∀ v, v ∉ V → ∀ w : List F, w.length ≤ n + 3 →
      FewSecrets (n + 3) fun s : F => verify P (Srs.newFromSecret P s n)
        (aggregateCommitments (ps.map (combine (Srs.newFromSecret P s n))) v)
        ⟨combine (Srs.newFromSecret P s n) w, Ark.eval ys v⟩ z = true := by
  -- the aggregate is the commitment of a coefficient list
  have agg : ∀ (v : F) (l : List (List F)), (∀ p ∈ l, p.length ≤ n + 3) → ∃ q : List F, q.length ≤ n + 3 ∧
      (∀ x, Ark.eval q x = Ark.eval (l.map fun p => Ark.eval p x) v) ∧
      ∀ s, aggregateCommitments (l.map (combine (Srs.newFromSecret P s n))) v =
        combine (Srs.newFromSecret P s n) q := by
    intro v l hl
    let Q : F[X] := ∑ i : Fin l.length, C (v ^ (i : ℕ)) * toPoly l[i]
    have hQd : Q.natDegree ≤ n + 2 := by
      refine natDegree_sum_le_of_forall_le _ _ fun i _ => ?_
      refine natDegree_mul_le.trans ?_
      rw [natDegree_C, zero_add]
      exact natDegree_toPoly_lt _ _ (hl _ (List.getElem_mem _))
    have hQ : toPoly ((List.range (n + 3)).map Q.coeff) = Q := by
      ext j
      rw [coeff_toPoly, List.getD_eq_getElem?_getD]
      by_cases hj : j < n + 3
      · simp [List.getElem?_map, List.getElem?_range hj]
      · rw [List.getElem?_eq_none (by simpa using hj)]
        exact (coeff_eq_zero_of_natDegree_lt (by omega)).symm
    have hsum : ∀ x, Q.eval x = Ark.eval (l.map fun p => Ark.eval p x) v := by
      intro x
      have : ∀ m : List F, Ark.eval m v = ∑ i : Fin m.length, v ^ (i : ℕ) * m[i] := by
        intro m
        induction m with
        | nil => simp [Ark.eval]
        | cons a m ih =>
          rw [Ark.eval_cons, ih, Finset.mul_sum]
          simp only [List.length_cons]
          rw [Fin.sum_univ_succ]
          simp only [Fin.val_zero, pow_zero, one_mul, Fin.getElem_fin, List.getElem_cons_zero, Fin.val_succ,
            List.getElem_cons_succ]
          congr 1
          exact Finset.sum_congr rfl fun i _ => by ring
      rw [this, eval_finsetSum]
      refine Finset.sum_equiv (finCongr (by simp)) (by simp) fun i _ => ?_
      simp [eval_eq]
    refine ⟨(List.range (n + 3)).map Q.coeff, by simp, fun x => ?_, fun s => ?_⟩
    · rw [eval_eq, hQ, hsum]
    · rw [combine_eq P s n _ (by simp), hQ, C08_aggregate, eval_finsetSum, Finset.sum_smul]
      refine Finset.sum_equiv (finCongr (by simp)) (by simp) fun i _ => ?_
      simp only [Fin.getElem_fin, List.getElem_map, finCongr_apply, Fin.val_cast, eval_mul, eval_C]
      rw [combine_eq P s n _ (hl _ (List.getElem_mem _)), smul_smul]
  -- challenges for which the errors cancel
  let D : F[X] := toPoly (ps.map fun p => Ark.eval p z) - toPoly ys
  have hD0 : D ≠ 0 := by
    intro h0
    have h1 : D.coeff i = Ark.eval p z - y := by
      simp only [D, coeff_sub, coeff_toPoly, List.getD_eq_getElem?_getD, List.getElem?_map, hi, hyi,
        Option.map_some, Option.getD_some]
    rw [h0, coeff_zero] at h1
    exact hy (sub_eq_zero.1 h1.symm)
  have hpos : 0 < ps.length := by
    have := (List.getElem?_eq_some_iff.1 hi).1
    omega
  have hDd : D.natDegree ≤ ps.length - 1 := by
    refine (natDegree_sub_le _ _).trans (max_le ?_ ?_)
    · exact natDegree_toPoly_lt _ _ (by rw [List.length_map]; omega)
    · exact natDegree_toPoly_lt _ _ (by omega)
  refine ⟨D.roots.toFinset, (Multiset.toFinset_card_le _).trans ((card_roots' D).trans hDd), fun v hv w hw => ?_⟩
  obtain ⟨q, hq, hqe, hqc⟩ := agg v ps hps
  have hne : Ark.eval q z ≠ Ark.eval ys v := by
    intro h
    apply hv
    rw [Multiset.mem_toFinset, mem_roots hD0, IsRoot, eval_sub, ← eval_eq, ← eval_eq, ← hqe, h, sub_self]
  simp only [hqc]
  exact C77_opening P n q w hq hw _ z hne

/-- **C77** (batch): if claim `k` is false, then, all other random coefficients being fixed, for all but one value of
the `k`-th one `batch_verify` accepts for at most `n + 3` secrets. -/
theorem C77_batch (P : PairingGroups F G1 G2 GT) (n : ℕ) (ps ws : List (List F)) (zs ys : List F)
    (hps : ∀ p ∈ ps, p.length ≤ n + 3) (hws : ∀ w ∈ ws, w.length ≤ n + 3) (h1 : ps.length = zs.length)
    (h2 : ws.length = zs.length) (h3 : ys.length = zs.length) (k : ℕ) (p : List F) (y z : F)
    (hpk : ps[k]? = some p) (hyk : ys[k]? = some y) (hzk : zs[k]? = some z) (hy : Ark.eval p z ≠ y)
    (rng₀ : ℕ → ℕ) :
    ∃ ρ : F, ∀ rng : ℕ → ℕ, (∀ i, i ≠ k → rng i = rng₀ i) → (rng k : F) ≠ ρ →
      FewSecrets (n + 3) fun s : F => batchVerify P (Srs.newFromSecret P s n)
        (ps.map (combine (Srs.newFromSecret P s n))) zs
        (List.zipWith (fun w y => ⟨combine (Srs.newFromSecret P s n) w, y⟩) ws ys) rng = some true := by
  have hk : k < zs.length := (List.getElem?_eq_some_iff.1 hzk).1
  let T : Fin zs.length → F[X] := fun j =>
    openPoly (ps[(j : ℕ)]'(by omega)) (ws[(j : ℕ)]'(by omega)) (ys[(j : ℕ)]'(by omega)) zs[(j : ℕ)]
  let k' : Fin zs.length := ⟨k, hk⟩
  let Q : (ℕ → ℕ) → F[X] := fun rng => ∑ j : Fin zs.length, C (rng j : F) * T j
  have hTk : T k' ≠ 0 := by
    apply openPoly_ne_zero
    have e1 := (List.getElem?_eq_some_iff.1 hpk).2
    have e2 := (List.getElem?_eq_some_iff.1 hyk).2
    have e3 := (List.getElem?_eq_some_iff.1 hzk).2
    simp only [k', e1, e2, e3]
    exact hy
  have hQ : ∀ rng, Q rng = C (rng k : F) * T k' + ∑ j ∈ Finset.univ.erase k', C (rng j : F) * T j := by
    intro rng
    simp only [Q]
    rw [← Finset.add_sum_erase _ _ (Finset.mem_univ k')]
  have hsame : ∀ rng : ℕ → ℕ, (∀ i, i ≠ k → rng i = rng₀ i) →
      ∑ j ∈ Finset.univ.erase k', C (rng j : F) * T j = ∑ j ∈ Finset.univ.erase k', C (rng₀ j : F) * T j := by
    intro rng h
    refine Finset.sum_congr rfl fun j hj => ?_
    rw [h j fun e => (Finset.mem_erase.1 hj).1 (Fin.ext e)]
  have hρ : ∃ ρ : F, ∀ r : F, C r * T k' + ∑ j ∈ Finset.univ.erase k', C (rng₀ j : F) * T j = 0 → r = ρ := by
    by_cases hex : ∃ r : F, C r * T k' + ∑ j ∈ Finset.univ.erase k', C (rng₀ j : F) * T j = 0
    · obtain ⟨ρ, hρ⟩ := hex
      refine ⟨ρ, fun r hr => ?_⟩
      have h4 : C (r - ρ) * T k' = 0 := by
        rw [C_sub, sub_mul, sub_eq_zero]
        exact add_right_cancel (hr.trans hρ.symm)
      rcases mul_eq_zero.1 h4 with h5 | h5
      · exact sub_eq_zero.1 (C_eq_zero.1 h5)
      · exact absurd h5 hTk
    · exact ⟨0, fun r hr => absurd ⟨r, hr⟩ hex⟩
  obtain ⟨ρ, hρ⟩ := hρ
  refine ⟨ρ, fun rng hrng hne => ?_⟩
  have hQ0 : Q rng ≠ 0 := by
    intro h0
    rw [hQ, hsame rng hrng] at h0
    exact hne (hρ _ h0)
  have hQd : (Q rng).natDegree ≤ n + 3 := by
    refine natDegree_sum_le_of_forall_le _ _ fun j _ => ?_
    refine natDegree_mul_le.trans ?_
    rw [natDegree_C, zero_add]
    exact openPoly_natDegree _ _ _ _ n (hps _ (List.getElem_mem _)) (hws _ (List.getElem_mem _))
  refine fewSecrets_of_poly _ hQ0 hQd fun s hs => ?_
  rw [batchVerify_iff P s n _ _ _ _ (by simpa using h1) (by simp [h2, h3])] at hs
  have hsum : (Q rng).eval s • P.g1 = 0 := by
    rw [← hs, eval_finsetSum, Finset.sum_smul]
    refine Finset.sum_congr rfl fun j _ => ?_
    simp only [T, openPoly, eval_mul, eval_C, eval_sub, eval_X, Fin.getElem_fin, List.getElem_map,
      List.getElem_zipWith]
    rw [combine_eq P s n _ (hps _ (List.getElem_mem _)), combine_eq P s n _ (hws _ (List.getElem_mem _))]
    module
  exact P.smul_g1_inj (by rw [hsum, zero_smul])

/-- The hypotheses of C77 are met: claiming that `1 + 2X` evaluates to `0` at `1`, alone, aggregated with or batched
with a true claim about `X^2`. -/
example (w : List ℚ) (hw : w.length ≤ 7) :=
  C77_opening (trivialGroups ℚ) 4 ([1, 2] : List ℚ) w (by simp) hw 0 1 (by norm_num [Ark.eval])

example := C77_aggregate (trivialGroups ℚ) 4 ([[1, 2], [0, 0, 1]] : List (List ℚ)) [0, 1] (by simp) rfl 1 0 [1, 2] 0
  rfl rfl (by norm_num [Ark.eval])

example (rng₀ : ℕ → ℕ) := C77_batch (trivialGroups ℚ) 4 ([[1, 2], [0, 0, 1]] : List (List ℚ)) [[2], [1, 1]] [1, 1]
  [0, 1] (by simp) (by simp) rfl rfl rfl 0 [1, 2] 0 1 rfl rfl rfl (by norm_num [Ark.eval]) rng₀

/-- The exceptional set of C77 can be non-empty: `X` opened to `5` at `1` with witness `0` is accepted if the secret
is `5`. -/
example : verify (trivialGroups ℚ) (Srs.newFromSecret (trivialGroups ℚ) 5 4)
    (combine (Srs.newFromSecret (trivialGroups ℚ) 5 4) ([0, 1] : List ℚ))
    ⟨combine (Srs.newFromSecret (trivialGroups ℚ) 5 4) ([] : List ℚ), 5⟩ 1 = true := by
  rw [verify_iff, combine_eq _ _ _ _ (by simp), combine_eq _ _ _ _ (by simp)]
  simp [toPoly]

end Verif.Kzg

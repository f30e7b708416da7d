import Verif.Kzg.SetupSize
import Mathlib.Algebra.Polynomial.FieldDivision

/-!
# C112 (KZG): what commitments and openings reveal

A commitment together with openings reveals the value at the secret (times the generator) and the opened values, and
nothing else.
-/

set_option linter.unusedSectionVars false

namespace Verif.Kzg

open Verif.Ark Polynomial

variable {F G1 G2 GT : Type} [Field F] [DecidableEq F] [AddCommGroup G1] [Module F G1]
  [AddCommGroup G2] [Module F G2] [AddCommGroup GT] [Module F GT] [DecidableEq GT]

theorem smul_g1_inj (P : PairingGroups F G1 G2 GT) {a b : F} (h : a • P.g1 = b • P.g1) : a = b := by
  by_contra hne
  have h0 : (a - b) • P.g1 = 0 := by rw [sub_smul, h, sub_self]
  have : P.g1 = 0 := by
    have := congrArg (fun x => (a - b)⁻¹ • x) h0
    simpa [smul_smul, inv_mul_cancel₀ (sub_ne_zero.2 hne)] using this
  exact P.nondeg (by rw [this]; simp)

theorem quotient_eval {p : F[X]} {s z : F} (h : z ≠ s) :
    (p /ₘ (X - C z)).eval s = (p.eval s - p.eval z) / (s - z) := by
  have e := congrArg (eval s) (modByMonic_add_div p (X - C z))
  rw [modByMonic_X_sub_C_eq_C_eval] at e
  simp only [eval_add, eval_C, eval_mul, eval_sub, eval_X] at e
  rw [eq_div_iff (sub_ne_zero.2 (Ne.symm h)), ← e]
  ring

/-- What an observer sees of a polynomial: its commitment and its openings at the points `zs`. -/
def seen (srs : Srs G1 G2) (p : DP F) (zs : List F) : Option G1 × List (Option (Opening F G1)) :=
  (commit srs p, zs.map (openAt srs p))

/-- **C112** (KZG, exactly what is revealed): two non-zero polynomials within the setup look the same, committed to and
opened at points other than the secret, if and only if they agree at the secret and at these points. -/
theorem C112_kzg_seen_iff (P : PairingGroups F G1 G2 GT) (s : F) (n : ℕ) {p q : DP F} (hp : Canon p) (hq : Canon q)
    (hp0 : toPoly p ≠ 0) (hq0 : toPoly q ≠ 0) (dp : (toPoly p).natDegree < n + 3) (dq : (toPoly q).natDegree < n + 3)
    (zs : List F) (hz : s ∉ zs) :
    seen (Srs.newFromSecret P s n) p zs = seen (Srs.newFromSecret P s n) q zs ↔
      (toPoly p).eval s = (toPoly q).eval s ∧ ∀ z ∈ zs, (toPoly p).eval z = (toPoly q).eval z := by
  unfold seen
  rw [Prod.mk.injEq, (C02_commit P s n hp).1 dp, (C02_commit P s n hq).1 dq, Option.some.injEq, List.map_inj_left]
  have key : ∀ z ∈ zs, (toPoly p).eval s = (toPoly q).eval s →
      (openAt (Srs.newFromSecret P s n) p z = openAt (Srs.newFromSecret P s n) q z ↔
        (toPoly p).eval z = (toPoly q).eval z) := by
    intro z hzz hs
    have hzs : z ≠ s := fun h => hz (h ▸ hzz)
    rw [openAt_eq P s n hp hp0, openAt_eq P s n hq hq0, if_pos (by omega), if_pos (by omega), Option.some.injEq,
      Opening.mk.injEq, quotient_eval hzs, quotient_eval hzs, hs]
    exact ⟨fun h => h.2, fun h => by rw [h]; exact ⟨rfl, rfl⟩⟩
  constructor
  · rintro ⟨hc, ho⟩
    have hs := smul_g1_inj P hc
    exact ⟨hs, fun z hzz => (key z hzz hs).1 (ho z hzz)⟩
  · rintro ⟨hs, he⟩
    exact ⟨by rw [hs], fun z hzz => (key z hzz hs).2 (he z hzz)⟩

/-- **C112** (KZG, what stays hidden): after a commitment and `k ≤ n + 1` openings at points other than the secret, every
value at every further point is still possible: some polynomial within the setup has this value there and looks the same.
(If the value at the secret is zero, the value zero is excluded, because `open` panics on the zero polynomial.) -/
theorem C112_kzg_hidden (P : PairingGroups F G1 G2 GT) (s : F) (n : ℕ) {p : DP F} (hp : Canon p)
    (hp0 : toPoly p ≠ 0) (dp : (toPoly p).natDegree < n + 3) (zs : List F) (hz : s ∉ zs) (hk : zs.length ≤ n + 1)
    (z' : F) (hz' : z' ∉ zs) (hs' : z' ≠ s) (y : F) (hy : y ≠ 0 ∨ (toPoly p).eval s ≠ 0) :
    ∃ q : DP F, Canon q ∧ (toPoly q).natDegree < n + 3 ∧ (toPoly q).eval z' = y ∧
      seen (Srs.newFromSecret P s n) q zs = seen (Srs.newFromSecret P s n) p zs := by
  let M : F[X] := (X - C s) * (zs.map fun z => X - C z).prod
  have hMz : ∀ z ∈ zs, M.eval z = 0 := by
    intro z hzz
    have : (zs.map fun z => (X - C z : F[X])).prod.eval z = 0 := by
      rw [eval_list_prod, List.prod_eq_zero_iff]
      exact List.mem_map.2 ⟨X - C z, List.mem_map.2 ⟨z, hzz, rfl⟩, by simp⟩
    simp [M, this]
  have hMs : M.eval s = 0 := by simp [M]
  have hM' : M.eval z' ≠ 0 := by
    have : (zs.map fun z => (X - C z : F[X])).prod.eval z' ≠ 0 := by
      rw [eval_list_prod, Ne, List.prod_eq_zero_iff]
      intro h
      obtain ⟨r, hr, h0⟩ := List.mem_map.1 h
      obtain ⟨z, hzz, rfl⟩ := List.mem_map.1 hr
      simp only [eval_sub, eval_X, eval_C, sub_eq_zero] at h0
      exact hz' (h0 ▸ hzz)
    simp only [M, eval_mul, eval_sub, eval_X, eval_C]
    exact mul_ne_zero (sub_ne_zero.2 hs') this
  have hMd : M.natDegree ≤ zs.length + 1 := by
    refine natDegree_mul_le.trans ?_
    have : (zs.map fun z => (X - C z : F[X])).prod.natDegree ≤ zs.length := by
      clear hz hk hz' hMz hM' hMs M
      induction zs with
      | nil => simp
      | cons z zs ih =>
        rw [List.map_cons, List.prod_cons, List.length_cons]
        refine natDegree_mul_le.trans ?_
        rw [natDegree_X_sub_C]; omega
    rw [natDegree_X_sub_C]; omega
  let Q : F[X] := toPoly p + C ((y - (toPoly p).eval z') / M.eval z') * M
  have hQd : Q.natDegree < n + 3 := by
    refine lt_of_le_of_lt (natDegree_add_le _ _) (max_lt dp (lt_of_le_of_lt (natDegree_C_mul_le _ _) ?_))
    omega
  have hQ' : Q.eval z' = y := by
    simp only [Q, eval_add, eval_mul, eval_C]
    rw [div_mul_cancel₀ _ hM']; ring
  have hQs : Q.eval s = (toPoly p).eval s := by simp [Q, hMs]
  have hQz : ∀ z ∈ zs, Q.eval z = (toPoly p).eval z := fun z hzz => by simp [Q, hMz z hzz]
  have hQ0 : Q ≠ 0 := by
    intro h
    rcases hy with hy | hy
    · exact hy (by rw [← hQ', h, eval_zero])
    · exact hy (by rw [← hQs, h, eval_zero])
  obtain ⟨q, hqc, hqQ⟩ : ∃ q : DP F, Canon q ∧ toPoly q = Q := ⟨fromCoeffs ((List.range (Q.natDegree + 1)).map Q.coeff), canon_fromCoeffs _, by
    rw [toPoly_fromCoeffs]
    ext i
    rw [coeff_toPoly, List.getD_eq_getElem?_getD, List.getElem?_map]
    by_cases hi : i < Q.natDegree + 1
    · rw [List.getElem?_range hi]; rfl
    · rw [List.getElem?_eq_none (by rw [List.length_range]; omega)]
      exact (coeff_eq_zero_of_natDegree_lt (by omega)).symm⟩
  refine ⟨q, hqc, by rw [hqQ]; exact hQd, by rw [hqQ]; exact hQ', ?_⟩
  rw [C112_kzg_seen_iff P s n hqc hp (by rw [hqQ]; exact hQ0) hp0 (by rw [hqQ]; exact hQd) dp zs hz, hqQ]
  exact ⟨hQs, hQz⟩

/-- **C112** (KZG, what is not hidden): as many different openings as the polynomial has coefficients determine it. -/
theorem C112_kzg_determined (P : PairingGroups F G1 G2 GT) (s : F) (n : ℕ) {p q : DP F} (hp : Canon p) (hq : Canon q)
    (dp : (toPoly p).natDegree < n + 3) (dq : (toPoly q).natDegree < n + 3) (zs : List F) (hnd : zs.Nodup)
    (lp : p.length ≤ zs.length) (lq : q.length ≤ zs.length) (hp0 : p ≠ [])
    (h : (seen (Srs.newFromSecret P s n) p zs).2 = (seen (Srs.newFromSecret P s n) q zs).2) : p = q := by
  have hpz : toPoly p ≠ 0 := fun h0 => hp0 (canon_zero_eq_nil hp h0)
  unfold seen at h
  rw [List.map_inj_left] at h
  have hpos : 0 < zs.length := lt_of_lt_of_le (List.length_pos_iff.2 hp0) lp
  have hqz : toPoly q ≠ 0 := by
    intro h0
    have e := h _ (List.getElem_mem hpos)
    rw [(C04_open_panics_iff P s n hq _).2 (Or.inl h0), C04_open_panics_iff P s n hp] at e
    rcases e with e | e
    · exact hpz e
    · omega
  have hev : ∀ z ∈ zs, (toPoly p - toPoly q).eval z = 0 := by
    intro z hz
    have e := h z hz
    rw [openAt_eq P s n hp hpz, openAt_eq P s n hq hqz, if_pos (by omega), if_pos (by omega), Option.some.injEq,
      Opening.mk.injEq] at e
    rw [eval_sub, e.2, sub_self]
  refine canon_ext hp hq (sub_eq_zero.1 ?_)
  by_contra hne
  have h1 : zs.toFinset.card ≤ (toPoly p - toPoly q).natDegree := by
    refine (Finset.card_le_card (t := (toPoly p - toPoly q).roots.toFinset) fun z hz => ?_).trans
      ((Multiset.toFinset_card_le _).trans (card_roots' _))
    rw [Multiset.mem_toFinset, mem_roots hne]
    exact hev z (List.mem_toFinset.1 hz)
  rw [List.toFinset_card_of_nodup hnd] at h1
  have h2 := natDegree_sub_le (toPoly p) (toPoly q)
  have h3 := natDegree_toPoly_lt p (zs.length - 1) (by omega)
  have h4 := natDegree_toPoly_lt q (zs.length - 1) (by omega)
  have h5 := max_le h3 h4
  omega

/-- **C112** (KZG, guesses can be checked): among any list of guesses the commitment singles out the polynomial, except for
at most `(number of guesses) · (n + 2)` secrets. -/
theorem C112_kzg_guess (P : PairingGroups F G1 G2 GT) (n : ℕ) {p : DP F} (hp : Canon p)
    (dp : (toPoly p).natDegree < n + 3) (L : List (DP F)) (hL : ∀ q ∈ L, Canon q ∧ (toPoly q).natDegree < n + 3) :
    ∃ S : Finset F, S.card ≤ L.length * (n + 2) ∧ ∀ s ∉ S, ∀ q ∈ L,
      commit (Srs.newFromSecret P s n) q = commit (Srs.newFromSecret P s n) p → q = p := by
  induction L with
  | nil => exact ⟨∅, by simp, by simp⟩
  | cons q L ih =>
    obtain ⟨S, hS, h⟩ := ih fun x hx => hL x (List.mem_cons_of_mem _ hx)
    obtain ⟨hq, dq⟩ := hL q (List.mem_cons_self ..)
    by_cases hqp : q = p
    · refine ⟨S, hS.trans (by rw [List.length_cons]; exact Nat.mul_le_mul_right _ (by omega)), fun s hs x hx => ?_⟩
      rcases List.mem_cons.1 hx with rfl | hx
      · exact fun _ => hqp
      · exact h s hs x hx
    · obtain ⟨T, hT, h'⟩ := C07_few_bad_secrets P n hq hp dq dp hqp
      refine ⟨T ∪ S, (Finset.card_union_le _ _).trans ?_, fun s hs x hx => ?_⟩
      · rw [List.length_cons, Nat.add_mul, one_mul, add_comm]
        exact Nat.add_le_add hS (hT.trans (max_le (by omega) (by omega)))
      · rw [Finset.mem_union, not_or] at hs
        rcases List.mem_cons.1 hx with rfl | hx
        · exact fun e => absurd (h' s e) hs.1
        · exact h s hs.2 x hx

/-- Non-vacuity: `1 + 2X` under the secret 7, opened at 3, can still have the value 100 at 4 as far as one sees; and with
two openings it is determined. -/
example : (∃ q : DP ℚ, Canon q ∧ (toPoly q).natDegree < 3 ∧ (toPoly q).eval 4 = 100 ∧
      seen (Srs.newFromSecret (trivialGroups ℚ) 7 0) q [3] = seen (Srs.newFromSecret (trivialGroups ℚ) 7 0) [1, 2] [3]) ∧
    ∀ q : DP ℚ, Canon q → q.length ≤ 2 → (seen (Srs.newFromSecret (trivialGroups ℚ) 7 0) [1, 2] [3, 4]).2 =
      (seen (Srs.newFromSecret (trivialGroups ℚ) 7 0) q [3, 4]).2 → [1, 2] = q := by
  have hc : Canon ([1, 2] : DP ℚ) := by unfold Canon; decide +kernel
  have hd : (toPoly ([1, 2] : DP ℚ)).natDegree < 3 := lt_of_le_of_lt (natDegree_toPoly_lt _ 1 (by decide)) (by decide)
  have h0 : toPoly ([1, 2] : DP ℚ) ≠ 0 := fun h => by cases canon_zero_eq_nil hc h
  refine ⟨C112_kzg_hidden (trivialGroups ℚ) 7 0 hc h0 hd [3] (by norm_num) (by decide) 4 (by norm_num) (by norm_num) 100
    (Or.inl (by norm_num)), fun q hq hl h => ?_⟩
  exact C112_kzg_determined (trivialGroups ℚ) 7 0 hc hq hd
    (lt_of_le_of_lt (natDegree_toPoly_lt q 1 (by omega)) (by decide)) [3, 4] (by norm_num) (by decide) hl (by simp) h

end Verif.Kzg

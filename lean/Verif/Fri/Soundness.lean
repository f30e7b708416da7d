import Verif.Fri.Props

/-! # FRI: algebraic facts behind soundness (C67, C68) -/

set_option linter.unusedSectionVars false

namespace Verif.Fri

open Verif.Ark

variable {F : Type} [FftField F] [DecidableEq F]

/-- The product of the challenges `r_j` over the set bits `j` of `i`. -/
def bitProduct (rs : List F) (i : ℕ) : F :=
  ((List.range rs.length).map fun j => if i.testBit j then rs[j]?.getD 1 else 1).prod

theorem bitProduct_nil (i : ℕ) : bitProduct ([] : List F) i = 1 := by simp [bitProduct]

theorem bitProduct_cons (r : F) (rs : List F) (i : ℕ) :
    bitProduct (r :: rs) i = (if i % 2 = 1 then r else 1) * bitProduct rs (i / 2) := by
  unfold bitProduct
  rw [List.length_cons, List.range_succ_eq_map, List.map_cons, List.prod_cons, List.map_map]
  congr 1
  · simp [Nat.testBit_zero]
  · congr 1
    apply List.map_congr_left
    intro j _
    simp [Nat.testBit_succ]

theorem sum_range_two_mul (f : ℕ → F) (n : ℕ) :
    ∑ i ∈ Finset.range (2 * n), f i = ∑ i ∈ Finset.range n, (f (2 * i) + f (2 * i + 1)) := by
  induction n with
  | zero => simp
  | succ n ih =>
    rw [Nat.mul_succ, Finset.sum_range_succ, Finset.sum_range_succ, ih, Finset.sum_range_succ]; ring

/-- Folding with all challenges leaves the multilinear combination of the coefficients. -/
theorem foldl_coeff_zero (rs : List F) (p : DP F) :
    (rs.foldl foldPolynomial p)[0]?.getD 0 =
      ∑ i ∈ Finset.range (2 ^ rs.length), p[i]?.getD 0 * bitProduct rs i := by
  induction rs generalizing p with
  | nil => simp [bitProduct_nil]
  | cons r rs ih =>
    rw [List.foldl_cons, ih, List.length_cons, pow_succ', sum_range_two_mul]
    apply Finset.sum_congr rfl
    intro i _
    rw [(C16_fold_coeffs p r).1, bitProduct_cons, bitProduct_cons]
    have h1 : 2 * i % 2 = 0 := by omega
    have h2 : 2 * i / 2 = i := by omega
    have h3 : (2 * i + 1) % 2 = 1 := by omega
    have h4 : (2 * i + 1) / 2 = i := by omega
    simp only [h1, h2, h3, h4, if_true, zero_ne_one, if_false]
    ring

/-- **C67**: the constant of a returned proof is `∑ᵢ pᵢ ∏_{j ∈ bits i} r_j` for the challenges `rs` the
verifier derives from the proof. -/
theorem C67_constant_multilinear (env : Env F) (poly : DP F) (b q : ℕ) {pf : Proof F}
    (h : generateProof env poly b q = some pf) :
    ∃ rs positions, Derived env pf rs positions ∧
      pf.constVal = ∑ i ∈ Finset.range poly.length, poly[i]?.getD 0 * bitProduct rs i := by
  obtain ⟨rs, t, t', vs, hlen, hpos, hta, hD, hc, hq, hroots, hreg, hconst, hvs, hdecs⟩ :=
    generateProof_spec env h
  refine ⟨rs, _, (derived_iff _ _ _ _).2 ⟨t, t', vs, hreg, by rw [hq]; exact hvs, rfl⟩, ?_⟩
  have h0 := foldl_coeff_zero rs poly
  rw [hconst] at h0
  simp only [List.getElem?_cons_zero, Option.getD_some] at h0
  rw [h0]
  symm
  apply Finset.sum_subset
  · intro i hi
    rw [Finset.mem_range] at *
    refine lt_of_lt_of_le hi ?_
    rw [hlen]
    have hb : 0 < b := by
      rcases Nat.eq_zero_or_pos b with rfl | hb
      · rw [hlen] at hpos; simp at hpos
      · exact hb
    exact (Nat.le_mul_of_pos_right _ hb).trans (Nat.le_pow_clog (by norm_num) _)
  · intro i _ hi
    rw [Finset.mem_range, not_lt] at hi
    rw [List.getElem?_eq_none hi]; simp

/-- Interleaving two coefficient lists: `e₀, o₀, e₁, o₁, …`. -/
def interleave (e o : DP F) (m : ℕ) : DP F :=
  (List.range m).flatMap fun i => [e[i]?.getD 0, o[i]?.getD 0]

theorem toPoly_sum (p : DP F) (m : ℕ) (h : p.length ≤ m) (x : F) :
    Ark.eval p x = ∑ i ∈ Finset.range m, p[i]?.getD 0 * x ^ i := by
  induction m generalizing p with
  | zero =>
    rw [List.length_eq_zero_iff.1 (by omega : p.length = 0)]; simp [Ark.eval]
  | succ m ih =>
    cases p with
    | nil => simp [Ark.eval]
    | cons a p =>
      rw [Ark.eval_cons, Finset.sum_range_succ', ih p (by simpa using h), Finset.mul_sum]
      simp only [List.getElem?_cons_zero, Option.getD_some, pow_zero, mul_one,
        List.getElem?_cons_succ]
      rw [add_comm]
      congr 1
      apply Finset.sum_congr rfl
      intro i _
      ring

theorem length_interleave (e o : DP F) (m : ℕ) : (interleave e o m).length = 2 * m := by
  unfold interleave
  induction m with
  | zero => rfl
  | succ m ih => rw [List.range_succ, List.flatMap_append, List.length_append, ih]; simp; omega

theorem eval_append' (a b : DP F) (x : F) :
    Ark.eval (a ++ b) x = Ark.eval a x + x ^ a.length * Ark.eval b x := by
  induction a with
  | nil => simp [Ark.eval]
  | cons c a ih => rw [List.cons_append, Ark.eval_cons, ih, Ark.eval_cons, List.length_cons]; ring

theorem eval_interleave (e o : DP F) (m : ℕ) (he : e.length ≤ m) (ho : o.length ≤ m) (x : F) :
    Ark.eval (interleave e o m) x = Ark.eval e (x ^ 2) + x * Ark.eval o (x ^ 2) := by
  have h : ∀ m, Ark.eval (interleave e o m) x = ∑ i ∈ Finset.range m,
      (e[i]?.getD 0 * (x ^ 2) ^ i + x * (o[i]?.getD 0 * (x ^ 2) ^ i)) := by
    intro m
    induction m with
    | zero => simp [interleave, Ark.eval]
    | succ m ih =>
      have : interleave e o (m + 1) = interleave e o m ++ [e[m]?.getD 0, o[m]?.getD 0] := by
        unfold interleave; rw [List.range_succ, List.flatMap_append]; simp
      rw [this, eval_append', ih, length_interleave, Finset.sum_range_succ, Ark.eval_cons, Ark.eval_cons,
        ← pow_mul]
      simp only [Ark.eval_nil]
      ring
  rw [h, toPoly_sum e m he, toPoly_sum o m ho, Finset.sum_add_distrib, Finset.mul_sum]

theorem length_add_le (p q : DP F) (m : ℕ) (hp : p.length ≤ m) (hq : q.length ≤ m) :
    (add p q).length ≤ m := by
  simp only [add]
  refine (length_truncate_le _).trans ?_
  rw [length_zipAdd]; exact max_le hp hq

/-- **C68**: two-special-soundness of a folding round.  `f` is any word on a symmetric set `S` of non-zero
points; `g₁`, `g₂` are the folded polynomials for two different challenges. -/
theorem C68_fold_special_sound (S : Set F) (hS : ∀ x ∈ S, x ≠ 0 ∧ -x ∈ S) (h2 : (2 : F) ≠ 0) (f : F → F)
    (r₁ r₂ : F) (hr : r₁ ≠ r₂) (m : ℕ) (g₁ g₂ : DP F) (hg₁ : g₁.length ≤ m) (hg₂ : g₂.length ≤ m)
    (h₁ : ∀ x ∈ S, (f x + f (-x)) / 2 + r₁ * (f x - f (-x)) / (2 * x) = Ark.eval g₁ (x ^ 2))
    (h₂ : ∀ x ∈ S, (f x + f (-x)) / 2 + r₂ * (f x - f (-x)) / (2 * x) = Ark.eval g₂ (x ^ 2)) :
    ∃ p : DP F, p.length ≤ 2 * m ∧ ∀ x ∈ S, f x = Ark.eval p x := by
  have hd : r₁ - r₂ ≠ 0 := sub_ne_zero.2 hr
  -- odd part (g₁ - g₂)/(r₁ - r₂), even part g₁ - r₁ odd
  let o : DP F := smul (add g₁ (smul g₂ (-1))) (r₁ - r₂)⁻¹
  let e : DP F := add g₁ (smul o (-r₁))
  have ho : o.length ≤ m :=
    (length_smul_le _ _).trans (length_add_le _ _ _ hg₁ ((length_smul_le _ _).trans hg₂))
  have he : e.length ≤ m := length_add_le _ _ _ hg₁ ((length_smul_le _ _).trans ho)
  have evs : ∀ (p : DP F) (c x : F), Ark.eval (smul p c) x = c * Ark.eval p x := by
    intro p c x; simp only [eval_eq]; rw [toPoly_smul]; simp
  have eva : ∀ (p q : DP F) (x : F), Ark.eval (add p q) x = Ark.eval p x + Ark.eval q x := by
    intro p q x; simp only [eval_eq]; rw [toPoly_add]; simp
  refine ⟨interleave e o m, (length_interleave e o m).le, fun x hx => ?_⟩
  have hx0 := (hS x hx).1
  rw [eval_interleave e o m he ho]
  simp only [e, o, evs, eva]
  rw [← h₁ x hx, ← h₂ x hx]
  field_simp
  ring

/-- The hypotheses of C68 are met by every polynomial word: honest folds satisfy them. -/
example (p : DP Goldilocks) (S : Set Goldilocks) (hS : ∀ x ∈ S, x ≠ 0 ∧ -x ∈ S) (r : Goldilocks) :
    ∀ x ∈ S, (Ark.eval p x + Ark.eval p (-x)) / 2 + r * (Ark.eval p x - Ark.eval p (-x)) / (2 * x) =
      Ark.eval (foldPolynomial p r) (x ^ 2) := fun x hx =>
  (C16_fold_identity p r x (hS x hx).1 (two_ne_zero_of (by show 1 ≤ 32; norm_num))).symm

end Verif.Fri

import Verif.Plonk.Circuit

/-!
# C47 (quotient slicing) and C48 (accumulator)
-/

set_option linter.unusedSectionVars false
set_option linter.unusedSimpArgs false
set_option linter.unusedVariables false

namespace Verif.Plonk

open Verif.Ark Verif.Kzg Polynomial

section slice
variable {F : Type} [Field F] [DecidableEq F]

theorem toPoly_take_drop (p : DP F) (k : ℕ) (hk : k ≤ p.length) :
    toPoly p = toPoly (p.take k) + X ^ k * toPoly (p.drop k) := by
  conv_lhs => rw [← List.take_append_drop k p]
  rw [toPoly_append, List.length_take, Nat.min_eq_left hk]

theorem toPoly_take_drop' (p : DP F) (k : ℕ) :
    toPoly p = toPoly (p.take k) + X ^ k * toPoly (p.drop k) := by
  by_cases hk : k ≤ p.length
  · exact toPoly_take_drop p k hk
  · rw [List.take_of_length_le (by omega), List.drop_of_length_le (by omega)]; simp

/-- **C47** (slicing): `SlicePoly::new` panics exactly on the empty coefficient vector (the zero polynomial); otherwise the
slices recombine to `t`, each has at most `m = degree + 1` coefficients and `m` is a third of the length,
rounded up. -/
theorem C47_slices (t : DP F) :
    (t = [] → SlicePoly.new t = none) ∧
    (t ≠ [] → ∃ sp, SlicePoly.new t = some sp ∧
      toPoly t = toPoly sp.lo + X ^ (sp.degree + 1) * toPoly sp.mid +
        X ^ (2 * (sp.degree + 1)) * toPoly sp.hi ∧
      Canon sp.lo ∧ Canon sp.mid ∧ Canon sp.hi ∧
      sp.lo.length ≤ sp.degree + 1 ∧ sp.mid.length ≤ sp.degree + 1 ∧ sp.hi.length ≤ sp.degree + 1 ∧
      t.length ≤ 3 * (sp.degree + 1) ∧ 3 * (sp.degree + 1) ≤ t.length + 2) := by
  constructor
  · rintro rfl; simp [SlicePoly.new]
  · intro hne
    have hl : 0 < t.length := List.length_pos_iff.2 hne
    obtain ⟨m, hm, h1, h2⟩ : ∃ m, (if t.length / 3 * 3 < t.length then t.length / 3 + 1 else t.length / 3) = m + 1 ∧
        t.length ≤ 3 * (m + 1) ∧ 3 * (m + 1) ≤ t.length + 2 := by
      split
      · exact ⟨_, rfl, by omega, by omega⟩
      · exact ⟨t.length / 3 - 1, by omega, by omega, by omega⟩
    refine ⟨⟨fromCoeffs (t.take (m + 1)), fromCoeffs ((t.drop (m + 1)).take (m + 1)),
      fromCoeffs ((t.drop (2 * (m + 1))).take (m + 1)), m⟩, ?_, ?_, canon_fromCoeffs _, canon_fromCoeffs _,
      canon_fromCoeffs _, ?_, ?_, ?_, h1, h2⟩
    · simp only [SlicePoly.new, hm]
      rw [if_neg (by omega)]; rfl
    · dsimp only
      rw [toPoly_fromCoeffs, toPoly_fromCoeffs, toPoly_fromCoeffs]
      rw [toPoly_take_drop' t (m + 1), toPoly_take_drop' (t.drop (m + 1)) (m + 1), List.drop_drop]
      rw [List.take_of_length_le (l := t.drop (2 * (m + 1))) (by simp; omega)]
      rw [show m + 1 + (m + 1) = 2 * (m + 1) by ring]
      ring
    · exact (length_truncate_le _).trans (by simp)
    · exact (length_truncate_le _).trans (by simp)
    · exact (length_truncate_le _).trans (by simp)

theorem toPoly_compact (sp : SlicePoly F) (x : F) :
    toPoly (sp.compact x) = toPoly sp.lo + C (x ^ (sp.degree + 1)) * toPoly sp.mid +
      C (x ^ (2 * (sp.degree + 1))) * toPoly sp.hi := by
  unfold SlicePoly.compact
  rw [toPoly_add, toPoly_add, toPoly_smul, toPoly_smul, toPoly_smul]
  simp only [mul_zero, pow_zero, map_one, one_mul, mul_one]
  rw [mul_comm 2]

/-- **C47** (compact): the compacted polynomial, evaluated at the point, is the value of `t`. -/
theorem C47_compact (t : DP F) (sp : SlicePoly F) (h : SlicePoly.new t = some sp) (x : F) :
    Ark.eval (sp.compact x) x = Ark.eval t x := by
  have hne : t ≠ [] := by
    rintro rfl; rw [(C47_slices []).1 rfl] at h; cases h
  obtain ⟨sp', h', ht, -⟩ := (C47_slices t).2 hne
  rw [h, Option.some.injEq] at h'
  subst h'
  rw [eval_eq, eval_eq, ht, toPoly_compact]
  simp

example : ∃ sp, SlicePoly.new ([1, 2, 3, 4, 5, 6, 7] : DP ℚ) = some sp ∧ sp.degree = 2 :=
  ⟨_, rfl, rfl⟩

end slice

section acc
variable {F : Type} [FftField F] [DecidableEq F]

theorem accLoop_none_iff (num den : F → F) (ws : List F) (pre : F) :
    accLoop num den ws pre = none ↔ ∃ w ∈ ws, den w = 0 := by
  induction ws generalizing pre with
  | nil => simp [accLoop]
  | cons w ws ih =>
    rw [accLoop]
    split
    · next h => simp [h]
    · next h =>
      simp only [Option.bind_eq_bind, Option.bind_eq_none_iff, pure, reduceCtorEq, imp_false]
      rw [← Option.eq_none_iff_forall_ne_some, ih]
      simp [h]

theorem accLoop_some (num den : F → F) (ws : List F) (pre : F) (r : List F)
    (h : accLoop num den ws pre = some r) :
    r.length = ws.length ∧ ∀ i (hi : i < ws.length), den ws[i] ≠ 0 ∧
      (pre :: r).getD (i + 1) 0 * den ws[i] = (pre :: r).getD i 0 * num ws[i] := by
  induction ws generalizing pre r with
  | nil => simp only [accLoop, Option.some.injEq] at h; subst h; simp
  | cons w ws ih =>
    rw [accLoop] at h
    split at h
    · cases h
    · next hd =>
      simp only [Option.bind_eq_bind, Option.bind_eq_some_iff, pure, Option.some.injEq] at h
      obtain ⟨rest, hr, rfl⟩ := h
      obtain ⟨hl, hi⟩ := ih _ _ hr
      refine ⟨by simp [hl], fun i hlt => ?_⟩
      cases i with
      | zero => exact ⟨hd, by simp [hd]⟩
      | succ i =>
        have := hi i (by simpa using hlt)
        simpa using this

theorem getD_rotate_one (a : F) (l : List F) {i : ℕ} (hi : i < l.length + 1) :
    ((a :: l).rotate 1).getD i 0 = (a :: l).getD ((i + 1) % (l.length + 1)) 0 := by
  have h1 : (a :: l).rotate 1 = l ++ [a] := by simp
  rw [h1, List.getD_eq_getElem?_getD, List.getD_eq_getElem?_getD]
  by_cases h : i < l.length
  · rw [List.getElem?_append_left h, Nat.mod_eq_of_lt (by omega)]; simp
  · obtain rfl : i = l.length := by omega
    simp

theorem interpolate_rotate {d : Domain F} (hv : d.Valid) (a : F) (l : List F) (hl : l.length + 1 = d.size) :
    toPoly (d.interpolate ((a :: l).rotate 1)) = (toPoly (d.interpolate (a :: l))).comp (C d.gen * X) := by
  have hg := hv.gen_ne_zero
  refine hv.ext (d.degree_interpolate_lt _) ?_ ?_
  · have h1 : (C d.gen * X : F[X]).natDegree = 1 := by
      rw [natDegree_C_mul hg, natDegree_X]
    refine lt_of_le_of_lt (degree_le_natDegree) ?_
    rw [natDegree_comp, h1, mul_one]
    have h2 := d.degree_interpolate_lt (a :: l)
    by_cases hz : toPoly (d.interpolate (a :: l)) = 0
    · rw [hz]; simpa using d.size_pos
    · rw [degree_eq_natDegree hz] at h2; exact h2
  · intro i hi
    rw [hv.eval_interpolate _ hi, eval_comp, eval_mul, eval_C, eval_X, ← pow_succ',
      getD_rotate_one a l (by omega), hl, ← hv.pow_mod (i + 1),
      hv.eval_interpolate _ (Nat.mod_lt _ d.size_pos)]

/-- **C48** (panics): `compute_acc` panics exactly if one of the first `n-1` denominators
`(a+βS₁+γ)(b+βS₂+γ)(c+βS₃+γ)` vanishes. -/
theorem C48_panics_iff (cc : CompiledCircuit F) (d : Domain F) (hd : Domain.new? cc.size = some d)
    (hs : d.size = cc.size) (beta gamma : F) :
    computeAcc beta gamma d cc = none ↔ ∃ i, i + 1 < cc.size ∧
      (Ark.eval cc.gate.fax (d.gen ^ i) + beta * Ark.eval cc.copy.s1 (d.gen ^ i) + gamma) *
      (Ark.eval cc.gate.fbx (d.gen ^ i) + beta * Ark.eval cc.copy.s2 (d.gen ^ i) + gamma) *
      (Ark.eval cc.gate.fcx (d.gen ^ i) + beta * Ark.eval cc.copy.s3 (d.gen ^ i) + gamma) = 0 := by
  unfold computeAcc
  have : ∀ o : Option (List F), (o.bind fun tail => some (d.interpolate (1 :: tail),
      d.interpolate ((1 :: tail).rotate 1))) = none ↔ o = none := by
    intro o; cases o <;> simp
  simp only [Option.bind_eq_bind, pure]
  rw [this, accLoop_none_iff]
  constructor
  · rintro ⟨w, hw, h0⟩
    obtain ⟨i, hi, rfl⟩ := List.getElem_of_mem hw
    have hi' : i < cc.size - 1 := by
      rw [List.length_take] at hi; omega
    refine ⟨i, by omega, ?_⟩
    have he : (d.elements.take (cc.size - 1))[i] = d.gen ^ i := by
      simp [Domain.elements, Domain.element]
    rw [he] at h0
    exact h0
  · rintro ⟨i, hi, h0⟩
    refine ⟨d.gen ^ i, ?_, h0⟩
    have hl : i < (d.elements.take (cc.size - 1)).length := by
      rw [List.length_take, elements_length]; omega
    have he : (d.elements.take (cc.size - 1))[i] = d.gen ^ i := by
      simp [Domain.elements, Domain.element]
    rw [← he]; exact List.getElem_mem hl

/-- **C48**: the accumulator starts at 1, satisfies the grand-product recursion on the first `n-1` rows
(with non-zero denominators), has degree below `n`, and the second result is its shift everywhere. -/
theorem C48_accumulator (cc : CompiledCircuit F) (d : Domain F) (hd : Domain.new? cc.size = some d)
    (hs : d.size = cc.size) (beta gamma : F) (acc accw : DP F)
    (h : computeAcc beta gamma d cc = some (acc, accw)) :
    Ark.eval acc 1 = 1 ∧
    (∀ i, i + 1 < cc.size →
      Ark.eval acc (d.gen ^ (i + 1)) *
        ((Ark.eval cc.gate.fax (d.gen ^ i) + beta * Ark.eval cc.copy.s1 (d.gen ^ i) + gamma) *
         (Ark.eval cc.gate.fbx (d.gen ^ i) + beta * Ark.eval cc.copy.s2 (d.gen ^ i) + gamma) *
         (Ark.eval cc.gate.fcx (d.gen ^ i) + beta * Ark.eval cc.copy.s3 (d.gen ^ i) + gamma)) =
      Ark.eval acc (d.gen ^ i) *
        ((Ark.eval cc.gate.fax (d.gen ^ i) + beta * d.gen ^ i + gamma) *
         (Ark.eval cc.gate.fbx (d.gen ^ i) + beta * cc.copy.k1 * d.gen ^ i + gamma) *
         (Ark.eval cc.gate.fcx (d.gen ^ i) + beta * cc.copy.k2 * d.gen ^ i + gamma))) ∧
    acc.length ≤ cc.size ∧ Canon acc ∧ Canon accw ∧ accw.length ≤ cc.size ∧
    ∀ x, Ark.eval accw x = Ark.eval acc (d.gen * x) := by
  obtain ⟨hv, -⟩ := Domain.new?_valid hd
  unfold computeAcc at h
  simp only [Option.bind_eq_bind, Option.bind_eq_some_iff, pure, Option.some.injEq, Prod.mk.injEq] at h
  obtain ⟨tail, ht, rfl, rfl⟩ := h
  obtain ⟨hl, hrec⟩ := accLoop_some _ _ _ _ _ ht
  have hpos := d.size_pos
  rw [List.length_take, elements_length, Nat.min_eq_left (by omega)] at hl
  refine ⟨?_, ?_, hs ▸ d.length_interpolate_le _, d.canon_interpolate _, d.canon_interpolate _,
    hs ▸ d.length_interpolate_le _, ?_⟩
  · have := hv.eval_interpolate (1 :: tail) hpos
    rw [pow_zero] at this
    rw [eval_eq, this]; rfl
  · intro i hi
    have hi' : i < (d.elements.take (cc.size - 1)).length := by
      rw [List.length_take, elements_length]; omega
    have he : (d.elements.take (cc.size - 1))[i] = d.gen ^ i := by
      simp [Domain.elements, Domain.element]
    have := (hrec i hi').2
    rw [he] at this
    rw [eval_eq (d.interpolate _), eval_eq (d.interpolate _), hv.eval_interpolate _ (by omega),
      hv.eval_interpolate _ (by omega)]
    exact this
  · intro x
    rw [eval_eq, eval_eq, interpolate_rotate hv 1 tail (by omega), eval_comp]
    simp

theorem accw_comp (cc : CompiledCircuit F) (d : Domain F) (hd : Domain.new? cc.size = some d)
    (hs : d.size = cc.size) (beta gamma : F) (acc accw : DP F)
    (h : computeAcc beta gamma d cc = some (acc, accw)) :
    toPoly accw = (toPoly acc).comp (C d.gen * X) := by
  obtain ⟨hv, -⟩ := Domain.new?_valid hd
  unfold computeAcc at h
  simp only [Option.bind_eq_bind, Option.bind_eq_some_iff, pure, Option.some.injEq, Prod.mk.injEq] at h
  obtain ⟨tail, ht, rfl, rfl⟩ := h
  obtain ⟨hl, -⟩ := accLoop_some _ _ _ _ _ ht
  have hpos := d.size_pos
  rw [List.length_take, elements_length, Nat.min_eq_left (by omega)] at hl
  exact interpolate_rotate hv 1 tail (by omega)

/-- The hypotheses of C48 are met by the compiled example circuit for `β = 0, γ = 1`... -/
example : ∃ (cc : CompiledCircuit BlsFr) (d : Domain BlsFr), (build exampleCalls).compile = some cc ∧
    Domain.new? cc.size = some d ∧ d.size = cc.size := by
  obtain ⟨cc, h⟩ := exampleCalls_compiles
  obtain ⟨d, hd, -, hsz, -⟩ := compile_some _ _ h
  exact ⟨cc, d, h, hd, hsz⟩

end acc

end Verif.Plonk

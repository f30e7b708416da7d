import Verif.Plonk.Honest

/-!
# Property C50: the implementation computes the honest proof
-/

set_option linter.unusedSectionVars false
set_option linter.unusedSimpArgs false
set_option linter.unusedVariables false

namespace Verif.Plonk

open Verif.Ark Verif.Kzg Polynomial

variable {F : Type} [FftField F] [DecidableEq F]
  {G1 G2 GT : Type} [AddCommGroup G1] [Module F G1] [AddCommGroup G2] [Module F G2]
  [AddCommGroup GT] [Module F GT] [DecidableEq GT]

/-- Setting of this file. -/
structure Setting (H : Honest F G1) (P : PairingGroups F G1 G2 GT) (d : Domain F) (N : ℕ) : Prop where
  g_eq : H.g = P.g1
  w_eq : H.w = d.gen
  hd : Domain.new? H.cc.size = some d
  wf : H.cc.WellFormed
  hN : H.cc.size ≤ N
  hdig : ∀ b, 8 ≤ (H.env.sha256 b).length

namespace Setting
variable {H : Honest F G1} {P : PairingGroups F G1 G2 GT} {d : Domain F} {N : ℕ} (S : Setting H P d N)
include S

theorem hv : d.Valid := (Domain.new?_valid S.hd).1
theorem hs : d.size = H.cc.size := WellFormed.size_eq S.wf S.hd
theorem npos : 0 < H.cc.size := S.hs ▸ d.size_pos

theorem len {p : DP F} (hp : p ∈ H.cc.polys) : (toPoly p).natDegree ≤ H.n - 1 :=
  natDegree_of_length ((S.wf.len p hp).trans (by have := S.npos; unfold Honest.n; omega))

theorem com_eq {p : DP F} (hp : CanonOrZero p) {q : F[X]} (hq : toPoly p = q) (hdeg : q.natDegree < N + 3) :
    commit (Srs.newFromSecret P H.s N) p = some (H.com q) := by
  rw [commit_iff P H.s N hp, hq]
  exact ⟨hdeg, by rw [Honest.com, S.g_eq]⟩

theorem toPoly_a : toPoly (wirePoly H.cc.gate.fax H.bl.b1 H.bl.b2 d) = H.a := by
  rw [toPoly_wirePoly, S.hs]; rfl
theorem toPoly_b : toPoly (wirePoly H.cc.gate.fbx H.bl.b3 H.bl.b4 d) = H.b := by
  rw [toPoly_wirePoly, S.hs]; rfl
theorem toPoly_c : toPoly (wirePoly H.cc.gate.fcx H.bl.b5 H.bl.b6 d) = H.c := by
  rw [toPoly_wirePoly, S.hs]; rfl

theorem deg_wire {f : DP F} (hf : f ∈ H.cc.polys) (x y : F) :
    (toPoly f + (C x + C y * X) * H.Z).natDegree ≤ H.n + 1 := by
  refine natDegree_add_le_of_le' ((S.len hf).trans (by omega)) ?_
  have := natDegree_mul_le_of_le' (natDegree_blind1 x y) (natDegree_Z_le (F := F) H.n)
  exact this.trans (by omega)

theorem deg_a : H.a.natDegree ≤ H.n + 1 := S.deg_wire (by simp [CompiledCircuit.polys]) _ _
theorem deg_b : H.b.natDegree ≤ H.n + 1 := S.deg_wire (by simp [CompiledCircuit.polys]) _ _
theorem deg_c : H.c.natDegree ≤ H.n + 1 := S.deg_wire (by simp [CompiledCircuit.polys]) _ _

theorem eval_Z (i : ℕ) : H.Z.eval (H.w ^ i) = 0 := by
  rw [Honest.Z, Honest.n, ← S.hs, S.w_eq]; exact eval_Z_domain S.hv i

theorem eval_a (i : ℕ) : H.a.eval (H.w ^ i) = wireVal H.cc H.w 0 i := by
  rw [Honest.a, eval_add, eval_mul, S.eval_Z, mul_zero, add_zero, ← eval_eq]; rfl
theorem eval_b (i : ℕ) : H.b.eval (H.w ^ i) = wireVal H.cc H.w 1 i := by
  rw [Honest.b, eval_add, eval_mul, S.eval_Z, mul_zero, add_zero, ← eval_eq]; rfl
theorem eval_c (i : ℕ) : H.c.eval (H.w ^ i) = wireVal H.cc H.w 2 i := by
  rw [Honest.c, eval_add, eval_mul, S.eval_Z, mul_zero, add_zero, ← eval_eq]; rfl

theorem hNn : H.n ≤ N := S.hN

/-- Round 1. -/
theorem round1_eq : round1 H.cc (Srs.newFromSecret P H.s N) H.bl d =
    some ⟨listOf H.a, listOf H.b, listOf H.c, H.com H.a, H.com H.b, H.com H.c⟩ := by
  have hN := S.hNn
  have da := S.deg_a
  have db := S.deg_b
  have dc := S.deg_c
  unfold round1 commitRound1
  dsimp only
  rw [eq_listOf (canon_wirePoly _ _ _ _) S.toPoly_a, eq_listOf (canon_wirePoly _ _ _ _) S.toPoly_b,
    eq_listOf (canon_wirePoly _ _ _ _) S.toPoly_c]
  rw [S.com_eq (canon_listOf _).orZero (toPoly_listOf _) (by omega),
    S.com_eq (canon_listOf _).orZero (toPoly_listOf _) (by omega),
    S.com_eq (canon_listOf _).orZero (toPoly_listOf _) (by omega)]
  rfl

theorem gen1 {D : List UInt8} (hD : 8 ≤ D.length) : (ChallengeGenerator.mk (some D) false).generate1 H.env =
    some (H.env.rand (fromLeBytes (D.take 8)) 0, ⟨some D, true⟩) := by
  rw [generate1_iff]; exact ⟨rfl, D, rfl, hD, rfl⟩

theorem gen2 {D : List UInt8} (hD : 8 ≤ D.length) : (ChallengeGenerator.mk (some D) false).generate2 H.env =
    some ((H.env.rand (fromLeBytes (D.take 8)) 0, H.env.rand (fromLeBytes (D.take 8)) 1), ⟨some D, true⟩) := by
  rw [generate2_iff]; exact ⟨rfl, D, rfl, hD, rfl⟩

theorem nodes_inj : Set.InjOn (fun i => H.w ^ i) (Finset.range H.n : Set ℕ) := by
  intro i hi j hj hij
  rw [Honest.n, ← S.hs] at hi hj
  simp only [Finset.coe_range, Set.mem_Iio] at hi hj
  simp only [S.w_eq] at hij
  exact S.hv.pow_inj hi hj hij

theorem ext' {p q : F[X]} (hp : p.degree < H.n) (hq : q.degree < H.n)
    (h : ∀ i < H.n, p.eval (H.w ^ i) = q.eval (H.w ^ i)) : p = q := by
  unfold Honest.n at hp hq h
  rw [← S.hs] at hp hq h
  rw [S.w_eq] at h
  exact S.hv.ext hp hq h

theorem toPoly_l1' : toPoly (l1Poly d) = H.L1 := by
  have hn : 0 < H.n := S.npos
  refine S.ext' ?_ ?_ ?_
  · unfold Honest.n; rw [← S.hs]; exact d.degree_interpolate_lt _
  · rw [Honest.L1, Lagrange.degree_basis S.nodes_inj (Finset.mem_range.2 hn), Finset.card_range]
    exact_mod_cast (by omega)
  · intro i hi
    have hi' := hi
    unfold Honest.n at hi'
    rw [← S.hs] at hi'
    have := eval_l1_domain S.hv hi'
    rw [S.w_eq, this, Honest.L1]
    by_cases h0 : i = 0
    · subst h0
      rw [if_pos rfl, ← S.w_eq, Lagrange.eval_basis_self S.nodes_inj (Finset.mem_range.2 hn)]
    · rw [if_neg h0, ← S.w_eq, Lagrange.eval_basis_of_ne (Ne.symm h0) (Finset.mem_range.2 hi)]

/-- Accumulator. -/
theorem acc_eq (hden : ∀ i, i + 1 < H.n → H.rowDen i ≠ 0) {acc accw : DP F}
    (h : computeAcc H.β H.γ d H.cc = some (acc, accw)) : toPoly acc = H.acc := by
  obtain ⟨h1, hrec, hl, -⟩ := C48_accumulator H.cc d S.hd S.hs H.β H.γ acc accw h
  refine S.ext' ((degree_toPoly_lt _).trans_le (by exact_mod_cast hl)) ?_ ?_
  · rw [Honest.acc]
    have := Lagrange.degree_interpolate_lt (fun i => ∏ j ∈ Finset.range i, H.rowNum j / H.rowDen j) S.nodes_inj
    simpa using this
  · intro i hi
    rw [Honest.acc]
    have := Lagrange.eval_interpolate_at_node (fun i => ∏ j ∈ Finset.range i, H.rowNum j / H.rowDen j) S.nodes_inj
      (Finset.mem_range.2 hi)
    rw [this]
    induction i with
    | zero => rw [pow_zero, ← eval_eq, h1]; simp
    | succ i ih =>
      have hih := ih (by omega) (Lagrange.eval_interpolate_at_node _ S.nodes_inj
        (Finset.mem_range.2 (by omega)))
      rw [Finset.prod_range_succ, ← hih]
      have hr := hrec i hi
      have hd0 := hden i hi
      rw [mul_div_assoc', eq_div_iff hd0, S.w_eq, ← eval_eq, ← eval_eq]
      simp only [Honest.rowDen, Honest.rowNum, wireVal, sigmaVal, posLabel, S.w_eq]
      linear_combination hr

theorem deg_acc : H.acc.natDegree ≤ H.n - 1 := by
  have hn : 0 < H.n := S.npos
  have h := Lagrange.degree_interpolate_lt (fun i => ∏ j ∈ Finset.range i, H.rowNum j / H.rowDen j) S.nodes_inj
  by_cases hz : H.acc = 0
  · rw [hz]; simp
  · have h' : H.acc.degree < H.n := by rw [Finset.card_range] at h; exact h
    rw [degree_eq_natDegree hz] at h'
    have : H.acc.natDegree < H.n := by exact_mod_cast h'
    omega

theorem deg_z : H.z.natDegree ≤ H.n + 2 := by
  refine natDegree_add_le_of_le' (S.deg_acc.trans (by omega)) ?_
  exact (natDegree_mul_le_of_le' (natDegree_blind2 _ _ _) (natDegree_Z_le (F := F) H.n)).trans (by omega)

/-- The challenge generator after round 2. -/
theorem round2_none (h : ∃ i, i + 1 < H.n ∧ H.rowDen i = 0) :
    round2 H.env H.cc (Srs.newFromSecret P H.s N) H.bl d
      ⟨listOf H.a, listOf H.b, listOf H.c, H.com H.a, H.com H.b, H.com H.c⟩ = none := by
  unfold round2 accPolys
  simp only [feed_eq, Option.getD_some, S.gen2 (S.hdig _), Option.bind_eq_bind, Option.bind_some]
  have hnone : computeAcc H.β H.γ d H.cc = none := by
    rw [C48_panics_iff H.cc d S.hd S.hs]
    obtain ⟨i, hi, h0⟩ := h
    refine ⟨i, hi, ?_⟩
    simp only [Honest.rowDen, wireVal, sigmaVal, S.w_eq] at h0
    exact h0
  have e : computeAcc (H.env.rand (fromLeBytes (List.take 8 (H.env.sha256 (H.env.sha256 (H.env.sha256
      ((ChallengeGenerator.default).data.getD [] ++ H.env.serG (H.com H.a)) ++ H.env.serG (H.com H.b)) ++
      H.env.serG (H.com H.c))))) 0) (H.env.rand (fromLeBytes (List.take 8 (H.env.sha256 (H.env.sha256 (H.env.sha256
      ((ChallengeGenerator.default).data.getD [] ++ H.env.serG (H.com H.a)) ++ H.env.serG (H.com H.b)) ++
      H.env.serG (H.com H.c))))) 1) d H.cc = none := hnone
  rw [e]; rfl

theorem round2_some (h : ∀ i, i + 1 < H.n → H.rowDen i ≠ 0) :
    round2 H.env H.cc (Srs.newFromSecret P H.s N) H.bl d
      ⟨listOf H.a, listOf H.b, listOf H.c, H.com H.a, H.com H.b, H.com H.c⟩ =
      some ⟨H.β, H.γ, listOf H.z, listOf (H.z.comp (C H.w * X)), H.com H.z,
        ⟨some (digestChain H.env H.env.sha256 H.feeds1), true⟩⟩ := by
  have hacc : ∃ acc accw, computeAcc H.β H.γ d H.cc = some (acc, accw) := by
    cases hc : computeAcc H.β H.γ d H.cc with
    | none =>
      rw [C48_panics_iff H.cc d S.hd S.hs] at hc
      obtain ⟨i, hi, h0⟩ := hc
      refine absurd ?_ (h i hi)
      simp only [Honest.rowDen, wireVal, sigmaVal, S.w_eq]
      exact h0
    | some q => exact ⟨q.1, q.2, rfl⟩
  obtain ⟨acc, accw, hacc⟩ := hacc
  have hzz : ∃ zx zwx, accPolys H.β H.γ H.bl d H.cc = some (zx, zwx) := by
    unfold accPolys; rw [hacc]; exact ⟨_, _, rfl⟩
  obtain ⟨zx, zwx, hzz⟩ := hzz
  obtain ⟨acc', accw', hacc', hz, hcomp, hcz, hczw⟩ := accPolys_spec S.hd S.hs hzz
  rw [hacc, Option.some.injEq, Prod.mk.injEq] at hacc'
  obtain ⟨rfl, rfl⟩ := hacc'
  have hz' : toPoly zx = H.z := by
    rw [hz, S.acc_eq h hacc, S.hs, Honest.z, add_comm]; rfl
  have hw' : toPoly zwx = H.z.comp (C H.w * X) := by rw [hcomp, hz', S.w_eq]
  have e1 := eq_listOf hcz hz'
  have e2 := eq_listOf hczw hw'
  subst e1 e2
  have hN := S.hNn
  have dz := S.deg_z
  unfold round2
  simp only [feed_eq, Option.getD_some, S.gen2 (S.hdig _), Option.bind_eq_bind, Option.bind_some]
  have e : accPolys (H.env.rand (fromLeBytes (List.take 8 (H.env.sha256 (H.env.sha256 (H.env.sha256
      ((ChallengeGenerator.default).data.getD [] ++ H.env.serG (H.com H.a)) ++ H.env.serG (H.com H.b)) ++
      H.env.serG (H.com H.c))))) 0) (H.env.rand (fromLeBytes (List.take 8 (H.env.sha256 (H.env.sha256 (H.env.sha256
      ((ChallengeGenerator.default).data.getD [] ++ H.env.serG (H.com H.a)) ++ H.env.serG (H.com H.b)) ++
      H.env.serG (H.com H.c))))) 1) H.bl d H.cc = some (listOf H.z, listOf (H.z.comp (C H.w * X))) := hzz
  rw [e]
  simp only [Option.bind_some]
  rw [S.com_eq (canon_listOf _).orZero (toPoly_listOf _) (by omega)]
  rfl

/-! ### Round 3 -/

omit S in
/-- The polynomial of the permutation argument of a run: the grand-product step, as a polynomial. -/
noncomputable def _root_.Verif.Plonk.Honest.permPoly (H : Honest F G1) : F[X] :=
  numPoly H.cc H.β H.γ H.a H.b H.c * H.z - denPoly H.cc H.β H.γ H.a H.b H.c * H.z.comp (C H.w * X)

theorem dvd_gate (hg : GatesSatisfied H.cc H.w) : H.Z ∣ gatePoly H.cc H.a H.b H.c := by
  have := (gatePoly_iff S.hv H.cc H.a H.b H.c).2 (by
    intro i hi
    rw [← S.w_eq, S.eval_a, S.eval_b, S.eval_c]
    exact hg i (by rw [← S.hs]; exact hi))
  rw [S.hs] at this; exact this

theorem eval_acc {i : ℕ} (hi : i < H.n) :
    H.acc.eval (H.w ^ i) = ∏ j ∈ Finset.range i, H.rowNum j / H.rowDen j :=
  Lagrange.eval_interpolate_at_node _ S.nodes_inj (Finset.mem_range.2 hi)

theorem eval_z {i : ℕ} (hi : i < H.n) :
    H.z.eval (H.w ^ i) = ∏ j ∈ Finset.range i, H.rowNum j / H.rowDen j := by
  rw [Honest.z, eval_add, eval_mul, S.eval_Z, mul_zero, add_zero, S.eval_acc hi]

theorem eval_z_one : H.z.eval 1 = 1 := by
  have := S.eval_z (i := 0) S.npos
  simpa using this

theorem eval_num (i : ℕ) : (numPoly H.cc H.β H.γ H.a H.b H.c).eval (H.w ^ i) = H.rowNum i := by
  simp only [numPoly, eval_add, eval_mul, eval_C, eval_X, S.eval_a, S.eval_b, S.eval_c, Honest.rowNum,
    posLabel]
  ring

theorem eval_den (i : ℕ) : (denPoly H.cc H.β H.γ H.a H.b H.c).eval (H.w ^ i) = H.rowDen i := by
  simp only [denPoly, eval_add, eval_mul, eval_C, eval_X, S.eval_a, S.eval_b, S.eval_c, Honest.rowDen,
    sigmaVal, eval_eq]

theorem prod_rows (hc : CopiesSatisfied H.cc H.w) :
    ∏ i ∈ Finset.range H.n, H.rowNum i = ∏ i ∈ Finset.range H.n, H.rowDen i := by
  have := hc.prod H.β H.γ
  rw [prod_positions fun l i => wireVal H.cc H.w l i + H.β * posLabel H.cc H.w l i + H.γ,
    prod_positions fun l i => wireVal H.cc H.w l i + H.β * sigmaVal H.cc H.w l i + H.γ] at this
  exact this

theorem dvd_perm (hp : ∏ i ∈ Finset.range H.n, H.rowNum i = ∏ i ∈ Finset.range H.n, H.rowDen i)
    (h : ∀ i, i + 1 < H.n → H.rowDen i ≠ 0) :
    H.Z ∣ H.permPoly := by
  have key : ∀ i < H.n, H.rowNum i * H.z.eval (H.w ^ i) = H.rowDen i * H.z.eval (H.w ^ (i + 1)) := by
    intro i hi
    by_cases hlast : i + 1 < H.n
    · rw [S.eval_z hi, S.eval_z hlast, Finset.prod_range_succ]
      have := h i hlast
      field_simp
    · have hin : i + 1 = H.n := by omega
      have hw1 : H.w ^ (i + 1) = 1 := by
        rw [hin, S.w_eq, Honest.n, ← S.hs, S.hv.pow_size]
      rw [hw1, S.eval_z_one, mul_one, S.eval_z hi, Finset.prod_div_distrib]
      have hp := hp
      rw [← hin, Finset.prod_range_succ, Finset.prod_range_succ] at hp
      have hne : ∏ j ∈ Finset.range i, H.rowDen j ≠ 0 :=
        Finset.prod_ne_zero_iff.2 fun j hj => h j (by have := Finset.mem_range.1 hj; omega)
      rw [mul_div_assoc', div_eq_iff hne]
      linear_combination hp
  have := (S.hv.vanishing_dvd_iff (numPoly H.cc H.β H.γ H.a H.b H.c * H.z -
      denPoly H.cc H.β H.γ H.a H.b H.c * H.z.comp (C H.w * X))).2 (by
    intro i hi
    rw [S.hs] at hi
    rw [← S.w_eq, eval_sub, eval_mul, eval_mul, S.eval_num, S.eval_den, eval_comp, eval_mul, eval_C, eval_X,
      ← pow_succ', key i hi, sub_self])
  rw [S.hs] at this; exact this

theorem eval_L1 {i : ℕ} (hi : i < H.n) : H.L1.eval (H.w ^ i) = if i = 0 then 1 else 0 := by
  rw [← S.toPoly_l1', S.w_eq]
  exact eval_l1_domain S.hv (by rw [S.hs]; exact hi)

theorem dvd_start : H.Z ∣ (H.z - 1) * H.L1 := by
  have := (S.hv.vanishing_dvd_iff ((H.z - 1) * H.L1)).2 (by
    intro i hi
    rw [S.hs] at hi
    rw [← S.w_eq, eval_mul, S.eval_L1 hi]
    split
    · next h0 => subst h0; rw [pow_zero, eval_sub, S.eval_z_one, eval_one]; ring
    · rw [mul_zero])
  rw [S.hs] at this; exact this

theorem monicZ : H.Z.Monic := monic_X_pow_sub_C 1 S.npos.ne'

theorem t_mul (hg : H.Z ∣ gatePoly H.cc H.a H.b H.c) (hp : H.Z ∣ C H.α * H.permPoly) :
    H.t * H.Z = H.qnum := by
  have hdvd : H.Z ∣ H.qnum := by
    unfold Honest.qnum
    exact dvd_add (dvd_add hg hp) (S.dvd_start.mul_left _)
  have := modByMonic_add_div H.qnum H.Z
  rw [(modByMonic_eq_zero_iff_dvd S.monicZ).2 hdvd, zero_add, mul_comm] at this
  exact this

theorem quotient_eq (hg : H.Z ∣ gatePoly H.cc H.a H.b H.c) (hp : H.Z ∣ C H.α * H.permPoly) :
    computeQuotient H.β H.γ H.α (listOf H.a) (listOf H.b) (listOf H.c) (listOf H.z)
      (listOf (H.z.comp (C H.w * X))) d H.cc = some (listOf H.t) := by
  rw [computeQuotient_iff (canon_listOf _), quotLine1_eq, permNum_eq, permDen_eq]
  simp only [toPoly_listOf, S.toPoly_l1', S.hs]
  refine ⟨?_, canon_listOf _, hg, hp, S.dvd_start.mul_left _, S.t_mul hg hp⟩
  rw [Ne, listOf_eq_nil_iff]
  intro h0
  have := S.eval_z_one
  rw [h0] at this
  simp at this

theorem deg_qnum : H.qnum.natDegree ≤ 4 * H.n + 5 := by
  have hn : 0 < H.n := S.npos
  have da := S.deg_a
  have db := S.deg_b
  have dc := S.deg_c
  have dz := S.deg_z
  have sel : ∀ p ∈ H.cc.polys, (toPoly p).natDegree ≤ H.n + 1 := fun p hp => (S.len hp).trans (by omega)
  have lin : ∀ x : F, (C x * X : F[X]).natDegree ≤ H.n + 1 := fun x =>
    ((natDegree_C_mul_le _ _).trans natDegree_X_le).trans (by omega)
  have con : ∀ x : F, (C x : F[X]).natDegree ≤ H.n + 1 := fun x => by rw [natDegree_C]; omega
  have hgate : (gatePoly H.cc H.a H.b H.c).natDegree ≤ 3 * H.n + 3 := by
    unfold gatePoly
    refine natDegree_add_le_of_le' (natDegree_add_le_of_le' (natDegree_add_le_of_le' (natDegree_add_le_of_le'
      (natDegree_add_le_of_le' ?_ ?_) ?_) ?_) ?_) ?_
    · exact (natDegree_mul_le_of_le' (natDegree_mul_le_of_le' da db)
        (sel _ (by simp [CompiledCircuit.polys]))).trans (by omega)
    · exact (natDegree_mul_le_of_le' da (sel _ (by simp [CompiledCircuit.polys]))).trans (by omega)
    · exact (natDegree_mul_le_of_le' db (sel _ (by simp [CompiledCircuit.polys]))).trans (by omega)
    · exact (natDegree_mul_le_of_le' dc (sel _ (by simp [CompiledCircuit.polys]))).trans (by omega)
    · exact (sel _ (by simp [CompiledCircuit.polys])).trans (by omega)
    · exact (sel _ (by simp [CompiledCircuit.polys])).trans (by omega)
  have hnum : (numPoly H.cc H.β H.γ H.a H.b H.c).natDegree ≤ 3 * H.n + 3 := by
    unfold numPoly
    have := natDegree_mul_le_of_le' (natDegree_mul_le_of_le'
      (natDegree_add_le_of_le' (natDegree_add_le_of_le' da (lin H.β)) (con H.γ))
      (natDegree_add_le_of_le' (natDegree_add_le_of_le' db (lin (H.β * H.cc.copy.k1))) (con H.γ)))
      (natDegree_add_le_of_le' (natDegree_add_le_of_le' dc (lin (H.β * H.cc.copy.k2))) (con H.γ))
    exact this.trans (by omega)
  have hden : (denPoly H.cc H.β H.γ H.a H.b H.c).natDegree ≤ 3 * H.n + 3 := by
    unfold denPoly
    have := natDegree_mul_le_of_le' (natDegree_mul_le_of_le'
      (natDegree_add_le_of_le' (natDegree_add_le_of_le' da (natDegree_C_mul_le' H.β
        (sel H.cc.copy.s1 (by simp [CompiledCircuit.polys])))) (con H.γ))
      (natDegree_add_le_of_le' (natDegree_add_le_of_le' db (natDegree_C_mul_le' H.β
        (sel H.cc.copy.s2 (by simp [CompiledCircuit.polys])))) (con H.γ)))
      (natDegree_add_le_of_le' (natDegree_add_le_of_le' dc (natDegree_C_mul_le' H.β
        (sel H.cc.copy.s3 (by simp [CompiledCircuit.polys])))) (con H.γ))
    exact this.trans (by omega)
  unfold Honest.qnum
  refine natDegree_add_le_of_le' (natDegree_add_le_of_le' (hgate.trans (by omega)) (natDegree_C_mul_le' _
    (natDegree_sub_le_of_le' ?_ ?_))) (natDegree_C_mul_le' _ ?_)
  · exact (natDegree_mul_le_of_le' hnum dz).trans (by omega)
  · exact (natDegree_mul_le_of_le' hden ((natDegree_comp_scale _ _).trans dz)).trans (by omega)
  · have hL : H.L1.natDegree ≤ H.n := by
      rw [← S.toPoly_l1']
      exact natDegree_of_length ((d.length_interpolate_le _).trans (by rw [S.hs]; exact Nat.le_succ _))
    exact (natDegree_mul_le_of_le' (natDegree_sub_le_of_le' dz (by rw [natDegree_one]; omega)) hL).trans (by omega)

theorem deg_t : H.t.natDegree ≤ 3 * H.n + 5 := by
  have h := S.deg_qnum
  have hz : H.Z.natDegree = H.n := natDegree_X_pow_sub_C
  rw [Honest.t, natDegree_divByMonic _ S.monicZ, hz]
  omega

theorem m_le : H.m ≤ H.n + 2 := by
  have := S.deg_t
  unfold Honest.m; omega

theorem slices_eq (ht : H.t ≠ 0) : SlicePoly.new (listOf H.t) =
    some ⟨listOf H.tLo, listOf H.tMid, listOf H.tHi, H.m - 1⟩ ∧
    H.tLo.natDegree < H.m ∧ H.tMid.natDegree < H.m ∧ H.tHi.natDegree < H.m := by
  have hne : listOf H.t ≠ [] := fun h => ht ((listOf_eq_nil_iff _).1 h)
  obtain ⟨sp, hsp, htp, hlo, hmid, hhi, l1, l2, l3, hl, hu⟩ := (C47_slices (listOf H.t)).2 hne
  have hlen := canon_length (canon_listOf H.t) (by rw [toPoly_listOf]; exact ht)
  rw [toPoly_listOf] at hlen htp
  have hm : sp.degree + 1 = H.m := by unfold Honest.m; omega
  rw [hm] at htp l1 l2 l3
  have hmono : (X ^ H.m : F[X]).Monic := monic_X_pow _
  have dX : (X ^ H.m : F[X]).degree = H.m := degree_X_pow _
  have u1 := div_modByMonic_unique (f := H.t) (toPoly sp.mid + X ^ H.m * toPoly sp.hi) (toPoly sp.lo) hmono
    ⟨by rw [htp]; ring, by rw [dX]; exact (degree_toPoly_lt _).trans_le (by exact_mod_cast l1)⟩
  have u2 := div_modByMonic_unique (f := toPoly sp.mid + X ^ H.m * toPoly sp.hi) (toPoly sp.hi) (toPoly sp.mid) hmono
    ⟨by ring, by rw [dX]; exact (degree_toPoly_lt _).trans_le (by exact_mod_cast l2)⟩
  have e1 : toPoly sp.lo = H.tLo := u1.2.symm
  have e2 : toPoly sp.mid = H.tMid := by rw [Honest.tMid, u1.1, u2.2]
  have e3 : toPoly sp.hi = H.tHi := by rw [Honest.tHi, u1.1, u2.1]
  have hmpos : 0 < H.m := by unfold Honest.m; omega
  refine ⟨?_, ?_, ?_, ?_⟩
  · rw [hsp]
    congr 1
    obtain ⟨lo, mid, hi, deg⟩ := sp
    dsimp only at *
    rw [eq_listOf hlo e1, eq_listOf hmid e2, eq_listOf hhi e3]
    congr 1
    omega
  · rw [← e1]; exact natDegree_lt_of_length l1 hmpos
  · rw [← e2]; exact natDegree_lt_of_length l2 hmpos
  · rw [← e3]; exact natDegree_lt_of_length l3 hmpos

/-- Round 3 input from round 2. -/
theorem round3_eq (hg : H.Z ∣ gatePoly H.cc H.a H.b H.c) (hp : H.Z ∣ C H.α * H.permPoly) :
    (H.t = 0 → round3 H.env H.cc (Srs.newFromSecret P H.s N) d
      ⟨listOf H.a, listOf H.b, listOf H.c, H.com H.a, H.com H.b, H.com H.c⟩
      ⟨H.β, H.γ, listOf H.z, listOf (H.z.comp (C H.w * X)), H.com H.z,
        ⟨some (digestChain H.env H.env.sha256 H.feeds1), true⟩⟩ = none) ∧
    (H.t ≠ 0 → round3 H.env H.cc (Srs.newFromSecret P H.s N) d
      ⟨listOf H.a, listOf H.b, listOf H.c, H.com H.a, H.com H.b, H.com H.c⟩
      ⟨H.β, H.γ, listOf H.z, listOf (H.z.comp (C H.w * X)), H.com H.z,
        ⟨some (digestChain H.env H.env.sha256 H.feeds1), true⟩⟩ =
      some ⟨H.α, ⟨listOf H.tLo, listOf H.tMid, listOf H.tHi, H.m - 1⟩, H.com H.tLo, H.com H.tMid, H.com H.tHi,
        ⟨some (digestChain H.env H.env.sha256 H.feeds2), true⟩⟩) := by
  have hq := S.quotient_eq hg hp
  have hdc : H.env.sha256 (digestChain H.env H.env.sha256 H.feeds1 ++ H.env.serG (H.com H.z)) =
    digestChain H.env H.env.sha256 H.feeds2 := by
    rw [← digestChain_append H.env H.env.sha256 H.feeds1 (H.com H.z)]; rfl
  have hα : H.env.rand (fromLeBytes (List.take 8 (digestChain H.env H.env.sha256 H.feeds2))) 0 = H.α := rfl
  have hg1 := S.gen1 (D := digestChain H.env H.env.sha256 H.feeds2) (by rw [← hdc]; exact S.hdig _)
  unfold round3 SlicePoly.commit
  simp only [feed_eq, Option.getD_some, hdc, hg1, Option.bind_eq_bind, Option.bind_some, hα, hq]
  constructor
  · intro ht
    have : listOf H.t = [] := (listOf_eq_nil_iff _).2 ht
    rw [this, (C47_slices []).1 rfl]; rfl
  · intro ht
    obtain ⟨hsp, d1, d2, d3⟩ := S.slices_eq ht
    have hm := S.m_le
    have hN := S.hNn
    rw [hsp]
    simp only [Option.bind_some]
    rw [S.com_eq (canon_listOf _).orZero (toPoly_listOf _) (by omega),
      S.com_eq (canon_listOf _).orZero (toPoly_listOf _) (by omega),
      S.com_eq (canon_listOf _).orZero (toPoly_listOf _) (by omega)]
    rfl

/-- digest after feeding one more list of points -/
theorem chain_append (cs : List G1) (c : G1) :
    H.env.sha256 (digestChain H.env H.env.sha256 cs ++ H.env.serG c) = digestChain H.env H.env.sha256 (cs ++ [c]) :=
  (digestChain_append _ _ _ _).symm

theorem chain_len (cs : List G1) (c : G1) : 8 ≤ (digestChain H.env H.env.sha256 (cs ++ [c])).length := by
  rw [digestChain_append]; exact S.hdig _

/-- Round 4. -/
theorem round4_eq :
    round4 H.env H.cc d ⟨listOf H.a, listOf H.b, listOf H.c, H.com H.a, H.com H.b, H.com H.c⟩
      ⟨H.β, H.γ, listOf H.z, listOf (H.z.comp (C H.w * X)), H.com H.z,
        ⟨some (digestChain H.env H.env.sha256 H.feeds1), true⟩⟩
      ⟨H.α, ⟨listOf H.tLo, listOf H.tMid, listOf H.tHi, H.m - 1⟩, H.com H.tLo, H.com H.tMid, H.com H.tHi,
        ⟨some (digestChain H.env H.env.sha256 H.feeds2), true⟩⟩ =
    some ⟨H.ζ, H.bar, (toPoly H.cc.gate.pix).eval H.ζ,
      SlicePoly.compact ⟨listOf H.tLo, listOf H.tMid, listOf H.tHi, H.m - 1⟩ H.ζ,
      ⟨some (digestChain H.env H.env.sha256 H.feeds3), true⟩⟩ := by
  have hf : H.feeds2 ++ [H.com H.tLo] ++ [H.com H.tMid] ++ [H.com H.tHi] = H.feeds3 := by
    simp [Honest.feeds3]
  have hl := S.chain_len (H.feeds2 ++ [H.com H.tLo] ++ [H.com H.tMid]) (H.com H.tHi)
  rw [hf] at hl
  have hζ : H.env.rand (fromLeBytes (List.take 8 (digestChain H.env H.env.sha256 H.feeds3))) 0 = H.ζ := rfl
  unfold round4
  simp only [feed_eq, Option.getD_some, S.chain_append, hf, S.gen1 hl, Option.bind_eq_bind, Option.bind_some,
    hζ, pure, eval_eq, toPoly_listOf, Domain.element, pow_one, ← S.w_eq]
  rfl

theorem feedBars_eq : feedBars H.env H.env.sha256 (Srs.newFromSecret P H.s N) H.bar
      ⟨some (digestChain H.env H.env.sha256 H.feeds3), true⟩ =
    some ⟨some (digestChain H.env H.env.sha256 H.feeds4), false⟩ := by
  have hf : H.feeds3 ++ [H.bar.a • H.g] ++ [H.bar.b • H.g] ++ [H.bar.c • H.g] ++ [H.bar.s1 • H.g] ++
      [H.bar.s2 • H.g] ++ [H.bar.zw • H.g] = H.feeds4 := by
    simp [Honest.feeds4]
  unfold feedBars
  simp only [commitPara_eq, Option.bind_eq_bind, Option.bind_some, feed_eq, Option.getD_some, ← S.g_eq,
    S.chain_append, hf, pure]

theorem gen_v : (ChallengeGenerator.mk (some (digestChain H.env H.env.sha256 H.feeds4)) false).generate1 H.env =
    some (H.v, ⟨some (digestChain H.env H.env.sha256 H.feeds4), true⟩) := by
  have hf : H.feeds3 ++ [H.bar.a • H.g] ++ [H.bar.b • H.g] ++ [H.bar.c • H.g] ++ [H.bar.s1 • H.g] ++
      [H.bar.s2 • H.g] ++ [H.bar.zw • H.g] = H.feeds4 := by
    simp [Honest.feeds4]
  have hl := S.chain_len (H.feeds3 ++ [H.bar.a • H.g] ++ [H.bar.b • H.g] ++ [H.bar.c • H.g] ++ [H.bar.s1 • H.g] ++
      [H.bar.s2 • H.g]) (H.bar.zw • H.g)
  rw [hf] at hl
  rw [S.gen1 hl]; rfl

theorem z_ne : H.z ≠ 0 := by
  intro h0
  have := S.eval_z_one
  rw [h0] at this
  simp at this

theorem m_pos : H.m - 1 + 1 = H.m := by unfold Honest.m; omega

/-- the linearisation polynomial of the model is the specified one -/
theorem linPoly_eq : linPoly H.β H.γ H.α H.ζ H.bar ((toPoly H.cc.gate.pix).eval H.ζ)
      (toPoly (SlicePoly.compact ⟨listOf H.tLo, listOf H.tMid, listOf H.tHi, H.m - 1⟩ H.ζ)) (toPoly (listOf H.z))
      (C (Ark.eval (l1Poly d) H.ζ)) d.size H.cc = H.r := by
  unfold linPoly Honest.r
  simp only [toPoly_compact, toPoly_listOf, toPoly_linLine1, eval_eq, S.toPoly_l1', S.hs, S.m_pos, Honest.lin1,
    Honest.n]
  simp only [C_mul, C_add, C_pow]
  ring

theorem bar_eq : (⟨Ark.eval (listOf H.a) H.ζ, Ark.eval (listOf H.b) H.ζ, Ark.eval (listOf H.c) H.ζ,
    Ark.eval H.cc.copy.s1 H.ζ, Ark.eval H.cc.copy.s2 H.ζ, Ark.eval (listOf H.z) (H.ζ * d.element 1)⟩ : Bars F) =
    H.bar := by
  simp only [eval_eq, toPoly_listOf, Domain.element, pow_one, ← S.w_eq]
  rfl

theorem eval_r (hg : H.Z ∣ gatePoly H.cc H.a H.b H.c) (hp : H.Z ∣ C H.α * H.permPoly)
    (ht : H.t ≠ 0) : H.r.eval H.ζ = 0 := by
  have hq := S.quotient_eq hg hp
  rw [computeQuotient_iff (canon_listOf _)] at hq
  have := eval_linPoly_zero (ev := H.ζ) _ (S.slices_eq ht).1
    (by rw [toPoly_listOf, toPoly_listOf, S.w_eq]) hq.2.2.2.2.2
  rw [S.bar_eq, eval_eq H.cc.gate.pix, S.linPoly_eq] at this
  exact this

/-- The linearisation polynomial as computed. -/
theorem lin_eq : (H.lin1 ≠ 0 → H.β ≠ 0 → toPoly H.cc.copy.s3 ≠ 0 →
    computeLinearisation H.β H.γ H.α H.ζ H.bar ((toPoly H.cc.gate.pix).eval H.ζ)
      (SlicePoly.compact ⟨listOf H.tLo, listOf H.tMid, listOf H.tHi, H.m - 1⟩ H.ζ) (listOf H.z) (listOf H.a)
      (listOf H.b) (listOf H.c) (listOf (H.z.comp (C H.w * X))) d H.cc = some (listOf H.r)) ∧
    (H.lin1 = 0 ∨ H.β = 0 ∨ toPoly H.cc.copy.s3 = 0 →
    computeLinearisation H.β H.γ H.α H.ζ H.bar ((toPoly H.cc.gate.pix).eval H.ζ)
      (SlicePoly.compact ⟨listOf H.tLo, listOf H.tMid, listOf H.tHi, H.m - 1⟩ H.ζ) (listOf H.z) (listOf H.a)
      (listOf H.b) (listOf H.c) (listOf (H.z.comp (C H.w * X))) d H.cc = none) := by
  have hs3 : Canon H.cc.copy.s3 := S.wf.canon _ (by simp [CompiledCircuit.polys])
  have e1 : linLine1 H.cc H.bar = [] ↔ H.lin1 = 0 := by
    rw [canon_eq_nil_iff (show Canon (linLine1 H.cc H.bar) from canon_add _ _), toPoly_linLine1]; rfl
  have e2 : smul H.cc.copy.s3 H.β = [] ↔ H.β = 0 ∨ toPoly H.cc.copy.s3 = 0 := by
    rw [canon_eq_nil_iff (canon_smul hs3 _), toPoly_smul, mul_eq_zero, C_eq_zero]
  constructor
  · intro h1 h2 h3
    rw [computeLinearisation_iff]
    refine ⟨fun h => h1 (e1.1 h), fun h => (e2.1 h).elim h2 h3, fun h => S.z_ne ((listOf_eq_nil_iff _).1 h), ?_,
      canon_listOf _, ?_⟩
    · rw [← S.bar_eq]
      exact linAssertion_holds (by rw [toPoly_listOf, toPoly_listOf, S.w_eq])
    · rw [S.linPoly_eq, toPoly_listOf]
  · intro hh
    rw [Option.eq_none_iff_forall_ne_some]
    intro rx hrx
    rw [computeLinearisation_iff] at hrx
    rcases hh with h | h | h
    · exact hrx.1 (e1.2 h)
    · exact hrx.2.1 (e2.2 (Or.inl h))
    · exact hrx.2.1 (e2.2 (Or.inr h))

theorem deg_r (ht : H.t ≠ 0) : H.r.natDegree ≤ H.n + 2 := by
  obtain ⟨-, d1, d2, d3⟩ := S.slices_eq ht
  have hm := S.m_le
  have dz := S.deg_z
  have sel : ∀ p ∈ H.cc.polys, (toPoly p).natDegree ≤ H.n + 2 := fun p hp => (S.len hp).trans (by omega)
  have con : ∀ x : F, (C x : F[X]).natDegree ≤ H.n + 2 := fun x => by rw [natDegree_C]; omega
  have hl1 : H.lin1.natDegree ≤ H.n + 2 := by
    unfold Honest.lin1
    refine natDegree_add_le_of_le' (natDegree_add_le_of_le' (natDegree_add_le_of_le' (natDegree_add_le_of_le'
      (natDegree_C_mul_le' _ ?_) (natDegree_C_mul_le' _ ?_)) (natDegree_C_mul_le' _ ?_)) (natDegree_C_mul_le' _ ?_)) ?_
    all_goals exact sel _ (by simp [CompiledCircuit.polys])
  unfold Honest.r
  refine natDegree_sub_le_of_le' (natDegree_add_le_of_le' (natDegree_sub_le_of_le' (natDegree_add_le_of_le'
    (natDegree_add_le_of_le' hl1 (con _)) (natDegree_C_mul_le' _ dz)) (natDegree_C_mul_le' _ ?_))
    (natDegree_C_mul_le' _ ?_)) (natDegree_C_mul_le' _ ?_)
  · exact natDegree_add_le_of_le' (natDegree_add_le_of_le' (con _)
      (natDegree_C_mul_le' _ (sel _ (by simp [CompiledCircuit.polys])))) (con _)
  · exact natDegree_sub_le_of_le' dz (by rw [natDegree_one]; omega)
  · exact natDegree_add_le_of_le' (natDegree_add_le_of_le' (by omega) (natDegree_C_mul_le' _ (by omega)))
      (natDegree_C_mul_le' _ (by omega))

theorem divRoot_eq {p : DP F} (hp : CanonOrZero p) {q : F[X]} (hq : toPoly p = q) (x : F) (hx : q.eval x = 0) :
    divideRoot p x = some (listOf (q /ₘ (X - C x))) := by
  rw [divideRoot_iff hp, toPoly_listOf, hq]
  refine ⟨canon_listOf _, ?_⟩
  rw [mul_comm, mul_divByMonic_eq_iff_isRoot]; exact hx

theorem deg_Ww : H.Ww.natDegree ≤ H.n + 2 := by
  have := S.deg_z
  rw [Honest.Ww, natDegree_divByMonic _ (monic_X_sub_C _)]
  have h2 : (H.z - C H.bar.zw).natDegree ≤ H.n + 2 :=
    natDegree_sub_le_of_le' this (by rw [natDegree_C]; omega)
  omega

theorem deg_W (ht : H.t ≠ 0) : H.W.natDegree ≤ H.n + 2 := by
  have hr := S.deg_r ht
  have da := S.deg_a
  have db := S.deg_b
  have dc := S.deg_c
  have con : ∀ x : F, (C x : F[X]).natDegree ≤ H.n + 2 := fun x => by rw [natDegree_C]; omega
  have sel : ∀ p ∈ H.cc.polys, (toPoly p).natDegree ≤ H.n + 2 := fun p hp => (S.len hp).trans (by omega)
  rw [Honest.W, natDegree_divByMonic _ (monic_X_sub_C _)]
  refine (Nat.sub_le _ _).trans ?_
  refine natDegree_add_le_of_le' (natDegree_add_le_of_le' (natDegree_add_le_of_le' (natDegree_add_le_of_le'
    (natDegree_add_le_of_le' hr ?_) ?_) ?_) ?_) ?_ <;> refine natDegree_C_mul_le' _ (natDegree_sub_le_of_le' ?_ (con _))
  · omega
  · omega
  · omega
  · exact sel _ (by simp [CompiledCircuit.polys])
  · exact sel _ (by simp [CompiledCircuit.polys])

/-- Round 5, non-degenerate. -/
theorem round5_some (hg : H.Z ∣ gatePoly H.cc H.a H.b H.c) (hp : H.Z ∣ C H.α * H.permPoly)
    (hnd : ¬ H.Degenerate) :
    round5 H.env H.cc (Srs.newFromSecret P H.s N) d
      ⟨listOf H.a, listOf H.b, listOf H.c, H.com H.a, H.com H.b, H.com H.c⟩
      ⟨H.β, H.γ, listOf H.z, listOf (H.z.comp (C H.w * X)), H.com H.z,
        ⟨some (digestChain H.env H.env.sha256 H.feeds1), true⟩⟩
      ⟨H.α, ⟨listOf H.tLo, listOf H.tMid, listOf H.tHi, H.m - 1⟩, H.com H.tLo, H.com H.tMid, H.com H.tHi,
        ⟨some (digestChain H.env H.env.sha256 H.feeds2), true⟩⟩
      ⟨H.ζ, H.bar, (toPoly H.cc.gate.pix).eval H.ζ,
        SlicePoly.compact ⟨listOf H.tLo, listOf H.tMid, listOf H.tHi, H.m - 1⟩ H.ζ,
        ⟨some (digestChain H.env H.env.sha256 H.feeds3), true⟩⟩ = some H.proof := by
  unfold Honest.Degenerate at hnd
  push Not at hnd
  obtain ⟨hden, ht, hl1, hβ, hr, ha, hb, hcc, h1, h2, h3⟩ := hnd
  have hr0 := S.eval_r hg hp ht
  have hN := S.hNn
  have dW := S.deg_W ht
  have dWw := S.deg_Ww
  have hop : openingPoly H.cc H.v H.bar (listOf H.r) (listOf H.a) (listOf H.b) (listOf H.c)
      (Ark.eval (listOf H.r) H.ζ) = some (listOf (H.r + C H.v * (H.a - C H.bar.a) + C (H.v ^ 2) * (H.b - C H.bar.b) +
        C (H.v ^ 3) * (H.c - C H.bar.c) + C (H.v ^ 4) * (toPoly H.cc.copy.s1 - C H.bar.s1) +
        C (H.v ^ 5) * (toPoly H.cc.copy.s2 - C H.bar.s2))) := by
    rw [openingPoly_iff]
    have c1 : Canon H.cc.copy.s1 := S.wf.canon _ (by simp [CompiledCircuit.polys])
    have c2 : Canon H.cc.copy.s2 := S.wf.canon _ (by simp [CompiledCircuit.polys])
    simp only [Ne, listOf_eq_nil_iff, canon_eq_nil_iff c1, canon_eq_nil_iff c2, toPoly_listOf, eval_eq, hr0, C_0,
      sub_zero]
    exact ⟨hr, ha, hb, hcc, h1, h2, canon_listOf _, trivial⟩
  have hdw := S.divRoot_eq (canon_listOf (H.r + C H.v * (H.a - C H.bar.a) + C (H.v ^ 2) * (H.b - C H.bar.b) +
        C (H.v ^ 3) * (H.c - C H.bar.c) + C (H.v ^ 4) * (toPoly H.cc.copy.s1 - C H.bar.s1) +
        C (H.v ^ 5) * (toPoly H.cc.copy.s2 - C H.bar.s2))).orZero (toPoly_listOf _) H.ζ
        (by simp only [eval_add, eval_mul, eval_sub, eval_C, hr0, Honest.bar]; ring)
  obtain ⟨zz, hzz⟩ := polySubPara_isSome (fun h => S.z_ne ((listOf_eq_nil_iff _).1 h)) H.bar.zw
  have hzp := toPoly_polySubPara hzz
  rw [toPoly_listOf] at hzp
  have hdww := S.divRoot_eq (canonOrZero_subFirst (canon_listOf _) hzz) hzp (H.ζ * H.w)
    (by simp only [eval_sub, eval_C, Honest.bar]; ring)
  have hf : H.feeds4 ++ [H.com H.W] ++ [H.com H.Ww] = H.feeds5 := by simp [Honest.feeds5]
  have hl := S.chain_len (H.feeds4 ++ [H.com H.W]) (H.com H.Ww)
  rw [hf] at hl
  have hW : H.com H.W = H.com H.W := rfl
  have cW := S.com_eq (canon_listOf H.W).orZero (toPoly_listOf _) (by omega)
  have cWw := S.com_eq (canon_listOf H.Ww).orZero (toPoly_listOf _) (by omega)
  have hu : H.env.rand (fromLeBytes (List.take 8 (digestChain H.env H.env.sha256 H.feeds5))) 0 = H.u := rfl
  unfold round5
  dsimp only
  rw [S.feedBars_eq]
  simp only [Option.bind_eq_bind, Option.bind_some, S.gen_v, S.lin_eq.1 hl1 hβ h3, hop, hdw, hzz, Domain.element,
    pow_one, ← S.w_eq, hdww]
  change (commit _ (listOf H.W)).bind (fun wC => (commit _ (listOf H.Ww)).bind _) = _
  rw [cW, Option.bind_some, cWw, Option.bind_some]
  simp only [feed_eq, Option.getD_some, S.chain_append, hf, S.gen1 hl, Option.bind_some, hu]
  rfl

/-- Round 5, degenerate. -/
theorem round5_none (h : H.lin1 = 0 ∨ H.β = 0 ∨ H.r = 0 ∨ H.a = 0 ∨ H.b = 0 ∨ H.c = 0 ∨
    toPoly H.cc.copy.s1 = 0 ∨ toPoly H.cc.copy.s2 = 0 ∨ toPoly H.cc.copy.s3 = 0) :
    round5 H.env H.cc (Srs.newFromSecret P H.s N) d
      ⟨listOf H.a, listOf H.b, listOf H.c, H.com H.a, H.com H.b, H.com H.c⟩
      ⟨H.β, H.γ, listOf H.z, listOf (H.z.comp (C H.w * X)), H.com H.z,
        ⟨some (digestChain H.env H.env.sha256 H.feeds1), true⟩⟩
      ⟨H.α, ⟨listOf H.tLo, listOf H.tMid, listOf H.tHi, H.m - 1⟩, H.com H.tLo, H.com H.tMid, H.com H.tHi,
        ⟨some (digestChain H.env H.env.sha256 H.feeds2), true⟩⟩
      ⟨H.ζ, H.bar, (toPoly H.cc.gate.pix).eval H.ζ,
        SlicePoly.compact ⟨listOf H.tLo, listOf H.tMid, listOf H.tHi, H.m - 1⟩ H.ζ,
        ⟨some (digestChain H.env H.env.sha256 H.feeds3), true⟩⟩ = none := by
  unfold round5
  dsimp only
  rw [S.feedBars_eq]
  simp only [Option.bind_eq_bind, Option.bind_some, S.gen_v]
  by_cases hL : H.lin1 = 0 ∨ H.β = 0 ∨ toPoly H.cc.copy.s3 = 0
  · rw [S.lin_eq.2 hL]; rfl
  · push Not at hL
    rw [S.lin_eq.1 hL.1 hL.2.1 hL.2.2, Option.bind_some]
    have : openingPoly H.cc H.v H.bar (listOf H.r) (listOf H.a) (listOf H.b) (listOf H.c)
      (Ark.eval (listOf H.r) H.ζ) = none := by
      rw [Option.eq_none_iff_forall_ne_some]
      intro w hw
      rw [openingPoly_iff] at hw
      have c1 : Canon H.cc.copy.s1 := S.wf.canon _ (by simp [CompiledCircuit.polys])
      have c2 : Canon H.cc.copy.s2 := S.wf.canon _ (by simp [CompiledCircuit.polys])
      simp only [Ne, listOf_eq_nil_iff, canon_eq_nil_iff c1, canon_eq_nil_iff c2] at hw
      tauto
    rw [this]; rfl

end Setting

/-- **C50**: for a circuit whose gate equations and copy constraints hold, `generate_proof` returns exactly the
honest PLONK proof of the specification `Honest` (the blinded wires, grand product, quotient slices,
evaluations and openings), except in the degenerate cases listed in `Honest.Degenerate`, in which it panics; and
the returned proof is accepted unless the evaluation challenge is 1.  For every well-formed circuit of any size,
every secret, SRS of size at least the circuit size, blinding values, hash function (of at least 8 bytes) and
random generator. -/
theorem C50_honest_prover (H : Honest F G1) (T : List UInt8 → List UInt8) (P : PairingGroups F G1 G2 GT) (N : ℕ)
    (d : Domain F) (hd : Domain.new? H.cc.size = some d) (hw : H.w = d.gen) (hgen : H.g = P.g1)
    (hwf : H.cc.WellFormed) (hN : H.cc.size ≤ N) (hdig : ∀ b, 8 ≤ (H.env.sha256 b).length)
    (hgates : GatesSatisfied H.cc H.w) (hcopies : CopiesSatisfied H.cc H.w) :
    (H.Degenerate → generateProof H.env T H.cc (Srs.newFromSecret P H.s N) H.bl = none) ∧
    (¬ H.Degenerate → generateProof H.env T H.cc (Srs.newFromSecret P H.s N) H.bl = some H.proof) ∧
    (¬ H.Degenerate → H.ζ ≠ 1 →
      verify H.env H.env.sha256 P H.cc (Srs.newFromSecret P H.s N) H.proof = some (.ok ())) := by
  have S : Setting H P d N := ⟨hgen, hw, hd, hwf, hN, hdig⟩
  have hsome : ¬ H.Degenerate → generateProof H.env T H.cc (Srs.newFromSecret P H.s N) H.bl = some H.proof := by
    intro hnd
    have hnd' := hnd
    unfold Honest.Degenerate at hnd'
    push Not at hnd'
    unfold generateProof
    simp only [hd, Option.bind_eq_bind, Option.bind_some, S.round1_eq, S.round2_some hnd'.1,
      (S.round3_eq (S.dvd_gate hgates) ((S.dvd_perm (S.prod_rows hcopies) hnd'.1).mul_left _)).2 hnd'.2.1, S.round4_eq, 
      S.round5_some (S.dvd_gate hgates) ((S.dvd_perm (S.prod_rows hcopies) hnd'.1).mul_left _) hnd]
  refine ⟨?_, hsome, ?_⟩
  · intro hdeg
    unfold generateProof
    simp only [hd, Option.bind_eq_bind, Option.bind_some, S.round1_eq]
    by_cases hden : ∃ i, i + 1 < H.n ∧ H.rowDen i = 0
    · rw [S.round2_none hden]; rfl
    · push Not at hden
      rw [S.round2_some hden, Option.bind_some]
      by_cases ht : H.t = 0
      · rw [(S.round3_eq (S.dvd_gate hgates) ((S.dvd_perm (S.prod_rows hcopies) hden).mul_left _)).1 ht]; rfl
      · rw [(S.round3_eq (S.dvd_gate hgates) ((S.dvd_perm (S.prod_rows hcopies) hden).mul_left _)).2 ht, Option.bind_some, S.round4_eq, Option.bind_some]
        apply S.round5_none
        unfold Honest.Degenerate at hdeg
        rcases hdeg with ⟨i, hi, h0⟩ | h0 | hdeg
        · exact absurd h0 (hden i hi)
        · exact absurd h0 ht
        · exact hdeg
  · intro hnd hζ
    have h49 := (C49_proof_verifies H.env T hdig P H.s N H.cc hwf (hN.trans (Nat.le_add_right _ _)) H.bl H.proof
      (hsome hnd)).1
    have hf : H.proof.feedsBefore P.g1 3 = H.feeds3 := by
      simp only [Proof.feedsBefore, Honest.proof, Honest.feeds3, Honest.feeds2, Honest.feeds1, List.cons_append,
        List.nil_append]
    apply h49
    unfold Proof.challenges
    dsimp only
    rw [hf]
    exact hζ

end Verif.Plonk

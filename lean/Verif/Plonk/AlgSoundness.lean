import Verif.Plonk.Compiled

/-!
# C73: the verifier rejects algebraic provers of violated circuits, challenge by challenge

The prover is algebraic: every group element of the proof is a commitment to a polynomial it has chosen.  It may
choose each polynomial and each field element of the proof with knowledge of all challenges drawn before.
-/

set_option linter.unusedSectionVars false
set_option linter.unusedSimpArgs false
set_option linter.unusedVariables false

namespace Verif.Plonk

open Verif.Ark Verif.Kzg Polynomial

/-! ## Specification -/

/-- All elements except at most `k` satisfy `P`. -/
def AllBut {F : Type} (k : ℕ) (P : F → Prop) : Prop := ∃ B : Finset F, B.card ≤ k ∧ ∀ x, x ∉ B → P x

/-- The proof an algebraic prover sends: commitments to its polynomials under the secret `s`, and the claimed
evaluations, the challenge `u` and the slice degree. -/
noncomputable def algProof {F G1 : Type} [Field F] [AddCommGroup G1] [Module F G1] (g : G1) (s : F)
    (a b c z tLo tMid tHi W W' : F[X]) (bar : Bars F) (u : F) (degree : ℕ) : Proof F G1 where
  aC := a.eval s • g
  bC := b.eval s • g
  cC := c.eval s • g
  zC := z.eval s • g
  tLoC := tLo.eval s • g
  tMidC := tMid.eval s • g
  tHiC := tHi.eval s • g
  wC := W.eval s • g
  wwC := W'.eval s • g
  barA := bar.a
  barB := bar.b
  barC := bar.c
  barS1 := bar.s1
  barS2 := bar.s2
  barZw := bar.zw
  u := u
  degree := degree

/-- What holds for an algebraic prover that commits to the wire polynomials `a b c`, on an SRS with `n + 3` powers of
the secret: it is rejected, unless one of the challenges falls into a small set fixed before the challenge is
drawn: `3·size` values each for `β` and `γ`, 2 for `α`, `M·(4(n+3) + 2M)` for `ζ`, `5M` for `v`, `M` for `u` and `n + 3` for
the secret of the SRS.  Here `M` bounds the field `degree` of the proof, which the transcript does not contain: the
prover may choose it after all challenges. -/
def RejectsAlgebraic {F : Type} [FftField F] [DecidableEq F] (G1 G2 GT : Type) [AddCommGroup G1] [Module F G1]
    [AddCommGroup G2] [Module F G2] [AddCommGroup GT] [Module F GT] [DecidableEq GT] (n M : ℕ)
    (cc : CompiledCircuit F) (a b c : F[X]) : Prop :=
  AllBut (3 * cc.size) fun β => AllBut (3 * cc.size) fun γ =>
  ∀ z : F[X], z.natDegree < n + 3 → AllBut 2 fun α =>
  ∀ tLo tMid tHi : F[X], tLo.natDegree < n + 3 → tMid.natDegree < n + 3 → tHi.natDegree < n + 3 →
    AllBut (M * (4 * (n + 3) + 2 * M)) fun ζ =>
  ∀ bar : Bars F, AllBut (M * 5) fun v =>
  ∀ W W' : F[X], W.natDegree < n + 3 → W'.natDegree < n + 3 → AllBut M fun u =>
  ∀ degree < M, AllBut (n + 3) fun s =>
  ∀ (env : Env F G1) (dig : List UInt8 → List UInt8), (∀ x, 8 ≤ (dig x).length) →
  ∀ (P : PairingGroups F G1 G2 GT) (u' : F),
    let p := algProof P.g1 s a b c z tLo tMid tHi W W' bar u' degree
    p.challenges env dig P.g1 = { alpha := α, beta := β, gamma := γ, ev := ζ, v := v, u := u } →
    verify env dig P cc (Srs.newFromSecret P s n) p ≠ some (.ok ())

/-! ## Counting -/

section counting
variable {F : Type}

theorem AllBut.mono {k l : ℕ} {P Q : F → Prop} (h : AllBut k P) (hkl : k ≤ l) (hPQ : ∀ x, P x → Q x) :
    AllBut l Q := by
  obtain ⟨B, hB, h⟩ := h
  exact ⟨B, hB.trans hkl, fun x hx => hPQ x (h x hx)⟩

theorem AllBut.of_forall {k : ℕ} {P : F → Prop} (h : ∀ x, P x) : AllBut k P := ⟨∅, by simp, fun x _ => h x⟩

theorem AllBut.and [DecidableEq F] {k l : ℕ} {P Q : F → Prop} (hP : AllBut k P) (hQ : AllBut l Q) :
    AllBut (k + l) fun x => P x ∧ Q x := by
  obtain ⟨B, hB, hP⟩ := hP
  obtain ⟨B', hB', hQ⟩ := hQ
  refine ⟨B ∪ B', (Finset.card_union_le _ _).trans (by omega), fun x hx => ?_⟩
  rw [Finset.mem_union, not_or] at hx
  exact ⟨hP x hx.1, hQ x hx.2⟩

theorem AllBut.forall_lt [DecidableEq F] {k : ℕ} {P : ℕ → F → Prop} (M : ℕ) (h : ∀ m < M, AllBut k (P m)) :
    AllBut (M * k) fun x => ∀ m < M, P m x := by
  induction M with
  | zero => exact AllBut.of_forall fun x m hm => by omega
  | succ M ih =>
    have h1 := ih fun m hm => h m (by omega)
    have h2 := h M (by omega)
    refine (h1.and h2).mono (by rw [Nat.succ_mul]) fun x hx m hm => ?_
    rcases Nat.lt_succ_iff_lt_or_eq.1 hm with hm | rfl
    · exact hx.1 m hm
    · exact hx.2

theorem AllBut.eval_ne_zero [Field F] [DecidableEq F] {p : F[X]} (hp : p ≠ 0) {k : ℕ} (hk : p.natDegree ≤ k) :
    AllBut k fun x => p.eval x ≠ 0 := by
  refine ⟨p.roots.toFinset, (Multiset.toFinset_card_le _).trans ((card_roots' p).trans hk), fun x hx h0 => hx ?_⟩
  rw [Multiset.mem_toFinset, mem_roots hp]
  exact h0

end counting

section
variable {F : Type} [FftField F] [DecidableEq F]

/-- The numerator of the quotient. -/
noncomputable def quotNum (cc : CompiledCircuit F) (n : ℕ) (w β γ α : F) (a b c z : F[X]) : F[X] :=
  gatePoly cc a b c + C α * (numPoly cc β γ a b c * z - denPoly cc β γ a b c * z.comp (C w * X)) +
    C (α ^ 2) * ((z - 1) * L1 n)

/-- The quotient an algebraic prover claims. -/
noncomputable def claimedQuot (tLo tMid tHi : F[X]) (m : ℕ) : F[X] :=
  tLo + X ^ (m + 1) * tMid + X ^ (2 * (m + 1)) * tHi

/-- Round `α`: if some constraint polynomial does not vanish on some row, all but two `α` keep the numerator from
being divisible. -/
theorem alpha_round {d : Domain F} (hv : d.Valid) (cc : CompiledCircuit F) (β γ : F) (a b c z : F[X])
    (hbad : ¬ ∀ i < d.size,
      (gatePoly cc a b c).eval (d.gen ^ i) = 0 ∧
      (numPoly cc β γ a b c * z - denPoly cc β γ a b c * z.comp (C d.gen * X)).eval (d.gen ^ i) = 0 ∧
      ((z - 1) * L1 d.size).eval (d.gen ^ i) = 0) :
    AllBut 2 fun α => ¬ (X ^ d.size - 1 : F[X]) ∣ quotNum cc d.size d.gen β γ α a b c z := by
  push Not at hbad
  obtain ⟨i, hi, hbad⟩ := hbad
  set G := (gatePoly cc a b c).eval (d.gen ^ i) with hG
  set Q := (numPoly cc β γ a b c * z - denPoly cc β γ a b c * z.comp (C d.gen * X)).eval (d.gen ^ i) with hQ
  set S := ((z - 1) * L1 d.size).eval (d.gen ^ i) with hS
  have hne : (C G + C Q * X + C S * X ^ 2 : F[X]) ≠ 0 := by
    intro h0
    have h00 := congrArg (fun p => p.coeff 0) h0
    have h01 := congrArg (fun p => p.coeff 1) h0
    have h02 := congrArg (fun p => p.coeff 2) h0
    simp [coeff_X, coeff_C, coeff_X_pow] at h00 h01 h02
    exact hbad h00 h01 h02
  refine (AllBut.eval_ne_zero hne (natDegree_blind2 G Q S)).mono le_rfl fun α hα hdvd => hα ?_
  rw [hv.vanishing_dvd_iff] at hdvd
  have := hdvd i hi
  unfold quotNum at this
  rw [eval_add, eval_add, eval_mul (p := C α), eval_C, eval_mul (p := C (α ^ 2)), eval_C, ← hG, ← hQ, ← hS] at this
  simp only [eval_add, eval_mul, eval_C, eval_X, eval_pow]
  linear_combination this

theorem natDegree_L1 (n : ℕ) : (L1 n : F[X]).natDegree ≤ n := by
  unfold L1
  refine (natDegree_C_mul_le _ _).trans (natDegree_sum_le_of_forall_le _ _ fun i hi => ?_)
  rw [Finset.mem_range] at hi
  exact (natDegree_X_pow_le _).trans (by omega)

theorem natDegree_quotNum {cc : CompiledCircuit F} (hwf : cc.WellFormed) {N : ℕ} (hN : cc.size ≤ N) (h1 : 1 ≤ N)
    (w β γ α : F) {a b c z : F[X]} (ha : a.natDegree ≤ N) (hb : b.natDegree ≤ N) (hc : c.natDegree ≤ N)
    (hz : z.natDegree ≤ N) : (quotNum cc cc.size w β γ α a b c z).natDegree ≤ 4 * N := by
  have hp : ∀ p ∈ cc.polys, (toPoly p).natDegree ≤ N := fun p hp =>
    (natDegree_lt_of_length ((hwf.len p hp).trans hN) (by omega)).le
  have hlin : ∀ x : F, (C x * X : F[X]).natDegree ≤ N := fun x =>
    (natDegree_C_mul_le _ _).trans (natDegree_X_le.trans h1)
  have hC : ∀ x : F, (C x : F[X]).natDegree ≤ N := fun x => by rw [natDegree_C]; omega
  unfold quotNum gatePoly numPoly denPoly
  have q1 := hp cc.gate.qmx (by simp [CompiledCircuit.polys])
  have q2 := hp cc.gate.qlx (by simp [CompiledCircuit.polys])
  have q3 := hp cc.gate.qrx (by simp [CompiledCircuit.polys])
  have q4 := hp cc.gate.qox (by simp [CompiledCircuit.polys])
  have q5 := hp cc.gate.qcx (by simp [CompiledCircuit.polys])
  have q6 := hp cc.gate.pix (by simp [CompiledCircuit.polys])
  have q7 := hp cc.copy.s1 (by simp [CompiledCircuit.polys])
  have q8 := hp cc.copy.s2 (by simp [CompiledCircuit.polys])
  have q9 := hp cc.copy.s3 (by simp [CompiledCircuit.polys])
  have up : ∀ {p : F[X]} {k : ℕ}, p.natDegree ≤ k → k ≤ 4 * N → p.natDegree ≤ 4 * N := fun h h' => h.trans h'
  have hn1 : ∀ (p : F[X]) (x y : F), p.natDegree ≤ N → (p + C x * X + C y).natDegree ≤ N := fun p x y h =>
    natDegree_add_le_of_le' (natDegree_add_le_of_le' h (hlin x)) (hC y)
  have hd1 : ∀ (p q : F[X]) (x y : F), p.natDegree ≤ N → q.natDegree ≤ N →
      (p + C x * q + C y).natDegree ≤ N := fun p q x y h h' =>
    natDegree_add_le_of_le' (natDegree_add_le_of_le' h (natDegree_C_mul_le' x h')) (hC y)
  refine natDegree_add_le_of_le' (natDegree_add_le_of_le' ?_ (natDegree_C_mul_le' _ (natDegree_sub_le_of_le' ?_ ?_)))
    (natDegree_C_mul_le' _ ?_)
  · refine natDegree_add_le_of_le' (natDegree_add_le_of_le' (natDegree_add_le_of_le' (natDegree_add_le_of_le'
      (natDegree_add_le_of_le' ?_ ?_) ?_) ?_) ?_) ?_
    · exact up (natDegree_mul_le_of_le' (natDegree_mul_le_of_le' ha hb) q1) (by omega)
    · exact up (natDegree_mul_le_of_le' ha q2) (by omega)
    · exact up (natDegree_mul_le_of_le' hb q3) (by omega)
    · exact up (natDegree_mul_le_of_le' hc q4) (by omega)
    · exact up q6 (by omega)
    · exact up q5 (by omega)
  · exact up (natDegree_mul_le_of_le' (natDegree_mul_le_of_le' (natDegree_mul_le_of_le' (hn1 a _ _ ha) (hn1 b _ _ hb))
      (hn1 c _ _ hc)) hz) (by omega)
  · exact up (natDegree_mul_le_of_le' (natDegree_mul_le_of_le' (natDegree_mul_le_of_le' (hd1 a _ _ _ ha q7)
      (hd1 b _ _ _ hb q8)) (hd1 c _ _ _ hc q9)) ((natDegree_comp_scale z w).trans hz)) (by omega)
  · refine up (natDegree_mul_le_of_le' (natDegree_sub_le_of_le' hz ?_) ((natDegree_L1 _).trans hN)) (by omega)
    rw [natDegree_one]; omega

/-- Round `ζ`: if the numerator is not divisible, then for all but a few `ζ` the claimed quotient is wrong at `ζ`,
for every slice degree below `M`. -/
theorem zeta_round {cc : CompiledCircuit F} (hwf : cc.WellFormed) {N : ℕ} (hN : cc.size ≤ N) (h1 : 1 ≤ N)
    (w β γ α : F) {a b c z tLo tMid tHi : F[X]} (ha : a.natDegree ≤ N) (hb : b.natDegree ≤ N)
    (hc : c.natDegree ≤ N) (hz : z.natDegree ≤ N) (hl : tLo.natDegree ≤ N) (hm : tMid.natDegree ≤ N)
    (hh : tHi.natDegree ≤ N) (M : ℕ)
    (hdvd : ¬ (X ^ cc.size - 1 : F[X]) ∣ quotNum cc cc.size w β γ α a b c z) :
    AllBut (M * (4 * N + 2 * M)) fun ζ => ∀ m < M,
      (quotNum cc cc.size w β γ α a b c z).eval ζ ≠ (ζ ^ cc.size - 1) * (claimedQuot tLo tMid tHi m).eval ζ := by
  refine AllBut.forall_lt M fun m hmM => ?_
  have hne : quotNum cc cc.size w β γ α a b c z - (X ^ cc.size - 1) * claimedQuot tLo tMid tHi m ≠ 0 := by
    intro h0
    exact hdvd ⟨_, sub_eq_zero.1 h0⟩
  refine (AllBut.eval_ne_zero hne (k := 4 * N + 2 * M) ?_).mono le_rfl fun ζ hζ h => hζ ?_
  · refine natDegree_sub_le_of_le' ((natDegree_quotNum hwf hN h1 w β γ α ha hb hc hz).trans (by omega)) ?_
    have hX : ∀ (k : ℕ) (p : F[X]), p.natDegree ≤ N → (X ^ k * p).natDegree ≤ k + N := fun k p hp =>
      natDegree_mul_le_of_le' (natDegree_X_pow_le k) hp
    have : (claimedQuot tLo tMid tHi m).natDegree ≤ 2 * (m + 1) + N := by
      unfold claimedQuot
      refine natDegree_add_le_of_le' (natDegree_add_le_of_le' (hl.trans (by omega)) ?_) (hX _ _ hh)
      exact (hX _ _ hm).trans (by omega)
    exact (natDegree_mul_le_of_le' ((natDegree_Z_le _).trans hN) this).trans (by omega)
  · rw [eval_sub, eval_mul, eval_sub, eval_pow, eval_X, eval_one, h, sub_self]

/-- The polynomial whose commitment the verifier combines for the opening at `ζ`, without the batched
evaluations. -/
noncomputable def linCheck (cc : CompiledCircuit F) (β γ α ζ : F) (bar : Bars F) (z tLo tMid tHi : F[X]) (m : ℕ) :
    F[X] :=
  C (bar.a * bar.b) * toPoly cc.gate.qmx + C bar.a * toPoly cc.gate.qlx + C bar.b * toPoly cc.gate.qrx +
    C bar.c * toPoly cc.gate.qox + toPoly cc.gate.qcx +
  C (α * (bar.a + β * ζ + γ) * (bar.b + β * cc.copy.k1 * ζ + γ) * (bar.c + β * cc.copy.k2 * ζ + γ) +
    α ^ 2 * (L1 cc.size).eval ζ) * z -
  C (α * β * bar.zw * (bar.a + β * bar.s1 + γ) * (bar.b + β * bar.s2 + γ)) * toPoly cc.copy.s3 -
  C (ζ ^ cc.size - 1) * (tLo + C (ζ ^ (m + 1)) * tMid + C (ζ ^ (2 * (m + 1))) * tHi) +
  C ((toPoly cc.gate.pix).eval ζ - (L1 cc.size).eval ζ * α ^ 2 -
    α * (bar.a + β * bar.s1 + γ) * (bar.b + β * bar.s2 + γ) * (bar.c + γ) * bar.zw)

/-- With honest evaluations, the value at `ζ` is the difference between numerator and claimed quotient. -/
theorem linCheck_honest (cc : CompiledCircuit F) (w β γ α ζ : F) (bar : Bars F) (a b c z tLo tMid tHi : F[X]) (m : ℕ)
    (ha : a.eval ζ = bar.a) (hb : b.eval ζ = bar.b) (hc : c.eval ζ = bar.c)
    (h1 : (toPoly cc.copy.s1).eval ζ = bar.s1) (h2 : (toPoly cc.copy.s2).eval ζ = bar.s2)
    (hz : z.eval (ζ * w) = bar.zw) :
    (linCheck cc β γ α ζ bar z tLo tMid tHi m).eval ζ =
      (quotNum cc cc.size w β γ α a b c z).eval ζ - (ζ ^ cc.size - 1) * (claimedQuot tLo tMid tHi m).eval ζ := by
  unfold linCheck quotNum claimedQuot gatePoly numPoly denPoly
  simp only [eval_add, eval_sub, eval_mul, eval_C, eval_X, eval_pow, eval_one, eval_comp]
  rw [mul_comm w ζ, hz, ha, hb, hc, h1, h2]
  ring

/-- The batched opening polynomial at `ζ`. -/
noncomputable def openA (cc : CompiledCircuit F) (β γ α ζ v : F) (bar : Bars F) (a b c z tLo tMid tHi W : F[X])
    (m : ℕ) : F[X] :=
  (X - C ζ) * W - linCheck cc β γ α ζ bar z tLo tMid tHi m - C v * (a - C bar.a) - C (v ^ 2) * (b - C bar.b) -
    C (v ^ 3) * (c - C bar.c) - C (v ^ 4) * (toPoly cc.copy.s1 - C bar.s1) -
    C (v ^ 5) * (toPoly cc.copy.s2 - C bar.s2)

/-- The opening polynomial at `ζ·w`. -/
noncomputable def openB (w ζ : F) (bar : Bars F) (z W' : F[X]) : F[X] :=
  (X - C (ζ * w)) * W' - (z - C bar.zw)

theorem coeffs_zero {x0 x1 x2 x3 x4 x5 : F}
    (h : (C x0 + C x1 * X + C x2 * X ^ 2 + C x3 * X ^ 3 + C x4 * X ^ 4 + C x5 * X ^ 5 : F[X]) = 0) :
    x0 = 0 ∧ x1 = 0 ∧ x2 = 0 ∧ x3 = 0 ∧ x4 = 0 ∧ x5 = 0 := by
  have e : ∀ k, (C x0 + C x1 * X + C x2 * X ^ 2 + C x3 * X ^ 3 + C x4 * X ^ 4 + C x5 * X ^ 5 : F[X]).coeff k = 0 :=
    fun k => by rw [h, coeff_zero]
  have e0 := e 0
  have e1 := e 1
  have e2 := e 2
  have e3 := e 3
  have e4 := e 4
  have e5 := e 5
  simp [coeff_X, coeff_C, coeff_X_pow] at e0 e1 e2 e3 e4 e5
  exact ⟨e0, e1, e2, e3, e4, e5⟩

/-- Round `v`. -/
theorem v_round (cc : CompiledCircuit F) (w β γ α ζ : F) (bar : Bars F) (a b c z tLo tMid tHi : F[X]) (M : ℕ)
    (hq : ∀ m < M, (quotNum cc cc.size w β γ α a b c z).eval ζ ≠
      (ζ ^ cc.size - 1) * (claimedQuot tLo tMid tHi m).eval ζ) :
    AllBut (M * 5) fun v => ∀ m < M, ∀ W W' : F[X],
      ¬ (openA cc β γ α ζ v bar a b c z tLo tMid tHi W m = 0 ∧ openB w ζ bar z W' = 0) := by
  refine AllBut.forall_lt M fun m hm => ?_
  by_cases hz : z.eval (ζ * w) = bar.zw
  · set f : F[X] := C ((linCheck cc β γ α ζ bar z tLo tMid tHi m).eval ζ) + C (a.eval ζ - bar.a) * X +
      C (b.eval ζ - bar.b) * X ^ 2 + C (c.eval ζ - bar.c) * X ^ 3 +
      C ((toPoly cc.copy.s1).eval ζ - bar.s1) * X ^ 4 + C ((toPoly cc.copy.s2).eval ζ - bar.s2) * X ^ 5 with hf
    have hne : f ≠ 0 := by
      intro h0
      obtain ⟨e0, e1, e2, e3, e4, e5⟩ := coeffs_zero (hf ▸ h0)
      rw [linCheck_honest cc w β γ α ζ bar a b c z tLo tMid tHi m (by linear_combination e1)
        (by linear_combination e2) (by linear_combination e3) (by linear_combination e4)
        (by linear_combination e5) hz] at e0
      exact hq m hm (by linear_combination e0)
    have hdeg : f.natDegree ≤ 5 := by
      rw [hf]
      refine natDegree_add_le_of_le' (natDegree_add_le_of_le' (natDegree_add_le_of_le' (natDegree_add_le_of_le'
        (natDegree_add_le_of_le' ?_ ?_) ?_) ?_) ?_) ?_
      · rw [natDegree_C]; omega
      · exact (natDegree_C_mul_le _ _).trans (natDegree_X_le.trans (by omega))
      all_goals exact (natDegree_C_mul_X_pow_le _ _).trans (by omega)
    refine (AllBut.eval_ne_zero hne hdeg).mono le_rfl fun v hv W W' hAB => hv ?_
    have := congrArg (fun p => p.eval ζ) hAB.1
    unfold openA at this
    simp only [eval_sub, eval_mul, eval_C, eval_X, eval_pow, eval_zero, sub_self, zero_mul] at this
    rw [hf]
    simp only [eval_add, eval_mul, eval_C, eval_X, eval_pow]
    linear_combination -this
  · refine AllBut.of_forall fun v W W' hAB => hz ?_
    have := congrArg (fun p => p.eval (ζ * w)) hAB.2
    unfold openB at this
    simp only [eval_sub, eval_mul, eval_C, eval_X, eval_zero, sub_self, zero_mul] at this
    linear_combination -this

/-- Round `u`. -/
theorem u_round {A : ℕ → F[X]} {B : F[X]} (M : ℕ) (h : ∀ m < M, ¬ (A m = 0 ∧ B = 0)) :
    AllBut (M * 1) fun u => ∀ m < M, A m + C u * B ≠ 0 := by
  refine AllBut.forall_lt M fun m hm => ?_
  have : ∃ k, (A m).coeff k ≠ 0 ∨ B.coeff k ≠ 0 := by
    by_contra hcon
    push Not at hcon
    refine h m hm ⟨?_, ?_⟩ <;> ext k <;> simp [hcon k]
  obtain ⟨k, hk⟩ := this
  have hne : (C ((A m).coeff k) + C (B.coeff k) * X : F[X]) ≠ 0 := by
    intro h0
    have e0 := congrArg (fun p => p.coeff 0) h0
    have e1 := congrArg (fun p => p.coeff 1) h0
    simp [coeff_X, coeff_C] at e0 e1
    rcases hk with hk | hk
    · exact hk e0
    · exact hk e1
  refine (AllBut.eval_ne_zero hne (natDegree_blind1 _ _)).mono le_rfl fun u hu h0 => hu ?_
  have := congrArg (fun p => p.coeff k) h0
  simp only [coeff_add, coeff_C_mul, coeff_zero] at this
  simp only [eval_add, eval_mul, eval_C, eval_X]
  linear_combination this

theorem natDegree_linCheck {cc : CompiledCircuit F} (hwf : cc.WellFormed) {N : ℕ} (hN : cc.size ≤ N) (h1 : 1 ≤ N)
    (β γ α ζ : F) (bar : Bars F) {z tLo tMid tHi : F[X]} (hz : z.natDegree < N) (hl : tLo.natDegree < N)
    (hm : tMid.natDegree < N) (hh : tHi.natDegree < N) (m : ℕ) :
    (linCheck cc β γ α ζ bar z tLo tMid tHi m).natDegree ≤ N := by
  have hp : ∀ p ∈ cc.polys, (toPoly p).natDegree ≤ N := fun p hp =>
    (natDegree_lt_of_length ((hwf.len p hp).trans hN) (by omega)).le
  have hC : ∀ x : F, (C x : F[X]).natDegree ≤ N := fun x => by rw [natDegree_C]; omega
  have q1 := hp cc.gate.qmx (by simp [CompiledCircuit.polys])
  have q2 := hp cc.gate.qlx (by simp [CompiledCircuit.polys])
  have q3 := hp cc.gate.qrx (by simp [CompiledCircuit.polys])
  have q4 := hp cc.gate.qox (by simp [CompiledCircuit.polys])
  have q5 := hp cc.gate.qcx (by simp [CompiledCircuit.polys])
  have q9 := hp cc.copy.s3 (by simp [CompiledCircuit.polys])
  have k : ∀ (x : F) {p : F[X]}, p.natDegree ≤ N → (C x * p).natDegree ≤ N := fun x _ h => natDegree_C_mul_le' x h
  unfold linCheck
  refine natDegree_add_le_of_le' (natDegree_sub_le_of_le' (natDegree_sub_le_of_le' (natDegree_add_le_of_le' ?_
    (k _ hz.le)) (k _ q9)) (k _ (natDegree_add_le_of_le' (natDegree_add_le_of_le' hl.le (k _ hm.le)) (k _ hh.le)))) (hC _)
  exact natDegree_add_le_of_le' (natDegree_add_le_of_le' (natDegree_add_le_of_le' (natDegree_add_le_of_le' (k _ q1)
    (k _ q2)) (k _ q3)) (k _ q4)) q5

theorem natDegree_open {cc : CompiledCircuit F} (hwf : cc.WellFormed) {N : ℕ} (hN : cc.size ≤ N) (h1 : 1 ≤ N)
    (w β γ α ζ v u : F) (bar : Bars F) {a b c z tLo tMid tHi W W' : F[X]} (ha : a.natDegree < N) (hb : b.natDegree < N)
    (hc : c.natDegree < N) (hz : z.natDegree < N) (hl : tLo.natDegree < N) (hm : tMid.natDegree < N)
    (hh : tHi.natDegree < N) (hW : W.natDegree < N) (hW' : W'.natDegree < N) (m : ℕ) :
    (openA cc β γ α ζ v bar a b c z tLo tMid tHi W m + C u * openB w ζ bar z W').natDegree ≤ N := by
  have hp : ∀ p ∈ cc.polys, (toPoly p).natDegree ≤ N := fun p hp =>
    (natDegree_lt_of_length ((hwf.len p hp).trans hN) (by omega)).le
  have hC : ∀ x : F, (C x : F[X]).natDegree ≤ N := fun x => by rw [natDegree_C]; omega
  have q7 := hp cc.copy.s1 (by simp [CompiledCircuit.polys])
  have q8 := hp cc.copy.s2 (by simp [CompiledCircuit.polys])
  have k : ∀ (x : F) {p : F[X]}, p.natDegree ≤ N → (C x * p).natDegree ≤ N := fun x _ h => natDegree_C_mul_le' x h
  have hX : ∀ (x : F) {p : F[X]}, p.natDegree < N → ((X - C x) * p).natDegree ≤ N := by
    intro x p h
    have h2 : (X - C x : F[X]).natDegree ≤ 1 := natDegree_X_sub_C_le x
    exact (natDegree_mul_le (p := X - C x) (q := p)).trans (by omega)
  unfold openA openB
  have hs : ∀ {p : F[X]} (x : F), p.natDegree ≤ N → (p - C x).natDegree ≤ N := fun x h =>
    natDegree_sub_le_of_le' h (hC x)
  refine natDegree_add_le_of_le' ?_ (k _ (natDegree_sub_le_of_le' (hX _ hW') (hs _ hz.le)))
  exact natDegree_sub_le_of_le' (natDegree_sub_le_of_le' (natDegree_sub_le_of_le' (natDegree_sub_le_of_le'
    (natDegree_sub_le_of_le' (natDegree_sub_le_of_le' (hX _ hW)
      (natDegree_linCheck hwf hN h1 β γ α ζ bar hz hl hm hh m)) (k _ (hs _ ha.le))) (k _ (hs _ hb.le)))
      (k _ (hs _ hc.le))) (k _ (hs _ q7))) (k _ (hs _ q8))

variable {G1 G2 GT : Type} [AddCommGroup G1] [Module F G1] [AddCommGroup G2] [Module F G2]
  [AddCommGroup GT] [Module F GT] [DecidableEq GT]

/-- For an algebraic proof the opening equation says that a polynomial vanishes at the secret. -/
theorem openingEquation_alg {d : Domain F} (hv : d.Valid) {cc : CompiledCircuit F} (hs : d.size = cc.size)
    (P : PairingGroups F G1 G2 GT) (s : F) (a b c z tLo tMid tHi W W' : F[X]) (bar : Bars F) (u' : F) (m : ℕ)
    (k : Challenges F) (hev : k.ev ≠ 1) :
    OpeningEquation P.g1 s cc.size d.gen cc (algProof P.g1 s a b c z tLo tMid tHi W W' bar u' m) k ↔
    (openA cc k.beta k.gamma k.alpha k.ev k.v bar a b c z tLo tMid tHi W m +
      C k.u * openB d.gen k.ev bar z W').eval s = 0 := by
  have hl1 := eval_l1 hv hev
  rw [eval_eq, toPoly_l1Poly, hs] at hl1
  unfold OpeningEquation algProof
  dsimp only
  simp only [smul_smul, ← add_smul, ← sub_smul]
  rw [← sub_eq_zero, ← sub_smul, smul_eq_zero, or_iff_left P.g1_ne_zero, ← hl1]
  unfold openA openB linCheck
  simp only [eval_add, eval_sub, eval_mul, eval_C, eval_X, eval_pow]
  simp only [eval_eq]
  constructor <;> intro h <;> linear_combination h

/-- **C73**: let `cc` be a circuit that fits into the SRS, with wiring map `σ` and distinct position labels, and let
`a b c` be wire polynomials that violate a gate or a connection.  An algebraic prover that commits to them is
rejected, outside small sets of challenges. -/
theorem C73_algebraic_soundness (n M : ℕ) (cc : CompiledCircuit F) (hwf : cc.WellFormed) (hn : cc.size ≤ n + 3)
    (d : Domain F) (hd : Domain.new? cc.size = some d) (σ : Fin 3 × Fin cc.size → Fin 3 × Fin cc.size)
    (hσ : Wiring cc d.gen σ) (hlab : LabelsDistinct cc.size cc d.gen) (a b c : F[X])
    (ha : a.natDegree < n + 3) (hb : b.natDegree < n + 3) (hc : c.natDegree < n + 3)
    (hbad : (∃ i < cc.size, ¬ GateEq cc d.gen i (a.eval (d.gen ^ i)) (b.eval (d.gen ^ i)) (c.eval (d.gen ^ i))) ∨
      ∃ p : Fin 3 × Fin cc.size, polyVal a b c d.gen p.1 p.2 ≠ polyVal a b c d.gen (σ p).1 (σ p).2) :
    RejectsAlgebraic G1 G2 GT n M cc a b c := by
  obtain ⟨hv, -⟩ := Domain.new?_valid hd
  have hs := WellFormed.size_eq hwf hd
  -- the rounds after `β, γ`
  have rest : ∀ β γ : F, (∀ z : F[X], ¬ ∀ i < d.size,
      (gatePoly cc a b c).eval (d.gen ^ i) = 0 ∧
      (numPoly cc β γ a b c * z - denPoly cc β γ a b c * z.comp (C d.gen * X)).eval (d.gen ^ i) = 0 ∧
      ((z - 1) * L1 d.size).eval (d.gen ^ i) = 0) →
      ∀ z : F[X], z.natDegree < n + 3 → AllBut 2 fun α =>
      ∀ tLo tMid tHi : F[X], tLo.natDegree < n + 3 → tMid.natDegree < n + 3 → tHi.natDegree < n + 3 →
        AllBut (M * (4 * (n + 3) + 2 * M)) fun ζ =>
      ∀ bar : Bars F, AllBut (M * 5) fun v =>
      ∀ W W' : F[X], W.natDegree < n + 3 → W'.natDegree < n + 3 → AllBut M fun u =>
      ∀ degree < M, AllBut (n + 3) fun s =>
      ∀ (env : Env F G1) (dig : List UInt8 → List UInt8), (∀ x, 8 ≤ (dig x).length) →
      ∀ (P : PairingGroups F G1 G2 GT) (u' : F),
        let p := algProof P.g1 s a b c z tLo tMid tHi W W' bar u' degree
        p.challenges env dig P.g1 = { alpha := α, beta := β, gamma := γ, ev := ζ, v := v, u := u } →
        verify env dig P cc (Srs.newFromSecret P s n) p ≠ some (.ok ()) := by
    intro β γ hvan z hz
    refine (alpha_round hv cc β γ a b c z (hvan z)).mono le_rfl fun α hα tLo tMid tHi hl hm hh => ?_
    rw [hs] at hα
    refine (zeta_round hwf hn (by omega) d.gen β γ α ha.le hb.le hc.le hz.le hl.le hm.le hh.le M hα).mono le_rfl
      fun ζ hζ bar => ?_
    refine (v_round cc d.gen β γ α ζ bar a b c z tLo tMid tHi M hζ).mono le_rfl fun v hvv W W' hW hW' => ?_
    refine (u_round (A := fun m => openA cc β γ α ζ v bar a b c z tLo tMid tHi W m) M
      fun m hm => hvv m hm W W').mono (by omega) fun u hu degree hdeg => ?_
    refine (AllBut.eval_ne_zero (hu degree hdeg) (natDegree_open hwf hn (by omega) d.gen β γ α ζ v u bar ha hb hc hz
      hl hm hh hW hW' degree)).mono le_rfl ?_
    intro s hsv env dig hdig P u' p hp hok
    apply hsv
    obtain ⟨-, hver⟩ := C53_verify env dig hdig P s n cc hwf hn d hd p
    rw [hver] at hok
    obtain ⟨-, hev, hopen⟩ := hok
    have := (openingEquation_alg hv hs P s a b c z tLo tMid tHi W W' bar u' degree _ hev).1 hopen
    rw [hp] at this
    exact this
  rcases hbad with ⟨i, hi, hg⟩ | ⟨p0, hp0⟩
  · refine AllBut.of_forall fun β => AllBut.of_forall fun γ => rest β γ fun z hall => hg ?_
    exact (constraints_of_vanish hv cc β γ a b c z hall).1 i (by rw [hs]; exact hi)
  · obtain ⟨B, hB, h⟩ := grand_product_counting (fun q : Fin 3 × Fin cc.size => polyVal a b c d.gen q.1 q.2)
      (fun q => posLabel cc d.gen q.1 q.2) hlab σ p0 hp0
    rw [Fintype.card_prod, Fintype.card_fin, Fintype.card_fin] at hB h
    refine ⟨B, hB, fun β hβ => ?_⟩
    obtain ⟨Γ, hΓ, hh⟩ := h β hβ
    refine ⟨Γ, hΓ, fun γ hγ => rest β γ fun z hall => hγ (hh γ ?_)⟩
    have := (constraints_of_vanish hv cc β γ a b c z hall).2.2
    rw [hs] at this
    rw [this]
    refine Finset.prod_congr rfl fun q _ => ?_
    rw [hσ q]

/-! ## C73 as a bound on the number of accepting challenges -/

/-- An algebraic prover: every message may depend on the challenges drawn before it (in the order
`β γ α ζ v u`). -/
structure AlgProver (F : Type) [Field F] where
  /-- wire polynomial -/
  a : F[X]
  /-- wire polynomial -/
  b : F[X]
  /-- wire polynomial -/
  c : F[X]
  /-- accumulator -/
  z : F → F → F[X]
  /-- low slice -/
  tLo : F → F → F → F[X]
  /-- middle slice -/
  tMid : F → F → F → F[X]
  /-- high slice -/
  tHi : F → F → F → F[X]
  /-- claimed evaluations -/
  bar : F → F → F → F → Bars F
  /-- opening at `ζ` -/
  W : F → F → F → F → F → F[X]
  /-- opening at `ζ·w` -/
  W' : F → F → F → F → F → F[X]
  /-- claimed challenge `u` -/
  u : F → F → F → F → F → F → F
  /-- slice degree -/
  degree : F → F → F → F → F → F → ℕ

/-- The polynomials fit into an SRS with `N` powers of the secret, the slice degree is below `M`. -/
def AlgProver.Bounded {F : Type} [Field F] (A : AlgProver F) (N M : ℕ) : Prop :=
  A.a.natDegree < N ∧ A.b.natDegree < N ∧ A.c.natDegree < N ∧ (∀ β γ, (A.z β γ).natDegree < N) ∧
  (∀ β γ α, (A.tLo β γ α).natDegree < N ∧ (A.tMid β γ α).natDegree < N ∧ (A.tHi β γ α).natDegree < N) ∧
  (∀ β γ α ζ v, (A.W β γ α ζ v).natDegree < N ∧ (A.W' β γ α ζ v).natDegree < N) ∧
  ∀ β γ α ζ v u, A.degree β γ α ζ v u < M

/-- The challenges `β γ α ζ v u` and secrets `s` for which the prover can be accepted: there are a digest, a
point serialisation and a random generator that lead to these challenges, and the proof is accepted. -/
def AlgProver.Accepted {F : Type} [FftField F] [DecidableEq F] {G1 G2 GT : Type} [AddCommGroup G1] [Module F G1]
    [AddCommGroup G2] [Module F G2] [AddCommGroup GT] [Module F GT] [DecidableEq GT] (A : AlgProver F)
    (P : PairingGroups F G1 G2 GT) (n : ℕ) (cc : CompiledCircuit F) : Set (F × F × F × F × F × F × F) :=
  { x | ∃ (env : Env F G1) (dig : List UInt8 → List UInt8), (∀ x, 8 ≤ (dig x).length) ∧
    ∃ β γ α ζ v u s, x = (β, γ, α, ζ, v, u, s) ∧ ∃ p : Proof F G1,
      p = algProof P.g1 s A.a A.b A.c (A.z β γ) (A.tLo β γ α) (A.tMid β γ α) (A.tHi β γ α) (A.W β γ α ζ v)
        (A.W' β γ α ζ v) (A.bar β γ α ζ) (A.u β γ α ζ v u) (A.degree β γ α ζ v u) ∧
      p.challenges env dig P.g1 = { alpha := α, beta := β, gamma := γ, ev := ζ, v := v, u := u } ∧
      verify env dig P cc (Srs.newFromSecret P s n) p = some (.ok ()) }

theorem ncard_prod_le {A B : Type} [Fintype A] [Fintype B] (S : Set (A × B)) {k K : ℕ}
    (h : AllBut k fun x => {y | (x, y) ∈ S}.ncard ≤ K) :
    S.ncard ≤ k * Fintype.card B + Fintype.card A * K := by
  classical
  obtain ⟨Bad, hk, h⟩ := h
  have h1 : S.ncard = ∑ x : A, {y | (x, y) ∈ S}.ncard := by
    rw [Set.ncard_eq_toFinset_card' S, Finset.card_eq_sum_card_fiberwise (f := Prod.fst) (t := Finset.univ)
      (fun x _ => Finset.mem_coe.2 (Finset.mem_univ _))]
    refine Finset.sum_congr rfl fun x _ => ?_
    rw [Set.ncard_eq_toFinset_card']
    refine Finset.card_bij (fun p _ => p.2) ?_ ?_ ?_
    · rintro ⟨x', y⟩ hp
      simp only [Finset.mem_filter, Set.mem_toFinset] at hp
      obtain ⟨hp, rfl⟩ := hp
      simpa using hp
    · rintro ⟨x1, y1⟩ hp ⟨x2, y2⟩ hq heq
      simp only [Finset.mem_filter, Set.mem_toFinset] at hp hq heq
      obtain ⟨-, rfl⟩ := hp
      obtain ⟨-, rfl⟩ := hq
      rw [heq]
    · intro y hy
      refine ⟨(x, y), ?_, rfl⟩
      simp only [Finset.mem_filter, Set.mem_toFinset, and_true]
      simpa using hy
  rw [h1, ← Finset.sum_add_sum_compl Bad]
  refine Nat.add_le_add ?_ ?_
  · refine (Finset.sum_le_card_nsmul Bad _ (Fintype.card B) fun x _ => ?_).trans ?_
    · exact (Set.ncard_le_ncard (Set.subset_univ _)).trans (by rw [Set.ncard_univ, Nat.card_eq_fintype_card])
    · rw [smul_eq_mul]; exact Nat.mul_le_mul_right _ hk
  · refine (Finset.sum_le_card_nsmul _ _ K fun x hx => h x (Finset.mem_compl.1 hx)).trans ?_
    rw [smul_eq_mul]
    exact Nat.mul_le_mul_right _ (Finset.card_le_univ _)

/-- **C73** (counting): over a field with `q` elements, an algebraic prover whose wire polynomials violate a gate or a
connection is accepted for at most `(6·size + 2 + M(4(n+3) + 2M) + 6M + n + 3)·q⁶` of the `q⁷` values of the challenges
and the secret. -/
theorem C73_acceptance_count [Fintype F] (P : PairingGroups F G1 G2 GT) (n M : ℕ) (cc : CompiledCircuit F)
    (hwf : cc.WellFormed) (hn : cc.size ≤ n + 3) (d : Domain F) (hd : Domain.new? cc.size = some d)
    (σ : Fin 3 × Fin cc.size → Fin 3 × Fin cc.size) (hσ : Wiring cc d.gen σ)
    (hlab : LabelsDistinct cc.size cc d.gen) (A : AlgProver F) (hA : A.Bounded (n + 3) M)
    (hbad : (∃ i < cc.size, ¬ GateEq cc d.gen i (A.a.eval (d.gen ^ i)) (A.b.eval (d.gen ^ i))
        (A.c.eval (d.gen ^ i))) ∨
      ∃ p : Fin 3 × Fin cc.size, polyVal A.a A.b A.c d.gen p.1 p.2 ≠ polyVal A.a A.b A.c d.gen (σ p).1 (σ p).2) :
    (A.Accepted P n cc).ncard ≤
      (6 * cc.size + 2 + M * (4 * (n + 3) + 2 * M) + 6 * M + (n + 3)) * Fintype.card F ^ 6 := by
  obtain ⟨ha, hb, hc, hz, ht, hW, hdeg⟩ := hA
  have hsound : RejectsAlgebraic G1 G2 GT n M cc A.a A.b A.c :=
    C73_algebraic_soundness n M cc hwf hn d hd σ hσ hlab A.a A.b A.c ha hb hc hbad
  set q := Fintype.card F with hq
  -- from the last round to the first
  have key : (A.Accepted P n cc).ncard ≤ 3 * cc.size * q ^ 6 + q * (3 * cc.size * q ^ 5 + q * (2 * q ^ 4 +
      q * (M * (4 * (n + 3) + 2 * M) * q ^ 3 + q * (M * 5 * q ^ 2 + q * (M * q + q * (n + 3)))))) := by
    have c1 : Fintype.card (F × F) = q ^ 2 := by rw [Fintype.card_prod]; ring
    have c2 : Fintype.card (F × F × F) = q ^ 3 := by rw [Fintype.card_prod, c1]; ring
    have c3 : Fintype.card (F × F × F × F) = q ^ 4 := by rw [Fintype.card_prod, c2]; ring
    have c4 : Fintype.card (F × F × F × F × F) = q ^ 5 := by rw [Fintype.card_prod, c3]; ring
    have c5 : Fintype.card (F × F × F × F × F × F) = q ^ 6 := by rw [Fintype.card_prod, c4]; ring
    rw [← c5]
    refine ncard_prod_le _ (hsound.mono le_rfl fun β hβ => ?_)
    rw [← c4]
    refine ncard_prod_le _ (hβ.mono le_rfl fun γ hγ => ?_)
    rw [← c3]
    refine ncard_prod_le _ ((hγ (A.z β γ) (hz β γ)).mono le_rfl fun α hα => ?_)
    rw [← c2]
    refine ncard_prod_le _ ((hα (A.tLo β γ α) (A.tMid β γ α) (A.tHi β γ α) (ht β γ α).1 (ht β γ α).2.1
      (ht β γ α).2.2).mono le_rfl fun ζ hζ => ?_)
    rw [← c1]
    refine ncard_prod_le _ ((hζ (A.bar β γ α ζ)).mono le_rfl fun v hv => ?_)
    refine ncard_prod_le _ ((hv (A.W β γ α ζ v) (A.W' β γ α ζ v) (hW β γ α ζ v).1 (hW β γ α ζ v).2).mono le_rfl
      fun u hu => ?_)
    obtain ⟨Bad, hcard, hs⟩ := hu (A.degree β γ α ζ v u) (hdeg β γ α ζ v u)
    refine le_trans ?_ hcard
    rw [← Set.ncard_coe_finset]
    refine Set.ncard_le_ncard (fun s hs' => ?_)
    by_contra hsB
    obtain ⟨env, dig, hdig, β', γ', α', ζ', v', u', s', heq, p, rfl, hch, hok⟩ := hs'
    simp only [Prod.mk.injEq] at heq
    obtain ⟨rfl, rfl, rfl, rfl, rfl, rfl, rfl⟩ := heq
    exact hs s (fun h => hsB (Finset.mem_coe.2 h)) env dig hdig P _ hch hok
  refine key.trans (le_of_eq ?_)
  ring

end

/-! ## C73 for circuits built with the gate calls -/

/-- There are wire values for the `size` rows that satisfy the relation of every call and agree with the value at the
position each wire is connected to. -/
def Satisfiable {F : Type} [Field F] (size : ℕ) (calls : List (GateCall F)) : Prop :=
  ∃ val : ℕ → ℕ → F,
    (∀ (i : ℕ) (call : GateCall F), calls[i]? = some call → call.Relation (val 0 i) (val 1 i) (val 2 i)) ∧
    ∀ l < 3, ∀ i < size, val l i = val (target calls l i).1 (target calls l i).2

section bls
variable {G1 G2 GT : Type} [AddCommGroup G1] [Module BlsFr G1] [AddCommGroup G2] [Module BlsFr G2]
  [AddCommGroup GT] [Module BlsFr GT] [DecidableEq GT]

/-- **C73** for circuits over BLS12-381 `Fr` built with the gate calls: if no wire values satisfy all relations and
connections, then an algebraic prover is rejected whatever wire polynomials it commits to, outside small sets of
challenges. -/
theorem C73_unsatisfiable (calls : List (GateCall BlsFr)) (cc : CompiledCircuit BlsFr)
    (hc : (build calls).compile = some cc) (n M : ℕ) (hn : cc.size ≤ n + 3)
    (hunsat : ¬ Satisfiable cc.size calls) (a b c : BlsFr[X]) (ha : a.natDegree < n + 3)
    (hb : b.natDegree < n + 3) (hcd : c.natDegree < n + 3) : RejectsAlgebraic G1 G2 GT n M cc a b c := by
  obtain ⟨d, hd, hv, hs, -, hle, hval, -⟩ := compile_some calls cc hc
  have hT : ∀ p : Fin 3 × Fin cc.size, (target calls p.1 p.2).1 < 3 ∧ (target calls p.1 p.2).2 < cc.size := by
    rintro ⟨⟨l, hl⟩, ⟨i, hi⟩⟩
    unfold target
    dsimp only
    cases hci : calls[i]? with
    | none => exact ⟨hl, hi⟩
    | some call =>
      have hm := hval call (List.mem_of_getElem? hci)
      rw [hs] at hm
      obtain ⟨h1, h2, h3⟩ := hm
      dsimp only
      split
      · exact h1
      · exact h2
      · exact h3
  refine C73_algebraic_soundness n M cc (compile_wellFormed calls cc hc) hn d hd
    (fun p => (⟨_, (hT p).1⟩, ⟨_, (hT p).2⟩)) ?_ (labelsDistinct_bls calls cc hc d hd) a b c ha hb hcd ?_
  · intro p
    rw [sigmaVal_compiled hc hd p.1.2 p.2.2, posLabel_compiled hc _ (hT p).1]
  · by_contra hcon
    push Not at hcon
    obtain ⟨hg, hw⟩ := hcon
    obtain ⟨d', hd', hrel⟩ := C45_gate_relation calls cc hc
    rw [hd, Option.some.injEq] at hd'
    subst hd'
    refine hunsat ⟨fun l i => polyVal a b c d.gen l i, fun i call hcall => ?_, fun l hl i hi => ?_⟩
    · have hi : i < cc.size := by
        have := (List.getElem?_eq_some_iff.1 hcall).1
        omega
      have := hg i hi
      unfold GateEq at this
      rw [hrel i hi] at this
      exact this call hcall
    · exact hw (⟨l, hl⟩, ⟨i, hi⟩)

end bls

/-- Two constant gates that ask for the values 3 and 5 on connected wires. -/
def unsatCalls : List (GateCall BlsFr) :=
  [⟨.constant, (0, 1, 3), (1, 0, 0), (2, 0, 0), 0⟩,
   ⟨.constant, (0, 0, 5), (1, 1, 0), (2, 1, 0), 0⟩]

/-- Non-vacuity of C73: `unsatCalls` compiles, fits into an SRS and is not satisfiable. -/
example : ∃ cc, (build unsatCalls).compile = some cc ∧ cc.size ≤ 0 + 3 ∧ ¬ Satisfiable cc.size unsatCalls := by
  obtain ⟨cc, h, hs⟩ := two_calls_compile unsatCalls rfl (by
    intro call hc
    simp only [unsatCalls, List.mem_cons, List.not_mem_nil, or_false] at hc
    rcases hc with rfl | rfl <;> simp [ValidPos])
  refine ⟨cc, h, by omega, ?_⟩
  rintro ⟨val, hrel, hcopy⟩
  have h0 := hrel 0 _ rfl
  have h1 := hrel 1 _ rfl
  have h2 := hcopy 0 (by omega) 0 (by omega)
  simp only [target, unsatCalls, List.getElem?_cons_zero, GateCall.Relation] at h0 h1 h2
  have h1' : val 0 1 - 5 = 0 := h1
  have : (3 : BlsFr) = 5 := by linear_combination h1' - h0 + h2
  revert this
  decide +kernel

/-- The satisfied example circuit is satisfiable. -/
example : Satisfiable 2 exampleCalls := by
  refine ⟨fun l i => callVal exampleCalls l i, ?_, ?_⟩
  · intro i call hi
    have := exCalls_relations call (List.mem_of_getElem? hi)
    simpa only [callVal, rowVal, hi] using this
  · decide +kernel

end Verif.Plonk

import Verif.Plonk.Hiding
import Verif.Plonk.Compiled

/-!
# Property C79: the quotient commitments are not blinded

`generate_proof` commits to the three slices of the quotient without blinding them (`plonk/src/prover.rs` line 148,
`plonk/src/slice_polynomial.rs` lines 20-58; the PLONK paper adds two more random values there).  For a fixed witness
and fixed values of the rest of the proof the three commitments therefore lie on a line, and the line depends on the
witness.
-/

set_option linter.unusedSectionVars false
set_option linter.unusedSimpArgs false
set_option linter.unusedVariables false

namespace Verif.Plonk

open Verif.Ark Verif.Kzg Polynomial

/-! ## Specification -/

section
variable {F : Type} [FftField F] [DecidableEq F]
  {G1 G2 GT : Type} [AddCommGroup G1] [Module F G1] [AddCommGroup G2] [Module F G2]
  [AddCommGroup GT] [Module F GT] [DecidableEq GT]

/-- The quotient part of a proof: the three commitments and the field `degree`, as computed by rounds 1 to 3 of
`generate_proof` (`plonk/src/prover.rs` lines 68-149). -/
def proverSlices (env : Env F G1) (cc : CompiledCircuit F) (srs : Srs G1 G2) (bl : Blinders F) :
    Option (G1 × G1 × G1 × ℕ) := do
  let d ← Domain.new? cc.size
  let r1 ← round1 cc srs bl d
  let r2 ← round2 env cc srs bl d r1
  let r3 ← round3 env cc srs d r1 r2
  pure (r3.tLoC, r3.tMidC, r3.tHiC, r3.sp.degree)

/-- Two compiled circuits that differ at most in the witness: the verifier treats them alike. -/
def SameCircuit (cc cc' : CompiledCircuit F) : Prop :=
  cc.size = cc'.size ∧ cc.copy = cc'.copy ∧
  cc.gate.qlx = cc'.gate.qlx ∧ cc.gate.qrx = cc'.gate.qrx ∧ cc.gate.qox = cc'.gate.qox ∧
  cc.gate.qmx = cc'.gate.qmx ∧ cc.gate.qcx = cc'.gate.qcx ∧ cc.gate.pix = cc'.gate.pix

/-! ## Lemmas -/

theorem divMod_affine {g : F[X]} (hg : g.Monic) (k : F) (p q : F[X]) :
    (p + C k * (q - p)) /ₘ g = p /ₘ g + C k * (q /ₘ g - p /ₘ g) ∧
    (p + C k * (q - p)) %ₘ g = p %ₘ g + C k * (q %ₘ g - p %ₘ g) := by
  refine div_modByMonic_unique _ _ hg ⟨?_, ?_⟩
  · have h1 := modByMonic_add_div p g
    have h2 := modByMonic_add_div q g
    linear_combination (1 - C k) * h1 + C k * h2
  · refine (degree_add_le _ _).trans_lt (max_lt (degree_modByMonic_lt _ hg) ?_)
    rw [← smul_eq_C_mul]
    refine (degree_smul_le _ _).trans_lt ?_
    exact (degree_sub_le _ _).trans_lt (max_lt (degree_modByMonic_lt _ hg) (degree_modByMonic_lt _ hg))

/-- The quotient part as evaluations of the honest slices. -/
theorem proverSlices_eq {H : Honest F G1} {P : PairingGroups F G1 G2 GT} {d : Domain F} {N : ℕ}
    (S : Setting H P d N) (hg : GatesSatisfied H.cc H.w) (hc : CopiesSatisfied H.cc H.w)
    {r : G1 × G1 × G1 × ℕ} (h : proverSlices H.env H.cc (Srs.newFromSecret P H.s N) H.bl = some r) :
    r = (H.com H.tLo, H.com H.tMid, H.com H.tHi, H.m - 1) ∧ DenominatorsNonzero H.cc H.w H.β H.γ := by
  unfold proverSlices at h
  simp only [S.hd, Option.bind_eq_bind, Option.bind_some, S.round1_eq] at h
  by_cases hden : ∃ i, i + 1 < H.n ∧ H.rowDen i = 0
  · rw [S.round2_none hden] at h; cases h
  · push Not at hden
    rw [S.round2_some hden, Option.bind_some] at h
    by_cases ht : H.t = 0
    · rw [(S.round3_eq (S.dvd_gate hg) ((S.dvd_perm (S.prod_rows hc) hden).mul_left _)).1 ht] at h; cases h
    · rw [(S.round3_eq (S.dvd_gate hg) ((S.dvd_perm (S.prod_rows hc) hden).mul_left _)).2 ht, Option.bind_some] at h
      exact ⟨(Option.some.inj h).symm, (rowDen_ne_iff H).1 hden⟩

/-- Blinding values with the same view: equal on the wires, and equal blinding of the accumulator at the secret and
at the shifted evaluation point. -/
theorem view_blinders (env : Env F G1) (hdig : ∀ b, 8 ≤ (env.sha256 b).length) (P : PairingGroups F G1 G2 GT)
    (s : F) (N : ℕ) (cc : CompiledCircuit F) (hwf : cc.WellFormed) (hN : cc.size ≤ N) (d : Domain F)
    (hd : Domain.new? cc.size = some d)
    (ζ : F) (hs : s ^ cc.size ≠ 1) (hζ : ζ ^ cc.size ≠ 1) (hsζ : ζ ≠ s)
    (bl bl' : Blinders F) (v : View F G1) (h : proverView env cc (Srs.newFromSecret P s N) bl ζ = some v)
    (h' : proverView env cc (Srs.newFromSecret P s N) bl' ζ = some v) :
    (bl'.b1 = bl.b1 ∧ bl'.b2 = bl.b2 ∧ bl'.b3 = bl.b3 ∧ bl'.b4 = bl.b4 ∧ bl'.b5 = bl.b5 ∧ bl'.b6 = bl.b6) ∧
    bl'.b9 + bl'.b8 * s + bl'.b7 * s ^ 2 = bl.b9 + bl.b8 * s + bl.b7 * s ^ 2 ∧
    bl'.b9 + bl'.b8 * (ζ * d.gen) + bl'.b7 * (ζ * d.gen) ^ 2 =
      bl.b9 + bl.b8 * (ζ * d.gen) + bl.b7 * (ζ * d.gen) ^ 2 := by
  have S : Setting (⟨env, P.g1, s, cc, d.gen, bl⟩ : Honest F G1) P d N := ⟨rfl, rfl, hd, hwf, hN, hdig⟩
  have S' : Setting (⟨env, P.g1, s, cc, d.gen, bl'⟩ : Honest F G1) P d N := ⟨rfl, rfl, hd, hwf, hN, hdig⟩
  have hv := (Domain.new?_valid hd).1
  have hsz := WellFormed.size_eq hwf hd
  have zs : s ^ cc.size - 1 ≠ 0 := sub_ne_zero.2 hs
  have zζ : ζ ^ cc.size - 1 ≠ 0 := sub_ne_zero.2 hζ
  have hgen : d.gen ^ cc.size = 1 := by rw [← hsz]; exact hv.pow_size
  have zζw : (ζ * d.gen) ^ cc.size - 1 ≠ 0 := by rw [mul_pow, hgen, mul_one]; exact zζ
  have hdn : DenominatorsNonzero cc d.gen (Honest.β (⟨env, P.g1, s, cc, d.gen, bl⟩ : Honest F G1))
      (Honest.γ (⟨env, P.g1, s, cc, d.gen, bl⟩ : Honest F G1)) := by
    by_contra hd'
    have h0 := (proverView_eq S ζ).2 hd'
    dsimp only at h0
    rw [h0] at h; cases h
  have hdn' : DenominatorsNonzero cc d.gen (Honest.β (⟨env, P.g1, s, cc, d.gen, bl'⟩ : Honest F G1))
      (Honest.γ (⟨env, P.g1, s, cc, d.gen, bl'⟩ : Honest F G1)) := by
    by_contra hd'
    have h0 := (proverView_eq S' ζ).2 hd'
    dsimp only at h0
    rw [h0] at h'; cases h'
  have e := ((proverView_eq S ζ).1 hdn).symm.trans (h.trans (h'.symm.trans ((proverView_eq S' ζ).1 hdn')))
  clear h h'
  simp only [Option.some.injEq, View.mk.injEq] at e
  obtain ⟨q1, q2, q3, q4, q5, q6, q7, q8⟩ := e
  have q1 := P.smul_g1_inj q1
  have q2 := P.smul_g1_inj q2
  have q3 := P.smul_g1_inj q3
  have q4 := P.smul_g1_inj q4
  obtain ⟨b1, b2, b3, b4, b5, b6, b7, b8, b9⟩ := bl
  obtain ⟨c1, c2, c3, c4, c5, c6, c7, c8, c9⟩ := bl'
  simp only [Honest.a, Honest.b, Honest.c, Honest.Z, Honest.n, eval_add, eval_mul, eval_sub, eval_pow, eval_X, eval_C,
    eval_one, add_right_inj] at q1 q2 q3 q5 q6 q7
  have key : ∀ {x y x' y' : F}, (y + x * s) * (s ^ cc.size - 1) = (y' + x' * s) * (s ^ cc.size - 1) →
      (y + x * ζ) * (ζ ^ cc.size - 1) = (y' + x' * ζ) * (ζ ^ cc.size - 1) → x' = x ∧ y' = y := by
    intro x y x' y' h1 h2
    have h1 := mul_right_cancel₀ zs h1
    have h2 := mul_right_cancel₀ zζ h2
    have hx : (x' - x) * (ζ - s) = 0 := by linear_combination h1 - h2
    have hx : x' = x := by
      rcases mul_eq_zero.1 hx with h | h
      · exact sub_eq_zero.1 h
      · exact absurd (sub_eq_zero.1 h) hsζ
    subst hx
    exact ⟨rfl, (add_right_cancel h1).symm⟩
  obtain ⟨r1, r2⟩ := key q1 q5
  obtain ⟨r3, r4⟩ := key q2 q6
  obtain ⟨r5, r6⟩ := key q3 q7
  subst r1 r2 r3 r4 r5 r6
  have hacc : (⟨env, P.g1, s, cc, d.gen, ⟨c1, c2, c3, c4, c5, c6, c7, c8, c9⟩⟩ : Honest F G1).acc =
      (⟨env, P.g1, s, cc, d.gen, ⟨c1, c2, c3, c4, c5, c6, b7, b8, b9⟩⟩ : Honest F G1).acc := rfl
  simp only [Honest.z, Honest.Z, Honest.n, eval_add, eval_mul, eval_sub, eval_pow, eval_X, eval_C, eval_one, hacc,
    add_right_inj] at q4 q8
  refine ⟨⟨rfl, rfl, rfl, rfl, rfl, rfl⟩, (mul_right_cancel₀ zs q4).symm, ?_⟩
  exact (mul_right_cancel₀ zζw q8).symm

/-! ## The property -/

/-- **C79** (quotient commitments on a line): once the commitments and evaluations of wires and accumulator are fixed,
the three commitments to the quotient that a prover holding a given witness can produce lie on a line, parametrised
by the single remaining blinding value; two blinding values determine all. -/
theorem C79_slices_on_a_line (env : Env F G1) (hdig : ∀ b, 8 ≤ (env.sha256 b).length) (P : PairingGroups F G1 G2 GT)
    (s : F) (N : ℕ) (cc : CompiledCircuit F) (hwf : cc.WellFormed) (hN : cc.size ≤ N) (d : Domain F)
    (hd : Domain.new? cc.size = some d) (hgates : GatesSatisfied cc d.gen) (hcopies : CopiesSatisfied cc d.gen)
    (ζ : F) (hs : s ^ cc.size ≠ 1) (hζ : ζ ^ cc.size ≠ 1) (hsζ : ζ ≠ s) (hsw : ζ * d.gen ≠ s)
    (v : View F G1) (bl0 bl1 bl2 : Blinders F)
    (h0 : proverView env cc (Srs.newFromSecret P s N) bl0 ζ = some v)
    (h1 : proverView env cc (Srs.newFromSecret P s N) bl1 ζ = some v)
    (h2 : proverView env cc (Srs.newFromSecret P s N) bl2 ζ = some v)
    (h01 : bl0.b7 ≠ bl1.b7)
    (lo0 mid0 hi0 lo1 mid1 hi1 lo2 mid2 hi2 : G1) (deg : ℕ)
    (t0 : proverSlices env cc (Srs.newFromSecret P s N) bl0 = some (lo0, mid0, hi0, deg))
    (t1 : proverSlices env cc (Srs.newFromSecret P s N) bl1 = some (lo1, mid1, hi1, deg))
    (t2 : proverSlices env cc (Srs.newFromSecret P s N) bl2 = some (lo2, mid2, hi2, deg)) :
    let k := (bl2.b7 - bl0.b7) / (bl1.b7 - bl0.b7)
    lo2 = lo0 + k • (lo1 - lo0) ∧ mid2 = mid0 + k • (mid1 - mid0) ∧ hi2 = hi0 + k • (hi1 - hi0) := by
  intro k
  obtain ⟨e1, z1s, z1w⟩ := view_blinders env hdig P s N cc hwf hN d hd ζ hs hζ hsζ bl0 bl1 v h0 h1
  obtain ⟨e2, z2s, z2w⟩ := view_blinders env hdig P s N cc hwf hN d hd ζ hs hζ hsζ bl0 bl2 v h0 h2
  obtain ⟨b1, b2, b3, b4, b5, b6, b7, b8, b9⟩ := bl0
  obtain ⟨c1, c2, c3, c4, c5, c6, c7, c8, c9⟩ := bl1
  obtain ⟨f1, f2, f3, f4, f5, f6, f7, f8, f9⟩ := bl2
  dsimp only at *
  obtain ⟨rfl, rfl, rfl, rfl, rfl, rfl⟩ := e1
  obtain ⟨rfl, rfl, rfl, rfl, rfl, rfl⟩ := e2
  have hk : f7 - b7 = k * (c7 - b7) := by
    rw [div_mul_cancel₀ _ (sub_ne_zero.2 h01.symm)]
  -- the other two blinding values lie on the same line
  have h8 : f8 - b8 = k * (c8 - b8) := by
    have : (f8 - b8 - k * (c8 - b8)) * (ζ * d.gen - s) = 0 := by
      linear_combination z2w - z2s - k * (z1w - z1s) - ((ζ * d.gen) ^ 2 - s ^ 2) * hk
    rcases mul_eq_zero.1 this with h | h
    · exact sub_eq_zero.1 h
    · exact absurd (sub_eq_zero.1 h) hsw
  have h9 : f9 - b9 = k * (c9 - b9) := by
    linear_combination z2s - k * z1s - s ^ 2 * hk - s * h8
  set H0 : Honest F G1 := ⟨env, P.g1, s, cc, d.gen, ⟨f1, f2, f3, f4, f5, f6, b7, b8, b9⟩⟩ with hH0
  set H1 : Honest F G1 := ⟨env, P.g1, s, cc, d.gen, ⟨f1, f2, f3, f4, f5, f6, c7, c8, c9⟩⟩ with hH1
  set H2 : Honest F G1 := ⟨env, P.g1, s, cc, d.gen, ⟨f1, f2, f3, f4, f5, f6, f7, f8, f9⟩⟩ with hH2
  have S0 : Setting H0 P d N := ⟨rfl, rfl, hd, hwf, hN, hdig⟩
  have S1 : Setting H1 P d N := ⟨rfl, rfl, hd, hwf, hN, hdig⟩
  have S2 : Setting H2 P d N := ⟨rfl, rfl, hd, hwf, hN, hdig⟩
  obtain ⟨p0, n0⟩ := proverSlices_eq S0 hgates hcopies t0
  obtain ⟨p1, n1⟩ := proverSlices_eq S1 hgates hcopies t1
  obtain ⟨p2, n2⟩ := proverSlices_eq S2 hgates hcopies t2
  simp only [Prod.mk.injEq] at p0 p1 p2
  obtain ⟨rfl, rfl, rfl, m0⟩ := p0
  obtain ⟨rfl, rfl, rfl, m1⟩ := p1
  obtain ⟨rfl, rfl, rfl, m2⟩ := p2
  have hm1 : H1.m = H0.m := by
    have := S0.m_pos; have := S1.m_pos; omega
  have hm2 : H2.m = H0.m := by
    have := S0.m_pos; have := S2.m_pos; omega
  -- the commitments to the accumulator agree, hence the challenge `α`
  have w0 := (proverView_eq S0 ζ).1 n0
  have w1 := (proverView_eq S1 ζ).1 n1
  have w2 := (proverView_eq S2 ζ).1 n2
  have q1 := congrArg View.zC (Option.some.inj (w1.symm.trans (h1.trans (h0.symm.trans w0))))
  have q2 := congrArg View.zC (Option.some.inj (w2.symm.trans (h2.trans (h0.symm.trans w0))))
  dsimp only at q1 q2
  have ha1 : H1.α = H0.α := by
    unfold Honest.α Honest.feeds2; rw [q1]; rfl
  have ha2 : H2.α = H0.α := by
    unfold Honest.α Honest.feeds2; rw [q2]; rfl
  have hz : H2.z = H0.z + C k * (H1.z - H0.z) := by
    have e9 : (C f9 : F[X]) = C b9 + C k * (C c9 - C b9) := by
      rw [← C_sub, ← C_mul, ← C_add, ← h9]; congr 1; ring
    have e8 : (C f8 : F[X]) = C b8 + C k * (C c8 - C b8) := by
      rw [← C_sub, ← C_mul, ← C_add, ← h8]; congr 1; ring
    have e7 : (C f7 : F[X]) = C b7 + C k * (C c7 - C b7) := by
      rw [← C_sub, ← C_mul, ← C_add, ← hk]; congr 1; ring
    have x2 : H2.z = H0.acc + (C f9 + C f8 * X + C f7 * X ^ 2) * H0.Z := rfl
    have x1 : H1.z = H0.acc + (C c9 + C c8 * X + C c7 * X ^ 2) * H0.Z := rfl
    have x0 : H0.z = H0.acc + (C b9 + C b8 * X + C b7 * X ^ 2) * H0.Z := rfl
    rw [x2, x1, x0, e9, e8, e7]; ring
  have hq : H2.qnum = H0.qnum + C k * (H1.qnum - H0.qnum) := by
    have x2 : H2.qnum = gatePoly cc H0.a H0.b H0.c +
      C H2.α * (numPoly cc H0.β H0.γ H0.a H0.b H0.c * H2.z - denPoly cc H0.β H0.γ H0.a H0.b H0.c *
        H2.z.comp (C d.gen * X)) + C (H2.α ^ 2) * ((H2.z - 1) * H0.L1) := rfl
    have x1 : H1.qnum = gatePoly cc H0.a H0.b H0.c +
      C H1.α * (numPoly cc H0.β H0.γ H0.a H0.b H0.c * H1.z - denPoly cc H0.β H0.γ H0.a H0.b H0.c *
        H1.z.comp (C d.gen * X)) + C (H1.α ^ 2) * ((H1.z - 1) * H0.L1) := rfl
    have x0 : H0.qnum = gatePoly cc H0.a H0.b H0.c +
      C H0.α * (numPoly cc H0.β H0.γ H0.a H0.b H0.c * H0.z - denPoly cc H0.β H0.γ H0.a H0.b H0.c *
        H0.z.comp (C d.gen * X)) + C (H0.α ^ 2) * ((H0.z - 1) * H0.L1) := rfl
    rw [x2, x1, x0, ha1, ha2, hz]
    simp only [add_comp, mul_comp, sub_comp, C_comp]
    ring
  have ht : H2.t = H0.t + C k * (H1.t - H0.t) := by
    have x2 : H2.t = H2.qnum /ₘ H0.Z := rfl
    have x1 : H1.t = H1.qnum /ₘ H0.Z := rfl
    rw [x2, hq, (divMod_affine S0.monicZ k _ _).1, x1]; rfl
  have hX : (X ^ H0.m : F[X]).Monic := monic_X_pow _
  have hlo : H2.tLo = H0.tLo + C k * (H1.tLo - H0.tLo) := by
    unfold Honest.tLo
    rw [hm1, hm2, ht, (divMod_affine hX k _ _).2]
  have hmid : H2.tMid = H0.tMid + C k * (H1.tMid - H0.tMid) := by
    unfold Honest.tMid
    rw [hm1, hm2, ht, (divMod_affine hX k _ _).1, (divMod_affine hX k _ _).2]
  have hhi : H2.tHi = H0.tHi + C k * (H1.tHi - H0.tHi) := by
    unfold Honest.tHi
    rw [hm1, hm2, ht, (divMod_affine hX k _ _).1, (divMod_affine hX k _ _).1]
  have hcom : ∀ {p0 p1 p2 : F[X]}, p2 = p0 + C k * (p1 - p0) →
      H2.com p2 = H0.com p0 + k • (H1.com p1 - H0.com p0) := by
    rintro p0 p1 p2 rfl
    show eval s _ • P.g1 = eval s _ • P.g1 + k • (eval s _ • P.g1 - eval s _ • P.g1)
    rw [eval_add, eval_mul, eval_C, eval_sub, add_smul, mul_smul, sub_smul]
  exact ⟨hcom hlo, hcom hmid, hcom hhi⟩

/-- The quotient part of a proof is the one computed by the first three rounds. -/
theorem slices_of_proof (env : Env F G1) (T : List UInt8 → List UInt8) (cc : CompiledCircuit F) (srs : Srs G1 G2)
    (bl : Blinders F) (p : Proof F G1) (h : generateProof env T cc srs bl = some p) :
    proverSlices env cc srs bl = some (p.tLoC, p.tMidC, p.tHiC, p.degree) := by
  unfold generateProof at h
  simp only [Option.bind_eq_bind, Option.bind_eq_some_iff] at h
  obtain ⟨d, hd, r1, h1, r2, h2, r3, h3, r4, h4, h5⟩ := h
  unfold round5 at h5
  simp only [Option.bind_eq_bind, Option.bind_eq_some_iff, pure, Option.some.injEq] at h5
  obtain ⟨ch3, hch3, vc, hvc, rx, hrx, wP, hwP, w, hw, wwP, hwwP, ww, hww, wC, hwC, wwC, hwwC, uc, huc, hp⟩ := h5
  unfold proverSlices
  simp only [hd, h1, h2, h3, Option.bind_eq_bind, Option.bind_some]
  subst hp
  rfl

end

/-! ## Two witnesses of one circuit -/

/-- The example circuit with another witness: `1 · 5 = 5`, `5 · 7 = 35` instead of `1 · 2 = 2`, `2 · 3 = 6`. -/
def zkCalls : List (GateCall BlsFr) :=
  [⟨.multiplication, (0, 0, 1), (1, 0, 5), (0, 1, 5), 0⟩,
   ⟨.multiplication, (2, 0, 5), (1, 1, 7), (2, 1, 35), 0⟩]

/-- Its compiled circuit: that of the example except for the wires. -/
noncomputable def zkCC : CompiledCircuit BlsFr :=
  { exCC with
    gate := { exCC.gate with
      fax := exD.interpolate (zkCalls.map fun r => r.a.2.2)
      fbx := exD.interpolate (zkCalls.map fun r => r.b.2.2)
      fcx := exD.interpolate (zkCalls.map fun r => r.c.2.2) } }

theorem zkCC_compiled : (build zkCalls).compile = some zkCC := by
  have hval : AllValid 2 zkCalls := by
    intro call hc
    simp only [zkCalls, List.mem_cons, List.not_mem_nil, or_false] at hc
    rcases hc with rfl | rfl <;> simp [ValidPos]
  have := (compile_build zkCalls exD (by exact exD_eq) (by simp [zkCalls])).2 hval
  exact this

theorem zkCalls_relations : AllRelations zkCalls := by
  intro call hc
  simp only [zkCalls, List.mem_cons, List.not_mem_nil, or_false] at hc
  rcases hc with rfl | rfl <;> norm_num [GateCall.Relation]

theorem zkCalls_wiring : WiringOk 2 zkCalls := by
  refine ⟨Equiv.swap (0, 1) (2, 0), ?_⟩
  decide +kernel

/-- The two circuits differ in the witness only. -/
theorem zk_sameCircuit : SameCircuit exCC zkCC := ⟨rfl, rfl, rfl, rfl, rfl, rfl, rfl, rfl⟩

/-- Structured reference string of the example. -/
noncomputable def zkSrs : Srs BlsFr BlsFr := Srs.newFromSecret (trivialGroups BlsFr) 11 2

/-- Blinding values for the second witness that reproduce the view of the example's proof, with `b7 = 0`. -/
def zkBl0 : Blinders BlsFr :=
  ⟨9587964778922867474031250072261276811230607223753504023347983047406124865351,
   45285528560336255414068503166160606859823658977728414483157705240856047386627,
   18416770441830180175142005274188514151319892792442304833642829808705770376285,
   27259444657504486341683871211474827924024767743780792619008242738967306719684,
   28401976699352488486138768532117866461320882989684654598071143603838702674853,
   20109098042714551276304633869449468946157874220981569279562289279884772921799, 0,
   24724665698822340048665834693402346169966133531994824556876608443948630716499,
   48470136716503201283523121478155094471814796429059161012490776949523058247031⟩

/-- The same with `b7 = 1`. -/
def zkBl1 : Blinders BlsFr :=
  { zkBl0 with
    b7 := 1
    b8 := 24724665698822340048665834693402346169966133531994824556876608443948630716608
    b9 := 48470136716503201283523121478155094471814796429059161012490776949523058245711 }

/-- The view on a given domain. -/
noncomputable def viewOn (cc : CompiledCircuit BlsFr) (bl : Blinders BlsFr) (ζ : BlsFr) : Option (View BlsFr BlsFr) :=
  (round1 cc zkSrs bl exD).bind fun r1 => (round2 exEnv cc zkSrs bl exD r1).bind fun r2 =>
  some ⟨r1.aC, r1.bC, r1.cC, r2.zC, Ark.eval r1.ax ζ, Ark.eval r1.bx ζ, Ark.eval r1.cx ζ,
    Ark.eval r2.zx (ζ * exD.element 1)⟩

/-- The slices on a given domain. -/
noncomputable def slicesOn (cc : CompiledCircuit BlsFr) (bl : Blinders BlsFr) :
    Option (BlsFr × BlsFr × BlsFr × ℕ) :=
  (round1 cc zkSrs bl exD).bind fun r1 => (round2 exEnv cc zkSrs bl exD r1).bind fun r2 =>
  (round3 exEnv cc zkSrs exD r1 r2).bind fun r3 => some (r3.tLoC, r3.tMidC, r3.tHiC, r3.sp.degree)

theorem viewOn_eq (cc : CompiledCircuit BlsFr) (hsz : cc.size = 2) (bl : Blinders BlsFr) (ζ : BlsFr) :
    proverView exEnv cc zkSrs bl ζ = viewOn cc bl ζ := by
  unfold proverView
  rw [hsz, exD_eq]; rfl

theorem slicesOn_eq (cc : CompiledCircuit BlsFr) (hsz : cc.size = 2) (bl : Blinders BlsFr) :
    proverSlices exEnv cc zkSrs bl = slicesOn cc bl := by
  unfold proverSlices
  rw [hsz, exD_eq]; rfl

/-- The evaluation challenge of the example's proof. -/
theorem zk_ev : (exRun.map fun p => (p.challenges exEnv exEnv.sha256 1).ev) = some 120 := by
  decide +kernel

/-- Two views as a comparable tuple. -/
def View.tuple (v : View BlsFr BlsFr) : List BlsFr := [v.aC, v.bC, v.cC, v.zC, v.a, v.b, v.c, v.zw]

theorem View.tuple_inj {v v' : View BlsFr BlsFr} (h : v.tuple = v'.tuple) : v = v' := by
  obtain ⟨v1, v2, v3, v4, v5, v6, v7, v8⟩ := v
  obtain ⟨w1, w2, w3, w4, w5, w6, w7, w8⟩ := v'
  simp only [View.tuple, List.cons.injEq, and_true] at h
  obtain ⟨rfl, rfl, rfl, rfl, rfl, rfl, rfl, rfl⟩ := h
  rfl

theorem zk_view0 : (viewOn zkCC zkBl0 120).map View.tuple = (viewOn exCC exBl 120).map View.tuple := by
  decide +kernel

theorem zk_view1 : (viewOn zkCC zkBl1 120).map View.tuple = (viewOn exCC exBl 120).map View.tuple := by
  decide +kernel

theorem zk_view_some : (viewOn exCC exBl 120).isSome = true := by decide +kernel

/-- The commitments to the quotient for the two blindings of the second witness are defined, ... -/
theorem zk_slices0 : slicesOn zkCC zkBl0 =
    some (10237139781114028883602241926528927087894985471485263971966376849477967911669,
      11131531074090656885798552571664012338799839157282033486951696969358297636396,
      24809710403046600517914662694168266715184115971581560102908105542516208926626, 3) := by
  decide +kernel

theorem zk_slices1 : slicesOn zkCC zkBl1 =
    some (39862174338509673435399687874270802162099145085959801952171230406138028212782,
      26816201871673863311815476142997149845209213901535257831692676535589328264243,
      34043370092411255834899913452589613809501855557552255345720668965437708733939, 3) := by
  decide +kernel

/-- ... and those of the example are not on their line. -/
theorem zk_slices : slicesOn exCC exBl =
    some (39326906381344642859585805381139474378267914375395728366952744102515581382110, 1167082382963, 74430720,
      3) := by
  decide +kernel

/-- **C79** (the proof is not perfectly zero knowledge): a circuit, two satisfying witnesses and a proof that the prover
can produce (and the verifier accepts) with the first witness and cannot produce, for any blinding values, with the
second one, although evaluation challenge and secret are off the domain and wire and accumulator parts of the proof
occur for both. -/
theorem C79_not_zero_knowledge : ∃ p : Proof BlsFr BlsFr,
    SameCircuit exCC zkCC ∧
    (build exampleCalls).compile = some exCC ∧ (build zkCalls).compile = some zkCC ∧
    (GatesSatisfied exCC exD.gen ∧ CopiesSatisfied exCC exD.gen) ∧
    (GatesSatisfied zkCC exD.gen ∧ CopiesSatisfied zkCC exD.gen) ∧
    generateProof exEnv exEnv.sha256 exCC zkSrs exBl = some p ∧
    verify exEnv exEnv.sha256 (trivialGroups BlsFr) zkCC zkSrs p = some (.ok ()) ∧
    (p.challenges exEnv exEnv.sha256 1).ev ^ 2 ≠ 1 ∧ (11 : BlsFr) ^ 2 ≠ 1 ∧
    (∃ bl, proverView exEnv zkCC zkSrs bl (p.challenges exEnv exEnv.sha256 1).ev = some p.view) ∧
    ∀ bl, generateProof exEnv exEnv.sha256 zkCC zkSrs bl ≠ some p := by
  obtain ⟨p, hp⟩ := Option.isSome_iff_exists.1 exRun_isSome
  have hgen : generateProof exEnv exEnv.sha256 exCC zkSrs exBl = some p := by
    rw [← hp]; exact exRun_eq _
  have hev : (p.challenges exEnv exEnv.sha256 1).ev = 120 := by
    have := zk_ev
    rw [hp, Option.map_some, Option.some.injEq] at this
    exact this
  have hg1 := (gatesSatisfied_iff exCC_compiled exD_eq).2 exCalls_relations
  have hc1 := copiesSatisfied_of exCC_compiled exD_eq exCalls_wiring
  have hg2 := (gatesSatisfied_iff zkCC_compiled exD_eq).2 zkCalls_relations
  have hc2 := copiesSatisfied_of zkCC_compiled exD_eq zkCalls_wiring
  have hwf := compile_wellFormed _ _ zkCC_compiled
  have hvp : proverView exEnv exCC zkSrs exBl 120 = some p.view := by
    have := C78_view_of_proof exEnv exEnv.sha256 exEnv_len (trivialGroups BlsFr) 11 2 exCC exBl p hgen
    rwa [show (p.challenges exEnv exEnv.sha256 (trivialGroups BlsFr).g1).ev = 120 from hev] at this
  have hview : ∀ bl, (viewOn zkCC bl 120).map View.tuple = (viewOn exCC exBl 120).map View.tuple →
      proverView exEnv zkCC zkSrs bl 120 = some p.view := by
    intro bl h
    rw [viewOn_eq zkCC rfl]
    rw [viewOn_eq exCC rfl] at hvp
    rw [hvp] at h
    cases hv : viewOn zkCC bl 120 with
    | none => rw [hv] at h; cases h
    | some v =>
      rw [hv, Option.map_some, Option.map_some, Option.some.injEq] at h
      rw [View.tuple_inj h]
  have hsl := slices_of_proof exEnv exEnv.sha256 exCC zkSrs exBl p hgen
  rw [slicesOn_eq exCC rfl, zk_slices] at hsl
  have hver : verify exEnv exEnv.sha256 (trivialGroups BlsFr) exCC zkSrs p = some (.ok ()) := by
    refine C49_compiled exEnv exEnv.sha256 exEnv_len (trivialGroups BlsFr) 11 2 exampleCalls exCC exCC_compiled
      (by decide) exBl p hgen ?_
    rw [show (p.challenges exEnv exEnv.sha256 (trivialGroups BlsFr).g1).ev = 120 from hev]
    decide +kernel
  refine ⟨p, zk_sameCircuit, exCC_compiled, zkCC_compiled, ⟨hg1, hc1⟩, ⟨hg2, hc2⟩, hgen, ?_, by rw [hev]; decide +kernel,
    by decide +kernel, ⟨zkBl0, by rw [hev]; exact hview _ zk_view0⟩, ?_⟩
  · rw [← hver]
    obtain ⟨h1, h2, h3, h4, h5, h6, h7, h8⟩ := zk_sameCircuit
    exact (C54_ignores_witness exEnv exEnv.sha256 (trivialGroups BlsFr) exCC zkCC zkSrs p h1
      ⟨h3, h4, h5, h6, h7, h8⟩ h2).symm
  · intro bl hbl
    have hv2 : proverView exEnv zkCC zkSrs bl 120 = some p.view := by
      have := C78_view_of_proof exEnv exEnv.sha256 exEnv_len (trivialGroups BlsFr) 11 2 zkCC bl p hbl
      rwa [show (p.challenges exEnv exEnv.sha256 (trivialGroups BlsFr).g1).ev = 120 from hev] at this
    have hs2 := slices_of_proof exEnv exEnv.sha256 zkCC zkSrs bl p hbl
    rw [← hsl] at hs2
    have hline := C79_slices_on_a_line exEnv exEnv_len (trivialGroups BlsFr) 11 2 zkCC hwf (le_refl _) exD exD_eq hg2 hc2
      120 (by decide +kernel) (by decide +kernel) (by decide +kernel) (by decide +kernel) p.view zkBl0 zkBl1 bl
      (hview _ zk_view0) (hview _ zk_view1) hv2 (by decide +kernel) _ _ _ _ _ _ _ _ _ _
      ((slicesOn_eq zkCC rfl zkBl0).trans zk_slices0) ((slicesOn_eq zkCC rfl zkBl1).trans zk_slices1) hs2
    obtain ⟨h1, h2, -⟩ := hline
    simp only [smul_eq_mul] at h1 h2
    generalize (bl.b7 - zkBl0.b7) / (zkBl1.b7 - zkBl0.b7) = k at h1 h2
    have hbad : ((39326906381344642859585805381139474378267914375395728366952744102515581382110 -
        10237139781114028883602241926528927087894985471485263971966376849477967911669) *
        (26816201871673863311815476142997149845209213901535257831692676535589328264243 -
        11131531074090656885798552571664012338799839157282033486951696969358297636396) : BlsFr) =
        (1167082382963 - 11131531074090656885798552571664012338799839157282033486951696969358297636396) *
        (39862174338509673435399687874270802162099145085959801952171230406138028212782 -
        10237139781114028883602241926528927087894985471485263971966376849477967911669) := by
      rw [h1, h2]; ring
    revert hbad
    decide +kernel

/-! ## Non-vacuity of C78 and C79 -/

/-- C78 applies to the example: its view occurs for the other witness for exactly one blinding with `b7 = 5`. -/
example : ∃ v : View BlsFr BlsFr, proverView exEnv exCC zkSrs exBl 120 = some v ∧
    ∃! bl' : Blinders BlsFr, bl'.b7 = 5 ∧ proverView exEnv zkCC zkSrs bl' 120 = some v := by
  obtain ⟨v, hv⟩ := Option.isSome_iff_exists.1 zk_view_some
  rw [← viewOn_eq exCC rfl] at hv
  refine ⟨v, hv, ?_⟩
  refine C78_indistinguishable exEnv exEnv_len (trivialGroups BlsFr) 11 2 exCC zkCC
    (compile_wellFormed _ _ zkCC_compiled) (compile_wellFormed _ _ exCC_compiled) rfl (le_refl _) exD exD_eq 120
    (by decide +kernel) (by decide +kernel) (by decide +kernel) (by decide +kernel) exBl v hv ?_ 5
  -- the second witness has the same view for `zkBl0`, so no denominator vanishes
  have hv0 : proverView exEnv zkCC zkSrs zkBl0 120 = some v := by
    have h := zk_view0
    rw [viewOn_eq exCC rfl] at hv
    rw [viewOn_eq zkCC rfl]
    rw [hv] at h
    cases hv' : viewOn zkCC zkBl0 120 with
    | none => rw [hv'] at h; cases h
    | some v' =>
      rw [hv', Option.map_some, Option.map_some, Option.some.injEq] at h
      rw [View.tuple_inj h]
  have S : Setting (⟨exEnv, 1, 11, zkCC, -1, zkBl0⟩ : Honest BlsFr BlsFr) (trivialGroups BlsFr) exD 2 :=
    ⟨rfl, rfl, exD_eq, compile_wellFormed _ _ zkCC_compiled, le_refl _, exEnv_len⟩
  by_cases hdn : DenominatorsNonzero zkCC (-1) (Honest.β (⟨exEnv, 1, 11, zkCC, -1, zkBl0⟩ : Honest BlsFr BlsFr))
      (Honest.γ (⟨exEnv, 1, 11, zkCC, -1, zkBl0⟩ : Honest BlsFr BlsFr))
  · have h := (Option.some.inj (((proverView_eq S 120).1 hdn).symm.trans hv0))
    subst h
    exact hdn
  · have h0 : proverView exEnv zkCC zkSrs zkBl0 120 = none := (proverView_eq S 120).2 hdn
    rw [h0] at hv0
    cases hv0

/-- An environment whose evaluation challenge is the second domain point. -/
def leakEnv : Env BlsFr BlsFr := { exEnv with rand := fun _ k => if k = 0 then -1 else 7 }

/-- A multiplication gate `1 · 2 = 2` and an addition gate `2 + 3 = 5`. -/
def leakCalls : List (GateCall BlsFr) :=
  [⟨.multiplication, (0, 0, 1), (1, 0, 2), (0, 1, 2), 0⟩,
   ⟨.addition, (2, 0, 2), (1, 1, 3), (2, 1, 5), 0⟩]

/-- Its compiled circuit: that of the example except for wires and selectors. -/
noncomputable def leakCC : CompiledCircuit BlsFr :=
  { exCC with
    gate :=
      { fax := exD.interpolate (leakCalls.map fun r => r.a.2.2)
        fbx := exD.interpolate (leakCalls.map fun r => r.b.2.2)
        fcx := exD.interpolate (leakCalls.map fun r => r.c.2.2)
        qlx := exD.interpolate (leakCalls.map fun r => r.gate.qL)
        qrx := exD.interpolate (leakCalls.map fun r => r.gate.qR)
        qox := exD.interpolate (leakCalls.map fun r => r.gate.qO)
        qmx := exD.interpolate (leakCalls.map fun r => r.gate.qM)
        qcx := exD.interpolate (leakCalls.map fun r => r.gate.qC)
        pix := exD.interpolate (leakCalls.map fun r => r.gate.pi) } }

theorem leakCC_compiled : (build leakCalls).compile = some leakCC := by
  have hval : AllValid 2 leakCalls := by
    intro call hc
    simp only [leakCalls, List.mem_cons, List.not_mem_nil, or_false] at hc
    rcases hc with rfl | rfl <;> simp [ValidPos]
  have := (compile_build leakCalls exD (by exact exD_eq) (by simp [leakCalls])).2 hval
  exact this

/-- The run of the prover on a given domain. -/
noncomputable def runOn (env : Env BlsFr BlsFr) (cc : CompiledCircuit BlsFr) (bl : Blinders BlsFr) :
    Option (Proof BlsFr BlsFr) :=
  (round1 cc zkSrs bl exD).bind fun r1 => (round2 env cc zkSrs bl exD r1).bind fun r2 =>
  (round3 env cc zkSrs exD r1 r2).bind fun r3 => (round4 env cc exD r1 r2 r3).bind fun r4 =>
  round5 env cc zkSrs exD r1 r2 r3 r4

theorem runOn_eq (env : Env BlsFr BlsFr) (T : List UInt8 → List UInt8) (cc : CompiledCircuit BlsFr) (hsz : cc.size = 2)
    (bl : Blinders BlsFr) : generateProof env T cc zkSrs bl = runOn env cc bl := by
  unfold generateProof
  rw [hsz, exD_eq]
  rfl

theorem leakRun_isSome : (runOn leakEnv leakCC exBl).isSome = true := by decide +kernel

theorem leakRun_ev (p : Proof BlsFr BlsFr) : (p.challenges leakEnv leakEnv.sha256 1).ev = -1 := by
  simp only [Proof.challenges, challengeAfter, leakEnv, if_pos]

theorem leakWires : wireVal leakCC exD.gen 0 1 = 2 ∧ wireVal leakCC exD.gen 1 1 = 3 ∧ wireVal leakCC exD.gen 2 1 = 5 := by
  decide +kernel

/-- `C78_leak_on_domain` applies: the proof contains the witness `2 + 3 = 5` of the second row. -/
example : ∃ p, generateProof leakEnv leakEnv.sha256 leakCC zkSrs exBl = some p ∧
    p.barA = 2 ∧ p.barB = 3 ∧ p.barC = 5 := by
  obtain ⟨p, hp⟩ := Option.isSome_iff_exists.1 leakRun_isSome
  have hg : generateProof leakEnv leakEnv.sha256 leakCC zkSrs exBl = some p := by
    rw [runOn_eq leakEnv _ leakCC rfl, hp]
  have h := C78_leak_on_domain leakEnv leakEnv.sha256 exEnv_len (trivialGroups BlsFr) 11 2 leakCC
    (compile_wellFormed _ _ leakCC_compiled) (le_refl _) exD exD_eq exBl p hg 1 ((leakRun_ev p).trans (pow_one (-1 : BlsFr)).symm)
  exact ⟨p, hg, h.1.trans leakWires.1, h.2.1.trans leakWires.2.1, h.2.2.trans leakWires.2.2⟩

end Verif.Plonk

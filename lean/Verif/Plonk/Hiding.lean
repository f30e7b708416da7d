import Verif.Plonk.HonestRun

/-!
# Property C78: what the blinding of the PLONK prover hides

The nine values drawn by `generate_proof` (`plonk/src/prover.rs` lines 72-77, 104-106) blind the wire polynomials and
the accumulator.  For points off the evaluation domain the four commitments and the four evaluations computed from
them can be anything, each with the same number of blinding values, whatever the witness; on the domain the
evaluations are the witness.
-/

set_option linter.unusedSectionVars false
set_option linter.unusedSimpArgs false
set_option linter.unusedVariables false

namespace Verif.Plonk

open Verif.Ark Verif.Kzg Polynomial

/-! ## Specification -/

/-- The part of a proof computed from the wires and the accumulator: their commitments and evaluations. -/
structure View (F G1 : Type) where
  /-- commitment to `a` -/
  aC : G1
  /-- commitment to `b` -/
  bC : G1
  /-- commitment to `c` -/
  cC : G1
  /-- commitment to `z` -/
  zC : G1
  /-- `a(ζ)` -/
  a : F
  /-- `b(ζ)` -/
  b : F
  /-- `c(ζ)` -/
  c : F
  /-- `z(ζω)` -/
  zw : F

/-- The view contained in a proof. -/
def Proof.view {F G1 : Type} (p : Proof F G1) : View F G1 := ⟨p.aC, p.bC, p.cC, p.zC, p.barA, p.barB, p.barC, p.barZw⟩

section
variable {F : Type} [FftField F] [DecidableEq F]
  {G1 G2 GT : Type} [AddCommGroup G1] [Module F G1] [AddCommGroup G2] [Module F G2]
  [AddCommGroup GT] [Module F GT] [DecidableEq GT]

/-- The view produced by rounds 1, 2 and 4 of `generate_proof` (`plonk/src/prover.rs` lines 68-123 and 158-170) when
the evaluation challenge is `ζ`. -/
def proverView (env : Env F G1) (cc : CompiledCircuit F) (srs : Srs G1 G2) (bl : Blinders F) (ζ : F) :
    Option (View F G1) := do
  let d ← Domain.new? cc.size
  let r1 ← round1 cc srs bl d
  let r2 ← round2 env cc srs bl d r1
  pure ⟨r1.aC, r1.bC, r1.cC, r2.zC, Ark.eval r1.ax ζ, Ark.eval r1.bx ζ, Ark.eval r1.cx ζ,
    Ark.eval r2.zx (ζ * d.element 1)⟩

/-- No factor of a denominator of the grand product vanishes for the challenges `β`, `γ` (else the prover panics). -/
def DenominatorsNonzero (cc : CompiledCircuit F) (w β γ : F) : Prop :=
  ∀ i, i + 1 < cc.size → ∀ l < 3, wireVal cc w l i + β * sigmaVal cc w l i + γ ≠ 0

/-! ## Lemmas -/

/-- Two evaluations of a line determine it, and any two values occur. -/
theorem line_solve {x y : F} (h : x ≠ y) (u v : F) :
    ∃ hi lo : F, (lo + hi * x = u ∧ lo + hi * y = v) ∧
      ∀ hi' lo' : F, lo' + hi' * x = u → lo' + hi' * y = v → hi' = hi ∧ lo' = lo := by
  have hne : x - y ≠ 0 := sub_ne_zero.2 h
  refine ⟨(u - v) / (x - y), u - (u - v) / (x - y) * x, ⟨by ring, ?_⟩, ?_⟩
  · field_simp; ring
  · intro hi' lo' h1 h2
    have e : hi' = (u - v) / (x - y) := by
      rw [eq_div_iff hne, ← h1, ← h2]; ring
    refine ⟨e, ?_⟩
    rw [← e, ← h1]; ring

/-- The same with a blinding factor and an offset at each point. -/
theorem blind_solve {x y : F} (h : x ≠ y) {zx zy : F} (hx : zx ≠ 0) (hy : zy ≠ 0) (f g u v : F) :
    ∃ hi lo : F, (f + (lo + hi * x) * zx = u ∧ g + (lo + hi * y) * zy = v) ∧
      ∀ hi' lo' : F, f + (lo' + hi' * x) * zx = u → g + (lo' + hi' * y) * zy = v → hi' = hi ∧ lo' = lo := by
  obtain ⟨hi, lo, ⟨h1, h2⟩, h3⟩ := line_solve h ((u - f) / zx) ((v - g) / zy)
  refine ⟨hi, lo, ⟨?_, ?_⟩, ?_⟩
  · rw [h1, div_mul_cancel₀ _ hx]; ring
  · rw [h2, div_mul_cancel₀ _ hy]; ring
  · intro hi' lo' e1 e2
    apply h3
    · rw [eq_div_iff hx, ← e1]; ring
    · rw [eq_div_iff hy, ← e2]; ring

theorem rowDen_ne_iff (H : Honest F G1) :
    (∀ i, i + 1 < H.n → H.rowDen i ≠ 0) ↔ DenominatorsNonzero H.cc H.w H.β H.γ := by
  unfold DenominatorsNonzero Honest.rowDen Honest.n
  refine forall_congr' fun i => imp_congr_right fun hi => ?_
  constructor
  · intro h l hl
    have h1 := left_ne_zero_of_mul (left_ne_zero_of_mul h)
    have h2 := right_ne_zero_of_mul (left_ne_zero_of_mul h)
    have h3 := right_ne_zero_of_mul h
    match l, hl with
    | 0, _ => exact h1
    | 1, _ => exact h2
    | 2, _ => exact h3
  · intro h
    exact mul_ne_zero (mul_ne_zero (h 0 (by omega)) (h 1 (by omega))) (h 2 (by omega))

/-- The view as evaluations of the honest polynomials; none exactly if a denominator vanishes. -/
theorem proverView_eq {H : Honest F G1} {P : PairingGroups F G1 G2 GT} {d : Domain F} {N : ℕ}
    (S : Setting H P d N) (ζ : F) :
    (DenominatorsNonzero H.cc H.w H.β H.γ →
      proverView H.env H.cc (Srs.newFromSecret P H.s N) H.bl ζ =
        some ⟨H.com H.a, H.com H.b, H.com H.c, H.com H.z, H.a.eval ζ, H.b.eval ζ, H.c.eval ζ,
          H.z.eval (ζ * H.w)⟩) ∧
    (¬ DenominatorsNonzero H.cc H.w H.β H.γ →
      proverView H.env H.cc (Srs.newFromSecret P H.s N) H.bl ζ = none) := by
  unfold proverView
  simp only [S.hd, Option.bind_eq_bind, Option.bind_some, S.round1_eq]
  refine ⟨fun h => ?_, fun h => ?_⟩
  · rw [S.round2_some ((rowDen_ne_iff H).2 h)]
    simp only [Option.bind_some, pure, eval_eq, toPoly_listOf, Domain.element, pow_one, S.w_eq]
  · rw [← rowDen_ne_iff] at h
    push Not at h
    rw [S.round2_none h]; rfl

/-! ## The property -/

/-- The proof contains the view at its own evaluation challenge. -/
theorem C78_view_of_proof (env : Env F G1) (T : List UInt8 → List UInt8)
    (hdig : ∀ b, 8 ≤ (env.sha256 b).length) (P : PairingGroups F G1 G2 GT) (s : F) (N : ℕ)
    (cc : CompiledCircuit F) (bl : Blinders F)
    (p : Proof F G1) (h : generateProof env T cc (Srs.newFromSecret P s N) bl = some p) :
    proverView env cc (Srs.newFromSecret P s N) bl (p.challenges env env.sha256 P.g1).ev = some p.view := by
  unfold generateProof at h
  simp only [Option.bind_eq_bind, Option.bind_eq_some_iff] at h
  obtain ⟨d, hd, r1, h1, r2, h2, r3, h3, r4, h4, h5⟩ := h
  have h2' := h2
  unfold round2 at h2
  simp only [Option.bind_eq_bind, Option.bind_eq_some_iff, pure, Option.some.injEq] at h2
  obtain ⟨bg, hbg, zz, hzz, zC, hzC, rfl⟩ := h2
  unfold round3 SlicePoly.commit at h3
  simp only [Option.bind_eq_bind, Option.bind_eq_some_iff, pure, Option.some.injEq] at h3
  obtain ⟨al, hal, tx, htx, sp, hsp, tC, ⟨cLo, hcLo, cMid, hcMid, cHi, hcHi, rfl⟩, rfl⟩ := h3
  unfold round4 at h4
  simp only [Option.bind_eq_bind, Option.bind_eq_some_iff, pure, Option.some.injEq] at h4
  obtain ⟨evc, hevc, rfl⟩ := h4
  unfold round5 at h5
  simp only [Option.bind_eq_bind, Option.bind_eq_some_iff, pure, Option.some.injEq] at h5
  obtain ⟨ch3, hch3, vc, hvc, rx, hrx, wP, hwP, w, hw, wwP, hwwP, ww, hww, wC, hwC, wwC, hwwC, uc, huc, hp⟩ := h5
  have hch : verifyChallenges env env.sha256 p (Srs.newFromSecret P s N) =
      some { alpha := al.1, beta := bg.1.1, gamma := bg.1.2, ev := evc.1, v := vc.1, u := uc.1 } := by
    subst hp
    unfold verifyChallenges
    simp only [ChallengeGenerator.fromCommitments, List.foldl_cons, List.foldl_nil, hbg, hal, hevc,
      Option.bind_eq_bind, Option.bind_some, Proof.bars, hch3, hvc, huc, pure]
  rw [verifyChallenges_eq env env.sha256 hdig P s N p, Option.some.injEq] at hch
  rw [hch]
  unfold proverView
  simp only [hd, h1, h2', Option.bind_eq_bind, Option.bind_some]
  subst hp
  rfl

/-- **C78**: for every witness, every evaluation challenge off the domain and different from the secret, and every choice
of the remaining blinding value `b7`, each possible value of the commitments to the wires and the accumulator and of
their evaluations is produced by exactly one choice of the other eight blinding values (unless a denominator of the
grand product vanishes).  So these parts of the proof are uniformly distributed and independent of the witness. -/
theorem C78_uniform (env : Env F G1) (hdig : ∀ b, 8 ≤ (env.sha256 b).length) (P : PairingGroups F G1 G2 GT)
    (s : F) (N : ℕ) (cc : CompiledCircuit F) (hwf : cc.WellFormed) (hN : cc.size ≤ N) (d : Domain F)
    (hd : Domain.new? cc.size = some d)
    (ζ : F) (hs : s ^ cc.size ≠ 1) (hζ : ζ ^ cc.size ≠ 1) (hsζ : ζ ≠ s) (hsw : ζ * d.gen ≠ s)
    (A B C' Z x y z zw : F)
    (hden : DenominatorsNonzero cc d.gen (challengeAfter env env.sha256 [A • P.g1, B • P.g1, C' • P.g1] 0)
      (challengeAfter env env.sha256 [A • P.g1, B • P.g1, C' • P.g1] 1)) (b7 : F) :
    ∃! bl : Blinders F, bl.b7 = b7 ∧
      proverView env cc (Srs.newFromSecret P s N) bl ζ =
        some ⟨A • P.g1, B • P.g1, C' • P.g1, Z • P.g1, x, y, z, zw⟩ := by
  have hset : ∀ bl : Blinders F, Setting (⟨env, P.g1, s, cc, d.gen, bl⟩ : Honest F G1) P d N :=
    fun bl => ⟨rfl, rfl, hd, hwf, hN, hdig⟩
  have hv := (Domain.new?_valid hd).1
  have hsz := WellFormed.size_eq hwf hd
  have zs : s ^ cc.size - 1 ≠ 0 := sub_ne_zero.2 hs
  have zζ : ζ ^ cc.size - 1 ≠ 0 := sub_ne_zero.2 hζ
  have hgen : d.gen ^ cc.size = 1 := by rw [← hsz]; exact hv.pow_size
  have zζw : (ζ * d.gen) ^ cc.size - 1 ≠ 0 := by rw [mul_pow, hgen, mul_one]; exact zζ
  obtain ⟨b1, b2, ⟨ha1, ha2⟩, hau⟩ := blind_solve hsζ.symm zs zζ ((toPoly cc.gate.fax).eval s)
    ((toPoly cc.gate.fax).eval ζ) A x
  obtain ⟨b3, b4, ⟨hb1, hb2⟩, hbu⟩ := blind_solve hsζ.symm zs zζ ((toPoly cc.gate.fbx).eval s)
    ((toPoly cc.gate.fbx).eval ζ) B y
  obtain ⟨b5, b6, ⟨hc1, hc2⟩, hcu⟩ := blind_solve hsζ.symm zs zζ ((toPoly cc.gate.fcx).eval s)
    ((toPoly cc.gate.fcx).eval ζ) C' z
  -- the accumulator does not depend on the blinding values once the wire commitments are fixed
  let H0 : Honest F G1 := ⟨env, P.g1, s, cc, d.gen, ⟨b1, b2, b3, b4, b5, b6, b7, 0, 0⟩⟩
  obtain ⟨b8, b9, ⟨hz1, hz2⟩, hzu⟩ := blind_solve (Ne.symm hsw) zs zζw (H0.acc.eval s + b7 * s ^ 2 * (s ^ cc.size - 1))
    (H0.acc.eval (ζ * d.gen) + b7 * (ζ * d.gen) ^ 2 * ((ζ * d.gen) ^ cc.size - 1)) Z zw
  have hview : ∀ bl : Blinders F, bl.b7 = b7 →
      (proverView env cc (Srs.newFromSecret P s N) bl ζ =
        some ⟨A • P.g1, B • P.g1, C' • P.g1, Z • P.g1, x, y, z, zw⟩ ↔
        bl = ⟨b1, b2, b3, b4, b5, b6, b7, b8, b9⟩) := by
    intro bl hb7
    have hab : ∀ (b1' b2' b3' b4' b5' b6' : F), b1' = b1 → b2' = b2 → b3' = b3 → b4' = b4 → b5' = b5 → b6' = b6 →
        ∀ b8' b9' : F, (⟨env, P.g1, s, cc, d.gen, ⟨b1', b2', b3', b4', b5', b6', b7, b8', b9'⟩⟩ : Honest F G1).acc
          = H0.acc := by
      rintro _ _ _ _ _ _ rfl rfl rfl rfl rfl rfl b8' b9'
      rfl
    obtain ⟨c1, c2, c3, c4, c5, c6, c7, c8, c9⟩ := bl
    dsimp only at hb7
    subst hb7
    have S := hset ⟨c1, c2, c3, c4, c5, c6, c7, c8, c9⟩
    set H : Honest F G1 := ⟨env, P.g1, s, cc, d.gen, ⟨c1, c2, c3, c4, c5, c6, c7, c8, c9⟩⟩ with hH
    have ea : ∀ t, H.a.eval t = (toPoly cc.gate.fax).eval t + (c2 + c1 * t) * (t ^ cc.size - 1) := by
      intro t
      simp only [Honest.a, Honest.Z, Honest.n, eval_add, eval_mul, eval_sub, eval_pow, eval_X, eval_C, eval_one, hH]
    have eb : ∀ t, H.b.eval t = (toPoly cc.gate.fbx).eval t + (c4 + c3 * t) * (t ^ cc.size - 1) := by
      intro t
      simp only [Honest.b, Honest.Z, Honest.n, eval_add, eval_mul, eval_sub, eval_pow, eval_X, eval_C, eval_one, hH]
    have ec : ∀ t, H.c.eval t = (toPoly cc.gate.fcx).eval t + (c6 + c5 * t) * (t ^ cc.size - 1) := by
      intro t
      simp only [Honest.c, Honest.Z, Honest.n, eval_add, eval_mul, eval_sub, eval_pow, eval_X, eval_C, eval_one, hH]
    have ez : ∀ t, H.z.eval t = H.acc.eval t + (c9 + c8 * t + c7 * t ^ 2) * (t ^ cc.size - 1) := by
      intro t
      simp only [Honest.z, Honest.Z, Honest.n, eval_add, eval_mul, eval_sub, eval_pow, eval_X, eval_C, eval_one, hH]
    constructor
    · intro h
      have hdn : DenominatorsNonzero H.cc H.w H.β H.γ := by
        by_contra hd'
        have h0 : proverView env cc (Srs.newFromSecret P s N) ⟨c1, c2, c3, c4, c5, c6, c7, c8, c9⟩ ζ = none :=
          (proverView_eq S ζ).2 hd'
        rw [h0] at h
        cases h
      have h' := ((proverView_eq S ζ).1 hdn).symm.trans h
      simp only [Option.some.injEq, View.mk.injEq] at h'
      obtain ⟨q1, q2, q3, q4, q5, q6, q7, q8⟩ := h'
      have q1 := P.smul_g1_inj q1
      have q2 := P.smul_g1_inj q2
      have q3 := P.smul_g1_inj q3
      have q4 := P.smul_g1_inj q4
      have hsH : H.s = s := rfl
      have hwH : H.w = d.gen := rfl
      rw [hsH, ea] at q1; rw [hsH, eb] at q2; rw [hsH, ec] at q3; rw [hsH, ez] at q4
      rw [ea] at q5; rw [eb] at q6; rw [ec] at q7; rw [ez, hwH] at q8
      obtain ⟨r1, r2⟩ := hau _ _ q1 q5
      obtain ⟨r3, r4⟩ := hbu _ _ q2 q6
      obtain ⟨r5, r6⟩ := hcu _ _ q3 q7
      have hacc := hab c1 c2 c3 c4 c5 c6 r1 r2 r3 r4 r5 r6 c8 c9
      rw [← hH] at hacc
      rw [hacc] at q4 q8
      obtain ⟨r8, r9⟩ := hzu c8 c9 (by rw [← q4]; ring) (by rw [← q8]; ring)
      rw [r1, r2, r3, r4, r5, r6, r8, r9]
    · intro h
      simp only [Blinders.mk.injEq] at h
      obtain ⟨r1, r2, r3, r4, r5, r6, -, r8, r9⟩ := h
      have hacc := hab c1 c2 c3 c4 c5 c6 r1 r2 r3 r4 r5 r6 c8 c9
      rw [← hH] at hacc
      have k1 : H.com H.a = A • P.g1 := by
        show H.a.eval s • P.g1 = _
        rw [ea, r1, r2, ha1]
      have k2 : H.com H.b = B • P.g1 := by
        show H.b.eval s • P.g1 = _
        rw [eb, r3, r4, hb1]
      have k3 : H.com H.c = C' • P.g1 := by
        show H.c.eval s • P.g1 = _
        rw [ec, r5, r6, hc1]
      have k4 : H.com H.z = Z • P.g1 := by
        show H.z.eval s • P.g1 = _
        rw [ez, hacc, r8, r9, ← hz1]; congr 1; ring
      have hdn : DenominatorsNonzero H.cc H.w H.β H.γ := by
        have e : H.feeds1 = [A • P.g1, B • P.g1, C' • P.g1] := by
          rw [Honest.feeds1, k1, k2, k3]
        unfold Honest.β Honest.γ
        rw [e]; exact hden
      refine ((proverView_eq S ζ).1 hdn).trans ?_
      have hwH : H.w = d.gen := rfl
      rw [k1, k2, k3, k4, ea, eb, ec, ez, hacc, hwH, r1, r2, r3, r4, r5, r6, r8, r9, ha2, hb2, hc2]
      congr 2
      rw [← hz2]; ring
  refine ⟨⟨b1, b2, b3, b4, b5, b6, b7, b8, b9⟩, ⟨rfl, (hview _ rfl).2 rfl⟩, ?_⟩
  rintro bl ⟨h7, h⟩
  exact (hview bl h7).1 h

/-- **C78** (two witnesses): whatever the prover shows about wires and accumulator when it holds one witness, it shows
for exactly one choice of blinding values (for each `b7`) when it holds another one. -/
theorem C78_indistinguishable (env : Env F G1) (hdig : ∀ b, 8 ≤ (env.sha256 b).length)
    (P : PairingGroups F G1 G2 GT) (s : F) (N : ℕ) (cc cc' : CompiledCircuit F) (hwf' : cc'.WellFormed)
    (hwf : cc.WellFormed) (hsize : cc'.size = cc.size) (hN : cc.size ≤ N) (d : Domain F)
    (hd : Domain.new? cc.size = some d)
    (ζ : F) (hs : s ^ cc.size ≠ 1) (hζ : ζ ^ cc.size ≠ 1) (hsζ : ζ ≠ s) (hsw : ζ * d.gen ≠ s)
    (bl : Blinders F) (v : View F G1) (hview : proverView env cc (Srs.newFromSecret P s N) bl ζ = some v)
    (hden : DenominatorsNonzero cc' d.gen (challengeAfter env env.sha256 [v.aC, v.bC, v.cC] 0)
      (challengeAfter env env.sha256 [v.aC, v.bC, v.cC] 1)) (b7 : F) :
    ∃! bl' : Blinders F, bl'.b7 = b7 ∧ proverView env cc' (Srs.newFromSecret P s N) bl' ζ = some v := by
  have S : Setting (⟨env, P.g1, s, cc, d.gen, bl⟩ : Honest F G1) P d N := ⟨rfl, rfl, hd, hwf, hN, hdig⟩
  by_cases hdn : DenominatorsNonzero cc d.gen (Honest.β (⟨env, P.g1, s, cc, d.gen, bl⟩ : Honest F G1))
      (Honest.γ (⟨env, P.g1, s, cc, d.gen, bl⟩ : Honest F G1))
  · have h := ((proverView_eq S ζ).1 hdn).symm.trans hview
    rw [Option.some.injEq] at h
    subst h
    exact C78_uniform env hdig P s N cc' hwf' (hsize ▸ hN) d (by rw [hsize]; exact hd) ζ (by rw [hsize]; exact hs)
      (by rw [hsize]; exact hζ) hsζ hsw _ _ _ _ _ _ _ _ hden b7
  · have h0 : proverView env cc (Srs.newFromSecret P s N) bl ζ = none := (proverView_eq S ζ).2 hdn
    rw [h0] at hview
    cases hview

/-- **C78** (the condition is needed): if the evaluation challenge is the domain point of row `i`, the proof contains
the wire values of that row, whatever the blinding values. -/
theorem C78_leak_on_domain (env : Env F G1) (T : List UInt8 → List UInt8)
    (hdig : ∀ b, 8 ≤ (env.sha256 b).length) (P : PairingGroups F G1 G2 GT) (s : F) (N : ℕ)
    (cc : CompiledCircuit F) (hwf : cc.WellFormed) (hN : cc.size ≤ N) (d : Domain F)
    (hd : Domain.new? cc.size = some d) (bl : Blinders F) (p : Proof F G1)
    (h : generateProof env T cc (Srs.newFromSecret P s N) bl = some p) (i : ℕ)
    (hi : (p.challenges env env.sha256 P.g1).ev = d.gen ^ i) :
    p.barA = wireVal cc d.gen 0 i ∧ p.barB = wireVal cc d.gen 1 i ∧ p.barC = wireVal cc d.gen 2 i := by
  have hv := C78_view_of_proof env T hdig P s N cc bl p h
  have S : Setting (⟨env, P.g1, s, cc, d.gen, bl⟩ : Honest F G1) P d N := ⟨rfl, rfl, hd, hwf, hN, hdig⟩
  by_cases hdn : DenominatorsNonzero cc d.gen (Honest.β (⟨env, P.g1, s, cc, d.gen, bl⟩ : Honest F G1))
      (Honest.γ (⟨env, P.g1, s, cc, d.gen, bl⟩ : Honest F G1))
  · have h := ((proverView_eq S _).1 hdn).symm.trans hv
    rw [hi, Option.some.injEq] at h
    have h5 := congrArg View.a h
    have h6 := congrArg View.b h
    have h7 := congrArg View.c h
    dsimp only [Proof.view] at h5 h6 h7
    have e1 := S.eval_a i
    have e2 := S.eval_b i
    have e3 := S.eval_c i
    dsimp only at e1 e2 e3
    rw [e1] at h5; rw [e2] at h6; rw [e3] at h7
    exact ⟨h5.symm, h6.symm, h7.symm⟩
  · have h0 : proverView env cc (Srs.newFromSecret P s N) bl (p.challenges env env.sha256 P.g1).ev = none :=
      (proverView_eq S _).2 hdn
    rw [h0] at hv
    cases hv

end

end Verif.Plonk

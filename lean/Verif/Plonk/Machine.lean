import Verif.Plonk.AlgSoundness
import Verif.Ark.Machine
import Verif.Kzg.Props

/-!
# C85 (PLONK): 64-bit machine arithmetic in the verifier

The exponents `proof.degree as u64 + 1` and `proof.degree as u64 * 2 + 2` (`plonk/src/verifier.rs` lines 95 and 98)
are computed on 64 bits from a field of the proof, which its sender chooses.  Here `verify` is modelled once more
with these expressions computed on 64 bits, for builds with and without overflow checks.
-/

set_option linter.unusedSectionVars false
set_option linter.unusedSimpArgs false
set_option linter.unusedVariables false

namespace Verif.Plonk

open Verif.Ark Verif.Kzg Polynomial

/-! ## Model -/

section model
variable {F : Type} [FftField F] [DecidableEq F] {G1 : Type} [AddCommGroup G1] [Module F G1]

/-- `[D]`, `plonk/src/verifier.rs` lines 66-102, the two exponents being given. -/
def verifierD64 (cc : CompiledCircuit F) (k : CircuitCommitment G1) (p : Proof F G1) (c : Challenges F)
    (zhe l1e : F) (e1 e2 : ℕ) : G1 :=
  let line1 := (p.barA * p.barB) • k.qM + p.barA • k.qL + p.barB • k.qR + p.barC • k.qO + k.qC
  let line2 := ((p.barA + c.beta * c.ev + c.gamma) * (p.barB + c.beta * cc.copy.k1 * c.ev + c.gamma) *
    (p.barC + c.beta * cc.copy.k2 * c.ev + c.gamma) * c.alpha + l1e * c.alpha * c.alpha + c.u) • p.zC
  let line3 := ((p.barA + c.beta * p.barS1 + c.gamma) * (p.barB + c.beta * p.barS2 + c.gamma) * c.alpha *
    c.beta * p.barZw) • k.s3
  let line4 := zhe • (p.tLoC + (c.ev ^ e1) • p.tMidC + (c.ev ^ e2) • p.tHiC)
  line1 + line2 - line3 - line4

variable {G2 GT : Type} [AddCommGroup G2] [Module F G2] [AddCommGroup GT] [Module F GT] [DecidableEq GT]

/-- `verify::<T>`, `plonk/src/verifier.rs` lines 19-157, on 64 bits: the exponents of lines 95 and 98 may overflow. -/
def verify64 (bd : Build) (env : Env F G1) (dig : List UInt8 → List UInt8) (P : PairingGroups F G1 G2 GT)
    (cc : CompiledCircuit F) (srs : Srs G1 G2) (p : Proof F G1) : Option (Except String Unit) := do
  let k ← getCircuitCommitment cc srs
  let c ← verifyChallenges env dig p srs
  if c.u ≠ p.u then
    some (.error "Verify: Challenge verification failed.")
  else do
    let d ← Domain.new? cc.size
    let w := d.element 1
    let zhe := c.ev ^ d.size - 1
    if (cc.size : F) * (c.ev - 1) = 0 then none
    else do
      let l1e := zhe / ((cc.size : F) * (c.ev - 1))
      let piE := Ark.eval cc.gate.pix c.ev
      let r0 := verifierR0 p c l1e piE
      let e1 ← bd.u64 (p.degree + 1)
      let twice ← bd.u64 (p.degree * 2)
      let e2 ← bd.u64 (twice + 2)
      let dd := verifierD64 cc k p c zhe l1e e1 e2
      let f := verifierF k p c.v dd
      let e ← commitPara srs (verifierE p c.v c.u r0)
      let left := P.e (p.wC + c.u • p.wwC) srs.g2s
      let right := P.e (c.ev • p.wC + (c.u * c.ev * w) • p.wwC + f - e) srs.g2
      if left ≠ right then some (.error "Verify: Pairing failed, rejected")
      else some (.ok ())

end model

variable {F : Type} [FftField F] [DecidableEq F] {G1 G2 GT : Type} [AddCommGroup G1] [Module F G1]
  [AddCommGroup G2] [Module F G2] [AddCommGroup GT] [Module F GT] [DecidableEq GT]

/-! ## Specification -/

/-- The exponents a build without overflow checks uses. -/
def wrapped (degree : ℕ) : ℕ × ℕ := ((degree + 1) % 2 ^ 64, (degree * 2 + 2) % 2 ^ 64)

/-- `RejectsAlgebraic` (C73) for the 64-bit verifier: every value a 64-bit field `degree` can have is allowed, chosen
after all challenges.  The exceptional sets have `3·size` elements each for `β` and `γ`, 2 for `α`,
`2^64 (4(n+3) + 2^64)` for `ζ`, `5·2^64` for `v`, `2^64` for `u` and `n + 3` for the secret. -/
def RejectsAlgebraic64 (G1 G2 GT : Type) [AddCommGroup G1] [Module F G1]
    [AddCommGroup G2] [Module F G2] [AddCommGroup GT] [Module F GT] [DecidableEq GT] (n : ℕ)
    (cc : CompiledCircuit F) (a b c : F[X]) : Prop :=
  AllBut (3 * cc.size) fun β => AllBut (3 * cc.size) fun γ =>
  ∀ z : F[X], z.natDegree < n + 3 → AllBut 2 fun α =>
  ∀ tLo tMid tHi : F[X], tLo.natDegree < n + 3 → tMid.natDegree < n + 3 → tHi.natDegree < n + 3 →
    AllBut (2 ^ 64 * (4 * (n + 3) + 2 ^ 64)) fun ζ =>
  ∀ bar : Bars F, AllBut (2 ^ 64 * 5) fun v =>
  ∀ W W' : F[X], W.natDegree < n + 3 → W'.natDegree < n + 3 → AllBut (2 ^ 64) fun u =>
  ∀ degree < 2 ^ 64, AllBut (n + 3) fun s =>
  ∀ (bd : Build) (env : Env F G1) (dig : List UInt8 → List UInt8), (∀ x, 8 ≤ (dig x).length) →
  ∀ (P : PairingGroups F G1 G2 GT) (u' : F),
    let p := algProof P.g1 s a b c z tLo tMid tHi W W' bar u' degree
    p.challenges env dig P.g1 = { alpha := α, beta := β, gamma := γ, ev := ζ, v := v, u := u } →
    verify64 bd env dig P cc (Srs.newFromSecret P s n) p ≠ some (.ok ())

/-! ## Agreement with the model on natural numbers -/

/-- **C85** (PLONK, no overflow): for `degree` up to `2^63 - 2` both builds behave as the model on natural
numbers. -/
theorem C85_plonk_verify64 (bd : Build) (env : Env F G1) (dig : List UInt8 → List UInt8)
    (P : PairingGroups F G1 G2 GT) (cc : CompiledCircuit F) (srs : Srs G1 G2) (p : Proof F G1)
    (h : p.degree * 2 + 2 < 2 ^ 64) : verify64 bd env dig P cc srs p = verify env dig P cc srs p := by
  unfold verify64 verify
  rw [bd.u64_lt (by omega : p.degree + 1 < 2 ^ 64), bd.u64_lt (by omega : p.degree * 2 < 2 ^ 64)]
  simp only [Option.bind_eq_bind, Option.bind_some]
  rw [bd.u64_lt h]
  rfl

/-- **C85** (PLONK, overflow checks on): for a larger `degree` the verifier panics, unless the challenge check fails
first; in particular it never accepts. -/
theorem C85_plonk_verify_checked (env : Env F G1) (dig : List UInt8 → List UInt8) (hdig : ∀ b, 8 ≤ (dig b).length)
    (P : PairingGroups F G1 G2 GT) (s : F) (n : ℕ) (cc : CompiledCircuit F) (hwf : cc.WellFormed)
    (hn : cc.size ≤ n + 3) (d : Domain F) (hd : Domain.new? cc.size = some d) (p : Proof F G1)
    (h : ¬ p.degree * 2 + 2 < 2 ^ 64) :
    verify64 .checked env dig P cc (Srs.newFromSecret P s n) p =
      if (p.challenges env dig P.g1).u = p.u then none
      else some (.error "Verify: Challenge verification failed.") := by
  unfold verify64
  simp only [getCircuitCommitment_eq P s n hwf hn, verifyChallenges_eq env dig hdig P s n p,
    Option.bind_eq_bind, Option.bind_some, hd]
  generalize p.challenges env dig P.g1 = c
  by_cases hu : c.u = p.u
  · rw [if_neg (by simpa using hu), if_pos hu]
    by_cases hz : (cc.size : F) * (c.ev - 1) = 0
    · rw [if_pos hz]
    rw [if_neg hz]
    cases Build.checked.u64 (p.degree + 1) with
    | none => rfl
    | some e1 =>
      simp only [Option.bind_some]
      by_cases h2 : p.degree * 2 < 2 ^ 64
      · rw [Build.u64_lt _ h2]
        simp only [Option.bind_some]
        rw [Build.checked_ge h]
        rfl
      · rw [Build.checked_ge h2]; rfl
  · rw [if_pos (by simpa using hu), if_neg hu]

/-! ## Soundness with wrapping exponents -/

/-- The proof with the three quotient commitments combined into one. -/
def Proof.collapse (p : Proof F G1) (ev : F) (e1 e2 : ℕ) : Proof F G1 :=
  { p with tLoC := p.tLoC + ev ^ e1 • p.tMidC + ev ^ e2 • p.tHiC, tMidC := 0, tHiC := 0, degree := 0 }

/-- Acceptance without overflow checks. -/
theorem verify64_wrapping_ok (env : Env F G1) (dig : List UInt8 → List UInt8)
    (hdig : ∀ b, 8 ≤ (dig b).length) (P : PairingGroups F G1 G2 GT) (s : F) (n : ℕ)
    (cc : CompiledCircuit F) (hwf : cc.WellFormed) (hn : cc.size ≤ n + 3) (d : Domain F)
    (hd : Domain.new? cc.size = some d) (p : Proof F G1) (hok :
      verify64 .wrapping env dig P cc (Srs.newFromSecret P s n) p = some (.ok ())) :
    (p.challenges env dig P.g1).ev ≠ 1 ∧ OpeningEquation P.g1 s cc.size d.gen cc
      (p.collapse (p.challenges env dig P.g1).ev (wrapped p.degree).1 (wrapped p.degree).2)
      (p.challenges env dig P.g1) := by
  obtain ⟨hv, -⟩ := Domain.new?_valid hd
  have hs := WellFormed.size_eq hwf hd
  have hsz : (cc.size : F) ≠ 0 := hs ▸ hv.size_ne_zero
  unfold verify64 at hok
  simp only [getCircuitCommitment_eq P s n hwf hn, verifyChallenges_eq env dig hdig P s n p,
    Option.bind_eq_bind, Option.bind_some, hd, commitPara_eq, Build.u64] at hok
  generalize p.challenges env dig P.g1 = c at hok
  by_cases hu : c.u = p.u
  swap
  · rw [if_pos (by simpa using hu)] at hok; simp at hok
  rw [if_neg (by simpa using hu)] at hok
  by_cases hev : c.ev = 1
  · rw [if_pos (by rw [hev]; simp)] at hok; simp at hok
  have hne : (cc.size : F) * (c.ev - 1) ≠ 0 := mul_ne_zero hsz (sub_ne_zero.2 hev)
  rw [if_neg hne] at hok
  refine ⟨hev, ?_⟩
  split at hok
  · simp at hok
  rename_i hpair
  rw [not_not] at hpair
  have e1 : (Srs.newFromSecret P s n).g2s = s • P.g2 := rfl
  have e2 : (Srs.newFromSecret P s n).g2 = P.g2 := rfl
  have e3 : (p.degree * 2 % 2 ^ 64 + 2) % 2 ^ 64 = (wrapped p.degree).2 := by unfold wrapped; omega
  have e4 : (p.degree + 1) % 2 ^ 64 = (wrapped p.degree).1 := rfl
  rw [e1, e2, e3, e4, map_smul, ← LinearMap.smul_apply, ← map_smul, (P.e_g2_iff _ _)] at hpair
  generalize (wrapped p.degree).1 = x1 at hpair
  generalize (wrapped p.degree).2 = x2 at hpair
  unfold OpeningEquation
  unfold verifierF verifierD64 verifierE verifierR0 at hpair
  simp only [hs, eval_eq, Domain.element, pow_one] at hpair
  unfold Proof.collapse
  simp only [eval_eq]
  refine hpair.trans ?_
  congr 1
  · congr 1
    simp only [pow_succ, pow_zero, one_mul, mul_two, two_mul, smul_zero, add_zero]
    module
  · congr 1
    ring

/-- The combined quotient slices of an algebraic prover. -/
noncomputable def combined (tLo tMid tHi : F[X]) (ζ : F) (e1 e2 : ℕ) : F[X] :=
  tLo + C (ζ ^ e1) * tMid + C (ζ ^ e2) * tHi

theorem natDegree_combined {N : ℕ} {tLo tMid tHi : F[X]} (hl : tLo.natDegree < N) (hm : tMid.natDegree < N)
    (hh : tHi.natDegree < N) (ζ : F) (e1 e2 : ℕ) : (combined tLo tMid tHi ζ e1 e2).natDegree < N := by
  have : (combined tLo tMid tHi ζ e1 e2).natDegree ≤ N - 1 := by
    unfold combined
    exact natDegree_add_le_of_le' (natDegree_add_le_of_le' (by omega) (natDegree_C_mul_le' _ (by omega)))
      (natDegree_C_mul_le' _ (by omega))
  omega

/-- Round `ζ` for arbitrary exponents below `K`. -/
theorem zeta_round64 {cc : CompiledCircuit F} (hwf : cc.WellFormed) {N : ℕ} (hN : cc.size ≤ N) (h1 : 1 ≤ N)
    (w β γ α : F) {a b c z tLo tMid tHi : F[X]} (ha : a.natDegree ≤ N) (hb : b.natDegree ≤ N)
    (hc : c.natDegree ≤ N) (hz : z.natDegree ≤ N) (hl : tLo.natDegree ≤ N) (hm : tMid.natDegree ≤ N)
    (hh : tHi.natDegree ≤ N) (M K : ℕ) (E : ℕ → ℕ × ℕ) (hE : ∀ m < M, (E m).1 ≤ K ∧ (E m).2 ≤ K)
    (hdvd : ¬ (X ^ cc.size - 1 : F[X]) ∣ quotNum cc cc.size w β γ α a b c z) :
    AllBut (M * (4 * N + K)) fun ζ => ∀ m < M,
      (quotNum cc cc.size w β γ α a b c z).eval ζ ≠
        (ζ ^ cc.size - 1) * (combined tLo tMid tHi ζ (E m).1 (E m).2).eval ζ := by
  refine AllBut.forall_lt M fun m hmM => ?_
  set q : F[X] := tLo + X ^ (E m).1 * tMid + X ^ (E m).2 * tHi with hq
  have hne : quotNum cc cc.size w β γ α a b c z - (X ^ cc.size - 1) * q ≠ 0 := by
    intro h0
    exact hdvd ⟨_, sub_eq_zero.1 h0⟩
  refine (AllBut.eval_ne_zero hne (k := 4 * N + K) ?_).mono le_rfl fun ζ hζ h => hζ ?_
  · refine natDegree_sub_le_of_le' ((natDegree_quotNum hwf hN h1 w β γ α ha hb hc hz).trans (by omega)) ?_
    have hX : ∀ (k : ℕ) (p : F[X]), p.natDegree ≤ N → (X ^ k * p).natDegree ≤ k + N := fun k p hp =>
      natDegree_mul_le_of_le' (natDegree_X_pow_le k) hp
    have hEm := hE m hmM
    have : q.natDegree ≤ K + N := by
      rw [hq]
      refine natDegree_add_le_of_le' (natDegree_add_le_of_le' (hl.trans (by omega)) ?_) ?_
      · exact (hX _ _ hm).trans (by omega)
      · exact (hX _ _ hh).trans (by omega)
    exact (natDegree_mul_le_of_le' ((natDegree_Z_le _).trans hN) this).trans (by omega)
  · rw [eval_sub, eval_mul, eval_sub, eval_pow, eval_X, eval_one, h, sub_eq_zero]
    congr 1
    rw [hq]
    unfold combined
    simp only [eval_add, eval_mul, eval_C, eval_X, eval_pow]

theorem algProof_collapse (g : G1) (s : F) (a b c z tLo tMid tHi W W' : F[X]) (bar : Bars F) (u : F) (m : ℕ)
    (ζ : F) (e1 e2 : ℕ) :
    (algProof g s a b c z tLo tMid tHi W W' bar u m).collapse ζ e1 e2 =
      algProof g s a b c z (combined tLo tMid tHi ζ e1 e2) 0 0 W W' bar u 0 := by
  unfold Proof.collapse algProof combined
  simp only [eval_add, eval_mul, eval_C, eval_zero, zero_smul, add_smul, mul_smul]

/-- **C85** (PLONK, soundness on 64 bits): the conclusion of C73 holds for the 64-bit verifier, with and without
overflow checks, for every value of the 64-bit field `degree`. -/
theorem C85_plonk_soundness64 (n : ℕ) (cc : CompiledCircuit F) (hwf : cc.WellFormed) (hn : cc.size ≤ n + 3)
    (d : Domain F) (hd : Domain.new? cc.size = some d) (σ : Fin 3 × Fin cc.size → Fin 3 × Fin cc.size)
    (hσ : Wiring cc d.gen σ) (hlab : LabelsDistinct cc.size cc d.gen) (a b c : F[X])
    (ha : a.natDegree < n + 3) (hb : b.natDegree < n + 3) (hc : c.natDegree < n + 3)
    (hbad : (∃ i < cc.size, ¬ GateEq cc d.gen i (a.eval (d.gen ^ i)) (b.eval (d.gen ^ i)) (c.eval (d.gen ^ i))) ∨
      ∃ p : Fin 3 × Fin cc.size, polyVal a b c d.gen p.1 p.2 ≠ polyVal a b c d.gen (σ p).1 (σ p).2) :
    RejectsAlgebraic64 G1 G2 GT n cc a b c := by
  obtain ⟨hv, -⟩ := Domain.new?_valid hd
  have hs := WellFormed.size_eq hwf hd
  -- the rounds after `β, γ`
  have rest : ∀ β γ : F, (∀ z : F[X], ¬ ∀ i < d.size,
      (gatePoly cc a b c).eval (d.gen ^ i) = 0 ∧
      (numPoly cc β γ a b c * z - denPoly cc β γ a b c * z.comp (C d.gen * X)).eval (d.gen ^ i) = 0 ∧
      ((z - 1) * L1 d.size).eval (d.gen ^ i) = 0) →
      ∀ z : F[X], z.natDegree < n + 3 → AllBut 2 fun α =>
      ∀ tLo tMid tHi : F[X], tLo.natDegree < n + 3 → tMid.natDegree < n + 3 → tHi.natDegree < n + 3 →
        AllBut (2 ^ 64 * (4 * (n + 3) + 2 ^ 64)) fun ζ =>
      ∀ bar : Bars F, AllBut (2 ^ 64 * 5) fun v =>
      ∀ W W' : F[X], W.natDegree < n + 3 → W'.natDegree < n + 3 → AllBut (2 ^ 64) fun u =>
      ∀ degree < 2 ^ 64, AllBut (n + 3) fun s =>
      ∀ (bd : Build) (env : Env F G1) (dig : List UInt8 → List UInt8), (∀ x, 8 ≤ (dig x).length) →
      ∀ (P : PairingGroups F G1 G2 GT) (u' : F),
        let p := algProof P.g1 s a b c z tLo tMid tHi W W' bar u' degree
        p.challenges env dig P.g1 = { alpha := α, beta := β, gamma := γ, ev := ζ, v := v, u := u } →
        verify64 bd env dig P cc (Srs.newFromSecret P s n) p ≠ some (.ok ()) := by
    intro β γ hvan z hz
    refine (alpha_round hv cc β γ a b c z (hvan z)).mono le_rfl fun α hα tLo tMid tHi hl hm hh => ?_
    rw [hs] at hα
    refine (zeta_round64 hwf hn (by omega) d.gen β γ α ha.le hb.le hc.le hz.le hl.le hm.le hh.le (2 ^ 64) (2 ^ 64)
      wrapped (fun m _ => ⟨(Nat.mod_lt _ (by norm_num)).le, (Nat.mod_lt _ (by norm_num)).le⟩) hα).mono le_rfl
      fun ζ hζ bar => ?_
    refine AllBut.mono (AllBut.forall_lt (k := 5) (P := fun m v => ∀ W W' : F[X],
      ¬ (openA cc β γ α ζ v bar a b c z (combined tLo tMid tHi ζ (wrapped m).1 (wrapped m).2) 0 0 W 0 = 0 ∧
        openB d.gen ζ bar z W' = 0)) (2 ^ 64) fun m hm => ?_) le_rfl fun v hvv W W' hW hW' => ?_
    · refine (v_round cc d.gen β γ α ζ bar a b c z (combined tLo tMid tHi ζ (wrapped m).1 (wrapped m).2) 0 0 1
        fun m' hm' => ?_).mono (by omega) fun v hv' => hv' 0 (by omega)
      have := hζ m hm
      unfold claimedQuot
      simpa using this
    refine (u_round (A := fun m => openA cc β γ α ζ v bar a b c z
      (combined tLo tMid tHi ζ (wrapped m).1 (wrapped m).2) 0 0 W 0) (2 ^ 64)
      fun m hm => hvv m hm W W').mono (by omega) fun u hu degree hdeg => ?_
    refine (AllBut.eval_ne_zero (hu degree hdeg) (natDegree_open hwf hn (by omega) d.gen β γ α ζ v u bar ha hb hc hz
      (natDegree_combined hl hm hh ζ _ _) (by simp) (by simp) hW hW' 0)).mono le_rfl ?_
    intro s hsv bd env dig hdig P u' p hp hok
    apply hsv
    have hwrap : verify64 .wrapping env dig P cc (Srs.newFromSecret P s n) p = some (.ok ()) := by
      cases bd with
      | wrapping => exact hok
      | checked =>
        by_cases hov : p.degree * 2 + 2 < 2 ^ 64
        · rw [C85_plonk_verify64 _ env dig P cc _ p hov] at hok ⊢
          exact hok
        · rw [C85_plonk_verify_checked env dig hdig P s n cc hwf hn d hd p hov] at hok
          split at hok <;> simp at hok
    obtain ⟨hev, hopen⟩ := verify64_wrapping_ok env dig hdig P s n cc hwf hn d hd p hwrap
    rw [algProof_collapse] at hopen
    have := (openingEquation_alg hv hs P s a b c z _ 0 0 W W' bar u' 0 _ hev).1 hopen
    rw [hp] at this
    exact this
  rcases hbad with ⟨i, hi, hg⟩ | ⟨p0, hp0⟩
  · refine AllBut.of_forall fun β => AllBut.of_forall fun γ => rest β γ fun z hall => hg ?_
    exact (constraints_of_vanish hv cc β γ a b c z hall).1 i (by rw [hs]; exact hi)
  · obtain ⟨B, hB, h⟩ := grand_product_counting (fun q : Fin 3 × Fin cc.size => polyVal a b c d.gen q.1 q.2)
      (fun q => posLabel cc d.gen q.1 q.2) hlab σ p0 hp0
    rw [Fintype.card_prod, Fintype.card_fin, Fintype.card_fin] at hB h
    refine ⟨B, hB, fun β hβ => ?_⟩
    obtain ⟨Γ, hΓ, hh⟩ := h β hβ
    refine ⟨Γ, hΓ, fun γ hγ => rest β γ fun z hall => hγ (hh γ ?_)⟩
    have := (constraints_of_vanish hv cc β γ a b c z hall).2.2
    rw [hs] at this
    rw [this]
    refine Finset.prod_congr rfl fun q _ => ?_
    rw [hσ q]

/-! ## Completeness on 64 bits -/

theorem natDegree_canon {q : DP F} (h : Canon q) : q.length ≤ (toPoly q).natDegree + 1 := by
  by_cases h0 : toPoly q = 0
  · rw [canon_zero_eq_nil h h0]; simp
  · exact (canon_length h h0).le

/-- The field `degree` of a returned proof is bounded by the size of the SRS. -/
theorem proof_degree_le (env : Env F G1) (T : List UInt8 → List UInt8) (P : PairingGroups F G1 G2 GT) (s : F) (n : ℕ)
    (cc : CompiledCircuit F) (b : Blinders F) (p : Proof F G1)
    (h : generateProof env T cc (Srs.newFromSecret P s n) b = some p) : p.degree ≤ n + 4 := by
  unfold generateProof at h
  simp only [Option.bind_eq_bind, Option.bind_eq_some_iff] at h
  obtain ⟨d, hd, r1, h1, r2, h2, r3, h3, r4, h4, h5⟩ := h
  unfold round3 SlicePoly.commit at h3
  simp only [Option.bind_eq_bind, Option.bind_eq_some_iff, pure, Option.some.injEq] at h3
  obtain ⟨al, hal, tx, htx, sp, hsp, tC, ⟨cLo, hcLo, cMid, hcMid, cHi, hcHi, rfl⟩, rfl⟩ := h3
  have hdeg : p.degree = sp.degree := by
    unfold round5 at h5
    simp only [Option.bind_eq_bind, Option.bind_eq_some_iff, pure, Option.some.injEq] at h5
    obtain ⟨ch3, hch3, vc, hvc, rx, hrx, wP, hwP, w, hw, wwP, hwwP, ww, hww, wC, hwC, wwC, hwwC, uc, huc, hp⟩ := h5
    rw [← hp]
  have hcan : Canon tx := by
    unfold computeQuotient at htx
    simp only [Option.bind_eq_bind, Option.bind_eq_some_iff, pure, Option.some.injEq] at htx
    obtain ⟨q1, -, q2, -, z2, -, q4, -, rfl⟩ := htx
    exact canon_add _ _
  have hne : tx ≠ [] := by
    intro h0
    rw [(C47_slices tx).1 h0] at hsp; cases hsp
  obtain ⟨sp', hsp', ht, -, -, hc3, l1, l2, l3, hlen, hlen'⟩ := (C47_slices tx).2 hne
  obtain rfl := Option.some.inj (hsp.symm.trans hsp')
  have hhi : sp.hi.length ≤ n + 3 := by
    have hlt : (toPoly sp.hi).natDegree < n + 3 := by
      by_contra hcon
      rw [(C02_commit P s n hc3).2 (by omega)] at hcHi
      cases hcHi
    have := natDegree_canon hc3
    omega
  have htl : tx.length ≤ 2 * (sp.degree + 1) + sp.hi.length := by
    have h1 := natDegree_canon hcan
    have hpos : ∀ q : DP F, (toPoly q).natDegree ≤ q.length - 1 := fun q => by
      by_cases h0 : q.length = 0
      · rw [List.length_eq_zero_iff.1 h0]; simp
      · exact Nat.le_sub_one_of_lt (natDegree_lt_of_length le_rfl (by omega))
    have hX : ∀ (k : ℕ) (q : F[X]), (X ^ k * q).natDegree ≤ k + q.natDegree := fun k q =>
      natDegree_mul_le_of_le' (natDegree_X_pow_le k) le_rfl
    by_cases hz : sp.hi = []
    · have : (toPoly tx).natDegree ≤ 2 * (sp.degree + 1) - 1 := by
        rw [ht, hz]
        simp only [toPoly_nil, mul_zero, add_zero]
        refine natDegree_add_le_of_le' ((hpos _).trans (by omega)) ((hX _ _).trans ?_)
        have := hpos sp.mid
        omega
      omega
    · have hl : 0 < sp.hi.length := List.length_pos_iff.2 hz
      have : (toPoly tx).natDegree ≤ 2 * (sp.degree + 1) + (sp.hi.length - 1) := by
        rw [ht]
        refine natDegree_add_le_of_le' (natDegree_add_le_of_le' ((hpos _).trans (by omega)) ((hX _ _).trans ?_))
          ((hX _ _).trans ?_)
        · have := hpos sp.mid
          omega
        · have := hpos sp.hi
          omega
      omega
  omega

/-- **C85** (PLONK, completeness on 64 bits): a proof `generate_proof` returns is accepted by the 64-bit verifier, with
and without overflow checks (unless the evaluation challenge is 1), for every SRS that fits into memory. -/
theorem C85_plonk_complete64 (bd : Build) (env : Env F G1) (T : List UInt8 → List UInt8)
    (hdig : ∀ b, 8 ≤ (env.sha256 b).length) (P : PairingGroups F G1 G2 GT) (s : F) (n : ℕ) (hmem : n + 3 < 2 ^ 61)
    (cc : CompiledCircuit F) (hwf : cc.WellFormed) (hn : cc.size ≤ n + 3) (b : Blinders F)
    (p : Proof F G1) (h : generateProof env T cc (Srs.newFromSecret P s n) b = some p)
    (hev : (p.challenges env env.sha256 P.g1).ev ≠ 1) :
    verify64 bd env env.sha256 P cc (Srs.newFromSecret P s n) p = some (.ok ()) := by
  have := proof_degree_le env T P s n cc b p h
  rw [C85_plonk_verify64 bd env env.sha256 P cc _ p (by omega)]
  exact (C49_proof_verifies env T hdig P s n cc hwf hn b p h).1 hev

/-! ## Circuits built with the gate calls -/

section bls
variable {G1 G2 GT : Type} [AddCommGroup G1] [Module BlsFr G1] [AddCommGroup G2] [Module BlsFr G2]
  [AddCommGroup GT] [Module BlsFr GT] [DecidableEq GT]

/-- **C85** (PLONK, soundness on 64 bits, circuits over BLS12-381 `Fr` built with the gate calls): an unsatisfiable
circuit is rejected whatever an algebraic prover sends, outside small sets of challenges. -/
theorem C85_plonk_unsatisfiable64 (calls : List (GateCall BlsFr)) (cc : CompiledCircuit BlsFr)
    (hc : (build calls).compile = some cc) (n : ℕ) (hn : cc.size ≤ n + 3)
    (hunsat : ¬ Satisfiable cc.size calls) (a b c : BlsFr[X]) (ha : a.natDegree < n + 3)
    (hb : b.natDegree < n + 3) (hcd : c.natDegree < n + 3) : RejectsAlgebraic64 G1 G2 GT n cc a b c := by
  obtain ⟨d, hd, hv, hs, -, hle, hval, -⟩ := compile_some calls cc hc
  have hT : ∀ p : Fin 3 × Fin cc.size, (target calls p.1 p.2).1 < 3 ∧ (target calls p.1 p.2).2 < cc.size := by
    rintro ⟨⟨l, hl⟩, ⟨i, hi⟩⟩
    unfold target
    dsimp only
    cases hci : calls[i]? with
    | none => exact ⟨hl, hi⟩
    | some call =>
      have hm := hval call (List.mem_of_getElem? hci)
      rw [hs] at hm
      obtain ⟨h1, h2, h3⟩ := hm
      dsimp only
      split
      · exact h1
      · exact h2
      · exact h3
  refine C85_plonk_soundness64 n cc (compile_wellFormed calls cc hc) hn d hd
    (fun p => (⟨_, (hT p).1⟩, ⟨_, (hT p).2⟩)) ?_ (labelsDistinct_bls calls cc hc d hd) a b c ha hb hcd ?_
  · intro p
    rw [sigmaVal_compiled hc hd p.1.2 p.2.2, posLabel_compiled hc _ (hT p).1]
  · by_contra hcon
    push Not at hcon
    obtain ⟨hg, hw⟩ := hcon
    obtain ⟨d', hd', hrel⟩ := C45_gate_relation calls cc hc
    rw [hd, Option.some.injEq] at hd'
    subst hd'
    refine hunsat ⟨fun l i => polyVal a b c d.gen l i, fun i call hcall => ?_, fun l hl i hi => ?_⟩
    · have hi : i < cc.size := by
        have := (List.getElem?_eq_some_iff.1 hcall).1
        omega
      have := hg i hi
      unfold GateEq at this
      rw [hrel i hi] at this
      exact this call hcall
    · exact hw (⟨l, hl⟩, ⟨i, hi⟩)

end bls

/-- The exceptional sets for `ζ`, `v` and `u` of `RejectsAlgebraic64` are small in BLS12-381 `Fr`, for every SRS that
fits into memory: together less than `2^130` of more than `2^254` elements. -/
example (n : ℕ) (h : n + 3 < 2 ^ 61) : 2 ^ 64 * (4 * (n + 3) + 2 ^ 64) + 2 ^ 64 * 5 + 2 ^ 64 < 2 ^ 130 := by omega

/-- Non-vacuity: both sides of the case distinction of `C85_plonk_verify64` and `C85_plonk_verify_checked` occur, and
the exponents wrap. -/
example : (5 : ℕ) * 2 + 2 < 2 ^ 64 ∧ ¬ (2 ^ 63 * 2 + 2 < 2 ^ 64) ∧ wrapped (2 ^ 63) = (2 ^ 63 + 1, 2) := by
  refine ⟨by norm_num, by norm_num, ?_⟩
  unfold wrapped
  norm_num

end Verif.Plonk

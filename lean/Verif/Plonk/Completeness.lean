import Verif.Plonk.ProverLemmas
import Verif.Plonk.Transcript

/-!
# Properties C49, C53, C54: what the PLONK prover returns verifies; what the verifier decides
-/

set_option linter.unusedSectionVars false
set_option linter.unusedSimpArgs false
set_option linter.unusedVariables false

namespace Verif.Plonk

open Verif.Ark Verif.Kzg Polynomial

/-! ## Specification vocabulary -/

/-- The twelve polynomials of a compiled circuit. -/
def CompiledCircuit.polys {F : Type} (cc : CompiledCircuit F) : List (DP F) :=
  [cc.gate.fax, cc.gate.fbx, cc.gate.fcx, cc.gate.qlx, cc.gate.qrx, cc.gate.qox, cc.gate.qmx,
   cc.gate.qcx, cc.gate.pix, cc.copy.s1, cc.copy.s2, cc.copy.s3]

section
variable {F : Type} [FftField F] [DecidableEq F]

/-- A compiled circuit as `compile` returns them: the size is a power of two, the polynomials have degree
below the size and no superfluous leading zeros. -/
structure CompiledCircuit.WellFormed (cc : CompiledCircuit F) : Prop where
  /-- size is a power of two -/
  pow2 : ∃ k, cc.size = 2 ^ k
  /-- no leading zeros -/
  canon : ∀ p ∈ cc.polys, Canon p
  /-- degree below the size -/
  len : ∀ p ∈ cc.polys, p.length ≤ cc.size

theorem WellFormed.size_eq {cc : CompiledCircuit F} (h : cc.WellFormed) {d : Domain F}
    (hd : Domain.new? cc.size = some d) : d.size = cc.size := by
  obtain ⟨-, hs⟩ := Domain.new?_valid hd
  obtain ⟨k, hk⟩ := h.pow2
  rw [hs, hk, nextPow2_pow]

theorem natDegree_lt_of_length {p : DP F} {n : ℕ} (h : p.length ≤ n) (hn : 0 < n) : (toPoly p).natDegree < n := by
  by_cases hz : toPoly p = 0
  · rw [hz]; simpa using hn
  · have := degree_toPoly_lt p
    rw [degree_eq_natDegree hz] at this
    have h1 : (toPoly p).natDegree < p.length := by exact_mod_cast this
    omega

/-- Whatever `compile` returns is well formed. -/
theorem compile_wellFormed (calls : List (GateCall F)) (cc : CompiledCircuit F)
    (h : (build calls).compile = some cc) : cc.WellFormed := by
  obtain ⟨d, hd, hv, hsz, h2, hle, hval, hc⟩ := compile_some calls cc h
  rw [hc, Option.some.injEq] at h
  have key : ∀ p ∈ cc.polys, ∃ v, p = d.interpolate v := by
    intro p hp
    subst h
    simp only [CompiledCircuit.polys, List.mem_cons, List.not_mem_nil, or_false] at hp
    rcases hp with rfl | rfl | rfl | rfl | rfl | rfl | rfl | rfl | rfl | rfl | rfl | rfl <;> exact ⟨_, rfl⟩
  refine ⟨⟨d.log, hsz.symm⟩, ?_, ?_⟩
  · intro p hp
    obtain ⟨v, rfl⟩ := key p hp
    exact d.canon_interpolate _
  · intro p hp
    obtain ⟨v, rfl⟩ := key p hp
    exact hsz ▸ d.length_interpolate_le _

variable {G1 G2 GT : Type} [AddCommGroup G1] [Module F G1] [AddCommGroup G2] [Module F G2]
  [AddCommGroup GT] [Module F GT] [DecidableEq GT]

theorem commitPara_eq (P : PairingGroups F G1 G2 GT) (s : F) (n : ℕ) (x : F) :
    commitPara (Srs.newFromSecret P s n) x = some (x • P.g1) := by
  simp [commitPara, Srs.newFromSecret, srsLoop]

theorem commit_iff (P : PairingGroups F G1 G2 GT) (s : F) (n : ℕ) {p : DP F} (hp : CanonOrZero p) (c : G1) :
    commit (Srs.newFromSecret P s n) p = some c ↔
      (toPoly p).natDegree < n + 3 ∧ c = (toPoly p).eval s • P.g1 := by
  rw [commit, evaluateInS_eq P s n hp]
  split
  · next h => simp [h, eq_comm]
  · next h => simp [h]

/-- The commitments the verifier computes from the circuit. -/
theorem getCircuitCommitment_eq (P : PairingGroups F G1 G2 GT) (s : F) (n : ℕ) {cc : CompiledCircuit F}
    (hwf : cc.WellFormed) (hn : cc.size ≤ n + 3) :
    getCircuitCommitment cc (Srs.newFromSecret P s n) = some
      { qM := (toPoly cc.gate.qmx).eval s • P.g1, qL := (toPoly cc.gate.qlx).eval s • P.g1
        qR := (toPoly cc.gate.qrx).eval s • P.g1, qO := (toPoly cc.gate.qox).eval s • P.g1
        qC := (toPoly cc.gate.qcx).eval s • P.g1, s1 := (toPoly cc.copy.s1).eval s • P.g1
        s2 := (toPoly cc.copy.s2).eval s • P.g1, s3 := (toPoly cc.copy.s3).eval s • P.g1 } := by
  have key : ∀ p ∈ cc.polys, commit (Srs.newFromSecret P s n) p = some ((toPoly p).eval s • P.g1) := by
    intro p hp
    rw [commit_iff P s n (hwf.canon p hp).orZero]
    exact ⟨natDegree_lt_of_length ((hwf.len p hp).trans hn) (by omega), rfl⟩
  unfold getCircuitCommitment
  rw [key _ (by simp [CompiledCircuit.polys]), key _ (by simp [CompiledCircuit.polys]),
    key _ (by simp [CompiledCircuit.polys]), key _ (by simp [CompiledCircuit.polys]),
    key _ (by simp [CompiledCircuit.polys]), key _ (by simp [CompiledCircuit.polys]),
    key _ (by simp [CompiledCircuit.polys]), key _ (by simp [CompiledCircuit.polys])]
  rfl

/-! ## C53, C54 -/

/-- The points fed before the evaluation challenge is drawn, and so on; in the order of the protocol. -/
def Proof.feedsBefore (p : Proof F G1) (g : G1) : ℕ → List G1
  | 1 => [p.aC, p.bC, p.cC]
  | 2 => [p.aC, p.bC, p.cC, p.zC]
  | 3 => [p.aC, p.bC, p.cC, p.zC, p.tLoC, p.tMidC, p.tHiC]
  | 4 => [p.aC, p.bC, p.cC, p.zC, p.tLoC, p.tMidC, p.tHiC, p.barA • g, p.barB • g, p.barC • g,
      p.barS1 • g, p.barS2 • g, p.barZw • g]
  | _ => [p.aC, p.bC, p.cC, p.zC, p.tLoC, p.tMidC, p.tHiC, p.barA • g, p.barB • g, p.barC • g,
      p.barS1 • g, p.barS2 • g, p.barZw • g, p.wC, p.wwC]

/-- The Fiat-Shamir challenges of a proof. -/
def Proof.challenges (env : Env F G1) (dig : List UInt8 → List UInt8) (g : G1) (p : Proof F G1) :
    Challenges F where
  beta := challengeAfter env dig (p.feedsBefore g 1) 0
  gamma := challengeAfter env dig (p.feedsBefore g 1) 1
  alpha := challengeAfter env dig (p.feedsBefore g 2) 0
  ev := challengeAfter env dig (p.feedsBefore g 3) 0
  v := challengeAfter env dig (p.feedsBefore g 4) 0
  u := challengeAfter env dig (p.feedsBefore g 5) 0

theorem verifyChallenges_eq (env : Env F G1) (dig : List UInt8 → List UInt8)
    (hdig : ∀ b, 8 ≤ (dig b).length) (P : PairingGroups F G1 G2 GT) (s : F) (n : ℕ) (p : Proof F G1) :
    verifyChallenges env dig p (Srs.newFromSecret P s n) = some (p.challenges env dig P.g1) := by
  have g1 : ∀ D, 8 ≤ D.length → (ChallengeGenerator.mk (some D) false).generate1 env =
      some (env.rand (fromLeBytes (D.take 8)) 0, ⟨some D, true⟩) := by
    intro D hD; rw [generate1_iff]; exact ⟨rfl, D, rfl, hD, rfl⟩
  have g2 : ∀ D, 8 ≤ D.length → (ChallengeGenerator.mk (some D) false).generate2 env =
      some ((env.rand (fromLeBytes (D.take 8)) 0, env.rand (fromLeBytes (D.take 8)) 1), ⟨some D, true⟩) := by
    intro D hD; rw [generate2_iff]; exact ⟨rfl, D, rfl, hD, rfl⟩
  unfold verifyChallenges feedBars
  simp only [ChallengeGenerator.fromCommitments, List.foldl_cons, List.foldl_nil, feed_eq, commitPara_eq,
    Option.bind_eq_bind, Option.bind_some, pure, Option.getD_some, hdig, g1, g2]
  rfl

/-- The equation of the PLONK paper that the verifier checks, for the commitments in the proof, the
circuit polynomials, the secret `s`, the domain size `n` and generator `w`:
`s·(W + u·W') = z·W + u·z·w·W' + F - E`. -/
def OpeningEquation (g : G1) (s : F) (n : ℕ) (w : F) (cc : CompiledCircuit F) (p : Proof F G1)
    (c : Challenges F) : Prop :=
  let com : DP F → G1 := fun q => Ark.eval q s • g
  let zh : F := c.ev ^ n - 1
  let l1 : F := zh / (n * (c.ev - 1))
  let r0 : F := Ark.eval cc.gate.pix c.ev - l1 * c.alpha ^ 2 -
    c.alpha * (p.barA + c.beta * p.barS1 + c.gamma) * (p.barB + c.beta * p.barS2 + c.gamma) *
      (p.barC + c.gamma) * p.barZw
  let D : G1 :=
    (p.barA * p.barB) • com cc.gate.qmx + p.barA • com cc.gate.qlx + p.barB • com cc.gate.qrx +
      p.barC • com cc.gate.qox + com cc.gate.qcx +
    (c.alpha * (p.barA + c.beta * c.ev + c.gamma) * (p.barB + c.beta * cc.copy.k1 * c.ev + c.gamma) *
      (p.barC + c.beta * cc.copy.k2 * c.ev + c.gamma) + c.alpha ^ 2 * l1 + c.u) • p.zC -
    (c.alpha * c.beta * p.barZw * (p.barA + c.beta * p.barS1 + c.gamma) *
      (p.barB + c.beta * p.barS2 + c.gamma)) • com cc.copy.s3 -
    zh • (p.tLoC + c.ev ^ (p.degree + 1) • p.tMidC + c.ev ^ (2 * (p.degree + 1)) • p.tHiC)
  let Fc : G1 := D + c.v • p.aC + c.v ^ 2 • p.bC + c.v ^ 3 • p.cC + c.v ^ 4 • com cc.copy.s1 +
    c.v ^ 5 • com cc.copy.s2
  let E : G1 := (-r0 + c.v * p.barA + c.v ^ 2 * p.barB + c.v ^ 3 * p.barC + c.v ^ 4 * p.barS1 +
    c.v ^ 5 * p.barS2 + c.u * p.barZw) • g
  s • (p.wC + c.u • p.wwC) = c.ev • p.wC + (c.u * c.ev * w) • p.wwC + Fc - E

/-- **C53**: exact behaviour of `verify` on an honest SRS: it panics exactly if the recomputed `u` agrees
and the evaluation challenge is 1, and returns `Ok` exactly if the recomputed `u` is the one in the proof and
the opening equation holds. -/
theorem C53_verify (env : Env F G1) (dig : List UInt8 → List UInt8)
    (hdig : ∀ b, 8 ≤ (dig b).length) (P : PairingGroups F G1 G2 GT) (s : F) (n : ℕ)
    (cc : CompiledCircuit F) (hwf : cc.WellFormed) (hn : cc.size ≤ n + 3) (d : Domain F)
    (hd : Domain.new? cc.size = some d) (p : Proof F G1) :
    let c := p.challenges env dig P.g1
    let srs := Srs.newFromSecret P s n
    (verify env dig P cc srs p = none ↔ c.u = p.u ∧ c.ev = 1) ∧
    (verify env dig P cc srs p = some (.ok ()) ↔
      c.u = p.u ∧ c.ev ≠ 1 ∧ OpeningEquation P.g1 s cc.size d.gen cc p c) := by
  intro c srs
  obtain ⟨hv, -⟩ := Domain.new?_valid hd
  have hs := WellFormed.size_eq hwf hd
  have hsz : (cc.size : F) ≠ 0 := hs ▸ hv.size_ne_zero
  unfold verify
  simp only [srs, getCircuitCommitment_eq P s n hwf hn, verifyChallenges_eq env dig hdig P s n p,
    Option.bind_eq_bind, Option.bind_some, hd, commitPara_eq]
  change ((if c.u ≠ p.u then _ else _) = _ ↔ _) ∧ ((if c.u ≠ p.u then _ else _) = _ ↔ _)
  by_cases hu : c.u = p.u
  · rw [if_neg (by simpa using hu)]
    by_cases hev : c.ev = 1
    · have hev' : (p.challenges env dig P.g1).ev = 1 := hev
      simp [hu, hev, hev']
    · have hne : (cc.size : F) * (c.ev - 1) ≠ 0 := mul_ne_zero hsz (sub_ne_zero.2 hev)
      rw [if_neg hne]
      have hkey : (P.e (p.wC + c.u • p.wwC) (Srs.newFromSecret P s n).g2s =
        P.e (c.ev • p.wC + (c.u * c.ev * d.element 1) • p.wwC +
          verifierF ({ qM := (toPoly cc.gate.qmx).eval s • P.g1, qL := (toPoly cc.gate.qlx).eval s • P.g1
                       qR := (toPoly cc.gate.qrx).eval s • P.g1, qO := (toPoly cc.gate.qox).eval s • P.g1
                       qC := (toPoly cc.gate.qcx).eval s • P.g1, s1 := (toPoly cc.copy.s1).eval s • P.g1
                       s2 := (toPoly cc.copy.s2).eval s • P.g1, s3 := (toPoly cc.copy.s3).eval s • P.g1 } :
                       CircuitCommitment G1) p c.v
            (verifierD cc { qM := (toPoly cc.gate.qmx).eval s • P.g1, qL := (toPoly cc.gate.qlx).eval s • P.g1
                            qR := (toPoly cc.gate.qrx).eval s • P.g1, qO := (toPoly cc.gate.qox).eval s • P.g1
                            qC := (toPoly cc.gate.qcx).eval s • P.g1, s1 := (toPoly cc.copy.s1).eval s • P.g1
                            s2 := (toPoly cc.copy.s2).eval s • P.g1, s3 := (toPoly cc.copy.s3).eval s • P.g1 }
              p c (c.ev ^ d.size - 1) ((c.ev ^ d.size - 1) / ((cc.size : F) * (c.ev - 1)))) -
          verifierE p c.v c.u (verifierR0 p c ((c.ev ^ d.size - 1) / ((cc.size : F) * (c.ev - 1)))
            (Ark.eval cc.gate.pix c.ev)) • P.g1) (Srs.newFromSecret P s n).g2) ↔
        OpeningEquation P.g1 s cc.size d.gen cc p c := by
        have e1 : (Srs.newFromSecret P s n).g2s = s • P.g2 := rfl
        have e2 : (Srs.newFromSecret P s n).g2 = P.g2 := rfl
        rw [e1, e2, map_smul, ← LinearMap.smul_apply, ← map_smul, (P.e_g2_iff _ _)]
        unfold OpeningEquation verifierF verifierD verifierE verifierR0
        simp only [hs, eval_eq, Domain.element, pow_one]
        have f1 : ∀ x y : G1, (x = y) ↔ (x - y = 0) := fun x y => sub_eq_zero.symm
        have hEq : ∀ x y z : G1, y = z → (x = y ↔ x = z) := fun x y z h => by rw [h]
        apply hEq
        congr 1
        · congr 1
          simp only [pow_succ, pow_zero, one_mul, mul_two, two_mul]
          module
        · congr 1
          ring
      constructor
      · split <;> simp [hev]
      · split
        · next h =>
          have : ¬ OpeningEquation P.g1 s cc.size d.gen cc p c := fun h' => h (hkey.2 h')
          simp [this]
        · next h =>
          have : OpeningEquation P.g1 s cc.size d.gen cc p c := hkey.1 (not_not.1 h)
          simp [this, hu, hev]
  · rw [if_pos (by simpa using hu)]
    simp [hu]

/-- **C54**: the verdict only depends on the size, the selector, permutation and public-input polynomials
and `k1`, `k2`: two compiled circuits that differ in their wire (witness) polynomials are treated alike, for
every SRS, digest and proof. -/
theorem C54_ignores_witness (env : Env F G1) (dig : List UInt8 → List UInt8) (P : PairingGroups F G1 G2 GT)
    (cc cc' : CompiledCircuit F) (srs : Srs G1 G2) (p : Proof F G1) (hsize : cc.size = cc'.size)
    (hsel : cc.gate.qlx = cc'.gate.qlx ∧ cc.gate.qrx = cc'.gate.qrx ∧ cc.gate.qox = cc'.gate.qox ∧
      cc.gate.qmx = cc'.gate.qmx ∧ cc.gate.qcx = cc'.gate.qcx ∧ cc.gate.pix = cc'.gate.pix)
    (hcopy : cc.copy = cc'.copy) :
    verify env dig P cc srs p = verify env dig P cc' srs p := by
  obtain ⟨n, ⟨fa, fb, fc, ql, qr, qo, qm, qc, pi⟩, cp⟩ := cc
  obtain ⟨n', ⟨fa', fb', fc', ql', qr', qo', qm', qc', pi'⟩, cp'⟩ := cc'
  obtain ⟨h1, h2, h3, h4, h5, h6⟩ := hsel
  dsimp only at hsize h1 h2 h3 h4 h5 h6 hcopy
  subst hsize h1 h2 h3 h4 h5 h6 hcopy
  rfl

/-! ## C49 -/

theorem eval_linPoly_zero {beta gamma alpha ev : F} {cc : CompiledCircuit F} {d : Domain F}
    {ax bx cx zx zwx t : DP F} (sp : SlicePoly F) (hsp : SlicePoly.new t = some sp)
    (hcomp : toPoly zwx = (toPoly zx).comp (C d.gen * X))
    (ht : toPoly t * (X ^ d.size - 1) = toPoly (quotLine1 cc ax bx cx) +
        C alpha * (toPoly (permNum cc beta gamma ax bx cx) * toPoly zx -
          toPoly (permDen cc beta gamma ax bx cx) * toPoly zwx) +
        C (alpha ^ 2) * ((toPoly zx - 1) * toPoly (l1Poly d))) :
    (linPoly beta gamma alpha ev
      { a := Ark.eval ax ev, b := Ark.eval bx ev, c := Ark.eval cx ev, s1 := Ark.eval cc.copy.s1 ev,
        s2 := Ark.eval cc.copy.s2 ev, zw := Ark.eval zx (ev * d.element 1) }
      (Ark.eval cc.gate.pix ev) (toPoly (sp.compact ev)) (toPoly zx) (C (Ark.eval (l1Poly d) ev)) d.size
      cc).eval ev = 0 := by
  have h1 := congrArg (fun p => p.eval ev) ht
  have h2 : (toPoly zwx).eval ev = (toPoly zx).eval (ev * d.gen) := by
    rw [hcomp, eval_comp, eval_mul, eval_C, eval_X, mul_comm]
  have h3 := C47_compact t sp hsp ev
  rw [eval_eq, eval_eq] at h3
  simp only [toPoly_quotLine1, toPoly_permNum, toPoly_permDen, eval_add, eval_mul, eval_sub, eval_C,
    eval_X, eval_pow, eval_one, h2] at h1
  unfold linPoly
  simp only [toPoly_linLine1, eval_add, eval_mul, eval_sub, eval_C, eval_one, eval_eq, Domain.element,
    pow_one, h3]
  linear_combination -h1

theorem linAssertion_holds {beta gamma alpha ev : F} {cc : CompiledCircuit F} {d : Domain F}
    {ax bx cx zx zwx : DP F} (hcomp : toPoly zwx = (toPoly zx).comp (C d.gen * X)) :
    LinAssertion beta gamma alpha ev
      { a := Ark.eval ax ev, b := Ark.eval bx ev, c := Ark.eval cx ev, s1 := Ark.eval cc.copy.s1 ev,
        s2 := Ark.eval cc.copy.s2 ev, zw := Ark.eval zx (ev * d.element 1) } zx ax bx cx zwx cc := by
  have h2 : (toPoly zwx).eval ev = (toPoly zx).eval (ev * d.gen) := by
    rw [hcomp, eval_comp, eval_mul, eval_C, eval_X, mul_comm]
  unfold LinAssertion
  simp only [toPoly_permNum, toPoly_permDen, eval_add, eval_mul, eval_C, eval_X, h2, eval_eq,
    Domain.element, pow_one]
  ring

/-- **C49**: whatever proof `generate_proof` returns, `verify` (with SHA-256, the digest hard-wired in the
prover) returns `Ok`, unless the evaluation challenge is 1, in which case it panics.  For every well-formed
circuit, secret, SRS size, all blinding values and every behaviour of hash and random generator. -/
theorem C49_proof_verifies (env : Env F G1) (T : List UInt8 → List UInt8)
    (hdig : ∀ b, 8 ≤ (env.sha256 b).length) (P : PairingGroups F G1 G2 GT) (s : F) (n : ℕ)
    (cc : CompiledCircuit F) (hwf : cc.WellFormed) (hn : cc.size ≤ n + 3) (b : Blinders F)
    (p : Proof F G1) (h : generateProof env T cc (Srs.newFromSecret P s n) b = some p) :
    ((p.challenges env env.sha256 P.g1).ev ≠ 1 →
      verify env env.sha256 P cc (Srs.newFromSecret P s n) p = some (.ok ())) ∧
    ((p.challenges env env.sha256 P.g1).ev = 1 →
      verify env env.sha256 P cc (Srs.newFromSecret P s n) p = none) := by
  unfold generateProof at h
  simp only [Option.bind_eq_bind, Option.bind_eq_some_iff] at h
  obtain ⟨d, hd, r1, h1, r2, h2, r3, h3, r4, h4, h5⟩ := h
  have hs := WellFormed.size_eq hwf hd
  obtain ⟨hval, -⟩ := Domain.new?_valid hd
  obtain ⟨c1, hv⟩ := C53_verify env env.sha256 hdig P s n cc hwf hn d hd p
  unfold round1 commitRound1 at h1
  simp only [Option.bind_eq_bind, Option.bind_eq_some_iff, pure, Option.some.injEq] at h1
  obtain ⟨com1, ⟨cA, hcA, cB, hcB, cC, hcC, rfl⟩, rfl⟩ := h1
  unfold round2 at h2
  simp only [Option.bind_eq_bind, Option.bind_eq_some_iff, pure, Option.some.injEq] at h2
  obtain ⟨bg, hbg, ⟨zx, zwx⟩, hzz, zC, hzC, rfl⟩ := h2
  unfold round3 SlicePoly.commit at h3
  simp only [Option.bind_eq_bind, Option.bind_eq_some_iff, pure, Option.some.injEq] at h3
  obtain ⟨al, hal, tx, htx, sp, hsp, tC, ⟨cLo, hcLo, cMid, hcMid, cHi, hcHi, rfl⟩, rfl⟩ := h3
  unfold round4 at h4
  simp only [Option.bind_eq_bind, Option.bind_eq_some_iff, pure, Option.some.injEq] at h4
  obtain ⟨evc, hevc, rfl⟩ := h4
  unfold round5 at h5
  simp only [Option.bind_eq_bind, Option.bind_eq_some_iff, pure, Option.some.injEq] at h5
  obtain ⟨ch3, hch3, vc, hvc, rx, hrx, wP, hwP, w, hw, wwP, hwwP, ww, hww, wC, hwC, wwC, hwwC, uc, huc, hp⟩ := h5
  dsimp only at *
  -- the verifier recomputes the prover's challenges
  have hch : verifyChallenges env env.sha256 p (Srs.newFromSecret P s n) =
      some { alpha := al.1, beta := bg.1.1, gamma := bg.1.2, ev := evc.1, v := vc.1, u := uc.1 } := by
    subst hp
    unfold verifyChallenges
    simp only [ChallengeGenerator.fromCommitments, List.foldl_cons, List.foldl_nil, hbg, hal, hevc,
      Option.bind_eq_bind, Option.bind_some, Proof.bars, hch3, hvc, huc, pure]
  rw [verifyChallenges_eq env env.sha256 hdig P s n p, Option.some.injEq] at hch
  rw [c1, hv, hch]
  have hu : p.u = uc.1 := by rw [← hp]
  refine ⟨fun hne => ⟨hu.symm, hne, ?_⟩, fun he => ⟨hu.symm, he⟩⟩
  obtain ⟨acc, accw, -, -, hcomp, hcz, hczw⟩ := accPolys_spec hd hs hzz
  rw [computeQuotient_iff hcz] at htx
  rw [computeLinearisation_iff] at hrx
  rw [openingPoly_iff] at hwP
  rw [divideRoot_iff hwP.2.2.2.2.2.2.1.orZero] at hw
  have hcww : CanonOrZero wwP := canonOrZero_subFirst hcz hwwP
  rw [divideRoot_iff hcww, toPoly_polySubPara hwwP] at hww
  have hsl := (C47_slices tx).2 (by rintro rfl; rw [(C47_slices []).1 rfl] at hsp; cases hsp)
  obtain ⟨sp', hsp', -, hlo, hmid, hhi, -⟩ := hsl
  rw [hsp, Option.some.injEq] at hsp'
  subst hsp'
  rw [commit_iff P s n (canon_wirePoly _ _ _ _).orZero] at hcA hcB hcC
  rw [commit_iff P s n hcz.orZero] at hzC
  rw [commit_iff P s n hlo.orZero] at hcLo
  rw [commit_iff P s n hmid.orZero] at hcMid
  rw [commit_iff P s n hhi.orZero] at hcHi
  rw [commit_iff P s n hw.1.orZero] at hwC
  rw [commit_iff P s n hww.1.orZero] at hwwC
  have hr0 := eval_linPoly_zero (beta := bg.1.1) (gamma := bg.1.2) (alpha := al.1) (ev := evc.1)
    (cc := cc) (d := d) sp hsp hcomp htx.2.2.2.2.2
  rw [← hrx.2.2.2.2.2] at hr0
  have hW := congrArg (fun q => q.eval s) hw.2
  have hWW := congrArg (fun q => q.eval s) hww.2
  rw [hwP.2.2.2.2.2.2.2, hrx.2.2.2.2.2] at hW
  rw [eval_eq] at hW
  have hl1 := eval_l1 hval hne
  simp only [eval_mul, eval_add, eval_sub, eval_X, eval_C, hr0, linPoly, toPoly_linLine1, toPoly_compact,
    eval_one, hl1, hs] at hW hWW
  subst hp
  unfold OpeningEquation
  dsimp only
  rw [hcA.2, hcB.2, hcC.2, hzC.2, hcLo.2, hcMid.2, hcHi.2, hwC.2, hwwC.2]
  simp only [eval_eq, Domain.element, pow_one] at *
  simp only [smul_smul, ← add_smul, ← sub_smul]
  congr 1
  linear_combination hW + uc.1 * hWW - hr0

end

end Verif.Plonk

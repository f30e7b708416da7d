import Verif.Plonk.Exactly
import Verif.Plonk.Cpi
import Verif.Kzg.SetupSize

/-!
# C111 (PLONK): the size of a setup

The prover needs a setup at least as large as the circuit, exactly; the verifier and the preprocessing need three points
fewer; beyond that the size plays no role.
-/

set_option linter.unusedSectionVars false

namespace Verif.Plonk

open Verif.Ark Verif.Kzg Polynomial

variable {F : Type} [FftField F] [DecidableEq F] {G1 G2 GT : Type} [AddCommGroup G1] [Module F G1]
  [AddCommGroup G2] [Module F G2] [AddCommGroup GT] [Module F GT] [DecidableEq GT]

theorem commit_refines (P : PairingGroups F G1 G2 GT) (s : F) {n n' : ℕ} (h : n ≤ n') (p : DP F) :
    Refines (Kzg.commit (Srs.newFromSecret P s n) p) (Kzg.commit (Srs.newFromSecret P s n') p) :=
  evaluateInS_refines P s h p

theorem feedBars_size (env : Env F G1) (dig : List UInt8 → List UInt8) (P : PairingGroups F G1 G2 GT) (s : F) (n n' : ℕ)
    (bar : Bars F) (ch : ChallengeGenerator) :
    feedBars env dig (Srs.newFromSecret P s n) bar ch = feedBars env dig (Srs.newFromSecret P s n') bar ch := by
  unfold feedBars
  simp only [commitPara_size P s n n']

theorem verifyChallenges_size (env : Env F G1) (dig : List UInt8 → List UInt8) (P : PairingGroups F G1 G2 GT) (s : F) (n n' : ℕ)
    (p : Proof F G1) :
    verifyChallenges env dig p (Srs.newFromSecret P s n) = verifyChallenges env dig p (Srs.newFromSecret P s n') := by
  unfold verifyChallenges
  simp only [feedBars_size env dig P s n n']

theorem getCircuitCommitment_refines (P : PairingGroups F G1 G2 GT) (s : F) {n n' : ℕ} (h : n ≤ n') (cc : CompiledCircuit F) :
    Refines (getCircuitCommitment cc (Srs.newFromSecret P s n)) (getCircuitCommitment cc (Srs.newFromSecret P s n')) := by
  have c := commit_refines P s h
  exact Refines.bind (c _) fun _ => Refines.bind (c _) fun _ => Refines.bind (c _) fun _ => Refines.bind (c _) fun _ =>
    Refines.bind (c _) fun _ => Refines.bind (c _) fun _ => Refines.bind (c _) fun _ => Refines.bind (c _) fun _ =>
    Refines.refl _

/-- What happens after the circuit commitment. -/
theorem verify_refines (env : Env F G1) (dig : List UInt8 → List UInt8) (P : PairingGroups F G1 G2 GT) (s : F) {n n' : ℕ}
    (h : n ≤ n') (cc : CompiledCircuit F) (p : Proof F G1) :
    Refines (verify env dig P cc (Srs.newFromSecret P s n) p) (verify env dig P cc (Srs.newFromSecret P s n') p) := by
  unfold verify
  refine Refines.bind (getCircuitCommitment_refines P s h cc) fun k => ?_
  rw [verifyChallenges_size env dig P s n n']
  refine Refines.bind (Refines.refl _) fun c => ?_
  simp only [commitPara_size P s n n']
  exact Refines.refl _

theorem generateProof_refines (env : Env F G1) (T : List UInt8 → List UInt8) (P : PairingGroups F G1 G2 GT) (s : F) {n n' : ℕ}
    (h : n ≤ n') (cc : CompiledCircuit F) (b : Blinders F) :
    Refines (generateProof env T cc (Srs.newFromSecret P s n) b) (generateProof env T cc (Srs.newFromSecret P s n') b) := by
  have c := commit_refines P s h
  unfold generateProof
  refine Refines.bind (Refines.refl _) fun d => ?_
  refine Refines.bind ?_ fun r1 => ?_
  · refine Refines.bind ?_ fun _ => Refines.refl _
    exact Refines.bind (c _) fun _ => Refines.bind (c _) fun _ => Refines.bind (c _) fun _ => Refines.refl _
  refine Refines.bind ?_ fun r2 => ?_
  · exact Refines.bind (Refines.refl _) fun _ => Refines.bind (Refines.refl _) fun _ => Refines.bind (c _) fun _ =>
      Refines.refl _
  refine Refines.bind ?_ fun r3 => ?_
  · refine Refines.bind (Refines.refl _) fun _ => Refines.bind (Refines.refl _) fun _ => Refines.bind (Refines.refl _) fun _ =>
      Refines.bind ?_ fun _ => Refines.refl _
    exact Refines.bind (c _) fun _ => Refines.bind (c _) fun _ => Refines.bind (c _) fun _ => Refines.refl _
  refine Refines.bind (Refines.refl _) fun r4 => ?_
  unfold round5
  rw [feedBars_size env env.sha256 P s n n']
  refine Refines.bind (Refines.refl _) fun _ => Refines.bind (Refines.refl _) fun _ => Refines.bind (Refines.refl _) fun _ =>
    Refines.bind (Refines.refl _) fun _ => Refines.bind (Refines.refl _) fun _ => Refines.bind (Refines.refl _) fun _ =>
    Refines.bind (Refines.refl _) fun _ => ?_
  exact Refines.bind (c _) fun _ => Refines.bind (c _) fun _ => Refines.refl _

/-- **C111** (PLONK): a proof made under a setup is made under every larger setup with the same secret, and the verdict of
the verifier and the preprocessed input under a setup are those under every larger one. -/
theorem C111_plonk_larger_setup (env : Env F G1) (T : List UInt8 → List UInt8) (P : PairingGroups F G1 G2 GT) (s : F)
    {n n' : ℕ} (h : n ≤ n') (cc : CompiledCircuit F) (b : Blinders F) (U : Unicode) (input : List Char) :
    (∀ p, generateProof env T cc (Srs.newFromSecret P s n) b = some p →
      generateProof env T cc (Srs.newFromSecret P s n') b = some p) ∧
    (∀ p r, verify env T P cc (Srs.newFromSecret P s n) p = some r → verify env T P cc (Srs.newFromSecret P s n') p = some r) ∧
    (∀ c : CommonPreprocessedInput F G1, computeCommonPreprocessedInput U input (Srs.newFromSecret P s n) = some c →
      computeCommonPreprocessedInput U input (Srs.newFromSecret P s n') = some c) := by
  refine ⟨generateProof_refines env T P s h cc b, verify_refines env T P s h cc, ?_⟩
  have c := commit_refines P s h
  refine Refines.bind (Refines.refl _) fun k => ?_
  exact Refines.bind (c _) fun _ => Refines.bind (c _) fun _ => Refines.bind (c _) fun _ => Refines.bind (c _) fun _ =>
    Refines.bind (c _) fun _ => Refines.bind (c _) fun _ => Refines.bind (c _) fun _ => Refines.bind (c _) fun _ =>
    Refines.refl _

theorem natDegree_blinded {n : ℕ} (hn : 0 < n) (b : Blinders F) (h7 : b.b7 ≠ 0) (q : F[X]) (hq : q.natDegree < n) :
    n + 2 ≤ ((C b.b9 + C b.b8 * X + C b.b7 * X ^ 2) * (X ^ n - 1) + q).natDegree := by
  refine le_natDegree_of_ne_zero ?_
  have e : ((C b.b9 + C b.b8 * X + C b.b7 * X ^ 2) * (X ^ n - 1) + q).coeff (n + 2) = b.b7 := by
    rw [coeff_add, coeff_eq_zero_of_natDegree_lt (p := q) (by omega), add_zero, mul_sub, mul_one, coeff_sub,
      show n + 2 = 2 + n by omega, coeff_mul_X_pow]
    have h2 : (C b.b9 + C b.b8 * X + C b.b7 * X ^ 2 : F[X]).coeff 2 = b.b7 := by
      simp
    have h3 : (C b.b9 + C b.b8 * X + C b.b7 * X ^ 2 : F[X]).coeff (2 + n) = 0 := by
      refine coeff_eq_zero_of_natDegree_lt (lt_of_le_of_lt (b := 2) ?_ (by omega))
      compute_degree
    rw [h2, h3, sub_zero]
  rw [e]; exact h7

/-- A setup smaller than the circuit makes the prover panic when it commits to the accumulator. -/
theorem generateProof_small (env : Env F G1) (T : List UInt8 → List UInt8) (P : PairingGroups F G1 G2 GT) (s : F) (n : ℕ)
    (cc : CompiledCircuit F) (hwf : cc.WellFormed) (b : Blinders F) (h7 : b.b7 ≠ 0) (hn : n < cc.size) :
    generateProof env T cc (Srs.newFromSecret P s n) b = none := by
  rw [Option.eq_none_iff_forall_ne_some]
  intro p hp
  unfold generateProof at hp
  simp only [Option.bind_eq_bind, Option.bind_eq_some_iff] at hp
  obtain ⟨d, hd, r1, -, r2, h2, -⟩ := hp
  unfold round2 at h2
  simp only [Option.bind_eq_bind, Option.bind_eq_some_iff] at h2
  obtain ⟨bg, -, ⟨zx, zwx⟩, hz, zC, hc, -⟩ := h2
  have hs := WellFormed.size_eq hwf hd
  obtain ⟨acc, accw, ha, hzx, -, hcan, -⟩ := accPolys_spec hd hs hz
  unfold computeAcc at ha
  simp only [Option.bind_eq_bind, Option.bind_eq_some_iff, pure, Option.some.injEq, Prod.mk.injEq] at ha
  obtain ⟨tail, -, rfl, -⟩ := ha
  have hpos : 0 < d.size := d.size_pos
  have hdeg := natDegree_blinded hpos b h7 _ (natDegree_lt_of_length (d.length_interpolate_le (1 :: tail)) hpos)
  rw [← hzx] at hdeg
  have := (C02_commit P s n hcan).2 (by omega)
  rw [this] at hc
  cases hc

/-- **C111** (PLONK prover): for every circuit and every run with a non-zero blinding value `b7` for which some setup with
this secret is large enough to obtain a proof, a setup of size `n` is large enough if and only if `n` is at least the
circuit's size (the documented size), and then gives the same proof. -/
theorem C111_plonk_prover_size (env : Env F G1) (T : List UInt8 → List UInt8) (P : PairingGroups F G1 G2 GT) (s : F)
    (cc : CompiledCircuit F) (hwf : cc.WellFormed) (b : Blinders F) (h7 : b.b7 ≠ 0)
    (hdig : ∀ x, 8 ≤ (env.sha256 x).length) (n₀ : ℕ) (p : Proof F G1)
    (h₀ : generateProof env T cc (Srs.newFromSecret P s n₀) b = some p) (n : ℕ) :
    (cc.size ≤ n → generateProof env T cc (Srs.newFromSecret P s n) b = some p) ∧
    (n < cc.size → generateProof env T cc (Srs.newFromSecret P s n) b = none) := by
  refine ⟨fun hn => ?_, generateProof_small env T P s n cc hwf b h7⟩
  rcases Nat.le_total n₀ n with h | h
  · exact generateProof_refines env T P s h cc b p h₀
  · -- both are at least the size of the circuit, and the result is described without the size (C102)
    have hd : ∃ d : Domain F, Domain.new? cc.size = some d := by
      unfold generateProof at h₀
      simp only [Option.bind_eq_bind, Option.bind_eq_some_iff] at h₀
      obtain ⟨d, hd, -⟩ := h₀
      exact ⟨d, hd⟩
    obtain ⟨d, hd⟩ := hd
    let H : Honest F G1 := ⟨env, P.g1, s, cc, d.gen, b⟩
    have e0 := C102_exactly H T P n₀ d hd rfl rfl hwf (hn.trans h) hdig
    have e1 := C102_exactly H T P n d hd rfl rfl hwf hn hdig
    by_cases hc : GatesSatisfied H.cc H.w ∧
      (H.α = 0 ∨ ∏ i ∈ Finset.range H.n, H.rowNum i = ∏ i ∈ Finset.range H.n, H.rowDen i) ∧ ¬ H.Degenerate
    · rw [e1.1 hc, ← e0.1 hc]; exact h₀
    · rw [e0.2 hc] at h₀; cases h₀

/-- **C111** (PLONK verifier): for every circuit and proof the verdict is the same under all setups with this secret that
have at least as many points as the circuit has rows (`n + 3 ≥ size`). -/
theorem C111_plonk_verifier_size (env : Env F G1) (dig : List UInt8 → List UInt8) (P : PairingGroups F G1 G2 GT) (s : F)
    (cc : CompiledCircuit F) (hwf : cc.WellFormed) (p : Proof F G1) (n n' : ℕ) (hn : cc.size ≤ n + 3) (hn' : cc.size ≤ n' + 3) :
    verify env dig P cc (Srs.newFromSecret P s n) p = verify env dig P cc (Srs.newFromSecret P s n') p := by
  unfold verify
  rw [getCircuitCommitment_eq P s n hwf hn, getCircuitCommitment_eq P s n' hwf hn', verifyChallenges_size env dig P s n n']
  simp only [commitPara_size P s n n']
  rfl

/-- **C111** (PLONK verifier, limit): a selector or permutation polynomial with a non-zero coefficient at `n + 3` or higher
makes the verifier panic, whatever the proof. -/
theorem C111_plonk_verifier_too_small (env : Env F G1) (dig : List UInt8 → List UInt8) (P : PairingGroups F G1 G2 GT) (s : F)
    (cc : CompiledCircuit F) (hwf : cc.WellFormed) (p : Proof F G1) (n : ℕ) (q : DP F)
    (hq : q ∈ [cc.gate.qmx, cc.gate.qlx, cc.gate.qrx, cc.gate.qox, cc.gate.qcx, cc.copy.s1, cc.copy.s2, cc.copy.s3])
    (hdeg : n + 3 ≤ (toPoly q).natDegree) : verify env dig P cc (Srs.newFromSecret P s n) p = none := by
  have hcan : ∀ x ∈ cc.polys, Canon x := fun x hx => hwf.canon x hx
  rw [Option.eq_none_iff_forall_ne_some]
  intro r hr
  unfold verify at hr
  simp only [Option.bind_eq_bind, Option.bind_eq_some_iff] at hr
  obtain ⟨k, hk, -⟩ := hr
  unfold getCircuitCommitment at hk
  simp only [Option.bind_eq_bind, Option.bind_eq_some_iff] at hk
  obtain ⟨_, h1, _, h2, _, h3, _, h4, _, h5, _, h6, _, h7, _, h8, -⟩ := hk
  have key : ∀ x ∈ cc.polys, n + 3 ≤ (toPoly x).natDegree → ∀ c, Kzg.commit (Srs.newFromSecret P s n) x ≠ some c := by
    intro x hx hd c hc
    rw [(C02_commit P s n (hcan x hx)).2 hd] at hc; cases hc
  simp only [List.mem_cons, List.not_mem_nil, or_false] at hq
  rcases hq with rfl | rfl | rfl | rfl | rfl | rfl | rfl | rfl
  · exact key _ (by simp [CompiledCircuit.polys]) hdeg _ h1
  · exact key _ (by simp [CompiledCircuit.polys]) hdeg _ h2
  · exact key _ (by simp [CompiledCircuit.polys]) hdeg _ h3
  · exact key _ (by simp [CompiledCircuit.polys]) hdeg _ h4
  · exact key _ (by simp [CompiledCircuit.polys]) hdeg _ h5
  · exact key _ (by simp [CompiledCircuit.polys]) hdeg _ h6
  · exact key _ (by simp [CompiledCircuit.polys]) hdeg _ h7
  · exact key _ (by simp [CompiledCircuit.polys]) hdeg _ h8

/-- Non-vacuity: the example circuit of size two; its proof is made under size 2, also under size 9, and not under size 1;
it is accepted under all sizes, 0 included. -/
example : ∃ p, generateProof exEnv exEnv.sha256 exCC (Srs.newFromSecret (trivialGroups BlsFr) 11 2) exBl = some p ∧
    generateProof exEnv exEnv.sha256 exCC (Srs.newFromSecret (trivialGroups BlsFr) 11 9) exBl = some p ∧
    generateProof exEnv exEnv.sha256 exCC (Srs.newFromSecret (trivialGroups BlsFr) 11 1) exBl = none ∧
    ∀ n, verify exEnv exEnv.sha256 (trivialGroups BlsFr) exCC (Srs.newFromSecret (trivialGroups BlsFr) 11 n) p =
      verify exEnv exEnv.sha256 (trivialGroups BlsFr) exCC (Srs.newFromSecret (trivialGroups BlsFr) 11 2) p := by
  obtain ⟨p, hp⟩ := Option.isSome_iff_exists.1 exRun_isSome
  have h0 : generateProof exEnv exEnv.sha256 exCC (Srs.newFromSecret (trivialGroups BlsFr) 11 2) exBl = some p := by
    rw [exRun_eq, hp]
  have hwf := compile_wellFormed _ _ exCC_compiled
  have h7 : exBl.b7 ≠ 0 := by decide +kernel
  have key := C111_plonk_prover_size exEnv exEnv.sha256 (trivialGroups BlsFr) 11 exCC hwf exBl h7 exEnv_len 2 p h0
  exact ⟨p, h0, (key 9).1 (by decide), (key 1).2 (by decide), fun n =>
    C111_plonk_verifier_size exEnv exEnv.sha256 (trivialGroups BlsFr) 11 exCC hwf p n 2
      (show (2 : ℕ) ≤ n + 3 by omega) (show (2 : ℕ) ≤ 2 + 3 by omega)⟩

end Verif.Plonk

import Verif.Kzg.Lemmas
import Verif.Ark.Fields
import Mathlib.Tactic.Module

/-!
# Properties C01–C11: the KZG polynomial commitment scheme

Specification vocabulary: `toPoly p : F[X]` is the polynomial with coefficient vector `p`
(`Verif.Ark.toPoly`), `P.g1`, `P.g2` the group generators, `a • P.g1` scalar multiplication, `none` a
panic.  `Canon p`: no superfluous leading zero coefficient, the invariant every `DensePolynomial` built
through the library API satisfies.
-/

set_option linter.unusedSectionVars false

namespace Verif.Kzg

open Verif.Ark Polynomial

variable {F G1 G2 GT : Type} [Field F] [DecidableEq F] [AddCommGroup G1] [Module F G1]
  [AddCommGroup G2] [Module F G2] [AddCommGroup GT] [Module F GT] [DecidableEq GT]

/-- **C01**: the SRS consists of `n + 3` points, the `i`-th being `s^i • g1`, and `g2`, `s • g2`. -/
theorem C01_srs_powers (P : PairingGroups F G1 G2 GT) (s : F) (n : ℕ) :
    (Srs.newFromSecret P s n).g1Points.length = n + 3 ∧
    (∀ i, i < n + 3 → (Srs.newFromSecret P s n).g1Points[i]? = some (s ^ i • P.g1)) ∧
    (Srs.newFromSecret P s n).g2 = P.g2 ∧ (Srs.newFromSecret P s n).g2s = s • P.g2 := by
  refine ⟨srs_length P s n, ?_, rfl, rfl⟩
  intro i hi
  simp [Srs.newFromSecret, srsLoop_eq, hi]

/-- **C02** (commit): on every polynomial of degree below the SRS size the commitment is `p(s) • g1`;
on every larger polynomial `commit` panics. -/
theorem C02_commit (P : PairingGroups F G1 G2 GT) (s : F) (n : ℕ) {p : DP F} (hp : Canon p) :
    ((toPoly p).natDegree < n + 3 →
      commit (Srs.newFromSecret P s n) p = some ((toPoly p).eval s • P.g1)) ∧
    (n + 3 ≤ (toPoly p).natDegree → commit (Srs.newFromSecret P s n) p = none) := by
  unfold commit
  rw [evaluateInS_eq P s n hp.orZero]
  exact ⟨fun h => by rw [if_pos h], fun h => by rw [if_neg (by omega)]⟩

/-- **C02** (coefficient vectors): `commit_vector` accepts any coefficient vector, with or without
trailing zeros, and commits to the polynomial it denotes. -/
theorem C02_commit_vector (P : PairingGroups F G1 G2 GT) (s : F) (n : ℕ) (v : List F) :
    ((toPoly v).natDegree < n + 3 →
      commitVector (Srs.newFromSecret P s n) v = some ((toPoly v).eval s • P.g1)) ∧
    (n + 3 ≤ (toPoly v).natDegree → commitVector (Srs.newFromSecret P s n) v = none) := by
  unfold commitVector
  rw [evaluateInS_eq P s n (canon_fromCoeffs v).orZero, toPoly_fromCoeffs]
  exact ⟨fun h => by rw [if_pos h], fun h => by rw [if_neg (by omega)]⟩

/-- **C02** (constants): `commit_para(a)` is the commitment of the constant polynomial `a`. -/
theorem C02_commit_para (P : PairingGroups F G1 G2 GT) (s : F) (n : ℕ) (a : F) :
    commitPara (Srs.newFromSecret P s n) a = some (a • P.g1) ∧
    commitPara (Srs.newFromSecret P s n) a = commitVector (Srs.newFromSecret P s n) [a] := by
  have h : commitPara (Srs.newFromSecret P s n) a = some (a • P.g1) := by
    simp [commitPara, Srs.newFromSecret, srsLoop_eq, List.range_succ_eq_map]
  refine ⟨h, ?_⟩
  rw [h, (C02_commit_vector P s n [a]).1 (by simp)]
  simp

/-- **C03**: commitments are linear. For polynomials within the SRS bound, adding, subtracting,
negating and scaling commitments gives the commitment of the sum, difference, negation, multiple. -/
theorem C03_linear (P : PairingGroups F G1 G2 GT) (s : F) (n : ℕ) {p q : DP F} (hp : Canon p)
    (hq : Canon q) {cp cq : G1} (h1 : commit (Srs.newFromSecret P s n) p = some cp)
    (h2 : commit (Srs.newFromSecret P s n) q = some cq) (k : F) :
    commit (Srs.newFromSecret P s n) (add p q) = some (commitmentAdd cp cq) ∧
    commit (Srs.newFromSecret P s n) (sub p q) = some (commitmentSub cp cq) ∧
    commit (Srs.newFromSecret P s n) (neg p) = some (commitmentNeg cp) ∧
    commit (Srs.newFromSecret P s n) (smul p k) = some (commitmentMul cp k) := by
  have key : ∀ {r : DP F} {c}, Canon r → commit (Srs.newFromSecret P s n) r = some c →
      (toPoly r).natDegree < n + 3 ∧ c = (toPoly r).eval s • P.g1 := by
    intro r c hr h
    by_cases hd : (toPoly r).natDegree < n + 3
    · rw [(C02_commit P s n hr).1 hd] at h
      exact ⟨hd, (Option.some.inj h).symm⟩
    · rw [(C02_commit P s n hr).2 (by omega)] at h; cases h
  obtain ⟨d1, rfl⟩ := key hp h1
  obtain ⟨d2, rfl⟩ := key hq h2
  have cneg : Canon (neg p) := by
    unfold Canon neg at *
    rw [List.getLast?_map]
    cases h : p.getLast? with
    | none => simp
    | some a => rw [h] at hp; simpa using hp
  refine ⟨?_, ?_, ?_, ?_⟩
  · rw [(C02_commit P s n (canon_add p q)).1 ?_, toPoly_add, eval_add, add_smul]; rfl
    rw [toPoly_add]; exact (natDegree_add_le _ _).trans_lt (max_lt d1 d2)
  · rw [(C02_commit P s n (canon_sub p q)).1 ?_, toPoly_sub, eval_sub, sub_smul]
    · simp [commitmentSub, commitmentAdd, commitmentNeg, sub_eq_add_neg]
    · rw [toPoly_sub]; exact (natDegree_sub_le _ _).trans_lt (max_lt d1 d2)
  · rw [(C02_commit P s n cneg).1 ?_, toPoly_neg, eval_neg, neg_smul]; rfl
    rw [toPoly_neg, natDegree_neg]; exact d1
  · rw [(C02_commit P s n (canon_smul hp k)).1 ?_, toPoly_smul, eval_mul, eval_C, mul_smul]; rfl
    rw [toPoly_smul]; exact (natDegree_C_mul_le _ _).trans_lt d1

/-- **C04** (completeness): for every non-zero polynomial `p` that can be committed and every `z`,
`open` returns the value `p(z)` together with a witness which `verify` accepts. -/
theorem C04_open_verifies (P : PairingGroups F G1 G2 GT) (s : F) (n : ℕ) {p : DP F} (hp : Canon p)
    (hne : toPoly p ≠ 0) {c : G1} (hc : commit (Srs.newFromSecret P s n) p = some c) (z : F) :
    ∃ o, openAt (Srs.newFromSecret P s n) p z = some o ∧ o.eval = (toPoly p).eval z ∧
      verify P (Srs.newFromSecret P s n) c o z = true := by
  by_cases hd : (toPoly p).natDegree < n + 3
  · rw [(C02_commit P s n hp).1 hd] at hc
    cases hc
    rw [openAt_eq P s n hp hne, if_pos (by omega)]
    refine ⟨_, rfl, rfl, ?_⟩
    rw [verify_iff]
    simp only
    rw [smul_smul, ← sub_smul]
    congr 1
    have h := X_sub_C_mul_divByMonic_eq_sub_modByMonic (toPoly p) z
    rw [modByMonic_X_sub_C_eq_C_eval] at h
    have := congrArg (fun r => r.eval s) h
    simpa using this
  · rw [(C02_commit P s n hp).2 (by omega)] at hc; cases hc

/-- **C04** (panics): `open` panics exactly on the zero polynomial and on polynomials whose quotient
does not fit into the SRS. -/
theorem C04_open_panics_iff (P : PairingGroups F G1 G2 GT) (s : F) (n : ℕ) {p : DP F} (hp : Canon p)
    (z : F) :
    openAt (Srs.newFromSecret P s n) p z = none ↔
      toPoly p = 0 ∨ n + 4 ≤ (toPoly p).natDegree := by
  by_cases hz : toPoly p = 0
  · rw [canon_zero_eq_nil hp hz]; simp [openAt_nil]
  · rw [openAt_eq P s n hp hz]
    simp [hz]

/-- **C04** (vectors): `open_vector` is `open` of the polynomial denoted by the vector. -/
theorem C04_open_vector (srs : Srs G1 G2) (v : List F) (z : F) :
    openVector srs v z = openAt srs (fromCoeffs v) z := rfl

/-- **C05**: `verify` accepts exactly the openings satisfying the KZG equation
`(s - z) • W = C - y • g1`. -/
theorem C05_verify_iff (P : PairingGroups F G1 G2 GT) (s : F) (n : ℕ) (c W : G1) (y z : F) :
    verify P (Srs.newFromSecret P s n) c ⟨W, y⟩ z = true ↔ (s - z) • W = c - y • P.g1 :=
  verify_iff P s n c ⟨W, y⟩ z

/-- **C06** (honest witness): with the witness produced by `open` only the true value verifies. -/
theorem C06_honest_witness_binds (P : PairingGroups F G1 G2 GT) (s : F) (n : ℕ) {p : DP F}
    (hp : Canon p) {c : G1} (hc : commit (Srs.newFromSecret P s n) p = some c) {z : F}
    {o : Opening F G1} (ho : openAt (Srs.newFromSecret P s n) p z = some o) (y : F) :
    verify P (Srs.newFromSecret P s n) c ⟨o.witness, y⟩ z = true ↔ y = (toPoly p).eval z := by
  have hne : toPoly p ≠ 0 := by
    intro h
    rw [(C04_open_panics_iff P s n hp z).2 (Or.inl h)] at ho; cases ho
  obtain ⟨o', ho', hev, hver⟩ := C04_open_verifies P s n hp hne hc z
  rw [ho] at ho'; cases ho'
  rw [verify_iff] at hver
  rw [C05_verify_iff, hver, hev]
  constructor
  · intro h
    have := sub_right_injective h
    exact (P.smul_g1_inj this).symm
  · rintro rfl; rfl

/-- **C06** (evaluation binding, extraction form): two accepted openings of one commitment at one
point `z ≠ s` with different values give the `t`-SDH solution `1/(s-z) • g1` by a fixed formula. -/
theorem C06_binding (P : PairingGroups F G1 G2 GT) (s : F) (n : ℕ) (c W W' : G1) (y y' z : F)
    (hz : z ≠ s) (hy : y ≠ y')
    (h : verify P (Srs.newFromSecret P s n) c ⟨W, y⟩ z = true)
    (h' : verify P (Srs.newFromSecret P s n) c ⟨W', y'⟩ z = true) :
    (y' - y)⁻¹ • (W - W') = (s - z)⁻¹ • P.g1 := by
  rw [C05_verify_iff] at h h'
  have hsz : s - z ≠ 0 := sub_ne_zero.2 (Ne.symm hz)
  have hyy : y' - y ≠ 0 := sub_ne_zero.2 (Ne.symm hy)
  have h1 : (s - z) • (W - W') = (y' - y) • P.g1 := by
    rw [smul_sub, h, h', sub_smul]; abel
  have h2 : W - W' = (s - z)⁻¹ • (y' - y) • P.g1 := by rw [← h1, smul_smul, inv_mul_cancel₀ hsz, one_smul]
  rw [h2, smul_comm, smul_smul (y' - y)⁻¹, inv_mul_cancel₀ hyy, one_smul]

/-- **C07** (commitment binding): two polynomials that can be committed have the same commitment iff
the secret is a root of their difference. -/
theorem C07_binding (P : PairingGroups F G1 G2 GT) (s : F) (n : ℕ) {p q : DP F} (hp : Canon p)
    (hq : Canon q) (dp : (toPoly p).natDegree < n + 3) (dq : (toPoly q).natDegree < n + 3) :
    commit (Srs.newFromSecret P s n) p = commit (Srs.newFromSecret P s n) q ↔
      (toPoly p - toPoly q).IsRoot s := by
  rw [(C02_commit P s n hp).1 dp, (C02_commit P s n hq).1 dq, Option.some.injEq, IsRoot, eval_sub,
    sub_eq_zero]
  exact ⟨fun h => P.smul_g1_inj h, fun h => by rw [h]⟩

/-- **C07** (counting): for two different coefficient vectors at most `max degree` secrets produce
equal commitments. -/
theorem C07_few_bad_secrets (P : PairingGroups F G1 G2 GT) (n : ℕ) {p q : DP F} (hp : Canon p)
    (hq : Canon q) (dp : (toPoly p).natDegree < n + 3) (dq : (toPoly q).natDegree < n + 3)
    (hne : p ≠ q) :
    ∃ S : Finset F, S.card ≤ max (toPoly p).natDegree (toPoly q).natDegree ∧
      ∀ s, commit (Srs.newFromSecret P s n) p = commit (Srs.newFromSecret P s n) q → s ∈ S := by
  have hd : toPoly p - toPoly q ≠ 0 := fun h => hne (canon_ext hp hq (sub_eq_zero.1 h))
  refine ⟨(toPoly p - toPoly q).roots.toFinset, ?_, ?_⟩
  · calc _ ≤ Multiset.card (toPoly p - toPoly q).roots := Multiset.toFinset_card_le _
      _ ≤ (toPoly p - toPoly q).natDegree := card_roots' _
      _ ≤ _ := natDegree_sub_le _ _
  · intro s hs
    rw [Multiset.mem_toFinset, mem_roots hd]
    exact (C07_binding P s n hp hq dp dq).1 hs

/-- **C08**: `aggregate_commitments([c_0, …, c_{m-1}], v) = Σ v^i • c_i`. -/
theorem C08_aggregate (l : List G1) (v : F) :
    aggregateCommitments l v = ∑ i : Fin l.length, v ^ (i : ℕ) • l[i] := by
  rw [aggregateCommitments, aggregateLoop_eq]; simp

/-- **C08** (commitments): aggregating commitments gives the commitment of `Σ v^i p_i`. -/
theorem C08_aggregate_commit (P : PairingGroups F G1 G2 GT) (s : F) (n : ℕ) (ps : List (DP F))
    (hc : ∀ p ∈ ps, Canon p) (cs : List G1)
    (h : ps.map (commit (Srs.newFromSecret P s n)) = cs.map some) (v : F) :
    aggregateCommitments cs v =
      (∑ i : Fin ps.length, C (v ^ (i : ℕ)) * toPoly ps[i]).eval s • P.g1 := by
  have hlen : ps.length = cs.length := by simpa using congrArg List.length h
  rw [C08_aggregate, eval_finsetSum, Finset.sum_smul]
  refine Finset.sum_equiv (finCongr hlen.symm) (by simp) ?_
  intro i _
  have hi : (i : ℕ) < ps.length := by rw [hlen]; exact i.2
  have h1 : commit (Srs.newFromSecret P s n) ps[(i : ℕ)] = some cs[(i : ℕ)] := by
    have := congrArg (fun l => l[(i : ℕ)]?) h
    simpa [List.getElem?_eq_getElem hi] using this
  have hcan : Canon ps[(i : ℕ)] := hc _ (List.getElem_mem _)
  have hd : (toPoly ps[(i : ℕ)]).natDegree < n + 3 := by
    by_contra hcon
    rw [(C02_commit P s n hcan).2 (by omega)] at h1; cases h1
  rw [(C02_commit P s n hcan).1 hd] at h1
  simp only [finCongr_apply, Fin.getElem_fin, Fin.val_cast, eval_mul, eval_C]
  rw [← Option.some.inj h1, smul_smul]

/-- Closed form of the acceptance condition of `batch_verify`. -/
theorem batchVerify_iff (P : PairingGroups F G1 G2 GT) (s : F) (n : ℕ) (cs : List G1) (zs : List F)
    (os : List (Opening F G1)) (rng : ℕ → ℕ) (h1 : cs.length = zs.length)
    (h2 : os.length = zs.length) :
    batchVerify P (Srs.newFromSecret P s n) cs zs os rng = some true ↔
      ∑ k : Fin zs.length, (rng k : F) •
        (cs[k] - os[k].eval • P.g1 - (s - zs[k]) • os[k].witness) = 0 := by
  rw [batchVerify, if_neg (by simpa using h1), if_neg (by simpa using h2)]
  simp only [Option.some.injEq, decide_eq_true_eq, batchLoop_eq, zero_add, Srs.newFromSecret]
  rw [map_smul, ← LinearMap.smul_apply, ← map_smul]
  have hl : ((cs.zip zs).zip os).length = zs.length := by simp [h1, h2]
  have hs : ∑ k : Fin zs.length, (rng k : F) •
        (cs[k] - os[k].eval • P.g1 - (s - zs[k]) • os[k].witness) =
      ∑ k : Fin ((cs.zip zs).zip os).length, (rng k : F) • (((cs.zip zs).zip os)[k].1.1 -
        ((cs.zip zs).zip os)[k].2.eval • P.g1 + ((cs.zip zs).zip os)[k].1.2 •
          ((cs.zip zs).zip os)[k].2.witness) -
      s • ∑ k : Fin ((cs.zip zs).zip os).length, (rng k : F) • ((cs.zip zs).zip os)[k].2.witness := by
    rw [Finset.smul_sum, ← Finset.sum_sub_distrib]
    refine Finset.sum_equiv (finCongr hl.symm) (by simp) ?_
    intro i _
    simp only [finCongr_apply, Fin.getElem_fin, Fin.val_cast, List.getElem_zip]
    module
  rw [hs, sub_eq_zero]
  exact ⟨fun h => P.e_g2_inj h, fun h => by rw [h]⟩

/-- **C09**: if every opening verifies on its own, `batch_verify` accepts whatever the RNG returns. -/
theorem C09_batch_complete (P : PairingGroups F G1 G2 GT) (s : F) (n : ℕ) (cs : List G1) (zs : List F)
    (os : List (Opening F G1)) (rng : ℕ → ℕ) (h1 : cs.length = zs.length)
    (h2 : os.length = zs.length)
    (h : ∀ k : Fin zs.length, verify P (Srs.newFromSecret P s n) cs[k] os[k] zs[k] = true) :
    batchVerify P (Srs.newFromSecret P s n) cs zs os rng = some true := by
  rw [batchVerify_iff P s n cs zs os rng h1 h2]
  refine Finset.sum_eq_zero fun k _ => ?_
  have := (verify_iff P s n _ _ _).1 (h k)
  rw [this, sub_self, smul_zero]

/-- **C09** (lengths): unequal lengths make `batch_verify` panic, equal lengths never do. -/
theorem C09_batch_lengths (P : PairingGroups F G1 G2 GT) (srs : Srs G1 G2) (cs : List G1)
    (zs : List F) (os : List (Opening F G1)) (rng : ℕ → ℕ) :
    batchVerify P srs cs zs os rng = none ↔ ¬ (cs.length = zs.length ∧ os.length = zs.length) := by
  unfold batchVerify
  by_cases h1 : cs.length = zs.length <;> by_cases h2 : os.length = zs.length <;> simp [h1, h2]

/-- **C10**: if opening `k` is invalid, then, all other RNG outputs being fixed, `batch_verify`
accepts for at most one value of the `k`-th coefficient (as a field element). -/
theorem C10_batch_sound (P : PairingGroups F G1 G2 GT) (s : F) (n : ℕ) (cs : List G1) (zs : List F)
    (os : List (Opening F G1)) (h1 : cs.length = zs.length) (h2 : os.length = zs.length)
    (k : Fin zs.length)
    (hbad : verify P (Srs.newFromSecret P s n) cs[k] os[k] zs[k] = false)
    (rng rng' : ℕ → ℕ) (hsame : ∀ i : ℕ, i ≠ k → rng i = rng' i)
    (ha : batchVerify P (Srs.newFromSecret P s n) cs zs os rng = some true)
    (ha' : batchVerify P (Srs.newFromSecret P s n) cs zs os rng' = some true) :
    (rng k : F) = (rng' k : F) := by
  rw [batchVerify_iff P s n cs zs os _ h1 h2] at ha ha'
  rw [← Finset.add_sum_erase _ _ (Finset.mem_univ k)] at ha ha'
  have hrest : ∑ x ∈ Finset.univ.erase k, (rng x : F) •
        (cs[x] - os[x].eval • P.g1 - (s - zs[x]) • os[x].witness) =
      ∑ x ∈ Finset.univ.erase k, (rng' x : F) •
        (cs[x] - os[x].eval • P.g1 - (s - zs[x]) • os[x].witness) := by
    refine Finset.sum_congr rfl fun x hx => ?_
    rw [hsame x (fun h => (Finset.mem_erase.1 hx).1 (Fin.ext h))]
  rw [hrest] at ha
  have hd := add_right_cancel (ha.trans ha'.symm)
  have hne : cs[k] - os[k].eval • P.g1 - (s - zs[k]) • os[k].witness ≠ 0 := by
    intro h
    have : verify P (Srs.newFromSecret P s n) cs[k] os[k] zs[k] = true := by
      rw [verify_iff]; exact (sub_eq_zero.1 h).symm
    rw [this] at hbad; cases hbad
  have h3 : ((rng k : F) - (rng' k : F)) • (cs[k] - os[k].eval • P.g1 - (s - zs[k]) • os[k].witness) = 0 := by
    rw [sub_smul, hd, sub_self]
  obtain ⟨a, ha0⟩ := P.cyclic (cs[k] - os[k].eval • P.g1 - (s - zs[k]) • os[k].witness)
  rw [ha0] at h3 hne
  rw [smul_smul] at h3
  have h4 : ((rng k : F) - (rng' k : F)) * a = 0 := P.smul_g1_inj (by rw [h3, zero_smul])
  have ha1 : a ≠ 0 := by rintro rfl; exact hne (zero_smul _ _)
  exact sub_eq_zero.1 ((mul_eq_zero.1 h4).resolve_right ha1)

/-- **C10** for the code's field: at most one of the `2^128` values `rng.gen::<u128>()` can return. -/
theorem C10_batch_sound_bls {G1 G2 GT : Type} [AddCommGroup G1] [Module BlsFr G1]
    [AddCommGroup G2] [Module BlsFr G2] [AddCommGroup GT] [Module BlsFr GT] [DecidableEq GT]
    (P : PairingGroups BlsFr G1 G2 GT) (s : BlsFr) (n : ℕ) (cs : List G1)
    (zs : List BlsFr) (os : List (Opening BlsFr G1)) (h1 : cs.length = zs.length)
    (h2 : os.length = zs.length) (k : Fin zs.length)
    (hbad : verify P (Srs.newFromSecret P s n) cs[k] os[k] zs[k] = false)
    (rng rng' : ℕ → ℕ) (hsame : ∀ i : ℕ, i ≠ k → rng i = rng' i)
    (hb : ∀ i, rng i < 2 ^ 128) (hb' : ∀ i, rng' i < 2 ^ 128)
    (ha : batchVerify P (Srs.newFromSecret P s n) cs zs os rng = some true)
    (ha' : batchVerify P (Srs.newFromSecret P s n) cs zs os rng' = some true) :
    rng = rng' := by
  have h := C10_batch_sound P s n cs zs os h1 h2 k hbad rng rng' hsame ha ha'
  have h2 : (2 : ℕ) ^ 128 < blsR := by norm_num [blsR]
  rw [ZMod.natCast_eq_natCast_iff', Nat.mod_eq_of_lt ((hb k).trans h2),
    Nat.mod_eq_of_lt ((hb' k).trans h2)] at h
  funext i
  by_cases hi : i = k
  · rw [hi, h]
  · exact hsame i hi

/-- **C11** is false of the code as written: there are two honest openings at one point whose sum does
not verify against the sum of the commitments (`opening.rs` doubles the left witness). -/
theorem C11_opening_add_fails :
    ∃ (P : PairingGroups ℚ ℚ ℚ ℚ) (s : ℚ) (n : ℕ) (p q : DP ℚ) (z cp cq : ℚ) (op oq : Opening ℚ ℚ),
      commit (Srs.newFromSecret P s n) p = some cp ∧ commit (Srs.newFromSecret P s n) q = some cq ∧
      openAt (Srs.newFromSecret P s n) p z = some op ∧
      openAt (Srs.newFromSecret P s n) q z = some oq ∧
      verify P (Srs.newFromSecret P s n) cp op z = true ∧
      verify P (Srs.newFromSecret P s n) cq oq z = true ∧
      verify P (Srs.newFromSecret P s n) (commitmentAdd cp cq) (op.add oq) z = false := by
  refine ⟨trivialGroups ℚ, 2, 3, [0, 1], [0, 0, 1], 1, 2, 4, ⟨1, 1⟩, ⟨3, 1⟩, ?_⟩
  have hg : (trivialGroups ℚ).g1 = 1 := rfl
  have c1 : Canon ([0, 1] : DP ℚ) := by simp [Canon]
  have c2 : Canon ([0, 0, 1] : DP ℚ) := by simp [Canon]
  have t1 : toPoly ([0, 1] : DP ℚ) = X := by simp [toPoly]
  have t2 : toPoly ([0, 0, 1] : DP ℚ) = X ^ 2 := by simp [toPoly]; ring
  have e1 : commit (Srs.newFromSecret (trivialGroups ℚ) 2 3) ([0, 1] : DP ℚ) = some 2 := by
    rw [(C02_commit _ 2 3 c1).1 (by rw [t1]; simp), t1, hg]; simp
  have e2 : commit (Srs.newFromSecret (trivialGroups ℚ) 2 3) ([0, 0, 1] : DP ℚ) = some 4 := by
    rw [(C02_commit _ 2 3 c2).1 (by rw [t2]; simp), t2, hg]; norm_num
  have o1 : openAt (Srs.newFromSecret (trivialGroups ℚ) 2 3) ([0, 1] : DP ℚ) 1 = some ⟨1, 1⟩ := by
    rw [openAt_eq _ 2 3 c1 (by rw [t1]; exact X_ne_zero), t1, if_pos (by simp), hg]
    have : (X : ℚ[X]) /ₘ (X - C 1) = 1 := by
      have := div_modByMonic_unique (f := (X : ℚ[X])) 1 (C 1) (monic_X_sub_C (1 : ℚ))
        ⟨by simp, by rw [degree_X_sub_C]; exact degree_C_le.trans_lt (by norm_num)⟩
      exact this.1
    rw [this]; simp
  have o2 : openAt (Srs.newFromSecret (trivialGroups ℚ) 2 3) ([0, 0, 1] : DP ℚ) 1 = some ⟨3, 1⟩ := by
    rw [openAt_eq _ 2 3 c2 (by rw [t2]; exact pow_ne_zero _ X_ne_zero), t2, if_pos (by simp), hg]
    have : (X ^ 2 : ℚ[X]) /ₘ (X - C 1) = X + 1 := by
      have := div_modByMonic_unique (f := (X ^ 2 : ℚ[X])) (X + 1) (C 1) (monic_X_sub_C (1 : ℚ))
        ⟨by simp; ring, by rw [degree_X_sub_C]; exact degree_C_le.trans_lt (by norm_num)⟩
      exact this.1
    rw [this]; norm_num
  refine ⟨e1, e2, o1, o2, ?_, ?_, ?_⟩
  · rw [verify_iff]; norm_num [hg]
  · rw [verify_iff]; norm_num [hg]
  · rw [← Bool.not_eq_true, verify_iff]; norm_num [hg, Opening.add, commitmentAdd]

/-- **C11** (what does hold): for two valid openings at the same point the sum of the openings
verifies against the sum of the commitments iff the two witnesses agree or the point is the secret. -/
theorem C11_opening_add_partial (P : PairingGroups F G1 G2 GT) (s : F) (n : ℕ) (c c' : G1)
    (o o' : Opening F G1) (z : F) (h : verify P (Srs.newFromSecret P s n) c o z = true)
    (h' : verify P (Srs.newFromSecret P s n) c' o' z = true) :
    (verify P (Srs.newFromSecret P s n) (commitmentAdd c c') (o.add o') z = true ↔
      o.witness = o'.witness ∨ z = s) ∧ (o.add o').eval = o.eval + o'.eval := by
  refine ⟨?_, rfl⟩
  rw [verify_iff] at *
  simp only [Opening.add, commitmentAdd, smul_add, add_smul]
  have : c + c' - (o.eval • P.g1 + o'.eval • P.g1) = (s - z) • o.witness + (s - z) • o'.witness := by
    rw [h, h']; abel
  rw [this, add_right_inj]
  constructor
  · intro h2
    by_cases hz : z = s
    · exact Or.inr hz
    · left
      have hsz : s - z ≠ 0 := sub_ne_zero.2 (Ne.symm hz)
      have := congrArg (fun w => (s - z)⁻¹ • w) h2
      simpa [smul_smul, inv_mul_cancel₀ hsz] using this
  · rintro (h2 | h2)
    · rw [h2]
    · rw [h2]; simp

/-! ## Non-vacuity: the hypotheses above are met by concrete, non-trivial cases -/

/-- The polynomial `1 + 2X + 3X²` of the repository's own test with secret `2`. -/
example : ∃ c o, commit (Srs.newFromSecret (trivialGroups ℚ) 2 10) ([1, 2, 3] : DP ℚ) = some c ∧ c = 17 ∧
    openAt (Srs.newFromSecret (trivialGroups ℚ) 2 10) ([1, 2, 3] : DP ℚ) 1 = some o ∧ o.eval = 6 ∧
    verify (trivialGroups ℚ) (Srs.newFromSecret (trivialGroups ℚ) 2 10) c o 1 = true := by
  have c1 : Canon ([1, 2, 3] : DP ℚ) := by simp [Canon]
  have hd : (toPoly ([1, 2, 3] : DP ℚ)).natDegree < 10 + 3 := by
    have := degree_toPoly_lt ([1, 2, 3] : DP ℚ)
    exact (natDegree_lt_iff_degree_lt (fun h => by
      have := (toPoly_eq_zero_iff _).1 h 1 (by simp); norm_num at this)).2
        (this.trans_le (by exact_mod_cast (by simp)))
  have hc := (C02_commit (trivialGroups ℚ) 2 10 c1).1 hd
  obtain ⟨o, h1, h2, h3⟩ := C04_open_verifies (trivialGroups ℚ) 2 10 c1 (fun h => by
      have := (toPoly_eq_zero_iff _).1 h 1 (by simp); norm_num at this) hc 1
  have hg : (trivialGroups ℚ).g1 = 1 := rfl
  refine ⟨_, o, hc, ?_, h1, ?_, h3⟩
  · rw [hg, ← eval_eq]; norm_num [Ark.eval]
  · rw [h2, ← eval_eq]; norm_num [Ark.eval]

/-- Hypotheses of `C06_binding`: two different accepted values for one commitment exist (anyone who
knows the secret can make them). -/
example : verify (trivialGroups ℚ) (Srs.newFromSecret (trivialGroups ℚ) 2 3) 5 ⟨4, 1⟩ 1 = true ∧
    verify (trivialGroups ℚ) (Srs.newFromSecret (trivialGroups ℚ) 2 3) 5 ⟨3, 2⟩ 1 = true := by
  have hg : (trivialGroups ℚ).g1 = 1 := rfl
  constructor <;> rw [verify_iff, hg] <;> norm_num

/-- Hypotheses of `C10_batch_sound`: a batch with one invalid opening that is accepted for one
particular coefficient (here `r_0 = 1`, `r_1 = 1`, errors cancelling). -/
example : verify (trivialGroups ℚ) (Srs.newFromSecret (trivialGroups ℚ) 2 3) 1 ⟨0, 0⟩ 1 = false ∧
    batchVerify (trivialGroups ℚ) (Srs.newFromSecret (trivialGroups ℚ) 2 3) [1, -1] [1, 1]
      [⟨0, 0⟩, ⟨0, 0⟩] (fun _ => 1) = some true := by
  have hg : (trivialGroups ℚ).g1 = 1 := rfl
  constructor
  · rw [← Bool.not_eq_true, verify_iff, hg]; norm_num
  · rw [batchVerify_iff _ _ _ [1, -1] [1, 1] _ _ rfl rfl]
    simp [Fin.sum_univ_succ, hg]

end Verif.Kzg

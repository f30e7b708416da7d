import Verif.Kzg.Unique
import Verif.Kzg.AlgSoundness

/-!
# C99, C100 (KZG): openings and setups

C99: an opening accepted under one setup is rejected under every other, unless its witness is the neutral element.
C100: the secret of the setup is a trapdoor: with it, every commitment opens to every value.
-/

set_option linter.unusedSectionVars false

namespace Verif.Kzg

open Verif.Ark Polynomial

variable {F G1 G2 GT : Type} [Field F] [DecidableEq F] [AddCommGroup G1] [Module F G1]
  [AddCommGroup G2] [Module F G2] [AddCommGroup GT] [Module F GT] [DecidableEq GT]

theorem smul_eq_zero_left {a : F} {x : G1} (h : a • x = 0) (ha : a ≠ 0) : x = 0 :=
  smul_left_cancel ha (by rw [h, smul_zero])

/-- **C99** (KZG): an opening accepted under the setup with secret `s` is accepted under the setup with secret `s'`
(of any size) exactly if the secrets agree or the witness is the neutral element. -/
theorem C99_kzg_one_setup (P : PairingGroups F G1 G2 GT) (s s' : F) (n n' : ℕ) (c : G1) (o : Opening F G1) (z : F)
    (h : verify P (Srs.newFromSecret P s n) c o z = true) :
    verify P (Srs.newFromSecret P s' n') c o z = true ↔ s' = s ∨ o.witness = 0 := by
  obtain ⟨W, y⟩ := o
  rw [C05_verify_iff] at h ⊢
  constructor
  · intro h'
    by_cases hs : s' = s
    · exact Or.inl hs
    · right
      refine smul_eq_zero_left (a := s' - s) ?_ (sub_ne_zero.2 hs)
      have : (s' - s) • W = (s' - z) • W - (s - z) • W := by rw [← sub_smul]; congr 1; ring
      rw [this, h', h, sub_self]
  · rintro (rfl | hW)
    · exact h
    · dsimp only at hW
      subst hW
      rw [smul_zero] at h ⊢
      exact h

/-- **C99** (KZG, honest openings): what `commit` and `open` return under the secret `s` is accepted under the secret
`s'` exactly if `s' = s` or the polynomial takes the opened value at `s` as well (`z` itself not being the secret). -/
theorem C99_kzg_honest (P : PairingGroups F G1 G2 GT) (s s' : F) (n n' : ℕ) {p : DP F} (hp : Canon p)
    {c : G1} (hc : commit (Srs.newFromSecret P s n) p = some c) {z : F} (hz : z ≠ s)
    {o : Opening F G1} (ho : openAt (Srs.newFromSecret P s n) p z = some o) :
    verify P (Srs.newFromSecret P s' n') c o z = true ↔
      s' = s ∨ (toPoly p).eval s = (toPoly p).eval z := by
  have hne : toPoly p ≠ 0 := by
    intro h
    rw [(C04_open_panics_iff P s n hp z).2 (Or.inl h)] at ho; cases ho
  obtain ⟨o', ho', hev, hver⟩ := C04_open_verifies P s n hp hne hc z
  rw [ho] at ho'; cases ho'
  rw [C99_kzg_one_setup P s s' n n' c o z hver]
  have hcv : c = (toPoly p).eval s • P.g1 := by
    obtain ⟨h1, h2⟩ := C02_commit P s n hp
    rcases Nat.lt_or_ge (toPoly p).natDegree (n + 3) with hd | hd
    · rw [h1 hd] at hc; exact (Option.some.inj hc).symm
    · rw [h2 hd] at hc; cases hc
  obtain ⟨W, y⟩ := o
  dsimp only at hev ⊢
  subst hev
  rw [C05_verify_iff, hcv, ← sub_smul] at hver
  have hsz : s - z ≠ 0 := sub_ne_zero.2 (Ne.symm hz)
  refine or_congr_right ⟨fun hW => ?_, fun he => ?_⟩
  · rw [hW, smul_zero] at hver
    have := P.smul_g1_inj (a := (toPoly p).eval s - (toPoly p).eval z) (b := 0) (by rw [zero_smul]; exact hver.symm)
    exact sub_eq_zero.1 this
  · rw [he, sub_self, zero_smul] at hver
    exact smul_eq_zero_left hver hsz

/-- **C99** (KZG, counting): for a non-constant polynomial and every point, at most `deg p + 1` secrets exist under
which the honest opening is accepted by some other setup. -/
theorem C99_kzg_few_secrets (P : PairingGroups F G1 G2 GT) (n : ℕ) {p : DP F} (hp : Canon p)
    (hd : 0 < (toPoly p).natDegree) (z : F) :
    FewSecrets ((toPoly p).natDegree + 1) fun s : F => ∃ (s' : F) (n' : ℕ) (c : G1) (o : Opening F G1), s' ≠ s ∧
      commit (Srs.newFromSecret P s n) p = some c ∧ openAt (Srs.newFromSecret P s n) p z = some o ∧
      verify P (Srs.newFromSecret P s' n') c o z = true := by
  classical
  have h0 : toPoly p - C ((toPoly p).eval z) ≠ 0 := by
    intro h
    have : (toPoly p).natDegree = 0 := by rw [sub_eq_zero.1 h, natDegree_C]
    omega
  have hdeg : (toPoly p - C ((toPoly p).eval z)).natDegree ≤ (toPoly p).natDegree := natDegree_sub_C.le
  refine ⟨insert z (toPoly p - C ((toPoly p).eval z)).roots.toFinset, ?_, ?_⟩
  · refine (Finset.card_insert_le _ _).trans (Nat.succ_le_succ ?_)
    exact (Multiset.toFinset_card_le _).trans ((card_roots' _).trans hdeg)
  · rintro s ⟨s', n', c, o, hs, hc, ho, hv⟩
    rw [Finset.mem_insert, Multiset.mem_toFinset, mem_roots h0]
    by_cases hz : z = s
    · exact Or.inl hz.symm
    · right
      rcases (C99_kzg_honest P s s' n n' hp hc hz ho).1 hv with h | h
      · exact absurd h hs
      · show eval s _ = 0
        rw [eval_sub, eval_C, h, sub_self]

/-- **C99** (KZG, batches): a batch accepted under the secret `s` is accepted under `s'` with the same coefficients
exactly if the secrets agree or the combination of the witnesses is the neutral element. -/
theorem C99_kzg_batch (P : PairingGroups F G1 G2 GT) (s s' : F) (n n' : ℕ) (cs : List G1) (zs : List F)
    (os : List (Opening F G1)) (rng : ℕ → ℕ)
    (h : batchVerify P (Srs.newFromSecret P s n) cs zs os rng = some true) :
    batchVerify P (Srs.newFromSecret P s' n') cs zs os rng = some true ↔
      s' = s ∨ ((os.zipIdx.map fun o => (rng o.2 : F) • o.1.witness).sum = 0) := by
  have hl : cs.length = zs.length ∧ os.length = zs.length := by
    by_contra hl
    rw [(C09_batch_lengths P _ cs zs os rng).2 hl] at h; cases h
  obtain ⟨h1, h2⟩ := hl
  have hsum : (os.zipIdx.map fun o => (rng o.2 : F) • o.1.witness).sum =
      ∑ k : Fin zs.length, (rng k : F) • os[k].witness := by
    rw [← Fin.sum_univ_getElem]
    have hlen : (os.zipIdx.map fun o => (rng o.2 : F) • o.1.witness).length = zs.length := by simp [h2]
    refine Fintype.sum_equiv (finCongr hlen) _ _ fun k => ?_
    simp
  rw [batchVerify_iff P s n cs zs os rng h1 h2] at h
  rw [batchVerify_iff P s' n' cs zs os rng h1 h2, hsum]
  have key : ∑ k : Fin zs.length, (rng k : F) • (cs[k] - os[k].eval • P.g1 - (s' - zs[k]) • os[k].witness) =
      (s - s') • ∑ k : Fin zs.length, (rng k : F) • os[k].witness := by
    rw [← sub_zero (∑ k : Fin zs.length, (rng k : F) • (cs[k] - os[k].eval • P.g1 - (s' - zs[k]) • os[k].witness)),
      ← h, ← Finset.sum_sub_distrib, Finset.smul_sum]
    refine Finset.sum_congr rfl fun k _ => ?_
    rw [← smul_sub, smul_comm (s - s')]
    congr 1
    have : (s - s') • os[k].witness = (s - zs[k]) • os[k].witness - (s' - zs[k]) • os[k].witness := by
      rw [← sub_smul]; congr 1; ring
    rw [this]; abel
  rw [key]
  constructor
  · intro h'
    by_cases hs : s' = s
    · exact Or.inl hs
    · exact Or.inr (smul_eq_zero_left h' (sub_ne_zero.2 (Ne.symm hs)))
  · rintro (rfl | h')
    · rw [sub_self, zero_smul]
    · rw [h', smul_zero]

/-- The hypotheses of C99 are met: `p = 1 + 2X` opened at 3 under the secret 5 is accepted under 5 and under no other
secret. -/
example : ∃ c o, commit (Srs.newFromSecret (trivialGroups ℚ) 5 2) ([1, 2] : DP ℚ) = some c ∧
    openAt (Srs.newFromSecret (trivialGroups ℚ) 5 2) ([1, 2] : DP ℚ) 3 = some o ∧
    ∀ s' n', verify (trivialGroups ℚ) (Srs.newFromSecret (trivialGroups ℚ) s' n') c o 3 = true ↔ s' = 5 := by
  have hp : Canon ([1, 2] : DP ℚ) := by simp [Canon]
  have hc : commit (Srs.newFromSecret (trivialGroups ℚ) 5 2) ([1, 2] : DP ℚ) = some 11 := by decide +kernel
  obtain ⟨o, ho⟩ : ∃ o, openAt (Srs.newFromSecret (trivialGroups ℚ) 5 2) ([1, 2] : DP ℚ) 3 = some o :=
    Option.isSome_iff_exists.1 (by decide +kernel)
  refine ⟨_, _, hc, ho, fun s' n' => ?_⟩
  rw [C99_kzg_honest (trivialGroups ℚ) 5 s' 2 n' hp hc (by norm_num) ho]
  refine or_iff_left ?_
  rw [← Ark.eval_eq, ← Ark.eval_eq]
  norm_num [Ark.eval]

/-- **C100** (KZG): whoever knows the secret can open every group element (commitment or not) to every value at every
point other than the secret, without knowing any polynomial. -/
theorem C100_kzg (P : PairingGroups F G1 G2 GT) (s : F) (n : ℕ) (c : G1) (y z : F) (hz : z ≠ s) :
    verify P (Srs.newFromSecret P s n) c ⟨(s - z)⁻¹ • (c - y • P.g1), y⟩ z = true := by
  rw [C05_verify_iff, smul_smul, mul_inv_cancel₀ (sub_ne_zero.2 (Ne.symm hz)), one_smul]

/-- **C100** (KZG, indistinguishable): made for the true value, the forged opening is the one `open` returns. -/
theorem C100_kzg_same (P : PairingGroups F G1 G2 GT) (s : F) (n : ℕ) {p : DP F} (hp : Canon p) {c : G1}
    (hc : commit (Srs.newFromSecret P s n) p = some c) {z : F} (hz : z ≠ s) {o : Opening F G1}
    (ho : openAt (Srs.newFromSecret P s n) p z = some o) :
    o = ⟨(s - z)⁻¹ • (c - (toPoly p).eval z • P.g1), (toPoly p).eval z⟩ :=
  (C86_kzg_honest P s n hp hc hz ho (C100_kzg P s n c _ z hz) rfl).symm

/-- A false claim accepted: `1 + 2X` committed under the secret 5 and opened to 100 at 3. -/
example : ∃ c, commit (Srs.newFromSecret (trivialGroups ℚ) 5 2) ([1, 2] : DP ℚ) = some c ∧
    verify (trivialGroups ℚ) (Srs.newFromSecret (trivialGroups ℚ) 5 2) c ⟨((5 : ℚ) - 3)⁻¹ • (c - (100 : ℚ) • (1 : ℚ)), 100⟩ 3 =
      true := ⟨11, by decide +kernel, by decide +kernel⟩

end Verif.Kzg

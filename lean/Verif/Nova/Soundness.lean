import Verif.Nova.Circuit
import Verif.Kzg.AlgSoundness

/-!
# C81: folding followed by a satisfaction check is sound against algebraic provers; C70 (what holds), C80 (Nova)

`NIFS::verify` and `IVC::verify` do not check that anything is satisfied (C34, C70).  A user who folds any number of
instances and in the end calls `is_r1cs_satisfied` on the accumulator does get soundness; this file proves it for
algebraic provers.
-/

set_option linter.unusedSectionVars false
set_option linter.unusedVariables false

namespace Verif.Nova

open Verif.Ark Verif.Kzg Polynomial

variable {F G1 G2 GT B : Type} [Field F] [DecidableEq F] [AddCommGroup G1] [Module F G1] [DecidableEq G1]
  [AddCommGroup G2] [Module F G2] [AddCommGroup GT] [Module F GT] [DecidableEq GT]
  [Field B] [DecidableEq B]

/-! ## Specification -/

/-- All but at most `k` field elements have the property. -/
def AllBut {F : Type} (k : ℕ) (P : F → Prop) : Prop := ∃ S : Finset F, S.card ≤ k ∧ ∀ x, x ∉ S → P x

/-- What an algebraic prover knows about an instance: the coefficients, with respect to the `N` points of the SRS, of
the two commitments, and the public part. -/
structure Claim (F : Type) (N : ℕ) where
  /-- coefficients of the commitment to the witness -/
  w : Fin N → F
  /-- coefficients of the commitment to the error vector -/
  e : Fin N → F
  /-- public input -/
  x : List F
  /-- `u` -/
  u : F

/-- The combination of the points of the SRS with the given coefficients. -/
def comb {N : ℕ} (srs : Srs G1 G2) (v : Fin N → F) : G1 := ∑ i, v i • srs.g1Points.getD i 0

/-- The instance the prover sends. -/
def Claim.inst {N : ℕ} (srs : Srs G1 G2) (c : Claim F N) : FInstance F G1 where
  comE := comb srs c.e
  u := c.u
  comW := comb srs c.w
  x := c.x

/-- The first `m` coefficients, continued by zeros. -/
def vecOf {N : ℕ} (m : ℕ) (v : Fin N → F) : List F :=
  (List.range m).map fun i => if h : i < N then v ⟨i, h⟩ else 0

/-- The committed vectors satisfy the relaxed R1CS relation: coefficients beyond the number of variables and of rows
vanish, and the others satisfy every row. -/
def Claim.Holds {N : ℕ} (r1cs : R1CS F) (c : Claim F N) : Prop :=
  (∀ i : Fin N, r1cs.numVars ≤ i → c.w i = 0) ∧ (∀ i : Fin N, r1cs.matrixA.length ≤ i → c.e i = 0) ∧
    RelaxedSat r1cs (vecOf r1cs.numVars c.w ++ c.x ++ [c.u]) (vecOf r1cs.matrixA.length c.e) c.u

/-- The prover loses the game with `k` more foldings, the accumulator being `U` (as a function of the secret of the
SRS): without foldings left, no witness passes `is_r1cs_satisfied` except for few secrets; with foldings
left, whatever instance and cross term the prover sends next, for all but two challenges it loses after
`NIFS::verifier` has folded them into the accumulator. -/
def Loses (P : PairingGroups F G1 G2 GT) (n : ℕ) (r1cs : R1CS F) : ℕ → (F → FInstance F G1) → Prop
  | 0, U => ∀ fw : FWitness F,
      FewSecrets (n + 2) fun s => isR1csSatisfied r1cs (U s) fw (Srs.newFromSecret P s n) = some (.ok ())
  | k + 1, U => ∀ (c : Claim F (n + 3)) (t : Fin (n + 3) → F), c.x.length = r1cs.numIo →
      AllBut 2 fun r => Loses P n r1cs k fun s =>
        nifsVerifier r (c.inst (Srs.newFromSecret P s n)) (U s) (comb (Srs.newFromSecret P s n) t)

/-! ## Proofs -/

theorem getD_vecOf {N : ℕ} (m : ℕ) (v : Fin N → F) (i : ℕ) :
    (vecOf m v).getD i 0 = if h : i < m ∧ i < N then v ⟨i, h.2⟩ else 0 := by
  by_cases hm : i < m
  · rw [getD_lt (by simpa [vecOf] using hm)]
    simp [vecOf, hm]
  · rw [getD_eq_of_le (by simpa [vecOf] using hm)]
    simp [hm]

theorem length_vecOf {N : ℕ} (m : ℕ) (v : Fin N → F) : (vecOf m v).length = m := by simp [vecOf]

/-- The claim about a folded instance. -/
def Claim.fold {N : ℕ} (r : F) (c a : Claim F N) (t : Fin N → F) : Claim F N where
  w := fun i => c.w i + a.w i * r
  e := fun i => c.e i + r * t i + r * r * a.e i
  x := (c.x.zip a.x).map fun p => p.1 + p.2 * r
  u := c.u + a.u * r

theorem inst_fold {N : ℕ} (srs : Srs G1 G2) (r : F) (c a : Claim F N) (t : Fin N → F) :
    (Claim.fold r c a t).inst srs = nifsVerifier r (c.inst srs) (a.inst srs) (comb srs t) := by
  have h1 : comb srs (Claim.fold r c a t).w = comb srs c.w + r • comb srs a.w := by
    simp only [comb, Claim.fold, add_smul, Finset.sum_add_distrib, Finset.smul_sum, smul_smul]
    congr 1
    exact Finset.sum_congr rfl fun i _ => by rw [mul_comm]
  have h2 : comb srs (Claim.fold r c a t).e = comb srs c.e + r • comb srs t + (r * r) • comb srs a.e := by
    simp only [comb, Claim.fold, add_smul, Finset.sum_add_distrib, Finset.smul_sum, smul_smul]
  simp only [Claim.inst, nifsVerifier, foldInstance, h1, h2]
  rfl

theorem foldWitness_vecOf {N : ℕ} (r : F) (m l : ℕ) (c a : Claim F N) (t : Fin N → F) :
    foldWitness r ⟨vecOf l c.e, vecOf m c.w⟩ ⟨vecOf l a.e, vecOf m a.w⟩ (vecOf l t) =
      ⟨vecOf l (Claim.fold r c a t).e, vecOf m (Claim.fold r c a t).w⟩ := by
  simp only [foldWitness, FWitness.mk.injEq]
  constructor
  · simp only [vecOf, List.zip_map', List.map_map]
    apply List.map_congr_left
    intro i _
    simp only [Function.comp, Claim.fold]
    split <;> simp
  · simp only [vecOf, List.zip_map', List.map_map]
    apply List.map_congr_left
    intro i _
    simp only [Function.comp, Claim.fold]
    split <;> simp

/-- If the folded claim holds for three challenges, both claims hold. -/
theorem holds_of_three {N : ℕ} (r1cs : R1CS F) (c a : Claim F N) (t : Fin N → F) (hc : c.x.length = r1cs.numIo)
    (ha : a.x.length = r1cs.numIo) (r1 r2 r3 : F) (h12 : r1 ≠ r2) (h13 : r1 ≠ r3) (h23 : r2 ≠ r3)
    (h : ∀ r ∈ [r1, r2, r3], (Claim.fold r c a t).Holds r1cs) : c.Holds r1cs ∧ a.Holds r1cs := by
  have lin : ∀ p q : F, p + q * r1 = 0 → p + q * r2 = 0 → p = 0 ∧ q = 0 := by
    intro p q e1 e2
    have hq : q = 0 := by
      have : q * (r1 - r2) = 0 := by linear_combination e1 - e2
      exact (mul_eq_zero.1 this).resolve_right (sub_ne_zero.2 h12)
    subst hq
    exact ⟨by linear_combination e1, rfl⟩
  have quad : ∀ p q s : F, p + r1 * q + r1 * r1 * s = 0 → p + r2 * q + r2 * r2 * s = 0 →
      p + r3 * q + r3 * r3 * s = 0 → p = 0 ∧ s = 0 := by
    intro p q s e1 e2 e3
    have d12 : q + (r1 + r2) * s = 0 := by
      have : (r1 - r2) * (q + (r1 + r2) * s) = 0 := by linear_combination e1 - e2
      exact (mul_eq_zero.1 this).resolve_left (sub_ne_zero.2 h12)
    have d13 : q + (r1 + r3) * s = 0 := by
      have : (r1 - r3) * (q + (r1 + r3) * s) = 0 := by linear_combination e1 - e3
      exact (mul_eq_zero.1 this).resolve_left (sub_ne_zero.2 h13)
    have hs : s = 0 := by
      have : (r2 - r3) * s = 0 := by linear_combination d12 - d13
      exact (mul_eq_zero.1 this).resolve_left (sub_ne_zero.2 h23)
    have hq : q = 0 := by linear_combination d12 - (r1 + r2) * hs
    exact ⟨by linear_combination e1 - r1 * hq - r1 * r1 * hs, hs⟩
  obtain ⟨w1, e1, -⟩ := h r1 (by simp)
  obtain ⟨w2, e2, -⟩ := h r2 (by simp)
  obtain ⟨w3, e3, -⟩ := h r3 (by simp)
  have hl := length_vecOf (F := F) (N := N)
  obtain ⟨g1, g2, -⟩ := C30_three_special_sound (G1 := F) r1cs ⟨vecOf r1cs.matrixA.length c.e, vecOf r1cs.numVars c.w⟩
    ⟨vecOf r1cs.matrixA.length a.e, vecOf r1cs.numVars a.w⟩ ⟨0, c.u, 0, c.x⟩ ⟨0, a.u, 0, a.x⟩
    (vecOf r1cs.matrixA.length t) 0 r1 r2 r3 h12 h13 h23 (by simp [hl]) (by simp [hc, ha]) (by simp [hl])
    (by simp [hl]) (by
      intro r hr
      rw [foldWitness_vecOf]
      exact (h r hr).2.2)
  refine ⟨⟨fun i hi => (lin _ _ (w1 i hi) (w2 i hi)).1, fun i hi => (quad _ _ _ (e1 i hi) (e2 i hi) (e3 i hi)).1, g1⟩,
    ⟨fun i hi => (lin _ _ (w1 i hi) (w2 i hi)).2, fun i hi => (quad _ _ _ (e1 i hi) (e2 i hi) (e3 i hi)).2, g2⟩⟩

theorem three_of_not_allBut {P : F → Prop} (h : ¬ AllBut 2 P) :
    ∃ r1 r2 r3 : F, r1 ≠ r2 ∧ r1 ≠ r3 ∧ r2 ≠ r3 ∧ ¬ P r1 ∧ ¬ P r2 ∧ ¬ P r3 := by
  classical
  have ex : ∀ S : Finset F, S.card ≤ 2 → ∃ r, r ∉ S ∧ ¬ P r := by
    intro S hS
    by_contra hn
    push Not at hn
    exact h ⟨S, hS, hn⟩
  obtain ⟨r1, -, h1⟩ := ex ∅ (by simp)
  obtain ⟨r2, m2, h2⟩ := ex {r1} (by simp)
  obtain ⟨r3, m3, h3⟩ := ex {r1, r2} Finset.card_le_two
  simp only [Finset.mem_singleton, Finset.mem_insert, not_or] at m2 m3
  exact ⟨r1, r2, r3, fun e => m2 e.symm, fun e => m3.1 e.symm, fun e => m3.2 e.symm, h1, h2, h3⟩

theorem fold_not_holds {N : ℕ} (r1cs : R1CS F) (c a : Claim F N) (t : Fin N → F) (hc : c.x.length = r1cs.numIo)
    (ha : a.x.length = r1cs.numIo) (hbad : ¬ c.Holds r1cs ∨ ¬ a.Holds r1cs) :
    AllBut 2 fun r => ¬ (Claim.fold r c a t).Holds r1cs := by
  by_contra hn
  obtain ⟨r1, r2, r3, h12, h13, h23, k1, k2, k3⟩ := three_of_not_allBut hn
  rw [not_not] at k1 k2 k3
  obtain ⟨g1, g2⟩ := holds_of_three r1cs c a t hc ha r1 r2 r3 h12 h13 h23 (by
    intro r hr
    simp only [List.mem_cons, List.not_mem_nil, or_false] at hr
    rcases hr with rfl | rfl | rfl <;> assumption)
  rcases hbad with h | h
  · exact h g1
  · exact h g2

/-- Two vectors with the same commitment are equal except for few secrets. -/
theorem commitsTo_few (P : PairingGroups F G1 G2 GT) (n : ℕ) (v : Fin (n + 3) → F) (l : List F)
    (hne : ∃ i : Fin (n + 3), l.getD i 0 ≠ v i) :
    FewSecrets (n + 2) fun s => CommitsTo (Srs.newFromSecret P s n) l (comb (Srs.newFromSecret P s n) v) := by
  let Q : F[X] := ∑ i : Fin (n + 3), C (v i - l.getD i 0) * X ^ (i : ℕ)
  have hcoeff : ∀ j : Fin (n + 3), Q.coeff j = v j - l.getD j 0 := by
    intro j
    simp only [Q, finsetSum_coeff, coeff_C_mul, coeff_X_pow]
    rw [Finset.sum_eq_single j]
    · simp
    · intro b _ hb
      rw [if_neg (fun e => hb (Fin.ext e.symm)), mul_zero]
    · simp
  refine fewSecrets_of_poly Q ?_ ?_ ?_
  · obtain ⟨i, hi⟩ := hne
    intro h0
    have := hcoeff i
    rw [h0, coeff_zero] at this
    exact hi (sub_eq_zero.1 this.symm).symm
  · refine natDegree_sum_le_of_forall_le _ _ fun i _ => ?_
    exact (natDegree_C_mul_X_pow_le _ _).trans (by omega)
  · rintro s ⟨-, -, hs⟩
    obtain ⟨hlen, hpt, -, -⟩ := C01_srs_powers P s n
    have hg : ∀ i : ℕ, i < n + 3 → (Srs.newFromSecret P s n).g1Points.getD i 0 = s ^ i • P.g1 := by
      intro i hi
      rw [List.getD_eq_getElem?_getD, hpt i hi]; rfl
    rw [hlen, Finset.sum_range] at hs
    unfold comb at hs
    rw [← sub_eq_zero, ← Finset.sum_sub_distrib] at hs
    have h2 : (Q.eval s) • P.g1 = 0 := by
      rw [← hs]
      simp only [Q, eval_finsetSum, eval_mul, eval_C, eval_pow, eval_X, Finset.sum_smul]
      refine Finset.sum_congr rfl fun i _ => ?_
      rw [hg i i.2, smul_smul, smul_smul, ← sub_smul, sub_mul]
    exact P.smul_g1_inj (by rw [h2, zero_smul])

theorem fewSecrets_mono {k : ℕ} {E E' : F → Prop} (h : ∀ s, E s → E' s) (hE : FewSecrets k E') : FewSecrets k E := by
  obtain ⟨S, hS, hs⟩ := hE
  exact ⟨S, hS, fun s e => hs s (h s e)⟩

theorem fewSecrets_false {k : ℕ} {E : F → Prop} (h : ∀ s, ¬ E s) : FewSecrets k E :=
  ⟨∅, by simp, fun s e => absurd e (h s)⟩

theorem loses_zero (P : PairingGroups F G1 G2 GT) (n : ℕ) (r1cs : R1CS F) (c : Claim F (n + 3))
    (hbad : ¬ c.Holds r1cs) : Loses P n r1cs 0 fun s => c.inst (Srs.newFromSecret P s n) := by
  intro fw
  by_cases hw : ∃ i : Fin (n + 3), fw.w.getD i 0 ≠ c.w i
  · refine fewSecrets_mono (fun s hs => ?_) (commitsTo_few P n c.w fw.w hw)
    exact ((C27_satisfied_iff _ _ _ _).1 hs).2.2.2.1
  by_cases he : ∃ i : Fin (n + 3), fw.e.getD i 0 ≠ c.e i
  · refine fewSecrets_mono (fun s hs => ?_) (commitsTo_few P n c.e fw.e he)
    exact ((C27_satisfied_iff _ _ _ _).1 hs).2.2.2.2
  push Not at hw he
  refine fewSecrets_false fun s hs => hbad ?_
  obtain ⟨h1, h2, h3, h4, h5⟩ := (C27_satisfied_iff _ _ _ _).1 hs
  obtain ⟨hlen, -, -, -⟩ := C01_srs_powers P s n
  have hel : fw.e.length = r1cs.matrixA.length := h3.lenA.symm
  have ew : vecOf r1cs.numVars c.w = fw.w := by
    apply ext_getD (d := 0) (by rw [length_vecOf, h1])
    intro i hi
    rw [length_vecOf] at hi
    rw [getD_vecOf]
    by_cases hN : i < n + 3
    · rw [dif_pos ⟨hi, hN⟩, ← hw ⟨i, hN⟩]
    · rw [dif_neg (by omega), h4.2.1 i (by rw [hlen]; omega)]
  have ee : vecOf r1cs.matrixA.length c.e = fw.e := by
    apply ext_getD (d := 0) (by rw [length_vecOf, hel])
    intro i hi
    rw [length_vecOf] at hi
    rw [getD_vecOf]
    by_cases hN : i < n + 3
    · rw [dif_pos ⟨hi, hN⟩, ← he ⟨i, hN⟩]
    · rw [dif_neg (by omega), h5.2.1 i (by rw [hlen]; omega)]
  refine ⟨fun i hi => ?_, fun i hi => ?_, ?_⟩
  · rw [← hw i, getD_eq_of_le (by omega)]
  · rw [← he i, getD_eq_of_le (by omega)]
  · rw [ew, ee]
    exact h3

theorem loses_of_not_holds (P : PairingGroups F G1 G2 GT) (n : ℕ) (r1cs : R1CS F) (k : ℕ) (a : Claim F (n + 3))
    (ha : a.x.length = r1cs.numIo) (hbad : ¬ a.Holds r1cs) :
    Loses P n r1cs k fun s => a.inst (Srs.newFromSecret P s n) := by
  induction k generalizing a with
  | zero => exact loses_zero P n r1cs a hbad
  | succ k ih =>
    intro c t hc
    obtain ⟨S, hS, h⟩ := fold_not_holds r1cs c a t hc ha (.inr hbad)
    refine ⟨S, hS, fun r hr => ?_⟩
    have := ih (Claim.fold r c a t) (by simp [Claim.fold, hc, ha]) (h r hr)
    simpa only [inst_fold] using this

/-! ## The property -/

/-- **C81**: if the accumulator or the instance folded into it does not hold, then, whatever cross term the prover
commits to, for all but two challenges it loses: however many further instances are folded, all challenges but two in
each folding leave an accumulator for which no witness passes `is_r1cs_satisfied`, except for few secrets. -/
theorem C81_folding_sound (P : PairingGroups F G1 G2 GT) (n : ℕ) (r1cs : R1CS F) (k : ℕ) (c a : Claim F (n + 3))
    (t : Fin (n + 3) → F) (hc : c.x.length = r1cs.numIo) (ha : a.x.length = r1cs.numIo)
    (hbad : ¬ c.Holds r1cs ∨ ¬ a.Holds r1cs) :
    AllBut 2 fun r => Loses P n r1cs k fun s =>
      nifsVerifier r (c.inst (Srs.newFromSecret P s n)) (a.inst (Srs.newFromSecret P s n))
        (comb (Srs.newFromSecret P s n) t) := by
  obtain ⟨S, hS, h⟩ := fold_not_holds r1cs c a t hc ha hbad
  refine ⟨S, hS, fun r hr => ?_⟩
  have := loses_of_not_holds P n r1cs k (Claim.fold r c a t) (by simp [Claim.fold, hc, ha]) (h r hr)
  simpa only [inst_fold] using this

/-- **C81** (converse): `Loses` asks for something only of claims that do not hold: the vectors of a claim that holds
pass `is_r1cs_satisfied` for every secret. -/
theorem C81_holds_accepted (P : PairingGroups F G1 G2 GT) (n : ℕ) (r1cs : R1CS F) (c : Claim F (n + 3))
    (hc : c.x.length = r1cs.numIo) (h : c.Holds r1cs) (s : F) :
    isR1csSatisfied r1cs (c.inst (Srs.newFromSecret P s n))
      ⟨vecOf r1cs.matrixA.length c.e, vecOf r1cs.numVars c.w⟩ (Srs.newFromSecret P s n) = some (.ok ()) := by
  obtain ⟨h1, h2, h3⟩ := h
  obtain ⟨hlen, -, -, -⟩ := C01_srs_powers P s n
  have key : ∀ (m : ℕ) (v : Fin (n + 3) → F), (∀ i : Fin (n + 3), m ≤ i → v i = 0) →
      CommitsTo (Srs.newFromSecret P s n) (vecOf m v) (comb (Srs.newFromSecret P s n) v) := by
    intro m v hv
    refine ⟨by omega, fun i hi => ?_, ?_⟩
    · rw [getD_vecOf, dif_neg (by omega)]
    · rw [hlen, Finset.sum_range]
      refine Finset.sum_congr rfl fun i _ => ?_
      rw [getD_vecOf]
      by_cases hm : (i : ℕ) < m
      · rw [dif_pos ⟨hm, i.2⟩]
      · rw [dif_neg (by omega), hv i (by omega)]
  rw [C27_satisfied_iff]
  exact ⟨(length_vecOf _ _).symm, hc.symm, h3, key _ _ h1, key _ _ h2⟩

/-- **C70**, what holds: if an instance or the accumulator of an IVC step does not hold, then for all but two values
of the folding challenge recorded in the step's proof, no witness of the folded instance passes
`is_r1cs_satisfied`, except for few secrets — whether or not `IVC::verify` accepts the step.  (Missing, and
false: that `IVC::verify` alone rejects the step.) -/
theorem C70_decider_partial (env : Env F G1 B) (P : PairingGroups F G1 G2 GT) (n : ℕ) (r1cs : R1CS F)
    (c a : Claim F (n + 3)) (t : Fin (n + 3) → F) (hc : c.x.length = r1cs.numIo) (ha : a.x.length = r1cs.numIo)
    (hbad : ¬ c.Holds r1cs ∨ ¬ a.Holds r1cs) :
    AllBut 2 fun r => ∀ fw : FWitness F, FewSecrets (n + 2) fun s =>
      ∃ (zk : ZkIVCProof F G1) (proof : NIFSProof F G1) (comT : G1) (aug : Aug F G1 B) (tr tr' : Transcript),
        zk.ui = c.inst (Srs.newFromSecret P s n) ∧ zk.bigUi = a.inst (Srs.newFromSecret P s n) ∧
        zk.comT = some (comb (Srs.newFromSecret P s n) t) ∧ zk.foldedUProof = some proof ∧ proof.r = r ∧
        aug.i ≠ 0 ∧ ivcVerify env P (Srs.newFromSecret P s n) aug zk tr = some (.ok (), tr') ∧
        zk.comT = some comT ∧
        isR1csSatisfied r1cs (nifsVerifier proof.r zk.ui zk.bigUi comT) fw (Srs.newFromSecret P s n) =
          some (.ok ()) := by
  obtain ⟨S, hS, h⟩ := C81_folding_sound P n r1cs 0 c a t hc ha hbad
  refine ⟨S, hS, fun r hr fw => fewSecrets_mono ?_ (h r hr fw)⟩
  rintro s ⟨zk, proof, comT, aug, tr, tr', e1, e2, e3, -, rfl, -, -, e4, e5⟩
  rw [e3, Option.some.injEq] at e4
  subst e4
  rw [e1, e2] at e5
  exact e5

/-! ## C80 (Nova) -/

/-- **C80** (Nova): `IVC::verify` panics exactly if, after the first step, cross term and folding proof are
present but the instance has no public input. -/
theorem C80_ivc_panics_iff (env : Env F G1 B) (P : PairingGroups F G1 G2 GT) (s : F) (n : ℕ)
    (hdig : ∀ b, 8 ≤ (env.digest b).length) (a : Aug F G1 B) (zk : ZkIVCProof F G1) (tr : Transcript) :
    ivcVerify env P (Srs.newFromSecret P s n) a zk tr = none ↔
      a.i ≠ 0 ∧ zk.comT ≠ none ∧ zk.foldedUProof ≠ none ∧ zk.ui.x = [] := by
  unfold ivcVerify
  by_cases h0 : a.i = 0
  · rw [if_pos h0]
    by_cases hz : a.z0 = a.zi
    · rw [if_pos hz]; simp [h0]
    · rw [if_neg hz]; simp [h0]
  rw [if_neg h0]
  cases hT : zk.comT with
  | none => simp
  | some comT =>
    cases hp : zk.foldedUProof with
    | none => simp
    | some proof =>
      dsimp only
      cases hx : zk.ui.x with
      | nil => simp [h0]
      | cons x0 xs =>
        simp only [List.head?_cons, Option.bind_eq_bind, Option.bind_some]
        have : ∀ o : Option (Except String Unit × Transcript), o ≠ none →
            (o = none ↔ a.i ≠ 0 ∧ some comT ≠ none ∧ some proof ≠ none ∧ x0 :: xs = []) := by
          intro o ho
          simp [ho]
        apply this
        split
        · simp
        split
        · simp
        split
        · simp
        obtain ⟨res, tr', h, -⟩ := C33_verify_iff env P s n hdig proof zk.ui zk.bigUi
          (nifsVerifier proof.r zk.ui zk.bigUi comT) comT tr
        rw [h]
        simp

/-- The hypotheses of C81 are met: `z₀ · 1 = 0` with the claim `z₀ = 1` does not hold, with `z₀ = 0` it does, and
folding the first into the second loses for all but two challenges, whatever is folded afterwards. -/
example (t : Fin 7 → ℚ) (k : ℕ) :
    let c : Claim ℚ 7 := ⟨fun i => if i = 0 then 1 else 0, fun _ => 0, [0], 1⟩
    let a : Claim ℚ 7 := ⟨fun _ => 0, fun _ => 0, [0], 1⟩
    ¬ c.Holds badR1cs ∧ a.Holds badR1cs ∧
      AllBut 2 fun r => Loses (trivialGroups ℚ) 4 badR1cs k fun s =>
        nifsVerifier r (c.inst (Srs.newFromSecret (trivialGroups ℚ) s 4))
          (a.inst (Srs.newFromSecret (trivialGroups ℚ) s 4)) (comb (Srs.newFromSecret (trivialGroups ℚ) s 4) t) := by
  intro c a
  have hc : ¬ c.Holds badR1cs := by
    rintro ⟨-, -, h⟩
    have := h.row 0 (by simp [vecOf, badR1cs])
    simp [badR1cs, vecOf, c, dot, Finset.sum_range_succ] at this
  refine ⟨hc, ⟨fun _ _ => rfl, fun _ _ => rfl, ⟨by simp [badR1cs, vecOf], by simp [badR1cs, vecOf],
    by simp [badR1cs, vecOf], fun i hi => ?_⟩⟩, ?_⟩
  · simp only [vecOf, badR1cs, List.length_map, List.length_range, List.length_cons, List.length_nil] at hi
    obtain rfl : i = 0 := by omega
    simp [badR1cs, vecOf, a, dot, Finset.sum_range_succ]
  · exact C81_folding_sound (trivialGroups ℚ) 4 badR1cs k c a t rfl rfl (.inl hc)

/-- `IVC::verify` does panic on some proofs. -/
example (proof : NIFSProof ℚ ℚ) (a : Aug ℚ ℚ ℚ) (ha : a.i = 1) (tr : Transcript) :
    ivcVerify toyEnv (trivialGroups ℚ) (Srs.newFromSecret (trivialGroups ℚ) 7 4) a
      ⟨⟨0, 1, 0, []⟩, ⟨0, 1, 0, [1]⟩, some 0, some proof⟩ tr = none := by
  rw [C80_ivc_panics_iff toyEnv (trivialGroups ℚ) 7 4 (fun b => by rw [toyEnv_digest]; norm_num)]
  simp [ha]

end Verif.Nova

import Verif.Nova.Soundness

/-!
# Nova: honest folding fails only for few challenges (C84)

`NIFS::prove` panics if one of the two vectors it opens is identically zero (C32).  Here: for two pairs that are
not both degenerate, at most three values of the folding challenge lead to that; for two degenerate pairs, all do.
-/

set_option linter.unusedSectionVars false

namespace Verif.Nova

open Verif.Ark Verif.Kzg

variable {F G1 G2 GT B : Type} [Field F] [DecidableEq F] [AddCommGroup G1] [Module F G1] [DecidableEq G1]
  [AddCommGroup G2] [Module F G2] [AddCommGroup GT] [Module F GT] [DecidableEq GT]
  [Field B] [DecidableEq B]

/-! ## Lemmas -/

theorem allBut_and {F : Type} [DecidableEq F] {a b : ℕ} {P Q : F → Prop} (hP : AllBut a P) (hQ : AllBut b Q) :
    AllBut (a + b) fun x => P x ∧ Q x := by
  obtain ⟨S, hS, h1⟩ := hP
  obtain ⟨T, hT, h2⟩ := hQ
  refine ⟨S ∪ T, (Finset.card_union_le _ _).trans (by omega), fun x hx => ?_⟩
  rw [Finset.mem_union, not_or] at hx
  exact ⟨h1 x hx.1, h2 x hx.2⟩

theorem allBut_mono {F : Type} {a : ℕ} {P Q : F → Prop} (h : ∀ x, P x → Q x) (hP : AllBut a P) :
    AllBut a Q := by
  obtain ⟨S, hS, h1⟩ := hP
  exact ⟨S, hS, fun x hx => h x (h1 x hx)⟩

open Polynomial in
/-- A quadratic that is not zero vanishes at two points at most. -/
theorem quadratic_ne_zero (a b c : F) (h : a ≠ 0 ∨ b ≠ 0 ∨ c ≠ 0) :
    AllBut 2 fun r : F => a + r * b + r * r * c ≠ 0 := by
  set p : F[X] := C a + X * C b + X * X * C c with hp
  have hne : p ≠ 0 := by
    intro h0
    have h' : ∀ k, p.coeff k = 0 := fun k => by rw [h0]; simp
    have e0 := h' 0
    have e1 := h' 1
    have e2 := h' 2
    rw [hp, mul_assoc] at e0 e1 e2
    rw [coeff_add, coeff_add] at e0 e1 e2
    simp [coeff_X, coeff_C] at e0 e1 e2
    rcases h with h | h | h
    · exact h e0
    · exact h e1
    · exact h e2
  refine ⟨p.roots.toFinset, ?_, fun r hr h0 => hr ?_⟩
  · refine (Multiset.toFinset_card_le _).trans ((card_roots' p).trans ?_)
    rw [hp]; compute_degree
  · rw [Multiset.mem_toFinset, mem_roots hne]
    simp only [hp, IsRoot, eval_add, eval_mul, eval_C, eval_X]
    exact h0

theorem exists_getD {v : List F} : (∃ x ∈ v, x ≠ 0) ↔ ∃ i, v.getD i 0 ≠ 0 := by
  constructor
  · rintro ⟨x, hx, h⟩
    obtain ⟨i, hi, rfl⟩ := List.mem_iff_getElem.1 hx
    exact ⟨i, by rw [getD_lt hi]; exact h⟩
  · rintro ⟨i, h⟩
    by_cases hi : i < v.length
    · rw [getD_lt hi] at h; exact ⟨_, List.getElem_mem hi, h⟩
    · rw [getD_eq_of_le (by omega)] at h; exact absurd rfl h

/-! ## C84 -/

/-- **C84** (Nova): two committed pairs of matching shape, satisfying or not, whose witnesses are not both zero and
whose error vectors and cross terms are not all zero.  For all but at most three values of the folding challenge
the whole run succeeds: whatever digest, generator and transcript led to this challenge, `NIFS::prove` returns a
proof on what `NIFS::prover` returned, and the verifier accepts it. -/
theorem C84_nova_honest_proving (P : PairingGroups F G1 G2 GT) (s : F) (n : ℕ) (r1cs : R1CS F)
    (fw1 fw2 : FWitness F) (fi1 fi2 : FInstance F G1)
    (hw : fw1.w.length = fw2.w.length) (he1 : fw1.e.length = r1cs.matrixA.length)
    (he2 : fw2.e.length = r1cs.matrixA.length)
    (hW1 : commitVector (Srs.newFromSecret P s n) fw1.w = some fi1.comW)
    (hW2 : commitVector (Srs.newFromSecret P s n) fw2.w = some fi2.comW)
    (hE1 : commitVector (Srs.newFromSecret P s n) fw1.e = some fi1.comE)
    (hE2 : commitVector (Srs.newFromSecret P s n) fw2.e = some fi2.comE)
    (hnw : ∃ x ∈ fw1.w ++ fw2.w, x ≠ 0)
    (hne : (∃ x ∈ fw1.e ++ fw2.e, x ≠ 0) ∨
      ∃ i < r1cs.matrixA.length, crossTerm r1cs fi1.u fi2.u (zVec fw1 fi1) (zVec fw2 fi2) i ≠ 0) :
    AllBut 3 fun r : F => ∀ (env : Env F G1 B) (tr : Transcript) (fw : FWitness F) (fi : FInstance F G1)
      (comT : G1) (tr1 : Transcript), (∀ b, 8 ≤ (env.digest b).length) →
      nifsProver env r1cs fw1 fw2 fi1 fi2 (Srs.newFromSecret P s n) tr = some ((fw, fi, comT, r), tr1) →
      ∃ proof tr2, nifsProve env r fw fi (Srs.newFromSecret P s n) tr1 = some (proof, tr2) ∧
        nifsVerify env P proof fi1 fi2 (nifsVerifier proof.r fi1 fi2 comT) comT (Srs.newFromSecret P s n) tr =
          some (.ok (), tr2) := by
  have hW : AllBut 1 fun r : F => ∃ i, fw1.w.getD i 0 + r * fw2.w.getD i 0 ≠ 0 := by
    obtain ⟨i, hi⟩ : ∃ i, fw1.w.getD i 0 ≠ 0 ∨ fw2.w.getD i 0 ≠ 0 := by
      obtain ⟨x, hx, h0⟩ := hnw
      rcases List.mem_append.1 hx with h | h
      · obtain ⟨i, hi⟩ := exists_getD.1 ⟨x, h, h0⟩; exact ⟨i, .inl hi⟩
      · obtain ⟨i, hi⟩ := exists_getD.1 ⟨x, h, h0⟩; exact ⟨i, .inr hi⟩
    by_cases h2 : fw2.w.getD i 0 = 0
    · refine ⟨∅, by simp, fun r _ => ⟨i, ?_⟩⟩
      rw [h2, mul_zero, add_zero]
      exact hi.resolve_right (not_not.2 h2)
    · refine ⟨{-(fw1.w.getD i 0) / fw2.w.getD i 0}, by simp, fun r hr => ⟨i, fun h => hr ?_⟩⟩
      rw [Finset.mem_singleton, eq_div_iff h2]
      linear_combination h
  have hE : AllBut 2 fun r : F => ∀ t, computeT r1cs fi1.u fi2.u (zVec fw1 fi1) (zVec fw2 fi2) = some t →
      ∃ i, fw1.e.getD i 0 + r * t.getD i 0 + r * r * fw2.e.getD i 0 ≠ 0 := by
    cases ht : computeT r1cs fi1.u fi2.u (zVec fw1 fi1) (zVec fw2 fi2) with
    | none => exact ⟨∅, by simp, fun r _ t h => by cases h⟩
    | some t =>
      obtain ⟨-, -, htl, htc⟩ := (computeT_iff _ _ _ _ _ _).1 ht
      obtain ⟨i, hi⟩ : ∃ i, fw1.e.getD i 0 ≠ 0 ∨ t.getD i 0 ≠ 0 ∨ fw2.e.getD i 0 ≠ 0 := by
        rcases hne with ⟨x, hx, h0⟩ | ⟨i, hi, h0⟩
        · rcases List.mem_append.1 hx with h | h
          · obtain ⟨i, hi⟩ := exists_getD.1 ⟨x, h, h0⟩; exact ⟨i, .inl hi⟩
          · obtain ⟨i, hi⟩ := exists_getD.1 ⟨x, h, h0⟩; exact ⟨i, .inr (.inr hi)⟩
        · exact ⟨i, .inr (.inl (by rw [htc i hi]; exact h0))⟩
      refine allBut_mono ?_ (quadratic_ne_zero _ _ _ hi)
      rintro r h t' ht'
      obtain rfl := Option.some.inj ht'
      exact ⟨i, h⟩
  refine allBut_mono ?_ (allBut_and hW hE)
  rintro r ⟨hrw, hre⟩ env tr fw fi comT tr1 hdig hp
  have hp' := hp
  simp only [nifsProver, Option.bind_eq_bind, Option.bind_eq_some_iff, pure, Option.some.injEq,
    Prod.mk.injEq] at hp'
  obtain ⟨t, ht, cT, hT, ct, hct, ⟨rfl, rfl, rfl, rfl⟩, rfl⟩ := hp'
  have htl := ((computeT_iff _ _ _ _ _ _).1 ht).2.2.1
  obtain ⟨hcw, hce⟩ := C31_fold_commitments (Srs.newFromSecret P s n) ct.1 fw1 fw2 t fi1 fi2 cT hw
    (by omega) (by omega) hW1 hW2 hE1 hE2 hT
  obtain ⟨proof, tr2, hpr⟩ := (nifsProve_iff env P s n hdig ct.1 _ _ ct.2 hcw hce).2 ⟨by
      obtain ⟨i, hi⟩ := hre t ht
      refine exists_getD.2 ⟨i, ?_⟩
      rw [foldWitness, foldE_getD]
      · exact hi
      · intro i hi
        exact ⟨getD_eq_of_le (by omega), getD_eq_of_le (by omega), getD_eq_of_le (by omega)⟩, by
      obtain ⟨i, hi⟩ := hrw
      refine exists_getD.2 ⟨i, ?_⟩
      rw [foldWitness, foldW_getD]
      · exact hi
      · intro i hi
        exact ⟨getD_eq_of_le (by omega), getD_eq_of_le (by omega)⟩⟩
  exact ⟨proof, tr2, hpr, C32_complete env P s n r1cs fw1 fw2 _ fi1 fi2 _ cT ct.1 proof tr ct.2 tr2 hw he1 he2
    hW1 hW2 hE1 hE2 hp hpr⟩

/-- **C84** (Nova, converse): if both witnesses are zero, or both error vectors and all cross terms are, then
`NIFS::prove` panics on what `NIFS::prover` returned, for every challenge. -/
theorem C84_nova_degenerate_panics (env : Env F G1 B) (srs : Srs G1 G2) (r1cs : R1CS F)
    (fw1 fw2 fw : FWitness F) (fi1 fi2 fi : FInstance F G1) (comT : G1) (r : F) (tr tr1 : Transcript)
    (hdeg : (∀ x ∈ fw1.w ++ fw2.w, x = 0) ∨ ((∀ x ∈ fw1.e ++ fw2.e, x = 0) ∧
      ∀ i < r1cs.matrixA.length, crossTerm r1cs fi1.u fi2.u (zVec fw1 fi1) (zVec fw2 fi2) i = 0))
    (hp : nifsProver env r1cs fw1 fw2 fi1 fi2 srs tr = some ((fw, fi, comT, r), tr1)) :
    nifsProve env r fw fi srs tr1 = none := by
  simp only [nifsProver, Option.bind_eq_bind, Option.bind_eq_some_iff, pure, Option.some.injEq,
    Prod.mk.injEq] at hp
  obtain ⟨t, ht, cT, hT, ct, hct, ⟨rfl, rfl, rfl, rfl⟩, rfl⟩ := hp
  obtain ⟨-, -, htl, htc⟩ := (computeT_iff _ _ _ _ _ _).1 ht
  have hz : (∀ x ∈ (foldWitness ct.1 fw1 fw2 t).w, x = 0) ∨ (∀ x ∈ (foldWitness ct.1 fw1 fw2 t).e, x = 0) := by
    rcases hdeg with h | ⟨h, hT0⟩
    · left
      intro x hx
      simp only [foldWitness, List.mem_map] at hx
      obtain ⟨p, hp, rfl⟩ := hx
      have h1 := h p.1 (List.mem_append_left _ (List.of_mem_zip (a := p.1) (b := p.2) hp).1)
      have h2 := h p.2 (List.mem_append_right _ (List.of_mem_zip (a := p.1) (b := p.2) hp).2)
      rw [h1, h2]; ring
    · right
      intro x hx
      simp only [foldWitness, List.mem_map] at hx
      obtain ⟨p, hp, rfl⟩ := hx
      have hz1 := List.of_mem_zip (a := p.1) (b := p.2) hp
      have hz2 := List.of_mem_zip (a := p.1.1) (b := p.1.2) hz1.1
      have h1 := h p.1.1 (List.mem_append_left _ hz2.1)
      have h2 := h p.2 (List.mem_append_right _ hz1.2)
      have h3 : p.1.2 = 0 := by
        obtain ⟨i, hi, he⟩ := List.mem_iff_getElem.1 hz2.2
        have := htc i (by omega)
        rw [getD_lt hi, hT0 i (by omega), he] at this
        exact this
      rw [h1, h2, h3]; ring
  unfold nifsProve
  simp only [Option.bind_eq_bind]
  cases hg : (((ct.2.feed env (foldInstance ct.1 fi1 fi2 cT).comE).feed env
      (foldInstance ct.1 fi1 fi2 cT).comW).generateOne env) with
  | none => rfl
  | some c =>
    simp only [Option.bind_some]
    rcases hz with h | h
    · rw [openVector_zero _ h]
      cases openVector srs (foldWitness ct.1 fw1 fw2 t).e c.1 <;> rfl
    · rw [openVector_zero _ h]; rfl

/-- **C84** (Nova, an honest use that always fails): folding a satisfying pair whose error vector is zero with
itself.  All cross terms vanish, so `NIFS::prove` panics for every challenge. -/
theorem C84_nova_self_fold_panics (env : Env F G1 B) (srs : Srs G1 G2) (r1cs : R1CS F)
    (fw fw' : FWitness F) (fi fi' : FInstance F G1) (comT : G1) (r : F) (tr tr1 : Transcript)
    (hsat : isR1csSatisfied r1cs fi fw srs = some (.ok ())) (he : ∀ x ∈ fw.e, x = 0)
    (hp : nifsProver env r1cs fw fw fi fi srs tr = some ((fw', fi', comT, r), tr1)) :
    nifsProve env r fw' fi' srs tr1 = none := by
  obtain ⟨-, -, hs, -⟩ := (C27_satisfied_iff r1cs fi fw srs).1 hsat
  refine C84_nova_degenerate_panics env srs r1cs fw fw fw' fi fi fi' comT r tr tr1 (.inr ⟨?_, fun i hi => ?_⟩) hp
  · intro x hx
    rcases List.mem_append.1 hx with h | h <;> exact he x h
  · have hi' : i < fw.e.length := by rw [← hs.lenA]; exact hi
    have hrow := hs.row i hi'
    rw [getD_lt hi', he _ (List.getElem_mem hi'), add_zero] at hrow
    unfold crossTerm
    rw [show zVec fw fi = fw.w ++ fi.x ++ [fi.u] from rfl]
    linear_combination 2 * hrow

/-! ## Non-vacuity -/

/-- The hypotheses of `C84_nova_honest_proving` are met by two fresh pairs: with `w = 1` and `w = 0` for the row
`w u = 0` the cross term is `1`. -/
example : ∃ c0 c1 : ℚ, commitVector (Srs.newFromSecret (trivialGroups ℚ) 7 4) ([0] : List ℚ) = some c0 ∧
    commitVector (Srs.newFromSecret (trivialGroups ℚ) 7 4) ([1] : List ℚ) = some c1 ∧
    AllBut 3 fun r : ℚ => ∀ (env : Env ℚ ℚ ℚ) (tr : Transcript) (fw : FWitness ℚ) (fi : FInstance ℚ ℚ)
      (comT : ℚ) (tr1 : Transcript), (∀ b, 8 ≤ (env.digest b).length) →
      nifsProver env badR1cs (FWitness.new [1] 1) (FWitness.new [0] 1) ⟨c0, 1, c1, [5]⟩ ⟨c0, 1, c0, [6]⟩
        (Srs.newFromSecret (trivialGroups ℚ) 7 4) tr = some ((fw, fi, comT, r), tr1) →
      ∃ proof tr2, nifsProve env r fw fi (Srs.newFromSecret (trivialGroups ℚ) 7 4) tr1 = some (proof, tr2) ∧
        nifsVerify env (trivialGroups ℚ) proof ⟨c0, 1, c1, [5]⟩ ⟨c0, 1, c0, [6]⟩
          (nifsVerifier proof.r ⟨c0, 1, c1, [5]⟩ ⟨c0, 1, c0, [6]⟩ comT) comT
          (Srs.newFromSecret (trivialGroups ℚ) 7 4) tr = some (.ok (), tr2) := by
  have hsl : (Srs.newFromSecret (trivialGroups ℚ) 7 4).g1Points.length = 4 + 3 := srs_length _ _ _
  have hc : ∀ v : List ℚ, v.length = 1 → ∃ c, commitVector (Srs.newFromSecret (trivialGroups ℚ) 7 4) v = some c :=
    fun v hv => ⟨_, (commitVector_iff _ _ _).2 ⟨by omega, fun i hi => getD_eq_of_le (by omega), rfl⟩⟩
  obtain ⟨c0, h0⟩ := hc [0] rfl
  obtain ⟨c1, h1⟩ := hc [1] rfl
  exact ⟨c0, c1, h0, h1, C84_nova_honest_proving (trivialGroups ℚ) 7 4 badR1cs (FWitness.new [1] 1)
    (FWitness.new [0] 1) ⟨c0, 1, c1, [5]⟩ ⟨c0, 1, c0, [6]⟩ (by simp [FWitness.new])
    (by simp [FWitness.new, badR1cs]) (by simp [FWitness.new, badR1cs]) h1 (by simpa [FWitness.new] using h0)
    (by simpa [FWitness.new] using h0) (by simpa [FWitness.new] using h0)
    ⟨1, by simp [FWitness.new], one_ne_zero⟩
    (.inr ⟨0, by simp [badR1cs], by
      simp [crossTerm, badR1cs, dot, zVec, FWitness.new, Finset.sum_range_succ]⟩)⟩

/-- One row: `w · w = x`. -/
def squareR1cs : R1CS ℚ := ⟨[[1, 0, 0]], [[1, 0, 0]], [[0, 1, 0]], 1, 1⟩

/-- The hypotheses of `C84_nova_self_fold_panics` are met: `w = 3`, `x = 9` satisfies `w · w = x`, the folding prover
returns, and the prover of the folded pair panics. -/
example : ∃ fi : FInstance ℚ ℚ, ∃ fw' fi' comT r tr1,
    isR1csSatisfied squareR1cs fi (FWitness.new [3] 1) (Srs.newFromSecret (trivialGroups ℚ) 7 4) = some (.ok ()) ∧
    nifsProver toyEnv squareR1cs (FWitness.new [3] 1) (FWitness.new [3] 1) fi fi
      (Srs.newFromSecret (trivialGroups ℚ) 7 4) .default = some ((fw', fi', comT, r), tr1) ∧
    nifsProve toyEnv r fw' fi' (Srs.newFromSecret (trivialGroups ℚ) 7 4) tr1 = none := by
  have hsl : (Srs.newFromSecret (trivialGroups ℚ) 7 4).g1Points.length = 4 + 3 := srs_length _ _ _
  have hc : ∀ v : List ℚ, v.length = 1 → ∃ c, commitVector (Srs.newFromSecret (trivialGroups ℚ) 7 4) v = some c :=
    fun v hv => ⟨_, (commitVector_iff _ _ _).2 ⟨by omega, fun i hi => getD_eq_of_le (by omega), rfl⟩⟩
  obtain ⟨c0, h0⟩ := hc [0] rfl
  obtain ⟨c3, h3⟩ := hc [3] rfl
  have hsat : isR1csSatisfied squareR1cs ⟨c0, 1, c3, [9]⟩ (FWitness.new [3] 1)
      (Srs.newFromSecret (trivialGroups ℚ) 7 4) = some (.ok ()) := by
    rw [C27_satisfied_iff]
    refine ⟨by simp [squareR1cs, FWitness.new], by simp [squareR1cs], ⟨by simp [squareR1cs, FWitness.new],
      by simp [squareR1cs, FWitness.new], by simp [squareR1cs, FWitness.new], ?_⟩,
      (commitVector_iff _ _ _).1 h3, (commitVector_iff _ _ _).1 h0⟩
    intro i hi
    obtain rfl : i = 0 := by simpa [FWitness.new] using hi
    simp [squareR1cs, dot, FWitness.new, Finset.sum_range_succ]
    norm_num
  obtain ⟨fw', fi', comT, r, tr1, hp, -⟩ := C32_returns toyEnv (trivialGroups ℚ) 7 4
    (fun b => by rw [toyEnv_digest]; norm_num) squareR1cs (FWitness.new [3] 1) (FWitness.new [3] 1)
    ⟨c0, 1, c3, [9]⟩ ⟨c0, 1, c3, [9]⟩ .default rfl (by simp [squareR1cs, FWitness.new])
    (by simp [squareR1cs, FWitness.new]) (by simp [squareR1cs]) (by simp [squareR1cs]) (by simp [squareR1cs])
    h3 h3 (by simpa [FWitness.new] using h0) (by simpa [FWitness.new] using h0)
  exact ⟨_, fw', fi', comT, r, tr1, hsat, hp, C84_nova_self_fold_panics toyEnv _ squareR1cs _ fw' _ fi' comT r
    .default tr1 hsat (by simp [FWitness.new]) hp⟩

end Verif.Nova

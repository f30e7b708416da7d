import Verif.Oracle
import Verif.Nova.Soundness

/-!
# C108: non-interactive folding followed by a satisfaction check

C81 shows that folding instances and checking the accumulator in the end is sound if each challenge is drawn after the
instances are fixed.  The transcript of the repository (`nova/src/nifs/nifs_prover.rs`, `nova/src/nifs/nifs_verifier.rs`)
absorbs only `u1`, `u2` and `com_T`, so a prover can choose the commitment to its witness after the challenge.
-/

set_option linter.constructorNameAsVariable false
set_option linter.unusedSectionVars false
set_option linter.unusedVariables false

namespace Verif.Nova

open Verif.Ark Verif.Kzg Verif.Oracle

variable {F G1 G2 GT B : Type} [Field F] [DecidableEq F] [AddCommGroup G1] [Module F G1] [DecidableEq G1]
  [AddCommGroup G2] [Module F G2] [AddCommGroup GT] [Module F GT] [DecidableEq GT]
  [Field B] [DecidableEq B]

/-! ## Specification -/

/-- A user folds the instances, each with its cross-term commitment and folding proof, one after the other into the
accumulator `U` with `NIFS::verify` and `NIFS::verifier`, and in the end checks the accumulator with
`is_r1cs_satisfied`. -/
def FoldsAndChecks (env : Env F G1 B) (P : PairingGroups F G1 G2 GT) (srs : Srs G1 G2) (r1cs : R1CS F) (fw : FWitness F) :
    FInstance F G1 → Transcript → List (FInstance F G1 × G1 × NIFSProof F G1) → Prop
  | U, _, [] => isR1csSatisfied r1cs U fw srs = some (.ok ())
  | U, tr, (fi, comT, pf) :: rest => ∃ tr',
      nifsVerify env P pf fi U (nifsVerifier pf.r fi U comT) comT srs tr = some (.ok (), tr') ∧
      FoldsAndChecks env P srs r1cs fw (nifsVerifier pf.r fi U comT) tr' rest

/-! ## The attack -/

/-- `w₀·w₁ = 1` and `w₀·x = 0`: no witness exists unless `x = 0`. -/
def trapR1cs : R1CS F where
  matrixA := [[1, 0, 0, 0], [1, 0, 0, 0]]
  matrixB := [[0, 1, 0, 0], [0, 0, 1, 0]]
  matrixC := [[0, 0, 0, 1], [0, 0, 0, 0]]
  numIo := 1
  numVars := 2

theorem commits_ex (P : PairingGroups F G1 G2 GT) (s : F) (n : ℕ) (v : List F) (h : v.length ≤ n + 3) :
    ∃ c, commitVector (Srs.newFromSecret P s n) v = some c := by
  obtain ⟨hlen, -, -, -⟩ := C01_srs_powers P s n
  refine ⟨_, (commitVector_iff _ _ _).2 ⟨by omega, fun i hi => getD_eq_of_le (by omega), rfl⟩⟩

/-- **C108** (counterexample): for the R1CS `trapR1cs` and the public input 1 no witness exists.  Nevertheless, whatever
the hash, the transcript and the secret: unless the challenge drawn after `u1 = 1`, `u2 = 1` and a fixed `com_T` is zero,
there is a fresh instance (no error term, `u = 1`) with public input 1 whose fold with an honest, satisfied instance is
accepted by `NIFS::verify` with a folded instance that passes `is_r1cs_satisfied`. -/
theorem C108_unsatisfiable_accepted (env : Env F G1 B) (P : PairingGroups F G1 G2 GT) (s : F) (n : ℕ)
    (hdig : ∀ b, 8 ≤ (env.digest b).length) (tr : Transcript) :
    ∃ (comT : G1) (fi2 : FInstance F G1),
      (FWitness.new [1, 1] 2).commit (Srs.newFromSecret P s n) [0] = some fi2 ∧
      isR1csSatisfied trapR1cs fi2 (FWitness.new [1, 1] 2) (Srs.newFromSecret P s n) = some (.ok ()) ∧
      (challengeOf env (foldDigest env (tr.data.getD []) 1 1 comT) ≠ 0 →
        ∃ (comW : G1) (pf : NIFSProof F G1) (fw : FWitness F),
          FoldsAndChecks env P (Srs.newFromSecret P s n) trapR1cs fw fi2 tr [(⟨0, 1, comW, [1]⟩, comT, pf)]) ∧
      ∀ (w : List F) (comW : G1),
        isR1csSatisfied trapR1cs ⟨0, 1, comW, [1]⟩ (FWitness.new w 2) (Srs.newFromSecret P s n) ≠ some (.ok ()) := by
  obtain ⟨cT, hT⟩ := commits_ex P s n [0, 1] (by simp)
  obtain ⟨c2, h2⟩ := commits_ex P s n [1, 1] (by simp)
  obtain ⟨c0, h0⟩ := commits_ex P s n [0, 0] (by simp)
  have hc0 : c0 = 0 := by
    obtain ⟨-, -, h⟩ := (commitVector_iff _ _ _).1 h0
    rw [h]
    refine Finset.sum_eq_zero fun i _ => ?_
    have : ([0, 0] : List F).getD i 0 = 0 := by
      rcases i with _ | _ | i <;> simp
    rw [this, zero_smul]
  subst hc0
  refine ⟨cT, ⟨0, 1, c2, [0]⟩, ?_, ?_, ?_, ?_⟩
  · simp [FWitness.commit, FWitness.new, h2, h0]
  · rw [C27_satisfied_iff]
    refine ⟨rfl, rfl, ⟨rfl, le_rfl, rfl, fun i hi => ?_⟩, (commitVector_iff _ _ _).1 h2, (commitVector_iff _ _ _).1 h0⟩
    simp only [FWitness.new, List.length_replicate] at hi
    obtain rfl | rfl : i = 0 ∨ i = 1 := by omega
    · simp [trapR1cs, FWitness.new, dot, Finset.sum_range_succ]
    · simp [trapR1cs, FWitness.new, dot, Finset.sum_range_succ]
  · intro hr
    set r := challengeOf env (foldDigest env (tr.data.getD []) 1 1 cT) with hrdef
    obtain ⟨cW, hW⟩ := commits_ex P s n [r, (1 + r) * (1 + r) / r] (by simp)
    obtain ⟨cE, hE⟩ := commits_ex P s n [0, r] (by simp)
    have hcE : cE = r • cT := by
      obtain ⟨-, -, h⟩ := (commitVector_iff _ _ _).1 hE
      obtain ⟨-, -, h'⟩ := (commitVector_iff _ _ _).1 hT
      rw [h, h', Finset.smul_sum]
      refine Finset.sum_congr rfl fun i _ => ?_
      rw [smul_smul]
      congr 1
      rcases i with _ | _ | i <;> simp
    have hfold : nifsVerifier r ⟨0, 1, cW - r • c2, [1]⟩ ⟨0, 1, c2, [0]⟩ cT = ⟨cE, 1 + r, cW, [1]⟩ := by
      simp [nifsVerifier, foldInstance, hcE]
    set z := challengeOf env (openDigest env (foldDigest env (tr.data.getD []) 1 1 cT) cE cW) with hz
    obtain ⟨oE, -, hvE⟩ := openVector_verifies P s n ⟨r, by simp, hr⟩ hE z
    obtain ⟨oW, -, hvW⟩ := openVector_verifies P s n ⟨r, by simp, hr⟩ hW z
    refine ⟨cW - r • c2, ⟨r, z, oE, oW⟩, ⟨[0, r], [r, (1 + r) * (1 + r) / r]⟩, ?_⟩
    obtain ⟨res, tr', hv, hiff⟩ := C33_verify_iff env P s n hdig ⟨r, z, oE, oW⟩ ⟨0, 1, cW - r • c2, [1]⟩ ⟨0, 1, c2, [0]⟩
      ⟨cE, 1 + r, cW, [1]⟩ cT tr
    have hok : res = .ok () := hiff.2 ⟨hrdef, hz, (verify_iff _ _ _ _ _ _).1 hvW, (verify_iff _ _ _ _ _ _).1 hvE⟩
    subst hok
    refine ⟨tr', ?_, ?_⟩
    · rw [hfold]; exact hv
    · rw [FoldsAndChecks, hfold, C27_satisfied_iff]
      refine ⟨rfl, rfl, ⟨rfl, le_rfl, rfl, fun i hi => ?_⟩, (commitVector_iff _ _ _).1 hW, (commitVector_iff _ _ _).1 hE⟩
      simp only [List.length_cons, List.length_nil] at hi
      obtain rfl | rfl : i = 0 ∨ i = 1 := by omega
      · simp [trapR1cs, dot, Finset.sum_range_succ]
        field_simp
      · simp [trapR1cs, dot, Finset.sum_range_succ]
  · intro w comW h
    rw [C27_satisfied_iff] at h
    obtain ⟨hl, -, hs, -, -⟩ := h
    have hl' : w.length = 2 := hl.symm
    obtain ⟨w0, w1, rfl⟩ := List.length_eq_two.1 hl'
    have r0 := hs.row 0 (by simp [FWitness.new])
    have r1 := hs.row 1 (by simp [FWitness.new])
    simp [trapR1cs, FWitness.new, dot, Finset.sum_range_succ] at r0 r1
    rw [r1, zero_mul] at r0
    exact zero_ne_one r0

/-- Non-vacuity: with the stand-in environment the challenge is never zero. -/
example (tr : Transcript) : ∃ (comT : ℚ) (fi2 : FInstance ℚ ℚ) (comW : ℚ) (pf : NIFSProof ℚ ℚ) (fw : FWitness ℚ),
    isR1csSatisfied trapR1cs fi2 (FWitness.new [1, 1] 2) (Srs.newFromSecret (trivialGroups ℚ) 7 1) = some (.ok ()) ∧
    FoldsAndChecks toyEnv (trivialGroups ℚ) (Srs.newFromSecret (trivialGroups ℚ) 7 1) trapR1cs fw fi2 tr
      [(⟨0, 1, comW, [1]⟩, comT, pf)] := by
  obtain ⟨comT, fi2, -, h2, h, -⟩ := C108_unsatisfiable_accepted toyEnv (trivialGroups ℚ) 7 1
    (fun b => by rw [toyEnv_digest]; norm_num) tr
  obtain ⟨comW, pf, fw, h⟩ := h (by
    unfold challengeOf
    generalize fromLeBytes _ = x
    simp only [toyEnv]
    push_cast
    positivity)
  exact ⟨comT, fi2, comW, pf, fw, h2, h⟩

/-! ## What holds -/

/-- One folding: the vectors behind the new instance, the accumulator and the cross term. -/
structure FoldMsg (F : Type) (N : ℕ) where
  /-- the new instance -/
  c : Claim F N
  /-- the accumulator -/
  a : Claim F N
  /-- the cross term -/
  t : Fin N → F

/-- The bytes of the transcript when the challenge of the last folding is drawn, starting from the bytes `d`: each folding
absorbs `u1`, `u2`, `com_T` (`nova/src/nifs/nifs_verifier.rs` lines 44-64), and afterwards the commitments of the folded
instance (lines 66-93), which is the accumulator of the next folding. -/
def foldDigests {N : ℕ} (env : Env F G1 B) (srs : Srs G1 G2) : List UInt8 → List (FoldMsg F N) → List UInt8
  | d, [] => d
  | d, [m] => foldDigest env d m.c.u m.a.u (comb srs m.t)
  | d, m :: m' :: ms => foldDigests env srs
      (openDigest env (foldDigest env d m.c.u m.a.u (comb srs m.t)) (comb srs m'.a.e) (comb srs m'.a.w)) (m' :: ms)

/-- The seed of the generator; `Sum.inr x` stands for the evaluation of the generator at any seed `x`. -/
def foldSeed {N : ℕ} (env : Env F G1 B) (srs : Srs G1 G2) (d : List UInt8) (ms : List (FoldMsg F N ⊕ Fin (2 ^ 64))) :
    Fin (2 ^ 64) :=
  match ms with
  | [.inr x] => x
  | ms => ⟨fromLeBytes ((foldDigests env srs d (ms.filterMap Sum.getLeft?)).take 8), seed_lt _⟩

/-- The environment with the generator `G`. -/
def withGen (env : Env F G1 B) (G : Fin (2 ^ 64) → F) : Env F G1 B :=
  { env with rand := fun x i => if h : x < 2 ^ 64 then G ⟨x, h⟩ else 0 }

/-- What the prover returns: the foldings with their proofs, and a witness for the final accumulator. -/
structure FoldOutput (F G1 : Type) (N : ℕ) where
  /-- the foldings -/
  steps : List (FoldMsg F N × NIFSProof F G1)
  /-- the final witness -/
  fw : FWitness F

/-- The messages of the output. -/
def FoldOutput.msgs {N : ℕ} (o : FoldOutput F G1 N) : List (FoldMsg F N ⊕ Fin (2 ^ 64)) := o.steps.map fun x => .inl x.1

/-- What the verifier gets to see of a folding. -/
def FoldMsg.sent {N : ℕ} (srs : Srs G1 G2) (m : FoldMsg F N × NIFSProof F G1) :
    FInstance F G1 × G1 × NIFSProof F G1 := (m.1.c.inst srs, comb srs m.1.t, m.2)

/-- The accumulator after foldings with the challenges `rs`. -/
def accAfter {N : ℕ} : Claim F N → List (FoldMsg F N) → List F → Claim F N
  | a, m :: ms, r :: rs => accAfter (Claim.fold r m.c a m.t) ms rs
  | a, _, _ => a

/-- The accumulators the prover works with are the ones it gets by folding. -/
def Consistent {N : ℕ} : Claim F N → List (FoldMsg F N) → List F → Prop
  | a, m :: ms, r :: rs => m.a = a ∧ Consistent (Claim.fold r m.c a m.t) ms rs
  | _, [], [] => True
  | _, _, _ => False

/-- The prover convinces the verifier with the generator `G`: one of the folded instances (or the accumulator `a0` it started
with) does not hold, all foldings and the final check are accepted, and the witness given in the end consists of the vectors
behind the final accumulator (otherwise the prover knows two openings of a commitment). -/
def Convinces (env : Env F G1 B) (P : PairingGroups F G1 G2 GT) (s : F) (n : ℕ) (r1cs : R1CS F) (a0 : Claim F (n + 3))
    (tr : Transcript) (p : Prover (List (FoldMsg F (n + 3) ⊕ Fin (2 ^ 64))) (List F) (FoldOutput F G1 (n + 3)))
    (G : Fin (2 ^ 64) → F) : Prop :=
  let srs := Srs.newFromSecret P s n
  let o := p.out (Oracle.challenges fun l => G (foldSeed env srs (tr.data.getD []) l))
  let acc := accAfter a0 (o.steps.map (·.1)) (o.steps.map (·.2.r))
  Consistent a0 (o.steps.map (·.1)) (o.steps.map (·.2.r)) ∧ (∀ m ∈ o.steps, m.1.c.x.length = r1cs.numIo) ∧
  (¬ a0.Holds r1cs ∨ ∃ m ∈ o.steps, ¬ m.1.c.Holds r1cs) ∧
  FoldsAndChecks (withGen env G) P srs r1cs o.fw (a0.inst srs) tr (o.steps.map (FoldMsg.sent srs)) ∧
  (∀ i : Fin (n + 3), o.fw.w.getD i 0 = acc.w i ∧ o.fw.e.getD i 0 = acc.e i)

section
variable {N : ℕ}

theorem accAfter_append (a : Claim F N) (ms : List (FoldMsg F N)) (rs : List F) (h : ms.length = rs.length) (m : FoldMsg F N)
    (r : F) : accAfter a (ms ++ [m]) (rs ++ [r]) = Claim.fold r m.c (accAfter a ms rs) m.t := by
  induction ms generalizing a rs with
  | nil =>
    obtain rfl : rs = [] := List.length_eq_zero_iff.1 h.symm
    rfl
  | cons x ms ih =>
    cases rs with
    | nil => simp at h
    | cons y rs => exact ih _ rs (by simpa using h)

theorem x_accAfter (r1cs : R1CS F) (a : Claim F N) (ha : a.x.length = r1cs.numIo) (ms : List (FoldMsg F N)) (rs : List F)
    (hm : ∀ m ∈ ms, m.c.x.length = r1cs.numIo) : (accAfter a ms rs).x.length = r1cs.numIo := by
  induction ms generalizing a rs with
  | nil => cases rs <;> exact ha
  | cons x ms ih =>
    cases rs with
    | nil => exact ha
    | cons y rs =>
      refine ih _ ?_ rs fun m h => hm m (List.mem_cons_of_mem _ h)
      simp [Claim.fold, hm x (List.mem_cons_self ..), ha]

/-- The doomed states. -/
def FoldDoomed (r1cs : R1CS F) (a0 : Claim F N) (ms : List (FoldMsg F N ⊕ Fin (2 ^ 64))) (rs : List F) : Prop :=
  ∀ fs : List (FoldMsg F N), ms = fs.map Sum.inl → (∀ m ∈ fs, m.c.x.length = r1cs.numIo) →
    (¬ a0.Holds r1cs ∨ ∃ m ∈ fs, ¬ m.c.Holds r1cs) → ¬ (accAfter a0 fs rs).Holds r1cs

variable [Fintype F]

open Classical in
theorem foldDoomed_step (r1cs : R1CS F) (a0 : Claim F N) (ha0 : a0.x.length = r1cs.numIo)
    (ms : List (FoldMsg F N ⊕ Fin (2 ^ 64))) (rs : List F) (m : FoldMsg F N ⊕ Fin (2 ^ 64)) (hlen : ms.length = rs.length)
    (hD : FoldDoomed r1cs a0 ms rs) :
    (Finset.univ.filter fun r => ¬ FoldDoomed r1cs a0 (ms ++ [m]) (rs ++ [r])).card ≤ 2 := by
  have h0 : ∀ {Q : F → Prop}, (∀ r, Q r) → (Finset.univ.filter fun r => ¬ Q r).card ≤ 2 := by
    intro Q hQ
    rw [Finset.filter_eq_empty_iff.2 fun x _ => not_not.2 (hQ x)]
    simp
  by_cases hex : ∃ (fs : List (FoldMsg F N)) (f : FoldMsg F N), ms = fs.map Sum.inl ∧ m = .inl f ∧
    (∀ m ∈ fs, m.c.x.length = r1cs.numIo) ∧ f.c.x.length = r1cs.numIo
  · obtain ⟨fs, f, rfl, rfl, hx, hfx⟩ := hex
    have hfs : fs.length = rs.length := by simpa using hlen
    have hin : ∀ gs : List (FoldMsg F N), fs.map (Sum.inl (β := Fin (2 ^ 64))) ++ [.inl f] = gs.map Sum.inl →
        gs = fs ++ [f] := by
      intro gs h
      have : (fs ++ [f]).map (Sum.inl (β := Fin (2 ^ 64))) = gs.map Sum.inl := by rw [← h]; simp
      exact (List.map_injective_iff.2 Sum.inl_injective this).symm
    by_cases hbad : ¬ f.c.Holds r1cs ∨ ¬ (accAfter a0 fs rs).Holds r1cs
    · obtain ⟨S, hS, h⟩ := fold_not_holds r1cs f.c (accAfter a0 fs rs) f.t hfx (x_accAfter r1cs a0 ha0 fs rs hx) hbad
      refine le_trans (Finset.card_le_card fun r hr => ?_) hS
      rw [Finset.mem_filter] at hr
      by_contra hn
      apply hr.2
      intro gs hgs _ _
      rw [hin gs hgs, accAfter_append a0 fs rs hfs]
      exact h r hn
    · rw [not_or, not_not, not_not] at hbad
      refine h0 fun r gs hgs _ hviol => ?_
      rw [hin gs hgs] at hviol
      exfalso
      refine hD fs rfl hx ?_ hbad.2
      rcases hviol with h | ⟨x, hx', h⟩
      · exact .inl h
      · rcases List.mem_append.1 hx' with hx' | hx'
        · exact .inr ⟨x, hx', h⟩
        · rw [List.mem_singleton] at hx'
          subst hx'
          exact absurd hbad.1 h
  · refine h0 fun r gs hgs hx _ => absurd ?_ hex
    have hne : gs ≠ [] := by rintro rfl; simp at hgs
    obtain ⟨fs, f, rfl⟩ : ∃ fs f, gs = fs ++ [f] := ⟨gs.dropLast, gs.getLast hne, (List.dropLast_append_getLast hne).symm⟩
    rw [List.map_append] at hgs
    obtain ⟨h1, h2⟩ := List.append_inj' hgs rfl
    refine ⟨fs, f, h1, by simpa using h2, fun m hm => hx m (by simp [hm]), hx f (by simp)⟩

end

theorem prefixes_cons {M : Type} (m : M) (ms : List M) : prefixes (m :: ms) = [m] :: (prefixes ms).map (m :: ·) := by
  cases ms with
  | nil => rfl
  | cons x ms => simp [prefixes]

theorem verify_ok_data (env : Env F G1 B) (P : PairingGroups F G1 G2 GT) (s : F) (n : ℕ)
    (hdig : ∀ b, 8 ≤ (env.digest b).length) (pf : NIFSProof F G1) (fi1 fi2 fi3 : FInstance F G1) (comT : G1)
    (tr tr' : Transcript)
    (h : nifsVerify env P pf fi1 fi2 fi3 comT (Srs.newFromSecret P s n) tr = some (.ok (), tr')) :
    pf.r = challengeOf env (foldDigest env (tr.data.getD []) fi1.u fi2.u comT) ∧
    tr'.data = some (openDigest env (foldDigest env (tr.data.getD []) fi1.u fi2.u comT) fi3.comE fi3.comW) := by
  obtain ⟨res, tr2, h2, hiff⟩ := C33_verify_iff env P s n hdig pf fi1 fi2 fi3 comT tr
  rw [h2, Option.some.injEq, Prod.mk.injEq] at h
  obtain ⟨rfl, rfl⟩ := h
  obtain ⟨hr, hz, hw, he⟩ := hiff.1 rfl
  refine ⟨hr, ?_⟩
  simp only [nifsVerify, Option.bind_eq_bind, Option.bind_eq_some_iff] at h2
  obtain ⟨res, hres, h⟩ := h2
  simp only [verifyChallenge, Option.bind_eq_bind, Option.bind_eq_some_iff] at hres
  obtain ⟨ct, hct, hres⟩ := hres
  rw [generateOne_eq, feedFold_eq] at hct
  split at hct
  · cases hct
  rw [Option.some.injEq] at hct
  subst hct
  have hres2 : res.2 = ⟨some (foldDigest env (tr.data.getD []) fi1.u fi2.u comT), true⟩ := by
    split at hres <;> (rw [Option.pure_def, Option.some.injEq] at hres; subst hres; rfl)
  obtain ⟨res1, res2⟩ := res
  dsimp only at hres2
  subst hres2
  cases res1 with
  | error e => simp at h
  | ok u =>
    simp only [verifyOpening, Option.bind_eq_bind, Option.bind_eq_some_iff] at h
    obtain ⟨ct, hct, h⟩ := h
    rw [generateOne_eq] at hct
    split at hct
    · cases hct
    rw [Option.some.injEq] at hct
    subst hct
    split at h
    · simp at h
    split at h
    · simp at h
    split at h
    · simp at h
    rw [Option.pure_def, Option.some.injEq, Prod.mk.injEq] at h
    obtain ⟨-, rfl⟩ := h
    rfl

theorem challengeOf_withGen (env : Env F G1 B) (G : Fin (2 ^ 64) → F) (d : List UInt8) :
    challengeOf (withGen env G) d = G ⟨fromLeBytes (d.take 8), seed_lt _⟩ := by
  unfold challengeOf withGen
  dsimp only
  rw [dif_pos (seed_lt _)]

/-- The challenges of an accepted output are the answers of the generator, and the instance checked in the end is that of the
accumulated claim. -/
theorem checks_challenges (env : Env F G1 B) (P : PairingGroups F G1 G2 GT) (s : F) (n : ℕ)
    (hdig : ∀ b, 8 ≤ (env.digest b).length) (r1cs : R1CS F) (fw : FWitness F) (G : Fin (2 ^ 64) → F)
    (steps : List (FoldMsg F (n + 3) × NIFSProof F G1)) (a : Claim F (n + 3)) (tr : Transcript)
    (hc : Consistent a (steps.map (·.1)) (steps.map (·.2.r)))
    (h : FoldsAndChecks (withGen env G) P (Srs.newFromSecret P s n) r1cs fw (a.inst (Srs.newFromSecret P s n)) tr
      (steps.map (FoldMsg.sent (Srs.newFromSecret P s n)))) :
    Oracle.challenges (fun l => G (foldSeed env (Srs.newFromSecret P s n) (tr.data.getD []) l))
      (steps.map fun x => .inl x.1) = steps.map (·.2.r) ∧
    isR1csSatisfied r1cs ((accAfter a (steps.map (·.1)) (steps.map (·.2.r))).inst (Srs.newFromSecret P s n)) fw
      (Srs.newFromSecret P s n) = some (.ok ()) := by
  induction steps generalizing a tr with
  | nil => exact ⟨rfl, h⟩
  | cons st steps ih =>
    obtain ⟨m, pf⟩ := st
    obtain ⟨hma, hcons⟩ := hc
    obtain ⟨tr', hv, hrest⟩ := h
    obtain ⟨hr, htr⟩ := verify_ok_data (withGen env G) P s n hdig _ _ _ _ _ _ _ hv
    dsimp only [FoldMsg.sent] at hr hrest htr
    rw [← inst_fold] at hrest htr
    obtain ⟨h1, h2⟩ := ih _ tr' hcons hrest
    refine ⟨?_, h2⟩
    rw [List.map_cons, List.map_cons, Oracle.challenges, prefixes_cons, List.map_cons, List.map_map]
    refine List.cons_eq_cons.2 ⟨?_, ?_⟩
    · rw [hr, challengeOf_withGen]
      dsimp only at hma
      rw [← hma]
      rfl
    · rw [← h1, Oracle.challenges]
      refine List.map_congr_left fun l hl => ?_
      rw [mem_prefixes] at hl
      obtain ⟨hl0, rest, hl⟩ := hl
      cases l with
      | nil => exact absurd rfl hl0
      | cons x l =>
        cases steps with
        | nil => simp at hl
        | cons st' steps =>
          rw [List.map_cons, List.cons_append, List.cons.injEq] at hl
          obtain ⟨rfl, -⟩ := hl
          have hm' : st'.1.a = Claim.fold pf.r m.c a m.t := hcons.1
          have hd : foldDigests env (Srs.newFromSecret P s n) (tr.data.getD [])
              (([.inl m, .inl st'.1] ++ l : List (FoldMsg F (n + 3) ⊕ Fin (2 ^ 64))).filterMap Sum.getLeft?) =
            foldDigests env (Srs.newFromSecret P s n) (tr'.data.getD [])
              (([.inl st'.1] ++ l : List (FoldMsg F (n + 3) ⊕ Fin (2 ^ 64))).filterMap Sum.getLeft?) := by
            rw [htr, Option.getD_some]
            simp only [List.cons_append, List.nil_append, List.filterMap_cons, Sum.getLeft?, foldDigests]
            rw [hm', show m.a = a from hma]
            rfl
          have e1 : foldSeed env (Srs.newFromSecret P s n) (tr.data.getD []) (.inl m :: .inl st'.1 :: l) =
            ⟨fromLeBytes ((foldDigests env (Srs.newFromSecret P s n) (tr.data.getD [])
              (([.inl m, .inl st'.1] ++ l : List (FoldMsg F (n + 3) ⊕ Fin (2 ^ 64))).filterMap Sum.getLeft?)).take 8),
              seed_lt _⟩ := rfl
          have e2 : foldSeed env (Srs.newFromSecret P s n) (tr'.data.getD []) (.inl st'.1 :: l) =
            ⟨fromLeBytes ((foldDigests env (Srs.newFromSecret P s n) (tr'.data.getD [])
              (([.inl st'.1] ++ l : List (FoldMsg F (n + 3) ⊕ Fin (2 ^ 64))).filterMap Sum.getLeft?)).take 8),
              seed_lt _⟩ := rfl
          show G (foldSeed env _ _ (.inl m :: .inl st'.1 :: l)) = G (foldSeed env _ _ (.inl st'.1 :: l))
          rw [e1, e2]
          congr 1
          simp only [hd]

/-- If the vectors behind an instance pass the check, the claim holds. -/
theorem holds_of_satisfied (P : PairingGroups F G1 G2 GT) (s : F) (n : ℕ) (r1cs : R1CS F) (c : Claim F (n + 3))
    (fw : FWitness F) (hfw : ∀ i : Fin (n + 3), fw.w.getD i 0 = c.w i ∧ fw.e.getD i 0 = c.e i)
    (hs : isR1csSatisfied r1cs (c.inst (Srs.newFromSecret P s n)) fw (Srs.newFromSecret P s n) = some (.ok ())) :
    c.Holds r1cs := by
  obtain ⟨h1, h2, h3, h4, h5⟩ := (C27_satisfied_iff _ _ _ _).1 hs
  obtain ⟨hlen, -, -, -⟩ := C01_srs_powers P s n
  have hel : fw.e.length = r1cs.matrixA.length := h3.lenA.symm
  have ew : vecOf r1cs.numVars c.w = fw.w := by
    apply ext_getD (d := 0) (by rw [length_vecOf, h1])
    intro i hi
    rw [length_vecOf] at hi
    rw [getD_vecOf]
    by_cases hN : i < n + 3
    · rw [dif_pos ⟨hi, hN⟩, ← (hfw ⟨i, hN⟩).1]
    · rw [dif_neg (by omega), h4.2.1 i (by rw [hlen]; omega)]
  have ee : vecOf r1cs.matrixA.length c.e = fw.e := by
    apply ext_getD (d := 0) (by rw [length_vecOf, hel])
    intro i hi
    rw [length_vecOf] at hi
    rw [getD_vecOf]
    by_cases hN : i < n + 3
    · rw [dif_pos ⟨hi, hN⟩, ← (hfw ⟨i, hN⟩).2]
    · rw [dif_neg (by omega), h5.2.1 i (by rw [hlen]; omega)]
  refine ⟨fun i hi => ?_, fun i hi => ?_, ?_⟩
  · rw [← (hfw i).1, getD_eq_of_le (by omega)]
  · rw [← (hfw i).2, getD_eq_of_le (by omega)]
  · rw [ew, ee]
    exact h3

open Classical in
/-- **C108** (what holds): a prover that evaluates the generator at most `q` times, for any foldings it likes, convinces the
verifier without meeting two different partial transcripts with the same seed for at most a fraction `2q / |F|` of all
generators.  (Missing, and false: the same without the clause on seeds.  As the transcript does not absorb the commitments of
the instances, transcripts that differ in these commitments only have the same seed; see `C108_cheating_prover`.) -/
theorem C108_distinct_seeds_partial [Fintype F] (env : Env F G1 B) (P : PairingGroups F G1 G2 GT) (s : F) (n : ℕ)
    (hdig : ∀ b, 8 ≤ (env.digest b).length) (r1cs : R1CS F) (a0 : Claim F (n + 3)) (ha0 : a0.x.length = r1cs.numIo)
    (tr : Transcript) (p : Prover (List (FoldMsg F (n + 3) ⊕ Fin (2 ^ 64))) (List F) (FoldOutput F G1 (n + 3))) (q : ℕ)
    (hq : Cost FoldOutput.msgs p q) :
    (Finset.univ.filter fun G => Convinces env P s n r1cs a0 tr p G ∧
      ¬ SeedCollision (foldSeed env (Srs.newFromSecret P s n) (tr.data.getD [])) FoldOutput.msgs
        (fun l => G (foldSeed env (Srs.newFromSecret P s n) (tr.data.getD []) l)) p).card * Fintype.card F ≤
      q * 2 * Fintype.card F ^ 2 ^ 64 := by
  have hmain := card_escape_le (foldSeed env (Srs.newFromSecret P s n) (tr.data.getD [])) (FoldDoomed r1cs a0) (by
      intro fs hfs _ hviol
      obtain rfl : fs = [] := by simpa using hfs.symm
      rcases hviol with h | ⟨m, hm, -⟩
      · exact h
      · simp at hm) 2 (fun ms rs m hlen hD => foldDoomed_step r1cs a0 ha0 ms rs m hlen hD) FoldOutput.msgs p q hq
  rw [Fintype.card_fin] at hmain
  refine le_trans (Nat.mul_le_mul_right _ (Finset.card_le_card fun G hG => ?_)) hmain
  rw [Finset.mem_filter_univ] at hG ⊢
  obtain ⟨⟨hcon, hx, hviol, hacc, hfw⟩, hcol⟩ := hG
  refine ⟨fun hD => ?_, hcol⟩
  generalize p.out (Oracle.challenges fun l => G (foldSeed env (Srs.newFromSecret P s n) (tr.data.getD []) l)) = o at *
  obtain ⟨hch, hsat⟩ := checks_challenges env P s n hdig r1cs o.fw G o.steps a0 tr hcon hacc
  have hmm : o.msgs = (o.steps.map (·.1)).map Sum.inl := by simp [FoldOutput.msgs]
  have hch' : Oracle.challenges (fun l => G (foldSeed env (Srs.newFromSecret P s n) (tr.data.getD []) l)) o.msgs =
      o.steps.map (·.2.r) := hch
  rw [hch'] at hD
  refine hD _ hmm ?_ ?_ (holds_of_satisfied P s n r1cs _ o.fw hfw hsat)
  · intro m hm
    rw [List.mem_map] at hm
    obtain ⟨x, hx', rfl⟩ := hm
    exact hx x hx'
  · rcases hviol with h | ⟨m, hm, h⟩
    · exact .inl h
    · exact .inr ⟨m.1, List.mem_map_of_mem hm, h⟩

/-- The vector with the given first two entries. -/
def two {N : ℕ} (x y : F) : Fin N → F := fun i => [x, y].getD i 0

theorem vecOf_two (n : ℕ) (x y : F) : vecOf 2 (two x y : Fin (n + 3) → F) = [x, y] := by
  simp [vecOf, two, List.range_succ]

/-- **C108** (counterexample, as a prover): there is a prover that evaluates the generator three times and convinces the
verifier of a folding of an instance that does not hold, for every generator except those with the value zero at the seed of
its first question: the fraction is `(|F| - 1) / |F|`, whatever the hash. -/
theorem C108_cheating_prover (env : Env F G1 B) (P : PairingGroups F G1 G2 GT) (s : F) (n : ℕ)
    (hdig : ∀ b, 8 ≤ (env.digest b).length) (tr : Transcript) :
    ∃ (a0 : Claim F (n + 3)) (m : FoldMsg F (n + 3))
      (p : Prover (List (FoldMsg F (n + 3) ⊕ Fin (2 ^ 64))) (List F) (FoldOutput F G1 (n + 3))),
      a0.Holds trapR1cs ∧ Cost FoldOutput.msgs p 3 ∧
      ∀ G : Fin (2 ^ 64) → F, G (foldSeed env (Srs.newFromSecret P s n) (tr.data.getD []) [.inl m]) ≠ 0 →
        Convinces env P s n trapR1cs a0 tr p G := by
  set srs := Srs.newFromSecret P s n with hsrs
  let a0 : Claim F (n + 3) := ⟨two 1 1, two 0 0, [0], 1⟩
  let t : Fin (n + 3) → F := two 0 1
  let c : F → Claim F (n + 3) := fun r => ⟨two (r - r) ((1 + r) * (1 + r) / r - r), two 0 0, [1], 1⟩
  let acc : F → Claim F (n + 3) := fun r => ⟨two r ((1 + r) * (1 + r) / r), two 0 r, [1], 1 + r⟩
  have hfold : ∀ r, Claim.fold r (c r) a0 t = acc r := by
    intro r
    simp only [Claim.fold, c, a0, t, acc, Claim.mk.injEq]
    refine ⟨?_, ?_, by simp, by simp⟩ <;> funext ⟨i, hi⟩ <;> rcases i with _ | _ | i <;> simp [two]
  have hbeyond : ∀ (x y : F) (i : Fin (n + 3)), 2 ≤ (i : ℕ) → two x y i = 0 := by
    intro x y i hi
    exact getD_eq_of_le (by simpa using hi)
  have hholds : ∀ r, r ≠ 0 → (acc r).Holds trapR1cs := by
    intro r hr
    refine ⟨fun i hi => hbeyond _ _ i hi, fun i hi => hbeyond _ _ i hi, ?_⟩
    change RelaxedSat trapR1cs (vecOf 2 (two r _) ++ [1] ++ [1 + r]) (vecOf 2 (two 0 r)) (1 + r)
    rw [vecOf_two, vecOf_two]
    refine ⟨rfl, le_rfl, rfl, fun i hi => ?_⟩
    simp only [List.length_cons, List.length_nil] at hi
    obtain rfl | rfl : i = 0 ∨ i = 1 := by omega
    · simp [trapR1cs, dot, Finset.sum_range_succ]
      field_simp
    · simp [trapR1cs, dot, Finset.sum_range_succ]
  have ha0 : a0.Holds trapR1cs := by
    refine ⟨fun i hi => hbeyond _ _ i hi, fun i hi => hbeyond _ _ i hi, ?_⟩
    change RelaxedSat trapR1cs (vecOf 2 (two 1 1) ++ [0] ++ [1]) (vecOf 2 (two 0 0)) 1
    rw [vecOf_two, vecOf_two]
    refine ⟨rfl, le_rfl, rfl, fun i hi => ?_⟩
    simp only [List.length_cons, List.length_nil] at hi
    obtain rfl | rfl : i = 0 ∨ i = 1 := by omega
    · simp [trapR1cs, dot, Finset.sum_range_succ]
    · simp [trapR1cs, dot, Finset.sum_range_succ]
  have hbad : ∀ r, ¬ (c r).Holds trapR1cs := by
    rintro r ⟨-, -, hs⟩
    change RelaxedSat trapR1cs (vecOf 2 (two _ _) ++ [1] ++ [1]) (vecOf 2 (two 0 0)) 1 at hs
    rw [vecOf_two, vecOf_two] at hs
    have r0 := hs.row 0 (by simp)
    simp [trapR1cs, dot, Finset.sum_range_succ] at r0
  have hsat : ∀ r, r ≠ 0 → isR1csSatisfied trapR1cs ((acc r).inst srs) ⟨[0, r], [r, (1 + r) * (1 + r) / r]⟩ srs =
      some (.ok ()) := by
    intro r hr
    have := C81_holds_accepted P n trapR1cs (acc r) rfl (hholds r hr) s
    change isR1csSatisfied trapR1cs _ ⟨vecOf 2 (two 0 r), vecOf 2 (two r _)⟩ _ = _ at this
    rw [vecOf_two, vecOf_two] at this
    exact this
  have hopen : ∀ r z, ∃ oW oE, r ≠ 0 → Kzg.verify P srs (comb srs (acc r).w) oW z = true ∧
      Kzg.verify P srs (comb srs (acc r).e) oE z = true := by
    intro r z
    by_cases hr : r = 0
    · exact ⟨⟨0, 0⟩, ⟨0, 0⟩, fun h => absurd hr h⟩
    obtain ⟨-, -, -, hW, hE⟩ := (C27_satisfied_iff _ _ _ _).1 (hsat r hr)
    obtain ⟨oE, -, hvE⟩ := openVector_verifies P s n ⟨r, by simp, hr⟩ ((commitVector_iff _ _ _).2 hE) z
    obtain ⟨oW, -, hvW⟩ := openVector_verifies P s n ⟨r, by simp, hr⟩ ((commitVector_iff _ _ _).2 hW) z
    exact ⟨oW, oE, fun _ => ⟨hvW, hvE⟩⟩
  choose oW oE hO using hopen
  let D : List UInt8 := foldDigest env (tr.data.getD []) 1 1 (comb srs t)
  let zs : F → Fin (2 ^ 64) := fun r =>
    ⟨fromLeBytes ((openDigest env D (comb srs (acc r).e) (comb srs (acc r).w)).take 8), seed_lt _⟩
  refine ⟨a0, ⟨a0, a0, t⟩, .ask [.inl ⟨a0, a0, t⟩] fun as => .ask [.inr (zs (as.getD 0 0))] fun bs =>
    .done ⟨[(⟨c (as.getD 0 0), a0, t⟩, ⟨as.getD 0 0, bs.getD 0 0, oE (as.getD 0 0) (bs.getD 0 0),
      oW (as.getD 0 0) (bs.getD 0 0)⟩)], ⟨[0, as.getD 0 0], [as.getD 0 0,
        (1 + as.getD 0 0) * (1 + as.getD 0 0) / as.getD 0 0]⟩⟩, ha0, ?_, ?_⟩
  · simp only [Cost, List.length_singleton, FoldOutput.msgs, List.map_cons, List.map_nil]
    exact ⟨by omega, fun _ => ⟨by omega, fun _ => by omega⟩⟩
  · intro G hG
    set r := G (foldSeed env srs (tr.data.getD []) [.inl ⟨a0, a0, t⟩]) with hr
    have hrD : r = challengeOf (withGen env G) D := by rw [challengeOf_withGen]; rfl
    set z := G (zs r) with hz
    have hzD : z = challengeOf (withGen env G) (openDigest env D (comb srs (acc r).e) (comb srs (acc r).w)) := by
      rw [challengeOf_withGen]
    have hfi : nifsVerifier r ((c r).inst srs) (a0.inst srs) (comb srs t) = (acc r).inst srs := by
      rw [← inst_fold, hfold]
    unfold Convinces
    dsimp only [Prover.out, Oracle.challenges, prefixes, List.inits, List.tail, List.map, List.getD_cons_zero]
    change Consistent a0 [⟨c r, a0, t⟩] [r] ∧ (∀ m ∈ [((⟨c r, a0, t⟩ : FoldMsg F (n + 3)),
      (⟨r, z, oE r z, oW r z⟩ : NIFSProof F G1))], m.1.c.x.length = 1) ∧
      (¬ a0.Holds trapR1cs ∨ ∃ m ∈ [((⟨c r, a0, t⟩ : FoldMsg F (n + 3)), (⟨r, z, oE r z, oW r z⟩ : NIFSProof F G1))],
        ¬ m.1.c.Holds trapR1cs) ∧
      FoldsAndChecks (withGen env G) P srs trapR1cs ⟨[0, r], [r, (1 + r) * (1 + r) / r]⟩ (a0.inst srs) tr
        [((c r).inst srs, comb srs t, ⟨r, z, oE r z, oW r z⟩)] ∧
      ∀ i : Fin (n + 3), [r, (1 + r) * (1 + r) / r].getD i 0 = (Claim.fold r (c r) a0 t).w i ∧
        [0, r].getD i 0 = (Claim.fold r (c r) a0 t).e i
    refine ⟨⟨rfl, trivial⟩, ?_, .inr ⟨_, List.mem_singleton.2 rfl, hbad r⟩, ?_, ?_⟩
    · intro m hm
      rw [List.mem_singleton] at hm
      subst hm
      rfl
    · rw [FoldsAndChecks]
      dsimp only
      rw [hfi]
      obtain ⟨res, tr', hv, hiff⟩ := C33_verify_iff (withGen env G) P s n hdig ⟨r, z, oE r z, oW r z⟩ ((c r).inst srs)
        (a0.inst srs) ((acc r).inst srs) (comb srs t) tr
      have hok : res = .ok () := hiff.2 ⟨hrD, hzD, (verify_iff _ _ _ _ _ _).1 (hO r z hG).1,
        (verify_iff _ _ _ _ _ _).1 (hO r z hG).2⟩
      subst hok
      exact ⟨tr', hv, hsat r hG⟩
    · intro i
      rw [hfold]
      exact ⟨rfl, rfl⟩

/-- Non-vacuity of the partial theorem: an accumulator of the right shape and a prover with bounded cost. -/
example (tr : Transcript) : ∃ (a0 : Claim ℚ 4)
    (p : Prover (List (FoldMsg ℚ 4 ⊕ Fin (2 ^ 64))) (List ℚ) (FoldOutput ℚ ℚ 4)),
    a0.x.length = (trapR1cs : R1CS ℚ).numIo ∧ Cost FoldOutput.msgs p 3 := by
  obtain ⟨a0, m, p, -, h, -⟩ := C108_cheating_prover toyEnv (trivialGroups ℚ) 7 1
    (fun b => by rw [toyEnv_digest]; norm_num) tr
  exact ⟨⟨fun _ => 0, fun _ => 0, [0], 1⟩, p, rfl, h⟩

end Verif.Nova

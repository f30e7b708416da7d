import Verif.Nova.Model
import Verif.Plonk.Compiled

/-!
# C123: how many hash values decide a PLONK or Nova verdict

As in C120 the cost is stated through what can be observed: the verdict is the same for all digest functions that agree on a
short list of strings, and for all generators that agree on a short list of draws.  The lists depend on the proof only.
-/

set_option linter.unusedSectionVars false

namespace Verif.HashCost

open Verif.Ark

/-! ## PLONK -/

section plonk

open Verif.Plonk

variable {F : Type} [FftField F] [DecidableEq F] {G1 G2 GT : Type} [AddCommGroup G1] [Module F G1]
  [AddCommGroup G2] [Module F G2] [AddCommGroup GT] [Module F GT] [DecidableEq GT]

/-- `env'` serializes points as `env` does and draws the same field elements at the (seed, position) pairs in `R`. -/
def SameDraws (env env' : Plonk.Env F G1) (R : List (ℕ × ℕ)) : Prop :=
  env'.serG = env.serG ∧ ∀ q ∈ R, env'.rand q.1 q.2 = env.rand q.1 q.2

/-- The data of the challenge generator after feeding `l`, from `s`. -/
def dataAfter (env : Plonk.Env F G1) (dig : List UInt8 → List UInt8) (s : Option (List UInt8)) (l : List G1) :
    Option (List UInt8) :=
  l.foldl (fun s x => some (dig (s.getD [] ++ env.serG x))) s

/-- The strings digested while `l` is fed. -/
def feedReads (env : Plonk.Env F G1) (dig : List UInt8 → List UInt8) : Option (List UInt8) → List G1 → List (List UInt8)
  | _, [] => []
  | s, x :: l => (s.getD [] ++ env.serG x) :: feedReads env dig (some (dig (s.getD [] ++ env.serG x))) l

theorem feedReads_length (env : Plonk.Env F G1) (dig : List UInt8 → List UInt8) (s : Option (List UInt8)) (l : List G1) :
    (feedReads env dig s l).length = l.length := by
  induction l generalizing s with
  | nil => rfl
  | cons x l ih => rw [feedReads, List.length_cons, ih, List.length_cons]

theorem feedReads_append (env : Plonk.Env F G1) (dig : List UInt8 → List UInt8) (s : Option (List UInt8)) (l l' : List G1) :
    feedReads env dig s (l ++ l') = feedReads env dig s l ++ feedReads env dig (dataAfter env dig s l) l' := by
  induction l generalizing s with
  | nil => rfl
  | cons x l ih => rw [List.cons_append, feedReads, feedReads, ih]; rfl

/-- Feeding a list of points to a generator. -/
def feedAll (env : Plonk.Env F G1) (dig : List UInt8 → List UInt8) (c : ChallengeGenerator) (l : List G1) :
    ChallengeGenerator := l.foldl (fun c x => c.feed env dig x) c

theorem feedAll_agree (env env' : Plonk.Env F G1) (hs : env'.serG = env.serG) (dig dig' : List UInt8 → List UInt8) (l : List G1)
    (c : ChallengeGenerator) (h : ∀ x ∈ feedReads env dig c.data l, dig' x = dig x) :
    feedAll env' dig' c l = feedAll env dig c l ∧ (feedAll env dig c l).data = dataAfter env dig c.data l := by
  induction l generalizing c with
  | nil => exact ⟨rfl, rfl⟩
  | cons x l ih =>
    have h1 := h _ (by rw [feedReads]; exact List.mem_cons_self)
    have e : c.feed env' dig' x = c.feed env dig x := by
      unfold ChallengeGenerator.feed
      rw [hs, h1]
    have := ih (c.feed env dig x) (fun y hy => h y (by rw [feedReads]; exact List.mem_cons_of_mem _ hy))
    unfold feedAll dataAfter at *
    rw [List.foldl_cons, List.foldl_cons, List.foldl_cons, e]
    exact this

/-- The seed of a generator with these data. -/
def seedOf (s : Option (List UInt8)) : ℕ := fromLeBytes ((s.getD []).take 8)

theorem rngSeed_eq {c : ChallengeGenerator} {st : ℕ × ChallengeGenerator} (h : c.rngSeed = some st) :
    st.1 = seedOf c.data ∧ st.2.data = c.data := by
  unfold ChallengeGenerator.rngSeed at h
  split at h
  · simp at h
  · cases hd : c.data with
    | none => rw [hd] at h; simp at h
    | some d =>
      rw [hd] at h
      simp only [Option.bind_eq_bind, Option.bind_some] at h
      split at h
      · simp at h
      · obtain rfl := Option.some.inj h
        exact ⟨rfl, rfl⟩

theorem generate1_agree (env env' : Plonk.Env F G1) (c : ChallengeGenerator)
    (h : env'.rand (seedOf c.data) 0 = env.rand (seedOf c.data) 0) :
    c.generate1 env' = c.generate1 env ∧ ∀ r, c.generate1 env = some r → r.2.data = c.data := by
  unfold ChallengeGenerator.generate1 ChallengeGenerator.generateChallenges
  cases hs : c.rngSeed with
  | none => simp
  | some st =>
    obtain ⟨h1, h2⟩ := rngSeed_eq hs
    simp only [Option.bind_eq_bind, Option.bind_some, Option.pure_def]
    rw [← h1] at h
    simp [List.range_succ, h, ← h2]

theorem generate2_agree (env env' : Plonk.Env F G1) (c : ChallengeGenerator)
    (h : env'.rand (seedOf c.data) 0 = env.rand (seedOf c.data) 0)
    (h' : env'.rand (seedOf c.data) 1 = env.rand (seedOf c.data) 1) :
    c.generate2 env' = c.generate2 env ∧ ∀ r, c.generate2 env = some r → r.2.data = c.data := by
  unfold ChallengeGenerator.generate2 ChallengeGenerator.generateChallenges
  cases hs : c.rngSeed with
  | none => simp
  | some st =>
    obtain ⟨h1, h2⟩ := rngSeed_eq hs
    simp only [Option.bind_eq_bind, Option.bind_some, Option.pure_def]
    rw [← h1] at h h'
    simp [List.range_succ, h, h', ← h2]

/-- **C123** (PLONK): the verdict depends on at most 15 values of the digest and on at most 6 drawn field elements.  Which
these are depends only on the proof and the first point of the setup: they are the same for every circuit, every setup with that
point and every pairing. -/
theorem C123_plonk (env : Plonk.Env F G1) (dig : List UInt8 → List UInt8) (g : Option G1) (p : Proof F G1) :
    ∃ (D : List (List UInt8)) (R : List (ℕ × ℕ)), D.length ≤ 15 ∧ R.length ≤ 6 ∧
      ∀ (env' : Plonk.Env F G1) (dig' : List UInt8 → List UInt8), SameDraws env env' R → (∀ x ∈ D, dig' x = dig x) →
        ∀ (P : Kzg.PairingGroups F G1 G2 GT) (cc : CompiledCircuit F) (srs : Kzg.Srs G1 G2), srs.g1Points.head? = g →
          verify env' dig' P cc srs p = verify env dig P cc srs p := by
  let gg : G1 := g.getD 0
  let L1 := [p.aC, p.bC, p.cC]
  let L2 := [p.zC]
  let L3 := [p.tLoC, p.tMidC, p.tHiC]
  let L4 := [p.bars.a • gg, p.bars.b • gg, p.bars.c • gg, p.bars.s1 • gg, p.bars.s2 • gg, p.bars.zw • gg]
  let L5 := [p.wC, p.wwC]
  let s1 := dataAfter env dig none L1
  let s2 := dataAfter env dig s1 L2
  let s3 := dataAfter env dig s2 L3
  let s4 := dataAfter env dig s3 L4
  let s5 := dataAfter env dig s4 L5
  refine ⟨feedReads env dig none L1 ++ feedReads env dig s1 L2 ++ feedReads env dig s2 L3 ++ feedReads env dig s3 L4 ++
      feedReads env dig s4 L5,
    [(seedOf s1, 0), (seedOf s1, 1), (seedOf s2, 0), (seedOf s3, 0), (seedOf s4, 0), (seedOf s5, 0)],
    by simp [feedReads_length, L1, L2, L3, L4, L5], by simp, fun env' dig' hR hD P cc srs hg => ?_⟩
  obtain ⟨hs, hR⟩ := hR
  simp only [List.mem_append, or_imp, forall_and] at hD
  obtain ⟨⟨⟨⟨hD1, hD2⟩, hD3⟩, hD4⟩, hD5⟩ := hD
  simp only [List.mem_cons, List.not_mem_nil, or_false, forall_eq_or_imp, forall_eq] at hR
  obtain ⟨r1, r1', r2, r3, r4, r5⟩ := hR
  have feed : ∀ (c : ChallengeGenerator) (s : Option (List UInt8)) (l : List G1), c.data = s →
      (∀ x ∈ feedReads env dig s l, dig' x = dig x) →
      feedAll env' dig' c l = feedAll env dig c l ∧ (feedAll env dig c l).data = dataAfter env dig s l := by
    intro c s l hc h
    subst hc
    exact feedAll_agree env env' hs dig dig' l c h
  have hvc : verifyChallenges env' dig' p srs = verifyChallenges env dig p srs := by
    unfold verifyChallenges
    obtain ⟨e1, d1⟩ := feed .default none L1 rfl hD1
    have g1 := generate2_agree env env' (feedAll env dig .default L1) (by rw [d1]; exact r1) (by rw [d1]; exact r1')
    refine Option.bind_congr' ((congrArg _ e1).trans g1.1) fun bg hbg => ?_
    have db := (g1.2 bg hbg).trans d1
    obtain ⟨e2, d2⟩ := feed bg.2 s1 L2 db hD2
    have g2 := generate1_agree env env' (feedAll env dig bg.2 L2) (by rw [d2]; exact r2)
    refine Option.bind_congr' ((congrArg _ e2).trans g2.1) fun al hal => ?_
    have da := (g2.2 al hal).trans d2
    obtain ⟨e3, d3⟩ := feed al.2 s2 L3 da hD3
    have g3 := generate1_agree env env' (feedAll env dig al.2 L3) (by rw [d3]; exact r3)
    refine Option.bind_congr' ((congrArg _ e3).trans g3.1) fun evc hev => ?_
    have de := (g3.2 evc hev).trans d3
    obtain ⟨e4, d4⟩ := feed evc.2 s3 L4 de hD4
    have hfb : ∀ (en : Plonk.Env F G1) (di : List UInt8 → List UInt8), feedBars en di srs p.bars evc.2 =
        g.map fun _ => feedAll en di evc.2 L4 := by
      intro en di
      unfold feedBars Kzg.commitPara
      rw [hg]
      cases g with
      | none => rfl
      | some x => rfl
    refine Option.bind_congr' ?_ fun ch3 hch => ?_
    · rw [hfb, hfb, e4]
    have hc3 : ch3 = feedAll env dig evc.2 L4 := by
      rw [hfb] at hch
      cases g with
      | none => simp at hch
      | some x => simpa using hch.symm
    have dc : ch3.data = s4 := by rw [hc3]; exact d4
    have g4 := generate1_agree env env' ch3 (by rw [dc]; exact r4)
    refine Option.bind_congr' g4.1 fun vc hv => ?_
    have dv := (g4.2 vc hv).trans dc
    obtain ⟨e5, d5⟩ := feed vc.2 s4 L5 dv hD5
    have g5 := generate1_agree env env' (feedAll env dig vc.2 L5) (by rw [d5]; exact r5)
    exact Option.bind_congr' ((congrArg _ e5).trans g5.1) fun _ _ => rfl
  unfold verify
  rw [hvc]

/-- Non-vacuity: the accepted example proof is still accepted when the digest is replaced by the empty string at all but 15
strings and every other draw by 7. -/
example : ∃ (p : Proof BlsFr BlsFr) (D : List (List UInt8)) (R : List (ℕ × ℕ)), D.length ≤ 15 ∧ R.length ≤ 6 ∧
    verify { exEnv with rand := fun s k => if (s, k) ∈ R then exEnv.rand s k else 7 }
      (fun x => if x ∈ D then exEnv.sha256 x else []) (Kzg.trivialGroups BlsFr) exCC
      (Kzg.Srs.newFromSecret (Kzg.trivialGroups BlsFr) 11 2) p = some (.ok ()) := by
  obtain ⟨p, hp⟩ := Option.isSome_iff_exists.1 exRun_isSome
  obtain ⟨D, R, h1, h2, h⟩ := C123_plonk (G2 := BlsFr) (GT := BlsFr) exEnv exEnv.sha256
    (Kzg.Srs.newFromSecret (Kzg.trivialGroups BlsFr) 11 2).g1Points.head? p
  refine ⟨p, D, R, h1, h2, ?_⟩
  rw [h { exEnv with rand := fun s k => if (s, k) ∈ R then exEnv.rand s k else 7 } _
    ⟨rfl, fun q hq => by simp [hq]⟩ (fun x hx => by simp [hx]) _ _ _ rfl]
  refine C49_compiled exEnv exEnv.sha256 exEnv_len (Kzg.trivialGroups BlsFr) 11 2 exampleCalls exCC exCC_compiled
    (by decide) exBl p (by rw [exRun_eq, hp]) ?_
  have := exRun_ev
  rw [hp, Option.map_some, Option.some.injEq, decide_eq_false_iff_not] at this
  exact this

end plonk

/-! ## Nova -/

section nova

open Verif.Nova

variable {F G1 G2 GT B : Type} [Field F] [DecidableEq F] [AddCommGroup G1] [Module F G1]
  [AddCommGroup G2] [Module F G2] [AddCommGroup GT] [Module F GT] [DecidableEq GT] [Field B] [DecidableEq B] [DecidableEq G1]

/-- `env'` serializes and converts as `env` does, digests the strings in `D` and draws at the pairs in `R` the same. -/
def SameReads (env env' : Nova.Env F G1 B) (D : List (List UInt8)) (R : List (ℕ × ℕ)) : Prop :=
  env'.serF = env.serF ∧ env'.serG = env.serG ∧ env'.serB = env.serB ∧ env'.toBase = env.toBase ∧
    env'.toScalar = env.toScalar ∧ (∀ x ∈ D, env'.digest x = env.digest x) ∧ ∀ q ∈ R, env'.rand q.1 q.2 = env.rand q.1 q.2

/-- The seed of a transcript. -/
def seedOfT (t : Transcript) : ℕ := fromLeBytes ((t.data.getD []).take 8)

theorem generateOne_agree (env env' : Nova.Env F G1 B) (t : Transcript)
    (h : env'.rand (seedOfT t) 0 = env.rand (seedOfT t) 0) :
    t.generateOne env' = t.generateOne env ∧ ∀ r, t.generateOne env = some r → r.2.data = t.data := by
  unfold Transcript.generateOne Transcript.generateChallenges Transcript.rngSeed
  split
  · simp
  · split
    · simp
    · simp [List.range_succ, seedOfT] at h ⊢
      exact h

/-- The strings that `NIFS::verify` digests, and the positions at which it draws. -/
theorem nifs_reads (env : Nova.Env F G1 B) (u1 u2 : F) (comT comE comW : G1) (tr : Transcript) :
    ∃ (D : List (List UInt8)) (R : List (ℕ × ℕ)), D.length = 5 ∧ R.length = 2 ∧
      ∀ env' : Nova.Env F G1 B, SameReads env env' D R →
        ∀ (proof : NIFSProof F G1) (fi1 fi2 fi3 : FInstance F G1), fi1.u = u1 → fi2.u = u2 → fi3.comE = comE → fi3.comW = comW →
          ∀ (P : Kzg.PairingGroups F G1 G2 GT) (srs : Kzg.Srs G1 G2),
            nifsVerify env' P proof fi1 fi2 fi3 comT srs tr = nifsVerify env P proof fi1 fi2 fi3 comT srs tr := by
  let i1 := tr.data.getD [] ++ env.serF u1
  let i2 := env.digest i1 ++ env.serF u2
  let i3 := env.digest i2 ++ env.serG comT
  let i4 := env.digest i3 ++ env.serG comE
  let i5 := env.digest i4 ++ env.serG comW
  refine ⟨[i1, i2, i3, i4, i5], [(fromLeBytes ((env.digest i3).take 8), 0), (fromLeBytes ((env.digest i5).take 8), 0)], rfl, rfl,
    ?_⟩
  rintro env' ⟨sF, sG, -, -, -, hD, hR⟩ proof fi1 fi2 fi3 rfl rfl rfl rfl P srs
  simp only [List.mem_cons, List.not_mem_nil, or_false, forall_eq_or_imp, forall_eq] at hD hR
  obtain ⟨h1, h2, h3, h4, h5⟩ := hD
  obtain ⟨r1, r2⟩ := hR
  have ef : feedFold env' tr fi1.u fi2.u comT = feedFold env tr fi1.u fi2.u comT := by
    unfold feedFold Transcript.feed Transcript.feedScalarNum
    dsimp only [Option.getD_some]
    rw [sF, sG, h1, h2, h3]
  have hv : verifyChallenge env' proof.r fi1.u fi2.u comT tr = verifyChallenge env proof.r fi1.u fi2.u comT tr := by
    unfold verifyChallenge
    rw [ef]
    rw [(generateOne_agree env env' (feedFold env tr fi1.u fi2.u comT) r1).1]
  unfold nifsVerify
  refine Option.bind_congr' hv fun res hres => ?_
  have hd : res.2.data = some (env.digest i3) := by
    unfold verifyChallenge at hres
    cases hg : (feedFold env tr fi1.u fi2.u comT).generateOne env with
    | none => rw [hg] at hres; simp at hres
    | some ct =>
      have := (generateOne_agree env env' (feedFold env tr fi1.u fi2.u comT) r1).2 ct hg
      rw [hg] at hres
      simp only [Option.bind_eq_bind, Option.bind_some, Option.pure_def] at hres
      split at hres <;> (obtain rfl := Option.some.inj hres; exact this)
  have ev : verifyOpening env' P proof fi3 srs res.2 = verifyOpening env P proof fi3 srs res.2 := by
    unfold verifyOpening
    have et : (res.2.feed env' fi3.comE).feed env' fi3.comW = (res.2.feed env fi3.comE).feed env fi3.comW := by
      unfold Transcript.feed
      dsimp only [Option.getD_some]
      rw [sG, hd, Option.getD_some, h4, h5]
    rw [et]
    rw [(generateOne_agree env env' ((res.2.feed env fi3.comE).feed env fi3.comW) (by
      have : ((res.2.feed env fi3.comE).feed env fi3.comW).data = some (env.digest i5) := by
        unfold Transcript.feed
        dsimp only [Option.getD_some]
        rw [hd, Option.getD_some]
      unfold seedOfT
      rw [this]
      exact r2)).1]
  rw [ev]

/-- **C123** (NIFS): the verdict depends on at most 5 values of the digest and 2 drawn field elements.  Which these are depends
only on the cross-term commitment, the two scalars `u`, the two commitments of the folded instance and the transcript: not on the
R1CS, the setup or the pairing. -/
theorem C123_nifs (env : Nova.Env F G1 B) (proof : NIFSProof F G1) (fi1 fi2 fi3 : FInstance F G1) (comT : G1) (tr : Transcript) :
    ∃ (D : List (List UInt8)) (R : List (ℕ × ℕ)), D.length ≤ 5 ∧ R.length ≤ 2 ∧
      ∀ env' : Nova.Env F G1 B, SameReads env env' D R → ∀ (P : Kzg.PairingGroups F G1 G2 GT) (srs : Kzg.Srs G1 G2),
        nifsVerify env' P proof fi1 fi2 fi3 comT srs tr = nifsVerify env P proof fi1 fi2 fi3 comT srs tr := by
  obtain ⟨D, R, h1, h2, h⟩ := nifs_reads (G2 := G2) (GT := GT) env fi1.u fi2.u comT fi3.comE fi3.comW tr
  exact ⟨D, R, h1.le, h2.le, fun env' he P srs => h env' he proof fi1 fi2 fi3 rfl rfl rfl rfl P srs⟩

/-- **C123** (IVC): the verdict depends on at most 6 values of the digest and 2 drawn field elements, however many steps the
proof claims. -/
theorem C123_ivc (env : Nova.Env F G1 B) (a : Aug F G1 B) (zk : ZkIVCProof F G1) (tr : Transcript) :
    ∃ (D : List (List UInt8)) (R : List (ℕ × ℕ)), D.length ≤ 6 ∧ R.length ≤ 2 ∧
      ∀ env' : Nova.Env F G1 B, SameReads env env' D R → ∀ (P : Kzg.PairingGroups F G1 G2 GT) (srs : Kzg.Srs G1 G2),
        ivcVerify env' P srs a zk tr = ivcVerify env P srs a zk tr := by
  cases hT : zk.comT with
  | none =>
    refine ⟨[], [], by simp, by simp, fun env' he P srs => ?_⟩
    unfold ivcVerify
    rw [hT]
  | some comT =>
    cases hp : zk.foldedUProof with
    | none =>
      refine ⟨[], [], by simp, by simp, fun env' he P srs => ?_⟩
      unfold ivcVerify
      rw [hT, hp]
    | some proof =>
      let out := nifsVerifier proof.r zk.ui zk.bigUi comT
      obtain ⟨D, R, h1, h2, h⟩ := C123_nifs (G2 := G2) (GT := GT) env proof zk.ui zk.bigUi out comT tr
      refine ⟨hashIoInput env a.i a.z0 a.zi zk.bigUi :: D, R, by rw [List.length_cons]; omega, h2, ?_⟩
      rintro env' ⟨sF, sG, sB, tB, tS, hD, hR⟩ P srs
      have hn := h env' ⟨sF, sG, sB, tB, tS, fun x hx => hD x (List.mem_cons_of_mem _ hx), hR⟩ P srs
      have hh : hashIo env' a.i a.z0 a.zi zk.bigUi = hashIo env a.i a.z0 a.zi zk.bigUi := by
        have e : hashIoInput env' a.i a.z0 a.zi zk.bigUi = hashIoInput env a.i a.z0 a.zi zk.bigUi := by
          unfold hashIoInput
          rw [sF, sG, sB]
        unfold hashIo
        rw [e, tB, hD _ List.mem_cons_self]
      unfold ivcVerify
      rw [hT, hp]
      dsimp only
      rw [hh, tS, hn]

/-- Non-vacuity: the digest may be changed at all but 6 strings and the generator at all but 2 draws. -/
example (env : Nova.Env F G1 B) (a : Aug F G1 B) (zk : ZkIVCProof F G1) (tr : Transcript)
    (P : Kzg.PairingGroups F G1 G2 GT) (srs : Kzg.Srs G1 G2) :
    ∃ (D : List (List UInt8)) (R : List (ℕ × ℕ)), D.length ≤ 6 ∧ R.length ≤ 2 ∧
      ivcVerify { env with digest := fun x => if x ∈ D then env.digest x else [],
                           rand := fun s k => if (s, k) ∈ R then env.rand s k else 7 } P srs a zk tr =
        ivcVerify env P srs a zk tr := by
  obtain ⟨D, R, h1, h2, h⟩ := C123_ivc (G2 := G2) (GT := GT) env a zk tr
  exact ⟨D, R, h1, h2, h { env with digest := fun x => if x ∈ D then env.digest x else [],
                                    rand := fun s k => if (s, k) ∈ R then env.rand s k else 7 }
    ⟨rfl, rfl, rfl, rfl, rfl, fun x hx => by simp [hx], fun q hq => by simp [hq]⟩ P srs⟩

end nova

end Verif.HashCost

import Verif.Nova.Degenerate
import Verif.Nova.Circuit

/-!
# C88 (Nova): the shipped program runs to the end, except for few challenges

`nova/examples/examples.rs` (modelled by `exampleMain`, any number of steps) folds once per step.  A fold panics if
the folded error vector or the folded witness is identically zero (C40).  Here: this concerns at most three values of
the folding challenge of the step; from the second fold on without any condition on the inputs.
-/

set_option linter.unusedSectionVars false

namespace Verif.Nova

open Verif.Ark Verif.Kzg

variable {F G1 G2 GT B : Type} [Field F] [DecidableEq F] [AddCommGroup G1] [Module F G1] [DecidableEq G1]
  [AddCommGroup G2] [Module F G2] [AddCommGroup GT] [Module F GT] [DecidableEq GT]
  [Field B] [DecidableEq B]

/-! ## Specification -/

/-- Folding a fresh witness `w` with public inputs `x` into the pair `(fw, fi)` is not degenerate: one of the
witnesses is not zero, and the error vector and the cross terms are not all zero. -/
def FoldNondegenerate (r1cs : R1CS F) (w x : List F) (fw : FWitness F) (fi : FInstance F G1) : Prop :=
  (∃ a ∈ w ++ fw.w, a ≠ 0) ∧
    ∃ i < r1cs.matrixA.length, fw.e.getD i 0 ≠ 0 ∨ crossTerm r1cs 1 fi.u (w ++ x ++ [1]) (zVec fw fi) i ≠ 0

/-- The public input of the fresh instance of the next step, if `F` returned `z`: the hash of the next state
(`nova/examples/examples.rs` lines 117-126). -/
def Loop.nextInput (env : Env F G1 B) (st : Loop F G1 B) (z : B) : F :=
  env.toScalar (hashIo env ((st.step + 1 : ℕ) : B) st.aug.z0 z st.fi)

/-- The folding challenge the loop draws when it folds the raw witness `w` in state `st`, if `F` returned `z`
(`none` if the prover panics before). -/
def Loop.nextChallenge (env : Env F G1 B) (srs : Srs G1 G2) (r1cs : R1CS F) (st : Loop F G1 B) (z : B)
    (w : List F) : Option F := do
  let u ← (FWitness.new w r1cs.matrixA.length).commit srs [st.nextInput env z]
  let out ← nifsProver env r1cs (FWitness.new w r1cs.matrixA.length) st.fw u st.fi srs .default
  pure out.1.2.2.2

/-! ## Lemmas -/

theorem fold_few_bad (r1cs : R1CS F) (w x : List F) (fw : FWitness F) (fi : FInstance F G1) :
    ∃ S : Finset F, S.card ≤ 3 ∧ ∀ r, r ∉ S → FoldNondegenerate r1cs w x fw fi →
      (∃ i, w.getD i 0 + r * fw.w.getD i 0 ≠ 0) ∧
      ∃ i < r1cs.matrixA.length,
        r * crossTerm r1cs 1 fi.u (w ++ x ++ [1]) (zVec fw fi) i + r * r * fw.e.getD i 0 ≠ 0 := by
  by_cases hnd : FoldNondegenerate r1cs w x fw fi
  swap
  · exact ⟨∅, by simp, fun r _ h => absurd h hnd⟩
  obtain ⟨⟨a, ha, ha0⟩, i, hi, hrow⟩ := hnd
  have hW : AllBut 1 fun r : F => ∃ i, w.getD i 0 + r * fw.w.getD i 0 ≠ 0 := by
    obtain ⟨i, hi⟩ : ∃ i, w.getD i 0 ≠ 0 ∨ fw.w.getD i 0 ≠ 0 := by
      rcases List.mem_append.1 ha with h | h
      · obtain ⟨i, hi⟩ := exists_getD.1 ⟨a, h, ha0⟩; exact ⟨i, .inl hi⟩
      · obtain ⟨i, hi⟩ := exists_getD.1 ⟨a, h, ha0⟩; exact ⟨i, .inr hi⟩
    by_cases h2 : fw.w.getD i 0 = 0
    · refine ⟨∅, by simp, fun r _ => ⟨i, ?_⟩⟩
      rw [h2, mul_zero, add_zero]
      exact hi.resolve_right (not_not.2 h2)
    · refine ⟨{-(w.getD i 0) / fw.w.getD i 0}, by simp, fun r hr => ⟨i, fun h => hr ?_⟩⟩
      rw [Finset.mem_singleton, eq_div_iff h2]
      linear_combination h
  have hE := quadratic_ne_zero (0 : F) (crossTerm r1cs 1 fi.u (w ++ x ++ [1]) (zVec fw fi) i) (fw.e.getD i 0)
    (by rcases hrow with h | h; exacts [.inr (.inr h), .inr (.inl h)])
  obtain ⟨S, hS, h⟩ := allBut_and hW hE
  refine ⟨S, hS, fun r hr _ => ⟨(h r hr).1, i, hi, ?_⟩⟩
  have := (h r hr).2
  rwa [zero_add] at this

/-- After a fold the folded vectors are not zero. -/
theorem advance_nonzero {env : Env F G1 B} {P : PairingGroups F G1 G2 GT} {s : F} {n : ℕ} {r1cs : R1CS F}
    {wLen : ℕ} {z0 : B} {st st' : Loop F G1 B} {a : Aug F G1 B} {z : B} {wx : List F × List F}
    (hdig : ∀ b, 8 ≤ (env.digest b).length)
    (hinv : LoopInv env P s n r1cs wLen z0 st) (hchar : ((st.step + 1 : ℕ) : B) ≠ 0)
    (ha : a = { st.aug with hi1 := some (hashIo env (st.aug.i + 1) z0 z st.fi), zi1 := some z })
    (hw : wx.1.length = wLen)
    (h : st.advance env (Srs.newFromSecret P s n) r1cs a wx = some st') :
    (∃ x ∈ st'.fw.e, x ≠ 0) ∧ (∃ x ∈ st'.fw.w, x ≠ 0) := by
  obtain ⟨hinv', -⟩ := advance_inv hinv hchar ha hw h
  have h1 := hinv'.hW
  have h2 := hinv'.hE
  subst ha
  have hne : st.aug.i + 1 ≠ 0 := by rw [hinv.hi]; simpa using hchar
  simp only [Loop.advance, Aug.nextStep, Option.bind_eq_bind, Option.bind_some, pure,
    Option.bind_eq_some_iff, Option.some.injEq] at h
  obtain ⟨u0, hu0, out, hout, rfl⟩ := h
  unfold ivcProve at hout
  rw [if_pos hne] at hout
  simp only [Option.bind_eq_bind, Option.bind_eq_some_iff, pure, Option.some.injEq] at hout
  obtain ⟨⟨⟨fw, fi, comT, r⟩, tr1⟩, hp, ⟨proof, tr2⟩, hpr, rfl⟩ := hout
  simp only at hpr h1 h2 ⊢
  exact (nifsProve_iff env P s n hdig r fw fi tr1 h1 h2).1 ⟨proof, tr2, hpr⟩

theorem drive_nonzero {env : Env F G1 B} {P : PairingGroups F G1 G2 GT} {s : F} {n : ℕ} {r1cs : R1CS F}
    {wLen : ℕ} {z0 : B} (f : B → FWitness F → Option B) (hdig : ∀ b, 8 ≤ (env.digest b).length)
    (rest : List (List F × List F)) :
    ∀ {st : Loop F G1 B}, LoopInv env P s n r1cs wLen z0 st →
    (∀ k, 0 < k → k ≤ st.step + rest.length → (k : B) ≠ 0) → (∀ wx ∈ rest, wx.1.length = wLen) →
    (st.step ≠ 0 → (∃ x ∈ st.fw.e, x ≠ 0) ∧ (∃ x ∈ st.fw.w, x ≠ 0)) →
    (∀ st', st.drive env P (Srs.newFromSecret P s n) f r1cs rest = some (.ok st') →
      st'.step ≠ 0 → (∃ x ∈ st'.fw.e, x ≠ 0) ∧ (∃ x ∈ st'.fw.w, x ≠ 0)) := by
  induction rest with
  | nil =>
    intro st hinv _ _ hnz st' h
    simp only [Loop.drive, Option.some.injEq, Except.ok.injEq] at h
    subst h; exact hnz
  | cons wx rest ih =>
    intro st hinv hchar hlen hnz st' h
    simp only [List.length_cons] at hchar
    obtain ⟨hc1, hc2, -⟩ := check_ok f hinv (fun h => hchar st.step (by omega) (by omega))
    unfold Loop.drive at h
    cases hck : st.check env P (Srs.newFromSecret P s n) f with
    | none => rw [hck] at h; cases h
    | some res =>
      cases res with
      | error e => exact absurd hck (hc1 e)
      | ok a =>
        rw [hck] at h
        simp only at h
        obtain ⟨z, -, ha⟩ := hc2 a hck
        cases hadv : st.advance env (Srs.newFromSecret P s n) r1cs a wx with
        | none => rw [hadv] at h; cases h
        | some st1 =>
          rw [hadv] at h
          simp only at h
          obtain ⟨hinv1, hstep⟩ := advance_inv hinv (hchar _ (by omega) (by omega)) ha
            (hlen wx (by simp)) hadv
          exact ih hinv1 (fun k h1 h2 => hchar k h1 (by omega)) (fun y hy => hlen y (by simp [hy]))
            (fun _ => advance_nonzero hdig hinv (hchar _ (by omega) (by omega)) ha (hlen wx (by simp)) hadv) st' h

/-! ## C88 -/

/-- **C88** (one step): there are sets of at most three exceptional challenges, depending on the raw witness, the
next public input and the accumulated pair only, such that the following holds for every digest, generator, SRS and
`F`.  After any successful prefix of the program's loop the next iteration goes through, provided that `F` does not
panic, the challenge drawn is not exceptional, and, if this is the first fold, the fold is not degenerate. -/
theorem C88_ivc_step (r1cs : R1CS F)
    (hB : r1cs.matrixB.length = r1cs.matrixA.length) (hC : r1cs.matrixC.length = r1cs.matrixA.length) :
    ∃ Bad : List F → F → FWitness F → FInstance F G1 → Finset F, (∀ w x fw fi, (Bad w x fw fi).card ≤ 3) ∧
      ∀ (env : Env F G1 B) (P : PairingGroups F G1 G2 GT) (s : F) (n : ℕ) (z0 : B) (f : B → FWitness F → Option B)
        (first wx : List F × List F) (rest : List (List F × List F)) (st0 st : Loop F G1 B) (z : B),
        (∀ b, 8 ≤ (env.digest b).length) → r1cs.matrixA.length ≤ first.1.length →
        (∀ y ∈ rest, y.1.length = first.1.length) → wx.1.length = first.1.length →
        (∀ k, 0 < k → k ≤ rest.length + 1 → (k : B) ≠ 0) → first.1.length ≤ n + 3 →
        Loop.init (Srs.newFromSecret P s n) r1cs z0 first = some st0 →
        st0.drive env P (Srs.newFromSecret P s n) f r1cs rest = some (.ok st) →
        f st.aug.zi (if st.step = 0 then st.w else st.ivc.wi) = some z →
        (rest ≠ [] ∨ FoldNondegenerate r1cs wx.1 [st.nextInput env z] st.fw st.fi) →
        (∀ r, st.nextChallenge env (Srs.newFromSecret P s n) r1cs z wx.1 = some r →
          r ∉ Bad wx.1 (st.nextInput env z) st.fw st.fi) →
        ∃ st', st.drive env P (Srs.newFromSecret P s n) f r1cs [wx] = some (.ok st') := by
  choose Bad hcard hbad using fun (w : List F) (x : F) (fw : FWitness F) (fi : FInstance F G1) =>
    fold_few_bad r1cs w [x] fw fi
  refine ⟨Bad, hcard, ?_⟩
  intro env P s n z0 f first wx rest st0 st z hdig hrows hlen hwx hchar hsize h0 hst hz hnd hch
  rcases C40_panic_cause env P s n r1cs z0 f first wx rest hdig hrows hlen hwx hchar hB hC hsize st0 st h0 hst with
    h | h | ⟨z', u, fw, fi, comT, r, tr, hz', hcW, hcE, hu1, hux, hp, hzero⟩
  · exact h
  · rw [hz] at h; cases h
  exfalso
  rw [hz] at hz'
  obtain rfl := Option.some.inj hz'
  obtain ⟨hinv0, hstep0⟩ := init_inv (env := env) hrows h0
  obtain ⟨hinv, hstep⟩ := (drive_inv f rest hinv0 (fun k h1 h2 => hchar k h1 (by omega)) hlen).2 st hst
  have hnz := drive_nonzero f hdig rest hinv0 (fun k h1 h2 => hchar k h1 (by omega)) hlen
    (fun h => absurd hstep0 h) st hst
  have hin : st.nextInput env z = env.toScalar (hashIo env ((st.step + 1 : ℕ) : B) z0 z st.fi) := by
    unfold Loop.nextInput; rw [hinv.hz0]
  rw [← hin] at hux
  obtain ⟨cE, cu, cW, cx⟩ := u
  simp only at hcW hcE hu1 hux
  subst hcE hu1 hux
  -- the challenge is the one of the statement
  have hlen1 : 0 < (Srs.newFromSecret P s n).g1Points.length := by rw [srs_length]; omega
  have hcom0 : commitVector (Srs.newFromSecret P s n) (FWitness.new wx.1 r1cs.matrixA.length).e = some 0 := by
    rw [commitVector_iff]
    have hd : ∀ i, (FWitness.new wx.1 r1cs.matrixA.length).e.getD i 0 = 0 := by
      intro i
      show (List.replicate _ (0 : F)).getD i 0 = 0
      by_cases h : i < r1cs.matrixA.length
      · rw [getD_lt (by simpa using h)]; simp
      · rw [getD_eq_of_le (by simpa using h)]
    exact ⟨hlen1, fun i _ => hd i, by simp only [hd, zero_smul, Finset.sum_const_zero]⟩
  have hrb : r ∉ Bad wx.1 (st.nextInput env z) st.fw st.fi := by
    apply hch
    unfold Loop.nextChallenge FWitness.commit
    rw [hcom0, show (FWitness.new wx.1 r1cs.matrixA.length).w = wx.1 from rfl, hcW]
    simp only [Option.bind_eq_bind, Option.bind_some, pure, hp]
  -- the fold is not degenerate
  have hel := hinv.hel
  have hwl := hinv.hwl
  have hnd' : FoldNondegenerate r1cs wx.1 [st.nextInput env z] st.fw st.fi := by
    rcases hnd with h | h
    swap
    · exact h
    have hs : st.step ≠ 0 := by
      rw [hstep, hstep0]
      have : 0 < rest.length := List.length_pos_of_ne_nil h
      omega
    obtain ⟨⟨a, ha, ha0⟩, b, hb, hb0⟩ := hnz hs
    obtain ⟨i, hi⟩ := exists_getD.1 ⟨a, ha, ha0⟩
    refine ⟨⟨b, List.mem_append_right _ hb, hb0⟩, i, ?_, .inl hi⟩
    by_contra hge
    exact hi (hinv.hez i (by omega))
  obtain ⟨⟨i, hi⟩, j, hj, hjne⟩ := hbad _ _ _ _ r hrb hnd'
  simp only [nifsProver, Option.bind_eq_bind, Option.bind_eq_some_iff, pure, Option.some.injEq,
    Prod.mk.injEq] at hp
  obtain ⟨t, ht, cT, hT, ct, hct, ⟨rfl, rfl, rfl, rfl⟩, rfl⟩ := hp
  obtain ⟨-, -, htl, htc⟩ := (computeT_iff _ _ _ _ _ _).1 ht
  have hnl : (FWitness.new wx.1 r1cs.matrixA.length).e.length = r1cs.matrixA.length := by
    simp [FWitness.new]
  have hnw : (FWitness.new wx.1 r1cs.matrixA.length).w = wx.1 := rfl
  rcases hzero with hz0 | hz0
  · have hjl : j < (foldWitness ct.1 (FWitness.new wx.1 r1cs.matrixA.length) st.fw t).e.length := by
      simp only [foldWitness, List.length_map, List.length_zip, hnl]; omega
    have := hz0 _ (List.getElem_mem hjl)
    apply hjne
    have e1 : (FWitness.new wx.1 r1cs.matrixA.length).e[j]'(by omega) = 0 := by simp [FWitness.new]
    have e2 := htc j hj
    rw [getD_lt (by omega)] at e2
    rw [getD_lt (by omega)]
    simp only [foldWitness, List.getElem_map, List.getElem_zip, e1, e2] at this
    rw [zero_add] at this
    exact this
  · have hil : i < wx.1.length := by
      by_contra hge
      apply hi
      rw [getD_eq_of_le (by omega), getD_eq_of_le (by omega)]; simp
    have hil' : i < (foldWitness ct.1 (FWitness.new wx.1 r1cs.matrixA.length) st.fw t).w.length := by
      simp only [foldWitness, List.length_map, List.length_zip, hnw]; omega
    have := hz0 _ (List.getElem_mem hil')
    apply hi
    rw [getD_lt hil, getD_lt (by omega)]
    simp only [foldWitness, List.getElem_map, List.getElem_zip, hnw] at this
    linear_combination this

theorem drive_append (env : Env F G1 B) (P : PairingGroups F G1 G2 GT) (srs : Srs G1 G2)
    (f : B → FWitness F → Option B) (r1cs : R1CS F) (l l' : List (List F × List F)) :
    ∀ (st st' : Loop F G1 B), st.drive env P srs f r1cs l = some (.ok st') →
      st.drive env P srs f r1cs (l ++ l') = st'.drive env P srs f r1cs l' := by
  induction l with
  | nil =>
    intro st st' h
    simp only [Loop.drive, Option.some.injEq, Except.ok.injEq] at h
    rw [h]; rfl
  | cons wx l ih =>
    intro st st' h
    rw [List.cons_append]
    unfold Loop.drive at h
    rw [Loop.drive]
    cases hck : st.check env P srs f with
    | none => rw [hck] at h; cases h
    | some res =>
      cases res with
      | error e => rw [hck] at h; cases h
      | ok a =>
        rw [hck] at h
        simp only at h ⊢
        cases hadv : st.advance env srs r1cs a wx with
        | none => rw [hadv] at h; cases h
        | some st1 =>
          rw [hadv] at h
          exact ih st1 st' h

/-- The witness given to `F` has the length of the first raw witness throughout. -/
theorem drive_wlen (env : Env F G1 B) (P : PairingGroups F G1 G2 GT) (srs : Srs G1 G2)
    (f : B → FWitness F → Option B) (r1cs : R1CS F) (L : ℕ) (l : List (List F × List F)) :
    ∀ (st st' : Loop F G1 B), (∀ wx ∈ l, wx.1.length = L) → st.w.w.length = L → st.ivc.wi.w.length = L →
      st.drive env P srs f r1cs l = some (.ok st') → st'.w.w.length = L ∧ st'.ivc.wi.w.length = L := by
  induction l with
  | nil =>
    intro st st' _ h1 h2 h
    simp only [Loop.drive, Option.some.injEq, Except.ok.injEq] at h
    subst h; exact ⟨h1, h2⟩
  | cons wx l ih =>
    intro st st' hl h1 h2 h
    unfold Loop.drive at h
    cases hck : st.check env P srs f with
    | none => rw [hck] at h; cases h
    | some res =>
      cases res with
      | error e => rw [hck] at h; cases h
      | ok a =>
        rw [hck] at h
        simp only at h
        cases hadv : st.advance env srs r1cs a wx with
        | none => rw [hadv] at h; cases h
        | some st1 =>
          rw [hadv] at h
          simp only [Loop.advance, Option.bind_eq_bind, Option.bind_eq_some_iff, pure, Option.some.injEq] at hadv
          obtain ⟨a', -, u0, -, out, -, rfl⟩ := hadv
          exact ih _ st' (fun y hy => hl y (by simp [hy])) (hl wx (by simp)) (hl wx (by simp)) h

/-- No challenge drawn while the program folds the inputs `rest` is exceptional. -/
def AvoidsBad (env : Env F G1 B) (P : PairingGroups F G1 G2 GT) (srs : Srs G1 G2) (f : B → FWitness F → Option B)
    (r1cs : R1CS F) (st0 : Loop F G1 B) (rest : List (List F × List F))
    (Bad : List F → F → FWitness F → FInstance F G1 → Finset F) : Prop :=
  ∀ (k : ℕ) (wx : List F × List F) (st : Loop F G1 B) (z : B) (r : F), rest[k]? = some wx →
    st0.drive env P srs f r1cs (rest.take k) = some (.ok st) →
    f st.aug.zi (if st.step = 0 then st.w else st.ivc.wi) = some z →
    st.nextChallenge env srs r1cs z wx.1 = some r → r ∉ Bad wx.1 (st.nextInput env z) st.fw st.fi

/-- **C88** (the whole program): there are sets of at most three exceptional challenges such that the program, for
every digest, generator, SRS, number of steps, `F` that does not panic on witnesses of the length used and inputs of
the right length whose first fold is not degenerate, runs to its end (all assertions hold) if no folding challenge is exceptional. -/
theorem C88_nova_program (r1cs : R1CS F)
    (hB : r1cs.matrixB.length = r1cs.matrixA.length) (hC : r1cs.matrixC.length = r1cs.matrixA.length) :
    ∃ Bad : List F → F → FWitness F → FInstance F G1 → Finset F, (∀ w x fw fi, (Bad w x fw fi).card ≤ 3) ∧
      ∀ (env : Env F G1 B) (P : PairingGroups F G1 G2 GT) (s : F) (n : ℕ) (z0 : B) (f : B → FWitness F → Option B)
        (first : List F × List F) (rest : List (List F × List F)),
        (∀ b, 8 ≤ (env.digest b).length) → (∀ z w, w.w.length = first.1.length → f z w ≠ none) → r1cs.matrixA.length ≤ first.1.length →
        (∀ y ∈ rest, y.1.length = first.1.length) →
        (∀ k, 0 < k → k ≤ rest.length → (k : B) ≠ 0) → first.1.length ≤ n + 3 →
        (∀ wx, rest.head? = some wx → ∀ h, FoldNondegenerate r1cs wx.1 [h]
          (FWitness.newTrivialWitness first.1.length)
          (⟨0, 1, 0, List.replicate first.2.length 0⟩ : FInstance F G1)) →
        (∀ st0, Loop.init (Srs.newFromSecret P s n) r1cs z0 first = some st0 →
          AvoidsBad env P (Srs.newFromSecret P s n) f r1cs st0 rest Bad) →
        ∃ a, exampleMain env P (Srs.newFromSecret P s n) f r1cs z0 first rest = some (.ok a) := by
  obtain ⟨Bad, hcard, hstep⟩ := C88_ivc_step (F := F) (G1 := G1) (G2 := G2) (GT := GT) (B := B) r1cs hB hC
  refine ⟨Bad, hcard, ?_⟩
  intro env P s n z0 f first rest hdig hf hrows hlen hchar hsize hnd havoid
  have hl0 : 0 < (Srs.newFromSecret P s n).g1Points.length := by rw [srs_length]; omega
  have hcom : ∀ v : List F, v.length ≤ n + 3 → ∃ c, commitVector (Srs.newFromSecret P s n) v = some c := by
    intro v hv
    have hsl : (Srs.newFromSecret P s n).g1Points.length = n + 3 := srs_length P s n
    exact ⟨_, (commitVector_iff _ _ _).2 ⟨by omega, fun i hi => getD_eq_of_le (by omega), rfl⟩⟩
  obtain ⟨st0, h0, hfw0, hfi0, hwl0, hwl1⟩ : ∃ st0, Loop.init (Srs.newFromSecret P s n) r1cs z0 first = some st0 ∧
      st0.fw = FWitness.newTrivialWitness first.1.length ∧
      st0.fi = ⟨0, 1, 0, List.replicate first.2.length 0⟩ ∧ st0.w.w.length = first.1.length ∧
      st0.ivc.wi.w.length = first.1.length := by
    obtain ⟨cE, hcE⟩ := hcom (FWitness.new first.1 r1cs.matrixA.length).e (by simp [FWitness.new]; omega)
    obtain ⟨cW, hcW⟩ := hcom first.1 hsize
    unfold Loop.init FWitness.commit
    rw [hcE, show (FWitness.new first.1 r1cs.matrixA.length).w = first.1 from rfl, hcW,
      createTrivialPair_some _ _ _ hl0]
    exact ⟨_, rfl, rfl, rfl, rfl, by simp⟩
  have hav := havoid st0 h0
  have hrun : ∀ k, k ≤ rest.length →
      ∃ st, st0.drive env P (Srs.newFromSecret P s n) f r1cs (rest.take k) = some (.ok st) := by
    intro k
    induction k with
    | zero => intro _; exact ⟨st0, rfl⟩
    | succ k ih =>
      intro hk
      obtain ⟨st, hst⟩ := ih (by omega)
      have hwx : rest[k]? = some (rest[k]'(by omega)) := List.getElem?_eq_getElem (by omega)
      have hmem : rest[k]'(by omega) ∈ rest := List.getElem_mem _
      obtain ⟨l1, l2⟩ := drive_wlen env P _ f r1cs _ (rest.take k) st0 st
        (fun y hy => hlen y (List.mem_of_mem_take hy)) hwl0 hwl1 hst
      obtain ⟨z, hz⟩ := Option.ne_none_iff_exists'.1 (hf st.aug.zi (if st.step = 0 then st.w else st.ivc.wi)
        (by split <;> assumption))
      obtain ⟨st', hst'⟩ := hstep env P s n z0 f first (rest[k]'(by omega)) (rest.take k) st0 st z hdig hrows
        (fun y hy => hlen y (List.mem_of_mem_take hy)) (hlen _ hmem)
        (fun j h1 h2 => hchar j h1 (by rw [List.length_take] at h2; omega)) hsize h0 hst hz
        (by
          cases k with
          | zero =>
            right
            rw [List.take_zero] at hst
            simp only [Loop.drive, Option.some.injEq, Except.ok.injEq] at hst
            subst hst
            rw [hfw0, hfi0]
            exact hnd _ (by rw [List.head?_eq_getElem?, hwx]) _
          | succ k =>
            left
            intro h
            have := congrArg List.length h
            rw [List.length_take, List.length_nil] at this
            omega)
        (fun r hr => hav k _ st z r hwx hst hz hr)
      refine ⟨st', ?_⟩
      rw [List.take_add_one, hwx, Option.toList_some]
      rw [drive_append env P _ f r1cs _ _ st0 st hst]
      exact hst'
  obtain ⟨st, hst⟩ := hrun rest.length le_rfl
  rw [List.take_length] at hst
  obtain ⟨hinv0, hstep0⟩ := init_inv (env := env) hrows h0
  obtain ⟨hinv, hstp⟩ := (drive_inv f rest hinv0 (fun k h1 h2 => hchar k h1 (by omega)) hlen).2 st hst
  obtain ⟨hc1, -, hc3⟩ := check_ok f hinv (fun h => hchar st.step (by omega) (by omega))
  unfold exampleMain
  rw [h0]
  simp only
  rw [hst]
  simp only
  obtain ⟨l1, l2⟩ := drive_wlen env P _ f r1cs _ rest st0 st hlen hwl0 hwl1 hst
  obtain ⟨res, hres⟩ := Option.ne_none_iff_exists'.1 (hc3 hdig (hf _ _ (by split <;> assumption)))
  cases res with
  | error e => exact absurd hres (hc1 e)
  | ok a => exact ⟨a, hres⟩

/-- The first fold of the shipped inputs is not degenerate. -/
theorem example_nondegenerate (h2 : (2 : F) ≠ 0) (x : F) :
    FoldNondegenerate (testR1cs : R1CS F) (testW 4) [x] (FWitness.newTrivialWitness (testW 3 : List F).length)
      (⟨0, 1, 0, List.replicate (testX 3 : List F).length 0⟩ : FInstance F G1) := by
  have h4 : (4 : F) ≠ 0 := by
    have : (4 : F) = 2 * 2 := by norm_num
    rw [this]; exact mul_ne_zero h2 h2
  have h16 : (16 : F) ≠ 0 := by
    have : (16 : F) = 4 * 4 := by norm_num
    rw [this]; exact mul_ne_zero h4 h4
  refine ⟨⟨4, ?_, h4⟩, 0, (by norm_num : 0 < 4), .inr ?_⟩
  · simp [testW, toFVec]
  · have : crossTerm (testR1cs : R1CS F) 1 1 (testW 4 ++ [x] ++ [1])
        (zVec (FWitness.newTrivialWitness (testW 3 : List F).length)
          (⟨0, 1, 0, List.replicate (testX 3 : List F).length 0⟩ : FInstance F G1)) 0 = -16 := by
      simp [crossTerm, testR1cs, toFMatrix, toFVec, testW, testX, zVec, FWitness.newTrivialWitness, dot,
        List.replicate, Finset.sum_range_succ]
    rw [this]
    exact neg_ne_zero.2 h16

/-- **C88** (the shipped inputs 3, 4, 1, 2 of `nova/examples/examples.rs`): the first fold is not degenerate, so the
program runs to its end for every digest of at least eight bytes, every generator and every secret unless one of its
three folding challenges is among at most three exceptional ones. -/
theorem C88_nova_example (h2 : (2 : F) ≠ 0) (hb2 : (2 : B) ≠ 0) (hb3 : (3 : B) ≠ 0) :
    ∃ Bad : List F → F → FWitness F → FInstance F G1 → Finset F, (∀ w x fw fi, (Bad w x fw fi).card ≤ 3) ∧
      ∀ (env : Env F G1 B) (P : PairingGroups F G1 G2 GT) (s : F) (z0 : B) (f : B → FWitness F → Option B),
        (∀ b, 8 ≤ (env.digest b).length) → (∀ z w, w.w.length = 4 → f z w ≠ none) →
        (∀ st0, Loop.init (Srs.newFromSecret P s 6) testR1cs z0 (testW 3, testX 3) = some st0 →
          AvoidsBad env P (Srs.newFromSecret P s 6) f testR1cs st0
            [(testW 4, testX 4), (testW 1, testX 1), (testW 2, testX 2)] Bad) →
        ∃ a, exampleMain env P (Srs.newFromSecret P s 6) f testR1cs z0 (testW 3, testX 3)
          [(testW 4, testX 4), (testW 1, testX 1), (testW 2, testX 2)] = some (.ok a) := by
  obtain ⟨Bad, hcard, h⟩ := C88_nova_program (F := F) (G1 := G1) (G2 := G2) (GT := GT) (B := B) testR1cs rfl rfl
  refine ⟨Bad, hcard, fun env P s z0 f hdig hf hav => ?_⟩
  refine h env P s 6 z0 f _ _ hdig hf (le_refl 4) ?_ ?_ (by show 4 ≤ 6 + 3; omega) ?_ hav
  · intro y hy
    simp only [List.mem_cons, List.not_mem_nil, or_false] at hy
    rcases hy with rfl | rfl | rfl <;> rfl
  · intro k h1 h2
    simp only [List.length_cons, List.length_nil] at h2
    have : k = 1 ∨ k = 2 ∨ k = 3 := by omega
    rcases this with rfl | rfl | rfl
    · simp
    · exact_mod_cast hb2
    · exact_mod_cast hb3
  · intro wx hwx x
    simp only [List.head?_cons, Option.some.injEq] at hwx
    subst hwx
    exact example_nondegenerate h2 x

end Verif.Nova

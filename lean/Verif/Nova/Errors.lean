import Verif.Checks
import Verif.Nova.Circuit

/-!
# C117: which error the Nova verifiers return
-/

namespace Verif.Nova

open Verif.Ark Verif.Kzg

variable {F G1 G2 GT B : Type} [Field F] [DecidableEq F] [AddCommGroup G1] [Module F G1] [DecidableEq G1]
  [AddCommGroup G2] [Module F G2] [AddCommGroup GT] [Module F GT] [DecidableEq GT] [Field B] [DecidableEq B]

/-! ## Specification -/

/-- The checks of a folding proof for instances with scalars `u1`, `u2`, a claimed folded instance `fi3` and a
cross term commitment, in the order in which they are reported, for a reference string with secret `s` and a
transcript state `d0`. -/
def nifsChecks (env : Env F G1 B) (P : PairingGroups F G1 G2 GT) (s : F) (proof : NIFSProof F G1)
    (u1 u2 : F) (fi3 : FInstance F G1) (comT : G1) (d0 : List UInt8) : List (Prop × String) :=
  [(proof.r = challengeOf env (foldDigest env d0 u1 u2 comT), "Verify: Error in computing random r"),
   (proof.openingPoint = challengeOf env (openDigest env (foldDigest env d0 u1 u2 comT) fi3.comE fi3.comW),
    "Verify: Error in computing random opening point"),
   ((s - proof.openingPoint) • proof.openingW.witness = fi3.comW - proof.openingW.eval • P.g1,
    "Verify: Folding wrong at W"),
   ((s - proof.openingPoint) • proof.openingE.witness = fi3.comE - proof.openingE.eval • P.g1,
    "Verify: Folding wrong at E")]

/-- The checks of an IVC proof for an object after its first step. -/
def ivcChecks (env : Env F G1 B) (P : PairingGroups F G1 G2 GT) (s : F) (a : Aug F G1 B) (zk : ZkIVCProof F G1)
    (d0 : List UInt8) : List (Prop × String) :=
  [(zk.comT ≠ none, "Verify failed: commitment of cross term T must exist"),
   (zk.foldedUProof ≠ none, "Verify failed: folding proof must exist"),
   (zk.ui.x.head? = some (env.toScalar (hashIo env a.i a.z0 a.zi zk.bigUi)), "Verify failed: Public IO is wrong"),
   (zk.ui.comE = a.trivialInstance.comE, "Verify failed: Commitment of E is wrong"),
   (zk.ui.u = 1, "Verify failed: Scalar u is wrong")] ++
  match zk.comT, zk.foldedUProof with
  | some comT, some proof => nifsChecks env P s proof zk.ui.u zk.bigUi.u
      ⟨zk.ui.comE + proof.r • comT + proof.r ^ 2 • zk.bigUi.comE, zk.ui.u + proof.r * zk.bigUi.u,
        zk.ui.comW + proof.r • zk.bigUi.comW, []⟩ comT d0
  | _, _ => []

/-- The checks of a step of an object after its first step. -/
def runChecks (env : Env F G1 B) (a : Aug F G1 B) (ui : FInstance F G1) (bigUi : Option (FInstance F G1))
    (comT : Option G1) : List (Prop × String) :=
  [(bigUi ≠ none ∧ comT ≠ none, "Wrong parameters."),
   (a.hi ≠ none, "The hash public IO must exist"),
   (ui.x.head? = a.hi.map env.toScalar, "Public IO is wrong "),
   (ui.comE = a.trivialInstance.comE, "Commitment of E is wrong"),
   (ui.u = 1, "Scalar u is wrong")]

/-! ## Theorems -/

/-- **C117** (NIFS): `NIFS::verify` returns the message of the first of its four checks that fails, `Ok` if none
fails. -/
theorem C117_nifs (env : Env F G1 B) (P : PairingGroups F G1 G2 GT) (s : F) (n : ℕ)
    (hdig : ∀ b, 8 ≤ (env.digest b).length) (proof : NIFSProof F G1) (fi1 fi2 fi3 : FInstance F G1)
    (comT : G1) (tr : Transcript) :
    ∃ res tr', nifsVerify env P proof fi1 fi2 fi3 comT (Srs.newFromSecret P s n) tr = some (res, tr') ∧
      FirstFailed (nifsChecks env P s proof fi1.u fi2.u fi3 comT (tr.data.getD [])) res := by
  unfold nifsVerify verifyChallenge nifsChecks
  rw [generateOne_feedFold env hdig]
  simp only [Option.bind_eq_bind, Option.bind_some]
  generalize foldDigest env (tr.data.getD []) fi1.u fi2.u comT = d
  by_cases h1 : challengeOf env d = proof.r
  swap
  · rw [if_pos h1]
    exact ⟨_, _, rfl, .fail _ _ _ fun h => h1 h.symm⟩
  rw [if_neg (by simpa using h1)]
  simp only [pure, Option.bind_some]
  unfold verifyOpening
  rw [generateOne_feed2 env hdig]
  simp only [Option.bind_eq_bind, Option.bind_some, Option.getD_some]
  generalize openDigest env d fi3.comE fi3.comW = d'
  by_cases h2 : challengeOf env d' = proof.openingPoint
  swap
  · rw [if_pos h2]
    exact ⟨_, _, rfl, .pass _ _ _ _ h1.symm (.fail _ _ _ fun h => h2 h.symm)⟩
  rw [if_neg (by simpa using h2), h2, ← verify_iff P s n, ← verify_iff P s n]
  cases h3 : Kzg.verify P (Srs.newFromSecret P s n) fi3.comW proof.openingW proof.openingPoint with
  | false => exact ⟨_, _, rfl, .pass _ _ _ _ h1.symm (.pass _ _ _ _ rfl (.fail _ _ _ (by simp)))⟩
  | true =>
    cases h4 : Kzg.verify P (Srs.newFromSecret P s n) fi3.comE proof.openingE proof.openingPoint with
    | false => exact ⟨_, _, rfl, .pass _ _ _ _ h1.symm (.pass _ _ _ _ rfl (.pass _ _ _ _ rfl
        (.fail _ _ _ (by simp))))⟩
    | true => exact ⟨_, _, rfl, .pass _ _ _ _ h1.symm (.pass _ _ _ _ rfl (.pass _ _ _ _ rfl
        (.pass _ _ _ _ rfl .done)))⟩

/-- **C117** (IVC): `IVC::verify` compares the states before the first step, and afterwards returns the message of
the first of its nine checks that fails; it panics only if the fresh instance has no public input (and only if
both optional parts of the proof are there). -/
theorem C117_ivc (env : Env F G1 B) (P : PairingGroups F G1 G2 GT) (s : F) (n : ℕ)
    (hdig : ∀ b, 8 ≤ (env.digest b).length) (a : Aug F G1 B) (zk : ZkIVCProof F G1) (tr : Transcript) :
    (a.i = 0 → ∃ res, ivcVerify env P (Srs.newFromSecret P s n) a zk tr = some (res, tr) ∧
      FirstFailed [(a.z0 = a.zi, "Verify failed: wrong state")] res) ∧
    (a.i ≠ 0 → zk.ui.x ≠ [] ∨ zk.comT = none ∨ zk.foldedUProof = none →
      ∃ res tr', ivcVerify env P (Srs.newFromSecret P s n) a zk tr = some (res, tr') ∧
        FirstFailed (ivcChecks env P s a zk (tr.data.getD [])) res) := by
  constructor
  · intro h0
    unfold ivcVerify
    rw [if_pos h0]
    by_cases h : a.z0 = a.zi
    · rw [if_pos h]
      exact ⟨_, rfl, .pass _ _ _ _ h .done⟩
    · rw [if_neg h]
      exact ⟨_, rfl, .fail _ _ _ h⟩
  · intro h0 hx
    unfold ivcVerify ivcChecks
    rw [if_neg h0]
    cases hT : zk.comT with
    | none => exact ⟨_, _, rfl, .fail _ _ _ (by simp)⟩
    | some comT =>
      cases hp : zk.foldedUProof with
      | none => exact ⟨_, _, rfl, .pass _ _ _ _ (by simp) (.fail _ _ _ (by simp))⟩
      | some proof =>
        rw [hT, hp] at hx
        have hx' : zk.ui.x ≠ [] := by simpa using hx
        obtain ⟨x0, xs, hxs⟩ := List.exists_cons_of_ne_nil hx'
        simp only [hxs, List.head?_cons, Option.bind_eq_bind, Option.bind_some]
        by_cases h1 : x0 = env.toScalar (hashIo env a.i a.z0 a.zi zk.bigUi)
        swap
        · rw [if_pos h1]
          exact ⟨_, _, rfl, .pass _ _ _ _ (by simp) (.pass _ _ _ _ (by simp) (.fail _ _ _ (by simpa using h1)))⟩
        rw [if_neg (by simpa using h1)]
        by_cases h2 : zk.ui.comE = a.trivialInstance.comE
        swap
        · rw [if_pos h2]
          exact ⟨_, _, rfl, .pass _ _ _ _ (by simp) (.pass _ _ _ _ (by simp) (.pass _ _ _ _ (by simpa using h1)
            (.fail _ _ _ h2)))⟩
        rw [if_neg (by simpa using h2)]
        by_cases h3 : zk.ui.u = 1
        swap
        · rw [if_pos h3]
          exact ⟨_, _, rfl, .pass _ _ _ _ (by simp) (.pass _ _ _ _ (by simp) (.pass _ _ _ _ (by simpa using h1)
            (.pass _ _ _ _ h2 (.fail _ _ _ h3))))⟩
        rw [if_neg (by simpa using h3)]
        obtain ⟨res, tr', e1, e2⟩ := C117_nifs env P s n hdig proof zk.ui zk.bigUi
          (nifsVerifier proof.r zk.ui zk.bigUi comT) comT tr
        refine ⟨res, tr', e1, .pass _ _ _ _ (by simp) (.pass _ _ _ _ (by simp) (.pass _ _ _ _ (by simpa using h1)
            (.pass _ _ _ _ h2 (.pass _ _ _ _ h3 ?_))))⟩
        have : nifsChecks env P s proof zk.ui.u zk.bigUi.u (nifsVerifier proof.r zk.ui zk.bigUi comT) comT
            (tr.data.getD []) = nifsChecks env P s proof zk.ui.u zk.bigUi.u
              ⟨zk.ui.comE + proof.r • comT + proof.r ^ 2 • zk.bigUi.comE, zk.ui.u + proof.r * zk.bigUi.u,
                zk.ui.comW + proof.r • zk.bigUi.comW, []⟩ comT (tr.data.getD []) := by
          simp only [nifsChecks, nifsVerifier, foldInstance, pow_two]
        rw [this] at e2
        exact e2

/-- **C117** (run): a step of an object after its first step that returns has the message of the first of its five
checks that fails, or a hash; with an error the object is unchanged. -/
theorem C117_run (env : Env F G1 B) (f : B → FWitness F → Option B) (a : Aug F G1 B) (h0 : a.i ≠ 0)
    (ui : FInstance F G1) (bigUi : Option (FInstance F G1)) (wi : FWitness F) (comT : Option G1)
    (res : Except String B) (a' : Aug F G1 B) (h : a.run env f ui bigUi wi comT = some (res, a')) :
    FirstFailed (runChecks env a ui bigUi comT) (res.map fun _ => ()) ∧
      ((∃ e, res = .error e) → a' = a) := by
  unfold Aug.run at h
  rw [if_pos h0] at h
  unfold runChecks
  cases hU : bigUi with
  | none =>
    rw [hU] at h
    simp only [Option.some.injEq, Prod.mk.injEq] at h
    obtain ⟨rfl, rfl⟩ := h
    exact ⟨.fail _ _ _ (by simp), fun _ => rfl⟩
  | some bigU =>
    cases hT : comT with
    | none =>
      rw [hU, hT] at h
      simp only [Option.some.injEq, Prod.mk.injEq] at h
      obtain ⟨rfl, rfl⟩ := h
      exact ⟨.fail _ _ _ (by simp), fun _ => rfl⟩
    | some ct =>
      rw [hU, hT] at h
      dsimp only at h
      cases hh : a.hi with
      | none =>
        rw [hh] at h
        simp only [Option.some.injEq, Prod.mk.injEq] at h
        obtain ⟨rfl, rfl⟩ := h
        exact ⟨.pass _ _ _ _ (by simp) (.fail _ _ _ (by simp)), fun _ => rfl⟩
      | some hx =>
        rw [hh] at h
        cases hxs : ui.x.head? with
        | none => simp [hxs] at h
        | some x0 =>
          simp only [hxs, Option.bind_eq_bind, Option.bind_some] at h
          by_cases h1 : x0 = env.toScalar hx
          swap
          · rw [if_pos h1] at h
            simp only [Option.some.injEq, Prod.mk.injEq] at h
            obtain ⟨rfl, rfl⟩ := h
            exact ⟨.pass _ _ _ _ (by simp) (.pass _ _ _ _ (by simp) (.fail _ _ _ (by simpa using h1))), fun _ => rfl⟩
          rw [if_neg (by simpa using h1)] at h
          by_cases h2 : ui.comE = a.trivialInstance.comE
          swap
          · rw [if_pos h2] at h
            simp only [Option.some.injEq, Prod.mk.injEq] at h
            obtain ⟨rfl, rfl⟩ := h
            exact ⟨.pass _ _ _ _ (by simp) (.pass _ _ _ _ (by simp) (.pass _ _ _ _ (by simpa using h1)
              (.fail _ _ _ h2))), fun _ => rfl⟩
          rw [if_neg (by simpa using h2)] at h
          by_cases h3 : ui.u = 1
          swap
          · rw [if_pos h3] at h
            simp only [Option.some.injEq, Prod.mk.injEq] at h
            obtain ⟨rfl, rfl⟩ := h
            exact ⟨.pass _ _ _ _ (by simp) (.pass _ _ _ _ (by simp) (.pass _ _ _ _ (by simpa using h1)
              (.pass _ _ _ _ h2 (.fail _ _ _ h3)))), fun _ => rfl⟩
          rw [if_neg (by simpa using h3)] at h
          simp only [Option.bind_eq_some_iff, pure, Option.some.injEq, Prod.mk.injEq] at h
          obtain ⟨_, -, _, -, rfl, rfl⟩ := h
          refine ⟨.pass _ _ _ _ (by simp) (.pass _ _ _ _ (by simp) (.pass _ _ _ _ (by simpa using h1)
              (.pass _ _ _ _ h2 (.pass _ _ _ _ h3 .done)))), ?_⟩
          rintro ⟨e, he⟩
          cases he

/-! ## Examples -/

/-- A NIFS proof for zero commitments and the scalars 1 and 2, with the challenges as they should be, and the given
claimed evaluations. -/
def zeroProof (evalW evalE : ℚ) : NIFSProof ℚ ℚ :=
  { r := challengeOf toyEnv (foldDigest toyEnv [] 1 2 (0 : ℚ))
    openingPoint := challengeOf toyEnv (openDigest toyEnv (foldDigest toyEnv [] 1 2 (0 : ℚ)) 0 0)
    openingE := ⟨0, evalE⟩
    openingW := ⟨0, evalW⟩ }

/-- All four errors of `NIFS::verify` occur, and so does `Ok`; in the last-but-one case both openings are wrong. -/
example (e : String) (he : e ∈ ["Verify: Error in computing random r", "Verify: Error in computing random opening point",
      "Verify: Folding wrong at W", "Verify: Folding wrong at E"]) :
    (∃ proof tr', nifsVerify toyEnv (trivialGroups ℚ) proof ⟨0, 1, 0, [3]⟩ ⟨0, 2, 0, [4]⟩ ⟨0, 3, 0, [7]⟩ 0
      (Srs.newFromSecret (trivialGroups ℚ) 7 4) .default = some (.error e, tr')) ∧
    ∃ proof tr', nifsVerify toyEnv (trivialGroups ℚ) proof ⟨0, 1, 0, [3]⟩ ⟨0, 2, 0, [4]⟩ ⟨0, 3, 0, [7]⟩ 0
      (Srs.newFromSecret (trivialGroups ℚ) 7 4) .default = some (.ok (), tr') := by
  have key := fun proof => C117_nifs toyEnv (trivialGroups ℚ) 7 4 (fun b => by rw [toyEnv_digest]; norm_num) proof
    ⟨0, 1, 0, [3]⟩ ⟨0, 2, 0, [4]⟩ ⟨0, 3, 0, [7]⟩ 0 .default
  have zW : ∀ a b z : ℚ, (7 - z) • (zeroProof a b).openingW.witness = 0 - (zeroProof a b).openingW.eval • (1 : ℚ) ↔
      a = 0 := by
    intro a b z; simp [zeroProof, eq_comm]
  have zE : ∀ a b z : ℚ, (7 - z) • (zeroProof a b).openingE.witness = 0 - (zeroProof a b).openingE.eval • (1 : ℚ) ↔
      b = 0 := by
    intro a b z; simp [zeroProof, eq_comm]
  constructor
  · simp only [List.mem_cons, List.not_mem_nil, or_false] at he
    rcases he with rfl | rfl | rfl | rfl
    · obtain ⟨res, tr', h1, h2⟩ := key { zeroProof 1 1 with r := (zeroProof 1 1).r + 1, openingPoint := 0 }
      have := h2.unique (.fail _ _ _ (fun h => by
        change (zeroProof 1 1).r + 1 = (zeroProof 1 1).r at h
        simp at h))
      rw [this] at h1
      exact ⟨_, _, h1⟩
    · obtain ⟨res, tr', h1, h2⟩ := key { zeroProof 1 1 with openingPoint := (zeroProof 1 1).openingPoint + 1 }
      have := h2.unique (.pass _ _ _ _ rfl (.fail _ _ _ (fun h => by
        change (zeroProof 1 1).openingPoint + 1 = (zeroProof 1 1).openingPoint at h
        simp at h)))
      rw [this] at h1
      exact ⟨_, _, h1⟩
    · obtain ⟨res, tr', h1, h2⟩ := key (zeroProof 1 1)
      have := h2.unique (.pass _ _ _ _ rfl (.pass _ _ _ _ rfl (.fail _ _ _ (fun h =>
        one_ne_zero ((zW 1 1 _).1 h)))))
      rw [this] at h1
      exact ⟨_, _, h1⟩
    · obtain ⟨res, tr', h1, h2⟩ := key (zeroProof 0 1)
      have := h2.unique (.pass _ _ _ _ rfl (.pass _ _ _ _ rfl (.pass _ _ _ _ ((zW 0 1 _).2 rfl)
        (.fail _ _ _ (fun h => one_ne_zero ((zE 0 1 _).1 h))))))
      rw [this] at h1
      exact ⟨_, _, h1⟩
  · obtain ⟨res, tr', h1, h2⟩ := key (zeroProof 0 0)
    have := h2.unique (.pass _ _ _ _ rfl (.pass _ _ _ _ rfl (.pass _ _ _ _ ((zW 0 0 _).2 rfl)
      (.pass _ _ _ _ ((zE 0 0 _).2 rfl) .done))))
    rw [this] at h1
    exact ⟨_, _, h1⟩

/-- `IVC::verify` with a fresh instance whose public input, error commitment and scalar are all wrong names the public
input; with the right public input it names the commitment. -/
example : (∃ zk tr', ivcVerify toyEnv (trivialGroups ℚ) (Srs.newFromSecret (trivialGroups ℚ) 7 4)
      ⟨1, ⟨0, 1, 0, [0]⟩, 0, 5, none, none, none⟩ zk .default = some (.error "Verify failed: Public IO is wrong", tr')) ∧
    ∃ zk tr', ivcVerify toyEnv (trivialGroups ℚ) (Srs.newFromSecret (trivialGroups ℚ) 7 4)
      ⟨1, ⟨0, 1, 0, [0]⟩, 0, 5, none, none, none⟩ zk .default =
        some (.error "Verify failed: Commitment of E is wrong", tr') := by
  have key := fun zk => (C117_ivc toyEnv (trivialGroups ℚ) 7 4 (fun b => by rw [toyEnv_digest]; norm_num)
    ⟨1, ⟨0, 1, 0, [0]⟩, 0, 5, none, none, none⟩ zk .default).2 (by norm_num)
  constructor
  · obtain ⟨res, tr', h1, h2⟩ := key ⟨⟨4, 7, 0, [hashIo toyEnv 1 0 5 (⟨0, 1, 0, [0]⟩ : FInstance ℚ ℚ) + 1]⟩,
      ⟨0, 1, 0, [0]⟩, some 0, some (zeroProof 0 0)⟩ (Or.inl (by simp))
    have := h2.unique (.pass _ _ _ _ (by simp) (.pass _ _ _ _ (by simp) (.fail _ _ _ (by
      simp [toyEnv]))))
    rw [this] at h1
    exact ⟨_, _, h1⟩
  · obtain ⟨res, tr', h1, h2⟩ := key ⟨⟨4, 7, 0, [hashIo toyEnv 1 0 5 (⟨0, 1, 0, [0]⟩ : FInstance ℚ ℚ)]⟩,
      ⟨0, 1, 0, [0]⟩, some 0, some (zeroProof 0 0)⟩ (Or.inl (by simp))
    have := h2.unique (.pass _ _ _ _ (by simp) (.pass _ _ _ _ (by simp) (.pass _ _ _ _ (by simp [toyEnv])
      (.fail _ _ _ (by norm_num)))))
    rw [this] at h1
    exact ⟨_, _, h1⟩

/-- `run` with a wrong public input and a wrong scalar names the public input and leaves the object alone. -/
example : Aug.run toyEnv (fun z _ => some (z + 1)) ⟨1, ⟨0, 1, 0, [0]⟩, 0, 5, none, some 8, none⟩ ⟨0, 7, 0, [9]⟩
    (some ⟨0, 1, 0, [0]⟩) ⟨[], []⟩ (some (0 : ℚ)) =
      some (.error "Public IO is wrong ", ⟨1, ⟨0, 1, 0, [0]⟩, 0, 5, none, some 8, none⟩) := by
  simp [Aug.run, toyEnv]

end Verif.Nova

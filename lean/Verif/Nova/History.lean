import Verif.Nova.Circuit
import Verif.Nova.TranscriptProps

/-!
# C89–C91: histories of calls on an IVC object, and what `verify` attests

* C89: `run`, `next_step` and `verify` called in any order, any number of times, successfully or not.
* C90: what ties the accumulated instance of one step to that of the next.
* C91: what an accepted proof says about the state.
-/

set_option linter.unusedSectionVars false

namespace Verif.Nova

open Verif.Ark Verif.Kzg

variable {F G1 G2 GT B : Type} [Field F] [DecidableEq F] [AddCommGroup G1] [Module F G1] [DecidableEq G1]
  [AddCommGroup G2] [Module F G2] [AddCommGroup GT] [Module F GT] [DecidableEq GT]
  [Field B] [DecidableEq B]

/-! ## Specification -/

/-- A call on an IVC object: `run` (`nova/src/circuit.rs` lines 61-140), `next_step` (lines 143-149) or `verify`
(`nova/src/ivc/ivc_verifier.rs` lines 13-76). -/
inductive Call (F G1 : Type) where
  | run (rd : Round F G1)
  | next
  | verify (zk : ZkIVCProof F G1) (tr : Transcript)

/-- One call: the object afterwards and whether the call returned `Ok`; `none` if it panics. -/
def Call.exec (env : Env F G1 B) (P : PairingGroups F G1 G2 GT) (srs : Srs G1 G2) (f : B → FWitness F → Option B)
    (a : Aug F G1 B) : Call F G1 → Option (Bool × Aug F G1 B)
  | .run rd => (a.run env f rd.ui rd.bigUi rd.wi rd.comT).map fun p => (p.1.isOk, p.2)
  | .next => a.nextStep.map fun a' => (true, a')
  | .verify zk tr => (ivcVerify env P srs a zk tr).map fun p => (p.1.isOk, a)

/-- A history of calls: the outcomes and the object afterwards. -/
def history (env : Env F G1 B) (P : PairingGroups F G1 G2 GT) (srs : Srs G1 G2) (f : B → FWitness F → Option B) :
    Aug F G1 B → List (Call F G1) → Option (List Bool × Aug F G1 B)
  | a, [] => some ([], a)
  | a, c :: cs => (c.exec env P srs f a).bind fun p =>
      (history env P srs f p.2 cs).map fun q => (p.1 :: q.1, q.2)

/-- What a history amounts to, from the calls and whether they returned `Ok` alone: the rounds completed, each given by
the last successful `run` before a `next_step`, and the last successful `run` since. -/
def completed : List (Call F G1 × Bool) → List (Round F G1) × Option (Round F G1)
  | l => l.foldl (fun st c => match c with
      | (.run rd, true) => (st.1, some rd)
      | (.next, _) => (st.1 ++ st.2.toList, none)
      | _ => st) ([], none)

/-- The number of `next_step` calls. -/
def countNext : List (Call F G1) → ℕ
  | [] => 0
  | .next :: cs => countNext cs + 1
  | _ :: cs => countNext cs

/-- Two different IVC states collide: their encodings have the same digest, or the digests reduce to the same base
field element, or the hashes reduce to the same scalar. -/
def StateCollision (env : Env F G1 B) (i z0 zi : B) (U : FInstance F G1) (i' z0' zi' : B) (U' : FInstance F G1) : Prop :=
  (stateBytes env i z0 zi U ≠ stateBytes env i' z0' zi' U' ∧
    env.digest (stateBytes env i z0 zi U) = env.digest (stateBytes env i' z0' zi' U')) ∨
  (env.digest (stateBytes env i z0 zi U) ≠ env.digest (stateBytes env i' z0' zi' U') ∧
    stateHash env i z0 zi U = stateHash env i' z0' zi' U') ∨
  (stateHash env i z0 zi U ≠ stateHash env i' z0' zi' U' ∧
    env.toScalar (stateHash env i z0 zi U) = env.toScalar (stateHash env i' z0' zi' U'))

/-! ## C89 -/

theorem completed_append (l : List (Call F G1 × Bool)) (c : Call F G1 × Bool) :
    completed (l ++ [c]) = match c with
      | (.run rd, true) => ((completed l).1, some rd)
      | (.next, _) => ((completed l).1 ++ (completed l).2.toList, none)
      | _ => completed l := by
  unfold completed
  rw [List.foldl_append]
  rfl

theorem countNext_append (l : List (Call F G1)) (c : Call F G1) :
    countNext (l ++ [c]) = countNext l + (match c with | .next => 1 | _ => 0) := by
  induction l with
  | nil => cases c <;> rfl
  | cons d l ih =>
    cases d with
    | next => simp only [List.cons_append, countNext, ih]; omega
    | run rd => simp only [List.cons_append, countNext, ih]
    | verify zk tr => simp only [List.cons_append, countNext, ih]

theorem history_append (env : Env F G1 B) (P : PairingGroups F G1 G2 GT) (srs : Srs G1 G2)
    (f : B → FWitness F → Option B) (a : Aug F G1 B) (l : List (Call F G1)) (c : Call F G1) (bs : List Bool)
    (a' : Aug F G1 B) (h : history env P srs f a (l ++ [c]) = some (bs, a')) :
    ∃ bs1 a1 b, history env P srs f a l = some (bs1, a1) ∧ c.exec env P srs f a1 = some (b, a') ∧
      bs = bs1 ++ [b] ∧ bs1.length = l.length := by
  induction l generalizing a bs with
  | nil =>
    simp only [List.nil_append, history, Option.bind_eq_some_iff, Option.map_some, Option.some.injEq,
      Prod.mk.injEq] at h
    obtain ⟨⟨b, a1⟩, h1, rfl, rfl⟩ := h
    exact ⟨[], a, b, rfl, h1, rfl, rfl⟩
  | cons d l ih =>
    simp only [List.cons_append, history, Option.bind_eq_some_iff, Option.map_eq_some_iff] at h
    obtain ⟨⟨b, a1⟩, h1, ⟨bs', a2⟩, h2, h3⟩ := h
    simp only [Prod.mk.injEq] at h3
    obtain ⟨rfl, rfl⟩ := h3
    obtain ⟨bs1, a3, b', h4, h5, h6, h7⟩ := ih a1 bs' h2
    refine ⟨b :: bs1, a3, b', ?_, h5, by rw [h6]; rfl, by simp [h7]⟩
    simp [history, h1, h4]

/-- What the calls leave behind. -/
structure Tracks (env : Env F G1 B) (f : B → FWitness F → Option B) (ti : FInstance F G1) (z0 : B)
    (rds : List (Round F G1)) (pending : Option (Round F G1)) (a : Aug F G1 B) : Prop where
  counter : a.i = (rds.length : B)
  initial : a.z0 = z0
  trivial : a.trivialInstance = ti
  state : iterF f z0 (rds.map Round.wi) = some a.zi
  hash : ∀ init rd, rds = init ++ [rd] →
    a.hi = some (stateHash env (rds.length : B) z0 a.zi (accInstance env ti (init.length : B) rd))
  noHash : rds = [] → a.hi = none
  next : a.zi1 = pending.bind fun rd => f a.zi rd.wi
  nextSome : ∀ rd, pending = some rd → (f a.zi rd.wi).isSome
  nextHash : ∀ rd, pending = some rd → ∀ z, f a.zi rd.wi = some z →
    a.hi1 = some (stateHash env (rds.length + 1 : B) z0 z (accInstance env ti (rds.length : B) rd))

theorem tracks_new (env : Env F G1 B) (f : B → FWitness F → Option B) (ti : FInstance F G1) (z0 : B) :
    Tracks env f ti z0 [] none (Aug.new ti z0) where
  counter := by simp [Aug.new]
  initial := rfl
  trivial := rfl
  state := rfl
  hash := by intro init rd h; simp at h
  noHash := fun _ => rfl
  next := rfl
  nextSome := by intro rd h; cases h
  nextHash := by intro rd h; cases h

theorem history_tracks (env : Env F G1 B) (P : PairingGroups F G1 G2 GT) (srs : Srs G1 G2)
    (f : B → FWitness F → Option B) (ti : FInstance F G1) (z0 : B) (calls : List (Call F G1)) (bs : List Bool)
    (a : Aug F G1 B) (h : history env P srs f (Aug.new ti z0) calls = some (bs, a)) :
    Tracks env f ti z0 (completed (calls.zip bs)).1 (completed (calls.zip bs)).2 a ∧ bs.length = calls.length ∧
      (completed (calls.zip bs)).1.length = countNext calls := by
  induction calls using List.reverseRecOn generalizing bs a with
  | nil =>
    simp only [history, Option.some.injEq, Prod.mk.injEq] at h
    obtain ⟨rfl, rfl⟩ := h
    exact ⟨tracks_new env f ti z0, rfl, rfl⟩
  | append_singleton l c ih =>
    obtain ⟨bs1, a1, b, h1, h2, rfl, hlen⟩ := history_append env P srs f _ l c bs a h
    obtain ⟨T, -, hcount⟩ := ih bs1 a1 h1
    rw [List.zip_append hlen.symm, List.zip_cons_cons, List.zip_nil_right, completed_append, countNext_append]
    refine ⟨?_, by simp [hlen], ?_⟩
    · cases c with
      | run rd =>
        simp only [Call.exec, Option.map_eq_some_iff, Prod.mk.injEq] at h2
        obtain ⟨⟨res, a2⟩, hr, hb, ha⟩ := h2
        dsimp only at hb ha
        subst ha
        cases res with
        | error e =>
          have := C38_error_preserves_state env f a1 a2 rd e hr
          subst this
          have : b = false := hb.symm
          subst this
          exact T
        | ok hash =>
          have : b = true := hb.symm
          subst this
          obtain ⟨z, hz, hh, rfl⟩ := run_ok env f a1 a2 rd hash hr
          dsimp only
          refine ⟨T.counter, T.initial, T.trivial, T.state, T.hash, T.noHash, ?_, ?_, ?_⟩
          · simp [hz]
          · intro rd' h'
            cases h'
            simp [hz]
          · intro rd' h' z' hz'
            cases h'
            dsimp only at hz' ⊢
            rw [hz] at hz'
            cases hz'
            rw [hh, hashIo_eq, nextInstance_eq, T.counter, T.initial, T.trivial]
      | next =>
        simp only [Call.exec, Option.map_eq_some_iff, Prod.mk.injEq, Aug.nextStep, Option.bind_eq_bind,
          Option.bind_eq_some_iff, pure, Option.some.injEq] at h2
        obtain ⟨a2, ⟨z, hz, rfl⟩, hb, rfl⟩ := h2
        dsimp only
        rw [T.next, Option.bind_eq_some_iff] at hz
        obtain ⟨rd, hrd, hz⟩ := hz
        simp only [hrd, Option.toList_some]
        refine ⟨?_, T.initial, T.trivial, ?_, ?_, by simp, by simp, by simp, by simp⟩
        · simp [T.counter]
        · simp [iterF_append, T.state, iterF, hz]
        · intro init rd' h'
          obtain ⟨h3, h4⟩ := List.append_inj' h' rfl
          simp only [List.cons.injEq, and_true] at h4
          subst h3 h4
          dsimp only
          rw [T.nextHash rd hrd z hz]
          simp
      | verify zk tr =>
        simp only [Call.exec, Option.map_eq_some_iff, Prod.mk.injEq] at h2
        obtain ⟨p, -, -, rfl⟩ := h2
        exact T
    · cases c with
      | run rd => cases b <;> simpa using hcount
      | verify zk tr => simpa using hcount
      | next =>
        simp only [Call.exec, Option.map_eq_some_iff, Prod.mk.injEq, Aug.nextStep, Option.bind_eq_bind,
          Option.bind_eq_some_iff, pure, Option.some.injEq] at h2
        obtain ⟨a2, ⟨z, hz, rfl⟩, hb, rfl⟩ := h2
        rw [T.next, Option.bind_eq_some_iff] at hz
        obtain ⟨rd, hrd, -⟩ := hz
        simp [hrd, hcount]

/-- **C89** (state): after any history of calls of `run`, `next_step` and `verify` on a new object, in any order and
whether or not they succeed, the counter is the number of `next_step` calls, the initial state is unchanged, and the
state is `F` iterated over the witnesses of the last successful `run` before each `next_step`; the stored hash is that
of this state and of the instance accumulated in the last completed round. -/
theorem C89_any_history (env : Env F G1 B) (P : PairingGroups F G1 G2 GT) (srs : Srs G1 G2)
    (f : B → FWitness F → Option B) (ti : FInstance F G1) (z0 : B) (calls : List (Call F G1)) (bs : List Bool)
    (a : Aug F G1 B) (h : history env P srs f (Aug.new ti z0) calls = some (bs, a)) :
    a.i = (countNext calls : B) ∧ a.z0 = z0 ∧ a.trivialInstance = ti ∧
    (completed (calls.zip bs)).1.length = countNext calls ∧
    iterF f z0 ((completed (calls.zip bs)).1.map Round.wi) = some a.zi ∧
    (countNext calls = 0 → a.hi = none) ∧
    ∀ init rd, (completed (calls.zip bs)).1 = init ++ [rd] →
      a.hi = some (stateHash env (countNext calls : B) z0 a.zi (accInstance env ti (init.length : B) rd)) := by
  obtain ⟨T, -, hc⟩ := history_tracks env P srs f ti z0 calls bs a h
  refine ⟨by rw [T.counter, hc], T.initial, T.trivial, hc, T.state, ?_, ?_⟩
  · intro h0
    exact T.noHash (List.eq_nil_of_length_eq_zero (by omega))
  · intro init rd hd
    rw [← hc]
    exact T.hash init rd hd

/-- **C89** (`next_step`): after any history, `next_step` panics exactly if no `run` has succeeded since the last
`next_step`. -/
theorem C89_next_panics_iff (env : Env F G1 B) (P : PairingGroups F G1 G2 GT) (srs : Srs G1 G2)
    (f : B → FWitness F → Option B) (ti : FInstance F G1) (z0 : B) (calls : List (Call F G1)) (bs : List Bool)
    (a : Aug F G1 B) (h : history env P srs f (Aug.new ti z0) calls = some (bs, a)) :
    a.nextStep = none ↔ (completed (calls.zip bs)).2 = none := by
  obtain ⟨T, -, -⟩ := history_tracks env P srs f ti z0 calls bs a h
  unfold Aug.nextStep
  rw [T.next]
  cases hp : (completed (calls.zip bs)).2 with
  | none => simp
  | some rd =>
    obtain ⟨z, hz⟩ := Option.isSome_iff_exists.1 (T.nextSome rd hp)
    simp [hz]

/-! ## C91: an accepted proof says nothing about the state -/

/-- A proof made from the claimed state alone: all commitments zero, all openings zero. -/
def forgedIvc (env : Env F G1 B) (a : Aug F G1 B) (tr : Transcript) : ZkIVCProof F G1 where
  ui := ⟨0, 1, 0, [env.toScalar (stateHash env a.i a.z0 a.zi ⟨0, 1, 0, []⟩)]⟩
  bigUi := ⟨0, 1, 0, []⟩
  comT := some 0
  foldedUProof := some
    { r := challengeOf env (foldDigest env (tr.data.getD []) 1 1 0)
      openingPoint := challengeOf env (openDigest env (foldDigest env (tr.data.getD []) 1 1 0) 0 0)
      openingE := ⟨0, 0⟩
      openingW := ⟨0, 0⟩ }

/-- **C91** (false of the code): for every object, whatever its counter (not zero), initial state and current state,
`IVC::verify` accepts a proof that is computed from these alone, without any witness, for every digest of at least eight
bytes, every transcript and every SRS, if the trivial instance commits to a zero error vector (as `create_trivial_pair`
makes it). -/
theorem C91_any_state_accepted (env : Env F G1 B) (P : PairingGroups F G1 G2 GT) (s : F) (n : ℕ)
    (hdig : ∀ b, 8 ≤ (env.digest b).length) (a : Aug F G1 B) (h0 : a.i ≠ 0) (ht : a.trivialInstance.comE = 0)
    (tr : Transcript) :
    ∃ tr', ivcVerify env P (Srs.newFromSecret P s n) a (forgedIvc env a tr) tr = some (.ok (), tr') := by
  rw [C41_verify_equations env P s n hdig a h0]
  refine ⟨0, _, rfl, rfl, rfl, ht.symm, rfl, rfl, ?_, ?_, ?_⟩
  · simp [forgedIvc]
  · simp [forgedIvc]
  · simp [forgedIvc]

/-- **C91** (what holds): an object that was only changed by `run` and `next_step` carries `F` iterated over the
witnesses given to it, so that a user who drives the object need not rely on `verify` for this. -/
theorem C91_driven_state_partial (env : Env F G1 B) (P : PairingGroups F G1 G2 GT) (srs : Srs G1 G2)
    (f : B → FWitness F → Option B) (ti : FInstance F G1) (z0 : B) (calls : List (Call F G1)) (bs : List Bool)
    (a : Aug F G1 B) (h : history env P srs f (Aug.new ti z0) calls = some (bs, a)) :
    ∃ ws, ws.length = countNext calls ∧ iterF f z0 ws = some a.zi := by
  obtain ⟨-, -, -, h4, h5, -⟩ := C89_any_history env P srs f ti z0 calls bs a h
  exact ⟨_, by simpa using h4, h5⟩

/-! ## C90: the accumulator -/

/-- What an accepted `verify` says about the public input. -/
theorem verify_input {env : Env F G1 B} {P : PairingGroups F G1 G2 GT} {srs : Srs G1 G2} {a : Aug F G1 B}
    (h0 : a.i ≠ 0) {zk : ZkIVCProof F G1} {tr tr' : Transcript} (h : ivcVerify env P srs a zk tr = some (.ok (), tr')) :
    zk.ui.x.head? = some (env.toScalar (stateHash env a.i a.z0 a.zi zk.bigUi)) ∧
      zk.ui.comE = a.trivialInstance.comE ∧ zk.ui.u = 1 ∧ ∃ T, zk.comT = some T := by
  obtain ⟨comT, proof, h1, -, h3, h4, h5, -⟩ := (C41_verify_iff env P srs a h0 zk tr tr').1 h
  exact ⟨h3, h4, h5, comT, h1⟩

/-- **C90** (`run` alone does not bind the accumulator): if `run` succeeds with some accumulated instance at a later
step, it succeeds with every other one (and with every cross term). -/
theorem C90_run_accepts_any_accumulator (env : Env F G1 B) (hdig : ∀ b, 8 ≤ (env.digest b).length)
    (f : B → FWitness F → Option B) (a : Aug F G1 B) (h0 : a.i ≠ 0) (ui U U' : FInstance F G1) (wi : FWitness F)
    (ct ct' : G1) (hash : B) (a' : Aug F G1 B)
    (h : a.run env f ui (some U) wi (some ct) = some (.ok hash, a')) :
    ∃ hash' a'', a.run env f ui (some U') wi (some ct') = some (.ok hash', a'') := by
  have hx : ui.x ≠ [] := by
    intro hx
    unfold Aug.run at h
    rw [if_pos h0] at h
    cases hh : a.hi with
    | none => simp [hh] at h
    | some hs => simp [hh, hx] at h
  have hne : ¬ ∃ e a', a.run env f ui (some U) wi (some ct) = some (.error e, a') := by
    rintro ⟨e, a2, h2⟩
    rw [h] at h2
    simp at h2
  rw [C38_run_error_iff env f a h0 ⟨ui, some U, wi, some ct⟩ hx] at hne
  push Not at hne
  obtain ⟨-, -, h3, h4, h5, h6⟩ := hne
  obtain ⟨hs, hh⟩ := Option.ne_none_iff_exists'.1 h3
  obtain ⟨z, hz, -⟩ := run_ok env f a a' ⟨ui, some U, wi, some ct⟩ hash h
  have hrun := C38_run_succ env hdig f a h0 ui U' wi ct' hs hh (h4 hs hh) h5 h6
  dsimp only at hz
  rw [hz, Option.map_some] at hrun
  exact ⟨_, _, hrun⟩

/-- A step as the example program makes it (`nova/examples/examples.rs` lines 93-123): `run` with the parts of the proof,
then `verify`, both successful, then `next_step`. -/
structure CheckedStep (F G1 : Type) where
  /-- `w_i` -/
  wi : FWitness F
  /-- the proof, which contains `u_i`, `U_i` and `com_T` -/
  zk : ZkIVCProof F G1
  /-- `verifier_transcript` -/
  tr : Transcript

/-- One checked step; `none` if a call panics or returns an error. -/
def checkedStep (env : Env F G1 B) (P : PairingGroups F G1 G2 GT) (srs : Srs G1 G2) (f : B → FWitness F → Option B)
    (a : Aug F G1 B) (st : CheckedStep F G1) : Option (Aug F G1 B) :=
  match a.run env f st.zk.ui (some st.zk.bigUi) st.wi st.zk.comT with
  | some (.ok _, a') =>
    match ivcVerify env P srs a' st.zk st.tr with
    | some (.ok (), _) => a'.nextStep
    | _ => none
  | _ => none

/-- A list of checked steps. -/
def checkedSteps (env : Env F G1 B) (P : PairingGroups F G1 G2 GT) (srs : Srs G1 G2) (f : B → FWitness F → Option B) :
    Aug F G1 B → List (CheckedStep F G1) → Option (Aug F G1 B)
  | a, [] => some a
  | a, st :: sts => (checkedStep env P srs f a st).bind fun a' => checkedSteps env P srs f a' sts

/-- The arguments of the call of `run`. -/
def CheckedStep.round (st : CheckedStep F G1) : Round F G1 := ⟨st.zk.ui, some st.zk.bigUi, st.wi, st.zk.comT⟩

theorem checkedStep_spec {env : Env F G1 B} {P : PairingGroups F G1 G2 GT} {srs : Srs G1 G2}
    {f : B → FWitness F → Option B} {a a2 : Aug F G1 B} {st : CheckedStep F G1}
    (h : checkedStep env P srs f a st = some a2) :
    Verif.Nova.round env f a st.round = some a2 ∧ (a.i ≠ 0 →
      st.zk.ui.x.head? = some (env.toScalar (stateHash env a.i a.z0 a.zi st.zk.bigUi)) ∧
      st.zk.ui.comE = a.trivialInstance.comE ∧ st.zk.ui.u = 1 ∧ (∃ T, st.zk.comT = some T) ∧
      ∃ hs, a.hi = some hs ∧ st.zk.ui.x.head? = some (env.toScalar hs)) := by
  unfold checkedStep at h
  split at h
  · next hash a1 hrun =>
    split at h
    · next tr' hver =>
      constructor
      · unfold Verif.Nova.round CheckedStep.round
        dsimp only
        rw [hrun]
        exact h
      · intro h0
        obtain ⟨z, hz, -, rfl⟩ := run_ok env f a a1 st.round hash hrun
        obtain ⟨e1, e2, e3, e4⟩ := verify_input (a := { a with hi1 := some hash, zi1 := some z }) h0 hver
        refine ⟨e1, e2, e3, e4, ?_⟩
        have hne : ¬ ∃ e a', a.run env f st.round.ui st.round.bigUi st.round.wi st.round.comT =
            some (.error e, a') := by
          rintro ⟨e, a2, h2⟩
          unfold CheckedStep.round at h2
          rw [hrun] at h2
          simp at h2
        have hx : st.zk.ui.x ≠ [] := by
          intro hx
          rw [hx] at e1
          simp at e1
        rw [C38_run_error_iff env f a h0 st.round hx] at hne
        push Not at hne
        obtain ⟨-, -, h3, h4, -⟩ := hne
        obtain ⟨hs, hh⟩ := Option.ne_none_iff_exists'.1 h3
        exact ⟨hs, hh, h4 hs hh⟩
    · cases h
  · cases h

theorem checkedSteps_append {env : Env F G1 B} {P : PairingGroups F G1 G2 GT} {srs : Srs G1 G2}
    {f : B → FWitness F → Option B} (a : Aug F G1 B) (l m : List (CheckedStep F G1)) :
    checkedSteps env P srs f a (l ++ m) = (checkedSteps env P srs f a l).bind fun a' =>
      checkedSteps env P srs f a' m := by
  induction l generalizing a with
  | nil => rfl
  | cons st l ih =>
    simp only [List.cons_append, checkedSteps]
    cases checkedStep env P srs f a st <;> simp [ih]

theorem checkedSteps_rounds {env : Env F G1 B} {P : PairingGroups F G1 G2 GT} {srs : Srs G1 G2}
    {f : B → FWitness F → Option B} {a a' : Aug F G1 B} {l : List (CheckedStep F G1)}
    (h : checkedSteps env P srs f a l = some a') : rounds env f a (l.map CheckedStep.round) = some a' := by
  induction l generalizing a with
  | nil => exact h
  | cons st l ih =>
    simp only [checkedSteps, Option.bind_eq_some_iff] at h
    obtain ⟨a1, h1, h2⟩ := h
    simp only [List.map_cons, rounds, (checkedStep_spec h1).1, Option.bind_some]
    exact ih h2

/-- Hashes that agree as scalars come from the same state or exhibit a collision. -/
theorem state_bound (env : Env F G1 B) (LF LG LB : ℕ) (hLF : ∀ x, (env.serF x).length = LF)
    (hLG : ∀ x, (env.serG x).length = LG) (hLB : ∀ x, (env.serB x).length = LB) (h0 : 0 < LF)
    (hF : Function.Injective env.serF) (hG : Function.Injective env.serG) (hB : Function.Injective env.serB)
    (i z0 zi i' z0' zi' : B) (U U' : FInstance F G1)
    (h : env.toScalar (stateHash env i z0 zi U) = env.toScalar (stateHash env i' z0' zi' U')) :
    U = U' ∨ StateCollision env i z0 zi U i' z0' zi' U' := by
  by_cases hh : stateHash env i z0 zi U = stateHash env i' z0' zi' U'
  · rcases C39_binding env LF LG LB hLF hLG hLB h0 hF hG hB i z0 zi i' z0' zi' U U'
      (by rw [hashIo_eq, hashIo_eq]; exact hh) with h1 | h1 | h1
    · exact .inl h1.2.2.2
    · exact .inr (.inl h1)
    · exact .inr (.inr (.inl ⟨h1.1, hh⟩))
  · exact .inr (.inr (.inr ⟨hh, h⟩))

/-- **C90** (both checks together bind the accumulator): if every step is checked by `run` and by `verify`, as in the
example program, then the accumulated instance presented in the second step is the trivial one and the one presented in
each later step is the fold of the two instances presented before, unless two states that hash alike are exhibited.
All fresh instances from the second on are strict (`u = 1`, trivial error commitment).  Fewer steps than the
characteristic of the base field. -/
theorem C90_accumulators_chain (env : Env F G1 B) (LF LG LB : ℕ) (hLF : ∀ x, (env.serF x).length = LF)
    (hLG : ∀ x, (env.serG x).length = LG) (hLB : ∀ x, (env.serB x).length = LB) (hpos : 0 < LF)
    (hF : Function.Injective env.serF) (hG : Function.Injective env.serG) (hB : Function.Injective env.serB)
    (P : PairingGroups F G1 G2 GT) (srs : Srs G1 G2) (f : B → FWitness F → Option B) (ti : FInstance F G1) (z0 : B)
    (sts : List (CheckedStep F G1)) (a : Aug F G1 B) (h : checkedSteps env P srs f (Aug.new ti z0) sts = some a)
    (hchar : ∀ k, 0 < k → k < sts.length → (k : B) ≠ 0) (k : ℕ) (st st' : CheckedStep F G1)
    (hst : sts[k]? = some st) (hst' : sts[k + 1]? = some st') :
    st'.zk.ui.u = 1 ∧ st'.zk.ui.comE = ti.comE ∧
    (st'.zk.bigUi = (if k = 0 then ti else match st.zk.comT with
        | some T => foldedBy (challengeOf env (env.digest (env.digest (env.digest (env.serF st.zk.ui.u) ++
            env.serF st.zk.bigUi.u) ++ env.serG T))) st.zk.ui st.zk.bigUi T
        | none => ti) ∨
      ∃ z U, U ≠ st'.zk.bigUi ∧
        StateCollision env ((k + 1 : ℕ) : B) z0 z U ((k + 1 : ℕ) : B) z0 z st'.zk.bigUi) := by
  have hk : k + 1 < sts.length := by
    by_contra hge
    rw [List.getElem?_eq_none (by omega)] at hst'
    cases hst'
  have hsplit : sts = (sts.take k ++ [st]) ++ (st' :: sts.drop (k + 2)) := by
    have e1 : sts.take (k + 1) = sts.take k ++ [st] := by rw [List.take_add_one, hst]; rfl
    have e2 : sts.drop (k + 1) = st' :: sts.drop (k + 2) := by
      have h3 := List.getElem_of_getElem? hst'
      obtain ⟨hlt, h4⟩ := h3
      rw [List.drop_eq_getElem_cons hlt, h4]
    rw [← e1, ← e2, List.take_append_drop]
  rw [hsplit, checkedSteps_append, Option.bind_eq_some_iff] at h
  obtain ⟨a1, h1, h2⟩ := h
  simp only [checkedSteps, Option.bind_eq_some_iff] at h2
  obtain ⟨a2, h3, -⟩ := h2
  have hr := checkedSteps_rounds h1
  rw [List.map_append, List.map_cons, List.map_nil] at hr
  have hlen : ((sts.take k).map CheckedStep.round).length = k := by simp; omega
  have hhash := C37_stored_hash env f ti z0 _ _ a1 hr
  obtain ⟨t1, t2, t3, -⟩ := C37_tracks_F env f ti z0 _ a1 hr
  rw [hlen] at hhash
  rw [List.length_append, hlen, List.length_singleton] at t1
  have hi : a1.i ≠ 0 := by rw [t1]; exact hchar (k + 1) (by omega) hk
  obtain ⟨e1, e2, e3, -, hs, e5, e6⟩ := (checkedStep_spec h3).2 hi
  refine ⟨e3, by rw [e2, t3], ?_⟩
  rw [hhash, Option.some.injEq] at e5
  subst e5
  rw [e1, Option.some.injEq, t1, t2] at e6
  by_cases hU : accInstance env ti (k : B) st.round = st'.zk.bigUi
  · left
    rw [← hU]
    unfold accInstance CheckedStep.round
    by_cases hk0 : k = 0
    · rw [if_pos hk0, if_pos (by simp [hk0])]
    · rw [if_neg hk0, if_neg (hchar k (by omega) (by omega))]
      cases st.zk.comT <;> rfl
  · right
    refine ⟨a1.zi, _, hU, ?_⟩
    rcases state_bound env LF LG LB hLF hLG hLB hpos hF hG hB _ _ _ _ _ _ _ _ e6.symm with h4 | h4
    · exact absurd h4 hU
    · exact h4

/-! ## C92: the shipped program -/

/-- **C92** (false of the code): the shipped program replaces the public output of every instance but the first by the
hash of the next state (`nova/examples/examples.rs` lines 132-141), but its R1CS reads it as the output: the instance with
public input `h` is satisfied by the program's witness exactly if `h = input³ + input + 5`. -/
theorem C92_shipped_instance_iff (input : ℕ) (h : F) (srs : Srs G1 G2) (fi : FInstance F G1)
    (hfi : (FWitness.new (testW input : List F) 4).commit srs [h] = some fi) :
    isR1csSatisfied testR1cs fi (FWitness.new (testW input) 4) srs = some (.ok ()) ↔
      h = (input : F) ^ 3 + input + 5 := by
  rw [C28_fresh_iff testR1cs (testW input) [h] 4 srs fi rfl rfl rfl rfl rfl hfi]
  constructor
  · intro hall
    have h3 := hall 3 (by norm_num)
    simp [testR1cs, testW, toFMatrix, toFVec, dot, Finset.sum_range_succ] at h3
    rw [← h3]; ring
  · rintro rfl i hi
    have : i = 0 ∨ i = 1 ∨ i = 2 ∨ i = 3 := by omega
    rcases this with rfl | rfl | rfl | rfl <;>
      simp [testR1cs, testW, toFMatrix, toFVec, dot, Finset.sum_range_succ] <;> ring

/-! ## Non-vacuity -/

/-- Two checked steps exist in every environment: the first with any arguments, the second with a forged proof. -/
theorem two_checked_steps (env : Env F G1 B) (hdig : ∀ b, 8 ≤ (env.digest b).length) (P : PairingGroups F G1 G2 GT)
    (s : F) (n : ℕ) (f : B → FWitness F → Option B) (z0 z1 z2 : B) (w0 w1 : FWitness F) (h1 : f z0 w0 = some z1)
    (h2 : f z1 w1 = some z2) :
    ∃ a st0 st1, checkedSteps env P (Srs.newFromSecret P s n) f (Aug.new ⟨0, 1, 0, []⟩ z0) [st0, st1] = some a ∧
      a.zi = z2 ∧ st0.wi = w0 ∧ st1.wi = w1 := by
  set ti : FInstance F G1 := ⟨0, 1, 0, []⟩ with hti
  let zk0 : ZkIVCProof F G1 := ⟨ti, ti, none, none⟩
  have s0 : checkedStep env P (Srs.newFromSecret P s n) f (Aug.new ti z0) ⟨w0, zk0, .default⟩ =
      some ⟨0 + 1, ti, z0, z1, none, some (stateHash env 1 z0 z1 ti), none⟩ := by
    unfold checkedStep
    rw [C38_run_zero env f (Aug.new ti z0) rfl ⟨zk0.ui, some zk0.bigUi, w0, zk0.comT⟩]
    dsimp only [Aug.new]
    rw [h1]
    simp [ivcVerify, Aug.nextStep]
  let a1 : Aug F G1 B := ⟨0 + 1, ti, z0, z1, none, some (stateHash env 1 z0 z1 ti), none⟩
  have hi : a1.i ≠ 0 := by simp [a1]
  have hi1 : a1.i = 1 := by simp [a1]
  have hrun := C38_run_succ env hdig f a1 hi (forgedIvc env a1 .default).ui ti w1 0 (stateHash env 1 z0 z1 ti) rfl
    (by simp [forgedIvc, a1, hti]) rfl rfl
  rw [show f a1.zi w1 = some z2 from h2, Option.map_some] at hrun
  have s1 : ∃ a, checkedStep env P (Srs.newFromSecret P s n) f a1 ⟨w1, forgedIvc env a1 .default, .default⟩ = some a ∧
      a.zi = z2 := by
    unfold checkedStep
    dsimp only
    rw [show (forgedIvc env a1 .default).bigUi = ti from rfl, show (forgedIvc env a1 .default).comT = some 0 from rfl,
      hrun]
    dsimp only
    obtain ⟨tr', hv⟩ := C91_any_state_accepted env P s n hdig { a1 with
          hi1 := some (stateHash env (a1.i + 1) a1.z0 z2 (accInstance env a1.trivialInstance a1.i
            ⟨(forgedIvc env a1 .default).ui, some ti, w1, some 0⟩))
          zi1 := some z2 } hi rfl .default
    have e : forgedIvc env { a1 with
          hi1 := some (stateHash env (a1.i + 1) a1.z0 z2 (accInstance env a1.trivialInstance a1.i
            ⟨(forgedIvc env a1 .default).ui, some ti, w1, some 0⟩))
          zi1 := some z2 } .default = forgedIvc env a1 .default := rfl
    rw [e] at hv
    rw [hv]
    exact ⟨_, rfl, rfl⟩
  obtain ⟨a, ha, haz⟩ := s1
  refine ⟨a, ⟨w0, zk0, .default⟩, ⟨w1, forgedIvc env a1 .default, .default⟩, ?_, haz, rfl, rfl⟩
  simp only [checkedSteps]
  rw [s0]
  simp only [Option.bind_some]
  rw [show (⟨0 + 1, ti, z0, z1, none, some (stateHash env 1 z0 z1 ti), none⟩ : Aug F G1 B) = a1 from rfl, ha]
  rfl

/-- The hypotheses of the chain theorem are met by two checked steps over a concrete environment. -/
example [Fact (Nat.Prime 7)] : ∃ a st0 st1, checkedSteps byteEnv (trivialGroups (ZMod 7))
    (Srs.newFromSecret (trivialGroups (ZMod 7)) 3 1) (fun z _ => some (z + 2)) (Aug.new ⟨0, 1, 0, []⟩ 5) [st0, st1] =
      some a ∧ a.zi = 5 + 2 + 2 ∧ st0.wi = ⟨[], []⟩ ∧ st1.wi = ⟨[1], [0]⟩ :=
  two_checked_steps byteEnv (fun b => by simp [byteEnv]) (trivialGroups (ZMod 7)) 3 1 _ 5 (5 + 2) (5 + 2 + 2) _ _ rfl rfl

/-- The hypotheses of `C89_any_history` are met by a history with a repeated `run`, a failing `run` and a failing
`verify`: the second of the two first runs counts. -/
example (zk : ZkIVCProof ℚ ℚ) (hzk : zk.comT = none) :
    history toyEnv (trivialGroups ℚ) (Srs.newFromSecret (trivialGroups ℚ) 7 4) (fun z w => some (z + w.w.length))
      (Aug.new ⟨0, 1, 0, [0]⟩ 10)
      [.run ⟨⟨0, 1, 0, []⟩, none, ⟨[], [1]⟩, none⟩, .run ⟨⟨0, 1, 0, []⟩, none, ⟨[], [1, 2]⟩, none⟩, .next,
        .run ⟨⟨0, 1, 0, []⟩, none, ⟨[], [1]⟩, none⟩, .verify zk .default] =
      some ([true, true, true, false, false], ⟨1, ⟨0, 1, 0, [0]⟩, 10, 12, none,
        some (hashIo toyEnv 1 10 12 ⟨0, 1, 0, [0]⟩), none⟩) := by
  simp [history, Call.exec, Aug.run, Aug.new, Aug.nextStep, ivcVerify, hzk]
  norm_num
  exact ⟨rfl, rfl, rfl, rfl⟩

end Verif.Nova

import Verif.Nova.Nifs

/-!
# Properties C37–C41 and C69: the augmented circuit and IVC
-/

set_option linter.unusedSectionVars false

namespace Verif.Nova

open Verif.Ark Verif.Kzg

variable {F G1 G2 GT B : Type} [Field F] [DecidableEq F] [AddCommGroup G1] [Module F G1] [DecidableEq G1]
  [AddCommGroup G2] [Module F G2] [AddCommGroup GT] [Module F GT] [DecidableEq GT]
  [Field B] [DecidableEq B]

/-! ## Specification vocabulary -/

/-- The arguments of one call of `run`. -/
structure Round (F G1 : Type) where
  /-- `u_i` -/
  ui : FInstance F G1
  /-- `big_u_i` -/
  bigUi : Option (FInstance F G1)
  /-- `w_i` -/
  wi : FWitness F
  /-- `com_t` -/
  comT : Option G1

/-- One successful `run` followed by `next_step`; `none` on panic or error. -/
def round (env : Env F G1 B) (f : B → FWitness F → Option B) (a : Aug F G1 B) (rd : Round F G1) :
    Option (Aug F G1 B) :=
  match a.run env f rd.ui rd.bigUi rd.wi rd.comT with
  | some (.ok _, a') => a'.nextStep
  | _ => none

/-- A history of rounds. -/
def rounds (env : Env F G1 B) (f : B → FWitness F → Option B) : Aug F G1 B → List (Round F G1) →
    Option (Aug F G1 B)
  | a, [] => some a
  | a, rd :: rds => (round env f a rd).bind fun a' => rounds env f a' rds

/-- `F` applied successively. -/
def iterF (f : B → FWitness F → Option B) : B → List (FWitness F) → Option B
  | z, [] => some z
  | z, w :: ws => (f z w).bind fun z' => iterF f z' ws

/-- The bytes of an IVC state: step counter, initial state, current state, and the accumulated instance
`(com_E, u, com_W, x)`, one after the other. -/
def stateBytes {F G1 B : Type} (env : Env F G1 B) (i z0 zi : B) (U : FInstance F G1) : List UInt8 :=
  (([env.serB i, env.serB z0, env.serB zi, env.serG U.comE, env.serF U.u, env.serG U.comW] ++
    U.x.map env.serF)).flatten

/-- The hash of an IVC state as a base field element. -/
def stateHash {F G1 B : Type} (env : Env F G1 B) (i z0 zi : B) (U : FInstance F G1) : B :=
  env.toBase (env.digest (stateBytes env i z0 zi U))

/-- `U + r V` with cross-term commitment `T`. -/
def foldedBy (r : F) (U V : FInstance F G1) (T : G1) : FInstance F G1 where
  comE := U.comE + r • T + r ^ 2 • V.comE
  u := U.u + r * V.u
  comW := U.comW + r • V.comW
  x := List.zipWith (fun a b => a + r * b) U.x V.x

/-- The accumulated instance after a round that starts with counter `i`: the trivial instance after the
first round, later the fold of the two instances given, with the challenge of a fresh transcript that
absorbed `u`, `U.u` and `com_T`. -/
def accInstance (env : Env F G1 B) (ti : FInstance F G1) (i : B) (rd : Round F G1) : FInstance F G1 :=
  if i = 0 then ti
  else match rd.bigUi, rd.comT with
    | some U, some ct => foldedBy (challengeOf env (env.digest (env.digest (env.digest
        (env.serF rd.ui.u) ++ env.serF U.u) ++ env.serG ct))) rd.ui U ct
    | _, _ => ti

theorem hashIoInput_eq (env : Env F G1 B) (i z0 zi : B) (U : FInstance F G1) :
    hashIoInput env i z0 zi U = stateBytes env i z0 zi U := by
  simp [hashIoInput, stateBytes, List.flatMap]

theorem hashIo_eq (env : Env F G1 B) (i z0 zi : B) (U : FInstance F G1) :
    hashIo env i z0 zi U = stateHash env i z0 zi U := by
  unfold hashIo stateHash; rw [hashIoInput_eq]

theorem foldInstance_eq (r : F) (U V : FInstance F G1) (T : G1) :
    foldInstance r U V T = foldedBy r U V T := by
  unfold foldInstance foldedBy
  congr 1
  · rw [pow_two]
  · ring
  · rw [List.zip, List.map_zipWith]
    congr 1; funext a b; ring

/-- The folded instance hashed in a round that starts at counter `i`: the trivial instance at zero, else
the fold of the two instances given with the challenge derived from a fresh transcript. -/
def nextInstance (env : Env F G1 B) (ti : FInstance F G1) (i : B) (rd : Round F G1) : FInstance F G1 :=
  if i = 0 then ti
  else match rd.bigUi, rd.comT with
    | some U, some ct => foldInstance (challengeOf env (foldDigest env [] rd.ui.u U.u ct)) rd.ui U ct
    | _, _ => ti

theorem nextInstance_eq (env : Env F G1 B) (ti : FInstance F G1) (i : B) (rd : Round F G1) :
    nextInstance env ti i rd = accInstance env ti i rd := by
  unfold nextInstance accInstance
  split
  · rfl
  · split
    · rw [foldInstance_eq]; rfl
    · rfl

/-! ## C38 -/

theorem run_zero (env : Env F G1 B) (f : B → FWitness F → Option B) (a : Aug F G1 B) (h0 : a.i = 0)
    (rd : Round F G1) :
    a.run env f rd.ui rd.bigUi rd.wi rd.comT = (f a.zi rd.wi).map fun z =>
      (.ok (hashIo env 1 a.z0 z a.trivialInstance),
        { a with hi1 := some (hashIo env 1 a.z0 z a.trivialInstance), zi1 := some z }) := by
  unfold Aug.run
  rw [if_neg (by simpa using h0)]
  cases f a.zi rd.wi <;> rfl

/-- **C38** (first step): at counter zero `run` never returns an error; it returns the hash of
`(1, z0, F(z, w), trivial instance)` if `F` returns. -/
theorem C38_run_zero (env : Env F G1 B) (f : B → FWitness F → Option B) (a : Aug F G1 B) (h0 : a.i = 0)
    (rd : Round F G1) :
    a.run env f rd.ui rd.bigUi rd.wi rd.comT = (f a.zi rd.wi).map fun z =>
      (.ok (stateHash env 1 a.z0 z a.trivialInstance),
        { a with hi1 := some (stateHash env 1 a.z0 z a.trivialInstance), zi1 := some z }) := by
  rw [run_zero env f a h0 rd]
  simp only [hashIo_eq]

/-- **C38** (later steps): with public input present, `run` returns an error exactly if `U_i` or `com_T`
is missing, no hash is stored, the public input differs from the stored hash, the `E` commitment is not
the trivial one, or `u ≠ 1`. -/
theorem C38_run_error_iff (env : Env F G1 B) (f : B → FWitness F → Option B) (a : Aug F G1 B) (h0 : a.i ≠ 0)
    (rd : Round F G1) (hx : rd.ui.x ≠ []) :
    (∃ e a', a.run env f rd.ui rd.bigUi rd.wi rd.comT = some (.error e, a')) ↔
      rd.bigUi = none ∨ rd.comT = none ∨ a.hi = none ∨
      (∃ h, a.hi = some h ∧ rd.ui.x.head? ≠ some (env.toScalar h)) ∨
      rd.ui.comE ≠ a.trivialInstance.comE ∨ rd.ui.u ≠ 1 := by
  obtain ⟨ui, bigUi, wi, comT⟩ := rd
  simp only at hx ⊢
  obtain ⟨x0, xs, hx'⟩ := List.exists_cons_of_ne_nil hx
  unfold Aug.run
  rw [if_pos h0]
  cases bigUi with
  | none => simp
  | some U =>
    cases comT with
    | none => simp
    | some ct =>
      cases hh : a.hi with
      | none => simp
      | some h =>
        simp only [hx', List.head?_cons, Option.bind_eq_bind, Option.bind_some, reduceCtorEq, false_or,
          Option.some.injEq, exists_eq_left']
        by_cases h1 : x0 = env.toScalar h
        swap
        · rw [if_pos h1]; simp [h1]
        rw [if_neg (by simpa using h1)]
        by_cases h2 : ui.comE = a.trivialInstance.comE
        swap
        · rw [if_pos h2]; simp [h2]
        rw [if_neg (by simpa using h2)]
        by_cases h3 : ui.u = 1
        swap
        · rw [if_pos h3]; simp [h3]
        rw [if_neg (by simpa using h3)]
        simp only [h1, h2, h3, ne_eq, not_true, or_self, iff_false, not_exists]
        intro e a'
        cases (feedFold env Transcript.default 1 U.u ct).generateOne env with
        | none => simp
        | some rt =>
          simp only [Option.bind_some]
          cases f a.zi wi <;> simp

/-- **C38** (an error changes nothing): whatever the inputs. -/
theorem C38_error_preserves_state (env : Env F G1 B) (f : B → FWitness F → Option B) (a a' : Aug F G1 B)
    (rd : Round F G1) (e : String) (h : a.run env f rd.ui rd.bigUi rd.wi rd.comT = some (.error e, a')) :
    a' = a := by
  obtain ⟨ui, bigUi, wi, comT⟩ := rd
  by_cases h0 : a.i = 0
  · rw [run_zero env f a h0 ⟨ui, bigUi, wi, comT⟩] at h
    cases hf : f a.zi wi <;> simp [hf] at h
  unfold Aug.run at h
  rw [if_pos h0] at h
  cases bigUi with
  | none => simp only [Option.some.injEq, Prod.mk.injEq] at h; exact h.2.symm
  | some U =>
    cases comT with
    | none => simp only [Option.some.injEq, Prod.mk.injEq] at h; exact h.2.symm
    | some ct =>
      cases hh : a.hi with
      | none => simp only [hh, Option.some.injEq, Prod.mk.injEq] at h; exact h.2.symm
      | some hs =>
        simp only [hh] at h
        cases hx : ui.x.head? with
        | none => simp [hx] at h
        | some x0 =>
          simp only [hx, Option.bind_eq_bind, Option.bind_some] at h
          by_cases h1 : x0 = env.toScalar hs
          swap
          · rw [if_pos h1] at h; simp only [Option.some.injEq, Prod.mk.injEq] at h; exact h.2.symm
          rw [if_neg (by simpa using h1)] at h
          by_cases h2 : ui.comE = a.trivialInstance.comE
          swap
          · rw [if_pos h2] at h; simp only [Option.some.injEq, Prod.mk.injEq] at h; exact h.2.symm
          rw [if_neg (by simpa using h2)] at h
          by_cases h3 : ui.u = 1
          swap
          · rw [if_pos h3] at h; simp only [Option.some.injEq, Prod.mk.injEq] at h; exact h.2.symm
          rw [if_neg (by simpa using h3)] at h
          simp only [Option.bind_eq_some_iff, pure, Option.some.injEq, Prod.mk.injEq, reduceCtorEq,
            false_and, and_false, exists_false] at h

/-- The successful outcomes of `run`. -/
theorem run_ok (env : Env F G1 B) (f : B → FWitness F → Option B) (a a' : Aug F G1 B) (rd : Round F G1)
    (hash : B) (h : a.run env f rd.ui rd.bigUi rd.wi rd.comT = some (.ok hash, a')) :
    ∃ z, f a.zi rd.wi = some z ∧ hash = hashIo env (a.i + 1) a.z0 z (nextInstance env a.trivialInstance a.i rd) ∧
      a' = { a with hi1 := some hash, zi1 := some z } := by
  obtain ⟨ui, bigUi, wi, comT⟩ := rd
  by_cases h0 : a.i = 0
  · rw [run_zero env f a h0 ⟨ui, bigUi, wi, comT⟩] at h
    cases hf : f a.zi wi with
    | none => simp [hf] at h
    | some z =>
      simp only [hf, Option.map_some, Option.some.injEq, Prod.mk.injEq, Except.ok.injEq] at h
      obtain ⟨rfl, rfl⟩ := h
      exact ⟨z, rfl, by simp [nextInstance, h0], by simp⟩
  unfold Aug.run at h
  rw [if_pos h0] at h
  cases bigUi with
  | none => simp at h
  | some U =>
    cases comT with
    | none => simp at h
    | some ct =>
      cases hh : a.hi with
      | none => simp [hh] at h
      | some hs =>
        simp only [hh] at h
        cases hx : ui.x.head? with
        | none => simp [hx] at h
        | some x0 =>
          simp only [hx, Option.bind_eq_bind, Option.bind_some] at h
          by_cases h1 : x0 = env.toScalar hs
          swap
          · rw [if_pos h1] at h; simp at h
          rw [if_neg (by simpa using h1)] at h
          by_cases h2 : ui.comE = a.trivialInstance.comE
          swap
          · rw [if_pos h2] at h; simp at h
          rw [if_neg (by simpa using h2)] at h
          by_cases h3 : ui.u = 1
          swap
          · rw [if_pos h3] at h; simp at h
          rw [if_neg (by simpa using h3)] at h
          simp only [Option.bind_eq_some_iff, pure, Option.some.injEq, Prod.mk.injEq,
            Except.ok.injEq] at h
          obtain ⟨rt, hrt, z, hz, rfl, rfl⟩ := h
          refine ⟨z, hz, ?_, by simp⟩
          rw [generateOne_eq] at hrt
          split at hrt
          · cases hrt
          · simp only [Option.some.injEq] at hrt
            rw [← hrt]
            simp only [nextInstance, h0, if_false, nifsVerifier]
            rfl

/-- **C38** (success at later steps): with all checks passed (and digests of at least eight bytes) `run`
returns the hash of `(i + 1, z_0, F(z_i, w), U')`, `U'` the fold of the two instances, and stores it with
the new state, if `F` returns; nothing else changes. -/
theorem C38_run_succ (env : Env F G1 B) (hdig : ∀ b, 8 ≤ (env.digest b).length)
    (f : B → FWitness F → Option B) (a : Aug F G1 B) (h0 : a.i ≠ 0) (ui U : FInstance F G1) (wi : FWitness F)
    (ct : G1) (h : B) (hh : a.hi = some h) (hx : ui.x.head? = some (env.toScalar h))
    (hE : ui.comE = a.trivialInstance.comE) (hu : ui.u = 1) :
    a.run env f ui (some U) wi (some ct) = (f a.zi wi).map fun z =>
      (.ok (stateHash env (a.i + 1) a.z0 z (accInstance env a.trivialInstance a.i ⟨ui, some U, wi, some ct⟩)),
        { a with
          hi1 := some (stateHash env (a.i + 1) a.z0 z
            (accInstance env a.trivialInstance a.i ⟨ui, some U, wi, some ct⟩)),
          zi1 := some z }) := by
  have hr : (a.run env f ui (some U) wi (some ct)).isSome = (f a.zi wi).isSome ∧
      ∀ e a', a.run env f ui (some U) wi (some ct) ≠ some (.error e, a') := by
    constructor
    · unfold Aug.run
      rw [if_pos h0]
      simp only [hh, hx, hE, hu, Option.bind_eq_bind, Option.bind_some, ne_eq, not_true, if_false]
      rw [generateOne_feedFold env hdig]
      simp only [Option.bind_some]
      cases f a.zi wi <;> rfl
    · intro e a' he
      have := (C38_run_error_iff env f a h0 ⟨ui, some U, wi, some ct⟩ (by
        intro h'; simp only at h'; rw [h'] at hx; simp at hx)).1 ⟨e, a', he⟩
      simp [hh, hx, hE, hu] at this
  cases hf : f a.zi wi with
  | none =>
    have h1 := hr.1
    rw [hf] at h1
    simpa using h1
  | some z =>
    have h1 := hr.1
    rw [hf] at h1
    obtain ⟨⟨res, a'⟩, hra⟩ := Option.isSome_iff_exists.1 (h1.trans rfl)
    cases res with
    | error e => exact absurd hra (hr.2 e a')
    | ok hash =>
      obtain ⟨z', hz', e1, e2⟩ := run_ok env f a a' ⟨ui, some U, wi, some ct⟩ hash hra
      simp only at hz'
      rw [hf, Option.some.injEq] at hz'
      subst hz'
      rw [hra, e2, e1, hashIo_eq, nextInstance_eq]
      rfl

/-! ## C37 -/

theorem round_eq (env : Env F G1 B) (f : B → FWitness F → Option B) (a a' : Aug F G1 B) (rd : Round F G1)
    (h : round env f a rd = some a') :
    ∃ z, f a.zi rd.wi = some z ∧ a' = ⟨a.i + 1, a.trivialInstance, a.z0, z, none,
      some (hashIo env (a.i + 1) a.z0 z (nextInstance env a.trivialInstance a.i rd)), none⟩ := by
  unfold round at h
  split at h
  · next hash a1 heq =>
    obtain ⟨z, hz, hhash, rfl⟩ := run_ok env f a a1 rd hash heq
    simp only [Aug.nextStep, Option.bind_eq_bind, Option.bind_some, pure, Option.some.injEq] at h
    exact ⟨z, hz, by rw [← h, hhash]⟩
  · cases h

theorem rounds_append (env : Env F G1 B) (f : B → FWitness F → Option B) (a : Aug F G1 B)
    (l m : List (Round F G1)) :
    rounds env f a (l ++ m) = (rounds env f a l).bind fun a' => rounds env f a' m := by
  induction l generalizing a with
  | nil => rfl
  | cons r l ih =>
    simp only [List.cons_append, rounds]
    cases round env f a r <;> simp [ih]

theorem iterF_append (f : B → FWitness F → Option B) (z : B) (l m : List (FWitness F)) :
    iterF f z (l ++ m) = (iterF f z l).bind fun z' => iterF f z' m := by
  induction l generalizing z with
  | nil => rfl
  | cons w l ih =>
    simp only [List.cons_append, iterF]
    cases f z w <;> simp [ih]

/-- **C37**: after any history of successful rounds from `AugmentedCircuit::new`, the counter is the
number of rounds, `z_0` is unchanged and `z_i` is `F` iterated over the witnesses given. -/
theorem C37_tracks_F (env : Env F G1 B) (f : B → FWitness F → Option B) (ti : FInstance F G1) (z0 : B)
    (rds : List (Round F G1)) (a : Aug F G1 B) (h : rounds env f (Aug.new ti z0) rds = some a) :
    a.i = (rds.length : B) ∧ a.z0 = z0 ∧ a.trivialInstance = ti ∧
      iterF f z0 (rds.map Round.wi) = some a.zi := by
  induction rds using List.reverseRecOn generalizing a with
  | nil =>
    simp only [rounds, Option.some.injEq] at h
    subst h; simp [Aug.new, iterF]
  | append_singleton init rd ih =>
    rw [rounds_append, Option.bind_eq_some_iff] at h
    obtain ⟨a1, h1, h2⟩ := h
    simp only [rounds, Option.bind_eq_some_iff, Option.some.injEq, exists_eq_right] at h2
    obtain ⟨z, hz, rfl⟩ := round_eq env f a1 a rd h2
    obtain ⟨e1, e2, e3, e4⟩ := ih a1 h1
    refine ⟨by simp [e1], e2, e3, ?_⟩
    rw [List.map_append, iterF_append, e4]
    simp [iterF, hz]

/-- **C37** (stored hash): after at least one round the stored hash is the hash of the state
`(i, z_0, z_i, U)` with `U` the accumulated instance of the last round. -/
theorem C37_stored_hash (env : Env F G1 B) (f : B → FWitness F → Option B) (ti : FInstance F G1) (z0 : B)
    (rds : List (Round F G1)) (rd : Round F G1) (a : Aug F G1 B)
    (h : rounds env f (Aug.new ti z0) (rds ++ [rd]) = some a) :
    a.hi = some (stateHash env ((rds.length + 1 : ℕ) : B) z0 a.zi (accInstance env ti (rds.length : B) rd)) := by
  rw [rounds_append, Option.bind_eq_some_iff] at h
  obtain ⟨a1, h1, h2⟩ := h
  simp only [rounds, Option.bind_eq_some_iff, Option.some.injEq, exists_eq_right] at h2
  obtain ⟨z, hz, rfl⟩ := round_eq env f a1 a rd h2
  obtain ⟨e1, e2, e3, -⟩ := C37_tracks_F env f ti z0 rds a1 h1
  simp [e1, e2, e3, hashIo_eq, nextInstance_eq]

/-! ## C39 -/

theorem flatMap_inj {α : Type} (g : α → List UInt8) (L : ℕ) (hL : ∀ x, (g x).length = L) (h0 : 0 < L)
    (hinj : Function.Injective g) (l m : List α) (h : l.flatMap g = m.flatMap g) : l = m := by
  induction l generalizing m with
  | nil =>
    cases m with
    | nil => rfl
    | cons b m =>
      exfalso
      have := congrArg List.length h
      simp [hL] at this
      omega
  | cons a l ih =>
    cases m with
    | nil =>
      exfalso
      have := congrArg List.length h
      simp [hL] at this
      omega
    | cons b m =>
      rw [List.flatMap_cons, List.flatMap_cons] at h
      obtain ⟨h1, h2⟩ := List.append_inj h (by rw [hL, hL])
      rw [hinj h1, ih m h2]

/-- **C39** (encoding): with injective fixed-width serialisations the bytes of an IVC state determine
`i`, `z_0`, `z_i` and all of `U`. -/
theorem C39_encoding_injective (env : Env F G1 B) (LF LG LB : ℕ) (hLF : ∀ x, (env.serF x).length = LF)
    (hLG : ∀ x, (env.serG x).length = LG) (hLB : ∀ x, (env.serB x).length = LB) (h0 : 0 < LF)
    (hF : Function.Injective env.serF) (hG : Function.Injective env.serG) (hB : Function.Injective env.serB)
    (i z0 zi i' z0' zi' : B) (U U' : FInstance F G1)
    (h : stateBytes env i z0 zi U = stateBytes env i' z0' zi' U') :
    i = i' ∧ z0 = z0' ∧ zi = zi' ∧ U = U' := by
  rw [← hashIoInput_eq, ← hashIoInput_eq] at h
  unfold hashIoInput at h
  obtain ⟨h, hx⟩ := List.append_inj h (by simp [hLF, hLG, hLB])
  obtain ⟨h, hw⟩ := List.append_inj h (by simp [hLF, hLG, hLB])
  obtain ⟨h, hu⟩ := List.append_inj h (by simp [hLG, hLB])
  obtain ⟨h, he⟩ := List.append_inj h (by simp [hLB])
  obtain ⟨h, hzi⟩ := List.append_inj h (by simp [hLB])
  obtain ⟨hi, hz0⟩ := List.append_inj h (by simp [hLB])
  refine ⟨hB hi, hB hz0, hB hzi, ?_⟩
  obtain ⟨a, b, c, d⟩ := U
  obtain ⟨a', b', c', d'⟩ := U'
  simp only at *
  rw [hG he, hF hu, hG hw, flatMap_inj env.serF LF hLF h0 hF d d' hx]

/-- **C39** (binding): equal values of `hash_io` come from equal inputs, or from a collision of the hash
function, or from two different digests that reduce to the same field element. -/
theorem C39_binding (env : Env F G1 B) (LF LG LB : ℕ) (hLF : ∀ x, (env.serF x).length = LF)
    (hLG : ∀ x, (env.serG x).length = LG) (hLB : ∀ x, (env.serB x).length = LB) (h0 : 0 < LF)
    (hF : Function.Injective env.serF) (hG : Function.Injective env.serG) (hB : Function.Injective env.serB)
    (i z0 zi i' z0' zi' : B) (U U' : FInstance F G1)
    (h : hashIo env i z0 zi U = hashIo env i' z0' zi' U') :
    (i = i' ∧ z0 = z0' ∧ zi = zi' ∧ U = U') ∨
    (stateBytes env i z0 zi U ≠ stateBytes env i' z0' zi' U' ∧
      env.digest (stateBytes env i z0 zi U) = env.digest (stateBytes env i' z0' zi' U')) ∨
    (env.digest (stateBytes env i z0 zi U) ≠ env.digest (stateBytes env i' z0' zi' U') ∧
      env.toBase (env.digest (stateBytes env i z0 zi U)) =
        env.toBase (env.digest (stateBytes env i' z0' zi' U'))) := by
  rw [hashIo_eq, hashIo_eq] at h
  by_cases h1 : stateBytes env i z0 zi U = stateBytes env i' z0' zi' U'
  · left; exact C39_encoding_injective env LF LG LB hLF hLG hLB h0 hF hG hB i z0 zi i' z0' zi' U U' h1
  · by_cases h2 : env.digest (stateBytes env i z0 zi U) = env.digest (stateBytes env i' z0' zi' U')
    · right; left; exact ⟨h1, h2⟩
    · right; right; exact ⟨h2, h⟩

/-! ## C41 -/

/-- **C41** (base case): at counter zero `verify` accepts exactly if the state is the initial one,
whatever the proof. -/
theorem C41_verify_zero (env : Env F G1 B) (P : PairingGroups F G1 G2 GT) (srs : Srs G1 G2) (a : Aug F G1 B)
    (h0 : a.i = 0) (zk : ZkIVCProof F G1) (tr : Transcript) :
    (∃ tr', ivcVerify env P srs a zk tr = some (.ok (), tr')) ↔ a.z0 = a.zi := by
  unfold ivcVerify
  rw [if_pos h0]
  by_cases h : a.z0 = a.zi
  · rw [if_pos h]; simp [h]
  · rw [if_neg h]; simp [h]

theorem ivcVerify_iff (env : Env F G1 B) (P : PairingGroups F G1 G2 GT) (srs : Srs G1 G2) (a : Aug F G1 B)
    (h0 : a.i ≠ 0) (zk : ZkIVCProof F G1) (tr tr' : Transcript) :
    ivcVerify env P srs a zk tr = some (.ok (), tr') ↔
      ∃ comT proof, zk.comT = some comT ∧ zk.foldedUProof = some proof ∧
        zk.ui.x.head? = some (env.toScalar (hashIo env a.i a.z0 a.zi zk.bigUi)) ∧
        zk.ui.comE = a.trivialInstance.comE ∧ zk.ui.u = 1 ∧
        nifsVerify env P proof zk.ui zk.bigUi (nifsVerifier proof.r zk.ui zk.bigUi comT) comT srs tr =
          some (.ok (), tr') := by
  unfold ivcVerify
  rw [if_neg h0]
  cases hT : zk.comT with
  | none => simp
  | some comT =>
    cases hp : zk.foldedUProof with
    | none => simp
    | some proof =>
      simp only [Option.some.injEq, Option.bind_eq_bind]
      cases hx : zk.ui.x.head? with
      | none => simp
      | some x0 =>
        simp only [Option.bind_some, Option.some.injEq]
        by_cases h1 : x0 = env.toScalar (hashIo env a.i a.z0 a.zi zk.bigUi)
        swap
        · rw [if_pos h1]; simp [h1]
        rw [if_neg (by simpa using h1)]
        by_cases h2 : zk.ui.comE = a.trivialInstance.comE
        swap
        · rw [if_pos h2]; simp [h2]
        rw [if_neg (by simpa using h2)]
        by_cases h3 : zk.ui.u = 1
        swap
        · rw [if_pos h3]; simp [h3]
        rw [if_neg (by simpa using h3)]
        constructor
        · intro h; exact ⟨comT, proof, rfl, rfl, h1, h2, h3, h⟩
        · rintro ⟨_, _, rfl, rfl, -, -, -, h⟩; exact h

/-- **C41** (later steps): `verify` accepts exactly if the cross-term commitment and folding proof are
present, the first public input is the hash of `(i, z_0, z_i, U)`, the `E` commitment is the trivial one,
`u = 1`, and the folding verifier accepts on the fold of the two instances with the proof's `r`. -/
theorem C41_verify_iff (env : Env F G1 B) (P : PairingGroups F G1 G2 GT) (srs : Srs G1 G2) (a : Aug F G1 B)
    (h0 : a.i ≠ 0) (zk : ZkIVCProof F G1) (tr tr' : Transcript) :
    ivcVerify env P srs a zk tr = some (.ok (), tr') ↔
      ∃ comT proof, zk.comT = some comT ∧ zk.foldedUProof = some proof ∧
        zk.ui.x.head? = some (env.toScalar (stateHash env a.i a.z0 a.zi zk.bigUi)) ∧
        zk.ui.comE = a.trivialInstance.comE ∧ zk.ui.u = 1 ∧
        nifsVerify env P proof zk.ui zk.bigUi (foldedBy proof.r zk.ui zk.bigUi comT) comT srs tr =
          some (.ok (), tr') := by
  rw [ivcVerify_iff env P srs a h0]
  simp only [hashIo_eq, nifsVerifier, foldInstance_eq]

/-- **C41** (all equations): with an SRS of secret `s` and digests of at least eight bytes, `verify` of a
later step accepts exactly if the hash check, the checks of the fresh
instance, the two challenge equations and the two pairing equations of the folded commitments hold. -/
theorem C41_verify_equations (env : Env F G1 B) (P : PairingGroups F G1 G2 GT) (s : F) (n : ℕ)
    (hdig : ∀ b, 8 ≤ (env.digest b).length) (a : Aug F G1 B) (h0 : a.i ≠ 0) (zk : ZkIVCProof F G1)
    (tr : Transcript) :
    (∃ tr', ivcVerify env P (Srs.newFromSecret P s n) a zk tr = some (.ok (), tr')) ↔
      ∃ comT proof, zk.comT = some comT ∧ zk.foldedUProof = some proof ∧
        zk.ui.x.head? = some (env.toScalar (stateHash env a.i a.z0 a.zi zk.bigUi)) ∧
        zk.ui.comE = a.trivialInstance.comE ∧ zk.ui.u = 1 ∧
        proof.r = challengeOf env (foldDigest env (tr.data.getD []) 1 zk.bigUi.u comT) ∧
        proof.openingPoint = challengeOf env (openDigest env
          (foldDigest env (tr.data.getD []) 1 zk.bigUi.u comT)
          (zk.ui.comE + proof.r • comT + proof.r ^ 2 • zk.bigUi.comE)
          (zk.ui.comW + proof.r • zk.bigUi.comW)) ∧
        (s - proof.openingPoint) • proof.openingW.witness =
          zk.ui.comW + proof.r • zk.bigUi.comW - proof.openingW.eval • P.g1 ∧
        (s - proof.openingPoint) • proof.openingE.witness =
          zk.ui.comE + proof.r • comT + proof.r ^ 2 • zk.bigUi.comE - proof.openingE.eval • P.g1 := by
  constructor
  · rintro ⟨tr', h⟩
    obtain ⟨comT, proof, h1, h2, h3, h4, h5, h6⟩ := (C41_verify_iff env P _ a h0 zk tr tr').1 h
    obtain ⟨res, tr2, h7, h8⟩ := C33_verify_iff env P s n hdig proof zk.ui zk.bigUi
      (foldedBy proof.r zk.ui zk.bigUi comT) comT tr
    rw [h6] at h7
    simp only [Option.some.injEq, Prod.mk.injEq] at h7
    have h9 := h8.1 h7.1.symm
    rw [h5] at h9
    exact ⟨comT, proof, h1, h2, h3, h4, h5, h9.1, h9.2.1, h9.2.2.1, h9.2.2.2⟩
  · rintro ⟨comT, proof, h1, h2, h3, h4, h5, h6, h7, h8, h9⟩
    obtain ⟨res, tr2, h10, h11⟩ := C33_verify_iff env P s n hdig proof zk.ui zk.bigUi
      (foldedBy proof.r zk.ui zk.bigUi comT) comT tr
    have h12 := h11.2 (by rw [h5]; exact ⟨h6, h7, h8, h9⟩)
    refine ⟨tr2, (C41_verify_iff env P _ a h0 zk tr tr2).2 ⟨comT, proof, h1, h2, h3, h4, h5, ?_⟩⟩
    rw [h10, h12]

/-! ## C40 -/

/-- The variables of the loop in `nova/examples/examples.rs` lines 79-104 (also the test of
`nova/src/ivc/ivc_verifier.rs`). -/
structure Loop (F G1 B : Type) where
  /-- loop counter -/
  step : ℕ
  /-- `ivc.augmented_circuit` -/
  aug : Aug F G1 B
  /-- `u[step]` -/
  u : FInstance F G1
  /-- `w[step]` -/
  w : FWitness F
  /-- `ivc_proof` -/
  ivc : IVCProof F G1
  /-- `zk_ivc_proof` -/
  zk : ZkIVCProof F G1
  /-- `folded_witness` -/
  fw : FWitness F
  /-- `folded_instance` -/
  fi : FInstance F G1

/-- The call of `run` in `nova/examples/examples.rs` lines 85-94. -/
def Loop.run (env : Env F G1 B) (f : B → FWitness F → Option B) (st : Loop F G1 B) :
    Option (Except String B × Aug F G1 B) :=
  if st.step = 0 then st.aug.run env f st.u none st.w none
  else match st.zk.comT with
    | none => none
    | some ct => st.aug.run env f st.ivc.ui (some st.ivc.bigUi) st.ivc.wi (some ct)

/-- Running and verifying one step, `nova/examples/examples.rs` lines 85-106; an error is a failed
assertion of the example. -/
def Loop.check (env : Env F G1 B) (P : PairingGroups F G1 G2 GT) (srs : Srs G1 G2)
    (f : B → FWitness F → Option B) (st : Loop F G1 B) : Option (Except String (Aug F G1 B)) :=
  match st.run env f with
  | none => none
  | some (.error e, _) => some (.error e)
  | some (.ok _, a) =>
    match ivcVerify env P srs a st.zk .default with
    | none => none
    | some (.error e, _) => some (.error e)
    | some (.ok _, _) => some (.ok a)

/-- Preparing the next step, `nova/examples/examples.rs` lines 110-142: `wx` is the next raw witness and
its output. -/
def Loop.advance (env : Env F G1 B) (srs : Srs G1 G2) (r1cs : R1CS F) (st : Loop F G1 B) (a : Aug F G1 B)
    (wx : List F × List F) : Option (Loop F G1 B) := do
  let a' ← a.nextStep
  let w := FWitness.new wx.1 r1cs.matrixA.length
  let u0 ← w.commit srs wx.2
  let u : FInstance F G1 := ⟨u0.comE, u0.u, u0.comW, [env.toScalar (hashIo env a'.i a'.z0 a'.zi st.fi)]⟩
  let ivc : IVCProof F G1 := ⟨u, w, st.fi, st.fw⟩
  let out ← ivcProve env srs a' r1cs ivc .default
  pure ⟨st.step + 1, a', u, w, ivc, out.1.2.2, out.1.1, out.1.2.1⟩

/-- The loop of `nova/examples/examples.rs` for any number of further inputs. -/
def Loop.drive (env : Env F G1 B) (P : PairingGroups F G1 G2 GT) (srs : Srs G1 G2)
    (f : B → FWitness F → Option B) (r1cs : R1CS F) : Loop F G1 B → List (List F × List F) →
    Option (Except String (Loop F G1 B))
  | st, [] => some (.ok st)
  | st, wx :: rest =>
    match st.check env P srs f with
    | none => none
    | some (.error e) => some (.error e)
    | some (.ok a) =>
      match st.advance env srs r1cs a wx with
      | none => none
      | some st' => st'.drive env P srs f r1cs rest

/-- The state before the loop, `nova/examples/examples.rs` lines 37-80. -/
def Loop.init (srs : Srs G1 G2) (r1cs : R1CS F) (z0 : B) (wx : List F × List F) :
    Option (Loop F G1 B) := do
  let u ← (FWitness.new wx.1 r1cs.matrixA.length).commit srs wx.2
  let pair ← createTrivialPair wx.2.length wx.1.length srs
  pure ⟨0, Aug.new pair.2 z0, u, FWitness.new wx.1 r1cs.matrixA.length,
    ⟨pair.2, pair.1, pair.2, pair.1⟩, ZkIVCProof.trivial pair.2, pair.1, pair.2⟩

/-- The whole example program: all steps, then the last run and verification. -/
def exampleMain (env : Env F G1 B) (P : PairingGroups F G1 G2 GT) (srs : Srs G1 G2)
    (f : B → FWitness F → Option B) (r1cs : R1CS F) (z0 : B) (first : List F × List F)
    (rest : List (List F × List F)) : Option (Except String (Aug F G1 B)) :=
  match Loop.init srs r1cs z0 first with
  | none => none
  | some st =>
    match st.drive env P srs f r1cs rest with
    | none => none
    | some (.error e) => some (.error e)
    | some (.ok st') => st'.check env P srs f

/-- Invariant of the example's loop after `k` iterations. -/
structure LoopInv (env : Env F G1 B) (P : PairingGroups F G1 G2 GT) (s : F) (n : ℕ) (r1cs : R1CS F)
    (wLen : ℕ) (z0 : B) (st : Loop F G1 B) : Prop where
  /-- counter -/
  hi : st.aug.i = (st.step : B)
  /-- initial state kept -/
  hz0 : st.aug.z0 = z0
  /-- trivial instance has zero commitment of `E` -/
  htiE : st.aug.trivialInstance.comE = 0
  /-- folded witness is committed -/
  hW : commitVector (Srs.newFromSecret P s n) st.fw.w = some st.fi.comW
  /-- folded error term is committed -/
  hE : commitVector (Srs.newFromSecret P s n) st.fw.e = some st.fi.comE
  /-- length of the folded witness -/
  hwl : st.fw.w.length = wLen
  /-- length of the folded error term -/
  hel : r1cs.matrixA.length ≤ st.fw.e.length
  /-- nothing beyond the rows -/
  hez : ∀ i ≥ r1cs.matrixA.length, st.fw.e.getD i 0 = 0
  /-- first step -/
  hzero : st.step = 0 → st.aug.zi = z0 ∧ st.fi = st.aug.trivialInstance
  /-- later steps -/
  hsucc : st.step ≠ 0 → st.aug.hi = some (hashIo env st.aug.i st.aug.z0 st.aug.zi st.ivc.bigUi) ∧
    st.ivc.ui.x = [env.toScalar (hashIo env st.aug.i st.aug.z0 st.aug.zi st.ivc.bigUi)] ∧
    st.ivc.ui.comE = 0 ∧ st.ivc.ui.u = 1 ∧
    ∃ comT proof tr', st.zk = ⟨st.ivc.ui, st.ivc.bigUi, some comT, some proof⟩ ∧
      st.fi = foldInstance (challengeOf env (foldDigest env [] st.ivc.ui.u st.ivc.bigUi.u comT))
        st.ivc.ui st.ivc.bigUi comT ∧
      nifsVerify env P proof st.ivc.ui st.ivc.bigUi (nifsVerifier proof.r st.ivc.ui st.ivc.bigUi comT) comT
        (Srs.newFromSecret P s n) .default = some (.ok (), tr')

/-- In a state satisfying the invariant, running and verifying never fails; it can only panic in `F` or for
too short digests. -/
theorem check_ok {env : Env F G1 B} {P : PairingGroups F G1 G2 GT} {s : F} {n : ℕ} {r1cs : R1CS F}
    {wLen : ℕ} {z0 : B} {st : Loop F G1 B} (f : B → FWitness F → Option B)
    (hinv : LoopInv env P s n r1cs wLen z0 st) (hchar : st.step ≠ 0 → (st.step : B) ≠ 0) :
    (∀ e, st.check env P (Srs.newFromSecret P s n) f ≠ some (.error e)) ∧
    (∀ a, st.check env P (Srs.newFromSecret P s n) f = some (.ok a) →
      ∃ z, f st.aug.zi (if st.step = 0 then st.w else st.ivc.wi) = some z ∧
        a = { st.aug with hi1 := some (hashIo env (st.aug.i + 1) z0 z st.fi), zi1 := some z }) ∧
    ((∀ b, 8 ≤ (env.digest b).length) →
      f st.aug.zi (if st.step = 0 then st.w else st.ivc.wi) ≠ none →
      st.check env P (Srs.newFromSecret P s n) f ≠ none) := by
  by_cases h0 : st.step = 0
  · have hi0 : st.aug.i = 0 := by rw [hinv.hi, h0]; simp
    obtain ⟨hzi, hfi⟩ := hinv.hzero h0
    have hrun : st.run env f = (f st.aug.zi st.w).map fun z =>
        (.ok (hashIo env 1 st.aug.z0 z st.aug.trivialInstance),
        { st.aug with hi1 := some (hashIo env 1 st.aug.z0 z st.aug.trivialInstance), zi1 := some z }) := by
      unfold Loop.run
      rw [if_pos h0]
      exact run_zero env f st.aug hi0 ⟨st.u, none, st.w, none⟩
    simp only [h0, if_true]
    unfold Loop.check
    rw [hrun]
    cases hf : f st.aug.zi st.w with
    | none => simp
    | some z =>
      simp only [Option.map_some]
      unfold ivcVerify
      rw [if_pos hi0, if_pos (by simp [hinv.hz0, hzi])]
      refine ⟨by simp, ?_, by simp⟩
      intro a ha
      simp only [Option.some.injEq, Except.ok.injEq] at ha
      refine ⟨z, rfl, ?_⟩
      rw [← ha, hfi, hi0, hinv.hz0]; simp
  · have hi0 : st.aug.i ≠ 0 := by rw [hinv.hi]; exact hchar h0
    obtain ⟨hhi, hux, huE, huu, comT, proof, tr', hzk, hfi, hver⟩ := hinv.hsucc h0
    simp only [h0, if_false]
    have hgen := generateOne_eq env (feedFold env .default st.ivc.ui.u st.ivc.bigUi.u comT)
    have hverify : ∀ a : Aug F G1 B, a.i = st.aug.i → a.z0 = st.aug.z0 → a.zi = st.aug.zi →
        a.trivialInstance = st.aug.trivialInstance →
        ivcVerify env P (Srs.newFromSecret P s n) a st.zk .default = some (.ok (), tr') := by
      intro a e1 e2 e3 e4
      rw [ivcVerify_iff _ _ _ _ (by rw [e1]; exact hi0), hzk]
      exact ⟨comT, proof, rfl, rfl, by simp [hux, e1, e2, e3], by simp [huE, e4, hinv.htiE], huu, hver⟩
    have herr := C38_run_error_iff env f st.aug hi0 ⟨st.ivc.ui, some st.ivc.bigUi, st.ivc.wi, some comT⟩
      (by simp [hux])
    have hnoerr : ¬ ∃ e a', st.aug.run env f st.ivc.ui (some st.ivc.bigUi) st.ivc.wi (some comT) =
        some (.error e, a') := by
      intro hcon
      have := herr.1 hcon
      simp [hhi, hux, huE, huu, hinv.htiE] at this
    have hrun : st.run env f = st.aug.run env f st.ivc.ui (some st.ivc.bigUi) st.ivc.wi (some comT) := by
      unfold Loop.run
      rw [if_neg h0, hzk]
    unfold Loop.check
    rw [hrun]
    cases hr : st.aug.run env f st.ivc.ui (some st.ivc.bigUi) st.ivc.wi (some comT) with
    | none =>
      refine ⟨by simp, by simp, ?_⟩
      intro hdig hf
      exfalso
      obtain ⟨z, hz⟩ := Option.ne_none_iff_exists'.1 hf
      unfold Aug.run at hr
      rw [if_pos hi0] at hr
      simp only [hhi, hux, huE, huu, hinv.htiE, List.head?_cons, Option.bind_eq_bind, Option.bind_some,
        ne_eq, not_true, if_false, generateOne_feedFold env hdig, hz, pure, reduceCtorEq] at hr
    | some out =>
      obtain ⟨res, a⟩ := out
      cases res with
      | error e => exact absurd ⟨e, a, hr⟩ hnoerr
      | ok hash =>
        obtain ⟨z, hz, hhash, ha⟩ := run_ok env f st.aug a
          ⟨st.ivc.ui, some st.ivc.bigUi, st.ivc.wi, some comT⟩ hash hr
        simp only
        rw [hverify a (by rw [ha]) (by rw [ha]) (by rw [ha]) (by rw [ha])]
        refine ⟨by simp, ?_, by simp⟩
        intro a' ha'
        simp only [Option.some.injEq, Except.ok.injEq] at ha'
        refine ⟨z, hz, ?_⟩
        rw [← ha', ha, hhash, hinv.hz0, hfi]
        simp only [nextInstance, hi0, if_false]

theorem fresh_commit {srs : Srs G1 G2} {w x : List F} {rows : ℕ} {u : FInstance F G1}
    (h : (FWitness.new w rows).commit srs x = some u) :
    commitVector srs w = some u.comW ∧ u.comE = 0 ∧ u.u = 1 ∧
      commitVector srs (FWitness.new w rows).e = some u.comE := by
  simp only [FWitness.commit, FWitness.new, Option.bind_eq_bind, Option.bind_eq_some_iff, pure,
    Option.some.injEq] at h
  obtain ⟨cE, hE, cW, hW, rfl⟩ := h
  refine ⟨hW, ?_, rfl, hE⟩
  have h0 := ((commitVector_iff _ _ _).1 hE).1
  have := createTrivialPair_some (F := F) 0 rows srs h0
  simp only [createTrivialPair, FWitness.commit, FWitness.newTrivialWitness, hE, Option.bind_eq_bind,
    Option.bind_some, pure, Option.some.injEq, Prod.mk.injEq, FInstance.mk.injEq] at this
  exact this.2.1

/-- The first state satisfies the invariant. -/
theorem init_inv {env : Env F G1 B} {P : PairingGroups F G1 G2 GT} {s : F} {n : ℕ} {r1cs : R1CS F} {z0 : B}
    {wx : List F × List F} {st : Loop F G1 B} (hrows : r1cs.matrixA.length ≤ wx.1.length)
    (h : Loop.init (Srs.newFromSecret P s n) r1cs z0 wx = some st) :
    LoopInv env P s n r1cs wx.1.length z0 st ∧ st.step = 0 := by
  simp only [Loop.init, Option.bind_eq_bind, Option.bind_eq_some_iff, pure, Option.some.injEq] at h
  obtain ⟨u, hu, pair, hpair, rfl⟩ := h
  have h0 : 0 < (Srs.newFromSecret P s n).g1Points.length := by rw [srs_length]; omega
  rw [createTrivialPair_some _ _ _ h0, Option.some.injEq] at hpair
  have hz : ∀ m i, (List.replicate m (0 : F)).getD i 0 = 0 := by
    intro m i
    by_cases h : i < m
    · rw [getD_lt (by simpa using h)]; simp
    · rw [getD_eq_of_le (by simpa using h)]
  have hc : commitVector (Srs.newFromSecret P s n) (List.replicate wx.1.length (0 : F)) = some 0 := by
    rw [commitVector_iff]
    exact ⟨h0, fun i _ => hz _ i, by simp only [hz, zero_smul, Finset.sum_const_zero]⟩
  subst hpair
  refine ⟨⟨by simp [Aug.new], rfl, rfl, hc, hc, by simp, by simpa using hrows, fun i _ => hz _ i,
    fun _ => ⟨rfl, rfl⟩, fun h => absurd rfl h⟩, rfl⟩

/-- Preparing the next step preserves the invariant. -/
theorem advance_inv {env : Env F G1 B} {P : PairingGroups F G1 G2 GT} {s : F} {n : ℕ} {r1cs : R1CS F}
    {wLen : ℕ} {z0 : B} {st st' : Loop F G1 B} {a : Aug F G1 B} {z : B} {wx : List F × List F}
    (hinv : LoopInv env P s n r1cs wLen z0 st) (hchar : ((st.step + 1 : ℕ) : B) ≠ 0)
    (ha : a = { st.aug with hi1 := some (hashIo env (st.aug.i + 1) z0 z st.fi), zi1 := some z })
    (hw : wx.1.length = wLen)
    (h : st.advance env (Srs.newFromSecret P s n) r1cs a wx = some st') :
    LoopInv env P s n r1cs wLen z0 st' ∧ st'.step = st.step + 1 := by
  subst ha
  have hne : st.aug.i + 1 ≠ 0 := by rw [hinv.hi]; simpa using hchar
  simp only [Loop.advance, Aug.nextStep, Option.bind_eq_bind, Option.bind_some, pure,
    Option.bind_eq_some_iff, Option.some.injEq] at h
  obtain ⟨u0, hu0, out, hout, rfl⟩ := h
  unfold ivcProve at hout
  rw [if_pos hne] at hout
  simp only [Option.bind_eq_bind, Option.bind_eq_some_iff, pure, Option.some.injEq] at hout
  obtain ⟨⟨⟨fw, fi, comT, r⟩, tr1⟩, hp, ⟨proof, tr2⟩, hpr, rfl⟩ := hout
  simp only at hpr ⊢
  obtain ⟨hcW, hcE0, hu1, hcE⟩ := fresh_commit hu0
  have hp' := hp
  simp only [nifsProver, Option.bind_eq_bind, Option.bind_eq_some_iff, pure, Option.some.injEq,
    Prod.mk.injEq] at hp'
  obtain ⟨t, ht, cT, hT, ct, hct, ⟨rfl, rfl, rfl, rfl⟩, rfl⟩ := hp'
  obtain ⟨-, -, htl, -⟩ := (computeT_iff _ _ _ _ _ _).1 ht
  have hel := hinv.hel
  have hnl : (FWitness.new wx.1 r1cs.matrixA.length).e.length = r1cs.matrixA.length := by
    simp [FWitness.new]
  have hwl := hinv.hwl
  have hnw : (FWitness.new wx.1 r1cs.matrixA.length).w = wx.1 := rfl
  obtain ⟨hfW, hfE⟩ := C31_fold_commitments_gen (Srs.newFromSecret P s n) ct.1
    (FWitness.new wx.1 r1cs.matrixA.length) st.fw t
    ⟨u0.comE, u0.u, u0.comW, [env.toScalar (hashIo env (st.aug.i + 1) st.aug.z0 z st.fi)]⟩ st.fi cT
    (fun i hi => by
      rw [hnw] at hi ⊢
      exact ⟨getD_eq_of_le (by omega), getD_eq_of_le (by omega)⟩)
    (fun i hi => by
      have hi' : r1cs.matrixA.length ≤ i := by rw [hnl] at hi; omega
      exact ⟨getD_eq_of_le (by omega), getD_eq_of_le (by omega), hinv.hez i hi'⟩)
    hcW hinv.hW hcE hinv.hE hT
  obtain ⟨-, hacc⟩ := nifs_accepts env P s n r1cs _ _ _ _ _ _ cT ct.1 proof _ _ tr2 hp hpr hfW hfE
  refine ⟨⟨by simp [hinv.hi], hinv.hz0, hinv.htiE, hfW, hfE, ?_, ?_, ?_, fun h => absurd h (by simp),
    fun _ => ⟨by rw [hinv.hz0], rfl, hcE0, hu1, cT, proof, tr2, rfl, ?_, hacc⟩⟩, trivial⟩
  · simp only [foldWitness, List.length_map, List.length_zip, hnw]; omega
  · simp only [foldWitness, List.length_map, List.length_zip, hnl]; omega
  · intro i hi
    apply getD_eq_of_le
    simp only [foldWitness, List.length_map, List.length_zip, hnl]; omega
  · rw [generateOne_eq] at hct
    split at hct
    · cases hct
    · simp only [Option.some.injEq] at hct
      rw [← hct]
      rfl

/-- The loop keeps the invariant and never reports an error. -/
theorem drive_inv {env : Env F G1 B} {P : PairingGroups F G1 G2 GT} {s : F} {n : ℕ} {r1cs : R1CS F}
    {wLen : ℕ} {z0 : B} (f : B → FWitness F → Option B) (rest : List (List F × List F)) :
    ∀ {st : Loop F G1 B}, LoopInv env P s n r1cs wLen z0 st →
    (∀ k, 0 < k → k ≤ st.step + rest.length → (k : B) ≠ 0) → (∀ wx ∈ rest, wx.1.length = wLen) →
    (∀ e, st.drive env P (Srs.newFromSecret P s n) f r1cs rest ≠ some (.error e)) ∧
    (∀ st', st.drive env P (Srs.newFromSecret P s n) f r1cs rest = some (.ok st') →
      LoopInv env P s n r1cs wLen z0 st' ∧ st'.step = st.step + rest.length) := by
  induction rest with
  | nil =>
    intro st hinv _ _
    refine ⟨by simp [Loop.drive], fun st' h => ?_⟩
    simp only [Loop.drive, Option.some.injEq, Except.ok.injEq] at h
    subst h; exact ⟨hinv, by simp⟩
  | cons wx rest ih =>
    intro st hinv hchar hlen
    simp only [List.length_cons] at hchar
    obtain ⟨hc1, hc2, -⟩ := check_ok f hinv (fun h => hchar st.step (by omega) (by omega))
    unfold Loop.drive
    cases hck : st.check env P (Srs.newFromSecret P s n) f with
    | none => simp
    | some res =>
      cases res with
      | error e => exact absurd hck (hc1 e)
      | ok a =>
        simp only
        obtain ⟨z, -, ha⟩ := hc2 a hck
        cases hadv : st.advance env (Srs.newFromSecret P s n) r1cs a wx with
        | none => simp
        | some st1 =>
          obtain ⟨hinv1, hstep⟩ := advance_inv hinv (hchar _ (by omega) (by omega)) ha
            (hlen wx (by simp)) hadv
          have := ih hinv1 (fun k h1 h2 => hchar k h1 (by omega)) (fun y hy => hlen y (by simp [hy]))
          refine ⟨this.1, fun st' h => ?_⟩
          obtain ⟨h1, h2⟩ := this.2 st' h
          exact ⟨h1, by simp [h2, hstep]; omega⟩

/-- **C40** (no step is ever rejected): driving the IVC as the example program does, for any number of
steps, any `F`, any R1CS with no more rows than variables and any witnesses of equal length, every `run`
and every `verify` succeeds (the program can only panic, see `C40_panic_cause`).  Fewer steps than the
characteristic of the base field. -/
theorem C40_never_rejected (env : Env F G1 B) (P : PairingGroups F G1 G2 GT) (s : F) (n : ℕ) (r1cs : R1CS F)
    (z0 : B) (f : B → FWitness F → Option B) (first : List F × List F) (rest : List (List F × List F))
    (hrows : r1cs.matrixA.length ≤ first.1.length) (hlen : ∀ wx ∈ rest, wx.1.length = first.1.length)
    (hchar : ∀ k, 0 < k → k ≤ rest.length → (k : B) ≠ 0) (e : String) :
    exampleMain env P (Srs.newFromSecret P s n) f r1cs z0 first rest ≠ some (.error e) := by
  unfold exampleMain
  cases hi : Loop.init (Srs.newFromSecret P s n) r1cs z0 first with
  | none => simp
  | some st =>
    obtain ⟨hinv, hstep⟩ := init_inv (env := env) hrows hi
    obtain ⟨h1, h2⟩ := drive_inv f rest hinv (fun k hk1 hk2 => hchar k hk1 (by omega)) hlen
    simp only
    cases hd : st.drive env P (Srs.newFromSecret P s n) f r1cs rest with
    | none => simp
    | some res =>
      cases res with
      | error e' => exact absurd hd (h1 e')
      | ok st' =>
        obtain ⟨hinv', hstep'⟩ := h2 st' hd
        exact (check_ok f hinv' (fun h => hchar _ (by omega) (by omega))).1 e

/-- **C40** (why a step can panic): after any successful prefix of the loop, with digests of at least eight
bytes, square-shaped matrices and vectors that fit the SRS, the next iteration returns unless `F` panics or
the newly folded `E` or `W` is identically zero. -/
theorem C40_panic_cause (env : Env F G1 B) (P : PairingGroups F G1 G2 GT) (s : F) (n : ℕ) (r1cs : R1CS F)
    (z0 : B) (f : B → FWitness F → Option B) (first wx : List F × List F) (rest : List (List F × List F))
    (hdig : ∀ b, 8 ≤ (env.digest b).length)
    (hrows : r1cs.matrixA.length ≤ first.1.length) (hlen : ∀ y ∈ rest, y.1.length = first.1.length)
    (hwx : wx.1.length = first.1.length) (hchar : ∀ k, 0 < k → k ≤ rest.length + 1 → (k : B) ≠ 0)
    (hB : r1cs.matrixB.length = r1cs.matrixA.length) (hC : r1cs.matrixC.length = r1cs.matrixA.length)
    (hsize : first.1.length ≤ n + 3) (st0 st : Loop F G1 B)
    (h0 : Loop.init (Srs.newFromSecret P s n) r1cs z0 first = some st0)
    (hst : st0.drive env P (Srs.newFromSecret P s n) f r1cs rest = some (.ok st)) :
    (∃ st', st.drive env P (Srs.newFromSecret P s n) f r1cs [wx] = some (.ok st')) ∨
    f st.aug.zi (if st.step = 0 then st.w else st.ivc.wi) = none ∨
    ∃ z u fw fi comT r tr, f st.aug.zi (if st.step = 0 then st.w else st.ivc.wi) = some z ∧
      commitVector (Srs.newFromSecret P s n) wx.1 = some u.comW ∧ u.comE = 0 ∧ u.u = 1 ∧
      u.x = [env.toScalar (hashIo env ((st.step + 1 : ℕ) : B) z0 z st.fi)] ∧
      nifsProver env r1cs (FWitness.new wx.1 r1cs.matrixA.length) st.fw u st.fi (Srs.newFromSecret P s n)
        .default = some ((fw, fi, comT, r), tr) ∧
      ((∀ x ∈ fw.e, x = 0) ∨ (∀ x ∈ fw.w, x = 0)) := by
  obtain ⟨hinv0, hstep0⟩ := init_inv (env := env) hrows h0
  obtain ⟨hinv, hstep⟩ := (drive_inv f rest hinv0 (fun k h1 h2 => hchar k h1 (by omega)) hlen).2 st hst
  obtain ⟨hc1, hc2, hc3⟩ := check_ok f hinv (fun h => hchar st.step (by omega) (by omega))
  by_cases hf : f st.aug.zi (if st.step = 0 then st.w else st.ivc.wi) = none
  · right; left; exact hf
  cases hck : st.check env P (Srs.newFromSecret P s n) f with
  | none => exact absurd hck (hc3 hdig hf)
  | some res =>
    cases res with
    | error e => exact absurd hck (hc1 e)
    | ok a =>
      obtain ⟨z, hz, ha⟩ := hc2 a hck
      have hsl : (Srs.newFromSecret P s n).g1Points.length = n + 3 := srs_length P s n
      have hcom : ∀ v : List F, v.length ≤ n + 3 → ∃ c, commitVector (Srs.newFromSecret P s n) v = some c :=
        fun v hv => ⟨_, (commitVector_iff _ _ _).2 ⟨by omega, fun i hi => getD_eq_of_le (by omega), rfl⟩⟩
      obtain ⟨cE, hcE⟩ := hcom (FWitness.new wx.1 r1cs.matrixA.length).e (by simp [FWitness.new]; omega)
      obtain ⟨cW, hcW⟩ := hcom wx.1 (by omega)
      have hu0 : (FWitness.new wx.1 r1cs.matrixA.length).commit (Srs.newFromSecret P s n) wx.2 =
          some ⟨cE, 1, cW, wx.2⟩ := by
        unfold FWitness.commit
        rw [hcE, show (FWitness.new wx.1 r1cs.matrixA.length).w = wx.1 from rfl, hcW]; rfl
      obtain ⟨-, hcE0, -, -⟩ := fresh_commit hu0
      set u : FInstance F G1 :=
        ⟨cE, 1, cW, [env.toScalar (hashIo env (st.aug.i + 1) st.aug.z0 z st.fi)]⟩ with hu
      obtain ⟨t, ht⟩ : ∃ t, computeT r1cs u.u st.fi.u (zVec (FWitness.new wx.1 r1cs.matrixA.length) u)
          (zVec st.fw st.fi) = some t := by
        refine ⟨(List.range r1cs.matrixA.length).map (crossTerm r1cs u.u st.fi.u
          (zVec (FWitness.new wx.1 r1cs.matrixA.length) u) (zVec st.fw st.fi)),
          (computeT_iff _ _ _ _ _ _).2 ⟨by omega, hC, by simp, ?_⟩⟩
        intro i hi
        rw [getD_lt (by simpa using hi)]; simp
      obtain ⟨-, -, htl, -⟩ := (computeT_iff _ _ _ _ _ _).1 ht
      obtain ⟨cT, hT⟩ := hcom t (by omega)
      have hp := nifsProver_eq env hdig (Srs.newFromSecret P s n) r1cs
        (FWitness.new wx.1 r1cs.matrixA.length) st.fw u st.fi .default t cT ht hT
      simp only at hp
      set r := challengeOf env (foldDigest env (Transcript.default.data.getD []) u.u st.fi.u cT)
      have hnl : (FWitness.new wx.1 r1cs.matrixA.length).e.length = r1cs.matrixA.length := by
        simp [FWitness.new]
      have hel := hinv.hel
      have hwl := hinv.hwl
      have hnw : (FWitness.new wx.1 r1cs.matrixA.length).w = wx.1 := rfl
      obtain ⟨hfW, hfE⟩ := C31_fold_commitments_gen (Srs.newFromSecret P s n) r
        (FWitness.new wx.1 r1cs.matrixA.length) st.fw t u st.fi cT
        (fun i hi => by
          rw [hnw] at hi ⊢
          exact ⟨getD_eq_of_le (by omega), getD_eq_of_le (by omega)⟩)
        (fun i hi => by
          have hi' : r1cs.matrixA.length ≤ i := by rw [hnl] at hi; omega
          exact ⟨getD_eq_of_le (by omega), getD_eq_of_le (by omega), hinv.hez i hi'⟩)
        hcW hinv.hW hcE hinv.hE hT
      by_cases hnz : (∃ x ∈ (foldWitness r (FWitness.new wx.1 r1cs.matrixA.length) st.fw t).e, x ≠ 0) ∧
          (∃ x ∈ (foldWitness r (FWitness.new wx.1 r1cs.matrixA.length) st.fw t).w, x ≠ 0)
      · left
        obtain ⟨proof, tr2, hpr⟩ := (nifsProve_iff env P s n hdig r _ _
          ⟨some (foldDigest env (Transcript.default.data.getD []) u.u st.fi.u cT), true⟩ hfW hfE).2 hnz
        have hne : st.aug.i + 1 ≠ 0 := by
          rw [hinv.hi]; simpa using hchar (st.step + 1) (by omega) (by omega)
        have hadv : (st.advance env (Srs.newFromSecret P s n) r1cs a wx).isSome := by
          unfold Loop.advance ivcProve
          subst ha
          simp only [Aug.nextStep, Option.bind_eq_bind, Option.bind_some, pure, hu0, hne, ne_eq,
            not_false_eq_true, if_true]
          rw [← hu, hp]
          simp only [Option.bind_some]
          rw [hpr]
          rfl
        obtain ⟨st', hst'⟩ := Option.isSome_iff_exists.1 hadv
        exact ⟨st', by unfold Loop.drive; rw [hck]; simp only; rw [hst']; rfl⟩
      · right; right
        refine ⟨z, u, _, _, _, _, _, hz, hcW, hcE0, rfl, ?_, hp, ?_⟩
        · simp [hu, hinv.hi, hinv.hz0]
        · by_contra hcon
          push Not at hcon
          exact hnz hcon

/-- **C40** (what is published): in every state the loop of the example program reaches, the public proof shows
exactly the two instances of the private one; before the first step it has neither cross-term commitment nor folding
proof, afterwards both. -/
theorem C40_published_proof (env : Env F G1 B) (P : PairingGroups F G1 G2 GT) (s : F) (n : ℕ) (r1cs : R1CS F)
    (z0 : B) (f : B → FWitness F → Option B) (first : List F × List F) (rest : List (List F × List F))
    (hrows : r1cs.matrixA.length ≤ first.1.length) (hlen : ∀ wx ∈ rest, wx.1.length = first.1.length)
    (hchar : ∀ k, 0 < k → k ≤ rest.length → (k : B) ≠ 0) (st0 st : Loop F G1 B)
    (h0 : Loop.init (Srs.newFromSecret P s n) r1cs z0 first = some st0)
    (hst : st0.drive env P (Srs.newFromSecret P s n) f r1cs rest = some (.ok st)) :
    st.zk.ui = st.ivc.ui ∧ st.zk.bigUi = st.ivc.bigUi ∧
      (st.zk.comT = none ↔ rest = []) ∧ (st.zk.foldedUProof = none ↔ rest = []) := by
  obtain ⟨hinv0, hstep0⟩ := init_inv (env := env) hrows h0
  obtain ⟨hinv, hstep⟩ := (drive_inv f rest hinv0 (fun k h1 h2 => hchar k h1 (by omega)) hlen).2 st hst
  by_cases hr : rest = []
  · subst hr
    simp only [Loop.drive, Option.some.injEq, Except.ok.injEq] at hst
    subst hst
    simp only [Loop.init, Option.bind_eq_bind, Option.bind_eq_some_iff, pure, Option.some.injEq] at h0
    obtain ⟨u, hu, pair, hpair, rfl⟩ := h0
    simp [ZkIVCProof.trivial]
  · have : st.step ≠ 0 := by
      have := List.length_pos_iff.2 hr
      omega
    obtain ⟨-, -, -, -, comT, proof, tr', hzk, -⟩ := hinv.hsucc this
    simp [hzk, hr]

/-- **C40** (the trivial proof is only a base case): the proof object the program starts with is accepted before the
first step, in the initial state, and rejected (not a panic) at every later step. -/
theorem C40_trivial_proof (env : Env F G1 B) (P : PairingGroups F G1 G2 GT) (srs : Srs G1 G2) (a : Aug F G1 B)
    (ti : FInstance F G1) (tr : Transcript) :
    ∃ res, ivcVerify env P srs a (ZkIVCProof.trivial ti) tr = some (res, tr) ∧
      (res = .ok () ↔ a.i = 0 ∧ a.z0 = a.zi) := by
  unfold ivcVerify
  by_cases hi : a.i = 0
  · by_cases hz : a.z0 = a.zi <;> simp [hi, hz]
  · simp [hi, ZkIVCProof.trivial]

/-! ## C69: shapes -/

/-- Two rows `w · u = 0`, one variable. -/
def tallR1cs : R1CS F := ⟨[[1, 0, 0], [1, 0, 0]], [[0, 0, 1], [0, 0, 1]], [[0, 0, 0], [0, 0, 0]], 1, 1⟩

/-- **C69** (counterexample): with more rows than variables the trivial pair made by
`create_trivial_pair(x_len, w_len)` has too short an error vector, `fold_witness` drops entries of `T`, and
the honest proof of the first folding is rejected ("Folding wrong at E"). -/
theorem C69_tall_rejected (env : Env F G1 B) (P : PairingGroups F G1 G2 GT) (s : F) (n : ℕ) (hs : s ≠ 0)
    (hdig : ∀ b, 8 ≤ (env.digest b).length) (hrand : ∀ seed < 2 ^ 64, env.rand seed 0 ≠ 0) (x : F)
    (tr : Transcript) :
    ∃ ui tw ti fw fi comT r tr1 proof tr2 tr3,
      (FWitness.new [1] 2).commit (Srs.newFromSecret P s n) [x] = some ui ∧
      createTrivialPair 1 1 (Srs.newFromSecret P s n) = some (tw, ti) ∧
      nifsProver env tallR1cs (FWitness.new [1] 2) tw ui ti (Srs.newFromSecret P s n) tr =
        some ((fw, fi, comT, r), tr1) ∧
      nifsProve env r fw fi (Srs.newFromSecret P s n) tr1 = some (proof, tr2) ∧
      nifsVerify env P proof ui ti (nifsVerifier proof.r ui ti comT) comT (Srs.newFromSecret P s n) tr =
        some (.error "Verify: Folding wrong at E", tr3) := by
  have hsl : (Srs.newFromSecret P s n).g1Points.length = n + 3 := srs_length P s n
  have hcv : ∀ v : List F, v.length ≤ 3 →
      commitVector (Srs.newFromSecret P s n) v = some ((toPoly v).eval s • P.g1) := by
    intro v hv
    apply (C02_commit_vector P s n v).1
    by_cases hz : toPoly v = 0
    · rw [hz]; simp
    · rw [Polynomial.natDegree_lt_iff_degree_lt hz]
      exact (degree_toPoly_lt v).trans_le (by exact_mod_cast (by omega))
  have h0 : commitVector (Srs.newFromSecret P s n) ([0, 0] : List F) = some (0 : G1) := by
    rw [hcv _ (by simp)]; simp
  have h1 : commitVector (Srs.newFromSecret P s n) ([1] : List F) = some P.g1 := by
    rw [hcv _ (by simp)]; simp
  have hT : commitVector (Srs.newFromSecret P s n) ([1, 1] : List F) = some ((1 + s) • P.g1) := by
    rw [hcv _ (by simp)]; simp
  have hui : (FWitness.new [1] 2).commit (Srs.newFromSecret P s n) [x] = some ⟨0, 1, P.g1, [x]⟩ := by
    simp [FWitness.commit, FWitness.new, h0, h1]
  have htp := createTrivialPair_some (F := F) 1 1 (Srs.newFromSecret P s n) (by omega)
  simp only [List.replicate_one] at htp
  have ht : computeT tallR1cs (1 : F) 1 (zVec (FWitness.new [1] 2) (⟨0, 1, P.g1, [x]⟩ : FInstance F G1))
      (zVec ⟨[0], [0]⟩ (⟨0, 1, 0, [0]⟩ : FInstance F G1)) = some [1, 1] := by
    rw [computeT_iff]
    refine ⟨by simp [tallR1cs], by simp [tallR1cs], by simp [tallR1cs], ?_⟩
    intro i hi
    have hi' : i < 2 := by simpa [tallR1cs] using hi
    interval_cases i <;> simp [crossTerm, tallR1cs, dot, zVec, FWitness.new, Finset.sum_range_succ]
  have hp := nifsProver_eq env hdig (Srs.newFromSecret P s n) tallR1cs (FWitness.new [1] 2) ⟨[0], [0]⟩
    (⟨0, 1, P.g1, [x]⟩ : FInstance F G1) ⟨0, 1, 0, [0]⟩ tr [1, 1] ((1 + s) • P.g1) ht hT
  simp only at hp
  set d := foldDigest env (tr.data.getD []) (1 : F) 1 ((1 + s) • P.g1) with hd
  set r := challengeOf env d with hr
  have hr0 : r ≠ 0 := hrand _ (seed_lt _)
  have hfw : foldWitness r (FWitness.new [1] 2) ⟨[0], [0]⟩ [1, 1] = ⟨[r], [1]⟩ := by
    simp [foldWitness, FWitness.new]
  have hfi : foldInstance r (⟨0, 1, P.g1, [x]⟩ : FInstance F G1) ⟨0, 1, 0, [0]⟩ ((1 + s) • P.g1) =
      ⟨(r * (1 + s)) • P.g1, 1 + r, P.g1, [x]⟩ := by
    simp [foldInstance, mul_smul]
  rw [hfw, hfi] at hp
  have hcE : commitVector (Srs.newFromSecret P s n) [r] = some (r • P.g1) := by
    rw [hcv _ (by simp)]; simp
  set z := challengeOf env (openDigest env d ((r * (1 + s)) • P.g1) P.g1) with hz
  obtain ⟨oE, hoE, hvE⟩ := openVector_verifies P s n ⟨r, by simp, hr0⟩ hcE z
  obtain ⟨oW, hoW, hvW⟩ := openVector_verifies P s n (v := [1]) ⟨1, by simp, one_ne_zero⟩ h1 z
  have hpr : nifsProve env r ⟨[r], [1]⟩ ⟨(r * (1 + s)) • P.g1, 1 + r, P.g1, [x]⟩ (Srs.newFromSecret P s n)
      ⟨some d, true⟩ = some (⟨r, z, oE, oW⟩, ⟨some (openDigest env d ((r * (1 + s)) • P.g1) P.g1), true⟩) := by
    unfold nifsProve
    rw [generateOne_feed2 env hdig]
    simp only [Option.bind_eq_bind, Option.bind_some, Option.getD_some]
    rw [← hz, hoE, hoW]; rfl
  refine ⟨_, _, _, _, _, _, _, _, _, _, ⟨some (openDigest env d ((r * (1 + s)) • P.g1) P.g1), true⟩, hui, htp,
    hp, hpr, ?_⟩
  unfold nifsVerify verifyChallenge
  simp only [generateOne_feedFold env hdig, Option.bind_eq_bind, Option.bind_some]
  rw [← hd, ← hr, if_neg (by simp)]
  simp only [pure, Option.bind_some]
  unfold verifyOpening
  rw [generateOne_feed2 env hdig]
  simp only [Option.bind_eq_bind, Option.bind_some, Option.getD_some, nifsVerifier, hfi]
  rw [← hz, if_neg (by simp), hvW]
  have hbad : Kzg.verify P (Srs.newFromSecret P s n) ((r * (1 + s)) • P.g1) oE z = false := by
    rw [← Bool.not_eq_true, verify_iff]
    rw [verify_iff] at hvE
    rw [hvE]
    intro hcon
    have h2 : r • P.g1 = (r * (1 + s)) • P.g1 := sub_left_injective hcon
    have h3 := P.smul_g1_inj h2
    have h4 : r * s = 0 := by linear_combination -h3
    rcases mul_eq_zero.1 h4 with h | h
    · exact hr0 h
    · exact hs h
  rw [hbad]
  rfl

/-- **C69** (what holds): with at most as many rows as variables, folding a fresh pair with the trivial pair
is accepted whenever the prover returns. -/
theorem C69_partial (env : Env F G1 B) (P : PairingGroups F G1 G2 GT) (s : F) (n : ℕ) (r1cs : R1CS F)
    (w x : List F) (xLen : ℕ) (hrows : r1cs.matrixA.length ≤ w.length) (ui ti : FInstance F G1)
    (tw fw : FWitness F) (fi : FInstance F G1) (comT : G1) (r : F) (proof : NIFSProof F G1)
    (tr tr1 tr2 : Transcript)
    (hui : (FWitness.new w r1cs.matrixA.length).commit (Srs.newFromSecret P s n) x = some ui)
    (hti : createTrivialPair xLen w.length (Srs.newFromSecret P s n) = some (tw, ti))
    (hp : nifsProver env r1cs (FWitness.new w r1cs.matrixA.length) tw ui ti (Srs.newFromSecret P s n) tr =
      some ((fw, fi, comT, r), tr1))
    (hpr : nifsProve env r fw fi (Srs.newFromSecret P s n) tr1 = some (proof, tr2)) :
    nifsVerify env P proof ui ti (nifsVerifier proof.r ui ti comT) comT (Srs.newFromSecret P s n) tr =
      some (.ok (), tr2) := by
  obtain ⟨hcW, -, -, hcE⟩ := fresh_commit hui
  have h0 := ((commitVector_iff _ _ _).1 hcW).1
  rw [createTrivialPair_some _ _ _ h0, Option.some.injEq, Prod.mk.injEq] at hti
  obtain ⟨rfl, rfl⟩ := hti
  have hz : ∀ m i, (List.replicate m (0 : F)).getD i 0 = 0 := by
    intro m i
    by_cases h : i < m
    · rw [getD_lt (by simpa using h)]; simp
    · rw [getD_eq_of_le (by simpa using h)]
  have hc : commitVector (Srs.newFromSecret P s n) (List.replicate w.length (0 : F)) = some 0 := by
    rw [commitVector_iff]
    exact ⟨h0, fun i _ => hz _ i, by simp only [hz, zero_smul, Finset.sum_const_zero]⟩
  have hp' := hp
  simp only [nifsProver, Option.bind_eq_bind, Option.bind_eq_some_iff, pure, Option.some.injEq,
    Prod.mk.injEq] at hp'
  obtain ⟨t, ht, cT, hT, ct, hct, ⟨rfl, rfl, rfl, rfl⟩, rfl⟩ := hp'
  obtain ⟨-, -, htl, -⟩ := (computeT_iff _ _ _ _ _ _).1 ht
  obtain ⟨hfW, hfE⟩ := C31_fold_commitments_gen (Srs.newFromSecret P s n) ct.1
    (FWitness.new w r1cs.matrixA.length) ⟨List.replicate w.length 0, List.replicate w.length 0⟩ t ui
    ⟨0, 1, 0, List.replicate xLen 0⟩ cT
    (fun i hi => by
      simp only [FWitness.new, List.length_replicate] at hi ⊢
      exact ⟨getD_eq_of_le (by omega), hz _ _⟩)
    (fun i hi => by
      simp only [FWitness.new, List.length_replicate] at hi ⊢
      exact ⟨hz _ _, getD_eq_of_le (by omega), hz _ _⟩)
    hcW hc hcE hc hT
  exact (nifs_accepts env P s n r1cs _ _ _ _ _ _ cT ct.1 proof tr _ tr2 hp hpr hfW hfE).2

/-! ## C70: acceptance and satisfaction in IVC -/

/-- **C70** (counterexample): the IVC of the repository's example accepts a two-step run whose second
witness `(1,0,0,0)` violates the example R1CS (`x · x = x²` reads `1 = 0`), for every public output. -/
theorem C70_unsatisfied_step_accepted (env : Env F G1 B) (P : PairingGroups F G1 G2 GT) (s : F) (n : ℕ)
    (hn : 1 ≤ n) (hdig : ∀ b, 8 ≤ (env.digest b).length) (hrand : ∀ seed < 2 ^ 64, env.rand seed 0 ≠ 0) (z0 : B)
    (f : B → FWitness F → Option B) (hf : ∀ z w, w.w.length = 4 → f z w ≠ none) (input : ℕ) (x : F) :
    (∃ a, exampleMain env P (Srs.newFromSecret P s n) f testR1cs z0 (testW input, testX input)
      [([1, 0, 0, 0], [x])] = some (.ok a)) ∧
    ∀ (x' : List F) (u : FInstance F G1),
      (FWitness.new ([1, 0, 0, 0] : List F) 4).commit (Srs.newFromSecret P s n) x' = some u →
      isR1csSatisfied testR1cs u (FWitness.new [1, 0, 0, 0] 4) (Srs.newFromSecret P s n) ≠ some (.ok ()) := by
  have hA : (testR1cs : R1CS F).matrixA.length = 4 := rfl
  have hwl : (testW input : List F).length = 4 := rfl
  constructor
  · have hsl : (Srs.newFromSecret P s n).g1Points.length = n + 3 := srs_length P s n
    have hcom : ∀ v : List F, v.length ≤ n + 3 → ∃ c, commitVector (Srs.newFromSecret P s n) v = some c :=
      fun v hv => ⟨_, (commitVector_iff _ _ _).2 ⟨by omega, fun i hi => getD_eq_of_le (by omega), rfl⟩⟩
    obtain ⟨cE, hcE⟩ := hcom (FWitness.new (testW input) 4).e (by simp [FWitness.new]; omega)
    obtain ⟨cW, hcW⟩ := hcom (testW input) (by omega)
    have htp := createTrivialPair_some (F := F) (testX input : List F).length 4 (Srs.newFromSecret P s n)
      (by omega)
    obtain ⟨st0, hst0, hfw0, hw0⟩ : ∃ st0 : Loop F G1 B,
        Loop.init (Srs.newFromSecret P s n) testR1cs z0 (testW input, testX input) = some st0 ∧
        (st0.fw = ⟨List.replicate 4 0, List.replicate 4 0⟩ ∧
        st0.fi = ⟨0, 1, 0, List.replicate (testX input : List F).length 0⟩) ∧ st0.w.w.length = 4 := by
      have hs : (Loop.init (Srs.newFromSecret P s n) testR1cs z0 (testW input, testX input) :
          Option (Loop F G1 B)).isSome := by
        unfold Loop.init FWitness.commit
        simp only [hA, hwl]
        rw [hcE, show (FWitness.new (testW input : List F) 4).w = testW input from rfl, hcW, htp]
        rfl
      obtain ⟨st0, hst0⟩ := Option.isSome_iff_exists.1 hs
      refine ⟨st0, hst0, ?_⟩
      simp only [Loop.init, Option.bind_eq_bind, Option.bind_eq_some_iff, pure, Option.some.injEq] at hst0
      obtain ⟨u, -, pair, hpair, rfl⟩ := hst0
      rw [hwl, htp, Option.some.injEq] at hpair
      subst hpair
      exact ⟨⟨rfl, rfl⟩, rfl⟩
    have hchar : ∀ k : ℕ, 0 < k → k ≤ 1 → (k : B) ≠ 0 := by
      intro k h1 h2
      obtain rfl : k = 1 := by omega
      simp
    obtain ⟨hinv0, hstep0⟩ := init_inv (env := env) (by rw [hA, hwl]) hst0
    rcases C40_panic_cause env P s n testR1cs z0 f (testW input, testX input) ([1, 0, 0, 0], [x]) [] hdig
      (by rw [hA, hwl]) (by simp) (by simp [hwl]) (by simpa using hchar) rfl rfl (by simp [hwl]; omega) st0 st0
      hst0 rfl with ⟨st1, h1⟩ | h1 | h1
    · obtain ⟨hinv1, hstep1⟩ := (drive_inv f [([1, 0, 0, 0], [x])] hinv0
        (fun k h1 h2 => hchar k h1 (by simpa [hstep0] using h2)) (by simp [hwl])).2 st1 h1
      have hck := check_ok f hinv1 (fun h => hchar _ (by omega) (by simp [hstep1, hstep0]))
      have hw1 : st1.ivc.wi.w.length = 4 := by
        have h1' := h1
        simp only [Loop.drive] at h1'
        split at h1'
        · cases h1'
        · cases h1'
        · split at h1'
          · cases h1'
          · next _ hadv =>
            simp only [Option.some.injEq, Except.ok.injEq] at h1'
            subst h1'
            simp only [Loop.advance, Option.bind_eq_bind, Option.bind_eq_some_iff, pure, Option.some.injEq] at hadv
            obtain ⟨_, _, _, _, _, _, rfl⟩ := hadv
            rfl
      unfold exampleMain
      rw [hst0]
      simp only
      rw [h1]
      simp only
      cases hc : st1.check env P (Srs.newFromSecret P s n) f with
      | none => exact absurd hc (hck.2.2 hdig (hf _ _ (by rw [if_neg (by rw [hstep1, hstep0]; simp)]; exact hw1)))
      | some res =>
        cases res with
        | error e => exact absurd hc (hck.1 e)
        | ok a => exact ⟨a, rfl⟩
    · exact absurd h1 (hf _ _ (by rw [if_pos hstep0]; exact hw0))
    · exfalso
      obtain ⟨z, u, fw, fi, comT, r, tr, -, -, -, huu, hux, hp, hzero⟩ := h1
      simp only [nifsProver, Option.bind_eq_bind, Option.bind_eq_some_iff, pure, Option.some.injEq,
        Prod.mk.injEq] at hp
      obtain ⟨t, ht, cT, hT, ct, hct, ⟨rfl, rfl, rfl, rfl⟩, rfl⟩ := hp
      have hr : ct.1 ≠ 0 := by
        rw [generateOne_feedFold env hdig] at hct
        rw [← (Option.some.inj hct)]
        exact hrand _ (seed_lt _)
      obtain ⟨-, -, htl, htc⟩ := (computeT_iff _ _ _ _ _ _).1 ht
      rw [hA] at htl htc
      have ht2 : t.getD 2 0 = 1 := by
        rw [htc 2 (by norm_num)]
        simp only [crossTerm, testR1cs, toFMatrix, dot, zVec, FWitness.new, hfw0.1, hfw0.2, hux, huu, testX,
          toFVec]
        simp [Finset.sum_range_succ]
      rcases hzero with h | h
      · have hmem : (foldWitness ct.1 (FWitness.new [1, 0, 0, 0] (testR1cs : R1CS F).matrixA.length) st0.fw
            t).e.getD 2 0 = ct.1 := by
          rw [foldWitness, foldE_getD, ht2, hfw0.1, hA]
          · simp [FWitness.new]
          · intro i hi
            have hi' : 4 ≤ i := by
              rw [hfw0.1, hA] at hi
              simp only [FWitness.new, List.length_replicate] at hi
              omega
            rw [hfw0.1, hA]
            exact ⟨getD_eq_of_le (by simpa [FWitness.new] using hi'), getD_eq_of_le (by omega),
              getD_eq_of_le (by simpa using hi')⟩
        have hlen : 2 < (foldWitness ct.1 (FWitness.new [1, 0, 0, 0] (testR1cs : R1CS F).matrixA.length)
            st0.fw t).e.length := by
          rw [hfw0.1, hA]
          simp only [foldWitness, FWitness.new, List.length_map, List.length_zip, List.length_replicate]
          omega
        rw [getD_lt hlen] at hmem
        exact hr (hmem ▸ h _ (List.getElem_mem hlen))
      · have := h 1 (by rw [hfw0.1]; simp [foldWitness, FWitness.new])
        exact one_ne_zero this
  · intro x' u hu hcon
    have hs := ((C27_satisfied_iff _ _ _ _).1 hcon).2.2.1
    have := hs.row 0 (by simp [FWitness.new])
    rw [(fresh_commit hu).2.2.1] at this
    simp only [testR1cs, toFMatrix, FWitness.new, dot] at this
    have hx : ∀ (g : ℕ → F) (l : List F), (∑ j ∈ Finset.range (l.length + 5), g j) =
        (∑ j ∈ Finset.range l.length, g (j + 5)) + g 4 + g 3 + g 2 + g 1 + g 0 := by
      intro g l
      rw [Finset.sum_range_succ', Finset.sum_range_succ', Finset.sum_range_succ', Finset.sum_range_succ',
        Finset.sum_range_succ']
    have hlen : ([1, 0, 0, 0] ++ u.x ++ [(1 : F)]).length = u.x.length + 5 := by simp
    rw [hlen, hx, hx, hx] at this
    have hz : ∀ (j k : ℕ), ([((k : ℕ) : F), 0, 0, 0, 0, 0] : List F).getD (j + 5) 0 = 0 := by
      intro j k
      cases j <;> simp
    have hz' : ∀ (j : ℕ), ([0, 1, 0, 0, 0, 0] : List F).getD (j + 5) 0 = 0 := by
      intro j
      cases j <;> simp
    have hz1 : ∀ (j : ℕ), ([1, 0, 0, 0, 0, 0] : List F).getD (j + 5) 0 = 0 := by
      intro j
      cases j <;> simp
    simp only [List.map_cons, List.map_nil, Nat.cast_one, Nat.cast_zero, Nat.cast_ofNat, List.getD_cons_zero,
      hz', hz1, zero_mul, Finset.sum_const_zero] at this
    simp at this

/-- The hypotheses of `C40_never_rejected`, `C40_published_proof`, `C69_tall_rejected` and `C70_unsatisfied_step_accepted` hold for a
concrete environment, and `exampleMain` then returns `Ok`. -/
example : ∃ a, exampleMain toyEnv (trivialGroups ℚ) (Srs.newFromSecret (trivialGroups ℚ) 7 4)
    (fun z _ => some (z + 1)) testR1cs 0 (testW 3, testX 3) [([1, 0, 0, 0], [0])] = some (.ok a) :=
  (C70_unsatisfied_step_accepted toyEnv (trivialGroups ℚ) 7 4 (by norm_num)
    (fun b => by rw [toyEnv_digest]; norm_num) (fun seed _ => by simp only [toyEnv]; positivity) 0 _
    (by simp) 3 0).1

end Verif.Nova

import Verif.Nova.Circuit

/-!
# Property C42: the Nova transcript as a state machine over arbitrary histories
-/

set_option linter.unusedSectionVars false

namespace Verif.Nova

open Verif.Ark Verif.Kzg

variable {F G1 G2 GT B : Type} [Field F] [DecidableEq F] [AddCommGroup G1] [Module F G1] [DecidableEq G1]
  [AddCommGroup G2] [Module F G2] [AddCommGroup GT] [Module F GT] [DecidableEq GT]
  [Field B] [DecidableEq B]

/-! ## Specification vocabulary -/

/-- A message fed to a transcript. -/
inductive Msg (F G1 : Type) where
  /-- `feed(commitment)` -/
  | com (c : G1)
  /-- `feed_scalar_num(x)` -/
  | num (x : F)

/-- A call on a transcript. -/
inductive Op (F G1 : Type) where
  /-- feed a message -/
  | feed (m : Msg F G1)
  /-- `generate_challenges::<N>()` -/
  | gen (n : ℕ)

/-- Feeding a message of either kind. -/
def feedMsg (env : Env F G1 B) (t : Transcript) : Msg F G1 → Transcript
  | .com c => t.feed env c
  | .num x => t.feedScalarNum env x

/-- Bytes of a message. -/
def serMsg (env : Env F G1 B) : Msg F G1 → List UInt8
  | .com c => env.serG c
  | .num x => env.serF x

/-- Run a history of calls; `none` if some call panics. -/
def runOps (env : Env F G1 B) : Transcript → List (Op F G1) → Option Transcript
  | t, [] => some t
  | t, .feed m :: ops => runOps env (feedMsg env t m) ops
  | t, .gen n :: ops => (t.generateChallenges env n).bind fun ct => runOps env ct.2 ops

/-- The messages fed in a history. -/
def feeds : List (Op F G1) → List (Msg F G1)
  | [] => []
  | .feed m :: ops => m :: feeds ops
  | .gen _ :: ops => feeds ops

/-- The chain of digests over the messages: the next digest is that of the previous one followed by the
bytes of the next message. -/
def chain (env : Env F G1 B) : List UInt8 → List (Msg F G1) → List UInt8
  | d, [] => d
  | d, m :: ms => chain env (env.digest (d ++ serMsg env m)) ms

/-- The byte strings hashed in that chain. -/
def chainInputs (env : Env F G1 B) : List UInt8 → List (Msg F G1) → List (List UInt8)
  | _, [] => []
  | d, m :: ms => (d ++ serMsg env m) :: chainInputs env (env.digest (d ++ serMsg env m)) ms

/-- Feed a list of messages. -/
def feedAll (env : Env F G1 B) (t : Transcript) (ms : List (Msg F G1)) : Transcript :=
  ms.foldl (feedMsg env) t

/-- The byte strings given to the hash function while feeding `ms`. -/
def hashInputs (env : Env F G1 B) : Transcript → List (Msg F G1) → List (List UInt8)
  | _, [] => []
  | t, m :: ms => (t.data.getD [] ++ serMsg env m) :: hashInputs env (feedMsg env t m) ms

/-! ## Lemmas -/

theorem feedMsg_eq (env : Env F G1 B) (t : Transcript) (m : Msg F G1) :
    feedMsg env t m = ⟨some (env.digest (t.data.getD [] ++ serMsg env m)), false⟩ := by
  cases m <;> rfl

theorem feedAll_chain (env : Env F G1 B) (t : Transcript) (ms : List (Msg F G1)) :
    (feedAll env t ms).data.getD [] = chain env (t.data.getD []) ms := by
  induction ms generalizing t with
  | nil => rfl
  | cons m ms ih =>
    have : feedAll env t (m :: ms) = feedAll env (feedMsg env t m) ms := rfl
    rw [this, ih, feedMsg_eq]; rfl

theorem hashInputs_chain (env : Env F G1 B) (t : Transcript) (ms : List (Msg F G1)) :
    hashInputs env t ms = chainInputs env (t.data.getD []) ms := by
  induction ms generalizing t with
  | nil => rfl
  | cons m ms ih => simp only [hashInputs, chainInputs, ih, feedMsg_eq]; rfl

theorem runOps_append (env : Env F G1 B) (t : Transcript) (a b : List (Op F G1)) :
    runOps env t (a ++ b) = (runOps env t a).bind fun t' => runOps env t' b := by
  induction a generalizing t with
  | nil => rfl
  | cons o a ih =>
    cases o with
    | feed m => simp [runOps, ih]
    | gen n =>
      simp only [List.cons_append, runOps]
      cases t.generateChallenges env n with
      | none => rfl
      | some ct => simp [ih]

theorem generateChallenges_state {env : Env F G1 B} {t : Transcript} {n : ℕ} {ct : List F × Transcript}
    (h : t.generateChallenges env n = some ct) :
    t.generated = false ∧ 8 ≤ (t.data.getD []).length ∧ ct.2 = { t with generated := true } ∧
      ct.1 = (List.range n).map (env.rand (fromLeBytes ((t.data.getD []).take 8))) := by
  unfold Transcript.generateChallenges Transcript.rngSeed at h
  by_cases hg : t.generated = true
  · simp [hg] at h
  · rw [if_neg hg] at h
    split at h
    · simp at h
    · simp only [Option.bind_eq_bind, Option.bind_some, pure, Option.some.injEq] at h
      subst h
      exact ⟨by simpa using hg, by omega, rfl, rfl⟩

theorem generateChallenges_isSome_iff (env : Env F G1 B) (t : Transcript) (n : ℕ) :
    (t.generateChallenges env n).isSome ↔ t.generated = false ∧ 8 ≤ (t.data.getD []).length := by
  constructor
  · intro h
    obtain ⟨ct, hct⟩ := Option.isSome_iff_exists.1 h
    exact ⟨(generateChallenges_state hct).1, (generateChallenges_state hct).2.1⟩
  · rintro ⟨h1, h2⟩
    unfold Transcript.generateChallenges Transcript.rngSeed
    rw [if_neg (by simp [h1])]
    rw [if_neg (by omega)]
    rfl

/-- The digest after a history depends only on the fed messages. -/
theorem runOps_data (env : Env F G1 B) (t t' : Transcript) (ops : List (Op F G1))
    (h : runOps env t ops = some t') : t'.data = (feedAll env t (feeds ops)).data := by
  have key : ∀ (ms : List (Msg F G1)) (a b : Transcript), a.data = b.data →
      (feedAll env a ms).data = (feedAll env b ms).data := by
    intro ms
    induction ms with
    | nil => intro a b h1; exact h1
    | cons m ms ih =>
      intro a b h1
      simp only [feedAll, List.foldl_cons]
      exact ih _ _ (by rw [feedMsg_eq, feedMsg_eq, h1])
  induction ops generalizing t with
  | nil => simp only [runOps, Option.some.injEq] at h; subst h; rfl
  | cons o ops ih =>
    cases o with
    | feed m => exact ih _ h
    | gen n =>
      simp only [runOps, Option.bind_eq_some_iff] at h
      obtain ⟨ct, hct, h⟩ := h
      have h1 := ih _ h
      obtain ⟨-, -, hst, -⟩ := generateChallenges_state hct
      rw [hst] at h1
      exact h1.trans (key (feeds ops) { t with generated := true } t rfl)

/-! ## C42 -/

/-- **C42** (guard): after any history on a default transcript, generation succeeds iff the last call was
a feed; it then returns the requested number of challenges.  (Digests of at least eight bytes.) -/
theorem C42_guard (env : Env F G1 B) (hdig : ∀ b, 8 ≤ (env.digest b).length) (ops : List (Op F G1))
    (t : Transcript) (h : runOps env .default ops = some t) (n : ℕ) :
    ((t.generateChallenges env n).isSome ↔ ∃ m, ops.getLast? = some (.feed m)) ∧
    (∀ ct, t.generateChallenges env n = some ct → ct.1.length = n) := by
  refine ⟨?_, ?_⟩
  · rcases List.eq_nil_or_concat ops with rfl | ⟨init, o, rfl⟩
    · simp only [runOps, Option.some.injEq] at h
      subst h
      rw [generateChallenges_isSome_iff]
      simp [Transcript.default]
    · rw [List.concat_eq_append] at h ⊢
      rw [runOps_append, Option.bind_eq_some_iff] at h
      obtain ⟨t1, h1, h2⟩ := h
      rw [generateChallenges_isSome_iff]
      cases o with
      | feed m' =>
        simp only [runOps, Option.some.injEq] at h2
        subst h2
        simpa [feedMsg_eq] using hdig _
      | gen k =>
        simp only [runOps, Option.bind_eq_some_iff, Option.some.injEq] at h2
        obtain ⟨ct, hct, h2⟩ := h2
        obtain ⟨-, -, hst, -⟩ := generateChallenges_state hct
        rw [← h2, hst]
        simp
  · intro ct hct
    rw [(generateChallenges_state hct).2.2.2]; simp

/-- **C42** (constructors): `from_commitment` and `from_scalar_number` are default transcripts fed with
the listed messages in order. -/
theorem C42_constructors (env : Env F G1 B) (cs : List G1) (xs : List F) :
    runOps env .default (cs.map fun c => .feed (.com c)) = some (Transcript.fromCommitment env cs) ∧
    runOps env .default (xs.map fun x => .feed (.num x)) = some (Transcript.fromScalarNumber env xs) := by
  unfold Transcript.fromCommitment Transcript.fromScalarNumber
  constructor
  · generalize Transcript.default = t
    induction cs generalizing t with
    | nil => rfl
    | cons c cs ih => exact ih _
  · generalize Transcript.default = t
    induction xs generalizing t with
    | nil => rfl
    | cons x xs ih => exact ih _

/-- **C42** (replay): two histories that feed the same messages, whatever generations happen in between,
produce the same challenges. -/
theorem C42_replay (env : Env F G1 B) (ops ops' : List (Op F G1)) (t t' : Transcript)
    (h : runOps env .default ops = some t) (h' : runOps env .default ops' = some t')
    (hsame : feeds ops = feeds ops') (n : ℕ) (ct ct' : List F × Transcript)
    (hc : t.generateChallenges env n = some ct) (hc' : t'.generateChallenges env n = some ct') :
    ct.1 = ct'.1 := by
  have h1 := runOps_data env _ _ ops h
  have h2 := runOps_data env _ _ ops' h'
  rw [(generateChallenges_state hc).2.2.2, (generateChallenges_state hc').2.2.2, h1, h2, hsame]

/-- **C42** (value): the challenges drawn after any history are the first elements of the generator seeded
with the first eight bytes of the chain of digests over the messages fed so far. -/
theorem C42_challenge_value (env : Env F G1 B) (ops : List (Op F G1)) (t : Transcript)
    (h : runOps env .default ops = some t) (n : ℕ) (ct : List F × Transcript)
    (hc : t.generateChallenges env n = some ct) :
    ct.1 = (List.range n).map fun k => env.rand (fromLeBytes ((chain env [] (feeds ops)).take 8)) k := by
  rw [(generateChallenges_state hc).2.2.2, runOps_data env _ _ ops h, feedAll_chain]
  rfl

theorem hashInputs_append (env : Env F G1 B) (t : Transcript) (xs : List (Msg F G1)) (m : Msg F G1) :
    hashInputs env t (xs ++ [m]) = hashInputs env t xs ++
      [(feedAll env t xs).data.getD [] ++ serMsg env m] := by
  induction xs generalizing t with
  | nil => rfl
  | cons x xs ih => simp [hashInputs, ih]; rfl

theorem feedAll_append (env : Env F G1 B) (t : Transcript) (xs : List (Msg F G1)) (m : Msg F G1) :
    feedAll env t (xs ++ [m]) = feedMsg env (feedAll env t xs) m := by simp [feedAll]

theorem feedAll_data (env : Env F G1 B) (L : ℕ) (hL : ∀ b, (env.digest b).length = L)
    (xs : List (Msg F G1)) (hne : xs ≠ []) :
    ∃ d, (feedAll env .default xs).data = some d ∧ d.length = L := by
  rcases List.eq_nil_or_concat xs with rfl | ⟨ys, m, rfl⟩
  · exact absurd rfl hne
  · rw [List.concat_eq_append, feedAll_append, feedMsg_eq]; exact ⟨_, rfl, hL _⟩

theorem feedAll_binding (env : Env F G1 B) (L LF LG : ℕ) (hL0 : 0 < L) (hL : ∀ b, (env.digest b).length = L)
    (hLF : ∀ x, (env.serF x).length = LF) (hLG : ∀ x, (env.serG x).length = LG) (h1 : LF ≠ LG)
    (h2 : LF ≠ L + LG) (h3 : LG ≠ L + LF) (hF : Function.Injective env.serF)
    (hG : Function.Injective env.serG) (ms ms' : List (Msg F G1)) (hne : ms ≠ []) (hne' : ms' ≠ [])
    (h : (feedAll env .default ms).data = (feedAll env .default ms').data) :
    ms = ms' ∨ ∃ a ∈ hashInputs env .default ms, ∃ b ∈ hashInputs env .default ms',
      a ≠ b ∧ env.digest a = env.digest b := by
  have hser : ∀ m : Msg F G1, (serMsg env m).length = LF ∨ (serMsg env m).length = LG := by
    intro m; cases m
    · right; exact hLG _
    · left; exact hLF _
  have hinj : ∀ m m' : Msg F G1, serMsg env m = serMsg env m' → m = m' := by
    intro m m' hm
    have hl := congrArg List.length hm
    cases m <;> cases m' <;> simp only [serMsg, hLF, hLG] at hm hl
    · rw [hG hm]
    · exact absurd hl.symm h1
    · exact absurd hl h1
    · rw [hF hm]
  induction ms using List.reverseRecOn generalizing ms' with
  | nil => exact absurd rfl hne
  | append_singleton xs m ih =>
    rcases List.eq_nil_or_concat ms' with rfl | ⟨ys, m', rfl⟩
    · exact absurd rfl hne'
    rw [List.concat_eq_append] at *
    rw [feedAll_append, feedAll_append, feedMsg_eq, feedMsg_eq] at h
    simp only [Option.some.injEq] at h
    rw [hashInputs_append, hashInputs_append]
    by_cases heq : (feedAll env .default xs).data.getD [] ++ serMsg env m =
        (feedAll env .default ys).data.getD [] ++ serMsg env m'
    · by_cases hx : xs = []
      · by_cases hy : ys = []
        · subst hx hy
          left
          rw [hinj m m' (List.append_cancel_left heq)]
        · exfalso
          subst hx
          obtain ⟨d, hd, hdl⟩ := feedAll_data env L hL ys hy
          rw [hd] at heq
          have hl := congrArg List.length heq
          simp only [feedAll, List.foldl_nil, Transcript.default, Option.getD_none, Option.getD_some,
            List.length_append, List.length_nil, hdl] at hl
          rcases hser m with e | e <;> rcases hser m' with e' | e' <;> rw [e, e'] at hl <;> omega
      · by_cases hy : ys = []
        · exfalso
          subst hy
          obtain ⟨d, hd, hdl⟩ := feedAll_data env L hL xs hx
          rw [hd] at heq
          have hl := congrArg List.length heq
          simp only [feedAll, List.foldl_nil, Transcript.default, Option.getD_none, Option.getD_some,
            List.length_append, List.length_nil, hdl] at hl
          rcases hser m with e | e <;> rcases hser m' with e' | e' <;> rw [e, e'] at hl <;> omega
        · obtain ⟨d, hd, hdl⟩ := feedAll_data env L hL xs hx
          obtain ⟨d', hd', hdl'⟩ := feedAll_data env L hL ys hy
          rw [hd, hd'] at heq
          obtain ⟨e1, e2⟩ := List.append_inj heq (by simp [hdl, hdl'])
          simp only [Option.getD_some] at e1
          rcases ih ys hx hy (by rw [hd, hd', e1]) with h4 | ⟨a, ha, b, hb, hab, hdd⟩
          · left; rw [h4, hinj m m' e2]
          · right
            exact ⟨a, List.mem_append_left _ ha, b, List.mem_append_left _ hb, hab, hdd⟩
    · right
      exact ⟨_, List.mem_append_right _ (by simp), _, List.mem_append_right _ (by simp), heq, h⟩

theorem feedAll_isSome (env : Env F G1 B) (ms : List (Msg F G1)) (hne : ms ≠ []) :
    (feedAll env .default ms).data = some (chain env [] ms) := by
  have h := feedAll_chain env .default ms
  rcases List.eq_nil_or_concat ms with rfl | ⟨ys, m, rfl⟩
  · exact absurd rfl hne
  · rw [List.concat_eq_append, feedAll_append, feedMsg_eq] at h ⊢
    rw [← show _ = chain env [] _ from h]; rfl

/-- **C42** (binding): if two histories with at least one feed end in the same stored digest then
they fed the same messages, or two different byte strings hashed along the way collide.  Serialisations are
injective with fixed widths `LF`, `LG`, digests have fixed length `L`, and the widths cannot be confused
(`LF ≠ LG`, `LF ≠ L + LG`, `LG ≠ L + LF`; BLS12-381 with SHA-256: 32, 96, 32).  The digest chain is what
the challenges are drawn from by `C42_challenge_value`. -/
theorem C42_binding (env : Env F G1 B) (L LF LG : ℕ) (hL0 : 0 < L) (hL : ∀ b, (env.digest b).length = L)
    (hLF : ∀ x, (env.serF x).length = LF) (hLG : ∀ x, (env.serG x).length = LG) (h1 : LF ≠ LG)
    (h2 : LF ≠ L + LG) (h3 : LG ≠ L + LF) (hF : Function.Injective env.serF)
    (hG : Function.Injective env.serG) (ops ops' : List (Op F G1)) (t t' : Transcript)
    (hr : runOps env .default ops = some t) (hr' : runOps env .default ops' = some t')
    (hne : feeds ops ≠ []) (hne' : feeds ops' ≠ []) (h : t.data = t'.data) :
    feeds ops = feeds ops' ∨ ∃ a ∈ chainInputs env [] (feeds ops), ∃ b ∈ chainInputs env [] (feeds ops'),
      a ≠ b ∧ env.digest a = env.digest b := by
  rw [runOps_data env _ _ ops hr, runOps_data env _ _ ops' hr'] at h
  have := feedAll_binding env L LF LG hL0 hL hLF hLG h1 h2 h3 hF hG _ _ hne hne' h
  rwa [hashInputs_chain, hashInputs_chain] at this

/-! ## Non-vacuity -/

/-- An environment meeting the hypotheses of `C42_binding` and `C39_binding`: fixed-width little-endian
bytes of residues modulo a prime below 256. -/
def byteEnv : Env (ZMod 7) (ZMod 7) (ZMod 7) where
  digest := fun b => (b ++ List.replicate 32 0).take 32
  serF := fun x => UInt8.ofNat x.val :: List.replicate 31 0
  serG := fun x => UInt8.ofNat x.val :: List.replicate 95 0
  serB := fun x => UInt8.ofNat x.val :: List.replicate 47 0
  toBase := fun b => (b.length : ZMod 7)
  toScalar := fun x => x
  rand := fun seed k => ((seed + k : ℕ) : ZMod 7)

example : (∀ b, (byteEnv.digest b).length = 32) ∧ (∀ x, (byteEnv.serF x).length = 32) ∧
    (∀ x, (byteEnv.serG x).length = 96) ∧ (∀ x, (byteEnv.serB x).length = 48) ∧
    Function.Injective byteEnv.serF ∧ Function.Injective byteEnv.serG ∧
    Function.Injective byteEnv.serB := by
  refine ⟨by simp [byteEnv], by simp [byteEnv], by simp [byteEnv], by simp [byteEnv], ?_, ?_, ?_⟩ <;>
  · intro a b h
    simp only [byteEnv, List.cons.injEq, and_true] at h
    revert a b; decide

example : (runOps byteEnv .default
    [.feed (.num 3), .gen 1, .feed (.com 2), .feed (.num 1), .gen 2]).isSome := by
  have hl : ∀ d, (byteEnv.digest d).length < 8 ↔ False := fun d => by simp [byteEnv]
  simp [runOps, Transcript.generateChallenges, Transcript.rngSeed, feedMsg, Transcript.feed,
    Transcript.feedScalarNum, hl]

end Verif.Nova

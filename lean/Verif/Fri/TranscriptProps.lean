import Verif.Fri.MerkleProps

/-!
# Properties C24–C25: the FRI transcript as a state machine over arbitrary histories
-/

set_option linter.unusedSectionVars false

namespace Verif.Fri

open Verif.Ark

variable {F : Type} [FftField F] [DecidableEq F]

/-! ## Specification vocabulary -/

/-- A call on a transcript: digest a message, or generate `n` challenges. -/
inductive Op (F : Type) where
  /-- `digest(m)` -/
  | feed (m : F)
  /-- `generate_challenges(n)` -/
  | gen (n : ℕ)

/-- Run a history of calls; `none` if some call panics. -/
def runOps (env : Env F) : Transcript → List (Op F) → Option Transcript
  | t, [] => some t
  | t, .feed m :: ops => runOps env (t.feed env m) ops
  | t, .gen n :: ops => (t.generateChallenges env n).bind fun ct => runOps env ct.2 ops

/-- The messages digested in a history. -/
def feeds : List (Op F) → List F
  | [] => []
  | .feed m :: ops => m :: feeds ops
  | .gen _ :: ops => feeds ops

/-- Digest a list of messages. -/
def feedAll (env : Env F) (t : Transcript) (ms : List F) : Transcript := ms.foldl (Transcript.feed env) t

/-- The empty transcript before its first digest. -/
def emptyTranscript : Transcript := ⟨none, 0, true⟩

/-- The byte strings given to the hash function while digesting `ms`. -/
def hashInputs (env : Env F) : Transcript → List F → List (List UInt8)
  | _, [] => []
  | t, m :: ms => (t.data.getD [] ++ leBytes8 t.index ++ env.toStr m) :: hashInputs env (t.feed env m) ms

/-- The digest after the messages `ms` numbered from `i` on, starting from digest `d`: each step hashes the
previous digest, the eight-byte little-endian number of the message, and the printed message. -/
def chainFrom (env : Env F) : ℕ → List UInt8 → List F → List UInt8
  | _, d, [] => d
  | i, d, m :: ms => chainFrom env (i + 1) (env.digest (d ++ leBytes8 i ++ env.toStr m)) ms

/-- The byte strings hashed in that chain. -/
def chainInputs (env : Env F) : ℕ → List UInt8 → List F → List (List UInt8)
  | _, _, [] => []
  | i, d, m :: ms => (d ++ leBytes8 i ++ env.toStr m) ::
      chainInputs env (i + 1) (env.digest (d ++ leBytes8 i ++ env.toStr m)) ms

/-- The digest after the messages `ms`. -/
def digestChain (env : Env F) (ms : List F) : List UInt8 := chainFrom env 0 [] ms

/-- The `k`-th challenge drawn after the messages `ms`: the generator is seeded with the first eight bytes
of the digest. -/
def challengeAfter (env : Env F) (ms : List F) (k : ℕ) : F :=
  env.rand (fromLeBytes ((digestChain env ms).take 8)) k

/-! ## Lemmas -/

theorem chainFrom_append (env : Env F) (i : ℕ) (d : List UInt8) (ms : List F) (m : F) :
    chainFrom env i d (ms ++ [m]) =
      env.digest (chainFrom env i d ms ++ leBytes8 (i + ms.length) ++ env.toStr m) := by
  induction ms generalizing i d with
  | nil => rfl
  | cons a ms ih =>
    rw [List.cons_append, chainFrom, ih, chainFrom, List.length_cons, show i + 1 + ms.length = i + (ms.length + 1) by omega]

theorem digestChain_append (env : Env F) (ms : List F) (m : F) :
    digestChain env (ms ++ [m]) = env.digest (digestChain env ms ++ leBytes8 ms.length ++ env.toStr m) := by
  unfold digestChain; rw [chainFrom_append, Nat.zero_add]

/-- The transcript `t` has digested exactly `ms`. -/
def At (env : Env F) (t : Transcript) (ms : List F) : Prop :=
  t.data.getD [] = digestChain env ms ∧ t.index = ms.length

theorem At.feed {env : Env F} {t : Transcript} {ms : List F} (h : At env t ms) (m : F) :
    At env (t.feed env m) (ms ++ [m]) := by
  refine ⟨?_, ?_⟩
  · simp only [Transcript.feed, Option.getD_some]; rw [digestChain_append, h.1, h.2]
  · simp [Transcript.feed, h.2]

theorem At.feedAll {env : Env F} {t : Transcript} {ms : List F} (h : At env t ms) (l : List F) :
    At env (feedAll env t l) (ms ++ l) := by
  induction l generalizing t ms with
  | nil => simpa [Fri.feedAll] using h
  | cons a l ih =>
    have := ih (h.feed a)
    simpa [Fri.feedAll] using this

theorem at_new (env : Env F) (m : F) : At env (Transcript.new env m) [m] := by
  have h : At env ⟨none, 0, true⟩ [] := ⟨rfl, rfl⟩
  exact h.feed m

theorem runOps_append (env : Env F) (t : Transcript) (a b : List (Op F)) :
    runOps env t (a ++ b) = (runOps env t a).bind fun t' => runOps env t' b := by
  induction a generalizing t with
  | nil => rfl
  | cons o a ih =>
    cases o with
    | feed m => simp [runOps, ih]
    | gen n =>
      simp only [List.cons_append, runOps]
      cases t.generateChallenges env n with
      | none => rfl
      | some ct => simp [ih]

theorem generateChallenges_state {env : Env F} {t : Transcript} {n : ℕ} {ct : List F × Transcript}
    (h : t.generateChallenges env n = some ct) :
    t.generated = false ∧ 8 ≤ (t.data.getD []).length ∧ ct.2 = { t with generated := true } ∧
      ct.1 = (List.range n).map (env.rand (fromLeBytes ((t.data.getD []).take 8))) := by
  unfold Transcript.generateChallenges Transcript.rngSeed at h
  by_cases hg : t.generated = true
  · simp [hg] at h
  · rw [if_neg hg] at h
    simp only at h
    split at h
    · simp at h
    · simp only [Option.bind_eq_bind, Option.bind_some, pure, Option.some.injEq] at h
      subst h
      exact ⟨by simpa using hg, by omega, rfl, rfl⟩

theorem generateChallenges_isSome_iff (env : Env F) (t : Transcript) (n : ℕ) :
    (t.generateChallenges env n).isSome ↔ t.generated = false ∧ 8 ≤ (t.data.getD []).length := by
  constructor
  · intro h
    obtain ⟨ct, hct⟩ := Option.isSome_iff_exists.1 h
    exact ⟨(generateChallenges_state hct).1, (generateChallenges_state hct).2.1⟩
  · rintro ⟨h1, h2⟩
    unfold Transcript.generateChallenges Transcript.rngSeed
    rw [if_neg (by simp [h1])]
    simp only
    rw [if_neg (by omega)]
    rfl

/-- Digest and counter after a history depend only on the digested messages. -/
theorem runOps_data (env : Env F) (t t' : Transcript) (ops : List (Op F)) (h : runOps env t ops = some t') :
    t'.data = (feedAll env t (feeds ops)).data ∧ t'.index = (feedAll env t (feeds ops)).index := by
  have key : ∀ (ms : List F) (a b : Transcript), a.data = b.data → a.index = b.index →
      (feedAll env a ms).data = (feedAll env b ms).data ∧
        (feedAll env a ms).index = (feedAll env b ms).index := by
    intro ms
    induction ms with
    | nil => intro a b h1 h2; exact ⟨h1, h2⟩
    | cons m ms ih =>
      intro a b h1 h2
      simp only [feedAll, List.foldl_cons]
      exact ih _ _ (by simp [Transcript.feed, h1, h2]) (by simp [Transcript.feed, h2])
  induction ops generalizing t with
  | nil => simp only [runOps, Option.some.injEq] at h; subst h; exact ⟨rfl, rfl⟩
  | cons o ops ih =>
    cases o with
    | feed m => exact ih _ h
    | gen n =>
      simp only [runOps, Option.bind_eq_some_iff] at h
      obtain ⟨ct, hct, h⟩ := h
      have h1 := ih _ h
      obtain ⟨-, -, hst, -⟩ := generateChallenges_state hct
      rw [hst] at h1
      have h2 := key (feeds ops) { t with generated := true } t rfl rfl
      exact ⟨h1.1.trans h2.1, h1.2.trans h2.2⟩

/-! ## C24 -/

/-- **C24**: after any history of successful calls on a transcript made with `Transcript::new`,
generating challenges succeeds iff the last call was not itself a generation; it then returns the
requested number of challenges.  (Digests of at least eight bytes.) -/
theorem C24_guard (env : Env F) (hdig : ∀ b, 8 ≤ (env.digest b).length) (m : F) (ops : List (Op F))
    (t : Transcript) (h : runOps env (Transcript.new env m) ops = some t) (n : ℕ) :
    ((t.generateChallenges env n).isSome ↔ ∀ k, ops.getLast? ≠ some (.gen k)) ∧
    (∀ ct, t.generateChallenges env n = some ct → ct.1.length = n) := by
  refine ⟨?_, ?_⟩
  · rcases List.eq_nil_or_concat ops with rfl | ⟨init, o, rfl⟩
    · simp only [runOps, Option.some.injEq] at h
      subst h
      rw [generateChallenges_isSome_iff]
      simpa [Transcript.new, Transcript.feed] using hdig _
    · rw [List.concat_eq_append] at h ⊢
      rw [runOps_append, Option.bind_eq_some_iff] at h
      obtain ⟨t1, h1, h2⟩ := h
      rw [generateChallenges_isSome_iff]
      cases o with
      | feed m' =>
        simp only [runOps, Option.some.injEq] at h2
        subst h2
        simpa [Transcript.feed] using hdig _
      | gen k =>
        simp only [runOps, Option.bind_eq_some_iff, Option.some.injEq] at h2
        obtain ⟨ct, hct, h2⟩ := h2
        obtain ⟨-, -, hst, -⟩ := generateChallenges_state hct
        rw [← h2, hst]
        simp
  · intro ct hct
    rw [(generateChallenges_state hct).2.2.2]; simp

/-- **C24** (default transcript): a transcript made by `Default` that never digested anything panics
on generation as well. -/
theorem C24_default_panics (env : Env F) (n : ℕ) :
    Transcript.default.generateChallenges env n = none := rfl

/-- **C24**: a default transcript is as good as a new one once something was digested, so all that holds of `Transcript::new`
holds of it. -/
theorem C24_default_digest (env : Env F) (m : F) : Transcript.default.feed env m = Transcript.new env m := rfl

/-- **C24** (all generators): the three generating methods succeed in the same states, change the
state in the same way, and draw from the same sequence. -/
theorem C24_generators_agree (env : Env F) (t : Transcript) (n : ℕ) :
    t.generateAChallenge env =
      (t.generateChallenges env 1).bind (fun ct => ct.1.head?.map fun c => (c, ct.2)) ∧
    t.generateChallengeListUsize env n =
      (t.generateChallenges env n).map fun ct => (ct.1.map env.low64, ct.2) := by
  unfold Transcript.generateAChallenge Transcript.generateChallengeListUsize
    Transcript.generateChallenges
  cases t.rngSeed <;> simp [List.range_succ]

/-! ## C25 -/

/-- **C25** (replay): two histories that digest the same messages, whatever generations happen in
between, produce the same challenges. -/
theorem C25_replay (env : Env F) (m m' : F) (ops ops' : List (Op F)) (t t' : Transcript)
    (h : runOps env (Transcript.new env m) ops = some t)
    (h' : runOps env (Transcript.new env m') ops' = some t')
    (hsame : m :: feeds ops = m' :: feeds ops') (n : ℕ) (ct ct' : List F × Transcript)
    (hc : t.generateChallenges env n = some ct) (hc' : t'.generateChallenges env n = some ct') :
    ct.1 = ct'.1 := by
  obtain ⟨rfl, hf⟩ := List.cons.inj hsame
  have h1 := (runOps_data env _ _ ops h).1
  have h2 := (runOps_data env _ _ ops' h').1
  rw [(generateChallenges_state hc).2.2.2, (generateChallenges_state hc').2.2.2, h1, h2, hf]

/-- **C25** (value): the challenges drawn after any history are the first elements of the generator seeded
with the chain of digests over the digested messages. -/
theorem C25_challenge_value (env : Env F) (m : F) (ops : List (Op F)) (t : Transcript)
    (h : runOps env (Transcript.new env m) ops = some t) (n : ℕ) (ct : List F × Transcript)
    (hc : t.generateChallenges env n = some ct) :
    ct.1 = (List.range n).map (challengeAfter env (m :: feeds ops)) := by
  rw [(generateChallenges_state hc).2.2.2, (runOps_data env _ _ ops h).1]
  have := ((at_new env m).feedAll (feeds ops)).1
  rw [this]
  rfl

theorem feedAll_index (env : Env F) (t : Transcript) (ms : List F) :
    (feedAll env t ms).index = t.index + ms.length := by
  induction ms generalizing t with
  | nil => rfl
  | cons m ms ih =>
    have : feedAll env t (m :: ms) = feedAll env (t.feed env m) ms := rfl
    rw [this, ih]; simp [Transcript.feed]; omega

theorem hashInputs_append (env : Env F) (t : Transcript) (xs : List F) (m : F) :
    hashInputs env t (xs ++ [m]) = hashInputs env t xs ++
      [(feedAll env t xs).data.getD [] ++ leBytes8 (feedAll env t xs).index ++ env.toStr m] := by
  induction xs generalizing t with
  | nil => rfl
  | cons x xs ih => simp [hashInputs, ih]; rfl

theorem feedAll_append (env : Env F) (t : Transcript) (xs : List F) (m : F) :
    feedAll env t (xs ++ [m]) = (feedAll env t xs).feed env m := by simp [feedAll]

theorem feedAll_data_length (env : Env F) (L : ℕ) (hL : ∀ b, (env.digest b).length = L) (xs : List F)
    (hne : xs ≠ []) : ((feedAll env emptyTranscript xs).data.getD []).length = L := by
  rcases List.eq_nil_or_concat xs with rfl | ⟨ys, m, rfl⟩
  · exact absurd rfl hne
  · rw [List.concat_eq_append, feedAll_append]; simp [Transcript.feed, hL]

theorem feedAll_binding (env : Env F) (L : ℕ) (hL1 : 0 < L) (hL : ∀ b, (env.digest b).length = L)
    (hinj : Function.Injective env.toStr) (hnz : ∀ x, (0 : UInt8) ∉ env.toStr x)
    (ms ms' : List F) (hne : ms ≠ []) (hne' : ms' ≠ []) (hlen : ms.length < 2 ^ 56)
    (hlen' : ms'.length < 2 ^ 56)
    (h : (feedAll env emptyTranscript ms).data = (feedAll env emptyTranscript ms').data) :
    ms = ms' ∨ ∃ a ∈ hashInputs env emptyTranscript ms, ∃ b ∈ hashInputs env emptyTranscript ms',
      a ≠ b ∧ env.digest a = env.digest b := by
  induction ms using List.reverseRecOn generalizing ms' with
  | nil => exact absurd rfl hne
  | append_singleton xs m ih =>
    rcases List.eq_nil_or_concat ms' with rfl | ⟨ys, m', rfl⟩
    · exact absurd rfl hne'
    rw [List.concat_eq_append] at *
    rw [feedAll_append, feedAll_append] at h
    simp only [Transcript.feed, Option.some.injEq] at h
    rw [hashInputs_append, hashInputs_append]
    set A := (feedAll env emptyTranscript xs).data.getD [] with hA
    set B := (feedAll env emptyTranscript ys).data.getD [] with hB
    rw [feedAll_index, feedAll_index] at *
    simp only [emptyTranscript, Nat.zero_add] at h ⊢
    simp only [List.length_append, List.length_singleton] at hlen hlen'
    by_cases heq : A ++ leBytes8 xs.length ++ env.toStr m = B ++ leBytes8 ys.length ++ env.toStr m'
    · by_cases hx : xs = []
      · by_cases hy : ys = []
        · subst hx hy
          left
          simp only [List.length_nil] at heq
          have hAB : A = B := by rw [hA, hB]
          rw [hAB] at heq
          rw [hinj (List.append_cancel_left heq)]
        · exfalso
          subst hx
          have hB' : B.length = L := feedAll_data_length env L hL ys hy
          have hA' : A = [] := rfl
          rw [hA', List.nil_append] at heq
          have h1 : (B ++ leBytes8 ys.length ++ env.toStr m')[L + 7]? = some 0 := by
            rw [List.append_assoc, List.getElem?_append_right (by omega), hB',
              List.getElem?_append_left (by simp)]
            rw [show L + 7 - L = 7 by omega]
            exact leBytes8_top (by omega)
          rw [← heq, List.getElem?_append_right (by simp; omega)] at h1
          exact hnz m (List.mem_of_getElem? h1)
      · by_cases hy : ys = []
        · exfalso
          subst hy
          have hA' : A.length = L := feedAll_data_length env L hL xs hx
          have hB' : B = [] := rfl
          rw [hB', List.nil_append] at heq
          have h1 : (A ++ leBytes8 xs.length ++ env.toStr m)[L + 7]? = some 0 := by
            rw [List.append_assoc, List.getElem?_append_right (by omega), hA',
              List.getElem?_append_left (by simp)]
            rw [show L + 7 - L = 7 by omega]
            exact leBytes8_top (by omega)
          rw [heq, List.getElem?_append_right (by simp; omega)] at h1
          exact hnz m' (List.mem_of_getElem? h1)
        · have hA' : A.length = L := feedAll_data_length env L hL xs hx
          have hB' : B.length = L := feedAll_data_length env L hL ys hy
          rw [List.append_assoc, List.append_assoc] at heq
          obtain ⟨h1, h2⟩ := List.append_inj heq (by rw [hA', hB'])
          obtain ⟨-, h3⟩ := List.append_inj h2 (by simp)
          have hm : m = m' := hinj h3
          have hdat : (feedAll env emptyTranscript xs).data = (feedAll env emptyTranscript ys).data := by
            have e1 : ∃ d, (feedAll env emptyTranscript xs).data = some d := by
              rcases List.eq_nil_or_concat xs with rfl | ⟨zs, z, rfl⟩
              · exact absurd rfl hx
              · rw [List.concat_eq_append, feedAll_append]; exact ⟨_, rfl⟩
            have e2 : ∃ d, (feedAll env emptyTranscript ys).data = some d := by
              rcases List.eq_nil_or_concat ys with rfl | ⟨zs, z, rfl⟩
              · exact absurd rfl hy
              · rw [List.concat_eq_append, feedAll_append]; exact ⟨_, rfl⟩
            obtain ⟨d1, e1⟩ := e1
            obtain ⟨d2, e2⟩ := e2
            rw [hA, hB, e1, e2] at h1
            rw [e1, e2]; simpa using h1
          rcases ih ys hx hy (by omega) (by omega) hdat with h4 | ⟨a, ha, b, hb, hab, hd⟩
          · left; rw [h4, hm]
          · right
            exact ⟨a, List.mem_append_left _ ha, b, List.mem_append_left _ hb, hab, hd⟩
    · right
      exact ⟨_, List.mem_append_right _ (by simp), _, List.mem_append_right _ (by simp), heq, h⟩

theorem hashInputs_chain (env : Env F) (t : Transcript) (ms : List F) :
    hashInputs env t ms = chainInputs env t.index (t.data.getD []) ms := by
  induction ms generalizing t with
  | nil => rfl
  | cons m ms ih => simp only [hashInputs, chainInputs, ih]; rfl

/-- **C25** (binding): if two histories of fewer than `2^56` digests end with the same stored digest then
they digested the same messages, or two different byte strings hashed along the way collide.  Printing must
be injective and free of zero bytes (decimal digits), digests have a fixed length.  The stored digest is what
the challenges are drawn from (`C25_challenge_value`). -/
theorem C25_binding (env : Env F) (L : ℕ) (hL1 : 0 < L) (hL : ∀ b, (env.digest b).length = L)
    (hinj : Function.Injective env.toStr) (hnz : ∀ x, (0 : UInt8) ∉ env.toStr x)
    (m m' : F) (ops ops' : List (Op F)) (t t' : Transcript)
    (hr : runOps env (Transcript.new env m) ops = some t)
    (hr' : runOps env (Transcript.new env m') ops' = some t')
    (hlen : (m :: feeds ops).length < 2 ^ 56) (hlen' : (m' :: feeds ops').length < 2 ^ 56)
    (h : t.data = t'.data) :
    m :: feeds ops = m' :: feeds ops' ∨
      ∃ a ∈ chainInputs env 0 [] (m :: feeds ops), ∃ b ∈ chainInputs env 0 [] (m' :: feeds ops'),
        a ≠ b ∧ env.digest a = env.digest b := by
  rw [(runOps_data env _ _ ops hr).1, (runOps_data env _ _ ops' hr').1] at h
  have := feedAll_binding env L hL1 hL hinj hnz (m :: feeds ops) (m' :: feeds ops') (by simp) (by simp)
    hlen hlen' h
  rwa [hashInputs_chain, hashInputs_chain] at this

/-! ## Non-vacuity -/

/-- A stand-in digest with the output length of SHA-256. -/
def toyDigest (b : List UInt8) : List UInt8 := (b ++ List.replicate 32 0).take 32

theorem length_toyDigest (b : List UInt8) : (toyDigest b).length = 32 := by simp [toyDigest]

/-- Goldilocks printing as done by ark-ff meets the hypotheses of `C25_binding`. -/
example (fromBytes rand) : let env := goldEnv toyDigest fromBytes toyDigest rand
    (∀ b, (env.digest b).length = 32) ∧ Function.Injective env.toStr ∧
    (∀ x, (0 : UInt8) ∉ env.toStr x) := by
  refine ⟨length_toyDigest, ?_, ?_⟩
  · intro a b h
    exact ZMod.val_injective _ (decimalTrim_inj h)
  · intro x h; exact decimalTrim_ne_zero h rfl

/-- A history with several generations satisfies the hypotheses of `C24_guard`. -/
example (fromBytes rand) (a b c : Goldilocks) :
    (runOps (goldEnv toyDigest fromBytes toyDigest rand)
      (Transcript.new (goldEnv toyDigest fromBytes toyDigest rand) a)
      [.gen 2, .feed b, .feed c, .gen 1]).isSome := by
  have hlt : ∀ d, (toyDigest d).length < 8 ↔ False := fun d => by rw [length_toyDigest]; simp
  simp [runOps, Transcript.generateChallenges, Transcript.rngSeed, Transcript.new, Transcript.feed,
    goldEnv, hlt]

end Verif.Fri

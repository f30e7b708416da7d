import Verif.Plonk.Model

/-!
# Property C57: the PLONK challenge generator as a state machine over arbitrary histories
-/

set_option linter.unusedSectionVars false
set_option linter.unusedSimpArgs false
set_option linter.unusedVariables false

namespace Verif.Plonk

open Verif.Ark Verif.Kzg

variable {F G1 : Type}

/-! ## Specification vocabulary -/

/-- Digest after feeding the points `cs` in order: `H(.. H(H(c₁) ‖ c₂) .. ‖ cₖ)`. -/
def digestChain (env : Env F G1) (dig : List UInt8 → List UInt8) (cs : List G1) : List UInt8 :=
  cs.foldl (fun acc x => dig (acc ++ env.serG x)) []

/-- The `k`-th challenge drawn after feeding `cs`: the random generator is seeded with the first eight
bytes of the digest, little endian. -/
def challengeAfter (env : Env F G1) (dig : List UInt8 → List UInt8) (cs : List G1) (k : ℕ) : F :=
  env.rand (fromLeBytes ((digestChain env dig cs).take 8)) k

/-- The byte strings hashed while feeding `cs`. -/
def hashedInputs (env : Env F G1) (dig : List UInt8 → List UInt8) : List UInt8 → List G1 → List (List UInt8)
  | _, [] => []
  | acc, c :: cs => (acc ++ env.serG c) :: hashedInputs env dig (dig (acc ++ env.serG c)) cs

/-- A call on a challenge generator. -/
inductive Op (G1 : Type) where
  /-- `feed(commitment)` -/
  | feed (c : G1)
  /-- `generate_challenges::<N>()` -/
  | gen (n : ℕ)

/-- Run a history of calls; `none` if some call panics. -/
def runOps (env : Env F G1) (dig : List UInt8 → List UInt8) :
    ChallengeGenerator → List (Op G1) → Option ChallengeGenerator
  | t, [] => some t
  | t, .feed m :: ops => runOps env dig (t.feed env dig m) ops
  | t, .gen n :: ops => (t.generateChallenges env n).bind fun ct => runOps env dig ct.2 ops

/-- The points fed in a history. -/
def fedPoints : List (Op G1) → List G1
  | [] => []
  | .feed m :: ops => m :: fedPoints ops
  | .gen _ :: ops => fedPoints ops

/-! ## Lemmas -/

theorem digestChain_append (env : Env F G1) (dig : List UInt8 → List UInt8) (cs : List G1) (c : G1) :
    digestChain env dig (cs ++ [c]) = dig (digestChain env dig cs ++ env.serG c) := by
  simp [digestChain]

theorem generateChallenges_iff (env : Env F G1) (c : ChallengeGenerator) (n : ℕ)
    (r : List F × ChallengeGenerator) :
    c.generateChallenges env n = some r ↔ c.generated = false ∧ ∃ D, c.data = some D ∧ 8 ≤ D.length ∧
      r = ((List.range n).map (env.rand (fromLeBytes (D.take 8))), { c with generated := true }) := by
  unfold ChallengeGenerator.generateChallenges ChallengeGenerator.rngSeed
  by_cases hg : c.generated = true
  · simp [hg]
  · have hg' : c.generated = false := by simpa using hg
    rw [if_neg hg]
    cases hD : c.data with
    | none => simp [hg']
    | some D =>
      by_cases hl : D.length < 8
      · simp [hl, hg']
      · simp [hl, hg', eq_comm]; intro _; omega

theorem generate1_iff (env : Env F G1) (c : ChallengeGenerator) (r : F × ChallengeGenerator) :
    c.generate1 env = some r ↔ c.generated = false ∧ ∃ D, c.data = some D ∧ 8 ≤ D.length ∧
      r = (env.rand (fromLeBytes (D.take 8)) 0, { c with generated := true }) := by
  unfold ChallengeGenerator.generate1
  simp only [Option.bind_eq_bind, Option.bind_eq_some_iff, generateChallenges_iff, pure,
    Option.some.injEq]
  constructor
  · rintro ⟨a, ⟨hg, D, hD, hl, rfl⟩, x, hx, rfl⟩
    refine ⟨hg, D, hD, hl, ?_⟩
    simp at hx; rw [hx]
  · rintro ⟨hg, D, hD, hl, rfl⟩
    exact ⟨_, ⟨hg, D, hD, hl, rfl⟩, _, rfl, rfl⟩

theorem generate2_iff (env : Env F G1) (c : ChallengeGenerator) (r : (F × F) × ChallengeGenerator) :
    c.generate2 env = some r ↔ c.generated = false ∧ ∃ D, c.data = some D ∧ 8 ≤ D.length ∧
      r = ((env.rand (fromLeBytes (D.take 8)) 0, env.rand (fromLeBytes (D.take 8)) 1),
        { c with generated := true }) := by
  unfold ChallengeGenerator.generate2
  simp only [Option.bind_eq_bind, Option.bind_eq_some_iff, generateChallenges_iff, pure,
    Option.some.injEq]
  constructor
  · rintro ⟨a, ⟨hg, D, hD, hl, rfl⟩, x, hx, y, hy, rfl⟩
    refine ⟨hg, D, hD, hl, ?_⟩
    simp [List.range_succ] at hx hy; rw [hx, hy]
  · rintro ⟨hg, D, hD, hl, rfl⟩
    exact ⟨_, ⟨hg, D, hD, hl, rfl⟩, _, rfl, _, rfl, rfl⟩

theorem feed_eq (env : Env F G1) (dig : List UInt8 → List UInt8) (c : ChallengeGenerator) (x : G1) :
    c.feed env dig x = ⟨some (dig (c.data.getD [] ++ env.serG x)), false⟩ := rfl

theorem runOps_append (env : Env F G1) (dig : List UInt8 → List UInt8) (t : ChallengeGenerator)
    (a b : List (Op G1)) :
    runOps env dig t (a ++ b) = (runOps env dig t a).bind fun t' => runOps env dig t' b := by
  induction a generalizing t with
  | nil => rfl
  | cons o a ih =>
    cases o with
    | feed m => simp [runOps, ih]
    | gen n =>
      simp only [List.cons_append, runOps]
      cases t.generateChallenges env n with
      | none => rfl
      | some ct => simp [ih]

/-- The state after a history: digest of the fed points (none if nothing was fed). -/
theorem runOps_data (env : Env F G1) (dig : List UInt8 → List UInt8) (ops : List (Op G1))
    (t : ChallengeGenerator) (h : runOps env dig .default ops = some t) :
    t.data = if fedPoints ops = [] then none else some (digestChain env dig (fedPoints ops)) := by
  have key : ∀ (ops : List (Op G1)) (pre : List G1) (t t' : ChallengeGenerator),
      t.data = (if pre = [] then none else some (digestChain env dig pre)) →
      runOps env dig t ops = some t' →
      t'.data = if pre ++ fedPoints ops = [] then none else some (digestChain env dig (pre ++ fedPoints ops)) := by
    intro ops
    induction ops with
    | nil =>
      intro pre t t' h1 h2
      simp only [runOps, Option.some.injEq] at h2
      subst h2; simpa [fedPoints] using h1
    | cons o ops ih =>
      intro pre t t' h1 h2
      cases o with
      | feed m =>
        have := ih (pre ++ [m]) (t.feed env dig m) t' (by
          rw [if_neg (by simp), digestChain_append, feed_eq, h1]
          by_cases hp : pre = []
          · subst hp; rfl
          · simp [hp]) h2
        simpa [fedPoints] using this
      | gen n =>
        simp only [runOps, Option.bind_eq_some_iff] at h2
        obtain ⟨ct, hct, h2⟩ := h2
        rw [generateChallenges_iff] at hct
        obtain ⟨-, D, -, -, rfl⟩ := hct
        exact ih pre { t with generated := true } t' h1 h2
  simpa using key ops [] .default t rfl h

/-! ## C57 -/

/-- **C57** (guard): after any history on a default generator, generation succeeds iff the last call was a
feed (digests of at least eight bytes); it returns exactly the challenges determined by the digest chain of
the points fed so far. -/
theorem C57_guard (env : Env F G1) (dig : List UInt8 → List UInt8) (hdig : ∀ b, 8 ≤ (dig b).length)
    (ops : List (Op G1)) (t : ChallengeGenerator) (h : runOps env dig .default ops = some t) (n : ℕ) :
    ((t.generateChallenges env n).isSome ↔ ∃ m, ops.getLast? = some (.feed m)) ∧
    (∀ ct, t.generateChallenges env n = some ct →
      ct.1 = (List.range n).map (challengeAfter env dig (fedPoints ops))) := by
  refine ⟨?_, ?_⟩
  · rw [Option.isSome_iff_exists]
    simp only [generateChallenges_iff]
    rcases List.eq_nil_or_concat ops with rfl | ⟨init, o, rfl⟩
    · simp only [runOps, Option.some.injEq] at h
      subst h
      simp [ChallengeGenerator.default]
    · rw [List.concat_eq_append] at h ⊢
      rw [runOps_append, Option.bind_eq_some_iff] at h
      obtain ⟨t1, h1, h2⟩ := h
      cases o with
      | feed m' =>
        simp only [runOps, Option.some.injEq] at h2
        subst h2
        simp only [List.getLast?_append, List.getLast?_singleton, Option.some_or, Option.some.injEq]
        exact ⟨fun _ => ⟨m', rfl⟩, fun _ => ⟨_, rfl, _, rfl, hdig _, rfl⟩⟩
      | gen k =>
        simp only [runOps, Option.bind_eq_some_iff, Option.some.injEq] at h2
        obtain ⟨ct, hct, h2⟩ := h2
        rw [generateChallenges_iff] at hct
        obtain ⟨-, D, -, -, rfl⟩ := hct
        rw [← h2]
        simp
  · intro ct hct
    rw [generateChallenges_iff] at hct
    obtain ⟨-, D, hD, -, rfl⟩ := hct
    have := runOps_data env dig ops t h
    rw [hD] at this
    split at this
    · cases this
    · rw [Option.some.injEq] at this
      rw [this]; rfl

/-- **C57** (constructor): `from_commitments` is a default generator fed with the points in order. -/
theorem C57_fromCommitments (env : Env F G1) (dig : List UInt8 → List UInt8) (cs : List G1) :
    runOps env dig .default (cs.map .feed) = some (ChallengeGenerator.fromCommitments env dig cs) := by
  unfold ChallengeGenerator.fromCommitments
  generalize ChallengeGenerator.default = t
  induction cs generalizing t with
  | nil => rfl
  | cons c cs ih => exact ih _

/-- **C57** (replay): two histories that feed the same points, whatever generations happen in between,
produce the same challenges. -/
theorem C57_replay (env : Env F G1) (dig : List UInt8 → List UInt8) (hdig : ∀ b, 8 ≤ (dig b).length)
    (ops ops' : List (Op G1)) (t t' : ChallengeGenerator)
    (h : runOps env dig .default ops = some t) (h' : runOps env dig .default ops' = some t')
    (hsame : fedPoints ops = fedPoints ops') (n : ℕ) (ct ct' : List F × ChallengeGenerator)
    (hc : t.generateChallenges env n = some ct) (hc' : t'.generateChallenges env n = some ct') :
    ct.1 = ct'.1 := by
  rw [(C57_guard env dig hdig ops t h n).2 ct hc, (C57_guard env dig hdig ops' t' h' n).2 ct' hc', hsame]

theorem hashedInputs_append (env : Env F G1) (dig : List UInt8 → List UInt8) (acc : List UInt8)
    (cs : List G1) (c : G1) :
    hashedInputs env dig acc (cs ++ [c]) = hashedInputs env dig acc cs ++
      [cs.foldl (fun acc x => dig (acc ++ env.serG x)) acc ++ env.serG c] := by
  induction cs generalizing acc with
  | nil => rfl
  | cons x xs ih => simp [hashedInputs, ih]

theorem digestChain_length (env : Env F G1) (dig : List UInt8 → List UInt8) (L : ℕ)
    (hL : ∀ b, (dig b).length = L) (cs : List G1) (hne : cs ≠ []) :
    (digestChain env dig cs).length = L := by
  rcases List.eq_nil_or_concat cs with rfl | ⟨ys, m, rfl⟩
  · exact absurd rfl hne
  · rw [List.concat_eq_append, digestChain_append, hL]

theorem digestChain_binding (env : Env F G1) (dig : List UInt8 → List UInt8) (L LG : ℕ) (hL0 : 0 < L)
    (hL : ∀ b, (dig b).length = L) (hLG : ∀ x, (env.serG x).length = LG)
    (hG : Function.Injective env.serG) (cs cs' : List G1)
    (h : digestChain env dig cs = digestChain env dig cs') :
    cs = cs' ∨ ∃ a ∈ hashedInputs env dig [] cs, ∃ b ∈ hashedInputs env dig [] cs',
      a ≠ b ∧ dig a = dig b := by
  induction cs using List.reverseRecOn generalizing cs' with
  | nil =>
    rcases eq_or_ne cs' [] with rfl | hne
    · exact Or.inl rfl
    · have := digestChain_length env dig L hL cs' hne
      rw [← h] at this
      simp [digestChain] at this; omega
  | append_singleton xs m ih =>
    rcases List.eq_nil_or_concat cs' with rfl | ⟨ys, m', rfl⟩
    · have := digestChain_length env dig L hL (xs ++ [m]) (by simp)
      rw [h] at this
      simp [digestChain] at this; omega
    rw [List.concat_eq_append] at *
    rw [digestChain_append, digestChain_append] at h
    rw [hashedInputs_append, hashedInputs_append]
    by_cases heq : digestChain env dig xs ++ env.serG m = digestChain env dig ys ++ env.serG m'
    · have hlen : (digestChain env dig xs).length = (digestChain env dig ys).length := by
        have := congrArg List.length heq
        simp only [List.length_append, hLG] at this
        omega
      obtain ⟨h1, h2⟩ := List.append_inj heq hlen
      rcases ih ys h1 with rfl | ⟨a, ha, b, hb, hab⟩
      · left; rw [hG h2]
      · right
        exact ⟨a, by simp [ha], b, by simp [hb], hab⟩
    · right
      exact ⟨_, List.mem_append_right _ (List.mem_singleton.2 rfl), _,
        List.mem_append_right _ (List.mem_singleton.2 rfl), heq, h⟩

/-- **C57** (binding): if two histories of calls on a default generator end with the same stored digest then
they fed the same points, or two different byte strings hashed along the way collide (digests of fixed
positive length, injective serialisation of fixed length, as for SHA-256 and uncompressed BLS12-381 points).
The stored digest is what the challenges are drawn from (`C57_guard`). -/
theorem C57_binding (env : Env F G1) (dig : List UInt8 → List UInt8) (L LG : ℕ) (hL0 : 0 < L)
    (hL : ∀ b, (dig b).length = L) (hLG : ∀ x, (env.serG x).length = LG)
    (hG : Function.Injective env.serG) (ops ops' : List (Op G1)) (t t' : ChallengeGenerator)
    (hr : runOps env dig .default ops = some t) (hr' : runOps env dig .default ops' = some t')
    (h : t.data = t'.data) :
    fedPoints ops = fedPoints ops' ∨ ∃ a ∈ hashedInputs env dig [] (fedPoints ops),
      ∃ b ∈ hashedInputs env dig [] (fedPoints ops'), a ≠ b ∧ dig a = dig b := by
  rw [runOps_data env dig ops t hr, runOps_data env dig ops' t' hr'] at h
  by_cases h1 : fedPoints ops = []
  · by_cases h2 : fedPoints ops' = []
    · left; rw [h1, h2]
    · rw [if_pos h1, if_neg h2] at h; cases h
  · by_cases h2 : fedPoints ops' = []
    · rw [if_neg h1, if_pos h2] at h; cases h
    · rw [if_neg h1, if_neg h2, Option.some.injEq] at h
      exact digestChain_binding env dig L LG hL0 hL hLG hG _ _ h

/-- A toy environment (for non-vacuity): points are bytes. -/
def toyEnv : Env ℚ (Fin 256) where
  sha256 := fun b => (List.replicate 8 (b.foldl (· + ·) 0))
  serG := fun x => [UInt8.ofNat x.val]
  rand := fun seed k => seed + k

example : ∃ t, runOps toyEnv toyEnv.sha256 .default [.feed 3, .gen 2, .feed 5] = some t ∧
    (t.generateChallenges toyEnv 1).isSome = true := by
  refine ⟨⟨some (toyEnv.sha256 ((toyEnv.sha256 [3]) ++ [5])), false⟩, rfl, rfl⟩

example : (∀ b, (toyEnv.sha256 b).length = 8) ∧ (∀ x, (toyEnv.serG x).length = 1) ∧
    Function.Injective toyEnv.serG := by
  refine ⟨fun b => by simp [toyEnv], fun x => rfl, ?_⟩
  intro a b h
  simp only [toyEnv, List.cons.injEq, and_true] at h
  have h1 := congrArg UInt8.toNat h
  have ha := a.isLt
  have hb := b.isLt
  simp only [UInt8.toNat_ofNat'] at h1
  exact Fin.ext (by omega)

end Verif.Plonk

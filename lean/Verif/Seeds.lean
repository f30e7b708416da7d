import Verif.Plonk.Transcript
import Verif.Fri.TranscriptProps
import Verif.Nova.TranscriptProps
import Mathlib.Data.Fintype.Vector
import Mathlib.Data.Fintype.BigOperators

/-!
# Property C83: every challenge is possible — false of the code

All three transcripts (`plonk/src/challenge.rs` lines 60-71, `nova/src/transcript.rs` lines 90-99,
`fri/src/fiat_shamir/transcript.rs` lines 90-99) seed a random generator with the first eight bytes of the
digest.  Hence everything drawn after one digest is a function of a 64-bit number, whatever the digest, the
history and the number of values drawn.
-/

set_option linter.unusedSectionVars false
set_option linter.unusedVariables false

namespace Verif

open Verif.Ark

/-- The lists a random generator `rand` can produce from 64-bit seeds. -/
noncomputable def seedLists {F : Type} [DecidableEq F] (rand : ℕ → ℕ → F) (n : ℕ) : Finset (List F) :=
  (Finset.range (2 ^ 64)).image fun s => (List.range n).map (rand s)

theorem card_seedLists {F : Type} [DecidableEq F] (rand : ℕ → ℕ → F) (n : ℕ) : (seedLists rand n).card ≤ 2 ^ 64 := by
  unfold seedLists
  exact Finset.card_image_le.trans (by rw [Finset.card_range])

theorem mem_seedLists {F : Type} [DecidableEq F] (rand : ℕ → ℕ → F) (n : ℕ) (D : List UInt8) :
    (List.range n).map (rand (fromLeBytes (D.take 8))) ∈ seedLists rand n := by
  unfold seedLists
  exact Finset.mem_image.2 ⟨_, Finset.mem_range.2 (seed_lt D), rfl⟩

/-- Field elements that occur in a set of at most `2^64` lists of length `n`. -/
theorem exists_missing {F : Type} [Fintype F] (S : Finset (List F)) (hS : S.card ≤ 2 ^ 64) (n : ℕ)
    (hn : ∀ l ∈ S, l.length ≤ n) (hcard : n * 2 ^ 64 < Fintype.card F) : ∃ x : F, ∀ l ∈ S, x ∉ l := by
  classical
  by_contra hcon
  push Not at hcon
  have hsub : (Finset.univ : Finset F) ⊆ S.biUnion fun l => l.toFinset := by
    intro x _
    obtain ⟨l, hl, hx⟩ := hcon x
    exact Finset.mem_biUnion.2 ⟨l, hl, List.mem_toFinset.2 hx⟩
  have h1 := Finset.card_le_card hsub
  have h2 : (S.biUnion fun l => l.toFinset).card ≤ S.card * n :=
    Finset.card_biUnion_le_card_mul _ _ _ fun l hl => (List.toFinset_card_le l).trans (hn l hl)
  rw [Finset.card_univ] at h1
  have h3 : S.card * n ≤ n * 2 ^ 64 := by rw [Nat.mul_comm]; exact Nat.mul_le_mul_left _ hS
  omega

/-- **C83** (PLONK): for every random generator there is a set of at most `2^64` lists of `n` field elements
such that whatever digest function is used and whatever the history of calls, the challenges drawn are one of
these lists. -/
theorem C83_plonk_challenge_space {F G1 : Type} [FftField F] [DecidableEq F] (env : Plonk.Env F G1) (n : ℕ) :
    ∃ S : Finset (List F), S.card ≤ 2 ^ 64 ∧
      ∀ (dig : List UInt8 → List UInt8) (ops : List (Plonk.Op G1)) (t : Plonk.ChallengeGenerator)
        (ct : List F × Plonk.ChallengeGenerator), Plonk.runOps env dig .default ops = some t →
        t.generateChallenges env n = some ct → ct.1 ∈ S := by
  refine ⟨seedLists env.rand n, card_seedLists _ _, ?_⟩
  intro dig ops t ct _ h
  obtain ⟨-, D, -, -, rfl⟩ := (Plonk.generateChallenges_iff env t n ct).1 h
  exact mem_seedLists _ _ _

/-- **C83** (Nova): the same for the transcript of Nova. -/
theorem C83_nova_challenge_space {F G1 B : Type} [Field F] [DecidableEq F]
    [AddCommGroup G1] [Module F G1] [DecidableEq G1] [Field B] [DecidableEq B] (rand : ℕ → ℕ → F) (n : ℕ) :
    ∃ S : Finset (List F), S.card ≤ 2 ^ 64 ∧
      ∀ (env : Nova.Env F G1 B) (ops : List (Nova.Op F G1)) (t : Nova.Transcript)
        (ct : List F × Nova.Transcript), env.rand = rand → Nova.runOps env .default ops = some t →
        t.generateChallenges env n = some ct → ct.1 ∈ S := by
  refine ⟨seedLists rand n, card_seedLists _ _, ?_⟩
  intro env ops t ct hr _ h
  rw [(Nova.generateChallenges_state h).2.2.2, hr]
  exact mem_seedLists _ _ _

/-- **C83** (FRI, field challenges): the same for the transcript of FRI. -/
theorem C83_fri_challenge_space {F : Type} [FftField F] [DecidableEq F] (rand : ℕ → ℕ → F) (n : ℕ) :
    ∃ S : Finset (List F), S.card ≤ 2 ^ 64 ∧
      ∀ (env : Fri.Env F) (m : F) (ops : List (Fri.Op F)) (t : Fri.Transcript)
        (ct : List F × Fri.Transcript), env.rand = rand →
        Fri.runOps env (Fri.Transcript.new env m) ops = some t →
        t.generateChallenges env n = some ct → ct.1 ∈ S := by
  refine ⟨seedLists rand n, card_seedLists _ _, ?_⟩
  intro env m ops t ct hr _ h
  rw [(Fri.generateChallenges_state h).2.2.2, hr]
  exact mem_seedLists _ _ _

/-- **C83** (FRI, query positions): with more than `2^64` lists of `q` positions in a domain of size `D`, some
list of positions is never queried, whatever was digested: increasing the number of queries beyond that does not
enlarge the set of lists a cheating prover has to fear. -/
theorem C83_fri_queries_missing {F : Type} [FftField F] [DecidableEq F] (rand : ℕ → ℕ → F) (low64 : F → ℕ) (q D : ℕ) (hD : 2 ^ 64 < D ^ q) :
    ∃ L : List ℕ, L.length = q ∧ (∀ x ∈ L, x < D) ∧
      ∀ (env : Fri.Env F) (m : F) (ops : List (Fri.Op F)) (t : Fri.Transcript)
        (ct : List ℕ × Fri.Transcript), env.rand = rand → env.low64 = low64 →
        Fri.runOps env (Fri.Transcript.new env m) ops = some t →
        t.generateChallengeListUsize env q = some ct → ct.1.map (fun v => v % D) ≠ L := by
  classical
  by_contra hcon
  push Not at hcon
  have key : ∀ v : Fin q → Fin D, (List.ofFn fun i => ((v i : Fin D) : ℕ)) ∈
      (seedLists rand q).image fun l => (l.map low64).map fun v => v % D := by
    intro v
    obtain ⟨env, m, ops, t, ct, hr, hl, -, hgen, heq⟩ := hcon (List.ofFn fun i => ((v i : Fin D) : ℕ)) (by simp)
      (by
        intro x hx
        obtain ⟨i, rfl⟩ := (List.mem_ofFn' _ _).1 hx
        exact (v i).2)
    rw [(Fri.C24_generators_agree env t q).2, Option.map_eq_some_iff] at hgen
    obtain ⟨ct', h', rfl⟩ := hgen
    refine Finset.mem_image.2 ⟨ct'.1, ?_, ?_⟩
    · rw [(Fri.generateChallenges_state h').2.2.2, hr]
      exact mem_seedLists _ _ _
    · rw [← hl]; exact heq
  have hinj : Function.Injective fun v : Fin q → Fin D => (List.ofFn fun i => ((v i : Fin D) : ℕ)) := by
    intro v v' h
    have := List.ofFn_injective h
    funext i
    exact Fin.ext (congrFun this i)
  have h1 : (Finset.univ.image fun v : Fin q → Fin D => (List.ofFn fun i => ((v i : Fin D) : ℕ))).card = D ^ q := by
    rw [Finset.card_image_of_injective _ hinj, Finset.card_univ, Fintype.card_fun, Fintype.card_fin, Fintype.card_fin]
  have h2 : (Finset.univ.image fun v : Fin q → Fin D => (List.ofFn fun i => ((v i : Fin D) : ℕ))) ⊆
      (seedLists rand q).image fun l => (l.map low64).map fun v => v % D := by
    intro l hl
    obtain ⟨v, -, rfl⟩ := Finset.mem_image.1 hl
    exact key v
  have h3 := Finset.card_le_card h2
  have h4 := Finset.card_image_le (s := seedLists rand q) (f := fun l => (l.map low64).map fun v => v % D)
  have h5 := card_seedLists rand q
  omega

/-- **C83** (fields): over BLS12-381 `Fr` there are, for every random generator and every number of
challenges `n < 2^190` drawn at a time, field elements which no transcript of PLONK ever returns as a challenge. -/
theorem C83_plonk_challenges_missing {G1 : Type} (env : Plonk.Env BlsFr G1) (n : ℕ) (hn : n < 2 ^ 190) :
    ∃ x : BlsFr, ∀ (dig : List UInt8 → List UInt8) (ops : List (Plonk.Op G1)) (t : Plonk.ChallengeGenerator)
        (ct : List BlsFr × Plonk.ChallengeGenerator), Plonk.runOps env dig .default ops = some t →
        t.generateChallenges env n = some ct → x ∉ ct.1 := by
  have : NeZero blsR := ⟨by unfold blsR; norm_num⟩
  obtain ⟨x, hx⟩ := exists_missing (seedLists env.rand n) (card_seedLists _ _) n
    (by
      intro l hl
      obtain ⟨s, -, rfl⟩ := Finset.mem_image.1 hl
      simp)
    (by
      rw [ZMod.card]
      calc n * 2 ^ 64 < 2 ^ 190 * 2 ^ 64 := Nat.mul_lt_mul_of_pos_right hn (by norm_num)
        _ ≤ blsR := by unfold blsR; norm_num)
  refine ⟨x, fun dig ops t ct _ h => ?_⟩
  obtain ⟨-, D, -, -, rfl⟩ := (Plonk.generateChallenges_iff env t n ct).1 h
  exact hx _ (mem_seedLists _ _ _)

/-- **C83** (Nova, fields): the same for Nova over BLS12-381 `Fr`. -/
theorem C83_nova_challenges_missing {G1 B : Type} [AddCommGroup G1] [Module BlsFr G1]
    [DecidableEq G1] [Field B] [DecidableEq B] (rand : ℕ → ℕ → BlsFr) (n : ℕ) (hn : n < 2 ^ 190) :
    ∃ x : BlsFr, ∀ (env : Nova.Env BlsFr G1 B) (ops : List (Nova.Op BlsFr G1)) (t : Nova.Transcript)
        (ct : List BlsFr × Nova.Transcript), env.rand = rand → Nova.runOps env .default ops = some t →
        t.generateChallenges env n = some ct → x ∉ ct.1 := by
  have : NeZero blsR := ⟨by unfold blsR; norm_num⟩
  obtain ⟨x, hx⟩ := exists_missing (seedLists rand n) (card_seedLists _ _) n
    (by
      intro l hl
      obtain ⟨s, -, rfl⟩ := Finset.mem_image.1 hl
      simp)
    (by
      rw [ZMod.card]
      calc n * 2 ^ 64 < 2 ^ 190 * 2 ^ 64 := Nat.mul_lt_mul_of_pos_right hn (by norm_num)
        _ ≤ blsR := by unfold blsR; norm_num)
  refine ⟨x, fun env ops t ct hr _ h => ?_⟩
  rw [(Nova.generateChallenges_state h).2.2.2, hr]
  exact hx _ (mem_seedLists _ _ _)

/-- The first eight bytes of the 32 byte little-endian encoding of a 64-bit number give the number back. -/
theorem seed_of_leBytes {seed : ℕ} (h : seed < 2 ^ 64) : fromLeBytes ((leBytes 32 seed).take 8) = seed := by
  have key : ∀ k m n, (leBytes (k + m) n).take k = leBytes k n := by
    intro k
    induction k with
    | zero => intro m n; simp [leBytes]
    | succ k ih =>
      intro m n
      rw [show k + 1 + m = (k + m) + 1 by omega, leBytes, leBytes, List.take_succ_cons, ih]
  rw [show (32 : ℕ) = 8 + 24 from rfl, key, fromLeBytes_leBytes]
  exact Nat.mod_eq_of_lt (by norm_num; exact h)

/-- **C83** (PLONK, exactly): over all digest functions with 32 byte outputs and all histories, the lists of `n`
challenges that can be drawn are exactly those the random generator yields from the `2^64` seeds. -/
theorem C83_plonk_exactly {F G1 : Type} [FftField F] [DecidableEq F] [Nonempty G1] (env : Plonk.Env F G1) (n : ℕ)
    (L : List F) :
    (∃ (dig : List UInt8 → List UInt8) (ops : List (Plonk.Op G1)) (t : Plonk.ChallengeGenerator)
        (ct : List F × Plonk.ChallengeGenerator), (∀ b, (dig b).length = 32) ∧
        Plonk.runOps env dig .default ops = some t ∧ t.generateChallenges env n = some ct ∧ ct.1 = L) ↔
      ∃ seed < 2 ^ 64, L = (List.range n).map (env.rand seed) := by
  constructor
  · rintro ⟨dig, ops, t, ct, -, -, h, rfl⟩
    obtain ⟨-, D, -, -, rfl⟩ := (Plonk.generateChallenges_iff env t n ct).1 h
    exact ⟨_, seed_lt D, rfl⟩
  · rintro ⟨seed, hs, rfl⟩
    obtain ⟨g⟩ := ‹Nonempty G1›
    refine ⟨fun _ => leBytes 32 seed, [.feed g], ⟨some (leBytes 32 seed), false⟩, _, fun _ => by simp, rfl,
      (Plonk.generateChallenges_iff env _ n _).2 ⟨rfl, _, rfl, by simp, rfl⟩, ?_⟩
    rw [seed_of_leBytes hs]

/-- **C83** (Nova, exactly): the same for the transcript of Nova. -/
theorem C83_nova_exactly {F G1 B : Type} [Field F] [DecidableEq F]
    [AddCommGroup G1] [Module F G1] [DecidableEq G1] [Field B] [DecidableEq B] (rand : ℕ → ℕ → F)
    (env₀ : Nova.Env F G1 B) (n : ℕ) (L : List F) :
    (∃ (env : Nova.Env F G1 B) (ops : List (Nova.Op F G1)) (t : Nova.Transcript)
        (ct : List F × Nova.Transcript), env.rand = rand ∧ (∀ b, (env.digest b).length = 32) ∧
        Nova.runOps env .default ops = some t ∧ t.generateChallenges env n = some ct ∧ ct.1 = L) ↔
      ∃ seed < 2 ^ 64, L = (List.range n).map (rand seed) := by
  constructor
  · rintro ⟨env, ops, t, ct, hr, -, -, h, rfl⟩
    rw [(Nova.generateChallenges_state h).2.2.2, hr]
    exact ⟨_, seed_lt _, rfl⟩
  · rintro ⟨seed, hs, rfl⟩
    refine ⟨{ env₀ with rand := rand, digest := fun _ => leBytes 32 seed }, [.feed (.com 0)],
      ⟨some (leBytes 32 seed), false⟩,
      ((List.range n).map (rand (fromLeBytes ((leBytes 32 seed).take 8))), ⟨some (leBytes 32 seed), true⟩),
      rfl, fun _ => by simp, rfl, ?_, ?_⟩
    · simp [Nova.Transcript.generateChallenges, Nova.Transcript.rngSeed]
    · rw [seed_of_leBytes hs]

/-- **C83** (FRI, exactly): the same for the transcript of FRI. -/
theorem C83_fri_exactly {F : Type} [FftField F] [DecidableEq F] (rand : ℕ → ℕ → F) (env₀ : Fri.Env F) (n : ℕ)
    (L : List F) :
    (∃ (env : Fri.Env F) (m : F) (ops : List (Fri.Op F)) (t : Fri.Transcript)
        (ct : List F × Fri.Transcript), env.rand = rand ∧ (∀ b, (env.digest b).length = 32) ∧
        Fri.runOps env (Fri.Transcript.new env m) ops = some t ∧ t.generateChallenges env n = some ct ∧ ct.1 = L) ↔
      ∃ seed < 2 ^ 64, L = (List.range n).map (rand seed) := by
  constructor
  · rintro ⟨env, m, ops, t, ct, hr, -, -, h, rfl⟩
    rw [(Fri.generateChallenges_state h).2.2.2, hr]
    exact ⟨_, seed_lt _, rfl⟩
  · rintro ⟨seed, hs, rfl⟩
    refine ⟨{ env₀ with rand := rand, digest := fun _ => leBytes 32 seed }, 0, [],
      ⟨some (leBytes 32 seed), 1, false⟩,
      ((List.range n).map (rand (fromLeBytes ((leBytes 32 seed).take 8))), ⟨some (leBytes 32 seed), 1, true⟩),
      rfl, fun _ => by simp, rfl, ?_, ?_⟩
    · simp [Fri.Transcript.generateChallenges, Fri.Transcript.rngSeed]
    · rw [seed_of_leBytes hs]

/-- Non-vacuity: histories exist after which challenges are drawn. -/
example : ∃ t ct, Plonk.runOps Plonk.toyEnv Plonk.toyEnv.sha256 .default [.feed 3, .gen 2, .feed 5] = some t ∧
    t.generateChallenges Plonk.toyEnv 2 = some ct :=
  ⟨⟨some (Plonk.toyEnv.sha256 ((Plonk.toyEnv.sha256 [3]) ++ [5])), false⟩, _, rfl, rfl⟩

/-- Non-vacuity: seven queries in a domain of 1024 points. -/
example (rand : ℕ → ℕ → Goldilocks) (low64 : Goldilocks → ℕ) : ∃ L : List ℕ, L.length = 7 ∧ (∀ x ∈ L, x < 1024) ∧
      ∀ (env : Fri.Env Goldilocks) (t : Fri.Transcript) (ct : List ℕ × Fri.Transcript), env.rand = rand →
        env.low64 = low64 → Fri.runOps env (Fri.Transcript.new env 0) [.feed 1, .gen 1, .feed 2] = some t →
        t.generateChallengeListUsize env 7 = some ct → ct.1.map (fun v => v % 1024) ≠ L := by
  obtain ⟨L, h1, h2, h3⟩ := C83_fri_queries_missing rand low64 7 1024 (by norm_num)
  exact ⟨L, h1, h2, fun env t ct hr hl => h3 env 0 _ t ct hr hl⟩

end Verif

import Verif.Fri.OracleSoundness
import Mathlib.Data.Fintype.CardEmbedding
import Mathlib.Data.Set.Card.Arithmetic

/-!
# C122: the security level `fri/fri.md` derives for FRI

`fri/fri.md` lines 56-66: `λ` bits of security need a hash with `2λ` output bits, a field with `2^λ` elements and
`⌈λ / log₂ ρ⁻¹⌉` queries; the implementation is said to reach `λ = 64` because SHA256 has 256 output bits.  But
`hash` and `hash_slice` (`fri/src/hasher.rs` lines 14-36) reduce the digest to an element of the field.
-/

set_option linter.unusedSectionVars false
set_option linter.unusedVariables false

namespace Verif.Fri

open Verif.Ark

/-! ## Specification -/

/-- Two accepted Merkle proofs (`verify_merkle_proof`, `fri/src/merkle_tree.rs` lines 117-132) with the same root, the
same index and the same path, for two different leaves in `S`. -/
def TwoOpenings {F : Type} [DecidableEq F] (env : Env F) (S : Finset F) (index : ℕ) (path : List F) : Prop :=
  ∃ p q : MerkleProof F, p.index = index ∧ q.index = index ∧ p.hashProof = path ∧ q.hashProof = path ∧
    p.root = q.root ∧ p.leafVal ∈ S ∧ q.leafVal ∈ S ∧ p.leafVal ≠ q.leafVal ∧
    verifyMerkleProof env p = true ∧ verifyMerkleProof env q = true

/-! ## The field and the hash are too small -/

theorem card_goldilocks : Fintype.card Goldilocks = goldP := ZMod.card goldP

/-- **C122** is false of the code: the field has fewer than `2^64` elements, and among any `2^64` lists of children of a
Merkle node two have the same hash, whatever SHA-256 is. -/
theorem C122_field_and_hash_too_small :
    Fintype.card Goldilocks < 2 ^ 64 ∧ ∀ (env : Env Goldilocks) (children : Finset (List Goldilocks)),
      2 ^ 64 ≤ children.card → ∃ a ∈ children, ∃ b ∈ children, a ≠ b ∧ hashSlice env a = hashSlice env b := by
  have h : Fintype.card Goldilocks < 2 ^ 64 := by rw [card_goldilocks]; norm_num [goldP]
  refine ⟨h, fun env children hc => ?_⟩
  obtain ⟨a, ha, b, hb, hne, he⟩ := Finset.exists_ne_map_eq_of_card_lt_of_maps_to (s := children)
    (t := (Finset.univ : Finset Goldilocks)) (f := hashSlice env) (by rw [Finset.card_univ]; omega)
    (fun x _ => Finset.mem_coe.2 (Finset.mem_univ _))
  exact ⟨a, ha, b, hb, hne, he⟩

/-! ## The birthday bound -/

theorem pow_add_le (a b n : ℕ) : a ^ (n + 1) + (n + 1) * b * a ^ n ≤ (a + b) ^ (n + 1) := by
  induction n with
  | zero => simp
  | succ n ih =>
    calc a ^ (n + 1 + 1) + (n + 1 + 1) * b * a ^ (n + 1)
        ≤ (a ^ (n + 1) + (n + 1) * b * a ^ n) * (a + b) := by
          have : 0 ≤ (n + 1) * b * a ^ n * b := Nat.zero_le _
          calc _ = (a ^ (n + 1) + (n + 1) * b * a ^ n) * a + a ^ (n + 1) * b := by ring
            _ ≤ (a ^ (n + 1) + (n + 1) * b * a ^ n) * a + (a ^ (n + 1) + (n + 1) * b * a ^ n) * b := by
              gcongr; exact Nat.le_add_right _ _
            _ = _ := by ring
      _ ≤ (a + b) ^ (n + 1) * (a + b) := by gcongr
      _ = _ := by ring

theorem descFactorial_birthday (p m : ℕ) (hm : 0 < m) (h : p ≤ m * m) : 2 * p.descFactorial (2 * m) ≤ p ^ (2 * m) := by
  rcases Nat.lt_or_ge p (2 * m) with hlt | hge
  · rw [Nat.descFactorial_eq_zero_iff_lt.2 hlt]; simp
  obtain ⟨a, rfl⟩ : ∃ a, p = a + m := ⟨p - m, by omega⟩
  have e := Nat.descFactorial_mul_descFactorial (n := a + m) (k := m) (m := 2 * m) (by omega)
  rw [show a + m - m = a by omega, show 2 * m - m = m by omega] at e
  rw [← e]
  have h1 : (a + m).descFactorial m ≤ (a + m) ^ m := Nat.descFactorial_le_pow _ _
  have h2 : a.descFactorial m ≤ a ^ m := Nat.descFactorial_le_pow _ _
  have h3 : 2 * a ^ m ≤ (a + m) ^ m := by
    obtain ⟨n, rfl⟩ : ∃ n, m = n + 1 := ⟨m - 1, by omega⟩
    have := pow_add_le a (n + 1) n
    have h4 : a ^ (n + 1) ≤ (n + 1) * (n + 1) * a ^ n := by
      rw [pow_succ, mul_comm]
      exact Nat.mul_le_mul_right _ (by omega)
    omega
  calc 2 * (a.descFactorial m * (a + m).descFactorial m) ≤ 2 * (a ^ m * (a + m) ^ m) := by gcongr
    _ = (2 * a ^ m) * (a + m) ^ m := by ring
    _ ≤ (a + m) ^ m * (a + m) ^ m := by gcongr
    _ = _ := by ring

theorem card_injOn_le {F : Type} [Fintype F] [DecidableEq F] (m : ℕ) (hm : 0 < m) (h : Fintype.card F ≤ m * m)
    (S : Finset F) (hS : 2 * m ≤ S.card) :
    2 * {H : F → F | Set.InjOn H S}.ncard ≤ (Set.univ : Set (F → F)).ncard := by
  classical
  obtain ⟨T, hTS, hT⟩ := Finset.exists_subset_card_eq hS
  let ι : {H : F → F // Set.InjOn H S} → ((T : Set F) ↪ F) × ({x // x ∉ T} → F) := fun H =>
    (⟨fun x => H.1 x, fun x y hxy => Subtype.ext (H.2 (hTS x.2) (hTS y.2) hxy)⟩, fun x => H.1 x)
  have hι : Function.Injective ι := by
    intro H H' e
    apply Subtype.ext
    funext x
    by_cases hx : x ∈ T
    · have := DFunLike.congr_fun (congrArg Prod.fst e) (⟨x, hx⟩ : (T : Set F))
      exact this
    · exact congrFun (congrArg Prod.snd e) ⟨x, hx⟩
  have hc := Fintype.card_le_of_injective ι hι
  rw [Fintype.card_prod, Fintype.card_embedding_eq, Fintype.card_fun] at hc
  have e1 : Fintype.card (T : Set F) = 2 * m := by rw [← hT]; simp
  have e2 : Fintype.card {x // x ∉ T} = Fintype.card F - 2 * m := by
    rw [Fintype.card_subtype_compl]; simp [hT]
  rw [e1, e2] at hc
  have hle : 2 * m ≤ Fintype.card F := hT ▸ Finset.card_le_univ T
  rw [Set.ncard_univ, Nat.card_eq_fintype_card, Fintype.card_fun, ← Nat.card_coe_set_eq, Nat.card_eq_fintype_card]
  have hb := descFactorial_birthday (Fintype.card F) m hm h
  calc 2 * Fintype.card {H : F → F | Set.InjOn H S}
      ≤ 2 * ((Fintype.card F).descFactorial (2 * m) * Fintype.card F ^ (Fintype.card F - 2 * m)) := by
        refine Nat.mul_le_mul_left _ (le_trans (le_of_eq ?_) hc)
        exact Fintype.card_congr (Equiv.refl _)
    _ = (2 * (Fintype.card F).descFactorial (2 * m)) * Fintype.card F ^ (Fintype.card F - 2 * m) := by ring
    _ ≤ Fintype.card F ^ (2 * m) * Fintype.card F ^ (Fintype.card F - 2 * m) := by gcongr
    _ = _ := by rw [← pow_add]; congr 1; omega

theorem twoOpenings_of_collision {F : Type} [DecidableEq F] (env : Env F) (S : Finset F) (x y : F) (hx : x ∈ S)
    (hy : y ∈ S) (hne : x ≠ y) (h : hash env x = hash env y) (index : ℕ) (path : List F) :
    TwoOpenings env S index path :=
  ⟨⟨index, x, path, merkleLoop env path index (hash env x)⟩,
    ⟨index, y, path, merkleLoop env path index (hash env x)⟩, rfl, rfl, rfl, rfl, rfl, hx, hy, hne,
    by simp [verifyMerkleProof], by simp [verifyMerkleProof, h]⟩

/-- **C122** is false of the code: whatever `2^33` field elements are hashed, for at least half of all functions the leaf
hash may be, two of them open the same root at every index and path.  (`2^33` evaluations, not `2^64`.) -/
theorem C122_half_of_hashes_broken (S : Finset Goldilocks) (hS : 2 ^ 33 ≤ S.card) :
    ∃ Bad : Set (Goldilocks → Goldilocks), (Set.univ : Set (Goldilocks → Goldilocks)).ncard ≤ 2 * Bad.ncard ∧
      ∀ env : Env Goldilocks, hash env ∈ Bad → ∀ (index : ℕ) (path : List Goldilocks), TwoOpenings env S index path := by
  classical
  refine ⟨{H | ¬ Set.InjOn H S}, ?_, fun env hb index path => ?_⟩
  · have h := card_injOn_le (F := Goldilocks) (2 ^ 32) (by norm_num) (by rw [card_goldilocks]; norm_num [goldP]) S
      (by rw [show (2 : ℕ) * 2 ^ 32 = 2 ^ 33 by norm_num]; exact hS)
    have e := Set.ncard_add_ncard_compl {H : Goldilocks → Goldilocks | Set.InjOn H S} (Set.toFinite _) (Set.toFinite _)
    rw [Set.ncard_univ] at h ⊢
    have e' : ({H : Goldilocks → Goldilocks | Set.InjOn H S}ᶜ : Set _) = {H | ¬ Set.InjOn H S} := rfl
    rw [e'] at e
    omega
  · simp only [Set.mem_ofPred_eq, Set.InjOn] at hb
    push Not at hb
    obtain ⟨x, hx, y, hy, he, hne⟩ := hb
    exact twoOpenings_of_collision env S x y hx hy hne he index path

/-- **C122**, the part that holds: the share of the functions the leaf hash may be under which two elements of `S`
collide is at most `|S|²/p`, so with a random hash about `2^32` evaluations are needed. -/
theorem C122_hash_partial (S : Finset Goldilocks) :
    {H : Goldilocks → Goldilocks | ∃ x ∈ S, ∃ y ∈ S, x ≠ y ∧ H x = H y}.ncard * goldP ≤
      S.card ^ 2 * (Set.univ : Set (Goldilocks → Goldilocks)).ncard := by
  classical
  have one : ∀ x y : Goldilocks, x ≠ y → {H : Goldilocks → Goldilocks | H x = H y}.ncard * goldP ≤
      (Set.univ : Set (Goldilocks → Goldilocks)).ncard := by
    intro x y hne
    rw [← card_goldilocks, ← Nat.card_eq_fintype_card, ← Nat.card_coe_set_eq, ← Nat.card_prod, Set.ncard_univ]
    refine Nat.card_le_card_of_injective
      (fun q : {H : Goldilocks → Goldilocks | H x = H y} × Goldilocks => Function.update q.1.1 x q.2) ?_
    rintro ⟨⟨H, hH⟩, a⟩ ⟨⟨H', hH'⟩, a'⟩ e
    dsimp only at e
    simp only [Set.mem_ofPred_eq] at hH hH'
    have ev : ∀ z : Goldilocks, z ≠ x → H z = H' z := fun z hz => by
      have := congrFun e z
      rwa [Function.update_of_ne hz, Function.update_of_ne hz] at this
    have ea : a = a' := by
      have := congrFun e x
      rwa [Function.update_self, Function.update_self] at this
    have eH : H = H' := by
      funext z
      by_cases hz : z = x
      · rw [hz, hH, hH']; exact ev y (Ne.symm hne)
      · exact ev z hz
    subst eH; subst ea; rfl
  have hsub : {H : Goldilocks → Goldilocks | ∃ x ∈ S, ∃ y ∈ S, x ≠ y ∧ H x = H y} ⊆
      ⋃ q ∈ (S ×ˢ S).filter (fun q => q.1 ≠ q.2), {H : Goldilocks → Goldilocks | H q.1 = H q.2} := by
    rintro H ⟨x, hx, y, hy, hne, he⟩
    exact Set.mem_biUnion (x := (x, y)) (by simp [hx, hy, hne]) he
  have hle := Set.ncard_le_ncard hsub (Set.toFinite _)
  have hun := Finset.set_ncard_biUnion_le ((S ×ˢ S).filter (fun q => q.1 ≠ q.2))
    (fun q : Goldilocks × Goldilocks => {H : Goldilocks → Goldilocks | H q.1 = H q.2})
  calc _ ≤ (∑ q ∈ (S ×ˢ S).filter (fun q : Goldilocks × Goldilocks => q.1 ≠ q.2),
        {H : Goldilocks → Goldilocks | H q.1 = H q.2}.ncard) * goldP := Nat.mul_le_mul_right _ (hle.trans hun)
    _ = ∑ q ∈ (S ×ˢ S).filter (fun q : Goldilocks × Goldilocks => q.1 ≠ q.2),
        {H : Goldilocks → Goldilocks | H q.1 = H q.2}.ncard * goldP := Finset.sum_mul _ _ _
    _ ≤ ∑ q ∈ (S ×ˢ S).filter (fun q : Goldilocks × Goldilocks => q.1 ≠ q.2),
        (Set.univ : Set (Goldilocks → Goldilocks)).ncard :=
      Finset.sum_le_sum fun q hq => one q.1 q.2 (Finset.mem_filter.1 hq).2
    _ = ((S ×ˢ S).filter (fun q : Goldilocks × Goldilocks => q.1 ≠ q.2)).card *
        (Set.univ : Set (Goldilocks → Goldilocks)).ncard := by rw [Finset.sum_const, smul_eq_mul]
    _ ≤ _ := by
      refine Nat.mul_le_mul_right _ (le_trans (Finset.card_filter_le _ _) (le_of_eq ?_))
      rw [Finset.card_product, sq]

/-! ## The number of queries -/

/-- **C122** is false of the code: no number of queries gives any security.  Over a domain of size `2^k` some word that
differs from every polynomial with at most `N` coefficients at all but `N` positions is answered, for all challenges,
with decommitments that `verify_query` accepts at all positions. -/
theorem C122_no_query_soundness (env : Env Goldilocks) (k N : ℕ) (hk0 : 0 < k) (hk : k ≤ 32) (hN : N < 2 ^ k) :
    ∃ (word : List Goldilocks → ℕ → Goldilocks) (const : List Goldilocks → Goldilocks),
      Far k FftField.generator (rootOf Goldilocks k) (word []) N (2 ^ k - N - 1) ∧
      ∀ rs : List Goldilocks, rs.length = k → ∀ positions : List ℕ, (∀ pos ∈ positions, pos < 2 ^ k) →
        ∃ ds : List (Decommitment Goldilocks), ds.length = positions.length ∧
          ∀ (j pos : ℕ) (d : Decommitment Goldilocks), positions[j]? = some pos → ds[j]? = some d →
            d.Shape k ∧ Reads k ((List.range k).map fun i => word (rs.take i)) pos d ∧
            verifyQuery env pos d rs (2 ^ k) (const rs) FftField.generator = some (.ok ()) := by
  have hd := new?_pow (F := Goldilocks) k hk
  have hf := far_poly (F := Goldilocks) k FftField.generator FftField.generator_ne_zero hk
    (List.replicate N 0 ++ [1]) N (2 ^ k - N - 1) (by simp) (by simp [List.getD]) (by omega)
  obtain ⟨word, const, h1, h2⟩ := C76_every_word_accepted env k hk0 FftField.generator FftField.generator_ne_zero _ hd
    (fun pos => Ark.eval (List.replicate N 0 ++ [1] : DP Goldilocks) (FftField.generator * rootOf Goldilocks k ^ pos))
  refine ⟨word, const, ?_, fun rs hrs positions hp => ?_⟩
  · intro p hpl A hA hag
    refine hf p hpl A hA fun pos hpos => ?_
    rw [← hag pos hpos, h1 pos (Finset.mem_range.1 (hA hpos))]
  · have hall : ∀ pos : ℕ, ∃ d : Decommitment Goldilocks, pos < 2 ^ k → d.Shape k ∧
        Reads k ((List.range k).map fun i => word (rs.take i)) pos d ∧
        verifyQuery env pos d rs (2 ^ k) (const rs) FftField.generator = some (.ok ()) := by
      intro pos
      by_cases hlt : pos < 2 ^ k
      · obtain ⟨d, h⟩ := h2 rs hrs pos hlt
        exact ⟨d, fun _ => h⟩
      · exact ⟨⟨[], [], [], []⟩, fun h => absurd h hlt⟩
    choose dec hdec using hall
    refine ⟨positions.map dec, by simp, fun j pos d hj hjd => ?_⟩
    rw [List.getElem?_map, hj] at hjd
    obtain rfl := Option.some.inj hjd
    exact hdec pos (hp pos (List.mem_of_getElem? hj))

/-! ## The hypotheses can be met -/

/-- Every function is the leaf hash of some environment. -/
theorem exists_env_hash (H : Goldilocks → Goldilocks) : ∃ env : Env Goldilocks, hash env = H := by
  refine ⟨{ sha := fun s => List.replicate (H (s.length : Goldilocks)).val 0, fromBytes := fun b => (b.length : Goldilocks),
            toStr := fun x => List.replicate x.val 0, digest := id, rand := fun _ _ => 0, low64 := fun _ => 0 }, ?_⟩
  funext x
  simp [hash]

/-- So half of all functions are leaf hashes that `2^33` evaluations break: a set `S` of that size exists. -/
example : ∃ S : Finset Goldilocks, 2 ^ 33 ≤ S.card ∧ ∃ Bad : Set (Goldilocks → Goldilocks),
    (Set.univ : Set (Goldilocks → Goldilocks)).ncard ≤ 2 * Bad.ncard ∧
    ∀ H ∈ Bad, ∃ env : Env Goldilocks, hash env = H ∧ TwoOpenings env S 5 [1, 2, 3] := by
  have h : 2 ^ 33 ≤ (Finset.univ : Finset Goldilocks).card := by
    rw [Finset.card_univ, card_goldilocks]; norm_num [goldP]
  obtain ⟨Bad, h1, h2⟩ := C122_half_of_hashes_broken _ h
  refine ⟨_, h, Bad, h1, fun H hH => ?_⟩
  obtain ⟨env, he⟩ := exists_env_hash H
  exact ⟨env, he, h2 env (he ▸ hH) 5 [1, 2, 3]⟩

/-- `2^64` lists of children exist. -/
example : ∃ children : Finset (List Goldilocks), 2 ^ 64 ≤ children.card := by
  obtain ⟨t, ht⟩ := Infinite.exists_subset_card_eq (List Goldilocks) (2 ^ 64)
  exact ⟨t, ht.ge⟩

/-- A rate of one half over a domain of `2^10` points. -/
example (env : Env Goldilocks) : ∃ word : List Goldilocks → ℕ → Goldilocks,
    Far 10 FftField.generator (rootOf Goldilocks 10) (word []) 512 511 := by
  obtain ⟨word, -, h, -⟩ := C122_no_query_soundness env 10 512 (by norm_num) (by norm_num) (by norm_num)
  exact ⟨word, h⟩

end Verif.Fri

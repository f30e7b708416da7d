import Verif.Fri.Merkle
import Verif.Ark.Fields

/-!
# Properties C12–C15: Merkle trees of the `fri` crate

All statements hold for every hash function, every printing function and every digest-to-field map
(`env : Env F`).
-/

set_option linter.unusedSectionVars false

namespace Verif.Fri

open Verif.Ark

variable {F : Type} [FftField F] [DecidableEq F]

/-! ## Specification vocabulary -/

/-- The inputs on which `hash_slice` is called, level by level, when a path `hashProof` for position
`index` is recomputed starting from the node value `h`. -/
def hashedInputs {F : Type} (env : Env F) : List F → ℕ → F → List (List F)
  | [], _, _ => []
  | nb :: rest, index, h =>
    let input := if index % 2 = 0 then [h, nb] else [nb, h]
    input :: hashedInputs env rest (index / 2) (hashSlice env input)

/-- The inputs hashed while verifying a proof. -/
def MerkleProof.inputs {F : Type} (env : Env F) (p : MerkleProof F) : List (List F) :=
  hashedInputs env p.hashProof p.index (hash env p.leafVal)

/-- The two proofs exhibit a collision: the leaf hashes collide, or at some level two different node
pairs were hashed to the same value. -/
def ExhibitsCollision {F : Type} (env : Env F) (p q : MerkleProof F) : Prop :=
  (p.leafVal ≠ q.leafVal ∧ hash env p.leafVal = hash env q.leafVal) ∨
  ∃ (i : ℕ) (a b : List F), (p.inputs env)[i]? = some a ∧ (q.inputs env)[i]? = some b ∧ a ≠ b ∧
    hashSlice env a = hashSlice env b

/-- Node `i` on level `j` of the hash tree over `leaves`: a hashed leaf on level 0; above, the hash of the two
children in order, or of the only child (`none` outside the tree). -/
def node {F : Type} (env : Env F) (leaves : List F) : ℕ → ℕ → Option F
  | 0, i => leaves[i]?.map (hash env)
  | j + 1, i =>
    match node env leaves j (2 * i), node env leaves j (2 * i + 1) with
    | some a, some b => some (hashSlice env [a, b])
    | some a, none => some (hashSlice env [a])
    | none, _ => none

/-! ## C12 -/

theorem nextLevel_getElem? (env : Env F) (l : List F) (i : ℕ) :
    (nextLevel env l)[i]? = match l[2 * i]?, l[2 * i + 1]? with
      | some a, some b => some (hashSlice env [a, b])
      | some a, none => some (hashSlice env [a])
      | none, _ => none := by
  induction l using nextLevel.induct generalizing i with
  | case1 => simp [nextLevel]
  | case2 a => cases i <;> simp [nextLevel, Nat.mul_succ]
  | case3 a b t ih =>
    cases i with
    | zero => simp [nextLevel]
    | succ i => simp only [nextLevel, List.getElem?_cons_succ, Nat.mul_succ, ih]

theorem level_eq_node (env : Env F) (leaves : List F) (j i : ℕ) :
    ((nextLevel env)^[j] (leaves.map (hash env)))[i]? = node env leaves j i := by
  induction j generalizing i with
  | zero => simp [node]
  | succ j ih => rw [Function.iterate_succ_apply', nextLevel_getElem?, ih, ih]; rfl

/-- **C12** (root): the root of a tree over any number of leaves is the top node of the hash tree, on the
least level with one node. -/
theorem C12_root (env : Env F) (leaves : List F) (d : ℕ) (hd : leaves.length ≤ 2 ^ d)
    (hmin : ∀ e < d, 2 ^ e < leaves.length) :
    (MerkleTree.new env leaves).root? = node env leaves d 0 := by
  have hde : Nat.clog 2 leaves.length = d := by
    apply le_antisymm (Nat.clog_le_of_le_pow hd)
    by_contra hlt
    have := hmin _ (not_le.1 hlt)
    exact absurd (Nat.le_pow_clog (b := 2) (by norm_num) leaves.length) (by omega)
  rw [tree_root, tree_depth, hde, level_eq_node]

example (env : Env Goldilocks) (a b c : Goldilocks) : (MerkleTree.new env [a, b, c]).root? =
    some (hashSlice env [hashSlice env [hash env a, hash env b], hashSlice env [hash env c]]) := by
  rw [C12_root env [a, b, c] 2 (by simp) (by intro e he; interval_cases e <;> simp)]
  rfl

/-- **C12** (power of two): a tree over `2^k` leaves yields for every index a proof that verifies,
reveals that leaf, names that index and carries the tree's root; the path has `k` entries. -/
theorem C12_pow2 (env : Env F) (leaves : List F) (k : ℕ) (hk : leaves.length = 2 ^ k) (index : ℕ)
    (hi : index < 2 ^ k) :
    ∃ pf, (MerkleTree.new env leaves).generateProof index = some pf ∧
      verifyMerkleProof env pf = true ∧ leaves[index]? = some pf.leafVal ∧ pf.index = index ∧
      (MerkleTree.new env leaves).root? = some pf.root ∧ pf.hashProof.length = k := by
  obtain ⟨pf, hpf⟩ := generateProof_pow2 env leaves k hk index hi
  obtain ⟨h1, h2, h3, h4, h5⟩ := generateProof_verifies env leaves index (by omega) hpf
  rw [hk, Nat.clog_pow 2 k (by norm_num)] at h5
  exact ⟨pf, hpf, h1, h3, h2, h4.symm, h5⟩

/-- **C12** (any size): whatever the number of leaves, a proof returned for the index of a supplied
leaf verifies and reveals that leaf. -/
theorem C12_any (env : Env F) (leaves : List F) (index : ℕ) (hi : index < leaves.length)
    {pf : MerkleProof F} (h : (MerkleTree.new env leaves).generateProof index = some pf) :
    verifyMerkleProof env pf = true ∧ leaves[index]? = some pf.leafVal ∧ pf.index = index ∧
      (MerkleTree.new env leaves).root? = some pf.root := by
  obtain ⟨h1, h2, h3, h4, -⟩ := generateProof_verifies env leaves index hi h
  exact ⟨h1, h3, h2, h4.symm⟩

/-! ## C13 -/

/-- **C13** (real leaves): proof generation for a supplied leaf panics exactly if on some level below
the root the node on the path is a left node and the last one (`⌈n/2^j⌉` nodes on level `j`), i.e. has
no sibling. -/
theorem C13_panics_iff (env : Env F) (leaves : List F) (index : ℕ) (hi : index < leaves.length) :
    (MerkleTree.new env leaves).generateProof index = none ↔
      ∃ j < Nat.clog 2 leaves.length, (index / 2 ^ j) % 2 = 0 ∧
        index / 2 ^ j + 1 = (leaves.length + 2 ^ j - 1) / 2 ^ j := by
  have hne : leaves ≠ [] := by rintro rfl; simp at hi
  obtain ⟨root, hroot⟩ := root_isSome env leaves hne
  have hd := tree_depth env leaves
  have hnodes : (MerkleTree.new env leaves).internalNodes =
      buildLevels env (Nat.clog 2 leaves.length) (leaves.map (hash env)) := by
    rw [← hd]; rfl
  have hleaf : ∃ leaf, (MerkleTree.new env leaves).leaves[index]? = some leaf := by
    simp only [MerkleTree.new]
    exact ⟨_, List.getElem?_eq_getElem (by simp; omega)⟩
  obtain ⟨leaf, hleaf⟩ := hleaf
  have hgp := genPath_none_iff env (leaves.map (hash env)) (Nat.clog 2 leaves.length)
    (Nat.clog 2 leaves.length) 0 index (by omega) (by simpa using hi)
  simp only [Nat.zero_add, length_level, List.length_map] at hgp
  rw [← hgp]
  unfold MerkleTree.generateProof
  rw [hleaf, hroot, hnodes, hd]
  cases genPath (buildLevels env (Nat.clog 2 leaves.length) (leaves.map (hash env)))
    (Nat.clog 2 leaves.length) 0 index <;> simp

theorem merkleLoop_collision (env : Env F) (path path' : List F) (hl : path.length = path'.length)
    (idx : ℕ) (h h' : F) (hne : h ≠ h') (he : merkleLoop env path idx h = merkleLoop env path' idx h') :
    ∃ (i : ℕ) (a b : List F), (hashedInputs env path idx h)[i]? = some a ∧
      (hashedInputs env path' idx h')[i]? = some b ∧ a ≠ b ∧ hashSlice env a = hashSlice env b := by
  induction path generalizing path' idx h h' with
  | nil =>
    cases path' with
    | nil => exact absurd he hne
    | cons => simp at hl
  | cons x path ih =>
    cases path' with
    | nil => simp at hl
    | cons y path' =>
      rw [merkleLoop, merkleLoop] at he
      have hin : (if idx % 2 = 0 then [h, x] else [x, h]) ≠ (if idx % 2 = 0 then [h', y] else [y, h']) := by
        split <;> simp [hne]
      have hpull : ∀ a b : F, (if idx % 2 = 0 then hashSlice env [a, b] else hashSlice env [b, a]) =
          hashSlice env (if idx % 2 = 0 then [a, b] else [b, a]) := by
        intro a b; split <;> rfl
      rw [hpull, hpull] at he
      by_cases hc : hashSlice env (if idx % 2 = 0 then [h, x] else [x, h]) =
          hashSlice env (if idx % 2 = 0 then [h', y] else [y, h'])
      · exact ⟨0, _, _, rfl, rfl, hin, hc⟩
      · obtain ⟨i, a, b, h1, h2, h3, h4⟩ := ih path' (by simpa using hl) (idx / 2) _ _ hc he
        exact ⟨i + 1, a, b, by simpa [hashedInputs] using h1, by simpa [hashedInputs] using h2, h3, h4⟩

/-- **C13** (padding): for an index in the zero padding, `generate_proof` panics unless the index is
the number of supplied leaves `n` and `n` is odd; and a proof returned in that case, if it verifies,
exhibits a collision with the hash of the lone last node: the padded zero is never part of the tree. -/
theorem C13_padding (env : Env F) (leaves : List F) (hne : leaves ≠ []) (index : ℕ)
    (hi : leaves.length ≤ index) {pf : MerkleProof F}
    (h : (MerkleTree.new env leaves).generateProof index = some pf) :
    index = leaves.length ∧ leaves.length % 2 = 1 ∧ pf.leafVal = 0 ∧
    (verifyMerkleProof env pf = true →
      ∃ (last : F) (a b : List F), leaves.getLast? = some last ∧
        a ≠ b ∧ hashSlice env a = hashSlice env b ∧ a ∈ pf.inputs env ∧
        (b = [hash env last] ∨ b ∈ hashedInputs env pf.hashProof.tail (index / 2)
          (hashSlice env [hash env last]))) := by
  have h0 : 0 < leaves.length := List.length_pos_iff.2 hne
  have hd := tree_depth env leaves
  have hnodes : (MerkleTree.new env leaves).internalNodes =
      buildLevels env (Nat.clog 2 leaves.length) (leaves.map (hash env)) := by
    rw [← hd]; rfl
  unfold MerkleTree.generateProof at h
  simp only [Option.bind_eq_bind, Option.bind_eq_some_iff] at h
  obtain ⟨leaf, hleaf, path, hpath, root, hroot, h⟩ := h
  simp only [pure, Option.some.injEq] at h
  subst h
  have hidx : index < nextPow2 leaves.length := by
    have := (List.getElem?_eq_some_iff.1 hleaf).1
    have h2 := le_nextPow2 leaves.length
    simp only [MerkleTree.new, List.length_append, List.length_replicate] at this
    omega
  have hleaf0 : leaf = 0 := by
    simp only [MerkleTree.new] at hleaf
    rw [List.getElem?_append_right hi, List.getElem?_replicate] at hleaf
    split at hleaf
    · exact (Option.some.inj hleaf).symm
    · cases hleaf
  rw [hnodes, hd] at hpath
  cases hk : Nat.clog 2 leaves.length with
  | zero => rw [nextPow2, hk] at hidx; simp at hidx; omega
  | succ k =>
    rw [hk] at hpath
    rw [genPath, buildLevels_getElem? env _ 0 _ (by omega)] at hpath
    simp only [Option.bind_eq_bind, Option.bind_some, Function.iterate_zero, id_eq,
      Option.bind_eq_some_iff] at hpath
    obtain ⟨nb, hnb, rest, hrest, hp⟩ := hpath
    simp only [pure, Option.some.injEq] at hp
    subst hp
    unfold neighbour? at hnb
    by_cases hev : index % 2 = 0
    · rw [if_pos hev, List.getElem?_eq_none (by simp; omega)] at hnb; cases hnb
    rw [if_neg hev] at hnb
    have hlt := (List.getElem?_eq_some_iff.1 hnb).1
    rw [List.length_map] at hlt
    have hidx' : index = leaves.length := by omega
    refine ⟨hidx', by omega, hleaf0, ?_⟩
    intro hver
    simp only [verifyMerkleProof, decide_eq_true_eq, merkleLoop, if_neg hev] at hver
    obtain ⟨last, hlast⟩ : ∃ last, leaves.getLast? = some last := by
      rw [← Option.isSome_iff_exists, List.getLast?_isSome]; exact hne
    have hnb' : nb = hash env last := by
      rw [List.getElem?_map, hidx', ← List.getLast?_eq_getElem?, hlast] at hnb
      simpa using hnb.symm
    have hmid : ((nextLevel env)^[1] (leaves.map (hash env)))[index / 2]? =
        some (hashSlice env [hash env last]) := by
      rw [Function.iterate_one]
      refine nextLevel_single env _ _ ?_ ?_
      · rw [show 2 * (index / 2) = leaves.length - 1 by omega, List.getElem?_map,
          ← List.getLast?_eq_getElem?, hlast]; rfl
      · simp; omega
    have htop := genPath_sound env (leaves.map (hash env)) (k + 1) k 1 (index / 2) (by omega) hrest hmid
    rw [tree_root, hd, hk] at hroot
    rw [Nat.add_comm 1 k, Nat.div_div_eq_div_mul, ← pow_succ',
      Nat.div_eq_of_lt (by rw [nextPow2, hk] at hidx; exact hidx), hroot] at htop
    have heq : merkleLoop env rest (index / 2) (hashSlice env [nb, hash env leaf]) =
        merkleLoop env rest (index / 2) (hashSlice env [hash env last]) := by
      rw [hver]; exact Option.some.inj htop
    by_cases hc : hashSlice env [nb, hash env leaf] = hashSlice env [hash env last]
    · refine ⟨last, [nb, hash env leaf], [hash env last], hlast, by simp, hc, ?_, Or.inl rfl⟩
      simp [MerkleProof.inputs, hashedInputs, hev]
    · obtain ⟨i, a, b, h1, h2, h3, h4⟩ := merkleLoop_collision env rest rest rfl _ _ _ hc heq
      refine ⟨last, a, b, hlast, h3, h4, ?_, Or.inr (List.mem_of_getElem? h2)⟩
      have := List.mem_of_getElem? h1
      simp [MerkleProof.inputs, hashedInputs, hev, this]

/-! ## C14 -/

/-- **C14**: two accepted proofs for the same root, index and path length with different leaf values
exhibit an explicit collision among the hash inputs computed while verifying them. -/
theorem C14_binding (env : Env F) (p q : MerkleProof F) (hp : verifyMerkleProof env p = true)
    (hq : verifyMerkleProof env q = true) (hroot : p.root = q.root) (hidx : p.index = q.index)
    (hlen : p.hashProof.length = q.hashProof.length) (hleaf : p.leafVal ≠ q.leafVal) :
    ExhibitsCollision env p q := by
  simp only [verifyMerkleProof, decide_eq_true_eq] at hp hq
  by_cases hh : hash env p.leafVal = hash env q.leafVal
  · exact Or.inl ⟨hleaf, hh⟩
  · right
    have he : merkleLoop env p.hashProof p.index (hash env p.leafVal) =
        merkleLoop env q.hashProof p.index (hash env q.leafVal) := by rw [hp, hroot, hidx, hq]
    have := merkleLoop_collision env p.hashProof q.hashProof hlen p.index _ _ hh he
    unfold MerkleProof.inputs
    rw [← hidx]; exact this

/-- **C14** (against an honest tree): an accepted proof with the root of an honest tree over `2^k`
leaves, an index of that tree and a path of length `k` reveals the tree's leaf, or exhibits a collision
with the honest proof for that index. -/
theorem C14_honest_tree (env : Env F) (leaves : List F) (k : ℕ) (hk : leaves.length = 2 ^ k)
    (p : MerkleProof F) (hp : verifyMerkleProof env p = true)
    (hroot : (MerkleTree.new env leaves).root? = some p.root) (hidx : p.index < 2 ^ k)
    (hlen : p.hashProof.length = k) :
    leaves[p.index]? = some p.leafVal ∨
      ∃ q, (MerkleTree.new env leaves).generateProof p.index = some q ∧ ExhibitsCollision env p q := by
  obtain ⟨q, h1, h2, h3, h4, h5, h6⟩ := C12_pow2 env leaves k hk p.index hidx
  by_cases hl : p.leafVal = q.leafVal
  · left; rw [hl]; exact h3
  · right
    refine ⟨q, h1, C14_binding env p q hp h2 ?_ h4.symm (by rw [hlen, h6]) hl⟩
    rw [hroot] at h5; exact Option.some.inj h5

/-! ## C15 -/

/-- An environment over Goldilocks printing field elements the way ark-ff does. -/
def goldEnv (sha : List UInt8 → List UInt8) (fromBytes : List UInt8 → Goldilocks)
    (digest : List UInt8 → List UInt8) (rand : ℕ → ℕ → Goldilocks) : Env Goldilocks where
  sha := sha
  fromBytes := fromBytes
  toStr := fun x => decimalTrim x.val
  digest := digest
  rand := rand
  low64 := fun x => x.val

/-- **C15** is false of the code: whatever the hash function, the different child pairs `(1, 23)` and
`(12, 3)` hash to the same node, because the decimal strings are concatenated without separator. -/
theorem C15_hash_slice_ambiguous (sha : List UInt8 → List UInt8)
    (fromBytes : List UInt8 → Goldilocks) (digest : List UInt8 → List UInt8)
    (rand : ℕ → ℕ → Goldilocks) :
    ([1, 23] : List Goldilocks) ≠ [12, 3] ∧
    hashSlice (goldEnv sha fromBytes digest rand) [1, 23] =
      hashSlice (goldEnv sha fromBytes digest rand) [12, 3] := by
  have v1 : (1 : Goldilocks).val = 1 := by decide +kernel
  have v2 : (23 : Goldilocks).val = 23 := by decide +kernel
  have v3 : (12 : Goldilocks).val = 12 := by decide +kernel
  have v4 : (3 : Goldilocks).val = 3 := by decide +kernel
  constructor
  · intro h
    have := congrArg (fun l => l.map ZMod.val) h
    simp [v1, v2, v3, v4] at this
  · unfold hashSlice goldEnv
    simp [v1, v2, v3, v4, decimalTrim]

/-- **C15** (what does hold): two different pairs whose first components print with the same number
of characters are distinguished up to a collision of the hash (SHA-256 followed by the reduction into
the field) on two different explicit byte strings, for any injective printing. -/
theorem C15_hash_slice_partial (env : Env F) (hinj : Function.Injective env.toStr) (a b c d : F)
    (hne : (a, b) ≠ (c, d)) (hlen : (env.toStr a).length = (env.toStr c).length)
    (h : hashSlice env [a, b] = hashSlice env [c, d]) :
    env.toStr a ++ env.toStr b ≠ env.toStr c ++ env.toStr d ∧
    env.fromBytes (env.sha (env.toStr a ++ env.toStr b)) =
      env.fromBytes (env.sha (env.toStr c ++ env.toStr d)) := by
  refine ⟨?_, by simpa [hashSlice] using h⟩
  intro he
  obtain ⟨h1, h2⟩ := List.append_inj he hlen
  exact hne (by rw [hinj h1, hinj h2])

/-- **C15** (single elements): leaf hashing does separate different leaves up to a collision. -/
theorem C15_leaf_hash (env : Env F) (hinj : Function.Injective env.toStr) (a b : F) (hne : a ≠ b)
    (h : hash env a = hash env b) :
    env.toStr a ≠ env.toStr b ∧
      env.fromBytes (env.sha (env.toStr a)) = env.fromBytes (env.sha (env.toStr b)) :=
  ⟨fun he => hne (hinj he), h⟩

/-! ## Non-vacuity -/

/-- The hypotheses of `C13_padding` are met: three leaves, index 3. -/
example (env : Env F) (a b c : F) :
    ∃ pf, (MerkleTree.new env [a, b, c]).generateProof 2 = none ∧
      (MerkleTree.new env [a, b, c]).generateProof 3 = some pf ∧ pf.leafVal = 0 := by
  have hd : (MerkleTree.new env [a, b, c]).depth = 2 := by
    rw [tree_depth]; show Nat.clog 2 3 = 2; decide
  have h : (MerkleTree.new env [a, b, c]).internalNodes = [[hash env a, hash env b, hash env c],
      [hashSlice env [hash env a, hash env b], hashSlice env [hash env c]],
      [hashSlice env [hashSlice env [hash env a, hash env b], hashSlice env [hash env c]]]] := by
    have : (MerkleTree.new env [a, b, c]).internalNodes =
      buildLevels env (MerkleTree.new env [a, b, c]).depth ([a, b, c].map (hash env)) := rfl
    rw [this, hd]; rfl
  have hl : (MerkleTree.new env [a, b, c]).leaves = [a, b, c, 0] := by
    have : nextPow2 3 = 4 := by decide
    simp [MerkleTree.new, this]
  refine ⟨⟨3, 0, [hash env c, hashSlice env [hash env a, hash env b]],
    hashSlice env [hashSlice env [hash env a, hash env b], hashSlice env [hash env c]]⟩, ?_, ?_, rfl⟩
  · unfold MerkleTree.generateProof
    rw [h, hd, hl]; simp [genPath, neighbour?]
  · unfold MerkleTree.generateProof MerkleTree.root?
    rw [h, hd, hl]; simp [genPath, neighbour?]

end Verif.Fri

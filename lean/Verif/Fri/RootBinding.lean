import Verif.Fri.MerkleProps
import Mathlib.Data.Fintype.Card

/-!
# Property C94: a Merkle root binds the whole list of leaves

All statements hold for every hash function, every printing function and every digest-to-field map.
-/

set_option linter.unusedSectionVars false

namespace Verif.Fri

open Verif.Ark

variable {F : Type} [FftField F] [DecidableEq F]

/-! ## Specification vocabulary -/

/-- The children of node `i` on level `j + 1` of the hash tree: two nodes, or one at the right edge. -/
def children {F : Type} (env : Env F) (leaves : List F) (j i : ℕ) : List F :=
  (node env leaves j (2 * i)).toList ++ (node env leaves j (2 * i + 1)).toList

/-- The two trees exhibit a collision: leaves of the two lists at the same position differ and have the same
hash, or the children of two nodes at the same place differ and are hashed to the same value. -/
def TreesCollide {F : Type} (env : Env F) (leaves leaves' : List F) : Prop :=
  (∃ (i : ℕ) (a b : F), leaves[i]? = some a ∧ leaves'[i]? = some b ∧ a ≠ b ∧ hash env a = hash env b) ∨
  ∃ j i : ℕ, children env leaves j i ≠ [] ∧ children env leaves' j i ≠ [] ∧
    children env leaves j i ≠ children env leaves' j i ∧
    hashSlice env (children env leaves j i) = hashSlice env (children env leaves' j i)

/-! ## Proofs -/

/-- A node is in the tree iff the leftmost leaf below it is. -/
theorem node_isSome_iff (env : Env F) (leaves : List F) (j i : ℕ) :
    (node env leaves j i).isSome ↔ 2 ^ j * i < leaves.length := by
  induction j generalizing i with
  | zero => simp [node]
  | succ j ih =>
    have h := ih (2 * i)
    have : 2 ^ (j + 1) * i = 2 ^ j * (2 * i) := by ring
    rw [this, ← h, node]
    cases node env leaves j (2 * i) <;> cases node env leaves j (2 * i + 1) <;> simp

theorem node_children (env : Env F) (leaves : List F) (j i : ℕ) :
    node env leaves (j + 1) i =
      if children env leaves j i = [] then none else some (hashSlice env (children env leaves j i)) := by
  have h1 := node_isSome_iff env leaves j (2 * i)
  have h2 := node_isSome_iff env leaves j (2 * i + 1)
  unfold children
  rw [node]
  cases ha : node env leaves j (2 * i) <;> cases hb : node env leaves j (2 * i + 1)
  · simp
  · rw [ha] at h1; rw [hb] at h2
    have h3 : 2 ^ j * (2 * i + 1) < leaves.length := h2.1 rfl
    have h4 : ¬ 2 ^ j * (2 * i) < leaves.length := fun h => by simpa using h1.2 h
    exact absurd (lt_of_le_of_lt (Nat.mul_le_mul_left _ (Nat.le_succ _)) h3) h4
  · simp
  · simp

/-- Equal nodes have equal subtrees, or a collision is exhibited below them. -/
theorem subtree_binding (env : Env F) (leaves leaves' : List F) (j i : ℕ)
    (h : node env leaves j i = node env leaves' j i) (hc : ¬ TreesCollide env leaves leaves') :
    ∀ m, 2 ^ j * i ≤ m → m < 2 ^ j * (i + 1) → leaves[m]? = leaves'[m]? := by
  induction j generalizing i with
  | zero =>
    intro m h1 h2
    obtain rfl : m = i := by omega
    simp only [node] at h
    cases ha : leaves[m]? with
    | none => cases hb : leaves'[m]? with
      | none => rfl
      | some b => rw [ha, hb] at h; simp at h
    | some a => cases hb : leaves'[m]? with
      | none => rw [ha, hb] at h; simp at h
      | some b =>
        rw [ha, hb] at h
        by_contra hne
        exact hc (Or.inl ⟨m, a, b, ha, hb, fun e => hne (by rw [e]), by simpa using h⟩)
  | succ j ih =>
    have hch : children env leaves j i = children env leaves' j i := by
      rw [node_children, node_children] at h
      by_contra hne
      by_cases h1 : children env leaves j i = []
      · by_cases h2 : children env leaves' j i = []
        · exact hne (by rw [h1, h2])
        · rw [if_pos h1, if_neg h2] at h; exact absurd h (by simp)
      · by_cases h2 : children env leaves' j i = []
        · rw [if_neg h1, if_pos h2] at h; exact absurd h (by simp)
        · rw [if_neg h1, if_neg h2] at h
          exact hc (Or.inr ⟨j, i, h1, h2, hne, Option.some.inj h⟩)
    have hsplit : node env leaves j (2 * i) = node env leaves' j (2 * i) ∧
        node env leaves j (2 * i + 1) = node env leaves' j (2 * i + 1) := by
      have mono : ∀ l : List F, node env l j (2 * i) = none → node env l j (2 * i + 1) = none := by
        intro l hl
        have e1 := node_isSome_iff env l j (2 * i)
        have e2 := node_isSome_iff env l j (2 * i + 1)
        rw [hl] at e1
        rw [← Option.not_isSome_iff_eq_none, e2]
        intro hlt
        have := e1.2 (lt_of_le_of_lt (Nat.mul_le_mul_left _ (Nat.le_succ _)) hlt)
        simp at this
      have m1 := mono leaves
      have m2 := mono leaves'
      unfold children at hch
      cases ha : node env leaves j (2 * i) <;> cases hb : node env leaves j (2 * i + 1) <;>
        cases ha' : node env leaves' j (2 * i) <;> cases hb' : node env leaves' j (2 * i + 1) <;>
        simp_all
    intro m h1 h2
    have e1 : 2 ^ (j + 1) * i = 2 ^ j * (2 * i) := by ring
    have e2 : 2 ^ (j + 1) * (i + 1) = 2 ^ j * (2 * i + 1 + 1) := by ring
    rw [e1] at h1
    rw [e2] at h2
    rcases lt_or_ge m (2 ^ j * (2 * i + 1)) with hm | hm
    · exact ih (2 * i) hsplit.1 m h1 hm
    · exact ih (2 * i + 1) hsplit.2 m hm h2

/-- **C94**: two lists of leaves whose trees have the same depth (in particular two lists of the same
length) and the same root are equal, or the two trees exhibit a collision. -/
theorem C94_root_binds_leaves (env : Env F) (leaves leaves' : List F)
    (hd : (MerkleTree.new env leaves).depth = (MerkleTree.new env leaves').depth)
    (hr : (MerkleTree.new env leaves).root? = (MerkleTree.new env leaves').root?) :
    leaves = leaves' ∨ TreesCollide env leaves leaves' := by
  by_cases hc : TreesCollide env leaves leaves'
  · exact Or.inr hc
  · left
    rw [tree_root, tree_root, ← hd, level_eq_node, level_eq_node, tree_depth] at hr
    have hd' := hd
    rw [tree_depth, tree_depth] at hd'
    apply List.ext_getElem?
    intro m
    rcases lt_or_ge m (2 ^ Nat.clog 2 leaves.length) with hm | hm
    · exact subtree_binding env leaves leaves' _ 0 hr hc m (by simp) (by simpa using hm)
    · have l1 := Nat.le_pow_clog (b := 2) (by norm_num) leaves.length
      have l2 := Nat.le_pow_clog (b := 2) (by norm_num) leaves'.length
      rw [← hd'] at l2
      rw [List.getElem?_eq_none (by omega), List.getElem?_eq_none (by omega)]

/-- **C94** (same length). -/
theorem C94_same_length (env : Env F) (leaves leaves' : List F) (hl : leaves.length = leaves'.length)
    (hr : (MerkleTree.new env leaves).root? = (MerkleTree.new env leaves').root?) :
    leaves = leaves' ∨ TreesCollide env leaves leaves' :=
  C94_root_binds_leaves env leaves leaves' (by rw [tree_depth, tree_depth, hl]) hr

/-- The bytes hashed by `hash` on a leaf are those hashed by `hash_slice` on a list of nodes printing the same:
trees of different depths are not separated. If a leaf prints like two hashed leaves one after the other, the
one-leaf tree and the two-leaf tree have the same root. -/
theorem C94_depth_not_bound (env : Env F) (x y z : F)
    (h : env.toStr x = env.toStr (hash env y) ++ env.toStr (hash env z)) :
    (MerkleTree.new env [x]).root? = (MerkleTree.new env [y, z]).root? := by
  rw [C12_root env [x] 0 (by simp) (by omega),
    C12_root env [y, z] 1 (by simp) (by intro e he; interval_cases e; simp)]
  simp [node, hash, hashSlice, h]

/-- Node values are single field elements, so the root cannot bind more than the size of the field: among
any more lists of leaves than the field has elements, two have the same root. With the 64-bit field of the
examples this bounds the security of the commitment at the birthday bound of `2^32` hashes whatever the
hash function. -/
theorem C94_pigeonhole [Fintype F] (env : Env F) (S : Finset (List F)) (hne : ∀ l ∈ S, l ≠ [])
    (hS : Fintype.card F < S.card) :
    ∃ l ∈ S, ∃ l' ∈ S, l ≠ l' ∧ (MerkleTree.new env l).root? = (MerkleTree.new env l').root? := by
  have := Finset.exists_ne_map_eq_of_card_lt_of_maps_to (s := S) (t := (Finset.univ : Finset F))
    (f := fun l => ((MerkleTree.new env l).root?).getD 0) (by simpa using hS) (fun _ _ => by simp)
  obtain ⟨l, hl, l', hl', hne', he⟩ := this
  refine ⟨l, hl, l', hl', hne', ?_⟩
  obtain ⟨r, hr⟩ := root_isSome env l (hne l hl)
  obtain ⟨r', hr'⟩ := root_isSome env l' (hne l' hl')
  simp only [hr, hr', Option.getD_some] at he
  rw [hr, hr', he]

/-- In particular, whatever the hash function, two different pairs of leaves have the same root. -/
theorem C94_collision_exists [Fintype F] (env : Env F) :
    ∃ a b c d : F, [a, b] ≠ [c, d] ∧
      (MerkleTree.new env [a, b]).root? = (MerkleTree.new env [c, d]).root? := by
  obtain ⟨l, hl, l', hl', hne, he⟩ := C94_pigeonhole env
    (Finset.univ.image fun p : F × F => [p.1, p.2]) (by intro l hl; simp at hl; obtain ⟨a, b, rfl⟩ := hl; simp)
    (by
      rw [Finset.card_image_of_injective _ (by rintro ⟨a, b⟩ ⟨c, d⟩ h; simpa using h), Finset.card_univ,
        Fintype.card_prod]
      have : 1 < Fintype.card F := Fintype.one_lt_card
      nlinarith)
  simp only [Finset.mem_image, Finset.mem_univ, true_and, Prod.exists] at hl hl'
  obtain ⟨a, b, rfl⟩ := hl
  obtain ⟨c, d, rfl⟩ := hl'
  exact ⟨a, b, c, d, hne, he⟩

/-! ## Non-vacuity -/

/-- The hypotheses of `C94_same_length` are met by different lists with the same root as soon as two leaves
collide, and then the right alternative holds. -/
example (env : Env F) (a b : F) (hab : a ≠ b) (h : hash env a = hash env b) (c : F) :
    (MerkleTree.new env [c, a, c]).root? = (MerkleTree.new env [c, b, c]).root? ∧
      TreesCollide env [c, a, c] [c, b, c] := by
  have e : (MerkleTree.new env [c, a, c]).root? = (MerkleTree.new env [c, b, c]).root? := by
    rw [C12_root env [c, a, c] 2 (by simp) (by intro e he; interval_cases e <;> simp),
      C12_root env [c, b, c] 2 (by simp) (by intro e he; interval_cases e <;> simp)]
    simp [node, h]
  refine ⟨e, (C94_same_length env [c, a, c] [c, b, c] rfl e).resolve_left ?_⟩
  simpa using hab

/-- Four leaves against four leaves differing only at the end: no collision means different roots. -/
example (env : Env F) (a b c d d' : F) (hd : d ≠ d') (hc : ¬ TreesCollide env [a, b, c, d] [a, b, c, d']) :
    (MerkleTree.new env [a, b, c, d]).root? ≠ (MerkleTree.new env [a, b, c, d']).root? := by
  intro h
  rcases C94_same_length env [a, b, c, d] [a, b, c, d'] rfl h with e | e
  · simp [hd] at e
  · exact hc e

/-- The hypothesis of `C94_depth_not_bound` is met over Goldilocks, with a hash that sends everything to 7. -/
example : (MerkleTree.new (goldEnv id (fun _ => 7) id (fun _ _ => 0)) [77]).root? =
    (MerkleTree.new (goldEnv id (fun _ => 7) id (fun _ _ => 0)) [1, 2]).root? := by
  refine C94_depth_not_bound _ _ _ _ ?_
  have v1 : (77 : Goldilocks).val = 77 := by decide +kernel
  have v2 : (7 : Goldilocks).val = 7 := by decide +kernel
  simp only [goldEnv, hash, v1, v2]
  decide +kernel

end Verif.Fri

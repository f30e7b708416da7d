import Verif.Fri.Model
import Mathlib.Logic.Function.Iterate

/-! # Lemmas about the Merkle tree of the `fri` crate -/

set_option linter.unusedSectionVars false

namespace Verif.Fri

open Verif.Ark

variable {F : Type} [FftField F] [DecidableEq F]

theorem length_nextLevel (env : Env F) (l : List F) : (nextLevel env l).length = (l.length + 1) / 2 := by
  induction l using nextLevel.induct with
  | case1 => simp [nextLevel]
  | case2 a => simp [nextLevel]
  | case3 a b t ih => simp [nextLevel, ih]; omega

/-- Two siblings hash to their parent. -/
theorem nextLevel_pair (env : Env F) (l : List F) (i : ℕ) {a b : F} (ha : l[2 * i]? = some a)
    (hb : l[2 * i + 1]? = some b) : (nextLevel env l)[i]? = some (hashSlice env [a, b]) := by
  induction l using nextLevel.induct generalizing i with
  | case1 => simp at ha
  | case2 x =>
    cases i with
    | zero => simp at hb
    | succ i => simp at ha
  | case3 x y t ih =>
    cases i with
    | zero => simp at ha hb; subst ha hb; simp [nextLevel]
    | succ i =>
      rw [nextLevel, List.getElem?_cons_succ]
      refine ih i ?_ ?_
      · rw [show 2 * (i + 1) = 2 * i + 1 + 1 by ring] at ha; simpa using ha
      · rw [show 2 * (i + 1) + 1 = 2 * i + 1 + 1 + 1 by ring] at hb; simpa using hb

/-- An unpaired last node is hashed alone. -/
theorem nextLevel_single (env : Env F) (l : List F) (i : ℕ) {a : F} (ha : l[2 * i]? = some a)
    (hb : l.length = 2 * i + 1) : (nextLevel env l)[i]? = some (hashSlice env [a]) := by
  induction l using nextLevel.induct generalizing i with
  | case1 => simp at ha
  | case2 x =>
    cases i with
    | zero => simp at ha; subst ha; simp [nextLevel]
    | succ i => simp at ha
  | case3 x y t ih =>
    cases i with
    | zero => simp at hb
    | succ i =>
      rw [nextLevel, List.getElem?_cons_succ]
      refine ih i ?_ ?_
      · rw [show 2 * (i + 1) = 2 * i + 1 + 1 by ring] at ha; simpa using ha
      · simp at hb; omega

theorem buildLevels_getElem? (env : Env F) (d i : ℕ) (l : List F) (h : i ≤ d) :
    (buildLevels env d l)[i]? = some ((nextLevel env)^[i] l) := by
  induction d generalizing i l with
  | zero => obtain rfl : i = 0 := by omega
            simp [buildLevels]
  | succ d ih =>
    cases i with
    | zero => simp [buildLevels]
    | succ i =>
      rw [buildLevels, List.getElem?_cons_succ, ih i _ (by omega)]; rfl

theorem length_buildLevels (env : Env F) (d : ℕ) (l : List F) : (buildLevels env d l).length = d + 1 := by
  induction d generalizing l with
  | zero => rfl
  | succ d ih => simp [buildLevels, ih]

theorem buildLevels_getLast? (env : Env F) (d : ℕ) (l : List F) :
    (buildLevels env d l).getLast? = some ((nextLevel env)^[d] l) := by
  rw [List.getLast?_eq_getElem?, length_buildLevels, Nat.add_sub_cancel, buildLevels_getElem? _ _ _ _ le_rfl]

/-- Number of nodes on level `i` of a tree over `n` leaves: `⌈n / 2^i⌉`. -/
theorem length_level (env : Env F) (i : ℕ) (l : List F) :
    ((nextLevel env)^[i] l).length = (l.length + 2 ^ i - 1) / 2 ^ i := by
  induction i with
  | zero => simp
  | succ i ih =>
    rw [Function.iterate_succ_apply', length_nextLevel, ih]
    have hp : 0 < 2 ^ i := by positivity
    have : (l.length + 2 ^ i - 1) / 2 ^ i + 1 = (l.length + 2 ^ i - 1 + 2 ^ i) / 2 ^ i :=
      (Nat.add_div_right _ hp).symm
    rw [this, Nat.div_div_eq_div_mul, pow_succ]
    congr 1; omega

theorem tree_root (env : Env F) (evals : List F) :
    (MerkleTree.new env evals).root? =
      ((nextLevel env)^[(MerkleTree.new env evals).depth] (evals.map (hash env)))[0]? := by
  unfold MerkleTree.root?
  simp only [MerkleTree.new, buildLevels_getLast?]
  simp [List.head?_eq_getElem?]

theorem tree_depth (env : Env F) (evals : List F) :
    (MerkleTree.new env evals).depth = Nat.clog 2 evals.length := by
  simp only [MerkleTree.new, nextPow2]
  exact Nat.log_pow (by norm_num) _

/-- A generated path leads from a node to its ancestor. -/
theorem genPath_sound (env : Env F) (L : List F) (D : ℕ) (k i cur : ℕ) (hki : i + k ≤ D) {path : List F}
    (hp : genPath (buildLevels env D L) k i cur = some path) {h : F}
    (hh : ((nextLevel env)^[i] L)[cur]? = some h) :
    ((nextLevel env)^[i + k] L)[cur / 2 ^ k]? = some (merkleLoop env path cur h) := by
  induction k generalizing i cur path h with
  | zero => simp only [genPath, Option.some.injEq] at hp; subst hp; simpa [merkleLoop] using hh
  | succ k ih =>
    rw [genPath, buildLevels_getElem? env D i L (by omega)] at hp
    simp only [Option.bind_eq_bind, Option.bind_some] at hp
    rw [Option.bind_eq_some_iff] at hp
    obtain ⟨nb, hnb, hp⟩ := hp
    rw [Option.bind_eq_some_iff] at hp
    obtain ⟨rest, hrest, hp⟩ := hp
    simp only [pure, Option.some.injEq] at hp
    subst hp
    rw [merkleLoop]
    unfold neighbour? at hnb
    have key : ((nextLevel env)^[i + 1] L)[cur / 2]? =
        some (if cur % 2 = 0 then hashSlice env [h, nb] else hashSlice env [nb, h]) := by
      rw [Function.iterate_succ_apply']
      by_cases hev : cur % 2 = 0
      · rw [if_pos hev] at hnb ⊢
        have h2 : 2 * (cur / 2) = cur := by omega
        exact nextLevel_pair env _ _ (by rw [h2]; exact hh) (by rw [h2]; exact hnb)
      · rw [if_neg hev] at hnb ⊢
        have h2 : 2 * (cur / 2) = cur - 1 := by omega
        have h3 : 2 * (cur / 2) + 1 = cur := by omega
        exact nextLevel_pair env _ _ (by rw [h2]; exact hnb) (by rw [h3]; exact hh)
    have := ih (i + 1) (cur / 2) (by omega) hrest key
    rw [show i + 1 + k = i + (k + 1) by ring, Nat.div_div_eq_div_mul, ← pow_succ'] at this
    exact this

theorem genPath_length (nodes : List (List F)) (k i cur : ℕ) {path : List F}
    (hp : genPath nodes k i cur = some path) : path.length = k := by
  induction k generalizing i cur path with
  | zero => simp only [genPath, Option.some.injEq] at hp; subst hp; rfl
  | succ k ih =>
    rw [genPath] at hp
    simp only [Option.bind_eq_bind, Option.bind_eq_some_iff] at hp
    obtain ⟨lvl, -, nb, -, rest, hrest, hp⟩ := hp
    simp only [pure, Option.some.injEq] at hp
    subst hp
    simp [ih _ _ hrest]

/-- Path generation fails exactly at an unpaired last node. -/
theorem genPath_none_iff (env : Env F) (L : List F) (D : ℕ) (k i cur : ℕ) (hki : i + k ≤ D)
    (hcur : cur < ((nextLevel env)^[i] L).length) :
    genPath (buildLevels env D L) k i cur = none ↔
      ∃ j < k, (cur / 2 ^ j) % 2 = 0 ∧ cur / 2 ^ j + 1 = ((nextLevel env)^[i + j] L).length := by
  induction k generalizing i cur with
  | zero => simp [genPath]
  | succ k ih =>
    have hnext : cur / 2 < ((nextLevel env)^[i + 1] L).length := by
      rw [Function.iterate_succ_apply', length_nextLevel]; omega
    have IH := ih (i + 1) (cur / 2) (by omega) hnext
    rw [genPath, buildLevels_getElem? env D i L (by omega)]
    simp only [Option.bind_eq_bind, Option.bind_some]
    set lvl := (nextLevel env)^[i] L with hlvl
    have hshift : ∀ j, cur / 2 / 2 ^ j = cur / 2 ^ (j + 1) := by
      intro j; rw [Nat.div_div_eq_div_mul, pow_succ']
    have hex : (∃ j < k + 1, (cur / 2 ^ j) % 2 = 0 ∧
        cur / 2 ^ j + 1 = ((nextLevel env)^[i + j] L).length) ↔
        ((cur % 2 = 0 ∧ cur + 1 = lvl.length) ∨ ∃ j < k, (cur / 2 / 2 ^ j) % 2 = 0 ∧
        cur / 2 / 2 ^ j + 1 = ((nextLevel env)^[i + 1 + j] L).length) := by
      constructor
      · rintro ⟨j, hj, h1, h2⟩
        cases j with
        | zero => left; rw [pow_zero, Nat.div_one] at h1 h2; exact ⟨h1, h2⟩
        | succ j =>
          right
          refine ⟨j, by omega, ?_, ?_⟩
          · rw [hshift]; exact h1
          · rw [hshift, show i + 1 + j = i + (j + 1) by ring]; exact h2
      · rintro (⟨h1, h2⟩ | ⟨j, hj, h1, h2⟩)
        · exact ⟨0, by omega, by simpa using h1, by simpa [hlvl] using h2⟩
        · refine ⟨j + 1, by omega, ?_, ?_⟩
          · rw [← hshift]; exact h1
          · rw [← hshift, show i + (j + 1) = i + 1 + j by ring]; exact h2
    rw [hex, ← IH]
    unfold neighbour?
    by_cases hev : cur % 2 = 0
    · rw [if_pos hev]
      by_cases hlast : cur + 1 = lvl.length
      · rw [List.getElem?_eq_none (by omega)]; simp [hev, hlast]
      · have : cur + 1 < lvl.length := by omega
        rw [List.getElem?_eq_getElem this]
        cases genPath (buildLevels env D L) k (i + 1) (cur / 2) <;> simp [hlast]
    · rw [if_neg hev]
      have : cur - 1 < lvl.length := by omega
      rw [List.getElem?_eq_getElem this]
      cases genPath (buildLevels env D L) k (i + 1) (cur / 2) <;> simp [hev]

theorem level_top_length (env : Env F) (l : List F) (hl : l ≠ []) :
    ((nextLevel env)^[Nat.clog 2 l.length] l).length = 1 := by
  rw [length_level]
  have h1 := Nat.le_pow_clog (b := 2) (by norm_num) l.length
  have h0 : 0 < l.length := List.length_pos_iff.2 hl
  have hp : 0 < 2 ^ Nat.clog 2 l.length := by positivity
  apply Nat.div_eq_of_lt_le
  · omega
  · omega

/-- Any proof generated for a supplied leaf verifies. -/
theorem generateProof_verifies (env : Env F) (evals : List F) (index : ℕ) (hi : index < evals.length)
    {pf : MerkleProof F} (h : (MerkleTree.new env evals).generateProof index = some pf) :
    verifyMerkleProof env pf = true ∧ pf.index = index ∧ evals[index]? = some pf.leafVal ∧
      some pf.root = (MerkleTree.new env evals).root? ∧
      pf.hashProof.length = Nat.clog 2 evals.length := by
  unfold MerkleTree.generateProof at h
  simp only [Option.bind_eq_bind, Option.bind_eq_some_iff] at h
  obtain ⟨leaf, hleaf, path, hpath, root, hroot, h⟩ := h
  simp only [pure, Option.some.injEq] at h
  subst h
  have hleaf' : evals[index]? = some leaf := by
    simp only [MerkleTree.new] at hleaf
    rwa [List.getElem?_append_left hi] at hleaf
  have hd := tree_depth env evals
  rw [hd] at hpath
  refine ⟨?_, rfl, hleaf', hroot.symm, genPath_length _ _ _ _ hpath⟩
  have hnodes : (MerkleTree.new env evals).internalNodes =
      buildLevels env (Nat.clog 2 evals.length) (evals.map (hash env)) := by
    rw [← hd]; rfl
  rw [hnodes] at hpath
  have h1 := genPath_sound env (evals.map (hash env)) _ _ 0 index (by omega) hpath
    (h := hash env leaf) (by simp [hleaf'])
  rw [tree_root, hd] at hroot
  have h2 := Nat.le_pow_clog (b := 2) (by norm_num) evals.length
  rw [Nat.div_eq_of_lt (by omega), Nat.zero_add] at h1
  rw [h1] at hroot
  simp only [verifyMerkleProof, decide_eq_true_eq]
  exact Option.some.inj hroot

theorem root_isSome (env : Env F) (evals : List F) (h : evals ≠ []) :
    ∃ r, (MerkleTree.new env evals).root? = some r := by
  rw [tree_root, tree_depth]
  have := level_top_length env (evals.map (hash env)) (by simpa using h)
  rw [List.length_map] at this
  exact ⟨_, List.getElem?_eq_getElem (by omega)⟩

/-- Trees over a power of two leaves: every index has a proof. -/
theorem generateProof_pow2 (env : Env F) (evals : List F) (k : ℕ) (hk : evals.length = 2 ^ k)
    (index : ℕ) (hi : index < 2 ^ k) :
    ∃ pf, (MerkleTree.new env evals).generateProof index = some pf := by
  unfold MerkleTree.generateProof
  have hd := tree_depth env evals
  have hne : evals ≠ [] := by
    rintro rfl
    have : 0 < 2 ^ k := by positivity
    simp at hk; omega
  obtain ⟨root, hroot⟩ := root_isSome env evals hne
  have hnodes : (MerkleTree.new env evals).internalNodes =
      buildLevels env (Nat.clog 2 evals.length) (evals.map (hash env)) := by
    rw [← hd]; rfl
  have hpath : ∃ path, genPath (MerkleTree.new env evals).internalNodes
      (MerkleTree.new env evals).depth 0 index = some path := by
    rw [← Option.ne_none_iff_exists', hnodes, hd, Ne,
      genPath_none_iff env _ _ _ 0 index (by omega) (by simpa [hk] using hi)]
    rintro ⟨j, hj, h1, h2⟩
    rw [hk, Nat.clog_pow 2 k (by norm_num)] at hj
    rw [Nat.zero_add, length_level, List.length_map, hk] at h2
    have : 2 ^ k = 2 ^ (k - j - 1) * 2 * 2 ^ j := by
      rw [← pow_succ, ← pow_add]; congr 1; omega
    have hp : 0 < 2 ^ j := by positivity
    have h3 : (2 ^ k + 2 ^ j - 1) / 2 ^ j = 2 ^ (k - j - 1) * 2 := by
      rw [this]
      apply Nat.div_eq_of_lt_le
      · omega
      · rw [Nat.add_mul]; omega
    rw [h3] at h2
    omega
  obtain ⟨path, hpath⟩ := hpath
  have hleaf : ∃ leaf, (MerkleTree.new env evals).leaves[index]? = some leaf := by
    simp only [MerkleTree.new]
    exact ⟨_, List.getElem?_eq_getElem (by simp; omega)⟩
  obtain ⟨leaf, hleaf⟩ := hleaf
  rw [hleaf, hpath, hroot]
  exact ⟨_, rfl⟩

end Verif.Fri

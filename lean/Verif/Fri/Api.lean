import Verif.Fri.Props
import Verif.Fri.Soundness

/-!
# Property C105: what the private fields of `MerkleProof` protect

The fields `hash_proof` and `root` of `MerkleProof` are private and the module `merkle_tree` is not exported
(`fri/src/merkle_tree.rs` lines 7-16, `fri/src/lib.rs`), and there is no deserialisation: a program that uses the crate
gets authentication paths only out of proofs returned by `generate_proof`, and can change their `index` and `leaf_val`.
All other fields of `Proof` and `Decommitment` are public (`fri/src/prover.rs` lines 11-31).  A caller may choose the
digest `T` of `generate_proof`.
-/

set_option linter.unusedSectionVars false

namespace Verif.Fri

open Verif.Ark

variable {F : Type} [FftField F] [DecidableEq F]

/-- The values of type `MerkleProof` that a program using the public interface of the crate can hold
(`fri/src/lib.rs`, `fri/src/merkle_tree.rs` lines 7-16, `fri/src/prover.rs` lines 11-31). -/
inductive ApiPath (env : Env F) : MerkleProof F → Prop
  | made (dig : List UInt8 → List UInt8) (poly : DP F) (b q : ℕ) (pf : Proof F) (d : Decommitment F)
      (path : MerkleProof F) (h : generateProof { env with digest := dig } poly b q = some pf)
      (hd : d ∈ pf.decommitmentList) (hp : path ∈ d.authPaths ++ d.symAuthPaths) : ApiPath env path
  | setIndex (path : MerkleProof F) (i : ℕ) (h : ApiPath env path) : ApiPath env { path with index := i }
  | setLeaf (path : MerkleProof F) (v : F) (h : ApiPath env path) : ApiPath env { path with leafVal := v }

/-- The values of type `Proof` that such a program can assemble: all fields but the paths are its own choice. -/
def ApiProof (env : Env F) (pf : Proof F) : Prop :=
  ∀ d ∈ pf.decommitmentList, ∀ path ∈ d.authPaths ++ d.symAuthPaths, ApiPath env path

/-! ## Trees over one repeated value -/

/-- The parent of two equal nodes. -/
def twin {F : Type} (env : Env F) (h : F) : F := hashSlice env [h, h]

/-- The root of the tree over `2^k` copies of `v`. -/
def constRoot {F : Type} (env : Env F) (v : F) (k : ℕ) : F := (twin env)^[k] (hash env v)

/-- The siblings on any path of length `k` from a node `h` all of whose neighbours are equal. -/
def twinPath {F : Type} (env : Env F) : ℕ → F → List F
  | 0, _ => []
  | k + 1, h => h :: twinPath env k (twin env h)

theorem length_twinPath {F : Type} (env : Env F) (k : ℕ) (h : F) : (twinPath env k h).length = k := by
  induction k generalizing h with
  | zero => rfl
  | succ k ih => simp [twinPath, ih]

theorem merkleLoop_twinPath (env : Env F) (k cur : ℕ) (h : F) :
    merkleLoop env (twinPath env k h) cur h = (twin env)^[k] h := by
  induction k generalizing cur h with
  | zero => rfl
  | succ k ih =>
    rw [twinPath, merkleLoop, ite_self, Function.iterate_succ_apply]
    exact ih _ _

theorem nextLevel_replicate (env : Env F) (n : ℕ) (h : F) :
    nextLevel env (List.replicate (2 * n) h) = List.replicate n (twin env h) := by
  induction n with
  | zero => rfl
  | succ n ih =>
    rw [show 2 * (n + 1) = 2 * n + 1 + 1 by ring, List.replicate_succ, List.replicate_succ, nextLevel, ih,
      List.replicate_succ]
    rfl

theorem level_replicate (env : Env F) (i k : ℕ) (h : F) :
    (nextLevel env)^[i] (List.replicate (2 ^ (i + k)) h) = List.replicate (2 ^ k) ((twin env)^[i] h) := by
  induction i generalizing h with
  | zero => simp
  | succ i ih =>
    rw [Function.iterate_succ_apply, show 2 ^ (i + 1 + k) = 2 * 2 ^ (i + k) by ring, nextLevel_replicate, ih,
      Function.iterate_succ_apply]

theorem genPath_replicate (env : Env F) (D k i cur : ℕ) (h : F) (hD : D = i + k) {path : List F}
    (hp : genPath (buildLevels env D (List.replicate (2 ^ D) h)) k i cur = some path) :
    path = twinPath env k ((twin env)^[i] h) := by
  induction k generalizing i cur path with
  | zero => simp only [genPath, Option.some.injEq] at hp; exact hp.symm
  | succ k ih =>
    rw [genPath, buildLevels_getElem? env D i _ (by omega)] at hp
    simp only [Option.bind_eq_bind, Option.bind_some, Option.bind_eq_some_iff, pure, Option.some.injEq] at hp
    obtain ⟨nb, hnb, rest, hrest, rfl⟩ := hp
    rw [hD, level_replicate] at hnb
    have hnb' : nb = (twin env)^[i] h := by
      unfold neighbour? at hnb
      split at hnb <;> exact List.eq_of_mem_replicate (List.mem_of_getElem? hnb)
    rw [twinPath, hnb', ih (i + 1) (cur / 2) (by omega) hrest, Function.iterate_succ_apply']

/-- The path at any index of a tree over `2^k` copies of `v`. -/
def constPath {F : Type} (env : Env F) (v : F) (k idx : ℕ) : MerkleProof F :=
  ⟨idx, v, twinPath env k (hash env v), constRoot env v k⟩

theorem verify_constPath (env : Env F) (v : F) (k idx : ℕ) : verifyMerkleProof env (constPath env v k idx) = true := by
  simp [verifyMerkleProof, constPath, merkleLoop_twinPath, constRoot]

theorem generateProof_replicate (env : Env F) (v : F) (k idx : ℕ) {p : MerkleProof F}
    (h : (MerkleTree.new env (List.replicate (2 ^ k) v)).generateProof idx = some p) :
    p = constPath env v k idx := by
  have hd : (MerkleTree.new env (List.replicate (2 ^ k) v)).depth = k := by
    rw [tree_depth, List.length_replicate, Nat.clog_pow 2 k (by norm_num)]
  have hr := tree_root env (List.replicate (2 ^ k) v)
  have hlv : (MerkleTree.new env (List.replicate (2 ^ k) v)).leaves = List.replicate (2 ^ k) v := by
    simp [MerkleTree.new, nextPow2, Nat.clog_pow 2 k (by norm_num)]
  have hn : (MerkleTree.new env (List.replicate (2 ^ k) v)).internalNodes =
      buildLevels env k (List.replicate (2 ^ k) (hash env v)) := by
    have : (MerkleTree.new env (List.replicate (2 ^ k) v)).internalNodes =
      buildLevels env (MerkleTree.new env (List.replicate (2 ^ k) v)).depth
        ((List.replicate (2 ^ k) v).map (hash env)) := rfl
    rw [this, hd, List.map_replicate]
  unfold MerkleTree.generateProof at h
  simp only [Option.bind_eq_bind, Option.bind_eq_some_iff, pure, Option.some.injEq] at h
  obtain ⟨lv, h1, hp, h2, r, h3, rfl⟩ := h
  rw [hlv] at h1
  rw [hn, hd] at h2
  rw [hr, hd, List.map_replicate] at h3
  have := level_replicate env k 0 (hash env v)
  rw [Nat.add_zero] at this
  rw [this] at h3
  simp only [pow_zero, List.replicate_one, List.getElem?_cons_zero, Option.some.injEq] at h3
  rw [genPath_replicate env k k 0 idx _ (by omega) h2, ← h3, List.eq_of_mem_replicate (List.mem_of_getElem? h1)]
  rfl

/-! ## They can be obtained from the prover -/

theorem fold_const (v r : F) (hv : v ≠ 0) : foldPolynomial [v] r = [v] := by
  have h1 : truncate [v] = [v] := by simp [truncate, hv]
  have h2 : truncate ([] : DP F) = [] := rfl
  simp only [foldPolynomial, evens, fromCoeffs, add, List.drop_succ_cons, List.drop_nil, h1, h2]
  have h3 : smul ([] : DP F) r = [] := by simp [smul]
  rw [h3]
  simp [zipAdd, h1]

theorem foldl_const (v : F) (hv : v ≠ 0) (rs : List F) : rs.foldl foldPolynomial [v] = [v] := by
  induction rs with
  | nil => rfl
  | cons r rs ih => rw [List.foldl_cons, fold_const v r hv, ih]

theorem layerOf_const (env : Env F) (v c : F) (k : ℕ) :
    (layerOf env [v] c k).merkleTree = MerkleTree.new env (List.replicate (2 ^ k) v) := by
  unfold layerOf
  simp [Ark.eval, List.map_const']

theorem apiPath_const (env : Env F) (v : F) (hv : v ≠ 0) (k : ℕ) (hk : 0 < k)
    (hta : k ≤ FftField.twoAdicity F) (idx : ℕ) : ApiPath env (constPath env v k idx) := by
  set env' : Env F := { env with digest := fun _ => List.replicate 8 0 } with henv
  have hl : ([v] : DP F).length * 2 ^ k = 2 ^ k := by simp
  have hc : Nat.clog 2 (([v] : DP F).length * 2 ^ k) = k := by rw [hl, Nat.clog_pow 2 k (by norm_num)]
  obtain ⟨pf, hpf⟩ := generateProof_isSome env' (fun _ => by simp [henv]) [v] (2 ^ k) 1
    (by rw [hl]; calc 2 = 2 ^ 1 := rfl
          _ ≤ 2 ^ k := Nat.pow_le_pow_right (by norm_num) hk)
    (by rw [nextPow2, hc]; exact Nat.pow_le_pow_right (by norm_num) hta)
    (fun rs _ => by rw [foldl_const v hv]; simp)
  obtain ⟨rs, t, t', vs, hlen, hpos, -, -, -, -, -, -, -, hvs, hdecs⟩ := generateProof_spec env' hpf
  rw [hc] at hlen
  have hvl := length_challengeList hvs
  obtain ⟨x, rfl⟩ := List.length_eq_one_iff.1 hvl
  obtain ⟨d, hd1, hd2⟩ := (mapM_getElem hdecs).2 0 (x % 2 ^ rs.length) (by simp)
  unfold queryOne at hd2
  simp only [Option.bind_eq_bind, Option.bind_eq_some_iff, pure, Option.some.injEq] at hd2
  obtain ⟨rows, hrows, rfl⟩ := hd2
  have hlay := layersOf_getElem env' [v] FftField.generator rs 0 hpos
  obtain ⟨row, hr1, hr2⟩ := (mapM_getElem hrows).2 0 _ hlay
  unfold queryLayer at hr2
  split at hr2
  · cases hr2
  simp only [Option.bind_eq_bind, Option.bind_eq_some_iff, pure, Option.some.injEq] at hr2
  obtain ⟨ev, -, sev, -, p, hp, sp, -, rfl⟩ := hr2
  simp only [List.take_zero, List.foldl_nil, Nat.sub_zero] at hp
  rw [layerOf_const, hlen] at hp
  have e := generateProof_replicate env' v k _ hp
  have h1 : ApiPath env p := by
    refine .made _ [v] (2 ^ k) 1 pf _ p hpf (List.mem_of_getElem? hd1) ?_
    simp only [List.mem_append, List.mem_map]
    exact Or.inl ⟨_, List.mem_of_getElem? hr1, rfl⟩
  have h2 := ApiPath.setIndex p idx h1
  rw [e] at h2
  have : ({ constPath env' v k ((x % 2 ^ rs.length) % (layerOf env' ((List.take 0 rs).foldl foldPolynomial [v])
      ((FftField.generator : F) ^ 2 ^ 0) (rs.length - 0)).domainSize) with index := idx } : MerkleProof F) =
      constPath env v k idx := by
    have ht : ∀ k h, twinPath env' k h = twinPath env k h := by
      intro k
      induction k with
      | zero => intro h; rfl
      | succ k ih => intro h; rw [twinPath, twinPath, ih]; rfl
    simp only [constPath, ht]
    rfl
  rw [← this]
  exact h2

/-! ## Forgeries -/

/-- The decommitment in which every value is `v` and every path comes from a tree over copies of `v`; the vector
`evaluations` has `e` entries. -/
def constDec (env : Env F) (v : F) (m e pos : ℕ) : Decommitment F :=
  { evaluations := List.replicate e v
    authPaths := (List.range m).map fun i => constPath env v (m - i) (pos % 2 ^ (m - i))
    symEvaluations := List.replicate m v
    symAuthPaths := (List.range m).map fun i =>
      constPath env v (m - i) ((pos % 2 ^ (m - i) + 2 ^ (m - i) / 2) % 2 ^ (m - i)) }

theorem constDec_api (env : Env F) (v : F) (hv : v ≠ 0) (m e pos : ℕ) (hm : m ≤ FftField.twoAdicity F) :
    ∀ path ∈ (constDec env v m e pos).authPaths ++ (constDec env v m e pos).symAuthPaths, ApiPath env path := by
  intro path hp
  simp only [constDec, List.mem_append, List.mem_map, List.mem_range] at hp
  rcases hp with ⟨i, hi, rfl⟩ | ⟨i, hi, rfl⟩ <;> exact apiPath_const env v hv _ (by omega) (by omega) _

theorem constDec_layer (env : Env F) (v : F) (m e pos i : ℕ) (r ev sev : F) (path sp : MerkleProof F)
    (hm : m ≤ FftField.twoAdicity F) (hi : i < m) (hev : (constDec env v m e pos).evaluations[i]? = some ev)
    (hpath : (constDec env v m e pos).authPaths[i]? = some path)
    (hsev : (constDec env v m e pos).symEvaluations[i]? = some sev)
    (hsp : (constDec env v m e pos).symAuthPaths[i]? = some sp) :
    LayerOk env (2 ^ m) FftField.generator pos i r ev path sev sp v := by
  have h2 : (2 : F) ≠ 0 := two_ne_zero_of (F := F) (by omega)
  simp only [constDec] at hev hpath hsev hsp
  have hev' := List.eq_of_mem_replicate (List.mem_of_getElem? hev)
  have hsev' := List.eq_of_mem_replicate (List.mem_of_getElem? hsev)
  rw [List.getElem?_map, List.getElem?_range hi] at hpath hsp
  simp only [Option.map_some, Option.some.injEq] at hpath hsp
  subst hev' hpath hsev' hsp
  have hDi : 2 ^ m / 2 ^ i = 2 ^ (m - i) := Nat.pow_div (by omega) (by norm_num)
  refine ⟨by rw [hDi]; positivity, by rw [hDi]; rfl, by rw [hDi]; rfl, rfl, rfl, verify_constPath _ _ _ _,
    verify_constPath _ _ _ _, ⟨m - i, rootOf F (m - i)⟩, _, by rw [hDi]; exact new?_pow (m - i) (by omega), rfl, h2,
    ?_, ?_⟩
  · exact mul_ne_zero (pow_ne_zero _ (rootOf_ne_zero _ (by omega))) (pow_ne_zero _ FftField.generator_ne_zero)
  · field_simp
    ring

/-- **C105** is false of the code: for *any* claimed layer roots (up to the two-adicity), any nonzero constant and any
number of queries, a program that only uses the public interface can assemble an accepted proof of honest shape with
them.  Layer `i` of each decommitment is opened under the root of a tree over `2^(m-i)` copies of the constant, whatever
`roots` says. -/
theorem C105_api_forgery (env : Env F) (hdig : ∀ b, 8 ≤ (env.digest b).length) (roots : List F)
    (hk : roots.length ≤ FftField.twoAdicity F) (cv : F) (hcv : cv ≠ 0) (q : ℕ) :
    ∃ pf : Proof F, ApiProof env pf ∧ pf.layersRoot = roots ∧ pf.constVal = cv ∧ pf.numberOfQueries = q ∧
      pf.domainSize = 2 ^ roots.length ∧ pf.decommitmentList.length = q ∧
      (∀ d ∈ pf.decommitmentList, d.Shape roots.length ∧ ∀ i path, (d.authPaths[i]? = some path ∨
        d.symAuthPaths[i]? = some path) → path.root = constRoot env cv (roots.length - i)) ∧
      verify env pf = some (.ok ()) := by
  obtain ⟨⟨rs, t⟩, hreg⟩ := regenerate_isSome env hdig roots (Transcript.new env 0)
  obtain ⟨⟨vs, t'⟩, hvs⟩ := generateChallengeListUsize_feed env hdig t cv q
  have hvl := length_challengeList hvs
  have hrl := length_regenerate hreg
  set m := roots.length with hm
  have hDne : 2 ^ m ≠ 0 := by positivity
  have hshape : ∀ pos, (constDec env cv m m pos).Shape m := by intro pos; simp [Decommitment.Shape, constDec]
  refine ⟨{ domainSize := 2 ^ m, coset := FftField.generator, numberOfQueries := q, layersRoot := roots,
            constVal := cv, decommitmentList := (vs.map (· % 2 ^ m)).map (constDec env cv m m) }, ?_, rfl, rfl, rfl, rfl,
            by simp [hvl], ?_, ?_⟩
  · intro d hd
    obtain ⟨pos, -, rfl⟩ := List.mem_map.1 hd
    exact constDec_api env cv hcv m m pos hk
  · intro d hd
    obtain ⟨pos, -, rfl⟩ := List.mem_map.1 hd
    refine ⟨hshape _, fun i path hp => ?_⟩
    simp only [constDec, List.getElem?_map, Option.map_eq_some_iff] at hp
    rcases hp with ⟨j, hj, rfl⟩ | ⟨j, hj, rfl⟩ <;>
    · obtain ⟨hlt, rfl⟩ := List.getElem?_eq_some_iff.1 hj
      simp [constPath]
  · rw [C20_verify_iff env _ hDne (by
      intro d hd
      obtain ⟨pos, -, rfl⟩ := List.mem_map.1 hd
      exact hshape _)]
    refine ⟨rs, _, (derived_iff _ _ _ _).2 ⟨t, t', vs, hreg, hvs, rfl⟩, fun j pos d hp hd => ?_⟩
    simp only at hp hd
    rw [List.getElem?_map, hp] at hd
    simp only [Option.map_some, Option.some.injEq] at hd
    subst hd
    intro i r ev path sev sp hr hev hpath hsev hsp
    have hi : i < m := by
      have := (List.getElem?_eq_some_iff.1 hr).1; omega
    have : (((constDec env cv m m pos).evaluations)[i + 1]?).getD cv = cv := by
      simp only [constDec]
      rw [List.getElem?_replicate]; split <;> rfl
    rw [this]
    exact constDec_layer env cv m m pos i r ev sev path sp hk hi hev hpath hsev hsp

theorem constDec_long (env : Env F) (v : F) (m pos : ℕ) (hm : m ≤ FftField.twoAdicity F) (rs : List F)
    (hrs : rs.length = m) (cv : F) :
    verifyQuery env pos (constDec env v m (m + 1) pos) rs (2 ^ m) cv FftField.generator = some (.ok ()) := by
  set d := constDec env v m (m + 1) pos with hd
  have hql : (queryItems d rs).length = m := by simp [queryItems, hd, constDec, hrs]
  have key : ∀ n i, m = i + n → verifyQueryLoop env pos d.evaluations cv i ((queryItems d rs).drop i) (2 ^ (m - i))
      ((FftField.generator : F) ^ 2 ^ i) = some (.ok ()) := by
    intro n
    induction n with
    | zero =>
      intro i hi
      rw [List.drop_of_length_le (by omega)]
      rfl
    | succ n ih =>
      intro i hi
      have hi' : i < (queryItems d rs).length := by omega
      rw [List.drop_eq_getElem_cons hi']
      have hget := List.getElem?_eq_getElem hi'
      generalize hx : (queryItems d rs)[i] = x at hget
      obtain ⟨⟨⟨⟨ev, path⟩, sev⟩, sp⟩, r⟩ := x
      rw [queryItems_getElem] at hget
      obtain ⟨g1, g2, g3, g4, g5⟩ := hget
      dsimp only at g1 g2 g3 g4 g5
      obtain ⟨l1, l2, l3, l4, l5, l6, l7, dom, x, l8, l9, l10, l11, l12⟩ :=
        constDec_layer env v m (m + 1) pos i r ev sev path sp hm (by omega) g1 g2 g3 g4
      have hDi : 2 ^ m / 2 ^ i = 2 ^ (m - i) := Nat.pow_div (by omega) (by norm_num)
      rw [hDi] at l1 l2 l3 l8 l9
      have hel : dom.element (pos % 2 ^ (m - i)) * (FftField.generator : F) ^ 2 ^ i = x := by rw [l9]; rfl
      rw [verifyQueryLoop_cons]
      refine ⟨l1, dom, l8, l2, l3, l4, l5, l6, l7, by rw [hel]; exact mul_ne_zero l10 l11, fun _ => ⟨?_, ?_⟩, fun h => ?_⟩
      · rw [hel, qFold, qFold_eq _ _ _ _ l11 l10, ← l12]
        simp only [hd, constDec]
        rw [List.getElem?_replicate, if_pos (by omega)]
      · rw [← pow_add, ← two_mul, ← pow_succ']
        have : 2 ^ (m - i) / 2 = 2 ^ (m - (i + 1)) := by
          rw [show m - i = (m - (i + 1)) + 1 by omega, pow_succ]; simp
        rw [this]
        exact ih (i + 1) (by omega)
      · have : d.evaluations.length = m + 1 := by simp [hd, constDec]
        omega
  have := key m 0 (by omega)
  unfold verifyQuery
  simpa using this

/-- **C105** is false of the code (the constant): by repeating one more evaluation, such a program makes `verify` accept
*any* roots together with *any* constant, whatever nonzero value `v` the decommitments show. -/
theorem C105_api_constant_unchecked (env : Env F) (hdig : ∀ b, 8 ≤ (env.digest b).length) (roots : List F)
    (hk : roots.length ≤ FftField.twoAdicity F) (cv v : F) (hv : v ≠ 0) (q : ℕ) :
    ∃ pf : Proof F, ApiProof env pf ∧ pf.layersRoot = roots ∧ pf.constVal = cv ∧ pf.numberOfQueries = q ∧
      pf.domainSize = 2 ^ roots.length ∧ pf.decommitmentList.length = q ∧
      (∀ d ∈ pf.decommitmentList, (∀ x ∈ d.evaluations ++ d.symEvaluations, x = v) ∧
        d.authPaths.length = roots.length ∧ d.symAuthPaths.length = roots.length) ∧
      verify env pf = some (.ok ()) := by
  obtain ⟨⟨rs, t⟩, hreg⟩ := regenerate_isSome env hdig roots (Transcript.new env 0)
  obtain ⟨⟨vs, t'⟩, hvs⟩ := generateChallengeListUsize_feed env hdig t cv q
  have hvl := length_challengeList hvs
  have hrl := length_regenerate hreg
  refine ⟨{ domainSize := 2 ^ roots.length, coset := FftField.generator, numberOfQueries := q, layersRoot := roots,
            constVal := cv,
            decommitmentList := (vs.map (· % 2 ^ roots.length)).map (constDec env v roots.length (roots.length + 1)) },
            ?_, rfl, rfl, rfl, rfl, by simp [hvl], ?_, ?_⟩
  · intro d hd
    obtain ⟨pos, -, rfl⟩ := List.mem_map.1 hd
    exact constDec_api env v hv _ _ pos hk
  · intro d hd
    obtain ⟨pos, -, rfl⟩ := List.mem_map.1 hd
    refine ⟨fun x hx => ?_, by simp [constDec], by simp [constDec]⟩
    rcases List.mem_append.1 hx with h | h <;> exact List.eq_of_mem_replicate h
  · rw [verify_ok_iff]
    refine ⟨rs, t, t', vs, hreg, hvs, fun h => absurd h.1 (by positivity), fun x hx => ?_⟩
    obtain ⟨j, hj⟩ := List.mem_iff_getElem?.1 hx
    obtain ⟨g1, g2⟩ := List.getElem?_zip_eq_some.1 hj
    rw [List.getElem?_map, g1] at g2
    simp only [Option.map_some, Option.some.injEq] at g2
    rw [← g2]
    exact constDec_long env v _ _ hk rs hrl cv

/-! ## What the private fields do protect -/

theorem merkleLoop_digest (env : Env F) (dig : List UInt8 → List UInt8) (path : List F) (cur : ℕ) (h : F) :
    merkleLoop { env with digest := dig } path cur h = merkleLoop env path cur h := by
  induction path generalizing cur h with
  | nil => rfl
  | cons x path ih => rw [merkleLoop, merkleLoop, ih]; rfl

theorem merkleLoop_same_siblings (env : Env F) (path : List F) (idx idx' : ℕ) (h h' : F) (hne : h ≠ h')
    (he : merkleLoop env path idx h = merkleLoop env path idx' h') :
    ∃ (i : ℕ) (a b : List F), (hashedInputs env path idx h)[i]? = some a ∧
      (hashedInputs env path idx' h')[i]? = some b ∧ a ≠ b ∧ hashSlice env a = hashSlice env b := by
  induction path generalizing idx idx' h h' with
  | nil => exact absurd he hne
  | cons x path ih =>
    rw [merkleLoop, merkleLoop] at he
    have hin : (if idx % 2 = 0 then [h, x] else [x, h]) ≠ (if idx' % 2 = 0 then [h', x] else [x, h']) := by
      split <;> split
      · simp [hne]
      · intro e
        simp only [List.cons.injEq, and_true] at e
        exact hne (e.1.trans e.2)
      · intro e
        simp only [List.cons.injEq, and_true] at e
        exact hne (e.2.trans e.1)
      · simp [hne]
    have hpull : ∀ (i : ℕ) (a b : F), (if i % 2 = 0 then hashSlice env [a, b] else hashSlice env [b, a]) =
        hashSlice env (if i % 2 = 0 then [a, b] else [b, a]) := by
      intro i a b; split <;> rfl
    rw [hpull, hpull] at he
    by_cases hc : hashSlice env (if idx % 2 = 0 then [h, x] else [x, h]) =
        hashSlice env (if idx' % 2 = 0 then [h', x] else [x, h'])
    · exact ⟨0, _, _, rfl, rfl, hin, hc⟩
    · obtain ⟨i, a, b, h1, h2, h3, h4⟩ := ih (idx / 2) (idx' / 2) _ _ hc he
      exact ⟨i + 1, a, b, by simpa [hashedInputs] using h1, by simpa [hashedInputs] using h2, h3, h4⟩

/-- **C105**, the part that holds: a path held by a program that only uses the public interface comes from a path `q` of
a proof returned by `generate_proof`, under one of that proof's layer roots; and if the verifier accepts it, at whatever
index, it shows the value of `q`, or the two exhibit a hash collision.  (Missing, and false: that these roots are the
ones the accepted proof claims.) -/
theorem C105_api_paths_partial (env : Env F) (p : MerkleProof F) (h : ApiPath env p) :
    ∃ (dig : List UInt8 → List UInt8) (poly : DP F) (b n : ℕ) (pf : Proof F) (d : Decommitment F) (q : MerkleProof F),
      generateProof { env with digest := dig } poly b n = some pf ∧ d ∈ pf.decommitmentList ∧
      q ∈ d.authPaths ++ d.symAuthPaths ∧ p.root ∈ pf.layersRoot ∧ q.root = p.root ∧ q.hashProof = p.hashProof ∧
      verifyMerkleProof env q = true ∧
      (verifyMerkleProof env p = true → p.leafVal = q.leafVal ∨ ExhibitsCollision env p q) := by
  have key : ∃ (dig : List UInt8 → List UInt8) (poly : DP F) (b n : ℕ) (pf : Proof F) (d : Decommitment F)
      (q : MerkleProof F), generateProof { env with digest := dig } poly b n = some pf ∧ d ∈ pf.decommitmentList ∧
      q ∈ d.authPaths ++ d.symAuthPaths ∧ q.root = p.root ∧ q.hashProof = p.hashProof := by
    induction h with
    | made dig poly b n pf d path h hd hp => exact ⟨dig, poly, b, n, pf, d, path, h, hd, hp, rfl, rfl⟩
    | setIndex path i h ih => exact ih
    | setLeaf path v h ih => exact ih
  obtain ⟨dig, poly, b, n, pf, d, q, h1, h2, h3, h4, h5⟩ := key
  have hq : verifyMerkleProof env q = true ∧ q.root ∈ pf.layersRoot := by
    obtain ⟨k, hD, -, -, hroots, hnq, hdl, hall⟩ := C23_shape _ poly b n h1
    obtain ⟨hsh, hall⟩ := hall d h2
    have hver := C18_completeness _ poly b n h1
    rw [C20_verify_iff _ _ (by rw [hD]; positivity) (fun d hd => by
      obtain ⟨k', hD', -, -, hroots', -, -, hall'⟩ := C23_shape _ poly b n h1
      rw [hroots']
      exact (hall' d hd).1)] at hver
    obtain ⟨rs, positions, hder, hall2⟩ := hver
    obtain ⟨j, hj⟩ := List.mem_iff_getElem?.1 h2
    have hjl := (List.getElem?_eq_some_iff.1 hj).1
    have hpl : positions.length = n := by rw [hder.2.1]; simp [hnq]
    have hpj : positions[j]? = some (positions[j]'(by omega)) := List.getElem?_eq_getElem (by omega)
    have hQ := hall2 j _ d hpj hj
    have hrl : rs.length = k := by rw [hder.1]; simp [hroots]
    obtain ⟨s1, s2, s3, s4⟩ := hsh
    have hidx : ∃ i, i < k ∧ (d.authPaths[i]? = some q ∨ d.symAuthPaths[i]? = some q) := by
      rcases List.mem_append.1 h3 with h3 | h3
      · obtain ⟨i, hi⟩ := List.mem_iff_getElem?.1 h3
        exact ⟨i, by have := (List.getElem?_eq_some_iff.1 hi).1; omega, Or.inl hi⟩
      · obtain ⟨i, hi⟩ := List.mem_iff_getElem?.1 h3
        exact ⟨i, by have := (List.getElem?_eq_some_iff.1 hi).1; omega, Or.inr hi⟩
    obtain ⟨i, hi, hor⟩ := hidx
    obtain ⟨ev, path, sev, sp, e1, e2, e3, e4, -, -, -, -, -, -, -, e5, e6⟩ := hall i hi
    have hr : rs[i]? = some (rs[i]'(by omega)) := List.getElem?_eq_getElem (by omega)
    obtain ⟨-, -, -, -, -, v1, v2, -⟩ := hQ i _ ev path sev sp hr e1 e2 e3 e4
    have tr : ∀ p, verifyMerkleProof { env with digest := dig } p = true → verifyMerkleProof env p = true := by
      intro p hp
      simp only [verifyMerkleProof, decide_eq_true_eq] at hp ⊢
      rw [merkleLoop_digest] at hp
      exact hp
    rcases hor with hor | hor
    · rw [e2] at hor
      obtain rfl := Option.some.inj hor
      exact ⟨tr _ v1, List.mem_of_getElem? e5⟩
    · rw [e4] at hor
      obtain rfl := Option.some.inj hor
      exact ⟨tr _ v2, List.mem_of_getElem? e6⟩
  refine ⟨dig, poly, b, n, pf, d, q, h1, h2, h3, by rw [← h4]; exact hq.2, h4, h5, hq.1, fun hp => ?_⟩
  by_cases hl : p.leafVal = q.leafVal
  · exact Or.inl hl
  · right
    by_cases hh : hash env p.leafVal = hash env q.leafVal
    · exact Or.inl ⟨hl, hh⟩
    · right
      have hq1 := hq.1
      simp only [verifyMerkleProof, decide_eq_true_eq] at hp hq1
      have := merkleLoop_same_siblings env p.hashProof p.index q.index _ _ hh (by rw [hp, ← h4, ← hq1, h5])
      unfold MerkleProof.inputs
      rw [h5]
      exact this

/-- The hypotheses of the two forgeries are met: three arbitrary roots over Goldilocks, any SHA function. -/
example (sha : List UInt8 → List UInt8) (a b c : Goldilocks) :
    ∃ pf : Proof Goldilocks, ApiProof (eightEnv sha) pf ∧ pf.layersRoot = [a, b, c] ∧
      verify (eightEnv sha) pf = some (.ok ()) := by
  obtain ⟨pf, h1, h2, -, -, -, -, -, h3⟩ := C105_api_forgery (eightEnv sha) (fun b => by simp [eightEnv, goldEnv]) [a, b, c]
    (by change 3 ≤ 32; norm_num) 5 (by decide) 4
  exact ⟨pf, h1, h2, h3⟩

/-- Paths as in `C105_api_paths_partial` exist, with their index changed. -/
example (sha : List UInt8 → List UInt8) : ApiPath (eightEnv sha) (constPath (eightEnv sha) 5 3 6) :=
  apiPath_const _ _ (by decide) 3 (by norm_num) (by change 3 ≤ 32; norm_num) 6

end Verif.Fri

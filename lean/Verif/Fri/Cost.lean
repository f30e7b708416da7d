import Verif.Fri.Unique

/-!
# C120: what verifying a FRI proof costs

The cost is stated through what can be observed: if the hash functions are replaced by others that agree with the given ones
on a short list of strings, the verdict does not change.  The vector of query positions, whose length is a number in the proof,
is modelled once more for a machine on which vectors have at most `cap` elements.
-/

set_option linter.unusedSectionVars false

namespace Verif.Fri

open Verif.Ark

variable {F : Type} [FftField F] [DecidableEq F]

/-! ## Model -/

/-- `Transcript::generate_challenges`, `fri/src/fiat_shamir/transcript.rs` lines 120-123, where a vector has at most `cap`
elements: `collect` panics on more (`capacity overflow`, or an aborted allocation). -/
def Transcript.generateChallengesCap {F : Type} (cap : ℕ) (env : Env F) (t : Transcript) (number : ℕ) :
    Option (List F × Transcript) := do
  let st ← t.rngSeed
  if cap < number then none
  else pure ((List.range number).map (env.rand st.1), st.2)

/-- `Transcript::generate_challenge_list_usize`, `fri/src/fiat_shamir/transcript.rs` lines 134-139, with vectors of at most
`cap` elements. -/
def Transcript.generateChallengeListUsizeCap {F : Type} (cap : ℕ) (env : Env F) (t : Transcript) (number : ℕ) :
    Option (List ℕ × Transcript) := do
  let ct ← t.generateChallengesCap cap env number
  pure (ct.1.map env.low64, ct.2)

/-- `verify`, `fri/src/verifier.rs` lines 14-49, with vectors of at most `cap` elements.  (Simplification: the vector of
folding challenges, which has one element per root the proof holds in memory, is not bounded.) -/
def verifyCap (cap : ℕ) (env : Env F) (proof : Proof F) : Option (Except String Unit) := do
  let rt ← regenerate env proof.layersRoot (Transcript.new env 0)
  let cs ← (rt.2.feed env proof.constVal).generateChallengeListUsizeCap cap env proof.numberOfQueries
  if proof.domainSize = 0 ∧ cs.1 ≠ [] then none
  else
    let challengeList := cs.1.map fun v => v % proof.domainSize
    verifyQueries env rt.1 proof.domainSize proof.constVal proof.coset
      (challengeList.zip proof.decommitmentList)

/-! ## Specification -/

/-- Number of field elements in a Merkle path: the leaf, the root and the neighbours. -/
def MerkleProof.fieldElements (p : MerkleProof F) : ℕ := 2 + p.hashProof.length

/-- Number of field elements in a decommitment. -/
def Decommitment.fieldElements (d : Decommitment F) : ℕ :=
  d.evaluations.length + d.symEvaluations.length + (d.authPaths.map MerkleProof.fieldElements).sum +
    (d.symAuthPaths.map MerkleProof.fieldElements).sum

/-- Number of field elements in a proof. -/
def Proof.fieldElements (pf : Proof F) : ℕ :=
  2 + pf.layersRoot.length + (pf.decommitmentList.map Decommitment.fieldElements).sum

/-- The verdict depends on at most `h` values of the hash function of the Merkle trees and `t` values of the digest of the
transcript: it is the same for all functions that agree there. -/
def ReadsAtMost (env : Env F) (pf : Proof F) (h t : ℕ) : Prop :=
  ∃ A D : List (List UInt8), A.length ≤ h ∧ D.length ≤ t ∧
    ∀ sha digest : List UInt8 → List UInt8, (∀ x ∈ A, sha x = env.sha x) → (∀ x ∈ D, digest x = env.digest x) →
      verify { env with sha := sha, digest := digest } pf = verify env pf

/-! ## Proofs -/

/-- The strings hashed while a path is checked. -/
def pathReads (env : Env F) : List F → ℕ → F → List (List UInt8)
  | [], _, _ => []
  | nb :: rest, cur, h =>
    (if cur % 2 = 0 then [h, nb] else [nb, h]).flatMap env.toStr ::
      pathReads env rest (cur / 2) (if cur % 2 = 0 then hashSlice env [h, nb] else hashSlice env [nb, h])

theorem pathReads_length (env : Env F) (l : List F) (cur : ℕ) (h : F) : (pathReads env l cur h).length = l.length := by
  induction l generalizing cur h with
  | nil => rfl
  | cons nb l ih => rw [pathReads, List.length_cons, ih, List.length_cons]

theorem merkleLoop_agree (env : Env F) (sha digest : List UInt8 → List UInt8) (l : List F) (cur : ℕ) (h : F)
    (ha : ∀ x ∈ pathReads env l cur h, sha x = env.sha x) :
    merkleLoop { env with sha := sha, digest := digest } l cur h = merkleLoop env l cur h := by
  induction l generalizing cur h with
  | nil => rfl
  | cons nb l ih =>
    rw [merkleLoop, merkleLoop]
    have h1 := ha _ (by rw [pathReads]; exact List.mem_cons_self)
    have e : (if cur % 2 = 0 then hashSlice { env with sha := sha, digest := digest } [h, nb]
        else hashSlice { env with sha := sha, digest := digest } [nb, h]) =
        if cur % 2 = 0 then hashSlice env [h, nb] else hashSlice env [nb, h] := by
      by_cases hc : cur % 2 = 0
      · rw [if_pos hc] at h1
        rw [if_pos hc, if_pos hc]
        exact congrArg env.fromBytes h1
      · rw [if_neg hc] at h1
        rw [if_neg hc, if_neg hc]
        exact congrArg env.fromBytes h1
    rw [e]
    exact ih _ _ fun x hx => ha x (by rw [pathReads]; exact List.mem_cons_of_mem _ hx)

/-- The strings hashed for one path: the leaf's and those of the nodes above. -/
def proofReads (env : Env F) (p : MerkleProof F) : List (List UInt8) :=
  env.toStr p.leafVal :: pathReads env p.hashProof p.index (hash env p.leafVal)

theorem verifyMerkleProof_agree (env : Env F) (sha digest : List UInt8 → List UInt8) (p : MerkleProof F)
    (ha : ∀ x ∈ proofReads env p, sha x = env.sha x) :
    verifyMerkleProof { env with sha := sha, digest := digest } p = verifyMerkleProof env p := by
  unfold verifyMerkleProof
  have h0 : hash { env with sha := sha, digest := digest } p.leafVal = hash env p.leafVal :=
    congrArg env.fromBytes (ha _ List.mem_cons_self)
  rw [h0, merkleLoop_agree env sha digest _ _ _ fun x hx => ha x (List.mem_cons_of_mem _ hx)]

theorem verifyQueryLoop_agree (env env' : Env F) (challenge : ℕ) (evs : List F) (cv : F)
    (l : List ((((F × MerkleProof F) × F) × MerkleProof F) × F)) (i D : ℕ) (c : F)
    (h : ∀ x ∈ l, verifyMerkleProof env' x.1.1.1.2 = verifyMerkleProof env x.1.1.1.2 ∧
      verifyMerkleProof env' x.1.2 = verifyMerkleProof env x.1.2) :
    verifyQueryLoop env' challenge evs cv i l D c = verifyQueryLoop env challenge evs cv i l D c := by
  induction l generalizing i D c with
  | nil => rfl
  | cons x l ih =>
    have hx := h x List.mem_cons_self
    have ih' := fun i D c => ih i D c fun y hy => h y (List.mem_cons_of_mem _ hy)
    obtain ⟨⟨⟨⟨ev, path⟩, symEv⟩, symPath⟩, r⟩ := x
    dsimp only at hx
    rw [verifyQueryLoop, verifyQueryLoop]
    simp only [hx.1, hx.2, ih']

/-- The strings hashed for a decommitment with `m` folding challenges. -/
def decReads (env : Env F) (m : ℕ) (d : Decommitment F) : List (List UInt8) :=
  (d.authPaths.take m ++ d.symAuthPaths.take m).flatMap (proofReads env)

theorem queryItems_mem (d : Decommitment F) (rs : List F) {x : (((F × MerkleProof F) × F) × MerkleProof F) × F}
    (hx : x ∈ queryItems d rs) :
    x.1.1.1.2 ∈ d.authPaths.take rs.length ∧ x.1.2 ∈ d.symAuthPaths.take rs.length := by
  obtain ⟨i, hi⟩ := List.mem_iff_getElem?.1 hx
  unfold queryItems at hi
  obtain ⟨⟨⟨⟨ev, path⟩, symEv⟩, symPath⟩, r⟩ := x
  simp only [List.getElem?_zip_eq_some] at hi
  obtain ⟨⟨⟨⟨_, h2⟩, _⟩, h4⟩, h5⟩ := hi
  have hlt := (List.getElem?_eq_some_iff.1 h5).1
  exact ⟨List.mem_iff_getElem?.2 ⟨i, by rw [List.getElem?_take_of_lt hlt]; exact h2⟩,
    List.mem_iff_getElem?.2 ⟨i, by rw [List.getElem?_take_of_lt hlt]; exact h4⟩⟩

theorem verifyQueries_agree (env : Env F) (sha digest : List UInt8 → List UInt8) (rs : List F) (D : ℕ) (cv c : F)
    (l : List (ℕ × Decommitment F)) (ha : ∀ x ∈ l, ∀ y ∈ decReads env rs.length x.2, sha y = env.sha y) :
    verifyQueries { env with sha := sha, digest := digest } rs D cv c l = verifyQueries env rs D cv c l := by
  induction l with
  | nil => rfl
  | cons x l ih =>
    have h1 : verifyQuery { env with sha := sha, digest := digest } x.1 x.2 rs D cv c = verifyQuery env x.1 x.2 rs D cv c := by
      refine verifyQueryLoop_agree env _ _ _ _ _ _ _ _ fun y hy => ?_
      have hm := queryItems_mem _ _ hy
      have hr := ha x List.mem_cons_self
      exact ⟨verifyMerkleProof_agree env sha digest _ fun z hz => hr z (List.mem_flatMap.2 ⟨_, List.mem_append_left _ hm.1, hz⟩),
        verifyMerkleProof_agree env sha digest _ fun z hz => hr z (List.mem_flatMap.2 ⟨_, List.mem_append_right _ hm.2, hz⟩)⟩
    obtain ⟨ch, d⟩ := x
    rw [verifyQueries, verifyQueries, h1, ih fun y hy => ha y (List.mem_cons_of_mem _ hy)]

theorem regenerate_agree (env : Env F) (roots : List F) (t : Transcript) :
    ∃ D : List (List UInt8), D.length ≤ roots.length ∧ ∀ sha digest : List UInt8 → List UInt8,
      (∀ x ∈ D, digest x = env.digest x) →
      regenerate { env with sha := sha, digest := digest } roots t = regenerate env roots t := by
  induction roots generalizing t with
  | nil => exact ⟨[], le_rfl, fun _ _ _ => rfl⟩
  | cons root roots ih =>
    cases hc : (t.feed env root).generateAChallenge env with
    | none =>
      refine ⟨[t.data.getD [] ++ leBytes8 t.index ++ env.toStr root], by simp, fun sha digest h => ?_⟩
      have hf : t.feed { env with sha := sha, digest := digest } root = t.feed env root := by
        unfold Transcript.feed
        dsimp only
        rw [h _ List.mem_cons_self]
      rw [regenerate, regenerate, hf]
      change ((t.feed env root).generateAChallenge env).bind _ = ((t.feed env root).generateAChallenge env).bind _
      rw [hc]
      rfl
    | some ct =>
      obtain ⟨D, hD, hDa⟩ := ih ct.2
      refine ⟨(t.data.getD [] ++ leBytes8 t.index ++ env.toStr root) :: D, by simp [hD], fun sha digest h => ?_⟩
      have hf : t.feed { env with sha := sha, digest := digest } root = t.feed env root := by
        unfold Transcript.feed
        dsimp only
        rw [h _ List.mem_cons_self]
      rw [regenerate, regenerate, hf]
      change ((t.feed env root).generateAChallenge env).bind _ = ((t.feed env root).generateAChallenge env).bind _
      rw [hc]
      dsimp only [Option.bind_some]
      rw [hDa sha digest fun x hx => h x (List.mem_cons_of_mem _ hx)]

theorem pathReads_sum (env : Env F) (l : List (MerkleProof F)) :
    (l.flatMap (proofReads env)).length = (l.map fun p => p.hashProof.length + 1).sum := by
  induction l with
  | nil => rfl
  | cons p l ih =>
    rw [List.flatMap_cons, List.length_append, ih, List.map_cons, List.sum_cons, proofReads, List.length_cons, pathReads_length]

/-- The reads of any proof, counted path by path. -/
theorem reads_general (env : Env F) (pf : Proof F) :
    ReadsAtMost env pf ((pf.decommitmentList.map fun d => (decReads env pf.layersRoot.length d).length).sum)
      (pf.layersRoot.length + 2) := by
  have h0 : ∀ (sha digest : List UInt8 → List UInt8), (∀ x, x = leBytes8 0 ++ env.toStr 0 → digest x = env.digest x) →
      Transcript.new { env with sha := sha, digest := digest } (0 : F) = Transcript.new env 0 := by
    intro sha digest h
    unfold Transcript.new Transcript.feed
    dsimp only [Option.getD_none]
    rw [h _ (by simp)]
  obtain ⟨D, hD, hDa⟩ := regenerate_agree env pf.layersRoot (Transcript.new env 0)
  have hA : (pf.decommitmentList.flatMap (decReads env pf.layersRoot.length)).length =
      (pf.decommitmentList.map fun d => (decReads env pf.layersRoot.length d).length).sum := by
    rw [List.length_flatMap]
  cases hr : regenerate env pf.layersRoot (Transcript.new env 0) with
  | none =>
    refine ⟨[], (leBytes8 0 ++ env.toStr 0) :: D, by simp, by simp; omega, fun sha digest _ h => ?_⟩
    unfold verify
    rw [h0 sha digest fun x hx => h x (by rw [hx]; exact List.mem_cons_self),
      hDa sha digest fun x hx => h x (List.mem_cons_of_mem _ hx), hr]
    rfl
  | some rt =>
    refine ⟨pf.decommitmentList.flatMap (decReads env pf.layersRoot.length),
      (leBytes8 0 ++ env.toStr 0) :: (rt.2.data.getD [] ++ leBytes8 rt.2.index ++ env.toStr pf.constVal) :: D, hA.le,
      by simp; omega, fun sha digest ha h => ?_⟩
    have hf : rt.2.feed { env with sha := sha, digest := digest } pf.constVal = rt.2.feed env pf.constVal := by
      unfold Transcript.feed
      dsimp only
      rw [h _ (List.mem_cons_of_mem _ List.mem_cons_self)]
    unfold verify
    rw [h0 sha digest fun x hx => h x (by rw [hx]; exact List.mem_cons_self),
      hDa sha digest fun x hx => h x (List.mem_cons_of_mem _ (List.mem_cons_of_mem _ hx)), hr]
    dsimp only [Option.bind_eq_bind, Option.bind_some]
    rw [hf]
    have hlen : rt.1.length = pf.layersRoot.length := by
      exact length_regenerate hr
    change ((rt.2.feed env pf.constVal).generateChallengeListUsize env pf.numberOfQueries).bind _ =
      ((rt.2.feed env pf.constVal).generateChallengeListUsize env pf.numberOfQueries).bind _
    refine congrArg _ (funext fun cs => ?_)
    rw [verifyQueries_agree env sha digest]
    intro x hx y hy
    rw [hlen] at hy
    exact ha y (List.mem_flatMap.2 ⟨x.2, (List.of_mem_zip hx).2, hy⟩)

theorem decReads_le (env : Env F) (m : ℕ) (d : Decommitment F) : (decReads env m d).length ≤ d.fieldElements := by
  have key : ∀ l : List (MerkleProof F), ((l.take m).map fun p => p.hashProof.length + 1).sum ≤
      (l.map MerkleProof.fieldElements).sum := by
    intro l
    rw [List.map_take]
    have h1 : ((l.map fun p => p.hashProof.length + 1).take m).sum ≤ (l.map fun p => p.hashProof.length + 1).sum := by
      conv_rhs => rw [← List.take_append_drop m (l.map fun p => p.hashProof.length + 1), List.sum_append]
      exact Nat.le_add_right _ _
    refine h1.trans (List.sum_le_sum fun p _ => ?_)
    unfold MerkleProof.fieldElements
    omega
  unfold decReads Decommitment.fieldElements
  rw [List.flatMap_append, List.length_append, pathReads_sum, pathReads_sum]
  have h1 := key d.authPaths
  have h2 := key d.symAuthPaths
  omega

/-- **C120** (what holds): the verdict on any proof, of whatever shape, depends on no more hash values than the proof has
field elements, and on two transcript digests more than it has roots. -/
theorem C120_reads_partial (env : Env F) (pf : Proof F) : ReadsAtMost env pf pf.fieldElements (pf.layersRoot.length + 2) := by
  obtain ⟨A, D, hA, hD, h⟩ := reads_general env pf
  refine ⟨A, D, hA.trans ?_, hD, h⟩
  have := List.sum_le_sum (l := pf.decommitmentList) (f := fun d => (decReads env pf.layersRoot.length d).length)
    (g := Decommitment.fieldElements) fun d _ => decReads_le env _ d
  unfold Proof.fieldElements
  omega

theorem sum_of_getElem? {α : Type} (f : α → ℕ) (g : ℕ → ℕ) (l : List α) (k : ℕ) (hl : l.length = k)
    (h : ∀ i < k, ∃ a, l[i]? = some a ∧ f a = g (k - i)) : (l.map f).sum = ∑ j ∈ Finset.range k, g (j + 1) := by
  induction l generalizing k with
  | nil => subst hl; rfl
  | cons a l ih =>
    obtain ⟨m, rfl⟩ : ∃ m, k = m + 1 := ⟨l.length, by rw [← hl, List.length_cons]⟩
    rw [List.map_cons, List.sum_cons, Finset.sum_range_succ, ih m (by simpa using hl), add_comm]
    · obtain ⟨b, hb, hf⟩ := h 0 (by omega)
      rw [List.getElem?_cons_zero, Option.some.injEq] at hb
      rw [hb, hf]
      rfl
    · intro i hi
      obtain ⟨b, hb, hf⟩ := h (i + 1) (by omega)
      rw [List.getElem?_cons_succ] at hb
      exact ⟨b, hb, by rw [hf, Nat.add_sub_add_right]⟩

theorem sum_affine (a k : ℕ) : 2 * ∑ j ∈ Finset.range k, (a + (j + 1)) = k * (k + 2 * a + 1) := by
  induction k with
  | zero => simp
  | succ k ih => rw [Finset.sum_range_succ, mul_add, ih]; ring

/-- **C120** (what holds, honest proofs): the proof `generate_proof` returns for a domain of `2^k` elements and `q` queries has
exactly `k + 2 + q k (k + 7)` field elements, and the verdict on it depends on at most `q k (k + 3)` hash values and `k + 2`
digests: the logarithm of the size of the polynomial enters, not the size. -/
theorem C120_honest_partial (env : Env F) (poly : DP F) (b q : ℕ) {pf : Proof F} (h : generateProof env poly b q = some pf) :
    ∃ k, pf.domainSize = 2 ^ k ∧ (∀ j, poly.length * b ≤ 2 ^ j → k ≤ j) ∧
      pf.fieldElements = k + 2 + q * (k * (k + 7)) ∧ ReadsAtMost env pf (q * (k * (k + 3))) (k + 2) := by
  obtain ⟨k, hD, _, hmin, hroots, _, hdl, hds⟩ := C23_shape env poly b q h
  have paths : ∀ d ∈ pf.decommitmentList, ∀ (f : MerkleProof F → ℕ) (a : ℕ), (∀ p, f p = a + p.hashProof.length) →
      2 * (d.authPaths.map f).sum = k * (k + 2 * a + 1) ∧ 2 * (d.symAuthPaths.map f).sum = k * (k + 2 * a + 1) := by
    intro d hd f a hf
    obtain ⟨⟨_, h2, _, h4⟩, hi⟩ := hds d hd
    constructor
    · rw [sum_of_getElem? f (fun j => a + j) _ k h2, sum_affine]
      intro i hik
      obtain ⟨_, path, _, _, _, e, _, _, _, _, _, l, _⟩ := hi i hik
      exact ⟨path, e, by rw [hf, l]⟩
    · rw [sum_of_getElem? f (fun j => a + j) _ k h4, sum_affine]
      intro i hik
      obtain ⟨_, _, _, sp, _, _, _, e, _, _, _, _, l, _⟩ := hi i hik
      exact ⟨sp, e, by rw [hf, l]⟩
  have const : ∀ (f : Decommitment F → ℕ) (c : ℕ), (∀ d ∈ pf.decommitmentList, f d = c) →
      (pf.decommitmentList.map f).sum = q * c := by
    intro f c hf
    rw [List.map_congr_left hf, List.map_const', List.sum_replicate, hdl, smul_eq_mul]
  refine ⟨k, hD, fun j hj => (Nat.pow_le_pow_iff_right (by norm_num)).1 (hmin j hj), ?_, ?_⟩
  · unfold Proof.fieldElements
    rw [const _ (k * (k + 7)), hroots]
    · omega
    · intro d hd
      obtain ⟨p1, p2⟩ := paths d hd MerkleProof.fieldElements 2 fun _ => rfl
      obtain ⟨⟨h1, _, h3, _⟩, _⟩ := hds d hd
      unfold Decommitment.fieldElements
      rw [h1, h3]
      have : k * (k + 7) = k + k + k * (k + 2 * 2 + 1) := by ring
      omega
  · have g := reads_general env pf
    rw [const _ (k * (k + 3)), hroots] at g
    · exact g
    · intro d hd
      obtain ⟨p1, p2⟩ := paths d hd (fun p => p.hashProof.length + 1) 1 fun _ => add_comm _ _
      obtain ⟨⟨_, h2, _, h4⟩, _⟩ := hds d hd
      unfold decReads
      rw [hroots, List.take_of_length_le h2.le, List.take_of_length_le h4.le, List.flatMap_append, List.length_append,
        pathReads_sum, pathReads_sum]
      have : k * (k + 3) = k * (k + 2 * 1 + 1) := by ring
      omega

/-- **C120** (what holds, memory): if the number of queries that the proof claims fits into memory, nothing changes. -/
theorem C120_memory_partial (cap : ℕ) (env : Env F) (pf : Proof F) (h : pf.numberOfQueries ≤ cap) :
    verifyCap cap env pf = verify env pf := by
  have e : ∀ t : Transcript, t.generateChallengeListUsizeCap cap env pf.numberOfQueries =
      t.generateChallengeListUsize env pf.numberOfQueries := by
    intro t
    unfold Transcript.generateChallengeListUsizeCap Transcript.generateChallengeListUsize Transcript.generateChallengesCap
      Transcript.generateChallenges
    simp only [if_neg (Nat.not_lt.2 h)]
  unfold verifyCap verify
  simp only [e]

/-- **C120** is false of the code: there is a proof of two field elements, without roots and queries, whose number of queries
is a 64-bit number and which `verify` would accept, that no machine with fewer than `2^63` cells of memory can process; and
so can it process no other proof with this number of queries. -/
theorem C120_short_proof_exhausts_memory (env : Env F) (hdig : ∀ x, 8 ≤ (env.digest x).length) :
    (∃ pf : Proof F, pf.fieldElements = 2 ∧ pf.domainSize < 2 ^ 64 ∧ pf.numberOfQueries < 2 ^ 64 ∧
      verify env pf = some (.ok ()) ∧ ∀ cap < 2 ^ 63, verifyCap cap env pf = none) ∧
    ∀ (pf : Proof F), ∀ cap < 2 ^ 63, verifyCap cap env { pf with numberOfQueries := 2 ^ 63 } = none := by
  have big : ∀ (pf : Proof F), ∀ cap < 2 ^ 63, verifyCap cap env { pf with numberOfQueries := 2 ^ 63 } = none := by
    intro pf cap hcap
    unfold verifyCap
    dsimp only
    cases regenerate env pf.layersRoot (Transcript.new env 0) with
    | none => rfl
    | some rt =>
      dsimp only [Option.bind_eq_bind, Option.bind_some]
      have : (rt.2.feed env pf.constVal).generateChallengeListUsizeCap cap env (2 ^ 63) = none := by
        unfold Transcript.generateChallengeListUsizeCap Transcript.generateChallengesCap
        simp only [if_pos hcap]
        cases (rt.2.feed env pf.constVal).rngSeed <;> rfl
      rw [this]
      rfl
  refine ⟨⟨⟨1, 0, 2 ^ 63, [], 0, []⟩, rfl, by norm_num, by norm_num, ?_, fun cap hcap => big ⟨1, 0, 0, [], 0, []⟩ cap hcap⟩, big⟩
  rw [verify_ok_iff]
  have hat : At env (Transcript.new env (0 : F)) [0] :=
    At.feed (env := env) (t := ⟨none, 0, true⟩) (ms := []) ⟨rfl, rfl⟩ (0 : F)
  obtain ⟨t', ht'⟩ := (listUsize_iff hat 0 (2 ^ 63) _).2 ⟨long_digestChain env hdig _ (by simp), rfl⟩
  exact ⟨[], Transcript.new env 0, t', _, rfl, ht', fun h => absurd h.1 (by norm_num), by simp⟩

/-- Non-vacuity: `1 + X + 2 X^2` over Goldilocks, blowup 2, three queries: a domain of 8 elements, 3 layers, 95 field elements,
of which the hash is evaluated on at most 54 strings. -/
example (sha : List UInt8 → List UInt8) : ∃ pf, generateProof (eightEnv sha) ([1, 1, 2] : DP Goldilocks) 2 3 = some pf ∧
    pf.fieldElements = 95 ∧ ReadsAtMost (eightEnv sha) pf 54 5 := by
  have key : ∃ pf, generateProof (eightEnv sha) ([1, 1, 2] : DP Goldilocks) 2 3 = some pf ∧
      verify (eightEnv sha) pf = some (.ok ()) := by
    have hc : Nat.clog 2 6 = 3 := by decide
    apply C18_prover_returns
    · intro b; simp [eightEnv, goldEnv]
    · simp
    · show 2 ^ Nat.clog 2 6 ≤ 2 ^ 32
      rw [hc]; norm_num
    · rintro rs ⟨roots, hlr, -, hrs⟩
      have hl : rs.length = Nat.clog 2 6 := by rw [hrs]; simp
      have h0 : ∀ r ∈ rs, r = 0 := by
        intro r hr
        rw [hrs] at hr
        obtain ⟨i, -, rfl⟩ := List.mem_map.1 hr
        rfl
      rw [hc] at hl
      match rs, hl with
      | [a, b, c], _ =>
        rw [h0 a (by simp), h0 b (by simp), h0 c (by simp)]
        decide +kernel
  obtain ⟨pf, h1, -⟩ := key
  obtain ⟨k, hD, hk, hf, hr⟩ := C120_honest_partial _ _ _ _ h1
  have h3 : k = 3 := by
    obtain ⟨k', hD', hle, -⟩ := C23_shape _ _ _ _ h1
    have hkk : k' = k := Nat.pow_right_injective (le_refl 2) (hD'.symm.trans hD)
    have h1 := hk 3 (by simp)
    have h2 : 2 < k := by
      by_contra hc
      have : 2 ^ k' ≤ 2 ^ 2 := Nat.pow_le_pow_right (by norm_num) (by omega)
      simp at hle
      omega
    omega
  subst h3
  exact ⟨pf, h1, hf, hr⟩

end Verif.Fri

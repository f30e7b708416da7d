import Verif.Fri.Fold

/-! # FRI: property theorems C16-C23 -/

set_option linter.unusedSectionVars false

namespace Verif.Fri

open Verif.Ark

variable {F : Type} [FftField F] [DecidableEq F]

/-! ## Specification -/

/-- What the verifier must have checked in layer `i` of a query at position `pos`, for an initial domain
of size `D` and coset `c`, folding challenge `r`: the two paths sit at the two symmetric indices of that
layer, reveal the two values, are valid, and the values fold to `next`. -/
def LayerOk (env : Env F) (D : ℕ) (c : F) (pos i : ℕ) (r ev : F) (path : MerkleProof F) (sev : F)
    (sp : MerkleProof F) (next : F) : Prop :=
  D / 2 ^ i ≠ 0 ∧
  path.index = pos % (D / 2 ^ i) ∧
  sp.index = (pos % (D / 2 ^ i) + D / 2 ^ i / 2) % (D / 2 ^ i) ∧
  path.leafVal = ev ∧ sp.leafVal = sev ∧
  verifyMerkleProof env path = true ∧ verifyMerkleProof env sp = true ∧
  ∃ dom x, Domain.new? (F := F) (D / 2 ^ i) = some dom ∧
    x = dom.gen ^ (pos % (D / 2 ^ i)) * c ^ 2 ^ i ∧ (2 : F) ≠ 0 ∧ x ≠ 0 ∧
    next = (ev + sev) / 2 + r * (ev - sev) / (2 * x)

/-- A decommitment with exactly `m` entries in each of its four vectors. -/
def Decommitment.Shape (d : Decommitment F) (m : ℕ) : Prop :=
  d.evaluations.length = m ∧ d.authPaths.length = m ∧ d.symEvaluations.length = m ∧
    d.symAuthPaths.length = m

/-- All layers of a decommitment are consistent: layer `i` folds to the value of layer `i+1`, the last
layer folds to the constant. -/
def QueryOk (env : Env F) (D : ℕ) (c constVal : F) (pos : ℕ) (rs : List F) (d : Decommitment F) : Prop :=
  ∀ i r ev path sev sp, rs[i]? = some r → d.evaluations[i]? = some ev → d.authPaths[i]? = some path →
    d.symEvaluations[i]? = some sev → d.symAuthPaths[i]? = some sp →
    LayerOk env D c pos i r ev path sev sp ((d.evaluations[i + 1]?).getD constVal)

/-- The folding challenge of layer `i` for layer roots `roots`: drawn after the messages `0`, root `0`, …,
root `i`. -/
def foldChallenge (env : Env F) (roots : List F) (i : ℕ) : F := challengeAfter env (0 :: roots.take (i + 1)) 0

/-- The folding challenges and query positions determined by a proof: folding challenge `i` is drawn after
the roots up to `i`, the positions after all roots and the constant; every digest used as a seed has at
least eight bytes. -/
def Derived (env : Env F) (pf : Proof F) (rs : List F) (positions : List ℕ) : Prop :=
  rs = (List.range pf.layersRoot.length).map (foldChallenge env pf.layersRoot) ∧
  positions = (List.range pf.numberOfQueries).map (fun j =>
    env.low64 (challengeAfter env (0 :: pf.layersRoot ++ [pf.constVal]) j) % pf.domainSize) ∧
  (∀ i < pf.layersRoot.length, 8 ≤ (digestChain env (0 :: pf.layersRoot.take (i + 1))).length) ∧
  8 ≤ (digestChain env (0 :: pf.layersRoot ++ [pf.constVal])).length

/-- `rs` are the folding challenges of an honest run on `poly` over a domain of size `2^k`: they are
determined as above by the Merkle roots of the evaluations of the successively folded polynomials. -/
def HonestChallenges (env : Env F) (poly : DP F) (k : ℕ) (rs : List F) : Prop :=
  ∃ roots : List F, roots.length = k ∧
    (∀ i < k, ∃ layer root, FriLayer.fromPoly env ((rs.take i).foldl foldPolynomial poly)
        ((FftField.generator : F) ^ 2 ^ i) (2 ^ (k - i)) = some layer ∧
        layer.merkleTree.root? = some root ∧ roots[i]? = some root) ∧
    rs = (List.range k).map (foldChallenge env roots)

/-! ## The transcript of verifier and prover -/

theorem generateAChallenge_at {env : Env F} {t : Transcript} {ms : List F} (h : At env t ms) (m : F)
    (x : F) (t' : Transcript) : (t.feed env m).generateAChallenge env = some (x, t') ↔
      8 ≤ (digestChain env (ms ++ [m])).length ∧ x = challengeAfter env (ms ++ [m]) 0 ∧
        t' = { t.feed env m with generated := true } := by
  have h1 := (h.feed m).1
  unfold Transcript.generateAChallenge Transcript.rngSeed
  rw [if_neg (by simp [Transcript.feed]), h1]
  dsimp only
  split
  · simp only [Option.bind_eq_bind, Option.bind_none, reduceCtorEq, false_iff, not_and]
    intro; omega
  · rename_i h8
    simp only [Option.bind_eq_bind, Option.bind_some, pure, Option.some.injEq, Prod.mk.injEq]
    constructor
    · rintro ⟨rfl, rfl⟩; exact ⟨by omega, rfl, rfl⟩
    · rintro ⟨-, rfl, rfl⟩; exact ⟨rfl, rfl⟩

theorem regenerate_iff {env : Env F} {t : Transcript} {ms : List F} (h : At env t ms) (roots rs : List F) :
    (∃ t', regenerate env roots t = some (rs, t')) ↔
      rs = (List.range roots.length).map (fun i => challengeAfter env (ms ++ roots.take (i + 1)) 0) ∧
      ∀ i < roots.length, 8 ≤ (digestChain env (ms ++ roots.take (i + 1))).length := by
  induction roots generalizing t ms rs with
  | nil =>
    simp only [regenerate, Option.some.injEq, Prod.mk.injEq, List.length_nil, List.range_zero, List.map_nil,
      Nat.not_lt_zero, false_implies, implies_true, and_true]
    constructor
    · rintro ⟨_, rfl, -⟩; rfl
    · rintro rfl; exact ⟨t, rfl, rfl⟩
  | cons a roots ih =>
    have hat : At env { t.feed env a with generated := true } (ms ++ [a]) := h.feed a
    constructor
    · rintro ⟨t', hreg⟩
      simp only [regenerate, Option.bind_eq_bind, Option.bind_eq_some_iff, pure, Option.some.injEq,
        Prod.mk.injEq] at hreg
      obtain ⟨⟨x, t1⟩, hx, ⟨rs', t2⟩, hr, rfl, rfl⟩ := hreg
      obtain ⟨h8, rfl, rfl⟩ := (generateAChallenge_at h a x t1).1 hx
      obtain ⟨e1, e2⟩ := (ih hat rs').1 ⟨t2, hr⟩
      refine ⟨?_, ?_⟩
      · rw [List.length_cons, List.range_succ_eq_map, List.map_cons, List.map_map]
        dsimp only
        rw [e1]
        refine congrArg₂ _ (by simp) ?_
        apply List.map_congr_left
        intro i _
        simp
      · intro i hi
        cases i with
        | zero => simpa using h8
        | succ i => simpa using e2 i (by simpa using hi)
    · rintro ⟨rfl, hlong⟩
      have h0 := hlong 0 (by simp)
      simp only [List.take_succ_cons, List.take_zero] at h0
      have hx := (generateAChallenge_at h a _ _).2 ⟨h0, rfl, rfl⟩
      obtain ⟨t', ht'⟩ := (ih hat _).2 ⟨rfl, fun i hi => by
        have := hlong (i + 1) (by simpa using hi); simpa using this⟩
      refine ⟨t', ?_⟩
      rw [regenerate, hx]
      simp only [Option.bind_eq_bind, Option.bind_some]
      rw [ht', List.length_cons, List.range_succ_eq_map, List.map_cons, List.map_map]
      simp [Function.comp_def]

theorem regenerate_at {env : Env F} {t t' : Transcript} {ms roots rs : List F} (h : At env t ms)
    (hr : regenerate env roots t = some (rs, t')) : At env t' (ms ++ roots) := by
  induction roots generalizing t ms rs with
  | nil =>
    simp only [regenerate, Option.some.injEq, Prod.mk.injEq] at hr
    rw [← hr.2]; simpa using h
  | cons a roots ih =>
    simp only [regenerate, Option.bind_eq_bind, Option.bind_eq_some_iff, pure, Option.some.injEq,
      Prod.mk.injEq] at hr
    obtain ⟨⟨x, t1⟩, hx, ⟨rs', t2⟩, hr, rfl, rfl⟩ := hr
    obtain ⟨-, -, rfl⟩ := (generateAChallenge_at h a x t1).1 hx
    have := ih (ms := ms ++ [a]) (t := { t.feed env a with generated := true }) (h.feed a) hr
    simpa using this

theorem listUsize_iff {env : Env F} {t : Transcript} {ms : List F} (h : At env t ms) (m : F) (q : ℕ)
    (vs : List ℕ) : (∃ t', (t.feed env m).generateChallengeListUsize env q = some (vs, t')) ↔
      8 ≤ (digestChain env (ms ++ [m])).length ∧
        vs = (List.range q).map (fun j => env.low64 (challengeAfter env (ms ++ [m]) j)) := by
  have h1 := (h.feed m).1
  unfold Transcript.generateChallengeListUsize Transcript.generateChallenges Transcript.rngSeed
  rw [if_neg (by simp [Transcript.feed]), h1]
  dsimp only
  split
  · simp only [Option.bind_eq_bind, Option.bind_none, reduceCtorEq, exists_false, false_iff, not_and]
    intro; omega
  · rename_i h8
    simp only [Option.bind_eq_bind, Option.bind_some, pure, Option.some.injEq, Prod.mk.injEq, List.map_map]
    constructor
    · rintro ⟨_, rfl, -⟩; exact ⟨by omega, rfl⟩
    · rintro ⟨-, rfl⟩; exact ⟨_, rfl, rfl⟩

/-- The specification of the challenges is what the transcript computes. -/
theorem derived_iff (env : Env F) (pf : Proof F) (rs : List F) (positions : List ℕ) :
    Derived env pf rs positions ↔
    ∃ t t' vs, regenerate env pf.layersRoot (Transcript.new env 0) = some (rs, t) ∧
      (t.feed env pf.constVal).generateChallengeListUsize env pf.numberOfQueries = some (vs, t') ∧
      positions = vs.map (· % pf.domainSize) := by
  have h0 := at_new env 0
  constructor
  · rintro ⟨rfl, rfl, h1, h2⟩
    obtain ⟨t, ht⟩ := (regenerate_iff h0 pf.layersRoot _).2 ⟨rfl, h1⟩
    obtain ⟨t', ht'⟩ := (listUsize_iff (regenerate_at h0 ht) pf.constVal pf.numberOfQueries _).2 ⟨h2, rfl⟩
    exact ⟨t, t', _, ht, ht', by simp [Function.comp_def]⟩
  · rintro ⟨t, t', vs, ht, ht', rfl⟩
    obtain ⟨rfl, h1⟩ := (regenerate_iff h0 pf.layersRoot rs).1 ⟨t, ht⟩
    obtain ⟨h2, rfl⟩ := (listUsize_iff (regenerate_at h0 ht) pf.constVal pf.numberOfQueries vs).1 ⟨t', ht'⟩
    exact ⟨rfl, by simp [Function.comp_def], h1, h2⟩

/-! ## C16 -/

/-- **C16** (identity). -/
theorem C16_fold_identity (p : DP F) (r x : F) (hx : x ≠ 0) (h2 : (2 : F) ≠ 0) :
    Ark.eval (foldPolynomial p r) (x ^ 2) =
      (Ark.eval p x + Ark.eval p (-x)) / 2 + r * (Ark.eval p x - Ark.eval p (-x)) / (2 * x) := by
  rw [pow_two]; exact fold_identity p r x hx h2

theorem evens_getD {α : Type} (l : List α) (i : ℕ) (z : α) :
    (evens l)[i]?.getD z = l[2 * i]?.getD z := by
  induction l using evens.induct generalizing i with
  | case1 => simp [evens]
  | case2 a => cases i <;> simp [evens, Nat.mul_succ]
  | case3 a b t ih =>
    cases i with
    | zero => simp [evens]
    | succ i => simp only [evens, List.getElem?_cons_succ, Nat.mul_succ, ih]

/-- **C16** (coefficients): coefficient `i` of the fold is `p_{2i} + r p_{2i+1}`, and the fold has at most
half as many coefficients, rounded up. -/
theorem C16_fold_coeffs (p : DP F) (r : F) :
    (∀ i, (foldPolynomial p r)[i]?.getD 0 = p[2 * i]?.getD 0 + r * p[2 * i + 1]?.getD 0) ∧
      (foldPolynomial p r).length ≤ (p.length + 1) / 2 := by
  refine ⟨fun i => ?_, length_fold_le p r⟩
  have h : ∀ (l : DP F) j, l[j]?.getD 0 = (toPoly l).coeff j := fun l j => (coeff_toPoly l j).symm
  rw [h, foldPolynomial, toPoly_add, toPoly_smul, toPoly_fromCoeffs, toPoly_fromCoeffs,
    Polynomial.coeff_add, Polynomial.coeff_C_mul, ← h, ← h, evens_getD, evens_getD, List.getElem?_drop,
    add_comm 1]

/-! ## C17 -/

/-- **C17**. -/
theorem C17_layer (env : Env F) (p : DP F) (c : F) (k : ℕ) :
    (k ≤ FftField.twoAdicity F → ∃ layer w, FriLayer.fromPoly env p c (2 ^ k) = some layer ∧
      IsPrimitiveRoot w (2 ^ k) ∧ layer.evaluations.length = 2 ^ k ∧
      (∀ i < 2 ^ k, layer.evaluations[i]? = some (Ark.eval p (c * w ^ i))) ∧
      layer.merkleTree = MerkleTree.new env layer.evaluations ∧ layer.coset = c ∧
      layer.domainSize = 2 ^ k) ∧
    (FftField.twoAdicity F < k → FriLayer.fromPoly env p c (2 ^ k) = none) := by
  refine ⟨fun h => ⟨_, rootOf F k, fromPoly_eq env p c k h, rootOf_prim k h, by simp, fun i hi => ?_,
    rfl, rfl, rfl⟩, fun h => fromPoly_none env p c k (by omega)⟩
  simp only
  rw [List.getElem?_map, List.getElem?_range hi, mul_comm c]; rfl

/-! ## Prover -/

theorem layersOf_ne_nil (env : Env F) (p : DP F) (c : F) (rs : List F) (h : 0 < rs.length) :
    layersOf env p c rs ≠ [] := by
  cases rs with
  | nil => simp at h
  | cons r rs => simp [layersOf]

theorem mapM_isSome {α β : Type} (f : α → Option β) (l : List α) (h : ∀ a ∈ l, ∃ b, f a = some b) :
    ∃ bs, l.mapM f = some bs ∧ bs.length = l.length := by
  induction l with
  | nil => exact ⟨[], rfl, rfl⟩
  | cons a l ih =>
    obtain ⟨b, hb⟩ := h a (by simp)
    obtain ⟨bs, hbs, hl⟩ := ih fun x hx => h x (by simp [hx])
    exact ⟨b :: bs, by rw [List.mapM_cons, hb, hbs]; rfl, by simp [hl]⟩

theorem mapM_getElem {α β : Type} {f : α → Option β} {l : List α} {bs : List β}
    (h : l.mapM f = some bs) : bs.length = l.length ∧
      ∀ (i : ℕ) a, l[i]? = some a → ∃ b, bs[i]? = some b ∧ f a = some b := by
  induction l generalizing bs with
  | nil =>
    simp only [List.mapM_nil, pure, Option.some.injEq] at h
    subst h; simp
  | cons a l ih =>
    rw [List.mapM_cons] at h
    simp only [Option.bind_eq_bind, Option.bind_eq_some_iff, pure, Option.some.injEq] at h
    obtain ⟨b, hb, bs', hbs', rfl⟩ := h
    obtain ⟨hl, hg⟩ := ih hbs'
    refine ⟨by simp [hl], fun i x hx => ?_⟩
    cases i with
    | zero =>
      simp only [List.getElem?_cons_zero, Option.some.injEq] at hx
      exact ⟨b, rfl, hx ▸ hb⟩
    | succ i =>
      simp only [List.getElem?_cons_succ] at hx ⊢
      exact hg i x hx

theorem layersOf_getElem (env : Env F) (p : DP F) (c : F) (rs : List F) (i : ℕ) (hi : i < rs.length) :
    (layersOf env p c rs)[i]? = some (layerOf env ((rs.take i).foldl foldPolynomial p) (c ^ 2 ^ i)
      (rs.length - i)) := by
  induction rs generalizing p c i with
  | nil => simp at hi
  | cons r rs ih =>
    cases i with
    | zero => simp [layersOf]
    | succ i =>
      simp only [List.length_cons] at hi
      rw [layersOf, List.getElem?_cons_succ, ih _ _ _ (by omega)]
      simp only [List.take_succ_cons, List.foldl_cons, List.length_cons]
      rw [← pow_two, ← pow_mul, ← pow_succ', Nat.add_sub_add_right]

theorem length_layersOf (env : Env F) (p : DP F) (c : F) (rs : List F) :
    (layersOf env p c rs).length = rs.length := by
  induction rs generalizing p c with
  | nil => rfl
  | cons r rs ih => simp [layersOf, ih]

theorem log_nextPow2 (n : ℕ) : Nat.log 2 (nextPow2 n) = Nat.clog 2 n := by
  unfold nextPow2; rw [Nat.log_pow (by norm_num)]

theorem generateChallengeListUsize_feed (env : Env F) (hdig : ∀ b, 8 ≤ (env.digest b).length)
    (t : Transcript) (m : F) (q : ℕ) :
    ∃ ct, (t.feed env m).generateChallengeListUsize env q = some ct := by
  have h8 := hdig (t.data.getD [] ++ leBytes8 t.index ++ env.toStr m)
  have hn : ¬ ((t.feed env m).data.getD []).length < 8 := by
    simp only [Transcript.feed, Option.getD_some]; omega
  have hs : ∃ st, (t.feed env m).rngSeed = some st := by
    unfold Transcript.rngSeed
    rw [if_neg hn]
    exact ⟨_, rfl⟩
  obtain ⟨st, hst⟩ := hs
  unfold Transcript.generateChallengeListUsize Transcript.generateChallenges
  rw [hst]
  exact ⟨_, rfl⟩

theorem length_challengeList {env : Env F} {t t' : Transcript} {q : ℕ} {vs : List ℕ}
    (h : t.generateChallengeListUsize env q = some (vs, t')) : vs.length = q := by
  unfold Transcript.generateChallengeListUsize Transcript.generateChallenges at h
  simp only [Option.bind_eq_bind, Option.bind_eq_some_iff, pure, Option.some.injEq] at h
  obtain ⟨ct, ⟨st, -, rfl⟩, h⟩ := h
  have := (Prod.ext_iff.1 h).1
  simp only at this
  rw [← this]; simp

/-- Everything there is to know about a returned proof. -/
theorem generateProof_spec (env : Env F) {poly : DP F} {b q : ℕ} {pf : Proof F}
    (h : generateProof env poly b q = some pf) :
    ∃ (rs : List F) (t t' : Transcript) (vs : List ℕ),
      rs.length = Nat.clog 2 (poly.length * b) ∧ 0 < rs.length ∧ rs.length ≤ FftField.twoAdicity F ∧
      pf.domainSize = 2 ^ rs.length ∧ pf.coset = FftField.generator ∧ pf.numberOfQueries = q ∧
      ((layersOf env poly FftField.generator rs).mapM fun l => l.merkleTree.root?) = some pf.layersRoot ∧
      regenerate env pf.layersRoot (Transcript.new env 0) = some (rs, t) ∧
      (rs.foldl foldPolynomial poly) = [pf.constVal] ∧
      (t.feed env pf.constVal).generateChallengeListUsize env q = some (vs, t') ∧
      (vs.map (· % 2 ^ rs.length)).mapM (queryOne (layersOf env poly FftField.generator rs)) =
        some pf.decommitmentList := by
  unfold generateProof at h
  simp only [Option.bind_eq_bind, Option.bind_eq_some_iff, pure, Option.some.injEq] at h
  obtain ⟨⟨const, t2, layers⟩, hfp, ⟨decs, cl⟩, hqp, roots, hroots, rfl⟩ := h
  rw [log_nextPow2] at hfp
  rw [foldingPhase] at hfp
  split at hfp
  · simp at hfp
  rename_i hk0
  simp only [Option.bind_eq_bind, Option.bind_eq_some_iff] at hfp
  obtain ⟨⟨pfin, t1, layers'⟩, hloop, hfp⟩ := hfp
  split at hfp
  · simp at hfp
  rename_i hlen
  simp only [pure, Option.some.injEq, Prod.mk.injEq] at hfp
  obtain ⟨rfl, rfl, rfl⟩ := hfp
  obtain ⟨roots', rs, hrl, hlay, hpf, hroots', hreg, hta⟩ := foldLoop_spec env _ _ _ _ hloop
  have hrr : roots' = roots := Option.some.inj (hroots'.symm.trans hroots)
  subst hrr
  have hne : layers' ≠ [] := by rw [hlay]; exact layersOf_ne_nil _ _ _ _ (by omega)
  simp only [not_not] at hlen
  obtain ⟨a, ha⟩ := List.length_eq_one_iff.1 hlen
  have hca : Ark.eval pfin 0 = a := by rw [ha]; simp [Ark.eval]
  simp only at hca hqp
  unfold queryPhase at hqp
  rw [if_neg (by simpa using hne)] at hqp
  simp only [Option.bind_eq_bind, Option.bind_eq_some_iff] at hqp
  obtain ⟨⟨vs, t3⟩, hvs, hqp⟩ := hqp
  split at hqp
  · simp at hqp
  simp only [Option.bind_eq_some_iff, pure, Option.some.injEq, Prod.mk.injEq] at hqp
  obtain ⟨decs', hdecs, rfl, rfl⟩ := hqp
  refine ⟨rs, t1, t3, vs, hrl, by omega, by rw [hrl]; exact hta (by omega), ?_, rfl, rfl, ?_, hreg, ?_, hvs, ?_⟩
  · rw [hrl]; rfl
  · rw [← hlay]; exact hroots
  · rw [← hpf]; simp only; rw [hca, ha]
  · rw [← hlay, hrl]; exact hdecs

theorem verifyQueries_ok_iff (env : Env F) (rs : List F) (D : ℕ) (cv c : F)
    (l : List (ℕ × Decommitment F)) :
    verifyQueries env rs D cv c l = some (.ok ()) ↔
      ∀ x ∈ l, verifyQuery env x.1 x.2 rs D cv c = some (.ok ()) := by
  induction l with
  | nil => simp [verifyQueries]
  | cons x l ih =>
    obtain ⟨ch, d⟩ := x
    rw [verifyQueries, List.forall_mem_cons, ← ih]
    cases verifyQuery env ch d rs D cv c with
    | none => simp
    | some e =>
      cases e with
      | error => simp
      | ok u => cases u; simp

theorem verify_ok_iff (env : Env F) (pf : Proof F) :
    verify env pf = some (.ok ()) ↔ ∃ rs t t' vs,
      regenerate env pf.layersRoot (Transcript.new env 0) = some (rs, t) ∧
      (t.feed env pf.constVal).generateChallengeListUsize env pf.numberOfQueries = some (vs, t') ∧
      ¬ (pf.domainSize = 0 ∧ vs ≠ []) ∧
      ∀ x ∈ (vs.map (· % pf.domainSize)).zip pf.decommitmentList,
        verifyQuery env x.1 x.2 rs pf.domainSize pf.constVal pf.coset = some (.ok ()) := by
  unfold verify
  simp only [Option.bind_eq_bind, Option.bind_eq_some_iff]
  constructor
  · rintro ⟨⟨rs, t⟩, h1, ⟨vs, t'⟩, h2, h3⟩
    split at h3
    · simp at h3
    · rename_i hn
      exact ⟨rs, t, t', vs, h1, h2, hn, (verifyQueries_ok_iff _ _ _ _ _ _).1 h3⟩
  · rintro ⟨rs, t, t', vs, h1, h2, hn, h3⟩
    refine ⟨(rs, t), h1, (vs, t'), h2, ?_⟩
    rw [if_neg hn]
    exact (verifyQueries_ok_iff _ _ _ _ _ _).2 h3

/-! ## C18 -/

/-- **C18** (completeness): whatever proof the prover returns is accepted. -/
theorem C18_completeness (env : Env F) (poly : DP F) (b q : ℕ) {pf : Proof F}
    (h : generateProof env poly b q = some pf) : verify env pf = some (.ok ()) := by
  obtain ⟨rs, t, t', vs, hlen, hpos, hta, hD, hc, hq, hroots, hreg, hconst, hvs, hdecs⟩ :=
    generateProof_spec env h
  rw [verify_ok_iff]
  refine ⟨rs, t, t', vs, hreg, by rw [hq]; exact hvs, ?_, ?_⟩
  · rintro ⟨h0, -⟩; rw [hD] at h0; exact absurd h0 (by positivity)
  · intro x hx
    obtain ⟨i, hi⟩ := List.mem_iff_getElem?.1 hx
    rw [List.getElem?_zip_eq_some] at hi
    obtain ⟨-, hg⟩ := mapM_getElem hdecs
    rw [hD] at hi ⊢
    obtain ⟨d, hd1, hd2⟩ := hg i x.1 hi.1
    rw [hi.2] at hd1
    obtain rfl := Option.some.inj hd1
    unfold queryOne at hd2
    simp only [Option.bind_eq_bind, Option.bind_eq_some_iff, pure, Option.some.injEq] at hd2
    obtain ⟨rows, hrows, hd2⟩ := hd2
    rw [verifyQuery, ← hd2, hc]
    exact verifyQueryLoop_honest env x.1 rs poly _ FftField.generator_ne_zero hta pf.constVal
      (by intro x; rw [hconst]; simp [Ark.eval]) rows hrows []

theorem long_digestChain (env : Env F) (hdig : ∀ b, 8 ≤ (env.digest b).length) (ms : List F) (h : ms ≠ []) :
    8 ≤ (digestChain env ms).length := by
  rcases List.eq_nil_or_concat ms with rfl | ⟨l, m, rfl⟩
  · exact absurd rfl h
  · rw [List.concat_eq_append, digestChain_append]; exact hdig _

theorem honest_iff (env : Env F) (hdig : ∀ b, 8 ≤ (env.digest b).length) (poly : DP F) (k : ℕ)
    (hk : k ≤ FftField.twoAdicity F) (rs : List F) :
    HonestChallenges env poly k rs ↔ rs.length = k ∧ ∃ roots t',
      ((layersOf env poly FftField.generator rs).mapM fun l => l.merkleTree.root?) = some roots ∧
      regenerate env roots (Transcript.new env 0) = some (rs, t') := by
  constructor
  · rintro ⟨roots, hlr, hr, hrs⟩
    have hl : rs.length = k := by rw [hrs]; simp
    obtain ⟨t', hreg⟩ := (regenerate_iff (at_new env 0) roots rs).2
      ⟨by rw [hlr]; exact hrs, fun i _ => long_digestChain env hdig _ (by simp)⟩
    refine ⟨hl, roots, t', ?_, hreg⟩
    obtain ⟨roots', hm, hml⟩ := mapM_isSome (fun l : FriLayer F => l.merkleTree.root?)
      (layersOf env poly FftField.generator rs) (by
        intro a ha
        obtain ⟨i, hi⟩ := List.mem_iff_getElem?.1 ha
        have hi' : i < rs.length := by
          have := (List.getElem?_eq_some_iff.1 hi).1
          rwa [length_layersOf] at this
        rw [layersOf_getElem _ _ _ _ _ hi'] at hi
        obtain rfl := Option.some.inj hi
        exact layerOf_root _ _ _ _)
    rw [hm]
    congr 1
    rw [length_layersOf] at hml
    apply List.ext_getElem?
    intro i
    by_cases hi : i < k
    · obtain ⟨layer, root, h1, h2, h3⟩ := hr i hi
      rw [h3]
      obtain ⟨r, hr1, hr2⟩ := (mapM_getElem hm).2 i _ (layersOf_getElem env poly _ rs i (by omega))
      rw [hr1]
      have : FriLayer.fromPoly env ((rs.take i).foldl foldPolynomial poly)
          ((FftField.generator : F) ^ 2 ^ i) (2 ^ (k - i)) = some (layerOf env _ _ (k - i)) :=
        fromPoly_eq env _ _ _ (by omega)
      rw [this] at h1
      obtain rfl := Option.some.inj h1
      rw [hl, h2] at hr2
      exact hr2.symm
    · rw [List.getElem?_eq_none (by omega), List.getElem?_eq_none (by omega)]
  · rintro ⟨hl, roots, t', hm, hreg⟩
    obtain ⟨h1, h2⟩ := mapM_getElem hm
    rw [length_layersOf] at h1
    refine ⟨roots, by omega, fun i hi => ?_, by
      have := ((regenerate_iff (at_new env 0) roots rs).1 ⟨t', hreg⟩).1
      rw [show roots.length = k by omega] at this
      exact this⟩
    obtain ⟨root, hr1, hr2⟩ := h2 i _ (layersOf_getElem env poly _ rs i (by omega))
    rw [hl] at hr2
    exact ⟨_, root, fromPoly_eq env _ _ _ (by omega), hr2, hr1⟩

theorem queryOne_isSome (env : Env F) (p : DP F) (c : F) (rs : List F) (ch : ℕ) :
    ∃ d, queryOne (layersOf env p c rs) ch = some d := by
  obtain ⟨rows, h, -⟩ := queryRows_isSome env rs p c ch
  unfold queryOne
  rw [h]; exact ⟨_, rfl⟩

/-- The prover returns as soon as the final folded polynomial has one coefficient. -/
theorem generateProof_isSome (env : Env F) (hdig : ∀ b, 8 ≤ (env.digest b).length) (poly : DP F)
    (b q : ℕ) (h2 : 2 ≤ poly.length * b) (hta : nextPow2 (poly.length * b) ≤ 2 ^ FftField.twoAdicity F)
    (hfin : ∀ rs, HonestChallenges env poly (Nat.clog 2 (poly.length * b)) rs →
      rs.foldl foldPolynomial poly ≠ []) : ∃ pf, generateProof env poly b q = some pf := by
  have hk : Nat.clog 2 (poly.length * b) ≤ FftField.twoAdicity F := by
    unfold nextPow2 at hta
    exact (Nat.pow_le_pow_iff_right (by norm_num)).1 hta
  have hkpos : Nat.clog 2 (poly.length * b) ≠ 0 := (Nat.clog_pos (by norm_num) h2).ne'
  obtain ⟨⟨pfin, t1, layers⟩, hloop⟩ := foldLoop_isSome env hdig _ hk poly FftField.generator
    (Transcript.new env 0)
  obtain ⟨roots, rs, hrl, hlay, hpf, hroots, hreg, -⟩ := foldLoop_spec env _ _ _ _ hloop
  have hhon : HonestChallenges env poly (Nat.clog 2 (poly.length * b)) rs :=
    (honest_iff env hdig poly _ hk rs).2 ⟨hrl, roots, t1, by rw [← hlay]; exact hroots, hreg⟩
  have hb : 0 < b := by
    rcases Nat.eq_zero_or_pos b with rfl | h
    · simp at h2
    · exact h
  have hl1 : pfin.length = 1 := by
    have h1 : pfin.length ≤ 1 := by
      rw [hpf]
      apply length_foldl_le
      rw [hrl]
      calc poly.length ≤ poly.length * b := Nat.le_mul_of_pos_right _ hb
        _ ≤ _ := Nat.le_pow_clog (by norm_num) _
    have h0 : pfin ≠ [] := by rw [hpf]; exact hfin rs hhon
    have := List.length_pos_iff.2 h0
    omega
  have hfp : foldingPhase env poly FftField.generator (nextPow2 (poly.length * b))
      (Nat.clog 2 (poly.length * b)) = some (Ark.eval pfin 0, t1.feed env (Ark.eval pfin 0), layers) := by
    unfold foldingPhase
    rw [if_neg hkpos]
    change (do let res ← foldLoop env _ poly FftField.generator (2 ^ _) _; _) = _
    rw [hloop]
    simp only [Option.bind_eq_bind, Option.bind_some]
    rw [if_neg (by simp [hl1])]; rfl
  obtain ⟨⟨vs, t3⟩, hvs⟩ := generateChallengeListUsize_feed env hdig t1 (Ark.eval pfin 0) q
  obtain ⟨decs, hdecs, -⟩ := mapM_isSome (queryOne layers)
    (vs.map fun v => v % nextPow2 (poly.length * b)) (by
      intro a _; rw [hlay]; exact queryOne_isSome env _ _ _ _)
  have hqp : queryPhase env q (nextPow2 (poly.length * b)) (t1.feed env (Ark.eval pfin 0)) layers =
      some (decs, vs.map fun v => v % nextPow2 (poly.length * b)) := by
    unfold queryPhase
    have hne : layers ≠ [] := by rw [hlay]; exact layersOf_ne_nil _ _ _ _ (by omega)
    rw [if_neg (by simpa using hne), hvs]
    simp only [Option.bind_eq_bind, Option.bind_some]
    have hD0 : nextPow2 (poly.length * b) ≠ 0 := by unfold nextPow2; positivity
    rw [if_neg (by tauto), hdecs]; rfl
  unfold generateProof
  simp only [log_nextPow2]
  rw [hfp]
  simp only [Option.bind_eq_bind, Option.bind_some]
  rw [hqp]
  simp only [Option.bind_some]
  rw [hroots]
  exact ⟨_, rfl⟩

/-- **C18** (the prover returns): for digests of at least eight bytes, every polynomial with `d`
coefficients and blowup `b`, `2 ≤ d b` within the two-adicity, whose final fold is not zero gets a
proof, which verifies. -/
theorem C18_prover_returns (env : Env F) (hdig : ∀ b, 8 ≤ (env.digest b).length) (poly : DP F)
    (b q : ℕ) (h2 : 2 ≤ poly.length * b) (hta : nextPow2 (poly.length * b) ≤ 2 ^ FftField.twoAdicity F)
    (hfin : ∀ rs, HonestChallenges env poly (Nat.clog 2 (poly.length * b)) rs →
      Ark.eval (rs.foldl foldPolynomial poly) 0 ≠ 0) :
    ∃ pf, generateProof env poly b q = some pf ∧ verify env pf = some (.ok ()) := by
  obtain ⟨pf, h⟩ := generateProof_isSome env hdig poly b q h2 hta fun rs hrs he =>
    hfin rs hrs (by rw [he]; simp [Ark.eval])
  exact ⟨pf, h, C18_completeness env poly b q h⟩

/-! ## C19 -/

/-- **C19**: `generate_proof` panics exactly when the product of coefficient count and blowup is at most
one, the domain exceeds the two-adicity, or the final folded polynomial has no coefficient. -/
theorem C19_panics_iff (env : Env F) (hdig : ∀ b, 8 ≤ (env.digest b).length) (poly : DP F) (b q : ℕ) :
    generateProof env poly b q = none ↔
      poly.length * b ≤ 1 ∨ 2 ^ FftField.twoAdicity F < nextPow2 (poly.length * b) ∨
      ∃ rs, HonestChallenges env poly (Nat.clog 2 (poly.length * b)) rs ∧
        rs.foldl foldPolynomial poly = [] := by
  constructor
  · intro h
    by_contra hn
    push Not at hn
    obtain ⟨h1, h2, h3⟩ := hn
    obtain ⟨pf, hpf⟩ := generateProof_isSome env hdig poly b q h1 h2 h3
    rw [hpf] at h; simp at h
  · intro h
    by_contra hn
    obtain ⟨pf, hpf⟩ := Option.ne_none_iff_exists'.1 hn
    obtain ⟨rs, t, t', vs, hlen, hpos, hta, hD, hc, hq, hroots, hreg, hconst, hvs, hdecs⟩ :=
      generateProof_spec env hpf
    rcases h with h | h | ⟨rs', hrs', h⟩
    · rw [hlen, Nat.clog_of_right_le_one h] at hpos; omega
    · rw [hlen] at hta
      unfold nextPow2 at h
      exact absurd (Nat.pow_le_pow_right (by norm_num : 0 < 2) hta) (by omega)
    · rw [hlen] at hta
      obtain ⟨hl', roots', t2, hm', hreg'⟩ := (honest_iff env hdig poly _ hta rs').1 hrs'
      -- both challenge lists come out of the same deterministic run
      have key : ∀ (n : ℕ) (p : DP F) (c : F) (t : Transcript) (as bs : List F) (ra rb : List F)
          (ta tb : Transcript), as.length = n → bs.length = n →
          ((layersOf env p c as).mapM fun l => l.merkleTree.root?) = some ra →
          ((layersOf env p c bs).mapM fun l => l.merkleTree.root?) = some rb →
          regenerate env ra t = some (as, ta) → regenerate env rb t = some (bs, tb) → as = bs := by
        intro n
        induction n with
        | zero =>
          intro p c t as bs ra rb ta tb ha hb _ _ _ _
          rw [List.length_eq_zero_iff.1 ha, List.length_eq_zero_iff.1 hb]
        | succ n ih =>
          intro p c t as bs ra rb ta tb ha hb hma hmb hra hrb
          obtain ⟨a, as, rfl⟩ := List.exists_cons_of_length_eq_add_one ha
          obtain ⟨b', bs, rfl⟩ := List.exists_cons_of_length_eq_add_one hb
          simp only [List.length_cons, Nat.add_right_cancel_iff] at ha hb
          rw [layersOf, List.mapM_cons] at hma hmb
          simp only [Option.bind_eq_bind, Option.bind_eq_some_iff, pure, Option.some.injEq] at hma hmb
          obtain ⟨r1, h1, ra', hra', rfl⟩ := hma
          obtain ⟨r2, h2, rb', hrb', rfl⟩ := hmb
          rw [ha] at h1
          rw [hb] at h2
          obtain rfl := Option.some.inj (h1.symm.trans h2)
          rw [regenerate] at hra hrb
          simp only [Option.bind_eq_bind, Option.bind_eq_some_iff, pure, Option.some.injEq,
            Prod.mk.injEq, List.cons.injEq] at hra hrb
          obtain ⟨c1, hc1, x1, hx1, ⟨e1, e2⟩, -⟩ := hra
          obtain ⟨c2, hc2, x2, hx2, ⟨e3, e4⟩, -⟩ := hrb
          obtain rfl := Option.some.inj (hc1.symm.trans hc2)
          subst e1 e3 e2 e4
          rw [ih (foldPolynomial p c1.1) (c * c) c1.2 x1.1 x2.1 ra' rb' x1.2 x2.2 ha hb hra' hrb' hx1 hx2]
      have := key _ _ _ _ rs rs' _ _ _ _ hlen hl' hroots hm' hreg hreg'
      rw [this, h] at hconst
      simp at hconst

/-! ## C20 -/

theorem queryItems_getElem (d : Decommitment F) (rs : List F) (i : ℕ) (x : (((F × MerkleProof F) × F) ×
    MerkleProof F) × F) : (queryItems d rs)[i]? = some x ↔
      d.evaluations[i]? = some x.1.1.1.1 ∧ d.authPaths[i]? = some x.1.1.1.2 ∧
      d.symEvaluations[i]? = some x.1.1.2 ∧ d.symAuthPaths[i]? = some x.1.2 ∧ rs[i]? = some x.2 := by
  unfold queryItems
  simp only [List.getElem?_zip_eq_some, and_assoc]

/-- The loop from round `i` on. -/
theorem verifyQueryLoop_iff (env : Env F) (pos : ℕ) (d : Decommitment F) (rs : List F) (D : ℕ)
    (cv c : F) (m : ℕ) (hd : d.Shape m) (hrs : rs.length = m) (i : ℕ) (hi : i ≤ m) :
    verifyQueryLoop env pos d.evaluations cv i ((queryItems d rs).drop i) (D / 2 ^ i) (c ^ 2 ^ i) =
      some (.ok ()) ↔
    ∀ j, i ≤ j → ∀ r ev path sev sp, rs[j]? = some r → d.evaluations[j]? = some ev →
      d.authPaths[j]? = some path → d.symEvaluations[j]? = some sev → d.symAuthPaths[j]? = some sp →
      LayerOk env D c pos j r ev path sev sp ((d.evaluations[j + 1]?).getD cv) := by
  obtain ⟨h1, h2, h3, h4⟩ := hd
  have hql : (queryItems d rs).length = m := by simp [queryItems, h1, h2, h3, h4, hrs]
  obtain ⟨n, hn⟩ : ∃ n, m = i + n := ⟨m - i, by omega⟩
  induction n generalizing i with
  | zero =>
    rw [List.drop_of_length_le (by omega)]
    simp only [verifyQueryLoop, true_iff]
    intro j hj r ev path sev sp hr
    rw [List.getElem?_eq_none (by omega)] at hr
    simp at hr
  | succ n ih =>
    have hi' : i < (queryItems d rs).length := by omega
    rw [List.drop_eq_getElem_cons hi']
    have hget := List.getElem?_eq_getElem hi'
    generalize hx : (queryItems d rs)[i] = x at hget
    obtain ⟨⟨⟨⟨ev, path⟩, sev⟩, sp⟩, r⟩ := x
    obtain ⟨g1, g2, g3, g4, g5⟩ := (queryItems_getElem d rs i _).1 hget
    simp only at g1 g2 g3 g4 g5
    rw [verifyQueryLoop_cons]
    have hIH := ih (i + 1) (by omega) (by omega)
    rw [pow_succ, ← Nat.div_div_eq_div_mul, pow_mul, pow_two] at hIH
    have split_all : ∀ P : ℕ → Prop, (∀ j, i ≤ j → P j) ↔ P i ∧ ∀ j, i + 1 ≤ j → P j := by
      intro P
      constructor
      · exact fun h => ⟨h i le_rfl, fun j hj => h j (by omega)⟩
      · rintro ⟨ha, hb⟩ j hj
        rcases Nat.eq_or_lt_of_le hj with rfl | hlt
        · exact ha
        · exact hb j hlt
    rw [split_all]
    have first : (∀ r ev path sev sp, rs[i]? = some r → d.evaluations[i]? = some ev →
        d.authPaths[i]? = some path → d.symEvaluations[i]? = some sev → d.symAuthPaths[i]? = some sp →
        LayerOk env D c pos i r ev path sev sp ((d.evaluations[i + 1]?).getD cv)) ↔
        LayerOk env D c pos i r ev path sev sp ((d.evaluations[i + 1]?).getD cv) := by
      rw [g1, g2, g3, g4, g5]
      constructor
      · intro h; exact h _ _ _ _ _ rfl rfl rfl rfl rfl
      · rintro h _ _ _ _ _ ⟨⟩ ⟨⟩ ⟨⟩ ⟨⟩ ⟨⟩; exact h
    rw [first]
    by_cases hlast : n = 0
    · -- last layer
      subst hlast
      have hil : i = d.evaluations.length - 1 := by omega
      have hnone : d.evaluations[i + 1]? = none := List.getElem?_eq_none (by omega)
      have hrest : ∀ D' c', verifyQueryLoop env pos d.evaluations cv (i + 1)
          ((queryItems d rs).drop (i + 1)) D' c' = some (.ok ()) := by
        intro D' c'
        rw [List.drop_of_length_le (by omega)]; rfl
      have hvac : ∀ j, i + 1 ≤ j → ∀ r ev path sev sp, rs[j]? = some r → d.evaluations[j]? = some ev →
          d.authPaths[j]? = some path → d.symEvaluations[j]? = some sev → d.symAuthPaths[j]? = some sp →
          LayerOk env D c pos j r ev path sev sp ((d.evaluations[j + 1]?).getD cv) := by
        intro j hj r ev path sev sp hr
        rw [List.getElem?_eq_none (by omega)] at hr; simp at hr
      rw [hnone]
      constructor
      · rintro ⟨hD, dom, hdom, e1, e2, e3, e4, e5, e6, e7, -, e9⟩
        obtain ⟨hw2, hw⟩ := mul_ne_zero_iff.1 e7
        refine ⟨⟨hD, e1, e2, e3, e4, e5, e6, dom, _, hdom, rfl, hw2, hw, ?_⟩, hvac⟩
        exact (e9 hil).1.trans (qFold_eq _ _ _ _ hw hw2)
      · rintro ⟨⟨hD, e1, e2, e3, e4, e5, e6, dom, x, hdom, rfl, hw2, hw, e7⟩, -⟩
        refine ⟨hD, dom, hdom, e1, e2, e3, e4, e5, e6, mul_ne_zero hw2 hw, fun h => absurd hil h,
          fun _ => ⟨?_, hrest _ _⟩⟩
        exact e7.trans (qFold_eq _ _ _ _ hw hw2).symm
    · have hil : i ≠ d.evaluations.length - 1 := by omega
      have hsome : d.evaluations[i + 1]? = some (d.evaluations[i + 1]'(by omega)) :=
        List.getElem?_eq_getElem (by omega)
      rw [hsome]
      constructor
      · rintro ⟨hD, dom, hdom, e1, e2, e3, e4, e5, e6, e7, e8, -⟩
        obtain ⟨hw2, hw⟩ := mul_ne_zero_iff.1 e7
        obtain ⟨e8, e9⟩ := e8 hil
        refine ⟨⟨hD, e1, e2, e3, e4, e5, e6, dom, _, hdom, rfl, hw2, hw, ?_⟩, hIH.1 e9⟩
        exact (Option.some.inj e8).trans (qFold_eq _ _ _ _ hw hw2)
      · rintro ⟨⟨hD, e1, e2, e3, e4, e5, e6, dom, x, hdom, rfl, hw2, hw, e7⟩, e8⟩
        refine ⟨hD, dom, hdom, e1, e2, e3, e4, e5, e6, mul_ne_zero hw2 hw, fun _ => ⟨?_, hIH.2 e8⟩,
          fun h => absurd h hil⟩
        exact congrArg some (e7.trans (qFold_eq _ _ _ _ hw hw2).symm)

theorem verifyQuery_iff (env : Env F) (pos : ℕ) (d : Decommitment F) (rs : List F) (D : ℕ)
    (cv c : F) (m : ℕ) (hd : d.Shape m) (hrs : rs.length = m) :
    verifyQuery env pos d rs D cv c = some (.ok ()) ↔ QueryOk env D c cv pos rs d := by
  have := verifyQueryLoop_iff env pos d rs D cv c m hd hrs 0 (by omega)
  simp only [pow_zero, Nat.div_one, pow_one, List.drop_zero, Nat.zero_le, true_implies] at this
  exact this

theorem length_regenerate {env : Env F} {roots rs : List F} {t t' : Transcript}
    (h : regenerate env roots t = some (rs, t')) : rs.length = roots.length := by
  induction roots generalizing rs t with
  | nil =>
    simp only [regenerate, Option.some.injEq, Prod.mk.injEq] at h
    rw [← h.1]
  | cons a l ih =>
    simp only [regenerate, Option.bind_eq_bind, Option.bind_eq_some_iff, pure, Option.some.injEq,
      Prod.mk.injEq] at h
    obtain ⟨ct, -, x, hx, rfl, rfl⟩ := h
    simp [ih (rs := x.1) hx]

theorem regenerate_isSome (env : Env F) (hdig : ∀ b, 8 ≤ (env.digest b).length) (roots : List F)
    (t : Transcript) : ∃ x, regenerate env roots t = some x := by
  induction roots generalizing t with
  | nil => exact ⟨_, rfl⟩
  | cons a l ih =>
    obtain ⟨ct, hct⟩ := generateAChallenge_feed env hdig t a
    obtain ⟨x, hx⟩ := ih ct.2
    rw [regenerate, hct]
    simp only [Option.bind_eq_bind, Option.bind_some, hx]
    exact ⟨_, rfl⟩

/-- **C20**: on proofs whose decommitments have one entry per layer, `verify` returns `Ok` exactly if
every pair of a re-derived query position and the decommitment supplied for it passes all checks in
every layer (`domain_size ≠ 0` is needed to reduce the positions). -/
theorem C20_verify_iff (env : Env F) (pf : Proof F) (hD : pf.domainSize ≠ 0)
    (hshape : ∀ d ∈ pf.decommitmentList, d.Shape pf.layersRoot.length) :
    verify env pf = some (.ok ()) ↔
      ∃ rs positions, Derived env pf rs positions ∧
        ∀ (j pos : ℕ) (d : Decommitment F), positions[j]? = some pos → pf.decommitmentList[j]? = some d →
          QueryOk env pf.domainSize pf.coset pf.constVal pos rs d := by
  rw [verify_ok_iff]
  constructor
  · rintro ⟨rs, t, t', vs, h1, h2, -, h3⟩
    refine ⟨rs, _, (derived_iff _ _ _ _).2 ⟨t, t', vs, h1, h2, rfl⟩, fun j pos d hp hd => ?_⟩
    have hmem := List.mem_of_getElem? hd
    rw [← verifyQuery_iff env pos d rs _ _ _ _ (hshape d hmem) (length_regenerate h1)]
    exact h3 (pos, d) (List.mem_of_getElem? (List.getElem?_zip_eq_some.2 ⟨hp, hd⟩))
  · rintro ⟨rs, pos, hder, h3⟩
    obtain ⟨t, t', vs, h1, h2, rfl⟩ := (derived_iff _ _ _ _).1 hder
    refine ⟨rs, t, t', vs, h1, h2, fun h => hD h.1, fun x hx => ?_⟩
    obtain ⟨j, hj⟩ := List.mem_iff_getElem?.1 hx
    obtain ⟨g1, g2⟩ := List.getElem?_zip_eq_some.1 hj
    rw [verifyQuery_iff env x.1 x.2 rs _ _ _ _ (hshape x.2 (List.mem_of_getElem? g2))
      (length_regenerate h1)]
    exact h3 j x.1 x.2 g1 g2

/-! ## C17: what a returned proof commits to -/

/-- **C17** (proof): in a returned proof with `k` layers and folding challenges `rs`, root `i` is the Merkle
root of the evaluations of the `i`-th folded polynomial on the coset `g^(2^i)` of the subgroup of order
`2^(k-i)`, and the decommitment for position `pos` carries in layer `i` the evaluation at the point of
`pos` and at its negative. -/
theorem C17_proof (env : Env F) (poly : DP F) (b q : ℕ) {pf : Proof F}
    (h : generateProof env poly b q = some pf) :
    ∃ rs positions, Derived env pf rs positions ∧ ∀ i < rs.length, ∃ (w x : F),
      IsPrimitiveRoot w (2 ^ (rs.length - i)) ∧ x = (FftField.generator : F) ^ 2 ^ i ∧
      (MerkleTree.new env ((List.range (2 ^ (rs.length - i))).map fun j =>
        Ark.eval ((rs.take i).foldl foldPolynomial poly) (x * w ^ j))).root? = pf.layersRoot[i]? ∧
      ∀ (j pos : ℕ) (d : Decommitment F), positions[j]? = some pos → pf.decommitmentList[j]? = some d →
        d.evaluations[i]? = some (Ark.eval ((rs.take i).foldl foldPolynomial poly) (x * w ^ pos)) ∧
        d.symEvaluations[i]? = some (Ark.eval ((rs.take i).foldl foldPolynomial poly) (-(x * w ^ pos))) := by
  obtain ⟨rs, t, t', vs, hlen, hpos, hta, hD, hc, hq, hroots, hreg, hconst, hvs, hdecs⟩ :=
    generateProof_spec env h
  refine ⟨rs, _, (derived_iff _ _ _ _).2 ⟨t, t', vs, hreg, by rw [hq]; exact hvs, rfl⟩, fun i hi => ?_⟩
  have hki : rs.length - i ≤ FftField.twoAdicity F := by omega
  refine ⟨rootOf F (rs.length - i), _, rootOf_prim _ hki, rfl, ?_, ?_⟩
  · obtain ⟨root, hr1, hr2⟩ := (mapM_getElem hroots).2 i _ (layersOf_getElem env poly _ rs i hi)
    rw [hr1, ← hr2]
    simp only [layerOf, mul_comm]
  · intro j pos d hp hd
    rw [hD] at hp
    obtain ⟨d', hd1, hd2⟩ := (mapM_getElem hdecs).2 j pos hp
    rw [hd] at hd1
    obtain rfl := Option.some.inj hd1
    unfold queryOne at hd2
    simp only [Option.bind_eq_bind, Option.bind_eq_some_iff, pure, Option.some.injEq] at hd2
    obtain ⟨rows, hrows, rfl⟩ := hd2
    obtain ⟨row, hr1, hr2⟩ := (mapM_getElem hrows).2 i _ (layersOf_getElem env poly _ rs i hi)
    obtain ⟨path, sp, g0, -⟩ := queryLayer_layerOf env
      ((rs.take i).foldl foldPolynomial poly) ((FftField.generator : F) ^ 2 ^ i) (rs.length - i) pos
    rw [g0] at hr2
    obtain rfl := Option.some.inj hr2
    simp only [List.getElem?_map, hr1, Option.map_some]
    have e1 := rootOf_pow_mod (F := F) (rs.length - i) pos hki
    obtain ⟨k', hk'⟩ : ∃ k', rs.length - i = k' + 1 := ⟨rs.length - i - 1, by omega⟩
    have e2 : rootOf F (rs.length - i) ^ ((pos % 2 ^ (rs.length - i) + 2 ^ (rs.length - i) / 2) %
        2 ^ (rs.length - i)) = -(rootOf F (rs.length - i) ^ pos) := by
      rw [rootOf_pow_mod _ _ hki, pow_add, e1]
      rw [hk'] at hki ⊢
      rw [show 2 ^ (k' + 1) / 2 = 2 ^ k' by rw [pow_succ]; simp, rootOf_half _ hki]
      ring
    rw [e1, e2]
    exact ⟨by rw [mul_comm], by congr 2; ring⟩

/-! ## C66: shape of decommitments -/

/-- **C66** is false of the code: a decommitment whose `evaluations` vector is longer than the others
is never compared with the claimed constant; here a single query with one layer is accepted for *every*
constant, although the values fold to something else. -/
theorem C66_constant_unchecked (env : Env F) (hdig : ∀ b, 8 ≤ (env.digest b).length)
    (h1 : 1 ≤ FftField.twoAdicity F) (root cv a : F) :
    ∃ d : Decommitment F, d.evaluations.length = 2 ∧ d.evaluations[0]? = some a ∧
      d.symEvaluations = [a] ∧ d.authPaths.length = 1 ∧ d.symAuthPaths.length = 1 ∧
      verify env (⟨2, FftField.generator, 1, [root], cv, [d]⟩ : Proof F) = some (.ok ()) := by
  obtain ⟨⟨rs, t⟩, hreg⟩ := regenerate_isSome env hdig [root] (Transcript.new env 0)
  obtain ⟨⟨vs, t'⟩, hvs⟩ := generateChallengeListUsize_feed env hdig t cv 1
  have hvl := length_challengeList hvs
  obtain ⟨v, rfl⟩ := List.length_eq_one_iff.1 hvl
  have hrl := length_regenerate hreg
  obtain ⟨r, rfl⟩ := List.length_eq_one_iff.1 hrl
  have h2 : (2 : F) ≠ 0 := two_ne_zero_of (F := F) h1
  refine ⟨{ evaluations := [a, a], authPaths := [⟨v % 2, a, [], hash env a⟩], symEvaluations := [a],
            symAuthPaths := [⟨(v % 2 + 1) % 2, a, [], hash env a⟩] }, rfl, rfl, rfl, rfl, rfl, ?_⟩
  rw [verify_ok_iff]
  refine ⟨[r], t, t', [v], hreg, hvs, by simp, fun x hx => ?_⟩
  simp only [List.map_cons, List.map_nil, List.zip_cons_cons, List.zip_nil_right,
    List.mem_singleton] at hx
  subst hx
  simp only [verifyQuery, queryItems, List.zip_cons_cons, List.zip_nil_right]
  rw [verifyQueryLoop_cons]
  have hw : rootOf F 1 ^ (v % 2 % 2) * (FftField.generator : F) ≠ 0 :=
    mul_ne_zero (pow_ne_zero _ (rootOf_ne_zero _ h1)) FftField.generator_ne_zero
  refine ⟨by norm_num, _, new?_pow 1 h1, by simp, by simp, rfl, rfl, by simp [verifyMerkleProof, merkleLoop],
    by simp [verifyMerkleProof, merkleLoop], mul_ne_zero h2 hw, fun _ => ⟨?_, rfl⟩, fun h => ?_⟩
  · change some a = some (qFold r (rootOf F 1 ^ (v % 2 % 2) * FftField.generator) a a)
    rw [qFold, qFold_eq _ _ _ _ hw h2]
    congr 1
    field_simp
    ring
  · simp at h

/-- **C66** (what does hold): a decommitment is never checked beyond its shortest vector, in particular
an empty one is accepted at every position. -/
theorem C66_empty_decommitment (env : Env F) (pos D : ℕ) (rs : List F) (cv c : F) (d : Decommitment F)
    (h : d.evaluations = [] ∨ d.authPaths = [] ∨ d.symEvaluations = [] ∨ d.symAuthPaths = []) :
    verifyQuery env pos d rs D cv c = some (.ok ()) := by
  unfold verifyQuery queryItems
  rcases h with h | h | h | h <;> rw [h] <;> simp [verifyQueryLoop]

/-- **C66** partial: decommitments of the right shape are compared with the constant. -/
theorem C66_shape_partial (env : Env F) (pf : Proof F) (hD : pf.domainSize ≠ 0)
    (hpos : 0 < pf.layersRoot.length)
    (hshape : ∀ d ∈ pf.decommitmentList, d.Shape pf.layersRoot.length)
    (hok : verify env pf = some (.ok ())) {rs : List F} {positions : List ℕ}
    (hder : Derived env pf rs positions) (j pos : ℕ) (d : Decommitment F)
    (hj : positions[j]? = some pos) (hd : pf.decommitmentList[j]? = some d) :
    ∃ ev sev r x, d.evaluations.getLast? = some ev ∧ d.symEvaluations.getLast? = some sev ∧
      rs.getLast? = some r ∧ pf.constVal = (ev + sev) / 2 + r * (ev - sev) / (2 * x) := by
  obtain ⟨rs', pos', hder', hall⟩ := (C20_verify_iff env pf hD hshape).1 hok
  obtain ⟨t1, t2, vs, a1, a2, rfl⟩ := (derived_iff _ _ _ _).1 hder
  obtain ⟨t1', t2', vs', b1, b2, rfl⟩ := (derived_iff _ _ _ _).1 hder'
  have e := Option.some.inj (a1.symm.trans b1)
  obtain ⟨rfl, rfl⟩ := Prod.mk.inj e
  have e := Option.some.inj (a2.symm.trans b2)
  obtain ⟨rfl, rfl⟩ := Prod.mk.inj e
  have hq := hall j pos d hj hd
  obtain ⟨h1, h2, h3, h4⟩ := hshape d (List.mem_of_getElem? hd)
  have hrl := length_regenerate a1
  generalize pf.layersRoot.length = m at *
  have hsome : ∀ {α : Type} (l : List α), l.length = m → ∃ a, l[m - 1]? = some a ∧ l.getLast? = some a := by
    intro α l hl
    have hg : l[m - 1]? = some (l[m - 1]'(by omega)) := List.getElem?_eq_getElem (by omega)
    exact ⟨l[m - 1]'(by omega), hg, by rw [List.getLast?_eq_getElem?, ← hg, hl]⟩
  obtain ⟨ev, e1, e1'⟩ := hsome _ h1
  obtain ⟨pa, e2, -⟩ := hsome _ h2
  obtain ⟨sev, e3, e3'⟩ := hsome _ h3
  obtain ⟨sp, e4, -⟩ := hsome _ h4
  obtain ⟨r, e5, e5'⟩ := hsome _ hrl
  obtain ⟨-, -, -, -, -, -, -, dom, x, -, -, -, -, hx⟩ := hq (m - 1) r ev pa sev sp e5 e1 e2 e3 e4
  rw [List.getElem?_eq_none (by omega)] at hx
  exact ⟨ev, sev, r, x, e1', e3', e5', hx⟩

/-! ## C21 -/

/-- **C21** is false of the code: for *any* claimed layer roots (up to the two-adicity), any constant `cv`
and any number of queries there is an accepted proof, with one decommitment per query and one entry per
layer, in which every authentication path claims the root `hash cv`, so that (as soon as this is not
among the layer roots) no revealed value is authenticated by a layer root. -/
theorem C21_forgery (env : Env F) (hdig : ∀ b, 8 ≤ (env.digest b).length) (roots : List F)
    (hpos : 0 < roots.length) (hk : roots.length ≤ FftField.twoAdicity F) (cv : F) (q : ℕ) :
    ∃ pf : Proof F, pf.layersRoot = roots ∧ pf.constVal = cv ∧ pf.numberOfQueries = q ∧
      pf.domainSize = 2 ^ roots.length ∧ pf.decommitmentList.length = q ∧
      (∀ d ∈ pf.decommitmentList, d.Shape roots.length ∧
        ∀ path ∈ d.authPaths ++ d.symAuthPaths, path.root = hash env cv) ∧
      verify env pf = some (.ok ()) := by
  obtain ⟨⟨rs, t⟩, hreg⟩ := regenerate_isSome env hdig roots (Transcript.new env 0)
  obtain ⟨⟨vs, t'⟩, hvs⟩ := generateChallengeListUsize_feed env hdig t cv q
  have hvl := length_challengeList hvs
  have hrl := length_regenerate hreg
  have h2 : (2 : F) ≠ 0 := two_ne_zero_of (F := F) (by omega)
  set m := roots.length with hm
  set D := 2 ^ m with hDdef
  have hDne : D ≠ 0 := by positivity
  let dec : ℕ → Decommitment F := fun pos =>
    { evaluations := List.replicate m cv
      authPaths := (List.range m).map fun i => ⟨pos % (D / 2 ^ i), cv, [], hash env cv⟩
      symEvaluations := List.replicate m cv
      symAuthPaths := (List.range m).map fun i =>
        ⟨(pos % (D / 2 ^ i) + D / 2 ^ i / 2) % (D / 2 ^ i), cv, [], hash env cv⟩ }
  have hshape : ∀ pos, (dec pos).Shape m := by intro pos; simp [Decommitment.Shape, dec]
  refine ⟨{ domainSize := D, coset := FftField.generator, numberOfQueries := q, layersRoot := roots,
            constVal := cv, decommitmentList := (vs.map (· % D)).map dec }, rfl, rfl, rfl, rfl,
            by simp [hvl], ?_, ?_⟩
  · intro d hd
    simp only [List.map_map, List.mem_map, Function.comp_apply] at hd
    obtain ⟨v, -, rfl⟩ := hd
    refine ⟨hshape _, fun path hp => ?_⟩
    simp only [dec, List.mem_append, List.mem_map] at hp
    rcases hp with ⟨i, -, rfl⟩ | ⟨i, -, rfl⟩ <;> rfl
  · rw [C20_verify_iff env _ hDne (by
      intro d hd
      simp only [List.map_map, List.mem_map, Function.comp_apply] at hd
      obtain ⟨v, -, rfl⟩ := hd
      exact hshape _)]
    refine ⟨rs, _, (derived_iff _ _ _ _).2 ⟨t, t', vs, hreg, hvs, rfl⟩, fun j pos d hp hd => ?_⟩
    simp only at hp hd
    rw [List.getElem?_map, hp] at hd
    simp only [Option.map_some, Option.some.injEq] at hd
    subst hd
    intro i r ev path sev sp hr hev hpath hsev hsp
    have hi : i < m := by
      have := (List.getElem?_eq_some_iff.1 hr).1; omega
    simp only [dec] at hev hpath hsev hsp
    rw [List.getElem?_replicate, if_pos hi] at hev hsev
    rw [List.getElem?_map, List.getElem?_range hi] at hpath hsp
    simp only [Option.map_some, Option.some.injEq] at hev hpath hsev hsp
    subst hev hpath hsev hsp
    have hDi : D / 2 ^ i = 2 ^ (m - i) := by
      rw [hDdef, Nat.pow_div (by omega) (by norm_num)]
    refine ⟨by rw [hDi]; positivity, rfl, rfl, rfl, rfl, by simp [verifyMerkleProof, merkleLoop],
      by simp [verifyMerkleProof, merkleLoop],
      ⟨m - i, rootOf F (m - i)⟩, _, by rw [hDi]; exact new?_pow (m - i) (by omega), rfl, h2, ?_, ?_⟩
    · exact mul_ne_zero (pow_ne_zero _ (rootOf_ne_zero _ (by omega)))
        (pow_ne_zero _ FftField.generator_ne_zero)
    · have : ((List.replicate m cv)[i + 1]?).getD cv = cv := by
        rw [List.getElem?_replicate]; split <;> rfl
      simp only [dec]
      rw [this]
      field_simp
      ring

/-- **C21** partial: the missing check.  If in an accepted proof of honest shape each path's claimed root
*is* the layer root and has the layer's depth, and layer `i`'s root is the Merkle root of the values
`leaves i`, then every revealed value is the committed one, or an explicit hash collision results. -/
theorem C21_authentication_partial (env : Env F) (pf : Proof F) (m k : ℕ) (hm : pf.layersRoot.length = m)
    (hmk : m ≤ k) (hD : pf.domainSize = 2 ^ k)
    (hshape : ∀ d ∈ pf.decommitmentList, d.Shape m)
    (hroots : ∀ d ∈ pf.decommitmentList, ∀ (i : ℕ) (path : MerkleProof F),
      (d.authPaths[i]? = some path ∨ d.symAuthPaths[i]? = some path) →
        pf.layersRoot[i]? = some path.root ∧ path.hashProof.length = k - i)
    (leaves : ℕ → List F)
    (hleaves : ∀ i < m, (leaves i).length = 2 ^ (k - i) ∧
      (MerkleTree.new env (leaves i)).root? = pf.layersRoot[i]?)
    (hok : verify env pf = some (.ok ())) :
    ∃ rs positions, Derived env pf rs positions ∧
      ∀ (j pos : ℕ) (d : Decommitment F), positions[j]? = some pos → pf.decommitmentList[j]? = some d → ∀ i < m,
        ((leaves i)[pos % 2 ^ (k - i)]? = d.evaluations[i]? ∧
          (leaves i)[(pos % 2 ^ (k - i) + 2 ^ (k - i) / 2) % 2 ^ (k - i)]? = d.symEvaluations[i]?) ∨
        ∃ path q, (d.authPaths[i]? = some path ∨ d.symAuthPaths[i]? = some path) ∧
          (MerkleTree.new env (leaves i)).generateProof path.index = some q ∧
          ExhibitsCollision env path q := by
  obtain ⟨rs, positions, hder, hall⟩ := (C20_verify_iff env pf (by rw [hD]; positivity)
    (by rw [hm]; exact hshape)).1 hok
  refine ⟨rs, positions, hder, fun j pos d hp hd i hi => ?_⟩
  have hmem := List.mem_of_getElem? hd
  obtain ⟨h1, h2, h3, h4⟩ := hshape d hmem
  obtain ⟨t, t', vs, hreg, -⟩ := (derived_iff _ _ _ _).1 hder
  have hrl := length_regenerate hreg
  have ev1 : d.evaluations[i]? = some d.evaluations[i] := List.getElem?_eq_getElem (by omega)
  have ev2 : d.authPaths[i]? = some d.authPaths[i] := List.getElem?_eq_getElem (by omega)
  have ev3 : d.symEvaluations[i]? = some d.symEvaluations[i] := List.getElem?_eq_getElem (by omega)
  have ev4 : d.symAuthPaths[i]? = some d.symAuthPaths[i] := List.getElem?_eq_getElem (by omega)
  have ev5 : rs[i]? = some (rs[i]'(by omega)) := List.getElem?_eq_getElem (by omega)
  obtain ⟨-, e1, e2, e3, e4, e5, e6, -⟩ := hall j pos d hp hd i _ _ _ _ _ ev5 ev1 ev2 ev3 ev4
  have hDi : pf.domainSize / 2 ^ i = 2 ^ (k - i) := by
    rw [hD, Nat.pow_div (by omega) (by norm_num)]
  rw [hDi] at e1 e2
  obtain ⟨l1, l2⟩ := hleaves i hi
  obtain ⟨r1, r2⟩ := hroots d hmem i _ (Or.inl ev2)
  obtain ⟨r3, r4⟩ := hroots d hmem i _ (Or.inr ev4)
  have hpow : 0 < 2 ^ (k - i) := by positivity
  rcases C14_honest_tree env (leaves i) (k - i) l1 _ e5 (l2.trans r1)
    (by rw [e1]; exact Nat.mod_lt _ hpow) r2 with h | ⟨q, hq, hcol⟩
  · rcases C14_honest_tree env (leaves i) (k - i) l1 _ e6 (l2.trans r3)
      (by rw [e2]; exact Nat.mod_lt _ hpow) r4 with h' | ⟨q, hq, hcol⟩
    · left
      rw [e1, e3] at h
      rw [e2, e4] at h'
      rw [h, h', ev1, ev3]
      exact ⟨rfl, rfl⟩
    · exact Or.inr ⟨_, q, Or.inr ev4, hq, hcol⟩
  · exact Or.inr ⟨_, q, Or.inl ev2, hq, hcol⟩

/-! ## C22 -/

/-- **C22** is false of the code: a proof without any decommitment is accepted, whatever the claimed
number of queries, layer roots and constant. -/
theorem C22_no_queries_accepted (env : Env F) (hdig : ∀ b, 8 ≤ (env.digest b).length) (D q : ℕ)
    (hD : D ≠ 0) (c cv : F) (roots : List F) :
    verify env (⟨D, c, q, roots, cv, []⟩ : Proof F) = some (.ok ()) := by
  obtain ⟨⟨rs, t⟩, hreg⟩ := regenerate_isSome env hdig roots (Transcript.new env 0)
  obtain ⟨⟨vs, t'⟩, hvs⟩ := generateChallengeListUsize_feed env hdig t cv q
  rw [verify_ok_iff]
  exact ⟨rs, t, t', vs, hreg, hvs, fun h => hD h.1, by simp⟩

/-- **C22** partial: if at least `number_of_queries` well-shaped decommitments are supplied, all
`number_of_queries` re-derived positions are checked. -/
theorem C22_all_queries_partial (env : Env F) (pf : Proof F) (hD : pf.domainSize ≠ 0)
    (hshape : ∀ d ∈ pf.decommitmentList, d.Shape pf.layersRoot.length)
    (hn : pf.numberOfQueries ≤ pf.decommitmentList.length) (hok : verify env pf = some (.ok ())) :
    ∃ rs positions, Derived env pf rs positions ∧ positions.length = pf.numberOfQueries ∧
      ∀ j < pf.numberOfQueries, ∃ pos d, positions[j]? = some pos ∧ pf.decommitmentList[j]? = some d ∧
        QueryOk env pf.domainSize pf.coset pf.constVal pos rs d := by
  obtain ⟨rs, positions, hder, hall⟩ := (C20_verify_iff env pf hD hshape).1 hok
  have hpl : positions.length = pf.numberOfQueries := by
    obtain ⟨t, t', vs, -, hvs, rfl⟩ := (derived_iff _ _ _ _).1 hder
    rw [List.length_map, length_challengeList hvs]
  refine ⟨rs, positions, hder, hpl, fun j hj => ?_⟩
  exact ⟨_, _, List.getElem?_eq_getElem (by omega), List.getElem?_eq_getElem (by omega),
    hall j _ _ (List.getElem?_eq_getElem (by omega)) (List.getElem?_eq_getElem (by omega))⟩

/-! ## C23 -/

theorem nextPow2_least (n : ℕ) : n ≤ nextPow2 n ∧ ∀ k, n ≤ 2 ^ k → nextPow2 n ≤ 2 ^ k := by
  unfold nextPow2
  exact ⟨Nat.le_pow_clog (by norm_num) n,
    fun k hk => Nat.pow_le_pow_right (by norm_num) (Nat.clog_le_of_le_pow hk)⟩

/-- **C23**: shape of a returned proof.  `domain_size = 2^k` is the least power of two that is at least
`len * blowup`; there are `k` roots and `number_of_queries` decommitments with one entry per layer; in
layer `i` the two paths have length `k - i`, sit at two indices below the layer size `2^(k-i)` that
differ by half of it, reveal the two evaluations, and carry the layer's root. -/
theorem C23_shape (env : Env F) (poly : DP F) (b q : ℕ) {pf : Proof F}
    (h : generateProof env poly b q = some pf) :
    ∃ k, pf.domainSize = 2 ^ k ∧ poly.length * b ≤ 2 ^ k ∧
      (∀ j, poly.length * b ≤ 2 ^ j → 2 ^ k ≤ 2 ^ j) ∧ pf.layersRoot.length = k ∧
      pf.numberOfQueries = q ∧ pf.decommitmentList.length = q ∧
      ∀ d ∈ pf.decommitmentList, d.Shape k ∧
        ∀ i < k, ∃ ev path sev sp, d.evaluations[i]? = some ev ∧ d.authPaths[i]? = some path ∧
          d.symEvaluations[i]? = some sev ∧ d.symAuthPaths[i]? = some sp ∧
          path.index < 2 ^ (k - i) ∧ sp.index < 2 ^ (k - i) ∧
          sp.index = (path.index + 2 ^ (k - i) / 2) % 2 ^ (k - i) ∧
          path.hashProof.length = k - i ∧ sp.hashProof.length = k - i ∧
          path.leafVal = ev ∧ sp.leafVal = sev ∧
          pf.layersRoot[i]? = some path.root ∧ pf.layersRoot[i]? = some sp.root := by
  obtain ⟨rs, t, t', vs, hlen, hpos, hta, hD, hc, hq, hroots, hreg, hconst, hvs, hdecs⟩ :=
    generateProof_spec env h
  obtain ⟨n1, n2⟩ := nextPow2_least (poly.length * b)
  rw [nextPow2, ← hlen] at n1 n2
  refine ⟨rs.length, hD, n1, n2, (length_regenerate hreg).symm, hq, ?_, ?_⟩
  · rw [(mapM_getElem hdecs).1, List.length_map, length_challengeList hvs]
  · intro d hd
    obtain ⟨j, hj⟩ := List.mem_iff_getElem?.1 hd
    have hjl := (List.getElem?_eq_some_iff.1 hj).1
    rw [(mapM_getElem hdecs).1] at hjl
    obtain ⟨d', hd1, hd2⟩ := (mapM_getElem hdecs).2 j _ (List.getElem?_eq_getElem hjl)
    rw [hj] at hd1
    obtain rfl := Option.some.inj hd1
    unfold queryOne at hd2
    simp only [Option.bind_eq_bind, Option.bind_eq_some_iff, pure, Option.some.injEq] at hd2
    obtain ⟨rows, hrows, rfl⟩ := hd2
    obtain ⟨hrl, hrg⟩ := mapM_getElem hrows
    rw [length_layersOf] at hrl
    refine ⟨by simp [Decommitment.Shape, hrl], fun i hi => ?_⟩
    obtain ⟨row, hr1, hr2⟩ := hrg i _ (layersOf_getElem env poly _ rs i hi)
    obtain ⟨path, sp, g0, g1, g2, g3, g4, -, -, g5, g6, g7, g8⟩ := queryLayer_layerOf env
      ((rs.take i).foldl foldPolynomial poly) ((FftField.generator : F) ^ 2 ^ i) (rs.length - i)
      (vs.map (· % 2 ^ rs.length))[j]
    rw [hr2] at g0
    obtain rfl := Option.some.inj g0
    obtain ⟨root, ho1, ho2⟩ := (mapM_getElem hroots).2 i _ (layersOf_getElem env poly _ rs i hi)
    have hp : 0 < 2 ^ (rs.length - i) := by positivity
    refine ⟨_, path, _, sp, by simp [hr1], by simp [hr1], by simp [hr1], by simp [hr1], ?_, ?_, ?_, g7, g8,
      g3, g4, ?_, ?_⟩
    · rw [g1]; exact Nat.mod_lt _ hp
    · rw [g2]; exact Nat.mod_lt _ hp
    · rw [g1, g2]
    · rw [ho1]; rw [g5] at ho2; exact ho2.symm
    · rw [ho1]; rw [g6] at ho2; exact ho2.symm

/-! ## Non-vacuity -/

/-- A digest of eight bytes. -/
def eightEnv (sha : List UInt8 → List UInt8) : Env Goldilocks :=
  goldEnv sha (fun _ => 5) (fun _ => [1, 2, 3, 4, 5, 6, 7, 8]) (fun _ _ => 0)

theorem regenerate_zero (sha : List UInt8 → List UInt8) (roots rs : List Goldilocks)
    (t t' : Transcript) (h : regenerate (eightEnv sha) roots t = some (rs, t')) : ∀ r ∈ rs, r = 0 := by
  induction roots generalizing rs t with
  | nil =>
    simp only [regenerate, Option.some.injEq, Prod.mk.injEq] at h
    rw [← h.1]; simp
  | cons a l ih =>
    simp only [regenerate, Option.bind_eq_bind, Option.bind_eq_some_iff, pure, Option.some.injEq,
      Prod.mk.injEq] at h
    obtain ⟨ct, hct, x, hx, rfl, rfl⟩ := h
    intro r hr
    rcases List.mem_cons.1 hr with rfl | hr
    · unfold Transcript.generateAChallenge at hct
      simp only [Option.bind_eq_bind, Option.bind_eq_some_iff, pure, Option.some.injEq] at hct
      obtain ⟨st, -, rfl⟩ := hct
      rfl
    · exact ih _ _ hx r hr

/-- The hypotheses of `C18_prover_returns` (hence those of `C18_completeness`, `C20_verify_iff`,
`C21_authentication_partial`, `C22_all_queries_partial`, `C23_shape`) are met over Goldilocks by the
polynomial `1 + X + 2 X^2` with blowup 2 and three queries. -/
example (sha : List UInt8 → List UInt8) :
    ∃ pf, generateProof (eightEnv sha) ([1, 1, 2] : DP Goldilocks) 2 3 = some pf ∧
      verify (eightEnv sha) pf = some (.ok ()) := by
  have hc : Nat.clog 2 6 = 3 := by decide
  apply C18_prover_returns
  · intro b; simp [eightEnv, goldEnv]
  · simp
  · show 2 ^ Nat.clog 2 6 ≤ 2 ^ 32
    rw [hc]; norm_num
  · rintro rs ⟨roots, hlr, -, hrs⟩
    have hl : rs.length = Nat.clog 2 6 := by rw [hrs]; simp
    have h0 : ∀ r ∈ rs, r = 0 := by
      intro r hr
      rw [hrs] at hr
      obtain ⟨i, -, rfl⟩ := List.mem_map.1 hr
      rfl
    rw [hc] at hl
    match rs, hl with
    | [a, b, c], _ =>
      rw [h0 a (by simp), h0 b (by simp), h0 c (by simp)]
      decide +kernel

/-- The hypotheses of `C21_forgery`, `C22_no_queries_accepted` and `C66_constant_unchecked` are met. -/
example (sha : List UInt8 → List UInt8) : ∃ pf : Proof Goldilocks, pf.layersRoot = [10, 11] ∧
    pf.numberOfQueries = 5 ∧ verify (eightEnv sha) pf = some (.ok ()) := by
  obtain ⟨pf, h1, -, h2, -, -, -, h3⟩ := C21_forgery (eightEnv sha) (fun b => by simp [eightEnv, goldEnv])
    [10, 11] (by simp) (by show 2 ≤ 32; norm_num) 7 5
  exact ⟨pf, h1, h2, h3⟩

example : (2 : Goldilocks) ≠ 0 := two_ne_zero_of (by show 1 ≤ 32; norm_num)

end Verif.Fri

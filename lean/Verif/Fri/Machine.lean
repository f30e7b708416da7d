import Verif.Fri.OracleSoundness
import Verif.Ark.Machine

/-!
# C85 (FRI): 64-bit machine arithmetic

The integer expressions of prover and verifier that can exceed 64 bits are `poly.coeffs.len() * blowup_factor`, its
`next_power_of_two()` (`fri/src/prover.rs` line 146) and `index + domain_size / 2` (`fri/src/prover.rs` line 109,
`fri/src/verifier.rs` line 73).  Here the functions are modelled once more with these expressions computed on
64 bits, for both kinds of builds.
-/

set_option linter.unusedSectionVars false

namespace Verif.Fri

open Verif.Ark

variable {F : Type} [FftField F] [DecidableEq F]

/-! ## Model -/

/-- The loop of `verify_query`, `fri/src/verifier.rs` lines 63-112, on 64 bits: `index + cur_domain_size / 2` (line 73)
may overflow. -/
def verifyQueryLoop64 (bd : Build) (env : Env F) (challenge : ℕ) (evaluations : List F) (constVal : F) :
    ℕ → List ((((F × MerkleProof F) × F) × MerkleProof F) × F) → ℕ → F →
    Option (Except String Unit)
  | _, [], _, _ => some (.ok ())
  | i, ((((ev, path), symEv), symPath), r) :: rest, curDomainSize, curCoset =>
    if curDomainSize = 0 then none
    else
      let index := challenge % curDomainSize
      match bd.u64 (index + curDomainSize / 2) with
      | none => none
      | some sum =>
      let symIndex := sum % curDomainSize
      match Domain.new? (F := F) curDomainSize with
      | none => none
      | some curDomain =>
        if index ≠ path.index ∨ symIndex ≠ symPath.index then some (.error "wrong index!")
        else if ev ≠ path.leafVal ∨ symEv ≠ symPath.leafVal then
          some (.error "the evaluation does not correspond to given path!")
        else if !verifyMerkleProof env path || !verifyMerkleProof env symPath then
          some (.error "verify Merkle path failed!")
        else
          let w := curDomain.element index * curCoset
          if 2 * w = 0 then none
          else
            let qFold := (r + w) * ev / (2 * w) - (r - w) * symEv / (2 * w)
            if i ≠ evaluations.length - 1 then
              match evaluations[i + 1]? with
              | none => none
              | some nextEv =>
                if qFold ≠ nextEv then some (.error "folding wrong!")
                else verifyQueryLoop64 bd env challenge evaluations constVal (i + 1) rest
                  (curDomainSize / 2) (curCoset * curCoset)
            else if qFold ≠ constVal then some (.error "folding wrong!")
            else verifyQueryLoop64 bd env challenge evaluations constVal (i + 1) rest curDomainSize curCoset

/-- The query loop of `verify`, `fri/src/verifier.rs` lines 35-47, on 64 bits. -/
def verifyQueries64 (bd : Build) (env : Env F) (rs : List F) (domainSize : ℕ) (constVal coset : F) :
    List (ℕ × Decommitment F) → Option (Except String Unit)
  | [] => some (.ok ())
  | (challenge, d) :: rest =>
    match verifyQueryLoop64 bd env challenge d.evaluations constVal 0 (queryItems d rs) domainSize coset with
    | none => none
    | some (.error e) => some (.error e)
    | some (.ok ()) => verifyQueries64 bd env rs domainSize constVal coset rest

/-- `verify`, `fri/src/verifier.rs` lines 14-49, on 64 bits. -/
def verify64 (bd : Build) (env : Env F) (proof : Proof F) : Option (Except String Unit) := do
  let rt ← regenerate env proof.layersRoot (Transcript.new env 0)
  let cs ← (rt.2.feed env proof.constVal).generateChallengeListUsize env proof.numberOfQueries
  if proof.domainSize = 0 ∧ cs.1 ≠ [] then none
  else
    let challengeList := cs.1.map fun v => v % proof.domainSize
    verifyQueries64 bd env rt.1 proof.domainSize proof.constVal proof.coset
      (challengeList.zip proof.decommitmentList)

/-- One layer of a decommitment, `fri/src/prover.rs` lines 107-121, on 64 bits (line 109 may overflow). -/
def queryLayer64 (bd : Build) (challenge : ℕ) (layer : FriLayer F) :
    Option (F × MerkleProof F × F × MerkleProof F) := do
  if layer.domainSize = 0 then none
  else
    let index := challenge % layer.domainSize
    let sum ← bd.u64 (index + layer.domainSize / 2)
    let symIndex := sum % layer.domainSize
    let evaluation ← layer.evaluations[index]?
    let symEvaluation ← layer.evaluations[symIndex]?
    let authPath ← layer.merkleTree.generateProof index
    let symAuthPath ← layer.merkleTree.generateProof symIndex
    pure (evaluation, authPath, symEvaluation, symAuthPath)

/-- One iteration of the outer loop of `query_phase`, `fri/src/prover.rs` lines 99-131, on 64 bits. -/
def queryOne64 (bd : Build) (layers : List (FriLayer F)) (challenge : ℕ) : Option (Decommitment F) := do
  let rows ← layers.mapM (queryLayer64 bd challenge)
  pure { evaluations := rows.map fun r => r.1
         authPaths := rows.map fun r => r.2.1
         symEvaluations := rows.map fun r => r.2.2.1
         symAuthPaths := rows.map fun r => r.2.2.2 }

/-- `query_phase`, `fri/src/prover.rs` lines 81-134, on 64 bits. -/
def queryPhase64 (bd : Build) (env : Env F) (numberOfQueries domainSize : ℕ) (t : Transcript)
    (layers : List (FriLayer F)) : Option (List (Decommitment F) × List ℕ) := do
  if layers.isEmpty then pure ([], [])
  else
    let cs ← t.generateChallengeListUsize env numberOfQueries
    if domainSize = 0 ∧ cs.1 ≠ [] then none
    else
      let challengeList := cs.1.map fun v => v % domainSize
      let decs ← challengeList.mapM (queryOne64 bd layers)
      pure (decs, challengeList)

/-- `generate_proof`, `fri/src/prover.rs` lines 141-168, on 64 bits: line 146 may overflow twice, and `ilog2` (line 148)
panics on zero. -/
def generateProof64 (bd : Build) (env : Env F) (poly : DP F) (blowupFactor numberOfQueries : ℕ) :
    Option (Proof F) := do
  let product ← bd.u64 (poly.length * blowupFactor)
  let domainSize ← bd.u64 (nextPow2 product)
  if domainSize = 0 then none
  else
    let coset := FftField.generator (F := F)
    let numberOfLayers := Nat.log 2 domainSize
    let fp ← foldingPhase env poly coset domainSize numberOfLayers
    let qp ← queryPhase64 bd env numberOfQueries domainSize fp.2.1 fp.2.2
    let layersRoot ← fp.2.2.mapM fun layer => layer.merkleTree.root?
    pure { domainSize := domainSize
           coset := coset
           numberOfQueries := numberOfQueries
           layersRoot := layersRoot
           constVal := fp.1
           decommitmentList := qp.1 }

/-! ## The verifier -/

theorem domain_none_of_large (hta : FftField.twoAdicity F ≤ 63) {n : ℕ} (hn : 2 ^ 63 < n) :
    Domain.new? (F := F) n = none := by
  have : 63 < Nat.clog 2 n := by
    rw [Nat.lt_clog_iff_pow_lt (by norm_num)]; exact hn
  unfold Domain.new?
  rw [if_neg (by omega)]

theorem verifyQueryLoop64_eq (bd : Build) (env : Env F) (hta : FftField.twoAdicity F ≤ 63) (challenge : ℕ)
    (evs : List F) (cv : F) (l : List ((((F × MerkleProof F) × F) × MerkleProof F) × F)) (i D : ℕ) (c : F)
    (hD : D < 2 ^ 64) :
    verifyQueryLoop64 bd env challenge evs cv i l D c = verifyQueryLoop env challenge evs cv i l D c := by
  induction l generalizing i D c with
  | nil => rfl
  | cons x l ih =>
    obtain ⟨⟨⟨⟨ev, path⟩, symEv⟩, symPath⟩, r⟩ := x
    rw [verifyQueryLoop64, verifyQueryLoop]
    by_cases h0 : D = 0
    · rw [if_pos h0, if_pos h0]
    rw [if_neg h0, if_neg h0]
    dsimp only
    by_cases hlarge : 2 ^ 63 < D
    · rw [domain_none_of_large hta hlarge]
      cases bd.u64 (challenge % D + D / 2) <;> rfl
    · have hlt : challenge % D < D := Nat.mod_lt _ (by omega)
      rw [bd.u64_lt (by omega)]
      simp only [ih (i + 1) (D / 2) (c * c) (by omega), ih (i + 1) D c hD]
      all_goals
        cases Domain.new? (F := F) D with
        | none => rfl
        | some d => cases evs[i + 1]? <;> rfl

/-- **C85** (FRI verifier): on 64 bits, with and without overflow checks, `verify` behaves as the model does on
natural numbers, for every proof, whatever its claimed domain size (for fields of two-adicity below 64, such as
Goldilocks). -/
theorem C85_fri_verify64 (bd : Build) (env : Env F) (hta : FftField.twoAdicity F ≤ 63) (pf : Proof F)
    (hD : pf.domainSize < 2 ^ 64) : verify64 bd env pf = verify env pf := by
  have hq : ∀ (rs : List F) (l : List (ℕ × Decommitment F)),
      verifyQueries64 bd env rs pf.domainSize pf.constVal pf.coset l =
        verifyQueries env rs pf.domainSize pf.constVal pf.coset l := by
    intro rs l
    induction l with
    | nil => rfl
    | cons x l ih =>
      obtain ⟨ch, d⟩ := x
      rw [verifyQueries64, verifyQueries, verifyQueryLoop64_eq bd env hta _ _ _ _ _ _ _ hD, ih]
      rfl
  unfold verify64 verify
  simp only [hq]

/-! ## The prover -/

theorem queryPhase64_eq (bd : Build) (env : Env F) (q D : ℕ) (t : Transcript) (layers : List (FriLayer F))
    (h : ∀ l ∈ layers, l.domainSize ≤ 2 ^ 63) :
    queryPhase64 bd env q D t layers = queryPhase env q D t layers := by
  have h1 : ∀ ch, ∀ l ∈ layers, queryLayer64 bd ch l = queryLayer ch l := by
    intro ch l hl
    have := h l hl
    unfold queryLayer64 queryLayer
    by_cases h0 : l.domainSize = 0
    · rw [if_pos h0, if_pos h0]
    rw [if_neg h0, if_neg h0]
    have hlt : ch % l.domainSize < l.domainSize := Nat.mod_lt _ (by omega)
    dsimp only
    rw [bd.u64_lt (by omega)]
    rfl
  have h2 : ∀ ch, queryOne64 bd layers ch = queryOne layers ch := by
    intro ch
    unfold queryOne64 queryOne
    have : layers.mapM (queryLayer64 bd ch) = layers.mapM (queryLayer ch) := by
      clear h
      induction layers with
      | nil => rfl
      | cons a l ih =>
        rw [List.mapM_cons, List.mapM_cons, h1 ch a (by simp), ih fun ch l hl => h1 ch l (by simp [hl])]
    rw [this]
  unfold queryPhase64 queryPhase
  have : queryOne64 bd layers = queryOne layers := funext h2
  rw [this]

/-- The prover after the domain size has been computed from the product `w`. -/
def proveFor (env : Env F) (poly : DP F) (w q : ℕ) : Option (Proof F) := do
  let domainSize := nextPow2 w
  let coset := FftField.generator (F := F)
  let fp ← foldingPhase env poly coset domainSize (Nat.log 2 domainSize)
  let qp ← queryPhase env q domainSize fp.2.1 fp.2.2
  let layersRoot ← fp.2.2.mapM fun layer => layer.merkleTree.root?
  pure { domainSize := domainSize
         coset := coset
         numberOfQueries := q
         layersRoot := layersRoot
         constVal := fp.1
         decommitmentList := qp.1 }

theorem generateProof_eq_proveFor (env : Env F) (poly : DP F) (b q : ℕ) :
    generateProof env poly b q = proveFor env poly (poly.length * b) q := rfl

theorem layersOf_domain (env : Env F) (p : DP F) (c : F) (rs : List F) (l : FriLayer F)
    (hl : l ∈ layersOf env p c rs) : l.domainSize ≤ 2 ^ rs.length := by
  obtain ⟨i, hi⟩ := List.mem_iff_getElem?.1 hl
  have hi' : i < rs.length := by
    have := (List.getElem?_eq_some_iff.1 hi).1
    rwa [length_layersOf] at this
  rw [layersOf_getElem _ _ _ _ _ hi'] at hi
  rw [← Option.some.inj hi]
  exact Nat.pow_le_pow_right (by norm_num) (by omega)

/-- What the prover does for the product `w`. -/
theorem proveFor_spec (env : Env F) {poly : DP F} {w q : ℕ} {pf : Proof F}
    (h : proveFor env poly w q = some pf) :
    ∃ (rs : List F) (t t' : Transcript) (vs : List ℕ),
      rs.length = Nat.clog 2 w ∧ 0 < rs.length ∧ rs.length ≤ FftField.twoAdicity F ∧
      pf.domainSize = 2 ^ rs.length ∧ pf.coset = FftField.generator ∧ pf.numberOfQueries = q ∧
      ((layersOf env poly FftField.generator rs).mapM fun l => l.merkleTree.root?) = some pf.layersRoot ∧
      regenerate env pf.layersRoot (Transcript.new env 0) = some (rs, t) ∧
      (rs.foldl foldPolynomial poly) = [pf.constVal] ∧
      (t.feed env pf.constVal).generateChallengeListUsize env q = some (vs, t') ∧
      (vs.map (· % 2 ^ rs.length)).mapM (queryOne (layersOf env poly FftField.generator rs)) =
        some pf.decommitmentList := by
  unfold proveFor at h
  simp only [Option.bind_eq_bind, Option.bind_eq_some_iff, pure, Option.some.injEq] at h
  obtain ⟨⟨const, t2, layers⟩, hfp, ⟨decs, cl⟩, hqp, roots, hroots, rfl⟩ := h
  rw [log_nextPow2] at hfp
  rw [foldingPhase] at hfp
  split at hfp
  · simp at hfp
  rename_i hk0
  simp only [Option.bind_eq_bind, Option.bind_eq_some_iff] at hfp
  obtain ⟨⟨pfin, t1, layers'⟩, hloop, hfp⟩ := hfp
  split at hfp
  · simp at hfp
  rename_i hlen
  simp only [pure, Option.some.injEq, Prod.mk.injEq] at hfp
  obtain ⟨rfl, rfl, rfl⟩ := hfp
  obtain ⟨roots', rs, hrl, hlay, hpf, hroots', hreg, hta⟩ := foldLoop_spec env _ _ _ _ hloop
  have hrr : roots' = roots := Option.some.inj (hroots'.symm.trans hroots)
  subst hrr
  have hne : layers' ≠ [] := by rw [hlay]; exact layersOf_ne_nil _ _ _ _ (by omega)
  simp only [not_not] at hlen
  obtain ⟨a, ha⟩ := List.length_eq_one_iff.1 hlen
  have hca : Ark.eval pfin 0 = a := by rw [ha]; simp [Ark.eval]
  simp only at hca hqp
  unfold queryPhase at hqp
  rw [if_neg (by simpa using hne)] at hqp
  simp only [Option.bind_eq_bind, Option.bind_eq_some_iff] at hqp
  obtain ⟨⟨vs, t3⟩, hvs, hqp⟩ := hqp
  split at hqp
  · simp at hqp
  simp only [Option.bind_eq_some_iff, pure, Option.some.injEq, Prod.mk.injEq] at hqp
  obtain ⟨decs', hdecs, rfl, rfl⟩ := hqp
  refine ⟨rs, t1, t3, vs, hrl, by omega, by rw [hrl]; exact hta (by omega), ?_, rfl, rfl, ?_, hreg, ?_, hvs, ?_⟩
  · rw [hrl]; rfl
  · rw [← hlay]; exact hroots
  · rw [← hpf]; simp only; rw [hca, ha]
  · rw [← hlay, hrl]; exact hdecs

theorem proveFor_verifies (env : Env F) (poly : DP F) (w q : ℕ) {pf : Proof F}
    (h : proveFor env poly w q = some pf) : verify env pf = some (.ok ()) := by
  obtain ⟨rs, t, t', vs, hlen, hpos, hta, hD, hc, hq, hroots, hreg, hconst, hvs, hdecs⟩ :=
    proveFor_spec env h
  rw [verify_ok_iff]
  refine ⟨rs, t, t', vs, hreg, by rw [hq]; exact hvs, ?_, ?_⟩
  · rintro ⟨h0, -⟩; rw [hD] at h0; exact absurd h0 (by positivity)
  · intro x hx
    obtain ⟨i, hi⟩ := List.mem_iff_getElem?.1 hx
    rw [List.getElem?_zip_eq_some] at hi
    obtain ⟨-, hg⟩ := mapM_getElem hdecs
    rw [hD] at hi ⊢
    obtain ⟨d, hd1, hd2⟩ := hg i x.1 hi.1
    rw [hi.2] at hd1
    obtain rfl := Option.some.inj hd1
    unfold queryOne at hd2
    simp only [Option.bind_eq_bind, Option.bind_eq_some_iff, pure, Option.some.injEq] at hd2
    obtain ⟨rows, hrows, hd2⟩ := hd2
    rw [verifyQuery, ← hd2, hc]
    exact verifyQueryLoop_honest env x.1 rs poly _ FftField.generator_ne_zero hta pf.constVal
      (by intro x; rw [hconst]; simp [Ark.eval]) rows hrows []

/-- On 64 bits the prover does what it does on natural numbers, for the product it has computed. -/
theorem generateProof64_eq (bd : Build) (env : Env F) (hta : FftField.twoAdicity F ≤ 63) (poly : DP F) (b q : ℕ) :
    generateProof64 bd env poly b q = (bd.u64 (poly.length * b)).bind fun w => proveFor env poly w q := by
  unfold generateProof64
  cases hw : bd.u64 (poly.length * b) with
  | none => rfl
  | some w =>
    simp only [Option.bind_eq_bind, Option.bind_some]
    have hfold : ∀ (D k : ℕ) (fp : F × Transcript × List (FriLayer F)), D = 2 ^ k →
        foldingPhase env poly (FftField.generator : F) D k = some fp →
        ∀ l ∈ fp.2.2, l.domainSize ≤ 2 ^ 63 := by
      intro D k fp hD hfp l hl
      subst hD
      rw [foldingPhase] at hfp
      split at hfp
      · simp at hfp
      rename_i hk0
      simp only [Option.bind_eq_bind, Option.bind_eq_some_iff] at hfp
      obtain ⟨⟨pfin, t1, layers'⟩, hloop, hfp⟩ := hfp
      split at hfp
      · simp at hfp
      simp only [pure, Option.some.injEq] at hfp
      obtain ⟨roots', rs, hrl, hlay, -, -, -, hta'⟩ := foldLoop_spec env _ _ _ _ hloop
      rw [← hfp, hlay] at hl
      refine (layersOf_domain env _ _ _ l hl).trans (Nat.pow_le_pow_right (by norm_num) ?_)
      have := hta' (by omega)
      omega
    by_cases hlt : nextPow2 w < 2 ^ 64
    · rw [bd.u64_lt hlt]
      simp only [Option.bind_some]
      rw [if_neg (by unfold nextPow2; positivity)]
      unfold proveFor
      simp only [Option.bind_eq_bind]
      cases hfp : foldingPhase env poly (FftField.generator : F) (nextPow2 w) (Nat.log 2 (nextPow2 w)) with
      | none => rfl
      | some fp =>
        simp only [Option.bind_some]
        rw [queryPhase64_eq bd env q _ _ _ (hfold _ _ fp (by rw [log_nextPow2]; rfl) hfp)]
    · have hnone : proveFor env poly w q = none := by
        by_contra hcon
        obtain ⟨pf, hpf⟩ := Option.ne_none_iff_exists'.1 hcon
        obtain ⟨rs, -, -, -, h1, -, h2, -⟩ := proveFor_spec env hpf
        have : nextPow2 w ≤ 2 ^ 63 := Nat.pow_le_pow_right (by norm_num) (by omega)
        omega
      rw [hnone]
      cases bd with
      | checked => rw [Build.checked_ge hlt]; rfl
      | wrapping =>
        have hwlt : w < 2 ^ 64 := by
          have := Option.some.inj hw
          rw [← this]; exact Nat.mod_lt _ (by norm_num)
        have h64 : nextPow2 w = 2 ^ 64 := by
          have : Nat.clog 2 w ≤ 64 := Nat.clog_le_of_le_pow hwlt.le
          refine le_antisymm (Nat.pow_le_pow_right (by norm_num) this) (by omega)
        simp only [Build.u64, h64, Nat.mod_self, Option.bind_some, if_true]

/-- **C85** (FRI prover, overflow checks on): `generate_proof` returns and panics as it does on natural numbers, for
every polynomial, blowup factor and number of queries. -/
theorem C85_fri_prove_checked (env : Env F) (hta : FftField.twoAdicity F ≤ 63) (poly : DP F) (b q : ℕ) :
    generateProof64 .checked env poly b q = generateProof env poly b q := by
  rw [generateProof64_eq _ env hta, generateProof_eq_proveFor]
  by_cases h : poly.length * b < 2 ^ 64
  · rw [Build.u64_lt _ h]; rfl
  · rw [Build.checked_ge h]
    symm
    change proveFor env poly (poly.length * b) q = none
    by_contra hcon
    obtain ⟨pf, hpf⟩ := Option.ne_none_iff_exists'.1 hcon
    obtain ⟨rs, -, -, -, h1, -, h2, -⟩ := proveFor_spec env hpf
    have : poly.length * b ≤ 2 ^ Nat.clog 2 (poly.length * b) := Nat.le_pow_clog (by norm_num) _
    have h3 : (2 : ℕ) ^ Nat.clog 2 (poly.length * b) ≤ 2 ^ 63 := Nat.pow_le_pow_right (by norm_num) (by omega)
    omega

/-- **C85** (FRI prover, overflow checks off): it agrees with the prover on natural numbers if the product of length
and blowup factor fits into 64 bits; if it does not fit, a proof may come back (for a smaller domain), and this proof
is accepted as well. -/
theorem C85_fri_prove_wrapping (env : Env F) (hta : FftField.twoAdicity F ≤ 63) (poly : DP F) (b q : ℕ) :
    (poly.length * b < 2 ^ 64 → generateProof64 .wrapping env poly b q = generateProof env poly b q) ∧
    ∀ pf, generateProof64 .wrapping env poly b q = some pf →
      pf.domainSize ≤ 2 ^ FftField.twoAdicity F ∧ ∀ bd, verify64 bd env pf = some (.ok ()) := by
  refine ⟨fun h => ?_, fun pf h => ?_⟩
  · rw [generateProof64_eq _ env hta, Build.u64_lt _ h]; rfl
  · rw [generateProof64_eq _ env hta] at h
    obtain ⟨w, -, hpf⟩ := Option.bind_eq_some_iff.1 h
    obtain ⟨rs, -, -, -, h1, -, h2, h3, -⟩ := proveFor_spec env hpf
    have hle : pf.domainSize ≤ 2 ^ FftField.twoAdicity F := by
      rw [h3]; exact Nat.pow_le_pow_right (by norm_num) h2
    refine ⟨hle, fun bd => ?_⟩
    rw [C85_fri_verify64 bd env hta pf]
    · exact proveFor_verifies env poly w q hpf
    · have : (2 : ℕ) ^ FftField.twoAdicity F ≤ 2 ^ 63 := Nat.pow_le_pow_right (by norm_num) hta
      omega

/-- Goldilocks has two-adicity 32. -/
example : FftField.twoAdicity Goldilocks ≤ 63 := by
  show 32 ≤ 63
  norm_num

/-- The two builds differ: six coefficients with the blowup factor `(2^63 + 1) / 3` are refused with overflow checks,
without them the product wraps to 2. -/
example : Build.checked.u64 (6 * ((2 ^ 63 + 1) / 3)) = none ∧
    Build.wrapping.u64 (6 * ((2 ^ 63 + 1) / 3)) = some 2 := by
  constructor <;> simp [Build.u64]

end Verif.Fri

import Verif.Fri.TranscriptProps

/-! # Lemmas about folding, layers and the FRI prover -/

set_option linter.unusedSectionVars false

namespace Verif.Fri

open Verif.Ark Polynomial

variable {F : Type} [FftField F] [DecidableEq F]

theorem length_evens {α : Type} (l : List α) : (evens l).length = (l.length + 1) / 2 := by
  induction l using evens.induct with
  | case1 => simp [evens]
  | case2 a => simp [evens]
  | case3 a b t ih => simp [evens, ih]; omega

/-- Even/odd split of a polynomial. -/
theorem eval_split (p : DP F) (x : F) :
    Ark.eval p x = Ark.eval (evens p) (x * x) + x * Ark.eval (evens (p.drop 1)) (x * x) := by
  induction p using evens.induct with
  | case1 => simp [evens]
  | case2 a => simp [evens]
  | case3 a b t ih =>
    have key : Ark.eval (evens (b :: t)) (x * x) =
        b + x * x * Ark.eval (evens (t.drop 1)) (x * x) := by
      cases t with
      | nil => simp [evens, Ark.eval]
      | cons c t => simp [evens]
    simp only [evens, List.drop_succ_cons, List.drop_zero, Ark.eval_cons]
    rw [key, ih]; ring

theorem eval_fold (p : DP F) (r x : F) : Ark.eval (foldPolynomial p r) (x * x) =
    Ark.eval (evens p) (x * x) + r * Ark.eval (evens (p.drop 1)) (x * x) := by
  rw [foldPolynomial]
  simp only [eval_eq]
  rw [toPoly_add, toPoly_smul, toPoly_fromCoeffs, toPoly_fromCoeffs]
  simp

/-- The FRI folding identity. -/
theorem fold_identity (p : DP F) (r x : F) (hx : x ≠ 0) (h2 : (2 : F) ≠ 0) :
    Ark.eval (foldPolynomial p r) (x * x) =
      (Ark.eval p x + Ark.eval p (-x)) / 2 + r * (Ark.eval p x - Ark.eval p (-x)) / (2 * x) := by
  rw [eval_fold, eval_split p x, eval_split p (-x), neg_mul_neg]
  field_simp
  ring

theorem length_smul_le (p : DP F) (c : F) : (smul p c).length ≤ p.length := by
  unfold smul; split <;> simp

theorem length_fold_le (p : DP F) (r : F) : (foldPolynomial p r).length ≤ (p.length + 1) / 2 := by
  rw [foldPolynomial]
  simp only [add]
  refine (length_truncate_le _).trans ?_
  rw [length_zipAdd]
  refine max_le ?_ ?_
  · exact (length_truncate_le _).trans (by rw [length_evens])
  · refine (length_smul_le _ _).trans ((length_truncate_le _).trans ?_)
    rw [length_evens, List.length_drop]; omega

theorem canon_fold (p : DP F) (r : F) : Canon (foldPolynomial p r) := canon_add _ _

/-! ## Domains of halving size -/

theorem new?_pow (k : ℕ) (h : k ≤ FftField.twoAdicity F) :
    Domain.new? (F := F) (2 ^ k) = some ⟨k, (FftField.root : F) ^ 2 ^ (FftField.twoAdicity F - k)⟩ := by
  unfold Domain.new?
  simp [Nat.clog_pow 2 k (by norm_num), h]

theorem new?_pow_none (k : ℕ) (h : ¬ k ≤ FftField.twoAdicity F) :
    Domain.new? (F := F) (2 ^ k) = none := by
  unfold Domain.new?
  simp [Nat.clog_pow 2 k (by norm_num), h]

/-- The generator of the subgroup of order `2^k`. -/
def rootOf (F : Type) [FftField F] (k : ℕ) : F := (FftField.root : F) ^ 2 ^ (FftField.twoAdicity F - k)

theorem rootOf_prim (k : ℕ) (h : k ≤ FftField.twoAdicity F) : IsPrimitiveRoot (rootOf F k) (2 ^ k) :=
  (Domain.new?_valid (new?_pow k h)).1

theorem rootOf_sq (k : ℕ) (h : k + 1 ≤ FftField.twoAdicity F) :
    rootOf F (k + 1) * rootOf F (k + 1) = rootOf F k := by
  unfold rootOf
  rw [← pow_two, ← pow_mul, ← pow_succ]
  congr 2; omega

theorem rootOf_half (k : ℕ) (h : k + 1 ≤ FftField.twoAdicity F) : rootOf F (k + 1) ^ 2 ^ k = -1 := by
  have hp := rootOf_prim (F := F) (k + 1) h
  have hsq : (rootOf F (k + 1) ^ 2 ^ k) ^ 2 = 1 := by
    rw [← pow_mul, ← pow_succ]; exact hp.pow_eq_one
  rcases sq_eq_one_iff.1 hsq with h1 | h1
  · exfalso
    have := hp.dvd_of_pow_eq_one _ h1
    have := Nat.le_of_dvd (by positivity) this
    rw [pow_succ] at this
    have : 0 < 2 ^ k := by positivity
    omega
  · exact h1

theorem two_ne_zero_of (h : 1 ≤ FftField.twoAdicity F) : (2 : F) ≠ 0 := by
  have hp := rootOf_prim (F := F) 1 h
  intro h2
  have h1 : rootOf F 1 ^ 2 ^ 0 = -1 := rootOf_half 0 h
  simp only [pow_zero, pow_one] at h1
  have h3 : (-1 : F) = 1 := by
    have : (1 : F) + 1 = 0 := by rw [one_add_one_eq_two]; exact h2
    exact (eq_neg_of_add_eq_zero_left this).symm
  rw [h1, h3] at hp
  have := hp.dvd_of_pow_eq_one 1 (by simp)
  simp at this

theorem rootOf_ne_zero (k : ℕ) (h : k ≤ FftField.twoAdicity F) : rootOf F k ≠ 0 :=
  (rootOf_prim k h).ne_zero (by positivity)

theorem rootOf_pow_mod (k i : ℕ) (h : k ≤ FftField.twoAdicity F) :
    rootOf F k ^ (i % 2 ^ k) = rootOf F k ^ i := by
  conv_rhs => rw [← Nat.div_add_mod i (2 ^ k), pow_add, pow_mul, (rootOf_prim k h).pow_eq_one,
    one_pow, one_mul]

/-! ## Layers -/

theorem fromPoly_eq (env : Env F) (p : DP F) (c : F) (k : ℕ) (h : k ≤ FftField.twoAdicity F) :
    FriLayer.fromPoly env p c (2 ^ k) = some
      { evaluations := (List.range (2 ^ k)).map fun i => Ark.eval p (rootOf F k ^ i * c)
        merkleTree := MerkleTree.new env ((List.range (2 ^ k)).map fun i => Ark.eval p (rootOf F k ^ i * c))
        coset := c
        domainSize := 2 ^ k } := by
  unfold FriLayer.fromPoly
  rw [new?_pow k h]
  simp [Domain.elements, Domain.size, Domain.element, Function.comp_def, rootOf]

theorem fromPoly_none (env : Env F) (p : DP F) (c : F) (k : ℕ) (h : ¬ k ≤ FftField.twoAdicity F) :
    FriLayer.fromPoly env p c (2 ^ k) = none := by
  unfold FriLayer.fromPoly
  rw [new?_pow_none k h]; rfl

/-- The layer committed for polynomial `p` on the coset `c` of the subgroup of order `2^k`. -/
def layerOf (env : Env F) (p : DP F) (c : F) (k : ℕ) : FriLayer F :=
  { evaluations := (List.range (2 ^ k)).map fun i => Ark.eval p (rootOf F k ^ i * c)
    merkleTree := MerkleTree.new env ((List.range (2 ^ k)).map fun i => Ark.eval p (rootOf F k ^ i * c))
    coset := c
    domainSize := 2 ^ k }

theorem layerOf_root (env : Env F) (p : DP F) (c : F) (k : ℕ) :
    ∃ r, (layerOf env p c k).merkleTree.root? = some r := by
  apply root_isSome
  intro h
  have := congrArg List.length h
  simp at this

/-- The layers belonging to a list of folding challenges. -/
def layersOf (env : Env F) : DP F → F → List F → List (FriLayer F)
  | _, _, [] => []
  | p, c, r :: rs => layerOf env p c (rs.length + 1) :: layersOf env (foldPolynomial p r) (c * c) rs

/-- Lockstep description of prover loop and verifier's regeneration of challenges. -/
theorem foldLoop_spec (env : Env F) (k : ℕ) (p : DP F) (c : F) (t : Transcript)
    {pf : DP F} {t' : Transcript} {layers : List (FriLayer F)}
    (h : foldLoop env k p c (2 ^ k) t = some (pf, t', layers)) :
    ∃ roots rs, rs.length = k ∧ layers = layersOf env p c rs ∧ pf = rs.foldl foldPolynomial p ∧
      (layers.mapM fun l => l.merkleTree.root?) = some roots ∧ regenerate env roots t = some (rs, t') ∧
      (0 < k → k ≤ FftField.twoAdicity F) := by
  induction k generalizing p c t pf t' layers with
  | zero =>
    simp only [foldLoop, Option.some.injEq, Prod.mk.injEq] at h
    obtain ⟨rfl, rfl, rfl⟩ := h
    exact ⟨[], [], rfl, rfl, rfl, rfl, rfl, by simp⟩
  | succ k ih =>
    rw [foldLoop] at h
    by_cases hk : k + 1 ≤ FftField.twoAdicity F
    · have hl : FriLayer.fromPoly env p c (2 ^ (k + 1)) = some (layerOf env p c (k + 1)) :=
        fromPoly_eq env p c (k + 1) hk
      rw [hl] at h
      simp only [Option.bind_eq_bind, Option.bind_some, Option.bind_eq_some_iff, pure] at h
      obtain ⟨root, hroot, ct, hct, rest, hrest, h⟩ := h
      rw [show 2 ^ (k + 1) / 2 = 2 ^ k by rw [pow_succ]; omega] at hrest
      obtain ⟨roots, rs, hlen, hlay, hpf, hroots, hreg, -⟩ := ih _ _ _ hrest
      simp only [Option.some.injEq, Prod.mk.injEq] at h
      obtain ⟨rfl, rfl, rfl⟩ := h
      refine ⟨root :: roots, ct.1 :: rs, by simp [hlen], ?_, ?_, ?_, ?_, fun _ => hk⟩
      · rw [layersOf, hlen, hlay]
      · rw [List.foldl_cons, hpf]
      · simp only [List.mapM_cons, hroot, hroots]; rfl
      · rw [regenerate, hct]
        simp only [Option.bind_eq_bind, Option.bind_some, hreg]; rfl
    · rw [fromPoly_none env p c (k + 1) hk] at h; simp at h

theorem generateAChallenge_feed (env : Env F) (hdig : ∀ b, 8 ≤ (env.digest b).length) (t : Transcript)
    (m : F) : ∃ ct, (t.feed env m).generateAChallenge env = some ct := by
  have := hdig (t.data.getD [] ++ leBytes8 t.index ++ env.toStr m)
  have hn : ¬ ((t.feed env m).data.getD []).length < 8 := by
    simp only [Transcript.feed, Option.getD_some]; omega
  refine ⟨(env.rand (fromLeBytes (((t.feed env m).data.getD []).take 8)) 0,
    { t.feed env m with generated := true }), ?_⟩
  unfold Transcript.generateAChallenge Transcript.rngSeed
  rw [if_neg hn]
  rfl

/-- The prover loop succeeds on every domain the field supports. -/
theorem foldLoop_isSome (env : Env F) (hdig : ∀ b, 8 ≤ (env.digest b).length) (k : ℕ)
    (hk : k ≤ FftField.twoAdicity F) (p : DP F) (c : F) (t : Transcript) :
    ∃ res, foldLoop env k p c (2 ^ k) t = some res := by
  induction k generalizing p c t with
  | zero => exact ⟨_, rfl⟩
  | succ k ih =>
    rw [foldLoop, show FriLayer.fromPoly env p c (2 ^ (k + 1)) = some (layerOf env p c (k + 1)) from
      fromPoly_eq env p c (k + 1) hk]
    obtain ⟨root, hroot⟩ := layerOf_root env p c (k + 1)
    obtain ⟨ct, hct⟩ := generateAChallenge_feed env hdig t root
    obtain ⟨res, hres⟩ := ih (by omega) (foldPolynomial p ct.1) (c * c) ct.2
    simp only [Option.bind_eq_bind, Option.bind_some, hroot, hct]
    rw [show 2 ^ (k + 1) / 2 = 2 ^ k by rw [pow_succ]; omega, hres]
    exact ⟨_, rfl⟩

theorem foldLoop_none (env : Env F) (k : ℕ) (hk0 : 0 < k)
    (hk : ¬ k ≤ FftField.twoAdicity F) (p : DP F) (c : F) (t : Transcript) :
    foldLoop env k p c (2 ^ k) t = none := by
  cases k with
  | zero => omega
  | succ k => rw [foldLoop, fromPoly_none env p c (k + 1) hk]; rfl

theorem length_foldl_le (rs : List F) (p : DP F) (h : p.length ≤ 2 ^ rs.length) :
    (rs.foldl foldPolynomial p).length ≤ 1 := by
  induction rs generalizing p with
  | nil => simpa using h
  | cons r rs ih =>
    rw [List.foldl_cons]
    apply ih
    have := length_fold_le p r
    simp only [List.length_cons, pow_succ] at h
    omega

/-- A layer answers every query. -/
theorem queryLayer_layerOf (env : Env F) (p : DP F) (c : F) (k ch : ℕ) :
    ∃ path sp, queryLayer ch (layerOf env p c k) =
      some (Ark.eval p (rootOf F k ^ (ch % 2 ^ k) * c), path,
        Ark.eval p (rootOf F k ^ ((ch % 2 ^ k + 2 ^ k / 2) % 2 ^ k) * c), sp) ∧
      path.index = ch % 2 ^ k ∧ sp.index = (ch % 2 ^ k + 2 ^ k / 2) % 2 ^ k ∧
      path.leafVal = Ark.eval p (rootOf F k ^ (ch % 2 ^ k) * c) ∧
      sp.leafVal = Ark.eval p (rootOf F k ^ ((ch % 2 ^ k + 2 ^ k / 2) % 2 ^ k) * c) ∧
      verifyMerkleProof env path = true ∧ verifyMerkleProof env sp = true ∧
      (layerOf env p c k).merkleTree.root? = some path.root ∧
      (layerOf env p c k).merkleTree.root? = some sp.root ∧
      path.hashProof.length = k ∧ sp.hashProof.length = k := by
  have hp : 0 < 2 ^ k := by positivity
  have hi : ch % 2 ^ k < 2 ^ k := Nat.mod_lt _ hp
  have hs : (ch % 2 ^ k + 2 ^ k / 2) % 2 ^ k < 2 ^ k := Nat.mod_lt _ hp
  have hl : ((List.range (2 ^ k)).map fun i => Ark.eval p (rootOf F k ^ i * c)).length = 2 ^ k := by simp
  obtain ⟨path, h1, h2, h3, h4, h5, h6⟩ := C12_pow2 env _ k hl _ hi
  obtain ⟨sp, g1, g2, g3, g4, g5, g6⟩ := C12_pow2 env _ k hl _ hs
  have e1 : ((List.range (2 ^ k)).map fun i => Ark.eval p (rootOf F k ^ i * c))[ch % 2 ^ k]? =
      some (Ark.eval p (rootOf F k ^ (ch % 2 ^ k) * c)) := by
    rw [List.getElem?_map, List.getElem?_range hi]; rfl
  have e2 : ((List.range (2 ^ k)).map fun i => Ark.eval p (rootOf F k ^ i * c))[(ch % 2 ^ k + 2 ^ k / 2) % 2 ^ k]? =
      some (Ark.eval p (rootOf F k ^ ((ch % 2 ^ k + 2 ^ k / 2) % 2 ^ k) * c)) := by
    rw [List.getElem?_map, List.getElem?_range hs]; rfl
  refine ⟨path, sp, ?_, h4, g4, ?_, ?_, h2, g2, h5, g5, h6, g6⟩
  · unfold queryLayer
    rw [if_neg (show ¬ (layerOf env p c k).domainSize = 0 from hp.ne')]
    change (do
      let evaluation ← ((List.range (2 ^ k)).map fun i => Ark.eval p (rootOf F k ^ i * c))[ch % 2 ^ k]?
      let symEvaluation ← ((List.range (2 ^ k)).map fun i =>
        Ark.eval p (rootOf F k ^ i * c))[(ch % 2 ^ k + 2 ^ k / 2) % 2 ^ k]?
      let authPath ← (MerkleTree.new env _).generateProof (ch % 2 ^ k)
      let symAuthPath ← (MerkleTree.new env _).generateProof ((ch % 2 ^ k + 2 ^ k / 2) % 2 ^ k)
      pure (evaluation, authPath, symEvaluation, symAuthPath)) = _
    rw [e1, e2, h1, g1]; rfl
  · rw [e1] at h3; exact (Option.some.inj h3).symm
  · rw [e2] at g3; exact (Option.some.inj g3).symm

theorem queryRows_isSome (env : Env F) (rs : List F) (p : DP F) (c : F) (ch : ℕ) :
    ∃ rows, (layersOf env p c rs).mapM (queryLayer ch) = some rows ∧ rows.length = rs.length := by
  induction rs generalizing p c with
  | nil => exact ⟨[], rfl, rfl⟩
  | cons r rs ih =>
    obtain ⟨rows, hrows, hl⟩ := ih (foldPolynomial p r) (c * c)
    obtain ⟨path, sp, h, -⟩ := queryLayer_layerOf env p c (rs.length + 1) ch
    generalize (_, path, _, sp) = row at h
    refine ⟨row :: rows, ?_, by simp [hl]⟩
    rw [layersOf, List.mapM_cons, h, hrows]; rfl

theorem sym_point (k i : ℕ) (h : k + 1 ≤ FftField.twoAdicity F) :
    rootOf F (k + 1) ^ ((i % 2 ^ (k + 1) + 2 ^ (k + 1) / 2) % 2 ^ (k + 1)) =
      -rootOf F (k + 1) ^ (i % 2 ^ (k + 1)) := by
  rw [rootOf_pow_mod _ _ h, pow_add, show 2 ^ (k + 1) / 2 = 2 ^ k by rw [pow_succ]; omega,
    rootOf_half k h]; ring

theorem qFold_eq (r w a b : F) (hw : w ≠ 0) (h2 : (2 : F) ≠ 0) :
    (r + w) * a / (2 * w) - (r - w) * b / (2 * w) = (a + b) / 2 + r * (a - b) / (2 * w) := by
  field_simp; ring

/-- The value the verifier computes from a pair of symmetric evaluations. -/
abbrev qFold (r w a b : F) : F := (r + w) * a / (2 * w) - (r - w) * b / (2 * w)

/-- One round of the verifier's loop. -/
theorem verifyQueryLoop_cons (env : Env F) (ch : ℕ) (evs : List F) (cv : F) (i : ℕ) (ev : F)
    (path : MerkleProof F) (sev : F) (sp : MerkleProof F) (r : F)
    (rest : List ((((F × MerkleProof F) × F) × MerkleProof F) × F)) (D : ℕ) (c : F) :
    verifyQueryLoop env ch evs cv i (((((ev, path), sev), sp), r) :: rest) D c = some (.ok ()) ↔
      D ≠ 0 ∧ ∃ dom, Domain.new? (F := F) D = some dom ∧
        path.index = ch % D ∧ sp.index = (ch % D + D / 2) % D ∧ path.leafVal = ev ∧ sp.leafVal = sev ∧
        verifyMerkleProof env path = true ∧ verifyMerkleProof env sp = true ∧
        2 * (dom.element (ch % D) * c) ≠ 0 ∧
        (i ≠ evs.length - 1 → evs[i + 1]? = some (qFold r (dom.element (ch % D) * c) ev sev) ∧
          verifyQueryLoop env ch evs cv (i + 1) rest (D / 2) (c * c) = some (.ok ())) ∧
        (i = evs.length - 1 → cv = qFold r (dom.element (ch % D) * c) ev sev ∧
          verifyQueryLoop env ch evs cv (i + 1) rest D c = some (.ok ())) := by
  rw [verifyQueryLoop]
  by_cases hD : D = 0
  · simp [hD]
  rw [if_neg hD]
  simp only [ne_eq, hD, not_false_eq_true, true_and]
  cases hdom : Domain.new? (F := F) D with
  | none => simp
  | some dom =>
    simp only [Option.some.injEq, exists_eq_left']
    by_cases h1 : ¬ch % D = path.index ∨ ¬(ch % D + D / 2) % D = sp.index
    · rw [if_pos h1]
      simp only [Option.some.injEq, reduceCtorEq, false_iff]
      rintro ⟨e1, e2, -⟩
      rcases h1 with h | h
      · exact h e1.symm
      · exact h e2.symm
    rw [if_neg h1]
    by_cases h2 : ¬ev = path.leafVal ∨ ¬sev = sp.leafVal
    · rw [if_pos h2]
      simp only [Option.some.injEq, reduceCtorEq, false_iff]
      rintro ⟨-, -, e1, e2, -⟩
      rcases h2 with h | h
      · exact h e1.symm
      · exact h e2.symm
    rw [if_neg h2]
    by_cases h3 : (!verifyMerkleProof env path || !verifyMerkleProof env sp) = true
    · rw [if_pos h3]
      simp only [Option.some.injEq, reduceCtorEq, false_iff]
      rintro ⟨-, -, -, -, e1, e2, -⟩
      rw [e1, e2] at h3; simp at h3
    rw [if_neg h3]
    push Not at h1 h2
    simp only [Bool.or_eq_true, Bool.not_eq_true', not_or, Bool.not_eq_false] at h3
    by_cases h4 : 2 * (dom.element (ch % D) * c) = 0
    · rw [if_pos h4]
      simp only [reduceCtorEq, false_iff]
      rintro ⟨-, -, -, -, -, -, e, -⟩
      exact e h4
    rw [if_neg h4]
    by_cases h5 : i = evs.length - 1
    · rw [if_neg (not_not.2 h5)]
      by_cases h6 : qFold r (dom.element (ch % D) * c) ev sev = cv
      · rw [if_neg (not_not.2 h6)]
        exact ⟨fun h => ⟨h1.1.symm, h1.2.symm, h2.1.symm, h2.2.symm, h3.1, h3.2, h4,
          fun h' => absurd h5 h', fun _ => ⟨h6.symm, h⟩⟩, fun h => (h.2.2.2.2.2.2.2.2 h5).2⟩
      · rw [if_pos h6]
        simp only [Option.some.injEq, reduceCtorEq, false_iff]
        rintro ⟨-, -, -, -, -, -, -, -, e⟩
        exact h6 (e h5).1.symm
    · rw [if_pos h5]
      cases h6 : evs[i + 1]? with
      | none =>
        simp only [reduceCtorEq, false_iff]
        rintro ⟨-, -, -, -, -, -, -, e, -⟩
        exact absurd (e h5).1 (by simp)
      | some nx =>
        by_cases h7 : qFold r (dom.element (ch % D) * c) ev sev = nx
        · simp only
          rw [if_neg (not_not.2 h7)]
          exact ⟨fun h => ⟨h1.1.symm, h1.2.symm, h2.1.symm, h2.2.symm, h3.1, h3.2, h4,
            fun _ => ⟨by rw [h7], h⟩, fun h' => absurd h' h5⟩, fun h => (h.2.2.2.2.2.2.2.1 h5).2⟩
        · simp only
          rw [if_pos h7]
          simp only [Option.some.injEq, reduceCtorEq, false_iff]
          rintro ⟨-, -, -, -, -, -, -, e, -⟩
          exact h7 (e h5).1.symm

/-- The verifier accepts honest rows of a query. -/
theorem verifyQueryLoop_honest (env : Env F) (ch : ℕ) (rs : List F) (p : DP F) (c : F) (hc : c ≠ 0)
    (hk : rs.length ≤ FftField.twoAdicity F) (constVal : F)
    (hconst : ∀ x, Ark.eval (rs.foldl foldPolynomial p) x = constVal)
    (rows : List (F × MerkleProof F × F × MerkleProof F))
    (hrows : (layersOf env p c rs).mapM (queryLayer ch) = some rows)
    (pre : List F) :
    verifyQueryLoop env ch (pre ++ rows.map fun r => r.1) constVal pre.length
      (((((rows.map fun r => r.1).zip (rows.map fun r => r.2.1)).zip (rows.map fun r => r.2.2.1)).zip
        (rows.map fun r => r.2.2.2)).zip rs) (2 ^ rs.length) c = some (.ok ()) := by
  induction rs generalizing p c rows pre with
  | nil =>
    simp only [layersOf, List.mapM_nil, pure, Option.some.injEq] at hrows
    subst hrows
    rfl
  | cons r rs ih =>
    simp only [List.length_cons] at hk
    rw [layersOf, List.mapM_cons] at hrows
    obtain ⟨path, sp, hq, i1, i2, l1, l2, v1, v2, -⟩ := queryLayer_layerOf env p c (rs.length + 1) ch
    rw [hq] at hrows
    simp only [Option.bind_eq_bind, Option.bind_some, Option.bind_eq_some_iff, pure,
      Option.some.injEq] at hrows
    obtain ⟨rows', hrows', rfl⟩ := hrows
    have h2 : (2 : F) ≠ 0 := two_ne_zero_of (F := F) (by omega)
    have hw : rootOf F (rs.length + 1) ^ (ch % 2 ^ (rs.length + 1)) * c ≠ 0 :=
      mul_ne_zero (pow_ne_zero _ (rootOf_ne_zero _ hk)) hc
    have hfold : qFold r (rootOf F (rs.length + 1) ^ (ch % 2 ^ (rs.length + 1)) * c)
        (Ark.eval p (rootOf F (rs.length + 1) ^ (ch % 2 ^ (rs.length + 1)) * c))
        (Ark.eval p (rootOf F (rs.length + 1) ^
          ((ch % 2 ^ (rs.length + 1) + 2 ^ (rs.length + 1) / 2) % 2 ^ (rs.length + 1)) * c)) =
        Ark.eval (foldPolynomial p r) (rootOf F rs.length ^ (ch % 2 ^ rs.length) * (c * c)) := by
      rw [qFold, qFold_eq _ _ _ _ hw h2, sym_point _ _ hk, neg_mul, ← fold_identity p r _ hw h2]
      congr 1
      rw [mul_mul_mul_comm, ← mul_pow, rootOf_sq _ hk, ← rootOf_pow_mod rs.length _ (by omega),
        Nat.mod_mod_of_dvd _ (pow_dvd_pow 2 (by omega))]
    simp only [List.map_cons, List.zip_cons_cons, List.length_cons]
    rw [verifyQueryLoop_cons]
    refine ⟨by positivity, _, new?_pow _ hk, i1, i2, l1, l2, v1, v2, mul_ne_zero h2 hw, ?_, ?_⟩
    · intro hi
      change _ = some (qFold r (rootOf F (rs.length + 1) ^ (ch % 2 ^ (rs.length + 1)) * c) _ _) ∧ _
      rw [hfold, show 2 ^ (rs.length + 1) / 2 = 2 ^ rs.length by rw [pow_succ]; omega]
      cases rs with
      | nil =>
        simp only [layersOf, List.mapM_nil, pure, Option.some.injEq] at hrows'
        subst hrows'
        simp at hi
      | cons r' rs =>
        have IH := ih (foldPolynomial p r) (c * c) (mul_ne_zero hc hc) (by omega)
          (by intro x; simpa using hconst x) rows' hrows'
          (pre ++ [Ark.eval p (rootOf F ((r' :: rs).length + 1) ^ (ch % 2 ^ ((r' :: rs).length + 1)) * c)])
        refine ⟨?_, ?_⟩
        · rw [layersOf, List.mapM_cons] at hrows'
          obtain ⟨path', sp', hq', -⟩ :=
            queryLayer_layerOf env (foldPolynomial p r) (c * c) (rs.length + 1) ch
          rw [hq'] at hrows'
          simp only [Option.bind_eq_bind, Option.bind_some, Option.bind_eq_some_iff, pure,
            Option.some.injEq] at hrows'
          obtain ⟨rows'', hrows'', rfl⟩ := hrows'
          rw [List.getElem?_append_right (by omega)]
          simp
        · rw [List.append_assoc, List.length_append] at IH
          exact IH
    · intro hi
      change _ = qFold r (rootOf F (rs.length + 1) ^ (ch % 2 ^ (rs.length + 1)) * c) _ _ ∧ _
      rw [hfold]
      cases rs with
      | nil =>
        refine ⟨(hconst _).symm, ?_⟩
        simp [verifyQueryLoop]
      | cons r' rs =>
        exfalso
        have := List.length_append (as := pre) (bs := (Ark.eval p (rootOf F ((r' :: rs).length + 1) ^
          (ch % 2 ^ ((r' :: rs).length + 1)) * c)) :: rows'.map fun r => r.1)
        obtain ⟨rows2, h21, h22⟩ := queryRows_isSome env (r' :: rs) (foldPolynomial p r) (c * c) ch
        rw [h21] at hrows'
        obtain rfl := Option.some.inj hrows'
        rw [this] at hi
        simp [h22] at hi

end Verif.Fri

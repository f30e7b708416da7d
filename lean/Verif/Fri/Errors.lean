import Verif.Checks
import Verif.Fri.Robust
import Verif.Fri.Api

/-!
# C117: which error the FRI verifier returns
-/

namespace Verif.Fri

open Verif.Ark

variable {F : Type} [FftField F] [DecidableEq F]

/-! ## Specification -/

/-- The four checks of layer `i` of a decommitment supplied for position `pos`, in the order in which they are
reported: the indices of the two paths, the values they reveal, the paths themselves, and the folding into the value of
the next layer (the constant, if there is no next one). -/
def layerChecks (env : Env F) (D : ℕ) (c cv : F) (rs : List F) (pos : ℕ) (d : Decommitment F) (i : ℕ) :
    List (Prop × String) :=
  [((d.authPaths[i]?).map (·.index) = some (pos % (D / 2 ^ i)) ∧
      (d.symAuthPaths[i]?).map (·.index) = some ((pos % (D / 2 ^ i) + D / 2 ^ i / 2) % (D / 2 ^ i)),
    "wrong index!"),
   ((d.authPaths[i]?).map (·.leafVal) = d.evaluations[i]? ∧ (d.symAuthPaths[i]?).map (·.leafVal) = d.symEvaluations[i]?,
    "the evaluation does not correspond to given path!"),
   ((∀ p, d.authPaths[i]? = some p → verifyMerkleProof env p = true) ∧
      (∀ p, d.symAuthPaths[i]? = some p → verifyMerkleProof env p = true),
    "verify Merkle path failed!"),
   (∀ (r ev sev : F) (dom : Domain F), rs[i]? = some r → d.evaluations[i]? = some ev → d.symEvaluations[i]? = some sev →
      Domain.new? (D / 2 ^ i) = some dom →
      (d.evaluations[i + 1]?).getD cv =
        (ev + sev) / 2 + r * (ev - sev) / (2 * (dom.gen ^ (pos % (D / 2 ^ i)) * c ^ 2 ^ i)),
    "folding wrong!")]

/-- The number of layers of a decommitment that are looked at when there are `m` folding challenges: as many as the
shortest of its vectors has entries. -/
def layersChecked (d : Decommitment F) (m : ℕ) : ℕ :=
  min (min (min (min d.evaluations.length d.authPaths.length) d.symEvaluations.length) d.symAuthPaths.length) m

/-- All checks of a proof, position by position and layer by layer. -/
def proofChecks (env : Env F) (pf : Proof F) (rs : List F) (positions : List ℕ) : List (Prop × String) :=
  (positions.zip pf.decommitmentList).flatMap fun x =>
    (List.range (layersChecked x.2 rs.length)).flatMap
      (layerChecks env pf.domainSize pf.coset pf.constVal rs x.1 x.2)

/-! ## Theorems -/

omit [FftField F] [DecidableEq F] in
theorem length_queryItems (d : Decommitment F) (rs : List F) :
    (queryItems d rs).length = layersChecked d rs.length := by
  simp [queryItems, layersChecked, List.length_zip]

/-- The loop from layer `i` on. -/
theorem loop_firstFailed (env : Env F) (pos : ℕ) (d : Decommitment F) (rs : List F) (D : ℕ) (cv c : F) (n i : ℕ)
    (hn : i + n = layersChecked d rs.length) (res : Except String Unit)
    (h : verifyQueryLoop env pos d.evaluations cv i ((queryItems d rs).drop i) (D / 2 ^ i) (c ^ 2 ^ i) = some res) :
    FirstFailed ((List.range' i n).flatMap (layerChecks env D c cv rs pos d)) res := by
  have hql := length_queryItems d rs
  induction n generalizing i with
  | zero =>
    rw [List.drop_of_length_le (by omega), verifyQueryLoop, Option.some.injEq] at h
    rw [← h]
    exact .done
  | succ n ih =>
    have hi' : i < (queryItems d rs).length := by omega
    rw [List.drop_eq_getElem_cons hi'] at h
    have hget := List.getElem?_eq_getElem hi'
    generalize hx : (queryItems d rs)[i] = x at hget h
    obtain ⟨⟨⟨⟨ev, path⟩, sev⟩, sp⟩, r⟩ := x
    obtain ⟨g1, g2, g3, g4, g5⟩ := (queryItems_getElem d rs i _).1 hget
    simp only at g1 g2 g3 g4 g5
    rw [List.range'_succ, List.flatMap_cons]
    rw [verifyQueryLoop] at h
    by_cases hD : D / 2 ^ i = 0
    · rw [if_pos hD] at h; cases h
    rw [if_neg hD] at h
    dsimp only at h
    cases hdom : Domain.new? (F := F) (D / 2 ^ i) with
    | none => rw [hdom] at h; cases h
    | some dom =>
      rw [hdom] at h
      dsimp only at h
      by_cases h1 : path.index = pos % (D / 2 ^ i) ∧ sp.index = (pos % (D / 2 ^ i) + D / 2 ^ i / 2) % (D / 2 ^ i)
      swap
      · rw [if_pos (by by_contra hc; rw [not_or, not_not, not_not] at hc; exact h1 ⟨hc.1.symm, hc.2.symm⟩)] at h
        cases h
        exact .fail _ _ _ (by rw [g2, g4]; simpa using h1)
      rw [if_neg (by rw [not_or, not_not, not_not]; exact ⟨h1.1.symm, h1.2.symm⟩)] at h
      have p1 : (d.authPaths[i]?).map (·.index) = some (pos % (D / 2 ^ i)) ∧
          (d.symAuthPaths[i]?).map (·.index) = some ((pos % (D / 2 ^ i) + D / 2 ^ i / 2) % (D / 2 ^ i)) := by
        rw [g2, g4]; simpa using h1
      by_cases h2 : ev = path.leafVal ∧ sev = sp.leafVal
      swap
      · rw [if_pos (by by_contra hc; rw [not_or, not_not, not_not] at hc; exact h2 hc)] at h
        cases h
        refine .pass _ _ _ _ p1 (.fail _ _ _ ?_)
        rw [g1, g2, g3, g4]
        rintro ⟨a, b⟩
        exact h2 ⟨(Option.some.inj a).symm, (Option.some.inj b).symm⟩
      rw [if_neg (by rw [not_or, not_not, not_not]; exact h2)] at h
      have p2 : (d.authPaths[i]?).map (·.leafVal) = d.evaluations[i]? ∧
          (d.symAuthPaths[i]?).map (·.leafVal) = d.symEvaluations[i]? := by
        rw [g1, g2, g3, g4, h2.1, h2.2]; exact ⟨rfl, rfl⟩
      by_cases h3 : verifyMerkleProof env path = true ∧ verifyMerkleProof env sp = true
      swap
      · rw [if_pos (by cases ha : verifyMerkleProof env path <;> cases hb : verifyMerkleProof env sp <;> simp_all)] at h
        cases h
        refine .pass _ _ _ _ p1 (.pass _ _ _ _ p2 (.fail _ _ _ ?_))
        rw [g2, g4]
        rintro ⟨a, b⟩
        exact h3 ⟨a _ rfl, b _ rfl⟩
      rw [if_neg (by rw [h3.1, h3.2]; simp)] at h
      have p3 : (∀ p, d.authPaths[i]? = some p → verifyMerkleProof env p = true) ∧
          (∀ p, d.symAuthPaths[i]? = some p → verifyMerkleProof env p = true) := by
        rw [g2, g4]
        exact ⟨fun p hp => by rw [← Option.some.inj hp]; exact h3.1, fun p hp => by rw [← Option.some.inj hp]; exact h3.2⟩
      by_cases h4 : 2 * (dom.element (pos % (D / 2 ^ i)) * c ^ 2 ^ i) = 0
      · rw [if_pos h4] at h; cases h
      rw [if_neg h4] at h
      obtain ⟨hw2, hw⟩ := mul_ne_zero_iff.1 h4
      rw [qFold_eq _ _ _ _ hw hw2] at h
      have key : ∀ (nx : F), (d.evaluations[i + 1]?).getD cv = nx →
          ((∀ (r ev sev : F) (dom : Domain F), rs[i]? = some r → d.evaluations[i]? = some ev →
            d.symEvaluations[i]? = some sev → Domain.new? (D / 2 ^ i) = some dom →
            (d.evaluations[i + 1]?).getD cv =
              (ev + sev) / 2 + r * (ev - sev) / (2 * (dom.gen ^ (pos % (D / 2 ^ i)) * c ^ 2 ^ i))) ↔
          (ev + sev) / 2 + r * (ev - sev) / (2 * (dom.element (pos % (D / 2 ^ i)) * c ^ 2 ^ i)) = nx) := by
        intro nx hnx
        rw [g1, g3, g5, hdom, hnx]
        constructor
        · intro hh
          exact (hh r ev sev dom rfl rfl rfl rfl).symm
        · rintro hh _ _ _ _ ⟨⟩ ⟨⟩ ⟨⟩ ⟨⟩
          exact hh.symm
      by_cases hlast : i ≠ d.evaluations.length - 1
      · rw [if_pos hlast] at h
        cases hne : d.evaluations[i + 1]? with
        | none => rw [hne] at h; cases h
        | some nx =>
          rw [hne] at h
          dsimp only at h
          have hk := key nx (by rw [hne]; rfl)
          by_cases h5 : (ev + sev) / 2 + r * (ev - sev) / (2 * (dom.element (pos % (D / 2 ^ i)) * c ^ 2 ^ i)) = nx
          swap
          · rw [if_pos h5] at h
            cases h
            exact .pass _ _ _ _ p1 (.pass _ _ _ _ p2 (.pass _ _ _ _ p3 (.fail _ _ _ fun hh => h5 (hk.1 hh))))
          rw [if_neg (by simpa using h5)] at h
          refine .pass _ _ _ _ p1 (.pass _ _ _ _ p2 (.pass _ _ _ _ p3 (.pass _ _ _ _ (hk.2 h5) ?_)))
          refine ih (i + 1) (by omega) ?_
          rw [pow_succ, ← Nat.div_div_eq_div_mul, pow_mul, pow_two]
          exact h
      · rw [if_neg hlast] at h
        have hlen : i < d.evaluations.length := by
          by_contra hc
          rw [List.getElem?_eq_none (by omega)] at g1
          cases g1
        have hne : d.evaluations[i + 1]? = none := List.getElem?_eq_none (by omega)
        have hk := key cv (by rw [hne]; rfl)
        by_cases h5 : (ev + sev) / 2 + r * (ev - sev) / (2 * (dom.element (pos % (D / 2 ^ i)) * c ^ 2 ^ i)) = cv
        swap
        · rw [if_pos h5] at h
          cases h
          exact .pass _ _ _ _ p1 (.pass _ _ _ _ p2 (.pass _ _ _ _ p3 (.fail _ _ _ fun hh => h5 (hk.1 hh))))
        rw [if_neg (by simpa using h5)] at h
        refine .pass _ _ _ _ p1 (.pass _ _ _ _ p2 (.pass _ _ _ _ p3 (.pass _ _ _ _ (hk.2 h5) ?_)))
        have hm : layersChecked d rs.length ≤ d.evaluations.length := by
          unfold layersChecked; omega
        have hn0 : n = 0 := by omega
        subst hn0
        rw [List.drop_of_length_le (by omega), verifyQueryLoop, Option.some.injEq] at h
        rw [← h]
        exact .done

/-- **C117** (FRI): if `verify` does not panic, it returns the message of the first check that fails, in the order of
the query positions (re-derived from the roots and the constant) and of the layers, and `Ok` if none fails.  There is
no assumption on the proof. -/
theorem C117_fri (env : Env F) (pf : Proof F) (res : Except String Unit) (h : verify env pf = some res) :
    ∃ rs positions, Derived env pf rs positions ∧ FirstFailed (proofChecks env pf rs positions) res := by
  unfold verify at h
  simp only [Option.bind_eq_bind, Option.bind_eq_some_iff] at h
  obtain ⟨⟨rs, t⟩, h1, ⟨vs, t'⟩, h2, h3⟩ := h
  dsimp only at h1 h2 h3
  split at h3
  · cases h3
  refine ⟨rs, _, (derived_iff _ _ _ _).2 ⟨t, t', vs, h1, h2, rfl⟩, ?_⟩
  unfold proofChecks
  generalize (vs.map fun v => v % pf.domainSize).zip pf.decommitmentList = l at h3
  induction l with
  | nil =>
    rw [verifyQueries, Option.some.injEq] at h3
    rw [← h3]
    exact .done
  | cons x l ih =>
    obtain ⟨pos, d⟩ := x
    rw [verifyQueries] at h3
    rw [List.flatMap_cons]
    have hq : ∀ r, verifyQuery env pos d rs pf.domainSize pf.constVal pf.coset = some r →
        FirstFailed ((List.range (layersChecked d rs.length)).flatMap
          (layerChecks env pf.domainSize pf.coset pf.constVal rs pos d)) r := by
      intro r hr
      rw [List.range_eq_range']
      refine loop_firstFailed env pos d rs pf.domainSize pf.constVal pf.coset _ 0 (by omega) r ?_
      simpa [verifyQuery] using hr
    cases hv : verifyQuery env pos d rs pf.domainSize pf.constVal pf.coset with
    | none => rw [hv] at h3; cases h3
    | some r =>
      rw [hv] at h3
      cases r with
      | error e =>
        cases h3
        exact (hq _ hv).append_error _
      | ok u =>
        exact FirstFailed.append_ok ((hq _ hv).ok_iff.1 rfl) (ih h3)

/-- **C117** (FRI): whatever the lengths of the vectors in the decommitments, `verify` returns `Ok` exactly if it does
not panic and all checks hold. -/
theorem C117_fri_ok (env : Env F) (pf : Proof F) :
    verify env pf = some (.ok ()) ↔ verify env pf ≠ none ∧
      ∃ rs positions, Derived env pf rs positions ∧ ∀ c ∈ proofChecks env pf rs positions, c.1 := by
  constructor
  · intro h
    obtain ⟨rs, pos, h1, h2⟩ := C117_fri env pf _ h
    exact ⟨by rw [h]; simp, rs, pos, h1, h2.ok_iff.1 rfl⟩
  · rintro ⟨hne, rs, pos, ⟨e1, e2, -⟩, hall⟩
    obtain ⟨res, hres⟩ := Option.ne_none_iff_exists'.1 hne
    obtain ⟨rs', pos', ⟨e1', e2', -⟩, h2⟩ := C117_fri env pf res hres
    rw [e1', ← e1, e2', ← e2] at h2
    rw [hres, h2.ok_iff.2 hall]

/-! ## Examples -/

/-- A proof whose decommitments are consistent in every layer but do not lead to the claimed constant is rejected with
`folding wrong!`: for any roots, any number of layers and queries. -/
theorem wrong_constant_error (env : Env F) (hdig : ∀ b, 8 ≤ (env.digest b).length) (roots : List F)
    (h0 : roots ≠ []) (hk : roots.length ≤ FftField.twoAdicity F) (v cv : F) (hv : v ≠ cv) (q : ℕ) (hq : 0 < q) :
    verify env { domainSize := 2 ^ roots.length, coset := FftField.generator, numberOfQueries := q, layersRoot := roots,
                 constVal := cv,
                 decommitmentList := (List.range q).map fun j => constDec env v roots.length roots.length
                  (env.low64 (challengeAfter env (0 :: roots ++ [cv]) j) % 2 ^ roots.length) } =
      some (.error "folding wrong!") := by
  set pf : Proof F := { domainSize := 2 ^ roots.length, coset := FftField.generator, numberOfQueries := q,
                        layersRoot := roots, constVal := cv,
                        decommitmentList := (List.range q).map fun j => constDec env v roots.length roots.length
                          (env.low64 (challengeAfter env (0 :: roots ++ [cv]) j) % 2 ^ roots.length) } with hpf
  have hm : 0 < roots.length := List.length_pos_iff.2 h0
  have h2 : (2 : F) ≠ 0 := two_ne_zero_of (F := F) (by omega)
  have hne : verify env pf ≠ none := safe_ne_none env hdig pf (Or.inr ⟨by simp [pf], Or.inr
    ⟨Nat.pow_le_pow_right (by norm_num) hk, h2, FftField.generator_ne_zero, by simp [pf, Nat.log_pow]⟩⟩)
  obtain ⟨res, hres⟩ := Option.ne_none_iff_exists'.1 hne
  obtain ⟨rs, pos, ⟨e1, e2, -⟩, hff⟩ := C117_fri env pf res hres
  have hrs : rs.length = roots.length := by rw [e1]; simp [pf]
  have hpos : ∀ x ∈ pos.zip pf.decommitmentList, x.2 = constDec env v roots.length roots.length x.1 := by
    intro x hx
    obtain ⟨j, hj⟩ := List.mem_iff_getElem?.1 hx
    obtain ⟨a1, a2⟩ := List.getElem?_zip_eq_some.1 hj
    rw [e2] at a1
    simp only [pf, List.getElem?_map, Option.map_eq_some_iff, List.getElem?_eq_some_iff, List.getElem_range] at a1 a2
    obtain ⟨_, ⟨_, rfl⟩, a1⟩ := a1
    obtain ⟨_, ⟨_, rfl⟩, a2⟩ := a2
    rw [← a1, ← a2]
  -- in every layer the first three checks hold, and the fold is `v`
  have hlay : ∀ x ∈ pos.zip pf.decommitmentList, ∀ i < layersChecked x.2 rs.length,
      ∀ ch ∈ layerChecks env pf.domainSize pf.coset pf.constVal rs x.1 x.2 i, ¬ch.1 → ch.2 = "folding wrong!" := by
    intro x hx i hi ch hch hn
    have hd := hpos x hx
    have hi' : i < roots.length := by
      have : layersChecked x.2 rs.length ≤ rs.length := by unfold layersChecked; omega
      omega
    have hr : ∃ r, rs[i]? = some r := ⟨_, List.getElem?_eq_getElem (by omega)⟩
    obtain ⟨r, hr⟩ := hr
    have hev : x.2.evaluations[i]? = some v := by rw [hd]; simp [constDec, hi']
    have hsev : x.2.symEvaluations[i]? = some v := by rw [hd]; simp [constDec, hi']
    obtain ⟨path, hpath⟩ : ∃ p, x.2.authPaths[i]? = some p := by rw [hd]; simp [constDec, hi']
    obtain ⟨sp, hsp⟩ : ∃ p, x.2.symAuthPaths[i]? = some p := by rw [hd]; simp [constDec, hi']
    obtain ⟨-, l1, l2, l3, l4, l5, l6, -⟩ := constDec_layer env v roots.length roots.length x.1 i r v v path sp hk hi'
      (by rw [← hd]; exact hev) (by rw [← hd]; exact hpath) (by rw [← hd]; exact hsev) (by rw [← hd]; exact hsp)
    simp only [layerChecks, List.mem_cons, List.not_mem_nil, or_false, hev, hsev, hpath, hsp, Option.map_some,
      Option.some.injEq] at hch
    rcases hch with rfl | rfl | rfl | rfl
    · exact absurd ⟨l1, l2⟩ hn
    · exact absurd ⟨l3, l4⟩ hn
    · exact absurd ⟨fun p hp => by rw [← hp]; exact l5, fun p hp => by rw [← hp]; exact l6⟩ hn
    · rfl
  cases res with
  | error e =>
    obtain ⟨pre, p, post, hl, -, hp⟩ := (hff.error_iff e).1 rfl
    have hmem : (p, e) ∈ proofChecks env pf rs pos := by rw [hl]; simp
    simp only [proofChecks, List.mem_flatMap, List.mem_range] at hmem
    obtain ⟨x, hx, i, hi, hch⟩ := hmem
    rw [hres, ← hlay x hx i hi _ hch hp]
  | ok u =>
    exfalso
    have hall := hff.ok_iff.1 rfl
    have hplen : 0 < (pos.zip pf.decommitmentList).length := by
      rw [e2]; simp [pf, hq]
    have hx : (pos.zip pf.decommitmentList)[0] ∈ pos.zip pf.decommitmentList := List.getElem_mem _
    generalize (pos.zip pf.decommitmentList)[0] = x at hx
    have hd := hpos x hx
    obtain ⟨k, hk1⟩ : ∃ k, roots.length = k + 1 := ⟨roots.length - 1, by omega⟩
    have hlen : k < layersChecked x.2 rs.length := by rw [hd]; simp [layersChecked, constDec, hrs, hk1]
    have hlast := hall ((∀ (r ev sev : F) (dom : Domain F), rs[k]? = some r → x.2.evaluations[k]? = some ev →
      x.2.symEvaluations[k]? = some sev → Domain.new? (pf.domainSize / 2 ^ k) = some dom →
      (x.2.evaluations[k + 1]?).getD pf.constVal =
        (ev + sev) / 2 + r * (ev - sev) / (2 * (dom.gen ^ (x.1 % (pf.domainSize / 2 ^ k)) * pf.coset ^ 2 ^ k))),
      "folding wrong!") (by
        simp only [proofChecks, List.mem_flatMap, List.mem_range]
        exact ⟨x, hx, k, hlen, by simp [layerChecks]⟩)
    dsimp only at hlast
    have hD : pf.domainSize / 2 ^ k = 2 ^ 1 := by
      simp only [pf, hk1]
      rw [Nat.pow_div (by omega) (by norm_num)]
      congr 1
      omega
    rw [hD] at hlast
    have := hlast rs[k] v v _ (List.getElem?_eq_getElem (by omega)) (by rw [hd]; simp [constDec, hk1])
      (by rw [hd]; simp [constDec, hk1]) (new?_pow 1 (by omega))
    rw [hd] at this
    simp only [constDec, hk1, List.getElem?_replicate, lt_self_iff_false, if_false, Option.getD_none, sub_self, mul_zero,
      zero_div, add_zero] at this
    apply hv
    rw [← sub_eq_zero] at this ⊢
    have h' : cv - v = 0 := by
      rw [← this]; field_simp; ring
    rw [← neg_sub, h', neg_zero]

/-- Three layers over Goldilocks, two queries: the values are all 5, the constant is claimed to be 6. -/
example (sha : List UInt8 → List UInt8) (a b c : Goldilocks) :
    verify (eightEnv sha) { domainSize := 8, coset := FftField.generator, numberOfQueries := 2, layersRoot := [a, b, c],
                            constVal := 6,
                            decommitmentList := (List.range 2).map fun j => constDec (eightEnv sha) 5 3 3
                              ((eightEnv sha).low64 (challengeAfter (eightEnv sha) (0 :: [a, b, c] ++ [6]) j) % 8) } =
      some (.error "folding wrong!") :=
  wrong_constant_error (eightEnv sha) (fun b => by simp [eightEnv, goldEnv]) [a, b, c] (by simp)
    (by change 3 ≤ 32; norm_num) 5 6 (by decide) 2 (by norm_num)

/-- A path with a wrong index is reported as such, even if the revealed value and the path are wrong as well. -/
example (sha : List UInt8 → List UInt8) (a : Goldilocks) :
    verify (eightEnv sha) { domainSize := 2, coset := FftField.generator, numberOfQueries := 1, layersRoot := [a],
                            constVal := 6,
                            decommitmentList := [⟨[1], [⟨5, 2, [], 0⟩], [3], [⟨0, 4, [], 0⟩]⟩] } =
      some (.error "wrong index!") := by
  set pf : Proof Goldilocks := { domainSize := 2, coset := FftField.generator, numberOfQueries := 1, layersRoot := [a],
                                 constVal := 6,
                                 decommitmentList := [⟨[1], [⟨5, 2, [], 0⟩], [3], [⟨0, 4, [], 0⟩]⟩] } with hpf
  have hne : verify (eightEnv sha) pf ≠ none := safe_ne_none (eightEnv sha) (fun b => by simp [eightEnv, goldEnv]) pf
    (Or.inr ⟨by simp [pf], Or.inr ⟨by change 2 ≤ 2 ^ 32; norm_num, two_ne_zero_of (F := Goldilocks)
      (by change 0 < 32; norm_num), FftField.generator_ne_zero, by simp [pf]⟩⟩)
  obtain ⟨res, hres⟩ := Option.ne_none_iff_exists'.1 hne
  obtain ⟨rs, pos, ⟨e1, e2, -⟩, hff⟩ := C117_fri _ pf res hres
  have h1 : rs.length = 1 := by rw [e1]; simp [pf]
  have h2 : ∃ p, pos = [p % 2] := by rw [e2]; exact ⟨_, rfl⟩
  obtain ⟨p, rfl⟩ := h2
  rw [hres]
  congr 1
  refine hff.unique ?_
  simp only [proofChecks, pf, List.zip_cons_cons, List.zip_nil_left, List.flatMap_cons, List.flatMap_nil, h1,
    layersChecked, List.length_singleton, min_self, List.range_one, layerChecks, List.append_nil]
  refine .fail _ _ _ ?_
  simp
  intro h
  omega

end Verif.Fri

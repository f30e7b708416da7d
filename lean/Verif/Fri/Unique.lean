import Verif.Fri.Props

/-!
# C87 (FRI): an accepted proof can be changed by anyone
-/

set_option linter.unusedSectionVars false

namespace Verif.Fri

open Verif.Ark

variable {F : Type} [FftField F] [DecidableEq F]

theorem zip_take_right {α β : Type} (v : List α) (l : List β) (q : ℕ) (h : v.length ≤ q) :
    v.zip l = v.zip (l.take q) := by
  induction v generalizing l q with
  | nil => simp
  | cons a v ih =>
    cases l with
    | nil => simp
    | cons b l =>
      cases q with
      | zero => simp at h
      | succ q =>
        simp only [List.length_cons, Nat.add_le_add_iff_right] at h
        rw [List.take_succ_cons, List.zip_cons_cons, List.zip_cons_cons, ← ih l q h]

/-- **C87** (FRI is malleable): if `verify` accepts a proof, it also accepts the proof with any other list of
decommitments whose first `number_of_queries` entries are a prefix of the original list: decommitments can be
removed from the end, all of them included, and arbitrary ones added after `number_of_queries` others. -/
theorem C87_fri_malleable (env : Env F) (pf : Proof F) (l : List (Decommitment F))
    (hl : l.take pf.numberOfQueries <+: pf.decommitmentList) (h : verify env pf = some (.ok ())) :
    verify env { pf with decommitmentList := l } = some (.ok ()) := by
  rw [verify_ok_iff] at h ⊢
  obtain ⟨rs, t, t', vs, h1, h2, h3, h4⟩ := h
  refine ⟨rs, t, t', vs, h1, h2, h3, fun x hx => h4 x ?_⟩
  have hvl := length_challengeList h2
  obtain ⟨j, hj⟩ := List.mem_iff_getElem?.1 hx
  obtain ⟨g1, g2⟩ := List.getElem?_zip_eq_some.1 hj
  have hjq : j < pf.numberOfQueries := by
    have := (List.getElem?_eq_some_iff.1 g1).1
    rw [List.length_map, hvl] at this
    exact this
  refine List.mem_of_getElem? (i := j) (List.getElem?_zip_eq_some.2 ⟨g1, ?_⟩)
  obtain ⟨tl, htl⟩ := hl
  have g3 : (l.take pf.numberOfQueries)[j]? = some x.2 := by
    rw [List.getElem?_take, if_pos hjq]; exact g2
  rw [← htl, List.getElem?_append_left (List.getElem?_eq_some_iff.1 g3).1]
  exact g3

/-- **C87** (FRI, what counts): the result of `verify`, whatever it is, depends on the list of decommitments only
through its first `number_of_queries` entries.  Missing for the full property: these entries are not required to be
present (`C87_fri_malleable`) nor to lie under the roots absorbed by the transcript (C21). -/
theorem C87_fri_depends_partial (env : Env F) (pf : Proof F) (l : List (Decommitment F))
    (hl : l.take pf.numberOfQueries = pf.decommitmentList.take pf.numberOfQueries) :
    verify env { pf with decommitmentList := l } = verify env pf := by
  unfold verify
  cases h1 : regenerate env pf.layersRoot (Transcript.new env 0) with
  | none => simp only [Option.bind_eq_bind, Option.bind_none]
  | some rt =>
    simp only [Option.bind_eq_bind, Option.bind_some]
    cases h2 : (rt.2.feed env pf.constVal).generateChallengeListUsize env pf.numberOfQueries with
    | none => simp only [Option.bind_none]
    | some cs =>
      simp only [Option.bind_some]
      have hlen := length_challengeList h2
      have e : ∀ l : List (Decommitment F), (cs.1.map fun v => v % pf.domainSize).zip l =
          (cs.1.map fun v => v % pf.domainSize).zip (l.take pf.numberOfQueries) := by
        intro l
        refine zip_take_right _ _ _ ?_
        rw [List.length_map]; omega
      rw [e l, e pf.decommitmentList, hl]

/-- **C87** (FRI): two different proofs of the same claim: the honest proof of `C18` and the same proof with its decommitments
repeated (or removed) are both accepted. -/
theorem C87_fri_not_unique (env : Env F) (poly : DP F) (b q : ℕ) (hq : q ≠ 0) {pf : Proof F}
    (hp : generateProof env poly b q = some pf) (h : verify env pf = some (.ok ())) :
    ∃ pf' : Proof F, pf' ≠ pf ∧ pf'.layersRoot = pf.layersRoot ∧ pf'.constVal = pf.constVal ∧
      pf'.domainSize = pf.domainSize ∧ pf'.coset = pf.coset ∧ pf'.numberOfQueries = pf.numberOfQueries ∧
      verify env pf' = some (.ok ()) := by
  obtain ⟨k, -, -, -, -, hnq, hlen, -⟩ := C23_shape env poly b q hp
  refine ⟨{ pf with decommitmentList := pf.decommitmentList ++ pf.decommitmentList }, ?_, rfl, rfl, rfl, rfl, rfl,
    C87_fri_malleable env pf _ ?_ h⟩
  · intro e
    have := congrArg (fun p => p.decommitmentList.length) e
    simp only [List.length_append] at this
    omega
  · rw [hnq, ← hlen, List.take_left]

/-- The hypotheses are met: `1 + X + 2 X^2` over Goldilocks, blowup 2, three queries. -/
example (sha : List UInt8 → List UInt8) :
    ∃ pf, generateProof (eightEnv sha) ([1, 1, 2] : DP Goldilocks) 2 3 = some pf ∧
      verify (eightEnv sha) pf = some (.ok ()) ∧
      verify (eightEnv sha) { pf with decommitmentList := [] } = some (.ok ()) := by
  have key : ∃ pf, generateProof (eightEnv sha) ([1, 1, 2] : DP Goldilocks) 2 3 = some pf ∧
      verify (eightEnv sha) pf = some (.ok ()) := by
    have hc : Nat.clog 2 6 = 3 := by decide
    apply C18_prover_returns
    · intro b; simp [eightEnv, goldEnv]
    · simp
    · show 2 ^ Nat.clog 2 6 ≤ 2 ^ 32
      rw [hc]; norm_num
    · rintro rs ⟨roots, hlr, -, hrs⟩
      have hl : rs.length = Nat.clog 2 6 := by rw [hrs]; simp
      have h0 : ∀ r ∈ rs, r = 0 := by
        intro r hr
        rw [hrs] at hr
        obtain ⟨i, -, rfl⟩ := List.mem_map.1 hr
        rfl
      rw [hc] at hl
      match rs, hl with
      | [a, b, c], _ =>
        rw [h0 a (by simp), h0 b (by simp), h0 c (by simp)]
        decide +kernel
  obtain ⟨pf, h1, h2⟩ := key
  exact ⟨pf, h1, h2, C87_fri_malleable _ pf [] (by simp) h2⟩

end Verif.Fri

import Verif.Fri.Props

/-!
# C112 (FRI): what a proof reveals

The decommitments of a FRI proof are values of the polynomial at known points; two per query.
-/

set_option linter.unusedSectionVars false

namespace Verif.Fri

open Verif.Ark Polynomial

variable {F : Type} [FftField F] [DecidableEq F]

/-- What anyone reads off the first layer of one decommitment: two points of the coset (given by the indices of the two
paths) with the values there. -/
def openedBy (coset w : F) (d : Decommitment F) : List (F × F) :=
  match d.authPaths.head?, d.symAuthPaths.head? with
  | some p, some p' => [(coset * w ^ p.index, p.leafVal), (coset * w ^ p'.index, p'.leafVal)]
  | _, _ => []

/-- What anyone reads off a proof whose domain is generated by `w`. -/
def opened (w : F) (pf : Proof F) : List (F × F) := pf.decommitmentList.flatMap (openedBy pf.coset w)

theorem openedBy_spec (env : Env F) {poly : DP F} {b q : ℕ} {pf : Proof F} (h : generateProof env poly b q = some pf)
    {dom : Domain F} (hd : Domain.new? pf.domainSize = some dom) (d : Decommitment F) (hm : d ∈ pf.decommitmentList) :
    ∃ x y y' : F, openedBy pf.coset dom.gen d = [(x, y), (-x, y')] ∧ x ≠ 0 ∧ (2 : F) ≠ 0 ∧
      Ark.eval poly x = y ∧ Ark.eval poly (-x) = y' := by
  obtain ⟨rs, t, t', vs, hlen, hpos, hta, hD, hc, hq, hroots, hreg, hconst, hvs, hdecs⟩ := generateProof_spec env h
  rw [hD, new?_pow _ hta, Option.some.injEq] at hd
  have hg : dom.gen = rootOf F rs.length := by rw [← hd]; rfl
  obtain ⟨j, hj⟩ := List.mem_iff_getElem?.1 hm
  have hjl := (List.getElem?_eq_some_iff.1 hj).1
  rw [(mapM_getElem hdecs).1] at hjl
  obtain ⟨d', hd1, hd2⟩ := (mapM_getElem hdecs).2 j _ (List.getElem?_eq_getElem hjl)
  rw [hj] at hd1
  obtain rfl := Option.some.inj hd1
  unfold queryOne at hd2
  simp only [Option.bind_eq_bind, Option.bind_eq_some_iff, pure, Option.some.injEq] at hd2
  obtain ⟨rows, hrows, rfl⟩ := hd2
  obtain ⟨hrl, hrg⟩ := mapM_getElem hrows
  obtain ⟨row, hr1, hr2⟩ := hrg 0 _ (layersOf_getElem env poly _ rs 0 hpos)
  obtain ⟨path, sp, g0, g1, g2, g3, g4, -⟩ := queryLayer_layerOf env
    ((rs.take 0).foldl foldPolynomial poly) ((FftField.generator : F) ^ 2 ^ 0) (rs.length - 0)
    (vs.map (· % 2 ^ rs.length))[j]
  rw [hr2] at g0
  obtain rfl := Option.some.inj g0
  simp only [List.take_zero, List.foldl_nil, pow_zero, pow_one, Nat.sub_zero] at g1 g2 g3 g4
  generalize (vs.map (· % 2 ^ rs.length))[j] = v at g1 g2 g3 g4
  have hgen : (FftField.generator : F) ≠ 0 := FftField.generator_ne_zero
  have hw : rootOf F rs.length ≠ 0 := rootOf_ne_zero _ hta
  have hneg : rootOf F rs.length ^ sp.index = -(rootOf F rs.length ^ path.index) := by
    obtain ⟨k', hk'⟩ : ∃ k', rs.length = k' + 1 := ⟨rs.length - 1, by omega⟩
    rw [g2, rootOf_pow_mod _ _ hta, pow_add, ← g1]
    rw [hk'] at hta ⊢
    rw [show 2 ^ (k' + 1) / 2 = 2 ^ k' by rw [pow_succ]; simp, rootOf_half _ hta]
    ring
  refine ⟨pf.coset * dom.gen ^ path.index, path.leafVal, sp.leafVal, ?_, ?_, two_ne_zero_of (F := F) (by omega), ?_, ?_⟩
  · unfold openedBy
    have e1 : (rows.map fun r => r.2.1).head? = some path := by
      rw [List.head?_eq_getElem?, List.getElem?_map, hr1]; rfl
    have e2 : (rows.map fun r => r.2.2.2).head? = some sp := by
      rw [List.head?_eq_getElem?, List.getElem?_map, hr1]; rfl
    simp only [e1, e2]
    rw [hg, hneg, mul_neg]
  · rw [hc, hg]; exact mul_ne_zero hgen (pow_ne_zero _ hw)
  · rw [g3, hc, hg, g1, mul_comm]
  · rw [g4, hc, hg, ← mul_neg, ← hneg, g2, mul_comm]

/-- **C112** (FRI, values): everything read off a returned proof is a value of the polynomial; every query yields two
values, at two different points. -/
theorem C112_fri_values (env : Env F) {poly : DP F} {b q : ℕ} {pf : Proof F} (h : generateProof env poly b q = some pf)
    {dom : Domain F} (hd : Domain.new? pf.domainSize = some dom) :
    (∀ xy ∈ opened dom.gen pf, (toPoly poly).eval xy.1 = xy.2) ∧ (opened dom.gen pf).length = 2 * q ∧
    ∀ d ∈ pf.decommitmentList, ((openedBy pf.coset dom.gen d).map Prod.fst).toFinset.card = 2 := by
  have hlen : pf.decommitmentList.length = q := by
    obtain ⟨_, -, -, -, -, -, h, -⟩ := C23_shape env poly b q h
    exact h
  refine ⟨?_, ?_, ?_⟩
  · intro xy hxy
    obtain ⟨d, hm, hd'⟩ := List.mem_flatMap.1 hxy
    obtain ⟨x, y, y', e, -, -, h1, h2⟩ := openedBy_spec env h hd d hm
    rw [e] at hd'
    simp only [List.mem_cons, List.not_mem_nil, or_false] at hd'
    rcases hd' with rfl | rfl
    · rw [← h1, eval_eq]
    · rw [← h2, eval_eq]
  · unfold opened
    rw [← hlen]
    have : ∀ l : List (Decommitment F), (∀ d ∈ l, d ∈ pf.decommitmentList) →
        (l.flatMap (openedBy pf.coset dom.gen)).length = 2 * l.length := by
      intro l
      induction l with
      | nil => intro _; rfl
      | cons d l ih =>
        intro hl
        obtain ⟨x, y, y', e, -⟩ := openedBy_spec env h hd d (hl d (List.mem_cons_self ..))
        rw [List.flatMap_cons, List.length_append, ih fun d' hd' => hl d' (List.mem_cons_of_mem _ hd'), e]
        simp only [List.length_cons, List.length_nil]
        omega
    exact this _ fun _ h => h
  · intro d hm
    obtain ⟨x, y, y', e, hx, h2, -⟩ := openedBy_spec env h hd d hm
    rw [e]
    have hne : x ≠ -x := by
      intro hxx
      have : 2 * x = 0 := by linear_combination hxx
      exact (mul_ne_zero h2 hx) this
    simp [Finset.card_pair hne]

/-- **C112** (FRI, not hiding): once the queries of a returned proof hit as many different points as the polynomial has
coefficients, the proof determines the polynomial: no other polynomial of that length has these values. -/
theorem C112_fri_reveals (env : Env F) {poly : DP F} (hcan : Canon poly) {b q : ℕ} {pf : Proof F}
    (h : generateProof env poly b q = some pf) {dom : Domain F} (hd : Domain.new? pf.domainSize = some dom)
    (hlen : poly.length ≤ ((opened dom.gen pf).map Prod.fst).toFinset.card)
    (guess : DP F) (hg : Canon guess) (hgl : guess.length ≤ ((opened dom.gen pf).map Prod.fst).toFinset.card)
    (hfit : ∀ xy ∈ opened dom.gen pf, (toPoly guess).eval xy.1 = xy.2) : guess = poly := by
  have hv := (C112_fri_values env h hd).1
  generalize opened dom.gen pf = L at *
  refine canon_ext hg hcan (sub_eq_zero.1 ?_)
  by_contra hne
  have h1 : (L.map Prod.fst).toFinset.card ≤ (toPoly guess - toPoly poly).natDegree := by
    refine (Finset.card_le_card (t := (toPoly guess - toPoly poly).roots.toFinset) fun z hz => ?_).trans
      ((Multiset.toFinset_card_le _).trans (card_roots' _))
    obtain ⟨xy, hxy, rfl⟩ := List.mem_map.1 (List.mem_toFinset.1 hz)
    rw [Multiset.mem_toFinset, mem_roots hne, IsRoot.def, eval_sub, hfit xy hxy, hv xy hxy, sub_self]
  have hpos : 0 < (toPoly guess - toPoly poly).natDegree ∨ (L.map Prod.fst).toFinset.card = 0 := by omega
  have key : ∀ p : DP F, p.length ≤ (L.map Prod.fst).toFinset.card → toPoly p = 0 ∨
      (toPoly p).natDegree < (L.map Prod.fst).toFinset.card := by
    intro p hp
    by_cases hp0 : p = []
    · left; rw [hp0]; rfl
    · right
      have : 0 < p.length := List.length_pos_iff.2 hp0
      refine lt_of_le_of_lt (b := p.length - 1) ?_ (by omega)
      rw [natDegree_le_iff_coeff_eq_zero]
      intro N hN
      rw [coeff_toPoly, List.getD_eq_getElem?_getD, List.getElem?_eq_none (by omega)]; rfl
  have h2 := natDegree_sub_le (toPoly guess) (toPoly poly)
  rcases key guess hgl with h3 | h3 <;> rcases key poly hlen with h4 | h4
  · rw [h3, h4] at hne; simp at hne
  · rw [h3] at h1; simp at h1; omega
  · rw [h4] at h1; simp at h1; omega
  · have := max_lt h3 h4
    omega

/-- Non-vacuity: a single query reveals the polynomial `1 + X` over Goldilocks. -/
example (sha : List UInt8 → List UInt8) :
    ∃ (pf : Proof Goldilocks) (dom : Domain Goldilocks), generateProof (eightEnv sha) ([1, 1] : DP Goldilocks) 2 1 = some pf ∧
      Domain.new? pf.domainSize = some dom ∧
      ∀ guess : DP Goldilocks, Canon guess → guess.length ≤ 2 →
        (∀ xy ∈ opened dom.gen pf, (toPoly guess).eval xy.1 = xy.2) → guess = [1, 1] := by
  have hc : Nat.clog 2 4 = 2 := by decide
  have hex : ∃ pf, generateProof (eightEnv sha) ([1, 1] : DP Goldilocks) 2 1 = some pf ∧
      verify (eightEnv sha) pf = some (.ok ()) := by
    apply C18_prover_returns
    · intro b; simp [eightEnv, goldEnv]
    · simp
    · show 2 ^ Nat.clog 2 4 ≤ 2 ^ 32
      rw [hc]; norm_num
    · rintro rs ⟨roots, hlr, -, hrs⟩
      have hl : rs.length = Nat.clog 2 4 := by rw [hrs]; simp
      have h0 : ∀ r ∈ rs, r = 0 := by
        intro r hr
        rw [hrs] at hr
        obtain ⟨i, -, rfl⟩ := List.mem_map.1 hr
        rfl
      rw [hc] at hl
      match rs, hl with
      | [a, b], _ =>
        rw [h0 a (by simp), h0 b (by simp)]
        decide +kernel
  obtain ⟨pf, hpf, -⟩ := hex
  obtain ⟨k, hk, -, hmin, -, -, hdl, -⟩ := C23_shape _ _ _ _ hpf
  have hk2 : k ≤ FftField.twoAdicity Goldilocks := by
    have h4 := hmin 2 (by decide)
    have : k ≤ 2 := (Nat.pow_le_pow_iff_right (by norm_num)).1 h4
    exact this.trans (by show 2 ≤ 32; norm_num)
  obtain ⟨dom, hdom⟩ : ∃ dom : Domain Goldilocks, Domain.new? pf.domainSize = some dom :=
    ⟨_, by rw [hk]; exact new?_pow (F := Goldilocks) k hk2⟩
  refine ⟨pf, dom, hpf, hdom, fun guess hg hl hfit => ?_⟩
  obtain ⟨d, hdm⟩ := List.length_eq_one_iff.1 hdl
  have hcard := (C112_fri_values _ hpf hdom).2.2 d (by rw [hdm]; simp)
  have hop : ((opened dom.gen pf).map Prod.fst).toFinset.card = 2 := by
    unfold opened
    rw [hdm, List.flatMap_cons, List.flatMap_nil, List.append_nil]
    exact hcard
  refine C112_fri_reveals _ (by unfold Canon; decide +kernel) hpf hdom (by rw [hop]; decide) guess hg (by rw [hop]; exact hl) hfit

end Verif.Fri

import Verif.Fri.FiatShamir
import Mathlib.Data.Int.CardIntervalMod
import Mathlib.Algebra.Order.Chebyshev

/-!
# C124: the positions at which FRI is queried

The positions are drawn one after the other and reduced modulo the domain size (`fri/src/prover.rs` lines 91-95,
`fri/src/verifier.rs` lines 27-32): nothing keeps them apart.
-/

set_option linter.unusedSectionVars false

namespace Verif.Fri

open Verif.Ark

variable {F : Type} [FftField F] [DecidableEq F]

/-! ## Specification -/

/-- The position a decommitment answers: the index of its first authentication path. -/
def Decommitment.position (d : Decommitment F) : Option ℕ := d.authPaths.head?.map MerkleProof.index

/-! ## Proofs -/

theorem exists_positions (env : Env F) (poly : DP F) (b q : ℕ) {pf : Proof F} (h : generateProof env poly b q = some pf) :
    ∃ (ps : List ℕ) (f : ℕ → Option (Decommitment F)), ps.length = q ∧ pf.decommitmentList.length = q ∧
      (∀ x ∈ ps, x < pf.domainSize) ∧ ∀ (j x : ℕ), ps[j]? = some x → ∃ d, pf.decommitmentList[j]? = some d ∧ f x = some d ∧
        d.position = some x := by
  obtain ⟨rs, t, t', vs, hlen, hpos, hta, hD, hc, hq, hroots, hreg, hconst, hvs, hdecs⟩ := generateProof_spec env h
  obtain ⟨m1, m2⟩ := mapM_getElem hdecs
  have hl : (vs.map (· % 2 ^ rs.length)).length = q := by rw [List.length_map, length_challengeList hvs]
  refine ⟨vs.map (· % 2 ^ rs.length), queryOne (layersOf env poly FftField.generator rs), hl, m1.trans hl, ?_, ?_⟩
  · intro x hx
    obtain ⟨v, -, rfl⟩ := List.mem_map.1 hx
    rw [hD]
    exact Nat.mod_lt _ (by positivity)
  · intro j x hj
    obtain ⟨d, hd1, hd2⟩ := m2 j x hj
    refine ⟨d, hd1, hd2, ?_⟩
    have hx : x < 2 ^ rs.length := by
      obtain ⟨v, -, rfl⟩ := List.mem_map.1 (List.mem_of_getElem? hj)
      exact Nat.mod_lt _ (by positivity)
    unfold queryOne at hd2
    simp only [Option.bind_eq_bind, Option.bind_eq_some_iff, pure, Option.some.injEq] at hd2
    obtain ⟨rows, hrows, rfl⟩ := hd2
    obtain ⟨row, hr1, hr2⟩ := (mapM_getElem hrows).2 0 _ (layersOf_getElem env poly _ rs 0 hpos)
    obtain ⟨path, sp, g0, g1, -⟩ := queryLayer_layerOf env ((rs.take 0).foldl foldPolynomial poly)
      ((FftField.generator : F) ^ 2 ^ 0) (rs.length - 0) x
    rw [hr2] at g0
    obtain rfl := Option.some.inj g0
    unfold Decommitment.position
    rw [List.head?_map, List.head?_eq_getElem?, hr1]
    simp only [Option.map_some, Option.some.injEq]
    rw [g1, Nat.sub_zero, Nat.mod_eq_of_lt hx]

/-- **C124**, the part that holds: a decommitment answers a position below the domain size, and of two decommitments of one
proof those that answer the same position are equal.  (Missing, and false: that the positions are different.) -/
theorem C124_positions_partial (env : Env F) (poly : DP F) (b q : ℕ) {pf : Proof F}
    (h : generateProof env poly b q = some pf) :
    pf.decommitmentList.length = q ∧
      (∀ d ∈ pf.decommitmentList, ∃ x < pf.domainSize, d.position = some x) ∧
      ∀ d ∈ pf.decommitmentList, ∀ d' ∈ pf.decommitmentList, d = d' ↔ d.position = d'.position := by
  obtain ⟨ps, f, h1, h2, h3, h4⟩ := exists_positions env poly b q h
  have key : ∀ d ∈ pf.decommitmentList, ∃ x < pf.domainSize, d.position = some x ∧ f x = some d := by
    intro d hd
    obtain ⟨j, hj⟩ := List.mem_iff_getElem?.1 hd
    have hjl := (List.getElem?_eq_some_iff.1 hj).1
    have hp : ps[j]? = some (ps[j]'(by omega)) := List.getElem?_eq_getElem (by omega)
    obtain ⟨d', e1, e2, e3⟩ := h4 j _ hp
    rw [hj] at e1
    obtain rfl := Option.some.inj e1
    exact ⟨_, h3 _ (List.mem_of_getElem? hp), e3, e2⟩
  refine ⟨h2, fun d hd => ?_, fun d hd d' hd' => ⟨fun e => by rw [e], fun e => ?_⟩⟩
  · obtain ⟨x, hx, hp, -⟩ := key d hd
    exact ⟨x, hx, hp⟩
  · obtain ⟨x, -, hp, hf⟩ := key d hd
    obtain ⟨x', -, hp', hf'⟩ := key d' hd'
    rw [hp, hp'] at e
    obtain rfl := Option.some.inj e
    rw [hf] at hf'
    exact Option.some.inj hf'

/-- **C124** is false of the code: if more queries are asked for than the domain has points, every proof contains the same
decommitment twice. -/
theorem C124_more_queries_than_points (env : Env F) (poly : DP F) (b q : ℕ) {pf : Proof F}
    (h : generateProof env poly b q = some pf) (hq : pf.domainSize < q) :
    ∃ (i j : ℕ) (d : Decommitment F), i < j ∧ pf.decommitmentList[i]? = some d ∧ pf.decommitmentList[j]? = some d := by
  obtain ⟨ps, f, h1, h2, h3, h4⟩ := exists_positions env poly b q h
  obtain ⟨i, j, hne, he⟩ := Fintype.exists_ne_map_eq_of_card_lt
    (fun i : Fin q => (⟨ps[i.val]'(by omega), h3 _ (List.getElem_mem _)⟩ : Fin pf.domainSize)) (by simpa using hq)
  have hv : ps[i.val]'(by omega) = ps[j.val]'(by omega) := by simpa using he
  have hn : i.val ≠ j.val := fun e => hne (Fin.ext e)
  obtain ⟨d, e1, e2, -⟩ := h4 i.val _ (List.getElem?_eq_getElem (by omega))
  obtain ⟨d', e1', e2', -⟩ := h4 j.val _ (List.getElem?_eq_getElem (by omega))
  rw [hv, e2'] at e2
  obtain rfl := Option.some.inj e2
  rcases Nat.lt_or_ge i.val j.val with hlt | hge
  · exact ⟨i, j, _, hlt, e1, e1'⟩
  · exact ⟨j, i, _, by omega, e1', e1⟩

/-- **C124** is false of the code: two queries over a domain of `D` points are at the same position for at least a share `1/D`
of the pairs of field elements they are made from, whatever `low64` is. -/
theorem C124_two_queries_repeat [Fintype F] (low64 : F → ℕ) (D : ℕ) (hD : 0 < D) :
    Fintype.card F ^ 2 ≤ D * (Finset.univ.filter fun q : F × F => low64 q.1 % D = low64 q.2 % D).card := by
  classical
  let n : ℕ → ℕ := fun pos => (Finset.univ.filter fun x : F => low64 x % D = pos).card
  have e1 : Fintype.card F = ∑ pos ∈ Finset.range D, n pos := by
    rw [← Finset.card_univ]
    exact Finset.card_eq_sum_card_fiberwise fun x _ => Finset.mem_coe.2 (Finset.mem_range.2 (Nat.mod_lt _ hD))
  have e2 : (Finset.univ.filter fun q : F × F => low64 q.1 % D = low64 q.2 % D).card = ∑ pos ∈ Finset.range D, n pos ^ 2 := by
    rw [Finset.card_eq_sum_card_fiberwise (f := fun q : F × F => low64 q.1 % D) (t := Finset.range D)
      fun x _ => Finset.mem_coe.2 (Finset.mem_range.2 (Nat.mod_lt _ hD))]
    refine Finset.sum_congr rfl fun pos _ => ?_
    rw [sq, ← Finset.card_product]
    congr 1
    ext ⟨x, y⟩
    simp only [Finset.mem_filter, Finset.mem_univ, true_and, Finset.mem_product]
    constructor
    · rintro ⟨h1, h2⟩; exact ⟨h2, h1 ▸ h2⟩
    · rintro ⟨h1, h2⟩; exact ⟨h1.trans h2.symm, h1⟩
  rw [e2, e1]
  have := sq_sum_le_card_mul_sum_sq (s := Finset.range D) (f := n)
  rwa [Finset.card_range] at this

/-- **C124**, over the field of the repository: a position below `2^k` is drawn for `(p-1)/2^k` field elements, position 0 for one
more; so the positions are as close to uniform as they can be. -/
theorem C124_uniform_partial (k : ℕ) (hk : k ≤ 32) (pos : ℕ) (hpos : pos < 2 ^ k) :
    (Finset.univ.filter fun x : Goldilocks => x.val % 2 ^ k = pos).card = (goldP - 1) / 2 ^ k + if pos = 0 then 1 else 0 := by
  have h1 : (Finset.univ.filter fun x : Goldilocks => x.val % 2 ^ k = pos).card = goldP.count (· ≡ pos [MOD 2 ^ k]) := by
    rw [Nat.count_eq_card_filter_range]
    refine Finset.card_bij (fun x _ => x.val) ?_ ?_ ?_
    · intro x hx
      rw [Finset.mem_filter] at hx ⊢
      refine ⟨Finset.mem_range.2 (ZMod.val_lt x), ?_⟩
      unfold Nat.ModEq
      rw [hx.2, Nat.mod_eq_of_lt hpos]
    · intro x _ y _ e
      exact ZMod.val_injective _ e
    · intro m hm
      rw [Finset.mem_filter, Finset.mem_range] at hm
      have hv : ((m : ℕ) : Goldilocks).val = m := ZMod.val_natCast_of_lt hm.1
      refine ⟨(m : Goldilocks), ?_, hv⟩
      rw [Finset.mem_filter, hv]
      refine ⟨Finset.mem_univ _, ?_⟩
      have := hm.2
      unfold Nat.ModEq at this
      rwa [Nat.mod_eq_of_lt hpos] at this
  rw [h1, Nat.count_modEq_card _ (Nat.two_pow_pos k), Nat.mod_eq_of_lt hpos]
  have hd : 2 ^ k ∣ goldP - 1 := (pow_dvd_pow 2 hk).trans ⟨3 * 5 * 17 * 257 * 65537, by rw [goldP_factor]; ring⟩
  obtain ⟨c, hc⟩ := hd
  have hp : goldP = 2 ^ k * c + 1 := by
    have := goldP_gt
    omega
  have hk0 : 0 < 2 ^ k := Nat.two_pow_pos k
  rw [hc, Nat.mul_div_cancel_left _ hk0, hp]
  rcases Nat.eq_zero_or_pos k with rfl | hkp
  · have : pos = 0 := by simpa using hpos
    subst this
    simp [Nat.mod_one]
  · have h2 : 1 < 2 ^ k := Nat.one_lt_two_pow (by omega)
    rw [Nat.mul_add_mod, Nat.mod_eq_of_lt h2, Nat.mul_add_div hk0, Nat.div_eq_of_lt h2, Nat.add_zero]
    have e : (if pos < 1 then 1 else 0) = if pos = 0 then 1 else 0 := by simp only [Nat.lt_one_iff]
    rw [e]

/-! ## The hypotheses can be met -/

/-- Five queries of `1 + X^2` over a domain of four points: the proof is returned, accepted, and repeats a decommitment. -/
example (sha : List UInt8 → List UInt8) : ∃ pf, generateProof (eightEnv sha) ([1, 0, 1] : DP Goldilocks) 1 5 = some pf ∧
    verify (eightEnv sha) pf = some (.ok ()) ∧ pf.domainSize < 5 ∧
    ∃ (i j : ℕ) (d : Decommitment Goldilocks), i < j ∧ pf.decommitmentList[i]? = some d ∧ pf.decommitmentList[j]? = some d := by
  have hc : Nat.clog 2 3 = 2 := by decide
  obtain ⟨pf, h, hv⟩ := C18_prover_returns (eightEnv sha) (fun b => by simp [eightEnv, goldEnv])
    ([1, 0, 1] : DP Goldilocks) 1 5 (by simp) (by
      show 2 ^ Nat.clog 2 3 ≤ 2 ^ 32
      rw [hc]; norm_num) (by
      rintro rs ⟨roots, hlr, -, hrs⟩
      have hl : rs.length = Nat.clog 2 3 := by rw [hrs]; simp
      have h0 : ∀ r ∈ rs, r = 0 := by
        intro r hr
        rw [hrs] at hr
        obtain ⟨i, -, rfl⟩ := List.mem_map.1 hr
        rfl
      rw [hc] at hl
      match rs, hl with
      | [a, b], _ =>
        rw [h0 a (by simp), h0 b (by simp)]
        decide +kernel)
  obtain ⟨rs, t, t', vs, hl, hpos, hta, hD, -⟩ := generateProof_spec _ h
  have hD' : pf.domainSize < 5 := by
    have e : pf.domainSize = 2 ^ Nat.clog 2 3 := by rw [hD, hl]; rfl
    rw [e, hc]
    norm_num
  exact ⟨pf, h, hv, hD', C124_more_queries_than_points _ _ _ _ h hD'⟩

/-- Over 1024 points position 0 is drawn for one element more than position 1. -/
example : (Finset.univ.filter fun x : Goldilocks => x.val % 2 ^ 10 = 0).card =
    (Finset.univ.filter fun x : Goldilocks => x.val % 2 ^ 10 = 1).card + 1 := by
  rw [C124_uniform_partial 10 (by norm_num) 0 (by norm_num), C124_uniform_partial 10 (by norm_num) 1 (by norm_num)]
  simp

end Verif.Fri

import Verif.Fri.OracleSoundness

/-!
# FRI: honest proving fails only for few challenges (C84)

C19 says that `generate_proof` panics on a polynomial of admissible size exactly when the polynomial folded with
all the challenges has no coefficient left.  Here: whatever the polynomial, in every round at most one
challenge can lead to that.
-/

set_option linter.unusedSectionVars false

namespace Verif.Fri

open Verif.Ark

variable {F : Type} [FftField F] [DecidableEq F]

/-! ## Specification -/

/-- `k` challenges are drawn one after the other; with at most one exceptional value in every round, which may
depend on the challenges before it, the list of challenges satisfies `P`. -/
def ForMostChallenges {F : Type} : ℕ → (List F → Prop) → Prop
  | 0, P => P []
  | k + 1, P => AllBut 1 fun r : F => ForMostChallenges k fun rs => P (r :: rs)

/-! ## Proof -/

theorem forMost_mono {F : Type} {k : ℕ} {P Q : List F → Prop} (h : ∀ rs, P rs → Q rs)
    (hP : ForMostChallenges k P) : ForMostChallenges k Q := by
  induction k generalizing P Q with
  | zero => exact h [] hP
  | succ k ih =>
    obtain ⟨B, hB, hr⟩ := hP
    exact ⟨B, hB, fun r hrB => ih (fun rs => h (r :: rs)) (hr r hrB)⟩

/-- `k` rounds over a field of `q` elements: at most `k q^(k-1)` of the `q^k` lists are exceptional. -/
theorem forMost_card {F : Type} [Fintype F] [DecidableEq F] {k : ℕ} {P : List F → Prop}
    (hP : ForMostChallenges k P) :
    ∃ Bad : Finset (List F), Bad.card ≤ k * Fintype.card F ^ (k - 1) ∧
      ∀ rs : List F, rs.length = k → rs ∉ Bad → P rs := by
  induction k generalizing P with
  | zero => exact ⟨∅, by simp, fun rs h _ => by rw [List.length_eq_zero_iff.1 h]; exact hP⟩
  | succ k ih =>
    obtain ⟨B, hB, hr⟩ := hP
    have h : ∀ r : F, ∃ Bad : Finset (List F), Bad.card ≤ k * Fintype.card F ^ (k - 1) ∧
        (r ∉ B → ∀ rs : List F, rs.length = k → rs ∉ Bad → P (r :: rs)) := by
      intro r
      by_cases hrB : r ∈ B
      · exact ⟨∅, by simp, fun h => absurd hrB h⟩
      · obtain ⟨Bad, h1, h2⟩ := ih (hr r hrB)
        exact ⟨Bad, h1, fun _ => h2⟩
    choose Bad h1 h2 using h
    have hall : (Finset.univ.image (fun v : Fin k → F => List.ofFn v)).card ≤ Fintype.card F ^ k := by
      refine Finset.card_image_le.trans ?_
      simp
    refine ⟨(Finset.univ.biUnion fun r => (Bad r).image (List.cons r)) ∪
      (B.biUnion fun r => (Finset.univ.image (fun v : Fin k → F => List.ofFn v)).image (List.cons r)), ?_, ?_⟩
    · refine (Finset.card_union_le _ _).trans ?_
      have e1 : (Finset.univ.biUnion fun r => (Bad r).image (List.cons r)).card ≤
          Fintype.card F * (k * Fintype.card F ^ (k - 1)) := by
        refine Finset.card_biUnion_le.trans ?_
        refine (Finset.sum_le_card_nsmul _ _ (k * Fintype.card F ^ (k - 1)) ?_).trans ?_
        · intro r _; exact Finset.card_image_le.trans (h1 r)
        · simp
      have e2 : (B.biUnion fun r => (Finset.univ.image (fun v : Fin k → F => List.ofFn v)).image
          (List.cons r)).card ≤ 1 * Fintype.card F ^ k := by
        refine Finset.card_biUnion_le.trans ?_
        refine (Finset.sum_le_card_nsmul _ _ (Fintype.card F ^ k) ?_).trans ?_
        · intro r _; exact Finset.card_image_le.trans hall
        · exact Nat.mul_le_mul_right _ hB
      have e3 : Fintype.card F * (k * Fintype.card F ^ (k - 1)) = k * Fintype.card F ^ k := by
        rcases k with _ | k
        · simp
        · rw [Nat.add_sub_cancel, pow_succ]; ring
      rw [Nat.add_sub_cancel]
      calc _ ≤ k * Fintype.card F ^ k + 1 * Fintype.card F ^ k := by rw [← e3]; exact Nat.add_le_add e1 e2
        _ = _ := by ring
    · intro rs hl hn
      obtain ⟨r, rs, rfl⟩ := List.exists_cons_of_length_eq_add_one hl
      simp only [List.length_cons, Nat.add_right_cancel_iff] at hl
      simp only [Finset.mem_union, Finset.mem_biUnion, Finset.mem_univ, true_and, Finset.mem_image,
        List.cons.injEq, not_or, not_exists, not_and] at hn
      refine h2 r (fun hrB => ?_) rs hl fun hrs => hn.1 r rs hrs rfl rfl
      subst hl
      exact hn.2 r hrB rs ⟨fun i => rs.get i, by simp⟩ rfl rfl

theorem fold_ne_zero (p : DP F) (h : ∃ j : ℕ, p[j]?.getD 0 ≠ 0) :
    AllBut 1 fun r : F => ∃ j : ℕ, (foldPolynomial p r)[j]?.getD 0 ≠ 0 := by
  obtain ⟨j, hj⟩ := h
  by_cases ho : p[2 * (j / 2) + 1]?.getD 0 = 0
  · refine ⟨∅, by simp, fun r _ => ⟨j / 2, ?_⟩⟩
    rw [(C16_fold_coeffs p r).1, ho, mul_zero, add_zero]
    intro he
    rcases Nat.mod_two_eq_zero_or_one j with h0 | h0
    · rw [show 2 * (j / 2) = j by omega] at he; exact hj he
    · rw [show 2 * (j / 2) + 1 = j by omega] at ho; exact hj ho
  · refine ⟨{-(p[2 * (j / 2)]?.getD 0) / p[2 * (j / 2) + 1]?.getD 0}, by simp, fun r hr => ⟨j / 2, ?_⟩⟩
    rw [(C16_fold_coeffs p r).1]
    intro he
    rw [Finset.mem_singleton] at hr
    apply hr
    rw [eq_div_iff ho]
    linear_combination he

theorem forMost_fold (k : ℕ) (p : DP F) (h : ∃ j : ℕ, p[j]?.getD 0 ≠ 0) :
    ForMostChallenges k fun rs : List F => ∃ j : ℕ, (rs.foldl foldPolynomial p)[j]?.getD 0 ≠ 0 := by
  induction k generalizing p with
  | zero => exact h
  | succ k ih =>
    obtain ⟨B, hB, hr⟩ := fold_ne_zero p h
    exact ⟨B, hB, fun r hrB => ih _ (hr r hrB)⟩

/-- The challenges of an honest run are determined by the run. -/
theorem honestChallenges_unique {env : Env F} {poly : DP F} {n : ℕ} {rs rs' : List F}
    (h : HonestChallenges env poly (Nat.clog 2 n) rs) (h' : HonestChallenges env poly (Nat.clog 2 n) rs') :
    rs = rs' := by
  obtain ⟨roots, hl, hr, hrs⟩ := h
  obtain ⟨roots', hl', hr', hrs'⟩ := h'
  have key : ∀ i ≤ Nat.clog 2 n, roots.take i = roots'.take i := by
    intro i
    induction i with
    | zero => intro _; simp
    | succ i ih =>
      intro hi
      have hih := ih (by omega)
      obtain ⟨l, rt, e1, e2, e3⟩ := hr i (by omega)
      obtain ⟨l', rt', e1', e2', e3'⟩ := hr' i (by omega)
      have htake : rs.take i = rs'.take i := by
        rw [hrs, hrs', ← List.map_take, ← List.map_take]
        apply List.map_congr_left
        intro j hj
        have hj' : j < i := by
          rw [List.take_range, List.mem_range] at hj
          omega
        unfold foldChallenge
        have : roots.take (j + 1) = roots'.take (j + 1) := by
          have := congrArg (List.take (j + 1)) hih
          rwa [List.take_take, List.take_take, min_eq_left (by omega)] at this
        rw [this]
      rw [htake] at e1
      obtain rfl := Option.some.inj (e1.symm.trans e1')
      obtain rfl := Option.some.inj (e2.symm.trans e2')
      rw [List.take_add_one, List.take_add_one, hih, e3, e3']
  have hroots : roots = roots' := by
    have := key _ le_rfl
    rwa [List.take_of_length_le hl.le, List.take_of_length_le hl'.le] at this
  rw [hrs, hrs', hroots]

/-! ## C84 -/

/-- **C84** (FRI): for a polynomial that is not zero and of a size the field supports, in every folding round at
most one challenge is exceptional: with all other challenges `generate_proof` returns a proof, for every digest
and generator that yield these challenges, every number of queries, and the proof verifies. -/
theorem C84_fri_honest_proving (poly : DP F) (b : ℕ) (hne : ∃ c ∈ poly, c ≠ 0) (h2 : 2 ≤ poly.length * b)
    (hta : nextPow2 (poly.length * b) ≤ 2 ^ FftField.twoAdicity F) :
    ForMostChallenges (Nat.clog 2 (poly.length * b)) fun rs : List F =>
      ∀ (env : Env F) (q : ℕ), (∀ b, 8 ≤ (env.digest b).length) →
        HonestChallenges env poly (Nat.clog 2 (poly.length * b)) rs →
        ∃ pf, generateProof env poly b q = some pf ∧ verify env pf = some (.ok ()) := by
  obtain ⟨c, hc, hc0⟩ := hne
  obtain ⟨j, hj⟩ := List.mem_iff_getElem?.1 hc
  refine forMost_mono ?_ (forMost_fold _ poly ⟨j, by rw [hj]; exact hc0⟩)
  rintro rs ⟨i, hi⟩ env q hdig hrs
  have hne : generateProof env poly b q ≠ none := by
    intro h
    rcases (C19_panics_iff env hdig poly b q).1 h with h | h | ⟨rs', hrs', h⟩
    · omega
    · omega
    · rw [honestChallenges_unique hrs hrs'] at hi
      rw [h] at hi
      simp at hi
  obtain ⟨pf, hpf⟩ := Option.ne_none_iff_exists'.1 hne
  exact ⟨pf, hpf, C18_completeness env poly b q hpf⟩

/-- **C84** (FRI, counted): over a field of `q` elements at most `k q^(k-1)` of the `q^k` lists of `k` folding
challenges make `generate_proof` panic, `k` being the number of rounds. -/
theorem C84_fri_count [Fintype F] (poly : DP F) (b : ℕ) (hne : ∃ c ∈ poly, c ≠ 0) (h2 : 2 ≤ poly.length * b)
    (hta : nextPow2 (poly.length * b) ≤ 2 ^ FftField.twoAdicity F) :
    ∃ Bad : Finset (List F),
      Bad.card ≤ Nat.clog 2 (poly.length * b) * Fintype.card F ^ (Nat.clog 2 (poly.length * b) - 1) ∧
      ∀ (env : Env F) (q : ℕ) (rs : List F), (∀ b, 8 ≤ (env.digest b).length) →
        HonestChallenges env poly (Nat.clog 2 (poly.length * b)) rs → rs ∉ Bad →
        ∃ pf, generateProof env poly b q = some pf ∧ verify env pf = some (.ok ()) := by
  obtain ⟨Bad, h1, h⟩ := forMost_card (C84_fri_honest_proving poly b hne h2 hta)
  refine ⟨Bad, h1, fun env q rs hdig hrs hn => h rs ?_ hn env q hdig hrs⟩
  obtain ⟨roots, -, -, hrs⟩ := hrs
  rw [hrs]; simp

/-- The hypotheses are met by the polynomial of the shipped example with blowup 2: sixteen points, four rounds,
so that at most `4 q^3` of the `q^4` lists of challenges are exceptional. -/
example : ForMostChallenges 4 fun rs : List Goldilocks =>
    ∀ (env : Env Goldilocks) (q : ℕ), (∀ b, 8 ≤ (env.digest b).length) →
      HonestChallenges env ([1, 2, 3, 4, 5, 6] : DP Goldilocks) 4 rs →
      ∃ pf, generateProof env ([1, 2, 3, 4, 5, 6] : DP Goldilocks) 2 q = some pf ∧
        verify env pf = some (.ok ()) := by
  have hc : Nat.clog 2 12 = 4 := by decide
  have h := C84_fri_honest_proving ([1, 2, 3, 4, 5, 6] : DP Goldilocks) 2 ⟨1, by simp, one_ne_zero⟩ (by simp)
    (by show 2 ^ Nat.clog 2 12 ≤ 2 ^ 32
        rw [hc]; norm_num)
  exact h

end Verif.Fri

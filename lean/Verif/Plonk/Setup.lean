import Verif.Plonk.Unique
import Verif.Kzg.Setup
import Mathlib.Tactic.Module

/-!
# C99, C100 (PLONK): proofs and setups

C99: a proof is accepted under few setups or under all of them.  C100: the secret of the setup is a trapdoor: with it,
every circuit has accepted proofs, satisfiable or not.
-/

set_option linter.unusedSectionVars false

namespace Verif.Plonk

open Verif.Ark Verif.Kzg Polynomial

variable {F : Type} [FftField F] [DecidableEq F] {G1 G2 GT : Type} [AddCommGroup G1] [Module F G1]
  [AddCommGroup G2] [Module F G2] [AddCommGroup GT] [Module F GT] [DecidableEq GT]

/-- The combination of the circuit polynomials that the verifier computes from its own commitments, evaluated at `x`. -/
def circuitPart (cc : CompiledCircuit F) (p : Proof F G1) (c : Challenges F) (x : F) : F :=
  p.barA * p.barB * Ark.eval cc.gate.qmx x + p.barA * Ark.eval cc.gate.qlx x + p.barB * Ark.eval cc.gate.qrx x +
    p.barC * Ark.eval cc.gate.qox x + Ark.eval cc.gate.qcx x -
    c.alpha * c.beta * p.barZw * (p.barA + c.beta * p.barS1 + c.gamma) * (p.barB + c.beta * p.barS2 + c.gamma) *
      Ark.eval cc.copy.s3 x +
    c.v ^ 4 * Ark.eval cc.copy.s1 x + c.v ^ 5 * Ark.eval cc.copy.s2 x

/-- The part of the equation that does not depend on the setup. -/
theorem openingEquation_split (g : G1) (n : ℕ) (w : F) (cc : CompiledCircuit F) (p : Proof F G1) (c : Challenges F) :
    ∃ R : G1, ∀ s, OpeningEquation g s n w cc p c ↔
      s • (p.wC + c.u • p.wwC) = circuitPart cc p c s • g + R := by
  let zh : F := c.ev ^ n - 1
  let l1 : F := zh / (n * (c.ev - 1))
  let r0 : F := Ark.eval cc.gate.pix c.ev - l1 * c.alpha ^ 2 -
    c.alpha * (p.barA + c.beta * p.barS1 + c.gamma) * (p.barB + c.beta * p.barS2 + c.gamma) *
      (p.barC + c.gamma) * p.barZw
  let E : G1 := (-r0 + c.v * p.barA + c.v ^ 2 * p.barB + c.v ^ 3 * p.barC + c.v ^ 4 * p.barS1 +
    c.v ^ 5 * p.barS2 + c.u * p.barZw) • g
  refine ⟨c.ev • p.wC + (c.u * c.ev * w) • p.wwC +
    (c.alpha * (p.barA + c.beta * c.ev + c.gamma) * (p.barB + c.beta * cc.copy.k1 * c.ev + c.gamma) *
      (p.barC + c.beta * cc.copy.k2 * c.ev + c.gamma) + c.alpha ^ 2 * l1 + c.u) • p.zC -
    zh • (p.tLoC + c.ev ^ (p.degree + 1) • p.tMidC + c.ev ^ (2 * (p.degree + 1)) • p.tHiC) +
    c.v • p.aC + c.v ^ 2 • p.bC + c.v ^ 3 • p.cC - E, fun s => ?_⟩
  unfold OpeningEquation circuitPart
  dsimp only
  refine Eq.congr_right ?_
  simp only [E, r0, l1, zh]
  generalize Ark.eval cc.gate.pix c.ev = pie
  generalize (c.ev ^ n - 1) / (n * (c.ev - 1)) = l1e
  module

/-- `circuitPart` is a polynomial in the secret, of degree below the circuit's size. -/
theorem circuitPart_poly (cc : CompiledCircuit F) (hwf : cc.WellFormed) (p : Proof F G1) (c : Challenges F) :
    ∃ K : F[X], K.natDegree ≤ cc.size - 1 ∧ ∀ x, circuitPart cc p c x = K.eval x := by
  have hpos : 0 < cc.size := by obtain ⟨k, hk⟩ := hwf.pow2; rw [hk]; positivity
  have hdeg : ∀ q ∈ cc.polys, (toPoly q).natDegree ≤ cc.size - 1 := fun q hq => by
    have := natDegree_lt_of_length (hwf.len q hq) hpos
    omega
  refine ⟨C (p.barA * p.barB) * toPoly cc.gate.qmx + C p.barA * toPoly cc.gate.qlx + C p.barB * toPoly cc.gate.qrx +
    C p.barC * toPoly cc.gate.qox + toPoly cc.gate.qcx -
    C (c.alpha * c.beta * p.barZw * (p.barA + c.beta * p.barS1 + c.gamma) * (p.barB + c.beta * p.barS2 + c.gamma)) *
      toPoly cc.copy.s3 + C (c.v ^ 4) * toPoly cc.copy.s1 + C (c.v ^ 5) * toPoly cc.copy.s2, ?_, fun x => ?_⟩
  · have hC : ∀ (a : F) (q : DP F), q ∈ cc.polys → (C a * toPoly q).natDegree ≤ cc.size - 1 := fun a q hq =>
      (natDegree_C_mul_le _ _).trans (hdeg q hq)
    have e := fun q (hq : q ∈ cc.polys) => hdeg q hq
    refine natDegree_add_le_of_degree_le (natDegree_add_le_of_degree_le ((natDegree_sub_le _ _).trans (max_le ?_ ?_)) ?_) ?_
    · refine natDegree_add_le_of_degree_le (natDegree_add_le_of_degree_le (natDegree_add_le_of_degree_le
        (natDegree_add_le_of_degree_le ?_ ?_) ?_) ?_) ?_
      · exact hC _ _ (by simp [CompiledCircuit.polys])
      · exact hC _ _ (by simp [CompiledCircuit.polys])
      · exact hC _ _ (by simp [CompiledCircuit.polys])
      · exact hC _ _ (by simp [CompiledCircuit.polys])
      · exact hdeg _ (by simp [CompiledCircuit.polys])
    · exact hC _ _ (by simp [CompiledCircuit.polys])
    · exact hC _ _ (by simp [CompiledCircuit.polys])
    · exact hC _ _ (by simp [CompiledCircuit.polys])
  · simp only [circuitPart, Ark.eval_eq, eval_add, eval_sub, eval_mul, eval_C]

/-- **C99** (PLONK, two setups): a proof accepted under the secret `s` is accepted under the secret `s'` exactly if
moving from one to the other changes the opening side and the circuit's own commitments by the same amount. -/
theorem C99_plonk_two_setups (env : Env F G1) (dig : List UInt8 → List UInt8)
    (hdig : ∀ b, 8 ≤ (dig b).length) (P : PairingGroups F G1 G2 GT) (s s' : F) (n n' : ℕ)
    (cc : CompiledCircuit F) (hwf : cc.WellFormed) (hn : cc.size ≤ n + 3) (hn' : cc.size ≤ n' + 3) (d : Domain F)
    (hd : Domain.new? cc.size = some d) (p : Proof F G1)
    (h : verify env dig P cc (Srs.newFromSecret P s n) p = some (.ok ())) :
    let c := p.challenges env dig P.g1
    verify env dig P cc (Srs.newFromSecret P s' n') p = some (.ok ()) ↔
      (s' - s) • (p.wC + p.u • p.wwC) = (circuitPart cc p c s' - circuitPart cc p c s) • P.g1 := by
  intro c
  obtain ⟨h1, h2, h3⟩ := (C53_verify env dig hdig P s n cc hwf hn d hd p).2.1 h
  rw [(C53_verify env dig hdig P s' n' cc hwf hn' d hd p).2]
  obtain ⟨R, hR⟩ := openingEquation_split P.g1 cc.size d.gen cc p (p.challenges env dig P.g1)
  rw [hR] at h3 ⊢
  rw [h1] at h3 ⊢
  simp only [h2, ne_eq, not_false_eq_true, true_and]
  rw [sub_smul, sub_smul, h3, sub_eq_iff_eq_add]
  constructor
  · intro e; rw [e]; simp only [c]; abel
  · intro e; rw [e]; simp only [c]; abel

/-- **C99** (PLONK, counting): a proof is accepted under every setup or under at most `size - 1` (one for circuits of
size up to two) setups. -/
theorem C99_plonk_few_setups (env : Env F G1) (dig : List UInt8 → List UInt8)
    (hdig : ∀ b, 8 ≤ (dig b).length) (P : PairingGroups F G1 G2 GT)
    (cc : CompiledCircuit F) (hwf : cc.WellFormed) (d : Domain F)
    (hd : Domain.new? cc.size = some d) (p : Proof F G1) :
    (∀ s n, cc.size ≤ n + 3 → verify env dig P cc (Srs.newFromSecret P s n) p = some (.ok ())) ∨
      FewSecrets (max 1 (cc.size - 1)) fun s : F => ∃ n, cc.size ≤ n + 3 ∧
        verify env dig P cc (Srs.newFromSecret P s n) p = some (.ok ()) := by
  classical
  obtain ⟨R, hR⟩ := openingEquation_split P.g1 cc.size d.gen cc p (p.challenges env dig P.g1)
  obtain ⟨K, hKd, hK⟩ := circuitPart_poly cc hwf p (p.challenges env dig P.g1)
  obtain ⟨ρ, hρ⟩ := P.cyclic R
  obtain ⟨w, hw⟩ := P.cyclic (p.wC + (p.challenges env dig P.g1).u • p.wwC)
  have key : ∀ s n, cc.size ≤ n + 3 → (verify env dig P cc (Srs.newFromSecret P s n) p = some (.ok ()) ↔
      (p.challenges env dig P.g1).u = p.u ∧ (p.challenges env dig P.g1).ev ≠ 1 ∧
        (K + C ρ - C w * X).eval s = 0) := by
    intro s n hn
    rw [(C53_verify env dig hdig P s n cc hwf hn d hd p).2, hR, hw, hρ, hK]
    refine and_congr_right fun _ => and_congr_right fun _ => ?_
    rw [smul_smul, ← add_smul]
    simp only [eval_add, eval_sub, eval_mul, eval_C, eval_X]
    constructor
    · intro h; rw [← P.smul_g1_inj h]; ring
    · intro h; rw [sub_eq_zero.1 h]; congr 1; ring
  by_cases hc : (p.challenges env dig P.g1).u = p.u ∧ (p.challenges env dig P.g1).ev ≠ 1
  swap
  · right
    refine ⟨∅, by simp, ?_⟩
    rintro s ⟨n, hn, h⟩
    obtain ⟨h1, h2, -⟩ := (key s n hn).1 h
    exact absurd ⟨h1, h2⟩ hc
  by_cases h0 : K + C ρ - C w * X = 0
  · left
    intro s n hn
    rw [key s n hn, h0]
    exact ⟨hc.1, hc.2, eval_zero⟩
  · right
    refine ⟨(K + C ρ - C w * X).roots.toFinset, ?_, ?_⟩
    · refine (Multiset.toFinset_card_le _).trans ((card_roots' _).trans ?_)
      refine (natDegree_sub_le _ _).trans (max_le ?_ ?_)
      · rw [natDegree_add_C]; exact hKd.trans (le_max_right _ _)
      · exact (natDegree_C_mul_le _ _).trans (natDegree_X_le.trans (le_max_left _ _))
    · rintro s ⟨n, hn, h⟩
      rw [Multiset.mem_toFinset, mem_roots h0]
      exact ((key s n hn).1 h).2.2

/-! ## C100 -/

/-- What the holder of the secret does: take any proof object `p` for a circuit of size `n` with domain generator `w`,
keep its commitments and evaluations, compute the challenges, solve the two opening equations with the secret, and fill
in the last challenge. -/
def trapdoorProof (env : Env F G1) (dig : List UInt8 → List UInt8) (g : G1) (s : F) (w : F) (cc : CompiledCircuit F)
    (p : Proof F G1) : Proof F G1 :=
  let c := p.challenges env dig g
  let zh : F := c.ev ^ cc.size - 1
  let l1 : F := zh / (cc.size * (c.ev - 1))
  let r0 : F := Ark.eval cc.gate.pix c.ev - l1 * c.alpha ^ 2 -
    c.alpha * (p.barA + c.beta * p.barS1 + c.gamma) * (p.barB + c.beta * p.barS2 + c.gamma) *
      (p.barC + c.gamma) * p.barZw
  let claim : G1 := circuitPart cc p c s • g +
    (c.alpha * (p.barA + c.beta * c.ev + c.gamma) * (p.barB + c.beta * cc.copy.k1 * c.ev + c.gamma) *
      (p.barC + c.beta * cc.copy.k2 * c.ev + c.gamma) + c.alpha ^ 2 * l1) • p.zC -
    zh • (p.tLoC + c.ev ^ (p.degree + 1) • p.tMidC + c.ev ^ (2 * (p.degree + 1)) • p.tHiC) +
    c.v • p.aC + c.v ^ 2 • p.bC + c.v ^ 3 • p.cC -
    (-r0 + c.v * p.barA + c.v ^ 2 * p.barB + c.v ^ 3 * p.barC + c.v ^ 4 * p.barS1 + c.v ^ 5 * p.barS2) • g
  let q := { p with
    wC := (s - c.ev)⁻¹ • claim
    wwC := (s - c.ev * w)⁻¹ • (p.zC - p.barZw • g) }
  { q with u := (q.challenges env dig g).u }

/-- **C100** (PLONK): whoever knows the secret turns any proof object, for any compiled circuit, into an accepted proof
with the same wire, accumulator and quotient commitments and the same evaluations, unless the evaluation challenge (or
its shift) happens to be the secret or `1`.  No witness is needed and the circuit need not be satisfiable. -/
theorem C100_plonk (env : Env F G1) (dig : List UInt8 → List UInt8)
    (hdig : ∀ b, 8 ≤ (dig b).length) (P : PairingGroups F G1 G2 GT) (s : F) (n : ℕ)
    (cc : CompiledCircuit F) (hwf : cc.WellFormed) (hn : cc.size ≤ n + 3) (d : Domain F)
    (hd : Domain.new? cc.size = some d) (p : Proof F G1)
    (h1 : (p.challenges env dig P.g1).ev ≠ 1) (hs : (p.challenges env dig P.g1).ev ≠ s)
    (hsw : (p.challenges env dig P.g1).ev * d.gen ≠ s) :
    verify env dig P cc (Srs.newFromSecret P s n) (trapdoorProof env dig P.g1 s d.gen cc p) = some (.ok ()) := by
  rw [(C53_verify env dig hdig P s n cc hwf hn d hd _).2]
  have e1 : s - (p.challenges env dig P.g1).ev ≠ 0 := sub_ne_zero.2 (Ne.symm hs)
  have e2 : s - (p.challenges env dig P.g1).ev * d.gen ≠ 0 := sub_ne_zero.2 (Ne.symm hsw)
  refine ⟨rfl, h1, ?_⟩
  unfold OpeningEquation
  have hW : ∀ x : G1, (s - (p.challenges env dig P.g1).ev) • (s - (p.challenges env dig P.g1).ev)⁻¹ • x = x := fun x => by
    rw [smul_smul, mul_inv_cancel₀ e1, one_smul]
  have hW' : ∀ x : G1, (s - (p.challenges env dig P.g1).ev * d.gen) •
      (s - (p.challenges env dig P.g1).ev * d.gen)⁻¹ • x = x := fun x => by
    rw [smul_smul, mul_inv_cancel₀ e2, one_smul]
  -- the two openings
  set q := trapdoorProof env dig P.g1 s d.gen cc p with hq
  have a1 := hW _ |>.symm.trans (by rfl : _ = (s - (p.challenges env dig P.g1).ev) • q.wC)
  have a2 := hW' _ |>.symm.trans (by rfl : _ = (s - (p.challenges env dig P.g1).ev * d.gen) • q.wwC)
  have f1 : (q.challenges env dig P.g1).ev = (p.challenges env dig P.g1).ev := rfl
  have f2 : (q.challenges env dig P.g1).alpha = (p.challenges env dig P.g1).alpha := rfl
  have f3 : (q.challenges env dig P.g1).beta = (p.challenges env dig P.g1).beta := rfl
  have f4 : (q.challenges env dig P.g1).gamma = (p.challenges env dig P.g1).gamma := rfl
  have f5 : (q.challenges env dig P.g1).v = (p.challenges env dig P.g1).v := rfl
  have b1 : q.barA = p.barA := rfl
  have b2 : q.barB = p.barB := rfl
  have b3 : q.barC = p.barC := rfl
  have b4 : q.barS1 = p.barS1 := rfl
  have b5 : q.barS2 = p.barS2 := rfl
  have b6 : q.barZw = p.barZw := rfl
  have b7 : q.zC = p.zC := rfl
  have b8 : q.aC = p.aC := rfl
  have b9 : q.bC = p.bC := rfl
  have b10 : q.cC = p.cC := rfl
  have b11 : q.tLoC = p.tLoC := rfl
  have b12 : q.tMidC = p.tMidC := rfl
  have b13 : q.tHiC = p.tHiC := rfl
  have b14 : q.degree = p.degree := rfl
  dsimp only
  simp only [f1, f2, f3, f4, f5, b1, b2, b3, b4, b5, b6, b7, b8, b9, b10, b11, b12, b13, b14]
  generalize (q.challenges env dig P.g1).u = u at *
  generalize q.wC = W at *
  generalize q.wwC = W' at *
  generalize p.challenges env dig P.g1 = c at *
  have goal : s • (W + u • W') = c.ev • W + (u * c.ev * d.gen) • W' +
      ((s - c.ev) • W + u • ((s - c.ev * d.gen) • W')) := by module
  rw [goal, ← a1, ← a2, circuitPart]
  generalize Ark.eval cc.gate.pix c.ev = pie
  generalize (c.ev ^ cc.size - 1) / ((cc.size : F) * (c.ev - 1)) = l1e
  module

/-- A proof object consisting of zeros. -/
def zeroProof : Proof BlsFr BlsFr := ⟨0, 0, 0, 0, 0, 0, 0, 0, 0, 0, 0, 0, 0, 0, 0, 0, 0⟩

/-- **C100** (PLONK, concretely): a circuit that no wires satisfy (two connected wires must be 3 and 5), and an accepted proof computed from the secret 11 and
the circuit alone. -/
theorem C100_plonk_contradiction : ¬ Satisfiable 2 unsatCalls ∧
    ∃ cc, (build unsatCalls).compile = some cc ∧
      verify exEnv exEnv.sha256 (trivialGroups BlsFr) cc (Srs.newFromSecret (trivialGroups BlsFr) 11 2)
        (trapdoorProof exEnv exEnv.sha256 1 11 exD.gen cc zeroProof) = some (.ok ()) := by
  constructor
  · rintro ⟨val, hrel, hcopy⟩
    have h0 := hrel 0 _ rfl
    have h1 := hrel 1 _ rfl
    have h2 := hcopy 0 (by omega) 0 (by omega)
    simp only [target, unsatCalls, List.getElem?_cons_zero, GateCall.Relation] at h0 h1 h2
    have h1' : val 0 1 - 5 = 0 := h1
    have : (3 : BlsFr) = 5 := by linear_combination h1' - h0 + h2
    revert this
    decide +kernel
  · obtain ⟨cc, hcc, hsz⟩ := two_calls_compile unsatCalls rfl (by
      intro call hc
      simp only [unsatCalls, List.mem_cons, List.not_mem_nil, or_false] at hc
      rcases hc with rfl | rfl <;> simp [ValidPos])
    refine ⟨cc, hcc, ?_⟩
    exact C100_plonk exEnv exEnv.sha256 exEnv_len (trivialGroups BlsFr) 11 2 cc (compile_wellFormed _ _ hcc)
      (by rw [hsz]; norm_num) exD (by rw [hsz]; exact exD_eq) zeroProof (by decide +kernel) (by decide +kernel)
      (by decide +kernel)

/-- **C99** on an honest proof: the proof of the example circuit made under the secret 11 is accepted there and, the
circuit having size two, under no other secret. -/
theorem C99_plonk_example : ∃ p, generateProof exEnv exEnv.sha256 exCC (Srs.newFromSecret (trivialGroups BlsFr) 11 2) exBl = some p ∧
    ∀ s n, 2 ≤ n + 3 →
      (verify exEnv exEnv.sha256 (trivialGroups BlsFr) exCC (Srs.newFromSecret (trivialGroups BlsFr) s n) p =
        some (.ok ()) ↔ s = 11) := by
  obtain ⟨p, hp⟩ := Option.isSome_iff_exists.1 exRun_isSome
  have hwf := compile_wellFormed _ _ exCC_compiled
  have hv : verify exEnv exEnv.sha256 (trivialGroups BlsFr) exCC (Srs.newFromSecret (trivialGroups BlsFr) 11 2) p =
      some (.ok ()) := by
    refine C49_compiled exEnv exEnv.sha256 exEnv_len (trivialGroups BlsFr) 11 2 exampleCalls exCC exCC_compiled
      (by decide) exBl p (by rw [exRun_eq, hp]) ?_
    have := exRun_ev
    rw [hp, Option.map_some, Option.some.injEq, decide_eq_false_iff_not] at this
    exact this
  have hne : (exRun.map fun p => decide (((12 : BlsFr) - 11) • (p.wC + p.u • p.wwC) =
      (circuitPart exCC p (p.challenges exEnv exEnv.sha256 1) 12 -
        circuitPart exCC p (p.challenges exEnv exEnv.sha256 1) 11) • (1 : BlsFr))) = some false := by decide +kernel
  rw [hp, Option.map_some, Option.some.injEq, decide_eq_false_iff_not] at hne
  refine ⟨p, by rw [exRun_eq, hp], fun s n hn => ⟨fun h => ?_, ?_⟩⟩
  · rcases C99_plonk_few_setups exEnv exEnv.sha256 exEnv_len (trivialGroups BlsFr) exCC hwf exD exD_eq p with hall | hfew
    · exact absurd ((C99_plonk_two_setups exEnv exEnv.sha256 exEnv_len (trivialGroups BlsFr) 11 12 2 2 exCC hwf (by decide)
        (by decide) exD exD_eq p hv).1 (hall 12 2 (by decide))) hne
    · obtain ⟨S, hS, hmem⟩ := hfew
      have c1 := hmem 11 ⟨2, by decide, hv⟩
      have c2 := hmem s ⟨n, hn, h⟩
      exact Finset.card_le_one.1 hS s c2 11 c1
  · rintro rfl
    exact (C99_plonk_two_setups exEnv exEnv.sha256 exEnv_len (trivialGroups BlsFr) 11 11 2 n exCC hwf (by decide)
        hn exD exD_eq p hv).2 (by rw [sub_self, sub_self, zero_smul, zero_smul])

end Verif.Plonk

import Verif.Plonk.AlgSoundness
import Verif.Plonk.EndToEnd
import Verif.Kzg.AlgSoundness

/-!
# C97: a proof is tied to the circuit

The general form of the repository's test `parser_constant_test` (`plonk/src/parser.rs` lines 446-469): when can one and the
same proof be accepted for two circuits?
-/

set_option linter.unusedSectionVars false
set_option linter.unusedVariables false

namespace Verif.Plonk

open Verif.Ark Verif.Kzg Polynomial

/-! ## Specification -/

/-- Two lists of gate calls of the same shape: the same functions called with the same positions, possibly
with other values and public inputs. -/
def SameShape {F : Type} (calls calls' : List (GateCall F)) : Prop :=
  calls.length = calls'.length ∧ ∀ (i : ℕ) (g g' : GateCall F), calls[i]? = some g → calls'[i]? = some g' →
    g.ty = g'.ty ∧ (g.a.1, g.a.2.1) = (g'.a.1, g'.a.2.1) ∧ (g.b.1, g.b.2.1) = (g'.b.1, g'.b.2.1) ∧
    (g.c.1, g.c.2.1) = (g'.c.1, g'.c.2.1)

section defs
variable {F : Type} [Field F]

/-- The difference of the two circuits as the verifier sees it: the selectors and permutation polynomials at `x`, the
public inputs at the evaluation challenge, weighted with the evaluations and challenges of the proof. -/
def mismatch (cc cc' : CompiledCircuit F) (bar : Bars F) (c : Challenges F) (x : F) : F :=
  bar.a * bar.b * (Ark.eval cc'.gate.qmx x - Ark.eval cc.gate.qmx x) +
  bar.a * (Ark.eval cc'.gate.qlx x - Ark.eval cc.gate.qlx x) +
  bar.b * (Ark.eval cc'.gate.qrx x - Ark.eval cc.gate.qrx x) +
  bar.c * (Ark.eval cc'.gate.qox x - Ark.eval cc.gate.qox x) +
  (Ark.eval cc'.gate.qcx x - Ark.eval cc.gate.qcx x) +
  (Ark.eval cc'.gate.pix c.ev - Ark.eval cc.gate.pix c.ev) -
  c.alpha * c.beta * bar.zw * (bar.a + c.beta * bar.s1 + c.gamma) * (bar.b + c.beta * bar.s2 + c.gamma) *
    (Ark.eval cc'.copy.s3 x - Ark.eval cc.copy.s3 x) +
  c.v ^ 4 * (Ark.eval cc'.copy.s1 x - Ark.eval cc.copy.s1 x) +
  c.v ^ 5 * (Ark.eval cc'.copy.s2 x - Ark.eval cc.copy.s2 x)

end defs

section main
variable {F : Type} [FftField F] [DecidableEq F] {G1 G2 GT : Type} [AddCommGroup G1] [Module F G1]
  [AddCommGroup G2] [Module F G2] [AddCommGroup GT] [Module F GT] [DecidableEq GT]

/-- **C97** (exactly when): let two well-formed compiled circuits have the same size and coset constants.  A proof
accepted for the first is accepted for the second exactly if the mismatch of the two circuits, for the evaluations and
challenges of the proof, vanishes at the secret. -/
theorem C97_two_circuits_iff (env : Env F G1) (dig : List UInt8 → List UInt8)
    (hdig : ∀ b, 8 ≤ (dig b).length) (P : PairingGroups F G1 G2 GT) (s : F) (n : ℕ)
    (cc cc' : CompiledCircuit F) (hwf : cc.WellFormed) (hwf' : cc'.WellFormed) (hsize : cc'.size = cc.size)
    (hk1 : cc'.copy.k1 = cc.copy.k1) (hk2 : cc'.copy.k2 = cc.copy.k2) (hn : cc.size ≤ n + 3)
    (p : Proof F G1) (h : verify env dig P cc (Srs.newFromSecret P s n) p = some (.ok ())) :
    verify env dig P cc' (Srs.newFromSecret P s n) p = some (.ok ()) ↔
      mismatch cc cc' p.bars (p.challenges env dig P.g1) s = 0 := by
  have hdom : ∃ d, Domain.new? (F := F) cc.size = some d := by
    unfold verify at h
    simp only [getCircuitCommitment_eq P s n hwf hn, verifyChallenges_eq env dig hdig P s n, Option.bind_eq_bind,
      Option.bind_some] at h
    split at h
    · cases h
    · simp only [Option.bind_eq_some_iff] at h
      obtain ⟨d, hd, -⟩ := h
      exact ⟨d, hd⟩
  obtain ⟨d, hd⟩ := hdom
  obtain ⟨hu, hev, hop⟩ := (C53_verify env dig hdig P s n cc hwf hn d hd p).2.1 h
  rw [(C53_verify env dig hdig P s n cc' hwf' (hsize ▸ hn) d (hsize ▸ hd) p).2]
  simp only [hu, hev, ne_eq, not_false_eq_true, true_and]
  unfold OpeningEquation at hop ⊢
  rw [hk1, hk2, hsize]
  dsimp only at hop ⊢
  rw [hop]
  constructor
  · intro e
    apply P.smul_g1_inj
    rw [zero_smul, ← sub_eq_zero.2 e.symm]
    unfold mismatch Proof.bars
    dsimp only
    module
  · intro e
    rw [← sub_eq_zero]
    have e0 : (0 : G1) = (-(mismatch cc cc' p.bars (p.challenges env dig P.g1) s)) • P.g1 := by
      rw [e, neg_zero, zero_smul]
    rw [e0]
    unfold mismatch Proof.bars
    dsimp only
    module

end main

section compiled
variable {F : Type} [FftField F] [DecidableEq F]

/-- `verify` accepts one proof for both circuits. -/
def BothAccept {G1 G2 GT : Type} [AddCommGroup G1] [Module F G1] [AddCommGroup G2] [Module F G2] [AddCommGroup GT]
    [Module F GT] [DecidableEq GT] (env : Env F G1) (dig : List UInt8 → List UInt8) (P : PairingGroups F G1 G2 GT)
    (cc cc' : CompiledCircuit F) (srs : Srs G1 G2) (p : Proof F G1) : Prop :=
  verify env dig P cc srs p = some (.ok ()) ∧ verify env dig P cc' srs p = some (.ok ())

theorem map_eq_of_shape {α : Type} {calls calls' : List (GateCall F)} (f : GateCall F → α)
    (hlen : calls.length = calls'.length)
    (h : ∀ (i : ℕ) (g g' : GateCall F), calls[i]? = some g → calls'[i]? = some g' → f g = f g') :
    calls.map f = calls'.map f := by
  apply List.ext_getElem?
  intro i
  rw [List.getElem?_map, List.getElem?_map]
  cases h1 : calls[i]? with
  | none =>
    rw [List.getElem?_eq_none_iff] at h1
    rw [List.getElem?_eq_none (by omega)]
  | some g =>
    have hi := (List.getElem?_eq_some_iff.1 h1).1
    have h2 : calls'[i]? = some calls'[i] := List.getElem?_eq_getElem (by omega)
    rw [h2, Option.map_some, Option.map_some, h i g _ h1 h2]

/-- Circuits of the same shape compile to circuits that differ only in the wires, the constants and the public
inputs. -/
theorem compiled_of_shape {calls calls' : List (GateCall F)} {cc cc' : CompiledCircuit F}
    (hc : (build calls).compile = some cc) (hc' : (build calls').compile = some cc') (hs : SameShape calls calls') :
    ∃ d : Domain F, Domain.new? cc.size = some d ∧ d.Valid ∧ d.size = cc.size ∧ cc'.size = cc.size ∧
      cc'.copy = cc.copy ∧ cc'.gate.qlx = cc.gate.qlx ∧ cc'.gate.qrx = cc.gate.qrx ∧ cc'.gate.qox = cc.gate.qox ∧
      cc'.gate.qmx = cc.gate.qmx ∧ calls.length ≤ cc.size ∧
      cc.gate.qcx = d.interpolate (calls.map fun r => r.gate.qC) ∧
      cc'.gate.qcx = d.interpolate (calls'.map fun r => r.gate.qC) ∧
      cc.gate.pix = d.interpolate (calls.map fun r => r.gate.pi) ∧
      cc'.gate.pix = d.interpolate (calls'.map fun r => r.gate.pi) := by
  obtain ⟨d, hd, hv, hsz, h2, hle, -, he⟩ := compile_some calls cc hc
  obtain ⟨d', hd', hv', hsz', h2', hle', -, he'⟩ := compile_some calls' cc' hc'
  obtain ⟨e1, l1, m1⟩ := C44_compile_size calls cc hc
  obtain ⟨e2, l2, m2⟩ := C44_compile_size calls' cc' hc'
  have hsize : cc'.size = cc.size := by
    obtain ⟨e1, h1⟩ := e1
    obtain ⟨e2, h2⟩ := e2
    rw [h1, h2]
    apply le_antisymm
    · rw [← h2]; exact m2 e1 (by rw [← h1, ← hs.1]; exact l1)
    · rw [← h1]; exact m1 e2 (by rw [← h2, hs.1]; exact l2)
  have hdd : d' = d := by
    rw [hsize, hd] at hd'
    exact (Option.some.inj hd').symm
  subst hdd
  rw [he, Option.some.injEq] at hc
  rw [he', Option.some.injEq] at hc'
  have key : ∀ {α : Type} (f : GateCall F → α), (∀ g g' : GateCall F, g.ty = g'.ty →
      (g.a.1, g.a.2.1) = (g'.a.1, g'.a.2.1) → (g.b.1, g.b.2.1) = (g'.b.1, g'.b.2.1) →
      (g.c.1, g.c.2.1) = (g'.c.1, g'.c.2.1) → f g = f g') → calls'.map f = calls.map f := by
    intro α f hf
    refine (map_eq_of_shape f hs.1 fun i g g' h1 h2 => ?_).symm
    obtain ⟨k1, k2, k3, k4⟩ := hs.2 i g g' h1 h2
    exact hf g g' k1 k2 k3 k4
  have hgate : ∀ g g' : GateCall F, g.ty = g'.ty → g.gate.qL = g'.gate.qL ∧ g.gate.qR = g'.gate.qR ∧
      g.gate.qO = g'.gate.qO ∧ g.gate.qM = g'.gate.qM := by
    intro g g' h
    unfold GateCall.gate
    rw [h]
    cases g'.ty <;> simp [Gate.newAdd, Gate.newMul, Gate.newConstant]
  subst hc hc'
  refine ⟨d', hd, hv, rfl, rfl, ?_, ?_, ?_, ?_, ?_, hle, rfl, rfl, rfl, rfl⟩
  · dsimp only
    rw [key (fun c => label d'.gen c.a.1 c.a.2.1) (fun g g' _ h _ _ => by
        simp only [Prod.mk.injEq] at h; rw [h.1, h.2]),
      key (fun c => label d'.gen c.b.1 c.b.2.1) (fun g g' _ _ h _ => by
        simp only [Prod.mk.injEq] at h; rw [h.1, h.2]),
      key (fun c => label d'.gen c.c.1 c.c.2.1) (fun g g' _ _ _ h => by
        simp only [Prod.mk.injEq] at h; rw [h.1, h.2])]
  · dsimp only; rw [key (fun r => r.gate.qL) (fun g g' h _ _ _ => (hgate g g' h).1)]
  · dsimp only; rw [key (fun r => r.gate.qR) (fun g g' h _ _ _ => (hgate g g' h).2.1)]
  · dsimp only; rw [key (fun r => r.gate.qO) (fun g g' h _ _ _ => (hgate g g' h).2.2.1)]
  · dsimp only; rw [key (fun r => r.gate.qM) (fun g g' h _ _ _ => (hgate g g' h).2.2.2)]

/-- The difference of two interpolations that differ at one point of the domain is a non-zero polynomial of degree
below the size. -/
theorem interpolate_diff {d : Domain F} (hv : d.Valid) {v w : List F} {i : ℕ} (hi : i < d.size)
    (hne : v.getD i 0 ≠ w.getD i 0) :
    toPoly (d.interpolate v) - toPoly (d.interpolate w) ≠ 0 ∧
    (toPoly (d.interpolate v) - toPoly (d.interpolate w)).natDegree ≤ d.size - 1 := by
  constructor
  · intro h0
    have := congrArg (fun q => q.eval (d.gen ^ i)) h0
    simp only [eval_sub, hv.eval_interpolate _ hi, eval_zero, sub_eq_zero] at this
    exact hne this
  · have hp : 0 < d.size := by omega
    refine (natDegree_sub_le _ _).trans (max_le ?_ ?_)
    · exact Nat.le_sub_one_of_lt (natDegree_lt_of_length (d.length_interpolate_le v) hp)
    · exact Nat.le_sub_one_of_lt (natDegree_lt_of_length (d.length_interpolate_le w) hp)

/-- **C97** (constants): take two sequences of gate calls of the same shape and with the same public inputs, that pass different
values to some constant gate.  Except for at most `size - 1` secrets of the SRS there is no proof whatsoever, honest or
forged, that is accepted for both circuits. -/
theorem C97_constants (calls calls' : List (GateCall F)) (cc cc' : CompiledCircuit F)
    (hc : (build calls).compile = some cc) (hc' : (build calls').compile = some cc') (hs : SameShape calls calls')
    (hpi : calls.map GateCall.pi = calls'.map GateCall.pi) (i : ℕ) (g g' : GateCall F) (hg : calls[i]? = some g)
    (hg' : calls'[i]? = some g') (hty : g.ty = .constant) (hne : g.a.2.2 ≠ g'.a.2.2) :
    AllBut (cc.size - 1) fun s : F =>
      ∀ (G1 G2 GT : Type) [AddCommGroup G1] [Module F G1] [AddCommGroup G2] [Module F G2] [AddCommGroup GT]
        [Module F GT] [DecidableEq GT] (env : Env F G1) (dig : List UInt8 → List UInt8)
        (P : PairingGroups F G1 G2 GT) (n : ℕ) (p : Proof F G1), (∀ b, 8 ≤ (dig b).length) → cc.size ≤ n + 3 →
        ¬ BothAccept env dig P cc cc' (Srs.newFromSecret P s n) p := by
  obtain ⟨d, hd, hv, hsz, hsize, hcopy, e1, e2, e3, e4, hle, q1, q2, p1, p2⟩ := compiled_of_shape hc hc' hs
  have hi : i < d.size := by have := (List.getElem?_eq_some_iff.1 hg).1; omega
  obtain ⟨hd0, hdeg⟩ := interpolate_diff hv (v := calls'.map fun r => r.gate.qC) (w := calls.map fun r => r.gate.qC) hi (by
    have hty' : g'.ty = .constant := (hs.2 i g g' hg hg').1 ▸ hty
    simp only [List.getD_eq_getElem?_getD, List.getElem?_map, hg, hg', Option.map_some, Option.getD_some, GateCall.gate,
      hty, hty', Gate.newConstant]
    intro e
    exact hne (neg_injective e).symm)
  rw [hsz] at hdeg
  refine (AllBut.eval_ne_zero hd0 hdeg).mono le_rfl fun s hs0 => ?_
  intro G1 G2 GT _ _ _ _ _ _ _ env dig P n p hdig hn ⟨ha, hb⟩
  rw [C97_two_circuits_iff env dig hdig P s n cc cc' (compile_wellFormed _ _ hc) (compile_wellFormed _ _ hc') hsize
    (by rw [hcopy]) (by rw [hcopy]) hn p ha] at hb
  have hpix : cc'.gate.pix = cc.gate.pix := by
    rw [p1, p2]
    have e : ∀ l : List (GateCall F), (l.map fun r => r.gate.pi) = (l.map GateCall.pi).map fun x => -x := by
      intro l
      rw [List.map_map]
      refine List.map_congr_left fun r _ => ?_
      simp only [Function.comp_apply, GateCall.gate]
      cases r.ty <;> rfl
    rw [e, e, hpi]
  unfold mismatch at hb
  rw [hcopy, e1, e2, e3, e4, hpix] at hb
  apply hs0
  rw [eval_sub, ← q2, ← q1, ← eval_eq, ← eval_eq]
  linear_combination hb

/-- **C97** (public inputs): take two sequences of gate calls of the same shape, with the same values for constant gates, whose
public inputs differ at some gate.  Except for at most `size - 1` values of the evaluation challenge there is no proof
whatsoever with that challenge that is accepted for both circuits. -/
theorem C97_public_inputs (calls calls' : List (GateCall F)) (cc cc' : CompiledCircuit F)
    (hc : (build calls).compile = some cc) (hc' : (build calls').compile = some cc') (hs : SameShape calls calls')
    (hconst : ∀ (j : ℕ) (g g' : GateCall F), calls[j]? = some g → calls'[j]? = some g' → g.ty = .constant →
      g.a.2.2 = g'.a.2.2)
    (i : ℕ) (g g' : GateCall F) (hg : calls[i]? = some g)
    (hg' : calls'[i]? = some g') (hne : g.pi ≠ g'.pi) :
    AllBut (cc.size - 1) fun ζ : F =>
      ∀ (G1 G2 GT : Type) [AddCommGroup G1] [Module F G1] [AddCommGroup G2] [Module F G2] [AddCommGroup GT]
        [Module F GT] [DecidableEq GT] (env : Env F G1) (dig : List UInt8 → List UInt8)
        (P : PairingGroups F G1 G2 GT) (s : F) (n : ℕ) (p : Proof F G1), (∀ b, 8 ≤ (dig b).length) → cc.size ≤ n + 3 →
        (p.challenges env dig P.g1).ev = ζ → ¬ BothAccept env dig P cc cc' (Srs.newFromSecret P s n) p := by
  obtain ⟨d, hd, hv, hsz, hsize, hcopy, e1, e2, e3, e4, hle, q1, q2, p1, p2⟩ := compiled_of_shape hc hc' hs
  have hi : i < d.size := by have := (List.getElem?_eq_some_iff.1 hg).1; omega
  have hpi : ∀ r : GateCall F, r.gate.pi = -r.pi := by
    intro r
    unfold GateCall.gate
    cases r.ty <;> rfl
  obtain ⟨hd0, hdeg⟩ := interpolate_diff hv (v := calls'.map fun r => r.gate.pi) (w := calls.map fun r => r.gate.pi) hi (by
    simp only [List.getD_eq_getElem?_getD, List.getElem?_map, hg, hg', Option.map_some, Option.getD_some, hpi]
    intro e
    exact hne (neg_injective e).symm)
  rw [hsz] at hdeg
  refine (AllBut.eval_ne_zero hd0 hdeg).mono le_rfl fun ζ hs0 => ?_
  intro G1 G2 GT _ _ _ _ _ _ _ env dig P s n p hdig hn hζ ⟨ha, hb⟩
  rw [C97_two_circuits_iff env dig hdig P s n cc cc' (compile_wellFormed _ _ hc) (compile_wellFormed _ _ hc') hsize
    (by rw [hcopy]) (by rw [hcopy]) hn p ha] at hb
  have hqc : cc'.gate.qcx = cc.gate.qcx := by
    rw [q1, q2]
    congr 1
    refine (map_eq_of_shape _ hs.1 fun j a b ha hb => ?_).symm
    have hty := (hs.2 j a b ha hb).1
    unfold GateCall.gate
    rw [← hty]
    cases hat : a.ty with
    | addition => rfl
    | multiplication => rfl
    | constant => simp only [Gate.newConstant]; rw [hconst j a b ha hb hat]
  unfold mismatch at hb
  rw [hcopy, e1, e2, e3, e4, hqc, hζ] at hb
  apply hs0
  rw [eval_sub, ← p2, ← p1, ← eval_eq, ← eval_eq]
  linear_combination hb

/-- **C97** (wiring): let the first or second permutation polynomials of two compiled circuits differ.  Whatever the other
challenges and the claimed evaluations, for all but five values of `v` and then all but `size - 1` secrets there is
no proof with these challenges and evaluations that is accepted for both circuits. -/
theorem C97_wiring (cc cc' : CompiledCircuit F) (hwf : cc.WellFormed) (hwf' : cc'.WellFormed)
    (hsize : cc'.size = cc.size) (hk1 : cc'.copy.k1 = cc.copy.k1) (hk2 : cc'.copy.k2 = cc.copy.k2)
    (hne : cc'.copy.s1 ≠ cc.copy.s1 ∨ cc'.copy.s2 ≠ cc.copy.s2) (bar : Bars F) (α β γ ζ u : F) :
    AllBut 5 fun v : F => AllBut (cc.size - 1) fun s : F =>
      ∀ (G1 G2 GT : Type) [AddCommGroup G1] [Module F G1] [AddCommGroup G2] [Module F G2] [AddCommGroup GT]
        [Module F GT] [DecidableEq GT] (env : Env F G1) (dig : List UInt8 → List UInt8)
        (P : PairingGroups F G1 G2 GT) (n : ℕ) (p : Proof F G1), (∀ b, 8 ≤ (dig b).length) → cc.size ≤ n + 3 →
        p.challenges env dig P.g1 = ⟨α, β, γ, ζ, v, u⟩ → p.bars = bar →
        ¬ BothAccept env dig P cc cc' (Srs.newFromSecret P s n) p := by
  have hpos : 0 < cc.size := by obtain ⟨k, hk⟩ := hwf.pow2; rw [hk]; positivity
  set A : F[X] := C (bar.a * bar.b) * (toPoly cc'.gate.qmx - toPoly cc.gate.qmx) +
    C bar.a * (toPoly cc'.gate.qlx - toPoly cc.gate.qlx) + C bar.b * (toPoly cc'.gate.qrx - toPoly cc.gate.qrx) +
    C bar.c * (toPoly cc'.gate.qox - toPoly cc.gate.qox) + (toPoly cc'.gate.qcx - toPoly cc.gate.qcx) +
    C (Ark.eval cc'.gate.pix ζ - Ark.eval cc.gate.pix ζ) -
    C (α * β * bar.zw * (bar.a + β * bar.s1 + γ) * (bar.b + β * bar.s2 + γ)) *
      (toPoly cc'.copy.s3 - toPoly cc.copy.s3) with hA
  set B : F[X] := toPoly cc'.copy.s1 - toPoly cc.copy.s1 with hB
  set D : F[X] := toPoly cc'.copy.s2 - toPoly cc.copy.s2 with hD
  have hBD : B ≠ 0 ∨ D ≠ 0 := by
    rcases hne with h | h
    · left
      intro h0
      apply h
      exact canon_ext (hwf'.canon _ (by simp [CompiledCircuit.polys]))
        (hwf.canon _ (by simp [CompiledCircuit.polys])) (sub_eq_zero.1 h0)
    · right
      intro h0
      apply h
      exact canon_ext (hwf'.canon _ (by simp [CompiledCircuit.polys]))
        (hwf.canon _ (by simp [CompiledCircuit.polys])) (sub_eq_zero.1 h0)
  have hdeg : ∀ p ∈ cc.polys, (toPoly p).natDegree ≤ cc.size - 1 := fun p hp =>
    Nat.le_sub_one_of_lt (natDegree_lt_of_length (hwf.len p hp) hpos)
  have hdeg' : ∀ p ∈ cc'.polys, (toPoly p).natDegree ≤ cc.size - 1 := fun p hp =>
    Nat.le_sub_one_of_lt (natDegree_lt_of_length (hsize ▸ hwf'.len p hp) hpos)
  have hsub : ∀ p ∈ cc'.polys, ∀ q ∈ cc.polys, (toPoly p - toPoly q).natDegree ≤ cc.size - 1 := fun p hp q hq =>
    (natDegree_sub_le _ _).trans (max_le (hdeg' p hp) (hdeg q hq))
  have hC : ∀ (a : F) (q : F[X]), q.natDegree ≤ cc.size - 1 → (C a * q).natDegree ≤ cc.size - 1 := fun a q h =>
    (natDegree_C_mul_le a q).trans h
  have hAd : A.natDegree ≤ cc.size - 1 := by
    rw [hA]
    refine (natDegree_sub_le _ _).trans (max_le ?_ (hC _ _ (hsub _ (by simp [CompiledCircuit.polys]) _
      (by simp [CompiledCircuit.polys]))))
    refine (natDegree_add_le _ _).trans (max_le ?_ (by rw [natDegree_C]; omega))
    refine (natDegree_add_le _ _).trans (max_le ?_ (hsub _ (by simp [CompiledCircuit.polys]) _
      (by simp [CompiledCircuit.polys])))
    refine (natDegree_add_le _ _).trans (max_le ?_ (hC _ _ (hsub _ (by simp [CompiledCircuit.polys]) _
      (by simp [CompiledCircuit.polys]))))
    refine (natDegree_add_le _ _).trans (max_le ?_ (hC _ _ (hsub _ (by simp [CompiledCircuit.polys]) _
      (by simp [CompiledCircuit.polys]))))
    exact (natDegree_add_le _ _).trans (max_le (hC _ _ (hsub _ (by simp [CompiledCircuit.polys]) _
      (by simp [CompiledCircuit.polys]))) (hC _ _ (hsub _ (by simp [CompiledCircuit.polys]) _
      (by simp [CompiledCircuit.polys]))))
  have hBd : B.natDegree ≤ cc.size - 1 := hsub _ (by simp [CompiledCircuit.polys]) _ (by simp [CompiledCircuit.polys])
  have hDd : D.natDegree ≤ cc.size - 1 := hsub _ (by simp [CompiledCircuit.polys]) _ (by simp [CompiledCircuit.polys])
  -- a coefficient where `B` or `D` does not vanish
  obtain ⟨j, hj⟩ : ∃ j, B.coeff j ≠ 0 ∨ D.coeff j ≠ 0 := by
    rcases hBD with h | h
    · exact ⟨_, Or.inl (leadingCoeff_ne_zero.2 h)⟩
    · exact ⟨_, Or.inr (leadingCoeff_ne_zero.2 h)⟩
  have hq0 : (C (A.coeff j) + C (B.coeff j) * X ^ 4 + C (D.coeff j) * X ^ 5 : F[X]) ≠ 0 := by
    intro h0
    have c4 := congrArg (fun q => q.coeff 4) h0
    have c5 := congrArg (fun q => q.coeff 5) h0
    simp [coeff_X_pow] at c4 c5
    rcases hj with h | h
    · exact h c4
    · exact h c5
  have hqd : (C (A.coeff j) + C (B.coeff j) * X ^ 4 + C (D.coeff j) * X ^ 5 : F[X]).natDegree ≤ 5 := by
    refine (natDegree_add_le _ _).trans (max_le ?_ (natDegree_C_mul_X_pow_le _ _))
    refine (natDegree_add_le _ _).trans (max_le (by rw [natDegree_C]; omega)
      ((natDegree_C_mul_X_pow_le _ _).trans (by omega)))
  refine (AllBut.eval_ne_zero hq0 hqd).mono le_rfl fun v hv => ?_
  have hQ0 : A + C (v ^ 4) * B + C (v ^ 5) * D ≠ 0 := by
    intro h0
    apply hv
    have := congrArg (fun q => q.coeff j) h0
    simp only [coeff_add, coeff_C_mul, coeff_zero] at this
    simp only [eval_add, eval_mul, eval_C, eval_pow, eval_X]
    linear_combination this
  have hQd : (A + C (v ^ 4) * B + C (v ^ 5) * D).natDegree ≤ cc.size - 1 := by
    refine (natDegree_add_le _ _).trans (max_le ?_ (hC _ _ hDd))
    exact (natDegree_add_le _ _).trans (max_le hAd (hC _ _ hBd))
  refine (AllBut.eval_ne_zero hQ0 hQd).mono le_rfl fun s hs => ?_
  intro G1 G2 GT _ _ _ _ _ _ _ env dig P n p hdig hn hch hbar ⟨ha, hb⟩
  rw [C97_two_circuits_iff env dig hdig P s n cc cc' hwf hwf' hsize hk1 hk2 hn p ha, hch, hbar] at hb
  apply hs
  rw [hA, hB, hD]
  unfold mismatch at hb
  simp only [eval_add, eval_sub, eval_mul, eval_C, ← eval_eq]
  dsimp only at hb
  linear_combination hb

end compiled

section calls

theorem target_valid {calls : List (GateCall BlsFr)} {cc : CompiledCircuit BlsFr}
    (hc : (build calls).compile = some cc) {l i : ℕ} (hl : l < 3) (hi : i < cc.size) :
    (target calls l i).1 < 3 ∧ (target calls l i).2 < cc.size := by
  obtain ⟨d, -, -, hsz, -, -, hval, -⟩ := compile_some calls cc hc
  unfold target
  cases h : calls[i]? with
  | none => exact ⟨hl, hi⟩
  | some call =>
    obtain ⟨ha, hb, hc⟩ := hval call (List.mem_of_getElem? h)
    simp only [ValidPos, hsz] at ha hb hc
    rcases l with _ | _ | _ | l
    · exact ha
    · exact hb
    · exact hc
    · omega

/-- **C97** (wiring, for gate calls): if two sequences of gate calls, compiled to the same size, ask for different positions for
the left or the right wire of some gate, the conclusion of `C97_wiring` holds: whatever the other challenges and
the claimed evaluations, for all but five values of `v` and then all but `size - 1` secrets there is no proof with these
challenges and evaluations that is accepted for both circuits. -/
theorem C97_wiring_calls (calls calls' : List (GateCall BlsFr)) (cc cc' : CompiledCircuit BlsFr)
    (hc : (build calls).compile = some cc) (hc' : (build calls').compile = some cc') (hsize : cc'.size = cc.size)
    (i : ℕ) (g g' : GateCall BlsFr) (hg : calls[i]? = some g) (hg' : calls'[i]? = some g')
    (hne : (g.a.1, g.a.2.1) ≠ (g'.a.1, g'.a.2.1) ∨ (g.b.1, g.b.2.1) ≠ (g'.b.1, g'.b.2.1))
    (bar : Bars BlsFr) (α β γ ζ u : BlsFr) :
    AllBut 5 fun v : BlsFr => AllBut (cc.size - 1) fun s : BlsFr =>
      ∀ (G1 G2 GT : Type) [AddCommGroup G1] [Module BlsFr G1] [AddCommGroup G2] [Module BlsFr G2] [AddCommGroup GT]
        [Module BlsFr GT] [DecidableEq GT] (env : Env BlsFr G1) (dig : List UInt8 → List UInt8)
        (P : PairingGroups BlsFr G1 G2 GT) (n : ℕ) (p : Proof BlsFr G1), (∀ b, 8 ≤ (dig b).length) → cc.size ≤ n + 3 →
        p.challenges env dig P.g1 = ⟨α, β, γ, ζ, v, u⟩ → p.bars = bar →
        ¬ BothAccept env dig P cc cc' (Srs.newFromSecret P s n) p := by
  obtain ⟨d, hd, k1, k2, hs⟩ := C46_sigma calls cc hc
  obtain ⟨d', hd', k1', k2', hs'⟩ := C46_sigma calls' cc' hc'
  have hdd : d' = d := by
    rw [hsize, hd] at hd'
    exact (Option.some.inj hd').symm
  subst hdd
  obtain ⟨d0, hd0, -, hsz, -, hle, -, -⟩ := compile_some calls cc hc
  have hdd : d0 = d' := Option.some.inj (hd0.symm.trans hd)
  subst hdd
  have hi : i < cc.size := lt_of_lt_of_le (List.getElem?_eq_some_iff.1 hg).1 hle
  have key : ∀ l, l < 3 → label d0.gen (target calls' l i).1 (target calls' l i).2 =
      label d0.gen (target calls l i).1 (target calls l i).2 → target calls' l i = target calls l i := by
    intro l hl e
    obtain ⟨t1, t2⟩ := target_valid hc hl hi
    obtain ⟨t1', t2'⟩ := target_valid hc' hl (hsize ▸ hi)
    obtain ⟨e1, e2⟩ := C46_labels_distinct _ d0 hd t1' t1 (by rw [hsz, ← hsize]; exact t2') (by rw [hsz]; exact t2) e
    exact Prod.ext e1 e2
  refine C97_wiring cc cc' (compile_wellFormed _ _ hc) (compile_wellFormed _ _ hc') hsize (k1'.trans k1.symm)
    (k2'.trans k2.symm) ?_ bar α β γ ζ u
  rcases hne with h | h
  · left
    intro e
    apply h
    have e1 := (hs' (cc'.copy.s1, 0) (by simp)).2 i (hsize ▸ hi)
    have e2 := (hs (cc.copy.s1, 0) (by simp)).2 i hi
    dsimp only at e1 e2
    rw [e, e2] at e1
    have := key 0 (by omega) e1.symm
    simpa [target, hg, hg'] using this.symm
  · right
    intro e
    apply h
    have e1 := (hs' (cc'.copy.s2, 1) (by simp)).2 i (hsize ▸ hi)
    have e2 := (hs (cc.copy.s2, 1) (by simp)).2 i hi
    dsimp only at e1 e2
    rw [e, e2] at e1
    have := key 1 (by omega) e1.symm
    simpa [target, hg, hg'] using this.symm

end calls

/-! ## The repository's test -/

/-- The calls made for `x*y+3*x^2+x*y*z=11` with `x = 1`, `y = 2`, `z = 3`. -/
def calls11 : List (GateCall BlsFr) :=
  [⟨.multiplication, (1, 2, 1), (1, 0, 2), (0, 4, 2), 0⟩, ⟨.constant, (0, 2, 3), (1, 7, 0), (2, 1, 3), 0⟩,
   ⟨.multiplication, (0, 1, 3), (1, 3, 1), (0, 3, 3), 0⟩, ⟨.multiplication, (2, 2, 3), (0, 0, 1), (1, 4, 3), 0⟩,
   ⟨.addition, (0, 5, 2), (2, 3, 3), (0, 6, 5), 0⟩, ⟨.multiplication, (2, 0, 2), (1, 5, 3), (1, 6, 6), 0⟩,
   ⟨.addition, (2, 4, 5), (2, 5, 6), (0, 8, 11), 0⟩, ⟨.constant, (1, 8, -11), (1, 1, 0), (2, 7, -11), 0⟩,
   ⟨.addition, (2, 6, 11), (0, 7, -11), (2, 8, 0), 0⟩]

/-- The calls made for `x*y+3*x^2+x*y*z=13` with `x = 1`, `y = 2`, `z = 4`. -/
def calls13 : List (GateCall BlsFr) :=
  [⟨.multiplication, (1, 2, 1), (1, 0, 2), (0, 4, 2), 0⟩, ⟨.constant, (0, 2, 3), (1, 7, 0), (2, 1, 3), 0⟩,
   ⟨.multiplication, (0, 1, 3), (1, 3, 1), (0, 3, 3), 0⟩, ⟨.multiplication, (2, 2, 3), (0, 0, 1), (1, 4, 3), 0⟩,
   ⟨.addition, (0, 5, 2), (2, 3, 3), (0, 6, 5), 0⟩, ⟨.multiplication, (2, 0, 2), (1, 5, 4), (1, 6, 8), 0⟩,
   ⟨.addition, (2, 4, 5), (2, 5, 8), (0, 8, 13), 0⟩, ⟨.constant, (1, 8, -13), (1, 1, 0), (2, 7, -13), 0⟩,
   ⟨.addition, (2, 6, 13), (0, 7, -13), (2, 8, 0), 0⟩]

/-- The witnesses of the second parser: `x = 1`, `y = 2`, `z = 4`. -/
def wit4 : List Char → Option BlsFr :=
  addWitness (addWitness (addWitness noWitness ['x'] 1) ['y'] 2) ['z'] 4

theorem calls11_eq : parse asciiTables exWit "x*y+3*x^2+x*y*z=11".toList = some (build calls11) := by decide +kernel

theorem calls13_eq : parse asciiTables wit4 "x*y+3*x^2+x*y*z=13".toList = some (build calls13) := by decide +kernel

theorem nine_compiles (calls : List (GateCall BlsFr)) (hl : calls.length = 9)
    (hv : ∀ call ∈ calls, ∀ p ∈ [call.a, call.b, call.c], p.1 ≤ 2 ∧ p.2.1 < 16) :
    ∃ cc, (build calls).compile = some cc ∧ cc.size = 16 := by
  have e : nextPow2 9 = 16 := by
    have : Nat.clog 2 9 = 4 := by decide +kernel
    simp [nextPow2, this]
  have hs : ((build calls).compile).isSome := by
    by_contra h
    rw [Bool.not_eq_true, Option.isSome_eq_false_iff, Option.isNone_iff_eq_none, C44_compile_panics_iff] at h
    have e2 : FftField.twoAdicity BlsFr = 32 := rfl
    rw [hl, e, e2] at h
    rcases h with h | h | ⟨call, hc, p, hp, hn⟩
    · omega
    · norm_num at h
    · exact hn (hv call hc p hp)
  obtain ⟨cc, hcc⟩ := Option.isSome_iff_exists.1 hs
  obtain ⟨⟨k, hk⟩, h2, h3⟩ := C44_compile_size calls cc hcc
  rw [hl] at h2 h3
  have h4 := h3 4 (by norm_num)
  refine ⟨cc, hcc, ?_⟩
  rw [hk] at h2 h4 ⊢
  have : k ≤ 4 := (Nat.pow_le_pow_iff_right (by norm_num)).1 h4
  have : 3 < k := by
    by_contra hk3
    have := Nat.pow_le_pow_right (n := 2) (by norm_num) (Nat.le_of_not_lt hk3)
    omega
  rw [show k = 4 by omega]; norm_num

/-- **C97** (the repository's test `parser_constant_test`, `plonk/src/parser.rs` lines 446-469): both equations parse
and compile.  Except for at most 15 secrets of the SRS, no proof is accepted for both circuits; the honest proof of either
circuit is answered with an error for the other, unless its evaluation challenge is 1. -/
theorem C97_repository_test : ∃ cc cc' : CompiledCircuit BlsFr,
    (parse asciiTables exWit "x*y+3*x^2+x*y*z=11".toList).bind Circuit.compile = some cc ∧
    (parse asciiTables wit4 "x*y+3*x^2+x*y*z=13".toList).bind Circuit.compile = some cc' ∧
    AllBut 15 fun s : BlsFr =>
      ∀ (G1 G2 GT : Type) [AddCommGroup G1] [Module BlsFr G1] [AddCommGroup G2] [Module BlsFr G2] [AddCommGroup GT]
        [Module BlsFr GT] [DecidableEq GT] (env : Env BlsFr G1) (P : PairingGroups BlsFr G1 G2 GT),
        (∀ b, 8 ≤ (env.sha256 b).length) →
        (∀ p : Proof BlsFr G1, ¬ BothAccept env env.sha256 P cc cc' (Srs.newFromSecret P s 20) p) ∧
        ∀ (bl bl' : Blinders BlsFr) (proof proof1 : Proof BlsFr G1),
          generateProof env env.sha256 cc (Srs.newFromSecret P s 20) bl = some proof →
          generateProof env env.sha256 cc' (Srs.newFromSecret P s 20) bl' = some proof1 →
          ((proof1.challenges env env.sha256 P.g1).ev ≠ 1 →
            ∃ e, verify env env.sha256 P cc (Srs.newFromSecret P s 20) proof1 = some (.error e)) ∧
          ((proof.challenges env env.sha256 P.g1).ev ≠ 1 →
            ∃ e, verify env env.sha256 P cc' (Srs.newFromSecret P s 20) proof = some (.error e)) := by
  obtain ⟨cc, hc, h16⟩ := nine_compiles calls11 rfl (by decide)
  obtain ⟨cc', hc', h16'⟩ := nine_compiles calls13 rfl (by decide)
  refine ⟨cc, cc', by rw [calls11_eq]; exact hc, by rw [calls13_eq]; exact hc', ?_⟩
  have hshape : SameShape calls11 calls13 := by
    refine ⟨rfl, fun i g g' hg hg' => ?_⟩
    have hi : i < 9 := (List.getElem?_eq_some_iff.1 hg).1
    interval_cases i <;> simp only [calls11, calls13, List.getElem?_cons_succ, List.getElem?_cons_zero,
      Option.some.injEq] at hg hg' <;> subst hg hg' <;> simp
  have h := C97_constants calls11 calls13 cc cc' hc hc' hshape rfl 7 _ _ rfl rfl rfl (by decide +kernel)
  rw [h16] at h
  refine h.mono le_rfl fun s h => ?_
  intro G1 G2 GT _ _ _ _ _ _ _ env P hdig
  have hno := fun p => h G1 G2 GT env env.sha256 P 20 p hdig (by omega)
  have hwf := compile_wellFormed _ _ hc
  have hwf' := compile_wellFormed _ _ hc'
  have hdom : ∃ d, Domain.new? (F := BlsFr) 16 = some d := by
    obtain ⟨d, hd, -⟩ := compile_some calls11 cc hc
    exact ⟨d, h16 ▸ hd⟩
  obtain ⟨d, hd⟩ := hdom
  refine ⟨hno, fun bl bl' proof proof1 hp hp1 => ⟨fun hev => ?_, fun hev => ?_⟩⟩
  · have hb := (C49_proof_verifies env env.sha256 hdig P s 20 cc' hwf' (by omega) bl' proof1 hp1).1 hev
    cases hv : verify env env.sha256 P cc (Srs.newFromSecret P s 20) proof1 with
    | none => exact absurd ((C53_verify env env.sha256 hdig P s 20 cc hwf (by omega) d (h16 ▸ hd) proof1).1.1 hv).2 hev
    | some r =>
      cases r with
      | ok _ => exact absurd ⟨hv, hb⟩ (hno proof1)
      | error e => exact ⟨e, rfl⟩
  · have hb := (C49_proof_verifies env env.sha256 hdig P s 20 cc hwf (by omega) bl proof hp).1 hev
    cases hv : verify env env.sha256 P cc' (Srs.newFromSecret P s 20) proof with
    | none => exact absurd ((C53_verify env env.sha256 hdig P s 20 cc' hwf' (by omega) d (h16' ▸ hd) proof).1.1 hv).2 hev
    | some r =>
      cases r with
      | ok _ => exact absurd ⟨hb, hv⟩ (hno proof)
      | error e => exact ⟨e, rfl⟩

/-- `calls11` with a public input at the last gate, and with the positions of its last gate unconnected. -/
def calls11' (pi : BlsFr) (pos : ℕ) : List (GateCall BlsFr) :=
  calls11.take 8 ++ [⟨.addition, (2, pos, 11), (0, 7, -11), (2, 8, 0), pi⟩]

/-- Non-vacuity of `C97_public_inputs` and `C97_wiring_calls`: both variants of `calls11` compile to the same size. -/
example : ∃ cc cc' cc'' : CompiledCircuit BlsFr, (build calls11).compile = some cc ∧
    (build (calls11' 5 6)).compile = some cc' ∧ (build (calls11' 0 8)).compile = some cc'' ∧ cc'.size = cc.size ∧
    cc''.size = cc.size ∧
    (AllBut (cc.size - 1) fun ζ : BlsFr => ∀ (env : Env BlsFr BlsFr) (P : PairingGroups BlsFr BlsFr BlsFr BlsFr) (s : BlsFr)
      (p : Proof BlsFr BlsFr), (∀ b, 8 ≤ (env.sha256 b).length) → (p.challenges env env.sha256 P.g1).ev = ζ →
      ¬ BothAccept env env.sha256 P cc cc' (Srs.newFromSecret P s 20) p) ∧
    ∀ (bar : Bars BlsFr) (α β γ ζ u : BlsFr), AllBut 5 fun v : BlsFr => AllBut (cc.size - 1) fun s : BlsFr =>
      ∀ (env : Env BlsFr BlsFr) (P : PairingGroups BlsFr BlsFr BlsFr BlsFr) (p : Proof BlsFr BlsFr),
        (∀ b, 8 ≤ (env.sha256 b).length) → p.challenges env env.sha256 P.g1 = ⟨α, β, γ, ζ, v, u⟩ → p.bars = bar →
        ¬ BothAccept env env.sha256 P cc cc'' (Srs.newFromSecret P s 20) p := by
  obtain ⟨cc, hc, h1⟩ := nine_compiles calls11 rfl (by decide)
  obtain ⟨cc', hc', h2⟩ := nine_compiles (calls11' 5 6) rfl (by decide)
  obtain ⟨cc'', hc'', h3⟩ := nine_compiles (calls11' 0 8) rfl (by decide)
  have hshape : SameShape calls11 (calls11' 5 6) := by
    refine ⟨rfl, fun i g g' hg hg' => ?_⟩
    have hi : i < 9 := (List.getElem?_eq_some_iff.1 hg).1
    interval_cases i <;> simp [calls11, calls11'] at hg hg' <;> subst hg hg' <;> simp
  refine ⟨cc, cc', cc'', hc, hc', hc'', h2.trans h1.symm, h3.trans h1.symm, ?_, ?_⟩
  · refine (C97_public_inputs calls11 (calls11' 5 6) cc cc' hc hc' hshape ?_ 8 _ _ rfl rfl (by decide +kernel)).mono
      le_rfl fun ζ h env P s p hdig hz => h _ _ _ env env.sha256 P s 20 p hdig (by omega) hz
    intro j g g' hg hg' hty
    have hi : j < 9 := (List.getElem?_eq_some_iff.1 hg).1
    interval_cases j <;> simp [calls11, calls11'] at hg hg' <;> subst hg hg' <;> simp at hty ⊢
  · intro bar α β γ ζ u
    exact (C97_wiring_calls calls11 (calls11' 0 8) cc cc'' hc hc'' (h3.trans h1.symm) 8 _ _ rfl rfl
      (Or.inl (by simp)) bar α β γ ζ u).mono le_rfl fun v h => h.mono le_rfl fun s h env P p hdig hch hb =>
        h _ _ _ env env.sha256 P 20 p hdig (by omega) hch hb

end Verif.Plonk

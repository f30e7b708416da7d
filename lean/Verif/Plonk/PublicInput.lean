import Verif.Plonk.AlgSoundness

/-!
# C74: the challenges do not bind the public inputs

`verify` draws all challenges from the proof alone: neither the circuit nor its public inputs enter the transcript.
A prover may choose wire polynomials, accumulator and quotient slices at will, and adapt the public input of one gate
after the evaluation challenge is known.
-/

set_option linter.unusedSectionVars false
set_option linter.unusedSimpArgs false
set_option linter.unusedVariables false

namespace Verif.Plonk

open Verif.Ark Verif.Kzg Polynomial

/-! ## Specification -/

/-- The calls with the public input of the `j`-th call replaced by `π`. -/
def setPi {F : Type} (calls : List (GateCall F)) (j : ℕ) (π : F) : List (GateCall F) :=
  calls.modify j fun call => { call with pi := π }

section
variable {F : Type} [FftField F] [DecidableEq F]

section forge
variable {G1 : Type} [AddCommGroup G1] [Module F G1] (env : Env F G1) (dig : List UInt8 → List UInt8) (g : G1) (s : F)
  (cc : CompiledCircuit F) (w : F) (a b c z tLo tMid tHi : F[X]) (m : ℕ)

/-- challenge of the forger -/
noncomputable def fBeta (i : ℕ) : F := challengeAfter env dig [a.eval s • g, b.eval s • g, c.eval s • g] i
/-- challenge of the forger -/
noncomputable def fAlpha : F :=
  challengeAfter env dig [a.eval s • g, b.eval s • g, c.eval s • g, z.eval s • g] 0
/-- evaluation challenge of the forger -/
noncomputable def fZeta : F :=
  challengeAfter env dig [a.eval s • g, b.eval s • g, c.eval s • g, z.eval s • g, tLo.eval s • g, tMid.eval s • g,
    tHi.eval s • g] 0

/-- The evaluations at `ζ`. -/
noncomputable def fBar (ζ : F) : Bars F where
  a := a.eval ζ
  b := b.eval ζ
  c := c.eval ζ
  s1 := (toPoly cc.copy.s1).eval ζ
  s2 := (toPoly cc.copy.s2).eval ζ
  zw := z.eval (ζ * w)

/-- The polynomial opened at `ζ`. -/
noncomputable def fOpen (β γ α ζ v : F) (bar : Bars F) : F[X] :=
  linCheck cc β γ α ζ bar z tLo tMid tHi m + C v * (a - C bar.a) + C (v ^ 2) * (b - C bar.b) +
    C (v ^ 3) * (c - C bar.c) + C (v ^ 4) * (toPoly cc.copy.s1 - C bar.s1) +
    C (v ^ 5) * (toPoly cc.copy.s2 - C bar.s2)

/-- The forged proof: arbitrary polynomials `a b c z tLo tMid tHi` are committed, honestly evaluated and opened.  The
public inputs are not used (they only enter the constant coefficient of `fOpen`, which does not
change the quotient). -/
noncomputable def forge : Proof F G1 :=
  let ζ := fZeta env dig g s a b c z tLo tMid tHi
  let bar := fBar cc w a b c z ζ
  let v := challengeAfter env dig [a.eval s • g, b.eval s • g, c.eval s • g, z.eval s • g, tLo.eval s • g,
    tMid.eval s • g, tHi.eval s • g, bar.a • g, bar.b • g, bar.c • g, bar.s1 • g, bar.s2 • g, bar.zw • g] 0
  let W := fOpen cc a b c z tLo tMid tHi m (fBeta env dig g s a b c 0) (fBeta env dig g s a b c 1)
    (fAlpha env dig g s a b c z) ζ v bar /ₘ (X - C ζ)
  let W' := z /ₘ (X - C (ζ * w))
  let u := challengeAfter env dig [a.eval s • g, b.eval s • g, c.eval s • g, z.eval s • g, tLo.eval s • g,
    tMid.eval s • g, tHi.eval s • g, bar.a • g, bar.b • g, bar.c • g, bar.s1 • g, bar.s2 • g, bar.zw • g,
    W.eval s • g, W'.eval s • g] 0
  algProof g s a b c z tLo tMid tHi W W' bar u m

end forge

/-! ## Changing a public input -/

/-- Lagrange polynomial of row `j` at `x`. -/
noncomputable def lag (d : Domain F) (j : ℕ) (x : F) : F :=
  (Lagrange.basis (Finset.range d.size) (fun i => d.gen ^ i) j).eval x

theorem nodes_injOn {d : Domain F} (hv : d.Valid) : Set.InjOn (fun i => d.gen ^ i) (Finset.range d.size : Set ℕ) := by
  intro i hi j hj hij
  simp only [Finset.coe_range, Set.mem_Iio] at hi hj
  exact hv.pow_inj hi hj hij

theorem lag_ne_zero {d : Domain F} (hv : d.Valid) {j : ℕ} (hj : j < d.size) {x : F} (hx : x ^ d.size ≠ 1) :
    lag d j x ≠ 0 := by
  unfold lag Lagrange.basis
  rw [eval_prod, Finset.prod_ne_zero_iff]
  intro i hi
  rw [Finset.mem_erase, Finset.mem_range] at hi
  unfold Lagrange.basisDivisor
  rw [eval_mul, eval_C, eval_sub, eval_X, eval_C]
  refine mul_ne_zero (inv_ne_zero (sub_ne_zero.2 fun h => hi.1 (hv.pow_inj hj hi.2 h).symm)) (sub_ne_zero.2 ?_)
  rintro rfl
  apply hx
  rw [← pow_mul, mul_comm, pow_mul, hv.pow_size, one_pow]

theorem gate_pi (call : GateCall F) : call.gate.pi = -call.pi := by
  unfold GateCall.gate
  cases call.ty <;> simp [Gate.newAdd, Gate.newMul, Gate.newConstant]

theorem setPi_map {β : Type} (calls : List (GateCall F)) (j : ℕ) (π : F) (f : GateCall F → β)
    (hf : ∀ (c : GateCall F), f { c with pi := π } = f c) : (setPi calls j π).map f = calls.map f := by
  apply List.ext_getElem?
  intro i
  unfold setPi
  rw [List.getElem?_map, List.getElem?_map, List.getElem?_modify]
  by_cases h : j = i
  · cases calls[i]? <;> simp [h, hf]
  · cases calls[i]? <;> simp [h]

theorem gate_setPi (c : GateCall F) (π : F) :
    ({ c with pi := π } : GateCall F).gate.qL = c.gate.qL ∧ ({ c with pi := π } : GateCall F).gate.qR = c.gate.qR ∧
    ({ c with pi := π } : GateCall F).gate.qO = c.gate.qO ∧ ({ c with pi := π } : GateCall F).gate.qM = c.gate.qM ∧
    ({ c with pi := π } : GateCall F).gate.qC = c.gate.qC := by
  unfold GateCall.gate
  cases c.ty <;> exact ⟨rfl, rfl, rfl, rfl, rfl⟩

/-- Compiling with another public input changes only the public-input polynomial, by a multiple of a Lagrange
polynomial. -/
theorem compile_setPi {calls : List (GateCall F)} {cc : CompiledCircuit F} (hc : (build calls).compile = some cc)
    {d : Domain F} (hd : Domain.new? cc.size = some d) {j : ℕ} {call : GateCall F} (hj : calls[j]? = some call) (π : F) :
    ∃ cc', (build (setPi calls j π)).compile = some cc' ∧
      cc' = { cc with gate := { cc.gate with pix := cc'.gate.pix } } ∧
      ∀ x, Ark.eval cc'.gate.pix x = Ark.eval cc.gate.pix x + (call.pi - π) * lag d j x := by
  obtain ⟨d0, hd0, hv, hs, h2, hle, hval, heq⟩ := compile_some calls cc hc
  rw [hd, Option.some.injEq] at hd0
  subst hd0
  have hlen : (setPi calls j π).length = calls.length := by simp [setPi]
  have hd' : (Domain.new? calls.length : Option (Domain F)) = some d := by
    cases hx : (Domain.new? calls.length : Option (Domain F)) with
    | none => rw [compile_build_noDomain _ hx] at hc; cases hc
    | some d' =>
      obtain ⟨hno, hyes⟩ := compile_build calls d' hx h2
      by_cases hva : AllValid d'.size calls
      · rw [hyes hva, Option.some.injEq] at hc
        have : cc.size = d'.size := by rw [← hc]
        rw [this, (Domain.new?_valid hx).2, new?_nextPow2, hx] at hd
        exact hd
      · rw [hno hva] at hc; cases hc
  have hjl : j < calls.length := (List.getElem?_eq_some_iff.1 hj).1
  have hget : ∀ i, (setPi calls j π)[i]? = if j = i then (calls[i]?).map fun c => { c with pi := π } else calls[i]? := by
    intro i
    unfold setPi
    rw [List.getElem?_modify]
    split
    · next h => cases calls[i]? <;> simp
    · next h => cases calls[i]? <;> simp
  have hval' : AllValid d.size (setPi calls j π) := by
    intro call' hcall
    obtain ⟨i, hi⟩ := List.mem_iff_getElem?.1 hcall
    rw [hget] at hi
    split at hi
    · rw [Option.map_eq_some_iff] at hi
      obtain ⟨c0, hc0, rfl⟩ := hi
      exact hval c0 (List.mem_of_getElem? hc0)
    · exact hval call' (List.mem_of_getElem? hi)
  have h' := (compile_build (setPi calls j π) d (by rw [hlen]; exact hd') (by omega)).2 hval'
  have h'' := (compile_build calls d hd' h2).2 hval
  rw [h'', Option.some.injEq] at hc
  have hm : ∀ f : GateCall F → F, (∀ c : GateCall F, f { c with pi := π } = f c) →
      (setPi calls j π).map f = calls.map f := fun f hf => setPi_map calls j π f hf
  refine ⟨_, h', ?_, ?_⟩
  · subst hc
    simp only [CompiledCircuit.mk.injEq, true_and]
    rw [hm (fun r => r.a.2.2) fun _ => rfl, hm (fun r => r.b.2.2) fun _ => rfl, hm (fun r => r.c.2.2) fun _ => rfl,
      hm (fun r => r.gate.qL) fun c => (gate_setPi c π).1, hm (fun r => r.gate.qR) fun c => (gate_setPi c π).2.1,
      hm (fun r => r.gate.qO) fun c => (gate_setPi c π).2.2.1,
      hm (fun r => r.gate.qM) fun c => (gate_setPi c π).2.2.2.1,
      hm (fun r => r.gate.qC) fun c => (gate_setPi c π).2.2.2.2,
      hm (fun c => label d.gen c.a.1 c.a.2.1) fun _ => rfl, hm (fun c => label d.gen c.b.1 c.b.2.1) fun _ => rfl,
      hm (fun c => label d.gen c.c.1 c.c.2.1) fun _ => rfl]
    exact ⟨rfl, rfl⟩
  · intro x
    dsimp only
    rw [← hc]
    dsimp only
    rw [eval_eq, eval_eq]
    unfold lag
    have hpoly : toPoly (d.interpolate ((setPi calls j π).map fun r => r.gate.pi)) =
        toPoly (d.interpolate (calls.map fun r => r.gate.pi)) +
          C (call.pi - π) * Lagrange.basis (Finset.range d.size) (fun i => d.gen ^ i) j := by
      have hjd : j < d.size := by omega
      refine hv.ext (d.degree_interpolate_lt _) ?_ ?_
      · refine (degree_add_le _ _).trans_lt (max_lt (d.degree_interpolate_lt _) ?_)
        rw [← smul_eq_C_mul]
        refine (degree_smul_le _ _).trans_lt ?_
        rw [Lagrange.degree_basis (nodes_injOn hv) (Finset.mem_range.2 hjd), Finset.card_range]
        exact_mod_cast (by omega)
      · intro i hi
        rw [hv.eval_interpolate _ hi, eval_add, hv.eval_interpolate _ hi, eval_mul, eval_C]
        simp only [List.getD_eq_getElem?_getD, List.getElem?_map, hget]
        by_cases hji : j = i
        · subst hji
          rw [Lagrange.eval_basis_self (nodes_injOn hv) (Finset.mem_range.2 hjd), hj]
          simp [gate_pi]
          ring
        · rw [Lagrange.eval_basis_of_ne hji (Finset.mem_range.2 hi), if_neg hji]
          simp
    rw [hpoly, eval_add, eval_mul, eval_C]

/-! ## The forgery -/

theorem linCheck_pix (cc : CompiledCircuit F) (q : DP F) (β γ α ζ : F) (bar : Bars F) (z tLo tMid tHi : F[X]) (m : ℕ) :
    linCheck { cc with gate := { cc.gate with pix := q } } β γ α ζ bar z tLo tMid tHi m =
      linCheck cc β γ α ζ bar z tLo tMid tHi m + C (Ark.eval q ζ - Ark.eval cc.gate.pix ζ) := by
  unfold linCheck
  simp only [eval_eq, C_sub]
  ring

theorem mul_divX (p : F[X]) (x : F) : (X - C x) * (p /ₘ (X - C x)) = p - C (p.eval x) := by
  have := modByMonic_add_div p (X - C x)
  rw [modByMonic_X_sub_C_eq_C_eval] at this
  linear_combination this

variable {G1 G2 GT : Type} [AddCommGroup G1] [Module F G1] [AddCommGroup G2] [Module F G2]
  [AddCommGroup GT] [Module F GT] [DecidableEq GT]

theorem forge_challenges (env : Env F G1) (dig : List UInt8 → List UInt8) (g : G1) (s : F) (cc : CompiledCircuit F)
    (w : F) (a b c z tLo tMid tHi : F[X]) (m : ℕ) :
    let p := forge env dig g s cc w a b c z tLo tMid tHi m
    (p.challenges env dig g).ev = fZeta env dig g s a b c z tLo tMid tHi ∧
    (p.challenges env dig g).beta = fBeta env dig g s a b c 0 ∧
    (p.challenges env dig g).gamma = fBeta env dig g s a b c 1 ∧
    (p.challenges env dig g).alpha = fAlpha env dig g s a b c z ∧
    (p.challenges env dig g).u = p.u := ⟨rfl, rfl, rfl, rfl, rfl⟩

/-- The forged proof is accepted exactly for the public-input polynomials with one particular value at `ζ`. -/
theorem forge_verify (env : Env F G1) (dig : List UInt8 → List UInt8) (hdig : ∀ x, 8 ≤ (dig x).length)
    (P : PairingGroups F G1 G2 GT) (s : F) (n : ℕ) (cc : CompiledCircuit F) (q : DP F)
    (hwf : ({ cc with gate := { cc.gate with pix := q } } : CompiledCircuit F).WellFormed) (hn : cc.size ≤ n + 3)
    (d : Domain F) (hd : Domain.new? cc.size = some d) (a b c z tLo tMid tHi : F[X]) (m : ℕ)
    (hζ : fZeta env dig P.g1 s a b c z tLo tMid tHi ≠ 1)
    (hq : Ark.eval q (fZeta env dig P.g1 s a b c z tLo tMid tHi) =
      Ark.eval cc.gate.pix (fZeta env dig P.g1 s a b c z tLo tMid tHi) -
      (linCheck cc (fBeta env dig P.g1 s a b c 0) (fBeta env dig P.g1 s a b c 1) (fAlpha env dig P.g1 s a b c z)
        (fZeta env dig P.g1 s a b c z tLo tMid tHi)
        (fBar cc d.gen a b c z (fZeta env dig P.g1 s a b c z tLo tMid tHi)) z tLo tMid tHi m).eval
          (fZeta env dig P.g1 s a b c z tLo tMid tHi)) :
    verify env dig P { cc with gate := { cc.gate with pix := q } } (Srs.newFromSecret P s n)
      (forge env dig P.g1 s cc d.gen a b c z tLo tMid tHi m) = some (.ok ()) := by
  obtain ⟨hv, -⟩ := Domain.new?_valid hd
  have hs : d.size = cc.size := WellFormed.size_eq hwf hd
  obtain ⟨-, hver⟩ := C53_verify env dig hdig P s n { cc with gate := { cc.gate with pix := q } } hwf hn d hd
    (forge env dig P.g1 s cc d.gen a b c z tLo tMid tHi m)
  rw [hver]
  refine ⟨rfl, hζ, ?_⟩
  refine (openingEquation_alg (cc := { cc with gate := { cc.gate with pix := q } }) hv hs P s a b c z tLo tMid tHi
    _ _ _ _ m _ hζ).2 ?_
  obtain ⟨e1, e2, e3, e4, -⟩ := forge_challenges env dig P.g1 s cc d.gen a b c z tLo tMid tHi m
  rw [e1, e2, e3, e4]
  set ζ := fZeta env dig P.g1 s a b c z tLo tMid tHi with hζdef
  set β := fBeta env dig P.g1 s a b c 0
  set γ := fBeta env dig P.g1 s a b c 1
  set α := fAlpha env dig P.g1 s a b c z
  have hv' : (Proof.challenges env dig P.g1 (forge env dig P.g1 s cc d.gen a b c z tLo tMid tHi m)).v =
    challengeAfter env dig [a.eval s • P.g1, b.eval s • P.g1, c.eval s • P.g1, z.eval s • P.g1, tLo.eval s • P.g1,
      tMid.eval s • P.g1, tHi.eval s • P.g1, (fBar cc d.gen a b c z ζ).a • P.g1, (fBar cc d.gen a b c z ζ).b • P.g1,
      (fBar cc d.gen a b c z ζ).c • P.g1, (fBar cc d.gen a b c z ζ).s1 • P.g1, (fBar cc d.gen a b c z ζ).s2 • P.g1,
      (fBar cc d.gen a b c z ζ).zw • P.g1] 0 := rfl
  rw [hv']
  set v := challengeAfter env dig _ 0
  unfold openA openB
  rw [linCheck_pix, hq, mul_divX, mul_divX]
  have hbar : ∀ (k : Bars F), k = fBar cc d.gen a b c z ζ → (fOpen cc a b c z tLo tMid tHi m β γ α ζ v k).eval ζ =
      (linCheck cc β γ α ζ k z tLo tMid tHi m).eval ζ := by
    rintro k rfl
    unfold fOpen fBar
    simp
  rw [hbar _ rfl]
  unfold fOpen
  have hzw : (fBar cc d.gen a b c z ζ).zw = z.eval (ζ * d.gen) := rfl
  rw [hzw]
  simp only [eval_add, eval_sub, eval_mul, eval_C, eval_pow]
  ring

/-- **C74** is false: whatever polynomials `a b c z tLo tMid tHi` a prover commits to, the proof `forge`, which does not
depend on the public inputs, is accepted for the circuit in which the public input of the `j`-th call is replaced
by a suitable value `π`, unless the evaluation challenge is an element of the domain. -/
theorem C74_public_input_forgery (env : Env F G1) (dig : List UInt8 → List UInt8) (hdig : ∀ x, 8 ≤ (dig x).length)
    (P : PairingGroups F G1 G2 GT) (s : F) (n : ℕ) (calls : List (GateCall F)) (cc : CompiledCircuit F)
    (hc : (build calls).compile = some cc) (hn : cc.size ≤ n + 3) (d : Domain F) (hd : Domain.new? cc.size = some d)
    (j : ℕ) (hj : j < calls.length) (a b c z tLo tMid tHi : F[X]) (m : ℕ)
    (hζ : fZeta env dig P.g1 s a b c z tLo tMid tHi ^ cc.size ≠ 1) :
    ∃ (π : F) (cc' : CompiledCircuit F), (build (setPi calls j π)).compile = some cc' ∧
      verify env dig P cc' (Srs.newFromSecret P s n) (forge env dig P.g1 s cc d.gen a b c z tLo tMid tHi m) =
        some (.ok ()) := by
  obtain ⟨hv, -⟩ := Domain.new?_valid hd
  have hwf := compile_wellFormed calls cc hc
  have hs : d.size = cc.size := WellFormed.size_eq hwf hd
  have hle : calls.length ≤ cc.size := (compile_some calls cc hc).choose_spec.2.2.2.2.1
  set ζ := fZeta env dig P.g1 s a b c z tLo tMid tHi with hζd
  have hlag : lag d j ζ ≠ 0 := lag_ne_zero hv (by omega) (by rw [hs]; exact hζ)
  set e := (linCheck cc (fBeta env dig P.g1 s a b c 0) (fBeta env dig P.g1 s a b c 1) (fAlpha env dig P.g1 s a b c z) ζ
    (fBar cc d.gen a b c z ζ) z tLo tMid tHi m).eval ζ with he
  obtain ⟨cc', hc', heq, hpix⟩ := compile_setPi hc hd (List.getElem?_eq_getElem hj) (calls[j].pi + e / lag d j ζ)
  refine ⟨_, cc', hc', ?_⟩
  have hwf' := compile_wellFormed _ cc' hc'
  have h1 : ζ ≠ 1 := by rintro h; rw [h, one_pow] at hζ; exact hζ rfl
  rw [heq] at hwf' ⊢
  refine forge_verify env dig hdig P s n cc cc'.gate.pix hwf' hn d hd a b c z tLo tMid tHi m h1 ?_
  rw [← hζd, hpix, ← he]
  field_simp
  ring

/-- The forger as an algebraic prover: none of its polynomials depends on the secret of the SRS. -/
noncomputable def forger (cc : CompiledCircuit F) (w : F) (a b c z tLo tMid tHi : F[X]) (m : ℕ) : AlgProver F where
  a := a
  b := b
  c := c
  z := fun _ _ => z
  tLo := fun _ _ _ => tLo
  tMid := fun _ _ _ => tMid
  tHi := fun _ _ _ => tHi
  bar := fun _ _ _ ζ => fBar cc w a b c z ζ
  W := fun β γ α ζ v => fOpen cc a b c z tLo tMid tHi m β γ α ζ v (fBar cc w a b c z ζ) /ₘ (X - C ζ)
  W' := fun _ _ _ ζ _ => z /ₘ (X - C (ζ * w))
  u := fun _ _ _ _ _ u => u
  degree := fun _ _ _ _ _ _ => m

/-- **C74** is false, the forger is algebraic: it needs no more than the SRS, its polynomials fit into it, and
the proof `forge` consists of the messages it sends for the challenges derived from the proof.  So C73 cannot be
extended to provers that choose the public inputs. -/
theorem C74_forger_algebraic (env : Env F G1) (dig : List UInt8 → List UInt8) (g : G1) (s : F) (n : ℕ)
    (cc : CompiledCircuit F) (hwf : cc.WellFormed) (hn : cc.size ≤ n + 3) (w : F) (a b c z tLo tMid tHi : F[X]) (m : ℕ)
    (ha : a.natDegree < n + 3) (hb : b.natDegree < n + 3) (hc : c.natDegree < n + 3) (hz : z.natDegree < n + 3)
    (hl : tLo.natDegree < n + 3) (hm : tMid.natDegree < n + 3) (hh : tHi.natDegree < n + 3) :
    (forger cc w a b c z tLo tMid tHi m).Bounded (n + 3) (m + 1) ∧
    ∃ β γ α ζ v u, (forge env dig g s cc w a b c z tLo tMid tHi m).challenges env dig g =
        { alpha := α, beta := β, gamma := γ, ev := ζ, v := v, u := u } ∧
      forge env dig g s cc w a b c z tLo tMid tHi m =
        (let A := forger cc w a b c z tLo tMid tHi m
         algProof g s A.a A.b A.c (A.z β γ) (A.tLo β γ α) (A.tMid β γ α) (A.tHi β γ α) (A.W β γ α ζ v) (A.W' β γ α ζ v)
          (A.bar β γ α ζ) (A.u β γ α ζ v u) (A.degree β γ α ζ v u)) := by
  constructor
  · have hp : ∀ p ∈ cc.polys, (toPoly p).natDegree ≤ n + 2 := fun p hp => by
      have := natDegree_lt_of_length ((hwf.len p hp).trans hn) (by omega)
      omega
    have hC : ∀ x : F, (C x : F[X]).natDegree ≤ n + 2 := fun x => by rw [natDegree_C]; omega
    have q7 := hp cc.copy.s1 (by simp [CompiledCircuit.polys])
    have q8 := hp cc.copy.s2 (by simp [CompiledCircuit.polys])
    have kk : ∀ (x : F) {p : F[X]}, p.natDegree ≤ n + 2 → (C x * p).natDegree ≤ n + 2 := fun x _ h =>
      natDegree_C_mul_le' x h
    have hsub : ∀ {p : F[X]} (x : F), p.natDegree ≤ n + 2 → (p - C x).natDegree ≤ n + 2 := fun x h =>
      natDegree_sub_le_of_le' h (hC x)
    have hlin : ∀ β γ α ζ bar, (linCheck cc β γ α ζ bar z tLo tMid tHi m).natDegree ≤ n + 2 := by
      intro β γ α ζ bar
      have q1 := hp cc.gate.qmx (by simp [CompiledCircuit.polys])
      have q2 := hp cc.gate.qlx (by simp [CompiledCircuit.polys])
      have q3 := hp cc.gate.qrx (by simp [CompiledCircuit.polys])
      have q4 := hp cc.gate.qox (by simp [CompiledCircuit.polys])
      have q5 := hp cc.gate.qcx (by simp [CompiledCircuit.polys])
      have q9 := hp cc.copy.s3 (by simp [CompiledCircuit.polys])
      unfold linCheck
      refine natDegree_add_le_of_le' (natDegree_sub_le_of_le' (natDegree_sub_le_of_le' (natDegree_add_le_of_le' ?_
        (kk _ (by omega))) (kk _ q9)) (kk _ (natDegree_add_le_of_le' (natDegree_add_le_of_le' (by omega)
          (kk _ (by omega))) (kk _ (by omega))))) (hC _)
      exact natDegree_add_le_of_le' (natDegree_add_le_of_le' (natDegree_add_le_of_le' (natDegree_add_le_of_le' (kk _ q1)
        (kk _ q2)) (kk _ q3)) (kk _ q4)) q5
    refine ⟨ha, hb, hc, fun _ _ => hz, fun _ _ _ => ⟨hl, hm, hh⟩, fun β γ α ζ v => ⟨?_, ?_⟩, fun _ _ _ _ _ _ => by
      simp [forger]⟩
    · have : (fOpen cc a b c z tLo tMid tHi m β γ α ζ v (fBar cc w a b c z ζ)).natDegree ≤ n + 2 := by
        unfold fOpen
        exact natDegree_add_le_of_le' (natDegree_add_le_of_le' (natDegree_add_le_of_le' (natDegree_add_le_of_le'
          (natDegree_add_le_of_le' (hlin _ _ _ _ _) (kk _ (hsub _ (by omega)))) (kk _ (hsub _ (by omega))))
          (kk _ (hsub _ (by omega)))) (kk _ (hsub _ q7))) (kk _ (hsub _ q8))
      have h2 := natDegree_divByMonic (fOpen cc a b c z tLo tMid tHi m β γ α ζ v (fBar cc w a b c z ζ)) (monic_X_sub_C ζ)
      show (_ /ₘ _).natDegree < _
      omega
    · have h2 := natDegree_divByMonic z (monic_X_sub_C (ζ * w))
      show (_ /ₘ _).natDegree < _
      omega
  · exact ⟨_, _, _, _, _, _, rfl, rfl⟩

/-- **C74** is false, accepted false statements: if at most one value of the public input of the `j`-th call makes the
circuit satisfiable, then there are a public input for which the circuit is not satisfiable and
a proof accepted for it (unless the evaluation challenge, drawn from commitments to constants, is 0 or an element of
the domain). -/
theorem C74_false_statement_accepted (env : Env F G1) (dig : List UInt8 → List UInt8) (hdig : ∀ x, 8 ≤ (dig x).length)
    (P : PairingGroups F G1 G2 GT) (s : F) (n : ℕ) (calls : List (GateCall F)) (cc : CompiledCircuit F)
    (hc : (build calls).compile = some cc) (hn : cc.size ≤ n + 3) (j : ℕ) (hj : j < calls.length)
    (huniq : ∀ π π' : F, Satisfiable cc.size (setPi calls j π) → Satisfiable cc.size (setPi calls j π') → π = π')
    (hζ : challengeAfter env dig [(0 : G1), 0, 0, 0, 0, P.g1, 0] 0 ^ cc.size ≠ 1)
    (hζ0 : challengeAfter env dig [(0 : G1), 0, 0, 0, 0, P.g1, 0] 0 ≠ 0) :
    ∃ (π : F) (cc' : CompiledCircuit F) (p : Proof F G1), (build (setPi calls j π)).compile = some cc' ∧
      ¬ Satisfiable cc'.size (setPi calls j π) ∧
      verify env dig P cc' (Srs.newFromSecret P s n) p = some (.ok ()) := by
  obtain ⟨d, hd, hv, hs, -, hle, -, -⟩ := compile_some calls cc hc
  have hwf := compile_wellFormed calls cc hc
  have hz : fZeta env dig P.g1 s (0 : F[X]) 0 0 0 0 1 0 = challengeAfter env dig [(0 : G1), 0, 0, 0, 0, P.g1, 0] 0 := by
    unfold fZeta
    simp
  rw [← hz] at hζ hζ0
  set ζ := fZeta env dig P.g1 s (0 : F[X]) 0 0 0 0 1 0 with hζd
  have h1 : ζ ≠ 1 := by rintro h; rw [h, one_pow] at hζ; exact hζ rfl
  have hlag : lag d j ζ ≠ 0 := lag_ne_zero hv (by omega) (by rw [hs]; exact hζ)
  set e : ℕ → F := fun m => (linCheck cc (fBeta env dig P.g1 s (0 : F[X]) 0 0 0) (fBeta env dig P.g1 s (0 : F[X]) 0 0 1)
    (fAlpha env dig P.g1 s (0 : F[X]) 0 0 0) ζ (fBar cc d.gen 0 0 0 0 ζ) 0 0 1 0 m).eval ζ with he
  have hacc : ∀ m, ∃ cc', (build (setPi calls j (calls[j].pi + e m / lag d j ζ))).compile = some cc' ∧
      cc'.size = cc.size ∧ verify env dig P cc' (Srs.newFromSecret P s n)
        (forge env dig P.g1 s cc d.gen 0 0 0 0 0 1 0 m) = some (.ok ()) := by
    intro m
    obtain ⟨cc', hc', heq, hpix⟩ := compile_setPi hc hd (List.getElem?_eq_getElem hj) (calls[j].pi + e m / lag d j ζ)
    have hwf' := compile_wellFormed _ cc' hc'
    refine ⟨cc', hc', by rw [heq], ?_⟩
    rw [heq] at hwf' ⊢
    refine forge_verify env dig hdig P s n cc cc'.gate.pix hwf' hn d hd 0 0 0 0 0 1 0 m h1 ?_
    rw [← hζd, hpix]
    simp only [he]
    field_simp
    ring
  by_cases h0 : Satisfiable cc.size (setPi calls j (calls[j].pi + e 0 / lag d j ζ))
  · obtain ⟨cc', hc', hsz, hver⟩ := hacc 1
    refine ⟨_, cc', _, hc', ?_, hver⟩
    rw [hsz]
    intro h2
    have h3 := huniq _ _ h0 h2
    have h4 : e 0 = e 1 := by
      have : e 0 / lag d j ζ = e 1 / lag d j ζ := by linear_combination h3
      field_simp at this
      exact this
    simp only [he, linCheck] at h4
    simp only [eval_add, eval_sub, eval_mul, eval_C, eval_pow, eval_one, eval_zero] at h4
    have h5 : (ζ ^ cc.size - 1) * (ζ * (ζ - 1)) = 0 := by linear_combination h4
    rcases mul_eq_zero.1 h5 with h6 | h6
    · exact hζ (by linear_combination h6)
    · rcases mul_eq_zero.1 h6 with h7 | h7
      · exact hζ0 h7
      · exact h1 (by linear_combination h7)
  · obtain ⟨cc', hc', hsz, hver⟩ := hacc 0
    exact ⟨_, cc', _, hc', by rw [hsz]; exact h0, hver⟩

end

section bls
variable {G1 G2 GT : Type} [AddCommGroup G1] [Module BlsFr G1] [AddCommGroup G2] [Module BlsFr G2]
  [AddCommGroup GT] [Module BlsFr GT] [DecidableEq GT]

/-- **C74**, the part that holds: if the public input `π` is fixed before the first challenge is drawn and the circuit
with this public input is not satisfiable, then algebraic provers are rejected outside small sets of challenges.
(Missing, and false: provers that choose `π` later.) -/
theorem C74_fixed_public_input_partial (calls : List (GateCall BlsFr)) (j : ℕ) (π : BlsFr) (cc' : CompiledCircuit BlsFr)
    (hc : (build (setPi calls j π)).compile = some cc') (n M : ℕ) (hn : cc'.size ≤ n + 3)
    (hunsat : ¬ Satisfiable cc'.size (setPi calls j π)) (a b c : BlsFr[X]) (ha : a.natDegree < n + 3)
    (hb : b.natDegree < n + 3) (hcd : c.natDegree < n + 3) : RejectsAlgebraic G1 G2 GT n M cc' a b c :=
  C73_unsatisfiable (setPi calls j π) cc' hc n M hn hunsat a b c ha hb hcd

end bls

/-- Non-vacuity of C74: the public input of the second constant gate of `unsatCalls` is determined by the
connection of the two gates, and the evaluation challenge of a concrete transcript is neither 0 nor in the domain. -/
example : ∃ cc, (build unsatCalls).compile = some cc ∧ cc.size ≤ 0 + 3 ∧ 1 < unsatCalls.length ∧
    (∀ π π' : BlsFr, Satisfiable cc.size (setPi unsatCalls 1 π) → Satisfiable cc.size (setPi unsatCalls 1 π') → π = π') ∧
    challengeAfter exEnv exDigest [(0 : BlsFr), 0, 0, 0, 0, (trivialGroups BlsFr).g1, 0] 0 ^ cc.size ≠ 1 ∧
    challengeAfter exEnv exDigest [(0 : BlsFr), 0, 0, 0, 0, (trivialGroups BlsFr).g1, 0] 0 ≠ 0 := by
  obtain ⟨cc, h, hs⟩ := two_calls_compile unsatCalls rfl (by
    intro call hc
    simp only [unsatCalls, List.mem_cons, List.not_mem_nil, or_false] at hc
    rcases hc with rfl | rfl <;> simp [ValidPos])
  have key : ∀ π : BlsFr, Satisfiable cc.size (setPi unsatCalls 1 π) → π = -2 := by
    rintro π ⟨val, hrel, hcopy⟩
    have h0 : val 0 0 - 3 = 0 := hrel 0 _ rfl
    have h1 : val 0 1 - 5 = π := hrel 1 _ rfl
    have h2 : val 0 0 = val 0 1 := hcopy 0 (by omega) 0 (by omega)
    linear_combination h0 - h1 - h2
  refine ⟨cc, h, by omega, by decide, fun π π' h1 h2 => by rw [key π h1, key π' h2], ?_, ?_⟩
  · rw [hs]; decide +kernel
  · decide +kernel

end Verif.Plonk

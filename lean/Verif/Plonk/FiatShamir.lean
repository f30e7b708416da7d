import Verif.Oracle
import Verif.Plonk.AlgSoundness

/-!
# C107: provers that try many transcripts

C73 speaks about one run of the protocol.  A prover of the non-interactive protocol can compute the challenges of as many
partial transcripts as it likes and send the proof that suits it.  Here the generator of `plonk/src/challenge.rs` (a
function of the 64-bit seed) is a function of which the prover knows only the values it has asked for, and the statement
counts the functions for which an algebraic prover that asks `n` times succeeds.
-/

set_option linter.constructorNameAsVariable false
set_option linter.unusedSectionVars false
set_option linter.unusedSimpArgs false
set_option linter.unusedVariables false

namespace Verif.Plonk

open Verif.Ark Verif.Kzg Verif.Oracle Polynomial

/-! ## Specification -/

/-- The messages of an algebraic prover.  `probe x` is no message of the protocol: it lets a prover evaluate the
generator at a seed of its choice. -/
inductive Msg (F : Type) [Field F] where
  /-- the wire polynomials; the challenges `β, γ` follow -/
  | wires (a b c : F[X])
  /-- the accumulator; `α` follows -/
  | acc (z : F[X])
  /-- the slices of the quotient; `ζ` follows -/
  | quot (tLo tMid tHi : F[X])
  /-- the claimed evaluations; `v` follows -/
  | evals (bar : Bars F)
  /-- the opening polynomials; `u` follows -/
  | openings (W W' : F[X])
  /-- any seed -/
  | probe (x : Fin (2 ^ 64))

/-- The points fed into the transcript for a message, for the secret `s` and the generator `g`
(`plonk/src/prover.rs` lines 99-101, 133, 156-158, 183-188, 270-271; the verifier feeds the same points,
`plonk/src/verifier.rs` lines 190-217). -/
noncomputable def Msg.points {F G1 : Type} [Field F] [AddCommGroup G1] [Module F G1] (g : G1) (s : F) : Msg F → List G1
  | .wires a b c => [a.eval s • g, b.eval s • g, c.eval s • g]
  | .acc z => [z.eval s • g]
  | .quot tLo tMid tHi => [tLo.eval s • g, tMid.eval s • g, tHi.eval s • g]
  | .evals bar => [bar.a • g, bar.b • g, bar.c • g, bar.s1 • g, bar.s2 • g, bar.zw • g]
  | .openings W W' => [W.eval s • g, W'.eval s • g]
  | .probe _ => []

/-- The seed of the generator after the messages: the first eight bytes of the digest of all points
(`plonk/src/challenge.rs` lines 44-88). -/
noncomputable def seedOf {F G1 : Type} [Field F] [AddCommGroup G1] [Module F G1] (env : Env F G1)
    (dig : List UInt8 → List UInt8) (g : G1) (s : F) : List (Msg F) → Fin (2 ^ 64)
  | [.probe x] => x
  | ms => ⟨fromLeBytes ((digestChain env dig (ms.flatMap (Msg.points g s))).take 8), seed_lt _⟩

/-- The environment with the generator `G`: the first two field elements drawn after seeding. -/
def withGen {F G1 : Type} [Field F] (env : Env F G1) (G : Fin (2 ^ 64) → F × F) : Env F G1 :=
  { env with rand := fun x i => if h : x < 2 ^ 64 then (if i = 0 then (G ⟨x, h⟩).1 else (G ⟨x, h⟩).2) else 0 }

/-- What an algebraic prover returns: all polynomials and values of a proof. -/
structure AlgOutput (F : Type) [Field F] where
  /-- wire polynomial -/
  a : F[X]
  /-- wire polynomial -/
  b : F[X]
  /-- wire polynomial -/
  c : F[X]
  /-- accumulator -/
  z : F[X]
  /-- low slice -/
  tLo : F[X]
  /-- middle slice -/
  tMid : F[X]
  /-- high slice -/
  tHi : F[X]
  /-- claimed evaluations -/
  bar : Bars F
  /-- opening at `ζ` -/
  W : F[X]
  /-- opening at `ζ·w` -/
  W' : F[X]
  /-- claimed challenge `u` -/
  u : F
  /-- slice degree -/
  degree : ℕ

/-- The messages of the output. -/
def AlgOutput.msgs {F : Type} [Field F] (o : AlgOutput F) : List (Msg F) :=
  [.wires o.a o.b o.c, .acc o.z, .quot o.tLo o.tMid o.tHi, .evals o.bar, .openings o.W o.W']

/-- The proof sent. -/
noncomputable def AlgOutput.proof {F G1 : Type} [Field F] [AddCommGroup G1] [Module F G1] (o : AlgOutput F) (g : G1) (s : F) :
    Proof F G1 :=
  algProof g s o.a o.b o.c o.z o.tLo o.tMid o.tHi o.W o.W' o.bar o.u o.degree

/-- The polynomials fit into an SRS with `N` powers of the secret, the slice degree is below `M`. -/
def AlgOutput.Bounded {F : Type} [Field F] (o : AlgOutput F) (N M : ℕ) : Prop :=
  (o.a.natDegree < N ∧ o.b.natDegree < N ∧ o.c.natDegree < N) ∧ o.z.natDegree < N ∧
  (o.tLo.natDegree < N ∧ o.tMid.natDegree < N ∧ o.tHi.natDegree < N) ∧ (o.W.natDegree < N ∧ o.W'.natDegree < N) ∧
  o.degree < M

/-- The wire polynomials violate a gate of the circuit or a connection of the wiring `σ`. -/
def Violates {F : Type} [FftField F] [DecidableEq F] (cc : CompiledCircuit F) (w : F)
    (σ : Fin 3 × Fin cc.size → Fin 3 × Fin cc.size) (a b c : F[X]) : Prop :=
  (∃ i < cc.size, ¬ GateEq cc w i (a.eval (w ^ i)) (b.eval (w ^ i)) (c.eval (w ^ i))) ∨
    ∃ p : Fin 3 × Fin cc.size, polyVal a b c w p.1 p.2 ≠ polyVal a b c w (σ p).1 (σ p).2

/-- The prover has broken the SRS: the polynomial `f`, which it can compute from its output and the challenges, is not zero,
of degree at most `N`, and vanishes at the secret. -/
def BreaksSrs {F : Type} [Field F] (N : ℕ) (s : F) (f : F[X]) : Prop := f ≠ 0 ∧ f.natDegree ≤ N ∧ f.eval s = 0

/-- The polynomial whose commitment the two sides of the opening equation compare, for the output of the prover and the
challenges `k`. -/
noncomputable def AlgOutput.relation {F : Type} [FftField F] [DecidableEq F] (o : AlgOutput F) (cc : CompiledCircuit F) (w : F)
    (k : Challenges F) : F[X] :=
  openA cc k.beta k.gamma k.alpha k.ev k.v o.bar o.a o.b o.c o.z o.tLo o.tMid o.tHi o.W o.degree +
    C k.u * openB w k.ev o.bar o.z o.W'

/-! ## Doomed states -/

section
variable {F : Type} [FftField F] [DecidableEq F]

/-- The states of the protocol from which a prover with violated wires is not accepted, round by round. -/
def Doomed (cc : CompiledCircuit F) (w : F) (N M : ℕ) (V : F[X] → F[X] → F[X] → Prop) :
    List (Msg F) → List (F × F) → Prop
  | [.wires a b c], [x] => V a b c → ∀ z : F[X], ¬ ∀ i < cc.size,
      (gatePoly cc a b c).eval (w ^ i) = 0 ∧
      (numPoly cc x.1 x.2 a b c * z - denPoly cc x.1 x.2 a b c * z.comp (C w * X)).eval (w ^ i) = 0 ∧
      ((z - 1) * L1 cc.size : F[X]).eval (w ^ i) = 0
  | [.wires a b c, .acc z], [x, y] => V a b c → z.natDegree < N →
      ¬ (X ^ cc.size - 1 : F[X]) ∣ quotNum cc cc.size w x.1 x.2 y.1 a b c z
  | [.wires a b c, .acc z, .quot tLo tMid tHi], [x, y, t] => V a b c → z.natDegree < N →
      (tLo.natDegree < N ∧ tMid.natDegree < N ∧ tHi.natDegree < N) → ∀ m < M,
      (quotNum cc cc.size w x.1 x.2 y.1 a b c z).eval t.1 ≠ (t.1 ^ cc.size - 1) * (claimedQuot tLo tMid tHi m).eval t.1
  | [.wires a b c, .acc z, .quot tLo tMid tHi, .evals bar], [x, y, t, v] => V a b c → z.natDegree < N →
      (tLo.natDegree < N ∧ tMid.natDegree < N ∧ tHi.natDegree < N) → ∀ m < M, ∀ W W' : F[X],
      ¬ (openA cc x.1 x.2 y.1 t.1 v.1 bar a b c z tLo tMid tHi W m = 0 ∧ openB w t.1 bar z W' = 0)
  | [.wires a b c, .acc z, .quot tLo tMid tHi, .evals bar, .openings W W'], [x, y, t, v, u] => V a b c →
      z.natDegree < N → (tLo.natDegree < N ∧ tMid.natDegree < N ∧ tHi.natDegree < N) → ∀ m < M,
      openA cc x.1 x.2 y.1 t.1 v.1 bar a b c z tLo tMid tHi W m + C u.1 * openB w t.1 bar z W' ≠ 0
  | _, _ => True

variable [Fintype F]

open Classical in
theorem card_fst_le {k : ℕ} {P : F → Prop} (h : AllBut k P) {Q : F × F → Prop} (hQ : ∀ x, P x.1 → Q x) :
    (Finset.univ.filter fun x : F × F => ¬ Q x).card ≤ k * Fintype.card F := by
  obtain ⟨B, hB, h⟩ := h
  refine le_trans (Finset.card_le_card (t := B ×ˢ Finset.univ) fun x hx => ?_) ?_
  · rw [Finset.mem_filter] at hx
    rw [Finset.mem_product]
    refine ⟨?_, Finset.mem_univ _⟩
    by_contra hn
    exact hx.2 (hQ x (h x.1 hn))
  · rw [Finset.card_product, Finset.card_univ]
    exact Nat.mul_le_mul_right _ hB

open Classical in
theorem card_pair_le {k l : ℕ} {P : F → F → Prop} (h : AllBut k fun x => AllBut l (P x)) {Q : F × F → Prop}
    (hQ : ∀ x, P x.1 x.2 → Q x) :
    (Finset.univ.filter fun x : F × F => ¬ Q x).card ≤ (k + l) * Fintype.card F := by
  obtain ⟨B, hB, h⟩ := h
  choose! Γ hΓ h using h
  refine le_trans (Finset.card_le_card (t := B ×ˢ Finset.univ ∪
    Finset.univ.biUnion fun x : F => (if x ∈ B then ∅ else (Γ x)).image fun y => (x, y)) fun x hx => ?_) ?_
  · rw [Finset.mem_filter] at hx
    rw [Finset.mem_union, Finset.mem_product, Finset.mem_biUnion]
    by_cases hb : x.1 ∈ B
    · exact .inl ⟨hb, Finset.mem_univ _⟩
    · refine .inr ⟨x.1, Finset.mem_univ _, ?_⟩
      rw [if_neg hb, Finset.mem_image]
      refine ⟨x.2, ?_, rfl⟩
      by_contra hn
      exact hx.2 (hQ x (h x.1 hb x.2 hn))
  · refine (Finset.card_union_le _ _).trans ?_
    rw [Finset.card_product, Finset.card_univ, Nat.add_mul]
    refine Nat.add_le_add (Nat.mul_le_mul_right _ hB) (Finset.card_biUnion_le.trans ?_)
    refine (Finset.sum_le_card_nsmul _ _ l fun x _ => ?_).trans ?_
    · refine Finset.card_image_le.trans ?_
      split
      · simp
      · next hx => exact hΓ x hx
    · rw [Finset.card_univ, smul_eq_mul, Nat.mul_comm]

open Classical in
theorem card_true {Q : F × F → Prop} (h : ∀ x, Q x) (k : ℕ) : (Finset.univ.filter fun x : F × F => ¬ Q x).card ≤ k := by
  rw [Finset.filter_eq_empty_iff.2 fun x _ => not_not.2 (h x)]
  simp

/-- The number of dangerous values of the challenge (or challenges) of one round. -/
def roundBound (size N M : ℕ) : ℕ := 6 * size + 2 + M * (4 * N + 2 * M) + 5 * M

open Classical in
theorem doomed_step {cc : CompiledCircuit F} (hwf : cc.WellFormed) {N : ℕ} (hN : cc.size ≤ N) (h1 : 1 ≤ N) (M : ℕ)
    {d : Domain F} (hd : Domain.new? cc.size = some d) (σ : Fin 3 × Fin cc.size → Fin 3 × Fin cc.size)
    (hσ : Wiring cc d.gen σ) (hlab : LabelsDistinct cc.size cc d.gen) (ms : List (Msg F)) (as : List (F × F)) (m : Msg F)
    (hlen : ms.length = as.length)
    (hD : Doomed cc d.gen N M (fun a b c => (a.natDegree < N ∧ b.natDegree < N ∧ c.natDegree < N) ∧
      Violates cc d.gen σ a b c) ms as) :
    (Finset.univ.filter fun x => ¬ Doomed cc d.gen N M (fun a b c => (a.natDegree < N ∧ b.natDegree < N ∧
      c.natDegree < N) ∧ Violates cc d.gen σ a b c) (ms ++ [m]) (as ++ [x])).card ≤
      roundBound cc.size N M * Fintype.card F := by
  obtain ⟨hv, -⟩ := Domain.new?_valid hd
  have hs := WellFormed.size_eq hwf hd
  have up : ∀ {j k : ℕ}, j ≤ k * Fintype.card F → k ≤ roundBound cc.size N M →
      j ≤ roundBound cc.size N M * Fintype.card F := fun h h' => h.trans (Nat.mul_le_mul_right _ h')
  rcases ms with _ | ⟨m1, ms⟩
  · obtain rfl : as = [] := List.length_eq_zero_iff.1 hlen.symm
    cases m with
    | wires a b c =>
      by_cases hV : (a.natDegree < N ∧ b.natDegree < N ∧ c.natDegree < N) ∧ Violates cc d.gen σ a b c
      · rcases hV.2 with ⟨i, hi, hg⟩ | ⟨p0, hp0⟩
        · refine card_true (fun x _ z hall => hg ?_) _
          rw [← hs] at hall
          exact (constraints_of_vanish hv cc x.1 x.2 a b c z hall).1 i (by rw [hs]; exact hi)
        · obtain ⟨B, hB, h⟩ := grand_product_counting (fun q : Fin 3 × Fin cc.size => polyVal a b c d.gen q.1 q.2)
            (fun q => posLabel cc d.gen q.1 q.2) hlab σ p0 hp0
          rw [Fintype.card_prod, Fintype.card_fin, Fintype.card_fin] at hB h
          refine up (card_pair_le (k := 3 * cc.size) (l := 3 * cc.size)
            (P := fun β γ => ∀ z : F[X], ¬ ∀ i < cc.size,
              (gatePoly cc a b c).eval (d.gen ^ i) = 0 ∧
              (numPoly cc β γ a b c * z - denPoly cc β γ a b c * z.comp (C d.gen * X)).eval (d.gen ^ i) = 0 ∧
              ((z - 1) * L1 cc.size : F[X]).eval (d.gen ^ i) = 0) ⟨B, hB, fun β hβ => ?_⟩ fun x hx _ => hx) (by
              unfold roundBound; omega)
          obtain ⟨Γ, hΓ, hh⟩ := h β hβ
          refine ⟨Γ, hΓ, fun γ hγ z hall => hγ (hh γ ?_)⟩
          rw [← hs] at hall
          have := (constraints_of_vanish hv cc β γ a b c z hall).2.2
          rw [hs] at this
          rw [this]
          refine Finset.prod_congr rfl fun q _ => ?_
          rw [hσ q]
      · exact card_true (fun x h => absurd h hV) _
    | acc z => exact card_true (fun x => trivial) _
    | quot tLo tMid tHi => exact card_true (fun x => trivial) _
    | evals bar => exact card_true (fun x => trivial) _
    | openings W W' => exact card_true (fun x => trivial) _
    | probe x => exact card_true (fun x => trivial) _
  rcases as with _ | ⟨x, as⟩
  · simp at hlen
  rcases ms with _ | ⟨m2, ms⟩
  · obtain rfl : as = [] := List.length_eq_zero_iff.1 (by simpa using hlen.symm)
    cases m1 with
    | wires a b c =>
      cases m with
      | acc z =>
        by_cases hV : (a.natDegree < N ∧ b.natDegree < N ∧ c.natDegree < N) ∧ Violates cc d.gen σ a b c
        · have hvan := hD hV z
          rw [← hs] at hvan
          have := alpha_round hv cc x.1 x.2 a b c z hvan
          rw [hs] at this
          exact up (card_fst_le this fun y hy _ _ => hy) (by unfold roundBound; omega)
        · exact card_true (fun x h => absurd h hV) _
      | wires a b c => exact card_true (fun x => trivial) _
      | quot tLo tMid tHi => exact card_true (fun x => trivial) _
      | evals bar => exact card_true (fun x => trivial) _
      | openings W W' => exact card_true (fun x => trivial) _
      | probe x => exact card_true (fun x => trivial) _
    | _ => exact card_true (fun x => trivial) _
  rcases as with _ | ⟨y, as⟩
  · simp at hlen
  rcases ms with _ | ⟨m3, ms⟩
  · obtain rfl : as = [] := List.length_eq_zero_iff.1 (by simpa using hlen.symm)
    cases m1 with
    | wires a b c =>
      cases m2 with
      | acc z =>
        cases m with
        | quot tLo tMid tHi =>
          by_cases hV : ((a.natDegree < N ∧ b.natDegree < N ∧ c.natDegree < N) ∧ Violates cc d.gen σ a b c) ∧
            z.natDegree < N ∧ (tLo.natDegree < N ∧ tMid.natDegree < N ∧ tHi.natDegree < N)
          · obtain ⟨hV, hz, ht⟩ := hV
            have := zeta_round hwf hN h1 d.gen x.1 x.2 y.1 hV.1.1.le hV.1.2.1.le hV.1.2.2.le hz.le ht.1.le ht.2.1.le
              ht.2.2.le M (hD hV hz)
            exact up (card_fst_le this fun t h _ _ _ => h) (by unfold roundBound; omega)
          · exact card_true (fun t h h' h'' => absurd ⟨h, h', h''⟩ hV) _
        | _ => exact card_true (fun x => trivial) _
      | _ => exact card_true (fun x => trivial) _
    | _ => exact card_true (fun x => trivial) _
  rcases as with _ | ⟨t, as⟩
  · simp at hlen
  rcases ms with _ | ⟨m4, ms⟩
  · obtain rfl : as = [] := List.length_eq_zero_iff.1 (by simpa using hlen.symm)
    cases m1 with
    | wires a b c =>
      cases m2 with
      | acc z =>
        cases m3 with
        | quot tLo tMid tHi =>
          cases m with
          | evals bar =>
            by_cases hV : ((a.natDegree < N ∧ b.natDegree < N ∧ c.natDegree < N) ∧ Violates cc d.gen σ a b c) ∧
              z.natDegree < N ∧ (tLo.natDegree < N ∧ tMid.natDegree < N ∧ tHi.natDegree < N)
            · obtain ⟨hV, hz, ht⟩ := hV
              have := v_round cc d.gen x.1 x.2 y.1 t.1 bar a b c z tLo tMid tHi M (hD hV hz ht)
              exact up (card_fst_le this fun v h _ _ _ => h) (by unfold roundBound; omega)
            · exact card_true (fun t h h' h'' => absurd ⟨h, h', h''⟩ hV) _
          | _ => exact card_true (fun x => trivial) _
        | _ => exact card_true (fun x => trivial) _
      | _ => exact card_true (fun x => trivial) _
    | _ => exact card_true (fun x => trivial) _
  rcases as with _ | ⟨v, as⟩
  · simp at hlen
  rcases ms with _ | ⟨m5, ms⟩
  · obtain rfl : as = [] := List.length_eq_zero_iff.1 (by simpa using hlen.symm)
    cases m1 with
    | wires a b c =>
      cases m2 with
      | acc z =>
        cases m3 with
        | quot tLo tMid tHi =>
          cases m4 with
          | evals bar =>
            cases m with
            | openings W W' =>
              by_cases hV : ((a.natDegree < N ∧ b.natDegree < N ∧ c.natDegree < N) ∧ Violates cc d.gen σ a b c) ∧
                z.natDegree < N ∧ (tLo.natDegree < N ∧ tMid.natDegree < N ∧ tHi.natDegree < N)
              · obtain ⟨hV, hz, ht⟩ := hV
                have := u_round (A := fun m => openA cc x.1 x.2 y.1 t.1 v.1 bar a b c z tLo tMid tHi W m)
                  (B := openB d.gen t.1 bar z W') M fun m hm => hD hV hz ht m hm W W'
                exact up (card_fst_le this fun u h _ _ _ => h) (by unfold roundBound; omega)
              · exact card_true (fun t h h' h'' => absurd ⟨h, h', h''⟩ hV) _
            | _ => exact card_true (fun x => trivial) _
          | _ => exact card_true (fun x => trivial) _
        | _ => exact card_true (fun x => trivial) _
      | _ => exact card_true (fun x => trivial) _
    | _ => exact card_true (fun x => trivial) _
  · -- more than five messages
    rcases as with _ | ⟨u, as⟩
    · simp at hlen
    refine card_true (fun x' => ?_) _
    rcases ms with _ | ⟨m6, ms⟩ <;> rcases as with _ | ⟨y', as⟩ <;>
      first
      | (simp at hlen; done)
      | (simp only [List.cons_append, List.nil_append, Doomed])

variable {G1 G2 GT : Type} [AddCommGroup G1] [Module F G1] [AddCommGroup G2] [Module F G2]
  [AddCommGroup GT] [Module F GT] [DecidableEq GT]

/-- The challenges of the proof are the answers of the generator for the messages. -/
theorem challenges_withGen (env : Env F G1) (dig : List UInt8 → List UInt8) (g : G1) (s : F) (G : Fin (2 ^ 64) → F × F)
    (o : AlgOutput F) :
    ∃ x y t v u : F × F, Oracle.challenges (fun l => G (seedOf env dig g s l)) o.msgs = [x, y, t, v, u] ∧
      (o.proof g s).challenges (withGen env G) dig g =
        { beta := x.1, gamma := x.2, alpha := y.1, ev := t.1, v := v.1, u := u.1 } := by
  have hc : ∀ cs i, challengeAfter (withGen env G) dig cs i =
      (if i = 0 then (G ⟨fromLeBytes ((digestChain env dig cs).take 8), seed_lt _⟩).1 else
        (G ⟨fromLeBytes ((digestChain env dig cs).take 8), seed_lt _⟩).2) := by
    intro cs i
    have hd : digestChain (withGen env G) dig cs = digestChain env dig cs := rfl
    unfold challengeAfter
    rw [hd]
    simp only [withGen]
    rw [dif_pos (seed_lt _)]
  refine ⟨_, _, _, _, _, rfl, ?_⟩
  unfold Proof.challenges
  simp only [hc]
  rfl

/-- The prover succeeds with the generator `G`: it returns polynomials within the bounds whose wires violate the circuit,
the verifier accepts the proof, and the prover has neither met two different partial transcripts with the same seed nor
broken the SRS. -/
def Succeeds (env : Env F G1) (dig : List UInt8 → List UInt8) (P : PairingGroups F G1 G2 GT) (s : F) (n M : ℕ)
    (cc : CompiledCircuit F) (w : F) (V : F[X] → F[X] → F[X] → Prop)
    (p : Prover (List (Msg F)) (List (F × F)) (AlgOutput F)) (G : Fin (2 ^ 64) → F × F) : Prop :=
  let ask := fun l => G (seedOf env dig P.g1 s l)
  let o := p.out (Oracle.challenges ask)
  o.Bounded (n + 3) M ∧ V o.a o.b o.c ∧
  verify (withGen env G) dig P cc (Srs.newFromSecret P s n) (o.proof P.g1 s) = some (.ok ()) ∧
  ¬ SeedCollision (seedOf env dig P.g1 s) AlgOutput.msgs ask p ∧
  ¬ BreaksSrs (n + 3) s (o.relation cc w ((o.proof P.g1 s).challenges (withGen env G) dig P.g1))

open Classical in
/-- **C107**: let `cc` be a circuit that fits into the SRS, with wiring map `σ` and distinct position labels.  An algebraic
prover that evaluates the generator at most `q` times (counting the five evaluations of the verifier) succeeds with violated
wires for at most a fraction `q·(6·size + 2 + M(4(n+3) + 2M) + 5M) / |F|` of all generators. -/
theorem C107_fiat_shamir (env : Env F G1) (dig : List UInt8 → List UInt8) (hdig : ∀ x, 8 ≤ (dig x).length)
    (P : PairingGroups F G1 G2 GT) (s : F) (n M : ℕ) (cc : CompiledCircuit F) (hwf : cc.WellFormed)
    (hn : cc.size ≤ n + 3) (d : Domain F) (hd : Domain.new? cc.size = some d)
    (σ : Fin 3 × Fin cc.size → Fin 3 × Fin cc.size) (hσ : Wiring cc d.gen σ) (hlab : LabelsDistinct cc.size cc d.gen)
    (p : Prover (List (Msg F)) (List (F × F)) (AlgOutput F)) (q : ℕ) (hq : Cost AlgOutput.msgs p q) :
    (Finset.univ.filter fun G => Succeeds env dig P s n M cc d.gen (Violates cc d.gen σ) p G).card * Fintype.card F ≤
      q * (6 * cc.size + 2 + M * (4 * (n + 3) + 2 * M) + 5 * M) * (Fintype.card F ^ 2) ^ 2 ^ 64 := by
  obtain ⟨hv, -⟩ := Domain.new?_valid hd
  have hs := WellFormed.size_eq hwf hd
  have hmain := card_escape_le (seedOf env dig P.g1 s) (Doomed cc d.gen (n + 3) M (fun a b c =>
    (a.natDegree < n + 3 ∧ b.natDegree < n + 3 ∧ c.natDegree < n + 3) ∧ Violates cc d.gen σ a b c)) trivial
    (roundBound cc.size (n + 3) M * Fintype.card F)
    (fun ms as m hlen hD => doomed_step hwf hn (by omega) M hd σ hσ hlab ms as m hlen hD) AlgOutput.msgs p q hq
  have hsub : (Finset.univ.filter fun G => Succeeds env dig P s n M cc d.gen (Violates cc d.gen σ) p G).card ≤ _ :=
    Finset.card_le_card (t := Finset.univ.filter fun G : Fin (2 ^ 64) → F × F =>
      ¬ Doomed cc d.gen (n + 3) M (fun a b c =>
        (a.natDegree < n + 3 ∧ b.natDegree < n + 3 ∧ c.natDegree < n + 3) ∧ Violates cc d.gen σ a b c)
        (AlgOutput.msgs (p.out (Oracle.challenges fun l => G (seedOf env dig P.g1 s l))))
        (Oracle.challenges (fun l => G (seedOf env dig P.g1 s l))
          (AlgOutput.msgs (p.out (Oracle.challenges fun l => G (seedOf env dig P.g1 s l))))) ∧
      ¬ SeedCollision (seedOf env dig P.g1 s) AlgOutput.msgs (fun l => G (seedOf env dig P.g1 s l)) p) ?_
  · have hcard : Fintype.card (F × F) = Fintype.card F ^ 2 := by rw [Fintype.card_prod]; ring
    rw [hcard, Fintype.card_fin] at hmain
    have hpos : 0 < Fintype.card F := Fintype.card_pos
    refine Nat.le_of_mul_le_mul_right ?_ hpos
    calc _ = _ * Fintype.card F ^ 2 := by rw [Nat.mul_assoc, pow_two]
      _ ≤ _ := Nat.mul_le_mul_right _ hsub
      _ ≤ _ := hmain
      _ = _ := by unfold roundBound; generalize (Fintype.card F ^ 2) ^ 2 ^ 64 = Y; ring
  · intro G hG
    rw [Finset.mem_filter_univ] at hG ⊢
    obtain ⟨hB, hV, hok, hcol, hsrs⟩ := hG
    refine ⟨fun hD => ?_, hcol⟩
    generalize ho : p.out (Oracle.challenges fun l => G (seedOf env dig P.g1 s l)) = o at hB hV hok hsrs hD
    obtain ⟨x, y, t, v, u, hch, hk⟩ := challenges_withGen env dig P.g1 s G o
    obtain ⟨hw, hz, ht, hW, hdeg⟩ := hB
    rw [hch] at hD
    have hne := hD ⟨hw, hV⟩ hz ht o.degree hdeg
    obtain ⟨-, hver⟩ := C53_verify (withGen env G) dig hdig P s n cc hwf hn d hd (o.proof P.g1 s)
    rw [hver] at hok
    obtain ⟨-, hev, hopen⟩ := hok
    have hroot := (openingEquation_alg hv hs P s o.a o.b o.c o.z o.tLo o.tMid o.tHi o.W o.W' o.bar o.u o.degree _ hev).1
      hopen
    apply hsrs
    refine ⟨?_, ?_, hroot⟩
    · rw [hk]; exact hne
    · rw [hk]
      exact natDegree_open hwf hn (by omega) d.gen _ _ _ _ _ _ o.bar hw.1 hw.2.1 hw.2.2 hz ht.1 ht.2.1 ht.2.2 hW.1 hW.2
        o.degree

end

/-! ## Circuits built with the gate calls -/

section bls
variable {G1 G2 GT : Type} [AddCommGroup G1] [Module BlsFr G1] [AddCommGroup G2] [Module BlsFr G2]
  [AddCommGroup GT] [Module BlsFr GT] [DecidableEq GT]

open Classical in
/-- **C107** for circuits over BLS12-381 `Fr` built with the gate calls: if no wire values satisfy all relations and
connections, an algebraic prover that evaluates the generator at most `q` times is accepted for at most a fraction
`q·(6·size + 2 + M(4(n+3) + 2M) + 5M) / r` of all generators, unless it has broken the SRS or met two partial transcripts
with the same seed. -/
theorem C107_unsatisfiable (env : Env BlsFr G1) (dig : List UInt8 → List UInt8) (hdig : ∀ x, 8 ≤ (dig x).length)
    (P : PairingGroups BlsFr G1 G2 GT) (s : BlsFr) (n M : ℕ) (calls : List (GateCall BlsFr)) (cc : CompiledCircuit BlsFr)
    (hc : (build calls).compile = some cc) (hn : cc.size ≤ n + 3) (hunsat : ¬ Satisfiable cc.size calls) (d : Domain BlsFr)
    (hd : Domain.new? cc.size = some d) (p : Prover (List (Msg BlsFr)) (List (BlsFr × BlsFr)) (AlgOutput BlsFr)) (q : ℕ)
    (hq : Cost AlgOutput.msgs p q) :
    (Finset.univ.filter fun G => Succeeds env dig P s n M cc d.gen (fun _ _ _ => True) p G).card * blsR ≤
      q * (6 * cc.size + 2 + M * (4 * (n + 3) + 2 * M) + 5 * M) * (blsR ^ 2) ^ 2 ^ 64 := by
  obtain ⟨d', hd', hv, hs, -, hle, hval, -⟩ := compile_some calls cc hc
  rw [hd, Option.some.injEq] at hd'
  subst hd'
  have hT : ∀ p : Fin 3 × Fin cc.size, (target calls p.1 p.2).1 < 3 ∧ (target calls p.1 p.2).2 < cc.size := by
    rintro ⟨⟨l, hl⟩, ⟨i, hi⟩⟩
    unfold target
    dsimp only
    cases hci : calls[i]? with
    | none => exact ⟨hl, hi⟩
    | some call =>
      have hm := hval call (List.mem_of_getElem? hci)
      rw [hs] at hm
      obtain ⟨h1, h2, h3⟩ := hm
      dsimp only
      split
      · exact h1
      · exact h2
      · exact h3
  have hcard : Fintype.card BlsFr = blsR := ZMod.card blsR
  have := C107_fiat_shamir env dig hdig P s n M cc (compile_wellFormed calls cc hc) hn d hd
    (fun p => (⟨_, (hT p).1⟩, ⟨_, (hT p).2⟩)) (by
      intro p
      rw [sigmaVal_compiled hc hd p.1.2 p.2.2, posLabel_compiled hc _ (hT p).1])
    (labelsDistinct_bls calls cc hc d hd) p q hq
  rw [hcard] at this
  refine le_trans (Nat.mul_le_mul_right _ (Finset.card_le_card fun G hG => ?_)) this
  rw [Finset.mem_filter_univ] at hG ⊢
  refine ⟨hG.1, ?_, hG.2.2⟩
  generalize p.out (Oracle.challenges fun l => G (seedOf env dig P.g1 s l)) = o
  by_contra hcon
  unfold Violates at hcon
  push Not at hcon
  obtain ⟨hg, hw⟩ := hcon
  obtain ⟨d', hd', hrel⟩ := C45_gate_relation calls cc hc
  rw [hd, Option.some.injEq] at hd'
  subst hd'
  refine hunsat ⟨fun l i => polyVal o.a o.b o.c d.gen l i, fun i call hcall => ?_, fun l hl i hi => ?_⟩
  · have hi : i < cc.size := by
      have := (List.getElem?_eq_some_iff.1 hcall).1
      omega
    have := hg i hi
    unfold GateEq at this
    rw [hrel i hi] at this
    exact this call hcall
  · exact hw (⟨l, hl⟩, ⟨i, hi⟩)

end bls

/-- Non-vacuity of C107: a circuit no wire values satisfy, and a prover that looks at `β` of two candidate wires and at one
more seed before it decides. -/
example : ∃ (cc : CompiledCircuit BlsFr) (d : Domain BlsFr), (build unsatCalls).compile = some cc ∧ cc.size ≤ 0 + 3 ∧ ¬ Satisfiable cc.size unsatCalls ∧
    Domain.new? cc.size = some d ∧ ∃ p : Prover (List (Msg BlsFr)) (List (BlsFr × BlsFr)) (AlgOutput BlsFr),
      Cost AlgOutput.msgs p 8 := by
  obtain ⟨cc, h, hs⟩ := two_calls_compile unsatCalls rfl (by
    intro call hc
    simp only [unsatCalls, List.mem_cons, List.not_mem_nil, or_false] at hc
    rcases hc with rfl | rfl <;> simp [ValidPos])
  obtain ⟨d, hd, -⟩ := compile_some unsatCalls cc h
  let out : BlsFr[X] → AlgOutput BlsFr := fun a =>
    { a := a, b := 0, c := 0, z := 1, tLo := 0, tMid := 0, tHi := 0
      bar := { a := 0, b := 0, c := 0, s1 := 0, s2 := 0, zw := 1 }, W := 0, W' := 0, u := 0, degree := 1 }
  refine ⟨cc, d, h, by omega, ?_, hd, .ask [.wires 3 0 0] fun x => .ask [.wires 5 0 0] fun y => .ask [.probe 7] fun _ =>
    if x = y then .done (out 3) else .done (out 5), ?_⟩
  · rintro ⟨val, hrel, hcopy⟩
    have h0 := hrel 0 _ rfl
    have h1 := hrel 1 _ rfl
    have h2 := hcopy 0 (by omega) 0 (by omega)
    simp only [target, unsatCalls, List.getElem?_cons_zero, GateCall.Relation] at h0 h1 h2
    have h1' : val 0 1 - 5 = 0 := h1
    have : (3 : BlsFr) = 5 := by linear_combination h1' - h0 + h2
    revert this
    decide +kernel
  · simp only [Cost, List.length_singleton]
    refine ⟨by omega, fun x => ⟨by omega, fun y => ⟨by omega, fun _ => ?_⟩⟩⟩
    split <;> simp [Cost, AlgOutput.msgs]

end Verif.Plonk

import Verif.Fri.Robust
import Verif.Fri.Unique

/-!
# C96: altered FRI proofs are rejected

The general form of the repository's test `test_verifier3` (`fri/src/verifier.rs` lines 158-172), which subtracts one
from the constant of one proof: every opening of every accepted proof, and its constant, are protected against
changes; what a change of the coset or of the layer roots does is characterised exactly.
-/

set_option linter.unusedSectionVars false
set_option linter.unusedVariables false

namespace Verif.Fri

open Verif.Ark

variable {F : Type} [FftField F] [DecidableEq F]

/-! ## Specification -/

/-- A complete accepted proof: at least one layer and one query, one decommitment per query, each with one entry per
layer.  The proofs of the prover are complete (`complete_of_honest`). -/
structure CompleteAccepted (env : Env F) (pf : Proof F) : Prop where
  accepted : verify env pf = some (.ok ())
  layers : 0 < pf.layersRoot.length
  queries : 0 < pf.numberOfQueries
  all : pf.decommitmentList.length = pf.numberOfQueries
  shape : ∀ d ∈ pf.decommitmentList, d.Shape pf.layersRoot.length

/-- `verify` returns an error (and does not panic). -/
def Rejected (env : Env F) (pf : Proof F) : Prop := ∃ e, verify env pf = some (.error e)

/-- The proof with decommitment `j` changed by `f`. -/
def Proof.alter (pf : Proof F) (j : ℕ) (f : Decommitment F → Decommitment F) : Proof F :=
  { pf with decommitmentList := pf.decommitmentList.modify j f }

/-! ## Lemmas -/

theorem complete_of_honest (env : Env F) (poly : DP F) (b q : ℕ) (hq : 0 < q) {pf : Proof F}
    (h : generateProof env poly b q = some pf) : CompleteAccepted env pf := by
  obtain ⟨k, -, hle, -, hL, hn, hd, hs⟩ := C23_shape env poly b q h
  refine ⟨C18_completeness env poly b q h, ?_, by omega, by omega, fun d hd => hL ▸ (hs d hd).1⟩
  rw [hL]
  rcases Nat.eq_zero_or_pos k with rfl | hk
  · exfalso
    obtain ⟨fp, hfp⟩ : ∃ fp, foldingPhase env poly (FftField.generator : F) (nextPow2 (poly.length * b))
        (Nat.log 2 (nextPow2 (poly.length * b))) = some fp := by
      unfold generateProof at h
      simp only [Option.bind_eq_bind, Option.bind_eq_some_iff] at h
      obtain ⟨fp, h1, -⟩ := h
      exact ⟨fp, h1⟩
    have : Nat.log 2 (nextPow2 (poly.length * b)) = 0 := by
      rw [pow_zero] at hle
      have : nextPow2 (poly.length * b) = 1 := by
        unfold nextPow2
        rw [Nat.clog_of_right_le_one hle]; rfl
      rw [this]; rfl
    unfold foldingPhase at hfp
    rw [this] at hfp
    simp at hfp
  · exact hk

theorem accepted_domain {env : Env F} {pf : Proof F} (h : verify env pf = some (.ok ()))
    (hq : 0 < pf.numberOfQueries) : pf.domainSize ≠ 0 := by
  obtain ⟨rs, t, t', vs, -, h2, h3, -⟩ := (verify_ok_iff env pf).1 h
  intro h0
  refine h3 ⟨h0, ?_⟩
  have := length_challengeList h2
  intro hv
  rw [hv] at this
  simp at this
  omega

/-- Every layer of every query of a complete accepted proof was checked. -/
theorem CompleteAccepted.layer {env : Env F} {pf : Proof F} (h : CompleteAccepted env pf) {rs : List F}
    {positions : List ℕ} (hder : Derived env pf rs positions) {j : ℕ} {d : Decommitment F}
    (hd : pf.decommitmentList[j]? = some d) {i : ℕ} (hi : i < pf.layersRoot.length) :
    ∃ pos r ev path sev sp, positions[j]? = some pos ∧ rs[i]? = some r ∧ d.evaluations[i]? = some ev ∧
      d.authPaths[i]? = some path ∧ d.symEvaluations[i]? = some sev ∧ d.symAuthPaths[i]? = some sp ∧
      LayerOk env pf.domainSize pf.coset pos i r ev path sev sp ((d.evaluations[i + 1]?).getD pf.constVal) := by
  obtain ⟨rs', positions', hder', hq⟩ := (C20_verify_iff env pf (accepted_domain h.accepted h.queries) h.shape).1 h.accepted
  have e1 : rs' = rs := by rw [hder'.1, hder.1]
  have e2 : positions' = positions := by rw [hder'.2.1, hder.2.1]
  subst e1 e2
  obtain ⟨s1, s2, s3, s4⟩ := h.shape d (List.mem_of_getElem? hd)
  have hj : j < pf.numberOfQueries := h.all ▸ (List.getElem?_eq_some_iff.1 hd).1
  have hrl : rs'.length = pf.layersRoot.length := by rw [hder'.1]; simp
  have hpl : positions'.length = pf.numberOfQueries := by rw [hder'.2.1]; simp
  refine ⟨_, _, _, _, _, _, List.getElem?_eq_getElem (by omega), List.getElem?_eq_getElem (by omega),
    List.getElem?_eq_getElem (by omega), List.getElem?_eq_getElem (by omega), List.getElem?_eq_getElem (by omega),
    List.getElem?_eq_getElem (by omega), ?_⟩
  exact hq j _ d (List.getElem?_eq_getElem (by omega)) hd i _ _ _ _ _ (List.getElem?_eq_getElem (by omega))
    (List.getElem?_eq_getElem (by omega)) (List.getElem?_eq_getElem (by omega)) (List.getElem?_eq_getElem (by omega))
    (List.getElem?_eq_getElem (by omega))

theorem CompleteAccepted.derived {env : Env F} {pf : Proof F} (h : CompleteAccepted env pf) :
    ∃ rs positions, Derived env pf rs positions := by
  obtain ⟨rs', positions', hder', -⟩ := (C20_verify_iff env pf (accepted_domain h.accepted h.queries) h.shape).1 h.accepted
  exact ⟨_, _, hder'⟩

theorem CompleteAccepted.first {env : Env F} {pf : Proof F} (h : CompleteAccepted env pf) :
    ∃ d, pf.decommitmentList[0]? = some d := by
  have := h.all; have := h.queries
  exact ⟨_, List.getElem?_eq_getElem (by omega)⟩

/-- The header of a complete accepted proof is safe. -/
theorem CompleteAccepted.safe {env : Env F} {pf : Proof F} (h : CompleteAccepted env pf) :
    SafeHeader pf.domainSize pf.coset pf.layersRoot.length pf.numberOfQueries := by
  obtain ⟨rs, positions, hder⟩ := h.derived
  obtain ⟨d, hd⟩ := h.first
  obtain ⟨pos, r, ev, path, sev, sp, -, -, -, -, -, -, h0, -, -, -, -, -, -, dom, x, hdom, hx, h2, hx0, -⟩ :=
    h.layer hder hd h.layers
  obtain ⟨_, _, _, _, _, _, -, -, -, -, -, -, hl0, -⟩ :=
    h.layer hder hd (i := pf.layersRoot.length - 1) (by have := h.layers; omega)
  simp only [pow_zero, Nat.div_one, pow_one] at hdom hx h0
  refine Or.inr ⟨h0, Or.inr ⟨?_, h2, ?_, ?_⟩⟩
  · by_contra hlt
    rw [new?_none_of_lt (by omega)] at hdom
    cases hdom
  · intro hc
    apply hx0
    rw [hx, hc, mul_zero]
  · have : 2 ^ (pf.layersRoot.length - 1) ≤ pf.domainSize := by
      by_contra hlt
      exact hl0 (Nat.div_eq_of_lt (by omega))
    have := Nat.le_log_of_pow_le (by norm_num) this
    omega

/-- A proof with the header of a complete accepted proof is rejected unless it is accepted. -/
theorem rejected_of {env : Env F} (hdig : ∀ b, 8 ≤ (env.digest b).length) {pf pf' : Proof F}
    (hs : SafeHeader pf.domainSize pf.coset pf.layersRoot.length pf.numberOfQueries)
    (hh : pf'.HasHeader pf.domainSize pf.coset pf.layersRoot.length pf.numberOfQueries)
    (hno : verify env pf' ≠ some (.ok ())) : Rejected env pf' := by
  have hn := (C80_fri_panic_free_iff env hdig _ _ _ _).2 hs pf' hh
  cases hv : verify env pf' with
  | none => exact absurd hv hn
  | some r =>
    cases r with
    | error e => exact ⟨e, hv⟩
    | ok u => exact absurd hv hno

theorem derived_congr {env : Env F} {pf pf' : Proof F} {rs : List F} {positions : List ℕ}
    (h1 : pf'.layersRoot = pf.layersRoot) (h2 : pf'.constVal = pf.constVal) (h3 : pf'.domainSize = pf.domainSize)
    (h4 : pf'.numberOfQueries = pf.numberOfQueries) (h : Derived env pf rs positions) :
    Derived env pf' rs positions := by
  unfold Derived at *
  rw [h1, h2, h3, h4]
  exact h

/-- If the altered proof were accepted, every layer of the altered decommitment would have been checked against
the position and challenges of the original. -/
theorem alter_layers {env : Env F} {pf : Proof F} (h : CompleteAccepted env pf) {j : ℕ} {d : Decommitment F}
    (hd : pf.decommitmentList[j]? = some d) (f : Decommitment F → Decommitment F)
    (hf : (f d).Shape pf.layersRoot.length) (hok : verify env (pf.alter j f) = some (.ok ())) :
    CompleteAccepted env (pf.alter j f) ∧ (pf.alter j f).decommitmentList[j]? = some (f d) := by
  have hg : (pf.alter j f).decommitmentList[j]? = some (f d) := by
    simp [Proof.alter, hd]
  refine ⟨⟨hok, h.layers, h.queries, by simp [Proof.alter, h.all], ?_⟩, hg⟩
  intro e he
  obtain ⟨n, hn⟩ := List.mem_iff_getElem?.1 he
  by_cases hnj : j = n
  · subst hnj
    rw [hg, Option.some.injEq] at hn
    rw [← hn]; exact hf
  · simp only [Proof.alter, List.getElem?_modify, hnj, if_false, Option.map_eq_map, Option.map_id'] at hn
    exact h.shape e (List.mem_of_getElem? hn)

/-! ## C96: openings -/

/-- **C96** (values): replacing any one of the revealed evaluations of an accepted proof by another value makes it
rejected. -/
theorem C96_fri_evaluation (env : Env F) (hdig : ∀ b, 8 ≤ (env.digest b).length) (pf : Proof F)
    (h : CompleteAccepted env pf) (j i : ℕ) (d : Decommitment F) (hd : pf.decommitmentList[j]? = some d)
    (hi : i < pf.layersRoot.length) (v : F) :
    (d.evaluations[i]? ≠ some v →
      Rejected env (pf.alter j fun d => { d with evaluations := d.evaluations.set i v })) ∧
    (d.symEvaluations[i]? ≠ some v →
      Rejected env (pf.alter j fun d => { d with symEvaluations := d.symEvaluations.set i v })) := by
  obtain ⟨rs, positions, hder⟩ := h.derived
  obtain ⟨pos, r, ev, path, sev, sp, hp, hr, hev, hpath, hsev, hsp, -, -, -, hl1, hl2, -⟩ := h.layer hder hd hi
  have hs := h.shape d (List.mem_of_getElem? hd)
  constructor
  · intro hv
    refine rejected_of hdig h.safe ⟨rfl, rfl, rfl, rfl⟩ fun hok => ?_
    obtain ⟨h', hd'⟩ := alter_layers h hd _ (by simpa [Decommitment.Shape] using hs) hok
    obtain ⟨_, _, ev', path', _, _, -, -, hev', hpath', -, -, -, -, -, hl1', -⟩ :=
      h'.layer (derived_congr rfl rfl rfl rfl hder) hd' hi
    dsimp only at hev' hpath'
    rw [hpath, Option.some.injEq] at hpath'
    rw [List.getElem?_set_self (by have := hs.1; omega), Option.some.injEq] at hev'
    rw [hev', ← hl1', ← hpath', hl1] at hv
    exact hv hev
  · intro hv
    refine rejected_of hdig h.safe ⟨rfl, rfl, rfl, rfl⟩ fun hok => ?_
    obtain ⟨h', hd'⟩ := alter_layers h hd _ (by simpa [Decommitment.Shape] using hs) hok
    obtain ⟨_, _, _, _, sev', sp', -, -, -, -, hsev', hsp', -, -, -, -, hl2', -⟩ :=
      h'.layer (derived_congr rfl rfl rfl rfl hder) hd' hi
    dsimp only at hsev' hsp'
    rw [hsp, Option.some.injEq] at hsp'
    rw [List.getElem?_set_self (by have := hs.2.2.1; omega), Option.some.injEq] at hsev'
    rw [hsev', ← hl2', ← hsp', hl2] at hv
    exact hv hsev

/-- Two recomputations from the same node with different siblings and the same result hash two different inputs to
the same value. -/
theorem merkleLoop_path_collision (env : Env F) : ∀ (path path' : List F), path.length = path'.length →
    ∀ (idx : ℕ) (h : F), path ≠ path' → merkleLoop env path idx h = merkleLoop env path' idx h →
    ∃ (i : ℕ) (a b : List F), (hashedInputs env path idx h)[i]? = some a ∧
      (hashedInputs env path' idx h)[i]? = some b ∧ a ≠ b ∧ hashSlice env a = hashSlice env b := by
  intro path
  induction path with
  | nil =>
    intro path' hl idx h hne _
    cases path' with
    | nil => exact absurd rfl hne
    | cons => simp at hl
  | cons x path ih =>
    intro path' hl idx h hne he
    cases path' with
    | nil => simp at hl
    | cons y path' =>
      simp only [List.length_cons, Nat.add_right_cancel_iff] at hl
      simp only [merkleLoop] at he
      by_cases hxy : x = y
      · subst hxy
        have hne' : path ≠ path' := fun e => hne (by rw [e])
        by_cases hp : idx % 2 = 0
        · simp only [hp, if_true] at he
          obtain ⟨i, a, b, h1, h2, h3⟩ := ih path' hl _ _ hne' he
          exact ⟨i + 1, a, b, by simpa [hashedInputs, hp] using h1, by simpa [hashedInputs, hp] using h2, h3⟩
        · simp only [hp, if_false] at he
          obtain ⟨i, a, b, h1, h2, h3⟩ := ih path' hl _ _ hne' he
          exact ⟨i + 1, a, b, by simpa [hashedInputs, hp] using h1, by simpa [hashedInputs, hp] using h2, h3⟩
      · by_cases hp : idx % 2 = 0
        · simp only [hp, if_true] at he
          by_cases heq : hashSlice env [h, x] = hashSlice env [h, y]
          · exact ⟨0, [h, x], [h, y], by simp [hashedInputs, hp], by simp [hashedInputs, hp], by simpa using hxy, heq⟩
          · obtain ⟨i, a, b, h1, h2, h3⟩ := merkleLoop_collision env path path' hl _ _ _ heq he
            exact ⟨i + 1, a, b, by simpa [hashedInputs, hp] using h1, by simpa [hashedInputs, hp] using h2, h3⟩
        · simp only [hp, if_false] at he
          by_cases heq : hashSlice env [x, h] = hashSlice env [y, h]
          · exact ⟨0, [x, h], [y, h], by simp [hashedInputs, hp], by simp [hashedInputs, hp], by simpa using hxy, heq⟩
          · obtain ⟨i, a, b, h1, h2, h3⟩ := merkleLoop_collision env path path' hl _ _ _ heq he
            exact ⟨i + 1, a, b, by simpa [hashedInputs, hp] using h1, by simpa [hashedInputs, hp] using h2, h3⟩

theorem path_cases (env : Env F) {p p' : MerkleProof F} (hne : p' ≠ p) (hi : p'.index = p.index)
    (hl : p'.leafVal = p.leafVal) (hv : verifyMerkleProof env p = true) (hv' : verifyMerkleProof env p' = true) :
    (p'.hashProof = p.hashProof → False) ∧
    (p'.hashProof.length = p.hashProof.length → p'.root = p.root → ExhibitsCollision env p p') := by
  simp only [verifyMerkleProof, decide_eq_true_eq] at hv hv'
  constructor
  · intro e
    apply hne
    rw [hi, hl, e, hv] at hv'
    cases p; cases p'
    simp_all
  · intro hlen hroot
    have hp : p.hashProof ≠ p'.hashProof := by
      intro e
      apply hne
      cases p; cases p'
      simp_all
    right
    obtain ⟨i, a, b, h1, h2, h3⟩ := merkleLoop_path_collision env p.hashProof p'.hashProof hlen.symm p.index
      (hash env p.leafVal) hp (by rw [hv, ← hroot, ← hv', hi, hl])
    refine ⟨i, a, b, h1, ?_, h3⟩
    unfold MerkleProof.inputs
    rw [hi, hl]
    exact h2

/-- **C96** (paths): replacing any one of the authentication paths of an accepted proof by another path with the same
siblings (another index, leaf or root), or by another path with the same number of siblings and the same root, makes it
rejected, unless (in the second case) the two paths exhibit a hash collision. -/
theorem C96_fri_path (env : Env F) (hdig : ∀ b, 8 ≤ (env.digest b).length) (pf : Proof F)
    (h : CompleteAccepted env pf) (j i : ℕ) (d : Decommitment F) (hd : pf.decommitmentList[j]? = some d)
    (hi : i < pf.layersRoot.length) (p' : MerkleProof F) :
    (∀ p, d.authPaths[i]? = some p → p' ≠ p →
      (p'.hashProof = p.hashProof →
        Rejected env (pf.alter j fun d => { d with authPaths := d.authPaths.set i p' })) ∧
      (p'.hashProof.length = p.hashProof.length → p'.root = p.root →
        Rejected env (pf.alter j fun d => { d with authPaths := d.authPaths.set i p' }) ∨ ExhibitsCollision env p p')) ∧
    (∀ p, d.symAuthPaths[i]? = some p → p' ≠ p →
      (p'.hashProof = p.hashProof →
        Rejected env (pf.alter j fun d => { d with symAuthPaths := d.symAuthPaths.set i p' })) ∧
      (p'.hashProof.length = p.hashProof.length → p'.root = p.root →
        Rejected env (pf.alter j fun d => { d with symAuthPaths := d.symAuthPaths.set i p' }) ∨
          ExhibitsCollision env p p')) := by
  obtain ⟨rs, positions, hder⟩ := h.derived
  obtain ⟨pos, r, ev, path, sev, sp, hp, hr, hev, hpath, hsev, hsp, -, hi1, hi2, hl1, hl2, hv1, hv2, -⟩ :=
    h.layer hder hd hi
  have hs := h.shape d (List.mem_of_getElem? hd)
  constructor
  · intro p hpp hne
    rw [hpath, Option.some.injEq] at hpp
    subst hpp
    have key : verify env (pf.alter j fun d => { d with authPaths := d.authPaths.set i p' }) = some (.ok ()) →
        (p'.hashProof = path.hashProof → False) ∧
        (p'.hashProof.length = path.hashProof.length → p'.root = path.root → ExhibitsCollision env path p') := by
      intro hok
      obtain ⟨h', hd'⟩ := alter_layers h hd _ (by simpa [Decommitment.Shape] using hs) hok
      obtain ⟨pos', _, ev', path', _, _, hpos', -, hev', hpath', -, -, -, hi1', -, hl1', -, hv1', -⟩ :=
        h'.layer (derived_congr rfl rfl rfl rfl hder) hd' hi
      dsimp only at hev' hpath'
      rw [hp, Option.some.injEq] at hpos'
      rw [hev, Option.some.injEq] at hev'
      rw [List.getElem?_set_self (by have := hs.2.1; omega), Option.some.injEq] at hpath'
      subst hpos' hev' hpath'
      exact path_cases env hne (hi1'.trans hi1.symm) (hl1'.trans hl1.symm) hv1 hv1'
    constructor
    · intro e
      exact rejected_of hdig h.safe ⟨rfl, rfl, rfl, rfl⟩ fun hok => (key hok).1 e
    · intro e1 e2
      by_cases hok : verify env (pf.alter j fun d => { d with authPaths := d.authPaths.set i p' }) = some (.ok ())
      · exact Or.inr ((key hok).2 e1 e2)
      · exact Or.inl (rejected_of hdig h.safe ⟨rfl, rfl, rfl, rfl⟩ hok)
  · intro p hpp hne
    rw [hsp, Option.some.injEq] at hpp
    subst hpp
    have key : verify env (pf.alter j fun d => { d with symAuthPaths := d.symAuthPaths.set i p' }) = some (.ok ()) →
        (p'.hashProof = sp.hashProof → False) ∧
        (p'.hashProof.length = sp.hashProof.length → p'.root = sp.root → ExhibitsCollision env sp p') := by
      intro hok
      obtain ⟨h', hd'⟩ := alter_layers h hd _ (by simpa [Decommitment.Shape] using hs) hok
      obtain ⟨pos', _, _, _, sev', sp', hpos', -, -, -, hsev', hsp', -, -, hi2', -, hl2', -, hv2', -⟩ :=
        h'.layer (derived_congr rfl rfl rfl rfl hder) hd' hi
      dsimp only at hsev' hsp'
      rw [hp, Option.some.injEq] at hpos'
      rw [hsev, Option.some.injEq] at hsev'
      rw [List.getElem?_set_self (by have := hs.2.2.2; omega), Option.some.injEq] at hsp'
      subst hpos' hsev' hsp'
      exact path_cases env hne (hi2'.trans hi2.symm) (hl2'.trans hl2.symm) hv2 hv2'
    constructor
    · intro e
      exact rejected_of hdig h.safe ⟨rfl, rfl, rfl, rfl⟩ fun hok => (key hok).1 e
    · intro e1 e2
      by_cases hok : verify env (pf.alter j fun d => { d with symAuthPaths := d.symAuthPaths.set i p' }) = some (.ok ())
      · exact Or.inr ((key hok).2 e1 e2)
      · exact Or.inl (rejected_of hdig h.safe ⟨rfl, rfl, rfl, rfl⟩ hok)

/-! ## C96: the constant -/

/-- The index of the first path is the position. -/
theorem position_eq {env : Env F} {pf : Proof F} (h : CompleteAccepted env pf) {rs : List F} {positions : List ℕ}
    (hder : Derived env pf rs positions) {j : ℕ} {d : Decommitment F} (hd : pf.decommitmentList[j]? = some d) :
    ∃ path, d.authPaths[0]? = some path ∧ positions[j]? = some path.index := by
  obtain ⟨pos, _, _, path, _, _, hp, -, -, hpath, -, -, -, hidx, -⟩ := h.layer hder hd h.layers
  refine ⟨path, hpath, ?_⟩
  rw [hp, hidx]
  simp only [pow_zero, Nat.div_one, Option.some.injEq]
  rw [hder.2.1] at hp
  obtain ⟨hj, hp⟩ := List.getElem?_eq_some_iff.1 hp
  simp only [List.getElem_map] at hp
  rw [← hp, Nat.mod_mod]

/-- **C96** (constant): replacing the constant of an accepted proof by any other value makes it rejected, whatever
query positions the new constant leads to. -/
theorem C96_fri_constant (env : Env F) (hdig : ∀ b, 8 ≤ (env.digest b).length) (pf : Proof F)
    (h : CompleteAccepted env pf) (cv : F) (hcv : cv ≠ pf.constVal) : Rejected env { pf with constVal := cv } := by
  refine rejected_of hdig h.safe ⟨rfl, rfl, rfl, rfl⟩ fun hok => hcv ?_
  have h' : CompleteAccepted env { pf with constVal := cv } := ⟨hok, h.layers, h.queries, h.all, h.shape⟩
  obtain ⟨rs, positions, hder⟩ := h.derived
  obtain ⟨rs', positions', hder'⟩ := h'.derived
  obtain ⟨d, hd⟩ := h.first
  have hd' : ({ pf with constVal := cv } : Proof F).decommitmentList[0]? = some d := hd
  obtain ⟨p0, hp0, hpos⟩ := position_eq h hder hd
  obtain ⟨p0', hp0', hpos'⟩ := position_eq h' hder' hd'
  rw [hp0, Option.some.injEq] at hp0'
  subst hp0'
  have hrs : rs' = rs := by rw [hder'.1, hder.1]
  subst hrs
  have hlast : pf.layersRoot.length - 1 < pf.layersRoot.length := by have := h.layers; omega
  obtain ⟨pos, r, ev, path, sev, sp, hp, hr, hev, hpath, hsev, hsp, -, -, -, -, -, -, -, dom, x, hdom, hx, -, -, hn⟩ :=
    h.layer hder hd hlast
  obtain ⟨pos', r', ev', path', sev', sp', hp', hr', hev', hpath', hsev', hsp', -, -, -, -, -, -, -, dom', x', hdom',
    hx', -, -, hn'⟩ := h'.layer hder' hd' hlast
  rw [hpos, Option.some.injEq] at hp
  rw [hpos', Option.some.injEq] at hp'
  rw [hev, Option.some.injEq] at hev'
  rw [hsev, Option.some.injEq] at hsev'
  rw [hr, Option.some.injEq] at hr'
  subst hp hp' hev' hsev' hr'
  have hdd : dom' = dom := by
    dsimp only at hdom'
    rw [hdom] at hdom'
    exact (Option.some.inj hdom').symm
  subst hdd
  have hxx : x' = x := by rw [hx', hx]
  subst hxx
  have hnone : d.evaluations[pf.layersRoot.length - 1 + 1]? = none := by
    rw [List.getElem?_eq_none_iff]
    have := (h.shape d (List.mem_of_getElem? hd)).1
    omega
  rw [hnone] at hn hn'
  simp only [Option.getD_none] at hn hn'
  rw [hn, hn']

/-! ## C96: coset and layer roots -/

/-- **C96** (coset): an accepted proof stays accepted with another non-zero coset exactly if in every layer of every query
the change is invisible: the folding challenge is zero, the two values are equal, or the two cosets have the same power. -/
theorem C96_fri_coset_iff (env : Env F) (pf : Proof F)
    (h : CompleteAccepted env pf) (c : F) (hc : c ≠ 0) :
    verify env { pf with coset := c } = some (.ok ()) ↔
      ∀ (j i : ℕ) (d : Decommitment F) (ev sev : F), pf.decommitmentList[j]? = some d →
        d.evaluations[i]? = some ev → d.symEvaluations[i]? = some sev →
        foldChallenge env pf.layersRoot i = 0 ∨ ev = sev ∨ c ^ 2 ^ i = pf.coset ^ 2 ^ i := by
  obtain ⟨rs, positions, hder⟩ := h.derived
  have hder' : Derived env { pf with coset := c } rs positions := derived_congr rfl rfl rfl rfl hder
  have hch : ∀ {i : ℕ} {r : F}, rs[i]? = some r → r = foldChallenge env pf.layersRoot i := by
    intro i r hr
    rw [hder.1] at hr
    obtain ⟨hi, hr⟩ := List.getElem?_eq_some_iff.1 hr
    simpa using hr.symm
  constructor
  · intro hok j i d ev sev hd hev hsev
    have h' : CompleteAccepted env { pf with coset := c } := ⟨hok, h.layers, h.queries, h.all, h.shape⟩
    have hi : i < pf.layersRoot.length := by
      rw [← (h.shape d (List.mem_of_getElem? hd)).1]; exact (List.getElem?_eq_some_iff.1 hev).1
    obtain ⟨pos, r, ev1, path, sev1, sp, hp, hr, hev1, hpath, hsev1, hsp, -, -, -, -, -, -, -, dom, x, hdom, hx, h2, hx0,
      hn⟩ := h.layer hder hd hi
    obtain ⟨pos', r', ev2, _, sev2, _, hp', hr', hev2, -, hsev2, -, -, -, -, -, -, -, -, dom', x', hdom',
      hx', -, hx0', hn'⟩ := h'.layer hder' (show ({ pf with coset := c } : Proof F).decommitmentList[j]? = some d from hd) hi
    rw [hp, Option.some.injEq] at hp'
    rw [hr, Option.some.injEq] at hr'
    rw [hev, Option.some.injEq] at hev1 hev2
    rw [hsev, Option.some.injEq] at hsev1 hsev2
    subst hp' hr' hev1 hev2 hsev1 hsev2
    dsimp only at hdom'
    rw [hdom, Option.some.injEq] at hdom'
    subst hdom'
    rw [← hch hr]
    rw [hn] at hn'
    have e : r * (ev - sev) * (x' - x) = 0 := by
      field_simp at hn'
      linear_combination hn'
    rcases mul_eq_zero.1 e with e | e
    · rcases mul_eq_zero.1 e with e | e
      · exact Or.inl e
      · exact Or.inr (Or.inl (sub_eq_zero.1 e))
    · right; right
      rw [sub_eq_zero, hx, hx'] at e
      have hg : dom.gen ^ (pos % (pf.domainSize / 2 ^ i)) ≠ 0 := by
        intro h0
        rw [hx, h0, zero_mul] at hx0
        exact hx0 rfl
      exact mul_left_cancel₀ hg e
  · intro hall
    rw [C20_verify_iff env { pf with coset := c }
      (show pf.domainSize ≠ 0 from accepted_domain h.accepted h.queries) h.shape]
    refine ⟨rs, positions, hder', ?_⟩
    intro j pos0 d hj hd i r0 ev0 path0 sev0 sp0 hr0 hev0 hpath0 hsev0 hsp0
    dsimp only at hd
    have hi : i < pf.layersRoot.length := by
      rw [← (h.shape d (List.mem_of_getElem? hd)).1]; exact (List.getElem?_eq_some_iff.1 hev0).1
    obtain ⟨pos, r, ev, path, sev, sp, hp, hr, hev, hpath, hsev, hsp, k1, k2, k3, k4, k5, k6, k7, dom, x, hdom, hx, h2,
      hx0, hn⟩ := h.layer hder hd hi
    rw [hj, Option.some.injEq] at hp
    rw [hr0, Option.some.injEq] at hr
    rw [hev0, Option.some.injEq] at hev
    rw [hpath0, Option.some.injEq] at hpath
    rw [hsev0, Option.some.injEq] at hsev
    rw [hsp0, Option.some.injEq] at hsp
    subst hp hr hev hpath hsev hsp
    have hg : dom.gen ^ (pos0 % (pf.domainSize / 2 ^ i)) ≠ 0 := by
      intro h0
      rw [hx, h0, zero_mul] at hx0
      exact hx0 rfl
    refine ⟨k1, k2, k3, k4, k5, k6, k7, dom, _, hdom, rfl, h2, mul_ne_zero hg (pow_ne_zero _ hc), ?_⟩
    dsimp only
    rw [hn]
    rcases hall j i d ev0 sev0 hd hev0 hsev0 with e | e | e
    · rw [hch hr0, e]; simp
    · rw [e]; simp
    · rw [e, ← hx]

/-- **C96** (layer roots): the verifier does not compare the roots with the paths, so the only protection of
`layers_root` is that it determines the challenges: an accepted proof stays accepted with other roots exactly if they
lead to the same query positions and, in every layer of every query, to the same challenge or the two values are equal. -/
theorem C96_fri_roots_iff (env : Env F) (pf : Proof F) (h : CompleteAccepted env pf)
    (roots : List F) (hlen : roots.length = pf.layersRoot.length) (rs rs' : List F) (positions positions' : List ℕ)
    (hder : Derived env pf rs positions) (hder' : Derived env { pf with layersRoot := roots } rs' positions') :
    verify env { pf with layersRoot := roots } = some (.ok ()) ↔
      positions' = positions ∧
      ∀ (j i : ℕ) (d : Decommitment F) (ev sev : F), pf.decommitmentList[j]? = some d →
        d.evaluations[i]? = some ev → d.symEvaluations[i]? = some sev → rs'[i]? = rs[i]? ∨ ev = sev := by
  have hrl : rs.length = pf.layersRoot.length := by rw [hder.1]; simp
  have hrl' : rs'.length = pf.layersRoot.length := by rw [hder'.1]; simp [hlen]
  have hpl : positions.length = pf.numberOfQueries := by rw [hder.2.1]; simp
  have hpl' : positions'.length = pf.numberOfQueries := by rw [hder'.2.1]; simp
  constructor
  · intro hok
    have h' : CompleteAccepted env { pf with layersRoot := roots } :=
      ⟨hok, by dsimp only; rw [hlen]; exact h.layers, h.queries, h.all, by dsimp only; rw [hlen]; exact h.shape⟩
    have hpos : positions' = positions := by
      apply List.ext_getElem?
      intro j
      by_cases hj : j < pf.numberOfQueries
      · have hd : pf.decommitmentList[j]? = some _ := List.getElem?_eq_getElem (by rw [h.all]; exact hj)
        obtain ⟨p, e1, e2⟩ := position_eq h hder hd
        obtain ⟨p', e1', e2'⟩ := position_eq h' hder' hd
        rw [e1, Option.some.injEq] at e1'
        rw [e2, e2', e1']
      · rw [List.getElem?_eq_none (by omega), List.getElem?_eq_none (by omega)]
    refine ⟨hpos, ?_⟩
    subst hpos
    intro j i d ev sev hd hev hsev
    have hi : i < pf.layersRoot.length := by
      rw [← (h.shape d (List.mem_of_getElem? hd)).1]; exact (List.getElem?_eq_some_iff.1 hev).1
    obtain ⟨pos, r, ev1, path, sev1, sp, hp, hr, hev1, hpath, hsev1, hsp, -, -, -, -, -, -, -, dom, x, hdom, hx, h2, hx0,
      hn⟩ := h.layer hder hd hi
    obtain ⟨pos', r', ev2, _, sev2, _, hp', hr', hev2, -, hsev2, -, -, -, -, -, -, -, -, dom', x', hdom',
      hx', -, hx0', hn'⟩ := h'.layer hder' (show ({ pf with layersRoot := roots } : Proof F).decommitmentList[j]? = some d
        from hd) (by dsimp only; rw [hlen]; exact hi)
    rw [hp, Option.some.injEq] at hp'
    rw [hev, Option.some.injEq] at hev1 hev2
    rw [hsev, Option.some.injEq] at hsev1 hsev2
    subst hp' hev1 hev2 hsev1 hsev2
    dsimp only at hdom'
    rw [hdom, Option.some.injEq] at hdom'
    subst hdom'
    have hxx : x' = x := by rw [hx', hx]
    subst hxx
    rw [hr, hr']
    dsimp only at hn'
    rw [hn] at hn'
    have e : (r' - r) * (ev - sev) = 0 := by
      field_simp at hn'
      linear_combination -hn'
    rcases mul_eq_zero.1 e with e | e
    · left; rw [sub_eq_zero.1 e]
    · exact Or.inr (sub_eq_zero.1 e)
  · rintro ⟨rfl, hall⟩
    rw [C20_verify_iff env { pf with layersRoot := roots }
      (show pf.domainSize ≠ 0 from accepted_domain h.accepted h.queries)
      (by dsimp only; rw [hlen]; exact h.shape)]
    refine ⟨rs', positions', hder', ?_⟩
    intro j pos0 d hj hd i r0 ev0 path0 sev0 sp0 hr0 hev0 hpath0 hsev0 hsp0
    dsimp only at hd
    have hi : i < pf.layersRoot.length := by
      rw [← (h.shape d (List.mem_of_getElem? hd)).1]; exact (List.getElem?_eq_some_iff.1 hev0).1
    obtain ⟨pos, r, ev, path, sev, sp, hp, hr, hev, hpath, hsev, hsp, k1, k2, k3, k4, k5, k6, k7, dom, x, hdom, hx, h2,
      hx0, hn⟩ := h.layer hder hd hi
    rw [hj, Option.some.injEq] at hp
    rw [hev0, Option.some.injEq] at hev
    rw [hpath0, Option.some.injEq] at hpath
    rw [hsev0, Option.some.injEq] at hsev
    rw [hsp0, Option.some.injEq] at hsp
    subst hp hev hpath hsev hsp
    refine ⟨k1, k2, k3, k4, k5, k6, k7, dom, x, hdom, hx, h2, hx0, ?_⟩
    dsimp only
    rw [hn]
    rcases hall j i d ev0 sev0 hd hev0 hsev0 with e | e
    · rw [hr0, hr, Option.some.injEq] at e
      rw [e]
    · rw [e]; simp

/-! ## The number of queries is not protected -/

/-- **C87** (FRI, number of queries): the field `number_of_queries` of an accepted proof can be replaced by any number,
zero included, if the proof has no more decommitments than queries, and by any smaller number in any case. -/
theorem C87_fri_query_count (env : Env F) (pf : Proof F) (n : ℕ)
    (hn : n ≤ pf.numberOfQueries ∨ pf.decommitmentList.length ≤ pf.numberOfQueries)
    (hD : pf.domainSize ≠ 0) (h : verify env pf = some (.ok ())) :
    verify env { pf with numberOfQueries := n } = some (.ok ()) := by
  rw [verify_ok_iff] at h ⊢
  obtain ⟨rs, t, t', vs, h1, h2, h3, h4⟩ := h
  dsimp only
  unfold Transcript.generateChallengeListUsize Transcript.generateChallenges at h2 ⊢
  simp only [Option.bind_eq_bind, Option.bind_eq_some_iff, pure, Option.some.injEq, Prod.mk.injEq] at h2 ⊢
  obtain ⟨ct, ⟨st, hst, rfl⟩, rfl, rfl⟩ := h2
  refine ⟨rs, t, st.2, ((List.range n).map (env.rand st.1)).map env.low64, h1, ⟨_, ⟨st, hst, rfl⟩, rfl, rfl⟩,
    fun hh => hD hh.1, ?_⟩
  intro x hx
  refine h4 x ?_
  obtain ⟨j, hj⟩ := List.mem_iff_getElem?.1 hx
  obtain ⟨g1, g2⟩ := List.getElem?_zip_eq_some.1 hj
  refine List.mem_of_getElem? (i := j) (List.getElem?_zip_eq_some.2 ⟨?_, g2⟩)
  have hjl := (List.getElem?_eq_some_iff.1 g2).1
  have hjn := (List.getElem?_eq_some_iff.1 g1).1
  simp only [List.length_map, List.length_range] at hjn
  have : j < pf.numberOfQueries := by omega
  simp only [List.map_map, List.getElem?_map, List.getElem?_range hjn, List.getElem?_range this, Option.map_some] at g1 ⊢
  exact g1

/-! ## Non-vacuity -/

/-- Honest proofs are complete accepted proofs: `1 + X + 2 X^2` over Goldilocks, blowup 2, three queries. -/
theorem tamper_example (sha : List UInt8 → List UInt8) :
    ∃ pf, generateProof (eightEnv sha) ([1, 1, 2] : DP Goldilocks) 2 3 = some pf ∧
      CompleteAccepted (eightEnv sha) pf := by
  have hc : Nat.clog 2 6 = 3 := by decide
  obtain ⟨pf, h1, -⟩ := C18_prover_returns (eightEnv sha) (fun b => by simp [eightEnv, goldEnv])
    ([1, 1, 2] : DP Goldilocks) 2 3 (by simp) (by
      show 2 ^ Nat.clog 2 6 ≤ 2 ^ 32
      rw [hc]; norm_num) (by
      rintro rs ⟨roots, hlr, -, hrs⟩
      have hl : rs.length = Nat.clog 2 6 := by rw [hrs]; simp
      have h0 : ∀ r ∈ rs, r = 0 := by
        intro r hr
        rw [hrs] at hr
        obtain ⟨i, -, rfl⟩ := List.mem_map.1 hr
        rfl
      rw [hc] at hl
      match rs, hl with
      | [a, b, c], _ =>
        rw [h0 a (by simp), h0 b (by simp), h0 c (by simp)]
        decide +kernel)
  exact ⟨pf, h1, complete_of_honest _ _ 2 3 (by norm_num) h1⟩

/-- The three alterations of its first decommitment are rejected. -/
example (sha : List UInt8 → List UInt8) : ∃ pf : Proof Goldilocks, CompleteAccepted (eightEnv sha) pf ∧
    Rejected (eightEnv sha) { pf with constVal := pf.constVal - 1 } ∧
    (∃ v, Rejected (eightEnv sha) (pf.alter 0 fun d => { d with evaluations := d.evaluations.set 0 v })) ∧
    (∃ p', Rejected (eightEnv sha) (pf.alter 0 fun d => { d with authPaths := d.authPaths.set 0 p' })) ∧
    verify (eightEnv sha) { pf with numberOfQueries := 17 } = some (.ok ()) := by
  obtain ⟨pf, h1, h⟩ := tamper_example sha
  have hdig : ∀ b, 8 ≤ ((eightEnv sha).digest b).length := fun b => by simp [eightEnv, goldEnv]
  obtain ⟨d, hd⟩ := h.first
  obtain ⟨rs, positions, hder⟩ := h.derived
  obtain ⟨pos, r, ev, path, sev, sp, hp, hr, hev, hpath, -⟩ := h.layer hder hd h.layers
  refine ⟨pf, h, C96_fri_constant _ hdig pf h _ (by simp), ⟨ev + 1, ?_⟩, ⟨{ path with root := path.root + 1 }, ?_⟩,
    C87_fri_query_count _ pf 17 (Or.inr (by rw [h.all])) (accepted_domain h.accepted h.queries) h.accepted⟩
  · exact (C96_fri_evaluation _ hdig pf h 0 0 d hd h.layers (ev + 1)).1 (by rw [hev]; simp)
  · refine ((C96_fri_path _ hdig pf h 0 0 d hd h.layers _).1 path hpath ?_).1 rfl
    intro e
    have := congrArg MerkleProof.root e
    simp at this

end Verif.Fri

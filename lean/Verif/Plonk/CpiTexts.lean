import Verif.Plonk.CpiMatch

/-!
# C103: the verifier's preprocessing of arbitrary texts

C64 is about well-formed equations.  Here: for which texts `CPIGenerator` returns at all (it checks almost nothing), and
agreement with the prover's circuit for every text that the prover's parser accepts.
-/

set_option linter.unusedSectionVars false
set_option linter.unusedSimpArgs false
set_option linter.unusedVariables false

namespace Verif.Plonk

open Verif.Ark Verif.Kzg

/-! ## What the preprocessing parser does on every text -/

/-- The wire expressions of a gate of `CPIGenerator`. -/
def CGate.names (g : CGate) : Names := (g.left, g.right, g.bottom)

/-- A summand that needs no gate of its own: a single operand that is not a number. -/
def PlainOperand (U : Unicode) (t : List Char) : Prop := '*' ∉ t ∧ parseI32 (trim U t) = none

/-- Invariant of the run. -/
structure CState.Ok (st : CState) : Prop where
  pm : st.pm = occ (st.gates.map CGate.names)
  set : ∀ g ∈ st.set, g ∈ st.gates
  consts : ∀ g ∈ st.gates, g.ty = .constant → (parseI32 g.left).isSome

theorem CState.ok_empty : (⟨[], [], fun _ => []⟩ : CState).Ok := by
  refine ⟨?_, fun g hg => (List.not_mem_nil hg).elim, fun g hg => (List.not_mem_nil hg).elim⟩
  funext key
  simp [occ, slotsFrom]

theorem CState.Ok.insertGate {st : CState} (h : st.Ok) {g : CGate}
    (hg : g.ty = .constant → (parseI32 g.left).isSome) :
    (st.insertGate g).Ok ∧ g ∈ (st.insertGate g).gates ∧ st.gates ⊆ (st.insertGate g).gates ∧
      (st.insertGate g).gates.length ≤ st.gates.length + 1 := by
  unfold CState.insertGate
  by_cases hin : g ∈ st.set
  · rw [if_pos hin]
    exact ⟨h, h.set g hin, fun _ hx => hx, Nat.le_succ _⟩
  · rw [if_neg hin]
    refine ⟨⟨?_, ?_, ?_⟩, by simp, by simp, by simp⟩
    · funext key
      simp only [List.map_append, List.map_cons, List.map_nil, occ_append, push_apply, h.pm, List.length_map]
      rfl
    · intro x hx
      simp only [List.mem_cons] at hx
      simp only [List.mem_append, List.mem_singleton]
      rcases hx with rfl | hx
      · exact Or.inr rfl
      · exact Or.inl (h.set x hx)
    · intro x hx ht
      rcases List.mem_append.1 hx with hx | hx
      · exact h.consts x hx ht
      · rw [List.mem_singleton] at hx
        subst hx
        exact hg ht

theorem cTokens_run (U : Unicode) (toks : List (List Char)) {st : CState} (h : st.Ok) :
    (cTokens U toks st).1 = toks.map (trim U) ∧ (cTokens U toks st).2.Ok ∧
      st.gates ⊆ (cTokens U toks st).2.gates ∧
      (cTokens U toks st).2.gates.length ≤ st.gates.length + toks.length ∧
      ((∀ tok ∈ toks, parseI32 (trim U tok) = none) → (cTokens U toks st).2 = st) ∧
      ((∃ tok ∈ toks, (parseI32 (trim U tok)).isSome) → ∃ g ∈ (cTokens U toks st).2.gates, g.ty = .constant) := by
  induction toks generalizing st with
  | nil => exact ⟨rfl, h, fun _ hx => hx, le_refl _, fun _ => rfl, by rintro ⟨t, ht, -⟩; cases ht⟩
  | cons s rest ih =>
    simp only [cTokens]
    by_cases hp : (parseI32 (trim U s)).isSome
    · have hc : checkConstant st (trim U s) =
          st.insertGate ⟨trim U s, ['0'], trim U s ++ '+' :: ['0'], .constant⟩ := by
        unfold checkConstant; rw [if_pos hp]; rfl
      obtain ⟨i1, i2, i3, i4⟩ := h.insertGate (g := ⟨trim U s, ['0'], trim U s ++ '+' :: ['0'], .constant⟩)
        (fun _ => hp)
      rw [hc]
      obtain ⟨a1, a2, a3, a4, a5, a6⟩ := ih i1
      refine ⟨by rw [a1]; rfl, a2, fun x hx => a3 (i3 hx), ?_, ?_, ?_⟩
      · rw [List.length_cons]; omega
      · intro hn
        rw [hn s (by simp)] at hp
        cases hp
      · intro _
        exact ⟨_, a3 i2, rfl⟩
    · have hc : checkConstant st (trim U s) = st := by
        unfold checkConstant; rw [if_neg hp]
      rw [hc]
      obtain ⟨a1, a2, a3, a4, a5, a6⟩ := ih h
      refine ⟨by rw [a1]; rfl, a2, a3, ?_, fun hn => a5 fun t ht => hn t (by simp [ht]), ?_⟩
      · rw [List.length_cons]; omega
      · rintro ⟨t, ht, hs⟩
        rcases List.mem_cons.1 ht with rfl | ht
        · exact absurd hs hp
        · exact a6 ⟨t, ht, hs⟩

theorem cMulReduce_run (ws : List (List Char)) (w : List Char) {st : CState} (h : st.Ok) :
    (cMulReduce w ws st).2.Ok ∧ st.gates ⊆ (cMulReduce w ws st).2.gates ∧
      (cMulReduce w ws st).2.gates.length ≤ st.gates.length + ws.length ∧
      (ws ≠ [] → ∃ g ∈ (cMulReduce w ws st).2.gates, g.ty = .multiplication) := by
  induction ws generalizing w st with
  | nil => exact ⟨h, fun _ hx => hx, le_refl _, fun hn => absurd rfl hn⟩
  | cons v ws ih =>
    obtain ⟨i1, i2, i3, i4⟩ := h.insertGate (g := ⟨w, v, w ++ '*' :: v, .multiplication⟩) (by intro h; cases h)
    obtain ⟨a1, a2, a3, -⟩ := ih (w ++ '*' :: v) i1
    refine ⟨a1, fun x hx => a2 (i3 hx), ?_, fun _ => ⟨_, a2 i2, rfl⟩⟩
    have := a3
    rw [List.length_cons]
    show (cMulReduce (w ++ '*' :: v) ws (st.insertGate ⟨w, v, w ++ '*' :: v, .multiplication⟩)).2.gates.length ≤ _
    omega

theorem length_splitOn_star (c : Char) (t : List Char) : (t.splitOn c).length = t.count c + 1 := by
  induction t with
  | nil => simp [List.splitOn_nil]
  | cons x xs ih =>
    rw [List.splitOn_cons_eq_if_modifyHead]
    by_cases hx : x = c
    · subst hx
      simp [ih]
    · have : ¬ (x == c) = true := by simpa using hx
      simp [this, ih, List.count_cons]

theorem splitOn_singleton_iff {c : Char} {t tok : List Char} : t.splitOn c = [tok] ↔ t = tok ∧ c ∉ t := by
  constructor
  · intro h
    have hl := length_splitOn_star c t
    rw [h, List.length_singleton] at hl
    have hc : c ∉ t := List.count_eq_zero.1 (by omega)
    rw [List.splitOn_eq_singleton hc, List.cons.injEq] at h
    exact ⟨h.1, hc⟩
  · rintro ⟨rfl, h⟩
    exact List.splitOn_eq_singleton h

theorem plainOperand_iff (U : Unicode) (t : List Char) :
    PlainOperand U t ↔ ∃ tok, t.splitOn '*' = [tok] ∧ parseI32 (trim U tok) = none := by
  unfold PlainOperand
  constructor
  · rintro ⟨h1, h2⟩
    exact ⟨t, splitOn_singleton_iff.2 ⟨rfl, h1⟩, h2⟩
  · rintro ⟨tok, h1, h2⟩
    obtain ⟨rfl, h⟩ := splitOn_singleton_iff.1 h1
    exact ⟨h, h2⟩

theorem cTerm_run (U : Unicode) (t : List Char) {st : CState} (h : st.Ok) :
    ∃ r, cTerm U t st = some r ∧ r.2.Ok ∧ st.gates ⊆ r.2.gates ∧
      r.2.gates.length ≤ st.gates.length + (2 * t.count '*' + 1) ∧
      (PlainOperand U t → r.2 = st) ∧
      (¬ PlainOperand U t → ∃ g ∈ r.2.gates, g.ty ≠ .addition) := by
  obtain ⟨a1, a2, a3, a4, a5, a6⟩ := cTokens_run U (t.splitOn '*') h
  have hl := length_splitOn_star '*' t
  unfold cTerm
  dsimp only
  rw [a1]
  cases hs : t.splitOn '*' with
  | nil => exact absurd hs (List.splitOn_ne_nil _ _)
  | cons tok toks =>
    rw [hs] at a2 a3 a4 a5 a6 hl
    rw [List.length_cons] at a4 hl
    obtain ⟨b1, b2, b3, b4⟩ := cMulReduce_run (toks.map (trim U)) (trim U tok) a2
    rw [List.length_map] at b3
    refine ⟨_, rfl, b1, fun x hx => b2 (a3 hx), by omega, ?_, ?_⟩
    · intro hp
      obtain ⟨tok', e, hn⟩ := (plainOperand_iff U t).1 hp
      rw [hs, List.cons.injEq] at e
      obtain ⟨rfl, rfl⟩ := e
      exact a5 (by intro x hx; rw [List.mem_singleton] at hx; subst hx; exact hn)
    · intro hp
      cases toks with
      | cons v vs =>
        obtain ⟨g, hg, ht⟩ := b4 (by simp)
        exact ⟨g, hg, by rw [ht]; decide⟩
      | nil =>
        have hsome : (parseI32 (trim U tok)).isSome := by
          rw [Option.isSome_iff_ne_none]
          exact fun hn => hp ((plainOperand_iff U t).2 ⟨tok, hs, hn⟩)
        obtain ⟨g, hg, ht⟩ := a6 ⟨tok, by simp, hsome⟩
        exact ⟨g, b2 hg, by rw [ht]; decide⟩

theorem cAddReduce_run (U : Unicode) (ts : List (List Char)) (w : List Char) {st : CState} (h : st.Ok) :
    ∃ r, cAddReduce U ts w st = some r ∧ r.2.Ok ∧ st.gates ⊆ r.2.gates ∧
      r.2.gates.length ≤ st.gates.length + (ts.map fun t => 2 * t.count '*' + 2).sum ∧
      (∀ t, ts = [t] → PlainOperand U t → r.2.gates.length ≤ st.gates.length + 1) ∧
      (ts ≠ [] → ∃ g ∈ r.2.gates, g.ty = .addition ∧ g.left = w) ∧
      (2 ≤ ts.length → ∃ g ∈ r.2.gates, g.ty = .addition ∧ w.length < g.left.length) ∧
      ((∃ t ∈ ts, ¬ PlainOperand U t) → ∃ g ∈ r.2.gates, g.ty ≠ .addition) := by
  induction ts generalizing w st with
  | nil =>
    refine ⟨_, rfl, h, fun _ hx => hx, by simp, by simp, by simp, by simp, ?_⟩
    rintro ⟨t, ht, -⟩
    cases ht
  | cons t ts ih =>
    obtain ⟨a, ha, a1, a2, a3, a4, a5⟩ := cTerm_run U t h
    obtain ⟨i1, i2, i3, i4⟩ := a1.insertGate (g := ⟨w, a.1, w ++ '+' :: a.1, .addition⟩) (by intro h; cases h)
    obtain ⟨r, hr, b1, b2, b3, b4, b5, b6, b7⟩ := ih (w ++ '+' :: a.1) i1
    refine ⟨r, ?_, b1, fun x hx => b2 (i3 (a2 hx)), ?_, ?_, ?_, ?_, ?_⟩
    · simp only [cAddReduce, ha, Option.bind_eq_bind, Option.bind_some, cAdditionalGate, hr]
    · rw [List.map_cons, List.sum_cons]; omega
    · intro t' e hp
      rw [List.cons.injEq] at e
      obtain ⟨rfl, rfl⟩ := e
      rw [a4 hp] at i4
      simp only [List.map_nil, List.sum_nil, Nat.add_zero] at b3
      rw [a4 hp] at b3
      omega
    · exact fun _ => ⟨_, b2 i2, rfl, rfl⟩
    · intro hl
      obtain ⟨g, hg, h1, h2⟩ := b5 (by rintro rfl; simp at hl)
      refine ⟨g, hg, h1, ?_⟩
      rw [h2, List.length_append, List.length_cons]
      omega
    · rintro ⟨t', ht', hp⟩
      rcases List.mem_cons.1 ht' with rfl | ht'
      · obtain ⟨g, hg, h1⟩ := a5 hp
        exact ⟨g, b2 (i3 hg), h1⟩
      · exact b7 ⟨t', ht', hp⟩

theorem sum_count_splitOn (t : List Char) :
    ((t.splitOn '+').map fun u => u.count '*').sum = t.count '*' := by
  induction t with
  | nil => simp [List.splitOn_nil]
  | cons x xs ih =>
    rw [List.splitOn_cons_eq_if_modifyHead]
    by_cases hx : x = '+'
    · subst hx
      simp [ih, List.count_cons]
    · have : ¬ (x == '+') = true := by simpa using hx
      rw [if_neg this]
      cases hs : xs.splitOn '+' with
      | nil => exact absurd hs (List.splitOn_ne_nil _ _)
      | cons u us =>
        rw [hs] at ih
        simp only [List.modifyHead_cons, List.map_cons, List.sum_cons, List.count_cons] at ih ⊢
        omega

/-- `prepare_generation` on every text with exactly one equals sign. -/
theorem prepareGeneration_run (U : Unicode) {lhs rhs : List Char} (hl : '=' ∉ lhs) (hr : '=' ∉ rhs) :
    ∃ st : CState, prepareGeneration U (lhs ++ '=' :: rhs) = some (st.gates, st.pm) ∧ st.Ok ∧
      st.gates.length ≤ 2 * ((lhs ++ '=' :: rhs).count '*' + (lhs ++ '=' :: rhs).count '+') + 3 ∧
      (2 ≤ st.gates.length ↔ ¬ ('+' ∉ lhs ∧ PlainOperand U lhs ∧ PlainOperand U ('-' :: rhs))) := by
  have hst := (splitTerms_eq_some (lhs ++ '=' :: rhs) _).2 ⟨lhs, rhs, rfl, hl, hr, rfl⟩
  have hlen := length_splitOn_star '+' lhs
  have hsum := sum_count_splitOn lhs
  cases hs : lhs.splitOn '+' with
  | nil => exact absurd hs (List.splitOn_ne_nil _ _)
  | cons t ts =>
    rw [hs] at hlen hsum
    rw [hs, List.cons_append] at hst
    obtain ⟨a, ha, a1, a2, a3, a4, a5⟩ := cTerm_run U t CState.ok_empty
    obtain ⟨q, hq, b1, b2, b3, b4, b5, b6, b7⟩ := cAddReduce_run U (ts ++ ['-' :: rhs]) a.1 a1
    refine ⟨q.2, ?_, b1, ?_, ?_⟩
    · simp only [prepareGeneration, hst, Option.bind_eq_bind, Option.bind_some, ha, hq, Option.pure_def]
    · have e : ∀ l : List (List Char), (l.map fun t => 2 * t.count '*' + 2).sum =
          2 * (l.map fun t => t.count '*').sum + 2 * l.length := by
        intro l
        induction l with
        | nil => rfl
        | cons x l ih => simp only [List.map_cons, List.sum_cons, List.length_cons, ih]; omega
      rw [e] at b3
      simp only [List.map_append, List.sum_append, List.map_cons, List.map_nil, List.sum_cons, List.sum_nil,
        List.length_append, List.length_singleton, List.length_cons, List.length_nil, List.count_append,
        List.count_cons] at b3 hlen hsum a3 ⊢
      simp at b3 a3 ⊢
      omega
    · obtain ⟨g, hg, g1, g2⟩ := b5 (by simp)
      constructor
      · rintro h2 ⟨p1, p2, p3⟩
        obtain ⟨e1, -⟩ : ts = [] ∧ True := by
          rw [List.count_eq_zero.2 p1] at hlen
          exact ⟨by simpa using hlen, trivial⟩
        subst e1
        have e2 : lhs = t := (splitOn_singleton_iff.1 hs).1
        subst e2
        have := b4 _ rfl p3
        rw [a4 p2] at this
        simp at this
        omega
      · intro hn
        have key : ∃ g' ∈ q.2.gates, g' ≠ g := by
          by_cases hp : ∃ t' ∈ t :: (ts ++ ['-' :: rhs]), ¬ PlainOperand U t'
          · obtain ⟨t', ht', hp⟩ := hp
            have : ∃ g' ∈ q.2.gates, g'.ty ≠ .addition := by
              rcases List.mem_cons.1 ht' with rfl | ht'
              · obtain ⟨g', hg', h'⟩ := a5 hp
                exact ⟨g', b2 hg', h'⟩
              · exact b7 ⟨t', ht', hp⟩
            obtain ⟨g', hg', h'⟩ := this
            exact ⟨g', hg', fun e => h' (e ▸ g1)⟩
          · push Not at hp
            have hts : ts ≠ [] := by
              rintro rfl
              obtain ⟨rfl, hplus⟩ := splitOn_singleton_iff.1 hs
              exact hn ⟨hplus, hp lhs (by simp), hp _ (by simp)⟩
            obtain ⟨g', hg', -, h'⟩ := b6 (by
              have := List.length_pos_iff.2 hts
              rw [List.length_append, List.length_singleton]; omega)
            refine ⟨g', hg', ?_⟩
            rintro rfl
            rw [g2] at h'
            exact lt_irrefl _ h'
        obtain ⟨g', hg', hne⟩ := key
        by_contra hlt
        have hle : q.2.gates.length ≤ 1 := by omega
        match hgs : q.2.gates, hle with
        | [], _ => rw [hgs] at hg; cases hg
        | [x], _ =>
          rw [hgs, List.mem_singleton] at hg hg'
          exact hne (by rw [hg, hg'])

/-! ## Generating the circuit -/

section gen
variable {F : Type} [FftField F] [DecidableEq F]

/-- The gate with the value of its constant on the left wire. -/
def CGate.inflate (F : Type) [Field F] (g : CGate) : PGate F :=
  ⟨⟨g.left, (((parseI32 g.left).getD 0 : ℤ) : F)⟩, ⟨g.right, 0⟩, ⟨g.bottom, 0⟩, g.ty⟩

/-- `gen_circuit` never panics on the output of `prepare_generation`. -/
theorem cGenCircuit_run {st : CState} (h : st.Ok) :
    ∃ calls : List (GateCall F), cGenCircuit (F := F) st.gates st.pm = some ⟨(build calls).gates⟩ ∧
      calls.length = st.gates.length ∧
      ∀ call ∈ calls, ∀ p ∈ [call.a, call.b, call.c], p.1 < 3 ∧ p.2.1 < st.gates.length := by
  have hn : ((st.gates.map (CGate.inflate F)).map PGate.names) = st.gates.map CGate.names := by
    rw [List.map_map]; rfl
  have he : (st.gates.map (CGate.inflate F)).map PGate.erase = st.gates := by
    rw [List.map_map]
    have : PGate.erase ∘ CGate.inflate F = id := by funext g; rfl
    rw [this, List.map_id]
  have hg := genCircuit_eq (st.gates.map (CGate.inflate F)) st.pm (by rw [hn]; exact h.pm)
  refine ⟨wiredCalls ((st.gates.map (CGate.inflate F)).map PGate.names) 0 (st.gates.map (CGate.inflate F)),
    ?_, ?_, ?_⟩
  · have := sim_genLoop (st.gates.map (CGate.inflate F)) (by
      intro g hg ht
      obtain ⟨g₀, h₀, rfl⟩ := List.mem_map.1 hg
      obtain ⟨k, hk⟩ := Option.isSome_iff_exists.1 (h.consts g₀ h₀ ht)
      refine ⟨k, hk, ?_⟩
      simp only [CGate.inflate, hk, Option.getD_some]) (by unfold genCircuit at hg; exact hg)
    rw [he] at this
    exact this
  · rw [wiredCalls_length, List.length_map]
  · intro call hcall p hp
    obtain ⟨i, hi, hcalli⟩ := List.getElem_of_mem hcall
    have hb := wirePerm_bounds ((st.gates.map (CGate.inflate F)).map PGate.names) (n := st.gates.length)
      (by rw [hn, List.length_map])
    have hi2 : i < (st.gates.map (CGate.inflate F)).length := by rw [wiredCalls_length] at hi; exact hi
    have hi3 : i < st.gates.length := by rwa [List.length_map] at hi2
    have hget := wiredCalls_getElem? ((st.gates.map (CGate.inflate F)).map PGate.names) 0
      (st.gates.map (CGate.inflate F)) i
    rw [List.getElem?_eq_getElem hi, hcalli, List.getElem?_eq_getElem hi2, Option.map_some,
      Option.some.injEq, Nat.zero_add] at hget
    rw [hget] at hp
    simp only [wiredCall, List.mem_cons, List.not_mem_nil, or_false] at hp
    rcases hp with rfl | rfl | rfl
    · exact (hb (0, i) ⟨by norm_num, hi3⟩).1
    · exact (hb (1, i) ⟨by norm_num, hi3⟩).1
    · exact (hb (2, i) ⟨by norm_num, hi3⟩).1

theorem cpiCompiled_run (U : Unicode) {input lhs rhs : List Char}
    (hs : parseString U input = some (lhs ++ '=' :: rhs)) (hl : '=' ∉ lhs) (hr : '=' ∉ rhs) :
    ∃ calls : List (GateCall F),
      cpiCompiled (F := F) U input = ((build calls).compile).map CompiledCircuit.publicPart ∧
      calls.length ≤ 2 * ((lhs ++ '=' :: rhs).count '*' + (lhs ++ '=' :: rhs).count '+') + 3 ∧
      (2 ≤ calls.length ↔ ¬ ('+' ∉ lhs ∧ PlainOperand U lhs ∧ PlainOperand U ('-' :: rhs))) ∧
      ((build calls).compile.isSome ↔ 2 ≤ calls.length ∧ nextPow2 calls.length ≤ 2 ^ FftField.twoAdicity F) := by
  obtain ⟨st, h1, h2, h3, h4⟩ := prepareGeneration_run U hl hr
  obtain ⟨calls, c1, c2, c3⟩ := cGenCircuit_run (F := F) h2
  refine ⟨calls, ?_, by rw [c2]; exact h3, by rw [c2]; exact h4, ?_⟩
  · unfold cpiCompiled
    simp only [hs, h1, c1, Option.bind_eq_bind, Option.bind_some]
    exact compile_agrees_aux calls fun call hc => ⟨(c3 call hc _ (by simp)).1, (c3 call hc _ (by simp)).1,
      (c3 call hc _ (by simp)).1⟩
  · rw [Option.isSome_iff_ne_none, Ne, C44_compile_panics_iff]
    have hlt : ∀ call ∈ calls, ∀ p ∈ [call.a, call.b, call.c], p.1 ≤ 2 ∧ p.2.1 < nextPow2 calls.length := by
      intro call hc p hp
      obtain ⟨q1, q2⟩ := c3 call hc p hp
      have : calls.length ≤ nextPow2 calls.length := Nat.le_pow_clog (by norm_num) _
      exact ⟨by omega, by omega⟩
    constructor
    · intro h
      push Not at h
      exact ⟨h.1, h.2.1⟩
    · rintro ⟨q1, q2⟩ (h | h | ⟨call, hc, p, hp, h⟩)
      · omega
      · omega
      · exact h (hlt call hc p hp)

/-- **C103** (which texts the verifier's preprocessing accepts): `CPIGenerator` checks nothing but the shape of the text.
It compiles a circuit exactly when the text can be normalised, has exactly one equals sign, and is not just one
operand that is not a number on each side; no operand has to be a variable or a number.  (For texts short enough for
the field's evaluation domains: the number of gates is at most twice the number of `*` and `+` signs plus three.) -/
theorem C103_accepts_iff (U : Unicode) (input : List Char)
    (hsize : ∀ s, parseString U input = some s →
      2 * (s.count '*' + s.count '+') + 3 ≤ 2 ^ FftField.twoAdicity F) :
    (cpiCompiled (F := F) U input).isSome ↔
      ∃ lhs rhs, parseString U input = some (lhs ++ '=' :: rhs) ∧ '=' ∉ lhs ∧ '=' ∉ rhs ∧
        ¬ (('+' ∉ lhs ∧ '*' ∉ lhs ∧ parseI32 (trim U lhs) = none) ∧
          ('*' ∉ rhs ∧ parseI32 (trim U ('-' :: rhs)) = none)) := by
  constructor
  · intro h
    cases hs : parseString U input with
    | none =>
      unfold cpiCompiled at h
      rw [hs] at h
      cases h
    | some s =>
      cases ht : splitTerms s with
      | none =>
        unfold cpiCompiled prepareGeneration at h
        simp only [hs, ht, Option.bind_eq_bind, Option.bind_some, Option.bind_none] at h
        cases h
      | some terms =>
        obtain ⟨lhs, rhs, rfl, hl, hr, -⟩ := (splitTerms_eq_some s terms).1 ht
        refine ⟨lhs, rhs, rfl, hl, hr, ?_⟩
        obtain ⟨calls, c1, c2, c3, c4⟩ := cpiCompiled_run (F := F) U hs hl hr
        rw [c1, Option.isSome_map] at h
        have := c3.1 (c4.1 h).1
        rintro ⟨⟨p1, p2, p3⟩, p4, p5⟩
        exact this ⟨p1, ⟨p2, p3⟩, by simpa using p4, p5⟩
  · rintro ⟨lhs, rhs, hs, hl, hr, hn⟩
    obtain ⟨calls, c1, c2, c3, c4⟩ := cpiCompiled_run (F := F) U hs hl hr
    rw [c1, Option.isSome_map]
    refine c4.2 ⟨c3.2 ?_, nextPow2_le_of_le (c2.trans (hsize _ hs))⟩
    rintro ⟨p1, ⟨p2, p3⟩, p4, p5⟩
    exact hn ⟨⟨p1, p2, p3⟩, by simpa using p4, p5⟩

variable {G1 G2 GT : Type} [AddCommGroup G1] [Module F G1] [AddCommGroup G2] [Module F G2]
  [AddCommGroup GT] [Module F GT] [DecidableEq GT]

/-- **C103** (with an SRS): with an SRS for at least the padded number of gates, `compute_common_preprocessed_input`
returns for exactly the same texts. -/
theorem C103_preprocess_iff (U : Unicode) (input : List Char) (P : PairingGroups F G1 G2 GT) (s : F) (N e : ℕ)
    (hN : 2 ^ e ≤ N + 3)
    (he : ∀ t, parseString U input = some t → 2 * (t.count '*' + t.count '+') + 3 ≤ 2 ^ e) :
    (computeCommonPreprocessedInput (F := F) U input (Srs.newFromSecret P s N)).isSome ↔
      (cpiCompiled (F := F) U input).isSome := by
  unfold computeCommonPreprocessedInput
  cases hc : cpiCompiled (F := F) U input with
  | none => simp
  | some t =>
    simp only [Option.bind_eq_bind, Option.bind_some, Option.isSome_some, iff_true]
    cases hs : parseString U input with
    | none =>
      unfold cpiCompiled at hc
      rw [hs] at hc
      cases hc
    | some x =>
      cases ht : splitTerms x with
      | none =>
        unfold cpiCompiled prepareGeneration at hc
        simp only [hs, ht, Option.bind_eq_bind, Option.bind_some, Option.bind_none] at hc
        cases hc
      | some terms =>
        obtain ⟨lhs, rhs, rfl, hl, hr, -⟩ := (splitTerms_eq_some x terms).1 ht
        obtain ⟨calls, c1, c2, c3, c4⟩ := cpiCompiled_run (F := F) U hs hl hr
        rw [hc] at c1
        cases hb : (build calls).compile with
        | none => rw [hb] at c1; cases c1
        | some cc =>
          rw [hb, Option.map_some, Option.some.injEq] at c1
          subst c1
          have hwf := compile_wellFormed calls cc hb
          have hsz : cc.size ≤ N + 3 :=
            ((C44_compile_size calls cc hb).2.2 e (c2.trans (he _ hs))).trans hN
          have hcommit : ∀ p ∈ cc.polys, commit (Srs.newFromSecret P s N) p = some ((toPoly p).eval s • P.g1) :=
            fun p hp => (commit_iff P s N (hwf.canon p hp).orZero _).2
              ⟨natDegree_lt_of_length ((hwf.len p hp).trans hsz) (by omega), rfl⟩
          unfold CommonPreprocessedInput.new CompiledCircuit.publicPart
          simp only [hcommit _ (show cc.gate.qlx ∈ cc.polys by simp [CompiledCircuit.polys]),
            hcommit _ (show cc.gate.qrx ∈ cc.polys by simp [CompiledCircuit.polys]),
            hcommit _ (show cc.gate.qmx ∈ cc.polys by simp [CompiledCircuit.polys]),
            hcommit _ (show cc.gate.qox ∈ cc.polys by simp [CompiledCircuit.polys]),
            hcommit _ (show cc.gate.qcx ∈ cc.polys by simp [CompiledCircuit.polys]),
            hcommit _ (show cc.copy.s1 ∈ cc.polys by simp [CompiledCircuit.polys]),
            hcommit _ (show cc.copy.s2 ∈ cc.polys by simp [CompiledCircuit.polys]),
            hcommit _ (show cc.copy.s3 ∈ cc.polys by simp [CompiledCircuit.polys]),
            Option.bind_eq_bind, Option.bind_some, Option.pure_def, Option.isSome_some]

/-! ## Agreement with the prover's circuit -/

/-- **C103** (agreement): for every text the prover's parser accepts, with witness names that are not numbers, no plus
sign on the right-hand side, and every operand written canonically (`Canonical`: a variable with an optional minus
sign whose text is not a number, or a number written as it is printed), the verifier's preprocessing compiles exactly the
public part of the prover's circuit, from the text alone, and panics iff the prover's `compile` does. -/
theorem C103_same_compiled (U : Unicode) (hU : U.isWhitespace '-' = false) (wit : List Char → Option F)
    (hw : ∀ nm v, wit nm = some v → parseI32 nm = none) (input lhs rhs : List Char)
    (hs : parseString U input = some (lhs ++ '=' :: rhs)) (hl : '=' ∉ lhs) (hr : '=' ∉ rhs) (hrp : '+' ∉ rhs)
    (hcan : ∀ t, t ∈ lhs.splitOn '+' ∨ t = '-' :: rhs → ∀ tok ∈ t.splitOn '*', Canonical wit (trim U tok))
    (circuit : Circuit F) (hpar : parse U wit input = some circuit) :
    cpiCompiled U input = circuit.compile.map fun cc =>
      ({ cc.gate with fax := [], fbx := [], fcx := [] }, cc.copy, cc.size) := by
  unfold parse at hpar
  simp only [hs, Option.bind_eq_bind, Option.bind_some, Option.bind_eq_some_iff] at hpar
  obtain ⟨⟨gates, pm⟩, hp, hgen⟩ := hpar
  obtain ⟨calls, h1, hcalls, hlen, -⟩ := parse_run hw U hU hl hr hrp hp
  obtain ⟨s1, s2⟩ := sim_prepare hw U hU hl hr hrp hcan hp
  dsimp only at hgen
  rw [h1, Option.some.injEq] at hgen
  subst hgen
  have hgen : cGenCircuit (F := F) (gates.map PGate.erase) pm = some ⟨(build calls).gates⟩ := by
    unfold genCircuit at h1
    exact sim_genLoop gates s2 h1
  have hb : ∀ call ∈ calls, call.a.1 < 3 ∧ call.b.1 < 3 ∧ call.c.1 < 3 := by
    intro call hcall
    have hb := wirePerm_bounds (gates.map PGate.names) (n := gates.length) (by rw [List.length_map])
    obtain ⟨i, hi, hcalli⟩ := List.getElem_of_mem hcall
    have hi2 : i < gates.length := by omega
    have hget := wiredCalls_getElem? (gates.map PGate.names) 0 gates i
    rw [← hcalls, List.getElem?_eq_getElem hi, hcalli, List.getElem?_eq_getElem hi2, Option.map_some,
      Option.some.injEq, Nat.zero_add] at hget
    rw [hget]
    exact ⟨(hb (0, i) ⟨by norm_num, hi2⟩).1.1, (hb (1, i) ⟨by norm_num, hi2⟩).1.1, (hb (2, i) ⟨by norm_num, hi2⟩).1.1⟩
  unfold cpiCompiled
  simp only [hs, s1, hgen, Option.bind_eq_bind, Option.bind_some]
  exact compile_agrees_aux calls hb

/-- **C103** (same verdict): in the situation of `C103_same_compiled`, if the prover's circuit compiles, the verifier
that preprocesses the text alone gives every proof the verdict of a verifier holding the prover's circuit. -/
theorem C103_same_verdict (U : Unicode) (hU : U.isWhitespace '-' = false) (wit : List Char → Option F)
    (hw : ∀ nm v, wit nm = some v → parseI32 nm = none) (input lhs rhs : List Char)
    (hs : parseString U input = some (lhs ++ '=' :: rhs)) (hl : '=' ∉ lhs) (hr : '=' ∉ rhs) (hrp : '+' ∉ rhs)
    (hcan : ∀ t, t ∈ lhs.splitOn '+' ∨ t = '-' :: rhs → ∀ tok ∈ t.splitOn '*', Canonical wit (trim U tok))
    (circuit : Circuit F) (hpar : parse U wit input = some circuit)
    (cc : CompiledCircuit F) (hcc : circuit.compile = some cc) :
    ∃ t : GateConstraints F × CopyConstraints F × ℕ, cpiCompiled U input = some t ∧
      ∀ (env : Env F G1) (dig : List UInt8 → List UInt8) (P : PairingGroups F G1 G2 GT) (srs : Srs G1 G2)
        (p : Proof F G1), verify env dig P ⟨t.2.2, t.1, t.2.1⟩ srs p = verify env dig P cc srs p := by
  have h := C103_same_compiled U hU wit hw input lhs rhs hs hl hr hrp hcan circuit hpar
  rw [hcc, Option.map_some] at h
  refine ⟨_, h, ?_⟩
  intro env dig P srs p
  exact C54_ignores_witness env dig P _ _ srs p rfl ⟨rfl, rfl, rfl, rfl, rfl, rfl⟩ rfl

end gen

/-! ## Non-vacuity -/

/-- A text without any variable or number, and with empty operands, is accepted by the preprocessing. -/
theorem C103_nonsense_accepted :
    (cpiCompiled (F := BlsFr) asciiTables "+)(*=".toList).isSome := by
  have e : parseString asciiTables "+)(*=".toList = some ("+)(*".toList ++ '=' :: []) := by decide +kernel
  rw [C103_accepts_iff]
  · refine ⟨_, _, e, by decide, by decide, ?_⟩
    rintro ⟨⟨h, -⟩, -⟩
    exact h (by decide)
  · intro s hs
    rw [e, Option.some.injEq] at hs
    subst hs
    decide

/-- ... which the prover's parser refuses. -/
example : parse asciiTables exWit "+)(*=".toList = none := by decide +kernel

/-- Non-vacuity of the agreement theorems: the repository's example. -/
example : ∃ (circuit : Circuit BlsFr), parse asciiTables exWit "x * y + 3 * X ^ 2 + x * Y * z = 11".toList = some circuit ∧
    cpiCompiled asciiTables "x * y + 3 * X ^ 2 + x * Y * z = 11".toList =
      circuit.compile.map fun cc => ({ cc.gate with fax := [], fbx := [], fcx := [] }, cc.copy, cc.size) := by
  obtain ⟨circuit, h, -⟩ := C71_number_of_gates asciiTables asciiTables_sane exEq exEq_ok exWit exRho exEq_covers _
    exEq_text
  exact ⟨circuit, h, C103_same_compiled asciiTables asciiTables_sane.minus exWit exEq_covers.names _ _ _ exEq_text
    (lhs_noEq asciiTables_sane exEq_ok) (rhs_noEq asciiTables_sane exEq_ok) (rhs_noPlus asciiTables_sane exEq_ok)
    (canonical_equation asciiTables_sane exEq_ok exEq_canonical exEq_covers) circuit h⟩

/-- A single name on each side is refused; a number on either side is enough. -/
example : cpiCompiled (F := BlsFr) asciiTables "x=y".toList = none ∧
    (cpiCompiled (F := BlsFr) asciiTables "x=3".toList).isSome := by
  have e1 : parseString asciiTables "x=y".toList = some ("x".toList ++ '=' :: "y".toList) := by decide +kernel
  have e2 : parseString asciiTables "x=3".toList = some ("x".toList ++ '=' :: "3".toList) := by decide +kernel
  constructor
  · rw [← Option.not_isSome_iff_eq_none, C103_accepts_iff]
    · rintro ⟨lhs, rhs, h, hl, hr, hn⟩
      rw [e1, Option.some.injEq] at h
      have : lhs = "x".toList ∧ rhs = "y".toList := by
        have h1 : "x=y".toList.splitOn '=' = [lhs, rhs] := by
          rw [show "x=y".toList = lhs ++ '=' :: rhs from h, List.splitOn_append_cons_self,
            List.splitOn_eq_singleton hl, List.splitOn_eq_singleton hr]
          rfl
        have h2 : "x=y".toList.splitOn '=' = ["x".toList, "y".toList] := by decide
        rw [h2] at h1
        simp only [List.cons.injEq, and_true] at h1
        exact ⟨h1.1.symm, h1.2.symm⟩
      obtain ⟨rfl, rfl⟩ := this
      exact hn (by decide)
    · intro s hs
      rw [e1, Option.some.injEq] at hs
      subst hs
      decide
  · rw [C103_accepts_iff]
    · exact ⟨_, _, e2, by decide, by decide, by decide⟩
    · intro s hs
      rw [e2, Option.some.injEq] at hs
      subst hs
      decide

end Verif.Plonk

/-!
# Sequences of checks

A specification of functions that return an error for the first check that fails.  Nothing in this file
models code.
-/

namespace Verif

/-- The result of the first failing check of a list of checks with their messages: the message of the first
check that does not hold, `Ok` if all hold. -/
inductive FirstFailed : List (Prop × String) → Except String Unit → Prop
  | done : FirstFailed [] (.ok ())
  | fail (p : Prop) (e : String) (rest : List (Prop × String)) (h : ¬p) : FirstFailed ((p, e) :: rest) (.error e)
  | pass (p : Prop) (e : String) (rest : List (Prop × String)) (res : Except String Unit) (h : p)
      (hr : FirstFailed rest res) : FirstFailed ((p, e) :: rest) res

/-- There is exactly one result. -/
theorem FirstFailed.unique {l : List (Prop × String)} {a b : Except String Unit} (ha : FirstFailed l a)
    (hb : FirstFailed l b) : a = b := by
  induction ha with
  | done => cases hb; rfl
  | fail p e rest h =>
    cases hb with
    | fail => rfl
    | pass _ _ _ _ h' _ => exact absurd h' h
  | pass p e rest res h _ ih =>
    cases hb with
    | fail _ _ _ h' => exact absurd h h'
    | pass _ _ _ _ _ hr => exact ih hr

theorem FirstFailed.exists (l : List (Prop × String)) : ∃ a, FirstFailed l a := by
  induction l with
  | nil => exact ⟨_, .done⟩
  | cons x l ih =>
    obtain ⟨p, e⟩ := x
    obtain ⟨a, ha⟩ := ih
    rcases Classical.em p with h | h
    · exact ⟨a, .pass p e l a h ha⟩
    · exact ⟨_, .fail p e l h⟩

/-- `Ok` means that all checks hold. -/
theorem FirstFailed.ok_iff {l : List (Prop × String)} {a : Except String Unit} (h : FirstFailed l a) :
    a = .ok () ↔ ∀ c ∈ l, c.1 := by
  induction h with
  | done => simp
  | fail p e rest h =>
    constructor
    · intro h'; cases h'
    · intro h'; exact absurd (h' (p, e) (by simp)) h
  | pass p e rest res h _ ih =>
    rw [ih]
    constructor
    · intro h' c hc
      rcases List.mem_cons.1 hc with rfl | hc
      · exact h
      · exact h' c hc
    · intro h' c hc
      exact h' c (List.mem_cons_of_mem _ hc)

/-- An error is the message of a check that fails, and all checks before it hold. -/
theorem FirstFailed.error_iff {l : List (Prop × String)} {a : Except String Unit} (h : FirstFailed l a) (e : String) :
    a = .error e ↔ ∃ pre p post, l = pre ++ (p, e) :: post ∧ (∀ c ∈ pre, c.1) ∧ ¬p := by
  induction h with
  | done =>
    constructor
    · intro h; cases h
    · rintro ⟨pre, p, post, h, -⟩
      cases pre <;> cases h
  | fail p e' rest h =>
    constructor
    · intro h'
      cases h'
      exact ⟨[], p, rest, rfl, by simp, h⟩
    · rintro ⟨pre, q, post, hl, hpre, hq⟩
      cases pre with
      | nil => cases hl; rfl
      | cons c pre =>
        cases hl
        exact absurd (hpre (p, e') (by simp)) h
  | pass p e' rest res h _ ih =>
    rw [ih]
    constructor
    · rintro ⟨pre, q, post, rfl, hpre, hq⟩
      refine ⟨(p, e') :: pre, q, post, rfl, ?_, hq⟩
      intro c hc
      rcases List.mem_cons.1 hc with rfl | hc
      · exact h
      · exact hpre c hc
    · rintro ⟨pre, q, post, hl, hpre, hq⟩
      cases pre with
      | nil => cases hl; exact absurd h hq
      | cons c pre =>
        cases hl
        exact ⟨pre, q, post, rfl, fun c hc => hpre c (List.mem_cons_of_mem _ hc), hq⟩

theorem FirstFailed.append_error {l : List (Prop × String)} {e : String} (l' : List (Prop × String))
    (h : FirstFailed l (.error e)) : FirstFailed (l ++ l') (.error e) := by
  induction l with
  | nil => cases h
  | cons x l ih =>
    cases h with
    | fail p e rest h => exact .fail p e (l ++ l') h
    | pass p e' rest res h hr => exact .pass p e' (l ++ l') _ h (ih hr)

theorem FirstFailed.append_ok {l l' : List (Prop × String)} {a : Except String Unit}
    (h : ∀ c ∈ l, c.1) (h' : FirstFailed l' a) : FirstFailed (l ++ l') a := by
  induction l with
  | nil => exact h'
  | cons x l ih =>
    obtain ⟨p, e⟩ := x
    exact .pass p e (l ++ l') a (h (p, e) (by simp)) (ih fun c hc => h c (List.mem_cons_of_mem _ hc))

/-- Three checks of which the second is the first to fail. -/
example : FirstFailed [(1 + 1 = 2, "a"), (2 ∣ 3, "b"), (2 ∣ 5, "c")] (.error "b") :=
  .pass _ _ _ _ rfl (.fail _ _ _ (by decide))

end Verif

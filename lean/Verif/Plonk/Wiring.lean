import Verif.Plonk.Parser
import Verif.Plonk.Compiled
import Mathlib.GroupTheory.Perm.List
import Mathlib.GroupTheory.Perm.Cycle.Concrete

/-!
# C60: the wiring produced by `gen_circuit`
-/

set_option linter.unusedSectionVars false
set_option linter.unusedSimpArgs false
set_option linter.unusedVariables false

namespace Verif.Plonk

open Verif.Ark

/-! ## Specification vocabulary -/

/-- The three wire expressions of a gate. -/
abbrev Names := List Char × List Char × List Char

/-- The wire expression at position `(layer, row)`: `none` outside the table. -/
def nameAt (T : List Names) (p : ℕ × ℕ) : Option (List Char) :=
  (T[p.2]?).bind fun t =>
    match p.1 with
    | 0 => some t.1
    | 1 => some t.2.1
    | 2 => some t.2.2
    | _ => none

/-- The wire expressions of a parser gate. -/
def PGate.names {F : Type} (g : PGate F) : Names := (g.left.name, g.right.name, g.bottom.name)

/-! ## Occurrences -/

/-- All wire positions from row `i` on, in the order in which they are stored, with their expressions. -/
def slotsFrom : ℕ → List Names → List (List Char × (ℕ × ℕ))
  | _, [] => []
  | i, t :: T => (t.1, (0, i)) :: (t.2.1, (1, i)) :: (t.2.2, (2, i)) :: slotsFrom (i + 1) T

theorem slotsFrom_append (i : ℕ) (T T' : List Names) :
    slotsFrom i (T ++ T') = slotsFrom i T ++ slotsFrom (i + T.length) T' := by
  induction T generalizing i with
  | nil => simp [slotsFrom]
  | cons t T ih =>
    simp only [List.cons_append, slotsFrom, ih, List.length_cons]
    rw [show i + 1 + T.length = i + (T.length + 1) by omega]

theorem mem_slotsFrom (i : ℕ) (T : List Names) (nm : List Char) (p : ℕ × ℕ) :
    (nm, p) ∈ slotsFrom i T ↔ i ≤ p.2 ∧ nameAt T (p.1, p.2 - i) = some nm := by
  induction T generalizing i with
  | nil => simp [slotsFrom, nameAt]
  | cons t T ih =>
    simp only [slotsFrom, List.mem_cons, ih, Prod.mk.injEq]
    obtain ⟨l, r⟩ := p
    dsimp only
    rcases Nat.lt_trichotomy r i with h | h | h
    · constructor
      · rintro (⟨-, -, h'⟩ | ⟨-, -, h'⟩ | ⟨-, -, h'⟩ | ⟨h', -⟩) <;> omega
      · rintro ⟨h', -⟩; omega
    · subst h
      simp only [Prod.mk.injEq, and_true, le_refl, Nat.sub_self, true_and, nameAt, List.getElem?_cons_zero,
        Option.bind_some]
      rcases l with _ | _ | _ | l <;> simp <;> (constructor <;> exact fun h => h.symm)
    · have h1 : r - i = (r - (i + 1)) + 1 := by omega
      simp only [nameAt]
      rw [h1, List.getElem?_cons_succ]
      constructor
      · rintro (⟨-, -, h'⟩ | ⟨-, -, h'⟩ | ⟨-, -, h'⟩ | ⟨-, h'⟩)
        · omega
        · omega
        · omega
        · exact ⟨by omega, h'⟩
      · rintro ⟨-, h'⟩
        exact Or.inr (Or.inr (Or.inr ⟨by omega, h'⟩))

theorem nodup_slotsFrom (i : ℕ) (T : List Names) : ((slotsFrom i T).map Prod.snd).Nodup := by
  induction T generalizing i with
  | nil => simp [slotsFrom]
  | cons t T ih =>
    have hno : ∀ l, (l, i) ∉ (slotsFrom (i + 1) T).map Prod.snd := by
      intro l h
      obtain ⟨⟨nm, p⟩, h1, h2⟩ := List.mem_map.1 h
      have := (mem_slotsFrom _ _ _ _).1 h1
      dsimp only at h2
      subst h2
      have := this.1
      dsimp only at this
      omega
    simp only [slotsFrom, List.map_cons, List.nodup_cons, List.mem_cons, not_or, Prod.mk.injEq, ih, and_true]
    refine ⟨⟨by simp, by simp, hno _⟩, ⟨by simp, hno _⟩, hno _⟩

/-- All positions carrying the expression `key`, in the order in which they are stored. -/
def occ (T : List Names) (key : List Char) : List (ℕ × ℕ) :=
  ((slotsFrom 0 T).filter (fun s => s.1 = key)).map Prod.snd

theorem mem_occ (T : List Names) (key : List Char) (p : ℕ × ℕ) : p ∈ occ T key ↔ nameAt T p = some key := by
  unfold occ
  constructor
  · intro h
    obtain ⟨⟨nm, q⟩, h1, h2⟩ := List.mem_map.1 h
    rw [List.mem_filter] at h1
    have := (mem_slotsFrom _ _ _ _).1 h1.1
    dsimp only at h2
    subst h2
    have h3 : nm = key := by simpa using h1.2
    subst h3
    simpa using this.2
  · intro h
    refine List.mem_map.2 ⟨(key, p), List.mem_filter.2 ⟨(mem_slotsFrom _ _ _ _).2 ⟨Nat.zero_le _, by simpa using h⟩,
      by simp⟩, rfl⟩

theorem nodup_occ (T : List Names) (key : List Char) : (occ T key).Nodup := by
  have := nodup_slotsFrom 0 T
  exact this.sublist (List.Sublist.map _ List.filter_sublist)

/-! ## The permutation -/

/-- The next position with the same expression, cyclically. -/
def nextPos (T : List Names) (p : ℕ × ℕ) : ℕ × ℕ :=
  match nameAt T p with
  | none => p
  | some key => (occ T key).formPerm p

theorem nextPos_some {T : List Names} {p : ℕ × ℕ} {key : List Char} (h : nameAt T p = some key) :
    nextPos T p = (occ T key).formPerm p := by simp [nextPos, h]

theorem nameAt_nextPos (T : List Names) (p : ℕ × ℕ) : nameAt T (nextPos T p) = nameAt T p := by
  unfold nextPos
  split
  · rfl
  · rename_i key h
    rw [h, ← mem_occ]
    exact List.formPerm_apply_mem_of_mem ((mem_occ _ _ _).2 h)

/-- The permutation of all positions. -/
def wirePerm (T : List Names) : Equiv.Perm (ℕ × ℕ) where
  toFun := nextPos T
  invFun p :=
    match nameAt T p with
    | none => p
    | some key => ((occ T key).formPerm)⁻¹ p
  left_inv := by
    intro p
    dsimp only
    rw [nameAt_nextPos]
    cases h : nameAt T p with
    | none => simp [nextPos, h]
    | some key => simp [nextPos_some h]
  right_inv := by
    intro p
    dsimp only
    cases h : nameAt T p with
    | none => simp [nextPos, h]
    | some key =>
      dsimp only
      have hm : nameAt T (((occ T key).formPerm)⁻¹ p) = some key := by
        rw [← mem_occ]
        have : (((occ T key).formPerm)⁻¹ p) ∈ occ T key := by
          rw [← List.formPerm_mem_iff_mem]
          simpa using (mem_occ _ _ _).2 h
        exact this
      rw [nextPos_some hm]
      simp

theorem wirePerm_apply (T : List Names) (p : ℕ × ℕ) : wirePerm T p = nextPos T p := rfl

theorem nameAt_wirePerm_zpow (T : List Names) (k : ℤ) (p : ℕ × ℕ) :
    nameAt T ((wirePerm T ^ k) p) = nameAt T p := by
  have h1 : ∀ p, nameAt T (wirePerm T p) = nameAt T p := nameAt_nextPos T
  have h2 : ∀ p, nameAt T ((wirePerm T)⁻¹ p) = nameAt T p := by
    intro p
    rw [← h1 ((wirePerm T)⁻¹ p)]
    simp
  induction k using Int.induction_on generalizing p with
  | zero => simp
  | succ k ih => rw [zpow_add_one, Equiv.Perm.mul_apply, ih, h1]
  | pred k ih => rw [zpow_sub_one, Equiv.Perm.mul_apply, ih, h2]

theorem wirePerm_pow {T : List Names} {p : ℕ × ℕ} {key : List Char} (h : nameAt T p = some key) (k : ℕ) :
    (wirePerm T ^ k) p = ((occ T key).formPerm ^ k) p := by
  induction k with
  | zero => simp
  | succ k ih =>
    have hk : nameAt T ((wirePerm T ^ k) p) = some key := by
      have := nameAt_wirePerm_zpow T k p
      rw [zpow_natCast] at this
      rw [this, h]
    rw [pow_succ', Equiv.Perm.mul_apply, wirePerm_apply, nextPos_some hk, ih, pow_succ', Equiv.Perm.mul_apply]

/-- The cycles of the permutation are exactly the classes of equal expressions. -/
theorem sameCycle_wirePerm (T : List Names) (p q : ℕ × ℕ) (hp : (nameAt T p).isSome) :
    (wirePerm T).SameCycle p q ↔ nameAt T p = nameAt T q := by
  constructor
  · rintro ⟨k, rfl⟩
    exact (nameAt_wirePerm_zpow T k p).symm
  · intro h
    obtain ⟨key, hk⟩ := Option.isSome_iff_exists.1 hp
    have hcyc := (nodup_occ T key).isCycleOn_formPerm
    have hfin : ({a | a ∈ occ T key} : Set (ℕ × ℕ)).Finite := List.finite_toSet _
    obtain ⟨k, hk'⟩ := hcyc.exists_pow_eq' hfin ((mem_occ _ _ _).2 hk) ((mem_occ _ _ _).2 (h ▸ hk))
    refine ⟨k, ?_⟩
    rw [zpow_natCast, wirePerm_pow hk, hk']

/-! ## Serving the positions -/

/-- The queues when the slots `done` have been served. -/
def queue (T : List Names) (done : List (List Char × (ℕ × ℕ))) : PosMap := fun key =>
  (((occ T key).rotate 1).drop (done.countP (fun s => s.1 = key))).reverse

theorem reverseRotate_eq {α : Type} (l : List α) : reverseRotate l = (l.rotate 1).reverse := by
  unfold reverseRotate
  cases l with
  | nil => simp
  | cons x l => simp

theorem queue_nil (T : List Names) : (fun key => reverseRotate (occ T key)) = queue T [] := by
  funext key
  simp [reverseRotate_eq, queue]

theorem pop_queue (T : List Names) (done rest : List (List Char × (ℕ × ℕ))) (key : List Char) (p : ℕ × ℕ)
    (hS : slotsFrom 0 T = done ++ (key, p) :: rest) :
    (queue T done).pop key = some (wirePerm T p, queue T (done ++ [(key, p)])) := by
  have hocc : occ T key = (done.filter (fun s => s.1 = key)).map Prod.snd ++
      p :: (rest.filter (fun s => s.1 = key)).map Prod.snd := by
    unfold occ
    rw [hS, List.filter_append, List.filter_cons_of_pos (by simp), List.map_append, List.map_cons]
  set c := done.countP (fun s => s.1 = key) with hc
  have hlen : ((done.filter (fun s => s.1 = key)).map Prod.snd).length = c := by
    rw [List.length_map, hc, List.countP_eq_length_filter]
  have hclt : c < (occ T key).length := by rw [hocc, List.length_append, hlen]; simp
  have hget : (occ T key)[c] = p := by
    simp only [hocc]
    rw [List.getElem_append_right (by rw [hlen])]
    simp [hlen]
  have hname : nameAt T p = some key := by rw [← mem_occ, hocc]; simp
  have hnext : ((occ T key).rotate 1)[c]'(by simpa using hclt) = wirePerm T p := by
    rw [List.getElem_rotate, wirePerm_apply, nextPos_some hname]
    have := List.formPerm_apply_getElem (occ T key) (nodup_occ T key) c hclt
    rw [hget] at this
    rw [this]
  have hq : queue T done key = ((wirePerm T p) :: ((occ T key).rotate 1).drop (c + 1)).reverse := by
    unfold queue
    rw [← hc, List.drop_eq_getElem_cons (by simpa using hclt), hnext]
  unfold PosMap.pop
  rw [hq, List.getLast?_reverse, List.head?_cons]
  dsimp only
  congr 2
  funext k
  by_cases hk : k = key
  · subst hk
    rw [Function.update_self, List.dropLast_reverse]
    simp [queue, ← hc, List.countP_append]
  · rw [Function.update_of_ne hk]
    have : ¬ key = k := fun h => hk h.symm
    simp [queue, List.countP_append, this]

section gen
variable {F : Type} [Field F] [DecidableEq F]

/-- The call made for gate `g` in row `i`. -/
def wiredCall (T : List Names) (i : ℕ) (g : PGate F) : GateCall F :=
  { ty := g.ty
    a := ((wirePerm T (0, i)).1, (wirePerm T (0, i)).2, g.left.val)
    b := ((wirePerm T (1, i)).1, (wirePerm T (1, i)).2, g.right.val)
    c := ((wirePerm T (2, i)).1, (wirePerm T (2, i)).2, g.bottom.val)
    pi := 0 }

/-- The calls of `gen_circuit`. -/
def wiredCalls (T : List Names) : ℕ → List (PGate F) → List (GateCall F)
  | _, [] => []
  | i, g :: gs => wiredCall T i g :: wiredCalls T (i + 1) gs

theorem genStep_eq (T : List Names) (done rest : List (List Char × (ℕ × ℕ))) (i : ℕ) (g : PGate F) (c : Circuit F)
    (hS : slotsFrom 0 T = done ++ slotsFrom i [g.names] ++ rest) :
    genStep c (queue T done) g = some (GateCall.apply c (wiredCall T i g),
      queue T (done ++ slotsFrom i [g.names])) := by
  unfold genStep
  have h1 := pop_queue T done ((g.right.name, (1, i)) :: (g.bottom.name, (2, i)) :: rest) g.left.name (0, i)
    (by rw [hS]; simp [slotsFrom, PGate.names])
  have h2 := pop_queue T (done ++ [(g.left.name, (0, i))]) ((g.bottom.name, (2, i)) :: rest) g.right.name (1, i)
    (by rw [hS]; simp [slotsFrom, PGate.names])
  have h3 := pop_queue T (done ++ [(g.left.name, (0, i))] ++ [(g.right.name, (1, i))]) rest g.bottom.name (2, i)
    (by rw [hS]; simp [slotsFrom, PGate.names])
  have e : done ++ slotsFrom i [g.names] =
      done ++ [(g.left.name, (0, i))] ++ [(g.right.name, (1, i))] ++ [(g.bottom.name, (2, i))] := by
    simp [slotsFrom, PGate.names]
  rw [e]
  simp only [h1, h2, h3, Option.bind_eq_bind, Option.bind_some, Option.pure_def]
  unfold GateCall.apply wiredCall
  cases g.ty <;> rfl

theorem genLoop_eq (T : List Names) (gs : List (PGate F)) (i : ℕ) (done : List (List Char × (ℕ × ℕ))) (c : Circuit F)
    (hS : slotsFrom 0 T = done ++ slotsFrom i (gs.map PGate.names)) :
    genLoop gs c (queue T done) = some ((wiredCalls T i gs).foldl GateCall.apply c) := by
  induction gs generalizing i done c with
  | nil => simp [genLoop, wiredCalls]
  | cons g gs ih =>
    have hsplit : slotsFrom i ((g :: gs).map PGate.names) =
        slotsFrom i [g.names] ++ slotsFrom (i + 1) (gs.map PGate.names) := by
      simp [slotsFrom]
    rw [genLoop, genStep_eq T done (slotsFrom (i + 1) (gs.map PGate.names)) i g c
      (by rw [hS, hsplit, List.append_assoc]), Option.bind_some, wiredCalls, List.foldl_cons]
    exact ih (i + 1) _ _ (by rw [hS, hsplit, List.append_assoc])

theorem genCircuit_eq (gates : List (PGate F)) (pm : PosMap) (hpm : pm = occ (gates.map PGate.names)) :
    genCircuit gates pm = some (build (wiredCalls (gates.map PGate.names) 0 gates)) := by
  unfold genCircuit
  rw [hpm, queue_nil]
  exact genLoop_eq _ gates 0 [] _ (by simp)

theorem wiredCalls_length (T : List Names) (i : ℕ) (gs : List (PGate F)) :
    (wiredCalls T i gs).length = gs.length := by
  induction gs generalizing i with
  | nil => rfl
  | cons g gs ih => simp [wiredCalls, ih]

theorem wiredCalls_getElem? (T : List Names) (i : ℕ) (gs : List (PGate F)) (j : ℕ) :
    (wiredCalls T i gs)[j]? = (gs[j]?).map (wiredCall T (i + j)) := by
  induction gs generalizing i j with
  | nil => simp [wiredCalls]
  | cons g gs ih =>
    cases j with
    | zero => simp [wiredCalls]
    | succ j =>
      simp only [wiredCalls, List.getElem?_cons_succ, ih]
      congr 2
      omega

end gen

/-! ## The position map kept by `prepare_gen_circuit` -/

section inv
variable {F : Type} [Field F] [DecidableEq F]

theorem occ_append (T : List Names) (t : Names) (key : List Char) :
    occ (T ++ [t]) key = occ T key ++ (if t.1 = key then [(0, T.length)] else []) ++
      (if t.2.1 = key then [(1, T.length)] else []) ++ (if t.2.2 = key then [(2, T.length)] else []) := by
  unfold occ
  rw [slotsFrom_append, List.filter_append, List.map_append]
  simp only [slotsFrom, Nat.zero_add, List.append_assoc]
  congr 1
  by_cases h1 : t.1 = key <;> by_cases h2 : t.2.1 = key <;> by_cases h3 : t.2.2 = key <;>
    simp [h1, h2, h3, List.filter_cons]

/-- The position map lists exactly the occurrences of every expression. -/
def PState.PmOk (st : PState F) : Prop := st.pm = occ (st.gates.map PGate.names)

/-- The gate set only contains gates of the gate list. -/
def PState.SetOk (st : PState F) : Prop := ∀ g ∈ st.set, g ∈ st.gates

/-- The initial state. -/
theorem pmOk_empty : (⟨[], [], fun _ => []⟩ : PState F).PmOk := by
  unfold PState.PmOk
  funext key
  simp [occ, slotsFrom]

theorem push_apply (pm : PosMap) (w g : ℕ) (key k : List Char) :
    pm.push w g key k = pm k ++ (if key = k then [(w, g)] else []) := by
  unfold PosMap.push
  by_cases h : key = k
  · subst h; simp
  · rw [Function.update_of_ne (fun e => h e.symm), if_neg h, List.append_nil]

theorem PState.PmOk.insertGate {st : PState F} (h : st.PmOk) (g : PGate F) : (st.insertGate g).PmOk := by
  unfold PState.insertGate
  split
  · exact h
  · unfold PState.PmOk at h ⊢
    funext key
    simp only [List.map_append, List.map_cons, List.map_nil, occ_append, push_apply, h, List.length_map]
    rfl

theorem PState.SetOk.insertGate {st : PState F} (h : st.SetOk) (g : PGate F) : (st.insertGate g).SetOk := by
  unfold PState.insertGate
  split
  · exact h
  · intro x hx
    simp only [List.mem_cons] at hx
    simp only [List.mem_append, List.mem_singleton]
    rcases hx with rfl | hx
    · exact Or.inr rfl
    · exact Or.inl (h x hx)

theorem insertGate_mem {st : PState F} (h : st.SetOk) (g : PGate F) : g ∈ (st.insertGate g).gates := by
  unfold PState.insertGate
  split
  · rename_i hm; exact h g hm
  · simp

theorem insertGate_prefix (st : PState F) (g : PGate F) : st.gates <+: (st.insertGate g).gates := by
  unfold PState.insertGate
  split
  · exact List.prefix_rfl
  · exact List.prefix_append _ _

/-! An invariant that every gate insertion preserves is preserved by the whole run. -/

variable {I : PState F → Prop} (hI : ∀ st g, I st → I (st.insertGate g))
include hI

theorem getWitnessValue_inv {wit : List Char → Option F} {v : List Char} {st : PState F} {r : F × PState F}
    (h : getWitnessValue wit v st = some r) (hst : I st) : I r.2 := by
  unfold getWitnessValue at h
  split at h
  · cases h
  · split at h
    · cases h
    · dsimp only at h
      split at h
      · cases h; exact hst
      · rw [Option.map_eq_some_iff] at h
        obtain ⟨k, -, rfl⟩ := h
        exact hI _ _ hst

theorem tokenWires_inv (U : Unicode) {wit : List Char → Option F} (toks : List (List Char)) {st : PState F}
    {r : List (Wire F) × PState F} (h : tokenWires U wit toks st = some r) (hst : I st) : I r.2 := by
  induction toks generalizing st r with
  | nil => simp only [tokenWires, Option.some.injEq] at h; subst h; exact hst
  | cons s rest ih =>
    simp only [tokenWires, Option.bind_eq_bind, Option.bind_eq_some_iff, Option.pure_def, Option.some.injEq] at h
    obtain ⟨a, ha, b, hb, rfl⟩ := h
    exact ih (r := b) hb (getWitnessValue_inv hI ha hst)

theorem mulReduce_inv (ws : List (Wire F)) (w : Wire F) {st : PState F} (hst : I st) : I (mulReduce w ws st).2 := by
  induction ws generalizing w st with
  | nil => exact hst
  | cons v ws ih => exact ih _ (hI _ _ hst)

theorem termWire_inv (U : Unicode) {wit : List Char → Option F} (t : List Char) {st : PState F}
    {r : Wire F × PState F} (h : termWire U wit t st = some r) (hst : I st) : I r.2 := by
  simp only [termWire, Option.bind_eq_bind, Option.bind_eq_some_iff] at h
  obtain ⟨a, ha, h⟩ := h
  have := tokenWires_inv hI U _ ha hst
  split at h
  · cases h
  · simp only [Option.pure_def, Option.some.injEq] at h
    subst h
    exact mulReduce_inv hI _ _ this

theorem addReduce_inv (U : Unicode) {wit : List Char → Option F} (ts : List (List Char)) {w : Wire F} {st : PState F}
    {r : Wire F × PState F} (h : addReduce U wit ts w st = some r) (hst : I st) : I r.2 := by
  induction ts generalizing w st with
  | nil => simp only [addReduce, Option.some.injEq] at h; subst h; exact hst
  | cons t ts ih =>
    simp only [addReduce, Option.bind_eq_bind, Option.bind_eq_some_iff] at h
    obtain ⟨a, ha, h⟩ := h
    exact ih h (hI _ _ (termWire_inv hI U _ ha hst))

end inv

section C60
variable {F : Type} [Field F] [DecidableEq F]

theorem zeroLast_names {gates gates' : List (PGate F)} (h : zeroLast gates = some gates') :
    gates'.map PGate.names = gates.map PGate.names := by
  unfold zeroLast at h
  split at h
  · cases h
  · rename_i g hg
    simp only [Option.some.injEq] at h
    subst h
    have hne : gates ≠ [] := by rintro rfl; simp at hg
    rw [List.getLast?_eq_some_getLast hne, Option.some.injEq] at hg
    conv_rhs => rw [← List.dropLast_append_getLast hne]
    simp [PGate.names, hg]

theorem prepare_pm {U : Unicode} {wit : List Char → Option F} {s : List Char} {gates : List (PGate F)} {pm : PosMap}
    (h : prepareGenCircuit U wit s = some (gates, pm)) : pm = occ (gates.map PGate.names) := by
  simp only [prepareGenCircuit, Option.bind_eq_bind, Option.bind_eq_some_iff] at h
  obtain ⟨terms, -, h⟩ := h
  split at h
  · cases h
  · rename_i t ts
    simp only [Option.bind_eq_some_iff, Option.pure_def, Option.some.injEq, Prod.mk.injEq] at h
    obtain ⟨r, hr, q, hq, g', hg', rfl, rfl⟩ := h
    have h1 := termWire_inv (I := PState.PmOk) (fun st g hst => hst.insertGate g) U t hr pmOk_empty
    have h2 := addReduce_inv (I := PState.PmOk) (fun st g hst => hst.insertGate g) U ts hq h1
    rw [zeroLast_names hg']
    exact h2

theorem target_wiredCalls (T : List Names) (gs : List (PGate F)) (hT : T = gs.map PGate.names) {l : ℕ} (hl : l < 3)
    (i : ℕ) : target (wiredCalls T 0 gs) l i = wirePerm T (l, i) := by
  unfold target
  rw [wiredCalls_getElem?, Nat.zero_add]
  cases hg : gs[i]? with
  | none =>
    have : nameAt T (l, i) = none := by
      subst hT
      simp [nameAt, hg]
    simp [wirePerm_apply, nextPos, this]
  | some g =>
    rcases l with _ | _ | _ | l
    · rfl
    · rfl
    · rfl
    · omega

/-- A permutation of `ℕ × ℕ` that moves only positions of the first `n` rows and three layers, as a
permutation of these positions. -/
theorem restrict_perm (f : Equiv.Perm (ℕ × ℕ)) (n : ℕ) (hf : ∀ p : ℕ × ℕ, (p.1 < 3 ∧ p.2 < n) →
    (f p).1 < 3 ∧ (f p).2 < n) (hf' : ∀ p : ℕ × ℕ, (p.1 < 3 ∧ p.2 < n) → (f⁻¹ p).1 < 3 ∧ (f⁻¹ p).2 < n) :
    ∃ σ : Equiv.Perm (Fin 3 × Fin n), (∀ p : Fin 3 × Fin n, f (p.1, p.2) = (((σ p).1 : ℕ), ((σ p).2 : ℕ))) ∧
      ∀ p q : Fin 3 × Fin n, σ.SameCycle p q ↔ f.SameCycle ((p.1 : ℕ), (p.2 : ℕ)) ((q.1 : ℕ), (q.2 : ℕ)) := by
  have hb : ∀ p : Fin 3 × Fin n, ((p.1 : ℕ), (p.2 : ℕ)).1 < 3 ∧ ((p.1 : ℕ), (p.2 : ℕ)).2 < n :=
    fun p => ⟨p.1.2, p.2.2⟩
  let σ : Equiv.Perm (Fin 3 × Fin n) :=
    { toFun := fun p => (⟨_, (hf _ (hb p)).1⟩, ⟨_, (hf _ (hb p)).2⟩)
      invFun := fun p => (⟨_, (hf' _ (hb p)).1⟩, ⟨_, (hf' _ (hb p)).2⟩)
      left_inv := by
        intro p
        simp
      right_inv := by
        intro p
        simp }
  have h1 : ∀ p : Fin 3 × Fin n, f (p.1, p.2) = (((σ p).1 : ℕ), ((σ p).2 : ℕ)) := fun p => rfl
  have h2 : ∀ p : Fin 3 × Fin n, f⁻¹ (p.1, p.2) = (((σ⁻¹ p).1 : ℕ), ((σ⁻¹ p).2 : ℕ)) := fun p => rfl
  have h3 : ∀ (k : ℤ) (p : Fin 3 × Fin n), (f ^ k) (p.1, p.2) = ((((σ ^ k) p).1 : ℕ), (((σ ^ k) p).2 : ℕ)) := by
    intro k
    induction k using Int.induction_on with
    | zero => intro p; simp
    | succ k ih =>
      intro p
      rw [zpow_add_one, Equiv.Perm.mul_apply, h1, ih, zpow_add_one, Equiv.Perm.mul_apply]
    | pred k ih =>
      intro p
      rw [zpow_sub_one, Equiv.Perm.mul_apply, h2, ih, zpow_sub_one, Equiv.Perm.mul_apply]
  refine ⟨σ, h1, fun p q => ⟨?_, ?_⟩⟩
  · rintro ⟨k, rfl⟩
    exact ⟨k, h3 k p⟩
  · rintro ⟨k, hk⟩
    refine ⟨k, ?_⟩
    rw [h3 k p, Prod.mk.injEq] at hk
    exact Prod.ext (Fin.ext hk.1) (Fin.ext hk.2)

theorem nameAt_isSome (T : List Names) (p : ℕ × ℕ) : (nameAt T p).isSome ↔ p.1 < 3 ∧ p.2 < T.length := by
  unfold nameAt
  by_cases h : p.2 < T.length
  · rw [List.getElem?_eq_getElem h, Option.bind_some]
    rcases hp : p.1 with _ | _ | _ | l <;> simp [h]
  · rw [List.getElem?_eq_none (by omega)]
    simp [h]

theorem wirePerm_bounds (T : List Names) {n : ℕ} (hn : T.length ≤ n) (p : ℕ × ℕ) (hp : p.1 < 3 ∧ p.2 < n) :
    ((wirePerm T p).1 < 3 ∧ (wirePerm T p).2 < n) ∧ ((wirePerm T)⁻¹ p).1 < 3 ∧ ((wirePerm T)⁻¹ p).2 < n := by
  have h1 : nameAt T (wirePerm T p) = nameAt T p := nameAt_nextPos T p
  have h2 : nameAt T ((wirePerm T)⁻¹ p) = nameAt T p := by
    have := nameAt_wirePerm_zpow T (-1) p
    simpa using this
  cases h : nameAt T p with
  | none =>
    have e : wirePerm T p = p := by simp [wirePerm_apply, nextPos, h]
    have e' : (wirePerm T)⁻¹ p = p := by
      rw [Equiv.Perm.inv_eq_iff_eq, e]
    rw [e, e']
    exact ⟨hp, hp⟩
  | some key =>
    have a1 := (nameAt_isSome T (wirePerm T p)).1 (by rw [h1, h]; rfl)
    have a2 := (nameAt_isSome T ((wirePerm T)⁻¹ p)).1 (by rw [h2, h]; rfl)
    exact ⟨⟨a1.1, by omega⟩, a2.1, by omega⟩

/-- **C60**: `gen_circuit` never panics on the output of `prepare_gen_circuit`.  It makes one call per gate, of
the same type and with the same wire values, and for every table size `n` with at least as many rows as
gates (padding included) the stored positions are a permutation of the `3n` wire positions that fixes the padding
rows and whose cycles are exactly the classes of positions carrying the same wire expression. -/
theorem C60_wiring (U : Unicode) (wit : List Char → Option F) (s : List Char) (gates : List (PGate F)) (pm : PosMap)
    (h : prepareGenCircuit U wit s = some (gates, pm)) :
    ∃ calls : List (GateCall F), genCircuit gates pm = some (build calls) ∧
      calls.map (fun c => (c.ty, c.a.2.2, c.b.2.2, c.c.2.2, c.pi)) =
        gates.map (fun g => (g.ty, g.left.val, g.right.val, g.bottom.val, 0)) ∧
      ∀ n, gates.length ≤ n → ∃ σ : Equiv.Perm (Fin 3 × Fin n),
        (∀ p : Fin 3 × Fin n, target calls p.1 p.2 = (((σ p).1 : ℕ), ((σ p).2 : ℕ))) ∧
        (∀ p : Fin 3 × Fin n, gates.length ≤ p.2 → σ p = p) ∧
        (∀ p q : Fin 3 × Fin n, (p.2 : ℕ) < gates.length →
          (σ.SameCycle p q ↔ nameAt (gates.map PGate.names) ((p.1 : ℕ), (p.2 : ℕ)) =
            nameAt (gates.map PGate.names) ((q.1 : ℕ), (q.2 : ℕ)))) := by
  set T := gates.map PGate.names with hT
  have hlen : T.length = gates.length := by simp [hT]
  refine ⟨wiredCalls T 0 gates, genCircuit_eq gates pm (prepare_pm h), ?_, ?_⟩
  · clear_value T
    clear hT hlen h
    have : ∀ i, (wiredCalls T i gates).map (fun c => (c.ty, c.a.2.2, c.b.2.2, c.c.2.2, c.pi)) =
        gates.map (fun g => (g.ty, g.left.val, g.right.val, g.bottom.val, 0)) := by
      induction gates with
      | nil => intro i; rfl
      | cons g gs ih =>
        intro i
        rw [wiredCalls, List.map_cons, List.map_cons, ih]
        rfl
    exact this 0
  · intro n hn
    obtain ⟨σ, h1, h2⟩ := restrict_perm (wirePerm T) n
      (fun p hp => (wirePerm_bounds T (by omega) p hp).1) (fun p hp => (wirePerm_bounds T (by omega) p hp).2)
    refine ⟨σ, fun p => ?_, fun p hp => ?_, fun p q hp => ?_⟩
    · rw [target_wiredCalls T gates hT p.1.2, h1]
    · have hnone : nameAt T ((p.1 : ℕ), (p.2 : ℕ)) = none := by
        rw [← Option.not_isSome_iff_eq_none, nameAt_isSome]
        simp only [not_and]
        omega
      have := h1 p
      rw [wirePerm_apply, nextPos, hnone, Prod.mk.injEq] at this
      exact Prod.ext (Fin.ext this.1.symm) (Fin.ext this.2.symm)
    · rw [h2, sameCycle_wirePerm _ _ _ ((nameAt_isSome _ _).2 ⟨p.1.2, by rw [hlen]; exact hp⟩)]

end C60

/-! ## Non-vacuity -/

/-- Example witnesses `x = 1`, `y = 2`, `z = 3`. -/
def exWit : List Char → Option BlsFr :=
  addWitness (addWitness (addWitness noWitness ['x'] 1) ['y'] 2) ['z'] 3

/-- Non-vacuity: the equation of the repository's own test is accepted and gives nine gates. -/
example : ((prepareGenCircuit asciiTables exWit "x*y+3*x*x+x*y*z=11".toList).map fun r => r.1.length) = some 9 := by
  decide +kernel

/-- The positions stored for that equation, exactly those of the hand-written circuit of the repository's test
`parser_circuit_test` (`plonk/src/parser.rs` lines 484-565). -/
theorem repository_test : ((parse asciiTables exWit "x*y+3*x^2+x*y*z=11".toList).map fun c => c.gates.map fun g =>
    (g.aPos, g.bPos, g.cPos)) = some
    [(.pos 1 2, .pos 1 0, .pos 0 4), (.pos 0 2, .pos 1 7, .pos 2 1), (.pos 0 1, .pos 1 3, .pos 0 3),
     (.pos 2 2, .pos 0 0, .pos 1 4), (.pos 0 5, .pos 2 3, .pos 0 6), (.pos 2 0, .pos 1 5, .pos 1 6),
     (.pos 2 4, .pos 2 5, .pos 0 8), (.pos 1 8, .pos 1 1, .pos 2 7), (.pos 2 6, .pos 0 7, .pos 2 8)] := by
  decide +kernel

end Verif.Plonk

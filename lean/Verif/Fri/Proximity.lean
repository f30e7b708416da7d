import Verif.Fri.OracleSoundness
import Verif.Fri.LineGap

/-!
# C75 with the distance preserved

`C75_oracle_soundness` loses a factor of two per layer.  Here more challenges are excluded in each round (a number that does
not depend on the size of the field) and the number of rejected positions equals the distance of the first word to low degree,
up to a third of the distance between polynomials, or half of it (with more excluded challenges; this uses `Fri/LineGap.lean`).
-/

set_option linter.unusedSectionVars false
set_option linter.unusedVariables false

namespace Verif.Fri

open Verif.Ark Polynomial

variable {F : Type} [FftField F] [DecidableEq F]

/-! ## Specification -/

/-- As `Resists`, with at most `T i` exceptional challenges in round `i`. -/
def ResistsBut (T : ℕ → ℕ) (env : Env F) (k : ℕ) (c : F) (B : ℕ) : ℕ → List F → List (ℕ → F) → Prop
  | 0, rs, ws => ∀ cv : F, ∃ R : Finset ℕ, R ⊆ Finset.range (2 ^ k) ∧ B < R.card ∧
      ∀ pos ∈ R, QueryRejects env k c rs ws cv pos
  | l + 1, rs, ws => ∀ w : ℕ → F,
      AllBut (T ws.length) fun r : F => ResistsBut T env k c B l (rs ++ [r]) (ws ++ [w])

/-- With one exceptional challenge per round this is `Resists`. -/
theorem resistsBut_one (env : Env F) (k : ℕ) (c : F) (B l : ℕ) (rs : List F) (ws : List (ℕ → F)) :
    ResistsBut (fun _ => 1) env k c B l rs ws ↔ Resists env k c B l rs ws := by
  induction l generalizing rs ws with
  | zero => rfl
  | succ l ih =>
    unfold ResistsBut Resists
    simp only [ih]

/-- At the end of the game `ResistsBut` is `Resists`: `C75_query_count`, `C75_verify_rejects` and `C21_repaired_partial`
apply. -/
theorem resistsBut_zero (T : ℕ → ℕ) (env : Env F) (k : ℕ) (c : F) (B : ℕ) (rs : List F) (ws : List (ℕ → F)) :
    ResistsBut T env k c B 0 rs ws ↔ Resists env k c B 0 rs ws := Iff.rfl

/-! ## Proof -/

theorem AllBut.mono {P : F → Prop} {s t : ℕ} (h : AllBut s P) (hst : s ≤ t) : AllBut t P := by
  obtain ⟨S, hS, h⟩ := h
  exact ⟨S, hS.trans hst, h⟩

theorem many_of_not_allBut {t : ℕ} {P : F → Prop} (h : ¬ AllBut t P) : ∃ R : Finset F, R.card = t + 1 ∧ ∀ r ∈ R, ¬ P r := by
  by_cases hf : {r | ¬ P r}.Finite
  · by_cases hc : hf.toFinset.card ≤ t
    · refine absurd ⟨hf.toFinset, hc, fun x hx => ?_⟩ h
      by_contra hp
      exact hx (hf.mem_toFinset.2 hp)
    · obtain ⟨R, hR, hcard⟩ := Finset.exists_subset_card_eq (s := hf.toFinset) (n := t + 1) (by omega)
      exact ⟨R, hcard, fun r hr => hf.mem_toFinset.1 (hR hr)⟩
  · obtain ⟨R, hR, hcard⟩ := Set.Infinite.exists_subset_card_eq hf (t + 1)
    exact ⟨R, hcard, fun r hr => hR hr⟩

/-- If the nearest polynomials of more than `e + 1` words of a line lie on a line too, the two words that span it are polynomials
wherever one of these words is. -/
theorem line_agree_of_line (Y : Finset ℕ) (x f0 f1 : ℕ → F) (m e : ℕ) (R : Finset F) (hR : e + 2 ≤ R.card) (P : F → F[X])
    (hclose : ∀ r ∈ R, (Y.filter fun y => ¬ f0 y + r * f1 y = (P r).eval (x y)).card ≤ e) (u0 u1 : F[X])
    (d0 : u0.degree < m) (d1 : u1.degree < m) (hline : ∀ r ∈ R, P r = u0 + C r * u1) :
    ∃ r ∈ R, ∃ u0 u1 : F[X], u0.degree < m ∧ u1.degree < m ∧
      ∀ y ∈ Y, f0 y + r * f1 y = (P r).eval (x y) → f0 y = u0.eval (x y) ∧ f1 y = u1.eval (x y) := by
  classical
  by_contra hcon
  push Not at hcon
  let S := Y.filter fun y => ¬ (f0 y = u0.eval (x y) ∧ f1 y = u1.eval (x y))
  let Z : F → Finset ℕ := fun r => S.filter fun y => f0 y + r * f1 y = (P r).eval (x y)
  have hZpos : ∀ r ∈ R, 1 ≤ (Z r).card := by
    intro r hr
    obtain ⟨y, hy, hag, hnot⟩ := hcon r hr u0 u1 d0 d1
    refine Finset.card_pos.2 ⟨y, Finset.mem_filter.2 ⟨Finset.mem_filter.2 ⟨hy, fun h => hnot h.1 h.2⟩, hag⟩⟩
  have hZge : ∀ r ∈ R, S.card ≤ (Z r).card + e := by
    intro r hr
    have h1 := Finset.card_filter_add_card_filter_not (s := S) (p := fun y => f0 y + r * f1 y = (P r).eval (x y))
    have h2 : (S.filter fun y => ¬ f0 y + r * f1 y = (P r).eval (x y)).card ≤ e :=
      (Finset.card_le_card (Finset.filter_subset_filter _ (Finset.filter_subset _ _))).trans (hclose r hr)
    simp only [Z]
    omega
  have hdisj : ∀ r ∈ R, ∀ s ∈ R, r ≠ s → Disjoint (Z r) (Z s) := by
    intro r hr s hs hrs
    rw [Finset.disjoint_left]
    intro y hy hy'
    obtain ⟨hyS, e1⟩ := Finset.mem_filter.1 hy
    obtain ⟨-, e2⟩ := Finset.mem_filter.1 hy'
    obtain ⟨-, hn⟩ := Finset.mem_filter.1 hyS
    rw [hline r hr, eval_add, eval_mul, eval_C] at e1
    rw [hline s hs, eval_add, eval_mul, eval_C] at e2
    have e3 : (r - s) * (f1 y - u1.eval (x y)) = 0 := by linear_combination e1 - e2
    rcases mul_eq_zero.1 e3 with h | h
    · exact hrs (sub_eq_zero.1 h)
    · have h1 := sub_eq_zero.1 h
      rw [h1] at e1
      exact hn ⟨add_right_cancel e1, h1⟩
  have hsum : ∑ r ∈ R, (Z r).card ≤ S.card := by
    rw [← Finset.card_biUnion hdisj]
    exact Finset.card_le_card (Finset.biUnion_subset.2 fun r _ => Finset.filter_subset _ _)
  by_cases hs : S.card ≤ e + 1
  · have : R.card ≤ ∑ r ∈ R, (Z r).card := by
      rw [Finset.card_eq_sum_ones]
      exact Finset.sum_le_sum hZpos
    omega
  · have : R.card * (S.card - e) ≤ ∑ r ∈ R, (Z r).card := by
      rw [← smul_eq_mul, ← Finset.sum_const]
      refine Finset.sum_le_sum fun r hr => ?_
      have := hZge r hr
      omega
    have h3 : (e + 2) * (S.card - e) ≤ S.card := (Nat.mul_le_mul_right _ hR).trans (this.trans hsum)
    obtain ⟨d, hd'⟩ : ∃ d, S.card = e + 2 + d := ⟨S.card - (e + 2), by omega⟩
    rw [hd', show e + 2 + d - e = d + 2 by omega] at h3
    nlinarith

/-- A line of words that is close to polynomials in many points consists of two words that are polynomials wherever one of
these points is. -/
theorem line_agree (Y : Finset ℕ) (x f0 f1 : ℕ → F) (hx : Set.InjOn x Y) (m e : ℕ) (hY : 3 * e + m ≤ Y.card) (R : Finset F)
    (hR : e + 2 ≤ R.card) (P : F → F[X]) (hP : ∀ r ∈ R, (P r).degree < m)
    (hclose : ∀ r ∈ R, (Y.filter fun y => ¬ f0 y + r * f1 y = (P r).eval (x y)).card ≤ e) :
    ∃ r ∈ R, ∃ u0 u1 : F[X], u0.degree < m ∧ u1.degree < m ∧
      ∀ y ∈ Y, f0 y + r * f1 y = (P r).eval (x y) → f0 y = u0.eval (x y) ∧ f1 y = u1.eval (x y) := by
  classical
  obtain ⟨r₁, h₁, r₂, h₂, hne⟩ := Finset.one_lt_card.1 (show 1 < R.card by omega)
  have hd : r₁ - r₂ ≠ 0 := sub_ne_zero.2 hne
  set u1 : F[X] := C (r₁ - r₂)⁻¹ * (P r₁ - P r₂) with hu1
  set u0 : F[X] := P r₁ - C r₁ * u1 with hu0
  have deg_C : ∀ (a : F) (p : F[X]), p.degree < m → (C a * p).degree < m := fun a p hp => by
    rw [← smul_eq_C_mul]
    exact (degree_smul_le a p).trans_lt hp
  have deg_sub : ∀ p q : F[X], p.degree < m → q.degree < m → (p - q).degree < m := fun p q hp hq =>
    (degree_sub_le p q).trans_lt (max_lt hp hq)
  have deg_add : ∀ p q : F[X], p.degree < m → q.degree < m → (p + q).degree < m := fun p q hp hq =>
    (degree_add_le p q).trans_lt (max_lt hp hq)
  have d1 : u1.degree < m := deg_C _ _ (deg_sub _ _ (hP _ h₁) (hP _ h₂))
  have d0 : u0.degree < m := deg_sub _ _ (hP _ h₁) (deg_C _ _ d1)
  have hline : ∀ r ∈ R, P r = u0 + C r * u1 := by
    intro r hr
    let bad : F → Finset ℕ := fun r => Y.filter fun y => ¬ f0 y + r * f1 y = (P r).eval (x y)
    let A := Y \ (bad r₁ ∪ bad r₂ ∪ bad r)
    have hA : m ≤ A.card := by
      have e1 := Finset.le_card_sdiff (bad r₁ ∪ bad r₂ ∪ bad r) Y
      have e2 := Finset.card_union_le (bad r₁ ∪ bad r₂) (bad r)
      have e3 := Finset.card_union_le (bad r₁) (bad r₂)
      have b1 := hclose r₁ h₁
      have b2 := hclose r₂ h₂
      have b3 := hclose r hr
      simp only [bad] at e1 e2 e3
      simp only [A, bad]
      omega
    have hinj : Set.InjOn x A := hx.mono (by simp [A])
    have hcard : (A.image x).card = A.card := Finset.card_image_of_injOn hinj
    refine eq_of_degrees_lt_of_eval_finset_eq (A.image x) ?_ ?_ ?_
    · rw [hcard]; exact (hP r hr).trans_le (by exact_mod_cast hA)
    · rw [hcard]; exact (deg_add _ _ d0 (deg_C _ _ d1)).trans_le (by exact_mod_cast hA)
    · intro z hz
      obtain ⟨y, hy, rfl⟩ := Finset.mem_image.1 hz
      have hy' : y ∈ Y ∧ y ∉ bad r₁ ∧ y ∉ bad r₂ ∧ y ∉ bad r := by
        simpa [A, not_or, and_assoc] using hy
      obtain ⟨hyY, n1, n2, n3⟩ := hy'
      have get : ∀ s, y ∉ bad s → f0 y + s * f1 y = (P s).eval (x y) := by
        intro s hs
        by_contra hn
        exact hs (Finset.mem_filter.2 ⟨hyY, hn⟩)
      have g1 := get _ n1
      have g2 := get _ n2
      have g3 := get _ n3
      have v1 : u1.eval (x y) = f1 y := by
        rw [hu1, eval_mul, eval_C, eval_sub, ← g1, ← g2]
        field_simp
        ring
      have v0 : u0.eval (x y) = f0 y := by
        rw [hu0, eval_sub, eval_mul, eval_C, v1, ← g1]
        ring
      rw [← g3, eval_add, eval_mul, eval_C, v0, v1]
  exact line_agree_of_line Y x f0 f1 m e R hR P hclose u0 u1 d0 d1 hline

/-- As `line_agree`, up to half the distance between polynomials, for more points. -/
theorem line_agree_half (Y : Finset ℕ) (x f0 f1 : ℕ → F) (hx : Set.InjOn x Y) (m e : ℕ) (hm : 1 ≤ m) (hY : 2 * e + m ≤ Y.card)
    (R : Finset F) (hR : 2 * e + m + 1 ≤ R.card) (P : F → F[X]) (hP : ∀ r ∈ R, (P r).degree < m)
    (hclose : ∀ r ∈ R, (Y.filter fun y => ¬ f0 y + r * f1 y = (P r).eval (x y)).card ≤ e) :
    ∃ r ∈ R, ∃ u0 u1 : F[X], u0.degree < m ∧ u1.degree < m ∧
      ∀ y ∈ Y, f0 y + r * f1 y = (P r).eval (x y) → f0 y = u0.eval (x y) ∧ f1 y = u1.eval (x y) := by
  classical
  -- the place of a point
  obtain ⟨inv, hinv⟩ : ∃ inv : F → ℕ, ∀ y ∈ Y, inv (x y) = y := by
    refine ⟨fun z => if h : ∃ y ∈ Y, x y = z then h.choose else 0, fun y hy => ?_⟩
    have h : ∃ y' ∈ Y, x y' = x y := ⟨y, hy, rfl⟩
    dsimp only
    rw [dif_pos h]
    exact hx h.choose_spec.1 hy h.choose_spec.2
  have nat_lt : ∀ p : F[X], p.degree < m → p.natDegree ≤ m - 1 := fun p hp => by
    by_cases h0 : p = 0
    · simp [h0]
    · have := (natDegree_lt_iff_degree_lt h0).2 hp
      omega
  have lt_nat : ∀ p : F[X], p.natDegree ≤ m - 1 → p.degree < m := fun p hp =>
    (degree_le_natDegree).trans_lt (by exact_mod_cast (by omega : p.natDegree < m))
  obtain ⟨v0, v1, n0, n1, S', hS', hcard, hline⟩ := LineGap.line_of_close (Y.image x) e (m - 1)
    (by rw [Finset.card_image_of_injOn hx]; omega) (fun z => f0 (inv z)) (fun z => f1 (inv z)) R (by omega) P
    (fun r hr => nat_lt _ (hP r hr)) (fun r hr => by
      refine le_trans ?_ (hclose r hr)
      refine (Finset.card_le_card (t := (Y.filter fun y => ¬ f0 y + r * f1 y = (P r).eval (x y)).image x) ?_).trans
        Finset.card_image_le
      intro z hz
      simp only [Finset.mem_filter] at hz
      obtain ⟨hz, hne⟩ := hz
      obtain ⟨y, hy, rfl⟩ := Finset.mem_image.1 hz
      rw [hinv y hy] at hne
      exact Finset.mem_image.2 ⟨y, Finset.mem_filter.2 ⟨hy, hne⟩, rfl⟩)
  obtain ⟨r, hr, h⟩ := line_agree_of_line Y x f0 f1 m e S' (by omega) P (fun r hr => hclose r (hS' hr)) v0 v1
    (lt_nat _ n0) (lt_nat _ n1) hline
  exact ⟨r, hS' hr, h⟩

/-- Half the sum and half the difference (over the point) of a word at two opposite places. -/
def evenAt (k : ℕ) (i : ℕ) (w : ℕ → F) (pos : ℕ) : F :=
  (w (pos % 2 ^ (k - i)) + w ((pos % 2 ^ (k - i) + 2 ^ (k - i) / 2) % 2 ^ (k - i))) / 2

/-- See `evenAt`. -/
def oddAt (k : ℕ) (c : F) (i : ℕ) (w : ℕ → F) (pos : ℕ) : F :=
  (w (pos % 2 ^ (k - i)) - w ((pos % 2 ^ (k - i) + 2 ^ (k - i) / 2) % 2 ^ (k - i))) / (2 * pointAt k c i pos)

theorem foldAt_eq (k : ℕ) (c : F) (i : ℕ) (w : ℕ → F) (r : F) (pos : ℕ) :
    foldAt k c i w r pos = evenAt k i w pos + r * oddAt k c i w pos := by
  unfold foldAt evenAt oddAt
  dsimp only
  rw [mul_div_assoc]

theorem word_eq (k : ℕ) (c : F) (i : ℕ) (w : ℕ → F) (pos : ℕ) (h2 : (2 : F) ≠ 0) (hx : pointAt k c i pos ≠ 0) :
    w (pos % 2 ^ (k - i)) = evenAt k i w pos + pointAt k c i pos * oddAt k c i w pos := by
  unfold evenAt oddAt
  field_simp
  ring

/-- Opposite places have the same even and odd parts. -/
theorem parts_mod (k : ℕ) (c : F) (i : ℕ) (w : ℕ → F) (pos : ℕ) (hk : k ≤ FftField.twoAdicity F) (hi : i < k) :
    evenAt k i w (pos % 2 ^ (k - (i + 1))) = evenAt k i w pos ∧
      oddAt k c i w (pos % 2 ^ (k - (i + 1))) = oddAt k c i w pos := by
  obtain ⟨n, hn⟩ : ∃ n, k - i = n + 1 := ⟨k - i - 1, by omega⟩
  have hn' : k - (i + 1) = n := by omega
  unfold evenAt oddAt pointAt
  rw [hn, hn']
  have hp : 2 ^ (n + 1) = 2 ^ n + 2 ^ n := by rw [pow_succ]; omega
  have hpos : 0 < 2 ^ n := by positivity
  have hhalf : 2 ^ (n + 1) / 2 = 2 ^ n := by omega
  have hdvd : pos % 2 ^ n = (pos % 2 ^ (n + 1)) % 2 ^ n :=
    (Nat.mod_mod_of_dvd pos (pow_dvd_pow 2 (Nat.le_succ n))).symm
  have hlt : pos % 2 ^ (n + 1) < 2 ^ (n + 1) := Nat.mod_lt _ (by positivity)
  rw [hhalf, hdvd]
  generalize pos % 2 ^ (n + 1) = j at hlt
  by_cases hj : j < 2 ^ n
  · rw [Nat.mod_eq_of_lt hj, Nat.mod_eq_of_lt hlt]
    exact ⟨rfl, rfl⟩
  · obtain ⟨j', rfl⟩ : ∃ j', j = j' + 2 ^ n := ⟨j - 2 ^ n, by omega⟩
    have hj' : j' < 2 ^ n := by omega
    have e1 : (j' + 2 ^ n) % 2 ^ n = j' := by rw [Nat.add_mod_right, Nat.mod_eq_of_lt hj']
    have e2 : (j' + 2 ^ n + 2 ^ n) % 2 ^ (n + 1) = j' := by
      rw [Nat.add_assoc, ← hp, Nat.add_mod_right, Nat.mod_eq_of_lt (by omega)]
    rw [e1, e2, Nat.mod_eq_of_lt (show j' < 2 ^ (n + 1) by omega), Nat.mod_eq_of_lt hlt, pow_add,
      rootOf_half n (by omega)]
    refine ⟨by rw [add_comm], ?_⟩
    rw [← neg_sub, mul_neg_one, neg_mul, mul_neg, neg_div, div_neg]

theorem pointAt_mod (k : ℕ) (c : F) (i y : ℕ) : pointAt k c i (y % 2 ^ (k - i)) = pointAt k c i y := by
  unfold pointAt
  rw [Nat.mod_mod]

/-- A set of residues occurs in the range `A·N` at least `A` times. -/
theorem card_residues (A N : ℕ) (Q : ℕ → Prop) [DecidablePred Q] :
    A * ((Finset.range N).filter Q).card ≤ ((Finset.range (A * N)).filter fun pos => Q (pos % N)).card := by
  rw [← Finset.card_range A, ← Finset.card_product, Finset.card_range]
  refine Finset.card_le_card_of_injOn (fun q => q.1 * N + q.2) ?_ ?_
  · rintro ⟨a, y⟩ h
    simp only [Finset.coe_product, Set.mem_prod, Finset.mem_coe, Finset.mem_range, Finset.mem_filter] at h
    obtain ⟨ha, hy, hq⟩ := h
    simp only [Finset.mem_coe, Finset.mem_filter, Finset.mem_range]
    refine ⟨?_, ?_⟩
    · calc a * N + y < a * N + N := by omega
        _ = (a + 1) * N := by ring
        _ ≤ A * N := Nat.mul_le_mul_right _ ha
    · rw [mul_comm, Nat.mul_add_mod, Nat.mod_eq_of_lt hy]
      exact hq
  · rintro ⟨a, y⟩ h ⟨a', y'⟩ h' heq
    simp only [Finset.coe_product, Set.mem_prod, Finset.mem_coe, Finset.mem_range, Finset.mem_filter] at h h'
    have e1 : y = y' := by
      have := congrArg (· % N) heq
      dsimp only at this
      rwa [mul_comm, Nat.mul_add_mod, Nat.mod_eq_of_lt h.2.1, mul_comm, Nat.mul_add_mod, Nat.mod_eq_of_lt h'.2.1] at this
    subst e1
    have e2 : a * N = a' * N := add_right_cancel heq
    rw [Nat.eq_of_mul_eq_mul_right (by omega) e2]

theorem toPoly_range (P : F[X]) (m : ℕ) (h : P.degree < m) : toPoly ((List.range m).map P.coeff) = P := by
  ext j
  rw [coeff_toPoly]
  by_cases hj : j < m
  · simp [List.getD_eq_getElem?_getD, List.getElem?_map, List.getElem?_range hj]
  · rw [getD_of_le _ _ (by simpa using hj)]
    exact (coeff_eq_zero_of_degree_lt (lt_of_lt_of_le h (by exact_mod_cast not_lt.1 hj))).symm

open Classical in
/-- One round: if more than `B/2^(i+1) + 1` challenges (up to a third of the distance) or more challenges than the next layer has
positions (up to half) leave at most `B` failing positions, the new word is close to a
polynomial, with at most `B` failing or differing positions. -/
theorem round_close (k : ℕ) (c : F) (hc : c ≠ 0) (hk : k ≤ FftField.twoAdicity F) (rs : List F) (ws : List (ℕ → F))
    (w : ℕ → F) (hlen : rs.length = ws.length) (hl : ws.length < k) (m B : ℕ)
    (R : Finset F) (hreg : (3 * B + 2 ^ (ws.length + 1) * m ≤ 2 ^ k ∧ B / 2 ^ (ws.length + 1) + 2 ≤ R.card) ∨
      (1 ≤ m ∧ 2 * B + 2 ^ (ws.length + 1) * m ≤ 2 ^ k ∧ 2 ^ (k - (ws.length + 1)) + 1 ≤ R.card))
    (p : F → DP F) (hp : ∀ r ∈ R, (p r).length ≤ m)
    (hbad : ∀ r ∈ R, (badSet k c (rs ++ [r]) (ws ++ [w]) (p r)).card ≤ B) :
    ∃ q : DP F, q.length ≤ 2 * m ∧ ((Finset.range (2 ^ k)).filter fun pos =>
      (Fails k c rs ws pos ∨ LastNe k c rs ws (fun pos => w (pos % 2 ^ (k - ws.length))) pos) ∨
        w (pos % 2 ^ (k - ws.length)) ≠ Ark.eval q (pointAt k c ws.length pos)).card ≤ B := by
  set i := ws.length with hi
  have h2 : (2 : F) ≠ 0 := two_ne_zero_of (by omega)
  have hpow : 2 ^ (i + 1) * 2 ^ (k - (i + 1)) = 2 ^ k := by rw [← pow_add]; congr 1; omega
  -- positions outside the bad set agree
  have good : ∀ r ∈ R, ∀ pos ∈ Finset.range (2 ^ k), pos ∉ badSet k c (rs ++ [r]) (ws ++ [w]) (p r) →
      evenAt k i w pos + r * oddAt k c i w pos = Ark.eval (p r) (pointAt k c (i + 1) pos) := by
    intro r hr pos hpos hn
    by_contra hne
    refine hn (Finset.mem_filter.2 ⟨hpos, .inr ⟨i, w, r, by simp [hi], by simp [hi], by rw [← hlen]; simp, ?_⟩⟩)
    dsimp only
    rw [List.length_append, List.length_singleton, ← hi, foldAt_eq]
    exact hne
  have hx : Set.InjOn (pointAt k c (i + 1)) (Finset.range (2 ^ (k - (i + 1)))) := by
    intro a ha b hb hab
    have ha' := Finset.mem_range.1 (Finset.mem_coe.1 ha)
    have hb' := Finset.mem_range.1 (Finset.mem_coe.1 hb)
    unfold pointAt at hab
    rw [Nat.mod_eq_of_lt ha', Nat.mod_eq_of_lt hb'] at hab
    exact (rootOf_prim (k - (i + 1)) (by omega)).pow_inj ha' hb' (mul_right_cancel₀ (pow_ne_zero _ hc) hab)
  have hclose : ∀ r ∈ R, ((Finset.range (2 ^ (k - (i + 1)))).filter fun y =>
      ¬ evenAt k i w y + r * oddAt k c i w y = (toPoly (p r)).eval (pointAt k c (i + 1) y)).card ≤ B / 2 ^ (i + 1) := by
    intro r hr
    rw [Nat.le_div_iff_mul_le (by positivity), mul_comm]
    refine (card_residues (2 ^ (i + 1)) (2 ^ (k - (i + 1))) fun y =>
      ¬ evenAt k i w y + r * oddAt k c i w y = (toPoly (p r)).eval (pointAt k c (i + 1) y)).trans ((Finset.card_le_card fun pos hpos => ?_).trans (hbad r hr))
    rw [hpow] at hpos
    obtain ⟨h1, h3⟩ := Finset.mem_filter.1 hpos
    by_contra hn
    refine h3 ?_
    obtain ⟨e1, e2⟩ := parts_mod k c i w pos hk hl
    rw [e1, e2, pointAt_mod, ← eval_eq]
    exact good r hr pos h1 hn
  have hcount : ∀ a, a * B + 2 ^ (i + 1) * m ≤ 2 ^ k →
      a * (B / 2 ^ (i + 1)) + m ≤ (Finset.range (2 ^ (k - (i + 1)))).card := by
    intro a hB
    rw [Finset.card_range]
    have h1 := Nat.mul_le_mul_left a (Nat.mul_div_le B (2 ^ (i + 1)))
    refine le_of_mul_le_mul_left ?_ (Nat.two_pow_pos (i + 1))
    rw [hpow]
    calc 2 ^ (i + 1) * (a * (B / 2 ^ (i + 1)) + m) = a * (2 ^ (i + 1) * (B / 2 ^ (i + 1))) + 2 ^ (i + 1) * m := by ring
      _ ≤ a * B + 2 ^ (i + 1) * m := by omega
      _ ≤ _ := hB
  have hdeg : ∀ r ∈ R, (toPoly (p r)).degree < m := fun r hr =>
    (degree_toPoly_lt (p r)).trans_le (by exact_mod_cast hp r hr)
  have hagree : ∃ r ∈ R, ∃ u0 u1 : F[X], u0.degree < m ∧ u1.degree < m ∧ ∀ y ∈ Finset.range (2 ^ (k - (i + 1))),
      evenAt k i w y + r * oddAt k c i w y = (toPoly (p r)).eval (pointAt k c (i + 1) y) →
      evenAt k i w y = u0.eval (pointAt k c (i + 1) y) ∧ oddAt k c i w y = u1.eval (pointAt k c (i + 1) y) := by
    rcases hreg with ⟨hB, hR⟩ | ⟨hm, hB, hR⟩
    · exact line_agree _ _ _ _ hx m (B / 2 ^ (i + 1)) (hcount 3 hB) R hR _ hdeg hclose
    · have h := hcount 2 hB
      refine line_agree_half _ _ _ _ hx m (B / 2 ^ (i + 1)) hm h R ?_ _ hdeg hclose
      rw [Finset.card_range] at h
      omega
  obtain ⟨r, hr, u0, u1, d0, d1, hu⟩ := hagree
  let q0 : DP F := (List.range m).map u0.coeff
  let q1 : DP F := (List.range m).map u1.coeff
  refine ⟨interleave q0 q1 m, (length_interleave q0 q1 m).le, (Finset.card_le_card fun pos hpos => ?_).trans (hbad r hr)⟩
  obtain ⟨hrange, hpos⟩ := Finset.mem_filter.1 hpos
  by_contra hn
  have hg := good r hr pos hrange hn
  rcases hpos with hpos | hpos
  · exact hn (Finset.mem_filter.2 ⟨hrange, .inl (fails_append k c rs ws r w pos hlen hpos)⟩)
  · obtain ⟨e1, e2⟩ := parts_mod k c i w pos hk hl
    obtain ⟨g0, g1⟩ := hu (pos % 2 ^ (k - (i + 1))) (Finset.mem_range.2 (Nat.mod_lt _ (by positivity))) (by
      rw [e1, e2, pointAt_mod, ← eval_eq]
      exact hg)
    rw [e1, pointAt_mod] at g0
    rw [e2, pointAt_mod] at g1
    refine hpos ?_
    rw [eval_interleave q0 q1 m (by simp [q0]) (by simp [q1]), pointAt_sq k c i pos hk hl, eval_eq, eval_eq,
      toPoly_range u0 m d0, toPoly_range u1 m d1, ← g0, ← g1]
    exact word_eq k c i w pos h2 (pointAt_ne_zero k c i pos hk hc)

open Classical in
theorem badSet_of_not_resistsBut (env : Env F) (k : ℕ) (c : F) (hc : c ≠ 0) (hk : k ≤ FftField.twoAdicity F) (T : ℕ → ℕ)
    (B l : ℕ) : ∀ (rs : List F) (ws : List (ℕ → F)), rs.length = ws.length → ws.length + l ≤ k →
    (3 * B + 2 ^ (ws.length + l) ≤ 2 ^ k ∧ (∀ i, B / 2 ^ (i + 1) + 1 ≤ T i) ∨
      2 * B + 2 ^ (ws.length + l) ≤ 2 ^ k ∧ ∀ i, 2 ^ (k - (i + 1)) ≤ T i) →
    ¬ ResistsBut T env k c B l rs ws →
    ∃ p : DP F, p.length ≤ 2 ^ l ∧ (badSet k c rs ws p).card ≤ B := by
  induction l with
  | zero =>
    intro rs ws hlen hl hB h
    unfold ResistsBut at h
    push Not at h
    obtain ⟨cv, h⟩ := h
    refine ⟨[cv], by simp, ?_⟩
    by_contra hlt
    rw [not_le] at hlt
    obtain ⟨pos, hpos, hacc⟩ := h _ (Finset.filter_subset _ _) hlt
    apply hacc
    simp only [Finset.mem_filter] at hpos
    refine queryRejects_of env k c rs ws cv hlen hk (by omega) pos ?_
    simpa [Ark.eval] using hpos.2
  | succ l ih =>
    intro rs ws hlen hl hB h
    unfold ResistsBut at h
    push Not at h
    obtain ⟨w, h⟩ := h
    obtain ⟨R, hR, hbad⟩ := many_of_not_allBut h
    have hstep : ∀ r : F, ∃ p : DP F, r ∈ R → p.length ≤ 2 ^ l ∧ (badSet k c (rs ++ [r]) (ws ++ [w]) p).card ≤ B := by
      intro r
      by_cases hr : r ∈ R
      · obtain ⟨p, hp⟩ := ih (rs ++ [r]) (ws ++ [w]) (by simp [hlen]) (by simp; omega) (by
          rw [List.length_append, List.length_singleton, show ws.length + 1 + l = ws.length + (l + 1) by omega]
          exact hB) (hbad r hr)
        exact ⟨p, fun _ => hp⟩
      · exact ⟨[], fun h => absurd h hr⟩
    choose p hp using hstep
    obtain ⟨q, hq, hcard⟩ := round_close k c hc hk rs ws w hlen (by omega) (2 ^ l) B R (by
      rw [← pow_add, show ws.length + 1 + l = ws.length + (l + 1) by omega, hR]
      rcases hB with ⟨hB, hT⟩ | ⟨hB, hT⟩
      · exact .inl ⟨hB, Nat.succ_le_succ (hT _)⟩
      · exact .inr ⟨Nat.one_le_two_pow, hB, Nat.succ_le_succ (hT _)⟩) p (fun r hr => (hp r hr).1) (fun r hr => (hp r hr).2)
    refine ⟨q, by rw [pow_succ']; exact hq, le_trans (Finset.card_le_card fun pos hpos => ?_) hcard⟩
    simp only [badSet, Finset.mem_filter] at hpos ⊢
    refine ⟨hpos.1, ?_⟩
    rcases hpos.2 with h | ⟨i, u, r, hi, hu, hr', hne⟩
    · exact .inl (.inl h)
    · by_cases heq : w (pos % 2 ^ (k - ws.length)) = Ark.eval q (pointAt k c ws.length pos)
      · exact .inl (.inr ⟨i, u, r, hi, hu, hr', by dsimp only at hne ⊢; rw [heq]; exact hne⟩)
      · exact .inr heq

theorem resistsBut_of_far (env : Env F) (k l B : ℕ) (T : ℕ → ℕ) (hl : l < k)
    (hB : 3 * B + 2 ^ (l + 1) ≤ 2 ^ k ∧ (∀ i, B / 2 ^ (i + 1) + 1 ≤ T i) ∨
      2 * B + 2 ^ (l + 1) ≤ 2 ^ k ∧ ∀ i, 2 ^ (k - (i + 1)) ≤ T i) (c : F) (hc : c ≠ 0)
    (dom : Domain F) (hdom : Domain.new? (F := F) (2 ^ k) = some dom) (w : ℕ → F)
    (hfar : Far k c dom.gen w (2 ^ (l + 1)) B) :
    AllBut (T 0) fun r : F => ResistsBut T env k c B l [r] [w] := by
  classical
  have hk : k ≤ FftField.twoAdicity F := by
    by_contra hn
    rw [new?_pow_none k hn] at hdom
    simp at hdom
  rw [new?_pow k hk] at hdom
  obtain rfl := Option.some.inj hdom
  by_contra hn
  obtain ⟨R, hR, hbad⟩ := many_of_not_allBut hn
  have hstep : ∀ r : F, ∃ p : DP F, r ∈ R → p.length ≤ 2 ^ l ∧ (badSet k c [r] [w] p).card ≤ B := by
    intro r
    by_cases hr : r ∈ R
    · obtain ⟨p, hp⟩ := badSet_of_not_resistsBut env k c hc hk T B l [r] [w] rfl (by simp; omega) (by
        rw [List.length_singleton, Nat.add_comm 1 l]
        exact hB) (hbad r hr)
      exact ⟨p, fun _ => hp⟩
    · exact ⟨[], fun h => absurd h hr⟩
  choose p hp using hstep
  obtain ⟨q, hq, hcard⟩ := round_close k c hc hk [] [] w rfl (by simp; omega) (2 ^ l) B R (by
    rw [List.length_nil, ← pow_add, Nat.zero_add, Nat.add_comm 1 l, hR]
    rcases hB with ⟨hB, hT⟩ | ⟨hB, hT⟩
    · exact .inl ⟨hB, Nat.succ_le_succ (hT _)⟩
    · exact .inr ⟨Nat.one_le_two_pow, hB, Nat.succ_le_succ (hT _)⟩) p (fun r hr => (hp r hr).1) (fun r hr => (hp r hr).2)
  have := hfar q (by rw [pow_succ']; exact hq)
    ((Finset.range (2 ^ k)).filter fun pos => w pos = Ark.eval q (c * (rootOf F k) ^ pos))
    (Finset.filter_subset _ _) (fun pos hpos => (Finset.mem_filter.1 hpos).2)
  have hsum := Finset.card_filter_add_card_filter_not (s := Finset.range (2 ^ k))
    (p := fun pos => w pos = Ark.eval q (c * (rootOf F k) ^ pos))
  rw [Finset.card_range] at hsum
  have hle : ((Finset.range (2 ^ k)).filter fun pos => ¬ w pos = Ark.eval q (c * (rootOf F k) ^ pos)).card ≤ B := by
    refine le_trans (Finset.card_le_card ?_) hcard
    intro pos hpos
    simp only [Finset.mem_filter] at hpos ⊢
    refine ⟨hpos.1, .inr ?_⟩
    have hlt := Finset.mem_range.1 hpos.1
    simp only [List.length_nil, Nat.sub_zero, pointAt, Nat.mod_eq_of_lt hlt, pow_zero, pow_one]
    rw [mul_comm]
    exact hpos.2
  omega

/-- **C75** with the distance preserved: if the word of the first layer differs from all polynomials with at most `2^(l+1)`
coefficients (`l+1` layers) in more than `B` of the `2^k` positions, where `3B + 2^(l+1) ≤ 2^k`, then more than `B` query
positions are rejected, for all challenges but `B/2 + 1` in the first round, `B/4 + 1` in the second, and so on. -/
theorem C75_proximity (env : Env F) (k l B : ℕ) (hl : l < k) (hB : 3 * B + 2 ^ (l + 1) ≤ 2 ^ k) (c : F) (hc : c ≠ 0)
    (dom : Domain F) (hdom : Domain.new? (F := F) (2 ^ k) = some dom) (w : ℕ → F)
    (hfar : Far k c dom.gen w (2 ^ (l + 1)) B) :
    AllBut (B / 2 + 1) fun r : F => ResistsBut (fun i => B / 2 ^ (i + 1) + 1) env k c B l [r] [w] := by
  have h := resistsBut_of_far env k l B (fun i => B / 2 ^ (i + 1) + 1) hl (.inl ⟨hB, fun _ => le_rfl⟩) c hc dom hdom w hfar
  simpa using h

/-- The hypotheses of C75 are met over Goldilocks by `X^8` on a coset of size 1024 and three layers, with `B = 338` (with
`C75_oracle_soundness` the largest `B` is 126). -/
example (env : Env Goldilocks) : ∃ w : ℕ → Goldilocks,
    AllBut 170 fun r : Goldilocks =>
      ResistsBut (fun i => 338 / 2 ^ (i + 1) + 1) env 10 FftField.generator 338 2 [r] [w] := by
  have h := new?_pow (F := Goldilocks) 10 (by show 10 ≤ 32; norm_num)
  refine ⟨fun pos => Ark.eval [0, 0, 0, 0, 0, 0, 0, 0, 1] (FftField.generator * rootOf Goldilocks 10 ^ pos), ?_⟩
  refine C75_proximity env 10 2 338 (by norm_num) (by norm_num) _ FftField.generator_ne_zero _ h _ ?_
  exact far_poly 10 _ FftField.generator_ne_zero (by show 10 ≤ 32; norm_num)
    ([0, 0, 0, 0, 0, 0, 0, 0, 1] : DP Goldilocks) 8 338 rfl (by simp) (by norm_num)

/-- **C75** up to half the distance between polynomials: if the word of the first layer differs from all polynomials with at
most `2^(l+1)` coefficients (`l+1` layers) in more than `B` of the `2^k` positions, where `2B + 2^(l+1) ≤ 2^k`, then more than `B`
query positions are rejected, for all challenges but `2^(k-1)` in the first round, `2^(k-2)` in the second, and so on (as many
as the next layer has positions). -/
theorem C75_unique_decoding (env : Env F) (k l B : ℕ) (hl : l < k) (hB : 2 * B + 2 ^ (l + 1) ≤ 2 ^ k) (c : F) (hc : c ≠ 0)
    (dom : Domain F) (hdom : Domain.new? (F := F) (2 ^ k) = some dom) (w : ℕ → F)
    (hfar : Far k c dom.gen w (2 ^ (l + 1)) B) :
    AllBut (2 ^ (k - 1)) fun r : F => ResistsBut (fun i => 2 ^ (k - (i + 1))) env k c B l [r] [w] :=
  resistsBut_of_far env k l B (fun i => 2 ^ (k - (i + 1))) hl (.inr ⟨hB, fun _ => le_rfl⟩) c hc dom hdom w hfar

/-- The hypotheses of `C75_unique_decoding` are met over Goldilocks by `X^8` on a coset of size 1024 and three layers, with
`B = 508` (with `C75_proximity` the largest `B` is 338). -/
example (env : Env Goldilocks) : ∃ w : ℕ → Goldilocks,
    AllBut 512 fun r : Goldilocks =>
      ResistsBut (fun i => 2 ^ (10 - (i + 1))) env 10 FftField.generator 508 2 [r] [w] := by
  have h := new?_pow (F := Goldilocks) 10 (by show 10 ≤ 32; norm_num)
  refine ⟨fun pos => Ark.eval [0, 0, 0, 0, 0, 0, 0, 0, 1] (FftField.generator * rootOf Goldilocks 10 ^ pos), ?_⟩
  refine C75_unique_decoding env 10 2 508 (by norm_num) (by norm_num) _ FftField.generator_ne_zero _ h _ ?_
  exact far_poly 10 _ FftField.generator_ne_zero (by show 10 ≤ 32; norm_num)
    ([0, 0, 0, 0, 0, 0, 0, 0, 1] : DP Goldilocks) 8 508 rfl (by simp) (by norm_num)

end Verif.Fri

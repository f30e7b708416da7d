import Verif.Fri.Soundness

/-!
# C75: soundness of the FRI queries against provers committed to their layers

The prover fixes the word of each layer before the folding challenge of that layer is drawn; every word may
depend on all earlier challenges.  The decommitments reveal values of these words (the code does not
enforce this, see C21).
-/

set_option linter.unusedSectionVars false
set_option linter.unusedVariables false

namespace Verif.Fri

open Verif.Ark

variable {F : Type} [FftField F] [DecidableEq F]

/-! ## Specification -/

/-- All elements except at most `k` satisfy `P`. -/
def AllBut {F : Type} (k : ℕ) (P : F → Prop) : Prop := ∃ B : Finset F, B.card ≤ k ∧ ∀ x, x ∉ B → P x

/-- The decommitment reveals, in layer `i` of the query at `pos` over a domain of size `2^k`, the values of
the committed word `ws[i]` at the two symmetric indices of that layer. -/
def Reads {F : Type} (k : ℕ) (ws : List (ℕ → F)) (pos : ℕ) (d : Decommitment F) : Prop :=
  ∀ (i : ℕ) (w : ℕ → F), ws[i]? = some w →
    d.evaluations[i]? = some (w (pos % 2 ^ (k - i))) ∧
    d.symEvaluations[i]? = some (w ((pos % 2 ^ (k - i) + 2 ^ (k - i) / 2) % 2 ^ (k - i)))

/-- `verify_query` (`fri/src/verifier.rs` lines 50-107) accepts no decommitment at `pos` that has one entry per
layer and reveals values of the committed words. -/
def QueryRejects (env : Env F) (k : ℕ) (c : F) (rs : List F) (ws : List (ℕ → F)) (cv : F) (pos : ℕ) : Prop :=
  ∀ d : Decommitment F, d.Shape rs.length → Reads k ws pos d →
    verifyQuery env pos d rs (2 ^ k) cv c ≠ some (.ok ())

/-- `l` more rounds of word-then-challenge, then the constant: with at most one exceptional challenge per
round, more than `B` of the `2^k` query positions are rejected whatever the prover sends. -/
def Resists (env : Env F) (k : ℕ) (c : F) (B : ℕ) : ℕ → List F → List (ℕ → F) → Prop
  | 0, rs, ws => ∀ cv : F, ∃ R : Finset ℕ, R ⊆ Finset.range (2 ^ k) ∧ B < R.card ∧
      ∀ pos ∈ R, QueryRejects env k c rs ws cv pos
  | l + 1, rs, ws => ∀ w : ℕ → F, AllBut 1 fun r : F => Resists env k c B l (rs ++ [r]) (ws ++ [w])

/-- The word on the coset `c⟨g⟩` of size `2^k` differs from every polynomial with at most `m` coefficients in
more than `t` positions. -/
def Far {F : Type} [Field F] (k : ℕ) (c g : F) (w : ℕ → F) (m t : ℕ) : Prop :=
  ∀ p : DP F, p.length ≤ m → ∀ A : Finset ℕ, A ⊆ Finset.range (2 ^ k) →
    (∀ pos ∈ A, w pos = Ark.eval p (c * g ^ pos)) → A.card + t < 2 ^ k

/-! ## Proof -/

theorem fold_pair (h2 : (2 : F) ≠ 0) (r₁ r₂ : F) (hr : r₁ ≠ r₂) (m : ℕ) (g₁ g₂ : DP F)
    (hg₁ : g₁.length ≤ m) (hg₂ : g₂.length ≤ m) :
    ∃ p : DP F, p.length ≤ 2 * m ∧ ∀ x a b : F, x ≠ 0 →
      (a + b) / 2 + r₁ * (a - b) / (2 * x) = Ark.eval g₁ (x ^ 2) →
      (a + b) / 2 + r₂ * (a - b) / (2 * x) = Ark.eval g₂ (x ^ 2) → a = Ark.eval p x := by
  have hd : r₁ - r₂ ≠ 0 := sub_ne_zero.2 hr
  let o : DP F := smul (add g₁ (smul g₂ (-1))) (r₁ - r₂)⁻¹
  let e : DP F := add g₁ (smul o (-r₁))
  have ho : o.length ≤ m :=
    (length_smul_le _ _).trans (length_add_le _ _ _ hg₁ ((length_smul_le _ _).trans hg₂))
  have he : e.length ≤ m := length_add_le _ _ _ hg₁ ((length_smul_le _ _).trans ho)
  have evs : ∀ (p : DP F) (c x : F), Ark.eval (smul p c) x = c * Ark.eval p x := by
    intro p c x; simp only [eval_eq]; rw [toPoly_smul]; simp
  have eva : ∀ (p q : DP F) (x : F), Ark.eval (add p q) x = Ark.eval p x + Ark.eval q x := by
    intro p q x; simp only [eval_eq]; rw [toPoly_add]; simp
  refine ⟨interleave e o m, (length_interleave e o m).le, fun x a b hx0 h₁ h₂ => ?_⟩
  rw [eval_interleave e o m he ho]
  simp only [e, o, evs, eva]
  rw [← h₁, ← h₂]
  field_simp
  ring

/-- The point of query `pos` in layer `i`. -/
def pointAt (k : ℕ) (c : F) (i pos : ℕ) : F := rootOf F (k - i) ^ (pos % 2 ^ (k - i)) * c ^ 2 ^ i

/-- The fold of the word `w` of layer `i` at query `pos`. -/
def foldAt (k : ℕ) (c : F) (i : ℕ) (w : ℕ → F) (r : F) (pos : ℕ) : F :=
  let a := w (pos % 2 ^ (k - i))
  let b := w ((pos % 2 ^ (k - i) + 2 ^ (k - i) / 2) % 2 ^ (k - i))
  (a + b) / 2 + r * (a - b) / (2 * pointAt k c i pos)

theorem pointAt_ne_zero (k : ℕ) (c : F) (i pos : ℕ) (hk : k ≤ FftField.twoAdicity F) (hc : c ≠ 0) :
    pointAt k c i pos ≠ 0 :=
  mul_ne_zero (pow_ne_zero _ (rootOf_ne_zero _ (by omega))) (pow_ne_zero _ hc)

theorem pointAt_sq (k : ℕ) (c : F) (i pos : ℕ) (hk : k ≤ FftField.twoAdicity F) (hi : i < k) :
    pointAt k c i pos ^ 2 = pointAt k c (i + 1) pos := by
  unfold pointAt
  rw [rootOf_pow_mod _ _ (by omega), rootOf_pow_mod _ _ (by omega), mul_pow, ← pow_mul, ← pow_mul,
    show k - i = (k - (i + 1)) + 1 by omega, mul_comm pos 2, pow_mul, pow_two, rootOf_sq _ (by omega),
    ← pow_succ]

/-- Query `pos` fails a consistency check between two committed words. -/
def Fails (k : ℕ) (c : F) (rs : List F) (ws : List (ℕ → F)) (pos : ℕ) : Prop :=
  ∃ (i : ℕ) (w w' : ℕ → F) (r : F), ws[i]? = some w ∧ ws[i + 1]? = some w' ∧ rs[i]? = some r ∧
    foldAt k c i w r pos ≠ w' (pos % 2 ^ (k - (i + 1)))

/-- Query `pos` fails the check of the last word against `v`. -/
def LastNe (k : ℕ) (c : F) (rs : List F) (ws : List (ℕ → F)) (v : ℕ → F) (pos : ℕ) : Prop :=
  ∃ (i : ℕ) (w : ℕ → F) (r : F), i + 1 = ws.length ∧ ws[i]? = some w ∧ rs[i]? = some r ∧
    foldAt k c i w r pos ≠ v pos

theorem queryRejects_of (env : Env F) (k : ℕ) (c : F) (rs : List F) (ws : List (ℕ → F)) (cv : F)
    (hlen : rs.length = ws.length) (hk : k ≤ FftField.twoAdicity F) (hl : ws.length ≤ k) (pos : ℕ)
    (h : Fails k c rs ws pos ∨ LastNe k c rs ws (fun _ => cv) pos) :
    QueryRejects env k c rs ws cv pos := by
  intro d hd hreads hok
  rw [verifyQuery_iff env pos d rs _ cv c _ hd rfl] at hok
  obtain ⟨s1, s2, s3, s4⟩ := hd
  have key : ∀ (i : ℕ) (w : ℕ → F) (r : F), ws[i]? = some w → rs[i]? = some r →
      (d.evaluations[i + 1]?).getD cv = foldAt k c i w r pos := by
    intro i w r hw hr
    have hi : i < rs.length := (List.getElem?_eq_some_iff.1 hr).1
    obtain ⟨e1, e2⟩ := hreads i w hw
    have hD : 2 ^ k / 2 ^ i = 2 ^ (k - i) := Nat.pow_div (by omega) (by norm_num)
    obtain ⟨path, hp⟩ : ∃ p, d.authPaths[i]? = some p := ⟨_, List.getElem?_eq_getElem (by omega)⟩
    obtain ⟨sp, hsp⟩ : ∃ p, d.symAuthPaths[i]? = some p := ⟨_, List.getElem?_eq_getElem (by omega)⟩
    obtain ⟨-, -, -, -, -, -, -, dom, x, hdom, hx, -, -, hnext⟩ := hok i r _ path _ sp hr e1 hp e2 hsp
    rw [hD, new?_pow _ (by omega)] at hdom
    obtain rfl := Option.some.inj hdom
    rw [hnext, hx, hD]
    rfl
  rcases h with ⟨i, w, w', r, hw, hw', hr, hne⟩ | ⟨i, w, r, hi, hw, hr, hne⟩
  · have := key i w r hw hr
    obtain ⟨e1, -⟩ := hreads (i + 1) w' hw'
    rw [e1] at this
    exact hne this.symm
  · have := key i w r hw hr
    rw [List.getElem?_eq_none (by omega)] at this
    exact hne this.symm

theorem two_of_not_allBut {P : F → Prop} (h : ¬ AllBut 1 P) : ∃ r₁ r₂ : F, r₁ ≠ r₂ ∧ ¬ P r₁ ∧ ¬ P r₂ := by
  by_contra hn
  push Not at hn
  apply h
  by_cases h0 : ∃ r, ¬ P r
  · obtain ⟨r, hr⟩ := h0
    refine ⟨{r}, by simp, fun x hx => ?_⟩
    by_contra hp
    exact hp (hn r x (fun e => hx (by simp [e])) hr)
  · push Not at h0
    exact ⟨∅, by simp, fun x _ => h0 x⟩

open Classical in
/-- Positions that fail so far, or at which the last fold differs from the polynomial `p`. -/
noncomputable def badSet (k : ℕ) (c : F) (rs : List F) (ws : List (ℕ → F)) (p : DP F) : Finset ℕ :=
  (Finset.range (2 ^ k)).filter fun pos => Fails k c rs ws pos ∨
    LastNe k c rs ws (fun pos => Ark.eval p (pointAt k c ws.length pos)) pos

theorem fails_append (k : ℕ) (c : F) (rs : List F) (ws : List (ℕ → F)) (r : F) (w : ℕ → F) (pos : ℕ)
    (hlen : rs.length = ws.length)
    (h : Fails k c rs ws pos ∨ LastNe k c rs ws (fun pos => w (pos % 2 ^ (k - ws.length))) pos) :
    Fails k c (rs ++ [r]) (ws ++ [w]) pos := by
  rcases h with ⟨i, u, u', r', hu, hu', hr, hne⟩ | ⟨i, u, r', hi, hu, hr, hne⟩
  · have h1 := (List.getElem?_eq_some_iff.1 hu).1
    have h2 := (List.getElem?_eq_some_iff.1 hu').1
    exact ⟨i, u, u', r', by rw [List.getElem?_append_left h1]; exact hu,
      by rw [List.getElem?_append_left h2]; exact hu', by rw [List.getElem?_append_left (by omega)]; exact hr,
      hne⟩
  · have h1 := (List.getElem?_eq_some_iff.1 hu).1
    refine ⟨i, u, w, r', by rw [List.getElem?_append_left h1]; exact hu, ?_,
      by rw [List.getElem?_append_left (by omega)]; exact hr, ?_⟩
    · rw [hi]; simp
    · rw [hi]; exact hne

open Classical in
/-- One round: if two challenges both leave few failing positions, the new word is close to a polynomial. -/
theorem round_step (k : ℕ) (c : F) (hc : c ≠ 0) (hk : k ≤ FftField.twoAdicity F) (rs : List F)
    (ws : List (ℕ → F)) (w : ℕ → F) (hlen : rs.length = ws.length) (hl : ws.length < k) (r₁ r₂ : F)
    (hr : r₁ ≠ r₂) (p₁ p₂ : DP F) (m T : ℕ) (hp₁ : p₁.length ≤ m) (hp₂ : p₂.length ≤ m)
    (h₁ : (badSet k c (rs ++ [r₁]) (ws ++ [w]) p₁).card ≤ T)
    (h₂ : (badSet k c (rs ++ [r₂]) (ws ++ [w]) p₂).card ≤ T) :
    ∃ p : DP F, p.length ≤ 2 * m ∧ ((Finset.range (2 ^ k)).filter fun pos =>
      (Fails k c rs ws pos ∨ LastNe k c rs ws (fun pos => w (pos % 2 ^ (k - ws.length))) pos) ∨
        w (pos % 2 ^ (k - ws.length)) ≠ Ark.eval p (pointAt k c ws.length pos)).card ≤ 2 * T := by
  obtain ⟨p, hp, hpe⟩ := fold_pair (two_ne_zero_of (by omega)) r₁ r₂ hr m p₁ p₂ hp₁ hp₂
  refine ⟨p, hp, ?_⟩
  refine le_trans (Finset.card_le_card (t := badSet k c (rs ++ [r₁]) (ws ++ [w]) p₁ ∪
    badSet k c (rs ++ [r₂]) (ws ++ [w]) p₂) ?_) ((Finset.card_union_le _ _).trans (by omega))
  intro pos hpos
  simp only [Finset.mem_filter] at hpos
  obtain ⟨hrange, hpos⟩ := hpos
  by_contra hn
  simp only [Finset.mem_union, badSet, Finset.mem_filter, not_or, not_and] at hn
  obtain ⟨hn1, hn2⟩ := hn
  obtain ⟨f1, l1⟩ := hn1 hrange
  obtain ⟨f2, l2⟩ := hn2 hrange
  have eqn : ∀ (r : F) (q : DP F), ¬ LastNe k c (rs ++ [r]) (ws ++ [w])
      (fun pos => Ark.eval q (pointAt k c (ws ++ [w]).length pos)) pos →
      foldAt k c ws.length w r pos = Ark.eval q (pointAt k c ws.length pos ^ 2) := by
    intro r q h
    by_contra hne
    refine h ⟨ws.length, w, r, by simp, by simp, by rw [← hlen]; simp, ?_⟩
    dsimp only
    rw [pointAt_sq k c _ pos hk hl] at hne
    rw [List.length_append, List.length_singleton]
    exact hne
  rcases hpos with hpos | hpos
  · exact f1 (fails_append k c rs ws r₁ w pos hlen hpos)
  · exact hpos (hpe _ _ _ (pointAt_ne_zero k c _ pos hk hc) (eqn r₁ p₁ l1) (eqn r₂ p₂ l2))

open Classical in
theorem badSet_of_not_resists (env : Env F) (k : ℕ) (c : F) (hc : c ≠ 0) (hk : k ≤ FftField.twoAdicity F)
    (B l : ℕ) : ∀ (rs : List F) (ws : List (ℕ → F)), rs.length = ws.length → ws.length + l ≤ k →
    ¬ Resists env k c B l rs ws → ∃ p : DP F, p.length ≤ 2 ^ l ∧ (badSet k c rs ws p).card ≤ 2 ^ l * B := by
  induction l with
  | zero =>
    intro rs ws hlen hl h
    unfold Resists at h
    push Not at h
    obtain ⟨cv, h⟩ := h
    refine ⟨[cv], by simp, ?_⟩
    by_contra hlt
    rw [pow_zero, one_mul, not_le] at hlt
    obtain ⟨pos, hpos, hacc⟩ := h _ (Finset.filter_subset _ _) hlt
    apply hacc
    simp only [Finset.mem_filter] at hpos
    refine queryRejects_of env k c rs ws cv hlen hk (by omega) pos ?_
    simpa [Ark.eval] using hpos.2
  | succ l ih =>
    intro rs ws hlen hl h
    unfold Resists at h
    push Not at h
    obtain ⟨w, h⟩ := h
    obtain ⟨r₁, r₂, hr, n₁, n₂⟩ := two_of_not_allBut h
    obtain ⟨p₁, hp₁, c₁⟩ := ih (rs ++ [r₁]) (ws ++ [w]) (by simp [hlen]) (by simp; omega) n₁
    obtain ⟨p₂, hp₂, c₂⟩ := ih (rs ++ [r₂]) (ws ++ [w]) (by simp [hlen]) (by simp; omega) n₂
    obtain ⟨p, hp, hcard⟩ := round_step k c hc hk rs ws w hlen (by omega) r₁ r₂ hr p₁ p₂ _ _ hp₁ hp₂ c₁ c₂
    refine ⟨p, by rw [pow_succ']; exact hp, ?_⟩
    rw [pow_succ', mul_assoc]
    refine le_trans (Finset.card_le_card ?_) hcard
    intro pos hpos
    simp only [badSet, Finset.mem_filter] at hpos ⊢
    refine ⟨hpos.1, ?_⟩
    rcases hpos.2 with h | ⟨i, u, r, hi, hu, hr', hne⟩
    · exact .inl (.inl h)
    · by_cases heq : w (pos % 2 ^ (k - ws.length)) = Ark.eval p (pointAt k c ws.length pos)
      · exact .inl (.inr ⟨i, u, r, hi, hu, hr', by dsimp only at hne ⊢; rw [heq]; exact hne⟩)
      · exact .inr heq

/-- **C75**: if the word of the first layer is far from all polynomials with at most `2^(l+1)` coefficients
(`l+1` layers), then for all but one challenge in each round more than `B` of the `2^k` query positions are
rejected. -/
theorem C75_oracle_soundness (env : Env F) (k l B : ℕ) (hl : l < k) (c : F) (hc : c ≠ 0) (dom : Domain F)
    (hdom : Domain.new? (F := F) (2 ^ k) = some dom) (w : ℕ → F)
    (hfar : Far k c dom.gen w (2 ^ (l + 1)) (2 ^ (l + 1) * B)) :
    AllBut 1 fun r : F => Resists env k c B l [r] [w] := by
  classical
  have hk : k ≤ FftField.twoAdicity F := by
    by_contra hn
    rw [new?_pow_none k hn] at hdom
    simp at hdom
  rw [new?_pow k hk] at hdom
  obtain rfl := Option.some.inj hdom
  by_contra hn
  obtain ⟨r₁, r₂, hr, n₁, n₂⟩ := two_of_not_allBut hn
  obtain ⟨p₁, hp₁, c₁⟩ := badSet_of_not_resists env k c hc hk B l [r₁] [w] rfl (by simp; omega) n₁
  obtain ⟨p₂, hp₂, c₂⟩ := badSet_of_not_resists env k c hc hk B l [r₂] [w] rfl (by simp; omega) n₂
  obtain ⟨p, hp, hcard⟩ := round_step k c hc hk [] [] w rfl (by simp; omega) r₁ r₂ hr p₁ p₂ _ _ hp₁ hp₂ c₁ c₂
  have := hfar p (by rw [pow_succ']; exact hp)
    ((Finset.range (2 ^ k)).filter fun pos => w pos = Ark.eval p (c * (rootOf F k) ^ pos))
    (Finset.filter_subset _ _) (fun pos hpos => (Finset.mem_filter.1 hpos).2)
  have hsum := Finset.card_filter_add_card_filter_not (s := Finset.range (2 ^ k))
    (p := fun pos => w pos = Ark.eval p (c * (rootOf F k) ^ pos))
  rw [Finset.card_range] at hsum
  have hle : ((Finset.range (2 ^ k)).filter fun pos => ¬ w pos = Ark.eval p (c * (rootOf F k) ^ pos)).card ≤
      2 * (2 ^ l * B) := by
    refine le_trans (Finset.card_le_card ?_) hcard
    intro pos hpos
    simp only [Finset.mem_filter] at hpos ⊢
    refine ⟨hpos.1, .inr ?_⟩
    have hlt := Finset.mem_range.1 hpos.1
    simp only [List.length_nil, Nat.sub_zero, pointAt, Nat.mod_eq_of_lt hlt, pow_zero, pow_one]
    rw [mul_comm]
    exact hpos.2
  rw [pow_succ'] at this
  have e : 2 * 2 ^ l * B = 2 * (2 ^ l * B) := by ring
  omega

/-- **C75** (repeated queries): if more than `B` of the `2^k` positions reject, at most `(2^k - B - 1)^q` of the
`(2^k)^q` lists of `q` positions are accepted throughout. -/
theorem C75_query_count (env : Env F) (k B q : ℕ) (c : F) (rs : List F) (ws : List (ℕ → F))
    (h : Resists env k c B 0 rs ws) (cv : F) (V : Finset (Fin q → Fin (2 ^ k)))
    (hV : ∀ v ∈ V, ∀ j, ∃ d : Decommitment F, d.Shape rs.length ∧ Reads k ws (v j) d ∧
      verifyQuery env (v j) d rs (2 ^ k) cv c = some (.ok ())) :
    V.card ≤ (2 ^ k - B - 1) ^ q := by
  classical
  obtain ⟨R, hR, hB, hrej⟩ := h cv
  let A : Finset (Fin (2 ^ k)) := Finset.univ.filter fun x => (x : ℕ) ∉ R
  have hsub : V ⊆ Fintype.piFinset fun _ : Fin q => A := by
    intro v hv
    rw [Fintype.mem_piFinset]
    intro j
    simp only [A, Finset.mem_filter, Finset.mem_univ, true_and]
    intro hmem
    obtain ⟨d, h1, h2, h3⟩ := hV v hv j
    exact hrej _ hmem d h1 h2 h3
  have hcard : A.card ≤ 2 ^ k - B - 1 := by
    have h1 : A.card = ((Finset.range (2 ^ k)) \ R).card := by
      rw [← Finset.card_map Fin.valEmbedding]
      congr 1
      ext x
      simp only [A, Finset.mem_map, Finset.mem_filter, Finset.mem_univ, true_and, Fin.valEmbedding_apply,
        Finset.mem_sdiff, Finset.mem_range]
      constructor
      · rintro ⟨a, ha, rfl⟩; exact ⟨a.2, ha⟩
      · rintro ⟨h1, h2⟩; exact ⟨⟨x, h1⟩, h2, rfl⟩
    rw [h1, Finset.card_sdiff_of_subset hR, Finset.card_range]
    omega
  calc V.card ≤ (Fintype.piFinset fun _ : Fin q => A).card := Finset.card_le_card hsub
    _ = A.card ^ q := by rw [Fintype.card_piFinset]; simp
    _ ≤ _ := Nat.pow_le_pow_left hcard q

/-- **C75** (whole verifier): once the prover has fixed all its words and the game has ended with `Resists`, the
verifier rejects every proof with these words and folding challenges in which one of the query positions drawn from
the transcript is among the rejecting ones; there are more than `B` such positions. -/
theorem C75_verify_rejects (env : Env F) (k B : ℕ) (c : F) (rs : List F) (ws : List (ℕ → F))
    (h : Resists env k c B 0 rs ws) (cv : F) :
    ∃ R : Finset ℕ, R ⊆ Finset.range (2 ^ k) ∧ B < R.card ∧
      ∀ (pf : Proof F) (positions : List ℕ), Derived env pf rs positions → pf.domainSize = 2 ^ k →
        pf.coset = c → pf.constVal = cv → pf.decommitmentList.length = pf.numberOfQueries →
        (∀ (j pos : ℕ) (d : Decommitment F), positions[j]? = some pos → pf.decommitmentList[j]? = some d →
          d.Shape rs.length ∧ Reads k ws pos d) →
        (∃ pos ∈ positions, pos ∈ R) → verify env pf ≠ some (.ok ()) := by
  obtain ⟨R, hR, hB, hrej⟩ := h cv
  refine ⟨R, hR, hB, ?_⟩
  rintro pf positions hder hD hc hcv hq hread ⟨pos, hmem, hposR⟩ hok
  obtain ⟨rs', t, t', vs, h1, h2, -, h3⟩ := (verify_ok_iff env pf).1 hok
  have hder' : Derived env pf rs' (vs.map (· % pf.domainSize)) := (derived_iff _ _ _ _).2 ⟨t, t', vs, h1, h2, rfl⟩
  obtain rfl : rs = rs' := hder.1.trans hder'.1.symm
  have hpp : positions = vs.map (· % pf.domainSize) := hder.2.1.trans hder'.2.1.symm
  obtain ⟨j, hj⟩ := List.mem_iff_getElem?.1 hmem
  have hlen : positions.length = pf.numberOfQueries := by rw [hder.2.1]; simp
  have hjl := (List.getElem?_eq_some_iff.1 hj).1
  obtain ⟨d, hd⟩ : ∃ d, pf.decommitmentList[j]? = some d := ⟨_, List.getElem?_eq_getElem (by omega)⟩
  obtain ⟨hs, hr⟩ := hread j pos d hj hd
  refine hrej pos hposR d hs hr ?_
  have := h3 (pos, d) (List.mem_of_getElem? (List.getElem?_zip_eq_some.2 ⟨by rw [← hpp]; exact hj, hd⟩))
  rw [hD, hcv, hc] at this
  exact this

/-- The query phase accepts at every position some decommitment that reveals the words `w, u, vs` of the layers, under
the challenges `r, rs`, with final constant `cv`. -/
def AllQueriesAccept (env : Env F) (k : ℕ) (c cv r : F) (rs : List F) (w u : ℕ → F) (vs : List (ℕ → F)) : Prop :=
  ∀ pos < 2 ^ k, ∃ d : Decommitment F, d.Shape (rs.length + 1) ∧ Reads k (w :: u :: vs) pos d ∧
    verifyQuery env pos d (r :: rs) (2 ^ k) cv c = some (.ok ())

/-- **C68** (at the verifier): two-special-soundness of a folding round of `verify_query`.  One word `w` of the
first layer, two different first challenges; for each challenge the next layer is a polynomial with at most `m`
coefficients on the squared coset (the later layers, challenges and the constant are arbitrary).  If for both
challenges every query position is accepted, `w` is a polynomial with at most `2m` coefficients on the whole coset. -/
theorem C68_verify_special_sound (env : Env F) (k m : ℕ) (c : F) (hc : c ≠ 0) (dom : Domain F)
    (hdom : Domain.new? (F := F) (2 ^ k) = some dom) (w u₁ u₂ : ℕ → F) (vs₁ vs₂ : List (ℕ → F)) (r₁ r₂ : F)
    (hr : r₁ ≠ r₂) (rs₁ rs₂ : List F) (cv₁ cv₂ : F) (g₁ g₂ : DP F) (hg₁ : g₁.length ≤ m) (hg₂ : g₂.length ≤ m)
    (hl₁ : rs₁.length = vs₁.length + 1) (hl₂ : rs₂.length = vs₂.length + 1) (hk₁ : rs₁.length < k)
    (hk₂ : rs₂.length < k)
    (hu₁ : ∀ pos < 2 ^ (k - 1), u₁ pos = Ark.eval g₁ (c ^ 2 * (dom.gen ^ 2) ^ pos))
    (hu₂ : ∀ pos < 2 ^ (k - 1), u₂ pos = Ark.eval g₂ (c ^ 2 * (dom.gen ^ 2) ^ pos))
    (h₁ : AllQueriesAccept env k c cv₁ r₁ rs₁ w u₁ vs₁) (h₂ : AllQueriesAccept env k c cv₂ r₂ rs₂ w u₂ vs₂) :
    ∃ p : DP F, p.length ≤ 2 * m ∧ ∀ pos < 2 ^ k, w pos = Ark.eval p (c * dom.gen ^ pos) := by
  have hk : k ≤ FftField.twoAdicity F := by
    by_contra hn
    rw [new?_pow_none k hn] at hdom
    simp at hdom
  rw [new?_pow k hk] at hdom
  obtain rfl := Option.some.inj hdom
  have hgen : (rootOf F k) ^ 2 = rootOf F (k - 1) := by
    obtain ⟨j, rfl⟩ : ∃ j, k = j + 1 := ⟨k - 1, by omega⟩
    rw [pow_two, rootOf_sq _ (by omega)]; rfl
  obtain ⟨p, hp, hpe⟩ := fold_pair (two_ne_zero_of (by omega)) r₁ r₂ hr m g₁ g₂ hg₁ hg₂
  refine ⟨p, hp, fun pos hpos => ?_⟩
  have eqn : ∀ (u : ℕ → F) (vs : List (ℕ → F)) (r cv : F) (rs : List F) (g : DP F),
      rs.length = vs.length + 1 → rs.length < k →
      (∀ pos < 2 ^ (k - 1), u pos = Ark.eval g (c ^ 2 * ((rootOf F k) ^ 2) ^ pos)) →
      AllQueriesAccept env k c cv r rs w u vs →
      foldAt k c 0 w r pos = Ark.eval g (pointAt k c 0 pos ^ 2) := by
    intro u vs r cv rs g hl hlk hu hacc
    obtain ⟨d, hs, hread, hok⟩ := hacc pos hpos
    by_contra hne
    refine queryRejects_of env k c (r :: rs) (w :: u :: vs) cv (by simp [hl]) hk (by simp; omega) pos
      (.inl ⟨0, w, u, r, rfl, rfl, rfl, fun he => hne ?_⟩) d (by simpa using hs) hread hok
    rw [he, hu _ (Nat.mod_lt _ (by positivity)), pointAt_sq k c 0 pos hk (by omega), pointAt, hgen, pow_one,
      mul_comm]
  have := hpe _ _ _ (pointAt_ne_zero k c 0 pos hk hc) (eqn u₁ vs₁ r₁ cv₁ rs₁ g₁ hl₁ hk₁ hu₁ h₁)
    (eqn u₂ vs₂ r₂ cv₂ rs₂ g₂ hl₂ hk₂ hu₂ h₂)
  simp only [Nat.sub_zero, Nat.mod_eq_of_lt hpos, pointAt, pow_zero, pow_one] at this
  rw [this, mul_comm]
  rfl

/-- The word a list of committed values stands for. -/
def wordOf (leaves : List F) : ℕ → F := fun j => leaves.getD j 0

/-- **C21** with the missing checks added, as a whole: suppose a verifier also checked that the decommitments are
complete, of the right shape, and that every path leads to the layer root and has the layer's depth.  If the prover
committed to `leaves i` in layer `i` and its words ended in `Resists` (which by C75 happens for all but one challenge
per round if the first word is far from low degree), then there are more than `B` query positions such that a proof in
which one of them is drawn is rejected, or reveals an explicit hash collision. -/
theorem C21_repaired_partial (env : Env F) (m k B : ℕ) (hmk : m ≤ k) (c cv : F) (rs : List F) (leaves : ℕ → List F)
    (hres : Resists env k c B 0 rs ((List.range m).map fun i => wordOf (leaves i))) :
    ∃ R : Finset ℕ, R ⊆ Finset.range (2 ^ k) ∧ B < R.card ∧
      ∀ (pf : Proof F) (positions : List ℕ), Derived env pf rs positions → pf.domainSize = 2 ^ k →
        pf.coset = c → pf.constVal = cv → pf.layersRoot.length = m →
        pf.decommitmentList.length = pf.numberOfQueries → (∀ d ∈ pf.decommitmentList, d.Shape m) →
        (∀ d ∈ pf.decommitmentList, ∀ (i : ℕ) (path : MerkleProof F),
          (d.authPaths[i]? = some path ∨ d.symAuthPaths[i]? = some path) →
            pf.layersRoot[i]? = some path.root ∧ path.hashProof.length = k - i) →
        (∀ i < m, (leaves i).length = 2 ^ (k - i) ∧
          (MerkleTree.new env (leaves i)).root? = pf.layersRoot[i]?) →
        (∃ pos ∈ positions, pos ∈ R) →
          verify env pf ≠ some (.ok ()) ∨
          ∃ d ∈ pf.decommitmentList, ∃ (i : ℕ) (path q : MerkleProof F),
            (d.authPaths[i]? = some path ∨ d.symAuthPaths[i]? = some path) ∧
            (MerkleTree.new env (leaves i)).generateProof path.index = some q ∧ ExhibitsCollision env path q := by
  obtain ⟨R, hR, hB, hrej⟩ := C75_verify_rejects env k B c rs _ hres cv
  refine ⟨R, hR, hB, ?_⟩
  intro pf positions hder hD hc hcv hm hq hshape hroots hleaves hpos
  by_cases hok : verify env pf = some (.ok ())
  · right
    by_contra hcol
    obtain ⟨rs', positions', hder', hauth⟩ := C21_authentication_partial env pf m k hm hmk hD hshape hroots leaves
      hleaves hok
    obtain rfl : positions = positions' := hder.2.1.trans hder'.2.1.symm
    have hrl : rs.length = m := by rw [hder.1]; simp [hm]
    refine hrej pf positions hder hD hc hcv hq (fun j pos d hj hd => ⟨?_, ?_⟩) hpos hok
    · rw [hrl]; exact hshape d (List.mem_of_getElem? hd)
    · intro i w hw
      have hi : i < m := by
        have := (List.getElem?_eq_some_iff.1 hw).1
        simpa using this
      have hw' : w = wordOf (leaves i) := by
        rw [List.getElem?_map, List.getElem?_range hi] at hw
        exact (Option.some.inj hw).symm
      subst hw'
      rcases hauth j pos d hj hd i hi with ⟨h1, h2⟩ | ⟨path, q, h1, h2, h3⟩
      · have hp : 0 < 2 ^ (k - i) := by positivity
        have get : ∀ a, a < 2 ^ (k - i) → (leaves i)[a]? = some (wordOf (leaves i) a) := by
          intro a ha
          rw [← (hleaves i hi).1] at ha
          simp [wordOf, List.getElem?_eq_getElem ha]
        rw [← h1, ← h2]
        exact ⟨get _ (Nat.mod_lt _ hp), get _ (Nat.mod_lt _ hp)⟩
      · exact absurd ⟨d, List.mem_of_getElem? hd, i, path, q, h1, h2, h3⟩ hcol
  · exact .inl hok

theorem getD_of_le (p : DP F) (m : ℕ) (h : p.length ≤ m) : List.getD p m 0 = 0 := by
  rw [List.getD_eq_getElem?_getD, List.getElem?_eq_none h]; rfl

/-- The word of a polynomial with `m+1` coefficients, the last one non-zero, is far from all polynomials with at
most `m` coefficients. -/
theorem far_poly (k : ℕ) (c : F) (hc : c ≠ 0) (hk : k ≤ FftField.twoAdicity F) (p₀ : DP F) (m t : ℕ)
    (hlen : p₀.length = m + 1) (hlead : p₀.getD m 0 ≠ 0) (hm : m + t < 2 ^ k) :
    Far k c (rootOf F k) (fun pos => Ark.eval p₀ (c * rootOf F k ^ pos)) m t := by
  classical
  intro p hp A hA hagree
  refine lt_of_le_of_lt (Nat.add_le_add_right ?_ t) hm
  let Q : Polynomial F := toPoly p₀ - toPoly p
  have hQm : Q.coeff m ≠ 0 := by
    simp only [Q, Polynomial.coeff_sub, coeff_toPoly]
    rw [getD_of_le p _ hp, sub_zero]
    exact hlead
  have hQ0 : Q ≠ 0 := by
    intro h0
    rw [h0] at hQm
    simp at hQm
  have hQd : Q.natDegree ≤ m := by
    rw [Polynomial.natDegree_le_iff_coeff_eq_zero]
    intro j hj
    simp only [Q, Polynomial.coeff_sub, coeff_toPoly]
    rw [getD_of_le p _ (by omega), getD_of_le p₀ _ (by omega), sub_zero]
  have hinj : Set.InjOn (fun pos : ℕ => c * rootOf F k ^ pos) A := by
    intro a ha b hb hab
    exact (rootOf_prim k hk).pow_inj (Finset.mem_range.1 (hA ha)) (Finset.mem_range.1 (hA hb))
      (mul_left_cancel₀ hc hab)
  rw [← Finset.card_image_of_injOn hinj]
  refine ((Finset.card_le_card ?_).trans ((Multiset.toFinset_card_le _).trans
    (Polynomial.card_roots' Q))).trans hQd
  intro x hx
  obtain ⟨pos, hpos, rfl⟩ := Finset.mem_image.1 hx
  rw [Multiset.mem_toFinset, Polynomial.mem_roots hQ0]
  have := hagree pos hpos
  simp only [Q, Polynomial.IsRoot, Polynomial.eval_sub]
  rw [← eval_eq, ← eval_eq]
  dsimp only at this
  rw [← this, sub_self]

/-- The hypotheses of C75 are met over Goldilocks: with domain size `2^10` and 3 layers, the word of `X^8` makes more
than 100 positions reject. -/
example (env : Env Goldilocks) : ∃ (dom : Domain Goldilocks) (w : ℕ → Goldilocks),
    Domain.new? (F := Goldilocks) (2 ^ 10) = some dom ∧
      AllBut 1 fun r : Goldilocks => Resists env 10 FftField.generator 100 2 [r] [w] := by
  have h := new?_pow (F := Goldilocks) 10 (by show 10 ≤ 32; norm_num)
  exact ⟨_, _, h, C75_oracle_soundness env 10 2 100 (by norm_num) _ FftField.generator_ne_zero _ h _
    (far_poly 10 _ FftField.generator_ne_zero (by show 10 ≤ 32; norm_num) [0, 0, 0, 0, 0, 0, 0, 0, 1] 8 800 rfl
      (by simp) (by norm_num))⟩

/-- The hypothesis `Resists` of `C75_verify_rejects` and `C21_repaired_partial` is met over Goldilocks by one layer of
1024 committed values and all but one challenge. -/
example (env : Env Goldilocks) : ∃ leaves : List Goldilocks, leaves.length = 2 ^ 10 ∧
    AllBut 1 fun r : Goldilocks =>
      Resists env 10 FftField.generator 100 0 [r] ((List.range 1).map fun _ => wordOf leaves) := by
  have h := new?_pow (F := Goldilocks) 10 (by show 10 ≤ 32; norm_num)
  let w : ℕ → Goldilocks := fun pos => Ark.eval [0, 0, 1] (FftField.generator * rootOf Goldilocks 10 ^ pos)
  refine ⟨(List.range (2 ^ 10)).map w, by rw [List.length_map, List.length_range], ?_⟩
  refine C75_oracle_soundness env 10 0 100 (by norm_num) _ FftField.generator_ne_zero _ h _ ?_
  intro p hp A hA hagree
  refine far_poly 10 _ FftField.generator_ne_zero (by show 10 ≤ 32; norm_num) ([0, 0, 1] : DP Goldilocks) 2
    (2 ^ (0 + 1) * 100) rfl (by simp) (by norm_num) p hp A hA fun pos hpos => ?_
  have hlt := Finset.mem_range.1 (hA hpos)
  refine Eq.trans ?_ (hagree pos hpos)
  dsimp only
  rw [wordOf, List.getD_eq_getElem?_getD, List.getElem?_map, List.getElem?_range hlt]
  rfl

/-! ## The converse: words of polynomials are accepted at every position -/

theorem foldl_length (rs : List F) (p : DP F) (l : ℕ) (hp : p.length ≤ 2 ^ (rs.length + l)) :
    (rs.foldl foldPolynomial p).length ≤ 2 ^ l := by
  induction rs generalizing p with
  | nil => simpa using hp
  | cons r rs ih =>
    rw [List.foldl_cons]
    apply ih
    refine (length_fold_le p r).trans ?_
    rw [List.length_cons, show rs.length + 1 + l = (rs.length + l) + 1 by omega, pow_succ] at hp
    omega

/-- **C75** (converse): the words of a polynomial with at most `2^(l+1)` coefficients and of its successive folds
are accepted at every position, whatever the challenges: `Resists` asks for something only of far words. -/
theorem C75_close_accepted (env : Env F) (k l : ℕ) (hl : l < k) (c : F) (hc : c ≠ 0) (dom : Domain F)
    (hdom : Domain.new? (F := F) (2 ^ k) = some dom) (p : DP F) (hp : p.length ≤ 2 ^ (l + 1)) :
    ∃ (word : List F → ℕ → F) (const : List F → F),
      (∀ pos < 2 ^ k, word [] pos = Ark.eval p (c * dom.gen ^ pos)) ∧
      (∀ (r : F) (pos : ℕ), word [r] pos = Ark.eval (foldPolynomial p r) (c ^ 2 * (dom.gen ^ 2) ^ pos)) ∧
      ∀ rs : List F, rs.length = l + 1 → ∀ pos < 2 ^ k,
        ∃ d : Decommitment F, d.Shape (l + 1) ∧
          Reads k ((List.range (l + 1)).map fun i => word (rs.take i)) pos d ∧
          verifyQuery env pos d rs (2 ^ k) (const rs) c = some (.ok ()) := by
  have hk : k ≤ FftField.twoAdicity F := by
    by_contra hn
    rw [new?_pow_none k hn] at hdom
    simp at hdom
  rw [new?_pow k hk] at hdom
  obtain rfl := Option.some.inj hdom
  have h2 : (2 : F) ≠ 0 := two_ne_zero_of (by omega)
  let word : List F → ℕ → F := fun rs j =>
    Ark.eval (rs.foldl foldPolynomial p) (rootOf F (k - rs.length) ^ j * c ^ 2 ^ rs.length)
  refine ⟨word, fun rs => Ark.eval (rs.foldl foldPolynomial p) 0, fun pos _ => ?_, fun r pos => ?_,
    fun rs hrs pos hpos => ?_⟩
  · simp only [word, List.foldl_nil, List.length_nil, Nat.sub_zero, pow_zero, pow_one]
    rw [mul_comm]; rfl
  · have hgen : (rootOf F k) ^ 2 = rootOf F (k - 1) := by
      obtain ⟨j, rfl⟩ : ∃ j, k = j + 1 := ⟨k - 1, by omega⟩
      rw [pow_two, rootOf_sq _ (by omega)]; rfl
    simp only [word, List.foldl_cons, List.foldl_nil, List.length_cons, List.length_nil, Nat.zero_add, pow_one]
    rw [← hgen, mul_comm]; rfl
  let mk : ℕ → F → MerkleProof F := fun idx v => ⟨idx, v, [], hash env v⟩
  let a : ℕ → ℕ := fun i => pos % 2 ^ (k - i)
  let b : ℕ → ℕ := fun i => (pos % 2 ^ (k - i) + 2 ^ (k - i) / 2) % 2 ^ (k - i)
  let d : Decommitment F :=
    { evaluations := (List.range (l + 1)).map fun i => word (rs.take i) (a i)
      authPaths := (List.range (l + 1)).map fun i => mk (a i) (word (rs.take i) (a i))
      symEvaluations := (List.range (l + 1)).map fun i => word (rs.take i) (b i)
      symAuthPaths := (List.range (l + 1)).map fun i => mk (b i) (word (rs.take i) (b i)) }
  have hshape : d.Shape (l + 1) := by simp [Decommitment.Shape, d]
  have get : ∀ {α : Type} (f : ℕ → α) (i : ℕ), i < l + 1 → ((List.range (l + 1)).map f)[i]? = some (f i) := by
    intro α f i hi
    simp [List.getElem?_map, List.getElem?_range hi]
  refine ⟨d, hshape, ?_, ?_⟩
  · intro i w hw
    have hi : i < l + 1 := by
      have := (List.getElem?_eq_some_iff.1 hw).1
      simpa using this
    rw [get _ i hi] at hw
    obtain rfl := Option.some.inj hw
    exact ⟨get _ i hi, get _ i hi⟩
  · rw [verifyQuery_iff env pos d rs _ _ c _ hshape hrs]
    intro i r ev path sev sp hr hev hpath hsev hsp
    have hi : i < l + 1 := by rw [← hrs]; exact (List.getElem?_eq_some_iff.1 hr).1
    simp only [d] at hev hpath hsev hsp
    rw [get _ i hi] at hev hpath hsev hsp
    obtain rfl := Option.some.inj hev
    obtain rfl := Option.some.inj hpath
    obtain rfl := Option.some.inj hsev
    obtain rfl := Option.some.inj hsp
    have hD : 2 ^ k / 2 ^ i = 2 ^ (k - i) := Nat.pow_div (by omega) (by norm_num)
    have hli : (rs.take i).length = i := by rw [List.length_take]; omega
    have hx0 : pointAt k c i pos ≠ 0 := pointAt_ne_zero k c i pos hk hc
    rw [LayerOk, hD]
    refine ⟨by positivity, rfl, rfl, rfl, rfl, by simp [mk, verifyMerkleProof, merkleLoop],
      by simp [mk, verifyMerkleProof, merkleLoop], _, _, new?_pow _ (by omega), rfl, h2, hx0, ?_⟩
    -- values at the point and its negative
    have e1 : word (rs.take i) (a i) = Ark.eval ((rs.take i).foldl foldPolynomial p) (pointAt k c i pos) := by
      simp only [word, hli]; rfl
    have e2 : word (rs.take i) (b i) = Ark.eval ((rs.take i).foldl foldPolynomial p) (-pointAt k c i pos) := by
      simp only [word, hli, b, pointAt]
      rw [rootOf_pow_mod _ _ (by omega), pow_add]
      obtain ⟨k', hk'⟩ : ∃ k', k - i = k' + 1 := ⟨k - i - 1, by omega⟩
      rw [hk', show 2 ^ (k' + 1) / 2 = 2 ^ k' by rw [pow_succ]; simp, rootOf_half _ (by omega)]
      congr 1; ring
    have hfold : Ark.eval (foldPolynomial ((rs.take i).foldl foldPolynomial p) r) (pointAt k c i pos ^ 2) =
        (word (rs.take i) (a i) + word (rs.take i) (b i)) / 2 +
          r * (word (rs.take i) (a i) - word (rs.take i) (b i)) / (2 * pointAt k c i pos) := by
      rw [e1, e2]
      exact C16_fold_identity _ r _ hx0 h2
    have htake : (rs.take (i + 1)).foldl foldPolynomial p =
        foldPolynomial ((rs.take i).foldl foldPolynomial p) r := by
      rw [List.take_add_one, hr]; simp
    rw [← htake] at hfold
    refine Eq.trans ?_ hfold
    by_cases hlast : i + 1 < l + 1
    · simp only [d]
      rw [get _ (i + 1) hlast, Option.getD_some, pointAt_sq k c i pos hk (by omega)]
      have hli' : (rs.take (i + 1)).length = i + 1 := by rw [List.length_take]; omega
      simp only [word, hli']
      rfl
    · rw [List.getElem?_eq_none (by rw [hshape.1]; omega), Option.getD_none]
      have hall : rs.take (i + 1) = rs := List.take_of_length_le (by omega)
      rw [hall]
      have hlen := foldl_length rs p 0 (by rw [hrs]; exact hp)
      dsimp only
      generalize rs.foldl foldPolynomial p = q at hlen
      match q, hlen with
      | [], _ => rfl
      | [v], _ => simp only [Ark.eval_cons, Ark.eval_nil, mul_zero]

/-! ## C76: the proof does not bound the degree -/

/-- The hypotheses of `C68_verify_special_sound` are met over Goldilocks by a cubic on a coset of size 8 and any two
different challenges (of any shape: the second challenge of each run is arbitrary too). -/
example (env : Env Goldilocks) (r₁ r₂ s₁ s₂ : Goldilocks) :
    ∃ (dom : Domain Goldilocks) (w u₁ u₂ : ℕ → Goldilocks) (cv₁ cv₂ : Goldilocks) (g₁ g₂ : DP Goldilocks),
      Domain.new? (F := Goldilocks) (2 ^ 3) = some dom ∧ g₁.length ≤ 2 ∧ g₂.length ≤ 2 ∧
      (∀ pos < 2 ^ 2, u₁ pos = Ark.eval g₁ (FftField.generator ^ 2 * (dom.gen ^ 2) ^ pos)) ∧
      (∀ pos < 2 ^ 2, u₂ pos = Ark.eval g₂ (FftField.generator ^ 2 * (dom.gen ^ 2) ^ pos)) ∧
      AllQueriesAccept env 3 FftField.generator cv₁ r₁ [s₁] w u₁ [] ∧
      AllQueriesAccept env 3 FftField.generator cv₂ r₂ [s₂] w u₂ [] := by
  have h := new?_pow (F := Goldilocks) 3 (by show 3 ≤ 32; norm_num)
  obtain ⟨word, const, h0, h1, h2⟩ := C75_close_accepted env 3 1 (by norm_num) _ FftField.generator_ne_zero _ h
    ([1, 2, 3, 4] : DP Goldilocks) (by simp)
  have hlen : ∀ r : Goldilocks, (foldPolynomial ([1, 2, 3, 4] : DP Goldilocks) r).length ≤ 2 := fun r =>
    (length_fold_le _ r).trans (by simp)
  exact ⟨_, word [], word [r₁], word [r₂], const [r₁, s₁], const [r₂, s₂], _, _, h, hlen r₁, hlen r₂,
    fun pos _ => h1 r₁ pos, fun pos _ => h1 r₂ pos, fun pos hpos => h2 [r₁, s₁] rfl pos hpos,
    fun pos hpos => h2 [r₂, s₂] rfl pos hpos⟩

theorem exists_interpolant (k : ℕ) (c : F) (hc : c ≠ 0) (hk : k ≤ FftField.twoAdicity F) (w : ℕ → F) :
    ∃ p : DP F, p.length ≤ 2 ^ k ∧ ∀ pos < 2 ^ k, w pos = Ark.eval p (c * rootOf F k ^ pos) := by
  have hinj : Set.InjOn (fun pos : ℕ => c * rootOf F k ^ pos) (Finset.range (2 ^ k)) := by
    intro a ha b hb hab
    exact (rootOf_prim k hk).pow_inj (Finset.mem_range.1 ha) (Finset.mem_range.1 hb)
      (mul_left_cancel₀ hc hab)
  let P := Lagrange.interpolate (Finset.range (2 ^ k)) (fun pos : ℕ => c * rootOf F k ^ pos) w
  have hdeg : P.degree < (2 ^ k : ℕ) := by
    have := Lagrange.degree_interpolate_lt w hinj
    rwa [Finset.card_range] at this
  refine ⟨(List.range (2 ^ k)).map P.coeff, by simp, fun pos hpos => ?_⟩
  have hP : toPoly ((List.range (2 ^ k)).map P.coeff) = P := by
    ext j
    rw [coeff_toPoly]
    by_cases hj : j < 2 ^ k
    · simp [List.getD_eq_getElem?_getD, List.getElem?_map, List.getElem?_range hj]
    · rw [getD_of_le _ _ (by simpa using hj)]
      exact (Polynomial.coeff_eq_zero_of_degree_lt (lt_of_lt_of_le hdeg (by exact_mod_cast not_lt.1 hj))).symm
  rw [eval_eq, hP]
  exact (Lagrange.eval_interpolate_at_node w hinj (Finset.mem_range.2 hpos)).symm

/-- **C76** is false of the code: with the `log2(domain_size)` layers the prover uses, *every* word on the domain is
accepted at every query position, whatever the folding challenges. -/
theorem C76_every_word_accepted (env : Env F) (k : ℕ) (hk0 : 0 < k) (c : F) (hc : c ≠ 0) (dom : Domain F)
    (hdom : Domain.new? (F := F) (2 ^ k) = some dom) (w : ℕ → F) :
    ∃ (word : List F → ℕ → F) (const : List F → F), (∀ pos < 2 ^ k, word [] pos = w pos) ∧
      ∀ rs : List F, rs.length = k → ∀ pos < 2 ^ k,
        ∃ d : Decommitment F, d.Shape k ∧ Reads k ((List.range k).map fun i => word (rs.take i)) pos d ∧
          verifyQuery env pos d rs (2 ^ k) (const rs) c = some (.ok ()) := by
  obtain ⟨l, rfl⟩ : ∃ l, k = l + 1 := ⟨k - 1, by omega⟩
  have hk : l + 1 ≤ FftField.twoAdicity F := by
    by_contra hn
    rw [new?_pow_none _ hn] at hdom
    simp at hdom
  have hg : dom.gen = rootOf F (l + 1) := by
    rw [new?_pow _ hk] at hdom
    rw [← Option.some.inj hdom]; rfl
  obtain ⟨p, hp, hw⟩ := exists_interpolant (l + 1) c hc hk w
  obtain ⟨word, const, h1, -, h2⟩ := C75_close_accepted env (l + 1) l (by omega) c hc dom hdom p hp
  exact ⟨word, const, fun pos hpos => by rw [h1 pos hpos, hw pos hpos, hg], h2⟩

/-- **C76** is false of the code, on complete proofs: the proof of a polynomial with `m+1` coefficients and blowup
factor 1 is accepted, although the word its first root commits to differs from every polynomial with at most `m`
coefficients in at least `2^k - m` of the `2^k` positions; and nothing in its header distinguishes it from the proof of
a polynomial of lower degree with a larger blowup factor. -/
theorem C76_degree_not_bound (env : Env F) (poly : DP F) (m k q : ℕ) (hlen : poly.length = m + 1)
    (hlead : poly.getD m 0 ≠ 0) (hk : Nat.clog 2 (m + 1) = k) {pf : Proof F}
    (h : generateProof env poly 1 q = some pf) :
    verify env pf = some (.ok ()) ∧
    (∃ (dom : Domain F) (word : ℕ → F), Domain.new? (F := F) (2 ^ k) = some dom ∧
      (MerkleTree.new env ((List.range (2 ^ k)).map word)).root? = pf.layersRoot[0]? ∧
      ∀ t, m + t < 2 ^ k → Far k pf.coset dom.gen word m t) ∧
    ∀ (poly' : DP F) (b : ℕ) (pf' : Proof F), Nat.clog 2 (poly'.length * b) = k →
      generateProof env poly' b q = some pf' →
        pf.domainSize = pf'.domainSize ∧ pf.coset = pf'.coset ∧ pf.numberOfQueries = pf'.numberOfQueries ∧
        pf.layersRoot.length = pf'.layersRoot.length ∧
        pf.decommitmentList.length = pf'.decommitmentList.length := by
  refine ⟨C18_completeness env poly 1 q h, ?_, ?_⟩
  · obtain ⟨rs, t, t', vs, hl, hpos, hta, hD, hc, hq, hroots, hreg, hconst, hvs, hdecs⟩ :=
      generateProof_spec env h
    have hkr : rs.length = k := by rw [hl, hlen, mul_one, hk]
    rw [hkr] at hta hpos hD
    refine ⟨⟨k, rootOf F k⟩, fun pos => Ark.eval poly (pf.coset * rootOf F k ^ pos), new?_pow k hta, ?_, ?_⟩
    · obtain ⟨root, hr1, hr2⟩ := (mapM_getElem hroots).2 0 _ (layersOf_getElem env poly _ rs 0 (by omega))
      rw [hr1, ← hr2, hc]
      simp only [layerOf, hkr, List.take_zero, List.foldl_nil, Nat.sub_zero, pow_zero, pow_one, mul_comm]
    · intro t ht
      rw [hc]
      exact far_poly k _ FftField.generator_ne_zero hta poly m t hlen hlead ht
  · intro poly' b pf' hk' h'
    obtain ⟨rs, t, t', vs, hl, hpos, hta, hD, hc, hq, hroots, hreg, hconst, hvs, hdecs⟩ :=
      generateProof_spec env h
    obtain ⟨rs', t2, t2', vs', hl', hpos', hta', hD', hc', hq', hroots', hreg', hconst', hvs', hdecs'⟩ :=
      generateProof_spec env h'
    have hkr : rs.length = rs'.length := by rw [hl, hlen, mul_one, hk, hl', hk']
    refine ⟨by rw [hD, hD', hkr], by rw [hc, hc'], by rw [hq, hq'], ?_, ?_⟩
    · rw [← length_regenerate hreg, ← length_regenerate hreg', hkr]
    · have e1 := (mapM_getElem hdecs).1
      have e2 := (mapM_getElem hdecs').1
      have e3 := length_challengeList hvs
      have e4 := length_challengeList hvs'
      simp only [List.length_map] at e1 e2
      omega

/-- The hypotheses of `C76_degree_not_bound` are met: `1 + X^2` over a domain of size 4, i.e. a word at distance
two from all linear polynomials. -/
example (sha : List UInt8 → List UInt8) :
    ∃ pf, generateProof (eightEnv sha) ([1, 0, 1] : DP Goldilocks) 1 3 = some pf ∧
      verify (eightEnv sha) pf = some (.ok ()) ∧ pf.domainSize = 2 ^ 2 := by
  have hc : Nat.clog 2 3 = 2 := by decide
  obtain ⟨pf, h, -⟩ := C18_prover_returns (eightEnv sha) (fun b => by simp [eightEnv, goldEnv])
    ([1, 0, 1] : DP Goldilocks) 1 3 (by simp) (by
      show 2 ^ Nat.clog 2 3 ≤ 2 ^ 32
      rw [hc]; norm_num) (by
      rintro rs ⟨roots, hlr, -, hrs⟩
      have hl : rs.length = Nat.clog 2 3 := by rw [hrs]; simp
      have h0 : ∀ r ∈ rs, r = 0 := by
        intro r hr
        rw [hrs] at hr
        obtain ⟨i, -, rfl⟩ := List.mem_map.1 hr
        rfl
      rw [hc] at hl
      match rs, hl with
      | [a, b], _ =>
        rw [h0 a (by simp), h0 b (by simp)]
        decide +kernel)
  obtain ⟨h1, -, -⟩ := C76_degree_not_bound (eightEnv sha) [1, 0, 1] 2 2 3 rfl (by decide +kernel) hc h
  obtain ⟨k, hk, -⟩ := C23_shape _ _ _ _ h
  obtain ⟨rs, t, t', vs, hl, hpos, hta, hD, -⟩ := generateProof_spec _ h
  exact ⟨pf, h, h1, by rw [hD, hl]; show 2 ^ Nat.clog 2 3 = _; rw [hc]⟩

end Verif.Fri

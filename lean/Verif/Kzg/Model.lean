import Verif.Ark.Poly
import Mathlib.Algebra.Module.LinearMap.Basic
import Mathlib.LinearAlgebra.BilinearMap

/-!
# Model of the `kzg` crate

Panics are `none`.  `G1Point`/`G2Point` (affine) and their projective forms are identified; group
operations, scalar multiplication and the pairing of BLS12-381 are the abstract operations of
`PairingGroups` (target group written additively).
-/

set_option linter.unusedSectionVars false

namespace Verif.Kzg

open Verif.Ark

/-- BLS12-381 as used by `kzg/src/types.rs` lines 6-9: two groups over the scalar field with
generators and a bilinear, non-degenerate pairing.  Prime order of G1: every point is a multiple of
the generator. -/
structure PairingGroups (F G1 G2 GT : Type) [Field F] [AddCommGroup G1] [Module F G1]
    [AddCommGroup G2] [Module F G2] [AddCommGroup GT] [Module F GT] where
  /-- `G1Point::generator()` -/
  g1 : G1
  /-- `G2Point::generator()` -/
  g2 : G2
  /-- `Bls12_381::pairing` -/
  e : G1 →ₗ[F] G2 →ₗ[F] GT
  /-- non-degeneracy -/
  nondeg : e g1 g2 ≠ 0
  /-- G1 is generated by `g1` -/
  cyclic : ∀ P : G1, ∃ a : F, P = a • g1

/-- A concrete (cryptographically useless) instance, used to show that hypotheses are satisfiable:
all groups are the field itself, the pairing is multiplication. -/
def trivialGroups (F : Type) [Field F] : PairingGroups F F F F where
  g1 := 1
  g2 := 1
  e := LinearMap.mul F F
  nondeg := by simp
  cyclic := fun P => ⟨P, by simp⟩

variable {F G1 G2 GT : Type} [Field F] [DecidableEq F] [AddCommGroup G1] [Module F G1]
  [AddCommGroup G2] [Module F G2] [AddCommGroup GT] [Module F GT] [DecidableEq GT]

/-- `struct Srs`, `kzg/src/srs.rs` lines 14-21. -/
structure Srs (G1 G2 : Type) where
  /-- `g1_points` -/
  g1Points : List G1
  /-- `g2` -/
  g2 : G2
  /-- `g2s_point` -/
  g2s : G2

/-- The stateful `map` closure of `kzg/src/srs.rs` lines 53-60: `k` more points starting with
multiplier `cur`, which is multiplied by the secret after each point. -/
def srsLoop (P : PairingGroups F G1 G2 GT) (secret : F) : ℕ → F → List G1
  | 0, _ => []
  | k + 1, cur => (cur • P.g1) :: srsLoop P secret k (cur * secret)

/-- `Srs::new_from_secret`, `kzg/src/srs.rs` lines 48-69.  (`Srs::new`, lines 33-36, calls it with a
random secret.) -/
def Srs.newFromSecret (P : PairingGroups F G1 G2 GT) (secret : F) (circuitSize : ℕ) : Srs G1 G2 where
  g1Points := srsLoop P secret (circuitSize + 3) 1
  g2 := P.g2
  g2s := secret • P.g2

/-- `Iterator::reduce`. -/
def reduce? {α : Type*} (f : α → α → α) : List α → Option α
  | [] => none
  | a :: l => some (l.foldl f a)

/-- `KzgScheme::evaluate_in_s`, `kzg/src/scheme.rs` lines 84-96: assert that the degree is below the
number of points, then zip, map, reduce. -/
def evaluateInS (srs : Srs G1 G2) (p : DP F) : Option G1 := do
  let deg ← degree? p
  if srs.g1Points.length > deg then
    pure ((reduce? (fun acc e => acc + e)
      ((p.zip srs.g1Points).map fun cs => cs.1 • cs.2)).getD 0)
  else none

/-- `KzgScheme::commit`, `kzg/src/scheme.rs` lines 49-52. -/
def commit (srs : Srs G1 G2) (p : DP F) : Option G1 := evaluateInS srs p

/-- `KzgScheme::commit_vector`, `kzg/src/scheme.rs` lines 63-67. -/
def commitVector (srs : Srs G1 G2) (coeffs : List F) : Option G1 :=
  evaluateInS srs (fromCoeffs coeffs)

/-- `KzgScheme::commit_para`, `kzg/src/scheme.rs` lines 78-82. -/
def commitPara (srs : Srs G1 G2) (para : F) : Option G1 := do
  let g ← srs.g1Points.head?
  pure (para • g)

/-- `struct KzgOpening(pub G1Point, pub Fr)`, `kzg/src/opening.rs` line 12. -/
structure Opening (F G1 : Type) where
  /-- `.0`, the witness point -/
  witness : G1
  /-- `.1`, the claimed evaluation -/
  eval : F

/-- `coeffs.first_mut().expect("at least 1")` followed by `-= y` (`kzg/src/scheme.rs` lines 112-113):
panics on an empty coefficient vector. -/
def subFirst {F : Type} [Field F] (p : DP F) (y : F) : Option (DP F) :=
  match p with
  | [] => none
  | a :: l => some ((a - y) :: l)

/-- `KzgScheme::open`, `kzg/src/scheme.rs` lines 108-120. -/
def openAt (srs : Srs G1 G2) (p : DP F) (z : F) : Option (Opening F G1) := do
  let y := eval p z
  let newPoly ← subFirst p y
  let qr ← divideWithQAndR newPoly (fromCoeffs [-z, 1])
  let w ← evaluateInS srs qr.1
  pure ⟨w, y⟩

/-- `KzgScheme::open_vector`, `kzg/src/scheme.rs` lines 132-142. -/
def openVector (srs : Srs G1 G2) (coeffs : List F) (z : F) : Option (Opening F G1) := do
  let p := fromCoeffs coeffs
  let y := eval p z
  let newPoly ← subFirst p y
  let qr ← divideWithQAndR newPoly (fromCoeffs [-z, 1])
  let w ← evaluateInS srs qr.1
  pure ⟨w, y⟩

/-- `KzgScheme::verify`, `kzg/src/scheme.rs` lines 155-171. -/
def verify (P : PairingGroups F G1 G2 GT) (srs : Srs G1 G2) (c : G1) (o : Opening F G1) (z : F) :
    Bool :=
  let a := srs.g2s - z • srs.g2
  let b := c - o.eval • P.g1
  decide (P.e o.witness a = P.e b srs.g2)

/-- The loop of `KzgScheme::aggregate_commitments`, `kzg/src/scheme.rs` lines 194-197. -/
def aggregateLoop (challenge : F) : List G1 → F → G1 → G1
  | [], _, result => result
  | c :: cs, pow, result => aggregateLoop challenge cs (pow * challenge) (result + pow • c)

/-- `KzgScheme::aggregate_commitments`, `kzg/src/scheme.rs` lines 187-200. -/
def aggregateCommitments (commitments : List G1) (challenge : F) : G1 :=
  aggregateLoop challenge commitments 1 0

/-- The loop of `KzgScheme::batch_verify`, `kzg/src/scheme.rs` lines 229-241; the head of `rng` is the
next `rng.gen::<u128>()` (an infinite supply `ℕ → ℕ` indexed by the iteration number `i`). -/
def batchLoop (P : PairingGroups F G1 G2 GT) (rng : ℕ → ℕ) :
    List ((G1 × F) × Opening F G1) → ℕ → G1 → G1 → G1 × G1
  | [], _, e1, e2 => (e1, e2)
  | ((cm, z), o) :: rest, i, e1, e2 =>
    let cmMinusS := cm - o.eval • P.g1
    let zMulW := z • o.witness
    let r : F := (rng i : F)
    batchLoop P rng rest (i + 1) (e1 + r • (cmMinusS + zMulW)) (e2 + r • o.witness)

/-- `KzgScheme::batch_verify`, `kzg/src/scheme.rs` lines 215-245.  `rng i` is the `i`-th `u128`
sampled; unequal lengths panic. -/
def batchVerify (P : PairingGroups F G1 G2 GT) (srs : Srs G1 G2) (commitments : List G1)
    (points : List F) (openings : List (Opening F G1)) (rng : ℕ → ℕ) : Option Bool :=
  if commitments.length ≠ points.length then none
  else if openings.length ≠ points.length then none
  else
    let es := batchLoop P rng ((commitments.zip points).zip openings) 0 0 0
    some (decide (P.e es.1 srs.g2 = P.e es.2 srs.g2s))

/-- `Add for KzgCommitment`, `kzg/src/scheme.rs` lines 248-255. -/
def commitmentAdd (a b : G1) : G1 := a + b

/-- `Neg for KzgCommitment`, `kzg/src/scheme.rs` lines 283-290. -/
def commitmentNeg (a : G1) : G1 := -a

/-- `Sub for KzgCommitment`, `kzg/src/scheme.rs` lines 257-263. -/
def commitmentSub (a b : G1) : G1 := commitmentAdd a (commitmentNeg b)

/-- `Mul<Fr> for KzgCommitment` and for `&KzgCommitment`, `kzg/src/scheme.rs` lines 265-281. -/
def commitmentMul (a : G1) (k : F) : G1 := k • a

/-- `Add for KzgOpening`, `kzg/src/opening.rs` lines 25-45: adds evaluations and *doubles the left
witness*. -/
def Opening.add (a b : Opening F G1) : Opening F G1 := ⟨a.witness + a.witness, a.eval + b.eval⟩

end Verif.Kzg

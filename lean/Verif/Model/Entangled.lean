import Verif.Model.EC
/-
Model of `entangled_torsion_basis`, `/repo/src/supersingular.rs:242-316`, over a field `K` with the
coefficients of its elements in a field `F`.
-/
namespace Festa

/-- The access of `Fp2` to its coefficients and the exponent `(p + 1) / 4` used by the hand-written
square root: `Fp2::new`, fp2_gen.rs:73-78, and `get_coeff`, fp2_gen.rs:80-82.  The instance for the
code's fields, with the contract proved, is in `Verif/Lemmas/Fr.lean`. -/
class CoeffOps (F : outParam Type*) (K : Type*) [Field F] [Field K] [RootOps K] where
  new : F → F → K
  coeff : K → F × F
  rootExp : Nat
  new_coeff : ∀ t, new (coeff t).1 (coeff t).2 = t
  coeff_new : ∀ a b, coeff (new a b) = (a, b)
  new_add : ∀ a b c d, new a b + new c d = new (a + c) (b + d)
  new_mul : ∀ a b c d, new a b * new c d = new (a * c - b * d) (a * d + b * c)
  new_neg : ∀ a b, -new a b = new (-a) (-b)
  new_one : new 1 0 = 1
  new_zeta : new 0 1 = RootOps.zeta
  pow_rootExp : ∀ z : F, (IsSquare z ∧ z ^ rootExp * z ^ rootExp = z) ∨
    (¬ IsSquare z ∧ z ^ rootExp * z ^ rootExp = -z)
  two_ne' : (2 : F) ≠ 0

section
variable {F K : Type*} [Field F] [DecidableEq F] [Field K] [DecidableEq K] [RootOps K] [CoeffOps F K]
open RootOps CoeffOps

/-- The loop of `precompute_elligator_tables`, supersingular.rs:248-256, with `k` rounds left. -/
def elligatorLoop : Nat → K → List (K × K) → List (K × K) → List (K × K) × List (K × K)
  | 0, _, t1, t2 => (t1, t2)
  | k + 1, r, t1, t2 =>
    let u : K := zeta * 2
    let v := (1 + u * (r * r))⁻¹
    if legendre v = 1 then elligatorLoop k (r + 1) t1 (t2 ++ [(r, v)])
    else elligatorLoop k (r + 1) (t1 ++ [(r, v)]) t2

/-- `precompute_elligator_tables`, supersingular.rs:243-259. -/
def elligatorTables : List (K × K) × List (K × K) := elligatorLoop 30 1 [] []

/-- The search loop, supersingular.rs:283-296: the values of `(r, x, c, d, s)` when it breaks; `none`
when the table is exhausted (the panic of lines 298-300). -/
def entangledSearch (A : K) : List (K × K) → Option (K × K × F × F × F)
  | [] => none
  | (r, v) :: T =>
    let x := -A * v
    let t := x * (x * x + A * x + 1)
    let c := (coeff t).1
    let d := (coeff t).2
    let z := c * c + d * d
    let s := z ^ rootExp K
    if s * s = z then some (r, x, c, d, s) else entangledSearch A T

/-- The hand-written square root of `c + d i`, given a root `s` of the norm, supersingular.rs:302-309
(`half` is division by two; division by zero gives zero). -/
def entangledRoot (c d s : F) : K :=
  let z := (c + s) / 2
  let alpha := z ^ rootExp K
  let beta := d / (alpha + alpha)
  if alpha * alpha = z then new alpha beta else -new beta alpha

/-- The two points before the cofactor is cleared, supersingular.rs:261-315. -/
def entangledPoints (A : K) : Option (Pt K × Pt K) :=
  let u : K := zeta * 2
  let u0 : K := 1 + zeta
  let T? := if legendre A = 1 then some (elligatorTables (K := K)).1
    else if legendre A = -1 then some (elligatorTables (K := K)).2 else none
  match T? with
  | none => none
  | some T =>
    match entangledSearch A T with
    | none => none
    | some (r, x, c, d, s) =>
      let y := entangledRoot c d s
      some (Pt.newXY x y, Pt.newXY (u * (r * r) * x) (u0 * r * y))

/-- `entangled_torsion_basis`, supersingular.rs:242-316. -/
def entangledBasis (E : Crv K) (cofactor : Nat) : Option (Pt K × Pt K) :=
  match entangledPoints E.A with
  | none => none
  | some (S1, S2) =>
    match E.mulBig S1 cofactor, E.mulBig S2 cofactor with
    | some P, some Q => some (P, Q)
    | _, _ => none

end
end Festa

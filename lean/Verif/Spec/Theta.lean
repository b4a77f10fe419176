import Verif.Model.Theta
import Mathlib.Tactic.Ring
import Mathlib.Algebra.BigOperators.Fin
import Mathlib.Tactic.FieldSimp
import Mathlib.Tactic.LinearCombination
/-! Reference notions for theta points: projective classes, the Kummer quartic, valid kernels and
strategies. -/
namespace Festa
variable {K : Type*} [Field K]

/-- Multiplication of all four coordinates. -/
def ThPt.scale (c : K) (P : ThPt K) : ThPt K := ⟨c * P.X, c * P.Y, c * P.Z, c * P.T⟩

/-- Two quadruples are the same projective point. -/
def ThPt.Same (P Q : ThPt K) : Prop := ∃ c : K, c ≠ 0 ∧ Q = P.scale c

/-- All coordinates are nonzero. -/
structure ThPt.NZ (P : ThPt K) : Prop where
  X : P.X ≠ 0
  Y : P.Y ≠ 0
  Z : P.Z ≠ 0
  T : P.T ≠ 0

/-- The left side of the equation of the Kummer surface with theta null point `O` (Hudson's quartic,
cleared of denominators).  With `a, b, c, d` the coordinates of `O` it is
`x⁴ + y⁴ + z⁴ + t⁴ - F (x²t² + y²z²) - G (x²z² + y²t²) - H (x²y² + z²t²) + 2 E xyzt` where
`F = (a⁴ - b⁴ - c⁴ + d⁴) / (a²d² - b²c²)` and so on. -/
def kummer (O P : ThPt K) : K :=
  let a := O.X; let b := O.Y; let c := O.Z; let d := O.T
  let x := P.X; let y := P.Y; let z := P.Z; let t := P.T
  let D1 := a ^ 2 * b ^ 2 - c ^ 2 * d ^ 2
  let D2 := a ^ 2 * c ^ 2 - b ^ 2 * d ^ 2
  let D3 := a ^ 2 * d ^ 2 - b ^ 2 * c ^ 2
  D1 * D2 * D3 * (x ^ 4 + y ^ 4 + z ^ 4 + t ^ 4)
    - (a ^ 4 + b ^ 4 - c ^ 4 - d ^ 4) * D2 * D3 * (x ^ 2 * y ^ 2 + z ^ 2 * t ^ 2)
    - (a ^ 4 - b ^ 4 + c ^ 4 - d ^ 4) * D1 * D3 * (x ^ 2 * z ^ 2 + y ^ 2 * t ^ 2)
    - (a ^ 4 - b ^ 4 - c ^ 4 + d ^ 4) * D1 * D2 * (x ^ 2 * t ^ 2 + y ^ 2 * z ^ 2)
    + 2 * ((a ^ 2 + b ^ 2 + c ^ 2 + d ^ 2) * (a ^ 2 - b ^ 2 + c ^ 2 - d ^ 2)
        * (a ^ 2 + b ^ 2 - c ^ 2 - d ^ 2) * (a ^ 2 - b ^ 2 - c ^ 2 + d ^ 2)) * (a * b * c * d)
        * (x * y * z * t)

/-- The point lies on the Kummer surface of the null point. -/
def OnKummer (O P : ThPt K) : Prop := kummer O P = 0

/-- A null point with which the doubling formula can be used: no coordinate of it or of its dual
vanishes. -/
structure ThNull (O : ThPt K) : Prop where
  nz : O.NZ
  dual : O.sqTheta.NZ

/-- `T1, T2` lie above a kernel of the (2,2)-isogeny from `O` in the position the code expects: the
doubles are `(* : 0 : * : 0)` and `(* : * : 0 : 0)`, and the denominators are nonzero. -/
structure Kernel8 (O T1 T2 : ThPt K) : Prop where
  y1 : ((ThStr.new O).double T1).Y = 0
  t1 : ((ThStr.new O).double T1).T = 0
  z2 : ((ThStr.new O).double T2).Z = 0
  t2 : ((ThStr.new O).double T2).T = 0
  nx1 : T1.sqTheta.X ≠ 0
  nx2 : T2.sqTheta.X ≠ 0
  ny2 : T2.sqTheta.Y ≠ 0

/-- The codomain null point of `two_isogeny` with the final Hadamard transform. -/
def isoNull (O T1 T2 : ThPt K) : ThPt K := (twoIsoCoeffs (ThStr.new O) T1 T2).1.had

/-- The image of a point under the same. -/
def isoImage (O T1 T2 P : ThPt K) : ThPt K := twoIsoImage false true (twoIsoCoeffs (ThStr.new O) T1 T2).2 P

/-- The chain with `r` steps to go from null point `O` with kernel points `K1, K2` is regular: up to
the last two steps the null points are usable for doubling, and the kernel points doubled as often as
there are later steps lie above a kernel. -/
def ChainOK : Nat → ThPt K → ThPt K → ThPt K → Prop
  | r + 3, O, K1, K2 =>
    let T1 := (ThStr.new O).doubleIter K1 (r + 2)
    let T2 := (ThStr.new O).doubleIter K2 (r + 2)
    ThNull O ∧ Kernel8 O T1 T2 ∧
      ChainOK (r + 2) (isoNull O T1 T2) (isoImage O T1 T2 K1) (isoImage O T1 T2 K2)
  | 2, O, _, _ => ThNull O
  | _, _, _, _ => True

/-- The character `(-1)^{⟨x, y⟩}` of the Klein four group, on indices read as pairs of bits. -/
def parity (x y : Fin 4) : Nat := x.val % 2 * (y.val % 2) + x.val / 2 * (y.val / 2)

/-- The square of the level-(2,2) theta constant with characteristic `(chi, i)`. -/
def evenConst (O : ThPt K) (chi i : Fin 4) : K :=
  ∑ t : Fin 4, (-1) ^ parity chi t * (O.get t * O.get (i ^^^ t))

/-- The quadruple built from two points of dimension one. -/
def ThPt.tensor (u v : K × K) : ThPt K := ⟨u.1 * v.1, u.1 * v.2, u.2 * v.1, u.2 * v.2⟩

/-- Strategies for `n` leaves: a single leaf needs no entry; otherwise the first entry `s` is a number
of doublings, after which the remaining `n - s` leaves below are done first (entries `L`), then the
`s` leaves left above (entries `R`). -/
inductive IsStrategy : Nat → List Nat → Prop
  | leaf : IsStrategy 1 []
  | node {n s : Nat} {L R : List Nat} : 0 < s → s < n → IsStrategy (n - s) L → IsStrategy s R →
      IsStrategy n (s :: (L ++ R))

end Festa

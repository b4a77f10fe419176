import Verif.Model.EC
import Mathlib.Algebra.Field.Basic
/-
Model of the theta structures and (2,2)-isogeny chains generated by the macro
`define_theta_structure!` (`/repo/src/theta.rs`), over an arbitrary field `K`.

As in `Model/EC.lean` field operations are those of `K`, control words are `Bool`, and a method
writing through `&mut` returns the new value.  `Fq::batch_invert` inverts every entry and leaves
zeros (C19), so it is written entry by entry with `⁻¹`, where `0⁻¹ = 0`.  `Vec`s are lists with
pushes at the end; a failed index, a failed assertion and the underflow of `n - 1` at `n = 0` are
`none`.  A position in the strategy table is the list of the entries not yet used.
-/
namespace Festa

/-- `ThetaPoint`, theta.rs:62-67, with `new`, `from_coords`, `coords` and `list`
(theta.rs:80-107). -/
@[ext] structure ThPt (K : Type*) where
  X : K
  Y : K
  Z : K
  T : K
deriving DecidableEq

variable {K : Type*}

/-- Indexing into `list()`, theta.rs:105-107. -/
def ThPt.get (P : ThPt K) : Fin 4 → K
  | 0 => P.X
  | 1 => P.Y
  | 2 => P.Z
  | 3 => P.T

/-- An array of four elements given entry by entry. -/
def ThPt.ofFn (f : Fin 4 → K) : ThPt K := ⟨f 0, f 1, f 2, f 3⟩

section
variable [Field K]

/-- `to_hadamard`, theta.rs:30-41; `ThetaPoint::hadamard`, theta.rs:110-112. -/
def ThPt.had (P : ThPt K) : ThPt K :=
  let t1 := P.X + P.Y
  let t2 := P.X - P.Y
  let t3 := P.Z + P.T
  let t4 := P.Z - P.T
  ⟨t1 + t3, t2 + t4, t1 - t3, t2 - t4⟩

/-- `to_squared_theta`, theta.rs:47-54; `ThetaPoint::squared_theta`, theta.rs:116-118. -/
def ThPt.sqTheta (P : ThPt K) : ThPt K :=
  ThPt.had ⟨P.X * P.X, P.Y * P.Y, P.Z * P.Z, P.T * P.T⟩

/-- `ThetaStructure`, theta.rs:134-137; the six precomputed elements by name. -/
structure ThStr (K : Type*) where
  null : ThPt K
  y0 : K
  z0 : K
  t0 : K
  Y0 : K
  Z0 : K
  T0 : K

/-- `precomputation`, theta.rs:171-190; `new_from_coords` and `new_from_point`,
theta.rs:143-158. -/
def ThStr.new (O : ThPt K) : ThStr K :=
  let S := O.sqTheta
  { null := O
    y0 := O.X * O.Y⁻¹
    z0 := O.X * O.Z⁻¹
    t0 := O.X * O.T⁻¹
    Y0 := S.X * S.Y⁻¹
    Z0 := S.X * S.Z⁻¹
    T0 := S.X * S.T⁻¹ }

/-- `set_double_self`, theta.rs:195-214; `double_point`, theta.rs:218-222. -/
def ThStr.double (Th : ThStr K) (P : ThPt K) : ThPt K :=
  let S := P.sqTheta
  let H := ThPt.had ⟨S.X * S.X, Th.Y0 * (S.Y * S.Y), Th.Z0 * (S.Z * S.Z), Th.T0 * (S.T * S.T)⟩
  ⟨H.X, H.Y * Th.y0, H.Z * Th.z0, H.T * Th.t0⟩

/-- `double_iter`, theta.rs:226-232. -/
def ThStr.doubleIter (Th : ThStr K) (P : ThPt K) (n : Nat) : ThPt K := Th.double^[n] P

/-! ### Gluing -/

/-- `get_base_submatrix`, theta.rs:249-272. -/
def baseSubmatrix (E : Crv K) (T : Pt K) : K × K × K × K :=
  let x := T.X
  let z := T.Z
  let uw := E.xDbl x z
  let wx := uw.2 * x
  let wz := uw.2 * z
  let ux := uw.1 * x
  let uz := uw.1 * z
  let det := wx - uz
  let d := uz * det⁻¹
  let a := -d
  let b := -(wz * det⁻¹)
  let c := ux * det⁻¹ - x * z⁻¹
  (a, b, c, d)

/-- A `[Fq; 16]` holding the rows of a 4x4 matrix. -/
structure Mat4 (K : Type*) where
  r0 : ThPt K
  r1 : ThPt K
  r2 : ThPt K
  r3 : ThPt K

/-- `get_base_matrix`, theta.rs:280-354. -/
def baseMatrix (E : EProd K) (P Q : CPt K) : Mat4 K :=
  let g1 := baseSubmatrix E.E1 P.P1
  let g2 := baseSubmatrix E.E2 P.P2
  let h1 := baseSubmatrix E.E1 Q.P1
  let h2 := baseSubmatrix E.E2 Q.P2
  -- g1 = (g00_1, g01_1, g10_1, g11_1), and so on
  let g00_1 := g1.1
  let g01_1 := g1.2.1
  let g10_1 := g1.2.2.1
  let g11_1 := g1.2.2.2
  let g00_2 := g2.1
  let g01_2 := g2.2.1
  let g10_2 := g2.2.2.1
  let g11_2 := g2.2.2.2
  let h00_1 := h1.1
  let h10_1 := h1.2.2.1
  let h00_2 := h2.1
  let h01_2 := h2.2.1
  let h10_2 := h2.2.2.1
  let h11_2 := h2.2.2.2
  let gh00_1 := g00_1 * h00_1 + g01_1 * h10_1
  let gh10_1 := g10_1 * h00_1 + g11_1 * h10_1
  let gh00_2 := g00_2 * h00_2 + g01_2 * h10_2
  let gh10_2 := g10_2 * h00_2 + g11_2 * h10_2
  let a := 1 + g00_1 * g00_2 + h00_1 * h00_2 + gh00_1 * gh00_2
  let b := 0 + g00_1 * g10_2 + h00_1 * h10_2 + gh00_1 * gh10_2
  let c := 0 + g10_1 * g00_2 + h10_1 * h00_2 + gh10_1 * gh00_2
  let d := 0 + g10_1 * g10_2 + h10_1 * h10_2 + gh10_1 * gh10_2
  let a1 := h00_2 * a + h01_2 * b
  let b1 := h10_2 * a + h11_2 * b
  let c1 := h00_2 * c + h01_2 * d
  let d1 := h10_2 * c + h11_2 * d
  let a2 := g00_1 * a + g01_1 * c
  let b2 := g00_1 * b + g01_1 * d
  let c2 := g10_1 * a + g11_1 * c
  let d2 := g10_1 * b + g11_1 * d
  let a3 := g00_1 * a1 + g01_1 * c1
  let b3 := g00_1 * b1 + g01_1 * d1
  let c3 := g10_1 * a1 + g11_1 * c1
  let d3 := g10_1 * b1 + g11_1 * d1
  ⟨⟨a, b, c, d⟩, ⟨a1, b1, c1, d1⟩, ⟨a2, b2, c2, d2⟩, ⟨a3, b3, c3, d3⟩⟩

/-- One row of `apply_base_change`. -/
def ThPt.dot (R P : ThPt K) : K := R.X * P.X + R.Y * P.Y + R.Z * P.Z + R.T * P.T

/-- `apply_base_change`, theta.rs:360-366. -/
def ThPt.baseChange (P : ThPt K) (M : Mat4 K) : ThPt K :=
  ⟨M.r0.dot P, M.r1.dot P, M.r2.dot P, M.r3.dot P⟩

end

section
variable [Field K] [DecidableEq K]

/-- The replacement of `(0, 0)` by `(1, 0)`, theta.rs:376-384. -/
def fixXZ (X Z : K) : K × K :=
  let chk := decide (X = 0) && decide (Z = 0)
  (cond' X 1 chk, cond' Z 0 chk)

/-- `base_change_couple_point`, theta.rs:371-396. -/
def baseChangeCouple (C : CPt K) (M : Mat4 K) : ThPt K :=
  let p1 := fixXZ C.P1.X C.P1.Z
  let p2 := fixXZ C.P2.X C.P2.Z
  ThPt.baseChange ⟨p1.1 * p2.1, p1.1 * p2.2, p1.2 * p2.1, p1.2 * p2.2⟩ M

/-- `zero_index`, theta.rs:402-412: the bitwise or of the indices of the zero entries. -/
def zeroIndex (D : ThPt K) : Fin 4 :=
  (if D.X = 0 then 0 else 0) ||| (if D.Y = 0 then 1 else 0) ||| (if D.Z = 0 then 2 else 0) |||
    (if D.T = 0 then 3 else 0)

/-- `gluing_codomain`, theta.rs:423-462: the codomain, the two inverses and the zero index.
`ABCD[i ^ z] = v_i` is written `ABCD[i] = v_{i ^ z}`. -/
def gluingCodomain (T1 T2 : ThPt K) : ThStr K × K × K × Fin 4 :=
  let S1 := T1.sqTheta
  let S2 := T2.sqTheta
  let z := zeroIndex S1
  let t1 := S2.get (1 ^^^ z)
  let t2 := S1.get (2 ^^^ z)
  let t3 := S2.get (3 ^^^ z)
  let t4 := S1.get (3 ^^^ z)
  let v : ThPt K := ⟨0, t1 * t3⁻¹, t2 * t4⁻¹, 1⟩
  let ABCD := ThPt.ofFn fun i => v.get (i ^^^ z)
  (ThStr.new ABCD.had, t3 * t1⁻¹, t4 * t2⁻¹, z)

/-- `gluing_image`, theta.rs:472-528. -/
def gluingImage (T Tsh : ThPt K) (aInv bInv : K) (z : Fin 4) : ThPt K :=
  let S := T.sqTheta
  let S' := Tsh.sqTheta
  let y := S.get (1 ^^^ z) * aInv
  let zz := S.get (2 ^^^ z) * bInv
  let t := S.get (3 ^^^ z)
  let zb := S'.get (3 ^^^ z)
  let tb := S'.get (2 ^^^ z) * bInv
  let lam := zz * zb⁻¹
  let lamT := t * tb⁻¹
  let lam := cond' lam lamT (decide (zz = 0))
  let xb := S'.get (1 ^^^ z) * aInv
  let x := xb * lam
  let v : ThPt K := ⟨x, y, zz, t⟩
  (ThPt.ofFn fun i => v.get (i ^^^ z)).had

/-- `gluing_isogeny`, theta.rs:532-591. -/
def gluingIsogeny (E : EProd K) (P8 Q8 : CPt K) (pts : List (CPt K)) : ThStr K × List (ThPt K) :=
  let P4 := E.double P8
  let Q4 := E.double Q8
  let M := baseMatrix E P4 Q4
  let g := gluingCodomain (baseChangeCouple P8 M) (baseChangeCouple Q8 M)
  (g.1, pts.map fun P =>
    gluingImage (baseChangeCouple P M) (baseChangeCouple (E.add P P4) M) g.2.1 g.2.2.1 g.2.2.2)

/-! ### (2,2)-isogenies between theta structures -/

end

section
variable [Field K]

/-- The codomain coordinates `(1 : B : C : D)` and the factors `B_inv, C_inv, D_inv` of
`two_isogeny`, theta.rs:616-634. -/
def twoIsoCoeffs (Th : ThStr K) (T1 T2 : ThPt K) : ThPt K × K × K × K :=
  let S1 := T1.sqTheta
  let S2 := T2.sqTheta
  let B := S1.Y * S1.X⁻¹
  let C := S2.Z * S2.X⁻¹
  let D := S2.T * S2.Y⁻¹ * B
  (⟨1, B, C, D⟩, Th.Y0 * B, Th.Z0 * C, Th.T0 * D)

/-- The image loop of `two_isogeny`, theta.rs:644-666. -/
def twoIsoImage (h0 h1 : Bool) (k : K × K × K) (P : ThPt K) : ThPt K :=
  let P := if h0 then P.had else P
  let S := P.sqTheta
  let V : ThPt K := ⟨S.X, S.Y * k.1, S.Z * k.2.1, S.T * k.2.2⟩
  if h1 then V.had else V

/-- `two_isogeny`, theta.rs:607-669. -/
def twoIsogeny (Th : ThStr K) (T1 T2 : ThPt K) (pts : List (ThPt K)) (h0 h1 : Bool) :
    ThStr K × List (ThPt K) :=
  let c := twoIsoCoeffs Th T1 T2
  (ThStr.new (if h1 then c.1.had else c.1), pts.map (twoIsoImage h0 h1 c.2))

/-- `two_isogeny_to_product`, theta.rs:675-726. -/
def twoIsogenyToProduct (T1 T2 : ThPt K) (pts : List (ThPt K)) : ThStr K × List (ThPt K) :=
  let S1 := T1.had.sqTheta
  let S2 := T2.had.sqTheta
  let B := S1.Y * S1.X⁻¹
  let C := S2.Z * S2.X⁻¹
  let D := S2.T * S2.Y⁻¹ * B
  let Bi := S1.X * S1.Y⁻¹
  let Ci := S2.X * S2.Z⁻¹
  let Di := S2.Y * S2.T⁻¹ * Bi
  (ThStr.new ⟨1, B, C, D⟩, pts.map fun P =>
    let S := P.had.sqTheta
    ⟨S.X, S.Y * Bi, S.Z * Ci, S.T * Di⟩)

/-! ### Splitting -/

/-- `chi_eval`, theta.rs:760-780; `true` is the mask of ones (negate). -/
def chiEval (x y : Fin 4) : Bool :=
  (x = 1 ∧ y = 1) ∨ (x = 1 ∧ y = 3) ∨ (x = 2 ∧ y = 2) ∨ (x = 2 ∧ y = 3) ∨ (x = 3 ∧ y = 1) ∨
    (x = 3 ∧ y = 2)

/-- `level_22_constants_sqr`, theta.rs:785-795. -/
def level22 (O : ThPt K) (chi i : Fin 4) : K :=
  [(0 : Fin 4), 1, 2, 3].foldl (fun U t =>
    let u := O.get t * O.get (i ^^^ t)
    U + cond' u (-u) (chiEval chi t)) 0

/-- `EVEN_INDICIES`, theta.rs:802-813. -/
def evenIndices : List (Fin 4 × Fin 4) :=
  [(0, 0), (0, 1), (0, 2), (0, 3), (1, 0), (1, 2), (2, 0), (2, 1), (3, 0), (3, 3)]

end

section
variable [Field K] [DecidableEq K]

/-- `identify_even_index`, theta.rs:801-829: bitwise or of the indices of the vanishing constants. -/
def identifyEvenIndex (O : ThPt K) : Fin 4 × Fin 4 :=
  evenIndices.foldl (fun r ci =>
    if level22 O ci.1 ci.2 = 0 then (r.1 ||| ci.1, r.2 ||| ci.2) else r) (0, 0)

end

section
variable [Field K] [RootOps K]
open RootOps

/-- `MAPS` and the selection in `compute_splitting_matrix`, theta.rs:836-920; `none` is the
`panic!`. -/
def splitMap : Fin 4 × Fin 4 → Option (Mat4 K)
  | (0, 2) => some ⟨⟨1, 0, 0, 0⟩, ⟨0, 1, 0, 0⟩, ⟨0, 0, 0, 1⟩, ⟨0, 0, -1, 0⟩⟩
  | (3, 3) => some ⟨⟨1, 0, 0, 0⟩, ⟨0, 1, 0, 0⟩, ⟨0, 0, 1, 0⟩, ⟨0, 0, 0, 1⟩⟩
  | (0, 3) => some ⟨⟨1, 0, 0, 0⟩, ⟨0, 1, 0, 0⟩, ⟨0, 0, 1, 0⟩, ⟨0, 0, 0, -1⟩⟩
  | (2, 1) => some ⟨⟨1, 1, 1, 1⟩, ⟨1, -1, 1, -1⟩, ⟨1, -1, -1, 1⟩, ⟨1, 1, -1, -1⟩⟩
  | (0, 1) => some ⟨⟨1, 0, 0, 0⟩, ⟨0, 0, 0, 1⟩, ⟨0, 0, 1, 0⟩, ⟨0, -1, 0, 0⟩⟩
  | (1, 2) => some ⟨⟨1, 0, 0, 0⟩, ⟨0, 1, 0, 0⟩, ⟨0, 0, 0, 1⟩, ⟨0, 0, 1, 0⟩⟩
  | (2, 0) => some ⟨⟨1, 1, 1, 1⟩, ⟨1, -1, 1, -1⟩, ⟨1, -1, -1, 1⟩, ⟨-1, -1, 1, 1⟩⟩
  | (3, 0) => some ⟨⟨1, 1, 1, 1⟩, ⟨1, -1, 1, -1⟩, ⟨1, 1, -1, -1⟩, ⟨-1, 1, 1, -1⟩⟩
  | (1, 0) => some ⟨⟨1, 1, 1, 1⟩, ⟨1, -1, -1, 1⟩, ⟨1, 1, -1, -1⟩, ⟨-1, 1, -1, 1⟩⟩
  | (0, 0) => some ⟨⟨1, zeta, 1, zeta⟩, ⟨1, -zeta, 1, zeta⟩, ⟨1, zeta, 1, -zeta⟩, ⟨1, zeta, 1, zeta⟩⟩
  | _ => none

end

section
variable [Field K] [DecidableEq K] [RootOps K]

/-- `compute_splitting_matrix`, theta.rs:835-923. -/
def splittingMatrix (O : ThPt K) : Option (Mat4 K) := splitMap (identifyEvenIndex O)

/-- `splitting_isomorphism`, theta.rs:928-945. -/
def splittingIso (Th : ThStr K) (pts : List (ThPt K)) : Option (ThStr K × List (ThPt K)) :=
  (splittingMatrix Th.null).map fun M =>
    (ThStr.new (Th.null.baseChange M), pts.map fun P => P.baseChange M)

end

section
variable [Field K]

/-- `split_theta_point`, theta.rs:952-959. -/
def splitTheta (P : ThPt K) : (K × K) × (K × K) := ((P.X, P.Y), (P.Y, P.T))

/-- `theta_point_to_montgomery_point`, theta.rs:986-997. -/
def thetaToMontPoint (O P : K × K) : PtX K :=
  ⟨O.1 * P.2 + O.2 * P.1, O.1 * P.2 - O.2 * P.1⟩

/-- The coefficient computed in `null_point_to_montgomery_curve`, theta.rs:968-976. -/
def nullToMontCoeff (O : K × K) : K :=
  let aa := O.1 * O.1
  let bb := O.2 * O.2
  let T1 := aa + bb
  let T2 := aa - bb;
  (-(T1 * T1 + T2 * T2)) / (T1 * T2)

end

section
variable [Field K] [DecidableEq K]

/-- `null_point_to_montgomery_curve`, theta.rs:967-979; `none` is the assertion in `Curve::new`. -/
def nullToMont (O : K × K) : Option (Crv K) := Crv.new (nullToMontCoeff O)

end

section
variable [Field K] [DecidableEq K] [RootOps K]

/-- `split_to_product`, theta.rs:1002-1042. -/
def splitToProduct (Th : ThStr K) (pts : List (ThPt K)) (num : Nat) :
    Option (EProd K × List (CPt K)) := do
  let O := splitTheta Th.null
  let E3 ← nullToMont O.1
  let E4 ← nullToMont O.2
  some (⟨E3, E4⟩, (pts.take num).map fun P =>
    let S := splitTheta P
    ⟨(E3.completePointX (thetaToMontPoint O.1 S.1)).1,
     (E4.completePointX (thetaToMontPoint O.2 S.2)).1⟩)

end

section
variable [Field K]

/-! ### The chain -/

/-- The step of the chain at position `k`, theta.rs:1119-1125 and 1248-1254. -/
def chainStep (n k : Nat) (Th : ThStr K) (T1 T2 : ThPt K) (pts : List (ThPt K)) :
    ThStr K × List (ThPt K) :=
  if k + 2 = n then twoIsogeny Th T1 T2 pts false false
  else if k + 1 = n then twoIsogenyToProduct T1 T2 pts
  else twoIsogeny Th T1 T2 pts false true

/-- The loop `for k in 1..n` of `product_isogeny_no_strategy`, theta.rs:1111-1126, with `r` rounds
to go (`k = n - r`); `num` is the number of image points. -/
def naiveLoop (n num : Nat) : Nat → ThStr K → List (ThPt K) → Option (ThStr K × List (ThPt K))
  | 0, Th, pts => some (Th, pts)
  | r + 1, Th, pts => do
    let k := n - (r + 1)
    let K1 ← pts[num]?
    let K2 ← pts[num + 1]?
    let T1 := Th.doubleIter K1 (n - k - 1)
    let T2 := Th.doubleIter K2 (n - k - 1)
    let (Th, pts) := chainStep n k Th T1 T2 pts
    naiveLoop n num r Th pts

/-- The `while prev != target` loops of `product_isogeny`, theta.rs:1180-1195 and 1223-1238, over the
strategy entries not yet used; returns the entries left, the levels, the doubled kernel points and
the list of points. -/
def stratLoop {P : Type*} (dbl : P → Nat → P) (target : Nat) :
    List Nat → Nat → List Nat → P → P → List P → Option (List Nat × List Nat × P × P × List P)
  | [], prev, level, k1, k2, pts => if prev = target then some ([], level, k1, k2, pts) else none
  | s :: strat, prev, level, k1, k2, pts =>
    if prev = target then some (s :: strat, level, k1, k2, pts)
    else
      let k1 := dbl k1 s
      let k2 := dbl k2 s
      stratLoop dbl target strat (prev + s) (level ++ [s]) k1 k2 (pts ++ [k1, k2])

/-- The loop `for k in 1..n` of `product_isogeny`, theta.rs:1216-1255, with `r` rounds to go
(`k = n - r`). -/
def strategyLoop (n : Nat) : Nat → List Nat → List Nat → ThStr K → List (ThPt K) →
    Option (ThStr K × List (ThPt K))
  | 0, _, _, Th, pts => some (Th, pts)
  | r + 1, strat, level, Th, pts => do
    let k := n - (r + 1)
    if pts.length < 2 then none
    else
      let T1 ← pts[pts.length - 2]?
      let T2 ← pts[pts.length - 1]?
      let (strat, level, T1, T2, pts) ← stratLoop Th.doubleIter (n - 1 - k) strat level.sum level T1 T2 pts
      let pts := pts.dropLast.dropLast
      let level := level.dropLast
      let (Th, pts) := chainStep n k Th T1 T2 pts
      strategyLoop n r strat level Th pts

end

section
variable [Field K] [DecidableEq K] [RootOps K]

/-- `product_isogeny_no_strategy`, theta.rs:1079-1137. -/
def productIsogenyNaive (E : EProd K) (P Q : CPt K) (images : List (CPt K)) (n : Nat) :
    Option (EProd K × List (CPt K)) :=
  if n = 0 then none
  else do
    let num := images.length
    let P8 := E.doubleIter P (n - 1)
    let Q8 := E.doubleIter Q (n - 1)
    let (Th, pts) := gluingIsogeny E P8 Q8 (images ++ [P] ++ [Q])
    let (Th, pts) ← naiveLoop n num (n - 1) Th pts
    let (Th, pts) ← splittingIso Th pts
    splitToProduct Th pts num

/-- `product_isogeny`, theta.rs:1142-1266. -/
def productIsogeny (E : EProd K) (P Q : CPt K) (images : List (CPt K)) (n : Nat)
    (strategy : List Nat) : Option (EProd K × List (CPt K)) :=
  if n = 0 then none
  else do
    let num := images.length
    let level := [0]
    let (strat, level, ker1, ker2, cpts) ←
      stratLoop E.doubleIter (n - 1) strategy level.sum level P Q (images ++ [P] ++ [Q])
    let cpts := cpts.dropLast.dropLast
    let level := level.dropLast
    let (Th, pts) := gluingIsogeny E ker1 ker2 cpts
    let (Th, pts) ← strategyLoop n (n - 1) strat level Th pts
    let (Th, pts) ← splittingIso Th pts
    splitToProduct Th pts num

end
end Festa

import Verif.Model.Fp
import Mathlib.Algebra.Field.Defs
import Mathlib.Algebra.Group.Even
/-
Model of the elliptic curve code generated by the macro `define_ec_core!`
(`/repo/src/eccore.rs`), over an arbitrary field `K`.

The field operations `+ - * /`, `square`, `half`, `mul2`, `mul3`, `iszero` and `equals` of the code
are those of `K`; `Verif/Lemmas/Fq.lean` provides the code's own limb arithmetic as such a field
(type `Fq`).  Control words (`u32`, all zeros or all ones) are `Bool`; that the masked moves of the
field code act as such choices is C08 and C18.  A method writing its result through a `&mut`
argument returns it.
-/
namespace Festa

/-- `Point`, eccore.rs:30-34. -/
structure Pt (K : Type*) where
  X : K
  Y : K
  Z : K
deriving DecidableEq

/-- `PointX`, eccore.rs:156-159. -/
structure PtX (K : Type*) where
  X : K
  Z : K
deriving DecidableEq

/-- `Curve`, eccore.rs:199-202. -/
structure Crv (K : Type*) where
  A : K
  A24 : K
deriving DecidableEq

/-- The root routines of `Fp2` used by the curve code, with their contract: `sqrt` (value and
status) and `legendre`, fp2_gen.rs:342-428.  The instance for the code's field, with the contract
proved, is in `Verif/Lemmas/FqRoot.lean`. -/
class RootOps (K : Type*) [Field K] where
  sqrt : K → K × Bool
  legendre : K → Int
  zeta : K
  sqrt_sq : ∀ a, IsSquare a → (sqrt a).2 = true ∧ (sqrt a).1 * (sqrt a).1 = a
  sqrt_nonsq : ∀ a, ¬ IsSquare a → sqrt a = (0, false)
  legendre_zero : ∀ a, legendre a = 0 ↔ a = 0
  legendre_one : ∀ a, legendre a = 1 ↔ a ≠ 0 ∧ IsSquare a
  legendre_neg : ∀ a, legendre a = -1 ↔ ¬ IsSquare a
  zeta_sq : zeta * zeta = -1
  two_ne : (2 : K) ≠ 0

section
variable {K : Type*} [Field K] [DecidableEq K]

/-- `set_cond` on field elements, as a choice. -/
def cond' {α : Type*} (a b : α) (c : Bool) : α := if c then b else a

/-! ### Points -/

/-- `Point::INFINITY`, eccore.rs:38-42. -/
def Pt.inf : Pt K := ⟨0, 1, 0⟩
/-- `Point::new_xy`, eccore.rs:45-51; also `point_xy_nocheck`, eccore.rs:294-300. -/
def Pt.newXY (x y : K) : Pt K := ⟨x, y, 1⟩
/-- `isinfinity`, eccore.rs:54-56. -/
def Pt.isInf (P : Pt K) : Bool := decide (P.Z = 0)
/-- `to_xy_vartime`, eccore.rs:60-66. -/
def Pt.toXYVartime (P : Pt K) : Option (K × K) :=
  if P.Z = 0 then none else some (P.X * P.Z⁻¹, P.Y * P.Z⁻¹)
/-- `to_xy`, eccore.rs:70-73 (the inverse of zero is zero). -/
def Pt.toXY (P : Pt K) : K × K := (P.X * P.Z⁻¹, P.Y * P.Z⁻¹)
/-- `set_neg`, eccore.rs:95-97 (and `Neg`, 131-151). -/
def Pt.neg (P : Pt K) : Pt K := ⟨P.X, -P.Y, P.Z⟩
/-- `set_condneg`, eccore.rs:102-104. -/
def Pt.condNeg (P : Pt K) (c : Bool) : Pt K := ⟨P.X, cond' P.Y (-P.Y) c, P.Z⟩
/-- `set_cond`, eccore.rs:88-92. -/
def Pt.cond (P Q : Pt K) (c : Bool) : Pt K := ⟨cond' P.X Q.X c, cond' P.Y Q.Y c, cond' P.Z Q.Z c⟩
/-- `equals`, eccore.rs:108-118. -/
def Pt.equals (P Q : Pt K) : Bool :=
  let lz := decide (P.Z = 0)
  let rz := decide (Q.Z = 0)
  let vx := decide (P.X * Q.Z = Q.X * P.Z)
  let vy := decide (P.Y * Q.Z = Q.Y * P.Z)
  (lz && rz) || (!lz && !rz && vx && vy)

/-- `PointX::from_point`, eccore.rs:170-172. -/
def PtX.ofPt (P : Pt K) : PtX K := ⟨P.X, P.Z⟩
/-- `PointX::equals`, eccore.rs:188-193. -/
def PtX.equals (P Q : PtX K) : Bool :=
  let inf1 := decide (P.Z = 0)
  let inf2 := decide (Q.Z = 0)
  let e := decide (P.X * Q.Z = Q.X * P.Z)
  (inf1 && inf2) || (!inf1 && !inf2 && e)

/-! ### Curves -/

/-- `Curve::new`, eccore.rs:206-216; `none` is the failed assertion. -/
def Crv.new (A : K) : Option (Crv K) :=
  if A = 2 then none
  else if A + 2 = 0 then none
  else some ⟨A, (A + 2) / 2 / 2⟩

/-- `j_invariant`, eccore.rs:219-222. -/
def Crv.jInvariant (E : Crv K) : K :=
  (2 : K) ^ 8 * (E.A * E.A - 3) ^ 3 / (E.A * E.A - 4)

/-- `set_xy`, eccore.rs:253-261: the new point and the status. -/
def Crv.setXY (E : Crv K) (x y : K) : Pt K × Bool :=
  let t := (x + E.A) * (x * x) + x
  let r := decide (y * y = t)
  (⟨x, y, cond' 1 0 (!r)⟩, r)

/-- `set_xyz`, eccore.rs:268-277. -/
def Crv.setXYZ (E : Crv K) (x y z : K) : Pt K × Bool :=
  let t1 := ((x + z) * (x + z) + (E.A - 2) * (x * z)) * x
  let t2 := (y * y) * z
  let r := decide (t1 = t2) || decide (z = 0)
  (⟨x, y, cond' z 0 (!r)⟩, r)

/-- `on_curve`, eccore.rs:280-289. -/
def Crv.onCurve (E : Crv K) (P : Pt K) : Bool :=
  if P.Z = 0 then true
  else
    let x := P.toXY.1
    let y := P.toXY.2
    decide (y * y = x * (x * x + E.A * x + 1))

/-- `point_xy_vartime`, eccore.rs:318-325. -/
def Crv.pointXY (E : Crv K) (x y : K) : Option (Pt K) :=
  let r := E.setXY x y
  if r.2 then some r.1 else none

/-- `point_xyz_vartime`, eccore.rs:331-338. -/
def Crv.pointXYZ (E : Crv K) (x y z : K) : Option (Pt K) :=
  let r := E.setXYZ x y z
  if r.2 then some r.1 else none

/-- `add_into`, eccore.rs:341-416 (`add` 426-430, `addto` 419-423). -/
def Crv.add (E : Crv K) (P1 P2 : Pt K) : Pt K :=
  let x1z2 := P1.X * P2.Z
  let x2z1 := P2.X * P1.Z
  let T := x2z1 - x1z2
  let y1z2 := P1.Y * P2.Z
  let y2z1 := P2.Y * P1.Z
  let L := y2z1 - y1z2
  let dbl := decide (T = 0) && decide (L = 0)
  let Td := 2 * (P1.Y * P1.Z)
  let x1x1 := P1.X * P1.X
  let z1z1 := P1.Z * P1.Z
  let dx1z1 := (P1.X + P1.Z) * (P1.X + P1.Z) - x1x1 - z1z1
  let Ld := 3 * x1x1 + z1z1 + E.A * dx1z1
  let T := cond' T Td dbl
  let L := cond' L Ld dbl
  let T2 := T * T
  let T3 := T * T2
  let z1z2 := P1.Z * P2.Z
  let U := L * L * z1z2 - (x1z2 + x2z1 + E.A * z1z2) * T2
  let P3 : Pt K := ⟨U * T, L * (x1z2 * T2 - U) - y1z2 * T3, z1z2 * T3⟩
  let inf1 := decide (P1.Z = 0)
  let inf2 := decide (P2.Z = 0)
  (P3.cond P2 inf1).cond P1 inf2

/-- `sub`, eccore.rs:447-451 (`sub_into` 433-437, `subfrom` 440-444). -/
def Crv.sub (E : Crv K) (P1 P2 : Pt K) : Pt K := E.add P1 P2.neg

/-- `double_from_coords`, eccore.rs:454-477, and `double`, `double_into`, `double_self`
(480-502). -/
def Crv.double (E : Crv K) (P : Pt K) : Pt K :=
  let xx := P.X * P.X
  let zz := P.Z * P.Z
  let dxz := (P.X + P.Z) * (P.X + P.Z) - xx - zz
  let dyz := 2 * (P.Y * P.Z)
  let v := xx - zz
  let m := xx + zz
  ⟨dyz * (v * v), v * (m * (m + E.A * dxz) + dxz * dxz), dyz * (dyz * dyz)⟩

/-- `double_iter`, eccore.rs:505-511. -/
def Crv.doubleIter (E : Crv K) (P : Pt K) (n : Nat) : Pt K := E.double^[n] P

/-- `x_dbl_coords`, eccore.rs:516-528; the local `xdbl` of `mul_into`, eccore.rs:536-545, is the
same text. -/
def Crv.xDbl (E : Crv K) (X Z : K) : K × K :=
  let V1 := (X + Z) * (X + Z)
  let V2 := (X - Z) * (X - Z)
  let Xn := V1 * V2
  let V1 := V1 - V2
  (Xn, (V1 * E.A24 + V2) * V1)

/-- The local `xadd` of `mul_into`, eccore.rs:548-561. -/
def xAdd (Xp Zp X0 Z0 X1 Z1 : K) : K × K :=
  let V1 := (X0 - Z0) * (X1 + Z1)
  let V2 := (X0 + Z0) * (X1 - Z1)
  (Zp * ((V1 + V2) * (V1 + V2)), Xp * ((V1 - V2) * (V1 - V2)))

/-- The local `xadd_aff` of `mul_into`, eccore.rs:564-569. -/
def xAddAff (Xp X0 Z0 X1 Z1 : K) : K × K :=
  let V1 := (X0 - Z0) * (X1 + Z1)
  let V2 := (X0 + Z0) * (X1 - Z1)
  ((V1 + V2) * (V1 + V2), Xp * ((V1 - V2) * (V1 - V2)))

/-- Ladder state, eccore.rs:574-578. -/
structure Lad (K : Type*) where
  X0 : K
  Z0 : K
  X1 : K
  Z1 : K
  cc : Bool

/-- The two `condswap` calls, eccore.rs:587-588, 597-598, 604-605. -/
def Lad.swap (s : Lad K) (c : Bool) : Lad K :=
  ⟨cond' s.X0 s.X1 c, cond' s.Z0 s.Z1 c, cond' s.X1 s.X0 c, cond' s.Z1 s.Z0 c, s.cc⟩

/-- One ladder iteration, eccore.rs:585-592 (`add` is `xadd_aff`) and 595-601 (`add` is `xadd`). -/
def Crv.ladStep (E : Crv K) (add : K → K → K → K → K × K) (s : Lad K) (ctl : Bool) : Lad K :=
  let s := s.swap (ctl ^^ s.cc)
  let a := add s.X0 s.Z0 s.X1 s.Z1
  let d := E.xDbl s.X0 s.Z0
  ⟨d.1, d.2, a.1, a.2, ctl⟩

/-- `((n[i >> 3] >> (i & 7)) as u32) & 1` as a truth value; `none` is the index panic. -/
def bitAt (n : List UInt8) (i : Nat) : Option Bool :=
  match n[i >>> 3]? with
  | none => none
  | some b => some (decide ((b >>> (UInt8.ofNat (i &&& 7))).toUInt32 &&& 1 ≠ 0))

/-- The loop `for i in (0..nbitlen).rev()`, eccore.rs:585-592, 595-601. -/
def ladLoop {S : Type*} (n : List UInt8) (step : S → Bool → S) : Nat → S → Option S
  | 0, s => some s
  | i + 1, s =>
    match bitAt n i with
    | none => none
    | some b => ladLoop n step i (step s b)

/-- The end of `mul_into`, eccore.rs:604-646: recovery of the y coordinate from the final ladder
state and correction of the special cases. -/
def Crv.mulFinish (E : Crv K) (P : Pt K) (s : Lad K) (n0 : UInt8) : Pt K :=
  let dP := E.double P
  let s := s.swap s.cc
  let z0z := decide (s.Z0 = 0)
  let z1z := decide (s.Z1 = 0)
  let x1ex := decide (s.X1 * P.Z = P.X * s.Z1)
  let xxzz := P.X * s.X0 + P.Z * s.Z0
  let xpz0 := P.X * s.Z0
  let x0zp := s.X0 * P.Z
  let zz := P.Z * s.Z0
  let zzdA := (2 * E.A) * zz
  let u := xxzz * (xpz0 + x0zp + zzdA) - zzdA * zz
  let v := (2 * P.Y) * zz * s.Z1
  let P3 : Pt K := ⟨s.X0 * v, u * s.Z1 - (xpz0 - x0zp) * (xpz0 - x0zp) * s.X1, s.Z0 * v⟩
  let order1 := decide (P.Z = 0)
  let order2 := !order1 && decide (P.Y = 0)
  let z0inf := !order1 && !order2 && z0z
  let z1inf := !order1 && !order2 && !z0z && z1z
  let p1mp := !order1 && !order2 && !z0z && !z1z && x1ex
  let n_odd := decide (n0.toUInt32 &&& 1 ≠ 0)
  let P3 : Pt K := ⟨P3.X, P3.Y, cond' P3.Z 0 (order1 || (order2 && !n_odd) || z0inf)⟩
  let P3 := P3.cond P (z1inf || (order2 && n_odd))
  let P3 := P3.cond dP p1mp
  P3.condNeg (z1inf || p1mp)

/-- `mul_into` / `mul`, eccore.rs:532-655; `none` is an index panic on the scalar slice. -/
def Crv.mul (E : Crv K) (P : Pt K) (n : List UInt8) (nbitlen : Nat) : Option (Pt K) :=
  let s0 : Lad K := ⟨1, 0, P.X, P.Z, false⟩
  let r :=
    if nbitlen > 21 then ladLoop n (E.ladStep (xAddAff (P.X / P.Z))) nbitlen s0
    else ladLoop n (E.ladStep (xAdd P.X P.Z)) nbitlen s0
  match r, n with
  | some s, n0 :: _ => some (E.mulFinish P s n0)
  | _, _ => none

/-- `mul_big`, eccore.rs:658-661 (`toBytesLe` is num-bigint's `to_bytes_le`, one zero byte for 0;
`bits()` is the bit length). -/
def Crv.mulBig (E : Crv K) (P : Pt K) (n : Nat) : Option (Pt K) :=
  E.mul P (toBytesLe n) (if n = 0 then 0 else Nat.log2 n + 1)

/-- `mul_small_into` / `mul_small`, eccore.rs:665-691. -/
def Crv.mulSmall (E : Crv K) (P : Pt K) (n : UInt64) : Option (Pt K) :=
  if n = 0 then some Pt.inf
  else if n = 1 then some P
  else if n = 2 then some (E.double P)
  else if n = 3 then some (E.add (E.double P) P)
  else E.mul P (leBytes 8 n) (Nat.log2 n.toNat + 1)

/-- `iter` / `CurveIter::new`, eccore.rs:723-726, 767-772: the state of the iterator. -/
structure CrvIter (K : Type*) where
  A : K
  x : K

variable [RootOps K]
open RootOps

/-- The right-hand side `((x + A) * x) * x + x`, eccore.rs:702, 782. -/
def rhsOf (A x : K) : K := (x + A) * x * x + x

/-- `CurveIter::new`, eccore.rs:767-772. -/
def CrvIter.new (A : K) : CrvIter K := ⟨A, 1 + zeta⟩

/-- The loop of `next` with `k` attempts left, eccore.rs:781-789. -/
def CrvIter.search (A : K) : Nat → K → Option (K × K)
  | 0, _ => none
  | k + 1, x =>
    let y := rhsOf A x
    if legendre y ≥ 0 then some (x, (sqrt y).1)
    else CrvIter.search A k (x + 1)

/-- `next`, eccore.rs:777-793: the point found, if any, and the new state. -/
def CrvIter.next (it : CrvIter K) : Option (Pt K) × CrvIter K :=
  match CrvIter.search it.A 1000 it.x with
  | some (x, y) => (some ⟨x, y, 1⟩, ⟨it.A, x + 1⟩)
  | none => (none, it)

/-- `set_rand_point` / `rand_point`, eccore.rs:694-720: `draws` lists the field elements drawn, each
with the low bit of the byte that is drawn when the element is accepted; `none` when the given
finite supply runs out (the Rust loop would keep drawing). -/
def Crv.randPoint (E : Crv K) : List (K × Bool) → Option (Pt K)
  | [] => none
  | (x, b) :: rest =>
    let y := rhsOf E.A x
    if legendre y ≥ 0 then
      let s := (sqrt y).1
      some ⟨x, cond' s (-s) b, 1⟩
    else E.randPoint rest

/-- `complete_pointX_into` / `complete_pointX`, eccore.rs:731-751. -/
def Crv.completePointX (E : Crv K) (P : PtX K) : Pt K × Bool :=
  let XZ := P.X * P.Z
  let V := (P.X + P.Z) * (P.X + P.Z) + (E.A - 2) * XZ
  let s := sqrt (V * XZ)
  (⟨XZ, s.1, cond' (P.Z * P.Z) 0 (!s.2)⟩, s.2)

/-- `CurveIsomorphism`, eccore.rs:795-800. -/
structure CrvIso (K : Type*) where
  u : K
  v : K
  w : K

/-- `CurveIsomorphism::new`, eccore.rs:803-815 (the debug assertion on the j-invariants is a
hypothesis of the theorems). -/
def CrvIso.new (domain codomain : Crv K) : CrvIso K :=
  let A2 := domain.A
  let A1 := codomain.A
  let v := (A1 * A1 + 2 * (A2 * A2) - 3 * 3) / (A1 * (3 - A2 * A2))
  let u := (3 * v + A1) / A2
  let w := (sqrt (u * (u * u))).1
  ⟨u, v, w⟩

/-- `CurveIsomorphism::eval`, eccore.rs:817-821. -/
def CrvIso.eval (f : CrvIso K) (P : Pt K) : Pt K :=
  Pt.newXY (f.u * P.toXY.1 + f.v) (f.w * P.toXY.2)

/-! ### Products of curves -/

/-- `CouplePoint`, eccore.rs:824-828. -/
structure CPt (K : Type*) where
  P1 : Pt K
  P2 : Pt K

/-- `EllipticProduct`, eccore.rs:855-859. -/
structure EProd (K : Type*) where
  E1 : Crv K
  E2 : Crv K

omit [RootOps K]

/-- `EllipticProduct::add`, eccore.rs:876-881. -/
def EProd.add (E : EProd K) (C1 C2 : CPt K) : CPt K := ⟨E.E1.add C1.P1 C2.P1, E.E2.add C1.P2 C2.P2⟩
/-- `EllipticProduct::double`, eccore.rs:884-889. -/
def EProd.double (E : EProd K) (C : CPt K) : CPt K := ⟨E.E1.double C.P1, E.E2.double C.P2⟩
/-- `EllipticProduct::double_iter`, eccore.rs:893-898. -/
def EProd.doubleIter (E : EProd K) (C : CPt K) (n : Nat) : CPt K :=
  ⟨E.E1.doubleIter C.P1 n, E.E2.doubleIter C.P2 n⟩

end
end Festa

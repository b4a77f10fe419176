import Verif.Model.FpDiv
import Verif.Model.Fp2
/-!
The routines of the two fields in builds with overflow checks.  The code uses wrapping operations nearly everywhere; here
are the routines that contain a plain addition, subtraction or shift whose operands depend on the data.  Such an operation
panics when it overflows (or when the shift amount is 64 or more): `none`.
-/
namespace Festa

/-- The shift amount `s`, fp_gen.rs:830 and 1176. -/
def gcdShift (a b : Limbs) : UInt64 :=
  let sc := (List.zip a b).reverse.foldl Scan.step
    ⟨0xFFFFFFFFFFFFFFFF, 0xFFFFFFFFFFFFFFFF, 0, 0, 0, 0⟩
  lzcnt (sc.a_hi ||| sc.b_hi)

/-- `gcdApprox` with the checks of `63 - s` (on `u32`), `<< s` and `>> (63 - s)`, fp_gen.rs:830-832 and 1176-1178. -/
def gcdApproxChk (a b : Limbs) : Option (UInt64 × UInt64) :=
  if 63 < (gcdShift a b).toNat then none else some (gcdApprox a b)

/-- One outer iteration of the division with checks, fp_gen.rs:801-880. -/
def divRoundChk (P : FpParams) (s : DivState) : Option DivState :=
  match gcdApproxChk s.a s.b with
  | none => none
  | some (xa, xb) =>
    let r := Inner.step^[31] ⟨xa, xb, 1, (1 : UInt64) <<< 32⟩
    let (f0, g0) := unpackFG r.fg0
    let (f1, g1) := unpackFG r.fg1
    let (na, nega) := fpLindiv31abs s.a s.b f0 g0
    let (nb, negb) := fpLindiv31abs s.a s.b f1 g1
    let f0 := condNegW f0 nega
    let g0 := condNegW g0 nega
    let f1 := condNegW f1 negb
    let g1 := condNegW g1 negb
    some { a := na
           b := nb
           u := fpMontylin P s.u s.v f0 g0
           v := fpMontylin P s.u s.v f1 g1 }

/-- `for _ in 0..n` with a body that can panic, fp_gen.rs:801 and 1146. -/
def iterOpt {α : Type*} (f : α → Option α) : Nat → α → Option α
  | 0, s => some s
  | n + 1, s =>
    match f s with
    | none => none
    | some s => iterOpt f n s

/-- `set_div` with checks, fp_gen.rs:768-939. -/
def fpDivChk (P : FpParams) (x y : Limbs) : Option Limbs :=
  match iterOpt (divRoundChk P) P.num1 ⟨y, P.MODULUS, x, fpZero P⟩ with
  | none => none
  | some s =>
    let t := Tail.step^[P.num2] ⟨s.a.headD 0, s.b.headD 0, 1, 0, 0, 1⟩
    let r := fpMontylin P s.u s.v t.f1 t.g1
    let w := ~~~(fpIsZero y)
    let w := (w.toUInt64 <<< 32) ||| w.toUInt64
    some (fpMul P (r.map (· &&& w)) P.TFIXDIV_VAL)

/-- `set_invert` / `invert` with checks, fp_gen.rs:941-951. -/
def fpInvertChk (P : FpParams) (y : Limbs) : Option Limbs := fpDivChk P P.R_VAL y

/-- One outer iteration of `legendre` with checks, fp_gen.rs:1146-1261. -/
def legRoundChk (s : LegState) : Option LegState :=
  match gcdApproxChk s.a s.b with
  | none => none
  | some (xa, xb) =>
    let r := LInner.step^[29] ⟨⟨xa, xb, 1, (1 : UInt64) <<< 32⟩, s.ls⟩
    let (f0, g0) := unpackFG r.s.fg0
    let (f1, g1) := unpackFG r.s.fg1
    let a0 := (s.a.headD 0 * f0 + s.b.headD 0 * g0) >>> 29
    let b0 := (s.a.headD 0 * f1 + s.b.headD 0 * g1) >>> 29
    let r := LInner2.step^[2] ⟨r.s, a0, b0, r.ls⟩
    let (f0, g0) := unpackFG r.s.fg0
    let (f1, g1) := unpackFG r.s.fg1
    let (na, nega) := fpLindiv31abs s.a s.b f0 g0
    let (nb, _) := fpLindiv31abs s.a s.b f1 g1
    some { a := na, b := nb, ls := r.ls ^^^ (nega &&& (nb.headD 0 >>> 1)) }

/-- `legendre` with checks, fp_gen.rs:1132-1292. -/
def fpLegendreChk (P : FpParams) (a : Limbs) : Option UInt32 :=
  match iterOpt legRoundChk P.num1 ⟨a, P.MODULUS, 0⟩ with
  | none => none
  | some s =>
    let t := LTail.step^[P.num2] ⟨s.a.headD 0, s.b.headD 0, s.ls⟩
    let r : UInt32 := (1 : UInt32) - ((t.ls.toUInt32 &&& (1 : UInt32)) <<< (1 : UInt32))
    some (r &&& ~~~(fpIsZero a))

/-- The quotient estimate with the check of the plain addition, fp_gen.rs:542-546. -/
def smallQuotChk (P : FpParams) (x1 : UInt64) : Option UInt64 :=
  let t := (umull x1 P.P1DIV_M).2
  let b := (((x1 - t) >>> 1) + t) >>> 31
  if 2 ^ 64 ≤ b.toNat + ((P.P1 - b) >>> 63).toNat then none else some (b + ((P.P1 - b) >>> 63))

/-- `set_mul_small` with checks, fp_gen.rs:492-578. -/
def fpMulSmallChk (P : FpParams) (a : Limbs) (k : Int32) : Option Limbs :=
  let sk : UInt32 := UInt32.ofBitVec (k.toBitVec.sshiftRight 31)
  let ak : UInt32 := (k.toUInt32 ^^^ sk) - sk
  let (x, hi) := mulWordLoop ak.toUInt64 a 0
  match smallQuotChk P (smallTop P x hi) with
  | none => none
  | some b =>
    let (x, cc1, cc2) := subMulLoop b x P.MODULUS 0 false
    let hi := (subborrow hi cc1 cc2).1
    let (x, _) := smallFix P (smallFix P (x, hi))
    some (fpCondNeg P x sk)

/-- `Fp2::set_div` in a build with overflow checks, fp2_gen.rs:307-318. -/
def fp2DivChk (P : FpParams) (a b : Fp2) : Option Fp2 :=
  match fpInvertChk P (fp2Norm P b) with
  | none => none
  | some z => some (fp2Mul P a ⟨fpMul P b.x0 z, fpMul P (fpNeg P b.x1) z⟩)

/-- `Fp2::set_invert` in a build with overflow checks, fp2_gen.rs:320-329. -/
def fp2InvertChk (P : FpParams) (a : Fp2) : Option Fp2 :=
  match fpInvertChk P (fp2Norm P a) with
  | none => none
  | some z => some ⟨fpMul P a.x0 z, fpNeg P (fpMul P a.x1 z)⟩

/-- `Fp2::legendre` in a build with overflow checks, fp2_gen.rs:342-348. -/
def fp2LegendreChk (P : FpParams) (a : Fp2) : Option UInt32 := fpLegendreChk P (fp2Norm P a)

/-- `Fp2::set_sqrt` in a build with overflow checks, fp2_gen.rs:356-428: it may panic in the Legendre
symbol of line 403 and in the division of line 414. -/
def fp2SqrtChk (P : FpParams) (a : Fp2) : Option (Fp2 × UInt32) :=
  let d := fpSqrt P (fp2Norm P a)
  let sqrtDelta := d.1
  let r1 := d.2
  let y0sq := fpHalf P (fpAdd P a.x0 sqrtDelta)
  let x1z := fpIsZero a.x1
  let y0sq := fpCond y0sq a.x0 x1z
  match fpLegendreChk P y0sq with
  | none => none
  | some ls =>
    let nqr := sar1 ls
    let y0sq := fpCondNeg P y0sq (nqr &&& x1z)
    let y0sq := fpCond y0sq (fpSub P y0sq sqrtDelta) (nqr &&& ~~~x1z)
    let s := fpSqrt P y0sq
    let r := r1 &&& s.2
    match fpDivChk P a.x1 (fpMul2 P s.1) with
    | none => none
    | some y1 =>
      let sw := fpCondSwap s.1 y1 (nqr &&& x1z)
      some (fp2RootFinish P sw.1 sw.2 r, r)

/-- `Fp2::set_fourth_root` in a build with overflow checks, fp2_gen.rs:442-558: it may panic in the
Legendre symbol of line 511 and in the division of line 527. -/
def fp2FourthRootChk (P : FpParams) (a : Fp2) : Option (Fp2 × UInt32) :=
  let f := fpFourthRoot P (fp2Norm P a)
  let n := f.1
  let r1 := f.2
  let disc := fpHalf P (fpAdd P (fpSquare P n) a.x0)
  let d := fpSqrt P disc
  let discSqrt := d.1
  let r2 := d.2
  let y02 := fpHalf P (fpAdd P discSqrt n)
  match fpLegendreChk P y02 with
  | none => none
  | some ls =>
    let nqr := sar1 ls
    let y02 := fpCond y02 (fpSub P y02 n) nqr
    let n := fpCondNeg P n nqr
    let y02 := fpCond y02 n (fpIsZero y02)
    let s := fpSqrt P y02
    let y0 := s.1
    let r3 := s.2
    match fpDivChk P a.x1 (fpMul P y0 (fpMul4 P discSqrt)) with
    | none => none
    | some y1 =>
      let y1 := fpCond y1 y0 (fpIsZero a.x1 &&& fpIsZero disc)
      let r := r1 &&& r2 &&& r3
      some (fp2RootFinish P y0 y1 r, r)

end Festa

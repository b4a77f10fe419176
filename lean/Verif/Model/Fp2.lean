import Verif.Model.FpDiv
/-
Model of the extension field code of `/repo/src/finitefield/fp2_gen.rs`, on pairs of limb vectors.
Every Rust routine that updates `self` in place is a function returning the new value.
-/
namespace Festa

/-- `struct Fp2`, fp2_gen.rs:29-32. -/
structure Fp2 where
  x0 : Limbs
  x1 : Limbs
  deriving DecidableEq

/-- `ZERO`, fp2_gen.rs:35-38. -/
def fp2Zero (P : FpParams) : Fp2 := ⟨fpZero P, fpZero P⟩
/-- `ONE`, fp2_gen.rs:39-42. -/
def fp2One (P : FpParams) : Fp2 := ⟨P.R_VAL, fpZero P⟩
/-- `TWO`, fp2_gen.rs:43-46. -/
def fp2Two (P : FpParams) : Fp2 := ⟨P.DR_VAL, fpZero P⟩
/-- `THREE`, fp2_gen.rs:47-50. -/
def fp2Three (P : FpParams) : Fp2 := ⟨P.TR_VAL, fpZero P⟩
/-- `FOUR`, fp2_gen.rs:51-54. -/
def fp2Four (P : FpParams) : Fp2 := ⟨P.QR_VAL, fpZero P⟩
/-- `MINUS_ONE`, fp2_gen.rs:55-58. -/
def fp2MinusOne (P : FpParams) : Fp2 := ⟨P.MINUS_R_VAL, fpZero P⟩
/-- `ZETA`, fp2_gen.rs:59-62. -/
def fp2Zeta (P : FpParams) : Fp2 := ⟨fpZero P, P.R_VAL⟩
/-- `MINUS_ZETA`, fp2_gen.rs:63-66. -/
def fp2MinusZeta (P : FpParams) : Fp2 := ⟨fpZero P, P.MINUS_R_VAL⟩
/-- `NQR`, fp2_gen.rs:70-74; `nqrRe` is the macro constant `NQR_RE`. -/
def fp2Nqr (P : FpParams) (nqrRe : Limbs) : Fp2 := ⟨nqrRe, P.R_VAL⟩

/-- `iszero`, fp2_gen.rs:84-87. -/
def fp2IsZero (a : Fp2) : UInt32 := fpIsZero a.x0 &&& fpIsZero a.x1
/-- `equals`, fp2_gen.rs:89-92 (and `PartialEq`, 1084-1089). -/
def fp2Equals (a b : Fp2) : UInt32 := fpEquals a.x0 b.x0 &&& fpEquals a.x1 b.x1
/-- `set_add`, fp2_gen.rs:94-98. -/
def fp2Add (P : FpParams) (a b : Fp2) : Fp2 := ⟨fpAdd P a.x0 b.x0, fpAdd P a.x1 b.x1⟩
/-- `set_sub`, fp2_gen.rs:100-104. -/
def fp2Sub (P : FpParams) (a b : Fp2) : Fp2 := ⟨fpSub P a.x0 b.x0, fpSub P a.x1 b.x1⟩
/-- `set_neg`, fp2_gen.rs:106-110. -/
def fp2Neg (P : FpParams) (a : Fp2) : Fp2 := ⟨fpNeg P a.x0, fpNeg P a.x1⟩
/-- `set_conj` / `conj`, fp2_gen.rs:112-123. -/
def fp2Conj (P : FpParams) (a : Fp2) : Fp2 := ⟨a.x0, fpNeg P a.x1⟩

/-- `set_mul_old`, fp2_gen.rs:130-144 (Karatsuba). -/
def fp2MulOld (P : FpParams) (u v : Fp2) : Fp2 :=
  let a := fpMul P u.x0 v.x0
  let b := fpMul P u.x1 v.x1
  let c := fpMul P (fpAdd P u.x0 u.x1) (fpAdd P v.x0 v.x1)
  ⟨fpSub P a b, fpSub P (fpSub P c a) b⟩

/-- `set_mul`, fp2_gen.rs:153-167. -/
def fp2Mul (P : FpParams) (u v : Fp2) : Fp2 :=
  ⟨fpDiffOfProducts P u.x0 v.x0 u.x1 v.x1, fpSumOfProducts P u.x0 v.x1 u.x1 v.x0⟩

/-- `set_square`, fp2_gen.rs:176-186. -/
def fp2Square (P : FpParams) (u : Fp2) : Fp2 :=
  let a := fpAdd P u.x0 u.x1
  let b := fpSub P u.x0 u.x1
  ⟨fpMul P a b, fpMul2 P (fpMul P u.x1 u.x0)⟩

/-- `set_half`, fp2_gen.rs:195-199. -/
def fp2Half (P : FpParams) (a : Fp2) : Fp2 := ⟨fpHalf P a.x0, fpHalf P a.x1⟩
/-- `set_mul2`, fp2_gen.rs:208-212. -/
def fp2Mul2 (P : FpParams) (a : Fp2) : Fp2 := ⟨fpMul2 P a.x0, fpMul2 P a.x1⟩
/-- `set_mul3`, fp2_gen.rs:221-225. -/
def fp2Mul3 (P : FpParams) (a : Fp2) : Fp2 := ⟨fpMul3 P a.x0, fpMul3 P a.x1⟩
/-- `set_mul4`, fp2_gen.rs:234-238. -/
def fp2Mul4 (P : FpParams) (a : Fp2) : Fp2 := ⟨fpMul4 P a.x0, fpMul4 P a.x1⟩
/-- `set_mul8`, fp2_gen.rs:247-251. -/
def fp2Mul8 (P : FpParams) (a : Fp2) : Fp2 := ⟨fpMul8 P a.x0, fpMul8 P a.x1⟩
/-- `set_mul_small`, fp2_gen.rs:260-264. -/
def fp2MulSmall (P : FpParams) (a : Fp2) (k : Int32) : Fp2 :=
  ⟨fpMulSmall P a.x0 k, fpMulSmall P a.x1 k⟩

/-- `select`, fp2_gen.rs:273-285. -/
def fp2Select (a b : Fp2) (ctl : UInt32) : Fp2 := ⟨fpSelect a.x0 b.x0 ctl, fpSelect a.x1 b.x1 ctl⟩
/-- `set_cond`, fp2_gen.rs:287-291. -/
def fp2Cond (a b : Fp2) (ctl : UInt32) : Fp2 := ⟨fpCond a.x0 b.x0 ctl, fpCond a.x1 b.x1 ctl⟩
/-- `set_condneg`, fp2_gen.rs:293-299. -/
def fp2CondNeg (P : FpParams) (a : Fp2) (ctl : UInt32) : Fp2 :=
  ⟨fpCond a.x0 (fpNeg P a.x0) ctl, fpCond a.x1 (fpNeg P a.x1) ctl⟩
/-- `condswap`, fp2_gen.rs:301-305. -/
def fp2CondSwap (a b : Fp2) (ctl : UInt32) : Fp2 × Fp2 :=
  let s0 := fpCondSwap a.x0 b.x0 ctl
  let s1 := fpCondSwap a.x1 b.x1 ctl
  (⟨s0.1, s1.1⟩, ⟨s0.2, s1.2⟩)

/-- `x0.square() + x1.square()`, as written in fp2_gen.rs:310-311, 323-324, 347, 395, 490. -/
def fp2Norm (P : FpParams) (a : Fp2) : Limbs := fpAdd P (fpSquare P a.x0) (fpSquare P a.x1)

/-- `set_div`, fp2_gen.rs:307-318. -/
def fp2Div (P : FpParams) (a b : Fp2) : Fp2 :=
  let z := fpInvert P (fp2Norm P b)
  fp2Mul P a ⟨fpMul P b.x0 z, fpMul P (fpNeg P b.x1) z⟩

/-- `set_invert`, fp2_gen.rs:320-329. -/
def fp2Invert (P : FpParams) (a : Fp2) : Fp2 :=
  let z := fpInvert P (fp2Norm P a)
  ⟨fpMul P a.x0 z, fpNeg P (fpMul P a.x1 z)⟩

/-- `legendre`, fp2_gen.rs:342-348 (the `i32` result as its `u32` bit pattern). -/
def fp2Legendre (P : FpParams) (a : Fp2) : UInt32 := fpLegendre P (fp2Norm P a)

/-- `(ls >> 1) as u32` for an `i32` value given by its bit pattern, fp2_gen.rs:404, 512. -/
def sar1 (ls : UInt32) : UInt32 := UInt32.ofBitVec (ls.toBitVec.sshiftRight 1)

/-- `((x.encode()[0] as u32) & 1).wrapping_neg()`, fp2_gen.rs:423-424, 552-553. -/
def fpOdd (P : FpParams) (x : Limbs) : UInt32 := -(((fpEncode P x).headD 0).toUInt32 &&& 1)

/-- Common tail of the root routines, fp2_gen.rs:420-426 and 548-555: clear on failure, then
normalise the sign. -/
def fp2RootFinish (P : FpParams) (y0 y1 : Limbs) (r : UInt32) : Fp2 :=
  let x0 := fpSelect (fpZero P) y0 r
  let x1 := fpSelect (fpZero P) y1 r
  fp2CondNeg P ⟨x0, x1⟩ (fpOdd P x0 ||| (fpIsZero x0 &&& fpOdd P x1))

/-- `set_sqrt`, fp2_gen.rs:356-428. -/
def fp2Sqrt (P : FpParams) (a : Fp2) : Fp2 × UInt32 :=
  let d := fpSqrt P (fp2Norm P a)
  let sqrtDelta := d.1
  let r1 := d.2
  let y0sq := fpHalf P (fpAdd P a.x0 sqrtDelta)
  let x1z := fpIsZero a.x1
  let y0sq := fpCond y0sq a.x0 x1z
  let nqr := sar1 (fpLegendre P y0sq)
  let y0sq := fpCondNeg P y0sq (nqr &&& x1z)
  let y0sq := fpCond y0sq (fpSub P y0sq sqrtDelta) (nqr &&& ~~~x1z)
  let s := fpSqrt P y0sq
  let r := r1 &&& s.2
  let y1 := fpDiv P a.x1 (fpMul2 P s.1)
  let sw := fpCondSwap s.1 y1 (nqr &&& x1z)
  (fp2RootFinish P sw.1 sw.2 r, r)

/-- `set_fourth_root`, fp2_gen.rs:442-558. -/
def fp2FourthRoot (P : FpParams) (a : Fp2) : Fp2 × UInt32 :=
  let f := fpFourthRoot P (fp2Norm P a)
  let n := f.1
  let r1 := f.2
  let disc := fpHalf P (fpAdd P (fpSquare P n) a.x0)
  let d := fpSqrt P disc
  let discSqrt := d.1
  let r2 := d.2
  let y02 := fpHalf P (fpAdd P discSqrt n)
  let nqr := sar1 (fpLegendre P y02)
  let y02 := fpCond y02 (fpSub P y02 n) nqr
  let n := fpCondNeg P n nqr
  let y02 := fpCond y02 n (fpIsZero y02)
  let s := fpSqrt P y02
  let y0 := s.1
  let r3 := s.2
  let y1 := fpDiv P a.x1 (fpMul P y0 (fpMul4 P discSqrt))
  let y1 := fpCond y1 y0 (fpIsZero a.x1 &&& fpIsZero disc)
  let r := r1 &&& r2 &&& r3
  (fp2RootFinish P y0 y1 r, r)

/-- Loop of `set_pow_ext`, fp2_gen.rs:580-588: the `k` remaining iterations handle the bits
`eoff + k - 1, ..., eoff`; `none` is the index panic of `e[i >> 3]`. -/
def fp2PowLoop (P : FpParams) (x : Fp2) (e : List UInt8) (eoff : Nat) :
    Nat → Fp2 → Option Fp2
  | 0, s => some s
  | k + 1, s =>
    let i := eoff + k
    let y := fp2Mul P s x
    match e[i >>> 3]? with
    | none => none
    | some b =>
      let ctl : UInt32 := -((b >>> (UInt8.ofNat (i &&& 7))).toUInt32 &&& 1)
      let s := fp2Cond s y ctl
      if k = 0 then some s else fp2PowLoop P x e eoff k (fp2Square P s)

/-- `set_pow_ext` / `pow_ext`, fp2_gen.rs:575-589, 620-624; `set_pow`/`pow` (568-570, 594-598) are
the case `eoff = 0`. -/
def fp2PowExt (P : FpParams) (x : Fp2) (e : List UInt8) (eoff ebitlen : Nat) : Option Fp2 :=
  fp2PowLoop P x e eoff ebitlen (fp2One P)

/-- `pow_small`, fp2_gen.rs:602-607 (`32 - e.leading_zeros()` is the bit length of `e`). -/
def fp2PowSmall (P : FpParams) (x : Fp2) (e : UInt32) : Option Fp2 :=
  fp2PowExt P x (leBytes 4 e.toUInt64) 0 (if e.toNat = 0 then 0 else Nat.log2 e.toNat + 1)

/-- `pow_big`, fp2_gen.rs:611-615. -/
def fp2PowBig (P : FpParams) (x : Fp2) (e : Nat) : Option Fp2 :=
  fp2PowExt P x (toBytesLe e) 0 (if e = 0 then 0 else Nat.log2 e + 1)

/-- Bit `i` of `e` as `((e >> i) as u32) & 1`. -/
def bit64 (e : UInt64) (i : Nat) : UInt32 := (e >>> UInt64.ofNat i).toUInt32 &&& 1

/-- The loop of `set_pow_u64`, fp2_gen.rs:704-708: bits `k-1, ..., 0`. -/
def fp2PowU64Loop (P : FpParams) (x : Fp2) (e : UInt64) : Nat → Fp2 → Fp2
  | 0, s => s
  | i + 1, s =>
    let s := fp2Square P s
    let y := fp2Mul P s x
    fp2PowU64Loop P x e i (fp2Cond s y (-(bit64 e i)))

/-- `set_pow_u64` / `pow_u64`, fp2_gen.rs:690-721; `none` is the shift-overflow panic for
`ebitlen > 64` (builds without overflow checks would mask the shift amount). -/
def fp2PowU64 (P : FpParams) (x : Fp2) (e : UInt64) (ebitlen : Nat) : Option Fp2 :=
  match ebitlen with
  | 0 => some (fp2One P)
  | 1 => some (fp2Cond x (fp2One P) ((e.toUInt32 &&& 1) - 1))
  | n + 2 =>
    if 64 < n + 2 then none
    else
      let s := fp2Cond x (fp2One P) (bit64 e (n + 1) - 1)
      some (fp2PowU64Loop P x e (n + 1) s)

/-- The `while j > 0` loop of `set_pow_u64_vartime`, fp2_gen.rs:749-757, for `j = 2 * k`. -/
def fp2VarLoop (P : FpParams) (xw : Nat → Fp2) (e : UInt64) : Nat → Fp2 → Fp2
  | 0, s => s
  | k + 1, s =>
    let s := fp2Square P (fp2Square P s)
    let d := ((e >>> UInt64.ofNat (2 * k)) &&& 3).toNat
    fp2VarLoop P xw e k (if d > 0 then fp2Mul P s (xw (d - 1)) else s)

/-- `set_pow_u64_vartime`, fp2_gen.rs:725-768.  The window table is a function; the only indices
used are 0, 1, 2.  `63 - e.leading_zeros()` is `Nat.log2 e`. -/
def fp2PowU64Vartime (P : FpParams) (x : Fp2) (e : UInt64) : Fp2 :=
  if e = 0 then fp2One P
  else if e = 1 then x
  else if e = 2 then fp2Square P x
  else if e = 3 then fp2Mul P x (fp2Square P x)
  else if e = 4 then fp2Square P (fp2Square P x)
  else
    let xx := fp2Square P x
    let xw : Nat → Fp2 := fun i => if i = 0 then x else if i = 1 then xx else fp2Mul P xx x
    let k := Nat.log2 e.toNat / 2
    fp2VarLoop P xw e k (xw ((e >>> UInt64.ofNat (2 * k)).toNat - 1))

/-- `encode`, fp2_gen.rs:626-631. -/
def fp2Encode (P : FpParams) (a : Fp2) : List UInt8 := fpEncode P a.x0 ++ fpEncode P a.x1

/-- `decode`, fp2_gen.rs:633-643. -/
def fp2Decode (P : FpParams) (buf : List UInt8) : Fp2 × UInt32 :=
  if buf.length ≠ 2 * P.encLen then (fp2Zero P, 0)
  else
    let d0 := fpDecode P (buf.take P.encLen)
    let d1 := fpDecode P (buf.drop P.encLen)
    let cx := d0.2 &&& d1.2
    (⟨fpCond d0.1 (fpZero P) (~~~cx), fpCond d1.1 (fpZero P) (~~~cx)⟩, cx)

/-- `set_rand`, fp2_gen.rs:647-650: `b0`, `b1` are the two byte buffers drawn from the
generator. -/
def fp2Rand (P : FpParams) (b0 b1 : List UInt8) : Fp2 := ⟨fpRand P b0, fpRand P b1⟩

/-- `set_rand_nonsquare`, fp2_gen.rs:662-676: consumes draws until one is non-zero; `none` when the
given finite supply of draws runs out (the Rust loop would keep drawing). -/
def fp2RandNonsquare (P : FpParams) (nqrRe : Limbs) :
    List (List UInt8 × List UInt8) → Option Fp2
  | [] => none
  | (b0, b1) :: rest =>
    let x := fp2Rand P b0 b1
    if fp2IsZero x ≠ 0 then fp2RandNonsquare P nqrRe rest
    else some (fp2Mul P (fp2Square P x) (fp2Nqr P nqrRe))

/-- `hashcode`, fp2_gen.rs:774-776. -/
def fp2Hashcode (a : Fp2) : UInt64 := (fpHashcode a.x0 <<< 1) ||| (fpHashcode a.x1 &&& 1)

/-- First loop of a batch, fp2_gen.rs:795-799: the products `tt[j]` for `j ≥ 1`, given `tt[j-1]`. -/
def batchFwd (P : FpParams) (prev : Fp2) : List Fp2 → List Fp2
  | [] => []
  | x :: xs =>
    let t := fp2Mul P (fp2Cond x (fp2One P) (fp2IsZero x)) prev
    t :: batchFwd P t xs

/-- Second loop of a batch, fp2_gen.rs:801-807, on the pairs `(xx[i+j], tt[j-1])` for `j ≥ 1`; the
loop runs from the last entry to the first. -/
def batchBack (P : FpParams) : List (Fp2 × Fp2) → Fp2 → List Fp2 × Fp2
  | [], k => ([], k)
  | (x, t) :: rest, k =>
    let r := batchBack P rest k
    let zz := fp2IsZero x
    let x' := fp2Cond x (fp2One P) zz
    (fp2Cond x (fp2Mul P r.2 t) (~~~zz) :: r.1, fp2Mul P r.2 x')

/-- One batch, fp2_gen.rs:789-808. -/
def batchOne (P : FpParams) : List Fp2 → List Fp2
  | [] => []
  | x :: xs =>
    let zz0 := fp2IsZero x
    let t0 := fp2Cond x (fp2One P) zz0
    let tt := t0 :: batchFwd P t0 xs
    let k := fp2Div P (fp2One P) (tt.getLastD t0)
    let r := batchBack P (List.zip xs tt) k
    fp2Cond x r.2 (~~~zz0) :: r.1

/-- `batch_invert`, fp2_gen.rs:778-811: consecutive batches of at most 200 entries. -/
def fp2BatchInvert (P : FpParams) (xx : List Fp2) : List Fp2 :=
  if _h : xx.length = 0 then []
  else batchOne P (xx.take 200) ++ fp2BatchInvert P (xx.drop 200)
termination_by xx.length
decreasing_by simp; omega

end Festa

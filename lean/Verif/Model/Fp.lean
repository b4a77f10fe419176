import Verif.Model.Word
import Mathlib.Logic.Function.Iterate
/-
Model of the prime-field code generated by the macro `define_fp_core!`
(`/repo/src/finitefield/fp_gen.rs`), for an arbitrary set of constants `FpParams`.

A field element `[u64; N]` is a list of limbs, least significant first.  The array type
forces the length `N` in the code; here every list argument is meant to have length `P.N`
(the theorems carry that as a hypothesis).  A `&mut self` method is a function returning the
new value.  A counted loop is a structural recursion over the limb lists.
Control words (`u32`, 0 or 0xFFFFFFFF) are `UInt32`.
-/
namespace Festa

/-- Little-endian limb vectors, `[u64; N]` in fp_gen.rs. -/
abbrev Limbs := List UInt64

/-- The constants expected by `define_fp_core!` (fp_gen.rs:5-45), one field per constant. -/
structure FpParams where
  N : Nat
  BITLEN : Nat
  MODULUS : Limbs
  HALF_MODULUS : Limbs
  R_VAL : Limbs
  MINUS_R_VAL : Limbs
  DR_VAL : Limbs
  TR_VAL : Limbs
  QR_VAL : Limbs
  R2_VAL : Limbs
  P0I : UInt64
  TFIXDIV_VAL : Limbs
  TDEC_VAL : Limbs
  WIN_LEN : Nat
  SQRT_EH : List Nat
  SQRT_EL : Nat
  FOURTH_ROOT_EH : List Nat
  FOURTH_ROOT_EL : Nat
  P1 : UInt64
  P1DIV_M : UInt64

/-- `ENCODED_LENGTH`, fp_gen.rs:105. -/
def FpParams.encLen (P : FpParams) : Nat := (P.BITLEN + 7) >>> 3

/-! ### Loops shared by several routines -/

/-- The raw addition loop with carry, e.g. fp_gen.rs:180-185 (`self + rhs`), 197-202. -/
def addLoop : Limbs → Limbs → Bool → Limbs × Bool
  | x :: xs, y :: ys, c =>
    let (d, e) := addcarry x y c
    let (ds, c') := addLoop xs ys e
    (d :: ds, c')
  | _, _, c => ([], c)

/-- The raw subtraction loop with borrow, e.g. fp_gen.rs:188-193, 209-214. -/
def subLoop : Limbs → Limbs → Bool → Limbs × Bool
  | x :: xs, y :: ys, c =>
    let (d, e) := subborrow x y c
    let (ds, c') := subLoop xs ys e
    (d :: ds, c')
  | _, _, c => ([], c)

/-- "Add back the modulus under mask `mm`", fp_gen.rs:197-202, 218-223, 239-244, 297-302. -/
def addBack (P : FpParams) (t : Limbs) (mm : UInt64) : Limbs :=
  (addLoop t (P.MODULUS.map (mm &&& ·)) false).1

/-- "Subtract the modulus, add it back if the result is negative" with an extra top bit `hi`:
fp_gen.rs:188-202 (in `set_add`), 290-302 (in `set_mul`), 682-696 (in `set_montylin`). -/
def finalSub (P : FpParams) (t : Limbs) (hi : Bool) : Limbs :=
  let (s, cc) := subLoop t P.MODULUS false
  addBack P s (hi.toUInt64 - cc.toUInt64)

/-- `ZERO`, fp_gen.rs:88. -/
def fpZero (P : FpParams) : Limbs := List.replicate P.N 0

/-- `set_add`, fp_gen.rs:178-203. -/
def fpAdd (P : FpParams) (a b : Limbs) : Limbs :=
  let (s, cc1) := addLoop a b false
  finalSub P s cc1

/-- `set_sub`, fp_gen.rs:207-224. -/
def fpSub (P : FpParams) (a b : Limbs) : Limbs :=
  let (s, cc) := subLoop a b false
  addBack P s (-cc.toUInt64)

/-- `set_neg`, fp_gen.rs:228-245. -/
def fpNeg (P : FpParams) (a : Limbs) : Limbs :=
  let (s, cc) := subLoop (List.replicate a.length 0) a false
  addBack P s (-cc.toUInt64)

/-- Multiply-accumulate row `d[i] = f*m[i] + t[i] + carry`, fp_gen.rs:256-260 (Montgomery
reduction), 330-334 (squaring), 1450-1452 (`sum_of_products`). -/
def macLoop (f : UInt64) : Limbs → Limbs → UInt64 → Limbs × UInt64
  | m :: ms, t :: ts, cc =>
    let (d, hi) := umullAdd2 f m t cc
    let (ds, cc') := macLoop f ms ts hi
    (d :: ds, cc')
  | _, _, cc => ([], cc)

/-- One round of Montgomery reduction, fp_gen.rs:254-261. -/
def montyRound (P : FpParams) (x : Limbs) : Limbs :=
  match x, P.MODULUS with
  | x0 :: xs, m0 :: ms =>
    let f := x0 * P.P0I
    let (_, cc) := umullAdd f m0 x0
    let (ds, cc) := macLoop f ms xs cc
    ds ++ [cc]
  | _, _ => []

/-- `set_montyred`, fp_gen.rs:252-263: `N` rounds. -/
def montyRed (P : FpParams) (x : Limbs) : Limbs := (montyRound P)^[P.N] x

/-- Inner loop of `set_mul`, fp_gen.rs:278-284: two interleaved multiply-accumulate rows. -/
def mulInner (f g : UInt64) : Limbs → Limbs → Limbs → UInt64 → UInt64 → Limbs × UInt64 × UInt64
  | a :: as, t :: ts, m :: ms, cc1, cc2 =>
    let (d, hi1) := umullAdd2 f a t cc1
    let (d, hi2) := umullAdd2 g m d cc2
    let (ds, r) := mulInner f g as ts ms hi1 hi2
    (d :: ds, r)
  | _, _, _, cc1, cc2 => ([], cc1, cc2)

/-- One outer iteration of `set_mul` (limb `f` of `rhs`), fp_gen.rs:273-288.
State: the accumulator `t` and the extra bit `cch`. -/
def mulRound (P : FpParams) (a : Limbs) (st : Limbs × Bool) (f : UInt64) : Limbs × Bool :=
  match a, st.1, P.MODULUS with
  | a0 :: as, t0 :: ts, m0 :: ms =>
    let (lo, cc1) := umullAdd f a0 t0
    let g := lo * P.P0I
    let (_, cc2) := umullAdd g m0 lo
    let (ds, cc1, cc2) := mulInner f g as ts ms cc1 cc2
    let (d, ee) := addcarry cc1 cc2 st.2
    (ds ++ [d], ee)
  | _, _, _ => ([], false)

/-- `set_mul`, fp_gen.rs:267-303. -/
def fpMul (P : FpParams) (a b : Limbs) : Limbs :=
  let (t, cch) := b.foldl (mulRound P a) (fpZero P, false)
  finalSub P t cch

/-- The off-diagonal part of the square, fp_gen.rs:322-340.  For the limbs `f :: rest` still to be
processed, `w` is the window `t[2i+1 .. i+N-1]`; the row adds `f*rest` into it and appends the
carry as `t[i+N]`; the two lowest limbs are then final and emitted, the others are the window of
the next row.  (Row 0 uses `umull`/`umull_add` without an accumulator, which is the same as a zero
window: fp_gen.rs:321-329.) -/
def sqRows : Limbs → Limbs → Limbs
  | [], _ => []
  | [_], _ => []
  | f :: rest@(_ :: _), w =>
    let (ds, cc) := macLoop f rest w 0
    let row := ds ++ [cc]
    row.take 2 ++ sqRows rest (row.drop 2)

/-- The doubling loop, fp_gen.rs:344-350. -/
def dblLoop : Limbs → UInt64 → Limbs × UInt64
  | w :: ws, cc =>
    let (ds, c) := dblLoop ws (w >>> 63)
    (((w <<< 1) ||| cc) :: ds, c)
  | [], cc => ([], cc)

/-- Adding the diagonal squares, fp_gen.rs:353-361. -/
def diagLoop : Limbs → Limbs → Bool → Limbs
  | a :: as, t0 :: t1 :: ts, cc =>
    let (lo, hi) := umull a a
    let (d0, ee) := addcarry lo t0 cc
    let (d1, ee) := addcarry hi t1 ee
    d0 :: d1 :: diagLoop as ts ee
  | _, _, _ => []

/-- The integer square over `2N` limbs, fp_gen.rs:317-361. -/
def sqWide (a : Limbs) : Limbs :=
  let off := sqRows a (List.replicate (a.length - 1) 0)
  let (dd, c) := dblLoop off 0
  diagLoop a (0 :: (dd ++ [c])) false

/-- `set_square`, fp_gen.rs:307-375. -/
def fpSquare (P : FpParams) (a : Limbs) : Limbs :=
  let t := sqWide a
  fpAdd P (montyRed P (t.take P.N)) (t.drop P.N)

/-- Shift-and-add loop of `set_half`, fp_gen.rs:389-400, with mask `mm`. -/
def halfLoop (mm : UInt64) : Limbs → Limbs → Bool → Limbs
  | x :: y :: xs, h :: hs, cc =>
    let (d, ee) := addcarry ((x >>> 1) ||| (y <<< 63)) (mm &&& h) cc
    d :: halfLoop mm (y :: xs) hs ee
  | [x], [h], cc => [(addcarry (x >>> 1) (mm &&& h) cc).1]
  | _, _, _ => []

/-- `set_half`, fp_gen.rs:387-401. -/
def fpHalf (P : FpParams) (x : Limbs) : Limbs :=
  halfLoop (-((x.headD 0) &&& 1)) x P.HALF_MODULUS false

/-- First loop of `set_mul2`, fp_gen.rs:415-424: doubling and subtraction of the modulus, with
the shifted-out bit `tb` and the borrow `cc`. -/
def mul2Loop : Limbs → Limbs → UInt64 → Bool → Limbs × UInt64 × Bool
  | w :: ws, m :: ms, tb, cc =>
    let t := (w <<< 1) ||| tb
    let (d, ee) := subborrow t m cc
    let (ds, r) := mul2Loop ws ms (w >>> 63) ee
    (d :: ds, r)
  | _, _, tb, cc => ([], tb, cc)

/-- `set_mul2`, fp_gen.rs:413-434. -/
def fpMul2 (P : FpParams) (x : Limbs) : Limbs :=
  let (d, tb, cc) := mul2Loop x P.MODULUS 0 false
  addBack P d (tb - cc.toUInt64)

/-- `set_mul3`, fp_gen.rs:446-449. -/
def fpMul3 (P : FpParams) (x : Limbs) : Limbs := fpAdd P x (fpMul2 P x)
/-- `set_mul4`, fp_gen.rs:461-464. -/
def fpMul4 (P : FpParams) (x : Limbs) : Limbs := fpMul2 P (fpMul2 P x)
/-- `set_mul8`, fp_gen.rs:476-480. -/
def fpMul8 (P : FpParams) (x : Limbs) : Limbs := fpMul2 P (fpMul2 P (fpMul2 P x))

/-- Widening of a control word, `(ctl as u64) | ((ctl as u64) << 32)`, fp_gen.rs:593, 616, 637. -/
def ctl64 (ctl : UInt32) : UInt64 := ctl.toUInt64 ||| (ctl.toUInt64 <<< 32)

/-- `set_select` / `select`, fp_gen.rs:592-609 (`set_cond` is `select self rhs`, 615-622). -/
def fpSelect (a b : Limbs) (ctl : UInt32) : Limbs :=
  List.zipWith (fun wa wb => wa ^^^ (ctl64 ctl &&& (wa ^^^ wb))) a b

/-- `set_cond`, fp_gen.rs:615-622. -/
def fpCond (a b : Limbs) (ctl : UInt32) : Limbs :=
  List.zipWith (fun wa wb => wa ^^^ (ctl64 ctl &&& (wa ^^^ wb))) a b

/-- `set_condneg`, fp_gen.rs:628-631. -/
def fpCondNeg (P : FpParams) (a : Limbs) (ctl : UInt32) : Limbs := fpCond a (fpNeg P a) ctl

/-- `condswap`, fp_gen.rs:637-646. -/
def fpCondSwap (a b : Limbs) (ctl : UInt32) : Limbs × Limbs :=
  (List.zipWith (fun wa wb => wa ^^^ (ctl64 ctl &&& (wa ^^^ wb))) a b,
   List.zipWith (fun wa wb => wb ^^^ (ctl64 ctl &&& (wa ^^^ wb))) a b)

/-- `from_u64`, fp_gen.rs:147-153. -/
def fpFromU64 (P : FpParams) (x : UInt64) : Limbs := fpMul P ((fpZero P).set 0 x) P.R2_VAL

/-- `from_u32`, fp_gen.rs:141-143. -/
def fpFromU32 (P : FpParams) (x : UInt32) : Limbs := fpFromU64 P x.toUInt64

/-- `from_i32`, fp_gen.rs:121-127 (`x >> 31` is the arithmetic shift). -/
def fpFromI32 (P : FpParams) (x : Int32) : Limbs :=
  let sx : UInt32 := UInt32.ofBitVec (x.toBitVec.sshiftRight 31)
  let ax : UInt32 := (x.toUInt32 ^^^ sx) - sx
  fpCondNeg P (fpFromU64 P ax.toUInt64) sx

/-- `from_i64`, fp_gen.rs:131-137. -/
def fpFromI64 (P : FpParams) (x : Int64) : Limbs :=
  let sx : UInt64 := UInt64.ofBitVec (x.toBitVec.sshiftRight 63)
  let ax : UInt64 := (x.toUInt64 ^^^ sx) - sx
  fpCondNeg P (fpFromU64 P ax) sx.toUInt32

/-- `iszero`, fp_gen.rs:157-163. -/
def fpIsZero (a : Limbs) : UInt32 :=
  let x := a.tail.foldl (· ||| ·) (a.headD 0)
  (~~~(sgnw (x ||| -x))).toUInt32

/-- `equals`, fp_gen.rs:168-174. -/
def fpEquals (a b : Limbs) : UInt32 :=
  let r := (List.zip a b).foldl (fun r p => r ||| (p.1 ^^^ p.2)) 0
  ((r ||| -r) >>> 63).toUInt32 - 1

/-- Product by a word over the integers, fp_gen.rs:498-504 (`umull` is `umull_add` with 0). -/
def mulWordLoop (k : UInt64) : Limbs → UInt64 → Limbs × UInt64
  | x :: xs, hi =>
    let (d, ee) := umullAdd x k hi
    let (ds, r) := mulWordLoop k xs ee
    (d :: ds, r)
  | [], hi => ([], hi)

/-- Loop subtracting `b*p`, fp_gen.rs:550-557. -/
def subMulLoop (b : UInt64) : Limbs → Limbs → UInt64 → Bool → Limbs × UInt64 × Bool
  | x :: xs, m :: ms, cc1, cc2 =>
    let (d, ee1) := umullAdd b m cc1
    let (d, ee2) := subborrow x d cc2
    let (ds, r) := subMulLoop b xs ms ee1 ee2
    (d :: ds, r)
  | _, _, cc1, cc2 => ([], cc1, cc2)

/-- One pass of the final loop of `set_mul_small`, fp_gen.rs:562-570. -/
def smallFix (P : FpParams) (st : Limbs × UInt64) : Limbs × UInt64 :=
  let m := sgnw st.2
  let (d, cc) := addLoop st.1 (P.MODULUS.map (m &&& ·)) false
  (d, st.2 + cc.toUInt64)

/-- The quotient estimate `b` from the top word `x1`, fp_gen.rs:542-546. -/
def smallQuot (P : FpParams) (x1 : UInt64) : UInt64 :=
  let t := (umull x1 P.P1DIV_M).2
  let b := (((x1 - t) >>> 1) + t) >>> 31
  b + ((P.P1 - b) >>> 63)

/-- The top word `x1` of the product, fp_gen.rs:529-539 (all four branches of the compile-time
test on `BITLEN mod 64`). -/
def smallTop (P : FpParams) (x : Limbs) (hi : UInt64) : UInt64 :=
  let bl := P.BITLEN &&& 63
  let top := x.getD (P.N - 1) 0
  let top' := x.getD (P.N - 2) 0
  if bl = 0 then (top >>> 32) ||| (hi <<< 32)
  else if bl < 32 then (top <<< UInt64.ofNat (32 - bl)) ||| (top' >>> UInt64.ofNat (32 + bl))
  else if bl = 32 then top
  else (hi <<< UInt64.ofNat (96 - bl)) ||| (top >>> UInt64.ofNat (bl - 32))

/-- `set_mul_small`, fp_gen.rs:492-578. -/
def fpMulSmall (P : FpParams) (a : Limbs) (k : Int32) : Limbs :=
  let sk : UInt32 := UInt32.ofBitVec (k.toBitVec.sshiftRight 31)
  let ak : UInt32 := (k.toUInt32 ^^^ sk) - sk
  let (x, hi) := mulWordLoop ak.toUInt64 a 0
  let b := smallQuot P (smallTop P x hi)
  let (x, cc1, cc2) := subMulLoop b x P.MODULUS 0 false
  let hi := (subborrow hi cc1 cc2).1
  let (x, _) := smallFix P (smallFix P (x, hi))
  fpCondNeg P x sk

/-! ### Fused products -/

/-- One iteration of the main loop of `sum_of_products` / `difference_of_products`,
fp_gen.rs:1451-1482 and 1524-1554. -/
def sopRound (P : FpParams) (b1 b2 : Limbs) (u : Limbs) (a : UInt64 × UInt64) : Limbs :=
  let (u, c1) := macLoop a.1 b1 u 0
  let (u, c2) := macLoop a.2 b2 u 0
  let extra := 0 + c1 + c2
  match u, P.MODULUS with
  | u0 :: us, m0 :: ms =>
    let q := u0 * P.P0I
    let (_, cc) := umullAdd q m0 u0
    let (ds, cc) := macLoop q ms us cc
    ds ++ [extra + cc]
  | _, _ => []

/-- Final correction of the fused products, fp_gen.rs:1487-1496 and 1559-1568. -/
def sopFinal (P : FpParams) (u : Limbs) : Limbs :=
  let (s, borrow) := subLoop u P.MODULUS false
  addBack P s (-borrow.toUInt64)

/-- `sum_of_products`, fp_gen.rs:1430-1500. -/
def fpSumOfProducts (P : FpParams) (a1 b1 a2 b2 : Limbs) : Limbs :=
  sopFinal P ((List.zip a1 a2).foldl (sopRound P b1 b2) (fpZero P))

/-- `difference_of_products`, fp_gen.rs:1507-1572. -/
def fpDiffOfProducts (P : FpParams) (a1 b1 a2 b2 : Limbs) : Limbs :=
  let b2m := (subLoop P.MODULUS b2 false).1
  sopFinal P ((List.zip a1 a2).foldl (sopRound P b1 b2m) (fpZero P))

/-! ### Bytes -/

/-- The `n` low bytes of a word, least significant first (`u64::to_le_bytes`). -/
def leBytes : Nat → UInt64 → List UInt8
  | 0, _ => []
  | n + 1, x => x.toUInt8 :: leBytes n (x >>> 8)

/-- `encode`, fp_gen.rs:1297-1308. -/
def fpEncode (P : FpParams) (a : Limbs) : List UInt8 :=
  let r := montyRed P a
  (r.take (P.N - 1)).flatMap (leBytes 8) ++
    leBytes (P.encLen - (P.N - 1) * 8) (r.getD (P.N - 1) 0)

/-- `u64::from_le_bytes` (fp_gen.rs:1313-1316) and the loop `w |= (byte as u64) << (8*j)`
starting at `j` (fp_gen.rs:1317-1320). -/
def fromLe (j : Nat) : List UInt8 → UInt64
  | b :: bs => (b.toUInt64 <<< UInt64.ofNat (8 * j)) ||| fromLe (j + 1) bs
  | [] => 0

/-- Full limbs read 8 bytes at a time, fp_gen.rs:1312-1316: `n` limbs. -/
def readLimbs : Nat → List UInt8 → Limbs
  | 0, _ => []
  | n + 1, buf => fromLe 0 (buf.take 8) :: readLimbs n (buf.drop 8)

/-- `set_decode_nocheck`, fp_gen.rs:1311-1322. -/
def fpDecodeNocheck (P : FpParams) (buf : List UInt8) : Limbs :=
  readLimbs (P.N - 1) buf ++
    [fromLe 0 ((buf.drop ((P.N - 1) * 8)).take (P.encLen - (P.N - 1) * 8))]

/-- `decode`, fp_gen.rs:1331-1354. -/
def fpDecode (P : FpParams) (buf : List UInt8) : Limbs × UInt32 :=
  if buf.length ≠ P.encLen then (fpZero P, 0)
  else
    let r := fpDecodeNocheck P buf
    let cc := (subLoop r P.MODULUS false).2
    let m := -cc.toUInt64
    let r := r.map (· &&& m)
    (fpMul P r P.R2_VAL, m.toUInt32)

/-- `CLEN`, fp_gen.rs:1370. -/
def FpParams.clen (P : FpParams) : Nat := 8 * (P.N - 1)

/-- The `while n > 0` loop of `set_decode_reduce`, fp_gen.rs:1379-1386, for `n = k*CLEN`;
`tmp` is the scratch buffer (only its first `CLEN` bytes are overwritten). -/
def decodeReduceLoop (P : FpParams) (buf : List UInt8) : Nat → List UInt8 → Limbs → Limbs
  | 0, _, x => x
  | k + 1, tmp, x =>
    let tmp := (buf.drop (k * P.clen)).take P.clen ++ tmp.drop P.clen
    let d := fpDecodeNocheck P tmp
    decodeReduceLoop P buf k tmp (fpAdd P (fpMul P x P.TDEC_VAL) d)

/-- `set_decode_reduce`, fp_gen.rs:1362-1389. -/
def fpDecodeReduce (P : FpParams) (buf : List UInt8) : Limbs :=
  if buf.length = 0 then fpZero P
  else
    let nn := if buf.length % P.clen = 0 then P.clen else buf.length % P.clen
    let n := buf.length - nn
    let tmp := buf.drop n ++ List.replicate (P.encLen - nn) 0
    let x := fpDecodeNocheck P tmp
    fpMul P (decodeReduceLoop P buf (n / P.clen) tmp x) P.R2_VAL

/-- `set_rand` / `rand`, fp_gen.rs:1405-1417: `bytes` is what the random generator wrote into the
`ENCODED_LENGTH + 16` byte buffer. -/
def fpRand (P : FpParams) (bytes : List UInt8) : Limbs := fpDecodeReduce P bytes

/-! ### Exponentiation and roots -/

/-- `set_pow_ext`, fp_gen.rs:1086-1100: the loop for bit index `eoff + k - 1` downwards;
`none` is the out-of-bounds panic on `e[i >> 3]`. -/
def fpPowLoop (P : FpParams) (x : Limbs) (e : List UInt8) (eoff : Nat) :
    Nat → Limbs → Option Limbs
  | 0, r => some r
  | k + 1, r =>
    let i := eoff + k
    match e[i >>> 3]? with
    | none => none
    | some b =>
      let y := fpMul P r x
      let ctl : UInt32 := -((b >>> UInt8.ofNat (i &&& 7)).toUInt32 &&& 1)
      let r := fpCond r y ctl
      if i = eoff then some r else fpPowLoop P x e eoff k (fpSquare P r)

/-- `set_pow_ext` / `pow_ext`, fp_gen.rs:1086-1100. -/
def fpPowExt (P : FpParams) (x : Limbs) (e : List UInt8) (eoff ebitlen : Nat) : Option Limbs :=
  fpPowLoop P x e eoff ebitlen P.R_VAL

/-- `BigUint::to_bytes_le` (num-bigint): minimal little-endian bytes, `[0]` for zero. -/
def toBytesLe (n : Nat) : List UInt8 :=
  if n < 256 then [UInt8.ofNat n] else UInt8.ofNat n :: toBytesLe (n / 256)
decreasing_by omega

/-- `pow_big`, fp_gen.rs:1111-1115 (`e.bits()` is the bit length). -/
def fpPowBig (P : FpParams) (x : Limbs) (e : Nat) : Option Limbs :=
  fpPowExt P x (toBytesLe e) 0 (if e = 0 then 0 else Nat.log2 e + 1)

/-- The window table, fp_gen.rs:960-968: entries `ww[0..k]`; entry `i` is `ww[i/2]²` for odd `i`
and `self * ww[i-1]` for even `i` (the table is initialised with `self`). -/
def winTable (P : FpParams) (x : Limbs) : Nat → List Limbs
  | 0 => [x]
  | i + 1 =>
    let ww := winTable P x i
    ww ++ [if (i + 2) % 2 = 0 then fpSquare P (ww.getD ((i + 1) >>> 1) [])
           else fpMul P x (ww.getD i [])]

/-- Square-and-multiply with window digits (most significant first), fp_gen.rs:974-981. -/
def winLoop (P : FpParams) (ww : List Limbs) : List Nat → Limbs → Limbs
  | [], r => r
  | d :: ds, r =>
    let r := (fpSquare P)^[P.WIN_LEN] r
    winLoop P ww ds (if d ≠ 0 then fpMul P r (ww.getD (d - 1) []) else r)

/-- The fixed exponentiation of `set_sqrt` and `set_fourth_root`, fp_gen.rs:960-986 and
1022-1048: high digits `eh` (least significant first) followed by `el` zero digits. -/
def winPow (P : FpParams) (x : Limbs) (eh : List Nat) (el : Nat) : Limbs :=
  let ww := winTable P x (2 ^ P.WIN_LEN - 2)
  match eh.reverse with
  | [] => []
  | d :: ds =>
    let r := winLoop P ww ds (ww.getD (d - 1) [])
    (fpSquare P)^[P.WIN_LEN * el] r

/-- The clean-up at the end of both root routines, fp_gen.rs:991-1001 and 1053-1063. -/
def rootFinish (P : FpParams) (x : Limbs) (r : UInt32) : Limbs :=
  let x := x.map (· &&& ctl64 r)
  let ctl : UInt32 := -(((fpEncode P x).headD 0).toUInt32 &&& 1)
  fpCondNeg P x ctl

/-- `set_sqrt`, fp_gen.rs:958-1002. -/
def fpSqrt (P : FpParams) (a : Limbs) : Limbs × UInt32 :=
  let x := winPow P a P.SQRT_EH P.SQRT_EL
  let r := fpEquals (fpSquare P x) a
  (rootFinish P x r, r)

/-- `set_fourth_root`, fp_gen.rs:1020-1064. -/
def fpFourthRoot (P : FpParams) (a : Limbs) : Limbs × UInt32 :=
  let x := winPow P a P.FOURTH_ROOT_EH P.FOURTH_ROOT_EL
  let r := fpEquals (fpSquare P (fpSquare P x)) a
  (rootFinish P x r, r)

/-- `hashcode`, fp_gen.rs:1421-1423. -/
def fpHashcode (a : Limbs) : UInt64 := a.headD 0

end Festa

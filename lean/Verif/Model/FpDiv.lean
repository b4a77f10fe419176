import Verif.Model.Fp
/-
Model of the constant-time binary GCD routines of `/repo/src/finitefield/fp_gen.rs`:
division (`set_div`), inversion and the Legendre symbol, together with their helpers
`set_montylin` and `set_lindiv31abs`.
-/
namespace Festa

/-- `(f ^ sf).wrapping_sub(sf)`: conditional negation of a word under a sign mask,
fp_gen.rs:655, 658, 720, 722, 870-873. -/
def condNegW (f s : UInt64) : UInt64 := (f ^^^ s) - s

/-- The product loop of `set_montylin`, fp_gen.rs:661-667 (the first iteration, which calls
`umull_x2`, is the case of a zero carry). -/
def linLoop (f g : UInt64) : Limbs → Limbs → UInt64 → Limbs × UInt64
  | u :: us, v :: vs, cc =>
    let (d, hi) := umullX2Add u f v g cc
    let (ds, r) := linLoop f g us vs hi
    (d :: ds, r)
  | _, _, cc => ([], cc)

/-- The division by `2^64` at the end of `set_montylin`, fp_gen.rs:670-696. -/
def montylinRed (P : FpParams) (t : Limbs) (up : UInt64) : Limbs :=
  match t, P.MODULUS with
  | t0 :: ts, m0 :: ms =>
    let k := t0 * P.P0I
    let (_, cc) := umullAdd k m0 t0
    let (ds, cc) := macLoop k ms ts cc
    let (d, cc1) := addcarry up cc false
    finalSub P (ds ++ [d]) cc1
  | _, _ => []

/-- `set_montylin` / `montylin`, fp_gen.rs:652-704. -/
def fpMontylin (P : FpParams) (u v : Limbs) (f g : UInt64) : Limbs :=
  let sf := sgnw f
  let f := condNegW f sf
  let tu := fpSelect u (fpNeg P u) sf.toUInt32
  let sg := sgnw g
  let g := condNegW g sg
  let tv := fpSelect v (fpNeg P v) sg.toUInt32
  let (t, up) := linLoop f g tu tv 0
  montylinRed P t up

/-- Product loop of `set_lindiv31abs`, fp_gen.rs:725-736. -/
def lindivLoop (sf f sg g : UInt64) : Limbs → Limbs → Bool → Bool → UInt64 →
    Limbs × Bool × Bool × UInt64
  | a :: as, b :: bs, cc1, cc2, cc3 =>
    let (d1, ee1) := subborrow (a ^^^ sf) sf cc1
    let (d2, ee2) := subborrow (b ^^^ sg) sg cc2
    let (d3, hi3) := umullX2Add d1 f d2 g cc3
    let (ds, r) := lindivLoop sf f sg g as bs ee1 ee2 hi3
    (d3 :: ds, r)
  | _, _, cc1, cc2, cc3 => ([], cc1, cc2, cc3)

/-- Right shift by 31 bits with `up` above the top word, fp_gen.rs:742-745. -/
def shr31 : Limbs → UInt64 → Limbs
  | x :: y :: xs, up => ((x >>> 31) ||| (y <<< 33)) :: shr31 (y :: xs) up
  | [x], up => [(x >>> 31) ||| (up <<< 33)]
  | [], _ => []

/-- Conditional negation of a limb vector under the mask `w`, fp_gen.rs:748-754. -/
def negLoop (w : UInt64) : Limbs → Bool → Limbs
  | x :: xs, cc =>
    let (d, ee) := subborrow (x ^^^ w) w cc
    d :: negLoop w xs ee
  | [], _ => []

/-- `set_lindiv31abs` / `lindiv31abs`, fp_gen.rs:716-764. -/
def fpLindiv31abs (a b : Limbs) (f g : UInt64) : Limbs × UInt64 :=
  let sf := sgnw f
  let f := condNegW f sf
  let sg := sgnw g
  let g := condNegW g sg
  let (d, cc1, cc2, cc3) := lindivLoop sf f sg g a b false false 0
  let up := cc3 - ((-cc1.toUInt64) &&& f) - ((-cc2.toUInt64) &&& g)
  let w := sgnw up
  (negLoop w (shr31 d up) false, w)

/-- State of the scan for the top words, fp_gen.rs:808-813. -/
structure Scan where
  c_hi : UInt64
  c_lo : UInt64
  a_hi : UInt64
  a_lo : UInt64
  b_hi : UInt64
  b_lo : UInt64

/-- One iteration of the scan, fp_gen.rs:814-824. -/
def Scan.step (s : Scan) (w : UInt64 × UInt64) : Scan :=
  let aw := w.1
  let bw := w.2
  let mw := aw ||| bw
  { a_hi := s.a_hi ^^^ ((s.a_hi ^^^ aw) &&& s.c_hi)
    a_lo := s.a_lo ^^^ ((s.a_lo ^^^ aw) &&& s.c_lo)
    b_hi := s.b_hi ^^^ ((s.b_hi ^^^ bw) &&& s.c_hi)
    b_lo := s.b_lo ^^^ ((s.b_lo ^^^ bw) &&& s.c_lo)
    c_lo := s.c_hi
    c_hi := s.c_hi &&& (((mw ||| -mw) >>> 63) - 1) }

/-- The 64-bit approximations `(xa, xb)` of `a` and `b`, fp_gen.rs:808-840 (division) and
1153-1185 (Legendre symbol, same text). -/
def gcdApprox (a b : Limbs) : UInt64 × UInt64 :=
  let sc := (List.zip a b).reverse.foldl Scan.step
    ⟨0xFFFFFFFFFFFFFFFF, 0xFFFFFFFFFFFFFFFF, 0, 0, 0, 0⟩
  let s := lzcnt (sc.a_hi ||| sc.b_hi)
  let xa := (sc.a_hi <<< s) ||| ((sc.a_lo >>> 1) >>> (63 - s))
  let xb := (sc.b_hi <<< s) ||| ((sc.b_lo >>> 1) >>> (63 - s))
  let xa := (xa &&& 0xFFFFFFFF80000000) ||| (a.headD 0 &&& 0x000000007FFFFFFF)
  let xb := (xb &&& 0xFFFFFFFF80000000) ||| (b.headD 0 &&& 0x000000007FFFFFFF)
  (xa ^^^ (sc.c_lo &&& (xa ^^^ a.headD 0)), xb ^^^ (sc.c_lo &&& (xb ^^^ b.headD 0)))

/-- State of the inner loop: the approximations and the packed update factors,
fp_gen.rs:843-844. -/
structure Inner where
  xa : UInt64
  xb : UInt64
  fg0 : UInt64
  fg1 : UInt64
deriving DecidableEq

/-- `(xa & 1).wrapping_neg()`, fp_gen.rs:846, 897, 1191, 1225, 1274. -/
def aOdd (xa : UInt64) : UInt64 := -(xa &&& 1)

/-- The mask `swap`, fp_gen.rs:847-848, 898-899, 1192-1193, 1226-1227, 1275-1276. -/
def swapMask (xa xb : UInt64) : UInt64 := aOdd xa &&& -((subborrow xa xb false).2.toUInt64)

/-- One inner iteration, fp_gen.rs:845-859. -/
def Inner.step (s : Inner) : Inner :=
  let a_odd := aOdd s.xa
  let swap := swapMask s.xa s.xb
  let t1 := swap &&& (s.xa ^^^ s.xb)
  let xa := s.xa ^^^ t1
  let xb := s.xb ^^^ t1
  let t2 := swap &&& (s.fg0 ^^^ s.fg1)
  let fg0 := s.fg0 ^^^ t2
  let fg1 := s.fg1 ^^^ t2
  { xa := (xa - (a_odd &&& xb)) >>> 1
    xb := xb
    fg0 := fg0 - (a_odd &&& fg1)
    fg1 := fg1 <<< 1 }

/-- Extraction of the factors from a packed word, fp_gen.rs:860-865 (also 1210-1215, 1248-1253): `(f, g)`. -/
def unpackFG (fg : UInt64) : UInt64 × UInt64 :=
  let fg := fg + 0x7FFFFFFF7FFFFFFF
  ((fg &&& 0xFFFFFFFF) - 0x7FFFFFFF, (fg >>> 32) - 0x7FFFFFFF)

/-- State of the outer loop of the division, fp_gen.rs:791-794. -/
structure DivState where
  a : Limbs
  b : Limbs
  u : Limbs
  v : Limbs

/-- One outer iteration of the division, fp_gen.rs:801-880. -/
def divRound (P : FpParams) (s : DivState) : DivState :=
  let (xa, xb) := gcdApprox s.a s.b
  let r := Inner.step^[31] ⟨xa, xb, 1, (1 : UInt64) <<< 32⟩
  let (f0, g0) := unpackFG r.fg0
  let (f1, g1) := unpackFG r.fg1
  let (na, nega) := fpLindiv31abs s.a s.b f0 g0
  let (nb, negb) := fpLindiv31abs s.a s.b f1 g1
  let f0 := condNegW f0 nega
  let g0 := condNegW g0 nega
  let f1 := condNegW f1 negb
  let g1 := condNegW g1 negb
  { a := na
    b := nb
    u := fpMontylin P s.u s.v f0 g0
    v := fpMontylin P s.u s.v f1 g1 }

/-- State of the final loop of the division, fp_gen.rs:890-895. -/
structure Tail where
  xa : UInt64
  xb : UInt64
  f0 : UInt64
  g0 : UInt64
  f1 : UInt64
  g1 : UInt64
deriving DecidableEq

/-- One iteration of the final loop, fp_gen.rs:896-915. -/
def Tail.step (s : Tail) : Tail :=
  let a_odd := aOdd s.xa
  let swap := swapMask s.xa s.xb
  let t1 := swap &&& (s.xa ^^^ s.xb)
  let xa := s.xa ^^^ t1
  let xb := s.xb ^^^ t1
  let t2 := swap &&& (s.f0 ^^^ s.f1)
  let f0 := s.f0 ^^^ t2
  let f1 := s.f1 ^^^ t2
  let t3 := swap &&& (s.g0 ^^^ s.g1)
  let g0 := s.g0 ^^^ t3
  let g1 := s.g1 ^^^ t3
  { xa := (xa - (a_odd &&& xb)) >>> 1
    xb := xb
    f0 := f0 - (a_odd &&& f1)
    g0 := g0 - (a_odd &&& g1)
    f1 := f1 <<< 1
    g1 := g1 <<< 1 }

/-- `NUM1`, fp_gen.rs:800 and 1145. -/
def FpParams.num1 (P : FpParams) : Nat := (2 * P.BITLEN - 34) / 31

/-- `NUM2`, fp_gen.rs:882 and 1263. -/
def FpParams.num2 (P : FpParams) : Nat := 2 * P.BITLEN - 31 * P.num1 - 2

/-- `set_div`, fp_gen.rs:768-939: `x / y`. -/
def fpDiv (P : FpParams) (x y : Limbs) : Limbs :=
  let s := (divRound P)^[P.num1] ⟨y, P.MODULUS, x, fpZero P⟩
  let t := Tail.step^[P.num2] ⟨s.a.headD 0, s.b.headD 0, 1, 0, 0, 1⟩
  let r := fpMontylin P s.u s.v t.f1 t.g1
  let w := ~~~(fpIsZero y)
  let w := (w.toUInt64 <<< 32) ||| w.toUInt64
  fpMul P (r.map (· &&& w)) P.TFIXDIV_VAL

/-- `set_invert` / `invert`, fp_gen.rs:941-951. -/
def fpInvert (P : FpParams) (y : Limbs) : Limbs := fpDiv P P.R_VAL y

/-! ### Legendre symbol -/

/-- State of the first 29 inner iterations of `legendre`, fp_gen.rs:1188-1190. -/
structure LInner where
  s : Inner
  ls : UInt64

/-- One of the first 29 inner iterations of `legendre`, fp_gen.rs:1190-1206: the same update of
`(xa, xb, fg0, fg1)` as in the division, interleaved with the updates of `ls`. -/
def LInner.step (t : LInner) : LInner :=
  let swap := swapMask t.s.xa t.s.xb
  let ls := t.ls ^^^ (swap &&& ((t.s.xa &&& t.s.xb) >>> 1))
  let s := t.s.step
  { s := s, ls := ls ^^^ ((s.xb + 2) >>> 2) }

/-- State of the last two inner iterations of `legendre`, with refreshed low words,
fp_gen.rs:1216-1223. -/
structure LInner2 where
  s : Inner
  a0 : UInt64
  b0 : UInt64
  ls : UInt64

/-- One of the last two inner iterations, fp_gen.rs:1224-1245. -/
def LInner2.step (t : LInner2) : LInner2 :=
  let a_odd := aOdd t.s.xa
  let swap := swapMask t.s.xa t.s.xb
  let ls := t.ls ^^^ (swap &&& ((t.a0 &&& t.b0) >>> 1))
  let t3 := swap &&& (t.a0 ^^^ t.b0)
  let a0 := t.a0 ^^^ t3
  let b0 := t.b0 ^^^ t3
  { s := t.s.step
    a0 := (a0 - (a_odd &&& b0)) >>> 1
    b0 := b0
    ls := ls ^^^ ((b0 + 2) >>> 2) }

/-- State of the outer loop of `legendre`, fp_gen.rs:1137-1139. -/
structure LegState where
  a : Limbs
  b : Limbs
  ls : UInt64

/-- One outer iteration of `legendre`, fp_gen.rs:1146-1261. -/
def legRound (s : LegState) : LegState :=
  let (xa, xb) := gcdApprox s.a s.b
  let r := LInner.step^[29] ⟨⟨xa, xb, 1, (1 : UInt64) <<< 32⟩, s.ls⟩
  let (f0, g0) := unpackFG r.s.fg0
  let (f1, g1) := unpackFG r.s.fg1
  let a0 := (s.a.headD 0 * f0 + s.b.headD 0 * g0) >>> 29
  let b0 := (s.a.headD 0 * f1 + s.b.headD 0 * g1) >>> 29
  let r := LInner2.step^[2] ⟨r.s, a0, b0, r.ls⟩
  let (f0, g0) := unpackFG r.s.fg0
  let (f1, g1) := unpackFG r.s.fg1
  let (na, nega) := fpLindiv31abs s.a s.b f0 g0
  let (nb, _) := fpLindiv31abs s.a s.b f1 g1
  { a := na, b := nb, ls := r.ls ^^^ (nega &&& (nb.headD 0 >>> 1)) }

/-- State of the final loop of `legendre`, fp_gen.rs:1271-1272. -/
structure LTail where
  xa : UInt64
  xb : UInt64
  ls : UInt64

/-- One iteration of the final loop of `legendre`, fp_gen.rs:1273-1284. -/
def LTail.step (t : LTail) : LTail :=
  let a_odd := aOdd t.xa
  let swap := swapMask t.xa t.xb
  let ls := t.ls ^^^ (swap &&& ((t.xa &&& t.xb) >>> 1))
  let t1 := swap &&& (t.xa ^^^ t.xb)
  let xa := t.xa ^^^ t1
  let xb := t.xb ^^^ t1
  { xa := (xa - (a_odd &&& xb)) >>> 1
    xb := xb
    ls := ls ^^^ ((xb + 2) >>> 2) }

/-- `legendre`, fp_gen.rs:1132-1292.  The result is the `u32` pattern of the `i32` returned:
0, 1 or `0xFFFFFFFF` (that is, -1). -/
def fpLegendre (P : FpParams) (a : Limbs) : UInt32 :=
  let s := legRound^[P.num1] ⟨a, P.MODULUS, 0⟩
  let t := LTail.step^[P.num2] ⟨s.a.headD 0, s.b.headD 0, s.ls⟩
  let r : UInt32 := (1 : UInt32) - ((t.ls.toUInt32 &&& (1 : UInt32)) <<< (1 : UInt32))
  r &&& ~~~(fpIsZero a)

end Festa

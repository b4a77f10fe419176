import Verif.Model.Fp
import Mathlib.Data.Int.GCD
/-!
The scripts that made the constants: precompute/gen_fp.sage (the constants of the field) and precompute/temp.py (arrays of words).
Sage integers are unbounded, so they are natural numbers here.  Not modelled: the text layout (`fmt_little_u64`, `fmt_list` and the
template `str`), and the draw of `NQR_RE_VAL`.
-/
namespace Festa

/-- `nbits`, the number of bits of an integer. -/
def nbits (n : Nat) : Nat := if n = 0 then 0 else n.log2 + 1

/-- The loop `while n: res.append(n % 2^w); n >>= w` with at most `fuel` rounds. -/
def digitsLoop (w : Nat) : Nat → Nat → List Nat
  | 0, _ => []
  | fuel + 1, n => if n = 0 then [] else n % 2 ^ w :: digitsLoop w fuel (n >>> w)

/-- The words of `to_little_u64`, gen_fp.sage:35-42 (`w = 64`), and `digits(2^5)`, gen_fp.sage:96, 107 (`w = 5`): least
significant first and none for the leading zeros. -/
def toDigits (w n : Nat) : List Nat := digitsLoop w (nbits n) n

/-- The loops for `SQRT_EL` and `FOURTH_ROOT_EL`, gen_fp.sage:87-93 and 98-104: from `k` downwards the first number such that
`2^(5 k)` divides `e`. -/
def lowLoop (e : Nat) : Nat → Nat
  | 0 => 0
  | k + 1 => if e % 2 ^ (5 * (k + 1)) = 0 then k + 1 else lowLoop e k

/-- The numbers printed by gen_fp.sage. -/
structure GenFp where
  N : Nat
  BITLEN : Nat
  MODULUS : List Nat
  HALF_MODULUS : List Nat
  R_VAL : List Nat
  MINUS_R_VAL : List Nat
  DR_VAL : List Nat
  TR_VAL : List Nat
  QR_VAL : List Nat
  R2_VAL : List Nat
  P0I : Nat
  TFIXDIV_VAL : List Nat
  TDEC_VAL : List Nat
  WIN_LEN : Nat
  SQRT_EH : List Nat
  SQRT_EL : Nat
  FOURTH_ROOT_EH : List Nat
  FOURTH_ROOT_EL : Nat
  P1 : Nat
  P1DIV_M : Nat

/-- `inverse_mod(-p, 2^64)`, gen_fp.sage:73, a Sage function: by the extended Euclidean algorithm. -/
def inverseMod64 (p : Nat) : Nat := ((Int.gcdA (-(p : Int)) (2 ^ 64)) % 2 ^ 64).toNat

/-- The exponent of `TFIXDIV_VAL`, gen_fp.sage:80-82, where the numbers may be negative for short moduli. -/
def fixExp (bitlen n : Nat) : Nat :=
  let n1 : Int := (2 * (bitlen : Int) - 34) / 31
  let n2 : Int := 2 * (bitlen : Int) - 31 * n1 - 2
  (33 * n1 + 64 - n2 + 2 * 64 * (n : Int)).toNat

/-- `P1`, gen_fp.sage:109 (for a modulus of less than 32 bits, `2^(BITLEN - 32)` is a fraction in Sage). -/
def genP1 (p : Nat) : Nat := if 32 ≤ nbits p then p / 2 ^ (nbits p - 32) else p * 2 ^ (32 - nbits p)

/-- The script gen_fp.sage for a modulus `p`, lines 62-110 and 125-177. -/
def genFp (p : Nat) : GenFp :=
  let bitlen := nbits p
  let n := (bitlen + 63) / 64
  let sq := (p + 1) / 4
  let sqEl := lowLoop sq bitlen
  let fo := (p + 1) / 8
  let foEl := lowLoop fo bitlen
  { N := n
    BITLEN := bitlen
    MODULUS := toDigits 64 p
    HALF_MODULUS := toDigits 64 ((p + 1) / 2)
    R_VAL := toDigits 64 (2 ^ (64 * n) % p)
    MINUS_R_VAL := toDigits 64 ((-(2 ^ (64 * n) : Int)) % p).toNat
    DR_VAL := toDigits 64 (2 ^ (64 * n + 1) % p)
    TR_VAL := toDigits 64 (3 * 2 ^ (64 * n) % p)
    QR_VAL := toDigits 64 (2 ^ (64 * n + 2) % p)
    R2_VAL := toDigits 64 (2 ^ (2 * 64 * n) % p)
    P0I := inverseMod64 p
    TFIXDIV_VAL := toDigits 64 (2 ^ fixExp bitlen n % p)
    TDEC_VAL := toDigits 64 (2 ^ (64 * (2 * n - 1)) % p)
    WIN_LEN := 5
    SQRT_EH := toDigits 5 (sq / 2 ^ (5 * sqEl))
    SQRT_EL := sqEl
    FOURTH_ROOT_EH := toDigits 5 (fo / 2 ^ (5 * foEl))
    FOURTH_ROOT_EL := foEl
    P1 := genP1 p
    P1DIV_M := 1 + (2 ^ 32 - genP1 p) * 2 ^ 64 / genP1 p }

/-- An array literal where `[u64; N]` is expected: the compiler rejects another number of entries. -/
def rustArray (n : Nat) (l : List Nat) : Option Limbs := if l.length = n then some (l.map UInt64.ofNat) else none

/-- An integer literal where `u64` is expected: the compiler rejects a larger number. -/
def rustU64 (n : Nat) : Option UInt64 := if n < 2 ^ 64 then some (UInt64.ofNat n) else none

/-- What the compiler makes of the printed module, gen_fp.sage:125-177 with the types given there (`none`: it does not compile). -/
def GenFp.compile (g : GenFp) : Option FpParams := do
  let modulus ← rustArray g.N g.MODULUS
  let half ← rustArray g.N g.HALF_MODULUS
  let r ← rustArray g.N g.R_VAL
  let mr ← rustArray g.N g.MINUS_R_VAL
  let dr ← rustArray g.N g.DR_VAL
  let tr ← rustArray g.N g.TR_VAL
  let qr ← rustArray g.N g.QR_VAL
  let r2 ← rustArray g.N g.R2_VAL
  let p0i ← rustU64 g.P0I
  let fix ← rustArray g.N g.TFIXDIV_VAL
  let dec ← rustArray g.N g.TDEC_VAL
  let p1 ← rustU64 g.P1
  let m ← rustU64 g.P1DIV_M
  some {
    N := g.N, BITLEN := g.BITLEN, MODULUS := modulus, HALF_MODULUS := half, R_VAL := r, MINUS_R_VAL := mr, DR_VAL := dr,
    TR_VAL := tr, QR_VAL := qr, R2_VAL := r2, P0I := p0i, TFIXDIV_VAL := fix, TDEC_VAL := dec, WIN_LEN := g.WIN_LEN,
    SQRT_EH := g.SQRT_EH, SQRT_EL := g.SQRT_EL, FOURTH_ROOT_EH := g.FOURTH_ROOT_EH, FOURTH_ROOT_EL := g.FOURTH_ROOT_EL,
    P1 := p1, P1DIV_M := m }

/-- `Array2Num`, temp.py:52-58: from the last element on, add and shift; undo the last shift. -/
def array2Num (array : List Nat) (nbyte : Nat) : Nat :=
  (array.reverse.foldl (fun num element => (num + element) <<< (nbyte <<< 3)) 0) >>> (nbyte <<< 3)

/-- `Num2Array`, temp.py:62-71: the words of a number, padded with zeros to `N` elements if `N` is not 0. -/
def num2Array (num nbyte : Nat) (N : Nat := 0) : List Nat :=
  let array := digitsLoop (nbyte <<< 3) (nbits num) num
  if N ≠ 0 then array ++ List.replicate (N - array.length) 0 else array

end Festa

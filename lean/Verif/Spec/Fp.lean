import Verif.Model.Fp
import Mathlib.Data.ZMod.Basic
import Mathlib.Data.Nat.Prime.Defs
/-
Specification vocabulary for the prime field: the integer value of a limb vector, reduced
vectors, the residue class a limb vector stands for, and the arithmetic relations that the
constants must satisfy.  Nothing here mentions the algorithms.
-/
namespace Festa

/-- Integer value of a little-endian limb vector. -/
def lval : Limbs → Nat
  | [] => 0
  | x :: xs => x.toNat + 2 ^ 64 * lval xs

/-- Integer value of a little-endian byte string. -/
def bval : List UInt8 → Nat
  | [] => 0
  | b :: bs => b.toNat + 256 * bval bs

/-- The modulus as an integer. -/
def FpParams.p (P : FpParams) : Nat := lval P.MODULUS

/-- The Montgomery radix `R = 2^(64 N)`. -/
def FpParams.R (P : FpParams) : Nat := (2 ^ 64) ^ P.N

/-- A limb vector of the right length holding an integer below the modulus: the representation
invariant of the Rust type. -/
def Reduced (P : FpParams) (x : Limbs) : Prop := x.length = P.N ∧ lval x < P.p

/-- `n` is the residue class represented by the limb vector `x` in Montgomery form:
`x = n * R mod p`. -/
def Rep (P : FpParams) (x : Limbs) (n : ZMod P.p) : Prop :=
  Reduced P x ∧ (lval x : ZMod P.p) = n * (P.R : ZMod P.p)

/-- Value of a digit list, least significant digit first, in base `2^w`. -/
def digitVal (w : Nat) : List Nat → Nat
  | [] => 0
  | d :: ds => d + 2 ^ w * digitVal w ds

/-- The relations among the constants that the arithmetic code relies on. -/
structure FpParams.Valid (P : FpParams) : Prop where
  N_two : 2 ≤ P.N
  len : P.MODULUS.length = P.N
  odd : P.p % 2 = 1
  three_le : 3 ≤ P.p
  bitlen : 2 ^ (P.BITLEN - 1) ≤ P.p ∧ P.p < 2 ^ P.BITLEN
  bitlen_N : 64 * (P.N - 1) < P.BITLEN ∧ P.BITLEN ≤ 64 * P.N
  bitlen_34 : 64 ≤ P.BITLEN
  room : 3 * P.p ≤ P.R
  p0i : (P.P0I.toNat * P.p + 1) % 2 ^ 64 = 0
  half_len : P.HALF_MODULUS.length = P.N
  half : lval P.HALF_MODULUS = (P.p + 1) / 2
  r_len : P.R_VAL.length = P.N
  r_val : lval P.R_VAL = P.R % P.p
  mr_len : P.MINUS_R_VAL.length = P.N
  mr_val : lval P.MINUS_R_VAL = P.p - P.R % P.p
  dr_len : P.DR_VAL.length = P.N
  dr_val : lval P.DR_VAL = 2 * P.R % P.p
  tr_len : P.TR_VAL.length = P.N
  tr_val : lval P.TR_VAL = 3 * P.R % P.p
  qr_len : P.QR_VAL.length = P.N
  qr_val : lval P.QR_VAL = 4 * P.R % P.p
  r2_len : P.R2_VAL.length = P.N
  r2_val : lval P.R2_VAL = P.R * P.R % P.p
  tdec_len : P.TDEC_VAL.length = P.N
  tdec_val : lval P.TDEC_VAL = (2 ^ 64) ^ (2 * P.N - 1) % P.p
  p1 : P.P1.toNat = P.p / 2 ^ (P.BITLEN - 32)
  p1div : P.P1DIV_M.toNat = 1 + (2 ^ 32 - P.P1.toNat) * 2 ^ 64 / P.P1.toNat
  win : 1 ≤ P.WIN_LEN

/-- Digits of a windowed exponent: in range, and the leading digit is not zero. -/
def WinDigits (w : Nat) (ds : List Nat) : Prop :=
  (∀ d ∈ ds, d < 2 ^ w) ∧ ∃ d, ds.getLast? = some d ∧ d ≠ 0

/-- The relations needed by the root routines: the modulus is a prime congruent to 7 modulo 8, and
the digit tables encode `(p+1)/4` and `(p+1)/8`. -/
structure FpParams.RootValid (P : FpParams) : Prop where
  prime : P.p.Prime
  mod8 : P.p % 8 = 7
  sqrt_digits : WinDigits P.WIN_LEN P.SQRT_EH
  sqrt_exp : digitVal P.WIN_LEN P.SQRT_EH * 2 ^ (P.WIN_LEN * P.SQRT_EL) = (P.p + 1) / 4
  fourth_digits : WinDigits P.WIN_LEN P.FOURTH_ROOT_EH
  fourth_exp : digitVal P.WIN_LEN P.FOURTH_ROOT_EH * 2 ^ (P.WIN_LEN * P.FOURTH_ROOT_EL)
    = (P.p + 1) / 8

end Festa

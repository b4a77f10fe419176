import Verif.Model.Theta
import Verif.Model.Isogeny
import Verif.Model.Festa
import Verif.Lemmas.Fq
/-!
Model of the implementations of `Display`.  A text is a list of characters.  `to_string` of a `BigInt` and a `BigUint` is
`Nat.toDigits 10`.
-/
namespace Festa

/-- Integer value of a little-endian byte string, as read by `BigInt::from_bytes_le`. -/
def leBytesVal : List UInt8 → Nat
  | [] => 0
  | b :: bs => b.toNat + 256 * leBytesVal bs

/-- `BigInt::to_string`, `BigUint::to_string`. -/
def decText (n : Nat) : List Char := Nat.toDigits 10 n

/-- `Display` of `Fp`, fp_gen.rs:1577-1584. -/
def fpText (P : FpParams) (a : Limbs) : List Char := decText (leBytesVal (fpEncode P a))

/-- `Display` of `Fp2`, fp2_gen.rs:816-828. -/
def fp2Text (P : FpParams) (a : Fp2) : List Char :=
  let r := fp2Encode P a
  let x0 := r.take P.encLen
  let x1 := r.drop P.encLen
  ['i', '*'] ++ decText (leBytesVal x1) ++ [' ', '+', ' '] ++ decText (leBytesVal x0)

/-- `Display` of `Fq`. -/
def Fq.text (a : Fq) : List Char := fp2Text festaFp a.1

/-- `Display` of `Point`, eccore.rs:121-129. -/
def Pt.text (P : Pt Fq) : List Char :=
  "Elliptic Curve Point: (".toList ++ P.X.text ++ [' ', ':', ' '] ++ P.Y.text ++ [' ', ':', ' '] ++ P.Z.text ++ [')']

/-- `Display` of `Curve`, eccore.rs:754-758. -/
def Crv.text (E : Crv Fq) : List Char := "Montgomery Curve with coefficient: ".toList ++ E.A.text

/-- `Display` of `CouplePoint`, eccore.rs:849-853. -/
def CPt.text (P : CPt Fq) : List Char := "Couple point with points:\n".toList ++ P.P1.text ++ ['\n'] ++ P.P2.text

/-- `Display` of `KummerLineIsogeny`, isogeny.rs:125-142; `alt` is the flag of the formatter.  (The codomain of an isogeny is
always set by `new`.) -/
def KIso.text (alt : Bool) (φ : KIso Fq) : List Char :=
  if alt then "domain ".toList ++ φ.domain.jInvariant.text ++ " -> codomain ".toList ++ φ.codomain.jInvariant.text
  else "domain ".toList ++ φ.domain.A.text ++ " -> codomain ".toList ++ φ.codomain.A.text

/-- `Display` of `ThetaPoint`, theta.rs:122-126. -/
def ThPt.text (P : ThPt Fq) : List Char := P.X.text ++ ['\n'] ++ P.Y.text ++ ['\n'] ++ P.Z.text ++ ['\n'] ++ P.T.text ++ ['\n']

/-- `Display` of `TrapdoorInput`, festa.rs:230-238. -/
def TrapdoorInput.text (m : TrapdoorInput) : List Char :=
  ['('] ++ decText m.s1 ++ [',', ' '] ++ decText m.s2 ++ [',', ' ', '('] ++ decText m.b11 ++ [',', ' '] ++ decText m.b22 ++
    [')', ')']

end Festa

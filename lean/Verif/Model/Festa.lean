import Verif.Model.FestaConsts
import Verif.Model.Entangled
import Verif.Model.Isogeny
import Verif.Model.Theta
/-
Model of `/repo/src/festa.rs`: keys, their encodings, and the trapdoor function with its inverse.

A panic is `none`; `chk` says that debug assertions and overflow checks are on.  The constants of
`fields.rs` read by this file are the fields of a structure, so that the statements are not about one
set of numbers only; `festaConsts` has the values of the code.  The random values drawn by `keygen`
are arguments.
-/
namespace Festa

/-- `Fq::encode`, `Fq::decode` (value and status word) and `Fq::ENCODED_LENGTH` as used by festa.rs;
the instance for the code's field is in `Verif/Lemmas/FqCodec.lean`. -/
class Codec (K : Type*) where
  encLen : Nat
  encode : K → List UInt8
  decode : List UInt8 → K × UInt32

/-- The slice `&v[off..off + len]`; a slice out of range panics. -/
def slice (v : List UInt8) (off len : Nat) : Option (List UInt8) :=
  if off + len ≤ v.length then some ((v.drop off).take len) else none

/-- `BigUint::from_bytes_le` of num-bigint, used in festa.rs:113, 115. -/
def fromBytesLe : List UInt8 → Nat
  | [] => 0
  | b :: bs => b.toNat + 256 * fromBytesLe bs

/-- The constants of `FpFESTAExt` read by festa.rs:9-12. -/
structure Consts where
  basisOrder : Nat
  d1 : Nat
  d2 : Nat
  dA1 : Nat
  dA2 : Nat
  m1 : Nat
  m2 : Nat
  f1 : Factored
  f2 : Factored
  fA1 : Factored
  fA2 : Factored
  lPower : UInt32
  thetaLen : Nat
  strategy : List Nat

/-- A table of `(u32, u32)` pairs. -/
def toFactored (f : List (Nat × Nat)) : Factored := f.map fun q => (UInt32.ofNat q.1, UInt32.ofNat q.2)

/-- The values, fields.rs:388-520. -/
def festaConsts : Consts where
  basisOrder := ofSlice BASIS_ORDER
  d1 := ofSlice D1
  d2 := ofSlice D2
  dA1 := ofSlice DA1
  dA2 := ofSlice DA2
  m1 := ofSlice M1
  m2 := ofSlice M2
  f1 := toFactored D1_FACTORED
  f2 := toFactored D2_FACTORED
  fA1 := toFactored DA1_FACTORED
  fA2 := toFactored DA2_FACTORED
  lPower := 634
  thetaLen := THETA_ISOGENY_LENGTH
  strategy := THETA_STRATEGY

/-! ### Keys and messages -/

/-- `PublicKey`, festa.rs:23-41. -/
structure PublicKey (K : Type*) where
  EA : Crv K
  RA : Pt K
  SA : Pt K
deriving DecidableEq

/-- `SecretKey`, festa.rs:44-73. -/
structure SecretKey (K : Type*) where
  EA' : Crv K
  P1 : Pt K
  Q1 : Pt K
  P2 : Pt K
  Q2 : Pt K
  a11 : Nat
  a22 : Nat
deriving DecidableEq

/-- `TrapdoorOutput`, festa.rs:131-154. -/
structure TrapdoorOutput (K : Type*) where
  E1 : Crv K
  R1 : Pt K
  S1 : Pt K
  E2 : Crv K
  R2 : Pt K
  S2 : Pt K
deriving DecidableEq

/-- `TrapdoorInput`, festa.rs:201-219. -/
structure TrapdoorInput where
  s1 : Nat
  s2 : Nat
  b11 : Nat
  b22 : Nat

/-- `TrapdoorInput::eq`, festa.rs:222-227. -/
def TrapdoorInput.eq (m n : TrapdoorInput) : Bool :=
  m.s1 == n.s1 && m.s2 == n.s2 && m.b11 == n.b11 && m.b22 == n.b22

section
variable {K : Type*} [Field K] [DecidableEq K] [Codec K]

/-- A number in 82 bytes, festa.rs:92-94 and 95-97: `82 - len` underflows for longer numbers, which
panics, or asks for a vector beyond every capacity, which panics too. -/
def encodeNat (a : Nat) : Option (List UInt8) :=
  let b := toBytesLe a
  if b.length ≤ 82 then some (b ++ List.replicate (82 - b.length) 0) else none

/-- `SecretKey::encode`, festa.rs:75-99. -/
def SecretKey.encode (sk : SecretKey K) : Option (List UInt8) :=
  let (x1, y1) := sk.P1.toXY
  let (x2, y2) := sk.Q1.toXY
  let (x3, y3) := sk.P2.toXY
  let (x4, y4) := sk.Q2.toXY
  let result := Codec.encode sk.EA'.A
    ++ Codec.encode x1 ++ Codec.encode y1 ++ Codec.encode x2 ++ Codec.encode y2
    ++ Codec.encode x3 ++ Codec.encode y3 ++ Codec.encode x4 ++ Codec.encode y4
  match encodeNat sk.a11, encodeNat sk.a22 with
  | some a11, some a22 => some (result ++ a11 ++ a22)
  | _, _ => none

/-- The decoding loops, festa.rs:107-112 and 182-187, with `n` elements left. -/
def decodeFields (chk : Bool) (v : List UInt8) : Nat → Nat → Option (List K)
  | 0, _ => some []
  | n + 1, off =>
    match slice v off (Codec.encLen K) with
    | none => none
    | some s =>
      let r := (Codec.decode s : K × UInt32)
      if chk && r.2 != 0xFFFFFFFF then none
      else
        match decodeFields chk v n (off + Codec.encLen K) with
        | none => none
        | some rest => some (r.1 :: rest)

/-- `SecretKey::decode`, festa.rs:101-128. -/
def SecretKey.decode (chk : Bool) (v : List UInt8) : Option (SecretKey K) :=
  if chk && v.length != Codec.encLen K * 9 + 82 * 2 then none
  else
    match (decodeFields chk v 9 0 : Option (List K)) with
    | some [A, x1, y1, x2, y2, x3, y3, x4, y4] =>
      let offset := Codec.encLen K * 9
      match slice v offset 82, slice v (offset + 82) 82, Crv.new A with
      | some a11, some a22, some E =>
        some ⟨E, Pt.newXY x1 y1, Pt.newXY x2 y2, Pt.newXY x3 y3, Pt.newXY x4 y4,
          fromBytesLe a11, fromBytesLe a22⟩
      | _, _, _ => none
    | _ => none

/-- `TrapdoorOutput::encode`, festa.rs:156-175. -/
def TrapdoorOutput.encode (c : TrapdoorOutput K) : List UInt8 :=
  let (R1x, R1y) := c.R1.toXY
  let (S1x, S1y) := c.S1.toXY
  let (R2x, R2y) := c.R2.toXY
  let (S2x, S2y) := c.S2.toXY
  Codec.encode c.E1.A ++ Codec.encode R1x ++ Codec.encode R1y ++ Codec.encode S1x ++ Codec.encode S1y
    ++ Codec.encode c.E2.A ++ Codec.encode R2x ++ Codec.encode R2y ++ Codec.encode S2x
    ++ Codec.encode S2y

/-- `TrapdoorOutput::decode`, festa.rs:177-197. -/
def TrapdoorOutput.decode (chk : Bool) (v : List UInt8) : Option (TrapdoorOutput K) :=
  if chk && v.length != Codec.encLen K * 10 then none
  else
    match (decodeFields chk v 10 0 : Option (List K)) with
    | some [A1, R1x, R1y, S1x, S1y, A2, R2x, R2y, S2x, S2y] =>
      match Crv.new A1, Crv.new A2 with
      | some E1, some E2 =>
        some ⟨E1, Pt.newXY R1x R1y, Pt.newXY S1x S1y, E2, Pt.newXY R2x R2y, Pt.newXY S2x S2y⟩
      | _, _ => none
    | _ => none

end

/-! ### The scheme -/

/-- `FESTACrypto`, festa.rs:240-253; `c` are the constants. -/
structure Crypto (K : Type*) where
  c : Consts
  E0 : Crv K
  l : Nat
  d1 : Nat
  d2 : Nat
  d1d2 : Nat
  invScalar : Nat
  clearD1 : Nat
  clearD2 : Nat
  clearLb : Nat
  g2 : Nat
  Pb : Pt K
  Qb : Pt K
  Pd1 : Pt K
  Qd1 : Pt K

section
variable {K : Type} [Field K] [DecidableEq K] [RootOps K]

/-- `FESTACrypto::new`, festa.rs:256-289. -/
def Crypto.new {F : Type} [Field F] [DecidableEq F] [CoeffOps F K] (chk : Bool) (fuel : Nat)
    (c : Consts) : Option (Crypto K) := do
  let E0 ← Crv.new (2 + 4 : K)
  let l := 2 ^ c.lPower.toNat
  let d1d2 := c.d1 * c.d2
  let clearD1 := (← xgcdBig c.d1 l) * c.d1
  let clearD2 := (← xgcdBig c.d2 l) * c.d2
  let clearLb := (← xgcdBig l c.d2) * l
  let (Pb, Qb) ← entangledBasis E0 (c.basisOrder / l)
  let (Pd1, Qd1) ← torsionBasis chk fuel E0 c.f1 c.lPower.toNat
  let invScalar ← xgcdBig (c.d1 * d1d2 * c.m1) l
  let g1 := c.m2 * c.dA2 * c.d2
  let g1Inv ← xgcdBig g1 l
  let g2 := c.m1 * c.d1 * g1Inv
  some ⟨c, E0, l, c.d1, c.d2, d1d2, invScalar, clearD1, clearD2, clearLb, g2, Pb, Qb, Pd1, Qd1⟩

/-- `keygen`, festa.rs:292-391.  `r11`, `r22` are the numbers drawn by `gen_biguint(L_POWER)`, and the
other arguments the randomness of the two random isogenies, one entry for each of the two steps. -/
def Crypto.keygen (chk : Bool) (fuel : Nat) (S : Crypto K) (r11 r22 : Nat)
    (drawsA1 drawsA2 : List (List (List (K × Bool)))) : Option (PublicKey K × SecretKey K) := do
  let a11 := r11 ||| 1
  let a22 := r22 ||| 1
  let (phiA1, EA') ← randomIsogeny chk S.c.fA1 drawsA1 S.E0
  let (phiA2, EA) ← randomIsogeny chk S.c.fA2 drawsA2 EA'
  let (PAd2', QAd2') ← torsionBasis chk fuel EA' S.c.f2 S.c.lPower.toNat
  let Pd1b := S.E0.add S.Pb S.Pd1
  let Qd1b := S.E0.add S.Qb S.Qd1
  let (_, (imPd1b, imQd1b)) ← evalChainBasis chk S.E0 (Pd1b, Qd1b) phiA1 (S.l * S.d1) S.c.dA1
  let imPb ← EA'.mulBig imPd1b S.clearD1
  let imQb ← EA'.mulBig imQd1b S.clearD1
  let Pbd2 := EA'.add imPb PAd2'
  let Qbd2 := EA'.add imQb QAd2'
  let (_, (imPbd2, imQbd2)) ← evalChainBasis chk EA' (Pbd2, Qbd2) phiA2 (S.l * S.d2) S.c.dA2
  let imPb ← EA.mulBig imPbd2 S.clearD2
  let imQb ← EA.mulBig imQbd2 S.clearD2
  let imPAd2 ← EA.mulBig imPbd2 S.clearLb
  let imQAd2 ← EA.mulBig imQbd2 S.clearLb
  let (PAd2, QAd2) ← torsionBasis chk fuel EA S.c.f2 S.c.lPower.toNat
  let ePQ ← weilPairing chk EA PAd2 QAd2 S.d2
  let (a1, b1) ← bidlp chk EA PAd2 imPAd2 imQAd2 S.c.f2 (some ePQ)
  let (a2, b2) ← bidlp chk EA QAd2 imPAd2 imQAd2 S.c.f2 (some ePQ)
  let imPAd2' := EA'.add (← EA'.mulBig PAd2' a1) (← EA'.mulBig QAd2' b1)
  let imQAd2' := EA'.add (← EA'.mulBig PAd2' a2) (← EA'.mulBig QAd2' b2)
  let R ← EA.mulBig imPb a11
  let S' ← EA.mulBig imQb a22
  if chk && pointHasFactoredOrder EA R [(2, S.c.lPower)] != some true then none
  else if chk && pointHasFactoredOrder EA S' [(2, S.c.lPower)] != some true then none
  else some (⟨EA, R, S'⟩, ⟨EA', imPd1b, imQd1b, imPAd2', imQAd2', a11, a22⟩)

/-- `trapdoor_eval`, festa.rs:399-417. -/
def Crypto.trapdoorEval (chk : Bool) (fuel : Nat) (S : Crypto K) (pk : PublicKey K)
    (m : TrapdoorInput) : Option (TrapdoorOutput K) := do
  let (phi1, E1) ← isogenyFromScalar chk fuel S.E0 S.c.f1 m.s1 none
  let (_, (imPb, imQb)) ← evalChainBasis chk S.E0 (S.Pb, S.Qb) phi1 S.l S.d1
  let (phi2, E2) ← isogenyFromScalar chk fuel pk.EA S.c.f2 m.s2 none
  let (_, (imR, imS)) ← evalChainBasis chk pk.EA (pk.RA, pk.SA) phi2 S.l S.d2
  let R1 ← E1.mulBig imPb m.b11
  let S1 ← E1.mulBig imQb m.b22
  let R2 ← E2.mulBig imR m.b11
  let S2 ← E2.mulBig imS m.b22
  some ⟨E1, R1, S1, E2, R2, S2⟩

omit [RootOps K] in
/-- `recover_diagB`, festa.rs:422-446. -/
def Crypto.recoverDiagB (chk : Bool) (S : Crypto K) (E : Crv K) (R Pb Qb : Pt K) :
    Option (Nat × Nat) := do
  let (alpha, _) ← bidlp chk E R Pb Qb [(2, S.c.lPower)] none
  let alpha := (S.invScalar * alpha) % S.l
  let beta := (← xgcdBig alpha S.l) % S.l
  if alpha > S.l >>> 1 then some (S.l - alpha, S.l - beta) else some (alpha, beta)

omit [RootOps K] in
/-- `recover_si_and_B`, festa.rs:451-498. -/
def Crypto.recoverSiAndB (chk : Bool) (S : Crypto K) (E : Crv K) (L1 L2 imPd1b imQd1b Pd2 Qd2 : Pt K) :
    Option TrapdoorInput := do
  let imPd1d2 ← E.mulBig L1 S.l
  let imQd1d2 ← E.mulBig L2 S.l
  let imPb ← E.mulBig L1 S.d1d2
  let imPd1 ← E.mulBig imPd1d2 S.d2
  let imQd1 ← E.mulBig imQd1d2 S.d2
  let imPd2 ← E.mulBig imPd1d2 S.d1
  let imQd2 ← E.mulBig imQd1d2 S.d1
  let phiPb ← E.mulBig imPd1b S.clearD1
  let phiQb ← E.mulBig imQd1b S.clearD1
  let phiPd1 ← E.mulBig imPd1b S.l
  let phiQd1 ← E.mulBig imQd1b S.l
  let s1 ← canonicalKernel chk E imPd1 imQd1 S.c.f1 phiPd1 phiQd1
  let s2 ← canonicalKernel chk E imPd2 imQd2 S.c.f2 Pd2 Qd2
  let (b11, b22) ← S.recoverDiagB chk E imPb phiPb phiQb
  some ⟨s1, s2, b11, b22⟩

/-- The choice of the factor isomorphic to `EA'`, festa.rs:562-579: with debug assertions the second
factor is checked, and so are the j-invariants in `CurveIsomorphism::new` (eccore.rs:804). -/
def chooseFactor (chk : Bool) (EA' : Crv K) (E34 : EProd K) (I1 I2 : CPt K) : Option (Pt K × Pt K) :=
  if E34.E1.jInvariant = EA'.jInvariant then
    if E34.E1.A = EA'.A then some (I1.P1, I2.P1)
    else
      let isom := CrvIso.new E34.E1 EA'
      some (isom.eval I1.P1, isom.eval I2.P1)
  else if chk && EA'.jInvariant ≠ E34.E2.jInvariant then none
  else if E34.E2.A = EA'.A then some (I1.P2, I2.P2)
  else
    let isom := CrvIso.new E34.E2 EA'
    some (isom.eval I1.P2, isom.eval I2.P2)

/-- `trapdoor_inverse`, festa.rs:503-582. -/
def Crypto.trapdoorInverse (chk : Bool) (fuel : Nat) (S : Crypto K) (c : TrapdoorOutput K)
    (sk : SecretKey K) : Option TrapdoorInput := do
  let R2' ← c.E2.mulBig c.R2 (← xgcdBig sk.a11 S.l)
  let S2' ← c.E2.mulBig c.S2 (← xgcdBig sk.a22 S.l)
  let (Pd1, Qd1) ← torsionBasis chk fuel c.E1 S.c.f1 S.c.lPower.toNat
  let (Pd2, Qd2) ← torsionBasis chk fuel c.E2 S.c.f2 S.c.lPower.toNat
  let glueP2 ← c.E2.mulBig R2' S.g2
  let glueQ2 ← c.E2.mulBig S2' S.g2
  let e1 ← weilPairing chk c.E1 (c.E1.doubleIter c.R1 2) (c.E1.doubleIter c.S1 2) (2 ^ S.c.thetaLen)
  let e2 ← weilPairing chk c.E2 (c.E2.doubleIter glueP2 2) (c.E2.doubleIter glueQ2 2) (2 ^ S.c.thetaLen)
  if chk && e1 * e2 ≠ 1 then none
  else do
    let L1 : CPt K := ⟨c.E1.add Pd1 c.R1, Pd2⟩
    let L2 : CPt K := ⟨c.E1.add Qd1 c.S1, Qd2⟩
    let (E34, images) ← productIsogeny ⟨c.E1, c.E2⟩ ⟨c.R1, glueP2⟩ ⟨c.S1, glueQ2⟩ [L1, L2]
      S.c.thetaLen S.c.strategy
    match images with
    | [I1, I2] =>
      let (L1, L2) ← chooseFactor chk sk.EA' E34 I1 I2
      S.recoverSiAndB chk sk.EA' L1 L2 sk.P1 sk.Q1 sk.P2 sk.Q2
    | _ => none

end
/-- `gen_random_trapdoor_input`, main.rs:10-23, as a function of the three drawn integers:
`s1 < d1` and `s2 < d2` from `gen_biguint_range`, `r < 2^(L_POWER - 1)` from `gen_biguint`.  `set_bit(0, true)`
is `||| 1`. -/
def genInput (c : Consts) (s1 s2 r : Nat) : Option TrapdoorInput :=
  let b11 := r ||| 1
  let l := 2 ^ c.lPower.toNat
  match xgcdBig b11 l with
  | none => none
  | some x => some ⟨s1, s2, b11, x % l⟩

end Festa

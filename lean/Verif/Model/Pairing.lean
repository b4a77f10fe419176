import Verif.Model.EC
import Verif.Model.DLog
/-
Model of `/repo/src/pairing.rs` and of `bidlp` (`/repo/src/discrete_log.rs:169-190`), over an
arbitrary field `K`.  As in `Verif/Model/DLog.lean`, `none` is a panic and the flag `chk` tells whether
debug assertions and overflow checks are compiled in.
-/
namespace Festa
section
variable {K : Type*} [Field K] [DecidableEq K]

/-- `eval_line`, pairing.rs:9-35.  The coordinates of the point at infinity are `(0, 0)`. -/
def evalLine (chk : Bool) (E : Crv K) (P Q R : Pt K) : Option K :=
  let Px := P.toXY.1
  let Py := P.toXY.2
  let Qx := Q.toXY.1
  let Qy := Q.toXY.2
  if chk && (P.isInf || Q.isInf) then none
  else if P.equals Q then
    if Py = 0 then some (R.X + (-Px) * R.Z)
    else
      let lambda := (3 * (Px * Px) + 2 * (E.A * Px) + 1) / (2 * Py)
      some (-lambda * R.X + R.Y + (-Py + lambda * Px) * R.Z)
  else if P.equals Q.neg then some (R.X + (-Px) * R.Z)
  else
    let lambda := (Qy - Py) / (Qx - Px)
    some (-lambda * R.X + R.Y + (-Py + lambda * Px) * R.Z)

/-- The common part of the doubling and of the addition step, pairing.rs:45-50, 54-59: `f` is
multiplied by the line through `V` and `W` over the vertical line of `S = V + W`. -/
def millerStep (chk : Bool) (E : Crv K) (f : K) (V W S Q : Pt K) : Option K :=
  match evalLine chk E V W Q with
  | none => none
  | some l =>
    if S.isInf then some (f * l / Q.Z)
    else
      match evalLine chk E S S.neg Q with
      | none => none
      | some v => some (f * l / v)

/-- The loop of `tate_pairing`, pairing.rs:43-63, for the bits `k-1, …, 0` of the order. -/
def millerLoop (chk : Bool) (E : Crv K) (P Q : Pt K) (order : Nat) : Nat → K → Pt K → Option (K × Pt K)
  | 0, f, V => some (f, V)
  | t + 1, f, V =>
    let S := E.double V
    match millerStep chk E (f * f) V V S Q with
    | none => none
    | some f =>
      let V := S
      if order.testBit t then
        let S := E.add V P
        match millerStep chk E f V P S Q with
        | none => none
        | some f => millerLoop chk E P Q order t f S
      else millerLoop chk E P Q order t f V

/-- `tate_pairing`, pairing.rs:39-72; `bits() - 1` underflows for order zero. -/
def tatePairing (chk : Bool) (E : Crv K) (P Q : Pt K) (order : Nat) : Option K :=
  if order = 0 then none
  else
    match millerLoop chk E P Q order (Nat.log2 order) 1 P with
    | none => none
    | some (f, V) =>
      if chk && !V.isInf then none
      else if f = 0 then some 1
      else some f

/-- `weil_pairing`, pairing.rs:75-84. -/
def weilPairing (chk : Bool) (E : Crv K) (P Q : Pt K) (order : Nat) : Option K :=
  match tatePairing chk E P Q order, tatePairing chk E Q P order with
  | some ePQ, some eQP =>
    if order.testBit 0 then some (-ePQ / eQP) else some (ePQ / eQP)
  | _, _ => none

/-- `bidlp`, discrete_log.rs:169-190. -/
def bidlp (chk : Bool) (E : Crv K) (R P Q : Pt K) (fs : Factored) (ePQ : Option K) :
    Option (Nat × Nat) :=
  let order := fs.value
  let pairPQ := match ePQ with
    | some x => some x
    | none => weilPairing chk E P Q order
  match pairPQ, weilPairing chk E R Q order, weilPairing chk E R P.neg order with
  | some pq, some pa, some pb =>
    match phDlp chk pa pq fs, phDlp chk pb pq fs with
    | some a, some b => some (a, b)
    | _, _ => none
  | _, _, _ => none

end
end Festa

import Mathlib.Algebra.Field.Defs
import Mathlib.Logic.Function.Iterate
/-
Model of `/repo/src/discrete_log.rs` except `bidlp` (in `Verif/Model/Pairing.lean`), over an
arbitrary field `K` (the code's field is `Fq` of `Verif/Lemmas/Fq.lean`).

`BigUint` is `Nat`, `BigInt` is `Int`.  `pow_small`, `pow_big` of the field code are powers (C56),
`invert` is the inverse with `0` for `0` (C19).  Panics are `none`.  The flag `chk` tells whether the
code is built with overflow checks (`true`: debug and test builds, an overflow panics; `false`:
release builds, an overflow wraps).
-/
namespace Festa

/-- A factored integer, `&[(u32, u32)]`. -/
abbrev Factored := List (UInt32 × UInt32)

/-- The `while` loop of `xgcd_big`, discrete_log.rs:21-26; the second cofactors `t1`, `t2` are kept
as in the code. -/
def xgcdLoop (m n : Nat) (s1 t1 s2 t2 : Int) : Int :=
  if h : n = 0 then s1
  else
    let q := m / n
    let r := m - q * n
    xgcdLoop n r s2 t2 (s1 - q * s2) (t1 - q * t2)
termination_by n
decreasing_by
  have h1 := Nat.div_add_mod m n
  have h2 := Nat.mod_lt m (Nat.pos_of_ne_zero h)
  rw [Nat.mul_comm] at h1
  omega

/-- `xgcd_big`, discrete_log.rs:11-35; the remainder by zero panics. -/
def xgcdBig (a b : Nat) : Option Nat :=
  let s1 := if a < b then xgcdLoop b a 0 1 1 0 else xgcdLoop a b 1 0 0 1
  if b = 0 then none
  else
    let s1 := s1.tmod b
    let s1 := if s1 < 0 then s1 + b else s1
    some s1.toNat

/-- The product `l1^e1 * l2^e2 * ...`, discrete_log.rs:40-44 (also 177-179). -/
def Factored.value (fs : Factored) : Nat :=
  fs.foldl (fun s p => s * p.1.toNat ^ p.2.toNat) 1

/-- The cofactor of `l`, discrete_log.rs:48-53. -/
def crtCofactor (fs : Factored) (l : UInt32) : Nat :=
  fs.foldl (fun c p => if p.1 ≠ l then c * p.1.toNat ^ p.2.toNat else c) 1

/-- The loop of `compute_crt`, discrete_log.rs:46-56; the remainders are consumed in step with the
factors (`remainder_list[i]` panics when there are fewer). -/
def crtLoop (fs : Factored) (modulus : Nat) : Factored → List Nat → Nat → Option Nat
  | [], _, acc => some acc
  | (l, e) :: s, rs, acc =>
    let factor := l.toNat ^ e.toNat
    let cofactor := crtCofactor fs l
    match xgcdBig cofactor factor, rs with
    | some inv, r :: rs => if modulus = 0 then none
        else crtLoop fs modulus s rs ((acc + r * inv * cofactor) % modulus)
    | _, _ => none

/-- `compute_crt`, discrete_log.rs:38-58. -/
def computeCrt (rs : List Nat) (fs : Factored) : Option Nat :=
  crtLoop fs fs.value fs rs 0

/-- The loop and the end of `sqrt_floor`, discrete_log.rs:66-83; `fuel` bounds the number of
iterations (C36 shows that it suffices). -/
def sqrtLoop (chk : Bool) (n : UInt32) : Nat → UInt32 → UInt32 → Option UInt32
  | 0, _, _ => none
  | fuel + 1, f, b =>
    if chk && decide (f.toNat + 1 ≥ 2 ^ 32) then none
    else if f + 1 < b then
      if chk && decide (f.toNat + b.toNat ≥ 2 ^ 32) then none
      else
        let x := (f + b) / 2
        let sqr := x.toUInt64 * x.toUInt64
        if sqr > n.toUInt64 then sqrtLoop chk n fuel f x
        else if sqr < n.toUInt64 then sqrtLoop chk n fuel x b
        else some x
    else if chk && decide (b.toNat * b.toNat ≥ 2 ^ 32) then none
    else if b * b = n then some b
    else some f

/-- `sqrt_floor`, discrete_log.rs:61-84. -/
def sqrtFloor (chk : Bool) (n : UInt32) : Option UInt32 :=
  if n = 1 then some 1 else sqrtLoop chk n (n.toNat + 1) 0 n

section
variable {K : Type*} [Field K] [DecidableEq K]

/-- The baby-step table, discrete_log.rs:91-94: the entries and the final `gamma`. -/
def babySteps (alpha : K) : Nat → UInt32 → K → List (UInt32 × K) × K
  | 0, _, g => ([], g)
  | k + 1, i, g =>
    let r := babySteps alpha k (i + 1) (g * alpha)
    ((i, g) :: r.1, r.2)

/-- The giant steps, discrete_log.rs:98-105. -/
def giantSteps (tbl : List (UInt32 × K)) (inv : K) (m order : UInt32) :
    Nat → UInt32 → K → Option UInt32
  | 0, _, _ => none
  | k + 1, i, t =>
    match tbl.find? (fun p => decide (p.2 = t)) with
    | some (j, _) => if order = 0 then none else some ((i * m + j) % order)
    | none => giantSteps tbl inv m order k (i + 1) (t * inv)

/-- `bsgs`, discrete_log.rs:87-106. -/
def bsgs (chk : Bool) (beta alpha : K) (order : UInt32) : Option UInt32 :=
  match sqrtFloor chk order with
  | none => none
  | some s =>
    let m := s + 1
    let b := babySteps alpha m.toNat 0 1
    giantSteps b.1 b.2⁻¹ m order m.toNat 0 beta

/-- `n` successive calls of `pow_small(l)`, discrete_log.rs:115-117, 127-129, 154-157. -/
def powIter (x : K) (l : UInt32) (n : Nat) : K := (fun y => y ^ l.toNat)^[n] x

/-- The loop of `ph_dlp_power`, discrete_log.rs:124-139; `k` iterations left, `li` is the power of
`l`. -/
def phLoop (chk : Bool) (beta alpha gamma : K) (l : UInt32) : Nat → Nat → Nat → Option Nat
  | 0, _, x => some x
  | k + 1, li, x =>
    let h := powIter (beta * (alpha ^ x)⁻¹) l k
    if chk && !decide (h ^ l.toNat = 1) then none
    else
      match bsgs chk h gamma l with
      | none => none
      | some d =>
        if chk && !decide (gamma ^ d.toNat = h) then none
        else phLoop chk beta alpha gamma l k (li * l.toNat) (x + li * d.toNat)

/-- `ph_dlp_power`, discrete_log.rs:110-142.  For `e = 0` the loop bound `e - 1` overflows; without
overflow checks the first loop then runs `2^32 - 1` times and has no effect on the result. -/
def phDlpPower (chk : Bool) (beta alpha : K) (l e : UInt32) : Option Nat :=
  if e = 0 then (if chk then none else some 0)
  else
    let gamma := powIter alpha l (e.toNat - 1)
    if chk && !(!decide (gamma = 1) && decide (gamma ^ l.toNat = 1)) then none
    else phLoop chk beta alpha gamma l e.toNat 1 0

/-- Raising to the cofactor of `l`, discrete_log.rs:150-159. -/
def cofPow (x : K) (l : UInt32) (fs : Factored) : K :=
  fs.foldl (fun y p => if p.1 ≠ l then powIter y p.1 p.2.toNat else y) x

/-- The loop of `ph_dlp`, discrete_log.rs:149-162. -/
def phDlpLoop (chk : Bool) (beta alpha : K) (fs : Factored) : Factored → Option (List Nat)
  | [] => some []
  | (l, e) :: s =>
    match phDlpPower chk (cofPow beta l fs) (cofPow alpha l fs) l e with
    | none => none
    | some x =>
      match phDlpLoop chk beta alpha fs s with
      | none => none
      | some xs => some (x :: xs)

/-- `ph_dlp`, discrete_log.rs:147-165. -/
def phDlp (chk : Bool) (beta alpha : K) (fs : Factored) : Option Nat :=
  match phDlpLoop chk beta alpha fs fs with
  | none => none
  | some xs => computeCrt xs fs

end
end Festa

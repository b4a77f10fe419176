import Verif.Model.Pairing
import Verif.Model.FestaConsts
/-
Model of `/repo/src/supersingular.rs` except the isogeny functions, over an arbitrary field `K`.
`none` is a panic; the flag `chk` is as in `Verif/Model/DLog.lean`.
-/
namespace Festa

/-- `D_top` and `pis`, supersingular.rs:18-24 and 81-87; `e - 1` underflows for `e = 0` (without
overflow checks the power `l^(2^32-1)` is asked for; treated as a panic too). -/
def topAndPrimes : Factored → Nat → List Nat → Option (Nat × List Nat)
  | [], top, pis => some (top, pis)
  | (l, e) :: fs, top, pis =>
    if e = 0 then none
    else topAndPrimes fs (top * l.toNat ^ (e.toNat - 1)) (pis ++ [l.toNat])

/-- The product of `pis[lower..upper]`, supersingular.rs:48-56, 105-113 (`none`: index panic). -/
def slicePi (pis : List Nat) (lower upper : Nat) : Option Nat :=
  if upper ≤ pis.length then some ((pis.drop lower).take (upper - lower)).prod else none

/-- `batch_cofactor_mul`, supersingular.rs:33-63 and 96-120, for the multiplication `pw`.  For
`lower = upper` the recursion would not end (this never happens, see `hasFactoredOrder`). -/
def batchCofactor {G : Type*} (pw : G → Nat → Option G) (pis : List Nat) (lower upper : Nat)
    (g : List G) : Option (List G) :=
  if lower > upper then none
  else if upper - lower = 1 then some g
  else if h : upper = lower then none
  else
    let mid := lower + (upper - lower + 1) / 2
    match slicePi pis lower mid, slicePi pis mid upper, g[lower]? with
    | some cu, some cl, some x =>
      match pw x cu, pw x cl with
      | some y, some z =>
        if mid < g.length then
          match batchCofactor pw pis lower mid ((g.set mid y).set lower z) with
          | none => none
          | some g => batchCofactor pw pis mid upper g
        else none
      | _, _ => none
    | _, _, _ => none
termination_by upper - lower
decreasing_by all_goals omega

/-- The common text of `point_has_factored_order`, supersingular.rs:17-77, and
`has_factored_order`, 80-137: `pw` is the scalar multiplication (or power), `isId` the comparison with
the neutral element `e0`. -/
def orderTest {G : Type*} (pw : G → Nat → Option G) (isId : G → Bool) (e0 : G) (v : G)
    (fs : Factored) : Option Bool :=
  match topAndPrimes fs 1 [] with
  | none => none
  | some (top, pis) =>
    match pw v top with
    | none => none
    | some gTop =>
      if isId gTop then some false
      else if pis.length = 0 then none
      else
        let g := (List.replicate pis.length e0).set 0 gTop
        if pis.length > 1 then
          match batchCofactor pw pis 0 pis.length g with
          | none => none
          | some g => some (g.foldl (fun s x => s && !isId x) true)
        else some true

section
variable {K : Type*} [Field K] [DecidableEq K]

/-- `point_has_factored_order`, supersingular.rs:17-77.  (The first test is `equals(&INFINITY)`, the
last ones `isinfinity()`; both are `Z = 0`.) -/
def pointHasFactoredOrder (E : Crv K) (P : Pt K) (fs : Factored) : Option Bool :=
  orderTest E.mulBig (fun Q => Q.isInf) Pt.inf P fs

/-- `has_factored_order`, supersingular.rs:80-137. -/
def hasFactoredOrder (v : K) (fs : Factored) : Option Bool :=
  orderTest (fun x n => some (x ^ n)) (fun x => decide (x = 1)) 1 v fs

/-- `clear_cofactor`, supersingular.rs:141-145. -/
def clearCofactor (E : Crv K) (P : Pt K) (k evenPower : Nat) : Option (Pt K) :=
  E.mulBig (E.doubleIter P evenPower) (k >>> evenPower)

/-- The body of the loops of the two generators, supersingular.rs:161-173, 193-203: `none` a panic,
`some none` for `continue`, `some (some T)` for `return T`. -/
def torsionCandidate (E : Crv K) (X : Pt K) (cofactor : Nat) (fs : Factored) (evenPower : Nat) :
    Option (Option (Pt K)) :=
  match clearCofactor E X cofactor evenPower with
  | none => none
  | some T =>
    if T.isInf then some none
    else
      match pointHasFactoredOrder E T fs with
      | none => none
      | some false => some none
      | some true => some (some T)

/-- `generate_random_point_order_factored_D`, supersingular.rs:148-177; `cands` are the points drawn
(the code draws at most 1000). -/
def randomPointOrder (E : Crv K) (cands : List (Pt K)) (fs : Factored) (evenPower : Nat) :
    Option (Pt K) :=
  if fs.value = 0 then none
  else
    let cofactor := ofSlice BASIS_ORDER / fs.value
    let rec go : List (Pt K) → Option (Pt K)
      | [] => some Pt.inf
      | X :: rest =>
        match torsionCandidate E X cofactor fs evenPower with
        | none => none
        | some (some T) => some T
        | some none => go rest
    go (cands.take 1000)

variable [RootOps K]

/-- The loop over `E.iter()` of `generate_point_order_factored_D`, supersingular.rs:192-204; `none` is
a panic or the fuel running out (the Rust loop would go on). -/
def pointOrderLoop (E : Crv K) (cofactor : Nat) (fs : Factored) (evenPower : Nat) :
    Nat → CrvIter K → Option (Pt K)
  | 0, _ => none
  | fuel + 1, it =>
    match it.next with
    | (none, _) => some Pt.inf
    | (some X, it) =>
      match torsionCandidate E X cofactor fs evenPower with
      | none => none
      | some (some T) => some T
      | some none => pointOrderLoop E cofactor fs evenPower fuel it

/-- `generate_point_order_factored_D`, supersingular.rs:180-207. -/
def pointOrder (fuel : Nat) (E : Crv K) (fs : Factored) (evenPower : Nat) : Option (Pt K) :=
  if fs.value = 0 then none
  else pointOrderLoop E (ofSlice BASIS_ORDER / fs.value) fs evenPower fuel (CrvIter.new E.A)

/-- The body of the loop of `torsion_basis`, supersingular.rs:218-235. -/
def basisCandidate (chk : Bool) (E : Crv K) (P X : Pt K) (cofactor : Nat) (fs : Factored)
    (evenPower : Nat) : Option (Option (Pt K)) :=
  match clearCofactor E X cofactor evenPower with
  | none => none
  | some Q =>
    if P.equals Q || Q.isInf then some none
    else
      match E.mulBig Q fs.value with
      | none => none
      | some T =>
        if !T.isInf then some none
        else
          match pointHasFactoredOrder E Q fs with
          | none => none
          | some false => some none
          | some true =>
            match weilPairing chk E P Q fs.value with
            | none => none
            | some ePQ =>
              match hasFactoredOrder ePQ fs with
              | none => none
              | some false => some none
              | some true => some (some Q)

/-- The loop of `torsion_basis`, supersingular.rs:217-236. -/
def basisLoop (chk : Bool) (E : Crv K) (P : Pt K) (cofactor : Nat) (fs : Factored)
    (evenPower : Nat) : Nat → CrvIter K → Option (Pt K × Pt K)
  | 0, _ => none
  | fuel + 1, it =>
    match it.next with
    | (none, _) => some (Pt.inf, Pt.inf)
    | (some X, it) =>
      match basisCandidate chk E P X cofactor fs evenPower with
      | none => none
      | some (some Q) => some (P, Q)
      | some none => basisLoop chk E P cofactor fs evenPower fuel it

/-- `torsion_basis`, supersingular.rs:210-239. -/
def torsionBasis (chk : Bool) (fuel : Nat) (E : Crv K) (fs : Factored) (evenPower : Nat) :
    Option (Pt K × Pt K) :=
  match pointOrder fuel E fs evenPower with
  | none => none
  | some P =>
    basisLoop chk E P (ofSlice BASIS_ORDER / fs.value) fs evenPower fuel (CrvIter.new E.A)

omit [RootOps K]

/-- The inverses modulo one prime power, supersingular.rs:345-350. -/
def kernelCoeffs (a1 a2 : Nat) (l e : UInt32) : Option (Nat × Nat) :=
  let di := l.toNat ^ e.toNat
  if l = 0 then none
  else if a1 % l.toNat = 0 then (xgcdBig a2 di).map (fun t => (0, t))
  else (xgcdBig a1 di).map (fun t => (t, 0))

/-- The loop over the factors, supersingular.rs:344-354. -/
def kernelCoeffList (a1 a2 : Nat) : Factored → Option (List (Nat × Nat))
  | [] => some []
  | (l, e) :: fs =>
    match kernelCoeffs a1 a2 l e, kernelCoeffList a1 a2 fs with
    | some t, some ts => some (t :: ts)
    | _, _ => none

/-- The end of `compute_canonical_kernel`, supersingular.rs:341-359, from the coordinates of the two
points. -/
def kernelScalar (a1 b1 a2 b2 : Nat) (fs : Factored) : Option Nat :=
  match kernelCoeffList a1 a2 fs with
  | none => none
  | some ts =>
    match computeCrt (ts.map Prod.fst) fs, computeCrt (ts.map Prod.snd) fs with
    | some t1, some t2 => if fs.value = 0 then none else some ((t1 * b1 + t2 * b2) % fs.value)
    | _, _ => none

/-- `compute_canonical_kernel`, supersingular.rs:322-360, for a given basis (without one the basis is
that of `torsionBasis`). -/
def canonicalKernel (chk : Bool) (E : Crv K) (imP imQ : Pt K) (fs : Factored) (P Q : Pt K) :
    Option Nat :=
  match weilPairing chk E P Q fs.value with
  | none => none
  | some ePQ =>
    match bidlp chk E imP P Q fs (some ePQ), bidlp chk E imQ P Q fs (some ePQ) with
    | some (a1, b1), some (a2, b2) => kernelScalar a1 b1 a2 b2 fs
    | _, _ => none

end
end Festa

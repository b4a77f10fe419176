import Verif.Model.EC
import Verif.Model.Pairing
import Verif.Model.Supersingular
/-!
Model of src/isogeny.rs and of the isogeny functions of src/supersingular.rs.  `none` is a panic; `chk`
says whether debug assertions and overflow checks are compiled in.
-/
namespace Festa
variable {K : Type*} [Field K] [DecidableEq K]

/-- `KummerLineIsogeny`, isogeny.rs:17-23.  The code's `codomain` is an `Option` that is filled in by
`new`; here the value after `new` is meant. -/
structure KIso (K : Type*) where
  domain : Crv K
  codomain : Crv K
  kernel : Pt K
  degree : UInt64
  multiples : List (K × K)

/-- `precompute_edwards_multiples`, isogeny.rs:53-60, with `iter` the current point. -/
def edwardsMultiples (E : Crv K) (kernel : Pt K) : Nat → Pt K → List (K × K)
  | 0, _ => []
  | d + 1, iter =>
    let iter := E.add iter kernel
    (iter.X - iter.Z, iter.X + iter.Z) :: edwardsMultiples E kernel d iter

/-- The codomain constant `A / C` of `compute_codomain_constants`, isogeny.rs:64-95 (`pow_big` is the
power, C56). -/
def codomainConstant (A : K) (degree : UInt64) (ms : List (K × K)) : K :=
  let C : K := 1
  let Ded := C + C
  let Aed := A + Ded
  let Ded := A - Ded
  let prod_y := ms.foldl (fun y p => y * p.1) 1
  let prod_z := ms.foldl (fun z p => z * p.2) 1
  let (prod_y, prod_z) := (prod_y * prod_y, prod_z * prod_z)
  let (prod_y, prod_z) := (prod_y * prod_y, prod_z * prod_z)
  let (prod_y, prod_z) := (prod_y * prod_y, prod_z * prod_z)
  let Aed := Aed ^ degree.toNat * prod_z
  let Ded := Ded ^ degree.toNat * prod_y
  let A := Aed + Ded
  let C := Aed - Ded
  let A := A + A
  A / C

/-- `KummerLineIsogeny::new` with `compute_codomain_constants`, isogeny.rs:28-44 and 64-99. -/
def KIso.new (chk : Bool) (domain : Crv K) (kernel : Pt K) (degree : UInt64) : Option (KIso K) :=
  if chk && kernel.isInf then none
  else if chk && ((domain.mulSmall kernel degree).map Pt.isInf != some true) then none
  else if chk && degree == 0 then none
  else
    let ms := edwardsMultiples domain kernel ((degree - 1) / 2).toNat Pt.inf
    match Crv.new (codomainConstant domain.A degree ms) with
    | none => none
    | some E => some ⟨domain, E, kernel, degree, ms⟩

variable [RootOps K]

/-- `evaluate_isogeny`, isogeny.rs:103-123. -/
def KIso.eval (f : KIso K) (P : Pt K) : Pt K :=
  let p_sum := P.X + P.Z
  let p_diff := P.X - P.Z
  let x_new := f.multiples.foldl (fun x e => x * (p_diff * e.2 + e.1 * p_sum)) 1
  let z_new := f.multiples.foldl (fun z e => z * (p_diff * e.2 - e.1 * p_sum)) 1
  let x_new := x_new * x_new * P.X
  let z_new := z_new * z_new * P.Z
  (f.codomain.completePointX ⟨x_new, z_new⟩).1

/-- `evaluate_isogeny_chain`, isogeny.rs:147-161. -/
def evalChain (domain : Crv K) (P : Pt K) (chain : List (KIso K)) : Crv K × Pt K :=
  match chain.getLast? with
  | none => (domain, P)
  | some last => (last.codomain, chain.foldl (fun Q f => f.eval Q) P)

/-- `evaluate_isogeny_chain_for_basis`, isogeny.rs:165-187. -/
def evalChainBasis (chk : Bool) (domain : Crv K) (basis : Pt K × Pt K) (chain : List (KIso K))
    (torsionOrder isogenyDegree : Nat) : Option (Crv K × (Pt K × Pt K)) :=
  let (P, Q) := basis
  let (codomain, imP) := evalChain domain P chain
  let (_, imQ) := evalChain domain Q chain
  match weilPairing chk domain P Q torsionOrder, weilPairing chk codomain imP imQ torsionOrder with
  | some e0, some e1 =>
    let imQ := if e0 ^ isogenyDegree = e1 then imQ else imQ.neg
    some (codomain, (imP, imQ))
  | _, _ => none

/-- The loops `Q = E.mul_small(&Q, l)` repeated, isogeny.rs:222-224 and 250-252. -/
def mulSmallIter (E : Crv K) (l : UInt64) : Nat → Pt K → Option (Pt K)
  | 0, Q => some Q
  | n + 1, Q =>
    match E.mulSmall Q l with
    | none => none
    | some Q => mulSmallIter E l n Q

/-- `recursive_sparse_isogeny`, isogeny.rs:205-235.  `fuel` bounds the depth of the recursion; `k` is
enough (C46).  With `k = 0` the code panics on `k - 1`, or recurses without end when overflow checks
are off: `none`. -/
def recSparse (chk : Bool) : Nat → Crv K → Pt K → UInt64 → Nat → Option (List (KIso K))
  | 0, _, _, _, _ => none
  | fuel + 1, E, Q, l, k =>
    if k = 0 then none
    else if k = 1 then (KIso.new chk E Q l).map fun f => [f]
    else
      let k1 := max 1 (min (k - 1) ((k * 8 + 5) / 10))
      match mulSmallIter E l k1 Q with
      | none => none
      | some Q1 =>
        match recSparse chk fuel E Q1 l (k - k1) with
        | none => none
        | some L =>
          let (coE, Q2) := evalChain E Q L
          match recSparse chk fuel coE Q2 l k1 with
          | none => none
          | some R => some (L ++ R)

/-- The inner loop of `factored_kummer_isogeny`, isogeny.rs:247-254. -/
def kernelCofactor (E : Crv K) (l : UInt32) : Factored → Pt K → Option (Pt K)
  | [], Q => some Q
  | (l1, e1) :: rest, Q =>
    if l ≠ l1 then
      match mulSmallIter E l1.toUInt64 e1.toNat Q with
      | none => none
      | some Q => kernelCofactor E l rest Q
    else kernelCofactor E l rest Q

/-- The outer loop of `factored_kummer_isogeny`, isogeny.rs:246-261. -/
def factoredLoop (chk : Bool) (order : Factored) : Factored → Crv K → Pt K → Option (List (KIso K))
  | [], _, _ => some []
  | (l, e) :: rest, curve, P =>
    match kernelCofactor curve l order P with
    | none => none
    | some Q =>
      match recSparse chk e.toNat curve Q l.toUInt64 e.toNat with
      | none => none
      | some psi =>
        let (curve, P) := evalChain curve P psi
        match factoredLoop chk order rest curve P with
        | none => none
        | some phi => some (psi ++ phi)

/-- `factored_kummer_isogeny`, isogeny.rs:192-266. -/
def factoredIsogeny (chk : Bool) (domain : Crv K) (kernel : Pt K) (order : Factored) :
    Option (List (KIso K)) := factoredLoop chk order order domain kernel

/-- `isogeny_from_scalar_x_only`, supersingular.rs:394-410; `torsionFuel` bounds the search of
`torsion_basis` (`L_POWER` is 634). -/
def isogenyFromScalar (chk : Bool) (torsionFuel : Nat) (E : Crv K) (fs : Factored) (m : Nat)
    (basis : Option (Pt K × Pt K)) : Option (List (KIso K) × Crv K) :=
  let pq := match basis with
    | some x => some x
    | none => torsionBasis chk torsionFuel E fs 634
  match pq with
  | none => none
  | some (P, Q) =>
    match E.mulBig Q m with
    | none => none
    | some mQ =>
      match factoredIsogeny chk E (E.add P mQ) fs with
      | none => none
      | some phi => phi.getLast?.map fun f => (phi, f.codomain)

/-- `random_isogeny_x_only`, supersingular.rs:363-386, with one list entry for each of the `steps`: the
randomness of the points drawn by `generate_random_point_order_factored_D` (see `Crv.randPoint`; a
supply that runs out gives no point). -/
def randomIsogeny (chk : Bool) (fs : Factored) :
    List (List (List (K × Bool))) → Crv K → Option (List (KIso K) × Crv K)
  | [], E => some ([], E)
  | draws :: rest, E =>
    match randomPointOrder E (draws.filterMap E.randPoint) fs 634 with
    | none => none
    | some P =>
      match factoredIsogeny chk E P fs with
      | none => none
      | some phi =>
        match phi.getLast? with
        | none => none
        | some f =>
          match randomIsogeny chk fs rest f.codomain with
          | none => none
          | some (phis, E') => some (phi ++ phis, E')

end Festa

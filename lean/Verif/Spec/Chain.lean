import Verif.Spec.Theta
/-! Reference notions for chains of (2,2)-isogenies that end in a product of elliptic curves. -/
namespace Festa
variable {K : Type*} [Field K]

/-- Exactly one of the ten even theta constants of the null point vanishes, and not the one the code
has no splitting matrix for.  This is the null point of a product of two elliptic curves. -/
def OneVanishes (O : ThPt K) : Prop :=
  ∃ c i : Fin 4, Even (parity c i) ∧ (c, i) ≠ (0, 0) ∧
    ∀ c' i', Even (parity c' i') → (evenConst O c' i' = 0 ↔ (c', i') = (c, i))

/-- None of the ten even theta constants of the null point vanishes.  This is the null point of a Jacobian. -/
def NoneVanishes (O : ThPt K) : Prop := ∀ c i, Even (parity c i) → evenConst O c i ≠ 0

/-- The kernel points `T1, T2` with doubles `D1, D2` are in the position the formulas of the last step
need.  (Before the last step a coordinate of the null point may vanish, and does in the scheme; the doubling
formula then cannot be used, so the doubles are to be computed before.) -/
structure LastKernel (T1 T2 D1 D2 : ThPt K) : Prop where
  y1 : D1.Y = 0
  t1 : D1.T = 0
  z2 : D2.Z = 0
  t2 : D2.T = 0
  nx1 : T1.sqTheta.X ≠ 0
  nx2 : T2.sqTheta.X ≠ 0
  ny2 : T2.sqTheta.Y ≠ 0

/-- The chain with `r` steps to go from null point `O` with kernel points `K1, K2` stays among the
null points none of whose even theta constants vanishes, with kernel points in the position the formulas
need, until it ends in a product after the last step. -/
def ProdChain : Nat → ThPt K → ThPt K → ThPt K → Prop
  | r + 3, O, K1, K2 =>
    let T1 := (ThStr.new O).doubleIter K1 (r + 2)
    let T2 := (ThStr.new O).doubleIter K2 (r + 2)
    ThNull O ∧ NoneVanishes O ∧ Kernel8 O T1 T2 ∧
      ProdChain (r + 2) (isoNull O T1 T2) (isoImage O T1 T2 K1) (isoImage O T1 T2 K2)
  | 2, O, K1, K2 =>
    let T1 := (ThStr.new O).double K1
    let T2 := (ThStr.new O).double K2
    let f := isoImage O T1 T2
    let O' := isoNull O T1 T2
    ThNull O ∧ NoneVanishes O ∧ Kernel8 O T1 T2 ∧ NoneVanishes O' ∧ LastKernel (f K1) (f K2) (f T1) (f T2) ∧
      OneVanishes (isoNull O' (f K1) (f K2))
  | _, _, _, _ => False

end Festa

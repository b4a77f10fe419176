import Verif.Spec.Chain
/-! Reference notion for chains of (2,2)-isogenies that stay among Jacobians until their last step. -/
namespace Festa
variable {K : Type*} [Field K]

/-- The points `D1`, `D2` of order four are in the position the formulas for a step expect. -/
structure Aligned (D1 D2 : ThPt K) : Prop where
  y1 : D1.Y = 0
  t1 : D1.T = 0
  z2 : D2.Z = 0
  t2 : D2.T = 0

/-- The chain with `r` steps to go from null point `O` with kernel points `K1, K2` stays among the null points none of whose
even theta constants vanishes, up to the last step without a vanishing coordinate, and with the doubles of the kernel points
in the position the formulas expect.  Nothing is asked of the null point the chain ends with, and nothing of the denominators
in the formulas. -/
def JacChain : Nat → ThPt K → ThPt K → ThPt K → Prop
  | r + 3, O, K1, K2 =>
    let T1 := (ThStr.new O).doubleIter K1 (r + 2)
    let T2 := (ThStr.new O).doubleIter K2 (r + 2)
    ThNull O ∧ NoneVanishes O ∧ Aligned ((ThStr.new O).double T1) ((ThStr.new O).double T2) ∧
      JacChain (r + 2) (isoNull O T1 T2) (isoImage O T1 T2 K1) (isoImage O T1 T2 K2)
  | 2, O, K1, K2 =>
    let T1 := (ThStr.new O).double K1
    let T2 := (ThStr.new O).double K2
    let f := isoImage O T1 T2
    let O' := isoNull O T1 T2
    ThNull O ∧ NoneVanishes O ∧ Aligned ((ThStr.new O).double T1) ((ThStr.new O).double T2) ∧
      NoneVanishes O' ∧ Aligned (f T1) (f T2)
  | _, _, _, _ => False

/-- The null point before the last step of the chain with `r + 2` steps. -/
def penNull : Nat → ThPt K → ThPt K → ThPt K → ThPt K
  | 0, O, K1, K2 => isoNull O ((ThStr.new O).double K1) ((ThStr.new O).double K2)
  | r + 1, O, K1, K2 =>
    let T1 := (ThStr.new O).doubleIter K1 (r + 2)
    let T2 := (ThStr.new O).doubleIter K2 (r + 2)
    penNull r (isoNull O T1 T2) (isoImage O T1 T2 K1) (isoImage O T1 T2 K2)

end Festa

import Verif.Spec.Theta
import Verif.Model.Theta
/-! When triples of coordinates are the same point. -/
namespace Festa
variable {K : Type*} [Field K]

/-- Two triples are the same projective point. -/
def Pt.Same (P Q : Pt K) : Prop := ∃ c : K, c ≠ 0 ∧ Q = ⟨c * P.X, c * P.Y, c * P.Z⟩

/-- The same holds of both components. -/
def CPt.Same (P Q : CPt K) : Prop := P.P1.Same Q.P1 ∧ P.P2.Same Q.P2

/-- Two triples are the same point up to sign; `Z = 0` is the point at infinity whatever the other coordinates. -/
def Pt.SameX (P Q : Pt K) : Prop := (P.Z = 0 ∧ Q.Z = 0) ∨ P.Same Q ∨ P.Same ⟨Q.X, -Q.Y, Q.Z⟩

/-- The same holds of both components. -/
def CPt.SameX (P Q : CPt K) : Prop := P.P1.SameX Q.P1 ∧ P.P2.SameX Q.P2

end Festa

import Verif.Spec.Trapdoor
import Mathlib.Algebra.QuadraticAlgebra.Basic
import Mathlib.Data.ZMod.Basic
import Mathlib.Algebra.Field.ZMod
import Mathlib.Tactic.NormNum.Prime
/-!
A small version of the scheme: the field with `239^2` elements, the orders `l = 16`, `d1 = 3`, `d2 = 5`.
-/
namespace Festa

instance fact239 : Fact (Nat.Prime 239) := ⟨by norm_num⟩

instance factSq239 : Fact (∀ r : ZMod 239, r ^ 2 ≠ -1 + 0 * r) := ⟨by decide +kernel⟩

/-- The field with `239^2` elements. -/
abbrev F239 := QuadraticAlgebra (ZMod 239) (-1) 0

/-- `y^2 = x^3 + 6x^2 + x`, whose group is the square of the cyclic group of order 240. -/
def e239 : Crv F239 := ⟨6, 2⟩

/-- A basis of it. -/
def r239 : Pt F239 := ⟨⟨3, 187⟩, ⟨17, 59⟩, 1⟩
@[inherit_doc r239]
def s239 : Pt F239 := ⟨⟨55, 104⟩, ⟨96, 132⟩, 1⟩

/-- The numbers of the small version. -/
def consts239 : Consts where
  basisOrder := 240
  d1 := 3
  d2 := 5
  dA1 := 1
  dA2 := 13
  m1 := 7
  m2 := 11
  f1 := [(3, 1)]
  f2 := [(5, 1)]
  fA1 := []
  fA2 := [(13, 1)]
  lPower := 4
  thetaLen := 0
  strategy := []

/-- And the values derived from them: `3 * 15 * 7 = 315` is 11 modulo 16. -/
def crypto239 : Crypto F239 where
  c := consts239
  E0 := e239
  l := 16
  d1 := 3
  d2 := 5
  d1d2 := 15
  invScalar := 3
  clearD1 := 33
  clearD2 := 65
  clearLb := 16
  g2 := 63
  Pb := r239
  Qb := s239
  Pd1 := r239
  Qd1 := s239

end Festa

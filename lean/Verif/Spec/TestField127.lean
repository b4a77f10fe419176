import Verif.Spec.Theta
import Mathlib.Algebra.QuadraticAlgebra.Basic
import Mathlib.Data.ZMod.Basic
import Mathlib.Algebra.Field.ZMod
import Mathlib.Tactic.NormNum.Prime
/-!
The field with `127^2` elements, with square roots by choice, and a kernel of a chain of four
(2,2)-isogenies from the square of the curve `y^2 = x^3 + x`.
-/
namespace Festa

instance fact127 : Fact (Nat.Prime 127) := ⟨by norm_num⟩

instance factSq127 : Fact (∀ r : ZMod 127, r ^ 2 ≠ -1 + 0 * r) := ⟨by decide +kernel⟩

/-- The field with `127^2` elements. -/
abbrev F127 := QuadraticAlgebra (ZMod 127) (-1) 0

open Classical in
/-- Square roots by choice, for any field of odd characteristic containing a root of `-1`. -/
noncomputable def rootOpsChoice {K : Type*} [Field K] (z : K) (hz : z * z = -1) (h2 : (2 : K) ≠ 0) :
    RootOps K where
  sqrt a := if h : IsSquare a then (h.choose, true) else (0, false)
  legendre a := if a = 0 then 0 else if IsSquare a then 1 else -1
  zeta := z
  sqrt_sq a h := by
    simp only [h, dif_pos]
    exact ⟨trivial, h.choose_spec.symm⟩
  sqrt_nonsq a h := by simp only [h, dif_neg, not_false_iff]
  legendre_zero a := by by_cases h : a = 0 <;> by_cases h' : IsSquare a <;> simp [h, h']
  legendre_one a := by by_cases h : a = 0 <;> by_cases h' : IsSquare a <;> simp [h, h']
  legendre_neg a := by
    by_cases h : a = 0
    · subst h; simp
    · by_cases h' : IsSquare a <;> simp [h, h']
  zeta_sq := hz
  two_ne := h2

noncomputable instance rootOps127 : RootOps F127 :=
  rootOpsChoice ⟨0, 1⟩ (by decide +kernel) (by decide +kernel)

/-- The square of the curve. -/
def e127 : EProd F127 := ⟨⟨0, 64⟩, ⟨0, 64⟩⟩

/-- Two points of order 64 on it, generating an isotropic group. -/
def p127 : CPt F127 := ⟨⟨⟨51, 105⟩, ⟨30, 110⟩, 1⟩, ⟨⟨83, 80⟩, ⟨117, 78⟩, 1⟩⟩
@[inherit_doc p127]
def q127 : CPt F127 := ⟨⟨⟨92, 49⟩, ⟨85, 50⟩, 1⟩, ⟨⟨77, 35⟩, ⟨87, 80⟩, 1⟩⟩

end Festa

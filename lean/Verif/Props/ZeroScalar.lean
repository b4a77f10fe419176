import Verif.Lemmas.ToyZeroData
import Verif.Props.SchemeCase
/-!
C54: an input with `s2 = 0` that is not recovered.
-/
namespace Festa

/-- C54: the condition on points of the first axis cannot be dropped.  In the small version of the scheme, which meets all
conditions on the constants and has a regular key pair, the trapdoor function has a value at an input in the range of the code
with `s2 = 0`, but the inversion of that value panics, in debug and in release builds.  The points brought to `EA'` are `135 P2`
and `139 P2`; the chain of 169 meets 5, and `5 · 135 = -1` modulo 169, so a Miller loop meets a zero. -/
theorem C54_zero_fails :
    toyS.Sound true ∧ toyS.Norm ∧ toyS.keygen true 20 toyr11 toyr22 toyDraws1 toyDraws2 = some (toyPk, toySk) ∧
    (toyzM.s1 < toyS.d1 ∧ toyzM.s2 = 0 ∧ toyzM.b11 * toyzM.b22 % toyS.l = 1 ∧ toyzM.b11 < toyS.l / 2 ∧ toyzM.b22 < toyS.l) ∧
    toyS.trapdoorEval true 20 toyPk toyzM = some toyzOut ∧
    toyS.trapdoorInverse true 20 toyzOut toySk = none ∧ toyS.trapdoorInverse false 20 toyzOut toySk = none :=
  ⟨toy_sound, toy_norm, toy_keygen, by decide +kernel, toyz_eval, toyz_inverse, toyz_inverse'⟩

end Festa

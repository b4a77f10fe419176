import Verif.Lemmas.Morrison
import Verif.Lemmas.FpPow
import Verif.Model.FestaParams
import Mathlib.Tactic.NormNum.Prime
/-! The FESTA constants satisfy the relations used by the arithmetic, and the modulus is prime. -/
namespace Festa

/-- The norm-one element of `(ℤ/p)[i]` used in the primality certificate (real part). -/
def certA : Nat := 25951294951028385932039272436622657716455552322815186061117613989081866249182305020992361588789970171429592800929762997711914859763356006173622605154487628442568557700898461157994803092403828567107261929219863855685997147250942540665710370771701360333964018919692375890053319515143616799697333996409108121823959738526283303696679574314821579469689574430953994267223503997337566771976212278

/-- The norm-one element of `(ℤ/p)[i]` used in the primality certificate (imaginary part). -/
def certB : Nat := 114927163354554280556173920790757484172874588858181538270663719094505407674950207950109029893212725044902482404117521847009908664666290884483185822827016640245660755532550327985405556552074097940046445686545111360895130223539888394376717356274677452907554940930066236084521843567064588684373907698383193110934678842044968916371009543394209851937196686765653403183418374845352081418751797227

theorem festa_prime : festaFp.p.Prime := by
  refine Morrison.prime_of_cert festaFp.p certA certB 41161 634 (2 ^ 634 * 41161) 1294
    (by norm_num) (by norm_num) ?_ ?_ ?_ rfl ?_ ?_ ?_ ?_ ?_ ?_ ?_ <;> decide +kernel

theorem festa_valid : festaFp.Valid := by
  constructor <;> decide +kernel

theorem winDigits_of (w : Nat) (ds : List Nat) (h : ds.all (· < 2 ^ w) = true)
    (h2 : (ds.getLast?.getD 0) ≠ 0) : WinDigits w ds := by
  refine ⟨by simpa using h, ?_⟩
  rcases hl : ds.getLast? with _ | d
  · rw [hl] at h2; simp at h2
  · rw [hl] at h2; exact ⟨d, rfl, by simpa using h2⟩

theorem festa_roots : festaFp.RootValid where
  prime := festa_prime
  mod8 := by decide +kernel
  sqrt_digits := winDigits_of _ _ (by decide +kernel) (by decide +kernel)
  sqrt_exp := by decide +kernel
  fourth_digits := winDigits_of _ _ (by decide +kernel) (by decide +kernel)
  fourth_exp := by decide +kernel

end Festa

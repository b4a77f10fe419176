import Verif.Spec.EC
import Verif.Model.Entangled
import Mathlib.Algebra.QuadraticAlgebra.Basic
import Mathlib.Data.ZMod.Basic
import Mathlib.Algebra.Field.ZMod
import Mathlib.Tactic.NormNum.Prime
/-!
The field with 49 elements, as `F_7[i]`, with a square root by search and the exponent
`(7 + 1) / 4 = 2`.
-/
namespace Festa

instance fact7 : Fact (Nat.Prime 7) := ⟨by norm_num⟩

instance fact49 : Fact (∀ r : ZMod 7, r ^ 2 ≠ -1 + 0 * r) := ⟨by decide⟩

/-- The field with 49 elements. -/
abbrev F49 := QuadraticAlgebra (ZMod 7) (-1) 0

/-- The elements. -/
def all49 : List F49 := (List.finRange 7).flatMap fun a => (List.finRange 7).map fun b =>
  (⟨(a : ZMod 7), (b : ZMod 7)⟩ : F49)

theorem mem_all49 (a : F49) : a ∈ all49 := by
  obtain ⟨x, y⟩ := a
  revert x y
  decide +kernel

/-- Square root by search. -/
def sqrt49 (a : F49) : F49 × Bool :=
  match all49.find? (fun r => r * r = a) with
  | some r => (r, true)
  | none => (0, false)

theorem sqrt49_sq (a : F49) (h : IsSquare a) :
    (sqrt49 a).2 = true ∧ (sqrt49 a).1 * (sqrt49 a).1 = a := by
  unfold sqrt49
  rcases hf : all49.find? (fun r => r * r = a) with _ | r
  · exfalso
    obtain ⟨r, hr⟩ := h
    rw [List.find?_eq_none] at hf
    exact hf r (mem_all49 r) (by simp [hr])
  · have := List.find?_some hf
    simp only [decide_eq_true_eq] at this
    exact ⟨rfl, this⟩

theorem sqrt49_nonsq (a : F49) (h : ¬ IsSquare a) : sqrt49 a = (0, false) := by
  unfold sqrt49
  rcases hf : all49.find? (fun r => r * r = a) with _ | r
  · rfl
  · have := List.find?_some hf
    simp only [decide_eq_true_eq] at this
    exact absurd ⟨r, this.symm⟩ h

theorem sqrt49_iff (a : F49) : (sqrt49 a).2 = true ↔ IsSquare a := by
  by_cases h : IsSquare a
  · simp [h, (sqrt49_sq a h).1]
  · simp [h, sqrt49_nonsq a h]

instance rootOps49 : RootOps F49 where
  sqrt := sqrt49
  legendre a := if a = 0 then 0 else if (sqrt49 a).2 then 1 else -1
  zeta := ⟨0, 1⟩
  sqrt_sq := sqrt49_sq
  sqrt_nonsq := sqrt49_nonsq
  legendre_zero a := by
    by_cases h : a = 0
    · simp [h]
    · cases hs : (sqrt49 a).2 <;> simp [h]
  legendre_one a := by
    rw [← sqrt49_iff]
    by_cases h : a = 0
    · simp [h]
    · cases hs : (sqrt49 a).2 <;> simp [h]
  legendre_neg a := by
    rw [← sqrt49_iff]
    by_cases h : a = 0
    · subst h
      have : (sqrt49 0).2 = true := (sqrt49_iff 0).mpr ⟨0, by simp⟩
      simp [this]
    · cases hs : (sqrt49 a).2 <;> simp [h]
  zeta_sq := by decide +kernel
  two_ne := by decide +kernel

instance coeffOps49 : CoeffOps (ZMod 7) F49 where
  new a b := ⟨a, b⟩
  coeff t := (t.re, t.im)
  rootExp := 2
  new_coeff _ := rfl
  coeff_new _ _ := rfl
  new_add _ _ _ _ := rfl
  new_mul a b c d := by apply QuadraticAlgebra.ext <;> simp [sub_eq_add_neg]
  new_neg _ _ := rfl
  new_one := rfl
  new_zeta := rfl
  pow_rootExp := by decide +kernel
  two_ne' := by decide +kernel

end Festa

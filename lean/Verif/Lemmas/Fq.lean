import Verif.Lemmas.Fp2Root
import Verif.Lemmas.FestaParams
import Mathlib.Algebra.Field.MinimalAxioms
import Mathlib.Algebra.CharP.Algebra
/-!
The Rust type `Fp2` as a field: the elements are the reduced limb pairs, and addition,
multiplication, negation, inversion, zero and one are the code's own routines.  Theorems proved for
an arbitrary field therefore apply to the code's arithmetic.
-/
namespace Festa

/-- Values of the Rust type `Fp2`: reduced limb pairs (the representation invariant). -/
def Fq := {a : Fp2 // Reduced2 festaFp a}

namespace Fq

theorem div_valid : festaFp.DivValid := C14_constant

instance : DecidableEq Fq := inferInstanceAs (DecidableEq {a : Fp2 // Reduced2 festaFp a})

theorem red_of {a b : Fp2} (ha : Reduced2 festaFp a) (hb : Reduced2 festaFp b) {f : Fp2 → Fp2 → Fp2}
    {g : F2 festaFp → F2 festaFp → F2 festaFp}
    (h : ∀ {a b : Fp2} {z w : F2 festaFp}, Rep2 festaFp a z → Rep2 festaFp b w →
      Rep2 festaFp (f a b) (g z w)) : Reduced2 festaFp (f a b) := by
  obtain ⟨z, hz⟩ := exists_rep2_val festa_valid ha
  obtain ⟨w, hw⟩ := exists_rep2_val festa_valid hb
  exact (h hz hw).reduced

instance : Add Fq := ⟨fun a b => ⟨fp2Add festaFp a.1 b.1,
  red_of a.2 b.2 (g := (· + ·)) (rep2_add festa_valid)⟩⟩
instance : Mul Fq := ⟨fun a b => ⟨fp2Mul festaFp a.1 b.1,
  red_of a.2 b.2 (g := (· * ·)) (rep2_mul festa_valid)⟩⟩
instance : Neg Fq := ⟨fun a => ⟨fp2Neg festaFp a.1, by
  obtain ⟨z, hz⟩ := exists_rep2_val festa_valid a.2
  exact (rep2_neg festa_valid hz).reduced⟩⟩
instance : Inv Fq := ⟨fun a => ⟨fp2Invert festaFp a.1, by
  obtain ⟨z, hz⟩ := exists_rep2_val festa_valid a.2
  obtain ⟨u, hu, -⟩ := rep2_invert festa_valid div_valid festa_roots hz
  exact hu.reduced⟩⟩
instance : Zero Fq := ⟨⟨fp2Zero festaFp, (rep2_zero festa_valid).reduced⟩⟩
instance : One Fq := ⟨⟨fp2One festaFp, (rep2_one festa_valid).reduced⟩⟩

/-- The field element represented by a value. -/
noncomputable def val (a : Fq) : F2 festaFp := (exists_rep2_val festa_valid a.2).choose

theorem rep (a : Fq) : Rep2 festaFp a.1 a.val := (exists_rep2_val festa_valid a.2).choose_spec

theorem val_eq {a : Fq} {z : F2 festaFp} (h : Rep2 festaFp a.1 z) : a.val = z :=
  rep2_unique festa_valid a.rep h

theorem val_inj {a b : Fq} (h : a.val = b.val) : a = b :=
  Subtype.ext (rep2_inj a.rep (h ▸ b.rep))

theorem val_add (a b : Fq) : (a + b).val = a.val + b.val :=
  val_eq (rep2_add festa_valid a.rep b.rep)
theorem val_mul (a b : Fq) : (a * b).val = a.val * b.val :=
  val_eq (rep2_mul festa_valid a.rep b.rep)
theorem val_neg (a : Fq) : (-a).val = -a.val := val_eq (rep2_neg festa_valid a.rep)
theorem val_zero : (0 : Fq).val = 0 := val_eq (rep2_zero festa_valid)
theorem val_one : (1 : Fq).val = 1 := val_eq (rep2_one festa_valid)

theorem val_inv_mul (a : Fq) (h : a ≠ 0) : a⁻¹.val * a.val = 1 := by
  obtain ⟨u, hu, h1, -⟩ := rep2_invert festa_valid div_valid festa_roots a.rep
  have : a⁻¹.val = u := val_eq (a := a⁻¹) hu
  rw [this]
  exact h1 fun h0 => h (val_inj (h0.trans val_zero.symm))

theorem inv_zero' : (0 : Fq)⁻¹ = 0 := by
  obtain ⟨u, hu, -, h1⟩ := rep2_invert festa_valid div_valid festa_roots (0 : Fq).rep
  apply val_inj
  rw [val_eq (a := (0 : Fq)⁻¹) hu, h1 val_zero, val_zero]

/-- The code's arithmetic is a field. -/
instance instField : Field Fq := Field.ofMinimalAxioms Fq
  (fun a b c => val_inj (by simp only [val_add]; ring))
  (fun a => val_inj (by simp only [val_add, val_zero]; ring))
  (fun a => val_inj (by simp only [val_add, val_neg, val_zero]; ring))
  (fun a b c => val_inj (by simp only [val_mul]; ring))
  (fun a b => val_inj (by simp only [val_mul]; ring))
  (fun a => val_inj (by simp only [val_mul, val_one]; ring))
  (fun a h => val_inj (by rw [val_mul, mul_comm, val_inv_mul a h, val_one]))
  inv_zero'
  (fun a b c => val_inj (by simp only [val_mul, val_add]; ring))
  ⟨0, 1, fun h => by
    have := congrArg val h
    rw [val_zero, val_one] at this
    have hf := Fact.mk festa_prime
    exact zero_ne_one this⟩

/-- The field of code values is isomorphic to `F_p[i]`. -/
noncomputable def equiv : Fq ≃+* F2 festaFp where
  toFun := val
  invFun z := ⟨(exists_rep2 festa_valid z).choose, (exists_rep2 festa_valid z).choose_spec.reduced⟩
  left_inv a := val_inj (val_eq (exists_rep2 festa_valid a.val).choose_spec)
  right_inv z := val_eq (exists_rep2 festa_valid z).choose_spec
  map_add' := val_add
  map_mul' := val_mul

/-- The remaining routines of the code in terms of the field operations. -/
theorem sub_code (a b : Fq) : (a - b).1 = fp2Sub festaFp a.1 b.1 := by
  have h : (a - b).val = a.val - b.val := by
    rw [sub_eq_add_neg, val_add, val_neg, ← sub_eq_add_neg]
  exact rep2_inj (h ▸ (a - b).rep) (rep2_sub festa_valid a.rep b.rep)

theorem square_code (a : Fq) : (a * a).1 = fp2Square festaFp a.1 :=
  rep2_inj (val_mul a a ▸ (a * a).rep) (rep2_square festa_valid a.rep)

theorem div_code (a b : Fq) : (a / b).1 = fp2Div festaFp a.1 b.1 := by
  obtain ⟨u, hu, h1, h2⟩ := rep2_div festa_valid div_valid festa_roots a.rep b.rep
  have : (⟨_, hu.reduced⟩ : Fq) = a / b := by
    apply val_inj
    rw [val_eq (a := ⟨_, hu.reduced⟩) hu]
    by_cases hb : b = 0
    · subst hb
      rw [h2 val_zero, div_zero, val_zero]
    · have e := h1 (fun h => hb (val_inj (h.trans val_zero.symm)))
      have e2 : (a / b).val * b.val = a.val := by rw [← val_mul, div_mul_cancel₀ a hb]
      have hf := Fact.mk festa_prime
      have hf2 := f2_fact festa_roots
      exact mul_right_cancel₀ (fun h => hb (val_inj (h.trans val_zero.symm))) (e.trans e2.symm)
  rw [← this]

theorem equals_code (a b : Fq) : fp2Equals a.1 b.1 = ctlOf (decide (a = b)) := by
  unfold fp2Equals
  obtain ⟨h1, h2⟩ := C07_equals festa_valid a.rep.1 b.rep.1
  obtain ⟨k1, k2⟩ := C07_equals festa_valid a.rep.2 b.rep.2
  by_cases h : a = b
  · rw [decide_eq_true h, h1 (by rw [h]), k1 (by rw [h])]; rfl
  · rw [decide_eq_false h]
    by_cases h0 : a.val.re = b.val.re
    · have : a.val.im ≠ b.val.im := fun hh => h (val_inj (QuadraticAlgebra.ext h0 hh))
      rw [k2 this]; simp [ctlOf]
    · rw [h2 h0]; simp [ctlOf]

theorem iszero_code (a : Fq) : fp2IsZero a.1 = ctlOf (decide (a = 0)) := by
  obtain ⟨c, h1, h2⟩ := iszero2_form festa_valid a.rep
  rw [h1]
  congr 1
  have : (c = true) ↔ a = 0 := h2.trans
    ⟨fun h => val_inj (h.trans val_zero.symm), fun h => by rw [h, val_zero]⟩
  cases c
  · symm; rw [decide_eq_false_iff_not]; exact fun h => absurd (this.mpr h) (by simp)
  · symm; rw [decide_eq_true_iff]; exact this.mp rfl

end Fq
end Festa

import Verif.Lemmas.VeluHom
import Mathlib.GroupTheory.SpecificGroups.Cyclic
/-! Extension of the base field, and products over a cyclic subgroup. -/
namespace Festa
open WeierstrassCurve.Affine
variable {K : Type*} [Field K] [DecidableEq K] {A : K} {L : Type*} [Field L] [DecidableEq L]

/-- Points over an extension field. -/
def upFun (f : K →+* L) (h2 : (2 : L) ≠ 0) (hA : f A * f A ≠ 4) : MPoint A → MPoint (f A)
  | .zero => .zero
  | .some x y h => .some (f x) (f y) (nonsing_of h2 hA (by
      have := congrArg f (curve_eq h)
      simpa only [map_mul, map_add] using this))

/-- Extension of the base field as a group homomorphism. -/
def up (f : K →+* L) (h2 : (2 : L) ≠ 0) (hA : f A * f A ≠ 4) : MPoint A →+ MPoint (f A) where
  toFun := upFun f h2 hA
  map_zero' := rfl
  map_add' := by
    intro P Q
    rcases P with _ | ⟨x, y, h⟩
    · rw [← Point.zero_def, zero_add]; exact (zero_add _).symm
    rcases Q with _ | ⟨x', y', h'⟩
    · rw [← Point.zero_def, add_zero]; exact (add_zero _).symm
    by_cases hx : x = x'
    · subst hx
      rcases y_of_x_eq h h' with e | e
      · subst e
        by_cases hy : y = 0
        · rw [add_opp (by rw [hy, neg_zero])]
          simp only [upFun]
          rw [add_opp (by rw [hy, map_zero, neg_zero])]
          rfl
        · have h2' : (2 : K) ≠ 0 := fun h => h2 (by rw [← map_ofNat f 2, h, map_zero])
          have hl : (3 * x * x + 2 * A * x + 1) / (2 * y) * (2 * y) = 3 * x * x + 2 * A * x + 1 :=
            div_mul_cancel₀ _ (mul_ne_zero h2' hy)
          generalize (3 * x * x + 2 * A * x + 1) / (2 * y) = l at hl
          obtain ⟨h3, e⟩ := add_dbl (h := h) (h' := h') h2' hy hl
          rw [e]
          simp only [upFun]
          have hl' : f l * (2 * f y) = 3 * f x * f x + 2 * f A * f x + 1 := by
            have := congrArg f hl
            simpa only [map_mul, map_add, map_ofNat, map_one] using this
          have hA' : f A * f A ≠ 4 := hA
          obtain ⟨h4, e'⟩ := add_dbl (A := f A)
            (h := nonsing_of h2 hA' (by have := congrArg f (curve_eq h); simpa only [map_mul, map_add] using this))
            (h' := nonsing_of h2 hA' (by have := congrArg f (curve_eq h); simpa only [map_mul, map_add] using this))
            h2 (by rwa [Ne, map_eq_zero]) hl'
          rw [e', Point.some.injEq]
          simp only [map_sub, map_mul, and_self]
      · rw [add_opp e]
        simp only [upFun]
        rw [add_opp (by rw [e, map_neg])]
        rfl
    · have hne : x' - x ≠ 0 := sub_ne_zero.mpr (Ne.symm hx)
      have hl : (y' - y) / (x' - x) * (x' - x) = y' - y := div_mul_cancel₀ _ hne
      generalize (y' - y) / (x' - x) = l at hl
      obtain ⟨h3, e⟩ := add_gen (h1 := h) (h2 := h') hx hl
      rw [e]
      simp only [upFun]
      obtain ⟨h4, e'⟩ := add_gen (A := f A) (l := f l)
        (h1 := nonsing_of h2 hA (by have := congrArg f (curve_eq h); simpa only [map_mul, map_add] using this))
        (h2 := nonsing_of h2 hA (by have := congrArg f (curve_eq h'); simpa only [map_mul, map_add] using this))
        (fun h => hx (f.injective h)) (by
          have := congrArg f hl
          simpa only [map_mul, map_sub] using this)
      rw [e', Point.some.injEq]
      simp only [map_sub, map_mul, and_self]

variable {f : K →+* L} {h2 : (2 : L) ≠ 0} {hA : f A * f A ≠ 4}

theorem xc_up (P : MPoint A) : xc (up f h2 hA P) = f (xc P) := by
  rcases P with _ | ⟨x, y, h⟩
  · exact (map_zero f).symm
  · rfl

theorem yc_up (P : MPoint A) : yc (up f h2 hA P) = f (yc P) := by
  rcases P with _ | ⟨x, y, h⟩
  · exact (map_zero f).symm
  · rfl

theorem up_inj : Function.Injective (up (A := A) f h2 hA) := by
  rw [injective_iff_map_eq_zero]
  intro P hP
  rcases P with _ | ⟨x, y, h⟩
  · rfl
  · exact absurd hP (Point.some_ne_zero _)

section cyclic
variable {M : Type*} [AddCommGroup M] {P : M} {d : Nat}

/-- The non-zero multiples come in pairs. -/
theorem prod_zmul {R : Type*} [CommMonoid R] (hord : addOrderOf P = 2 * d + 1)
    [Fintype (AddSubgroup.zmultiples P)] (f : AddSubgroup.zmultiples P → R) :
    ∏ g ∈ gs (AddSubgroup.zmultiples P), f g =
      ∏ i ∈ Finset.range d, f ⟨(i + 1) • P, AddSubgroup.nsmul_mem_zmultiples P _⟩ *
        f (-⟨(i + 1) • P, AddSubgroup.nsmul_mem_zmultiples P _⟩) := by
  have hpos : 0 < addOrderOf P := by omega
  have e1 : ∏ g ∈ gs (AddSubgroup.zmultiples P), f g =
      ∏ i ∈ Finset.range (2 * d), f ⟨(i + 1) • P, AddSubgroup.nsmul_mem_zmultiples P _⟩ := by
    symm
    refine Finset.prod_bij (fun i _ => ⟨(i + 1) • P, AddSubgroup.nsmul_mem_zmultiples P _⟩) ?_ ?_ ?_ ?_
    · intro i hi
      rw [mem_gs]
      intro h
      have h' : (i + 1) • P = 0 := congrArg Subtype.val h
      have := Nat.le_of_dvd (by omega) (addOrderOf_dvd_iff_nsmul_eq_zero.mpr h')
      have := Finset.mem_range.mp hi
      omega
    · intro i hi j hj h
      have h' : (i + 1) • P = (j + 1) • P := congrArg Subtype.val h
      have hi := Finset.mem_range.mp hi
      have hj := Finset.mem_range.mp hj
      have := (nsmul_inj_mod (x := P)).mp h'
      rw [Nat.mod_eq_of_lt (by omega), Nat.mod_eq_of_lt (by omega)] at this
      omega
    · intro g hg
      obtain ⟨g, hm⟩ := g
      obtain ⟨n, hn⟩ := AddSubgroup.mem_zmultiples_iff.mp hm
      have hlt := Int.emod_lt_of_pos n (b := (addOrderOf P : Int)) (by exact_mod_cast hpos)
      have hge := Int.emod_nonneg n (b := (addOrderOf P : Int)) (by omega)
      obtain ⟨m, hm'⟩ := Int.eq_ofNat_of_zero_le hge
      have hgm : m • P = g := by
        rw [← hn, ← mod_addOrderOf_zsmul, hm', natCast_zsmul]
      have hm0 : m ≠ 0 := by
        rintro rfl
        rw [zero_nsmul] at hgm
        exact mem_gs.mp hg (Subtype.ext hgm.symm)
      refine ⟨m - 1, Finset.mem_range.mpr (by omega), Subtype.ext ?_⟩
      change (m - 1 + 1) • P = g
      rw [show m - 1 + 1 = m by omega, hgm]
    · intro i _; rfl
  rw [e1, two_mul, Finset.prod_range_add, Finset.prod_mul_distrib]
  congr 1
  rw [← Finset.prod_range_reflect]
  refine Finset.prod_congr rfl fun i hi => ?_
  congr 1
  apply Subtype.ext
  have hi := Finset.mem_range.mp hi
  change (d + (d - 1 - i) + 1) • P = -((i + 1) • P)
  rw [eq_neg_iff_add_eq_zero, ← add_nsmul, show d + (d - 1 - i) + 1 + (i + 1) = addOrderOf P by omega,
    addOrderOf_nsmul_eq_zero]

end cyclic

end Festa

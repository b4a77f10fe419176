import Verif.Lemmas.TorsionSpan
import Verif.Lemmas.WeilAxis
import Verif.Lemmas.VeluBase
import Mathlib.Algebra.CharP.Frobenius
/-! A field endomorphism fixing the coefficient acts on the points; the curve `y^2 = x^3 + x` in
characteristic `p = 3 mod 4`, where the square of Frobenius is multiplication by `-p` on the 2-power torsion. -/
namespace Festa
open WeierstrassCurve.Affine
variable {L : Type*} [Field L] [DecidableEq L] {A : L}

/-- Transport along an equality of coefficients. -/
def castHom {B : L} (h : A = B) : MPoint A →+ MPoint B := h ▸ AddMonoidHom.id (MPoint A)

theorem castHom_rfl (P : MPoint A) : castHom rfl P = P := rfl

theorem xc_castHom {B : L} (h : A = B) (P : MPoint A) : xc (castHom h P) = xc P := by subst h; rfl
theorem yc_castHom {B : L} (h : A = B) (P : MPoint A) : yc (castHom h P) = yc P := by subst h; rfl
theorem castHom_inj {B : L} (h : A = B) {P Q : MPoint A} (e : castHom h P = castHom h Q) : P = Q := by
  subst h; exact e
theorem we_castHom {B : L} (h : A = B) (n : Nat) (P Q : MPoint A) :
    we n (castHom h P) (castHom h Q) = we n P Q := by subst h; rfl

/-- The action of a field endomorphism that fixes the coefficient. -/
def fixHom (f : L →+* L) (h : f A = A) : MPoint A →+ MPoint A := (castHom h).comp (mapHom f)

variable (f : L →+* L) (h : f A = A)

omit [DecidableEq L] in
theorem xc_mapPt {M : Type*} [Field M] (f : L →+* M) (P : MPoint A) : xc (mapPt f P) = f (xc P) := by
  rcases P with _ | ⟨x, y, k⟩
  · exact (map_zero f).symm
  · rfl
omit [DecidableEq L] in
theorem yc_mapPt {M : Type*} [Field M] (f : L →+* M) (P : MPoint A) : yc (mapPt f P) = f (yc P) := by
  rcases P with _ | ⟨x, y, k⟩
  · exact (map_zero f).symm
  · rfl

theorem xc_fix (P : MPoint A) : xc (fixHom f h P) = f (xc P) := by
  rw [fixHom, AddMonoidHom.comp_apply, xc_castHom]; exact xc_mapPt f P
theorem yc_fix (P : MPoint A) : yc (fixHom f h P) = f (yc P) := by
  rw [fixHom, AddMonoidHom.comp_apply, yc_castHom]; exact yc_mapPt f P
theorem fix_inj {P Q : MPoint A} (e : fixHom f h P = fixHom f h Q) : P = Q :=
  mapPt_inj f (castHom_inj h e)
theorem fix_ne {P : MPoint A} (hP : P ≠ 0) : fixHom f h P ≠ 0 := fun e =>
  hP (fix_inj f h (e.trans (map_zero _).symm))
theorem we_fix (n : Nat) (hn : 1 ≤ n) (P Q : MPoint A) :
    we n (fixHom f h P) (fixHom f h Q) = f (we n P Q) := by
  rw [fixHom, AddMonoidHom.comp_apply, AddMonoidHom.comp_apply, we_castHom, we_map f _ _ n hn]

/-- A point with fixed coordinates is fixed. -/
theorem fix_of_coords {P : MPoint A} (hx : f (xc P) = xc P) (hy : f (yc P) = yc P) : fixHom f h P = P := by
  by_cases h0 : P = 0
  · rw [h0, map_zero]
  · exact pt_ext (fix_ne f h h0) h0 (by rw [xc_fix, hx]) (by rw [yc_fix, hy])

theorem fix_comp (g : L →+* L) (hg : g A = A) (P : MPoint A) (hfg : (f.comp g) A = A) :
    fixHom (f.comp g) hfg P = fixHom f h (fixHom g hg P) := by
  by_cases h0 : P = 0
  · rw [h0, map_zero, map_zero, map_zero]
  · exact pt_ext (fix_ne _ _ h0) (fix_ne _ _ (fix_ne _ _ h0)) (by rw [xc_fix, xc_fix, xc_fix]; rfl)
      (by rw [yc_fix, yc_fix, yc_fix]; rfl)

/-! ### The automorphism of order four -/

section
variable {j : L} (hj : j * j = -1)
include hj

omit [DecidableEq L] in
theorem iota_nonsing {x y : L} (h2 : (2 : L) ≠ 0) (h : (mont (0 : L)).Nonsingular x y) :
    (mont (0 : L)).Nonsingular (-x) (j * y) := by
  refine nonsing_of h2 (fun e => ?_) ?_
  · apply h2
    have : (2 : L) * 2 = 0 := by linear_combination -e
    exact (mul_eq_zero.mp this).elim id id
  · linear_combination y * y * hj - curve_eq h

variable (h2 : (2 : L) ≠ 0)

/-- `(x, y) ↦ (-x, j y)`. -/
def iotaFun : MPoint (0 : L) → MPoint (0 : L)
  | .zero => 0
  | .some _ _ h => .some _ _ (iota_nonsing hj h2 h)

theorem iota_add (P Q : MPoint (0 : L)) : iotaFun hj h2 (P + Q) = iotaFun hj h2 P + iotaFun hj h2 Q := by
  have hj0 : j ≠ 0 := by rintro rfl; simp at hj
  rcases P with _ | ⟨x, y, k⟩
  · change iotaFun hj h2 (0 + Q) = 0 + iotaFun hj h2 Q
    rw [zero_add, zero_add]
  rcases Q with _ | ⟨x', y', k'⟩
  · change iotaFun hj h2 (.some x y k + 0) = iotaFun hj h2 (.some x y k) + 0
    rw [add_zero, add_zero]
  change _ = (Point.some (-x) (j * y) (iota_nonsing hj h2 k) : MPoint (0 : L)) +
    .some (-x') (j * y') (iota_nonsing hj h2 k')
  by_cases hx : x = x'
  · subst hx
    by_cases e : y = -y'
    · rw [add_opp e, add_opp (by rw [e]; ring)]
      rfl
    · have hy : y' = y := by
        have := curve_eq k
        have h' := curve_eq k'
        have : (y' - y) * (y' + y) = 0 := by linear_combination h' - this
        rcases mul_eq_zero.mp this with e' | e'
        · exact sub_eq_zero.mp e'
        · exact absurd (by linear_combination e') e
      subst hy
      have h0 : y' ≠ 0 := fun h => e (by rw [h, neg_zero])
      have hl : (3 * x * x + 2 * 0 * x + 1) / (2 * y') * (2 * y') = 3 * x * x + 2 * 0 * x + 1 :=
        div_mul_cancel₀ _ (mul_ne_zero h2 h0)
      generalize (3 * x * x + 2 * 0 * x + 1) / (2 * y') = l at hl
      obtain ⟨h3, e3⟩ := add_dbl (h := k) (h' := k') h2 h0 hl
      obtain ⟨h4, e4⟩ := add_dbl (h := iota_nonsing hj h2 k) (h' := iota_nonsing hj h2 k') (l := -j * l) h2
        (mul_ne_zero hj0 h0) (by linear_combination hl - 2 * y' * l * hj)
      rw [e3, e4]
      change Point.some _ _ _ = Point.some _ _ _
      rw [Point.some.injEq]
      constructor
      · linear_combination -l * l * hj
      · linear_combination -j * l * l * l * hj
  · have hne : x' - x ≠ 0 := sub_ne_zero.mpr (Ne.symm hx)
    have hl : (y' - y) / (x' - x) * (x' - x) = y' - y := div_mul_cancel₀ _ hne
    generalize (y' - y) / (x' - x) = l at hl
    obtain ⟨h3, e3⟩ := add_gen (h1 := k) (h2 := k') hx hl
    obtain ⟨h4, e4⟩ := add_gen (h1 := iota_nonsing hj h2 k) (h2 := iota_nonsing hj h2 k') (l := -j * l)
      (fun e => hx (neg_injective e)) (by linear_combination j * hl)
    rw [e3, e4]
    change Point.some _ _ _ = Point.some _ _ _
    rw [Point.some.injEq]
    constructor
    · linear_combination -l * l * hj
    · linear_combination -j * l * l * l * hj

/-- `(x, y) ↦ (-x, j y)` as a homomorphism. -/
def iota : MPoint (0 : L) →+ MPoint (0 : L) where
  toFun := iotaFun hj h2
  map_zero' := rfl
  map_add' := iota_add hj h2

theorem xc_iota (P : MPoint (0 : L)) : xc (iota hj h2 P) = -xc P := by
  rcases P with _ | ⟨x, y, k⟩
  · exact neg_zero.symm
  · rfl
theorem yc_iota (P : MPoint (0 : L)) : yc (iota hj h2 P) = j * yc P := by
  rcases P with _ | ⟨x, y, k⟩
  · exact (mul_zero _).symm
  · rfl
theorem iota_ne {P : MPoint (0 : L)} (hP : P ≠ 0) : iota hj h2 P ≠ 0 := by
  rcases P with _ | ⟨x, y, k⟩
  · exact absurd rfl hP
  · exact Point.some_ne_zero _

theorem iota_sq (P : MPoint (0 : L)) : iota hj h2 (iota hj h2 P) = -P := by
  by_cases h0 : P = 0
  · rw [h0, map_zero, map_zero, neg_zero]
  · exact pt_ext (iota_ne _ _ (iota_ne _ _ h0)) (neg_ne_zero.mpr h0) (by rw [xc_iota, xc_iota, xc_neg, neg_neg])
      (by rw [yc_iota, yc_iota, yc_neg, ← mul_assoc, hj, neg_one_mul])

theorem fix_iota (f : L →+* L) (hf : f j = -j) (h : f (0 : L) = 0) (P : MPoint (0 : L)) :
    fixHom f h (iota hj h2 P) = -iota hj h2 (fixHom f h P) := by
  by_cases h0 : P = 0
  · rw [h0, map_zero, map_zero, map_zero, neg_zero]
  · exact pt_ext (fix_ne _ _ (iota_ne _ _ h0)) (neg_ne_zero.mpr (iota_ne _ _ (fix_ne _ _ h0)))
      (by rw [xc_fix, xc_iota, xc_neg, xc_iota, xc_fix, map_neg])
      (by rw [yc_fix, yc_iota, yc_neg, yc_iota, yc_fix, map_mul, hf, neg_mul])

end

/-! ### The square of Frobenius on the 2-power torsion -/

section
variable {B : L} [IsAlgClosed L]

theorem exists_two_pow_half (h2 : (2 : L) ≠ 0) (hB : B * B ≠ 4) (m : Nat) (T : MPoint B) :
    ∃ V : MPoint B, 2 ^ m • V = T := by
  induction m with
  | zero => exact ⟨T, by simp⟩
  | succ m ih =>
    obtain ⟨V, hV⟩ := ih
    obtain ⟨M, hM⟩ := exists_half h2 hB V
    exact ⟨M, by rw [pow_succ, mul_nsmul', two_nsmul, hM, hV]⟩

theorem fix_basis {n : Nat} {P Q : MPoint A} (hb : IsBasis n P Q) : IsBasis n (fixHom f h P) (fixHom f h Q) := by
  intro a b
  rw [← hb a b, ← map_zsmul, ← map_zsmul, ← map_add]
  exact ⟨fun e => fix_inj f h (e.trans (map_zero _).symm), fun e => by rw [e, map_zero]⟩

theorem sq_mod_four {e g : Int} (h : (4 : Int) ∣ e * e - g * g + 1) : g % 2 = 1 := by
  rcases Int.emod_two_eq_zero_or_one g with h0 | h0
  · exfalso
    obtain ⟨a, ha⟩ := Int.dvd_of_emod_eq_zero h0
    obtain ⟨c, hc⟩ := h
    subst ha
    rcases Int.emod_two_eq_zero_or_one e with h1 | h1
    · obtain ⟨b, rfl⟩ := Int.dvd_of_emod_eq_zero h1
      have : 4 * (b * b - a * a - c) = -1 := by linear_combination hc
      omega
    · obtain ⟨b, hb⟩ : ∃ b, e = 2 * b + 1 := ⟨e / 2, by omega⟩
      subst hb
      have : 4 * (b * b + b - a * a - c) = -2 := by linear_combination hc
      omega
  · exact h0

/-- On the 2-power torsion of `y^2 = x^3 + x` the square of an endomorphism that moves `j` and raises
roots of unity to the power `p` is multiplication by `-p`. -/
theorem frob_sq_zero (h2 : (2 : L) ≠ 0) {j : L} (hj : j * j = -1) {p : Nat} (hp : p % 4 = 3) (hf : f j = -j)
    (hw : ∀ w : L, f w = w ^ p) (h0 : f (0 : L) = 0) (k : Nat) {X : MPoint (0 : L)} (hX : 2 ^ k • X = 0) :
    fixHom f h0 (fixHom f h0 X) = -((p : Int) • X) := by
  have hA : (0 : L) * 0 ≠ 4 := by
    intro e
    apply h2
    have : (2 : L) * 2 = 0 := by linear_combination -e
    exact (mul_eq_zero.mp this).elim id id
  have hj0 : j ≠ 0 := by rintro rfl; simp at hj
  have kT : (mont (0 : L)).Nonsingular j 0 := nonsing_of h2 hA (by linear_combination -j * hj)
  obtain ⟨V, hV⟩ := exists_two_pow_half h2 hA (k + 1) (Point.some j 0 kT)
  set π := fixHom f h0 with hπ
  have T0 : (Point.some j 0 kT : MPoint (0 : L)) ≠ 0 := Point.some_ne_zero _
  have T2 : (Point.some j 0 kT : MPoint (0 : L)) + Point.some j 0 kT = 0 := (add_self_iff h2 T0).mpr rfl
  have tV : 2 ^ (k + 1 + 1) • V = 0 := by rw [pow_succ, mul_comm, mul_nsmul', hV, two_nsmul, T2]
  have hb : IsBasis (2 ^ (k + 1 + 1)) V (π V) := by
    refine isBasis_two_pow tV (by rw [← map_nsmul, tV, map_zero]) (by rw [hV]; exact T0)
      (by rw [← map_nsmul, hV]; exact fix_ne f h0 T0) ?_
    rw [← map_nsmul, hV]
    intro e
    have := congrArg xc e
    rw [hπ, xc_fix] at this
    change j = f j at this
    rw [hf] at this
    exact mul_ne_zero h2 hj0 (by linear_combination this)
  set N := 2 ^ (k + 1 + 1) with hN
  have hN4 : (4 : Int) ∣ (N : Int) := ⟨2 ^ k, by rw [hN]; push_cast; ring⟩
  have hN2 : 2 ≤ N := by
    rw [hN, pow_succ]; have := Nat.one_le_two_pow (n := k + 1); omega
  have hNpos : (0 : Int) < N := by omega
  have tW : N • π (π V) = 0 := by rw [← map_nsmul, ← map_nsmul, tV, map_zero, map_zero]
  obtain ⟨x, y, hxy⟩ := span_basis h2 hA (by omega) hb tW
  have NV : (N : Int) • V = 0 := by rw [natCast_zsmul]; exact tV
  have NW : (N : Int) • π V = 0 := by rw [← map_zsmul, NV, map_zero]
  -- natural representatives
  obtain ⟨a, ha⟩ : ∃ a : Nat, (a : Int) = x % N := ⟨(x % N).toNat, Int.toNat_of_nonneg (Int.emod_nonneg _ (by omega))⟩
  obtain ⟨b, hb'⟩ : ∃ b : Nat, (b : Int) = y % N := ⟨(y % N).toNat, Int.toNat_of_nonneg (Int.emod_nonneg _ (by omega))⟩
  have haN : a < N := by
    have := Int.emod_lt_of_pos x hNpos
    omega
  have redx : ∀ (z : Int) (W : MPoint (0 : L)), (N : Int) • W = 0 → (z % N) • W = z • W := by
    intro z W hW
    conv_rhs => rw [← Int.emod_add_mul_ediv z N, add_zsmul, mul_comm, mul_zsmul, hW, zsmul_zero, add_zero]
  have hab : π (π V) = a • V + b • π V := by
    rw [hxy, ← natCast_zsmul V a, ← natCast_zsmul (π V) b, ha, hb', redx _ _ NV, redx _ _ NW]
  have ha1 : 1 ≤ a := by
    by_contra hc
    have : a = 0 := by omega
    rw [this, zero_nsmul, zero_add] at hab
    have hb2 := fix_basis f h0 hb
    have := (hb2 (b : Int) (-1)).mp (by
      change (b : Int) • π V + (-1 : Int) • π (π V) = 0
      rw [hab, natCast_zsmul, neg_one_zsmul, add_neg_cancel])
    have := Int.le_of_dvd (by norm_num) ((Int.dvd_neg).mp this.2)
    omega
  -- the pairing
  have hNp : (N : Int) ∣ p + a := by
    have e1 := we_fix f h0 N (by omega) V (π V)
    change we N (π V) (π (π V)) = _ at e1
    rw [hab, (hb.we_eq h2 hA hN2 a b ha1 haN).1, hw] at e1
    have e2 := we_symm (by omega) (hb.nd hN2) (n := N)
    have e3 := hb.we_orderOf h2 hA hN2
    have : we N V (π V) ^ (p + a) = 1 := by
      rw [pow_add, ← e1, ← mul_pow, mul_comm, e2, one_pow]
    have := orderOf_dvd_of_pow_eq_one this
    rw [e3] at this
    exact_mod_cast this
  -- the automorphism
  obtain ⟨e, g, heg⟩ := span_basis h2 hA (by omega) hb (X := iota hj h2 V) (by rw [← map_nsmul, tV, map_zero])
  have i2 := iota_sq hj h2 V
  have i3 := fix_iota hj h2 f hf h0 V
  change π _ = _ at i3
  have i3' : iota hj h2 (π V) = -(e • π V + g • ((a : Int) • V + (b : Int) • π V)) := by
    rw [← neg_eq_iff_eq_neg, ← i3, heg, map_add, map_zsmul, map_zsmul, hab, natCast_zsmul, natCast_zsmul]
  have i4 : (e * e - g * g * a + 1) • V + (-(g * g * b)) • π V = 0 := by
    rw [heg, map_add, map_zsmul, map_zsmul, i3', heg] at i2
    rw [← add_eq_zero_iff_eq_neg] at i2
    rw [← i2]
    module
  obtain ⟨d1, d2⟩ := (hb _ _).mp i4
  have godd : g % 2 = 1 := by
    apply sq_mod_four (e := e)
    obtain ⟨c, hc⟩ := hN4
    obtain ⟨u, hu⟩ := d1
    obtain ⟨v, hv⟩ := hNp
    obtain ⟨r, hr⟩ : ∃ r : Int, (p : Int) = 4 * r + 3 := ⟨p / 4, by omega⟩
    refine ⟨c * u + g * g * (c * v - r - 1), ?_⟩
    rw [hc] at hu hv
    linear_combination hu + g * g * hv - g * g * hr
  have hbN : (N : Int) ∣ b := by
    have hco : IsCoprime (N : Int) (g * g) := by
      have : IsCoprime (2 : Int) g := (Int.prime_two.coprime_iff_not_dvd).mpr (by omega)
      rw [hN]; push_cast
      exact (this.mul_right this).pow_left
    exact hco.dvd_of_dvd_mul_left ((Int.dvd_neg).mp d2)
  have V2 : π (π V) = -((p : Int) • V) := by
    obtain ⟨v, hv⟩ := hNp
    obtain ⟨u, hu⟩ := hbN
    rw [hab, ← natCast_zsmul V a, ← natCast_zsmul (π V) b, hu, mul_comm (N : Int) u, mul_zsmul, NW, zsmul_zero, add_zero,
      show (a : Int) = N * v - p by linear_combination hv, sub_zsmul, mul_comm (N : Int) v, mul_zsmul, NV, zsmul_zero]
    abel
  obtain ⟨u, v, rfl⟩ := span_basis h2 hA (by omega) hb (X := X) (by
    rw [hN, add_assoc, pow_add, mul_comm, mul_nsmul', hX, nsmul_zero])
  rw [map_add, map_add, map_zsmul, map_zsmul, map_zsmul, map_zsmul, V2, map_neg, map_zsmul]
  module

end

end Festa

import Verif.Lemmas.ECLadder
/-! Sum and difference of two points from their x-coordinates, as an unordered pair. -/
namespace Festa
open WeierstrassCurve.Affine
variable {K : Type*} [Field K]

/-- The symmetric functions of two x-coordinates are those of sum and difference of two points. -/
def Biq (A X1 Z1 X2 Z2 Xs Zs Xd Zd : K) : Prop :=
  ∃ c : K, c ≠ 0 ∧ Xs * Xd = c * (X1 * X2 - Z1 * Z2) ^ 2 ∧ Zs * Zd = c * (X1 * Z2 - Z1 * X2) ^ 2 ∧
    Xs * Zd + Zs * Xd = c * (2 * ((X1 * Z2 + Z1 * X2) * (X1 * X2 + Z1 * Z2) + 2 * A * (X1 * X2 * (Z1 * Z2))))

/-- Two pairs of points of the projective line with the same symmetric functions are equal up to order. -/
theorem kpair_eq {a b c d p q r t k : K} (hk : k ≠ 0) (h1 : a ≠ 0 ∨ b ≠ 0) (h3 : p ≠ 0 ∨ q ≠ 0)
    (h4 : r ≠ 0 ∨ t ≠ 0) (e1 : a * c = k * (p * r)) (e2 : b * d = k * (q * t))
    (e3 : a * d + b * c = k * (p * t + q * r)) :
    (∃ u v, u ≠ 0 ∧ v ≠ 0 ∧ a = u * p ∧ b = u * q ∧ c = v * r ∧ d = v * t) ∨
    (∃ u v, u ≠ 0 ∧ v ≠ 0 ∧ a = u * r ∧ b = u * t ∧ c = v * p ∧ d = v * q) := by
  have prop : ∀ {a b p q : K}, (a ≠ 0 ∨ b ≠ 0) → (p ≠ 0 ∨ q ≠ 0) → p * b - q * a = 0 → ∃ u, u ≠ 0 ∧ a = u * p ∧ b = u * q := by
    intro a b p q h h' e
    rcases h' with hp | hq
    · refine ⟨a / p, ?_, by field_simp, by field_simp; linear_combination e⟩
      intro h0
      have ha : a = 0 := (div_eq_zero_iff.mp h0).resolve_right hp
      rw [ha, mul_zero, sub_zero] at e
      exact h.elim (fun x => x ha) fun x => x ((mul_eq_zero.mp e).resolve_left hp)
    · refine ⟨b / q, ?_, by field_simp; linear_combination -e, by field_simp⟩
      intro h0
      have hb : b = 0 := (div_eq_zero_iff.mp h0).resolve_right hq
      rw [hb, mul_zero, zero_sub, neg_eq_zero] at e
      exact h.elim (fun x => x ((mul_eq_zero.mp e).resolve_left hq)) fun x => x hb
  have fin : ∀ {a b p q r t : K}, (p ≠ 0 ∨ q ≠ 0) → a * c = k * (p * r) → b * d = k * (q * t) →
      a * d + b * c = k * (p * t + q * r) → (∃ u, u ≠ 0 ∧ a = u * p ∧ b = u * q) →
      ∃ u v, u ≠ 0 ∧ v ≠ 0 ∧ a = u * p ∧ b = u * q ∧ c = v * r ∧ d = v * t := by
    rintro a b p q r t h3 e1 e2 e3 ⟨u, hu, rfl, rfl⟩
    refine ⟨u, k / u, hu, div_ne_zero hk hu, rfl, rfl, ?_⟩
    rcases h3 with hp | hq
    · have hc : u * c = k * r := mul_left_cancel₀ hp (by linear_combination e1)
      have hd : u * d = k * t := mul_left_cancel₀ hp (by linear_combination e3 - q * hc)
      exact ⟨by field_simp; linear_combination hc, by field_simp; linear_combination hd⟩
    · have hd : u * d = k * t := mul_left_cancel₀ hq (by linear_combination e2)
      have hc : u * c = k * r := mul_left_cancel₀ hq (by linear_combination e3 - p * hd)
      exact ⟨by field_simp; linear_combination hc, by field_simp; linear_combination hd⟩
  have z : (p * b - q * a) * (r * b - t * a) = 0 := by
    apply mul_left_cancel₀ hk
    linear_combination -b ^ 2 * e1 - a ^ 2 * e2 + a * b * e3
  rcases mul_eq_zero.mp z with h | h
  · exact .inl (fin h3 e1 e2 e3 (prop h1 h3 h))
  · exact .inr (fin h4 (by linear_combination e1) (by linear_combination e2) (by linear_combination e3) (prop h1 h4 h))

theorem krep_mul {A : K} {c X Z : K} {R : MPoint A} (hc : c ≠ 0) (h : KRep X Z R) : KRep (c * X) (c * Z) R := by
  rcases R with _ | ⟨x, y, k⟩
  · exact ⟨mul_ne_zero hc h.1, by rw [h.2, mul_zero]⟩
  · exact ⟨mul_ne_zero hc h.1, by rw [h.2]; ring⟩

theorem KRep.ne {A : K} {X Z : K} {R : MPoint A} (h : KRep X Z R) : X ≠ 0 ∨ Z ≠ 0 := by
  rcases R with _ | ⟨x, y, k⟩
  · exact .inl h.1
  · exact .inr h.1

theorem Biq.of_scale {A X1 Z1 X2 Z2 Xs Zs Xd Zd u v : K} (hu : u ≠ 0) (hv : v ≠ 0) (h : Biq A X1 Z1 X2 Z2 Xs Zs Xd Zd) :
    Biq A (u * X1) (u * Z1) (v * X2) (v * Z2) Xs Zs Xd Zd := by
  obtain ⟨c, hc, h1, h2, h3⟩ := h
  refine ⟨c / (u * v) ^ 2, div_ne_zero hc (pow_ne_zero 2 (mul_ne_zero hu hv)), ?_, ?_, ?_⟩
  · rw [h1]; field_simp
  · rw [h2]; field_simp
  · rw [h3]; field_simp

variable [DecidableEq K]

/-- Sum and difference satisfy the equations. -/
theorem biq_exists (h2 : (2 : K) ≠ 0) {A X1 Z1 X2 Z2 : K} {f g : MPoint A} (hf : KRep X1 Z1 f) (hg : KRep X2 Z2 g) :
    ∃ Xs Zs Xd Zd, KRep Xs Zs (f + g) ∧ KRep Xd Zd (f - g) ∧ Biq A X1 Z1 X2 Z2 Xs Zs Xd Zd := by
  rcases f with _ | ⟨x, y, k⟩
  · obtain ⟨hX, rfl⟩ := hf
    change ∃ Xs Zs Xd Zd, KRep Xs Zs (0 + g) ∧ KRep Xd Zd (0 - g) ∧ Biq A X1 0 X2 Z2 Xs Zs Xd Zd
    have hng : KRep X2 Z2 (-g) := by
      rcases g with _ | ⟨x', y', k'⟩
      · exact hg
      · obtain ⟨h3, e3⟩ := neg_pt k'
        rw [e3]; exact hg
    refine ⟨X2, Z2, X2, Z2, by rwa [zero_add], by rwa [zero_sub], ((X1)⁻¹) ^ 2, pow_ne_zero 2 (inv_ne_zero hX), ?_, ?_, ?_⟩
    · field_simp; ring
    · field_simp; ring
    · field_simp; ring
  · obtain ⟨hZ, rfl⟩ := hf
    rcases g with _ | ⟨x', y', k'⟩
    · obtain ⟨hX, rfl⟩ := hg
      change ∃ Xs Zs Xd Zd, KRep Xs Zs (Point.some x y k + 0 : MPoint A) ∧ KRep Xd Zd (Point.some x y k - 0 : MPoint A) ∧
        Biq A (x * Z1) Z1 X2 0 Xs Zs Xd Zd
      rw [add_zero, sub_zero]
      refine ⟨x * Z1, Z1, x * Z1, Z1, ⟨hZ, rfl⟩, ⟨hZ, rfl⟩, ((X2)⁻¹) ^ 2, pow_ne_zero 2 (inv_ne_zero hX), ?_, ?_, ?_⟩
      · field_simp; ring
      · field_simp; ring
      · field_simp; ring
    · obtain ⟨hZ', rfl⟩ := hg
      have c0 := curve_eq k
      have c1 := curve_eq k'
      have sc : ∀ {Xs Zs Xd Zd : K}, Biq A x 1 x' 1 Xs Zs Xd Zd → Biq A (x * Z1) Z1 (x' * Z2) Z2 Xs Zs Xd Zd := by
        intro Xs Zs Xd Zd h
        have := h.of_scale hZ hZ'
        rwa [mul_one, mul_one, mul_comm Z1 x, mul_comm Z2 x'] at this
      obtain ⟨k3, e3⟩ := neg_pt k'
      rw [sub_eq_add_neg, e3]
      by_cases hx : x = x'
      · subst hx
        have hyy : (y - y') * (y + y') = 0 := by linear_combination c0 - c1
        -- the double of a point and infinity
        have dbl : ∃ Xs Zs, KRep Xs Zs ((Point.some x y k : MPoint A) + .some x y k) ∧ Biq A x 1 x 1 Xs Zs 1 0 := by
          by_cases hy : y = 0
          · subst hy
            refine ⟨1, 0, ?_, ((x * x - 1)⁻¹) ^ 2, ?_⟩
            · rw [add_opp (by simp)]; exact ⟨one_ne_zero, rfl⟩
            · have hn : x * x - 1 ≠ 0 := by
                intro h0
                have hns := ((mont A).nonsingular_iff' x 0).mp k
                have hx0 : x ≠ 0 := by rintro rfl; simp at h0
                rcases hns.2 with h | h
                · apply h
                  simp only [mont]
                  have : x * x + A * x + 1 = 0 := mul_left_cancel₀ hx0 (by linear_combination -c0)
                  linear_combination -2 * this - h0
                · apply h; simp [mont]
              refine ⟨pow_ne_zero 2 (inv_ne_zero hn), ?_, ?_, ?_⟩
              · rw [one_mul, inv_pow, inv_mul_cancel₀ (pow_ne_zero 2 hn)]
              · ring
              · linear_combination 4 * ((x * x - 1)⁻¹) ^ 2 * c0
          · obtain ⟨l, hl⟩ : ∃ l, l * (2 * y) = 3 * x * x + 2 * A * x + 1 := ⟨(3 * x * x + 2 * A * x + 1) / (2 * y), by field_simp⟩
            obtain ⟨h3, e⟩ := add_dbl (h := k) (h' := k) h2 hy hl
            rw [e]
            have h4 : (4 : K) ≠ 0 := by rw [show (4 : K) = 2 * 2 by norm_num]; exact mul_ne_zero h2 h2
            have h4y := mul_ne_zero h4 (mul_ne_zero hy hy)
            refine ⟨_, 1, ⟨one_ne_zero, (mul_one _).symm⟩, (4 * (y * y))⁻¹, inv_ne_zero h4y, ?_, ?_, ?_⟩
            · rw [inv_mul_eq_div, eq_div_iff h4y]
              linear_combination (l * (2 * y) + (3 * x * x + 2 * A * x + 1)) * hl - 4 * (A + 2 * x) * c0
            · ring
            · rw [inv_mul_eq_div, eq_div_iff h4y]
              linear_combination 4 * c0
        obtain ⟨Xs, Zs, r1, r2⟩ := dbl
        rcases mul_eq_zero.mp hyy with h | h
        · obtain rfl : y = y' := sub_eq_zero.mp h
          refine ⟨Xs, Zs, 1, 0, r1, ?_, sc r2⟩
          rw [add_opp (by ring)]; exact ⟨one_ne_zero, rfl⟩
        · have hy' : -y' = y := by linear_combination -h
          refine ⟨1, 0, Xs, Zs, ?_, ?_, sc ?_⟩
          · rw [add_opp (by linear_combination h)]; exact ⟨one_ne_zero, rfl⟩
          · rw [(pt_congr (h := k3) rfl hy').choose_spec]; exact r1
          · obtain ⟨c, hc, a1, a2, a3⟩ := r2
            exact ⟨c, hc, by linear_combination a1, by linear_combination a2, by linear_combination a3⟩
      · have hd : x' - x ≠ 0 := sub_ne_zero.mpr (Ne.symm hx)
        obtain ⟨l, hl⟩ : ∃ l, l * (x' - x) = y' - y := ⟨(y' - y) / (x' - x), by field_simp⟩
        obtain ⟨m, hm⟩ : ∃ m, m * (x' - x) = -y' - y := ⟨(-y' - y) / (x' - x), by field_simp⟩
        obtain ⟨h4, e4⟩ := add_gen (h1 := k) (h2 := k') hx hl
        obtain ⟨h5, e5⟩ := add_gen (h1 := k) (h2 := k3) hx hm
        rw [e4, e5]
        have hd2 := pow_ne_zero 2 hd
        have sd := sum_diff_x hx c0 c1 hl (m := m * -1) (by linear_combination hm)
        refine ⟨_, 1, _, 1, ⟨one_ne_zero, (mul_one _).symm⟩, ⟨one_ne_zero, (mul_one _).symm⟩, sc
          ⟨((x' - x) ^ 2)⁻¹, inv_ne_zero hd2, ?_, ?_, ?_⟩⟩
        · rw [inv_mul_eq_div, eq_div_iff hd2]
          linear_combination sd
        · rw [inv_mul_eq_div, eq_div_iff hd2]; ring
        · rw [inv_mul_eq_div, eq_div_iff hd2]
          linear_combination (l * (x' - x) + (y' - y)) * hl + (m * (x' - x) + (-y' - y)) * hm + 2 * c0 + 2 * c1

/-- Two x-coordinates satisfying the equations are those of sum and difference, in one order. -/
theorem biq_krep (h2 : (2 : K) ≠ 0) {A X1 Z1 X2 Z2 Xs Zs Xd Zd : K} {f g : MPoint A} (hf : KRep X1 Z1 f)
    (hg : KRep X2 Z2 g) (h : Biq A X1 Z1 X2 Z2 Xs Zs Xd Zd) (hs : Xs ≠ 0 ∨ Zs ≠ 0) :
    KRep Xs Zs (f + g) ∧ KRep Xd Zd (f - g) ∨ KRep Xs Zs (f - g) ∧ KRep Xd Zd (f + g) := by
  obtain ⟨Xp, Zp, Xm, Zm, k1, k2, c', hc', a1, a2, a3⟩ := biq_exists h2 hf hg
  obtain ⟨c, hc, b1, b2, b3⟩ := h
  rcases kpair_eq (k := c / c') (div_ne_zero hc hc') hs k1.ne k2.ne (by rw [b1, a1]; field_simp)
    (by rw [b2, a2]; field_simp) (by rw [b3, a3]; field_simp) with ⟨u, v, hu, hv, rfl, rfl, rfl, rfl⟩ | ⟨u, v, hu, hv, rfl, rfl, rfl, rfl⟩
  · exact .inl ⟨krep_mul hu k1, krep_mul hv k2⟩
  · exact .inr ⟨krep_mul hu k2, krep_mul hv k1⟩

end Festa

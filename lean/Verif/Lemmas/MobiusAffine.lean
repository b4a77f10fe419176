import Verif.Lemmas.PolyHom
import Verif.Lemmas.ECIso
import Verif.Lemmas.Divisible
/-! A map of curves that respects sums and differences up to sign and is a linear fractional function of the abscissa of
an isogeny is that isogeny followed by an isomorphism. -/
namespace Festa
open WeierstrassCurve.Affine Polynomial Filter
variable {L : Type*} [Field L] [DecidableEq L] [IsAlgClosed L] {A AF A' : L}

/-- Sums and differences go to sums and differences, up to sign and order. -/
def QHom (g : MPoint A → MPoint A') : Prop := ∀ x y,
  (g (x + y) = g x + g y ∨ g (x + y) = -(g x + g y)) ∧ (g (x - y) = g x - g y ∨ g (x - y) = -(g x - g y)) ∨
  (g (x + y) = g x - g y ∨ g (x + y) = -(g x - g y)) ∧ (g (x - y) = g x + g y ∨ g (x - y) = -(g x + g y))

omit [DecidableEq L] [IsAlgClosed L] in
theorem xc_or {P Q : MPoint A} (h : P = Q ∨ P = -Q) : xc P = xc Q := by
  rcases h with rfl | rfl
  · rfl
  · exact xc_neg _

variable {g : MPoint A → MPoint A'} {ν : MPoint A →+ MPoint AF} {a b c d : L}

theorem QHom.pole (h : QHom g) (h2 : (2 : L) ≠ 0) (hA : A * A ≠ 4) (tν : Tendsto ν cofinite cofinite)
    (hdet : a * d - b * c ≠ 0) (hg : ∀ᶠ T in cofinite, ν T ≠ 0 ∧ g T ≠ 0 ∧ c * xc (ν T) + d ≠ 0 ∧
      xc (g T) * (c * xc (ν T) + d) = a * xc (ν T) + b) : c = 0 := by
  have := infinite_points h2 hA
  by_contra hc
  -- the equation for almost all points
  have key : ∀ᶠ S in cofinite, c * xc (g S) ^ 3 - 3 * a * xc (g S) ^ 2 - (c + 2 * A' * a) * xc (g S) - a = 0 := by
    filter_upwards [hg] with S ⟨s1, s2, s3, s4⟩
    generalize hs : xc (ν S) = s at *
    generalize hs' : xc (g S) = s' at *
    let t0 : L[X] := (1 - C s * X) ^ 2
    let t1 : L[X] := C 2 * ((1 + C s * X) * (C s + X) + C (2 * AF * s) * X)
    let t2 : L[X] := (C s - X) ^ 2
    let x : L[X] := C a + C b * X
    let z : L[X] := C c + C d * X
    let pz : L[X] := (C (2 * a * c) * t2 + C (a * d + b * c) * t1 + C (2 * b * d) * t0) * (x - C s' * z) ^ 2 -
      (C (c ^ 2) * t2 + C (c * d) * t1 + C (d ^ 2) * t0) *
        (C 2 * ((x + C s' * z) * (x * C s' + z) + C (2 * A' * s') * x * z))
    have ev : ∀ᶠ T : MPoint A in cofinite, pz.eval (xc (ν T))⁻¹ = 0 := by
      filter_upwards [hg, (tendsto_add S).eventually hg, (tendsto_add (-S)).eventually hg, tν.eventually (ev_ne (ν S)),
        tν.eventually (ev_ne (-ν S)), tν.eventually (ev_ne_zero (X_ne_zero (R := L)))] with T ⟨k1, k2, k3, k4⟩ ⟨u1, u2, u3, u4⟩
        ⟨w1, w2, w3, w4⟩ n1 n2 n3
      rw [eval_X] at n3
      rw [← sub_eq_add_neg] at w1 w2 w3 w4
      have nx : xc (ν T) ≠ xc (ν S) := by
        intro e
        rcases (xc_eq_iff k1 s1).mp e with e | e
        · exact n1 e
        · exact n2 e
      have ng : xc (g T) ≠ xc (g S) := by
        intro e
        rw [e, hs'] at k4
        apply nx
        rw [hs]
        have : (a * d - b * c) * (xc (ν T) - s) = 0 := by linear_combination (c * s + d) * k4 * (-1) + (c * xc (ν T) + d) * s4
        exact sub_eq_zero.mp ((mul_eq_zero.mp this).resolve_left hdet)
      have p0 := phi3_eq k1 s1 nx 0
      have p1 := xc_add k1 s1 nx
      have p2 := xc_sub k1 s1 nx
      have q1 := xc_add k2 s2 ng
      have q2 := xc_sub k2 s2 ng
      rw [← map_add] at p0 p1
      rw [← map_sub] at p0 p2
      have q3 : (xc (g (T + S)) + xc (g (T - S))) * (xc (g T) - xc (g S)) ^ 2 = 2 * sfun A' (xc (g T)) (xc (g S)) := by
        rcases h T S with ⟨e1, e2⟩ | ⟨e1, e2⟩
        · rw [xc_or e1, xc_or e2]; linear_combination q1 + q2
        · rw [xc_or e1, xc_or e2]; linear_combination q1 + q2
      have p3 : (xc (ν (T + S)) + xc (ν (T - S))) * (xc (ν T) - xc (ν S)) ^ 2 = 2 * sfun AF (xc (ν T)) (xc (ν S)) := by
        linear_combination p1 + p2
      have nd : (xc (ν T) - xc (ν S)) ^ 2 ≠ 0 := pow_ne_zero _ (sub_ne_zero.mpr nx)
      clear q1 q2 p1 p2 ng nx n1 n2 u1 u2 w1 w2 k1 k2
      rw [hs, hs'] at *
      generalize xc (ν T) = ξ at *
      generalize xc (g T) = ξ' at *
      generalize xc (ν (T + S)) = X3 at *
      generalize xc (ν (T - S)) = X4 at *
      generalize xc (g (T + S)) = Y3 at *
      generalize xc (g (T - S)) = Y4 at *
      unfold phi3 at p0
      unfold sfun at p0 p3 q3
      have p0 : X3 * X4 * (ξ - s) ^ 2 = (ξ * s - 1) ^ 2 := by linear_combination p0
      -- the sum of the images
      have r1 : (Y3 + Y4) * (c ^ 2 * (ξ * s - 1) ^ 2 + c * d * (2 * ((ξ * s + 1) * (ξ + s) + 2 * AF * ξ * s)) + d ^ 2 * (ξ - s) ^ 2) =
          2 * a * c * (ξ * s - 1) ^ 2 + (a * d + b * c) * (2 * ((ξ * s + 1) * (ξ + s) + 2 * AF * ξ * s)) + 2 * b * d * (ξ - s) ^ 2 := by
        rw [← p0, ← p3]
        linear_combination (ξ - s) ^ 2 * (c * X4 + d) * u4 + (ξ - s) ^ 2 * (c * X3 + d) * w4
      have r2 : (Y3 + Y4) * ((a * ξ + b) - s' * (c * ξ + d)) ^ 2 =
          2 * (((a * ξ + b) + s' * (c * ξ + d)) * ((a * ξ + b) * s' + (c * ξ + d)) + 2 * A' * s' * (a * ξ + b) * (c * ξ + d)) := by
        rw [← k4]
        linear_combination (c * ξ + d) ^ 2 * q3
      have r3 : (2 * a * c * (ξ * s - 1) ^ 2 + (a * d + b * c) * (2 * ((ξ * s + 1) * (ξ + s) + 2 * AF * ξ * s)) + 2 * b * d * (ξ - s) ^ 2) *
          ((a * ξ + b) - s' * (c * ξ + d)) ^ 2 =
          (c ^ 2 * (ξ * s - 1) ^ 2 + c * d * (2 * ((ξ * s + 1) * (ξ + s) + 2 * AF * ξ * s)) + d ^ 2 * (ξ - s) ^ 2) *
          (2 * (((a * ξ + b) + s' * (c * ξ + d)) * ((a * ξ + b) * s' + (c * ξ + d)) + 2 * A' * s' * (a * ξ + b) * (c * ξ + d))) := by
        rw [← r1, ← r2]; ring
      simp only [pz, t0, t1, t2, x, z, eval_sub, eval_mul, eval_add, eval_pow, eval_C, eval_X, eval_one]
      have hζ : ξ⁻¹ * ξ = 1 := inv_mul_cancel₀ n3
      apply mul_left_cancel₀ (pow_ne_zero 4 n3)
      rw [mul_zero]
      field_simp
      linear_combination r3
    have hpz : pz = 0 := by
      by_contra hpz
      have f1 : ∀ᶠ x : L in cofinite, pz.eval x ≠ 0 := by
        rw [eventually_cofinite]
        refine (Finset.finite_toSet pz.roots.toFinset).subset fun x hx => ?_
        exact Multiset.mem_toFinset.mpr ((mem_roots hpz).mpr (not_not.mp hx))
      have f2 := tν.eventually (tendsto_xc.eventually ((Function.Injective.tendsto_cofinite (inv_injective (G := L))).eventually f1))
      obtain ⟨T, z1, z2⟩ := (ev.and f2).exists
      exact z2 z1
    have h0 := congrArg (Polynomial.eval 0) hpz
    simp only [pz, t0, t1, t2, x, z, eval_sub, eval_mul, eval_add, eval_pow, eval_C, eval_X, eval_one, eval_zero, mul_zero, add_zero,
      sub_zero, one_pow, mul_one, one_mul] at h0
    apply mul_left_cancel₀ (mul_ne_zero h2 (mul_ne_zero hc (pow_ne_zero 2 s3)))
    linear_combination h0 + 2 * (a - s' * c) ^ 2 * (c * s + d) * s4
  let κ : L[X] := C c * (C a * X + C b) ^ 3 - C (3 * a) * (C a * X + C b) ^ 2 * (C c * X + C d) -
    C (c + 2 * A' * a) * (C a * X + C b) * (C c * X + C d) ^ 2 - C a * (C c * X + C d) ^ 3
  have hκ : κ = 0 := by
    by_contra hκ
    obtain ⟨T, ⟨-, -, t3, t4⟩, t5, t6⟩ := (hg.and (key.and (tν.eventually (ev_ne_zero hκ)))).exists
    apply t6
    simp only [κ, eval_sub, eval_mul, eval_add, eval_pow, eval_C, eval_X]
    rw [← t4]
    linear_combination (c * xc (ν T) + d) ^ 3 * t5
  have h0 := congrArg (Polynomial.eval (-d / c)) hκ
  simp only [κ, eval_sub, eval_mul, eval_add, eval_pow, eval_C, eval_X, eval_zero] at h0
  have z0 : c * (-d / c) + d = 0 := by field_simp; ring
  rw [z0] at h0
  have z1 : c * (a * (-d / c) + b) ^ 3 = 0 := by linear_combination h0
  have z2 : a * (-d / c) + b = 0 := pow_eq_zero_iff (by norm_num) |>.mp ((mul_eq_zero.mp z1).resolve_left hc)
  field_simp at z2
  exact hdet (by linear_combination -z2)

/-- The doubling formula pins down the linear function. -/
theorem QHom.coeffs (h : QHom g) (h2 : (2 : L) ≠ 0) (hA : A * A ≠ 4) (hF : AF * AF ≠ 4) (tν : Tendsto ν cofinite cofinite)
    {u v : L} (hu : u ≠ 0) (hg : ∀ᶠ T in cofinite, ν T ≠ 0 ∧ g T ≠ 0 ∧ xc (g T) = u * xc (ν T) + v) :
    3 * v + A' = u * AF ∧ 3 * v * v + 2 * A' * v + 1 = u * u ∧ v * (v * v + A' * v + 1) = 0 := by
  have := infinite_points h2 hA
  have h4 : (4 : L) ≠ 0 := by
    rw [show (4 : L) = 2 * 2 by norm_num]; exact mul_ne_zero h2 h2
  have t2 : Tendsto (fun T : MPoint A => T + T) cofinite cofinite := by
    have := tendsto_hom (φ := nsmulAddMonoidHom (α := MPoint A) 2) (torsion_finite h2 hA two_ne_zero)
    refine this.congr fun T => ?_
    exact two_nsmul T
  let f : L[X] := X ^ 3 + C AF * X ^ 2 + X
  let y : L[X] := C u * X + C v
  let pz : L[X] := (C u * (X ^ 2 - 1) ^ 2 + C (4 * v) * f) * (y ^ 3 + C A' * y ^ 2 + y) - (y ^ 2 - 1) ^ 2 * f
  have hpz : pz = 0 := by
    by_contra hne
    obtain ⟨T, ⟨k1, k2, k3⟩, ⟨w1, w2, w3⟩, k4⟩ := (hg.and ((t2.eventually hg).and (tν.eventually (ev_ne_zero hne)))).exists
    apply k4
    have eg : xc (g (T + T)) = xc (g T + g T) ∧ g T + g T ≠ 0 := by
      rcases h T T with ⟨e, -⟩ | ⟨e, -⟩
      · refine ⟨xc_or e, fun h0 => w2 ?_⟩
        rw [h0, neg_zero] at e
        exact e.elim id id
      · rw [sub_self, neg_zero] at e
        exact absurd (e.elim id id) w2
    have d1 := xc_double h2 eg.2
    rw [map_add] at w1 w3
    have d2 := xc_double h2 w1
    rw [yc_sq k2] at d1
    rw [yc_sq k1] at d2
    rw [← eg.1, w3, k3] at d1
    generalize xc (ν T + ν T) = X2 at *
    generalize xc (ν T) = ξ at *
    simp only [pz, f, y, eval_sub, eval_mul, eval_add, eval_pow, eval_C, eval_X, eval_one]
    linear_combination (ξ ^ 3 + AF * ξ ^ 2 + ξ) * d1 - u * ((u * ξ + v) ^ 3 + A' * (u * ξ + v) ^ 2 + (u * ξ + v)) * d2
  have hroot : ∀ ε : L, ε ^ 3 + AF * ε ^ 2 + ε = 0 → (u * ε + v) ^ 3 + A' * (u * ε + v) ^ 2 + (u * ε + v) = 0 := by
    intro ε hε
    have h0 := congrArg (Polynomial.eval ε) hpz
    simp only [pz, f, y, eval_sub, eval_mul, eval_add, eval_pow, eval_C, eval_X, eval_one, eval_zero] at h0
    have n1 : ε ^ 2 - 1 ≠ 0 := by
      intro e
      apply hF
      have e2 : ε * (AF * ε + 2) = 0 := by linear_combination hε - ε * e
      have e3 : ε ≠ 0 := by rintro rfl; norm_num at e
      have e4 := (mul_eq_zero.mp e2).resolve_left e3
      linear_combination (AF * ε - 2) * e4 - AF * AF * e
    have : u * (ε ^ 2 - 1) ^ 2 * ((u * ε + v) ^ 3 + A' * (u * ε + v) ^ 2 + (u * ε + v)) = 0 := by
      rw [hε] at h0
      linear_combination h0
    exact (mul_eq_zero.mp this).resolve_left (mul_ne_zero hu (pow_ne_zero _ n1))
  have r0 := hroot 0 (by ring)
  obtain ⟨s, hs⟩ := IsAlgClosed.exists_pow_nat_eq (AF * AF - 4) (n := 2) (by norm_num)
  have hs0 : s ≠ 0 := by
    rintro rfl
    exact hF (by linear_combination -hs)
  -- the two other roots
  have q : ∀ x, 2 * x = -AF + s ∨ 2 * x = -AF - s → x ^ 2 + AF * x + 1 = 0 := by
    intro x hx
    apply mul_left_cancel₀ h4
    rcases hx with e | e
    · linear_combination (2 * x + AF + s) * e + hs
    · linear_combination (2 * x + AF - s) * e + hs
  have k : ∀ x, x ^ 2 + AF * x + 1 = 0 → (3 * v + A' - u * AF) * u * x + (3 * v * v + 2 * A' * v + 1 - u * u) = 0 := by
    intro x hx
    have rx := hroot x (by linear_combination x * hx)
    have nx : x ≠ 0 := by rintro rfl; norm_num at hx
    apply mul_left_cancel₀ (mul_ne_zero hu nx)
    linear_combination rx - r0 - u ^ 3 * x * hx
  have e1 : 2 * ((-AF + s) / 2) = -AF + s := by field_simp
  have e2 : 2 * ((-AF - s) / 2) = -AF - s := by field_simp
  have k1 := k _ (q _ (.inl e1))
  have k2 := k _ (q _ (.inr e2))
  have z1 : 3 * v + A' - u * AF = 0 := by
    have e3 : (-AF + s) / 2 - (-AF - s) / 2 = s := by field_simp; ring
    have : (3 * v + A' - u * AF) * (u * s) = 0 := by linear_combination k1 - k2 - (3 * v + A' - u * AF) * u * e3
    exact (mul_eq_zero.mp this).resolve_right (mul_ne_zero hu hs0)
  have z2 : 3 * v * v + 2 * A' * v + 1 - u * u = 0 := by
    rwa [z1, zero_mul, zero_mul, zero_add] at k1
  refine ⟨by linear_combination z1, by linear_combination z2, by linear_combination r0⟩

theorem QHom.iso (h : QHom g) (h2 : (2 : L) ≠ 0) (hA : A * A ≠ 4) (hF : AF * AF ≠ 4) (hA' : A' * A' ≠ 4)
    (tν : Tendsto ν cofinite cofinite) (hdet : a * d - b * c ≠ 0)
    (hg : ∀ᶠ T in cofinite, ν T ≠ 0 ∧ g T ≠ 0 ∧ c * xc (ν T) + d ≠ 0 ∧ xc (g T) * (c * xc (ν T) + d) = a * xc (ν T) + b) :
    ∃ (u v w : L) (ι : MPoint AF ≃+ MPoint A'), u ≠ 0 ∧ w * w = u * u * u ∧ 3 * v + A' = u * AF ∧
      3 * v * v + 2 * A' * v + 1 = u * u ∧ v * (v * v + A' * v + 1) = 0 ∧
      (∀ Q, Q ≠ 0 → xc (ι Q) = u * xc Q + v ∧ yc (ι Q) = w * yc Q) ∧ ∀ T, g T = ι (ν T) ∨ g T = -ι (ν T) := by
  have := infinite_points h2 hA
  have hc := h.pole h2 hA tν hdet hg
  subst hc
  simp only [zero_mul, zero_add, mul_zero, sub_zero] at hdet hg
  have ha : a ≠ 0 := left_ne_zero_of_mul hdet
  have hd : d ≠ 0 := right_ne_zero_of_mul hdet
  have hu : a / d ≠ 0 := div_ne_zero ha hd
  have hg' : ∀ᶠ T in cofinite, ν T ≠ 0 ∧ g T ≠ 0 ∧ xc (g T) = a / d * xc (ν T) + b / d := by
    filter_upwards [hg] with T ⟨t1, t2, t3, t4⟩
    refine ⟨t1, t2, ?_⟩
    apply mul_right_cancel₀ hd
    rw [t4]
    field_simp
  generalize a / d = u at *
  generalize b / d = v at *
  obtain ⟨e1, e2, e3⟩ := h.coeffs h2 hA hF tν hu hg'
  obtain ⟨w, hw⟩ := IsAlgClosed.exists_pow_nat_eq (u * u * u) (n := 2) (by norm_num)
  rw [pow_two] at hw
  have hw0 : w ≠ 0 := by
    rintro rfl
    rw [mul_zero] at hw
    exact mul_ne_zero (mul_ne_zero hu hu) hu hw.symm
  have hp := fun x y k => iso_point (x := x) (y := y) h2 hA' hw e1 e2 e3 k
  obtain ⟨ι, hι⟩ := exists_iso hp (isoMap_bij hu hw0 hp h2 hF hw e1 e2 e3) (isoMap_add h2 hu hw0 hw e1 e2 hp)
  have hxy : ∀ Q, Q ≠ 0 → xc (ι Q) = u * xc Q + v ∧ yc (ι Q) = w * yc Q := by
    intro Q hQ
    obtain ⟨x, y, k, rfl⟩ := exists_some hQ
    rw [hι]
    exact ⟨rfl, rfl⟩
  refine ⟨u, v, w, ι, hu, hw, e1, e2, e3, hxy, ?_⟩
  have gen : ∀ᶠ T in cofinite, g T = ι (ν T) ∨ g T = -ι (ν T) := by
    filter_upwards [hg'] with T ⟨t1, t2, t3⟩
    refine (xc_eq_iff t2 ?_).mp ?_
    · exact (AddEquiv.map_ne_zero_iff (h := ι)).mpr t1
    · rw [t3, (hxy _ t1).1]
  intro T
  have t2 : Tendsto (fun T : MPoint A => 2 • T) cofinite cofinite :=
    tendsto_hom (φ := nsmulAddMonoidHom (α := MPoint A) 2) (torsion_finite h2 hA two_ne_zero)
  have t2F : Tendsto (fun T : MPoint AF => 2 • T) cofinite cofinite :=
    tendsto_hom (φ := nsmulAddMonoidHom (α := MPoint AF) 2) (torsion_finite h2 hF two_ne_zero)
  obtain ⟨S, s1, s2, s3, s4, s5⟩ := (gen.and (((tendsto_add T).eventually gen).and
    (((tendsto_add T).comp t2).eventually gen |>.and ((t2F.comp tν).eventually (ev_ne 0) |>.and
      ((t2F.comp tν).eventually (ev_ne (-(2 • ν T)))))))).exists
  simp only [Function.comp_apply] at s3 s4 s5
  have hS := h (S + T) S
  rw [show S + T + S = 2 • S + T by rw [two_nsmul]; abel, show S + T - S = T by abel] at hS
  rw [map_add] at s2
  rw [map_add, map_nsmul] at s3
  rw [map_add] at s2
  rw [map_add, map_nsmul] at s3
  have neg : ∀ {x y z : MPoint A'}, (x = y ∨ x = -y) → (y = z ∨ y = -z) → (x = z ∨ x = -z) := by
    rintro x y z (rfl | rfl) (rfl | rfl) <;> simp
  -- sum and difference of the two values
  have hk : (g (S + T) + g S = 2 • ι (ν S) + ι (ν T) ∨ g (S + T) + g S = -(2 • ι (ν S) + ι (ν T))) ∧
      (g (S + T) - g S = ι (ν T) ∨ g (S + T) - g S = -ι (ν T)) ∨
      (g (S + T) - g S = 2 • ι (ν S) + ι (ν T) ∨ g (S + T) - g S = -(2 • ι (ν S) + ι (ν T))) ∧
      (g (S + T) + g S = ι (ν T) ∨ g (S + T) + g S = -ι (ν T)) := by
    rw [two_nsmul]
    rcases s2 with s2 | s2 <;> rcases s1 with s1 | s1 <;> rw [s1, s2]
    · left; exact ⟨.inl (by abel), .inl (by abel)⟩
    · right; exact ⟨.inl (by abel), .inl (by abel)⟩
    · right; exact ⟨.inr (by abel), .inr (by abel)⟩
    · left; exact ⟨.inr (by abel), .inr (by abel)⟩
  have bad : ¬ (g (2 • S + T) = ι (ν T) ∨ g (2 • S + T) = -ι (ν T)) := by
    intro hb
    have : 2 • ι (ν S) + ι (ν T) = ι (ν T) ∨ 2 • ι (ν S) + ι (ν T) = -ι (ν T) := by
      refine neg (y := g (2 • S + T)) ?_ hb
      rcases s3 with e | e
      · exact .inl e.symm
      · right; rw [e, neg_neg]
    rcases this with e | e
    · rw [add_eq_right, ← map_nsmul] at e
      exact s4 ((AddEquiv.map_eq_zero_iff (h := ι)).mp e)
    · apply s5
      apply ι.injective
      rw [map_neg, map_nsmul, map_nsmul, two_nsmul (ι (ν T))]
      rw [← sub_eq_zero] at e ⊢
      rw [← e]; abel
  rcases hS with ⟨a1, a2⟩ | ⟨a1, a2⟩ <;> rcases hk with ⟨b1, b2⟩ | ⟨b1, b2⟩
  · exact neg a2 b2
  · exact absurd (neg a1 b2) bad
  · exact absurd (neg a1 b2) bad
  · exact neg a2 b2

end Festa

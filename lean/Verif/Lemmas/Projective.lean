import Verif.Spec.Projective
import Verif.Lemmas.ProductMap
/-! `product_isogeny` sees the points only through their projective classes. -/
namespace Festa

section
variable {K : Type*} [Field K]

theorem Pt.Same.refl (P : Pt K) : P.Same P := ⟨1, one_ne_zero, by simp⟩
theorem CPt.Same.refl (P : CPt K) : P.Same P := ⟨Pt.Same.refl _, Pt.Same.refl _⟩

theorem Crv.double_projective [DecidableEq K] (E : Crv K) {P Q : Pt K} (h : P.Same Q) : (E.double P).Same (E.double Q) := by
  obtain ⟨c, hc, rfl⟩ := h
  refine ⟨c ^ 6, pow_ne_zero 6 hc, ?_⟩
  simp only [Crv.double, Pt.mk.injEq]
  exact ⟨by ring, by ring, by ring⟩

variable [DecidableEq K]

theorem Crv.add_projective (E : Crv K) {P Q P' Q' : Pt K} (h : P.Same P') (h' : Q.Same Q') :
    (E.add P Q).Same (E.add P' Q') := by
  obtain ⟨c, hc, rfl⟩ := h
  obtain ⟨d, hd, rfl⟩ := h'
  obtain ⟨X, Y, Z⟩ := P
  obtain ⟨U, V, W⟩ := Q
  have e1 : (d * U * (c * Z) - c * X * (d * W) = 0) = (U * Z - X * W = 0) := by
    rw [show d * U * (c * Z) - c * X * (d * W) = c * d * (U * Z - X * W) by ring]
    simp [hc, hd]
  have e2 : (d * V * (c * Z) - c * Y * (d * W) = 0) = (V * Z - Y * W = 0) := by
    rw [show d * V * (c * Z) - c * Y * (d * W) = c * d * (V * Z - Y * W) by ring]
    simp [hc, hd]
  by_cases hW : W = 0
  · refine ⟨c, hc, ?_⟩
    simp [Crv.add, Pt.cond, cond', hW]
  by_cases hZ : Z = 0
  · refine ⟨d, hd, ?_⟩
    simp [Crv.add, Pt.cond, cond', hW, hZ, hd]
  have hcZ : c * Z ≠ 0 := mul_ne_zero hc hZ
  have hdW : d * W ≠ 0 := mul_ne_zero hd hW
  by_cases hb : U * Z - X * W = 0 ∧ V * Z - Y * W = 0
  · refine ⟨c ^ 7 * d, mul_ne_zero (pow_ne_zero 7 hc) hd, ?_⟩
    simp only [Crv.add, e1, e2, hb.1, hb.2, hW, hZ, hcZ, hdW, decide_true, decide_false, Bool.and_self, Pt.cond, cond', if_true,
      Bool.false_eq_true, if_false, Pt.mk.injEq]
    exact ⟨by ring, by ring, by ring⟩
  · have hb' : (decide (U * Z - X * W = 0) && decide (V * Z - Y * W = 0)) = false := by
      rw [← Bool.decide_and]; exact decide_eq_false hb
    refine ⟨(c * d) ^ 4, pow_ne_zero 4 (mul_ne_zero hc hd), ?_⟩
    simp only [Crv.add, e1, e2, hb', hW, hZ, hcZ, hdW, decide_false, Pt.cond, cond', Bool.false_eq_true, if_false, Pt.mk.injEq]
    exact ⟨by ring, by ring, by ring⟩

theorem Crv.doubleIter_projective (E : Crv K) {P Q : Pt K} (h : P.Same Q) (n : Nat) :
    (E.doubleIter P n).Same (E.doubleIter Q n) := by
  induction n with
  | zero => exact h
  | succ n ih =>
    rw [Crv.doubleIter, Crv.doubleIter, Function.iterate_succ_apply', Function.iterate_succ_apply']
    exact E.double_projective ih

theorem EProd.doubleIter_projective (E : EProd K) {P Q : CPt K} (h : P.Same Q) (n : Nat) :
    (E.doubleIter P n).Same (E.doubleIter Q n) :=
  ⟨E.E1.doubleIter_projective h.1 n, E.E2.doubleIter_projective h.2 n⟩

/-! ### Gluing -/

omit [DecidableEq K] in
private theorem cc {c : K} (hc : c ≠ 0) (x y : K) : c * x * (c * y)⁻¹ = x * y⁻¹ := by
  rw [← div_eq_mul_inv, ← div_eq_mul_inv, mul_div_mul_left _ _ hc]

omit [DecidableEq K] in
theorem baseSubmatrix_projective (E : Crv K) {P Q : Pt K} (h : P.Same Q) : baseSubmatrix E Q = baseSubmatrix E P := by
  obtain ⟨c, hc, rfl⟩ := h
  obtain ⟨X, Y, Z⟩ := P
  have e : E.xDbl (c * X) (c * Z) = (c ^ 4 * (E.xDbl X Z).1, c ^ 4 * (E.xDbl X Z).2) := by
    simp only [Crv.xDbl, Prod.mk.injEq]
    exact ⟨by ring, by ring⟩
  simp only [baseSubmatrix, e]
  generalize (E.xDbl X Z).1 = u
  generalize (E.xDbl X Z).2 = w
  have h5 := pow_ne_zero 5 hc
  have a0 : c ^ 4 * w * (c * X) = c ^ 5 * (w * X) := by ring
  have a1 : c ^ 4 * u * (c * Z) = c ^ 5 * (u * Z) := by ring
  have a2 : c ^ 4 * w * (c * Z) = c ^ 5 * (w * Z) := by ring
  have a3 : c ^ 4 * u * (c * X) = c ^ 5 * (u * X) := by ring
  simp only [a0, a1, a2, a3, ← mul_sub, cc h5, cc hc]

omit [DecidableEq K] in
theorem baseMatrix_projective (E : EProd K) {P Q P' Q' : CPt K} (h : P.Same P') (h' : Q.Same Q') :
    baseMatrix E P' Q' = baseMatrix E P Q := by
  unfold baseMatrix
  rw [baseSubmatrix_projective _ h.1, baseSubmatrix_projective _ h.2, baseSubmatrix_projective _ h'.1,
    baseSubmatrix_projective _ h'.2]

theorem fixXZ_projective {X Z c : K} (hc : c ≠ 0) : ∃ d : K, d ≠ 0 ∧
    fixXZ (c * X) (c * Z) = (d * (fixXZ X Z).1, d * (fixXZ X Z).2) := by
  by_cases h : X = 0 ∧ Z = 0
  · refine ⟨1, one_ne_zero, ?_⟩
    simp [fixXZ, h.1, h.2]
  · refine ⟨c, hc, ?_⟩
    have : (decide (X = 0) && decide (Z = 0)) = false := by rw [← Bool.decide_and]; exact decide_eq_false h
    simp [fixXZ, hc, this, cond']

theorem baseChangeCouple_projective (M : Mat4 K) {P Q : CPt K} (h : P.Same Q) :
    (baseChangeCouple P M).Same (baseChangeCouple Q M) := by
  obtain ⟨⟨c, hc, e1⟩, d, hd, e2⟩ := h
  obtain ⟨a, ha, f1⟩ := fixXZ_projective (X := P.P1.X) (Z := P.P1.Z) hc
  obtain ⟨b, hb, f2⟩ := fixXZ_projective (X := P.P2.X) (Z := P.P2.Z) hd
  simp only [baseChangeCouple, e1, e2, f1, f2]
  refine baseChange_same M ⟨a * b, mul_ne_zero ha hb, ?_⟩
  simp only [ThPt.scale, ThPt.mk.injEq]
  exact ⟨by ring, by ring, by ring, by ring⟩

omit [DecidableEq K] in
private theorem get_scale (c : K) (P : ThPt K) (i : Fin 4) : (P.scale c).get i = c * P.get i := by
  fin_cases i <;> rfl

theorem zeroIndex_scale {c : K} (hc : c ≠ 0) (P : ThPt K) : zeroIndex (P.scale c) = zeroIndex P := by
  simp [zeroIndex, ThPt.scale, hc]

theorem gluingCodomain_projective {T1 T2 T1' T2' : ThPt K} (h : T1.Same T1') (h' : T2.Same T2') :
    gluingCodomain T1' T2' = gluingCodomain T1 T2 := by
  obtain ⟨c, hc, rfl⟩ := h
  obtain ⟨d, hd, rfl⟩ := h'
  have c2 := pow_ne_zero 2 hc
  have d2 := pow_ne_zero 2 hd
  simp only [gluingCodomain, sqTheta_scale, zeroIndex_scale c2, get_scale, cc c2, cc d2]

theorem gluingImage_projective {T Tsh T' Tsh' : ThPt K} (h : T.Same T') (h' : Tsh.Same Tsh') (a b : K) (z : Fin 4) :
    (gluingImage T Tsh a b z).Same (gluingImage T' Tsh' a b z) := by
  obtain ⟨c, hc, rfl⟩ := h
  obtain ⟨d, hd, rfl⟩ := h'
  have c2 := pow_ne_zero 2 hc
  have d2 := pow_ne_zero 2 hd
  refine ⟨c ^ 2, c2, ?_⟩
  simp only [gluingImage, sqTheta_scale, get_scale]
  rw [← had_scale]
  congr 1
  generalize T.sqTheta.get (1 ^^^ z) = s1
  generalize T.sqTheta.get (2 ^^^ z) = s2
  generalize T.sqTheta.get (3 ^^^ z) = s3
  generalize Tsh.sqTheta.get (1 ^^^ z) = t1
  generalize Tsh.sqTheta.get (2 ^^^ z) = t2
  generalize Tsh.sqTheta.get (3 ^^^ z) = t3
  have hz : (c ^ 2 * s2 * b = 0) = (s2 * b = 0) := by rw [mul_assoc]; simp [hc]
  have key : cond' (c ^ 2 * s2 * b * (d ^ 2 * t3)⁻¹) (c ^ 2 * s3 * (d ^ 2 * t2 * b)⁻¹) (decide (c ^ 2 * s2 * b = 0)) =
      c ^ 2 * (d ^ 2)⁻¹ * cond' (s2 * b * t3⁻¹) (s3 * (t2 * b)⁻¹) (decide (s2 * b = 0)) := by
    simp only [hz, cond']
    split_ifs <;> (simp only [mul_inv]; ring)
  rw [key]
  generalize cond' (s2 * b * t3⁻¹) (s3 * (t2 * b)⁻¹) (decide (s2 * b = 0)) = lam
  have e : d ^ 2 * t1 * a * (c ^ 2 * (d ^ 2)⁻¹ * lam) = c ^ 2 * (t1 * a * lam) := by
    field_simp
  rw [e]
  have e' : (⟨c ^ 2 * (t1 * a * lam), c ^ 2 * s1 * a, c ^ 2 * s2 * b, c ^ 2 * s3⟩ : ThPt K) =
      ThPt.scale (c ^ 2) ⟨t1 * a * lam, s1 * a, s2 * b, s3⟩ := by
    simp only [ThPt.scale, mul_assoc]
  rw [e']
  simp only [get_scale]
  rfl

theorem gluing_projective (E : EProd K) {P8 Q8 P8' Q8' : CPt K} (h : P8.Same P8') (h' : Q8.Same Q8') {pts pts' : List (CPt K)}
    (hp : List.Forall₂ CPt.Same pts pts') :
    (gluingIsogeny E P8' Q8' pts').1 = (gluingIsogeny E P8 Q8 pts).1 ∧
      List.Forall₂ ThPt.Same (gluingIsogeny E P8 Q8 pts).2 (gluingIsogeny E P8' Q8' pts').2 := by
  have hP4 : (E.double P8).Same (E.double P8') := ⟨E.E1.double_projective h.1, E.E2.double_projective h.2⟩
  have hQ4 : (E.double Q8).Same (E.double Q8') := ⟨E.E1.double_projective h'.1, E.E2.double_projective h'.2⟩
  have hM := baseMatrix_projective E hP4 hQ4
  have hg := gluingCodomain_projective (baseChangeCouple_projective (baseMatrix E (E.double P8) (E.double Q8)) h)
    (baseChangeCouple_projective (baseMatrix E (E.double P8) (E.double Q8)) h')
  simp only [gluingIsogeny, hM, hg, true_and]
  rw [List.forall₂_map_left_iff, List.forall₂_map_right_iff]
  refine hp.imp fun P Q hPQ => gluingImage_projective (baseChangeCouple_projective _ hPQ) (baseChangeCouple_projective _ ?_) _ _ _
  exact ⟨E.E1.add_projective hPQ.1 hP4.1, E.E2.add_projective hPQ.2 hP4.2⟩

/-! ### The loops -/

theorem forall₂_dropLast {α : Type*} {R : α → α → Prop} {l l' : List α} (h : List.Forall₂ R l l') :
    List.Forall₂ R l.dropLast l'.dropLast := by
  induction h with
  | nil => exact .nil
  | cons h t ih =>
    cases t with
    | nil => exact .nil
    | cons h' t' => exact .cons h ih

theorem stratLoop_projective {P : Type*} {R : P → P → Prop} (dbl : P → Nat → P) (hd : ∀ x y n, R x y → R (dbl x n) (dbl y n))
    (target : Nat) : ∀ (strat : List Nat) (prev : Nat) (level : List Nat) (k1 k2 k1' k2' : P) (pts pts' : List P),
      R k1 k1' → R k2 k2' → List.Forall₂ R pts pts' → ∀ s l t1 t2 q,
      stratLoop dbl target strat prev level k1 k2 pts = some (s, l, t1, t2, q) →
      ∃ t1' t2' q', stratLoop dbl target strat prev level k1' k2' pts' = some (s, l, t1', t2', q') ∧
        R t1 t1' ∧ R t2 t2' ∧ List.Forall₂ R q q'
  | [], prev, level, k1, k2, k1', k2', pts, pts', h1, h2, h, s, l, t1, t2, q, e => by
    simp only [stratLoop] at e ⊢
    split_ifs at e ⊢ with hc
    simp only [Option.some.injEq, Prod.mk.injEq] at e
    obtain ⟨rfl, rfl, rfl, rfl, rfl⟩ := e
    exact ⟨_, _, _, rfl, h1, h2, h⟩
  | a :: strat, prev, level, k1, k2, k1', k2', pts, pts', h1, h2, h, s, l, t1, t2, q, e => by
    simp only [stratLoop] at e ⊢
    split_ifs at e ⊢ with hc
    · simp only [Option.some.injEq, Prod.mk.injEq] at e
      obtain ⟨rfl, rfl, rfl, rfl, rfl⟩ := e
      exact ⟨_, _, _, rfl, h1, h2, h⟩
    · refine stratLoop_projective dbl hd target strat _ _ _ _ _ _ _ _ (hd _ _ a h1) (hd _ _ a h2) ?_ s l t1 t2 q e
      exact List.rel_append h (.cons (hd _ _ a h1) (.cons (hd _ _ a h2) .nil))

omit [DecidableEq K] in
theorem chainStep_projective (n k : Nat) (Th : ThStr K) {T1 T2 T1' T2' : ThPt K} (h1 : T1.Same T1') (h2 : T2.Same T2')
    {pts pts' : List (ThPt K)} (h : List.Forall₂ ThPt.Same pts pts') :
    (chainStep n k Th T1' T2' pts').1 = (chainStep n k Th T1 T2 pts).1 ∧
      List.Forall₂ ThPt.Same (chainStep n k Th T1 T2 pts).2 (chainStep n k Th T1' T2' pts').2 := by
  obtain ⟨O', f, hf, -, hs⟩ := chainStep_eq n k Th T1 T2
  have hrefl : ∀ T : ThPt K, T.Same T := fun T => ⟨1, one_ne_zero, by simp [ThPt.scale]⟩
  rw [hf _ _ h1 h2, hf _ _ (hrefl _) (hrefl _)]
  refine ⟨rfl, ?_⟩
  rw [List.forall₂_map_left_iff, List.forall₂_map_right_iff]
  exact h.imp fun X Y => hs X Y

theorem forall₂_get? {α : Type*} {R : α → α → Prop} {l l' : List α} (h : List.Forall₂ R l l') {i : Nat} {x : α}
    (hx : l[i]? = some x) : ∃ y, l'[i]? = some y ∧ R x y := by
  induction h generalizing i with
  | nil => simp at hx
  | cons h t ih =>
    cases i with
    | zero => simp only [List.getElem?_cons_zero, Option.some.injEq] at hx ⊢; exact ⟨_, rfl, hx ▸ h⟩
    | succ i => simp only [List.getElem?_cons_succ] at hx ⊢; exact ih hx

omit [DecidableEq K] in
theorem strategyLoop_projective (n : Nat) : ∀ (r : Nat) (strat level : List Nat) (Th : ThStr K) (pts pts' : List (ThPt K)),
    List.Forall₂ ThPt.Same pts pts' → ∀ Th' q, strategyLoop n r strat level Th pts = some (Th', q) →
      ∃ q', strategyLoop n r strat level Th pts' = some (Th', q') ∧ List.Forall₂ ThPt.Same q q'
  | 0, strat, level, Th, pts, pts', h, Th', q, e => by
    simp only [strategyLoop, Option.some.injEq, Prod.mk.injEq] at e ⊢
    obtain ⟨rfl, rfl⟩ := e
    exact ⟨_, ⟨rfl, rfl⟩, h⟩
  | r + 1, strat, level, Th, pts, pts', h, Th', q, e => by
    simp only [strategyLoop] at e ⊢
    rw [← h.length_eq]
    split_ifs at e ⊢ with hl
    simp only [Option.bind_eq_bind, Option.bind_eq_some_iff] at e ⊢
    obtain ⟨T1, e1, T2, e2, ⟨s, l, t1, t2, q0⟩, e3, e4⟩ := e
    obtain ⟨T1', e1', h1⟩ := forall₂_get? h e1
    obtain ⟨T2', e2', h2⟩ := forall₂_get? h e2
    obtain ⟨t1', t2', q0', e3', g1, g2, g⟩ := stratLoop_projective (R := ThPt.Same) Th.doubleIter (fun x y m hxy => doubleIter_same Th hxy m) _ _ _ _
      _ _ _ _ _ _ h1 h2 h _ _ _ _ _ e3
    have hst := chainStep_projective n (n - (r + 1)) Th g1 g2 (forall₂_dropLast (forall₂_dropLast g))
    obtain ⟨q', e5, h5⟩ := strategyLoop_projective n r s l.dropLast _ _ _ hst.2 Th' q e4
    exact ⟨q', ⟨T1', e1', T2', e2', _, e3', by rw [← hst.1] at e5; exact e5⟩, h5⟩

/-! ### Splitting -/

variable [RootOps K]
open RootOps

omit [DecidableEq K] in
theorem completePointX_projective (E : Crv K) {c : K} (hc : c ≠ 0) (X Z : K) :
    (E.completePointX ⟨X, Z⟩).1.SameX (E.completePointX ⟨c * X, c * Z⟩).1 := by
  have e : ((c * X + c * Z) * (c * X + c * Z) + (E.A - 2) * (c * X * (c * Z))) * (c * X * (c * Z)) =
      c ^ 2 * c ^ 2 * (((X + Z) * (X + Z) + (E.A - 2) * (X * Z)) * (X * Z)) := by ring
  simp only [Crv.completePointX, e]
  generalize ((X + Z) * (X + Z) + (E.A - 2) * (X * Z)) * (X * Z) = W
  have c2 := pow_ne_zero 2 hc
  by_cases hs : IsSquare W
  · have hs' : IsSquare (c ^ 2 * c ^ 2 * W) := (IsSquare.mul_self _).mul hs
    obtain ⟨a1, a2⟩ := sqrt_sq _ hs
    obtain ⟨b1, b2⟩ := sqrt_sq _ hs'
    have : ((sqrt (c ^ 2 * c ^ 2 * W)).1 - c ^ 2 * (sqrt W).1) * ((sqrt (c ^ 2 * c ^ 2 * W)).1 + c ^ 2 * (sqrt W).1) = 0 := by
      linear_combination b2 - c ^ 2 * c ^ 2 * a2
    simp only [a1, b1, Bool.not_true, cond', Bool.false_eq_true, if_false]
    right
    rcases mul_eq_zero.mp this with h | h
    · left
      refine ⟨c ^ 2, c2, ?_⟩
      simp only [Pt.mk.injEq]
      exact ⟨by ring, by linear_combination h, by ring⟩
    · right
      refine ⟨c ^ 2, c2, ?_⟩
      simp only [Pt.mk.injEq]
      exact ⟨by ring, by linear_combination -h, by ring⟩
  · have hs' : ¬ IsSquare (c ^ 2 * c ^ 2 * W) := by
      rintro ⟨r, hr⟩
      exact hs ⟨r / c ^ 2, by field_simp; linear_combination hr⟩
    left
    simp [sqrt_nonsq _ hs, sqrt_nonsq _ hs', cond']

theorem splitToProduct_projective (Th : ThStr K) {pts pts' : List (ThPt K)} (num : Nat) (h : List.Forall₂ ThPt.Same pts pts')
    {E34 : EProd K} {out : List (CPt K)} (e : splitToProduct Th pts num = some (E34, out)) :
    ∃ out', splitToProduct Th pts' num = some (E34, out') ∧ List.Forall₂ CPt.SameX out out' := by
  simp only [splitToProduct, Option.bind_eq_bind, Option.bind_eq_some_iff, Option.some.injEq, Prod.mk.injEq] at e ⊢
  obtain ⟨E3, h3, E4, h4, rfl, rfl⟩ := e
  refine ⟨_, ⟨E3, h3, E4, h4, rfl, rfl⟩, ?_⟩
  rw [List.forall₂_map_left_iff, List.forall₂_map_right_iff]
  refine (List.forall₂_take num h).imp fun X Y hXY => ?_
  obtain ⟨c, hc, rfl⟩ := hXY
  have key : ∀ (o : K × K) (x y : K), thetaToMontPoint o (c * x, c * y) =
      ⟨c * (thetaToMontPoint o (x, y)).X, c * (thetaToMontPoint o (x, y)).Z⟩ := by
    intro o x y
    simp only [thetaToMontPoint, PtX.mk.injEq]
    exact ⟨by ring, by ring⟩
  simp only [splitTheta, ThPt.scale, key]
  exact ⟨completePointX_projective E3 hc _ _, completePointX_projective E4 hc _ _⟩

theorem productIsogeny_projective (E : EProd K) {P Q P' Q' : CPt K} {im im' : List (CPt K)} (n : Nat) (strategy : List Nat)
    (hP : P.Same P') (hQ : Q.Same Q') (h : List.Forall₂ CPt.Same im im') {E34 : EProd K} {out : List (CPt K)}
    (e : productIsogeny E P Q im n strategy = some (E34, out)) :
    ∃ out', productIsogeny E P' Q' im' n strategy = some (E34, out') ∧ List.Forall₂ CPt.SameX out out' := by
  simp only [productIsogeny] at e ⊢
  split_ifs at e ⊢ with hn
  simp only [Option.bind_eq_bind, Option.bind_eq_some_iff] at e ⊢
  obtain ⟨⟨s, l, t1, t2, q⟩, e1, ⟨Th, pts⟩, e2, ⟨Th', pts'⟩, e3, e4⟩ := e
  obtain ⟨t1', t2', q', e1', g1, g2, g⟩ := stratLoop_projective (R := CPt.Same) E.doubleIter (fun x y m hxy => E.doubleIter_projective hxy m) _ _ _ _
    _ _ _ _ _ _ hP hQ (List.rel_append (List.rel_append h (.cons hP .nil)) (.cons hQ .nil)) _ _ _ _ _ e1
  have hgl := gluing_projective E g1 g2 (forall₂_dropLast (forall₂_dropLast g))
  obtain ⟨q2, e2', h2⟩ := strategyLoop_projective n _ _ _ _ _ _ hgl.2 _ _ e2
  simp only [splittingIso, Option.map_eq_some_iff, Prod.mk.injEq] at e3
  obtain ⟨M, hM, rfl, rfl⟩ := e3
  have h3 : List.Forall₂ ThPt.Same (pts.map fun P => P.baseChange M) (q2.map fun P => P.baseChange M) := by
    rw [List.forall₂_map_left_iff, List.forall₂_map_right_iff]
    exact h2.imp fun X Y => baseChange_same M
  obtain ⟨out', e4', h4⟩ := splitToProduct_projective _ im.length h3 e4
  have e3' : splittingIso Th q2 = some (ThStr.new (Th.null.baseChange M), q2.map fun P => P.baseChange M) := by
    simp only [splittingIso, hM, Option.map_some]
  refine ⟨out', ⟨_, e1', (Th, q2), by dsimp only; rw [hgl.1]; exact e2', _, e3', ?_⟩, h4⟩
  rw [← h.length_eq]
  exact e4'

end
end Festa

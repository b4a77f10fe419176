import Verif.Lemmas.RiemannExact
import Mathlib.FieldTheory.IsAlgClosed.Basic
/-! A null point none of whose even constants vanishes: the translations by points of order two act on the ten forms by
signs. -/
namespace Festa
variable {L : Type*} [Field L]

/-- A sign. -/
def thSg (b : Bool) : L := if b then -1 else 1

theorem thSg_ne (b : Bool) : (thSg b : L) ≠ 0 := by
  cases b <;> simp [thSg]

theorem thSg_mul (a b : Bool) : (thSg a * thSg b : L) = thSg (a ^^ b) := by
  cases a <;> cases b <;> simp [thSg]

/-- The three products of a relation with three terms change by the same sign. -/
theorem three_thSg (h2 : (2 : L) ≠ 0) {P Q R : L} {a b c : Bool} (hP : P ≠ 0) (hQ : Q ≠ 0) (hR : R ≠ 0) (h : P = Q + R)
    (h' : thSg a * P = thSg b * Q + thSg c * R) : a = b ∧ a = c := by
  have key : ∀ {x : L}, 2 * x = 0 → x = 0 := fun h => (mul_eq_zero.mp h).resolve_left h2
  cases a <;> cases b <;> cases c <;> simp only [thSg, Bool.false_eq_true, if_true, if_false] at h' <;>
    first
    | exact ⟨rfl, rfl⟩
    | exact (hP (key (by linear_combination h + h'))).elim
    | exact (hP (key (by linear_combination h - h'))).elim
    | exact (hQ (key (by linear_combination h - h'))).elim
    | exact (hQ (key (by linear_combination h' - h))).elim
    | exact (hQ (key (by linear_combination h + h'))).elim
    | exact (hR (key (by linear_combination h - h'))).elim
    | exact (hR (key (by linear_combination h' - h))).elim
    | exact (hR (key (by linear_combination h + h'))).elim
    | exact (hP (key (by linear_combination -h' - h))).elim
    | exact (hQ (key (by linear_combination -h' - h))).elim
    | exact (hR (key (by linear_combination -h' - h))).elim

/-- The forms at `X` are those at `O` up to signs and a common factor. -/
def Signs (O X : ThPt L) (e : Fin 10 → Bool) : Prop := ∃ k : L, k ≠ 0 ∧ ∀ j, wf j X X = k * (thSg (e j) * wf j O O)

/-- The sign vectors that occur. -/
def SgOk (e : Fin 10 → Bool) : Prop :=
  (e 0 ^^ e 1) = (e 2 ^^ e 3) ∧ (e 0 ^^ e 4) = (e 2 ^^ e 5) ∧ (e 0 ^^ e 6) = (e 1 ^^ e 7) ∧ (e 0 ^^ e 8) = (e 4 ^^ e 6) ∧
    (e 0 ^^ e 9) = (e 3 ^^ e 8)

theorem Signs.ok (h2 : (2 : L) ≠ 0) {O X : ThPt L} {e : Fin 10 → Bool} (hO : ∀ j, wf j O O ≠ 0) (h : Signs O X e) : SgOk e := by
  obtain ⟨k, hk, h⟩ := h
  have go : ∀ a b c d x y : Fin 10, ∀ s : L, s ≠ 0 →
      (∀ Z : ThPt L, wf a Z Z * wf b Z Z = wf c Z Z * wf d Z Z + s * (wf x Z Z * wf y Z Z)) →
      (e a ^^ e b) = (e c ^^ e d) ∧ (e a ^^ e b) = (e x ^^ e y) := by
    intro a b c d x y s hs hZ
    refine three_thSg h2 (mul_ne_zero (hO a) (hO b)) (mul_ne_zero (hO c) (hO d)) (mul_ne_zero hs (mul_ne_zero (hO x) (hO y))) (hZ O) ?_
    have := hZ X
    rw [h a, h b, h c, h d, h x, h y] at this
    rw [← thSg_mul, ← thSg_mul, ← thSg_mul]
    refine mul_left_cancel₀ (pow_ne_zero 2 hk) ?_
    linear_combination this
  refine ⟨(go 0 1 2 3 6 7 1 one_ne_zero ?_).1, (go 0 4 2 5 6 8 1 one_ne_zero ?_).1, (go 0 6 1 7 4 8 1 one_ne_zero ?_).1,
    (go 0 8 3 9 4 6 1 one_ne_zero ?_).2, (go 0 9 3 8 5 7 (-1) (neg_ne_zero.mpr one_ne_zero) ?_).1⟩ <;>
  · intro Z
    simp only [wf]
    ring

/-- A point whose double is the null point. -/
theorem exists_signs [IsAlgClosed L] {O X S : ThPt L} (h : Riem O X X S O) (hS : O.Same S) :
    ∃ e, Signs O X e := by
  obtain ⟨c, hc, h⟩ := h
  obtain ⟨s, hs, rfl⟩ := hS
  obtain ⟨k, hk⟩ := IsAlgClosed.exists_pow_nat_eq (s / c) (n := 2) two_pos
  have hk0 : k ≠ 0 := by
    rintro rfl
    rw [zero_pow two_ne_zero] at hk
    exact div_ne_zero hs hc hk.symm
  have hsq : ∀ j, wf j X X = k * wf j O O ∨ wf j X X = -(k * wf j O O) := by
    intro j
    rw [← sq_eq_sq_iff_eq_or_eq_neg, mul_pow, hk]
    have := h j
    rw [wf_scale_left] at this
    rw [div_mul_eq_mul_div, eq_div_iff hc]
    linear_combination -this
  have : ∀ j, ∃ b : Bool, wf j X X = k * (thSg b * wf j O O) := by
    intro j
    rcases hsq j with e | e
    · exact ⟨false, by rw [e]; simp [thSg]⟩
    · exact ⟨true, by rw [e]; simp [thSg]⟩
  choose e he using this
  exact ⟨e, k, hk0, he⟩

/-- The sum of two points with signs. -/
theorem Signs.add {O X Y S D : ThPt L} {e e' : Fin 10 → Bool} (hO : ∀ j, wf j O O ≠ 0) (hX : Signs O X e) (hY : Signs O Y e')
    (h : Riem O X Y S D) (hS : S.Same D) : Signs O S fun j => e j ^^ e' j := by
  obtain ⟨c, hc, h⟩ := h
  obtain ⟨s, hs, rfl⟩ := hS
  obtain ⟨k, hk, hX⟩ := hX
  obtain ⟨k', hk', hY⟩ := hY
  refine ⟨c * k * k' / s, div_ne_zero (mul_ne_zero (mul_ne_zero hc hk) hk') hs, fun j => ?_⟩
  have := h j
  rw [wf_scale_right, hX, hY] at this
  rw [← thSg_mul, div_mul_eq_mul_div, eq_div_iff hs]
  refine mul_right_cancel₀ (hO j) ?_
  linear_combination this

end Festa

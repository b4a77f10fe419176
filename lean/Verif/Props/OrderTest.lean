import Verif.Lemmas.OrderTest
import Verif.Props.EC
/-!
Property C40: the order tests `point_has_factored_order` and `has_factored_order`.
-/
namespace Festa
open WeierstrassCurve.Affine

section
variable {K : Type*} [Field K] [DecidableEq K]

/-- What `point_has_factored_order` computes: whether `[D/l]P ≠ 0` for every listed `l`, where `D` is
the product of the listed powers. -/
theorem C40_point_test {E : Crv K} (hE : E.Good) {P : Pt K} {Q : MPoint E.A} (hP : PRep P Q)
    (fs : Factored) (hne : fs ≠ []) (he : ∀ p ∈ fs, p.2 ≠ 0) (hl : ∀ p ∈ fs, p.1 ≠ 0) :
    ∃ b, pointHasFactoredOrder E P fs = some b ∧
      (b = true ↔ ∀ p ∈ fs,
        ((fs.map (fun q => q.1.toNat ^ q.2.toNat)).prod / p.1.toNat) • Q ≠ 0) := by
  rw [← value_eq]
  exact orderTest_spec (fun (P : Pt K) (Q : MPoint E.A) => PRep P Q) E.mulBig
    (fun x h n hx => C27_mul_big hE hx n) (fun Q => Q.isInf) (fun x h hx => C24_isinfinity hx)
    Pt.inf P Q hP fs hne he hl

/-- C40, partial: for a point killed by `D` (`D` given by powers of pairwise distinct primes) the test
decides whether the order is `D`.  The hypothesis `[D]P = 0` cannot be dropped, see
`C40_point_order_fails`: the code never multiplies by `D`. -/
theorem C40_point_order_partial {E : Crv K} (hE : E.Good) {P : Pt K} {Q : MPoint E.A} (hP : PRep P Q)
    (fs : Factored) (hne : fs ≠ []) (hp : ∀ p ∈ fs, Nat.Prime p.1.toNat)
    (hd : (fs.map Prod.fst).Nodup) (he : ∀ p ∈ fs, p.2 ≠ 0)
    (h0 : (fs.map (fun q => q.1.toNat ^ q.2.toNat)).prod • Q = 0) :
    pointHasFactoredOrder E P fs =
      some (decide (addOrderOf Q = (fs.map (fun q => q.1.toNat ^ q.2.toNat)).prod)) := by
  obtain ⟨b, h1, h2⟩ := C40_point_test hE hP fs hne he (fun p hp' h => (hp p hp').ne_zero (by rw [h]; rfl))
  rw [← value_eq] at h0 h2 ⊢
  rw [order_iff Q fs ⟨hp, hd⟩ he h0] at h2
  rw [h1]
  congr 1
  rw [Bool.eq_iff_iff, h2, decide_eq_true_iff]

/-- A point of order `D` always passes. -/
theorem C40_point_complete {E : Crv K} (hE : E.Good) {P : Pt K} {Q : MPoint E.A} (hP : PRep P Q)
    (fs : Factored) (hne : fs ≠ []) (hp : ∀ p ∈ fs, Nat.Prime p.1.toNat)
    (hd : (fs.map Prod.fst).Nodup) (he : ∀ p ∈ fs, p.2 ≠ 0)
    (ho : addOrderOf Q = (fs.map (fun q => q.1.toNat ^ q.2.toNat)).prod) :
    pointHasFactoredOrder E P fs = some true := by
  rw [C40_point_order_partial hE hP fs hne hp hd he (by rw [← ho]; exact addOrderOf_nsmul_eq_zero Q)]
  simp [ho]

/-- What `has_factored_order` computes: whether `v^(D/l) ≠ 1` for every listed `l`. -/
theorem C40_field_test (v : K) (fs : Factored) (hne : fs ≠ []) (he : ∀ p ∈ fs, p.2 ≠ 0)
    (hl : ∀ p ∈ fs, p.1 ≠ 0) :
    ∃ b, hasFactoredOrder v fs = some b ∧
      (b = true ↔ ∀ p ∈ fs,
        v ^ ((fs.map (fun q => q.1.toNat ^ q.2.toNat)).prod / p.1.toNat) ≠ 1) := by
  rw [← value_eq]
  have := orderTest_spec (fun (x : K) (h : Additive K) => h = Additive.ofMul x)
    (fun x n => some (x ^ n)) (fun x h n hx => ⟨x ^ n, rfl, by rw [hx]; rfl⟩)
    (fun x => decide (x = 1)) (fun x h hx => by rw [hx, decide_eq_true_iff, ofMul_eq_zero])
    1 v (Additive.ofMul v) rfl fs hne he hl
  obtain ⟨b, h1, h2⟩ := this
  exact ⟨b, h1, h2⟩

/-- C40, partial: for an element with `v^D = 1` the test decides whether the multiplicative order is
`D`. -/
theorem C40_field_order_partial (v : K) (fs : Factored) (hne : fs ≠ [])
    (hp : ∀ p ∈ fs, Nat.Prime p.1.toNat) (hd : (fs.map Prod.fst).Nodup) (he : ∀ p ∈ fs, p.2 ≠ 0)
    (h0 : v ^ (fs.map (fun q => q.1.toNat ^ q.2.toNat)).prod = 1) :
    hasFactoredOrder v fs =
      some (decide (orderOf v = (fs.map (fun q => q.1.toNat ^ q.2.toNat)).prod)) := by
  obtain ⟨b, h1, h2⟩ := C40_field_test v fs hne he (fun p hp' h => (hp p hp').ne_zero (by rw [h]; rfl))
  rw [← value_eq] at h0 h2 ⊢
  have hv0 : v ≠ 0 := by
    rintro rfl
    rw [zero_pow (value_pos (fun p hp' => (hp p hp').ne_zero)).ne'] at h0
    exact zero_ne_one h0
  have key := order_iff (Additive.ofMul (Units.mk0 v hv0)) fs ⟨hp, hd⟩ he (by
    rw [← ofMul_pow, ofMul_eq_zero]; ext; simpa using h0)
  rw [addOrderOf_ofMul_eq_orderOf, ← orderOf_units, Units.val_mk0] at key
  rw [h1]
  congr 1
  rw [Bool.eq_iff_iff, h2, decide_eq_true_iff, ← key]
  refine forall₂_congr (fun p _ => not_congr ?_)
  rw [← ofMul_pow, ofMul_eq_zero, Units.ext_iff]
  simp

/-- Zero exponents make both tests panic (or, without overflow checks, ask for the power
`l^(2^32-1)`); an empty list makes them panic on an index, unless the element is neutral. -/
theorem C40_panics (E : Crv K) (P : Pt K) (v : K) (fs : Factored) :
    ((∃ p ∈ fs, p.2 = 0) → pointHasFactoredOrder E P fs = none ∧ hasFactoredOrder v fs = none) ∧
    (hasFactoredOrder v [] = if v = 1 then some false else none) := by
  constructor
  · intro h
    unfold pointHasFactoredOrder hasFactoredOrder orderTest
    rw [topAndPrimes_none fs h]
    exact ⟨rfl, rfl⟩
  · unfold hasFactoredOrder orderTest topAndPrimes
    by_cases h : v = 1
    · subst h; simp
    · simp [h]

end

/-- C40 fails without `[D]P = 0`: the point `(0,0)` of order 2 passes the test for order 3 (and the
field element 2 of order 28 modulo 29 that for order 9). -/
theorem C40_point_order_fails :
    pointHasFactoredOrder tE ⟨0, 0, 7⟩ [(3, 1)] = some true ∧ addOrderOf tT ≠ 3 ∧
    hasFactoredOrder (2 : F29) [(3, 2)] = some true ∧ (2 : F29) ^ 9 ≠ 1 := by
  refine ⟨by decide +kernel, ?_, by decide +kernel, by decide +kernel⟩
  intro h
  have h2 : addOrderOf tT ∣ 2 := by
    apply addOrderOf_dvd_of_nsmul_eq_zero
    rw [two_nsmul]
    exact add_opp (by ring)
  rw [h] at h2
  exact absurd h2 (by decide)

theorem tT_two : (2 : Nat) • tT = 0 := by rw [two_nsmul]; exact add_opp (by ring)

example : pointHasFactoredOrder tE ⟨0, 0, 7⟩ [(2, 1)] = some true := by
  rw [C40_point_order_partial tE_good tT_rep [(2, 1)] (by decide) (by decide +kernel) (by decide)
    (by decide) (by simpa using tT_two)]
  congr 1
  rw [decide_eq_true_iff]
  change addOrderOf tT = 2
  exact addOrderOf_eq_prime tT_two (WeierstrassCurve.Affine.Point.some_ne_zero _)

example : hasFactoredOrder (2 : F29) [(2, 2), (7, 1)] = some true := by decide +kernel
example : ∃ b, hasFactoredOrder (2 : F29) [(2, 2), (7, 1)] = some b :=
  (C40_field_test 2 [(2, 2), (7, 1)] (by decide) (by decide) (by decide)).imp fun _ h => h.1
example : hasFactoredOrder (2 : F29) [(2, 2), (7, 1)] = some (decide (orderOf (2 : F29) = 28)) :=
  C40_field_order_partial 2 [(2, 2), (7, 1)] (by decide) (by decide +kernel) (by decide) (by decide)
    (by decide +kernel)

end Festa

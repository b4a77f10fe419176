import Verif.Lemmas.Divisible
import Verif.Lemmas.TorsionSpan
import Verif.Lemmas.SchemeGroup
import Mathlib.NumberTheory.LegendreSymbol.QuadraticChar.Basic
/-! The curve `y² = x³ + x` has `p + 1` points over the field with `p` elements, for `p ≡ 3 mod 4`. -/
namespace Festa
open WeierstrassCurve.Affine Polynomial

section
variable {p : Nat} [Fact p.Prime]

theorem count_affine (hp : p % 4 = 3) :
    Fintype.card {v : ZMod p × ZMod p // v.2 ^ 2 = v.1 ^ 3 + v.1} = p := by
  classical
  have hF : ringChar (ZMod p) ≠ 2 := by rw [ZMod.ringChar_zmod_n]; omega
  have e1 : Fintype.card {v : ZMod p × ZMod p // v.2 ^ 2 = v.1 ^ 3 + v.1} =
      ∑ x : ZMod p, ({y : ZMod p | y ^ 2 = x ^ 3 + x} : Set (ZMod p)).toFinset.card := by
    rw [Fintype.card_subtype, ← Finset.card_sigma]
    refine Finset.card_bij (fun v _ => ⟨v.1, v.2⟩) ?_ ?_ ?_
    · intro v hv
      simpa using hv
    · rintro ⟨a, b⟩ _ ⟨c, d⟩ _ h
      simpa using h
    · rintro ⟨x, y⟩ h
      exact ⟨(x, y), by simpa using h, rfl⟩
  have e2 : ((∑ x : ZMod p, ({y : ZMod p | y ^ 2 = x ^ 3 + x} : Set (ZMod p)).toFinset.card : Nat) : Int) =
      (∑ x : ZMod p, quadraticChar (ZMod p) (x ^ 3 + x)) + p := by
    rw [Nat.cast_sum, Finset.sum_congr rfl (fun x _ => quadraticChar_card_sqrts hF (x ^ 3 + x)), Finset.sum_add_distrib]
    simp [ZMod.card]
  have hm : quadraticChar (ZMod p) (-1) = -1 := by
    rw [quadraticChar_neg_one hF, ZMod.card, ZMod.χ₄_nat_three_mod_four hp]
  have e3 : ∑ x : ZMod p, quadraticChar (ZMod p) (x ^ 3 + x) = 0 := by
    have h := Equiv.sum_comp (Equiv.neg (ZMod p)) (fun x => quadraticChar (ZMod p) (x ^ 3 + x))
    have h' : ∀ x : ZMod p, quadraticChar (ZMod p) ((Equiv.neg (ZMod p) x) ^ 3 + Equiv.neg (ZMod p) x) =
        -quadraticChar (ZMod p) (x ^ 3 + x) := by
      intro x
      have : (Equiv.neg (ZMod p) x) ^ 3 + Equiv.neg (ZMod p) x = -1 * (x ^ 3 + x) := by
        rw [Equiv.neg_apply]; ring
      rw [this, map_mul, hm, neg_one_mul]
    rw [Finset.sum_congr rfl (fun x _ => h' x), Finset.sum_neg_distrib] at h
    omega
  rw [e3, zero_add] at e2
  rw [e1]
  exact_mod_cast e2

variable {L : Type*} [Field L] [CharP L p]

theorem frob_fixed {w : L} (hw : w ^ p = w) : ∃ a : ZMod p, ZMod.castHom (dvd_refl p) L a = w := by
  classical
  by_contra hno
  have hp : 1 < p := (Fact.out : p.Prime).one_lt
  have hne := FiniteField.X_pow_card_sub_X_ne_zero L hp
  have hdeg := FiniteField.X_pow_card_sub_X_natDegree_eq L hp
  set S : Finset L := insert w (Finset.univ.image (ZMod.castHom (dvd_refl p) L))
  have hS : S ⊆ (X ^ p - X : L[X]).roots.toFinset := by
    intro z hz
    rw [Multiset.mem_toFinset, mem_roots hne, IsRoot, eval_sub, eval_pow, eval_X, sub_eq_zero]
    rcases Finset.mem_insert.mp hz with rfl | h
    · exact hw
    · obtain ⟨a, -, rfl⟩ := Finset.mem_image.mp h
      rw [← map_pow, ZMod.pow_card]
  have h1 := Finset.card_le_card hS
  have h2 := (Multiset.toFinset_card_le (X ^ p - X : L[X]).roots).trans (card_roots' _)
  rw [hdeg] at h2
  have h3 : S.card = p + 1 := by
    rw [Finset.card_insert_of_notMem, Finset.card_image_of_injective _ (ZMod.castHom (dvd_refl p) L).injective,
      Finset.card_univ, ZMod.card]
    intro h
    obtain ⟨a, -, rfl⟩ := Finset.mem_image.mp h
    exact hno ⟨a, rfl⟩
  omega

variable [DecidableEq L]

/-- The points fixed by the Frobenius map. -/
theorem card_fixed (hp : p % 4 = 3) (f : L →+* L) (hf : ∀ w, f w = w ^ p) (h0 : f (0 : L) = 0) :
    Nat.card {X : MPoint (0 : L) // fixHom f h0 X = X} = p + 1 := by
  have h2 : (2 : L) ≠ 0 := by
    intro e
    have := (CharP.cast_eq_zero_iff L p 2).mp (by exact_mod_cast e)
    have := Nat.le_of_dvd (by norm_num) this
    omega
  have hA : (0 : L) * 0 ≠ 4 := by
    intro e
    apply h2
    have : (2 : L) * 2 = 0 := by linear_combination -e
    exact (mul_eq_zero.mp this).elim id id
  let i := ZMod.castHom (dvd_refl p) L
  have fi : ∀ a, f (i a) = i a := fun a => by rw [hf, ← map_pow, ZMod.pow_card]
  have on : ∀ v : {v : ZMod p × ZMod p // v.2 ^ 2 = v.1 ^ 3 + v.1}, (mont (0 : L)).Nonsingular (i v.1.1) (i v.1.2) := by
    intro v
    refine nonsing_of h2 hA ?_
    have := congrArg i v.2
    simp only [map_pow, map_add] at this
    linear_combination this
  let F : Option {v : ZMod p × ZMod p // v.2 ^ 2 = v.1 ^ 3 + v.1} → {X : MPoint (0 : L) // fixHom f h0 X = X} := fun o =>
    match o with
    | none => ⟨0, map_zero _⟩
    | some v => ⟨.some _ _ (on v), fix_of_coords f h0 (fi _) (fi _)⟩
  have hF : Function.Bijective F := by
    constructor
    · rintro (_ | ⟨⟨x, y⟩, h⟩) (_ | ⟨⟨x', y'⟩, h'⟩) e
      · rfl
      · exact absurd (congrArg Subtype.val e) (Ne.symm (Point.some_ne_zero _))
      · exact absurd (congrArg Subtype.val e) (Point.some_ne_zero _)
      · have e' := congrArg Subtype.val e
        have ex := congrArg xc e'
        have ey := congrArg yc e'
        have ex' : x = x' := i.injective ex
        have ey' : y = y' := i.injective ey
        subst ex'; subst ey'
        rfl
    · rintro ⟨X, hX⟩
      have hx : xc X ^ p = xc X := by rw [← hf, ← xc_fix f h0, hX]
      have hy : yc X ^ p = yc X := by rw [← hf, ← yc_fix f h0, hX]
      replace hx := frob_fixed hx
      replace hy := frob_fixed hy
      obtain ⟨x, hx⟩ := hx
      obtain ⟨y, hy⟩ := hy
      rcases X with _ | ⟨x', y', k⟩
      · exact ⟨none, rfl⟩
      · change _ = x' at hx
        change _ = y' at hy
        subst hx; subst hy
        refine ⟨some ⟨(x, y), ?_⟩, rfl⟩
        apply i.injective
        have := curve_eq k
        simp only [map_pow, map_add]
        linear_combination this
  rw [← Nat.card_congr (Equiv.ofBijective F hF), Nat.card_eq_fintype_card, Fintype.card_option, count_affine hp]

end

/-! ### Numbers of points -/

/-- The points killed by `n`. -/
abbrev tors (G : Type*) [AddCommGroup G] (n : Nat) : AddSubgroup G := (nsmulAddMonoidHom n : G →+ G).ker

theorem mem_tors {G : Type*} [AddCommGroup G] {n : Nat} {X : G} : X ∈ tors G n ↔ n • X = 0 := Iff.rfl

theorem tors_mul {G : Type*} [AddCommGroup G] {m n : Nat} (hs : ∀ Y : G, ∃ X, m • X = Y) :
    Nat.card (tors G (m * n)) = Nat.card (tors G m) * Nat.card (tors G n) := by
  rw [← card_ker_comp (nsmulAddMonoidHom m : G →+ G) (nsmulAddMonoidHom n) hs]
  have : (nsmulAddMonoidHom (m * n) : G →+ G) = (nsmulAddMonoidHom n).comp (nsmulAddMonoidHom m) := by
    ext X
    simp [mul_nsmul]
  rw [tors, this]

section
variable {L : Type*} [Field L] [DecidableEq L] {A : L} [IsAlgClosed L]

/-- Prime orders: there is a basis, or there are few points. -/
theorem tors_prime (h2 : (2 : L) ≠ 0) (hA : A * A ≠ 4) {r : Nat} (hr : r.Prime) :
    (Nat.card (tors (MPoint A) r) ≤ r ∨ ∃ P Q : MPoint A, IsBasis r P Q) ∧ Nat.card (tors (MPoint A) r) ≤ r ^ 2 := by
  by_cases hb : ∃ P Q : MPoint A, IsBasis r P Q
  · refine ⟨.inr hb, ?_⟩
    obtain ⟨P, Q, hb⟩ := hb
    have fP : Finite (AddSubgroup.zmultiples P) := Nat.finite_of_card_ne_zero (by
      rw [Nat.card_zmultiples, hb.order_left]; exact hr.ne_zero)
    have fQ : Finite (AddSubgroup.zmultiples Q) := Nat.finite_of_card_ne_zero (by
      rw [Nat.card_zmultiples, hb.order_right]; exact hr.ne_zero)
    let F : AddSubgroup.zmultiples P × AddSubgroup.zmultiples Q → MPoint A := fun v => v.1 + v.2
    have : Nat.card (tors (MPoint A) r) ≤ Nat.card (AddSubgroup.zmultiples P × AddSubgroup.zmultiples Q) := by
      have key : ∀ X : tors (MPoint A) r, ∃ v, F v = X := by
        rintro ⟨X, hX⟩
        obtain ⟨a, b, e⟩ := span_prime h2 hA hr hb (mem_tors.mp hX)
        exact ⟨⟨⟨a • P, AddSubgroup.zsmul_mem_zmultiples P a⟩, ⟨b • Q, AddSubgroup.zsmul_mem_zmultiples Q b⟩⟩, e.symm⟩
      choose g hg using key
      refine Nat.card_le_card_of_injective g fun X Y e => Subtype.ext ?_
      rw [← hg, ← hg, e]
    rwa [Nat.card_prod, Nat.card_zmultiples, Nat.card_zmultiples, hb.order_left, hb.order_right, ← sq] at this
  · suffices h : Nat.card (tors (MPoint A) r) ≤ r from ⟨.inl h, h.trans (by nlinarith [hr.pos])⟩
    by_cases h0 : ∃ P : MPoint A, P ≠ 0 ∧ r • P = 0
    · obtain ⟨P, hP, tP⟩ := h0
      have oP : addOrderOf P = r := addOrderOf_eq_prime tP hP (hp := ⟨hr⟩)
      have hle : tors (MPoint A) r ≤ AddSubgroup.zmultiples P := by
        intro X hX
        by_contra hno
        exact hb ⟨P, X, isBasis_of_prime hr oP (mem_tors.mp hX) hno⟩
      have fP : Finite (AddSubgroup.zmultiples P) := Nat.finite_of_card_ne_zero (by
        rw [Nat.card_zmultiples, oP]; exact hr.ne_zero)
      have := Nat.card_le_card_of_injective _ (AddSubgroup.inclusion_injective hle)
      rwa [Nat.card_zmultiples, oP] at this
    · push Not at h0
      have : Subsingleton (tors (MPoint A) r) := ⟨by
        rintro ⟨X, hX⟩ ⟨Y, hY⟩
        have e1 : X = 0 := by_contra fun h => h0 X h (mem_tors.mp hX)
        have e2 : Y = 0 := by_contra fun h => h0 Y h (mem_tors.mp hY)
        subst e1; subst e2; rfl⟩
      exact (Finite.card_le_one_iff_subsingleton.mpr this).trans hr.pos

/-- The number of points killed by `n` is at most `n²`. -/
theorem tors_le (h2 : (2 : L) ≠ 0) (hA : A * A ≠ 4) {n : Nat} (hn : n ≠ 0) : Nat.card (tors (MPoint A) n) ≤ n ^ 2 := by
  induction n using Nat.strong_induction_on with
  | _ n ih =>
    by_cases h1 : n = 1
    · subst h1
      have : Subsingleton (tors (MPoint A) 1) := ⟨by
        rintro ⟨X, hX⟩ ⟨Y, hY⟩
        rw [mem_tors, one_nsmul] at hX hY
        subst hX; subst hY; rfl⟩
      exact (Finite.card_le_one_iff_subsingleton.mpr this)
    · obtain ⟨r, hr, m, rfl⟩ := Nat.exists_prime_and_dvd h1
      have hm : m ≠ 0 := by rintro rfl; exact hn (mul_zero r)
      rw [tors_mul (smul_surj h2 hA hr.ne_zero), mul_pow]
      refine Nat.mul_le_mul (tors_prime h2 hA hr).2 (ih m ?_ hm)
      have := hr.two_le
      have : 1 ≤ m := Nat.one_le_iff_ne_zero.mpr hm
      nlinarith

/-- Enough points give a basis. -/
theorem basis_of_card (h2 : (2 : L) ≠ 0) (hA : A * A ≠ 4) {n r : Nat} (hn : n ≠ 0)
    (hc : Nat.card (tors (MPoint A) n) = n ^ 2) (hr : r.Prime) (hd : r ∣ n) :
    (∃ P Q : MPoint A, IsBasis r P Q) ∧ Nat.card (tors (MPoint A) r) = r ^ 2 := by
  obtain ⟨m, rfl⟩ := hd
  have hm : m ≠ 0 := by rintro rfl; exact hn (mul_zero r)
  rw [tors_mul (smul_surj h2 hA hr.ne_zero), mul_pow] at hc
  have h3 := tors_le h2 hA hm (A := A)
  obtain ⟨h4, h5⟩ := tors_prime h2 hA hr (A := A)
  have m0 : 0 < m ^ 2 := by positivity
  have h6 : r ^ 2 ≤ Nat.card (tors (MPoint A) r) := by
    by_contra hlt
    push Not at hlt
    have : Nat.card (tors (MPoint A) r) * Nat.card (tors (MPoint A) m) < r ^ 2 * m ^ 2 :=
      lt_of_le_of_lt (Nat.mul_le_mul_left _ h3) (Nat.mul_lt_mul_of_pos_right hlt m0)
    omega
  refine ⟨h4.resolve_left fun h => ?_, le_antisymm h5 h6⟩
  have := hr.two_le
  nlinarith

theorem isBasis_root {G : Type*} [AddCommGroup G] {r k : Nat} (hr : r ≠ 0) {P Q P0 Q0 : G} (hb : IsBasis r P0 Q0)
    (hP : r ^ k • P = P0) (hQ : r ^ k • Q = Q0) : IsBasis (r ^ (k + 1)) P Q := by
  intro a b
  constructor
  · intro h
    have key : ∀ j ≤ k + 1, ((r ^ j : Nat) : Int) ∣ a ∧ ((r ^ j : Nat) : Int) ∣ b := by
      intro j
      induction j with
      | zero => intro _; simp
      | succ j ih =>
        intro hj
        obtain ⟨⟨a', rfl⟩, ⟨b', rfl⟩⟩ := ih (by omega)
        have e : a' • P0 + b' • Q0 = 0 := by
          have := congrArg (fun X => r ^ (k - j) • X) h
          simp only [nsmul_zero] at this
          rw [← this, ← hP, ← hQ]
          obtain ⟨i, rfl⟩ : ∃ i, k = j + i := ⟨k - j, by omega⟩
          rw [Nat.add_sub_cancel_left, pow_add]
          push_cast
          module
        obtain ⟨⟨a'', rfl⟩, ⟨b'', rfl⟩⟩ := (hb a' b').mp e
        constructor
        · exact ⟨a'', by push_cast; ring⟩
        · exact ⟨b'', by push_cast; ring⟩
    exact key (k + 1) le_rfl
  · have tP : r ^ (k + 1) • P = 0 := by rw [pow_succ, mul_comm, mul_nsmul', hP, hb.nsmul_left]
    have tQ : r ^ (k + 1) • Q = 0 := by rw [pow_succ, mul_comm, mul_nsmul', hQ, hb.nsmul_right]
    rintro ⟨⟨a', rfl⟩, ⟨b', rfl⟩⟩
    rw [mul_comm, mul_zsmul, natCast_zsmul, tP, mul_comm, mul_zsmul, natCast_zsmul, tQ, zsmul_zero, zsmul_zero, add_zero]

/-- From bases of all prime orders to a basis. -/
theorem basis_of_primes (h2 : (2 : L) ≠ 0) (hA : A * A ≠ 4) {n : Nat} (hn : n ≠ 0)
    (h : ∀ r, r.Prime → r ∣ n → ∃ P Q : MPoint A, IsBasis r P Q) : ∃ P Q : MPoint A, IsBasis n P Q := by
  induction n using Nat.recOnPosPrimePosCoprime with
  | prime_pow r k hr hk =>
    obtain ⟨P0, Q0, hb⟩ := h r hr (dvd_pow_self r (by omega))
    obtain ⟨k, rfl⟩ : ∃ i, k = i + 1 := ⟨k - 1, by omega⟩
    obtain ⟨P, hP⟩ := smul_surj h2 hA (pow_ne_zero k hr.ne_zero) P0
    obtain ⟨Q, hQ⟩ := smul_surj h2 hA (pow_ne_zero k hr.ne_zero) Q0
    exact ⟨P, Q, isBasis_root hr.ne_zero hb hP hQ⟩
  | zero => exact absurd rfl hn
  | one => exact ⟨0, 0, fun a b => by simp⟩
  | coprime a b ha hb hab iha ihb =>
    obtain ⟨P, Q, h1⟩ := iha (by omega) fun r hr hd => h r hr (hd.mul_right b)
    obtain ⟨P', Q', h3⟩ := ihb (by omega) fun r hr hd => h r hr (hd.mul_left a)
    exact ⟨_, _, IsBasis.sum hab h1 h3⟩

/-- Surjective homomorphisms with finite kernel keep the number of points killed by `n`. -/
theorem tors_card_map {G H : Type*} [AddCommGroup G] [AddCommGroup H] {φ : G →+ H} (hs : Function.Surjective φ)
    (hf : (φ.ker : Set G).Finite) {n : Nat} (hn : ∀ Y : G, ∃ X, n • X = Y) :
    Nat.card (tors H n) = Nat.card (tors G n) := by
  have e : (φ.comp (nsmulAddMonoidHom n)) = (nsmulAddMonoidHom n).comp φ := by ext X; simp
  have h1 := card_ker_comp (nsmulAddMonoidHom n : G →+ G) φ hn
  have h3 := card_ker_comp φ (nsmulAddMonoidHom n : H →+ H) hs
  rw [e, h3, mul_comm] at h1
  have : Finite φ.ker := hf
  exact Nat.eq_of_mul_eq_mul_right Nat.card_pos h1

end

/-! ### The curve `y² = x³ + x` -/

section
variable {L : Type*} [Field L] [DecidableEq L] [IsAlgClosed L]

/-- It has `(p + 1)²` points killed by `p + 1`. -/
theorem card_zero {p : Nat} [Fact p.Prime] [CharP L p] (hp : p % 4 = 3) (h2 : (2 : L) ≠ 0) {j : L} (hj : j * j = -1)
    (f : L →+* L) (hf : ∀ w, f w = w ^ p) (hfj : f j = -j) (h0 : f (0 : L) = 0)
    (hz : ∀ X : MPoint (0 : L), fixHom f h0 (fixHom f h0 X) = -((p : Int) • X)) :
    Nat.card (tors (MPoint (0 : L)) (p + 1)) = (p + 1) ^ 2 := by
  have hA : (0 : L) * 0 ≠ 4 := by
    intro e
    apply h2
    have : (2 : L) * 2 = 0 := by linear_combination -e
    exact (mul_eq_zero.mp this).elim id id
  let α : MPoint (0 : L) →+ MPoint (0 : L) := AddMonoidHom.id _ - fixHom f h0
  let β : MPoint (0 : L) →+ MPoint (0 : L) := AddMonoidHom.id _ + fixHom f h0
  have αa : ∀ X, α X = X - fixHom f h0 X := fun _ => rfl
  have βa : ∀ X, β X = X + fixHom f h0 X := fun _ => rfl
  have e : (nsmulAddMonoidHom (p + 1) : MPoint (0 : L) →+ MPoint (0 : L)) = α.comp β := by
    ext X
    rw [AddMonoidHom.comp_apply, αa, βa, map_add, hz, natCast_zsmul]
    change (p + 1) • X = _
    rw [succ_nsmul]
    abel
  have hs : Function.Surjective β := by
    intro Y
    obtain ⟨X, hX⟩ := smul_surj h2 hA (Nat.succ_ne_zero p) Y
    refine ⟨α X, ?_⟩
    rw [αa, βa, map_sub, hz, natCast_zsmul, ← hX, succ_nsmul]
    abel
  have c1 : Nat.card α.ker = p + 1 := by
    rw [← card_fixed hp f hf h0]
    refine Nat.card_congr (Equiv.subtypeEquivRight fun X => ?_)
    rw [AddMonoidHom.mem_ker, αa, sub_eq_zero, eq_comm]
  have c2 : Nat.card β.ker = p + 1 := by
    rw [← card_fixed hp f hf h0]
    have ii : ∀ X, iota hj h2 (iota hj h2 X) = -X := iota_sq hj h2
    have fi := fix_iota hj h2 f hfj h0
    refine Nat.card_congr ⟨fun X => ⟨iota hj h2 X.1, ?_⟩, fun X => ⟨-iota hj h2 X.1, ?_⟩, fun X => Subtype.ext ?_,
      fun X => Subtype.ext ?_⟩
    · have := X.2
      rw [AddMonoidHom.mem_ker, βa, add_comm, add_eq_zero_iff_eq_neg] at this
      rw [fi, this, map_neg, neg_neg]
    · rw [AddMonoidHom.mem_ker, βa, map_neg, fi, X.2]
      abel
    · change -iota hj h2 (iota hj h2 X.1) = X.1
      rw [ii, neg_neg]
    · change iota hj h2 (-iota hj h2 X.1) = X.1
      rw [map_neg, ii, neg_neg]
  rw [tors, e, card_ker_comp β α hs, c1, c2, sq]

/-! ### The curve with `A = 6` -/

variable {j : L} (h2 : (2 : L) ≠ 0) (hj : j * j = -1)
include h2 hj

theorem TwoRel.onto (P' : MPoint (0 : L)) : ∃ P, TwoRel j P P' := by
  by_cases h0 : P' = 0
  · subst h0; exact ⟨0, TwoRel.zero⟩
  have h4 := four_j_ne h2 hj
  obtain ⟨x, hx⟩ := IsAlgClosed.exists_root (C 1 * X ^ 2 + C (2 - 4 * j * xc P') * X + C 1 : L[X]) (by
    rw [degree_quadratic one_ne_zero]; decide)
  simp only [IsRoot.def, eval_add, eval_mul, eval_C, eval_pow, eval_X] at hx
  have x0 : x ≠ 0 := by rintro rfl; simp at hx
  obtain ⟨P, hP, rfl⟩ := exists_xc h2 (six_good h2) x
  refine ⟨P, xc P, 1, (krep_iff hP).mpr ⟨one_ne_zero, (mul_one _).symm⟩, (krep_iff h0).mpr ⟨?_, ?_⟩⟩
  · rw [mul_one]; exact mul_ne_zero h4 x0
  · linear_combination hx

theorem TwoRel.zero_left {P : MPoint (6 : L)} (h : TwoRel j P 0) : 2 • P = 0 := by
  obtain ⟨X, Z, k, k1⟩ := h
  by_cases hP : P = 0
  · rw [hP, nsmul_zero]
  have h4 := four_j_ne h2 hj
  rw [krep_iff hP] at k
  have hx : xc P = 0 := by
    have := (mul_eq_zero.mp k1.2).resolve_left h4
    have := (mul_eq_zero.mp this).resolve_right k.1
    rw [k.2] at this
    exact (mul_eq_zero.mp this).resolve_right k.1
  rw [two_nsmul]
  exact (add_self_iff h2 hP).mpr (yc_of_xc_zero hx)

omit h2 hj in
theorem TwoRel.sign {P : MPoint (6 : L)} {P' P'' : MPoint (0 : L)} (h : TwoRel j P P') (h' : TwoRel j P P'') :
    P'' = P' ∨ P'' = -P' := by
  obtain ⟨X, Z, k, k1⟩ := h
  exact krep_sign k1 (h'.all k)

/-- A basis of odd prime order on the curve with `A = 0` gives one on the curve with `A = 6`. -/
theorem basis_six {r : Nat} (hr : r.Prime) (hodd : r % 2 = 1) {P' Q' : MPoint (0 : L)} (hb : IsBasis r P' Q') :
    ∃ P Q : MPoint (6 : L), IsBasis r P Q := by
  have lift : ∀ Z' : MPoint (0 : L), r • Z' = 0 → ∃ Z, TwoRel j Z Z' ∧ r • Z = 0 := by
    intro Z' tZ
    obtain ⟨Z, hZ⟩ := TwoRel.onto h2 hj Z'
    have h1 := hZ.nsmul h2 hj r
    rw [tZ] at h1
    have h3 := h1.zero_left h2 hj
    have h4 := hZ.nsmul h2 hj (r + 1)
    rw [succ_nsmul Z', tZ, zero_add] at h4
    refine ⟨(r + 1) • Z, h4, ?_⟩
    obtain ⟨i, hi⟩ : ∃ i, r + 1 = i * 2 := ⟨(r + 1) / 2, by omega⟩
    rw [smul_comm, hi, mul_nsmul', h3, nsmul_zero]
  obtain ⟨P, hP, tP⟩ := lift P' hb.nsmul_left
  obtain ⟨Q, hQ, tQ⟩ := lift Q' hb.nsmul_right
  have r2 := hr.two_le
  have P0 : P ≠ 0 := by
    rintro rfl
    have e : P' = 0 := by rcases TwoRel.zero.sign hP with e | e <;> simpa using e
    have := (hb 1 0).mp (by rw [e]; simp)
    have h1 := Int.le_of_dvd (by norm_num) this.1
    omega
  refine ⟨P, Q, isBasis_of_prime hr (addOrderOf_eq_prime tP P0 (hp := ⟨hr⟩)) tQ fun hmem => ?_⟩
  have fin : IsOfFinAddOrder P := isOfFinAddOrder_iff_nsmul_eq_zero.mpr ⟨r, hr.pos, tP⟩
  obtain ⟨k, hk⟩ := fin.mem_multiples_iff_mem_zmultiples.mpr hmem
  have hkP := hP.nsmul h2 hj k
  change k • P = Q at hk
  rw [hk] at hkP
  rcases hkP.sign hQ with e | e
  · have := (hb (-k) 1).mp (by rw [neg_zsmul, natCast_zsmul, one_zsmul, e, neg_add_cancel])
    have h1 := Int.le_of_dvd (by norm_num) this.2
    omega
  · have := (hb k 1).mp (by rw [natCast_zsmul, one_zsmul, e, add_neg_cancel])
    have h1 := Int.le_of_dvd (by norm_num) this.2
    omega

end

/-! ### Rational points -/

theorem card_basis_le {G : Type*} [AddCommGroup G] {r : Nat} {P Q : G} (hb : IsBasis r P Q)
    {s : Set G} (hs : s.Finite) (h : ∀ a b : Int, a • P + b • Q ∈ s) : r ^ 2 ≤ Nat.card s := by
  have : Finite s := hs
  let F : AddSubgroup.zmultiples P × AddSubgroup.zmultiples Q → s := fun v => ⟨v.1 + v.2, by
    obtain ⟨a, ha⟩ := AddSubgroup.mem_zmultiples_iff.mp v.1.2
    obtain ⟨b, hb⟩ := AddSubgroup.mem_zmultiples_iff.mp v.2.2
    rw [← ha, ← hb]; exact h a b⟩
  have hF : Function.Injective F := by
    rintro ⟨⟨u, hu⟩, ⟨v, hv⟩⟩ ⟨⟨u', hu'⟩, ⟨v', hv'⟩⟩ e
    obtain ⟨a, rfl⟩ := AddSubgroup.mem_zmultiples_iff.mp hu
    obtain ⟨b, rfl⟩ := AddSubgroup.mem_zmultiples_iff.mp hv
    obtain ⟨a', rfl⟩ := AddSubgroup.mem_zmultiples_iff.mp hu'
    obtain ⟨b', rfl⟩ := AddSubgroup.mem_zmultiples_iff.mp hv'
    have e' : a • P + b • Q = a' • P + b' • Q := congrArg Subtype.val e
    obtain ⟨⟨x, hx⟩, ⟨y, hy⟩⟩ := (hb (a - a') (b - b')).mp (by
      rw [sub_smul, sub_smul, sub_add_sub_comm, e', sub_self])
    have e1 : a • P = a' • P := by
      rw [← sub_eq_zero, ← sub_smul, hx, mul_comm, mul_zsmul, natCast_zsmul, hb.nsmul_left, zsmul_zero]
    have e2 : b • Q = b' • Q := by
      rw [← sub_eq_zero, ← sub_smul, hy, mul_comm, mul_zsmul, natCast_zsmul, hb.nsmul_right, zsmul_zero]
    simp only [e1, e2]
  have := Nat.card_le_card_of_injective F hF
  rwa [Nat.card_prod, Nat.card_zmultiples, Nat.card_zmultiples, hb.order_left, hb.order_right, ← sq] at this

section
variable {K : Type*} [Field K] [DecidableEq K] {p : Nat}

open Classical in
/-- Over the algebraic closure there are bases of all prime orders dividing `p + 1`. -/
def FullTors (p : Nat) (A : K) : Prop :=
  ∀ r, r.Prime → r ∣ p + 1 → ∃ X Y : MPoint (algebraMap K (AlgebraicClosure K) A), IsBasis r X Y

/-- The start curve. -/
theorem fullTors_six [Fact p.Prime] [CharP K p] (hp : p % 4 = 3) : FullTors p (6 : K) := by
  classical
  haveI : CharP (AlgebraicClosure K) p := charP_of_injective_algebraMap (algebraMap K (AlgebraicClosure K)).injective p
  haveI : ExpChar (AlgebraicClosure K) p := ExpChar.prime Fact.out
  have hpp : p.Prime := Fact.out
  have h2 : (2 : AlgebraicClosure K) ≠ 0 := by
    intro e
    have := (CharP.cast_eq_zero_iff (AlgebraicClosure K) p 2).mp (by exact_mod_cast e)
    have := Nat.le_of_dvd (by norm_num) this
    have := hpp.two_le
    omega
  obtain ⟨j, hj⟩ := IsAlgClosed.exists_pow_nat_eq (-1 : AlgebraicClosure K) (n := 2) (by norm_num)
  rw [sq] at hj
  have hfj : frobenius (AlgebraicClosure K) p j = -j := by
    change j ^ p = -j
    obtain ⟨r, hr⟩ : ∃ r, p = 2 * (2 * r + 1) + 1 := ⟨p / 4, by omega⟩
    rw [hr, pow_succ, pow_mul, sq, hj, Odd.neg_one_pow ⟨r, rfl⟩, neg_one_mul]
  have hA0 : (0 : AlgebraicClosure K) * 0 ≠ 4 := by
    intro e
    apply h2
    have : (2 : AlgebraicClosure K) * 2 = 0 := by linear_combination -e
    exact (mul_eq_zero.mp this).elim id id
  have hz : ∀ X : MPoint (0 : AlgebraicClosure K), fixHom (frobenius (AlgebraicClosure K) p) (map_zero _)
      (fixHom (frobenius (AlgebraicClosure K) p) (map_zero _) X) = -((p : Int) • X) := by
    intro X
    rw [← frob_ext h2 hA0 (frobQ K p) (map_zero _) (by omega) (fun w => frobQ_apply w) (fun n Y hY => ?_) X]
    · exact (fix_comp _ _ _ _ _ _).symm
    · have := frob_sq_zero (frobenius (AlgebraicClosure K) p) h2 hj hp hfj (fun w => rfl) (map_zero _) n hY
      rw [← this]
      exact fix_comp _ _ _ _ _ _
  have hc := card_zero hp h2 hj (frobenius (AlgebraicClosure K) p) (fun w => rfl) hfj (map_zero _) hz
  have e6 : algebraMap K (AlgebraicClosure K) 6 = 6 := map_ofNat _ 6
  unfold FullTors
  rw [e6]
  intro r hr hd
  rcases hr.eq_two_or_odd with rfl | hodd
  · exact exists_basis_closed h2 (six_good h2) 1
  · obtain ⟨⟨P', Q', hb⟩, -⟩ := basis_of_card h2 hA0 (Nat.succ_ne_zero p) hc hr hd
    exact basis_six h2 hj hr hodd hb

variable {A A' : K}

/-- Isogenies. -/
theorem HasLift.fullTors (h2 : (2 : K) ≠ 0) (hA : A * A ≠ 4) (hA' : A' * A' ≠ 4) {φ : MPoint A →+ MPoint A'} {d : Nat}
    (hd : d ≠ 0) (h : HasLift φ d) (hF : FullTors p A) : FullTors p A' := by
  classical
  obtain ⟨f, -, f2, f3⟩ := h
  intro r hr hdv
  obtain ⟨X, Y, hb⟩ := hF r hr hdv
  have k2 := two_ne_map h2
  have kA := disc_map hA
  have c1 : r ^ 2 ≤ Nat.card (tors (MPoint (algebraMap K (AlgebraicClosure K) A)) r) :=
    card_basis_le hb (torsion_finite k2 kA hr.ne_zero) fun a b => by
      change r • (a • X + b • Y) = 0
      rw [nsmul_add, smul_comm, hb.nsmul_left, smul_comm r b, hb.nsmul_right, zsmul_zero, zsmul_zero, add_zero]
  rw [← tors_card_map f2 ((torsion_finite k2 kA hd).subset f3) (smul_surj k2 kA hr.ne_zero)] at c1
  refine (tors_prime k2 (disc_map hA') hr).1.resolve_left fun h => ?_
  have := hr.two_le
  nlinarith

/-- Bases of all orders dividing `p + 1` over the field itself. -/
theorem FullTors.basis [Fact p.Prime] [CharP K p] [Fintype K] (hc : Fintype.card K = p ^ 2) (h2 : (2 : K) ≠ 0)
    (hA : A * A ≠ 4) (hF : FrobNeg p A) (hT : FullTors p A) {n : Nat} (hn : n ∣ p + 1) :
    ∃ P Q : MPoint A, IsBasis n P Q := by
  classical
  have n0 : n ≠ 0 := by rintro rfl; rw [zero_dvd_iff] at hn; omega
  obtain ⟨X, Y, hb⟩ := basis_of_primes (two_ne_map h2) (disc_map hA) n0 fun r hr hd => hT r hr (hd.trans hn)
  obtain ⟨c, hc'⟩ := hn
  obtain ⟨P, rfl⟩ := hF.rational hc h2 hA (X := X) (by rw [hc', mul_comm, mul_nsmul', hb.nsmul_left, nsmul_zero])
  obtain ⟨Q, rfl⟩ := hF.rational hc h2 hA (X := Y) (by rw [hc', mul_comm, mul_nsmul', hb.nsmul_right, nsmul_zero])
  refine ⟨P, Q, fun a b => ?_⟩
  rw [← hb a b, ← map_zsmul, ← map_zsmul, ← map_add]
  exact ⟨fun e => by rw [e, map_zero], fun e => mapPt_inj (algebraMap K (AlgebraicClosure K)) e⟩

/-- The number of points killed by `n`, given a basis. -/
theorem card_of_basis (h2 : (2 : K) ≠ 0) (hA : A * A ≠ 4) {n : Nat} (hn : n ≠ 0) {P Q : MPoint A} (hb : IsBasis n P Q) :
    Nat.card {X : MPoint A // n • X = 0} = n ^ 2 := by
  have fP : Finite (AddSubgroup.zmultiples P) := Nat.finite_of_card_ne_zero (by
    rw [Nat.card_zmultiples, hb.order_left]; exact hn)
  have fQ : Finite (AddSubgroup.zmultiples Q) := Nat.finite_of_card_ne_zero (by
    rw [Nat.card_zmultiples, hb.order_right]; exact hn)
  let F : AddSubgroup.zmultiples P × AddSubgroup.zmultiples Q → MPoint A := fun v => v.1 + v.2
  have key : ∀ X : {X : MPoint A // n • X = 0}, ∃ v, F v = X := by
    rintro ⟨X, hX⟩
    obtain ⟨a, b, e⟩ := span_basis h2 hA (Nat.one_le_iff_ne_zero.mpr hn) hb hX
    exact ⟨⟨⟨a • P, AddSubgroup.zsmul_mem_zmultiples P a⟩, ⟨b • Q, AddSubgroup.zsmul_mem_zmultiples Q b⟩⟩, e.symm⟩
  choose g hg using key
  have gi : Function.Injective g := fun X Y e => Subtype.ext (by rw [← hg, ← hg, e])
  have c1 := Nat.card_le_card_of_injective g gi
  have fin : Finite {X : MPoint A // n • X = 0} := Finite.of_injective g gi
  rw [Nat.card_prod, Nat.card_zmultiples, Nat.card_zmultiples, hb.order_left, hb.order_right, ← sq] at c1
  refine le_antisymm c1 (card_basis_le (s := {X : MPoint A | n • X = 0}) hb fin fun a b => ?_)
  change n • (a • P + b • Q) = 0
  rw [nsmul_add, smul_comm, hb.nsmul_left, smul_comm n b, hb.nsmul_right, zsmul_zero, zsmul_zero, add_zero]

end
end Festa

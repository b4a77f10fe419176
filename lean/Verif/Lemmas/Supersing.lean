import Verif.Lemmas.FrobTwo
import Verif.Lemmas.WeilStep
import Mathlib.FieldTheory.Finite.Basic
/-! Curves over a field of `p^2` elements on which the Frobenius map of that field is `-p`: all points
are killed by `p + 1`, all points killed by `p + 1` are rational, and the property is carried over by the
isogenies of the code. -/
namespace Festa
open WeierstrassCurve.Affine Polynomial
variable {K : Type*} [Field K] [DecidableEq K]

/-- Frobenius of the field with `p^2` elements on the algebraic closure. -/
noncomputable def frobQ (K : Type*) [Field K] (p : Nat) [Fact p.Prime] [CharP K p] : AlgebraicClosure K →+* AlgebraicClosure K :=
  haveI : CharP (AlgebraicClosure K) p := charP_of_injective_algebraMap (algebraMap K (AlgebraicClosure K)).injective p
  haveI : ExpChar (AlgebraicClosure K) p := ExpChar.prime Fact.out
  (frobenius (AlgebraicClosure K) p).comp (frobenius (AlgebraicClosure K) p)

variable {p : Nat} [Fact p.Prime] [CharP K p]

omit [DecidableEq K] in
theorem frobQ_apply (w : AlgebraicClosure K) : frobQ K p w = w ^ (p ^ 2) := by
  haveI : CharP (AlgebraicClosure K) p := charP_of_injective_algebraMap (algebraMap K (AlgebraicClosure K)).injective p
  haveI : ExpChar (AlgebraicClosure K) p := ExpChar.prime Fact.out
  change (w ^ p) ^ p = _
  rw [← pow_mul, sq]

open Classical in
/-- Frobenius is multiplication by `-p` on all points over the algebraic closure. -/
def FrobNeg (p : Nat) [Fact p.Prime] [CharP K p] (A : K) : Prop :=
  ∀ (h : frobQ K p (algebraMap K (AlgebraicClosure K) A) = algebraMap K (AlgebraicClosure K) A)
    (X : MPoint (algebraMap K (AlgebraicClosure K) A)), fixHom (frobQ K p) h X = -((p : Int) • X)

omit [DecidableEq K] in
theorem two_ne_map (h2 : (2 : K) ≠ 0) : (2 : AlgebraicClosure K) ≠ 0 := by
  rw [← map_ofNat (algebraMap K (AlgebraicClosure K)) 2]; exact (_root_.map_ne_zero _).mpr h2

omit [DecidableEq K] in
theorem disc_map {A : K} (hA : A * A ≠ 4) :
    algebraMap K (AlgebraicClosure K) A * algebraMap K (AlgebraicClosure K) A ≠ 4 := by
  rw [← map_ofNat (algebraMap K (AlgebraicClosure K)) 4, ← map_mul]
  exact fun h => hA ((algebraMap K (AlgebraicClosure K)).injective h)

section
variable [Fintype K] (hc : Fintype.card K = p ^ 2)
include hc

omit [DecidableEq K] in
theorem frobQ_algebraMap (a : K) : frobQ K p (algebraMap K (AlgebraicClosure K) a) = algebraMap K (AlgebraicClosure K) a := by
  rw [frobQ_apply, ← map_pow, ← hc, FiniteField.pow_card]

omit [DecidableEq K] in
theorem frobQ_fixed {w : AlgebraicClosure K} (hw : frobQ K p w = w) : ∃ a, algebraMap K (AlgebraicClosure K) a = w := by
  classical
  by_contra hno
  have hp : 1 < p ^ 2 := Nat.one_lt_pow (by norm_num) (Fact.out : p.Prime).one_lt
  have hne := FiniteField.X_pow_card_sub_X_ne_zero (AlgebraicClosure K) hp
  have hdeg := FiniteField.X_pow_card_sub_X_natDegree_eq (AlgebraicClosure K) hp
  set S : Finset (AlgebraicClosure K) := insert w (Finset.univ.image (algebraMap K (AlgebraicClosure K)))
  have hS : S ⊆ (X ^ p ^ 2 - X : (AlgebraicClosure K)[X]).roots.toFinset := by
    intro z hz
    rw [Multiset.mem_toFinset, mem_roots hne, IsRoot, eval_sub, eval_pow, eval_X, ← frobQ_apply, sub_eq_zero]
    rcases Finset.mem_insert.mp hz with rfl | h
    · exact hw
    · obtain ⟨a, -, rfl⟩ := Finset.mem_image.mp h
      exact frobQ_algebraMap hc a
  have h1 := Finset.card_le_card hS
  have h2 := (Multiset.toFinset_card_le (X ^ p ^ 2 - X : (AlgebraicClosure K)[X]).roots).trans (card_roots' _)
  rw [hdeg] at h2
  have h3 : S.card = p ^ 2 + 1 := by
    rw [Finset.card_insert_of_notMem, Finset.card_image_of_injective _ (algebraMap K (AlgebraicClosure K)).injective,
      Finset.card_univ, hc]
    intro h
    obtain ⟨a, -, rfl⟩ := Finset.mem_image.mp h
    exact hno ⟨a, rfl⟩
  omega

variable {A : K}

open Classical in
theorem map_fixed (P : MPoint A)
    (h : frobQ K p (algebraMap K (AlgebraicClosure K) A) = algebraMap K (AlgebraicClosure K) A) :
    fixHom (frobQ K p) h (mapHom (algebraMap K (AlgebraicClosure K)) P) =
      mapHom (algebraMap K (AlgebraicClosure K)) P := by
  apply fix_of_coords
  · change frobQ K p (xc (mapPt _ P)) = xc (mapPt _ P)
    rw [xc_mapPt, frobQ_algebraMap hc]
  · change frobQ K p (yc (mapPt _ P)) = yc (mapPt _ P)
    rw [yc_mapPt, frobQ_algebraMap hc]

/-- All rational points are killed by `p + 1`. -/
theorem FrobNeg.kill (hF : FrobNeg p A) (P : MPoint A) : (p + 1) • P = 0 := by
  classical
  have h := frobQ_algebraMap hc A
  have e := hF h (mapHom _ P)
  rw [map_fixed hc P h] at e
  apply mapPt_inj (algebraMap K (AlgebraicClosure K))
  change mapHom (algebraMap K (AlgebraicClosure K)) ((p + 1) • P) = mapHom _ 0
  rw [map_zero, map_nsmul, succ_nsmul]
  nth_rw 2 [e]
  rw [natCast_zsmul, add_neg_cancel]

open Classical in
/-- All points killed by `p + 1` are rational. -/
theorem FrobNeg.rational (h2 : (2 : K) ≠ 0) (hA : A * A ≠ 4) (hF : FrobNeg p A)
    {X : MPoint (algebraMap K (AlgebraicClosure K) A)} (hX : (p + 1) • X = 0) :
    ∃ P : MPoint A, mapHom (algebraMap K (AlgebraicClosure K)) P = X := by
  have h := frobQ_algebraMap hc A
  have e := hF h X
  have e' : fixHom (frobQ K p) h X = X := by
    rw [e, neg_eq_iff_add_eq_zero, natCast_zsmul, ← succ_nsmul, hX]
  have hx : frobQ K p (xc X) = xc X := by rw [← xc_fix (frobQ K p) h, e']
  have hy : frobQ K p (yc X) = yc X := by rw [← yc_fix (frobQ K p) h, e']
  replace hx := frobQ_fixed hc hx
  replace hy := frobQ_fixed hc hy
  obtain ⟨x, hx⟩ := hx
  obtain ⟨y, hy⟩ := hy
  rcases X with _ | ⟨x', y', k⟩
  · exact ⟨0, map_zero _⟩
  · change _ = x' at hx
    change _ = y' at hy
    subst hx; subst hy
    refine ⟨.some x y (nonsing_of h2 hA ?_), rfl⟩
    apply (algebraMap K (AlgebraicClosure K)).injective
    have := curve_eq k
    simpa only [map_mul, map_add] using this

omit hc [Fintype K] [Fact p.Prime] [CharP K p] in
open Classical in
theorem exists_basis_closed {L : Type*} [Field L] [IsAlgClosed L] {B : L} (h2 : (2 : L) ≠ 0) (hB : B * B ≠ 4) (k : Nat) :
    ∃ P Q : MPoint B, IsBasis (2 ^ k) P Q := by
  rcases k with _ | k
  · exact ⟨0, 0, fun a b => by simp⟩
  obtain ⟨T, T', hTT⟩ := exists_two h2 hB
  obtain ⟨P, hP⟩ := exists_two_pow_half h2 hB k T
  obtain ⟨Q, hQ⟩ := exists_two_pow_half h2 hB k T'
  have d : ∀ a b : Int, (2 : Int) ∣ a → (2 : Int) ∣ b → a • T + b • T' = 0 := fun a b h1 h2 => (hTT a b).mpr ⟨h1, h2⟩
  refine ⟨P, Q, isBasis_two_pow ?_ ?_ ?_ ?_ ?_⟩
  · rw [pow_succ, mul_comm, mul_nsmul', hP, ← natCast_zsmul]
    simpa using d 2 0 dvd_rfl (dvd_zero _)
  · rw [pow_succ, mul_comm, mul_nsmul', hQ, ← natCast_zsmul]
    simpa using d 0 2 (dvd_zero _) dvd_rfl
  · rw [hP]; intro e
    have := (hTT 1 0).mp (by rw [e]; simp)
    omega
  · rw [hQ]; intro e
    have := (hTT 0 1).mp (by rw [e]; simp)
    omega
  · rw [hP, hQ]; intro e
    have := (hTT 1 (-1)).mp (by rw [e]; simp)
    omega

/-- The torsion of order a power of two dividing `p + 1` has a rational basis. -/
theorem FrobNeg.basis (h2 : (2 : K) ≠ 0) (hA : A * A ≠ 4) (hF : FrobNeg p A) {k : Nat} (hk : 2 ^ k ∣ p + 1) :
    ∃ P Q : MPoint A, IsBasis (2 ^ k) P Q := by
  classical
  obtain ⟨X, Y, hb⟩ := exists_basis_closed (two_ne_map h2) (disc_map hA) k
  obtain ⟨c, hc'⟩ := hk
  obtain ⟨P, rfl⟩ := hF.rational hc h2 hA (X := X) (by rw [hc', mul_comm, mul_nsmul', hb.nsmul_left, nsmul_zero])
  obtain ⟨Q, rfl⟩ := hF.rational hc h2 hA (X := Y) (by rw [hc', mul_comm, mul_nsmul', hb.nsmul_right, nsmul_zero])
  refine ⟨P, Q, fun a b => ?_⟩
  rw [← hb a b, ← map_zsmul, ← map_zsmul, ← map_add]
  exact ⟨fun e => by rw [e, map_zero], fun e => mapPt_inj (algebraMap K (AlgebraicClosure K)) e⟩

/-- The isogenies of the code keep the property. -/
theorem FrobNeg.velu (hp : p % 4 = 3) {A' : K} (h2 : (2 : K) ≠ 0) (hA : A * A ≠ 4) {R : MPoint A} {d : Nat}
    (hord : addOrderOf R = 2 * d + 1) {a e : K}
    (ha : a = (A + 2) ^ (2 * d + 1) * (∏ i ∈ Finset.range d, (xc ((i + 1) • R) + 1)) ^ 8)
    (he : e = (A - 2) ^ (2 * d + 1) * (∏ i ∈ Finset.range d, (xc ((i + 1) • R) - 1)) ^ 8)
    (hA' : A' * (a - e) = 2 * (a + e)) (hF : FrobNeg p A) : FrobNeg p A' := by
  classical
  obtain ⟨-, h3⟩ := velu_full h2 hA hord ha he
  obtain ⟨-, ψ, hker0, hx0, h2', hA1, hA2, hFt, k, φ', hord', hker', hφ', hk2, hcomm⟩ := h3 A' hA'
  intro h' X
  have h := frobQ_algebraMap hc A
  obtain ⟨P4, Q4, hb4⟩ := hF.basis hc h2 hA (k := 2) (by norm_num; omega)
  have inj : ∀ {n : Nat} (S : MPoint (algebraMap K (AlgebraicClosure K) A)), 2 ^ n • S = 0 → φ' S = 0 → S = 0 := by
    intro n S h1 h3
    refine ker_coprime hord' ?_ h1 ((hker' S).mp h3)
    exact Nat.Coprime.pow_left _ (by rw [Nat.coprime_two_left, Nat.odd_iff]; omega)
  -- the kernel is rational
  have hG : ∀ g ∈ AddSubgroup.zmultiples (up (algebraMap K (AlgebraicClosure K)) h2' hA1 R),
      fixHom (frobQ K p) h g = g := by
    intro g hg
    obtain ⟨i, rfl⟩ := AddSubgroup.mem_zmultiples_iff.mp hg
    rw [map_zsmul, up_eq_map, map_fixed hc]
  have hor : ∀ Q, ((fixHom (frobQ K p) h').comp φ') Q = (zsmulAddGroupHom (p : Int)).comp φ' Q ∨
      ((fixHom (frobQ K p) h').comp φ') Q = -(zsmulAddGroupHom (p : Int)).comp φ' Q := by
    intro Q
    change fixHom (frobQ K p) h' (φ' Q) = (p : Int) • φ' Q ∨ fixHom (frobQ K p) h' (φ' Q) = -((p : Int) • φ' Q)
    by_cases hQ : Q ∈ AddSubgroup.zmultiples (up (algebraMap K (AlgebraicClosure K)) h2' hA1 R)
    · left; rw [(hker' Q).mpr hQ, map_zero, zsmul_zero]
    have hQ' : fixHom (frobQ K p) h Q ∉ AddSubgroup.zmultiples (up (algebraMap K (AlgebraicClosure K)) h2' hA1 R) := by
      intro hm
      have := fix_inj (frobQ K p) h (hG _ hm)
      exact hQ (this ▸ hm)
    have hfx : fx (AddSubgroup.zmultiples (up (algebraMap K (AlgebraicClosure K)) h2' hA1 R)) (fixHom (frobQ K p) h Q) =
        frobQ K p (fx (AddSubgroup.zmultiples (up (algebraMap K (AlgebraicClosure K)) h2' hA1 R)) Q) := by
      unfold fx
      rw [map_prod]
      refine Finset.prod_congr rfl fun g _ => ?_
      rw [← xc_fix (frobQ K p) h, map_add, hG g.1 g.2]
    have n1 : fixHom (frobQ K p) h' (φ' Q) ≠ 0 := fix_ne _ _ fun e => hQ ((hker' Q).mp e)
    have n2 : φ' (fixHom (frobQ K p) h Q) ≠ 0 := fun e => hQ' ((hker' _).mp e)
    have := (xc_eq_iff n1 n2).mp (by rw [xc_fix, (hφ' Q hQ).1, (hφ' _ hQ').1, hfx])
    rw [hF h Q, map_neg, map_zsmul, neg_neg] at this
    exact this.symm
  have t4 : 4 • P4 = 0 := hb4.nsmul_left
  have hpT : (p : Int) • P4 = -P4 := by
    obtain ⟨r, hr⟩ : ∃ r : Int, (p : Int) = r * 4 - 1 := ⟨(p + 1) / 4, by omega⟩
    rw [hr, sub_zsmul, mul_zsmul, show (4 : Int) = ((4 : Nat) : Int) from rfl, natCast_zsmul, t4, zsmul_zero, one_zsmul, zero_add]
  have hall := opp_of_or hor (T := up (algebraMap K (AlgebraicClosure K)) h2' hA1 P4) (by
      change fixHom (frobQ K p) h' (φ' _) = -((p : Int) • φ' _)
      rw [← map_zsmul, ← map_zsmul, hpT, map_neg, map_neg, neg_neg, ← hcomm, up_eq_map, map_fixed hc]) (by
      change (p : Int) • φ' _ + (p : Int) • φ' _ ≠ 0
      rw [← map_zsmul, ← map_zsmul, hpT, ← map_add, ← map_add]
      intro e
      have z := inj (n := 1) _ (by
        rw [← map_nsmul, ← map_zero (up (algebraMap K (AlgebraicClosure K)) h2' hA1)]
        congr 1
        rw [← neg_zero, ← t4]; abel) e
      have z' : -P4 + -P4 = 0 := up_inj (z.trans (map_zero _).symm)
      have := (hb4 (-2) 0).mp (by rw [← z']; module)
      norm_num at this)
  refine frob_ext h2' hA2 (frobQ K p) h' (by omega) (fun w => frobQ_apply w) (fun n Y hY => ?_) X
  -- the 2-power torsion is in the image
  obtain ⟨P, Q, hb⟩ := exists_basis_closed h2' hA1 n
  have hb' : IsBasis (2 ^ n) (φ' P) (φ' Q) := by
    intro u v
    rw [← hb u v, ← map_zsmul, ← map_zsmul, ← map_add]
    refine ⟨fun z => inj (n := n) _ ?_ z, fun z => by rw [z, map_zero]⟩
    rw [smul_add, smul_comm, hb.nsmul_left, smul_comm, hb.nsmul_right, smul_zero, smul_zero, add_zero]
  obtain ⟨u, v, rfl⟩ := span_basis h2' hA2 Nat.one_le_two_pow hb' hY
  have := hall (u • P + v • Q)
  change fixHom (frobQ K p) h' (φ' _) = -((p : Int) • φ' _) at this
  rw [map_add, map_zsmul, map_zsmul] at this
  exact this

/-- The start curve. -/
theorem frobNeg_six (hp : p % 4 = 3) : FrobNeg p (6 : K) := by
  classical
  haveI : CharP (AlgebraicClosure K) p := charP_of_injective_algebraMap (algebraMap K (AlgebraicClosure K)).injective p
  haveI : ExpChar (AlgebraicClosure K) p := ExpChar.prime Fact.out
  have hpp : p.Prime := Fact.out
  have h2 : (2 : AlgebraicClosure K) ≠ 0 := by
    intro e
    have := (CharP.cast_eq_zero_iff (AlgebraicClosure K) p 2).mp (by exact_mod_cast e)
    have := Nat.le_of_dvd (by norm_num) this
    have := hpp.two_le
    omega
  obtain ⟨j, hj⟩ := IsAlgClosed.exists_pow_nat_eq (-1 : AlgebraicClosure K) (n := 2) (by norm_num)
  obtain ⟨y, hy⟩ := IsAlgClosed.exists_pow_nat_eq (8 : AlgebraicClosure K) (n := 2) (by norm_num)
  rw [sq] at hj hy
  have hfj : frobenius (AlgebraicClosure K) p j = -j := by
    change j ^ p = -j
    obtain ⟨r, hr⟩ : ∃ r, p = 2 * (2 * r + 1) + 1 := ⟨p / 4, by omega⟩
    rw [hr, pow_succ, pow_mul, sq, hj, Odd.neg_one_pow ⟨r, rfl⟩, neg_one_mul]
  have hfy : frobQ K p y = y := by
    have : frobenius (AlgebraicClosure K) p y * frobenius (AlgebraicClosure K) p y = y * y := by
      rw [← map_mul, hy, map_ofNat]
    rcases mul_self_eq_mul_self_iff.mp this with e | e
    · change frobenius _ p (frobenius _ p y) = y
      rw [e, e]
    · change frobenius _ p (frobenius _ p y) = y
      rw [e, map_neg, e, neg_neg]
  have hfj2 : frobQ K p j = j := by
    change frobenius _ p (frobenius _ p j) = j
    rw [hfj, map_neg, hfj, neg_neg]
  have hA0 : (0 : AlgebraicClosure K) * 0 ≠ 4 := by
    intro e
    apply h2
    have : (2 : AlgebraicClosure K) * 2 = 0 := by linear_combination -e
    exact (mul_eq_zero.mp this).elim id id
  have hz : ∀ X : MPoint (0 : AlgebraicClosure K), fixHom (frobQ K p) (map_zero _) X = -((p : Int) • X) := by
    intro X
    refine frob_ext h2 hA0 (frobQ K p) (map_zero _) (by omega) (fun w => frobQ_apply w) (fun n Y hY => ?_) X
    have := frob_sq_zero (frobenius (AlgebraicClosure K) p) h2 hj hp hfj (fun w => rfl) (map_zero _) n hY
    rw [← this]
    exact fix_comp _ _ _ _ _ _
  have h6 := frob_six h2 hj hp (frobQ K p) hfj2 hy hfy (map_ofNat _ 6) (map_zero _) hz
  have e6 : algebraMap K (AlgebraicClosure K) 6 = 6 := map_ofNat _ 6
  unfold FrobNeg
  rw [e6]
  exact fun h X => h6 X

end
end Festa

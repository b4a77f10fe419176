import Verif.Spec.Isogeny
import Verif.Lemmas.Velu
import Verif.Props.EC
/-! One isogeny step: from the code's products to the isogeny formulas. -/
namespace Festa
open WeierstrassCurve.Affine
variable {K : Type*} [Field K] [DecidableEq K]

theorem foldl_prod {α : Type*} (g : α → K) (l : List α) (a : K) :
    l.foldl (fun y p => y * g p) a = a * (l.map g).prod := by
  induction l generalizing a with
  | nil => simp
  | cons x l ih => rw [List.foldl_cons, ih, List.map_cons, List.prod_cons, mul_assoc]

theorem prep_ne {A : K} {P : Pt K} {Q : MPoint A} (h : PRep P Q) (hQ : Q ≠ 0) :
    P.Z ≠ 0 ∧ P.X = xc Q * P.Z := by
  rcases Q with _ | ⟨x, y, k⟩
  · exact absurd rfl hQ
  · exact ⟨h.1, h.2.1⟩

/-- The list of multiples, each scaled by some `c i`. -/
theorem multiples_spec {E : Crv K} (hE : E.Good) {P : Pt K} {R : MPoint E.A} (hP : PRep P R) (d : Nat) :
    ∀ (k : Nat) (iter : Pt K), PRep iter (k • R) → (∀ i, i < d → (k + i + 1) • R ≠ 0) →
    ∃ c : Nat → K, (∀ i, c i ≠ 0) ∧ edwardsMultiples E P d iter =
      (List.range d).map fun i => (c i * (xc ((k + i + 1) • R) - 1), c i * (xc ((k + i + 1) • R) + 1)) := by
  induction d with
  | zero => intro k iter _ _; exact ⟨fun _ => 1, fun _ => one_ne_zero, rfl⟩
  | succ d ih =>
    intro k iter hi hne
    have h1 : PRep (E.add iter P) ((k + 1) • R) := by
      rw [succ_nsmul]; exact C25_add hE hi hP
    obtain ⟨c, hc, e⟩ := ih (k + 1) _ h1 (fun i hi' => by
      have := hne (i + 1) (by omega)
      rwa [show k + 1 + i + 1 = k + (i + 1) + 1 by omega])
    obtain ⟨hz, hx⟩ := prep_ne h1 (by simpa using hne 0 (by omega))
    refine ⟨fun i => match i with | 0 => (E.add iter P).Z | i + 1 => c i, ?_, ?_⟩
    · rintro (_ | i)
      · exact hz
      · exact hc i
    · rw [edwardsMultiples, List.range_succ_eq_map, List.map_cons, List.map_map, e]
      congr 1
      · simp only [Nat.add_zero, Prod.mk.injEq]
        rw [hx]; constructor <;> ring
      · refine List.map_congr_left fun i _ => ?_
        simp only [Function.comp, Nat.succ_eq_add_one]
        rw [show k + 1 + i + 1 = k + (i + 1) + 1 by omega]

theorem prod_range (d : Nat) (g : Nat → K) : ((List.range d).map g).prod = ∏ i ∈ Finset.range d, g i := rfl

theorem codomainConstant_eq (A : K) (n : UInt64) (d : Nat) (c x : Nat → K) :
    codomainConstant A n ((List.range d).map fun i => (c i * (x i - 1), c i * (x i + 1))) =
      2 * ((A + 2) ^ n.toNat * (∏ i ∈ Finset.range d, (x i + 1)) ^ 8 * (∏ i ∈ Finset.range d, c i) ^ 8 +
        (A - 2) ^ n.toNat * (∏ i ∈ Finset.range d, (x i - 1)) ^ 8 * (∏ i ∈ Finset.range d, c i) ^ 8) /
      ((A + 2) ^ n.toNat * (∏ i ∈ Finset.range d, (x i + 1)) ^ 8 * (∏ i ∈ Finset.range d, c i) ^ 8 -
        (A - 2) ^ n.toNat * (∏ i ∈ Finset.range d, (x i - 1)) ^ 8 * (∏ i ∈ Finset.range d, c i) ^ 8) := by
  unfold codomainConstant
  simp only [foldl_prod, List.map_map]
  simp only [Function.comp_def, prod_range, Finset.prod_mul_distrib]
  have h2 : (1 : K) + 1 = 2 := by norm_num
  rw [h2]
  congr 1 <;> ring

variable [RootOps K]

theorem complete_Z {E : Crv K} {X Z : K} (hz : Z = 0) : (E.completePointX ⟨X, Z⟩).1.Z = 0 := by
  have e2 : (E.completePointX ⟨X, Z⟩).1.Z = cond' (Z * Z) 0 (!(E.completePointX ⟨X, Z⟩).2) := rfl
  rw [e2, hz, mul_zero]
  unfold cond'
  split <;> rfl

theorem kummer_eq {A : K} {X Z : K} {Q Q' : MPoint A} (h : KRep X Z Q) (h' : KRep X Z Q') :
    Q' = Q ∨ Q' = -Q := by
  rcases Q with _ | ⟨x, y, k⟩ <;> rcases Q' with _ | ⟨x', y', k'⟩
  · exact Or.inl rfl
  · exact absurd h.2 h'.1
  · exact absurd h'.2 h.1
  · have : x' = x := mul_right_cancel₀ h.1 (h'.2.symm.trans h.2)
    subst this
    rcases y_of_x_eq k k' with e | e
    · left; subst e; rfl
    · right
      obtain ⟨h3, e3⟩ := neg_pt k
      rw [e3]
      have : y' = -y := by rw [e, neg_neg]
      subst this; rfl

/-- Completing the x-coordinate of a point gives this point or its negative. -/
theorem complete_rep {E : Crv K} (hE : E.Good) {X Z : K} {Q : MPoint E.A} (h : KRep X Z Q) :
    PRep (E.completePointX ⟨X, Z⟩).1 Q ∨ PRep (E.completePointX ⟨X, Z⟩).1 (-Q) := by
  obtain ⟨h1, h2, -⟩ := C29_complete hE ⟨X, Z⟩
  have ht : (E.completePointX ⟨X, Z⟩).2 = true := by
    refine h1.mpr ?_
    rcases Q with _ | ⟨x, y, k⟩
    · exact Or.inl h.2
    · exact Or.inr ⟨x, y, k, h.2⟩
  have hne : X ≠ 0 ∨ Z ≠ 0 := by
    rcases Q with _ | ⟨x, y, k⟩
    · exact Or.inl h.1
    · exact Or.inr h.1
  obtain ⟨Q', k1, k2⟩ := h2 ht hne
  rcases kummer_eq h k1 with e | e
  · left; rwa [e] at k2
  · right; rwa [e] at k2

theorem eval_eq (f : KIso K) (P : Pt K) (d : Nat) (c x : Nat → K)
    (hm : f.multiples = (List.range d).map fun i => (c i * (x i - 1), c i * (x i + 1))) :
    f.eval P = (f.codomain.completePointX
      ⟨(∏ i ∈ Finset.range d, c i) ^ 2 * (∏ i ∈ Finset.range d, 2 * (P.X * x i - P.Z)) ^ 2 * P.X,
       (∏ i ∈ Finset.range d, c i) ^ 2 * (∏ i ∈ Finset.range d, 2 * (P.X - P.Z * x i)) ^ 2 * P.Z⟩).1 := by
  unfold KIso.eval
  simp only [foldl_prod, List.map_map, hm]
  simp only [Function.comp_def, prod_range]
  have e1 : ∀ i, (P.X - P.Z) * (c i * (x i + 1)) + c i * (x i - 1) * (P.X + P.Z) =
      c i * (2 * (P.X * x i - P.Z)) := fun i => by ring
  have e2 : ∀ i, (P.X - P.Z) * (c i * (x i + 1)) - c i * (x i - 1) * (P.X + P.Z) =
      c i * (2 * (P.X - P.Z * x i)) := fun i => by ring
  simp only [e1, e2, Finset.prod_mul_distrib]
  congr 4 <;> ring

/-- Multiples of a point of order `2 d + 1`: up to sign the first `d`. -/
theorem mem_zmul {A : K} {R Q : MPoint A} {d : Nat} (ho : addOrderOf R = 2 * d + 1)
    (hQ : Q ∈ AddSubgroup.zmultiples R) (h0 : Q ≠ 0) : ∃ i < d, xc Q = xc ((i + 1) • R) := by
  obtain ⟨n, hn, rfl⟩ : ∃ n, n < 2 * d + 1 ∧ n • R = Q := by
    obtain ⟨k, rfl⟩ := AddSubgroup.mem_zmultiples_iff.mp hQ
    have hpos : (0 : Int) < 2 * d + 1 := by omega
    have hm0 := Int.emod_nonneg k hpos.ne'
    have hm1 := Int.emod_lt_of_pos k hpos
    refine ⟨(k % (2 * d + 1)).toNat, by omega, ?_⟩
    rw [← natCast_zsmul, Int.toNat_of_nonneg hm0]
    have := mod_addOrderOf_zsmul R k
    rwa [ho, Nat.cast_add, Nat.cast_mul, Nat.cast_ofNat, Nat.cast_one] at this
  have hn0 : n ≠ 0 := by rintro rfl; exact h0 (zero_nsmul R)
  rcases Nat.lt_or_ge d n with h | h
  · refine ⟨2 * d - n, by omega, ?_⟩
    have : n • R + (2 * d - n + 1) • R = 0 := by
      rw [← add_nsmul, show n + (2 * d - n + 1) = 2 * d + 1 by omega, ← ho]
      exact addOrderOf_nsmul_eq_zero R
    rw [← neg_eq_of_add_eq_zero_right this, xc_neg]
  · exact ⟨n - 1, by omega, by rw [Nat.sub_add_cancel (by omega)]⟩

theorem new_spec (chk : Bool) {E : Crv K} (hE : E.Good) {P : Pt K} {R : MPoint E.A} (hP : PRep P R)
    {n : UInt64} (ho : addOrderOf R = n.toNat) (hodd : n.toNat % 2 = 1)
    (h1 : chk = true → n.toNat ≠ 1) :
    ∃ E' ms, KIso.new chk E P n = some ⟨E, E', P, n, ms⟩ ∧
      ∃ φ : MPoint E.A →+ MPoint E'.A, IsStep ⟨E, E', P, n, ms⟩ φ ∧
        ∀ Q : MPoint E.A, φ Q = 0 ↔ Q ∈ AddSubgroup.zmultiples R := by
  obtain ⟨d, hd⟩ : ∃ d, n.toNat = 2 * d + 1 := ⟨n.toNat / 2, by omega⟩
  have hdd : ((n - 1) / 2).toNat = d := by
    have hn : n.toNat < 2 ^ 64 := n.toNat_lt
    rw [UInt64.toNat_div, UInt64.toNat_sub_of_le _ _ (by rw [UInt64.le_iff_toNat_le]; simp; omega)]
    simp; omega
  have hne : ∀ i, i < d → (0 + i + 1) • R ≠ 0 := by
    intro i hi h
    have := Nat.le_of_dvd (by omega) (addOrderOf_dvd_of_nsmul_eq_zero h)
    omega
  obtain ⟨c, hc, em⟩ := multiples_spec hE hP d 0 Pt.inf (by rw [zero_nsmul]; rfl) hne
  simp only [zero_add] at em
  have hC : (∏ i ∈ Finset.range d, c i) ≠ 0 := Finset.prod_ne_zero_iff.mpr fun i _ => hc i
  obtain ⟨hae, hv⟩ := velu hE.two hE.disc (ho.trans hd) rfl rfl
  set a := (E.A + 2) ^ (2 * d + 1) * (∏ i ∈ Finset.range d, (xc ((i + 1) • R) + 1)) ^ 8 with ha
  set e := (E.A - 2) ^ (2 * d + 1) * (∏ i ∈ Finset.range d, (xc ((i + 1) • R) - 1)) ^ 8 with he
  have hcod : codomainConstant E.A n (edwardsMultiples E P d Pt.inf) * (a - e) = 2 * (a + e) := by
    rw [em, codomainConstant_eq, hd, ← ha, ← he]
    have : a - e ≠ 0 := sub_ne_zero.mpr hae
    rw [← sub_mul, ← add_mul]
    field_simp
  obtain ⟨hA', -⟩ := hv _ hcod
  rcases hn : Crv.new (codomainConstant E.A n (edwardsMultiples E P d Pt.inf)) with _ | E'
  · exact absurd (((C60_curve_new hE.two _).1).mp hn) hA'
  obtain ⟨eA, hE', -⟩ := (C60_curve_new hE.two _).2 E' hn
  have hnew : KIso.new chk E P n = some ⟨E, E', P, n, edwardsMultiples E P d Pt.inf⟩ := by
    unfold KIso.new
    have c1 : ¬(chk && P.isInf) = true := by
      cases chk
      · simp
      · have hR : R ≠ 0 := by
          rintro rfl
          rw [addOrderOf_zero] at ho
          exact h1 rfl ho.symm
        have := (C24_isinfinity hP).not.mpr hR
        simpa using this
    have c2 : ¬(chk && ((E.mulSmall P n).map Pt.isInf != some true)) = true := by
      obtain ⟨S, hS, hr⟩ := C27_mul_small hE hP n
      rw [← ho, addOrderOf_nsmul_eq_zero] at hr
      have := (C24_isinfinity hr).mpr rfl
      rw [hS, Option.map_some, this]
      simp
    have c3 : ¬(chk && n == 0) = true := by
      have : n ≠ 0 := by rintro rfl; simp at hd
      simp [this]
    rw [if_neg c1, if_neg c2, if_neg c3, hdd]
    simp only [hn]
  refine ⟨E', _, hnew, ?_⟩
  obtain ⟨-, φ, hker, hx⟩ := hv E'.A (by rw [eA]; exact hcod)
  refine ⟨φ, ⟨hE, hE', ⟨R, hP, ho, hker, ?_, ?_⟩, ?_⟩, hker⟩
  · intro Q hQ
    simp only
    rw [show (n.toNat - 1) / 2 = d by omega]
    exact hx Q hQ
  · simp only
    rw [show (n.toNat - 1) / 2 = d by omega, eA, hd, Finset.prod_pow, Finset.prod_pow, ← ha, ← he]
    linear_combination -hcod
  · intro P' Q hPQ
    have key := eval_eq (⟨E, E', P, n, edwardsMultiples E P d Pt.inf⟩ : KIso K) P' d c _ em
    rw [key]
    dsimp only at hPQ φ hker hx ⊢
    by_cases hQ : Q ∈ AddSubgroup.zmultiples R
    · left
      rw [(hker Q).mpr hQ]
      refine complete_Z ?_
      by_cases h0 : Q = 0
      · subst h0
        have : P'.Z = 0 := hPQ
        rw [this, mul_zero]
      · obtain ⟨i, hi, hxi⟩ := mem_zmul (ho.trans hd) hQ h0
        obtain ⟨hz, hX⟩ := prep_ne hPQ h0
        have : ∏ i ∈ Finset.range d, 2 * (P'.X - P'.Z * xc ((i + 1) • R)) = 0 :=
          Finset.prod_eq_zero (i := i) (Finset.mem_range.mpr hi) (by rw [hX, hxi]; ring)
        rw [this]
        ring
    · refine complete_rep hE' ?_
      have h0 : Q ≠ 0 := fun h => hQ (h ▸ zero_mem _)
      have hφ : φ Q ≠ 0 := fun h => hQ ((hker Q).mp h)
      obtain ⟨hz, hX⟩ := prep_ne hPQ h0
      rw [pt_eq_some hφ]
      have hxQ : ∀ i, i < d → xc Q - xc ((i + 1) • R) ≠ 0 := by
        intro i hi h
        have hR := hne i hi
        rw [zero_add] at hR
        rcases (xc_eq_iff h0 hR).mp (sub_eq_zero.mp h) with e1 | e1
        · exact hQ (e1 ▸ AddSubgroup.nsmul_mem_zmultiples R _)
        · exact hQ (e1 ▸ neg_mem (AddSubgroup.nsmul_mem_zmultiples R _))
      have e1 : ∀ i, 2 * (P'.X - P'.Z * xc ((i + 1) • R)) = 2 * P'.Z * (xc Q - xc ((i + 1) • R)) :=
        fun i => by rw [hX]; ring
      have e2 : ∀ i, 2 * (P'.X * xc ((i + 1) • R) - P'.Z) = 2 * P'.Z * (xc Q * xc ((i + 1) • R) - 1) :=
        fun i => by rw [hX]; ring
      simp only [e1, e2, Finset.prod_mul_distrib, Finset.prod_const, Finset.card_range]
      have hp : (∏ i ∈ Finset.range d, (xc Q - xc ((i + 1) • R))) ≠ 0 :=
        Finset.prod_ne_zero_iff.mpr fun i hi => hxQ i (Finset.mem_range.mp hi)
      have h2 := hE.two
      refine ⟨?_, ?_⟩
      · positivity
      · have := hx Q hQ
        rw [hX]
        linear_combination -(P'.Z * ((∏ i ∈ Finset.range d, c i) * (2 ^ d * P'.Z ^ d)) ^ 2) * this
end Festa

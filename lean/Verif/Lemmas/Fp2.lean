import Verif.Spec.Fp2
import Verif.Props.FpDiv
import Verif.Props.FpBytes
import Mathlib.Tactic.LinearCombination
import Mathlib.Tactic.FieldSimp
/-! The extension field code against the reference `F_p[i]`. -/
namespace Festa
variable {P : FpParams}

theorem one_re : (1 : F2 P).re = 1 := rfl
theorem one_im : (1 : F2 P).im = 0 := rfl
theorem zero_re : (0 : F2 P).re = 0 := rfl
theorem zero_im : (0 : F2 P).im = 0 := rfl

theorem F2.mul_re (z w : F2 P) : (z * w).re = z.re * w.re - z.im * w.im := by
  rw [QuadraticAlgebra.re_mul]; ring
theorem F2.mul_im (z w : F2 P) : (z * w).im = z.re * w.im + z.im * w.re := by
  rw [QuadraticAlgebra.im_mul]; ring

theorem neg_one_nonsquare (hR : P.RootValid) : ¬ IsSquare (-1 : ZMod P.p) := by
  have : Fact P.p.Prime := ⟨hR.prime⟩
  rw [ZMod.exists_sq_eq_neg_one_iff]
  have := hR.mod8
  omega

/-- `F_p[i]` is a field. -/
theorem f2_fact (hR : P.RootValid) : Fact (∀ r : ZMod P.p, r ^ 2 ≠ -1 + 0 * r) :=
  ⟨fun r h => neg_one_nonsquare hR ⟨r, by rw [← sq, h]; ring⟩⟩

theorem sq_add_sq_eq_zero (hR : P.RootValid) {x y : ZMod P.p} (h : x * x + y * y = 0) :
    x = 0 ∧ y = 0 := by
  have : Fact P.p.Prime := ⟨hR.prime⟩
  by_cases hy : y = 0
  · subst hy; simpa using h
  · exfalso
    apply neg_one_nonsquare hR
    refine ⟨x / y, ?_⟩
    field_simp
    linear_combination -h

theorem rep2_unique (hV : P.Valid) {a : Fp2} {z w : F2 P} (h1 : Rep2 P a z) (h2 : Rep2 P a w) :
    z = w := QuadraticAlgebra.ext (rep_unique hV h1.1 h2.1) (rep_unique hV h1.2 h2.2)

theorem rep2_inj {a b : Fp2} {z : F2 P} (h1 : Rep2 P a z) (h2 : Rep2 P b z) : a = b := by
  cases a; cases b
  rw [Fp2.mk.injEq]
  exact ⟨rep_inj h1.1 h2.1, rep_inj h1.2 h2.2⟩

theorem exists_rep2 (hV : P.Valid) (z : F2 P) : ∃ a, Rep2 P a z := by
  obtain ⟨a0, h0⟩ := exists_rep hV z.re
  obtain ⟨a1, h1⟩ := exists_rep hV z.im
  exact ⟨⟨a0, a1⟩, h0, h1⟩

theorem exists_rep2_val (hV : P.Valid) {a : Fp2} (h : Reduced2 P a) : ∃ z, Rep2 P a z := by
  obtain ⟨x, h0⟩ := exists_rep_val hV h.1
  obtain ⟨y, h1⟩ := exists_rep_val hV h.2
  exact ⟨⟨x, y⟩, h0, h1⟩

theorem Rep2.reduced {a : Fp2} {z : F2 P} (h : Rep2 P a z) : Reduced2 P a := ⟨h.1.1, h.2.1⟩

theorem rep2_zero (hV : P.Valid) : Rep2 P (fp2Zero P) 0 := ⟨rep_zero hV, rep_zero hV⟩
theorem rep2_one (hV : P.Valid) : Rep2 P (fp2One P) 1 := ⟨rep_R_VAL hV, rep_zero hV⟩

theorem rep2_add (hV : P.Valid) {a b : Fp2} {z w : F2 P} (ha : Rep2 P a z) (hb : Rep2 P b w) :
    Rep2 P (fp2Add P a b) (z + w) := ⟨rep_add hV ha.1 hb.1, rep_add hV ha.2 hb.2⟩
theorem rep2_sub (hV : P.Valid) {a b : Fp2} {z w : F2 P} (ha : Rep2 P a z) (hb : Rep2 P b w) :
    Rep2 P (fp2Sub P a b) (z - w) := ⟨rep_sub hV ha.1 hb.1, rep_sub hV ha.2 hb.2⟩
theorem rep2_neg (hV : P.Valid) {a : Fp2} {z : F2 P} (ha : Rep2 P a z) :
    Rep2 P (fp2Neg P a) (-z) := ⟨rep_neg hV ha.1, rep_neg hV ha.2⟩

theorem rep2_mul (hV : P.Valid) {a b : Fp2} {z w : F2 P} (ha : Rep2 P a z) (hb : Rep2 P b w) :
    Rep2 P (fp2Mul P a b) (z * w) := by
  refine ⟨?_, ?_⟩
  · rw [F2.mul_re]; exact rep_diff_of_products hV ha.1 hb.1 ha.2 hb.2
  · rw [F2.mul_im]; exact rep_sum_of_products hV ha.1 hb.2 ha.2 hb.1

theorem rep2_mulOld (hV : P.Valid) {a b : Fp2} {z w : F2 P} (ha : Rep2 P a z) (hb : Rep2 P b w) :
    Rep2 P (fp2MulOld P a b) (z * w) := by
  have h1 := rep_mul hV ha.1 hb.1
  have h2 := rep_mul hV ha.2 hb.2
  have h3 := rep_mul hV (rep_add hV ha.1 ha.2) (rep_add hV hb.1 hb.2)
  refine ⟨?_, ?_⟩
  · rw [F2.mul_re]; exact rep_sub hV h1 h2
  · rw [F2.mul_im]
    have := rep_sub hV (rep_sub hV h3 h1) h2
    rwa [show (z.re + z.im) * (w.re + w.im) - z.re * w.re - z.im * w.im
      = z.re * w.im + z.im * w.re by ring] at this

theorem rep2_square (hV : P.Valid) {a : Fp2} {z : F2 P} (ha : Rep2 P a z) :
    Rep2 P (fp2Square P a) (z * z) := by
  refine ⟨?_, ?_⟩
  · rw [F2.mul_re]
    have := rep_mul hV (rep_add hV ha.1 ha.2) (rep_sub hV ha.1 ha.2)
    rwa [show (z.re + z.im) * (z.re - z.im) = z.re * z.re - z.im * z.im by ring] at this
  · rw [F2.mul_im]
    have := rep_mul2 hV (rep_mul hV ha.2 ha.1)
    rwa [show 2 * (z.im * z.re) = z.re * z.im + z.im * z.re by ring] at this

/-! ### Control words -/

theorem ctl_and (a b : Bool) : ctlOf a &&& ctlOf b = ctlOf (a && b) := by
  cases a <;> cases b <;> rfl
theorem ctl_or (a b : Bool) : ctlOf a ||| ctlOf b = ctlOf (a || b) := by
  cases a <;> cases b <;> rfl
theorem ctl_not (a : Bool) : ~~~(ctlOf a) = ctlOf (!a) := by cases a <;> rfl

theorem cond_form {a b : Limbs} {x y : ZMod P.p} (ha : Rep P a x) (hb : Rep P b y) (c : Bool) :
    Rep P (fpCond a b (ctlOf c)) (if c then y else x) := by
  have hl : a.length = b.length := ha.1.1.trans hb.1.1.symm
  cases c
  · rw [fpCond_eq_select, show ctlOf false = 0 from rfl, select_zero hl]; simpa using ha
  · rw [fpCond_eq_select, show ctlOf true = 0xFFFFFFFF from rfl, select_ones hl]; simpa using hb

theorem swap_form {a b : Limbs} {x y : ZMod P.p} (ha : Rep P a x) (hb : Rep P b y) (c : Bool) :
    Rep P (fpCondSwap a b (ctlOf c)).1 (if c then y else x) ∧
    Rep P (fpCondSwap a b (ctlOf c)).2 (if c then x else y) := by
  constructor
  · exact cond_form ha hb c
  · rw [swap_snd]; exact cond_form hb ha c

theorem cond2_form {a b : Fp2} {z w : F2 P} (ha : Rep2 P a z) (hb : Rep2 P b w) (c : Bool) :
    Rep2 P (fp2Cond a b (ctlOf c)) (if c then w else z) := by
  have h1 := cond_form ha.1 hb.1 c
  have h2 := cond_form ha.2 hb.2 c
  cases c
  · exact ⟨h1, h2⟩
  · exact ⟨h1, h2⟩

theorem iszero_form (hV : P.Valid) {a : Limbs} {x : ZMod P.p} (ha : Rep P a x) :
    ∃ c, fpIsZero a = ctlOf c ∧ (c = true ↔ x = 0) := by
  obtain ⟨h1, h2⟩ := C07_iszero hV ha
  by_cases h : x = 0
  · exact ⟨true, h1 h, by simp [h]⟩
  · exact ⟨false, h2 h, by simp [h]⟩

theorem iszero2_form (hV : P.Valid) {a : Fp2} {z : F2 P} (ha : Rep2 P a z) :
    ∃ c, fp2IsZero a = ctlOf c ∧ (c = true ↔ z = 0) := by
  obtain ⟨c0, h0, k0⟩ := iszero_form hV ha.1
  obtain ⟨c1, h1, k1⟩ := iszero_form hV ha.2
  refine ⟨c0 && c1, by rw [fp2IsZero, h0, h1, ctl_and], ?_⟩
  rw [Bool.and_eq_true, k0, k1, QuadraticAlgebra.ext_iff, zero_re, zero_im]

theorem sqrt_form (hV : P.Valid) (hR : P.RootValid) {a : Limbs} {x : ZMod P.p} (ha : Rep P a x) :
    ∃ c s, (fpSqrt P a).2 = ctlOf c ∧ Rep P (fpSqrt P a).1 s ∧ (c = true ↔ IsSquare x) ∧
      (c = true → s * s = x) ∧ s.val % 2 = 0 := by
  obtain ⟨h1, h2⟩ := C16_sqrt hV hR ha
  by_cases h : IsSquare x
  · obtain ⟨k1, s, k2, k3, k4⟩ := h1 h
    exact ⟨true, s, k1, k2, by simp [h], fun _ => k3, k4⟩
  · obtain ⟨k1, k2⟩ := h2 h
    exact ⟨false, 0, k1, k2, by simp [h], by simp, by simp⟩

theorem fourth_form (hV : P.Valid) (hR : P.RootValid) {a : Limbs} {x : ZMod P.p} (ha : Rep P a x) :
    ∃ c s, (fpFourthRoot P a).2 = ctlOf c ∧ Rep P (fpFourthRoot P a).1 s ∧ (c = true ↔ IsSquare x) ∧
      (c = true → s ^ 4 = x) ∧ s.val % 2 = 0 := by
  obtain ⟨-, h1, h2⟩ := C17_fourth_root hV hR ha
  by_cases h : IsSquare x
  · obtain ⟨k1, s, k2, k3, k4⟩ := h1 h
    exact ⟨true, s, k1, k2, by simp [h], fun _ => k3, k4⟩
  · obtain ⟨k1, k2⟩ := h2 h
    exact ⟨false, 0, k1, k2, by simp [h], by simp, by simp⟩

theorem leg_form (hV : P.Valid) (hp : P.p.Prime) {a : Limbs} {x : ZMod P.p} (ha : Rep P a x) :
    ∃ c, sar1 (fpLegendre P a) = ctlOf c ∧ (c = true ↔ ¬ IsSquare x) := by
  obtain ⟨h1, h2, h3⟩ := C15_legendre hV hp ha
  by_cases h : IsSquare x
  · refine ⟨false, ?_, by simp [h]⟩
    by_cases h0 : x = 0
    · rw [h1 h0]; rfl
    · rw [h2 h0 h]; rfl
  · exact ⟨true, by rw [h3 h]; rfl, by simp [h]⟩

theorem odd_form (hV : P.Valid) {a : Limbs} {x : ZMod P.p} (ha : Rep P a x) :
    fpOdd P a = ctlOf (decide (x.val % 2 = 1)) := by
  unfold fpOdd
  obtain ⟨-, h2⟩ := encode_spec hV ha
  have hv : (((fpEncode P a).headD 0).toUInt32 &&& 1).toNat = x.val % 2 := by
    rw [UInt32.toNat_and, UInt8.toNat_toUInt32, show (1 : UInt32).toNat = 1 from rfl,
      Nat.and_one_is_mod, headD_bval_mod, h2]
  rcases Nat.mod_two_eq_zero_or_one x.val with h | h
  · rw [show ((fpEncode P a).headD 0).toUInt32 &&& 1 = 0 from
      UInt32.toNat_inj.1 (by rw [hv, h]; rfl), h]; rfl
  · rw [show ((fpEncode P a).headD 0).toUInt32 &&& 1 = 1 from
      UInt32.toNat_inj.1 (by rw [hv, h]; rfl), h]; rfl

theorem val_neg_even (hV : P.Valid) {x : ZMod P.p} (h : x.val % 2 = 1) : (-x).val % 2 = 0 := by
  have hpp : NeZero P.p := ⟨(p_pos hV).ne'⟩
  have hne : x ≠ 0 := by intro h0; rw [h0] at h; simp at h
  have : NeZero x := ⟨hne⟩
  rw [ZMod.val_neg_of_ne_zero]
  have := x.val_lt
  have := hV.odd
  omega

/-- An even residue whose negative is even is zero. -/
theorem eq_zero_of_even_neg (hV : P.Valid) {x : ZMod P.p} (h : x.val % 2 = 0)
    (h' : (-x).val % 2 = 0) : x = 0 := by
  by_contra hne
  have hpp : NeZero P.p := ⟨(p_pos hV).ne'⟩
  have : NeZero x := ⟨hne⟩
  rw [ZMod.val_neg_of_ne_zero] at h'
  have := x.val_lt
  have := hV.odd
  omega

theorem finish_form (hV : P.Valid) {y0 y1 : Limbs} {u v : ZMod P.p} (h0 : Rep P y0 u)
    (h1 : Rep P y1 v) :
    Rep2 P (fp2RootFinish P y0 y1 (ctlOf false)) 0 ∧
    ∃ s : F2 P, Rep2 P (fp2RootFinish P y0 y1 (ctlOf true)) s ∧ (s = ⟨u, v⟩ ∨ s = ⟨-u, -v⟩) ∧
      SignZero s := by
  have key : ∀ (a b : Limbs) (x y : ZMod P.p), Rep P a x → Rep P b y →
      ∃ s : F2 P, Rep2 P (fp2CondNeg P ⟨a, b⟩ (fpOdd P a ||| (fpIsZero a &&& fpOdd P b))) s ∧
        (s = ⟨x, y⟩ ∨ s = ⟨-x, -y⟩) ∧ SignZero s := by
    intro a b x y ha hb
    obtain ⟨c, hc, kc⟩ := iszero_form hV ha
    rw [odd_form hV ha, odd_form hV hb, hc, ctl_and, ctl_or]
    set t := (decide (x.val % 2 = 1) || (c && decide (y.val % 2 = 1))) with ht
    refine ⟨⟨if t then -x else x, if t then -y else y⟩, ⟨cond_form ha (rep_neg hV ha) t,
      cond_form hb (rep_neg hV hb) t⟩, ?_, ?_⟩
    · cases t <;> simp
    · unfold SignZero
      simp only
      rcases Nat.mod_two_eq_zero_or_one x.val with hx | hx
      · by_cases hx0 : x = 0
        · have : c = true := kc.mpr hx0
          subst hx0
          rcases Nat.mod_two_eq_zero_or_one y.val with hy | hy
          · have ht' : t = false := by simp [ht, hy]
            simp [ht', hy]
          · have ht' : t = true := by simp [ht, hy, this]
            simp [ht', val_neg_even hV hy]
        · have : c = false := by
            cases c
            · rfl
            · exact absurd (kc.mp rfl) hx0
          have ht' : t = false := by simp [ht, hx, this]
          simp [ht', hx, hx0]
      · have ht' : t = true := by simp [ht, hx]
        have hx0 : x ≠ 0 := by rintro rfl; simp at hx
        simp [ht', val_neg_even hV hx, hx0]
  refine ⟨?_, ?_⟩
  · have hz := rep_zero hV
    have e0 : fpSelect (fpZero P) y0 (ctlOf false) = fpZero P :=
      select_zero (hz.1.1.trans h0.1.1.symm)
    have e1 : fpSelect (fpZero P) y1 (ctlOf false) = fpZero P :=
      select_zero (hz.1.1.trans h1.1.1.symm)
    obtain ⟨s, k1, k2, -⟩ := key _ _ _ _ hz hz
    unfold fp2RootFinish
    simp only [e0, e1]
    have : s = 0 := by
      rcases k2 with h | h
      · rw [h]; rfl
      · rw [h]; exact QuadraticAlgebra.ext (by simp) (by simp)
    rwa [this] at k1
  · have hz := rep_zero hV
    have e0 : fpSelect (fpZero P) y0 (ctlOf true) = y0 :=
      select_ones (hz.1.1.trans h0.1.1.symm)
    have e1 : fpSelect (fpZero P) y1 (ctlOf true) = y1 :=
      select_ones (hz.1.1.trans h1.1.1.symm)
    unfold fp2RootFinish
    simp only [e0, e1]
    exact key _ _ _ _ h0 h1

/-! ### Inversion -/

theorem rep_norm (hV : P.Valid) {a : Fp2} {z : F2 P} (ha : Rep2 P a z) :
    Rep P (fp2Norm P a) (z.re * z.re + z.im * z.im) :=
  rep_add hV (rep_square hV ha.1) (rep_square hV ha.2)

theorem div_form (hV : P.Valid) (hD : P.DivValid) (hR : P.RootValid) {a b : Limbs} {x y : ZMod P.p}
    (ha : Rep P a x) (hb : Rep P b y) :
    ∃ z, Rep P (fpDiv P a b) z ∧ (y ≠ 0 → z * y = x) ∧ (y = 0 → z = 0) := by
  by_cases hy : y = 0
  · subst hy
    exact ⟨0, rep_div_zero hV hD ha hb, by simp, by simp⟩
  · obtain ⟨z, h1, h2, -⟩ := C14_div hV hD hR.prime ha hb hy
    exact ⟨z, h1, fun _ => h2, fun h => absurd h hy⟩

theorem inv_form (hV : P.Valid) (hD : P.DivValid) (hR : P.RootValid) {b : Fp2} {w : F2 P}
    (hb : Rep2 P b w) :
    ∃ n, Rep P (fpInvert P (fp2Norm P b)) n ∧
      (w ≠ 0 → n * (w.re * w.re + w.im * w.im) = 1) ∧ (w = 0 → n = 0) := by
  obtain ⟨n, h1, h2, h3⟩ := div_form hV hD hR (rep_R_VAL hV) (rep_norm hV hb)
  refine ⟨n, h1, fun hw => h2 fun h => hw ?_, fun hw => h3 ?_⟩
  · obtain ⟨e0, e1⟩ := sq_add_sq_eq_zero hR h
    exact QuadraticAlgebra.ext e0 e1
  · subst hw; simp

theorem rep2_invert (hV : P.Valid) (hD : P.DivValid) (hR : P.RootValid) {b : Fp2} {w : F2 P}
    (hb : Rep2 P b w) :
    ∃ u, Rep2 P (fp2Invert P b) u ∧ (w ≠ 0 → u * w = 1) ∧ (w = 0 → u = 0) := by
  obtain ⟨n, h1, h2, h3⟩ := inv_form hV hD hR hb
  refine ⟨⟨w.re * n, -(w.im * n)⟩, ⟨rep_mul hV hb.1 h1, rep_neg hV (rep_mul hV hb.2 h1)⟩,
    fun hw => ?_, fun hw => ?_⟩
  · have := h2 hw
    refine QuadraticAlgebra.ext ?_ ?_
    · rw [F2.mul_re]; simp only [one_re]; linear_combination this
    · rw [F2.mul_im]; simp only [one_im]; ring
  · rw [h3 hw]; exact QuadraticAlgebra.ext (by simp) (by simp)

theorem rep2_div (hV : P.Valid) (hD : P.DivValid) (hR : P.RootValid) {a b : Fp2} {z w : F2 P}
    (ha : Rep2 P a z) (hb : Rep2 P b w) :
    ∃ u, Rep2 P (fp2Div P a b) u ∧ (w ≠ 0 → u * w = z) ∧ (w = 0 → u = 0) := by
  obtain ⟨n, h1, h2, h3⟩ := inv_form hV hD hR hb
  have hr : Rep2 P ⟨fpMul P b.x0 (fpInvert P (fp2Norm P b)),
      fpMul P (fpNeg P b.x1) (fpInvert P (fp2Norm P b))⟩ ⟨w.re * n, -w.im * n⟩ :=
    ⟨rep_mul hV hb.1 h1, rep_mul hV (rep_neg hV hb.2) h1⟩
  refine ⟨_, rep2_mul hV ha hr, fun hw => ?_, fun hw => ?_⟩
  · have := h2 hw
    refine QuadraticAlgebra.ext ?_ ?_
    · rw [F2.mul_re, F2.mul_re, F2.mul_im]; linear_combination z.re * this
    · rw [F2.mul_im, F2.mul_re, F2.mul_im]; linear_combination z.im * this
  · rw [h3 hw]
    refine QuadraticAlgebra.ext ?_ ?_
    · rw [F2.mul_re]; simp
    · rw [F2.mul_im]; simp

end Festa

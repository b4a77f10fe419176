import Verif.Model.FpChecked
import Verif.Props.FpDiv
import Verif.Lemmas.Fp2Root
/-!
C81: in builds with overflow checks the division, the inversion, the Legendre symbol and the multiplication by a small
integer do not panic, whatever the operands.
-/
namespace Festa
open BinGcd
variable {P : FpParams}

/-- The shift is at most 63 as soon as one of the two numbers is not zero. -/
theorem gcdShift_le {a b : Limbs} (hl : a.length = b.length) (h : lval b ≠ 0) : (gcdShift a b).toNat ≤ 63 := by
  have hsc := scan_spec hl
  unfold gcdShift
  simp only
  generalize (List.zip a b).reverse.foldl Scan.step
    ⟨0xFFFFFFFFFFFFFFFF, 0xFFFFFFFFFFFFFFFF, 0, 0, 0, 0⟩ = s at *
  rcases hsc with ⟨-, h2, -⟩ | ⟨-, -, -, -, h5⟩ | ⟨-, -, h3, -⟩
  · exact absurd h2 h
  · exact ((lzcnt_spec _).2.2 h5).2
  · exact ((lzcnt_spec _).2.2 h3).2

theorem gcdApproxChk_eq {a b : Limbs} (hl : a.length = b.length) (h : lval b ≠ 0) :
    gcdApproxChk a b = some (gcdApprox a b) := by
  unfold gcdApproxChk
  rw [if_neg (by have := gcdShift_le hl h; omega)]

theorem divRoundChk_eq {s : DivState} (hl : s.a.length = s.b.length) (h : lval s.b ≠ 0) :
    divRoundChk P s = some (divRound P s) := by
  unfold divRoundChk
  rw [gcdApproxChk_eq hl h]
  rfl

theorem legRoundChk_eq {s : LegState} (hl : s.a.length = s.b.length) (h : lval s.b ≠ 0) :
    legRoundChk s = some (legRound s) := by
  unfold legRoundChk
  rw [gcdApproxChk_eq hl h]
  rfl

theorem iterOpt_eq {α : Type*} {f : α → Option α} {g : α → α} {s : α} {n : Nat}
    (h : ∀ k < n, f (g^[k] s) = some (g (g^[k] s))) : iterOpt f n s = some (g^[n] s) := by
  induction n generalizing s with
  | zero => rfl
  | succ n ih =>
    have h0 := h 0 (by omega)
    simp only [Function.iterate_zero, id] at h0
    rw [iterOpt, h0]
    simp only
    rw [ih (s := g s) (fun k hk => by
      have := h (k + 1) (by omega)
      rwa [Function.iterate_succ_apply] at this), Function.iterate_succ_apply]

/-! The case of a zero operand: `a` stays zero and `b` stays the modulus. -/

theorem inner_zero (xb g : UInt64) (n : Nat) :
    Inner.step^[n] ⟨0, xb, 1, g⟩ = ⟨0, xb, 1, (fun x : UInt64 => x <<< 1)^[n] g⟩ := by
  induction n generalizing g with
  | zero => rfl
  | succ n ih =>
    rw [Function.iterate_succ_apply, inner_step_eq]
    simp only [UInt64.toNat_zero, Nat.zero_mod, if_true]
    rw [show (0 : UInt64) >>> 1 = 0 from rfl, ih, Function.iterate_succ_apply]

theorem gcdApprox_zero {a b : Limbs} (hl : a.length = b.length) (ha : a ≠ []) (h : lval a = 0) :
    (gcdApprox a b).1 = 0 := by
  apply UInt64.toNat_inj.mp
  rcases gcdApprox_spec hl ha with ⟨h1, -⟩ | ⟨d, hd⟩
  · rw [h1, h]; rfl
  · have := hd.x_eq
    rw [this, h]; simp

theorem fg1_end : (fun x : UInt64 => x <<< 1)^[31] ((1 : UInt64) <<< 32) = 0x8000000000000000 := by decide +kernel

theorem fg0_unpack : unpackFG 1 = (1, 0) := by decide +kernel

theorem fg1_unpack : unpackFG 0x8000000000000000 = (0, 0x80000000) := by decide +kernel

/-- What stays true through the rounds when the operand is zero. -/
structure ZB (P : FpParams) (a b : Limbs) : Prop where
  la : a.length = P.N
  lb : b.length = P.N
  za : lval a = 0
  vb : lval b = P.p

theorem ZB.next (hV : P.Valid) {a b : Limbs} (h : ZB P a b) :
    ZB P (fpLindiv31abs a b 1 0).1 (fpLindiv31abs a b 0 0x80000000).1 := by
  have hN := hV.N_two
  have ha : a ≠ [] := by intro h0; have := h.la; rw [h0] at this; simp at this; omega
  have hl := h.la.trans h.lb.symm
  obtain ⟨a1, a2, -⟩ := lindiv31abs_spec hl ha (wf := 1) (wg := 0) (f := 1) (g := 0) (Z := 0) ⟨0, by decide⟩ ⟨0, by decide⟩
    (by norm_num) (by rw [h.za]; simp)
  obtain ⟨b1, b2, -⟩ := lindiv31abs_spec hl ha (wf := 0) (wg := 0x80000000) (f := 0) (g := 2 ^ 31) (Z := P.p)
    ⟨0, by decide⟩ ⟨0, by decide⟩ (by norm_num) (by rw [h.vb]; simp)
  exact ⟨a1.trans h.la, b1.trans h.la, by rw [a2]; rfl, by rw [b2]; simp⟩

theorem divRound_zero (hV : P.Valid) {s : DivState} (h : ZB P s.a s.b) : ZB P (divRound P s).a (divRound P s).b := by
  have hN := hV.N_two
  have ha : s.a ≠ [] := by intro h0; have := h.la; rw [h0] at this; simp at this; omega
  have hx := gcdApprox_zero (h.la.trans h.lb.symm) ha h.za
  have := h.next hV
  simp only [divRound, hx, inner_zero, fg1_end, fg0_unpack, fg1_unpack]
  exact this

theorem linner_s (t : LInner) (n : Nat) : (LInner.step^[n] t).s = Inner.step^[n] t.s := by
  induction n generalizing t with
  | zero => rfl
  | succ n ih => rw [Function.iterate_succ_apply, Function.iterate_succ_apply, ih]; rfl

theorem linner2_s (t : LInner2) (n : Nat) : (LInner2.step^[n] t).s = Inner.step^[n] t.s := by
  induction n generalizing t with
  | zero => rfl
  | succ n ih => rw [Function.iterate_succ_apply, Function.iterate_succ_apply, ih]; rfl

theorem legRound_zero (hV : P.Valid) {s : LegState} (h : ZB P s.a s.b) : ZB P (legRound s).a (legRound s).b := by
  have hN := hV.N_two
  have ha : s.a ≠ [] := by intro h0; have := h.la; rw [h0] at this; simp at this; omega
  have hx := gcdApprox_zero (h.la.trans h.lb.symm) ha h.za
  have := h.next hV
  simp only [legRound, linner2_s, linner_s, hx, ← Function.iterate_add_apply, inner_zero, fg0_unpack]
  exact this

theorem p_ne (hV : P.Valid) : P.p ≠ 0 := by have := hV.three_le; omega

/-- The states met by the division: the two numbers have the same number of limbs and the second is not zero. -/
theorem div_states (hV : P.Valid) (hp : P.p.Prime) {x y : Limbs} (hx : Reduced P x) (hy : Reduced P y) (k : Nat) :
    ((divRound P)^[k] ⟨y, P.MODULUS, x, fpZero P⟩).a.length = ((divRound P)^[k] ⟨y, P.MODULUS, x, fpZero P⟩).b.length ∧
      lval ((divRound P)^[k] ⟨y, P.MODULUS, x, fpZero P⟩).b ≠ 0 := by
  by_cases h0 : lval y = 0
  · have : ZB P ((divRound P)^[k] ⟨y, P.MODULUS, x, fpZero P⟩).a ((divRound P)^[k] ⟨y, P.MODULUS, x, fpZero P⟩).b := by
      induction k with
      | zero => exact ⟨hy.1, hV.len, h0, P.p_def.symm⟩
      | succ k ih => rw [Function.iterate_succ_apply']; exact divRound_zero hV ih
    exact ⟨this.la.trans this.lb.symm, by rw [this.vb]; exact p_ne hV⟩
  · have inv0 : DivInv P (lval x) (lval y) 0 ⟨y, P.MODULUS, x, fpZero P⟩ := by
      refine ⟨AB_start hV hp hy h0, hx, reduced_zero hV, by simp, ?_⟩
      rw [← P.p_def, cast_p, show lval (fpZero P) = 0 from lval_replicate_zero _]
      simp
    have inv := (divRounds_inv hV inv0 k).ab
    exact ⟨inv.la.trans inv.lb.symm, by have := inv.odd; omega⟩

theorem leg_states (hV : P.Valid) (hp : P.p.Prime) {a : Limbs} (ha : Reduced P a) (k : Nat) :
    (legRound^[k] ⟨a, P.MODULUS, 0⟩).a.length = (legRound^[k] ⟨a, P.MODULUS, 0⟩).b.length ∧
      lval (legRound^[k] ⟨a, P.MODULUS, 0⟩).b ≠ 0 := by
  by_cases h0 : lval a = 0
  · have : ZB P (legRound^[k] ⟨a, P.MODULUS, 0⟩).a (legRound^[k] ⟨a, P.MODULUS, 0⟩).b := by
      induction k with
      | zero => exact ⟨ha.1, hV.len, h0, P.p_def.symm⟩
      | succ k ih => rw [Function.iterate_succ_apply']; exact legRound_zero hV ih
    exact ⟨this.la.trans this.lb.symm, by rw [this.vb]; exact p_ne hV⟩
  · have inv := (legRounds_inv hV (v := jac (lval a) P.p) (s := ⟨a, P.MODULUS, 0⟩)
      ⟨AB_start hV hp ha h0, by rw [sg_zero, one_mul, ← P.p_def]⟩ k).ab
    exact ⟨inv.la.trans inv.lb.symm, by have := inv.odd; omega⟩

/-- Division does not panic in builds with overflow checks, division by zero included; it returns what the other builds
return. -/
theorem C81_div (hV : P.Valid) (hp : P.p.Prime) {x y : Limbs} (hx : Reduced P x) (hy : Reduced P y) :
    fpDivChk P x y = some (fpDiv P x y) := by
  unfold fpDivChk
  rw [iterOpt_eq (g := divRound P) (fun k _ =>
    divRoundChk_eq (div_states hV hp hx hy k).1 (div_states hV hp hx hy k).2)]
  rfl

/-- Nor does inversion. -/
theorem C81_invert (hV : P.Valid) (hp : P.p.Prime) {y : Limbs} (hy : Reduced P y) :
    fpInvertChk P y = some (fpInvert P y) := C81_div hV hp (rep_R_VAL hV).1 hy

/-- Nor does the Legendre symbol. -/
theorem C81_legendre (hV : P.Valid) (hp : P.p.Prime) {a : Limbs} (ha : Reduced P a) :
    fpLegendreChk P a = some (fpLegendre P a) := by
  unfold fpLegendreChk
  rw [iterOpt_eq (g := legRound) (fun k _ => legRoundChk_eq (leg_states hV hp ha k).1 (leg_states hV hp ha k).2)]
  rfl

/-- Nor does the multiplication by a small integer. -/
theorem C81_mul_small (a : Limbs) (k : Int32) : fpMulSmallChk P a k = some (fpMulSmall P a k) := by
  have h : ∀ x1, smallQuotChk P x1 = some (smallQuot P x1) := by
    intro x1
    unfold smallQuotChk smallQuot
    simp only
    generalize ((x1 - (umull x1 P.P1DIV_M).2) >>> 1) + (umull x1 P.P1DIV_M).2 = c
    generalize P.P1 - (c >>> 31) = d
    rw [if_neg]
    have e1 : (c >>> 31).toNat = c.toNat / 2 ^ 31 := by
      rw [UInt64.toNat_shiftRight, Nat.shiftRight_eq_div_pow]; rfl
    have e2 : (d >>> 63).toNat = d.toNat / 2 ^ 63 := by
      rw [UInt64.toNat_shiftRight, Nat.shiftRight_eq_div_pow]; rfl
    have := u64_lt c
    have := u64_lt d
    rw [e1, e2]
    omega
  unfold fpMulSmallChk
  simp only [h]
  rfl

theorem norm_reduced (hV : P.Valid) {a : Fp2} (ha : Reduced2 P a) : Reduced P (fp2Norm P a) := by
  obtain ⟨z, hz⟩ := exists_rep2_val hV ha
  exact (rep_norm hV hz).1

/-- Nor do the division, the inversion and the Legendre symbol of the extension field. -/
theorem C81_fp2_div (hV : P.Valid) (hp : P.p.Prime) (a : Fp2) {b : Fp2} (hb : Reduced2 P b) :
    fp2DivChk P a b = some (fp2Div P a b) := by
  unfold fp2DivChk
  rw [C81_invert hV hp (norm_reduced hV hb)]
  rfl

theorem C81_fp2_invert (hV : P.Valid) (hp : P.p.Prime) {a : Fp2} (ha : Reduced2 P a) :
    fp2InvertChk P a = some (fp2Invert P a) := by
  unfold fp2InvertChk
  rw [C81_invert hV hp (norm_reduced hV ha)]
  rfl

theorem C81_fp2_legendre (hV : P.Valid) (hp : P.p.Prime) {a : Fp2} (ha : Reduced2 P a) :
    fp2LegendreChk P a = some (fp2Legendre P a) := C81_legendre hV hp (norm_reduced hV ha)

/-- Nor does the square root of the extension field, whether the argument has a root or not. -/
theorem C81_fp2_sqrt (hV : P.Valid) (hR : P.RootValid) {a : Fp2} (ha : Reduced2 P a) :
    fp2SqrtChk P a = some (fp2Sqrt P a) := by
  have hp := hR.prime
  have : Fact P.p.Prime := ⟨hp⟩
  have h2 := two_ne_zero' hR
  obtain ⟨z, r0, r1⟩ := exists_rep2_val hV ha
  obtain ⟨c1, sd, d1, d2, -⟩ := sqrt_form hV hR (rep_norm hV (z := z) ⟨r0, r1⟩)
  have hh := rep_half hV (y := (z.re + sd) / 2) (rep_add hV r0 d2) (by field_simp; ring)
  obtain ⟨cz, e1, e2⟩ := iszero_form hV r1
  have hy1 := cond_form hh r0 cz
  obtain ⟨cn, f1, f2⟩ := leg_form hV hp hy1
  have hy2 := rep_condneg hV hy1 (cn && cz)
  have hy3 := cond_form hy2 (rep_sub hV hy2 d2) (cn && !cz)
  obtain ⟨c2, y0, g1, g2, -⟩ := sqrt_form hV hR hy3
  unfold fp2SqrtChk
  simp only [e1, C81_legendre hV hp hy1.1, f1, ctl_and, ctl_not, C81_div hV hp r1.1 (rep_mul2 hV g2).1]
  simp only [fp2Sqrt, e1, f1, ctl_and, ctl_not]

/-- Nor does the fourth root. -/
theorem C81_fp2_fourth_root (hV : P.Valid) (hR : P.RootValid) {a : Fp2} (ha : Reduced2 P a) :
    fp2FourthRootChk P a = some (fp2FourthRoot P a) := by
  have hp := hR.prime
  have : Fact P.p.Prime := ⟨hp⟩
  have h2 := two_ne_zero' hR
  obtain ⟨z, r0, r1⟩ := exists_rep2_val hV ha
  obtain ⟨c1, n, d1, d2, -⟩ := fourth_form hV hR (rep_norm hV (z := z) ⟨r0, r1⟩)
  have hdisc := rep_half hV (y := (n * n + z.re) / 2) (rep_add hV (rep_square hV d2) r0)
    (by field_simp; ring)
  obtain ⟨c2, d, e1, e2, -⟩ := sqrt_form hV hR hdisc
  have hy0 := rep_half hV (y := (d + n) / 2) (rep_add hV e2 d2) (by field_simp; ring)
  obtain ⟨cn, f1, f2⟩ := leg_form hV hp hy0
  have hy1 := cond_form hy0 (rep_sub hV hy0 d2) cn
  have hn := rep_condneg hV d2 cn
  obtain ⟨cy, g1, g2⟩ := iszero_form hV hy1
  have hy2 := cond_form hy1 hn cy
  obtain ⟨c3, y0, k1, k2, -⟩ := sqrt_form hV hR hy2
  have hd4 := rep_mul2 hV (rep_mul2 hV e2)
  have hl := C81_div hV hp r1.1 (rep_mul hV k2 hd4).1
  unfold fp2FourthRootChk
  simp only [C81_legendre hV hp hy0.1, f1, g1]
  simp only [fp2FourthRoot, f1, g1]
  change (match fpDivChk P a.x1 (fpMul P _ (fpMul2 P (fpMul2 P _))) with | none => none | some y1 => _) = _
  rw [hl]
  rfl

/-- Without a non-zero number the check would fire: the shift of two zeros is 64. -/
example : gcdApproxChk [0, 0] [0, 0] = none := by decide +kernel

/-- Division of 7 by 3 and by 0, the Legendre symbols of 7 and 0, and `-2^31 * 7`, in the field of the code. -/
example : fpDivChk festaFp (fpFromU64 festaFp 7) (fpFromU64 festaFp 3)
      = some (fpDiv festaFp (fpFromU64 festaFp 7) (fpFromU64 festaFp 3)) ∧
    fpDivChk festaFp (fpFromU64 festaFp 7) (fpZero festaFp) = some (fpZero festaFp) ∧
    fpLegendreChk festaFp (fpFromU64 festaFp 7) = some (fpLegendre festaFp (fpFromU64 festaFp 7)) ∧
    fpLegendreChk festaFp (fpZero festaFp) = some 0 ∧
    fpMulSmallChk festaFp (fpFromU64 festaFp 7) (-2147483648) = some (fpMulSmall festaFp (fpFromU64 festaFp 7) (-2147483648)) := by
  refine ⟨C81_div festa_valid festa_roots.prime (rep_lit 7).1 (rep_lit 3).1, ?_,
    C81_legendre festa_valid festa_roots.prime (rep_lit 7).1, ?_, C81_mul_small _ _⟩
  · rw [C81_div festa_valid festa_roots.prime (rep_lit 7).1 (reduced_zero festa_valid),
      C14_div_by_zero festa_valid C14_constant (rep_lit 7) (rep_zero festa_valid)]
  · rw [C81_legendre festa_valid festa_roots.prime (reduced_zero festa_valid)]
    decide +kernel

/-- The two roots of `7 + 3i` and of zero, and the inverses of both. -/
example : Reduced2 festaFp ⟨fpFromU64 festaFp 7, fpFromU64 festaFp 3⟩ ∧
    fp2SqrtChk festaFp ⟨fpFromU64 festaFp 7, fpFromU64 festaFp 3⟩
      = some (fp2Sqrt festaFp ⟨fpFromU64 festaFp 7, fpFromU64 festaFp 3⟩) ∧
    fp2FourthRootChk festaFp ⟨fpZero festaFp, fpZero festaFp⟩
      = some (fp2FourthRoot festaFp ⟨fpZero festaFp, fpZero festaFp⟩) ∧
    fp2InvertChk festaFp ⟨fpZero festaFp, fpZero festaFp⟩
      = some (fp2Invert festaFp ⟨fpZero festaFp, fpZero festaFp⟩) :=
  have h : Reduced2 festaFp ⟨fpFromU64 festaFp 7, fpFromU64 festaFp 3⟩ := ⟨(rep_lit 7).1, (rep_lit 3).1⟩
  have h0 : Reduced2 festaFp ⟨fpZero festaFp, fpZero festaFp⟩ := ⟨reduced_zero festa_valid, reduced_zero festa_valid⟩
  ⟨h, C81_fp2_sqrt festa_valid festa_roots h, C81_fp2_fourth_root festa_valid festa_roots h0,
    C81_fp2_invert festa_valid festa_roots.prime h0⟩

end Festa

import Verif.Lemmas.Fq
import Verif.Lemmas.Fp2Pow
import Verif.Lemmas.FestaNqr
/-!
C15 (extension field part), C18-C23, C56-C57: the extension field code against `F_p[i]`.
`Rep2 P a z` reads "the limb pair `a` is the code's representation of `z`"; each element of
`F_p[i]` has exactly one such pair.
-/
namespace Festa
variable {P : FpParams}

/-- Small test elements `m + n i` of the FESTA field, as the code would build them. -/
def lit2 (m n : UInt64) : Fp2 := ⟨fpFromU64 festaFp m, fpFromU64 festaFp n⟩
theorem rep2_mk {a b : Limbs} {x y : ZMod P.p} (ha : Rep P a x) (hb : Rep P b y) :
    Rep2 P ⟨a, b⟩ ⟨x, y⟩ := ⟨ha, hb⟩
theorem rep_lit2 (m n : UInt64) :
    Rep2 festaFp (lit2 m n) ⟨(m.toNat : ZMod festaFp.p), (n.toNat : ZMod festaFp.p)⟩ := by
  unfold lit2
  exact rep2_mk (rep_lit m) (rep_lit n)

/-! ### C18 -/

/-- Elements of `F_p[i]` and reduced limb pairs correspond one to one. -/
theorem C18_canonical (hV : P.Valid) :
    (∀ z : F2 P, ∃ a, Rep2 P a z ∧ ∀ b, Rep2 P b z → b = a) ∧
    (∀ a, Reduced2 P a → ∃ z, Rep2 P a z ∧ ∀ w, Rep2 P a w → w = z) := by
  refine ⟨fun z => ?_, fun a ha => ?_⟩
  · obtain ⟨a, h⟩ := exists_rep2 hV z
    exact ⟨a, h, fun b hb => rep2_inj hb h⟩
  · obtain ⟨z, h⟩ := exists_rep2_val hV ha
    exact ⟨z, h, fun w hw => rep2_unique hV hw h⟩

/-- Multiplication in the reference ring is that of `i^2 = -1`. -/
theorem C18_reference (x0 x1 y0 y1 : ZMod P.p) :
    (⟨x0, x1⟩ : F2 P) * ⟨y0, y1⟩ = ⟨x0 * y0 - x1 * y1, x0 * y1 + x1 * y0⟩ :=
  QuadraticAlgebra.ext (F2.mul_re _ _) (F2.mul_im _ _)

theorem C18_add_sub_neg (hV : P.Valid) {a b : Fp2} {z w : F2 P} (ha : Rep2 P a z)
    (hb : Rep2 P b w) : Rep2 P (fp2Add P a b) (z + w) ∧ Rep2 P (fp2Sub P a b) (z - w) ∧
      Rep2 P (fp2Neg P a) (-z) ∧ Rep2 P (fp2Conj P a) ⟨z.re, -z.im⟩ :=
  ⟨rep2_add hV ha hb, rep2_sub hV ha hb, rep2_neg hV ha, ha.1, rep_neg hV ha.2⟩

theorem C18_mul (hV : P.Valid) {a b : Fp2} {z w : F2 P} (ha : Rep2 P a z) (hb : Rep2 P b w) :
    Rep2 P (fp2Mul P a b) (z * w) ∧ Rep2 P (fp2MulOld P a b) (z * w) :=
  ⟨rep2_mul hV ha hb, rep2_mulOld hV ha hb⟩

/-- The two multiplication routines return the same limbs. -/
theorem C18_mul_old_eq (hV : P.Valid) {a b : Fp2} (ha : Reduced2 P a) (hb : Reduced2 P b) :
    fp2MulOld P a b = fp2Mul P a b := by
  obtain ⟨z, hz⟩ := exists_rep2_val hV ha
  obtain ⟨w, hw⟩ := exists_rep2_val hV hb
  exact rep2_inj (rep2_mulOld hV hz hw) (rep2_mul hV hz hw)

theorem C18_square (hV : P.Valid) {a : Fp2} {z : F2 P} (ha : Rep2 P a z) :
    Rep2 P (fp2Square P a) (z * z) := rep2_square hV ha

/-- Halving and the small multiples. -/
theorem C18_multiples (hV : P.Valid) {a : Fp2} {z : F2 P} (ha : Rep2 P a z) :
    (∃ w, Rep2 P (fp2Half P a) w ∧ w + w = z) ∧ Rep2 P (fp2Mul2 P a) (2 * z) ∧
    Rep2 P (fp2Mul3 P a) (3 * z) ∧ Rep2 P (fp2Mul4 P a) (4 * z) ∧ Rep2 P (fp2Mul8 P a) (8 * z) := by
  obtain ⟨w0, h0, e0⟩ := C05_half hV ha.1
  obtain ⟨w1, h1, e1⟩ := C05_half hV ha.2
  obtain ⟨p2, p3, p4, p8⟩ := C05_mul2348 hV ha.1
  obtain ⟨q2, q3, q4, q8⟩ := C05_mul2348 hV ha.2
  have lit : ∀ (n : ZMod P.p) (m : F2 P), m = ⟨n, 0⟩ → (m * z).re = n * z.re ∧ (m * z).im = n * z.im := by
    rintro n m rfl
    rw [F2.mul_re, F2.mul_im]; simp
  refine ⟨⟨⟨w0, w1⟩, ⟨h0, h1⟩, QuadraticAlgebra.ext ((two_mul w0).symm.trans e0) ((two_mul w1).symm.trans e1)⟩,
    ?_, ?_, ?_, ?_⟩
  · obtain ⟨l, r⟩ := lit 2 2 rfl; exact ⟨l ▸ p2, r ▸ q2⟩
  · obtain ⟨l, r⟩ := lit 3 3 rfl; exact ⟨l ▸ p3, r ▸ q3⟩
  · obtain ⟨l, r⟩ := lit 4 4 rfl; exact ⟨l ▸ p4, r ▸ q4⟩
  · obtain ⟨l, r⟩ := lit 8 8 rfl; exact ⟨l ▸ p8, r ▸ q8⟩

/-- Multiplication by any signed 32-bit integer. -/
theorem C18_mul_small (hV : P.Valid) {a : Fp2} {z : F2 P} (ha : Rep2 P a z) (k : Int32) :
    Rep2 P (fp2MulSmall P a k) (z * (k.toInt : F2 P)) := by
  have h0 := rep_mul_small hV ha.1 k
  have h1 := rep_mul_small hV ha.2 k
  refine ⟨?_, ?_⟩
  · rw [F2.mul_re]; unfold fp2MulSmall; simpa using h0
  · rw [F2.mul_im]; unfold fp2MulSmall; simpa using h1

/-- The constants. -/
theorem C18_constants (hV : P.Valid) :
    Rep2 P (fp2Zero P) 0 ∧ Rep2 P (fp2One P) 1 ∧ Rep2 P (fp2Two P) 2 ∧ Rep2 P (fp2Three P) 3 ∧
    Rep2 P (fp2Four P) 4 ∧ Rep2 P (fp2MinusOne P) (-1) ∧
    (∃ i, Rep2 P (fp2Zeta P) i ∧ Rep2 P (fp2MinusZeta P) (-i) ∧ i * i = -1) := by
  have hz := rep_zero hV
  have h1 := rep_R_VAL hV
  have red : ∀ {l : Limbs} {k : Nat}, l.length = P.N → lval l = k % P.p →
      ∀ n : ZMod P.p, ((k : Nat) : ZMod P.p) = n * P.R → Rep P l n := by
    intro l k hl hv n hn
    refine ⟨⟨hl, by rw [hv]; exact Nat.mod_lt _ (p_pos hV)⟩, ?_⟩
    rw [hv, cast_mod, hn]
  have h2 : Rep P P.DR_VAL 2 := red hV.dr_len hV.dr_val 2 (by push_cast; rfl)
  have h3 : Rep P P.TR_VAL 3 := red hV.tr_len hV.tr_val 3 (by push_cast; rfl)
  have h4 : Rep P P.QR_VAL 4 := red hV.qr_len hV.qr_val 4 (by push_cast; rfl)
  have hm : Rep P P.MINUS_R_VAL (-1) := by
    have hpos : 0 < P.R % P.p := by
      rcases Nat.eq_zero_or_pos (P.R % P.p) with h | h
      · exfalso
        have hu := isUnit_R hV
        rw [(ZMod.natCast_eq_zero_iff P.R P.p).mpr (Nat.dvd_of_mod_eq_zero h)] at hu
        have : Fact (1 < P.p) := ⟨by have := hV.three_le; omega⟩
        exact not_isUnit_zero hu
      · exact h
    have hlt := Nat.mod_lt P.R (p_pos hV)
    refine ⟨⟨hV.mr_len, by rw [hV.mr_val]; omega⟩, ?_⟩
    rw [hV.mr_val, Nat.cast_sub (by omega), cast_p, cast_mod]; ring
  refine ⟨⟨hz, hz⟩, ⟨h1, hz⟩, ⟨h2, hz⟩, ⟨h3, hz⟩, ⟨h4, hz⟩, ⟨hm, ?_⟩,
    ⟨0, 1⟩, ⟨hz, h1⟩, ⟨?_, hm⟩, ?_⟩
  · simp only [fp2MinusOne, QuadraticAlgebra.im_neg, one_im, neg_zero]; exact hz
  · simp only [fp2MinusZeta, QuadraticAlgebra.re_neg, neg_zero]; exact hz
  refine QuadraticAlgebra.ext ?_ ?_
  · rw [F2.mul_re]; simp [one_re]
  · rw [F2.mul_im]; simp [one_im]

/-- Zero test and comparison. -/
theorem C18_iszero_equals (hV : P.Valid) {a b : Fp2} {z w : F2 P} (ha : Rep2 P a z)
    (hb : Rep2 P b w) :
    (z = 0 → fp2IsZero a = 0xFFFFFFFF) ∧ (z ≠ 0 → fp2IsZero a = 0) ∧
    (z = w → fp2Equals a b = 0xFFFFFFFF) ∧ (z ≠ w → fp2Equals a b = 0) := by
  obtain ⟨c, h1, h2⟩ := iszero2_form hV ha
  refine ⟨fun h => ?_, fun h => ?_, fun h => ?_, fun h => ?_⟩
  · rw [h1, h2.mpr h]; rfl
  · cases c
    · exact h1
    · exact absurd (h2.mp rfl) h
  · subst h
    unfold fp2Equals
    rw [(C07_equals hV ha.1 hb.1).1 rfl, (C07_equals hV ha.2 hb.2).1 rfl]; rfl
  · unfold fp2Equals
    by_cases h0 : z.re = w.re
    · have : z.im ≠ w.im := fun hh => h (QuadraticAlgebra.ext h0 hh)
      rw [(C07_equals hV ha.2 hb.2).2 this]; simp
    · rw [(C07_equals hV ha.1 hb.1).2 h0]; simp

/-- Conditional moves, negation and exchange: mask 0 leaves the operands, all-ones acts. -/
theorem C18_conditional (hV : P.Valid) {a b : Fp2} {z w : F2 P} (ha : Rep2 P a z)
    (hb : Rep2 P b w) :
    (fp2Select a b 0 = a ∧ fp2Select a b 0xFFFFFFFF = b) ∧
    (fp2Cond a b 0 = a ∧ fp2Cond a b 0xFFFFFFFF = b) ∧
    (fp2CondNeg P a 0 = a ∧ fp2CondNeg P a 0xFFFFFFFF = fp2Neg P a) ∧
    (fp2CondSwap a b 0 = (a, b) ∧ fp2CondSwap a b 0xFFFFFFFF = (b, a)) := by
  have l0 : a.x0.length = b.x0.length := ha.1.1.1.trans hb.1.1.1.symm
  have l1 : a.x1.length = b.x1.length := ha.2.1.1.trans hb.2.1.1.symm
  have n0 : a.x0.length = (fpNeg P a.x0).length := ha.1.1.1.trans (rep_neg hV ha.1).1.1.symm
  have n1 : a.x1.length = (fpNeg P a.x1).length := ha.2.1.1.trans (rep_neg hV ha.2).1.1.symm
  refine ⟨⟨?_, ?_⟩, ⟨?_, ?_⟩, ⟨?_, ?_⟩, ⟨?_, ?_⟩⟩
  · unfold fp2Select; rw [select_zero l0, select_zero l1]
  · unfold fp2Select; rw [select_ones l0, select_ones l1]
  · unfold fp2Cond; simp only [fpCond_eq_select]; rw [select_zero l0, select_zero l1]
  · unfold fp2Cond; simp only [fpCond_eq_select]; rw [select_ones l0, select_ones l1]
  · unfold fp2CondNeg; simp only [fpCond_eq_select]; rw [select_zero n0, select_zero n1]
  · unfold fp2CondNeg fp2Neg; simp only [fpCond_eq_select]; rw [select_ones n0, select_ones n1]
  · unfold fp2CondSwap
    rw [swap_eq, swap_eq]
    have s0 := swap_snd a.x0 b.x0 0
    have s1 := swap_snd a.x1 b.x1 0
    rw [swap_eq] at s0 s1
    simp only at s0 s1 ⊢
    rw [s0, s1, select_zero l0, select_zero l1, select_zero l0.symm, select_zero l1.symm]
  · unfold fp2CondSwap
    rw [swap_eq, swap_eq]
    have s0 := swap_snd a.x0 b.x0 0xFFFFFFFF
    have s1 := swap_snd a.x1 b.x1 0xFFFFFFFF
    rw [swap_eq] at s0 s1
    simp only at s0 s1 ⊢
    rw [s0, s1, select_ones l0, select_ones l1, select_ones l0.symm, select_ones l1.symm]

/-- The field laws hold for the limbs computed by the code. -/
theorem C18_field_laws (a b c : Fp2) (ha : Reduced2 festaFp a) (hb : Reduced2 festaFp b)
    (hc : Reduced2 festaFp c) :
    fp2Mul festaFp (fp2Mul festaFp a b) c = fp2Mul festaFp a (fp2Mul festaFp b c) ∧
    fp2Mul festaFp a b = fp2Mul festaFp b a ∧
    fp2Add festaFp (fp2Add festaFp a b) c = fp2Add festaFp a (fp2Add festaFp b c) ∧
    fp2Add festaFp a b = fp2Add festaFp b a ∧
    fp2Mul festaFp a (fp2Add festaFp b c) = fp2Add festaFp (fp2Mul festaFp a b) (fp2Mul festaFp a c) ∧
    fp2Mul festaFp (fp2One festaFp) a = a ∧ fp2Add festaFp (fp2Zero festaFp) a = a ∧
    fp2Add festaFp a (fp2Neg festaFp a) = fp2Zero festaFp ∧
    fp2Sub festaFp a b = fp2Add festaFp a (fp2Neg festaFp b) ∧
    (fp2Mul festaFp a b = fp2Zero festaFp → a = fp2Zero festaFp ∨ b = fp2Zero festaFp) := by
  let A : Fq := ⟨a, ha⟩
  let B : Fq := ⟨b, hb⟩
  let C : Fq := ⟨c, hc⟩
  refine ⟨congrArg Subtype.val (mul_assoc A B C), congrArg Subtype.val (mul_comm A B),
    congrArg Subtype.val (add_assoc A B C), congrArg Subtype.val (add_comm A B),
    congrArg Subtype.val (mul_add A B C), congrArg Subtype.val (one_mul A),
    congrArg Subtype.val (zero_add A), congrArg Subtype.val (add_neg_cancel A), ?_, fun h => ?_⟩
  · rw [← Fq.sub_code A B, sub_eq_add_neg]; rfl
  · have : A * B = 0 := Subtype.ext h
    rcases mul_eq_zero.mp this with h | h
    · exact Or.inl (congrArg Subtype.val h)
    · exact Or.inr (congrArg Subtype.val h)

/-- `(2 + i)(2 - i) = 5`, `i * i = -1` on limbs. -/
example : fp2Mul festaFp (lit2 2 1) (fp2Conj festaFp (lit2 2 1)) = lit2 5 0 ∧
    fp2Square festaFp (fp2Zeta festaFp) = fp2MinusOne festaFp ∧
    fp2MulOld festaFp (lit2 2 1) (lit2 3 5) = fp2Mul festaFp (lit2 2 1) (lit2 3 5) := by
  decide +kernel

/-! ### C19 -/

theorem C19_invert (hV : P.Valid) (hD : P.DivValid) (hR : P.RootValid) {b : Fp2} {w : F2 P}
    (hb : Rep2 P b w) :
    (w ≠ 0 → ∃ u, Rep2 P (fp2Invert P b) u ∧ u * w = 1) ∧ (w = 0 → fp2Invert P b = fp2Zero P) := by
  obtain ⟨u, h1, h2, h3⟩ := rep2_invert hV hD hR hb
  exact ⟨fun h => ⟨u, h1, h2 h⟩, fun h => rep2_inj (h3 h ▸ h1) (rep2_zero hV)⟩

theorem C19_div (hV : P.Valid) (hD : P.DivValid) (hR : P.RootValid) {a b : Fp2} {z w : F2 P}
    (ha : Rep2 P a z) (hb : Rep2 P b w) :
    (w ≠ 0 → ∃ u, Rep2 P (fp2Div P a b) u ∧ u * w = z ∧ ∀ u', u' * w = z → u' = u) ∧
    (w = 0 → fp2Div P a b = fp2Zero P) := by
  have := Fact.mk hR.prime
  have := f2_fact hR
  obtain ⟨u, h1, h2, h3⟩ := rep2_div hV hD hR ha hb
  exact ⟨fun h => ⟨u, h1, h2 h, fun u' h' => mul_right_cancel₀ h (h'.trans (h2 h).symm)⟩,
    fun h => rep2_inj (h3 h ▸ h1) (rep2_zero hV)⟩

/-- On limbs: dividing and multiplying back. -/
theorem C19_div_mul {a b : Fp2} (ha : Reduced2 festaFp a) (hb : Reduced2 festaFp b)
    (h0 : b ≠ fp2Zero festaFp) :
    fp2Mul festaFp (fp2Div festaFp a b) b = a ∧
    fp2Div festaFp a b = fp2Mul festaFp a (fp2Invert festaFp b) := by
  let A : Fq := ⟨a, ha⟩
  let B : Fq := ⟨b, hb⟩
  have hb0 : B ≠ 0 := fun h => h0 (congrArg Subtype.val h)
  refine ⟨?_, ?_⟩
  · have := congrArg Subtype.val (div_mul_cancel₀ A hb0)
    change fp2Mul festaFp (A / B).1 b = a at this
    rwa [Fq.div_code] at this
  · have := congrArg Subtype.val (div_eq_mul_inv A B)
    rwa [Fq.div_code] at this

example : fp2Mul festaFp (fp2Div festaFp (lit2 7 1) (lit2 2 3)) (lit2 2 3) = lit2 7 1 :=
  (C19_div_mul (rep_lit2 7 1).reduced (rep_lit2 2 3).reduced (by decide +kernel)).1

/-! ### C15, extension field -/

/-- The extension field symbol: 0 for zero, 1 for non-zero squares, -1 for non-squares. -/
theorem C15_legendre_fp2 (hV : P.Valid) (hR : P.RootValid) {a : Fp2} {z : F2 P}
    (ha : Rep2 P a z) :
    (fp2Legendre P a = 0 ↔ z = 0) ∧ (fp2Legendre P a = 1 ↔ z ≠ 0 ∧ IsSquare z) ∧
    (fp2Legendre P a = 0xFFFFFFFF ↔ ¬ IsSquare z) := by
  obtain ⟨h1, h2, h3⟩ := C15_legendre_iff hV hR.prime (rep_norm hV ha)
  have hz : z.re * z.re + z.im * z.im = 0 ↔ z = 0 := by
    constructor
    · intro h
      obtain ⟨e0, e1⟩ := sq_add_sq_eq_zero hR h
      exact QuadraticAlgebra.ext e0 e1
    · rintro rfl; simp
  unfold fp2Legendre
  rw [h1, h2, h3, isSquare_f2 hR z]
  simp only [hz, ne_eq, and_self]

example : fp2Legendre festaFp (fp2Nqr festaFp nqrRe) = 0xFFFFFFFF ∧
    fp2Legendre festaFp (fp2Zeta festaFp) = 1 := by
  have hf := Fact.mk festa_prime
  refine ⟨((C15_legendre_fp2 festa_valid festa_roots (z := ⟨(nqrVal : ZMod festaFp.p), 1⟩)
    ⟨rep_nqrRe, rep_R_VAL festa_valid⟩).2.2).2 ?_, ((C15_legendre_fp2 festa_valid festa_roots
      (z := ⟨0, 1⟩) ⟨rep_zero festa_valid, rep_R_VAL festa_valid⟩).2.1).2 ⟨?_, ?_⟩⟩
  · rw [isSquare_f2 festa_roots]; exact nqr_norm
  · intro h; exact one_ne_zero (congrArg QuadraticAlgebra.im h)
  · rw [isSquare_f2 festa_roots]; exact ⟨1, by simp⟩

/-! ### C20 -/

/-- Batch inversion of a slice of any length: each non-zero entry is replaced by its inverse, each
zero entry stays zero. -/
theorem C20_batch_invert (hV : P.Valid) (hD : P.DivValid) (hR : P.RootValid) (xs : List Fp2)
    (h : ∀ x ∈ xs, Reduced2 P x) :
    (fp2BatchInvert P xs).length = xs.length ∧
    ∀ (i : Nat) (x y : Fp2), xs[i]? = some x → (fp2BatchInvert P xs)[i]? = some y →
      (x ≠ fp2Zero P → fp2Mul P y x = fp2One P) ∧ (x = fp2Zero P → y = fp2Zero P) := by
  have : ∃ zs : List (F2 P), List.Forall₂ (Rep2 P) xs zs := by
    induction xs with
    | nil => exact ⟨[], List.Forall₂.nil⟩
    | cons x xs ih =>
      obtain ⟨zs, hzs⟩ := ih (fun y hy => h y (List.mem_cons_of_mem _ hy))
      obtain ⟨z, hz⟩ := exists_rep2_val hV (h x List.mem_cons_self)
      exact ⟨z :: zs, List.Forall₂.cons hz hzs⟩
  obtain ⟨zs, hzs⟩ := this
  have hb := batchInvert_spec hV hD hR xs.length xs zs le_rfl hzs
  refine ⟨hb.length_eq.trans hzs.length_eq.symm, fun i x y hx hy => ?_⟩
  obtain ⟨hi, rfl⟩ := List.getElem?_eq_some_iff.mp hx
  obtain ⟨hj, rfl⟩ := List.getElem?_eq_some_iff.mp hy
  have hk : i < zs.length := hzs.length_eq ▸ hi
  have r1 := (List.forall₂_iff_get.mp hzs).2 i hi hk
  obtain ⟨v, r2, r3, r4⟩ := (List.forall₂_iff_get.mp hb).2 i hj hk
  simp only [List.get_eq_getElem] at r1 r2 r3 r4
  refine ⟨fun hne => ?_, fun he => ?_⟩
  · have hz : zs[i] ≠ 0 := fun h0 => hne (rep2_inj (h0 ▸ r1) (rep2_zero hV))
    exact rep2_inj (r3 hz ▸ rep2_mul hV r2 r1) (rep2_one hV)
  · have hz : zs[i] = 0 := rep2_unique hV (he ▸ r1) (rep2_zero hV)
    exact rep2_inj (r4 hz ▸ r2) (rep2_zero hV)

/-- More than one batch, with zeros in both. -/
example (xs : List Fp2) (hx : xs = List.replicate 150 (lit2 2 1) ++ List.replicate 100 (lit2 0 0) ++
    List.replicate 150 (lit2 3 4)) : (fp2BatchInvert festaFp xs).length = 400 := by
  have h : ∀ x ∈ xs, Reduced2 festaFp x := by
    subst hx
    intro x hx
    simp only [List.mem_append, List.mem_replicate] at hx
    rcases hx with (⟨-, rfl⟩ | ⟨-, rfl⟩) | ⟨-, rfl⟩ <;> exact (rep_lit2 _ _).reduced
  rw [(C20_batch_invert festa_valid C14_constant festa_roots xs h).1, hx]
  simp only [List.length_append, List.length_replicate]

/-! ### C21, C22 -/

/-- Square root: status all-ones exactly for squares, the root has the documented sign; otherwise
zero with status 0. -/
theorem C21_sqrt (hV : P.Valid) (hD : P.DivValid) (hR : P.RootValid) {a : Fp2} {z : F2 P}
    (ha : Rep2 P a z) :
    (IsSquare z → (fp2Sqrt P a).2 = 0xFFFFFFFF ∧
      ∃ s, Rep2 P (fp2Sqrt P a).1 s ∧ s * s = z ∧ SignZero s) ∧
    (¬ IsSquare z → (fp2Sqrt P a).2 = 0 ∧ Rep2 P (fp2Sqrt P a).1 0) := sqrt2_spec hV hD hR ha

/-- The sign convention picks exactly one of the two roots. -/
theorem C21_sign_unique (hV : P.Valid) (hR : P.RootValid) {s t : F2 P} (h : s * s = t * t)
    (hs : SignZero s) (ht : SignZero t) : s = t := by
  have := Fact.mk hR.prime
  have := f2_fact hR
  rcases mul_self_eq_mul_self_iff.mp h with h | h
  · exact h
  · subst h
    have h0 : t.re = 0 := eq_zero_of_even_neg hV ht.1 hs.1
    have h1 : t.im = 0 := eq_zero_of_even_neg hV (ht.2 h0) (hs.2 (by simp [h0]))
    have : t = 0 := QuadraticAlgebra.ext h0 h1
    rw [this, neg_zero]

/-- Consequently the root of a square is unchanged by replacing the root squared by its negative:
`sqrt(z^2)` is `z` or `-z`. -/
theorem C21_sqrt_square (hV : P.Valid) (hD : P.DivValid) (hR : P.RootValid) {a : Fp2}
    (ha : Reduced2 P a) :
    (fp2Sqrt P (fp2Square P a)).1 = a ∨ (fp2Sqrt P (fp2Square P a)).1 = fp2Neg P a := by
  have := Fact.mk hR.prime
  have := f2_fact hR
  obtain ⟨z, hz⟩ := exists_rep2_val hV ha
  obtain ⟨-, s, h1, h2, -⟩ := (sqrt2_spec hV hD hR (rep2_square hV hz)).1 ⟨z, rfl⟩
  rcases mul_self_eq_mul_self_iff.mp h2 with h | h
  · exact Or.inl (rep2_inj (h ▸ h1) hz)
  · exact Or.inr (rep2_inj (h ▸ h1) (rep2_neg hV hz))

/-- Fourth root. -/
theorem C22_fourth_root (hV : P.Valid) (hD : P.DivValid) (hR : P.RootValid) {a : Fp2} {z : F2 P}
    (ha : Rep2 P a z) :
    ((∃ w, w ^ 4 = z) → (fp2FourthRoot P a).2 = 0xFFFFFFFF ∧
      ∃ s, Rep2 P (fp2FourthRoot P a).1 s ∧ s ^ 4 = z ∧ SignZero s) ∧
    ((¬ ∃ w, w ^ 4 = z) → (fp2FourthRoot P a).2 = 0 ∧ Rep2 P (fp2FourthRoot P a).1 0) :=
  fourth2_spec hV hD hR ha

/-- Inputs of every kind: a real non-square, a purely imaginary number, a general square; and the
non-square constant of the code. -/
example : (fp2Sqrt festaFp (fp2MinusOne festaFp)).2 = 0xFFFFFFFF ∧
    (fp2Sqrt festaFp (fp2Nqr festaFp nqrRe)).2 = 0 ∧
    (fp2FourthRoot festaFp (fp2Nqr festaFp nqrRe)).2 = 0 ∧
    (fp2FourthRoot festaFp (fp2MinusOne festaFp)).2 = 0xFFFFFFFF := by
  have hm : Rep2 festaFp (fp2MinusOne festaFp) (-1) := (C18_constants festa_valid).2.2.2.2.2.1
  have hn : Rep2 festaFp (fp2Nqr festaFp nqrRe) ⟨(nqrVal : ZMod festaFp.p), 1⟩ :=
    ⟨rep_nqrRe, rep_R_VAL festa_valid⟩
  have hq : ¬ IsSquare (⟨(nqrVal : ZMod festaFp.p), 1⟩ : F2 festaFp) := by
    rw [isSquare_f2 festa_roots]; exact nqr_norm
  refine ⟨((C21_sqrt festa_valid C14_constant festa_roots hm).1 ?_).1,
    ((C21_sqrt festa_valid C14_constant festa_roots hn).2 hq).1,
    ((C22_fourth_root festa_valid C14_constant festa_roots hn).2 ?_).1,
    ((C22_fourth_root festa_valid C14_constant festa_roots hm).1 ?_).1⟩
  · rw [isSquare_f2 festa_roots]; exact ⟨1, by simp [one_re, one_im]⟩
  · rintro ⟨w, hw⟩; exact hq ⟨w ^ 2, by rw [← hw]; ring⟩
  · -- `-1` is the square of `i`, which is a square
    obtain ⟨w, hw⟩ : IsSquare (⟨0, 1⟩ : F2 festaFp) := by
      rw [isSquare_f2 festa_roots]; exact ⟨1, by simp⟩
    refine ⟨w, ?_⟩
    rw [show w ^ 4 = (w * w) * (w * w) by ring, ← hw]
    refine QuadraticAlgebra.ext ?_ ?_
    · rw [F2.mul_re]; simp [one_re]
    · rw [F2.mul_im]; simp [one_im]

/-! ### C23 -/

/-- The encoding is the concatenation of the two component encodings, 324 bytes. -/
theorem C23_encode (hV : P.Valid) {a : Fp2} {z : F2 P} (ha : Rep2 P a z) :
    (fp2Encode P a).length = 2 * P.encLen ∧
    bval ((fp2Encode P a).take P.encLen) = z.re.val ∧
    bval ((fp2Encode P a).drop P.encLen) = z.im.val := by
  obtain ⟨h1, h2⟩ := encode_spec hV ha.1
  obtain ⟨k1, k2⟩ := encode_spec hV ha.2
  unfold fp2Encode
  refine ⟨by rw [List.length_append, h1, k1]; ring, ?_, ?_⟩
  · rw [← h1, List.take_left, h2]
  · rw [← h1, List.drop_left, k2]

theorem C23_length : 2 * festaFp.encLen = 324 := by decide +kernel

/-- Decoding accepts exactly the strings of the right length both of whose halves are below `p`. -/
theorem C23_decode (hV : P.Valid) (buf : List UInt8) :
    (buf.length = 2 * P.encLen ∧ bval (buf.take P.encLen) < P.p ∧ bval (buf.drop P.encLen) < P.p →
      (fp2Decode P buf).2 = 0xFFFFFFFF ∧ Rep2 P (fp2Decode P buf).1
        ⟨(bval (buf.take P.encLen) : ZMod P.p), (bval (buf.drop P.encLen) : ZMod P.p)⟩) ∧
    (¬ (buf.length = 2 * P.encLen ∧ bval (buf.take P.encLen) < P.p ∧
        bval (buf.drop P.encLen) < P.p) →
      (fp2Decode P buf).2 = 0 ∧ (fp2Decode P buf).1 = fp2Zero P) := by
  by_cases hl : buf.length = 2 * P.encLen
  · have l0 : (buf.take P.encLen).length = P.encLen := by rw [List.length_take]; omega
    have l1 : (buf.drop P.encLen).length = P.encLen := by rw [List.length_drop]; omega
    have form : ∀ b : List UInt8, b.length = P.encLen → ∃ c n, (fpDecode P b).2 = ctlOf c ∧
        Rep P (fpDecode P b).1 n ∧ (c = true ↔ bval b < P.p) ∧ (c = true → n = (bval b : ZMod P.p)) := by
      intro b hb
      obtain ⟨h1, h2⟩ := C11_decode hV b
      by_cases hlt : bval b < P.p
      · obtain ⟨p1, p2⟩ := h1 ⟨hb, hlt⟩
        exact ⟨true, _, p1, p2, by simp [hlt], fun _ => rfl⟩
      · obtain ⟨p1, p2⟩ := h2 (fun h => hlt h.2)
        exact ⟨false, _, p1, p2, by simp [hlt], by simp⟩
    obtain ⟨c0, n0, a1, a2, a3, a4⟩ := form _ l0
    obtain ⟨c1, n1, b1, b2, b3, b4⟩ := form _ l1
    have e : fp2Decode P buf = (⟨fpCond (fpDecode P (buf.take P.encLen)).1 (fpZero P) (ctlOf !(c0 && c1)),
        fpCond (fpDecode P (buf.drop P.encLen)).1 (fpZero P) (ctlOf !(c0 && c1))⟩, ctlOf (c0 && c1)) := by
      unfold fp2Decode
      rw [if_neg (by simp [hl])]
      simp only [a1, b1, ctl_and, ctl_not]
    have r0 := cond_form a2 (rep_zero hV) (!(c0 && c1))
    have r1 := cond_form b2 (rep_zero hV) (!(c0 && c1))
    refine ⟨fun h => ?_, fun h => ?_⟩
    · have h0 := a3.mpr h.2.1
      have h1 := b3.mpr h.2.2
      rw [h0, h1] at e r0 r1
      simp only [Bool.and_self, Bool.not_true, Bool.false_eq_true, if_false] at r0 r1
      rw [e, ← a4 h0, ← b4 h1]
      exact ⟨rfl, r0, r1⟩
    · have hc : (c0 && c1) = false := by
        by_contra hc
        have hc' : c0 = true ∧ c1 = true := by simpa using hc
        exact h ⟨hl, a3.mp hc'.1, b3.mp hc'.2⟩
      rw [hc] at e r0 r1
      simp only [Bool.not_false, if_true] at r0 r1
      rw [e]
      exact ⟨rfl, rep2_inj (z := 0) ⟨r0, r1⟩ (rep2_zero hV)⟩
  · have e : fp2Decode P buf = (fp2Zero P, 0) := by unfold fp2Decode; rw [if_pos hl]
    exact ⟨fun h => absurd h.1 hl, fun _ => by rw [e]; exact ⟨rfl, rfl⟩⟩

theorem C23_decode_encode (hV : P.Valid) {a : Fp2} (ha : Reduced2 P a) :
    fp2Decode P (fp2Encode P a) = (a, 0xFFFFFFFF) := by
  have : NeZero P.p := ⟨(p_pos hV).ne'⟩
  obtain ⟨z, hz⟩ := exists_rep2_val hV ha
  obtain ⟨h1, h2, h3⟩ := C23_encode hV hz
  obtain ⟨k1, k2⟩ := (C23_decode hV (fp2Encode P a)).1
    ⟨h1, by rw [h2]; exact ZMod.val_lt _, by rw [h3]; exact ZMod.val_lt _⟩
  refine Prod.ext (rep2_inj k2 ?_) k1
  rw [h2, h3, ZMod.natCast_val, ZMod.natCast_val, ZMod.cast_id, ZMod.cast_id]
  exact hz

theorem C23_encode_decode (hV : P.Valid) {buf : List UInt8}
    (h : (fp2Decode P buf).2 = 0xFFFFFFFF) : fp2Encode P (fp2Decode P buf).1 = buf := by
  by_cases hc : buf.length = 2 * P.encLen ∧ bval (buf.take P.encLen) < P.p ∧
      bval (buf.drop P.encLen) < P.p
  · obtain ⟨-, k2⟩ := (C23_decode hV buf).1 hc
    obtain ⟨h1, h2⟩ := encode_spec hV k2.1
    obtain ⟨h3, h4⟩ := encode_spec hV k2.2
    have e0 : fpEncode P (fp2Decode P buf).1.x0 = buf.take P.encLen := by
      refine bval_inj (h1.trans (by rw [List.length_take]; omega)) ?_
      rw [h2, ZMod.val_natCast, Nat.mod_eq_of_lt hc.2.1]
    have e1 : fpEncode P (fp2Decode P buf).1.x1 = buf.drop P.encLen := by
      refine bval_inj (h3.trans (by rw [List.length_drop]; omega)) ?_
      rw [h4, ZMod.val_natCast, Nat.mod_eq_of_lt hc.2.2]
    unfold fp2Encode
    rw [e0, e1, List.take_append_drop]
  · rw [((C23_decode hV buf).2 hc).1] at h
    exact absurd h (by decide)

/-- An invalid second half is rejected as a whole. -/
example : fp2Decode festaFp (3 :: List.replicate 161 0 ++ List.replicate 162 255) =
    (fp2Zero festaFp, 0) ∧ (fp2Decode festaFp (3 :: List.replicate 323 0)).2 = 0xFFFFFFFF := by
  decide +kernel

/-! ### C56: powers -/

/-- `pow_ext` (and `set_pow`, the case `eoff = 0`). -/
theorem C56_pow_ext (hV : P.Valid) {a : Fp2} {x : F2 P} (ha : Rep2 P a x) (e : List UInt8)
    (eoff n : Nat) :
    (eoff + n ≤ 8 * e.length ∨ n = 0 →
      ∃ r, fp2PowExt P a e eoff n = some r ∧ Rep2 P r (x ^ (bval e / 2 ^ eoff % 2 ^ n))) ∧
    (8 * e.length < eoff + n → n ≠ 0 → fp2PowExt P a e eoff n = none) :=
  ⟨pow2Ext_spec hV ha e eoff n, pow2Ext_none P a e eoff n⟩

/-- `pow_small` and `pow_big` compute every power and never panic. -/
theorem C56_pow_big (hV : P.Valid) {a : Fp2} {x : F2 P} (ha : Rep2 P a x) :
    (∀ e : UInt32, ∃ r, fp2PowSmall P a e = some r ∧ Rep2 P r (x ^ e.toNat)) ∧
    (∀ e : Nat, ∃ r, fp2PowBig P a e = some r ∧ Rep2 P r (x ^ e)) :=
  ⟨pow2Small_spec hV ha, pow2Big_spec hV ha⟩

/-- `pow_u64` uses the low `ebitlen` bits of the exponent; `pow_u64_vartime` the whole exponent. -/
theorem C56_pow_u64 (hV : P.Valid) {a : Fp2} {x : F2 P} (ha : Rep2 P a x) (e : UInt64) :
    (∀ n, n ≤ 64 → ∃ r, fp2PowU64 P a e n = some r ∧ Rep2 P r (x ^ (e.toNat % 2 ^ n))) ∧
    Rep2 P (fp2PowU64Vartime P a e) (x ^ e.toNat) :=
  ⟨powU64_spec hV ha e, powVartime_spec hV ha e⟩

/-- All exponentiation routines agree limb for limb on 64-bit exponents. -/
theorem C56_agree (hV : P.Valid) {a : Fp2} (ha : Reduced2 P a) (e : UInt64) :
    fp2PowU64 P a e 64 = some (fp2PowU64Vartime P a e) ∧
    fp2PowBig P a e.toNat = some (fp2PowU64Vartime P a e) := by
  obtain ⟨x, hx⟩ := exists_rep2_val hV ha
  obtain ⟨r, h1, h2⟩ := powU64_spec hV hx e 64 le_rfl
  obtain ⟨s, h3, h4⟩ := pow2Big_spec hV hx e.toNat
  rw [Nat.mod_eq_of_lt e.toNat_lt] at h2
  have hv := powVartime_spec hV hx e
  exact ⟨h1.trans (congrArg some (rep2_inj h2 hv)), h3.trans (congrArg some (rep2_inj h4 hv))⟩

example : fp2PowU64 festaFp (lit2 2 1) 11 4 = some (fp2PowU64Vartime festaFp (lit2 2 1) 11) := by
  decide +kernel

/-! ### C57: non-squares -/

/-- The constant `NQR` is not a square. -/
theorem C57_nqr : ∃ z, Rep2 festaFp (fp2Nqr festaFp nqrRe) z ∧ ¬ IsSquare z :=
  ⟨⟨(nqrVal : ZMod festaFp.p), 1⟩, ⟨rep_nqrRe, rep_R_VAL festa_valid⟩, by
    rw [isSquare_f2 festa_roots]; exact nqr_norm⟩

/-- `rand_nonsquare` returns a non-square whatever the generator delivers. -/
theorem C57_rand_nonsquare (draws : List (List UInt8 × List UInt8)) (r : Fp2)
    (h : fp2RandNonsquare festaFp nqrRe draws = some r) :
    ∃ z, Rep2 festaFp r z ∧ ¬ IsSquare z := by
  have := Fact.mk festa_prime
  have := f2_fact festa_roots
  induction draws with
  | nil => simp [fp2RandNonsquare] at h
  | cons d ds ih =>
    obtain ⟨b0, b1⟩ := d
    unfold fp2RandNonsquare at h
    simp only at h
    have hx : Rep2 festaFp (fp2Rand festaFp b0 b1)
        ⟨(bval b0 : ZMod festaFp.p), (bval b1 : ZMod festaFp.p)⟩ :=
      ⟨C12_rand festa_valid b0, C12_rand festa_valid b1⟩
    generalize (⟨(bval b0 : ZMod festaFp.p), (bval b1 : ZMod festaFp.p)⟩ : F2 festaFp) = w at hx
    split at h
    · exact ih h
    · rename_i hnz
      obtain ⟨q, hq1, hq2⟩ := C57_nqr
      have hw : w ≠ 0 := fun h0 => hnz (by
        rw [(C18_iszero_equals festa_valid hx hx).1 h0]; decide)
      have e : fp2Mul festaFp (fp2Square festaFp (fp2Rand festaFp b0 b1)) (fp2Nqr festaFp nqrRe) = r := by
        simpa using h
      refine ⟨w * w * q, e ▸ rep2_mul festa_valid (rep2_square festa_valid hx) hq1, ?_⟩
      rintro ⟨s, hs⟩
      apply hq2
      refine ⟨s / w, ?_⟩
      field_simp
      linear_combination hs

/-- The first draw is used unless it is zero. -/
example : (fp2RandNonsquare festaFp nqrRe [([0], []), ([5], [7])]).isSome = true := by
  decide +kernel

end Festa

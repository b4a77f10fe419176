import Verif.Lemmas.FpMisc
import Mathlib.Data.ZMod.Units
import Mathlib.RingTheory.Coprime.Lemmas
/-! The residue-class view of the integer statements. -/
namespace Festa

variable {P : FpParams}

theorem isUnit_R (hV : P.Valid) : IsUnit (P.R : ZMod P.p) := by
  rw [ZMod.isUnit_iff_coprime, P.R_def, ← pow_mul]
  apply Nat.Coprime.pow_left
  rw [Nat.coprime_two_left]
  exact Nat.odd_iff.2 hV.odd

theorem isUnit_two (hV : P.Valid) : IsUnit (2 : ZMod P.p) := by
  have : ((2 : Nat) : ZMod P.p) = 2 := by norm_num
  rw [← this, ZMod.isUnit_iff_coprime, Nat.coprime_two_left]
  exact Nat.odd_iff.2 hV.odd

theorem cast_eq_of_modEq {a b : Nat} (h : a ≡ b [MOD P.p]) : (a : ZMod P.p) = b :=
  (ZMod.natCast_eq_natCast_iff _ _ _).2 h

theorem cast_mod (a : Nat) : ((a % P.p : Nat) : ZMod P.p) = a :=
  cast_eq_of_modEq (Nat.mod_modEq _ _)

theorem cast_p : ((P.p : Nat) : ZMod P.p) = 0 := ZMod.natCast_self _

/-- From a statement `R * lval r = ...` to a representation. -/
theorem rep_of_R_mul (hV : P.Valid) {r : Limbs} (hr : Reduced P r) {n : ZMod P.p}
    (h : (P.R : ZMod P.p) * lval r = (n * P.R) * P.R) : Rep P r n := by
  refine ⟨hr, ?_⟩
  apply (isUnit_R hV).mul_left_cancel
  rw [h]; ring

theorem rep_unique (hV : P.Valid) {x : Limbs} {n m : ZMod P.p} (h1 : Rep P x n) (h2 : Rep P x m) :
    n = m :=
  (isUnit_R hV).mul_right_cancel (h1.2.symm.trans h2.2)

theorem lval_eq_of_cast {x y : Limbs} (hx : Reduced P x) (hy : Reduced P y)
    (h : (lval x : ZMod P.p) = lval y) : x = y := by
  apply lval_inj (hx.1.trans hy.1.symm)
  have := (ZMod.natCast_eq_natCast_iff _ _ _).1 h
  unfold Nat.ModEq at this
  rwa [Nat.mod_eq_of_lt hx.2, Nat.mod_eq_of_lt hy.2] at this

theorem rep_inj {x y : Limbs} {n : ZMod P.p} (h1 : Rep P x n) (h2 : Rep P y n) : x = y :=
  lval_eq_of_cast h1.1 h2.1 (h1.2.trans h2.2.symm)

theorem exists_rep_val (hV : P.Valid) {x : Limbs} (h : Reduced P x) : ∃ n, Rep P x n := by
  obtain ⟨u, hu⟩ := isUnit_R hV
  refine ⟨lval x * (↑u⁻¹ : ZMod P.p), h, ?_⟩
  rw [← hu, mul_assoc, Units.inv_mul, mul_one]

/-- Limb vector of an integer: `n` limbs. -/
def toLimbs : Nat → Nat → Limbs
  | 0, _ => []
  | n + 1, v => UInt64.ofNat v :: toLimbs n (v / 2 ^ 64)

theorem toLimbs_length (n v : Nat) : (toLimbs n v).length = n := by
  induction n generalizing v with
  | zero => rfl
  | succ n ih => simp [toLimbs, ih]

theorem lval_toLimbs (n v : Nat) (h : v < (2 ^ 64) ^ n) : lval (toLimbs n v) = v := by
  induction n generalizing v with
  | zero => simp at h; simp [toLimbs, h]
  | succ n ih =>
    rw [Wsucc] at h
    simp only [toLimbs, lval_cons, UInt64.toNat_ofNat']
    rw [ih _ (by rw [Nat.div_lt_iff_lt_mul (by positivity)]; exact h)]
    omega

theorem exists_rep (hV : P.Valid) (n : ZMod P.p) : ∃ x, Rep P x n := by
  have : NeZero P.p := ⟨(p_pos hV).ne'⟩
  have hlt : (n * P.R).val < P.p := ZMod.val_lt _
  have hR := p_lt_R hV
  rw [P.R_def] at hR
  refine ⟨toLimbs P.N (n * P.R).val, ⟨toLimbs_length _ _, ?_⟩, ?_⟩
  · rw [lval_toLimbs _ _ (by omega)]; exact hlt
  · rw [lval_toLimbs _ _ (by omega)]; simp

theorem rep_add (hV : P.Valid) {a b : Limbs} {x y : ZMod P.p} (ha : Rep P a x) (hb : Rep P b y) :
    Rep P (fpAdd P a b) (x + y) := by
  obtain ⟨h1, h2⟩ := fpAdd_lval hV ha.1 hb.1
  refine ⟨h1, ?_⟩
  rw [h2, cast_mod]; push_cast; rw [ha.2, hb.2]; ring

theorem rep_sub (hV : P.Valid) {a b : Limbs} {x y : ZMod P.p} (ha : Rep P a x) (hb : Rep P b y) :
    Rep P (fpSub P a b) (x - y) := by
  obtain ⟨h1, h2⟩ := fpSub_lval hV ha.1 hb.1
  refine ⟨h1, ?_⟩
  have := hb.1.2
  rw [h2, cast_mod, Nat.cast_add, Nat.cast_sub this.le, cast_p, ha.2, hb.2]; ring

theorem rep_neg (hV : P.Valid) {a : Limbs} {x : ZMod P.p} (ha : Rep P a x) :
    Rep P (fpNeg P a) (-x) := by
  obtain ⟨h1, h2⟩ := fpNeg_lval hV ha.1
  refine ⟨h1, ?_⟩
  rw [h2, cast_mod, Nat.cast_sub ha.1.2.le, cast_p, ha.2]; ring

theorem rep_mul (hV : P.Valid) {a b : Limbs} {x y : ZMod P.p} (ha : Rep P a x) (hb : Rep P b y) :
    Rep P (fpMul P a b) (x * y) := by
  obtain ⟨h1, h2⟩ := fpMul_lval hV ha.1 hb.1.1
  apply rep_of_R_mul hV h1
  have := cast_eq_of_modEq h2
  push_cast at this
  rw [this, ha.2, hb.2]; ring

theorem rep_square (hV : P.Valid) {a : Limbs} {x : ZMod P.p} (ha : Rep P a x) :
    Rep P (fpSquare P a) (x * x) := by
  obtain ⟨h1, h2⟩ := fpSquare_lval hV ha.1
  apply rep_of_R_mul hV h1
  have := cast_eq_of_modEq h2
  push_cast at this
  rw [this, ha.2]; ring

theorem rep_mul2 (hV : P.Valid) {a : Limbs} {x : ZMod P.p} (ha : Rep P a x) :
    Rep P (fpMul2 P a) (2 * x) := by
  obtain ⟨h1, h2⟩ := fpMul2_lval hV ha.1
  refine ⟨h1, ?_⟩
  rw [h2, cast_mod]; push_cast; rw [ha.2]; ring

theorem rep_half (hV : P.Valid) {a : Limbs} {x y : ZMod P.p} (ha : Rep P a x) (h : y + y = x) :
    Rep P (fpHalf P a) y := by
  obtain ⟨h1, h2⟩ := fpHalf_lval hV ha.1
  refine ⟨h1, ?_⟩
  have := cast_eq_of_modEq h2
  push_cast at this
  rw [ha.2] at this
  apply (isUnit_two hV).mul_left_cancel
  rw [this, ← h]; ring

theorem reduced_zero (hV : P.Valid) : Reduced P (fpZero P) :=
  ⟨by simp [fpZero], by rw [show lval (fpZero P) = 0 from lval_replicate_zero _]; exact p_pos hV⟩

theorem rep_zero (hV : P.Valid) : Rep P (fpZero P) 0 :=
  ⟨reduced_zero hV, by rw [show lval (fpZero P) = 0 from lval_replicate_zero _]; simp⟩

theorem rep_R_VAL (hV : P.Valid) : Rep P P.R_VAL 1 := by
  refine ⟨⟨hV.r_len, by rw [hV.r_val]; exact Nat.mod_lt _ (p_pos hV)⟩, ?_⟩
  rw [hV.r_val, cast_mod, one_mul]

theorem reduced_R2 (hV : P.Valid) : Reduced P P.R2_VAL :=
  ⟨hV.r2_len, by rw [hV.r2_val]; exact Nat.mod_lt _ (p_pos hV)⟩

/-- Multiplying a plain (non-Montgomery) residue by `R2` brings it into Montgomery form. -/
theorem rep_toMonty (hV : P.Valid) {a : Limbs} (ha : Reduced P a) :
    Rep P (fpMul P a P.R2_VAL) (lval a) := by
  obtain ⟨h1, h2⟩ := fpMul_lval hV ha hV.r2_len
  apply rep_of_R_mul hV h1
  have := cast_eq_of_modEq h2
  push_cast at this
  rw [this, hV.r2_val, cast_mod]; push_cast; ring

/-- The same when only the second factor is known to be reduced (`a` may be any limbs). -/
theorem fpMul_lval_comm (hV : P.Valid) {a b : Limbs} (ha : a.length = P.N) (hb : Reduced P b)
    (hAR : lval a < P.p) : Rep P (fpMul P a b) (lval a * lval b * ((isUnit_R hV).unit⁻¹ : (ZMod P.p)ˣ) *
      ((isUnit_R hV).unit⁻¹ : (ZMod P.p)ˣ)) := by
  obtain ⟨h1, h2⟩ := fpMul_lval hV ⟨ha, hAR⟩ hb.1
  apply rep_of_R_mul hV h1
  have := cast_eq_of_modEq h2
  push_cast at this
  rw [this]
  have e : (((isUnit_R hV).unit⁻¹ : (ZMod P.p)ˣ) : ZMod P.p) * (P.R : ZMod P.p) = 1 := by
    have := (isUnit_R hV).val_inv_mul
    simpa using this
  linear_combination (- (lval a * lval b : ZMod P.p) * (((isUnit_R hV).unit⁻¹ : (ZMod P.p)ˣ) * P.R + 1)) * e

/-- Montgomery reduction of a representation gives the canonical integer. -/
theorem montyRed_rep (hV : P.Valid) {a : Limbs} {x : ZMod P.p} (ha : Rep P a x) :
    Reduced P (montyRed P a) ∧ (lval (montyRed P a) : ZMod P.p) = x ∧ lval (montyRed P a) = x.val := by
  obtain ⟨h1, -, h3, f, -, h4⟩ := montyRed_spec hV ha.1.1
  have hr : Reduced P (montyRed P a) := ⟨h1, h3 ha.1.2⟩
  have e : (lval (montyRed P a) : ZMod P.p) = x := by
    apply (isUnit_R hV).mul_left_cancel
    have : ((P.R * lval (montyRed P a) : Nat) : ZMod P.p) = ((lval a + f * P.p : Nat) : ZMod P.p) := by
      rw [h4]
    push_cast at this
    rw [cast_p] at this
    rw [this, ha.2]; ring
  refine ⟨hr, e, ?_⟩
  rw [← e, ZMod.val_natCast, Nat.mod_eq_of_lt hr.2]

/-! ### Masks and control words -/

/-- The two legal control words. -/
def ctlOf (b : Bool) : UInt32 := if b then 0xFFFFFFFF else 0

theorem ctl64_zero : ctl64 0 = 0 := rfl
theorem ctl64_ones : ctl64 0xFFFFFFFF = -1 := by decide

theorem select_zero {a b : Limbs} (h : a.length = b.length) : fpSelect a b 0 = a := by
  unfold fpSelect
  rw [ctl64_zero]
  induction a generalizing b with
  | nil => simp
  | cons x xs ih =>
    rcases b with _ | ⟨y, ys⟩
    · simp at h
    · simp only [List.zipWith_cons_cons]
      rw [ih (by simpa using h)]; simp

theorem xor_xor_self (x y : UInt64) : x ^^^ (x ^^^ y) = y := by
  rw [← UInt64.xor_assoc]; simp

theorem select_ones {a b : Limbs} (h : a.length = b.length) : fpSelect a b 0xFFFFFFFF = b := by
  unfold fpSelect
  rw [ctl64_ones]
  induction a generalizing b with
  | nil => have : b = [] := by simpa using h.symm
           subst this; simp
  | cons x xs ih =>
    rcases b with _ | ⟨y, ys⟩
    · simp at h
    · simp only [List.zipWith_cons_cons]
      rw [ih (by simpa using h)]
      congr 1
      rw [show (-1 : UInt64) &&& (x ^^^ y) = x ^^^ y by simp]
      exact xor_xor_self x y

theorem fpCond_eq_select (a b : Limbs) (c : UInt32) : fpCond a b c = fpSelect a b c := rfl

theorem swap_eq {a b : Limbs} (c : UInt32) :
    fpCondSwap a b c = (fpSelect a b c, List.zipWith (fun wa wb => wb ^^^ (ctl64 c &&& (wa ^^^ wb))) a b) := rfl

theorem swap_snd (a b : Limbs) (c : UInt32) :
    (fpCondSwap a b c).2 = fpSelect b a c := by
  unfold fpCondSwap fpSelect
  simp only
  induction a generalizing b with
  | nil => simp
  | cons x xs ih =>
    rcases b with _ | ⟨y, ys⟩
    · simp
    · simp only [List.zipWith_cons_cons]
      rw [ih, UInt64.xor_comm x y]

theorem rep_condneg (hV : P.Valid) {a : Limbs} {x : ZMod P.p} (ha : Rep P a x) (b : Bool) :
    Rep P (fpCondNeg P a (ctlOf b)) (if b then -x else x) := by
  have hn := rep_neg hV ha
  have hl : a.length = (fpNeg P a).length := by rw [ha.1.1, hn.1.1]
  unfold fpCondNeg
  rw [fpCond_eq_select]
  cases b
  · rw [show ctlOf false = 0 from rfl, select_zero hl]; simpa using ha
  · rw [show ctlOf true = 0xFFFFFFFF from rfl, select_ones hl]; simpa using hn

theorem map_and_zero (a : Limbs) : a.map (· &&& (0 : UInt64)) = List.replicate a.length 0 := by
  simp

theorem map_and_ones (a : Limbs) : a.map (· &&& (-1 : UInt64)) = a := by
  simp

/-! ### Integer conversion -/

theorem lval_set_zero (hV : P.Valid) (x : UInt64) :
    ((fpZero P).set 0 x).length = P.N ∧ lval ((fpZero P).set 0 x) = x.toNat := by
  have hN := hV.N_two
  obtain ⟨n, hn⟩ : ∃ n, P.N = n + 1 := ⟨P.N - 1, by omega⟩
  unfold fpZero
  rw [hn]
  refine ⟨by simp, ?_⟩
  rw [List.replicate_succ, List.set_cons_zero, lval_cons, lval_replicate_zero]; simp

theorem two64_lt_p (hV : P.Valid) : 2 ^ 64 ≤ P.p := by
  have h := hV.bitlen.1
  have hb := hV.bitlen_N
  have hN := hV.N_two
  refine le_trans (Nat.pow_le_pow_right (by norm_num) ?_) h
  omega

theorem rep_from_u64 (hV : P.Valid) (x : UInt64) : Rep P (fpFromU64 P x) (x.toNat : ZMod P.p) := by
  obtain ⟨h1, h2⟩ := lval_set_zero hV x
  have := rep_toMonty hV (a := (fpZero P).set 0 x)
    ⟨h1, by rw [h2]; have := two64_lt_p hV; have := x.toNat_lt; omega⟩
  rw [h2] at this
  exact this

/-! ### Zero and equality tests -/

theorem foldl_or_eq_zero (xs : Limbs) (a : UInt64) :
    xs.foldl (· ||| ·) a = 0 ↔ a = 0 ∧ ∀ x ∈ xs, x = 0 := by
  induction xs generalizing a with
  | nil => simp
  | cons b bs ih =>
    rw [List.foldl_cons, ih]
    simp only [List.mem_cons, forall_eq_or_imp]
    rw [UInt64.or_eq_zero_iff, and_assoc]

theorem lval_eq_zero_iff (xs : Limbs) : lval xs = 0 ↔ ∀ x ∈ xs, x = 0 := by
  induction xs with
  | nil => simp
  | cons b bs ih =>
    simp only [lval_cons, List.mem_cons, forall_eq_or_imp, ← ih]
    rw [← UInt64.toNat_inj, UInt64.toNat_zero]
    omega

theorem neg_toNat (x : UInt64) : (-x).toNat = (2 ^ 64 - x.toNat) % 2 ^ 64 := UInt64.toNat_neg x

theorem or_neg_top {x : UInt64} (h : x ≠ 0) : 2 ^ 63 ≤ (x ||| -x).toNat := by
  have hx : x.toNat ≠ 0 := fun h0 => h (UInt64.toNat_inj.1 h0)
  have hlt := x.toNat_lt
  have hn : (-x).toNat = 2 ^ 64 - x.toNat := by rw [neg_toNat]; omega
  rw [UInt64.toNat_or]
  have h1 : x.toNat ≤ x.toNat ||| (-x).toNat := Nat.left_le_or
  have h2 : (-x).toNat ≤ x.toNat ||| (-x).toNat := Nat.right_le_or
  omega

theorem iszero_spec (a : Limbs) : fpIsZero a = ctlOf (decide (lval a = 0)) := by
  unfold fpIsZero
  simp only
  have hz : a.tail.foldl (· ||| ·) (a.headD 0) = 0 ↔ lval a = 0 := by
    rw [foldl_or_eq_zero, lval_eq_zero_iff]
    cases a <;> simp
  by_cases h : lval a = 0
  · rw [hz.2 h]; simp [h]; rfl
  · have hx : a.tail.foldl (· ||| ·) (a.headD 0) ≠ 0 := fun h0 => h (hz.1 h0)
    rw [sgnw_neg (or_neg_top hx)]; simp [h]; rfl

theorem foldl_zip_xor (a b : Limbs) (h : a.length = b.length) (r : UInt64) :
    (List.zip a b).foldl (fun r p => r ||| (p.1 ^^^ p.2)) r = 0 ↔ r = 0 ∧ a = b := by
  induction a generalizing b r with
  | nil => have : b = [] := by simpa using h.symm
           subst this; simp
  | cons x xs ih =>
    rcases b with _ | ⟨y, ys⟩
    · simp at h
    rw [List.zip_cons_cons, List.foldl_cons, ih ys (by simpa using h)]
    rw [UInt64.or_eq_zero_iff, UInt64.xor_eq_zero_iff]
    simp only [List.cons.injEq]
    tauto

theorem equals_spec {a b : Limbs} (h : a.length = b.length) :
    fpEquals a b = ctlOf (decide (a = b)) := by
  unfold fpEquals
  simp only
  have hz := foldl_zip_xor a b h 0
  simp only [true_and] at hz
  by_cases hab : a = b
  · rw [hz.2 hab]; simp [hab]; rfl
  · have hx := fun h0 => hab (hz.1 h0)
    generalize (List.zip a b).foldl (fun r p => r ||| (p.1 ^^^ p.2)) 0 = x at *
    have h1 := or_neg_top (x := x) hx
    have h2 : ((x ||| -x) >>> 63) = 1 := by
      apply UInt64.toNat_inj.1
      rw [UInt64.toNat_shiftRight, show (63 : UInt64).toNat % 64 = 63 from rfl,
        Nat.shiftRight_eq_div_pow]
      have := (x ||| -x).toNat_lt
      show _ = 1
      omega
    rw [h2]; simp [hab]; rfl

end Festa

import Verif.Lemmas.AxisFree
import Verif.Props.Supersingular
import Mathlib.Data.Nat.Log
/-!
C39: how many points of an axis are excluded in the theorems on `bidlp`.
-/
namespace Festa
variable {H : Type*} [AddCommGroup H] {n : Nat} {P : H}

/-- C39: the condition on a multiple `aP` of a point of order `n`, in terms of `a`: neither `a` nor its inverse modulo `n` is
a number met by the double-and-add chain of `n`, up to sign. -/
theorem C39_free_iff (ho : addOrderOf P = n) (a : Nat) :
    AxisFree n P (a • P) ↔ ¬(n : Int) ∣ a ∧ ∀ m : Nat, InChain n m →
      ¬(n : Int) ∣ a - m ∧ ¬(n : Int) ∣ a + m ∧ ¬(n : Int) ∣ m * a - 1 ∧ ¬(n : Int) ∣ m * a + 1 := by
  have z : ∀ c : Int, c • P = 0 ↔ (n : Int) ∣ c := fun c => by rw [← ho, addOrderOf_dvd_iff_zsmul_eq_zero]
  have e1 : ∀ m : Nat, a • P = m • P ↔ (n : Int) ∣ a - m := fun m => by
    rw [← z, sub_zsmul, natCast_zsmul, natCast_zsmul, ← sub_eq_add_neg, sub_eq_zero]
  have e2 : ∀ m : Nat, a • P = -(m • P) ↔ (n : Int) ∣ a + m := fun m => by
    rw [← z, add_zsmul, natCast_zsmul, natCast_zsmul, eq_neg_iff_add_eq_zero]
  have e3 : ∀ m : Nat, P = m • a • P ↔ (n : Int) ∣ m * a - 1 := fun m => by
    rw [← z, sub_zsmul, one_zsmul, ← Nat.cast_mul, natCast_zsmul, ← mul_nsmul', ← sub_eq_add_neg, sub_eq_zero]
    exact eq_comm
  have e4 : ∀ m : Nat, P = -(m • a • P) ↔ (n : Int) ∣ m * a + 1 := fun m => by
    rw [← z, add_zsmul, one_zsmul, ← Nat.cast_mul, natCast_zsmul, ← mul_nsmul', eq_neg_iff_add_eq_zero, add_comm]
  have e0 : a • P = 0 ↔ (n : Int) ∣ a := by rw [← z, natCast_zsmul]
  constructor
  · intro h
    obtain ⟨h1, h2⟩ := h (AddSubgroup.nsmul_mem_zmultiples P a)
    refine ⟨fun hd => (h1 n (InChain.self n)).1 (e0.mpr hd), fun m hm => ?_⟩
    exact ⟨fun hd => (h1 m hm).2.1 ((e1 m).mpr hd), fun hd => (h1 m hm).2.2 ((e2 m).mpr hd),
      fun hd => (h2 m hm).2.1 ((e3 m).mpr hd), fun hd => (h2 m hm).2.2 ((e4 m).mpr hd)⟩
  · rintro ⟨h0, h⟩ -
    have P0 : P ≠ 0 := fun hP => h0 (e0.mp (by rw [hP, nsmul_zero]))
    refine ⟨fun m hm => ?_, fun m hm => ?_⟩
    · obtain ⟨h1, h2, -, -⟩ := h m hm
      exact ⟨fun hd => h0 (e0.mp hd), fun hd => h1 ((e1 m).mp hd), fun hd => h2 ((e2 m).mp hd)⟩
    · obtain ⟨-, -, h3, h4⟩ := h m hm
      exact ⟨P0, fun hd => h3 ((e3 m).mp hd), fun hd => h4 ((e4 m).mp hd)⟩

/-- A condition met by at most one number below `n`. -/
theorem card_le_one_solve (f : Nat → Prop) [DecidablePred f] (hf : ∀ a < n, ∀ b < n, f a → f b → a = b) :
    ((Finset.range n).filter f).card ≤ 1 := by
  rw [Finset.card_le_one]
  intro a ha b hb
  rw [Finset.mem_filter, Finset.mem_range] at ha hb
  exact hf a ha.1 b hb.1 ha.2 hb.2

theorem eq_of_dvd_sub {a b : Nat} (ha : a < n) (hb : b < n) (h : (n : Int) ∣ a - b) : a = b := by
  have := Int.eq_zero_of_abs_lt_dvd h (by rw [abs_lt]; constructor <;> omega)
  omega

open Classical in
/-- C39: the multiples of a basis point that are excluded in `C39_bidlp_partial` are few: of the `n` points of an axis at most
`8 log2 n + 17`. -/
theorem C39_exceptions_few (ho : addOrderOf P = n) :
    ((Finset.range n).filter fun a => ¬AxisFree n P (a • P)).card ≤ 8 * Nat.log2 n + 17 := by
  set L := Nat.log2 n with hL
  let bad : Nat → Finset Nat := fun m => ((Finset.range n).filter fun a : Nat => (n : Int) ∣ a - m) ∪
    ((Finset.range n).filter fun a : Nat => (n : Int) ∣ a + m) ∪
    ((Finset.range n).filter fun a : Nat => (n : Int) ∣ m * a - 1) ∪
    ((Finset.range n).filter fun a : Nat => (n : Int) ∣ m * a + 1)
  have hbad : ∀ m, (bad m).card ≤ 4 := by
    intro m
    have unit : ∀ {a b : Nat} (e : Int), a < n → b < n → (n : Int) ∣ m * a - e → (n : Int) ∣ m * b - e → e * e = 1 → a = b := by
      intro a b e ha hb h1 h2 he
      refine eq_of_dvd_sub ha hb ?_
      have h3 : (n : Int) ∣ m * (a - b) := by
        have := dvd_sub h1 h2
        rwa [show (m : Int) * a - e - (m * b - e) = m * (a - b) by ring] at this
      have h4 : (n : Int) ∣ (a * (m * (a - b)) - (a - b) * (m * a - e)) := dvd_sub (h3.mul_left _) (h1.mul_left _)
      rw [show (a : Int) * (m * (a - b)) - (a - b) * (m * a - e) = e * (a - b) by ring] at h4
      have := h4.mul_left e
      rwa [← mul_assoc, he, one_mul] at this
    have c1 : ((Finset.range n).filter fun a : Nat => (n : Int) ∣ a - m).card ≤ 1 :=
      card_le_one_solve (fun a : Nat => (n : Int) ∣ a - m) fun a ha b hb h1 h2 => eq_of_dvd_sub ha hb (by
        have := dvd_sub h1 h2; rwa [show (a : Int) - m - (b - m) = a - b by ring] at this)
    have c2 : ((Finset.range n).filter fun a : Nat => (n : Int) ∣ a + m).card ≤ 1 :=
      card_le_one_solve (fun a : Nat => (n : Int) ∣ a + m) fun a ha b hb h1 h2 => eq_of_dvd_sub ha hb (by
        have := dvd_sub h1 h2; rwa [show (a : Int) + m - (b + m) = a - b by ring] at this)
    have c3 : ((Finset.range n).filter fun a : Nat => (n : Int) ∣ m * a - 1).card ≤ 1 :=
      card_le_one_solve (fun a : Nat => (n : Int) ∣ m * a - 1) fun a ha b hb h1 h2 => unit 1 ha hb h1 h2 (by norm_num)
    have c4 : ((Finset.range n).filter fun a : Nat => (n : Int) ∣ m * a + 1).card ≤ 1 :=
      card_le_one_solve (fun a : Nat => (n : Int) ∣ m * a + 1) fun a ha b hb h1 h2 => unit (-1) ha hb (by rwa [sub_neg_eq_add]) (by rwa [sub_neg_eq_add]) (by norm_num)
    refine (Finset.card_union_le _ _).trans ?_
    refine (Nat.add_le_add_right (Finset.card_union_le _ _) _).trans ?_
    have := Finset.card_union_le ((Finset.range n).filter fun a : Nat => (n : Int) ∣ a - m)
      ((Finset.range n).filter fun a : Nat => (n : Int) ∣ a + m)
    omega
  have hsub : ((Finset.range n).filter fun a => ¬AxisFree n P (a • P)) ⊆
      {0} ∪ (Finset.range (L + 2)).biUnion fun t => bad (n >>> t) ∪ bad (2 * (n >>> (t + 1))) := by
    intro a ha
    rw [Finset.mem_filter, Finset.mem_range, C39_free_iff ho] at ha
    obtain ⟨hlt, ha⟩ := ha
    by_cases h0 : (n : Int) ∣ a
    · rw [Finset.mem_union, Finset.mem_singleton]
      exact Or.inl (Nat.eq_zero_of_dvd_of_lt (by exact_mod_cast h0) hlt)
    · have hex : ∃ m : Nat, InChain n m ∧ a ∈ bad m := by
        by_contra hc
        refine ha ⟨h0, fun m hm => ?_⟩
        have hb : a ∉ bad m := fun h => hc ⟨m, hm, h⟩
        simp only [bad, Finset.mem_union, Finset.mem_filter, Finset.mem_range, not_or, not_and] at hb
        exact ⟨hb.1.1.1 hlt, hb.1.1.2 hlt, hb.1.2 hlt, hb.2 hlt⟩
      obtain ⟨m, ⟨t, ht⟩, hm⟩ := hex
      rw [Finset.mem_union, Finset.mem_biUnion]
      right
      by_cases hl : t < L + 2
      · refine ⟨t, Finset.mem_range.mpr hl, Finset.mem_union.mpr ?_⟩
        rcases ht with rfl | rfl
        · exact Or.inl hm
        · exact Or.inr hm
      · have zero : ∀ s, L + 1 ≤ s → n >>> s = 0 := fun s hs => by
          rw [Nat.shiftRight_eq_div_pow]
          exact Nat.div_eq_of_lt (lt_of_lt_of_le Nat.lt_log2_self (Nat.pow_le_pow_right (by norm_num) hs))
        have m0 : m = n >>> (L + 1) := by
          rw [zero (L + 1) le_rfl]
          rw [zero t (by omega), zero (t + 1) (by omega)] at ht
          omega
        exact ⟨L + 1, Finset.mem_range.mpr (by omega), Finset.mem_union.mpr (Or.inl (m0 ▸ hm))⟩
  refine (Finset.card_le_card hsub).trans ((Finset.card_union_le _ _).trans ?_)
  have h8 : ((Finset.range (L + 2)).biUnion fun t => bad (n >>> t) ∪ bad (2 * (n >>> (t + 1)))).card ≤ (L + 2) * 8 := by
    refine (Finset.card_biUnion_le_card_mul _ _ 8 fun t _ => ?_).trans (by rw [Finset.card_range])
    have := Finset.card_union_le (bad (n >>> t)) (bad (2 * (n >>> (t + 1))))
    have h1 := hbad (n >>> t)
    have h2 := hbad (2 * (n >>> (t + 1)))
    omega
  rw [Finset.card_singleton]
  omega

/-- A point of order 169, as in the small version of the scheme: `135 P` is excluded, because 5 is met by the chain of 169 and
`5 · 135 = -1`, and `3 P` is not. -/
example : ¬AxisFree 169 (1 : ZMod 169) (135 • (1 : ZMod 169)) ∧ AxisFree 169 (1 : ZMod 169) (3 • (1 : ZMod 169)) := by
  have ho : addOrderOf (1 : ZMod 169) = 169 := ZMod.addOrderOf_one 169
  rw [C39_free_iff ho, C39_free_iff ho]
  constructor
  · intro h
    exact (h.2 5 ⟨5, Or.inl (by decide)⟩).2.2.2 (by norm_num)
  · refine ⟨by norm_num, ?_⟩
    rintro m ⟨t, ht⟩
    have key : ∀ t < 9, ∀ m ∈ [169 >>> t, 2 * (169 >>> (t + 1))], ¬(169 : Int) ∣ 3 - (m : Nat) ∧ ¬(169 : Int) ∣ 3 + (m : Nat) ∧
        ¬(169 : Int) ∣ (m : Nat) * 3 - 1 ∧ ¬(169 : Int) ∣ (m : Nat) * 3 + 1 := by decide +kernel
    by_cases hl : t < 9
    · have := key t hl m (by rcases ht with rfl | rfl <;> simp)
      exact_mod_cast this
    · have zero : ∀ s, 8 ≤ s → 169 >>> s = 0 := fun s hs => by
        rw [Nat.shiftRight_eq_div_pow]
        exact Nat.div_eq_of_lt (lt_of_lt_of_le (by norm_num) (Nat.pow_le_pow_right (by norm_num) hs))
      have := key 8 (by norm_num) m (by
        rw [zero t (by omega), zero (t + 1) (by omega)] at ht
        rw [zero 8 (by norm_num), zero 9 (by norm_num)]
        simpa using ht)
      exact_mod_cast this

/-- `canonical_kernel` for a kernel on the first axis (`s = 0`), generated by `5 P`: as 5 and its inverse 12 are not met by the
chain of 59, the value 0 is returned. -/
example : ∃ x, canonicalKernel true e59 x x [(59, 1)] p59 q59 = some 0 := by
  obtain ⟨P, hp⟩ := p59_ex
  obtain ⟨Q, hq⟩ := q59_ex
  have hb := basis59 hp hq
  have hv : Factored.value [(59, 1)] = 59 := by decide
  obtain ⟨x, hx⟩ := exists_prep (5 • P)
  have ho : addOrderOf (5 • P) = 59 := by
    rw [addOrderOf_nsmul' _ (by norm_num), hb.order_left]; rfl
  have key : ∀ t < 7, ∀ m ∈ [59 >>> t, 2 * (59 >>> (t + 1))], ¬(59 : Int) ∣ 5 - (m : Nat) ∧ ¬(59 : Int) ∣ 5 + (m : Nat) ∧
      ¬(59 : Int) ∣ (m : Nat) * 5 - 1 ∧ ¬(59 : Int) ∣ (m : Nat) * 5 + 1 := by decide +kernel
  have hfree : AxisFree 59 P (5 • P) := by
    rw [C39_free_iff hb.order_left]
    refine ⟨by norm_num, ?_⟩
    rintro m ⟨t, ht⟩
    by_cases hl : t < 7
    · have := key t hl m (by rcases ht with rfl | rfl <;> simp)
      exact_mod_cast this
    · have zero : ∀ s, 6 ≤ s → 59 >>> s = 0 := fun s hs => by
        rw [Nat.shiftRight_eq_div_pow]
        exact Nat.div_eq_of_lt (lt_of_lt_of_le (by norm_num) (Nat.pow_le_pow_right (by norm_num) hs))
      have := key 6 (by norm_num) m (by
        rw [zero t (by omega), zero (t + 1) (by omega)] at ht
        rw [zero 6 (by norm_num), zero 7 (by norm_num)]
        simpa using ht)
      exact_mod_cast this
  have hcl : AddSubgroup.closure {5 • P, 5 • P} = AddSubgroup.zmultiples (P + 0 • Q) := by
    rw [Set.pair_eq_singleton, ← AddSubgroup.zmultiples_eq_closure, zero_nsmul, add_zero]
    apply le_antisymm <;> rw [AddSubgroup.zmultiples_le]
    · exact AddSubgroup.nsmul_mem_zmultiples P 5
    · refine AddSubgroup.mem_zmultiples_iff.mpr ⟨12, ?_⟩
      have h59 : 59 • P = 0 := hb.nsmul_left
      have : (12 : Int) • 5 • P = 59 • P + P := by abel
      rw [this, h59, zero_add]
  have := C43_cyclic_partial e59_good true [(59, 1)] ok59 (by rw [hv]; exact hb) hp hq hx hx 0 hcl
    (by rw [hv]; exact hfree) (by rw [hv]; exact hfree)
    (by rw [hv]; exact C44_chain (by decide) ho) (by rw [hv]; exact C44_chain (by decide) ho)
  exact ⟨x, this⟩

end Festa

import Verif.Spec.Keys
import Verif.Lemmas.DiagB
import Verif.Lemmas.IsogenyChain
import Verif.Lemmas.WeilStep
import Verif.Lemmas.WeilNondeg
import Verif.Lemmas.TorsionSpan
/-! Lemmas on groups and isogenies for the correctness of the scheme. -/
namespace Festa

section
variable {H H' : Type*} [AddCommGroup H] [AddCommGroup H']

theorem IsBasis.map {φ : H →+ H'} {n : Nat}
    (hk : ∀ S, n • S = 0 → φ S = 0 → S = 0) {P Q : H} (hb : IsBasis n P Q) :
    IsBasis n (φ P) (φ Q) := by
  intro a b
  rw [← map_zsmul, ← map_zsmul, ← map_add, ← hb a b]
  constructor
  · intro h
    refine hk _ ?_ h
    rw [smul_add, smul_comm, hb.nsmul_left, smul_comm, hb.nsmul_right, smul_zero, smul_zero, add_zero]
  · intro h; rw [h, map_zero]

theorem closure_pair_eq (U V : H) :
    AddSubgroup.closure {U, V} = AddSubgroup.zmultiples U ⊔ AddSubgroup.zmultiples V := by
  rw [Set.insert_eq, AddSubgroup.closure_union, ← AddSubgroup.zmultiples_eq_closure,
    ← AddSubgroup.zmultiples_eq_closure]

theorem zmultiples_unit {d k : Nat} {U : H} (hU : d • U = 0) (hk : k.Coprime d) :
    AddSubgroup.zmultiples (k • U) = AddSubgroup.zmultiples U := by
  apply le_antisymm
  · rw [AddSubgroup.zmultiples_le]
    exact AddSubgroup.nsmul_mem_zmultiples U k
  · rw [AddSubgroup.zmultiples_le]
    obtain ⟨u, v, h⟩ := Nat.isCoprime_iff_coprime.mpr hk
    refine AddSubgroup.mem_zmultiples_iff.mpr ⟨u, ?_⟩
    calc u • k • U = (u * k + v * d : Int) • U := by
          rw [add_zsmul, mul_zsmul, mul_zsmul, natCast_zsmul, natCast_zsmul, hU, zsmul_zero, add_zero]
      _ = U := by rw [h, one_zsmul]

theorem closure_units {d k : Nat} {U V X Y : H} (hU : d • U = 0) (hV : d • V = 0) (hk : k.Coprime d)
    (hX : X = k • U ∨ X = -(k • U)) (hY : Y = k • V ∨ Y = -(k • V)) :
    AddSubgroup.closure {X, Y} = AddSubgroup.closure {U, V} := by
  have e : ∀ {T Z : H}, d • T = 0 → (Z = k • T ∨ Z = -(k • T)) →
      AddSubgroup.zmultiples Z = AddSubgroup.zmultiples T := by
    rintro T Z hT (rfl | rfl)
    · exact zmultiples_unit hT hk
    · rw [AddSubgroup.zmultiples_neg]; exact zmultiples_unit hT hk
  rw [closure_pair_eq, closure_pair_eq, e hU hX, e hV hY]

theorem map_closure_pair (f : H →+ H') (U V K : H)
    (h : AddSubgroup.closure {U, V} = AddSubgroup.zmultiples K) :
    AddSubgroup.closure {f U, f V} = AddSubgroup.zmultiples (f K) := by
  have := congrArg (AddSubgroup.map f) h
  rwa [AddMonoidHom.map_closure, AddMonoidHom.map_zmultiples, Set.image_pair] at this

/-- The dual isogeny takes a basis of the points killed by the degree to generators of the kernel. -/
theorem dual_closure {n d s : Nat} (hd : 1 ≤ d) (hdn : d ∣ n) {φ : H →+ H'} {ψ : H' →+ H} {P Q : H}
    (hb : IsBasis d P Q) (span : ∀ X, d • X = 0 → ∃ a b : Int, X = a • P + b • Q)
    (hk : ∀ X, φ X = 0 ↔ X ∈ AddSubgroup.zmultiples (P + s • Q)) (hD : DualOn n d φ ψ) {X Y : H'}
    (hb' : IsBasis d X Y) :
    AddSubgroup.closure {ψ X, ψ Y} = AddSubgroup.zmultiples (P + s • Q) := by
  have tn : ∀ Z : H', d • Z = 0 → n • Z = 0 := by
    rintro Z hZ
    obtain ⟨c, rfl⟩ := hdn
    rw [mul_comm, mul_nsmul', hZ, nsmul_zero]
  have mem : ∀ Z : H', d • Z = 0 → ∃ a : Int, a • (P + s • Q) = ψ Z := by
    intro Z hZ
    refine AddSubgroup.mem_zmultiples_iff.mp ((hk _).mp ?_)
    rw [hD.right Z (tn Z hZ), hZ]
  have kerm : ∀ Z : H', d • Z = 0 → ψ Z = 0 → ∃ b : Int, Z = b • φ Q := by
    intro Z hZ h0
    obtain ⟨W, hW, rfl⟩ := hD.ker Z (tn Z hZ) h0
    obtain ⟨a, b, rfl⟩ := span W hW
    refine ⟨b - a * s, ?_⟩
    have : φ (P + s • Q) = 0 := (hk _).mpr (AddSubgroup.mem_zmultiples _)
    have hP : φ P = -((s : Int) • φ Q) := by
      rw [eq_neg_iff_add_eq_zero, natCast_zsmul, ← map_nsmul, ← map_add, this]
    rw [map_add, map_zsmul, map_zsmul, hP, smul_neg, ← mul_zsmul, sub_zsmul]
    abel
  have tQ : d • φ Q = 0 := by rw [← map_nsmul, hb.nsmul_right, map_zero]
  have tK : (d : Int) • (P + s • Q) = 0 := by
    rw [natCast_zsmul, nsmul_add, smul_comm, hb.nsmul_left, hb.nsmul_right, nsmul_zero, add_zero]
  obtain ⟨a, ha⟩ := mem X hb'.nsmul_left
  obtain ⟨b, hb''⟩ := mem Y hb'.nsmul_right
  -- the coefficients have no prime factor in common with the degree
  have hg : Int.gcd (Int.gcd a b) d = 1 := by
    by_contra hne
    obtain ⟨r, hr, hrd⟩ := Nat.exists_prime_and_dvd hne
    have hrd' : r ∣ d := by
      have := hrd.trans (Nat.gcd_dvd_right _ _); simpa using this
    have hra : (r : Int) ∣ a := (Int.natCast_dvd_natCast.mpr (hrd.trans (Nat.gcd_dvd_left _ _))).trans
      (by simpa using Int.gcd_dvd_left a b)
    have hrb : (r : Int) ∣ b := (Int.natCast_dvd_natCast.mpr (hrd.trans (Nat.gcd_dvd_left _ _))).trans
      (by simpa using Int.gcd_dvd_right a b)
    obtain ⟨c, rfl⟩ := hrd'
    have hc : 1 ≤ c := Nat.pos_of_ne_zero (by rintro rfl; simp at hd)
    have kill : ∀ {Z : H'} {a : Int}, (r * c) • Z = 0 → (r : Int) ∣ a → a • (P + s • Q) = ψ Z →
        ∃ e : Int, c • Z = e • φ Q ∧ ∃ e' : Int, e = c * e' := by
      intro Z a tZ hra e
      obtain ⟨e1, h1⟩ := kerm (c • Z) (by rw [smul_comm, tZ, nsmul_zero]) (by
        obtain ⟨a', rfl⟩ := hra
        rw [map_nsmul, ← e, ← natCast_zsmul, ← mul_zsmul,
          show (c : Int) * (r * a') = a' * ((r * c : Nat) : Int) by push_cast; ring, mul_zsmul, tK, zsmul_zero])
      refine ⟨e1, h1, ?_⟩
      -- r kills c Z
      have h2 : ((r : Int) * e1) • φ Q = 0 := by
        rw [mul_zsmul, ← h1, natCast_zsmul, ← mul_nsmul', tZ]
      have h3 : φ (((r : Int) * e1) • Q) = 0 := by rw [map_zsmul, h2]
      obtain ⟨k, hk'⟩ := AddSubgroup.mem_zmultiples_iff.mp ((hk _).mp h3)
      have := (hb (-k) (r * e1 - k * s)).mp (by
        rw [sub_zsmul, ← hk', zsmul_add, mul_zsmul, natCast_zsmul, neg_zsmul]; abel)
      obtain ⟨k', hk1⟩ := (dvd_neg.mp this.1)
      obtain ⟨k'', hk2⟩ := this.2
      have hr0 : (r : Int) ≠ 0 := by exact_mod_cast hr.ne_zero
      refine ⟨k'' + k' * s, mul_left_cancel₀ hr0 ?_⟩
      push_cast at hk1 hk2
      rw [hk1] at hk2
      linear_combination hk2
    obtain ⟨e1, h1, f1, g1⟩ := kill hb'.nsmul_left hra ha
    obtain ⟨e2, h2, f2, g2⟩ := kill hb'.nsmul_right hrb hb''
    -- a relation between c X and c Y
    have rel : ∀ x y : Int, x * f1 + y * f2 = 0 → (r : Int) ∣ x ∧ (r : Int) ∣ y := by
      intro x y hxy
      have := (hb' (x * c) (y * c)).mp (by
        rw [mul_zsmul, mul_zsmul, natCast_zsmul, natCast_zsmul, h1, h2, ← mul_zsmul, ← mul_zsmul, ← add_zsmul,
          g1, g2, show x * (c * f1) + y * (c * f2) = c * (x * f1 + y * f2) by ring, hxy, mul_zero, zero_zsmul])
      have hc0 : (c : Int) ≠ 0 := by omega
      push_cast at this
      exact ⟨(mul_dvd_mul_iff_right hc0).mp this.1, (mul_dvd_mul_iff_right hc0).mp this.2⟩
    have hr1 : ¬(r : Int) ∣ 1 := by
      intro h; have := Int.le_of_dvd one_pos h; have := hr.two_le; omega
    by_cases hz : f1 = 0 ∧ f2 = 0
    · exact hr1 (rel 1 1 (by rw [hz.1, hz.2]; ring)).1
    · have hg0 : (Int.gcd f1 f2 : Int) ≠ 0 := by
        intro h
        rw [Int.natCast_eq_zero, Int.gcd_eq_zero_iff] at h
        exact hz h
      obtain ⟨x1, hx1⟩ := Int.gcd_dvd_left f1 f2
      obtain ⟨x2, hx2⟩ := Int.gcd_dvd_right f1 f2
      obtain ⟨d1, d2⟩ := rel x2 (-x1) (by
        calc x2 * f1 + -x1 * f2 = x2 * (Int.gcd f1 f2 * x1) + -x1 * (Int.gcd f1 f2 * x2) := by
              rw [← hx1, ← hx2]
          _ = 0 := by ring)
      have bez := Int.gcd_eq_gcd_ab f1 f2
      rw [dvd_neg] at d2
      apply hr1
      have : (Int.gcd f1 f2 : Int) * 1 = Int.gcd f1 f2 * (x1 * Int.gcdA f1 f2 + x2 * Int.gcdB f1 f2) := by
        rw [mul_one, mul_add, ← mul_assoc, ← mul_assoc, ← hx1, ← hx2]
        exact bez
      rw [mul_left_cancel₀ hg0 this]
      exact dvd_add (d2.mul_right _) (d1.mul_right _)
  apply le_antisymm
  · rw [AddSubgroup.closure_le]
    rintro Z (rfl | rfl)
    · rw [← ha]; exact AddSubgroup.zsmul_mem_zmultiples _ _
    · rw [← hb'']; exact AddSubgroup.zsmul_mem_zmultiples _ _
  · rw [AddSubgroup.zmultiples_le, closure_pair_eq]
    have b1 := Int.gcd_eq_gcd_ab a b
    have b2 := Int.gcd_eq_gcd_ab (Int.gcd a b) d
    rw [hg] at b2
    have : P + s • Q = (a * (Int.gcdA a b * Int.gcdA (Int.gcd a b) d)) • (P + s • Q) +
        (b * (Int.gcdB a b * Int.gcdA (Int.gcd a b) d)) • (P + s • Q) := by
      have e : (1 : Int) = a * (Int.gcdA a b * Int.gcdA (Int.gcd a b) d) +
          b * (Int.gcdB a b * Int.gcdA (Int.gcd a b) d) + Int.gcdB (Int.gcd a b) d * d := by
        calc (1 : Int) = _ := b2
          _ = _ := by rw [b1]; ring
      have t : (Int.gcdB (Int.gcd a b) d * d) • (P + s • Q) = 0 := by rw [mul_zsmul, tK, zsmul_zero]
      conv_lhs => rw [← one_zsmul (P + s • Q), e, add_zsmul, t, add_zero, add_zsmul]
    rw [this, mul_comm a, mul_comm b, mul_zsmul _ _ a, mul_zsmul _ _ b, ha, hb'']
    exact AddSubgroup.add_mem_sup (AddSubgroup.zsmul_mem_zmultiples _ _) (AddSubgroup.zsmul_mem_zmultiples _ _)

/-- Sums of bases of coprime orders. -/
theorem IsBasis.sum {m n : Nat} (hco : m.Coprime n) {P Q P' Q' : H} (h : IsBasis m P Q)
    (h' : IsBasis n P' Q') : IsBasis (m * n) (P + P') (Q + Q') := by
  refine IsBasis.mul hco ?_ ?_
  · rw [nsmul_add, nsmul_add, h.nsmul_left, h.nsmul_right, zero_add, zero_add]
    exact h'.smul_unit hco
  · rw [nsmul_add, nsmul_add, h'.nsmul_left, h'.nsmul_right, add_zero, add_zero]
    exact h.smul_unit hco.symm

end

section
variable {K : Type*} [Field K] [DecidableEq K] [RootOps K] {E E' E'' : Crv K}

theorem IsIsog.good {φ : MPoint E.A →+ MPoint E'.A} {d : Nat} (h : IsIsog φ d) : E.Good ∧ E'.Good := by
  obtain ⟨L, ψ, h, -, -⟩ := h
  exact h.good

theorem IsIsog.comp {φ : MPoint E.A →+ MPoint E'.A} {ψ : MPoint E'.A →+ MPoint E''.A} {d d' : Nat}
    (h : IsIsog φ d) (h' : IsIsog ψ d') : IsIsog (ψ.comp φ) (d * d') := by
  obtain ⟨L, f, h1, h2, h3⟩ := h
  obtain ⟨L', f', h1', h2', h3'⟩ := h'
  refine ⟨L ++ L', f'.comp f, h1.append h1', by rw [List.map_append, List.prod_append, h2, h2'], ?_⟩
  rcases h3 with rfl | rfl <;> rcases h3' with rfl | rfl
  · exact Or.inl rfl
  · right; ext x; simp
  · right; ext x; simp
  · left; ext x; simp

theorem IsIsog.inj {φ : MPoint E.A →+ MPoint E'.A} {d n : Nat} (h : IsIsog φ d) (hn : 1 ≤ n)
    (ho : d % 2 = 1) (hc : n.Coprime d) : ∀ X, n • X = 0 → φ X = 0 → X = 0 := by
  obtain ⟨L, f, h1, rfl, h3⟩ := h
  intro X hX h0
  refine (h1.weil hn ho hc).1 X hX ?_
  rcases h3 with rfl | rfl
  · exact h0
  · simpa using h0

theorem IsIsog.weil {φ : MPoint E.A →+ MPoint E'.A} {d n : Nat} (h : IsIsog φ d) (hn : 2 ≤ n)
    (ho : d % 2 = 1) (hc : n.Coprime d) {P Q : MPoint E.A} (hb : IsBasis n P Q) :
    we n (φ P) (φ Q) = we n P Q ^ d := by
  have hb' := hb.map (h.inj (by omega) ho hc)
  obtain ⟨L, f, h1, rfl, h3⟩ := h
  have := (h1.weil (by omega) ho hc).2 (hb.nd hn) hb.nsmul_left hb.nsmul_right
  rcases h3 with rfl | rfl
  · exact this
  · have e := we_neg_neg (by omega) (hb'.nd hn) hb'.nsmul_left hb'.nsmul_right
    simp only [AddMonoidHom.neg_apply, neg_neg] at e ⊢
    rw [← e]
    exact this

omit [RootOps K] in
/-- The pairing of the multiples of a basis by a unit. -/
theorem IsBasis.we_smul (hE : E.Good) {n g : Nat} (hn : 2 ≤ n) (hg : g.Coprime n) {P Q : MPoint E.A}
    (hb : IsBasis n P Q) : we n (g • P) (g • Q) = we n P Q ^ (g * g) := by
  have hb1 : IsBasis n P (g • Q) := by
    intro a b
    have := hb a (b * g)
    rw [mul_zsmul, natCast_zsmul] at this
    rw [this]
    have hco : IsCoprime (n : Int) g := (Nat.isCoprime_iff_coprime.mpr hg).symm
    exact and_congr_right fun _ => ⟨hco.dvd_of_dvd_mul_right, fun h => h.mul_right _⟩
  have unit : ∀ {X Y : MPoint E.A}, IsBasis n X Y → we n Y (g • X) = we n Y X ^ g := by
    intro X Y h
    have h1 := (h.we_eq hE.two hE.disc hn (g % n) 0 (Nat.pos_of_ne_zero fun h0 => by
      have : n ∣ g := Nat.dvd_of_mod_eq_zero h0
      have := Nat.Coprime.eq_one_of_dvd hg.symm this
      omega) (Nat.mod_lt _ (by omega)))
    have e : (g % n) • X = g • X := by
      conv_rhs => rw [← Nat.mod_add_div g n]
      rw [add_nsmul, mul_comm, mul_nsmul', h.nsmul_left, nsmul_zero, add_zero]
    rw [zero_nsmul, add_zero, e] at h1
    rw [h1.1]
    conv_rhs => rw [← Nat.mod_add_div g n, pow_add, pow_mul, h1.2, one_pow, mul_one]
  have s1 := unit hb.symm
  have s2 := unit hb1
  have nd := (hb.smul_unit hg).nd hn
  have nd1 := hb1.nd hn
  have k1 := we_symm (by omega : 1 ≤ n) nd
  have k2 := we_symm (by omega : 1 ≤ n) nd1
  rw [s2] at k1
  rw [pow_mul, ← s1]
  have h0 : we n (g • Q) P ≠ 0 := we_ne (by omega) nd1.symm
  have : we n P (g • Q) ^ g * we n (g • Q) P ^ g = 1 := by rw [← mul_pow, k2, one_pow]
  have hp : we n (g • Q) P ^ g ≠ 0 := pow_ne_zero _ h0
  exact mul_right_cancel₀ hp (k1.trans this.symm)

end
end Festa

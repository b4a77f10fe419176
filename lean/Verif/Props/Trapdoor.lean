import Verif.Spec.TestField239
import Verif.Props.Consts
import Verif.Props.Festa
import Verif.Props.Supersingular
/-!
Property C54: inverting the trapdoor function.
-/
namespace Festa

/-! ### The precomputed values -/

theorem inv_modEq {a b r : Nat} (hb : 1 < b) (hc : Nat.Coprime a b) (h : xgcdBig a b = some r) :
    r * a ≡ 1 [MOD b] := by
  obtain ⟨r', h1, -, h2, -⟩ := C34_inverse a b hb hc
  rw [h, Option.some.injEq] at h1
  subst h1
  rw [mul_comm]
  show a * r % b = 1 % b
  rw [h2, Nat.mod_eq_of_lt hb]

theorem festa_ok1 (chk : Bool) : Factored.Ok chk festaConsts.f1 := by
  have hm : festaConsts.f1.map (fun p => p.1.toNat) = D1_FACTORED.map Prod.fst := by decide +kernel
  refine ⟨⟨fun p hp => C02_scheme.primes _ ?_, by decide +kernel⟩, by decide +kernel, fun _ => by decide +kernel⟩
  have : p.1.toNat ∈ D1_FACTORED.map Prod.fst := hm ▸ List.mem_map_of_mem hp
  rw [List.map_append, List.map_append, List.mem_append, List.mem_append]
  exact Or.inl (Or.inl this)

theorem festa_ok2 (chk : Bool) : Factored.Ok chk festaConsts.f2 := by
  have hm : festaConsts.f2.map (fun p => p.1.toNat) = D2_FACTORED.map Prod.fst := by decide +kernel
  refine ⟨⟨fun p hp => C02_scheme.primes _ ?_, by decide +kernel⟩, by decide +kernel, fun _ => by decide +kernel⟩
  have : p.1.toNat ∈ D2_FACTORED.map Prod.fst := hm ▸ List.mem_map_of_mem hp
  rw [List.map_append, List.map_append, List.mem_append, List.mem_append]
  exact Or.inl (Or.inr this)

theorem two_pow_coprime {a e : Nat} (h : a % 2 = 1) : Nat.Coprime a (2 ^ e) :=
  Nat.Coprime.pow_right _ (Nat.coprime_two_right.mpr (Nat.odd_iff.mpr h))

/-- Whatever the field, the numbers computed by `FESTACrypto::new` from the constants of the code are
right, and the starting curve has `A = 6`. -/
theorem C54_setup {F K : Type} [Field F] [DecidableEq F] [Field K] [DecidableEq K] [RootOps K]
    [CoeffOps F K] (chk : Bool) (fuel : Nat) (S : Crypto K)
    (h : Crypto.new (F := F) chk fuel festaConsts = some S) :
    S.Sound chk ∧ S.c = festaConsts ∧ S.E0.A = 6 ∧ S.E0.Good := by
  have l1 : 1 < 2 ^ festaConsts.lPower.toNat := Nat.one_lt_two_pow (by decide)
  have o1 : festaConsts.d1 % 2 = 1 := by decide +kernel
  have o2 : festaConsts.d2 % 2 = 1 := by decide +kernel
  have om : festaConsts.m1 % 2 = 1 := by decide +kernel
  have og : (festaConsts.m2 * festaConsts.dA2 * festaConsts.d2) % 2 = 1 := by decide +kernel
  have ok : (festaConsts.d1 * (festaConsts.d1 * festaConsts.d2) * festaConsts.m1) % 2 = 1 := by decide +kernel
  have b2 : 1 < festaConsts.d2 := by decide +kernel
  have cop : Nat.Coprime festaConsts.d1 festaConsts.d2 := by decide +kernel
  have c1 : Nat.Coprime festaConsts.m1 festaConsts.d2 := by decide +kernel
  have c2 : Nat.Coprime festaConsts.m2 festaConsts.d1 := by decide +kernel
  have v1 : festaConsts.d1 = (festaConsts.f1.map fun q => q.1.toNat ^ q.2.toNat).prod := by decide +kernel
  have v2 : festaConsts.d2 = (festaConsts.f2.map fun q => q.1.toNat ^ q.2.toNat).prod := by decide +kernel
  have k1 := festa_ok1 chk
  have k2 := festa_ok2 chk
  have lp : 2 ≤ festaConsts.lPower.toNat := by decide
  generalize festaConsts = c at *
  unfold Crypto.new at h
  simp only [Option.bind_eq_bind, Option.bind_eq_some_iff] at h
  obtain ⟨E0, hE, x1, hx1, x2, hx2, x3, hx3, ⟨Pb, Qb⟩, -, ⟨Pd1, Qd1⟩, -, x4, hx4, x5, hx5, h⟩ := h
  rw [Option.some.injEq] at h
  subst h
  obtain ⟨eA, eG, -⟩ := (C60_curve_new RootOps.two_ne (2 + 4 : K)).2 _ hE
  refine ⟨?_, rfl, by show E0.A = 6; rw [eA]; norm_num, eG⟩
  refine ⟨rfl, lp, k1, k2, v1, v2, rfl, o1, o2, om, cop, c1, c2, inv_modEq l1 (two_pow_coprime ok) hx4,
    ⟨inv_modEq l1 (two_pow_coprime o1) hx1, dvd_mul_left _ _⟩,
    ⟨inv_modEq l1 (two_pow_coprime o2) hx2, dvd_mul_left _ _⟩,
    ⟨inv_modEq b2 (two_pow_coprime o2).symm hx3, dvd_mul_left _ _⟩, ?_⟩
  have := (inv_modEq l1 (two_pow_coprime og) hx5).mul_left (c.m1 * c.d1)
  rw [mul_one] at this
  show c.m1 * c.d1 * x5 * (c.m2 * c.dA2 * c.d2) ≡ c.m1 * c.d1 [MOD 2 ^ c.lPower.toNat]
  rwa [mul_assoc]

/-- For the two orders of the code the Miller loop can meet infinity only for points killed by one of a
few small numbers. -/
theorem C54_chain_free {H : Type*} [AddCommGroup H] (X : H) :
    (festaConsts.d1 • X = 0 → (∀ m ∈ [57, 81, 261, 419, 747, 5143], m • X ≠ 0) →
      ChainFree festaConsts.d1 X) ∧
    (festaConsts.d2 • X = 0 → (∀ m ∈ [25, 55, 65, 71, 77, 119, 205, 245, 301, 1157], m • X ≠ 0) →
      ChainFree festaConsts.d2 X) := by
  have key : ∀ (n : Nat) (L : List Nat), n • X = 0 → (∀ m ∈ L, m • X ≠ 0) →
      (∀ t < Nat.log2 n, ∃ m ∈ L, Nat.gcd (n >>> (t + 1)) n ∣ m ∧ Nat.gcd (2 * (n >>> (t + 1))) n ∣ m) →
      ChainFree n X := by
    intro n L hn hL h t h1 h2
    obtain ⟨m, hm, g1, g2⟩ := h (t - 1) (by omega)
    rw [Nat.sub_add_cancel h1] at g1 g2
    have kill : ∀ k, Nat.gcd k n ∣ m → k • X ≠ 0 := by
      intro k hk h0
      apply hL m hm
      have : addOrderOf X ∣ m := (Nat.dvd_gcd (addOrderOf_dvd_iff_nsmul_eq_zero.mpr h0)
        (addOrderOf_dvd_iff_nsmul_eq_zero.mpr hn)).trans hk
      exact addOrderOf_dvd_iff_nsmul_eq_zero.mp this
    exact ⟨kill _ g1, fun _ => kill _ g2⟩
  exact ⟨fun h1 h2 => key _ _ h1 h2 (by decide +kernel), fun h1 h2 => key _ _ h1 h2 (by decide +kernel)⟩

/-- For instance points of these orders. -/
example : festaConsts.d1 • (1 : ZMod festaConsts.d1) = 0 ∧
    ∀ m ∈ [57, 81, 261, 419, 747, 5143], m • (1 : ZMod festaConsts.d1) ≠ 0 := by
  refine ⟨by simp, fun m hm => ?_⟩
  rw [nsmul_eq_mul, mul_one, Ne, ZMod.natCast_eq_zero_iff]
  revert m
  decide +kernel

/-! ### C63 -/

/-- C63: whatever is drawn, the generated input satisfies the requirements of `C54_recover_partial`. -/
theorem C63_generated (c : Consts) (hl : 2 ≤ c.lPower.toNat) (s1 s2 r : Nat) (h1 : s1 < c.d1)
    (h2 : s2 < c.d2) (hr : r < 2 ^ (c.lPower.toNat - 1)) :
    ∃ m, genInput c s1 s2 r = some m ∧ m.s1 < c.d1 ∧ m.s2 < c.d2 ∧ m.b11 % 2 = 1 ∧
      m.b11 < 2 ^ c.lPower.toNat / 2 ∧ m.b22 < 2 ^ c.lPower.toNat ∧
      m.b11 * m.b22 % 2 ^ c.lPower.toNat = 1 := by
  have hodd : (r ||| 1) % 2 = 1 := by rw [Nat.or_mod_two_eq_one]; simp
  obtain ⟨x, e1, e2, e3, -⟩ := odd_inv_two_pow (e := c.lPower.toNat) (by omega) hodd
  have hlt : r ||| 1 < 2 ^ (c.lPower.toNat - 1) :=
    Nat.or_lt_two_pow hr (Nat.one_lt_two_pow (by omega))
  have hh : 2 ^ c.lPower.toNat / 2 = 2 ^ (c.lPower.toNat - 1) := by
    conv_lhs => rw [← Nat.sub_add_cancel (show 1 ≤ c.lPower.toNat by omega), pow_succ]
    omega
  refine ⟨⟨s1, s2, r ||| 1, x % 2 ^ c.lPower.toNat⟩, ?_, h1, h2, hodd, by rw [hh]; exact hlt,
    Nat.mod_lt _ (by positivity), ?_⟩
  · unfold genInput
    simp only [e1]
  · show (r ||| 1) * (x % 2 ^ c.lPower.toNat) % 2 ^ c.lPower.toNat = 1
    rw [Nat.mod_eq_of_lt e2, e3]

/-- And every such input is the result for some draw. -/
theorem C63_every_input (c : Consts) (hl : 2 ≤ c.lPower.toNat) (m : TrapdoorInput) (h1 : m.s1 < c.d1)
    (h2 : m.s2 < c.d2) (ho : m.b11 % 2 = 1) (hb : m.b11 < 2 ^ c.lPower.toNat / 2)
    (hb2 : m.b22 < 2 ^ c.lPower.toNat) (hi : m.b11 * m.b22 % 2 ^ c.lPower.toNat = 1) :
    ∃ s1 s2 r, s1 < c.d1 ∧ s2 < c.d2 ∧ r < 2 ^ (c.lPower.toNat - 1) ∧ genInput c s1 s2 r = some m := by
  have hh : 2 ^ c.lPower.toNat / 2 = 2 ^ (c.lPower.toNat - 1) := by
    conv_lhs => rw [← Nat.sub_add_cancel (show 1 ≤ c.lPower.toNat by omega), pow_succ]
    omega
  have hor : m.b11 ||| 1 = m.b11 := by
    apply Nat.eq_of_testBit_eq
    intro i
    rw [Nat.testBit_or]
    rcases i with _ | i
    · simp [Nat.testBit_zero, ho]
    · simp [Nat.testBit_succ]
  have hl1 : 1 < 2 ^ c.lPower.toNat := Nat.one_lt_two_pow (by omega)
  obtain ⟨x, e1, e2, e3, e4⟩ := C34_inverse m.b11 (2 ^ c.lPower.toNat) hl1 (two_pow_coprime ho)
  have hx := e4 _ hb2 hi
  refine ⟨m.s1, m.s2, m.b11, h1, h2, hh ▸ hb, ?_⟩
  unfold genInput
  simp only [hor, e1]
  rw [Nat.mod_eq_of_lt e2, ← hx]

/-- A concrete case: the constants of the code. -/
example : ∃ m, genInput festaConsts 1 2 6 = some m ∧ m.b11 = 7 := by
  obtain ⟨m, h, -⟩ := C63_generated festaConsts (by decide) 1 2 6 (by decide +kernel) (by decide +kernel)
    (Nat.lt_of_lt_of_le (show 6 < 2 ^ 3 by norm_num) (Nat.pow_le_pow_right (by norm_num) (by decide)))
  refine ⟨m, h, ?_⟩
  unfold genInput at h
  dsimp only at h
  split at h
  · cases h
  · cases h; rfl

/-! ### Recovering the input -/

section
variable {K : Type} [Field K] [DecidableEq K]

/-- C54, the last part of the inversion: if `L1`, `L2` are the images of the two points under the
isogeny to `EA'`, that is, if
* `[d1 d2] L1` is the point `φA1(Pb)`, times `d1 · d1d2 · m1 · b11`, up to sign,
* `[l d2] L1` and `[l d2] L2` generate the group of `φA1(Pd1 + s1 Qd1)`,
* `[l d1] L1` and `[l d1] L2` generate the group of `P2 + s2 Q2`, the images of the basis on `EA`,
then `recover_si_and_B` returns `s1`, `s2`, `b11` and `b22`.  The signs of `L1` and `L2` do not matter.
Partial: the four points generating the groups must not be killed by the numbers met in the Miller loop
(`C54_chain_free`), and those that are multiples of the first basis point (for `s1 = 0`, `s2 = 0` all of them are) must meet
no zero in it. -/
theorem C54_recover_partial (chk : Bool) (S : Crypto K) (hS : S.Sound chk) {E : Crv K} (hE : E.Good)
    {l1 l2 p1 q1 p2 q2 : Pt K} {L1 L2 P1 Q1 P2 Q2 : MPoint E.A} (hl1 : PRep l1 L1) (hl2 : PRep l2 L2)
    (hp1 : PRep p1 P1) (hq1 : PRep q1 Q1) (hp2 : PRep p2 P2) (hq2 : PRep q2 Q2)
    (hb1 : IsBasis (S.l * S.d1) P1 Q1) (hb2 : IsBasis S.d2 P2 Q2)
    (m : TrapdoorInput) (hs1 : m.s1 < S.d1) (hs2 : m.s2 < S.d2) (hb11 : m.b11 % 2 = 1)
    (hlt : m.b11 < S.l / 2) (hb22 : m.b22 < S.l) (hinv : m.b11 * m.b22 % S.l = 1)
    (hL : S.d1d2 • L1 = ((S.d1 * S.d1d2 * S.c.m1) * m.b11) • (S.clearD1 • P1) ∨
      S.d1d2 • L1 = -(((S.d1 * S.d1d2 * S.c.m1) * m.b11) • (S.clearD1 • P1)))
    (hK1 : AddSubgroup.closure {S.d2 • (S.l • L1), S.d2 • (S.l • L2)} =
      AddSubgroup.zmultiples (S.l • P1 + m.s1 • (S.l • Q1)))
    (hK2 : AddSubgroup.closure {S.d1 • (S.l • L1), S.d1 • (S.l • L2)} =
      AddSubgroup.zmultiples (P2 + m.s2 • Q2))
    (hax1 : ∀ L ∈ [L1, L2], AxisFree S.d1 (S.l • P1) (S.d2 • (S.l • L)))
    (hax2 : ∀ L ∈ [L1, L2], AxisFree S.d2 P2 (S.d1 • (S.l • L)))
    (hc1 : ∀ L ∈ [L1, L2], ChainFree S.d1 (S.d2 • (S.l • L)))
    (hc2 : ∀ L ∈ [L1, L2], ChainFree S.d2 (S.d1 • (S.l • L))) :
    S.recoverSiAndB chk E l1 l2 p1 q1 p2 q2 = some m := by
  have hv1 : S.c.f1.value = S.d1 := by rw [hS.d1_eq, value_eq]
  have hv2 : S.c.f2.value = S.d2 := by rw [hS.d2_eq, value_eq]
  have hlpos : 0 < S.l := by rw [hS.l_eq]; positivity
  have hd1pos : 0 < S.d1 := by have := hS.odd1; omega
  obtain ⟨a1, e1, r1⟩ := C27_mul_big hE hl1 S.l
  obtain ⟨a2, e2, r2⟩ := C27_mul_big hE hl2 S.l
  obtain ⟨a3, e3, r3⟩ := C27_mul_big hE hl1 S.d1d2
  obtain ⟨a4, e4, r4⟩ := C27_mul_big hE r1 S.d2
  obtain ⟨a5, e5, r5⟩ := C27_mul_big hE r2 S.d2
  obtain ⟨a6, e6, r6⟩ := C27_mul_big hE r1 S.d1
  obtain ⟨a7, e7, r7⟩ := C27_mul_big hE r2 S.d1
  obtain ⟨a8, e8, r8⟩ := C27_mul_big hE hp1 S.clearD1
  obtain ⟨a9, e9, r9⟩ := C27_mul_big hE hq1 S.clearD1
  obtain ⟨a10, e10, r10⟩ := C27_mul_big hE hp1 S.l
  obtain ⟨a11, e11, r11⟩ := C27_mul_big hE hq1 S.l
  have bl : IsBasis S.d1 (S.l • P1) (S.l • Q1) := hb1.nsmul hlpos
  have bd : IsBasis S.l (S.clearD1 • P1) (S.clearD1 • Q1) := by
    obtain ⟨h1, c, hc⟩ := hS.clear1
    have hb : IsBasis S.l (S.d1 • P1) (S.d1 • Q1) := IsBasis.nsmul (by rwa [mul_comm] at hb1) hd1pos
    have hcop : Nat.Coprime c S.l := by
      have : Nat.Coprime S.clearD1 S.l := by
        have := h1.gcd_eq
        rw [Nat.gcd_one_left] at this
        exact this
      rw [hc] at this
      exact this.coprime_mul_left
    rw [hc, mul_comm, mul_nsmul', mul_nsmul']
    exact hb.smul_unit hcop
  have k1 := C43_cyclic_partial hE chk S.c.f1 hS.ok1 (by rw [hv1]; exact bl) r10 r11 r4 r5 m.s1 hK1
    (by rw [hv1]; exact hax1 L1 (by simp)) (by rw [hv1]; exact hax1 L2 (by simp)) (by rw [hv1]; exact hc1 L1 (by simp))
    (by rw [hv1]; exact hc1 L2 (by simp))
  have k2 := C43_cyclic_partial hE chk S.c.f2 hS.ok2 (by rw [hv2]; exact hb2) hp2 hq2 r6 r7 m.s2 hK2
    (by rw [hv2]; exact hax2 L1 (by simp)) (by rw [hv2]; exact hax2 L2 (by simp)) (by rw [hv2]; exact hc2 L1 (by simp))
    (by rw [hv2]; exact hc2 L2 (by simp))
  rw [hv1, Nat.mod_eq_of_lt hs1] at k1
  rw [hv2, Nat.mod_eq_of_lt hs2] at k2
  obtain ⟨b', k3, k4, k5⟩ := C53_recover chk S hS.l_eq hS.l_big _ hS.inv hE m.b11 hb11 hlt bd r8 r9
    (r := a3) (by rcases hL with h | h <;> rw [h] at r3 <;> simp [r3])
  have hb' : b' = m.b22 := by
    have hcop : Nat.gcd S.l m.b11 = 1 := by
      rw [hS.l_eq]
      exact (two_pow_coprime hb11).symm
    have : m.b11 * b' ≡ m.b11 * m.b22 [MOD S.l] := k5.trans hinv.symm
    exact (this.cancel_left_of_coprime hcop).eq_of_lt_of_lt k4 hb22
  unfold Crypto.recoverSiAndB
  simp only [e1, e2, e3, e4, e5, e6, e7, e8, e9, e10, e11, k1, k2, k3, Option.bind_eq_bind, Option.bind_some, hb']

end

/-- The numbers of the small version are right. -/
theorem sound239 : crypto239.Sound true := by
  have pr3 : Nat.Prime 3 := by norm_num
  have pr5 : Nat.Prime 5 := by norm_num
  exact ⟨by decide, by decide,
    ⟨⟨by simpa [crypto239, consts239] using pr3, by decide⟩, by decide, fun _ => by decide⟩,
    ⟨⟨by simpa [crypto239, consts239] using pr5, by decide⟩, by decide, fun _ => by decide⟩,
    by decide, by decide, by decide, by decide, by decide, by decide, by decide, by decide, by decide,
    by decide, by decide, by decide, by decide, by decide⟩

theorem e239_good : e239.Good := ⟨by decide +kernel, by decide +kernel, by decide +kernel⟩

/-- The two points of the small version are a basis of order 240. -/
theorem basis239 : ∃ R S : MPoint e239.A, PRep r239 R ∧ PRep s239 S ∧ IsBasis 240 R S := by
  have hE := e239_good
  obtain ⟨R, hr⟩ := ((C28_on_curve hE r239).1).mp (by decide +kernel)
  obtain ⟨S, hs⟩ := ((C28_on_curve hE s239).1).mp (by decide +kernel)
  have nz : ∀ {p : Pt F239} {X : MPoint e239.A}, PRep p X → ∀ n : Nat,
      (e239.mulBig p n).map Pt.isInf = some false → n • X ≠ 0 := by
    intro p X h n hn h0
    obtain ⟨R, h1, h2⟩ := C27_mul_big hE h n
    rw [h1, Option.map_some, Option.some.injEq] at hn
    have := (isInf_false h2).mpr h0
    rw [hn] at this
    exact absurd this (by decide)
  have ne : ∀ m n : Nat, (e239.mulBig r239 m).bind (fun X => (e239.mulBig s239 n).map
      fun Y => X.equals Y) = some false → m • R ≠ n • S := by
    intro m n h h0
    obtain ⟨X, h1, h2⟩ := C27_mul_big hE hr m
    obtain ⟨Y, h3, h4⟩ := C27_mul_big hE hs n
    rw [h1, h3] at h
    simp only [Option.bind_some, Option.map_some, Option.some.injEq] at h
    rw [h0] at h2
    have h5 := (prep_equals h2 h4).mpr rfl
    rw [h] at h5
    exact absurd h5 (by decide)
  have zr : 240 • R = 0 := nsmul_eq_zero_of hE hr (by decide +kernel)
  have zs : 240 • S = 0 := nsmul_eq_zero_of hE hs (by decide +kernel)
  have prime : ∀ n : Nat, n.Prime → ∀ c, c * n = 240 → c • S ≠ 0 →
      (∀ k < n, c • R ≠ (c * k) • S) → IsBasis n (c • R) (c • S) := by
    intro n hn c hc h0 h1
    refine isBasis_prime hn (by rw [← mul_nsmul, hc, zr]) (by rw [← mul_nsmul, hc, zs]) h0 ?_
    intro h
    obtain ⟨k, hk⟩ := AddSubgroup.mem_zmultiples_iff.mp h
    have hn0 : (n : Int) ≠ 0 := by exact_mod_cast hn.ne_zero
    have g1 : 0 ≤ k % n := Int.emod_nonneg _ hn0
    have g2 : k % n < n := Int.emod_lt_of_pos _ (by exact_mod_cast hn.pos)
    apply h1 (k % n).toNat (by omega)
    rw [← hk, mul_nsmul, ← natCast_zsmul (c • S) (k % n).toNat, Int.toNat_of_nonneg g1]
    conv_lhs => rw [← Int.emod_add_mul_ediv k n, add_zsmul, mul_comm, mul_zsmul]
    rw [natCast_zsmul, ← mul_nsmul, hc, zs, zsmul_zero, add_zero]
  have b3 : IsBasis 3 (80 • R) (80 • S) := by
    refine prime 3 (by norm_num) 80 (by norm_num) (nz hs _ (by decide +kernel)) fun k hk => ne _ _ ?_
    revert k; decide +kernel
  have b5 : IsBasis 5 (48 • R) (48 • S) := by
    refine prime 5 (by norm_num) 48 (by norm_num) (nz hs _ (by decide +kernel)) fun k hk => ne _ _ ?_
    revert k; decide +kernel
  have b16 : IsBasis (2 ^ (3 + 1)) (15 • R) (15 • S) := by
    refine isBasis_two_pow (by rw [← mul_nsmul]; exact zr) (by rw [← mul_nsmul]; exact zs)
      ?_ ?_ ?_ <;> rw [← mul_nsmul]
    · exact nz hr _ (by decide +kernel)
    · exact nz hs _ (by decide +kernel)
    · rw [← mul_nsmul]
      exact ne _ _ (by decide +kernel)
  have b15 : IsBasis (3 * 5) (16 • R) (16 • S) :=
    IsBasis.mul (by decide) (by rw [← mul_nsmul, ← mul_nsmul]; exact b5)
      (by rw [← mul_nsmul, ← mul_nsmul]; exact b3)
  exact ⟨R, S, hr, hs, IsBasis.mul (m := 16) (n := 15) (by decide) b15 b16⟩

/-- A concrete case: the input `s1 = 2`, `s2 = 3`, `b11 = 3`, `b22 = 11` of the small version is
recovered. -/
example : ∃ l1 l2 p1 q1 p2 q2, crypto239.recoverSiAndB true e239 l1 l2 p1 q1 p2 q2 = some ⟨2, 3, 3, 11⟩ := by
  have hE := e239_good
  obtain ⟨R, S, hr, hs, hb⟩ := basis239
  obtain ⟨p1, ep1, hp1⟩ := C27_mul_big hE hr 5
  obtain ⟨q1, eq1, hq1⟩ := C27_mul_big hE hs 5
  obtain ⟨p2, ep2, hp2⟩ := C27_mul_big hE hr 48
  obtain ⟨q2, eq2, hq2⟩ := C27_mul_big hE hs 48
  obtain ⟨x1, -, hx1⟩ := C27_mul_big hE hr 91
  obtain ⟨x2, -, hx2⟩ := C27_mul_big hE hs 128
  obtain ⟨y1, -, hy1⟩ := C27_mul_big hE hr 32
  obtain ⟨y2, -, hy2⟩ := C27_mul_big hE hs 211
  have hl1 := prep_add hE hx1 hx2
  have hl2 := prep_add hE hy1 hy2
  have z : ∀ a b : Int, (240 : Int) ∣ a → (240 : Int) ∣ b → a • R + b • S = 0 :=
    fun a b h1 h2 => (hb a b).mpr ⟨h1, h2⟩
  refine ⟨e239.add x1 x2, e239.add y1 y2, p1, q1, p2, q2, ?_⟩
  have eq' : ∀ {X Y : MPoint e239.A} (a b c d : Int), X = a • R + b • S → Y = c • R + d • S →
      (240 : Int) ∣ a - c → (240 : Int) ∣ b - d → X = Y := by
    intro X Y a b c d h1 h2 h3 h4
    rw [← sub_eq_zero, h1, h2, ← z _ _ h3 h4]
    module
  have nz : ∀ {X : MPoint e239.A} (a b : Int), X = a • R + b • S → ¬(240 : Int) ∣ a → X ≠ 0 := by
    intro X a b h1 h2 h3
    exact h2 ((hb a b).mp (h1 ▸ h3)).1
  have cl : ∀ {X Y Z : MPoint e239.A} (k : Int), X = Z → Y = k • Z →
      AddSubgroup.closure {X, Y} = AddSubgroup.zmultiples Z := by
    rintro X Y Z k rfl rfl
    apply le_antisymm
    · rw [AddSubgroup.closure_le]
      rintro W (rfl | rfl)
      · exact AddSubgroup.mem_zmultiples _
      · exact AddSubgroup.zsmul_mem_zmultiples _ _
    · rw [AddSubgroup.zmultiples_le]
      exact AddSubgroup.subset_closure (by simp)
  have off : ∀ {X : MPoint e239.A} (c : Nat) (a b : Int), X = a • R + b • S → ¬(240 : Int) ∣ b →
      ∀ n, AxisFree n (c • R) X := by
    intro X c a b h1 h2 n
    refine .of_not_mem fun h3 => ?_
    obtain ⟨k, hk⟩ := AddSubgroup.mem_zmultiples_iff.mp h3
    apply h2
    refine ((hb (a - k * c) b).mp ?_).2
    rw [h1] at hk
    rw [sub_zsmul, mul_zsmul, natCast_zsmul, hk]
    abel
  have chain : ∀ (n : Nat) {X : MPoint e239.A} (a b : Int), n.Prime → X = a • R + b • S → ¬(240 : Int) ∣ a →
      (240 : Int) ∣ n * a → (240 : Int) ∣ n * b → ChainFree n X := by
    intro n X a b hn h1 h2 h3 h4
    have := Fact.mk hn
    refine chainFree_of_order hn.one_le (addOrderOf_eq_prime ?_ (nz a b h1 h2))
    rw [h1, ← z _ _ h3 h4]
    module
  have pr3 : Nat.Prime 3 := by norm_num
  have pr5 : Nat.Prime 5 := by norm_num
  refine C54_recover_partial true crypto239 sound239 hE hl1 hl2 hp1 hq1 hp2 hq2
    (IsBasis.nsmul (m := 5) (n := 48) hb (by decide)) (IsBasis.nsmul (m := 48) (n := 5) hb (by decide))
    ⟨2, 3, 3, 11⟩ (by decide) (by decide) (by decide) (by decide) (by decide) (by decide) (Or.inl ?_)
    (cl 2 ?_ ?_) (cl 2 ?_ ?_) ?_ ?_ ?_ ?_
  · exact eq' (15 * 91) (15 * 128) (945 * 165) 0 (by show 15 • _ = _; module)
      (by show 945 • 33 • _ = _; module) (by norm_num) (by norm_num)
  · exact eq' (80 * 91) (80 * 128) 80 160 (by show 5 • 16 • _ = _; module)
      (by show 16 • 5 • _ + 2 • 16 • 5 • _ = _; module) (by norm_num) (by norm_num)
  · exact eq' (80 * 32) (80 * 211) 160 320 (by show 5 • 16 • _ = _; module)
      (by show (2 : Int) • (16 • 5 • _ + 2 • 16 • 5 • _) = _; module) (by norm_num) (by norm_num)
  · exact eq' (48 * 91) (48 * 128) 48 144 (by show 3 • 16 • _ = _; module)
      (by show 48 • _ + 3 • 48 • _ = _; module) (by norm_num) (by norm_num)
  · exact eq' (48 * 32) (48 * 211) 96 288 (by show 3 • 16 • _ = _; module)
      (by show (2 : Int) • (48 • _ + 3 • 48 • _) = _; module) (by norm_num) (by norm_num)
  · intro L hL
    rw [show crypto239.l • 5 • R = 80 • R by rw [← mul_nsmul']; rfl]
    fin_cases hL
    · exact off _ (80 * 91) (80 * 128) (by show 5 • 16 • _ = _; module) (by norm_num) _
    · exact off _ (80 * 32) (80 * 211) (by show 5 • 16 • _ = _; module) (by norm_num) _
  · intro L hL
    fin_cases hL
    · exact off _ (48 * 91) (48 * 128) (by show 3 • 16 • _ = _; module) (by norm_num) _
    · exact off _ (48 * 32) (48 * 211) (by show 3 • 16 • _ = _; module) (by norm_num) _
  · intro L hL
    fin_cases hL
    · exact chain 3 (80 * 91) (80 * 128) pr3 (by show 5 • 16 • _ = _; module) (by norm_num) (by norm_num) (by norm_num)
    · exact chain 3 (80 * 32) (80 * 211) pr3 (by show 5 • 16 • _ = _; module) (by norm_num) (by norm_num) (by norm_num)
  · intro L hL
    fin_cases hL
    · exact chain 5 (48 * 91) (48 * 128) pr5 (by show 3 • 16 • _ = _; module) (by norm_num) (by norm_num) (by norm_num)
    · exact chain 5 (48 * 32) (48 * 211) pr5 (by show 3 • 16 • _ = _; module) (by norm_num) (by norm_num) (by norm_num)

end Festa

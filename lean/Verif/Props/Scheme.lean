import Verif.Props.BasisEval
/-! Property C54: key generation, evaluation and inversion of the trapdoor function. -/
namespace Festa

theorem degree_prod_aux (fs : Factored) :
    ((fs.flatMap (fun p => List.replicate p.2.toNat p.1.toUInt64)).map UInt64.toNat).prod =
      (fs.map fun q => q.1.toNat ^ q.2.toNat).prod := by
  induction fs with
  | nil => rfl
  | cons p fs ih =>
    rw [List.flatMap_cons, List.map_append, List.prod_append, ih, List.map_cons, List.prod_cons,
      List.map_replicate, List.prod_replicate, UInt32.toNat_toUInt64]

theorem degree_prod {K : Type*} [Field K] [DecidableEq K] {L : List (KIso K)} {fs : Factored}
    (h : L.map KIso.degree = fs.flatMap (fun p => List.replicate p.2.toNat p.1.toUInt64)) :
    (L.map fun f => f.degree.toNat).prod = (fs.map fun q => q.1.toNat ^ q.2.toNat).prod := by
  have e : (L.map fun f => f.degree.toNat) = (L.map KIso.degree).map UInt64.toNat := by simp
  rw [e, h, degree_prod_aux]

variable {K : Type} [Field K] [DecidableEq K] [RootOps K]

theorem odd_factors {fs : Factored} (h : (fs.map fun q => q.1.toNat ^ q.2.toNat).prod % 2 = 1)
    (he : ∀ p ∈ fs, p.2 ≠ 0) : ∀ p ∈ fs, p.1.toNat % 2 = 1 := by
  intro p hp
  by_contra h2
  have : 2 ∣ p.1.toNat := by omega
  have h3 : 2 ∣ p.1.toNat ^ p.2.toNat := this.trans (dvd_pow_self _ (fun h => he p hp (UInt32.toNat_inj.mp h)))
  have h4 := h3.trans (List.dvd_prod (List.mem_map_of_mem (f := fun q : UInt32 × UInt32 => q.1.toNat ^ q.2.toNat) hp))
  omega

/-- One half of `trapdoor_eval`: the isogeny of a scalar and the images of a basis of order `l`. -/
theorem eval_half (chk : Bool) (fuel : Nat) {E : Crv K} (hE : E.Good) {p q r s : Pt K}
    {P Q R S : MPoint E.A} (hp : PRep p P) (hq : PRep q Q) (hr : PRep r R) (hs : PRep s S) (fs : Factored)
    (hf : fs.Ok chk) (hne : fs ≠ []) {d : Nat} (hd : d = (fs.map fun q => q.1.toNat ^ q.2.toNat).prod)
    (ho : d % 2 = 1) (ht : torsionBasis chk fuel E fs 634 = some (p, q)) (hb : IsBasis d P Q) (m : Nat)
    {e : Nat} (he : 2 ≤ e) (hl : IsBasis (2 ^ e) R S) :
    ∃ L E', ∃ φ : MPoint E.A →+ MPoint E'.A, ∃ r' s',
      isogenyFromScalar chk fuel E fs m none = some (L, E') ∧
      evalChainBasis chk E (r, s) L (2 ^ e) d = some (E', (r', s')) ∧ E'.Good ∧ IsIsog φ d ∧
      (∀ X, φ X = 0 ↔ X ∈ AddSubgroup.zmultiples (P + m • Q)) ∧ PRep r' (φ R) ∧ PRep s' (φ S) ∧
      (IsChain E L E' φ ∨ IsChain E L E' (-φ)) := by
  subst hd
  obtain ⟨L, E', φ, h1, h2, h3, h4⟩ := C61_from_scalar chk fuel hE hp hq fs hne hf.1.1 hf.1.2
    (odd_factors ho hf.2.1) hf.2.1 hb m
  have hpr := degree_prod h3
  have h4le : 4 ≤ 2 ^ e := by
    calc 4 = 2 ^ 2 := rfl
      _ ≤ 2 ^ e := Nat.pow_le_pow_right (by norm_num) he
  obtain ⟨r', s', w, g1, g2, -, -, -⟩ := C64_eval_basis chk h2 (n := 2 ^ e) (by omega)
    hl hr hs (by rw [hpr]; exact ho) (by rw [hpr]; exact (two_pow_coprime ho).symm)
  rw [hpr] at g1
  have h1' : isogenyFromScalar chk fuel E fs m none = some (L, E') := by
    rw [← h1]; unfold isogenyFromScalar; rw [ht]
  rcases g2 with ⟨g2, g3⟩ | ⟨g2, g3⟩
  · exact ⟨L, E', φ, r', s', h1', g1, h2.good.2, ⟨L, φ, h2, hpr, Or.inl rfl⟩, h4, g2, g3, Or.inl h2⟩
  · exact ⟨L, E', -φ, r', s', h1', g1, h2.good.2, ⟨L, φ, h2, hpr, Or.inr rfl⟩,
      fun X => by rw [AddMonoidHom.neg_apply, neg_eq_zero]; exact h4 X, g2, g3, Or.inr (by rw [neg_neg]; exact h2)⟩

/-- C54, evaluation: whenever the torsion bases found on the two curves are bases, `trapdoor_eval` returns the
codomains of the isogenies with the kernels `Pd1 + s1 Qd1` and `PA + s2 QA`, and the images of the points of
order `l` under them, multiplied by `b11` and `b22`.  Concrete case: `toy_value` in `Verif/Props/SchemeCase.lean`. -/
theorem C54_eval (chk : Bool) (fuel : Nat) (S : Crypto K) (hS : S.Sound chk) (hN : S.Norm) (hE : S.E0.Good)
    (pk : PublicKey K) (hA : pk.EA.Good) {Pb Qb Pd1 Qd1 : MPoint S.E0.A} {RA SA PA QA : MPoint pk.EA.A}
    (hPb : PRep S.Pb Pb) (hQb : PRep S.Qb Qb) (hb : IsBasis S.l Pb Qb)
    (hRA : PRep pk.RA RA) (hSA : PRep pk.SA SA) (hbA : IsBasis S.l RA SA)
    {p1 q1 p2 q2 : Pt K} (ht1 : torsionBasis chk fuel S.E0 S.c.f1 634 = some (p1, q1))
    (hp1 : PRep p1 Pd1) (hq1 : PRep q1 Qd1) (hb1 : IsBasis S.d1 Pd1 Qd1)
    (ht2 : torsionBasis chk fuel pk.EA S.c.f2 634 = some (p2, q2))
    (hp2 : PRep p2 PA) (hq2 : PRep q2 QA) (hb2 : IsBasis S.d2 PA QA) (m : TrapdoorInput) :
    ∃ c, ∃ φ1 : MPoint S.E0.A →+ MPoint c.E1.A, ∃ φ2 : MPoint pk.EA.A →+ MPoint c.E2.A,
      S.trapdoorEval chk fuel pk m = some c ∧ OutRel S pk m c φ1 φ2 Pb Qb Pd1 Qd1 RA SA PA QA ∧
      (∃ L, isogenyFromScalar chk fuel S.E0 S.c.f1 m.s1 none = some (L, c.E1) ∧
        (IsChain S.E0 L c.E1 φ1 ∨ IsChain S.E0 L c.E1 (-φ1))) ∧
      (∃ L, isogenyFromScalar chk fuel pk.EA S.c.f2 m.s2 none = some (L, c.E2) ∧
        (IsChain pk.EA L c.E2 φ2 ∨ IsChain pk.EA L c.E2 (-φ2))) := by
  rw [hS.l_eq] at hb hbA
  obtain ⟨L1, E1, φ1, r1, s1, e1, e2, g1, i1, k1, hr1, hs1, j1⟩ := eval_half chk fuel hE hp1 hq1 hPb hQb S.c.f1
    hS.ok1 hN.ne1 hS.d1_eq hS.odd1 ht1 hb1 m.s1 hS.l_big hb
  obtain ⟨L2, E2, φ2, r2, s2, e3, e4, g2, i2, k2, hr2, hs2, j2⟩ := eval_half chk fuel hA hp2 hq2 hRA hSA S.c.f2
    hS.ok2 hN.ne2 hS.d2_eq hS.odd2 ht2 hb2 m.s2 hS.l_big hbA
  obtain ⟨R1, f1, h1⟩ := C27_mul_big g1 hr1 m.b11
  obtain ⟨S1, f2, h2⟩ := C27_mul_big g1 hs1 m.b22
  obtain ⟨R2, f3, h3⟩ := C27_mul_big g2 hr2 m.b11
  obtain ⟨S2, f4, h4⟩ := C27_mul_big g2 hs2 m.b22
  refine ⟨⟨E1, R1, S1, E2, R2, S2⟩, φ1, φ2, ?_, ⟨i1, i2, k1, k2, h1, h2, h3, h4⟩, ⟨L1, e1, j1⟩, ⟨L2, e3, j2⟩⟩
  unfold Crypto.trapdoorEval
  simp only [Option.bind_eq_bind, e1, Option.bind_some, hS.l_eq, e2, e3, e4, f1, f2, f3, f4]

/-- The images of a basis under a chain. -/
theorem image_pair (chk : Bool) {E E' : Crv K} {L : List (KIso K)} {φ : MPoint E.A →+ MPoint E'.A}
    (h : IsChain E L E' φ) {d : Nat} (hd : (L.map fun f => f.degree.toNat).prod = d) (ho : d % 2 = 1)
    {n : Nat} (hn : 3 ≤ n) (hc : n.Coprime d) {p q : Pt K} {P Q : MPoint E.A} (hp : PRep p P) (hq : PRep q Q)
    (hb : IsBasis n P Q) :
    ∃ φ' : MPoint E.A →+ MPoint E'.A, ∃ p' q', evalChainBasis chk E (p, q) L n d = some (E', (p', q')) ∧
      IsIsog φ' d ∧ (φ' = φ ∨ φ' = -φ) ∧ PRep p' (φ' P) ∧ PRep q' (φ' Q) := by
  subst hd
  obtain ⟨p', q', w, g1, g2, -, -, -⟩ := C64_eval_basis chk h hn hb hp hq ho hc
  rcases g2 with ⟨g2, g3⟩ | ⟨g2, g3⟩
  · exact ⟨φ, p', q', g1, ⟨L, φ, h, rfl, Or.inl rfl⟩, Or.inl rfl, g2, g3⟩
  · exact ⟨-φ, p', q', g1, ⟨L, φ, h, rfl, Or.inr rfl⟩, Or.inr rfl, g2, g3⟩

/-- A number that is one modulo `m` and a multiple of `n` picks the part of order `m`. -/
theorem clear_add {H : Type*} [AddCommGroup H] {m n c : Nat} (h1 : c ≡ 1 [MOD m]) (h2 : n ∣ c) {X Y : H}
    (hX : m • X = 0) (hY : n • Y = 0) : c • (X + Y) = X := by
  have e1 : c • X = X := by
    have : (c : Int) • X = (1 : Int) • X := by
      obtain ⟨k, hk⟩ := (Nat.modEq_iff_dvd.mp h1)
      have : (c : Int) = 1 - m * k := by push_cast at hk; linarith
      rw [this, sub_zsmul, mul_comm, mul_zsmul, natCast_zsmul, hX, zsmul_zero, neg_zero, add_zero]
    simpa using this
  obtain ⟨k, rfl⟩ := h2
  rw [nsmul_add, e1, mul_comm, mul_nsmul', hY, nsmul_zero, add_zero]

theorem bind_of_eq {α β : Type} {x : Option α} {a : α} (h : x = some a) (f : α → Option β) :
    (x >>= f) = f a := by rw [h]; rfl

theorem nsmul_mod {H : Type*} [AddCommGroup H] {n : Nat} {X : H} (h : n • X = 0) (a : Nat) :
    (a % n) • X = a • X := by
  conv_rhs => rw [← Nat.mod_add_div a n, add_nsmul, mul_comm, mul_nsmul', h, nsmul_zero, add_zero]

/-- Key generation, given that the two random isogenies are chains and the bases found on `EA'` and `EA`, `keygen` returns a key pair belonging to them, unless one of the
two basis points of `EA` is a multiple of one of the images of the basis points of `EA'` and a zero is met in the Miller loop. -/
theorem keygen_core (chk : Bool) (fuel : Nat) (S : Crypto K) (hS : S.Sound chk) (hN : S.Norm)
    (r11 r22 : Nat) (drawsA1 drawsA2 : List (List (List (K × Bool)))) {Pb Qb Pd1 Qd1 : MPoint S.E0.A}
    (hPb : PRep S.Pb Pb) (hQb : PRep S.Qb Qb) (hb : IsBasis S.l Pb Qb)
    (hPd : PRep S.Pd1 Pd1) (hQd : PRep S.Qd1 Qd1) (hb1 : IsBasis S.d1 Pd1 Qd1)
    {L1 L2 : List (KIso K)} {EA' EA : Crv K} {φ1 : MPoint S.E0.A →+ MPoint EA'.A}
    {φ2 : MPoint EA'.A →+ MPoint EA.A}
    (h1 : randomIsogeny chk S.c.fA1 drawsA1 S.E0 = some (L1, EA')) (c1 : IsChain S.E0 L1 EA' φ1)
    (g1 : (L1.map fun f => f.degree.toNat).prod = S.c.dA1)
    (h2 : randomIsogeny chk S.c.fA2 drawsA2 EA' = some (L2, EA)) (c2 : IsChain EA' L2 EA φ2)
    (g2 : (L2.map fun f => f.degree.toNat).prod = S.c.dA2)
    {p' q' p q : Pt K} {P' Q' : MPoint EA'.A} {PA QA : MPoint EA.A}
    (ht' : torsionBasis chk fuel EA' S.c.f2 S.c.lPower.toNat = some (p', q'))
    (hp' : PRep p' P') (hq' : PRep q' Q') (hb' : IsBasis S.d2 P' Q')
    (ht : torsionBasis chk fuel EA S.c.f2 S.c.lPower.toNat = some (p, q))
    (hp : PRep p PA) (hq : PRep q QA) (hbA : IsBasis S.d2 PA QA)
    (hax : ∀ X ∈ [PA, QA], AxisFree S.d2 (φ2 P') X ∧ AxisFree S.d2 (φ2 Q') X) :
    ∃ (R T x1 y1 x2 y2 : Pt K) (φA1 : MPoint S.E0.A →+ MPoint EA'.A) (φA2 : MPoint EA'.A →+ MPoint EA.A),
      S.keygen chk fuel r11 r22 drawsA1 drawsA2 =
        some (⟨EA, R, T⟩, ⟨EA', x1, y1, x2, y2, r11 ||| 1, r22 ||| 1⟩) ∧
      KeyRel S ⟨EA, R, T⟩ ⟨EA', x1, y1, x2, y2, r11 ||| 1, r22 ||| 1⟩ φA1 φA2 Pb Qb Pd1 Qd1 PA QA ∧
      (φA1 = φ1 ∨ φA1 = -φ1) ∧ (φA2 = φ2 ∨ φA2 = -φ2) ∧
      IsBasis S.l ((r11 ||| 1) • φA2 (φA1 Pb)) ((r22 ||| 1) • φA2 (φA1 Qb)) := by
  obtain ⟨hE0, hA'⟩ := c1.good
  obtain ⟨-, hA⟩ := c2.good
  have l4 : 4 ≤ S.l := by
    rw [hS.l_eq]
    calc 4 = 2 ^ 2 := rfl
      _ ≤ 2 ^ _ := Nat.pow_le_pow_right (by norm_num) hS.l_big
  have d1pos : 1 ≤ S.d1 := by have := hS.odd1; omega
  have d2pos : 1 ≤ S.d2 := by have := hS.odd2; omega
  have two : ∀ {a : Nat}, a % 2 = 1 → S.l.Coprime a := fun h => by
    rw [hS.l_eq]; exact (two_pow_coprime h).symm
  have cl1 : S.l.Coprime S.d1 := two hS.odd1
  have cl2 : S.l.Coprime S.d2 := two hS.odd2
  -- the first isogeny
  have bs : IsBasis (S.l * S.d1) (Pb + Pd1) (Qb + Qd1) := hb.sum cl1 hb1
  obtain ⟨φA1, x1, y1, e1, i1, s1, hx1, hy1⟩ := image_pair chk c1 g1 hN.oddA1 (n := S.l * S.d1)
    (by nlinarith) (Nat.Coprime.mul_left (two hN.oddA1) hN.copA1.symm) (prep_add hE0 hPb hPd)
    (prep_add hE0 hQb hQd) bs
  have bl : IsBasis S.l (φA1 Pb) (φA1 Qb) := hb.map (i1.inj (by omega) hN.oddA1 (two hN.oddA1))
  obtain ⟨u1, f1, hu1⟩ := C27_mul_big hA' hx1 S.clearD1
  obtain ⟨v1, f2, hv1⟩ := C27_mul_big hA' hy1 S.clearD1
  rw [← map_nsmul, clear_add hS.clear1.1 hS.clear1.2 hb.nsmul_left hb1.nsmul_left] at hu1
  rw [← map_nsmul, clear_add hS.clear1.1 hS.clear1.2 hb.nsmul_right hb1.nsmul_right] at hv1
  -- the second one
  have bs' : IsBasis (S.l * S.d2) (φA1 Pb + P') (φA1 Qb + Q') := bl.sum cl2 hb'
  obtain ⟨φA2, x2, y2, e2, i2, s2, hx2, hy2⟩ := image_pair chk c2 g2 hN.oddA2 (n := S.l * S.d2)
    (by nlinarith) (Nat.Coprime.mul_left (two hN.oddA2) hN.copA2.symm) (prep_add hA' hu1 hp')
    (prep_add hA' hv1 hq') bs'
  have bl2 : IsBasis S.l (φA2 (φA1 Pb)) (φA2 (φA1 Qb)) := bl.map (i2.inj (by omega) hN.oddA2 (two hN.oddA2))
  have bd2 : IsBasis S.d2 (φA2 P') (φA2 Q') := hb'.map (i2.inj d2pos hN.oddA2 hN.copA2.symm)
  obtain ⟨u2, f3, hu2⟩ := C27_mul_big hA hx2 S.clearD2
  obtain ⟨v2, f4, hv2⟩ := C27_mul_big hA hy2 S.clearD2
  obtain ⟨u3, f5, hu3⟩ := C27_mul_big hA hx2 S.clearLb
  obtain ⟨v3, f6, hv3⟩ := C27_mul_big hA hy2 S.clearLb
  rw [← map_nsmul, clear_add hS.clear2.1 hS.clear2.2 bl.nsmul_left hb'.nsmul_left] at hu2
  rw [← map_nsmul, clear_add hS.clear2.1 hS.clear2.2 bl.nsmul_right hb'.nsmul_right] at hv2
  rw [← map_nsmul, add_comm (φA1 Pb), clear_add hS.clearl.1 hS.clearl.2 hb'.nsmul_left bl.nsmul_left] at hu3
  rw [← map_nsmul, add_comm (φA1 Qb), clear_add hS.clearl.1 hS.clearl.2 hb'.nsmul_right bl.nsmul_right] at hv3
  -- the logarithms
  have hval : S.c.f2.value = S.d2 := by rw [value_eq, hS.d2_eq]
  have d22 : 2 ≤ S.d2 := by
    by_contra h
    have : S.d2 = 1 := by omega
    rw [this] at hbA
    have h0 := hbA.nsmul_left
    rw [one_nsmul] at h0
    exact (hax PA (by simp)).1.ne_zero h0
  obtain ⟨v, w1, w2⟩ := C65_order hA chk d22 hp hq hbA
  obtain ⟨v', w3, w4⟩ := C65_order hA chk d22 hu3 hv3 bd2
  have : NeZero S.d2 := ⟨by omega⟩
  obtain ⟨k, -, hk⟩ := (IsPrimitiveRoot.iff_orderOf.mpr w2).eq_pow_of_pow_eq_one
    (show v' ^ S.d2 = 1 by rw [← w4, pow_orderOf_eq_one])
  have ck : k.Coprime S.d2 := by
    have h := (orderOf_pos_iff.mp (by omega) : IsOfFinOrder v).orderOf_pow (n := k)
    rw [hk, w4, w2] at h
    have hg : 0 < S.d2.gcd k := Nat.gcd_pos_of_pos_left _ d2pos
    have hd : S.d2.gcd k ∣ S.d2 := Nat.gcd_dvd_left _ _
    obtain ⟨z, hz⟩ := hd
    rw [Nat.coprime_comm, Nat.coprime_iff_gcd_eq_one]
    have : S.d2 / S.d2.gcd k = z := Nat.div_eq_of_eq_mul_right hg hz
    rw [this] at h
    rw [← h] at hz
    nlinarith
  have co : ∀ {x : Pt K} {X : MPoint EA.A}, PRep x X → X ∈ [PA, QA] → ∃ a b,
      bidlp chk EA x u3 v3 S.c.f2 (some v) = some (a, b) ∧ a • φA2 P' + b • φA2 Q' = k • X := by
    intro x X hx hX
    have hz : ∀ Y : MPoint EA'.A, AxisFree S.d2 (φ2 Y) X → AxisFree S.d2 (φA2 Y) X := by
      intro Y h
      rcases s2 with rfl | rfl
      · exact h
      · exact h.neg_left
    obtain ⟨h1, h2⟩ := hax X hX
    replace h1 := hz _ h1
    replace h2 := hz _ h2
    have oX : addOrderOf X = S.d2 := by
      simp only [List.mem_cons, List.not_mem_nil, or_false] at hX
      rcases hX with rfl | rfl
      · exact hbA.order_left
      · exact hbA.order_right
    obtain ⟨a, b, ha, hb, hab⟩ := (C66_span hA d2pos bd2 X).mp (by rw [← oX, addOrderOf_nsmul_eq_zero])
    have := C39_bidlp_scaled hA chk S.c.f2 hS.ok2 a b k (by rw [hval]; exact bd2) hu3 hv3 (by rw [← hab]; exact hx)
      (by rw [hval, ← hab]; exact h1) (by rw [hval, ← hab]; exact h2)
      (by rw [← hab, hval]; exact chainFree_of_order d2pos oX) v (by rw [hval, w2]) (by rw [hval, w3, hk])
    refine ⟨_, _, this, ?_⟩
    rw [hval, nsmul_mod bd2.nsmul_left, nsmul_mod bd2.nsmul_right, hab, nsmul_add, mul_nsmul', mul_nsmul']
  obtain ⟨a1, b1, k1, j1⟩ := co hp (by simp)
  obtain ⟨a2, b2, k2, j2⟩ := co hq (by simp)
  obtain ⟨m1, n1, hm1⟩ := C27_mul_big hA' hp' a1
  obtain ⟨m2, n2, hm2⟩ := C27_mul_big hA' hq' b1
  obtain ⟨m3, n3, hm3⟩ := C27_mul_big hA' hp' a2
  obtain ⟨m4, n4, hm4⟩ := C27_mul_big hA' hq' b2
  obtain ⟨R, n5, hR⟩ := C27_mul_big hA hu2 (r11 ||| 1)
  obtain ⟨T, n6, hT⟩ := C27_mul_big hA hv2 (r22 ||| 1)
  have odd : ∀ r : Nat, (r ||| 1) % 2 = 1 := fun r => by rw [Nat.or_mod_two_eq_one]; right; rfl
  have bRT : IsBasis S.l ((r11 ||| 1) • φA2 (φA1 Pb)) ((r22 ||| 1) • φA2 (φA1 Qb)) := by
    intro x y
    rw [← natCast_zsmul, ← natCast_zsmul, ← mul_zsmul, ← mul_zsmul, bl2]
    have c1 : IsCoprime (S.l : Int) ((r11 ||| 1 : Nat) : Int) := Nat.isCoprime_iff_coprime.mpr (two (odd _))
    have c2 : IsCoprime (S.l : Int) ((r22 ||| 1 : Nat) : Int) := Nat.isCoprime_iff_coprime.mpr (two (odd _))
    constructor
    · rintro ⟨h1, h2⟩
      exact ⟨c1.dvd_of_dvd_mul_right h1, c2.dvd_of_dvd_mul_right h2⟩
    · rintro ⟨h1, h2⟩
      exact ⟨h1.mul_right _, h2.mul_right _⟩
  have ord : ∀ {x : Pt K} {X : MPoint EA.A}, PRep x X → addOrderOf X = S.l →
      pointHasFactoredOrder EA x [(2, S.c.lPower)] = some true := by
    intro x X hx hX
    refine C40_point_complete hA hx _ (by simp) ?_ (by simp) ?_ ?_
    · intro p hp; rw [List.mem_singleton] at hp; subst hp; exact Nat.prime_two
    · intro p hp; rw [List.mem_singleton] at hp; subst hp
      intro h
      have h0 : S.c.lPower = 0 := h
      have := hS.l_big
      rw [h0] at this
      exact absurd this (by decide)
    · rw [hX, hS.l_eq]; simp
  refine ⟨R, T, x1, y1, EA'.add m1 m2, EA'.add m3 m4, φA1, φA2, ?_, ?_, s1, s2, bRT⟩
  · unfold Crypto.keygen
    have o1 := ord hR bRT.order_left
    have o2 := ord hT bRT.order_right
    refine (bind_of_eq h1 _).trans ?_
    refine (bind_of_eq h2 _).trans ?_
    refine (bind_of_eq ht' _).trans ?_
    refine (bind_of_eq e1 _).trans ?_
    refine (bind_of_eq f1 _).trans ?_
    refine (bind_of_eq f2 _).trans ?_
    refine (bind_of_eq e2 _).trans ?_
    refine (bind_of_eq f3 _).trans ?_
    refine (bind_of_eq f4 _).trans ?_
    refine (bind_of_eq f5 _).trans ?_
    refine (bind_of_eq f6 _).trans ?_
    refine (bind_of_eq ht _).trans ?_
    refine (bind_of_eq w1 _).trans ?_
    refine (bind_of_eq k1 _).trans ?_
    refine (bind_of_eq k2 _).trans ?_
    refine (bind_of_eq n1 _).trans ?_
    refine (bind_of_eq n2 _).trans ?_
    refine (bind_of_eq n3 _).trans ?_
    refine (bind_of_eq n4 _).trans ?_
    refine (bind_of_eq n5 _).trans ?_
    refine (bind_of_eq n6 _).trans ?_
    rw [o1, o2]
    simp
  · refine ⟨i1, i2, odd _, odd _, hR, hT, hx1, hy1, k, a1 • P' + b1 • Q', a2 • P' + b2 • Q', ck,
      prep_add hA' hm1 hm2, prep_add hA' hm3 hm4, ?_, ?_, ?_, ?_⟩
    · have := hb'.indep.tors a1 b1
      exact this
    · exact hb'.indep.tors a2 b2
    · rw [map_add, map_nsmul, map_nsmul]; exact j1
    · rw [map_add, map_nsmul, map_nsmul]; exact j2

/-- The two random isogenies of `keygen`, when found, are isogenies of the degrees `dA1` and `dA2`. -/
theorem random_isogs (S : Crypto K) (hN : S.Norm) (hE : S.E0.Good) (drawsA1 drawsA2 : List (List (List (K × Bool))))
    (hf1 : S.c.fA1.Ok true) (hf2 : S.c.fA2.Ok true) (hn1 : S.c.fA1 ≠ []) (hn2 : S.c.fA2 ≠ [])
    (hd1 : S.c.dA1 = (S.c.fA1.map fun q => q.1.toNat ^ q.2.toNat).prod ^ drawsA1.length)
    (hd2 : S.c.dA2 = (S.c.fA2.map fun q => q.1.toNat ^ q.2.toNat).prod ^ drawsA2.length)
    (hl1 : drawsA1 ≠ []) (hl2 : drawsA2 ≠ []) {L1 L2 : List (KIso K)} {EA' EA : Crv K}
    (h1 : randomIsogeny true S.c.fA1 drawsA1 S.E0 = some (L1, EA'))
    (h2 : randomIsogeny true S.c.fA2 drawsA2 EA' = some (L2, EA)) :
    ∃ (φ1 : MPoint S.E0.A →+ MPoint EA'.A) (φ2 : MPoint EA'.A →+ MPoint EA.A), IsChain S.E0 L1 EA' φ1 ∧
      (L1.map fun f => f.degree.toNat).prod = S.c.dA1 ∧ IsChain EA' L2 EA φ2 ∧
      (L2.map fun f => f.degree.toNat).prod = S.c.dA2 := by
  have deg : ∀ {L : List (KIso K)} {fs : Factored} {n : Nat}, L.map KIso.degree = (List.replicate n
      (fs.flatMap (fun p => List.replicate p.2.toNat p.1.toUInt64))).flatten →
      (L.map fun f => f.degree.toNat).prod = (fs.map fun q => q.1.toNat ^ q.2.toNat).prod ^ n := by
    intro L fs n h
    have e : (L.map fun f => f.degree.toNat) = (L.map KIso.degree).map UInt64.toNat := by simp
    rw [e, h, List.map_flatten, List.prod_flatten, List.map_replicate, List.map_replicate, List.prod_replicate]
    rw [degree_prod_aux]
  have oddf : ∀ {fs : Factored} {n d : Nat}, d = (fs.map fun q => q.1.toNat ^ q.2.toNat).prod ^ n → n ≠ 0 →
      d % 2 = 1 → (fs.map fun q => q.1.toNat ^ q.2.toNat).prod % 2 = 1 := by
    rintro fs n d rfl hn h
    rw [Nat.pow_mod] at h
    rcases Nat.mod_two_eq_zero_or_one (fs.map fun q => q.1.toNat ^ q.2.toNat).prod with h0 | h0
    · rw [h0, zero_pow hn] at h; simp at h
    · exact h0
  obtain ⟨φ1, c1, g1⟩ := C62_random S.c.fA1 hn1 hf1.1.1
    (odd_factors (oddf hd1 (by simpa using hl1) hN.oddA1) hf1.2.1) hf1.2.1 drawsA1 S.E0 hE L1 EA' h1
  obtain ⟨φ2, c2, g2⟩ := C62_random S.c.fA2 hn2 hf2.1.1
    (odd_factors (oddf hd2 (by simpa using hl2) hN.oddA2) hf2.2.1) hf2.2.1 drawsA2 EA' c1.good.2 L2 EA h2
  have g1' := (deg g1).trans hd1.symm
  have g2' := (deg g2).trans hd2.symm
  exact ⟨φ1, φ2, c1, g1', c2, g2'⟩

/-- C54, key generation, with debug assertions: the two random isogenies, when found, are isogenies of the degrees
`dA1` and `dA2`, and then `keygen` returns a key pair belonging to them.  Partial: the points found on `EA'` and `EA` must
be bases, and the basis points of `EA`, if they are multiples of the images of those of `EA'`, must meet no zero in the Miller
loop (else `bidlp` fails, see `C39_axis_fails`).  Concrete case: `toy_key` in `Verif/Props/SchemeCase.lean`. -/
theorem C54_keygen_partial (fuel : Nat) (S : Crypto K) (hS : S.Sound true) (hN : S.Norm) (hE : S.E0.Good)
    (r11 r22 : Nat) (drawsA1 drawsA2 : List (List (List (K × Bool)))) {Pb Qb Pd1 Qd1 : MPoint S.E0.A}
    (hPb : PRep S.Pb Pb) (hQb : PRep S.Qb Qb) (hb : IsBasis S.l Pb Qb)
    (hPd : PRep S.Pd1 Pd1) (hQd : PRep S.Qd1 Qd1) (hb1 : IsBasis S.d1 Pd1 Qd1)
    (hf1 : S.c.fA1.Ok true) (hf2 : S.c.fA2.Ok true) (hn1 : S.c.fA1 ≠ []) (hn2 : S.c.fA2 ≠ [])
    (hd1 : S.c.dA1 = (S.c.fA1.map fun q => q.1.toNat ^ q.2.toNat).prod ^ drawsA1.length)
    (hd2 : S.c.dA2 = (S.c.fA2.map fun q => q.1.toNat ^ q.2.toNat).prod ^ drawsA2.length)
    (hl1 : drawsA1 ≠ []) (hl2 : drawsA2 ≠ []) {L1 L2 : List (KIso K)} {EA' EA : Crv K}
    (h1 : randomIsogeny true S.c.fA1 drawsA1 S.E0 = some (L1, EA'))
    (h2 : randomIsogeny true S.c.fA2 drawsA2 EA' = some (L2, EA))
    {p' q' p q : Pt K} {P' Q' : MPoint EA'.A} {PA QA : MPoint EA.A}
    (ht' : torsionBasis true fuel EA' S.c.f2 S.c.lPower.toNat = some (p', q'))
    (hp' : PRep p' P') (hq' : PRep q' Q') (hb' : IsBasis S.d2 P' Q')
    (ht : torsionBasis true fuel EA S.c.f2 S.c.lPower.toNat = some (p, q))
    (hp : PRep p PA) (hq : PRep q QA) (hbA : IsBasis S.d2 PA QA) :
    ∃ (φA1 : MPoint S.E0.A →+ MPoint EA'.A) (φ2 : MPoint EA'.A →+ MPoint EA.A),
      (IsChain S.E0 L1 EA' φA1 ∨ IsChain S.E0 L1 EA' (-φA1)) ∧ IsIsog φA1 S.c.dA1 ∧
      IsChain EA' L2 EA φ2 ∧ IsIsog φ2 S.c.dA2 ∧
      ((∀ X ∈ [PA, QA], AxisFree S.d2 (φ2 P') X ∧ AxisFree S.d2 (φ2 Q') X) →
        ∃ (R T x1 y1 x2 y2 : Pt K) (φA2 : MPoint EA'.A →+ MPoint EA.A), (φA2 = φ2 ∨ φA2 = -φ2) ∧
        S.keygen true fuel r11 r22 drawsA1 drawsA2 =
          some (⟨EA, R, T⟩, ⟨EA', x1, y1, x2, y2, r11 ||| 1, r22 ||| 1⟩) ∧
        KeyRel S ⟨EA, R, T⟩ ⟨EA', x1, y1, x2, y2, r11 ||| 1, r22 ||| 1⟩ φA1 φA2 Pb Qb Pd1 Qd1 PA QA ∧
        IsBasis S.l ((r11 ||| 1) • φA2 (φA1 Pb)) ((r22 ||| 1) • φA2 (φA1 Qb))) := by
  obtain ⟨φ1, φ2, c1, g1', c2, g2'⟩ := random_isogs S hN hE drawsA1 drawsA2 hf1 hf2 hn1 hn2 hd1 hd2 hl1 hl2 h1 h2
  by_cases hax : ∀ X ∈ [PA, QA], AxisFree S.d2 (φ2 P') X ∧ AxisFree S.d2 (φ2 Q') X
  · obtain ⟨R, T, x1, y1, x2, y2, φA1, φA2, k1, k2, k3, k4, k5⟩ := keygen_core true fuel S hS hN r11 r22 drawsA1
      drawsA2 hPb hQb hb hPd hQd hb1 h1 c1 g1' h2 c2 g2' ht' hp' hq' hb' ht hp hq hbA hax
    refine ⟨φA1, φ2, ?_, ⟨L1, φ1, c1, g1', k3⟩, c2, ⟨L2, φ2, c2, g2', Or.inl rfl⟩,
      fun _ => ⟨R, T, x1, y1, x2, y2, φA2, k4, k1, k2, k5⟩⟩
    rcases k3 with rfl | rfl
    · exact Or.inl c1
    · exact Or.inr (by rw [neg_neg]; exact c1)
  · exact ⟨φ1, φ2, Or.inl c1, ⟨L1, φ1, c1, g1', Or.inl rfl⟩, c2, ⟨L2, φ2, c2, g2', Or.inl rfl⟩, fun h => absurd h hax⟩

/-- The two pairings compared by the debug assertion of `trapdoor_inverse` are inverse to each other. -/
theorem glue_pairing {S : Crypto K} (chk : Bool) (hS : S.Sound chk) (hN : S.Norm) {E1 E2 : Crv K}
    {φ1 : MPoint S.E0.A →+ MPoint E1.A} {φ : MPoint S.E0.A →+ MPoint E2.A} (i1 : IsIsog φ1 S.d1)
    (i2 : IsIsog φ (S.c.dA1 * S.c.dA2 * S.d2)) {Pb Qb : MPoint S.E0.A} (hb : IsBasis S.l Pb Qb)
    (b11 b22 g g' : Nat) (hi : b11 * b22 % S.l = 1) (hg : g ≡ S.g2 [MOD S.l]) (hg' : g' ≡ S.g2 [MOD S.l])
    {r1 s1 r2 s2 : Pt K} (hr1 : PRep r1 (b11 • φ1 Pb)) (hs1 : PRep s1 (b22 • φ1 Qb))
    (hr2 : PRep r2 (g • b11 • φ Pb)) (hs2 : PRep s2 (g' • b22 • φ Qb)) :
    ∃ e1 e2, weilPairing chk E1 (E1.doubleIter r1 2) (E1.doubleIter s1 2) (2 ^ S.c.thetaLen) = some e1 ∧
      weilPairing chk E2 (E2.doubleIter r2 2) (E2.doubleIter s2 2) (2 ^ S.c.thetaLen) = some e2 ∧ e1 * e2 = 1 := by
  have hl : S.l = 4 * 2 ^ S.c.thetaLen := by rw [hS.l_eq, ← hN.len, pow_add]; ring
  set n := 2 ^ S.c.thetaLen with hn
  have n2 : 2 ≤ n := by
    calc 2 = 2 ^ 1 := rfl
      _ ≤ n := Nat.pow_le_pow_right (by norm_num) hN.pos
  have n1 : 1 ≤ n := by omega
  obtain ⟨hE0, hE1⟩ := i1.good
  obtain ⟨-, hE2⟩ := i2.good
  have l1 : 1 < S.l := by omega
  have cop11 : b11.Coprime S.l := by
    rw [Nat.coprime_iff_isRelPrime]
    intro d h1 h2
    have : d ∣ b11 * b22 := h1.mul_right _
    have h3 := (Nat.dvd_mod_iff h2).mpr this
    rw [hi] at h3
    exact isUnit_of_dvd_one h3
  have cop22 : b22.Coprime S.l := by
    rw [Nat.coprime_iff_isRelPrime]
    intro d h1 h2
    have : d ∣ b11 * b22 := h1.mul_left _
    have h3 := (Nat.dvd_mod_iff h2).mpr this
    rw [hi] at h3
    exact isUnit_of_dvd_one h3
  -- the basis of order n
  have bn : IsBasis n (4 • b11 • Pb) (4 • b22 • Qb) := by
    have : IsBasis (4 * n) (b11 • Pb) (b22 • Qb) := by
      rw [← hl]
      intro a b
      have := hb (a * b11) (b * b22)
      rw [mul_zsmul, mul_zsmul, natCast_zsmul, natCast_zsmul] at this
      rw [this]
      have c1 : IsCoprime (S.l : Int) b11 := (Nat.isCoprime_iff_coprime.mpr cop11).symm
      have c2 : IsCoprime (S.l : Int) b22 := (Nat.isCoprime_iff_coprime.mpr cop22).symm
      exact and_congr ⟨c1.dvd_of_dvd_mul_right, fun h => h.mul_right _⟩
        ⟨c2.dvd_of_dvd_mul_right, fun h => h.mul_right _⟩
    exact this.nsmul (by norm_num)
  have codd : ∀ {d : Nat}, d % 2 = 1 → n.Coprime d := fun h => (two_pow_coprime h).symm
  have o2 : (S.c.dA1 * S.c.dA2 * S.d2) % 2 = 1 := by
    rw [Nat.mul_mod, Nat.mul_mod S.c.dA1, hN.oddA1, hN.oddA2, hS.odd2]
  have b1 := bn.map (i1.inj n1 hS.odd1 (codd hS.odd1))
  have b2 := bn.map (i2.inj n1 o2 (codd o2))
  have w1 := i1.weil n2 hS.odd1 (codd hS.odd1) bn
  have w2 := i2.weil n2 o2 (codd o2) bn
  -- the second pair
  have hgn : S.g2.Coprime n := by
    have h1 : Nat.Coprime (S.c.m1 * S.d1) S.l := by
      rw [hS.l_eq]
      exact two_pow_coprime (by rw [Nat.mul_mod, hS.oddm1, hS.odd1])
    have h2 : Nat.Coprime (S.g2 * (S.c.m2 * S.c.dA2 * S.d2)) S.l := by
      rw [Nat.Coprime, hS.g2.gcd_eq]; exact h1
    refine (Nat.Coprime.coprime_mul_right h2).coprime_dvd_right ?_
    rw [hl]; exact dvd_mul_left _ _
  have red : ∀ {x : Nat} {X : MPoint E2.A}, x ≡ S.g2 [MOD S.l] → S.l • X = 0 → x • X = S.g2 • X := by
    intro x X hx hX
    rw [← Nat.mod_add_div x S.l, ← Nat.mod_add_div S.g2 S.l, hx, add_nsmul, add_nsmul, mul_comm, mul_nsmul', hX,
      mul_comm, mul_nsmul', hX, nsmul_zero, nsmul_zero]
  have tP : S.l • b11 • φ Pb = 0 := by
    rw [smul_comm, ← map_nsmul, hb.nsmul_left, map_zero, nsmul_zero]
  have tQ : S.l • b22 • φ Qb = 0 := by
    rw [smul_comm, ← map_nsmul, hb.nsmul_right, map_zero, nsmul_zero]
  rw [red hg tP] at hr2
  rw [red hg' tQ] at hs2
  have w3 := b2.we_smul hE2 n2 hgn
  have b3 := b2.smul_unit hgn
  have four : ∀ {E : Crv K}, E.Good → ∀ {p : Pt K} {X : MPoint E.A}, PRep p X → PRep (E.doubleIter p 2) (4 • X) := by
    intro E hE p X hp
    exact (C26_double hE hp 2).2
  have wv : ∀ {E : Crv K}, E.Good → ∀ {x y : Pt K} {X Y : MPoint E.A}, IsBasis n X Y → PRep x X → PRep y Y →
      weilPairing chk E x y n = some (we n X Y) := fun hE _ _ _ _ hb hx hy =>
    weilPairing_spec hE chk hx hy n n1 hb.nsmul_left hb.nsmul_right
      (chainFree_of_order n1 hb.order_left) (chainFree_of_order n1 hb.order_right) (IsBasis.nd hb n2)
  have f1 := four hE1 hr1
  have f2 := four hE1 hs1
  have f3 := four hE2 hr2
  have f4 := four hE2 hs2
  refine ⟨_, _, wv hE1 b1 (by rw [map_nsmul, map_nsmul]; exact f1) (by rw [map_nsmul, map_nsmul]; exact f2),
    wv hE2 b3 (by rw [map_nsmul, map_nsmul, smul_comm]; exact f3)
      (by rw [map_nsmul, map_nsmul, smul_comm]; exact f4), ?_⟩
  rw [w1, w3, w2, ← pow_mul, ← pow_add]
  have ord := bn.we_orderOf hE0.two hE0.disc n2
  rw [← orderOf_dvd_iff_pow_eq_one, ord]
  -- the exponent
  have hu : n.Coprime (S.c.m2 ^ 2 * S.c.dA2 * S.d2) := codd (by
    rw [Nat.mul_mod, Nat.mul_mod (S.c.m2 ^ 2), Nat.pow_mod, hN.oddm2, hN.oddA2, hS.odd2])
  refine hu.dvd_of_dvd_mul_left ?_
  have hgl := (hS.g2.of_dvd (show n ∣ S.l by rw [hl]; exact dvd_mul_left _ _))
  have hsq := (hgl.mul hgl).mul_left S.c.dA1
  have h1 := hsq.add_left (S.c.m2 ^ 2 * S.c.dA2 * S.d2 * S.d1)
  have e1 : S.c.m2 ^ 2 * S.c.dA2 * S.d2 * S.d1 + S.c.dA1 * (S.c.m1 * S.d1 * (S.c.m1 * S.d1)) = S.d1 * n := by
    rw [hn, ← hN.eq]; ring
  rw [e1] at h1
  have := (Nat.modEq_zero_iff_dvd.mpr (dvd_mul_left n S.d1)).symm.trans h1.symm
  have := Nat.modEq_zero_iff_dvd.mp this.symm
  convert this using 1
  ring

/-- The numbers of the code satisfy the norm equation and the coprimality conditions. -/
theorem C54_norm {F : Type} [Field F] [DecidableEq F] [CoeffOps F K] (chk : Bool) (fuel : Nat) (S : Crypto K)
    (h : Crypto.new (F := F) chk fuel festaConsts = some S) : S.Norm := by
  obtain ⟨hS, hc, -, -⟩ := C54_setup chk fuel S h
  have e1 : S.d1 = festaConsts.d1 := by
    rw [hS.d1_eq, hc]; decide +kernel
  have e2 : S.d2 = festaConsts.d2 := by
    rw [hS.d2_eq, hc]; decide +kernel
  constructor <;> rw [hc] <;> try rw [e1]
  all_goals try rw [e2]
  all_goals decide +kernel

/-- C54, inversion, partial: what is assumed is that the chain of (2,2)-isogenies is the one of Kani's lemma,
that is, that the points on `EA'` are, up to sign, the images of `(Pd1' + R1, Pd2')` and `(Qd1' + S1, Qd2')` under
`(U, V) ↦ m1 φA1(φ1^(U)) + m2 φA2^(φ2^(V))`, where `^` is the dual isogeny.  Then `trapdoor_inverse` returns the
input of the trapdoor function; in particular the debug assertion on the pairings does not stop it.  As in
`C54_recover_partial` the four points generating the kernels must, if multiples of the first basis point, meet no zero in the
Miller loops (`AxisFree`; needed, `C54_zero_fails`) and not be killed by the numbers met in those loops.  Concrete case, with all hypotheses proved: `toy_invert` in
`Verif/Props/SchemeCase.lean`. -/
theorem C54_inverse_partial (chk : Bool) (fuel : Nat) (S : Crypto K) (hS : S.Sound chk) (hN : S.Norm)
    (pk : PublicKey K) (sk : SecretKey K) (m : TrapdoorInput) (c : TrapdoorOutput K)
    {φA1 : MPoint S.E0.A →+ MPoint sk.EA'.A} {φA2 : MPoint sk.EA'.A →+ MPoint pk.EA.A}
    {φ1 : MPoint S.E0.A →+ MPoint c.E1.A} {φ2 : MPoint pk.EA.A →+ MPoint c.E2.A}
    {Pb Qb Pd1 Qd1 : MPoint S.E0.A} {PA QA : MPoint pk.EA.A}
    (hb : IsBasis S.l Pb Qb) (hb1 : IsBasis S.d1 Pd1 Qd1) (hbA : IsBasis S.d2 PA QA)
    (hkey : KeyRel S pk sk φA1 φA2 Pb Qb Pd1 Qd1 PA QA)
    (hout : OutRel S pk m c φ1 φ2 Pb Qb Pd1 Qd1 (sk.a11 • φA2 (φA1 Pb)) (sk.a22 • φA2 (φA1 Qb)) PA QA)
    (hs1 : m.s1 < S.d1) (hs2 : m.s2 < S.d2) (hb11 : m.b11 % 2 = 1)
    (hlt : m.b11 < S.l / 2) (hb22 : m.b22 < S.l) (hinv : m.b11 * m.b22 % S.l = 1)
    -- the bases of the second halves
    {x1 y1 x2 y2 : Pt K} {X1 Y1 : MPoint c.E1.A} {X2 Y2 : MPoint c.E2.A}
    (ht1 : torsionBasis chk fuel c.E1 S.c.f1 S.c.lPower.toNat = some (x1, y1))
    (_hx1 : PRep x1 X1) (_hy1 : PRep y1 Y1) (hbx : IsBasis S.d1 X1 Y1)
    (ht2 : torsionBasis chk fuel c.E2 S.c.f2 S.c.lPower.toNat = some (x2, y2))
    (_hx2 : PRep x2 X2) (_hy2 : PRep y2 Y2) (hby : IsBasis S.d2 X2 Y2)
    -- the dual isogenies
    {ψ1 : MPoint c.E1.A →+ MPoint S.E0.A} {ψ2 : MPoint c.E2.A →+ MPoint pk.EA.A}
    {ψA2 : MPoint pk.EA.A →+ MPoint sk.EA'.A} (hD1 : DualOn (S.l * S.d1) S.d1 φ1 ψ1)
    (hD2 : DualOn S.d2 S.d2 φ2 ψ2) (hDA : ∀ X, S.d2 • X = 0 → ψA2 (φA2 X) = S.c.dA2 • X)
    -- the chain of (2,2)-isogenies
    {a b : Nat} {r s gP gQ : Pt K} (ha : xgcdBig sk.a11 S.l = some a) (hb' : xgcdBig sk.a22 S.l = some b)
    (hr : c.E2.mulBig c.R2 a = some r) (hs : c.E2.mulBig c.S2 b = some s)
    (hgP : c.E2.mulBig r S.g2 = some gP) (hgQ : c.E2.mulBig s S.g2 = some gQ)
    {E34 : EProd K} {I1 I2 : CPt K} {l1 l2 : Pt K}
    (hiso : productIsogeny ⟨c.E1, c.E2⟩ ⟨c.R1, gP⟩ ⟨c.S1, gQ⟩
      [⟨c.E1.add x1 c.R1, x2⟩, ⟨c.E1.add y1 c.S1, y2⟩] S.c.thetaLen S.c.strategy = some (E34, [I1, I2]))
    (hch : chooseFactor chk sk.EA' E34 I1 I2 = some (l1, l2))
    {L1 L2 : MPoint sk.EA'.A} (hl1 : PRep l1 L1) (hl2 : PRep l2 L2)
    (hL1 : L1 = S.c.m1 • φA1 (ψ1 (X1 + m.b11 • φ1 Pb)) + S.c.m2 • ψA2 (ψ2 X2) ∨
      L1 = -(S.c.m1 • φA1 (ψ1 (X1 + m.b11 • φ1 Pb)) + S.c.m2 • ψA2 (ψ2 X2)))
    (hL2 : L2 = S.c.m1 • φA1 (ψ1 (Y1 + m.b22 • φ1 Qb)) + S.c.m2 • ψA2 (ψ2 Y2) ∨
      L2 = -(S.c.m1 • φA1 (ψ1 (Y1 + m.b22 • φ1 Qb)) + S.c.m2 • ψA2 (ψ2 Y2)))
    (hax1 : ∀ L ∈ [L1, L2], AxisFree S.d1 (S.l • φA1 (Pb + Pd1)) (S.d2 • (S.l • L)))
    (hax2 : ∀ L ∈ [L1, L2], ∀ P2, PRep sk.P2 P2 → AxisFree S.d2 P2 (S.d1 • (S.l • L)))
    (hc1 : ∀ L ∈ [L1, L2], ChainFree S.d1 (S.d2 • (S.l • L)))
    (hc2 : ∀ L ∈ [L1, L2], ChainFree S.d2 (S.d1 • (S.l • L))) :
    S.trapdoorInverse chk fuel c sk = some m := by
  obtain ⟨k, P2, Q2, hk, hP2, hQ2, tP2, tQ2, kP, kQ⟩ := hkey.basis
  obtain ⟨hE0, hA'⟩ := hkey.isog1.good
  obtain ⟨-, hA⟩ := hkey.isog2.good
  obtain ⟨-, hE1⟩ := hout.isog1.good
  obtain ⟨-, hE2⟩ := hout.isog2.good
  have hlpos : 0 < S.l := by rw [hS.l_eq]; positivity
  have l1' : 1 < S.l := by rw [hS.l_eq]; exact Nat.one_lt_two_pow (by have := hS.l_big; omega)
  have d1pos : 1 ≤ S.d1 := by have := hS.odd1; omega
  have d2pos : 1 ≤ S.d2 := by have := hS.odd2; omega
  have cl1 : S.l.Coprime S.d1 := by rw [hS.l_eq]; exact (two_pow_coprime hS.odd1).symm
  have cl2 : S.l.Coprime S.d2 := by rw [hS.l_eq]; exact (two_pow_coprime hS.odd2).symm
  -- the points for the debug assertion
  have inv1 : a * sk.a11 ≡ 1 [MOD S.l] :=
    inv_modEq l1' (by rw [hS.l_eq]; exact two_pow_coprime hkey.odd11) ha
  have inv2 : b * sk.a22 ≡ 1 [MOD S.l] :=
    inv_modEq l1' (by rw [hS.l_eq]; exact two_pow_coprime hkey.odd22) hb'
  obtain ⟨r', er, gr⟩ := C27_mul_big hE2 hout.r2 a
  obtain ⟨s', es, gs⟩ := C27_mul_big hE2 hout.s2 b
  rw [hr, Option.some.injEq] at er; subst er
  rw [hs, Option.some.injEq] at es; subst es
  obtain ⟨gP', eP, ggP⟩ := C27_mul_big hE2 gr S.g2
  obtain ⟨gQ', eQ, ggQ⟩ := C27_mul_big hE2 gs S.g2
  rw [hgP, Option.some.injEq] at eP; subst eP
  rw [hgQ, Option.some.injEq] at eQ; subst eQ
  have isA := (hkey.isog1.comp hkey.isog2).comp hout.isog2
  obtain ⟨e1, e2, w1, w2, w12⟩ := glue_pairing chk hS hN hout.isog1 isA hb m.b11 m.b22
    (S.g2 * (a * sk.a11)) (S.g2 * (b * sk.a22)) hinv (by simpa using inv1.mul_left S.g2)
    (by simpa using inv2.mul_left S.g2) hout.r1 hout.s1 (r2 := gP) (s2 := gQ)
    (by
      convert ggP using 1
      simp only [AddMonoidHom.comp_apply, map_nsmul, ← mul_nsmul']
      congr 1; ring)
    (by
      convert ggQ using 1
      simp only [AddMonoidHom.comp_apply, map_nsmul, ← mul_nsmul']
      congr 1; ring)
  -- the bases on `EA'`
  have bs : IsBasis (S.l * S.d1) (Pb + Pd1) (Qb + Qd1) := hb.sum cl1 hb1
  have oA1 : (S.l * S.d1).Coprime S.c.dA1 := Nat.Coprime.mul_left
    (by rw [hS.l_eq]; exact (two_pow_coprime hN.oddA1).symm) hN.copA1.symm
  have bs' := bs.map (hkey.isog1.inj (Nat.mul_pos hlpos d1pos) hN.oddA1 oA1)
  have bPQ : IsBasis S.d2 P2 Q2 := by
    intro x y
    constructor
    · intro h
      have := congrArg φA2 h
      rw [map_add, map_zsmul, map_zsmul, kP, kQ, map_zero] at this
      exact ((hbA.smul_unit hk) x y).mp this
    · rintro ⟨⟨u, rfl⟩, v, rfl⟩
      rw [mul_comm, mul_zsmul, natCast_zsmul, tP2, mul_comm, mul_zsmul, natCast_zsmul, tQ2]; simp
  -- torsion of the pieces
  have tψ1 : ∀ {Z : MPoint c.E1.A}, S.d1 • Z = 0 → S.d1 • φA1 (ψ1 Z) = 0 := by
    intro Z hZ; rw [← map_nsmul, ← map_nsmul, hZ, map_zero, map_zero]
  have tψ2 : ∀ {Z : MPoint c.E2.A}, S.d2 • Z = 0 → S.d2 • ψA2 (ψ2 Z) = 0 := by
    intro Z hZ; rw [← map_nsmul, ← map_nsmul, hZ, map_zero, map_zero]
  have tn : ∀ {Z : MPoint S.E0.A}, S.l • Z = 0 → (S.l * S.d1) • Z = 0 := by
    intro Z hZ; rw [mul_comm, mul_nsmul', hZ, nsmul_zero]
  have hψ : ∀ {Z : MPoint S.E0.A} (u : Nat), S.l • Z = 0 → ψ1 (u • φ1 Z) = u • S.d1 • Z := by
    intro Z u hZ; rw [map_nsmul, hD1.left Z (tn hZ)]
  -- multiples of the two points
  have m1 : ∀ {U : MPoint c.E1.A} {V : MPoint c.E2.A} {Z : MPoint S.E0.A} {L : MPoint sk.EA'.A} (u : Nat),
      S.d1 • U = 0 → S.d2 • V = 0 → S.l • Z = 0 →
      (L = S.c.m1 • φA1 (ψ1 (U + u • φ1 Z)) + S.c.m2 • ψA2 (ψ2 V) ∨
        L = -(S.c.m1 • φA1 (ψ1 (U + u • φ1 Z)) + S.c.m2 • ψA2 (ψ2 V))) →
      (S.d1d2 • L = (S.d1 * S.d1d2 * S.c.m1 * u) • φA1 Z ∨
        S.d1d2 • L = -((S.d1 * S.d1d2 * S.c.m1 * u) • φA1 Z)) ∧
      (S.d2 • (S.l • L) = (S.d2 * S.l * S.c.m1) • φA1 (ψ1 U) ∨
        S.d2 • (S.l • L) = -((S.d2 * S.l * S.c.m1) • φA1 (ψ1 U))) ∧
      (S.d1 • (S.l • L) = (S.d1 * S.l * S.c.m2) • ψA2 (ψ2 V) ∨
        S.d1 • (S.l • L) = -((S.d1 * S.l * S.c.m2) • ψA2 (ψ2 V))) := by
    intro U V Z L u hU hV hZ hL
    have t1 := tψ1 hU
    have t2 := tψ2 hV
    have t3 : S.l • φA1 Z = 0 := by rw [← map_nsmul, hZ, map_zero]
    rw [map_add, hψ u hZ, map_add, map_nsmul φA1, map_nsmul φA1] at hL
    generalize φA1 (ψ1 U) = W1 at *
    generalize ψA2 (ψ2 V) = W2 at *
    generalize φA1 Z = W3 at *
    have c1 : S.d1d2 • (S.c.m1 • (W1 + u • S.d1 • W3) + S.c.m2 • W2) =
        (S.d1 * S.d1d2 * S.c.m1 * u) • W3 := by
      calc _ = (S.d2 * S.c.m1) • S.d1 • W1 + (S.d1 * S.c.m2) • S.d2 • W2 +
            (S.d1 * S.d1d2 * S.c.m1 * u) • W3 := by rw [hS.d1d2_eq]; module
        _ = _ := by rw [t1, t2, smul_zero, smul_zero, zero_add, zero_add]
    have c2 : S.d2 • (S.l • (S.c.m1 • (W1 + u • S.d1 • W3) + S.c.m2 • W2)) =
        (S.d2 * S.l * S.c.m1) • W1 := by
      calc _ = (S.d2 * S.l * S.c.m1) • W1 + (S.d2 * S.c.m1 * u * S.d1) • S.l • W3 +
            (S.l * S.c.m2) • S.d2 • W2 := by module
        _ = _ := by rw [t3, t2, smul_zero, smul_zero, add_zero, add_zero]
    have c3 : S.d1 • (S.l • (S.c.m1 • (W1 + u • S.d1 • W3) + S.c.m2 • W2)) =
        (S.d1 * S.l * S.c.m2) • W2 := by
      calc _ = (S.l * S.c.m1) • S.d1 • W1 + (S.d1 * S.c.m1 * u * S.d1) • S.l • W3 +
            (S.d1 * S.l * S.c.m2) • W2 := by module
        _ = _ := by rw [t3, t1, smul_zero, smul_zero, zero_add, zero_add]
    rcases hL with rfl | rfl
    · exact ⟨Or.inl c1, Or.inl c2, Or.inl c3⟩
    · rw [smul_neg, smul_neg, smul_neg, smul_neg, c1, c2, c3]
      exact ⟨Or.inr rfl, Or.inr rfl, Or.inr rfl⟩
  obtain ⟨p1, p2, p3⟩ := m1 m.b11 hbx.nsmul_left hby.nsmul_left hb.nsmul_left hL1
  obtain ⟨-, q2, q3⟩ := m1 m.b22 hbx.nsmul_right hby.nsmul_right hb.nsmul_right hL2
  -- the two groups
  have span : ∀ X : MPoint S.E0.A, S.d1 • X = 0 → ∃ a b : Int, X = a • Pd1 + b • Qd1 :=
    fun X hX => span_basis hE0.two hE0.disc d1pos hb1 hX
  have spanA : ∀ X : MPoint pk.EA.A, S.d2 • X = 0 → ∃ a b : Int, X = a • PA + b • QA :=
    fun X hX => span_basis hA.two hA.disc d2pos hbA hX
  have g1 := map_closure_pair φA1 _ _ _
    (dual_closure d1pos (dvd_mul_left _ _) hb1 span hout.ker1 hD1 hbx)
  have g2 := map_closure_pair ψA2 _ _ _ (dual_closure d2pos dvd_rfl hbA spanA hout.ker2 hD2 hby)
  have tK : S.d1 • (φA1 (Pd1 + m.s1 • Qd1)) = 0 := by
    rw [← map_nsmul, nsmul_add, smul_comm, hb1.nsmul_left, hb1.nsmul_right]; simp
  have tKA : S.d2 • (ψA2 (PA + m.s2 • QA)) = 0 := by
    rw [← map_nsmul, nsmul_add, smul_comm, hbA.nsmul_left, hbA.nsmul_right]; simp
  have tK2 : S.d2 • (P2 + m.s2 • Q2) = 0 := by
    rw [nsmul_add, smul_comm, tP2, tQ2]; simp
  have hK1 : AddSubgroup.closure {S.d2 • (S.l • L1), S.d2 • (S.l • L2)} =
      AddSubgroup.zmultiples (S.l • φA1 (Pb + Pd1) + m.s1 • (S.l • φA1 (Qb + Qd1))) := by
    rw [closure_units (tψ1 hbx.nsmul_left) (tψ1 hbx.nsmul_right) ?_ p2 q2, g1, ← zmultiples_unit tK cl1]
    · congr 1
      have z1 : S.l • φA1 Pb = 0 := by rw [← map_nsmul, hb.nsmul_left, map_zero]
      have z2 : S.l • φA1 Qb = 0 := by rw [← map_nsmul, hb.nsmul_right, map_zero]
      rw [map_add, map_add, map_add, map_nsmul, nsmul_add, nsmul_add, nsmul_add, z1, z2, zero_add, zero_add,
        smul_comm]
    · exact Nat.Coprime.mul_left (Nat.Coprime.mul_left hS.cop.symm cl1) hN.cop1
  have hK2 : AddSubgroup.closure {S.d1 • (S.l • L1), S.d1 • (S.l • L2)} =
      AddSubgroup.zmultiples (P2 + m.s2 • Q2) := by
    rw [closure_units (tψ2 hby.nsmul_left) (tψ2 hby.nsmul_right) ?_ p3 q3, g2, ← zmultiples_unit tKA hk,
      ← zmultiples_unit tK2 hN.copA2]
    · congr 1
      rw [← hDA _ tK2, ← map_nsmul]
      congr 1
      rw [map_add, map_nsmul, kP, kQ, nsmul_add, smul_comm]
    · exact Nat.Coprime.mul_left (Nat.Coprime.mul_left hS.cop cl2) hN.cop2
  have hclear : S.clearD1 • φA1 (Pb + Pd1) = φA1 Pb := by
    obtain ⟨h1, e, he⟩ := hS.clear1
    have z : S.clearD1 • Pd1 = 0 := by rw [he, mul_comm, mul_nsmul', hb1.nsmul_left, nsmul_zero]
    have z' : S.clearD1 • Pb = Pb := by
      have := h1
      rw [← Nat.mod_add_div S.clearD1 S.l, this, Nat.mod_eq_of_lt l1', add_nsmul, one_nsmul, mul_comm, mul_nsmul',
        hb.nsmul_left, nsmul_zero, add_zero]
    rw [← map_nsmul, nsmul_add, z, z', add_zero]
  have fin := C54_recover_partial chk S hS hA' hl1 hl2 hkey.p1 hkey.q1 hP2 hQ2 bs' bPQ m hs1 hs2 hb11 hlt
    hb22 hinv (by rw [hclear]; exact p1) hK1 hK2 hax1 (fun L hL => hax2 L hL P2 hP2) hc1 hc2
  unfold Crypto.trapdoorInverse
  simp only [Option.bind_eq_bind, ha, hb', hr, hs, hgP, hgQ, ht1, ht2, w1, w2, hiso, hch, w12, Option.bind_some]
  simpa using fin

end Festa

import Verif.Lemmas.IsogenyChain
import Verif.Lemmas.PairingTest
import Verif.Lemmas.WeilBasis
import Verif.Spec.TestField3
import Verif.Props.Supersingular
/-! Odd-degree isogenies: single steps and chains. -/
namespace Festa
variable {K : Type*} [Field K] [DecidableEq K] [RootOps K]

/-! ### C45 -/

/-- A Kummer-line isogeny built from a point of odd order: nothing panics, the codomain is a good
curve, and the value computes a group homomorphism whose kernel is the group generated by the point. -/
theorem C45_step (chk : Bool) {E : Crv K} (hE : E.Good) {P : Pt K} {R : MPoint E.A} (hP : PRep P R)
    {n : UInt64} (ho : addOrderOf R = n.toNat) (hodd : n.toNat % 2 = 1) (h1 : n.toNat ≠ 1) :
    ∃ E' ms, KIso.new chk E P n = some ⟨E, E', P, n, ms⟩ ∧
      ∃ φ : MPoint E.A →+ MPoint E'.A, IsStep ⟨E, E', P, n, ms⟩ φ ∧
        ∀ Q : MPoint E.A, φ Q = 0 ↔ Q ∈ AddSubgroup.zmultiples R :=
  new_spec chk hE hP ho hodd (fun _ => h1)

/-- What this says about the code alone: points of the curve go to points of the new curve, exactly the
multiples of the kernel point go to infinity, and the image's x-coordinate depends only on the
x-coordinate of the argument, not on its scaling, its sign, or the scaling of the kernel point. -/
theorem C45_evaluation (chk : Bool) {E : Crv K} (hE : E.Good) {P P2 : Pt K} {R : MPoint E.A}
    (hP : PRep P R) (hP2 : PRep P2 R ∨ PRep P2 (-R)) {n : UInt64} (ho : addOrderOf R = n.toNat)
    (hodd : n.toNat % 2 = 1) (h1 : n.toNat ≠ 1) :
    ∃ f f2, KIso.new chk E P n = some f ∧ KIso.new chk E P2 n = some f2 ∧
      f2.codomain = f.codomain ∧ f.codomain.Good ∧
      ∀ (Q : MPoint E.A) (S S2 : Pt K), PRep S Q → (PRep S2 Q ∨ PRep S2 (-Q)) →
        f.codomain.onCurve (f.eval S) = true ∧
        ((f.eval S).isInf = true ↔ Q ∈ AddSubgroup.zmultiples R) ∧
        ((f2.eval S2).isInf = true ↔ Q ∈ AddSubgroup.zmultiples R) ∧
        (Q ∉ AddSubgroup.zmultiples R → (f2.eval S2).X * (f.eval S).Z = (f.eval S).X * (f2.eval S2).Z) := by
  obtain ⟨E', ms, e, φ, hs, hk⟩ := new_spec chk hE hP ho hodd (fun _ => h1)
  obtain ⟨d, hd⟩ : ∃ d, n.toNat = 2 * d + 1 := ⟨n.toNat / 2, by omega⟩
  have hdd : (n.toNat - 1) / 2 = d := by omega
  obtain ⟨R', hR', -, -, hx, hcod⟩ := hs.ker
  obtain rfl : R' = R := prep_unique hR' hP
  obtain ⟨hae, -⟩ := velu hE.two hE.disc (ho.trans hd) rfl rfl
  obtain ⟨E2, ms2, e2, φ2, hs2, hk2, hx2, hcod2⟩ : ∃ E2 ms2, KIso.new chk E P2 n = some ⟨E, E2, P2, n, ms2⟩ ∧
      ∃ φ2 : MPoint E.A →+ MPoint E2.A, IsStep ⟨E, E2, P2, n, ms2⟩ φ2 ∧
        (∀ Q : MPoint E.A, φ2 Q = 0 ↔ Q ∈ AddSubgroup.zmultiples R') ∧
        (∀ Q, Q ∉ AddSubgroup.zmultiples R' →
          xc (φ2 Q) * (∏ i ∈ Finset.range ((n.toNat - 1) / 2), (xc Q - xc ((i + 1) • R'))) ^ 2 =
          xc Q * (∏ i ∈ Finset.range ((n.toNat - 1) / 2), (xc Q * xc ((i + 1) • R') - 1)) ^ 2) ∧
        (E2.A + 2) * ((E.A - 2) ^ n.toNat *
          ∏ i ∈ Finset.range ((n.toNat - 1) / 2), (xc ((i + 1) • R') - 1) ^ 8) =
        (E2.A - 2) * ((E.A + 2) ^ n.toNat *
          ∏ i ∈ Finset.range ((n.toNat - 1) / 2), (xc ((i + 1) • R') + 1) ^ 8) := by
    rcases hP2 with h | h
    · obtain ⟨E2, ms2, e2, φ2, hs2, hk2⟩ := new_spec chk hE h ho hodd (fun _ => h1)
      obtain ⟨R2, hR2, -, -, hx2, hcod2⟩ := hs2.ker
      obtain rfl : R2 = R' := prep_unique hR2 h
      exact ⟨E2, ms2, e2, φ2, hs2, hk2, hx2, hcod2⟩
    · obtain ⟨E2, ms2, e2, φ2, hs2, hk2⟩ := new_spec chk hE h ((addOrderOf_neg R').trans ho) hodd (fun _ => h1)
      obtain ⟨R2, hR2, -, -, hx2, hcod2⟩ := hs2.ker
      obtain rfl : R2 = -R' := prep_unique hR2 h
      simp only [zmul_neg, smul_neg, xc_neg] at hk2 hx2 hcod2
      exact ⟨E2, ms2, e2, φ2, hs2, hk2, hx2, hcod2⟩
  have hA : E2.A = E'.A := by
    simp only [hdd, Finset.prod_pow] at hcod hcod2
    rw [hd] at hcod hcod2
    refine mul_right_cancel₀ (sub_ne_zero.mpr hae) ?_
    linear_combination hcod - hcod2
  have hEE : E2 = E' := by
    have g1 := hs2.cod.a24
    have g2 := hs.cod.a24
    simp only at g1 g2
    obtain ⟨A, c⟩ := E2
    obtain ⟨A', c'⟩ := E'
    simp only at hA g1 g2
    subst hA
    have h4 : (4 : K) ≠ 0 := by
      have : (4 : K) = 2 * 2 := by norm_num
      rw [this]; exact mul_ne_zero hE.two hE.two
    rw [mul_left_cancel₀ h4 (g1.trans g2.symm)]
  subst hEE
  refine ⟨_, _, e, e2, rfl, hs.cod, ?_⟩
  intro Q S S2 hS hS2
  have r1 := hs.eval S Q hS
  have r2 : PRep ((⟨E, E2, P2, n, ms2⟩ : KIso K).eval S2) (φ2 Q) ∨
      PRep ((⟨E, E2, P2, n, ms2⟩ : KIso K).eval S2) (-φ2 Q) := by
    rcases hS2 with h | h
    · exact hs2.eval S2 Q h
    · have := hs2.eval S2 _ h
      rw [map_neg, neg_neg] at this
      exact this.symm
  have inf1 : ∀ {A : K} {T : Pt K} {X : MPoint A}, PRep T X ∨ PRep T (-X) → (T.isInf = true ↔ X = 0) := by
    intro A T X h
    rcases h with h | h
    · exact C24_isinfinity h
    · rw [C24_isinfinity h, neg_eq_zero]
  have x1 : ∀ {A : K} {T : Pt K} {X : MPoint A}, PRep T X ∨ PRep T (-X) → X ≠ 0 → T.X = xc X * T.Z := by
    intro A T X h h0
    rcases h with h | h
    · exact (prep_ne h h0).2
    · rw [(prep_ne h (neg_ne_zero.mpr h0)).2, xc_neg]
  refine ⟨?_, ?_, ?_, ?_⟩
  · refine ((C28_on_curve hs.cod _).1).mpr ?_
    rcases r1 with h | h
    · exact ⟨_, h⟩
    · exact ⟨_, h⟩
  · rw [inf1 r1, hk]
  · rw [inf1 r2, hk2]
  · intro hQ
    have h0 : φ Q ≠ 0 := fun h => hQ ((hk Q).mp h)
    have h0' : φ2 Q ≠ 0 := fun h => hQ ((hk2 Q).mp h)
    have hxx : xc (φ2 Q) = xc (φ Q) := by
      have hp : (∏ i ∈ Finset.range ((n.toNat - 1) / 2), (xc Q - xc ((i + 1) • R'))) ≠ 0 := by
        refine Finset.prod_ne_zero_iff.mpr fun i hi h => ?_
        rw [Finset.mem_range, hdd] at hi
        have hQ0 : Q ≠ 0 := fun h => hQ (h ▸ zero_mem _)
        have hR : (i + 1) • R' ≠ 0 := by
          intro h
          have := Nat.le_of_dvd (by omega) (addOrderOf_dvd_of_nsmul_eq_zero h)
          omega
        rcases (xc_eq_iff hQ0 hR).mp (sub_eq_zero.mp h) with e1 | e1
        · exact hQ (e1 ▸ AddSubgroup.nsmul_mem_zmultiples R' _)
        · exact hQ (e1 ▸ neg_mem (AddSubgroup.nsmul_mem_zmultiples R' _))
      exact mul_right_cancel₀ (pow_ne_zero 2 hp) ((hx2 Q hQ).trans (hx Q hQ).symm)
    rw [x1 r1 h0, x1 r2 h0', hxx]
    ring

/-- `y² = x³ + 8x² + x` over the field with 257 elements has a point of order 63. -/
def e63 : Crv F257 := ⟨8, 131⟩
def p63 : Pt F257 := ⟨24, 6, 3⟩

theorem e63_good : e63.Good := ⟨by decide +kernel, by decide +kernel, by decide +kernel⟩

theorem p63_ex : ∃ R : MPoint e63.A, PRep p63 R ∧ addOrderOf R = 63 := by
  obtain ⟨R, hR⟩ := ((C28_on_curve e63_good p63).1).mp (by decide +kernel)
  refine ⟨R, hR, ?_⟩
  refine addOrderOf_eq_of_nsmul_and_div_prime_nsmul (by norm_num)
    (nsmul_eq_zero_of e63_good hR (by decide +kernel)) ?_
  intro p hp hd h
  have hmem : p = 3 ∨ p = 7 := by
    have h2 : p ∣ 3 * (3 * 7) := hd
    rcases (Nat.Prime.dvd_mul hp).mp h2 with h | h
    · exact Or.inl ((Nat.prime_dvd_prime_iff_eq hp (by norm_num)).mp h)
    rcases (Nat.Prime.dvd_mul hp).mp h with h | h
    · exact Or.inl ((Nat.prime_dvd_prime_iff_eq hp (by norm_num)).mp h)
    · exact Or.inr ((Nat.prime_dvd_prime_iff_eq hp (by norm_num)).mp h)
  have key : ∀ m, (e63.mulBig p63 m).map Pt.isInf = some false → m • R ≠ 0 := by
    intro m hm h0
    obtain ⟨T, h1, h2⟩ := C27_mul_big e63_good hR m
    rw [h1, Option.map_some, (C24_isinfinity h2).mpr h0] at hm
    exact absurd hm (by decide)
  rcases hmem with rfl | rfl
  · exact key 21 (by decide +kernel) h
  · exact key 9 (by decide +kernel) h

/-- The hypotheses of C45 hold for the point of order 63, taken as a single step of degree 63. -/
example : ∃ R : MPoint e63.A, PRep p63 R ∧ addOrderOf R = (63 : UInt64).toNat ∧
    (63 : UInt64).toNat % 2 = 1 ∧ e63.Good := by
  obtain ⟨R, h1, h2⟩ := p63_ex
  exact ⟨R, h1, h2, by decide, e63_good⟩

/-! ### C46 -/

/-- A chain is evaluated as the composition of its steps, up to sign, and the curve returned is the
last one. -/
theorem C46_evaluate {E E' : Crv K} {L : List (KIso K)} {φ : MPoint E.A →+ MPoint E'.A}
    (h : IsChain E L E' φ) {P : Pt K} {Q : MPoint E.A} (hP : PRep P Q) :
    (evalChain E P L).1 = E' ∧ (PRep (evalChain E P L).2 (φ Q) ∨ PRep (evalChain E P L).2 (-φ Q)) := by
  rw [evalChain_fst h P]
  exact ⟨rfl, h.fold (Or.inl hP)⟩

/-- The chain for a kernel of factored odd order: for every `(l, e)` of the list, in order, `e` steps of
degree `l`, each from a point of order `l` of the curve reached so far, with the group generated by the
given point as the kernel of the composition. -/
theorem C46_factored (chk : Bool) {E : Crv K} (hE : E.Good) {P : Pt K} {R : MPoint E.A} (hP : PRep P R)
    (fs : Factored) (hp : ∀ p ∈ fs, Nat.Prime p.1.toNat) (hd : (fs.map Prod.fst).Nodup)
    (hodd : ∀ p ∈ fs, p.1.toNat % 2 = 1) (he : ∀ p ∈ fs, p.2 ≠ 0)
    (ho : addOrderOf R = (fs.map (fun q => q.1.toNat ^ q.2.toNat)).prod) :
    ∃ L E', ∃ φ : MPoint E.A →+ MPoint E'.A, factoredIsogeny chk E P fs = some L ∧ IsChain E L E' φ ∧
      L.map KIso.degree = fs.flatMap (fun p => List.replicate p.2.toNat p.1.toUInt64) ∧
      ∀ Q, φ Q = 0 ↔ Q ∈ AddSubgroup.zmultiples R :=
  factoredLoop_spec chk fs ⟨hp, hd⟩ hodd he fs [] rfl E hE P R hP (by rw [ho, value_eq])

/-- The kernel point itself ends at infinity, as the comment at the end of the code says. -/
theorem C46_kernel_to_infinity (chk : Bool) {E : Crv K} (hE : E.Good) {P : Pt K} {R : MPoint E.A}
    (hP : PRep P R) (fs : Factored) (hp : ∀ p ∈ fs, Nat.Prime p.1.toNat) (hd : (fs.map Prod.fst).Nodup)
    (hodd : ∀ p ∈ fs, p.1.toNat % 2 = 1) (he : ∀ p ∈ fs, p.2 ≠ 0)
    (ho : addOrderOf R = (fs.map (fun q => q.1.toNat ^ q.2.toNat)).prod) :
    ∃ L, factoredIsogeny chk E P fs = some L ∧ ∀ (S : Pt K) (Q : MPoint E.A), PRep S Q →
      ((evalChain E S L).2.isInf = true ↔ Q ∈ AddSubgroup.zmultiples R) := by
  obtain ⟨L, E', φ, e, hc, -, hk⟩ := C46_factored chk hE hP fs hp hd hodd he ho
  refine ⟨L, e, fun S Q hS => ?_⟩
  obtain ⟨-, h | h⟩ := C46_evaluate hc hS
  · rw [C24_isinfinity h, hk]
  · rw [C24_isinfinity h, neg_eq_zero, hk]

/-- An exponent zero in the list makes the recursion underflow (or never end). -/
theorem C46_zero_exponent_fails (chk : Bool) (E : Crv K) (P : Pt K) (l : UInt32) (fs : Factored) :
    factoredIsogeny chk E P ((l, 0) :: fs) = none := by
  unfold factoredIsogeny
  rw [factoredLoop]
  rcases kernelCofactor E l ((l, 0) :: fs) P with _ | Q
  · rfl
  · rfl

/-- A point of order `63 = 3² · 7`: three steps of degrees 3, 3, 7, whatever the build. -/
example (chk : Bool) : ∃ L, factoredIsogeny chk e63 p63 [(3, 2), (7, 1)] = some L ∧
    L.map KIso.degree = [3, 3, 7] := by
  obtain ⟨R, h1, h2⟩ := p63_ex
  obtain ⟨L, -, -, e, -, hd, -⟩ := C46_factored chk e63_good h1 [(3, 2), (7, 1)] (by decide) (by decide)
    (by decide) (by decide) (by rw [h2]; decide)
  exact ⟨L, e, hd⟩

/-- With debug assertions a returned chain is right whatever the point given: every step has a kernel
point of exact order `l` and the degrees are those of the list. -/
theorem C46_debug {E : Crv K} (hE : E.Good) {P : Pt K} {R : MPoint E.A} (hP : PRep P R) (fs : Factored)
    (hp : ∀ p ∈ fs, Nat.Prime p.1.toNat) (hodd : ∀ p ∈ fs, p.1.toNat % 2 = 1) (L : List (KIso K))
    (h : factoredIsogeny true E P fs = some L) :
    ∃ E', ∃ φ : MPoint E.A →+ MPoint E'.A, IsChain E L E' φ ∧
      L.map KIso.degree = fs.flatMap (fun p => List.replicate p.2.toNat p.1.toUInt64) :=
  factoredLoop_debug fs fs hp hodd E hE P R hP L h

/-! ### C61 -/

theorem last_ne_nil {E E' : Crv K} {L : List (KIso K)} {φ : MPoint E.A →+ MPoint E'.A}
    (hc : IsChain E L E' φ) {fs : Factored} (hne : fs ≠ []) (he : ∀ p ∈ fs, p.2 ≠ 0)
    (hdeg : L.map KIso.degree = fs.flatMap (fun p => List.replicate p.2.toNat p.1.toUInt64)) :
    ∃ f, L.getLast? = some f ∧ f.codomain = E' := by
  rcases hc.last with ⟨rfl, rfl⟩ | h
  · exfalso
    obtain ⟨⟨l, x⟩, fs, rfl⟩ := List.exists_cons_of_ne_nil hne
    have hx := he (l, x) (by simp)
    rw [List.map_nil, List.flatMap_cons] at hdeg
    have := (List.append_eq_nil_iff.mp hdeg.symm).1
    rw [List.replicate_eq_nil_iff] at this
    exact hx (UInt32.toNat_inj.mp (by simpa using this))
  · exact h

theorem order_combo {H : Type*} [AddCommGroup H] {D : Nat} {P Q : H} (hb : IsBasis D P Q) (m : Nat) :
    addOrderOf (P + m • Q) = D := by
  refine Nat.dvd_antisymm ?_ ?_
  · refine addOrderOf_dvd_of_nsmul_eq_zero ?_
    have := (hb D (D * m)).mpr ⟨dvd_rfl, Dvd.intro _ rfl⟩
    rw [natCast_zsmul, mul_zsmul, natCast_zsmul, natCast_zsmul] at this
    rwa [nsmul_add]
  · have h : addOrderOf (P + m • Q) • (P + m • Q) = 0 := addOrderOf_nsmul_eq_zero _
    have := (hb (addOrderOf (P + m • Q)) (addOrderOf (P + m • Q) * m)).mp (by
      rw [natCast_zsmul, mul_zsmul, natCast_zsmul, natCast_zsmul, ← nsmul_add]; exact h)
    exact_mod_cast this.1

/-- The isogeny of a scalar and a torsion basis: a chain whose kernel is generated by `P + [m]Q`, and
the curve on which it ends. -/
theorem C61_from_scalar (chk : Bool) (fuel : Nat) {E : Crv K} (hE : E.Good) {p q : Pt K}
    {P Q : MPoint E.A} (hp' : PRep p P) (hq : PRep q Q) (fs : Factored) (hne : fs ≠ [])
    (hp : ∀ p ∈ fs, Nat.Prime p.1.toNat) (hd : (fs.map Prod.fst).Nodup)
    (hodd : ∀ p ∈ fs, p.1.toNat % 2 = 1) (he : ∀ p ∈ fs, p.2 ≠ 0)
    (hb : IsBasis (fs.map (fun q => q.1.toNat ^ q.2.toNat)).prod P Q) (m : Nat) :
    ∃ L E', ∃ φ : MPoint E.A →+ MPoint E'.A,
      isogenyFromScalar chk fuel E fs m (some (p, q)) = some (L, E') ∧ IsChain E L E' φ ∧
      L.map KIso.degree = fs.flatMap (fun p => List.replicate p.2.toNat p.1.toUInt64) ∧
      ∀ X, φ X = 0 ↔ X ∈ AddSubgroup.zmultiples (P + m • Q) := by
  obtain ⟨mQ, e1, h1⟩ := C27_mul_big hE hq m
  have h2 := C25_add hE hp' h1
  obtain ⟨L, E', φ, e, hc, hdeg, hk⟩ := C46_factored chk hE h2 fs hp hd hodd he (order_combo hb m)
  refine ⟨L, E', φ, ?_, hc, hdeg, hk⟩
  unfold isogenyFromScalar
  simp only [e1, e]
  obtain ⟨f, hf, rfl⟩ := last_ne_nil hc hne he hdeg
  rw [hf]; rfl

example : ∃ P Q : MPoint e59.A, PRep p59 P ∧ PRep q59 Q ∧
    IsBasis ([((59 : UInt32), (1 : UInt32))].map (fun q => q.1.toNat ^ q.2.toNat)).prod P Q := by
  obtain ⟨P, hp⟩ := p59_ex
  obtain ⟨Q, hq⟩ := q59_ex
  exact ⟨P, Q, hp, hq, basis59 hp hq⟩

/-! ### C62 -/

theorem random_rep {E : Crv K} (hE : E.Good) (fs : Factored) (hne : fs ≠ [])
    (hp : ∀ p ∈ fs, p.1 ≠ 0) (he : ∀ p ∈ fs, p.2 ≠ 0) (ep : Nat) (cands : List (Pt K))
    (hc : ∀ x ∈ cands, ∃ X : MPoint E.A, PRep x X) (T : Pt K)
    (h : randomPointOrder E cands fs ep = some T) : ∃ X : MPoint E.A, PRep T X := by
  unfold randomPointOrder at h
  split at h
  · cases h
  dsimp only at h
  have hc' : ∀ x ∈ cands.take 1000, ∃ X : MPoint E.A, PRep x X :=
    fun x hx => hc x (List.mem_of_mem_take hx)
  generalize cands.take 1000 = cs at hc' h
  induction cs with
  | nil => cases h; exact ⟨0, rfl⟩
  | cons x cs ih =>
    rw [randomPointOrder.go] at h
    obtain ⟨X, hX⟩ := hc' x (by simp)
    obtain ⟨T', r, hT', hr, hor⟩ := C41_candidate hE hX fs hne he hp (ofSlice BASIS_ORDER / fs.value) ep
    rw [hr] at h
    rcases hor with ⟨rfl, -⟩ | ⟨rfl, -⟩
    · cases h; exact ⟨_, hT'⟩
    · exact ih (fun y hy => hc' y (by simp [hy])) h

/-- With debug assertions, whatever the randomness and whatever the group of the curve: if
`random_isogeny_x_only` returns, then the list is a chain of `steps` blocks of right isogenies, each
block with the degrees of the factored order, and the curve returned is its end. -/
theorem C62_random (fs : Factored) (hne : fs ≠ []) (hp : ∀ p ∈ fs, Nat.Prime p.1.toNat)
    (hodd : ∀ p ∈ fs, p.1.toNat % 2 = 1) (he : ∀ p ∈ fs, p.2 ≠ 0)
    (draws : List (List (List (K × Bool)))) : ∀ (E : Crv K), E.Good →
    ∀ phis E', randomIsogeny true fs draws E = some (phis, E') →
      ∃ φ : MPoint E.A →+ MPoint E'.A, IsChain E phis E' φ ∧
        phis.map KIso.degree = (List.replicate draws.length
          (fs.flatMap (fun p => List.replicate p.2.toNat p.1.toUInt64))).flatten := by
  induction draws with
  | nil =>
    intro E hE phis E' h
    cases h
    exact ⟨AddMonoidHom.id _, .nil hE, rfl⟩
  | cons ds draws ih =>
    intro E hE phis E' h
    rw [randomIsogeny] at h
    rcases hT : randomPointOrder E (ds.filterMap E.randPoint) fs 634 with _ | T
    · rw [hT] at h; cases h
    obtain ⟨X, hX⟩ := random_rep hE fs hne (fun p hp' h => (hp p hp').ne_zero (by rw [h]; rfl)) he 634 _
      (fun x hx => by
        obtain ⟨d, -, hd⟩ := List.mem_filterMap.mp hx
        exact ((C28_on_curve hE x).1).mp ((C58_rand_point hE d).1 x hd).1) T hT
    rw [hT] at h
    simp only at h
    rcases hL : factoredIsogeny true E T fs with _ | L
    · rw [hL] at h; cases h
    obtain ⟨E1, φ, hc, hdeg⟩ := factoredLoop_debug fs fs hp hodd E hE T X hX L hL
    rw [hL] at h
    simp only at h
    obtain ⟨f, hf, rfl⟩ := last_ne_nil hc hne he hdeg
    rw [hf] at h
    simp only at h
    rcases hr : randomIsogeny true fs draws f.codomain with _ | ⟨phis', E2⟩
    · rw [hr] at h; cases h
    rw [hr] at h
    simp only [Option.some.injEq, Prod.mk.injEq] at h
    obtain ⟨rfl, rfl⟩ := h
    obtain ⟨ψ, hc', hdeg'⟩ := ih f.codomain hc.good.2 phis' E2 hr
    refine ⟨_, hc.append hc', ?_⟩
    rw [List.map_append, hdeg, hdeg', List.length_cons, List.replicate_succ, List.flatten_cons]

/-- What stops the program with debug assertions: a kernel point at infinity or not killed by the
degree. -/
theorem C62_debug_stops {E : Crv K} (hE : E.Good) {P : Pt K} {R : MPoint E.A} (hP : PRep P R)
    (l : UInt64) (hl : l.toNat • R ≠ 0 ∨ R = 0) : KIso.new true E P l = none := by
  unfold KIso.new
  obtain ⟨T, e, hT⟩ := C27_mul_small hE hP l
  rw [e, Option.map_some]
  rcases hl with h | h
  · have : T.isInf = false := by
      rw [Bool.eq_false_iff]; exact (C24_isinfinity hT).not.mpr h
    rw [this]
    cases P.isInf <;> rfl
  · rw [(C24_isinfinity hP).mpr h]; rfl

/-- Two steps of degree 59 over the field with 257 elements. -/
example : (randomIsogeny true [(59, 1)] [[[(3, false)], [(5, false)], [(9, true)]],
      [[(5, false)], [(1, false)], [(4, false)], [(10, false)]]] e257).map (fun r => (r.1.map KIso.degree, r.2)) =
      some ([59, 59], ⟨78, 20⟩) := by decide +kernel

end Festa

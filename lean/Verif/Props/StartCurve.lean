import Verif.Lemmas.FqCard
import Verif.Props.SchemeCase
import Verif.Props.Entangled
import Verif.Props.Supersingular
/-!
Property C69: the curves of the scheme.  The starting curve `y² = x³ + 6x² + x` (festa.rs:257) is supersingular in the
sense needed by the code: over the field with `p²` elements every point is killed by `p + 1`, and all points of order `2^k`
are there for `2^k ∣ p + 1`.  The isogenies of the code carry this over to every curve that can be reached.  So the
assumptions on the curve in C41 and C42 hold throughout the scheme.
-/
namespace Festa
open WeierstrassCurve.Affine

section
variable {K : Type*} [Field K] [DecidableEq K] [RootOps K]

/-- C69, in general: `p` a prime congruent to 3 modulo 4, `K` the field with `p²` elements, and `E` a curve that is reached
from the curve with `A = 6` by isogenies of odd degree.  Then `p + 1` kills every point of `E`, and if `2^k` divides
`p + 1`, then `E` has a basis of order `2^k`. -/
theorem C69_reached (p : Nat) [Fact p.Prime] [CharP K p] [Fintype K] (hc : Fintype.card K = p ^ 2) (hp : p % 4 = 3)
    {E0 E : Crv K} (h0 : E0.A = 6) {φ : MPoint E0.A →+ MPoint E.A} {d : Nat} (hφ : IsIsog φ d) (hd : d % 2 = 1) :
    (∀ P : MPoint E.A, (p + 1) • P = 0) ∧
      ∀ k, 2 ^ k ∣ p + 1 → ∃ P Q : MPoint E.A, IsBasis (2 ^ k) P Q := by
  obtain ⟨L, ψ, h, rfl, -⟩ := hφ
  have hF : FrobNeg p E0.A := h0 ▸ frobNeg_six hc hp
  have hE := h.good.2
  have hF' := h.frobNeg hc hp hd hF
  exact ⟨hF'.kill hc, fun k hk => hF'.basis hc hE.two hE.disc hk⟩

end

theorem festa_mod_four : festaFp.p % 4 = 3 := by decide +kernel
theorem basis_order_eq : ofSlice BASIS_ORDER = festaFp.p + 1 := C02_modulus.2.2.2.2.2.1

/-- The curve itself, as a chain without steps. -/
theorem isIsog_id {K : Type*} [Field K] [DecidableEq K] [RootOps K] {E : Crv K} (hE : E.Good) :
    IsIsog (AddMonoidHom.id (MPoint E.A)) 1 := ⟨[], _, .nil hE, rfl, Or.inl rfl⟩

/-- C69, for the code: every curve reached from the starting curve by isogenies of odd degree is killed by
`BASIS_ORDER` and has a basis of order `2^634` (and of every smaller power of two). -/
theorem C69_code {E0 E : Crv Fq} (h0 : E0.A = 6) {φ : MPoint E0.A →+ MPoint E.A} {d : Nat} (hφ : IsIsog φ d)
    (hd : d % 2 = 1) :
    (∀ P : MPoint E.A, ofSlice BASIS_ORDER • P = 0) ∧ ∀ k ≤ L_POWER, ∃ P Q : MPoint E.A, IsBasis (2 ^ k) P Q := by
  obtain ⟨h1, h2⟩ := C69_reached festaFp.p fq_card festa_mod_four h0 hφ hd
  obtain ⟨q, -, hq⟩ := C02_modulus.2.2.2.2.2.2
  rw [basis_order_eq]
  exact ⟨h1, fun k hk => h2 k (hq ▸ (pow_dvd_pow 2 hk).mul_right q)⟩

/-- C69: a basis computed by `entangled_torsion_basis` with the cofactor of the code is a basis of order `2^634`, on every
curve reached from the starting curve, unless the search stops at an exceptional value (see `C42_basis_partial`). -/
theorem C69_entangled {E0 E : Crv Fq} (h0 : E0.A = 6) {φ : MPoint E0.A →+ MPoint E.A} {d : Nat} (hφ : IsIsog φ d)
    (hd : d % 2 = 1) {S1 S2 : Pt Fq} (h : entangledPoints E.A = some (S1, S2)) (hne : NotExceptional Fr E.A S1.X) :
    ∃ P Q, entangledBasis E (ofSlice BASIS_ORDER / 2 ^ L_POWER) = some (P, Q) ∧
      ∃ P' Q' : MPoint E.A, PRep P P' ∧ PRep Q Q' ∧ IsBasis (2 ^ L_POWER) P' Q' := by
  obtain ⟨h1, h2⟩ := C69_code h0 hφ hd
  refine C42_basis_code hφ.good.2 h hne (by decide) (by decide +kernel) ?_ (h2 _ le_rfl)
  have e : 2 ^ L_POWER * (ofSlice BASIS_ORDER / 2 ^ L_POWER) = ofSlice BASIS_ORDER := by decide +kernel
  rw [e]
  exact h1

/-- C69: on the starting curve `entangled_torsion_basis` returns a basis of order `2^634`, without any condition. -/
theorem C69_start_basis {E : Crv Fq} (hE : E.Good) (hA : E.A = 6) :
    ∃ P Q, entangledBasis E (ofSlice BASIS_ORDER / 2 ^ L_POWER) = some (P, Q) ∧
      ∃ P' Q' : MPoint E.A, PRep P P' ∧ PRep Q Q' ∧ IsBasis (2 ^ L_POWER) P' Q' := by
  obtain ⟨⟨S1, S2⟩, h⟩ := start_points
  rw [← hA] at h
  exact C69_entangled hA (isIsog_id hE) (by norm_num) h (by rw [hA] at h ⊢; exact C42_start_curve h)

/-- C69: the points `Pb`, `Qb` of every object made by `FESTACrypto::new` are a basis of order `l = 2^634` of the starting
curve, and `Pd1`, `Qd1` are two points of order `d1` or infinity. -/
theorem C69_setup (chk : Bool) (fuel : Nat) (S : Crypto Fq) (h : Crypto.new (F := Fr) chk fuel festaConsts = some S) :
    (∃ Pb Qb : MPoint S.E0.A, PRep S.Pb Pb ∧ PRep S.Qb Qb ∧ IsBasis S.l Pb Qb) ∧
    ((S.Pd1 = Pt.inf ∧ S.Qd1 = Pt.inf) ∨ ∃ Pd Qd : MPoint S.E0.A, PRep S.Pd1 Pd ∧ PRep S.Qd1 Qd ∧ Pd ≠ Qd ∧
      addOrderOf Pd = S.d1 ∧ addOrderOf Qd = S.d1 ∧
      (Qd ∈ AddSubgroup.zmultiples Pd ∨ IsBasis S.d1 Pd Qd)) := by
  obtain ⟨hS, hc, hA, hE⟩ := C54_setup chk fuel S h
  have eb : festaConsts.basisOrder / 2 ^ festaConsts.lPower.toNat = ofSlice BASIS_ORDER / 2 ^ L_POWER := by decide +kernel
  have el : festaConsts.lPower.toNat = L_POWER := by decide +kernel
  have h1 := (C69_code hA (isIsog_id hE) (by norm_num)).1
  have hb : entangledBasis (F := Fr) S.E0 (S.c.basisOrder / 2 ^ S.c.lPower.toNat) = some (S.Pb, S.Qb) ∧
      torsionBasis chk fuel S.E0 S.c.f1 S.c.lPower.toNat = some (S.Pd1, S.Qd1) := by
    unfold Crypto.new at h
    simp only [Option.bind_eq_bind, Option.bind_eq_some_iff] at h
    obtain ⟨E0, e0, x1, hx1, x2, hx2, x3, hx3, ⟨Pb, Qb⟩, eb, ⟨Pd1, Qd1⟩, ed, x4, hx4, x5, hx5, h⟩ := h
    rw [Option.some.injEq] at h
    subst h
    exact ⟨eb, ed⟩
  obtain ⟨hb, ht⟩ := hb
  constructor
  · obtain ⟨P, Q, e, P', Q', hP, hQ, hB⟩ := C69_start_basis hE hA
    rw [hc, eb, e, Option.some.injEq, Prod.mk.injEq] at hb
    rw [← hb.1, ← hb.2, hS.l_eq, hc, el]
    exact ⟨P', Q', hP, hQ, hB⟩
  · rw [hS.d1_eq]
    refine C41_basis_partial hE chk fuel S.c.f1 ?_ hS.ok1.1.1 hS.ok1.1.2 hS.ok1.2.1 _ h1 ?_ _ _ ht
    · rw [hc]; decide +kernel
    · rw [hc]; decide +kernel

/-- C69: on every curve reached from the starting curve `generate_point_order_factored_D` returns infinity or a point of
order `D`, and `torsion_basis` two infinities or two points of order `D`, which form a basis unless they are dependent. -/
theorem C69_torsion {E0 E : Crv Fq} (h0 : E0.A = 6) {φ : MPoint E0.A →+ MPoint E.A} {d : Nat} (hφ : IsIsog φ d)
    (hd : d % 2 = 1) (chk : Bool) (fuel : Nat) (fs : Factored) (hne : fs ≠ []) (hp : ∀ p ∈ fs, Nat.Prime p.1.toNat)
    (hn : (fs.map Prod.fst).Nodup) (he : ∀ p ∈ fs, p.2 ≠ 0) (ep : Nat)
    (hdvd : 2 ^ ep * (fs.map (fun q => q.1.toNat ^ q.2.toNat)).prod ∣ ofSlice BASIS_ORDER) :
    (∀ T, pointOrder fuel E fs ep = some T → T = Pt.inf ∨
      ∃ Q : MPoint E.A, PRep T Q ∧ addOrderOf Q = (fs.map (fun q => q.1.toNat ^ q.2.toNat)).prod) ∧
    ∀ T S, torsionBasis chk fuel E fs ep = some (T, S) → (T = Pt.inf ∧ S = Pt.inf) ∨
      ∃ P Q : MPoint E.A, PRep T P ∧ PRep S Q ∧ P ≠ Q ∧
      addOrderOf P = (fs.map (fun q => q.1.toNat ^ q.2.toNat)).prod ∧
      addOrderOf Q = (fs.map (fun q => q.1.toNat ^ q.2.toNat)).prod ∧
      (Q ∈ AddSubgroup.zmultiples P ∨ IsBasis (fs.map (fun q => q.1.toNat ^ q.2.toNat)).prod P Q) := by
  have h1 := (C69_code h0 hφ hd).1
  have hE := hφ.good.2
  exact ⟨C41_point hE fuel fs hne hp hn he ep h1 hdvd, C41_basis_partial hE chk fuel fs hne hp hn he ep h1 hdvd⟩

/-! ### Concrete cases -/

/-- The curves of a key pair of the small scheme, reached by random isogenies of degrees `41²` and `43²`, and the curves of
a value of the trapdoor function. -/
example : (∀ P : MPoint toyEA.A, (toyP + 1) • P = 0) ∧ (∃ P Q : MPoint toyEA.A, IsBasis (2 ^ 25) P Q) ∧
    (∀ P : MPoint toyE2.A, (toyP + 1) • P = 0) ∧ ∃ P Q : MPoint toyE2.A, IsBasis (2 ^ 25) P Q := by
  obtain ⟨φA1, φA2, L2, -, -, hkey, hb⟩ := toy_key
  obtain ⟨φ1, φ2, hout, -, -⟩ := toy_value hkey hb
  have i1 := hkey.isog1.comp hkey.isog2
  have i2 := i1.comp hout.isog2
  have hd : (2 : Nat) ^ 25 ∣ toyP + 1 := by decide +kernel
  obtain ⟨a1, a2⟩ := C69_reached toyP toy_card (by norm_num) (E0 := toyS.E0) rfl i1 (by decide +kernel)
  obtain ⟨b1, b2⟩ := C69_reached toyP toy_card (by norm_num) (E0 := toyS.E0) rfl i2 (by decide +kernel)
  exact ⟨a1, a2 25 hd, b1, b2 25 hd⟩

/-- The starting curve of the code. -/
example : ∃ E : Crv Fq, Crv.new (6 : Fq) = some E ∧ (∀ P : MPoint E.A, ofSlice BASIS_ORDER • P = 0) ∧
    ∃ P Q, entangledBasis E (ofSlice BASIS_ORDER / 2 ^ L_POWER) = some (P, Q) ∧
      ∃ P' Q' : MPoint E.A, PRep P P' ∧ PRep Q Q' ∧ IsBasis (2 ^ 634) P' Q' := by
  obtain ⟨E, e, hA, hE⟩ := start_curve_exists
  exact ⟨E, e, (C69_code hA (isIsog_id hE) (by norm_num)).1, C69_start_basis hE hA⟩

end Festa

import Verif.Lemmas.BasisExtend
import Verif.Spec.Run
import Verif.Props.GroupStructure
import Verif.Props.AxisCount
/-!
C41: on the curves of the scheme the two points returned by `torsion_basis` are a basis, unless the second one is one of the
few exceptional multiples of the first.
-/
namespace Festa
open WeierstrassCurve.Affine

section
variable {K : Type} [Field K] [DecidableEq K] [RootOps K]

/-- C41, partial: on a curve with full torsion of order `D` the two points returned by `torsion_basis` are a basis unless the
second one is an exceptional multiple of the first (`¬AxisFree`, at most `8 log2 D + 17` of the `D` multiples by
`C39_exceptions_few`).  In that case they may be accepted: `C41_independent_fails`. -/
theorem C41_free_partial {E : Crv K} (hE : E.Good) (chk : Bool) (fuel : Nat) (fs : Factored)
    (hne : fs ≠ []) (hp : ∀ p ∈ fs, Nat.Prime p.1.toNat) (hd : (fs.map Prod.fst).Nodup)
    (he : ∀ p ∈ fs, p.2 ≠ 0) (ep : Nat) (hB : ∀ X : MPoint E.A, ofSlice BASIS_ORDER • X = 0)
    (hdvd : 2 ^ ep * (fs.map (fun q => q.1.toNat ^ q.2.toNat)).prod ∣ ofSlice BASIS_ORDER)
    (hfull : ∃ P Q : MPoint E.A, IsBasis (fs.map (fun q => q.1.toNat ^ q.2.toNat)).prod P Q)
    (T S : Pt K) (h : torsionBasis chk fuel E fs ep = some (T, S)) :
    (T = Pt.inf ∧ S = Pt.inf) ∨ ∃ P Q : MPoint E.A, PRep T P ∧ PRep S Q ∧
      addOrderOf P = (fs.map (fun q => q.1.toNat ^ q.2.toNat)).prod ∧
      addOrderOf Q = (fs.map (fun q => q.1.toNat ^ q.2.toNat)).prod ∧
      (IsBasis (fs.map (fun q => q.1.toNat ^ q.2.toNat)).prod P Q ↔
        AxisFree (fs.map (fun q => q.1.toNat ^ q.2.toNat)).prod P Q) := by
  rcases C41_basis_partial hE chk fuel fs hne hp hd he ep hB hdvd T S h with hinf | ⟨P, Q, hP, hQ, -, oP, oQ, hPQ⟩
  · exact Or.inl hinf
  have hpos := value_pos (fs := fs) (fun p hp' => (hp p hp').ne_zero)
  have hn2 : 2 ≤ fs.value := by
    obtain ⟨q, hq⟩ := List.exists_mem_of_ne_nil fs hne
    have : q.1.toNat ∣ fs.value := by
      rw [value_eq]
      exact (dvd_pow_self _ (by have := he q hq; rwa [Ne, ← UInt32.toNat_inj] at this)).trans
        (List.dvd_prod (List.mem_map_of_mem hq))
    exact (hp q hq).two_le.trans (Nat.le_of_dvd hpos this)
  -- the pairing of the two points passes the order test
  have test : (T = Pt.inf ∧ S = Pt.inf) ∨ ∃ w, weilPairing chk E T S fs.value = some w ∧
      ∀ p ∈ fs, w ^ (fs.value / p.1.toNat) ≠ 1 := by
    unfold torsionBasis at h
    rcases hP0 : pointOrder fuel E fs ep with _ | P0
    · rw [hP0] at h; cases h
    rw [hP0] at h
    dsimp only at h
    rcases basisLoop_spec hE chk fs hne ⟨hp, hd⟩ he _ ep fuel _ h with h | ⟨h1, -, X, -, -, w, h5, h6⟩
    · left; simpa using h
    · right
      dsimp only at h1 h5
      subst h1
      exact ⟨w, h5, h6⟩
  rcases test with hinf | ⟨w, hw, ht⟩
  · exact Or.inl hinf
  refine Or.inr ⟨P, Q, hP, hQ, oP, oQ, ?_⟩
  rw [← value_eq] at oP oQ hPQ hfull ⊢
  refine ⟨fun hb => hb.free hn2, fun hfree => ?_⟩
  rcases hPQ with hm | hb
  · exfalso
    obtain ⟨P0, Q0, hb0⟩ := hfull
    obtain ⟨a, b, e⟩ := span_basis hE.two hE.disc hpos hb0 (oP ▸ addOrderOf_nsmul_eq_zero P)
    obtain ⟨Y, hY⟩ := hb0.extend e oP hpos.ne'
    obtain ⟨k, hk⟩ : ∃ k : Nat, Q = k • P := by
      obtain ⟨c, hc⟩ := AddSubgroup.mem_zmultiples_iff.mp hm
      refine ⟨(c % fs.value).toNat, ?_⟩
      rw [← natCast_zsmul, Int.toNat_of_nonneg (Int.emod_nonneg _ (by omega)), ← hc]
      conv_lhs => rw [← Int.emod_add_mul_ediv c fs.value, add_zsmul, mul_comm, mul_zsmul, natCast_zsmul,
        hY.nsmul_left, zsmul_zero, add_zero]
    subst hk
    obtain ⟨o1, o2⟩ := hfree hm
    have h1 := weil_axis hE chk hn2 hY hP hQ (chainFree_of_order hpos oQ) o1 o2
    have h2 := (C44_antisymmetric chk E S T _ 1 h1).2
    rw [hw, Option.some.injEq, inv_one] at h2
    obtain ⟨q, hq⟩ := List.exists_mem_of_ne_nil fs hne
    exact ht q hq (by rw [h2, one_pow])
  · exact hb

/-- The points found by `torsion_basis` on a curve of the scheme are a basis if they are not zero and the second is no
exceptional multiple of the first. -/
theorem Finds.basis (p : Nat) [Fact p.Prime] [CharP K p] [Fintype K] (hc : Fintype.card K = p ^ 2) (hp : p % 4 = 3)
    (hB : p + 1 ∣ ofSlice BASIS_ORDER) {E0 E : Crv K} (h0 : E0.A = 6) {φ : MPoint E0.A →+ MPoint E.A} {d : Nat} (hφ : IsIsog φ d)
    (hd : d % 2 = 1) {chk : Bool} {fuel : Nat} {fs : Factored} (hne : fs ≠ []) (hf : fs.Ok chk) {ep n : Nat}
    (hn : n = (fs.map (fun q => q.1.toNat ^ q.2.toNat)).prod) (hdv : n ∣ p + 1)
    (hdvd : 2 ^ ep * n ∣ ofSlice BASIS_ORDER) {P Q : MPoint E.A} (h : Finds chk fuel E fs ep P Q) (P0 : P ≠ 0)
    (hfree : AxisFree n P Q) : IsBasis n P Q := by
  obtain ⟨x, y, ht, hx, hy⟩ := h
  subst hn
  have hE := hφ.good.2
  obtain ⟨hk, -⟩ := C69_reached p hc hp h0 hφ hd
  obtain ⟨hfull, -, -⟩ := C71_group p hc hp h0 hφ hd
  rcases C41_free_partial hE chk fuel fs hne hf.1.1 hf.1.2 hf.2.1 ep (fun X => by
      obtain ⟨c, hc⟩ := hB
      rw [hc, mul_comm, mul_nsmul', hk, nsmul_zero]) hdvd (hfull _ hdv).1 x y ht with ⟨rfl, -⟩ | ⟨P1, Q1, h1, h2, -, -, h5⟩
  · exact absurd (prep_unique hx prep_inf) P0
  · obtain rfl := prep_unique hx h1
    obtain rfl := prep_unique hy h2
    exact h5.mpr hfree

end

/-- C41, partial, for the code: on every curve reached from the starting curve, the two points returned by `torsion_basis` are
twice infinity, or of order `D` and then a basis if and only if the second one is no exceptional multiple of the first. -/
theorem C41_code_partial {E0 E : Crv Fq} (h0 : E0.A = 6) {φ : MPoint E0.A →+ MPoint E.A} {d : Nat} (hφ : IsIsog φ d)
    (hd : d % 2 = 1) (chk : Bool) (fuel : Nat) (fs : Factored) (hne : fs ≠ []) (hp : ∀ p ∈ fs, Nat.Prime p.1.toNat)
    (hn : (fs.map Prod.fst).Nodup) (he : ∀ p ∈ fs, p.2 ≠ 0) (ep : Nat)
    (hdvd : 2 ^ ep * (fs.map (fun q => q.1.toNat ^ q.2.toNat)).prod ∣ ofSlice BASIS_ORDER)
    (T S : Pt Fq) (h : torsionBasis chk fuel E fs ep = some (T, S)) :
    (T = Pt.inf ∧ S = Pt.inf) ∨ ∃ P Q : MPoint E.A, PRep T P ∧ PRep S Q ∧
      addOrderOf P = (fs.map (fun q => q.1.toNat ^ q.2.toNat)).prod ∧
      addOrderOf Q = (fs.map (fun q => q.1.toNat ^ q.2.toNat)).prod ∧
      (IsBasis (fs.map (fun q => q.1.toNat ^ q.2.toNat)).prod P Q ↔
        AxisFree (fs.map (fun q => q.1.toNat ^ q.2.toNat)).prod P Q) :=
  C41_free_partial hφ.good.2 chk fuel fs hne hp hn he ep (C69_code h0 hφ hd).1 hdvd
    ((C71_code h0 hφ hd).1 _ ((Dvd.intro_left _ rfl).trans hdvd)).1 T S h

/-- The points found on the curve `EA'` of the small version of the scheme: all hypotheses hold. -/
example : ∃ P Q : MPoint toyEA'.A, PRep toyP' P ∧ PRep toyQ' Q ∧ addOrderOf P = 169 ∧ addOrderOf Q = 169 ∧
    (IsBasis 169 P Q ↔ AxisFree 169 P Q) := by
  obtain ⟨φA1, φA2, -, -, -, hkey, -⟩ := toy_key
  obtain ⟨hk, -⟩ := C69_reached toyP toy_card (by norm_num) rfl hkey.isog1 (by decide +kernel)
  obtain ⟨hfull, -, -⟩ := C71_group toyP toy_card (by norm_num) rfl hkey.isog1 (by decide +kernel)
  have hok := toy_sound.ok2
  have e : (toyC.f2.map (fun q => q.1.toNat ^ q.2.toNat)).prod = 169 := by decide +kernel
  have hdiv : toyP + 1 ∣ ofSlice BASIS_ORDER := by decide +kernel
  rcases C41_free_partial hkey.isog1.good.2 true 20 toyC.f2 (by decide +kernel) hok.1.1 hok.1.2 hok.2.1 25 (fun X => by
      obtain ⟨c, hc⟩ := hdiv
      rw [hc, mul_comm, mul_nsmul', hk, nsmul_zero]) (by rw [e]; decide +kernel)
      (hfull _ (by rw [e]; decide +kernel)).1 _ _ toy_tbA' with ⟨h, -⟩ | ⟨P, Q, h1, h2, h3, h4, h5⟩
  · exact absurd h (by decide +kernel)
  · rw [e] at h3 h4 h5
    exact ⟨P, Q, h1, h2, h3, h4, h5⟩

end Festa

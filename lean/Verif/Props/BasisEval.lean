import Verif.Props.Trapdoor
import Verif.Props.Isogeny
import Verif.Spec.TestField127
import Verif.Lemmas.WeilStep
import Verif.Lemmas.WeilNondeg
import Verif.Lemmas.SchemeGroup
/-! Property C64: the evaluation of an isogeny at a basis. -/
namespace Festa
variable {K : Type*} [Field K] [DecidableEq K] [RootOps K]

/-! ### C64 -/

/-- C64: `evaluate_isogeny_chain_for_basis` returns the images of both points of a basis under the
isogeny of the chain, with the same sign, when the degree is odd and the order is at least three and coprime
to the degree.
The images are a basis again, and their pairing is the old one raised to the degree. -/
theorem C64_eval_basis (chk : Bool) {E E' : Crv K} {L : List (KIso K)} {φ : MPoint E.A →+ MPoint E'.A}
    (h : IsChain E L E' φ) {p q : Pt K} {P Q : MPoint E.A} {n : Nat} (hn3 : 3 ≤ n)
    (hb : IsBasis n P Q) (hp : PRep p P) (hq : PRep q Q)
    (hodd : (L.map fun f => f.degree.toNat).prod % 2 = 1)
    (hco : n.Coprime (L.map fun f => f.degree.toNat).prod) :
    ∃ p' q' w, evalChainBasis chk E (p, q) L n (L.map fun f => f.degree.toNat).prod = some (E', (p', q')) ∧
      ((PRep p' (φ P) ∧ PRep q' (φ Q)) ∨ (PRep p' (-φ P) ∧ PRep q' (-φ Q))) ∧
      IsBasis n (φ P) (φ Q) ∧ weilPairing chk E p q n = some w ∧
      weilPairing chk E' p' q' n = some (w ^ (L.map fun f => f.degree.toNat).prod) := by
  obtain ⟨hE, hE'⟩ := h.good
  have hn : 1 ≤ n := by omega
  change n.Coprime (chainDegree L) at hco
  change chainDegree L % 2 = 1 at hodd
  obtain ⟨hk, hw⟩ := h.weil hn hodd hco
  have hb' := hb.map hk
  have nd := hb.nd (by omega)
  have nd' := hb'.nd (by omega)
  have tP := hb.nsmul_left
  have tQ := hb.nsmul_right
  have tP' := hb'.nsmul_left
  have tQ' := hb'.nsmul_right
  have w0 := weilPairing_spec hE chk hp hq n hn tP tQ (chainFree_of_order hn hb.order_left)
    (chainFree_of_order hn hb.order_right) nd
  have sign : ∀ {X : MPoint E'.A} {x : Pt K}, PRep x X → PRep x.neg (-X) := fun hx => prep_neg hx
  -- the pairing of representations of two points of the basis of images
  have wv : ∀ {x y : Pt K} {X Y : MPoint E'.A}, IsBasis n X Y → PRep x X → PRep y Y →
      weilPairing chk E' x y n = some (we n X Y) := fun hb hx hy =>
    weilPairing_spec hE' chk hx hy n hn hb.nsmul_left hb.nsmul_right
      (chainFree_of_order hn hb.order_left) (chainFree_of_order hn hb.order_right) (IsBasis.nd hb (by omega))
  have bneg : IsBasis n (-φ P) (-φ Q) := fun a b => by
    rw [← hb' a b, smul_neg, smul_neg, ← neg_add, neg_eq_zero]
  have bl : IsBasis n (-φ P) (φ Q) := fun a b => by
    have := hb' (-a) b
    rw [neg_smul, ← smul_neg, dvd_neg] at this; exact this
  have br : IsBasis n (φ P) (-φ Q) := fun a b => by
    have := hb' a (-b)
    rw [neg_smul, ← smul_neg, dvd_neg] at this; exact this
  have vm := hw nd tP tQ
  have vmm := we_neg_neg hn nd' tP' tQ'
  have vpm := we_neg hn nd' tP' tQ'
  have vmp : we n (-φ P) (φ Q) = we n (φ P) (-φ Q) := by
    have := we_neg_neg hn (IsBasis.nd br (by omega)) tP' (by rw [neg_nsmul, tQ', neg_zero])
    rwa [neg_neg] at this
  have w0n : we n P Q ≠ 0 := we_ne hn nd
  -- the wrong signs are seen
  have bad : we n P Q ^ chainDegree L ≠ we n (φ P) (-φ Q) := by
    intro e
    rw [← vm] at e
    rw [← e, vm, ← sq, ← pow_mul, mul_comm, pow_mul] at vpm
    have o := orderOf_dvd_of_pow_eq_one vpm
    have hn1 : (we n P Q ^ 2) ^ n = 1 := by
      have := (hb.symm.we_eq hE.two hE.disc (by omega) 1 0 le_rfl (by omega)).2
      rw [← pow_mul, mul_comm, pow_mul, this, one_pow]
    have o2 := orderOf_dvd_of_pow_eq_one hn1
    have := Nat.dvd_gcd o2 o
    rw [hco] at this
    have h1 := orderOf_dvd_of_pow_eq_one (orderOf_eq_one_iff.mp (Nat.dvd_one.mp this))
    rw [hb.we_orderOf hE.two hE.disc (by omega)] at h1
    have := Nat.le_of_dvd (by norm_num) h1
    omega
  obtain ⟨c1, c2⟩ := C46_evaluate h hp
  obtain ⟨d1, d2⟩ := C46_evaluate h hq
  change ∃ p' q' w, evalChainBasis chk E (p, q) L n (chainDegree L) = some (E', (p', q')) ∧ _ ∧ _ ∧ _ ∧
    weilPairing chk E' p' q' n = some (w ^ chainDegree L)
  have ev : ∀ v, weilPairing chk E' (evalChain E p L).2 (evalChain E q L).2 n = some v →
      evalChainBasis chk E (p, q) L n (chainDegree L) = some (E', ((evalChain E p L).2,
        if we n P Q ^ chainDegree L = v then (evalChain E q L).2 else (evalChain E q L).2.neg)) := by
    intro v hv
    unfold evalChainBasis
    dsimp only
    rw [w0, c1, hv]
  rcases c2 with c2 | c2 <;> rcases d2 with d2 | d2
  · refine ⟨_, _, _, ev _ (wv hb' c2 d2), Or.inl ⟨c2, ?_⟩, hb', w0, ?_⟩
    · rw [if_pos vm.symm]; exact d2
    · rw [if_pos vm.symm, ← vm]; exact wv hb' c2 d2
  · refine ⟨_, _, _, ev _ (wv br c2 d2), Or.inl ⟨c2, ?_⟩, hb', w0, ?_⟩
    · rw [if_neg bad]; simpa using sign d2
    · rw [if_neg bad, ← vm]; exact wv hb' c2 (by simpa using sign d2)
  · refine ⟨_, _, _, ev _ (wv bl c2 d2), Or.inr ⟨c2, ?_⟩, hb', w0, ?_⟩
    · rw [vmp, if_neg bad]; exact sign d2
    · rw [vmp, if_neg bad, ← vm, ← vmm]; exact wv bneg c2 (sign d2)
  · refine ⟨_, _, _, ev _ (wv bneg c2 d2), Or.inr ⟨c2, ?_⟩, hb', w0, ?_⟩
    · rw [vmm, if_pos vm.symm]; exact d2
    · rw [vmm, if_pos vm.symm, ← vm, ← vmm]; exact wv bneg c2 d2

noncomputable instance rootOps239 : RootOps F239 :=
  rootOpsChoice ⟨0, 1⟩ (by decide +kernel) (by decide +kernel)

/-- The basis `15 R`, `15 S` of order 16 of the curve over the field of `239²` elements and the isogeny
with the kernel generated by `80 R`. -/
example (chk : Bool) : ∃ (E' : Crv F239) (L : List (KIso F239)), ∃ (φ : MPoint e239.A →+ MPoint E'.A), ∃ (p q : Pt F239) (P Q : MPoint e239.A), IsChain e239 L E' φ ∧
    L.map KIso.degree = [3] ∧ PRep p P ∧ PRep q Q ∧ IsBasis 16 P Q ∧
    (16 : Nat).Coprime (L.map fun f => f.degree.toNat).prod ∧ (L.map fun f => f.degree.toNat).prod % 2 = 1 := by
  obtain ⟨R, S, hr, hs, hb⟩ := basis239
  obtain ⟨k, -, hk⟩ := C27_mul_big e239_good hr 80
  obtain ⟨p, -, hp⟩ := C27_mul_big e239_good hr 15
  obtain ⟨q, -, hq⟩ := C27_mul_big e239_good hs 15
  have ho : addOrderOf (80 • R) = 3 := by
    rw [addOrderOf_nsmul' _ (by norm_num), hb.order_left]; rfl
  obtain ⟨L, E', φ, -, hc, hd, -⟩ := C46_factored chk e239_good hk [(3, 1)] (by decide) (by decide)
    (by decide) (by decide) (by rw [ho]; decide)
  refine ⟨E', L, φ, p, q, _, _, hc, hd, hp, hq, ?_, ?_⟩
  · intro a b
    have := hb (a * 15) (b * 15)
    rw [mul_zsmul, mul_zsmul] at this
    norm_cast at this ⊢
    rw [this]
    omega
  · have : (L.map fun f => f.degree.toNat) = (L.map KIso.degree).map UInt64.toNat := by simp
    rw [this, hd]; exact ⟨by decide, by decide⟩

end Festa

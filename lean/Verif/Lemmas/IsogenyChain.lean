import Verif.Lemmas.Isogeny
import Verif.Lemmas.DLog
/-! Chains of isogeny steps. -/
namespace Festa
open WeierstrassCurve.Affine

section group
variable {G H M : Type*} [AddCommGroup G] [AddCommGroup H] [AddCommGroup M]

theorem zmul_eq_of_order {P S : G} {a b : Nat} (hb : 0 < b) (ha : 0 < a) (hP : addOrderOf P = a * b)
    (hS : addOrderOf S = a) (hm : S ∈ AddSubgroup.zmultiples P) :
    AddSubgroup.zmultiples S = AddSubgroup.zmultiples (b • P) := by
  have hob : addOrderOf (b • P) = a := by
    rw [addOrderOf_nsmul_of_dvd hb.ne' (hP ▸ Dvd.intro_left a rfl), hP, Nat.mul_div_cancel _ hb]
  have hle : AddSubgroup.zmultiples S ≤ AddSubgroup.zmultiples (b • P) := by
    rw [AddSubgroup.zmultiples_le]
    obtain ⟨m, rfl⟩ := AddSubgroup.mem_zmultiples_iff.mp hm
    have h0 : ((a : Int) * m) • P = 0 := by
      rw [mul_zsmul, natCast_zsmul, ← hS]; exact addOrderOf_nsmul_eq_zero _
    have h1 := addOrderOf_dvd_iff_zsmul_eq_zero.mpr h0
    rw [hP, Nat.cast_mul] at h1
    obtain ⟨t, rfl⟩ := Int.dvd_of_mul_dvd_mul_left (by exact_mod_cast ha.ne') h1
    refine AddSubgroup.mem_zmultiples_iff.mpr ⟨t, ?_⟩
    rw [← natCast_zsmul, ← mul_zsmul, mul_comm]
  have hfin : Finite (AddSubgroup.zmultiples (b • P)) :=
    finite_zmultiples.mpr (addOrderOf_pos_iff.mp (by rw [hob]; exact ha))
  refine AddSubgroup.eq_of_le_of_card_ge hle ?_
  rw [Nat.card_zmultiples, Nat.card_zmultiples, hob, hS]

/-- The order of an image. -/
theorem order_image (φ : G →+ H) {P S : G} {a b : Nat} (hb : 0 < b) (ha : 0 < a)
    (hP : addOrderOf P = a * b) (hS : addOrderOf S = a) (hm : S ∈ AddSubgroup.zmultiples P)
    (hk : ∀ Q, φ Q = 0 ↔ Q ∈ AddSubgroup.zmultiples S) : addOrderOf (φ P) = b := by
  have e := zmul_eq_of_order hb ha hP hS hm
  refine (addOrderOf_eq_iff hb).mpr ⟨?_, ?_⟩
  · rw [← map_nsmul, hk, e]; exact AddSubgroup.mem_zmultiples _
  · intro m hm0 hm1 h
    rw [← map_nsmul, hk] at h
    have : a • (m • P) = 0 := by
      obtain ⟨t, ht⟩ := AddSubgroup.mem_zmultiples_iff.mp h
      rw [← ht, ← natCast_zsmul, ← mul_zsmul, mul_comm, mul_zsmul, natCast_zsmul, ← hS,
        addOrderOf_nsmul_eq_zero, zsmul_zero]
    rw [← mul_nsmul'] at this
    have h2 := addOrderOf_dvd_of_nsmul_eq_zero this
    rw [hP] at h2
    have := Nat.le_of_dvd hm1 (Nat.dvd_of_mul_dvd_mul_left ha h2)
    omega

theorem ker_comp (φ : G →+ H) (ψ : H →+ M) {P S : G} (hS : S ∈ AddSubgroup.zmultiples P)
    (hk : ∀ Q, φ Q = 0 ↔ Q ∈ AddSubgroup.zmultiples S)
    (hk' : ∀ Q, ψ Q = 0 ↔ Q ∈ AddSubgroup.zmultiples (φ P)) (Q : G) :
    (ψ.comp φ) Q = 0 ↔ Q ∈ AddSubgroup.zmultiples P := by
  rw [AddMonoidHom.comp_apply, hk']
  constructor
  · intro h
    obtain ⟨t, ht⟩ := AddSubgroup.mem_zmultiples_iff.mp h
    have h0 : φ (Q - t • P) = 0 := by rw [map_sub, map_zsmul, ht, sub_self]
    have h1 := (AddSubgroup.zmultiples_le.mpr hS) ((hk _).mp h0)
    have := add_mem h1 (AddSubgroup.zsmul_mem_zmultiples P t)
    rwa [sub_add_cancel] at this
  · intro h
    obtain ⟨t, rfl⟩ := AddSubgroup.mem_zmultiples_iff.mp h
    rw [map_zsmul]; exact AddSubgroup.zsmul_mem_zmultiples _ t

theorem zmul_neg (P : G) : AddSubgroup.zmultiples (-P) = AddSubgroup.zmultiples P := by
  ext Q
  constructor <;> intro h
  · exact (AddSubgroup.zmultiples_le.mpr (neg_mem (AddSubgroup.mem_zmultiples P))) h
  · refine (AddSubgroup.zmultiples_le.mpr ?_) h
    have := neg_mem (AddSubgroup.mem_zmultiples (-P))
    rwa [neg_neg] at this
end group

variable {K : Type*} [Field K] [DecidableEq K] [RootOps K]

theorem IsChain.good {E E' : Crv K} {L : List (KIso K)} {φ : MPoint E.A →+ MPoint E'.A}
    (h : IsChain E L E' φ) : E.Good ∧ E'.Good := by
  induction h with
  | nil hE => exact ⟨hE, hE⟩
  | cons hs _ ih => exact ⟨hs.dom, ih.2⟩

theorem IsChain.append {E E' E'' : Crv K} {L M : List (KIso K)} {φ : MPoint E.A →+ MPoint E'.A}
    {ψ : MPoint E'.A →+ MPoint E''.A} (h : IsChain E L E' φ) (h' : IsChain E' M E'' ψ) :
    IsChain E (L ++ M) E'' (ψ.comp φ) := by
  induction h with
  | nil hE => exact h'
  | cons hs _ ih => rw [List.cons_append, ← AddMonoidHom.comp_assoc]; exact .cons hs (ih h')

theorem IsChain.fold {E E' : Crv K} {L : List (KIso K)} {φ : MPoint E.A →+ MPoint E'.A}
    (h : IsChain E L E' φ) {P : Pt K} {Q : MPoint E.A} (hP : PRep P Q ∨ PRep P (-Q)) :
    PRep (L.foldl (fun Q f => f.eval Q) P) (φ Q) ∨ PRep (L.foldl (fun Q f => f.eval Q) P) (-φ Q) := by
  induction h generalizing P with
  | nil hE => exact hP
  | @cons f φ fs E' ψ hs _ ih =>
    rw [List.foldl_cons, AddMonoidHom.comp_apply]
    refine ih ?_
    rcases hP with hP | hP
    · exact hs.eval P _ hP
    · have := hs.eval P _ hP
      rw [map_neg, neg_neg] at this
      exact this.symm

theorem IsChain.last {E E' : Crv K} {L : List (KIso K)} {φ : MPoint E.A →+ MPoint E'.A}
    (h : IsChain E L E' φ) : L = [] ∧ E' = E ∨ ∃ f, L.getLast? = some f ∧ f.codomain = E' := by
  induction h with
  | nil hE => exact Or.inl ⟨rfl, rfl⟩
  | @cons f φ fs E' ψ hs _ ih =>
    right
    rcases ih with ⟨rfl, rfl⟩ | ⟨g, hg, e⟩
    · exact ⟨f, rfl, rfl⟩
    · refine ⟨g, ?_, e⟩
      rw [List.getLast?_cons, hg]; rfl

theorem evalChain_fst {E E' : Crv K} {L : List (KIso K)} {φ : MPoint E.A →+ MPoint E'.A}
    (h : IsChain E L E' φ) (P : Pt K) : evalChain E P L = (E', L.foldl (fun Q f => f.eval Q) P) := by
  unfold evalChain
  rcases h.last with ⟨rfl, rfl⟩ | ⟨f, e, rfl⟩
  · rfl
  · rw [e]

theorem mulSmallIter_spec {E : Crv K} (hE : E.Good) (l : UInt64) (n : Nat) {P : Pt K} {Q : MPoint E.A}
    (h : PRep P Q) : ∃ R, mulSmallIter E l n P = some R ∧ PRep R ((l.toNat ^ n) • Q) := by
  induction n generalizing P Q with
  | zero => exact ⟨P, rfl, by rwa [pow_zero, one_nsmul]⟩
  | succ n ih =>
    obtain ⟨S, e, hS⟩ := C27_mul_small hE h l
    obtain ⟨R, e', hR⟩ := ih hS
    refine ⟨R, ?_, ?_⟩
    · rw [mulSmallIter, e]; exact e'
    · rwa [pow_succ, mul_nsmul']

/-- The recursion for a prime power (any odd base will do). -/
theorem recSparse_spec (chk : Bool) (l : UInt64) (hodd : l.toNat % 2 = 1) (hl : l.toNat ≠ 1)
    (fuel : Nat) : ∀ (k : Nat), 1 ≤ k → k ≤ fuel → ∀ (E : Crv K), E.Good → ∀ (P : Pt K) (R : MPoint E.A),
    PRep P R → addOrderOf R = l.toNat ^ k →
    ∃ L E', ∃ φ : MPoint E.A →+ MPoint E'.A, recSparse chk fuel E P l k = some L ∧ IsChain E L E' φ ∧
      L.map KIso.degree = List.replicate k l ∧ ∀ Q, φ Q = 0 ↔ Q ∈ AddSubgroup.zmultiples R := by
  have hl0 : 0 < l.toNat := by omega
  induction fuel with
  | zero => intro k h1 h2; omega
  | succ fuel ih =>
    intro k h1 h2 E hE P R hP ho
    rw [recSparse, if_neg (by omega)]
    by_cases hk : k = 1
    · subst hk
      rw [if_pos rfl]
      rw [pow_one] at ho
      obtain ⟨E', ms, e, φ, hs, hker⟩ := new_spec chk hE hP ho hodd (fun _ => hl)
      refine ⟨[⟨E, E', P, l, ms⟩], E', (AddMonoidHom.id _).comp φ, by rw [e]; rfl, ?_, rfl, ?_⟩
      · exact IsChain.cons (f := ⟨E, E', P, l, ms⟩) hs (.nil hs.cod)
      · exact hker
    · rw [if_neg hk]
      have hk1 : 1 ≤ max 1 (min (k - 1) ((k * 8 + 5) / 10)) := le_max_left _ _
      have hk2 : max 1 (min (k - 1) ((k * 8 + 5) / 10)) ≤ k - 1 :=
        max_le (by omega) (min_le_left _ _)
      dsimp only
      generalize max 1 (min (k - 1) ((k * 8 + 5) / 10)) = k1 at hk1 hk2
      obtain ⟨Q1, e1, hQ1⟩ := mulSmallIter_spec hE l k1 hP
      have hsplit : l.toNat ^ k = l.toNat ^ (k - k1) * l.toNat ^ k1 := by
        rw [← pow_add]; congr 1; omega
      have ho1 : addOrderOf ((l.toNat ^ k1) • R) = l.toNat ^ (k - k1) := by
        rw [addOrderOf_nsmul_of_dvd (by positivity) (ho ▸ hsplit ▸ Dvd.intro_left _ rfl), ho, hsplit,
          Nat.mul_div_cancel _ (by positivity)]
      obtain ⟨L, E1, φ, eL, cL, dL, kL⟩ := ih (k - k1) (by omega) (by omega) E hE Q1 _ hQ1 ho1
      have hmem : (l.toNat ^ k1) • R ∈ AddSubgroup.zmultiples R := AddSubgroup.nsmul_mem_zmultiples _ _
      have ho2 : addOrderOf (φ R) = l.toNat ^ k1 :=
        order_image φ (by positivity) (by positivity) (ho.trans hsplit) ho1 hmem kL
      have main : ∀ R2 : MPoint E1.A, (R2 = φ R ∨ R2 = -φ R) →
          PRep (L.foldl (fun Q f => f.eval Q) P) R2 →
          ∃ M E', ∃ ψ : MPoint E1.A →+ MPoint E'.A,
            recSparse chk fuel E1 (L.foldl (fun Q f => f.eval Q) P) l k1 = some M ∧ IsChain E1 M E' ψ ∧
            M.map KIso.degree = List.replicate k1 l ∧
            ∀ Q, ψ Q = 0 ↔ Q ∈ AddSubgroup.zmultiples (φ R) := by
        intro R2 h2 hr
        have ho3 : addOrderOf R2 = l.toNat ^ k1 := by
          rcases h2 with rfl | rfl
          · exact ho2
          · rw [addOrderOf_neg, ho2]
        have hz : AddSubgroup.zmultiples R2 = AddSubgroup.zmultiples (φ R) := by
          rcases h2 with rfl | rfl
          · rfl
          · exact zmul_neg _
        obtain ⟨M, E', ψ, a, b, c, d⟩ := ih k1 hk1 (by omega) E1 cL.good.2 _ R2 hr ho3
        exact ⟨M, E', ψ, a, b, c, fun Q => by rw [d, hz]⟩
      have hM : ∃ M E', ∃ ψ : MPoint E1.A →+ MPoint E'.A,
            recSparse chk fuel E1 (L.foldl (fun Q f => f.eval Q) P) l k1 = some M ∧ IsChain E1 M E' ψ ∧
            M.map KIso.degree = List.replicate k1 l ∧
            ∀ Q, ψ Q = 0 ↔ Q ∈ AddSubgroup.zmultiples (φ R) := by
        rcases cL.fold (Or.inl hP) with h | h
        · exact main _ (Or.inl rfl) h
        · exact main _ (Or.inr rfl) h
      obtain ⟨M, E', ψ, eM, cM, dM, kM⟩ := hM
      refine ⟨L ++ M, E', ψ.comp φ, ?_, cL.append cM, ?_, ?_⟩
      · rw [e1]
        simp only
        rw [eL]
        simp only [evalChain_fst cL P]
        rw [eM]
      · rw [List.map_append, dL, dM, ← List.replicate_add]
        congr 1; omega
      · exact ker_comp φ ψ hmem kL kM

theorem crtCofactor_cons (l l1 e1 : UInt32) (fs : Factored) : crtCofactor ((l1, e1) :: fs) l =
    if l ≠ l1 then crtCofactor fs l * l1.toNat ^ e1.toNat else crtCofactor fs l := by
  rw [cof_eq, cof_eq]
  by_cases h : l = l1
  · subst h
    rw [List.filter_cons_of_neg (by simp), if_neg (by simp)]
  · rw [List.filter_cons_of_pos (by simpa using Ne.symm h), List.map_cons, List.prod_cons, if_pos h,
      mul_comm]

theorem kernelCofactor_spec {E : Crv K} (hE : E.Good) (l : UInt32) (fs : Factored) {P : Pt K}
    {Q : MPoint E.A} (h : PRep P Q) :
    ∃ R, kernelCofactor E l fs P = some R ∧ PRep R (crtCofactor fs l • Q) := by
  induction fs generalizing P Q with
  | nil => exact ⟨P, rfl, by simpa [crtCofactor] using h⟩
  | cons p fs ih =>
    obtain ⟨l1, e1⟩ := p
    rw [kernelCofactor, crtCofactor_cons]
    by_cases hl : l ≠ l1
    · rw [if_pos hl, if_pos hl]
      obtain ⟨S, e, hS⟩ := mulSmallIter_spec hE l1.toUInt64 e1.toNat h
      obtain ⟨R, e', hR⟩ := ih hS
      refine ⟨R, by rw [e]; exact e', ?_⟩
      rw [mul_nsmul']
      simpa using hR
    · rw [if_neg hl, if_neg hl]
      exact ih h

theorem cof_split {done rest : Factored} {l e : UInt32} (h : Factored.Distinct (done ++ (l, e) :: rest)) :
    ∃ t, crtCofactor (done ++ (l, e) :: rest) l = Factored.value rest * t := by
  refine ⟨((done.filter (fun p => p.1 ≠ l)).map (fun p => p.1.toNat ^ p.2.toNat)).prod, ?_⟩
  rw [cof_eq, List.filter_append, List.filter_cons_of_neg (by simp), List.map_append, List.prod_append,
    mul_comm, value_eq]
  congr 3
  refine List.filter_eq_self.mpr fun p hp => ?_
  have hn := h.2
  rw [List.map_append, List.map_cons] at hn
  have hn2 := (List.nodup_append.mp hn).2.1
  have := (List.nodup_cons.mp hn2).1
  have hne : p.1 ≠ l := fun e => this (List.mem_map.mpr ⟨p, hp, e⟩)
  simpa using hne

theorem value_cons (l e : UInt32) (fs : Factored) :
    Factored.value ((l, e) :: fs) = l.toNat ^ e.toNat * fs.value := by
  rw [value_eq, value_eq, List.map_cons, List.prod_cons]

theorem factoredLoop_spec (chk : Bool) (order : Factored) (hd : order.Distinct)
    (hodd : ∀ p ∈ order, p.1.toNat % 2 = 1) (he : ∀ p ∈ order, p.2 ≠ 0) (rest : Factored) :
    ∀ (done : Factored), order = done ++ rest → ∀ (E : Crv K), E.Good → ∀ (P : Pt K) (R : MPoint E.A),
    PRep P R → addOrderOf R = rest.value →
    ∃ L E', ∃ φ : MPoint E.A →+ MPoint E'.A, factoredLoop chk order rest E P = some L ∧
      IsChain E L E' φ ∧
      L.map KIso.degree = rest.flatMap (fun p => List.replicate p.2.toNat p.1.toUInt64) ∧
      ∀ Q, φ Q = 0 ↔ Q ∈ AddSubgroup.zmultiples R := by
  induction rest with
  | nil =>
    intro done _ E hE P R hP ho
    refine ⟨[], E, AddMonoidHom.id _, rfl, .nil hE, rfl, ?_⟩
    have : R = 0 := AddMonoid.addOrderOf_eq_one_iff.mp ho
    subst this
    intro Q
    rw [AddSubgroup.zmultiples_zero_eq_bot, AddSubgroup.mem_bot]; rfl
  | cons p rest ih =>
    obtain ⟨l, e⟩ := p
    intro done hor E hE P R hP ho
    have hmem : (l, e) ∈ order := by rw [hor]; simp
    have hl := hd.1 _ hmem
    have ho1 := hodd _ hmem
    have he1 : 1 ≤ e.toNat := by
      have := he _ hmem
      rcases Nat.eq_zero_or_pos e.toNat with h | h
      · exact absurd (UInt32.toNat_inj.mp (by simpa using h)) this
      · exact h
    simp only at hl ho1
    have hlpos := hl.pos
    have hrpos : 0 < Factored.value rest := value_pos fun p hp => (hd.1 p (by rw [hor]; simp [hp])).ne_zero
    rw [value_cons] at ho
    obtain ⟨Q, eQ, hQ⟩ := kernelCofactor_spec hE l order hP
    have hcop : Nat.Coprime (crtCofactor order l) (l.toNat ^ e.toNat) := cof_coprime hd hl
    obtain ⟨t, ht⟩ := cof_split (hor ▸ hd)
    rw [← hor] at ht
    have hoQ : addOrderOf (crtCofactor order l • R) = l.toNat ^ e.toNat := by
      have hfin : IsOfFinAddOrder R := addOrderOf_pos_iff.mp (by rw [ho]; positivity)
      rw [hfin.addOrderOf_nsmul, ho, ht, mul_comm (l.toNat ^ e.toNat), Nat.gcd_mul_left,
        Nat.Coprime.gcd_eq_one, mul_one, Nat.mul_div_cancel_left _ hrpos]
      rw [ht] at hcop
      exact (Nat.Coprime.coprime_mul_left hcop).symm
    have hl64 : l.toUInt64.toNat = l.toNat := by simp
    obtain ⟨psi, E1, φ, e1, c1, d1, k1⟩ := recSparse_spec chk l.toUInt64 (by rw [hl64]; exact ho1)
      (by rw [hl64]; exact hl.one_lt.ne') e.toNat e.toNat he1 le_rfl E hE Q _ hQ (by rw [hl64]; exact hoQ)
    have hmemR : crtCofactor order l • R ∈ AddSubgroup.zmultiples R := AddSubgroup.nsmul_mem_zmultiples _ _
    have ho2 : addOrderOf (φ R) = Factored.value rest :=
      order_image φ hrpos (by positivity) ho hoQ hmemR k1
    have hor' : order = (done ++ [(l, e)]) ++ rest := by rw [hor]; simp
    have main : ∀ R2 : MPoint E1.A, (R2 = φ R ∨ R2 = -φ R) →
        PRep (psi.foldl (fun Q f => f.eval Q) P) R2 →
        ∃ M E', ∃ ψ : MPoint E1.A →+ MPoint E'.A,
          factoredLoop chk order rest E1 (psi.foldl (fun Q f => f.eval Q) P) = some M ∧ IsChain E1 M E' ψ ∧
          M.map KIso.degree = rest.flatMap (fun p => List.replicate p.2.toNat p.1.toUInt64) ∧
          ∀ Q, ψ Q = 0 ↔ Q ∈ AddSubgroup.zmultiples (φ R) := by
      intro R2 h2 hr
      have ho3 : addOrderOf R2 = Factored.value rest := by
        rcases h2 with rfl | rfl
        · exact ho2
        · rw [addOrderOf_neg, ho2]
      have hz : AddSubgroup.zmultiples R2 = AddSubgroup.zmultiples (φ R) := by
        rcases h2 with rfl | rfl
        · rfl
        · exact zmul_neg _
      obtain ⟨M, E', ψ, a, b, c, d⟩ := ih _ hor' E1 c1.good.2 _ R2 hr ho3
      exact ⟨M, E', ψ, a, b, c, fun Q => by rw [d, hz]⟩
    have hM : ∃ M E', ∃ ψ : MPoint E1.A →+ MPoint E'.A,
          factoredLoop chk order rest E1 (psi.foldl (fun Q f => f.eval Q) P) = some M ∧ IsChain E1 M E' ψ ∧
          M.map KIso.degree = rest.flatMap (fun p => List.replicate p.2.toNat p.1.toUInt64) ∧
          ∀ Q, ψ Q = 0 ↔ Q ∈ AddSubgroup.zmultiples (φ R) := by
      rcases c1.fold (Or.inl hP) with h | h
      · exact main _ (Or.inl rfl) h
      · exact main _ (Or.inr rfl) h
    obtain ⟨M, E', ψ, eM, cM, dM, kM⟩ := hM
    refine ⟨psi ++ M, E', ψ.comp φ, ?_, c1.append cM, ?_, ker_comp φ ψ hmemR k1 kM⟩
    · rw [factoredLoop, eQ]
      simp only
      rw [e1]
      simp only [evalChain_fst c1 P]
      rw [eM]
    · rw [List.map_append, d1, dM, List.flatMap_cons]

/-- With debug assertions a returned step is always right. -/
theorem new_debug {E : Crv K} (hE : E.Good) {P : Pt K} {R : MPoint E.A} (hP : PRep P R) {n : UInt64}
    (hn : Nat.Prime n.toNat) (hodd : n.toNat % 2 = 1) {f : KIso K} (h : KIso.new true E P n = some f) :
    ∃ E' ms, f = ⟨E, E', P, n, ms⟩ ∧ ∃ φ : MPoint E.A →+ MPoint E'.A, IsStep ⟨E, E', P, n, ms⟩ φ := by
  have ho : addOrderOf R = n.toNat := by
    unfold KIso.new at h
    obtain ⟨T, e, hT⟩ := C27_mul_small hE hP n
    have i1 := C24_isinfinity hP
    have i2 := C24_isinfinity hT
    rw [e, Option.map_some] at h
    cases h1 : P.isInf
    · cases h2 : T.isInf
      · rw [h1, h2] at h; cases h
      · refine addOrderOf_eq_prime (hp := ⟨hn⟩) (i2.mp h2) (fun h0 => ?_)
        rw [i1.mpr h0] at h1; cases h1
    · rw [h1] at h; cases h
  obtain ⟨E', ms, e, φ, hs, -⟩ := new_spec true hE hP ho hodd (fun _ => hn.one_lt.ne')
  rw [e] at h
  cases h
  exact ⟨E', ms, rfl, φ, hs⟩

theorem recSparse_debug (l : UInt64) (hl : Nat.Prime l.toNat) (hodd : l.toNat % 2 = 1) (fuel : Nat) :
    ∀ (k : Nat) (E : Crv K), E.Good → ∀ (P : Pt K) (R : MPoint E.A), PRep P R → ∀ L,
    recSparse true fuel E P l k = some L →
    ∃ E', ∃ φ : MPoint E.A →+ MPoint E'.A, IsChain E L E' φ ∧ L.map KIso.degree = List.replicate k l := by
  induction fuel with
  | zero => intro k E _ P R _ L h; cases h
  | succ fuel ih =>
    intro k E hE P R hP L h
    rw [recSparse] at h
    by_cases k0 : k = 0
    · rw [if_pos k0] at h; cases h
    rw [if_neg k0] at h
    by_cases hk : k = 1
    · subst hk
      rw [if_pos rfl] at h
      rcases hf : KIso.new true E P l with _ | f
      · rw [hf] at h; cases h
      rw [hf, Option.map_some] at h
      cases h
      obtain ⟨E', ms, rfl, φ, hs⟩ := new_debug hE hP hl hodd hf
      exact ⟨E', _, IsChain.cons (f := ⟨E, E', P, l, ms⟩) hs (.nil hs.cod), rfl⟩
    · rw [if_neg hk] at h
      have hk1 : 1 ≤ max 1 (min (k - 1) ((k * 8 + 5) / 10)) := le_max_left _ _
      have hk2 : max 1 (min (k - 1) ((k * 8 + 5) / 10)) ≤ k - 1 :=
        max_le (by omega) (min_le_left _ _)
      dsimp only at h
      generalize max 1 (min (k - 1) ((k * 8 + 5) / 10)) = k1 at hk1 hk2 h
      obtain ⟨Q1, e1, hQ1⟩ := mulSmallIter_spec hE l k1 hP
      rw [e1] at h
      simp only at h
      rcases hL : recSparse true fuel E Q1 l (k - k1) with _ | L1
      · rw [hL] at h; cases h
      rw [hL] at h
      obtain ⟨E1, φ, c1, d1⟩ := ih _ E hE _ _ hQ1 L1 hL
      simp only [evalChain_fst c1 P] at h
      rcases hM : recSparse true fuel E1 (L1.foldl (fun Q f => f.eval Q) P) l k1 with _ | M
      · rw [hM] at h; cases h
      rw [hM] at h
      cases h
      have hM' : ∃ E', ∃ ψ : MPoint E1.A →+ MPoint E'.A, IsChain E1 M E' ψ ∧
          M.map KIso.degree = List.replicate k1 l := by
        rcases c1.fold (Or.inl hP) with h | h
        · exact ih _ E1 c1.good.2 _ _ h M hM
        · exact ih _ E1 c1.good.2 _ _ h M hM
      obtain ⟨E', ψ, c2, d2⟩ := hM'
      refine ⟨E', _, c1.append c2, ?_⟩
      rw [List.map_append, d1, d2, ← List.replicate_add]
      congr 1; omega

theorem factoredLoop_debug (order : Factored) (rest : Factored) (hp : ∀ p ∈ rest, Nat.Prime p.1.toNat)
    (hodd : ∀ p ∈ rest, p.1.toNat % 2 = 1) : ∀ (E : Crv K), E.Good → ∀ (P : Pt K) (R : MPoint E.A),
    PRep P R → ∀ L, factoredLoop true order rest E P = some L →
    ∃ E', ∃ φ : MPoint E.A →+ MPoint E'.A, IsChain E L E' φ ∧
      L.map KIso.degree = rest.flatMap (fun p => List.replicate p.2.toNat p.1.toUInt64) := by
  induction rest with
  | nil =>
    intro E hE P R _ L h
    cases h
    exact ⟨E, _, .nil hE, rfl⟩
  | cons p rest ih =>
    obtain ⟨l, e⟩ := p
    intro E hE P R hP L h
    rw [factoredLoop] at h
    obtain ⟨Q, eQ, hQ⟩ := kernelCofactor_spec hE l order hP
    rw [eQ] at h
    simp only at h
    have hl := hp (l, e) (by simp)
    have ho := hodd (l, e) (by simp)
    simp only at hl ho
    have hl64 : l.toUInt64.toNat = l.toNat := by simp
    rcases hL : recSparse true e.toNat E Q l.toUInt64 e.toNat with _ | L1
    · rw [hL] at h; cases h
    rw [hL] at h
    obtain ⟨E1, φ, c1, d1⟩ := recSparse_debug l.toUInt64 (by rw [hl64]; exact hl) (by rw [hl64]; exact ho)
      _ _ E hE _ _ hQ L1 hL
    simp only [evalChain_fst c1 P] at h
    rcases hM : factoredLoop true order rest E1 (L1.foldl (fun Q f => f.eval Q) P) with _ | M
    · rw [hM] at h; cases h
    rw [hM] at h
    cases h
    have ih' := ih (fun p h => hp p (by simp [h])) (fun p h => hodd p (by simp [h]))
    have hM' : ∃ E', ∃ ψ : MPoint E1.A →+ MPoint E'.A, IsChain E1 M E' ψ ∧
        M.map KIso.degree = rest.flatMap (fun p => List.replicate p.2.toNat p.1.toUInt64) := by
      rcases c1.fold (Or.inl hP) with h | h
      · exact ih' E1 c1.good.2 _ _ h M hM
      · exact ih' E1 c1.good.2 _ _ h M hM
    obtain ⟨E', ψ, c2, d2⟩ := hM'
    refine ⟨E', _, c1.append c2, ?_⟩
    rw [List.map_append, d1, d2, List.flatMap_cons]

end Festa

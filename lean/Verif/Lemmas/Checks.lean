import Verif.Props.Scheme
/-! Computable conditions for statements about points of a curve, used in concrete cases. -/
namespace Festa

section
variable {H : Type*} [AddCommGroup H]

theorem isBasis_prime_pow {r : Nat} (e : Nat) {P Q : H} (hP : r ^ (e + 1) • P = 0)
    (hQ : r ^ (e + 1) • Q = 0) (hb : IsBasis r (r ^ e • P) (r ^ e • Q)) : IsBasis (r ^ (e + 1)) P Q := by
  intro a b
  constructor
  · intro h
    have key : ∀ i ≤ e + 1, ((r ^ i : Nat) : Int) ∣ a ∧ ((r ^ i : Nat) : Int) ∣ b := by
      intro i
      induction i with
      | zero => intro _; simp
      | succ i ih =>
        intro hi
        obtain ⟨⟨a', rfl⟩, b', rfl⟩ := ih (by omega)
        have h1 : a' • (r ^ e • P) + b' • (r ^ e • Q) = 0 := by
          have := congrArg (fun X => r ^ (e - i) • X) h
          simp only [nsmul_add, nsmul_zero] at this
          rw [← this]
          have ep : r ^ e = r ^ (e - i) * r ^ i := by rw [← pow_add]; congr 1; omega
          rw [ep, mul_nsmul', mul_nsmul', mul_comm _ a', mul_comm _ b', mul_zsmul, mul_zsmul, natCast_zsmul,
            natCast_zsmul, smul_comm a', smul_comm b']
        obtain ⟨d1, d2⟩ := (hb a' b').mp h1
        rw [pow_succ]
        push_cast
        exact ⟨mul_dvd_mul_left _ d1, mul_dvd_mul_left _ d2⟩
    exact key _ le_rfl
  · rintro ⟨⟨u, rfl⟩, v, rfl⟩
    rw [mul_comm, mul_zsmul, natCast_zsmul, hP, mul_comm, mul_zsmul, natCast_zsmul, hQ]; simp

end

section
variable {K : Type*} [Field K] [DecidableEq K]

/-- Whether `p` is `k` times `q`. -/
def Crv.isMul (E : Crv K) (p q : Pt K) (k : Nat) : Bool :=
  match E.mulBig q k with
  | some r => p.equals r
  | none => false

theorem isMul_iff {E : Crv K} (hE : E.Good) {p q : Pt K} {P Q : MPoint E.A} (hp : PRep p P) (hq : PRep q Q)
    (k : Nat) : E.isMul p q k = true ↔ P = k • Q := by
  obtain ⟨r, h1, h2⟩ := C27_mul_big hE hq k
  rw [Crv.isMul, h1]
  exact prep_equals hp h2

/-- Whether two points are a basis of order `r^(e+1)`. -/
def Crv.isBasis (E : Crv K) (p q : Pt K) (r e : Nat) : Bool :=
  match E.mulBig p (r ^ e), E.mulBig q (r ^ e) with
  | some p', some q' =>
    !p'.isInf && E.isMul Pt.inf p' r && E.isMul Pt.inf q' r && (List.range r).all (fun k => !E.isMul q' p' k)
  | _, _ => false

omit [DecidableEq K] in
theorem prep_inf {A : K} : PRep (Pt.inf : Pt K) (0 : MPoint A) := rfl

theorem isBasis_of_pow_check {E : Crv K} (hE : E.Good) {p q : Pt K} {P Q : MPoint E.A} (hp : PRep p P) (hq : PRep q Q)
    {r e : Nat} (hr : r.Prime) (h : E.isBasis p q r e = true) : IsBasis (r ^ (e + 1)) P Q := by
  obtain ⟨p', h1, hp'⟩ := C27_mul_big hE hp (r ^ e)
  obtain ⟨q', h2, hq'⟩ := C27_mul_big hE hq (r ^ e)
  rw [Crv.isBasis, h1, h2] at h
  simp only [Bool.and_eq_true, Bool.not_eq_true', List.all_eq_true, List.mem_range] at h
  obtain ⟨⟨⟨g1, g2⟩, g3⟩, g4⟩ := h
  have z1 := (isMul_iff hE prep_inf hp' r).mp g2
  have z2 := (isMul_iff hE prep_inf hq' r).mp g3
  have nz : r ^ e • P ≠ 0 := by
    intro h0
    rw [h0] at hp'
    have := (C24_isinfinity hp').mpr rfl
    rw [g1] at this
    cases this
  have oP : addOrderOf (r ^ e • P) = r := addOrderOf_eq_prime (hp := ⟨hr⟩) z1.symm nz
  refine isBasis_prime_pow e ?_ ?_ (isBasis_of_prime hr oP z2.symm ?_)
  · rw [pow_succ', mul_nsmul']; exact z1.symm
  · rw [pow_succ', mul_nsmul']; exact z2.symm
  · intro hm
    obtain ⟨k, hk⟩ := AddSubgroup.mem_zmultiples_iff.mp hm
    have hk' : (k % r).toNat • (r ^ e • P) = r ^ e • Q := by
      rw [← natCast_zsmul, Int.toNat_of_nonneg (Int.emod_nonneg _ (by exact_mod_cast hr.ne_zero))]
      rw [← hk]
      conv_rhs => rw [← Int.emod_add_mul_ediv k r, add_zsmul, mul_comm, mul_zsmul, natCast_zsmul, z1.symm,
        zsmul_zero, add_zero]
    have lt : (k % r).toNat < r := by
      have := Int.emod_lt_of_pos k (show (0 : Int) < r by exact_mod_cast hr.pos)
      have := Int.emod_nonneg k (show (r : Int) ≠ 0 by exact_mod_cast hr.ne_zero)
      omega
    have := g4 _ lt
    rw [(isMul_iff hE hq' hp' _).mpr hk'.symm] at this
    cases this

open Classical in
/-- The point of the curve with given projective coordinates. -/
noncomputable def Crv.pt (E : Crv K) (p : Pt K) : MPoint E.A := if h : ∃ Q : MPoint E.A, PRep p Q then h.choose else 0

theorem prep_pt {E : Crv K} (hE : E.Good) {p : Pt K} (h : E.onCurve p = true) : PRep p (E.pt p) := by
  have := ((C28_on_curve hE p).1).mp h
  rw [Crv.pt, dif_pos this]
  exact this.choose_spec

end

section
variable {K : Type*} [Field K] [DecidableEq K]

/-- `k` times a point. -/
def Crv.mulD (E : Crv K) (p : Pt K) (k : Nat) : Pt K := (E.mulBig p k).getD Pt.inf

theorem prep_mulD {E : Crv K} (hE : E.Good) {p : Pt K} {X : MPoint E.A} (h : PRep p X) (k : Nat) :
    PRep (E.mulD p k) (k • X) := by
  obtain ⟨r, h1, h2⟩ := C27_mul_big hE h k
  rw [Crv.mulD, h1]; exact h2

theorem ne_of_isInf {E : Crv K} {p : Pt K} {X : MPoint E.A} (h : PRep p X) (hi : p.isInf = false) : X ≠ 0 := by
  rintro rfl
  rw [(C24_isinfinity h).mpr rfl] at hi
  cases hi

/-- Two homomorphisms that agree on a basis agree on the torsion. -/
theorem hom_ext_basis {E : Crv K} (hE : E.Good) {n : Nat} (hn : 1 ≤ n) {P Q X : MPoint E.A} (hb : IsBasis n P Q)
    (hX : n • X = 0) {H : Type*} [AddCommGroup H] {f g : MPoint E.A →+ H} (h1 : f P = g P) (h2 : f Q = g Q) :
    f X = g X := by
  obtain ⟨a, b, rfl⟩ := span_basis hE.two hE.disc hn hb hX
  simp [h1, h2]

/-- `p` represents `X` or `-X`. -/
def PM {A : K} (p : Pt K) (X : MPoint A) : Prop := PRep p X ∨ PRep p (-X)

omit [DecidableEq K] in
theorem PM.neg {A : K} {p : Pt K} {X : MPoint A} (h : PM p X) : PM p (-X) := by
  rcases h with h | h
  · exact Or.inr (by rwa [neg_neg])
  · exact Or.inl h

theorem PM.eq {E : Crv K} {p q : Pt K} {X Y : MPoint E.A} (h : PM p X) (hq : PRep q Y)
    (he : (p.equals q || p.equals q.neg) = true) : X = Y ∨ X = -Y := by
  rw [Bool.or_eq_true] at he
  rcases h with h | h <;> rcases he with he | he
  · exact Or.inl ((prep_equals h hq).mp he)
  · exact Or.inr ((prep_equals h (prep_neg hq)).mp he)
  · exact Or.inr (neg_eq_iff_eq_neg.mp ((prep_equals h hq).mp he))
  · exact Or.inl (neg_inj.mp ((prep_equals h (prep_neg hq)).mp he))

/-- Whether `p` is `k` times `q` or its negative. -/
def Crv.isPmMul (E : Crv K) (p q : Pt K) (k : Nat) : Bool :=
  match E.mulBig q k with
  | some r => p.equals r || p.equals r.neg
  | none => false

theorem PM.mul {E : Crv K} (hE : E.Good) {p q : Pt K} {X Y : MPoint E.A} (h : PM p X) (hq : PRep q Y) {k : Nat}
    (he : E.isPmMul p q k = true) : X = k • Y ∨ X = -(k • Y) := by
  obtain ⟨r, h1, h2⟩ := C27_mul_big hE hq k
  rw [Crv.isPmMul, h1] at he
  exact h.eq h2 he

/-- Whether `p` is no multiple of `q`, found from their multiples by `n`, when `r n` kills `q`. -/
def Crv.offAxis (E : Crv K) (p q : Pt K) (n r : Nat) : Bool :=
  match E.mulBig p n, E.mulBig q n with
  | some p', some q' => E.isMul Pt.inf q' r && (List.range r).all (fun k => !E.isMul p' q' k)
  | _, _ => false

theorem off_axis {E : Crv K} (hE : E.Good) {p q : Pt K} {X Y : MPoint E.A} (hp : PRep p X) (hq : PRep q Y) {n r : Nat}
    (hr : r ≠ 0) (h : E.offAxis p q n r = true) : X ∉ AddSubgroup.zmultiples Y := by
  obtain ⟨p', h1, hp'⟩ := C27_mul_big hE hp n
  obtain ⟨q', h2, hq'⟩ := C27_mul_big hE hq n
  rw [Crv.offAxis, h1, h2] at h
  simp only [Bool.and_eq_true, List.all_eq_true, List.mem_range, Bool.not_eq_true'] at h
  obtain ⟨g1, g2⟩ := h
  have z := (isMul_iff hE prep_inf hq' r).mp g1
  intro hm
  obtain ⟨k, rfl⟩ := AddSubgroup.mem_zmultiples_iff.mp hm
  have r0 : (r : Int) ≠ 0 := by exact_mod_cast hr
  have lt : (k % r).toNat < r := by
    have := Int.emod_lt_of_pos k (show (0 : Int) < r by omega)
    have := Int.emod_nonneg k r0
    omega
  have := g2 _ lt
  rw [(isMul_iff hE hp' hq' _).mpr] at this
  · cases this
  · rw [← natCast_zsmul (n • Y), Int.toNat_of_nonneg (Int.emod_nonneg _ r0), smul_comm n k Y]
    conv_lhs => rw [← Int.emod_add_mul_ediv k r, add_zsmul, mul_comm, mul_zsmul, natCast_zsmul, z.symm,
      zsmul_zero, add_zero]

/-- Whether `p` has order `r^(e+1)`. -/
def Crv.hasPow (E : Crv K) (p : Pt K) (r e : Nat) : Bool :=
  match E.mulBig p (r ^ e) with
  | some p' => !p'.isInf && E.isMul Pt.inf p' r
  | none => false

theorem order_pow {E : Crv K} (hE : E.Good) {p : Pt K} {X : MPoint E.A} (hp : PRep p X) {r e : Nat} (hr : r.Prime)
    (h : E.hasPow p r e = true) : addOrderOf X = r ^ (e + 1) := by
  obtain ⟨p', h1, hp'⟩ := C27_mul_big hE hp (r ^ e)
  rw [Crv.hasPow, h1] at h
  simp only [Bool.and_eq_true, Bool.not_eq_true'] at h
  have z := (isMul_iff hE prep_inf hp' r).mp h.2
  have := Fact.mk hr
  refine addOrderOf_eq_prime_pow ?_ ?_
  · intro h0
    rw [h0] at hp'
    have := (C24_isinfinity hp').mpr rfl
    rw [h.1] at this
    cases this
  · rw [pow_succ', mul_nsmul']; exact z.symm

end

/-- Signs: a homomorphism known up to sign at `A`, `B` and `A + B`. -/
theorem sign_pair {H H' : Type*} [AddCommGroup H] [AddCommGroup H'] (χ : H →+ H') {A B : H} {a b : H'}
    (h1 : χ A = a ∨ χ A = -a) (h2 : χ B = b ∨ χ B = -b) (h3 : χ (A + B) = a + b ∨ χ (A + B) = -(a + b))
    (ha : 2 • a ≠ 0) (hb : 2 • b ≠ 0) : (χ A = a ∧ χ B = b) ∨ (χ A = -a ∧ χ B = -b) := by
  rw [map_add] at h3
  rcases h1 with h1 | h1 <;> rcases h2 with h2 | h2
  · exact Or.inl ⟨h1, h2⟩
  · exfalso
    rw [h1, h2] at h3
    rcases h3 with h3 | h3
    · apply hb
      have : -b = b := add_left_cancel h3
      rw [two_nsmul]; nth_rewrite 1 [← this]; exact neg_add_cancel b
    · apply ha
      rw [neg_add] at h3
      have : a = -a := add_right_cancel h3
      rw [two_nsmul]; nth_rewrite 1 [this]; exact neg_add_cancel a
  · exfalso
    rw [h1, h2] at h3
    rcases h3 with h3 | h3
    · apply ha
      have : -a = a := add_right_cancel h3
      rw [two_nsmul]; nth_rewrite 1 [← this]; exact neg_add_cancel a
    · apply hb
      rw [neg_add] at h3
      have : b = -b := add_left_cancel h3
      rw [two_nsmul]; nth_rewrite 1 [this]; exact neg_add_cancel b
  · exact Or.inr ⟨h1, h2⟩

variable {K : Type*} [Field K] [DecidableEq K] [RootOps K]

theorem fromScalar_none {chk : Bool} {fuel : Nat} {E : Crv K} {fs : Factored} {p q : Pt K}
    (h : torsionBasis chk fuel E fs 634 = some (p, q)) (m : Nat) :
    isogenyFromScalar chk fuel E fs m none = isogenyFromScalar chk fuel E fs m (some (p, q)) := by
  unfold isogenyFromScalar
  rw [h]

/-- Values of a chain of isogenies. -/
def chainVals (E E' : Crv K) (xs : List (Pt K × Pt K)) (L : List (KIso K)) : Bool :=
  xs.all fun x => decide (evalChain E x.1 L = (E', x.2))

theorem PM.chain {E E' : Crv K} {L : List (KIso K)} {φ : MPoint E.A →+ MPoint E'.A}
    (h : IsChain E L E' φ ∨ IsChain E L E' (-φ)) {x z : Pt K} {X : MPoint E.A} (hx : PM x X)
    (hz : evalChain E x L = (E', z)) : PM z (φ X) := by
  rcases hx with hx | hx <;> rcases h with h | h <;> have g := (C46_evaluate h hx).2 <;> rw [hz] at g
  · exact g
  · exact PM.neg (X := -φ X) g |> fun h => by rwa [neg_neg] at h
  · rw [map_neg] at g
    exact PM.neg (X := -φ X) g |> fun h => by rwa [neg_neg] at h
  · rw [map_neg, AddMonoidHom.neg_apply, neg_neg] at g
    exact g

theorem of_any {α : Type*} {o : Option α} {f : α → Bool} (h : o.any f = true) : ∃ r, o = some r ∧ f r = true := by
  cases o with
  | none => cases h
  | some r => exact ⟨r, rfl, h⟩

theorem vals {E E' : Crv K} {xs : List (Pt K × Pt K)} {L : List (KIso K)} (h : chainVals E E' xs L = true) {x z : Pt K}
    (hx : (x, z) ∈ xs) : evalChain E x L = (E', z) := by
  unfold chainVals at h
  rw [List.all_eq_true] at h
  exact of_decide_eq_true (h _ hx)

/-- The isogeny with a given kernel, from a computation of its chain. -/
theorem chain_back (chk : Bool) {E E' : Crv K} (hE : E.Good) {w : Pt K} {W : MPoint E.A} (hw : PRep w W) {fs : Factored}
    (hf : (∀ p ∈ fs, Nat.Prime p.1.toNat) ∧ (fs.map Prod.fst).Nodup ∧ (∀ p ∈ fs, p.1.toNat % 2 = 1) ∧ ∀ p ∈ fs, p.2 ≠ 0)
    (ho : addOrderOf W = (fs.map (fun q => q.1.toNat ^ q.2.toNat)).prod) {xs : List (Pt K × Pt K)}
    (hne : xs ≠ []) (h : (factoredIsogeny chk E w fs).any (chainVals E E' xs) = true) :
    ∃ (L : List (KIso K)) (χ : MPoint E.A →+ MPoint E'.A), IsChain E L E' χ ∧ chainVals E E' xs L = true ∧
      ∀ Q, χ Q = 0 ↔ Q ∈ AddSubgroup.zmultiples W := by
  obtain ⟨L, E'', χ, h1, h2, -, h3⟩ := C46_factored chk hE hw fs hf.1 hf.2.1 hf.2.2.1 hf.2.2.2 ho
  obtain ⟨L', e, hv⟩ := of_any h
  obtain rfl : L = L' := Option.some.inj (h1.symm.trans e)
  obtain ⟨⟨x, z⟩, xs', rfl⟩ := List.exists_cons_of_ne_nil hne
  have v := vals hv (x := x) (z := z) (by simp)
  have := (C46_evaluate h2 hw).1
  have h4 : (evalChain E x L).1 = E'' := evalChain_fst h2 x ▸ rfl
  rw [v] at h4
  subst h4
  exact ⟨L, χ, h2, hv, h3⟩

/-- The sign of the value of a chain at a point: from the value at the point plus a point `T` of even order whose
image is known. -/
theorem eval_signed {E E' : Crv K} (hE' : E'.Good) {φ : MPoint E.A →+ MPoint E'.A} {s z nz ns : Pt K} {X T : MPoint E.A}
    (hs : PRep s (φ T)) (hz : PM z (φ (X + T))) {n : Nat} (hn : n • X = 0)
    (h1 : E'.mulBig z n = some nz) (h2 : E'.mulBig s n = some ns) (h3 : nz.equals ns = true)
    (h4 : (E'.double ns).isInf = false) : PRep (E'.sub z s) (φ X) := by
  obtain ⟨_, e2, hns⟩ := C27_mul_big hE' hs n
  rw [h2, Option.some.injEq] at e2; subst e2
  rcases hz with hz' | hz'
  · have := prep_sub hE' hz' hs
    rwa [map_add, add_sub_cancel_right] at this
  · exfalso
    obtain ⟨_, e1, hnz⟩ := C27_mul_big hE' hz' n
    rw [h1, Option.some.injEq] at e1; subst e1
    have := (prep_equals hnz hns).mp h3
    rw [smul_neg, ← map_nsmul, nsmul_add, hn, zero_add, ← map_nsmul] at this
    have d := (C26_double hE' hns 1).1
    have d0 : φ (n • T) + φ (n • T) = 0 := by
      nth_rewrite 1 [← this]
      exact neg_add_cancel _
    have : PRep (E'.double ns) (0 : MPoint E'.A) := by
      rw [← d0, map_nsmul, ← two_nsmul]; exact d
    rw [(C24_isinfinity this).mpr rfl] at h4
    cases h4

/-- The check of `eval_signed`. -/
def Crv.signOk (E : Crv K) (z s : Pt K) (n : Nat) : Bool :=
  match E.mulBig z n, E.mulBig s n with
  | some nz, some ns => nz.equals ns && !(E.double ns).isInf
  | _, _ => false

theorem eval_signed' {E E' : Crv K} (hE' : E'.Good) {φ : MPoint E.A →+ MPoint E'.A} {s z : Pt K} {X T : MPoint E.A}
    (hs : PRep s (φ T)) (hz : PM z (φ (X + T))) {n : Nat} (hn : n • X = 0) (h : E'.signOk z s n = true) :
    PRep (E'.sub z s) (φ X) := by
  unfold Crv.signOk at h
  split at h
  · rename_i nz ns h1 h2
    rw [Bool.and_eq_true, Bool.not_eq_true'] at h
    exact eval_signed hE' hs hz hn h1 h2 h.1 h.2
  · cases h

end Festa

import Verif.Lemmas.Torsion
import Verif.Spec.TestField3
import Verif.Props.Pairing
/-!
Properties C41 (points of given order and torsion bases) and C43 (canonical kernels).

The order `D` is given by its factorisation `fs`; `(fs.map fun q => q.1^q.2).prod` is its value.
-/
namespace Festa
open WeierstrassCurve.Affine
variable {K : Type*} [Field K] [DecidableEq K]

/-! ### C41 -/

/-- One candidate: the point `X` is multiplied by `c = 2^ep · ((B/D) >> ep)`, `B` the order of the
basis, and accepted exactly if `[D/l][c]X ≠ 0` for all listed primes `l`. -/
theorem C41_candidate {E : Crv K} (hE : E.Good) {x : Pt K} {X : MPoint E.A} (hx : PRep x X)
    (fs : Factored) (hne : fs ≠ []) (he : ∀ p ∈ fs, p.2 ≠ 0) (hl : ∀ p ∈ fs, p.1 ≠ 0) (k ep : Nat) :
    ∃ T r, PRep T ((2 ^ ep * (k >>> ep)) • X) ∧ torsionCandidate E x k fs ep = some r ∧
      ((r = some T ∧ ∀ p ∈ fs, ((fs.map (fun q => q.1.toNat ^ q.2.toNat)).prod / p.1.toNat) •
          ((2 ^ ep * (k >>> ep)) • X) ≠ 0) ∨
       (r = none ∧ ¬ ∀ p ∈ fs, ((fs.map (fun q => q.1.toNat ^ q.2.toNat)).prod / p.1.toNat) •
          ((2 ^ ep * (k >>> ep)) • X) ≠ 0)) := by
  rw [← value_eq]
  exact torsionCandidate_spec hE hx fs hne he hl k ep

/-- The order of an accepted point, for a curve whose points are killed by `B` and an order `D` with
`2^ep · D` dividing `B`. -/
theorem order_of_test {H : Type*} [AddCommGroup H] (fs : Factored) (hd : fs.Distinct)
    (he : ∀ p ∈ fs, p.2 ≠ 0) {B ep : Nat} (hB : ∀ X : H, B • X = 0) (hdvd : 2 ^ ep * fs.value ∣ B) (X : H)
    (h : ∀ p ∈ fs, (fs.value / p.1.toNat) • ((2 ^ ep * ((B / fs.value) >>> ep)) • X) ≠ 0) :
    addOrderOf ((2 ^ ep * ((B / fs.value) >>> ep)) • X) = fs.value := by
  have hpos := value_pos (fs := fs) (fun p hp => (hd.1 p hp).ne_zero)
  refine (order_iff _ fs hd he ?_).mp h
  obtain ⟨c, rfl⟩ := hdvd
  have e : (2 ^ ep * fs.value * c / fs.value) >>> ep = c := by
    rw [show 2 ^ ep * fs.value * c = fs.value * (2 ^ ep * c) by ring, Nat.mul_div_cancel_left _ hpos,
      Nat.shiftRight_eq_div_pow, Nat.mul_div_cancel_left _ (by positivity)]
  rw [e, ← mul_nsmul']
  have := hB X
  rwa [show fs.value * (2 ^ ep * c) = 2 ^ ep * fs.value * c by ring]

/-- C41: `generate_random_point_order_factored_D` returns infinity or a point of order `D`. -/
theorem C41_random_point {E : Crv K} (hE : E.Good) (cands : List (Pt K))
    (hc : ∀ x ∈ cands, ∃ X : MPoint E.A, PRep x X) (fs : Factored) (hne : fs ≠ [])
    (hp : ∀ p ∈ fs, Nat.Prime p.1.toNat) (hd : (fs.map Prod.fst).Nodup) (he : ∀ p ∈ fs, p.2 ≠ 0)
    (ep : Nat) (hB : ∀ X : MPoint E.A, ofSlice BASIS_ORDER • X = 0)
    (hdvd : 2 ^ ep * (fs.map (fun q => q.1.toNat ^ q.2.toNat)).prod ∣ ofSlice BASIS_ORDER) :
    ∃ T, randomPointOrder E cands fs ep = some T ∧
      (T = Pt.inf ∨ ∃ Q : MPoint E.A, PRep T Q ∧
        addOrderOf Q = (fs.map (fun q => q.1.toNat ^ q.2.toNat)).prod) := by
  rw [← value_eq] at hdvd ⊢
  have hl : ∀ p ∈ fs, p.1 ≠ 0 := fun p hp' h => (hp p hp').ne_zero (by rw [h]; rfl)
  have hpos := value_pos (fs := fs) (fun p hp' => (hp p hp').ne_zero)
  unfold randomPointOrder
  rw [if_neg hpos.ne']
  dsimp only
  have hc' : ∀ x ∈ cands.take 1000, ∃ X : MPoint E.A, PRep x X :=
    fun x hx => hc x (List.mem_of_mem_take hx)
  clear hc
  generalize cands.take 1000 = cs at hc'
  induction cs with
  | nil => exact ⟨_, rfl, Or.inl rfl⟩
  | cons x rest ih =>
    obtain ⟨X, hX⟩ := hc' x List.mem_cons_self
    obtain ⟨T, r, h1, h2, h3⟩ :=
      torsionCandidate_spec hE hX fs hne he hl (ofSlice BASIS_ORDER / fs.value) ep
    unfold randomPointOrder.go
    rw [h2]
    rcases h3 with ⟨rfl, h3⟩ | ⟨rfl, h3⟩
    · exact ⟨T, rfl, Or.inr ⟨_, h1, order_of_test fs ⟨hp, hd⟩ he hB hdvd X h3⟩⟩
    · exact ih (fun y hy => hc' y (List.mem_cons_of_mem _ hy))

variable [RootOps K]

/-- C41: `generate_point_order_factored_D` returns infinity or a point of order `D`. -/
theorem C41_point {E : Crv K} (hE : E.Good) (fuel : Nat) (fs : Factored) (hne : fs ≠ [])
    (hp : ∀ p ∈ fs, Nat.Prime p.1.toNat) (hd : (fs.map Prod.fst).Nodup) (he : ∀ p ∈ fs, p.2 ≠ 0)
    (ep : Nat) (hB : ∀ X : MPoint E.A, ofSlice BASIS_ORDER • X = 0)
    (hdvd : 2 ^ ep * (fs.map (fun q => q.1.toNat ^ q.2.toNat)).prod ∣ ofSlice BASIS_ORDER) (T : Pt K)
    (h : pointOrder fuel E fs ep = some T) :
    T = Pt.inf ∨ ∃ Q : MPoint E.A, PRep T Q ∧
      addOrderOf Q = (fs.map (fun q => q.1.toNat ^ q.2.toNat)).prod := by
  rw [← value_eq] at hdvd ⊢
  have hl : ∀ p ∈ fs, p.1 ≠ 0 := fun p hp' h => (hp p hp').ne_zero (by rw [h]; rfl)
  have hpos := value_pos (fs := fs) (fun p hp' => (hp p hp').ne_zero)
  unfold pointOrder at h
  rw [if_neg hpos.ne'] at h
  rcases pointOrderLoop_spec hE fs hne he hl _ ep fuel _ h with h | ⟨X, h1, h2⟩
  · exact Or.inl h
  · exact Or.inr ⟨_, h1, order_of_test fs ⟨hp, hd⟩ he hB hdvd X h2⟩

/-- C41, partial: `torsion_basis` returns twice infinity or two different points of order `D`, and the
two points are a basis of a group `(ℤ/D)²` unless one is a multiple of the other.  The last case
cannot be excluded, see `C41_independent_fails`. -/
theorem C41_basis_partial {E : Crv K} (hE : E.Good) (chk : Bool) (fuel : Nat) (fs : Factored)
    (hne : fs ≠ []) (hp : ∀ p ∈ fs, Nat.Prime p.1.toNat) (hd : (fs.map Prod.fst).Nodup)
    (he : ∀ p ∈ fs, p.2 ≠ 0) (ep : Nat) (hB : ∀ X : MPoint E.A, ofSlice BASIS_ORDER • X = 0)
    (hdvd : 2 ^ ep * (fs.map (fun q => q.1.toNat ^ q.2.toNat)).prod ∣ ofSlice BASIS_ORDER)
    (T S : Pt K) (h : torsionBasis chk fuel E fs ep = some (T, S)) :
    (T = Pt.inf ∧ S = Pt.inf) ∨ ∃ P Q : MPoint E.A, PRep T P ∧ PRep S Q ∧ P ≠ Q ∧
      addOrderOf P = (fs.map (fun q => q.1.toNat ^ q.2.toNat)).prod ∧
      addOrderOf Q = (fs.map (fun q => q.1.toNat ^ q.2.toNat)).prod ∧
      (Q ∈ AddSubgroup.zmultiples P ∨
        IsBasis (fs.map (fun q => q.1.toNat ^ q.2.toNat)).prod P Q) := by
  have h' := h
  unfold torsionBasis at h
  rcases hP : pointOrder fuel E fs ep with _ | P0
  · rw [hP] at h; cases h
  rw [hP] at h
  dsimp only at h
  rcases C41_point hE fuel fs hne hp hd he ep hB hdvd P0 hP with rfl | ⟨P, hP1, hP2⟩
  · left
    have hl : ∀ p ∈ fs, p.1 ≠ 0 := fun p hp' h => (hp p hp').ne_zero (by rw [h]; rfl)
    have hpos := value_pos (fs := fs) (fun p hp' => (hp p hp').ne_zero)
    unfold pointOrder at hP
    rw [if_neg hpos.ne'] at hP
    have := basisLoop_inf hE chk Pt.inf fs hne he hl _ ep fuel _ hP h
    simpa using this
  rw [← value_eq] at hdvd hP2 ⊢
  have hpos := value_pos (fs := fs) (fun p hp' => (hp p hp').ne_zero)
  rcases basisLoop_spec hE chk fs hne ⟨hp, hd⟩ he _ ep fuel _ h with h | ⟨h1, h2, X, h3, h4, w, h5, h6⟩
  · left; simpa using h
  right
  dsimp only at h1 h2 h3 h5
  subst h1
  refine ⟨P, _, hP1, h3, ?_, hP2, h4, ?_⟩
  · intro e
    have := (prep_equals hP1 h3).mpr e
    rw [h2] at this
    cases this
  · by_contra hcon
    rw [not_or] at hcon
    obtain ⟨c1, c2⟩ := hcon
    obtain ⟨Q, hQ⟩ : ∃ Q, Q = (2 ^ ep * ((ofSlice BASIS_ORDER / fs.value) >>> ep)) • X := ⟨_, rfl⟩
    rw [← hQ] at h3 h4 c1 c2
    -- the multiples of P and of Q
    have c3 : P ∉ AddSubgroup.zmultiples Q := by
      intro hm
      have hle : AddSubgroup.zmultiples P ≤ AddSubgroup.zmultiples Q :=
        AddSubgroup.zmultiples_le_of_mem hm
      have hfin : Finite (AddSubgroup.zmultiples Q) := Set.Finite.to_subtype (by
        rw [finite_zmultiples, ← addOrderOf_pos_iff, h4]; exact hpos)
      have heq := AddSubgroup.eq_of_le_of_card_ge hle (by
        rw [Nat.card_zmultiples, Nat.card_zmultiples, hP2, h4])
      apply c1
      rw [heq]
      exact AddSubgroup.mem_zmultiples Q
    obtain ⟨w', m, e1, e2, e3, e4⟩ := C44_degenerate hE chk hpos hP1 h3
      (by rw [← hP2]; exact addOrderOf_nsmul_eq_zero P) (chainFree_of_order hpos hP2) h4 ⟨c3, c1⟩ c2
    rw [h5, Option.some.injEq] at e1
    subst e1
    -- a prime dividing the quotient
    obtain ⟨r, hr⟩ := e2
    have hr1 : r ≠ 1 := by rintro rfl; exact e3 (by rw [hr, mul_one])
    obtain ⟨l, hl1, hl2⟩ := Nat.exists_prime_and_dvd hr1
    have hlv : l ∣ fs.value := hl2.trans ⟨m, by rw [hr, mul_comm]⟩
    rw [value_eq] at hlv
    obtain ⟨y, hy1, hy2⟩ := (hl1.prime.dvd_prod_iff).mp hlv
    obtain ⟨p, hp1, rfl⟩ := List.mem_map.mp hy1
    have hlp : l = p.1.toNat := (Nat.prime_dvd_prime_iff_eq hl1 (hp p hp1)).mp (hl1.dvd_of_dvd_pow hy2)
    subst hlp
    apply h6 p hp1
    obtain ⟨r', hr'⟩ := hl2
    rw [hr, hr', show m * (p.1.toNat * r') = p.1.toNat * (m * r') by ring,
      Nat.mul_div_cancel_left _ hl1.pos, pow_mul, e4, one_pow]

/-! ### C43 -/
omit [RootOps K]

/-- C43, the arithmetic: from coordinates `(a1,b1)`, `(a2,b2)` of two points that generate the group
of `P + sQ`, the code computes `s` modulo `D`, whichever of the coordinates are divisible by the
primes of `D`. -/
theorem C43_scalar {H : Type*} [AddCommGroup H] {P Q : H} {fs : Factored} (hd : fs.Distinct)
    (h : IsBasis fs.value P Q) (he : ∀ p ∈ fs, p.2 ≠ 0) (a1 b1 a2 b2 s : Nat)
    (hcl : AddSubgroup.closure {a1 • P + b1 • Q, a2 • P + b2 • Q} =
      AddSubgroup.zmultiples (P + s • Q)) :
    kernelScalar a1 b1 a2 b2 fs = some (s % fs.value) :=
  kernel_scalar_of_closure hd h he a1 b1 a2 b2 s hcl

/-- C43, partial: `compute_canonical_kernel` of two points generating the group of `P + sQ` returns
`s` modulo `D`.  Proved for points that meet neither infinity nor a zero in the Miller loops (for instance points of exact
order `D` with non-zero coordinates); missing are the points for which `bidlp` fails. -/
theorem C43_canonical_partial {E : Crv K} (hE : E.Good) (chk : Bool) {p q x y : Pt K}
    {P Q : MPoint E.A} (fs : Factored) (hf : fs.Ok chk) (hb : IsBasis fs.value P Q) (hp : PRep p P)
    (hq : PRep q Q) (a1 b1 a2 b2 s : Nat) (hx : PRep x (a1 • P + b1 • Q))
    (hy : PRep y (a2 • P + b2 • Q)) (hP1 : AxisFree fs.value P (a1 • P + b1 • Q))
    (hQ1 : AxisFree fs.value Q (a1 • P + b1 • Q)) (hP2 : AxisFree fs.value P (a2 • P + b2 • Q))
    (hQ2 : AxisFree fs.value Q (a2 • P + b2 • Q)) (c1 : ChainFree fs.value (a1 • P + b1 • Q))
    (c2 : ChainFree fs.value (a2 • P + b2 • Q))
    (hcl : AddSubgroup.closure {a1 • P + b1 • Q, a2 • P + b2 • Q} =
      AddSubgroup.zmultiples (P + s • Q)) :
    canonicalKernel chk E x y fs p q = some (s % fs.value) ∧
    AddSubgroup.zmultiples (P + (s % fs.value) • Q) =
      AddSubgroup.closure {a1 • P + b1 • Q, a2 • P + b2 • Q} := by
  have hpos := value_pos (fs := fs) (fun p hp => (hf.1.1 p hp).ne_zero)
  have red : ∀ T : MPoint E.A, fs.value • T = 0 → ∀ k : Nat, (k % fs.value) • T = k • T := by
    intro T hT k
    conv_rhs => rw [← Nat.mod_add_div k fs.value]
    rw [add_nsmul, mul_comm, mul_nsmul', hT, nsmul_zero, add_zero]
  have hn := hb.two_le_of_free hpos.ne' (hb.tors_nat a1 b1) hP1
  obtain ⟨h1, -, -, -⟩ := bidlp_pairings_free hE chk hn hb hp hq hx hP1 hQ1 c1
  have k1 := C39_bidlp_partial hE chk fs hf a1 b1 hb hp hq hx hP1 hQ1 c1 _ (Or.inr h1.symm)
  have k2 := C39_bidlp_partial hE chk fs hf a2 b2 hb hp hq hy hP2 hQ2 c2 _ (Or.inr h1.symm)
  constructor
  · unfold canonicalKernel
    rw [h1]
    dsimp only
    rw [k1, k2]
    dsimp only
    refine C43_scalar hf.1 hb hf.2.1 _ _ _ _ s ?_
    rw [red P hb.nsmul_left, red P hb.nsmul_left, red Q hb.nsmul_right, red Q hb.nsmul_right]
    exact hcl
  · rw [red Q hb.nsmul_right, hcl]

/-- The same in terms of the points alone: two points that generate the group of `P + sQ` and do not meet infinity nor, if
they are multiples of `P`, a zero in the Miller loops.  For `s = 0` they are multiples of `P`. -/
theorem C43_cyclic_partial {E : Crv K} (hE : E.Good) (chk : Bool) {p q x y : Pt K}
    {P Q X Y : MPoint E.A} (fs : Factored) (hf : fs.Ok chk) (hb : IsBasis fs.value P Q) (hp : PRep p P)
    (hq : PRep q Q) (hx : PRep x X) (hy : PRep y Y) (s : Nat)
    (hcl : AddSubgroup.closure {X, Y} = AddSubgroup.zmultiples (P + s • Q))
    (hX : AxisFree fs.value P X) (hY : AxisFree fs.value P Y)
    (c1 : ChainFree fs.value X) (c2 : ChainFree fs.value Y) :
    canonicalKernel chk E x y fs p q = some (s % fs.value) := by
  have hpos := value_pos (fs := fs) (fun p hp => (hf.1.1 p hp).ne_zero)
  have coords : ∀ Z : MPoint E.A, Z ∈ AddSubgroup.zmultiples (P + s • Q) →
      AxisFree fs.value P Z → ∃ a b : Nat, Z = a • P + b • Q ∧ AxisFree fs.value Q Z := by
    intro Z hZ hZP
    obtain ⟨u, hu⟩ := AddSubgroup.mem_zmultiples_iff.mp hZ
    have h1 : 0 ≤ u % fs.value := Int.emod_nonneg _ (by exact_mod_cast hpos.ne')
    have hu' : (u % fs.value).toNat • (P + s • Q) = Z := by
      rw [← hu, ← natCast_zsmul, Int.toNat_of_nonneg h1]
      conv_rhs => rw [← Int.emod_add_mul_ediv u fs.value, add_zsmul, mul_comm, mul_zsmul]
      have : (fs.value : Int) • (P + s • Q) = 0 := by
        rw [natCast_zsmul, nsmul_add, hb.nsmul_left, ← mul_nsmul', mul_comm, mul_nsmul', hb.nsmul_right,
          nsmul_zero, add_zero]
      rw [this, zsmul_zero, add_zero]
    have e : Z = (u % fs.value).toNat • P + ((u % fs.value).toNat * s) • Q := by rw [← hu', nsmul_add, mul_nsmul']
    refine ⟨_, _, e, ?_⟩
    rw [e]
    refine hb.off_right fun ⟨c, hc'⟩ => hZP.ne_zero ?_
    rw [← hu', hc', mul_comm, mul_nsmul', nsmul_add, hb.nsmul_left, ← mul_nsmul', mul_comm fs.value,
      mul_nsmul', hb.nsmul_right, nsmul_zero, add_zero, nsmul_zero]
  have mX : X ∈ AddSubgroup.zmultiples (P + s • Q) := hcl ▸ AddSubgroup.subset_closure (by simp)
  have mY : Y ∈ AddSubgroup.zmultiples (P + s • Q) := hcl ▸ AddSubgroup.subset_closure (by simp)
  obtain ⟨a1, b1, rfl, hQ1⟩ := coords X mX hX
  obtain ⟨a2, b2, rfl, hQ2⟩ := coords Y mY hY
  exact (C43_canonical_partial hE chk fs hf hb hp hq a1 b1 a2 b2 s hx hy hX hQ1 hY hQ2 c1 c2 hcl).1

/-- Equal scalars exactly for equal groups. -/
theorem C43_injective {H : Type*} [AddCommGroup H] {P Q : H} {D : Nat} (h : IsBasis D P Q)
    (s t : Nat) : AddSubgroup.zmultiples (P + s • Q) = AddSubgroup.zmultiples (P + t • Q) ↔
      s % D = t % D := by
  constructor
  · intro e
    have hm : P + s • Q ∈ AddSubgroup.zmultiples (P + t • Q) := e ▸ AddSubgroup.mem_zmultiples _
    obtain ⟨k, hk⟩ := AddSubgroup.mem_zmultiples_iff.mp hm
    have hk' : k • P + (k * t) • Q = (1 : Int) • P + (s : Int) • Q := by
      rw [one_zsmul, natCast_zsmul, ← hk, zsmul_add, mul_zsmul, natCast_zsmul]
    obtain ⟨e1, e2⟩ := (h.eq_iff_int _ _ _ _).mp hk'
    have := e2.symm.trans (e1.mul_right _)
    rw [one_mul, Int.natCast_modEq_iff] at this
    exact this
  · intro e
    have := (h.eq_iff 1 s 1 t).mpr ⟨rfl, e⟩
    rw [one_nsmul] at this
    rw [this]

/-- Groups that are not of the form `⟨P + sQ⟩` have no canonical scalar: if both first coordinates are
divisible by a prime of `D`, no scalar is right, and the code returns a wrong one without notice. -/
theorem C43_other_groups_fail {H : Type*} [AddCommGroup H] {P Q : H} {fs : Factored} (hd : fs.Distinct)
    (h : IsBasis fs.value P Q) (he : ∀ p ∈ fs, p.2 ≠ 0) (a1 b1 a2 b2 : Nat)
    (hl : ∃ p ∈ fs, p.1.toNat ∣ a1 ∧ p.1.toNat ∣ a2) (s : Nat) :
    AddSubgroup.closure {a1 • P + b1 • Q, a2 • P + b2 • Q} ≠ AddSubgroup.zmultiples (P + s • Q) := by
  intro hcl
  obtain ⟨p, hp, d1, d2⟩ := hl
  have hgen : P + s • Q ∈ AddSubgroup.closure {a1 • P + b1 • Q, a2 • P + b2 • Q} := by
    rw [hcl]; exact AddSubgroup.mem_zmultiples _
  rw [AddSubgroup.mem_closure_pair] at hgen
  obtain ⟨x, y, hxy⟩ := hgen
  have hxy' : (x * a1 + y * a2 : Int) • P + (x * b1 + y * b2 : Int) • Q =
      (1 : Int) • P + (s : Int) • Q := by
    rw [one_zsmul, natCast_zsmul, ← hxy]
    simp only [zsmul_add, add_zsmul, mul_zsmul, natCast_zsmul]
    exact add_add_add_comm _ _ _ _
  obtain ⟨e1, -⟩ := (h.eq_iff_int _ _ _ _).mp hxy'
  have hpd : p.1.toNat ∣ fs.value :=
    (dvd_pow_self _ (fun h => he p hp (UInt32.toNat_inj.mp h))).trans (dvd_value hp)
  have e1' := (Int.modEq_iff_dvd.mp (e1.of_dvd (Int.natCast_dvd_natCast.mpr hpd)))
  have d3 : (p.1.toNat : Int) ∣ x * a1 + y * a2 :=
    dvd_add ((Int.natCast_dvd_natCast.mpr d1).mul_left _) ((Int.natCast_dvd_natCast.mpr d2).mul_left _)
  have d4 : (p.1.toNat : Int) ∣ 1 := by simpa using dvd_add e1' d3
  have := Int.natCast_dvd_natCast.mp (by simpa using d4 : ((p.1.toNat : Nat) : Int) ∣ ((1 : Nat) : Int))
  exact (hd.1 p hp).one_lt.ne' (Nat.dvd_one.mp this)

/-! ### Concrete cases -/

/-- `y² = x³ + 78x² + x` over the field with 257 elements. -/
def e257 : Crv F257 := ⟨78, 20⟩

theorem e257_good : e257.Good := ⟨by decide +kernel, by decide +kernel, by decide +kernel⟩

/-- The points returned by `torsion_basis` need not be independent: on this curve with 236 points the
second is 38 times the first.  One of the two Miller values is zero and replaced by one; the other one
is not; the resulting "pairing" 248 is not a 59-th root of unity but passes the order test, which does
not check that. -/
theorem C41_independent_fails :
    ∃ T S, torsionBasis true 20 e257 [(59, 1)] 634 = some (T, S) ∧
      ∃ P Q : MPoint e257.A, PRep T P ∧ PRep S Q ∧ addOrderOf P = 59 ∧ Q = 38 • P ∧
      weilPairing true e257 T S 59 = some 248 ∧ (248 : F257) ^ 59 ≠ 1 := by
  obtain ⟨P, hP⟩ := ((C28_on_curve e257_good ⟨168, 86, 42⟩).1).mp (by decide +kernel)
  obtain ⟨Q, hQ⟩ := ((C28_on_curve e257_good ⟨179, 92, 243⟩).1).mp (by decide +kernel)
  refine ⟨⟨168, 86, 42⟩, ⟨179, 92, 243⟩, by decide +kernel, P, Q, hP, hQ, ?_, ?_, by decide +kernel,
    by decide +kernel⟩
  · refine addOrderOf_eq_prime (hp := ⟨by norm_num⟩)
      (nsmul_eq_zero_of e257_good hP (by decide +kernel)) ?_
    intro h
    have := (isInf_false hP).mpr h
    revert this; decide +kernel
  · obtain ⟨R, h1, h2⟩ := C27_mul_big e257_good hP 38
    have h3 : (e257.mulBig ⟨168, 86, 42⟩ 38).map (fun R => Pt.equals ⟨179, 92, 243⟩ R) = some true := by
      decide +kernel
    rw [h1] at h3
    simp only [Option.map_some, Option.some.injEq] at h3
    exact (prep_equals hQ h2).mp h3

/-- All points of this curve are killed by 236. -/
theorem e257_killed (X : MPoint e257.A) : ofSlice BASIS_ORDER • X = 0 := by
  have hall : ∀ x y : Fin 257, y.val * y.val % 257 = (x.val * x.val * x.val + 78 * x.val * x.val + x.val) % 257 →
      (e257.mulBig ⟨(x.val : F257), (y.val : F257), 1⟩ 236).map Pt.isInf = some true := by
    decide +kernel
  have h236 : 236 • X = 0 := by
    rcases X with _ | ⟨x, y, h⟩
    · exact nsmul_zero _
    · have hc := curve_eq h
      have hr : PRep (⟨x, y, 1⟩ : Pt F257) (.some x y h : MPoint e257.A) :=
        ⟨one_ne_zero, (mul_one _).symm, (mul_one _).symm⟩
      refine nsmul_eq_zero_of e257_good hr ?_
      have := hall ⟨x.val, ZMod.val_lt x⟩ ⟨y.val, ZMod.val_lt y⟩ (by
        have h3 : ((y.val * y.val : Nat) : F257) =
            ((x.val * x.val * x.val + 78 * x.val * x.val + x.val : Nat) : F257) := by
          push_cast
          rw [ZMod.natCast_zmod_val, ZMod.natCast_zmod_val]
          exact hc
        exact (ZMod.natCast_eq_natCast_iff' _ _ _).mp h3)
      dsimp only at this
      rwa [ZMod.natCast_zmod_val, ZMod.natCast_zmod_val] at this
  obtain ⟨c, hc⟩ : 236 ∣ ofSlice BASIS_ORDER := by decide +kernel
  rw [hc, mul_comm, mul_nsmul', h236, nsmul_zero]

example : ∀ T S, torsionBasis true 20 e257 [(59, 1)] 634 = some (T, S) →
    (T = Pt.inf ∧ S = Pt.inf) ∨ ∃ P Q : MPoint e257.A, PRep T P ∧ PRep S Q ∧ P ≠ Q ∧
      addOrderOf P = 59 ∧ addOrderOf Q = 59 ∧ (Q ∈ AddSubgroup.zmultiples P ∨ IsBasis 59 P Q) :=
  fun T S h => C41_basis_partial e257_good true 20 [(59, 1)] (by decide) (by decide +kernel) (by decide)
    (by decide) 634 e257_killed (by decide +kernel) T S h

example : ∃ x y, canonicalKernel true e59 x y [(59, 1)] p59 q59 = some 3 := by
  obtain ⟨P, hp⟩ := p59_ex
  obtain ⟨Q, hq⟩ := q59_ex
  have hb := basis59 hp hq
  have hv : Factored.value [(59, 1)] = 59 := by decide
  obtain ⟨x, hx⟩ := exists_prep (2 • P + 6 • Q)
  obtain ⟨y, hy⟩ := exists_prep (3 • P + 9 • Q)
  have ho : ∀ a b : Nat, ¬ (59 : Int) ∣ a → addOrderOf (a • P + b • Q) = 59 := fun a b ha => by
    refine addOrderOf_eq_prime (hp := ⟨by norm_num⟩) ?_ ?_
    · have := hb.indep.tors a b
      rwa [natCast_zsmul, natCast_zsmul] at this
    · intro h
      rw [← natCast_zsmul, ← natCast_zsmul] at h
      exact ha ((hb a b).mp h).1
  have := (C43_canonical_partial e59_good true [(59, 1)] ok59 (by rw [hv]; exact hb) hp hq 2 6 3 9 3 hx hy
    (by rw [hv]; exact hb.off_left (by decide)) (by rw [hv]; exact hb.off_right (by decide))
    (by rw [hv]; exact hb.off_left (by decide)) (by rw [hv]; exact hb.off_right (by decide))
    (by rw [hv]; exact C44_chain (by decide) (ho 2 6 (by decide)))
    (by rw [hv]; exact C44_chain (by decide) (ho 3 9 (by decide)))
    ?_).1
  · rw [hv] at this
    exact ⟨x, y, this⟩
  · have e1 : 2 • P + 6 • Q = 2 • (P + 3 • Q) := by rw [nsmul_add, ← mul_nsmul']
    have e2 : 3 • P + 9 • Q = 3 • (P + 3 • Q) := by rw [nsmul_add, ← mul_nsmul']
    rw [e1, e2]
    generalize P + 3 • Q = R
    apply le_antisymm
    · rw [AddSubgroup.closure_le]
      rintro T (rfl | rfl)
      · exact AddSubgroup.nsmul_mem _ (AddSubgroup.mem_zmultiples R) 2
      · exact AddSubgroup.nsmul_mem _ (AddSubgroup.mem_zmultiples R) 3
    · rw [AddSubgroup.zmultiples_le, AddSubgroup.mem_closure_pair]
      exact ⟨-1, 1, by module⟩

example : kernelScalar 2 6 0 0 [(59, 1)] = some 3 := by decide +kernel

end Festa

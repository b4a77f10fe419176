import Verif.Lemmas.VeluBase
import Mathlib.GroupTheory.OrderOfElement
import Mathlib.Algebra.BigOperators.Field
import Mathlib.Algebra.BigOperators.Ring.Finset
/-! Products over a finite subgroup of odd order. -/
namespace Festa
open WeierstrassCurve.Affine
variable {L : Type*} [Field L]

section group
variable {M : Type*} [AddCommGroup M] (G : AddSubgroup M) [Fintype G]

/-- The non-zero elements of a finite subgroup. -/
noncomputable def gs : Finset G := by classical exact Finset.univ.erase 0

variable {G}

theorem mem_gs {g : G} : g ∈ gs G ↔ g ≠ 0 := by
  classical
  unfold gs
  simp

theorem card_gs : (gs G).card + 1 = Fintype.card G := by
  classical
  unfold gs
  rw [Finset.card_erase_of_mem (Finset.mem_univ _), Finset.card_univ]
  have : 0 < Fintype.card G := Fintype.card_pos_iff.mpr ⟨0⟩
  omega

theorem prod_split (f : G → L) : ∏ g : G, f g = f 0 * ∏ g ∈ gs G, f g := by
  classical
  unfold gs
  rw [Finset.mul_prod_erase _ _ (Finset.mem_univ _)]

theorem prod_shift (f : M → L) {a : M} (ha : a ∈ G) (Q : M) :
    ∏ g : G, f (Q + a + g) = ∏ g : G, f (Q + g) := by
  refine Fintype.prod_equiv (Equiv.addLeft (⟨a, ha⟩ : G)) _ _ fun g => ?_
  simp [add_assoc]

theorem prod_neg (f : M → L) (Q : M) : ∏ g : G, f (-Q + g) = ∏ g : G, f (-(Q + g)) := by
  refine Fintype.prod_equiv (Equiv.neg G) _ _ fun g => ?_
  simp [add_comm]

theorem prod_gs_neg (f : G → L) : ∏ g ∈ gs G, f (-g) = ∏ g ∈ gs G, f g := by
  refine Finset.prod_equiv (Equiv.neg G) (fun g => ?_) fun g _ => rfl
  simp [mem_gs]

theorem dbl_bij (hodd : Odd (Fintype.card G)) : Function.Bijective (fun g : G => g + g) := by
  have hc : (Nat.card (Multiplicative G)).Coprime 2 := by
    rw [Nat.card_eq_fintype_card, Fintype.card_multiplicative]
    exact Nat.coprime_two_right.mpr hodd
  have := (powCoprime hc).bijective
  have e : ∀ g : Multiplicative G, powCoprime hc g = g * g := fun g => by
    rw [powCoprime_apply, pow_two]
  constructor
  · intro a b h
    have h' : powCoprime hc (Multiplicative.ofAdd a) = powCoprime hc (Multiplicative.ofAdd b) := by
      rw [e, e]; exact h
    exact this.1 h'
  · intro b
    obtain ⟨a, ha⟩ := this.2 (Multiplicative.ofAdd b)
    rw [e] at ha
    exact ⟨a.toAdd, ha⟩

theorem dbl_ne (hodd : Odd (Fintype.card G)) {g : G} (hg : g ≠ 0) : g + g ≠ 0 := fun h =>
  hg ((dbl_bij hodd).1 (show g + g = 0 + 0 by rw [h, add_zero]))

theorem mem_of_dbl (hodd : Odd (Fintype.card G)) {g : M} (hg : g ∈ G) (h : g + g = 0) : g = 0 := by
  by_contra hn
  exact dbl_ne hodd (g := ⟨g, hg⟩) (by simpa [Subtype.ext_iff] using hn) (by simpa [Subtype.ext_iff] using h)

theorem prod_dbl (hodd : Odd (Fintype.card G)) (f : G → L) : ∏ g : G, f (g + g) = ∏ g : G, f g :=
  Fintype.prod_bijective _ (dbl_bij hodd) _ _ fun _ => rfl

theorem prod_gs_dbl (hodd : Odd (Fintype.card G)) (f : G → L) :
    ∏ g ∈ gs G, f (g + g) = ∏ g ∈ gs G, f g := by
  refine Finset.prod_bijective _ (dbl_bij hodd) (fun g => ?_) fun _ _ => rfl
  rw [mem_gs, mem_gs]
  constructor
  · exact dbl_ne hodd
  · rintro h rfl
    exact h (add_zero _)

theorem prod_gs_neg_one (hodd : Odd (Fintype.card G)) (f : G → L) :
    ∏ g ∈ gs G, -f g = ∏ g ∈ gs G, f g := by
  rw [Finset.prod_neg]
  have : Even (gs G).card := by
    have := card_gs (G := G)
    rw [← this] at hodd
    rcases hodd with ⟨k, hk⟩
    exact ⟨k, by omega⟩
  rw [this.neg_one_pow, one_mul]

end group

variable [DecidableEq L] {A : L}

variable {G : AddSubgroup (MPoint A)} [Fintype G]

/-- The abscissa of the image: `∏ x(Q + g)`. -/
noncomputable def fx (G : AddSubgroup (MPoint A)) [Fintype G] (Q : MPoint A) : L :=
  ∏ g : G, xc (Q + g.1)

/-- `∏ y(Q + g)`, the ordinate up to a constant. -/
noncomputable def fy (G : AddSubgroup (MPoint A)) [Fintype G] (Q : MPoint A) : L :=
  ∏ g : G, yc (Q + g.1)

/-- `∏ (s - x_g)` over the non-zero `g`. -/
noncomputable def cs (G : AddSubgroup (MPoint A)) [Fintype G] (s : L) : L := ∏ g ∈ gs G, (s - xc g.1)

/-- `s ∏ (s x_g - 1)` over the non-zero `g`. -/
noncomputable def ns (G : AddSubgroup (MPoint A)) [Fintype G] (s : L) : L :=
  s * ∏ g ∈ gs G, (s * xc g.1 - 1)

/-- `∏ x_g` over the non-zero `g`. -/
noncomputable def px (G : AddSubgroup (MPoint A)) [Fintype G] : L := ∏ g ∈ gs G, xc g.1

/-- `∏ y_g` over the non-zero `g`. -/
noncomputable def py (G : AddSubgroup (MPoint A)) [Fintype G] : L := ∏ g ∈ gs G, yc g.1

/-- A choice of one of each pair `g, -g`. -/
def IsHalf (G : AddSubgroup (MPoint A)) [Fintype G] (d : Nat) (e : Nat → G) : Prop :=
  (∀ i < d, e i ≠ 0) ∧ ∀ f : G → L, ∏ g ∈ gs G, f g = ∏ i ∈ Finset.range d, f (e i) * f (-e i)

theorem fx_shift {a : MPoint A} (ha : a ∈ G) (Q : MPoint A) : fx G (Q + a) = fx G Q := prod_shift _ ha _
theorem fy_shift {a : MPoint A} (ha : a ∈ G) (Q : MPoint A) : fy G (Q + a) = fy G Q := prod_shift _ ha _

theorem fx_neg (Q : MPoint A) : fx G (-Q) = fx G Q := by
  unfold fx
  rw [prod_neg (fun x => xc x)]
  exact Finset.prod_congr rfl fun g _ => xc_neg _

theorem fy_neg (hodd : Odd (Fintype.card G)) (Q : MPoint A) : fy G (-Q) = -fy G Q := by
  unfold fy
  rw [prod_neg (fun x => yc x)]
  simp_rw [yc_neg]
  rw [Finset.prod_neg, Finset.card_univ, hodd.neg_one_pow, neg_one_mul]

theorem gs_ne {g : G} (hg : g ∈ gs G) : g.1 ≠ 0 := by
  have := mem_gs.mp hg
  exact fun h => this (Subtype.ext h)

/-- Points of odd order have a non-zero ordinate and abscissa. -/
theorem gs_yc_ne (h2 : (2 : L) ≠ 0) (hodd : Odd (Fintype.card G)) {g : G} (hg : g ∈ gs G) : yc g.1 ≠ 0 := by
  intro h
  exact gs_ne hg (mem_of_dbl hodd g.2 ((add_self_iff h2 (gs_ne hg)).mpr h))

theorem gs_xc_ne (h2 : (2 : L) ≠ 0) (hodd : Odd (Fintype.card G)) {g : G} (hg : g ∈ gs G) : xc g.1 ≠ 0 := by
  intro h
  have e := yc_sq (gs_ne hg)
  rw [h] at e
  exact gs_yc_ne h2 hodd hg (by simpa using e)

theorem px_ne (h2 : (2 : L) ≠ 0) (hodd : Odd (Fintype.card G)) : px G ≠ 0 :=
  Finset.prod_ne_zero_iff.mpr fun _ hg => gs_xc_ne h2 hodd hg

theorem py_ne (h2 : (2 : L) ≠ 0) (hodd : Odd (Fintype.card G)) : py G ≠ 0 :=
  Finset.prod_ne_zero_iff.mpr fun _ hg => gs_yc_ne h2 hodd hg

omit [Fintype G] in
theorem add_ne {Q : MPoint A} (hQ : Q ∉ G) (g : G) : Q + g.1 ≠ 0 := fun h =>
  hQ (by rw [eq_neg_of_add_eq_zero_left h]; exact G.neg_mem g.2)

omit [Fintype G] in
theorem ne_of_not_mem {Q : MPoint A} (hQ : Q ∉ G) : Q ≠ 0 := fun h => hQ (h ▸ G.zero_mem)

theorem xc_ne_gs {Q : MPoint A} (hQ : Q ∉ G) {g : G} (hg : g ∈ gs G) : xc Q ≠ xc g.1 := by
  intro h
  rcases (xc_eq_iff (ne_of_not_mem hQ) (gs_ne hg)).mp h with e | e
  · exact hQ (e ▸ g.2)
  · exact hQ (e ▸ G.neg_mem g.2)

theorem cs_ne {Q : MPoint A} (hQ : Q ∉ G) : cs G (xc Q) ≠ 0 :=
  Finset.prod_ne_zero_iff.mpr fun _ hg => sub_ne_zero.mpr (xc_ne_gs hQ hg)

/-- Pairs of factors. -/
theorem pair_eq {Q : MPoint A} (hQ : Q ∉ G) {g : G} (hg : g ∈ gs G) (s : L) :
    (s - xc (Q + g.1)) * (s - xc (Q - g.1)) * (xc Q - xc g.1) ^ 2 = phi3 A (xc Q) (xc g.1) s :=
  phi3_eq (ne_of_not_mem hQ) (gs_ne hg) (xc_ne_gs hQ hg) s

/-- The abscissa as a rational function. -/
theorem fx_formula {d : Nat} {e : Nat → G} (hH : IsHalf G d e) {Q : MPoint A} (hQ : Q ∉ G) :
    fx G Q * cs G (xc Q) = ns G (xc Q) := by
  unfold fx cs ns
  rw [prod_split, hH.2, hH.2, hH.2, ZeroMemClass.coe_zero, add_zero, mul_assoc, ← Finset.prod_mul_distrib]
  congr 1
  refine Finset.prod_congr rfl fun h hh => ?_
  have := pair_eq hQ (mem_gs.mpr (hH.1 h (Finset.mem_range.mp hh))) 0
  rw [phi3_zero] at this
  simp only [NegMemClass.coe_neg, xc_neg, ← sub_eq_add_neg]
  linear_combination this

end Festa

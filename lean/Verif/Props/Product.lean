import Verif.Props.Theta
import Verif.Lemmas.Isogeny
import Verif.Model.Festa
/-! Reading the two curves and the points off the last theta structure (C50), and the choice of the
factor in the inversion of the trapdoor function (C54). -/
namespace Festa
variable {K : Type} [Field K]

/-! ### C50: splitting -/

theorem krep_scale {A : K} {c X Z : K} {R : MPoint A} (hc : c ≠ 0) (h : KRep X Z R) : KRep (c * X) (c * Z) R := by
  rcases R with _ | ⟨x, y, k⟩
  · exact ⟨mul_ne_zero hc h.1, by rw [h.2, mul_zero]⟩
  · exact ⟨mul_ne_zero hc h.1, by rw [h.2]; ring⟩

section
variable [DecidableEq K] [RootOps K]

/-- `split_to_product` on a product null point `o ⊗ o'` and product points `u ⊗ v`: the first curve and
the first components come from `o'` and `v`, the second from `o` and `u`, and the `i`-th output belongs
to the `i`-th input.  A component is the point with the given x-coordinate, up to sign. -/
theorem C50_split {o o' : K × K} (ho : Null1 o) (ho' : Null1 o')
    (pts : List ((K × K) × (K × K))) (hp : ∀ x ∈ pts, x.1.1 ≠ 0 ∧ x.2.2 ≠ 0) (num : Nat) :
    ∃ (E3 E4 : Crv K) (out : List (CPt K)),
      splitToProduct (ThStr.new (ThPt.tensor o o')) (pts.map fun x => ThPt.tensor x.1 x.2) num =
        some (⟨E3, E4⟩, out) ∧ E3.Good ∧ E4.Good ∧ E3.A = nullToMontCoeff o' ∧ E4.A = nullToMontCoeff o ∧
      out.length = min num pts.length ∧
      ∀ (i : Nat) (x : (K × K) × (K × K)) (C : CPt K), pts[i]? = some x → out[i]? = some C →
        (∀ R : MPoint E3.A, KRep (o'.1 * x.2.2 + o'.2 * x.2.1) (o'.1 * x.2.2 - o'.2 * x.2.1) R →
          PRep C.P1 R ∨ PRep C.P1 (-R)) ∧
        (∀ R : MPoint E4.A, KRep (o.1 * x.1.2 + o.2 * x.1.1) (o.1 * x.1.2 - o.2 * x.1.1) R →
          PRep C.P2 R ∨ PRep C.P2 (-R)) := by
  have h2 : (2 : K) ≠ 0 := RootOps.two_ne
  obtain ⟨E3, e3, g3, a3⟩ := C50_curve h2 ho'
  obtain ⟨E4, e4, g4, a4⟩ := C50_curve h2 ho
  have n3 : nullToMont (splitTheta (ThPt.tensor o o')).1 = some E3 := by
    simp only [nullToMont, splitTheta, ThPt.tensor, coeff_scale ho.a]
    exact e3
  have sp : ∀ a b : K × K, (splitTheta (ThPt.tensor a b)).2 = (b.2 * a.1, b.2 * a.2) := by
    intro a b; simp only [splitTheta, ThPt.tensor, mul_comm]
  have n4 : nullToMont (splitTheta (ThPt.tensor o o')).2 = some E4 := by
    rw [sp]
    simp only [nullToMont, coeff_scale ho'.b]
    exact e4
  refine ⟨E3, E4, ((pts.map fun x => ThPt.tensor x.1 x.2).take num).map fun P =>
    ⟨(E3.completePointX (thetaToMontPoint (splitTheta (ThPt.tensor o o')).1 (splitTheta P).1)).1,
     (E4.completePointX (thetaToMontPoint (splitTheta (ThPt.tensor o o')).2 (splitTheta P).2)).1⟩,
    ?_, g3, g4, a3, a4, by simp, ?_⟩
  · have : (ThStr.new (ThPt.tensor o o')).null = ThPt.tensor o o' := rfl
    simp only [splitToProduct, this, n3, n4, Option.bind_eq_bind, Option.bind_some]
  · intro i x C hx hC
    rw [List.getElem?_map, List.getElem?_take] at hC
    split at hC
    case isFalse => cases hC
    rw [List.getElem?_map, hx] at hC
    simp only [Option.map_some, Option.some.injEq] at hC
    obtain ⟨hu, hv⟩ := hp x (List.mem_of_getElem? hx)
    subst hC
    constructor
    · intro R hR
      have e : thetaToMontPoint (splitTheta (ThPt.tensor o o')).1 (splitTheta (ThPt.tensor x.1 x.2)).1 =
          ⟨o.1 * x.1.1 * (thetaToMontPoint o' x.2).X, o.1 * x.1.1 * (thetaToMontPoint o' x.2).Z⟩ :=
        thetaToMont_scale o.1 x.1.1 o' x.2
      simp only [e]
      exact complete_rep g3 (krep_scale (mul_ne_zero ho.a hu) hR)
    · intro R hR
      have e : thetaToMontPoint (splitTheta (ThPt.tensor o o')).2 (splitTheta (ThPt.tensor x.1 x.2)).2 =
          ⟨o'.2 * x.2.2 * (thetaToMontPoint o x.1).X, o'.2 * x.2.2 * (thetaToMontPoint o x.1).Z⟩ := by
        rw [sp, sp]; exact thetaToMont_scale o'.2 x.2.2 o x.1
      simp only [e]
      exact complete_rep g4 (krep_scale (mul_ne_zero ho'.b hv) hR)

/-- The condition on the points in `C50_split` cannot be dropped.  A product point whose second
component is the point of order four with `x = 1` (`u.1 = 0`) has first two coordinates zero, and its
first component is read as infinity, whatever it is. -/
theorem C50_split_degenerate {o o' v : K × K} {w : K} (num : Nat) {E3 E4 : Crv K} {out : List (CPt K)}
    (h : splitToProduct (ThStr.new (ThPt.tensor o o')) [ThPt.tensor (0, w) v] (num + 1) = some (⟨E3, E4⟩, out)) :
    ∃ C, out = [C] ∧ C.P1.isInf = true := by
  rw [splitToProduct] at h
  obtain ⟨E, -, h⟩ := Option.bind_eq_some_iff.mp h
  obtain ⟨E', -, h⟩ := Option.bind_eq_some_iff.mp h
  simp only [List.take_succ_cons, List.take_nil, List.map_cons, List.map_nil, Option.some.injEq, Prod.mk.injEq] at h
  refine ⟨_, h.2.symm, ?_⟩
  have e : (thetaToMontPoint (splitTheta (ThStr.new (ThPt.tensor o o')).null).1
      (splitTheta (ThPt.tensor (0, w) v)).1) = ⟨0, 0⟩ := by
    simp [thetaToMontPoint, splitTheta, ThPt.tensor]
  simp only [e]
  rw [Pt.isInf, complete_Z rfl]
  simp

/-- An instance: the point with first component `(24, 28)` on the curve of `(1, 3)`, over the field with
29 elements. -/
example : ∃ (E3 E4 : Crv F29) (C : CPt F29) (R : MPoint E3.A),
    splitToProduct (ThStr.new (ThPt.tensor (1, 2) (1, 3))) [ThPt.tensor (0, 1) (1, 2)] 1 = some (⟨E3, E4⟩, [C]) ∧
    KRep (1 * 2 + 3 * 1) (1 * 2 - 3 * 1) R ∧ ¬PRep C.P1 R ∧ ¬PRep C.P1 (-R) := by
  obtain ⟨r, hr⟩ := Option.isSome_iff_exists.mp (show (splitToProduct (ThStr.new
    (ThPt.tensor (1, 2) (1, 3) : ThPt F29)) [ThPt.tensor (0, 1) (1, 2)] 1).isSome = true by decide +kernel)
  obtain ⟨⟨E3, E4⟩, out⟩ := r
  obtain ⟨C, rfl, hC⟩ := C50_split_degenerate 0 hr
  have hA : E3.A = 18 := by
    have : (splitToProduct (ThStr.new (ThPt.tensor (1, 2) (1, 3) : ThPt F29))
      [ThPt.tensor (0, 1) (1, 2)] 1).map (fun r => r.1.E1.A) = some 18 := by decide +kernel
    rw [hr] at this
    exact Option.some.inj this
  have hZ : C.P1.Z = 0 := by simpa [Pt.isInf] using hC
  have hn : (mont E3.A).Nonsingular 24 28 := by
    rw [hA]
    exact nonsing_of (by decide +kernel) (by decide +kernel) (by decide +kernel)
  refine ⟨E3, E4, C, .some 24 28 hn, hr, ⟨by decide +kernel, by decide +kernel⟩, fun h => h.1 hZ, fun h => ?_⟩
  obtain ⟨h3, e3⟩ := neg_pt hn
  rw [e3] at h
  exact h.1 hZ
example := C50_split (K := F29) (o := (1, 2)) (o' := (1, 3))
  ⟨by decide +kernel, by decide +kernel, by decide +kernel, by decide +kernel⟩
  ⟨by decide +kernel, by decide +kernel, by decide +kernel, by decide +kernel⟩
  [((1, 5), (4, 7)), ((3, 1), (2, 9))] (List.forall_mem_cons.mpr
    ⟨⟨by decide +kernel, by decide +kernel⟩, List.forall_mem_cons.mpr ⟨⟨by decide +kernel, by decide +kernel⟩, by simp⟩⟩) 1

/-! ### C54: the factor isomorphic to the secret curve -/

/-- Curves between which the code finds an isomorphism: equal coefficients, or curves isomorphic over
the field in the cases covered by `C31_isomorphism_partial`. -/
def FoundIso (E E' : Crv K) : Prop :=
  E.A = E'.A ∨ (IsoOver E.A E'.A ∧ E.A * E.A ≠ E'.A * E'.A ∧ E.A ≠ 0 ∧ E'.A ≠ 0 ∧ E.A * E.A ≠ 3)

omit [RootOps K] in
theorem FoundIso.j {E E' : Crv K} (h1 : E.Good) (h2 : E'.Good) (h : FoundIso E E') :
    E.jInvariant = E'.jInvariant := by
  rcases h with h | ⟨h, -⟩
  · simp only [Crv.jInvariant, h]
  · exact C32_isomorphic h1 h2 h

theorem FoundIso.map {E E' : Crv K} (h1 : E.Good) (h2 : E'.Good) (h : FoundIso E E') :
    ∃ φ : MPoint E.A ≃+ MPoint E'.A, ∀ (P : Pt K) (R : MPoint E.A), PRep P R → R ≠ 0 →
      PRep (if E.A = E'.A then P else (CrvIso.new E E').eval P) (φ R) := by
  by_cases e : E.A = E'.A
  · obtain ⟨A, a⟩ := E
    obtain ⟨A', a'⟩ := E'
    simp only at e
    subst e
    exact ⟨AddEquiv.refl _, fun P R hP _ => by simpa using hP⟩
  · obtain ⟨h3, h4, h5, h6, h7⟩ := h.resolve_left e
    obtain ⟨φ, hφ⟩ := C31_isomorphism_partial h1 h2 h3 h4 h5 h6 h7
    exact ⟨φ, fun P R hP hR => by rw [if_neg e]; exact hφ P R hP hR⟩

/-- The choice of the factor in `trapdoor_inverse`: when the first factor is isomorphic to `EA'` the
result is the image of the first components under an isomorphism of groups, when only the second one
is, it is the image of the second components, and when the j-invariants of both differ from that of
`EA'` the debug assertion fails. -/
theorem C54_choose (chk : Bool) {EA' : Crv K} {E34 : EProd K} (hA : EA'.Good) (I1 I2 : CPt K) :
    (E34.E1.Good → FoundIso E34.E1 EA' → ∃ φ : MPoint E34.E1.A ≃+ MPoint EA'.A,
      ∀ R1 R2 : MPoint E34.E1.A, PRep I1.P1 R1 → PRep I2.P1 R2 → R1 ≠ 0 → R2 ≠ 0 →
        ∃ l1 l2, chooseFactor chk EA' E34 I1 I2 = some (l1, l2) ∧ PRep l1 (φ R1) ∧ PRep l2 (φ R2)) ∧
    (E34.E2.Good → FoundIso E34.E2 EA' → E34.E1.jInvariant ≠ EA'.jInvariant →
      ∃ φ : MPoint E34.E2.A ≃+ MPoint EA'.A,
      ∀ R1 R2 : MPoint E34.E2.A, PRep I1.P2 R1 → PRep I2.P2 R2 → R1 ≠ 0 → R2 ≠ 0 →
        ∃ l1 l2, chooseFactor chk EA' E34 I1 I2 = some (l1, l2) ∧ PRep l1 (φ R1) ∧ PRep l2 (φ R2)) ∧
    (E34.E1.jInvariant ≠ EA'.jInvariant → E34.E2.jInvariant ≠ EA'.jInvariant →
      chooseFactor true EA' E34 I1 I2 = none) := by
  refine ⟨fun h hf => ?_, fun h hf hj => ?_, fun h h' => ?_⟩
  · obtain ⟨φ, hφ⟩ := hf.map h hA
    refine ⟨φ, fun R1 R2 h1 h2 n1 n2 => ⟨_, _, ?_, hφ _ _ h1 n1, hφ _ _ h2 n2⟩⟩
    rw [chooseFactor, if_pos (hf.j h hA)]
    split <;> rfl
  · obtain ⟨φ, hφ⟩ := hf.map h hA
    refine ⟨φ, fun R1 R2 h1 h2 n1 n2 => ⟨_, _, ?_, hφ _ _ h1 n1, hφ _ _ h2 n2⟩⟩
    rw [chooseFactor, if_neg hj, if_neg (by simp [hf.j h hA])]
    split <;> rfl
  · rw [chooseFactor, if_neg h, if_pos]
    simpa using Ne.symm h'

end

/-- The curves of `C31`, with the isomorphic one as first and as second factor. -/
example : FoundIso tE tE2 ∧ (⟨0, 1 / 2⟩ : Crv F29).jInvariant ≠ tE2.jInvariant ∧ PRep (⟨2, 6, 2⟩ : Pt F29) tQ ∧
    tQ ≠ 0 :=
  ⟨Or.inr ⟨tE_iso, by decide, by decide, by decide, by decide⟩, by decide +kernel,
    ⟨by decide, by decide, by decide⟩, by intro h; cases h⟩

example : ∃ l1 l2, chooseFactor true tE2 ⟨⟨0, 1 / 2⟩, tE⟩ ⟨Pt.inf, ⟨2, 6, 2⟩⟩ ⟨Pt.inf, ⟨2, 6, 2⟩⟩ = some (l1, l2) := by
  obtain ⟨-, h, -⟩ := C54_choose true (EA' := tE2) (E34 := ⟨⟨0, 1 / 2⟩, tE⟩) tE2_good
    ⟨Pt.inf, ⟨2, 6, 2⟩⟩ ⟨Pt.inf, ⟨2, 6, 2⟩⟩
  obtain ⟨φ, h⟩ := h tE_good (Or.inr ⟨tE_iso, by decide, by decide, by decide, by decide⟩) (by decide +kernel)
  have hq : PRep (⟨2, 6, 2⟩ : Pt F29) tQ := ⟨by decide, by decide, by decide⟩
  obtain ⟨l1, l2, h, -⟩ := h tQ tQ hq hq (by intro h; cases h) (by intro h; cases h)
  exact ⟨l1, l2, h⟩

end Festa

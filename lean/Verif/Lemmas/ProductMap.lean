import Verif.Lemmas.RiemannSplit
import Verif.Lemmas.RiemannLoop
import Verif.Spec.Chain
import Verif.Lemmas.Isogeny
import Verif.Props.Gluing
import Mathlib.GroupTheory.OrderOfElement
/-! The map computed by `product_isogeny` in terms of theta coordinates of the two factors. -/
namespace Festa
variable {K : Type*} [Field K]

/-! ### The chain -/

theorem NoneVanishes.six {O : ThPt K} (h : NoneVanishes O) : O.sqTheta.NZ ∧ SixNZ O := by
  have w : ∀ j, wf j O O ≠ 0 := fun j => evenConst_wi O j ▸ h _ _ (wi_even j)
  rw [sqTheta_wf]
  exact ⟨⟨w 0, w 1, w 2, w 3⟩, ⟨w 4, w 5, w 6, w 7, w 8, w 9⟩⟩

theorem ProdChain.reg : ∀ (r : Nat) {O K1 K2 : ThPt K}, ProdChain r O K1 K2 → RegChain OneVanishes r O K1 K2
  | r + 3, _, _, _, ⟨h1, h2, h3, h4⟩ => ⟨h1, h2.six.2, h3, ProdChain.reg (r + 2) h4⟩
  | 2, _, _, _, ⟨h1, h2, h3, h4, h5, h6⟩ => ⟨h1, h2.six.2, h3, h4.six, h5, h6⟩

/-- The permutation of the forms under Hadamard's transform. -/
def hperm : Fin 10 → Fin 10
  | 0 => 0 | 1 => 4 | 2 => 6 | 3 => 8 | 4 => 1 | 5 => 7 | 6 => 2 | 7 => 5 | 8 => 3 | 9 => 9

theorem hperm_hperm (j : Fin 10) : hperm (hperm j) = j := by revert j; decide

theorem wf_had (j : Fin 10) (S D : ThPt K) : wf j S.had D.had = 4 * wf (hperm j) S D := by
  fin_cases j <;> simp only [wf, ThPt.had, hperm] <;> ring

theorem oneVanishes_iff {O : ThPt K} : OneVanishes O ↔ ∃ j, j ≠ 0 ∧ ∀ j', wf j' O O = 0 ↔ j' = j := by
  constructor
  · rintro ⟨c, i, hev, hne, h⟩
    obtain ⟨j, hj⟩ := wi_surj c i hev
    refine ⟨j, fun h0 => hne (by rw [← hj, h0]; rfl), fun j' => ?_⟩
    rw [← evenConst_wi, h _ _ (wi_even j'), ← hj]
    exact ⟨fun e => wi_inj e, fun e => by rw [e]⟩
  · rintro ⟨j, h0, h⟩
    refine ⟨(wi j).1, (wi j).2, wi_even j, fun e => h0 (wi_inj (e.trans rfl)), fun c i hev => ?_⟩
    obtain ⟨j', hj'⟩ := wi_surj c i hev
    have := h j'
    rw [← evenConst_wi, hj'] at this
    rw [this, ← hj']
    exact ⟨fun e => by rw [e], fun e => wi_inj e⟩

theorem OneVanishes.of_had (h2 : (2 : K) ≠ 0) {O : ThPt K} (h : OneVanishes O.had) : OneVanishes O := by
  obtain ⟨j, h0, h⟩ := oneVanishes_iff.mp h
  refine oneVanishes_iff.mpr ⟨hperm j, fun e => h0 ?_, fun j' => ?_⟩
  · rw [← hperm_hperm j, e]; rfl
  · have := h (hperm j')
    rw [wf_had, hperm_hperm, mul_eq_zero, or_iff_right (four_ne h2)] at this
    rw [this]
    exact ⟨fun e => by rw [← e, hperm_hperm], fun e => by rw [e, hperm_hperm]⟩

theorem tensor_ne_zero {u v : K × K} (h : ThPt.tensor u v ≠ ThPt.zero) : u ≠ (0, 0) ∧ v ≠ (0, 0) := by
  constructor
  · rintro rfl; exact h (by simp [ThPt.tensor, ThPt.zero])
  · rintro rfl; exact h (by simp [ThPt.tensor, ThPt.zero])

/-- A tensor is determined by its factors up to scaling. -/
theorem tensor_same {u v u' v' : K × K} (hu : u ≠ (0, 0)) (hv : v ≠ (0, 0))
    (h : (ThPt.tensor u v).Same (ThPt.tensor u' v')) :
    (∃ c, c ≠ 0 ∧ u' = (c * u.1, c * u.2)) ∧ ∃ c, c ≠ 0 ∧ v' = (c * v.1, c * v.2) := by
  obtain ⟨c, hc, e⟩ := h
  obtain ⟨u1, u2⟩ := u
  obtain ⟨v1, v2⟩ := v
  obtain ⟨x1, x2⟩ := u'
  obtain ⟨y1, y2⟩ := v'
  simp only [ThPt.tensor, ThPt.scale, ThPt.mk.injEq] at e
  obtain ⟨e1, e2, e3, e4⟩ := e
  simp only [ne_eq, Prod.mk.injEq, not_and_or] at hu hv
  -- a nonzero coordinate of each
  constructor
  · rcases hv with hv | hv
    · have hy : y1 ≠ 0 := by
        rintro rfl
        rcases hu with hu | hu
        · exact mul_ne_zero hc (mul_ne_zero hu hv) (by rw [← e1, mul_zero])
        · exact mul_ne_zero hc (mul_ne_zero hu hv) (by rw [← e3, mul_zero])
      refine ⟨c * v1 / y1, div_ne_zero (mul_ne_zero hc hv) hy, ?_⟩
      ext
      · show x1 = c * v1 / y1 * u1
        rw [div_mul_eq_mul_div, eq_div_iff hy]; linear_combination e1
      · show x2 = c * v1 / y1 * u2
        rw [div_mul_eq_mul_div, eq_div_iff hy]; linear_combination e3
    · have hy : y2 ≠ 0 := by
        rintro rfl
        rcases hu with hu | hu
        · exact mul_ne_zero hc (mul_ne_zero hu hv) (by rw [← e2, mul_zero])
        · exact mul_ne_zero hc (mul_ne_zero hu hv) (by rw [← e4, mul_zero])
      refine ⟨c * v2 / y2, div_ne_zero (mul_ne_zero hc hv) hy, ?_⟩
      ext
      · show x1 = c * v2 / y2 * u1
        rw [div_mul_eq_mul_div, eq_div_iff hy]; linear_combination e2
      · show x2 = c * v2 / y2 * u2
        rw [div_mul_eq_mul_div, eq_div_iff hy]; linear_combination e4
  · rcases hu with hu | hu
    · have hx : x1 ≠ 0 := by
        rintro rfl
        rcases hv with hv | hv
        · exact mul_ne_zero hc (mul_ne_zero hu hv) (by rw [← e1, zero_mul])
        · exact mul_ne_zero hc (mul_ne_zero hu hv) (by rw [← e2, zero_mul])
      refine ⟨c * u1 / x1, div_ne_zero (mul_ne_zero hc hu) hx, ?_⟩
      ext
      · show y1 = c * u1 / x1 * v1
        rw [div_mul_eq_mul_div, eq_div_iff hx]; linear_combination e1
      · show y2 = c * u1 / x1 * v2
        rw [div_mul_eq_mul_div, eq_div_iff hx]; linear_combination e2
    · have hx : x2 ≠ 0 := by
        rintro rfl
        rcases hv with hv | hv
        · exact mul_ne_zero hc (mul_ne_zero hu hv) (by rw [← e3, zero_mul])
        · exact mul_ne_zero hc (mul_ne_zero hu hv) (by rw [← e4, zero_mul])
      refine ⟨c * u2 / x2, div_ne_zero (mul_ne_zero hc hu) hx, ?_⟩
      ext
      · show y1 = c * u2 / x2 * v1
        rw [div_mul_eq_mul_div, eq_div_iff hx]; linear_combination e3
      · show y2 = c * u2 / x2 * v2
        rw [div_mul_eq_mul_div, eq_div_iff hx]; linear_combination e4

theorem baseChange_scale (M : Mat4 K) (c : K) (P : ThPt K) : (P.scale c).baseChange M = (P.baseChange M).scale c := by
  simp only [ThPt.baseChange, ThPt.dot, ThPt.scale, ThPt.mk.injEq]
  refine ⟨?_, ?_, ?_, ?_⟩ <;> ring

theorem baseChange_same (M : Mat4 K) {P Q : ThPt K} (h : P.Same Q) : (P.baseChange M).Same (Q.baseChange M) := by
  obtain ⟨c, hc, rfl⟩ := h
  exact ⟨c, hc, baseChange_scale M c P⟩

/-- The chain from the gluing on, and the splitting: there are pairs `o, o'`, and maps `U, V` from quadruples
to pairs, such that the last null point is `o ⊗ o'` and the last image of `X` is `U X ⊗ V X`. -/
structure SplitData (O : ThPt K) (o o' : K × K) (U V : ThPt K → K × K) : Prop where
  left : Null1 o
  right : Null1 o'
  nu : ∀ {X}, OnKummer O X → X ≠ ThPt.zero → U X ≠ (0, 0) ∧ V X ≠ (0, 0)
  same : ∀ {X Y}, OnKummer O X → X ≠ ThPt.zero → X.Same Y →
    (∃ c, c ≠ 0 ∧ U Y = (c * (U X).1, c * (U X).2)) ∧ ∃ c, c ≠ 0 ∧ V Y = (c * (V X).1, c * (V X).2)
  null : (∃ c, c ≠ 0 ∧ U O = (c * o.1, c * o.2)) ∧ ∃ c, c ≠ 0 ∧ V O = (c * o'.1, c * o'.2)
  riem : ∀ {X Y S D}, OnKummer O X → OnKummer O Y → OnKummer O S → OnKummer O D → X ≠ ThPt.zero → Y ≠ ThPt.zero →
    Riem O X Y S D → Riem1 o (U X) (U Y) (U S) (U D) ∧ Riem1 o' (V X) (V Y) (V S) (V D)

theorem kummer_null (O : ThPt K) : OnKummer O O := by
  simp only [OnKummer, kummer]; ring

theorem OneVanishes.ne_zero {O : ThPt K} (h : OneVanishes O) : O ≠ ThPt.zero := by
  obtain ⟨j, h0, h⟩ := oneVanishes_iff.mp h
  rintro rfl
  exact h0 (((h 0).mp (by simp [wf, ThPt.zero])).symm)

theorem null1_of {o : K × K} (h2 : (2 : K) ≠ 0) (h : ∀ k, wg k o o ≠ 0) : Null1 o := by
  have a := h 0
  have b := h 1
  have c := h 2
  simp only [wg] at a b c
  refine ⟨fun e => c (by rw [e]; ring), fun e => c (by rw [e]; ring), fun e => a (by linear_combination e),
    fun e => b (by linear_combination e)⟩

theorem splitData [DecidableEq K] [RootOps K] (h2 : (2 : K) ≠ 0) {O O' : ThPt K} {f : ThPt K → ThPt K} (hO : ThNull O)
    (hf : ThMap O O' f) (h1 : OneVanishes O') :
    ∃ (M : Mat4 K) (o o' : K × K) (U V : ThPt K → K × K), splittingMatrix O' = some M ∧ SplitData O o o' U V ∧
      O'.baseChange M = ThPt.tensor o o' ∧ (∀ X, OnKummer O X → (f X).baseChange M = ThPt.tensor (U X) (V X)) ∧
      ∀ X, OnKummer O X → (O'.Same (f X) ↔
        (∃ c, c ≠ 0 ∧ U X = (c * o.1, c * o.2)) ∧ ∃ c, c ≠ 0 ∧ V X = (c * o'.1, c * o'.2)) := by
  obtain ⟨c, i, hev, hne, h⟩ := h1
  obtain ⟨M, hM, σ, ε, hσ, h9, hε, hw⟩ := splitMap_wf h2 c i hev hne
  have hmat : splittingMatrix O' = some M := by rw [splittingMatrix, identify_eq hev h, hM]
  have hbij : Function.Bijective fun P : ThPt K => P.baseChange M := by
    obtain ⟨M', hM', hb, -⟩ := splitMap_ok h2 O' c i hev hne
    rw [hM] at hM'
    rw [Option.some.inj hM']; exact hb
  have hv : ∀ j, wf (σ j) O' O' = 0 ↔ j = 9 := by
    intro j
    rw [← evenConst_wi, h _ _ (wi_even _), ← h9]
    exact ⟨fun e => hσ (wi_inj e), fun e => by rw [e]⟩
  have prod : ∀ X : ThPt K, wf (σ 9) X X = 0 → ∃ u v, X.baseChange M = ThPt.tensor u v := by
    intro X hX
    refine tensor_of_prod ?_
    have := hw 9 X X
    rw [hX, mul_zero] at this
    simp only [wf] at this
    refine mul_left_cancel₀ h2 ?_
    linear_combination this
  obtain ⟨o, o', ho⟩ := prod O' ((hv 9).mpr rfl)
  have img : ∀ X, OnKummer O X → ∃ uv : (K × K) × (K × K), (f X).baseChange M = ThPt.tensor uv.1 uv.2 := by
    intro X hX
    obtain ⟨k, hk, hr⟩ := hf.riem (.of_kummer hO hX) (.of_kummer hO hX) (Riem.double h2 hO hX)
    have := hr (σ 9)
    rw [(hv 9).mpr rfl, mul_zero] at this
    obtain ⟨u, v, e⟩ := prod (f X) (mul_self_eq_zero.mp ((mul_eq_zero.mp this.symm).resolve_left hk))
    exact ⟨(u, v), e⟩
  classical
  let W : ThPt K → (K × K) × (K × K) := fun X => if hX : OnKummer O X then (img X hX).choose else ((0, 0), (0, 0))
  have hW : ∀ X, OnKummer O X → (f X).baseChange M = ThPt.tensor (W X).1 (W X).2 := by
    intro X hX
    have : W X = (img X hX).choose := dif_pos hX
    rw [this]
    exact (img X hX).choose_spec
  have zero_bc : (ThPt.zero : ThPt K).baseChange M = ThPt.zero := by simp [ThPt.baseChange, ThPt.dot, ThPt.zero]
  have bc_ne : ∀ {X : ThPt K}, X ≠ ThPt.zero → X.baseChange M ≠ ThPt.zero := by
    intro X hX e
    exact hX (hbij.1 (e.trans zero_bc.symm))
  have nuv : ∀ {X}, OnKummer O X → X ≠ ThPt.zero → (W X).1 ≠ (0, 0) ∧ (W X).2 ≠ (0, 0) := by
    intro X hX h0
    refine tensor_ne_zero ?_
    rw [← hW X hX]; exact bc_ne (hf.nz h0)
  have hO0 : O ≠ ThPt.zero := fun e => hO.nz.X (by rw [e]; rfl)
  have wO : ∀ a b : Fin 3, wg a o o * wg b o' o' ≠ 0 := by
    intro a b
    rw [← wf_tensor, ← ho, hw]
    exact mul_ne_zero (hε _) fun e => wp_ne a b ((hv _).mp e)
  have kern : ∀ X, OnKummer O X → O'.Same (f X) → (∃ c, c ≠ 0 ∧ (W X).1 = (c * o.1, c * o.2)) ∧
      ∃ c, c ≠ 0 ∧ (W X).2 = (c * o'.1, c * o'.2) := by
    intro X hX hs
    have hoo := tensor_ne_zero (u := o) (v := o') (by
      rw [← ho]; exact bc_ne (OneVanishes.ne_zero ⟨c, i, hev, hne, h⟩))
    refine tensor_same hoo.1 hoo.2 ?_
    rw [← ho, ← hW X hX]
    exact baseChange_same M hs
  have kern' : ∀ X, OnKummer O X → ((∃ c, c ≠ 0 ∧ (W X).1 = (c * o.1, c * o.2)) ∧
      ∃ c, c ≠ 0 ∧ (W X).2 = (c * o'.1, c * o'.2)) → O'.Same (f X) := by
    rintro X hX ⟨⟨a, ha, ea⟩, ⟨b, hb, eb⟩⟩
    refine ⟨a * b, mul_ne_zero ha hb, hbij.1 ?_⟩
    show (f X).baseChange M = (O'.scale (a * b)).baseChange M
    rw [baseChange_scale, hW X hX, ho, ea, eb]
    simp only [ThPt.tensor, ThPt.scale, ThPt.mk.injEq]
    refine ⟨?_, ?_, ?_, ?_⟩ <;> ring
  refine ⟨M, o, o', fun X => (W X).1, fun X => (W X).2, hmat, ?_, ho, hW, fun X hX => ⟨kern X hX, kern' X hX⟩⟩
  refine ⟨null1_of h2 fun k => left_ne_zero_of_mul (wO k 0), null1_of h2 fun k => right_ne_zero_of_mul (wO 0 k), nuv, ?_, ?_, ?_⟩
  · intro X Y hX h0 hXY
    obtain ⟨n1, n2⟩ := nuv hX h0
    refine tensor_same n1 n2 ?_
    rw [← hW X hX, ← hW Y (OnKummer.same hX hXY)]
    exact baseChange_same M (hf.same hXY)
  · exact kern O (kummer_null O) hf.null
  · intro X Y S D hX hY hS hD x0 y0 hr
    obtain ⟨k, hk, hr⟩ := hf.riem (.of_kummer hO hX) (.of_kummer hO hY) hr
    obtain ⟨n1, n2⟩ := nuv hX x0
    obtain ⟨n3, n4⟩ := nuv hY y0
    refine Riem.split h2 (o := o) (o' := o') (x := (W X).1) (x' := (W X).2) (y := (W Y).1) (y' := (W Y).2) (s := (W S).1)
      (s' := (W S).2) (d := (W D).1) (d' := (W D).2) ⟨k, hk, fun j => ?_⟩ n1 n2 n3 n4
    rw [← ho, ← hW X hX, ← hW Y hY, ← hW S hS, ← hW D hD, hw, hw, hw, hw]
    linear_combination ε j ^ 2 * hr (σ j)

end Festa

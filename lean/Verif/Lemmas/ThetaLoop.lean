import Verif.Lemmas.ThetaChain
import Verif.Lemmas.ThetaDouble
/-! Single (2,2)-isogenies, and the two loops over the chain. -/
namespace Festa
variable {K : Type*} [Field K]

/-! ### One step -/

theorem new_scale {c : K} (hc : c ≠ 0) (O : ThPt K) :
    ThStr.new (O.scale c) = { ThStr.new O with null := O.scale c } := by
  have h : ∀ x y : K, c * x * (c * y)⁻¹ = x * y⁻¹ := by
    intro x y; rw [← div_eq_mul_inv, ← div_eq_mul_inv, mul_div_mul_left _ _ hc]
  have h' : ∀ x y : K, c ^ 2 * x * (c ^ 2 * y)⁻¹ = x * y⁻¹ := by
    intro x y; rw [← div_eq_mul_inv, ← div_eq_mul_inv, mul_div_mul_left _ _ (pow_ne_zero 2 hc)]
  simp only [ThStr.new, sqTheta_scale]
  simp only [ThPt.scale, h, h']

theorem coeffs_same (Th : ThStr K) {T1 T2 T1' T2' : ThPt K} (h1 : T1.Same T1') (h2 : T2.Same T2') :
    twoIsoCoeffs Th T1' T2' = twoIsoCoeffs Th T1 T2 := by
  obtain ⟨c, hc, rfl⟩ := h1
  obtain ⟨d, hd, rfl⟩ := h2
  have h : ∀ x y : K, c ^ 2 * x * (c ^ 2 * y)⁻¹ = x * y⁻¹ := by
    intro x y; rw [← div_eq_mul_inv, ← div_eq_mul_inv, mul_div_mul_left _ _ (pow_ne_zero 2 hc)]
  have h' : ∀ x y : K, d ^ 2 * x * (d ^ 2 * y)⁻¹ = x * y⁻¹ := by
    intro x y; rw [← div_eq_mul_inv, ← div_eq_mul_inv, mul_div_mul_left _ _ (pow_ne_zero 2 hd)]
  simp only [twoIsoCoeffs, sqTheta_scale]
  simp only [ThPt.scale, h, h']

theorem image_scale (h0 h1 : Bool) (k : K × K × K) (c : K) (P : ThPt K) :
    twoIsoImage h0 h1 k (P.scale c) = (twoIsoImage h0 h1 k P).scale (c ^ 2) := by
  have e : ∀ V : ThPt K, (⟨c ^ 2 * V.X, c ^ 2 * V.Y * k.1, c ^ 2 * V.Z * k.2.1, c ^ 2 * V.T * k.2.2⟩ : ThPt K)
      = (⟨V.X, V.Y * k.1, V.Z * k.2.1, V.T * k.2.2⟩ : ThPt K).scale (c ^ 2) := by
    intro V; simp only [ThPt.scale, mul_assoc]
  cases h0 <;> cases h1 <;>
    simp only [twoIsoImage, had_scale, sqTheta_scale, if_true, Bool.false_eq_true, if_false] <;>
    [skip; rw [← had_scale]; skip; rw [← had_scale]] <;> rw [← e] <;> rfl

/-- The image map of the last step. -/
def toProdImage (T1 T2 P : ThPt K) : ThPt K :=
  let S1 := T1.had.sqTheta
  let S2 := T2.had.sqTheta
  let Bi := S1.X * S1.Y⁻¹
  let Ci := S2.X * S2.Z⁻¹
  let Di := S2.Y * S2.T⁻¹ * Bi
  let S := P.had.sqTheta
  ⟨S.X, S.Y * Bi, S.Z * Ci, S.T * Di⟩

/-- Its codomain. -/
def toProdNull (T1 T2 : ThPt K) : ThPt K :=
  let S1 := T1.had.sqTheta
  let S2 := T2.had.sqTheta
  let B := S1.Y * S1.X⁻¹
  ⟨1, B, S2.Z * S2.X⁻¹, S2.T * S2.Y⁻¹ * B⟩

theorem toProd_eq (T1 T2 : ThPt K) (pts : List (ThPt K)) : twoIsogenyToProduct T1 T2 pts =
    (ThStr.new (toProdNull T1 T2), pts.map (toProdImage T1 T2)) := rfl

theorem toProd_same {T1 T2 T1' T2' : ThPt K} (h1 : T1.Same T1') (h2 : T2.Same T2') :
    toProdNull T1' T2' = toProdNull T1 T2 ∧ toProdImage T1' T2' = toProdImage T1 T2 := by
  obtain ⟨c, hc, rfl⟩ := h1
  obtain ⟨d, hd, rfl⟩ := h2
  have h : ∀ x y : K, c ^ 2 * x * (c ^ 2 * y)⁻¹ = x * y⁻¹ := by
    intro x y; rw [← div_eq_mul_inv, ← div_eq_mul_inv, mul_div_mul_left _ _ (pow_ne_zero 2 hc)]
  have h' : ∀ x y : K, d ^ 2 * x * (d ^ 2 * y)⁻¹ = x * y⁻¹ := by
    intro x y; rw [← div_eq_mul_inv, ← div_eq_mul_inv, mul_div_mul_left _ _ (pow_ne_zero 2 hd)]
  constructor
  · simp only [toProdNull, had_scale, sqTheta_scale]
    simp only [ThPt.scale, h, h']
  · funext P
    simp only [toProdImage, had_scale, sqTheta_scale]
    simp only [ThPt.scale, h, h']

/-- A step depends only on the projective classes of the kernel points, and is a map on the points. -/
theorem chainStep_eq (n k : Nat) (Th : ThStr K) (T1 T2 : ThPt K) :
    ∃ O' f, (∀ T1' T2', T1.Same T1' → T2.Same T2' → ∀ pts,
        chainStep n k Th T1' T2' pts = (ThStr.new O', pts.map f)) ∧
      (k + 3 ≤ n → O' = (twoIsoCoeffs Th T1 T2).1.had ∧
        f = twoIsoImage false true (twoIsoCoeffs Th T1 T2).2) ∧
      (∀ X Y, ThPt.Same X Y → (f X).Same (f Y)) := by
  have him : ∀ h0 h1 (k : K × K × K) (X Y : ThPt K), X.Same Y →
      (twoIsoImage h0 h1 k X).Same (twoIsoImage h0 h1 k Y) := by
    rintro h0 h1 k X _ ⟨c, hc, rfl⟩
    exact ⟨c ^ 2, pow_ne_zero 2 hc, image_scale h0 h1 k c X⟩
  by_cases h2 : k + 2 = n
  · refine ⟨(twoIsoCoeffs Th T1 T2).1, twoIsoImage false false (twoIsoCoeffs Th T1 T2).2,
      fun T1' T2' e1 e2 pts => ?_, fun h => by omega, him _ _ _⟩
    simp only [chainStep, if_pos h2, twoIsogeny, coeffs_same Th e1 e2]
    rfl
  · by_cases h1 : k + 1 = n
    · refine ⟨toProdNull T1 T2, toProdImage T1 T2, fun T1' T2' e1 e2 pts => ?_, fun h => by omega, ?_⟩
      · simp only [chainStep, if_neg h2, if_pos h1, toProd_eq, toProd_same e1 e2]
      · rintro X _ ⟨c, hc, rfl⟩
        refine ⟨c ^ 2, pow_ne_zero 2 hc, ?_⟩
        simp only [toProdImage, had_scale, sqTheta_scale]
        simp only [ThPt.scale, mul_assoc]
    · refine ⟨(twoIsoCoeffs Th T1 T2).1.had, twoIsoImage false true (twoIsoCoeffs Th T1 T2).2,
        fun T1' T2' e1 e2 pts => ?_, fun _ => ⟨rfl, rfl⟩, him _ _ _⟩
      simp only [chainStep, if_neg h2, if_neg h1, twoIsogeny, coeffs_same Th e1 e2]
      rfl

/-! ### Regular steps -/

private theorem sq_eq (h2 : (2 : K) ≠ 0) {w0 w1 w2 w3 : K} (h : w0 - w1 + (w2 - w3) = 0)
    (h' : w0 - w1 - (w2 - w3) = 0) : w0 = w1 ∧ w2 = w3 := by
  constructor
  · refine sub_eq_zero.mp (mul_left_cancel₀ h2 ?_); linear_combination h + h'
  · refine sub_eq_zero.mp (mul_left_cancel₀ h2 ?_); linear_combination h - h'

theorem kernel_dual (h2 : (2 : K) ≠ 0) {O T1 T2 : ThPt K} (hO : ThNull O) (h : Kernel8 O T1 T2) :
    DualOf O (twoIsoCoeffs (ThStr.new O) T1 T2).1 O.sqTheta.X⁻¹ := by
  have o0 := hO.dual.X; have o1 := hO.dual.Y; have o2 := hO.dual.Z; have o3 := hO.dual.T
  have hx := mul_ne_zero hO.nz.X hO.dual.X
  obtain ⟨y1, t1, z2, t2, n1, n2, n3⟩ := h
  rw [double_eq hO] at y1 t1 z2 t2
  have y1 := (div_eq_zero_iff.mp ((mul_eq_zero.mp y1).resolve_left hx)).resolve_right hO.nz.Y
  have t1 := (div_eq_zero_iff.mp ((mul_eq_zero.mp t1).resolve_left hx)).resolve_right hO.nz.T
  have z2 := (div_eq_zero_iff.mp ((mul_eq_zero.mp z2).resolve_left hx)).resolve_right hO.nz.Z
  have t2 := (div_eq_zero_iff.mp ((mul_eq_zero.mp t2).resolve_left hx)).resolve_right hO.nz.T
  simp only [ThPt.had, ThPt.mul, ThPt.div] at y1 t1 z2 t2
  obtain ⟨a1, a2⟩ := sq_eq h2 y1 t1
  obtain ⟨b1, b2⟩ := sq_eq (w0 := T2.sqTheta.X * T2.sqTheta.X / O.sqTheta.X)
    (w1 := T2.sqTheta.Z * T2.sqTheta.Z / O.sqTheta.Z) (w2 := T2.sqTheta.Y * T2.sqTheta.Y / O.sqTheta.Y)
    (w3 := T2.sqTheta.T * T2.sqTheta.T / O.sqTheta.T) h2 (by linear_combination z2) (by linear_combination t2)
  rw [div_eq_div_iff o0 o1] at a1
  rw [div_eq_div_iff o0 o2] at b1
  rw [div_eq_div_iff o1 o3] at b2
  refine ⟨inv_ne_zero o0, ?_, ?_, ?_, ?_⟩
  · simp only [twoIsoCoeffs]; field_simp
  all_goals simp only [twoIsoCoeffs]
  · field_simp; linear_combination -a1
  · field_simp; linear_combination -b1
  · field_simp
    apply mul_left_cancel₀ o1
    linear_combination -(T1.sqTheta.Y ^ 2 * O.sqTheta.X) * b2 - (T2.sqTheta.Y ^ 2 * O.sqTheta.T) * a1

/-- The codomain computed from `T1, T2` is dual to `O`. -/
abbrev KerDual (O T1 T2 : ThPt K) : Prop := DualOf O (twoIsoCoeffs (ThStr.new O) T1 T2).1 O.sqTheta.X⁻¹

theorem isoImage_eq' {O T1 T2 : ThPt K} (hO : O.sqTheta.NZ) (hd : KerDual O T1 T2) (P : ThPt K) :
    isoImage O T1 T2 P = (P.sqTheta.div (twoIsoCoeffs (ThStr.new O) T1 T2).1).had := by
  have hn := hd.nz hO
  have o0 := hO.X; have o1 := hO.Y; have o2 := hO.Z; have o3 := hO.T
  obtain ⟨-, -, d1, d2, d3⟩ := hd
  obtain ⟨-, n1, n2, n3⟩ := hn
  simp only [isoImage, twoIsoImage, Bool.false_eq_true, if_false, if_true]
  congr 1
  simp only [twoIsoCoeffs, ThPt.div, ThStr.new] at *
  generalize T1.sqTheta = S1 at *
  generalize T2.sqTheta = S2 at *
  generalize S1.Y * S1.X⁻¹ = B at *
  generalize S2.Z * S2.X⁻¹ = C at *
  generalize S2.T * S2.Y⁻¹ * B = D at *
  have f : ∀ {o B : K}, o ≠ 0 → B ≠ 0 → B ^ 2 = O.sqTheta.X⁻¹ * o → ∀ w : K,
      w * (O.sqTheta.X * o⁻¹ * B) = w / B := by
    intro o B ho hB e w
    rw [eq_div_iff hB]
    have : w * (O.sqTheta.X * o⁻¹ * B) * B = w * (O.sqTheta.X * o⁻¹ * B ^ 2) := by ring
    rw [this, e]; field_simp
  rw [f o1 n1 d1, f o2 n2 d2, f o3 n3 d3, div_one]

theorem isoImage_eq (h2 : (2 : K) ≠ 0) {O T1 T2 : ThPt K} (hO : ThNull O) (h : Kernel8 O T1 T2)
    (P : ThPt K) :
    isoImage O T1 T2 P = (P.sqTheta.div (twoIsoCoeffs (ThStr.new O) T1 T2).1).had :=
  isoImage_eq' hO.dual (kernel_dual h2 hO h) P

theorem isoImage_kummer (h2 : (2 : K) ≠ 0) {O T1 T2 : ThPt K} (hO : ThNull O) (h : Kernel8 O T1 T2)
    {P : ThPt K} (hP : OnKummer O P) : OnKummer (isoNull O T1 T2) (isoImage O T1 T2 P) := by
  rw [isoImage_eq h2 hO h]
  have := kummer_iso (kernel_dual h2 hO h) hO.dual hP
  simp only [OnKummer, isoNull, kummer_had] at this ⊢
  rw [this, mul_zero]

theorem isoImage_same {O T1 T2 X Y : ThPt K} (h : X.Same Y) :
    (isoImage O T1 T2 X).Same (isoImage O T1 T2 Y) := by
  obtain ⟨c, hc, rfl⟩ := h
  exact ⟨c ^ 2, pow_ne_zero 2 hc, image_scale false true _ c X⟩

theorem had_same {X Y : ThPt K} (h : X.Same Y) : X.had.Same Y.had := by
  obtain ⟨c, hc, rfl⟩ := h
  exact ⟨c, hc, had_scale c X⟩

theorem isoImage_double (h2 : (2 : K) ≠ 0) {O T1 T2 : ThPt K} (hO : ThNull O) (h : Kernel8 O T1 T2)
    (hN : ThNull (isoNull O T1 T2)) {P : ThPt K} (hP : OnKummer O P) :
    (isoImage O T1 T2 ((ThStr.new O).double P)).Same
      ((ThStr.new (isoNull O T1 T2)).double (isoImage O T1 T2 P)) := by
  have hd := kernel_dual h2 hO h
  refine (isoImage_same (double_via hd hO P)).symm.trans ?_
  rw [isoImage_eq h2 hO h, isoImage_eq h2 hO h]
  exact double_comm h2 hd hO hN (kummer_iso hd hO.dual hP)

theorem kummer_doubleIter (h2 : (2 : K) ≠ 0) {O T1 T2 : ThPt K} (hO : ThNull O) (h : Kernel8 O T1 T2)
    (m : Nat) {P : ThPt K} (hP : OnKummer O P) : OnKummer O ((ThStr.new O).doubleIter P m) := by
  induction m generalizing P with
  | zero => exact hP
  | succ m ih => exact ih (kummer_double_of_dual h2 (kernel_dual h2 hO h) hO hP)

theorem isoImage_doubleIter (h2 : (2 : K) ≠ 0) {O T1 T2 : ThPt K} (hO : ThNull O) (h : Kernel8 O T1 T2)
    (hN : ThNull (isoNull O T1 T2)) (m : Nat) {P : ThPt K} (hP : OnKummer O P) :
    (isoImage O T1 T2 ((ThStr.new O).doubleIter P m)).Same
      ((ThStr.new (isoNull O T1 T2)).doubleIter (isoImage O T1 T2 P) m) := by
  induction m generalizing P with
  | zero => exact .refl _
  | succ m ih =>
    refine (ih (kummer_double_of_dual h2 (kernel_dual h2 hO h) hO hP)).trans ?_
    exact doubleIter_same _ (isoImage_double h2 hO h hN hP) m

/-! ### The two loops -/

theorem doubleIter_add (Th : ThStr K) (P : ThPt K) (a b : Nat) :
    Th.doubleIter P (a + b) = Th.doubleIter (Th.doubleIter P a) b := by
  induction a generalizing P with
  | zero => rw [Nat.zero_add]; rfl
  | succ a ih => rw [Nat.succ_add]; exact ih _

theorem ChainOK.null {r : Nat} {O K1 K2 : ThPt K} (h : ChainOK (r + 2) O K1 K2) : ThNull O := by
  cases r with
  | zero => exact h
  | succ r => exact h.1

/-- The two loops give the same image points. -/
theorem strategyLoop_spec (h2 : (2 : K) ≠ 0) (n : Nat) : ∀ (r : Nat) (O K1 K2 : ThPt K) (I : List (ThPt K))
    (stk : List (Ent (ThPt K))) (strat : List Nat), r ≤ n → StkOK r stk strat →
    (∀ e ∈ stk, ((ThStr.new O).doubleIter K1 e.p).Same e.A ∧ ((ThStr.new O).doubleIter K2 e.p).Same e.B) →
    (3 ≤ r → OnKummer O K1 ∧ OnKummer O K2) → ChainOK r O K1 K2 →
    ∃ Th' J K1' K2', J.length = I.length ∧
      naiveLoop n I.length r (ThStr.new O) (I ++ [K1, K2]) = some (Th', J ++ [K1', K2']) ∧
      strategyLoop n r strat (levels stk) (ThStr.new O) (I ++ flat stk) = some (Th', J) := by
  intro r
  induction r with
  | zero =>
    intro O K1 K2 I stk strat _ hstk _ _ _
    cases stk with
    | cons e rest => obtain ⟨h1, h2, -⟩ := hstk; have := h2.pos; omega
    | nil => exact ⟨_, I, K1, K2, rfl, rfl, by simp [strategyLoop, flat]⟩
  | succ r ih =>
    intro O K1 K2 I stk strat hrn hstk hall hK hok
    cases stk with
    | nil => obtain ⟨h1, -⟩ := hstk; omega
    | cons e rest =>
      obtain ⟨A, B, p, r', S⟩ := e
      obtain ⟨hpr, hS, strat', rfl, hrest⟩ := hstk
      simp only at hpr hS hrest
      have hall0 := hall _ List.mem_cons_self
      simp only at hall0
      set Th := ThStr.new O with hTh
      have mono : ∀ (L : ThPt K) (p s : Nat) (X : ThPt K), (Th.doubleIter L p).Same X →
          (Th.doubleIter L (p + s)).Same (Th.doubleIter X s) := by
        intro L p s X h
        rw [doubleIter_add]
        exact doubleIter_same _ h s
      obtain ⟨T1, T2, rest', strat'', hloop, hstk', hT1, hT2, hall'⟩ :=
        stratLoop_spec Th.doubleIter (fun p X => (Th.doubleIter K1 p).Same X)
          (fun p X => (Th.doubleIter K2 p).Same X) (mono K1) (mono K2) I hS A B p rest strat' hrest
          hall0.1 hall0.2 (fun e he => hall e (List.mem_cons_of_mem _ he))
      have e1 : p + r' - 1 = r := by omega
      have e2 : n - 1 - (n - (r + 1)) = r := by omega
      have e3 : n - (n - (r + 1)) - 1 = r := by omega
      rw [e1] at hloop hstk' hT1 hT2
      obtain ⟨O', f, hstep, hreg, hf⟩ := chainStep_eq n (n - (r + 1)) Th (Th.doubleIter K1 r) (Th.doubleIter K2 r)
      have hsum : (levels (⟨A, B, p, r', S⟩ :: rest)).sum = p :=
        levels_sum (q := r + 1) (stk := ⟨A, B, p, r', S⟩ :: rest) ⟨hpr, hS, strat', rfl, hrest⟩
      -- the relation between the two lists after the step
      have hnext : (∀ e ∈ rest', ((ThStr.new O').doubleIter (f K1) e.p).Same (f e.A) ∧
            ((ThStr.new O').doubleIter (f K2) e.p).Same (f e.B)) ∧
          (3 ≤ r → OnKummer O' (f K1) ∧ OnKummer O' (f K2)) ∧ ChainOK r O' (f K1) (f K2) := by
        rcases r with _ | _ | r
        · refine ⟨fun e he => ?_, fun h => by omega, trivial⟩
          have := stk_lt hstk' e he; omega
        · refine ⟨fun e he => ?_, fun h => by omega, trivial⟩
          have h0 : e.p = 0 := by have := stk_lt hstk' e he; omega
          have := hall' e he
          rw [h0] at this ⊢
          exact ⟨hf _ _ this.1, hf _ _ this.2⟩
        · obtain ⟨hO, hker, hok'⟩ := hok
          obtain ⟨rfl, rfl⟩ := hreg (by omega)
          obtain ⟨hK1, hK2⟩ := hK (by omega)
          have hN := hok'.null
          refine ⟨fun e he => ?_, fun _ => ⟨isoImage_kummer h2 hO hker hK1, isoImage_kummer h2 hO hker hK2⟩, hok'⟩
          have := hall' e he
          exact ⟨(isoImage_doubleIter h2 hO hker hN _ hK1).symm.trans (isoImage_same this.1),
            (isoImage_doubleIter h2 hO hker hN _ hK2).symm.trans (isoImage_same this.2)⟩
      have len : (I.map f).length = I.length := List.length_map ..
      obtain ⟨Th', J, K1', K2', hJ, hn, hs⟩ := ih O' (f K1) (f K2) (I.map f)
        (rest'.map fun e => ⟨f e.A, f e.B, e.p, e.r, e.S⟩) strat'' (by omega) (stkOK_map f hstk')
        (by
          intro e he
          obtain ⟨e, he', rfl⟩ := List.mem_map.mp he
          exact hnext.1 e he') hnext.2.1 hnext.2.2
      refine ⟨Th', J, K1', K2', hJ.trans len, ?_, ?_⟩
      · have g1 : (I ++ [K1, K2])[I.length]? = some K1 := by simp
        have g2 : (I ++ [K1, K2])[I.length + 1]? = some K2 := by simp
        simp only [naiveLoop, g1, g2, e3, Option.bind_eq_bind, Option.bind_some]
        rw [hstep _ _ (.refl _) (.refl _)]
        rw [← len]
        simpa using hn
      · have gl : (I ++ flat (⟨A, B, p, r', S⟩ :: rest)).length = I.length + (flat rest).length + 2 := by
          simp [flat]; omega
        have g1 : (I ++ flat (⟨A, B, p, r', S⟩ :: rest))[I.length + (flat rest).length]? = some A := by
          rw [flat, ← List.append_assoc]; simp
        have g2 : (I ++ flat (⟨A, B, p, r', S⟩ :: rest))[I.length + (flat rest).length + 1]? = some B := by
          rw [flat, ← List.append_assoc, List.getElem?_append_right (by simp)]; simp
        have d2 : (I ++ flat rest' ++ [T1, T2]).dropLast.dropLast = I ++ flat rest' := by
          rw [show I ++ flat rest' ++ [T1, T2] = (I ++ flat rest' ++ [T1]) ++ [T2] by simp,
            List.dropLast_concat, List.dropLast_concat]
        have d1 : (levels rest' ++ [r - topP rest']).dropLast = levels rest' := List.dropLast_concat
        simp only [strategyLoop]
        rw [if_neg (by omega), gl, Nat.add_sub_cancel,
          show I.length + (flat rest).length + 2 - 1 = I.length + (flat rest).length + 1 by omega, g1, g2,
          hsum, e2]
        simp only [Option.bind_eq_bind, Option.bind_some]
        rw [hloop]
        simp only [Option.bind_some, d1, d2]
        rw [hstep _ _ hT1 hT2]
        rw [List.map_append, flat_map]
        rw [levels_map] at hs
        exact hs

/-- Whatever the points are, the strategy never runs out of bounds. -/
theorem strategyLoop_some (n : Nat) : ∀ (r : Nat) (O : ThPt K) (I : List (ThPt K))
    (stk : List (Ent (ThPt K))) (strat : List Nat), r ≤ n → StkOK r stk strat →
    ∃ Th' J, J.length = I.length ∧
      strategyLoop n r strat (levels stk) (ThStr.new O) (I ++ flat stk) = some (Th', J) := by
  intro r
  induction r with
  | zero =>
    intro O I stk strat _ hstk
    cases stk with
    | cons e rest => obtain ⟨h1, h2, -⟩ := hstk; have := h2.pos; omega
    | nil => exact ⟨ThStr.new O, I, rfl, by simp [strategyLoop, flat]⟩
  | succ r ih =>
    intro O I stk strat hrn hstk
    cases stk with
    | nil => obtain ⟨h1, -⟩ := hstk; omega
    | cons e rest =>
      obtain ⟨A, B, p, r', S⟩ := e
      obtain ⟨hpr, hS, strat', rfl, hrest⟩ := hstk
      simp only at hpr hS hrest
      set Th := ThStr.new O with hTh
      obtain ⟨T1, T2, rest', strat'', hloop, hstk', -⟩ :=
        stratLoop_spec Th.doubleIter (fun _ _ => True) (fun _ _ => True) (fun _ _ _ _ => trivial)
          (fun _ _ _ _ => trivial) I hS A B p rest strat' hrest trivial trivial (fun _ _ => ⟨trivial, trivial⟩)
      have e1 : p + r' - 1 = r := by omega
      have e2 : n - 1 - (n - (r + 1)) = r := by omega
      rw [e1] at hloop hstk'
      obtain ⟨O', f, hstep, -, -⟩ := chainStep_eq n (n - (r + 1)) Th T1 T2
      have hsum : (levels (⟨A, B, p, r', S⟩ :: rest)).sum = p :=
        levels_sum (q := r + 1) (stk := ⟨A, B, p, r', S⟩ :: rest) ⟨hpr, hS, strat', rfl, hrest⟩
      obtain ⟨Th', J, hJ, hs⟩ := ih O' (I.map f)
        (rest'.map fun e => ⟨f e.A, f e.B, e.p, e.r, e.S⟩) strat'' (by omega) (stkOK_map f hstk')
      refine ⟨Th', J, hJ.trans (List.length_map ..), ?_⟩
      have gl : (I ++ flat (⟨A, B, p, r', S⟩ :: rest)).length = I.length + (flat rest).length + 2 := by
        simp [flat]; omega
      have g1 : (I ++ flat (⟨A, B, p, r', S⟩ :: rest))[I.length + (flat rest).length]? = some A := by
        rw [flat, ← List.append_assoc]; simp
      have g2 : (I ++ flat (⟨A, B, p, r', S⟩ :: rest))[I.length + (flat rest).length + 1]? = some B := by
        rw [flat, ← List.append_assoc, List.getElem?_append_right (by simp)]; simp
      have d2 : (I ++ flat rest' ++ [T1, T2]).dropLast.dropLast = I ++ flat rest' := by
        rw [show I ++ flat rest' ++ [T1, T2] = (I ++ flat rest' ++ [T1]) ++ [T2] by simp,
          List.dropLast_concat, List.dropLast_concat]
      have d1 : (levels rest' ++ [r - topP rest']).dropLast = levels rest' := List.dropLast_concat
      simp only [strategyLoop]
      rw [if_neg (by omega), gl, Nat.add_sub_cancel,
        show I.length + (flat rest).length + 2 - 1 = I.length + (flat rest).length + 1 by omega, g1, g2,
        hsum, e2]
      simp only [Option.bind_eq_bind, Option.bind_some]
      rw [hloop]
      simp only [Option.bind_some, d1, d2]
      rw [hstep _ _ (.refl _) (.refl _)]
      rw [List.map_append, flat_map]
      rw [levels_map] at hs
      exact hs

/-! ### Parsing strategies -/

/-- Splits a strategy for `n` steps off the front of a list. -/
def parseStrategy : Nat → Nat → List Nat → Option (List Nat)
  | 0, _, _ => none
  | _ + 1, n, [] => if n = 1 then some [] else none
  | f + 1, n, s :: l =>
    if n = 1 then some (s :: l)
    else if 0 < s ∧ s < n then (parseStrategy f (n - s) l).bind (parseStrategy f s) else none

theorem parseStrategy_sound : ∀ (f n : Nat) (l rest : List Nat), parseStrategy f n l = some rest →
    ∃ S, l = S ++ rest ∧ IsStrategy n S := by
  intro f
  induction f with
  | zero => intro n l rest h; simp [parseStrategy] at h
  | succ f ih =>
    intro n l rest h
    cases l with
    | nil =>
      rw [parseStrategy] at h
      split at h
      · rename_i h1
        subst h1
        exact ⟨[], by simpa using h, .leaf⟩
      · cases h
    | cons s l =>
      rw [parseStrategy] at h
      split at h
      · rename_i h1
        subst h1
        exact ⟨[], by simpa using h, .leaf⟩
      · split at h
        · rename_i hs
          obtain ⟨m, h1, h2⟩ := Option.bind_eq_some_iff.mp h
          obtain ⟨L, e1, hL⟩ := ih _ _ _ h1
          obtain ⟨R, e2, hR⟩ := ih _ _ _ h2
          exact ⟨s :: (L ++ R), by rw [e1, e2]; simp, .node hs.1 hs.2 hL hR⟩
        · cases h

theorem isStrategy_ones (n : Nat) : IsStrategy (n + 1) (List.replicate n 1) := by
  induction n with
  | zero => exact .leaf
  | succ n ih =>
    have := IsStrategy.node (s := 1) (n := n + 2) (L := List.replicate n 1) (R := []) (by omega) (by omega)
      ih .leaf
    simpa [List.replicate_succ] using this

theorem IsStrategy.length {n : Nat} {S : List Nat} (h : IsStrategy n S) : S.length + 1 = n := by
  induction h with
  | leaf => rfl
  | node _ _ _ _ ih1 ih2 => simp only [List.length_cons, List.length_append]; omega

section
variable [DecidableEq K]

/-- The gluing map on points. -/
def glue (E : EProd K) (P8 Q8 : CPt K) (P : CPt K) : ThPt K :=
  let P4 := E.double P8
  let M := baseMatrix E P4 (E.double Q8)
  let g := gluingCodomain (baseChangeCouple P8 M) (baseChangeCouple Q8 M)
  gluingImage (baseChangeCouple P M) (baseChangeCouple (E.add P P4) M) g.2.1 g.2.2.1 g.2.2.2

/-- The null point of its codomain. -/
def glueNull (E : EProd K) (P8 Q8 : CPt K) : ThPt K :=
  let M := baseMatrix E (E.double P8) (E.double Q8)
  (gluingCodomain (baseChangeCouple P8 M) (baseChangeCouple Q8 M)).1.null

theorem gluing_eq (E : EProd K) (P8 Q8 : CPt K) (pts : List (CPt K)) :
    gluingIsogeny E P8 Q8 pts = (ThStr.new (glueNull E P8 Q8), pts.map (glue E P8 Q8)) := rfl

omit [DecidableEq K] in
theorem eDoubleIter_add (E : EProd K) (P : CPt K) (a b : Nat) :
    E.doubleIter P (a + b) = E.doubleIter (E.doubleIter P a) b := by
  simp only [EProd.doubleIter, Crv.doubleIter, Nat.add_comm a b, Function.iterate_add_apply]

/-- The first `while` loop. -/
theorem firstLoop (E : EProd K) (P Q : CPt K) (images : List (CPt K)) {n : Nat} {S : List Nat}
    (hS : IsStrategy n S) :
    ∃ (stk : List (Ent (CPt K))) (strat : List Nat),
      stratLoop E.doubleIter (n - 1) S 0 [0] P Q (images ++ [P] ++ [Q]) =
        some (strat, levels stk ++ [n - 1 - topP stk], E.doubleIter P (n - 1), E.doubleIter Q (n - 1),
          images ++ flat stk ++ [E.doubleIter P (n - 1), E.doubleIter Q (n - 1)]) ∧
      StkOK (n - 1) stk strat ∧ ∀ e ∈ stk, e.A = E.doubleIter P e.p ∧ e.B = E.doubleIter Q e.p := by
  obtain ⟨T1, T2, stk, strat, h, h1, rfl, rfl, h4⟩ := stratLoop_spec E.doubleIter
    (fun p X => X = E.doubleIter P p) (fun p X => X = E.doubleIter Q p)
    (fun p s X h => by rw [h, eDoubleIter_add]) (fun p s X h => by rw [h, eDoubleIter_add])
    images hS P Q 0 [] [] ⟨rfl, rfl⟩ rfl rfl (by simp)
  rw [Nat.zero_add] at h h1
  refine ⟨stk, strat, ?_, h1, h4⟩
  have e1 : levels [(⟨P, Q, 0, n, S⟩ : Ent (CPt K))] = [0] := rfl
  have e2 : images ++ flat [(⟨P, Q, 0, n, S⟩ : Ent (CPt K))] = images ++ [P] ++ [Q] := by simp [flat]
  rw [e1, e2, List.append_nil] at h
  exact h

attribute [local irreducible] glue glueNull splittingMatrix nullToMont Crv.completePointX gluingIsogeny

theorem productIsogeny_eq [RootOps K] (h2 : (2 : K) ≠ 0) (E : EProd K) (P Q : CPt K) (images : List (CPt K))
    {n : Nat} {S : List Nat} (hS : IsStrategy n S)
    (hg : ∀ p, p + 1 < n → ∀ X ∈ [P, Q],
      ((ThStr.new (glueNull E (E.doubleIter P (n - 1)) (E.doubleIter Q (n - 1)))).doubleIter
          (glue E (E.doubleIter P (n - 1)) (E.doubleIter Q (n - 1)) X) p).Same
        (glue E (E.doubleIter P (n - 1)) (E.doubleIter Q (n - 1)) (E.doubleIter X p)))
    (hK : 4 ≤ n → ∀ X ∈ [P, Q], OnKummer (glueNull E (E.doubleIter P (n - 1)) (E.doubleIter Q (n - 1)))
      (glue E (E.doubleIter P (n - 1)) (E.doubleIter Q (n - 1)) X))
    (hok : ChainOK (n - 1) (glueNull E (E.doubleIter P (n - 1)) (E.doubleIter Q (n - 1)))
      (glue E (E.doubleIter P (n - 1)) (E.doubleIter Q (n - 1)) P)
      (glue E (E.doubleIter P (n - 1)) (E.doubleIter Q (n - 1)) Q)) :
    productIsogeny E P Q images n S = productIsogenyNaive E P Q images n := by
  have hn := hS.pos
  obtain ⟨stk, strat, hl, hstk, hall⟩ := firstLoop E P Q images hS
  have hgl := gluing_eq E (E.doubleIter P (n - 1)) (E.doubleIter Q (n - 1))
  generalize glue E (E.doubleIter P (n - 1)) (E.doubleIter Q (n - 1)) = g at *
  generalize glueNull E (E.doubleIter P (n - 1)) (E.doubleIter Q (n - 1)) = O at *
  obtain ⟨Th', J, K1', K2', hJ, hnaive, hstrat⟩ := strategyLoop_spec h2 n (n - 1) O (g P) (g Q)
    (images.map g) (stk.map fun e => ⟨g e.A, g e.B, e.p, e.r, e.S⟩) strat (by omega) (stkOK_map g hstk)
    (by
      intro e he
      obtain ⟨e, he', rfl⟩ := List.mem_map.mp he
      have := stk_lt hstk e he'
      have h := hall e he'
      simp only [h.1, h.2]
      exact ⟨hg _ (by omega) P (by simp), hg _ (by omega) Q (by simp)⟩)
    (fun h => ⟨hK (by omega) P (by simp), hK (by omega) Q (by simp)⟩) hok
  rw [List.length_map] at hJ hnaive
  rw [levels_map, ← flat_map, ← List.map_append] at hstrat
  have d2 : ∀ (l : List (CPt K)) (a b : CPt K), (l ++ [a, b]).dropLast.dropLast = l := by
    intro l a b
    rw [show l ++ [a, b] = (l ++ [a]) ++ [b] by simp, List.dropLast_concat, List.dropLast_concat]
  simp only [productIsogeny, productIsogenyNaive, if_neg (by omega : ¬ n = 0), List.sum_cons, List.sum_nil,
    Nat.add_zero]
  rw [hl]
  simp only [Option.bind_eq_bind, Option.bind_some, d2, List.dropLast_concat, hgl]
  have e : List.map g (images ++ [P] ++ [Q]) = images.map g ++ [g P, g Q] := by simp
  rw [hstrat, e, hnaive]
  simp only [Option.bind_some, splittingIso]
  cases splittingMatrix Th'.null with
  | none => rfl
  | some M =>
    simp only [Option.map_some, Option.bind_some, splitToProduct]
    have : List.take images.length (List.map (fun P => ThPt.baseChange P M) (J ++ [K1', K2'])) =
        List.take images.length (List.map (fun P => ThPt.baseChange P M) J) := by
      rw [List.map_append, List.take_append_of_le_length]
      rw [List.length_map, hJ]
    rw [this]

/-- With a strategy for `n` steps the code never reads outside its lists: everything up to the
splitting is computed. -/
theorem productIsogeny_some [RootOps K] (E : EProd K) (P Q : CPt K) (images : List (CPt K))
    {n : Nat} {S : List Nat} (hS : IsStrategy n S) :
    ∃ Th J, J.length = images.length ∧ productIsogeny E P Q images n S =
      (splittingIso Th J).bind fun r => splitToProduct r.1 r.2 images.length := by
  have hn := hS.pos
  obtain ⟨stk, strat, hl, hstk, hall⟩ := firstLoop E P Q images hS
  have hgl := gluing_eq E (E.doubleIter P (n - 1)) (E.doubleIter Q (n - 1))
  generalize glue E (E.doubleIter P (n - 1)) (E.doubleIter Q (n - 1)) = g at *
  generalize glueNull E (E.doubleIter P (n - 1)) (E.doubleIter Q (n - 1)) = O at *
  obtain ⟨Th', J, hJ, hstrat⟩ := strategyLoop_some n (n - 1) O
    (images.map g) (stk.map fun e => ⟨g e.A, g e.B, e.p, e.r, e.S⟩) strat (by omega) (stkOK_map g hstk)
  rw [List.length_map] at hJ
  rw [levels_map, ← flat_map, ← List.map_append] at hstrat
  have d2 : ∀ (l : List (CPt K)) (a b : CPt K), (l ++ [a, b]).dropLast.dropLast = l := by
    intro l a b
    rw [show l ++ [a, b] = (l ++ [a]) ++ [b] by simp, List.dropLast_concat, List.dropLast_concat]
  refine ⟨Th', J, hJ, ?_⟩
  simp only [productIsogeny, if_neg (by omega : ¬ n = 0), List.sum_cons, List.sum_nil,
    Nat.add_zero]
  rw [hl]
  simp only [Option.bind_eq_bind, Option.bind_some, d2, List.dropLast_concat, hgl]
  rw [hstrat]
  rfl

end

end Festa

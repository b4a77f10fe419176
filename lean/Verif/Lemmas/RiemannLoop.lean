import Verif.Lemmas.RiemannExact
/-! The map computed by the chain: it carries the Riemann relations over, and only four times the kernel points
and their combinations are sent to the null point. -/
namespace Festa
variable {K : Type*} [Field K]

/-- The step before the last one, without the last transform. -/
def preLast (O K1 K2 : ThPt K) : ThPt K → ThPt K :=
  twoIsoImage false false (twoIsoCoeffs (ThStr.new O) ((ThStr.new O).double K1) ((ThStr.new O).double K2)).2

/-- The null point the chain with `r + 2` steps ends with. -/
def chainNull : Nat → ThPt K → ThPt K → ThPt K → ThPt K
  | 0, O, K1, K2 => toProdNull (preLast O K1 K2 K1) (preLast O K1 K2 K2)
  | r + 1, O, K1, K2 =>
    let T1 := (ThStr.new O).doubleIter K1 (r + 2)
    let T2 := (ThStr.new O).doubleIter K2 (r + 2)
    chainNull r (isoNull O T1 T2) (isoImage O T1 T2 K1) (isoImage O T1 T2 K2)

/-- The image of a point under the chain with `r + 2` steps. -/
def chainImg : Nat → ThPt K → ThPt K → ThPt K → ThPt K → ThPt K
  | 0, O, K1, K2, X => toProdImage (preLast O K1 K2 K1) (preLast O K1 K2 K2) (preLast O K1 K2 X)
  | r + 1, O, K1, K2, X =>
    let T1 := (ThStr.new O).doubleIter K1 (r + 2)
    let T2 := (ThStr.new O).doubleIter K2 (r + 2)
    chainImg r (isoNull O T1 T2) (isoImage O T1 T2 K1) (isoImage O T1 T2 K2) (isoImage O T1 T2 X)

theorem naiveLoop_map {G : Type*} [AddCommGroup G] (N : G → Prop) (P Q : G) {F : ThPt K → Prop} (h2 : (2 : K) ≠ 0) (n : Nat) : ∀ (r : Nat) (O K1 K2 : ThPt K), r + 2 < n →
    RegChain F (r + 2) O K1 K2 → OnKummer O K1 → OnKummer O K2 →
    ∃ O' f, (O' = chainNull r O K1 K2 ∧ f = chainImg r O K1 K2) ∧ ThMap O O' f ∧ F O'.had ∧ O'.Same (f ((ThStr.new O).doubleIter K1 2)) ∧
      O'.Same (f ((ThStr.new O).doubleIter K2 2)) ∧
      (∀ {θ : G → ThPt K}, KNet O N θ → (θ P).Same K1 → (θ Q).Same K2 → (∀ a b : ℤ, N (a • P + b • Q)) →
        ∀ {x : G}, (∀ a b : ℤ, N (x + (a • 4 • P + b • 4 • Q))) → O'.Same (f (θ x)) →
        ∃ a b : ℤ, O.Same (θ (x + (a • 4 • P + b • 4 • Q)))) ∧ ∀ I : List (ThPt K),
      naiveLoop n I.length (r + 2) (ThStr.new O) (I ++ [K1, K2]) = some (ThStr.new O', (I ++ [K1, K2]).map f) := by
  intro r
  induction r with
  | zero =>
    intro O K1 K2 hr ⟨hO, h6, hk, ⟨hO', h6'⟩, hl, hF⟩ hK1 hK2
    set T1 := (ThStr.new O).double K1 with hT1
    set T2 := (ThStr.new O).double K2 with hT2
    have hkd := kernel_dual h2 hO hk
    have kdbl : ∀ {X : ThPt K}, OnKummer O X → Riem (isoNull O T1 T2) (isoImage O T1 T2 X) (isoImage O T1 T2 X)
        (isoImage O T1 T2 ((ThStr.new O).double X)) (isoNull O T1 T2) := fun {X} hX =>
      ((Riem.double h2 hO hX).isoImage h2 hO.dual h6 hkd (.of_kummer hO hX) (.of_kummer hO hX)).same (.refl _) (.refl _)
        (.refl _) (.refl _) (isoImage_null' hO.dual hkd).symm
    have hkd' : KerDual (isoNull O T1 T2) (isoImage O T1 T2 K1) (isoImage O T1 T2 K2) := hl.dual h2 hO' (kdbl hK1) (kdbl hK2)
    have n0 : ∀ {T : ThPt K}, T.sqTheta.X ≠ 0 → T ≠ ThPt.zero := by
      rintro T h rfl
      exact h (by simp [ThPt.sqTheta, ThPt.had, ThPt.zero])
    -- the step without the last transform
    let g := twoIsoImage false false (twoIsoCoeffs (ThStr.new O) T1 T2).2
    have hg : ∀ X, (g X).had = isoImage O T1 T2 X := fun X => rfl
    have ag := toProd_agrees' (O := (twoIsoCoeffs (ThStr.new O) T1 T2).1) (T1 := g K1) (T2 := g K2) hO' hkd'
    refine ⟨toProdNull (g K1) (g K2), fun X => toProdImage (g K1) (g K2) (g X), ⟨rfl, rfl⟩, ?_, ?_, ?_, ?_, ?_, ?_⟩
    · have hm : ThMap (isoNull O T1 T2) (toProdNull (g K1) (g K2)).had
          (isoImage (isoNull O T1 T2) (isoImage O T1 T2 K1) (isoImage O T1 T2 K2)) := by
        refine ⟨?_, isoImage_same, isoImage_ne_zero' h2 hO' hkd', fun hX hY hr => ?_⟩
        · rw [(ag O).1]; exact isoImage_null' hO' hkd'
        · rw [(ag O).1]; exact hr.isoImage h2 hO' h6' hkd' hX hY
      have hm := ThMap.step h2 hO.dual h6 hkd hm
      have e : ∀ X, (toProdImage (g K1) (g K2) (g X)).had =
          isoImage (isoNull O T1 T2) (isoImage O T1 T2 K1) (isoImage O T1 T2 K2) (isoImage O T1 T2 X) := fun X => (ag (g X)).2
      refine ⟨?_, fun {X Y} h => ?_, fun {X} h h' => ?_, fun {X Y S D} hX hY h => ?_⟩
      · refine same_of_had h2 ?_
        rw [e]; exact hm.null
      · refine same_of_had h2 ?_
        rw [e, e]; exact hm.same h
      · refine hm.nz h ?_
        rw [← e, h']
        simp [ThPt.had, ThPt.zero]
      · refine Riem.of_had h2 ?_
        rw [e, e, e, e]; exact hm.riem hX hY h
    · rw [(ag O).1]; exact hF
    · refine same_of_had h2 ?_
      rw [(ag O).1, (ag (g _)).2]
      exact isoImage_quad h2 hO' h6' hkd' (kdbl (kummer_doubleIter h2 hO hk 1 hK1))
        (isoImage_ne_zero' h2 hO.dual hkd (double_ne_zero h2 hO (n0 hk.nx1))) (.inl ⟨hl.y1, hl.t1⟩)
    · refine same_of_had h2 ?_
      rw [(ag O).1, (ag (g _)).2]
      exact isoImage_quad h2 hO' h6' hkd' (kdbl (kummer_doubleIter h2 hO hk 1 hK2))
        (isoImage_ne_zero' h2 hO.dual hkd (double_ne_zero h2 hO (n0 hk.nx2))) (.inr ⟨hl.z2, hl.t2⟩)
    · intro θ hθ eP eQ hPQ x hx hi
      have nP : ∀ k : ℕ, N (k • P) := fun k => by simpa using hPQ k 0
      have nQ : ∀ k : ℕ, N (k • Q) := fun k => by simpa using hPQ 0 k
      have h0 : N 0 := by simpa using hPQ 0 0
      have hi : (toProdNull (g K1) (g K2)).had.Same (toProdImage (g K1) (g K2) (g (θ x))).had := had_same hi
      rw [(ag O).1, (ag (g (θ x))).2, hg, hg, hg] at hi
      have h1 := hθ.step h2 hO.dual h6 hkd
      have z1 := same_zeros (isoImage_same (O := O) (T1 := T1) (T2 := T2)
        (hθ.double h2 hO h6 h0 (by simpa using nP 1) (nP 2) hK1 eP))
      have z2 := same_zeros (isoImage_same (O := O) (T1 := T1) (T2 := T2)
        (hθ.double h2 hO h6 h0 (by simpa using nQ 1) (nQ 2) hK2 eQ))
      have e4 : ∀ X : G, 2 • 2 • X = 4 • X := fun X => by rw [← mul_nsmul']
      have fP := h1.flip_true h2 h6' h0 (nP 2) (by rw [e4]; exact nP 4) (z1.1 hl.y1) (z1.2.2 hl.t1)
      have fQ := h1.flip_false h2 h6' h0 (nQ 2) (by rw [e4]; exact nQ 4) (z2.2.1 hl.z2) (z2.2.2 hl.t2)
      rw [e4] at fP fQ
      obtain ⟨a, b, hab⟩ := h1.exact h2 hO' h6' hkd' fP fQ (nP 4) (nQ 4) hx hi
      obtain ⟨c, d, hcd⟩ := hθ.step_exact h2 hO h6 1 hk hK1 hK2 eP eQ hPQ (x := x + (a • 4 • P + b • 4 • Q)) (fun c d => by
        have := hx (a + c) (b + d)
        rw [add_zsmul, add_zsmul] at this
        convert this using 1
        abel) hab
      refine ⟨a + c, b + d, ?_⟩
      rw [add_zsmul, add_zsmul]
      convert hcd using 2
      abel
    · intro I
      have a1 : n - (1 + 1) + 2 = n := by omega
      have a2 : n - (n - (1 + 1)) - 1 = 1 := by omega
      have a3 : ¬ (n - (0 + 1) + 2 = n) := by omega
      have a4 : n - (0 + 1) + 1 = n := by omega
      have a5 : n - (n - (0 + 1)) - 1 = 0 := by omega
      have g0 : (I ++ [K1, K2])[I.length]? = some K1 := by simp
      have g1 : (I ++ [K1, K2])[I.length + 1]? = some K2 := by simp
      have m0 : ∀ f : ThPt K → ThPt K, ((I ++ [K1, K2]).map f)[I.length]? = some (f K1) := by intro f; simp
      have m1 : ∀ f : ThPt K → ThPt K, ((I ++ [K1, K2]).map f)[I.length + 1]? = some (f K2) := by intro f; simp
      rw [naiveLoop]
      simp only [g0, g1, Option.bind_eq_bind, Option.bind_some, chainStep, a1, a2, if_true, twoIsogeny, Bool.false_eq_true,
        if_false]
      rw [naiveLoop]
      simp only [m0, m1, Option.bind_eq_bind, Option.bind_some, chainStep, a3, a4, a5, if_true, if_false, toProd_eq, naiveLoop,
        List.map_map]
      rfl
  | succ r ih =>
    intro O K1 K2 hr ⟨hO, h6, hk, hc⟩ hK1 hK2
    obtain ⟨O', f, ⟨eO, ef⟩, hm, hF, k1, k2, hex, hf⟩ := ih _ _ _ (by omega) hc (isoImage_kummer h2 hO hk hK1) (isoImage_kummer h2 hO hk hK2)
    refine ⟨O', _, ⟨eO, by rw [ef]; rfl⟩, ThMap.step h2 hO.dual h6 (kernel_dual h2 hO hk) hm, hF, ?_, ?_, ?_, fun I => ?_⟩
    · exact k1.trans (hm.same (isoImage_doubleIter h2 hO hk hc.null 2 hK1).symm)
    · exact k2.trans (hm.same (isoImage_doubleIter h2 hO hk hc.null 2 hK2).symm)
    · intro θ hθ eP eQ hPQ x hx hi
      obtain ⟨a, b, hab⟩ := hex (hθ.step h2 hO.dual h6 (kernel_dual h2 hO hk)) (isoImage_same eP) (isoImage_same eQ) hPQ hx hi
      obtain ⟨c, d, hcd⟩ := hθ.step_exact h2 hO h6 (r + 2) hk hK1 hK2 eP eQ hPQ (x := x + (a • 4 • P + b • 4 • Q)) (fun c d => by
        have := hx (a + c) (b + d)
        rw [add_zsmul, add_zsmul] at this
        convert this using 1
        abel) hab
      refine ⟨a + c, b + d, ?_⟩
      rw [add_zsmul, add_zsmul]
      convert hcd using 2
      abel
    have a1 : ¬ (n - (r + 2 + 1) + 2 = n) := by omega
    have a2 : ¬ (n - (r + 2 + 1) + 1 = n) := by omega
    have a3 : n - (n - (r + 2 + 1)) - 1 = r + 2 := by omega
    have g0 : (I ++ [K1, K2])[I.length]? = some K1 := by simp
    have g1 : (I ++ [K1, K2])[I.length + 1]? = some K2 := by simp
    rw [show r + 1 + 2 = (r + 2) + 1 by omega, naiveLoop]
    simp only [g0, g1, Option.bind_eq_bind, Option.bind_some, chainStep, a1, a2, a3, if_false, twoIsogeny, if_true]
    have := hf (I.map (isoImage O ((ThStr.new O).doubleIter K1 (r + 2)) ((ThStr.new O).doubleIter K2 (r + 2))))
    rw [List.length_map] at this
    rw [List.map_append]
    refine this.trans ?_
    simp only [List.map_append, List.map_map, List.map_cons, List.map_nil]
    rfl

end Festa

import Verif.Lemmas.ProductMap
/-! Maps into the Kummer line of a Montgomery curve that carry sums and differences over. -/
namespace Festa
variable {K : Type*} [Field K] [DecidableEq K] [RootOps K]

/-- The pair `u`, as a theta point over `o`, has the x-coordinate of `f`. -/
def TR {A : K} (o u : K × K) (f : MPoint A) : Prop := KRep (thetaToMontPoint o u).X (thetaToMontPoint o u).Z f

theorem krep_neg' {A X Z : K} {f : MPoint A} (h : KRep X Z f) : KRep X Z (-f) := by
  rcases f with _ | ⟨x, y, k⟩
  · exact h
  · exact h

theorem TR.neg {A : K} {o u : K × K} {f : MPoint A} (h : TR o u f) : TR o u (-f) := krep_neg' h

theorem TR.of_or {A : K} {o u : K × K} {f g : MPoint A} (h : TR o u f) (e : g = f ∨ g = -f) : TR o u g := by
  rcases e with rfl | rfl
  · exact h
  · exact h.neg

theorem TR.eq {A : K} {o u : K × K} {f g : MPoint A} (h : TR o u f) (h' : TR o u g) : g = f ∨ g = -f := kummer_eq h h'

theorem TR.scale {A : K} {o u : K × K} {f : MPoint A} {c : K} (hc : c ≠ 0) (h : TR o u f) :
    TR o (c * u.1, c * u.2) f := by
  have := thetaToMont_scale 1 c o u
  simp only [one_mul] at this
  rw [TR, this]
  exact krep_mul hc h

theorem TR.null {A : K} (h2 : (2 : K) ≠ 0) {o : K × K} (ho : Null1 o) : TR o o (0 : MPoint A) := by
  refine ⟨?_, ?_⟩
  · show o.1 * o.2 + o.2 * o.1 ≠ 0
    rw [show o.1 * o.2 + o.2 * o.1 = 2 * (o.1 * o.2) by ring]
    exact mul_ne_zero h2 (mul_ne_zero ho.a ho.b)
  · show o.1 * o.2 - o.2 * o.1 = 0
    ring

/-- Adding the null point changes nothing. -/
theorem Riem1.null {o x k s d : K × K} (h2 : (2 : K) ≠ 0) (ho : Null1 o) (h : Riem1 o x k s d)
    (hk : ∃ c, c ≠ 0 ∧ k = (c * o.1, c * o.2)) (hx : x ≠ (0, 0)) (hs : s ≠ (0, 0)) :
    ∃ c, c ≠ 0 ∧ s = (c * x.1, c * x.2) := by
  obtain ⟨t, ht, rfl⟩ := hk
  obtain ⟨c, hc, h⟩ := h
  have h0 := h 0
  have h1 := h 1
  have h3 := h 2
  simp only [wg] at h0 h1 h3
  have n0 : o.1 * o.1 + o.2 * o.2 ≠ 0 := by convert ho.s using 1; ring
  have n1 : o.1 * o.1 - o.2 * o.2 ≠ 0 := by convert ho.d using 1; ring
  have n2 : o.1 * o.2 + o.2 * o.1 ≠ 0 := by
    rw [show o.1 * o.2 + o.2 * o.1 = 2 * (o.1 * o.2) by ring]
    exact mul_ne_zero h2 (mul_ne_zero ho.a ho.b)
  have e0 : s.1 * d.1 + s.2 * d.2 = c * t ^ 2 * (x.1 * x.1 + x.2 * x.2) :=
    mul_right_cancel₀ n0 (by linear_combination h0)
  have e1 : s.1 * d.1 - s.2 * d.2 = c * t ^ 2 * (x.1 * x.1 - x.2 * x.2) :=
    mul_right_cancel₀ n1 (by linear_combination h1)
  have e2 : s.1 * d.2 + s.2 * d.1 = c * t ^ 2 * (x.1 * x.2 + x.2 * x.1) :=
    mul_right_cancel₀ n2 (by linear_combination h3)
  obtain ⟨s1, s2⟩ := s
  obtain ⟨x1, x2⟩ := x
  have nx : x1 ≠ 0 ∨ x2 ≠ 0 := by
    by_contra hcon; push Not at hcon; exact hx (by rw [hcon.1, hcon.2])
  have ns : s1 ≠ 0 ∨ s2 ≠ 0 := by
    by_contra hcon; push Not at hcon; exact hs (by rw [hcon.1, hcon.2])
  rcases kpair_eq (a := s1) (b := s2) (c := d.1) (d := d.2) (p := x1) (q := x2) (r := x1) (t := x2) (k := c * t ^ 2)
    (mul_ne_zero hc (pow_ne_zero 2 ht)) ns nx nx (mul_left_cancel₀ h2 (by linear_combination e0 + e1))
    (mul_left_cancel₀ h2 (by linear_combination e0 - e1)) e2 with ⟨u, -, hu, -, r1, r2, -⟩ | ⟨u, -, hu, -, r1, r2, -⟩
  · exact ⟨u, hu, by rw [r1, r2]⟩
  · exact ⟨u, hu, by rw [r1, r2]⟩

/-- A map of `G` to theta points over `o`, defined outside some exceptions, that carries sums and
differences over. -/
structure Net {G : Type*} [AddCommGroup G] (o : K × K) (N : G → Prop) (θ : G → K × K) : Prop where
  two : (2 : K) ≠ 0
  null : Null1 o
  ne : ∀ {x}, N x → θ x ≠ (0, 0)
  zero : ∃ c, c ≠ 0 ∧ θ 0 = (c * o.1, c * o.2)
  riem : ∀ {x y}, N x → N y → N (x + y) → N (x - y) → Riem1 o (θ x) (θ y) (θ (x + y)) (θ (x - y))

namespace Net
variable {G : Type*} [AddCommGroup G] {o : K × K} {N : G → Prop} {θ : G → K × K} {A : K}

theorem tr_zero (h : Net o N θ) : TR o (θ 0) (0 : MPoint A) := by
  obtain ⟨c, hc, e⟩ := h.zero
  rw [e]
  exact (TR.null h.two h.null).scale hc

theorem pair (h : Net o N θ) (hA : A = nullToMontCoeff o) {x y : G} {f g : MPoint A} (nx : N x) (ny : N y) (ns : N (x + y))
    (nd : N (x - y)) (hf : TR o (θ x) f) (hg : TR o (θ y) g) :
    TR o (θ (x + y)) (f + g) ∧ TR o (θ (x - y)) (f - g) ∨ TR o (θ (x + y)) (f - g) ∧ TR o (θ (x - y)) (f + g) :=
  (h.riem nx ny ns nd).krep h.two h.null (h.ne ns) hA hf hg

theorem up (h : Net o N θ) (hA : A = nullToMontCoeff o) {x y : G} {f g : MPoint A} (nx : N x) (ny : N y) (ns : N (x + y))
    (nd : N (x - y)) (hf : TR o (θ x) f) (hg : TR o (θ y) g) (hd : TR o (θ (x - y)) (f - g)) : TR o (θ (x + y)) (f + g) := by
  rcases h.pair hA nx ny ns nd hf hg with ⟨e, -⟩ | ⟨e1, e2⟩
  · exact e
  · exact e1.of_or (hd.eq e2)

theorem down (h : Net o N θ) (hA : A = nullToMontCoeff o) {x y : G} {f g : MPoint A} (nx : N x) (ny : N y) (ns : N (x + y))
    (nd : N (x - y)) (hf : TR o (θ x) f) (hg : TR o (θ y) g) (hs : TR o (θ (x + y)) (f + g)) : TR o (θ (x - y)) (f - g) := by
  rcases h.pair hA nx ny ns nd hf hg with ⟨-, e⟩ | ⟨e1, e2⟩
  · exact e
  · exact e2.of_or (hs.eq e1)

omit [Field K] [DecidableEq K] [RootOps K] in
theorem int_ind {P : ℤ → Prop} (h0 : P 0) (h1 : P 1) (up : ∀ k, P (k - 1) → P k → P (k + 1))
    (down : ∀ k, P (k + 1) → P k → P (k - 1)) (k : ℤ) : P k := by
  have a : ∀ n : ℕ, P n ∧ P (n + 1) := by
    intro n
    induction n with
    | zero => exact ⟨h0, by simpa using h1⟩
    | succ n ih =>
      push_cast
      exact ⟨ih.2, up _ (by simpa using ih.1) ih.2⟩
  have b : ∀ n : ℕ, P (-n) ∧ P (-n + 1) := by
    intro n
    induction n with
    | zero => exact ⟨by simpa using h0, by simpa using h1⟩
    | succ n ih =>
      push_cast
      rw [show -((n : ℤ) + 1) = -n - 1 by ring, sub_add_cancel]
      exact ⟨down _ ih.2 ih.1, ih.1⟩
  rcases Int.eq_nat_or_neg k with ⟨n, rfl | rfl⟩
  · exact (a n).1
  · exact (b n).1

/-- The values on the group generated by two elements. -/
theorem two_gen (h : Net o N θ) (hA : A = nullToMontCoeff o) {x y : G} (hN : ∀ a b : ℤ, N (a • x + b • y)) {f g : MPoint A}
    (hf : TR o (θ x) f) (hg : TR o (θ y) g) :
    ∃ g', (g' = g ∨ g' = -g) ∧ ∀ a b : ℤ, TR o (θ (a • x + b • y)) (a • f + b • g') := by
  have nx : N x := by simpa using hN 1 0
  have ny : N y := by simpa using hN 0 1
  have ns : N (x + y) := by simpa using hN 1 1
  have nd : N (x - y) := by simpa [sub_eq_add_neg] using hN 1 (-1)
  obtain ⟨g', hg', hs⟩ : ∃ g', (g' = g ∨ g' = -g) ∧ TR o (θ (x + y)) (f + g') := by
    rcases h.pair hA nx ny ns nd hf hg with ⟨e, -⟩ | ⟨e, -⟩
    · exact ⟨g, .inl rfl, e⟩
    · exact ⟨-g, .inr rfl, by rwa [← sub_eq_add_neg]⟩
  have hg : TR o (θ y) g' := hg.of_or hg'
  refine ⟨g', hg', ?_⟩
  -- in direction `x`
  have row : ∀ b : ℤ, TR o (θ ((0 : ℤ) • x + b • y)) ((0 : ℤ) • f + b • g') → TR o (θ ((1 : ℤ) • x + b • y)) ((1 : ℤ) • f + b • g') →
      ∀ a : ℤ, TR o (θ (a • x + b • y)) (a • f + b • g') := by
    intro b h0 h1
    have sx : ∀ k : ℤ, k • x + b • y + x = (k + 1) • x + b • y := fun k => by rw [add_zsmul, one_zsmul]; abel
    have dx : ∀ k : ℤ, k • x + b • y - x = (k - 1) • x + b • y := fun k => by rw [sub_zsmul, one_zsmul]; abel
    have sf : ∀ k : ℤ, k • f + b • g' + f = (k + 1) • f + b • g' := fun k => by rw [add_zsmul, one_zsmul]; abel
    have df : ∀ k : ℤ, k • f + b • g' - f = (k - 1) • f + b • g' := fun k => by rw [sub_zsmul, one_zsmul]; abel
    refine int_ind h0 h1 (fun k hm hk => ?_) fun k hp hk => ?_
    · have := h.up hA (hN k b) nx (by rw [sx]; exact hN _ _) (by rw [dx]; exact hN _ _) hk hf (by rw [dx, df]; exact hm)
      rwa [sx, sf] at this
    · have := h.down hA (hN k b) nx (by rw [sx]; exact hN _ _) (by rw [dx]; exact hN _ _) hk hf (by rw [sx, sf]; exact hp)
      rwa [dx, df] at this
  have r0 := row 0 (by simpa using h.tr_zero) (by simpa using hf)
  have r1 := row 1 (by simpa using hg) (by simpa using hs)
  intro a b
  -- in direction `y`
  have sx : ∀ k : ℤ, a • x + k • y + y = a • x + (k + 1) • y := fun k => by rw [add_zsmul, one_zsmul, add_assoc]
  have dx : ∀ k : ℤ, a • x + k • y - y = a • x + (k - 1) • y := fun k => by rw [sub_zsmul, one_zsmul]; abel
  have sf : ∀ k : ℤ, a • f + k • g' + g' = a • f + (k + 1) • g' := fun k => by rw [add_zsmul, one_zsmul, add_assoc]
  have df : ∀ k : ℤ, a • f + k • g' - g' = a • f + (k - 1) • g' := fun k => by rw [sub_zsmul, one_zsmul]; abel
  revert b
  refine int_ind (r0 a) (r1 a) (fun k hm hk => ?_) fun k hp hk => ?_
  · have := h.up hA (hN a k) ny (by rw [sx]; exact hN _ _) (by rw [dx]; exact hN _ _) hk hg (by rw [dx, df]; exact hm)
    rwa [sx, sf] at this
  · have := h.down hA (hN a k) ny (by rw [sx]; exact hN _ _) (by rw [dx]; exact hN _ _) hk hg (by rw [sx, sf]; exact hp)
    rwa [dx, df] at this

end Net
end Festa

import Verif.Lemmas.Riemann
import Verif.Lemmas.ThetaSplit
import Verif.Lemmas.KummerAdd
/-! The Riemann relations under the splitting matrices, on products, and in Montgomery coordinates. -/
namespace Festa
variable {K : Type*} [Field K]

/-- The characteristic of each of the ten forms. -/
def wi : Fin 10 → Fin 4 × Fin 4
  | 0 => (0, 0) | 1 => (1, 0) | 2 => (2, 0) | 3 => (3, 0) | 4 => (0, 1)
  | 5 => (2, 1) | 6 => (0, 2) | 7 => (1, 2) | 8 => (0, 3) | 9 => (3, 3)

theorem wi_even (j : Fin 10) : Even (parity (wi j).1 (wi j).2) := by revert j; decide

theorem wi_inj : Function.Injective wi := by intro i j; revert i j; decide

theorem wi_surj (c i : Fin 4) (h : Even (parity c i)) : ∃ j, wi j = (c, i) := by revert c i; decide

theorem evenConst_wi (O : ThPt K) (j : Fin 10) : evenConst O (wi j).1 (wi j).2 = wf j O O := by
  simp only [evenConst, Fin.sum_univ_four]
  fin_cases j <;> simp [wi, wf, ThPt.get, parity] <;> ring

/-- The splitting matrices permute the forms up to factors. -/
theorem splitMap_wf [RootOps K] (h2 : (2 : K) ≠ 0) (c i : Fin 4) (hev : Even (parity c i)) (hne : (c, i) ≠ (0, 0)) :
    ∃ M : Mat4 K, splitMap (c, i) = some M ∧ ∃ (σ : Fin 10 → Fin 10) (ε : Fin 10 → K), Function.Injective σ ∧
      wi (σ 9) = (c, i) ∧ (∀ j, ε j ≠ 0) ∧
      ∀ j (S D : ThPt K), wf j (S.baseChange M) (D.baseChange M) = ε j * wf (σ j) S D := by
  have n1 : (1 : K) ≠ 0 := one_ne_zero
  have n1m : (-1 : K) ≠ 0 := neg_ne_zero.mpr n1
  have n4 := four_ne h2
  have n4m : (-4 : K) ≠ 0 := neg_ne_zero.mpr n4
  have hm : (c, i) ∈ evenIndices.tail := by
    revert c i; decide
  simp only [evenIndices, List.tail, List.mem_cons, List.not_mem_nil, or_false, Prod.mk.injEq] at hm
  rcases hm with ⟨rfl, rfl⟩ | ⟨rfl, rfl⟩ | ⟨rfl, rfl⟩ | ⟨rfl, rfl⟩ | ⟨rfl, rfl⟩ | ⟨rfl, rfl⟩ | ⟨rfl, rfl⟩ |
    ⟨rfl, rfl⟩ | ⟨rfl, rfl⟩
  · refine ⟨_, rfl, ![0, 1, 3, 2, 9, 8, 7, 6, 5, 4], ![1, 1, 1, 1, 1, 1, 1, 1, -1, -1], by decide, rfl, ?_, ?_⟩
    · intro j; fin_cases j
      · show (1 : K) ≠ 0; exact n1
      · show (1 : K) ≠ 0; exact n1
      · show (1 : K) ≠ 0; exact n1
      · show (1 : K) ≠ 0; exact n1
      · show (1 : K) ≠ 0; exact n1
      · show (1 : K) ≠ 0; exact n1
      · show (1 : K) ≠ 0; exact n1
      · show (1 : K) ≠ 0; exact n1
      · show (-1 : K) ≠ 0; exact n1m
      · show (-1 : K) ≠ 0; exact n1m
    · intro j S D; fin_cases j
      · show wf 0 _ _ = (1 : K) * wf 0 S D; simp only [wf, ThPt.baseChange, ThPt.dot]; ring
      · show wf 1 _ _ = (1 : K) * wf 1 S D; simp only [wf, ThPt.baseChange, ThPt.dot]; ring
      · show wf 2 _ _ = (1 : K) * wf 3 S D; simp only [wf, ThPt.baseChange, ThPt.dot]; ring
      · show wf 3 _ _ = (1 : K) * wf 2 S D; simp only [wf, ThPt.baseChange, ThPt.dot]; ring
      · show wf 4 _ _ = (1 : K) * wf 9 S D; simp only [wf, ThPt.baseChange, ThPt.dot]; ring
      · show wf 5 _ _ = (1 : K) * wf 8 S D; simp only [wf, ThPt.baseChange, ThPt.dot]; ring
      · show wf 6 _ _ = (1 : K) * wf 7 S D; simp only [wf, ThPt.baseChange, ThPt.dot]; ring
      · show wf 7 _ _ = (1 : K) * wf 6 S D; simp only [wf, ThPt.baseChange, ThPt.dot]; ring
      · show wf 8 _ _ = (-1 : K) * wf 5 S D; simp only [wf, ThPt.baseChange, ThPt.dot]; ring
      · show wf 9 _ _ = (-1 : K) * wf 4 S D; simp only [wf, ThPt.baseChange, ThPt.dot]; ring
  · refine ⟨_, rfl, ![0, 3, 2, 1, 5, 4, 9, 8, 7, 6], ![1, 1, 1, 1, 1, 1, 1, 1, -1, -1], by decide, rfl, ?_, ?_⟩
    · intro j; fin_cases j
      · show (1 : K) ≠ 0; exact n1
      · show (1 : K) ≠ 0; exact n1
      · show (1 : K) ≠ 0; exact n1
      · show (1 : K) ≠ 0; exact n1
      · show (1 : K) ≠ 0; exact n1
      · show (1 : K) ≠ 0; exact n1
      · show (1 : K) ≠ 0; exact n1
      · show (1 : K) ≠ 0; exact n1
      · show (-1 : K) ≠ 0; exact n1m
      · show (-1 : K) ≠ 0; exact n1m
    · intro j S D; fin_cases j
      · show wf 0 _ _ = (1 : K) * wf 0 S D; simp only [wf, ThPt.baseChange, ThPt.dot]; ring
      · show wf 1 _ _ = (1 : K) * wf 3 S D; simp only [wf, ThPt.baseChange, ThPt.dot]; ring
      · show wf 2 _ _ = (1 : K) * wf 2 S D; simp only [wf, ThPt.baseChange, ThPt.dot]; ring
      · show wf 3 _ _ = (1 : K) * wf 1 S D; simp only [wf, ThPt.baseChange, ThPt.dot]; ring
      · show wf 4 _ _ = (1 : K) * wf 5 S D; simp only [wf, ThPt.baseChange, ThPt.dot]; ring
      · show wf 5 _ _ = (1 : K) * wf 4 S D; simp only [wf, ThPt.baseChange, ThPt.dot]; ring
      · show wf 6 _ _ = (1 : K) * wf 9 S D; simp only [wf, ThPt.baseChange, ThPt.dot]; ring
      · show wf 7 _ _ = (1 : K) * wf 8 S D; simp only [wf, ThPt.baseChange, ThPt.dot]; ring
      · show wf 8 _ _ = (-1 : K) * wf 7 S D; simp only [wf, ThPt.baseChange, ThPt.dot]; ring
      · show wf 9 _ _ = (-1 : K) * wf 6 S D; simp only [wf, ThPt.baseChange, ThPt.dot]; ring
  · refine ⟨_, rfl, ![0, 1, 2, 3, 5, 4, 7, 6, 9, 8], ![1, 1, 1, 1, 1, 1, 1, 1, -1, -1], by decide, rfl, ?_, ?_⟩
    · intro j; fin_cases j
      · show (1 : K) ≠ 0; exact n1
      · show (1 : K) ≠ 0; exact n1
      · show (1 : K) ≠ 0; exact n1
      · show (1 : K) ≠ 0; exact n1
      · show (1 : K) ≠ 0; exact n1
      · show (1 : K) ≠ 0; exact n1
      · show (1 : K) ≠ 0; exact n1
      · show (1 : K) ≠ 0; exact n1
      · show (-1 : K) ≠ 0; exact n1m
      · show (-1 : K) ≠ 0; exact n1m
    · intro j S D; fin_cases j
      · show wf 0 _ _ = (1 : K) * wf 0 S D; simp only [wf, ThPt.baseChange, ThPt.dot]; ring
      · show wf 1 _ _ = (1 : K) * wf 1 S D; simp only [wf, ThPt.baseChange, ThPt.dot]; ring
      · show wf 2 _ _ = (1 : K) * wf 2 S D; simp only [wf, ThPt.baseChange, ThPt.dot]; ring
      · show wf 3 _ _ = (1 : K) * wf 3 S D; simp only [wf, ThPt.baseChange, ThPt.dot]; ring
      · show wf 4 _ _ = (1 : K) * wf 5 S D; simp only [wf, ThPt.baseChange, ThPt.dot]; ring
      · show wf 5 _ _ = (1 : K) * wf 4 S D; simp only [wf, ThPt.baseChange, ThPt.dot]; ring
      · show wf 6 _ _ = (1 : K) * wf 7 S D; simp only [wf, ThPt.baseChange, ThPt.dot]; ring
      · show wf 7 _ _ = (1 : K) * wf 6 S D; simp only [wf, ThPt.baseChange, ThPt.dot]; ring
      · show wf 8 _ _ = (-1 : K) * wf 9 S D; simp only [wf, ThPt.baseChange, ThPt.dot]; ring
      · show wf 9 _ _ = (-1 : K) * wf 8 S D; simp only [wf, ThPt.baseChange, ThPt.dot]; ring
  · refine ⟨_, rfl, ![0, 4, 8, 6, 9, 3, 5, 2, 7, 1], ![4, 4, 4, 4, 4, 4, 4, 4, -4, -4], by decide, rfl, ?_, ?_⟩
    · intro j; fin_cases j
      · show (4 : K) ≠ 0; exact n4
      · show (4 : K) ≠ 0; exact n4
      · show (4 : K) ≠ 0; exact n4
      · show (4 : K) ≠ 0; exact n4
      · show (4 : K) ≠ 0; exact n4
      · show (4 : K) ≠ 0; exact n4
      · show (4 : K) ≠ 0; exact n4
      · show (4 : K) ≠ 0; exact n4
      · show (-4 : K) ≠ 0; exact n4m
      · show (-4 : K) ≠ 0; exact n4m
    · intro j S D; fin_cases j
      · show wf 0 _ _ = (4 : K) * wf 0 S D; simp only [wf, ThPt.baseChange, ThPt.dot]; ring
      · show wf 1 _ _ = (4 : K) * wf 4 S D; simp only [wf, ThPt.baseChange, ThPt.dot]; ring
      · show wf 2 _ _ = (4 : K) * wf 8 S D; simp only [wf, ThPt.baseChange, ThPt.dot]; ring
      · show wf 3 _ _ = (4 : K) * wf 6 S D; simp only [wf, ThPt.baseChange, ThPt.dot]; ring
      · show wf 4 _ _ = (4 : K) * wf 9 S D; simp only [wf, ThPt.baseChange, ThPt.dot]; ring
      · show wf 5 _ _ = (4 : K) * wf 3 S D; simp only [wf, ThPt.baseChange, ThPt.dot]; ring
      · show wf 6 _ _ = (4 : K) * wf 5 S D; simp only [wf, ThPt.baseChange, ThPt.dot]; ring
      · show wf 7 _ _ = (4 : K) * wf 2 S D; simp only [wf, ThPt.baseChange, ThPt.dot]; ring
      · show wf 8 _ _ = (-4 : K) * wf 7 S D; simp only [wf, ThPt.baseChange, ThPt.dot]; ring
      · show wf 9 _ _ = (-4 : K) * wf 1 S D; simp only [wf, ThPt.baseChange, ThPt.dot]; ring
  · refine ⟨_, rfl, ![0, 3, 2, 1, 4, 5, 8, 9, 6, 7], ![1, 1, 1, 1, 1, 1, 1, 1, 1, 1], by decide, rfl, ?_, ?_⟩
    · intro j; fin_cases j
      · show (1 : K) ≠ 0; exact n1
      · show (1 : K) ≠ 0; exact n1
      · show (1 : K) ≠ 0; exact n1
      · show (1 : K) ≠ 0; exact n1
      · show (1 : K) ≠ 0; exact n1
      · show (1 : K) ≠ 0; exact n1
      · show (1 : K) ≠ 0; exact n1
      · show (1 : K) ≠ 0; exact n1
      · show (1 : K) ≠ 0; exact n1
      · show (1 : K) ≠ 0; exact n1
    · intro j S D; fin_cases j
      · show wf 0 _ _ = (1 : K) * wf 0 S D; simp only [wf, ThPt.baseChange, ThPt.dot]; ring
      · show wf 1 _ _ = (1 : K) * wf 3 S D; simp only [wf, ThPt.baseChange, ThPt.dot]; ring
      · show wf 2 _ _ = (1 : K) * wf 2 S D; simp only [wf, ThPt.baseChange, ThPt.dot]; ring
      · show wf 3 _ _ = (1 : K) * wf 1 S D; simp only [wf, ThPt.baseChange, ThPt.dot]; ring
      · show wf 4 _ _ = (1 : K) * wf 4 S D; simp only [wf, ThPt.baseChange, ThPt.dot]; ring
      · show wf 5 _ _ = (1 : K) * wf 5 S D; simp only [wf, ThPt.baseChange, ThPt.dot]; ring
      · show wf 6 _ _ = (1 : K) * wf 8 S D; simp only [wf, ThPt.baseChange, ThPt.dot]; ring
      · show wf 7 _ _ = (1 : K) * wf 9 S D; simp only [wf, ThPt.baseChange, ThPt.dot]; ring
      · show wf 8 _ _ = (1 : K) * wf 6 S D; simp only [wf, ThPt.baseChange, ThPt.dot]; ring
      · show wf 9 _ _ = (1 : K) * wf 7 S D; simp only [wf, ThPt.baseChange, ThPt.dot]; ring
  · refine ⟨_, rfl, ![0, 8, 6, 4, 7, 1, 9, 3, 5, 2], ![4, 4, 4, 4, 4, 4, 4, 4, -4, -4], by decide, rfl, ?_, ?_⟩
    · intro j; fin_cases j
      · show (4 : K) ≠ 0; exact n4
      · show (4 : K) ≠ 0; exact n4
      · show (4 : K) ≠ 0; exact n4
      · show (4 : K) ≠ 0; exact n4
      · show (4 : K) ≠ 0; exact n4
      · show (4 : K) ≠ 0; exact n4
      · show (4 : K) ≠ 0; exact n4
      · show (4 : K) ≠ 0; exact n4
      · show (-4 : K) ≠ 0; exact n4m
      · show (-4 : K) ≠ 0; exact n4m
    · intro j S D; fin_cases j
      · show wf 0 _ _ = (4 : K) * wf 0 S D; simp only [wf, ThPt.baseChange, ThPt.dot]; ring
      · show wf 1 _ _ = (4 : K) * wf 8 S D; simp only [wf, ThPt.baseChange, ThPt.dot]; ring
      · show wf 2 _ _ = (4 : K) * wf 6 S D; simp only [wf, ThPt.baseChange, ThPt.dot]; ring
      · show wf 3 _ _ = (4 : K) * wf 4 S D; simp only [wf, ThPt.baseChange, ThPt.dot]; ring
      · show wf 4 _ _ = (4 : K) * wf 7 S D; simp only [wf, ThPt.baseChange, ThPt.dot]; ring
      · show wf 5 _ _ = (4 : K) * wf 1 S D; simp only [wf, ThPt.baseChange, ThPt.dot]; ring
      · show wf 6 _ _ = (4 : K) * wf 9 S D; simp only [wf, ThPt.baseChange, ThPt.dot]; ring
      · show wf 7 _ _ = (4 : K) * wf 3 S D; simp only [wf, ThPt.baseChange, ThPt.dot]; ring
      · show wf 8 _ _ = (-4 : K) * wf 5 S D; simp only [wf, ThPt.baseChange, ThPt.dot]; ring
      · show wf 9 _ _ = (-4 : K) * wf 2 S D; simp only [wf, ThPt.baseChange, ThPt.dot]; ring
  · refine ⟨_, rfl, ![0, 8, 6, 4, 1, 7, 3, 9, 2, 5], ![4, 4, 4, 4, 4, 4, 4, 4, 4, 4], by decide, rfl, ?_, ?_⟩
    · intro j; fin_cases j
      · show (4 : K) ≠ 0; exact n4
      · show (4 : K) ≠ 0; exact n4
      · show (4 : K) ≠ 0; exact n4
      · show (4 : K) ≠ 0; exact n4
      · show (4 : K) ≠ 0; exact n4
      · show (4 : K) ≠ 0; exact n4
      · show (4 : K) ≠ 0; exact n4
      · show (4 : K) ≠ 0; exact n4
      · show (4 : K) ≠ 0; exact n4
      · show (4 : K) ≠ 0; exact n4
    · intro j S D; fin_cases j
      · show wf 0 _ _ = (4 : K) * wf 0 S D; simp only [wf, ThPt.baseChange, ThPt.dot]; ring
      · show wf 1 _ _ = (4 : K) * wf 8 S D; simp only [wf, ThPt.baseChange, ThPt.dot]; ring
      · show wf 2 _ _ = (4 : K) * wf 6 S D; simp only [wf, ThPt.baseChange, ThPt.dot]; ring
      · show wf 3 _ _ = (4 : K) * wf 4 S D; simp only [wf, ThPt.baseChange, ThPt.dot]; ring
      · show wf 4 _ _ = (4 : K) * wf 1 S D; simp only [wf, ThPt.baseChange, ThPt.dot]; ring
      · show wf 5 _ _ = (4 : K) * wf 7 S D; simp only [wf, ThPt.baseChange, ThPt.dot]; ring
      · show wf 6 _ _ = (4 : K) * wf 3 S D; simp only [wf, ThPt.baseChange, ThPt.dot]; ring
      · show wf 7 _ _ = (4 : K) * wf 9 S D; simp only [wf, ThPt.baseChange, ThPt.dot]; ring
      · show wf 8 _ _ = (4 : K) * wf 2 S D; simp only [wf, ThPt.baseChange, ThPt.dot]; ring
      · show wf 9 _ _ = (4 : K) * wf 5 S D; simp only [wf, ThPt.baseChange, ThPt.dot]; ring
  · refine ⟨_, rfl, ![0, 4, 6, 8, 7, 1, 5, 2, 9, 3], ![4, 4, 4, 4, 4, 4, 4, 4, -4, -4], by decide, rfl, ?_, ?_⟩
    · intro j; fin_cases j
      · show (4 : K) ≠ 0; exact n4
      · show (4 : K) ≠ 0; exact n4
      · show (4 : K) ≠ 0; exact n4
      · show (4 : K) ≠ 0; exact n4
      · show (4 : K) ≠ 0; exact n4
      · show (4 : K) ≠ 0; exact n4
      · show (4 : K) ≠ 0; exact n4
      · show (4 : K) ≠ 0; exact n4
      · show (-4 : K) ≠ 0; exact n4m
      · show (-4 : K) ≠ 0; exact n4m
    · intro j S D; fin_cases j
      · show wf 0 _ _ = (4 : K) * wf 0 S D; simp only [wf, ThPt.baseChange, ThPt.dot]; ring
      · show wf 1 _ _ = (4 : K) * wf 4 S D; simp only [wf, ThPt.baseChange, ThPt.dot]; ring
      · show wf 2 _ _ = (4 : K) * wf 6 S D; simp only [wf, ThPt.baseChange, ThPt.dot]; ring
      · show wf 3 _ _ = (4 : K) * wf 8 S D; simp only [wf, ThPt.baseChange, ThPt.dot]; ring
      · show wf 4 _ _ = (4 : K) * wf 7 S D; simp only [wf, ThPt.baseChange, ThPt.dot]; ring
      · show wf 5 _ _ = (4 : K) * wf 1 S D; simp only [wf, ThPt.baseChange, ThPt.dot]; ring
      · show wf 6 _ _ = (4 : K) * wf 5 S D; simp only [wf, ThPt.baseChange, ThPt.dot]; ring
      · show wf 7 _ _ = (4 : K) * wf 2 S D; simp only [wf, ThPt.baseChange, ThPt.dot]; ring
      · show wf 8 _ _ = (-4 : K) * wf 9 S D; simp only [wf, ThPt.baseChange, ThPt.dot]; ring
      · show wf 9 _ _ = (-4 : K) * wf 3 S D; simp only [wf, ThPt.baseChange, ThPt.dot]; ring
  · refine ⟨_, rfl, ![0, 1, 2, 3, 4, 5, 6, 7, 8, 9], ![1, 1, 1, 1, 1, 1, 1, 1, 1, 1], by decide, rfl, ?_, ?_⟩
    · intro j; fin_cases j
      · show (1 : K) ≠ 0; exact n1
      · show (1 : K) ≠ 0; exact n1
      · show (1 : K) ≠ 0; exact n1
      · show (1 : K) ≠ 0; exact n1
      · show (1 : K) ≠ 0; exact n1
      · show (1 : K) ≠ 0; exact n1
      · show (1 : K) ≠ 0; exact n1
      · show (1 : K) ≠ 0; exact n1
      · show (1 : K) ≠ 0; exact n1
      · show (1 : K) ≠ 0; exact n1
    · intro j S D; fin_cases j
      · show wf 0 _ _ = (1 : K) * wf 0 S D; simp only [wf, ThPt.baseChange, ThPt.dot]; ring
      · show wf 1 _ _ = (1 : K) * wf 1 S D; simp only [wf, ThPt.baseChange, ThPt.dot]; ring
      · show wf 2 _ _ = (1 : K) * wf 2 S D; simp only [wf, ThPt.baseChange, ThPt.dot]; ring
      · show wf 3 _ _ = (1 : K) * wf 3 S D; simp only [wf, ThPt.baseChange, ThPt.dot]; ring
      · show wf 4 _ _ = (1 : K) * wf 4 S D; simp only [wf, ThPt.baseChange, ThPt.dot]; ring
      · show wf 5 _ _ = (1 : K) * wf 5 S D; simp only [wf, ThPt.baseChange, ThPt.dot]; ring
      · show wf 6 _ _ = (1 : K) * wf 6 S D; simp only [wf, ThPt.baseChange, ThPt.dot]; ring
      · show wf 7 _ _ = (1 : K) * wf 7 S D; simp only [wf, ThPt.baseChange, ThPt.dot]; ring
      · show wf 8 _ _ = (1 : K) * wf 8 S D; simp only [wf, ThPt.baseChange, ThPt.dot]; ring
      · show wf 9 _ _ = (1 : K) * wf 9 S D; simp only [wf, ThPt.baseChange, ThPt.dot]; ring

/-! ### Dimension one -/

/-- The three even forms in dimension one. -/
def wg (k : Fin 3) (s d : K × K) : K :=
  match k with
  | 0 => s.1 * d.1 + s.2 * d.2
  | 1 => s.1 * d.1 - s.2 * d.2
  | 2 => s.1 * d.2 + s.2 * d.1

/-- The Riemann relations in dimension one. -/
def Riem1 (o x y s d : K × K) : Prop :=
  ∃ c : K, c ≠ 0 ∧ ∀ k, wg k s d * wg k o o = c * (wg k x x * wg k y y)

/-- The form that is the product of two forms. -/
def wp : Fin 3 → Fin 3 → Fin 10
  | 0, 0 => 0 | 0, 1 => 1 | 1, 0 => 2 | 1, 1 => 3 | 0, 2 => 4 | 1, 2 => 5 | 2, 0 => 6 | 2, 1 => 7 | 2, 2 => 8

theorem wp_ne (a b : Fin 3) : wp a b ≠ 9 := by revert a b; decide

theorem wf_tensor (a b : Fin 3) (s s' d d' : K × K) :
    wf (wp a b) (ThPt.tensor s s') (ThPt.tensor d d') = wg a s d * wg b s' d' := by
  fin_cases a <;> fin_cases b <;> simp only [wf, wg, wp, ThPt.tensor] <;> ring

theorem wg_ne (h2 : (2 : K) ≠ 0) {x y : K × K} (hx : x ≠ (0, 0)) (hy : y ≠ (0, 0)) : ∃ k, wg k x x * wg k y y ≠ 0 := by
  have two : ∀ {x : K × K}, x ≠ (0, 0) → (wg 0 x x ≠ 0 ∧ wg 1 x x ≠ 0) ∨ (wg 0 x x ≠ 0 ∧ wg 2 x x ≠ 0) ∨
      (wg 1 x x ≠ 0 ∧ wg 2 x x ≠ 0) := by
    rintro ⟨a, b⟩ hx
    simp only [wg]
    have d : ∀ {z : K}, 2 * z ^ 2 = 0 → z = 0 := fun h => pow_eq_zero_iff (two_ne_zero) |>.mp ((mul_eq_zero.mp h).resolve_left h2)
    have p01 : a * a + b * b = 0 → a * a - b * b = 0 → False := fun h0 h1 => hx (by
      rw [d (by linear_combination h0 + h1 : 2 * a ^ 2 = 0), d (by linear_combination h0 - h1 : 2 * b ^ 2 = 0)])
    have ab : a * b + b * a = 0 → a = 0 ∨ b = 0 := fun h3 =>
      mul_eq_zero.mp ((mul_eq_zero.mp (by linear_combination h3 : 2 * (a * b) = 0)).resolve_left h2)
    have p02 : a * a + b * b = 0 → a * b + b * a = 0 → False := fun h0 h3 => hx (by
      rcases ab h3 with rfl | rfl
      · rw [d (by linear_combination 2 * h0 : 2 * b ^ 2 = 0)]
      · rw [d (by linear_combination 2 * h0 : 2 * a ^ 2 = 0)])
    have p12 : a * a - b * b = 0 → a * b + b * a = 0 → False := fun h1 h3 => hx (by
      rcases ab h3 with rfl | rfl
      · rw [d (by linear_combination -2 * h1 : 2 * b ^ 2 = 0)]
      · rw [d (by linear_combination 2 * h1 : 2 * a ^ 2 = 0)])
    tauto
  rcases two hx with ⟨a, b⟩ | ⟨a, b⟩ | ⟨a, b⟩ <;> rcases two hy with ⟨c, d⟩ | ⟨c, d⟩ | ⟨c, d⟩
  · exact ⟨0, mul_ne_zero a c⟩
  · exact ⟨0, mul_ne_zero a c⟩
  · exact ⟨1, mul_ne_zero b c⟩
  · exact ⟨0, mul_ne_zero a c⟩
  · exact ⟨0, mul_ne_zero a c⟩
  · exact ⟨2, mul_ne_zero b d⟩
  · exact ⟨1, mul_ne_zero a d⟩
  · exact ⟨2, mul_ne_zero b d⟩
  · exact ⟨1, mul_ne_zero a c⟩

/-- The relations on a product are those on the factors. -/
theorem Riem.split (h2 : (2 : K) ≠ 0) {o o' x x' y y' s s' d d' : K × K}
    (h : Riem (ThPt.tensor o o') (ThPt.tensor x x') (ThPt.tensor y y') (ThPt.tensor s s') (ThPt.tensor d d'))
    (hx : x ≠ (0, 0)) (hx' : x' ≠ (0, 0)) (hy : y ≠ (0, 0)) (hy' : y' ≠ (0, 0)) :
    Riem1 o x y s d ∧ Riem1 o' x' y' s' d' := by
  obtain ⟨c, hc, h⟩ := h
  obtain ⟨a, ha⟩ := wg_ne h2 hx hy
  obtain ⟨b, hb⟩ := wg_ne h2 hx' hy'
  have e : ∀ a b, (wg a s d * wg a o o) * (wg b s' d' * wg b o' o') =
      c * ((wg a x x * wg a y y) * (wg b x' x' * wg b y' y')) := by
    intro a b
    have := h (wp a b)
    simp only [wf_tensor] at this
    linear_combination this
  generalize hA : (fun a => wg a s d * wg a o o) = A at *
  generalize hA' : (fun a => wg a s' d' * wg a o' o') = A' at *
  generalize hB : (fun a => wg a x x * wg a y y) = B at *
  generalize hB' : (fun a => wg a x' x' * wg a y' y') = B' at *
  have fA : ∀ a, wg a s d * wg a o o = A a := fun a => congrFun hA a
  have fA' : ∀ a, wg a s' d' * wg a o' o' = A' a := fun a => congrFun hA' a
  have fB : ∀ a, wg a x x * wg a y y = B a := fun a => congrFun hB a
  have fB' : ∀ a, wg a x' x' * wg a y' y' = B' a := fun a => congrFun hB' a
  simp only [fA, fA', fB, fB'] at e ha hb
  have n := mul_ne_zero hc (mul_ne_zero ha hb)
  rw [← e a b] at n
  have nA := left_ne_zero_of_mul n
  have nA' := right_ne_zero_of_mul n
  refine ⟨⟨c * B' b / A' b, div_ne_zero (mul_ne_zero hc hb) nA', fun k => ?_⟩,
    ⟨c * B a / A a, div_ne_zero (mul_ne_zero hc ha) nA, fun k => ?_⟩⟩
  · rw [fA, fB, div_mul_eq_mul_div, eq_div_iff nA', e]; ring
  · rw [fA', fB', div_mul_eq_mul_div, eq_div_iff nA, mul_comm, e]; ring

/-- The relations in Montgomery coordinates. -/
theorem Riem1.biq {o x y s d : K × K} (h : Riem1 o x y s d) (h2 : (2 : K) ≠ 0) (ho : Null1 o) :
    Biq (nullToMontCoeff o) (thetaToMontPoint o x).X (thetaToMontPoint o x).Z (thetaToMontPoint o y).X
      (thetaToMontPoint o y).Z (thetaToMontPoint o s).X (thetaToMontPoint o s).Z (thetaToMontPoint o d).X
      (thetaToMontPoint o d).Z := by
  obtain ⟨a, b⟩ := o
  obtain ⟨x1, x2⟩ := x
  obtain ⟨y1, y2⟩ := y
  obtain ⟨s1, s2⟩ := s
  obtain ⟨d1, d2⟩ := d
  obtain ⟨ha, hb, hs, hd⟩ := ho
  simp only at ha hb hs hd
  obtain ⟨c, hc, h⟩ := h
  have e0 := h 0
  have e1 := h 1
  have e2 := h 2
  simp only [wg] at e0 e1 e2
  have n4 := four_ne h2
  have hab := mul_ne_zero ha hb
  have e2 : (s1 * d2 + s2 * d1) * (a * b) = c * (2 * (x1 * x2) * (y1 * y2)) := by
    apply mul_left_cancel₀ h2; linear_combination e2
  refine ⟨c / (4 * (a * b) ^ 2), div_ne_zero hc (mul_ne_zero n4 (pow_ne_zero 2 hab)), ?_, ?_, ?_⟩
  · simp only [thetaToMontPoint]
    rw [div_mul_eq_mul_div, eq_div_iff (mul_ne_zero n4 (pow_ne_zero 2 hab))]
    linear_combination (2 * (a * b) ^ 2) * (e0 - e1 + 2 * e2)
  · simp only [thetaToMontPoint]
    rw [div_mul_eq_mul_div, eq_div_iff (mul_ne_zero n4 (pow_ne_zero 2 hab))]
    linear_combination (2 * (a * b) ^ 2) * (e0 - e1 - 2 * e2)
  · have hs' : a * a + b * b ≠ 0 := by convert hs using 1; ring
    have hd' : a * a - b * b ≠ 0 := by convert hd using 1; ring
    simp only [thetaToMontPoint, nullToMontCoeff]
    apply mul_left_cancel₀ (mul_ne_zero hs' hd')
    have : ∀ P : K, (a * a + b * b) * (a * a - b * b) * (c / (4 * (a * b) ^ 2) * (2 * (P + 2 * (-((a * a + b * b) * (a * a + b * b) +
        (a * a - b * b) * (a * a - b * b)) / ((a * a + b * b) * (a * a - b * b))) * ((a * x2 + b * x1) * (a * y2 + b * y1) * ((a * x2 - b * x1) * (a * y2 - b * y1))))))
        = c / (4 * (a * b) ^ 2) * (2 * (P * ((a * a + b * b) * (a * a - b * b)) - 2 * ((a * a + b * b) * (a * a + b * b) +
        (a * a - b * b) * (a * a - b * b)) * ((a * x2 + b * x1) * (a * y2 + b * y1) * ((a * x2 - b * x1) * (a * y2 - b * y1))))) := by
      intro P
      generalize a * a + b * b = u at *
      generalize a * a - b * b = v at *
      generalize ((a * x2 + b * x1) * (a * y2 + b * y1) * ((a * x2 - b * x1) * (a * y2 - b * y1))) = w
      field_simp
      ring
    rw [this, div_mul_eq_mul_div, eq_div_iff (mul_ne_zero n4 (pow_ne_zero 2 hab))]
    linear_combination 4 * (a * b) ^ 2 * ((a * a - b * b) ^ 2 * e0 - (a * a + b * b) ^ 2 * e1)

theorem theta_ne {o u : K × K} (h2 : (2 : K) ≠ 0) (ho : Null1 o) (hu : u ≠ (0, 0)) :
    (thetaToMontPoint o u).X ≠ 0 ∨ (thetaToMontPoint o u).Z ≠ 0 := by
  by_contra hc
  simp only [not_or, not_not, thetaToMontPoint] at hc
  obtain ⟨x, z⟩ := hc
  apply hu
  obtain ⟨u1, u2⟩ := u
  simp only [Prod.mk.injEq]
  constructor
  · refine mul_left_cancel₀ (mul_ne_zero h2 ho.b) ?_
    linear_combination x - z
  · refine mul_left_cancel₀ (mul_ne_zero h2 ho.a) ?_
    linear_combination x + z

/-- Sum and difference on one factor. -/
theorem Riem1.krep [DecidableEq K] {o x y s d : K × K} (h : Riem1 o x y s d) (h2 : (2 : K) ≠ 0) (ho : Null1 o)
    (hs : s ≠ (0, 0)) {A : K} (hA : A = nullToMontCoeff o) {f g : MPoint A}
    (hf : KRep (thetaToMontPoint o x).X (thetaToMontPoint o x).Z f)
    (hg : KRep (thetaToMontPoint o y).X (thetaToMontPoint o y).Z g) :
    KRep (thetaToMontPoint o s).X (thetaToMontPoint o s).Z (f + g) ∧
        KRep (thetaToMontPoint o d).X (thetaToMontPoint o d).Z (f - g) ∨
      KRep (thetaToMontPoint o s).X (thetaToMontPoint o s).Z (f - g) ∧
        KRep (thetaToMontPoint o d).X (thetaToMontPoint o d).Z (f + g) := by
  subst hA
  exact biq_krep h2 hf hg (h.biq h2 ho) (theta_ne h2 ho hs)

end Festa

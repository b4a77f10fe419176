import Verif.Model.Supersingular
import Verif.Lemmas.DLog
import Verif.Lemmas.ECLadder
import Mathlib.Algebra.BigOperators.Intervals
/-! The order tests of `supersingular.rs`. -/
namespace Festa

section generic
variable {G H : Type*} [AddCommMonoid H] (R : G → H → Prop) (pw : G → Nat → Option G)

/-- The product of `pis[j]` for `lower ≤ j < upper`, `j ≠ i`. -/
def coProd (pis : List Nat) (lower upper i : Nat) : Nat :=
  ∏ j ∈ (Finset.Ico lower upper).erase i, pis.getD j 1

theorem slicePi_eq (pis : List Nat) (lower upper : Nat) (h : upper ≤ pis.length) (hl : lower ≤ upper) :
    slicePi pis lower upper = some (∏ j ∈ Finset.Ico lower upper, pis.getD j 1) := by
  unfold slicePi
  rw [if_pos h]
  congr 1
  induction upper, hl using Nat.le_induction with
  | base => simp
  | succ u hu ih =>
    rw [Finset.prod_Ico_succ_top hu, ← ih (by omega), show u + 1 - lower = (u - lower) + 1 by omega,
      List.take_add_one, List.prod_append, List.getElem?_drop, show lower + (u - lower) = u by omega]
    congr 1
    rw [List.getD_eq_getElem?_getD, List.getElem?_eq_getElem (by omega)]
    simp

theorem coProd_left (pis : List Nat) {lower mid upper i : Nat} (h1 : lower ≤ i) (h2 : i < mid)
    (h3 : mid ≤ upper) : coProd pis lower upper i =
      coProd pis lower mid i * ∏ j ∈ Finset.Ico mid upper, pis.getD j 1 := by
  unfold coProd
  rw [← Finset.prod_union]
  · congr 1
    ext j
    simp only [Finset.mem_erase, Finset.mem_Ico, Finset.mem_union]
    omega
  · rw [Finset.disjoint_left]
    intro j
    simp only [Finset.mem_erase, Finset.mem_Ico]
    omega

theorem coProd_right (pis : List Nat) {lower mid upper i : Nat} (h1 : lower ≤ mid) (h2 : mid ≤ i)
    (h3 : i < upper) : coProd pis lower upper i =
      coProd pis mid upper i * ∏ j ∈ Finset.Ico lower mid, pis.getD j 1 := by
  unfold coProd
  rw [← Finset.prod_union]
  · congr 1
    ext j
    simp only [Finset.mem_erase, Finset.mem_Ico, Finset.mem_union]
    omega
  · rw [Finset.disjoint_left]
    intro j
    simp only [Finset.mem_erase, Finset.mem_Ico]
    omega

theorem batch_spec (hpw : ∀ x h n, R x h → ∃ y, pw x n = some y ∧ R y (n • h)) (pis : List Nat)
    (k lower upper : Nat) (hk : upper - lower = k) (hlt : lower < upper) (hu : upper ≤ pis.length)
    (g : List G) (hlen : g.length = pis.length) (x : G) (h : H) (hx : g[lower]? = some x)
    (hxh : R x h) :
    ∃ g', batchCofactor pw pis lower upper g = some g' ∧ g'.length = g.length ∧
      (∀ i, i < lower ∨ upper ≤ i → g'[i]? = g[i]?) ∧
      ∀ i, lower ≤ i → i < upper → ∃ y, g'[i]? = some y ∧ R y (coProd pis lower upper i • h) := by
  induction k using Nat.strong_induction_on generalizing lower upper g x h with
  | _ k ih =>
    unfold batchCofactor
    rw [if_neg (by omega)]
    by_cases h1 : upper - lower = 1
    · rw [if_pos h1]
      refine ⟨g, rfl, rfl, fun _ _ => rfl, fun i hi1 hi2 => ⟨x, ?_, ?_⟩⟩
      · rw [show i = lower by omega]; exact hx
      · have : coProd pis lower upper i = 1 := by
          unfold coProd
          apply Finset.prod_eq_one
          intro j hj
          simp only [Finset.mem_erase, Finset.mem_Ico] at hj
          omega
        rw [this, one_nsmul]; exact hxh
    · rw [if_neg h1, dif_neg (by omega)]
      obtain ⟨mid, hmid⟩ : ∃ mid, mid = lower + (upper - lower + 1) / 2 := ⟨_, rfl⟩
      have hm1 : lower < mid := by omega
      have hm2 : mid < upper := by omega
      simp only [← hmid]
      rw [slicePi_eq pis lower mid (by omega) hm1.le, slicePi_eq pis mid upper hu hm2.le, hx]
      obtain ⟨y, hy1, hy2⟩ := hpw x h (∏ j ∈ Finset.Ico lower mid, pis.getD j 1) hxh
      obtain ⟨z, hz1, hz2⟩ := hpw x h (∏ j ∈ Finset.Ico mid upper, pis.getD j 1) hxh
      dsimp only
      rw [hy1, hz1]
      dsimp only
      rw [if_pos (by omega)]
      obtain ⟨g1, e1, l1, o1, p1⟩ := ih (mid - lower) (by omega) lower mid rfl hm1 (by omega)
        ((g.set mid y).set lower z) (by simpa using hlen) z _
        (by rw [List.getElem?_set_self (by simp; omega)]) hz2
      rw [e1]
      dsimp only
      obtain ⟨g2, e2, l2, o2, p2⟩ := ih (upper - mid) (by omega) mid upper rfl hm2 hu g1
        (by rw [l1]; simpa using hlen) y _
        (by rw [o1 mid (Or.inr le_rfl), List.getElem?_set_ne (by omega),
              List.getElem?_set_self (by omega)]) hy2
      refine ⟨g2, e2, by rw [l2, l1]; simp, fun i hi => ?_, fun i hi1 hi2 => ?_⟩
      · rw [o2 i (by omega), o1 i (by omega), List.getElem?_set_ne (by omega),
          List.getElem?_set_ne (by omega)]
      · by_cases hi : i < mid
        · obtain ⟨w, hw1, hw2⟩ := p1 i hi1 hi
          refine ⟨w, by rw [o2 i (Or.inl hi), hw1], ?_⟩
          rw [← mul_nsmul', ← coProd_left pis hi1 hi hm2.le] at hw2
          exact hw2
        · obtain ⟨w, hw1, hw2⟩ := p2 i (by omega) hi2
          refine ⟨w, hw1, ?_⟩
          rw [← mul_nsmul', ← coProd_right pis hm1.le (by omega) hi2] at hw2
          exact hw2

theorem topAndPrimes_spec (fs : Factored) (he : ∀ p ∈ fs, p.2 ≠ 0) (top : Nat) (pis : List Nat) :
    topAndPrimes fs top pis = some (top * (fs.map (fun p => p.1.toNat ^ (p.2.toNat - 1))).prod,
      pis ++ fs.map (fun p => p.1.toNat)) := by
  induction fs generalizing top pis with
  | nil => simp [topAndPrimes]
  | cons p fs ih =>
    obtain ⟨l, e⟩ := p
    unfold topAndPrimes
    rw [if_neg (he _ List.mem_cons_self), ih (fun q hq => he q (List.mem_cons_of_mem _ hq))]
    simp [mul_assoc]

theorem topAndPrimes_none (fs : Factored) (he : ∃ p ∈ fs, p.2 = 0) (top : Nat) (pis : List Nat) :
    topAndPrimes fs top pis = none := by
  induction fs generalizing top pis with
  | nil => obtain ⟨p, hp, _⟩ := he; simp at hp
  | cons p fs ih =>
    obtain ⟨l, e⟩ := p
    unfold topAndPrimes
    by_cases h : e = 0
    · rw [if_pos h]
    · rw [if_neg h]
      refine ih ?_ _ _
      obtain ⟨q, hq, hq0⟩ := he
      rcases List.mem_cons.mp hq with rfl | hq
      · exact absurd hq0 h
      · exact ⟨q, hq, hq0⟩

theorem top_mul (fs : Factored) (he : ∀ p ∈ fs, p.2 ≠ 0) :
    fs.value = (fs.map (fun p => p.1.toNat ^ (p.2.toNat - 1))).prod *
      (fs.map (fun p => p.1.toNat)).prod := by
  rw [value_eq]
  induction fs with
  | nil => simp
  | cons p fs ih =>
    rw [List.map_cons, List.map_cons, List.map_cons, List.prod_cons, List.prod_cons, List.prod_cons,
      ih (fun q hq => he q (List.mem_cons_of_mem _ hq))]
    have h0 : p.2.toNat ≠ 0 := fun h => he p List.mem_cons_self (UInt32.toNat_inj.mp h)
    have : p.1.toNat ^ p.2.toNat = p.1.toNat ^ (p.2.toNat - 1) * p.1.toNat := by
      rw [← pow_succ, Nat.sub_add_cancel (by omega)]
    rw [this]; ring

theorem coProd_mul (pis : List Nat) (i : Nat) (hi : i < pis.length) :
    coProd pis 0 pis.length i * pis[i] = pis.prod := by
  have h := slicePi_eq pis 0 pis.length le_rfl (Nat.zero_le _)
  unfold slicePi at h
  rw [if_pos le_rfl] at h
  simp only [List.drop_zero, Nat.sub_zero, List.take_length, Option.some.injEq] at h
  rw [h, coProd, ← Finset.prod_erase_mul _ _ (show i ∈ Finset.Ico 0 pis.length by simp; exact hi)]
  congr 1
  rw [List.getD_eq_getElem?_getD, List.getElem?_eq_getElem hi]; rfl

theorem foldl_and {G : Type*} (f : G → Bool) (l : List G) (b : Bool) :
    l.foldl (fun s x => s && f x) b = (b && l.all f) := by
  induction l generalizing b with
  | nil => simp
  | cons x l ih => simp [ih, Bool.and_assoc]

/-- The test answers whether all `(D/l)`-multiples are nonzero. -/
theorem orderTest_spec (hpw : ∀ x h n, R x h → ∃ y, pw x n = some y ∧ R y (n • h))
    (isId : G → Bool) (hid : ∀ x h, R x h → (isId x = true ↔ h = 0)) (e0 v : G) (h : H) (hv : R v h)
    (fs : Factored) (hne : fs ≠ []) (he : ∀ p ∈ fs, p.2 ≠ 0) (hl : ∀ p ∈ fs, p.1 ≠ 0) :
    ∃ b, orderTest pw isId e0 v fs = some b ∧
      (b = true ↔ ∀ p ∈ fs, (fs.value / p.1.toNat) • h ≠ 0) := by
  obtain ⟨top, htop⟩ : ∃ t, t = (fs.map (fun p => p.1.toNat ^ (p.2.toNat - 1))).prod := ⟨_, rfl⟩
  obtain ⟨pis, hpis⟩ : ∃ t, t = fs.map (fun p => p.1.toNat) := ⟨_, rfl⟩
  have hlen : pis.length = fs.length := by rw [hpis, List.length_map]
  have hpos : 0 < fs.length := List.length_pos_iff.mpr hne
  have hdiv : ∀ i (hi : i < fs.length), fs.value / fs[i].1.toNat = top * coProd pis 0 pis.length i := by
    intro i hi
    have hc := coProd_mul pis i (by omega)
    have e1 : pis[i]'(by omega) = fs[i].1.toNat := by simp [hpis]
    rw [e1] at hc
    have h0 : fs[i].1.toNat ≠ 0 := fun h => hl _ (List.getElem_mem hi) (UInt32.toNat_inj.mp h)
    rw [top_mul fs he, ← htop, ← hpis, ← hc, ← mul_assoc]
    exact Nat.mul_div_cancel _ (Nat.pos_of_ne_zero h0)
  unfold orderTest
  rw [topAndPrimes_spec fs he, one_mul, List.nil_append, ← htop, ← hpis]
  dsimp only
  obtain ⟨gt, hg1, hg2⟩ := hpw v h top hv
  rw [hg1]
  dsimp only
  by_cases hz : isId gt = true
  · rw [if_pos hz]
    refine ⟨false, rfl, ?_⟩
    simp only [Bool.false_eq_true, false_iff, not_forall]
    refine ⟨fs[0], List.getElem_mem hpos, ?_⟩
    rw [hdiv 0 hpos, not_not, mul_comm, mul_nsmul', (hid _ _ hg2).mp hz, nsmul_zero]
  · rw [if_neg hz, if_neg (by omega)]
    by_cases h1 : pis.length > 1
    · rw [if_pos h1]
      obtain ⟨g', e', l', -, p'⟩ := batch_spec R pw hpw pis _ 0 pis.length rfl (by omega) le_rfl
        ((List.replicate pis.length e0).set 0 gt) (by simp) gt _
        (by rw [List.getElem?_set_self (by simp; omega)]) hg2
      rw [e']
      refine ⟨_, rfl, ?_⟩
      rw [foldl_and, Bool.true_and, List.all_eq_true]
      have hl' : g'.length = pis.length := by rw [l']; simp
      constructor
      · intro hall p hp
        obtain ⟨i, hi, rfl⟩ := List.mem_iff_getElem.mp hp
        obtain ⟨y, hy1, hy2⟩ := p' i (Nat.zero_le _) (by omega)
        have := hall y (List.mem_of_getElem? hy1)
        rw [hdiv i hi, mul_comm, mul_nsmul']
        intro h0
        have := (hid _ _ hy2).mpr h0
        simp_all
      · intro hall x hx
        obtain ⟨i, hi, rfl⟩ := List.mem_iff_getElem.mp hx
        obtain ⟨y, hy1, hy2⟩ := p' i (Nat.zero_le _) (by omega)
        have hi' : i < fs.length := by omega
        have := hall _ (List.getElem_mem hi')
        rw [hdiv i hi', mul_comm, mul_nsmul'] at this
        rw [List.getElem?_eq_getElem hi, Option.some.injEq] at hy1
        rw [hy1]
        have hn : ¬ (isId y = true) := fun h0 => this ((hid _ _ hy2).mp h0)
        simpa using hn
    · rw [if_neg h1]
      refine ⟨true, rfl, ?_⟩
      simp only [true_iff]
      intro p hp
      obtain ⟨i, hi, rfl⟩ := List.mem_iff_getElem.mp hp
      have hi0 : i = 0 := by omega
      subst hi0
      have hc : coProd pis 0 pis.length 0 = 1 := by
        unfold coProd
        apply Finset.prod_eq_one
        intro j hj
        simp only [Finset.mem_erase, Finset.mem_Ico] at hj
        omega
      rw [hdiv 0 hpos, hc, mul_one]
      intro h0
      exact hz ((hid _ _ hg2).mpr h0)

/-- For an element killed by `D` the test decides whether its order is `D`. -/
theorem order_iff {H : Type*} [AddCommGroup H] (h : H) (fs : Factored) (hd : fs.Distinct)
    (he : ∀ p ∈ fs, p.2 ≠ 0) (h0 : fs.value • h = 0) :
    (∀ p ∈ fs, (fs.value / p.1.toNat) • h ≠ 0) ↔ addOrderOf h = fs.value := by
  have hpos : 0 < fs.value := value_pos (fun p hp => (hd.1 p hp).ne_zero)
  constructor
  · intro hall
    refine addOrderOf_eq_of_nsmul_and_div_prime_nsmul hpos h0 (fun q hq hqd => ?_)
    rw [value_eq, Prime.dvd_prod_iff hq.prime] at hqd
    obtain ⟨a, ha, hqa⟩ := hqd
    obtain ⟨p, hp, rfl⟩ := List.mem_map.mp ha
    have : q = p.1.toNat := (Nat.prime_dvd_prime_iff_eq hq (hd.1 p hp)).mp (hq.dvd_of_dvd_pow hqa)
    rw [this]
    exact hall p hp
  · intro ho p hp hz
    have hdvd := addOrderOf_dvd_of_nsmul_eq_zero hz
    rw [ho] at hdvd
    have hpd : p.1.toNat ∣ fs.value :=
      (dvd_pow_self _ (fun h => he p hp (UInt32.toNat_inj.mp h))).trans (dvd_value hp)
    have hlt : fs.value / p.1.toNat < fs.value := Nat.div_lt_self hpos (hd.1 p hp).one_lt
    have hpos' : 0 < fs.value / p.1.toNat := Nat.div_pos (Nat.le_of_dvd hpos hpd) (hd.1 p hp).pos
    exact absurd (Nat.le_of_dvd hpos' hdvd) (by omega)

end generic

end Festa

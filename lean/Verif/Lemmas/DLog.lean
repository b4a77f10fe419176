import Verif.Model.DLog
import Mathlib.Data.Int.GCD
import Mathlib.Data.Nat.ModEq
import Mathlib.Data.Nat.ChineseRemainder
import Mathlib.GroupTheory.OrderOfElement
import Mathlib.Tactic.Ring
import Mathlib.Tactic.FieldSimp
import Mathlib.Tactic.LinearCombination
/-! The discrete logarithm code. -/
namespace Festa

/-! ### Extended gcd -/

theorem xgcdLoop_spec (a b : Nat) (m n : Nat) (s1 t1 s2 t2 : Int)
    (hm : (m : Int) = s1 * a + t1 * b) (hn : (n : Int) = s2 * a + t2 * b) :
    ∃ t : Int, (Nat.gcd m n : Int) = xgcdLoop m n s1 t1 s2 t2 * a + t * b := by
  induction n using Nat.strong_induction_on generalizing m s1 t1 s2 t2 with
  | _ n ih =>
    unfold xgcdLoop
    by_cases h : n = 0
    · rw [dif_pos h, h, Nat.gcd_zero_right]
      exact ⟨t1, hm⟩
    · rw [dif_neg h]
      have hr : m - m / n * n = m % n := by
        have h1 := Nat.div_add_mod m n
        rw [Nat.mul_comm] at h1
        omega
      simp only [hr]
      have hlt := Nat.mod_lt m (Nat.pos_of_ne_zero h)
      obtain ⟨t, ht⟩ := ih (m % n) hlt n s2 t2 (s1 - (m / n : Nat) * s2) (t1 - (m / n : Nat) * t2) hn
        (by
          have e : ((m % n : Nat) : Int) = m - (n : Int) * ((m / n : Nat) : Int) := by
            have := Nat.div_add_mod m n
            have h2 : ((n * (m / n) + m % n : Nat) : Int) = m := by rw [this]
            push_cast at h2
            push_cast
            linear_combination h2
          rw [e, hm, hn]; ring)
      refine ⟨t, ?_⟩
      rw [← ht, Nat.gcd_comm m n, Nat.gcd_rec n m, Nat.gcd_comm]

theorem xgcdBig_spec (a b : Nat) (hb : b ≠ 0) :
    ∃ r, xgcdBig a b = some r ∧ r < b ∧ a * r ≡ Nat.gcd a b [MOD b] := by
  unfold xgcdBig
  obtain ⟨s, t, hs, hst⟩ : ∃ s t : Int, s = (if a < b then xgcdLoop b a 0 1 1 0 else xgcdLoop a b 1 0 0 1) ∧
      (Nat.gcd a b : Int) = s * a + t * b := by
    by_cases h : a < b
    · obtain ⟨t, ht⟩ := xgcdLoop_spec a b b a 0 1 1 0 (by ring) (by ring)
      exact ⟨_, t, rfl, by rw [if_pos h, ← ht, Nat.gcd_comm]⟩
    · obtain ⟨t, ht⟩ := xgcdLoop_spec a b a b 1 0 0 1 (by ring) (by ring)
      exact ⟨_, t, rfl, by rw [if_neg h, ← ht]⟩
  simp only [if_neg hb, ← hs]
  have hb' : (0 : Int) < b := by omega
  have hnorm : (if s.tmod b < 0 then s.tmod b + b else s.tmod b) = s % (b : Int) := by
    have h1 := Int.emod_nonneg s (show (b : Int) ≠ 0 by omega)
    have h2 := Int.emod_lt_of_pos s hb'
    have h3 := Int.mul_tdiv_add_tmod s b
    have h4 := Int.mul_ediv_add_emod s b
    have h5 := Int.tmod_lt_of_pos s hb'
    have h6 : -(b : Int) < s.tmod b := Int.lt_tmod_of_pos s hb'
    have key : ∀ x : Int, 0 ≤ x → x < b → (∃ q, s = b * q + x) → x = s % b := by
      rintro x hx0 hx1 ⟨q, hq⟩
      rw [hq, Int.add_comm, Int.add_mul_emod_self_left, Int.emod_eq_of_lt hx0 hx1]
    by_cases hneg : s.tmod b < 0
    · rw [if_pos hneg]
      exact key _ (by omega) (by omega) ⟨s.tdiv b - 1, by linear_combination -h3⟩
    · rw [if_neg hneg]
      exact key _ (by omega) (by omega) ⟨s.tdiv b, by linear_combination -h3⟩
  rw [hnorm]
  have h1 := Int.emod_nonneg s (show (b : Int) ≠ 0 by omega)
  have h2 := Int.emod_lt_of_pos s hb'
  refine ⟨_, rfl, by omega, ?_⟩
  rw [← Int.natCast_modEq_iff]
  push_cast
  rw [Int.toNat_of_nonneg h1, hst]
  have e : (a : Int) * (s % b) ≡ a * s [ZMOD b] := (Int.mod_modEq s b).mul_left _
  refine e.trans ?_
  refine (Int.modEq_iff_dvd).mpr ⟨t, ?_⟩
  ring

/-! ### Chinese remaindering -/

theorem foldl_value (fs : Factored) (c : Nat) :
    fs.foldl (fun s p => s * p.1.toNat ^ p.2.toNat) c =
      c * (fs.map (fun p => p.1.toNat ^ p.2.toNat)).prod := by
  induction fs generalizing c with
  | nil => simp
  | cons p fs ih => rw [List.foldl_cons, ih, List.map_cons, List.prod_cons]; ring

theorem value_eq (fs : Factored) : fs.value = (fs.map (fun p => p.1.toNat ^ p.2.toNat)).prod := by
  unfold Factored.value; rw [foldl_value, one_mul]

theorem foldl_cof (fs : Factored) (l : UInt32) (c : Nat) :
    fs.foldl (fun c p => if p.1 ≠ l then c * p.1.toNat ^ p.2.toNat else c) c =
      c * ((fs.filter (fun p => p.1 ≠ l)).map (fun p => p.1.toNat ^ p.2.toNat)).prod := by
  induction fs generalizing c with
  | nil => simp
  | cons p fs ih =>
    rw [List.foldl_cons, ih]
    by_cases h : p.1 = l
    · simp [h]
    · simp [h]; ring

theorem cof_eq (fs : Factored) (l : UInt32) : crtCofactor fs l =
    ((fs.filter (fun p => p.1 ≠ l)).map (fun p => p.1.toNat ^ p.2.toNat)).prod := by
  unfold crtCofactor; rw [foldl_cof, one_mul]

/-- Pairwise distinct primes. -/
def Factored.Distinct (fs : Factored) : Prop :=
  (∀ p ∈ fs, Nat.Prime p.1.toNat) ∧ (fs.map Prod.fst).Nodup

theorem cof_coprime {fs : Factored} (h : fs.Distinct) {l e : UInt32} (hl : Nat.Prime l.toNat) :
    Nat.Coprime (crtCofactor fs l) (l.toNat ^ e.toNat) := by
  rw [cof_eq]
  apply Nat.Coprime.symm
  rw [Nat.coprime_list_prod_right_iff]
  intro n hn
  simp only [List.mem_map, List.mem_filter] at hn
  obtain ⟨p, ⟨hp, hne⟩, rfl⟩ := hn
  apply Nat.Coprime.pow
  rw [Nat.coprime_primes hl (h.1 p hp)]
  intro he
  simp only [decide_not, Bool.not_eq_eq_eq_not, Bool.not_true, decide_eq_false_iff_not] at hne
  exact hne (UInt32.toNat_inj.mp he.symm)

theorem dvd_cof {fs : Factored} {l : UInt32} {q : UInt32 × UInt32} (hq : q ∈ fs) (hne : q.1 ≠ l) :
    q.1.toNat ^ q.2.toNat ∣ crtCofactor fs l := by
  rw [cof_eq]
  apply List.dvd_prod
  rw [List.mem_map]
  exact ⟨q, by simp [List.mem_filter, hq, hne], rfl⟩

theorem dvd_value {fs : Factored} {q : UInt32 × UInt32} (hq : q ∈ fs) :
    q.1.toNat ^ q.2.toNat ∣ fs.value := by
  rw [value_eq]
  exact List.dvd_prod (List.mem_map_of_mem hq)

theorem value_pos {fs : Factored} (h : ∀ p ∈ fs, p.1.toNat ≠ 0) : 0 < fs.value := by
  rw [value_eq]
  apply Nat.pos_of_ne_zero
  apply List.prod_ne_zero
  intro h0
  rw [List.mem_map] at h0
  obtain ⟨p, hp, e⟩ := h0
  exact pow_ne_zero _ (h p hp) e

theorem eq_of_fst {fs : Factored} (h : (fs.map Prod.fst).Nodup) {p q : UInt32 × UInt32}
    (hp : p ∈ fs) (hq : q ∈ fs) (e : p.1 = q.1) : p = q := by
  exact List.inj_on_of_nodup_map h hp hq e

theorem crtLoop_spec {fs : Factored} (h : fs.Distinct) :
    ∀ (s : Factored) (rs : List Nat) (acc : Nat), (∀ p ∈ s, p ∈ fs) → s.Nodup →
      s.length ≤ rs.length → acc < fs.value →
      ∃ x, crtLoop fs fs.value s rs acc = some x ∧ x < fs.value ∧
        (∀ q ∈ fs, q ∉ s → x ≡ acc [MOD q.1.toNat ^ q.2.toNat]) ∧
        (∀ qr ∈ s.zip rs, x ≡ acc + qr.2 [MOD qr.1.1.toNat ^ qr.1.2.toNat]) := by
  have hpos : 0 < fs.value := value_pos (fun p hp => (h.1 p hp).ne_zero)
  intro s
  induction s with
  | nil =>
    intro rs acc _ _ _ hacc
    exact ⟨acc, rfl, hacc, fun _ _ _ => rfl, by simp⟩
  | cons p s ih =>
    obtain ⟨l, e⟩ := p
    intro rs acc hs hnd hlen hacc
    rcases rs with _ | ⟨r, rs⟩
    · simp at hlen
    have hmem : (l, e) ∈ fs := hs _ List.mem_cons_self
    have hl : Nat.Prime l.toNat := h.1 _ hmem
    obtain ⟨inv, hinv, -, hcong⟩ := xgcdBig_spec (crtCofactor fs l) (l.toNat ^ e.toNat)
      (pow_ne_zero _ hl.ne_zero)
    rw [(cof_coprime h hl)] at hcong
    rw [List.nodup_cons] at hnd
    have hnew := Nat.mod_lt (acc + r * inv * crtCofactor fs l) hpos
    obtain ⟨x, hx1, hx2, hx3, hx4⟩ := ih rs ((acc + r * inv * crtCofactor fs l) % fs.value)
      (fun q hq => hs q (List.mem_cons_of_mem _ hq)) hnd.2 (by simpa using hlen) hnew
    have same : ∀ q ∈ fs, q.1 ≠ l →
        (acc + r * inv * crtCofactor fs l) % fs.value ≡ acc [MOD q.1.toNat ^ q.2.toNat] := by
      intro q hq hne
      refine ((Nat.mod_modEq _ _).of_dvd (dvd_value hq)).trans ?_
      have hd : r * inv * crtCofactor fs l ≡ 0 [MOD q.1.toNat ^ q.2.toNat] :=
        (Nat.modEq_zero_iff_dvd).mpr ((dvd_cof hq hne).mul_left _)
      simpa using (Nat.ModEq.refl acc).add hd
    have ne_of : ∀ q ∈ fs, q ≠ (l, e) → q.1 ≠ l := by
      intro q hq hne he
      exact hne (eq_of_fst h.2 hq hmem he)
    refine ⟨x, ?_, hx2, ?_, ?_⟩
    · have e1 : crtLoop fs fs.value ((l, e) :: s) (r :: rs) acc =
          crtLoop fs fs.value s rs ((acc + r * inv * crtCofactor fs l) % fs.value) := by
        simp only [crtLoop, hinv, if_neg hpos.ne']
      rw [e1, hx1]
    · intro q hq hns
      rw [List.mem_cons, not_or] at hns
      exact (hx3 q hq hns.2).trans (same q hq (ne_of q hq hns.1))
    · intro qr hqr
      rw [List.zip_cons_cons, List.mem_cons] at hqr
      rcases hqr with rfl | hqr
      · refine (hx3 _ hmem hnd.1).trans ?_
        refine ((Nat.mod_modEq _ _).of_dvd (dvd_value hmem)).trans ?_
        have : r * inv * crtCofactor fs l ≡ r [MOD l.toNat ^ e.toNat] := by
          have := hcong.mul_left r
          rw [mul_one] at this
          refine Nat.ModEq.trans ?_ this
          rw [show r * inv * crtCofactor fs l = r * (crtCofactor fs l * inv) by ring]
        exact (Nat.ModEq.refl acc).add this
      · have hqs : qr.1 ∈ s := (List.of_mem_zip hqr).1
        have hqf := hs _ (List.mem_cons_of_mem _ hqs)
        have hne : qr.1 ≠ (l, e) := fun he => hnd.1 (he ▸ hqs)
        exact (hx4 qr hqr).trans ((same _ hqf (ne_of _ hqf hne)).add (Nat.ModEq.refl _))

/-- Congruence modulo all factors gives congruence modulo the product. -/
theorem modEq_value {fs : Factored} (h : fs.Distinct) {x y : Nat}
    (hxy : ∀ q ∈ fs, x ≡ y [MOD q.1.toNat ^ q.2.toNat]) : x ≡ y [MOD fs.value] := by
  rw [value_eq]
  refine (Nat.modEq_list_map_prod_iff (s := fun p : UInt32 × UInt32 => p.1.toNat ^ p.2.toNat) ?_).mpr hxy
  have h2 := List.pairwise_map.mp h.2
  exact h2.imp_of_mem (fun {p q} hp hq hne => Nat.Coprime.pow _ _ ((Nat.coprime_primes (h.1 p hp)
    (h.1 q hq)).mpr (fun e => hne (UInt32.toNat_inj.mp e))))

theorem computeCrt_spec {fs : Factored} (h : fs.Distinct) (rs : List Nat)
    (hlen : fs.length ≤ rs.length) :
    ∃ x, computeCrt rs fs = some x ∧ x < fs.value ∧
      (∀ qr ∈ fs.zip rs, x ≡ qr.2 [MOD qr.1.1.toNat ^ qr.1.2.toNat]) := by
  obtain ⟨x, h1, h2, -, h4⟩ := crtLoop_spec h fs rs 0 (fun _ hp => hp) (List.Nodup.of_map _ h.2) hlen
    (value_pos (fun p hp => (h.1 p hp).ne_zero))
  exact ⟨x, h1, h2, fun qr hqr => by simpa using h4 qr hqr⟩

/-! ### Integer square root -/

theorem sqrtLoop_spec (chk : Bool) (n : UInt32) (hn : 2 ≤ n.toNat) (fuel : Nat) (f b : UInt32)
    (hfb : f.toNat < b.toNat) (hf : f.toNat * f.toNat < n.toNat) (hb : n.toNat < b.toNat * b.toNat)
    (hsum : f.toNat = 0 ∨ b.toNat ≤ 131071) (hfuel : b.toNat - f.toNat < fuel + 1) (hpos : 0 < fuel) :
    sqrtLoop chk n fuel f b =
      if chk ∧ 65535 * 65535 < n.toNat then none else some (UInt32.ofNat (Nat.sqrt n.toNat)) := by
  induction fuel generalizing f b with
  | zero => omega
  | succ fuel ih =>
    have hn32 := n.toNat_lt
    have hb32 := b.toNat_lt
    have hf16 : f.toNat ≤ 65535 := by
      by_contra hc
      have : 65536 * 65536 ≤ f.toNat * f.toNat := Nat.mul_le_mul (by omega) (by omega)
      omega
    unfold sqrtLoop
    have c1 : ¬ (f.toNat + 1 ≥ 2 ^ 32) := by omega
    have hf1 : (f + 1).toNat = f.toNat + 1 := by
      rw [UInt32.toNat_add, UInt32.toNat_one, Nat.mod_eq_of_lt (by omega)]
    simp only [c1, decide_false, Bool.and_false, Bool.false_eq_true, if_false]
    by_cases hlt : f + 1 < b
    · rw [if_pos hlt]
      have hlt' : f.toNat + 1 < b.toNat := by rw [UInt32.lt_iff_toNat_lt, hf1] at hlt; exact hlt
      have c2 : ¬ (f.toNat + b.toNat ≥ 2 ^ 32) := by omega
      simp only [c2, decide_false, Bool.and_false, Bool.false_eq_true, if_false]
      have hx : ((f + b) / 2).toNat = (f.toNat + b.toNat) / 2 := by
        rw [UInt32.toNat_div, UInt32.toNat_add, Nat.mod_eq_of_lt (by omega)]; rfl
      generalize (f + b) / 2 = x at hx
      have hx32 := x.toNat_lt
      have hsq : (x.toUInt64 * x.toUInt64).toNat = x.toNat * x.toNat := by
        rw [UInt64.toNat_mul, UInt32.toNat_toUInt64, Nat.mod_eq_of_lt]
        calc x.toNat * x.toNat < 2 ^ 32 * 2 ^ 32 := Nat.mul_lt_mul'' hx32 hx32
          _ = 2 ^ 64 := by norm_num
      have hx16 : x.toNat * x.toNat < 4294967296 → x.toNat ≤ 65535 := by
        intro h
        by_contra hc
        have : 65536 * 65536 ≤ x.toNat * x.toNat := Nat.mul_le_mul (by omega) (by omega)
        omega
      simp only [gt_iff_lt, UInt64.lt_iff_toNat_lt, hsq, UInt32.toNat_toUInt64]
      by_cases h1 : n.toNat < x.toNat * x.toNat
      · rw [if_pos h1]
        exact ih f x (by omega) hf h1 (by omega) (by omega) (by omega)
      · rw [if_neg h1]
        have hx16 := hx16 (by omega)
        by_cases h2 : x.toNat * x.toNat < n.toNat
        · rw [if_pos h2]
          exact ih x b (by omega) h2 hb (by omega) (by omega) (by omega)
        · rw [if_neg h2]
          have hx2 : x.toNat * x.toNat = n.toNat := by omega
          have hle2 : n.toNat ≤ 65535 * 65535 := by rw [← hx2]; exact Nat.mul_le_mul hx16 hx16
          rw [if_neg (by omega), ← hx2, Nat.sqrt_eq, UInt32.ofNat_toNat]
    · rw [if_neg hlt]
      have hbf : b.toNat = f.toNat + 1 := by
        rw [UInt32.lt_iff_toNat_lt, hf1] at hlt; omega
      have hsq : Nat.sqrt n.toNat = f.toNat := by
        symm; rw [Nat.eq_sqrt]
        exact ⟨hf.le, by rw [← hbf]; exact hb⟩
      rw [hsq, UInt32.ofNat_toNat]
      by_cases hbig : 65535 * 65535 < n.toNat
      · have hf65 : f.toNat = 65535 := by
          have h2 : 65535 ≤ Nat.sqrt n.toNat := Nat.le_sqrt.mpr hbig.le
          omega
        have hb65 : b.toNat = 65536 := by omega
        have hbb : b = UInt32.ofNat 65536 := by rw [← hb65, UInt32.ofNat_toNat]
        have hne : ¬ (b * b = n) := by
          intro h
          rw [hbb] at h
          have : n.toNat = 0 := by rw [← h]; decide
          omega
        cases chk
        · simp [hne]
        · simp [hb65, hbig]
      · have hb16 : b.toNat ≤ 65535 := by
          by_contra hc
          have : 65535 * 65535 ≤ f.toNat * f.toNat := Nat.mul_le_mul (by omega) (by omega)
          omega
        have hbb : b.toNat * b.toNat ≤ 65535 * 65535 := Nat.mul_le_mul hb16 hb16
        have hne : ¬ (b * b = n) := by
          intro h
          have : (b * b).toNat = b.toNat * b.toNat := by
            rw [UInt32.toNat_mul, Nat.mod_eq_of_lt (by omega)]
          rw [h] at this
          omega
        have h3 : ¬ (b.toNat * b.toNat ≥ 2 ^ 32) := by omega
        simp only [h3, decide_false, Bool.and_false, Bool.false_eq_true, if_false, if_neg hne, hbig,
          and_false]

theorem sqrtFloor_spec (chk : Bool) (n : UInt32) :
    sqrtFloor chk n =
      if chk ∧ 65535 * 65535 < n.toNat then none else some (UInt32.ofNat (Nat.sqrt n.toNat)) := by
  unfold sqrtFloor
  by_cases h1 : n = 1
  · subst h1; cases chk <;> decide
  rw [if_neg h1]
  by_cases h0 : n = 0
  · subst h0; cases chk <;> decide
  have hn : 2 ≤ n.toNat := by
    rcases Nat.lt_or_ge n.toNat 2 with h | h
    · exfalso
      have : n.toNat = 0 ∨ n.toNat = 1 := by omega
      rcases this with h | h
      · exact h0 (UInt32.toNat_inj.mp h)
      · exact h1 (UInt32.toNat_inj.mp h)
    · exact h
  exact sqrtLoop_spec chk n hn (n.toNat + 1) 0 n (by simpa using (by omega : 0 < n.toNat))
    (by simpa using (by omega : 0 < n.toNat)) (Nat.lt_mul_self_iff.mpr hn) (Or.inl rfl) (by omega) (by omega)

/-! ### Baby steps, giant steps -/

section
variable {K : Type*} [Field K] [DecidableEq K]

omit [DecidableEq K] in
theorem babySteps_snd (alpha : K) (k : Nat) (i : UInt32) (g : K) :
    (babySteps alpha k i g).2 = g * alpha ^ k := by
  induction k generalizing i g with
  | zero => simp [babySteps]
  | succ k ih => simp only [babySteps, ih]; ring

omit [DecidableEq K] in
theorem babySteps_mem (alpha : K) (k : Nat) (i : UInt32) (g : K) (hi : i.toNat + k < 2 ^ 32)
    (j : UInt32) (x : K) : (j, x) ∈ (babySteps alpha k i g).1 ↔
      ∃ t < k, j.toNat = i.toNat + t ∧ x = g * alpha ^ t := by
  induction k generalizing i g with
  | zero => simp [babySteps]
  | succ k ih =>
    have hi1 : (i + 1).toNat = i.toNat + 1 := by
      rw [UInt32.toNat_add, UInt32.toNat_one, Nat.mod_eq_of_lt (by omega)]
    simp only [babySteps, List.mem_cons, Prod.mk.injEq]
    rw [ih (i + 1) (g * alpha) (by omega), hi1]
    constructor
    · rintro (⟨rfl, rfl⟩ | ⟨t, ht, hj, rfl⟩)
      · exact ⟨0, by omega, by omega, by simp⟩
      · exact ⟨t + 1, by omega, by omega, by ring⟩
    · rintro ⟨t, ht, hj, rfl⟩
      rcases t with _ | t
      · left; exact ⟨UInt32.toNat_inj.mp (by omega), by simp⟩
      · right; exact ⟨t, by omega, by omega, by ring⟩

theorem giantSteps_sound (alpha beta : K) (m order : UInt32) (ho : order ≠ 0)
    (hm : m.toNat * m.toNat ≤ 2 ^ 32) (hm1 : m.toNat < 2 ^ 31) (hord : alpha ^ order.toNat = 1)
    (k : Nat) (i : UInt32) (t : K)
    (hik : i.toNat + k ≤ m.toNat) (ht : t * alpha ^ (i.toNat * m.toNat) = beta) (d : UInt32)
    (h : giantSteps (babySteps alpha m.toNat 0 1).1 (babySteps alpha m.toNat 0 1).2⁻¹ m order k i t
      = some d) : d.toNat < order.toNat ∧ alpha ^ d.toNat = beta := by
  have ho' : order.toNat ≠ 0 := fun e => ho (UInt32.toNat_inj.mp e)
  have ha : alpha ≠ 0 := by
    rintro rfl
    rw [zero_pow ho'] at hord
    exact zero_ne_one hord
  induction k generalizing i t with
  | zero => simp [giantSteps] at h
  | succ k ih =>
    unfold giantSteps at h
    rcases hf : List.find? (fun p => decide (p.2 = t)) (babySteps alpha m.toNat 0 1).1 with _ | ⟨j, x⟩
    · rw [hf] at h
      have hi1 : (i + 1).toNat = i.toNat + 1 := by
        rw [UInt32.toNat_add, UInt32.toNat_one, Nat.mod_eq_of_lt (by omega)]
      refine ih (i + 1) _ (by omega) ?_ h
      rw [babySteps_snd, hi1, one_mul, ← ht]
      have := pow_ne_zero m.toNat ha
      field_simp
      ring
    · rw [hf] at h
      simp only [if_neg ho, Option.some.injEq] at h
      have hx := List.find?_some hf
      simp only [decide_eq_true_eq] at hx
      have hmem := List.mem_of_find?_eq_some hf
      rw [babySteps_mem alpha m.toNat 0 1 (by simp; omega)] at hmem
      obtain ⟨s, hs, hj, hxs⟩ := hmem
      simp only [UInt32.toNat_zero, zero_add, one_mul] at hj hxs
      have hb : i.toNat * m.toNat + j.toNat < 2 ^ 32 := by
        have : i.toNat * m.toNat + m.toNat ≤ m.toNat * m.toNat := by
          rw [← Nat.succ_mul]; exact Nat.mul_le_mul_right _ (by omega)
        omega
      have hd : d.toNat = (i.toNat * m.toNat + j.toNat) % order.toNat := by
        rw [← h, UInt32.toNat_mod, UInt32.toNat_add, UInt32.toNat_mul,
          Nat.mod_eq_of_lt (a := i.toNat * m.toNat) (by omega), Nat.mod_eq_of_lt hb]
      constructor
      · rw [hd]; exact Nat.mod_lt _ (by omega)
      · have e : alpha ^ (i.toNat * m.toNat + j.toNat) = alpha ^ d.toNat := by
          rw [hd, ← Nat.div_add_mod (i.toNat * m.toNat + j.toNat) order.toNat, pow_add, pow_mul, hord,
            one_pow, one_mul, Nat.div_add_mod]
        rw [← e, pow_add, hj, ← hxs, hx, mul_comm, ht]

theorem giantSteps_complete (alpha : K) (ha : alpha ≠ 0) (m order : UInt32) (ho : order ≠ 0)
    (hm1 : m.toNat < 2 ^ 31) (k : Nat) (i : UInt32) (t : K)
    (ht : ∃ s < k, ∃ j < m.toNat, t = alpha ^ (s * m.toNat + j)) :
    giantSteps (babySteps alpha m.toNat 0 1).1 (babySteps alpha m.toNat 0 1).2⁻¹ m order k i t
      ≠ none := by
  induction k generalizing i t with
  | zero => obtain ⟨s, hs, _⟩ := ht; omega
  | succ k ih =>
    obtain ⟨s, hs, j, hj, e⟩ := ht
    unfold giantSteps
    rcases hf : List.find? (fun p => decide (p.2 = t)) (babySteps alpha m.toNat 0 1).1 with _ | ⟨j', x⟩
    · rw [hf]
      dsimp only
      rcases s with _ | s
      · exfalso
        rw [List.find?_eq_none] at hf
        have hj32 : (UInt32.ofNat j).toNat = j := by
          rw [UInt32.toNat_ofNat', Nat.mod_eq_of_lt (by omega)]
        have := hf (UInt32.ofNat j, t) ((babySteps_mem alpha m.toNat 0 1 (by simp; omega) _ _).mpr
          ⟨j, hj, by simp [hj32], by rw [e]; simp⟩)
        simp at this
      · refine ih (i + 1) _ ⟨s, by omega, j, hj, ?_⟩
        rw [babySteps_snd, one_mul, e]
        have := pow_ne_zero m.toNat ha
        rw [show (s + 1) * m.toNat + j = s * m.toNat + j + m.toNat by ring, pow_add]
        field_simp
    · rw [hf]; simp [if_neg ho]

theorem bsgs_spec (chk : Bool) (beta alpha : K) (order : UInt32) (ho : order ≠ 0)
    (hchk : chk = true → order.toNat ≤ 65535 * 65535) (hord : alpha ^ order.toNat = 1) :
    (∀ k : Nat, beta = alpha ^ k →
      ∃ d, bsgs chk beta alpha order = some d ∧ d.toNat < order.toNat ∧ alpha ^ d.toNat = beta) ∧
    ((∀ k : Nat, beta ≠ alpha ^ k) → bsgs chk beta alpha order = none) := by
  have ho' : order.toNat ≠ 0 := fun e => ho (UInt32.toNat_inj.mp e)
  have ha : alpha ≠ 0 := by
    rintro rfl
    rw [zero_pow ho'] at hord
    exact zero_ne_one hord
  have h32 := order.toNat_lt
  have hs16 : Nat.sqrt order.toNat < 65536 := by
    rw [Nat.sqrt_lt]; omega
  have hsf : sqrtFloor chk order = some (UInt32.ofNat (Nat.sqrt order.toNat)) := by
    rw [sqrtFloor_spec, if_neg]
    rintro ⟨h1, h2⟩
    have := hchk h1
    omega
  have hm : (UInt32.ofNat (Nat.sqrt order.toNat) + 1).toNat = Nat.sqrt order.toNat + 1 := by
    rw [UInt32.toNat_add, UInt32.toNat_one, UInt32.toNat_ofNat', Nat.mod_eq_of_lt (by omega),
      Nat.mod_eq_of_lt (by omega)]
  unfold bsgs
  rw [hsf]
  dsimp only
  generalize UInt32.ofNat (Nat.sqrt order.toNat) + 1 = m at hm
  have hlt : order.toNat < m.toNat * m.toNat := by
    rw [hm]; exact Nat.sqrt_lt.mp (Nat.lt_succ_self _)
  have hmm : m.toNat * m.toNat ≤ 2 ^ 32 := by
    have : m.toNat ≤ 65536 := by omega
    calc _ ≤ 65536 * 65536 := Nat.mul_le_mul this this
      _ = _ := by norm_num
  have sound := fun d => giantSteps_sound alpha beta m order ho hmm (by omega) hord m.toNat 0 beta
    (by simp) (by simp) d
  constructor
  · intro k hk
    have hk2 : beta = alpha ^ (k % order.toNat) := by
      rw [hk, ← Nat.div_add_mod k order.toNat, pow_add, pow_mul, hord, one_pow, one_mul,
        Nat.div_add_mod]
    have hko := Nat.mod_lt k (Nat.pos_of_ne_zero ho')
    generalize k % order.toNat = k' at hk2 hko
    have hm0 : 0 < m.toNat := by omega
    have hne := giantSteps_complete alpha ha m order ho (by omega) m.toNat 0 beta
      ⟨k' / m.toNat, Nat.div_lt_of_lt_mul (by omega), k' % m.toNat, Nat.mod_lt _ hm0, by
        rw [Nat.div_add_mod']; exact hk2⟩
    obtain ⟨d, hd⟩ := Option.ne_none_iff_exists'.mp hne
    exact ⟨d, hd, sound d hd⟩
  · intro h
    rcases hg : giantSteps (babySteps alpha m.toNat 0 1).1 (babySteps alpha m.toNat 0 1).2⁻¹ m order
      m.toNat 0 beta with _ | d
    · rfl
    · exact absurd (sound d hg).2.symm (h _)

/-! ### Pohlig–Hellman -/

omit [DecidableEq K] in
theorem powIter_eq (x : K) (l : UInt32) (n : Nat) : powIter x l n = x ^ l.toNat ^ n := by
  unfold powIter
  induction n generalizing x with
  | zero => simp
  | succ n ih => rw [Function.iterate_succ_apply, ih, ← pow_mul, pow_succ, mul_comm]

theorem phLoop_spec (chk : Bool) (alpha : K) (l : UInt32) (e : Nat) (hl0 : l ≠ 0)
    (hchk : chk = true → l.toNat ≤ 65535 * 65535) (he : 0 < e) (hord : orderOf alpha = l.toNat ^ e)
    (t : Nat) (i k : Nat) (hik : i + k = e) :
    phLoop chk (alpha ^ t) alpha (alpha ^ l.toNat ^ (e - 1)) l k (l.toNat ^ i) (t % l.toNat ^ i) =
      some (t % l.toNat ^ e) := by
  have hl0' : l.toNat ≠ 0 := fun e => hl0 (UInt32.toNat_inj.mp e)
  have hpow : alpha ^ l.toNat ^ e = 1 := by rw [← hord]; exact pow_orderOf_eq_one alpha
  have ha : alpha ≠ 0 := by
    rintro rfl
    rw [zero_pow (pow_ne_zero _ hl0')] at hpow
    exact zero_ne_one hpow
  have hgord : orderOf (alpha ^ l.toNat ^ (e - 1)) = l.toNat := by
    rw [orderOf_pow_of_dvd (pow_ne_zero _ hl0') (by rw [hord]; exact pow_dvd_pow _ (by omega)), hord]
    exact Nat.div_eq_of_eq_mul_left (Nat.pos_of_ne_zero (pow_ne_zero _ hl0')) (by
      rw [← pow_succ', Nat.sub_add_cancel he])
  induction k generalizing i with
  | zero => simp only [phLoop]; rw [show e = i by omega]
  | succ k ih =>
    unfold phLoop
    have hh : powIter (alpha ^ t * (alpha ^ (t % l.toNat ^ i))⁻¹) l k =
        (alpha ^ l.toNat ^ (e - 1)) ^ (t / l.toNat ^ i) := by
      rw [powIter_eq]
      have h1 : alpha ^ t * (alpha ^ (t % l.toNat ^ i))⁻¹ = alpha ^ (l.toNat ^ i * (t / l.toNat ^ i)) := by
        have := pow_ne_zero (t % l.toNat ^ i) ha
        conv_lhs => rw [← Nat.div_add_mod t (l.toNat ^ i)]
        rw [pow_add]
        simp only [Nat.mul_add_mod_self_left, Nat.mod_mod]
        field_simp
      rw [h1, ← pow_mul, ← pow_mul]
      congr 1
      rw [show e - 1 = i + k by omega, pow_add]
      ring
    dsimp only
    rw [hh]
    have hc1 : ((alpha ^ l.toNat ^ (e - 1)) ^ (t / l.toNat ^ i)) ^ l.toNat = 1 := by
      rw [← pow_mul, mul_comm, pow_mul, ← pow_mul alpha, ← pow_succ, Nat.sub_add_cancel he, hpow, one_pow]
    simp only [hc1, decide_true, Bool.not_true, Bool.and_false, Bool.false_eq_true, if_false]
    obtain ⟨d, hd1, hd2, hd3⟩ := (bsgs_spec chk ((alpha ^ l.toNat ^ (e - 1)) ^ (t / l.toNat ^ i))
      (alpha ^ l.toNat ^ (e - 1)) l hl0 hchk (by rw [← pow_mul, ← pow_succ, Nat.sub_add_cancel he, hpow])).1
      _ rfl
    rw [hd1]
    simp only [hd3, decide_true, Bool.not_true, Bool.and_false, Bool.false_eq_true, if_false]
    have hdt : d.toNat = t / l.toNat ^ i % l.toNat := by
      have hg0 : alpha ^ l.toNat ^ (e - 1) ≠ 0 := pow_ne_zero _ ha
      have := (pow_inj_mod (x := Units.mk0 _ hg0) (n := d.toNat) (m := t / l.toNat ^ i)).mp (by
        ext; push_cast; exact hd3)
      rw [← orderOf_units, Units.val_mk0, hgord, Nat.mod_eq_of_lt hd2] at this
      exact this
    rw [hdt, ← Nat.mod_mul, ← pow_succ]
    exact ih (i + 1) (by omega)

theorem phDlpPower_spec (chk : Bool) (alpha : K) (l e : UInt32) (hl0 : l ≠ 0) (hl1 : l ≠ 1)
    (hchk : chk = true → l.toNat ≤ 65535 * 65535) (he : e ≠ 0)
    (hord : orderOf alpha = l.toNat ^ e.toNat) (t : Nat) :
    phDlpPower chk (alpha ^ t) alpha l e = some (t % l.toNat ^ e.toNat) := by
  have he' : e.toNat ≠ 0 := fun h => he (UInt32.toNat_inj.mp h)
  unfold phDlpPower
  rw [if_neg he]
  dsimp only
  rw [powIter_eq]
  have hg1 : alpha ^ l.toNat ^ (e.toNat - 1) ≠ 1 := by
    intro h
    have hd := orderOf_dvd_of_pow_eq_one h
    rw [hord] at hd
    have hl2 : 1 < l.toNat := by
      have h0 : l.toNat ≠ 0 := fun h => hl0 (UInt32.toNat_inj.mp h)
      have h1 : l.toNat ≠ 1 := fun h => hl1 (UInt32.toNat_inj.mp h)
      omega
    have := Nat.le_of_dvd (Nat.pow_pos (by omega)) hd
    exact absurd this (Nat.not_le.mpr (Nat.pow_lt_pow_right hl2 (by omega)))
  have hg2 : (alpha ^ l.toNat ^ (e.toNat - 1)) ^ l.toNat = 1 := by
    rw [← pow_mul, ← pow_succ, Nat.sub_add_cancel (by omega), ← hord, pow_orderOf_eq_one]
  simp only [hg1, hg2, decide_true, decide_false, Bool.not_true, Bool.not_false, Bool.and_true,
    Bool.and_false, Bool.false_eq_true, if_false]
  simpa [Nat.mod_one] using phLoop_spec chk alpha l e.toNat hl0 hchk (by omega) hord t 0 e.toNat (by omega)

omit [DecidableEq K] in
theorem cofPow_eq (x : K) (l : UInt32) (fs : Factored) : cofPow x l fs = x ^ crtCofactor fs l := by
  unfold cofPow crtCofactor
  have key : ∀ (c : Nat) , fs.foldl (fun y p => if p.1 ≠ l then powIter y p.1 p.2.toNat else y) (x ^ c) =
      x ^ fs.foldl (fun c p => if p.1 ≠ l then c * p.1.toNat ^ p.2.toNat else c) c := by
    induction fs with
    | nil => intro c; rfl
    | cons p fs ih =>
      intro c
      rw [List.foldl_cons, List.foldl_cons]
      by_cases h : p.1 = l
      · simp only [h, ne_eq, not_true, if_false]; exact ih c
      · simp only [ne_eq, h, not_false_iff, if_true]
        rw [powIter_eq, ← pow_mul]
        exact ih _
  simpa using key 1

theorem value_eq_cof {fs : Factored} (h : fs.Distinct) {l e : UInt32} (hp : (l, e) ∈ fs) :
    fs.value = crtCofactor fs l * l.toNat ^ e.toNat := by
  rw [value_eq, cof_eq]
  have hnd := h.2
  clear h
  induction fs with
  | nil => simp at hp
  | cons q fs ih =>
    rw [List.map_cons, List.nodup_cons] at hnd
    rw [List.map_cons, List.prod_cons]
    rcases List.mem_cons.mp hp with rfl | hp
    · have : fs.filter (fun p => decide (p.1 ≠ l)) = fs := by
        rw [List.filter_eq_self]
        intro p hp'
        simp only [decide_eq_true_eq]
        intro e'
        exact hnd.1 (List.mem_map.mpr ⟨p, hp', e'⟩)
      rw [List.filter_cons_of_neg (by simp), this]
      ring
    · have hne : q.1 ≠ l := by
        intro e'
        exact hnd.1 (List.mem_map.mpr ⟨_, hp, e'.symm⟩)
      rw [List.filter_cons_of_pos (by simpa using hne), List.map_cons, List.prod_cons, ih hp hnd.2]
      ring

/-- What `ph_dlp` needs of the factors. -/
def Factored.Ok (chk : Bool) (fs : Factored) : Prop :=
  fs.Distinct ∧ (∀ p ∈ fs, p.2 ≠ 0) ∧ (chk = true → ∀ p ∈ fs, p.1.toNat ≤ 65535 * 65535)

omit [Field K] [DecidableEq K] in
theorem _root_.List.map_prodMk_eq_zip {A B : Type*} (l : List A) (f : A → B) :
    l.map (fun a => (a, f a)) = l.zip (l.map f) := by
  induction l with
  | nil => rfl
  | cons a l ih => simp [ih]

theorem phDlpLoop_spec {chk : Bool} {fs : Factored} (h : fs.Ok chk) (alpha : K)
    (hord : orderOf alpha = fs.value) (t : Nat) (s : Factored) (hs : ∀ p ∈ s, p ∈ fs) :
    phDlpLoop chk (alpha ^ t) alpha fs s = some (s.map (fun p => t % p.1.toNat ^ p.2.toNat)) := by
  induction s with
  | nil => rfl
  | cons p s ih =>
    obtain ⟨l, e⟩ := p
    have hmem := hs _ List.mem_cons_self
    have hl := h.1.1 _ hmem
    unfold phDlpLoop
    have e1 : cofPow (alpha ^ t) l fs = (alpha ^ crtCofactor fs l) ^ t := by
      rw [cofPow_eq, ← pow_mul, ← pow_mul, mul_comm]
    have hv := value_eq_cof h.1 hmem
    have hc0 : crtCofactor fs l ≠ 0 := by
      intro h0
      have := value_pos (fs := fs) (fun p hp => (h.1.1 p hp).ne_zero)
      rw [hv, h0] at this
      simp at this
    have ho : orderOf (alpha ^ crtCofactor fs l) = l.toNat ^ e.toNat := by
      rw [orderOf_pow_of_dvd hc0 (by rw [hord, hv]; exact Dvd.intro _ rfl), hord, hv]
      exact Nat.mul_div_cancel_left _ (Nat.pos_of_ne_zero hc0)
    rw [e1, cofPow_eq, phDlpPower_spec chk _ l e (fun h0 => hl.ne_zero (by rw [h0]; rfl))
      (fun h0 => hl.ne_one (by rw [h0]; rfl))
      (fun hc => h.2.2 hc _ hmem) (h.2.1 _ hmem) ho t]
    dsimp only
    rw [ih (fun q hq => hs q (List.mem_cons_of_mem _ hq))]
    rfl

theorem phDlp_spec {chk : Bool} {fs : Factored} (h : fs.Ok chk) (alpha : K)
    (hord : orderOf alpha = fs.value) (t : Nat) :
    phDlp chk (alpha ^ t) alpha fs = some (t % fs.value) := by
  unfold phDlp
  rw [phDlpLoop_spec h alpha hord t fs (fun _ hp => hp)]
  dsimp only
  obtain ⟨x, hx1, hx2, hx3⟩ := computeCrt_spec h.1 (fs.map (fun p => t % p.1.toNat ^ p.2.toNat)) (by simp)
  rw [hx1]
  congr 1
  have : x ≡ t [MOD fs.value] := by
    refine modEq_value h.1 (fun q hq => ?_)
    have := hx3 (q, t % q.1.toNat ^ q.2.toNat) (by
      rw [← List.map_prodMk_eq_zip]
      exact List.mem_map.mpr ⟨q, hq, rfl⟩)
    exact this.trans (Nat.mod_modEq _ _)
  rw [← Nat.mod_eq_of_lt hx2]
  exact this

end
end Festa

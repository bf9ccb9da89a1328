/-
The mergesort algorithm stays within its arrays, whatever the arithmetic and the comparisons do.
-/
import Verif.Proofs.Exact

namespace Dcor

variable {R Y : Type} {n V : ℕ} (A : Arith R)

theorem mergeLoop_safe (ge : Y → Y → Bool) (y : Fin n → Y) (wc : Fin (n + 1) → Fin V → R) (prev : Fin n → ℕ)
    (hprev : ∀ t, prev t < n) {p len : ℕ} (hlen : 0 < len) (hp : p < n) :
    ∀ (d i1 i2 : ℕ) (st : MergeState R n V),
      (min (p + len - 1) (n - 1) + 1 - i1) + (min (p + len + len - 1) (n - 1) + 1 - i2) = d →
      p ≤ i1 → i1 ≤ min (p + len) n → p + len ≤ i2 → i2 ≤ max (min (p + 2 * len) n) (p + len) →
      st.idx + (p + len) = i1 + i2 → (∀ t, st.cur t < n) →
      ∃ i1' i2' st', A.mergeLoop ge y wc prev (min (p + len - 1) (n - 1)) (min (p + len + len - 1) (n - 1))
          i1 i2 st = .ok (i1', i2', st') ∧
        p ≤ i1' ∧ i1' ≤ min (p + len) n ∧ p + len ≤ i2' ∧ i2' ≤ max (min (p + 2 * len) n) (p + len) ∧
        st'.idx + (p + len) = i1' + i2' ∧ (∀ t, st'.cur t < n) ∧
        ¬ (i1' ≤ min (p + len - 1) (n - 1) ∧ i2' ≤ min (p + len + len - 1) (n - 1)) := by
  intro d
  induction d using Nat.strong_induction_on with
  | _ d ih =>
  intro i1 i2 st hd h1 h2 h3 h4 hidx hcur
  unfold Arith.mergeLoop
  by_cases hc : i1 ≤ min (p + len - 1) (n - 1) ∧ i2 ≤ min (p + len + len - 1) (n - 1)
  · rw [if_pos hc]
    have hi1n : i1 < n := by omega
    have hi2n : i2 < n := by omega
    have hin : st.idx < n := by omega
    rw [rd_nat _ i1 hi1n, rd_nat _ i2 hi2n]
    simp only [Except.ok_bind']
    rw [rd_nat y _ (hprev _), rd_nat y _ (hprev _)]
    simp only [Except.ok_bind']
    have hupd : ∀ (v : ℕ), v < n → ∀ t, Function.update st.cur ⟨st.idx, hin⟩ v t < n := by
      intro v hv t
      by_cases ht : t = ⟨st.idx, hin⟩
      · subst ht; simpa using hv
      · simpa [Function.update_of_ne ht] using hcur t
    split_ifs with hcmp
    · rw [wr_nat _ _ _ hin]
      simp only [Except.ok_bind']
      exact ih _ (by omega) _ _ _ rfl (by omega) (by omega) h3 h4 (by simp only; omega) (hupd _ (hprev _))
    · rw [wr_nat _ _ _ hin]
      simp only [Except.ok_bind']
      rw [rd_ok wc _ ⟨min (p + len - 1) (n - 1) + 1, by omega⟩ (by push_cast; rfl),
        rd_ok wc _ ⟨i1, by omega⟩ rfl]
      simp only [Except.ok_bind']
      rw [rd_nat st.ws _ (hprev _)]
      simp only [Except.ok_bind']
      rw [wr_nat st.ws _ _ (hprev _)]
      simp only [Except.ok_bind']
      exact ih _ (by omega) _ _ _ rfl h1 h2 (by omega) (by omega) (by simp only; omega) (hupd _ (hprev _))
  · rw [if_neg hc]
    exact ⟨i1, i2, st, rfl, h1, h2, h3, h4, hidx, hcur, hc⟩

theorem copyRest_safe (prev : Fin n → ℕ) (hprev : ∀ t, prev t < n) (i last : ℕ) (cur : Fin n → ℕ) (idx : ℕ)
    (hcur : ∀ t, cur t < n) (hlast : last < n) (hidx : idx + (last + 1 - i) ≤ n) :
    ∃ cur', copyRest prev i last cur idx = .ok (cur', idx + (last + 1 - i)) ∧ ∀ t, cur' t < n := by
  obtain ⟨cur', e, h⟩ := foldlM_range_inv (last + 1 - i) (fun cur (k : ℕ) => do
    let v ← rd prev ((i : ℤ) + k)
    wr cur ((idx : ℤ) + k) v) (fun _ cur => ∀ t, cur t < n) cur hcur (by
      intro k hk cur hcur
      rw [rd_ok _ _ ⟨i + k, by omega⟩ (by simp)]
      simp only [Except.ok_bind']
      rw [wr_ok _ _ _ ⟨idx + k, by omega⟩ (by simp)]
      refine ⟨_, rfl, fun t => ?_⟩
      by_cases ht : t = ⟨idx + k, by omega⟩
      · subst ht; simpa using hprev _
      · simpa [Function.update_of_ne ht] using hcur t)
  refine ⟨cur', ?_, h⟩
  unfold copyRest
  rw [e]
  rfl

theorem mergePair_safe (ge : Y → Y → Bool) (y : Fin n → Y) (wc : Fin (n + 1) → Fin V → R) (prev : Fin n → ℕ)
    (hprev : ∀ t, prev t < n) {len : ℕ} (hlen : 0 < len) (p : ℕ) (hp : p < n) (st : MergeState R n V)
    (hidx : st.idx = p) (hcur : ∀ t, st.cur t < n) :
    ∃ st', A.mergePair ge y wc prev len st p = .ok st' ∧ st'.idx = min (p + 2 * len) n ∧
      ∀ t, st'.cur t < n := by
  obtain ⟨i1, i2, st1, e, h1, h2, h3, h4, hidx1, hcur1, hdone⟩ := mergeLoop_safe A ge y wc prev hprev hlen hp _
    p (p + len) st rfl le_rfl (by omega) le_rfl (by omega) (by omega) hcur
  unfold Arith.mergePair
  simp only
  rw [e]
  simp only [Except.ok_bind']
  split_ifs with hc1 hc2
  · obtain ⟨cur', e2, hcur2⟩ := copyRest_safe prev hprev i1 (min (p + len - 1) (n - 1)) st1.cur st1.idx hcur1
      (by omega) (by omega)
    rw [e2]
    exact ⟨_, rfl, by simp only; omega, hcur2⟩
  · obtain ⟨cur', e2, hcur2⟩ := copyRest_safe prev hprev i2 (min (p + len + len - 1) (n - 1)) st1.cur st1.idx
      hcur1 (by omega) (by omega)
    rw [e2]
    exact ⟨_, rfl, by simp only; omega, hcur2⟩
  · exact ⟨_, rfl, by omega, hcur1⟩

theorem mergePasses_safe (ge : Y → Y → Bool) (y : Fin n → Y) (w : Fin n → Fin V → R) :
    ∀ (d len : ℕ) (hlen : 0 < len) (prev cur : Fin n → ℕ) (ws : Fin n → Fin V → R) (u : ℕ), n - len = d →
      (∀ t, prev t < n) → (∀ t, cur t < n) →
      ∃ r, A.mergePasses ge y w len hlen prev cur ws u = .ok r ∧ ∀ t, r.1 t < n := by
  intro d
  induction d using Nat.strong_induction_on with
  | _ d ih =>
  intro len hlen prev cur ws u hd hprev hcur
  unfold Arith.mergePasses
  by_cases h : len < n
  · rw [if_pos h]
    unfold Arith.weightsCumsum
    rw [dif_pos hprev]
    simp only [Except.ok_bind']
    obtain ⟨st', e, hP⟩ := foldlM_inv (A.mergePair ge y (fun k v => if hk : (k : ℕ) = 0 then A.ofInt 0
        else A.cumsum (fun t : Fin n => w ⟨prev t, hprev t⟩ v) ⟨k - 1, by omega⟩) prev len)
      (rangeStep n (2 * len)) (fun k st => st.idx = min (k * (2 * len)) n ∧ ∀ t, st.cur t < n)
      { cur := cur, idx := 0, ws := ws, updates := u } ⟨by simp, hcur⟩ (by
        rintro k hk st ⟨hi, hc⟩
        have hk' : k * (2 * len) < n := by
          rw [rangeStep_length, Nat.lt_div_iff_mul_lt (by omega)] at hk
          omega
        have : (rangeStep n (2 * len))[k] = k * (2 * len) := by simp [rangeStep]
        rw [this]
        obtain ⟨st', e, hi', hc'⟩ := mergePair_safe A ge y _ prev hprev hlen (k * (2 * len)) hk' st (by omega) hc
        exact ⟨st', e, by rw [hi', add_mul, one_mul], hc'⟩)
    rw [e]
    simp only [Except.ok_bind']
    exact ih _ (by omega) _ _ _ _ _ _ rfl hP.2 hprev
  · rw [if_neg h]
    exact ⟨_, rfl, hprev⟩

theorem computeWeightSums_safe (ge : Y → Y → Bool) (y : Fin n → Y) (w : Fin n → Fin V → R) :
    ∃ r, A.computeWeightSums ge y w = .ok r ∧ ∀ t, r.1 t < n := by
  unfold Arith.computeWeightSums
  exact mergePasses_safe A ge y w _ 1 (by omega) _ _ _ _ rfl (fun t => t.2) (fun t => t.pos)

/-- The mergesort method never fails on non-empty samples. -/
theorem mergesortTerms_safe (ge : R → R → Bool) (argsort : (Fin n → R) → Equiv.Perm (Fin n)) (x y : Fin n → R)
    (hn : 0 < n) : ∃ t, A.mergesortTerms ge argsort x y = .ok t := by
  obtain ⟨r, e, _⟩ := computeWeightSums_safe A ge (fun i => y (argsort x i)) (fun i =>
    (![A.ofInt 1, y (argsort x i), x (argsort x i), A.mul (x (argsort x i)) (y (argsort x i))] : Fin 4 → R))
  have hrow : ∀ v : Fin n → R, ∃ a, A.computeRowSums v = .ok a := by
    intro v
    unfold Arith.computeRowSums
    rw [dif_pos hn]
    exact ⟨_, rfl⟩
  obtain ⟨a, ea⟩ := hrow fun i => x (argsort x i)
  obtain ⟨b, eb⟩ := hrow fun i => y (argsort x ((argsort fun i => y (argsort x i)) i))
  unfold Arith.mergesortTerms Arith.computeAijbijTerm
  simp only [e, ea, eb, Except.ok_bind', Except.pure_eq]
  exact ⟨_, rfl⟩

end Dcor

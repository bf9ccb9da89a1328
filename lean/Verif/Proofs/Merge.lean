/-
The merge loop of the mergesort algorithm: bounds, sortedness, and the weighted
inversion-like counts it accumulates. The values computed are related to those of a group.
-/
import Verif.Proofs.Loops
import Verif.Model.Rounding
import Mathlib.Tactic.Abel

namespace Dcor

/-- `ge` behaves like `>=` of a total preorder. -/
structure IsGe {Y : Type} (ge : Y → Y → Bool) : Prop where
  total : ∀ a b, ge a b = true ∨ ge b a = true
  trans : ∀ a b c, ge a b = true → ge b c = true → ge a c = true

theorem IsGe.refl {Y : Type} {ge : Y → Y → Bool} (h : IsGe ge) (a : Y) : ge a a = true := by
  rcases h.total a a with h | h <;> exact h

/-- The addition and subtraction of `A` are those of the group `G` when operands and result satisfy `B`. -/
structure Arith.Embeds {R G : Type} [AddCommGroup G] (A : Arith R) (emb : G → R) (B : G → Prop) : Prop where
  zero : A.ofInt 0 = emb 0
  add : ∀ a b, B a → B b → B (a + b) → A.add (emb a) (emb b) = emb (a + b)
  sub : ∀ a b, B a → B b → B (a - b) → A.sub (emb a) (emb b) = emb (a - b)

/-- What has to be known of the arithmetic during one pass: how a weight sum (related by `rel0` to an exact one at
the beginning of the pass) is updated with the difference of two cumulative sums (related by `wrel` to exact ones). -/
structure Arith.Step {R G : Type} [AddCommGroup G] {V : ℕ} (A : Arith R) (B : G → Prop)
    (rel0 rel1 wrel : Fin V → G → R → Prop) : Prop where
  mono : ∀ v g r, rel0 v g r → rel1 v g r
  step : ∀ v a b c r rb rc, B a → B b → B c → B (b - c) → B (a + (b - c)) → rel0 v a r → wrel v b rb → wrel v c rc →
    rel1 v (a + (b - c)) (A.add r (A.sub rb rc))

variable {R G : Type} [AddCommGroup G] {Y : Type} {n V : ℕ} {A : Arith R} {emb : G → R} {B : G → Prop}
  {rel0 rel1 wrel : Fin V → G → R → Prop}

theorem Arith.Embeds.step (h : A.Embeds emb B) :
    A.Step B (fun (_ : Fin V) g r => r = emb g) (fun _ g r => r = emb g) (fun _ g r => r = emb g) where
  mono := fun _ _ _ h => h
  step := by
    rintro v a b c r rb rc ha hb hc hbc hs rfl rfl rfl
    rw [h.sub b c hb hc hbc, h.add _ _ ha hbc hs]

theorem subset_sum_perm {w : Fin n → Fin V → G} (hB : ∀ (T : Finset (Fin n)) v, B (∑ t ∈ T, w t v))
    (π : Equiv.Perm (Fin n)) (T : Finset (Fin n)) (v : Fin V) : B (∑ t ∈ T, w (π t) v) := by
  have := hB (T.map π.toEmbedding) v
  rwa [Finset.sum_map] at this

/-- Invariant of the output buffer while merging: positions `p ≤ t < idx` hold distinct elements
`π s` of consumed positions `s`, in descending order, above all the remaining ones. -/
structure CInv (ge : Y → Y → Bool) (y : Fin n → Y) (π : Equiv.Perm (Fin n)) (p idx : ℕ)
    (used rem : Fin n → Prop) (cur0 cur : Fin n → ℕ) : Prop where
  mem : ∀ t : Fin n, p ≤ t → (t : ℕ) < idx → ∃ s, used s ∧ cur t = (π s : ℕ)
  inj : ∀ t t' : Fin n, p ≤ t → (t : ℕ) < idx → p ≤ t' → (t' : ℕ) < idx → cur t = cur t' → t = t'
  sorted : ∀ t t' : Fin n, p ≤ t → t ≤ t' → (t' : ℕ) < idx → ∀ a b : Fin n,
    cur t = a → cur t' = b → ge (y a) (y b) = true
  front : ∀ t : Fin n, p ≤ t → (t : ℕ) < idx → ∀ s, rem s → ∀ a : Fin n, cur t = a →
    ge (y a) (y (π s)) = true
  below : ∀ t : Fin n, (t : ℕ) < p → cur t = cur0 t

theorem CInv.append {ge : Y → Y → Bool} (hge : IsGe ge) {y : Fin n → Y}
    {π : Equiv.Perm (Fin n)} {p idx : ℕ} {used rem : Fin n → Prop} {cur0 cur : Fin n → ℕ}
    (h : CInv ge y π p idx used rem cur0 cur) (hp : p ≤ idx) (hn : idx < n) (s0 : Fin n)
    (hu : ¬ used s0) (hr : rem s0) (hmin : ∀ s, rem s → ge (y (π s0)) (y (π s)) = true)
    (used' rem' : Fin n → Prop) (hu' : ∀ s, used s ∨ s = s0 → used' s)
    (hr' : ∀ s, rem' s → rem s) :
    CInv ge y π p (idx + 1) used' rem' cur0 (Function.update cur ⟨idx, hn⟩ (π s0 : ℕ)) := by
  have hup : ∀ t : Fin n, (t : ℕ) < idx →
      Function.update cur ⟨idx, hn⟩ (π s0 : ℕ) t = cur t := by
    intro t ht
    apply Function.update_of_ne
    intro e
    rw [e] at ht
    simp at ht
  have hlast : ∀ t : Fin n, (t : ℕ) < idx + 1 → ¬ (t : ℕ) < idx → t = ⟨idx, hn⟩ := by
    intro t h1 h2
    ext
    simp
    omega
  have hcur : ∀ t : Fin n, p ≤ t → (t : ℕ) < idx → cur t ≠ (π s0 : ℕ) := by
    intro t h1 h2 e
    obtain ⟨s, hs, hs'⟩ := h.mem t h1 h2
    have : π s = π s0 := Fin.ext (by rw [← hs', e])
    exact hu (π.injective this ▸ hs)
  refine ⟨?_, ?_, ?_, ?_, ?_⟩
  · intro t h1 h2
    by_cases h3 : (t : ℕ) < idx
    · obtain ⟨s, hs, hs'⟩ := h.mem t h1 h3
      exact ⟨s, hu' s (Or.inl hs), by rw [hup t h3, hs']⟩
    · rw [hlast t h2 h3]
      exact ⟨s0, hu' s0 (Or.inr rfl), by simp⟩
  · intro t t' h1 h2 h1' h2' e
    by_cases h3 : (t : ℕ) < idx <;> by_cases h3' : (t' : ℕ) < idx
    · rw [hup t h3, hup t' h3'] at e
      exact h.inj t t' h1 h3 h1' h3' e
    · rw [hup t h3, hlast t' h2' h3', Function.update_self] at e
      exact absurd e (hcur t h1 h3)
    · rw [hup t' h3', hlast t h2 h3, Function.update_self] at e
      exact absurd e.symm (hcur t' h1' h3')
    · rw [hlast t h2 h3, hlast t' h2' h3']
  · intro t t' h1 h2 h2' a b ha hb
    by_cases h3' : (t' : ℕ) < idx
    · have h3 : (t : ℕ) < idx := lt_of_le_of_lt h2 h3'
      rw [hup t h3] at ha
      rw [hup t' h3'] at hb
      exact h.sorted t t' h1 h2 h3' a b ha hb
    · rw [hlast t' h2' h3', Function.update_self] at hb
      have hb' : b = π s0 := Fin.ext hb.symm
      by_cases h3 : (t : ℕ) < idx
      · rw [hup t h3] at ha
        rw [hb']
        exact h.front t h1 h3 s0 hr a ha
      · have : (t : ℕ) < idx + 1 := by have : (t : ℕ) ≤ t' := h2; omega
        rw [hlast t this h3, Function.update_self] at ha
        have ha' : a = π s0 := Fin.ext ha.symm
        rw [ha', hb']
        exact hge.refl _
  · intro t h1 h2 s hs a ha
    by_cases h3 : (t : ℕ) < idx
    · rw [hup t h3] at ha
      exact h.front t h1 h3 s (hr' s hs) a ha
    · rw [hlast t h2 h3, Function.update_self] at ha
      have ha' : a = π s0 := Fin.ext ha.symm
      rw [ha']
      exact hmin s (hr' s hs)
  · intro t ht
    rw [hup t (by omega), h.below t ht]

/-- Positions already consumed by the merge. -/
def Used (p q i1 i2 : ℕ) (s : Fin n) : Prop := (p ≤ s ∧ (s : ℕ) < i1) ∨ (q ≤ s ∧ (s : ℕ) < i2)
/-- Positions still to be merged. -/
def Rem (m b i1 i2 : ℕ) (s : Fin n) : Prop := (i1 ≤ s ∧ (s : ℕ) < m) ∨ (i2 ≤ s ∧ (s : ℕ) < b)

/-- Invariant of the merge loop. Subarray 1 is `[p, m)`, subarray 2 is `[q, b)`. -/
structure MInv (ge : Y → Y → Bool) (y : Fin n → Y) (π : Equiv.Perm (Fin n)) (p m q b : ℕ)
    (cur0 : Fin n → ℕ) (rel1 : Fin V → G → R → Prop) (S : Fin n → Fin V → G) (ws0 : Fin n → Fin V → R) (i1 i2 : ℕ)
    (st : MergeState R n V) : Prop where
  i1lo : p ≤ i1
  i1hi : i1 ≤ m
  i2lo : q ≤ i2
  i2hi : i2 ≤ b
  idx : st.idx + q = i1 + i2
  buf : CInv ge y π p st.idx (Used p q i1 i2) (Rem m b i1 i2) cur0 st.cur
  cross : ∀ s s' : Fin n, p ≤ s → (s : ℕ) < i1 → i2 ≤ s' → (s' : ℕ) < b →
    ge (y (π s)) (y (π s')) = true
  ws : ∀ (s : Fin n) (v : Fin V), if q ≤ s ∧ (s : ℕ) < i2 then rel1 v (S (π s) v) (st.ws (π s) v)
    else st.ws (π s) v = ws0 (π s) v

/-- Static facts about the two subarrays. -/
structure MGeom (ge : Y → Y → Bool) (y : Fin n → Y) (π : Equiv.Perm (Fin n)) (p m q b : ℕ)
    (B : G → Prop) (rel0 : Fin V → G → R → Prop) (w : Fin n → Fin V → G) (S g0 : Fin n → Fin V → G)
    (ws0 : Fin n → Fin V → R) : Prop where
  pm : p ≤ m
  mq : m ≤ q
  qb : q ≤ b
  mn : m ≤ n
  bn : q < b → b ≤ n ∧ m = q
  sorted1 : ∀ s s' : Fin n, p ≤ s → s ≤ s' → (s' : ℕ) < m → ge (y (π s)) (y (π s')) = true
  sorted2 : ∀ s s' : Fin n, q ≤ s → s ≤ s' → (s' : ℕ) < b → ge (y (π s)) (y (π s')) = true
  /-- `S` adds to `g0` the weights of the strictly smaller elements of subarray 1 -/
  target : ∀ s : Fin n, q ≤ s → (s : ℕ) < b → S (π s) = g0 (π s)
    + ∑ t ∈ Finset.univ.filter (fun t : Fin n => p ≤ t ∧ (t : ℕ) < m ∧
        ge (y (π t)) (y (π s)) = false), w (π t)
  subsets : ∀ (T : Finset (Fin n)) v, B (∑ t ∈ T, w t v)
  boundS : ∀ j v, B (S j v)
  bound0 : ∀ j v, B (g0 j v)
  init : ∀ s : Fin n, q ≤ s → (s : ℕ) < b → ∀ v, rel0 v (g0 (π s) v) (ws0 (π s) v)

theorem mergeLoop_inv (hE : A.Step B rel0 rel1 wrel) {ge : Y → Y → Bool} (hge : IsGe ge) {y : Fin n → Y}
    {π : Equiv.Perm (Fin n)} {p m q b : ℕ} {cur0 : Fin n → ℕ} {w S g0 : Fin n → Fin V → G}
    {ws0 : Fin n → Fin V → R}
    (hg : MGeom ge y π p m q b B rel0 w S g0 ws0) (wc : Fin (n + 1) → Fin V → R)
    (hwc : ∀ k v, wrel v (∑ t ∈ Finset.univ.filter (fun t : Fin n => t.val < k.val), w (π t) v) (wc k v))
    (last1 last2 : ℕ) (hl1 : ∀ i, p ≤ i → (i ≤ last1 ↔ i < m)) (hl1' : p < m → last1 + 1 = m)
    (hl2 : ∀ i, q ≤ i → (i ≤ last2 ↔ i < b)) :
    ∀ (d i1 i2 : ℕ) (st : MergeState R n V), (m - i1) + (b - i2) = d →
      MInv ge y π p m q b cur0 rel1 S ws0 i1 i2 st →
      ∃ i1' i2' st', A.mergeLoop ge y wc (fun i => (π i : ℕ)) last1 last2 i1 i2 st
          = .ok (i1', i2', st') ∧ MInv ge y π p m q b cur0 rel1 S ws0 i1' i2' st'
          ∧ (i1' = m ∨ i2' = b) := by
  intro d
  induction d using Nat.strong_induction_on with
  | _ d ih =>
  intro i1 i2 st hd hI
  unfold Arith.mergeLoop
  by_cases hc : i1 ≤ last1 ∧ i2 ≤ last2
  · rw [if_pos hc]
    have h1 : i1 < m := (hl1 i1 hI.i1lo).1 hc.1
    have h2 : i2 < b := (hl2 i2 hI.i2lo).1 hc.2
    have hqb : q < b := lt_of_le_of_lt hI.i2lo h2
    obtain ⟨hbn, hmq⟩ := hg.bn hqb
    have hi1n : i1 < n := by have := hg.mn; omega
    have hi2n : i2 < n := by omega
    have hidx : st.idx < n := by have := hI.idx; omega
    have hpidx : p ≤ st.idx := by have := hI.idx; have := hI.i1lo; have := hI.i2lo; omega
    rw [rd_nat _ i1 hi1n, rd_nat _ i2 hi2n]
    simp only [Except.ok_bind']
    rw [rd_ok y _ (π ⟨i1, hi1n⟩) rfl, rd_ok y _ (π ⟨i2, hi2n⟩) rfl]
    simp only [Except.ok_bind']
    have hnu : ∀ s : Fin n, (s : ℕ) = i1 ∨ (s : ℕ) = i2 → ¬ Used p q i1 i2 s := by
      intro s hs hu
      have := hI.i1lo; have := hI.i2lo
      rcases hs with hs | hs <;> rcases hu with hu | hu <;> omega
    by_cases hcmp : ge (y (π ⟨i1, hi1n⟩)) (y (π ⟨i2, hi2n⟩)) = true
    · rw [if_pos hcmp, wr_nat _ _ _ hidx]
      simp only [Except.ok_bind']
      apply ih ((m - (i1 + 1)) + (b - i2)) (by omega) _ _ _ rfl
      have hmin : ∀ s' : Fin n, Rem m b i1 i2 s' →
          ge (y (π ⟨i1, hi1n⟩)) (y (π s')) = true := by
        intro s' hs'
        rcases hs' with hs' | hs'
        · exact hg.sorted1 ⟨i1, hi1n⟩ s' hI.i1lo hs'.1 hs'.2
        · exact hge.trans _ _ _ hcmp (hg.sorted2 ⟨i2, hi2n⟩ s' hI.i2lo hs'.1 hs'.2)
      refine ⟨by have := hI.i1lo; omega, by omega, hI.i2lo, hI.i2hi,
        by have := hI.idx; simp only; omega, ?_, ?_, hI.ws⟩
      · apply hI.buf.append hge hpidx hidx ⟨i1, hi1n⟩ (hnu _ (Or.inl rfl))
          (Or.inl ⟨le_refl _, h1⟩) hmin
        · intro s hs
          have := hI.i1lo
          rcases hs with (hs | hs) | hs
          · exact Or.inl ⟨hs.1, by omega⟩
          · exact Or.inr hs
          · subst hs; exact Or.inl ⟨this, by simp⟩
        · intro s hs
          rcases hs with hs | hs
          · exact Or.inl ⟨by omega, hs.2⟩
          · exact Or.inr hs
      · intro s s' h3 h4 h5 h6
        by_cases h7 : (s : ℕ) < i1
        · exact hI.cross s s' h3 h7 h5 h6
        · have : s = ⟨i1, hi1n⟩ := Fin.ext (by simp; omega)
          rw [this]
          exact hmin s' (Or.inr ⟨h5, h6⟩)
    · have hcmp' : ge (y (π ⟨i1, hi1n⟩)) (y (π ⟨i2, hi2n⟩)) = false := by simpa using hcmp
      have hcmp2 : ge (y (π ⟨i2, hi2n⟩)) (y (π ⟨i1, hi1n⟩)) = true := by
        rcases hge.total (y (π ⟨i1, hi1n⟩)) (y (π ⟨i2, hi2n⟩)) with h | h
        · exact absurd h hcmp
        · exact h
      have hlast1 : last1 + 1 = m := hl1' (by have := hI.i1lo; omega)
      rw [if_neg hcmp, wr_nat _ _ _ hidx]
      simp only [Except.ok_bind']
      rw [rd_ok wc _ ⟨m, by have := hg.mn; omega⟩ (by simp; omega),
        rd_ok wc _ ⟨i1, by omega⟩ rfl]
      simp only [Except.ok_bind']
      rw [rd_ok st.ws _ (π ⟨i2, hi2n⟩) rfl]
      simp only [Except.ok_bind']
      rw [wr_ok st.ws _ _ (π ⟨i2, hi2n⟩) rfl]
      simp only [Except.ok_bind']
      apply ih ((m - i1) + (b - (i2 + 1))) (by omega) _ _ _ rfl
      have hmin : ∀ s' : Fin n, Rem m b i1 i2 s' →
          ge (y (π ⟨i2, hi2n⟩)) (y (π s')) = true := by
        intro s' hs'
        rcases hs' with hs' | hs'
        · exact hge.trans _ _ _ hcmp2 (hg.sorted1 ⟨i1, hi1n⟩ s' hI.i1lo hs'.1 hs'.2)
        · exact hg.sorted2 ⟨i2, hi2n⟩ s' hI.i2lo hs'.1 hs'.2
      refine ⟨hI.i1lo, hI.i1hi, by have := hI.i2lo; omega, by omega,
        by have := hI.idx; simp only; omega, ?_, ?_, ?_⟩
      · apply hI.buf.append hge hpidx hidx ⟨i2, hi2n⟩ (hnu _ (Or.inr rfl))
          (Or.inr ⟨le_refl _, h2⟩) hmin
        · intro s hs
          have := hI.i2lo
          rcases hs with (hs | hs) | hs
          · exact Or.inl hs
          · exact Or.inr ⟨hs.1, by omega⟩
          · subst hs; exact Or.inr ⟨this, by simp⟩
        · intro s hs
          rcases hs with hs | hs
          · exact Or.inl hs
          · exact Or.inr ⟨by omega, hs.2⟩
      · intro s s' h3 h4 h5 h6
        exact hI.cross s s' h3 h4 (by omega) h6
      · intro s v
        by_cases hs : s = ⟨i2, hi2n⟩
        · subst hs
          have hin : q ≤ i2 ∧ i2 < i2 + 1 := ⟨hI.i2lo, by omega⟩
          simp only [Function.update_self]
          rw [if_pos hin]
          have hw0 := hI.ws ⟨i2, hi2n⟩ v
          simp only [lt_self_iff_false, and_false, if_false] at hw0
          rw [hw0]
          have hdiff : (∑ t ∈ Finset.univ.filter (fun t : Fin n => t.val < m), w (π t) v)
              - (∑ t ∈ Finset.univ.filter (fun t : Fin n => t.val < i1), w (π t) v)
              = ∑ t ∈ Finset.univ.filter (fun t : Fin n => p ≤ t ∧ (t : ℕ) < m ∧
                ge (y (π t)) (y (π ⟨i2, hi2n⟩)) = false), w (π t) v := by
            rw [sub_eq_iff_eq_add, ← Finset.sum_union]
            · apply Finset.sum_congr _ (fun _ _ => rfl)
              ext t
              simp only [Finset.mem_filter, Finset.mem_univ, true_and, Finset.mem_union]
              constructor
              · intro ht
                by_cases h7 : (t : ℕ) < i1
                · exact Or.inr h7
                · left
                  refine ⟨by have := hI.i1lo; omega, ht, ?_⟩
                  by_contra hne
                  have hne' : ge (y (π t)) (y (π ⟨i2, hi2n⟩)) = true := by simpa using hne
                  exact hcmp (hge.trans _ _ _
                    (hg.sorted1 ⟨i1, hi1n⟩ t hI.i1lo (by rw [Fin.le_def]; simp; omega) ht) hne')
              · rintro (⟨_, h8, _⟩ | h8)
                · exact h8
                · omega
            · rw [Finset.disjoint_filter]
              rintro t _ ⟨h8, _, h9⟩ h10
              have := hI.cross t ⟨i2, hi2n⟩ h8 h10 (le_refl _) h2
              rw [this] at h9
              exact absurd h9 (by simp)
          have htgt : S (π ⟨i2, hi2n⟩) v = g0 (π ⟨i2, hi2n⟩) v
              + ∑ t ∈ Finset.univ.filter (fun t : Fin n => p ≤ t ∧ (t : ℕ) < m ∧
                ge (y (π t)) (y (π ⟨i2, hi2n⟩)) = false), w (π t) v := by
            rw [hg.target ⟨i2, hi2n⟩ hI.i2lo h2, Pi.add_apply, Finset.sum_apply]
          rw [htgt, ← hdiff]
          exact hE.step v _ _ _ _ _ _ (hg.bound0 _ v) (subset_sum_perm hg.subsets π _ v)
            (subset_sum_perm hg.subsets π _ v) (by rw [hdiff]; exact subset_sum_perm hg.subsets π _ v)
            (by rw [hdiff, ← htgt]; exact hg.boundS _ v) (hg.init ⟨i2, hi2n⟩ hI.i2lo h2 v) (hwc ⟨m, _⟩ v)
            (hwc ⟨i1, _⟩ v)
        · have hne : π s ≠ π ⟨i2, hi2n⟩ := fun e => hs (π.injective e)
          have hne' : (s : ℕ) ≠ i2 := fun e => hs (Fin.ext e)
          simp only [Function.update_of_ne hne]
          have hw0 := hI.ws s v
          have : (q ≤ (s : ℕ) ∧ (s : ℕ) < i2 + 1) ↔ (q ≤ (s : ℕ) ∧ (s : ℕ) < i2) := by
            constructor <;> rintro ⟨h8, h9⟩ <;> exact ⟨h8, by omega⟩
          simp only [this]
          exact hw0
  · rw [if_neg hc]
    refine ⟨i1, i2, st, rfl, hI, ?_⟩
    by_contra hne
    apply hc
    constructor
    · rw [hl1 i1 hI.i1lo]; have := hI.i1hi; omega
    · rw [hl2 i2 hI.i2lo]; have := hI.i2hi; omega

/-- Copying the rest of subarray 1. -/
theorem copyRest1_inv {ge : Y → Y → Bool} (hge : IsGe ge) {y : Fin n → Y}
    {π : Equiv.Perm (Fin n)} {p m q b : ℕ} {cur0 : Fin n → ℕ} {w S g0 : Fin n → Fin V → G}
    {ws0 : Fin n → Fin V → R}
    (hg : MGeom ge y π p m q b B rel0 w S g0 ws0) (last1 : ℕ) (hl : last1 + 1 = m)
    (i1 : ℕ) (st : MergeState R n V) (hI : MInv ge y π p m q b cur0 rel1 S ws0 i1 b st) :
    ∃ cur' idx', copyRest (fun i => (π i : ℕ)) i1 last1 st.cur st.idx = .ok (cur', idx') ∧
      MInv ge y π p m q b cur0 rel1 S ws0 m b { st with cur := cur', idx := idx' } := by
  have hi1lo := hI.i1lo; have hi1hi := hI.i1hi; have hidx0 := hI.idx
  have hmn := hg.mn; have hqb := hg.qb; have hbn := hg.bn; have hmq := hg.mq
  obtain ⟨cur', e, hP⟩ := foldlM_range_inv (last1 + 1 - i1) (fun cur (k : ℕ) => do
    let v ← rd (fun i : Fin n => (π i : ℕ)) ((i1 : ℤ) + k)
    wr cur ((st.idx : ℤ) + k) v)
    (fun k cur => CInv ge y π p (st.idx + k) (Used p q (i1 + k) b) (Rem m b (i1 + k) b) cur0 cur)
    st.cur (by simpa using hI.buf) (by
      intro k hk cur hC
      have h1 : i1 + k < n := by omega
      have h2 : st.idx + k < n := by
        rcases Nat.lt_or_ge q b with h | h
        · have := hbn h; omega
        · omega
      rw [rd_ok _ _ ⟨i1 + k, h1⟩ (by simp)]
      simp only [Except.ok_bind']
      rw [wr_ok _ _ _ ⟨st.idx + k, h2⟩ (by simp)]
      refine ⟨_, rfl, ?_⟩
      apply hC.append hge (by omega) h2 ⟨i1 + k, h1⟩
      · rintro (hu | hu)
        · simp at hu
        · simp at hu; omega
      · exact Or.inl ⟨le_refl _, by simp; omega⟩
      · rintro s (hs | hs)
        · exact hg.sorted1 ⟨i1 + k, h1⟩ s (by simp; omega) hs.1 hs.2
        · omega
      · rintro s ((hs | hs) | hs)
        · exact Or.inl ⟨hs.1, by omega⟩
        · exact Or.inr hs
        · subst hs; exact Or.inl ⟨by simp; omega, by simp⟩
      · rintro s (hs | hs)
        · exact Or.inl ⟨by omega, hs.2⟩
        · exact Or.inr hs)
  refine ⟨cur', st.idx + (last1 + 1 - i1), ?_, ?_⟩
  · unfold copyRest
    rw [e]
    rfl
  · have e1 : i1 + (last1 + 1 - i1) = m := by omega
    rw [e1] at hP
    refine ⟨by omega, le_refl _, hqb, le_refl _, by simp only; omega, hP, ?_, hI.ws⟩
    intro s s' _ _ h3 h4
    omega

/-- Copying the rest of subarray 2. -/
theorem copyRest2_inv (hE : A.Step B rel0 rel1 wrel) {ge : Y → Y → Bool} (hge : IsGe ge) {y : Fin n → Y}
    {π : Equiv.Perm (Fin n)} {p m q b : ℕ} {cur0 : Fin n → ℕ} {w S g0 : Fin n → Fin V → G}
    {ws0 : Fin n → Fin V → R}
    (hg : MGeom ge y π p m q b B rel0 w S g0 ws0) (last2 : ℕ) (hl : last2 + 1 = b)
    (i2 : ℕ) (hi2 : i2 < b) (st : MergeState R n V)
    (hI : MInv ge y π p m q b cur0 rel1 S ws0 m i2 st) :
    ∃ cur' idx', copyRest (fun i => (π i : ℕ)) i2 last2 st.cur st.idx = .ok (cur', idx') ∧
      MInv ge y π p m q b cur0 rel1 S ws0 m b { st with cur := cur', idx := idx' } := by
  have hi2lo := hI.i2lo; have hi2hi := hI.i2hi; have hidx0 := hI.idx
  have hpm := hg.pm
  obtain ⟨hbn, hmq⟩ := hg.bn (by omega)
  obtain ⟨cur', e, hP⟩ := foldlM_range_inv (last2 + 1 - i2) (fun cur (k : ℕ) => do
    let v ← rd (fun i : Fin n => (π i : ℕ)) ((i2 : ℤ) + k)
    wr cur ((st.idx : ℤ) + k) v)
    (fun k cur => CInv ge y π p (st.idx + k) (Used p q m (i2 + k)) (Rem m b m (i2 + k)) cur0 cur)
    st.cur (by simpa using hI.buf) (by
      intro k hk cur hC
      have h1 : i2 + k < n := by omega
      have h2 : st.idx + k < n := by omega
      rw [rd_ok _ _ ⟨i2 + k, h1⟩ (by simp)]
      simp only [Except.ok_bind']
      rw [wr_ok _ _ _ ⟨st.idx + k, h2⟩ (by simp)]
      refine ⟨_, rfl, ?_⟩
      apply hC.append hge (by omega) h2 ⟨i2 + k, h1⟩
      · rintro (hu | hu)
        · simp at hu; omega
        · simp at hu
      · exact Or.inr ⟨le_refl _, by simp; omega⟩
      · rintro s (hs | hs)
        · omega
        · exact hg.sorted2 ⟨i2 + k, h1⟩ s (by simp; omega) hs.1 hs.2
      · rintro s ((hs | hs) | hs)
        · exact Or.inl hs
        · exact Or.inr ⟨hs.1, by omega⟩
        · subst hs; exact Or.inr ⟨by simp; omega, by simp⟩
      · rintro s (hs | hs)
        · exact Or.inl hs
        · exact Or.inr ⟨by omega, hs.2⟩)
  refine ⟨cur', st.idx + (last2 + 1 - i2), ?_, ?_⟩
  · unfold copyRest
    rw [e]
    rfl
  · have e1 : i2 + (last2 + 1 - i2) = b := by omega
    rw [e1] at hP
    refine ⟨hpm, le_refl _, by omega, le_refl _, by simp only; omega, hP, ?_, ?_⟩
    · intro s s' _ _ h3 h4
      omega
    · intro s v
      have hw0 := hI.ws s v
      simp only
      by_cases h3 : q ≤ (s : ℕ) ∧ (s : ℕ) < i2
      · rw [if_pos h3] at hw0
        rw [if_pos ⟨h3.1, by omega⟩]
        exact hw0
      · rw [if_neg h3] at hw0
        by_cases h4 : q ≤ (s : ℕ) ∧ (s : ℕ) < b
        · rw [if_pos h4, hg.target s h4.1 h4.2, Finset.sum_eq_zero, add_zero, hw0]
          · exact hE.mono _ _ _ (hg.init s h4.1 h4.2 v)
          intro t ht
          simp only [Finset.mem_filter, Finset.mem_univ, true_and] at ht
          have := hI.cross t s ht.1 ht.2.1 (by omega) h4.2
          rw [this] at ht
          exact absurd ht.2.2 (by simp)
        · rw [if_neg h4]
          exact hw0

end Dcor

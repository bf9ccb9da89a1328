/-
The passes of the mergesort algorithm: block invariant, final weight sums.
-/
import Verif.Proofs.Merge
import Mathlib.Tactic.Linarith

namespace Dcor

variable {R G : Type} [AddCommGroup G] {Y : Type} {n V : ℕ} {A : Arith R} {emb : G → R} {B : G → Prop}
  {rel0 rel1 wrel : Fin V → G → R → Prop}

/-- Weights of the earlier, strictly smaller elements in the same block of length `len`. -/
def blockSum (ge : Y → Y → Bool) (y : Fin n → Y) (w : Fin n → Fin V → G) (len : ℕ) (j : Fin n) :
    Fin V → G :=
  ∑ i ∈ Finset.univ.filter (fun i : Fin n => i < j ∧ (i : ℕ) / len = (j : ℕ) / len ∧
    ge (y i) (y j) = false), w i

theorem blockSum_bound {ge : Y → Y → Bool} {y : Fin n → Y} {w : Fin n → Fin V → G}
    (hB : ∀ (T : Finset (Fin n)) v, B (∑ t ∈ T, w t v)) (len : ℕ) (j : Fin n) (v : Fin V) :
    B (blockSum ge y w len j v) := by
  rw [blockSum, Finset.sum_apply]
  exact hB _ v

/-- Invariant of a buffer of indices sorted within blocks of length `len`. -/
structure BlockSorted (ge : Y → Y → Bool) (y : Fin n → Y) (len : ℕ) (π : Equiv.Perm (Fin n)) :
    Prop where
  block : ∀ t, ((π t : Fin n) : ℕ) / len = (t : ℕ) / len
  sorted : ∀ s s' : Fin n, s ≤ s' → (s : ℕ) / len = (s' : ℕ) / len →
    ge (y (π s)) (y (π s')) = true

/-- Invariant over the pairs already merged in one pass. -/
structure PInv (ge : Y → Y → Bool) (y : Fin n → Y) (rel0 rel1 : Fin V → G → R → Prop)
    (w : Fin n → Fin V → G) (len : ℕ) (k : ℕ)
    (st : MergeState R n V) : Prop where
  idx : st.idx = min (k * (2 * len)) n
  mem : ∀ t : Fin n, (t : ℕ) < st.idx → ∃ c : Fin n, st.cur t = c ∧
    (c : ℕ) / (2 * len) = (t : ℕ) / (2 * len)
  inj : ∀ t t' : Fin n, (t : ℕ) < st.idx → (t' : ℕ) < st.idx → st.cur t = st.cur t' → t = t'
  sorted : ∀ t t' : Fin n, t ≤ t' → (t' : ℕ) < st.idx → (t : ℕ) / (2 * len) = t' / (2 * len) →
    ∀ a b : Fin n, st.cur t = a → st.cur t' = b → ge (y a) (y b) = true
  ws : ∀ (j : Fin n) (v : Fin V), if (j : ℕ) < st.idx then rel1 v (blockSum ge y w (2 * len) j v) (st.ws j v)
    else rel0 v (blockSum ge y w len j v) (st.ws j v)

private theorem div_iff {a b c : ℕ} (h : 0 < b) : a / b = c ↔ c * b ≤ a ∧ a < c * b + b := by
  rw [Nat.div_eq_iff h]
  constructor
  · rintro ⟨h1, h2⟩; exact ⟨h1, by omega⟩
  · rintro ⟨h1, h2⟩; exact ⟨h1, by omega⟩

theorem mergePair_inv (hE : A.Step B rel0 rel1 wrel) {ge : Y → Y → Bool} (hge : IsGe ge) {y : Fin n → Y}
    {π : Equiv.Perm (Fin n)} {w : Fin n → Fin V → G} {len : ℕ} (hlen : 0 < len)
    (hB : ∀ (T : Finset (Fin n)) v, B (∑ t ∈ T, w t v))
    (hπ : BlockSorted ge y len π) (wc : Fin (n + 1) → Fin V → R)
    (hwc : ∀ k v, wrel v (∑ t ∈ Finset.univ.filter (fun t : Fin n => t.val < k.val), w (π t) v) (wc k v))
    (k : ℕ) (hk : k * (2 * len) < n) (st : MergeState R n V) (hP : PInv ge y rel0 rel1 w len k st) :
    ∃ st', A.mergePair ge y wc (fun i => (π i : ℕ)) len st (k * (2 * len)) = .ok st' ∧
      PInv ge y rel0 rel1 w len (k + 1) st' := by
  set p := k * (2 * len) with hp
  have hp1 : (2 * k) * len = p := by rw [hp]; ring
  have hp2 : (2 * k + 1) * len = p + len := by rw [add_mul, hp1]; ring
  have hp3 : (k + 1) * (2 * len) = p + 2 * len := by rw [add_mul, ← hp]; ring
  have hdA : ∀ a : ℕ, a / len = 2 * k ↔ p ≤ a ∧ a < p + len := by
    intro a; rw [div_iff hlen, hp1]
  have hdB : ∀ a : ℕ, a / len = 2 * k + 1 ↔ p + len ≤ a ∧ a < p + len + len := by
    intro a; rw [div_iff hlen, hp2]
  have hdG : ∀ a : ℕ, a / (2 * len) = k ↔ p ≤ a ∧ a < p + 2 * len := by
    intro a; rw [div_iff (by omega)]
  have hbl : ∀ s : Fin n, (p ≤ (s : ℕ) ∧ (s : ℕ) < p + len) →
      (p ≤ ((π s : Fin n) : ℕ) ∧ ((π s : Fin n) : ℕ) < p + len) := by
    intro s hs
    rw [← hdA, hπ.block s, hdA]; exact hs
  have hbl2 : ∀ s : Fin n, (p + len ≤ (s : ℕ) ∧ (s : ℕ) < p + len + len) →
      (p + len ≤ ((π s : Fin n) : ℕ) ∧ ((π s : Fin n) : ℕ) < p + len + len) := by
    intro s hs
    rw [← hdB, hπ.block s, hdB]; exact hs
  set m := min (p + len) n with hm
  set b := max (min (p + 2 * len) n) (p + len) with hb
  have hidx : st.idx = p := by rw [hP.idx, min_eq_left (le_of_lt hk)]
  -- the sum over a whole gap block
  have hgapA : ∀ j : Fin n, p ≤ (j : ℕ) → (j : ℕ) < p + len →
      blockSum ge y w (2 * len) j = blockSum ge y w len j := by
    intro j h1 h2
    unfold blockSum
    apply Finset.sum_congr _ (fun _ _ => rfl)
    ext i
    simp only [Finset.mem_filter, Finset.mem_univ, true_and]
    rw [(hdG j).2 ⟨h1, by omega⟩, (hdA j).2 ⟨h1, h2⟩, hdA, hdG]
    constructor
    · rintro ⟨a1, a2, a3⟩; exact ⟨a1, ⟨a2.1, by have : (i : ℕ) < j := a1; omega⟩, a3⟩
    · rintro ⟨a1, a2, a3⟩; exact ⟨a1, ⟨a2.1, by omega⟩, a3⟩
  have hgapB : ∀ s : Fin n, p + len ≤ (s : ℕ) → (s : ℕ) < b →
      blockSum ge y w (2 * len) (π s) = blockSum ge y w len (π s)
    + ∑ t ∈ Finset.univ.filter (fun t : Fin n => p ≤ t ∧ (t : ℕ) < m ∧
        ge (y (π t)) (y (π s)) = false), w (π t) := by
    intro s h1 h2
    have hs := hbl2 s ⟨h1, by omega⟩
    have e1 : ∑ t ∈ Finset.univ.filter (fun t : Fin n => p ≤ t ∧ (t : ℕ) < m ∧
        ge (y (π t)) (y (π s)) = false), w (π t)
        = ∑ i ∈ Finset.univ.filter (fun i : Fin n => (i : ℕ) / len = 2 * k ∧
        ge (y i) (y (π s)) = false), w i := by
      apply Finset.sum_equiv π
      · intro t
        simp only [Finset.mem_filter, Finset.mem_univ, true_and]
        rw [hπ.block t, hdA, ← and_assoc]
        have := t.2
        constructor
        · rintro ⟨⟨a1, a2⟩, a3⟩; exact ⟨⟨a1, by omega⟩, a3⟩
        · rintro ⟨⟨a1, a2⟩, a3⟩; exact ⟨⟨a1, by omega⟩, a3⟩
      · intro _ _; rfl
    rw [e1]
    unfold blockSum
    rw [← Finset.sum_union]
    · apply Finset.sum_congr _ (fun _ _ => rfl)
      ext i
      simp only [Finset.mem_filter, Finset.mem_univ, true_and, Finset.mem_union]
      rw [(hdG (π s)).2 ⟨by omega, by omega⟩, (hdB (π s)).2 hs, hdA, hdB, hdG]
      constructor
      · rintro ⟨a1, a2, a3⟩
        by_cases h : (i : ℕ) < p + len
        · exact Or.inr ⟨⟨a2.1, h⟩, a3⟩
        · exact Or.inl ⟨a1, ⟨by omega, by omega⟩, a3⟩
      · rintro (⟨a1, a2, a3⟩ | ⟨a1, a3⟩)
        · exact ⟨a1, ⟨by omega, by omega⟩, a3⟩
        · exact ⟨by rw [Fin.lt_def]; omega, ⟨by omega, by omega⟩, a3⟩
    · rw [Finset.disjoint_filter]
      rintro i _ ⟨_, a2, _⟩ ⟨a3, _⟩
      rw [(hdB (π s)).2 hs] at a2
      omega
  have hg : MGeom ge y π p m (p + len) b B rel0 w (blockSum ge y w (2 * len)) (blockSum ge y w len) st.ws := by
    refine ⟨by omega, by omega, by omega, by omega, fun h => ⟨by omega, by omega⟩, ?_, ?_, ?_, hB,
      fun j v => blockSum_bound hB _ j v, fun j v => blockSum_bound hB _ j v, ?_⟩
    · intro s s' h1 h2 h3
      apply hπ.sorted s s' h2
      rw [(hdA s).2 ⟨h1, by have : (s : ℕ) ≤ s' := h2; omega⟩,
        (hdA s').2 ⟨by have : (s : ℕ) ≤ s' := h2; omega, by omega⟩]
    · intro s s' h1 h2 h3
      apply hπ.sorted s s' h2
      have : (s : ℕ) ≤ s' := h2
      rw [(hdB s).2 ⟨h1, by omega⟩, (hdB s').2 ⟨by omega, by omega⟩]
    · intro s h1 h2
      exact hgapB s h1 h2
    · intro s h1 h2 v
      have hs := hbl2 s ⟨h1, by omega⟩
      have := hP.ws (π s) v
      rw [if_neg (by omega)] at this
      exact this
  have hI0 : MInv ge y π p m (p + len) b st.cur rel1 (blockSum ge y w (2 * len)) st.ws p (p + len)
      st := by
    refine ⟨le_refl _, by omega, le_refl _, by omega, by omega, ?_, ?_, ?_⟩
    · refine ⟨?_, ?_, ?_, ?_, fun _ _ => rfl⟩
      · intro t h1 h2; omega
      · intro t t' h1 h2; omega
      · intro t t' h1 h2 h3; have : (t : ℕ) ≤ t' := h2; omega
      · intro t h1 h2; omega
    · intro s s' h1 h2; omega
    · intro s v; rw [if_neg (by omega)]
  have hlast1 : min (p + len - 1) (n - 1) + 1 = m := by omega
  have hl1 : ∀ i, p ≤ i → (i ≤ min (p + len - 1) (n - 1) ↔ i < m) := by intro i _; omega
  have hl2 : ∀ i, p + len ≤ i → (i ≤ min (p + len + len - 1) (n - 1) ↔ i < b) := by
    intro i _; omega
  obtain ⟨i1, i2, st1, e1, hI1, hdone⟩ := mergeLoop_inv hE hge hg wc hwc
    (min (p + len - 1) (n - 1)) (min (p + len + len - 1) (n - 1)) hl1 (fun _ => hlast1) hl2
    _ p (p + len) st rfl hI0
  -- after copying the rest everything is consumed
  have hfin : ∃ st', A.mergePair ge y wc (fun i => (π i : ℕ)) len st p = .ok st' ∧
      MInv ge y π p m (p + len) b st.cur rel1 (blockSum ge y w (2 * len)) st.ws m b st' := by
    unfold Arith.mergePair
    simp only
    rw [e1]
    simp only [Except.ok_bind']
    by_cases h1 : i1 ≤ min (p + len - 1) (n - 1)
    · rw [if_pos h1]
      have : i1 < m := (hl1 i1 hI1.i1lo).1 h1
      have hi2 : i2 = b := by omega
      subst hi2
      obtain ⟨cur', idx', e2, hI2⟩ := copyRest1_inv hge hg _ hlast1 i1 st1 hI1
      rw [e2]
      exact ⟨_, rfl, hI2⟩
    · rw [if_neg h1]
      have hi1 : i1 = m := by
        have := hl1 i1 hI1.i1lo
        have := hI1.i1hi
        omega
      subst hi1
      by_cases h2 : i2 ≤ min (p + len + len - 1) (n - 1)
      · rw [if_pos h2]
        have h3 : i2 < b := (hl2 i2 hI1.i2lo).1 h2
        have := hI1.i2lo
        obtain ⟨cur', idx', e2, hI2⟩ := copyRest2_inv hE hge hg
          (min (p + len + len - 1) (n - 1)) (by omega) i2 h3 st1 hI1
        rw [e2]
        exact ⟨_, rfl, hI2⟩
      · rw [if_neg h2]
        have hi2 : i2 = b := by
          have := hl2 i2 hI1.i2lo
          have := hI1.i2hi
          omega
        subst hi2
        exact ⟨_, rfl, hI1⟩
  obtain ⟨st', e', hI'⟩ := hfin
  refine ⟨st', e', ?_⟩
  have hidx' : st'.idx = min (p + 2 * len) n := by have := hI'.idx; omega
  have hmem : ∀ t : Fin n, p ≤ (t : ℕ) → (t : ℕ) < st'.idx → ∃ c : Fin n, st'.cur t = c ∧
      p ≤ (c : ℕ) ∧ (c : ℕ) < p + 2 * len := by
    intro t h1 h2
    obtain ⟨s, hs, hs'⟩ := hI'.buf.mem t h1 h2
    refine ⟨π s, hs', ?_⟩
    rcases hs with hs | hs
    · have := hbl s ⟨hs.1, by omega⟩; omega
    · have := hbl2 s ⟨hs.1, by omega⟩; omega
  have hmem0 : ∀ t : Fin n, (t : ℕ) < p → ∃ c : Fin n, st'.cur t = c ∧ st.cur t = c ∧
      (c : ℕ) / (2 * len) = (t : ℕ) / (2 * len) := by
    intro t h1
    obtain ⟨c, hc, hc'⟩ := hP.mem t (by omega)
    exact ⟨c, by rw [hI'.buf.below t h1, hc], hc, hc'⟩
  have hltk : ∀ t : ℕ, t < p → t / (2 * len) < k := by
    intro t ht
    rw [Nat.div_lt_iff_lt_mul (by omega)]
    exact ht
  refine ⟨by rw [hidx', hp3], ?_, ?_, ?_, ?_⟩
  · intro t ht
    by_cases h1 : (t : ℕ) < p
    · obtain ⟨c, hc, _, hc'⟩ := hmem0 t h1
      exact ⟨c, hc, hc'⟩
    · obtain ⟨c, hc, h3⟩ := hmem t (by omega) ht
      refine ⟨c, hc, ?_⟩
      rw [(hdG c).2 h3, (hdG t).2 ⟨by omega, by omega⟩]
  · intro t t' ht ht' e
    by_cases h1 : (t : ℕ) < p <;> by_cases h1' : (t' : ℕ) < p
    · rw [hI'.buf.below t h1, hI'.buf.below t' h1'] at e
      exact hP.inj t t' (by omega) (by omega) e
    · obtain ⟨c, hc, _, hc'⟩ := hmem0 t h1
      obtain ⟨c2, hc2, hc2'⟩ := hmem t' (by omega) ht'
      have := hltk t h1
      have h4 := (hdG c2).2 hc2'
      have : c = c2 := Fin.ext (by rw [← hc, ← hc2, e])
      subst this
      omega
    · obtain ⟨c, hc, _, hc'⟩ := hmem0 t' h1'
      obtain ⟨c2, hc2, hc2'⟩ := hmem t (by omega) ht
      have := hltk t' h1'
      have h4 := (hdG c2).2 hc2'
      have : c = c2 := Fin.ext (by rw [← hc, ← hc2, e])
      subst this
      omega
    · exact hI'.buf.inj t t' (by omega) ht (by omega) ht' e
  · intro t t' htt ht' hblk a c ha hc
    have hle : (t : ℕ) ≤ t' := htt
    by_cases h1 : (t : ℕ) < p
    · have h2 : (t' : ℕ) < p := by
        by_contra h2
        have h3 := (hdG t').2 ⟨by omega, by omega⟩
        have := hltk t h1
        omega
      rw [hI'.buf.below t h1] at ha
      rw [hI'.buf.below t' h2] at hc
      exact hP.sorted t t' htt (by omega) hblk a c ha hc
    · exact hI'.buf.sorted t t' (by omega) htt ht' a c ha hc
  · intro j v
    obtain ⟨s, rfl⟩ := π.surjective j
    have hw := hI'.ws s v
    have hw0 := hP.ws (π s) v
    by_cases h1 : p + len ≤ (s : ℕ) ∧ (s : ℕ) < b
    · have hs := hbl2 s ⟨h1.1, by omega⟩
      have := (π s).2
      rw [if_pos h1] at hw
      rw [if_pos (by omega)]
      exact hw
    · rw [if_neg h1] at hw
      rw [hw]
      by_cases h2 : ((π s : Fin n) : ℕ) < p
      · rw [if_pos (by omega)] at hw0
        rw [if_pos (by omega)]
        exact hw0
      · rw [if_neg (by omega)] at hw0
        by_cases h3 : ((π s : Fin n) : ℕ) < st'.idx
        · rw [if_pos h3]
          have hA : ((π s : Fin n) : ℕ) < p + len := by
            by_contra h4
            apply h1
            have h5 : ((π s : Fin n) : ℕ) / len = 2 * k + 1 := (hdB _).2 ⟨by omega, by omega⟩
            rw [hπ.block s, hdB] at h5
            have := s.2
            exact ⟨h5.1, by omega⟩
          rw [hgapA (π s) (by omega) hA]
          exact hE.mono _ _ _ hw0
        · rw [if_neg h3]
          exact hw0

theorem rangeStep_length (n gap : ℕ) : (rangeStep n gap).length = (n + gap - 1) / gap := by
  simp [rangeStep]

/-- One pass sorts the blocks of double length. -/
theorem pass_inv (hE : A.Step B rel0 rel1 wrel) {ge : Y → Y → Bool} (hge : IsGe ge) {y : Fin n → Y}
    {π : Equiv.Perm (Fin n)} {w : Fin n → Fin V → G} {len : ℕ} (hlen : 0 < len)
    (hB : ∀ (T : Finset (Fin n)) v, B (∑ t ∈ T, w t v))
    (hπ : BlockSorted ge y len π) (wc : Fin (n + 1) → Fin V → R)
    (hwc : ∀ k v, wrel v (∑ t ∈ Finset.univ.filter (fun t : Fin n => t.val < k.val), w (π t) v) (wc k v))
    (cur : Fin n → ℕ) (ws : Fin n → Fin V → R) (hws : ∀ j v, rel0 v (blockSum ge y w len j v) (ws j v))
    (u : ℕ) :
    ∃ st', (rangeStep n (2 * len)).foldlM (A.mergePair ge y wc (fun i => (π i : ℕ)) len)
        { cur := cur, idx := 0, ws := ws, updates := u } = .ok st' ∧
      ∃ π' : Equiv.Perm (Fin n), st'.cur = (fun i => (π' i : ℕ)) ∧
        BlockSorted ge y (2 * len) π' ∧ ∀ j v, rel1 v (blockSum ge y w (2 * len) j v) (st'.ws j v) := by
  obtain ⟨st', e, hP⟩ := foldlM_inv (A.mergePair ge y wc (fun i => (π i : ℕ)) len)
    (rangeStep n (2 * len)) (fun k st => PInv ge y rel0 rel1 w len k st)
    { cur := cur, idx := 0, ws := ws, updates := u }
    (by
      refine ⟨by simp, ?_, ?_, ?_, ?_⟩
      · intro t ht; simp at ht
      · intro t t' ht; simp at ht
      · intro t t' _ ht; simp at ht
      · intro j v; simp [hws])
    (by
      intro k hk st hP
      have hk' : k * (2 * len) < n := by
        rw [rangeStep_length, Nat.lt_div_iff_mul_lt (by omega)] at hk
        omega
      have : (rangeStep n (2 * len))[k] = k * (2 * len) := by simp [rangeStep]
      rw [this]
      exact mergePair_inv hE hge hlen hB hπ wc hwc k hk' st hP)
  refine ⟨st', e, ?_⟩
  have hidx : st'.idx = n := by
    rw [hP.idx, rangeStep_length]
    apply min_eq_right
    have h1 := Nat.div_add_mod (n + 2 * len - 1) (2 * len)
    have h2 := Nat.mod_lt (n + 2 * len - 1) (show 2 * len > 0 by omega)
    rw [mul_comm] at h1
    omega
  have hlt : ∀ t : Fin n, (t : ℕ) < st'.idx := by intro t; rw [hidx]; exact t.2
  choose f hf hf' using fun t => hP.mem t (hlt t)
  have hinj : Function.Injective f := by
    intro t t' h
    exact hP.inj t t' (hlt t) (hlt t') (by rw [hf, hf, h])
  let π' : Equiv.Perm (Fin n) := Equiv.ofBijective f (Finite.injective_iff_bijective.1 hinj)
  refine ⟨π', by funext t; exact hf t, ⟨fun t => hf' t, ?_⟩, ?_⟩
  · intro s s' h1 h2
    exact hP.sorted s s' h1 (hlt s') h2 _ _ (hf s) (hf s')
  · intro j v
    have := hP.ws j v
    rwa [if_pos (hlt j)] at this

/-- The values of `np.cumsum` are those of the group. -/
theorem Arith.cumsum_emb (hE : A.Embeds emb B) {m : ℕ} (v : Fin m → G)
    (hB : ∀ T : Finset (Fin m), B (∑ t ∈ T, v t)) :
    ∀ (k : ℕ) (hk : k < m), A.cumsumAt (fun t => emb (v t)) k hk
      = emb (∑ t ∈ Finset.univ.filter (fun t : Fin m => t.val < k + 1), v t)
  | 0, hk => by
    have : Finset.univ.filter (fun t : Fin m => t.val < 0 + 1) = {⟨0, hk⟩} := by
      ext t; simp [Fin.ext_iff]
    rw [this, Finset.sum_singleton]
    rfl
  | k + 1, hk => by
    have hsplit : Finset.univ.filter (fun t : Fin m => t.val < k + 1 + 1)
        = insert ⟨k + 1, hk⟩ (Finset.univ.filter (fun t : Fin m => t.val < k + 1)) := by
      ext t
      simp only [Finset.mem_filter, Finset.mem_univ, true_and, Finset.mem_insert, Fin.ext_iff]
      omega
    have hsum : ∑ t ∈ Finset.univ.filter (fun t : Fin m => t.val < k + 1 + 1), v t
        = (∑ t ∈ Finset.univ.filter (fun t : Fin m => t.val < k + 1), v t) + v ⟨k + 1, hk⟩ := by
      rw [hsplit, Finset.sum_insert (by simp), add_comm]
    have h1 : B (v ⟨k + 1, hk⟩) := by simpa using hB {⟨k + 1, hk⟩}
    show A.add (A.cumsumAt _ k _) (emb (v ⟨k + 1, hk⟩)) = _
    rw [Arith.cumsum_emb hE v hB k (by omega), hE.add _ _ (hB _) h1 (by rw [← hsum]; exact hB _), hsum]

theorem weightsCumsum_emb (hE : A.Embeds emb B) {w : Fin n → Fin V → G}
    (hB : ∀ (T : Finset (Fin n)) v, B (∑ t ∈ T, w t v)) (π : Equiv.Perm (Fin n)) :
    A.weightsCumsum (fun i v => emb (w i v)) (fun i => (π i : ℕ))
      = .ok (fun k v => emb (∑ t ∈ Finset.univ.filter (fun t : Fin n => t.val < k.val), w (π t) v)) := by
  unfold Arith.weightsCumsum
  rw [dif_pos (fun t => (π t).2)]
  congr 1
  funext k v
  by_cases hk : (k : ℕ) = 0
  · rw [dif_pos hk, hE.zero]
    congr 1
    symm
    apply Finset.sum_eq_zero
    intro t ht
    simp [hk] at ht
  · rw [dif_neg hk]
    have := Arith.cumsum_emb hE (fun t => w (π t) v) (fun T => subset_sum_perm hB π T v) (k - 1) (by omega)
    have hk1 : (k : ℕ) - 1 + 1 = k := by omega
    rw [hk1] at this
    exact this

/-- The passes, for an arithmetic related to that of a group. -/
theorem Arith.mergePasses_step {rel : ℕ → Fin V → G → R → Prop} (hE : ∀ k, A.Step B (rel k) (rel (k + 1)) wrel)
    {ge : Y → Y → Bool} (hge : IsGe ge) {y : Fin n → Y} {w : Fin n → Fin V → G} {w' : Fin n → Fin V → R}
    (hB : ∀ (T : Finset (Fin n)) v, B (∑ t ∈ T, w t v))
    (hc : ∀ π : Equiv.Perm (Fin n), ∃ wc, A.weightsCumsum w' (fun i => (π i : ℕ)) = .ok wc ∧
      ∀ k v, wrel v (∑ t ∈ Finset.univ.filter (fun t : Fin n => t.val < k.val), w (π t) v) (wc k v)) :
    ∀ (d k : ℕ) (hlen : 0 < 2 ^ k) (π : Equiv.Perm (Fin n))
    (cur : Fin n → ℕ) (ws : Fin n → Fin V → R) (u : ℕ), n - 2 ^ k = d → k ≤ Nat.clog 2 n →
    BlockSorted ge y (2 ^ k) π → (∀ j v, rel k v (blockSum ge y w (2 ^ k) j v) (ws j v)) →
    ∃ (π' : Equiv.Perm (Fin n)) (ws' : Fin n → Fin V → R) (u' : ℕ), A.mergePasses ge y w' (2 ^ k) hlen
        (fun i => (π i : ℕ)) cur ws u = .ok (fun i => (π' i : ℕ), ws', u')
      ∧ (∀ j v, rel (Nat.clog 2 n) v (∑ i ∈ Finset.univ.filter
          (fun i : Fin n => i < j ∧ ge (y i) (y j) = false), w i v) (ws' j v))
      ∧ ∀ s s' : Fin n, s ≤ s' → ge (y (π' s)) (y (π' s')) = true := by
  intro d
  induction d using Nat.strong_induction_on with
  | _ d ih =>
  intro k hlen π cur ws u hd hk hπ hws
  unfold Arith.mergePasses
  by_cases h : 2 ^ k < n
  · obtain ⟨wc, ec, hwc⟩ := hc π
    rw [if_pos h, ec]
    simp only [Except.ok_bind']
    obtain ⟨st', e, π', h1, h2, h3⟩ := pass_inv (hE k) hge hlen hB hπ wc hwc cur ws hws u
    rw [e]
    simp only [Except.ok_bind']
    rw [h1]
    have h4 : 2 * 2 ^ k = 2 ^ (k + 1) := by rw [pow_succ]; ring
    have h5 : k + 1 ≤ Nat.clog 2 n := (Nat.lt_clog_iff_pow_lt (by norm_num)).2 h
    have := ih (n - 2 ^ (k + 1)) (by omega) (k + 1) (by positivity) π' (fun i => (π i : ℕ)) st'.ws st'.updates rfl h5
      (h4 ▸ h2) (h4 ▸ h3)
    simp only [← h4] at this
    exact this
  · rw [if_neg h]
    have hz : ∀ t : Fin n, (t : ℕ) / 2 ^ k = 0 := fun t =>
      Nat.div_eq_of_lt (lt_of_lt_of_le t.2 (by omega))
    refine ⟨π, ws, u, rfl, fun j v => ?_, ?_⟩
    · have hm : ∀ l, k ≤ l → ∀ v g r, rel k v g r → rel l v g r := by
        intro l hl
        induction l, hl using Nat.le_induction with
        | base => exact fun _ _ _ h => h
        | succ l _ ih => exact fun v g r h => (hE l).mono v g r (ih v g r h)
      have := hm _ hk v _ _ (hws j v)
      unfold blockSum at this
      simpa only [hz, true_and, Finset.sum_apply] using this
    · intro s s' hss
      exact hπ.sorted s s' hss (by rw [hz, hz])

/-- `_compute_weight_sums` never fails and `weight_sums[v, j]` is related to the sum of the weights of the earlier,
strictly smaller elements, after at most `ceil(log2(n))` updates. -/
theorem Arith.computeWeightSums_step {rel : ℕ → Fin V → G → R → Prop} (hE : ∀ k, A.Step B (rel k) (rel (k + 1)) wrel)
    (hzero : ∀ v, rel 0 v 0 (A.ofInt 0)) {ge : Y → Y → Bool} (hge : IsGe ge) (y : Fin n → Y)
    {w : Fin n → Fin V → G} {w' : Fin n → Fin V → R} (hB : ∀ (T : Finset (Fin n)) v, B (∑ t ∈ T, w t v))
    (hc : ∀ π : Equiv.Perm (Fin n), ∃ wc, A.weightsCumsum w' (fun i => (π i : ℕ)) = .ok wc ∧
      ∀ k v, wrel v (∑ t ∈ Finset.univ.filter (fun t : Fin n => t.val < k.val), w (π t) v) (wc k v)) :
    ∃ (π' : Equiv.Perm (Fin n)) (ws' : Fin n → Fin V → R) (u' : ℕ), A.computeWeightSums ge y w'
        = .ok (fun i => (π' i : ℕ), ws', u')
      ∧ (∀ j v, rel (Nat.clog 2 n) v (∑ i ∈ Finset.univ.filter
          (fun i : Fin n => i < j ∧ ge (y i) (y j) = false), w i v) (ws' j v))
      ∧ ∀ s s' : Fin n, s ≤ s' → ge (y (π' s)) (y (π' s')) = true := by
  unfold Arith.computeWeightSums
  refine Arith.mergePasses_step hE hge hB hc (n - 1) 0 (by norm_num) (Equiv.refl _) (fun _ => 0) _ 0
    rfl (Nat.zero_le _) ⟨fun t => rfl, ?_⟩ ?_
  · intro s s' _ h
    simp only [pow_zero, Nat.div_one] at h
    have : s = s' := Fin.ext h
    rw [this]
    exact hge.refl _
  · intro j v
    have : blockSum ge y w (2 ^ 0) j v = 0 := by
      unfold blockSum
      rw [Finset.sum_eq_zero]
      · rfl
      · intro i hi
        simp only [Finset.mem_filter, pow_zero, Nat.div_one] at hi
        have := hi.2.1
        rw [Fin.lt_def] at this
        omega
    rw [this]
    exact hzero v

/-- `_compute_weight_sums` never fails and `weight_sums[v, j]` is the sum of the weights of the
earlier, strictly smaller elements, for an arithmetic that is exact on the sums of the weights. -/
theorem Arith.computeWeightSums_eq (hE : A.Embeds emb B) {ge : Y → Y → Bool} (hge : IsGe ge) (y : Fin n → Y)
    (w : Fin n → Fin V → G) (hB : ∀ (T : Finset (Fin n)) v, B (∑ t ∈ T, w t v)) :
    ∃ (π' : Equiv.Perm (Fin n)) (u' : ℕ), A.computeWeightSums ge y (fun i v => emb (w i v))
      = .ok (fun i => (π' i : ℕ), fun j v => emb (∑ i ∈ Finset.univ.filter
          (fun i : Fin n => i < j ∧ ge (y i) (y j) = false), w i v), u')
      ∧ ∀ s s' : Fin n, s ≤ s' → ge (y (π' s)) (y (π' s')) = true := by
  obtain ⟨π', ws', u', e, h1, h2⟩ := Arith.computeWeightSums_step (w' := fun i v => emb (w i v))
    (fun _ => hE.step) (fun _ => hE.zero) hge y hB (fun π => ⟨_, weightsCumsum_emb hE hB π, fun _ _ => rfl⟩)
  refine ⟨π', u', ?_, h2⟩
  rw [e]
  congr 2
  congr 1
  funext j v
  exact h1 j v

/-! ### The group itself -/

/-- The additive operations of `A` are those of a group. -/
structure Arith.IsGroup {G : Type} [AddCommGroup G] (A : Arith G) : Prop where
  zero : A.ofInt 0 = 0
  add : A.add = (· + ·)
  sub : A.sub = (· - ·)

/-- The operations of a group (the others are not used by `_compute_weight_sums`). -/
def groupArith (G : Type) [AddCommGroup G] : Arith G where
  ofInt _ := 0
  add := (· + ·)
  sub := (· - ·)
  mul a _ := a
  div a _ := a
  sum _ := 0
  dot _ := 0
  sqrt a := a
  abs a := a
  lt _ _ := true
  eq _ _ := true

theorem groupArith_isGroup (G : Type) [AddCommGroup G] : (groupArith G).IsGroup := ⟨rfl, rfl, rfl⟩

variable {H : Arith G}

theorem Arith.IsGroup.embeds (hH : H.IsGroup) : H.Embeds (fun a : G => a) (fun _ => True) :=
  ⟨hH.zero, fun _ _ _ _ _ => by rw [hH.add], fun _ _ _ _ _ => by rw [hH.sub]⟩

theorem isGroup_mergeLoop (hH : H.IsGroup) {ge : Y → Y → Bool} {y : Fin n → Y} {wc : Fin (n + 1) → Fin V → G}
    {prev : Fin n → ℕ} {last1 last2 : ℕ} : ∀ (d i1 i2 : ℕ) (st : MergeState G n V),
    (last1 + 1 - i1) + (last2 + 1 - i2) = d →
    H.mergeLoop ge y wc prev last1 last2 i1 i2 st
      = mergeLoop ge y wc prev last1 last2 i1 i2 st := by
  intro d
  induction d using Nat.strong_induction_on with
  | _ d ih =>
  intro i1 i2 st hd
  unfold Arith.mergeLoop mergeLoop
  by_cases hc : i1 ≤ last1 ∧ i2 ≤ last2
  · rw [if_pos hc, if_pos hc]
    have h1 := fun st' => ih _ (by omega) (i1 + 1) i2 st' rfl
    have h2 := fun st' => ih _ (by omega) i1 (i2 + 1) st' rfl
    simp only [h1, h2, hH.add, hH.sub]
  · rw [if_neg hc, if_neg hc]

theorem isGroup_mergePair (hH : H.IsGroup) {ge : Y → Y → Bool} {y : Fin n → Y} {wc : Fin (n + 1) → Fin V → G}
    {prev : Fin n → ℕ} {len : ℕ} :
    H.mergePair ge y wc prev len = mergePair ge y wc prev len := by
  funext st p
  unfold Arith.mergePair mergePair
  simp only [isGroup_mergeLoop hH _ _ _ _ rfl]

theorem isGroup_weightsCumsum (hH : H.IsGroup) (w : Fin n → Fin V → G) (prev : Fin n → ℕ) :
    H.weightsCumsum w prev = weightsCumsum w prev := by
  unfold Arith.weightsCumsum weightsCumsum
  by_cases h : ∀ t, prev t < n
  · rw [dif_pos h, dif_pos h]
    congr 1
    funext k v
    by_cases hk : (k : ℕ) = 0
    · rw [dif_pos hk, hH.zero]
      symm
      apply Finset.sum_eq_zero
      intro t ht
      simp [hk] at ht
    · rw [dif_neg hk]
      have := Arith.cumsum_emb hH.embeds (fun t => w ⟨prev t, h t⟩ v) (fun _ => trivial)
        (k - 1) (by omega)
      have hk1 : (k : ℕ) - 1 + 1 = k := by omega
      rw [hk1] at this
      exact this
  · rw [dif_neg h, dif_neg h]

theorem isGroup_mergePasses (hH : H.IsGroup) {ge : Y → Y → Bool} {y : Fin n → Y} {w : Fin n → Fin V → G} :
    ∀ (d len : ℕ) (hlen : 0 < len) (prev cur : Fin n → ℕ) (ws : Fin n → Fin V → G) (u : ℕ), n - len = d →
    H.mergePasses ge y w len hlen prev cur ws u = mergePasses ge y w len hlen prev cur ws u := by
  intro d
  induction d using Nat.strong_induction_on with
  | _ d ih =>
  intro len hlen prev cur ws u hd
  unfold Arith.mergePasses mergePasses
  by_cases h : len < n
  · rw [if_pos h, if_pos h]
    have h1 := fun prev cur ws u => ih _ (by omega) (2 * len) (by omega) prev cur ws u rfl
    simp only [h1, isGroup_mergePair hH, isGroup_weightsCumsum hH]
  · rw [if_neg h, if_neg h]

theorem isGroup_computeWeightSums (hH : H.IsGroup) {ge : Y → Y → Bool} (y : Fin n → Y) (w : Fin n → Fin V → G) :
    H.computeWeightSums ge y w = computeWeightSums ge y w := by
  unfold Arith.computeWeightSums computeWeightSums
  rw [isGroup_mergePasses hH _ _ _ _ _ _ _ rfl, hH.zero]

/-- `_compute_weight_sums` never fails and `weight_sums[v, j]` is the sum of the weights of the
earlier, strictly smaller elements. -/
theorem computeWeightSums_eq {ge : Y → Y → Bool} (hge : IsGe ge) (y : Fin n → Y)
    (w : Fin n → Fin V → G) :
    ∃ (π' : Equiv.Perm (Fin n)) (u' : ℕ), computeWeightSums ge y w
      = .ok (fun i => (π' i : ℕ), fun j =>
        ∑ i ∈ Finset.univ.filter (fun i : Fin n => i < j ∧ ge (y i) (y j) = false), w i, u')
      ∧ ∀ s s' : Fin n, s ≤ s' → ge (y (π' s)) (y (π' s')) = true := by
  obtain ⟨π', u', e, h⟩ := Arith.computeWeightSums_eq (groupArith_isGroup G).embeds hge y w (fun _ _ => trivial)
  refine ⟨π', u', ?_, h⟩
  rw [← isGroup_computeWeightSums (groupArith_isGroup G)]
  refine e.trans ?_
  congr 2
  congr 1
  funext j v
  rw [Finset.sum_apply]

end Dcor

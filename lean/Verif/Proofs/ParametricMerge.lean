/-
The mergesort algorithm commutes with relations between arithmetics, if the comparisons have the same results.
-/
import Verif.Proofs.Exact

namespace Dcor

variable {R S Y Y' : Type} {n V : ℕ} {A : Arith R} {A' : Arith S}

/-- Related states of the merge loop: the same indices, and sums of weights related column by column. -/
def StRel (rel : Fin V → R → S → Prop) (st : MergeState R n V) (st' : MergeState S n V) : Prop :=
  st.cur = st'.cur ∧ st.idx = st'.idx ∧ st.updates = st'.updates ∧ ∀ i v, rel v (st.ws i v) (st'.ws i v)

/-- The operations of the merge loop preserve the relations. -/
structure MergeRel (A : Arith R) (A' : Arith S) (rel : Fin V → R → S → Prop) : Prop where
  zero : ∀ v, rel v (A.ofInt 0) (A'.ofInt 0)
  add : ∀ v a b a' b', rel v a a' → rel v b b' → rel v (A.add a b) (A'.add a' b')
  sub : ∀ v a b a' b', rel v a a' → rel v b b' → rel v (A.sub a b) (A'.sub a' b')

variable {rel : Fin V → R → S → Prop}

theorem mergeLoop_rel (h : MergeRel A A' rel) {ge : Y → Y → Bool} {ge' : Y' → Y' → Bool} {y : Fin n → Y}
    {y' : Fin n → Y'} (hge : ∀ i j, ge (y i) (y j) = ge' (y' i) (y' j)) {wc : Fin (n + 1) → Fin V → R}
    {wc' : Fin (n + 1) → Fin V → S} (hwc : ∀ k v, rel v (wc k v) (wc' k v)) (prev : Fin n → ℕ) (last1 last2 : ℕ) :
    ∀ (d i1 i2 : ℕ) (st : MergeState R n V) (st' : MergeState S n V),
      (last1 + 1 - i1) + (last2 + 1 - i2) = d → StRel rel st st' →
      ExRel (fun a b => a.1 = b.1 ∧ a.2.1 = b.2.1 ∧ StRel rel a.2.2 b.2.2)
        (A.mergeLoop ge y wc prev last1 last2 i1 i2 st) (A'.mergeLoop ge' y' wc' prev last1 last2 i1 i2 st') := by
  intro d
  induction d using Nat.strong_induction_on with
  | _ d ih =>
  intro i1 i2 st st' hd hst
  unfold Arith.mergeLoop
  split_ifs with hc
  swap
  · exact ExRel.pure ⟨rfl, rfl, hst⟩
  refine (ExRel.refl _).bind fun p1 _ e => ?_
  subst e
  refine (ExRel.refl _).bind fun p2 _ e => ?_
  subst e
  have hrd : ∀ p : ℕ, ExRel (fun a b => ∃ i, a = y i ∧ b = y' i) (rd y (p : ℤ)) (rd y' (p : ℤ)) := by
    intro p
    unfold Dcor.rd
    split_ifs
    · exact ⟨_, rfl, rfl⟩
    · rfl
  refine (hrd p1).bind ?_
  rintro _ _ ⟨q1, rfl, rfl⟩
  refine (hrd p2).bind ?_
  rintro _ _ ⟨q2, rfl, rfl⟩
  rw [hge q1 q2]
  obtain ⟨hcur, hidx, hupd, hws⟩ := hst
  split_ifs
  · rw [hcur, hidx]
    refine (ExRel.refl _).bind fun c _ e => ?_
    subst e
    exact ih _ (by omega) _ _ _ _ rfl ⟨rfl, rfl, hupd, hws⟩
  · rw [hcur, hidx]
    refine (ExRel.refl _).bind fun c _ e => ?_
    subst e
    refine (ExRel.rd (P := fun a b => ∀ v, rel v (a v) (b v)) hwc _).bind fun hi hi' hhi => ?_
    refine (ExRel.rd (P := fun a b => ∀ v, rel v (a v) (b v)) hwc _).bind fun lo lo' hlo => ?_
    refine (ExRel.rd (P := fun a b => ∀ v, rel v (a v) (b v)) hws _).bind fun old old' hold => ?_
    refine (ExRel.wr (P := fun a b => ∀ v, rel v (a v) (b v)) hws (fun v => ?_) _).bind fun ws ws' hws => ?_
    · exact h.add _ _ _ _ _ (hold v) (h.sub _ _ _ _ _ (hhi v) (hlo v))
    · exact ih _ (by omega) _ _ _ _ rfl ⟨rfl, rfl, by simp only [hupd], hws⟩

theorem mergePair_rel (h : MergeRel A A' rel) {ge : Y → Y → Bool} {ge' : Y' → Y' → Bool} {y : Fin n → Y}
    {y' : Fin n → Y'} (hge : ∀ i j, ge (y i) (y j) = ge' (y' i) (y' j)) {wc : Fin (n + 1) → Fin V → R}
    {wc' : Fin (n + 1) → Fin V → S} (hwc : ∀ k v, rel v (wc k v) (wc' k v)) (prev : Fin n → ℕ) (len : ℕ)
    (st : MergeState R n V) (st' : MergeState S n V) (p : ℕ) (hst : StRel rel st st') :
    ExRel (StRel rel) (A.mergePair ge y wc prev len st p) (A'.mergePair ge' y' wc' prev len st' p) := by
  unfold Arith.mergePair
  dsimp only
  refine (mergeLoop_rel h hge hwc prev _ _ _ _ _ _ _ rfl hst).bind ?_
  rintro ⟨i1, i2, s⟩ ⟨i1', i2', s'⟩ ⟨e1, e2, hs⟩
  dsimp only at e1 e2 hs
  subst e1 e2
  obtain ⟨hcur, hidx, hupd, hws⟩ := hs
  dsimp only
  split_ifs
  · rw [hcur, hidx]
    refine (ExRel.refl _).bind ?_
    rintro ⟨c, k⟩ _ rfl
    exact ExRel.pure ⟨rfl, rfl, hupd, hws⟩
  · rw [hcur, hidx]
    refine (ExRel.refl _).bind ?_
    rintro ⟨c, k⟩ _ rfl
    exact ExRel.pure ⟨rfl, rfl, hupd, hws⟩
  · exact ExRel.pure ⟨hcur, hidx, hupd, hws⟩

theorem cumsum_mergeRel (h : MergeRel A A' rel) {m : ℕ} (v : Fin V) {a : Fin m → R} {b : Fin m → S}
    (hab : ∀ i, rel v (a i) (b i)) (k : Fin m) : rel v (A.cumsum a k) (A'.cumsum b k) := by
  have : ∀ (k : ℕ) (hk : k < m), rel v (A.cumsumAt a k hk) (A'.cumsumAt b k hk) := by
    intro k
    induction k with
    | zero => intro hk; exact hab _
    | succ k ih => intro hk; exact h.add _ _ _ _ _ (ih _) (hab _)
  exact this k k.2

theorem weightsCumsum_rel (h : MergeRel A A' rel) {w : Fin n → Fin V → R} {w' : Fin n → Fin V → S}
    (hw : ∀ i v, rel v (w i v) (w' i v)) (prev : Fin n → ℕ) :
    ExRel (fun a b => ∀ k v, rel v (a k v) (b k v)) (A.weightsCumsum w prev) (A'.weightsCumsum w' prev) := by
  unfold Arith.weightsCumsum
  split_ifs with hp
  · intro k v
    dsimp only
    split_ifs
    · exact h.zero v
    · exact cumsum_mergeRel h v (fun i => hw _ v) _
  · rfl

theorem mergePasses_rel (h : MergeRel A A' rel) {ge : Y → Y → Bool} {ge' : Y' → Y' → Bool} {y : Fin n → Y}
    {y' : Fin n → Y'} (hge : ∀ i j, ge (y i) (y j) = ge' (y' i) (y' j)) {w : Fin n → Fin V → R}
    {w' : Fin n → Fin V → S} (hw : ∀ i v, rel v (w i v) (w' i v)) :
    ∀ (d len : ℕ) (hlen : 0 < len) (prev cur : Fin n → ℕ) (ws : Fin n → Fin V → R) (ws' : Fin n → Fin V → S) (u : ℕ),
      n - len = d → (∀ i v, rel v (ws i v) (ws' i v)) →
      ExRel (fun a b => a.1 = b.1 ∧ (∀ i v, rel v (a.2.1 i v) (b.2.1 i v)) ∧ a.2.2 = b.2.2)
        (A.mergePasses ge y w len hlen prev cur ws u) (A'.mergePasses ge' y' w' len hlen prev cur ws' u) := by
  intro d
  induction d using Nat.strong_induction_on with
  | _ d ih =>
  intro len hlen prev cur ws ws' u hd hws
  unfold Arith.mergePasses
  split_ifs with hc
  swap
  · exact ExRel.pure ⟨rfl, hws, rfl⟩
  refine (weightsCumsum_rel h hw prev).bind fun wc wc' hwc => ?_
  refine (ExRel.foldlM (fun st st' p hst => mergePair_rel h hge hwc prev len st st' p hst) _ _ _
    ⟨rfl, rfl, rfl, hws⟩).bind ?_
  rintro st st' ⟨hcur, hidx, hupd, hws'⟩
  rw [hcur, hupd]
  exact ih _ (by omega) _ _ _ _ _ _ _ rfl hws'

theorem computeWeightSums_rel (h : MergeRel A A' rel) {ge : Y → Y → Bool} {ge' : Y' → Y' → Bool} {y : Fin n → Y}
    {y' : Fin n → Y'} (hge : ∀ i j, ge (y i) (y j) = ge' (y' i) (y' j)) {w : Fin n → Fin V → R}
    {w' : Fin n → Fin V → S} (hw : ∀ i v, rel v (w i v) (w' i v)) :
    ExRel (fun a b => a.1 = b.1 ∧ (∀ i v, rel v (a.2.1 i v) (b.2.1 i v)) ∧ a.2.2 = b.2.2)
      (A.computeWeightSums ge y w) (A'.computeWeightSums ge' y' w') := by
  unfold Arith.computeWeightSums
  exact mergePasses_rel h hge hw _ 1 (by omega) _ _ _ _ _ rfl fun _ v => h.zero v

end Dcor

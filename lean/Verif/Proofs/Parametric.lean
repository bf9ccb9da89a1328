/-
The inner loops of the AVL algorithm commute with relations between arithmetics: their control flow does not
depend on the data.
-/
import Verif.Proofs.AvlTerms
import Verif.Model.Rounding
import Mathlib.Tactic.FinCases

namespace Dcor

/-- Two computations fail in the same way or return related values. -/
def ExRel {α β : Type} (P : α → β → Prop) : Except PyErr α → Except PyErr β → Prop
  | .ok a, .ok b => P a b
  | .error e, .error e' => e = e'
  | _, _ => False

theorem ExRel.bind {α β γ δ : Type} {P : α → β → Prop} {Q : γ → δ → Prop} {a : Except PyErr α}
    {b : Except PyErr β} {f : α → Except PyErr γ} {g : β → Except PyErr δ} (h : ExRel P a b)
    (hf : ∀ a b, P a b → ExRel Q (f a) (g b)) : ExRel Q (a >>= f) (b >>= g) := by
  cases a <;> cases b <;> simp only [ExRel] at h
  · subst h; rfl
  · exact hf _ _ h

theorem ExRel.pure {α β : Type} {P : α → β → Prop} {a : α} {b : β} (h : P a b) :
    ExRel P (Pure.pure a) (Pure.pure b) := h

theorem ExRel.refl {α : Type} (a : Except PyErr α) : ExRel (fun a b => a = b) a a := by
  cases a <;> simp [ExRel]

theorem ExRel.of_ok {α β : Type} {P : α → β → Prop} {a : Except PyErr α} {b : β} (h : ExRel P a (.ok b)) :
    ∃ a', a = .ok a' ∧ P a' b := by
  cases a with
  | error e => simp [ExRel] at h
  | ok a' => exact ⟨a', rfl, h⟩

theorem ExRel.ok_right {α β : Type} {P : α → β → Prop} {a : α} {b : Except PyErr β} (h : ExRel P (.ok a) b) :
    ∃ b', b = .ok b' ∧ P a b' := by
  cases b with
  | error e => simp [ExRel] at h
  | ok b => exact ⟨b, rfl, h⟩

theorem ExRel.foldlM {ι σ τ : Type} {P : σ → τ → Prop} {f : σ → ι → Except PyErr σ} {g : τ → ι → Except PyErr τ}
    (h : ∀ s t i, P s t → ExRel P (f s i) (g t i)) :
    ∀ (l : List ι) (s : σ) (t : τ), P s t → ExRel P (l.foldlM f s) (l.foldlM g t)
  | [], _, _, hst => hst
  | i :: l, s, t, hst => by
    rw [List.foldlM_cons, List.foldlM_cons]
    exact (h s t i hst).bind fun s t hst => ExRel.foldlM h l s t hst

theorem ExRel.mapM {ι α β : Type} {P : α → β → Prop} {f : ι → Except PyErr α} {g : ι → Except PyErr β}
    (h : ∀ i, ExRel P (f i) (g i)) :
    ∀ l : List ι, ExRel (List.Forall₂ P) (l.mapM f) (l.mapM g)
  | [] => List.Forall₂.nil
  | i :: l => by
    rw [List.mapM_cons, List.mapM_cons]
    exact (h i).bind fun a b hab => (ExRel.mapM h l).bind fun l l' hl =>
      ExRel.pure (List.Forall₂.cons hab hl)

theorem ExRel.rd {α β : Type} {P : α → β → Prop} {m : ℕ} {a : Fin m → α} {b : Fin m → β}
    (h : ∀ i, P (a i) (b i)) (i : ℤ) : ExRel P (rd a i) (rd b i) := by
  unfold Dcor.rd
  split_ifs
  · exact h _
  · rfl

theorem ExRel.wr {α β : Type} {P : α → β → Prop} {m : ℕ} {a : Fin m → α} {b : Fin m → β} {v : α} {w : β}
    (h : ∀ i, P (a i) (b i)) (hv : P v w) (i : ℤ) :
    ExRel (fun a b : Fin m → _ => ∀ i, P (a i) (b i)) (wr a i v) (wr b i w) := by
  unfold Dcor.wr
  split_ifs with hi
  · intro j
    by_cases hj : j = ⟨i.toNat, by omega⟩
    · subst hj
      simpa using hv
    · simpa [Function.update_of_ne hj] using h j
  · rfl

/-- The operations of `A` and `A'` preserve a relation. -/
structure Arith.AddRel {R S : Type} (A : Arith R) (A' : Arith S) (rel : R → S → Prop) : Prop where
  zero : rel (A.ofInt 0) (A'.ofInt 0)
  add : ∀ a b a' b', rel a a' → rel b b' → rel (A.add a b) (A'.add a' b')
  sum : ∀ l l', List.Forall₂ rel l l' → rel (A.sum l) (A'.sum l')

/-- The operations used by the AVL algorithm preserve a relation. -/
structure Arith.Rel {R S : Type} (A : Arith R) (A' : Arith S) (rel : R → S → Prop) : Prop where
  ofInt : ∀ k, rel (A.ofInt k) (A'.ofInt k)
  add : ∀ a b a' b', rel a a' → rel b b' → rel (A.add a b) (A'.add a' b')
  sub : ∀ a b a' b', rel a a' → rel b b' → rel (A.sub a b) (A'.sub a' b')
  mul : ∀ a b a' b', rel a a' → rel b b' → rel (A.mul a b) (A'.mul a' b')
  sum : ∀ l l', List.Forall₂ rel l l' → rel (A.sum l) (A'.sum l')

theorem Arith.Rel.addRel {R S : Type} {A : Arith R} {A' : Arith S} {rel : R → S → Prop} (h : A.Rel A' rel) :
    A.AddRel A' rel := ⟨h.ofInt 0, h.add, h.sum⟩

variable {R S : Type} {A : Arith R} {A' : Arith S} {rel : R → S → Prop} {n L : ℕ}

/-- Related vectors. -/
abbrev VRel (rel : R → S → Prop) {m : ℕ} (v : Fin m → R) (w : Fin m → S) : Prop := ∀ i, rel (v i) (w i)

theorem fancyAdd_rel (h : A.AddRel A' rel) {m k : ℕ} {s : Fin m → R} {s' : Fin m → S} {pos : Fin k → ℤ}
    {v : R} {v' : S} (hs : VRel rel s s') (hv : rel v v') :
    ExRel (VRel rel) (A.fancyAdd s pos v) (A'.fancyAdd s' pos v') := by
  unfold Arith.fancyAdd
  split_ifs
  · intro p
    dsimp only
    split_ifs
    · exact h.add _ _ _ _ (hs p) hv
    · exact hs p
  · rfl

theorem dyadStep_rel (h : A.AddRel A' rel) {sLen : ℕ} {y : Fin n → ℤ} {c : Fin n → R} {c' : Fin n → S}
    {ps : Fin L → ℤ} (hc : VRel rel c c') (st : (Fin n → R) × (Fin sLen → R))
    (st' : (Fin n → S) × (Fin sLen → S)) (i : Fin n) (hst : VRel rel st.1 st'.1 ∧ VRel rel st.2 st'.2) :
    ExRel (fun a b => VRel rel a.1 b.1 ∧ VRel rel a.2 b.2) (A.dyadStep y c ps st i)
      (A'.dyadStep y c' ps st' i) := by
  unfold Arith.dyadStep
  refine (ExRel.mapM (P := rel) (fun l => ExRel.rd hst.2 _) _).bind fun vals vals' hvals => ?_
  refine (fancyAdd_rel h hst.2 (hc i)).bind fun s s' hs => ?_
  refine ExRel.pure ⟨fun j => ?_, hs⟩
  by_cases hj : j = i
  · subst hj
    simpa using h.sum _ _ hvals
  · simpa [Function.update_of_ne hj] using hst.1 j

theorem dyadUpdate_rel (h : A.AddRel A' rel) {sLen : ℕ} {y : Fin n → ℤ} {c g : Fin n → R} {c' g' : Fin n → S}
    {s : Fin sLen → R} {s' : Fin sLen → S} {ps : Fin L → ℤ} (hc : VRel rel c c') (hg : VRel rel g g') :
    ExRel (VRel rel) (A.dyadUpdate y c g L s ps) (A'.dyadUpdate y c' g' L s' ps) := by
  unfold Arith.dyadUpdate
  refine (ExRel.foldlM (fun st st' i hst => dyadStep_rel h hc st st' i hst) _ _ _ ⟨hg, ?_⟩).bind ?_
  · exact fun _ => h.zero
  · intro a b hab
    exact ExRel.pure hab.1

theorem dyadUpdateCompiled_rel (h : A.AddRel A' rel) {sLen : ℕ} {y : Fin n → ℤ} {c g : Fin n → R}
    {c' g' : Fin n → S} {s : Fin sLen → R} {s' : Fin sLen → S} {ps : Fin L → ℤ} (hc : VRel rel c c')
    (hg : VRel rel g g') :
    ExRel (VRel rel) (A.dyadUpdateCompiled y c g L s ps) (A'.dyadUpdateCompiled y c' g' L s' ps) := by
  unfold Arith.dyadUpdateCompiled
  refine (ExRel.foldlM (P := fun a b => VRel rel a.1 b.1 ∧ VRel rel a.2 b.2) (fun st st' i hst => ?_) _ _ _
    ⟨hg, fun _ => h.zero⟩).bind fun a b hab => ExRel.pure hab.1
  unfold Arith.dyadStepCompiled
  refine (ExRel.foldlM (P := VRel rel) (fun s s' l hs => ?_) _ _ _ hst.2).bind fun s s' hs =>
    (ExRel.foldlM (P := VRel rel) (fun g g' l hg => ?_) _ _ _ hst.1).bind fun g g' hg => ExRel.pure ⟨hg, hs⟩
  · unfold Arith.compiledBody3a
    refine (ExRel.refl _).bind fun yi _ e => ?_
    subst e
    refine (ExRel.refl _).bind fun off _ e => ?_
    subst e
    refine (ExRel.rd hc _).bind fun ci ci' hci => ?_
    refine (ExRel.rd hs _).bind fun o o' ho => ?_
    exact ExRel.wr hs (h.add _ _ _ _ ho hci) _
  · unfold Arith.compiledBody3bc
    refine (ExRel.refl _).bind fun yi _ e => ?_
    subst e
    dsimp only
    split_ifs
    · refine (ExRel.refl _).bind fun off _ e => ?_
      subst e
      refine (ExRel.rd hg _).bind fun o o' ho => ?_
      refine (ExRel.rd hs _).bind fun v v' hv => ?_
      exact ExRel.wr hg (h.add _ _ _ _ ho hv) _
    · exact ExRel.pure hg

theorem vsum_rel (h : A.Rel A' rel) {m : ℕ} {v : Fin m → R} {w : Fin m → S} (hv : VRel rel v w) :
    rel (A.vsum v) (A'.vsum w) := by
  apply h.sum
  rw [List.forall₂_iff_get]
  refine ⟨by simp, fun i h1 h2 => ?_⟩
  simpa using hv ⟨i, by simpa using h1⟩

theorem cumsum_rel (h : A.Rel A' rel) {m : ℕ} {v : Fin m → R} {w : Fin m → S} (hv : VRel rel v w) :
    VRel rel (A.cumsum v) (A'.cumsum w) := by
  have : ∀ (k : ℕ) (hk : k < m), rel (A.cumsumAt v k hk) (A'.cumsumAt w k hk) := by
    intro k
    induction k with
    | zero => intro hk; exact hv _
    | succ k ih => intro hk; exact h.add _ _ _ _ (ih _) (hv _)
  exact fun k => this k k.2

theorem imul_rel (h : A.Rel A' rel) (k : ℤ) {a : R} {b : S} (hab : rel a b) : rel (A.imul k a) (A'.imul k b) :=
  h.mul _ _ _ _ (h.ofInt k) hab

theorem partialSum2d_rel (h : A.Rel A' rel) (compiled : Bool) {sLen : ℕ} {y : Fin n → ℤ} {c g : Fin n → R}
    {c' g' : Fin n → S} {ix iy : Fin n → Fin n} {sxc syc : Fin n → R} {sxc' syc' : Fin n → S} {cSum : R}
    {cSum' : S} {s : Fin sLen → R} {s' : Fin sLen → S} {ps : Fin L → ℤ} (hc : VRel rel c c')
    (hg : VRel rel g g') (hsx : VRel rel sxc sxc') (hsy : VRel rel syc syc') (hcs : rel cSum cSum') :
    ExRel (VRel rel) (A.partialSum2d compiled y c ix iy sxc syc cSum L s ps g)
      (A'.partialSum2d compiled y c' ix iy sxc' syc' cSum' L s' ps g') := by
  unfold Arith.partialSum2d
  have key : ∀ g g', VRel rel g g' → ExRel (VRel rel)
      (pure fun i => A.add (A.sub (A.sub (A.sub cSum (c (ix i))) (A.imul 2 (syc (iy (ix i)))))
        (A.imul 2 (sxc (ix i)))) (A.imul 4 (g (ix i))))
      (pure fun i => A'.add (A'.sub (A'.sub (A'.sub cSum' (c' (ix i))) (A'.imul 2 (syc' (iy (ix i)))))
        (A'.imul 2 (sxc' (ix i)))) (A'.imul 4 (g' (ix i)))) := fun g g' hg i =>
    h.add _ _ _ _ (h.sub _ _ _ _ (h.sub _ _ _ _ (h.sub _ _ _ _ hcs (hc _)) (imul_rel h 2 (hsy _)))
      (imul_rel h 2 (hsx _))) (imul_rel h 4 (hg _))
  cases compiled
  · exact (dyadUpdate_rel h.addRel hc hg).bind key
  · exact (dyadUpdateCompiled_rel h.addRel hc hg).bind key

/-- Terms with related entries. -/
structure CoreRel (rel : R → S → Prop) {n : ℕ} (t : CoreTerms R n) (t' : CoreTerms S n) : Prop where
  meanProd : rel t.meanProd t'.meanProd
  aAxis : VRel rel t.aAxis t'.aAxis
  aTotal : rel t.aTotal t'.aTotal
  bAxis : VRel rel t.bAxis t'.bAxis
  bTotal : rel t.bTotal t'.bTotal

/-- The AVL algorithm preserves relations between arithmetics, if the arrays are sorted in the same way. -/
theorem avlTermsWith_rel (h : A.Rel A' rel) (lMax : ℕ) (compiled : Bool)
    {argsort : (Fin n → R) → Equiv.Perm (Fin n)} {argsort' : (Fin n → S) → Equiv.Perm (Fin n)}
    {x y : Fin n → R} {x' y' : Fin n → S} (hx : VRel rel x x') (hy : VRel rel y y')
    (ex : argsort x = argsort' x') (ey : argsort y = argsort' y')
    (exy : argsort (fun i => y (argsort x i)) = argsort' (fun i => y' (argsort' x' i))) :
    ExRel (CoreRel rel) (A.avlTermsWith lMax compiled argsort x y)
      (A'.avlTermsWith lMax compiled argsort' x' y') := by
  unfold Arith.avlTermsWith
  dsimp only
  by_cases hn : n > 3
  swap
  · simp only [hn, not_false_eq_true, if_true]
    rfl
  simp only [hn, not_true_eq_false, if_false]
  rw [exy, ex, ey]
  have hc : ∀ k : Fin 4, VRel rel
      ((![fun _ => A.ofInt 1, fun i => x (argsort' x' i), fun i => y (argsort' x' i),
        fun i => A.mul (x (argsort' x' i)) (y (argsort' x' i))] : Fin 4 → Fin n → R) k)
      ((![fun _ => A'.ofInt 1, fun i => x' (argsort' x' i), fun i => y' (argsort' x' i),
        fun i => A'.mul (x' (argsort' x' i)) (y' (argsort' x' i))] : Fin 4 → Fin n → S) k) := by
    intro k
    fin_cases k
    · exact fun _ => h.ofInt 1
    · exact fun i => hx _
    · exact fun i => hy _
    · exact fun i => h.mul _ _ _ _ (hx _) (hy _)
  have hpart : ∀ {s : Fin (2 ^ (lMax + 1)) → R} {s' : Fin (2 ^ (lMax + 1)) → S} {yy : Fin n → ℤ}
      {ix iy : Fin n → Fin n} {τ : Fin n → Fin n} {ps : Fin lMax → ℤ} {c : Fin n → R} {c' : Fin n → S},
      VRel rel c c' → ExRel (VRel rel)
      (A.partialSum2d compiled yy c ix iy (fun k => A.sub (A.cumsum c k) (c k))
        (fun k => A.sub (A.cumsum (fun k => c (τ k)) k) (c (τ k))) (A.vsum c) lMax s ps (fun _ => A.ofInt 0))
      (A'.partialSum2d compiled yy c' ix iy (fun k => A'.sub (A'.cumsum c' k) (c' k))
        (fun k => A'.sub (A'.cumsum (fun k => c' (τ k)) k) (c' (τ k))) (A'.vsum c') lMax s' ps
        (fun _ => A'.ofInt 0)) := by
    intro s s' yy ix iy τ ps c c' hc
    apply partialSum2d_rel h compiled hc (fun _ => h.ofInt 0)
    · exact fun k => h.sub _ _ _ _ (cumsum_rel h hc k) (hc k)
    · exact fun k => h.sub _ _ _ _ (cumsum_rel h (fun k => hc _) k) (hc _)
    · exact vsum_rel h hc
  have hbx : ∀ {x : Fin n → R} {x' : Fin n → S} {σ : Fin n → Fin n} {ix : Fin n → Fin n}, VRel rel x x' →
      VRel rel (fun i => A.sub (A.cumsum (fun i => x (σ i)) (ix i)) (x (σ (ix i))))
        (fun i => A'.sub (A'.cumsum (fun i => x' (σ i)) (ix i)) (x' (σ (ix i)))) := by
    intro x x' σ ix hx i
    exact h.sub _ _ _ _ (cumsum_rel h (fun i => hx _) _) (hx _)
  refine (hpart (hc 0)).bind fun g1 g1' hg1 => (hpart (hc 1)).bind fun gx gx' hgx =>
    (hpart (hc 2)).bind fun gy gy' hgy => (hpart (hc 3)).bind fun gxy gxy' hgxy => ExRel.pure ?_
  constructor
  · exact vsum_rel h fun i => h.sub _ _ _ _ (h.sub _ _ _ _ (h.add _ _ _ _
      (h.mul _ _ _ _ (h.mul _ _ _ _ (hx i) (hy i)) (hg1 i)) (hgxy i)) (h.mul _ _ _ _ (hx i) (hgy i)))
      (h.mul _ _ _ _ (hy i) (hgx i))
  · exact fun i => h.sub _ _ _ _ (h.add _ _ _ _ (vsum_rel h hx) (imul_rel h _ (hx i)))
      (imul_rel h _ (hbx hx i))
  · exact h.sub _ _ _ _ (imul_rel h _ (vsum_rel h fun i => imul_rel h _ (hx i)))
      (imul_rel h _ (vsum_rel h (hbx hx)))
  · exact fun i => h.sub _ _ _ _ (h.add _ _ _ _ (vsum_rel h hy) (imul_rel h _ (hy i)))
      (imul_rel h _ (hbx hy i))
  · exact h.sub _ _ _ _ (imul_rel h _ (vsum_rel h fun i => imul_rel h _ (hy i)))
      (imul_rel h _ (vsum_rel h (hbx hy)))

/-! ### Monoids -/

/-- The additions of a commutative monoid (the other operations are not used by the inner loops). -/
def monoidArith (S : Type) [AddCommMonoid S] : Arith S where
  ofInt _ := 0
  add := (· + ·)
  sub a _ := a
  mul a _ := a
  div a _ := a
  sum := List.sum
  dot _ := 0
  sqrt a := a
  abs a := a
  lt _ _ := true
  eq _ _ := true

/-- Both inner loops, started from zeros with ranks in range, return values related to the sums of the
earlier elements with smaller rank. -/
theorem dyad_rel {S : Type} [AddCommMonoid S] {rel : R → S → Prop} (h : A.AddRel (monoidArith S) rel)
    (compiled : Bool) (y : Fin n → ℤ) (hy : ∀ i, 1 ≤ y i ∧ y i ≤ 2 ^ L)
    (c : Fin n → R) (c' : Fin n → S) (hc : VRel rel c c') (s : Fin (2 ^ (L + 1)) → R) :
    ∃ g, (if compiled then A.dyadUpdateCompiled y c (fun _ => A.ofInt 0) L s (posSums L)
        else A.dyadUpdate y c (fun _ => A.ofInt 0) L s (posSums L)) = .ok g ∧
      VRel rel g (gammaSpec y c') := by
  have hz : VRel rel (fun _ : Fin n => A.ofInt 0) (fun _ => (0 : S)) := fun _ => h.zero
  by_cases hcomp : compiled = true
  · rw [if_pos hcomp]
    have := dyadUpdateCompiled_rel (s := s) (s' := fun _ => 0) (ps := posSums L) (y := y) h hc hz
    have e : (monoidArith S).dyadUpdateCompiled y c' (fun _ => 0) L (fun _ : Fin (2 ^ (L + 1)) => 0) (posSums L)
        = .ok (gammaSpec y c') := dyadUpdateCompiled_eq y c' hy (fun _ => 0)
    rw [e] at this
    exact this.of_ok
  · rw [if_neg hcomp]
    have := dyadUpdate_rel (s := s) (s' := fun _ => 0) (ps := posSums L) (y := y) h hc hz
    have e : (monoidArith S).dyadUpdate y c' (fun _ => 0) L (fun _ : Fin (2 ^ (L + 1)) => 0) (posSums L)
        = .ok (gammaSpec y c') := dyadUpdate_eq y c' _ hy (fun _ => 0)
    rw [e] at this
    exact this.of_ok

end Dcor

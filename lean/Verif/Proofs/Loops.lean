/-
Helper lemmas about the runtime vocabulary: loops, checked array access, scatter, cumsum.
-/
import Verif.Model.Py
import Mathlib.Logic.Equiv.Defs
import Mathlib.Algebra.BigOperators.Ring.Finset

namespace Dcor

@[simp] theorem Except.pure_eq {α : Type} (a : α) : (pure a : Except PyErr α) = .ok a := rfl
@[simp] theorem Except.ok_bind' {α β : Type} (a : α) (f : α → Except PyErr β) :
    (Except.ok a >>= f) = f a := rfl
@[simp] theorem Except.error_bind' {α β : Type} (e : PyErr) (f : α → Except PyErr β) :
    (Except.error e >>= f) = .error e := rfl
@[simp] theorem Except.throw_eq {α : Type} (e : PyErr) :
    (throw e : Except PyErr α) = .error e := rfl
@[simp] theorem Except.map_ok' {α β : Type} (a : α) (f : α → β) :
    (f <$> (Except.ok a : Except PyErr α)) = .ok (f a) := rfl

/-- Hoare rule for a `for` loop over a list. -/
theorem foldlM_inv {α σ : Type} (f : σ → α → Except PyErr σ) :
    ∀ (l : List α) (P : ℕ → σ → Prop) (s : σ), P 0 s →
    (∀ (k : ℕ) (hk : k < l.length) (s : σ), P k s → ∃ s', f s l[k] = .ok s' ∧ P (k + 1) s') →
    ∃ s', l.foldlM f s = .ok s' ∧ P l.length s'
  | [], P, s, h0, _ => ⟨s, rfl, h0⟩
  | a :: l, P, s, h0, hs => by
    obtain ⟨s1, e1, h1⟩ := hs 0 (by simp) s h0
    obtain ⟨s2, e2, h2⟩ := foldlM_inv f l (fun k => P (k + 1)) s1 h1
      (fun k hk s hp => hs (k + 1) (by simpa using hk) s hp)
    refine ⟨s2, ?_, h2⟩
    have e1' : f s a = .ok s1 := e1
    rw [List.foldlM_cons, e1']
    exact e2

theorem foldlM_range_inv {σ : Type} (n : ℕ) (f : σ → ℕ → Except PyErr σ) (P : ℕ → σ → Prop)
    (s : σ) (h0 : P 0 s)
    (hs : ∀ k, k < n → ∀ s, P k s → ∃ s', f s k = .ok s' ∧ P (k + 1) s') :
    ∃ s', (List.range n).foldlM f s = .ok s' ∧ P n s' := by
  have := foldlM_inv f (List.range n) P s h0 (fun k hk s hp => by
    simpa using hs k (by simpa using hk) s hp)
  simpa using this

theorem foldlM_finRange_inv {σ : Type} (n : ℕ) (f : σ → Fin n → Except PyErr σ)
    (P : ℕ → σ → Prop) (s : σ) (h0 : P 0 s)
    (hs : ∀ k : Fin n, ∀ s, P k s → ∃ s', f s k = .ok s' ∧ P (k + 1) s') :
    ∃ s', (List.finRange n).foldlM f s = .ok s' ∧ P n s' := by
  have := foldlM_inv f (List.finRange n) P s h0 (fun k hk s hp => by
    have hk' : k < n := by simpa using hk
    simpa using hs ⟨k, hk'⟩ s hp)
  simpa using this

theorem rd_ok {α : Type*} {n : ℕ} (a : Fin n → α) (i : ℤ) (j : Fin n) (h : i = ((j : ℕ) : ℤ)) :
    rd a i = .ok (a j) := by
  have hj := j.2
  have : 0 ≤ i ∧ i < n := by omega
  rw [rd, dif_pos this]
  congr 2
  ext
  simp [h]

theorem rd_nat {α : Type*} {n : ℕ} (a : Fin n → α) (i : ℕ) (h : i < n) :
    rd a (i : ℤ) = .ok (a ⟨i, h⟩) := rd_ok a _ ⟨i, h⟩ rfl

theorem wr_ok {α : Type*} {n : ℕ} (a : Fin n → α) (i : ℤ) (v : α) (j : Fin n)
    (h : i = ((j : ℕ) : ℤ)) : wr a i v = .ok (Function.update a j v) := by
  have hj := j.2
  have : 0 ≤ i ∧ i < n := by omega
  rw [wr, dif_pos this]
  congr 2
  ext
  simp [h]

theorem wr_nat {α : Type*} {n : ℕ} (a : Fin n → α) (i : ℕ) (v : α) (h : i < n) :
    wr a (i : ℤ) v = .ok (Function.update a ⟨i, h⟩ v) := wr_ok a _ v ⟨i, h⟩ rfl

theorem mapM_ok {α β : Type} (f : α → Except PyErr β) (g : α → β) :
    ∀ l : List α, (∀ a ∈ l, f a = .ok (g a)) → l.mapM f = .ok (l.map g)
  | [], _ => rfl
  | a :: l, h => by
    rw [List.mapM_cons, h a (by simp), mapM_ok f g l (fun b hb => h b (by simp [hb]))]
    rfl

private theorem scatter_aux {α : Type*} {n m : ℕ} (idx : Fin m → Fin n)
    (hinj : Function.Injective idx) (vals : Fin m → α) :
    ∀ (l : List (Fin m)) (a : Fin n → α) (k : Fin m), l.Nodup →
      (l.foldl (fun b k => Function.update b (idx k) (vals k)) a) (idx k)
        = if k ∈ l then vals k else a (idx k)
  | [], a, k, _ => by simp
  | q :: l, a, k, hn => by
    have hn' := List.nodup_cons.1 hn
    rw [List.foldl_cons, scatter_aux idx hinj vals l _ k hn'.2]
    by_cases hk : k ∈ l
    · simp [hk]
    · by_cases hq : k = q
      · subst hq; simp [hk]
      · simp [hk, hq, Function.update_of_ne (fun h => hq (hinj h))]

/-- Scattering along a permutation inverts it. -/
theorem scatter_perm {α : Type*} {n : ℕ} (a : Fin n → α) (σ : Equiv.Perm (Fin n))
    (vals : Fin n → α) (i : Fin n) : scatter a σ vals i = vals (σ.symm i) := by
  have := scatter_aux σ σ.injective vals (List.finRange n) a (σ.symm i) (List.nodup_finRange n)
  rw [Equiv.apply_symm_apply] at this
  simpa [scatter] using this

theorem cumsum_eq_ite {R : Type*} [AddCommMonoid R] {n : ℕ} (v : Fin n → R) (i : Fin n) :
    cumsum v i = ∑ j, if j ≤ i then v j else 0 := by
  rw [cumsum, ← Finset.sum_filter]
  congr 1
  ext j
  simp

/-- Exclusive cumulative sum. -/
theorem cumsum_sub_self {R : Type*} [AddCommGroup R] {n : ℕ} (v : Fin n → R) (i : Fin n) :
    cumsum v i - v i = ∑ j, if j < i then v j else 0 := by
  have h : v i = ∑ j, if j = i then v j else 0 := by simp
  rw [cumsum_eq_ite]
  conv_lhs => rw [h]
  rw [← Finset.sum_sub_distrib]
  apply Finset.sum_congr rfl
  intro j _
  rcases lt_trichotomy j i with hj | hj | hj
  · simp [hj, hj.le, hj.ne]
  · simp [hj]
  · simp [not_le.2 hj, not_lt.2 hj.le, hj.ne']

end Dcor

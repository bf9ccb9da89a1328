/-
NumPy's pairwise summation is one of the orders that the theorems about `float64` allow.
-/
import Verif.Model.NumpySum
import Verif.Proofs.Sqrt64

open scoped List

namespace Dcor

theorem SumsTo.foldl {l : List ℚ} : ∀ {v : List ℚ} {s : ℚ}, v ≠ [] → SumsTo v s →
    SumsTo (v ++ l) (l.foldl (fun s b => round64 (s + b)) s) := by
  induction l with
  | nil => intro v s _ h; simpa using h
  | cons b l ih =>
    intro v s hv h
    have := ih (v := v ++ [b]) (by simp) (SumsTo.add hv (by simp) h (.single b))
    simpa using this

/-- Eight accumulators: the `k`-th is a sum of the `k`-th list. -/
theorem pairwiseBlocks_sumsTo : ∀ (fuel : ℕ) (l : List ℚ) (v : Fin 8 → List ℚ) (r : Fin 8 → ℚ), l.length < 8 * fuel →
    (∀ k, v k ≠ []) → (∀ k, SumsTo (v k) (r k)) →
    SumsTo ((v 0 ++ v 1 ++ (v 2 ++ v 3) ++ (v 4 ++ v 5 ++ (v 6 ++ v 7))) ++ l) (pairwiseBlocks fuel (List.ofFn r) l) := by
  intro fuel
  induction fuel with
  | zero => intro l v r h; omega
  | succ fuel ih =>
    intro l v r hl hv hr
    unfold pairwiseBlocks
    split_ifs with h8
    · obtain ⟨a0, a1, a2, a3, a4, a5, a6, a7, t, rfl⟩ : ∃ a0 a1 a2 a3 a4 a5 a6 a7 t,
          l = a0 :: a1 :: a2 :: a3 :: a4 :: a5 :: a6 :: a7 :: t := by
        match l, h8 with
        | a0 :: a1 :: a2 :: a3 :: a4 :: a5 :: a6 :: a7 :: t, _ => exact ⟨a0, a1, a2, a3, a4, a5, a6, a7, t, rfl⟩
      have key := ih t (fun k => v k ++ [(![a0, a1, a2, a3, a4, a5, a6, a7] : Fin 8 → ℚ) k])
        (fun k => round64 (r k + (![a0, a1, a2, a3, a4, a5, a6, a7] : Fin 8 → ℚ) k))
        (by simp only [List.length_cons] at hl; omega) (fun k => by simp)
        (fun k => SumsTo.add (hv k) (by simp) (hr k) (.single _))
      have e : List.zipWith (fun a b => round64 (a + b)) (List.ofFn r)
          ((a0 :: a1 :: a2 :: a3 :: a4 :: a5 :: a6 :: a7 :: t).take 8)
          = List.ofFn fun k => round64 (r k + (![a0, a1, a2, a3, a4, a5, a6, a7] : Fin 8 → ℚ) k) := rfl
      rw [e]
      refine SumsTo.perm key ?_
      rw [← Multiset.coe_eq_coe]
      simp only [← Multiset.coe_add]
      have cons : ∀ (a : ℚ) (l : List ℚ), ((a :: l : List ℚ) : Multiset ℚ) = ([a] : List ℚ) + (l : Multiset ℚ) := fun a l => rfl
      rw [cons a0, cons a1, cons a2, cons a3, cons a4, cons a5, cons a6, cons a7 t]
      show (_ + ([a0] : List ℚ) + (_ + ([a1] : List ℚ)) + (_ + ([a2] : List ℚ) + (_ + ([a3] : List ℚ)))
        + (_ + ([a4] : List ℚ) + (_ + ([a5] : List ℚ)) + (_ + ([a6] : List ℚ) + (_ + ([a7] : List ℚ)))) + _ : Multiset ℚ) = _
      abel
    · dsimp only
      refine SumsTo.foldl ?_ ?_
      · simp [hv]
      · have ap : ∀ {v w : List ℚ}, v ≠ [] → v ++ w ≠ [] := fun h => by simp [h]
        have e : ∀ k : Fin 8, (List.ofFn r).getD k 0 = r k := by
          intro k
          fin_cases k <;> rfl
        have p01 := SumsTo.add (hv 0) (hv 1) (hr 0) (hr 1)
        have p23 := SumsTo.add (hv 2) (hv 3) (hr 2) (hr 3)
        have p45 := SumsTo.add (hv 4) (hv 5) (hr 4) (hr 5)
        have p67 := SumsTo.add (hv 6) (hv 7) (hr 6) (hr 7)
        exact SumsTo.add (ap (ap (hv 0))) (ap (ap (hv 4))) (SumsTo.add (ap (hv 0)) (ap (hv 2)) p01 p23)
          (SumsTo.add (ap (hv 4)) (ap (hv 6)) p45 p67)

theorem pairwiseSum_sumsTo : ∀ (fuel : ℕ) (l : List ℚ), l.length < fuel → SumsTo l (pairwiseSum fuel l) := by
  intro fuel
  induction fuel with
  | zero => intro l h; omega
  | succ fuel ih =>
    intro l hl
    unfold pairwiseSum
    split_ifs with h1 h2
    · exact seqSum64_sumsTo l
    · obtain ⟨a0, a1, a2, a3, a4, a5, a6, a7, t, rfl⟩ : ∃ a0 a1 a2 a3 a4 a5 a6 a7 t,
          l = a0 :: a1 :: a2 :: a3 :: a4 :: a5 :: a6 :: a7 :: t := by
        match l, h1 with
        | a0 :: a1 :: a2 :: a3 :: a4 :: a5 :: a6 :: a7 :: t, _ => exact ⟨a0, a1, a2, a3, a4, a5, a6, a7, t, rfl⟩
        | [], h1 => simp at h1
        | [_], h1 => simp at h1
        | [_, _], h1 => simp at h1
        | [_, _, _], h1 => simp at h1
        | [_, _, _, _], h1 => simp at h1
        | [_, _, _, _, _], h1 => simp at h1
        | [_, _, _, _, _, _], h1 => simp at h1
        | [_, _, _, _, _, _, _], h1 => simp at h1
      exact pairwiseBlocks_sumsTo _ t (fun k => [(![a0, a1, a2, a3, a4, a5, a6, a7] : Fin 8 → ℚ) k])
        ![a0, a1, a2, a3, a4, a5, a6, a7] (by simp only [List.length_cons]; omega) (fun k => by simp) (fun k => .single _)
    · dsimp only
      obtain ⟨m, hm⟩ : ∃ m, m = l.length / 2 - l.length / 2 % 8 := ⟨_, rfl⟩
      rw [← hm]
      have h0 : 0 < m := by omega
      have h1 : m < l.length := by omega
      have := SumsTo.add (l := l.take m) (l' := l.drop m)
        (by rw [Ne, List.take_eq_nil_iff]; rintro (e | e)
            · omega
            · rw [e] at h1; simp at h1)
        (by rw [Ne, List.drop_eq_nil_iff]; omega)
        (ih (l.take m) (by rw [List.length_take]; omega)) (ih (l.drop m) (by rw [List.length_drop]; omega))
      rwa [List.take_append_drop] at this

/-- `np.sum` is one of the orders of summation that the theorems about `float64` allow. -/
theorem numpySum_sumsTo (l : List ℚ) : SumsTo l (numpySum l) := pairwiseSum_sumsTo _ l (Nat.lt_succ_self _)

/-- `float64` arithmetic with NumPy's order of summation. -/
theorem float64_numpy : IsFloat64 sqrt64 numpySum seqDot64 :=
  ⟨float64_seq.1.sqrt, numpySum_sumsTo, float64_seq.1.dot⟩

end Dcor

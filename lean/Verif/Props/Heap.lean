/-
Properties C23 and (two functions with the values they compute) C53: which memory the functions write to.
-/
import Verif.Proofs.Heap
import Mathlib.Tactic.FinCases
import Mathlib.Algebra.BigOperators.Fin

namespace Dcor.Props

variable {n m p : ℕ}

/-! ### C23 -/

/-- C23, `out=None`: `double_centered(a)` and `u_centered(a)` change no memory that existed before and
return the centred contents of `a` in newly allocated memory (of floats, also if `a` has integers). -/
theorem C23_no_out (a : View n n) (h : Heap) (ha : a.Valid h) :
    (∃ o h', (doubleCenteredH a none).run h = (.ok o, h') ∧ h.Untouched h' ∧ o.Fresh h h' ∧
      o.integer = false ∧ o.get h' = doubleCentered (a.get h)) ∧
    (∃ o h', (uCenteredH a none).run h = (.ok o, h') ∧ h.Untouched h' ∧ o.Fresh h h' ∧
      o.integer = false ∧ o.get h' = uCentered (a.get h)) := by
  have hg : a.get (afterAlloc h (a.get h)) = a.get h := by
    refine get_congr a fun c hc => ?_
    obtain ⟨i, j, rfl⟩ := hc
    exact afterAlloc_untouched h _ _ (ha i j)
  have hf : ∀ h' : Heap, h'.next = (afterAlloc h (a.get h)).next → (newView n n h).Fresh h h' := by
    intro h' hn i j
    rw [hn, afterAlloc_next]
    exact newView_bound h i j
  have hu : ∀ h' : Heap, (∀ c, ¬ (newView n n h).Owns c → h'.cell c
      = (afterAlloc h (a.get h)).cell c) → h.Untouched h' := by
    intro h' hc c hlt
    rw [hc c (newView_not_owns h hlt), afterAlloc_untouched h _ c hlt]
  constructor
  · obtain ⟨h', hr, hn, hv, hc⟩ := doubleCenteredH_run a none _ (newView_inj h) rfl (copy_none a h)
      (a.get h) (afterAlloc_get h _) (by rw [hg])
    exact ⟨_, h', hr, hu h' hc, hf h' hn, rfl, hv⟩
  · obtain ⟨h', hr, hn, hv, hc⟩ := uCenteredH_run a none _ (newView_inj h) rfl (copy_none a h)
      (a.get h) (afterAlloc_get h _) (by rw [hg])
    exact ⟨_, h', hr, hu h' hc, hf h' hn, rfl, hv⟩

/-- An array of integers. -/
example := C23_no_out (n := 2) ⟨fun i j => i * 2 + j, true⟩ ⟨4, fun c => .fin c⟩
  (by intro i j; simp only; omega)

/-- C23, `out=a`: the array `a` is returned, it has the same values that would be returned without
`out`, and no other memory is changed. -/
theorem C23_in_place (a : View n n) (h : Heap) (ha : a.Inj) (hi : a.integer = false) :
    (∃ h', (doubleCenteredH a (some a)).run h = (.ok a, h') ∧
      a.get h' = doubleCentered (a.get h) ∧ h'.next = h.next ∧
      ∀ c, ¬ a.Owns c → h'.cell c = h.cell c) ∧
    (∃ h', (uCenteredH a (some a)).run h = (.ok a, h') ∧
      a.get h' = uCentered (a.get h) ∧ h'.next = h.next ∧
      ∀ c, ¬ a.Owns c → h'.cell c = h.cell c) := by
  constructor
  · obtain ⟨h', hr, hn, hv, hc⟩ := doubleCenteredH_run a (some a) a ha hi (copy_self a h)
      (a.get h) rfl rfl
    exact ⟨h', hr, hv, hn, hc⟩
  · obtain ⟨h', hr, hn, hv, hc⟩ := uCenteredH_run a (some a) a ha hi (copy_self a h)
      (a.get h) rfl rfl
    exact ⟨h', hr, hv, hn, hc⟩

example := C23_in_place (n := 2) ⟨fun i j => i * 2 + j, false⟩ ⟨4, fun c => .fin c⟩
  (by intro i j k l h; simp only at h; omega) rfl

/-- C23, `out` does not share memory with `a`: `out` is returned with the values that would be
returned without `out`, and no memory outside `out` is changed (in particular not `a`). -/
theorem C23_other_out (a o : View n n) (h : Heap) (ho : o.Inj) (hi : o.integer = false)
    (hd : a.Disjoint o) :
    (∃ h', (doubleCenteredH a (some o)).run h = (.ok o, h') ∧
      o.get h' = doubleCentered (a.get h) ∧ a.get h' = a.get h ∧ h'.next = h.next ∧
      ∀ c, ¬ o.Owns c → h'.cell c = h.cell c) ∧
    (∃ h', (uCenteredH a (some o)).run h = (.ok o, h') ∧
      o.get h' = uCentered (a.get h) ∧ a.get h' = a.get h ∧ h'.next = h.next ∧
      ∀ c, ¬ o.Owns c → h'.cell c = h.cell c) := by
  by_cases hne : o = a
  · -- only possible for empty matrices
    subst hne
    have hn : ∀ c, ¬ o.Owns c := fun c hc => hd c hc hc
    obtain ⟨⟨h', hr, hv, hn', hc⟩, ⟨h'', hr', hv', hn'', hc'⟩⟩ := C23_in_place o h ho hi
    exact ⟨⟨h', hr, hv, get_congr o fun c hc => absurd hc (hn c), hn', hc⟩,
      ⟨h'', hr', hv', get_congr o fun c hc => absurd hc (hn c), hn'', hc'⟩⟩
  · have hg := store_get_disjoint h o a hd (fun _ _ => True) (a.get h)
    have hA := store_get_all h o ho hi (a.get h)
    constructor
    · obtain ⟨h', hr, hn, hv, hc⟩ := doubleCenteredH_run a (some o) o ho hi (copy_other a o hne h)
        (a.get h) hA (by rw [hg])
      have hc' : ∀ c, ¬ o.Owns c → h'.cell c = h.cell c := fun c h0 => by
        rw [hc c h0, store_frame _ _ _ _ h0]
      exact ⟨h', hr, hv, get_congr a fun c h0 => hc' c (hd c h0), hn, hc'⟩
    · obtain ⟨h', hr, hn, hv, hc⟩ := uCenteredH_run a (some o) o ho hi (copy_other a o hne h)
        (a.get h) hA (by rw [hg])
      have hc' : ∀ c, ¬ o.Owns c → h'.cell c = h.cell c := fun c h0 => by
        rw [hc c h0, store_frame _ _ _ _ h0]
      exact ⟨h', hr, hv, get_congr a fun c h0 => hc' c (hd c h0), hn, hc'⟩

example := C23_other_out (n := 2) ⟨fun i j => i * 2 + j, true⟩ ⟨fun i j => 4 + (i * 2 + j), false⟩
  ⟨8, fun c => .fin c⟩ (by intro i j k l h; simp only at h; omega) rfl
  (by rintro c ⟨i, j, rfl⟩ ⟨k, l, h⟩; simp only at h; omega)

/-- C23: `out` can also be the transpose of `a` (a view of the same memory), for the symmetric matrices
the functions are meant for. -/
theorem C23_transposed_out (a o : View n n) (h : Heap) (ho : o.Inj) (hi : o.integer = false)
    (hT : ∀ i j, o.addr i j = a.addr j i) (hs : ∀ i j, a.get h i j = a.get h j i) :
    (∃ h', (doubleCenteredH a (some o)).run h = (.ok o, h') ∧
      o.get h' = doubleCentered (a.get h) ∧ ∀ c, ¬ a.Owns c → h'.cell c = h.cell c) ∧
    (∃ h', (uCenteredH a (some o)).run h = (.ok o, h') ∧
      o.get h' = uCentered (a.get h) ∧ ∀ c, ¬ a.Owns c → h'.cell c = h.cell c) := by
  have how : ∀ c, ¬ a.Owns c → ¬ o.Owns c := by
    rintro c hc ⟨i, j, rfl⟩
    exact hc ⟨j, i, (hT i j).symm⟩
  by_cases hne : o = a
  · subst hne
    obtain ⟨⟨h', hr, hv, -, hc⟩, ⟨h'', hr', hv', -, hc'⟩⟩ := C23_in_place o h ho hi
    exact ⟨⟨h', hr, hv, hc⟩, ⟨h'', hr', hv', hc'⟩⟩
  · have hA := store_get_all h o ho hi (a.get h)
    have hg : a.get (h.store o (fun _ _ => True) (a.get h)) = a.get h := by
      funext i j
      have := congrFun (congrFun hA j) i
      unfold View.get at this ⊢
      rw [hT] at this
      rw [this]
      exact hs j i
    constructor
    · obtain ⟨h', hr, -, hv, hc⟩ := doubleCenteredH_run a (some o) o ho hi (copy_other a o hne h)
        (a.get h) hA (by rw [hg])
      exact ⟨h', hr, hv, fun c h0 => by rw [hc c (how c h0), store_frame _ _ _ _ (how c h0)]⟩
    · obtain ⟨h', hr, -, hv, hc⟩ := uCenteredH_run a (some o) o ho hi (copy_other a o hne h)
        (a.get h) hA (by rw [hg])
      exact ⟨h', hr, hv, fun c h0 => by rw [hc c (how c h0), store_frame _ _ _ _ (how c h0)]⟩

example := C23_transposed_out (n := 2) ⟨fun i j => i * 2 + j, false⟩ ⟨fun i j => j * 2 + i, false⟩
  ⟨4, fun c => .fin (if c = 0 ∨ c = 3 then 0 else 1)⟩
  (by intro i j k l h; simp only at h; omega) rfl (fun _ _ => rfl)
  (by
    intro i j
    fin_cases i <;> fin_cases j <;> simp [View.get])

/-- Truncation towards zero: the integer of the same sign and the largest absolute value that is not larger. -/
private theorem truncFP_fin (r : ℝ) : ∃ k : ℤ, truncFP (.fin r) = .fin k ∧ |(k : ℝ)| ≤ |r| ∧ |r| < |(k : ℝ)| + 1 ∧
    0 ≤ (k : ℝ) * r := by
  unfold truncFP
  dsimp only
  split_ifs with h
  · refine ⟨⌊r⌋, rfl, ?_⟩
    have h1 := Int.floor_le r
    have h2 := Int.lt_floor_add_one r
    have h3 : (0 : ℝ) ≤ (⌊r⌋ : ℤ) := by exact_mod_cast Int.floor_nonneg.2 h
    rw [abs_of_nonneg h, abs_of_nonneg h3]
    exact ⟨h1, h2, mul_nonneg h3 h⟩
  · have h := not_le.1 h
    refine ⟨⌈r⌉, rfl, ?_⟩
    have h1 := Int.le_ceil r
    have h2 := Int.ceil_lt_add_one r
    have h3 : ((⌈r⌉ : ℤ) : ℝ) ≤ 0 := by exact_mod_cast Int.ceil_le.2 (by simpa using h.le)
    rw [abs_of_neg h, abs_of_nonpos h3]
    exact ⟨by linarith, by linarith, mul_nonneg_of_nonpos_of_nonpos h3 h.le⟩

/-- C23: an integral `out` is overwritten with the values of `a`, truncated towards zero, before the call fails with
`TypeError`; with `out=a` it fails without changing anything. -/
theorem C23_integer_out (a o : View n n) (h : Heap) (ho : o.Inj) (hi : o.integer = true) :
    (∃ h', (doubleCenteredH a (some o)).run h = (.error .typeError, h') ∧
      (uCenteredH a (some o)).run h = (.error .typeError, h') ∧
      (∀ c, ¬ o.Owns c → h'.cell c = h.cell c) ∧
      (o ≠ a → ∀ i j r, a.get h i j = .fin r →
        ∃ k : ℤ, o.get h' i j = .fin k ∧ |(k : ℝ)| ≤ |r| ∧ |r| < |(k : ℝ)| + 1 ∧ 0 ≤ (k : ℝ) * r) ∧
      (o = a → h' = h)) := by
  by_cases hne : o = a
  · subst hne
    exact ⟨h, doubleCenteredH_int o _ o hi (copy_self o h), uCenteredH_int o _ o hi (copy_self o h),
      fun _ _ => rfl, fun h0 => absurd rfl h0, fun _ => rfl⟩
  · refine ⟨_, doubleCenteredH_int a _ o hi (copy_other a o hne h),
      uCenteredH_int a _ o hi (copy_other a o hne h), fun c hc => store_frame _ _ _ _ hc,
      fun _ => ?_, fun h0 => absurd h0 hne⟩
    intro i j r hr
    rw [store_get_int h o ho hi _ _ i j trivial, hr]
    exact truncFP_fin r

example := C23_integer_out (n := 2) ⟨fun i j => i * 2 + j, false⟩ ⟨fun i j => 4 + (i * 2 + j), true⟩
  ⟨8, fun c => .fin (c / 2 - 1)⟩ (by intro i j k l h; simp only at h; omega) rfl

/-- C23: if `out` overlaps `a` in another way the result is wrong, because the sums are computed after
`out` has been overwritten. Here `a` is the matrix `[[0, 1], [1, 0]]` and `out` starts one cell later. -/
theorem C23_overlapping_out_wrong : ∃ (a o : View 2 2) (h : Heap), a.Inj ∧ o.Inj ∧ a.Valid h ∧
    o.Valid h ∧ a.integer = false ∧ o.integer = false ∧ (∀ i j, a.get h i j = a.get h j i) ∧
    ∃ h', (doubleCenteredH a (some o)).run h = (.ok o, h') ∧
      o.get h' ≠ doubleCentered (a.get h) := by
  let a : View 2 2 := ⟨fun i j => i * 2 + j, false⟩
  let o : View 2 2 := ⟨fun i j => i * 2 + j + 1, false⟩
  let h : Heap := ⟨5, fun c => .fin (if c = 1 ∨ c = 2 then 1 else 0)⟩
  have ho : o.Inj := by intro i j k l h; simp only [o] at h; omega
  have hA := store_get_all h o ho rfl (a.get h)
  refine ⟨a, o, h, by intro i j k l h; simp only [a] at h; omega, ho,
    by intro i j; simp only [a, h]; omega, by intro i j; simp only [o, h]; omega, rfl, rfl,
    by intro i j; fin_cases i <;> fin_cases j <;> simp [View.get, a, h], ?_⟩
  have hne : o ≠ a := fun he => by
    have := congrFun (congrFun (congrArg View.addr he) 0) 0
    simp [o, a] at this
  -- contents of `a` after copying
  have h1 : (h.store o (fun _ _ => True) (a.get h)).cell 1 = .fin 0 := by
    have := congrFun (congrFun hA 0) 0
    simpa [View.get, o, a, h] using this
  have h2 : (h.store o (fun _ _ => True) (a.get h)).cell 2 = .fin 1 := by
    have := congrFun (congrFun hA 0) 1
    simpa [View.get, o, a, h] using this
  have h3 : (h.store o (fun _ _ => True) (a.get h)).cell 3 = .fin 1 := by
    have := congrFun (congrFun hA 1) 0
    simpa [View.get, o, a, h] using this
  have h4 : (h.store o (fun _ _ => True) (a.get h)).cell 4 = .fin 0 := by
    have := congrFun (congrFun hA 1) 1
    simpa [View.get, o, a, h] using this
  have h0 : (h.store o (fun _ _ => True) (a.get h)).cell 0 = .fin 0 := by
    rw [store_frame]
    · simp [h]
    · rintro ⟨i, j, hij⟩
      simp [o] at hij
  unfold doubleCenteredH
  rw [HeapM.bind_run (copy_other a o hne h), HeapM.read_bind]
  dsimp only
  rw [HeapM.bind_run (inplace_run o rfl _ _ _), HeapM.bind_run (inplace_run o rfl _ _ _),
    HeapM.bind_run (inplace_run o rfl _ _ _), HeapM.pure_run]
  refine ⟨_, rfl, fun he => ?_⟩
  have := congrFun (congrFun he 0) 0
  simp only [store_get_all _ o ho rfl] at this
  simp [doubleCentered, symmetricMatrixSums, View.get, a, h, h0, h1, h2, h3,
    Fin.sum_univ_two, FP.fin_div'] at this
  norm_num at this

/-! ### C53 -/

/-- C53, with the values: computing a centred distance matrix of a sample, and the square root of an array,
change no memory that existed before; the results are in new memory. -/
theorem C53_distance_matrix
    (distances : (Fin n → Fin p → FP ℝ) → Fin n → Fin n → FP ℝ) (x : View n p) (h : Heap) :
    (∃ o h', (distanceMatrixGenericH doubleCenteredH distances x).run h = (.ok o, h') ∧
      h.Untouched h' ∧ o.Fresh h h' ∧ o.get h' = doubleCentered (distances (x.get h))) ∧
    (∃ o h', (distanceMatrixGenericH uCenteredH distances x).run h = (.ok o, h') ∧
      h.Untouched h' ∧ o.Fresh h h' ∧ o.get h' = uCentered (distances (x.get h))) := by
  have hf : ∀ h' : Heap, h'.next = (afterAlloc h (distances (x.get h))).next →
      (newView n n h).Fresh h h' := by
    intro h' hn i j
    rw [hn, afterAlloc_next]
    exact newView_bound h i j
  have hu : ∀ h' : Heap, (∀ c, ¬ (newView n n h).Owns c → h'.cell c
      = (afterAlloc h (distances (x.get h))).cell c) → h.Untouched h' := by
    intro h' hc c hlt
    rw [hc c (newView_not_owns h hlt), afterAlloc_untouched h _ c hlt]
  unfold distanceMatrixGenericH
  rw [HeapM.read_bind, HeapM.read_bind, HeapM.bind_run (alloc_run _ h),
    HeapM.bind_run (alloc_run _ h)]
  obtain ⟨⟨h', hr, hv, hn, hc⟩, ⟨h'', hr', hv', hn', hc'⟩⟩ :=
    C23_in_place (newView n n h) (afterAlloc h (distances (x.get h))) (newView_inj h) rfl
  rw [afterAlloc_get] at hv hv'
  exact ⟨⟨_, h', hr, hu h' hc, hf h' hn, hv⟩, ⟨_, h'', hr', hu h'' hc', hf h'' hn', hv'⟩⟩

/-- C53, with the values: `_sqrt` changes no memory that existed before. -/
theorem C53_sqrt (x : View n m) (h : Heap) : ∃ o h',
    (sqrtH x).run h = (.ok o, h') ∧ h.Untouched h' ∧ o.Fresh h h' ∧
    o.get h' = fun i j => sqrtClip (x.get h i j) := sqrtH_run x h

end Dcor.Props

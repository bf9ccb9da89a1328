/-
Lemmas about the memory model.
-/
import Verif.Spec.Heap

namespace Dcor

variable {n m p : ℕ}

theorem HeapM.bind_run {α β : Type} {x : HeapM α} {f : α → HeapM β} {h h' : Heap} {a : α}
    (hx : x.run h = (.ok a, h')) : (x >>= f).run h = (f a).run h' := by
  change (match x.run h with
    | (.ok a, h') => (f a).run h'
    | (.error e, h') => (.error e, h')) = _
  rw [hx]

theorem HeapM.bind_run_err {α β : Type} {x : HeapM α} {f : α → HeapM β} {h h' : Heap} {e : PyErr}
    (hx : x.run h = (.error e, h')) : (x >>= f).run h = (.error e, h') := by
  change (match x.run h with
    | (.ok a, h') => (f a).run h'
    | (.error e, h') => (.error e, h')) = _
  rw [hx]

theorem HeapM.read_bind {α : Type} (v : View n m) (f : (Fin n → Fin m → FP ℝ) → HeapM α)
    (h : Heap) : (HeapM.read v >>= f).run h = (f (v.get h)).run h := HeapM.bind_run rfl

theorem HeapM.pure_run {α : Type} (a : α) (h : Heap) : (HeapM.pure a).run h = (.ok a, h) := rfl

theorem HeapM.write_bind {α : Type} (v : View n m) (mask : Fin n → Fin m → Prop)
    (g : Fin n → Fin m → FP ℝ) (f : Unit → HeapM α) (h : Heap) :
    (HeapM.write v mask g >>= f).run h = (f ()).run (h.store v mask g) := HeapM.bind_run rfl

theorem store_next (h : Heap) (v : View n m) (mask : Fin n → Fin m → Prop)
    (f : Fin n → Fin m → FP ℝ) : (h.store v mask f).next = h.next := rfl

theorem store_frame (h : Heap) (v : View n m) (mask : Fin n → Fin m → Prop)
    (f : Fin n → Fin m → FP ℝ) {c : ℕ} (hc : ¬ v.Owns c) : (h.store v mask f).cell c = h.cell c := by
  unfold Heap.store
  dsimp only
  rw [dif_neg]
  rintro ⟨ij, hij, -⟩
  exact hc ⟨_, _, hij⟩

theorem store_get (h : Heap) (v : View n m) (hv : v.Inj) (hi : v.integer = false)
    (mask : Fin n → Fin m → Prop) (f : Fin n → Fin m → FP ℝ) (i : Fin n) (j : Fin m)
    (hm : mask i j) : v.get (h.store v mask f) i j = f i j := by
  unfold View.get Heap.store
  have hc : ∃ ij : Fin n × Fin m, v.addr ij.1 ij.2 = v.addr i j ∧ mask ij.1 ij.2 :=
    ⟨(i, j), rfl, hm⟩
  dsimp only
  rw [dif_pos hc, hi]
  obtain ⟨h1, h2⟩ := hv _ _ _ _ hc.choose_spec.1
  rw [h1, h2]
  rfl

theorem store_get_int (h : Heap) (v : View n m) (hv : v.Inj) (hi : v.integer = true)
    (mask : Fin n → Fin m → Prop) (f : Fin n → Fin m → FP ℝ) (i : Fin n) (j : Fin m)
    (hm : mask i j) : v.get (h.store v mask f) i j = truncFP (f i j) := by
  unfold View.get Heap.store
  have hc : ∃ ij : Fin n × Fin m, v.addr ij.1 ij.2 = v.addr i j ∧ mask ij.1 ij.2 :=
    ⟨(i, j), rfl, hm⟩
  dsimp only
  rw [dif_pos hc, hi]
  obtain ⟨h1, h2⟩ := hv _ _ _ _ hc.choose_spec.1
  rw [h1, h2]
  rfl

theorem store_get_not (h : Heap) (v : View n m) (hv : v.Inj)
    (mask : Fin n → Fin m → Prop) (f : Fin n → Fin m → FP ℝ) (i : Fin n) (j : Fin m)
    (hm : ¬ mask i j) : v.get (h.store v mask f) i j = v.get h i j := by
  unfold View.get Heap.store
  dsimp only
  rw [dif_neg]
  rintro ⟨ij, hij, hm'⟩
  obtain ⟨h1, h2⟩ := hv _ _ _ _ hij
  rw [h1, h2] at hm'
  exact hm hm'

theorem store_get_all (h : Heap) (v : View n m) (hv : v.Inj) (hi : v.integer = false)
    (f : Fin n → Fin m → FP ℝ) : v.get (h.store v (fun _ _ => True) f) = f := by
  funext i j
  exact store_get h v hv hi _ f i j trivial

theorem get_congr (v : View n m) {h h' : Heap} (he : ∀ c, v.Owns c → h'.cell c = h.cell c) :
    v.get h' = v.get h := by
  funext i j
  exact he _ ⟨i, j, rfl⟩

/-- An array that shares no memory with the one written to. -/
theorem store_get_disjoint {k l : ℕ} (h : Heap) (v : View n m) (w : View k l) (hd : w.Disjoint v)
    (mask : Fin n → Fin m → Prop) (f : Fin n → Fin m → FP ℝ) :
    w.get (h.store v mask f) = w.get h :=
  get_congr w fun c hc => store_frame h v mask f (hd c hc)

/-- The view created by `alloc`. -/
def newView (n m : ℕ) (h : Heap) : View n m := ⟨fun i j => h.next + (i * m + j), false⟩

theorem newView_inj (h : Heap) : (newView n m h).Inj := by
  intro i j k l hij
  have h1 : (i : ℕ) * m + j = k * m + l := Nat.add_left_cancel hij
  have hj : (j : ℕ) = l := by
    have := congrArg (· % m) h1
    simpa [Nat.add_mod, Nat.mod_eq_of_lt j.2, Nat.mod_eq_of_lt l.2] using this
  have hi : (i : ℕ) = k := by
    rw [hj] at h1
    exact Nat.eq_of_mul_eq_mul_right (Nat.pos_of_ne_zero fun h0 => by
      have := j.2
      omega) (Nat.add_right_cancel h1)
  exact ⟨Fin.ext hi, Fin.ext hj⟩

theorem newView_bound (h : Heap) (i : Fin n) (j : Fin m) :
    h.next ≤ (newView n m h).addr i j ∧ (newView n m h).addr i j < h.next + n * m := by
  refine ⟨Nat.le_add_right _ _, Nat.add_lt_add_left ?_ _⟩
  calc (i : ℕ) * m + j < i * m + m := Nat.add_lt_add_left j.2 _
    _ = (i + 1) * m := by ring
    _ ≤ n * m := Nat.mul_le_mul_right _ i.2

/-- The memory after `alloc`. -/
noncomputable def afterAlloc (h : Heap) (f : Fin n → Fin m → FP ℝ) : Heap :=
  ({ h with next := h.next + n * m }).store (newView n m h) (fun _ _ => True) f

theorem alloc_run (f : Fin n → Fin m → FP ℝ) (h : Heap) :
    (HeapM.alloc f).run h = (.ok (newView n m h), afterAlloc h f) := rfl

theorem afterAlloc_next (h : Heap) (f : Fin n → Fin m → FP ℝ) :
    (afterAlloc h f).next = h.next + n * m := rfl

theorem afterAlloc_get (h : Heap) (f : Fin n → Fin m → FP ℝ) :
    (newView n m h).get (afterAlloc h f) = f :=
  store_get_all _ _ (newView_inj h) rfl f

theorem newView_not_owns (h : Heap) {c : ℕ} (hc : c < h.next) : ¬ (newView n m h).Owns c := by
  rintro ⟨i, j, rfl⟩
  exact absurd (newView_bound h i j).1 (not_le.mpr hc)

theorem afterAlloc_untouched (h : Heap) (f : Fin n → Fin m → FP ℝ) :
    h.Untouched (afterAlloc h f) := fun c hc =>
  store_frame { h with next := h.next + n * m } _ _ _ (newView_not_owns h hc)

theorem inplace_run (v : View n m) (hi : v.integer = false) (op : FP ℝ → FP ℝ → FP ℝ)
    (f : Fin n → Fin m → FP ℝ) (h : Heap) :
    (HeapM.inplace v op f).run h
      = (.ok (), h.store v (fun _ _ => True) fun i j => op (v.get h i j) (f i j)) := by
  unfold HeapM.inplace
  rw [hi]
  rfl

theorem inplace_run_int (v : View n m) (hi : v.integer = true) (op : FP ℝ → FP ℝ → FP ℝ)
    (f : Fin n → Fin m → FP ℝ) (h : Heap) : (HeapM.inplace v op f).run h = (.error .typeError, h) := by
  unfold HeapM.inplace
  rw [hi]
  rfl

/-- Effect of the centering functions once the output array has been selected. -/
theorem doubleCenteredH_run (a : View n n) (out : Option (View n n)) (o : View n n) (ho : o.Inj)
    (hi : o.integer = false) {h h₁ : Heap} (hc : (floatCopyToOut out a).run h = (.ok o, h₁))
    (A : FMat n) (hA : o.get h₁ = A)
    (hs : symmetricMatrixSums (a.get h₁) = symmetricMatrixSums A) :
    ∃ h', (doubleCenteredH a out).run h = (.ok o, h') ∧ h'.next = h₁.next ∧
      o.get h' = doubleCentered A ∧ ∀ c, ¬ o.Owns c → h'.cell c = h₁.cell c := by
  unfold doubleCenteredH
  rw [HeapM.bind_run hc]
  rw [HeapM.read_bind]
  dsimp only
  rw [hs]
  rw [HeapM.bind_run (inplace_run o hi _ _ _), HeapM.bind_run (inplace_run o hi _ _ _),
    HeapM.bind_run (inplace_run o hi _ _ _), HeapM.pure_run]
  refine ⟨_, rfl, rfl, ?_, ?_⟩
  · simp only [store_get_all _ o ho hi, hA]
    rfl
  · intro c hcn
    rw [store_frame _ _ _ _ hcn, store_frame _ _ _ _ hcn, store_frame _ _ _ _ hcn]

theorem uCenteredH_run (a : View n n) (out : Option (View n n)) (o : View n n) (ho : o.Inj)
    (hi : o.integer = false) {h h₁ : Heap} (hc : (floatCopyToOut out a).run h = (.ok o, h₁))
    (A : FMat n) (hA : o.get h₁ = A)
    (hs : symmetricMatrixSums (a.get h₁) = symmetricMatrixSums A) :
    ∃ h', (uCenteredH a out).run h = (.ok o, h') ∧ h'.next = h₁.next ∧
      o.get h' = uCentered A ∧ ∀ c, ¬ o.Owns c → h'.cell c = h₁.cell c := by
  unfold uCenteredH
  rw [HeapM.bind_run hc]
  rw [HeapM.read_bind]
  dsimp only
  rw [hs]
  rw [HeapM.bind_run (inplace_run o hi _ _ _), HeapM.bind_run (inplace_run o hi _ _ _),
    HeapM.bind_run (inplace_run o hi _ _ _), HeapM.write_bind, HeapM.pure_run]
  refine ⟨_, rfl, rfl, ?_, ?_⟩
  · funext i j
    unfold uCentered
    dsimp only
    by_cases hij : i = j
    · rw [store_get _ o ho hi _ _ i j hij, if_pos hij]
    · rw [store_get_not _ o ho _ _ i j hij, if_neg hij]
      simp only [store_get_all _ o ho hi, hA]
  · intro c hcn
    rw [store_frame _ _ _ _ hcn, store_frame _ _ _ _ hcn, store_frame _ _ _ _ hcn,
      store_frame _ _ _ _ hcn]

/-- With an integral output array the functions fail after copying. -/
theorem doubleCenteredH_int (a : View n n) (out : Option (View n n)) (o : View n n)
    (hi : o.integer = true) {h h₁ : Heap} (hc : (floatCopyToOut out a).run h = (.ok o, h₁)) :
    (doubleCenteredH a out).run h = (.error .typeError, h₁) := by
  unfold doubleCenteredH
  rw [HeapM.bind_run hc, HeapM.read_bind]
  dsimp only
  rw [HeapM.bind_run_err (inplace_run_int o hi _ _ _)]

theorem uCenteredH_int (a : View n n) (out : Option (View n n)) (o : View n n)
    (hi : o.integer = true) {h h₁ : Heap} (hc : (floatCopyToOut out a).run h = (.ok o, h₁)) :
    (uCenteredH a out).run h = (.error .typeError, h₁) := by
  unfold uCenteredH
  rw [HeapM.bind_run hc, HeapM.read_bind]
  dsimp only
  rw [HeapM.bind_run_err (inplace_run_int o hi _ _ _)]

theorem FP.div_one' (a : FP ℝ) : a / .fin 1 = a := by
  cases a with
  | fin a => rw [FP.fin_div a one_ne_zero, div_one]
  | pinf =>
    change (if (1 : ℝ) < 0 then FP.ninf else FP.pinf) = _
    rw [if_neg (by norm_num)]
  | ninf =>
    change (if (1 : ℝ) < 0 then FP.pinf else FP.ninf) = _
    rw [if_neg (by norm_num)]
  | nan => rfl

theorem copy_none (a : View n m) (h : Heap) :
    (floatCopyToOut none a).run h = (.ok (newView n m h), afterAlloc h (a.get h)) := by
  unfold floatCopyToOut
  dsimp only
  rw [HeapM.read_bind, alloc_run]
  simp only [FP.div_one']

theorem copy_self (a : View n m) (h : Heap) : (floatCopyToOut (some a) a).run h = (.ok a, h) := by
  unfold floatCopyToOut
  dsimp only
  rw [if_neg (by simp)]
  rfl

theorem copy_other (a o : View n m) (hne : o ≠ a) (h : Heap) :
    (floatCopyToOut (some o) a).run h = (.ok o, h.store o (fun _ _ => True) (a.get h)) := by
  unfold floatCopyToOut
  dsimp only
  rw [if_pos hne]
  rfl

theorem FP.add_zero' (a : FP ℝ) : a + .fin 0 = a := by
  cases a with
  | fin a => rw [FP.fin_add, add_zero]
  | pinf => rfl
  | ninf => rfl
  | nan => rfl

open Classical in
theorem sqrtFP_clip (a : FP ℝ) : sqrtFP (if FP.lt a (.fin 0) then .fin 0 else a) = sqrtClip a := by
  cases a with
  | fin a =>
    by_cases h : a < 0
    · have : FP.lt (FP.fin a) (.fin 0) := h
      rw [if_pos this]
      simp [sqrtFP, sqrtClip, h]
    · have : ¬ FP.lt (FP.fin a) (.fin 0) := h
      rw [if_neg this]
      simp [sqrtFP, sqrtClip, h]
  | pinf => rw [if_neg (by simp [FP.lt])]; rfl
  | ninf => rw [if_pos (by simp [FP.lt])]; simp [sqrtFP, sqrtClip]
  | nan => rw [if_neg (by simp [FP.lt])]; rfl

theorem sqrtH_run (x : View n m) (h : Heap) : ∃ o h',
    (sqrtH x).run h = (.ok o, h') ∧ h.Untouched h' ∧ o.Fresh h h' ∧
    o.get h' = fun i j => sqrtClip (x.get h i j) := by
  unfold sqrtH
  rw [HeapM.read_bind, HeapM.bind_run (alloc_run _ h), HeapM.read_bind, HeapM.write_bind,
    HeapM.read_bind, alloc_run]
  refine ⟨_, _, rfl, ?_, ?_, ?_⟩
  · intro c hc
    rw [afterAlloc_untouched _ _ c (by
      rw [store_next, afterAlloc_next]
      omega), store_frame _ _ _ _ (newView_not_owns h hc), afterAlloc_untouched _ _ c hc]
  · intro i j
    have := newView_bound (n := n) (m := m) (((afterAlloc h fun i j => x.get h i j + FP.fin 0).store
      (newView n m h) (fun i j => FP.lt ((newView n m h).get
        (afterAlloc h fun i j => x.get h i j + FP.fin 0) i j) (FP.fin 0)) fun _ _ => FP.fin 0)) i j
    rw [store_next, afterAlloc_next] at this
    rw [afterAlloc_next, store_next, afterAlloc_next]
    omega
  · rw [afterAlloc_get]
    funext i j
    rw [← sqrtFP_clip]
    congr 1
    by_cases hl : FP.lt (x.get h i j) (.fin 0)
    · rw [if_pos hl, store_get _ _ (newView_inj h) rfl]
      rw [afterAlloc_get, FP.add_zero']
      exact hl
    · rw [if_neg hl, store_get_not _ _ (newView_inj h), afterAlloc_get, FP.add_zero']
      rw [afterAlloc_get, FP.add_zero']
      exact hl

end Dcor

/-
The functions of `Model/Cost.lean` compute the same values as the model without the counter, and bounds of the numbers of
steps by the potential method.
-/
import Verif.Model.Cost
import Mathlib.Tactic.Ring
import Mathlib.Tactic.Linarith

namespace Dcor

variable {R : Type}

namespace Cost

variable {α β γ : Type}

@[simp] theorem out_pure (a : α) : (pure a : Cost α).out = pure a := rfl
@[simp] theorem steps_pure (a : α) : (pure a : Cost α).steps = 0 := rfl
@[simp] theorem out_op (k : ℕ) (e : Except PyErr α) : (op k e).out = e := rfl
@[simp] theorem steps_op (k : ℕ) (e : Except PyErr α) : (op k e).steps = k := rfl

@[simp] theorem out_bind (m : Cost α) (f : α → Cost β) :
    (m >>= f).out = m.out >>= fun a => (f a).out := by
  show (Cost.bind m f).out = _
  unfold Cost.bind
  cases h : m.out <;> rfl

@[ext] theorem ext {a b : Cost α} (h1 : a.out = b.out) (h2 : a.steps = b.steps) : a = b := by
  cases a; cases b; simp_all

theorem bind_def (m : Cost α) (f : α → Cost β) : m >>= f = Cost.bind m f := rfl

instance : LawfulMonad Cost := LawfulMonad.mk'
  (id_map := fun m => by
    show Cost.bind m _ = m
    unfold Cost.bind
    rcases m with ⟨o, s⟩
    cases o <;> rfl)
  (pure_bind := fun a f => by
    show Cost.bind (Cost.pure a) f = f a
    apply Cost.ext <;> simp [Cost.bind, Cost.pure])
  (bind_assoc := fun m f g => by
    simp only [bind_def]
    unfold Cost.bind
    rcases m with ⟨o, s⟩
    cases o with
    | error e => rfl
    | ok a =>
      cases h : (f a).out <;> simp [h, Nat.add_assoc])

theorem out_foldlM (f : β → α → Cost β) (g : β → α → Except PyErr β)
    (h : ∀ b a, (f b a).out = g b a) (l : List α) (b : β) :
    (l.foldlM f b).out = l.foldlM g b := by
  induction l generalizing b with
  | nil => rfl
  | cons a l ih =>
    simp only [List.foldlM_cons, out_bind, h]
    congr 1
    funext b'
    exact ih b'

theorem out_mapM (f : α → Cost β) (g : α → Except PyErr β) (h : ∀ a, (f a).out = g a)
    (l : List α) : (l.mapM f).out = l.mapM g := by
  induction l with
  | nil => rfl
  | cons a l ih => simp only [List.mapM_cons, out_bind, h, ih, out_pure]

/-- The steps of `m` plus the potential `r` of its result are at most `k`. -/
def Bnd (m : Cost α) (k : ℕ) (r : α → ℕ) : Prop :=
  match m.out with
  | .ok a => m.steps + r a ≤ k
  | .error _ => m.steps ≤ k

theorem Bnd.steps_le {m : Cost α} {k : ℕ} {r : α → ℕ} (h : Bnd m k r) : m.steps ≤ k := by
  unfold Bnd at h
  cases e : m.out with
  | ok a => simp only [e] at h; omega
  | error e' => simpa only [e] using h

theorem Bnd.mono {m : Cost α} {k k' : ℕ} {r : α → ℕ} (h : Bnd m k r) (hk : k ≤ k') : Bnd m k' r := by
  unfold Bnd at *
  cases e : m.out <;> simp only [e] at h ⊢ <;> omega

theorem Bnd.of_pure {a : α} {k : ℕ} {r : α → ℕ} (h : r a ≤ k) : Bnd (pure a : Cost α) k r := by
  show 0 + r a ≤ k
  omega

theorem Bnd.bind {m : Cost α} {f : α → Cost β} {k : ℕ} {s : α → ℕ} {r : β → ℕ} (hm : Bnd m k s)
    (hf : ∀ a, Bnd (f a) (s a) r) : Bnd (m >>= f) k r := by
  unfold Bnd at *
  rw [bind_def]
  unfold Cost.bind
  cases e : m.out with
  | error e' => simpa only [e] using hm
  | ok a =>
    have h2 := hf a
    simp only [e] at hm ⊢
    cases e2 : (f a).out <;> simp only [e2] at h2 ⊢ <;> omega

theorem Bnd.op {c : ℕ} {e : Except PyErr α} {k : ℕ} {r : α → ℕ} (h : ∀ a, c + r a ≤ k) (hc : c ≤ k) :
    Bnd (Cost.op c e) k r := by
  unfold Bnd
  cases e' : e with
  | ok a => exact h a
  | error _ => exact hc

/-- An operation followed by a computation. -/
theorem Bnd.op_bind {c : ℕ} {e : Except PyErr α} {f : α → Cost β} {k k' : ℕ} {r : β → ℕ}
    (hf : ∀ a, Bnd (f a) k' r) (hk : c + k' ≤ k) : Bnd (Cost.op c e >>= f) k r :=
  Bnd.bind (s := fun _ => k') (Bnd.op (fun _ => hk) (by omega)) hf

theorem Bnd.ok_bind {c : ℕ} {a : α} {f : α → Cost β} {k k' : ℕ} {r : β → ℕ}
    (hf : Bnd (f a) k' r) (hk : c + k' ≤ k) : Bnd (Cost.op c (.ok a) >>= f) k r := by
  unfold Bnd at *
  rw [bind_def]
  unfold Cost.bind
  simp only [out_op, steps_op]
  cases e : (f a).out <;> simp only [e] at hf ⊢ <;> omega

theorem Bnd.foldlM {f : β → α → Cost β} {w : α → ℕ} (l : List α)
    (hf : ∀ b, ∀ a ∈ l, Bnd (f b a) (w a) (fun _ => 0)) (b : β) :
    Bnd (l.foldlM f b) (l.map w).sum (fun _ => 0) := by
  induction l generalizing b with
  | nil => exact Bnd.of_pure (le_refl 0)
  | cons a l ih =>
    simp only [List.foldlM_cons, List.map_cons, List.sum_cons]
    refine Bnd.bind (s := fun _ => (l.map w).sum) ?_
      (fun b' => ih (fun b a ha => hf b a (List.mem_cons_of_mem _ ha)) b')
    have h := hf b a List.mem_cons_self
    unfold Bnd at *
    cases e : (f b a).out <;> simp only [e] at h ⊢ <;> omega

theorem Bnd.foldlM_const {f : β → α → Cost β} {w : ℕ} (hf : ∀ b a, Bnd (f b a) w (fun _ => 0))
    (l : List α) (b : β) : Bnd (l.foldlM f b) (l.length * w) (fun _ => 0) := by
  have h := Bnd.foldlM (w := fun _ => w) l (fun b a _ => hf b a) b
  simpa using h

theorem Bnd.mapM_const {f : α → Cost β} {w : ℕ} (hf : ∀ a, Bnd (f a) w (fun _ => 0))
    (l : List α) : Bnd (l.mapM f) (l.length * w) (fun _ => 0) := by
  induction l with
  | nil => exact Bnd.of_pure (Nat.zero_le _)
  | cons a l ih =>
    simp only [List.mapM_cons]
    refine Bnd.bind (s := fun _ => l.length * w) ?_ (fun b => ?_)
    · have h := hf a
      have e2 : (a :: l).length * w = w + l.length * w := by simp; ring
      rw [e2]
      unfold Bnd at *
      cases e : (f a).out <;> simp only [e] at h ⊢ <;> omega
    · exact Bnd.bind (s := fun _ => 0) ih (fun _ => Bnd.of_pure (le_refl 0))

/-- Add a constant potential. -/
theorem Bnd.add {m : Cost α} {k : ℕ} (h : Bnd m k (fun _ => 0)) (p : ℕ) : Bnd m (k + p) (fun _ => p) := by
  unfold Bnd at *
  cases e : m.out <;> simp only [e] at h ⊢ <;> omega

/-- A computation followed by another one. -/
theorem Bnd.seq {m : Cost α} {f : α → Cost β} {k₁ k₂ k : ℕ} {r : β → ℕ} (hm : Bnd m k₁ (fun _ => 0))
    (hf : ∀ a, Bnd (f a) k₂ r) (hk : k₁ + k₂ ≤ k) : Bnd (m >>= f) k r :=
  Bnd.bind ((hm.add k₂).mono hk) hf

end Cost

open Cost

/-! ### Mergesort: same values -/

theorem mergeLoopC_out [AddCommGroup R] {Y : Type} {n V : ℕ} (ge : Y → Y → Bool) (y : Fin n → Y)
    (wc : Fin (n + 1) → Fin V → R) (prev : Fin n → ℕ) (last1 last2 : ℕ) (m : ℕ) :
    ∀ (i1 i2 : ℕ) (st : MergeState R n V), (last1 + 1 - i1) + (last2 + 1 - i2) = m →
      (mergeLoopC ge y wc prev last1 last2 i1 i2 st).out =
        mergeLoop ge y wc prev last1 last2 i1 i2 st := by
  induction m using Nat.strong_induction_on with
  | _ m ih =>
    intro i1 i2 st hm
    rw [mergeLoopC, mergeLoop]
    by_cases h : i1 ≤ last1 ∧ i2 ≤ last2
    · have h1 := fun st' => ih _ (by omega) (i1 + 1) i2 st' rfl
      have h2 := fun st' => ih _ (by omega) i1 (i2 + 1) st' rfl
      simp only [if_pos h, out_bind, out_op, apply_ite Cost.out, h1, h2]
      rfl
    · simp only [if_neg h, out_bind, out_op, out_pure]
      rfl

theorem copyRestC_out {n : ℕ} (prev : Fin n → ℕ) (i last : ℕ) (cur : Fin n → ℕ) (idx : ℕ) :
    (copyRestC prev i last cur idx).out = copyRest prev i last cur idx := by
  unfold copyRestC copyRest
  simp only [out_bind, out_pure]
  rw [out_foldlM _ (fun cur (k : ℕ) => do
    let v ← rd prev ((i : ℤ) + k)
    wr cur ((idx : ℤ) + k) v)]
  intro b a
  simp only [out_bind, out_op]

theorem mergePairC_out [AddCommGroup R] {Y : Type} {n V : ℕ} (ge : Y → Y → Bool) (y : Fin n → Y)
    (wc : Fin (n + 1) → Fin V → R) (prev : Fin n → ℕ) (len : ℕ) (st : MergeState R n V)
    (pairIdx : ℕ) :
    (mergePairC ge y wc prev len st pairIdx).out = mergePair ge y wc prev len st pairIdx := by
  unfold mergePairC mergePair
  simp only [out_bind, out_op, mergeLoopC_out ge y wc prev _ _ _ _ _ st rfl]
  show (Except.ok () >>= fun _ => _) = _
  show (mergeLoop ge y wc prev _ _ _ _ st >>= fun _ => _) = _
  congr 1
  funext r
  obtain ⟨j1, j2, st'⟩ := r
  simp only [apply_ite Cost.out, out_bind, out_pure, copyRestC_out]

theorem mergePassesC_out [AddCommGroup R] {Y : Type} {n V : ℕ} (ge : Y → Y → Bool) (y : Fin n → Y)
    (weights : Fin n → Fin V → R) (m : ℕ) :
    ∀ (len : ℕ) (hlen : 0 < len) (prev cur : Fin n → ℕ) (ws : Fin n → Fin V → R) (updates : ℕ),
      n - len = m →
      (mergePassesC ge y weights len hlen prev cur ws updates).out =
        mergePasses ge y weights len hlen prev cur ws updates := by
  induction m using Nat.strong_induction_on with
  | _ m ih =>
    intro len hlen prev cur ws updates hm
    rw [mergePassesC, mergePasses]
    by_cases h : len < n
    · have h1 := fun p c w u => ih _ (by omega) (2 * len) (by omega) p c w u rfl
      simp only [if_pos h, out_bind, out_op, h1]
      congr 1
      funext wc
      rw [out_foldlM _ _ (fun b a => mergePairC_out ge y wc prev len b a)]
    · simp only [if_neg h, out_pure]

theorem computeWeightSumsC_out [AddCommGroup R] {Y : Type} {n V : ℕ} (ge : Y → Y → Bool)
    (y : Fin n → Y) (weights : Fin n → Fin V → R) :
    (computeWeightSumsC ge y weights).out = computeWeightSums ge y weights := by
  unfold computeWeightSumsC computeWeightSums
  simp only [out_bind, out_op, mergePassesC_out ge y weights _ _ _ _ _ _ _ rfl]
  rfl

theorem computeAijbijTermC_out [CommRing R] {n : ℕ} (ge : R → R → Bool) (x y : Fin n → R) :
    (computeAijbijTermC ge x y).out = computeAijbijTerm ge x y := by
  unfold computeAijbijTermC computeAijbijTerm
  simp only [out_bind, out_op, out_pure, computeWeightSumsC_out]
  rfl

theorem mergesortTermsImplC_out [CommRing R] {n : ℕ} (sort : ℕ) (ge : R → R → Bool)
    (argsort : (Fin n → R) → Equiv.Perm (Fin n)) (x y : Fin n → R) :
    (mergesortTermsImplC sort ge argsort x y).out = mergesortTermsImpl ge argsort x y := by
  unfold mergesortTermsImplC mergesortTermsImpl computeRowSumsC
  simp only [out_bind, out_op, out_pure, computeAijbijTermC_out]
  rfl

/-! ### Mergesort: bounds -/

theorem mergeLoopC_bnd [AddCommGroup R] {Y : Type} {n V : ℕ} (ge : Y → Y → Bool) (y : Fin n → Y)
    (wc : Fin (n + 1) → Fin V → R) (prev : Fin n → ℕ) (last1 last2 : ℕ) (m : ℕ) :
    ∀ (i1 i2 : ℕ) (st : MergeState R n V), (last1 + 1 - i1) + (last2 + 1 - i2) = m →
      Bnd (mergeLoopC ge y wc prev last1 last2 i1 i2 st) ((7 + 6 * V) * m + 1)
        (fun r => (7 + 6 * V) * ((last1 + 1 - r.1) + (last2 + 1 - r.2.1))) := by
  induction m using Nat.strong_induction_on with
  | _ m ih =>
    intro i1 i2 st hm
    rw [mergeLoopC]
    by_cases h : i1 ≤ last1 ∧ i2 ≤ last2
    · have e1 : (last1 + 1 - (i1 + 1)) + (last2 + 1 - i2) = m - 1 := by omega
      have e2 : (last1 + 1 - i1) + (last2 + 1 - (i2 + 1)) = m - 1 := by omega
      have h1 := fun st' => ih (m - 1) (by omega) (i1 + 1) i2 st' e1
      have h2 := fun st' => ih (m - 1) (by omega) i1 (i2 + 1) st' e2
      have hm1 : (7 + 6 * V) * m + 1 = (7 + 6 * V) + ((7 + 6 * V) * (m - 1) + 1) := by
        obtain ⟨k, rfl⟩ : ∃ k, m = k + 1 := ⟨m - 1, by omega⟩
        simp only [Nat.add_sub_cancel]
        ring
      rw [if_pos h, hm1]
      generalize (7 + 6 * V) * (m - 1) + 1 = k at h1 h2 ⊢
      refine Bnd.op_bind (k' := 6 + 6 * V + k) (fun _ => ?_) (by omega)
      refine Bnd.op_bind (k' := 5 + 6 * V + k) (fun p1 => ?_) (by omega)
      refine Bnd.op_bind (k' := 4 + 6 * V + k) (fun p2 => ?_) (by omega)
      refine Bnd.op_bind (k' := 3 + 6 * V + k) (fun y1 => ?_) (by omega)
      refine Bnd.op_bind (k' := 2 + 6 * V + k) (fun y2 => ?_) (by omega)
      refine Bnd.op_bind (k' := 1 + 6 * V + k) (fun _ => ?_) (by omega)
      split
      · exact Bnd.op_bind (k' := k) (fun c => h1 _) (by omega)
      · refine Bnd.op_bind (k' := 6 * V + k) (fun c => ?_) (by omega)
        refine Bnd.op_bind (k' := 5 * V + k) (fun c => ?_) (by omega)
        refine Bnd.op_bind (k' := 4 * V + k) (fun c => ?_) (by omega)
        refine Bnd.op_bind (k' := 3 * V + k) (fun c => ?_) (by omega)
        exact Bnd.op_bind (k' := k) (fun c => h2 _) (by omega)
    · rw [if_neg h]
      refine Bnd.op_bind (k' := (7 + 6 * V) * m) (fun _ => Bnd.of_pure ?_) (by omega)
      exact le_of_eq (by rw [← hm])

theorem copyRestC_bnd {n : ℕ} (prev : Fin n → ℕ) (i last : ℕ) (cur : Fin n → ℕ) (idx : ℕ) :
    Bnd (copyRestC prev i last cur idx) ((last + 1 - i) * 2) (fun _ => 0) := by
  unfold copyRestC
  refine Bnd.seq (k₁ := (last + 1 - i) * 2) (k₂ := 0) ?_ (fun _ => Bnd.of_pure (le_refl 0)) (by omega)
  have h := Bnd.foldlM_const (w := 2) (f := fun (cur : Fin n → ℕ) (k : ℕ) => do
    let v ← op 1 (rd prev ((i : ℤ) + k))
    op 1 (wr cur ((idx : ℤ) + k) v))
    (fun b a => Bnd.op_bind (k' := 1) (fun v => Bnd.op (fun _ => le_refl _) (le_refl _)) (by omega))
    (List.range (last + 1 - i)) cur
  simpa using h

/-- A pair of runs: the steps are proportional to the number of elements in the two runs. -/
theorem mergePairC_bnd [AddCommGroup R] {Y : Type} {n V : ℕ} (ge : Y → Y → Bool) (y : Fin n → Y)
    (wc : Fin (n + 1) → Fin V → R) (prev : Fin n → ℕ) (len : ℕ) (hlen : 0 < len)
    (st : MergeState R n V) (p : ℕ) (hp : p < n) :
    Bnd (mergePairC ge y wc prev len st p)
      ((7 + 6 * V) * min (2 * len) (n - p) + 11) (fun _ => 0) := by
  unfold mergePairC
  refine Bnd.op_bind (k' := (7 + 6 * V) * min (2 * len) (n - p) + 1) (fun _ => ?_) (by omega)
  dsimp only
  have hcount : (min (p + len - 1) (n - 1) + 1 - p) + (min (p + len + len - 1) (n - 1) + 1 - (p + len))
      = min (2 * len) (n - p) := by omega
  refine Bnd.bind (mergeLoopC_bnd ge y wc prev _ _ _ _ _ st hcount) ?_
  rintro ⟨j1, j2, st'⟩
  dsimp only
  generalize min (p + len - 1) (n - 1) = l1
  generalize min (p + len + len - 1) (n - 1) = l2
  split
  · refine Bnd.seq (copyRestC_bnd prev j1 l1 st'.cur st'.idx) (k₂ := 0)
      (fun _ => Bnd.of_pure (le_refl 0)) ?_
    nlinarith [Nat.zero_le (V * ((l1 + 1 - j1) + (l2 + 1 - j2))), Nat.zero_le (l2 + 1 - j2)]
  · split
    · refine Bnd.seq (copyRestC_bnd prev j2 l2 st'.cur st'.idx) (k₂ := 0)
        (fun _ => Bnd.of_pure (le_refl 0)) ?_
      nlinarith [Nat.zero_le (V * ((l1 + 1 - j1) + (l2 + 1 - j2))), Nat.zero_le (l1 + 1 - j1)]
    · exact Bnd.of_pure (Nat.zero_le _)

/-- The pairs of runs contain every element once. -/
theorem sum_pairs (n gap K : ℕ) :
    ((List.range K).map (fun k => min gap (n - k * gap))).sum = min (K * gap) n := by
  induction K with
  | zero => simp
  | succ K ih =>
    rw [List.range_succ, List.map_append, List.sum_append, ih]
    have e : (K + 1) * gap = K * gap + gap := by ring
    simp only [List.map_cons, List.map_nil, List.sum_cons, List.sum_nil, e]
    omega

theorem rangeStep_lt {n gap p : ℕ} (hgap : 0 < gap) (hp : p ∈ rangeStep n gap) : p < n := by
  unfold rangeStep at hp
  obtain ⟨k, hk, rfl⟩ := List.mem_map.1 hp
  have hk' := List.mem_range.1 hk
  show k * gap < n
  have := Nat.div_mul_le_self (n + gap - 1) gap
  have h2 : (k + 1) * gap ≤ (n + gap - 1) / gap * gap := Nat.mul_le_mul_right _ hk'
  have e3 : (k + 1) * gap = k * gap + gap := by ring
  omega

/-- Number of pairs of runs. -/
theorem pairs_le (n len : ℕ) (hlen : 0 < len) (hn : len < n) :
    (n + 2 * len - 1) / (2 * len) ≤ n := by
  apply Nat.div_le_of_le_mul
  have : n ≤ len * n := Nat.le_mul_of_pos_left n hlen
  have : len ≤ len * n := Nat.le_mul_of_pos_right len (by omega)
  have e : 2 * len * n = len * n + len * n := by ring
  have h2 : 2 * len ≤ len * n := by
    calc 2 * len = len * 2 := by ring
      _ ≤ len * n := Nat.mul_le_mul_left len (by omega)
  omega

/-- One pass. -/
theorem pass_bnd [AddCommGroup R] {Y : Type} {n V : ℕ} (ge : Y → Y → Bool) (y : Fin n → Y)
    (wc : Fin (n + 1) → Fin V → R) (prev : Fin n → ℕ) (len : ℕ) (hlen : 0 < len) (hn : len < n)
    (st : MergeState R n V) :
    Bnd ((rangeStep n (2 * len)).foldlM (mergePairC ge y wc prev len) st)
      ((18 + 6 * V) * n) (fun _ => 0) := by
  refine (Bnd.foldlM (w := fun p => (7 + 6 * V) * min (2 * len) (n - p) + 11) _
    (fun b p hp => mergePairC_bnd ge y wc prev len hlen b p (rangeStep_lt (by omega) hp)) st).mono ?_
  unfold rangeStep
  rw [List.map_map]
  have e : ((List.range ((n + 2 * len - 1) / (2 * len))).map
      ((fun p => (7 + 6 * V) * min (2 * len) (n - p) + 11) ∘ (· * (2 * len)))).sum
      = (7 + 6 * V) * ((List.range ((n + 2 * len - 1) / (2 * len))).map
          (fun k => min (2 * len) (n - k * (2 * len)))).sum
        + 11 * ((n + 2 * len - 1) / (2 * len)) := by
    generalize (n + 2 * len - 1) / (2 * len) = K
    induction K with
    | zero => simp
    | succ K ih =>
      rw [List.range_succ, List.map_append, List.sum_append, List.map_append, List.sum_append, ih]
      simp only [List.map_cons, List.map_nil, List.sum_cons, List.sum_nil, Function.comp]
      ring
  rw [e, sum_pairs]
  have h1 := pairs_le n len hlen hn
  have h2 : min ((n + 2 * len - 1) / (2 * len) * (2 * len)) n ≤ n := min_le_right _ _
  have h3 := Nat.mul_le_mul_left (7 + 6 * V) h2
  calc _ ≤ (7 + 6 * V) * n + 11 * n := by omega
    _ = _ := by ring

/-- All the passes: their number is the ceiling of the logarithm of `n / len`. -/
theorem mergePassesC_bnd [AddCommGroup R] {Y : Type} {n V : ℕ} (ge : Y → Y → Bool) (y : Fin n → Y)
    (weights : Fin n → Fin V → R) (d : ℕ) :
    ∀ (len : ℕ) (hlen : 0 < len) (prev cur : Fin n → ℕ) (ws : Fin n → Fin V → R) (updates : ℕ),
      n ≤ len * 2 ^ d →
      Bnd (mergePassesC ge y weights len hlen prev cur ws updates)
        ((18 + 9 * V) * n * d) (fun _ => 0) := by
  induction d with
  | zero =>
    intro len hlen prev cur ws updates h
    rw [mergePassesC, if_neg (by simpa using h)]
    exact Bnd.of_pure (Nat.zero_le _)
  | succ d ih =>
    intro len hlen prev cur ws updates h
    rw [mergePassesC]
    by_cases hn : len < n
    · rw [if_pos hn]
      have hd : n ≤ 2 * len * 2 ^ d := by
        calc n ≤ len * 2 ^ (d + 1) := h
          _ = 2 * len * 2 ^ d := by ring
      refine Bnd.op_bind (k' := (18 + 6 * V) * n + (18 + 9 * V) * n * d) (fun wc => ?_)
        (le_of_eq (by ring))
      refine Bnd.seq (pass_bnd ge y wc prev len hlen hn _) (fun st => ?_) (le_refl _)
      exact ih (2 * len) (by omega) _ _ _ _ hd
    · rw [if_neg hn]
      exact Bnd.of_pure (Nat.zero_le _)

theorem computeAijbijTermC_bnd [CommRing R] {n : ℕ} (ge : R → R → Bool) (x y : Fin n → R) :
    Bnd (computeAijbijTermC ge x y) (54 * (n * Nat.clog 2 n) + 34 * n + 4) (fun _ => 0) := by
  unfold computeAijbijTermC computeWeightSumsC
  have hp : n ≤ 1 * 2 ^ Nat.clog 2 n := by
    rw [one_mul]
    exact Nat.le_pow_clog (by norm_num) n
  refine Bnd.op_bind (k' := 54 * (n * Nat.clog 2 n) + 28 * n + 4) (fun weights => ?_) (by omega)
  refine Bnd.seq (k₁ := 54 * (n * Nat.clog 2 n) + 11 * n + 4) (k₂ := 17 * n) ?_ (fun r => ?_) (by omega)
  · refine Bnd.op_bind (k' := 54 * (n * Nat.clog 2 n)) (fun _ => ?_) (by omega)
    exact (mergePassesC_bnd ge y weights (Nat.clog 2 n) 1 (by omega) _ _ _ _ hp).mono
      (le_of_eq (by ring))
  · dsimp only
    refine Bnd.op_bind (k' := 14 * n) (fun _ => ?_) (by omega)
    refine Bnd.op_bind (k' := 12 * n) (fun _ => ?_) (by omega)
    refine Bnd.op_bind (k' := 10 * n) (fun _ => ?_) (by omega)
    refine Bnd.op_bind (k' := 9 * n) (fun _ => ?_) (by omega)
    refine Bnd.op_bind (k' := 8 * n) (fun _ => ?_) (by omega)
    refine Bnd.op_bind (k' := 7 * n) (fun _ => ?_) (by omega)
    refine Bnd.op_bind (k' := 0) (fun _ => ?_) (by omega)
    exact Bnd.of_pure (le_refl 0)

theorem mergesortTermsImplC_bnd [CommRing R] {n : ℕ} (sort : ℕ) (ge : R → R → Bool)
    (argsort : (Fin n → R) → Equiv.Perm (Fin n)) (x y : Fin n → R) :
    Bnd (mergesortTermsImplC sort ge argsort x y)
      (2 * sort + 54 * (n * Nat.clog 2 n) + 59 * n + 4) (fun _ => 0) := by
  unfold mergesortTermsImplC computeRowSumsC
  generalize hL : 54 * (n * Nat.clog 2 n) = L
  refine Bnd.op_bind (k' := 2 * sort + L + 57 * n + 4) (fun _ => ?_) (by omega)
  refine Bnd.op_bind (k' := sort + L + 57 * n + 4) (fun _ => ?_) (by omega)
  refine Bnd.op_bind (k' := sort + L + 56 * n + 4) (fun _ => ?_) (by omega)
  refine Bnd.op_bind (k' := sort + L + 55 * n + 4) (fun _ => ?_) (by omega)
  refine Bnd.seq (k₂ := sort + 21 * n) (computeAijbijTermC_bnd ge _ _) (fun r => ?_) (by omega)
  obtain ⟨aijbij, updates⟩ := r
  dsimp only
  refine Bnd.op_bind (k' := sort + 13 * n) (fun _ => ?_) (by omega)
  refine Bnd.op_bind (k' := 13 * n) (fun _ => ?_) (by omega)
  refine Bnd.op_bind (k' := 12 * n) (fun _ => ?_) (by omega)
  refine Bnd.op_bind (k' := 4 * n) (fun _ => ?_) (by omega)
  refine Bnd.op_bind (k' := 2 * n) (fun _ => ?_) (by omega)
  refine Bnd.op_bind (k' := n) (fun _ => ?_) (by omega)
  refine Bnd.op_bind (k' := 0) (fun _ => ?_) (by omega)
  exact Bnd.of_pure (le_refl 0)

/-! ### AVL: same values -/

theorem dyadStepC_out [AddCommMonoid R] {n sLen lMax : ℕ} (y : Fin n → ℤ) (c : Fin n → R)
    (ps : Fin lMax → ℤ) (st : (Fin n → R) × (Fin sLen → R)) (i : Fin n) :
    (dyadStepC y c ps st i).out = dyadStep y c ps st i := by
  unfold dyadStepC dyadStep
  simp only [out_bind, out_op, out_pure]
  rw [out_mapM _ (fun l => rd st.2 (positions3b ps (y i) l)) (fun _ => rfl)]
  rfl

theorem dyadUpdateC_out [AddCommMonoid R] {n sLen : ℕ} (y : Fin n → ℤ) (c gamma : Fin n → R)
    (lMax : ℕ) (s : Fin sLen → R) (ps : Fin lMax → ℤ) :
    (dyadUpdateC y c gamma lMax s ps).out = dyadUpdate y c gamma lMax s ps := by
  unfold dyadUpdateC dyadUpdate
  simp only [out_bind, out_op, out_pure, out_foldlM _ _ (dyadStepC_out y c ps)]
  rfl

theorem compiledBody3aC_out [AddCommMonoid R] {n sLen lMax : ℕ} (y : Fin n → ℤ) (c : Fin n → R)
    (ps : Fin lMax → ℤ) (i : ℕ) (s : Fin sLen → R) (l : ℕ) :
    (compiledBody3aC y c ps i s l).out = compiledBody3a y c ps i s l := by
  unfold compiledBody3aC compiledBody3a
  simp only [out_bind, out_op]
  rfl

theorem compiledBody3bcC_out [AddCommMonoid R] {n sLen lMax : ℕ} (y : Fin n → ℤ) (ps : Fin lMax → ℤ)
    (i : ℕ) (s : Fin sLen → R) (g : Fin n → R) (l : ℕ) :
    (compiledBody3bcC y ps i s g l).out = compiledBody3bc y ps i s g l := by
  unfold compiledBody3bcC compiledBody3bc
  simp only [out_bind, out_op, out_pure, apply_ite Cost.out]
  rfl

theorem dyadStepCompiledC_out [AddCommMonoid R] {n sLen lMax : ℕ} (y : Fin n → ℤ) (c : Fin n → R)
    (ps : Fin lMax → ℤ) (st : (Fin n → R) × (Fin sLen → R)) (i : ℕ) :
    (dyadStepCompiledC y c ps st i).out = dyadStepCompiled y c ps st i := by
  unfold dyadStepCompiledC dyadStepCompiled compiledStep3aC compiledStep3a compiledStep3bcC compiledStep3bc
  simp only [out_bind, out_pure, out_foldlM _ _ (compiledBody3aC_out y c ps i),
    out_foldlM _ _ (compiledBody3bcC_out y ps i _)]

theorem dyadUpdateCompiledC_out [AddCommMonoid R] {n sLen : ℕ} (y : Fin n → ℤ) (c gamma : Fin n → R)
    (lMax : ℕ) (s : Fin sLen → R) (ps : Fin lMax → ℤ) :
    (dyadUpdateCompiledC y c gamma lMax s ps).out = dyadUpdateCompiled y c gamma lMax s ps := by
  unfold dyadUpdateCompiledC dyadUpdateCompiled
  simp only [out_bind, out_op, out_pure, out_foldlM _ _ (dyadStepCompiledC_out y c ps)]
  rfl

theorem partialSum2dC_out [CommRing R] {n sLen : ℕ} (compiled : Bool) (y : Fin n → ℤ) (c : Fin n → R)
    (ix iy : Fin n → Fin n) (sxc syc : Fin n → R) (cSum : R) (lMax : ℕ) (s : Fin sLen → R)
    (ps : Fin lMax → ℤ) (gamma : Fin n → R) :
    (partialSum2dC compiled y c ix iy sxc syc cSum lMax s ps gamma).out =
      partialSum2d compiled y c ix iy sxc syc cSum lMax s ps gamma := by
  unfold partialSum2dC partialSum2d
  simp only [out_bind, out_op, apply_ite Cost.out, dyadUpdateCompiledC_out, dyadUpdateC_out]
  rfl

theorem avlTermsImplC_out [CommRing R] {n : ℕ} (sort : ℕ) (compiled : Bool)
    (argsort : (Fin n → R) → Equiv.Perm (Fin n)) (x y : Fin n → R) :
    (avlTermsImplC sort compiled argsort x y).out = avlTermsImpl compiled argsort x y := by
  unfold avlTermsImplC avlTermsImpl
  by_cases h : n > 3
  · simp only [h, not_true_eq_false, if_false, out_bind, out_op, out_pure, partialSum2dC_out, getImplArgsC]
    rfl
  · simp only [h, not_false_eq_true, if_true, out_op]
    rfl

/-! ### AVL: bounds -/

theorem dyadStepC_bnd [AddCommMonoid R] {n sLen lMax : ℕ} (y : Fin n → ℤ) (c : Fin n → R)
    (ps : Fin lMax → ℤ) (st : (Fin n → R) × (Fin sLen → R)) (i : Fin n) :
    Bnd (dyadStepC y c ps st i) (6 * lMax + 1) (fun _ => 0) := by
  unfold dyadStepC
  refine Bnd.op_bind (k' := 5 * lMax + 1) (fun _ => ?_) (by omega)
  refine Bnd.seq (k₁ := 2 * lMax) (k₂ := 3 * lMax + 1) ?_ (fun vals => ?_) (by omega)
  · refine (Bnd.mapM_const (w := 2) (fun l => Bnd.op (fun _ => le_refl _) (le_refl _)) _).mono ?_
    have h : ((List.finRange lMax).filter (fun l : Fin lMax => validPosition (y i) l)).length ≤ lMax := by
      refine (List.length_filter_le _ _).trans ?_
      simp
    omega
  · refine Bnd.op_bind (k' := 3 * lMax) (fun _ => ?_) (by omega)
    exact Bnd.op_bind (k' := 0) (fun _ => Bnd.of_pure (le_refl 0)) (by omega)

theorem dyadUpdateC_bnd [AddCommMonoid R] {n sLen : ℕ} (y : Fin n → ℤ) (c gamma : Fin n → R)
    (lMax : ℕ) (s : Fin sLen → R) (ps : Fin lMax → ℤ) :
    Bnd (dyadUpdateC y c gamma lMax s ps) (sLen + 2 * lMax + 2 * n + 18 * (n * lMax)) (fun _ => 0) := by
  unfold dyadUpdateC
  refine Bnd.op_bind (k' := 2 * lMax + 2 * n + 18 * (n * lMax)) (fun s0 => ?_) (by omega)
  refine Bnd.op_bind (k' := n + 6 * (n * lMax)) (fun _ => ?_) (by omega)
  refine Bnd.seq (Bnd.foldlM_const (dyadStepC_bnd y c ps) _ _) (k₂ := 0)
    (fun _ => Bnd.of_pure (le_refl 0)) ?_
  rw [List.length_finRange]
  exact le_of_eq (by ring)

theorem compiledBody3aC_bnd [AddCommMonoid R] {n sLen lMax : ℕ} (y : Fin n → ℤ) (c : Fin n → R)
    (ps : Fin lMax → ℤ) (i : ℕ) (s : Fin sLen → R) (l : ℕ) :
    Bnd (compiledBody3aC y c ps i s l) 13 (fun _ => 0) := by
  unfold compiledBody3aC
  refine Bnd.op_bind (k' := 12) (fun _ => ?_) (by omega)
  refine Bnd.op_bind (k' := 8) (fun _ => ?_) (by omega)
  refine Bnd.op_bind (k' := 6) (fun _ => ?_) (by omega)
  refine Bnd.op_bind (k' := 4) (fun _ => ?_) (by omega)
  refine Bnd.op_bind (k' := 3) (fun _ => ?_) (by omega)
  refine Bnd.op_bind (k' := 2) (fun _ => ?_) (by omega)
  exact Bnd.op (fun _ => le_refl _) (le_refl _)

theorem compiledBody3bcC_bnd [AddCommMonoid R] {n sLen lMax : ℕ} (y : Fin n → ℤ) (ps : Fin lMax → ℤ)
    (i : ℕ) (s : Fin sLen → R) (g : Fin n → R) (l : ℕ) :
    Bnd (compiledBody3bcC y ps i s g l) 15 (fun _ => 0) := by
  unfold compiledBody3bcC
  refine Bnd.op_bind (k' := 14) (fun _ => ?_) (by omega)
  refine Bnd.op_bind (k' := 9) (fun _ => ?_) (by omega)
  refine Bnd.op_bind (k' := 7) (fun _ => ?_) (by omega)
  split
  · refine Bnd.op_bind (k' := 5) (fun _ => ?_) (by omega)
    refine Bnd.op_bind (k' := 4) (fun _ => ?_) (by omega)
    refine Bnd.op_bind (k' := 2) (fun _ => ?_) (by omega)
    exact Bnd.op (fun _ => le_refl _) (le_refl _)
  · exact Bnd.of_pure (Nat.zero_le _)

theorem dyadStepCompiledC_bnd [AddCommMonoid R] {n sLen lMax : ℕ} (y : Fin n → ℤ) (c : Fin n → R)
    (ps : Fin lMax → ℤ) (st : (Fin n → R) × (Fin sLen → R)) (i : ℕ) :
    Bnd (dyadStepCompiledC y c ps st i) (28 * lMax) (fun _ => 0) := by
  unfold dyadStepCompiledC compiledStep3aC compiledStep3bcC
  refine Bnd.seq (k₁ := lMax * 13) (k₂ := lMax * 15) ?_ (fun s => ?_) (by omega)
  · have h := Bnd.foldlM_const (compiledBody3aC_bnd y c ps i) (List.range lMax) st.2
    rwa [List.length_range] at h
  · have h := Bnd.foldlM_const (compiledBody3bcC_bnd y ps i s) (List.range lMax) st.1
    rw [List.length_range] at h
    exact Bnd.seq (k₂ := 0) h (fun _ => Bnd.of_pure (le_refl 0)) (by omega)

theorem dyadUpdateCompiledC_bnd [AddCommMonoid R] {n sLen : ℕ} (y : Fin n → ℤ) (c gamma : Fin n → R)
    (lMax : ℕ) (s : Fin sLen → R) (ps : Fin lMax → ℤ) :
    Bnd (dyadUpdateCompiledC y c gamma lMax s ps) (sLen + 28 * (n * lMax)) (fun _ => 0) := by
  unfold dyadUpdateCompiledC
  refine Bnd.op_bind (k' := 28 * (n * lMax)) (fun s0 => ?_) (by omega)
  refine Bnd.seq (Bnd.foldlM_const (dyadStepCompiledC_bnd y c ps) _ _) (k₂ := 0)
    (fun _ => Bnd.of_pure (le_refl 0)) ?_
  rw [List.length_range']
  calc (n - 1) * (28 * lMax) + 0 ≤ n * (28 * lMax) := Nat.mul_le_mul_right _ (by omega)
    _ = _ := by ring

theorem partialSum2dC_bnd [CommRing R] {n sLen : ℕ} (compiled : Bool) (y : Fin n → ℤ) (c : Fin n → R)
    (ix iy : Fin n → Fin n) (sxc syc : Fin n → R) (cSum : R) (lMax : ℕ) (s : Fin sLen → R)
    (ps : Fin lMax → ℤ) (gamma : Fin n → R) :
    Bnd (partialSum2dC compiled y c ix iy sxc syc cSum lMax s ps gamma)
      (sLen + 2 * lMax + 11 * n + 28 * (n * lMax)) (fun _ => 0) := by
  unfold partialSum2dC
  have hrest : ∀ g : Fin n → R, Bnd (do
      let g : Fin n → R ← op (8 * n) (.ok fun i => cSum - c i - 2 * syc (iy i) - 2 * sxc i + 4 * g i)
      op n (.ok fun i => g (ix i)) : Cost (Fin n → R)) (9 * n) (fun _ => 0) := fun g =>
    Bnd.op_bind (k' := n) (fun _ => Bnd.op (fun _ => le_refl _) (le_refl _)) (by omega)
  cases compiled
  · exact Bnd.seq (dyadUpdateC_bnd y c gamma lMax s ps) hrest (by omega)
  · exact Bnd.seq (dyadUpdateCompiledC_bnd y c gamma lMax s ps) hrest (by omega)

/-- The array `s` has fewer than four elements per observation. -/
theorem buffer_le {n : ℕ} (hn : 0 < n) : 2 ^ (Nat.clog 2 n + 1) ≤ 4 * n := by
  rcases Nat.lt_or_ge 1 n with h | h
  · have h1 : 2 ^ (Nat.clog 2 n - 1) < n := Nat.pow_pred_clog_lt_self (by norm_num) h
    have h2 : 0 < Nat.clog 2 n := Nat.clog_pos (by norm_num) h
    have e : 2 ^ (Nat.clog 2 n + 1) = 4 * 2 ^ (Nat.clog 2 n - 1) := by
      obtain ⟨k, hk⟩ : ∃ k, Nat.clog 2 n = k + 1 := ⟨_, (Nat.succ_pred_eq_of_pos h2).symm⟩
      rw [hk, Nat.add_sub_cancel]
      ring
    omega
  · have : n = 1 := by omega
    subst this
    simp

theorem clog_le_self (n : ℕ) : Nat.clog 2 n ≤ n :=
  Nat.clog_le_of_le_pow (Nat.lt_two_pow_self).le

theorem avlTermsImplC_bnd [CommRing R] {n : ℕ} (sort : ℕ) (compiled : Bool)
    (argsort : (Fin n → R) → Equiv.Perm (Fin n)) (x y : Fin n → R) :
    Bnd (avlTermsImplC sort compiled argsort x y)
      (3 * sort + 112 * (n * Nat.clog 2 n) + 181 * n) (fun _ => 0) := by
  unfold avlTermsImplC
  by_cases h : n > 3
  · simp only [h, not_true_eq_false, if_false]
    have hb := buffer_le (show 0 < n by omega)
    have hl := clog_le_self n
    unfold getImplArgsC
    have hp := fun (a : ImplArgs R n) (ha : a.lMax = Nat.clog 2 n) (ny : Fin n → ℤ) (i : Fin 4) =>
      (partialSum2dC_bnd compiled ny (a.c i) a.ix a.iyReord (a.sxC i) (a.syC i) (a.cSum i) a.lMax
        (fun _ => 0 : Fin (2 ^ (a.lMax + 1)) → R) (posSums a.lMax) (fun _ => 0)).mono
        (show _ ≤ 28 * (n * Nat.clog 2 n) + 15 * n + 2 * Nat.clog 2 n by rw [ha]; omega)
    have ha : (getImplArgs argsort x y).lMax = Nat.clog 2 n := rfl
    have hp := hp _ ha
    generalize n * Nat.clog 2 n = L at hp ⊢
    generalize Nat.clog 2 n = l at hp hl ⊢
    refine Bnd.ok_bind (k' := 112 * L + 97 * n + 8 * l) ?_ (by omega)
    refine Bnd.op_bind (k' := 112 * L + 96 * n + 8 * l) (fun _ => ?_) (by omega)
    refine Bnd.op_bind (k' := 112 * L + 95 * n + 8 * l) (fun _ => ?_) (by omega)
    refine Bnd.op_bind (k' := 112 * L + 92 * n + 8 * l) (fun _ => ?_) (by omega)
    refine Bnd.op_bind (k' := 112 * L + 89 * n + 8 * l) (fun _ => ?_) (by omega)
    refine Bnd.op_bind (k' := 112 * L + 88 * n + 8 * l) (fun _ => ?_) (by omega)
    refine Bnd.op_bind (k' := 112 * L + 87 * n + 8 * l) (fun _ => ?_) (by omega)
    refine Bnd.op_bind (k' := 112 * L + 81 * n + 8 * l) (fun _ => ?_) (by omega)
    refine Bnd.op_bind (k' := 112 * L + 75 * n + 8 * l) (fun _ => ?_) (by omega)
    refine Bnd.op_bind (k' := 112 * L + 72 * n + 8 * l) (fun _ => ?_) (by omega)
    refine Bnd.op_bind (k' := 112 * L + 69 * n + 8 * l) (fun _ => ?_) (by omega)
    refine Bnd.op_bind (k' := 112 * L + 68 * n + 8 * l) (fun ny => ?_) (by omega)
    refine Bnd.seq (k₂ := 84 * L + 53 * n + 6 * l) (hp ny 0) (fun _ => ?_) (by omega)
    refine Bnd.seq (k₂ := 56 * L + 38 * n + 4 * l) (hp ny 1) (fun _ => ?_) (by omega)
    refine Bnd.seq (k₂ := 28 * L + 23 * n + 2 * l) (hp ny 2) (fun _ => ?_) (by omega)
    refine Bnd.seq (k₂ := 8 * n) (hp ny 3) (fun _ => ?_) (by omega)
    exact Bnd.op_bind (k' := 0) (fun _ => Bnd.of_pure (le_refl 0)) (by omega)
  · simp only [h, not_false_eq_true, if_true]
    exact Bnd.op (fun _ => Nat.zero_le _) (Nat.zero_le _)

end Dcor

/-
Model of dcor/_fast_dcov_mergesort.py (the mergesort fast algorithm).

The arithmetic is over an arbitrary commutative ring `R`; `argsort` and the comparison
`>=` of array elements are parameters.
-/
import Verif.Model.Avl

namespace Dcor

variable {R : Type}

/-- Mutable state of the merge: the two index buffers' write side, the position in it, and
the accumulated sums `weight_sums[var, j]`; `updates` counts how many times the statement at
lines 103-106 was executed (used only to model dtype errors). -/
structure MergeState (R : Type) (n V : ℕ) where
  cur : Fin n → ℕ
  idx : ℕ
  ws : Fin n → Fin V → R
  updates : ℕ

/-- `weights_cumsum`, dcor/_fast_dcov_mergesort.py:57-60 and 70-73: entry `k` (row) is the sum of
the weights of the first `k` elements in the order of `previous_indexes`. Row 0 stays 0. The
gather `weights[previous_indexes]` is checked. -/
def weightsCumsum [AddCommMonoid R] {n V : ℕ} (weights : Fin n → Fin V → R) (prev : Fin n → ℕ) :
    Except PyErr (Fin (n + 1) → Fin V → R) :=
  if h : ∀ t, prev t < n then
    .ok (fun k v => ∑ t ∈ Finset.univ.filter (fun t : Fin n => t.val < k.val), weights ⟨prev t, h t⟩ v)
  else .error .indexError

/-- The merge loop, dcor/_fast_dcov_mergesort.py:89-107. `i1`, `i2` are `subarray_1_idx`,
`subarray_2_idx`; `last1`, `last2` the `_last` bounds. Returns also the final `i1`, `i2`. -/
def mergeLoop [AddCommGroup R] {Y : Type} {n V : ℕ} (ge : Y → Y → Bool) (y : Fin n → Y)
    (wc : Fin (n + 1) → Fin V → R) (prev : Fin n → ℕ) (last1 last2 : ℕ)
    (i1 i2 : ℕ) (st : MergeState R n V) : Except PyErr (ℕ × ℕ × MergeState R n V) :=
  if i1 ≤ last1 ∧ i2 ≤ last2 then do
    let previousIndex1 ← rd prev (i1 : ℤ)
    let previousIndex2 ← rd prev (i2 : ℤ)
    let y1 ← rd y (previousIndex1 : ℤ)
    let y2 ← rd y (previousIndex2 : ℤ)
    if ge y1 y2 then do
      let cur ← wr st.cur (st.idx : ℤ) previousIndex1
      mergeLoop ge y wc prev last1 last2 (i1 + 1) i2 { st with cur := cur, idx := st.idx + 1 }
    else do
      let cur ← wr st.cur (st.idx : ℤ) previousIndex2
      let hi ← rd wc ((last1 : ℤ) + 1)
      let lo ← rd wc (i1 : ℤ)
      let old ← rd st.ws (previousIndex2 : ℤ)
      let ws ← wr st.ws (previousIndex2 : ℤ) (fun v => old v + (hi v - lo v))
      mergeLoop ge y wc prev last1 last2 i1 (i2 + 1)
        { cur := cur, idx := st.idx + 1, ws := ws, updates := st.updates + 1 }
  else pure (i1, i2, st)
termination_by (last1 + 1 - i1) + (last2 + 1 - i2)

/-- `current_indexes[idx:idx_next] = previous_indexes[i:last + 1]`,
dcor/_fast_dcov_mergesort.py:110-123: copy `last + 1 - i` elements one by one. -/
def copyRest {n : ℕ} (prev : Fin n → ℕ) (i last : ℕ) (cur : Fin n → ℕ) (idx : ℕ) :
    Except PyErr ((Fin n → ℕ) × ℕ) := do
  let cur ← (List.range (last + 1 - i)).foldlM (fun cur (k : ℕ) => do
    let v ← rd prev ((i : ℤ) + k)
    wr cur ((idx : ℤ) + k) v) cur
  pure (cur, idx + (last + 1 - i))

/-- Body of the `for subarray_pair_idx` loop, dcor/_fast_dcov_mergesort.py:76-123. -/
def mergePair [AddCommGroup R] {Y : Type} {n V : ℕ} (ge : Y → Y → Bool) (y : Fin n → Y)
    (wc : Fin (n + 1) → Fin V → R) (prev : Fin n → ℕ) (len : ℕ) (st : MergeState R n V)
    (pairIdx : ℕ) : Except PyErr (MergeState R n V) := do
  let i1 := pairIdx
  let i2 := pairIdx + len
  let last1 := min (i1 + len - 1) (n - 1)
  let last2 := min (i2 + len - 1) (n - 1)
  let (i1, i2, st) ← mergeLoop ge y wc prev last1 last2 i1 i2 st
  if i1 ≤ last1 then do
    let (cur, idx) ← copyRest prev i1 last1 st.cur st.idx
    pure { st with cur := cur, idx := idx }
  else if i2 ≤ last2 then do
    let (cur, idx) ← copyRest prev i2 last2 st.cur st.idx
    pure { st with cur := cur, idx := idx }
  else pure st

/-- `range(0, n, gap)` for `gap > 0`. -/
def rangeStep (n gap : ℕ) : List ℕ :=
  (List.range ((n + gap - 1) / gap)).map (· * gap)

/-- The outer `while` loop, dcor/_fast_dcov_mergesort.py:65-128. The two halves of the index
buffer are `prev` and `cur`, swapped after each pass. -/
def mergePasses [AddCommGroup R] {Y : Type} {n V : ℕ} (ge : Y → Y → Bool) (y : Fin n → Y)
    (weights : Fin n → Fin V → R) (len : ℕ) (hlen : 0 < len) (prev cur : Fin n → ℕ)
    (ws : Fin n → Fin V → R) (updates : ℕ) :
    Except PyErr ((Fin n → ℕ) × (Fin n → Fin V → R) × ℕ) :=
  if len < n then do
    let gap := 2 * len
    let wc ← weightsCumsum weights prev
    let st ← (rangeStep n gap).foldlM (mergePair ge y wc prev len)
      { cur := cur, idx := 0, ws := ws, updates := updates }
    mergePasses ge y weights (2 * len) (by omega) st.cur prev st.ws st.updates
  else pure (prev, ws, updates)
termination_by n - len

/-- `_compute_weight_sums`, dcor/_fast_dcov_mergesort.py:40-130. `weight_sums[var, j]` is stored
as `ws j var`. Also returns the final index buffer and the number of executed updates. -/
def computeWeightSums [AddCommGroup R] {Y : Type} {n V : ℕ} (ge : Y → Y → Bool) (y : Fin n → Y)
    (weights : Fin n → Fin V → R) :
    Except PyErr ((Fin n → ℕ) × (Fin n → Fin V → R) × ℕ) :=
  -- previous_indexes = arange(n), current_indexes = zeros
  mergePasses ge y weights 1 (by omega) (fun i => (i : ℕ)) (fun _ => 0) (fun _ _ => 0) 0

/-- `_compute_aijbij_term`, dcor/_fast_dcov_mergesort.py:142-174 (`x` already sorted). Also
returns the number of executed `weight_sums` updates. -/
def computeAijbijTerm [CommRing R] {n : ℕ} (ge : R → R → Bool) (x y : Fin n → R) :
    Except PyErr (R × ℕ) := do
  -- weights = column_stack((ones_like(y), y, x, x * y))
  let weights : Fin n → Fin 4 → R := fun i => ![1, y i, x i, x i * y i]
  let r ← computeWeightSums ge y weights
  let ws := r.2.1
  let term1 := ∑ i, x i * y i * ws i 0
  let term2 := ∑ i, x i * ws i 1
  let term3 := ∑ i, y i * ws i 2
  let term4 := ∑ i, ws i 3
  let sumsTerm := term1 - term2 - term3 + term4
  let sumX := ∑ i, x i
  let sumY := ∑ i, y i
  let covTerm := (∑ i, (n : R) * x i * y i) - (∑ i, (sumX * y i + sumY * x i)) + sumX * sumY
  pure (4 * sumsTerm - 2 * covTerm, r.2.2)

/-- `_compute_row_sums`, dcor/_fast_dcov_mergesort.py:190-203 (`x` sorted). `sums[-1]` fails on an
empty array. -/
def computeRowSums [CommRing R] {n : ℕ} (x : Fin n → R) : Except PyErr (Fin n → R) :=
  if h : 0 < n then
    let sums := cumsum x
    let last := sums ⟨n - 1, by omega⟩
    .ok (fun i => (2 * (((i : ℕ) + 1 : ℕ) : R) - (n : R)) * x i + (last - 2 * sums i))
  else .error .indexError

/-- `_distance_covariance_sqr_terms_mergesort_impl`, dcor/_fast_dcov_mergesort.py:215-264, for two
arrays of the same length, without the variance terms. Also returns the number of executed
`weight_sums` updates. -/
def mergesortTermsImpl [CommRing R] {n : ℕ} (ge : R → R → Bool)
    (argsort : (Fin n → R) → Equiv.Perm (Fin n)) (x y : Fin n → R) :
    Except PyErr (CoreTerms R n × ℕ) := do
  let orderedIndexes := argsort x
  let xs := fun i => x (orderedIndexes i)
  let ys := fun i => y (orderedIndexes i)
  let (aijbij, updates) ← computeAijbijTerm ge xs ys
  let aI ← computeRowSums xs
  let orderedIndexesY := argsort ys
  let bPerm ← computeRowSums (fun i => ys (orderedIndexesY i))
  -- b_i = np.empty_like(b_i_perm); b_i[ordered_indexes_y] = b_i_perm
  let bI := scatter (fun _ => 0) orderedIndexesY bPerm
  pure ({ meanProd := aijbij, aAxis := aI, aTotal := ∑ i, aI i, bAxis := bI,
          bTotal := ∑ i, bI i }, updates)

end Dcor

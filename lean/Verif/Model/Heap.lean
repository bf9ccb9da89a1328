/-
Memory model for the functions with an `out` argument: `_float_copy_to_out`, `double_centered` and
`u_centered` in dcor/_dcor_internals.py, and `_distance_matrix_generic`.

Memory is a sequence of cells. An array object is a view: it maps indexes to cells, so that two
arrays can share (part of) their memory, as NumPy views do. Arrays of object dtype are not modelled
here, and shapes are those the functions require (`a` square, `out` of the same shape).
-/
import Verif.Model.Internals

namespace Dcor

/-- Memory: the cells below `next` are allocated. -/
structure Heap where
  next : ℕ
  cell : ℕ → FP ℝ

/-- An array with `n` rows and `m` columns. `integer`: the dtype is integral. -/
structure View (n m : ℕ) where
  addr : Fin n → Fin m → ℕ
  integer : Bool

/-- Contents of an array. -/
def View.get {n m : ℕ} (v : View n m) (h : Heap) : Fin n → Fin m → FP ℝ :=
  fun i j => h.cell (v.addr i j)

/-- Computations that use memory. Changes made before an exception persist. -/
structure HeapM (α : Type) : Type where
  run : Heap → Except PyErr α × Heap

namespace HeapM

def pure {α : Type} (a : α) : HeapM α := ⟨fun h => (.ok a, h)⟩

def throw {α : Type} (e : PyErr) : HeapM α := ⟨fun h => (.error e, h)⟩

def bind {α β : Type} (m : HeapM α) (f : α → HeapM β) : HeapM β := ⟨fun h =>
  match m.run h with
  | (.ok a, h') => (f a).run h'
  | (.error e, h') => (.error e, h')⟩

instance : Monad HeapM where
  pure := pure
  bind := bind

/-- Read the contents of an array. -/
def read {n m : ℕ} (v : View n m) : HeapM (Fin n → Fin m → FP ℝ) := ⟨fun h => (.ok (v.get h), h)⟩

end HeapM

/-- Conversion of a float that is stored in an array of an integral dtype: truncation towards zero.
(Conversion of infinities and NaN is undefined; here it gives zero.) -/
noncomputable def truncFP : FP ℝ → FP ℝ
  | .fin a => .fin (if 0 ≤ a then (⌊a⌋ : ℝ) else (⌈a⌉ : ℝ))
  | _ => .fin 0

open Classical in
/-- `v[mask] = f`: store in the cells of the array. -/
noncomputable def Heap.store {n m : ℕ} (h : Heap) (v : View n m) (mask : Fin n → Fin m → Prop)
    (f : Fin n → Fin m → FP ℝ) : Heap where
  next := h.next
  cell := fun c =>
    if hc : ∃ ij : Fin n × Fin m, v.addr ij.1 ij.2 = c ∧ mask ij.1 ij.2 then
      let a := f hc.choose.1 hc.choose.2
      if v.integer then truncFP a else a
    else h.cell c

/-- `v[mask] = f` for precomputed values. -/
noncomputable def HeapM.write {n m : ℕ} (v : View n m) (mask : Fin n → Fin m → Prop)
    (f : Fin n → Fin m → FP ℝ) : HeapM Unit := ⟨fun h => (.ok (), h.store v mask f)⟩

/-- A new array of floats with the given contents. -/
noncomputable def HeapM.alloc {n m : ℕ} (f : Fin n → Fin m → FP ℝ) : HeapM (View n m) := ⟨fun h =>
  let v : View n m := ⟨fun i j => h.next + (i * m + j), false⟩
  (.ok v, ({ h with next := h.next + n * m }).store v (fun _ _ => True) f)⟩

/-- `v op= f`: NumPy refuses to store floats in an integral array this way. -/
noncomputable def HeapM.inplace {n m : ℕ} (v : View n m) (op : FP ℝ → FP ℝ → FP ℝ)
    (f : Fin n → Fin m → FP ℝ) : HeapM Unit := do
  if v.integer then HeapM.throw .typeError
  else do
    let old ← HeapM.read v
    HeapM.write v (fun _ _ => True) fun i j => op (old i j) (f i j)

open Classical in
/-- `_float_copy_to_out`, dcor/_dcor_internals.py:58-72. `origin / 1` is a new array of floats. `out is
origin` is modelled as being the same view. NumPy's assignment works as if the values were read
before any of them is stored. -/
noncomputable def floatCopyToOut {n m : ℕ} (out : Option (View n m)) (origin : View n m) :
    HeapM (View n m) := do
  match out with
  | none => do
    let f ← HeapM.read origin
    HeapM.alloc fun i j => f i j / .fin 1
  | some out =>
    if out ≠ origin then do
      let f ← HeapM.read origin
      HeapM.write out (fun _ _ => True) f
      HeapM.pure out
    else HeapM.pure out

/-- `double_centered`, dcor/_dcor_internals.py:252-267. -/
noncomputable def doubleCenteredH {n : ℕ} (a : View n n) (out : Option (View n n)) :
    HeapM (View n n) := do
  let out ← floatCopyToOut out a
  let f ← HeapM.read a
  let sums := symmetricMatrixSums f
  let totalMean := sums.2 / .fin ((n : ℝ) ^ 2)
  let axisMean := fun i => sums.1 i / .fin (n : ℝ)
  HeapM.inplace out (· - ·) (fun _ j => axisMean j)
  HeapM.inplace out (· - ·) (fun i _ => axisMean i)
  HeapM.inplace out (· + ·) (fun _ _ => totalMean)
  HeapM.pure out

/-- `u_centered`, dcor/_dcor_internals.py:328-348. -/
noncomputable def uCenteredH {n : ℕ} (a : View n n) (out : Option (View n n)) :
    HeapM (View n n) := do
  let out ← floatCopyToOut out a
  let f ← HeapM.read a
  let sums := symmetricMatrixSums f
  let totalUMean := sums.2 / .fin (((n : ℝ) - 1) * ((n : ℝ) - 2))
  let axisUMean := fun i => sums.1 i / .fin ((n : ℝ) - 2)
  HeapM.inplace out (· - ·) (fun _ j => axisUMean j)
  HeapM.inplace out (· - ·) (fun i _ => axisUMean i)
  HeapM.inplace out (· + ·) (fun _ _ => totalUMean)
  HeapM.write out (fun i j => i = j) (fun _ _ => .fin 0)
  HeapM.pure out

/-- `_distance_matrix_generic`, dcor/_dcor_internals.py:674-691, for a function that computes the
distances from the contents of the sample; `pairwise_distances` returns a new array. -/
noncomputable def distanceMatrixGenericH {n p : ℕ}
    (centering : View n n → Option (View n n) → HeapM (View n n))
    (distances : (Fin n → Fin p → FP ℝ) → Fin n → Fin n → FP ℝ) (x : View n p) :
    HeapM (View n n) := do
  let f ← HeapM.read x
  let a ← HeapM.alloc (distances f)
  centering a (some a)

/-- `xp.sqrt` on a float. -/
noncomputable def sqrtFP : FP ℝ → FP ℝ
  | .fin a => if a < 0 then .nan else .fin (Real.sqrt a)
  | .pinf => .pinf
  | .ninf => .nan
  | .nan => .nan

/-- `_sqrt`, dcor/_utils.py:103-111: the negative values are replaced in the new array `x + 0`. -/
noncomputable def sqrtH {n m : ℕ} (x : View n m) : HeapM (View n m) := do
  let f ← HeapM.read x
  let xCopy ← HeapM.alloc fun i j => f i j + .fin 0
  let g ← HeapM.read xCopy
  HeapM.write xCopy (fun i j => FP.lt (g i j) (.fin 0)) fun _ _ => .fin 0
  let g ← HeapM.read xCopy
  HeapM.alloc fun i j => sqrtFP (g i j)

end Dcor

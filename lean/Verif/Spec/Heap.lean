/-
Specification of memory effects.
-/
import Verif.Model.Heap

namespace Dcor

/-- Different indexes of the array are different cells. -/
def View.Inj {n m : ℕ} (v : View n m) : Prop :=
  ∀ i j k l, v.addr i j = v.addr k l → i = k ∧ j = l

/-- The array is in allocated memory. -/
def View.Valid {n m : ℕ} (v : View n m) (h : Heap) : Prop := ∀ i j, v.addr i j < h.next

/-- The cell belongs to the array. -/
def View.Owns {n m : ℕ} (v : View n m) (c : ℕ) : Prop := ∃ i j, v.addr i j = c

/-- The arrays share no memory. -/
def View.Disjoint {n m k l : ℕ} (v : View n m) (w : View k l) : Prop := ∀ c, v.Owns c → ¬ w.Owns c

/-- No memory that was allocated in `h` is different in `h'`. -/
def Heap.Untouched (h h' : Heap) : Prop := ∀ c, c < h.next → h'.cell c = h.cell c

/-- The array is in memory that was not allocated in `h`. -/
def View.Fresh {n m : ℕ} (v : View n m) (h h' : Heap) : Prop :=
  ∀ i j, h.next ≤ v.addr i j ∧ v.addr i j < h'.next

end Dcor

/-
Model of dcor/_fast_dcov_avl.py (the AVL fast algorithm).

The arithmetic is over an arbitrary commutative ring `R`; `argsort` is a parameter.
-/
import Verif.Model.Py
import Mathlib.Data.Rat.Floor
import Mathlib.Data.Nat.Log
import Mathlib.Logic.Equiv.Defs

namespace Dcor

variable {R : Type}

/-- The terms `(aijbij, a_i_dot, a_dot_dot, b_i_dot, b_dot_dot)` shared by all algorithms
(the tuple returned at dcor/_fast_dcov_avl.py:414, dcor/_fast_dcov_mergesort.py:264 and
dcor/_dcor_internals.py:173, without the two optional variance terms). -/
structure CoreTerms (R : Type) (n : ℕ) where
  meanProd : R
  aAxis : Fin n → R
  aTotal : R
  bAxis : Fin n → R
  bTotal : R

/-- `pos_sums`, dcor/_fast_dcov_avl.py:263-265:
`cumsum(2 ** (l_max - arange(l_max)))`. -/
def posSums (lMax : ℕ) : Fin lMax → ℤ :=
  cumsum (fun l : Fin lMax => (2 : ℤ) ^ (lMax - (l : ℕ)))

/-- Offset added at level `l`: nothing for level 0, else `pos_sums[l - 1]`
(dcor/_fast_dcov_avl.py:67 and 72, column slices `[:, 1:] += pos_sums[:-1]`). -/
def levelOffset {lMax : ℕ} (ps : Fin lMax → ℤ) (l : Fin lMax) : ℤ :=
  if (l : ℕ) = 0 then 0 else ps ⟨(l : ℕ) - 1, by omega⟩

/-- `positions_3a`, dcor/_fast_dcov_avl.py:66-67. The float division of an integral rank by a
power of two is modelled by exact rational division. -/
def positions3a {lMax : ℕ} (ps : Fin lMax → ℤ) (yi : ℤ) (l : Fin lMax) : ℤ :=
  ⌈(yi : ℚ) / 2 ^ (l : ℕ)⌉ - 1 + levelOffset ps l

/-- `positions_3b` before the offsets are added, dcor/_fast_dcov_avl.py:70. -/
def positions3bRaw (yi : ℤ) (l : ℕ) : ℤ :=
  ⌊((yi : ℚ) - 1) / 2 ^ l⌋ - 1

/-- `valid_positions`, dcor/_fast_dcov_avl.py:71. -/
def validPosition (yi : ℤ) (l : ℕ) : Bool :=
  positions3bRaw yi l % 2 == 0

/-- `positions_3b`, dcor/_fast_dcov_avl.py:70-72. -/
def positions3b {lMax : ℕ} (ps : Fin lMax → ℤ) (yi : ℤ) (l : Fin lMax) : ℤ :=
  positions3bRaw yi l + levelOffset ps l

/-- `s[pos] += v` with an index array `pos` (dcor/_fast_dcov_avl.py:85): NumPy reads all the old
values first, so a repeated index is incremented only once. Indices are checked to be in
bounds (negative ones too, although NumPy would wrap them). -/
def fancyAdd [Add R] {m k : ℕ} (s : Fin m → R) (pos : Fin k → ℤ) (v : R) :
    Except PyErr (Fin m → R) :=
  if ∀ l, 0 ≤ pos l ∧ pos l < m then
    .ok (fun p => if ∃ l, pos l = ((p : ℕ) : ℤ) then s p + v else s p)
  else .error .indexError

/-- Body of the loop of `_dyad_update`, dcor/_fast_dcov_avl.py:78-85. -/
def dyadStep [AddCommMonoid R] {n sLen lMax : ℕ} (y : Fin n → ℤ) (c : Fin n → R)
    (ps : Fin lMax → ℤ) (st : (Fin n → R) × (Fin sLen → R)) (i : Fin n) :
    Except PyErr ((Fin n → R) × (Fin sLen → R)) := do
  -- gamma[i] = np_sum(s[pos_b[valid]])
  let vals ← ((List.finRange lMax).filter (fun l : Fin lMax => validPosition (y i) l)).mapM
    (fun l => rd st.2 (positions3b ps (y i) l))
  let g := Function.update st.1 i vals.sum
  -- s[pos_a] += c_i
  let s ← fancyAdd st.2 (positions3a ps (y i)) (c i)
  pure (g, s)

/-- `_dyad_update`, dcor/_fast_dcov_avl.py:43-87 (the uncompiled inner loop). `y` holds integral
floats. -/
def dyadUpdate [AddCommMonoid R] {n sLen : ℕ} (y : Fin n → ℤ) (c gamma : Fin n → R) (lMax : ℕ)
    (_s : Fin sLen → R) (ps : Fin lMax → ℤ) : Except PyErr (Fin n → R) := do
  -- s[...] = 0
  let s0 : Fin sLen → R := fun _ => 0
  let r ← (List.finRange n).foldlM (dyadStep y c ps) (gamma, s0)
  pure r.1

/-- The amount added to `pos` when `l > 0`, dcor/_fast_dcov_avl.py:118-119 and 127-128. -/
def compiledOffset {lMax : ℕ} (ps : Fin lMax → ℤ) (l : ℕ) : Except PyErr ℤ :=
  if l > 0 then rd ps ((l : ℤ) - 1) else .ok 0

/-- Body of step 3.a of `_dyad_update_compiled_version`, dcor/_fast_dcov_avl.py:115-121. -/
def compiledBody3a [AddCommMonoid R] {n sLen lMax : ℕ} (y : Fin n → ℤ) (c : Fin n → R)
    (ps : Fin lMax → ℤ) (i : ℕ) (s : Fin sLen → R) (l : ℕ) : Except PyErr (Fin sLen → R) := do
  let yi ← rd y ((i : ℤ) - 1)
  let k := ⌈(yi : ℚ) / 2 ^ l⌉
  let off ← compiledOffset ps l
  let pos := k - 1 + off
  let ci ← rd c ((i : ℤ) - 1)
  let old ← rd s pos
  wr s pos (old + ci)

/-- Step 3.a of `_dyad_update_compiled_version`, dcor/_fast_dcov_avl.py:114-121. -/
def compiledStep3a [AddCommMonoid R] {n sLen : ℕ} (y : Fin n → ℤ) (c : Fin n → R) (lMax : ℕ)
    (ps : Fin lMax → ℤ) (i : ℕ) (s : Fin sLen → R) : Except PyErr (Fin sLen → R) :=
  (List.range lMax).foldlM (compiledBody3a y c ps i) s

/-- Body of steps 3.b and 3.c of `_dyad_update_compiled_version`,
dcor/_fast_dcov_avl.py:125-130. -/
def compiledBody3bc [AddCommMonoid R] {n sLen lMax : ℕ} (y : Fin n → ℤ) (ps : Fin lMax → ℤ)
    (i : ℕ) (s : Fin sLen → R) (g : Fin n → R) (l : ℕ) : Except PyErr (Fin n → R) := do
  let yi ← rd y (i : ℤ)
  let pos := ⌊((yi : ℚ) - 1) / 2 ^ l⌋ - 1
  if pos % 2 = 0 then do
    let off ← compiledOffset ps l
    let old ← rd g (i : ℤ)
    let sv ← rd s (pos + off)
    wr g (i : ℤ) (old + sv)
  else pure g

/-- Steps 3.b and 3.c of `_dyad_update_compiled_version`, dcor/_fast_dcov_avl.py:124-130. -/
def compiledStep3bc [AddCommMonoid R] {n sLen : ℕ} (y : Fin n → ℤ) (lMax : ℕ)
    (ps : Fin lMax → ℤ) (i : ℕ) (s : Fin sLen → R) (gamma : Fin n → R) :
    Except PyErr (Fin n → R) :=
  (List.range lMax).foldlM (compiledBody3bc y ps i s) gamma

/-- Body of the loop of `_dyad_update_compiled_version`, dcor/_fast_dcov_avl.py:111-130. -/
def dyadStepCompiled [AddCommMonoid R] {n sLen lMax : ℕ} (y : Fin n → ℤ) (c : Fin n → R)
    (ps : Fin lMax → ℤ) (st : (Fin n → R) × (Fin sLen → R)) (i : ℕ) :
    Except PyErr ((Fin n → R) × (Fin sLen → R)) := do
  let s ← compiledStep3a y c lMax ps i st.2
  let g ← compiledStep3bc y lMax ps i s st.1
  pure (g, s)

/-- `_dyad_update_compiled_version`, dcor/_fast_dcov_avl.py:90-132 (the inner loop that numba
compiles). -/
def dyadUpdateCompiled [AddCommMonoid R] {n sLen : ℕ} (y : Fin n → ℤ) (c gamma : Fin n → R)
    (lMax : ℕ) (_s : Fin sLen → R) (ps : Fin lMax → ℤ) : Except PyErr (Fin n → R) := do
  -- s[...] = 0
  let s0 : Fin sLen → R := fun _ => 0
  -- for i in range(1, n)
  let r ← (List.range' 1 (n - 1)).foldlM (dyadStepCompiled y c ps) (gamma, s0)
  pure r.1

/-- `_partial_sum_2d`, dcor/_fast_dcov_avl.py:150-177; `compiled` selects the inner loop. -/
def partialSum2d [CommRing R] {n sLen : ℕ} (compiled : Bool) (y : Fin n → ℤ) (c : Fin n → R)
    (ix iy : Fin n → Fin n) (sxc syc : Fin n → R) (cSum : R) (lMax : ℕ) (s : Fin sLen → R)
    (ps : Fin lMax → ℤ) (gamma : Fin n → R) : Except PyErr (Fin n → R) := do
  let g ← if compiled then dyadUpdateCompiled y c gamma lMax s ps
          else dyadUpdate y c gamma lMax s ps
  -- Step 7: gamma = c_sum - c - 2 * sy_c[iy] - 2 * sx_c + 4 * gamma
  let g := fun i => cSum - c i - 2 * syc (iy i) - 2 * sxc i + 4 * g i
  -- return gamma[ix]
  pure (fun i => g (ix i))

/-- The values returned by `_get_impl_args` that depend on the data
(dcor/_fast_dcov_avl.py:269-285). -/
structure ImplArgs (R : Type) (n : ℕ) where
  ix : Fin n → Fin n
  iy : Fin n → Fin n
  vx : Fin n → R
  vy : Fin n → R
  iyReord : Fin n → Fin n
  c : Fin 4 → Fin n → R
  sxC : Fin 4 → Fin n → R
  syC : Fin 4 → Fin n → R
  cSum : Fin 4 → R
  lMax : ℕ

/-- `_get_impl_args`, dcor/_fast_dcov_avl.py:202-285 (after the two assertions, which are in
`avlTermsImpl`). `math.ceil(np.log2(n))` is modelled by the exact ceiling logarithm. -/
def getImplArgs [CommRing R] {n : ℕ} (argsort : (Fin n → R) → Equiv.Perm (Fin n))
    (x y : Fin n → R) : ImplArgs R n :=
  let argsortX := argsort x
  let vx := fun i => x (argsortX i)
  -- ix = zeros; ix[argsort_x] = arange(n)
  let ix := fun (base : Fin n → Fin n) => scatter base argsortX id
  let argsortY := argsort y
  let vy := fun i => y (argsortY i)
  let iy := fun (base : Fin n → Fin n) => scatter base argsortY id
  let yReord := fun i => y (argsortX i)
  let xTimesYReord := fun i => x (argsortX i) * y (argsortX i)
  let argsortYReord := argsort yReord
  let iyReord := fun (base : Fin n → Fin n) => scatter base argsortYReord id
  let c : Fin 4 → Fin n → R := ![fun _ => 1, vx, yReord, xTimesYReord]
  let cReord : Fin 4 → Fin n → R := fun i k => c i (argsortYReord k)
  { -- `zeros`: index 0 everywhere, written as `⟨0, _⟩`
    ix := ix (fun i => ⟨0, i.pos⟩)
    iy := iy (fun i => ⟨0, i.pos⟩)
    vx := vx
    vy := vy
    iyReord := iyReord (fun i => ⟨0, i.pos⟩)
    c := c
    sxC := fun i k => cumsum (c i) k - c i k
    syC := fun i k => cumsum (cReord i) k - cReord i k
    cSum := fun i => ∑ k, c i k
    lMax := Nat.clog 2 n }

/-- `_distance_covariance_sqr_terms_avl_impl`, dcor/_fast_dcov_avl.py:314-414, without the
variance terms (see `varTerm`). Includes `assert n > 3` of `_get_impl_args` (line 211). -/
def avlTermsImpl [CommRing R] {n : ℕ} (compiled : Bool)
    (argsort : (Fin n → R) → Equiv.Perm (Fin n)) (x y : Fin n → R) :
    Except PyErr (CoreTerms R n) := do
  if ¬ (n > 3) then throw PyErr.assertionError
  let a := getImplArgs argsort x y
  -- Step 2
  let sx := cumsum a.vx
  let sy := cumsum a.vy
  -- Step 3
  let alphaX : Fin n → R := fun i => ((a.ix i : ℕ) : R)
  let alphaY : Fin n → R := fun i => ((a.iy i : ℕ) : R)
  let betaX := fun i => sx (a.ix i) - a.vx (a.ix i)
  let betaY := fun i => sy (a.iy i) - a.vy (a.iy i)
  -- Step 4
  let xDot := ∑ i, x i
  let yDot := ∑ i, y i
  -- Step 5
  let aiDot := fun i => xDot + (2 * alphaX i - (n : R)) * x i - 2 * betaX i
  let biDot := fun i => yDot + (2 * alphaY i - (n : R)) * y i - 2 * betaY i
  -- Step 6
  let aDotDot := 2 * (∑ i, alphaX i * x i) - 2 * ∑ i, betaX i
  let bDotDot := 2 * (∑ i, alphaY i * y i) - 2 * ∑ i, betaY i
  -- new_y = iy_reord + 1.0
  let newY : Fin n → ℤ := fun i => ((a.iyReord i : ℕ) : ℤ) + 1
  -- s = np.empty(2 ** (l_max + 1)); its contents are overwritten before use
  let s : Fin (2 ^ (a.lMax + 1)) → R := fun _ => 0
  let ps := posSums a.lMax
  -- gamma = np.zeros_like(c)
  let part := fun (i : Fin 4) =>
    partialSum2d compiled newY (a.c i) a.ix a.iyReord (a.sxC i) (a.syC i) (a.cSum i)
      a.lMax s ps (fun _ => 0)
  let gamma1 ← part 0
  let gammaX ← part 1
  let gammaY ← part 2
  let gammaXY ← part 3
  -- Step 8
  let aijbij := ∑ i, (x i * y i * gamma1 i + gammaXY i - x i * gammaY i - y i * gammaX i)
  pure { meanProd := aijbij, aAxis := aiDot, aTotal := aDotDot, bAxis := biDot,
         bTotal := bDotDot }

/-- `np.var` of a non-empty array. -/
def npVar {K : Type*} [Field K] {n : ℕ} (x : Fin n → K) : K :=
  let mean := (∑ i, x i) / (n : K)
  (∑ i, (x i - mean) ^ 2) / (n : K)

/-- `2 * n**2 * np.var(x)`, dcor/_fast_dcov_avl.py:410-411 and
dcor/_fast_dcov_mergesort.py:260-261. -/
def varTerm {K : Type*} [Field K] {n : ℕ} (x : Fin n → K) : K :=
  2 * (n : K) ^ 2 * npVar x

end Dcor

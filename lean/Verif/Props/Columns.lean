/-
Property C52 for the functions other than the covariances and correlations: distances, energy distance,
partial covariances, tests, affinely invariant correlation and `rowwise`.
-/
import Verif.Props.Invariance
import Verif.Model.Independence
import Verif.Model.Homogeneity
import Verif.Proofs.Rowwise
import Verif.Model.AfInv

namespace Dcor.Props

variable {S : Type}

@[simp] private theorem asColumn_ns (x : Arr) : (asColumn x).ns = x.ns := rfl

@[simp] private theorem asColumn_dtype (x : Arr) : (asColumn x).dtype = x.dtype := rfl

@[simp] private theorem transformTo2d_asColumn (x : Arr) :
    transformTo2d (asColumn x).data = transformTo2d x.data := by
  rcases x with ⟨ns, dt, d⟩
  cases d <;> rfl

@[simp] private theorem shape0_asColumn (x : Arr) : (asColumn x).shape0 = x.shape0 := by
  rcases x with ⟨ns, dt, d⟩
  cases d <;> rfl

/-- C52: `pairwise_distances`. -/
theorem C52_column_inputs_distances (env : Env) (x y : Arr) (α : ℝ) :
    pairwiseDistances1 env (asColumn x) α = pairwiseDistances1 env x α ∧
    pairwiseDistances2 env (asColumn x) (asColumn y) α = pairwiseDistances2 env x y α := by
  simp only [pairwiseDistances1, pairwiseDistances2, transformTo2d_asColumn, asColumn_ns, asColumn_dtype,
    and_self]

/-- C52: the energy functions, with any number of samples in `energy_test`. -/
theorem C52_column_inputs_energy (env : Env) (rng : Rng S) (x y : Arr) (l : List Arr) (o : EnergyOpts)
    (B : ℤ) (rs : RandomLike S) (nJobs : Option ℤ) :
    energyDistance env (asColumn x) (asColumn y) o = energyDistance env x y o ∧
    energyTestStatistic env (asColumn x) (asColumn y) o = energyTestStatistic env x y o ∧
    energyTest env rng (l.map asColumn) B o rs nJobs = energyTest env rng l B o rs nJobs := by
  have h1 : (l.map asColumn).mapM (fun a : Arr => transformTo2d a.data)
      = l.mapM fun a : Arr => transformTo2d a.data := by
    induction l with
    | nil => rfl
    | cons a l ih =>
      rw [List.map_cons, List.mapM_cons, List.mapM_cons, transformTo2d_asColumn, ih]
  have h2 : (l.map asColumn).map Arr.dtype = l.map Arr.dtype := by
    rw [List.map_map]
    rfl
  have h3 : (l.map asColumn).map Arr.ns = l.map Arr.ns := by
    rw [List.map_map]
    rfl
  refine ⟨?_, ?_, ?_⟩
  · simp only [energyDistance, transformTo2d_asColumn, asColumn_ns, asColumn_dtype]
  · simp only [energyTestStatistic, transformTo2d_asColumn, asColumn_ns, asColumn_dtype]
  · simp only [energyTest, energyTestSetup, h1, h2, h3]

private theorem uDistanceMatrix_asColumn (env : Env) (x : Arr) (α : ℝ) :
    uDistanceMatrix env (asColumn x) α = uDistanceMatrix env x α := by
  simp only [uDistanceMatrix, transformTo2d_asColumn, asColumn_ns, asColumn_dtype]
  rfl

/-- C52: the partial functions and the tests of independence. -/
theorem C52_column_inputs_independence (env : Env) (rng : Rng S) (T : StudentT) (x y z : Arr) (α : ℝ)
    (B : ℤ) (rs : RandomLike S) (nJobs : Option ℤ) :
    partialDistanceCovariance env (asColumn x) (asColumn y) (asColumn z)
      = partialDistanceCovariance env x y z ∧
    partialDistanceCorrelation env (asColumn x) (asColumn y) (asColumn z)
      = partialDistanceCorrelation env x y z ∧
    distanceCovarianceTest env rng (asColumn x) (asColumn y) B α rs nJobs
      = distanceCovarianceTest env rng x y B α rs nJobs ∧
    partialDistanceCovarianceTest env rng (asColumn x) (asColumn y) (asColumn z) B α rs nJobs
      = partialDistanceCovarianceTest env rng x y z B α rs nJobs ∧
    distanceCorrelationTStatistic env (asColumn x) (asColumn y)
      = distanceCorrelationTStatistic env x y ∧
    distanceCorrelationTTest env T (asColumn x) (asColumn y) = distanceCorrelationTTest env T x y := by
  have ht : distanceCorrelationTStatistic env (asColumn x) (asColumn y)
      = distanceCorrelationTStatistic env x y := by
    simp only [distanceCorrelationTStatistic, shape0_asColumn, asColumn_dtype,
      (C52_column_inputs env x y {}).2.2.2.2.2.2.2.1]
  refine ⟨?_, ?_, ?_, ?_, ht, ?_⟩
  · simp only [partialDistanceCovariance, uDistanceMatrix_asColumn]
  · simp only [partialDistanceCorrelation, uDistanceMatrix_asColumn]
  · simp only [distanceCovarianceTest, dcovTestSetup, transformTo2d_asColumn, asColumn_ns, asColumn_dtype]
    rfl
  · simp only [partialDistanceCovarianceTest, partialTestSetup, uDistanceMatrix_asColumn]
  · simp only [distanceCorrelationTTest, ht, shape0_asColumn]

/-- C52: the affinely invariant correlations. -/
theorem C52_column_inputs_af_inv (eg : Eigh) (env : Env) (x y : Arr) (m : MethodLike) (cm : CompileMode) :
    distanceCorrelationAfInvSqr eg env (asColumn x) (asColumn y) m cm
      = distanceCorrelationAfInvSqr eg env x y m cm ∧
    distanceCorrelationAfInv eg env (asColumn x) (asColumn y) m cm
      = distanceCorrelationAfInv eg env x y m cm := by
  have h : ∀ a : Arr, afInvScaled eg (asColumn a) = afInvScaled eg a := by
    intro a
    simp only [afInvScaled, transformTo2d_asColumn, asColumn_ns, asColumn_dtype]
    rfl
  simp only [distanceCorrelationAfInv, distanceCorrelationAfInvSqr, h, and_self]

/-! ### rowwise -/

/-- `f` depends on the contents of one-column matrices and vectors in the same way. -/
def IgnoresColumns : RowFn → Prop
  | .other f => ∀ x y, f (asColumn x) (asColumn y) = f x y
  | _ => True

private theorem call_asColumn (env : Env) (o : Opts) (f : RowFn) (hf : IgnoresColumns f) (x y : Arr) :
    f.call env o (asColumn x) (asColumn y) = f.call env o x y := by
  have h := C52_column_inputs env x y o
  cases f with
  | dcovSqr => exact h.1
  | uDcovSqr => exact h.2.1
  | dcov => exact h.2.2.1
  | dcorSqr => exact h.2.2.2.2.2.2.1
  | uDcorSqr => exact h.2.2.2.2.2.2.2.1
  | dcor => exact h.2.2.2.2.2.2.2.2
  | other f => exact hf x y

private theorem rowwiseMap_asColumn (env : Env) (f : RowFn) (hf : IgnoresColumns f) (xs ys : List Arr)
    (o : Opts) : rowwiseMap env f (xs.map asColumn) (ys.map asColumn) o = rowwiseMap env f xs ys o := by
  unfold rowwiseMap
  induction xs generalizing ys with
  | nil => rfl
  | cons a xs ih =>
    cases ys with
    | nil => rfl
    | cons b ys =>
      rw [List.map_cons, List.map_cons, List.zip_cons_cons, List.zip_cons_cons, List.mapM_cons,
        List.mapM_cons, call_asColumn env o f hf, ih]

/-- All the arrays of a list have one dimension. -/
def AllVectors (l : List Arr) : Prop := ∀ a ∈ l, ∃ n v, a.data = .vec n v

private theorem shape_asColumn {a : Arr} {n : ℕ} {v : Fin n → ℝ} (h : a.data = .vec n v) :
    (asColumn a).shape = [n, 1] ∧ a.shape = [n] := by
  rcases a with ⟨ns, dt, d⟩
  cases h
  exact ⟨rfl, rfl⟩

private theorem checkHomogeneous_asColumn {l : List Arr} (h : AllVectors l) :
    checkHomogeneous (l.map asColumn) = checkHomogeneous l := by
  cases l with
  | nil => rfl
  | cons a l =>
    obtain ⟨n, v, ha⟩ := h a (by simp)
    have : ((l.map asColumn).all fun b => b.shape == (asColumn a).shape)
        = l.all fun b => b.shape == a.shape := by
      rw [Bool.eq_iff_iff, List.all_eq_true, List.all_eq_true]
      simp only [List.mem_map, forall_exists_index, and_imp, forall_apply_eq_imp_iff₂, beq_iff_eq]
      refine forall₂_congr fun b hb => ?_
      obtain ⟨m, w, hw⟩ := h b (by simp [hb])
      rw [(shape_asColumn ha).1, (shape_asColumn ha).2, (shape_asColumn hw).1, (shape_asColumn hw).2]
      simp
    unfold checkHomogeneous
    rw [List.map_cons]
    simp only [this]

private theorem rowVectors_asColumn (l : List Arr) :
    rowVectors (l.map asColumn) = rowVectors l := by
  unfold rowVectors
  induction l with
  | nil => rfl
  | cons a l ih =>
    have : transformTo1d (asColumn a).data = transformTo1d a.data := by
      rcases a with ⟨ns, dt, d⟩
      cases d <;> rfl
    rw [List.map_cons, List.mapM_cons, List.mapM_cons, this, ih]

private theorem dtype_asColumn (l : List Arr) : (l.map asColumn).map Arr.dtype = l.map Arr.dtype := by
  rw [List.map_map]
  rfl

private theorem rowwiseAvl_asColumn (env : Env) {xs ys : List Arr} (hx : AllVectors xs)
    (hy : AllVectors ys) (u : Bool) (cm : CompileMode) :
    rowwiseAvl env (xs.map asColumn) (ys.map asColumn) u cm = rowwiseAvl env xs ys u cm := by
  unfold rowwiseAvl
  rw [checkHomogeneous_asColumn hx, checkHomogeneous_asColumn hy, rowVectors_asColumn,
    rowVectors_asColumn, dtype_asColumn, dtype_asColumn]

private theorem rowwiseDcovSqr_asColumn (env : Env) {xs ys : List Arr} (hx : AllVectors xs)
    (hy : AllVectors ys) (u : Bool) (o : Opts) :
    rowwiseDcovSqr env u (xs.map asColumn) (ys.map asColumn) o = rowwiseDcovSqr env u xs ys o := by
  cases xs with
  | nil => rfl
  | cons a xs =>
    cases ys with
    | nil => rfl
    | cons b ys =>
      have h : canUseFastAlgorithm (asColumn a) (asColumn b) o.exponent
          = canUseFastAlgorithm a b o.exponent := by
        rcases a with ⟨na, da, ad⟩
        rcases b with ⟨nb, db, bd⟩
        cases ad <;> cases bd <;> rfl
      have h' := rowwiseAvl_asColumn env hx hy u o.compileMode
      simp only [List.map_cons] at h'
      simp only [rowwiseDcovSqr, List.map_cons, h, h']

private theorem concatenateRows_asColumn {l : List (List Arr)} (h : ∀ xs ∈ l, AllVectors xs) :
    concatenateRows (l.map (List.map asColumn)) = (concatenateRows l).map (List.map asColumn) ∧
    ∀ r, concatenateRows l = .ok r → AllVectors r := by
  have hall : AllVectors l.flatten := by
    intro a ha
    obtain ⟨xs, hxs, hax⟩ := List.mem_flatten.1 ha
    exact h xs hxs a hax
  have h1 : (l.map (List.map asColumn)).forM checkHomogeneous = l.forM checkHomogeneous := by
    clear hall
    induction l with
    | nil => rfl
    | cons a l ih =>
      have := ih fun xs hxs => h xs (by simp [hxs])
      show (checkHomogeneous (a.map asColumn) >>= fun _ => (l.map (List.map asColumn)).forM _) = _
      rw [checkHomogeneous_asColumn (h a (by simp)), this]
      rfl
  have h2 : (l.map (List.map asColumn)).flatten = l.flatten.map asColumn := by
    rw [List.map_flatten]
  have h3 : (l.map (List.map asColumn)).any List.isEmpty = l.any List.isEmpty := by
    rw [List.any_map]
    congr 1
    funext a
    simp
  unfold concatenateRows
  rw [h1, h2, h3]
  simp only [List.isEmpty_map, checkHomogeneous_asColumn hall, dtype_asColumn]
  cases l.forM checkHomogeneous with
  | error e => exact ⟨rfl, fun r hr => by cases hr⟩
  | ok _ =>
    by_cases hc : (l.any List.isEmpty && !l.flatten.isEmpty) = true
    · simp only [hc, if_true]
      exact ⟨rfl, fun r hr => by cases hr⟩
    · simp only [hc]
      cases checkHomogeneous l.flatten with
      | error e => exact ⟨rfl, fun r hr => by cases hr⟩
      | ok _ =>
        refine ⟨?_, ?_⟩
        · show Except.ok _ = Except.ok _
          rw [List.map_map, List.map_map]
          rfl
        · intro r hr
          cases hr
          intro a ha
          obtain ⟨b, hb, rfl⟩ := List.mem_map.1 ha
          exact hall b hb

private theorem rowwiseDcorSqr_asColumn (env : Env) {xs ys : List Arr} (hx : AllVectors xs)
    (hy : AllVectors ys) (u : Bool) (o : Opts) :
    rowwiseDcorSqr env u (xs.map asColumn) (ys.map asColumn) o = rowwiseDcorSqr env u xs ys o := by
  have h1 := concatenateRows_asColumn (l := [xs, xs, ys]) (by simp [hx, hy])
  have h2 := concatenateRows_asColumn (l := [ys, xs, ys]) (by simp [hx, hy])
  simp only [List.map_cons, List.map_nil] at h1 h2
  unfold rowwiseDcorSqr
  rw [h1.1, h2.1, List.length_map]
  cases e1 : concatenateRows [xs, xs, ys] with
  | error e => rfl
  | ok r1 =>
    cases e2 : concatenateRows [ys, xs, ys] with
    | error e => rfl
    | ok r2 =>
      have h3 := rowwiseDcovSqr_asColumn env (h1.2 r1 e1) (h2.2 r2 e2) u o
      show (rowwiseDcovSqr env u (r1.map asColumn) (r2.map asColumn) o >>= _) = _
      rw [h3]
      rfl

/-- C52: `rowwise`, in all modes and for all functions. Rows that are vectors (a two-dimensional array)
can be replaced by matrices with one column (a three-dimensional array). -/
theorem C52_column_inputs_rowwise (env : Env) (f : RowFn) (hf : IgnoresColumns f) (xs ys : List Arr)
    (hx : AllVectors xs) (hy : AllVectors ys) (mode : RowwiseMode) (o : Opts) :
    rowwise env f (xs.map asColumn) (ys.map asColumn) mode o = rowwise env f xs ys mode o := by
  have h : ∀ g, f.rowwiseFunction env = some g → g (xs.map asColumn) (ys.map asColumn) o = g xs ys o := by
    intro g hg
    cases f with
    | dcovSqr => cases hg; exact rowwiseDcovSqr_asColumn env hx hy _ o
    | uDcovSqr => cases hg; exact rowwiseDcovSqr_asColumn env hx hy _ o
    | dcov => cases hg; beta_reduce; rw [rowwiseDcovSqr_asColumn env hx hy _ o]
    | dcorSqr => cases hg; exact rowwiseDcorSqr_asColumn env hx hy _ o
    | uDcorSqr => cases hg; exact rowwiseDcorSqr_asColumn env hx hy _ o
    | dcor => cases hg; beta_reduce; rw [rowwiseDcorSqr_asColumn env hx hy _ o]
    | other f => cases hg
  unfold rowwise
  rw [rowwiseMap_asColumn env f hf]
  cases hg : f.rowwiseFunction env with
  | none => rfl
  | some g =>
    simp only [h g hg]

example (v w : Fin 5 → ℝ) := C52_column_inputs_rowwise stdEnv .uDcorSqr trivial [npVec v, npVec w]
  [npVec w, npVec w] (by simp [AllVectors, npVec]) (by simp [AllVectors, npVec]) .optimized {}

end Dcor.Props

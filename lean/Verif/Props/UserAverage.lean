/-
Property C82: the `average` argument of the energy functions.
-/
import Verif.Proofs.UserAverage
import Verif.Props.Homogeneity

namespace Dcor.Props

open Finset

variable {S : Type} {env : Env} {rng : Rng S} {rs : RandomLike S} {nJobs : Option ℤ}
  {n m p k : ℕ} {x y : Arr} {o : EnergyOpts} {f : Average} {X : Fin n → Fin p → ℝ} {Y : Fin m → Fin p → ℝ}
  {sz : Fin k → ℕ} {A : Fin k → Arr} {W : (a : Fin k) → Fin (sz a) → Fin p → ℝ}

/-- Two NumPy samples of the same dimension, with an average. -/
theorem averageCall_mat {n m p : ℕ} (v : Fin n → Fin p → ℝ) (w : Fin m → Fin p → ℝ) {α : ℝ}
    (hα : 0 ≤ α) (s : EstLike) (f : Average) : AverageCall (npMat v) (npMat w) ⟨α, some f, s⟩ f v w :=
  ⟨npMat_holds v, npMat_holds w, rfl, hα, fun h => by simp [npMat] at h, Iff.rfl⟩

/-- NumPy samples of the same dimension, with an average. -/
theorem averageTestCall_mat {k p : ℕ} (hk : 2 ≤ k) {sz : Fin k → ℕ} (hsz : ∀ a, 0 < sz a)
    (X : (a : Fin k) → Fin (sz a) → Fin p → ℝ) {α : ℝ} (hα : 0 ≤ α) (s : EstLike) {f : Average}
    (hf : f.kind = .npFloat) : AverageTestCall (fun a => npMat (X a)) ⟨α, some f, s⟩ f X :=
  ⟨hk, fun a => npMat_holds (X a), hsz, fun a => by simp [npMat], hα, rfl, hf⟩

/-- The largest distance: `average=np.max`. -/
noncomputable def maxAverage : Average where
  apply
    | .mat d => .fin (((List.finRange d.n).flatMap fun (i : Fin d.n) =>
        (List.finRange d.p).map (d.m i)).foldr max 0)
    | .flat l => .fin (l.foldr max 0)
  kind := .npFloat

/-- The same with the result converted to `Decimal`. -/
noncomputable def decimalAverage : Average := ⟨maxAverage.apply, .pyDecimal⟩

/-- C82: `energy_distance(x, y, average=f)` is twice the average of the distances between the samples minus the averages
of the distances within the samples. For the V-statistic these are all distances, including the zeros of the diagonal;
for the U-statistic, those of the pairs `i < j`, as a one-dimensional array. -/
theorem C82_value (h : AverageCall x y o f X Y) {s : EstStat} (hs : o.stat.resolve env = .ok s)
    (hd : canBeNumpyDouble env (commonNs x.ns y.ns) x.dtype ∧ canBeNumpyDouble env (commonNs x.ns y.ns) y.dtype) :
    energyDistance env x y o
      = ⟨energyWarns o.exponent, .ok ⟨Spec.averageEnergy f.apply s o.exponent X Y, f.kind⟩⟩ :=
  averageDistance_eq h hs (cdist_scipy _ _ _ X Y _ (by simp [hd.1, hd.2]))

example : (energyDistance stdEnv (npMat exX) (npMat fun i k => 2 * exX i k) ⟨1, some maxAverage, .enum .u⟩).out
    = .ok ⟨Spec.averageEnergy maxAverage.apply .u 1 exX (fun i k => 2 * exX i k), .npFloat⟩ :=
  congrArg PyM.out (C82_value (averageCall_mat exX (fun i k => 2 * exX i k) zero_le_one (.enum .u) maxAverage) rfl ⟨rfl, rfl⟩)

/-- C82: for arrays that cannot be NumPy doubles, the distances between the samples are passed to `f` as the transposed
matrix. -/
theorem C82_value_object (h : AverageCall x y o f X Y) {s : EstStat} (hs : o.stat.resolve env = .ok s)
    (hd : ¬ (canBeNumpyDouble env (commonNs x.ns y.ns) x.dtype ∧ canBeNumpyDouble env (commonNs x.ns y.ns) y.dtype)) :
    energyDistance env x y o = ⟨energyWarns o.exponent,
      .ok ⟨.fin 2 * f.apply (Spec.crossDistances o.exponent Y X) - f.apply (Spec.withinDistances s o.exponent X)
        - f.apply (Spec.withinDistances s o.exponent Y), f.kind⟩⟩ := by
  rw [averageDistance_eq h hs (cdist_naive _ _ _ X Y _ (by simpa using hd) h.decimal
    (decimalClash_false h.decimal_iff))]
  have e : (⟨m, n, fun k i => Spec.dist o.exponent (X i) (Y k)⟩ : Mat2)
      = ⟨m, n, fun k i => Spec.dist o.exponent (Y k) (X i)⟩ := by
    congr 1
    funext k i
    exact Spec.dist_symm _ _ _
  rw [e]
  rfl

/-- C82: the type of arrays is irrelevant for averages that do not distinguish a matrix and its transpose. -/
theorem C82_value_any (h : AverageCall x y o f X Y) {s : EstStat} (hs : o.stat.resolve env = .ok s)
    (hf : f.apply (Spec.crossDistances o.exponent Y X) = f.apply (Spec.crossDistances o.exponent X Y)) :
    energyDistance env x y o
      = ⟨energyWarns o.exponent, .ok ⟨Spec.averageEnergy f.apply s o.exponent X Y, f.kind⟩⟩ := by
  by_cases hd : canBeNumpyDouble env (commonNs x.ns y.ns) x.dtype ∧ canBeNumpyDouble env (commonNs x.ns y.ns) y.dtype
  · exact C82_value h hs hd
  · rw [C82_value_object h hs hd, hf]
    rfl

example : (energyDistance stdEnv ⟨.numpy, .fraction, .mat 4 2 exX⟩ ⟨.numpy, .fraction, .mat 1 2 ![exX 1]⟩
    ⟨1, some maxAverage, .enum .v⟩).out = .ok ⟨.fin 2 * maxAverage.apply (Spec.crossDistances 1 ![exX 1] exX)
      - maxAverage.apply (Spec.withinDistances .v 1 exX)
      - maxAverage.apply (Spec.withinDistances .v 1 ![exX 1]), maxAverage.kind⟩ := by
  have hc : AverageCall ⟨.numpy, .fraction, .mat 4 2 exX⟩ ⟨.numpy, .fraction, .mat 1 2 ![exX 1]⟩
      ⟨1, some maxAverage, .enum .v⟩ maxAverage exX ![exX 1] :=
    ⟨Holds.mat _ _ exX, Holds.mat _ _ ![exX 1], rfl, zero_le_one, by simp, Iff.rfl⟩
  rw [C82_value_object (env := stdEnv) hc (s := .v) rfl (by simp [canBeNumpyDouble])]

/-- An average of the distances between two samples that does not distinguish them. -/
example : maxAverage.apply (Spec.crossDistances 1 exX ![exX 0]) = maxAverage.apply (Spec.crossDistances 1 ![exX 0] exX) := by
  simp only [maxAverage, Spec.crossDistances, List.finRange_succ, List.finRange_zero, List.map_cons, List.map_nil,
    List.flatMap_cons, List.flatMap_nil, List.append_nil, List.cons_append, List.nil_append]
  simp [Spec.dist_symm]

/-- C82: passing the mean explicitly is the same as leaving out the argument. -/
theorem C82_explicit_mean (h : AverageCall x y o f X Y) (hf : f.apply = meanOf) (hk : f.kind = .npFloat)
    (hx : x.dtype ≠ .decimal) {s : EstStat} (hs : o.stat.resolve env = .ok s) :
    energyDistance env x y o = energyDistance env x y { o with average := none } := by
  have hmean : ∀ {n m : ℕ} (X : Fin n → Fin p → ℝ) (Y : Fin m → Fin p → ℝ), meanOf (Spec.crossDistances o.exponent X Y)
      = .fin (∑ i, ∑ j, Spec.dist o.exponent (X i) (Y j)) / .fin ((n : ℝ) * m) := fun _ _ => rfl
  have ht : f.apply (Spec.crossDistances o.exponent Y X) = f.apply (Spec.crossDistances o.exponent X Y) := by
    rw [hf, hmean, hmean, sum_comm, mul_comm (m : ℝ)]
    simp only [Spec.dist_symm o.exponent (Y _)]
  have h' : EnergyCall x y { o with average := none } X Y :=
    ⟨h.hx, h.hy, rfl, h.exponent_nonneg, h.decimal, h.decimal_iff⟩
  rw [C82_value_any h hs ht, energyDistance_eq h' hs, withinArg_eq, withinArg_eq]
  unfold Spec.averageEnergy energyKind
  rw [hf, hk, if_neg hx, hmean]

example : energyDistance stdEnv (npMat exX) (npMat fun i k => 2 * exX i k) ⟨1, some ⟨meanOf, .npFloat⟩, .enum .v⟩
    = energyDistance stdEnv (npMat exX) (npMat fun i k => 2 * exX i k) ⟨1, none, .enum .v⟩ :=
  C82_explicit_mean (averageCall_mat exX _ zero_le_one (.enum .v) _) rfl rfl (by simp [npMat]) rfl

/-- C82: the energy distance of a sample and itself with the V-statistic is 0 for every average that returns a
number. -/
theorem C82_identical (h : AverageCall x x o f X X) (hs : o.stat.resolve env = .ok .v)
    {a : ℝ} (ha : f.apply (Spec.crossDistances o.exponent X X) = .fin a) :
    (energyDistance env x x o).out = .ok ⟨.fin 0, f.kind⟩ := by
  rw [C82_value_any h hs rfl]
  unfold Spec.averageEnergy Spec.withinDistances
  simp only [ha]
  show Except.ok (⟨FP.fin (2 * a + -a + -a), f.kind⟩ : Scalar) = _
  congr 3
  ring

example : (energyDistance stdEnv (npMat exX) (npMat exX) ⟨1, some maxAverage, .enum .v⟩).out = .ok ⟨.fin 0, .npFloat⟩ :=
  C82_identical (averageCall_mat exX exX zero_le_one (.enum .v) maxAverage) rfl rfl

/-- C82: `energy_test_statistic` is `n m / (n + m)` times what `energy_distance` returns for the same arguments, whatever
the average; a `Decimal` raises `TypeError`. -/
theorem C82_statistic (hx : Holds x.data n p X) (hy : Holds y.data m p Y) (hn : 0 < n + m) {v : Scalar}
    (hv : (energyDistance env x y o).out = .ok v) :
    (energyTestStatistic env x y o).out
      = if v.kind = .pyDecimal then .error .typeError else .ok ⟨.fin ((n : ℝ) * m / (n + m)) * v.val, v.kind⟩ := by
  have e : energyDistance env ⟨commonNs x.ns y.ns, x.dtype, .mat n p X⟩ ⟨commonNs x.ns y.ns, y.dtype, .mat m p Y⟩ o
      = energyDistance env x y o := by
    unfold energyDistance
    have hc : commonNs (commonNs x.ns y.ns) (commonNs x.ns y.ns) = commonNs x.ns y.ns := by
      cases x.ns <;> cases y.ns <;> rfl
    rw [hx.to2d, hy.to2d, (Holds.mat _ _ X).to2d, (Holds.mat _ _ Y).to2d]
    dsimp only
    rw [hc]
  unfold energyTestStatistic energyCoefficient
  rw [hx.to2d, hy.to2d, PyM.lift_ok_bind, PyM.lift_ok_bind]
  dsimp only
  rw [if_neg (by omega), PyM.lift_ok_bind, e]
  have e2 : energyDistance env x y o = ⟨(energyDistance env x y o).warns, .ok v⟩ := by rw [← hv]
  rw [e2, PyM.mk_ok_bind]
  rfl

example {v : Scalar} (hv : (energyDistance stdEnv (npMat exX) (npMat exX) ⟨1, some decimalAverage, .enum .v⟩).out = .ok v) :
    (energyTestStatistic stdEnv (npMat exX) (npMat exX) ⟨1, some decimalAverage, .enum .v⟩).out = .error .typeError := by
  have hc := averageCall_mat exX exX zero_le_one (.enum .v) decimalAverage
  rw [C82_statistic (npMat_holds exX) (npMat_holds exX) (by norm_num) hv, if_pos]
  rw [C82_value hc rfl ⟨rfl, rfl⟩] at hv
  cases hv
  rfl

/-- C82: the statistic of `energy_test` with an average is the sum over the pairs of samples of `n m / (n + m)` times the
energy distance with that average, and the p-value compares it with the statistics of the relabelled samples. -/
theorem C82_test (h : AverageTestCall A o f W) {s : EstStat} (hs : o.stat.resolve env = .ok s)
    (hj : nJobs ≠ some 0) (B : ℕ) :
    (energyTest env rng (List.ofFn A) B o rs nJobs).out
      = .ok (⟨Spec.permPvalue (Spec.averageTestStat f.apply s o.exponent W)
          (fun i => Spec.averageTestStat f.apply s o.exponent (Spec.relabel W
            (permAt rng (∑ a, sz a) (randomStateInit rng rs) i))) B,
        Spec.averageTestStat f.apply s o.exponent W⟩,
        stateAt rng (∑ a, sz a) (randomStateInit rng rs) B) :=
  congrArg PyM.out (averageTest_ok h hs hj B)

example : ∃ r s', (energyTest stdEnv shiftRng (List.ofFn fun _ : Fin 3 => npMat exX) (5 : ℕ)
    ⟨1, some maxAverage, .enum .u⟩ (.seed (some 0)) none).out = .ok (r, s') :=
  ⟨_, _, C82_test (averageTestCall_mat (by norm_num) (sz := fun _ => 4) (by simp) (fun _ => exX) zero_le_one (.enum .u)
    (f := maxAverage) rfl) rfl (by simp) 5⟩

end Dcor.Props

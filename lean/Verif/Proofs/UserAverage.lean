/-
Value of the energy functions with an average chosen by the caller.
-/
import Verif.Spec.UserAverage
import Verif.Proofs.Homogeneity

namespace Dcor

open Finset

variable {n m p : ℕ} {env : Env} {x y : Arr} {o : EnergyOpts} {f : Average} {X : Fin n → Fin p → ℝ}
  {Y : Fin m → Fin p → ℝ}

theorem withinArg_eq (s : EstStat) (α : ℝ) (X : Fin n → Fin p → ℝ) (dec : Bool) :
    withinArg s ⟨⟨n, n, Spec.distMat α X⟩, dec⟩ = Spec.withinDistances s α X := by
  cases s with
  | v => rfl
  | u =>
    show AvgArg.flat _ = AvgArg.flat _
    congr 1
    unfold flatUpper List.product
    rw [List.filter_flatMap, List.map_flatMap]
    congr 1
    funext i
    rw [List.filter_map, List.map_map]
    rfl

/-- The call of `energy_distance`, with the matrix of distances between the samples that is passed to the average. -/
theorem averageDistance_eq (h : AverageCall x y o f X Y) {s : EstStat} (hs : o.stat.resolve env = .ok s) {M : Mat2}
    (hM : cdist env (commonNs x.ns y.ns) (commonNs x.ns y.ns) x.dtype y.dtype ⟨n, p, X⟩ ⟨m, p, Y⟩ o.exponent = .ok M) :
    energyDistance env x y o = ⟨energyWarns o.exponent, .ok ⟨.fin 2 * f.apply (.mat M)
        - f.apply (Spec.withinDistances s o.exponent X) - f.apply (Spec.withinDistances s o.exponent Y), f.kind⟩⟩ := by
  unfold energyDistance
  rw [h.hx.to2d, h.hy.to2d, PyM.lift_ok_bind, PyM.lift_ok_bind, checkValidEnergyExponent_eq, PyM.mk_ok_bind]
  dsimp only
  rw [pdist_eq env _ _ X _ fun e => h.decimal (Or.inl e), pdist_eq env _ _ Y _ fun e => h.decimal (Or.inr e),
    PyM.lift_ok_bind, PyM.lift_ok_bind, hM, PyM.lift_ok_bind]
  unfold energyFromMatrices
  rw [hs, h.average, Except.ok_bind']
  simp only [averageKind, averageFun, PyM.lift, List.append_nil, Except.pure_eq, Except.ok_bind', withinArg_eq]

section Samples

variable {k : ℕ} {sz : Fin k → ℕ} {W : (a : Fin k) → Fin (sz a) → Fin p → ℝ} {A : Fin k → Arr}

theorem pairEnergy_average {stat : EstLike} {s : EstStat} (hs : stat.resolve env = .ok s) (hk : f.kind = .npFloat)
    (α : ℝ) {a b : Fin k} (ha : 0 < sz a) :
    pairEnergy env (Spec.distMat α (Spec.pooled W)) false (some f) stat (offset sz a, sz a) (offset sz b, sz b)
      = .ok ⟨.fin ((sz a : ℝ) * sz b / (sz a + sz b)) * Spec.averageEnergy f.apply s α (W a) (W b), .npFloat⟩ := by
  unfold pairEnergy energyTestFromMatrices
  dsimp only
  rw [slice_pooled, slice_pooled, slice_pooled]
  unfold energyFromMatrices
  rw [hs, Except.ok_bind']
  unfold energyCoefficient
  rw [if_neg (by omega)]
  have h1 := withinArg_eq s α (W a) false
  have h2 := withinArg_eq s α (W b) false
  unfold Spec.distMat at h1 h2
  simp only [averageKind, averageFun, Except.pure_eq, Except.ok_bind', h1, h2, scaleScalar, hk]
  rfl

theorem energyMultivariate_average {stat : EstLike} {s : EstStat} (hs : stat.resolve env = .ok s)
    (hf : f.kind = .npFloat) (hk : 2 ≤ k) (hpos : ∀ a, 0 < sz a) (α : ℝ) :
    energyMultivariate env (Spec.distMat α (Spec.pooled W)) false (List.ofFn fun a => (offset sz a, sz a)) (some f) stat
      = .ok ⟨∑ a, ∑ b ∈ univ.filter (a < ·), .fin ((sz a : ℝ) * sz b / (sz a + sz b))
          * Spec.averageEnergy f.apply s α (W a) (W b), .npFloat⟩ := by
  unfold energyMultivariate
  have hmap : (List.ofFn fun a => (offset sz a, sz a))
      = (List.ofFn fun a : Fin k => a).map fun a => (offset sz a, sz a) := by
    rw [List.map_ofFn]
    rfl
  obtain ⟨r, h1, h2, h3, h4⟩ := outerPairs_ok (env := env)
    (d := Spec.distMat α (Spec.pooled W)) (dec := false) (av := some f) (stat := stat)
    (fun a : Fin k => (offset sz a, sz a))
    (fun a b => .fin ((sz a : ℝ) * sz b / (sz a + sz b)) * Spec.averageEnergy f.apply s α (W a) (W b))
    (List.ofFn fun a : Fin k => a) (fun a b => pairEnergy_average hs hf α (hpos a)) none
  rw [hmap, h1, Except.ok_bind']
  cases r with
  | none => exact absurd rfl (h4 (Or.inr (by simpa using hk)))
  | some e =>
    dsimp only
    obtain ⟨val, kind⟩ := e
    have hk' : kind = .npFloat := h3 (by simp) _ rfl
    have hv : val = 0 + _ := h2
    rw [hk', hv, zero_add, pairSum_ofFn]
    rfl

variable {S : Type} {rng : Rng S} {rs : RandomLike S} {nJobs : Option ℤ}

theorem averageTest_ok (h : AverageTestCall A o f W) {s : EstStat} (hs : o.stat.resolve env = .ok s)
    (hj : nJobs ≠ some 0) (B : ℕ) :
    energyTest env rng (List.ofFn A) B o rs nJobs = ⟨energyWarns o.exponent,
      .ok (⟨Spec.permPvalue (Spec.averageTestStat f.apply s o.exponent W)
          (fun i => Spec.averageTestStat f.apply s o.exponent (Spec.relabel W
            (permAt rng (∑ a, sz a) (randomStateInit rng rs) i))) B,
        Spec.averageTestStat f.apply s o.exponent W⟩,
        stateAt rng (∑ a, sz a) (randomStateInit rng rs) B)⟩ := by
  have hd : ∀ d ∈ List.ofFn fun a => (A a).dtype, d ≠ .decimal := by
    intro d hd
    rw [List.mem_ofFn] at hd
    obtain ⟨a, rfl⟩ := hd
    exact h.dtype a
  unfold energyTest PyM.permutationTest
  rw [energyTestSetup_ok (by have := h.two; omega) h.holds (mixedDecimalList_false hd)
    (fun e => absurd e (joinDTypes_ne_decimal hd)), PyM.mk_ok_bind]
  have hb : (joinDTypes (List.ofFn fun a => (A a).dtype) == DType.decimal) = false :=
    beq_eq_false_iff_ne.2 (joinDTypes_ne_decimal hd)
  dsimp only
  rw [permutationTest_ok hj B (by rw [hb, h.average]; exact energyMultivariate_average hs h.kind h.two h.pos _)
    (k := fun _ => .npFloat) fun i _ => by
      unfold permutedStatistic
      rw [permutedMatrix_pooled, hb, h.average]
      exact energyMultivariate_average hs h.kind h.two h.pos _]
  simp [PyM.lift]
  exact ⟨rfl, rfl⟩

end Samples

end Dcor

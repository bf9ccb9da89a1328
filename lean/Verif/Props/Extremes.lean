/-
Property C118: the bias-corrected functions and the extreme observations of a sample.
-/
import Verif.Proofs.Extremes
import Verif.Proofs.TTest
import Verif.Props.Invariance

namespace Dcor.Props

open Finset

variable {n p q : ℕ} {env env' : Env} {x y x' y' : Arr} {o o' : Opts} {X : Fin n → Fin p → ℝ} {Y : Fin n → Fin q → ℝ}
  {v w : Fin n → ℝ}

/-- Two samples of numbers that agree except for one observation, which is a largest one in both or a smallest one in both. -/
def SameButExtreme (v w : Fin n → ℝ) : Prop :=
  ∃ i, (∀ j, j ≠ i → w j = v j) ∧ ((∀ j, v j ≤ v i ∧ w j ≤ w i) ∨ (∀ j, v i ≤ v j ∧ w i ≤ w j))

private theorem uCentre_of_eq (hn : 3 < n) {i : Fin n} (he : ∀ j, j ≠ i → w j = v j) {s : ℝ}
    (hs : ∀ j, j ≠ i → |w i - v j| = |v i - v j| + s) :
    Spec.uCentre (Spec.distMat 1 fun i (_ : Fin 1) => w i) = Spec.uCentre (Spec.distMat 1 fun i (_ : Fin 1) => v i) := by
  refine Spec.uCentre_add_radii (by omega) (fun k => by simp [distMat_one]) (fun k => by simp [distMat_one])
    (fun k => if k = i then s else 0) fun k l hkl => ?_
  rw [distMat_one, distMat_one]
  show |w k - w l| = |v k - v l| + (if k = i then s else 0) + (if l = i then s else 0)
  by_cases hk : k = i
  · subst hk
    rw [if_pos rfl, if_neg hkl.symm, he l hkl.symm, hs l hkl.symm, add_zero]
  · rw [if_neg hk, he k hk, add_zero]
    by_cases hl : l = i
    · subst hl
      rw [if_pos rfl, abs_sub_comm, hs k hk, abs_sub_comm (v l)]
    · rw [if_neg hl, he l hl, add_zero]

private theorem uCentre_extreme (hn : 3 < n) (h : SameButExtreme v w) :
    Spec.uCentre (Spec.distMat 1 fun i (_ : Fin 1) => w i) = Spec.uCentre (Spec.distMat 1 fun i (_ : Fin 1) => v i) := by
  obtain ⟨i, he, hm | hm⟩ := h
  · refine uCentre_of_eq hn he (s := w i - v i) fun j hj => ?_
    have h1 := (hm j).1
    have h2 := (hm j).2
    rw [he j hj] at h2
    rw [abs_of_nonneg (by linarith), abs_of_nonneg (by linarith)]
    ring
  · refine uCentre_of_eq hn he (s := v i - w i) fun j hj => ?_
    have h1 := (hm j).1
    have h2 := (hm j).2
    rw [he j hj] at h2
    rw [abs_of_nonpos (by linarith), abs_of_nonpos (by linarith)]
    ring

/-- C118: the bias-corrected functions do not see how far away an extreme observation is. If a largest number of a sample is
replaced by another number that is still a largest one, or a smallest number by another smallest one, then the bias-corrected
covariance, correlation and variances stay exactly the same. -/
theorem C118_extreme_irrelevant (h : Supported env x y o (fun i (_ : Fin 1) => v i) Y)
    (h' : Supported env' x' y' o' (fun i (_ : Fin 1) => w i) Y) (ho : o.exponent = 1) (ho' : o'.exponent = 1) (hn : 3 < n)
    (hs : SameButExtreme v w) :
    (uDistanceCovarianceSqr env' x' y' o').out = (uDistanceCovarianceSqr env x y o).out ∧
    (uDistanceCorrelationSqr env' x' y' o').out = (uDistanceCorrelationSqr env x y o).out ∧
    (uDistanceStatsSqr env' x' y' o').out = (uDistanceStatsSqr env x y o).out := by
  have hne : o.exponent ≠ 0 := by rw [ho]; exact one_ne_zero
  have hne' : o'.exponent ≠ 0 := by rw [ho']; exact one_ne_zero
  rw [uDistanceCovarianceSqr_ok h hn hne, uDistanceCovarianceSqr_ok h' hn hne', uDistanceCorrelationSqr_ok h hn hne,
    uDistanceCorrelationSqr_ok h' hn hne', uDistanceStatsSqr_ok h hn hne, uDistanceStatsSqr_ok h' hn hne', ho, ho']
  simp only [Spec.uDcorSqr, Spec.uDcovSqr, uCentre_extreme hn hs, and_self]

private theorem tTest_eq (T : StudentT) (h : (uDistanceCorrelationSqr env' x' y' {}).out = (uDistanceCorrelationSqr env x y {}).out)
    {r : FP ℝ} (hr : (uDistanceCorrelationSqr env x y {}).out = .ok r) (hd : x.dtype ≠ .decimal) (hd2 : y.dtype ≠ .decimal)
    (hd' : x'.dtype ≠ .decimal) (hd2' : y'.dtype ≠ .decimal) (hsh : x'.shape0 = x.shape0) :
    (distanceCorrelationTTest env' T x' y').out = (distanceCorrelationTTest env T x y).out := by
  have e1 : (distanceCorrelationTStatistic env x y).out = .ok (tStatistic x.shape0 r) := by
    unfold distanceCorrelationTStatistic
    rw [PyM.bind_ok hr, if_neg (by tauto)]
    rfl
  have e2 : (distanceCorrelationTStatistic env' x' y').out = .ok (tStatistic x.shape0 r) := by
    unfold distanceCorrelationTStatistic
    rw [PyM.bind_ok (h.trans hr), if_neg (by tauto), hsh]
    rfl
  unfold distanceCorrelationTTest
  rw [PyM.bind_ok e1, PyM.bind_ok e2, hsh]

/-- C118: neither does `distance_correlation_t_test` see how far away an extreme observation is. -/
theorem C118_extreme_t_test (T : StudentT) (h : Supported env x y {} (fun i (_ : Fin 1) => v i) Y)
    (h' : Supported env' x' y' {} (fun i (_ : Fin 1) => w i) Y) (hn : 3 < n) (hs : SameButExtreme v w)
    (hx : x.dtype ≠ .decimal) (hy : y.dtype ≠ .decimal) (hx' : x'.dtype ≠ .decimal) (hy' : y'.dtype ≠ .decimal) :
    (distanceCorrelationTTest env' T x' y').out = (distanceCorrelationTTest env T x y).out :=
  tTest_eq T (C118_extreme_irrelevant h h' rfl rfl hn hs).2.1 (uDistanceCorrelationSqr_ok h hn one_ne_zero) hx hy hx' hy'
    (by rw [h'.1.shape0, h.1.shape0])

/-- C118: the bias-corrected distance variance vanishes exactly for the samples whose distances are sums of two radii, not only
for constant samples. -/
theorem C118_zero_variance_iff (h : Supported env x x o X X) (hn : 3 < n) (he : 0 < o.exponent) :
    (uDistanceCovarianceSqr env x x o).out = .ok (.fin 0) ↔
      ∃ r : Fin n → ℝ, ∀ i j, i ≠ j → Spec.dist o.exponent (X i) (X j) = r i + r j := by
  rw [uDistanceCovarianceSqr_ok h hn he.ne']
  have e := Spec.uDvar_eq_zero_iff hn (a := Spec.distMat o.exponent X) (fun i j => Spec.distMat_symm _ _ i j)
    (fun i => Spec.dist_self he.ne' (X i))
  refine Iff.trans ?_ e
  simp

/-- C118: for numbers and exponent one that means: all observations are equal, except perhaps a smallest one and a largest one. -/
theorem C118_zero_variance_numbers (h : Supported env x x o (fun i (_ : Fin 1) => v i) fun i (_ : Fin 1) => v i) (hn : 3 < n)
    (he : o.exponent = 1) :
    (uDistanceCovarianceSqr env x x o).out = .ok (.fin 0) ↔
      ∃ i j c, i ≠ j ∧ v i ≤ c ∧ c ≤ v j ∧ ∀ k, k ≠ i → k ≠ j → v k = c := by
  rw [C118_zero_variance_iff h hn (by rw [he]; exact one_pos), ← Spec.radii_iff hn v, he]
  refine exists_congr fun r => forall_congr' fun i => forall_congr' fun j => ?_
  have e := distMat_one (fun i (_ : Fin 1) => v i) i j
  rw [show Spec.dist 1 (fun _ : Fin 1 => v i) (fun _ => v j) = |v i - v j| from e]

/-- C118: for such samples the bias-corrected functions return zero, whatever the other sample is; in particular the
bias-corrected correlation of the sample with itself is 0, and the t statistic is 0. For all other samples the bias-corrected
correlation with itself is 1. -/
theorem C118_invisible (h : Supported env x y o X Y) (hxx : Supported env x x o X X) (hn : 3 < n) (he : 0 < o.exponent) :
    ((∃ r : Fin n → ℝ, ∀ i j, i ≠ j → Spec.dist o.exponent (X i) (X j) = r i + r j) →
      (uDistanceCovarianceSqr env x y o).out = .ok (.fin 0) ∧ (uDistanceCorrelationSqr env x y o).out = .ok (.fin 0) ∧
      (uDistanceCorrelationSqr env x x o).out = .ok (.fin 0)) ∧
    ((¬ ∃ r : Fin n → ℝ, ∀ i j, i ≠ j → Spec.dist o.exponent (X i) (X j) = r i + r j) →
      (uDistanceCorrelationSqr env x x o).out = .ok (.fin 1)) := by
  constructor
  · rintro ⟨r, hr⟩
    have e : Spec.uCentre (Spec.distMat o.exponent X) = Spec.uCentre fun _ _ => 0 :=
      Spec.uCentre_add_radii (by omega) (fun _ => rfl) (fun i => Spec.dist_self he.ne' (X i)) r fun i j hij => by
        rw [zero_add]; exact hr i j hij
    have h0 : Spec.uCentre (fun _ _ : Fin n => (0 : ℝ)) = fun _ _ => 0 := by
      funext i j; simp [Spec.uCentre]
    have hz : ∀ b, Spec.uDcovSqr (Spec.distMat o.exponent X) b = 0 := by
      intro b
      rw [Spec.uDcovSqr, e, h0]
      simp [Spec.uInner]
    rw [uDistanceCovarianceSqr_ok h hn he.ne', uDistanceCorrelationSqr_ok h hn he.ne', uDistanceCorrelationSqr_ok hxx hn he.ne']
    simp [Spec.uDcorSqr, Spec.ratio, hz]
  · intro hr
    exact C14_u_self_correlation hxx hn he fun e => hr ((C118_zero_variance_iff hxx hn he).1 e)

/-- C118: a rare event. If all observations of the first sample but one are equal, then for every exponent and every second
sample the bias-corrected covariance and correlation are 0, although the distance covariance of the sample with itself is
positive and its distance correlation with itself is 1. -/
theorem C118_rare_event (h : Supported env x y o X Y) (hxx : Supported env x x o X X) (hn : 3 < n) (he : 0 < o.exponent)
    {i : Fin n} {c : Fin p → ℝ} (hi : X i ≠ c) (hc : ∀ j, j ≠ i → X j = c) :
    (uDistanceCovarianceSqr env x y o).out = .ok (.fin 0) ∧ (uDistanceCorrelationSqr env x y o).out = .ok (.fin 0) ∧
    (uDistanceCorrelationSqr env x x o).out = .ok (.fin 0) ∧ (distanceCorrelation env x x o).out = .ok (.fin 1) := by
  obtain ⟨h1, h2, h3⟩ := (C118_invisible h hxx hn he).1 ⟨fun k => Spec.dist o.exponent (X k) c, fun k l hkl => by
    by_cases hk : k = i
    · subst hk
      show _ = Spec.dist o.exponent (X k) c + Spec.dist o.exponent (X l) c
      rw [hc l hkl.symm, Spec.dist_self he.ne', add_zero]
    · show _ = Spec.dist o.exponent (X k) c + Spec.dist o.exponent (X l) c
      rw [hc k hk, Spec.dist_self he.ne', zero_add, Spec.dist_symm]⟩
  obtain ⟨j, hj⟩ : ∃ j : Fin n, j ≠ i := by
    have : Nontrivial (Fin n) := Fin.nontrivial_iff_two_le.2 (by omega)
    exact exists_ne i
  exact ⟨h1, h2, h3, (C14_self_correlation hxx he ⟨i, j, by rwa [hc j hj]⟩).2⟩

/-- C118: the t statistic of such samples is 0. -/
theorem C118_invisible_t_statistic (h : Supported env x y {} X Y) (hxx : Supported env x x {} X X) (hn : 3 < n)
    (hx : x.dtype ≠ .decimal) (hy : y.dtype ≠ .decimal)
    (hr : ∃ r : Fin n → ℝ, ∀ i j, i ≠ j → Spec.dist 1 (X i) (X j) = r i + r j) :
    (distanceCorrelationTStatistic env x y).out = .ok (.fin 0) := by
  unfold distanceCorrelationTStatistic
  rw [PyM.bind_ok ((C118_invisible h hxx hn one_pos).1 hr).2.1, if_neg (by tauto), h.1.shape0,
    tStatistic_inner hn (by rw [abs_zero]; exact one_pos), zero_div, mul_zero]
  rfl

/-- Heights in which the tallest one was entered in the wrong unit: the bias-corrected correlation is the same. -/
example : (uDistanceCorrelationSqr stdEnv (npVec ![1.6, 1.9, 1.7, 1.5, (190 : ℝ)]) (npVec ![3, 1, 4, 1, (5 : ℝ)])
      ⟨1, .enum .auto, .auto⟩).out
    = (uDistanceCorrelationSqr stdEnv (npVec ![1.6, 1.9, 1.7, 1.5, (1.9 : ℝ)]) (npVec ![3, 1, 4, 1, (5 : ℝ)])
      ⟨1, .enum .auto, .auto⟩).out := by
  refine (C118_extreme_irrelevant (supported_vec (by norm_num) _ _ .auto .auto (Or.inl rfl))
    (supported_vec (by norm_num) _ _ .auto .auto (Or.inl rfl)) rfl rfl (by norm_num)
    ⟨4, fun j hj => ?_, Or.inl fun j => ?_⟩).2.1
  · fin_cases j <;> simp_all
  · have e : ∀ c : ℝ, ![1.6, 1.9, 1.7, 1.5, c] 4 = c := fun c => rfl
    rw [e, e]
    fin_cases j <;> constructor <;> norm_num

/-- One success in five trials. -/
example : (uDistanceCorrelationSqr stdEnv (npVec ![0, 0, 1, 0, (0 : ℝ)]) (npVec ![0, 0, 1, 0, (0 : ℝ)])
      ⟨1, .enum .auto, .auto⟩).out = .ok (.fin 0) := by
  refine (C118_rare_event (i := 2) (c := fun _ => 0) (supported_vec (by norm_num) _ ![0, 0, 7, 1, (2 : ℝ)] .auto .auto (Or.inl rfl))
    (supported_vec (by norm_num) _ _ .auto .auto (Or.inl rfl)) (by norm_num) one_pos ?_ fun j hj => ?_).2.2.1
  · intro e
    have : (1 : ℝ) = 0 := congrFun e 0
    norm_num at this
  · fin_cases j <;> simp_all

/-- A sample with a bias-corrected variance that is not 0. -/
example : ¬ (uDistanceCovarianceSqr stdEnv (npVec ![0, 1, 2, (3 : ℝ)]) (npVec ![0, 1, 2, (3 : ℝ)])
      ⟨1, .enum .auto, .auto⟩).out = .ok (.fin 0) := by
  rw [C118_zero_variance_numbers (supported_vec (by norm_num) _ _ .auto .auto (Or.inl rfl)) (by norm_num) rfl]
  rintro ⟨i, j, c, hij, -, -, h⟩
  have h0 : 0 ≠ i → 0 ≠ j → (0 : ℝ) = c := h 0
  have h1 : 1 ≠ i → 1 ≠ j → (1 : ℝ) = c := h 1
  have h2 : 2 ≠ i → 2 ≠ j → (2 : ℝ) = c := h 2
  have h3 : 3 ≠ i → 3 ≠ j → (3 : ℝ) = c := h 3
  clear h
  fin_cases i <;> fin_cases j <;> simp_all <;> linarith

end Dcor.Props

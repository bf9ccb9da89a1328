/-
C116: for scalar samples the statistics compare distribution functions.
-/
import Verif.Proofs.Cdf
import Verif.Proofs.Api
import Verif.Proofs.Energy
import Verif.Props.Energy

namespace Dcor.Props

open Dcor MeasureTheory

variable {env : Env} {x y : Arr} {o : Opts} {eo : EnergyOpts} {n m : ℕ}

theorem scalar_eq (X : Fin n → Fin 1 → ℝ) : X = fun i _ => X i 0 := by
  funext i j
  rw [Subsingleton.elim j 0]

/-- C116: with the default exponent, the squared distance covariance of two samples of numbers is four times the integral
of the squared difference between their joint distribution function and the product of their distribution functions. -/
theorem C116_covariance_integral {X Y : Fin n → Fin 1 → ℝ} (h : Supported env x y o X Y) (hn : 0 < n)
    (he : o.exponent = 1) :
    Integrable (fun z : ℝ × ℝ => (Spec.jointCdf (fun i => X i 0) (fun i => Y i 0) z.1 z.2
        - Spec.ecdf (fun i => X i 0) z.1 * Spec.ecdf (fun i => Y i 0) z.2) ^ 2) ∧
      (distanceCovarianceSqr env x y o).out
        = .ok (.fin (4 * ∫ z : ℝ × ℝ, (Spec.jointCdf (fun i => X i 0) (fun i => Y i 0) z.1 z.2
            - Spec.ecdf (fun i => X i 0) z.1 * Spec.ecdf (fun i => Y i 0) z.2) ^ 2)) := by
  obtain ⟨h1, h2⟩ := Spec.dcovSqr_eq_integral hn (fun i => X i 0) fun i => Y i 0
  refine ⟨h1, ?_⟩
  rw [distanceCovarianceSqr_ok h hn, he, ← h2, ← scalar_eq, ← scalar_eq]

/-- C116: with the default options, the energy distance of two samples of numbers is twice the integral of the squared
difference of their distribution functions (twice Cramér's distance). -/
theorem C116_energy_integral {X : Fin n → Fin 1 → ℝ} {Y : Fin m → Fin 1 → ℝ} (h : EnergyCall x y eo X Y)
    (hs : eo.stat = .enum .v) (hn : 0 < n) (hm : 0 < m) (he : eo.exponent = 1) :
    Integrable (fun t => (Spec.ecdf (fun i => X i 0) t - Spec.ecdf (fun i => Y i 0) t) ^ 2) ∧
      ∃ k, (energyDistance env x y eo).out
        = .ok ⟨.fin (2 * ∫ t, (Spec.ecdf (fun i => X i 0) t - Spec.ecdf (fun i => Y i 0) t) ^ 2), k⟩ := by
  obtain ⟨h1, h2⟩ := Spec.energyV_eq_integral hn hm (fun i => X i 0) fun i => Y i 0
  refine ⟨h1, energyKind x, ?_⟩
  rw [energyDistance_v h (by rw [hs]; rfl) hn hm, he, ← h2, ← scalar_eq, ← scalar_eq]

/-- C116: if the distribution functions differ by at most `D` everywhere (the statistic of Kolmogorov and Smirnov) and the
observations are between `a` and `b`, the energy distance is at most `2 * D ** 2 * (b - a)`. -/
theorem C116_energy_le {X : Fin n → Fin 1 → ℝ} {Y : Fin m → Fin 1 → ℝ} (h : EnergyCall x y eo X Y)
    (hs : eo.stat = .enum .v) (hn : 0 < n) (hm : 0 < m) (he : eo.exponent = 1) {a b D : ℝ}
    (hX : ∀ i, a ≤ X i 0 ∧ X i 0 ≤ b) (hY : ∀ i, a ≤ Y i 0 ∧ Y i 0 ≤ b)
    (hD : ∀ t, |Spec.ecdf (fun i => X i 0) t - Spec.ecdf (fun i => Y i 0) t| ≤ D) :
    ∃ e k, (energyDistance env x y eo).out = .ok ⟨.fin e, k⟩ ∧ e ≤ 2 * D ^ 2 * (b - a) := by
  rw [energyDistance_v h (by rw [hs]; rfl) hn hm, he]
  refine ⟨_, _, rfl, ?_⟩
  rw [scalar_eq X, scalar_eq Y]
  exact Spec.energyV_le_cdf hn hm hX hY hD

/-- C116: if the joint distribution function differs from the product by at most `D` everywhere, the squared distance
covariance is at most `4 * D ** 2` times the product of the ranges. -/
theorem C116_covariance_le {X Y : Fin n → Fin 1 → ℝ} (h : Supported env x y o X Y) (hn : 0 < n) (he : o.exponent = 1)
    {a b c d D : ℝ} (hX : ∀ i, a ≤ X i 0 ∧ X i 0 ≤ b) (hY : ∀ i, c ≤ Y i 0 ∧ Y i 0 ≤ d)
    (hD : ∀ s t, |Spec.jointCdf (fun i => X i 0) (fun i => Y i 0) s t
      - Spec.ecdf (fun i => X i 0) s * Spec.ecdf (fun i => Y i 0) t| ≤ D) :
    ∃ v : ℝ, (distanceCovarianceSqr env x y o).out = .ok (.fin v) ∧ v ≤ 4 * D ^ 2 * ((b - a) * (d - c)) := by
  refine ⟨_, distanceCovarianceSqr_ok h hn, ?_⟩
  rw [he, scalar_eq X, scalar_eq Y]
  exact Spec.dcovSqr_le_cdf hn hX hY hD

/-- C116: the squared distance covariance of numbers is at most a quarter of the product of the ranges. -/
theorem C116_ranges {X Y : Fin n → Fin 1 → ℝ} (h : Supported env x y o X Y) (hn : 0 < n) (he : o.exponent = 1)
    {a b c d : ℝ} (hX : ∀ i, a ≤ X i 0 ∧ X i 0 ≤ b) (hY : ∀ i, c ≤ Y i 0 ∧ Y i 0 ≤ d) :
    ∃ v : ℝ, (distanceCovarianceSqr env x y o).out = .ok (.fin v) ∧ v ≤ (b - a) * (d - c) / 4 := by
  obtain ⟨v, hv, h'⟩ := C116_covariance_le h hn he hX hY fun s t => Spec.abs_jointCdf_sub_le hn _ _ s t
  exact ⟨v, hv, h'.trans (le_of_eq (by ring))⟩

/-- C116: the energy distance of numbers is at most twice the range of the pooled sample. -/
theorem C116_energy_range {X : Fin n → Fin 1 → ℝ} {Y : Fin m → Fin 1 → ℝ} (h : EnergyCall x y eo X Y)
    (hs : eo.stat = .enum .v) (hn : 0 < n) (hm : 0 < m) (he : eo.exponent = 1) {a b : ℝ}
    (hX : ∀ i, a ≤ X i 0 ∧ X i 0 ≤ b) (hY : ∀ i, a ≤ Y i 0 ∧ Y i 0 ≤ b) :
    ∃ e k, (energyDistance env x y eo).out = .ok ⟨.fin e, k⟩ ∧ e ≤ 2 * (b - a) := by
  obtain ⟨e, k, h1, h2⟩ := C116_energy_le (env := env) h hs hn hm he hX hY (D := 1) fun t => by
    rw [abs_le]
    constructor <;> linarith [Spec.ecdf_nonneg (fun i => X i 0) t, Spec.ecdf_le_one (fun i => X i 0) t,
      Spec.ecdf_nonneg (fun i => Y i 0) t, Spec.ecdf_le_one (fun i => Y i 0) t]
  exact ⟨e, k, h1, h2.trans (le_of_eq (by ring))⟩

example := C116_covariance_integral (supported_vec (n := 4) (by norm_num) ![0, 3, 3, (1 : ℝ)] ![0, 6, -6, (2 : ℝ)] .avl
  .auto (Or.inl rfl)) (by norm_num) rfl
example := C116_energy_integral (env := stdEnv) (energyCall_mat ![![0], ![2], ![(1 : ℝ)]] ![![3], ![(1 : ℝ)]] (α := 1)
  (by norm_num) (.enum .v)) rfl (by norm_num) (by norm_num) rfl
example := C116_energy_le (env := stdEnv) (energyCall_mat ![![0], ![1]] ![![0], ![(1 : ℝ)]] (α := 1)
  (by norm_num) (.enum .v)) rfl (by norm_num) (by norm_num) rfl (a := 0) (b := 1) (D := 0)
  (by intro i; fin_cases i <;> simp) (by intro i; fin_cases i <;> simp) (fun t => by rw [sub_self, abs_zero])
example := C116_covariance_le (supported_vec (n := 4) (by norm_num) ![0, 3, 3, (1 : ℝ)] ![0, 6, -6, (2 : ℝ)] .avl
  .auto (Or.inl rfl)) (by norm_num) rfl (a := 0) (b := 3) (c := -6) (d := 6) (D := 1 / 4)
  (by intro i; fin_cases i <;> norm_num) (by intro i; fin_cases i <;> norm_num)
  fun s t => Spec.abs_jointCdf_sub_le (by norm_num) _ _ s t
example := C116_ranges (supported_vec (n := 4) (by norm_num) ![0, 0, 1, (1 : ℝ)] ![5, 5, 7, (7 : ℝ)] .mergesort
  .noCompile (Or.inr rfl)) (by norm_num) rfl (a := 0) (b := 1) (c := 5) (d := 7)
  (by intro i; fin_cases i <;> simp) (by intro i; fin_cases i <;> norm_num)
example := C116_energy_range (env := stdEnv) (energyCall_mat ![![0], ![2], ![(1 : ℝ)]] ![![3], ![(1 : ℝ)]] (α := 1)
  (by norm_num) (.enum .v)) rfl (by norm_num) (by norm_num) rfl (a := 0) (b := 3)
  (by intro i; fin_cases i <;> norm_num) (by intro i; fin_cases i <;> norm_num)

end Dcor.Props

/-
Warnings issued by the naive covariance functions.
-/
import Verif.Proofs.Energy

namespace Dcor

variable {env : Env} {x y : Arr}

theorem PyM.bind_warns {α β : Type} {m : PyM α} {f : α → PyM β} (h : ∀ a, (f a).warns = []) :
    (m >>= f).warns = m.warns := by
  show (PyM.bind m f).warns = _
  unfold PyM.bind
  split <;> simp [h]

theorem PyM.bind_silent {α β : Type} {m : PyM α} {f : α → PyM β} (hm : m.warns = [])
    (h : ∀ a, (f a).warns = []) : (m >>= f).warns = [] := by
  rw [PyM.bind_warns h, hm]

/-- Warnings issued by `_check_valid_dcov_exponent`. -/
noncomputable def dcovWarns (α : ℝ) : List Warn :=
  if 0 < α ∧ α < 2 then [] else [.dcovExponent]

theorem checkValidDcovExponent_eq (α : ℝ) :
    checkValidDcovExponent α = ⟨dcovWarns α, .ok ()⟩ := by
  unfold checkValidDcovExponent dcovWarns
  split_ifs <;> rfl

theorem computeDistances_warns (α : ℝ) :
    (computeDistances env x y α).warns = dcovWarns α := by
  unfold computeDistances
  rw [checkValidDcovExponent_eq]
  refine PyM.bind_warns fun _ => ?_
  refine PyM.bind_silent rfl fun _ => PyM.bind_silent rfl fun _ => ?_
  exact PyM.bind_silent rfl fun _ => PyM.bind_silent rfl fun _ => rfl

theorem dcovTermsNaive_warns (α : ℝ) {cm : CompileMode} (hcm : cm = .auto ∨ cm = .noCompile)
    (r : Bool) : (dcovTermsNaive env x y α cm r).warns = dcovWarns α := by
  unfold dcovTermsNaive
  rw [if_neg (by rcases hcm with h | h <;> simp [h]), ← computeDistances_warns (env := env)]
  refine PyM.bind_warns fun ab => ?_
  dsimp only
  split_ifs <;> rfl

/-- The method is the naive one, or `AUTO` on data for which it chooses the naive one. -/
def UsesNaive (m : Method) (x y : Arr) (α : ℝ) : Prop :=
  m = .naive ∨
    (m = .auto ∧ ¬ (commonNs x.ns y.ns = .numpy ∧ canUseFastAlgorithm x y α = true))

theorem dcovTerms_warns {m : Method} {α : ℝ} (hm : UsesNaive m x y α) {cm : CompileMode}
    (hcm : cm = .auto ∨ cm = .noCompile) (r : Bool) :
    (dcovTerms env m x y α cm r).warns = dcovWarns α := by
  rcases hm with rfl | ⟨rfl, h⟩
  · exact dcovTermsNaive_warns α hcm r
  · show (dcovTermsAuto env x y α cm r).warns = _
    unfold dcovTermsAuto
    rw [if_neg h]
    exact dcovTermsNaive_warns α hcm r

theorem dcovSqr_warns {m : Method} {α : ℝ} (hm : UsesNaive m x y α) {cm : CompileMode}
    (hcm : cm = .auto ∨ cm = .noCompile) (b : Bool) :
    (dcovSqr env m x y α cm b).warns = dcovWarns α := by
  unfold dcovSqr
  rw [PyM.bind_warns fun _ => rfl]
  exact dcovTerms_warns hm hcm _

theorem statsSqr_warns {m : Method} {α : ℝ} (hm : UsesNaive m x y α) {cm : CompileMode}
    (hcm : cm = .auto ∨ cm = .noCompile) (b : Bool) :
    (statsSqr env m x y α cm b).warns = dcovWarns α := by
  unfold statsSqr
  rw [PyM.bind_warns]
  · exact dcovTerms_warns hm hcm _
  · intro t
    dsimp only
    split
    · refine PyM.bind_silent rfl fun _ => PyM.bind_silent rfl fun _ => PyM.bind_silent rfl fun _ => ?_
      split_ifs <;> rfl
    · rfl

end Dcor

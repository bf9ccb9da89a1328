/-
Concrete arguments used by the non-vacuity examples of the property files.
-/
import Verif.Spec.Calls
import Mathlib.Data.Fin.Tuple.Sort

namespace Dcor

/-- `str.upper` on ASCII strings. -/
def asciiUpper (s : String) : String := String.ofList (s.toList.map Char.toUpper)

/-- A concrete environment: stable sorting, NumPy recognised, ASCII upper case. -/
noncomputable def stdEnv : Env where
  argsort := fun _ _ x => Tuple.sort x
  argsort_monotone := fun _ _ x => Tuple.monotone_sort x
  compatIsNp := true
  upper := asciiUpper

/-- NumPy `float64` vector. -/
def npVec {n : ℕ} (v : Fin n → ℝ) : Arr := ⟨.numpy, .float64, .vec n v⟩

/-- NumPy `float64` matrix. -/
def npMat {n p : ℕ} (m : Fin n → Fin p → ℝ) : Arr := ⟨.numpy, .float64, .mat n p m⟩

theorem npVec_holds {n : ℕ} (v : Fin n → ℝ) : Holds (npVec v).data n 1 (fun i _ => v i) :=
  .vec n v

theorem npMat_holds {n p : ℕ} (m : Fin n → Fin p → ℝ) : Holds (npMat m).data n p m :=
  .mat n p m

/-- Two univariate `float64` samples of length at least four are supported by every method and by
every compile mode that is not parallel. -/
theorem supported_vec {n : ℕ} (hn : 3 < n) (v w : Fin n → ℝ) (m : Method) (cm : CompileMode)
    (hcm : cm = .auto ∨ cm = .noCompile) :
    Supported stdEnv (npVec v) (npVec w) ⟨1, .enum m, cm⟩ (fun i (_ : Fin 1) => v i)
      (fun i (_ : Fin 1) => w i) := by
  refine ⟨npVec_holds v, npVec_holds w, m, rfl, ?_⟩
  have h1 : cm ≠ .compileParallel := by rcases hcm with h | h <;> simp [h]
  cases m
  · simp only [CallOk]
    rw [if_pos ⟨trivial, trivial, trivial, hn, Or.inl rfl⟩]
    exact ⟨rfl, rfl, rfl, hn, Or.inl rfl, h1, fun _ => ⟨rfl, rfl⟩, Iff.rfl⟩
  · exact ⟨hcm, fun h => by simp [npVec] at h, zero_le_one, Iff.rfl⟩
  · exact ⟨rfl, rfl, rfl, hn, Or.inl rfl, h1, fun _ => ⟨rfl, rfl⟩, Iff.rfl⟩
  · exact ⟨rfl, rfl, rfl, by omega, Or.inl rfl, h1, fun _ => ⟨rfl, rfl⟩, rfl, rfl,
      fun h => by simp [npVec] at h⟩

/-- Two multivariate `float64` samples are supported by the naive method for every non-negative
exponent. -/
theorem supported_mat {n p q : ℕ} (v : Fin n → Fin p → ℝ) (w : Fin n → Fin q → ℝ) (α : ℝ)
    (hα : 0 ≤ α) :
    Supported stdEnv (npMat v) (npMat w) ⟨α, .enum .naive, .auto⟩ v w :=
  ⟨npMat_holds v, npMat_holds w, .naive, rfl, Or.inl rfl, fun h => by simp [npMat] at h, hα,
    Iff.rfl⟩

end Dcor

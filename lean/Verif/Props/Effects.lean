/-
Properties C53 and C60: the memory effects of the public functions.
-/
import Verif.Proofs.Effects

namespace Dcor.Props

open Effects

/-- C53: whatever the arrays of the user are (they can overlap each other in any way), whichever
branches are taken and whether it returns or raises an exception, no public function changes memory
that existed before the call. -/
theorem C53_inputs_unmodified (f : Cmd) (hf : f ∈ publicFunctions) (σ τ : State) (o : Outcome)
    (he : Exec f σ o τ) : σ.heap.Untouched τ.heap :=
  untouched_of_check ((by decide : ∀ f ∈ publicFunctions, (check f []).isSome) f hf) he

/-- C53, for the square root used by all of them: `_sqrt` called with any array of the caller leaves
that array as it is, and returns new memory. -/
theorem C53_sqrt_leaves_argument (s : Var) (σ τ : State) (o : Outcome)
    (he : Exec (sqrt .result s) σ o τ) :
    σ.heap.Untouched τ.heap ∧ (o = .done → ∀ a ∈ τ.reach .result, σ.heap.next ≤ a) := by
  have h : check (sqrt .result s) [] = some [.result, .xCopy, .xSum] := rfl
  refine ⟨untouched_of_check (by rw [h]; rfl) he, ?_⟩
  rintro rfl
  exact fresh_of_check (by rw [h]; decide) he

/-- C60: when a public function returns, its result is in memory that did not exist before the call:
it does not share memory with the arguments, so storing into one cannot change the other. -/
theorem C60_results_are_fresh (f : Cmd) (hf : f ∈ publicFunctions) (σ τ : State)
    (he : Exec f σ .done τ) (hv : ∀ v, ∀ a ∈ σ.reach v, a < σ.heap.next) :
    ∀ v, Disjoint (σ.reach v) (τ.reach .result) := by
  intro v
  rw [Set.disjoint_left]
  intro a ha ha'
  exact absurd (fresh_of_check
    ((by decide : ∀ f ∈ publicFunctions, (check f []).any (Var.result ∈ ·)) f hf) he a ha')
    (not_le.mpr (hv v a ha))

/-- Execution is possible: `mean_product` of two arrays that share their memory returns. -/
example : ∃ f ∈ publicFunctions, ∃ σ τ : State, σ.reach .x = {0, 1} ∧ σ.reach .y = {0, 1} ∧
    Exec f σ .done τ ∧ τ.reach .result = {2} :=
  ⟨product .result .x, by simp [publicFunctions], ⟨⟨2, fun _ => .fin 1⟩, fun _ => {0, 1}⟩, _, rfl, rfl,
    Exec.alloc .result _ ⟨3, fun c => if c = 2 then .fin 5 else .fin 1⟩ {2} (by decide)
      (fun k hk => by
        have h2 : k ≠ 2 := by rintro rfl; exact absurd hk (by decide)
        exact if_neg h2)
      (fun k hk => by
        have h2 : k = 2 := hk
        subst h2
        exact ⟨le_rfl, by decide⟩),
    rfl⟩

/-- The statements are not vacuous: `_sqrt` without its copy (`x_copy = xp.asarray(x)`) can change the
array of the user. -/
example : ∃ σ τ : State, Exec (asarray .xCopy .x ;; .store .xCopy ;; .alloc .result) σ .raised τ ∧
    ¬ σ.heap.Untouched τ.heap := by
  let h : Heap := ⟨1, fun _ => .fin (-1)⟩
  let h' : Heap := ⟨1, fun c => if c = 0 then .fin 0 else .fin (-1)⟩
  refine ⟨⟨h, fun _ => {0}⟩, ⟨h', fun _ => {0}⟩, Exec.seq (τ := ⟨h, fun _ => {0}⟩) (Exec.left ?_)
    (Exec.seq (τ := ⟨h', fun _ => {0}⟩) ?_ (Exec.raise _ _)), ?_⟩
  · have he := Exec.view .xCopy .x ⟨h, fun _ => {0}⟩ {0} subset_rfl
    simpa using he
  · refine Exec.store .xCopy ⟨h, fun _ => {0}⟩ h' .done rfl fun k hk => ?_
    exact if_neg hk
  · intro hu
    have := hu 0 (by decide)
    simp [h, h'] at this

end Dcor.Props

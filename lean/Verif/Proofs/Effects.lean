/-
A checker for the memory effects and its soundness.
-/
import Verif.Model.Effects
import Verif.Spec.Heap

namespace Dcor.Effects

/-- Variables whose memory was allocated by the program, after a statement; `none` if the statement
may store into other memory. -/
def check : Cmd → List Var → Option (List Var)
  | .skip, O => some O
  | .alloc r, O => some (r :: O)
  | .view r s, O => some (if s ∈ O then r :: O else O.filter (· ≠ r))
  | .store r, O => if r ∈ O then some O else none
  | .seq c d, O => (check c O).bind (check d)
  | .choice c d, O =>
    match check c O, check d O with
    | some P, some Q => some (P.filter (· ∈ Q))
    | _, _ => none
  | .loop c, O =>
    match check c O with
    | some P => if O.all (· ∈ P) then some O else none
    | none => none
  | .attempt c, O => (check c O).map fun _ => []

/-- The memory reachable from the variables in `O` was allocated after `k`. -/
def Owned (k : ℕ) (O : List Var) (σ : State) : Prop := ∀ v ∈ O, ∀ a ∈ σ.reach v, k ≤ a

/-- The cells below `k` are the same. -/
def Same (k : ℕ) (σ τ : State) : Prop :=
  σ.heap.next ≤ τ.heap.next ∧ ∀ a, a < k → τ.heap.cell a = σ.heap.cell a

theorem Same.trans {k : ℕ} {σ τ υ : State} (h₁ : Same k σ τ) (h₂ : Same k τ υ) : Same k σ υ :=
  ⟨h₁.1.trans h₂.1, fun a ha => (h₂.2 a ha).trans (h₁.2 a ha)⟩

theorem check_sound {k : ℕ} {c : Cmd} {σ τ : State} {o : Outcome} (he : Exec c σ o τ) :
    ∀ {O P : List Var}, check c O = some P → k ≤ σ.heap.next → Owned k O σ →
      Same k σ τ ∧ (o = .done → Owned k P τ) := by
  induction he with
  | raise c σ => intro O P _ _ _; exact ⟨⟨le_rfl, fun _ _ => rfl⟩, nofun⟩
  | skip σ =>
    intro O P hP _ hO
    cases hP
    exact ⟨⟨le_rfl, fun _ _ => rfl⟩, fun _ => hO⟩
  | alloc r σ h S hn hc hS =>
    intro O P hP hk hO
    cases hP
    refine ⟨⟨hn, fun a ha => hc a (ha.trans_le hk)⟩, fun _ v hv a ha => ?_⟩
    dsimp only at ha
    by_cases hvr : v = r
    · rw [if_pos hvr] at ha
      exact hk.trans (hS a ha).1
    · rw [if_neg hvr] at ha
      exact hO v ((List.mem_cons.mp hv).resolve_left hvr) a ha
  | view r s σ S hS =>
    intro O P hP hk hO
    cases hP
    refine ⟨⟨le_rfl, fun _ _ => rfl⟩, fun _ v hv a ha => ?_⟩
    dsimp only at ha
    by_cases hs : s ∈ O
    · rw [if_pos hs] at hv
      by_cases hvr : v = r
      · rw [if_pos hvr] at ha
        exact hO s hs a (hS ha)
      · rw [if_neg hvr] at ha
        exact hO v ((List.mem_cons.mp hv).resolve_left hvr) a ha
    · rw [if_neg hs, List.mem_filter] at hv
      have hvr : v ≠ r := by simpa using hv.2
      rw [if_neg hvr] at ha
      exact hO v hv.1 a ha
  | store r σ h o hn hc =>
    intro O P hP hk hO
    unfold check at hP
    split_ifs at hP with hr
    cases hP
    refine ⟨⟨hn.ge, fun a ha => hc a fun h0 => ?_⟩, fun _ => hO⟩
    exact absurd (hO r hr a h0) (not_le.mpr ha)
  | seq h₁ h₂ ih₁ ih₂ =>
    intro O P hP hk hO
    unfold check at hP
    obtain ⟨Q, hQ, hP⟩ := Option.bind_eq_some_iff.mp hP
    obtain ⟨s₁, o₁⟩ := ih₁ hQ hk hO
    obtain ⟨s₂, o₂⟩ := ih₂ hP (hk.trans s₁.1) (o₁ rfl)
    exact ⟨s₁.trans s₂, o₂⟩
  | seqRaise h₁ ih₁ =>
    intro O P hP hk hO
    unfold check at hP
    obtain ⟨Q, hQ, hP⟩ := Option.bind_eq_some_iff.mp hP
    exact ⟨(ih₁ hQ hk hO).1, nofun⟩
  | left h ih =>
    intro O P hP hk hO
    unfold check at hP
    split at hP
    · rename_i A B hA hB
      cases hP
      obtain ⟨s, own⟩ := ih hA hk hO
      exact ⟨s, fun hd v hv => own hd v (List.mem_filter.mp hv).1⟩
    · cases hP
  | right h ih =>
    intro O P hP hk hO
    unfold check at hP
    split at hP
    · rename_i A B hA hB
      cases hP
      obtain ⟨s, own⟩ := ih hB hk hO
      exact ⟨s, fun hd v hv => own hd v (by simpa using (List.mem_filter.mp hv).2)⟩
    · cases hP
  | loopDone c σ =>
    intro O P hP hk hO
    unfold check at hP
    split at hP
    · split_ifs at hP
      cases hP
      exact ⟨⟨le_rfl, fun _ _ => rfl⟩, fun _ => hO⟩
    · cases hP
  | loopStep h₁ h₂ ih₁ ih₂ =>
    intro O P hP hk hO
    have hP' := hP
    unfold check at hP
    split at hP
    · rename_i A hA
      split_ifs at hP with hall
      cases hP
      obtain ⟨s₁, o₁⟩ := ih₁ hA hk hO
      have hO' : Owned k O _ := fun v hv => o₁ rfl v (by
        have := List.all_eq_true.mp hall v hv
        simpa using this)
      obtain ⟨s₂, o₂⟩ := ih₂ hP' (hk.trans s₁.1) hO'
      exact ⟨s₁.trans s₂, o₂⟩
    · cases hP
  | loopRaise h₁ ih₁ =>
    intro O P hP hk hO
    unfold check at hP
    split at hP
    · rename_i A hA
      exact ⟨(ih₁ hA hk hO).1, nofun⟩
    · cases hP
  | attempt h ih =>
    intro O P hP hk hO
    unfold check at hP
    obtain ⟨Q, hQ, hP⟩ := Option.map_eq_some_iff.mp hP
    subst hP
    exact ⟨(ih hQ hk hO).1, fun _ v hv => by cases hv⟩

/-- A program accepted by the checker changes no memory that existed before. -/
theorem untouched_of_check {c : Cmd} (h : (check c []).isSome) {σ τ : State} {o : Outcome}
    (he : Exec c σ o τ) : σ.heap.Untouched τ.heap := by
  obtain ⟨P, hP⟩ := Option.isSome_iff_exists.mp h
  exact (check_sound (k := σ.heap.next) he hP le_rfl (fun v hv => by cases hv)).1.2

/-- A program for which the checker finds that `r` is in new memory leaves it there. -/
theorem fresh_of_check {c : Cmd} {r : Var} (h : (check c []).any (r ∈ ·)) {σ τ : State}
    (he : Exec c σ .done τ) : ∀ a ∈ τ.reach r, σ.heap.next ≤ a := by
  cases hP : check c [] with
  | none => rw [hP] at h; cases h
  | some P =>
    rw [hP] at h
    exact (check_sound (k := σ.heap.next) he hP le_rfl (fun v hv => by cases hv)).2 rfl r
      (by simpa using h)

end Dcor.Effects

/-
An arithmetic that is exact on small integers computes the sums of the definition without rounding.
-/
import Verif.Proofs.Exact

namespace Dcor

/-- Operations between integers are exact as long as the results do not exceed `M` in absolute value; sums and
scalar products are exact if the absolute values of their terms add up to at most `M`. -/
structure Arith.IntExact {R : Type} (A : Arith R) (M : ℤ) : Prop where
  add : ∀ a b : ℤ, |a| ≤ M → |b| ≤ M → |a + b| ≤ M → A.add (A.ofInt a) (A.ofInt b) = A.ofInt (a + b)
  sub : ∀ a b : ℤ, |a| ≤ M → |b| ≤ M → |a - b| ≤ M → A.sub (A.ofInt a) (A.ofInt b) = A.ofInt (a - b)
  mul : ∀ a b : ℤ, |a| ≤ M → |b| ≤ M → |a * b| ≤ M → A.mul (A.ofInt a) (A.ofInt b) = A.ofInt (a * b)
  sum : ∀ l : List ℤ, (l.map fun a => |a|).sum ≤ M → A.sum (l.map A.ofInt) = A.ofInt l.sum
  dot : ∀ l : List (ℤ × ℤ), (∀ p ∈ l, |p.1| ≤ M ∧ |p.2| ≤ M) → (l.map fun p => |p.1 * p.2|).sum ≤ M →
    A.dot (l.map fun p => (A.ofInt p.1, A.ofInt p.2)) = A.ofInt (l.map fun p => p.1 * p.2).sum
  sqrt : ∀ a : ℤ, a * a ≤ M → A.sqrt (A.ofInt (a * a)) = A.ofInt |a|

variable {R : Type} {A : Arith R} {M : ℤ} {n : ℕ}

theorem abs_sum_le_of {ι : Type} (T s : Finset ι) (hT : T ⊆ s) (v : ι → ℤ) : |∑ i ∈ T, v i| ≤ ∑ i ∈ s, |v i| :=
  (Finset.abs_sum_le_sum_abs v T).trans (Finset.sum_le_sum_of_subset_of_nonneg hT fun _ _ _ => abs_nonneg _)

theorem abs_le_sum {ι : Type} [Fintype ι] (v : ι → ℤ) (i : ι) : |v i| ≤ ∑ j, |v j| :=
  Finset.single_le_sum (f := fun j => |v j|) (fun _ _ => abs_nonneg _) (Finset.mem_univ i)

namespace Arith.IntExact

variable (h : A.IntExact M)

include h

theorem vsum {m : ℕ} (v : Fin m → ℤ) (hv : ∑ i, |v i| ≤ M) : A.vsum (fun i => A.ofInt (v i)) = A.ofInt (∑ i, v i) := by
  have := h.sum (List.ofFn v) (by rw [List.map_ofFn, List.sum_ofFn]; exact hv)
  rw [List.map_ofFn, List.sum_ofFn] at this
  exact this

theorem vdot {m : ℕ} (v w : Fin m → ℤ) (hv : ∀ i, |v i| ≤ M) (hw : ∀ i, |w i| ≤ M)
    (hvw : ∑ i, |v i * w i| ≤ M) :
    A.vdot (fun i => A.ofInt (v i)) (fun i => A.ofInt (w i)) = A.ofInt (∑ i, v i * w i) := by
  have := h.dot (List.ofFn fun i => (v i, w i)) (by
    intro p hp
    obtain ⟨i, rfl⟩ := List.mem_ofFn.1 hp
    exact ⟨hv i, hw i⟩) (by rw [List.map_ofFn, List.sum_ofFn]; exact hvw)
  rw [List.map_ofFn, List.map_ofFn, List.sum_ofFn] at this
  exact this

theorem embeds : A.Embeds A.ofInt (fun a => |a| ≤ M) := ⟨rfl, h.add, h.sub⟩

theorem cumsum {m : ℕ} (v : Fin m → ℤ) (hv : ∑ i, |v i| ≤ M) (k : Fin m) :
    A.cumsum (fun i => A.ofInt (v i)) k = A.ofInt (Dcor.cumsum v k) := by
  have := Arith.cumsum_emb h.embeds v (fun T => (abs_sum_le_of T Finset.univ (Finset.subset_univ _) v).trans hv) k k.2
  rw [Arith.cumsum, this, cumsum_eq_ite, Finset.sum_filter]
  congr 1
  apply Finset.sum_congr rfl
  intro j _
  simp only [Fin.le_def, Nat.lt_succ_iff]

theorem imul (k a : ℤ) (h1 : |k| ≤ M) (h2 : |a| ≤ M) (h3 : |k * a| ≤ M) : A.imul k (A.ofInt a) = A.ofInt (k * a) :=
  h.mul k a h1 h2 h3

end Arith.IntExact

theorem cumsum_abs_le {m : ℕ} (v : Fin m → ℤ) (k : Fin m) : |cumsum v k| ≤ ∑ i, |v i| := by
  rw [cumsum_eq_ite, ← Finset.sum_filter]
  exact abs_sum_le_of _ _ (Finset.subset_univ _) v

theorem sum_abs_perm {m : ℕ} (π : Equiv.Perm (Fin m)) (v : Fin m → ℤ) : ∑ i, |v (π i)| = ∑ i, |v i| :=
  Equiv.sum_comp π fun i => |v i|

theorem gammaSpec_abs_le {m : ℕ} (y : Fin m → ℤ) (c : Fin m → ℤ) (i : Fin m) : |gammaSpec y c i| ≤ ∑ j, |c j| := by
  rw [gammaSpec, ← Finset.sum_filter]
  exact abs_sum_le_of _ _ (Finset.subset_univ _) c

/-- The inner loop is exact. -/
theorem Arith.IntExact.dyad (h : A.IntExact M) {L : ℕ} (compiled : Bool) (y : Fin n → ℤ)
    (hy : ∀ i, 1 ≤ y i ∧ y i ≤ 2 ^ L) (c : Fin n → ℤ) (hc : ∑ i, |c i| ≤ M) (s : Fin (2 ^ (L + 1)) → R) :
    (if compiled then A.dyadUpdateCompiled y (fun i => A.ofInt (c i)) (fun _ => A.ofInt 0) L s (posSums L)
        else A.dyadUpdate y (fun i => A.ofInt (c i)) (fun _ => A.ofInt 0) L s (posSums L))
      = .ok fun i => A.ofInt (gammaSpec y c i) := by
  have hrel : A.AddRel (monoidArith (ℤ × ℤ)) (fun r z => |z.1| ≤ z.2 ∧ (z.2 ≤ M → r = A.ofInt z.1)) := by
    refine ⟨⟨by simp [monoidArith], fun _ => rfl⟩, ?_, ?_⟩
    · rintro a b ⟨z, β⟩ ⟨w, γ⟩ ⟨hz, ha⟩ ⟨hw, hb⟩
      show |z + w| ≤ β + γ ∧ (β + γ ≤ M → _)
      have h1 : |z + w| ≤ β + γ := (abs_add_le _ _).trans (add_le_add hz hw)
      refine ⟨h1, fun hM => ?_⟩
      have := abs_nonneg z
      have := abs_nonneg w
      dsimp only at hz hw ha hb
      rw [ha (by omega), hb (by omega)]
      exact h.add _ _ (by omega) (by omega) (by omega)
    · intro l l' hl
      show |l'.sum.1| ≤ l'.sum.2 ∧ (l'.sum.2 ≤ M → A.sum l = A.ofInt l'.sum.1)
      have key : (l'.map fun p => |p.1|).sum ≤ l'.sum.2 ∧ |l'.sum.1| ≤ l'.sum.2 ∧
          (l'.sum.2 ≤ M → l = l'.map fun p => A.ofInt p.1) ∧ 0 ≤ l'.sum.2 := by
        induction hl with
        | nil => simp
        | @cons r z l l' hr hl ih =>
          obtain ⟨i1, i2, i3, i4⟩ := ih
          have := abs_nonneg z.1
          have h2 := hr.1
          simp only [List.map_cons, List.sum_cons, Prod.snd_add, Prod.fst_add]
          refine ⟨by omega, (abs_add_le _ _).trans (by omega), fun hM => ?_, by omega⟩
          rw [hr.2 (by omega), i3 (by omega)]
      obtain ⟨k1, k2, k3, k4⟩ := key
      refine ⟨k2, fun hM => ?_⟩
      rw [k3 hM]
      have e1 : (l'.map fun p => A.ofInt p.1) = (l'.map Prod.fst).map A.ofInt := by simp
      have e2 : (l'.map Prod.fst).sum = l'.sum.1 := (map_list_sum (AddMonoidHom.fst ℤ ℤ) l').symm
      rw [e1, h.sum _ (by rw [List.map_map]; exact k1.trans hM), e2]
  obtain ⟨g, e, hg⟩ := dyad_rel hrel compiled y hy (fun i => A.ofInt (c i)) (fun i => (c i, |c i|))
    (fun i => ⟨le_rfl, fun _ => rfl⟩) s
  rw [e]
  congr 1
  funext i
  have h1 : (gammaSpec y (fun i => (c i, |c i|)) i).1 = gammaSpec y c i := by
    unfold gammaSpec
    rw [Prod.fst_sum]
    exact Finset.sum_congr rfl fun j _ => by split_ifs <;> rfl
  have h2 : (gammaSpec y (fun i => (c i, |c i|)) i).2 ≤ ∑ j, |c j| := by
    unfold gammaSpec
    rw [Prod.snd_sum]
    exact Finset.sum_le_sum fun j _ => by split_ifs <;> simp
  rw [← h1]
  exact (hg i).2 (h2.trans hc)

theorem abs_bounds {a C : ℤ} (h : |a| ≤ C) : -C ≤ a ∧ a ≤ C := abs_le.1 h

/-- `_partial_sum_2d` is exact. -/
theorem Arith.IntExact.partShape (h : A.IntExact M) (σ τ : Equiv.Perm (Fin n)) (c : Fin n → ℤ)
    (hM : 4 ≤ M) (hc : 14 * ∑ i, |c i| ≤ M) (i : Fin n) :
    A.partShape σ τ (fun i => A.ofInt (c i)) (fun i => A.ofInt (gammaSpec (rankOf τ) c i)) i
      = A.ofInt (∑ q, if q = σ.symm i then 0
          else sgnLt q (σ.symm i) * sgnLt (τ.symm q) (τ.symm (σ.symm i)) * c q) := by
  have e := partial_closed τ c (σ.symm i)
  rw [show (fun i => (((τ.symm i : Fin n) : ℕ) : ℤ) + 1) = rankOf τ from rfl] at e
  rw [← e]
  unfold Arith.partShape
  dsimp only
  generalize σ.symm i = r at *
  have hC : 0 ≤ ∑ i, |c i| := Finset.sum_nonneg fun _ _ => abs_nonneg _
  have hp : ∑ i, |c (τ i)| = ∑ i, |c i| := sum_abs_perm τ c
  have b1 := abs_bounds (abs_sum_le_of Finset.univ Finset.univ le_rfl c)
  have b2 := abs_bounds (abs_le_sum c r)
  have b3 := abs_bounds (abs_le_sum c (τ (τ.symm r)))
  have b4 := abs_bounds ((cumsum_abs_le (fun j => c (τ j)) (τ.symm r)).trans hp.le)
  have b5 := abs_bounds (cumsum_abs_le c r)
  have b6 := abs_bounds (gammaSpec_abs_le (rankOf τ) c r)
  rw [h.vsum c (by omega), h.cumsum c (by omega), h.cumsum (fun k => c (τ k)) (by omega)]
  generalize (∑ i, |c i|) = C at *
  generalize (∑ i, c i) = S at *
  generalize Dcor.cumsum (fun j => c (τ j)) (τ.symm r) = P at *
  generalize Dcor.cumsum c r = Q at *
  generalize gammaSpec (rankOf τ) c r = G at *
  generalize c (τ (τ.symm r)) = c2 at *
  generalize c r = c1 at *
  clear hp e
  have ab : ∀ a : ℤ, -M ≤ a → a ≤ M → |a| ≤ M := fun a h1 h2 => abs_le.2 ⟨h1, h2⟩
  rw [h.sub S c1 (ab _ (by omega) (by omega)) (ab _ (by omega) (by omega)) (ab _ (by omega) (by omega)),
    h.sub P c2 (ab _ (by omega) (by omega)) (ab _ (by omega) (by omega)) (ab _ (by omega) (by omega)),
    h.sub Q c1 (ab _ (by omega) (by omega)) (ab _ (by omega) (by omega)) (ab _ (by omega) (by omega)),
    h.imul 2 (P - c2) (ab _ (by omega) (by omega)) (ab _ (by omega) (by omega)) (ab _ (by omega) (by omega)),
    h.imul 2 (Q - c1) (ab _ (by omega) (by omega)) (ab _ (by omega) (by omega)) (ab _ (by omega) (by omega)),
    h.imul 4 G (ab _ (by omega) (by omega)) (ab _ (by omega) (by omega)) (ab _ (by omega) (by omega)),
    h.sub (S - c1) (2 * (P - c2)) (ab _ (by omega) (by omega)) (ab _ (by omega) (by omega))
      (ab _ (by omega) (by omega)),
    h.sub (S - c1 - 2 * (P - c2)) (2 * (Q - c1)) (ab _ (by omega) (by omega)) (ab _ (by omega) (by omega))
      (ab _ (by omega) (by omega)),
    h.add (S - c1 - 2 * (P - c2) - 2 * (Q - c1)) (4 * G) (ab _ (by omega) (by omega)) (ab _ (by omega) (by omega))
      (ab _ (by omega) (by omega))]

theorem sum_abs_le {m : ℕ} {v : Fin m → ℤ} {X : ℤ} (hv : ∀ i, |v i| ≤ X) : ∑ i, |v i| ≤ m * X := by
  have := Finset.sum_le_sum (s := Finset.univ) fun (i : Fin m) _ => hv i
  simpa using this

theorem abs_mul_le {a b P Q : ℤ} (ha : |a| ≤ P) (hb : |b| ≤ Q) : |a * b| ≤ P * Q := by
  rw [abs_mul]
  exact mul_le_mul ha hb (abs_nonneg _) ((abs_nonneg _).trans ha)

theorem cumsum_sub_abs_le {m : ℕ} (v : Fin m → ℤ) (k : Fin m) : |cumsum v k - v k| ≤ ∑ i, |v i| := by
  rw [cumsum_sub_self, ← Finset.sum_filter]
  exact abs_sum_le_of _ _ (Finset.subset_univ _) v

theorem rank_bounds (σ : Equiv.Perm (Fin n)) (i : Fin n) :
    (0 : ℤ) ≤ ((σ.symm i : Fin n) : ℕ) ∧ (((σ.symm i : Fin n) : ℕ) : ℤ) ≤ n :=
  ⟨by positivity, by exact_mod_cast (σ.symm i).2.le⟩

/-- The row sums are exact. -/
theorem Arith.IntExact.axisShape (h : A.IntExact M) (σ : Equiv.Perm (Fin n)) (x : Fin n → ℤ) {X : ℤ}
    (hX : 1 ≤ X) (hx : ∀ i, |x i| ≤ X) (hM : 4 * (n * X) ≤ M) (i : Fin n) :
    A.axisShape σ (fun i => A.ofInt (x i)) i = A.ofInt (∑ q, sgnLt q (σ.symm i) * (x i - x (σ q))) := by
  rw [← axis_eq σ x i]
  have hn : (1 : ℤ) ≤ n := by exact_mod_cast i.pos
  have hnX : (n : ℤ) ≤ n * X := le_mul_of_one_le_right (by omega) hX
  have hXn : X ≤ n * X := le_mul_of_one_le_left (by omega) hn
  have hC : ∑ i, |x i| ≤ n * X := sum_abs_le hx
  have hp : ∑ k, |x (σ k)| = ∑ i, |x i| := sum_abs_perm σ x
  have hk := rank_bounds σ i
  have b1 := abs_bounds ((abs_sum_le_of Finset.univ Finset.univ le_rfl x).trans hC)
  have b2 := abs_bounds (hx i)
  have b3 := abs_bounds (hx (σ (σ.symm i)))
  have b4 := abs_bounds ((cumsum_abs_le (fun k => x (σ k)) (σ.symm i)).trans (hp.le.trans hC))
  have b5 := abs_bounds ((cumsum_sub_abs_le (fun k => x (σ k)) (σ.symm i)).trans (hp.le.trans hC))
  have b6 := abs_bounds (abs_mul_le (P := n) (a := 2 * (((σ.symm i : Fin n) : ℕ) : ℤ) - n)
    (abs_le.2 ⟨by omega, by omega⟩) (hx i))
  have hB := hM
  unfold Arith.axisShape
  rw [h.vsum x (by omega), h.cumsum (fun k => x (σ k)) (by omega)]
  have ab : ∀ a : ℤ, -M ≤ a → a ≤ M → |a| ≤ M := fun a h1 h2 => abs_le.2 ⟨h1, h2⟩
  generalize (n : ℤ) * X = N at *
  generalize Dcor.cumsum (fun k => x (σ k)) (σ.symm i) = P at *
  generalize (∑ i, x i) = S at *
  rw [h.sub P _ (ab _ (by omega) (by omega)) (ab _ (by omega) (by omega)) (ab _ (by omega) (by omega)),
    h.imul 2 _ (ab _ (by omega) (by omega)) (ab _ (by omega) (by omega)) (ab _ (by omega) (by omega)),
    h.imul _ (x i) (ab _ (by omega) (by omega)) (ab _ (by omega) (by omega)) (ab _ (by omega) (by omega)),
    h.add S _ (ab _ (by omega) (by omega)) (ab _ (by omega) (by omega)) (ab _ (by omega) (by omega)),
    h.sub _ _ (ab _ (by omega) (by omega)) (ab _ (by omega) (by omega)) (ab _ (by omega) (by omega))]

/-- The total sum is exact. -/
theorem Arith.IntExact.totalShape (h : A.IntExact M) (σ : Equiv.Perm (Fin n)) (x : Fin n → ℤ) {X : ℤ}
    (hn : 0 < n) (hX : 1 ≤ X) (hx : ∀ i, |x i| ≤ X) (hM : 4 * (n * (n * X)) ≤ M) :
    A.totalShape σ (fun i => A.ofInt (x i)) = A.ofInt (∑ i, ∑ q, sgnLt q (σ.symm i) * (x i - x (σ q))) := by
  rw [← total_eq σ x]
  have hn : (1 : ℤ) ≤ n := by exact_mod_cast hn
  have hnX : (n : ℤ) ≤ n * X := le_mul_of_one_le_right (by omega) hX
  have hXn : X ≤ n * X := le_mul_of_one_le_left (by omega) hn
  have hNn : n * X ≤ n * (n * X) := le_mul_of_one_le_left (by omega) hn
  have hC : ∑ i, |x i| ≤ n * X := sum_abs_le hx
  have hp : ∑ k, |x (σ k)| = ∑ i, |x i| := sum_abs_perm σ x
  have ab : ∀ a : ℤ, -M ≤ a → a ≤ M → |a| ≤ M := fun a h1 h2 => abs_le.2 ⟨h1, h2⟩
  have c1 : ∀ i, |(((σ.symm i : Fin n) : ℕ) : ℤ) * x i| ≤ n * X := fun i =>
    abs_mul_le (abs_le.2 ⟨by have := rank_bounds σ i; omega, (rank_bounds σ i).2⟩) (hx i)
  have c2 : ∀ i, |Dcor.cumsum (fun k => x (σ k)) (σ.symm i) - x (σ (σ.symm i))| ≤ n * X := fun i =>
    (cumsum_sub_abs_le (fun k => x (σ k)) (σ.symm i)).trans (hp.le.trans hC)
  have e1 : ∀ i, A.imul (((σ.symm i : Fin n) : ℕ) : ℤ) (A.ofInt (x i))
      = A.ofInt ((((σ.symm i : Fin n) : ℕ) : ℤ) * x i) := fun i => by
    have := rank_bounds σ i
    have b2 := abs_bounds (hx i)
    have b1 := abs_bounds (c1 i)
    exact h.imul _ _ (ab _ (by omega) (by omega)) (ab _ (by omega) (by omega)) (ab _ (by omega) (by omega))
  have e2 : ∀ i, A.sub (A.cumsum (fun k => A.ofInt (x (σ k))) (σ.symm i)) (A.ofInt (x (σ (σ.symm i))))
      = A.ofInt (Dcor.cumsum (fun k => x (σ k)) (σ.symm i) - x (σ (σ.symm i))) := fun i => by
    have b1 := abs_bounds (c2 i)
    have b2 := abs_bounds (hx (σ (σ.symm i)))
    have b4 := abs_bounds ((cumsum_abs_le (fun k => x (σ k)) (σ.symm i)).trans (hp.le.trans hC))
    rw [h.cumsum (fun k => x (σ k)) (by omega)]
    exact h.sub _ _ (ab _ (by omega) (by omega)) (ab _ (by omega) (by omega)) (ab _ (by omega) (by omega))
  unfold Arith.totalShape
  simp only [e1, e2]
  have s1 := sum_abs_le c1
  have s2 := sum_abs_le c2
  rw [h.vsum _ (by omega), h.vsum _ (by omega)]
  have b1 := abs_bounds ((Finset.abs_sum_le_sum_abs (fun i => (((σ.symm i : Fin n) : ℕ) : ℤ) * x i) Finset.univ).trans s1)
  have b2 := abs_bounds ((Finset.abs_sum_le_sum_abs
    (fun i => Dcor.cumsum (fun k => x (σ k)) (σ.symm i) - x (σ (σ.symm i))) Finset.univ).trans s2)
  rw [h.imul 2 _ (ab _ (by omega) (by omega)) (ab _ (by omega) (by omega)) (ab _ (by omega) (by omega)),
    h.imul 2 _ (ab _ (by omega) (by omega)) (ab _ (by omega) (by omega)) (ab _ (by omega) (by omega)),
    h.sub _ _ (ab _ (by omega) (by omega)) (ab _ (by omega) (by omega)) (ab _ (by omega) (by omega))]

theorem signed_sum_abs_le (σ τ : Equiv.Perm (Fin n)) (c : Fin n → ℤ) (i : Fin n) :
    |∑ q, if q = σ.symm i then 0 else sgnLt q (σ.symm i) * sgnLt (τ.symm q) (τ.symm (σ.symm i)) * c q|
      ≤ ∑ q, |c q| := by
  refine (Finset.abs_sum_le_sum_abs _ _).trans (Finset.sum_le_sum fun q _ => ?_)
  split_ifs
  · simp
  · unfold sgnLt
    split_ifs <;> simp

/-- The sum of products is exact. -/
theorem Arith.IntExact.prodShape (h : A.IntExact M) (σ τ : Equiv.Perm (Fin n)) (D : (Fin n → R) → Fin n → R)
    (hD : ∀ c : Fin n → ℤ, ∑ i, |c i| ≤ M → D (fun i => A.ofInt (c i)) = fun i => A.ofInt (gammaSpec (rankOf τ) c i))
    (x y : Fin n → ℤ) {X Y : ℤ} (hn : 3 < n) (hX : 1 ≤ X) (hY : 1 ≤ Y) (hx : ∀ i, |x i| ≤ X) (hy : ∀ i, |y i| ≤ Y)
    (hM : 4 * (n * (n * (X * Y))) ≤ M) :
    A.prodShape σ τ D (fun i => A.ofInt (x i)) (fun i => A.ofInt (y i))
      = A.ofInt (∑ r, ∑ q, sgnLt q r * sgnLt (τ.symm q) (τ.symm r)
          * ((x (σ r) - x (σ q)) * (y (σ r) - y (σ q)))) := by
  have hn : (4 : ℤ) ≤ n := by exact_mod_cast hn
  have hXY : X ≤ X * Y := le_mul_of_one_le_right (by omega) hY
  have hYX : Y ≤ X * Y := le_mul_of_one_le_left (by omega) hX
  have hN : X * Y ≤ n * (X * Y) := le_mul_of_one_le_left (by omega) (by omega)
  have hNN : 4 * (n * (X * Y)) ≤ n * (n * (X * Y)) := mul_le_mul_of_nonneg_right hn (by omega)
  have hnN : (n : ℤ) ≤ n * (X * Y) := le_mul_of_one_le_right (by omega) (by omega)
  have hNX : (n : ℤ) * X ≤ n * (X * Y) := mul_le_mul_of_nonneg_left hXY (by omega)
  have hNY : (n : ℤ) * Y ≤ n * (X * Y) := mul_le_mul_of_nonneg_left hYX (by omega)
  have ab : ∀ a : ℤ, -M ≤ a → a ≤ M → |a| ≤ M := fun a h1 h2 => abs_le.2 ⟨h1, h2⟩
  have part : ∀ (c : Fin n → ℤ) (C : ℤ), (∀ i, |c i| ≤ C) → n * C ≤ n * (X * Y) → ∀ i,
      A.partShape σ τ (fun i => A.ofInt (c i)) (D fun i => A.ofInt (c i)) i
        = A.ofInt (∑ q, if q = σ.symm i then 0
          else sgnLt q (σ.symm i) * sgnLt (τ.symm q) (τ.symm (σ.symm i)) * c q) ∧
      |∑ q, if q = σ.symm i then 0 else sgnLt q (σ.symm i) * sgnLt (τ.symm q) (τ.symm (σ.symm i)) * c q| ≤ n * C := by
    intro c C hc hC i
    have hs := sum_abs_le hc
    refine ⟨?_, (signed_sum_abs_le σ τ c i).trans hs⟩
    have := hs.trans hC
    rw [hD c (by omega)]
    exact h.partShape σ τ c (by omega) (by omega) i
  have cxy : ∀ i, |x (σ i) * y (σ i)| ≤ X * Y := fun i => abs_mul_le (hx _) (hy _)
  have exy : ∀ i, A.mul (A.ofInt (x i)) (A.ofInt (y i)) = A.ofInt (x i * y i) := fun i => by
    have b1 := abs_bounds (hx i)
    have b2 := abs_bounds (hy i)
    have b3 := abs_bounds (abs_mul_le (hx i) (hy i))
    exact h.mul _ _ (ab _ (by omega) (by omega)) (ab _ (by omega) (by omega)) (ab _ (by omega) (by omega))
  unfold Arith.prodShape
  dsimp only
  simp only [exy]
  have p1 := part (fun _ => 1) 1 (by simp) (by omega)
  have px := part (fun k => x (σ k)) X (fun i => hx _) hNX
  have py := part (fun k => y (σ k)) Y (fun i => hy _) hNY
  have pxy := part (fun k => x (σ k) * y (σ k)) (X * Y) cxy le_rfl
  have key : ∀ i, A.sub (A.sub (A.add (A.mul (A.ofInt (x i * y i))
      (A.partShape σ τ (fun _ => A.ofInt 1) (D fun _ => A.ofInt 1) i))
      (A.partShape σ τ (fun k => A.ofInt (x (σ k) * y (σ k))) (D fun k => A.ofInt (x (σ k) * y (σ k))) i))
      (A.mul (A.ofInt (x i)) (A.partShape σ τ (fun k => A.ofInt (y (σ k))) (D fun k => A.ofInt (y (σ k))) i)))
      (A.mul (A.ofInt (y i)) (A.partShape σ τ (fun k => A.ofInt (x (σ k))) (D fun k => A.ofInt (x (σ k))) i))
      = A.ofInt (∑ q, sgnLt q (σ.symm i) * sgnLt (τ.symm q) (τ.symm (σ.symm i))
          * ((x i - x (σ q)) * (y i - y (σ q)))) ∧
      |∑ q, sgnLt q (σ.symm i) * sgnLt (τ.symm q) (τ.symm (σ.symm i))
          * ((x i - x (σ q)) * (y i - y (σ q)))| ≤ 4 * (n * (X * Y)) := by
    intro i
    have e : ∑ q, sgnLt q (σ.symm i) * sgnLt (τ.symm q) (τ.symm (σ.symm i))
          * ((x i - x (σ q)) * (y i - y (σ q)))
        = x i * y i * (∑ q, if q = σ.symm i then 0
            else sgnLt q (σ.symm i) * sgnLt (τ.symm q) (τ.symm (σ.symm i)) * 1)
          + (∑ q, if q = σ.symm i then 0
            else sgnLt q (σ.symm i) * sgnLt (τ.symm q) (τ.symm (σ.symm i)) * (x (σ q) * y (σ q)))
          - x i * (∑ q, if q = σ.symm i then 0
            else sgnLt q (σ.symm i) * sgnLt (τ.symm q) (τ.symm (σ.symm i)) * y (σ q))
          - y i * (∑ q, if q = σ.symm i then 0
            else sgnLt q (σ.symm i) * sgnLt (τ.symm q) (τ.symm (σ.symm i)) * x (σ q)) := by
      rw [Finset.mul_sum, Finset.mul_sum, Finset.mul_sum, ← Finset.sum_add_distrib,
        ← Finset.sum_sub_distrib, ← Finset.sum_sub_distrib]
      apply Finset.sum_congr rfl
      intro q _
      by_cases hq : q = σ.symm i
      · subst hq; simp
      · simp only [hq, if_false]; ring
    rw [(p1 i).1, (px i).1, (py i).1, (pxy i).1, e]
    have q1 := (p1 i).2
    have qx := (px i).2
    have qy := (py i).2
    have qxy := (pxy i).2
    clear e p1 px py pxy part
    generalize (∑ q, if q = σ.symm i then (0 : ℤ) else sgnLt q (σ.symm i) * sgnLt (τ.symm q) (τ.symm (σ.symm i)) * 1)
      = g1 at *
    generalize (∑ q, if q = σ.symm i then (0 : ℤ) else sgnLt q (σ.symm i) * sgnLt (τ.symm q) (τ.symm (σ.symm i))
      * (x (σ q) * y (σ q))) = gxy at *
    generalize (∑ q, if q = σ.symm i then (0 : ℤ) else sgnLt q (σ.symm i) * sgnLt (τ.symm q) (τ.symm (σ.symm i))
      * y (σ q)) = gy at *
    generalize (∑ q, if q = σ.symm i then (0 : ℤ) else sgnLt q (σ.symm i) * sgnLt (τ.symm q) (τ.symm (σ.symm i))
      * x (σ q)) = gx at *
    have b1 := abs_bounds (abs_mul_le (hx i) (hy i))
    have b2 := abs_bounds q1
    have b3 := abs_bounds (show |x i * y i * g1| ≤ n * (X * Y) by
      have := abs_mul_le (abs_mul_le (hx i) (hy i)) q1
      rw [mul_one, mul_comm (X * Y)] at this
      exact this)
    have b4 := abs_bounds qxy
    have b5 := abs_bounds (hx i)
    have b6 := abs_bounds (hy i)
    have b7 := abs_bounds (show |x i * gy| ≤ n * (X * Y) by
      have := abs_mul_le (hx i) qy
      rw [show X * (n * Y) = n * (X * Y) by ring] at this
      exact this)
    have b8 := abs_bounds (show |y i * gx| ≤ n * (X * Y) by
      have := abs_mul_le (hy i) qx
      rw [show Y * (n * X) = n * (X * Y) by ring] at this
      exact this)
    have b9 := abs_bounds (qx.trans hNX)
    have b10 := abs_bounds (qy.trans hNY)
    refine ⟨?_, abs_le.2 ⟨by omega, by omega⟩⟩
    rw [h.mul (x i * y i) g1 (ab _ (by omega) (by omega)) (ab _ (by omega) (by omega)) (ab _ (by omega) (by omega)),
      h.mul (x i) gy (ab _ (by omega) (by omega)) (ab _ (by omega) (by omega)) (ab _ (by omega) (by omega)),
      h.mul (y i) gx (ab _ (by omega) (by omega)) (ab _ (by omega) (by omega)) (ab _ (by omega) (by omega)),
      h.add _ _ (ab _ (by omega) (by omega)) (ab _ (by omega) (by omega)) (ab _ (by omega) (by omega)),
      h.sub _ _ (ab _ (by omega) (by omega)) (ab _ (by omega) (by omega)) (ab _ (by omega) (by omega)),
      h.sub _ _ (ab _ (by omega) (by omega)) (ab _ (by omega) (by omega)) (ab _ (by omega) (by omega))]
  have hk1 := fun i => (key i).1
  simp only [hk1]
  have hs := sum_abs_le fun i => (key i).2
  rw [h.vsum _ (hs.trans (by linarith))]
  congr 1
  rw [← Equiv.sum_comp σ]
  simp only [Equiv.symm_apply_apply]

/-- The AVL method is exact on integers. -/
theorem Arith.IntExact.avlTermsWith (h : A.IntExact M) {L : ℕ} (hL : n ≤ 2 ^ L) (compiled : Bool)
    (argsort : (Fin n → R) → Equiv.Perm (Fin n)) (x y : Fin n → ℤ) {X Y : ℤ} (hn : 3 < n)
    (hX : 1 ≤ X) (hY : 1 ≤ Y) (hx : ∀ i, |x i| ≤ X) (hy : ∀ i, |y i| ≤ Y) (hM : 4 * (n * (n * (X * Y))) ≤ M) :
    ∃ t, A.avlTermsWith L compiled argsort (fun i => A.ofInt (x i)) (fun i => A.ofInt (y i)) = .ok t ∧
      CoreRel (fun r z => r = A.ofInt z) t
        (permTerms (argsort fun i => A.ofInt (x i)) (argsort fun i => A.ofInt (y i))
          (argsort fun i => A.ofInt (y (argsort (fun i => A.ofInt (x i)) i))) x y) := by
  choose D e using avlTermsWith_safe_loop A L hL compiled
    (argsort fun i => A.ofInt (y (argsort (fun i => A.ofInt (x i)) i)))
  refine ⟨_, avlTermsWith_eq A L compiled argsort (fun i => A.ofInt (x i)) (fun i => A.ofInt (y i)) hn D e, ?_⟩
  have hn' : (4 : ℤ) ≤ n := by exact_mod_cast hn
  have hXY : X ≤ X * Y := le_mul_of_one_le_right (by omega) hY
  have hYX : Y ≤ X * Y := le_mul_of_one_le_left (by omega) hX
  have hNX : (n : ℤ) * X ≤ n * (X * Y) := mul_le_mul_of_nonneg_left hXY (by omega)
  have hNY : (n : ℤ) * Y ≤ n * (X * Y) := mul_le_mul_of_nonneg_left hYX (by omega)
  have hNNX : (n : ℤ) * (n * X) ≤ n * (n * (X * Y)) := mul_le_mul_of_nonneg_left hNX (by omega)
  have hNNY : (n : ℤ) * (n * Y) ≤ n * (n * (X * Y)) := mul_le_mul_of_nonneg_left hNY (by omega)
  have hnX : (n : ℤ) * X ≤ n * (n * X) := le_mul_of_one_le_left (by positivity) (by omega)
  have hnY : (n : ℤ) * Y ≤ n * (n * Y) := le_mul_of_one_le_left (by positivity) (by omega)
  constructor
  · apply h.prodShape _ _ D _ x y hn hX hY hx hy hM
    intro c hc
    have h1 := h.dyad compiled (rankOf (argsort fun i => A.ofInt (y (argsort (fun i => A.ofInt (x i)) i))))
      (rankOf_bounds _ hL) c hc (fun _ : Fin (2 ^ (L + 1)) => A.ofInt 0)
    rw [e] at h1
    exact Except.ok.inj h1
  · exact fun i => h.axisShape _ x hX hx (by omega) i
  · exact h.totalShape _ x (by omega) hX hx (by omega)
  · exact fun i => h.axisShape _ y hY hy (by omega) i
  · exact h.totalShape _ y (by omega) hY hy (by omega)

end Dcor

/-
Value of `energy_test`.
-/
import Verif.Model.Homogeneity
import Verif.Spec.Homogeneity
import Verif.Proofs.Hypothesis
import Verif.Proofs.Energy

namespace Dcor

open Finset

/-! ### Concatenation -/

/-- Entry of a matrix, zero outside. -/
noncomputable def Mat2.get (M : Mat2) (i c : ℕ) : ℝ :=
  if h : i < M.n ∧ c < M.p then M.m ⟨i, h.1⟩ ⟨c, h.2⟩ else 0

theorem Mat2.get_mk {n p : ℕ} (m : Fin n → Fin p → ℝ) (i : Fin n) (c : Fin p) :
    Mat2.get ⟨n, p, m⟩ i c = m i c := dif_pos ⟨i.2, c.2⟩

theorem Mat2.ext_get {M : Mat2} {n p : ℕ} {m : Fin n → Fin p → ℝ} (hn : M.n = n) (hp : M.p = p)
    (h : ∀ (i : Fin n) (c : Fin p), M.get i c = m i c) : M = ⟨n, p, m⟩ := by
  obtain ⟨n', p', m'⟩ := M
  dsimp only at hn hp
  subst hn hp
  congr 1
  funext i c
  rw [← h i c, Mat2.get_mk]

theorem appendMat_ok {a b : Mat2} (h : a.p = b.p) :
    ∃ R, appendMat a b = .ok R ∧ R.p = a.p ∧ R.n = a.n + b.n ∧
      (∀ i < a.n, ∀ c, R.get i c = a.get i c) ∧ ∀ i < b.n, ∀ c, R.get (a.n + i) c = b.get i c := by
  refine ⟨_, dif_pos h, rfl, rfl, ?_, ?_⟩
  · intro i hi c
    unfold Mat2.get
    dsimp only
    by_cases hc : c < a.p
    · rw [dif_pos ⟨by omega, hc⟩, dif_pos ⟨hi, hc⟩]
      have : (⟨i, by omega⟩ : Fin (a.n + b.n)) = Fin.castAdd b.n ⟨i, hi⟩ := rfl
      rw [this, Fin.append_left]
    · rw [dif_neg (fun e => hc e.2), dif_neg (fun e => hc e.2)]
  · intro i hi c
    unfold Mat2.get
    dsimp only
    by_cases hc : c < a.p
    · rw [dif_pos ⟨by omega, hc⟩, dif_pos ⟨hi, by omega⟩]
      have : (⟨a.n + i, by omega⟩ : Fin (a.n + b.n)) = Fin.natAdd a.n ⟨i, hi⟩ := rfl
      rw [this, Fin.append_right]
      rfl
    · rw [dif_neg (fun e => hc e.2), dif_neg (fun e => hc (by omega))]

theorem foldl_append_ok (p : ℕ) (rest : List Mat2) (hrest : ∀ A ∈ rest, A.p = p) (M : Mat2)
    (hM : M.p = p) :
    ∃ R, rest.foldlM appendMat M = .ok R ∧ R.p = p ∧ R.n = M.n + (rest.map Mat2.n).sum ∧
      (∀ i < M.n, ∀ c, R.get i c = M.get i c) ∧
      ∀ k (hk : k < rest.length), ∀ i < rest[k].n, ∀ c,
        R.get (M.n + ((rest.take k).map Mat2.n).sum + i) c = rest[k].get i c := by
  induction rest generalizing M with
  | nil => exact ⟨M, rfl, hM, by simp, fun _ _ _ => rfl, fun k hk => absurd hk (by simp)⟩
  | cons A rest ih =>
    obtain ⟨R1, h1, hp1, hn1, hl1, hr1⟩ := appendMat_ok (a := M) (b := A)
      (by rw [hM, hrest A (by simp)])
    obtain ⟨R, h2, hp2, hn2, hl2, hr2⟩ := ih (fun B hB => hrest B (by simp [hB])) R1
      (by rw [hp1, hM])
    refine ⟨R, ?_, hp2, ?_, ?_, ?_⟩
    · rw [List.foldlM_cons, h1]
      exact h2
    · rw [hn2, hn1]
      simp
      omega
    · intro i hi c
      rw [hl2 i (by omega) c, hl1 i hi c]
    · intro k hk i hi c
      cases k with
      | zero =>
        simp only [List.take_zero, List.map_nil, List.sum_nil, add_zero,
          List.getElem_cons_zero] at hi ⊢
        rw [hl2 _ (by omega) c, hr1 i hi c]
      | succ k =>
        simp only [List.take_succ_cons, List.map_cons, List.sum_cons, List.getElem_cons_succ]
          at hi ⊢
        rw [← hr2 k (by simpa using hk) i hi c, hn1]
        congr 1
        omega

section Samples

variable {k p : ℕ} {sz : Fin k → ℕ} {X : (a : Fin k) → Fin (sz a) → Fin p → ℝ}

/-- First row of sample `a`. -/
def offset (sz : Fin k → ℕ) (a : Fin k) : ℕ := ∑ i : Fin a, sz (Fin.castLE a.2.le i)

theorem offset_eq_take (sz : Fin k → ℕ) (a : Fin k) :
    offset sz a = ((List.ofFn sz).take a).sum := by
  unfold offset
  rw [← List.sum_ofFn]
  congr 1
  apply List.ext_getElem
  · simp
  · intro i h1 h2
    simp

theorem offset_add (a : Fin k) (i : Fin (sz a)) :
    offset sz a + i = (finSigmaFinEquiv ⟨a, i⟩ : Fin (∑ a, sz a)) :=
  (finSigmaFinEquiv_apply ⟨a, i⟩).symm

theorem offset_add_le (a : Fin k) : offset sz a + sz a ≤ ∑ a, sz a := by
  rcases Nat.eq_zero_or_pos (sz a) with h | h
  · rw [h, add_zero]
    unfold offset
    have : ∑ i : Fin a, sz (Fin.castLE a.2.le i) = ∑ j ∈ univ.filter (· < a), sz j := by
      refine sum_bij (fun i _ => Fin.castLE a.2.le i) ?_ ?_ ?_ ?_
      · intro i _
        exact mem_filter.2 ⟨mem_univ _, i.2⟩
      · intro i _ j _ hij
        exact Fin.castLE_injective _ hij
      · intro j hj
        simp only [mem_filter, mem_univ, true_and] at hj
        exact ⟨⟨j, hj⟩, mem_univ _, rfl⟩
      · intro i _
        rfl
    rw [this]
    exact sum_le_sum_of_subset (filter_subset _ _)
  · have := offset_add (sz := sz) a ⟨sz a - 1, by omega⟩
    have h2 := (finSigmaFinEquiv ⟨a, ⟨sz a - 1, by omega⟩⟩ : Fin (∑ a, sz a)).2
    dsimp only at this
    omega

theorem Spec.pooled_apply (a : Fin k) (i : Fin (sz a)) :
    Spec.pooled X (finSigmaFinEquiv ⟨a, i⟩) = X a i := by
  unfold Spec.pooled
  have h := finSigmaFinEquiv.symm_apply_apply (⟨a, i⟩ : (a : Fin k) × Fin (sz a))
  rw [h]

theorem concatMats_ok (hk : 0 < k) :
    concatMats (List.ofFn fun a => (⟨sz a, p, X a⟩ : Mat2))
      = .ok ⟨∑ a, sz a, p, Spec.pooled X⟩ := by
  obtain ⟨k, rfl⟩ : ∃ l, k = l + 1 := ⟨k - 1, by omega⟩
  rw [List.ofFn_succ]
  unfold concatMats
  obtain ⟨R, hR, hp, hn, hl, hr⟩ := foldl_append_ok p
    (List.ofFn fun a : Fin k => (⟨sz a.succ, p, X a.succ⟩ : Mat2))
    (by
      intro A hA
      rw [List.mem_ofFn] at hA
      obtain ⟨a, rfl⟩ := hA
      rfl) ⟨sz 0, p, X 0⟩ rfl
  dsimp only
  rw [hR]
  congr 1
  refine Mat2.ext_get ?_ hp ?_
  · rw [hn, List.map_ofFn, List.sum_ofFn, Fin.sum_univ_succ]
    rfl
  · intro i c
    obtain ⟨⟨a, j⟩, rfl⟩ := finSigmaFinEquiv.surjective i
    rw [Spec.pooled_apply, ← offset_add]
    refine Fin.cases ?_ (fun a => ?_) a j
    · intro j
      have h0 : offset sz 0 = 0 := by
        rw [offset_eq_take]
        simp
      rw [h0, zero_add, hl j j.2 c, Mat2.get_mk]
    · intro j
      have h1 := hr a (by simp) j (by simp) c
      simp only [List.getElem_ofFn] at h1
      rw [Mat2.get_mk (X a.succ) j c] at h1
      rw [← h1]
      congr 2
      rw [offset_eq_take, List.ofFn_succ, Fin.val_succ, List.take_succ_cons, List.sum_cons,
        List.map_take, List.map_ofFn]
      rfl

theorem mapM_ofFn_ok {B C : Type} (f : B → Except PyErr C) {k : ℕ} (A : Fin k → B) (g : Fin k → C)
    (h : ∀ a, f (A a) = .ok (g a)) : (List.ofFn A).mapM f = .ok (List.ofFn g) := by
  induction k with
  | zero => rfl
  | succ k ih =>
    rw [List.ofFn_succ, List.ofFn_succ, List.mapM_cons, h, ih _ (fun a => g a.succ) fun a => h _]
    rfl

theorem sampleIndexes_zip (sz : Fin k → ℕ) :
    (sampleIndexes (List.ofFn sz)).zip (List.ofFn sz)
      = List.ofFn fun a => (offset sz a, sz a) := by
  have hs : ∀ l : List ℕ, sampleIndexes l = (List.scanl (· + ·) 0 l).dropLast := by
    intro l
    cases l with
    | nil => rfl
    | cons a l =>
      unfold sampleIndexes
      dsimp only
      rw [List.scanl_cons, List.tail_cons]
      rw [List.dropLast_cons_of_ne_nil List.scanl_ne_nil]
  rw [hs]
  apply List.ext_getElem
  · simp
  · intro i h1 h2
    simp only [List.getElem_zip, List.getElem_dropLast, List.getElem_ofFn]
    rw [List.getElem_scanl, offset_eq_take, List.sum_eq_foldl]

/-! ### Preparation of the test -/

/-- The preparation of `energy_test` computes the distances of the pooled sample. -/
theorem energyTestSetup_ok {env : Env} {A : Fin k → Arr} {o : EnergyOpts} (hk : 0 < k)
    (hA : ∀ a, Holds (A a).data (sz a) p (X a))
    (hmix : mixedDecimalList (List.ofFn fun a => (A a).dtype) = false)
    (hdec : joinDTypes (List.ofFn fun a => (A a).dtype) = .decimal → ∃ l : ℤ, o.exponent = l) :
    energyTestSetup env (List.ofFn A) o = ⟨energyWarns o.exponent,
      .ok ⟨∑ a, sz a, Spec.distMat o.exponent (Spec.pooled X), fun m => energyMultivariate env m
        (joinDTypes (List.ofFn fun a => (A a).dtype) == .decimal)
        (List.ofFn fun a => (offset sz a, sz a)) o.average o.stat⟩⟩ := by
  unfold energyTestSetup
  rw [mapM_ofFn_ok _ A (fun a => (⟨sz a, p, X a⟩ : Mat2)) fun a => (hA a).to2d, PyM.lift_ok_bind,
    checkValidEnergyExponent_eq, PyM.mk_ok_bind]
  dsimp only
  rw [concatMats_ok hk, PyM.lift_ok_bind]
  have h1 : List.map Arr.dtype (List.ofFn A) = List.ofFn fun a => (A a).dtype := List.map_ofFn
  have h2 : List.map Mat2.n (List.ofFn fun a => (⟨sz a, p, X a⟩ : Mat2)) = List.ofFn sz :=
    List.map_ofFn
  rw [h1, h2, if_neg (by simp [hmix]), pdist_eq env _ _ _ _ hdec, PyM.lift_ok_bind,
    sampleIndexes_zip]
  simp [PyM.pure]

theorem joinDType_ne_decimal {a b : DType} (ha : a ≠ .decimal) (hb : b ≠ .decimal) :
    joinDType a b ≠ .decimal := by
  cases a <;> cases b <;> simp_all [joinDType]

theorem joinDTypes_ne_decimal {l : List DType} (h : ∀ d ∈ l, d ≠ .decimal) :
    joinDTypes l ≠ .decimal := by
  cases l with
  | nil => simp [joinDTypes]
  | cons a rest =>
    unfold joinDTypes
    dsimp only
    have : ∀ (rest : List DType) (a : DType), a ≠ .decimal → (∀ d ∈ rest, d ≠ .decimal) →
        rest.foldl joinDType a ≠ .decimal := by
      intro rest
      induction rest with
      | nil => exact fun a ha _ => ha
      | cons b rest ih =>
        intro a ha hr
        exact ih _ (joinDType_ne_decimal ha (hr b (by simp))) fun d hd => hr d (by simp [hd])
    exact this rest a (h a (by simp)) fun d hd => h d (by simp [hd])

theorem mixedDecimalList_false {l : List DType} (h : ∀ d ∈ l, d ≠ .decimal) :
    mixedDecimalList l = false := by
  unfold mixedDecimalList
  have : l.any (· == .decimal) = false := by
    rw [List.any_eq_false]
    intro d hd
    simpa using h d hd
  rw [this, Bool.false_and]

/-! ### Blocks of the distance matrix -/

theorem sliceMat_eq {N : ℕ} (d : Fin N → Fin N → ℝ) {i0 ni j0 nj : ℕ} (hi : i0 + ni ≤ N)
    (hj : j0 + nj ≤ N) :
    sliceMat d i0 ni j0 nj = ⟨ni, nj, fun a b => d ⟨i0 + a, by omega⟩ ⟨j0 + b, by omega⟩⟩ := by
  refine Mat2.ext_get ?_ ?_ ?_
  · show min (i0 + ni) N - min i0 N = ni
    omega
  · show min (j0 + nj) N - min j0 N = nj
    omega
  · intro a b
    unfold Mat2.get
    have h1 : (a : ℕ) < (sliceMat d i0 ni j0 nj).n := by
      show (a : ℕ) < min (i0 + ni) N - min i0 N
      omega
    have h2 : (b : ℕ) < (sliceMat d i0 ni j0 nj).p := by
      show (b : ℕ) < min (j0 + nj) N - min j0 N
      omega
    rw [dif_pos ⟨h1, h2⟩]
    show d ⟨min i0 N + a, _⟩ ⟨min j0 N + b, _⟩ = _
    have e1 : min i0 N = i0 := by omega
    have e2 : min j0 N = j0 := by omega
    simp only [e1, e2]

theorem slice_pooled (α : ℝ) (a b : Fin k) :
    sliceMat (Spec.distMat α (Spec.pooled X)) (offset sz a) (sz a) (offset sz b) (sz b)
      = ⟨sz a, sz b, fun i j => Spec.dist α (X a i) (X b j)⟩ := by
  rw [sliceMat_eq _ (offset_add_le a) (offset_add_le b)]
  congr 1
  funext i j
  unfold Spec.distMat
  have h : ∀ (a : Fin k) (i : Fin (sz a)) (h : offset sz a + i < ∑ a, sz a),
      Spec.pooled X ⟨offset sz a + i, h⟩ = X a i := by
    intro a i h
    rw [← Spec.pooled_apply (X := X) a i]
    congr 1
    exact Fin.ext (offset_add a i)
  rw [h, h]

/-- Energy distance from the three matrices of distances, with the default average. -/
theorem energyFromMatrices_ok {env : Env} {stat : EstLike} {s : EstStat}
    (hs : stat.resolve env = .ok s) {n m : ℕ} (U : Fin n → Fin p → ℝ) (V : Fin m → Fin p → ℝ)
    (α : ℝ) :
    energyFromMatrices env ⟨⟨n, n, Spec.distMat α U⟩, false⟩ ⟨⟨m, m, Spec.distMat α V⟩, false⟩
      ⟨⟨n, m, fun i j => Spec.dist α (U i) (V j)⟩, false⟩ none stat
      = .ok ⟨Spec.energyFP s α U V, .npFloat⟩ := by
  unfold energyFromMatrices
  rw [hs, Except.ok_bind']
  show Except.ok _ = _
  congr 2
  simp only [averageFun]
  cases s with
  | v =>
    simp only [withinArg, Spec.energyFP]
    by_cases h : n = 0 ∨ m = 0
    · rw [if_pos h, meanOf_mat_empty h, FP.mul_nan, FP.nan_sub, FP.nan_sub]
    · have hn : 0 < n := by omega
      have hm : 0 < m := by omega
      rw [if_neg h, meanOf_mat hn hm, meanOf_mat hn hn, meanOf_mat hm hm, FP.fin_mul, FP.fin_sub,
        FP.fin_sub]
      rfl
  | u =>
    simp only [withinArg, Spec.energyFP]
    by_cases h : n ≤ 1 ∨ m ≤ 1
    · rw [if_pos h]
      rcases h with h | h
      · rw [meanOf_upper_small h, FP.sub_nan, FP.nan_sub]
      · rw [meanOf_upper_small h, FP.sub_nan]
    · rw [if_neg h, meanOf_mat (by omega) (by omega),
        meanOf_upper (by omega) _ (Spec.distMat_symm α U),
        meanOf_upper (by omega) _ (Spec.distMat_symm α V), FP.fin_mul, FP.fin_sub, FP.fin_sub]
      rfl

theorem pairEnergy_ok {env : Env} {stat : EstLike} {s : EstStat} (hs : stat.resolve env = .ok s)
    (α : ℝ) {a b : Fin k} (ha : 0 < sz a) :
    pairEnergy env (Spec.distMat α (Spec.pooled X)) false none stat (offset sz a, sz a)
      (offset sz b, sz b) = .ok ⟨Spec.energyTestPair s α (X a) (X b), .npFloat⟩ := by
  unfold pairEnergy energyTestFromMatrices
  dsimp only
  rw [slice_pooled, slice_pooled, slice_pooled]
  have := energyFromMatrices_ok hs (X a) (X b) α
  unfold Spec.distMat at this
  rw [this, Except.ok_bind']
  unfold energyCoefficient
  rw [if_neg (by omega), Except.ok_bind']
  rfl

/-! ### The double loop -/

/-- Accumulated value, zero before the first iteration. -/
def accVal : Option Scalar → FP ℝ
  | none => 0
  | some s => s.val

/-- Sum of `v b c` over the pairs of a list, `b` before `c`. -/
noncomputable def pairSum {I : Type} (v : I → I → FP ℝ) : List I → FP ℝ
  | [] => 0
  | b :: rest => (rest.map (v b)).sum + pairSum v rest

theorem innerPairs_ok {env : Env} {N : ℕ} {d : Fin N → Fin N → ℝ} {dec : Bool}
    {av : Option Average} {stat : EstLike} {I : Type} (blk : I → ℕ × ℕ) (v : I → I → FP ℝ) (b : I)
    (rest : List I) (h : ∀ c ∈ rest, pairEnergy env d dec av stat (blk b) (blk c)
      = .ok ⟨v b c, .npFloat⟩) (acc : Option Scalar) :
    ∃ r, innerPairs env d dec av stat (blk b) (rest.map blk) acc = .ok r ∧
      accVal r = accVal acc + (rest.map (v b)).sum ∧
      ((∀ s, acc = some s → s.kind = .npFloat) → ∀ s, r = some s → s.kind = .npFloat) ∧
      (acc ≠ none ∨ rest ≠ [] → r ≠ none) := by
  induction rest generalizing acc with
  | nil => exact ⟨acc, rfl, by simp, fun h => h, by simp⟩
  | cons c rest ih =>
    obtain ⟨r, h1, h2, h3, h4⟩ := ih (fun c hc => h c (by simp [hc]))
      (accumulate acc ⟨v b c, .npFloat⟩)
    refine ⟨r, ?_, ?_, ?_, ?_⟩
    · rw [List.map_cons, innerPairs, h c (by simp)]
      exact h1
    · rw [h2, List.map_cons, List.sum_cons]
      have : accVal (accumulate acc ⟨v b c, .npFloat⟩) = accVal acc + v b c := by
        cases acc with
        | none => exact (zero_add _).symm
        | some s => rfl
      rw [this, add_assoc]
    · intro _
      refine h3 ?_
      intro s hs
      cases acc with
      | none => cases hs; rfl
      | some t => cases hs; rfl
    · intro _
      refine h4 (Or.inl ?_)
      cases acc <;> simp [accumulate]

theorem outerPairs_ok {env : Env} {N : ℕ} {d : Fin N → Fin N → ℝ} {dec : Bool}
    {av : Option Average} {stat : EstLike} {I : Type} (blk : I → ℕ × ℕ) (v : I → I → FP ℝ)
    (l : List I) (h : ∀ b c, pairEnergy env d dec av stat (blk b) (blk c)
      = .ok ⟨v b c, .npFloat⟩) (acc : Option Scalar) :
    ∃ r, outerPairs env d dec av stat (l.map blk) acc = .ok r ∧
      accVal r = accVal acc + pairSum v l ∧
      ((∀ s, acc = some s → s.kind = .npFloat) → ∀ s, r = some s → s.kind = .npFloat) ∧
      (acc ≠ none ∨ 2 ≤ l.length → r ≠ none) := by
  induction l generalizing acc with
  | nil => exact ⟨acc, rfl, by simp [pairSum], fun h => h, by simp⟩
  | cons b rest ih =>
    obtain ⟨r1, e1, e2, e3, e4⟩ := innerPairs_ok blk v b rest (fun c _ => h b c) acc
    obtain ⟨r, h1, h2, h3, h4⟩ := ih r1
    refine ⟨r, ?_, ?_, fun hk => h3 (e3 hk), ?_⟩
    · rw [List.map_cons, outerPairs, e1]
      exact h1
    · rw [h2, e2, pairSum, add_assoc]
    · intro hh
      refine h4 (Or.inl (e4 ?_))
      rcases hh with hh | hh
      · exact Or.inl hh
      · refine Or.inr ?_
        rintro rfl
        simp at hh

theorem pairSum_ofFn {I : Type} (v : I → I → FP ℝ) : ∀ {k : ℕ} (f : Fin k → I),
    pairSum v (List.ofFn f) = ∑ a, ∑ b ∈ univ.filter (a < ·), v (f a) (f b) := by
  intro k
  induction k with
  | zero => intro f; simp [pairSum]
  | succ k ih =>
    intro f
    rw [List.ofFn_succ, pairSum, ih, Fin.sum_univ_succ, List.map_ofFn, List.sum_ofFn]
    congr 1
    · rw [sum_filter, Fin.sum_univ_succ]
      simp
    · refine sum_congr rfl fun a _ => ?_
      rw [sum_filter, sum_filter, Fin.sum_univ_succ]
      simp

theorem energyMultivariate_ok {env : Env} {stat : EstLike} {s : EstStat}
    (hs : stat.resolve env = .ok s) (hk : 2 ≤ k) (hpos : ∀ a, 0 < sz a) (α : ℝ) :
    energyMultivariate env (Spec.distMat α (Spec.pooled X)) false
      (List.ofFn fun a => (offset sz a, sz a)) none stat
      = .ok ⟨Spec.energyTestStat s α X, .npFloat⟩ := by
  unfold energyMultivariate
  have hmap : (List.ofFn fun a => (offset sz a, sz a))
      = (List.ofFn fun a : Fin k => a).map fun a => (offset sz a, sz a) := by
    rw [List.map_ofFn]
    rfl
  obtain ⟨r, h1, h2, h3, h4⟩ := outerPairs_ok (env := env)
    (d := Spec.distMat α (Spec.pooled X)) (dec := false) (av := none) (stat := stat)
    (fun a : Fin k => (offset sz a, sz a)) (fun a b => Spec.energyTestPair s α (X a) (X b))
    (List.ofFn fun a : Fin k => a) (fun a b => pairEnergy_ok hs α (hpos a)) none
  rw [hmap, h1, Except.ok_bind']
  cases r with
  | none => exact absurd rfl (h4 (Or.inr (by simpa using hk)))
  | some e =>
    dsimp only
    obtain ⟨val, kind⟩ := e
    have hk' : kind = .npFloat := h3 (by simp) _ rfl
    have hv : val = Spec.energyTestStat s α X := by
      have : val = 0 + _ := h2
      rw [this, zero_add, pairSum_ofFn]
      rfl
    rw [hk', hv]
    rfl

/-! ### The test -/

theorem Spec.energyTestStat_two (s : EstStat) (α : ℝ) {sz : Fin 2 → ℕ}
    (X : (a : Fin 2) → Fin (sz a) → Fin p → ℝ) :
    Spec.energyTestStat s α X = Spec.energyTestPair s α (X 0) (X 1) := by
  unfold Spec.energyTestStat
  rw [Fin.sum_univ_two]
  have e0 : univ.filter ((0 : Fin 2) < ·) = {1} := by decide
  have e1 : univ.filter ((1 : Fin 2) < ·) = ∅ := by decide
  rw [e0, e1, sum_singleton, sum_empty, add_zero]

theorem Spec.pooled_relabel (σ : Equiv.Perm (Fin (∑ a, sz a))) :
    Spec.pooled (Spec.relabel X σ) = fun i => Spec.pooled X (σ i) := by
  funext i
  obtain ⟨⟨a, j⟩, rfl⟩ := finSigmaFinEquiv.surjective i
  rw [Spec.pooled_apply]
  rfl

theorem permutedMatrix_pooled (α : ℝ) (σ : Equiv.Perm (Fin (∑ a, sz a))) :
    permutedMatrix (Spec.distMat α (Spec.pooled X)) σ
      = Spec.distMat α (Spec.pooled (Spec.relabel X σ)) := by
  rw [Spec.pooled_relabel]
  rfl

variable {S : Type} {rng : Rng S} {rs : RandomLike S} {nJobs : Option ℤ}

theorem energyTest_ok {env : Env} {A : Fin k → Arr} {o : EnergyOpts} (h : EnergyTestCall A o X)
    {s : EstStat} (hs : o.stat.resolve env = .ok s) (hj : nJobs ≠ some 0) (B : ℕ) :
    energyTest env rng (List.ofFn A) B o rs nJobs = ⟨energyWarns o.exponent,
      .ok (⟨Spec.permPvalue (Spec.energyTestStat s o.exponent X)
          (fun i => Spec.energyTestStat s o.exponent (Spec.relabel X
            (permAt rng (∑ a, sz a) (randomStateInit rng rs) i))) B,
        Spec.energyTestStat s o.exponent X⟩,
        stateAt rng (∑ a, sz a) (randomStateInit rng rs) B)⟩ := by
  have hd : ∀ d ∈ List.ofFn fun a => (A a).dtype, d ≠ .decimal := by
    intro d hd
    rw [List.mem_ofFn] at hd
    obtain ⟨a, rfl⟩ := hd
    exact h.dtype a
  unfold energyTest PyM.permutationTest
  rw [energyTestSetup_ok (by have := h.two; omega) h.holds (mixedDecimalList_false hd)
    (fun e => absurd e (joinDTypes_ne_decimal hd)), PyM.mk_ok_bind]
  have hb : (joinDTypes (List.ofFn fun a => (A a).dtype) == DType.decimal) = false :=
    beq_eq_false_iff_ne.2 (joinDTypes_ne_decimal hd)
  dsimp only
  rw [permutationTest_ok hj B (by rw [hb, h.mean]; exact energyMultivariate_ok hs h.two h.pos _)
    (k := fun _ => .npFloat) fun i _ => by
      unfold permutedStatistic
      rw [permutedMatrix_pooled, hb, h.mean]
      exact energyMultivariate_ok hs h.two h.pos _]
  simp [PyM.lift]

end Samples

end Dcor

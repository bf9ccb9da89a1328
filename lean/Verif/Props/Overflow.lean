/-
C86: overflow and underflow in the distance correlation.
-/
import Verif.Proofs.NonFinite
import Verif.Proofs.Range64

namespace Dcor.Props

open Dcor F64

variable {sqrt : F64 → F64} {sum : List F64 → F64} {dot : List (F64 × F64) → F64} {n : ℕ}

/-! ### The correlation is zero for large and for small samples -/

/-- C86 fails, for every method: if the covariance and the variances are finite and the product of the variances is at
least `2 ** 1024`, the correlation is zero. -/
theorem C86_overflow (h : IsIeee64 sqrt sum dot) (bc : Bool) (t : Arith.AllTerms F64 n) {c a b : ℚ}
    (hc : ((ieee64 sqrt sum dot).statsFromTerms bc t).cov = fin c)
    (ha : ((ieee64 sqrt sum dot).statsFromTerms bc t).varX = fin a)
    (hb : ((ieee64 sqrt sum dot).statsFromTerms bc t).varY = fin b) (hab : 2 ^ 1024 ≤ |a * b|) :
    ((ieee64 sqrt sum dot).statsFromTerms bc t).corr = fin 0 := by
  obtain ⟨s, hs⟩ := round_big hab
  have e : (ieee64 sqrt sum dot).abs ((ieee64 sqrt sum dot).mul (fin a) (fin b)) = inf false :=
    congrArg F64.abs (show F64.mul (fin a) (fin b) = inf s from hs)
  have er : (ieee64 sqrt sum dot).sqrtClip (inf false) = inf false := by
    unfold Arith.sqrtClip
    rw [show (ieee64 sqrt sum dot).lt (inf false) ((ieee64 sqrt sum dot).ofInt 0) = false by
      show F64.lt (inf false) (F64.round ((0 : ℤ) : ℚ)) = false
      decide +kernel]
    exact h.sqrt (inf false)
  show (if (ieee64 sqrt sum dot).eqZero ((ieee64 sqrt sum dot).sqrtClip ((ieee64 sqrt sum dot).abs
      ((ieee64 sqrt sum dot).mul ((ieee64 sqrt sum dot).statsFromTerms bc t).varX
        ((ieee64 sqrt sum dot).statsFromTerms bc t).varY))) = true then (ieee64 sqrt sum dot).ofInt 0
    else (ieee64 sqrt sum dot).div ((ieee64 sqrt sum dot).statsFromTerms bc t).cov
      ((ieee64 sqrt sum dot).sqrtClip ((ieee64 sqrt sum dot).abs
        ((ieee64 sqrt sum dot).mul ((ieee64 sqrt sum dot).statsFromTerms bc t).varX
          ((ieee64 sqrt sum dot).statsFromTerms bc t).varY)))) = fin 0
  rw [ha, hb, hc, e, er]
  have e' : (ieee64 sqrt sum dot).eqZero (inf false) = false := by
    show F64.eq (inf false) (F64.round ((0 : ℤ) : ℚ)) = false
    rw [show F64.round ((0 : ℤ) : ℚ) = fin 0 by decide +kernel]
    rfl
  rw [e']
  rfl

/-- C86 fails, for every method: if the product of the variances is at most `2 ** -1075`, the correlation is zero. -/
theorem C86_underflow (h : IsIeee64 sqrt sum dot) (bc : Bool) (t : Arith.AllTerms F64 n) {a b : ℚ}
    (ha : ((ieee64 sqrt sum dot).statsFromTerms bc t).varX = fin a)
    (hb : ((ieee64 sqrt sum dot).statsFromTerms bc t).varY = fin b) (hab : |a * b| ≤ 1 / 2 ^ 1075) :
    ((ieee64 sqrt sum dot).statsFromTerms bc t).corr = fin 0 := by
  have e0 : (ieee64 sqrt sum dot).ofInt 0 = fin 0 := by
    show F64.round ((0 : ℤ) : ℚ) = fin 0
    decide +kernel
  have e : (ieee64 sqrt sum dot).abs ((ieee64 sqrt sum dot).mul (fin a) (fin b)) = fin 0 :=
    (congrArg F64.abs (show F64.mul (fin a) (fin b) = fin 0 from round_small hab)).trans (by
      show fin |0| = fin 0
      rw [abs_zero])
  have er : (ieee64 sqrt sum dot).sqrtClip (fin 0) = fin 0 := by
    unfold Arith.sqrtClip
    rw [e0, ite_self]
    have := h.sqrt (fin 0)
    change if (0 : ℚ) < 0 then sqrt (fin 0) = nan else ∃ s, SqrtTo 0 s ∧ sqrt (fin 0) = fin s at this
    rw [if_neg (lt_irrefl _)] at this
    obtain ⟨s, hs, e⟩ := this
    rw [show s = 0 from hs.eq_zero.2 rfl] at e
    exact e
  show (if (ieee64 sqrt sum dot).eqZero ((ieee64 sqrt sum dot).sqrtClip ((ieee64 sqrt sum dot).abs
      ((ieee64 sqrt sum dot).mul ((ieee64 sqrt sum dot).statsFromTerms bc t).varX
        ((ieee64 sqrt sum dot).statsFromTerms bc t).varY))) = true then (ieee64 sqrt sum dot).ofInt 0
    else _) = fin 0
  rw [ha, hb, e, er]
  have e' : (ieee64 sqrt sum dot).eqZero (fin 0) = true := by
    unfold Arith.eqZero
    rw [e0]
    show F64.eq (fin 0) (fin 0) = true
    decide +kernel
  rw [e', if_pos rfl, e0]

/-- C86 fails: the naive method finds that `[0, 2 ** 300]` and `[0, 2 ** 300]` have correlation zero. -/
theorem C86_naive_large :
    ((ieee64 sqrtSeq sumSeq dotSeq).naiveStats false (fun i (_ : Fin 1) => (![fin 0, fin (2 ^ 300)] : Fin 2 → F64) i)
        (fun i (_ : Fin 1) => (![fin 0, fin (2 ^ 300)] : Fin 2 → F64) i)).corr = fin 0 ∧
      ((ieee64 sqrtSeq sumSeq dotSeq).naiveStats false (fun i (_ : Fin 1) => (![fin 0, fin (2 ^ 300)] : Fin 2 → F64) i)
        (fun i (_ : Fin 1) => (![fin 0, fin (2 ^ 300)] : Fin 2 → F64) i)).cov = fin (2 ^ 598) := by
  constructor <;> decide +kernel

/-- C86 fails: the naive method finds that `[0, 2 ** -300]` and `[0, 2 ** -300]` have correlation zero. -/
theorem C86_naive_small :
    ((ieee64 sqrtSeq sumSeq dotSeq).naiveStats false (fun i (_ : Fin 1) => (![fin 0, fin (1 / 2 ^ 300)] : Fin 2 → F64) i)
        (fun i (_ : Fin 1) => (![fin 0, fin (1 / 2 ^ 300)] : Fin 2 → F64) i)).corr = fin 0 ∧
      ((ieee64 sqrtSeq sumSeq dotSeq).naiveStats false
        (fun i (_ : Fin 1) => (![fin 0, fin (1 / 2 ^ 300)] : Fin 2 → F64) i)
        (fun i (_ : Fin 1) => (![fin 0, fin (1 / 2 ^ 300)] : Fin 2 → F64) i)).cov = fin (1 / 2 ^ 602) := by
  constructor <;> decide +kernel

/-- A case that meets the hypotheses of `C86_overflow`. -/
example : ((ieee64 sqrtSeq sumSeq dotSeq).statsFromTerms false ((ieee64 sqrtSeq sumSeq dotSeq).naiveTerms
    (fun i j : Fin 2 => if i = j then fin 0 else fin (2 ^ 300)) (fun i j => if i = j then fin 0 else fin (2 ^ 300)))).corr
    = fin 0 :=
  C86_overflow ieee64_seq false _ (c := 2 ^ 598) (a := 2 ^ 598) (b := 2 ^ 598) (by decide +kernel) (by decide +kernel)
    (by decide +kernel) (by decide +kernel)

/-- A case that meets the hypotheses of `C86_underflow`. -/
example : ((ieee64 sqrtSeq sumSeq dotSeq).statsFromTerms false ((ieee64 sqrtSeq sumSeq dotSeq).naiveTerms
    (fun i j : Fin 2 => if i = j then fin 0 else fin (1 / 2 ^ 300))
    (fun i j => if i = j then fin 0 else fin (1 / 2 ^ 300)))).corr = fin 0 :=
  C86_underflow ieee64_seq false _ (a := 1 / 2 ^ 602) (b := 1 / 2 ^ 602) (by decide +kernel)
    (by decide +kernel) (by decide +kernel)

/-- The sample `[0, 1, 2, 3] * 2 ** 300`. -/
def largeX : Fin 4 → F64 := ![fin 0, fin (2 ^ 300), fin (2 ^ 301), fin (3 * 2 ^ 300)]

/-- C86 fails for the default method: `[0, 1, 2, 3] * 2 ** 300` has correlation zero with itself. -/
theorem C86_avl_large (compiled : Bool) (argsort : (Fin 4 → F64) → Equiv.Perm (Fin 4))
    (hsort : argsort largeX = Equiv.refl _) :
    ∃ r, (ieee64 sqrtSeq sumSeq dotSeq).avlStats false compiled argsort largeX largeX = .ok r ∧ r.corr = fin 0 ∧
      r.cov = fin (13 * 2 ^ 596) := by
  have e : (ieee64 sqrtSeq sumSeq dotSeq).avlStats false compiled argsort largeX largeX
      = (ieee64 sqrtSeq sumSeq dotSeq).avlStats false compiled (fun _ => Equiv.refl _) largeX largeX := by
    unfold Arith.avlStats Arith.avlTerms Arith.avlTermsWith
    simp only [hsort, Equiv.refl_apply]
  have key : ((ieee64 sqrtSeq sumSeq dotSeq).avlStats false compiled (fun _ => Equiv.refl _) largeX largeX).map
      (fun s => (s.corr, s.cov)) = .ok (fin 0, fin (13 * 2 ^ 596)) := by
    cases compiled <;> decide +kernel
  rw [e]
  cases h : (ieee64 sqrtSeq sumSeq dotSeq).avlStats false compiled (fun _ => Equiv.refl _) largeX largeX with
  | error e => rw [h] at key; cases key
  | ok r =>
    rw [h] at key
    have := Except.ok.inj key
    exact ⟨r, rfl, congrArg Prod.fst this, congrArg Prod.snd this⟩

end Dcor.Props

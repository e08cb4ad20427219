import Verif.Model.Uncertainty
import Mathlib.Tactic.IntervalCases
import Mathlib.Tactic.Ring
import Mathlib.Tactic.FinCases
import Mathlib.Algebra.BigOperators.Fin
import Mathlib.Algebra.BigOperators.Ring.Finset
import Mathlib.Data.List.GetD
/-
Helper lemmas for C77: what the block accumulation functions in uncertainty.c compute, as matrix products.
-/
namespace Mrcal.Uncertainty
open Mrcal Pose

/-- a symmetric matrix, from its packed upper triangle -/
def sym (N : Nat) (S : Arr) (i j : Nat) : ℝ := S (indexSym N i j)

/-- d(compose_rt(rt0,rt1))/drt0 at rt0 = 0: [dr01/dr0 0; -skew(t1) I]; D: the (3,3) matrix dr01/dr0 -/
def poseD (D t : Arr) (a k : Nat) : ℝ :=
  if a < 3 then (if k < 3 then D (a * 3 + k) else 0)
  else if k < 3 then -skewCol t k (fun m => if m = a - 3 then 1 else 0) else if k = a then 1 else 0

/-- the scale of each pose variable -/
def poseScale (SR ST : ℝ) (a : Nat) : ℝ := if a < 3 then SR else ST

/-- d(transform(rt,p))/drt at rt = 0: [-skew(p) I] -/
def pointD (p : Arr) (a k : Nat) : ℝ :=
  if k < 3 then -skewCol p k (fun m => if m = a then 1 else 0) else if k = a + 3 then 1 else 0

theorem addAt_apply (M : Arr) (l : List (Nat × ℝ)) (n : Nat) :
    addAt M l n = M n + (l.map fun p => if n = p.1 then p.2 else 0).sum := by
  induction l generalizing M with
  | nil => simp [addAt]
  | cons p l ih =>
    have : addAt M (p :: l) = addAt (fun n => if n = p.1 then M n + p.2 else M n) l := rfl
    rw [this, ih]
    simp only [List.map_cons, List.sum_cons]
    split_ifs <;> ring

theorem rtThis_eq (D t S : Arr) (SR ST : ℝ) (i j : Nat) (hi : i < 6) (hj : j < 6) :
    rtThis D t S SR ST i j = ∑ a : Fin 6, poseD D t a i / poseScale SR ST a * sym 6 S a j := by
  rw [Fin.sum_univ_six]
  interval_cases i <;> interval_cases j <;>
    (simp [rtThis, rtA, rtB, mulTSym, skewRow, poseD, poseScale, sym, skewCol, indexSym]; try ring)

theorem thingInc_eq (n : Nat) (D t S : Arr) (SR ST : ℝ) (i j : Nat) (hi : i < 6) :
    thingInc n D t S SR ST i j = ∑ a : Fin 6, poseD D t a i / poseScale SR ST a * S (a * n + j) := by
  rw [Fin.sum_univ_six]
  interval_cases i <;>
    (simp [thingInc, skewRow, poseD, poseScale, skewCol]; try ring)

theorem rtJJ_upper (M D t S : Arr) (SR ST : ℝ) (i j : Nat) (hij : i ≤ j) (hj : j < 6) :
    sym 6 (addAt M (rtJJ D t S SR ST)) i j = sym 6 M i j +
      ∑ b : Fin 6, rtThis D t S SR ST i b * (poseD D t b j / poseScale SR ST b) := by
  simp only [Fin.sum_univ_six]
  unfold sym
  rw [addAt_apply]
  congr 1
  have r1 : List.range 3 = [0, 1, 2] := rfl
  have r2 : List.range' (indexSym 6 3 3) (21 - indexSym 6 3 3) = [15, 16, 17, 18, 19, 20] := rfl
  unfold rtJJ
  rw [r1, r2]
  unfold rtThis
  generalize rtA D t S SR ST = A
  generalize rtB D t S SR ST = B
  interval_cases j <;> interval_cases i <;>
    (simp [upper3, all3, ivalue3, poseD, poseScale, skewCol, indexSym]; try ring)

theorem indexSym_comm (N i j : Nat) : indexSym N i j = indexSym N j i := by
  unfold indexSym
  split_ifs with h1 h2
  · have : i = j := by omega
    rw [this]
  · rfl
  · rfl
  · omega

theorem sym_comm (N : Nat) (S : Arr) (i j : Nat) : sym N S i j = sym N S j i := by
  unfold sym; rw [indexSym_comm]

theorem rtJJ_eq (M D t S : Arr) (SR ST : ℝ) (i j : Nat) (hi : i < 6) (hj : j < 6) :
    sym 6 (addAt M (rtJJ D t S SR ST)) i j = sym 6 M i j +
      ∑ a : Fin 6, ∑ b : Fin 6, poseD D t a i / poseScale SR ST a * sym 6 S a b * (poseD D t b j / poseScale SR ST b) := by
  have up : ∀ i j : Nat, i ≤ j → j < 6 → sym 6 (addAt M (rtJJ D t S SR ST)) i j = sym 6 M i j +
      ∑ a : Fin 6, ∑ b : Fin 6, poseD D t a i / poseScale SR ST a * sym 6 S a b * (poseD D t b j / poseScale SR ST b) := by
    intro i j hij hj
    rw [rtJJ_upper M D t S SR ST i j hij hj, Finset.sum_comm]
    congr 1
    refine Finset.sum_congr rfl fun b _ => ?_
    rw [rtThis_eq D t S SR ST i b (by omega) b.isLt, Finset.sum_mul]
  rcases Nat.le_total i j with h | h
  · exact up i j h hj
  · rw [sym_comm, sym_comm 6 M, up j i h hi, Finset.sum_comm]
    congr 1
    refine Finset.sum_congr rfl fun a _ => Finset.sum_congr rfl fun b _ => ?_
    rw [sym_comm 6 S]
    ring

theorem pointJJ_upper (M p S : Arr) (i j : Nat) (hij : i ≤ j) (hj : j < 6) :
    sym 6 (addAt M (pointJJ p S)) i j = sym 6 M i j +
      ∑ b : Fin 3, (if i < 3 then pointA (fun k => p k) S i b else pointB S (i - 3) b) * (pointD (fun k => p k * scalePoint) b j / scalePoint) := by
  simp only [Fin.sum_univ_three]
  have hs : scalePoint ≠ 0 := by unfold scalePoint scaleTransFrame; norm_num
  unfold sym
  rw [addAt_apply]
  congr 1
  have r2 : List.range' (indexSym 6 3 3) (21 - indexSym 6 3 3) = [15, 16, 17, 18, 19, 20] := rfl
  unfold pointJJ
  rw [r2]
  unfold pointB
  generalize pointA p S = A
  interval_cases j <;> interval_cases i <;>
    (simp [upper3, all3, ivalue3, pointD, skewCol, indexSym]; try field_simp; try ring)

theorem pointThis_eq (p S : Arr) (i j : Nat) (hi : i < 6) (hj : j < 3) :
    (if i < 3 then pointA p S i j else pointB S (i - 3) j) = ∑ a : Fin 3, pointD (fun k => p k * scalePoint) a i / scalePoint * sym 3 S a j := by
  rw [Fin.sum_univ_three]
  have hs : scalePoint ≠ 0 := by unfold scalePoint scaleTransFrame; norm_num
  interval_cases i <;> interval_cases j <;>
    (simp [pointA, pointB, skewRow, pointD, sym, skewCol, indexSym]; try field_simp; try ring)

theorem pointJJ_eq (M p S : Arr) (i j : Nat) (hi : i < 6) (hj : j < 6) :
    sym 6 (addAt M (pointJJ p S)) i j = sym 6 M i j +
      ∑ a : Fin 3, ∑ b : Fin 3, pointD (fun k => p k * scalePoint) a i / scalePoint * sym 3 S a b * (pointD (fun k => p k * scalePoint) b j / scalePoint) := by
  have up : ∀ i j : Nat, i ≤ j → j < 6 → sym 6 (addAt M (pointJJ p S)) i j = sym 6 M i j +
      ∑ a : Fin 3, ∑ b : Fin 3, pointD (fun k => p k * scalePoint) a i / scalePoint * sym 3 S a b * (pointD (fun k => p k * scalePoint) b j / scalePoint) := by
    intro i j hij hj
    rw [pointJJ_upper M p S i j hij hj, Finset.sum_comm]
    congr 1
    refine Finset.sum_congr rfl fun b _ => ?_
    rw [pointThis_eq p S i b (by omega) b.isLt, Finset.sum_mul]
  rcases Nat.le_total i j with h | h
  · exact up i j h hj
  · rw [sym_comm, sym_comm 6 M, up j i h hi, Finset.sum_comm]
    congr 1
    refine Finset.sum_congr rfl fun a _ => Finset.sum_congr rfl fun b _ => ?_
    rw [sym_comm 3 S]
    ring

/-! ### the sums of products -/

theorem outerUpper6 (v : Arr) (i j : Nat) (hi : i < 6) (hj : j < 6) : (outerUpper 6 v).getD (indexSym 6 i j) 0 = v i * v j := by
  have : outerUpper 6 v = [v 0 * v 0, v 0 * v 1, v 0 * v 2, v 0 * v 3, v 0 * v 4, v 0 * v 5, v 1 * v 1, v 1 * v 2, v 1 * v 3, v 1 * v 4, v 1 * v 5,
    v 2 * v 2, v 2 * v 3, v 2 * v 4, v 2 * v 5, v 3 * v 3, v 3 * v 4, v 3 * v 5, v 4 * v 4, v 4 * v 5, v 5 * v 5] := rfl
  rw [this]
  interval_cases i <;> interval_cases j <;> simp [indexSym, mul_comm]

theorem outerUpper3 (v : Arr) (i j : Nat) (hi : i < 3) (hj : j < 3) : (outerUpper 3 v).getD (indexSym 3 i j) 0 = v i * v j := by
  have : outerUpper 3 v = [v 0 * v 0, v 0 * v 1, v 0 * v 2, v 1 * v 1, v 1 * v 2, v 2 * v 2] := rfl
  rw [this]
  interval_cases i <;> interval_cases j <;> simp [indexSym, mul_comm]

theorem outerDense_getD (n : Nat) (hn : n = 6 ∨ n = 3 ∨ n = 2) (v w : Arr) (i j : Nat) (hi : i < 6) (hj : j < n) :
    (outerDense n v w).getD (i * n + j) 0 = v i * w j := by
  have r6 : List.range 6 = [0, 1, 2, 3, 4, 5] := rfl
  have r3 : List.range 3 = [0, 1, 2] := rfl
  have r2 : List.range 2 = [0, 1] := rfl
  rcases hn with rfl | rfl | rfl <;> interval_cases i <;> interval_cases j <;> simp [outerDense, r6, r3, r2]

end Mrcal.Uncertainty

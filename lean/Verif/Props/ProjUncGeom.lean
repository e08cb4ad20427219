import Verif.Model.ProjUncertainty
import Verif.Props.ComposeRProps
import Verif.Props.PoseRtProps
/-
Moving points: the geometry behind projection_uncertainty()
-/
namespace Mrcal.ProjUnc
open Mrcal Mrcal.Pose Matrix

def ofVec (v : Fin 3 → ℝ) : P3 := ⟨v 0, v 1, v 2⟩

/-- **Specification**: the point p, transformed by T. A point at infinity is only rotated -/
noncomputable def act (atinfinity : Bool) (T : RtV) (p : P3) : P3 := ofVec (rod T.r *ᵥ toVec p + if atinfinity then 0 else toVec T.t)

theorem toVec_ofVec (v : Fin 3 → ℝ) : toVec (ofVec v) = v := by ext i; fin_cases i <;> rfl
theorem ofVec_toVec (v : P3) : ofVec (toVec v) = v := rfl

theorem act_vec (at_ : Bool) (T : RtV) (p : P3) : toVec (act at_ T p) = rod T.r *ᵥ toVec p + if at_ then 0 else toVec T.t := toVec_ofVec _

theorem rod_inv (r : P3) : (rod r)ᵀ * rod r = 1 := by
  obtain ⟨M, hM, hr⟩ := rod_rot r
  rw [← hM]
  exact mul_eq_one_comm.1 hr.1

theorem rod_inv' (r : P3) : rod r * (rod r)ᵀ = 1 := mul_eq_one_comm.1 (rod_inv r)

theorem act_inj (at_ : Bool) (T : RtV) (p q : P3) (h : act at_ T p = act at_ T q) : p = q := by
  have h1 := congrArg toVec h
  rw [act_vec, act_vec] at h1
  have h2 := congrArg ((rod T.r)ᵀ *ᵥ ·) (add_right_cancel h1)
  simp only [mulVec_mulVec, rod_inv, one_mulVec] at h2
  exact toVec_inj h2

/-- the inverse transformation -/
theorem act_toPose (T : RtV) (at_ : Bool) (p : P3) (h : 1e-5 ≤ mag3 T.r ∨ T.r = ⟨0, 0, 0⟩) : act at_ T (toPose T at_ p) = p := by
  refine toVec_inj ?_
  rw [act_vec]
  unfold toPose
  cases at_ with
  | false =>
    simp only [Bool.not_false, if_true, Bool.false_eq_true, if_false]
    rw [transform_x, if_pos rfl, rotate_meaning _ _ _ _ _ h]
    unfold rotSpec
    rw [if_pos rfl, toVec_sub, mulVec_mulVec, rod_inv', one_mulVec]
    simp
  | true =>
    simp only [Bool.not_true, Bool.false_eq_true, if_false, if_true, add_zero]
    rw [rotate_meaning _ _ _ _ _ (by rw [mag3_neg]; exact h.imp id fun h => by rw [h]; simp [negP])]
    unfold rotSpec
    rw [if_neg (by simp), rod_neg, mulVec_mulVec, rod_inv', one_mulVec]

/-- everything moves: the pose and the point -/
theorem act_deriv (at_ : Bool) (T : ℝ → RtV) (x : ℝ → P3) (r' t' x' : P3) (t : ℝ) (hr : HasDerivP (fun s => (T s).r) r' t) (ht : HasDerivP (fun s => (T s).t) t' t)
    (hx : HasDerivP x x' t) (h : 1e-5 ≤ mag3 (T t).r ∨ (T t).r = ⟨0, 0, 0⟩) :
    let J := poseGrad (T t) at_ (x t)
    HasDerivP (fun s => act at_ (T s) (x s)) (addP (addP (mulVec J.1 r') (if at_ then ⟨0, 0, 0⟩ else mulVec J.2.1 t')) (mulVec J.2.2 x')) t := by
  intro J
  cases at_ with
  | false =>
    obtain ⟨Jr, Jt, Jx, e1, e2, hd⟩ := transform_rt_gradient T x r' t' x' t false hr ht hx h
    have eJ : J = (Jr, Jt, Jx) := by
      simp only [J, poseGrad, Bool.not_false, if_true, e1, e2, Option.getD_some]
    rw [eJ]
    simp only [Bool.false_eq_true, if_false]
    have ev : ∀ s, trS (T s) (toVec (x s)) false = toVec (act false (T s) (x s)) := by
      intro s
      rw [act_vec]
      simp [trS]
    simp only [ev] at hd
    exact ⟨hd 0, hd 1, hd 2⟩
  | true =>
    obtain ⟨Jr, Jx, e1, e2, hd⟩ := rotate_gradient (fun s => (T s).r) x r' x' t false hr hx h
    have eJ : J = (Jr, identityR, Jx) := by
      simp only [J, poseGrad, Bool.not_true, Bool.false_eq_true, if_false, e1, e2, Option.getD_some]
    rw [eJ]
    simp only [if_true]
    have ev : ∀ s, rotSpec (T s).r (x s) false = toVec (act true (T s) (x s)) := by
      intro s
      rw [act_vec]
      simp [rotSpec]
    simp only [ev] at hd
    have ez : addP (addP (mulVec Jr r') ⟨0, 0, 0⟩) (mulVec Jx x') = addP (mulVec Jr r') (mulVec Jx x') := by
      simp [addP]
    rw [ez]
    exact ⟨hd 0, hd 1, hd 2⟩

/-- **Specification**: a transformation that leaves the identity with this velocity -/
structure Leaves (T : ℝ → RtV) (u : Nat → ℝ) : Prop where
  r0 : (T 0).r = ⟨0, 0, 0⟩
  t0 : (T 0).t = ⟨0, 0, 0⟩
  r : HasDerivP (fun s => (T s).r) ⟨u 0, u 1, u 2⟩ 0
  t : HasDerivP (fun s => (T s).t) ⟨u 3, u 4, u 5⟩ 0

/-- the point that the transformation takes to p -/
theorem back_deriv (at_ : Bool) (T : ℝ → RtV) (u : Nat → ℝ) (h : Leaves T u) (p : P3) (q : ℝ → P3) (hq : ∀ s, act at_ (T s) (q s) = p) :
    q 0 = p ∧ HasDerivP q (addP (mulVec (skew p) ⟨u 0, u 1, u 2⟩) (if at_ then ⟨0, 0, 0⟩ else negP ⟨u 3, u 4, u 5⟩)) 0 := by
  have hv : ∀ s, toVec (q s) = (rod (T s).r)ᵀ *ᵥ (toVec p - if at_ then 0 else toVec (T s).t) := by
    intro s
    have h1 := congrArg toVec (hq s)
    rw [act_vec] at h1
    rw [← h1, add_sub_cancel_right, mulVec_mulVec, rod_inv, one_mulVec]
  have dR : ∀ i j, HasDerivAt (fun s => rod (T s).r i j) (toMat ⟨0, -u 2, u 1, u 2, 0, -u 0, -u 1, u 0, 0⟩ i j) 0 := by
    intro i j
    have := rod_path (fun s => (T s).r) _ 0 h.r (Or.inr h.r0) i j
    simp only [h.r0, comb_J_zero] at this
    exact this
  have R0 : rod (T 0).r = 1 := by rw [h.r0, rod_zero]
  have dq : ∀ i : Fin 3, HasDerivAt (fun s => toVec (q s) i) (∑ j, (toMat ⟨0, -u 2, u 1, u 2, 0, -u 0, -u 1, u 0, 0⟩ j i * toVec p j) - if at_ then 0 else ![u 3, u 4, u 5] i) 0 := by
    intro i
    have e : ∀ s, toVec (q s) i = ∑ j, rod (T s).r j i * (toVec p j - if at_ then 0 else toVec (T s).t j) := by
      intro s
      rw [hv s]
      simp only [Matrix.mulVec, dotProduct, transpose_apply, Pi.sub_apply]
      cases at_ <;> simp
    simp only [e]
    have dt : ∀ j : Fin 3, HasDerivAt (fun s => toVec (T s).t j) (![u 3, u 4, u 5] j) 0 := by
      intro j
      fin_cases j
      · exact h.t.1
      · exact h.t.2.1
      · exact h.t.2.2
    have one : ∀ j : Fin 3, HasDerivAt (fun s => rod (T s).r j i * (toVec p j - if at_ then 0 else toVec (T s).t j))
        (toMat ⟨0, -u 2, u 1, u 2, 0, -u 0, -u 1, u 0, 0⟩ j i * toVec p j - (1 : Matrix (Fin 3) (Fin 3) ℝ) j i * if at_ then 0 else ![u 3, u 4, u 5] j) 0 := by
      intro j
      cases at_ with
      | true =>
        simp only [if_true, sub_zero, mul_zero]
        exact (dR j i).mul_const _
      | false =>
        simp only [Bool.false_eq_true, if_false]
        have := (dR j i).mul ((dt j).const_sub (toVec p j))
        refine HasDerivAt.congr_deriv this ?_
        rw [R0, h.t0]
        have z : toVec (⟨0, 0, 0⟩ : P3) j = 0 := by fin_cases j <;> rfl
        rw [z]
        ring
    refine HasDerivAt.congr_deriv (HasDerivAt.fun_sum fun j _ => one j) ?_
    rw [Finset.sum_sub_distrib]
    congr 1
    cases at_ with
    | true => simp
    | false => simp [Matrix.one_apply]
  refine ⟨?_, ?_⟩
  · refine toVec_inj ?_
    rw [hv 0, R0, h.t0]
    have z : toVec (⟨0, 0, 0⟩ : P3) = 0 := by ext j; fin_cases j <;> rfl
    rw [z]
    cases at_ <;> simp
  · refine ⟨HasDerivAt.congr_deriv (dq 0) ?_, HasDerivAt.congr_deriv (dq 1) ?_, HasDerivAt.congr_deriv (dq 2) ?_⟩ <;>
      cases at_ <;> simp [Fin.sum_univ_three, toMat, toVec, skew, Pose.mulVec, addP, negP] <;> ring

end Mrcal.ProjUnc

import Verif.Props.TriPyCols
import Verif.Props.ProjUncMain
/-
C94: the triangulated point moves, when the calibration does
-/
namespace Mrcal.TriPy
open Mrcal Mrcal.Pose Mrcal.Tri Mrcal.AD Mrcal.Callback Mrcal.Pack Mrcal.StateLayout Mrcal.Propagate Mrcal.Uncertainty Mrcal.ProjUnc Mrcal.UnprojectPy Matrix

/-- **Specification**: the inverse of a transformation -/
noncomputable def back (T : RtV) (p : P3) : P3 := ofVec ((rod T.r)ᵀ *ᵥ (toVec p - toVec T.t))

theorem back_spec (T : RtV) (p : P3) : ProjUnc.act false T (back T p) = p ∧ back T (ProjUnc.act false T p) = p := by
  refine ⟨toVec_inj ?_, toVec_inj ?_⟩
  · rw [act_vec]
    unfold back
    rw [toVec_ofVec, mulVec_mulVec, rod_inv', one_mulVec]
    simp
  · unfold back
    rw [toVec_ofVec, act_vec]
    simp only [Bool.false_eq_true, if_false, add_sub_cancel_right]
    rw [mulVec_mulVec, rod_inv, one_mulVec]

/-- **Specification**: the point p, in the coordinates of the moved camera e, as seen by the original camera. The boards tie the two together: the point is at a fixed place on each one; we look at the mean.
If the boards are not moving, then the reference coordinates are fixed. Without stabilization, the coordinates of the moved camera are reported -/
noncomputable def settled (P : Problem) (stabilize : Bool) (e : Int) (Q : Params) (p : P3) : P3 :=
  if stabilize then ProjUnc.act false (camPose P.seed e)
    (if P.d.sel.frames = true ∧ 0 < P.d.Nframes then mean (Finset.range P.d.Nframes.toNat) fun i => ProjUnc.act false (frameOf P.seed i) (back (frameOf Q i) (back (camPose Q e) p))
     else back (camPose Q e) p)
  else p

/-- **Specification**: the triangulated point; this is the function that the user passes in the `method` argument -/
noncomputable def triPoint (method : Method) (v0 v1 t01 : P3) : P3 := (call method v0 v1 (some t01) false none).getD ⟨0, 0, 0⟩

/-- **Specification**: the point was found, and the method is differentiable here. These are the conditions in C63 -/
def Found (method : Method) (v0 v1 t : P3) : Prop :=
  triPoint method v0 v1 t ≠ ⟨0, 0, 0⟩ ∧ match method with
  | .geometric => True
  | .leeciveraMid2 => True
  | .leeciveraWmid2 => True
  | .leeciveraL1 => v0 ≠ zerop ∧ NotBaseline v0 v1 t ∧ triPoint .leeciveraL1 v0 v1 t ≠ t ∧ dotp v0 t * dotp v0 t * len2 v1 ≠ dotp v1 t * dotp v1 t * len2 v0
  | .leeciveraLinf => v0 ≠ zerop ∧ v1 ≠ zerop ∧ NotBaseline v0 v1 t ∧ triPoint .leeciveraLinf v0 v1 t ≠ t ∧ dotp (crossp v0 t) (crossp v1 t) ≠ 0
  | .lindstrom => False

theorem rowsM_mul (J : P3 × P3 × P3) (w : P3) : Pose.mulVec (rowsM J) w = rowsMul J w := by
  ext <;> simp [rowsM, Pose.mulVec, rowsMul, dotp]

theorem triPoint_eq (method : Method) (F) (h : method.routine = some F) (v0 v1 t : P3) : triPoint method v0 v1 t = point (seeded F v0 v1 t) := by
  unfold triPoint call
  rw [h]
  rfl

theorem call_point (method : Method) (v0 v1 t : P3) (c : Called) (h : callGrad method v0 v1 t = some c) : c.p = triPoint method v0 v1 t := by
  unfold callGrad at h
  cases hr : method.routine with
  | none => rw [hr] at h; simp at h
  | some F =>
    rw [triPoint_eq method F hr]
    rw [hr] at h
    simp only [parseArgs, Bool.false_eq_true, if_false, Option.map_some, Option.some.injEq] at h
    rw [← h]
    cases gradients (seeded F v0 v1 t) <;> rfl

/-- the gradients of the method -/
theorem call_deriv (method : Method) (v0 v1 t : P3) (c : Called) (h : callGrad method v0 v1 t = some c) (hf : Found method v0 v1 t)
    (c0 c1 ct : ℝ → P3) (w0 w1 wt : P3) (e0 : c0 0 = v0) (e1 : c1 0 = v1) (et : ct 0 = t) (h0 : HasDerivP c0 w0 0) (h1 : HasDerivP c1 w1 0) (ht : HasDerivP ct wt 0) :
    HasDerivP (fun s => triPoint method (c0 s) (c1 s) (ct s)) (addP (addP (Pose.mulVec c.dv0 w0) (Pose.mulVec c.dv1 w1)) (Pose.mulVec c.dt01 wt)) 0 := by
  unfold callGrad at h
  cases hr : method.routine with
  | none => rw [hr] at h; simp at h
  | some F =>
    rw [hr] at h
    simp only [parseArgs, Bool.false_eq_true, if_false, Option.map_some, Option.some.injEq] at h
    obtain ⟨hp, hm⟩ := hf
    have hp' := hp
    rw [triPoint_eq method F hr] at hp'
    simp only [triPoint_eq method F hr]
    cases hg : gradients (seeded F v0 v1 t) with
    | none =>
      exfalso
      apply hp'
      have : seeded F v0 v1 t = none := by
        unfold gradients at hg
        exact Option.map_eq_none_iff.1 hg
      rw [this]
      rfl
    | some J =>
      rw [hg] at h
      simp only at h
      subst h
      simp only [rowsM_mul]
      have hJ : JacobianAt (fun a b c => point (seeded F a b c)) J v0 v1 t := by
        cases method with
        | geometric => obtain rfl := Option.some.inj hr; exact geometric_gradient v0 v1 t J hg
        | leeciveraMid2 => obtain rfl := Option.some.inj hr; exact mid2_gradient v0 v1 t J hg
        | leeciveraWmid2 => obtain rfl := Option.some.inj hr; exact wmid2_gradient v0 v1 t J hg
        | leeciveraL1 =>
          obtain rfl := Option.some.inj hr
          obtain ⟨a, b, cc, d⟩ := hm
          rw [triPoint_eq _ _ rfl] at cc
          exact l1_gradient v0 v1 t J hg a b cc d
        | leeciveraLinf =>
          obtain rfl := Option.some.inj hr
          obtain ⟨a, a', b, cc, d⟩ := hm
          rw [triPoint_eq _ _ rfl] at cc
          exact linf_gradient v0 v1 t J hg a a' b cc d
        | lindstrom => exact hm.elim
      exact hJ c0 c1 ct w0 w1 wt 0 e0 e1 et h0 h1 ht

/-! ### stabilization -/

theorem back_trS (T : RtV) (p : P3) : toVec (back T p) = trS T (toVec p) true := by
  unfold back trS
  rw [toVec_ofVec, if_pos rfl]

/-- moving a point into moving coordinates -/
theorem back_deriv (T : ℝ → RtV) (x : ℝ → P3) (r' t' x' : P3) (hr : HasDerivP (fun s => (T s).r) r' 0) (ht : HasDerivP (fun s => (T s).t) t' 0) (hx : HasDerivP x x' 0) (ok : RotOk (T 0)) :
    let o := intoPose (T 0) (x 0)
    o.1 = back (T 0) (x 0) ∧ toMat o.2.2 = (rod (T 0).r)ᵀ ∧
      HasDerivP (fun s => back (T s) (x s)) (addP (addP (Pose.mulVec o.2.1.1 r') (Pose.mulVec o.2.1.2 t')) (Pose.mulVec o.2.2 x')) 0 := by
  intro o
  have e1 : o.1 = back (T 0) (x 0) := by
    refine toVec_inj ?_
    rw [back_trS]
    show toVec (transformPointrt (T 0) (x 0) true true true).x = _
    rw [transform_x, if_pos rfl, rotate_meaning _ _ _ _ _ ok]
    unfold rotSpec trS
    rw [if_pos rfl, if_pos rfl, toVec_sub]
  have der : ∀ (T : ℝ → RtV) (x : ℝ → P3) (r' t' x' : P3) (_ : HasDerivP (fun s => (T s).r) r' 0) (_ : HasDerivP (fun s => (T s).t) t' 0) (_ : HasDerivP x x' 0) (_ : RotOk (T 0)),
      HasDerivP (fun s => back (T s) (x s)) (addP (addP (Pose.mulVec (intoPose (T 0) (x 0)).2.1.1 r') (Pose.mulVec (intoPose (T 0) (x 0)).2.1.2 t')) (Pose.mulVec (intoPose (T 0) (x 0)).2.2 x')) 0 := by
    intro T x r' t' x' hr ht hx ok
    obtain ⟨Jr, Jt, Jx, j1, j2, hd⟩ := transform_rt_gradient T x r' t' x' 0 true hr ht hx ok
    have eo : (intoPose (T 0) (x 0)).2 = ((Jr, Jt), Jx) := by
      unfold intoPose
      simp only [j1, j2, Option.getD_some]
    rw [eo]
    simp only [← back_trS] at hd
    exact ⟨hd 0, hd 1, hd 2⟩
  refine ⟨e1, ?_, der T x r' t' x' hr ht hx ok⟩
  -- only the point moves
  have z : HasDerivP (fun _ : ℝ => (⟨0, 0, 0⟩ : P3)) ⟨0, 0, 0⟩ 0 := ⟨hasDerivAt_const _ _, hasDerivAt_const _ _, hasDerivAt_const _ _⟩
  have col : ∀ w : P3, toVec (Pose.mulVec o.2.2 w) = (rod (T 0).r)ᵀ *ᵥ toVec w := by
    intro w
    have hw : HasDerivP (fun s : ℝ => addP (x 0) ⟨s * w.x, s * w.y, s * w.z⟩) w 0 := by
      refine ⟨?_, ?_, ?_⟩
      · have := ((hasDerivAt_id' (0 : ℝ)).mul_const w.x).const_add (x 0).x; rwa [one_mul] at this
      · have := ((hasDerivAt_id' (0 : ℝ)).mul_const w.y).const_add (x 0).y; rwa [one_mul] at this
      · have := ((hasDerivAt_id' (0 : ℝ)).mul_const w.z).const_add (x 0).z; rwa [one_mul] at this
    have h1 := der (fun _ => T 0) _ ⟨0, 0, 0⟩ ⟨0, 0, 0⟩ w ⟨hasDerivAt_const _ _, hasDerivAt_const _ _, hasDerivAt_const _ _⟩ ⟨hasDerivAt_const _ _, hasDerivAt_const _ _, hasDerivAt_const _ _⟩ hw ok
    have ez : addP (x 0) ⟨0 * w.x, 0 * w.y, 0 * w.z⟩ = x 0 := by ext <;> simp [addP]
    beta_reduce at h1
    rw [ez, mulVec_zero, mulVec_zero, addP_zero, zero_addP] at h1
    have h2 : HasDerivP (fun s : ℝ => back (T 0) (addP (x 0) ⟨s * w.x, s * w.y, s * w.z⟩)) (ofVec ((rod (T 0).r)ᵀ *ᵥ toVec w)) 0 := by
      have hv : ∀ i, HasDerivAt (fun s : ℝ => toVec (back (T 0) (addP (x 0) ⟨s * w.x, s * w.y, s * w.z⟩)) i) (((rod (T 0).r)ᵀ *ᵥ toVec w) i) 0 := by
        intro i
        have e : ∀ s : ℝ, toVec (back (T 0) (addP (x 0) ⟨s * w.x, s * w.y, s * w.z⟩)) i = toVec (back (T 0) (x 0)) i + s * ((rod (T 0).r)ᵀ *ᵥ toVec w) i := by
          intro s
          unfold back
          rw [toVec_ofVec, toVec_ofVec, toVec_add]
          have : toVec ⟨s * w.x, s * w.y, s * w.z⟩ = s • toVec w := by ext i; fin_cases i <;> simp [toVec]
          rw [this, add_sub_right_comm, Matrix.mulVec_add, Matrix.mulVec_smul]
          simp
        simp only [e]
        have := ((hasDerivAt_id' (0 : ℝ)).mul_const (((rod (T 0).r)ᵀ *ᵥ toVec w) i)).const_add (toVec (back (T 0) (x 0)) i)
        rwa [one_mul] at this
      exact ⟨hv 0, hv 1, hv 2⟩
    rw [HasDerivP.unique h1 h2, toVec_ofVec]
  ext i j
  have := congrFun (col (ofVec (Pi.single j 1))) i
  rw [toVec_mulVec, toVec_ofVec] at this
  simpa using this

theorem inverse3_rot (A B : M3) (h : inverse3 A = some B) (R : Matrix (Fin 3) (Fin 3) ℝ) (hR : R * Rᵀ = 1) (hA : toMat A = Rᵀ) : toMat B = R := by
  have hAB : toMat A * toMat B = 1 := by
    unfold inverse3 at h
    simp only at h
    obtain ⟨D, hD⟩ : ∃ D, D = A.a00 * (A.a11 * A.a22 - A.a12 * A.a21) - A.a01 * (A.a10 * A.a22 - A.a12 * A.a20) + A.a02 * (A.a10 * A.a21 - A.a11 * A.a20) := ⟨_, rfl⟩
    rw [← hD] at h
    split_ifs at h with hd
    obtain rfl := Option.some.inj h
    ext i j
    fin_cases i <;> fin_cases j <;> simp [toMat, Matrix.mul_apply, Fin.sum_univ_three] <;> field_simp <;> first | ring1 | linear_combination -hD
  rw [hA] at hAB
  calc toMat B = (R * Rᵀ) * toMat B := by rw [hR, one_mul]
    _ = R * (Rᵀ * toMat B) := by rw [Matrix.mul_assoc]
    _ = R := by rw [hAB, mul_one]

/-- a fixed transformation -/
theorem act_fixed (T : RtV) (x : ℝ → P3) (x' : P3) (hx : HasDerivP x x' 0) : HasDerivP (fun s => ProjUnc.act false T (x s)) (ofVec (rod T.r *ᵥ toVec x')) 0 := by
  have hv : ∀ i, HasDerivAt (fun s : ℝ => toVec (ProjUnc.act false T (x s)) i) ((rod T.r *ᵥ toVec x') i) 0 := by
    intro i
    simp only [act_vec, Bool.false_eq_true, if_false, Pi.add_apply]
    have hx' : ∀ j, HasDerivAt (fun s => toVec (x s) j) (toVec x' j) 0 := by
      intro j
      fin_cases j
      · exact hx.1
      · exact hx.2.1
      · exact hx.2.2
    have : HasDerivAt (fun s => ∑ j, rod T.r i j * toVec (x s) j) (∑ j, rod T.r i j * toVec x' j) 0 := HasDerivAt.fun_sum fun j _ => (hx' j).const_mul _
    exact this.add_const _
  exact ⟨hv 0, hv 1, hv 2⟩

theorem ofVec_add (a b : Fin 3 → ℝ) : ofVec (a + b) = addP (ofVec a) (ofVec b) := rfl

/-- the camera term -/
theorem stabilize0_term (T : RtV) (p : P3) (J : M3 × M3) (h : stabilize0 T p = some J) (hT : toMat (intoPose T p).2.2 = (rod T.r)ᵀ) (r' t' x' : P3) :
    ofVec (rod T.r *ᵥ toVec (addP (addP (Pose.mulVec (intoPose T p).2.1.1 r') (Pose.mulVec (intoPose T p).2.1.2 t')) (Pose.mulVec (intoPose T p).2.2 x'))) =
      addP x' (addP (Pose.mulVec J.1 r') (Pose.mulVec J.2 t')) := by
  unfold stabilize0 at h
  obtain ⟨B, hB, hJ⟩ := Option.map_eq_some_iff.1 h
  have eB := inverse3_rot _ B hB (rod T.r) (rod_inv' _) hT
  subst hJ
  simp only [mulVec_mul]
  refine toVec_inj ?_
  simp only [toVec_ofVec, toVec_add, toVec_mulVec, eB, hT, Matrix.mulVec_add, Matrix.mulVec_mulVec, rod_inv', one_mulVec]
  abel

/-- the term of one board -/
theorem stabilizeFrame_term (T Tf : RtV) (p : P3) (J : M3 × M3) (h : stabilizeFrame T Tf p = some J) (hT : toMat (intoPose T p).2.2 = (rod T.r)ᵀ)
    (hTf : toMat (intoPose Tf (intoPose T p).1).2.2 = (rod Tf.r)ᵀ) (r' t' x' : P3) :
    rod T.r *ᵥ (rod Tf.r *ᵥ toVec (addP (addP (Pose.mulVec (intoPose Tf (intoPose T p).1).2.1.1 r') (Pose.mulVec (intoPose Tf (intoPose T p).1).2.1.2 t'))
      (Pose.mulVec (intoPose Tf (intoPose T p).1).2.2 x'))) = rod T.r *ᵥ toVec x' + toVec (addP (Pose.mulVec J.1 r') (Pose.mulVec J.2 t')) := by
  unfold stabilizeFrame at h
  obtain ⟨B, hB, hJ⟩ := Option.map_eq_some_iff.1 h
  have eB := inverse3_rot _ B hB (rod T.r * rod Tf.r) (by rw [Matrix.transpose_mul, Matrix.mul_assoc, ← Matrix.mul_assoc (rod Tf.r), rod_inv', one_mul, rod_inv'])
    (by rw [toMat_mul, hTf, hT, Matrix.transpose_mul])
  subst hJ
  simp only [mulVec_mul]
  have ei : rod T.r * (rod Tf.r * (rod Tf.r)ᵀ) = rod T.r := by rw [rod_inv', mul_one]
  simp only [toVec_add, toVec_mulVec, eB, hTf, Matrix.mulVec_add, Matrix.mulVec_mulVec, ← Matrix.mul_assoc]
  simp only [Matrix.mul_assoc, rod_inv', mul_one]
  abel

end Mrcal.TriPy

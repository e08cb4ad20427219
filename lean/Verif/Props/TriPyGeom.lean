import Verif.Props.TriPyRay
import Verif.Props.TriangulateGradProps
import Verif.Props.TriangulateRayGradProps
/-
C94: the geometry of two moving cameras
-/
namespace Mrcal.TriPy
open Mrcal Mrcal.Pose Mrcal.Tri Mrcal.AD Mrcal.Callback Mrcal.ProjUnc Matrix

/-- **Specification**: a direction seen by camera 1, in the coordinates of camera 0. T0, T1: these map the reference coordinates to the coordinates of each camera -/
noncomputable def dirIn0 (T0 T1 : RtV) (v : P3) : P3 := ofVec (rod T0.r *ᵥ ((rod T1.r)ᵀ *ᵥ toVec v))

/-- **Specification**: the position of camera 1, in the coordinates of camera 0 -/
noncomputable def center (T0 T1 : RtV) : P3 := act false T0 (ofVec ((rod T1.r)ᵀ *ᵥ (-toVec T1.t)))

/-- the point of camera 1 that's at its origin -/
theorem center_spec (T0 T1 : RtV) : ∃ c, act false T1 c = ⟨0, 0, 0⟩ ∧ center T0 T1 = act false T0 c := by
  refine ⟨_, ?_, rfl⟩
  refine toVec_inj ?_
  rw [act_vec, toVec_ofVec, mulVec_mulVec, rod_inv', one_mulVec]
  simp only [Bool.false_eq_true, if_false, neg_add_cancel]
  ext i; fin_cases i <;> simp [toVec]

/-- **Specification**: the rotations for which the reported gradients are those of the relative rotation. One of the cameras defines the reference coordinates; or both are rotated, and so is one
with respect to the other (by an angle of at least 1e-5, and not by exactly 180 degrees) -/
def Turned (T0 T1 : ℝ → RtV) : Prop :=
  ((∀ s, (T0 s).r = ⟨0, 0, 0⟩) ∧ RotOk (T1 0)) ∨ ((∀ s, (T1 s).r = ⟨0, 0, 0⟩) ∧ RotOk (T0 0)) ∨
    (2e-5 < mag3 (T0 0).r ∧ 2e-5 < mag3 (T1 0).r ∧ (rod (T0 0).r * (rod (T1 0).r)ᵀ).trace ≤ 3 - 1e-10 ∧ (rod (T0 0).r * (rod (T1 0).r)ᵀ).trace ≠ -1)

theorem RotOk.neg {r t : P3} (h : RotOk ⟨r, t⟩) (t' : P3) : RotOk ⟨negP r, t'⟩ := by
  unfold RotOk at h ⊢
  rw [mag3_neg]
  exact h.imp id fun h => by simp only at h; rw [h]; simp [negP]

theorem core_zero1_j {N : Nat} (g0 g1 : Vec3 N) (h : g1.value = ⟨0, 0, 0⟩) (i : Fin N) (hx' : g1.x.j i = 0) (hy' : g1.y.j i = 0) (hz' : g1.z.j i = 0) :
    (⟨(composeRCore g0 g1).x.j i, (composeRCore g0 g1).y.j i, (composeRCore g0 g1).z.j i⟩ : P3) = ⟨g0.x.j i, g0.y.j i, g0.z.j i⟩ := by
  have m0 : mag3 ⟨0, 0, 0⟩ = 0 := by simp [mag3]
  have e : 0 < cEps := by unfold cEps; norm_num
  have hB : (g1.mag.divC 2).x < cEps := by rw [half_x, h, m0]; linarith
  have hx : g1.x.x = 0 := congrArg P3.x h
  have hy : g1.y.x = 0 := congrArg P3.y h
  have hz : g1.z.x = 0 := congrArg P3.z h
  unfold composeRCore
  simp only [hB, if_true]
  split
  · simp [Vec3.add, Val.add, hx', hy', hz']
  · have hi : (g0.dot g1).x = 0 := by rw [Pose.dot_x, h]; simp [inner3]
    have hij : (g0.dot g1).j i = 0 := by simp [Vec3.dot, Val.add, Val.mul, Val.ofR, hx, hy, hz, hx', hy', hz']
    simp only [Val.add, Val.mul, Val.sub, Val.ofR, Val.div, Val.mulC, Val.subC, hi, hij]
    simp [Vec3.cross, Val.sub, Val.mul, Val.divC, Val.mulC, hx, hy, hz, hx', hy', hz']

/-- compose_r(r, 0): the gradient with respect to r -/
theorem compose_zero1_gradient (r : P3) : (composer r ⟨0, 0, 0⟩ false false true true).J0 = some identityR := by
  have key := fun i => core_zero1_j (Vec3.init r (some 0) : Vec3 6) (Vec3.init ⟨0, 0, 0⟩ (some 3)) rfl i
  have hc : (composer r ⟨0, 0, 0⟩ false false true true).J0 =
       some (gradM (composeRCore (Vec3.init r (some 0) : Vec3 6) (Vec3.init ⟨0, 0, 0⟩ (some 3))) 0 (by omega)) := rfl
  rw [hc]
  generalize composeRCore (Vec3.init r (some 0) : Vec3 6) (Vec3.init ⟨0, 0, 0⟩ (some 3)) = G at *
  have k0 := key 0
  have k1 := key 1
  have k2 := key 2
  simp only [Vec3.init, P3.mk.injEq] at k0 k1 k2
  norm_num at k0 k1 k2
  simp only [gradM, Vec3.grad, Option.some.injEq, identityR]
  ext
  · exact k0.1
  · exact k1.1
  · exact k2.1
  · exact k0.2.1
  · exact k1.2.1
  · exact k2.2.1
  · exact k0.2.2
  · exact k1.2.2
  · exact k2.2.2

theorem rod_trace (r : P3) (h : mag3 r ≠ 0) : (rod r).trace = 1 + 2 * Real.cos (mag3 r) := by
  have hu := axis_unit r h
  rw [rod_eq, if_neg h]
  simp only [Matrix.trace, Matrix.diag, Fin.sum_univ_three, toMat, rodM]
  simp
  linear_combination (1 - Real.cos (mag3 r)) * hu

theorem far_from_0 (r : P3) (h : (rod r).trace ≤ 3 - 1e-10) : 1e-5 ≤ mag3 r := by
  have hn := mag3_nonneg r
  have hne : mag3 r ≠ 0 := by
    intro h0
    have : r = ⟨0, 0, 0⟩ := by
      have := mag3_sq r
      rw [h0] at this
      ext <;> simp only <;> nlinarith [sq_nonneg r.x, sq_nonneg r.y, sq_nonneg r.z]
    rw [this, rod_zero] at h
    norm_num [Matrix.trace, Fin.sum_univ_three] at h
  rw [rod_trace r hne] at h
  have := Real.one_sub_sq_div_two_le_cos (x := mag3 r)
  by_contra hlt
  have hlt := not_le.1 hlt
  have : mag3 r ^ 2 < (1e-5 : ℝ) ^ 2 := pow_lt_pow_left₀ hlt hn (by norm_num)
  norm_num at *
  linarith

theorem rod_entry (r : P3) (i j : Fin 3) : rod r i j = rotSpec r (ofVec (Pi.single j 1)) false i := by
  unfold rotSpec
  rw [if_neg (by simp), toVec_ofVec]
  simp

/-- a rotation that moves is continuous -/
theorem rod_continuous (r : ℝ → P3) (r' : P3) (hr : HasDerivP r r' 0) (h : 1e-5 ≤ mag3 (r 0) ∨ r 0 = ⟨0, 0, 0⟩) (i j : Fin 3) : ContinuousAt (fun s => rod (r s) i j) 0 := by
  simp only [rod_entry]
  obtain ⟨_, _, _, _, hd⟩ := rotate_gradient r (fun _ => ofVec (Pi.single j 1)) r' ⟨0, 0, 0⟩ 0 false hr ⟨hasDerivAt_const _ _, hasDerivAt_const _ _, hasDerivAt_const _ _⟩ h
  exact (hd i).continuousAt

theorem mag_continuous (r : ℝ → P3) (r' : P3) (hr : HasDerivP r r' 0) : ContinuousAt (fun s => mag3 (r s)) 0 := by
  unfold mag3
  exact Real.continuous_sqrt.continuousAt.comp (((hr.1.continuousAt.mul hr.1.continuousAt).add (hr.2.1.continuousAt.mul hr.2.1.continuousAt)).add (hr.2.2.continuousAt.mul hr.2.2.continuousAt))

theorem mulVec_identity (v : P3) : Pose.mulVec identityR v = v := by ext <;> simp [Pose.mulVec, identityR]
theorem mulVec_zero (A : M3) : Pose.mulVec A ⟨0, 0, 0⟩ = ⟨0, 0, 0⟩ := by ext <;> simp [Pose.mulVec]

/-- the relative rotation -/
theorem turned_relative (T0 T1 : ℝ → RtV) (r0' r1' : P3) (h0 : HasDerivP (fun s => (T0 s).r) r0' 0) (h1 : HasDerivP (fun s => (T1 s).r) r1' 0) (hT : Turned T0 T1) :
    let ρ := fun s => (composer (T0 s).r (negP (T1 s).r) false false true true).r
    let comp := composert (T0 0) (invertrt (T1 0)).1 false false
    comp.rt.r = ρ 0 ∧ HasDerivP ρ (addP (Pose.mulVec comp.dr_r0 r0') (Pose.mulVec comp.dr_r1 (negP r1'))) 0 ∧ (∀ᶠ s in nhds 0, rod (ρ s) = rod (T0 s).r * (rod (T1 s).r)ᵀ) ∧
      (1e-5 ≤ mag3 (ρ 0) ∨ ρ 0 = ⟨0, 0, 0⟩) ∧ RotOk (T0 0) ∧ RotOk (T1 0) := by
  intro ρ comp
  obtain ⟨c1, c2, c3⟩ := compose_rt_rotation (T0 0) (invertrt (T1 0)).1 false false
  have er : (invertrt (T1 0)).1.r = negP (T1 0).r := rfl
  rw [er] at c1 c2 c3
  refine ⟨c1, ?_⟩
  have h1n : HasDerivP (fun s => negP (T1 s).r) (negP r1') 0 := ⟨h1.1.neg, h1.2.1.neg, h1.2.2.neg⟩
  rcases hT with ⟨hz, hok⟩ | ⟨hz, hok⟩ | ⟨m0, m1, ht, ht'⟩
  · have e : ∀ s, ρ s = negP (T1 s).r := by
      intro s
      simp only [ρ, hz s]
      rw [(compose_zero (negP (T1 s).r) false false true true).1]
      simp [flipP]
    have r0z : r0' = ⟨0, 0, 0⟩ := by
      simp only [hz] at h0
      exact HasDerivP.unique h0 ⟨hasDerivAt_const _ _, hasDerivAt_const _ _, hasDerivAt_const _ _⟩
    have j1 : comp.dr_r1 = identityR := by
      rw [hz 0, (compose_zero_gradient (negP (T1 0).r)).2] at c3
      exact Option.some.inj c3
    refine ⟨?_, Filter.Eventually.of_forall fun s => ?_, ?_, Or.inr (hz 0), hok⟩
    · have ef : ρ = fun s => negP (T1 s).r := funext e
      rw [ef, r0z, j1, mulVec_zero, mulVec_identity]
      have : addP ⟨0, 0, 0⟩ (negP r1') = negP r1' := by ext <;> simp [addP]
      rw [this]
      exact h1n
    · rw [e s, hz s, rod_zero, one_mul, rod_neg]
    · rw [e 0, mag3_neg]
      exact hok.imp id fun h => by rw [h]; simp [negP]
  · have nz : negP (⟨0, 0, 0⟩ : P3) = ⟨0, 0, 0⟩ := by simp [negP]
    have e : ∀ s, ρ s = (T0 s).r := by
      intro s
      simp only [ρ, hz s, nz]
      rw [(compose_zero (T0 s).r false false true true).2]
      simp [flipP]
    have r1z : r1' = ⟨0, 0, 0⟩ := by
      simp only [hz] at h1
      exact HasDerivP.unique h1 ⟨hasDerivAt_const _ _, hasDerivAt_const _ _, hasDerivAt_const _ _⟩
    have j0 : comp.dr_r0 = identityR := by
      rw [hz 0, nz, compose_zero1_gradient (T0 0).r] at c2
      exact Option.some.inj c2
    refine ⟨?_, Filter.Eventually.of_forall fun s => ?_, ?_, hok, Or.inr (hz 0)⟩
    · have ef : ρ = fun s => (T0 s).r := funext e
      rw [ef, r1z, j0, nz, mulVec_zero, mulVec_identity]
      have : addP r0' ⟨0, 0, 0⟩ = r0' := by ext <;> simp [addP]
      rw [this]
      exact h0
    · rw [e s, hz s, rod_zero, Matrix.transpose_one, mul_one]
    · rw [e 0]
      exact hok
  · have p5 : (1e-5 : ℝ) ≤ 2e-5 := by norm_num
    have ok0 : RotOk (T0 0) := Or.inl (by linarith)
    have ok1 : RotOk (T1 0) := Or.inl (by linarith)
    have hri : ∀ s, rodInv (T0 s).r false * rodInv (negP (T1 s).r) false = rod (T0 s).r * (rod (T1 s).r)ᵀ := by
      intro s
      simp only [rodInv, Bool.false_eq_true, if_false, rod_neg]
    have p3 : (3 : ℝ) - 1e-10 < 3 - 4e-16 := by norm_num
    obtain ⟨J0, J1, a0, a1, hd⟩ := compose_gradient (fun s => (T0 s).r) (fun s => negP (T1 s).r) r0' (negP r1') 0 false false h0 h1n m0 (by rw [mag3_neg]; exact m1)
      (by rw [hri 0]; linarith) (by rw [hri 0]; exact ht')
    rw [a0] at c2
    rw [a1] at c3
    have ev : ∀ᶠ s in nhds 0, rod (ρ s) = rod (T0 s).r * (rod (T1 s).r)ᵀ := by
      have n0 : ∀ᶠ s in nhds 0, 2e-5 < mag3 (T0 s).r := (mag_continuous _ _ h0).eventually (lt_mem_nhds m0)
      have n1 : ∀ᶠ s in nhds 0, 2e-5 < mag3 (T1 s).r := (mag_continuous _ _ h1).eventually (lt_mem_nhds m1)
      have ct : ContinuousAt (fun s => (rod (T0 s).r * (rod (T1 s).r)ᵀ).trace) 0 := by
        simp only [Matrix.trace, Matrix.diag, Matrix.mul_apply, Matrix.transpose_apply]
        exact tendsto_finsetSum _ fun i _ => tendsto_finsetSum _ fun j _ => (rod_continuous _ _ h0 ok0 i j).mul (rod_continuous _ _ h1 ok1 i j)
      have nt : ∀ᶠ s in nhds 0, (rod (T0 s).r * (rod (T1 s).r)ᵀ).trace < 3 - 4e-16 := ct.eventually (gt_mem_nhds (by linarith))
      filter_upwards [n0, n1, nt] with s a b c
      rw [← hri s]
      exact (compose_meaning (T0 s).r (negP (T1 s).r) false false true true a.le (by rw [mag3_neg]; exact b.le) (Or.inr (by rw [hri s]; exact c.le))).1
    refine ⟨?_, ev, Or.inl (far_from_0 _ ?_), ok0, ok1⟩
    · rw [show comp.dr_r0 = J0 from Option.some.inj c2, show comp.dr_r1 = J1 from Option.some.inj c3]
      exact hd
    · rw [ev.self_of_nhds]
      exact ht

/-- the direction that camera 1 sees, moving -/
theorem dir_deriv (T0 T1 : ℝ → RtV) (r0' r1' : P3) (h0 : HasDerivP (fun s => (T0 s).r) r0' 0) (h1 : HasDerivP (fun s => (T1 s).r) r1' 0) (hT : Turned T0 T1) (V : ℝ → P3) (w : P3) (hV : HasDerivP V w 0) :
    let comp := composert (T0 0) (invertrt (T1 0)).1 false false
    let v1 := rotatePointr comp.rt.r (V 0) false true true
    v1.x = dirIn0 (T0 0) (T1 0) (V 0) ∧
      HasDerivP (fun s => dirIn0 (T0 s) (T1 s) (V s)) (addP (Pose.mulVec (v1.Jr.getD identityR) (addP (Pose.mulVec comp.dr_r0 r0') (Pose.mulVec comp.dr_r1 (negP r1')))) (Pose.mulVec (v1.Jx.getD identityR) w)) 0 := by
  intro comp v1
  obtain ⟨e0, hd, hev, hok, -, -⟩ := turned_relative T0 T1 r0' r1' h0 h1 hT
  obtain ⟨Jr, Jx, j1, j2, hg⟩ := rotate_gradient _ V _ w 0 false hd hV hok
  beta_reduce at e0 j1 j2 hok
  rw [← e0] at j1 j2 hok
  have es : ∀ s, rod (composer (T0 s).r (negP (T1 s).r) false false true true).r = rod (T0 s).r * (rod (T1 s).r)ᵀ →
      rotSpec (composer (T0 s).r (negP (T1 s).r) false false true true).r (V s) false = toVec (dirIn0 (T0 s) (T1 s) (V s)) := by
    intro s h
    unfold rotSpec dirIn0
    rw [if_neg (by simp), toVec_ofVec, h, mulVec_mulVec]
  refine ⟨?_, ?_⟩
  · refine toVec_inj ?_
    rw [rotate_meaning _ _ _ _ _ hok, ← es 0 hev.self_of_nhds, e0]
  · rw [show v1.Jr = some Jr from j1, show v1.Jx = some Jx from j2]
    have key : ∀ i, HasDerivAt (fun s => toVec (dirIn0 (T0 s) (T1 s) (V s)) i) (toVec (addP (Pose.mulVec Jr (addP (Pose.mulVec comp.dr_r0 r0') (Pose.mulVec comp.dr_r1 (negP r1')))) (Pose.mulVec Jx w)) i) 0 :=
      fun i => (hg i).congr_of_eventuallyEq (hev.mono fun s h => congrFun (es s h).symm i)
    exact ⟨key 0, key 1, key 2⟩

theorem center_trS (T0 T1 : RtV) : toVec (center T0 T1) = trS T0 (trS T1 0 true) false := by
  unfold center
  rw [act_vec, toVec_ofVec]
  simp only [trS, Bool.false_eq_true, if_false, if_true, zero_sub]

/-- the position of camera 1, moving -/
theorem center_deriv (T0 T1 : ℝ → RtV) (r0' t0' r1' t1' : P3) (hr0 : HasDerivP (fun s => (T0 s).r) r0' 0) (ht0 : HasDerivP (fun s => (T0 s).t) t0' 0)
    (hr1 : HasDerivP (fun s => (T1 s).r) r1' 0) (ht1 : HasDerivP (fun s => (T1 s).t) t1' 0) (ok0 : RotOk (T0 0)) (ok1 : RotOk (T1 0)) :
    let ref1 := invertrt (T1 0)
    let comp := composert (T0 0) ref1.1 false false
    comp.rt.t = center (T0 0) (T1 0) ∧ HasDerivP (fun s => center (T0 s) (T1 s))
      (addP (addP (Pose.mulVec comp.dt_r0 r0') (Pose.mulVec comp.dt_r1 (negP r1'))) (addP (Pose.mulVec comp.dt_t0 t0') (Pose.mulVec comp.dt_t1 (addP (Pose.mulVec ref1.2.1 r1') (Pose.mulVec ref1.2.2 t1'))))) 0 := by
  intro ref1 comp
  have hi := invert_rt_gradient T1 r1' t1' 0 hr1 ht1 ok1
  have e1 : ref1.1 = ⟨negP (T1 0).r, ofVec (trS (T1 0) 0 true)⟩ := by
    have ok1' := RotOk.neg ok1 ⟨0, 0, 0⟩
    have : ref1.1.t = ofVec (trS (T1 0) 0 true) := by
      refine toVec_inj ?_
      rw [toVec_ofVec]
      show toVec (negP (rotatePointr (negP (T1 0).r) (T1 0).t false true true).x) = _
      rw [toVec_neg, rotate_meaning _ _ _ _ _ ok1']
      simp only [rotSpec, trS, Bool.false_eq_true, if_false, if_true, rod_neg, zero_sub, Matrix.mulVec_neg]
    rw [← this]
    rfl
  have hn : HasDerivP (fun s => negP (T1 s).r) (negP r1') 0 := ⟨hr1.1.neg, hr1.2.1.neg, hr1.2.2.neg⟩
  have hi' : HasDerivP (fun s => ofVec (trS (T1 s) 0 true)) (addP (Pose.mulVec ref1.2.1 r1') (Pose.mulVec ref1.2.2 t1')) 0 := ⟨hi 0, hi 1, hi 2⟩
  have key := compose_rt_gradient T0 (fun s => ⟨negP (T1 s).r, ofVec (trS (T1 s) 0 true)⟩) r0' t0' (negP r1') (addP (Pose.mulVec ref1.2.1 r1') (Pose.mulVec ref1.2.2 t1')) 0 false false hr0 ht0 hn hi' ok0
    (RotOk.neg ok1 ⟨0, 0, 0⟩)
  simp only [← e1] at key
  have et : ∀ s, trS (T0 s) (trS ⟨negP (T1 s).r, ofVec (trS (T1 s) 0 true)⟩ 0 false) false = toVec (center (T0 s) (T1 s)) := by
    intro s
    rw [center_trS]
    congr 1
    simp only [trS, Bool.false_eq_true, if_false, mulVec_zero, Matrix.mulVec_zero, zero_add, toVec_ofVec]
  refine ⟨toVec_inj ?_, (key 0).2.congr_of_eventuallyEq ?_, (key 1).2.congr_of_eventuallyEq ?_, (key 2).2.congr_of_eventuallyEq ?_⟩
  · rw [← et 0]
    have := (key 0).1
    rw [e1] at this
    rw [← this, ← e1]
  · exact Filter.Eventually.of_forall fun s => congrFun (et s).symm 0
  · exact Filter.Eventually.of_forall fun s => congrFun (et s).symm 1
  · exact Filter.Eventually.of_forall fun s => congrFun (et s).symm 2

end Mrcal.TriPy

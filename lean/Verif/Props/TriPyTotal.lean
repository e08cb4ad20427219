import Verif.Props.TriPyDb
/-
C94: what triangulate() reports is the motion of the stabilized point: when the calibration moves, and when the pixels do
-/
namespace Mrcal.TriPy
open Mrcal Mrcal.Pose Mrcal.Tri Mrcal.AD Mrcal.Callback Mrcal.Pack Mrcal.StateLayout Mrcal.Propagate Mrcal.Uncertainty Mrcal.ProjUnc Mrcal.UnprojectPy Matrix

/-- **Specification**: the rotations of the two cameras, at the solution -/
def PairOk (P : Problem) (e0 e1 : Int) : Prop :=
  (e0 < 0 ∧ RotOk (camPose P.seed e1)) ∨ (e1 < 0 ∧ RotOk (camPose P.seed e0)) ∨
    (2e-5 < mag3 (camPose P.seed e0).r ∧ 2e-5 < mag3 (camPose P.seed e1).r ∧ (rod (camPose P.seed e0).r * (rod (camPose P.seed e1).r)ᵀ).trace ≤ 3 - 1e-10 ∧
      (rod (camPose P.seed e0).r * (rod (camPose P.seed e1).r)ᵀ).trace ≠ -1)

/-- **Specification**: the rotations of the boards, at the solution -/
def BoardsOk (P : Problem) : Prop := P.d.sel.frames = true → ∀ i : Nat, i < P.d.Nframes.toNat → RotOk (frameOf P.seed i)

theorem camPose_fixed (Q : Params) (e : Int) (h : e < 0) : camPose Q e = ⟨⟨0, 0, 0⟩, ⟨0, 0, 0⟩⟩ := by
  unfold camPose camOf
  rw [if_pos h]
  rfl

theorem PairOk.turned {P : Problem} (wf : WF P.d) {e0 e1 : Int} (h : PairOk P e0 e1) (v : Mem) : Turned (fun s => camPose (moved P v s) e0) (fun s => camPose (moved P v s) e1) := by
  unfold Turned
  beta_reduce
  rw [moved_zero P wf v]
  rcases h with ⟨a, b⟩ | ⟨a, b⟩ | h
  · exact Or.inl ⟨fun s => by rw [camPose_fixed _ _ a], b⟩
  · exact Or.inr (Or.inl ⟨fun s => by rw [camPose_fixed _ _ a], b⟩)
  · exact Or.inr (Or.inr h)

/-! ### stabilization -/

theorem settled_zero (P : Problem) (stabilize : Bool) (e : Int) (p : P3) : settled P stabilize e P.seed p = p := by
  unfold settled
  cases stabilize with
  | false => rfl
  | true =>
    rw [if_pos rfl]
    split_ifs with h
    · rw [mean_const _ _ (back (camPose P.seed e) p) (by rw [Finset.nonempty_range_iff]; omega) (fun i _ => (back_spec _ _).1)]
      exact (back_spec _ _).1
    · exact (back_spec _ _).1

theorem mean_rot {ι : Type} (S : Finset ι) (A : Matrix (Fin 3) (Fin 3) ℝ) (f : ι → P3) : ofVec (A *ᵥ toVec (mean S f)) = mean S fun i => ofVec (A *ᵥ toVec (f i)) := by
  unfold mean
  ext <;> simp only [ofVec, toVec, Matrix.mulVec, dotProduct, Fin.sum_univ_three, Finset.sum_add_distrib, ← Finset.mul_sum, add_div, mul_div_assoc, Matrix.cons_val_zero, Matrix.cons_val_one, Matrix.cons_val]

theorem mean_add {ι : Type} (S : Finset ι) (f g : ι → P3) : mean S (fun i => addP (f i) (g i)) = addP (mean S f) (mean S g) := by
  simp only [mean, addP, Finset.sum_add_distrib, add_div]

/-- the motion of the stabilized point -/
theorem settled_deriv (P : Problem) (wf : WF P.d) (stabilize : Bool) (e : Int) (he : e < P.d.Nce) (ok : RotOk (camPose P.seed e)) (okf : BoardsOk P) (v : Mem) (p : ℝ → P3) (p' : P3) (hp : HasDerivP p p' 0)
    (σ : P3) (h0 : stabilize = false → σ = ⟨0, 0, 0⟩) (h1 : stabilize = true → ∃ J, stabilize0 (camPose P.seed e) (p 0) = some J ∧ ∃ φ, σ = addP (ptw J (camVel P.d v e)) φ ∧
        ((P.d.sel.frames = true ∧ 0 < P.d.Nframes) → ∃ Jf : Nat → M3 × M3, (∀ i < P.d.Nframes.toNat, stabilizeFrame (camPose P.seed e) (frameOf P.seed i) (p 0) = some (Jf i)) ∧
          φ = mean (Finset.range P.d.Nframes.toNat) fun i => ptw (Jf i) (frameAt P.d v zeroP i)) ∧
        (¬ (P.d.sel.frames = true ∧ 0 < P.d.Nframes) → φ = ⟨0, 0, 0⟩)) :
    HasDerivP (fun s => settled P stabilize e (moved P v s) (p s)) (addP p' σ) 0 := by
  unfold settled
  cases stabilize with
  | false =>
    simp only [Bool.false_eq_true, if_false]
    rw [h0 rfl, addP_zero]
    exact hp
  | true =>
    simp only [if_true]
    obtain ⟨J, hJ, φ, hσ, hfr, hno⟩ := h1 rfl
    obtain ⟨hr, ht⟩ := camPose_deriv P wf v e he
    obtain ⟨x0, xT, hx⟩ := back_deriv (fun s => camPose (moved P v s) e) p _ _ _ hr ht hp (by beta_reduce; rw [moved_zero P wf v]; exact ok)
    beta_reduce at x0 xT hx
    rw [moved_zero P wf v] at x0 xT hx
    have hterm := stabilize0_term (camPose P.seed e) (p 0) J hJ xT (camVel P.d v e).r (camVel P.d v e).t p'
    by_cases hh : P.d.sel.frames = true ∧ 0 < P.d.Nframes
    · simp only [if_pos hh]
      obtain ⟨Jf, hJf, hφ⟩ := hfr hh
      have each : ∀ i ∈ Finset.range P.d.Nframes.toNat, HasDerivP (fun s => ProjUnc.act false (frameOf P.seed i) (back (frameOf (moved P v s) i) (back (camPose (moved P v s) e) (p s))))
          (ofVec ((rod (camPose P.seed e).r)ᵀ *ᵥ (toVec (addP (addP p' (ptw J (camVel P.d v e))) (ptw (Jf i) (frameAt P.d v zeroP i)))))) 0 := by
        intro i hi
        obtain ⟨fr, ft⟩ := framePose_deriv P wf v i (Finset.mem_range.1 hi)
        obtain ⟨y0, yT, hy⟩ := back_deriv (fun s => frameOf (moved P v s) i) (fun s => back (camPose (moved P v s) e) (p s)) _ _ _ fr ft hx
          (by beta_reduce; rw [moved_zero P wf v]; exact okf hh.1 i (Finset.mem_range.1 hi))
        beta_reduce at y0 yT hy
        rw [moved_zero P wf v, ← x0] at y0 yT hy
        have ha := act_fixed (frameOf P.seed i) _ _ hy
        have ft := stabilizeFrame_term (camPose P.seed e) (frameOf P.seed i) (p 0) (Jf i) (hJf i (Finset.mem_range.1 hi)) xT yT (frameAt P.d v zeroP i).r (frameAt P.d v zeroP i).t
          (addP (addP (Pose.mulVec (intoPose (camPose P.seed e) (p 0)).2.1.1 (camVel P.d v e).r) (Pose.mulVec (intoPose (camPose P.seed e) (p 0)).2.1.2 (camVel P.d v e).t)) (Pose.mulVec (intoPose (camPose P.seed e) (p 0)).2.2 p'))
        have ht' := congrArg toVec hterm
        rw [toVec_ofVec] at ht'
        rw [ht'] at ft
        have ft2 := congrArg (fun u => (rod (camPose P.seed e).r)ᵀ *ᵥ u) ft
        rw [Matrix.mulVec_mulVec, rod_inv, one_mulVec, ← toVec_add] at ft2
        rw [ft2] at ha
        exact ha
      have hm := act_fixed (camPose P.seed e) _ _ (mean_deriv _ _ _ 0 each)
      have ev : ofVec (rod (camPose P.seed e).r *ᵥ toVec (mean (Finset.range P.d.Nframes.toNat) fun i => ofVec ((rod (camPose P.seed e).r)ᵀ *ᵥ (toVec (addP (addP p' (ptw J (camVel P.d v e))) (ptw (Jf i) (frameAt P.d v zeroP i))))))) = addP p' σ := by
        rw [mean_rot]
        simp only [toVec_ofVec, Matrix.mulVec_mulVec, rod_inv', one_mulVec]
        have : ∀ a : P3, ofVec (toVec a) = a := fun a => rfl
        simp only [this]
        rw [mean_add, mean_const _ _ (addP p' (ptw J (camVel P.d v e))) (by rw [Finset.nonempty_range_iff]; omega) (fun _ _ => rfl), hσ, hφ, addP_assoc]
      rw [ev] at hm
      exact hm
    · simp only [if_neg hh]
      have hm := act_fixed (camPose P.seed e) _ _ hx
      rw [hterm] at hm
      rw [hσ, hno hh, addP_zero]
      exact hm

/-! ### all together -/

/-- **Specification**: the motion due to the pixels: the weighted columns of dp/dq -/
noncomputable def qDot (dq : Nat → P3) (d0 d1 : P2) : P3 :=
  ⟨(dq 0).x * d0.x + (dq 1).x * d0.y + (dq 2).x * d1.x + (dq 3).x * d1.y, (dq 0).y * d0.x + (dq 1).y * d0.y + (dq 2).y * d1.x + (dq 3).y * d1.y,
    (dq 0).z * d0.x + (dq 1).z * d0.y + (dq 2).z * d1.x + (dq 3).z * d1.y⟩

theorem mulVec_negI (w : P3) : Pose.mulVec (negM identityR) w = negP w := by
  ext <;> simp [Pose.mulVec, negM, identityR, negP]

theorem mulVec_addM (a b : M3) (w : P3) : Pose.mulVec (camera1Cols.addM a b) w = addP (Pose.mulVec a w) (Pose.mulVec b w) := by
  ext <;> simp [Pose.mulVec, camera1Cols.addM, addP] <;> ring

theorem mulVec_zeroM (w : P3) : Pose.mulVec zeroM w = ⟨0, 0, 0⟩ := by
  ext <;> simp [Pose.mulVec, zeroM]

/-- `gradFull`, taken apart -/
theorem gradFull_some (method : Method) (s : Slice) (f : Full) (h : gradFull method s = some f) :
    unprojectGrads s.m0.lens s.m0.intr s.m0.solve s.m0.prev false s.q0 = some (some f.g0) ∧ unprojectGrads s.m1.lens s.m1.intr s.m1.solve s.m1.prev false s.q1 = some (some f.g1) ∧
    f.ref1 = invertrt s.m1.rt ∧ f.comp = composert s.m0.rt f.ref1.1 false false ∧
    (let v1 := rotatePointr f.comp.rt.r f.g1.v false true true
     callGrad method f.g0.v v1.x f.comp.rt.t = some f.c ∧ f.dv1_dr01 = v1.Jr.getD identityR ∧ f.dv1_dvlocal1 = v1.Jx.getD identityR ∧ f.dq = dpDq f.c f.g0 f.g1 f.dv1_dvlocal1) := by
  unfold gradFull at h
  simp only [Option.bind_eq_bind] at h
  obtain ⟨g0, h0, h⟩ := Option.bind_eq_some_iff.1 h
  obtain ⟨g1, h1, h⟩ := Option.bind_eq_some_iff.1 h
  obtain ⟨c, hc, h⟩ := Option.bind_eq_some_iff.1 h
  obtain rfl := Option.some.inj h
  exact ⟨Option.join_eq_some_iff.1 h0, Option.join_eq_some_iff.1 h1, rfl, rfl, hc, rfl, rfl, rfl⟩

/-- **Specification**: the camera, its vector: the lens is well-behaved at this vector -/
def RayOk (m : Camera) (v : P3) : Prop := LensOk m.lens m.intr v

/-- **Specification**: the point that would be reported with this calibration and these vectors -/
noncomputable def tracked (P : Problem) (method : Method) (stabilize : Bool) (e0 e1 : Int) (Q : Params) (v0 v1 : P3) : P3 :=
  settled P stabilize e0 Q (triPoint method v0 (dirIn0 (camPose Q e0) (camPose Q e1) v1) (center (camPose Q e0) (camPose Q e1)))

/-- the motion of the reported point -/
theorem tracked_deriv (P : Problem) (hv : P.Valid) (s : Slice) (c0 : AsCalibrated P s.m0) (c1 : AsCalibrated P s.m1) (hne : s.m0.icamI ≠ s.m1.icamI) (method : Method) (f : Full) (hf : gradFull method s = some f)
    (stabilize : Bool) (F : Cols) (hF : dpDb P s f stabilize = some F) (ok0 : RayOk s.m0 f.g0.v) (ok1 : RayOk s.m1 f.g1.v) (pair : PairOk P s.m0.icamE s.m1.icamE) (okf : BoardsOk P)
    (found : Found method f.g0.v (dirIn0 s.m0.rt s.m1.rt f.g1.v) (center s.m0.rt s.m1.rt))
    (v : Mem) (Q0 Q1 : ℝ → P2) (d0 d1 : P2) (hQ0 : PixDeriv Q0 d0 0) (hQ1 : PixDeriv Q1 d1 0) (V0 V1 : ℝ → P3) (w0 w1 : P3) (s0 : V0 0 = f.g0.v) (s1 : V1 0 = f.g1.v) (hV0 : HasDerivP V0 w0 0) (hV1 : HasDerivP V1 w1 0)
    (r0 : Ray s.m0.lens s.q0 (fun t => intrOf P.d (moved P v t) s.m0.icamI) Q0 V0) (r1 : Ray s.m1.lens s.q1 (fun t => intrOf P.d (moved P v t) s.m1.icamI) Q1 V1) :
    tracked P method stabilize s.m0.icamE s.m1.icamE (moved P v 0) (V0 0) (V1 0) = f.c.p ∧
    HasDerivP (fun t => tracked P method stabilize s.m0.icamE s.m1.icamE (moved P v t) (V0 t) (V1 t)) (addP (colDot P.d F v) (qDot f.dq d0 d1)) 0 := by
  have wf := hv.wf
  obtain ⟨hg0, hg1, href, hcomp, hc, hdr, hdv, hdq⟩ := gradFull_some method s f hf
  have l0 := observes_lt hv c0.observes
  have l1 := observes_lt hv c1.observes
  obtain ⟨a0, b0⟩ := camPose_deriv P wf v _ l0
  obtain ⟨a1, b1⟩ := camPose_deriv P wf v _ l1
  have hT := pair.turned wf v
  obtain ⟨-, -, -, -, rok0, rok1⟩ := turned_relative _ _ _ _ a0 a1 hT
  obtain ⟨de, dd⟩ := dir_deriv _ _ _ _ a0 a1 hT V1 w1 hV1
  obtain ⟨ce, cd⟩ := center_deriv _ _ _ _ _ _ a0 b0 a1 b1 rok0 rok1

  rw [moved_zero P wf v, ← c0.rt] at rok0
  rw [moved_zero P wf v, ← c0.rt, ← c1.rt, s1, ← href, ← hcomp] at de dd
  rw [moved_zero P wf v, ← c0.rt, ← c1.rt, ← href, ← hcomp] at ce cd
  rw [← hdr, ← hdv] at dd
  rw [de, ce] at hc
  have hI : ∀ icam, 0 ≤ icam → icam < P.d.Nci → (∀ k, HasDerivAt (fun t => intrOf P.d (moved P v t) icam k) (intrinsicsAt P.d v zeroP icam k) 0) := by
    intro icam h0 h1 k
    unfold moved
    simp only [← intrinsics_unpacked P.d wf _ P.seed icam h0 h1]
    exact intrinsics_deriv P.d P.seed (fun j => state_deriv P v j) icam k
  have hz : ∀ icam k, k < 0 ∨ P.d.lens.numParams ≤ k → intrinsicsAt P.d v zeroP icam k = 0 := by
    intro icam k hk
    unfold intrinsicsAt
    simp only
    rw [if_pos hk]
  have e0 := ray_total s.m0.lens s.m0.intr _ _ s.q0 f.g0 hg0 ok0 (fun t => intrOf P.d (moved P v t) s.m0.icamI) _ (by rw [moved_zero P wf v, c0.intr]) (hI _ c0.range.1 c0.range.2)
    (by rw [c0.lens]; exact hz _) Q0 d0 hQ0 V0 w0 s0 hV0 r0
  have e1 := ray_total s.m1.lens s.m1.intr _ _ s.q1 f.g1 hg1 ok1 (fun t => intrOf P.d (moved P v t) s.m1.icamI) _ (by rw [moved_zero P wf v, c1.intr]) (hI _ c1.range.1 c1.range.2)
    (by rw [c1.lens]; exact hz _) Q1 d1 hQ1 V1 w1 s1 hV1 r1
  rw [c0.lens] at e0
  rw [c1.lens] at e1
  have hp := call_deriv method _ _ _ f.c hc found V0 _ _ w0 _ _ s0 (by rw [moved_zero P wf v, ← c0.rt, ← c1.rt, s1]) (by rw [moved_zero P wf v, ← c0.rt, ← c1.rt]) hV0 dd cd
  have ep : triPoint method (V0 0) (dirIn0 (camPose (moved P v 0) s.m0.icamE) (camPose (moved P v 0) s.m1.icamE) (V1 0)) (center (camPose (moved P v 0) s.m0.icamE) (camPose (moved P v 0) s.m1.icamE)) = f.c.p := by
    rw [moved_zero P wf v, ← c0.rt, ← c1.rt, s0, s1]
    exact (call_point method _ _ _ f.c hc).symm
  obtain ⟨σ, hdot, hs0, hs1⟩ := dpDb_dot P hv s c0 c1 hne f stabilize F hF v
  have hset := settled_deriv P wf stabilize s.m0.icamE l0 (by rw [← c0.rt]; exact rok0) okf v _ _ hp σ hs0 (by
    rw [ep, ← c0.rt]
    exact hs1)
  refine ⟨?_, ?_⟩
  · unfold tracked
    rw [ep, moved_zero P wf v, settled_zero]
  · unfold tracked
    refine Eq.mp ?_ hset
    congr 1
    rw [hdot, e0, e1, hdq]
    simp only [camera0Cols, camera1Cols, ptw, mulVec_addM, mulVec_mul, mulVec_add, mulVec_negI, mulVec_zeroM, mulVec_zero]
    have q0 : Pose.mulVec f.c.dv0 (f.g0.dq d0) = ⟨(dpDq f.c f.g0 f.g1 f.dv1_dvlocal1 0).x * d0.x + (dpDq f.c f.g0 f.g1 f.dv1_dvlocal1 1).x * d0.y, (dpDq f.c f.g0 f.g1 f.dv1_dvlocal1 0).y * d0.x + (dpDq f.c f.g0 f.g1 f.dv1_dvlocal1 1).y * d0.y,
        (dpDq f.c f.g0 f.g1 f.dv1_dvlocal1 0).z * d0.x + (dpDq f.c f.g0 f.g1 f.dv1_dvlocal1 1).z * d0.y⟩ := by
      ext <;> simp [dpDq, qCol, Pose.mulVec, Grads.dq] <;> ring
    have q1 : Pose.mulVec f.c.dv1 (Pose.mulVec f.dv1_dvlocal1 (f.g1.dq d1)) = ⟨(dpDq f.c f.g0 f.g1 f.dv1_dvlocal1 2).x * d1.x + (dpDq f.c f.g0 f.g1 f.dv1_dvlocal1 3).x * d1.y,
        (dpDq f.c f.g0 f.g1 f.dv1_dvlocal1 2).y * d1.x + (dpDq f.c f.g0 f.g1 f.dv1_dvlocal1 3).y * d1.y, (dpDq f.c f.g0 f.g1 f.dv1_dvlocal1 2).z * d1.x + (dpDq f.c f.g0 f.g1 f.dv1_dvlocal1 3).z * d1.y⟩ := by
      rw [← mulVec_mul]
      ext <;> simp [dpDq, qCol, Pose.mulVec, Grads.dq] <;> ring
    rw [q0, q1]
    unfold qDot
    ext <;> simp only [addP] <;> ring

end Mrcal.TriPy

import Verif.Props.ProjUncMove
import Verif.Props.PropagateSummaryProps
/-
C81: projection_uncertainty(): the gradient is the derivative of the documented experiment; the reported covariance is the covariance of the pixel
-/
namespace Mrcal.ProjUnc
open Mrcal Mrcal.Pose Mrcal.Callback Mrcal.Pack Mrcal.StateLayout Mrcal.Propagate Mrcal.Uncertainty

/-! ### Specification -/

/-- **Specification**: the pixel at which camera icam, with calibration Q, sees the point p (in its coordinates) -/
noncomputable def seen (P : Problem) (Q : Params) (icam : Int) (p : P3) : P2 := Cam.pix P.d.lens (intrOf P.d Q icam) p

/-- **Specification**: the pixel leaves its place at this rate, in x and y -/
def PixelMoves (P : Problem) (icam : Int) (v : Mem) (q : ℝ → P3) (δ : Nat → ℝ) : Prop := ∀ xy < 2, HasDerivAt (fun s => pick2 (seen P (moved P v s) icam (q s)) xy) (δ xy) 0

/-- **Specification**: this small transformation explains best what the change v of the state has done: of all observations (icam < 0), or of those of this camera. C77 -/
def Explains (P : Problem) (icam : Int) (v : Mem) (u : Nat → ℝ) : Prop := ∀ out, optimizerCallback (P.ctx (bPacked P)) = some out →
  ∀ w : Fin 6 → ℝ, Uncertainty.cost (P.ctx (bPacked P)) out icam (bPacked P) (fun k => u k) v ≤ Uncertainty.cost (P.ctx (bPacked P)) out icam (bPacked P) w v

/-- **Specification**: an observation was made with these intrinsics, from this pose -/
def Observes (P : Problem) (icam e : Int) : Prop := (∃ o ∈ P.boards, o.icamI = icam ∧ o.icamE = e) ∨ ∃ o ∈ P.points, o.icamI = icam ∧ o.icamE = e

/-- **Specification**: the pose of a camera: at the reference if e < 0 -/
def camPose (Q : Params) (e : Int) : RtV := (camOf Q e).getD ⟨⟨0, 0, 0⟩, ⟨0, 0, 0⟩⟩

/-- **Specification**: the mean of points -/
noncomputable def mean {ι : Type} (S : Finset ι) (f : ι → P3) : P3 := ⟨(∑ i ∈ S, (f i).x) / S.card, (∑ i ∈ S, (f i).y) / S.card, (∑ i ∈ S, (f i).z) / S.card⟩

/-- **Specification**: "cross-reprojection-ccp". The calibration has moved. A small transformation of the coordinates of this camera explains the observations best. We follow the point that the
transformation takes back to p -/
def ShiftCcp (P : Problem) (icam : Int) (atinfinity : Bool) (p : P3) (v : Mem) (δ : Nat → ℝ) : Prop :=
  ∃ (u : Nat → ℝ) (T : ℝ → RtV) (q : ℝ → P3), Explains P icam v u ∧ Leaves T u ∧ (∀ s, act atinfinity (T s) (q s) = p) ∧ PixelMoves P icam v q δ

/-- **Specification**: "cross-reprojection-rrp-Jfp". The same, with a transformation of the reference coordinates; the camera has one pose -/
def ShiftRrp (P : Problem) (icam : Int) (atinfinity : Bool) (p : P3) (v : Mem) (δ : Nat → ℝ) : Prop :=
  ∃ (u : Nat → ℝ) (T : ℝ → RtV) (q : ℝ → P3) (e : Int) (pref : P3), Explains P (-1) v u ∧ Leaves T u ∧ (∀ e', Observes P icam e' ↔ e' = e) ∧ act atinfinity (camPose P.seed e) pref = p ∧ (∀ s, act atinfinity (T s) (q s) = pref) ∧
    PixelMoves P icam v (fun s => act atinfinity (camPose (moved P v s) e) (q s)) δ

/-- **Specification**: "mean-pcam". The point is attached to each frame (to the reference, if the frames don't move); the frames and the cameras move. We follow the mean of the places, in camera
coordinates -/
def ShiftMean (P : Problem) (icam : Int) (atinfinity : Bool) (p : P3) (v : Mem) (δ : Nat → ℝ) : Prop :=
  ∃ (cams : Finset Int) (pref : Int → P3) (pframe : Int → Nat → P3), (∀ e, e ∈ cams ↔ Observes P icam e) ∧ (∀ e ∈ cams, act atinfinity (camPose P.seed e) (pref e) = p) ∧
    (∀ e ∈ cams, ∀ i < P.d.Nframes.toNat, act atinfinity (frameOf P.seed i) (pframe e i) = pref e) ∧
    PixelMoves P icam v (fun s => mean cams fun e => act atinfinity (camPose (moved P v s) e)
      (if P.d.sel.frames then mean (Finset.range P.d.Nframes.toNat) fun i => act atinfinity (frameOf (moved P v s) i) (pframe e i) else pref e)) δ

/-- **Specification**: the documented methods -/
def Shift (P : Problem) (method : String) (icam : Int) (atinfinity : Bool) (p : P3) (v : Mem) (δ : Nat → ℝ) : Prop :=
  (method = "cross-reprojection-ccp" ∧ ShiftCcp P icam atinfinity p v δ) ∨ (method = "cross-reprojection-rrp-Jfp" ∧ ShiftRrp P icam atinfinity p v δ) ∨
    (method = "mean-pcam" ∧ ShiftMean P icam atinfinity p v δ)

/-- **Specification**: no rotation is in the range where the code ignores its rate of change: 0 < |r| < 1e-5 -/
def RotOk (T : RtV) : Prop := 1e-5 ≤ mag3 T.r ∨ T.r = ⟨0, 0, 0⟩

/-- **Specification**: the poses that the method uses -/
structure PosesOk (P : Problem) (icam : Int) : Prop where
  cams : ∀ e, Observes P icam e → RotOk (camPose P.seed e)
  frames : P.d.sel.frames = true → ∀ i : Nat, i < P.d.Nframes.toNat → RotOk (frameOf P.seed i)

/-! ### lemmas -/

theorem explains_unique (L : Lapack) (hL : LapackOk L) (P : Problem) (ok : CtxOk (P.ctx (bPacked P))) (idx : IdxOk (P.ctx (bPacked P))) (h0 : 0 < numStates P.d) (icam : Int)
    (Ku : Nat → Int → ℝ) (h : kUnpacked L P icam = some Ku) (v : Mem) (u : Nat → ℝ) :
    Explains P icam v u ↔ ∀ k < 6, u k = ∑ j ∈ Finset.range (numStates P.d).toNat, Ku k j * (unpackVector P.d v).1 j := by
  obtain ⟨out, K, ho, hK, hv⟩ := k_apply L P idx.wf h0 icam Ku h
  obtain ⟨o1, o2, -⟩ := cross_reprojection_optimal L hL (P.ctx (bPacked P)) ok idx out ho _ _ _ (csrOf_reads out) icam (bPacked P) _ _ K hK
  constructor
  · intro hu k hk
    have := congrFun (o2 v (fun k => u k) (hu out ho _)) ⟨k, hk⟩
    rw [← show apply P.d K v ⟨k, hk⟩ = _ from (hv v ⟨k, hk⟩).symm]
    exact this
  · intro hu out' ho' w
    have e : out' = out := Option.some.inj (ho'.symm.trans ho)
    subst e
    have e2 : (fun k : Fin 6 => u k) = apply (P.ctx (bPacked P)).d K v := by
      funext k
      rw [hu k k.2, hv v k]
      rfl
    rw [e2]
    exact o1 v w

/-- some transformation has any given velocity; the point that it takes to p exists -/
theorem leaves_exists (u : Nat → ℝ) (at_ : Bool) (p : P3) : ∃ (T : ℝ → RtV) (q : ℝ → P3), Leaves T u ∧ ∀ s, act at_ (T s) (q s) = p := by
  refine ⟨fun s => ⟨⟨s * u 0, s * u 1, s * u 2⟩, ⟨s * u 3, s * u 4, s * u 5⟩⟩,
    fun s => ofVec ((rod ⟨s * u 0, s * u 1, s * u 2⟩).transpose.mulVec (toVec p - if at_ then 0 else toVec ⟨s * u 3, s * u 4, s * u 5⟩)), ⟨?_, ?_, ?_, ?_⟩, ?_⟩
  · simp
  · simp
  · have h : ∀ k, HasDerivAt (fun s : ℝ => s * u k) (u k) 0 := fun k => by simpa using (hasDerivAt_id' (0 : ℝ)).mul_const (u k)
    exact ⟨h 0, h 1, h 2⟩
  · have h : ∀ k, HasDerivAt (fun s : ℝ => s * u k) (u k) 0 := fun k => by simpa using (hasDerivAt_id' (0 : ℝ)).mul_const (u k)
    exact ⟨h 3, h 4, h 5⟩
  · intro s
    refine toVec_inj ?_
    rw [act_vec]
    simp only [toVec_ofVec]
    rw [Matrix.mulVec_mulVec, rod_inv', Matrix.one_mulVec, sub_add_cancel]

theorem act_exists (at_ : Bool) (T : RtV) (p : P3) : ∃ q, act at_ T q = p := by
  refine ⟨ofVec ((rod T.r).transpose.mulVec (toVec p - if at_ then 0 else toVec T.t)), toVec_inj ?_⟩
  rw [act_vec]
  simp only [toVec_ofVec]
  rw [Matrix.mulVec_mulVec, rod_inv', Matrix.one_mulVec, sub_add_cancel]

/-! ### ccp -/

theorem ccp_move (L : Lapack) (hL : LapackOk L) (P : Problem) (hl : Cam.ValidLens P.d.lens) (ok : CtxOk (P.ctx (bPacked P))) (idx : IdxOk (P.ctx (bPacked P))) (h0 : 0 < numStates P.d)
    (icam : Int) (hi : 0 ≤ icam) (hi' : icam < P.d.Nci) (at_ : Bool) (p : P3) (hreg : Cam.LensRegular P.d.lens (intrOf P.d P.seed icam) p) (F : Grad) (hF : gradCcp L P icam at_ p = some F) (v : Mem) :
    (∀ (u : Nat → ℝ) (T : ℝ → RtV) (q : ℝ → P3), Explains P icam v u → Leaves T u → (∀ s, act at_ (T s) (q s) = p) → PixelMoves P icam v q (dot P.d F v)) ∧ ∃ u, Explains P icam v u := by
  unfold gradCcp at hF
  simp only [Option.bind_eq_bind, Option.bind_eq_some_iff] at hF
  obtain ⟨Ku, hK, g, hg, eF⟩ := hF
  have hu := explains_unique L hL P ok idx h0 icam Ku hK v
  refine ⟨?_, fun k => ∑ j ∈ Finset.range (numStates P.d).toNat, Ku k j * (unpackVector P.d v).1 j, (hu _).2 fun _ _ => rfl⟩
  intro u T q h1 h2 h3 xy hxy
  have hu := (hu u).1 h1
  obtain ⟨q0, q1⟩ := back_deriv at_ T u h2 p q h3
  have key := pix_move P idx.wf hl icam hi hi' p hreg g hg v q _ q0 q1 xy hxy
  refine HasDerivAt.congr_deriv key ?_
  rw [← Option.some.inj eF, dot_add_K]
  simp only
  rw [← hu 0 (by omega), ← hu 1 (by omega), ← hu 2 (by omega), ← hu 3 (by omega), ← hu 4 (by omega), ← hu 5 (by omega), add_comm]

/-! ### the poses of this camera -/

theorem camExtrinsics_spec (P : Problem) (icam e : Int) : e ∈ camExtrinsics P icam ↔ Observes P icam e := by
  unfold camExtrinsics Observes
  simp only [List.mem_mergeSort, List.mem_dedup, List.mem_map, List.mem_filter, List.mem_append, decide_eq_true_eq]
  constructor
  · rintro ⟨⟨a, b⟩, ⟨h | h, h2⟩, rfl⟩
    · obtain ⟨o, ho, e⟩ := h
      simp only [Prod.mk.injEq] at e
      exact Or.inl ⟨o, ho, by rw [e.1]; exact h2, e.2⟩
    · obtain ⟨o, ho, e⟩ := h
      simp only [Prod.mk.injEq] at e
      exact Or.inr ⟨o, ho, by rw [e.1]; exact h2, e.2⟩
  · rintro (⟨o, ho, h1, h2⟩ | ⟨o, ho, h1, h2⟩)
    · exact ⟨(o.icamI, o.icamE), ⟨Or.inl ⟨o, ho, rfl⟩, h1⟩, h2⟩
    · exact ⟨(o.icamI, o.icamE), ⟨Or.inr ⟨o, ho, rfl⟩, h1⟩, h2⟩

theorem camExtrinsics_nodup (P : Problem) (icam : Int) : (camExtrinsics P icam).Nodup := by
  unfold camExtrinsics
  exact (List.mergeSort_perm _ _).nodup_iff.2 (List.nodup_dedup _)

theorem chain_range (e : Int) (l : List Int) (h : List.IsChain (fun a b : Int => b - a = 1) (e :: l)) : e :: l = (List.range (l.length + 1)).map fun (i : Nat) => e + i := by
  induction l generalizing e with
  | nil => simp
  | cons a l ih =>
    rw [List.isChain_cons_cons] at h
    rw [List.length_cons, List.range_succ_eq_map, List.map_cons, List.map_map, Nat.cast_zero, add_zero]
    refine congrArg _ ((ih a h.2).trans (List.map_congr_left fun i _ => ?_))
    simp only [Function.comp_def]
    push_cast; omega

theorem camPoses_spec (P : Problem) (hv : P.Valid) (icam : Int) (rts : List RtV) (ist : Option Int) (h : camPoses P icam = some (rts, ist)) :
    ∃ (e : Int) (n : Nat), 0 < n ∧ (∀ x, Observes P icam x ↔ e ≤ x ∧ x < e + n) ∧ rts = (List.range n).map (fun (i : Nat) => camPose P.seed (e + i)) ∧
      ((e < 0 ∧ n = 1 ∧ ist = none) ∨ (0 ≤ e ∧ e + n ≤ P.d.Nce ∧ P.d.sel.extrinsics = true ∧ ist = some (stateIndexExtrinsics e P.d))) := by
  unfold camPoses at h
  have hmem := camExtrinsics_spec P icam
  cases hl : camExtrinsics P icam with
  | nil => rw [hl] at h; simp at h
  | cons e l =>
    rw [hl] at h hmem
    simp only at h
    by_cases hc : List.IsChain (fun a b : Int => b - a = 1) (e :: l)
    · rw [if_neg (not_not.2 hc)] at h
      have hr := chain_range e l hc
      have hm : ∀ x, Observes P icam x ↔ e ≤ x ∧ x < e + (l.length + 1 : Nat) := by
        intro x
        rw [← hmem, hr]
        simp only [List.mem_map, List.mem_range]
        constructor
        · rintro ⟨i, hi, rfl⟩; omega
        · intro hx; exact ⟨(x - e).toNat, by omega, by omega⟩
      refine ⟨e, l.length + 1, by omega, hm, ?_⟩
      by_cases he : e < 0
      · rw [if_pos he] at h
        by_cases hnil : l = []
        · rw [if_pos hnil] at h
          subst hnil
          have := Option.some.inj h
          simp only [Prod.mk.injEq] at this
          obtain ⟨r1, r2⟩ := this
          subst r1 r2
          refine ⟨?_, Or.inl ⟨he, rfl, rfl⟩⟩
          simp [camPose, camOf, he, identityrt]
        · rw [if_neg hnil] at h; simp at h
      · rw [if_neg he] at h
        by_cases hs : stateIndexExtrinsics e P.d ≥ 0
        · rw [if_pos hs] at h
          have := Option.some.inj h
          simp only [Prod.mk.injEq] at this
          obtain ⟨r1, r2⟩ := this
          refine ⟨?_, Or.inr ⟨by omega, ?_, ?_, r2.symm⟩⟩
          · rw [← r1, hr, List.map_map]
            refine List.map_congr_left fun i _ => ?_
            simp only [Function.comp_def, camPose, camOf]
            rw [if_neg (by omega)]
            rfl
          · have hlast := (hm (e + l.length)).2 (by omega)
            have : e + l.length < P.d.Nce := by
              rcases hlast with ⟨o, ho, -, h2⟩ | ⟨o, ho, -, h2⟩
              · rw [← h2]; exact (hv.boards o ho).2.2.1
              · rw [← h2]; exact (hv.points o ho).2.2.1
            push_cast; omega
          · by_contra hn
            unfold stateIndexExtrinsics at hs
            simp only [Bool.not_eq_true] at hn
            rw [hn] at hs
            simp only [Bool.not_false, if_true] at hs
            split_ifs at hs <;> omega
        · rw [if_neg hs] at h; simp at h
    · rw [if_pos hc] at h; simp at h

/-- the velocity of a camera -/
noncomputable def camVel (d : Dims) (v : Mem) (e : Int) : RtV := if e < 0 then ⟨⟨0, 0, 0⟩, ⟨0, 0, 0⟩⟩ else cameraAt d v zeroP e

theorem camPose_deriv (P : Problem) (wf : WF P.d) (v : Mem) (e : Int) (he : e < P.d.Nce) :
    HasDerivP (fun s => (camPose (moved P v s) e).r) (camVel P.d v e).r 0 ∧ HasDerivP (fun s => (camPose (moved P v s) e).t) (camVel P.d v e).t 0 := by
  unfold camVel camPose camOf
  by_cases h : e < 0
  · simp only [if_pos h, Option.getD_none]
    exact ⟨⟨hasDerivAt_const _ _, hasDerivAt_const _ _, hasDerivAt_const _ _⟩, ⟨hasDerivAt_const _ _, hasDerivAt_const _ _, hasDerivAt_const _ _⟩⟩
  · simp only [if_neg h, Option.getD_some, moved]
    simp only [← camera_unpacked P.d wf _ P.seed e (by omega) he]
    exact camera_deriv P.d P.seed (fun j => state_deriv P v j) e

theorem framePose_deriv (P : Problem) (wf : WF P.d) (v : Mem) (i : Nat) (hi : i < P.d.Nframes.toNat) :
    HasDerivP (fun s => (frameOf (moved P v s) i).r) (frameAt P.d v zeroP i).r 0 ∧ HasDerivP (fun s => (frameOf (moved P v s) i).t) (frameAt P.d v zeroP i).t 0 := by
  simp only [moved]
  simp only [← frame_unpacked P.d wf _ P.seed i (by omega) (by omega)]
  exact frame_deriv P.d P.seed (fun j => state_deriv P v j) i

theorem poseMove_zero (at_ : Bool) (J : M3 × M3 × M3) : poseMove at_ J ⟨⟨0, 0, 0⟩, ⟨0, 0, 0⟩⟩ = ⟨0, 0, 0⟩ := by
  cases at_ <;> simp [poseMove, Pose.mulVec, addP]

theorem getD_map_range (f : Nat → RtV) (n i : Nat) (hi : i < n) (T : RtV) : ((List.range n).map f).getD i T = f i := by
  simp [List.getD_eq_getElem?_getD, hi]

/-- the columns of the cameras -/
theorem dot_cams (P : Problem) (wf : WF P.d) (g : PixGrad) (icam : Int) (at_ : Bool) (p : P3) (v : Mem) (r : Nat) (rts : List RtV) (ist : Option Int) (e : Int) (n : Nat) (hn : 0 < n)
    (hr : rts = (List.range n).map (fun (i : Nat) => camPose P.seed (e + i)))
    (hi : (e < 0 ∧ n = 1 ∧ ist = none) ∨ (0 ≤ e ∧ e + n ≤ P.d.Nce ∧ P.d.sel.extrinsics = true ∧ ist = some (stateIndexExtrinsics e P.d))) :
    let F := intrinsicsCols P g (sliceIntrinsics P icam)
    dot P.d (extrinsicsCols rts ist g.dp at_ p F) v r = dot P.d F v r +
      ∑ i ∈ Finset.range n, inner3 (g.dp r) (poseMove at_ (poseGrad (camPose P.seed (e + i)) at_ (toPose (camPose P.seed (e + i)) at_ p)) (camVel P.d v (e + i))) / n := by
  intro F
  rcases hi with ⟨h1, rfl, rfl⟩ | ⟨h1, h2, h3, rfl⟩
  · have : extrinsicsCols rts none g.dp at_ p F = F := rfl
    rw [this, eq_comm, add_eq_left]
    simp only [Finset.sum_range_one, Nat.cast_zero, add_zero, camVel, if_pos h1, poseMove_zero]
    simp [inner3]
  · rw [dot_extrinsics P wf g icam at_ p v r e h1 n hn h2 h3 rts (by rw [hr]; simp)]
    congr 1
    refine Finset.sum_congr rfl fun i hi => ?_
    have hi := Finset.mem_range.1 hi
    rw [hr, getD_map_range _ _ _ hi]
    unfold camVel
    rw [if_neg (by omega)]

theorem cams_after (P : Problem) (wf : WF P.d) (g : PixGrad) (icam : Int) (at_ : Bool) (p : P3) (r : Nat) (rts : List RtV) (ist : Option Int) (e : Int) (n : Nat) (hn : 0 < n)
    (hr : rts.length = n)
    (hi : (e < 0 ∧ n = 1 ∧ ist = none) ∨ (0 ≤ e ∧ e + n ≤ P.d.Nce ∧ P.d.sel.extrinsics = true ∧ ist = some (stateIndexExtrinsics e P.d))) (c : Int)
    (hc : numStatesIntrinsics P.d + numStatesExtrinsics P.d ≤ c) : extrinsicsCols rts ist g.dp at_ p (intrinsicsCols P g (sliceIntrinsics P icam)) r c = 0 := by
  obtain ⟨n1, n2, n3, n4, n5⟩ := nonnegs wf
  have h0 := intrinsicsCols_after P wf g icam r c (by omega)
  rcases hi with ⟨h1, rfl, rfl⟩ | ⟨h1, h2, h3, rfl⟩
  · exact h0
  · unfold extrinsicsCols
    simp only
    rw [if_neg ?_, h0]
    have hse : numStatesExtrinsics P.d = 6 * P.d.Nce := by unfold numStatesExtrinsics; rw [if_pos h3]
    unfold stateIndexExtrinsics
    rw [if_neg (by omega), if_neg (by simp [h3]), if_neg (by simp; omega)]
    omega

theorem gradOld_some (L : Lapack) (P : Problem) (method : String) (icam : Int) (at_ : Bool) (p : P3) (F : Grad) (h : gradOld L P method icam at_ p = some F) :
    ∃ K rts ist sl g, oldK L P method = some K ∧ camPoses P icam = some (rts, ist) ∧
      sliceIntrinsics P icam = some sl ∧ projectGrad P icam p = some g ∧
      (if method = "mean-pcam" then some (framesCols P rts g.dp at_ p (extrinsicsCols rts ist g.dp at_ p (intrinsicsCols P g (some sl))))
      else match rts with
        | [T] => some (addK (fun r => vecMul (g.dp r) (poseGrad T at_ (toPose T at_ p)).2.2) (toPose T at_ p) K at_ (extrinsicsCols rts ist g.dp at_ p (intrinsicsCols P g (some sl))))
        | _ => none) = some F := by
  unfold gradOld at h
  obtain ⟨K, hK, h⟩ := Option.bind_eq_some_iff.1 h
  obtain ⟨⟨rts, ist⟩, hc, h⟩ := Option.bind_eq_some_iff.1 h
  obtain ⟨sl, hs, h⟩ := Option.bind_eq_some_iff.1 h
  obtain ⟨g, hg, h⟩ := Option.bind_eq_some_iff.1 h
  exact ⟨K, rts, ist, sl, g, hK, hc, hs, hg, h⟩

/-! ### rrp -/

theorem inner_mulVec (g w : P3) (J : M3) : inner3 g (mulVec J w) = inner3 (vecMul g J) w := by
  simp [inner3, Pose.mulVec, Pose.vecMul]; ring

theorem inner_add (g a b : P3) : inner3 g (addP a b) = inner3 g a + inner3 g b := by simp [inner3, addP]; ring

theorem toPose_eq (T : RtV) (at_ : Bool) (p q : P3) (h : RotOk T) (hq : act at_ T q = p) : toPose T at_ p = q := act_inj at_ T _ _ ((act_toPose T at_ p h).trans hq.symm)

theorem rrp_move (L : Lapack) (hL : LapackOk L) (P : Problem) (hv : P.Valid) (ok : CtxOk (P.ctx (bPacked P))) (idx : IdxOk (P.ctx (bPacked P))) (h0 : 0 < numStates P.d)
    (icam : Int) (hi : 0 ≤ icam) (hi' : icam < P.d.Nci) (at_ : Bool) (p : P3) (hreg : Cam.LensRegular P.d.lens (intrOf P.d P.seed icam) p) (hrot : PosesOk P icam)
    (F : Grad) (hF : gradOld L P "cross-reprojection-rrp-Jfp" icam at_ p = some F) (v : Mem) :
    (∀ (u : Nat → ℝ) (T : ℝ → RtV) (q : ℝ → P3) (e : Int) (pref : P3), Explains P (-1) v u → Leaves T u → (∀ e', Observes P icam e' ↔ e' = e) → act at_ (camPose P.seed e) pref = p →
      (∀ s, act at_ (T s) (q s) = pref) → PixelMoves P icam v (fun s => act at_ (camPose (moved P v s) e) (q s)) (dot P.d F v)) ∧
    (∃ u, Explains P (-1) v u) ∧ ∃ e, ∀ e', Observes P icam e' ↔ e' = e := by
  obtain ⟨Ku, rts, ist, sl, g, hK, hc, hsl, hg, hF⟩ := gradOld_some L P _ icam at_ p F hF
  unfold oldK at hK
  rw [if_pos rfl] at hK
  rw [if_neg (by decide)] at hF
  obtain ⟨e0, n, hn, hobs, hr, hist⟩ := camPoses_spec P hv icam rts ist hc
  have hu := explains_unique L hL P ok idx h0 (-1) Ku hK v
  have hn1 : n = 1 := by
    have hlen : rts.length = n := by rw [hr]; simp
    match rts, hF, hlen with
    | [T], _, h => simpa using h.symm
  subst hn1
  have hr1 : rts = [camPose P.seed e0] := by rw [hr]; simp
  have honly : ∀ e', Observes P icam e' ↔ e' = e0 := by intro e'; rw [hobs]; omega
  refine ⟨?_, ⟨fun k => ∑ j ∈ Finset.range (numStates P.d).toNat, Ku k j * (unpackVector P.d v).1 j, (hu _).2 fun _ _ => rfl⟩, e0, honly⟩
  intro u T q e pref h1 h2 h3 h4 h5 xy hxy
  have he : e = e0 := by rw [← honly e]; exact (h3 e).2 rfl
  subst he
  have hu := (hu u).1 h1
  obtain ⟨q0, q1⟩ := back_deriv at_ T u h2 pref q h5
  have hrt := hrot.cams e ((h3 e).2 rfl)
  have heN : e < P.d.Nce := by
    have h1 := hv.wf.nce
    rcases hist with ⟨h, -, -⟩ | ⟨-, h, -, -⟩
    · omega
    · push_cast at h; omega
  obtain ⟨d1, d2⟩ := camPose_deriv P hv.wf v e heN
  have dq := act_deriv at_ (fun s => camPose (moved P v s) e) q _ _ _ 0 d1 d2 q1 (by rw [moved_zero P hv.wf]; exact hrt)
  simp only [moved_zero P hv.wf, q0] at dq
  have key := pix_move P hv.wf hv.lens icam hi hi' p hreg g hg v _ _ (by rw [moved_zero P hv.wf, q0]; exact h4) dq xy hxy
  refine HasDerivAt.congr_deriv key ?_
  rw [hr1] at hF
  simp only at hF
  rw [← Option.some.inj hF, dot_add_K]
  simp only
  rw [← hu 0 (by omega), ← hu 1 (by omega), ← hu 2 (by omega), ← hu 3 (by omega), ← hu 4 (by omega), ← hu 5 (by omega)]
  rw [toPose_eq _ _ _ _ hrt h4, ← hsl, ← hr1, dot_cams P hv.wf g icam at_ p v xy rts ist e 1 (by omega) hr hist]
  simp only [Finset.sum_range_one, Nat.cast_zero, add_zero, Nat.cast_one, div_one]
  rw [toPose_eq _ _ _ _ hrt h4, inner_add, ← inner_mulVec]
  unfold poseMove
  ring

/-! ### mean-pcam -/

theorem mean_deriv {ι : Type} (S : Finset ι) (f : ℝ → ι → P3) (f' : ι → P3) (t : ℝ) (h : ∀ i ∈ S, HasDerivP (fun s => f s i) (f' i) t) :
    HasDerivP (fun s => mean S (f s)) (mean S f') t :=
  ⟨(HasDerivAt.fun_sum fun i hi => (h i hi).1).div_const _, (HasDerivAt.fun_sum fun i hi => (h i hi).2.1).div_const _, (HasDerivAt.fun_sum fun i hi => (h i hi).2.2).div_const _⟩

theorem mean_const {ι : Type} (S : Finset ι) (f : ι → P3) (p : P3) (hS : S.Nonempty) (h : ∀ i ∈ S, f i = p) : mean S f = p := by
  have hc : (S.card : ℝ) ≠ 0 := by exact_mod_cast hS.card_pos.ne'
  unfold mean
  rw [Finset.sum_congr rfl fun i hi => by rw [h i hi], Finset.sum_congr (f := fun i => (f i).y) rfl fun i hi => by rw [h i hi], Finset.sum_congr (f := fun i => (f i).z) rfl fun i hi => by rw [h i hi]]
  simp only [Finset.sum_const, nsmul_eq_mul]
  rw [mul_div_cancel_left₀ _ hc, mul_div_cancel_left₀ _ hc, mul_div_cancel_left₀ _ hc]

theorem inner_mean {ι : Type} (S : Finset ι) (f : ι → P3) (g : P3) : inner3 g (mean S f) = (∑ i ∈ S, inner3 g (f i)) / S.card := by
  unfold mean inner3
  simp only [Finset.sum_add_distrib, ← Finset.mul_sum]
  ring

theorem mean_move (L : Lapack) (P : Problem) (hv : P.Valid) (icam : Int) (hi : 0 ≤ icam) (hi' : icam < P.d.Nci) (at_ : Bool) (p : P3)
    (hreg : Cam.LensRegular P.d.lens (intrOf P.d P.seed icam) p) (hrot : PosesOk P icam) (F : Grad) (hF : gradOld L P "mean-pcam" icam at_ p = some F) (v : Mem) :
    (∀ (cams : Finset Int) (pref : Int → P3) (pframe : Int → Nat → P3), (∀ e, e ∈ cams ↔ Observes P icam e) → (∀ e ∈ cams, act at_ (camPose P.seed e) (pref e) = p) →
      (∀ e ∈ cams, ∀ i < P.d.Nframes.toNat, act at_ (frameOf P.seed i) (pframe e i) = pref e) →
      PixelMoves P icam v (fun s => mean cams fun e => act at_ (camPose (moved P v s) e)
        (if P.d.sel.frames then mean (Finset.range P.d.Nframes.toNat) fun i => act at_ (frameOf (moved P v s) i) (pframe e i) else pref e)) (dot P.d F v)) ∧
    ∃ cams : Finset Int, ∀ e, e ∈ cams ↔ Observes P icam e := by
  obtain ⟨Ku, rts, ist, sl, g, hK, hc, hsl, hg, hF⟩ := gradOld_some L P _ icam at_ p F hF
  rw [if_pos rfl] at hF
  unfold oldK at hK
  rw [if_neg (by decide)] at hK
  have hfr : P.d.sel.frames = true → 0 < P.d.Nframes := by
    intro hs
    by_contra hn
    rw [if_pos ⟨hs, Or.inr (Or.inr (by omega))⟩] at hK
    simp at hK
  obtain ⟨e0, n, hn, hobs, hr, hist⟩ := camPoses_spec P hv icam rts ist hc
  have hce := hv.wf.nce
  have heN : ∀ i : Nat, i < n → e0 + i < P.d.Nce := by
    intro i hin
    rcases hist with ⟨h, h', -⟩ | ⟨-, h, -, -⟩
    · omega
    · omega
  refine ⟨?_, (Finset.range n).image fun (i : Nat) => e0 + i, ?_⟩
  swap
  · intro e
    rw [hobs]
    simp only [Finset.mem_image, Finset.mem_range]
    constructor
    · rintro ⟨i, h, rfl⟩; omega
    · intro h; exact ⟨(e - e0).toNat, by omega, by omega⟩
  intro cams pref pframe hcams hpref hpframe xy hxy
  have ecams : cams = (Finset.range n).image fun (i : Nat) => e0 + i := by
    ext e
    rw [hcams, hobs]
    simp only [Finset.mem_image, Finset.mem_range]
    constructor
    · intro h; exact ⟨(e - e0).toNat, by omega, by omega⟩
    · rintro ⟨i, h, rfl⟩; omega
  have inj : Set.InjOn (fun (i : Nat) => e0 + (i : Int)) (Finset.range n) := by intro a _ b _ h; simp only at h; omega
  have hcard : cams.card = n := by rw [ecams, Finset.card_image_of_injOn inj, Finset.card_range]
  have hmem : ∀ i : Nat, i < n → e0 + i ∈ cams := fun i h => by rw [hcams, hobs]; omega
  have hin : ∀ e ∈ cams, e < P.d.Nce := by
    intro e he
    rw [ecams] at he
    obtain ⟨i, h, rfl⟩ := Finset.mem_image.1 he
    exact heN i (Finset.mem_range.1 h)
  -- the point in reference coordinates
  obtain ⟨x, hx⟩ : ∃ x : Int → ℝ → P3, ∀ e s, x e s = if P.d.sel.frames then mean (Finset.range P.d.Nframes.toNat) fun i => act at_ (frameOf (moved P v s) i) (pframe e i) else pref e := ⟨_, fun _ _ => rfl⟩
  obtain ⟨x', hx'⟩ : ∃ x' : Int → P3, ∀ e, x' e = if P.d.sel.frames then mean (Finset.range P.d.Nframes.toNat) fun (i : Nat) =>
      poseMove at_ (poseGrad (frameOf P.seed i) at_ (pframe e i)) (frameAt P.d v zeroP i) else ⟨0, 0, 0⟩ := ⟨_, fun _ => rfl⟩
  have mvz : ∀ M : M3, mulVec M ⟨0, 0, 0⟩ = ⟨0, 0, 0⟩ := by intro M; simp [Pose.mulVec]
  have addz : ∀ a : P3, addP a ⟨0, 0, 0⟩ = a := by intro a; simp [addP]
  have cz : ∀ a : P3, HasDerivP (fun _ => a) ⟨0, 0, 0⟩ 0 := fun a => ⟨hasDerivAt_const _ _, hasDerivAt_const _ _, hasDerivAt_const _ _⟩
  have x0 : ∀ e ∈ cams, x e 0 = pref e := by
    intro e he
    rw [hx]
    by_cases hs : P.d.sel.frames = true
    · rw [if_pos hs]
      refine mean_const _ _ _ ⟨0, Finset.mem_range.2 (by have := hfr hs; omega)⟩ fun i hi => ?_
      rw [moved_zero P hv.wf]
      exact hpframe e he i (Finset.mem_range.1 hi)
    · rw [if_neg hs]
  have xd : ∀ e ∈ cams, HasDerivP (x e) (x' e) 0 := by
    intro e he
    have : x e = fun s => x e s := rfl
    rw [this]
    simp only [hx, hx']
    by_cases hs : P.d.sel.frames = true
    · simp only [if_pos hs]
      refine mean_deriv _ (fun s (i : Nat) => act at_ (frameOf (moved P v s) i) (pframe e i)) _ 0 fun i hi => ?_
      have hi := Finset.mem_range.1 hi
      obtain ⟨d1, d2⟩ := framePose_deriv P hv.wf v i hi
      have := act_deriv at_ (fun s => frameOf (moved P v s) i) (fun _ => pframe e i) _ _ _ 0 d1 d2 (cz _) (by beta_reduce; rw [moved_zero P hv.wf]; exact hrot.frames hs i hi)
      simp only [moved_zero P hv.wf, mvz, addz] at this
      exact this
    · simp only [if_neg hs]
      exact cz _
  have dm := mean_deriv cams (fun s e => act at_ (camPose (moved P v s) e) (x e s))
    (fun e => addP (poseMove at_ (poseGrad (camPose P.seed e) at_ (pref e)) (camVel P.d v e)) (mulVec (poseGrad (camPose P.seed e) at_ (pref e)).2.2 (x' e))) 0 (by
      intro e he
      obtain ⟨d1, d2⟩ := camPose_deriv P hv.wf v e (hin e he)
      have := act_deriv at_ (fun s => camPose (moved P v s) e) (x e) _ _ _ 0 d1 d2 (xd e he) (by beta_reduce; rw [moved_zero P hv.wf]; exact hrot.cams e ((hcams e).1 he))
      simp only [moved_zero P hv.wf, x0 e he] at this
      exact this)
  have hne : cams.Nonempty := ⟨e0, by have := hmem 0 hn; simpa using this⟩
  have key := pix_move P hv.wf hv.lens icam hi hi' p hreg g hg v _ _ (by
    beta_reduce
    refine mean_const _ _ _ hne fun e he => ?_
    rw [x0 e he, moved_zero P hv.wf]
    exact hpref e he) dm xy hxy
  simp only [hx] at key
  refine HasDerivAt.congr_deriv key ?_
  rw [← hsl] at hF
  have hlen : rts.length = n := by rw [hr]; simp
  have ep : ∀ i : Nat, i < n → toPose (camPose P.seed (e0 + i)) at_ p = pref (e0 + i) := fun i h => toPose_eq _ _ _ _ (hrot.cams _ ((hcams _).1 (hmem i h))) (hpref _ (hmem i h))
  have eC : dot P.d (extrinsicsCols rts ist g.dp at_ p (intrinsicsCols P g (sliceIntrinsics P icam))) v xy = dot P.d (intrinsicsCols P g (sliceIntrinsics P icam)) v xy +
      (∑ e ∈ cams, inner3 (g.dp xy) (poseMove at_ (poseGrad (camPose P.seed e) at_ (pref e)) (camVel P.d v e))) / cams.card := by
    rw [dot_cams P hv.wf g icam at_ p v xy rts ist e0 n hn hr hist, hcard, ecams, Finset.sum_image inj, Finset.sum_div]
    congr 1
    refine Finset.sum_congr rfl fun i hi => ?_
    rw [ep i (Finset.mem_range.1 hi)]
  rw [inner_mean]
  simp only [inner_add]
  rw [Finset.sum_add_distrib, add_div, ← Option.some.inj hF]
  by_cases hs : P.d.sel.frames = true
  · rw [dot_frames P hv.wf g.dp at_ p v xy hs (hfr hs) rts _ (fun c hc => cams_after P hv.wf g icam at_ p xy rts ist e0 n hn hlen hist c hc), eC]
    have eF : ∑ i ∈ Finset.range P.d.Nframes.toNat, ((rts.map fun Tc => inner3 (vecMul (g.dp xy) (poseGrad Tc at_ (toPose Tc at_ p)).2.2)
        (poseMove at_ (poseGrad (poseAt P.seed (.frame i)) at_ (toPose (poseAt P.seed (.frame i)) at_ (toPose Tc at_ p))) (frameAt P.d v zeroP i))).sum / rts.length) / P.d.Nframes =
        (∑ e ∈ cams, inner3 (g.dp xy) (mulVec (poseGrad (camPose P.seed e) at_ (pref e)).2.2 (x' e))) / cams.card := by
      have e1 : ∀ e, inner3 (g.dp xy) (mulVec (poseGrad (camPose P.seed e) at_ (pref e)).2.2 (x' e)) = (∑ i ∈ Finset.range P.d.Nframes.toNat,
          inner3 (vecMul (g.dp xy) (poseGrad (camPose P.seed e) at_ (pref e)).2.2) (poseMove at_ (poseGrad (frameOf P.seed i) at_ (pframe e i)) (frameAt P.d v zeroP i))) / P.d.Nframes.toNat := by
        intro e
        rw [inner_mulVec, hx', if_pos hs, inner_mean, Finset.card_range]
      simp only [e1]
      have eN : ((P.d.Nframes.toNat : Nat) : ℝ) = (P.d.Nframes : ℝ) := by
        have : ((P.d.Nframes.toNat : Nat) : Int) = P.d.Nframes := Int.toNat_of_nonneg (hfr hs).le
        exact_mod_cast congrArg (fun z : Int => (z : ℝ)) this
      rw [← Finset.sum_div cams, Finset.sum_comm, eN, hcard, Finset.sum_div, Finset.sum_div]
      refine Finset.sum_congr rfl fun i hi => ?_
      have hi := Finset.mem_range.1 hi
      rw [hlen, hr, List.map_map]
      have ls : ∀ f : Nat → ℝ, ((List.range n).map f).sum = ∑ i ∈ Finset.range n, f i := fun f => rfl
      rw [ls, ecams, Finset.sum_image inj]
      rw [div_right_comm]
      congr 2
      refine Finset.sum_congr rfl fun j hj => ?_
      have hj := Finset.mem_range.1 hj
      simp only [Function.comp_def]
      have ef := toPose_eq (frameOf P.seed i) at_ (pref (e0 + j)) (pframe (e0 + j) i) (hrot.frames hs i hi) (hpframe _ (hmem j hj) i hi)
      rw [ep j hj, show poseAt P.seed (.frame (i : Nat)) = frameOf P.seed i from rfl, ef]
    rw [eF]
    ring
  · have : framesCols P rts g.dp at_ p (extrinsicsCols rts ist g.dp at_ p (intrinsicsCols P g (sliceIntrinsics P icam))) = extrinsicsCols rts ist g.dp at_ p (intrinsicsCols P g (sliceIntrinsics P icam)) := by
      have hneg : ¬ stateIndexFrames 0 P.d ≥ 0 := by
        unfold stateIndexFrames
        simp only [Bool.not_eq_true] at hs
        rw [hs]
        simp only [Bool.not_false, if_true]
        split_ifs <;> omega
      funext r c
      unfold framesCols
      simp only [if_neg hneg]
    rw [this, eC]
    have z : ∑ e ∈ cams, inner3 (g.dp xy) (mulVec (poseGrad (camPose P.seed e) at_ (pref e)).2.2 (x' e)) = 0 := by
      refine Finset.sum_eq_zero fun e _ => ?_
      rw [hx', if_neg hs, mvz]
      simp [inner3]
    rw [z]
    ring

end Mrcal.ProjUnc

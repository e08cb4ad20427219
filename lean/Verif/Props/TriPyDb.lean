import Verif.Props.TriPyMove
/-
C94: dp_triangulated_db is the motion of the stabilized point
-/
namespace Mrcal.TriPy
open Mrcal Mrcal.Pose Mrcal.Tri Mrcal.AD Mrcal.Callback Mrcal.Pack Mrcal.StateLayout Mrcal.Propagate Mrcal.Uncertainty Mrcal.ProjUnc Mrcal.UnprojectPy Matrix

/-- a pose gradient, applied -/
noncomputable def ptw (J : M3 × M3) (T' : RtV) : P3 := addP (Pose.mulVec J.1 T'.r) (Pose.mulVec J.2 T'.t)

theorem ptw_zero (J : M3 × M3) : ptw J ⟨⟨0, 0, 0⟩, ⟨0, 0, 0⟩⟩ = ⟨0, 0, 0⟩ := by simp [ptw, mulVec_zero, addP]

theorem add_set (F : Cols) (i n : Int) (f g : Nat → P3) : addCols (setCols F i n f) i n g = setCols F i n fun k => addP (f k) (g k) := by
  funext c
  unfold addCols setCols
  by_cases h : i ≤ c ∧ c < i + n
  · simp only [if_pos h]
  · simp only [if_neg h]

theorem wsum_add (n : Nat) (f g : Nat → P3) (u : Nat → ℝ) : wsum n (fun k => addP (f k) (g k)) u = addP (wsum n f u) (wsum n g u) := by
  simp only [wsum, addP, add_mul, Finset.sum_add_distrib]

/-- the state index of the frames -/
theorem frames_index (d : Dims) (wf : WF d) : (0 ≤ stateIndexFrames 0 d ↔ d.sel.frames = true ∧ 0 < d.Nframes) ∧
    (0 ≤ stateIndexFrames 0 d → stateIndexFrames 0 d = numStatesIntrinsics d + numStatesExtrinsics d ∧ numStatesFrames d = 6 * d.Nframes) ∧
    (∀ i : Int, 0 ≤ i → i < d.Nframes → d.sel.frames = true → stateIndexFrames i d = numStatesIntrinsics d + numStatesExtrinsics d + 6 * i) := by
  obtain ⟨n1, n2, n3, n4, n5⟩ := nonnegs wf
  have idx : ∀ i : Int, 0 ≤ i → i < d.Nframes → d.sel.frames = true → stateIndexFrames i d = numStatesIntrinsics d + numStatesExtrinsics d + 6 * i := by
    intro i a b hs
    unfold stateIndexFrames
    rw [if_neg (by omega), if_neg (by simp [hs]), if_neg (by simp; omega)]
    ring
  have iff : 0 ≤ stateIndexFrames 0 d ↔ d.sel.frames = true ∧ 0 < d.Nframes := by
    constructor
    · intro h
      by_contra hc
      have : stateIndexFrames 0 d < 0 := by
        unfold stateIndexFrames
        by_cases hs : d.sel.frames = true
        · have : d.Nframes ≤ 0 := by
            by_contra h2
            exact hc ⟨hs, by omega⟩
          rw [if_pos (by omega)]; decide
        · by_cases hN : d.Nframes ≤ 0
          · rw [if_pos hN]; decide
          · rw [if_neg hN, if_pos (by simp [hs])]; decide
      omega
    · rintro ⟨a, b⟩
      have := idx 0 (by omega) b a
      omega
  refine ⟨iff, ?_, idx⟩
  intro h
  obtain ⟨a, b⟩ := iff.1 h
  refine ⟨?_, ?_⟩
  · have := idx 0 (by omega) b a
    omega
  · unfold numStatesFrames
    rw [if_pos a]

/-- the columns of the boards -/
theorem frames_cols (d : Dims) (wf : WF d) (v : Mem) (hs : d.sel.frames = true) (hN : 0 < d.Nframes) (l : Nat → M3 × M3) :
    wsum (numStatesFrames d).toNat (fun k => let c := rtCol (l (k / 6)) (k % 6); (⟨c.x / d.Nframes.toNat, c.y / d.Nframes.toNat, c.z / d.Nframes.toNat⟩ : P3)) (fun k => (unpackVector d v).1 (stateIndexFrames 0 d + k)) =
      mean (Finset.range d.Nframes.toNat) fun i => ptw (l i) (frameAt d v zeroP i) := by
  obtain ⟨h1, h2, h3⟩ := frames_index d wf
  obtain ⟨i0, hn⟩ := h2 (h1.2 ⟨hs, hN⟩)
  have en : (numStatesFrames d).toNat = d.Nframes.toNat * 6 := by omega
  have six : ∀ i, i < d.Nframes.toNat → wsum 6 (rtCol (l i)) (fun k => (unpackVector d v).1 (stateIndexFrames 0 d + ((i * 6 + k : Nat) : Int))) = ptw (l i) (frameAt d v zeroP i) := by
    intro i hi
    have hc := frame_velocity d wf v i (by omega) (by omega) hs
    simp only at hc
    rw [wsum_six]
    unfold ptw
    rw [hc, h3 i (by omega) (by omega) hs, i0]
    have e : ∀ k : Nat, numStatesIntrinsics d + numStatesExtrinsics d + ((i * 6 + k : Nat) : Int) = numStatesIntrinsics d + numStatesExtrinsics d + 6 * (i : Int) + k := by intro k; push_cast; ring
    simp only [e, Nat.cast_zero, Nat.cast_one, Nat.cast_ofNat]
  have blocks : ∀ f : P3 → ℝ, (∑ k ∈ Finset.range (d.Nframes.toNat * 6), f (rtCol (l (k / 6)) (k % 6)) / (d.Nframes.toNat : ℝ) * (unpackVector d v).1 (stateIndexFrames 0 d + (k : Nat))) =
      (∑ i ∈ Finset.range d.Nframes.toNat, ∑ k ∈ Finset.range 6, f (rtCol (l i) k) * (unpackVector d v).1 (stateIndexFrames 0 d + ((i * 6 + k : Nat) : Int))) / (d.Nframes.toNat : ℝ) := by
    intro f
    rw [← sum_blocks d.Nframes.toNat fun i k => f (rtCol (l i) k) * (unpackVector d v).1 (stateIndexFrames 0 d + ((i * 6 + k : Nat) : Int)), Finset.sum_div]
    refine Finset.sum_congr rfl fun k _ => ?_
    rw [show k / 6 * 6 + k % 6 = k by omega]
    ring
  unfold mean
  rw [en]
  simp only [wsum, Finset.card_range]
  ext
  · rw [show (∑ i ∈ Finset.range d.Nframes.toNat, (ptw (l i) (frameAt d v zeroP i)).x) = _ from Finset.sum_congr rfl fun i hi => congrArg P3.x (six i (Finset.mem_range.1 hi)).symm]
    exact blocks P3.x
  · rw [show (∑ i ∈ Finset.range d.Nframes.toNat, (ptw (l i) (frameAt d v zeroP i)).y) = _ from Finset.sum_congr rfl fun i hi => congrArg P3.y (six i (Finset.mem_range.1 hi)).symm]
    exact blocks P3.y
  · rw [show (∑ i ∈ Finset.range d.Nframes.toNat, (ptw (l i) (frameAt d v zeroP i)).z) = _ from Finset.sum_congr rfl fun i hi => congrArg P3.z (six i (Finset.mem_range.1 hi)).symm]
    exact blocks P3.z

/-- set the columns of an optimized pose -/
def setAt (x : Option Int) (J : Nat → P3) (F : Cols) : Cols := match x with
  | some i => setCols F i 6 J
  | none => F

/-- the columns of one camera pose -/
theorem cam_set (P : Problem) (hv : P.Valid) (e : Int) (he : e < P.d.Nce) (x : Option Int) (hx : x = if 0 ≤ e ∧ P.d.sel.extrinsics = true then some (numStatesIntrinsics P.d + 6 * e) else none) (J : Nat → P3) (JJ : M3 × M3)
    (hJ : ∀ u, wsum 6 J u = wsum 6 (rtCol JJ) u) (F : Cols) (v : Mem) (hF : ∀ c, numStatesIntrinsics P.d + 6 * e ≤ c → c < numStatesIntrinsics P.d + 6 * e + 6 → F c = ⟨0, 0, 0⟩) :
    let G := setAt x J F
    colDot P.d G v = addP (colDot P.d F v) (ptw JJ (camVel P.d v e)) ∧ (∀ c, ¬ (0 ≤ e ∧ numStatesIntrinsics P.d + 6 * e ≤ c ∧ c < numStatesIntrinsics P.d + 6 * e + 6) → G c = F c) ∧
      (P.d.sel.extrinsics = false → G = F) := by
  obtain ⟨n1, n2, n3, n4, n5⟩ := nonnegs hv.wf
  by_cases h : 0 ≤ e ∧ P.d.sel.extrinsics = true
  · rw [if_pos h] at hx
    subst hx
    have hse : numStatesExtrinsics P.d = 6 * P.d.Nce := by unfold numStatesExtrinsics; rw [if_pos h.2]
    have ht : numStatesIntrinsics P.d + numStatesExtrinsics P.d ≤ numStates P.d := by unfold numStates; omega
    refine ⟨?_, ?_, fun hh => by rw [h.2] at hh; simp at hh⟩
    · show colDot P.d (setCols F _ 6 J) v = _
      rw [colDot_set P.d F v _ 6 (by omega) (by omega) (by omega) J hF]
      congr 1
      rw [show (6 : Int).toNat = 6 from rfl, hJ]
      exact camVel_opt P.d hv.wf v e h.1 he h.2 JJ
    · intro c hc
      show setCols F _ 6 J c = _
      unfold setCols
      rw [if_neg (fun hh => hc ⟨h.1, hh⟩)]
  · rw [if_neg h] at hx
    subst hx
    refine ⟨?_, fun _ _ => rfl, fun _ => rfl⟩
    show colDot P.d F v = _
    rw [camVel_fixed P.d v e h, ptw_zero, addP_zero]

theorem mapM_forall₂ {α β : Type} (g : α → Option β) : ∀ (l : List α) {r : List β}, l.mapM g = some r → List.Forall₂ (fun a b => g a = some b) l r
  | [], r, h => by
    rw [List.mapM_nil] at h
    cases h
    exact .nil
  | a :: l, r, h => by
    rw [List.mapM_cons] at h
    simp only [Option.bind_eq_bind] at h
    obtain ⟨b, hb, h⟩ := Option.bind_eq_some_iff.1 h
    obtain ⟨r', hr, h⟩ := Option.bind_eq_some_iff.1 h
    cases h
    exact .cons hb (mapM_forall₂ g l hr)

/-- the columns of the cameras and of the boards, filled in -/
noncomputable def fillIn (P : Problem) (f : Full) (stab0 : Option (M3 × M3)) (stabF : Option (List (M3 × M3))) (e0 e1 : Option Int) (F : Cols) : Cols :=
  let F := setAt e0 (stab0.elim (rtCol (camera0Cols f)) fun J k => addP (rtCol (camera0Cols f) k) (rtCol J k)) (setAt e1 (rtCol (camera1Cols f)) F)
  stabF.elim F fun l => setCols F (stateIndexFrames 0 P.d) (numStatesFrames P.d) fun k =>
    let c := rtCol (l.getD (k / 6) (zeroM, zeroM)) (k % 6)
    ⟨c.x / P.d.Nframes.toNat, c.y / P.d.Nframes.toNat, c.z / P.d.Nframes.toNat⟩

theorem fillIn_eq (P : Problem) (f : Full) (stab0 : Option (M3 × M3)) (stabF : Option (List (M3 × M3))) (e0 e1 : Option Int) (F : Cols) :
    (let F := match e1 with
        | some i => setCols F i 6 (rtCol (camera1Cols f))
        | none => F
      let F := match e0 with
        | some i =>
          let F := setCols F i 6 (rtCol (camera0Cols f))
          match stab0 with
          | some J => addCols F i 6 (rtCol J)
          | none => F
        | none => F
      (match stabF with
        | some l => setCols F (stateIndexFrames 0 P.d) (numStatesFrames P.d) fun k =>
          let c := rtCol (l.getD (k / 6) (zeroM, zeroM)) (k % 6)
          ⟨c.x / P.d.Nframes.toNat, c.y / P.d.Nframes.toNat, c.z / P.d.Nframes.toNat⟩
        | none => F)) = fillIn P f stab0 stabF e0 e1 F := by
  unfold fillIn setAt
  cases e1 <;> cases e0 <;> cases stab0 <;> cases stabF <;> simp only [add_set, Option.elim]

/-- `dpDb`, one step at a time -/
theorem dpDb_steps (P : Problem) (s : Slice) (f : Full) (stabilize : Bool) (F : Cols) (h : dpDb P s f stabilize = some F) :
    ∃ stab0, (if stabilize then (stabilize0 s.m0.rt f.c.p).map some else some none) = some stab0 ∧
    ∃ stabF, (if stabilize && decide (stateIndexFrames 0 P.d ≥ 0) then
      ((List.range P.d.Nframes.toNat).mapM fun (i : Nat) => stabilizeFrame s.m0.rt (poseAt P.seed (.frame i)) f.c.p).map some else some none) = some stabF ∧
    ((intrinsicsBlock P s.m0.icamI f.c.dv0 f.g0 fun _ => ⟨0, 0, 0⟩).bind fun F =>
      (intrinsicsBlock P s.m1.icamI (Pose.mul f.c.dv1 f.dv1_dvlocal1) f.g1 F).bind fun F =>
      (extrinsicsIndex P s.m0.icamI).bind fun e0 => (extrinsicsIndex P s.m1.icamI).bind fun e1 => some (fillIn P f stab0 stabF e0 e1 F)) = some F := by
  unfold dpDb at h
  simp only [Option.bind_eq_bind] at h
  simp only [← fillIn_eq]
  cases stabilize with
  | false =>
    rw [if_neg (by simp)] at h
    have h := h
    exact ⟨none, rfl, none, rfl, h⟩
  | true =>
    rw [if_pos rfl] at h
    obtain ⟨stab0, hs0, h⟩ := Option.bind_eq_some_iff.1 h
    refine ⟨stab0, by rw [if_pos rfl]; exact hs0, ?_⟩
    by_cases hd : stateIndexFrames 0 P.d ≥ 0
    · rw [if_pos (by simp [hd])] at h
      obtain ⟨stabF, hsF, h⟩ := Option.bind_eq_some_iff.1 h
      exact ⟨stabF, by rw [if_pos (by simp [hd])]; exact hsF, h⟩
    · rw [if_neg (by simp [hd])] at h
      exact ⟨none, by rw [if_neg (by simp [hd])], h⟩

/-- the motion of the point, as reported -/
theorem dpDb_dot (P : Problem) (hv : P.Valid) (s : Slice) (c0 : AsCalibrated P s.m0) (c1 : AsCalibrated P s.m1) (hne : s.m0.icamI ≠ s.m1.icamI) (f : Full) (stabilize : Bool) (F : Cols)
    (h : dpDb P s f stabilize = some F) (v : Mem) :
    ∃ σ, colDot P.d F v = addP (addP (addP (Pose.mulVec f.c.dv0 (diSum f.g0 P.d.lens.numParams.toNat (intrinsicsAt P.d v zeroP s.m0.icamI)))
        (Pose.mulVec (Pose.mul f.c.dv1 f.dv1_dvlocal1) (diSum f.g1 P.d.lens.numParams.toNat (intrinsicsAt P.d v zeroP s.m1.icamI))))
        (addP (ptw (camera1Cols f) (camVel P.d v s.m1.icamE)) (ptw (camera0Cols f) (camVel P.d v s.m0.icamE)))) σ ∧
      (stabilize = false → σ = ⟨0, 0, 0⟩) ∧ (stabilize = true → ∃ J, stabilize0 s.m0.rt f.c.p = some J ∧ ∃ φ, σ = addP (ptw J (camVel P.d v s.m0.icamE)) φ ∧
        ((P.d.sel.frames = true ∧ 0 < P.d.Nframes) → ∃ Jf : Nat → M3 × M3, (∀ i < P.d.Nframes.toNat, stabilizeFrame s.m0.rt (frameOf P.seed i) f.c.p = some (Jf i)) ∧
          φ = mean (Finset.range P.d.Nframes.toNat) fun i => ptw (Jf i) (frameAt P.d v zeroP i)) ∧
        (¬ (P.d.sel.frames = true ∧ 0 < P.d.Nframes) → φ = ⟨0, 0, 0⟩)) := by
  have wf := hv.wf
  obtain ⟨n1, n2, n3, n4, n5⟩ := nonnegs wf
  obtain ⟨fi1, fi2, fi3⟩ := frames_index P.d wf
  obtain ⟨stab0, hs0, stabF, hsF, h⟩ := dpDb_steps P s f stabilize F h
  obtain ⟨F1, hF1, h⟩ := Option.bind_eq_some_iff.1 h
  obtain ⟨F2, hF2, h⟩ := Option.bind_eq_some_iff.1 h
  obtain ⟨x0, hx0, h⟩ := Option.bind_eq_some_iff.1 h
  obtain ⟨x1, hx1, h⟩ := Option.bind_eq_some_iff.1 h
  obtain ⟨N, hN⟩ : ∃ N, N = numIntrinsicsOpt P.d.sel P.d.lens := ⟨_, rfl⟩
  have hNn : 0 ≤ N := by
    rw [hN, numIntrinsicsOpt_eq]
    unfold specIntrinsicsPerCamera
    have := numParams_ge4 P.d.lens
    split_ifs <;> omega
  have hni : numStatesIntrinsics P.d = P.d.Nci * N := by rw [hN]; rfl
  -- the intrinsics
  obtain ⟨a1, a2⟩ := intrinsics_block P wf s.m0.icamI c0.range.1 c0.range.2 _ _ _ F1 hF1 v (fun _ _ _ => rfl)
  rw [colDot_zero, zero_addP] at a1
  have le0 := Int.mul_le_mul_of_nonneg_right (show s.m0.icamI + 1 ≤ P.d.Nci by have := c0.range.2; omega) hNn
  have le1 := Int.mul_le_mul_of_nonneg_right (show s.m1.icamI + 1 ≤ P.d.Nci by have := c1.range.2; omega) hNn
  rw [← hN] at a2
  have dis : ∀ c, s.m1.icamI * N ≤ c → c < (s.m1.icamI + 1) * N → ¬ (s.m0.icamI * N ≤ c ∧ c < (s.m0.icamI + 1) * N) := by
    intro c p1 p2 ⟨p3, p4⟩
    rcases lt_or_gt_of_ne hne with hlt | hlt
    · have := Int.mul_le_mul_of_nonneg_right (show s.m0.icamI + 1 ≤ s.m1.icamI by omega) hNn
      omega
    · have := Int.mul_le_mul_of_nonneg_right (show s.m1.icamI + 1 ≤ s.m0.icamI by omega) hNn
      omega
  obtain ⟨b1, b2⟩ := intrinsics_block P wf s.m1.icamI c1.range.1 c1.range.2 _ _ _ F2 hF2 v (by rw [← hN]; exact fun c p1 p2 => a2 c (dis c p1 p2))
  rw [← hN] at b2
  have z2 : ∀ c, numStatesIntrinsics P.d ≤ c → F2 c = ⟨0, 0, 0⟩ := by
    intro c hc
    rw [b2 c (by omega), a2 c (by omega)]
  -- the extrinsics
  obtain ⟨e0, u0⟩ := ext_index P hv _ _ c0.range c0.observes x0 hx0
  obtain ⟨e1, u1⟩ := ext_index P hv _ _ c1.range c1.observes x1 hx1
  have l0 := observes_lt hv c0.observes
  have l1 := observes_lt hv c1.observes
  have hnE : 0 ≤ s.m0.icamE → 0 ≤ s.m1.icamE → s.m0.icamE ≠ s.m1.icamE := by
    intro p0 p1 he
    apply hne
    refine (u1 _ _ c0.observes).2 ?_
    unfold Outliers.extr
    simp only [he]
  have step1 : ∀ (G : Cols), G = setAt x1 (rtCol (camera1Cols f)) F2 → colDot P.d G v = addP (colDot P.d F2 v) (ptw (camera1Cols f) (camVel P.d v s.m1.icamE)) ∧
      (∀ c, ¬ (0 ≤ s.m1.icamE ∧ numStatesIntrinsics P.d + 6 * s.m1.icamE ≤ c ∧ c < numStatesIntrinsics P.d + 6 * s.m1.icamE + 6) → G c = F2 c) ∧ (P.d.sel.extrinsics = false → G = F2) := by
    intro G hG
    rw [hG]
    by_cases hpos : 0 ≤ s.m1.icamE
    · exact cam_set P hv s.m1.icamE l1 x1 e1 _ _ (fun _ => rfl) F2 v (fun c q1 q2 => z2 c (by omega))
    · rw [if_neg (fun hh => hpos hh.1)] at e1
      rw [e1]
      refine ⟨?_, fun _ _ => rfl, fun _ => rfl⟩
      show colDot P.d F2 v = _
      rw [camVel_fixed P.d v _ (fun hh => hpos hh.1), ptw_zero, addP_zero]
  unfold fillIn at h
  dsimp only at h
  generalize hG : setAt x1 (rtCol (camera1Cols f)) F2 = G at h
  obtain ⟨s1, s2, s3⟩ := step1 G hG.symm
  have zG : ∀ c, numStatesIntrinsics P.d ≤ c → ¬ (0 ≤ s.m1.icamE ∧ numStatesIntrinsics P.d + 6 * s.m1.icamE ≤ c ∧ c < numStatesIntrinsics P.d + 6 * s.m1.icamE + 6) → G c = ⟨0, 0, 0⟩ := by
    intro c p q
    rw [s2 c q, z2 c p]
  have fill : ∀ (H : Cols) (J : Nat → P3) (JJ : M3 × M3), (∀ u, wsum 6 J u = wsum 6 (rtCol JJ) u) → H = setAt x0 J G →
      colDot P.d H v = addP (colDot P.d G v) (ptw JJ (camVel P.d v s.m0.icamE)) ∧ (∀ c, numStatesIntrinsics P.d + numStatesExtrinsics P.d ≤ c → H c = ⟨0, 0, 0⟩) := by
    intro H J JJ hJ hH
    rw [hH]
    by_cases hopt : 0 ≤ s.m0.icamE ∧ P.d.sel.extrinsics = true
    · have hse : numStatesExtrinsics P.d = 6 * P.d.Nce := by unfold numStatesExtrinsics; rw [if_pos hopt.2]
      obtain ⟨t1, t2, -⟩ := cam_set P hv s.m0.icamE l0 x0 e0 J JJ hJ G v (fun c q1 q2 => zG c (by omega) (fun hh => by have := hnE hopt.1 hh.1; omega))
      refine ⟨t1, fun c hc => ?_⟩
      rw [t2 c (by omega)]
      exact zG c (by omega) (by omega)
    · rw [if_neg hopt] at e0
      rw [e0]
      refine ⟨by rw [camVel_fixed P.d v _ hopt, ptw_zero, addP_zero]; rfl, fun c hc => ?_⟩
      by_cases hsel : P.d.sel.extrinsics = true
      · have hse : numStatesExtrinsics P.d = 6 * P.d.Nce := by unfold numStatesExtrinsics; rw [if_pos hsel]
        exact zG c (by omega) (by omega)
      · show G c = _
        rw [s3 (by simpa using hsel)]
        exact z2 c (by omega)
  cases stabilize with
  | false =>
    simp only [Bool.false_eq_true, if_false, Bool.false_and, Option.some.injEq] at hs0 hsF
    subst hs0
    subst hsF
    simp only [Option.some.injEq, Option.elim] at h
    obtain ⟨t1, -⟩ := fill F (rtCol (camera0Cols f)) (camera0Cols f) (fun _ => rfl) h.symm
    refine ⟨⟨0, 0, 0⟩, ?_, fun _ => rfl, fun hh => by simp at hh⟩
    rw [addP_zero, t1, s1, b1, a1, addP_assoc]
  | true =>
    simp only [if_true, Bool.true_and, decide_eq_true_eq] at hs0 hsF
    obtain ⟨J, hJ, hJ'⟩ := Option.map_eq_some_iff.1 hs0
    subst hJ'
    simp only [Option.some.injEq, Option.elim] at h
    generalize hH : setAt x0 (fun k => addP (rtCol (camera0Cols f) k) (rtCol J k)) G = H at h
    have hsum : ∀ u, wsum 6 (fun k => addP (rtCol (camera0Cols f) k) (rtCol J k)) u = wsum 6 (rtCol (camera1Cols.addM (camera0Cols f).1 J.1, camera1Cols.addM (camera0Cols f).2 J.2)) u := by
      intro u
      rw [wsum_add, wsum_six, wsum_six, wsum_six]
      ext <;> simp [addP, Pose.mulVec, camera1Cols.addM] <;> ring
    obtain ⟨t1, t2⟩ := fill H _ _ hsum hH.symm
    have hpt : ptw (camera1Cols.addM (camera0Cols f).1 J.1, camera1Cols.addM (camera0Cols f).2 J.2) (camVel P.d v s.m0.icamE) =
        addP (ptw (camera0Cols f) (camVel P.d v s.m0.icamE)) (ptw J (camVel P.d v s.m0.icamE)) := by
      unfold ptw
      ext <;> simp [addP, Pose.mulVec, camera1Cols.addM] <;> ring
    by_cases hfr : P.d.sel.frames = true ∧ 0 < P.d.Nframes
    · have hf0 := fi1.2 hfr
      rw [if_pos hf0] at hsF
      obtain ⟨l, hl, hl'⟩ := Option.map_eq_some_iff.1 hsF
      subst hl'
      try simp only [Option.elim] at h
      obtain ⟨i0, hn⟩ := fi2 hf0
      have hset := colDot_set P.d H v (stateIndexFrames 0 P.d) (numStatesFrames P.d) hf0 n3 (by unfold numStates; omega)
        (fun k => let c := rtCol (l.getD (k / 6) (zeroM, zeroM)) (k % 6); ⟨c.x / P.d.Nframes.toNat, c.y / P.d.Nframes.toNat, c.z / P.d.Nframes.toNat⟩) (fun c q1 q2 => t2 c (by omega))
      rw [frames_cols P.d wf v hfr.1 hfr.2 fun i => l.getD i (zeroM, zeroM)] at hset
      refine ⟨addP (ptw J (camVel P.d v s.m0.icamE)) (mean (Finset.range P.d.Nframes.toNat) fun i => ptw (l.getD i (zeroM, zeroM)) (frameAt P.d v zeroP i)), ?_, fun hh => by simp at hh, fun _ => ⟨J, hJ, _, rfl, fun _ =>
        ⟨fun i => l.getD i (zeroM, zeroM), ?_, rfl⟩, fun hh => absurd hfr hh⟩⟩
      · rw [← h, hset, t1, hpt, s1, b1, a1]
        simp only [addP_assoc]
      · intro i hi
        have hF2 := mapM_forall₂ _ _ hl
        have hlen := hF2.length_eq
        rw [List.length_range] at hlen
        have hget := List.forall₂_iff_get.1 hF2 |>.2 i (by rw [List.length_range]; exact hi) (by omega)
        rw [List.get_eq_getElem, List.get_eq_getElem, List.getElem_range] at hget
        beta_reduce
        rw [List.getD_eq_getElem _ _ (by omega)]
        exact hget
    · rw [if_neg (fun hh => hfr (fi1.1 hh)), Option.some.injEq] at hsF
      subst hsF
      try simp only [Option.elim] at h
      refine ⟨ptw J (camVel P.d v s.m0.icamE), ?_, fun hh => by simp at hh, fun _ => ⟨J, hJ, ⟨0, 0, 0⟩, by rw [addP_zero], fun hh => absurd hh hfr, fun _ => rfl⟩⟩
      rw [← h, t1, hpt, s1, b1, a1]
      simp only [addP_assoc]

end Mrcal.TriPy

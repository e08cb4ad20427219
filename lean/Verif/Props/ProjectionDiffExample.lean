import Verif.Props.ProjectionDiffFit
/-
C96: cases of projection_diff(), and where it doesn't do what is documented.
-/
namespace Mrcal.ModelDiff
open Mrcal Mrcal.Cam Mrcal.Pose Mrcal.ImageTransform

/-- a solver that never moves from this point, and says so -/
noncomputable def stuck (c : P2) : Solver := fun X _ _ => (c, (X c).x ^ 2 + (X c).y ^ 2)
theorem stuck_reports (c : P2) : SolverReports (stuck c) := fun _ _ _ => rfl

noncomputable def env0 (c : P2) (r0 : P3) (rt0 : RtV) : Env := ⟨stuck c, ⟨none, none, none⟩, pick r0 rt0, false, fun _ _ _ => none⟩

theorem cam_usable (L : Lens) (hv : ValidLens L) (hc : isCahvore L = false) (R : M3) (hR : IsRot R) (t : P3) (n : Nat) : Usable (cam L R t n) :=
  ⟨hR, hv, hc, by show (if (0 : Int) = 0 ∨ (0 : Int) = 1 then (1 : ℝ) else 0) ≠ 0; norm_num, by show (if (1 : Int) = 0 ∨ (1 : Int) = 1 then (1 : ℝ) else 0) ≠ 0; norm_num⟩

theorem direct_ray (env : Env) (hs : SolverReports env.solve) (m : Model) (hm : Usable m) (hd : isDirect m.lens = true) (q : P2) : ∃ v, Ray env m q v := by
  obtain ⟨v, hu, h | h⟩ := ray_cases env hs m hm q
  · rw [hd] at h; exact absurd h.2 (by simp)
  · exact ⟨v, h.1, hu⟩

/-- the arguments: a grid, a distance, a focus radius -/
def args (n : Nat) (intrinsicsOnly : Bool) (d : Distance) (radius : ℝ) : Args := ⟨none, n, some n, intrinsicsOnly, d, false, some ⟨0, 0⟩, radius⟩

theorem grid1 (W H : Nat) : sampleImager 1 (some 1) W H = some [[⟨0, 0⟩]] := by
  simp [sampleImager, gridHeight, linspace]

theorem grid2 : sampleImager 2 (some 2) 2 2 = some [[⟨0, 0⟩, ⟨1, 0⟩], [⟨0, 1⟩, ⟨1, 1⟩]] := by
  have e : linspace (((2 : Nat) : ℝ) - 1) 2 = [0, 1] := by
    simp [linspace, List.range_succ]
    norm_num
  unfold sampleImager gridHeight
  rw [Option.map_some, e]
  rfl

/-- without a fit, two cameras of the same size: this works -/
theorem no_fit_runs (env : Env) (hs : SolverReports env.solve) (m0 m1 : Model) (h0 : Usable m0) (h1 : Usable m1) (hW : m1.W = m0.W ∧ m1.H = m0.H) (n : Nat) (o : Bool) (d : Distance) :
    ∃ r, projectionDiff env [m0, m1] (args n o d 0) = some r ∧ sampleImager n (some n) m0.W m0.H = some r.q0 := by
  have hgrid : ∃ grid, sampleImager n (some n) m0.W m0.H = some grid := ⟨_, rfl⟩
  obtain ⟨grid, hg⟩ := hgrid
  obtain ⟨v0, e3⟩ := ray_total env hs m0 h0 grid.flatten
  obtain ⟨v1, e4⟩ := ray_total env hs m1 h1 grid.flatten
  have hT : ∃ T, getRt10 env (args n o d 0) grid.flatten m0.W m0.H m0 m1 v0 v1 = some T := by
    unfold getRt10
    rw [radius_zero env _ _ _ rfl]
    cases o
    · exact ⟨RtToFrom m0 m1, by simp [args]⟩
    · exact ⟨identityRt, by simp [args]⟩
  obtain ⟨T, hT⟩ := hT
  refine ⟨_, steps_conv env m0 m1 [] (args n o d 0) m0 [m1] grid v0 [v1] [T] (fun h => absurd rfl h) (fun m hm => by rw [List.mem_singleton.mp hm]; exact hW) (centralize_central _ _ _ h0.central)
    (mapM_one_conv _ _ _ (centralize_central _ _ _ h1.central)) hg e3 (mapM_one_conv _ _ _ e4) (mapM_one_conv _ (_, _) _ hT), ?_⟩
  rw [hg]
  rfl

theorem mapM_two_conv {α β : Type} (f : α → Option β) (x x' : α) (y y' : β) (h : f x = some y) (h' : f x' = some y') : [x, x'].mapM f = some [y, y'] := by
  simp [h, h']

/-! ### cases -/

noncomputable def camA : Model := cam .pinhole identityR ⟨0, 0, 0⟩ 2
noncomputable def camB : Model := cam .pinhole identityR ⟨1, 0, 0⟩ 2
theorem camA_usable : Usable camA := cam_usable .pinhole trivial rfl _ identity_rot _ _
theorem camB_usable : Usable camB := cam_usable .pinhole trivial rfl _ identity_rot _ _
noncomputable def envA : Env := env0 ⟨0, 0⟩ ⟨0, 0, 0⟩ ⟨⟨0, 0, 0⟩, ⟨0, 0, 0⟩⟩
theorem envA_reports : SolverReports envA.solve := stuck_reports _

/-- the ray of the pixel at (0,0) -/
theorem rayA : Ray envA camA ⟨0, 0⟩ ⟨0, 0, 1⟩ := by
  have hm : mag3 ⟨0, 0, 1⟩ = 1 := by unfold mag3; norm_num
  refine ⟨hm, ?_⟩
  show some (NanP3.of (UnprojectPy.normalized (unpinhole (coreOf camA.intr) ⟨0, 0⟩).v)) = _
  have e : (unpinhole (coreOf camA.intr) ⟨0, 0⟩).v = ⟨0, 0, 1⟩ := by
    unfold unpinhole coreOf camA cam
    norm_num
  rw [e]
  unfold UnprojectPy.normalized
  simp only [UnprojectPy.mag_eq, hm]
  norm_num

theorem seesB (x y : ℝ) (p : P3) (hp : p.z = 1) (hx : p.x = x) (hy : p.y = y) : sees camB p = ⟨x, y⟩ := by
  obtain ⟨px, py, pz⟩ := p
  dsimp only at hp hx hy
  subst hp hx hy
  unfold sees
  have e : pix camB.lens camB.intr ⟨px, py, 1⟩ = (pinhole (coreOf camB.intr) ⟨px, py, 1⟩).q := rfl
  rw [e]
  simp [pinhole, coreOf, camB, cam]

/-- the cases of `diff_meaning`, `diff_extrinsics`, `diff_intrinsics`, `diff_self`, `transform_chosen`: these hypotheses are met -/
example : ∃ r P, projectionDiff envA [camA, camB] (args 1 false (.scalar 5) 0) = some r ∧ r.q0.flatten[0]? = some ⟨0, 0⟩ ∧ inCam camA P = times 5 ⟨0, 0, 1⟩ ∧ inCam camB P ≠ ⟨0, 0, 0⟩ := by
  obtain ⟨r, h, hq⟩ := no_fit_runs envA envA_reports camA camB camA_usable camB_usable ⟨rfl, rfl⟩ 1 false (.scalar 5)
  rw [grid1] at hq
  refine ⟨r, ⟨0, 0, 5⟩, h, ?_, ?_, ?_⟩
  · rw [← Option.some.inj hq]; rfl
  · simp [inCam, camA, cam, transformPointRt, rotatePointR, mulVec, addP, identityR, times]
  · intro hc
    have := congrArg P3.z hc
    simp [inCam, camB, cam, transformPointRt, rotatePointR, mulVec, addP, identityR] at this
example : ∃ r, projectionDiff envA [camA, camB] (args 2 true (.many [1, 10, 100]) 0) = some r := by
  obtain ⟨r, h, -⟩ := no_fit_runs envA envA_reports camA camB camA_usable camB_usable ⟨rfl, rfl⟩ 2 true (.many [1, 10, 100])
  exact ⟨r, h⟩
/-- `accepted`, `many_rms`, `reference_free`: with three cameras -/
theorem three_case (A B C : Model) (hA : Usable A) (hB : Usable B) (hC : Usable C) (hs : (B.W = A.W ∧ B.H = A.H) ∧ C.W = A.W ∧ C.H = A.H) (n : Nat) (d : Distance) (X : Rt) (hX : IsRot X.R) :
    ∃ env r, projectionDiff env [A, B, C] (args n false d 0) = some r ∧ projectionDiff env ([A, B, C].map (moved X)) (args n false d 0) = some r := by
  obtain ⟨env, henv⟩ : ∃ env : Env, env = ⟨stuck ⟨0, 0⟩, ⟨none, none, none⟩, ⟨fun _ _ => some ⟨0, 0, 0⟩, fun _ _ => some ⟨⟨0, 0, 0⟩, ⟨0, 0, 0⟩⟩⟩, false, fun _ _ _ => none⟩ := ⟨_, rfl⟩
  have hu : ∀ m ∈ [A, B, C], Usable m := by
    intro m hm
    simp only [List.mem_cons, List.not_mem_nil, or_false] at hm
    rcases hm with rfl | rfl | rfl <;> assumption
  obtain ⟨r, h⟩ := (accepted env (by rw [henv]; exact stuck_reports _) (by rw [henv]; exact ⟨fun _ _ => ⟨_, rfl⟩, fun _ _ => ⟨_, rfl⟩⟩) A B [C] hu (args n false d 0)).mpr
    ⟨fun _ => rfl, (by
      intro m hm
      simp only [List.mem_cons, List.not_mem_nil, or_false] at hm
      rcases hm with rfl | rfl
      · exact hs.1
      · exact hs.2), _, rfl, fun _ _ hr => absurd (radius_zero env _ _ _ rfl) hr⟩
  refine ⟨env, r, h, ?_⟩
  rw [reference_free env _ (fun m hm => (hu m hm).rot) _ rfl _ hX, h]

example := three_case camA camB camA camA_usable camB_usable camA_usable ⟨⟨rfl, rfl⟩, rfl, rfl⟩ 7 (.scalar 3) ⟨spin 1, ⟨1, 2, 3⟩⟩ (spin_rot 1)

/-! ### where it doesn't do what's documented -/

/-- **C96**, negation: distance=None is "infinity", but with focus_radius=0 this is evaluated at a distance of 1: here the two cameras see the same thing at infinity at this pixel, but a difference of 1 pixel is reported -/
theorem infinity_extrinsics_wrong : ∃ env m0 m1 a r q v w, SolverReports env.solve ∧ Usable m0 ∧ Usable m1 ∧ a.distance = Distance.infinity ∧ projectionDiff env [m0, m1] a = some r ∧ r.q0.flatten[0]? = some q ∧
    Ray env m0 q v ∧ dirInCam m0 w = v ∧ sees m1 (dirInCam m1 w) = q ∧ entryAt r.difflen 0 0 = some (some 1) := by
  obtain ⟨r, h, hq⟩ := no_fit_runs envA envA_reports camA camB camA_usable camB_usable ⟨rfl, rfl⟩ 1 false .infinity
  rw [show sampleImager 1 (some 1) camA.W camA.H = _ from grid1 _ _] at hq
  have hq0 : r.q0.flatten[0]? = some ⟨0, 0⟩ := by rw [← Option.some.inj hq]; rfl
  refine ⟨envA, camA, camB, _, r, ⟨0, 0⟩, ⟨0, 0, 1⟩, ⟨0, 0, 1⟩, envA_reports, camA_usable, camB_usable, rfl, h, hq0, rayA, ?_, ?_, ?_⟩
  · simp [dirInCam, camA, cam, rotatePointR, mulVec, identityR]
  · apply seesB <;> simp [dirInCam, camB, cam, rotatePointR, mulVec, identityR]
  · obtain ⟨diff, -, -, e⟩ := diff_extrinsics envA camA camB camA_usable camB_usable _ rfl rfl rfl r h 0 0 1 ⟨0, 0⟩ ⟨0, 0, 1⟩ ⟨0, 0, 1⟩ rfl hq0 rayA
      (by simp [inCam, camA, cam, transformPointRt, rotatePointR, mulVec, addP, identityR, times]) (by
        intro hc
        have := congrArg P3.z hc
        simp [inCam, camB, cam, transformPointRt, rotatePointR, mulVec, addP, identityR] at this)
    rw [e, seesB 1 0 _ (by simp [inCam, camB, cam, transformPointRt, rotatePointR, mulVec, addP, identityR]) (by simp [inCam, camB, cam, transformPointRt, rotatePointR, mulVec, addP, identityR])
      (by simp [inCam, camB, cam, transformPointRt, rotatePointR, mulVec, addP, identityR])]
    unfold lenQ subQ
    norm_num

/-- a camera with distortions -/
noncomputable def camC : Model := ⟨.opencv4, fun _ => 1, identityRt, 2, 2, none⟩
theorem camC_usable : Usable camC := ⟨identity_rot, trivial, rfl, one_ne_zero, one_ne_zero⟩
noncomputable def envC : Env := env0 ⟨1, 1⟩ ⟨0, 0, 0⟩ ⟨⟨0, 0, 0⟩, ⟨0, 0, 0⟩⟩
noncomputable def camD : Model := cam .pinhole identityR ⟨0, 0, 1⟩ 2
theorem camD_usable : Usable camD := cam_usable .pinhole trivial rfl _ identity_rot _ _

/-- **C96**, negation: a pixel that could not be unprojected has no direction, and nothing can be said about the difference there. But a number is reported: where the second camera sees the first camera -/
theorem failed_reported_wrong : ∃ env m0 m1 a r q δ, SolverReports env.solve ∧ Usable m0 ∧ Usable m1 ∧ projectionDiff env [m0, m1] a = some r ∧ r.q0.flatten[0]? = some q ∧
    UnprojectPy.unproject m0.lens m0.intr env.solve env.prev false q = some ⟨none, none, none⟩ ∧ r.diff = some [[some δ]] := by
  obtain ⟨r, h, hq⟩ := no_fit_runs envC (stuck_reports _) camC camD camC_usable camD_usable ⟨rfl, rfl⟩ 1 false (.scalar 5)
  rw [show sampleImager 1 (some 1) camC.W camC.H = _ from grid1 _ _] at hq
  have hq0 : r.q0.flatten[0]? = some ⟨0, 0⟩ := by rw [← Option.some.inj hq]; rfl
  obtain ⟨c0, c1, grid, v0, v1, T, e0, e1, e2, e3, e4, e5, eq, eT, ed, el⟩ := two envC camC camD _ r h
  rw [centralize_central _ _ _ camC_usable.central] at e0
  rw [centralize_central _ _ _ camD_usable.central] at e1
  cases e0
  cases e1
  have hgrid : grid = [[⟨0, 0⟩]] := by rw [← eq]; exact (Option.some.inj hq).symm
  subst hgrid
  have hn : UnprojectPy.npspUnproject camC.lens camC.intr envC.solve ⟨0, 0⟩ envC.prev = some ⟨none, none, none⟩ := by
    have hX : unprojectX .opencv4 (fun _ => 1) ⟨0, 0⟩ ⟨1, 1⟩ = ⟨1, 1⟩ := by
      unfold unprojectX
      have e : (unstereographic (coreOf fun _ => 1) ⟨1, 1⟩).v = ⟨0, 0, 1⟩ := by
        unfold unstereographic coreOf
        norm_num
      have e' : pix .opencv4 (fun _ => 1) ⟨0, 0, 1⟩ = ⟨1, 1⟩ := by
        show ocvQ (coreOf fun _ => 1) _ ⟨0, 0, 1⟩ = _
        simp [ocvQ, ocv, coreOf]
      have e2 := hyp_q .opencv4 trivial (fun _ => 1) ⟨0, 0, 1⟩
      rw [e'] at e2
      rw [e]
      dsimp only
      rw [e2]
      norm_num
    have hone : unprojectOne .opencv4 (fun _ => 1) (stuck ⟨1, 1⟩) ⟨0, 0⟩ ⟨none, none, none⟩ = ⟨none, none, none⟩ := by
      have e3 : stuck ⟨1, 1⟩ (unprojectX .opencv4 (fun _ => 1) ⟨0, 0⟩) (unprojectJ .opencv4 fun _ => 1) (unprojectSeed (fun _ => 1) ⟨0, 0⟩) = (⟨1, 1⟩, 2) := by
        unfold stuck
        rw [hX]
        norm_num
      unfold unprojectOne
      rw [e3]
      dsimp only
      rw [if_pos (by norm_num)]
    unfold UnprojectPy.npspUnproject mrcalUnproject unprojectInternal camC
    simp only [lensAsserts, Bool.false_eq_true, if_false]
    rw [loopWrite_id]
    simp only [Nat.zero_lt_one, if_true]
    exact congrArg some hone
  have hz : UnprojectPy.unproject camC.lens camC.intr envC.solve envC.prev true ⟨0, 0⟩ = some (NanP3.of ⟨0, 0, 0⟩) := by
    unfold UnprojectPy.unproject
    rw [hn]
    rfl
  have hz' : UnprojectPy.unproject camC.lens camC.intr envC.solve envC.prev false ⟨0, 0⟩ = some ⟨none, none, none⟩ := by
    unfold UnprojectPy.unproject
    rw [hn]
    rfl
  obtain ⟨v, hv, rfl⟩ := mapM_one _ _ _ e3
  rw [hz] at hv
  cases hv
  have hT : T = RtToFrom camC camD := by
    unfold getRt10 at e5
    rw [radius_zero envC _ _ _ rfl] at e5
    simpa [args] using e5.symm
  have hp : transformPointRt T (times 5 ⟨0, 0, 0⟩) false = ⟨0, 0, 1⟩ := by
    rw [hT]
    simp [RtToFrom, camC, camD, cam, invertRt, composeRt, transformPointRt, rotatePointR, mulVec, addP, subP, negP, identityR, identityRt, times, mul, vecMul, transpose]
  refine ⟨envC, camC, camD, _, r, ⟨0, 0⟩, subQ (sees camD (transformPointRt T (times 5 ⟨0, 0, 0⟩) false)) ⟨0, 0⟩, stuck_reports _, camC_usable, camD_usable, h, hq0, hz', ?_⟩
  rw [ed]
  show some [[diffAt camD T 5 ⟨0, 0⟩ (NanP3.of ⟨0, 0, 0⟩)]] = _
  rw [diffAt_value camD camD_usable.valid T 5 ⟨0, 0⟩ ⟨0, 0, 0⟩ (by rw [hp]; intro hc; have := congrArg P3.z hc; norm_num at this)]

/-! ### the fit -/

theorem turn_zero (p : P3) : turn ⟨0, 0, 0⟩ p = p := by
  rw [turn_eq]
  have : mag3 ⟨0, 0, 0⟩ = 0 := by unfold mag3; norm_num
  unfold rotForm
  rw [this]
  simp

theorem move_zero (p : P3) : move ⟨⟨0, 0, 0⟩, ⟨0, 0, 0⟩⟩ p = p := by
  unfold move
  rw [turn_zero]
  simp

theorem dirTo_times (d : ℝ) (hd : 0 < d) (v : P3) (hv : mag3 v = 1) : mag3 (times d v) = d ∧ dirTo (times d v) = v := by
  have h1 : mag3 (times d v) = d := by
    have h2 := mag3_sq v
    rw [hv] at h2
    unfold mag3 times
    rw [show d * v.x * (d * v.x) + d * v.y * (d * v.y) + d * v.z * (d * v.z) = d ^ 2 by linear_combination (-d ^ 2) * h2]
    exact Real.sqrt_sq hd.le
  refine ⟨h1, ?_⟩
  unfold dirTo
  rw [h1]
  unfold times
  ext <;> simp only <;> field_simp

/-- two cameras with the same lens, in different poses: the transformation is fitted, and all the hypotheses of `diff_fit_infinity_partial`, `diff_fit_finite_partial` are met -/
theorem fit_runs (A B : Model) (hA : Usable A) (hB : Usable B) (hL : B.lens = A.lens) (hI : B.intr = A.intr) (hdir : isDirect A.lens = true) (hWA : A.W = 2 ∧ A.H = 2) (hWB : B.W = 2 ∧ B.H = 2)
    (d : Distance) (hd : ∀ x ∈ d.values, 0 < x) (h1 : d.atinfinity = true → d = .infinity) :
    ∃ env r, SolverReports env.solve ∧ Optimal env.lsq ∧ (∀ f r, env.lsq.rot fScale f = some r → RotOk r) ∧ (∀ f rt, env.lsq.rt fScale f = some rt → RotOk rt.r) ∧
      Fits env (args 2 false d 10) A ∧ projectionDiff env [A, B] (args 2 false d 10) = some r ∧ r.q0 = [[⟨0, 0⟩, ⟨1, 0⟩], [⟨0, 1⟩, ⟨1, 1⟩]] ∧
      (∀ q ∈ r.q0.flatten, Focused env (args 2 false d 10) A q) ∧
      ∀ q ∈ r.q0.flatten, ∃ w0 w1, Ray env A q w0 ∧ Ray env B q w1 ∧ turn ⟨0, 0, 0⟩ w0 = w1 ∧ ∀ x ∈ d.values, dirTo (move ⟨⟨0, 0, 0⟩, ⟨0, 0, 0⟩⟩ (times x w0)) = w1 := by
  obtain ⟨env, henv⟩ : ∃ env, env = env0 ⟨0, 0⟩ ⟨0, 0, 0⟩ ⟨⟨0, 0, 0⟩, ⟨0, 0, 0⟩⟩ := ⟨_, rfl⟩
  have hs : SolverReports env.solve := by rw [henv]; exact stuck_reports _
  have hrad : radiusOf env (args 2 false d 10) A.W A.H = 10 := by unfold radiusOf args; norm_num
  have hcen : centerOf (args 2 false d 10) A.W A.H = ⟨0, 0⟩ := rfl
  have hfits : Fits env (args 2 false d 10) A := ⟨rfl, rfl, rfl, by rw [hrad]; norm_num⟩
  have hok0 : RotOk ⟨0, 0, 0⟩ := Or.inr rfl
  obtain ⟨grid, hgrid⟩ : ∃ grid : List (List P2), grid = [[⟨0, 0⟩, ⟨1, 0⟩], [⟨0, 1⟩, ⟨1, 1⟩]] := ⟨_, rfl⟩
  have hfoc : ∀ q ∈ grid.flatten, Focused env (args 2 false d 10) A q := by
    intro q hq
    rw [hgrid] at hq
    unfold Focused
    rw [hrad, hcen]
    simp only [List.flatten_cons, List.flatten_nil, List.append_nil, List.cons_append, List.nil_append, List.mem_cons, List.not_mem_nil, or_false] at hq
    rcases hq with rfl | rfl | rfl | rfl <;> norm_num
  have hray : ∀ q ∈ grid.flatten, Focused env (args 2 false d 10) A q → ∃ w0 w1, Ray env A q w0 ∧ Ray env B q w1 ∧ w0 = w1 := by
    intro q _ _
    obtain ⟨w, hw⟩ := direct_ray env hs A hA hdir q
    exact ⟨w, w, hw, ⟨hw.1, by rw [hL, hI]; exact hw.2⟩, rfl⟩
  obtain ⟨v0, e3⟩ := ray_total env hs A hA grid.flatten
  obtain ⟨v1, e4⟩ := ray_total env hs B hB grid.flatten
  have hterm := fit_terms env (args 2 false d 10) A B _ v0 v1 e3 e4 (fun _ w0 w1 => w0 = w1) hray
  have hT : ∃ T, getRt10 env (args 2 false d 10) grid.flatten A.W A.H A B v0 v1 = some T := by
    rw [fit_called env _ A B hfits]
    unfold ModelDiff.impliedRt10
    rw [if_neg (by
      rw [List.filter_eq_self.mpr fun q hq => (focused_iff env _ A q).mpr (hfoc q hq)]
      rw [hgrid]
      simp)]
    cases hinf : d.atinfinity with
    | true =>
      refine ⟨⟨R_from_r ⟨0, 0, 0⟩, ⟨0, 0, 0⟩⟩, ?_⟩
      rw [if_pos (show (args 2 false d 10).distance.atinfinity = true from hinf)]
      have hp : env.lsq.rot fScale (fun r => (terms grid.flatten ((args 2 false d 10).distance.values.map fun d => v0.map (scale d)) v1 none (centerOf (args 2 false d 10) A.W A.H)
          (radiusOf env (args 2 false d 10) A.W A.H)).map (residualR r)) = some ⟨0, 0, 0⟩ := by
        have : env.lsq = pick ⟨0, 0, 0⟩ ⟨⟨0, 0, 0⟩, ⟨0, 0, 0⟩⟩ := by rw [henv]; rfl
        rw [this]
        apply pick_rot _ _ _ fScale_pos
        intro x hx
        obtain ⟨X, hX, rfl⟩ := List.mem_map.mp hx
        obtain ⟨x, hx', q, -, -, w0, w1, r0, r1, rfl, rfl⟩ := (hterm X).mp hX
        have hx1 : x = 1 := by
          have hx2 : x ∈ d.values := hx'
          rw [h1 hinf] at hx2
          simpa [Distance.values] using hx2
        rw [hx1, times_one, residual_r_value ⟨w0, w0, 1⟩ r0.1 r1.1 _ hok0, turn_zero, gap2_self, mul_zero]
      rw [hp]
      rfl
    | false =>
      refine ⟨Rt_from_rt ⟨⟨0, 0, 0⟩, ⟨0, 0, 0⟩⟩, ?_⟩
      rw [if_neg (show ¬ (args 2 false d 10).distance.atinfinity = true by rw [show (args 2 false d 10).distance.atinfinity = false from hinf]; simp)]
      have hp : env.lsq.rt fScale (fun r => (terms grid.flatten ((args 2 false d 10).distance.values.map fun d => v0.map (scale d)) v1 none (centerOf (args 2 false d 10) A.W A.H)
          (radiusOf env (args 2 false d 10) A.W A.H)).map (residualRt r)) = some ⟨⟨0, 0, 0⟩, ⟨0, 0, 0⟩⟩ := by
        have : env.lsq = pick ⟨0, 0, 0⟩ ⟨⟨0, 0, 0⟩, ⟨0, 0, 0⟩⟩ := by rw [henv]; rfl
        rw [this]
        apply pick_rt _ _ _ fScale_pos
        intro x hx
        obtain ⟨X, hX, rfl⟩ := List.mem_map.mp hx
        obtain ⟨x, hx', q, -, -, w0, w1, r0, r1, rfl, rfl⟩ := (hterm X).mp hX
        have hx0 : 0 < x := hd x hx'
        obtain ⟨k1, k2⟩ := dirTo_times x hx0 w0 r0.1
        obtain ⟨o, ho⟩ := residual_rt_some ⟨⟨0, 0, 0⟩, ⟨0, 0, 0⟩⟩ hok0 ⟨times x w0, w0, 1⟩ (by rw [move_zero, k1]; exact hx0.ne')
        refine ⟨o, ho, ?_⟩
        rw [(residual_rt_value ⟨times x w0, w0, 1⟩ r1.1 _ hok0 o ho).2, move_zero, k2, gap2_self, mul_zero]
      rw [hp]
      rfl
  obtain ⟨T, hT⟩ := hT
  have hg : sampleImager (args 2 false d 10).gw (args 2 false d 10).gh A.W A.H = some grid := by rw [hWA.1, hWA.2, hgrid]; exact grid2
  have h := steps_conv env A B [] (args 2 false d 10) A [B] grid v0 [v1] [T] (fun h => absurd rfl h) (fun m hm => by rw [List.mem_singleton.mp hm, hWA.1, hWA.2]; exact hWB) (centralize_central _ _ _ hA.central)
    (mapM_one_conv _ _ _ (centralize_central _ _ _ hB.central)) hg e3 (mapM_one_conv _ _ _ e4) (mapM_one_conv _ (_, _) _ hT)
  refine ⟨env, _, hs, by rw [henv]; exact pick_optimal _ _, by rw [henv]; exact (pick_ok _ _ hok0 hok0).1, by rw [henv]; exact (pick_ok _ _ hok0 hok0).2, hfits, h, hgrid, hfoc, fun q hq => ?_⟩
  obtain ⟨w0, w1, r0, r1, rfl⟩ := hray q hq (hfoc q hq)
  refine ⟨w0, w0, r0, r1, turn_zero _, fun x hx => ?_⟩
  rw [move_zero]
  exact (dirTo_times x (hd x hx) w0 r0.1).2

example := fit_runs camA camB camA_usable camB_usable rfl rfl rfl ⟨rfl, rfl⟩ ⟨rfl, rfl⟩ .infinity (by simp [Distance.values]) (fun _ => rfl)
example := fit_runs camA camB camA_usable camB_usable rfl rfl rfl ⟨rfl, rfl⟩ ⟨rfl, rfl⟩ (.many [1, 10]) (by simp [Distance.values]) (by simp [Distance.atinfinity])

/-- `fit_weights`: all the uncertainties are 2: the weights are 1/16 -/
example : ∃ env a v0 v1 q w0, FitsWeighted env a ∧ radiusOf env a camA.W camA.H ≠ 0 ∧ unprojectAll camA env.solve env.prev [q] = some v0 ∧ unprojectAll camB env.solve env.prev [q] = some v1 ∧
    ∃ ws, Counted (terms [q] ((distancesOf a.distance).map fun d => v0.map (scale d)) v1 (some ws) (centerOf a camA.W camA.H) (radiusOf env a camA.W camA.H)) ⟨times 10 w0, w0, 1 / 16⟩ := by
  obtain ⟨env, henv⟩ : ∃ env, env = { env0 ⟨0, 0⟩ ⟨0, 0, 0⟩ ⟨⟨0, 0, 0⟩, ⟨0, 0, 0⟩⟩ with uncOk := true, unc := fun _ _ _ => some 2 } := ⟨_, rfl⟩
  obtain ⟨a, ha⟩ : ∃ a, a = { args 2 false (.many [1, 10]) 10 with useUncertainties := true } := ⟨_, rfl⟩
  have hs : SolverReports env.solve := by rw [henv]; exact stuck_reports _
  have hrad : radiusOf env a camA.W camA.H = 10 := by rw [ha]; unfold radiusOf args; norm_num
  have hcen : centerOf a camA.W camA.H = ⟨0, 0⟩ := by rw [ha]; rfl
  have hf : FitsWeighted env a := ⟨by rw [ha]; rfl, by rw [ha]; rfl, by rw [ha], by rw [henv], by rw [ha]; unfold args; norm_num⟩
  obtain ⟨w, hw⟩ := direct_ray env hs camA camA_usable rfl ⟨1, 1⟩
  have hwB : Unprojects env camB ⟨1, 1⟩ w := hw.2
  obtain ⟨v0, e3⟩ := ray_total env hs camA camA_usable [⟨1, 1⟩]
  obtain ⟨v1, e4⟩ := ray_total env hs camB camB_usable [⟨1, 1⟩]
  obtain ⟨ws, -, h⟩ := fit_weights env a camA camB hf (by rw [hrad]; norm_num) [⟨1, 1⟩] v0 v1 e3 e4
  refine ⟨env, a, v0, v1, ⟨1, 1⟩, w, hf, by rw [hrad]; norm_num, e3, e4, ws, (h _).2 ⟨10, by rw [ha]; simp [args, distancesOf], ⟨1, 1⟩, by simp, ?_, w, w, 2, 2, hw.2, hwB, by rw [henv], by rw [henv],
    by norm_num, by norm_num, by norm_num⟩⟩
  unfold Focused
  rw [hrad, hcen]
  norm_num

/-- `tiny_wrong`, `cahvore_diff_partial`: a CAHVORE camera with a given E -/
noncomputable def camE (e : ℝ) : Model := { cam (.cahvore 0) identityR ⟨0, 0, 0⟩ 2 with intr := fun i => if i = 9 then e else if i = 0 ∨ i = 1 then 1 else 0 }
theorem camE_size (e : ℝ) : sizeE2 (camE e) = e * e := by simp [sizeE2, camE]
example : projectionDiff envA [camE 1e-7, camA] (args 2 false (.scalar 5) 0) = none :=
  tiny_wrong envA _ camA [] (args 2 false (.scalar 5) 0) rfl (by rw [camE_size]; norm_num) (by rw [camE_size]; norm_num) (by
    intro grid h
    have h' : some _ = some grid := grid2.symm.trans h
    rw [← Option.some.inj h']
    simp)
example : projectionDiff envA [camE 0.1, camA] (args 2 false .infinity 0) = projectionDiff envA [withoutE (camE 0.1), withoutE camA] (args 2 false .infinity 0) ∧
    projectionDiff envA [camE 0.1, camA] (args 2 false (.scalar 5) 0) = none := by
  have h : ∀ m ∈ [camE 0.1, camA], isCahvore m.lens = true → 1e-12 ≤ sizeE2 m := by
    intro m hm hc
    simp only [List.mem_cons, List.not_mem_nil, or_false] at hm
    rcases hm with rfl | rfl
    · rw [camE_size]; norm_num
    · exact absurd hc (by simp [camA, cam, isCahvore])
  exact ⟨(cahvore_diff_partial envA _ (args 2 false .infinity 0) h).1 rfl rfl, (cahvore_diff_partial envA _ (args 2 false (.scalar 5) 0) h).2 ⟨_, List.mem_cons_self .., rfl⟩ (Or.inl rfl)⟩

end Mrcal.ModelDiff

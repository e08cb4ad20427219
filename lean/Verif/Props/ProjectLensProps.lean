import Verif.Props.ProjectProps
import Verif.Props.CameraProps
import Verif.Props.OpenCVProps
import Verif.Props.CahvorProps
import Verif.Props.SplineProjectProps

/-! # C52: the lenses satisfy what `project_corner`, `project_discrete` ask of a lens -/

namespace Mrcal.Project
open Mrcal.Pose Mrcal.Cam

/-- what the closed-form lenses have in common: a normalized projection, scaled by fx,fy and shifted by cx,cy -/
def Scaled (f : Core → P3 → Proj) : Prop :=
  ∀ k p, (f k p).q = ⟨(f ⟨1, 1, 0, 0⟩ p).q.x * k.fx + k.cx, (f ⟨1, 1, 0, 0⟩ p).q.y * k.fy + k.cy⟩ ∧
    (f k p).dqx = ⟨(f ⟨1, 1, 0, 0⟩ p).dqx.x * k.fx, (f ⟨1, 1, 0, 0⟩ p).dqx.y * k.fx, (f ⟨1, 1, 0, 0⟩ p).dqx.z * k.fx⟩ ∧
    (f k p).dqy = ⟨(f ⟨1, 1, 0, 0⟩ p).dqy.x * k.fy, (f ⟨1, 1, 0, 0⟩ p).dqy.y * k.fy, (f ⟨1, 1, 0, 0⟩ p).dqy.z * k.fy⟩

theorem scaled_pinhole : Scaled pinhole := by
  intro k p; simp only [pinhole]
  refine ⟨?_, ?_, ?_⟩ <;> ext <;> simp <;> ring
theorem scaled_stereographic : Scaled stereographic := by
  intro k p; simp only [stereographic]
  generalize (2.0 : ℝ) / (Real.sqrt (p.x * p.x + p.y * p.y + p.z * p.z) + p.z) = scale
  generalize Real.sqrt (p.x * p.x + p.y * p.y + p.z * p.z) = m
  refine ⟨?_, ?_, ?_⟩ <;> ext <;> simp <;> ring
theorem scaled_lonlat : Scaled lonlat := by
  intro k p; simp only [lonlat]
  refine ⟨?_, ?_, ?_⟩ <;> ext <;> simp <;> ring
theorem scaled_latlon : Scaled latlon := by
  intro k p; simp only [latlon]
  refine ⟨?_, ?_, ?_⟩ <;> ext <;> simp <;> ring

/-- the closed-form lenses, with all of the intrinsics moving. The rate of the intrinsics is reported by the code as `dq_dfxy` (mrcal.c:1421-1432) -/
theorem lensRate_scaled {f : Core → P3 → Proj} (hf : Scaled f) {core : ℝ → Core} {core' : Core} {t : ℝ} {p : P3} (h : ProjGrad (f ⟨1, 1, 0, 0⟩) p)
    (nx : (core t).fx ≠ 0) (ny : (core t).fy ≠ 0)
    (h1 : HasDerivAt (fun s => (core s).fx) core'.fx t) (h2 : HasDerivAt (fun s => (core s).fy) core'.fy t)
    (h3 : HasDerivAt (fun s => (core s).cx) core'.cx t) (h4 : HasDerivAt (fun s => (core s).cy) core'.cy t) :
    LensRate (fun s p => (f (core s) p).q) t p (f (core t) p)
      ((dqDfxy (core t) (f (core t) p).q).x * core'.fx + core'.cx) ((dqDfxy (core t) (f (core t) p).q).y * core'.fy + core'.cy) := by
  refine ⟨rfl, ?_⟩
  intro P P' eP hP
  have a := h.1 P P' t eP hP.1 hP.2.1 hP.2.2
  have b := h.2 P P' t eP hP.1 hP.2.1 hP.2.2
  constructor
  · have e : (fun s => (f (core s) (P s)).q.x) = fun s => (f ⟨1, 1, 0, 0⟩ (P s)).q.x * (core s).fx + (core s).cx := funext fun s => by rw [(hf (core s) (P s)).1]
    rw [e]
    have k := (a.mul h1).add h3
    refine HasDerivAt.congr_deriv k ?_
    rw [(hf (core t) p).1, (hf (core t) p).2.1, eP]
    simp only [inner3, dqDfxy]
    field_simp
    ring
  · have e : (fun s => (f (core s) (P s)).q.y) = fun s => (f ⟨1, 1, 0, 0⟩ (P s)).q.y * (core s).fy + (core s).cy := funext fun s => by rw [(hf (core s) (P s)).1]
    rw [e]
    have k := (b.mul h2).add h4
    refine HasDerivAt.congr_deriv k ?_
    rw [(hf (core t) p).1, (hf (core t) p).2.2, eP]
    simp only [inner3, dqDfxy]
    field_simp
    ring

/-- the core moves smoothly -/
def CoreDeriv (core : ℝ → Core) (core' : Core) (t : ℝ) : Prop :=
  HasDerivAt (fun s => (core s).fx) core'.fx t ∧ HasDerivAt (fun s => (core s).fy) core'.fy t ∧
  HasDerivAt (fun s => (core s).cx) core'.cx t ∧ HasDerivAt (fun s => (core s).cy) core'.cy t

/-- **C52** -/
theorem lens_pinhole {core : ℝ → Core} {core' : Core} {t : ℝ} (h : CoreDeriv core core' t) (nx : (core t).fx ≠ 0) (ny : (core t).fy ≠ 0) (p : P3) (hz : p.z ≠ 0) :
    LensRate (fun s p => (pinhole (core s) p).q) t p (pinhole (core t) p)
      ((dqDfxy (core t) (pinhole (core t) p).q).x * core'.fx + core'.cx) ((dqDfxy (core t) (pinhole (core t) p).q).y * core'.fy + core'.cy) :=
  lensRate_scaled scaled_pinhole (pinhole_grad _ p hz) nx ny h.1 h.2.1 h.2.2.1 h.2.2.2

/-- **C52** -/
theorem lens_stereographic {core : ℝ → Core} {core' : Core} {t : ℝ} (h : CoreDeriv core core' t) (nx : (core t).fx ≠ 0) (ny : (core t).fy ≠ 0) (p : P3)
    (hz : mag3 p + p.z ≠ 0) :
    LensRate (fun s p => (stereographic (core s) p).q) t p (stereographic (core t) p)
      ((dqDfxy (core t) (stereographic (core t) p).q).x * core'.fx + core'.cx) ((dqDfxy (core t) (stereographic (core t) p).q).y * core'.fy + core'.cy) :=
  lensRate_scaled scaled_stereographic (stereographic_grad _ p hz) nx ny h.1 h.2.1 h.2.2.1 h.2.2.2

/-- **C52** -/
theorem lens_lonlat {core : ℝ → Core} {core' : Core} {t : ℝ} (h : CoreDeriv core core' t) (nx : (core t).fx ≠ 0) (ny : (core t).fy ≠ 0) (p : P3)
    (hz : 0 < p.z ∨ p.x ≠ 0) :
    LensRate (fun s p => (lonlat (core s) p).q) t p (lonlat (core t) p)
      ((dqDfxy (core t) (lonlat (core t) p).q).x * core'.fx + core'.cx) ((dqDfxy (core t) (lonlat (core t) p).q).y * core'.fy + core'.cy) :=
  lensRate_scaled scaled_lonlat (lonlat_grad _ p hz) nx ny h.1 h.2.1 h.2.2.1 h.2.2.2

/-- **C52** -/
theorem lens_latlon {core : ℝ → Core} {core' : Core} {t : ℝ} (h : CoreDeriv core core' t) (nx : (core t).fx ≠ 0) (ny : (core t).fy ≠ 0) (p : P3)
    (hz : 0 < p.z ∨ p.y ≠ 0) :
    LensRate (fun s p => (latlon (core s) p).q) t p (latlon (core t) p)
      ((dqDfxy (core t) (latlon (core t) p).q).x * core'.fx + core'.cx) ((dqDfxy (core t) (latlon (core t) p).q).y * core'.fy + core'.cy) :=
  lensRate_scaled scaled_latlon (latlon_grad _ p hz) nx ny h.1 h.2.1 h.2.2.1 h.2.2.2

/-- **C52**: OPENCV4,5,8,12 -/
theorem lens_opencv (n : Nat) (hn : IsOcv n) {core : ℝ → Core} {core' : Core} {d : ℝ → Nat → ℝ} {d' : Nat → ℝ} {t : ℝ} (h : CoreDeriv core core' t)
    (hd : ∀ i, HasDerivAt (fun s => d s i) (d' i) t) (nx : (core t).fx ≠ 0) (ny : (core t).fy ≠ 0) (p : P3) (hz : p.z ≠ 0) (hden : ocvDen (padK n (d t)) p ≠ 0) :
    LensRate (fun s p => ocvQ (core s) (padK n (d s)) p) t p
      ⟨ocvQ (core t) (padK n (d t)) p, (ocvDp (core t) (padK n (d t)) p).1, (ocvDp (core t) (padK n (d t)) p).2⟩
      ((dqDfxy (core t) (ocvQ (core t) (padK n (d t)) p)).x * core'.fx + core'.cx + dotRow ((ocvDk n (core t) (padK n (d t)) p).map P2.x) d')
      ((dqDfxy (core t) (ocvQ (core t) (padK n (d t)) p)).y * core'.fy + core'.cy + dotRow ((ocvDk n (core t) (padK n (d t)) p).map P2.y) d') :=
  lensRate_total (Q := fun c d p => ocvQ c (padK n d) p) (d := d) (opencv_gradients n hn (core t) nx ny (d t) p hz hden) h.1 h.2.1 h.2.2.1 h.2.2.2 hd

/-- **C52**: CAHVOR -/
theorem lens_cahvor {core : ℝ → Core} {core' : Core} {d : ℝ → Nat → ℝ} {d' : Nat → ℝ} {t : ℝ} (h : CoreDeriv core core' t)
    (hd : ∀ i, HasDerivAt (fun s => d s i) (d' i) t) (nx : (core t).fx ≠ 0) (ny : (core t).fy ≠ 0) (p : P3)
    (hom : dot3 p (cahvorO (d t 0) (d t 1)) ≠ 0) (hz : (cahvorDistort (d t) p).p.z ≠ 0) :
    LensRate (fun s p => cahvorQ (core s) (d s) p) t p
      ⟨cahvorQ (core t) (d t) p, (distortedDp (core t) (cahvorDistort (d t) p)).1, (distortedDp (core t) (cahvorDistort (d t) p)).2⟩
      ((dqDfxy (core t) (cahvorQ (core t) (d t) p)).x * core'.fx + core'.cx + dotRow ((distortedDk (core t) (cahvorDistort (d t) p)).map P2.x) d')
      ((dqDfxy (core t) (cahvorQ (core t) (d t) p)).y * core'.fy + core'.cy + dotRow ((distortedDk (core t) (cahvorDistort (d t) p)).map P2.y) d') :=
  lensRate_total (cahvor_gradients (core t) nx ny (d t) p hom hz) h.1 h.2.1 h.2.2.1 h.2.2.2 hd

/-- **C52**: the splined lens, with fixed intrinsics -/
theorem lens_splined (order Nx Ny : Nat) (h : Spline.Accepted order Nx Ny) (segs : ℝ) (intr : Int → ℝ) (t : ℝ) (p : P3) (hp : mag3 p + p.z ≠ 0) :
    LensRate (fun _ p => (Spline.proj order Nx Ny segs intr p).q) t p
      ⟨(Spline.proj order Nx Ny segs intr p).q, (Spline.proj order Nx Ny segs intr p).dqx_dp, (Spline.proj order Nx Ny segs intr p).dqy_dp⟩ 0 0 := by
  refine ⟨rfl, ?_⟩
  intro P P' eP hP
  obtain ⟨a, b⟩ := Spline.splined_gradient order Nx Ny h segs intr p hp
  constructor
  · exact HasDerivAt.congr_deriv (a P P' t eP hP.1 hP.2.1 hP.2.2) (by simp [inner3])
  · exact HasDerivAt.congr_deriv (b P P' t eP hP.1 hP.2.1 hP.2.2) (by simp [inner3])

/-- **C52**: the pixel of the corner (x,y) is reported at the index y*W+x, and there are W*H pixels -/
theorem project_board (lens : P3 → Proj) (cam : Option RtV) (frame : RtV) (W H : Nat) (spacing : ℝ) (warp : Option P2) :
    (projectBoard lens cam frame W H spacing warp).length = W * H ∧
    ∀ x y, x < W → y < H → (projectBoard lens cam frame W H spacing warp)[y * W + x]? = some (projectCorner lens cam frame W H spacing warp x y) := by
  obtain ⟨a, b⟩ := board_order W H
  refine ⟨by simp [projectBoard, a], ?_⟩
  intro x y hx hy
  simp [projectBoard, b x y hx hy]

/-! ### the hypotheses are met -/

theorem rod_z (a : ℝ) (ha : 0 < a) : mag3 ⟨0, 0, a⟩ = a := by
  simp [mag3, ha.le, Real.sqrt_sq]

theorem mag_x (a : ℝ) (ha : 0 < a) : mag3 ⟨a, 0, 0⟩ = a := by
  simp [mag3, ha.le, Real.sqrt_sq]

/-- two quarter turns about different axes -/
theorem regular_ex : Regular (some ⟨0, 0, Real.pi / 2⟩) ⟨Real.pi / 2, 0, 0⟩ := by
  have hp : 0 < Real.pi / 2 := by positivity
  have h3 := Real.pi_gt_three
  left
  have m1 := rod_z _ hp
  have m2 := mag_x _ hp
  have tr : (rod ⟨0, 0, Real.pi / 2⟩ * rod ⟨Real.pi / 2, 0, 0⟩).trace = 0 := by
    rw [rod_eq, rod_eq, m1, m2]
    simp [hp.ne', axis, rodM, toMat, m1, m2, Matrix.trace, Fin.sum_univ_three, Matrix.mul_apply]
  rw [m1, m2, tr]
  refine ⟨?_, ?_, ?_, ?_⟩ <;> norm_num <;> linarith

example : Regular (some ⟨0, 0, 0⟩) ⟨0, 0, 1⟩ := by
  right; left
  refine ⟨rfl, Or.inl ?_⟩
  rw [rod_z 1 one_pos]
  refine ⟨by norm_num, ?_⟩
  exact (Real.sin_pos_of_pos_of_lt_pi (by norm_num) (by linarith [Real.pi_gt_three])).ne'
example : Regular (some ⟨0, 0, 0⟩) ⟨0, 0, 0⟩ := by right; left; exact ⟨rfl, Or.inr rfl⟩
example : Regular none ⟨0, 0, 1⟩ := by right; rw [rod_z 1 one_pos]; norm_num [dblEpsilon]

/-- a camera at the reference looking at a board 5m away. A pinhole lens; the board moves, rotates and bends at the same time -/
example : ∃ v : P2,
    HasDerivAt (fun s => (pinhole ⟨1000, 1000, 500, 500⟩ (truthP none ⟨⟨s, s ^ 2, 1⟩, ⟨s, -s, 5⟩⟩ (boardPoint 10 8 0.1 (some ⟨s, 2 * s⟩) 3 4).1)).q.x) v.x 0 := by
  have r0 : mag3 ⟨0, 0 ^ 2, 1⟩ = 1 := by simp [mag3]
  have hs : HasDerivAt (fun s : ℝ => s) 1 0 := hasDerivAt_id 0
  have hr : HasDerivP (fun s : ℝ => (⟨s, s ^ 2, 1⟩ : P3)) ⟨1, 0, 0⟩ 0 :=
    ⟨hs, HasDerivAt.congr_deriv (hs.pow 2) (by simp), hasDerivAt_const _ _⟩
  have ht : HasDerivP (fun s : ℝ => (⟨s, -s, 5⟩ : P3)) ⟨1, -1, 0⟩ 0 := ⟨hs, hs.neg, hasDerivAt_const _ _⟩
  have cd : CoreDeriv (fun _ => ⟨1000, 1000, 500, 500⟩) ⟨0, 0, 0, 0⟩ 0 := ⟨hasDerivAt_const _ _, hasDerivAt_const _ _, hasDerivAt_const _ _, hasDerivAt_const _ _⟩
  have hz : (truthP none ⟨⟨0, 0 ^ 2, 1⟩, ⟨0, -0, 5⟩⟩ (boardPoint 10 8 0.1 (some ⟨0, 2 * 0⟩) 3 4).1).z ≠ 0 := by
    have r1 : mag3 ⟨0, 0, 1⟩ = 1 := by simp [mag3]
    have e : rod ⟨0, 0, 1⟩ = toMat (rodM (Real.cos 1) (Real.sin 1) (axis ⟨0, 0, 1⟩)) := by rw [rod_eq, r1]; simp
    simp [truthP, truth, trS, e, axis, rodM, toMat, r1, toVec, boardPoint, Matrix.mulVec, dotProduct, Fin.sum_univ_three, Matrix.vecHead, Matrix.vecTail]
  have k := project_corner_ref (pinhole ⟨1000, 1000, 500, 500⟩) (fun _ p => (pinhole ⟨1000, 1000, 500, 500⟩ p).q)
    (fun s => ⟨⟨s, s ^ 2, 1⟩, ⟨s, -s, 5⟩⟩) (fun s => ⟨s, 2 * s⟩) ⟨1, 0, 0⟩ ⟨1, -1, 0⟩ ⟨1, 2⟩ _ _ 0 10 8 0.1 3 4 hr ht hs
    (by simpa using hs.const_mul 2) (Or.inr (by rw [r0]; norm_num [dblEpsilon]))
    (lens_pinhole cd (by norm_num) (by norm_num) _ hz)
  exact ⟨⟨_, 0⟩, k.2.2.2.1⟩

end Mrcal.Project

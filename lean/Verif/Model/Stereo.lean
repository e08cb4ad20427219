import Verif.Model.ProjectApi
import Mathlib.Analysis.SpecialFunctions.Trigonometric.Inverse
import Mathlib.Algebra.Order.Floor.Ring
import Mathlib.Algebra.Order.Archimedean.Real.Basic
/-
Stereo processing: stereo.c, and the parts of mrcal/stereo.py that call it. Arithmetic is exact: `double` is ℝ. A result that is not finite is an explicit case.
-/
namespace Mrcal.Stereo
open Mrcal.Cam Mrcal.Pose

/-- `mrcal_lensmodel_type_t` of the rectified system. All the models that are not mentioned in stereo.c behave identically: `other` -/
inductive RectType
  | latlon | lonlat | pinhole | other
  deriving DecidableEq

/-! ### ranges -/

/-- `_validate_rectification_model_type` stereo.c:1232-1261 -/
def validRectType : RectType → Bool
  | .latlon => true
  | .pinhole => true
  | _ => false

/-- `_stereo_range_one` stereo.c:1263-1307. The quotients are not finite exactly if a divisor is 0: then the reported range is 0.0 -/
noncomputable def rangeOne (m : RectType) (k : Core) (baseline disparity : ℝ) (q : P2) : ℝ :=
  if m = .latlon then
    if k.fx = 0 then 0 else
    let az0 := (q.x - k.cx) / k.fx
    let disparity_rad := disparity / k.fx
    if Real.sin disparity_rad = 0 then 0
    else baseline * Real.cos (az0 - disparity_rad) / Real.sin disparity_rad
  else
    if k.fx = 0 ∨ k.fy = 0 then 0 else
    let tanaz0 := (q.x - k.cx) / k.fx
    let tanel := (q.y - k.cy) / k.fy
    let s_sq_recip := tanel * tanel + 1
    let tanaz0_tanaz1 := disparity / k.fx
    if tanaz0_tanaz1 = 0 then 0 else
    let tanaz1 := tanaz0 - tanaz0_tanaz1
    baseline / Real.sqrt (s_sq_recip + tanaz0 * tanaz0) * ((s_sq_recip + tanaz0 * tanaz1) / tanaz0_tanaz1 + tanaz0)

/-- `mrcal_stereo_range_sparse` stereo.c:1309-1348. `none` is the return value `false`: nothing is written -/
noncomputable def rangeSparse (m : RectType) (k : Core) (baseline : ℝ) (N : Nat) (disparity : Nat → ℝ) (q : Nat → P2) (dmin dmax : ℝ)
    (range : Nat → ℝ) : Option (Nat → ℝ) :=
  if ¬ validRectType m then none
  else if dmin ≥ dmax then none
  else some (loopWrite N (fun i => i) (fun i =>
    if disparity i ≤ 0 ∨ disparity i < dmin ∨ disparity i > dmax then 0
    else rangeOne m k baseline (disparity i) (q i)) range)

/-- an image: `mrcal_image_..._t`. `px x y`: column x, row y. The stride isn't modelled -/
structure Image (α : Type) where
  width : Nat
  height : Nat
  px : Nat → Nat → α

/-- for(i<H) for(j<W) out(j,i) = value i j -/
def loopWrite2 {α : Type} (H W : Nat) (value : Nat → Nat → α) (out : Nat → Nat → α) : Nat → Nat → α :=
  (List.range H).foldl (fun out i => (List.range W).foldl (fun out j => fun x y => if x = j ∧ y = i then value i j else out x y) out) out

/-- `mrcal_stereo_range_dense` stereo.c:1350-1421. The scaled disparities are `uint16_t`. A `disparity_scale` of 0 makes infinite disparities, and then the
range isn't finite: 0 is reported -/
noncomputable def rangeDense (m : RectType) (k : Core) (baseline : ℝ) (disparity : Image Nat) (scale dmin dmax : Nat) (range : Image ℝ) : Option (Image ℝ) :=
  if ¬ validRectType m then none
  else if dmin ≥ dmax then none
  else if range.width ≠ disparity.width ∨ range.height ≠ disparity.height then none
  else some { range with px := loopWrite2 range.height range.width (fun i j =>
    if disparity.px j i ≤ 0 ∨ disparity.px j i < dmin ∨ disparity.px j i > dmax then 0
    else if scale = 0 then 0
    else rangeOne m k baseline ((disparity.px j i : ℝ) / (scale : ℝ)) ⟨(j : ℝ), (i : ℝ)⟩) range.px }

/-- the disparity image given to `mrcal.stereo_range()`: a numpy array of integers (possibly `np.int16`) or of floats -/
inductive DispImage
  | ints (isInt16 : Bool) (d : Image Int)
  | floats (d : Image ℝ)

/-- `astype(np.uint16)`: integers wrap, floats are truncated. Floats outside of the uint16 range are undefined in numpy; here they wrap also -/
noncomputable def DispImage.astypeU16 : DispImage → Image Nat
  | .ints _ d => ⟨d.width, d.height, fun x y => (d.px x y % 65536).toNat⟩
  | .floats d => ⟨d.width, d.height, fun x y => ((if 0 ≤ d.px x y then ⌊d.px x y⌋ else -⌊-d.px x y⌋) % 65536).toNat⟩

/-- `mrcal.stereo_range()` mrcal/stereo.py:1225-1310 with qrect0 None (a whole disparity image), and no disparity bounds given. `shape` is the size of the
rectified imagers. `none` is an exception -/
noncomputable def pyStereoRange (m : RectType) (k : Core) (baseline : ℝ) (W H : Nat) (disparity : DispImage) (scale : Nat) : Option (Image ℝ) :=
  let d := disparity.astypeU16
  let smax := match disparity with
    | .ints true _ => 0x7FFF
    | _ => 65535
  if d.width ≠ W ∨ d.height ≠ H then none
  else rangeDense m k baseline d scale 0 smax ⟨W, H, fun _ _ => 0⟩

/-- `mrcal.stereo_unproject()` mrcal/stereo.py:1581-1607 of one pixel. `v` is the unprojected and normalised ray. -/
noncomputable def pyStereoUnproject (v : P3) (range : ℝ) : P3 :=
  let mag := Real.sqrt (v.x * v.x + v.y * v.y + v.z * v.z)
  ⟨v.x / mag * range, v.y / mag * range, v.z / mag * range⟩

/-! ### the rectified system -/

/-- the rectified axes: stereo.c:487-552. R_rect0_cam0, the baseline, forward01 and its projection along the baseline. The outer `none` is the failure.
R_rect0_cam0 is `none` if it has elements that are not finite: the norm of `forward` isn't checked -/
structure Axes where
  R_rect0_cam0 : Option M3
  baseline : ℝ
  forward01 : P3
  proj : ℝ

/-- stereo.c:487-552 -/
noncomputable def rectAxes (Rt01 : Rt) : Option Axes :=
  let t := Rt01.t
  let baseline := Real.sqrt (t.x * t.x + t.y * t.y + t.z * t.z)
  if baseline < 1e-6 then none else
  let right : P3 := ⟨t.x / baseline, t.y / baseline, t.z / baseline⟩
  let forward01 : P3 := ⟨Rt01.R.a02, Rt01.R.a12, Rt01.R.a22 + 1⟩
  let proj := forward01.x * right.x + forward01.y * right.y + forward01.z * right.z
  let f : P3 := ⟨forward01.x - proj * right.x, forward01.y - proj * right.y, forward01.z - proj * right.z⟩
  let norm2_forward := f.x * f.x + f.y * f.y + f.z * f.z
  let s := Real.sqrt norm2_forward
  let forward : P3 := ⟨f.x / s, f.y / s, f.z / s⟩
  let down : P3 := ⟨forward.y * right.z - forward.z * right.y, forward.z * right.x - forward.x * right.z, forward.x * right.y - forward.y * right.x⟩
  some { R_rect0_cam0 := if norm2_forward = 0 then none
           else some ⟨right.x, right.y, right.z, down.x, down.y, down.z, forward.x, forward.y, forward.z⟩
         baseline := baseline, forward01 := forward01, proj := proj }

/-- the azimuth of the center, in degrees and in radians: stereo.c:557-630. `none` is the failure. If |forward01| is 0 (the cameras look in opposite directions)
then the detected value isn't finite, and both comparisons are false: the first shift is taken -/
noncomputable def azCenter (autodetect : Bool) (az0_deg fov_deg margin : ℝ) (forward01 : P3) (proj : ℝ) : Option (ℝ × ℝ) :=
  let loose := margin - 1e-3
  if autodetect then
    let n2 := forward01.x * forward01.x + forward01.y * forward01.y + forward01.z * forward01.z
    let az0 := Real.arcsin (proj / Real.sqrt n2)
    let deg := az0 * 180 / Real.pi
    let lo := n2 ≠ 0 ∧ deg - fov_deg / 2 > -90 + loose
    let hi := n2 ≠ 0 ∧ deg + fov_deg / 2 < 90 - loose
    if ¬ (lo ∧ hi) then
      if fov_deg > 180 - 2 * margin then none
      else if ¬ lo then
        let d := -90 + margin + fov_deg / 2
        some (d, d / 180 * Real.pi)
      else
        let d := 90 - margin - fov_deg / 2
        some (d, d / 180 * Real.pi)
    else some (deg, az0)
  else
    if ¬ (az0_deg - fov_deg / 2 > -90 + loose ∧ az0_deg + fov_deg / 2 < 90 - loose) then none
    else some (az0_deg, az0_deg * Real.pi / 180)

/-- `(int)round(x)`: to the nearest integer, away from 0 if halfway. Overflow of the conversion isn't modelled -/
noncomputable def cround (x : ℝ) : Int := if 0 ≤ x then ⌊x + 1 / 2⌋ else -⌊-x + 1 / 2⌋

/-- v, dv_daz, dv_del at the center of the view: stereo.c:54-86. `none` is the failure -/
noncomputable def centerRay (m : RectType) (azel0 : P2) : Option (P3 × P3 × P3) :=
  match m with
  | .latlon =>
    let u := unlatlon ⟨1, 1, 0, 0⟩ azel0
    some (u.v, ⟨u.dvx.x, u.dvy.x, u.dvz.x⟩, ⟨u.dvx.y, u.dvy.y, u.dvz.y⟩)
  | .lonlat =>
    let u := unlonlat ⟨1, 1, 0, 0⟩ azel0
    some (u.v, ⟨u.dvx.x, u.dvy.x, u.dvz.x⟩, ⟨u.dvx.y, u.dvy.y, u.dvz.y⟩)
  | .pinhole =>
    let u := unpinhole ⟨1, 1, 0, 0⟩ ⟨Real.tan azel0.x, Real.tan azel0.y⟩
    let ca := Real.cos azel0.x * Real.cos azel0.x
    let ce := Real.cos azel0.y * Real.cos azel0.y
    some (u.v, ⟨u.dvx.x / ca, u.dvy.x / ca, u.dvz.x / ca⟩, ⟨u.dvx.y / ce, u.dvy.y / ce, u.dvz.y / ce⟩)
  | .other => none

/-- dq_daz or dq_del: stereo.c:88-131 -/
noncomputable def dqDangle (P : Proj) (R : M3) (dv : P3) : P2 :=
  let d : P3 := ⟨R.a00 * dv.x + R.a01 * dv.y + R.a02 * dv.z, R.a10 * dv.x + R.a11 * dv.y + R.a12 * dv.z,
                 R.a20 * dv.x + R.a21 * dv.y + R.a22 * dv.z⟩
  ⟨P.dqx.x * d.x + P.dqx.y * d.y + P.dqx.z * d.z, P.dqy.x * d.x + P.dqy.y * d.y + P.dqy.z * d.z⟩

/-- the resolution for one of the directions: stereo.c:133-147 -/
noncomputable def ppdScaled (ppd : ℝ) (dq : P2) : ℝ :=
  if ppd < 0 then ppd * -(Real.sqrt (dq.x * dq.x + dq.y * dq.y) * Real.pi / 180) else ppd

/-- the imager is quantised: stereo.c:158-169 -/
noncomputable def ppdQuantised (m : RectType) (fov ppd : ℝ) : ℝ :=
  if m = .latlon ∨ m = .lonlat then (cround (fov * ppd) : ℝ) / fov else ppd

/-- `mrcal_rectified_resolution` stereo.c:23-172. `project` is `mrcal_project()` of one point by camera0. `none`: a failure, or a projection that failed -/
noncomputable def rectifiedResolution (ppd_az ppd_el : ℝ) (project : P3 → Option Proj) (fov_deg azel0_deg : P2) (R_cam0_rect0 : M3) (m : RectType) :
    Option (ℝ × ℝ) :=
  if ppd_az < 0 ∨ ppd_el < 0 then
    match centerRay m ⟨azel0_deg.x * Real.pi / 180, azel0_deg.y * Real.pi / 180⟩ with
    | none => none
    | some (v, dv_daz, dv_del) =>
      match project (rotatePointR R_cam0_rect0 v false) with
      | none => none
      | some P => some (ppdQuantised m fov_deg.x (ppdScaled ppd_az (dqDangle P R_cam0_rect0 dv_daz)),
                        ppdQuantised m fov_deg.y (ppdScaled ppd_el (dqDangle P R_cam0_rect0 dv_del)))
  else some (ppdQuantised m fov_deg.x ppd_az, ppdQuantised m fov_deg.y ppd_el)

/-- the quartic given to `roots_real_polynomial` stereo.c:307-316, evaluated at C: x^4 + c3 x^3 + c2 x^2 + c1 x + c0 -/
noncomputable def cxyQuartic (tanazel0 fov_deg C : ℝ) : ℝ :=
  let cosfov := Real.cos (fov_deg * Real.pi / 180)
  let cos2fov := cosfov * cosfov
  let K := 2 * tanazel0
  C ^ 4 + (2 * K) * C ^ 3 + (K * K + 2 + 4 / (cos2fov - 1)) * C ^ 2 + (2 * K + K * 4 / (cos2fov - 1)) * C
    + (K * K + 1 + K * K / (cos2fov - 1))

/-- the loops that throw out roots: stereo.c:329-344, 348-363. A bad element is replaced by the last one. `fuel` is `nroots - i` -/
def filterSwap {α : Type} (good : α → Bool) : (fuel : Nat) → List α → List α → List α
  | 0, kept, _ => kept
  | _ + 1, kept, [] => kept
  | n + 1, kept, c :: cs =>
    if good c then filterSwap good n (kept ++ [c]) cs
    else match cs.getLast? with
      | none => kept
      | some l => filterSwap good n kept (l :: cs.dropLast)

/-- the search for the largest value: stereo.c:369-381. The initial -DBL_MAX is below all the values here: it's an initial `none` -/
noncomputable def pickMax (val : ℝ → ℝ) : List ℝ → Option ℝ → Option ℝ
  | [], best => best
  | c :: cs, none => pickMax val cs (some c)
  | c :: cs, some b => pickMax val cs (if val c > val b then some c else some b)

/-- `compute_pinhole_cxy` stereo.c:294-385. The numerical root finder is an oracle: `roots` is what it found -/
noncomputable def pinholeCxy (roots : List ℝ) (fxy tanazel0 fov_deg : ℝ) : Option ℝ :=
  let cosfov := Real.cos (fov_deg * Real.pi / 180)
  let K := 2 * tanazel0
  let val := fun c => cosfov * (1 - K * c - c * c)
  open Classical in
  let r1 := filterSwap (fun c => decide (val c ≥ -1e-9)) roots.length [] roots
  open Classical in
  let r2 := filterSwap (fun c => decide ((tanazel0 * fxy + c * fxy) * 2 + 1 > 0)) r1.length [] r1
  (pickMax val r2 none).map fun c => c * fxy

/-- conversion to `unsigned int` -/
def toUnsigned (n : Int) : Int := n % 4294967296

structure RectSystem where
  width : Int
  height : Int
  fxycxy : Core
  /-- `none`: not finite -/
  rt_rect0_ref : Option RtV
  baseline : ℝ
  ppd_az : ℝ
  ppd_el : ℝ
  azel0_deg : P2

/-- the intrinsics and the size: stereo.c:647-706 -/
noncomputable def rectIntrinsics (roots : ℝ → ℝ → List ℝ) (m : RectType) (ppd_az ppd_el : ℝ) (fov_deg azel0 : P2) : Option (Core × Int × Int) :=
  let fx := ppd_az / Real.pi * 180
  let fy := ppd_el / Real.pi * 180
  if m = .latlon then
    let w := toUnsigned (cround (fov_deg.x * ppd_az))
    let h := toUnsigned (cround (fov_deg.y * ppd_el))
    some (⟨fx, fy, (toUnsigned (w - 1) : ℝ) / 2 - azel0.x * fx, (toUnsigned (h - 1) : ℝ) / 2 - azel0.y * fy⟩, w, h)
  else
    let fx := fx * (Real.cos azel0.x * Real.cos azel0.x)
    let fy := fy * (Real.cos azel0.y * Real.cos azel0.y)
    match pinholeCxy (roots (Real.tan azel0.x) fov_deg.x) fx (Real.tan azel0.x) fov_deg.x with
    | none => none
    | some cx =>
      match pinholeCxy (roots (Real.tan azel0.y) fov_deg.y) fy (Real.tan azel0.y) fov_deg.y with
      | none => none
      | some cy => some (⟨fx, fy, cx, cy⟩, toUnsigned (cround ((Real.tan azel0.x * fx + cx) * 2) + 1),
                         toUnsigned (cround ((Real.tan azel0.y * fy + cy) * 2) + 1))

/-- noncentral models are rejected, unless this is CAHVORE with E=0: stereo.c:445-466 -/
def rejectNoncentral (L : Lens) (intr : Int → ℝ) : Prop :=
  match L with
  | .cahvore _ => intr 9 ≠ 0 ∨ intr 10 ≠ 0 ∨ intr 11 ≠ 0
  | L => L.noncentral = true

open Classical in
/-- `mrcal_rectified_system2` stereo.c:390-722. `none` is a failure. `roots` is the root finder: given tanazel0 and fov. If the rotation isn't finite then neither is
the automatic resolution: that is a failure here -/
noncomputable def rectifiedSystem2 (roots : ℝ → ℝ → List ℝ) (ppd_az ppd_el : ℝ) (fov_deg azel0_deg : P2) (margin : ℝ) (L : Lens) (intr : Int → ℝ)
    (rt_cam0_ref rt_cam1_ref : RtV) (m : RectType) (az0_auto el0_auto azfov_auto elfov_auto : Bool) : Option RectSystem :=
  if el0_auto then none
  else if azfov_auto then none
  else if elfov_auto then none
  else if ¬ (m = .latlon ∨ m = .pinhole) then none
  else if rejectNoncentral L intr then none
  else if ppd_az = 0 then none
  else if ppd_el = 0 then none
  else if fov_deg.x ≤ 0 ∨ fov_deg.y ≤ 0 then none
  else
    let Rt_cam0_ref := Rt_from_rt rt_cam0_ref
    let Rt01 := composeRt Rt_cam0_ref (invertRt (Rt_from_rt rt_cam1_ref)) false false
    match rectAxes Rt01 with
    | none => none
    | some A =>
      match azCenter az0_auto azel0_deg.x fov_deg.x margin A.forward01 A.proj with
      | none => none
      | some (az0_deg, az0) =>
        let azel0_deg : P2 := ⟨az0_deg, azel0_deg.y⟩
        let azel0 : P2 := ⟨az0, azel0_deg.y * Real.pi / 180⟩
        let ppd := match A.R_rect0_cam0 with
          | some R => rectifiedResolution ppd_az ppd_el (fun p => (lensOut L intr p).map (·.proj)) fov_deg azel0_deg (invertR R) m
          | none => if ppd_az < 0 ∨ ppd_el < 0 then none else some (ppdQuantised m fov_deg.x ppd_az, ppdQuantised m fov_deg.y ppd_el)
        match ppd with
        | none => none
        | some (ppd_az, ppd_el) =>
          match rectIntrinsics roots m ppd_az ppd_el fov_deg azel0 with
          | none => none
          | some (fxycxy, w, h) =>
            if h ≤ 0 then none
            else some { width := w, height := h, fxycxy := fxycxy, baseline := A.baseline, ppd_az := ppd_az, ppd_el := ppd_el, azel0_deg := azel0_deg
                        rt_rect0_ref := A.R_rect0_cam0.map fun R => rt_from_Rt (composeRt ⟨R, ⟨0, 0, 0⟩⟩ Rt_cam0_ref false false) }

/-- `mrcal_rectified_system` stereo.c:724-781: the margin is 10 -/
noncomputable def rectifiedSystem (roots : ℝ → ℝ → List ℝ) (ppd_az ppd_el : ℝ) (fov_deg azel0_deg : P2) (L : Lens) (intr : Int → ℝ)
    (rt_cam0_ref rt_cam1_ref : RtV) (m : RectType) (az0_auto el0_auto azfov_auto elfov_auto : Bool) : Option RectSystem :=
  rectifiedSystem2 roots ppd_az ppd_el fov_deg azel0_deg 10 L intr rt_cam0_ref rt_cam1_ref m az0_auto el0_auto azfov_auto elfov_auto

/-- the pose of the second rectified camera: mrcal/stereo.py:460-461 -/
def rt_rect1_ref (rt_rect0_ref : RtV) (baseline : ℝ) : RtV :=
  ⟨rt_rect0_ref.r, ⟨rt_rect0_ref.t.x - baseline, rt_rect0_ref.t.y, rt_rect0_ref.t.z⟩⟩

/-! ### rectification maps -/

/-- `mrcal_project()` of one point. A CAHVORE failure produces (0,0): mrcal.c:2503-2506. The splined models that make `mrcal_project()` abort are not treated here: see
`lensAsserts` -/
noncomputable def project1 (L : Lens) (intr : Int → ℝ) (p : P3) : P2 :=
  match lensOut L intr p with
  | some o => o.proj.q
  | none => ⟨0, 0⟩

/-- a camera: its lens and R_cam_rect -/
structure MapCam where
  L : Lens
  intr : Int → ℝ
  R : M3

/-- writing one (x,y) pair to a map at offset `base`. The indices are unsigned in C: wraparound for giant images isn't modelled -/
def setPair (base W i j : Nat) (q : P2) (mem : Nat → ℝ) : Nat → ℝ :=
  fun a => if a = base + ((i * W + j) * 2 + 1) then q.y
    else if a = base + ((i * W + j) * 2 + 0) then q.x
    else mem a

/-- `set_rectification_map_pixel` stereo.c:783-822. The conversion to `float` is not modelled -/
noncomputable def setMapPixel (c0 c1 : MapCam) (W H : Nat) (i j : Nat) (v : P3) (mem : Nat → ℝ) : Nat → ℝ :=
  let q0 := project1 c0.L c0.intr (rotatePointR c0.R v false)
  let mem := setPair 0 W i j q0 mem
  let q1 := project1 c1.L c1.intr (rotatePointR c1.R v false)
  setPair (W * H * 2) W i j q1 mem

/-- the running sine and cosine, and the output -/
structure Sweep where
  s : ℝ
  c : ℝ
  mem : Nat → ℝ

/-- the step of the running sine and cosine: stereo.c:931-937 -/
def Sweep.step (sd cd : ℝ) (w : Sweep) : Sweep := ⟨w.s * cd + w.c * sd, w.c * cd - w.s * sd, w.mem⟩

/-- `mrcal_rectification_maps` stereo.c:824-965. `none` is a failure -/
noncomputable def rectificationMaps (L0 : Lens) (intr0 : Int → ℝ) (r_cam0_ref : P3) (L1 : Lens) (intr1 : Int → ℝ) (r_cam1_ref : P3) (m : RectType)
    (k : Core) (W H : Nat) (r_rect0_ref : P3) (mem : Nat → ℝ) : Option (Nat → ℝ) :=
  if ¬ (m = .latlon ∨ m = .pinhole) then none else
  let R_rect0_ref := R_from_r r_rect0_ref
  let c0 : MapCam := ⟨L0, intr0, mul (R_from_r r_cam0_ref) (transpose R_rect0_ref)⟩
  let c1 : MapCam := ⟨L1, intr1, mul (R_from_r r_cam1_ref) (transpose R_rect0_ref)⟩
  let fx_recip := 1 / k.fx
  let fy_recip := 1 / k.fy
  let c_over_f_x := k.cx * fx_recip
  let c_over_f_y := k.cy * fy_recip
  if m = .latlon then
    let sdlon := Real.sin fy_recip
    let cdlon := Real.cos fy_recip
    let sdlat := Real.sin fx_recip
    let cdlat := Real.cos fx_recip
    let lon0 := -c_over_f_y
    let lat0 := -c_over_f_x
    some ((List.range H).foldl (fun (row : Sweep) i =>
      let cols := (List.range W).foldl (fun (col : Sweep) j =>
        Sweep.step sdlat cdlat { col with mem := setMapPixel c0 c1 W H i j ⟨col.s, col.c * row.s, col.c * row.c⟩ col.mem })
        ⟨Real.sin lat0, Real.cos lat0, row.mem⟩
      Sweep.step sdlon cdlon { row with mem := cols.mem }) ⟨Real.sin lon0, Real.cos lon0, mem⟩).mem
  else
    some ((List.range H).foldl (fun mem i => (List.range W).foldl (fun mem j =>
      setMapPixel c0 c1 W H i j ⟨(j : ℝ) * fx_recip - c_over_f_x, (i : ℝ) * fy_recip - c_over_f_y, 1⟩ mem) mem) mem)

end Mrcal.Stereo

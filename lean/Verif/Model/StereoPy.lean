import Verif.Model.Stereo
/-
The Python API of the stereo ranging: `mrcal.stereo_range()`, its Python reference implementation, and `mrcal.stereo_unproject()`: mrcal/stereo.py. Arithmetic is exact; the number types are
modelled only where the values are converted to `np.uint16`. Broadcasting isn't modelled: the disparities are a number, a 1-dimensional array, or an image; the given pixels are a list that has one pixel
for each disparity. A scale of 0 isn't modelled. An exception is `none`.
-/
namespace Mrcal.StereoPy
open Mrcal.Cam Mrcal.Pose Mrcal.Stereo

/-- what the functions here use from a `mrcal.cameramodel`: the type and the values of the intrinsics, the size of the imager, Rt_cam_ref() -/
structure RectCam where
  type : RectType
  k : Core
  W : Nat
  H : Nat
  Rt_cam_ref : Rt

/-- Rt01 = compose_Rt(models_rectified[0].Rt_cam_ref(), models_rectified[1].Rt_ref_cam()): stereo.py:798-799, 1275-1276, 1387-1388 -/
noncomputable def Rt01 (m0 m1 : RectCam) : Rt := composeRt m0.Rt_cam_ref (invertRt m1.Rt_cam_ref) false false

/-- `_validate_models_rectified` stereo.py:784-819: true if there's no exception. There are always two models here -/
noncomputable def validate (m0 m1 : RectCam) : Prop :=
  let T := Rt01 m0 m1
  let costh := (T.R.a00 + T.R.a11 + T.R.a22 - 1) / 2
  ((m0.type = .latlon ∧ m1.type = .latlon) ∨ (m0.type = .pinhole ∧ m1.type = .pinhole)) ∧
  ¬ ((m0.k.fx - m1.k.fx) ^ 2 + (m0.k.fy - m1.k.fy) ^ 2 + (m0.k.cx - m1.k.cx) ^ 2 + (m0.k.cy - m1.k.cy) ^ 2 > 1e-6) ∧
  ¬ (m0.W ≠ m1.W ∨ m0.H ≠ m1.H) ∧
  ¬ costh < 0.999999 ∧
  ¬ (T.t.y ^ 2 + T.t.z ^ 2 > 1e-9)

/-- baseline = nps.mag(Rt01[3,:]) stereo.py:1277, 1389 -/
noncomputable def baselineOf (m0 m1 : RectCam) : ℝ :=
  let t := (Rt01 m0 m1).t
  Real.sqrt (t.x * t.x + t.y * t.y + t.z * t.z)

/-- the models made by `mrcal.rectified_system()`: stereo.py:460-470. `rt` is rt_rect0_ref -/
noncomputable def pairOf (m : RectType) (k : Core) (W H : Nat) (rt : RtV) (baseline : ℝ) : RectCam × RectCam :=
  (⟨m, k, W, H, Rt_from_rt rt⟩, ⟨m, k, W, H, Rt_from_rt (rt_rect1_ref rt baseline)⟩)

/-- the `disparity` argument. `i16`: this is an array with dtype np.int16 -/
inductive Disp
  | scalar (d : ℝ)
  | vec (i16 : Bool) (N : Nat) (d : Nat → ℝ)
  | image (i16 : Bool) (d : Image ℝ)

def Disp.i16 : Disp → Bool
  | .scalar _ => false
  | .vec i _ _ => i
  | .image i _ => i

/-- the ranges that are returned -/
inductive Out
  | scalar (r : ℝ)
  | vec (N : Nat) (r : Nat → ℝ)
  | image (r : Image ℝ)

/-- the keyword arguments. `qrect0` is None, or a list of pixels -/
structure Args where
  scale : ℝ := 1
  dmin : Option ℝ := none
  smin : Option ℝ := none
  dmax : Option ℝ := none
  smax : Option ℝ := none
  qrect0 : Option (Nat × (Nat → P2)) := none

/-- the checks that a bound isn't given twice: stereo.py:1228-1233, 1334-1339. true if there's an exception -/
def twice (a b : Option ℝ) : Prop := ∃ x y, a = some x ∧ b = some y ∧ x ≠ y

/-- the conversion of a number to an integer: towards 0 -/
noncomputable def trunc (x : ℝ) : Int := if 0 ≤ x then ⌊x⌋ else -⌊-x⌋

/-- `np.uint16(x)` of a number: stereo.py:1287-1289. What happens to a value that doesn't fit depends on the version of numpy (an exception, or it wraps around): `over` -/
noncomputable def toU16 (over : Int → Option Nat) (x : ℝ) : Option Nat :=
  if 0 ≤ trunc x ∧ trunc x < 65536 then some (trunc x).toNat else over (trunc x)

/-- `disparity.astype(np.uint16)` stereo.py:1286: integers wrap around, floats are truncated. Floats outside of the uint16 range are undefined in numpy; here they wrap also -/
noncomputable def astypeU16 (d : Image ℝ) : Image Nat := ⟨d.width, d.height, fun x y => (trunc (d.px x y) % 65536).toNat⟩

/-- np.finfo(float).max: stereo.py:1258, 1358 -/
noncomputable def dblMax : ℝ := 2 ^ 1024 - 2 ^ 971

/-- disparity_scaled_max after the treatment of the 16-bit signed disparities: stereo.py:1235-1237 -/
def smaxOf (d : Disp) (a : Args) : Option ℝ :=
  if a.smax = none ∧ a.dmax = none ∧ d.i16 = true then some 0x7FFF else a.smax

/-- a scaled bound: stereo.py:1240-1249, 1342-1351 -/
noncomputable def scaledBound (scale : ℝ) (s p : Option ℝ) (default : ℝ) : ℝ :=
  match s with
  | some x => x
  | none => match p with
    | none => default
    | some y => y * scale

/-- a bound in pixels: stereo.py:1251-1260, 1353-1362 -/
noncomputable def pixelBound (scale : ℝ) (s p : Option ℝ) (default : ℝ) : ℝ :=
  match p with
  | some y => y
  | none => match s with
    | none => default
    | some x => x / scale

/-- the size of the disparities has to be that of the rectified image: stereo.py:1280-1282, 1378-1380. A number or a 1-dimensional array isn't accepted. Simplified: numpy broadcasting would let through
a 1-dimensional array of N elements if the imager is N by N -/
def shapeOk (m0 : RectCam) : Disp → Option (Image ℝ)
  | .image _ d => if d.width = m0.W ∧ d.height = m0.H then some d else none
  | _ => none

open Classical in
/-- `mrcal.stereo_range()` with qrect0 None: stereo.py:1239-1249, 1279-1292 -/
noncomputable def rangeDensePy (over : Int → Option Nat) (m0 m1 : RectCam) (disparity : Disp) (a : Args) : Option Out :=
  match shapeOk m0 disparity with
  | none => none
  | some d =>
    match toU16 over a.scale, toU16 over (scaledBound a.scale a.smin a.dmin 0), toU16 over (scaledBound a.scale (smaxOf disparity a) a.dmax 65535) with
    | some scale, some smin, some smax =>
      (rangeDense m0.type m0.k (baselineOf m0 m1) (astypeU16 d) scale smin smax ⟨d.width, d.height, fun _ _ => 0⟩).map Out.image
    | _, _, _ => none

/-- the call of the C function with a list of pixels: stereo.py:1294-1304. The numbers of the disparities and of the pixels have to be the same -/
noncomputable def rangeSparseC (m0 m1 : RectCam) (a : Args) (smax : Option ℝ) (N : Nat) (d : Nat → ℝ) (Nq : Nat) (q : Nat → P2) : Option (Nat → ℝ) :=
  if N ≠ Nq then none
  else rangeSparse m0.type m0.k (baselineOf m0 m1) N (fun i => d i / a.scale) q (pixelBound a.scale a.smin a.dmin 0) (pixelBound a.scale smax a.dmax dblMax) (fun _ => 0)

/-- `mrcal.stereo_range()` with qrect0 given: stereo.py:1250-1260, 1262-1273, 1294-1308. A number is treated as an array of 1 element. An image with the pixels in a list isn't modelled -/
noncomputable def rangeSparsePy (m0 m1 : RectCam) (disparity : Disp) (a : Args) (Nq : Nat) (q : Nat → P2) : Option Out :=
  match disparity with
  | .scalar d => (rangeSparseC m0 m1 a (smaxOf disparity a) 1 (fun _ => d) Nq q).map fun r => Out.scalar (r 0)
  | .vec _ N d => (rangeSparseC m0 m1 a (smaxOf disparity a) N d Nq q).map (Out.vec N)
  | .image _ _ => none

open Classical in
/-- `mrcal.stereo_range()` stereo.py:978-1308 -/
noncomputable def stereoRange (over : Int → Option Nat) (m0 m1 : RectCam) (disparity : Disp) (a : Args) : Option Out :=
  if ¬ validate m0 m1 then none
  else if twice a.dmin a.smin then none
  else if twice a.dmax a.smax then none
  else match a.qrect0 with
    | none => rangeDensePy over m0 m1 disparity a
    | some (Nq, q) => rangeSparsePy m0 m1 disparity a Nq q

/-! ### the reference implementation -/

/-- the ranges returned by the reference implementation. A value that isn't finite is `none` -/
inductive RefOut
  | scalar (r : Option ℝ)
  | vec (N : Nat) (r : Nat → Option ℝ)
  | image (r : Image (Option ℝ))

/-- one value that isn't masked: stereo.py:1403-1445. The disparities are converted to 32-bit floats: this rounding isn't modelled. A PINHOLE range that isn't finite is masked later: stereo.py:1445-1447. A
LATLON range that isn't finite is reported -/
noncomputable def refOne (m0 : RectCam) (baseline scale d : ℝ) (q : P2) : Option ℝ :=
  let k := m0.k
  if m0.type = .latlon then
    let az0 := (q.x - k.cx) / k.fx
    let disparity_rad := d / (k.fx * scale)
    if k.fx * scale = 0 ∨ Real.sin disparity_rad = 0 then none
    else some (baseline * Real.cos (az0 - disparity_rad) / Real.sin disparity_rad)
  else
    let tanaz0 := (q.x - k.cx) / k.fx
    let tanel := (q.y - k.cy) / k.fy
    let s_sq_recip := tanel * tanel + 1
    let tanaz0_tanaz1 := d / (k.fx * scale)
    let tanaz1 := tanaz0 - tanaz0_tanaz1
    if k.fx * scale = 0 ∨ k.fy = 0 ∨ tanaz0_tanaz1 = 0 then some 0
    else some (baseline / Real.sqrt (s_sq_recip + tanaz0 * tanaz0) * ((s_sq_recip + tanaz0 * tanaz1) / tanaz0_tanaz1 + tanaz0))

open Classical in
/-- one value: the mask stereo.py:1391-1400 (`x` is what is compared to the bounds), and stereo.py:1447 -/
noncomputable def refMasked (m0 : RectCam) (baseline scale lo hi x d : ℝ) (q : P2) : Option ℝ :=
  if x < lo ∨ x > hi ∨ d ≤ 0 then some 0 else refOne m0 baseline scale d q

open Classical in
/-- `_stereo_range_python()` stereo.py:1311-1451. Unlike `stereoRange` there's no treatment of the 16-bit signed disparities, no conversion to integers, no check that the upper bound is above the lower one -/
noncomputable def stereoRangeRef (m0 m1 : RectCam) (disparity : Disp) (a : Args) : Option RefOut :=
  if ¬ validate m0 m1 then none
  else if twice a.dmin a.smin then none
  else if twice a.dmax a.smax then none
  else
    let b := baselineOf m0 m1
    match a.qrect0 with
    | none =>
      let lo := scaledBound a.scale a.smin a.dmin 0
      let hi := scaledBound a.scale a.smax a.dmax 65535
      (shapeOk m0 disparity).map fun d => RefOut.image ⟨d.width, d.height, fun x y => refMasked m0 b a.scale lo hi (d.px x y) (d.px x y) ⟨(x : ℝ), (y : ℝ)⟩⟩
    | some (Nq, q) =>
      let lo := pixelBound a.scale a.smin a.dmin 0
      let hi := pixelBound a.scale a.smax a.dmax dblMax
      match disparity with
      | .scalar d => if 1 ≠ Nq then none else some (RefOut.scalar (refMasked m0 b a.scale lo hi (d / a.scale) d (q 0)))
      | .vec _ N d => if N ≠ Nq then none else some (RefOut.vec N fun i => refMasked m0 b a.scale lo hi (d i / a.scale) (d i) (q i))
      | .image _ _ => none

/-! ### the points -/

/-- `mrcal.unproject()` of a pixel of the rectified camera: stereo.py:1602. `pyStereoUnproject` does the normalisation -/
noncomputable def rectUnproject (m0 : RectCam) (q : P2) : P3 :=
  if m0.type = .latlon then (unlatlon m0.k q).v else (unpinhole m0.k q).v

/-- the points that are returned -/
inductive Points
  | scalar (p : P3)
  | vec (N : Nat) (p : Nat → P3)
  | image (p : Image P3)

/-- stereo.py:1591-1607. The shapes of the ranges and of the pixels have to match. Without given pixels these have to be a whole image -/
noncomputable def pointsOf (m0 : RectCam) (ranges : Out) (qrect0 : Option (Nat × (Nat → P2))) : Option Points :=
  match qrect0, ranges with
  | none, .image r =>
    if r.width = m0.W ∧ r.height = m0.H then some (.image ⟨r.width, r.height, fun x y => pyStereoUnproject (rectUnproject m0 ⟨(x : ℝ), (y : ℝ)⟩) (r.px x y)⟩) else none
  | none, _ => none
  | some (Nq, q), .scalar r => if 1 ≠ Nq then none else some (.scalar (pyStereoUnproject (rectUnproject m0 (q 0)) r))
  | some (Nq, q), .vec N r => if N ≠ Nq then none else some (.vec N fun i => pyStereoUnproject (rectUnproject m0 (q i)) (r i))
  | some _, .image _ => none

/-- `mrcal.stereo_unproject()` stereo.py:1453-1607 -/
noncomputable def stereoUnproject (over : Int → Option Nat) (m0 m1 : RectCam) (disparity : Option Disp) (ranges : Option Out) (scale : ℝ) (qrect0 : Option (Nat × (Nat → P2))) : Option Points :=
  match disparity, ranges with
  | none, none => none
  | some _, some _ => none
  | none, some r => pointsOf m0 r qrect0
  | some d, none =>
    match stereoRange over m0 m1 d { scale := scale, qrect0 := qrect0 } with
    | none => none
    | some r => pointsOf m0 r qrect0

end Mrcal.StereoPy

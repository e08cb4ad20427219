import Verif.Model.ProjectApi
import Verif.Model.Pose
/-
Transforming images: mrcal/image_transforms.py. Arithmetic is exact: `double` and `float` are ℝ; NaN is `none`. The poses are Rt transformations. `cv2.remap()`, which
`transform_image()` calls, isn't modelled. `cv2.initUndistortRectifyMap()` is modelled from its documentation.
-/
namespace Mrcal.ImageTransform
open Mrcal.Cam Mrcal.Pose

/-- what these functions use of a `cameramodel`. `pose` is Rt_cam_ref(). `region` is the test of a pixel against the valid-intrinsics region: `matplotlib.path.Path.contains_points()`; `none`: no
region is defined -/
structure Model where
  lens : Lens
  intr : Int → ℝ
  pose : Rt
  W : Nat
  H : Nat
  region : Option (P2 → Bool)

/-- the lens models whose name starts with "LENSMODEL_OPENCV" -/
def isOpenCV : Lens → Bool
  | .opencv4 | .opencv5 | .opencv8 | .opencv12 => true
  | _ => false

/-- `has_core`: all the lens models have one -/
def hasCore (_ : Lens) : Bool := true

/-- `mrcal.unproject()` of one pixel. `none`: the call fails, and raises an exception (that's so for each pixel or for none); `some none`: NaN -/
noncomputable def unproject1 (m : Model) (solve : Solver) (q : P2) : Option (Option P3) :=
  match mrcalUnproject m.lens m.intr solve 1 (fun _ => q) (fun _ => ⟨none, none, none⟩) with
  | some (some out) =>
    match (out 0).x, (out 0).y, (out 0).z with
    | some x, some y, some z => some (some ⟨x, y, z⟩)
    | _, _, _ => some none
  | _ => none

/-- `mrcal.project()` of one point -/
noncomputable def project1 (m : Model) (v : P3) : P2 := (hypothesis m.lens m.intr v).q

/-- the determinant -/
def det3 (M : M3) : ℝ :=
  M.a00 * (M.a11 * M.a22 - M.a12 * M.a21) - M.a01 * (M.a10 * M.a22 - M.a12 * M.a20) + M.a02 * (M.a10 * M.a21 - M.a11 * M.a20)

open Classical in
/-- `np.linalg.inv()`. `none`: `LinAlgError`, the matrix is singular -/
noncomputable def inv3 (M : M3) : Option M3 :=
  let d := det3 M
  if d = 0 then none else
    some { a00 := (M.a11 * M.a22 - M.a12 * M.a21) / d, a01 := (M.a02 * M.a21 - M.a01 * M.a22) / d, a02 := (M.a01 * M.a12 - M.a02 * M.a11) / d
           a10 := (M.a12 * M.a20 - M.a10 * M.a22) / d, a11 := (M.a00 * M.a22 - M.a02 * M.a20) / d, a12 := (M.a02 * M.a10 - M.a00 * M.a12) / d
           a20 := (M.a10 * M.a21 - M.a11 * M.a20) / d, a21 := (M.a01 * M.a20 - M.a00 * M.a21) / d, a22 := (M.a00 * M.a11 - M.a01 * M.a10) / d }

/-- the optional arguments of `image_transformation_map()` -/
structure Args where
  intrinsicsOnly : Bool
  distance : Option ℝ
  planeN : Option P3
  planeD : Option ℝ
  mask : Bool

/-- the checks at image_transforms.py:390-400 -/
def argsOk (a : Args) : Bool :=
  !((a.planeN.isNone && a.planeD.isSome) || (a.planeN.isSome && a.planeD.isNone)) && !(a.planeN.isSome && a.intrinsicsOnly) &&
  !(a.distance.isSome && (a.planeN.isSome || a.intrinsicsOnly))

/-- `Rt_to_from` image_transforms.py:402-406. `Rt_ref_cam()` is the inverse of `Rt_cam_ref()` -/
def RtToFrom (src dst : Model) : Rt := composeRt dst.pose (invertRt src.pose) false false

/-- the array of the results: `mapxy[y,x]`. The grid is `np.meshgrid(np.arange(W_to), np.arange(H_to))` -/
noncomputable def overGrid (W H : Nat) (f : P2 → Option P2) : List (List (Option P2)) :=
  (List.range H).map fun (y : Nat) => (List.range W).map fun (x : Nat) => f ⟨(x : ℝ), (y : ℝ)⟩

/-- `cv2.initUndistortRectifyMap(K, distortion, R, K_to, ...)` at one pixel, as documented: (x,y) = ((u-cx')/fx', (v-cy')/fy'); [X Y W] = R^-1 [x y 1]; then (X/W, Y/W) is distorted and scaled with K.
This is the OpenCV projection of (X,Y,W) -/
noncomputable def cvMap (src dst : Model) (Rinv : M3) (q : P2) : P2 :=
  ocvQ (coreOf src.intr) (padK (src.lens.numParams.toNat - 4) (nocoreOf src.intr))
    (Pose.mulVec Rinv ⟨(q.x - dst.intr 2) / dst.intr 0, (q.y - dst.intr 3) / dst.intr 1, 1⟩)

open Classical in
/-- the matrix passed to OpenCV, image_transforms.py:443-448, inverted. No rotation is passed if `intrinsics_only`, or if the trace is large enough -/
noncomputable def cvRotation (src dst : Model) (a : Args) : Option M3 :=
  let R := (RtToFrom src dst).R
  if a.intrinsicsOnly then some identityR
  else if R.a00 + R.a11 + R.a22 > 3 - 1e-12 then some identityR
  else inv3 R

/-- the vector in the coordinates of the FROM camera: image_transforms.py:467-489. `none`: `LinAlgError` -/
noncomputable def toFrom (src dst : Model) (a : Args) : Option (P3 → P3) :=
  let T := RtToFrom src dst
  match a.planeN, a.planeD with
  | some n, some d =>
    let A : M3 :=
      { a00 := d * T.R.a00 + T.t.x * n.x, a01 := d * T.R.a01 + T.t.x * n.y, a02 := d * T.R.a02 + T.t.x * n.z
        a10 := d * T.R.a10 + T.t.y * n.x, a11 := d * T.R.a11 + T.t.y * n.y, a12 := d * T.R.a12 + T.t.y * n.z
        a20 := d * T.R.a20 + T.t.z * n.x, a21 := d * T.R.a21 + T.t.z * n.y, a22 := d * T.R.a22 + T.t.z * n.z }
    (inv3 A).map fun Ainv => fun v => Pose.mulVec Ainv v
  | _, _ =>
    if a.intrinsicsOnly then some fun v => v
    else match a.distance with
      | some dist => some fun v =>
        let m := Real.sqrt (v.x * v.x + v.y * v.y + v.z * v.z)
        transformPointRt (invertRt T) ⟨v.x / m * dist, v.y / m * dist, v.z / m * dist⟩ false
      | none => some fun v => vecMul v T.R

/-- `mapxy[ ~is_inside, :] = -1` image_transforms.py:493-501. A NaN isn't inside -/
noncomputable def applyMask (inside : P2 → Bool) : Option P2 → Option P2
  | some q => if inside q then some q else some ⟨-1, -1⟩
  | none => some ⟨-1, -1⟩

/-- the general path of `image_transformation_map()`: image_transforms.py:457-504. `none`: an exception -/
noncomputable def general (solve : Solver) (src dst : Model) (a : Args) : Option (List (List (Option P2))) :=
  if (unproject1 dst solve ⟨0, 0⟩).isNone then none
  else (toFrom src dst a).bind fun f =>
    let at1 (q : P2) : Option P2 := ((unproject1 dst solve q).getD none).map fun v => project1 src (f v)
    if a.mask then
      src.region.bind fun inside => some (overGrid dst.W dst.H fun q => applyMask inside (at1 q))
    else some (overGrid dst.W dst.H at1)

/-- is the special case for OpenCV models used: image_transforms.py:411-415 -/
def useOpenCV (src dst : Model) (a : Args) : Bool :=
  isOpenCV src.lens && decide (dst.lens = .pinhole) && a.planeN.isNone && !a.mask && a.distance.isNone

/-- `image_transformation_map()` image_transforms.py:276-504. `none`: an exception -/
noncomputable def imageMap (solve : Solver) (src dst : Model) (a : Args) : Option (List (List (Option P2))) :=
  if !argsOk a then none
  else if useOpenCV src dst a then
    (cvRotation src dst a).map fun Rinv => overGrid dst.W dst.H fun q => some (cvMap src dst Rinv q)
  else general solve src dst a

/-! ### pinhole models -/

/-- a `double`: finite, or -inf, +inf, NaN. A zero has no sign: it's +0 -/
inductive Dbl where
  | fin (x : ℝ)
  | pinf
  | ninf
  | nan

open Classical in
/-- `a/b` -/
noncomputable def Dbl.div (a b : ℝ) : Dbl :=
  if b ≠ 0 then .fin (a / b) else if a = 0 then .nan else if 0 < a then .pinf else .ninf

open Classical in
/-- `np.min((a,b))`: NaN if either is NaN -/
noncomputable def Dbl.min : Dbl → Dbl → Dbl
  | .nan, _ => .nan
  | _, .nan => .nan
  | .ninf, _ => .ninf
  | _, .ninf => .ninf
  | .pinf, b => b
  | a, .pinf => a
  | .fin a, .fin b => .fin (if a ≤ b then a else b)

/-- which points should be visible: the `fit` argument -/
inductive Fit where
  | points (q : List P2)
  | corners
  | centersHorizontal
  | centersVertical

/-- `q_edges` image_transforms.py:91-112 -/
noncomputable def edges (m : Model) : Fit → List P2
  | .points q => q
  | .corners => [⟨0, 0⟩, ⟨0, (m.H : ℝ) - 1⟩, ⟨(m.W : ℝ) - 1, (m.H : ℝ) - 1⟩, ⟨(m.W : ℝ) - 1, 0⟩]
  | .centersHorizontal => [⟨0, ((m.H : ℝ) - 1) / 2⟩, ⟨(m.W : ℝ) - 1, ((m.H : ℝ) - 1) / 2⟩]
  | .centersVertical => [⟨((m.W : ℝ) - 1) / 2, 0⟩, ⟨((m.W : ℝ) - 1) / 2, (m.H : ℝ) - 1⟩]

open Classical in
/-- the body of the inner loop: image_transforms.py:144-146 -/
noncomputable def scaleStep (lo hi : ℝ) (scale : Dbl) (p : ℝ) : Dbl :=
  if p > 0 then scale.min (Dbl.div hi p) else scale.min (Dbl.div lo p)

/-- `scale_focal__best_pinhole_fit()` image_transforms.py:89-147, given the unprojected vectors. Simplified: these are finite, and z isn't 0 -/
noncomputable def scaleOfRays (m : Model) (v : List P3) : Dbl :=
  let lox := (-m.intr 2) / m.intr 0
  let loy := (-m.intr 3) / m.intr 1
  let hix := ((m.W : ℝ) - 1 - m.intr 2) / m.intr 0
  let hiy := ((m.H : ℝ) - 1 - m.intr 3) / m.intr 1
  v.foldl (fun s p => scaleStep loy hiy (scaleStep lox hix s (p.x / p.z)) (p.y / p.z)) (.fin 1e6)

/-- `scale_focal__best_pinhole_fit()` image_transforms.py:89-147. `none`: an exception; or an unprojected vector that's NaN or has z=0, which isn't modelled -/
noncomputable def scaleFocal (solve : Solver) (m : Model) (fit : Option Fit) : Option Dbl :=
  match fit with
  | none => some (.fin 1)
  | some f =>
    ((edges m f).mapM fun q => match unproject1 m solve q with
      | some (some v) => if v.z = 0 then none else some v
      | _ => none).bind fun v => if hasCore m.lens then some (scaleOfRays m v) else none

/-- Python's `round()` of k*n: the nearest integer, a half is rounded to even -/
noncomputable def pyRound (x : ℝ) : Int :=
  let f := ⌊x⌋
  let r := x - f
  if r < 1 / 2 then f else if 1 / 2 < r then f + 1 else if f % 2 = 0 then f else f + 1

/-- the imager size and the intrinsics of the resulting model. `none`: NaN or infinity -/
structure Pinhole where
  fx : Option ℝ
  fy : Option ℝ
  cx : Option ℝ
  cy : Option ℝ
  pose : Rt
  W : Int
  H : Int

def Dbl.finite : Dbl → Option ℝ
  | .fin x => some x
  | _ => none

/-- `a * (b / c)`, where the quotient may not be finite: infinity times 0 is NaN, times anything else is infinity -/
noncomputable def mulDiv (a b c : ℝ) : Option ℝ := (Dbl.div b c).finite.map fun k => a * k

/-- `pinhole_model_for_reprojection()` image_transforms.py:205-273. `none`: an exception -/
noncomputable def pinholeModel (solve : Solver) (m : Model) (fit : Option Fit) (scaleFocalArg scaleImage : Option ℝ) : Option Pinhole :=
  let sf : Option Dbl :=
    match scaleFocalArg with
    | none => scaleFocal solve m fit
    | some s => if fit.isSome then none else some (.fin s)
  sf.bind fun s =>
    if !hasCore m.lens then none else
      let fx := s.finite.map fun s => m.intr 0 * s
      let fy := s.finite.map fun s => m.intr 1 * s
      match scaleImage with
      | none => some ⟨fx, fy, some (m.intr 2), some (m.intr 3), m.pose, m.W, m.H⟩
      | some k => some
        ⟨fx.map (· * k), fy.map (· * k), mulDiv (m.intr 2) (k + 2 * m.intr 2 * k - 1) (2 * m.intr 2), mulDiv (m.intr 3) (k + 2 * m.intr 3 * k - 1) (2 * m.intr 3), m.pose,
         pyRound ((m.W : ℝ) * k), pyRound ((m.H : ℝ) * k)⟩

end Mrcal.ImageTransform

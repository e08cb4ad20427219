import Verif.Model.Callback
/-
Packing/unpacking of the solver state: mrcal.c:3308-3735, and the python wrapper around it.
-/
namespace Mrcal.Pack
open Mrcal Mrcal.Callback

/-- A C array of `double`, by element index. Only the elements the code touches matter. -/
abbrev Mem := Int → ℝ

/-- `m[i] = v` -/
noncomputable def put {α} [DecidableEq α] (m : α → ℝ) (i : α) (v : ℝ) : α → ℝ := fun j => if j = i then v else m j

/-- `b[i_state++] /= S`. The pair is (b, i_state). -/
noncomputable def divNext (S : ℝ) (s : Mem × Int) : Mem × Int := (put s.1 s.2 (s.1 s.2 / S), s.2 + 1)

/-- `b[i_state++] *= S` -/
noncomputable def mulNext (S : ℝ) (s : Mem × Int) : Mem × Int := (put s.1 s.2 (s.1 s.2 * S), s.2 + 1)

/-- `b[i_state++] = p[k] / S` with `p = &b[base]` -/
noncomputable def divFrom (src : Int) (S : ℝ) (s : Mem × Int) : Mem × Int := (put s.1 s.2 (s.1 src / S), s.2 + 1)

/-! ### mrcal_pack_solver_state_vector -/

/-- `pack_solver_state_intrinsics_subset_to_subset` mrcal.c:3341-3376 -/
noncomputable def packIntrinsicsSubset (d : Dims) (s : Mem × Int) : Mem × Int :=
  if !d.sel.core && !d.sel.distortions then s
  else
    let Ndist := d.lens.numParams - Ncore d.lens
    (loop d.Nci).foldl (fun s _ =>
      let s := if d.sel.core && d.lens.hasCore then
          divNext scaleCenter (divNext scaleCenter (divNext scaleFocal (divNext scaleFocal s))) else s
      if d.sel.distortions then (loop Ndist).foldl (fun s _ => divNext scaleDistortion s) s else s) s

/-- The body of the camera loop mrcal.c:3457-3469 and frame loop 3473-3484: one pose, `p = &b[i_state]` -/
noncomputable def packPose (SR ST : ℝ) (s : Mem × Int) : Mem × Int :=
  let p := s.2
  let s := divFrom (p + 0) SR s
  let s := divFrom (p + 1) SR s
  let s := divFrom (p + 2) SR s
  let s := divFrom (p + 3) ST s
  let s := divFrom (p + 4) ST s
  divFrom (p + 5) ST s

/-- one point, mrcal.c:3486-3492 -/
noncomputable def packPoint (s : Mem × Int) : Mem × Int :=
  let p := s.2
  let s := divFrom (p + 0) scalePoint s
  let s := divFrom (p + 1) scalePoint s
  divFrom (p + 2) scalePoint s

/-- `mrcal_pack_solver_state_vector` mrcal.c:3435-3506. Returns the final `i_state` too. -/
noncomputable def packVector (d : Dims) (b : Mem) : Mem × Int :=
  let NpointsVariable := d.Npoints - d.NpointsFixed
  let s := packIntrinsicsSubset d (b, 0)
  let s := if d.sel.extrinsics then
      (loop d.Nce).foldl (fun s _ => packPose scaleRotCamera scaleTransCamera s) s else s
  let s := if d.sel.frames then
      let s := (loop d.Nframes).foldl (fun s _ => packPose scaleRotFrame scaleTransFrame s) s
      (loop NpointsVariable).foldl (fun s _ => packPoint s) s
    else s
  if hasCalobjectWarp d.sel d.Nob then
    let p := s.2
    divFrom (p + 1) scaleWarp (divFrom (p + 0) scaleWarp s)
  else s

/-! ### mrcal_unpack_solver_state_vector -/

/-- `unpack_solver_state_intrinsics_subset_to_subset` mrcal.c:3552-3584 -/
noncomputable def unpackIntrinsicsSubset (d : Dims) (s : Mem × Int) : Mem × Int :=
  if !d.sel.core && !d.sel.distortions then s
  else
    let Ndist := d.lens.numParams - Ncore d.lens
    (loop d.Nci).foldl (fun s _ =>
      let s := if d.sel.core && d.lens.hasCore then
          mulNext scaleCenter (mulNext scaleCenter (mulNext scaleFocal (mulNext scaleFocal s))) else s
      if d.sel.distortions then (loop Ndist).foldl (fun s _ => mulNext scaleDistortion s) s else s) s

/-- `dst[k] = b[i_state + k] * S` for consecutive k, where `dst` points into `b` too:
`unpack_solver_state_{extrinsics,framert,point}_one`, `unpack_solver_state_calobject_warp` (mrcal.c:3586-3644)
as called from the vector version. `Ss`: the scales. -/
noncomputable def unpackInPlace (dst : Int) (Ss : List ℝ) (s : Mem × Int) : Mem × Int :=
  let r := Ss.foldl (fun (t : Mem × Int) S => (put t.1 (dst + t.2) (t.1 (s.2 + t.2) * S), t.2 + 1)) (s.1, 0)
  (r.1, s.2 + r.2)

/-- the scales in `unpack_solver_state_extrinsics_one` mrcal.c:3586-3601 -/
noncomputable def poseScalesCamera : List ℝ :=
  [scaleRotCamera, scaleRotCamera, scaleRotCamera, scaleTransCamera, scaleTransCamera, scaleTransCamera]
/-- the scales in `unpack_solver_state_framert_one` mrcal.c:3603-3619 -/
noncomputable def poseScalesFrame : List ℝ :=
  [scaleRotFrame, scaleRotFrame, scaleRotFrame, scaleTransFrame, scaleTransFrame, scaleTransFrame]
/-- the scales in `unpack_solver_state_point_one` mrcal.c:3621-3632 -/
noncomputable def pointScales : List ℝ := [scalePoint, scalePoint, scalePoint]
/-- the scales in `unpack_solver_state_calobject_warp` mrcal.c:3634-3644 -/
noncomputable def warpScales : List ℝ := [scaleWarp, scaleWarp]

/-- `mrcal_unpack_solver_state_vector` mrcal.c:3690-3735. `sizeof(pose)` is 6 doubles, `sizeof(point)` 3. -/
noncomputable def unpackVector (d : Dims) (b : Mem) : Mem × Int :=
  let NpointsVariable := d.Npoints - d.NpointsFixed
  let s := unpackIntrinsicsSubset d (b, 0)
  let s := if d.sel.extrinsics then
      let rtCamRef := s.2
      (loop d.Nce).foldl (fun s icam => unpackInPlace (rtCamRef + 6 * icam) poseScalesCamera s) s else s
  let s := if d.sel.frames then
      let rtRefFrame := s.2
      let s := (loop d.Nframes).foldl (fun s iframe => unpackInPlace (rtRefFrame + 6 * iframe) poseScalesFrame s) s
      let points := s.2
      (loop NpointsVariable).foldl (fun s i => unpackInPlace (points + 3 * i) pointScales s) s
    else s
  if hasCalobjectWarp d.sel d.Nob then unpackInPlace s.2 warpScales s else s

/-! ### pack_solver_state / unpack_solver_state: to and from the separate arrays -/

/-- An element of one of the parameter arrays: `intrinsics` (flat), `rt_cam_ref[i]`, `rt_ref_frame[i]`
(elements r0 r1 r2 t0 t1 t2), `points[i]`, `calobject_warp`. -/
inductive Addr
  | intr (i : Int)
  | cam (i k : Int)
  | frame (i k : Int)
  | point (i k : Int)
  | warp (k : Int)
  deriving DecidableEq

/-- contents of all the parameter arrays -/
abbrev Params := Addr → ℝ

/-- `b[i_state++] = v / S` -/
noncomputable def packNext (v S : ℝ) (s : Mem × Int) : Mem × Int := (put s.1 s.2 (v / S), s.2 + 1)

/-- a sequence of `b[i_state++] = *a / S` -/
noncomputable def packSeq (P : Params) (l : List (Addr × ℝ)) (s : Mem × Int) : Mem × Int :=
  l.foldl (fun s a => packNext (P a.1) a.2 s) s

/-- `pack_solver_state_intrinsics` mrcal.c:3308-3340. `intrinsics` is advanced by `Nintrinsics` for each
camera: the third element of the loop state. -/
noncomputable def packIntrinsics (d : Dims) (P : Params) (s : Mem × Int) : Mem × Int :=
  let Nintrinsics := d.lens.numParams
  let core := Ncore d.lens
  let Ndist := Nintrinsics - core
  let r := (loop d.Nci).foldl (fun (t : (Mem × Int) × Int) _ =>
    let ptr := t.2
    let s := t.1
    let s := if d.sel.core && decide (core ≠ 0) then
        packSeq P [(.intr (ptr + 0), scaleFocal), (.intr (ptr + 1), scaleFocal),
          (.intr (ptr + 2), scaleCenter), (.intr (ptr + 3), scaleCenter)] s else s
    let s := if d.sel.distortions then
        (loop Ndist).foldl (fun s i => packNext (P (.intr (ptr + core + i))) scaleDistortion s) s else s
    (s, ptr + Nintrinsics)) (s, 0)
  r.1

/-- `pack_solver_state` mrcal.c:3377-3432; the final cursor is what the `assert` at 3431 tests. -/
noncomputable def packState (d : Dims) (P : Params) (b : Mem) : Mem × Int :=
  let NpointsVariable := d.Npoints - d.NpointsFixed
  let s := packIntrinsics d P (b, 0)
  let s := if d.sel.extrinsics then
      (loop d.Nce).foldl (fun s i => packSeq P
        [(.cam i 0, scaleRotCamera), (.cam i 1, scaleRotCamera), (.cam i 2, scaleRotCamera),
         (.cam i 3, scaleTransCamera), (.cam i 4, scaleTransCamera), (.cam i 5, scaleTransCamera)] s) s else s
  let s := if d.sel.frames then
      let s := (loop d.Nframes).foldl (fun s i => packSeq P
        [(.frame i 0, scaleRotFrame), (.frame i 1, scaleRotFrame), (.frame i 2, scaleRotFrame),
         (.frame i 3, scaleTransFrame), (.frame i 4, scaleTransFrame), (.frame i 5, scaleTransFrame)] s) s
      (loop NpointsVariable).foldl (fun s i => packSeq P
        [(.point i 0, scalePoint), (.point i 1, scalePoint), (.point i 2, scalePoint)] s) s
    else s
  if hasCalobjectWarp d.sel d.Nob then packSeq P [(.warp 0, scaleWarp), (.warp 1, scaleWarp)] s else s

/-- `*a = b[i_state++] * S`. The state is (parameter arrays, i_state). -/
noncomputable def unpackNext (b : Mem) (a : Addr) (S : ℝ) (s : Params × Int) : Params × Int :=
  (put s.1 a (b s.2 * S), s.2 + 1)

/-- a sequence of these -/
noncomputable def unpackSeq (b : Mem) (l : List (Addr × ℝ)) (s : Params × Int) : Params × Int :=
  l.foldl (fun s a => unpackNext b a.1 a.2 s) s

/-- `unpack_solver_state_intrinsics` mrcal.c:3508-3547 -/
noncomputable def unpackIntrinsics (d : Dims) (b : Mem) (stride : Int) (s : Params × Int) : Params × Int :=
  if !d.sel.core && !d.sel.distortions then s
  else
    let Nintrinsics := d.lens.numParams
    let core := Ncore d.lens
    (loop d.Nci).foldl (fun s icam =>
      let s := if d.sel.core && decide (core ≠ 0) then
          unpackSeq b [(.intr (icam * stride + 0), scaleFocal), (.intr (icam * stride + 1), scaleFocal),
            (.intr (icam * stride + 2), scaleCenter), (.intr (icam * stride + 3), scaleCenter)] s else s
      if d.sel.distortions then
        (loop (Nintrinsics - core)).foldl
          (fun s i => unpackNext b (.intr (icam * stride + core + i)) scaleDistortion s) s else s) s

/-- `unpack_solver_state` mrcal.c:3647-3688 -/
noncomputable def unpackState (d : Dims) (b : Mem) (P : Params) : Params × Int :=
  let NpointsVariable := d.Npoints - d.NpointsFixed
  let s := unpackIntrinsics d b d.lens.numParams (P, 0)
  let s := if d.sel.extrinsics then
      (loop d.Nce).foldl (fun s i => unpackSeq b
        [(.cam i 0, scaleRotCamera), (.cam i 1, scaleRotCamera), (.cam i 2, scaleRotCamera),
         (.cam i 3, scaleTransCamera), (.cam i 4, scaleTransCamera), (.cam i 5, scaleTransCamera)] s) s else s
  let s := if d.sel.frames then
      let s := (loop d.Nframes).foldl (fun s i => unpackSeq b
        [(.frame i 0, scaleRotFrame), (.frame i 1, scaleRotFrame), (.frame i 2, scaleRotFrame),
         (.frame i 3, scaleTransFrame), (.frame i 4, scaleTransFrame), (.frame i 5, scaleTransFrame)] s) s
      (loop NpointsVariable).foldl (fun s i => unpackSeq b
        [(.point i 0, scalePoint), (.point i 1, scalePoint), (.point i 2, scalePoint)] s) s
    else s
  if hasCalobjectWarp d.sel d.Nob then unpackSeq b [(.warp 0, scaleWarp), (.warp 1, scaleWarp)] s else s

/-! ### The python wrapper -/

/-- The loop in `_pack_unpack_state` mrcal-pywrap.c:3555-3573, on the flat contents of the given array
(`size` elements, last dimension `lastDim`). `none`: error, or the division by zero that happens for
`Nstate == 0`. `x` advances by `Nstate`. -/
noncomputable def packUnpackArray (pack : Bool) (d : Dims) (size lastDim : Nat) (x : Mem) : Option Mem :=
  let Nstate := numStates d
  if (lastDim : Int) ≠ Nstate then none
  else if Nstate = 0 then none
  else
    let n := Int.tdiv size Nstate
    some ((loop n).foldl (fun x i =>
      let ptr := i * Nstate
      let b : Mem := fun j => x (ptr + j)
      let b' := if pack then (packVector d b).1 else (unpackVector d b).1
      fun j => b' (j - ptr)) x)

end Mrcal.Pack

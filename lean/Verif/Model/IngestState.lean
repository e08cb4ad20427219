import Verif.Model.IndexApi
import Verif.Model.Pack
/-
ingest_packed_state(): mrcal/utils.py:1103-1210
-/
namespace Mrcal.IngestState
open Mrcal Mrcal.Kwargs Mrcal.Callback Mrcal.IndexApi Mrcal.Pack

/-- The elements that a python slice `lo:hi` of something of length `n` selects -/
def slice (n : Int) (lo hi : Option Int) : List Int :=
  let norm (x : Int) : Int := if x < 0 then max (x + n) 0 else min x n
  let lo := match lo with
    | none => 0
    | some x => norm x
  let hi := match hi with
    | none => n
    | some x => norm x
  (loop (hi - lo)).map (lo + ·)

/-- `dst[:] = src` in numpy, both being 1-dimensional: the lengths must match, or `src` must have one element. `none`: an exception -/
noncomputable def assign (P : Params) (dst : List Addr) (src : List ℝ) : Option Params :=
  if dst.length = src.length then some ((dst.zip src).foldl (fun P x => put P x.1 x.2) P)
  else match src with
    | [x] => some (dst.foldl (fun P a => put P a x) P)
    | _ => none

/-- `.ravel()`: the elements of a (rows,width) array, in order -/
def ravel (rows width : Int) (at_ : Int → Int → Addr) : List Addr := (loop (rows * width)).map fun j => at_ (j / width) (j % width)

/-- what a function that returned an integer or None returned. `none`: an exception. What an invalid read does isn't known, and none of the functions called here make one -/
def got : Ret → Option (Option Int)
  | .value n => some (some n)
  | .none => some Option.none
  | .error => Option.none
  | .invalidRead => Option.none

/-- an integer that is used in arithmetic: None is an exception -/
def number (r : Ret) : Option Int := (got r).bind id

/-- what `unpack_state()` and the lens model functions determine from the arguments: mrcal-pywrap.c:3420-3560 -/
def dimsOf {α : Type} (a : Inputs α) : Option Dims := do
  let name ← a.lensmodel
  let lens ← match Name.fromName (some name) with
    | .ok m => some m
    | _ => Option.none
  let p ← problem a lens
  pure p.d

/-- `intrinsics[:, i0:i1].ravel()[:] = b[ ivar0:Nvars_intrinsics ]` utils.py:1169-1189. ravel() makes a view only if the elements are contiguous: if all the columns were selected, or if there is at most one row (or nothing).
Otherwise it makes a copy, and then the copy is assigned to -/
noncomputable def ingestIntrinsics (d : Dims) (f : Flags) (N : Int) (n : Int) (b : Mem) (ivar0 : Int) (P : Params) : Option Params :=
  let core : Int := Ncore d.lens
  let Ndistortions := d.lens.numParams - core
  let i0 : Option Int := if f.core.getD true then none else some core
  let i1 : Option Int := if f.distortions.getD true then none else some (-Ndistortions)
  let cols := slice d.lens.numParams i0 i1
  let w : Int := cols.length
  let dst := ravel d.Nci w fun i k => .intr (i * d.lens.numParams + cols.getD k.toNat 0)
  (assign P dst ((slice n (some ivar0) (some N)).map b)).map fun P' =>
    if d.Nci ≤ 1 ∨ w = d.lens.numParams ∨ w = 0 then P' else P

/-- the intrinsics: utils.py:1169-1189. `given`: is the array there -/
noncomputable def ingestIntrinsicsKind (index : Ret) (d : Dims) (f : Flags) (N : Int) (n : Int) (b : Mem) (given : Bool) (P : Params) : Option Params := do
  match ← got index with
  | none => pure P
  | some ivar0 => if given then ingestIntrinsics d f N n b ivar0 P else none

/-- Each of the other kinds: utils.py:1191-1210. `arr`: the elements to write, `none` if the array isn't there (None has no ravel()); all the arrays are contiguous (CHECK_LAYOUT in the functions called before) -/
noncomputable def ingestKind (index : Ret) (N : Int) (n : Int) (b : Mem) (arr : Option (List Addr)) (P : Params) : Option Params := do
  match ← got index with
  | none => pure P
  | some ivar0 =>
    let dst ← arr
    assign P dst ((slice n (some ivar0) (some (ivar0 + N))).map b)

/-- `ingest_packed_state()` utils.py:1103-1210. `b_packed` has shape (n,). Returns the contents of all the arrays, updated in place. `none`: an exception; the arrays may then have been partly written -/
noncomputable def ingestPackedState {α : Type} (a : Inputs α) (unused : Lens) (n : Nat) (bPacked : Mem) (P : Params) : Option Params := do
  let Ni ← number (call a unused .num_states_intrinsics)
  let Ne ← number (call a unused .num_states_extrinsics)
  let Nf ← number (call a unused .num_states_frames)
  let Np ← number (call a unused .num_states_points)
  let Nw ← number (call a unused .num_states_calobject_warp)
  if (n : Int) ≠ Ni + Ne + Nf + Np + Nw then Option.none
  else
    let d ← dimsOf a
    let b ← packUnpackArray false d n n bPacked
    let P ← ingestIntrinsicsKind (call a unused (.state_index_intrinsics 0)) d a.flags Ni n b a.intrinsics.get.isSome P
    let P ← ingestKind (call a unused (.state_index_extrinsics 0)) Ne n b (a.rt_cam_ref.get.map fun l => ravel l.length 6 .cam) P
    let P ← ingestKind (call a unused (.state_index_frames 0)) Nf n b (a.rt_ref_frame.get.map fun l => ravel l.length 6 .frame) P
    let P ← ingestKind (call a unused (.state_index_points 0)) Np n b
      (a.points.get.map fun l => (slice (l.length * 3) Option.none (some (-a.Npoints_fixed * 3))).map fun j => .point (j / 3) (j % 3)) P
    ingestKind (call a unused .state_index_calobject_warp) Nw n b (if a.warpGiven then some (ravel 1 2 fun _ k => .warp k) else Option.none) P

end Mrcal.IngestState

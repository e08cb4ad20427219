import Verif.Model.Measurements
import Verif.Model.Scales
import Verif.Model.Rodrigues
/-
uncertainty.c: `_mrcal_drt_cross_reprojection__dbpacked()` and everything it calls, with its only caller
(mrcal-pywrap.c:2015-2110).

The caller passes one (6,Nstate) array K full of zeros. Each of Kpackede, Kpackedf, Kpackedp, Kpackedcw is a
pointer to the column of K where that block of the state begins, or NULL if that block isn't being optimized. So
here K is one array, addressed by the full state index: Kpackede[row*stride + s - state_index_extrinsics0] is `K row s`.
Simplified away: the strides (INIT_ARRAY, uncertainty.c:981-1015: the caller's array is contiguous), and the
zeroing done there (the caller's array is zero already).
-/
namespace Mrcal.Uncertainty
open Mrcal Pose

/-- a C array of numbers -/
abbrev Arr := Nat → ℝ

/-- `index_sym33` minimath-extra.h:14-24 and `index_sym66` minimath-extra.h:34-45. The `_assume_upper` flavors (25-31, 46-52)
are the i≤j branch -/
def indexSym (N i j : Nat) : Nat :=
  if i ≤ j then (N * 2 - i - 1) * i / 2 + j else (N * 2 - j - 1) * j / 2 + i

/-- a (3,3) row-major array -/
def flat (M : M3) : Arr := fun k =>
  match k with
  | 0 => M.a00 | 1 => M.a01 | 2 => M.a02
  | 3 => M.a10 | 4 => M.a11 | 5 => M.a12
  | 6 => M.a20 | 7 => M.a21 | _ => M.a22

/-- the (i) row of skew(t) times a vector: the three lines written out at uncertainty.c:165-188, 379-401, 417-439, 655-677 -/
def skewRow (t : Arr) (i : Nat) (s : Nat → ℝ) : ℝ :=
  match i with
  | 0 => (-t 2) * s 1 + t 1 * s 2
  | 1 => t 2 * s 0 + (-t 0) * s 2
  | _ => (-t 1) * s 0 + t 0 * s 1

/-- a row vector times the (j) column of skew(t): the three lines written out at uncertainty.c:521-543, 706-728 -/
def skewCol (t : Arr) (j : Nat) (B : Nat → ℝ) : ℝ :=
  match j with
  | 0 => B 1 * t 2 + B 2 * (-t 1)
  | 1 => B 0 * (-t 2) + B 2 * t 0
  | _ => B 0 * t 1 + B 1 * (-t 0)

/-- a list of `M[index] += value`, in order -/
def addAt (M : Arr) (l : List (Nat × ℝ)) : Arr :=
  l.foldl (fun M p => fun n => if n = p.1 then M n + p.2 else M n) M

/-- `for(i=0;i<3;i++) for(j=i;j<3;j++)`; also the loops of `mul_gen33_gen33_into33insym66_accum` with P_i0=P_j0=0: that one skips the lower triangle
(minimath-extra.h:85-91) -/
def upper3 : List (Nat × Nat) := [(0, 0), (0, 1), (0, 2), (1, 1), (1, 2), (2, 2)]

/-- `for(i<3) for(j<3)` -/
def all3 : List (Nat × Nat) := [(0, 0), (0, 1), (0, 2), (1, 0), (1, 1), (1, 2), (2, 0), (2, 1), (2, 2)]

/-- the `ivalue` counter in the loops at uncertainty.c:516-546, 701-731: it walks the upper triangle of the top-left (3,3) block, skipping 3 elements
after each row: 0,1,2, 6,7, 11 -/
def ivalue3 : List Nat := [0, 1, 2, 6, 7, 11]

/-- `mul_gen33_gen33insym66` minimath-extra.h:53-73, with A transposed (strides 1,3) as in both calls -/
def mulTSym (A : Arr) (S : Arr) (i0 j0 : Nat) (scale : ℝ) (i j : Nat) : ℝ :=
  (0 + A (i * 1 + 0 * 3) * S (indexSym 6 (0 + i0) (j + j0)) + A (i * 1 + 1 * 3) * S (indexSym 6 (1 + i0) (j + j0)) +
    A (i * 1 + 2 * 3) * S (indexSym 6 (2 + i0) (j + j0))) * scale

/-- `A` in `accumulate_rt_block` uncertainty.c:367-403 -/
noncomputable def rtA (D t S : Arr) (SR ST : ℝ) (i j : Nat) : ℝ :=
  mulTSym D S 0 0 (1 / SR) i j + skewRow t i (fun k => S (indexSym 6 (k + 3) j)) / ST

/-- `B` in `accumulate_rt_block` uncertainty.c:405-441 -/
noncomputable def rtB (D t S : Arr) (SR ST : ℝ) (i j : Nat) : ℝ :=
  mulTSym D S 0 3 (1 / SR) i j + skewRow t i (fun k => S (indexSym 6 (k + 3) (j + 3))) / ST

/-- what `accumulate_rt_block` adds to Jcross_t__Jcross, uncertainty.c:509-567, in order: A/SCALE_R dr/dr; -B/SCALE_T skew(t); the rt block B/SCALE_T; and the
tt block: the last 6 elements -/
noncomputable def rtJJ (D t S : Arr) (SR ST : ℝ) : List (Nat × ℝ) :=
  (upper3.flatMap fun (i, j) => (List.range 3).map fun k => (indexSym 6 (i + 0) (j + 0), rtA D t S SR ST i k * D (k * 3 + j) * (1 / SR))) ++
  ((upper3.zip ivalue3).map fun ((i, j), iv) => (iv, -(skewCol t j (fun k => rtB D t S SR ST i k) / ST))) ++
  (all3.map fun (i, j) => (indexSym 6 (i + 0) (j + 3), rtB D t S SR ST i j * (1 / ST))) ++
  ((List.range' (indexSym 6 3 3) (21 - indexSym 6 3 3)).map fun n => (n, S n / (ST * ST)))

/-- adds a (6,n) block to the columns of K starting at `col` -/
def addBlock (K : Nat → Int → ℝ) (col : Int) (n : Nat) (inc : Nat → Nat → ℝ) : Nat → Int → ℝ := fun i j =>
  if col ≤ j ∧ j < col + n then K i j + inc i (j - col).toNat else K i j

/-- `accumulate_Jcross_t__Jpackedthing` uncertainty.c:133-198: what it adds. S is stored densely with n columns -/
noncomputable def thingInc (n : Nat) (D t S : Arr) (SR ST : ℝ) (i j : Nat) : ℝ :=
  if i < 3 then
    (S (0 * n + j) * D (0 * 3 + i) * (1 / SR) + S (1 * n + j) * D (1 * 3 + i) * (1 / SR) + S (2 * n + j) * D (2 * 3 + i) * (1 / SR)) +
      skewRow t i (fun k => S ((k + 3) * n + j)) / ST
  else S ((3 + (i - 3)) * n + j) / ST

/-- what `accumulate_rt_block` adds to Jcross_t__Jpackedthis: A, B uncertainty.c:569-574; C, D uncertainty.c:443-455 -/
noncomputable def rtThis (D t S : Arr) (SR ST : ℝ) (i j : Nat) : ℝ :=
  if i < 3 then
    if j < 3 then rtA D t S SR ST i j else rtB D t S SR ST i (j - 3)
  else
    if j < 3 then S (indexSym 6 (i - 3 + 3) (j + 0)) * (1 / ST) else S (indexSym 6 (i - 3 + 3) (j - 3 + 3)) * (1 / ST)

/-- the outputs being accumulated: K and Jcross_t__Jcross (upper triangle, row-major) -/
structure Acc where
  K : Nat → Int → ℝ
  JJ : Arr

/-- `accumulate_rt_block` uncertainty.c:206-576. `this`: the state index of this pose; `rt`: its packed value. The others: where to put the products with the
other blocks, and these products; a negative index: NULL -/
noncomputable def accumulateRtBlock (a : Acc) (this : Int) (rt : Arr) (SR ST : ℝ) (Sthis : Arr)
    (somert : Int) (Ssomert : Arr) (p : Int) (Sp : Arr) (cw : Int) (Scw : Arr) : Acc :=
  let D := flat (tinyr0_gradientr0 ⟨rt 0 * SR, rt 1 * SR, rt 2 * SR⟩)
  let t : Arr := fun k => rt (3 + k) * ST
  let K := addBlock a.K this 6 (rtThis D t Sthis SR ST)
  let K := if somert ≥ 0 then addBlock K somert 6 (thingInc 6 D t Ssomert SR ST) else K
  let K := if p ≥ 0 then addBlock K p 3 (thingInc 3 D t Sp SR ST) else K
  let K := if cw ≥ 0 then addBlock K cw 2 (thingInc 2 D t Scw SR ST) else K
  ⟨K, addAt a.JJ (rtJJ D t Sthis SR ST)⟩

/-- `A` in `accumulate_point` uncertainty.c:643-680: the scale cancels out -/
def pointA (p S : Arr) (i j : Nat) : ℝ := skewRow p i (fun k => S (indexSym 3 k j))

/-- `B` in `accumulate_point` uncertainty.c:682-689 -/
noncomputable def pointB (S : Arr) (i j : Nat) : ℝ := S (indexSym 3 i j) / scalePoint

/-- what `accumulate_point` adds to Jcross_t__Jcross, uncertainty.c:699-752 -/
noncomputable def pointJJ (p S : Arr) : List (Nat × ℝ) :=
  ((upper3.zip ivalue3).map fun ((i, j), iv) => (iv, -(skewCol p j (fun k => pointA p S i k)))) ++
  (all3.map fun (i, j) => (indexSym 6 (i + 0) (j + 3), pointA p S i j * (1 / scalePoint))) ++
  ((List.range' (indexSym 6 3 3) (21 - indexSym 6 3 3)).map fun n => (n, S (n - indexSym 6 3 3) / (scalePoint * scalePoint)))

/-- `accumulate_point` uncertainty.c:578-760 -/
noncomputable def accumulatePoint (a : Acc) (this : Int) (p : Arr) (S : Arr) : Acc :=
  ⟨addBlock a.K this 3 fun i j => if i < 3 then pointA p S i j else pointB S (i - 3) j, addAt a.JJ (pointJJ p S)⟩

/-- `get_Nstate_intrinsics_in_jacobian_row` uncertainty.c:762-787: the `while` loop. `fuel` bounds the number of iterations: the loop stops at the end of the row at the latest -/
def countIntrinsics (colidx : Int → Int) (rowEnd lo n : Int) : Nat → Int → Int
  | 0, ival => ival
  | fuel + 1, ival =>
    let s := colidx ival
    if ival < rowEnd ∧ lo ≤ s ∧ s < lo + n then countIntrinsics colidx rowEnd lo n fuel (ival + 1) else ival

/-- what's known about one row of the Jacobian: where the gradients are. <0: not in this row -/
structure RowMap where
  intrinsics : Int := -1
  extrinsics : Int := -1
  frames : Int := -1
  points : Int := -1
  warp : Int := -1
  icam : Int := -1

/-- the variables of the `do {} while(false)` at uncertainty.c:1101-1159; `done`: we have seen a `break` -/
structure Scan where
  ival : Int
  state : Int
  m : RowMap
  done : Bool

/-- one of the five `if()` blocks in uncertainty.c:1108-1158 -/
def scanBlock (colidx : Int → Int) (rowEnd lo n len : Int) (set : Int → Int → RowMap → RowMap) (s : Scan) : Scan :=
  if s.done then s
  else if lo ≤ s.state ∧ s.state < lo + n then
    let ival := s.ival + len
    let m := set s.ival s.state s.m
    if ¬ ival < rowEnd then ⟨ival, s.state, m, true⟩ else ⟨ival, colidx ival, m, false⟩
  else s

/-- `I map out this row` uncertainty.c:1099-1172. `none`: return false -/
def mapRow (d : Dims) (Nrow : Int) (rowptr : Nat → Int) (colidx : Int → Int) (imeas : Nat) : Option RowMap :=
  let e := rowptr (imeas + 1)
  let perCam := (numStatesIntrinsics d).tdiv d.Nci
  let s : Scan := ⟨rowptr imeas, colidx (rowptr imeas), {}, false⟩
  let s := scanBlock colidx e (stateIndexIntrinsics 0 d) (numStatesIntrinsics d) Nrow
    (fun i st m => { m with icam := (st - stateIndexIntrinsics 0 d).tdiv perCam, intrinsics := i }) s
  let s := scanBlock colidx e (stateIndexExtrinsics 0 d) (numStatesExtrinsics d) 6 (fun i _ m => { m with extrinsics := i }) s
  let s := scanBlock colidx e (stateIndexFrames 0 d) (numStatesFrames d) 6 (fun i _ m => { m with frames := i }) s
  let s := scanBlock colidx e (stateIndexPoints 0 d) (numStatesPoints d) 3 (fun i _ m => { m with points := i }) s
  let s := scanBlock colidx e (stateIndexWarp d) (numStatesWarp d) (numStatesWarp d) (fun i _ m => { m with warp := i }) s
  if s.ival ≠ e then none
  else if s.m.frames ≥ 0 ∧ s.m.points ≥ 0 then none
  else some s.m

/-- the accumulators, uncertainty.c:1018-1085. `ee`,`ff`,`pp`: upper triangles -/
structure St where
  acc : Acc
  ee : Arr
  ef : Arr
  ep : Arr
  ec : Arr
  ff : Arr
  pp : Arr
  fc : Arr
  cam : Int
  frame : Int
  point : Int
  frameForCam : Int
  pointForCam : Int

/-- uncertainty.c:1021-1085 -/
def St.init : St where
  acc := ⟨fun _ _ => 0, fun _ => 0⟩
  ee _ := 0
  ef _ := 0
  ep _ := 0
  ec _ := 0
  ff _ := 0
  pp _ := 0
  fc _ := 0
  cam := -1
  frame := -1
  point := -1
  frameForCam := -1
  pointForCam := -1

/-- the products of the upper triangle in the order they're stored: `for(i,ivalue=0; i<n) for(j=i; j<n; j++, ivalue++) v[i]*v[j]` uncertainty.c:1325-1328, 1396-1399, 1429-1432 -/
def outerUpper (n : Nat) (v : Arr) : List ℝ := (List.range n).flatMap fun i => (List.range' i (n - i)).map fun j => v i * v j

/-- the products in the order they're stored: `for(i<6) for(j<n; j++, ivalue++) v[i]*w[j]` uncertainty.c:1335-1340, 1348-1353, 1361-1366, 1407-1412 -/
def outerDense (n : Nat) (v w : Arr) : List ℝ := (List.range 6).flatMap fun i => (List.range n).map fun j => v i * w j

/-- `sum[ivalue] += ...` over such a list -/
def addList (S : Arr) (l : List ℝ) : Arr := fun k => S k + l.getD k 0

/-- the call at uncertainty.c:1218-1236, and again 1438-1456 -/
noncomputable def flushCam (d : Dims) (b : Int → ℝ) (s : St) : Acc :=
  accumulateRtBlock s.acc s.cam (fun k => b (s.cam + k)) scaleRotCamera scaleTransCamera s.ee
    s.frameForCam s.ef s.pointForCam s.ep (stateIndexWarp d) s.ec

/-- the call at uncertainty.c:1250-1266, and again 1459-1475 -/
noncomputable def flushFrame (d : Dims) (b : Int → ℝ) (s : St) : Acc :=
  accumulateRtBlock s.acc s.frame (fun k => b (s.frame + k)) scaleRotFrame scaleTransFrame s.ff
    (-1) (fun _ => 0) (-1) (fun _ => 0) (stateIndexWarp d) s.fc

/-- the call at uncertainty.c:1277-1284, and again 1478-1485 -/
noncomputable def flushPoint (b : Int → ℝ) (s : St) : Acc :=
  accumulatePoint s.acc s.point (fun k => b (s.point + k)) s.pp

/-- one measurement, after its row was mapped: uncertainty.c:1202-1433 -/
noncomputable def accumulateRow (d : Dims) (ccp : Bool) (b : Int → ℝ) (colidx : Int → Int) (jval : Int → ℝ) (m : RowMap) (s : St) : St :=
  let camHere := if m.extrinsics < 0 then -1 else colidx m.extrinsics
  let frameHere := if m.frames < 0 then -1 else colidx m.frames
  let pointHere := if m.points < 0 then -1 else colidx m.points
  -- 1208-1242
  let s := if s.cam ≥ 0 ∧ (s.cam ≠ camHere ∨ s.frameForCam ≠ frameHere ∨ s.pointForCam ≠ pointHere) then
      { s with acc := flushCam d b s, ee := fun _ => 0, ef := fun _ => 0, ep := fun _ => 0, ec := fun _ => 0 } else s
  -- 1244-1269
  let s := if s.frame ≥ 0 ∧ (s.frame ≠ frameHere ∨ (ccp = true ∧ m.extrinsics ≥ 0)) then
      { s with acc := flushFrame d b s, ff := fun _ => 0, fc := fun _ => 0 } else s
  -- 1271-1286
  let s := if s.point ≥ 0 ∧ (s.point ≠ pointHere ∨ (ccp = true ∧ m.extrinsics ≥ 0)) then
      { s with acc := flushPoint b s, pp := fun _ => 0 } else s
  -- 1289-1310
  let s := if ccp then
      if m.extrinsics ≥ 0 then
        { s with cam := colidx m.extrinsics, frame := -1, point := -1, frameForCam := frameHere, pointForCam := pointHere }
      else { s with cam := -1, frame := frameHere, point := pointHere }
    else { s with frame := frameHere, point := pointHere }
  let vE : Arr := fun k => jval (m.extrinsics + k)
  let vF : Arr := fun k => jval (m.frames + k)
  let vP : Arr := fun k => jval (m.points + k)
  let vW : Arr := fun k => jval (m.warp + k)
  -- 1313-1373
  if s.cam ≥ 0 then
    { s with
      ee := addList s.ee (outerUpper 6 vE)
      ef := if m.frames ≥ 0 then addList s.ef (outerDense 6 vE vF) else s.ef
      ep := if m.points ≥ 0 then addList s.ep (outerDense 3 vE vP) else s.ep
      ec := if m.warp ≥ 0 then addList s.ec (outerDense 2 vE vW) else s.ec }
  else
    -- 1377-1413
    let s1 := if s.frame ≥ 0 then { s with ff := addList s.ff (outerUpper 6 vF) } else s
    if s.frame ≥ 0 ∧ ¬ m.warp ≥ 0 then s1
    else
      let s2 := if s.frame ≥ 0 then { s1 with fc := addList s1.fc (outerDense 2 vF vW) } else s1
      -- 1415-1433
      if s.point ≥ 0 then { s2 with pp := addList s2.pp (outerUpper 3 vP) } else s2

/-- one iteration of the main loop, uncertainty.c:1089-1434. `none`: return false -/
noncomputable def step (d : Dims) (Nrow icamI : Int) (b : Int → ℝ) (rowptr : Nat → Int) (colidx : Int → Int) (jval : Int → ℝ) (imeas : Nat) (s : St) : Option St :=
  match mapRow d Nrow rowptr colidx imeas with
  | none => none
  | some m =>
    if m.warp < 0 ∧ stateIndexWarp d ≥ 0 then none
    else if m.warp ≥ 0 ∧ ¬ stateIndexWarp d ≥ 0 then none
    else if icamI ≥ 0 ∧ m.icam < 0 then none
    else if icamI ≥ 0 ∧ icamI ≠ m.icam then some s
    else some (accumulateRow d (decide (icamI ≥ 0)) b colidx jval m s)

/-- uncertainty.c:1436-1485 -/
noncomputable def finish (d : Dims) (b : Int → ℝ) (s : St) : Acc :=
  let s := if s.cam ≥ 0 then { s with acc := flushCam d b s } else s
  let s := if s.frame ≥ 0 then { s with acc := flushFrame d b s } else s
  let s := if s.point ≥ 0 then { s with acc := flushPoint b s } else s
  s.acc

/-- LAPACK: `dpptrf_('L', 6, ...)` and `dpptrs_('L', 6, 1, ...)`. Parameters here; `LapackOk` (UncertaintyProps) says what they do -/
structure Lapack where
  /-- the factorization, stored in place of the matrix -/
  F : Type
  pptrf : Arr → Option F
  pptrs : F → Arr → Option Arr

/-- `FINALIZE` uncertainty.c:1509-1531, for the n columns of K from `lo` on -/
def finalize (L : Lapack) (f : L.F) (lo n : Int) (K : Nat → Int → ℝ) : Option (Nat → Int → ℝ) :=
  if lo ≥ 0 then
    (List.range n.toNat).foldlM (fun (K : Nat → Int → ℝ) (j : Nat) =>
      (L.pptrs f fun i => K i (lo + j)).map fun x => fun i c => if c = lo + j then -x i else K i c) K
  else some K

/-- `_mrcal_drt_cross_reprojection__dbpacked` uncertainty.c:796-1541 as called by mrcal-pywrap.c:2015-2110. The result is K; `none`: failed. `b`: b_packed (Nb values).
`nrow`: Jt->nrow. `W`,`H`: the calibration object size. Jcolidx, Jval are read only at the elements of the row being looked at, with one exception: Jcolidx is
read also at the first element past an empty row, and past row 0 if it has only intrinsics; `colidx` is arbitrary there -/
noncomputable def drtCrossReprojection (L : Lapack) (d : Dims) (W H Nop icamI : Int) (b : Int → ℝ) (Nb nrow : Int)
    (rowptr : Nat → Int) (colidx : Int → Int) (jval : Int → ℝ) : Option (Nat → Int → ℝ) :=
  let Nmeas := numMeasurementsBoards d.Nob W H + numMeasurementsPoints Nop
  let Nrow := countIntrinsics colidx (rowptr 1) (stateIndexIntrinsics 0 d) (numStatesIntrinsics d) (rowptr 1 - rowptr 0).toNat (rowptr 0)
  -- 944-950
  if stateIndexFrames 0 d ≥ 0 ∧ stateIndexWarp d ≥ 0 ∧ ¬ stateIndexWarp d = stateIndexFrames 0 d + numStatesFrames d then none
  -- 953-958
  else if stateIndexWarp d ≥ 0 ∧ ¬ numStatesWarp d = 2 then none
  -- 960-972
  else if Nb ≠ numStates d then none
  else if numStates d ≠ nrow then none
  -- 974-979
  else if stateIndexFrames 0 d < 0 ∧ stateIndexExtrinsics 0 d < 0 then none
  else
    match (List.range Nmeas.toNat).foldlM (fun s imeas => step d Nrow icamI b rowptr colidx jval imeas s) St.init with
    | none => none
    | some s =>
      let a := finish d b s
      match L.pptrf a.JJ with
      | none => none
      | some f => do
        let K ← finalize L f (stateIndexExtrinsics 0 d) (numStatesExtrinsics d) a.K
        let K ← finalize L f (stateIndexFrames 0 d) (numStatesFrames d) K
        let K ← finalize L f (stateIndexPoints 0 d) (numStatesPoints d) K
        finalize L f (stateIndexWarp d) (numStatesWarp d) K

end Mrcal.Uncertainty

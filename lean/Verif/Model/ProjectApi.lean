import Verif.Model.Lens
import Verif.Model.Cahvore
/-
The external projection and unprojection functions: `mrcal_project()`, `mrcal_unproject()` mrcal.c:2867-3286. Arithmetic is exact: `double` is ℝ. The array
of intrinsics is a function of the index.
-/
namespace Mrcal.Cam

/-- `intrinsics[0..3]` -/
def coreOf (intr : Int → ℝ) : Core := ⟨intr 0, intr 1, intr 2, intr 3⟩
/-- `&intrinsics[4]` -/
def nocoreOf (intr : Int → ℝ) : Nat → ℝ := fun i => intr ((i : Int) + 4)

/-- `dq_dintrinsics_nocore`, as stored by opencv.c:112-153, mrcal.c:1221-1231: all of row 0, then all of row 1. `cols` has a column per parameter -/
def nocorePool (n : Nat) (cols : List P2) (k : Nat) : ℝ :=
  let c := cols.getD (k % n) ⟨0, 0⟩
  if k / n = 0 then c.x else c.y

/-- row `i_xy` of the dense `dq_dintrinsics` of one point: mrcal.c:2941-2964. `n` is `Nintrinsics-Ncore` -/
def denseRow (n : Nat) (dfxy : P2) (pool : Nat → ℝ) (i_xy : Nat) (col : Nat) : ℝ :=
  if col < 4 then
    if i_xy = 0 then (if col = 0 then dfxy.x else if col = 2 then 1.0 else 0.0)
    else (if col = 1 then dfxy.y else if col = 3 then 1.0 else 0.0)
  else if col < 4 + n then pool (i_xy * n + (col - 4))
  else 0

/-- everything that's reported about one point -/
structure LensOut where
  proj : Proj
  /-- row, column of `dq_dintrinsics` -/
  row : Nat → Nat → ℝ

/-- the models with closed forms: mrcal.c:1380-1392 -/
noncomputable def closedOut (f : Core → P3 → Proj) (intr : Int → ℝ) (p : P3) : LensOut :=
  let o := f (coreOf intr) p
  ⟨o, denseRow 0 (dqDfxy (coreOf intr) o.q) (nocorePool 0 [])⟩

/-- the OpenCV models: mrcal.c:1393-1400. `n` is `Nintrinsics-4` -/
noncomputable def ocvOut (n : Nat) (intr : Int → ℝ) (p : P3) : LensOut :=
  let c := coreOf intr
  let k := padK n (nocoreOf intr)
  let q := ocvQ c k p
  ⟨⟨q, (ocvDp c k p).1, (ocvDp c k p).2⟩, denseRow n (dqDfxy c q) (nocorePool n (ocvDk n c k p))⟩

/-- CAHVOR and CAHVORE -/
noncomputable def distortedOut (n : Nat) (intr : Int → ℝ) (D : Distorted) : LensOut :=
  let c := coreOf intr
  let q := distortedQ c D.p
  ⟨⟨q, (distortedDp c D).1, (distortedDp c D).2⟩, denseRow n (dqDfxy c q) (nocorePool n (distortedDk c D))⟩

/-- `project()` of one point, the camera and the frame at the identity: `_project_point` mrcal.c:2420-2526. `none` means that the CAHVORE projection failed (or, for
splined models, that an assert failed: see `lensAsserts`, which is checked first). All the gradients are computed here. In C they're computed only if asked for;
this makes no difference to the rest (for CAHVORE: theorem cahvore_wants) -/
noncomputable def lensOut (L : Lens) (intr : Int → ℝ) (p : P3) : Option LensOut :=
  match L with
  | .pinhole => some (closedOut pinhole intr p)
  | .stereographic => some (closedOut stereographic intr p)
  | .lonlat => some (closedOut lonlat intr p)
  | .latlon => some (closedOut latlon intr p)
  | .opencv4 => some (ocvOut 4 intr p)
  | .opencv5 => some (ocvOut 5 intr p)
  | .opencv8 => some (ocvOut 8 intr p)
  | .opencv12 => some (ocvOut 12 intr p)
  | .cahvor => some (distortedOut 5 intr (cahvorDistort (nocoreOf intr) p))
  | .cahvore lin =>
    match projectCahvoreInternals p (nocoreOf intr) lin true true with
    | some ⟨pd, some dk, some dp⟩ => some (distortedOut 8 intr ⟨pd, dp, dk⟩)
    | _ => none
  | .splined order Nx Ny fov =>
    match Spline.segmentsPerU order Nx Ny fov with
    | none => none
    | some segs =>
      match Spline.projectSplined order Nx Ny segs intr p, Spline.dqDintrinsics order Nx Ny segs intr p 0, Spline.dqDintrinsics order Nx Ny segs intr p 1 with
      | some o, some r0, some r1 => some ⟨⟨o.q, o.dqx_dp, o.dqy_dp⟩, fun i_xy col => if i_xy = 0 then r0 col else r1 col⟩
      | _, _, _ => none

/-- `_mrcal_precompute_lensmodel_data` mrcal.c:1904-1964 aborts -/
noncomputable def lensAsserts (L : Lens) : Bool :=
  match L with
  | .splined order Nx Ny fov => (Spline.segmentsPerU order Nx Ny fov).isNone
  | _ => false

/-- the caller's arrays: `q`, `dq_dp` (an element per row), `dq_dintrinsics` -/
structure ProjMem where
  q : Nat → P2
  dp : Nat → P3
  di : Nat → ℝ

/-- `project(&q[i], ..., dq_dp, ...)`: one point, with `dq_dp` pointing to row `row`. On failure: mrcal.c:2503-2512 -/
noncomputable def writePoint (o : Option LensOut) (i : Nat) (wantp : Bool) (row : Nat) (m : ProjMem) : ProjMem :=
  { m with
    q := fun j => if j = i then (match o with | some o => o.proj.q | none => ⟨0, 0⟩) else m.q j
    dp := if wantp then
        match o with
        | some o => fun j => if j = row then o.proj.dqx else if j = row + 1 then o.proj.dqy else m.dp j
        | none => fun j => if j = row then ⟨0, 0, 0⟩ else m.dp j
      else m.dp }

/-- the dense gradient of one point, with `dq_dintrinsics` pointing to element `base`: mrcal.c:2941-2991. Simplified: the whole row is written at once; the
elements that C doesn't write have a 0, from the memset, in both cases -/
noncomputable def writeRow (o : Option LensOut) (Nintr base : Nat) (di : Nat → ℝ) : Nat → ℝ :=
  let row : Nat → Nat → ℝ := match o with
    | some o => o.row
    | none => denseRow (Nintr - 4) ⟨0, 0⟩ (fun _ => 0)
  fun j => if base ≤ j ∧ j < base + 2 * Nintr then row ((j - base) / Nintr) ((j - base) % Nintr) else di j

/-- `_mrcal_project_internal` mrcal.c:2867-2999. `wantp`: `dq_dp != NULL`. `wanti`: `dq_dintrinsics != NULL` -/
noncomputable def projectInternal (L : Lens) (intr : Int → ℝ) (N : Nat) (p : Nat → P3) (wantp wanti : Bool) (m : ProjMem) : ProjMem :=
  let Nintr := L.numParams.toNat
  if wanti = false then
    (List.range N).foldl (fun m i => writePoint (lensOut L intr (p i)) i wantp 0 m) m
  else
    let m0 := { m with di := fun j => if j < N * 2 * Nintr then 0 else m.di j }
    (List.range N).foldl (fun m i =>
      let m' := writePoint (lensOut L intr (p i)) i wantp (2 * i) m
      { m' with di := writeRow (lensOut L intr (p i)) Nintr (2 * Nintr * i) m'.di }) m0

/-- `MRCAL_LENSMODEL_IS_OPENCV(type) || type == PINHOLE` mrcal.c:3053-3055 -/
def isFast : Lens → Bool
  | .opencv4 | .opencv5 | .opencv8 | .opencv12 | .pinhole => true
  | _ => false

/-- `mrcal_project` mrcal.c:3012-3069. All models have gradients. `none`: an assert failed -/
noncomputable def mrcalProject (L : Lens) (intr : Int → ℝ) (N : Nat) (p : Nat → P3) (wantp wanti : Bool) (m : ProjMem) : Option ProjMem :=
  if wanti = false ∧ wantp = false ∧ isFast L = true then
    let k := padK (L.numParams.toNat - 4) (nocoreOf intr)
    some { m with q := loopWrite N (fun i => i) (fun i => ocvQ (coreOf intr) k (p i)) m.q }
  else if lensAsserts L then none
  else some (projectInternal L intr N p wantp wanti m)

/-! ### unproject -/

/-- a vector whose elements may be NaN: that's `none` -/
structure NanP3 where
  x : Option ℝ
  y : Option ℝ
  z : Option ℝ

def NanP3.of (v : P3) : NanP3 := ⟨some v.x, some v.y, some v.z⟩

/-- `q_hypothesis` and `dq_dtframe` in `_unproject_callback` mrcal.c:3130-3144. On failure C leaves `dq_dtframe[1]` uninitialized; here it's 0 -/
noncomputable def hypothesis (L : Lens) (intr : Int → ℝ) (v : P3) : Proj :=
  match lensOut L intr v with
  | some o => o.proj
  | none => ⟨⟨0, 0⟩, ⟨0, 0, 0⟩, ⟨0, 0, 0⟩⟩

/-- `x` in `_unproject_callback` mrcal.c:3114-3146 -/
noncomputable def unprojectX (L : Lens) (intr : Int → ℝ) (q u : P2) : P2 :=
  let h := hypothesis L intr (unstereographic (coreOf intr) u).v
  ⟨h.q.x - q.x, h.q.y - q.y⟩

/-- `J` in `_unproject_callback` mrcal.c:3147-3162: the two rows -/
noncomputable def unprojectJ (L : Lens) (intr : Int → ℝ) (u : P2) : P2 × P2 :=
  let f := unstereographic (coreOf intr) u
  let h := hypothesis L intr f.v
  (⟨h.dqx.x * f.dvx.x + h.dqx.y * f.dvy.x + h.dqx.z * f.dvz.x, h.dqx.x * f.dvx.y + h.dqx.y * f.dvy.y + h.dqx.z * f.dvz.y⟩,
   ⟨h.dqy.x * f.dvx.x + h.dqy.y * f.dvy.x + h.dqy.z * f.dvz.x, h.dqy.x * f.dvx.y + h.dqy.y * f.dvy.y + h.dqy.z * f.dvz.y⟩)

/-- `dogleg_optimize_dense2()`: given the callback (the residuals and their gradients) and the initial estimate, returns the result and `norm2x`. The solver isn't
modelled: this is any function -/
abbrev Solver := (P2 → P2) → (P2 → P2 × P2) → P2 → P2 × ℝ

/-- the initial estimate: mrcal.c:3224-3230 -/
noncomputable def unprojectSeed (intr : Int → ℝ) (q : P2) : P2 :=
  (stereographic (coreOf intr) ⟨(q.x - intr 2) / intr 0, (q.y - intr 3) / intr 1, 1⟩).q

/-- the body of the loop in `_mrcal_unproject_internal` mrcal.c:3215-3284. `prev` is what the caller has in `out[i]` -/
noncomputable def unprojectOne (L : Lens) (intr : Int → ℝ) (solve : Solver) (q : P2) (prev : NanP3) : NanP3 :=
  let r := solve (unprojectX L intr q) (unprojectJ L intr) (unprojectSeed intr q)
  if r.2 / 2.0 > 1e-4 then { prev with x := none, y := none }
  else
    let v := (unstereographic (coreOf intr) r.1).v
    if L.canProjectBehind = false ∧ v.z < 0.0 then NanP3.of ⟨v.x * -1.0, v.y * -1.0, v.z * -1.0⟩
    else NanP3.of v

/-- `_mrcal_unproject_internal` mrcal.c:3167-3286. `none`: `return false` -/
noncomputable def unprojectInternal (L : Lens) (intr : Int → ℝ) (solve : Solver) (N : Nat) (q : Nat → P2) (out : Nat → NanP3) : Option (Nat → NanP3) :=
  let direct (f : Core → P2 → Unproj) := some (loopWrite N (fun i => i) (fun i => NanP3.of (f (coreOf intr) (q i)).v) out)
  let loop := some (loopWrite N (fun i => i) (fun i => unprojectOne L intr solve (q i) (out i)) out)
  match L with
  | .pinhole => direct unpinhole
  | .stereographic => direct unstereographic
  | .lonlat => direct unlonlat
  | .latlon => direct unlatlon
  | .cahvore _ => if (List.range 3).any (fun i => decide (intr (L.numParams - 3 + (i : Int)) ≠ 0)) then none else loop
  | _ => loop

/-- `mrcal_unproject` mrcal.c:3082-3104. The outer `none`: an assert failed; the inner one: `return false` -/
noncomputable def mrcalUnproject (L : Lens) (intr : Int → ℝ) (solve : Solver) (N : Nat) (q : Nat → P2) (out : Nat → NanP3) : Option (Option (Nat → NanP3)) :=
  if lensAsserts L then none else some (unprojectInternal L intr solve N q out)

end Mrcal.Cam

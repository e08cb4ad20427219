import Verif.Model.Pose
import Verif.Model.ProjectApi
/-
.cahvor files: /repo/mrcal/cahvor.py. What is modelled is the content of the file: which keys are there, and their values. The text (splitting into lines, the printing with
`{:15.10f}`, `%.2f`, and parsing) isn't: the numbers in the file are the numbers that were given, exactly. The keys that nothing reads (S, Hs, Hc, Vs, Vc, Theta, S internal)
are left out.
-/
namespace Mrcal.CahvorFile
open Mrcal.Cam Mrcal.Pose

/-- The camera model, as these functions see it: the lens, the intrinsics, `Rt_ref_cam()` (these are consistent with the other poses: C83), `imagersize()`,
`valid_intrinsics_region()` -/
structure CModel where
  lens : Lens
  intr : List ℝ
  /-- Rt_ref_cam -/
  pose : Rt
  dims : Int × Int
  region : Option (List P2)

/-- The content of a .cahvor file: the keys that are read -/
structure File where
  /-- the value of `Model`: if it has the form `CAHVORE<type>[,<linearity>]` (the regular expression at cahvor.py:234): the type and the linearity. `none` for any other value,
  and if the key isn't there -/
  cahvore : Option (Nat × Option ℚ)
  dims : Int × Int
  C : P3
  A : P3
  H : P3
  V : P3
  /-- all of `A` is written with digits and whitespace only: cahvor.py:187 -/
  aDigits : Bool
  O : Option P3
  R : Option P3
  E : Option P3
  ocv4 : Option (List ℝ)
  ocv5 : Option (List ℝ)
  ocv8 : Option (List ℝ)
  ocv12 : Option (List ℝ)
  region : Option (List P2)

/-! ### writing -/

/-- the columns of a matrix: `R[:,0]`, `R[:,1]`, `R[:,2]` -/
def col0 (M : M3) : P3 := ⟨M.a00, M.a10, M.a20⟩
def col1 (M : M3) : P3 := ⟨M.a01, M.a11, M.a21⟩
def col2 (M : M3) : P3 := ⟨M.a02, M.a12, M.a22⟩

/-- `k*v` -/
def smul (k : ℝ) (v : P3) : P3 := ⟨k * v.x, k * v.y, k * v.z⟩

/-- `intrinsics[i]`. The model has a value for each parameter of its lens, so the default isn't used -/
def at' (l : List ℝ) (i : Nat) : ℝ := l.getD i 0

/-- `x['C'],x['A'],x['H'],x['V']`: cahvor.py:305-315 -/
def writeCahv (m : CModel) : File :=
  let A := col2 m.pose.R
  { cahvore := none
    dims := m.dims
    C := m.pose.t
    A := A
    H := addP (smul (at' m.intr 0) (col0 m.pose.R)) (smul (at' m.intr 2) A)
    V := addP (smul (at' m.intr 1) (col1 m.pose.R)) (smul (at' m.intr 3) A)
    aDigits := false
    O := none, R := none, E := none, ocv4 := none, ocv5 := none, ocv8 := none, ocv12 := none
    region := m.region }

/-- `x['O']`: cahvor.py:323-326 -/
noncomputable def writeO (m : CModel) : P3 :=
  let alpha := at' m.intr 4
  let beta := at' m.intr 5
  mulVec m.pose.R ⟨Real.sin alpha * Real.cos beta, Real.sin beta, Real.cos alpha * Real.cos beta⟩

/-- `x['R']`: cahvor.py:323, 327 -/
def writeR (m : CModel) : P3 := ⟨at' m.intr 6, at' m.intr 7, at' m.intr 8⟩

/-- `x['E']`: cahvor.py:330 -/
def writeE (m : CModel) : P3 := ⟨at' m.intr 9, at' m.intr 10, at' m.intr 11⟩

/-- `_write()`, with `_deconstruct_model()`: cahvor.py:291-334, 337-408. `none` is an exception. The linearity of a CAHVORE model is matched by `[0-9\.]+`, so a negative
linearity is refused. (A linearity in the exponential notation is refused too; the notation isn't in this model, only the value) -/
noncomputable def write (m : CModel) : Option File :=
  match m.lens with
  | .pinhole => some (writeCahv m)
  | .opencv4 => some { writeCahv m with ocv4 := some (m.intr.drop 4) }
  | .opencv5 => some { writeCahv m with ocv5 := some (m.intr.drop 4) }
  | .opencv8 => some { writeCahv m with ocv8 := some (m.intr.drop 4) }
  | .opencv12 => some { writeCahv m with ocv12 := some (m.intr.drop 4) }
  | .cahvor => some { writeCahv m with O := some (writeO m), R := some (writeR m) }
  | .cahvore lin =>
    if lin < 0 then none
    else some { writeCahv m with cahvore := some (3, some lin), O := some (writeO m), R := some (writeR m), E := some (writeE m) }
  | .stereographic => none
  | .lonlat => none
  | .latlon => none
  | .splined _ _ _ _ => none

/-! ### reading -/

/-- `nps.mag()` -/
noncomputable def mag (v : P3) : ℝ := Real.sqrt (dot3 v v)

/-- `np.cross()` -/
def cross (a b : P3) : P3 := ⟨a.y * b.z - a.z * b.y, a.z * b.x - a.x * b.z, a.x * b.y - a.y * b.x⟩

/-- the part of `H` orthogonal to `A`: `hshp`, `vsvp` cahvor.py:45-46, 49-50 -/
def perp (A H : P3) : P3 := subP H (smul (dot3 H A) A)

/-- which lens model the keys ask for: cahvor.py:202-220. `none`: CAHVOR or CAHVORE -/
def fallback (f : File) : Option (Lens × List ℝ) :=
  match f.ocv12, f.ocv8, f.ocv5, f.ocv4, f.R with
  | some k, _, _, _, _ => some (.opencv12, k)
  | none, some k, _, _, _ => some (.opencv8, k)
  | none, none, some k, _, _ => some (.opencv5, k)
  | none, none, none, some k, _ => some (.opencv4, k)
  | none, none, none, none, none => some (.pinhole, [])
  | none, none, none, none, some _ => none

/-- the declaration of a CAHVORE: cahvor.py:234-263. The outer `none` is an exception; the inner: this isn't a CAHVORE -/
def linearity (f : File) : Option (Option ℚ) :=
  match f.cahvore with
  | none => some none
  | some (t, lin) =>
    if t = 1 then (match lin with
      | some l => if l ≠ 1 then none else some (some 1)
      | none => some (some 1))
    else if t = 2 then (match lin with
      | some l => if l ≠ 0 then none else some (some 0)
      | none => some (some 0))
    else if t = 3 then (match lin with
      | none => none
      | some l => some (some l))
    else none

/-- the orientation: cahvor.py:80-97. `A` is normalized, and `Vp` is replaced by the cross product. (The warning about skewed axes is not modelled) -/
noncomputable def readR (f : File) : M3 :=
  let A := smul (1 / mag f.A) f.A
  let hshp := perp A f.H
  let Hp := smul (1 / mag hshp) hshp
  let Vp := cross A Hp
  ⟨Hp.x, Vp.x, A.x, Hp.y, Vp.y, A.y, Hp.z, Vp.z, A.z⟩

/-- `(fx,fy,cx,cy)`: cahvor.py:80-81, 45-51 -/
noncomputable def readCore (f : File) : List ℝ :=
  let A := smul (1 / mag f.A) f.A
  [mag (perp A f.H), mag (perp A f.V), dot3 f.H A, dot3 f.V A]

/-- `alpha,beta`: cahvor.py:102-108. `np.arcsin()` produces NaN outside [-1,1]; `Real.arcsin` doesn't: the theorems are about unit vectors O -/
noncomputable def readAxis (f : File) : ℝ × ℝ :=
  match f.O with
  | none => (0, 0)
  | some O =>
    let o := vecMul O (readR f)
    (atan2 o.x o.z, Real.arcsin o.y)

open Classical in
/-- the lens model and its distortion parameters: cahvor.py:99-132 -/
noncomputable def readLens (f : File) (lin : Option ℚ) : Option (Lens × List ℝ) :=
  match fallback f with
  | some x => some x
  | none =>
    match lin with
    | some l =>
      match f.E, f.R with
      | some E, some R => some (.cahvore l, [(readAxis f).1, (readAxis f).2, R.x, R.y, R.z, E.x, E.y, E.z])
      | _, _ => none
    | none =>
      match f.E, f.R with
      | some _, _ => none
      | none, none => some (.pinhole, [])
      | none, some R =>
        if mag R < 1e-8 then some (.pinhole, [])
        else some (.cahvor, [(readAxis f).1, (readAxis f).2, R.x, R.y, R.z])

open Classical in
/-- `_read()`, `_construct_model()`: cahvor.py:141-271, 58-139. `none` is an exception. These too are `none` here: A = 0 or H along A: the library divides by 0 (NaN). The
`/=` on an array of integers is an exception: cahvor.py:80. An empty region is written as an empty value, and `int('')` is an exception: cahvor.py:189. The constructor of
`cameramodel` checks the number of the intrinsics; its other checks are in `Verif.Model.CameraModel` -/
noncomputable def read (f : File) : Option CModel :=
  if f.region = some [] then none
  else match linearity f with
  | none => none
  | some lin =>
    if f.aDigits then none
    else if mag f.A = 0 ∨ mag (perp (smul (1 / mag f.A) f.A) f.H) = 0 then none
    else match readLens f lin with
    | none => none
    | some (L, k) =>
      if ((readCore f ++ k).length : Int) ≠ L.numParams then none
      else some { lens := L, intr := readCore f ++ k, pose := ⟨readR f, f.C⟩, dims := f.dims, region := f.region }

end Mrcal.CahvorFile

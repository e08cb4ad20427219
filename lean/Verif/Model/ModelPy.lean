import Verif.Model.CameraModel
import Verif.Model.ModelFile
import Mathlib.Data.Int.Log
import Mathlib.Data.Rat.Floor
/-
Reading and writing .cameramodel files in Python: mrcal/cameramodel.py:503-684, with the parts of Python that it relies on: str.format(), str.replace(), ast.literal_eval().
-/
namespace Mrcal.ModelPy
open Mrcal.Name Mrcal.CamModel Mrcal.ModelFile

/-! ### printing numbers -/

/-- the 10 digits and the exponent of a positive number: this is `m`/10^9 × 10^`e`, rounded half to even -/
def sci10 (a : ℚ) : Nat × Int :=
  let e := Int.log 10 a
  let m := (roundHalfEven (a * (10 : ℚ) ^ (9 - e))).toNat
  if m = 10000000000 then (1000000000, e + 1) else (m, e)

/-- without trailing zeros -/
def rstrip0 (l : List Char) : List Char := (l.reverse.dropWhile (· = '0')).reverse

/-- an integer part and a fractional part. There's no decimal point if it isn't needed -/
def withFrac (int frac : List Char) : List Char :=
  int ++ (if rstrip0 frac = [] then [] else '.' :: rstrip0 frac)

/-- at least two digits -/
def pad2 (s : List Char) : List Char := if s.length < 2 then '0' :: s else s

/-- `'{:.10g}'.format(q)`. The value is a rational: infinities, NaN and -0.0 are not modelled -/
def printG10 (q : ℚ) : List Char :=
  if q = 0 then ['0']
  else
    let (m, e) := sci10 (if q < 0 then -q else q)
    let ds := printNat m
    (if q < 0 then ['-'] else []) ++
      if -4 ≤ e ∧ e < 10 then
        if 0 ≤ e then withFrac (ds.take (e.toNat + 1)) (ds.drop (e.toNat + 1))
        else withFrac ['0'] (List.replicate ((-e).toNat - 1) '0' ++ ds)
      else withFrac (ds.take 1) (ds.drop 1) ++ 'e' :: (if e < 0 then '-' else '+') :: pad2 (printNat e.natAbs)

/-- `'{:d}'.format(i)` -/
def printInt (i : Int) : List Char := (if i < 0 then ['-'] else []) ++ printNat i.natAbs

/-! ### the writer -/

/-- f"{self._optimization_inputs_string}". A byte string is printed with its repr(): this is for a byte string without quotes, backslashes or non-printable characters -/
def storedText : Stored → List Char
  | .bytes s => 'b' :: '\'' :: s ++ ['\'']
  | .str s => s

/-- the numbers of a list, each followed by a comma: `" {:.10g},"*N` -/
def numsText (l : List ℚ) : List Char := l.flatMap fun v => " ".toList ++ printG10 v ++ ",".toList

/-- the comment above the optimization inputs: cameramodel.py:545-556 -/
def optComment : List (List Char) := [
  "    # The optimization inputs contain all the data used to compute this model.".toList,
  "    # This contains ALL the observations for ALL the cameras in the solve. The uses of".toList,
  "    # this are to be able to compute projection uncertainties, to visualize the".toList,
  "    # calibration-time geometry and to re-run the original optimization for".toList,
  "    # diagnostics. This is a big chunk of data that isn't useful for humans to".toList,
  "    # interpret, so it's stored in binary, compressed, and encoded to ascii in".toList,
  "    # base-85. Modifying the intrinsics of the model invalidates the optimization".toList,
  "    # inputs: the optimum implied by the inputs would no longer match the stored".toList,
  "    # parameters. Modifying the extrinsics is OK, however: if we move the camera".toList,
  "    # elsewhere, the original solve can still be used to represent the camera-relative".toList,
  "    # projection uncertainties".toList]

/-- each line ends with a newline -/
def lines (l : List (List Char)) : List Char := l.flatMap fun s => s ++ "\n".toList

/-- `mrcal.lensmodel_metadata_and_config(name)['has_core']` -/
def hasCore (name : List Char) : Bool :=
  match fromName (some name) with
  | .ok L => L.hasCore
  | _ => false

/-- `if x is not None: write(f(x))` -/
def ifThere {α : Type} (x : Option α) (f : α → List Char) : List Char :=
  match x with
  | none => []
  | some y => f y

/-- `_write` cameramodel.py:503-558. `note`: the lines of the note, what str.splitlines() returns; it's empty if there isn't a note -/
def writeText (note : List (List Char)) (o : Obj ℚ (List ℚ)) : List Char :=
  lines (note.map fun l => "# ".toList ++ l)
  ++ ("{\n".toList
  ++ ("    'lensmodel':  '".toList ++ o.lensmodel ++ "',\n".toList
  ++ ("\n".toList
  ++ ((if hasCore o.lensmodel then "    # intrinsics are fx,fy,cx,cy,distortion0,distortion1,....\n".toList else [])
  ++ ("    'intrinsics': [".toList ++ numsText o.intrinsics ++ "],\n".toList
  ++ ("\n".toList
  ++ (ifThere o.region (fun r => "    'valid_intrinsics_region': [\n".toList
          ++ (r.flatMap fun p => "    [ ".toList ++ printG10 p.1 ++ ", ".toList ++ printG10 p.2 ++ " ],\n".toList) ++ "],\n\n".toList)
  ++ ("    'rt_cam_ref': [".toList ++ numsText o.rt_cam_ref ++ "],\n".toList
  ++ ("    'extrinsics': [".toList ++ numsText o.rt_cam_ref ++ "], # for compatibility with mrcal < 2.5\n".toList
  ++ ("\n".toList
  ++ ("    'imagersize': [".toList ++ (" ".toList ++ printInt o.imagersize.1 ++ ",".toList ++ " ".toList ++ printInt o.imagersize.2 ++ ",".toList) ++ "],\n".toList
  ++ ("\n".toList
  ++ (ifThere o.icamI (fun i => "    'icam_intrinsics': ".toList ++ printInt i ++ ",\n".toList)
  ++ (ifThere o.icamE (fun i => "    'icam_extrinsics': ".toList ++ printInt i ++ ",\n".toList)
  ++ ("\n".toList
  ++ (ifThere o.opt (fun s => lines optComment ++ ("    'optimization_inputs': ".toList ++ storedText s ++ ",\n\n".toList))
  ++ "}\n".toList))))))))))))))))

/-- `write()` cameramodel.py:1316-1475 in the native format: the contents of the file. `none`: exception -/
def write (note : List (List Char)) (o : Obj ℚ (List ℚ)) : Option (List Char) :=
  if validateIntrinsics o.imagersize (some (o.lensmodel, o.intrinsics)) none none none ∧ validateRegion o.region ∧ o.rt_cam_ref.length = 6 then some (writeText note o)
  else none

/-! ### ast.literal_eval() -/

/-- Python literals. Not modelled: None, True, False, sets, complex numbers -/
inductive Lit where
  | int (n : Int)
  | float (q : ℚ)
  | str (s : List Char)
  | bytes (s : List Char)
  | list (l : List Lit)
  | tuple (l : List Lit)
  | dict (l : List (Lit × Lit))

/-- whitespace inside brackets -/
def isPyWs (c : Char) : Bool := c = ' ' || c = '\t' || c = '\n' || c = '\r' || c = '\x0c'

/-- whitespace and comments. `true`: we're in a comment. A lone carriage return is a newline for Python. Lines joined with a backslash aren't modelled -/
def skipPy : Bool → List Char → List Char
  | _, [] => []
  | false, c :: cs => if isPyWs c then skipPy false cs else if c = '#' then skipPy true cs else c :: cs
  | true, c :: cs => if c = '\n' ∨ c = '\r' then skipPy false cs else skipPy true cs

/-- the rest of a string, after the opening quote. Not modelled (`none`): triple quotes and backslashes -/
def pyQuoted (q : Char) (s : List Char) : Option (List Char × List Char) :=
  let p := fun c => c ≠ q ∧ c ≠ '\\' ∧ c ≠ '\n' ∧ c ≠ '\r'
  let body := s.takeWhile (fun c => decide (p c))
  match s.dropWhile (fun c => decide (p c)) with
  | [] => none
  | c :: r => if c ≠ q then none else if body = [] ∧ r.head? = some q then none else some (body, r)

/-- a number without a sign. Not modelled (`none`): underscores between digits, hexadecimal, octal and binary numbers, imaginary numbers, floating-point numbers that are rounded to infinity -/
def pyNumber (s : List Char) : Option (Lit × List Char) :=
  let (t, r) := takeFloat s
  if t.neg then none
  else match t.value with
    | none => none
    | some v =>
      if t.frac = none ∧ t.exp = none then
        -- an integer: no leading zeros, but any number of zeros is fine
        if t.int.head? = some '0' ∧ decVal t.int ≠ 0 then none else some (.int (decVal t.int : Nat), r)
      else some (.float v, r)

/-- `-x` -/
def Lit.negate : Lit → Option Lit
  | .int n => some (.int (-n))
  | .float q => some (.float (-q))
  | _ => none

/-- `+x` -/
def Lit.posate : Lit → Option Lit
  | .int n => some (.int n)
  | .float q => some (.float q)
  | _ => none

/-- comma-separated things up to the closing bracket. There may be a comma after the last one: `true`. `fuel` is the most things that there could be -/
def pySeq {α : Type} (f : List Char → Option (α × List Char)) (close : Char) : (fuel : Nat) → List Char → Option (List α × Bool × List Char)
  | 0, _ => none
  | n + 1, s =>
    match skipPy false s with
    | [] => none
    | c :: r =>
      if c = close then some ([], true, r)
      else match f (c :: r) with
        | none => none
        | some (v, r) =>
          match skipPy false r with
          | [] => none
          | c :: r =>
            if c = close then some ([v], false, r)
            else if c = ',' then
              match pySeq f close n r with
              | none => none
              | some (vs, b, r) => some (v :: vs, b, r)
            else none

/-- `key: value` -/
def pyPair (f : List Char → Option (Lit × List Char)) (s : List Char) : Option ((Lit × Lit) × List Char) :=
  match f s with
  | none => none
  | some (k, r) =>
    match skipPy false r with
    | ':' :: r =>
      match f r with
      | none => none
      | some (v, r) => some ((k, v), r)
    | _ => none

/-- what may be the key of a dict. Tuples can be keys also; this isn't modelled -/
def Lit.hashable : Lit → Bool
  | .list _ => false
  | .tuple _ => false
  | .dict _ => false
  | _ => true

/-- a literal. `depth` is the most nested brackets that there could be. Not modelled (`none`): adjacent strings, string prefixes other than "b" -/
def pyLit : (depth : Nat) → List Char → Option (Lit × List Char)
  | 0, _ => none
  | n + 1, s =>
    match skipPy false s with
    | [] => none
    | c :: r =>
      if c = '{' then
        match pySeq (pyPair (pyLit n)) '}' (r.length + 1) r with
        | none => none
        | some (l, _, r) => if l.all fun p => p.1.hashable then some (.dict l, r) else none
      else if c = '[' then
        match pySeq (pyLit n) ']' (r.length + 1) r with
        | none => none
        | some (l, _, r) => some (.list l, r)
      else if c = '(' then
        match pySeq (pyLit n) ')' (r.length + 1) r with
        | none => none
        | some ([v], false, r) => some (v, r)
        | some (l, _, r) => some (.tuple l, r)
      else if c = '\'' ∨ c = '"' then
        match pyQuoted c r with
        | none => none
        | some (s, r) => some (.str s, r)
      else if c = 'b' ∧ (r.head? = some '\'' ∨ r.head? = some '"') then
        match pyQuoted (r.headD ' ') r.tail with
        | none => none
        | some (s, r) => if s.all fun c => c.toNat < 128 then some (.bytes s, r) else none
      else if c = '-' then
        match pyNumber (skipPy false r) with
        | none => none
        | some (v, r) => v.negate.map fun v => (v, r)
      else if c = '+' then
        match pyNumber (skipPy false r) with
        | none => none
        | some (v, r) => v.posate.map fun v => (v, r)
      else pyNumber (c :: r)

/-- `ast.literal_eval(s)` of a dict. `none`: exception, or what isn't modelled. Spaces and tabs at the start are removed. The dict must start at the start of its line then -/
def literalEval (s : List Char) : Option (List (Lit × Lit)) :=
  if '\x00' ∈ s then none
  else
    let s := s.dropWhile fun c => c = ' ' || c = '\t'
    let r := skipPy false s
    match (s.take (s.length - r.length)).getLast? with
    | some ' ' => none
    | some '\t' => none
    | some '\x0c' => none
    | _ =>
      match pyLit (s.length + 1) r with
      | some (.dict l, r) => if skipPy false r = [] then some l else none
      | _ => none

/-! ### the reader -/

/-- `str.replace()` of all the occurrences. `n`: the number of characters to skip -/
def replaceAll (pat by' : List Char) : (n : Nat) → List Char → List Char
  | _, [] => []
  | n + 1, _ :: cs => replaceAll pat by' n cs
  | 0, c :: cs => if pat.isPrefixOf (c :: cs) then by' ++ replaceAll pat by' (pat.length - 1) cs else c :: replaceAll pat by' 0 cs

/-- `d[key]`. The last one wins -/
def lookup (d : List (Lit × Lit)) (key : String) : Option Lit :=
  (d.reverse.find? fun p => match p.1 with
    | .str s => decide (s = key.toList)
    | _ => false).map Prod.snd

def Lit.num : Lit → Option ℚ
  | .int n => some n
  | .float q => some q
  | _ => none

/-- the elements of a list or a tuple -/
def Lit.elems : Lit → Option (List Lit)
  | .list l => some l
  | .tuple l => some l
  | _ => none

/-- `np.array(x, dtype=float)` with one dimension. Not modelled (`none`): strings as numbers -/
def Lit.nums (x : Lit) : Option (List ℚ) := x.elems.bind fun l => l.mapM Lit.num

/-- `str`s only -/
def Lit.string : Lit → Option (List Char)
  | .str s => some s
  | _ => none

/-- `isinstance(x,int)` -/
def Lit.toInt : Lit → Option Int
  | .int n => some n
  | _ => none

/-- np.all(np.abs(diff) < 1e-9). Broadcasting isn't modelled: arrays of different lengths are refused -/
def close9 (a b : List ℚ) : Bool := decide (a.length = b.length) && (a.zip b).all fun p => decide (|p.1 - p.2| < 1 / 1000000000)

/-- renamed('extrinsics', 'rt_cam_ref', check_equal = True) cameramodel.py:588-618, and `_validateExtrinsics` cameramodel.py:44-60. `none`: exception -/
def readPose (extrinsics rt_cam_ref : Option Lit) : Option (List ℚ) := do
  let rt ← match extrinsics, rt_cam_ref with
    | none, none => none
    | some e, none => e.nums
    | none, some rt => rt.nums
    | some e, some rt => do
      let e ← e.nums
      let rt ← rt.nums
      if close9 e rt then some rt else none
  if rt.length = 6 then some rt else none

/-- the imager size: `_validateIntrinsics` cameramodel.py:71-78, and np.array(..., dtype=np.int32). `none`: exception -/
def readSize (x : Lit) : Option (Int × Int) :=
  match x.nums with
  | some [w, h] => if 0 < w ∧ 0 < h ∧ w = w.floor ∧ h = h.floor ∧ w < 2 ^ 31 ∧ h < 2 ^ 31 then some (w.floor, h.floor) else none
  | _ => none

/-- two numbers -/
def pair2 : List ℚ → Option (ℚ × ℚ)
  | [x, y] => some (x, y)
  | _ => none

/-- the valid-intrinsics region: cameramodel.py:633-638, 645-649, 654. The inner `none` is None, the outer one is an exception. Not modelled (outer `none`): lists of things other than numbers -/
def readRegion : Option Lit → Option (Option (List (ℚ × ℚ)))
  | none => some none
  | some x => do
    let l ← x.elems
    if l = [] then some (some [])
    else match l.mapM Lit.nums with
      | some rows =>
        -- all the rows have the same length, or np.array() raises an exception
        if rows.all fun r => decide (r.length = (rows.headD []).length) then
          match rows.mapM pair2 with
          | none => some none
          | some r => if validateRegion (some r) then some (some (closeContour r)) else some none
        else none
      | none => match l.mapM Lit.num with
        | some _ => some none
        | none => none

/-- the optimization inputs: cameramodel.py:658-684. The result is _optimization_inputs_string, _icam_intrinsics, _icam_extrinsics. `none`: exception -/
def readOpt (opt icamI icamE : Option Lit) : Option (Option Stored × Option Int × Option Int) :=
  match opt with
  | some (.bytes s) => do
    let i ← icamI
    let i ← i.toInt
    if i < 0 then none
    else match icamE with
      | none => some (some (.bytes s), some i, none)
      | some e => do
        let e ← e.toInt
        some (some (.bytes s), some i, some e)
  | some _ => none
  | none => match icamI, icamE with
    | none, none => some (none, none, none)
    | _, _ => none

/-- `_read_into_self` cameramodel.py:561-684 of the text of a file. `none`: exception -/
def read (s : List Char) : Option (Obj ℚ (List ℚ)) := do
  let d ← literalEval s
  let lensmodel ← (lookup d "lensmodel").or ((lookup d "distortion_model").or (lookup d "lens_model"))
  let name ← lensmodel.string
  let name := replaceAll "DISTORTION".toList "LENSMODEL".toList 0 name
  let intrinsics ← lookup d "intrinsics"
  let intrinsics ← intrinsics.nums
  let rt ← readPose (lookup d "extrinsics") (lookup d "rt_cam_ref")
  let imagersize ← lookup d "imagersize"
  let imagersize ← readSize imagersize
  let region ← readRegion (lookup d "valid_intrinsics_region")
  let opt ← readOpt (lookup d "optimization_inputs") ((lookup d "icam_intrinsics").or (lookup d "icam_intrinsics_optimization_inputs")) (lookup d "icam_extrinsics")
  if numParams name = some intrinsics.length then some ⟨imagersize, name, intrinsics, region, rt, opt.1, opt.2.1, opt.2.2⟩ else none

end Mrcal.ModelPy

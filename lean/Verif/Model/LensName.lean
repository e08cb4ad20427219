import Verif.Model.Lens
/-
Lens-model names: printing (mrcal_lensmodel_name mrcal.c:92-112), parsing (mrcal_lensmodel_from_name
mrcal.c:165-221, mrcal_lensmodel_type_from_name mrcal.c:226-255), and the printf()/scanf() conversions these use.

Strings are lists of characters; the C strings have no embedded '\0', so neither do these.
-/
namespace Mrcal.Name

/-! ### printf -/

def digitChar (d : Nat) : Char := Char.ofNat (48 + d)

/-- what "%hu" (PRIu16, types.h:92-99) prints -/
def printNat (n : Nat) : List Char :=
  if n < 10 then [digitChar n] else printNat (n / 10) ++ [digitChar (n % 10)]
termination_by n
decreasing_by omega

/-- rounding to an integer, half to even: what glibc's printf() does with the exact value of a `double` -/
def roundHalfEven (q : Rat) : Int :=
  let f := q.floor
  let d := q - f
  if d < 1 / 2 then f else if d > 1 / 2 then f + 1 else if f % 2 = 0 then f else f + 1

/-- what "%.2f" (types.h:85) prints. A `double` is a rational here: infinities, NaN and -0.0 are not modelled. -/
def printF2 (q : Rat) : List Char :=
  let n := (roundHalfEven ((if q < 0 then -q else q) * 100)).toNat
  (if q < 0 then ['-'] else []) ++ printNat (n / 100) ++ ['.', digitChar (n % 100 / 10), digitChar (n % 10)]

/-- The type of a lens model, without the configuration: `mrcal_lensmodel_type_t` types.h:108-127, without the
error values -/
inductive Ty
  | pinhole | stereographic | lonlat | latlon | opencv4 | opencv5 | opencv8 | opencv12 | cahvor
  | cahvore | splined
  deriving DecidableEq, Repr

/-- the stringified model names types.h:33-48 -/
def Ty.str : Ty → List Char
  | .pinhole => "LENSMODEL_PINHOLE".toList
  | .stereographic => "LENSMODEL_STEREOGRAPHIC".toList
  | .lonlat => "LENSMODEL_LONLAT".toList
  | .latlon => "LENSMODEL_LATLON".toList
  | .opencv4 => "LENSMODEL_OPENCV4".toList
  | .opencv5 => "LENSMODEL_OPENCV5".toList
  | .opencv8 => "LENSMODEL_OPENCV8".toList
  | .opencv12 => "LENSMODEL_OPENCV12".toList
  | .cahvor => "LENSMODEL_CAHVOR".toList
  | .cahvore => "LENSMODEL_CAHVORE".toList
  | .splined => "LENSMODEL_SPLINED_STEREOGRAPHIC".toList

/-- MRCAL_LENSMODEL_NOCONFIG_LIST types.h:33-42, in order -/
def noconfigList : List (Ty × Lens) :=
  [(.pinhole, .pinhole), (.stereographic, .stereographic), (.lonlat, .lonlat), (.latlon, .latlon),
   (.opencv4, .opencv4), (.opencv5, .opencv5), (.opencv8, .opencv8), (.opencv12, .opencv12), (.cahvor, .cahvor)]

/-- the `.type` of a valid `mrcal_lensmodel_t` -/
def tyOf : Lens → Ty
  | .pinhole => .pinhole | .stereographic => .stereographic | .lonlat => .lonlat | .latlon => .latlon
  | .opencv4 => .opencv4 | .opencv5 => .opencv5 | .opencv8 => .opencv8 | .opencv12 => .opencv12
  | .cahvor => .cahvor | .cahvore _ => .cahvore | .splined .. => .splined

/-- the text `mrcal_lensmodel_name` mrcal.c:92-112 prints, with LENSMODEL_CAHVORE__snprintf_model mrcal.c:74-82
and LENSMODEL_SPLINED_STEREOGRAPHIC__snprintf_model mrcal.c:83-91 -/
def fullName : Lens → List Char
  | .cahvore l => Ty.cahvore.str ++ "_linearity=".toList ++ printF2 l
  | .splined order Nx Ny fov => Ty.splined.str ++ "_order=".toList ++ printNat order ++ "_Nx=".toList ++ printNat Nx
      ++ "_Ny=".toList ++ printNat Ny ++ "_fov_x_deg=".toList ++ printNat fov
  | m => (tyOf m).str

/-- `mrcal_lensmodel_name` mrcal.c:92-112: (what ends up in the buffer, returned value). `snprintf` writes at
most `size-1` characters and returns the length of the whole text. -/
def lensmodelName (size : Int) (m : Lens) : List Char × Bool :=
  ((fullName m).take (size - 1).toNat, decide (size > (fullName m).length))

/-! ### scanf -/

def isSpace (c : Char) : Bool := c = ' ' || c = '\t' || c = '\n' || c = '\r' || c.toNat = 11 || c.toNat = 12
def isDigit (c : Char) : Bool := decide (48 ≤ c.toNat) && decide (c.toNat ≤ 57)
def digitVal (c : Char) : Nat := c.toNat - 48

def skipSpace (s : List Char) : List Char := s.dropWhile isSpace

/-- optional sign. `true` is a '-' -/
def takeSign : List Char → Bool × List Char
  | '-' :: s => (true, s)
  | '+' :: s => (false, s)
  | s => (false, s)

def decVal (ds : List Char) : Nat := ds.foldl (fun v c => v * 10 + digitVal c) 0

/-- "%hu" (SCNu16). The C standard leaves out-of-range values undefined; this is what glibc does: strtoul()
into an `unsigned long`, saturating, then the low 16 bits. -/
def scanU16 (s : List Char) : Option (Nat × List Char) :=
  let (neg, s) := takeSign (skipSpace s)
  let ds := s.takeWhile isDigit
  if ds = [] then none
  else
    let v := decVal ds
    let u := if v ≥ 2 ^ 64 then 2 ^ 64 - 1 else if neg then (2 ^ 64 - v) % 2 ^ 64 else v
    some (u % 2 ^ 16, s.dropWhile isDigit)

/-- "%lf". Simplification: decimal notation without an exponent only. scanf() would accept exponents,
hexadecimal, "inf" and "nan" also. The value is the exact decimal one: it's not rounded to a `double`. -/
def scanF (s : List Char) : Option (Rat × List Char) :=
  let (neg, s) := takeSign (skipSpace s)
  let int := s.takeWhile isDigit
  let s := s.dropWhile isDigit
  let (frac, s) : List Char × List Char := match s with
    | '.' :: s => (s.takeWhile isDigit, s.dropWhile isDigit)
    | s => ([], s)
  if int = [] ∧ frac = [] then none
  else
    let v : Rat := (decVal (int ++ frac) : Nat) / ((10 ^ frac.length : Nat) : Rat)
    some (if neg then -v else v, s)

/-- literal (non-space) characters in a scanf() format -/
def scanLit : List Char → List Char → Option (List Char)
  | [], s => some s
  | _ :: _, [] => none
  | c :: l, d :: s => if c = d then scanLit l s else none

/-- LENSMODEL_CAHVORE__scan_model_config mrcal.c:117-128 -/
def scanCahvore (s : List Char) : Option Lens := do
  let s ← scanLit "_linearity=".toList s
  let (l, s) ← scanF s
  if s = [] then some (.cahvore l) else none

/-- LENSMODEL_SPLINED_STEREOGRAPHIC__scan_model_config mrcal.c:129-140 -/
def scanSplined (s : List Char) : Option Lens := do
  let s ← scanLit "_order=".toList s
  let (order, s) ← scanU16 s
  let s ← scanLit "_Nx=".toList s
  let (Nx, s) ← scanU16 s
  let s ← scanLit "_Ny=".toList s
  let (Ny, s) ← scanU16 s
  let s ← scanLit "_fov_x_deg=".toList s
  let (fov, s) ← scanU16 s
  if s = [] then some (.splined order Nx Ny fov) else none

/-- the results of `mrcal_lensmodel_from_name` types.h:109-121 -/
inductive Parsed
  | ok (m : Lens)
  | invalidMissingConfig
  | invalidBadConfig
  | invalidType
  deriving DecidableEq, Repr

/-- CHECK_AND_RETURN_WITHCONFIG mrcal.c:178-205. `none`: not this model, keep looking -/
def checkConfig (t : Ty) (scan : List Char → Option Lens) (name : List Char) : Option Parsed :=
  if name.take t.str.length = t.str then
    match name.drop t.str.length with
    | [] => some .invalidMissingConfig
    | c :: s =>
      if c = '_' then
        match scan (c :: s) with
        | some m => some (.ok m)
        | none => some .invalidBadConfig
      else none
  else none

/-- `mrcal_lensmodel_from_name` mrcal.c:165-221. A NULL name is `none` -/
def fromName (name : Option (List Char)) : Parsed :=
  match name with
  | none => .invalidType
  | some name =>
    match noconfigList.find? (fun p => p.1.str == name) with
    | some p => .ok p.2
    | none =>
      match checkConfig .cahvore scanCahvore name with
      | some r => r
      | none =>
        match checkConfig .splined scanSplined name with
        | some r => r
        | none => .invalidType

/-- CHECK_AND_RETURN_WITHCONFIG mrcal.c:231-240 -/
def checkType (t : Ty) (name : List Char) : Bool :=
  decide (name.take t.str.length = t.str) &&
    (match name.drop t.str.length with
      | [] => true
      | c :: _ => c = '_')

/-- `mrcal_lensmodel_type_from_name` mrcal.c:226-255. `none` is MRCAL_LENSMODEL_INVALID_TYPE -/
def typeFromName (name : Option (List Char)) : Option Ty :=
  match name with
  | none => none
  | some name =>
    match noconfigList.find? (fun p => p.1.str == name) with
    | some p => some p.1
    | none =>
      if checkType .cahvore name then some .cahvore
      else if checkType .splined name then some .splined
      else none

end Mrcal.Name

import Verif.Model.LensName
/-
Reading and writing .cameramodel files in C: cameramodel-parser.re, mrcal_write_cameramodel_file mrcal.c:6626-6678

The text is a list of characters. The end of the list is the terminating 0 byte: `readCameramodelString` cuts the text at the first 0.
The lexer is generated by re2c: each rule matches the longest possible text. None of the rules here are ambiguous, so each of
the pieces of a rule takes as much text as it can.
-/
namespace Mrcal.ModelFile
open Mrcal.Name

/-! ### the lexer -/

/-- SPACE cameramodel-parser.re:51 -/
def isWs (c : Char) : Bool := c = ' ' || c = '\t' || c = '\n' || c = '\r'

/-- IGNORE cameramodel-parser.re:52: whitespace and comments. `some start`: we're in a comment that began at `start`; a comment without a trailing newline isn't one -/
def skipIgn : Option (List Char) → List Char → List Char
  | none, [] => []
  | none, c :: cs => if isWs c then skipIgn none cs else if c = '#' then skipIgn (some (c :: cs)) cs else c :: cs
  | some start, [] => start
  | some start, c :: cs => if c = '\n' then skipIgn none cs else skipIgn (some start) cs

def skipIgnore (s : List Char) : List Char := skipIgn none s

/-- a FLOAT cameramodel-parser.re:55: "-"? [0-9]* ("."[0-9]*)? ([eE][+-]?[0-9]+)? -/
structure FloatTok where
  neg : Bool
  int : List Char
  frac : Option (List Char)
  exp : Option (Bool × List Char)

/-- the exponent, if it's there -/
def takeExp (s : List Char) : Option (Bool × List Char) × List Char :=
  match s with
  | [] => (none, [])
  | c :: cs =>
    if c = 'e' ∨ c = 'E' then
      let (neg, r) := takeSign cs
      if r.takeWhile isDigit = [] then (none, c :: cs) else (some (neg, r.takeWhile isDigit), r.dropWhile isDigit)
    else (none, c :: cs)

/-- matching a FLOAT. This never fails: an empty string is a FLOAT -/
def takeFloat (s : List Char) : FloatTok × List Char :=
  let (neg, s) : Bool × List Char := match s with
    | '-' :: s => (true, s)
    | s => (false, s)
  let int := s.takeWhile isDigit
  let s := s.dropWhile isDigit
  let (frac, s) : Option (List Char) × List Char := match s with
    | '.' :: s => (some (s.takeWhile isDigit), s.dropWhile isDigit)
    | s => (none, s)
  let (exp, s) := takeExp s
  (⟨neg, int, frac, exp⟩, s)

/-- doubles are at least this large only if they're infinite: anything at or above rounds to an infinity -/
def dblOverflow : Rat := 2 ^ 1024 - 2 ^ 970

/-- `strtod()` of a FLOAT, and the checks: cameramodel-parser.re:165-181. strtod() needs at least one digit before the exponent; it then takes the whole FLOAT. The value isn't rounded
to a `double` here. This assumes a locale with "." as the decimal point -/
def FloatTok.value (t : FloatTok) : Option Rat :=
  let frac := t.frac.getD []
  if t.int = [] ∧ frac = [] then none
  else
    let v : Rat := (decVal (t.int ++ frac) : Nat) / ((10 ^ frac.length : Nat) : Rat)
    let v := match t.exp with
      | none => v
      | some (false, e) => v * ((10 ^ decVal e : Nat) : Rat)
      | some (true, e) => v / ((10 ^ decVal e : Nat) : Rat)
    if v < dblOverflow then some (if t.neg then -v else v) else none

/-- `ingest_double_consume_ignorable` cameramodel-parser.re:139-185 -/
def ingestDouble (s : List Char) : Option (Rat × List Char) :=
  let (t, r) := takeFloat (skipIgnore s)
  match t.value with
  | none => none
  | some v => some (v, skipIgnore r)

/-- matching an UNSIGNED_INT cameramodel-parser.re:56 -/
def takeUint (s : List Char) : Option (List Char × List Char) :=
  match s with
  | [] => none
  | c :: cs =>
    if c = '0' then some ([c], cs)
    else if isDigit c then some ((c :: cs).takeWhile isDigit, (c :: cs).dropWhile isDigit)
    else none

/-- glibc's `atoi()` of a string of digits: strtol() into a 64-bit `long`, saturating, then the low 32 bits as an `int` -/
def atoi (ds : List Char) : Int :=
  let l : Nat := min (decVal ds) (2 ^ 63 - 1) % 2 ^ 32
  if l < 2 ^ 31 then (l : Int) else (l : Int) - 2 ^ 32

/-- `ingest_uint_consume_ignorable` cameramodel-parser.re:187-232 -/
def ingestUint (s : List Char) : Option (Nat × List Char) :=
  match takeUint (skipIgnore s) with
  | none => none
  | some (tok, r) => if atoi tok < 0 then none else some ((atoi tok).toNat, skipIgnore r)

/-- `read_string` cameramodel-parser.re:69-102 -/
def readString (s : List Char) : Option (List Char × List Char) :=
  let s := skipIgnore s
  let s := match s with
    | 'b' :: s => s
    | s => s
  match s with
  | [] => none
  | q :: s =>
    if q = '"' ∨ q = '\'' then
      match s.dropWhile (fun c => !(c = '"' || c = '\'')) with
      | [] => none
      | _ :: rest => some (s.takeWhile (fun c => !(c = '"' || c = '\'')), rest)
    else none

/-- `read_value` cameramodel-parser.re:104-132 -/
def readValue (s : List Char) : Option (List Char) :=
  let (t, r) := takeFloat (skipIgnore s)
  if ¬ t.neg ∧ t.int = [] ∧ t.frac = none ∧ t.exp = none then none
  else if ¬ t.neg ∧ t.int = [] ∧ t.frac = some [] ∧ t.exp = none then none
  else some r

/-- the comma-terminated values of a list, and the last one: cameramodel-parser.re:260-282. `n` values precede the last one -/
def readItems {α : Type} (f : List Char → Option (α × List Char)) : Nat → List Char → Option (List α × List Char)
  | 0, s =>
    match f s with
    | none => none
    | some (v, r) =>
      match r with
      | ',' :: r => some ([v], r)
      | r => some ([v], r)
  | n + 1, s =>
    match f s with
    | none => none
    | some (v, r) =>
      match r with
      | ',' :: r =>
        match readItems f n r with
        | none => none
        | some (vs, r) => some (v :: vs, r)
      | _ => none

/-- `read_list_values_generic` cameramodel-parser.re:234-298 -/
def readList {α : Type} (f : List Char → Option (α × List Char)) (Nvalues : Nat) (s : List Char) : Option (List α × List Char) :=
  match skipIgnore s with
  | [] => none
  | c :: s =>
    if c = '[' ∨ c = '(' then
      match readItems f (Nvalues - 1) s with
      | none => none
      | some (vs, r) =>
        match skipIgnore r with
        | [] => none
        | c :: r => if c = ']' ∨ c = ')' then some (vs, r) else none
    else none

/-- [0-9eE.,-] cameramodel-parser.re:309 -/
def isJunk (c : Char) : Bool := isDigit c || c = 'e' || c = 'E' || c = '.' || c = ',' || c = '-'

/-- (IGNORE | [0-9eE.,-]*)* cameramodel-parser.re:309,314 -/
def skipJunk : Option (List Char) → List Char → List Char
  | none, [] => []
  | none, c :: cs => if isWs c || isJunk c then skipJunk none cs else if c = '#' then skipJunk (some (c :: cs)) cs else c :: cs
  | some start, [] => start
  | some start, c :: cs => if c = '\n' then skipJunk none cs else skipJunk (some start) cs

/-- `read_balanced_list` cameramodel-parser.re:300-352. `fuel` is the most brackets that there could be -/
def readBalanced : (fuel : Nat) → (level : Nat) → List Char → Option (List Char)
  | 0, _, _ => none
  | fuel + 1, level, s =>
    match skipJunk none s with
    | [] => none
    | c :: r =>
      if c = '[' ∨ c = '(' then readBalanced fuel (level + 1) r
      else if c = ']' ∨ c = ')' then
        let r := skipIgnore r
        match level with
        | 0 => none
        | 1 => some r
        | level + 1 =>
          match r with
          | ',' :: r => readBalanced fuel level r
          | r => readBalanced fuel level r
      else none

/-- the value of an unknown key: cameramodel-parser.re:565-577 -/
def readUnknown (s : List Char) : Option (List Char) :=
  match readValue s with
  | some r => some r
  | none =>
    match readString s with
    | some (_, r) => some r
    | none => readBalanced (s.length + 1) 0 s

/-- what follows a value: cameramodel-parser.re:580-600. `true`: the closing brace -/
def readSeparator (s : List Char) : Option (Bool × List Char) :=
  match skipIgnore s with
  | '}' :: r => some (true, r)
  | ',' :: r =>
    match skipIgnore r with
    | '}' :: r' => some (true, r')
    | _ => some (false, r)
  | _ => none

/-! ### the parser -/

/-- what was read so far: cameramodel-parser.re:380-391. In C an `rt_cam_ref` not yet seen is one whose first element is DBL_MAX: here it's `none`; so a file that contains
the value DBL_MAX in its extrinsics isn't modelled -/
structure St where
  lens : Option Lens
  intrinsics : Option (List Rat)
  rt_cam_ref : Option (List Rat)
  imagersize : Nat × Nat

/-- the result of one key:value -/
inductive Step (α : Type)
  /-- a failure. The value is what the caller sees in `*Nintrinsics_max` -/
  | fail (Nintrinsics_needed : Nat)
  | ok (v : α)

/-- "extrinsics defined more than once and aren't identical" cameramodel-parser.re:540-545 -/
def rtAgree (a b : List Rat) : Bool := (a.zip b).all fun p => decide (¬ (1e-9 < (if p.1 - p.2 < 0 then -(p.1 - p.2) else p.1 - p.2)))

/-- "Nintrinsics > *Nintrinsics_max" cameramodel-parser.re:494-518 -/
def tooSmall (N : Nat) : Option Nat → Bool
  | none => false
  | some n => decide (N > n)

/-- the value of the given key: cameramodel-parser.re:458-578. `buf`: the size of the preallocated buffer for the intrinsics; `none`: it is allocated here -/
def readKeyValue (buf : Option Nat) (key : List Char) (st : St) (s : List Char) : Step (St × List Char) :=
  if key = "lensmodel".toList then
    if st.lens.isSome then .fail 0
    else match readString s with
      | none => .fail 0
      | some (name, r) =>
        match fromName (some name) with
        | .ok L => .ok ({ st with lens := some L }, r)
        | _ => .fail 0
  else if key = "intrinsics".toList then
    if st.intrinsics.isSome then .fail 0
    else match st.lens with
      | none => .fail 0
      | some L =>
        let N := L.numParams.toNat
        if tooSmall N buf then .fail N
        else match readList ingestDouble N s with
          | none => .fail 0
          | some (v, r) => .ok ({ st with intrinsics := some v }, r)
  else if key = "extrinsics".toList ∨ key = "rt_cam_ref".toList then
    match readList ingestDouble 6 s with
    | none => .fail 0
    | some (v, r) =>
      match st.rt_cam_ref with
      | some rt => if rtAgree v rt then .ok (st, r) else .fail 0
      | none => .ok ({ st with rt_cam_ref := some v }, r)
  else if key = "imagersize".toList then
    if st.imagersize.1 > 0 then .fail 0
    else match readList ingestUint 2 s with
      | some ([w, h], r) => .ok ({ st with imagersize := (w, h) }, r)
      | _ => .fail 0
  else match readUnknown s with
    | none => .fail 0
    | some r => .ok (st, r)

/-- the loop over the keys: cameramodel-parser.re:433-618. `fuel` is the most keys that there could be -/
def readKeys (buf : Option Nat) : (fuel : Nat) → St → List Char → Step St
  | 0, _, _ => .fail 0
  | fuel + 1, st, s =>
    match readString s with
    | none => .fail 0
    | some (key, s) =>
      match skipIgnore s with
      | ':' :: s =>
        match readKeyValue buf key st s with
        | .fail n => .fail n
        | .ok (st, s) =>
          match readSeparator s with
          | none => .fail 0
          | some (false, s) => readKeys buf fuel st s
          | some (true, s) => if skipIgnore s = [] then .ok st else .fail 0
      | _ => .fail 0

/-- `mrcal_cameramodel_VOID_t` with its intrinsics -/
structure Model where
  lens : Lens
  intrinsics : List Rat
  rt_cam_ref : List Rat
  imagersize : Nat × Nat
  deriving DecidableEq

/-- the checks at the end: cameramodel-parser.re:637-656 -/
def finish (st : St) : Step Model :=
  match st.lens, st.intrinsics, st.rt_cam_ref with
  | some L, some i, some rt => if st.imagersize.1 > 0 then .ok ⟨L, i, rt, st.imagersize⟩ else .fail 0
  | _, _, _ => .fail 0

/-- `read_cameramodel_from_string` cameramodel-parser.re:356-656. Memory allocation failures are not modelled. The contents of a preallocated buffer after a failure are not modelled: some of the intrinsics
may have been written to it -/
def readModel (buf : Option Nat) (text : List Char) : Step Model :=
  let s := text.takeWhile (fun c => c ≠ '\x00')
  match skipIgnore s with
  | '{' :: s =>
    match readKeys buf (s.length + 1) ⟨none, none, none, (0, 0)⟩ (skipIgnore s) with
    | .fail n => .fail n
    | .ok st => finish st
  | _ => .fail 0

/-- `mrcal_read_cameramodel_string` cameramodel-parser.re:744-754, with `len` giving the end of the text. `none` is NULL -/
def readCameramodelString (text : List Char) : Option Model :=
  match readModel none text with
  | .ok m => some m
  | .fail _ => none

/-- `mrcal_read_cameramodel_string_into` cameramodel-parser.re:771-781: the model if successful, and the resulting `*Nintrinsics_max` -/
def readCameramodelStringInto (Nintrinsics_max : Nat) (text : List Char) : Option Model × Nat :=
  match readModel (some Nintrinsics_max) text with
  | .ok m => (some m, 0)
  | .fail n => (none, n)

/-! ### the writer -/

/-- what "%f" prints. The value is a rational: infinities, NaN and -0.0 are not modelled -/
def printF6 (q : Rat) : List Char :=
  let n := (roundHalfEven ((if q < 0 then -q else q) * 1000000)).toNat
  (if q < 0 then ['-'] else []) ++ printNat (n / 1000000) ++ '.' :: [digitChar (n / 100000 % 10), digitChar (n / 10000 % 10), digitChar (n / 1000 % 10),
    digitChar (n / 100 % 10), digitChar (n / 10 % 10), digitChar (n % 10)]

/-- `mrcal_write_cameramodel_file` mrcal.c:6626-6678: the contents of the file. `none`: a failure. I/O errors are not modelled -/
def writeModel (m : Model) : Option (List Char) :=
  let (name, ok) := lensmodelName 1024 m.lens
  if !ok then none
  else some ("{\n".toList ++ "  'lensmodel':  '".toList ++ name ++ "',\n".toList ++ "  'intrinsics': [ ".toList
    ++ (m.intrinsics.flatMap fun v => printF6 v ++ ", ".toList) ++ "],\n".toList
    ++ "  'imagersize': [ ".toList ++ printNat m.imagersize.1 ++ ", ".toList ++ printNat m.imagersize.2 ++ " ],\n".toList
    ++ "  'extrinsics': [ ".toList ++ printF6 (m.rt_cam_ref.getD 0 0) ++ ", ".toList ++ printF6 (m.rt_cam_ref.getD 1 0) ++ ", ".toList
    ++ printF6 (m.rt_cam_ref.getD 2 0) ++ ", ".toList ++ printF6 (m.rt_cam_ref.getD 3 0) ++ ", ".toList
    ++ printF6 (m.rt_cam_ref.getD 4 0) ++ ", ".toList ++ printF6 (m.rt_cam_ref.getD 5 0) ++ " ]\n".toList ++ "}\n".toList)

end Mrcal.ModelFile

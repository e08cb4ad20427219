import Verif.Model.LensName
import Mathlib.Data.Rat.Floor
/-
Point clouds in .ply files: write_point_cloud_as_ply() /repo/mrcal/utils.py:1578-1750.

Numbers are rationals: infinities, NaN and -0.0 aren't modelled. A file is a list of characters, each of them is one byte. Errors of the filesystem aren't modelled. The exceptions are all raised before the
file is opened.
-/
namespace Mrcal.Ply

open Mrcal.Name

/-- an array of numpy: its shape, and the elements -/
structure Nd where
  shape : List Nat
  at_ : List Nat → ℚ

/-- what numpy does when it converts a number: to a float32 (the 32 bits of the result), and to a uint8. What is left of numbers that don't fit into a uint8 depends on the type of the array and on the hardware: `u8` is any function
that's right about those that do fit -/
structure Np where
  f32 : ℚ → Nat
  u8 : ℚ → Nat
  f32_lt : ∀ q, f32 q < 2 ^ 32
  u8_lt : ∀ q, u8 q < 256
  u8_eq : ∀ q, 0 ≤ q → q < 256 → (u8 q : Int) = ⌊q⌋

/-- the colors, once they're separated from the points -/
inductive Color
  | none
  | gray (c : Nat → ℚ)
  | bgr (c : Nat → Nat → ℚ)

/-- lines 1632-1669: the checks; the number of points, the points, the colors. `none`: an exception -/
def prepare (points : Nd) (color : Option Nd) : Option (Nat × (Nat → Nat → ℚ) × Color) :=
  match points.shape with
  | [N, Nt] =>
    if ¬ (Nt = 3 ∨ Nt = 4 ∨ Nt = 6) then none
    else
      let p := fun i j => points.at_ [i, j]
      match color with
      | some c =>
        if Nt ≠ 3 then none
        else if c.shape.length > 2 then none
        -- an array without dimensions fails with an IndexError
        else if c.shape.head? ≠ some N then none
        else if ¬ (c.shape = [N] ∨ c.shape = [N, 3]) then none
        else some (N, p, if c.shape.length = 1 then .gray (fun i => c.at_ [i]) else .bgr (fun i j => c.at_ [i, j]))
      | none =>
        if Nt = 4 then some (N, p, .gray (fun i => points.at_ [i, 3]))
        else if Nt = 6 then some (N, p, .bgr (fun i j => points.at_ [i, 3 + j]))
        else some (N, p, .none)
  | _ => none

/-- `header_color` lines 1682-1696 -/
def headerColor : Color → List Char
  | .gray _ => "property uchar intensity\n".toList
  | .bgr _ => "property uchar red\nproperty uchar green\nproperty uchar blue\n".toList
  | .none => []

/-- `ply_header` lines 1698-1705 -/
def header (binary : Bool) (N : Nat) (c : Color) : List Char :=
  "ply\nformat ".toList ++ (if binary then "binary_little_endian".toList else "ascii".toList) ++ " 1.0\nelement vertex ".toList ++ printNat N
    ++ "\nproperty float x\nproperty float y\nproperty float z\n".toList ++ headerColor c ++ "end_header\n".toList

/-- a byte -/
def byte (n : Nat) : Char := Char.ofNat n

/-- 32 bits, in memory -/
def le4 (n : Nat) : List Char := [byte (n % 256), byte (n / 256 % 256), byte (n / 65536 % 256), byte (n / 16777216 % 256)]

/-- one element of `binary_ply` lines 1712-1723 -/
def binaryRow (np : Np) (p : Nat → Nat → ℚ) (c : Color) (i : Nat) : List Char :=
  le4 (np.f32 (p i 0)) ++ le4 (np.f32 (p i 1)) ++ le4 (np.f32 (p i 2)) ++
    match c with
    | .none => []
    | .gray c => [byte (np.u8 (c i))]
    | .bgr c => [byte (np.u8 (c i 2)), byte (np.u8 (c i 1)), byte (np.u8 (c i 0))]

/-- `'%.1f' % q` -/
def printF1 (q : ℚ) : List Char :=
  let n := (roundHalfEven ((if q < 0 then -q else q) * 10)).toNat
  (if q < 0 then ['-'] else []) ++ printNat (n / 10) ++ ['.', digitChar (n % 10)]

/-- `'%d' % q` of a floating-point number -/
def printD (q : ℚ) : List Char :=
  let z : Int := if 0 ≤ q then ⌊q⌋ else ⌈q⌉
  (if z < 0 then ['-'] else []) ++ printNat z.natAbs

/-- `np.savetxt()`: the columns, separated by a space -/
def joinSp : List (List Char) → List Char
  | [] => []
  | [w] => w
  | w :: ws => w ++ ' ' :: joinSp ws

/-- one row of the text lines 1727-1750 -/
def asciiRow (p : Nat → Nat → ℚ) (c : Color) (i : Nat) : List Char :=
  joinSp ([printF1 (p i 0), printF1 (p i 1), printF1 (p i 2)] ++
    match c with
    | .none => []
    | .gray c => [printD (c i)]
    | .bgr c => [printD (c i 2), printD (c i 1), printD (c i 0), printD 255]) ++ ['\n']

/-- `write_point_cloud_as_ply()`: the content of the file. `none`: an exception, and no file -/
def write (np : Np) (points : Nd) (color : Option Nd) (binary : Bool) : Option (List Char) :=
  match prepare points color with
  | none => none
  | some (N, p, c) =>
    some (header binary N c ++ (List.range N).flatMap (if binary then binaryRow np p c else asciiRow p c))

end Mrcal.Ply

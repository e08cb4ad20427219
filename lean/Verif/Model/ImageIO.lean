import Verif.Model.LensName
import Mathlib.Data.Rat.Floor
/-
Images: the accessors in image.h, and image.c. Encoding and decoding of .png and .jpg files is done by libraries that aren't modelled: we look at what is passed to them.
Memory is a map from addresses to bytes.
-/
namespace Mrcal.ImageIO

abbrev Mem := Int → UInt8

/-- `mrcal_image_TYPE_t` image.h:67-80 -/
structure Img where
  width : Nat
  height : Nat
  stride : Int
  data : Int

/-- a 64-bit offset, interpreted as a signed one -/
def signed64 (v : Int) : Int := (v + 2 ^ 63) % 2 ^ 64 - 2 ^ 63

/-- `mrcal_image_TYPE_at` image.h:83-93: the address of a pixel. `sz` is sizeof(T). `y*stride` is an `int` (overflow isn't modelled); dividing it by `sizeof(T)` makes it a `size_t`.
Adding that to `x` and to the pointer wraps -/
def Img.at_ (im : Img) (sz : Nat) (x y : Int) : Int := im.data + signed64 (sz * (x + (y * im.stride) % 2 ^ 64 / sz))

/-- `mrcal_image_TYPE_crop` image.h:95-109 -/
def Img.crop (im : Img) (sz : Nat) (x0 y0 : Int) (w h : Nat) : Img := ⟨w, h, im.stride, im.at_ sz x0 y0⟩

/-! ### bgr and rgb -/

/-- exchange two bytes -/
def swapBytes (m : Mem) (a b : Int) : Mem := fun c => if c = a then m b else if c = b then m a else m c

/-- `bgr_tofrom_rgb` image.c:32-46 -/
def bgrTofromRgb (im : Img) (m : Mem) : Mem :=
  (List.range im.height).foldl (fun m (i : Nat) =>
    let row := im.at_ 3 0 i
    (List.range im.width).foldl (fun m (j : Nat) => swapBytes m (row + 3 * j) (row + 3 * j + 2)) m) m

/-! ### file names -/

/-- `get_extension` image.c:48-59 -/
def getExtension (filename : List Char) : Option (List Char) :=
  if filename.length < 5 then none else some (filename.drop (filename.length - 4))

/-- `tolower()` in the "C" locale -/
def lower (c : Char) : Char := if 65 ≤ c.toNat ∧ c.toNat ≤ 90 then Char.ofNat (c.toNat + 32) else c

/-- `0 == strcasecmp(a,b)` -/
def sameNoCase (a b : List Char) : Bool := a.map lower = b.map lower

/-! ### saving -/

/-- what's stored -/
inductive Stored
  /-- libpng: format, width, height, the rows of bytes -/
  | png (bits : Nat) (w h : Nat) (rows : List (List UInt8))
  /-- libjpeg: channels, width, height, the rows of bytes -/
  | jpg (channels : Nat) (w h : Nat) (rows : List (List UInt8))
  /-- the bytes of the file -/
  | file (bytes : List UInt8)

/-- `n` bytes of memory -/
def readBytes (m : Mem) (a : Int) (n : Nat) : List UInt8 := (List.range n).map fun (k : Nat) => m (a + k)

/-- the rows of an image: each is `n` bytes -/
def readRows (m : Mem) (data stride : Int) (n h : Nat) : List (List UInt8) := (List.range h).map fun (i : Nat) => readBytes m (data + i * stride) n

/-- the text that printf("%d") makes of a nonnegative number -/
def digits (n : Nat) : List UInt8 := (Name.printNat n).map fun c => c.toNat.toUInt8

def ascii (s : String) : List UInt8 := s.toList.map fun c => c.toNat.toUInt8

/-- `generic_save_pnm` image.c:89-136. I/O errors are not modelled -/
def savePnm (m : Mem) (im : Img) (bits channels : Nat) : Option Stored :=
  if ¬ ((channels = 1 ∧ (bits = 8 ∨ bits = 16)) ∨ (channels = 3 ∧ bits = 24)) then none
  else
    let header := ascii "P" ++ digits (if channels = 1 then 5 else 6) ++ ascii "\n" ++ digits im.width ++ ascii " " ++ digits im.height ++ ascii "\n"
      ++ digits (if bits = 16 then 65535 else 255) ++ ascii "\n"
    some (.file (header ++ (readRows m im.data im.stride (im.width * (bits / 8)) im.height).flatten))

/-- `generic_save_pgm` image.c:138-154 -/
def savePgm (m : Mem) (im : Img) (bits channels : Nat) : Option Stored := if channels ≠ 1 then none else savePnm m im bits channels
/-- `generic_save_ppm` image.c:156-172 -/
def savePpm (m : Mem) (im : Img) (bits channels : Nat) : Option Stored := if channels ≠ 3 then none else savePnm m im bits channels

/-- `generic_save_png` image.c:61-87. The row stride that libpng takes is in components, not in bytes. A failure of libpng is not modelled -/
def savePng (m : Mem) (im : Img) (bits : Nat) : Option Stored :=
  let stride := if bits = 16 then 2 * Int.tdiv im.stride 2 else im.stride
  some (.png bits im.width im.height (readRows m im.data stride (im.width * (bits / 8)) im.height))

/-- `generic_save_jpg` image.c:185-243. A failure of libjpeg is not modelled -/
def saveJpg (m : Mem) (im : Img) (bits channels : Nat) : Option Stored :=
  if bits = 16 then none
  else some (.jpg channels im.width im.height (readRows m im.data im.stride (im.width * channels) im.height))

/-- copying of the color image to a new buffer, without gaps between the rows: image.c:272-297. `buf` is the address of the buffer: it comes from malloc(), so nothing
else is stored there. `memcpy()` of everything at once, or one row at a time -/
def denseCopy (m : Mem) (im : Img) (buf : Int) : Img × Mem :=
  let new : Img := ⟨im.width, im.height, im.width * 3, buf⟩
  let copy (m : Mem) (dst src : Int) (n : Nat) : Mem := fun a => if dst ≤ a ∧ a < dst + n then m (src + (a - dst)) else m a
  if new.stride = im.stride then (new, copy m buf im.data (im.width * im.height * 3))
  else (new, (List.range im.height).foldl (fun m (i : Nat) => copy m (buf + i * new.stride) (im.data + i * im.stride) (im.width * 3)) m)

/-- `generic_save` image.c:246-355. `none` is a failure. A failure of malloc() isn't modelled -/
def genericSave (m : Mem) (buf : Int) (filename : List Char) (im : Img) (bits : Nat) : Option Stored :=
  if im.width = 0 ∨ im.height = 0 then none
  else
    let channels? := if bits = 8 ∨ bits = 16 then some 1 else if bits = 24 then some 3 else none
    match channels? with
    | none => none
    | some channels =>
      let (im, m) := if bits = 24 then
          let (im, m) := denseCopy m im buf
          (im, bgrTofromRgb im m)
        else (im, m)
      match getExtension filename with
      | none => none
      | some ext =>
        if sameNoCase ext ".png".toList then savePng m im bits
        else if sameNoCase ext ".jpg".toList then saveJpg m im bits channels
        else if sameNoCase ext ".pgm".toList then savePgm m im bits channels
        else if sameNoCase ext ".ppm".toList then savePpm m im bits channels
        else none

/-! ### loading -/

/-- how a file is loaded: the function of the stb library to call, and what follows -/
inductive Plan
  /-- stbi_load_from_file(desired_channels) -/
  | load8 (desired : Nat)
  /-- stbi_load_from_file_16(desired_channels=1) -/
  | load16
  /-- stbi_load_from_file_16(desired_channels=1), then stretch_equalization_uint8_from_uint16() -/
  | load16Stretch
  deriving DecidableEq

/-- the decisions in `generic_load` image.c:413-590. `info`: the number of channels that stb detects, and whether this is a 16-bit image; `none` if it can't tell. `requested` bits per
pixel: 0 to take what's in the file. The result: bits per pixel and what to do -/
def loadPlan (info : Option (Nat × Bool)) (requested : Nat) : Option (Nat × Plan) :=
  match info with
  | none => none
  | some (channels, is16) =>
    let detected : Option Nat :=
      if !is16 then
        if channels = 3 ∨ channels = 4 then some 24
        else if channels = 1 then some 8
        else none
      else if channels = 1 then some 16
      else none
    match detected with
    | none => none
    | some detected =>
      let bits? : Option Nat :=
        if requested = 0 then some detected
        else if detected = 8 ∧ requested = 16 then none
        else if detected = 16 ∧ requested = 24 then none
        else if detected = 24 ∧ requested = 16 then none
        else some requested
      match bits? with
      | none => none
      | some bits =>
        if bits = 8 then some (8, if is16 then .load16Stretch else .load8 1)
        else if bits = 16 then some (16, .load16)
        else if bits = 24 then some (24, .load8 3)
        else none

/-- the search for the limits in `stretch_equalization_uint8_from_uint16` image.c:378-392 -/
def stretchLimits (pixels : List Nat) : Nat × Nat :=
  pixels.foldl (fun (mn, mx) x => if x < mn then (x, mx) else if x > mx then (mn, x) else (mn, mx)) (65535, 0)

/-- one pixel in `stretch_equalization_uint8_from_uint16` image.c:394-406. `max_min` is a uint16_t. Exact arithmetic instead of `float`. `none`: undefined: conversion of a NaN or of
something too large to uint8_t. `x` is never less than the minimum -/
def stretchPixel (mn mx x : Nat) : Option Nat :=
  let max_min : Nat := (mx + 65536 - mn) % 65536
  if max_min = 0 then none
  else
    let v : Rat := 1 / 2 + ((x - mn : Nat) : Rat) * 255 / (max_min : Rat)
    if v < 256 then some v.floor.toNat else none

/-- `stretch_equalization_uint8_from_uint16` image.c:374-407. The pixels in the order of the loop -/
def stretch (pixels : List Nat) : List (Option Nat) :=
  let (mn, mx) := stretchLimits pixels
  pixels.map (stretchPixel mn mx)

/-- what stb_image says about a file. The decoders themselves (stb_image) aren't modelled. `load8 n`: stbi_load_from_file(desired_channels=n): width, height, bytes. `load16`:
stbi_load_from_file_16(desired_channels=1): width, height, values. `none`: failure -/
structure Decoder where
  info : Option (Nat × Bool)
  load8 : Nat → Option (Nat × Nat × List UInt8)
  load16 : Option (Nat × Nat × List Nat)

/-- the memory after the bytes are put at this address -/
def putBytes (m : Mem) (buf : Int) (bytes : List UInt8) : Mem := fun a => if buf ≤ a ∧ a < buf + bytes.length then bytes.getD (a - buf).toNat 0 else m a

/-- the results of `generic_load`: `undefined` if the stretch equalization hits undefined behavior -/
inductive Loaded
  | failed
  | undefined
  | image (bits : Nat) (im : Img) (m : Mem)

/-- `generic_load` image.c:413-590. `buf`: the memory that the decoder (or posix_memalign()) allocates. The sizes in `int` are taken not to overflow. 16-bit values are in memory with the
least significant byte first. The file that can't be opened isn't modelled: this is `dec.info = none` -/
def genericLoad (dec : Decoder) (requested : Nat) (m : Mem) (buf : Int) : Loaded :=
  match loadPlan dec.info requested with
  | none => .failed
  | some (bits, .load8 n) =>
    match dec.load8 n with
    | none => .failed
    | some (w, h, bytes) =>
      let im : Img := ⟨w, h, ((w * bits / 8 : Nat) : Int), buf⟩
      let m := putBytes m buf bytes
      .image bits im (if bits = 24 then bgrTofromRgb im m else m)
  | some (bits, .load16) =>
    match dec.load16 with
    | none => .failed
    | some (w, h, values) => .image bits ⟨w, h, ((w * bits / 8 : Nat) : Int), buf⟩ (putBytes m buf (values.flatMap fun v => [(v % 256).toUInt8, (v / 256).toUInt8]))
  | some (bits, .load16Stretch) =>
    match dec.load16 with
    | none => .failed
    | some (w, h, values) =>
      match (stretch values).mapM id with
      | none => .undefined
      | some out => .image bits ⟨w, h, ((w * bits / 8 : Nat) : Int), buf⟩ (putBytes m buf (out.map Nat.toUInt8))

end Mrcal.ImageIO

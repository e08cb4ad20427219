import Verif.Model.ImageTransform
/-
match_feature(): mrcal/stereo.py:1609-2046, and apply_homography(): mrcal-genpywrap.py:721-782. Arithmetic is exact: float32 and float64 are ℝ; the pixels are ℝ. The visualization isn't modelled.
-/
namespace Mrcal.MatchFeature
open Mrcal.Cam Mrcal.Pose Mrcal.ImageTransform

/-- a grayscale image. Column, then row -/
structure Image where
  W : Nat
  H : Nat
  px : Int → Int → ℝ

/-- the methods of cv2.matchTemplate() -/
inductive Method where
  | sqdiff
  | sqdiff_normed
  | ccorr
  | ccorr_normed
  | ccoeff
  | ccoeff_normed
  deriving DecidableEq

/-- (c00, c10, c01, c20, c11, c02) -/
@[ext] structure Coefs where
  c00 : ℝ
  c10 : ℝ
  c01 : ℝ
  c20 : ℝ
  c11 : ℝ
  c02 : ℝ

/-- the libraries. `remap`: cv2.remap(), of one pixel (none: not finite). `score`: cv2.matchTemplate(), at one place: width, height, template, and the part of the image that is to be compared with it. `lstsq`: np.linalg.lstsq(M, z) with the matrix M of
stereo.py:1995-1999; element 3*(y+1)+(x+1) of z is at (x,y) -/
structure Env where
  remap : Image → Option P2 → ℝ
  score : Method → Nat → Nat → (Nat → Nat → ℝ) → (Nat → Nat → ℝ) → ℝ
  lstsq : (Nat → ℝ) → Option Coefs

open Classical in
/-- apply_homography() mrcal-genpywrap.py:721-731. `none`: not finite -/
noncomputable def applyHomography (H : M3) (q : P2) : Option P2 :=
  let x := H.a00 * q.x + H.a01 * q.y + H.a02
  let y := H.a10 * q.x + H.a11 * q.y + H.a12
  let z := H.a20 * q.x + H.a21 * q.y + H.a22
  if z = 0 then none else some ⟨x / z, y / z⟩

/-- the arguments. The type of template_size1 was checked, and a single number was expanded: stereo.py:1853-1864 -/
structure Args where
  q0 : P2
  search_radius1 : Nat
  template_w : Int
  template_h : Int
  q1_estimate : Option P2
  H10 : Option M3
  method : Option Method

/-- what's returned -/
inductive Result where
  /-- an exception -/
  | error
  /-- q1 is None -/
  | noMatch
  /-- q1, and the diagnostics: matchoutput_optimum_subpixel_at, matchoutput_optimum_subpixel, qshift_image1_matchoutput -/
  | found (q1 : P2) (optimum_at : P2) (optimum : ℝ) (qshift : P2)
  /-- q1 is reported, but it isn't finite -/
  | notFinite

/-- H10 and q1_estimate: stereo.py:1872-1885. `none`: an exception. If q1_estimate isn't finite then its conversion to integers produces a negative number (on the usual hardware), and that's an exception later -/
noncomputable def estimate (a : Args) : Option (M3 × P2) := match a.H10, a.q1_estimate with
  | none, some q1 => some (⟨1, 0, q1.x - a.q0.x, 0, 1, q1.y - a.q0.y, 0, 0, 1⟩, q1)
  | some H, none => (applyHomography H a.q0).map fun q1 => (H, q1)
  | _, _ => none

/-- `q1_template_min` in one dimension: stereo.py:1901 -/
noncomputable def templateMin (estimate : ℝ) (size : Int) : Int := pyRound (estimate - ((size : ℝ) - 1) / 2)

open Classical in
/-- checkdims() stereo.py:1905-1914, one pixel; false: an exception. A pixel that isn't finite: at least one of its coordinates is infinite (the homography was inverted, so that it isn't singular), and this is rejected -/
noncomputable def inBounds (im : Image) : Option P2 → Bool
  | none => false
  | some q => decide (¬ q.x < 0 ∧ ¬ q.y < 0 ∧ ¬ q.x ≥ im.W ∧ ¬ q.y ≥ im.H)

/-- a pixel with integer coordinates -/
noncomputable def pixel (x y : Int) : P2 := ⟨x, y⟩

/-- the template, pixel (x,y) of it: stereo.py:1921-1934 -/
noncomputable def template (env : Env) (image0 : Image) (Hinv : M3) (x0 y0 : Int) (x y : Nat) : ℝ :=
  env.remap image0 (applyHomography Hinv (pixel (x0 + x) (y0 + y)))

open Classical in
/-- np.argmax() of the first n elements: the first of the largest ones -/
noncomputable def argmax (f : Nat → ℝ) : Nat → Nat
  | 0 => 0
  | n + 1 => if f n > f (argmax f n) then n else argmax f n

/-- stereo.py:1959-1962. np.argmin() is the same with the signs flipped -/
noncomputable def optimum (m : Method) (f : Nat → ℝ) (n : Nat) : Nat := match m with
  | .sqdiff | .sqdiff_normed => argmax (fun i => -f i) n
  | _ => argmax f n

open Classical in
/-- the rest: stereo.py:1937-2046. (x0,y0) is q1_template_min. An empty matchoutput is an exception (np.zeros() with a negative size, or OpenCV's check) -/
noncomputable def search (env : Env) (image1 : Image) (m : Method) (w h : Nat) (r : Int) (T : Nat → Nat → ℝ) (estimate : P2) (x0 y0 : Int) : Result :=
  let xmin := max (x0 - r) 0
  let ymin := max (y0 - r) 0
  let xmax := min (x0 + r + w - 1) ((image1.W : Int) - 1)
  let ymax := min (y0 + r + h - 1) ((image1.H : Int) - 1)
  let mw := xmax - xmin + 1 - w + 1
  let mh := ymax - ymin + 1 - h + 1
  if mw ≤ 0 ∨ mh ≤ 0 then .error else
    let out (x y : Int) : ℝ := env.score m w h T fun i j => image1.px (xmin + x + i) (ymin + y + j)
    let i := optimum m (fun i => out ((i : Int) % mw) ((i : Int) / mw)) (mw * mh).toNat
    let x : Int := (i : Int) % mw
    let y : Int := (i : Int) / mw
    if x ≤ 0 ∨ y ≤ 0 ∨ x ≥ mw - 1 ∨ y ≥ mh - 1 then .noMatch else
      match env.lstsq fun k => out (x - 1 + (k : Int) % 3) (y - 1 + (k : Int) / 3) with
      | none => .noMatch
      | some c =>
        let det := 4 * c.c20 * c.c02 - c.c11 * c.c11
        if det = 0 then .notFinite else
          let dx := -(2 * c.c10 * c.c02 - c.c01 * c.c11) / det
          let dy := -(2 * c.c01 * c.c20 - c.c10 * c.c11) / det
          let at_ : P2 := ⟨(x : ℝ) + dx, (y : ℝ) + dy⟩
          let qshift : P2 := ⟨(xmin : ℝ) + estimate.x - x0, (ymin : ℝ) + estimate.y - y0⟩
          .found ⟨at_.x + qshift.x, at_.y + qshift.y⟩ at_ (c.c00 + c.c10 * dx + c.c01 * dy + c.c20 * dx * dx + c.c11 * dx * dy + c.c02 * dy * dy) qshift

/-- match_feature() stereo.py:1609-2046 -/
noncomputable def matchFeature (env : Env) (image0 image1 : Image) (a : Args) : Result :=
  if ¬ (a.template_w > 0 ∧ a.template_h > 0) then .error else
    match estimate a with
    | none => .error
    | some (H10, q1) =>
      let x0 := templateMin q1.x a.template_w
      let y0 := templateMin q1.y a.template_h
      let x1 := x0 + a.template_w - 1
      let y1 := y0 + a.template_h - 1
      if (inBounds image1 (some (pixel x0 y0)) && inBounds image1 (some (pixel x1 y1))) = false then .error else
        match inv3 H10 with
        | none => .error
        | some Hinv =>
          if ([pixel x0 y0, pixel x0 y1, pixel x1 y0, pixel x1 y1].all fun q => inBounds image0 (applyHomography Hinv q)) = false then .error else
            search env image1 (a.method.getD .ccorr_normed) a.template_w.toNat a.template_h.toNat a.search_radius1 (template env image0 Hinv x0 y0) q1 x0 y0

/-! ### what OpenCV computes, from its documentation -/

/-- the sum over the template -/
noncomputable def sum2 (w h : Nat) (f : Nat → Nat → ℝ) : ℝ := ((List.range h).map fun (j : Nat) => ((List.range w).map fun (i : Nat) => f i j).sum).sum

/-- TM_SQDIFF -/
noncomputable def scoreSqdiff (w h : Nat) (T I : Nat → Nat → ℝ) : ℝ := sum2 w h fun i j => (T i j - I i j) * (T i j - I i j)

/-- TM_CCORR -/
noncomputable def scoreCcorr (w h : Nat) (T I : Nat → Nat → ℝ) : ℝ := sum2 w h fun i j => T i j * I i j

/-- TM_CCORR_NORMED. Here 0 if an all-black part is compared -/
noncomputable def scoreCcorrNormed (w h : Nat) (T I : Nat → Nat → ℝ) : ℝ :=
  scoreCcorr w h T I / Real.sqrt (scoreCcorr w h T T * scoreCcorr w h I I)

end Mrcal.MatchFeature

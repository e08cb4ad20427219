import Verif.Model.StereoTool
import Verif.Props.FormatToolsProps
import Mathlib.Tactic.Linarith
/-
C122: mrcal-stereo: the pixels, the point cloud, the names of the files
-/
namespace Mrcal.StereoTool

open Mrcal Mrcal.Pose
open Mrcal.Convert (splitExt baseName)

/-! ### the pixels -/

/-- **C122**: the grayscale of a pixel is the mean of the channels, truncated: if their sum can be represented -/
theorem gray_partial (bits : Nat) (c : List Nat) (h : c.sum < 2 ^ bits) : grayPixel bits c = c.sum / c.length := by
  unfold grayPixel
  rw [Nat.mod_eq_of_lt h]

/-- non-trivial case of `gray_partial` -/
example : grayPixel 8 [10, 20, 31] = 20 := by rw [gray_partial _ _ (by decide)]; decide

/-- **C122, false**: "--force-grayscale and --equalization convert to grayscale": 8-bit color images get no values above 85: the sum of the channels wraps around. A gray pixel above this doesn't stay what it was; and white gets darker than gray -/
theorem gray_wrong : (∀ c : List Nat, c.length = 3 → grayPixel 8 c ≤ 85) ∧ (∀ v, 85 < v → grayPixel 8 [v, v, v] ≠ v) ∧ grayPixel 8 [255, 255, 255] < grayPixel 8 [85, 85, 85] := by
  have h : ∀ c : List Nat, c.length = 3 → grayPixel 8 c ≤ 85 := by
    intro c hc
    unfold grayPixel
    rw [hc]
    have : c.sum % 2 ^ 8 < 256 := Nat.mod_lt _ (by norm_num)
    omega
  refine ⟨h, fun v hv e => ?_, by decide⟩
  have := h [v, v, v] rfl
  omega

/-- **C122**: --equalization stretch: the darkest pixel becomes 0, the brightest one 255, and the order of the pixels stays -/
theorem stretch_range (lo hi x y : Nat) (h : lo < hi) (hx : lo ≤ x) (hxy : x ≤ y) (hy : y ≤ hi) :
    ∃ x' y', stretchPixel lo hi x = some x' ∧ stretchPixel lo hi y = some y' ∧ x' ≤ y' ∧ y' ≤ 255 ∧ (x = lo → x' = 0) ∧ (y = hi → y' = 255) := by
  have hd : 0 < hi - lo := by omega
  unfold stretchPixel
  rw [if_neg (by omega), if_neg (by omega)]
  refine ⟨_, _, rfl, rfl, Nat.div_le_div_right (Nat.mul_le_mul_left _ (by omega)), ?_, ?_, ?_⟩
  · apply Nat.div_le_of_le_mul
    rw [Nat.mul_comm]
    exact Nat.mul_le_mul_right _ (by omega)
  · rintro rfl; simp
  · rintro rfl; exact Nat.mul_div_cancel _ hd

/-- non-trivial case of `stretch_range` -/
example : stretchPixel 10 20 15 = some 127 ∧ stretchPixel 10 20 20 = some 255 := by decide

/-- **C122, false**: "each image can be stretched": one where all pixels are the same makes 0/0 -/
theorem stretch_wrong (v : Nat) : stretchPixel v v v = none := by unfold stretchPixel; rw [if_pos rfl]

/-- **C122**: the number of disparities that are searched is a multiple of 16, and it's the nearest one to what was asked for -/
theorem disparities_near (dmin dmax : Int) : 16 ∣ numDisparities dmin dmax ∧ |numDisparities dmin dmax - (dmax - dmin)| ≤ 8 := by
  unfold numDisparities
  refine ⟨⟨_, rfl⟩, ?_⟩
  rw [abs_le]
  dsimp only
  split_ifs <;> omega

/-- non-trivial case of `disparities_near` -/
example : numDisparities 10 137 = 128 := by decide

/-- **C122, false**: "all disparities of --disparity-range are searched": a range that's less than 8 more than a multiple of 16 is cut; the default range, too. A range of up to 8 is empty -/
theorem disparities_wrong : (∀ dmin dmax : Int, 0 < (dmax - dmin) % 16 → (dmax - dmin) % 16 < 8 → dmin + numDisparities dmin dmax < dmax) ∧ numDisparities 0 100 = 96 ∧
    ∀ dmin dmax : Int, dmin ≤ dmax → dmax ≤ dmin + 8 → numDisparities dmin dmax = 0 := by
  refine ⟨fun dmin dmax h1 h2 => ?_, by decide, fun dmin dmax h1 h2 => ?_⟩
  · unfold numDisparities
    dsimp only
    rw [if_pos h2]
    omega
  · unfold numDisparities
    dsimp only
    split_ifs <;> omega

/-! ### the point cloud -/

/-- **Specification**: the integer `n` is nearest to `x`, and is an index of `N` pixels -/
def Nearest (x : ℝ) (n N : Nat) : Prop := n < N ∧ -(1 / 2) < x ∧ (n : ℝ) - 1 / 2 ≤ x ∧ x < n + 1 / 2

theorem nearest_floor (x : ℝ) (N : Nat) (h1 : -0.5 < x) (h2 : x < (N : ℝ) - 0.5) : Nearest x ⌊x + 0.5⌋.toNat N := by
  have hf : 0 ≤ ⌊x + 0.5⌋ := Int.floor_nonneg.2 (by linarith)
  have hc : ((⌊x + 0.5⌋.toNat : Nat) : ℝ) = (⌊x + 0.5⌋ : ℝ) := by
    have : ((⌊x + 0.5⌋.toNat : Nat) : Int) = ⌊x + 0.5⌋ := Int.toNat_of_nonneg hf
    exact_mod_cast congrArg (Int.cast : Int → ℝ) this
  have a := Int.floor_le (x + 0.5)
  have b := Int.lt_floor_add_one (x + 0.5)
  refine ⟨?_, by linarith, by rw [hc]; linarith, by rw [hc]; linarith⟩
  have : ((⌊x + 0.5⌋.toNat : Nat) : ℝ) < N := by rw [hc]; linarith
  exact_mod_cast this

theorem nearest_unique {x : ℝ} {n N : Nat} (h : Nearest x n N) : -0.5 < x ∧ x < (N : ℝ) - 0.5 ∧ ⌊x + 0.5⌋.toNat = n := by
  obtain ⟨h1, h2, h3, h4⟩ := h
  have hn : (n : ℝ) + 1 ≤ N := by exact_mod_cast h1
  refine ⟨by linarith, by linarith, ?_⟩
  have : ⌊x + 0.5⌋ = (n : Int) := by
    rw [Int.floor_eq_iff]
    push_cast
    constructor <;> linarith
  rw [this]; simp

/-- **C122**: the point cloud: each point is that of a pixel of the range image, in the reference coordinates; its color is that of the pixel of the original image that's nearest to where camera 0 sees it. All the points that camera 0 sees are there -/
theorem cloud_points {Color : Type} (D : Cloud Color) (p : P3) (c : Color) : (p, c) ∈ cloud D ↔
    ∃ (px : Nat × Nat) (r : ℝ) (q : P2) (x y : Nat), (px, r) ∈ D.ranges ∧ p = transformPointRt D.Rt_ref_rect0 (D.unproject px r) false ∧ D.project (transformPointRt D.Rt_cam0_ref p false) = some q ∧
      Nearest q.x x D.W ∧ Nearest q.y y D.H ∧ c = D.image y x := by
  unfold cloud
  rw [List.mem_filterMap]
  constructor
  · rintro ⟨p', hp', h⟩
    obtain ⟨⟨px, r⟩, hr, rfl⟩ := List.mem_map.1 hp'
    obtain ⟨q, hq, h⟩ := Option.bind_eq_some_iff.1 h
    split_ifs at h with hc
    injection h with h
    injection h with h1 h2
    subst h1
    exact ⟨px, r, q, _, _, hr, rfl, hq, nearest_floor _ _ hc.1 hc.2.2.1, nearest_floor _ _ hc.2.1 hc.2.2.2, h2.symm⟩
  · rintro ⟨px, r, q, x, y, hr, rfl, hq, hx, hy, rfl⟩
    obtain ⟨x1, x2, x3⟩ := nearest_unique hx
    obtain ⟨y1, y2, y3⟩ := nearest_unique hy
    refine ⟨_, List.mem_map.2 ⟨(px, r), hr, rfl⟩, Option.bind_eq_some_iff.2 ⟨q, hq, ?_⟩⟩
    rw [if_pos ⟨x1, y1, x2, y2⟩, x3, y3]

/-- **C122**: pixels without a valid range make no points: these have the range 0, so that they'd be at camera 0, where a camera can't see anything -/
theorem cloud_valid {Color : Type} (D : Cloud Color) (h0 : ∀ px, D.unproject px 0 = ⟨0, 0, 0⟩)
    (hsame : transformPointRt D.Rt_cam0_ref (transformPointRt D.Rt_ref_rect0 ⟨0, 0, 0⟩ false) false = ⟨0, 0, 0⟩) (hp : D.project ⟨0, 0, 0⟩ = none) (p : P3) (c : Color) (h : (p, c) ∈ cloud D) :
    ∃ px r, (px, r) ∈ D.ranges ∧ r ≠ 0 ∧ p = transformPointRt D.Rt_ref_rect0 (D.unproject px r) false := by
  obtain ⟨px, r, q, x, y, hr, rfl, hq, -⟩ := (cloud_points D p c).1 h
  refine ⟨px, r, hr, ?_, rfl⟩
  rintro rfl
  rw [h0, hsame, hp] at hq
  cases hq

/-- two pixels of the range image; the second one is invalid -/
noncomputable def exCloud : Cloud Nat where
  ranges := [((0, 0), 5), ((1, 0), 0)]
  unproject px r := ⟨px.1 * r, px.2 * r, r⟩
  Rt_ref_rect0 := identityRt
  Rt_cam0_ref := identityRt
  project p := open Classical in if p.z = 0 then none else some ⟨p.x / p.z + 2.25, p.y / p.z + 1⟩
  W := 10
  H := 10
  image y x := 10 * y + x

theorem identity_transform (p : P3) : transformPointRt identityRt p false = p := by
  ext <;> simp [transformPointRt, identityRt, identityR, rotatePointR, mulVec, addP]

/-- non-trivial case of `cloud_points`: the first pixel makes a point, with the color of row 1, column 2 -/
example : ((⟨0, 0, 5⟩ : P3), 12) ∈ cloud exCloud := by
  refine (cloud_points _ _ _).2 ⟨(0, 0), 5, ⟨2.25, 1⟩, 2, 1, by simp [exCloud], ?_, ?_, ?_, ?_, rfl⟩
  · show _ = transformPointRt identityRt _ false
    rw [identity_transform]; ext <;> simp [exCloud]
  · show exCloud.project (transformPointRt identityRt _ false) = _
    rw [identity_transform]; simp [exCloud]
  · simp only [Nearest, exCloud]; norm_num
  · simp only [Nearest, exCloud]; norm_num

/-- non-trivial case of `cloud_valid` -/
example : (∀ px, exCloud.unproject px 0 = ⟨0, 0, 0⟩) ∧ transformPointRt exCloud.Rt_cam0_ref (transformPointRt exCloud.Rt_ref_rect0 ⟨0, 0, 0⟩ false) false = ⟨0, 0, 0⟩ ∧ exCloud.project ⟨0, 0, 0⟩ = none := by
  refine ⟨fun px => by simp [exCloud], ?_, by simp [exCloud]⟩
  show transformPointRt identityRt (transformPointRt identityRt _ false) false = _
  rw [identity_transform, identity_transform]

/-! ### the names of the files -/

/-- **C122**: the tag that's used in the names: letters, digits and _+- only; a tag that has only these isn't changed -/
theorem tag_clean : (∀ (b : Bool) (t : List Char), ∀ c ∈ cleanTag b t, c.isAlphanum = true ∨ c = '_' ∨ c = '+' ∨ c = '-') ∧
    ∀ (b : Bool) (t : List Char), (∀ c ∈ t, c.isAlphanum = true ∨ c = '_' ∨ c = '+' ∨ c = '-') → cleanTag b t = t := by
  have ht : ∀ c, tagChar c = true ↔ (c.isAlphanum = true ∨ c = '_' ∨ c = '+' ∨ c = '-') := by
    intro c
    unfold tagChar
    simp only [Bool.or_eq_true, beq_iff_eq, or_assoc]
  constructor
  · intro b t
    induction t generalizing b with
    | nil => intro c h; simp [cleanTag] at h
    | cons x t ih =>
      intro c h
      rw [cleanTag] at h
      by_cases hx : tagChar x = true
      · rw [if_pos hx] at h
        rcases List.mem_cons.1 h with rfl | h
        · exact (ht _).1 hx
        · exact ih _ c h
      · rw [if_neg hx] at h
        split_ifs at h
        · exact ih _ c h
        · rcases List.mem_cons.1 h with rfl | h
          · exact Or.inr (Or.inl rfl)
          · exact ih _ c h
  · intro b t
    induction t generalizing b with
    | nil => intro _; rfl
    | cons x t ih =>
      intro h
      rw [cleanTag, if_pos ((ht x).2 (h x List.mem_cons_self)), ih _ fun c hc => h c (List.mem_cons_of_mem _ hc)]

/-- non-trivial case of `tag_clean` -/
example : cleanTag false "a b../c+1".toList = "a_b_c+1".toList := by decide

/-- **Specification**: the tag with a dash, if there's one -/
def dashTag (a : Args) : List Char := match a.tag with
  | none => []
  | some t => '-' :: cleanTag false t

theorem out_split (a : Args) (s e : List Char) (hs : '/' ∉ s) (hc : ∃ c ∈ s, c ≠ '.') (he : '.' ∉ e) (he' : '/' ∉ e) : outName a (s ++ '.' :: e) = a.outdir ++ '/' :: (s ++ (dashTag a ++ '.' :: e)) := by
  have hsp : Format.Split (s ++ '.' :: e) s ('.' :: e) :=
    ⟨rfl, Or.inr ⟨e, rfl, he, he'⟩, Or.inr ⟨[], s, rfl, hs, Or.inl rfl, hc⟩, fun h => by cases h⟩
  obtain ⟨h1, h2⟩ := Format.split_unique (Format.split_ext (s ++ '.' :: e)) hsp
  unfold outName dashTag
  dsimp only
  rw [h1, h2]
  cases a.tag <;> rfl

theorem base_no_slash (f : FName) : '/' ∉ imageBase f := by
  intro h
  have hw := (Format.split_ext (baseName f)).whole
  exact Convert.base_slash f (hw ▸ List.mem_append_left _ h)

/-- **Specification**: the disparities of OpenCV are multiples of 1/16 pixel, those of ELAS are pixels, those of the matcher here are multiples of 1/64 -/
def rawScale : Matcher → List Char
  | .sgbm => "16".toList
  | .elas => "1".toList
  | .sad5 => "64".toList

/-- **Specification**: what comes after the name of the image; and the extension -/
def suffixOf (m : Matcher) : Kind → List Char × List Char
  | .model0 => ("rectified0".toList, "cameramodel".toList)
  | .model1 => ("rectified1".toList, "cameramodel".toList)
  | .rectified0 => ("-rectified".toList, "png".toList)
  | .rectified1 => ("-rectified".toList, "png".toList)
  | .disparity => ("-disparity".toList, "png".toList)
  | .disparityRaw => ("-disparity-uint16-scale".toList ++ rawScale m, "png".toList)
  | .range => ("-range".toList, "png".toList)
  | .points => ("-points".toList, "ply".toList)

/-- **Specification**: the image that the name is from -/
def prefixOf (f : FName × FName) : Kind → List Char
  | .model0 => []
  | .model1 => []
  | .rectified1 => imageBase f.2
  | _ => imageBase f.1

/-- **Specification**: the file: DIR/IMAGE-SUFFIX-TAG.EXT -/
def fileOf (a : Args) (f : FName × FName) (k : Kind) : FName :=
  a.outdir ++ '/' :: ((prefixOf f k ++ (suffixOf a.matcher k).1) ++ (dashTag a ++ '.' :: (suffixOf a.matcher k).2))

/-- **Specification**: what is written -/
def Written (a : Args) (k : Kind) : Prop := match k with
  | .model0 | .model1 | .rectified0 | .rectified1 => a.alreadyRectified = false
  | .points => a.pointCloud = true
  | _ => True

theorem suffix_ok (m : Matcher) (k : Kind) : '/' ∉ (suffixOf m k).1 ∧ (∃ c ∈ (suffixOf m k).1, c ≠ '.') ∧ '.' ∉ (suffixOf m k).2 ∧ '/' ∉ (suffixOf m k).2 := by
  cases m <;> cases k <;> decide

theorem out_kind (a : Args) (f : FName × FName) (k : Kind) : outName a ((prefixOf f k ++ (suffixOf a.matcher k).1) ++ '.' :: (suffixOf a.matcher k).2) = fileOf a f k := by
  obtain ⟨h1, ⟨c, hc, hcn⟩, h3, h4⟩ := suffix_ok a.matcher k
  refine out_split a _ _ ?_ ⟨c, List.mem_append_right _ hc, hcn⟩ h3 h4
  intro h
  rcases List.mem_append.1 h with h | h
  · cases k <;> first | exact base_no_slash _ h | simp [prefixOf] at h
  · exact h1 h

theorem suffix_png (m : Matcher) : ("-rectified.png".toList = (suffixOf m .rectified0).1 ++ '.' :: (suffixOf m .rectified0).2) ∧ ("-rectified.png".toList = (suffixOf m .rectified1).1 ++ '.' :: (suffixOf m .rectified1).2) ∧
    ("-disparity.png".toList = (suffixOf m .disparity).1 ++ '.' :: (suffixOf m .disparity).2) ∧ ("-range.png".toList = (suffixOf m .range).1 ++ '.' :: (suffixOf m .range).2) ∧
    ("-points.ply".toList = (suffixOf m .points).1 ++ '.' :: (suffixOf m .points).2) ∧ ("-disparity-uint16-scale".toList ++ (m.scale ++ ".png".toList) = (suffixOf m .disparityRaw).1 ++ '.' :: (suffixOf m .disparityRaw).2) ∧
    ("rectified0.cameramodel".toList = (suffixOf m .model0).1 ++ '.' :: (suffixOf m .model0).2) ∧ ("rectified1.cameramodel".toList = (suffixOf m .model1).1 ++ '.' :: (suffixOf m .model1).2) := by
  cases m <;> decide

/-- the kinds of files that are written -/
def kindsOf (a : Args) : List Kind :=
  (if a.alreadyRectified then [] else [.model0, .model1, .rectified0, .rectified1]) ++ [.disparity, .disparityRaw, .range] ++ (if a.pointCloud then [.points] else [])

theorem kinds_written (a : Args) (k : Kind) : k ∈ kindsOf a ↔ Written a k := by
  unfold kindsOf Written
  cases a.alreadyRectified <;> cases a.pointCloud <;> cases k <;> decide

theorem kinds_nodup (a : Args) : (kindsOf a).Nodup := by
  unfold kindsOf
  cases a.alreadyRectified <;> cases a.pointCloud <;> decide

def nameOf (a : Args) (f : FName × FName) (k : Kind) : FName := (prefixOf f k ++ (suffixOf a.matcher k).1) ++ '.' :: (suffixOf a.matcher k).2

theorem outputs_eq (a : Args) (f : FName × FName) : outputs a f = (kindsOf a).map fun k => (k, nameOf a f k) := by
  obtain ⟨h1, h2, h3, h4, h5, h6, h7, h8⟩ := suffix_png a.matcher
  have e1 : imageBase f.1 ++ "-rectified.png".toList = nameOf a f .rectified0 := by rw [h1, ← List.append_assoc]; rfl
  have e2 : imageBase f.2 ++ "-rectified.png".toList = nameOf a f .rectified1 := by rw [h2, ← List.append_assoc]; rfl
  have e3 : imageBase f.1 ++ "-disparity.png".toList = nameOf a f .disparity := by rw [h3, ← List.append_assoc]; rfl
  have e4 : imageBase f.1 ++ "-range.png".toList = nameOf a f .range := by rw [h4, ← List.append_assoc]; rfl
  have e5 : imageBase f.1 ++ "-points.ply".toList = nameOf a f .points := by rw [h5, ← List.append_assoc]; rfl
  have e6 : imageBase f.1 ++ ("-disparity-uint16-scale".toList ++ (a.matcher.scale ++ ".png".toList)) = nameOf a f .disparityRaw := by rw [h6, ← List.append_assoc]; rfl
  have e7 : "rectified0.cameramodel".toList = nameOf a f .model0 := by rw [h7]; rfl
  have e8 : "rectified1.cameramodel".toList = nameOf a f .model1 := by rw [h8]; rfl
  unfold outputs rectifiedModels kindsOf
  rw [e1, e2, e3, e4, e5, e6, e7, e8]
  cases a.alreadyRectified <;> cases a.pointCloud <;> rfl

/-- **C122**: what is written for a pair of images, and where -/
theorem outputs_files (a : Args) (f : FName × FName) (o : Kind × FName) (h : o ∈ outputs a f) : Written a o.1 ∧ outName a o.2 = fileOf a f o.1 := by
  rw [outputs_eq] at h
  obtain ⟨k, hk, rfl⟩ := List.mem_map.1 h
  exact ⟨(kinds_written a k).1 hk, out_kind a f k⟩

theorem outputs_all (a : Args) (f : FName × FName) (k : Kind) (h : Written a k) : ∃ o ∈ outputs a f, o.1 = k ∧ outName a o.2 = fileOf a f k := by
  rw [outputs_eq]
  exact ⟨(k, nameOf a f k), List.mem_map.2 ⟨k, (kinds_written a k).2 h, rfl⟩, rfl, out_kind a f k⟩

theorem same_length_append {A B C D : List Char} (h : A ++ B = C ++ D) (hl : B.length = D.length) : B = D := (List.append_inj' h hl).2

theorem file_eq_suffix {a : Args} {f : FName × FName} {k k' : Kind} (h : fileOf a f k = fileOf a f k') :
    (suffixOf a.matcher k).2 = (suffixOf a.matcher k').2 ∧ prefixOf f k ++ (suffixOf a.matcher k).1 = prefixOf f k' ++ (suffixOf a.matcher k').1 := by
  unfold fileOf at h
  have h1 := List.append_cancel_left h
  injection h1 with _ h1
  rw [← List.append_assoc, ← List.append_assoc] at h1
  obtain ⟨h2, h3⟩ := Format.last_dot h1 (suffix_ok a.matcher k).2.2.1 (suffix_ok a.matcher k').2.2.1
  exact ⟨h3, List.append_cancel_right h2⟩

/-- the ends of the names are different -/
theorem ends_differ {A B s t : List Char} (h : A ++ s = B ++ t) (n : Nat) (hs : n ≤ s.length) (ht : n ≤ t.length) : s.drop (s.length - n) = t.drop (t.length - n) := by
  have e : ∀ (A s : List Char), n ≤ s.length → (A ++ s).drop ((A ++ s).length - n) = s.drop (s.length - n) := by
    intro A s hs
    rw [List.length_append, List.drop_append, List.drop_eq_nil_of_le (by omega), List.nil_append]
    congr 1
    omega
  rw [← e A s hs, ← e B t ht, h]

theorem suffix_long (m : Matcher) (k : Kind) : 5 ≤ (suffixOf m k).1.length := by cases m <;> cases k <;> decide

theorem suffix_kinds (m : Matcher) (k k' : Kind) (h1 : (suffixOf m k).2 = (suffixOf m k').2)
    (h2 : (suffixOf m k).1.drop ((suffixOf m k).1.length - 5) = (suffixOf m k').1.drop ((suffixOf m k').1.length - 5)) : k = k' ∨ (k = .rectified0 ∧ k' = .rectified1) ∨ (k = .rectified1 ∧ k' = .rectified0) := by
  revert h1 h2
  cases m <;> cases k <;> cases k' <;> decide

/-- **C122**: the files of a pair of images are different ones, if the images have different names -/
theorem files_distinct (a : Args) (f : FName × FName) (hb : imageBase f.1 ≠ imageBase f.2) (k k' : Kind) (h : fileOf a f k = fileOf a f k') : k = k' := by
  obtain ⟨h1, h2⟩ := file_eq_suffix h
  rcases suffix_kinds a.matcher k k' h1 (ends_differ h2 5 (suffix_long _ _) (suffix_long _ _)) with h | ⟨rfl, rfl⟩ | ⟨rfl, rfl⟩
  · exact h
  · exact absurd (List.append_cancel_right h2) hb
  · exact absurd (List.append_cancel_right h2).symm hb

/-- non-trivial case of `files_distinct` -/
example : imageBase "x/left.jpg".toList = "left".toList ∧ imageBase "x/left.jpg".toList ≠ imageBase "y/right.jpg".toList := by decide

end Mrcal.StereoTool

import Verif.Props.PyExampleProps
/-
C86: files written by old versions: the names that were used before.
-/
namespace Mrcal.ModelPy
open Mrcal.Name Mrcal.CamModel Mrcal.ModelFile

theorem replace_distortion (t : List Char) (h : ¬ "DISTORTION".toList <:+: t) :
    replaceAll "DISTORTION".toList "LENSMODEL".toList 0 ("DISTORTION".toList ++ t) = "LENSMODEL".toList ++ t ∧
    replaceAll "DISTORTION".toList "LENSMODEL".toList 0 ("LENSMODEL".toList ++ t) = "LENSMODEL".toList ++ t := by
  have e1 : "DISTORTION".toList = ['D', 'I', 'S', 'T', 'O', 'R', 'T', 'I', 'O', 'N'] := rfl
  have e2 : "LENSMODEL".toList = ['L', 'E', 'N', 'S', 'M', 'O', 'D', 'E', 'L'] := rfl
  have hid := replace_id "DISTORTION".toList "LENSMODEL".toList t h
  rw [e1, e2] at hid
  rw [e1, e2]
  constructor <;> simp [replaceAll, List.isPrefixOf, hid]

/-- an old file: the lens model may be under any of the three keys, and be called DISTORTION_...; the camera index may be under the old key. It's read like the new file with everything else the same -/
theorem legacy_read (s s' : List Char) (d d' : List (Lit × Lit)) (hs : literalEval s = some d) (hs' : literalEval s' = some d')
    (hsame : ∀ k ∈ ["intrinsics", "extrinsics", "rt_cam_ref", "imagersize", "valid_intrinsics_region", "optimization_inputs", "icam_extrinsics"], lookup d k = lookup d' k)
    (t : List Char) (ht : ¬ "DISTORTION".toList <:+: t)
    (hname : lookup d' "lensmodel" = some (.str ("LENSMODEL".toList ++ t)))
    (hold : ∃ n, (n = .str ("DISTORTION".toList ++ t) ∨ n = .str ("LENSMODEL".toList ++ t)) ∧
      (lookup d "lensmodel" = some n ∨ (lookup d "lensmodel" = none ∧ lookup d "distortion_model" = some n) ∨
        (lookup d "lensmodel" = none ∧ lookup d "distortion_model" = none ∧ lookup d "lens_model" = some n)))
    (hicam : lookup d' "icam_intrinsics_optimization_inputs" = none ∧
      ((lookup d "icam_intrinsics" = lookup d' "icam_intrinsics" ∧ lookup d "icam_intrinsics_optimization_inputs" = none) ∨
        (lookup d "icam_intrinsics" = none ∧ lookup d "icam_intrinsics_optimization_inputs" = lookup d' "icam_intrinsics"))) : read s = read s' := by
  obtain ⟨n, hn, hk⟩ := hold
  have e1 : (lookup d "lensmodel").or ((lookup d "distortion_model").or (lookup d "lens_model")) = some n := by
    rcases hk with hk | ⟨a, hk⟩ | ⟨a, b, hk⟩
    · simp [hk]
    · simp [a, hk]
    · simp [a, b, hk]
  have e2 : (lookup d "icam_intrinsics").or (lookup d "icam_intrinsics_optimization_inputs") = (lookup d' "icam_intrinsics").or (lookup d' "icam_intrinsics_optimization_inputs") := by
    obtain ⟨h1, ⟨h2, h3⟩ | ⟨h2, h3⟩⟩ := hicam <;> rw [h1, h2, h3] <;> simp
  have e3 : ∃ m m', n.string = some m ∧ m' = "LENSMODEL".toList ++ t ∧ replaceAll "DISTORTION".toList "LENSMODEL".toList 0 m = m' := by
    rcases hn with rfl | rfl
    · exact ⟨_, _, rfl, rfl, (replace_distortion t ht).1⟩
    · exact ⟨_, _, rfl, rfl, (replace_distortion t ht).2⟩
  obtain ⟨m, m', e4, e5, e6⟩ := e3
  unfold read
  rw [hs, hs', Option.bind_eq_bind, Option.bind_eq_bind, Option.bind_some, Option.bind_some, e1, hname, Option.some_or, Option.bind_eq_bind, Option.bind_eq_bind, Option.bind_some, Option.bind_some, e4,
    show Lit.string (.str ("LENSMODEL".toList ++ t)) = some ("LENSMODEL".toList ++ t) from rfl, Option.bind_eq_bind, Option.bind_eq_bind, Option.bind_some, Option.bind_some]
  dsimp only
  rw [e6, (replace_distortion t ht).2, e5, e2, hsame "intrinsics" (by simp), hsame "extrinsics" (by simp), hsame "rt_cam_ref" (by simp), hsame "imagersize" (by simp), hsame "valid_intrinsics_region" (by simp),
    hsame "optimization_inputs" (by simp), hsame "icam_extrinsics" (by simp)]

/-- the pose in a file: under the new key, under the old key, or under both: then they agree -/
def PoseInFile (extrinsics rt_cam_ref : Option Lit) (rt : List ℚ) : Prop :=
  rt.length = 6 ∧ ((∃ x, rt_cam_ref = some x ∧ x.nums = some rt ∧ (extrinsics = none ∨ ∃ e l, extrinsics = some e ∧ e.nums = some l ∧ List.Forall₂ (fun a b => |a - b| < 1 / 1000000000) l rt)) ∨
    (rt_cam_ref = none ∧ ∃ e, extrinsics = some e ∧ e.nums = some rt))

theorem close9_iff (a b : List ℚ) : close9 a b = true ↔ List.Forall₂ (fun a b => |a - b| < 1 / 1000000000) a b := by
  unfold close9
  simp only [Bool.and_eq_true, decide_eq_true_eq, List.all_eq_true]
  rw [List.forall₂_iff_zip]
  exact and_congr_right fun _ => ⟨fun h a b hab => h (a, b) hab, fun h p hp => h hp⟩

theorem readPose_iff (extrinsics rt_cam_ref : Option Lit) (rt : List ℚ) : readPose extrinsics rt_cam_ref = some rt ↔ PoseInFile extrinsics rt_cam_ref rt := by
  unfold readPose PoseInFile
  cases extrinsics with
  | none =>
    cases rt_cam_ref with
    | none => simp
    | some x => cases h : x.nums <;> simp [h] <;> grind
  | some e =>
    cases rt_cam_ref with
    | none => cases h : e.nums <;> simp [h] <;> grind
    | some x =>
      cases he : e.nums with
      | none => simp [he]
      | some l =>
        cases hx : x.nums with
        | none => simp [he, hx]
        | some l' =>
          by_cases hc : close9 l l' = true
          · have := (close9_iff l l').mp hc
            simp [he, hx, hc, -one_div]
            constructor
            · rintro ⟨h1, rfl⟩; exact ⟨h1, rfl, this⟩
            · rintro ⟨h1, rfl, -⟩; exact ⟨h1, rfl⟩
          · simp [he, hx, hc, -one_div]
            rintro h1 rfl h2
            exact hc ((close9_iff _ _).mpr h2)

/-- the pose that is read is the one in the file. If the file has it under both keys then they must agree, or the file is refused -/
theorem read_pose (s : List Char) (d : List (Lit × Lit)) (hs : literalEval s = some d) (o : Obj ℚ (List ℚ)) (h : read s = some o) : PoseInFile (lookup d "extrinsics") (lookup d "rt_cam_ref") o.rt_cam_ref := by
  unfold read at h
  simp only [hs, Option.bind_eq_bind, Option.bind_some, Option.bind_eq_some_iff] at h
  obtain ⟨a, -, b, -, c, -, e, -, rt, hrt, f, -, g, -, i, -, j, -, h⟩ := h
  split_ifs at h
  rw [← Option.some.inj h]
  exact (readPose_iff _ _ _).mp hrt

/-- a file from an old version -/
def oldText : List Char := "{ 'distortion_model': 'DISTORTION_PINHOLE', 'intrinsics': [1,2,3,4], 'rt_cam_ref': [1,2,3,4,5,6], 'imagersize': [10,20], 'optimization_inputs': b'xyz', 'icam_intrinsics_optimization_inputs': 1 }".toList
def newText : List Char := "{ 'lensmodel': 'LENSMODEL_PINHOLE', 'intrinsics': [1,2,3,4], 'rt_cam_ref': [1,2,3,4,5,6], 'imagersize': [10,20], 'optimization_inputs': b'xyz', 'icam_intrinsics': 1 }".toList

/-- a sufficient check for equality, for the example -/
def sameLit : Nat → Lit → Lit → Bool
  | 0, _, _ => false
  | _ + 1, .int a, .int b => decide (a = b)
  | _ + 1, .str a, .str b => decide (a = b)
  | _ + 1, .bytes a, .bytes b => decide (a = b)
  | n + 1, .list a, .list b => decide (a.length = b.length) && (a.zip b).all fun p => sameLit n p.1 p.2
  | _, _, _ => false

theorem zip_eq {α : Type} (a b : List α) (h : a.length = b.length) (h' : ∀ p ∈ a.zip b, p.1 = p.2) : a = b := by
  induction a generalizing b with
  | nil => cases b with
    | nil => rfl
    | cons y b => simp at h
  | cons x a ih => cases b with
    | nil => simp at h
    | cons y b =>
      rw [show x = y from h' (x, y) (by simp), ih b (by simpa using h) fun p hp => h' p (by simp [hp])]

theorem sameLit_eq (n : Nat) (a b : Lit) (h : sameLit n a b = true) : a = b := by
  induction n generalizing a b with
  | zero => simp [sameLit] at h
  | succ n ih =>
    cases a <;> cases b <;> simp only [sameLit, decide_eq_true_eq, Bool.false_eq_true, Bool.and_eq_true, List.all_eq_true] at h
    · rw [h]
    · rw [h]
    · rw [h]
    · rw [zip_eq _ _ h.1 fun p hp => ih _ _ (h.2 p hp)]

def sameOpt (a b : Option Lit) : Bool := match a, b with
  | none, none => true
  | some a, some b => sameLit 9 a b
  | _, _ => false

theorem sameOpt_eq (a b : Option Lit) (h : sameOpt a b = true) : a = b := by
  cases a <;> cases b <;> simp only [sameOpt, Bool.false_eq_true] at h
  · rfl
  · rw [sameLit_eq _ _ _ h]

def oldDict : List (Lit × Lit) := (literalEval oldText).getD []
def newDict : List (Lit × Lit) := (literalEval newText).getD []
theorem old_some : (literalEval oldText).isSome = true := by decide +kernel
theorem new_some : (literalEval newText).isSome = true := by decide +kernel
theorem old_eval : literalEval oldText = some oldDict := by
  obtain ⟨d, h⟩ := Option.isSome_iff_exists.mp old_some
  unfold oldDict
  rw [h]
  rfl
theorem new_eval : literalEval newText = some newDict := by
  obtain ⟨d, h⟩ := Option.isSome_iff_exists.mp new_some
  unfold newDict
  rw [h]
  rfl
theorem same_keys : (["intrinsics", "extrinsics", "rt_cam_ref", "imagersize", "valid_intrinsics_region", "optimization_inputs", "icam_extrinsics"].all fun k =>
    sameOpt (lookup oldDict k) (lookup newDict k)) = true := by decide +kernel
theorem new_name : sameOpt (lookup newDict "lensmodel") (some (.str ("LENSMODEL".toList ++ "_PINHOLE".toList))) = true := by decide +kernel
theorem old_name : sameOpt (lookup oldDict "lensmodel") none = true ∧ sameOpt (lookup oldDict "distortion_model") (some (.str "DISTORTION_PINHOLE".toList)) = true := by decide +kernel
theorem icam_keys : sameOpt (lookup newDict "icam_intrinsics_optimization_inputs") none = true ∧ sameOpt (lookup oldDict "icam_intrinsics") none = true ∧
    sameOpt (lookup oldDict "icam_intrinsics_optimization_inputs") (lookup newDict "icam_intrinsics") = true := by decide +kernel
theorem new_read : (read newText).isSome = true := by decide +kernel
theorem pinhole_plain : ¬ "DISTORTION".toList <:+: "_PINHOLE".toList := by decide +kernel

example : read oldText = read newText ∧ (read newText).isSome = true :=
  ⟨legacy_read oldText newText oldDict newDict old_eval new_eval (fun k hk => sameOpt_eq _ _ (List.all_eq_true.mp same_keys k hk)) "_PINHOLE".toList pinhole_plain (sameOpt_eq _ _ new_name)
    ⟨.str "DISTORTION_PINHOLE".toList, Or.inl rfl, Or.inr (Or.inl ⟨sameOpt_eq _ _ old_name.1, sameOpt_eq _ _ old_name.2⟩)⟩
    ⟨sameOpt_eq _ _ icam_keys.1, Or.inr ⟨sameOpt_eq _ _ icam_keys.2.1, sameOpt_eq _ _ icam_keys.2.2⟩⟩, new_read⟩

/-- `read_pose`: a file that can be read has a pose under either key -/
example : ∃ o, read newText = some o ∧ PoseInFile (lookup newDict "extrinsics") (lookup newDict "rt_cam_ref") o.rt_cam_ref := by
  obtain ⟨o, h⟩ := Option.isSome_iff_exists.mp new_read
  exact ⟨o, h, read_pose _ _ new_eval o h⟩

end Mrcal.ModelPy

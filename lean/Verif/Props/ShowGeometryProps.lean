import Verif.Model.ShowGeometry
import Verif.Props.PoseProps
import Mathlib.Data.List.GetD
import Mathlib.Tactic.Linarith
import Mathlib.Tactic.NormNum
/-
C125: show_geometry() plots the cameras, boards and points where they are.
-/
namespace Mrcal.Geometry

open Mrcal Mrcal.Pose

/-! ### specification -/

/-- from the coordinates of a camera to the reference coordinates -/
def camToRef : Cam → P3 → P3
  | .model m, x => transformPointRt m.Rt_ref_cam x false
  | .pose T, x => transformPointRt T x true

/-- from the reference coordinates to the coordinates of the plot, for camera i -/
def refToPlot (A : Args) (i : Nat) (x : P3) : P3 :=
  match A.plotRef with
  | .none => x
  | .one T => transformPointRt T x false
  | .each l => transformPointRt (l.getD i identityRt) x false

/-- the first model that has a solve -/
def FirstSolve (cams : List Cam) (i : Nat) (m : Model) (I : Inputs) : Prop :=
  cams[i]? = some (.model m) ∧ m.inputs = some I ∧ ∀ (j : Nat) m', j < i → cams[j]? = some (.model m') → m'.inputs = none

/-- when the solve was made: from its reference coordinates to those of its camera e. A negative index: this camera is the reference -/
def refToCam (I : Inputs) (e : Int) (x : P3) : P3 := if e < 0 then x else transformPointRt (I.Rt_cam_ref.getD e.toNat identityRt) x false

/-- the poses are rigid -/
def Rigid : Cam → Prop
  | .model m => Orth m.Rt_ref_cam.R
  | .pose T => Orth T.R

/-! ### lemmas -/

theorem firstInputs_spec : ∀ (cams : List Cam) (i : Nat) (m : Model) (I : Inputs), FirstSolve cams i m I → firstInputs cams = some (i, m, I)
  | [], i, m, I, h => by simp [FirstSolve] at h
  | c :: l, 0, m, I, ⟨h1, h2, h3⟩ => by
    simp only [List.getElem?_cons_zero, Option.some.injEq] at h1
    subst h1
    simp [firstInputs, h2]
  | c :: l, i + 1, m, I, ⟨h1, h2, h3⟩ => by
    have ih := firstInputs_spec l i m I ⟨by simpa using h1, h2, fun j m' hj hm => h3 (j + 1) m' (by omega) (by simpa using hm)⟩
    cases c with
    | pose T => simp [firstInputs, ih]
    | model m' => simp [firstInputs, h3 0 m' (by omega) (by simp), ih]

theorem plotRefs_cam {A : Args} {n : Nat} {P : Option (List Rt)} (h : plotRefs A n = some P) {i : Nat} (hi : i < n) (T : Rt) (x : P3) :
    transformPointRt (cameraToPlot P i T) x false = refToPlot A i (transformPointRt T x false) := by
  unfold plotRefs at h
  unfold cameraToPlot refToPlot
  cases hp : A.plotRef with
  | none => rw [hp] at h; cases h; rfl
  | one T' =>
    rw [hp] at h; cases h
    dsimp only
    rw [compose_transform]
    simp [List.getD_eq_getElem?_getD, hi]
  | each l =>
    rw [hp] at h
    dsimp only at h
    split_ifs at h
    cases h
    dsimp only
    rw [compose_transform]

theorem plotRefs_pt {A : Args} {cams : List Cam} {P : Option (List Rt)} (h : plotRefs A cams.length = some P) {i : Nat} (hi : i < cams.length) (hf : ((firstInputs cams).map fun r => r.1).getD 0 = i) (x : P3) :
    toPlot P cams x = refToPlot A i x := by
  unfold plotRefs at h
  unfold toPlot refToPlot
  rw [hf]
  cases hp : A.plotRef with
  | none => rw [hp] at h; cases h; rfl
  | one T' =>
    rw [hp] at h; cases h
    simp [List.getD_eq_getElem?_getD, hi]
  | each l =>
    rw [hp] at h
    dsimp only at h
    split_ifs at h
    cases h
    rfl

theorem geometry_some {A : Args} {out : Out} (h : geometry A = some out) : ∃ cams names P b p pc, cameras A = some cams ∧ cameraNames A cams.length = some names ∧ plotRefs A cams.length = some P ∧ cams ≠ [] ∧ boards A cams = some b ∧
    pointsToPlot A cams = some p ∧ pointCurves A.labels ((p.getD []).map (toPlot P cams)) = some pc ∧
    out.cameras = (cams.zipIdx.map fun c => (cameraName names c.2, axes (cameraToPlot P c.2 (refCam c.1)) A.scale)) ∧
    out.boards = (match b with
      | none => []
      | some (fr, obj) => fr.map fun F => obj.map fun x => toPlot P cams (transformPointRt F x false)) ∧ out.points = pc := by
  unfold geometry at h
  obtain ⟨cams, h1, h⟩ := Option.bind_eq_some_iff.1 h
  obtain ⟨names, h2, h⟩ := Option.bind_eq_some_iff.1 h
  obtain ⟨P, h3, h⟩ := Option.bind_eq_some_iff.1 h
  by_cases he : cams.isEmpty = true
  · rw [if_pos he] at h; cases h
  rw [if_neg he] at h
  obtain ⟨b, h4, h⟩ := Option.bind_eq_some_iff.1 h
  obtain ⟨p, h5, h⟩ := Option.bind_eq_some_iff.1 h
  obtain ⟨pc, h6, rfl⟩ := Option.map_eq_some_iff.1 h
  exact ⟨cams, names, P, b, p, pc, h1, h2, h3, by simpa using he, h4, h5, h6, rfl, rfl, rfl⟩

theorem refCam_spec (c : Cam) (hr : Rigid c) (x : P3) : transformPointRt (refCam c) x false = camToRef c x := by
  cases c with
  | model m => rfl
  | pose T => exact (invert_transform T x hr).1

theorem addP_subP (a b : P3) : addP b (subP a b) = a := by
  ext <;> simp [addP, subP]

/-! ### the cameras -/

/-- **C125** each camera is plotted at its own pose, with its own name: the axes start at its center, and end at the points of its x, y, z axes; the z axis is twice as long -/
theorem cameras_meaning {A : Args} {out : Out} {cams : List Cam} (h : geometry A = some out) (hc : cameras A = some cams) :
    out.cameras.length = cams.length ∧ ∀ (i : Nat) c, cams[i]? = some c → Rigid c → ∃ name ax, out.cameras[i]? = some (name, ax) ∧ (∀ l, A.names = some l → l[i]? = some name) ∧
      ax.center = refToPlot A i (camToRef c ⟨0, 0, 0⟩) ∧
      addP ax.center ax.x = refToPlot A i (camToRef c ⟨A.scale, 0, 0⟩) ∧
      addP ax.center ax.y = refToPlot A i (camToRef c ⟨0, A.scale, 0⟩) ∧
      addP ax.center ax.z = refToPlot A i (camToRef c ⟨0, 0, 2 * A.scale⟩) ∧
      ax.labels = (refToPlot A i (camToRef c ⟨1.01 * A.scale, 0, 0⟩), refToPlot A i (camToRef c ⟨0, 1.01 * A.scale, 0⟩), refToPlot A i (camToRef c ⟨0, 0, 1.01 * (2 * A.scale)⟩)) := by
  obtain ⟨cams', names, P, b, p, pc, h1, h2, h3, h4, -, -, -, h5, -, -⟩ := geometry_some h
  rw [hc] at h1; cases h1
  refine ⟨by rw [h5]; simp, fun i c hi hr => ?_⟩
  have hlt := (List.getElem?_eq_some_iff.1 hi).1
  refine ⟨cameraName names i, axes (cameraToPlot P i (refCam c)) A.scale, ?_, ?_, ?_⟩
  · rw [h5, List.getElem?_map, List.getElem?_zipIdx, hi]; simp
  · intro l hl
    unfold cameraNames at h2
    rw [hl] at h2
    dsimp only at h2
    split_ifs at h2 with hn
    cases h2
    have : i < l.length := by rw [not_not] at hn; omega
    simp [cameraName, List.getElem?_eq_getElem this]
  · simp only [axes, addP_subP, plotRefs_cam h3 hlt, refCam_spec c hr, and_self]

/-- **C125** with icam_extrinsics_fromsolve the cameras are at the poses of the solve, in the given order -/
theorem fromsolve_cameras {A : Args} {cams : List Cam} {w : FromSolve} {m : Model} {I : Inputs} (hw : A.fromSolve = some w) (hm : A.cams = [.model m]) (hI : m.inputs = some I) (hc : cameras A = some cams) :
    cams.length = (icams I w).length ∧ ∀ (k : Nat) e, (icams I w)[k]? = some e → ∃ c T, cams[k]? = some c ∧ (e < 0 → T = identityRt) ∧ (0 ≤ e → I.Rt_cam_ref[e.toNat]? = some T) ∧
      (Orth T.R → Rigid c ∧ ∀ x, camToRef c (transformPointRt T x false) = x) := by
  unfold cameras at hc
  rw [hw, hm] at hc
  dsimp only at hc
  rw [hI, Option.bind_some] at hc
  have key : ∀ (l : List (Int × Nat)) (cs : List Cam), (l.mapM fun x => (solvePose I x.1).map fun T => if x.2 = 0 then Cam.model ⟨invertRt T, some I, m.icamIntrinsics, some x.1⟩ else Cam.pose T) = some cs →
      cs.length = l.length ∧ ∀ (k : Nat) x, l[k]? = some x → ∃ T, solvePose I x.1 = some T ∧ cs[k]? = some (if x.2 = 0 then Cam.model ⟨invertRt T, some I, m.icamIntrinsics, some x.1⟩ else Cam.pose T) := by
    intro l
    induction l with
    | nil => intro cs h; simp at h; subst h; simp
    | cons y l ih =>
      intro cs h
      rw [List.mapM_cons] at h
      obtain ⟨c, h1, h⟩ := Option.bind_eq_some_iff.1 h
      obtain ⟨cs', h2, h⟩ := Option.bind_eq_some_iff.1 h
      cases h
      obtain ⟨i1, i2⟩ := ih cs' h2
      obtain ⟨T, hT, rfl⟩ := Option.map_eq_some_iff.1 h1
      refine ⟨by simp [i1], fun k x hk => ?_⟩
      cases k with
      | zero => simp at hk; subst hk; exact ⟨T, hT, by simp⟩
      | succ k => obtain ⟨T', e1, e2⟩ := i2 k x (by simpa using hk); exact ⟨T', e1, by simpa using e2⟩
  obtain ⟨k1, k2⟩ := key _ _ hc
  refine ⟨by simpa using k1, fun k e hk => ?_⟩
  obtain ⟨T, hT, hcs⟩ := k2 k (e, k) (by rw [List.getElem?_zipIdx, hk]; simp)
  refine ⟨_, T, hcs, fun he => ?_, fun he => ?_, fun ho => ?_⟩
  · simp only [solvePose, if_pos he] at hT; cases hT; rfl
  · simp only [solvePose, if_neg (by omega : ¬ e < 0)] at hT; exact hT
  · by_cases hz : k = 0
    · rw [if_pos hz]
      refine ⟨?_, fun x => ?_⟩
      · show Orth (invertRt T).R
        have : (invertRt T).R = transpose T.R := rfl
        rw [this]
        unfold Orth
        rw [toMat_transpose, Matrix.transpose_transpose]
        exact ho.left
      · show transformPointRt (invertRt T) _ false = x
        rw [(invert_transform T _ ho).1]; exact (transform_inverted T ho x).1
    · rw [if_neg hz]
      exact ⟨ho, fun x => (transform_inverted T ho x).1⟩

/-- **C125** 'all': every pose of the solve; and the reference exactly if something was observed from there -/
theorem fromsolve_all (I : Inputs) (e : Int) : e ∈ icams I .all ↔ (0 ≤ e ∧ e < I.Rt_cam_ref.length) ∨ (e = -1 ∧ ∃ x, (x ∈ I.idxFrame ∨ x ∈ I.idxPoint) ∧ x.2.2 < 0) := by
  have hr : ∀ n : Nat, e ∈ (List.range n).map (fun (k : Nat) => (k : Int)) ↔ 0 ≤ e ∧ e < n := by
    intro n
    rw [List.mem_map]
    constructor
    · rintro ⟨k, hk, rfl⟩
      have := List.mem_range.1 hk
      omega
    · rintro ⟨h1, h2⟩
      exact ⟨e.toNat, List.mem_range.2 (by omega), by omega⟩
  unfold icams
  rw [List.mem_append, hr, or_comm]
  refine or_congr_right ?_
  split_ifs with hc
  · have : ∃ x, (x ∈ I.idxFrame ∨ x ∈ I.idxPoint) ∧ x.2.2 < 0 := by
      rcases Bool.or_eq_true_iff.1 hc with hc | hc
      · obtain ⟨x, h1, h2⟩ := List.any_eq_true.1 hc
        exact ⟨x, Or.inl h1, by simpa using h2⟩
      · obtain ⟨x, h1, h2⟩ := List.any_eq_true.1 hc
        exact ⟨x, Or.inr h1, by simpa using h2⟩
    simp only [List.mem_singleton, this, and_true]
  · constructor
    · intro h; cases h
    · rintro ⟨-, x, h1, h2⟩
      refine absurd ?_ hc
      rw [Bool.or_eq_true]
      rcases h1 with h1 | h1
      · exact Or.inl (List.any_eq_true.2 ⟨x, h1, by simpa using h2⟩)
      · exact Or.inr (List.any_eq_true.2 ⟨x, h1, by simpa using h2⟩)

/-- **C125** icam_extrinsics_fromsolve without exactly one model with a solve is an error; so is a pose that the solve doesn't have -/
theorem fromsolve_refused (A : Args) {w : FromSolve} (hw : A.fromSolve = some w) (h : ∀ m I, A.cams = [.model m] → m.inputs = some I → ∃ e ∈ icams I w, (I.Rt_cam_ref.length : Int) ≤ e) : geometry A = none := by
  cases hg : geometry A with
  | none => rfl
  | some out =>
    exfalso
    obtain ⟨cams, -, -, -, -, -, hc, -⟩ := geometry_some hg
    have hc' := hc
    unfold cameras at hc
    rw [hw] at hc
    dsimp only at hc
    split at hc
    · rename_i m hm
      obtain ⟨I, hI, -⟩ := Option.bind_eq_some_iff.1 hc
      obtain ⟨e, he, hlen⟩ := h m I hm hI
      obtain ⟨k, hk⟩ := List.mem_iff_getElem?.1 he
      obtain ⟨c, T, -, -, hT, -⟩ := (fromsolve_cameras hw hm hI hc').2 k e hk
      have := (List.getElem?_eq_some_iff.1 (hT (by omega))).1
      omega
    · cases hc

/-! ### the boards -/

theorem mapM_get {α : Type} (src : List α) : ∀ (l : List Nat) (r : List α), (l.mapM fun f => src[f]?) = some r → ∀ x, x ∈ r ↔ ∃ f ∈ l, src[f]? = some x
  | [], r, h, x => by simp at h; subst h; simp
  | f :: l, r, h, x => by
    rw [List.mapM_cons] at h
    obtain ⟨y, h1, h⟩ := Option.bind_eq_some_iff.1 h
    obtain ⟨r', h2, h⟩ := Option.bind_eq_some_iff.1 h
    cases h
    rw [List.mem_cons, mapM_get src l r' h2 x]
    constructor
    · rintro (rfl | ⟨g, h3, h4⟩)
      · exact ⟨f, by simp, h1⟩
      · exact ⟨g, by simp [h3], h4⟩
    · rintro ⟨g, h3, h4⟩
      rcases List.mem_cons.1 h3 with rfl | h3
      · rw [h1] at h4; cases h4; exact Or.inl rfl
      · exact Or.inr ⟨g, h3, h4⟩

theorem mem_observed (idx : List (Nat × Nat × Int)) (n : Nat) (e : Int) (f : Nat) : f ∈ observed idx n (some e) ↔ (f, n, e) ∈ idx := by
  unfold observed
  rw [List.mem_map]
  constructor
  · rintro ⟨⟨a, b, c⟩, h, rfl⟩
    rw [List.mem_filter] at h
    obtain ⟨h1, h2⟩ := h
    simp at h2
    obtain ⟨rfl, rfl⟩ := h2
    exact h1
  · intro h
    exact ⟨_, List.mem_filter.2 ⟨h, by simp⟩, rfl⟩

/-- **C125** the boards of a solve are plotted where they were for the camera of this model: the coordinates of each corner in the camera are those of the solve, then the camera is at the pose of the model. 'all': all the boards; 'thiscamera':
exactly those that this camera observed -/
theorem boards_meaning {A : Args} {out : Out} {cams : List Cam} {i : Nat} {m : Model} {I : Inputs} (h : geometry A = some out) (hc : cameras A = some cams) (hf : A.frames = none) (hs : A.showBoards ≠ .no) (hi : FirstSolve cams i m I)
    (hb : I.hasBoards = true) :
    ∃ fr e, m.icamExtrinsics = some e ∧ (A.showBoards = .all → fr = I.frames) ∧ (A.showBoards = .this → ∀ F, F ∈ fr ↔ ∃ f, (f, m.icamIntrinsics, e) ∈ I.idxFrame ∧ I.frames[f]? = some F) ∧
      out.boards = fr.map fun F => I.object.map fun x => refToPlot A i (camToRef (.model m) (refToCam I e (transformPointRt F x false))) := by
  obtain ⟨cams', names, P, b, p, pc, h1, -, h3, h4, h5, -, -, -, h6, -⟩ := geometry_some h
  rw [hc] at h1; cases h1
  have hfi := firstInputs_spec cams i m I hi
  have hlt : i < cams.length := (List.getElem?_eq_some_iff.1 hi.1).1
  have htp : ∀ x, toPlot P cams x = refToPlot A i x := fun x => plotRefs_pt h3 hlt (by rw [hfi]; rfl) x
  unfold boards at h5
  rw [if_neg hs, hf] at h5
  dsimp only at h5
  by_cases ho : A.showBoards = .other
  · rw [if_pos ho] at h5; cases h5
  rw [if_neg ho, hfi] at h5
  dsimp only at h5
  rw [hb, if_neg (by simp)] at h5
  obtain ⟨fr, hfr, h5⟩ := Option.bind_eq_some_iff.1 h5
  obtain ⟨e, he, h5⟩ := Option.bind_eq_some_iff.1 h5
  refine ⟨fr, e, he, ?_, ?_, ?_⟩
  · intro ha
    rw [if_neg (by rw [ha]; decide)] at hfr
    cases hfr; rfl
  · intro ht F
    rw [if_pos ht, he] at hfr
    rw [mapM_get _ _ _ hfr]
    simp only [mem_observed]
  · rw [h6]
    by_cases hneg : e < 0
    · rw [if_pos hneg] at h5
      cases h5
      dsimp only
      rw [List.map_map]
      apply List.map_congr_left
      intro F _
      apply List.map_congr_left
      intro x _
      rw [htp, compose_transform]
      simp only [refToCam, if_pos hneg, camToRef]
    · rw [if_neg hneg] at h5
      obtain ⟨T, hT, rfl⟩ := Option.map_eq_some_iff.1 h5
      dsimp only
      rw [List.map_map]
      apply List.map_congr_left
      intro F _
      apply List.map_congr_left
      intro x _
      rw [htp, compose_transform, compose_transform]
      simp only [refToCam, if_neg hneg, camToRef, List.getD_eq_getElem?_getD, hT, Option.getD_some]

/-- **C125** with icam_extrinsics_fromsolve the boards are where the solve has them -/
theorem fromsolve_boards {A : Args} {out : Out} {w : FromSolve} {m : Model} {I : Inputs} (h : geometry A = some out) (hw : A.fromSolve = some w) (hm : A.cams = [.model m]) (hI : m.inputs = some I) (hf : A.frames = none)
    (hs : A.showBoards = .all) (hb : I.hasBoards = true) (ho : ∀ T ∈ I.Rt_cam_ref, Orth T.R) :
    out.boards = I.frames.map fun F => I.object.map fun x => refToPlot A 0 (transformPointRt F x false) := by
  obtain ⟨cams, -, -, -, -, -, hc, -, -, hne, -⟩ := geometry_some h
  obtain ⟨hlen, hcam⟩ := fromsolve_cameras hw hm hI hc
  have h0 : 0 < (icams I w).length := by rw [← hlen]; exact List.length_pos_of_ne_nil hne
  -- the first camera is a model
  have hfirst : ∃ T e, (icams I w)[0]? = some e ∧ solvePose I e = some T ∧ cams[0]? = some (Cam.model ⟨invertRt T, some I, m.icamIntrinsics, some e⟩) := by
    unfold cameras at hc
    rw [hw, hm] at hc
    dsimp only at hc
    rw [hI, Option.bind_some] at hc
    obtain ⟨e, l, hel⟩ := List.exists_cons_of_ne_nil (List.ne_nil_of_length_pos h0)
    rw [hel, List.zipIdx_cons, List.mapM_cons] at hc
    obtain ⟨c, h1, hc⟩ := Option.bind_eq_some_iff.1 hc
    obtain ⟨cs, h2, hc⟩ := Option.bind_eq_some_iff.1 hc
    cases hc
    obtain ⟨T, hT, rfl⟩ := Option.map_eq_some_iff.1 h1
    exact ⟨T, e, by rw [hel]; rfl, hT, by simp⟩
  obtain ⟨T, e, he, hT, hc0⟩ := hfirst
  obtain ⟨fr, e', he', hfr, -, hout⟩ := boards_meaning h hc hf (by rw [hs]; decide) (i := 0) (m := ⟨invertRt T, some I, m.icamIntrinsics, some e⟩) (I := I) ⟨hc0, rfl, fun j m' hj => absurd hj (by omega)⟩ hb
  have hee : e = e' := Option.some.inj he'
  subst hee
  rw [hout, hfr hs]
  apply List.map_congr_left
  intro F _
  apply List.map_congr_left
  intro x _
  congr 1
  show transformPointRt (invertRt T) _ false = _
  unfold solvePose at hT
  unfold refToCam
  by_cases hneg : e < 0
  · rw [if_pos hneg] at hT ⊢
    cases hT
    have : invertRt identityRt = identityRt := by
      simp [invertRt, identityRt, identityR, transpose, mulVec]
    rw [this]; exact (compose_identity identityRt).2.2 _
  · rw [if_neg hneg] at hT ⊢
    rw [List.getD_eq_getElem?_getD, hT, Option.getD_some]
    have hoT := ho T (List.mem_of_getElem? hT)
    rw [(invert_transform T _ hoT).1]
    exact (transform_inverted T hoT _).1

/-- **C125** explicit boards are plotted as given; they don't depend on any model -/
theorem explicit_boards {A : Args} {out : Out} {fr : List Rt} {obj : List P3} (h : geometry A = some out) (hf : A.frames = some (fr, obj)) (hs : A.showBoards ≠ .no) :
    out.boards = fr.map fun F => obj.map fun x => refToPlot A 0 (transformPointRt F x false) := by
  obtain ⟨cams, names, P, b, p, pc, h1, -, h3, h4, h5, -, -, -, h6, -⟩ := geometry_some h
  unfold boards at h5
  rw [if_neg hs, hf] at h5
  cases h5
  rw [h6]
  dsimp only
  have hlt : ((firstInputs cams).map fun r => r.1).getD 0 < cams.length ∨ firstInputs cams = none := by
    have : ∀ (l : List Cam) r, firstInputs l = some r → r.1 < l.length := by
      intro l
      induction l with
      | nil => intro r h; cases h
      | cons c l ih =>
        intro r h
        cases c with
        | pose T =>
          simp only [firstInputs] at h
          obtain ⟨r', hr', rfl⟩ := Option.map_eq_some_iff.1 h
          have := ih r' hr'
          simp only [List.length_cons]; omega
        | model m =>
          cases hm : m.inputs with
          | some I => simp only [firstInputs, hm] at h; cases h; simp
          | none =>
            simp only [firstInputs, hm] at h
            obtain ⟨r', hr', rfl⟩ := Option.map_eq_some_iff.1 h
            have := ih r' hr'
            simp only [List.length_cons]; omega
    cases hfi : firstInputs cams with
    | none => exact Or.inr rfl
    | some r => exact Or.inl (by simpa using this cams r hfi)
  have hpos : 0 < cams.length := List.length_pos_of_ne_nil h4
  have hlt' : ((firstInputs cams).map fun r => r.1).getD 0 < cams.length := by
    rcases hlt with h | h
    · exact h
    · rw [h]; exact hpos
  apply List.map_congr_left
  intro F _
  apply List.map_congr_left
  intro x _
  rw [plotRefs_pt h3 hlt' rfl]
  unfold refToPlot
  unfold plotRefs at h3
  cases hp : A.plotRef with
  | none => rfl
  | one T => rfl
  | each l =>
    rw [hp] at h3
    dsimp only at h3
    rw [hf] at h3
    split_ifs at h3
    all_goals simp at *

/-- **C125** a separate transform per camera together with explicit boards or points is an error, and so is a wrong number of transforms or names -/
theorem refused (A : Args) {cams : List Cam} (hc : cameras A = some cams) :
    (∀ l, A.plotRef = .each l → (A.frames.isSome = true ∨ A.points.isSome = true ∨ l.length ≠ cams.length) → geometry A = none) ∧ (∀ l, A.names = some l → l.length ≠ cams.length → geometry A = none) := by
  constructor
  · intro l hl h
    cases hg : geometry A with
    | none => rfl
    | some out =>
      obtain ⟨cams', names, P, b, p, pc, h1, -, h3, -⟩ := geometry_some hg
      rw [hc] at h1; cases h1
      unfold plotRefs at h3
      rw [hl] at h3
      dsimp only at h3
      by_cases hn : l.length ≠ cams.length
      · rw [if_pos hn] at h3; cases h3
      · rw [if_neg hn, if_pos (by rcases h with h | h | h <;> simp_all)] at h3; cases h3
  · intro l hl h
    cases hg : geometry A with
    | none => rfl
    | some out =>
      obtain ⟨cams', names, P, b, p, pc, h1, h2, -⟩ := geometry_some hg
      rw [hc] at h1; cases h1
      unfold cameraNames at h2
      rw [hl] at h2
      dsimp only at h2
      rw [if_pos h] at h2; cases h2

/-! ### the points -/

/-- **C125** the points of a solve, without labels: as the boards -/
theorem points_meaning {A : Args} {out : Out} {cams : List Cam} {i : Nat} {m : Model} {I : Inputs} (h : geometry A = some out) (hc : cameras A = some cams) (hp : A.points = none) (hs : A.showPoints ≠ .no) (hi : FirstSolve cams i m I)
    (hb : I.points ≠ []) (hl : A.labels = none) :
    ∃ pts e, m.icamExtrinsics = some e ∧ (A.showPoints = .all → pts = I.points) ∧ (A.showPoints = .this → ∀ x, x ∈ pts ↔ ∃ f, (f, m.icamIntrinsics, e) ∈ I.idxPoint ∧ I.points[f]? = some x) ∧
      (out.points.map fun c => c.2).flatten = pts.map fun x => refToPlot A i (camToRef (.model m) (refToCam I e x)) := by
  obtain ⟨cams', names, P, b, p, pc, h1, -, h3, h4, -, h5, h6, -, -, h7⟩ := geometry_some h
  rw [hc] at h1; cases h1
  have hfi := firstInputs_spec cams i m I hi
  have hlt : i < cams.length := (List.getElem?_eq_some_iff.1 hi.1).1
  have htp : ∀ x, toPlot P cams x = refToPlot A i x := fun x => plotRefs_pt h3 hlt (by rw [hfi]; rfl) x
  unfold pointsToPlot at h5
  rw [if_neg hs, hp] at h5
  dsimp only at h5
  by_cases ho : A.showPoints = .other
  · rw [if_pos ho] at h5; cases h5
  rw [if_neg ho, hfi] at h5
  dsimp only at h5
  rw [if_neg (by simpa using hb)] at h5
  obtain ⟨pts, hpts, h5⟩ := Option.bind_eq_some_iff.1 h5
  obtain ⟨e, he, h5⟩ := Option.bind_eq_some_iff.1 h5
  have hcurve : ∀ q : List P3, pointCurves none q = some pc → (pc.map fun c => c.2).flatten = q := by
    intro q hq
    unfold pointCurves at hq
    by_cases hqe : q.isEmpty = true
    · rw [if_pos hqe] at hq; cases hq; simp at hqe; simp [hqe]
    · rw [if_neg hqe] at hq; cases hq; simp
  rw [hl] at h6
  refine ⟨pts, e, he, ?_, ?_, ?_⟩
  · intro ha
    rw [if_neg (by rw [ha]; decide)] at hpts
    cases hpts; rfl
  · intro ht x
    rw [if_pos ht, he] at hpts
    rw [mapM_get _ _ _ hpts]
    simp only [mem_observed]
  · rw [h7, hcurve _ h6]
    by_cases hneg : e < 0
    · rw [if_pos hneg] at h5
      cases h5
      simp only [Option.getD_some, List.map_map]
      apply List.map_congr_left
      intro x _
      show toPlot P cams _ = _
      rw [htp]
      simp only [refToCam, if_pos hneg, camToRef]
    · rw [if_neg hneg] at h5
      obtain ⟨T, hT, rfl⟩ := Option.map_eq_some_iff.1 h5
      simp only [Option.getD_some, List.map_map]
      apply List.map_congr_left
      intro x _
      show toPlot P cams _ = _
      rw [htp]
      simp only [refToCam, if_neg hneg, camToRef, List.getD_eq_getElem?_getD, hT, Option.getD_some]

/-- **C125** labels: each labelled point is plotted with its label; the others are plotted without. This holds for explicit points -/
theorem labels_partial {A : Args} {out : Out} {p : List P3} {lab : List (Nat × Str)} (h : geometry A = some out) (hp : A.points = some p) (hne : p ≠ []) (hs : A.showPoints ≠ .no) (hl : A.labels = some lab) :
    (∀ k s, (k, s) ∈ lab → ∃ x, p[k]? = some x ∧ (s, [refToPlot A 0 x]) ∈ out.points) ∧
    ∃ l, out.points.head? = some ("points".toList, l) ∧ ∀ q, q ∈ l ↔ ∃ (k : Nat) (x : P3), p[k]? = some x ∧ (∀ s, (k, s) ∉ lab) ∧ q = refToPlot A 0 x := by
  obtain ⟨cams, names, P, b, p', pc, h1, -, h3, h4, -, h5, h6, -, -, h7⟩ := geometry_some h
  unfold pointsToPlot at h5
  rw [if_neg hs, hp] at h5
  cases h5
  have htp : ∀ x, toPlot P cams x = refToPlot A 0 x := by
    intro x
    unfold refToPlot toPlot
    unfold plotRefs at h3
    cases hpr : A.plotRef with
    | none => rw [hpr] at h3; cases h3; rfl
    | one T =>
      rw [hpr] at h3; cases h3
      have : ∀ j, j < cams.length → (List.replicate cams.length T).getD j identityRt = T := by
        intro j hj; simp [List.getD_eq_getElem?_getD, hj]
      dsimp only
      rw [this]
      cases hfi : firstInputs cams with
      | none => exact List.length_pos_of_ne_nil h4
      | some r =>
        have hb : ∀ (l : List Cam) r, firstInputs l = some r → r.1 < l.length := by
          intro l
          induction l with
          | nil => intro r h; cases h
          | cons c l ih =>
            intro r h
            cases c with
            | pose T =>
              simp only [firstInputs] at h
              obtain ⟨r', hr', rfl⟩ := Option.map_eq_some_iff.1 h
              have := ih r' hr'
              simp only [List.length_cons]; omega
            | model m =>
              cases hm : m.inputs with
              | some I => simp only [firstInputs, hm] at h; cases h; simp
              | none =>
                simp only [firstInputs, hm] at h
                obtain ⟨r', hr', rfl⟩ := Option.map_eq_some_iff.1 h
                have := ih r' hr'
                simp only [List.length_cons]; omega
        exact hb cams r hfi
    | each l =>
      rw [hpr] at h3
      dsimp only at h3
      rw [hp] at h3
      by_cases hn : l.length ≠ cams.length
      · rw [if_pos hn] at h3; cases h3
      · rw [if_neg hn, if_pos (by simp)] at h3; cases h3
  rw [Option.getD_some] at h6
  unfold pointCurves at h6
  rw [if_neg (by simpa using hne), hl] at h6
  dsimp only at h6
  by_cases hle : lab.isEmpty = true
  · rw [if_pos hle] at h6; cases h6
  rw [if_neg hle] at h6
  obtain ⟨cur, hcur, rfl⟩ := Option.map_eq_some_iff.1 h6
  have key : ∀ (lab : List (Nat × Str)) (cur : List (Str × List P3)), (lab.mapM fun x => (p.map (toPlot P cams))[x.1]?.map fun q => (x.2, [q])) = some cur → ∀ k s, (k, s) ∈ lab → ∃ x, p[k]? = some x ∧ (s, [refToPlot A 0 x]) ∈ cur := by
    intro lab
    induction lab with
    | nil => intro cur _ k s hk; cases hk
    | cons y lab ih =>
      intro cur hcur k s hk
      rw [List.mapM_cons] at hcur
      obtain ⟨c, e1, hcur⟩ := Option.bind_eq_some_iff.1 hcur
      obtain ⟨cs, e2, hcur⟩ := Option.bind_eq_some_iff.1 hcur
      cases hcur
      rcases List.mem_cons.1 hk with rfl | hk
      · obtain ⟨q, hq, rfl⟩ := Option.map_eq_some_iff.1 e1
        rw [List.getElem?_map] at hq
        obtain ⟨x, hx, rfl⟩ := Option.map_eq_some_iff.1 hq
        exact ⟨x, hx, by rw [htp]; simp⟩
      · obtain ⟨x, hx, hm⟩ := ih cs e2 k s hk
        exact ⟨x, hx, by simp [hm]⟩
  rw [h7]
  refine ⟨fun k s hk => ?_, _, rfl, fun q => ?_⟩
  · obtain ⟨x, hx, hm⟩ := key lab cur hcur k s hk
    exact ⟨x, hx, List.mem_cons_of_mem _ hm⟩
  · rw [List.mem_map]
    constructor
    · rintro ⟨⟨q', k⟩, hq, rfl⟩
      rw [List.mem_filter, List.mem_zipIdx_iff_getElem?, List.getElem?_map] at hq
      obtain ⟨hq, hn⟩ := hq
      obtain ⟨x, hx, hq⟩ := Option.map_eq_some_iff.1 hq
      refine ⟨k, x, hx, fun s hs => ?_, by rw [← htp]; exact hq.symm⟩
      rw [Bool.not_eq_true', List.any_eq_false] at hn
      exact hn (k, s) hs (by simp)
    · rintro ⟨k, x, hx, hn, rfl⟩
      refine ⟨(refToPlot A 0 x, k), ?_, rfl⟩
      rw [List.mem_filter]
      refine ⟨?_, ?_⟩
      · rw [List.mem_zipIdx_iff_getElem?, List.getElem?_map, hx]; simp [htp]
      · rw [Bool.not_eq_true', List.any_eq_false]
        intro y hy
        simp only [decide_eq_true_eq]
        intro e
        exact hn y.2 (by rw [← e]; exact hy)

/-! ### examples, and where the code is wrong -/

/-- a solve with two points, and a board; camera 0 observes point 1 and the board -/
def demoInputs : Inputs := ⟨[identityRt], true, [identityRt, ⟨identityR, ⟨0, 0, 5⟩⟩], [⟨0, 0, 0⟩], [(1, 0, 0), (0, 0, -1)], [⟨1, 0, 0⟩, ⟨2, 0, 0⟩], [(1, 0, 0)]⟩
def demoModel (e : Option Int) : Model := ⟨⟨identityR, ⟨7, 0, 0⟩⟩, some demoInputs, 0, e⟩
def demo (e : Option Int) (show' : Show) (labels : Option (List (Nat × Str))) (points : Option (List P3)) (fs : Option FromSolve) : Args := ⟨[.model (demoModel e)], fs, none, .none, none, points, show', show', 1, labels⟩

/-- `boards_meaning`, `points_meaning`: the camera was moved since the calibration -/
example : ∃ out, geometry (demo (some 0) .this none none none) = some out ∧ out.boards = [[⟨7, 0, 5⟩]] ∧ out.points = [("points".toList, [⟨9, 0, 0⟩])] ∧ FirstSolve [.model (demoModel (some 0))] 0 (demoModel (some 0)) demoInputs := by
  refine ⟨_, rfl, ?_, ?_, rfl, rfl, fun j m' hj => absurd hj (by omega)⟩
  · simp [observed, demoInputs, toPlot, demoModel, composeRt, identityRt, identityR, transformPointRt, rotatePointR, mulVec, mul, addP]
  · simp [observed, demoInputs, toPlot, demoModel, identityRt, identityR, transformPointRt, rotatePointR, mulVec, addP]
    norm_num

/-- `fromsolve_cameras`, `fromsolve_boards`: both poses of the solve -/
example : icams demoInputs .all = [-1, 0] ∧ (∃ cams, cameras (demo (some 0) .all none none (some .all)) = some cams ∧ cams.length = 2) ∧ (∃ out, geometry (demo (some 0) .all none none (some .all)) = some out) ∧ ∀ T ∈ demoInputs.Rt_cam_ref, Orth T.R := by
  refine ⟨by decide, ⟨_, rfl, rfl⟩, ⟨_, rfl⟩, ?_⟩
  intro T hT
  simp [demoInputs] at hT
  subst hT
  show Orth identityR
  unfold Orth
  rw [toMat_identity]; simp

/-- `fromsolve_refused`: camera 3 isn't in this solve -/
example : ∃ e ∈ icams demoInputs (.list [0, 3]), (demoInputs.Rt_cam_ref.length : Int) ≤ e := ⟨3, by decide, by decide⟩

/-- `labels_partial`, `explicit_boards`, `cameras_meaning` -/
example : ∃ out, geometry (demo none .all (some [(1, ['a'])]) (some [⟨1, 0, 0⟩, ⟨2, 0, 0⟩]) none) = none ∧ geometry ⟨[.pose identityRt], none, none, .one identityRt, some ([identityRt], [⟨0, 0, 0⟩]), some [⟨1, 0, 0⟩, ⟨2, 0, 0⟩], .all, .all, 1, some [(1, ['a'])]⟩ = some out ∧
    out.points.length = 2 ∧ out.boards.length = 1 ∧ out.cameras.length = 1 := ⟨_, rfl, rfl, rfl, rfl, rfl⟩

/-- **C125 violated**: the keys of point_labels are indices of points. With 'thiscamera' they are used as indices of the observations of this camera: point 1 is plotted with the label of point 0 -/
theorem labels_wrong : ∃ (A : Args) (out : Out) (m : Model) (I : Inputs), A.cams = [.model m] ∧ m.inputs = some I ∧ A.showPoints = .this ∧ A.labels = some [(0, ['a'])] ∧ A.points = none ∧ A.plotRef = .none ∧ geometry A = some out ∧
    I.points[0]? = some ⟨1, 0, 0⟩ ∧ I.points[1]? = some ⟨2, 0, 0⟩ ∧ (['a'], [camToRef (.model m) (refToCam I 0 ⟨2, 0, 0⟩)]) ∈ out.points ∧ ∀ q, (['a'], [q]) ∈ out.points → q ≠ camToRef (.model m) (refToCam I 0 ⟨1, 0, 0⟩) := by
  refine ⟨demo (some 0) .this (some [(0, ['a'])]) none none, _, demoModel (some 0), demoInputs, rfl, rfl, rfl, rfl, rfl, rfl, rfl, rfl, rfl, ?_, ?_⟩
  · simp [observed, demoInputs, toPlot, demoModel, identityRt, identityR, transformPointRt, rotatePointR, mulVec, addP, camToRef, refToCam]
  · intro q hq
    simp [observed, demoInputs, toPlot, demoModel, identityRt, identityR, transformPointRt, rotatePointR, mulVec, addP] at hq
    rw [hq]
    simp [demoInputs, demoModel, identityRt, identityR, transformPointRt, rotatePointR, mulVec, addP, camToRef, refToCam]

/-- **C125 violated**: "As many or as few of the points may be labelled": an empty dict is an exception -/
theorem no_labels_wrong : ∃ A : Args, A.labels = some [] ∧ geometry A = none ∧ ∃ out, geometry { A with labels := none } = some out := by
  refine ⟨demo (some 0) .all (some []) none none, rfl, rfl, _, rfl⟩

/-- **C125 violated**: a model without icam_extrinsics is valid (older files don't have it), but its boards can't be plotted, even if all of them were asked for -/
theorem no_extrinsics_wrong : ∃ A : Args, A.showBoards = .all ∧ A.cams = [.model (demoModel none)] ∧ geometry A = none ∧ ∃ out, geometry { A with showBoards := .no, showPoints := .no } = some out := by
  refine ⟨demo none .all none none none, rfl, rfl, rfl, _, rfl⟩

end Mrcal.Geometry

import Verif.Props.SeedFitProps
import Verif.Props.StereoPairProps
import Mathlib.Data.List.Induction

/-! # C101: the seed of a calibration is exact, if the poses it's made from are exact -/

namespace Mrcal.Seed
open Mrcal.Pose

/-! ### specification -/

/-- where everything really is: each camera (to it from the reference), each chessboard (from it to the reference) -/
structure World where
  cam : Nat → Rt
  frame : Nat → Rt

/-- moves a point -/
def tr (T : Rt) (p : P3) : P3 := transformPointRt T p false

/-- rigid poses; camera 0 is at the reference -/
structure World.Ok (w : World) : Prop where
  cam : ∀ c, IsRot (w.cam c).R
  frame : ∀ f, IsRot (w.frame f).R
  ref : ∀ p, tr (w.cam 0) p = p

/-- each given pose is where that camera really sees that chessboard -/
def Exact (w : World) (obs : List Obs) : Prop := ∀ o ∈ obs, ∀ p, tr o.pose p = tr (w.cam o.cam) (tr (w.frame o.frame) p)

/-- the contracts of the singular value decompositions -/
structure EnvOk (env : Env) : Prop where
  lapack : Procrustes.LapackOk env.lapack
  svd : Procrustes.NumpyOk env.svd

/-! ### helpers -/

theorem tr_vec (T : Rt) (p : P3) : toVec (tr T p) = (toMat T.R).mulVec (toVec p) + toVec T.t := transform_meaning T p
theorem rot_mat {M : M3} (h : IsRot M) : Procrustes.IsRotation (toMat M) := ⟨h.1.left, h.2⟩
theorem cloud_get (l : List P3) (i : Nat) (h : i < l.length) : cloud l i = toVec l[i] := by
  unfold cloud
  rw [List.getD_eq_getElem?_getD, List.getElem?_eq_getElem h]
  rfl

/-- the pose that's reconstructed from the arrays -/
theorem rebuild (T : Rt) : (⟨⟨toMat T.R 0 0, toMat T.R 0 1, toMat T.R 0 2, toMat T.R 1 0, toMat T.R 1 1, toMat T.R 1 2, toMat T.R 2 0, toMat T.R 2 1, toMat T.R 2 2⟩,
    ⟨toVec T.t 0, toVec T.t 1, toVec T.t 2⟩⟩ : Rt) = T := by
  ext <;> rfl

open Matrix in
/-- aligning a moved set of points with the original set. The set contains the corners of a square of a moved chessboard -/
theorem procrustes_exact (env : Env) (he : EnvOk env) (T P : Rt) (hT : IsRot T.R) (hP : IsRot P.R) (s : ℝ) (hs : 4e-12 ≤ s ^ 2) (B : List P3)
    (m0 : tr P ⟨0, 0, 0⟩ ∈ B) (m1 : tr P ⟨s, 0, 0⟩ ∈ B) (m2 : tr P ⟨0, s, 0⟩ ∈ B) :
    procrustes env (B.map (tr T)) B = none ∨ procrustes env (B.map (tr T)) B = some T := by
  obtain ⟨i0, h0, k0⟩ := List.getElem_of_mem m0
  obtain ⟨i1, h1, k1⟩ := List.getElem_of_mem m1
  obtain ⟨i2, h2, k2⟩ := List.getElem_of_mem m2
  have hs0 : s ≠ 0 := by intro h; rw [h] at hs; norm_num at hs
  have inj : ∀ a b, tr P a = tr P b → a = b := by
    intro a b h
    have := congrArg (fun q => transformPointRt P q true) h
    simp only [tr, (transform_inverted P hP.1 _).1] at this
    exact this
  have n01 : i0 ≠ i1 := by
    intro h; subst h
    have := inj _ _ (k0.symm.trans k1)
    simp only [P3.mk.injEq] at this
    exact hs0 this.1.symm
  have n02 : i0 ≠ i2 := by
    intro h; subst h
    have := inj _ _ (k0.symm.trans k2)
    simp only [P3.mk.injEq] at this
    exact hs0 this.2.1.symm
  have hdot : ∀ u v : Fin 3 → ℝ, (toMat P.R).mulVec u ⬝ᵥ (toMat P.R).mulVec v = u ⬝ᵥ v := by
    intro u v
    rw [dotProduct_mulVec, vecMul_mulVec, hP.1.left, vecMul_one]
  have hdiff : ∀ (q : P3) (u : Fin 3 → ℝ), toVec q = s • u → toVec (tr P q) - toVec (tr P ⟨0, 0, 0⟩) = s • (toMat P.R).mulVec u := by
    intro q u hq
    rw [tr_vec, tr_vec, hq, mulVec_smul]
    have : toVec (⟨0, 0, 0⟩ : P3) = 0 := by ext i; fin_cases i <;> rfl
    rw [this, mulVec_zero]
    abel
  have e1 : cloud B i1 - cloud B i0 = s • (toMat P.R).mulVec ![1, 0, 0] := by
    rw [cloud_get _ _ h1, cloud_get _ _ h0, k1, k0]
    exact hdiff _ _ (by ext i; fin_cases i <;> simp [toVec])
  have e2 : cloud B i2 - cloud B i0 = s • (toMat P.R).mulVec ![0, 1, 0] := by
    rw [cloud_get _ _ h2, cloud_get _ _ h0, k2, k0]
    exact hdiff _ _ (by ext i; fin_cases i <;> simp [toVec])
  unfold procrustes
  split
  · left; rfl
  · rw [List.length_map]
    have := Procrustes.align_api_exact env.lapack env.svd he.lapack he.svd env.contiguous B.length (cloud (B.map (tr T))) (cloud B) (toMat T.R) (toVec T.t) (rot_mat hT)
      (fun i hi => by rw [cloud_get _ _ (by rw [List.length_map]; exact hi), cloud_get _ _ hi, List.getElem_map, tr_vec])
      ((toMat P.R).mulVec ![1, 0, 0]) ((toMat P.R).mulVec ![0, 1, 0]) s i0 i1 i2 h0 h1 h2 n01 n02 (by rw [hdot]; simp [dotProduct, Fin.sum_univ_three]) (by rw [hdot]; simp [dotProduct, Fin.sum_univ_three])
      (by rw [hdot]; simp [dotProduct, Fin.sum_univ_three]) e1 e2 hs
    rcases this with h | h
    · left; rw [h]
    · right; rw [h]; exact congrArg some (rebuild T)

/-- the corners of the first square of a chessboard -/
theorem board_corners (W H : Nat) (s : ℝ) (hW : 2 ≤ W) (hH : 2 ≤ H) : (⟨0, 0, 0⟩ : P3) ∈ board W H s ∧ (⟨s, 0, 0⟩ : P3) ∈ board W H s ∧ (⟨0, s, 0⟩ : P3) ∈ board W H s := by
  unfold board
  simp only [List.mem_flatMap, List.mem_map, List.mem_range]
  exact ⟨⟨0, by omega, 0, by omega, by simp⟩, ⟨0, by omega, 1, by omega, by simp⟩, ⟨1, by omega, 0, by omega, by simp⟩⟩

/-! ### pairs of cameras -/

/-- to camera a from camera b -/
def rel (w : World) (a b : Nat) : Rt := composeRt (w.cam a) (invertRt (w.cam b)) false false

theorem rel_rot (w : World) (hw : w.Ok) (a b : Nat) : IsRot (rel w a b).R := compose_rot _ _ _ _ (hw.cam a) (ModelDiff.invert_rot _ (hw.cam b))
theorem invert_tr (T : Rt) (hT : IsRot T.R) (p : P3) : tr (invertRt T) (tr T p) = p ∧ tr T (tr (invertRt T) p) = p := by
  have h := hT.1
  simp only [tr, (invert_transform T _ h).1]
  exact transform_inverted T h p
theorem rel_tr (w : World) (hw : w.Ok) (a b : Nat) (p : P3) : tr (rel w a b) (tr (w.cam b) p) = tr (w.cam a) p := by
  have : ∀ q, tr (rel w a b) q = tr (w.cam a) (tr (invertRt (w.cam b)) q) := fun q => compose_transform _ _ _ _ q
  rw [this, (invert_tr _ (hw.cam b) p).1]

/-- the loop of compute_pairwise_Rt() -/
structure PairInv (w : World) (obj : List P3) (a b : Nat) (s : PairSt) : Prop where
  rt0 : ∀ f r, s.last = some f → s.rt0 = some r → ∀ p, tr r p = tr (w.cam a) (tr (w.frame f) p)
  same : s.A = s.B.map (tr (rel w a b))
  some : s.B = [] ∨ ∃ P : Rt, IsRot P.R ∧ ∀ p ∈ obj, tr P p ∈ s.B

theorem newFrame_inv (w : World) (obj : List P3) (a b : Nat) (s : PairSt) (hs : PairInv w obj a b s) (f : Nat) :
    PairInv w obj a b (newFrame s f) ∧ (newFrame s f).last = some f := by
  unfold newFrame
  split
  · exact ⟨⟨fun f' r h1 h2 => by simp at h2, hs.same, hs.some⟩, rfl⟩
  · rename_i h
    exact ⟨hs, (not_not.mp h).symm⟩

theorem pairStep_inv (w : World) (hw : w.Ok) (obj : List P3) (a b : Nat) (s s' : PairSt) (o : Obs) (ho : ∀ p, tr o.pose p = tr (w.cam o.cam) (tr (w.frame o.frame) p)) (hs : PairInv w obj a b s)
    (h : pairStep obj a b s o = some s') : PairInv w obj a b s' := by
  unfold pairStep at h
  obtain ⟨hn, hl⟩ := newFrame_inv w obj a b s hs o.frame
  simp only at h
  generalize newFrame s o.frame = n at *
  split at h
  · rename_i hc
    split at h
    · cases h
    · injection h with h
      subst h
      refine ⟨fun f r h1 h2 => ?_, hn.same, hn.some⟩
      simp only at h1 h2
      rw [hl] at h1
      injection h1 with h1; injection h2 with h2
      subst h1; subst h2
      rw [← hc]
      exact ho
  · split at h
    · rename_i hc
      cases hr : n.rt0 with
      | none => rw [hr] at h; injection h with h; subst h; exact hn
      | some r0 =>
        rw [hr] at h
        simp only at h
        split at h
        · cases h
        · injection h with h
          subst h
          have h0 := hn.rt0 o.frame r0 hl hr
          refine ⟨fun f r h1 h2 => hn.rt0 f r h1 (hr.trans h2), ?_, Or.inr ⟨composeRt (w.cam o.cam) (w.frame o.frame) false false, compose_rot _ _ _ _ (hw.cam _) (hw.frame _), fun p hp => ?_⟩⟩
          · simp only [List.map_append, hn.same, List.map_map]
            congr 1
            refine List.map_congr_left fun p _ => ?_
            show tr r0 p = tr (rel w a b) (tr o.pose p)
            rw [ho, hc, rel_tr w hw, h0]
          · simp only [List.mem_append, List.mem_map]
            refine Or.inr ⟨p, hp, ?_⟩
            show tr o.pose p = _
            rw [ho]
            exact (compose_transform _ _ _ _ p).symm
    · injection h with h
      subst h; exact hn

theorem pairFold_inv (w : World) (hw : w.Ok) (obj : List P3) (a b : Nat) (obs : List Obs) (ho : Exact w obs) (s s' : PairSt) (hs : PairInv w obj a b s)
    (h : obs.foldlM (pairStep obj a b) s = some s') : PairInv w obj a b s' := by
  induction obs generalizing s with
  | nil => injection h with h; subst h; exact hs
  | cons o obs ih =>
    rw [List.foldlM_cons] at h
    cases hst : pairStep obj a b s o with
    | none => rw [hst] at h; cases h
    | some s1 =>
      rw [hst] at h
      exact ih (fun o' h' => ho o' (List.mem_cons_of_mem _ h')) s1 (pairStep_inv w hw obj a b s s1 o (ho o (List.mem_cons_self ..)) hs hst) h

theorem pairOrdered_exact (env : Env) (he : EnvOk env) (w : World) (hw : w.Ok) (W H : Nat) (sp : ℝ) (hW : 2 ≤ W) (hH : 2 ≤ H) (hs : 4e-12 ≤ sp ^ 2) (obs : List Obs) (ho : Exact w obs) (a b : Nat) (T : Rt)
    (h : pairOrdered env (board W H sp) obs a b = some T) : T = rel w a b := by
  unfold pairOrdered at h
  cases hf : obs.foldlM (pairStep (board W H sp) a b) ⟨none, none, none, [], []⟩ with
  | none => rw [hf] at h; cases h
  | some s =>
    rw [hf] at h
    simp only at h
    have inv := pairFold_inv w hw _ a b obs ho _ s ⟨fun f r h1 h2 => by simp at h1, rfl, Or.inl rfl⟩ hf
    rw [inv.same] at h
    rcases inv.some with he' | ⟨P, hP, hm⟩
    · rw [he'] at h; simp [procrustes] at h
    · obtain ⟨c0, c1, c2⟩ := board_corners W H sp hW hH
      rcases procrustes_exact env he (rel w a b) P (rel_rot w hw a b) hP sp hs s.B (hm _ c0) (hm _ c1) (hm _ c2) with hn | hn
      · rw [hn] at h; cases h
      · rw [hn] at h; injection h with h; exact h.symm

theorem invert_rel (w : World) (hw : w.Ok) (a b : Nat) : invertRt (rel w a b) = rel w b a := by
  apply act_ext
  intro p
  show tr (invertRt (rel w a b)) p = tr (rel w b a) p
  have hp : p = tr (rel w a b) (tr (rel w b a) p) := by
    have h1 : p = tr (w.cam a) (tr (invertRt (w.cam a)) p) := (invert_tr _ (hw.cam a) p).2.symm
    rw [h1, rel_tr w hw, rel_tr w hw]
  conv_lhs => rw [hp]
  exact (invert_tr _ (rel_rot w hw a b) _).1

theorem pairwise_exact (env : Env) (he : EnvOk env) (w : World) (hw : w.Ok) (W H : Nat) (sp : ℝ) (hW : 2 ≤ W) (hH : 2 ≤ H) (hs : 4e-12 ≤ sp ^ 2) (obs : List Obs) (ho : Exact w obs) (a b : Nat) (T : Rt)
    (h : pairwise env (board W H sp) obs a b = some T) : T = rel w a b := by
  unfold pairwise at h
  split at h
  · cases hp : pairOrdered env (board W H sp) obs b a with
    | none => rw [hp] at h; cases h
    | some X =>
      rw [hp] at h
      injection h with h
      rw [← h, pairOrdered_exact env he w hw W H sp hW hH hs obs ho b a X hp]
      exact invert_rel w hw b a
  · split at h
    · cases h
    · exact pairOrdered_exact env he w hw W H sp hW hH hs obs ho a b T h

/-! ### all the cameras -/

theorem foundPath_exact (env : Env) (he : EnvOk env) (w : World) (hw : w.Ok) (W H : Nat) (sp : ℝ) (hW : 2 ≤ W) (hH : 2 ≤ H) (hs : 4e-12 ≤ sp ^ 2) (obs : List Obs) (ho : Exact w obs)
    (links : List (Nat × Nat)) (r0 r : Nat → Option Rt) (h0 : ∀ c T, r0 c = some T → T = rel w 0 c) (h : links.foldlM (foundPath env (board W H sp) obs) r0 = some r) :
    ∀ c T, r c = some T → T = rel w 0 c := by
  induction links generalizing r0 with
  | nil => injection h with h; subst h; exact h0
  | cons l links ih =>
    rw [List.foldlM_cons] at h
    cases hst : foundPath env (board W H sp) obs r0 l with
    | none => rw [hst] at h; cases h
    | some r1 =>
      rw [hst] at h
      refine ih r1 ?_ h
      unfold foundPath at hst
      split at hst
      · injection hst with hst; subst hst; exact h0
      · cases hp : pairwise env (board W H sp) obs l.2 l.1 with
        | none => rw [hp] at hst; cases hst
        | some X =>
          rw [hp] at hst
          have hX := pairwise_exact env he w hw W H sp hW hH hs obs ho l.2 l.1 X hp
          simp only at hst
          split at hst
          · rename_i hz
            injection hst with hst
            subst hst
            intro c T hT
            by_cases hc : c = l.1
            · simp only [hc, if_true] at hT
              injection hT with hT
              rw [← hT, hX, hz, hc]
            · simp only [hc, if_false] at hT
              exact h0 c T hT
          · cases hf : r0 l.2 with
            | none => rw [hf] at hst; cases hst
            | some Y =>
              rw [hf] at hst
              injection hst with hst
              subst hst
              intro c T hT
              by_cases hc : c = l.1
              · simp only [hc, if_true] at hT
                injection hT with hT
                rw [← hT, hX, h0 _ _ hf, hc]
                apply act_ext
                intro p
                rw [compose_transform]
                show tr (rel w 0 l.2) (tr (rel w l.2 l.1) p) = tr (rel w 0 l.1) p
                have h1 : p = tr (w.cam l.1) (tr (invertRt (w.cam l.1)) p) := (invert_tr _ (hw.cam l.1) p).2.symm
                rw [h1, rel_tr w hw, rel_tr w hw, rel_tr w hw]
              · simp only [hc, if_false] at hT
                exact h0 c T hT

theorem cameras_raw (env : Env) (he : EnvOk env) (w : World) (hw : w.Ok) (W H : Nat) (sp : ℝ) (hW : 2 ≤ W) (hH : 2 ≤ H) (hs : 4e-12 ≤ sp ^ 2) (obs : List Obs) (ho : Exact w obs) (Ts : List Rt)
    (h : estimateCameraPoses env W H sp obs = some Ts) : Ts = (List.range (numCameras obs - 1)).map fun i => invertRt (w.cam (i + 1)) := by
  unfold estimateCameraPoses at h
  split at h
  · cases h
  · simp only at h
    cases hc : connectivity obs with
    | none => rw [hc] at h; cases h
    | some M =>
      rw [hc] at h
      simp only at h
      split at h
      · rename_i links _
        cases hf : foundPaths env (board W H sp) obs links with
        | none => rw [hf] at h; cases h
        | some r =>
          rw [hf] at h
          simp only at h
          have hr := foundPath_exact env he w hw W H sp hW hH hs obs ho links _ r (fun c T hT => by cases hT) hf
          have hrel : ∀ c, rel w 0 c = invertRt (w.cam c) := by
            intro c
            apply act_ext
            intro p
            show tr (rel w 0 c) p = _
            have : tr (rel w 0 c) p = tr (w.cam 0) (tr (invertRt (w.cam c)) p) := compose_transform _ _ _ _ p
            rw [this, hw.ref]; rfl
          have hf2 := TriPy.mapM_forall₂ _ _ h
          have : ∀ (l : List Nat) (ts : List Rt), List.Forall₂ (fun i T => r (i + 1) = some T) l ts → ts = l.map fun i => invertRt (w.cam (i + 1)) := by
            intro l ts hh
            induction hh with
            | nil => rfl
            | cons hd _ ih => rw [List.map_cons, ← ih, hr _ _ hd, hrel]
          exact this _ _ hf2
      · cases h

/-! ### the frames -/

theorem mean_fold (obj : List P3) (T : Rt) (Ts : List Rt) (hT : ∀ X ∈ Ts, X = T) (g : P3 → P3) :
    Ts.foldl (fun acc X => List.zipWith addP acc (obj.map fun p => transformPointRt X p false)) (obj.map g) =
      obj.map fun p => ⟨(g p).x + Ts.length * (tr T p).x, (g p).y + Ts.length * (tr T p).y, (g p).z + Ts.length * (tr T p).z⟩ := by
  induction Ts generalizing g with
  | nil => simp
  | cons X Ts ih =>
    rw [List.foldl_cons, hT X (List.mem_cons_self ..)]
    have e : List.zipWith addP (obj.map g) (obj.map fun p => transformPointRt T p false) = obj.map fun p => addP (g p) (tr T p) := by
      rw [List.zipWith_map, List.zipWith_self]; rfl
    rw [e, ih (fun Y hY => hT Y (List.mem_cons_of_mem _ hY))]
    refine List.map_congr_left fun p _ => ?_
    simp only [addP, List.length_cons, Nat.cast_add, Nat.cast_one]
    ext <;> simp only <;> ring

theorem mean_exact (obj : List P3) (T : Rt) (Ts : List Rt) (hT : ∀ X ∈ Ts, X = T) (hn : Ts ≠ []) : meanBoard obj Ts = obj.map (tr T) := by
  unfold meanBoard
  simp only
  rw [mean_fold obj T Ts hT fun _ => ⟨0, 0, 0⟩, List.map_map]
  have : (Ts.length : ℝ) ≠ 0 := by exact_mod_cast (List.length_pos_of_ne_nil hn).ne'
  refine List.map_congr_left fun p _ => ?_
  simp only [Function.comp]
  ext <;> simp only <;> field_simp <;> ring

theorem single_exact (w : World) (hw : w.Ok) (n : Nat) (o : Obs) (ho : ∀ p, tr o.pose p = tr (w.cam o.cam) (tr (w.frame o.frame) p)) (T : Rt)
    (h : single ((List.range n).map fun i => invertRt (w.cam (i + 1))) o = some T) : T = w.frame o.frame := by
  unfold single at h
  split at h
  · rename_i hc
    injection h with h
    rw [← h]
    apply act_ext
    intro p
    have := ho p
    rw [hc, hw.ref] at this
    exact this
  · rename_i hc
    rw [List.getElem?_map] at h
    by_cases hi : o.cam - 1 < n
    · rw [List.getElem?_range hi] at h
      injection h with h
      rw [← h]
      apply act_ext
      intro p
      rw [compose_transform]
      show tr (invertRt _) (tr o.pose p) = tr _ p
      rw [ho, show o.cam - 1 + 1 = o.cam by omega, (invert_tr _ (hw.cam _) _).1]
    · rw [List.getElem?_eq_none (by rw [List.length_range]; omega)] at h
      cases h

theorem refFrame_exact (env : Env) (he : EnvOk env) (w : World) (hw : w.Ok) (W H : Nat) (sp : ℝ) (hW : 2 ≤ W) (hH : 2 ≤ H) (hs : 4e-12 ≤ sp ^ 2) (n f : Nat) (rows : List Obs) (hne : rows ≠ [])
    (ho : Exact w rows) (hf : ∀ o ∈ rows, o.frame = f) (T : Rt) (h : refFrame env (board W H sp) ((List.range n).map fun i => invertRt (w.cam (i + 1))) rows = some T) : T = w.frame f := by
  unfold refFrame at h
  split at h
  · rename_i o
    rw [← hf o (List.mem_cons_self ..)]
    exact single_exact w hw n o (ho o (List.mem_cons_self ..)) T h
  · cases hm : rows.mapM (single ((List.range n).map fun i => invertRt (w.cam (i + 1)))) with
    | none => rw [hm] at h; cases h
    | some Ts =>
      rw [hm] at h
      simp only at h
      have hf2 := TriPy.mapM_forall₂ _ _ hm
      have hall : ∀ (l : List Obs) (ts : List Rt), Exact w l → (∀ o ∈ l, o.frame = f) → List.Forall₂ (fun o T => single ((List.range n).map fun i => invertRt (w.cam (i + 1))) o = some T) l ts →
          ∀ X ∈ ts, X = w.frame f := by
        intro l ts hl1 hl2 hh
        induction hh with
        | nil => intro X hX; cases hX
        | cons hd _ ih =>
          intro X hX
          rcases List.mem_cons.mp hX with rfl | hX
          · rw [single_exact w hw n _ (hl1 _ (List.mem_cons_self ..)) _ hd, hl2 _ (List.mem_cons_self ..)]
          · exact ih (fun o h' => hl1 o (List.mem_cons_of_mem _ h')) (fun o h' => hl2 o (List.mem_cons_of_mem _ h')) X hX
      have hTs := hall rows Ts ho hf hf2
      have hlen : Ts ≠ [] := by
        intro hnil
        rw [hnil] at hf2
        cases hf2
        exact hne rfl
      rw [mean_exact (board W H sp) (w.frame f) Ts hTs hlen] at h
      obtain ⟨c0, c1, c2⟩ := board_corners W H sp hW hH
      have hid : ∀ p, tr identityRt p = p := (compose_identity identityRt).2.2
      rcases procrustes_exact env he (w.frame f) identityRt (hw.frame f) identity_rot sp hs (board W H sp) (by rw [hid]; exact c0) (by rw [hid]; exact c1) (by rw [hid]; exact c2) with hn | hn
      · rw [hn] at h; cases h
      · rw [hn] at h; injection h with h; exact h.symm

/-- the frames before the current one -/
structure JointInv (w : World) (pre : List Obs) (s : JointSt) : Prop where
  start : s.cur = none → pre = [] ∧ s.out = []
  cur : ∀ g rows, s.cur = some (g, rows) → rows ≠ [] ∧ (∀ o ∈ rows, o.frame = g) ∧ (∀ o ∈ rows, o ∈ pre) ∧ (∀ o ∈ pre, o.frame ≤ g) ∧
    ∃ L : List Nat, L.Pairwise (· < ·) ∧ (∀ f, f ∈ L ↔ f < g ∧ ∃ o ∈ pre, o.frame = f) ∧ s.out = L.map fun f => rt_from_Rt (w.frame f)

theorem jointFold_inv (env : Env) (he : EnvOk env) (w : World) (hw : w.Ok) (W H : Nat) (sp : ℝ) (hW : 2 ≤ W) (hH : 2 ≤ H) (hs : 4e-12 ≤ sp ^ 2) (n : Nat) (obs pre : List Obs) (ho : Exact w (pre ++ obs))
    (hsort : (pre ++ obs).Pairwise fun a b => a.frame ≤ b.frame) (s s' : JointSt) (hi : JointInv w pre s)
    (h : obs.foldlM (jointStep env (board W H sp) ((List.range n).map fun i => invertRt (w.cam (i + 1)))) s = some s') : JointInv w (pre ++ obs) s' := by
  induction obs generalizing pre s with
  | nil => injection h with h; subst h; rw [List.append_nil]; exact hi
  | cons o obs ih =>
    rw [List.foldlM_cons] at h
    cases hst : jointStep env (board W H sp) ((List.range n).map fun i => invertRt (w.cam (i + 1))) s o with
    | none => rw [hst] at h; cases h
    | some s1 =>
      rw [hst] at h
      have ea : pre ++ o :: obs = (pre ++ [o]) ++ obs := by simp
      rw [ea] at ho hsort ⊢
      refine ih (pre ++ [o]) ho hsort s1 ?_ h
      have hso : (pre ++ [o]).Pairwise fun a b => a.frame ≤ b.frame := hsort.sublist (List.sublist_append_left _ _)
      have hle : ∀ a ∈ pre, a.frame ≤ o.frame := fun a ha => (List.pairwise_append.mp hso).2.2 a ha o (List.mem_singleton_self _)
      have hpre : Exact w pre := fun a ha => ho a (List.mem_append_left _ (List.mem_append_left _ ha))
      unfold jointStep at hst
      cases hcur : s.cur with
      | none =>
        rw [hcur] at hst
        injection hst with hst
        obtain ⟨hp, hout⟩ := hi.start hcur
        subst hst
        subst hp
        refine ⟨fun h0 => (Option.some_ne_none _ h0).elim, fun g rows hg => ?_⟩
        simp only [Option.some.injEq, Prod.mk.injEq] at hg
        obtain ⟨rfl, rfl⟩ := hg
        refine ⟨by simp, by simp, by simp, by simp, [], List.Pairwise.nil, fun f => ?_, by rw [hout]; rfl⟩
        simp
        intro h1 h2
        omega
      | some c =>
        obtain ⟨g, rows⟩ := c
        rw [hcur] at hst
        simp only at hst
        obtain ⟨r1, r2, r3, r4, L, l1, l2, l3⟩ := hi.cur g rows hcur
        by_cases hne : o.frame ≠ g
        · rw [if_pos hne] at hst
          cases hr : refFrame env (board W H sp) ((List.range n).map fun i => invertRt (w.cam (i + 1))) rows with
          | none => rw [hr] at hst; cases hst
          | some T =>
            rw [hr] at hst
            injection hst with hst
            subst hst
            have hT := refFrame_exact env he w hw W H sp hW hH hs n g rows r1 (fun a ha => hpre a (r3 a ha)) r2 T hr
            refine ⟨fun h0 => (Option.some_ne_none _ h0).elim, fun g' rows' hg => ?_⟩
            simp only [Option.some.injEq, Prod.mk.injEq] at hg
            obtain ⟨rfl, rfl⟩ := hg
            obtain ⟨a, ha⟩ := List.exists_mem_of_ne_nil rows r1
            have hga : g < o.frame := by
              have := hle a (r3 a ha)
              rw [r2 a ha] at this
              omega
            refine ⟨by simp, by simp, by simp, ?_, L ++ [g], ?_, fun f => ?_, ?_⟩
            · intro b hb
              rcases List.mem_append.mp hb with hb | hb
              · exact hle b hb
              · rw [List.mem_singleton.mp hb]
            · refine List.pairwise_append.mpr ⟨l1, List.pairwise_singleton _ _, fun x hx y hy => ?_⟩
              rw [List.mem_singleton.mp hy]
              exact ((l2 x).mp hx).1
            · rw [List.mem_append, List.mem_singleton, l2 f]
              constructor
              · rintro (⟨h1, b, hb, hbf⟩ | rfl)
                · exact ⟨by omega, b, List.mem_append_left _ hb, hbf⟩
                · exact ⟨hga, a, List.mem_append_left _ (r3 a ha), r2 a ha⟩
              · rintro ⟨h1, b, hb, hbf⟩
                rcases List.mem_append.mp hb with hb | hb
                · have := r4 b hb
                  by_cases hfg : f = g
                  · exact Or.inr hfg
                  · exact Or.inl ⟨by omega, b, hb, hbf⟩
                · rw [List.mem_singleton.mp hb] at hbf; omega
            · rw [List.map_append, l3, hT]; rfl
        · rw [if_neg hne] at hst
          have hg' : o.frame = g := not_not.mp hne
          injection hst with hst
          subst hst
          refine ⟨fun h0 => (Option.some_ne_none _ h0).elim, fun g' rows' hg => ?_⟩
          simp only [Option.some.injEq, Prod.mk.injEq] at hg
          obtain ⟨rfl, rfl⟩ := hg
          refine ⟨by simp, ?_, ?_, ?_, L, l1, fun f => ?_, l3⟩
          · intro b hb
            rcases List.mem_append.mp hb with hb | hb
            · exact r2 b hb
            · rw [List.mem_singleton.mp hb]; exact hg'
          · intro b hb
            rcases List.mem_append.mp hb with hb | hb
            · exact List.mem_append_left _ (r3 b hb)
            · exact List.mem_append_right _ hb
          · intro b hb
            rcases List.mem_append.mp hb with hb | hb
            · exact r4 b hb
            · rw [List.mem_singleton.mp hb, hg']
          · rw [l2 f]
            constructor
            · rintro ⟨h1, b, hb, hbf⟩
              exact ⟨h1, b, List.mem_append_left _ hb, hbf⟩
            · rintro ⟨h1, b, hb, hbf⟩
              rcases List.mem_append.mp hb with hb | hb
              · exact ⟨h1, b, hb, hbf⟩
              · rw [List.mem_singleton.mp hb] at hbf; omega

theorem frames_raw (env : Env) (he : EnvOk env) (w : World) (hw : w.Ok) (W H : Nat) (sp : ℝ) (hW : 2 ≤ W) (hH : 2 ≤ H) (hs : 4e-12 ≤ sp ^ 2) (obs : List Obs) (ho : Exact w obs)
    (hsort : obs.Pairwise fun a b => a.frame ≤ b.frame) (n : Nat) (out : List RtV)
    (h : estimateJointFramePoses env W H sp ((List.range n).map fun i => w.cam (i + 1)) obs = some out) :
    ∃ L : List Nat, L.Pairwise (· < ·) ∧ (∀ f, f ∈ L ↔ ∃ o ∈ obs, o.frame = f) ∧ out = L.map fun f => rt_from_Rt (w.frame f) := by
  unfold estimateJointFramePoses at h
  simp only [List.map_map] at h
  have ec : ((List.range n).map (invertRt ∘ fun i => w.cam (i + 1))) = (List.range n).map fun i => invertRt (w.cam (i + 1)) := rfl
  rw [ec] at h
  cases hf : obs.foldlM (jointStep env (board W H sp) ((List.range n).map fun i => invertRt (w.cam (i + 1)))) ⟨none, []⟩ with
  | none => rw [hf] at h; cases h
  | some s =>
    rw [hf] at h
    simp only at h
    have inv := jointFold_inv env he w hw W H sp hW hH hs n obs [] ho hsort ⟨none, []⟩ s ⟨fun _ => ⟨rfl, rfl⟩, fun g rows hg => by cases hg⟩ hf
    rw [List.nil_append] at inv
    cases hc : s.cur with
    | none =>
      rw [hc] at h
      injection h with h
      obtain ⟨h1, h2⟩ := inv.start hc
      refine ⟨[], List.Pairwise.nil, fun f => ?_, by rw [← h, h2]; rfl⟩
      rw [h1]; simp
    | some c =>
      obtain ⟨g, rows⟩ := c
      rw [hc] at h
      simp only at h
      obtain ⟨r1, r2, r3, r4, L, l1, l2, l3⟩ := inv.cur g rows hc
      cases hr : refFrame env (board W H sp) ((List.range n).map fun i => invertRt (w.cam (i + 1))) rows with
      | none => rw [hr] at h; cases h
      | some T =>
        rw [hr] at h
        injection h with h
        have hT := refFrame_exact env he w hw W H sp hW hH hs n g rows r1 (fun a ha => ho a (r3 a ha)) r2 T hr
        obtain ⟨a, ha⟩ := List.exists_mem_of_ne_nil rows r1
        refine ⟨L ++ [g], ?_, fun f => ?_, ?_⟩
        · refine List.pairwise_append.mpr ⟨l1, List.pairwise_singleton _ _, fun x hx y hy => ?_⟩
          rw [List.mem_singleton.mp hy]
          exact ((l2 x).mp hx).1
        · rw [List.mem_append, List.mem_singleton, l2 f]
          constructor
          · rintro (⟨-, b, hb, hbf⟩ | rfl)
            · exact ⟨b, hb, hbf⟩
            · exact ⟨a, r3 a ha, r2 a ha⟩
          · rintro ⟨b, hb, hbf⟩
            have := r4 b hb
            by_cases hfg : f = g
            · exact Or.inr hfg
            · exact Or.inl ⟨by omega, b, hb, hbf⟩
        · rw [← h, List.map_append, l3, hT]; rfl

end Mrcal.Seed

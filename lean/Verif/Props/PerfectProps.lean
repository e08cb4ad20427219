import Verif.Model.Perfect
import Verif.Props.JacobianAllProps
import Verif.Props.ProjUncMove
import Verif.Props.CallbackIndexProps

/-! # C103: hypothesis_board_corner_positions(), make_perfect_observations() -/

namespace Mrcal.Perfect
open Mrcal Mrcal.Pose Mrcal.Project Mrcal.Cam Mrcal.Callback Mrcal.Pack Mrcal.StateLayout Mrcal.ProjUnc Mrcal.Tri

/-- **Specification**: the rotation isn't closer to 0 than the precision, unless it is 0 -/
def Usable (r : P3) : Prop := r = ⟨0, 0, 0⟩ ∨ dblEpsilon ≤ mag3 r

/-- the poses of an observation -/
def PosesUsable (Q : Params) (icamE : Int) (r : P3) : Prop := Usable r ∧ ∀ c, camOf Q icamE = some c → Usable c.r

/-- **Specification**: the camera index is the -1 of the reference, or is one of the cameras -/
def RefIsMinusOne (P : Problem) : Prop := (∀ o ∈ P.boards, -1 ≤ o.icamE) ∧ ∀ o ∈ P.points, -1 ≤ o.icamE

theorem pyIndex_in {n i : Int} (h : 0 ≤ i) (h' : i < n) : pyIndex n i = some i := by rw [pyIndex, if_pos ⟨h, h'⟩]

theorem RtFrame_eq {P : Problem} {i : Int} (h : 0 ≤ i) (h' : i < P.d.Nframes) : RtFrame P i = some (Rt_from_rt (frameOf P.seed i)) := by
  rw [RtFrame, pyIndex_in h h']; rfl

/-- the pose of a camera, as a matrix -/
noncomputable def camRt (Q : Params) (i : Int) : Rt := match camOf Q i with | none => identityRt | some c => Rt_from_rt c

theorem RtCam_eq {P : Problem} {i : Int} (h : -1 ≤ i) (h' : i < P.d.Nce) : RtCam P i = some (camRt P.seed i) := by
  rw [RtCam, pyIndex_in (by omega) (by omega), Option.map_some]
  unfold camRt camOf
  by_cases h0 : i < 0
  · obtain rfl : i = -1 := by omega
    rfl
  · rw [if_neg (by omega), if_neg h0, add_sub_cancel_right]

theorem transform_rod {T : RtV} (h : Usable T.r) (p : P3) : toVec (transformPointRt (Rt_from_rt T) p false) = trS T (toVec p) false := by
  have e := toMat_of_rod T.r h
  funext i
  simp only [trS, Bool.false_eq_true, if_false, ← e]
  fin_cases i <;> simp [transformPointRt, Rt_from_rt, rotatePointR, mulVec, toVec, toMat, addP, Matrix.mulVec, dotProduct, Fin.sum_univ_three] <;> ring

theorem transform_id (p : P3) : transformPointRt identityRt p false = p := by simp [transformPointRt, identityRt, identityR, rotatePointR, mulVec, addP]

theorem ofVec (p : P3) : (⟨toVec p 0, toVec p 1, toVec p 2⟩ : P3) = p := by simp [toVec]

/-- camera and frame together -/
theorem cam_frame {Q : Params} {icamE : Int} {F : RtV} (h : PosesUsable Q icamE F.r) (p : P3) :
    transformPointRt (composeRt (camRt Q icamE) (Rt_from_rt F) false false) p false = truthP (camOf Q icamE) F p := by
  rw [compose_transform]
  have key : toVec (transformPointRt (camRt Q icamE) (transformPointRt (Rt_from_rt F) p false) false) = truth (camOf Q icamE) F p := by
    unfold truth camRt
    cases hc : camOf Q icamE with
    | none => simp only [transform_id]; exact transform_rod h.1 p
    | some c => simp only []; rw [transform_rod (h.2 c hc), transform_rod h.1]
  rw [← ofVec (transformPointRt _ _ _), key]; rfl

theorem linspace_at (W i : Nat) (hi : i < W) : linspace 0 ((W : ℝ) - 1) W i = i := by
  unfold linspace
  by_cases h : W ≤ 1
  · rw [if_pos h]; obtain rfl : i = 0 := by omega
    simp
  · have hW : (2 : ℝ) ≤ W := by exact_mod_cast (by omega : 2 ≤ W)
    rw [if_neg h, sub_zero, div_self (by linarith)]; ring

theorem object_eq (P : Problem) (hP : P.Valid) (k : Nat) (hk : k < P.W * P.H) : fullObject P k = cornerOf P.W P.H P.spacing (warpOf P.warpGiven P.seed) (k % P.W) (k / P.W) := by
  have hW : 0 < P.W := Nat.pos_of_ne_zero fun h => by rw [h, Nat.zero_mul] at hk; omega
  have hx := linspace_at P.W (k % P.W) (Nat.mod_lt _ hW)
  have hy := linspace_at P.H (k / P.W) (Nat.div_lt_of_lt_mul hk)
  rw [← board_point_eq]
  unfold fullObject refObject warpOf boardPoint
  simp only [Option.getD_none, hx, hy]
  cases P.warpGiven <;> simp

/-- the corners of one board -/
theorem board_points {P : Problem} (hP : P.Valid) {o : BoardObs} (ho : o ∈ P.boards) (hE : -1 ≤ o.icamE) :
    boardPoints P o = some ((List.range (P.W * P.H)).map fun k => transformPointRt (composeRt (camRt P.seed o.icamE) (Rt_from_rt (frameOf P.seed o.iframe)) false false) (fullObject P k) false) := by
  obtain ⟨-, -, h1, h2, h3⟩ := hP.boards o ho
  rw [boardPoints, RtFrame_eq h2 h3, RtCam_eq hE h1]; rfl

theorem corner_eq {P : Problem} (hP : P.Valid) {o : BoardObs} {k : Nat} (hk : k < P.W * P.H) (h : PosesUsable P.seed o.icamE (frameOf P.seed o.iframe).r) :
    transformPointRt (composeRt (camRt P.seed o.icamE) (Rt_from_rt (frameOf P.seed o.iframe)) false false) (fullObject P k) false = seenCorner P P.seed o k := by
  rw [cam_frame h, object_eq P hP k hk]; rfl

/-- all the corners of all the boards -/
noncomputable def pts (P : Problem) (o : BoardObs) : List P3 :=
  (List.range (P.W * P.H)).map fun k => transformPointRt (composeRt (camRt P.seed o.icamE) (Rt_from_rt (frameOf P.seed o.iframe)) false false) (fullObject P k) false

theorem mapM_some {α β : Type} (f : α → Option β) (g : α → β) (l : List α) (h : ∀ a ∈ l, f a = some (g a)) : l.mapM f = some (l.map g) := by
  induction l with
  | nil => rfl
  | cons a l ih => rw [List.mapM_cons, h a (by simp), ih fun x hx => h x (by simp [hx])]; rfl

theorem all_points {P : Problem} (hP : P.Valid) (hE : RefIsMinusOne P) : P.boards.mapM (boardPoints P) = some (P.boards.map (pts P)) :=
  mapM_some _ _ _ fun o ho => board_points hP ho (hE.1 o ho)

theorem pts_seen {P : Problem} (hP : P.Valid) {o : BoardObs} (h : PosesUsable P.seed o.icamE (frameOf P.seed o.iframe).r) : pts P o = (List.range (P.W * P.H)).map (seenCorner P P.seed o) :=
  List.map_congr_left fun _ hk => corner_eq hP (List.mem_range.mp hk) h

/-! ### hypothesis_board_corner_positions() -/

/-- **Specification**: an array of flags, for each corner of each observation -/
def mask (P : Problem) (m : Nat → Nat → Bool) : List (List Bool) := P.boards.zipIdx.map fun oi => (List.range (P.W * P.H)).map (m oi.2)

/-- **Specification**: the corners for which `m` holds, of the observations of this camera, in order -/
noncomputable def corners (P : Problem) (icam : Option Int) (m : Nat → Nat → Bool) : List P3 :=
  P.boards.zipIdx.flatMap fun oi => if icam = none ∨ icam = some oi.1.icamI then ((List.range (P.W * P.H)).filter (m oi.2)).map (seenCorner P P.seed oi.1) else []

/-- **Specification**: what the mask is: the one that's given, or the positive weights -/
def IsMask (P : Problem) (idx : Option (List (List Bool))) (m : Nat → Nat → Bool) : Prop :=
  idx = some (mask P m) ∨ (idx = none ∧ ∀ i o, P.boards[i]? = some o → ∀ k < P.W * P.H, m i k = true ↔ 0 < o.weight k)

theorem select_rows : ∀ (L : List (List P3)) (M : List (List Bool)), L.map List.length = M.map List.length →
    select L M = (L.zip M).flatMap fun x => (x.1.zip x.2).filterMap fun y => if y.2 then some y.1 else none
  | [], [], _ => rfl
  | [], _ :: _, h => by simp at h
  | _ :: _, [], h => by simp at h
  | l :: L, m :: M, h => by
    simp only [List.map_cons, List.cons.injEq] at h
    have ih := select_rows L M h.2
    unfold select at ih ⊢
    rw [List.flatten_cons, List.flatten_cons, List.zip_append h.1, List.filterMap_append, ih, List.zip_cons_cons, List.flatMap_cons]

theorem zip_filter (f : Nat → P3) (g : Nat → Bool) (l : List Nat) : ((l.map f).zip (l.map g)).filterMap (fun y => if y.2 then some y.1 else none) = (l.filter g).map f := by
  induction l with
  | nil => rfl
  | cons a l ih =>
    simp only [List.map_cons, List.zip_cons_cons, List.filterMap_cons, ih]
    cases h : g a
    · simp [h]
    · simp [h]

theorem map_zipIdx {α β : Type} (l : List α) (f : α → β) : l.map f = l.zipIdx.map fun oi => f oi.1 := by
  have : l = l.zipIdx.map Prod.fst := by simp
  conv_lhs => rw [this]
  rw [List.map_map]; rfl

/-- what's selected by a mask of this form -/
theorem select_mask {P : Problem} (hP : P.Valid) (hu : ∀ o ∈ P.boards, PosesUsable P.seed o.icamE (frameOf P.seed o.iframe).r) (g : BoardObs × Nat → Nat → Bool) :
    select (P.boards.map (pts P)) (P.boards.zipIdx.map fun oi => (List.range (P.W * P.H)).map (g oi)) =
      P.boards.zipIdx.flatMap fun oi => ((List.range (P.W * P.H)).filter (g oi)).map (seenCorner P P.seed oi.1) := by
  rw [map_zipIdx P.boards, select_rows _ _ (by simp [pts, Function.comp_def]), List.zip_map', List.flatMap_map]
  refine List.flatMap_congr fun oi h => ?_
  simp only [pts]
  rw [zip_filter]
  refine List.map_congr_left fun k hk => corner_eq hP (List.mem_range.mp (List.mem_filter.mp hk).1) (hu _ ?_)
  exact (List.mem_zipIdx' h).2 ▸ List.getElem_mem _

theorem mask_used {P : Problem} {idx : Option (List (List Bool))} {m : Nat → Nat → Bool} (h : IsMask P idx m) : idx.getD (inlierMask P) = mask P m := by
  rcases h with rfl | ⟨rfl, h⟩
  · rfl
  · rw [Option.getD_none, inlierMask, mask, map_zipIdx]
    refine List.map_congr_left fun oi hoi => List.map_congr_left fun k hk => ?_
    have := h oi.2 oi.1 (List.mem_zipIdx_iff_getElem?.mp hoi) k (List.mem_range.mp hk)
    by_cases hw : 0 < oi.1.weight k
    · rw [decide_eq_true hw, this.mpr hw]
    · rw [decide_eq_false hw]
      cases hm : m oi.2 k
      · rfl
      · exact absurd (this.mp hm) hw

theorem clear_rows (P : Problem) (j : Int) (m : Nat → Nat → Bool) (D : ∀ o : BoardObs, Decidable (o.icamI = j)) :
    clear (P.boards.map fun o => @decide (o.icamI = j) (D o)) (mask P m) = P.boards.zipIdx.map fun oi => (List.range (P.W * P.H)).map fun k => decide (oi.1.icamI = j) && m oi.2 k := by
  rw [clear, mask, map_zipIdx P.boards, List.zipWith_map, List.zipWith_self]
  refine List.map_congr_left fun oi _ => ?_
  by_cases h : oi.1.icamI = j
  · simp [h]
  · simp [h]

/-- **C103**: hypothesis_board_corner_positions() reports, for each observation, the corners of the board in the coordinates of the camera, with the board, its deflection and the poses of the
optimization. If one camera is asked for: then also those of the observations of that camera. Then the inliers and the outliers of these observations: each corner is in exactly one of the two lists,
in the same order -/
theorem hypothesis_meaning (P : Problem) (hP : P.Valid) (hE : RefIsMinusOne P) (hu : ∀ o ∈ P.boards, PosesUsable P.seed o.icamE (frameOf P.seed o.iframe).r)
    (icam : Option Int) (idx : Option (List (List Bool))) (m : Nat → Nat → Bool) (hm : IsMask P idx m) :
    ∃ r, hypothesisBoard P icam idx = some r ∧
      r.all = P.boards.map (fun o => (List.range (P.W * P.H)).map (seenCorner P P.seed o)) ∧
      r.camera = (P.boards.filter fun o => icam = none ∨ icam = some o.icamI).map (fun o => (List.range (P.W * P.H)).map (seenCorner P P.seed o)) ∧
      r.inliers = corners P icam m ∧ r.outliers = corners P icam (fun i k => !m i k) ∧
      r.idx = mask P (fun i k => (icam = none ∨ icam = (P.boards[i]?.map BoardObs.icamI)) && m i k) := by
  have hall : P.boards.map (pts P) = P.boards.map (fun o => (List.range (P.W * P.H)).map (seenCorner P P.seed o)) := List.map_congr_left fun o ho => pts_seen hP (hu o ho)
  have hlen : (mask P m).map List.length = (P.boards.map (pts P)).map List.length := by
    rw [map_zipIdx P.boards]; simp [mask, pts, Function.comp_def]
  have hneg : (mask P m).map (fun row => row.map fun b => !b) = mask P (fun i k => !m i k) := by simp [mask, Function.comp_def]
  unfold hypothesisBoard
  rw [all_points hP hE, Option.bind_eq_bind, Option.bind_some]
  simp only [mask_used hm, hneg]
  rw [if_neg (not_not.mpr hlen)]
  cases icam with
  | none =>
    refine ⟨_, rfl, hall, by simp only [hall]; simp, ?_, ?_, by simp [mask]⟩
    · simp only [mask]; rw [select_mask hP hu (fun oi => m oi.2)]; simp [corners]
    · simp only [mask]; rw [select_mask hP hu (fun oi k => !m oi.2 k)]; simp [corners]
  | some j =>
    have hcor : ∀ m', P.boards.zipIdx.flatMap (fun oi => ((List.range (P.W * P.H)).filter fun k => decide (oi.1.icamI = j) && m' oi.2 k).map (seenCorner P P.seed oi.1)) = corners P (some j) m' := by
      intro m'
      refine List.flatMap_congr fun oi _ => ?_
      by_cases h : oi.1.icamI = j
      · simp [h]
      · simp [h, Ne.symm h]
    refine ⟨_, rfl, hall, ?_, ?_, ?_, ?_⟩
    · rw [hall]
      simp only []
      induction P.boards with
      | nil => rfl
      | cons o l ih =>
        simp only [List.map_cons, List.zip_cons_cons, List.filterMap_cons, ih, List.filter_cons]
        by_cases h : o.icamI = j
        · simp [h]
        · simp [h, Ne.symm h]
    · simp only [clear_rows]
      rw [select_mask hP hu (fun oi k => decide (oi.1.icamI = j) && m oi.2 k)]
      exact hcor m
    · simp only [clear_rows]
      rw [select_mask hP hu (fun oi k => decide (oi.1.icamI = j) && !m oi.2 k)]
      exact hcor fun i k => !m i k
    · simp only [clear_rows]
      unfold mask
      refine List.map_congr_left fun oi hoi => List.map_congr_left fun k _ => ?_
      simp only []
      rw [List.mem_zipIdx_iff_getElem?.mp hoi]
      simp [eq_comm]

/-- **C103**: the documentation doesn't say that `idx_inliers` is modified. But if a camera is asked for, then the flags of the observations of the other cameras are cleared in the caller's array -/
theorem mask_changed_wrong (P : Problem) (hP : P.Valid) (hE : RefIsMinusOne P) (hu : ∀ o ∈ P.boards, PosesUsable P.seed o.icamE (frameOf P.seed o.iframe).r)
    (icam : Int) (m : Nat → Nat → Bool) (i k : Nat) (o : BoardObs) (ho : P.boards[i]? = some o) (hk : k < P.W * P.H) (hi : m i k = true) (hc : o.icamI ≠ icam) :
    ∃ r, hypothesisBoard P (some icam) (some (mask P m)) = some r ∧ r.idx ≠ mask P m := by
  obtain ⟨r, h, -, -, -, -, e⟩ := hypothesis_meaning P hP hE hu (some icam) _ m (Or.inl rfl)
  refine ⟨r, h, fun h' => ?_⟩
  rw [e] at h'
  have hrow := congrArg (fun l => (l[i]?.bind fun row => row[k]?)) h'
  have hm : ∀ f : Nat → Nat → Bool, ((mask P f)[i]?.bind fun row => row[k]?) = some (f i k) := by
    intro f
    simp [mask, ho, hk]
  simp only [hm, ho, hi] at hrow
  simp [Ne.symm hc] at hrow

/-! ### make_perfect_observations() -/

theorem regular_usable {Q : Params} {icamE : Int} {r : P3} (h : Regular ((camOf Q icamE).map RtV.r) r) : PosesUsable Q icamE r := by
  unfold PosesUsable Usable
  cases hc : camOf Q icamE with
  | none => rw [hc] at h; exact ⟨h, fun c h' => by cases h'⟩
  | some c =>
    rw [hc] at h
    suffices H : (r = ⟨0, 0, 0⟩ ∨ dblEpsilon ≤ mag3 r) ∧ (c.r = ⟨0, 0, 0⟩ ∨ dblEpsilon ≤ mag3 c.r) from ⟨H.1, fun c' h' => by obtain rfl := Option.some.inj h'; exact H.2⟩
    rcases h with ⟨m0, m1, -, -⟩ | ⟨z, ⟨h, -⟩ | h⟩ | ⟨z, h, -⟩
    · exact ⟨Or.inr (eps_le m1.le), Or.inr (eps_le m0.le)⟩
    · exact ⟨Or.inr (eps_le h), Or.inl z⟩
    · exact ⟨Or.inl h, Or.inl z⟩
    · exact ⟨Or.inl z, Or.inr (eps_le h)⟩

theorem project1_eq {P : Problem} (hP : P.Valid) {i : Int} (h : 0 ≤ i) (h' : i < P.d.Nci) (p : P3) : project1 P i p = some (pix P.d.lens (intrOf P.d P.seed i) p) := by
  rw [project1, pyIndex_in h h', Option.bind_eq_bind, Option.bind_some]
  obtain ⟨m', hm⟩ := project_succeeds P.d.lens hP.lens (intrinsicsData P i) 1 (fun _ => p) false false ⟨fun _ => ⟨0, 0⟩, fun _ => ⟨0, 0, 0⟩, fun _ => 0⟩
  rw [hm, Option.bind_eq_bind, Option.bind_some, project_pixels _ hP.lens _ _ _ _ _ _ _ hm, if_pos (by omega)]
  rfl

/-- the perfect observations of one board, and of one point -/
noncomputable def perfB (P : Problem) (o : BoardObs) : BoardObs :=
  { o with obs := fun k xy => match ((pts P o).map (pix P.d.lens (intrOf P.d P.seed o.icamI)))[k]? with
    | some q => pick2 q xy
    | none => o.obs k xy }

noncomputable def perfP (P : Problem) (o : PointObs) : PointObs :=
  { o with obs := fun xy => pick2 (pix P.d.lens (intrOf P.d P.seed o.icamI) (transformPointRt (camRt P.seed o.icamE) (pointOf P.seed o.ipoint) false)) xy }

/-- the problem with the perfect observations -/
noncomputable def perf (P : Problem) : Problem := { P with boards := P.boards.map (perfB P), points := P.points.map (perfP P) }

theorem noiseless_eq {P : Problem} (hP : P.Valid) (hE : RefIsMinusOne P) : noiseless P = some (perf P) := by
  have hp : P.points.mapM (setPoint P) = some (P.points.map (perfP P)) := by
    refine mapM_some _ _ _ fun o ho => ?_
    obtain ⟨h0, h1, h2, h3, h4⟩ := hP.points o ho
    rw [setPoint, pyIndex_in h3 h4, Option.bind_eq_bind, Option.bind_some, RtCam_eq (hE.2 o ho) h2, Option.bind_eq_bind, Option.bind_some, project1_eq hP h0 h1]
    rfl
  have hb : (P.boards.zip (P.boards.map (pts P))).mapM (setBoard P) = some (P.boards.map (perfB P)) := by
    have : ∀ l : List BoardObs, (∀ o ∈ l, o ∈ P.boards) → (l.zip (l.map (pts P))).mapM (setBoard P) = some (l.map (perfB P)) := by
      intro l
      induction l with
      | nil => intro _; rfl
      | cons o l ih =>
        intro h
        obtain ⟨h0, h1, -⟩ := hP.boards o (h o (by simp))
        have hs : setBoard P (o, pts P o) = some (perfB P o) := by
          rw [setBoard, mapM_some _ _ _ fun p _ => project1_eq hP h0 h1 p]; rfl
        rw [List.map_cons, List.zip_cons_cons, List.mapM_cons, hs, ih fun x hx => h x (by simp [hx])]; rfl
    exact this _ fun _ h => h
  have hh : (hypothesisBoard P none none).map Hypothesis.all = some (P.boards.map (pts P)) := by
    unfold hypothesisBoard
    rw [all_points hP hE, Option.bind_eq_bind, Option.bind_some]
    simp only [Option.getD_none]
    rw [if_neg (by simp [inlierMask, pts, Function.comp_def])]
    rfl
  unfold noiseless
  by_cases he : P.boards = []
  · rw [if_pos he, hp]
    simp only [Option.bind_eq_bind, Option.bind_some, perf, he, List.map_nil]
  · rw [if_neg he, hh, hp]
    simp only [Option.bind_eq_bind, Option.bind_some, hb, perf]

/-! ### the measurements -/

theorem x_at {P : Problem} (hP : P.Valid) (hT : Terminated P.tri) (hreg : P.RegularAt P.seed) :
    ∃ out, optimizerCallback (P.ctx (bPacked P)) = some out ∧
      (∀ i o, P.boards[i]? = some o → ∀ k < P.W * P.H, ∀ xy < 2, out.x[2 * (i * (P.W * P.H) + k) + xy]? = some (boardRes P o k xy P.seed)) ∧
      (∀ i o, P.points[i]? = some o → ∀ xy < 2, out.x[2 * (P.boards.length * (P.W * P.H)) + 2 * i + xy]? = some (pointRes P o xy P.seed)) := by
  have hs : unpacked P.d P.seed (bPacked P) = P.seed := unpack_pack_state P.d hP.wf P.seed _
  obtain ⟨out, pairs, ho, -, hx, -⟩ := callback_partials P hP hT (bPacked P) (by rw [hs]; exact hreg)
  rw [hs] at hx
  have two : ∀ {α : Type} (a b : α) (xy : Nat), xy < 2 → [a, b][xy]? = some (if xy = 0 then a else b) := by
    intro α a b xy h
    interval_cases xy <;> rfl
  have hin : ∀ o, ((List.range (P.W * P.H)).flatMap fun ipt => [boardRes P o ipt 0, boardRes P o ipt 1]).length = 2 * (P.W * P.H) := by
    intro o; rw [List.length_flatMap]; simp [mul_comm]
  have hbl : (P.boards.flatMap fun o => (List.range (P.W * P.H)).flatMap fun ipt => [boardRes P o ipt 0, boardRes P o ipt 1]).length = 2 * (P.boards.length * (P.W * P.H)) := by
    rw [List.length_flatMap]; simp only [hin]; rw [List.map_const', List.sum_replicate, smul_eq_mul]; ring
  refine ⟨out, ho, ?_, ?_⟩
  · intro i o hi k hk xy hxy
    have hlt : i < P.boards.length := (List.getElem?_eq_some_iff.mp hi).1
    have hidx : 2 * (i * (P.W * P.H) + k) + xy < 2 * (P.boards.length * (P.W * P.H)) := by
      have : (i + 1) * (P.W * P.H) ≤ P.boards.length * (P.W * P.H) := Nat.mul_le_mul_right _ hlt
      rw [add_mul, one_mul] at this
      omega
    rw [hx, List.getElem?_map, residuals, List.append_assoc, List.append_assoc, List.getElem?_append_left (by rw [hbl]; exact hidx)]
    have e : 2 * (i * (P.W * P.H) + k) + xy = i * (2 * (P.W * P.H)) + (k * 2 + xy) := by ring
    rw [e, getElem?_flatMap_const _ _ (2 * (P.W * P.H)) (fun a _ => hin a) i _ o hi (by omega),
      getElem?_flatMap_const _ _ 2 (fun a _ => rfl) k xy k (by simp [hk]) hxy, two _ _ _ hxy, Option.map_some]
    interval_cases xy <;> rfl
  · intro i o hi xy hxy
    have hlt : i < P.points.length := (List.getElem?_eq_some_iff.mp hi).1
    have hpl : (P.points.flatMap fun o => [pointRes P o 0, pointRes P o 1]).length = 2 * P.points.length := by
      rw [List.length_flatMap]; simp [mul_comm]
    rw [hx, List.getElem?_map, residuals, List.append_assoc, List.append_assoc, List.getElem?_append_right (by rw [hbl]; omega), hbl,
      List.getElem?_append_left (by rw [hpl]; omega)]
    have e : 2 * (P.boards.length * (P.W * P.H)) + 2 * i + xy - 2 * (P.boards.length * (P.W * P.H)) = i * 2 + xy := by omega
    rw [e, getElem?_flatMap_const _ _ 2 (fun a _ => rfl) i xy o hi hxy, two _ _ _ hxy, Option.map_some]
    interval_cases xy <;> rfl

theorem point_eq {Q : Params} {icamE i : Int} (h : ∀ c, camOf Q icamE = some c → Usable c.r) :
    transformPointRt (camRt Q icamE) (pointOf Q i) false = truthP (camOf Q icamE) ⟨⟨0, 0, 0⟩, pointOf Q i⟩ ⟨0, 0, 0⟩ := by
  have h' := cam_frame (Q := Q) (icamE := icamE) (F := ⟨⟨0, 0, 0⟩, pointOf Q i⟩) ⟨Or.inl rfl, h⟩ ⟨0, 0, 0⟩
  rw [compose_transform] at h'
  rw [← h']
  congr 1
  simp [transformPointRt, Rt_from_rt, rotatePointR, mulVec, addP]

theorem point_usable {Q : Params} {icamE : Int} (h : ∀ c, camOf Q icamE = some c → 1e-5 ≤ mag3 c.r ∨ c.r = ⟨0, 0, 0⟩) : ∀ c, camOf Q icamE = some c → Usable c.r := by
  intro c hc
  rcases h c hc with h | h
  · exact Or.inr (eps_le h)
  · exact Or.inl h

theorem perfB_obs {P : Problem} (hP : P.Valid) {o : BoardObs} {k : Nat} (hk : k < P.W * P.H) (h : PosesUsable P.seed o.icamE (frameOf P.seed o.iframe).r) (xy : Nat) :
    (perfB P o).obs k xy = pick2 (pix P.d.lens (intrOf P.d P.seed o.icamI) (seenCorner P P.seed o k)) xy := by
  simp only [perfB]
  rw [pts_seen hP h]
  simp [hk]

theorem perfP_obs {P : Problem} {o : PointObs} (h : ∀ c, camOf P.seed o.icamE = some c → 1e-5 ≤ mag3 c.r ∨ c.r = ⟨0, 0, 0⟩) (xy : Nat) :
    (perfP P o).obs xy = pick2 (pix P.d.lens (intrOf P.d P.seed o.icamI) (seenPoint P.seed o)) xy := by
  simp only [perfP]
  rw [point_eq (point_usable h)]; rfl

/-- other observations: the same things were observed -/
structure Same (P P' : Problem) (fb : Nat → BoardObs → BoardObs) (fp : Nat → PointObs → PointObs) : Prop where
  eq : P' = { P with boards := P.boards.zipIdx.map (fun oi => fb oi.2 oi.1), points := P.points.zipIdx.map (fun oi => fp oi.2 oi.1) }
  b : ∀ i o, (fb i o).icamI = o.icamI ∧ (fb i o).icamE = o.icamE ∧ (fb i o).iframe = o.iframe
  p : ∀ i o, (fp i o).icamI = o.icamI ∧ (fp i o).icamE = o.icamE ∧ (fp i o).ipoint = o.ipoint

theorem Same.memb {P P' : Problem} {fb fp} (h : Same P P' fb fp) {o : BoardObs} (ho : o ∈ P'.boards) : ∃ i o0, P.boards[i]? = some o0 ∧ o = fb i o0 := by
  rw [h.eq] at ho
  obtain ⟨oi, h1, h2⟩ := List.mem_map.mp ho
  exact ⟨oi.2, oi.1, List.mem_zipIdx_iff_getElem?.mp h1, h2.symm⟩

theorem Same.memp {P P' : Problem} {fb fp} (h : Same P P' fb fp) {o : PointObs} (ho : o ∈ P'.points) : ∃ i o0, P.points[i]? = some o0 ∧ o = fp i o0 := by
  rw [h.eq] at ho
  obtain ⟨oi, h1, h2⟩ := List.mem_map.mp ho
  exact ⟨oi.2, oi.1, List.mem_zipIdx_iff_getElem?.mp h1, h2.symm⟩

theorem Same.valid {P P' : Problem} {fb fp} (h : Same P P' fb fp) (hP : P.Valid) : P'.Valid := by
  have hb : ∀ o ∈ P'.boards, 0 ≤ o.icamI ∧ o.icamI < P.d.Nci ∧ o.icamE < P.d.Nce ∧ 0 ≤ o.iframe ∧ o.iframe < P.d.Nframes := by
    intro o ho
    obtain ⟨i, o0, h0, rfl⟩ := h.memb ho
    obtain ⟨e1, e2, e3⟩ := h.b i o0
    rw [e1, e2, e3]
    exact hP.boards _ (List.mem_of_getElem? h0)
  have hp : ∀ o ∈ P'.points, 0 ≤ o.icamI ∧ o.icamI < P.d.Nci ∧ o.icamE < P.d.Nce ∧ 0 ≤ o.ipoint ∧ o.ipoint < P.d.Npoints := by
    intro o ho
    obtain ⟨i, o0, h0, rfl⟩ := h.memp ho
    obtain ⟨e1, e2, e3⟩ := h.p i o0
    rw [e1, e2, e3]
    exact hP.points _ (List.mem_of_getElem? h0)
  have e := h.eq
  subst e
  exact ⟨hP.wf, hP.lens, hb, hp, hP.tri, hP.triSel, hP.warp, hP.size⟩

/-- **Specification**: everything can be projected; the outliers too -/
def AllRegular (P : Problem) : Prop :=
  ({ P with boards := P.boards.map fun o => { o with weight := fun _ => 1 }, points := P.points.map fun o => { o with weight := 1 } } : Problem).RegularAt P.seed

/-- regularity of the changed problem: if each inlier of the new observations was regular -/
theorem Same.regular {P P' : Problem} {fb fp} (h : Same P P' fb fp)
    (hb : ∀ i o, P.boards[i]? = some o → ∀ k < P.W * P.H, 0 < (fb i o).weight k →
      Regular ((camOf P.seed o.icamE).map RtV.r) (frameOf P.seed o.iframe).r ∧ LensRegular P.d.lens (intrOf P.d P.seed o.icamI) (seenCorner P P.seed o k))
    (hp : ∀ i o, P.points[i]? = some o → 0 < (fp i o).weight → (∀ c, camOf P.seed o.icamE = some c → 1e-5 ≤ mag3 c.r ∨ c.r = ⟨0, 0, 0⟩) ∧
      LensRegular P.d.lens (intrOf P.d P.seed o.icamI) (seenPoint P.seed o))
    (ht : ∀ i j o0 o1, SameSet P.tri i j → P.tri[i]? = some o0 → P.tri[j]? = some o1 → o0.outlier = false → o1.outlier = false →
      TriRegular (camOf P.seed o0.icamE) (camOf P.seed o1.icamE) (P.triV i) (P.triV j))
    (hi : P.d.sel.regularization = true → P.imagersizes 0 ≠ 0) : P'.RegularAt P'.seed := by
  have hbm : ∀ {o}, o ∈ P'.boards → _ := fun ho => h.memb ho
  have hpm : ∀ {o}, o ∈ P'.points → _ := fun ho => h.memp ho
  have e := h.eq
  subst e
  refine ⟨?_, ?_, ht, hi⟩
  · intro o ho k hk hw
    obtain ⟨i, o0, h0, rfl⟩ := hbm ho
    obtain ⟨e1, e2, e3⟩ := h.b i o0
    have := hb i o0 h0 k hk hw
    simp only [seenCorner, e1, e2, e3] at this ⊢
    exact this
  · intro o ho hw
    obtain ⟨i, o0, h0, rfl⟩ := hpm ho
    obtain ⟨e1, e2, e3⟩ := h.p i o0
    have := hp i o0 h0 hw
    simp only [seenPoint, e1, e2, e3] at this ⊢
    exact this

theorem AllRegular.board {P : Problem} (h : AllRegular P) {i : Nat} {o : BoardObs} (ho : P.boards[i]? = some o) {k : Nat} (hk : k < P.W * P.H) :
    Regular ((camOf P.seed o.icamE).map RtV.r) (frameOf P.seed o.iframe).r ∧ LensRegular P.d.lens (intrOf P.d P.seed o.icamI) (seenCorner P P.seed o k) :=
  Problem.RegularAt.boards h { o with weight := fun _ => 1 } (List.mem_map.mpr ⟨o, List.mem_of_getElem? ho, rfl⟩) k hk one_pos

theorem AllRegular.point {P : Problem} (h : AllRegular P) {i : Nat} {o : PointObs} (ho : P.points[i]? = some o) :
    (∀ c, camOf P.seed o.icamE = some c → 1e-5 ≤ mag3 c.r ∨ c.r = ⟨0, 0, 0⟩) ∧ LensRegular P.d.lens (intrOf P.d P.seed o.icamI) (seenPoint P.seed o) :=
  Problem.RegularAt.points h { o with weight := 1 } (List.mem_map.mpr ⟨o, List.mem_of_getElem? ho, rfl⟩) one_pos

theorem AllRegular.regular {P : Problem} (h : AllRegular P) : P.RegularAt P.seed := by
  refine ⟨fun o ho k hk _ => ?_, fun o ho _ => ?_, ?_, ?_⟩
  · obtain ⟨i, hi⟩ := List.getElem?_of_mem ho
    exact h.board hi hk
  · obtain ⟨i, hi⟩ := List.getElem?_of_mem ho
    exact h.point hi
  · have h' : Problem.RegularAt _ _ := h
    exact h'.tri
  · have h' : Problem.RegularAt _ _ := h
    exact h'.imager

theorem perf_same (P : Problem) : Same P (perf P) (fun _ => perfB P) (fun _ => perfP P) := by
  refine ⟨?_, fun _ _ => ⟨rfl, rfl, rfl⟩, fun _ _ => ⟨rfl, rfl, rfl⟩⟩
  simp only [perf]
  rw [map_zipIdx P.boards, map_zipIdx P.points]

theorem noisy_same (P : Problem) (σ : ℝ) (nb : Nat → Nat → Nat → ℝ) (np : Nat → Nat → ℝ) :
    Same P { perf P with
      boards := (perf P).boards.zipIdx.map fun oi => noiseBoard σ (nb oi.2) oi.1
      points := (perf P).points.zipIdx.map fun oi => noisePoint σ (np oi.2) oi.1 }
      (fun i o => noiseBoard σ (nb i) (perfB P o)) (fun i o => noisePoint σ (np i) (perfP P o)) := by
  refine ⟨?_, fun _ _ => ⟨rfl, rfl, rfl⟩, fun _ _ => ⟨rfl, rfl, rfl⟩⟩
  simp only [perf]
  rw [List.zipIdx_map, List.map_map, List.zipIdx_map, List.map_map]
  rfl

theorem make_perfect_zero {P : Problem} (hP : P.Valid) (hE : RefIsMinusOne P) (nb : Nat → Nat → Nat → ℝ) (np : Nat → Nat → ℝ) (out : Callback.Out) (ho : optimizerCallback (P.ctx (bPacked P)) = some out) :
    makePerfect P (some 0) nb np = some (perf P) := by
  unfold makePerfect
  rw [ho, noiseless_eq hP hE]
  simp

theorem make_perfect_noise {P : Problem} (hP : P.Valid) (hE : RefIsMinusOne P) (σ : Option ℝ) (nb : Nat → Nat → Nat → ℝ) (np : Nat → Nat → ℝ) (out : Callback.Out) (ho : optimizerCallback (P.ctx (bPacked P)) = some out)
    (s : ℝ) (hs : σ.or (Propagate.observedPixelUncertainty (P.ctx (bPacked P)) out.x) = some s) (h0 : s ≠ 0) :
    makePerfect P σ nb np = some { perf P with
      boards := (perf P).boards.zipIdx.map fun oi => noiseBoard s (nb oi.2) oi.1
      points := (perf P).points.zipIdx.map fun oi => noisePoint s (np oi.2) oi.1 } := by
  unfold makePerfect
  rw [ho, noiseless_eq hP hE]
  simp [hs, h0]

/-- **C103**: make_perfect_observations() without noise changes the pixels in the observations and nothing else. Then all the measurements of the boards and of the points are 0: the state explains these
observations perfectly -/
theorem perfect_measurements (P : Problem) (hP : P.Valid) (hT : Terminated P.tri) (hE : RefIsMinusOne P) (hreg : P.RegularAt P.seed) (nb : Nat → Nat → Nat → ℝ) (np : Nat → Nat → ℝ) :
    ∃ P' out, makePerfect P (some 0) nb np = some P' ∧ optimizerCallback (P'.ctx (bPacked P')) = some out ∧
      P' = { P with boards := P'.boards, points := P'.points } ∧
      P'.boards.map (fun o => (o.icamI, o.icamE, o.iframe, o.weight)) = P.boards.map (fun o => (o.icamI, o.icamE, o.iframe, o.weight)) ∧
      P'.points.map (fun o => (o.icamI, o.icamE, o.ipoint, o.weight)) = P.points.map (fun o => (o.icamI, o.icamE, o.ipoint, o.weight)) ∧
      ∀ i < 2 * (P.boards.length * (P.W * P.H)) + 2 * P.points.length, out.x[i]? = some 0 := by
  have hs := perf_same P
  obtain ⟨out0, ho0, -⟩ := x_at hP hT hreg
  have hreg' : (perf P).RegularAt (perf P).seed := hs.regular (fun i o hi k hk hw => hreg.boards o (List.mem_of_getElem? hi) k hk hw)
    (fun i o hi hw => hreg.points o (List.mem_of_getElem? hi) hw) hreg.tri hreg.imager
  obtain ⟨out, ho, hb, hp⟩ := x_at (hs.valid hP) hT hreg'
  refine ⟨perf P, out, make_perfect_zero hP hE nb np out0 ho0, ho, rfl, by simp [perf, perfB, Function.comp_def], by simp [perf, perfP, Function.comp_def], ?_⟩
  intro i hi
  by_cases hlt : i < 2 * (P.boards.length * (P.W * P.H))
  · have hn : 0 < P.W * P.H := Nat.pos_of_ne_zero fun h => by rw [h] at hlt; omega
    have hib : i / 2 / (P.W * P.H) < P.boards.length := by
      rw [Nat.div_lt_iff_lt_mul hn]; omega
    have hk := Nat.mod_lt (i / 2) hn
    have e : 2 * (i / 2 / (P.W * P.H) * (P.W * P.H) + i / 2 % (P.W * P.H)) + i % 2 = i := by
      have := Nat.div_add_mod (i / 2) (P.W * P.H)
      rw [mul_comm] at this
      rw [this]; omega
    have key := hb (i / 2 / (P.W * P.H)) (perfB P P.boards[i / 2 / (P.W * P.H)]) (by simp [perf, hib]) (i / 2 % (P.W * P.H)) hk (i % 2) (by omega)
    have e' : 2 * (i / 2 / (P.W * P.H) * ((perf P).W * (perf P).H) + i / 2 % (P.W * P.H)) + i % 2 = i := e
    rw [e'] at key
    rw [key]
    have hmem : P.boards[i / 2 / (P.W * P.H)] ∈ P.boards := List.getElem_mem _
    generalize P.boards[i / 2 / (P.W * P.H)] = o at hmem ⊢
    unfold boardRes
    by_cases hw : o.weight (i / 2 % (P.W * P.H)) ≤ 0
    · rcases hw.lt_or_eq with hw | hw
      · rw [if_pos (show (perfB P o).weight _ < 0 from hw)]
      · rw [show (perfB P o).weight (i / 2 % (P.W * P.H)) = 0 from hw]; simp
    · rw [not_le] at hw
      have hr := hreg.boards o hmem _ hk hw
      rw [perfB_obs hP hk (regular_usable hr.1), if_neg (not_lt.mpr (show 0 ≤ (perfB P o).weight _ from hw.le))]
      have : ∀ a : ℝ, (perfB P o).weight (i / 2 % (P.W * P.H)) * (a - a) = 0 := fun a => by ring
      exact congrArg some (this _)
  · rw [not_lt] at hlt
    obtain ⟨j, hj⟩ := Nat.exists_eq_add_of_le hlt
    have hjp : j / 2 < P.points.length := by omega
    have key := hp (j / 2) (perfP P P.points[j / 2]) (by simp [perf, hjp]) (j % 2) (by omega)
    have e : 2 * ((perf P).boards.length * ((perf P).W * (perf P).H)) + 2 * (j / 2) + j % 2 = i := by
      rw [show (perf P).boards.length = P.boards.length by simp [perf], show (perf P).W * (perf P).H = P.W * P.H from rfl]; omega
    rw [e] at key
    rw [key]
    have hmem : P.points[j / 2] ∈ P.points := List.getElem_mem _
    generalize P.points[j / 2] = o at hmem ⊢
    unfold pointRes
    by_cases hw : o.weight ≤ 0
    · rw [if_pos (show (perfP P o).weight ≤ 0 from hw)]
    · rw [if_neg (show ¬ (perfP P o).weight ≤ 0 from hw)]
      rw [not_le] at hw
      rw [perfP_obs (hreg.points o hmem hw).1]
      have : ∀ a : ℝ, (perfP P o).weight * (a - a) = 0 := fun a => by ring
      exact congrArg some (this _)

theorem fixWeight_pos (w : ℝ) : 0 < fixWeight w := by
  unfold fixWeight
  by_cases h : w ≤ 0
  · rw [if_pos h]; exact one_pos
  · rw [if_neg h]; exact not_le.mp h

/-- **C103**: with noise: every measurement is the noise, with the requested scale: the weights of the observations are taken into account. If the standard deviation isn't given, it's the one of the input -/
theorem noisy_measurements (P : Problem) (hP : P.Valid) (hT : Terminated P.tri) (hE : RefIsMinusOne P) (hreg : AllRegular P) (nb : Nat → Nat → Nat → ℝ) (np : Nat → Nat → ℝ) :
    ∃ out0, optimizerCallback (P.ctx (bPacked P)) = some out0 ∧ ∀ (σ : Option ℝ) (s : ℝ), s ≠ 0 → σ.or (Propagate.observedPixelUncertainty (P.ctx (bPacked P)) out0.x) = some s →
    ∃ P' out, makePerfect P σ nb np = some P' ∧ optimizerCallback (P'.ctx (bPacked P')) = some out ∧
      P' = { P with boards := P'.boards, points := P'.points } ∧
      P'.boards.map (fun o => (o.icamI, o.icamE, o.iframe)) = P.boards.map (fun o => (o.icamI, o.icamE, o.iframe)) ∧
      P'.points.map (fun o => (o.icamI, o.icamE, o.ipoint)) = P.points.map (fun o => (o.icamI, o.icamE, o.ipoint)) ∧
      (∀ i < P.boards.length, ∀ k < P.W * P.H, ∀ xy < 2, out.x[2 * (i * (P.W * P.H) + k) + xy]? = some (-(s * nb i k xy))) ∧
      ∀ i < P.points.length, ∀ xy < 2, out.x[2 * (P.boards.length * (P.W * P.H)) + 2 * i + xy]? = some (-(s * np i xy)) := by
  obtain ⟨out0, ho0, -⟩ := x_at hP hT hreg.regular
  refine ⟨out0, ho0, fun σ s h0 hσ => ?_⟩
  have hs := noisy_same P s nb np
  have hreg' := hs.regular (fun i o hi k hk _ => hreg.board hi hk) (fun i o hi _ => hreg.point hi) hreg.regular.tri hreg.regular.imager
  obtain ⟨out, ho, hb, hp⟩ := x_at (hs.valid hP) hT hreg'
  refine ⟨_, out, make_perfect_noise hP hE σ nb np out0 ho0 s hσ h0, ho, rfl, ?_, ?_, ?_, ?_⟩
  · simp only [perf]
    rw [List.zipIdx_map, List.map_map, List.map_map]
    conv_rhs => rw [map_zipIdx]
    rfl
  · simp only [perf]
    rw [List.zipIdx_map, List.map_map, List.map_map]
    conv_rhs => rw [map_zipIdx]
    rfl
  · intro i hi k hk xy hxy
    have hg : P.boards[i]? = some P.boards[i] := List.getElem?_eq_getElem hi
    have key := hb i (noiseBoard s (nb i) (perfB P P.boards[i])) (by simp [perf, hi]) k hk xy hxy
    refine key.trans ?_
    have hw := fixWeight_pos (P.boards[i].weight k)
    unfold boardRes
    rw [if_neg (not_lt.mpr (show 0 ≤ (noiseBoard s (nb i) (perfB P P.boards[i])).weight k from hw.le))]
    have hobs : (noiseBoard s (nb i) (perfB P P.boards[i])).obs k xy = _ := congrArg (· + s * nb i k xy / fixWeight (P.boards[i].weight k)) (perfB_obs hP hk (regular_usable (hreg.board hg hk).1) xy)
    rw [hobs]
    have : ∀ a : ℝ, fixWeight (P.boards[i].weight k) * (a - (a + s * nb i k xy / fixWeight (P.boards[i].weight k))) = -(s * nb i k xy) := by
      intro a
      field_simp
      ring
    exact congrArg some (this _)
  · intro i hi xy hxy
    have hg : P.points[i]? = some P.points[i] := List.getElem?_eq_getElem hi
    have key := hp i (noisePoint s (np i) (perfP P P.points[i])) (by simp [perf, hi]) xy hxy
    have e : 2 * (P.boards.length * (P.W * P.H)) + 2 * i + xy = 2 * (((perf P).boards.zipIdx.map fun oi => noiseBoard s (nb oi.2) oi.1).length * (P.W * P.H)) + 2 * i + xy := by simp [perf]
    rw [e]
    refine key.trans ?_
    have hw := fixWeight_pos P.points[i].weight
    unfold pointRes
    rw [if_neg (not_le.mpr (show 0 < (noisePoint s (np i) (perfP P P.points[i])).weight from hw))]
    have hobs : (noisePoint s (np i) (perfP P P.points[i])).obs xy = _ := congrArg (· + s * np i xy / fixWeight P.points[i].weight) (perfP_obs (hreg.point hg).1 xy)
    rw [hobs]
    have : ∀ a : ℝ, fixWeight P.points[i].weight * (a - (a + s * np i xy / fixWeight P.points[i].weight)) = -(s * np i xy) := by
      intro a
      field_simp
      ring
    exact congrArg some (this _)

/-- **C103**: the outliers should stay outliers. But if noise is added, then the weight of every outlier becomes 1: they're all inliers afterwards -/
theorem outliers_lost_wrong (P : Problem) (hP : P.Valid) (hE : RefIsMinusOne P) (nb : Nat → Nat → Nat → ℝ) (np : Nat → Nat → ℝ) (s : ℝ) (h0 : s ≠ 0)
    (out0 : Callback.Out) (ho : optimizerCallback (P.ctx (bPacked P)) = some out0) :
    ∃ P', makePerfect P (some s) nb np = some P' ∧
      (∀ (i k : Nat) o, P.boards[i]? = some o → ∃ o', P'.boards[i]? = some o' ∧ 0 < o'.weight k ∧ (o.weight k ≤ 0 → o'.weight k = 1) ∧ (0 < o.weight k → o'.weight k = o.weight k)) ∧
      ∀ (i : Nat) o, P.points[i]? = some o → ∃ o', P'.points[i]? = some o' ∧ 0 < o'.weight ∧ (o.weight ≤ 0 → o'.weight = 1) ∧ (0 < o.weight → o'.weight = o.weight) := by
  refine ⟨_, make_perfect_noise hP hE (some s) nb np out0 ho s rfl h0, ?_, ?_⟩
  · intro i k o hi
    exact ⟨noiseBoard s (nb i) (perfB P o), by simp [perf, hi], fixWeight_pos _, fun h => if_pos h, fun h => if_neg (not_le.mpr h)⟩
  · intro i o hi
    exact ⟨noisePoint s (np i) (perfP P o), by simp [perf, hi], fixWeight_pos _, fun h => if_pos h, fun h => if_neg (not_le.mpr h)⟩

/-! ### an example: a board with an outlier, a point, a triangulated point -/

theorem exRef : RefIsMinusOne exProblem := by
  constructor <;> intro o ho <;> simp only [exProblem, List.mem_singleton] at ho <;> subst ho <;> decide

theorem exUsable : ∀ o ∈ exProblem.boards, PosesUsable exProblem.seed o.icamE (frameOf exProblem.seed o.iframe).r := by
  intro o ho
  simp only [exProblem, List.mem_singleton] at ho
  subst ho
  refine regular_usable ?_
  simp only [camOf, frameOf, poseAt, exProblem, exSeed]
  norm_num [Regular]

theorem exAll : AllRegular exProblem := by
  have I0 : intrOf Callback.exDims exSeed 0 0 = 1000 := by simp [intrOf, Callback.exDims, Lens.numParams, exSeed]
  have I1 : intrOf Callback.exDims exSeed 0 1 = 1000 := by simp [intrOf, Callback.exDims, Lens.numParams, exSeed]
  refine ⟨?_, ?_, exRegular.tri, exRegular.imager⟩
  · intro o ho ipt hipt hw
    simp only [exProblem, List.map_cons, List.map_nil, List.mem_singleton] at ho
    subst ho
    refine ⟨?_, ?_⟩
    · simp only [camOf, frameOf, poseAt, exProblem, exSeed]
      norm_num [Regular]
    · show LensRegular .opencv4 _ _
      refine ⟨?_, ?_, ?_, ?_⟩
      · simp only [exProblem]; rw [I0]; norm_num
      · simp only [exProblem]; rw [I1]; norm_num
      · simp [seenCorner, exProblem, truthP, truth, camOf, frameOf, poseAt, exSeed, cornerOf, warpOf, deflection, rod_zero, trS, toVec]
      · rw [ocvDen4]; norm_num
  · intro o ho _
    obtain ⟨o', h', rfl⟩ := List.mem_map.mp ho
    refine exRegular.points o' h' ?_
    simp only [exProblem, List.mem_singleton] at h'
    subst h'
    exact one_pos

-- the corner with the negative weight is the outlier
example : ∃ r, hypothesisBoard exProblem (some 0) none = some r ∧ r.outliers = [⟨0, 0, 10⟩] ∧ r.inliers.length = 5 := by
  obtain ⟨r, h, -, -, hi, ho, -⟩ := hypothesis_meaning exProblem exValid exRef exUsable (some 0) none (fun _ k => decide (k ≠ 0)) (Or.inr ⟨rfl, by
    intro i o ho k hk
    have : o ∈ exProblem.boards := List.mem_of_getElem? ho
    simp only [exProblem, List.mem_singleton] at this
    subst this
    by_cases h : k = 0 <;> simp [h]⟩)
  refine ⟨r, h, ?_, ?_⟩
  · rw [ho]
    simp only [corners, exProblem, List.zipIdx_singleton, List.flatMap_cons, List.flatMap_nil, List.append_nil]
    simp [List.range_succ, seenCorner, truthP, truth, camOf, frameOf, poseAt, exSeed, cornerOf, warpOf, deflection, rod_zero, trS, toVec]
  · rw [hi]
    simp only [corners, exProblem, List.zipIdx_singleton, List.flatMap_cons, List.flatMap_nil, List.append_nil]
    simp [List.range_succ]

example : ∃ r, hypothesisBoard exProblem (some 1) (some (mask exProblem fun _ _ => true)) = some r ∧ r.idx ≠ mask exProblem fun _ _ => true :=
  mask_changed_wrong exProblem exValid exRef exUsable 1 _ 0 0 _ rfl (by simp [exProblem]) rfl (by decide)

example : ∃ P' out, makePerfect exProblem (some 0) (fun _ _ _ => 0) (fun _ _ => 0) = some P' ∧ optimizerCallback (P'.ctx (bPacked P')) = some out ∧ ∀ i < 14, out.x[i]? = some 0 := by
  obtain ⟨P', out, h, h', -, -, -, hx⟩ := perfect_measurements exProblem exValid exTerminated exRef exRegular (fun _ _ _ => 0) fun _ _ => 0
  exact ⟨P', out, h, h', hx⟩

-- the corner with the negative weight gets a measurement, and so does the point
example (nb : Nat → Nat → Nat → ℝ) (np : Nat → Nat → ℝ) : ∃ P' out, makePerfect exProblem (some 2) nb np = some P' ∧ optimizerCallback (P'.ctx (bPacked P')) = some out ∧
    out.x[0]? = some (-(2 * nb 0 0 0)) ∧ out.x[13]? = some (-(2 * np 0 1)) := by
  obtain ⟨out0, -, h⟩ := noisy_measurements exProblem exValid exTerminated exRef exAll nb np
  obtain ⟨P', out, h1, h2, -, -, -, h3, h4⟩ := h (some 2) 2 two_ne_zero rfl
  exact ⟨P', out, h1, h2, h3 0 (by simp [exProblem]) 0 (by simp [exProblem]) 0 (by omega), h4 0 (by simp [exProblem]) 1 (by omega)⟩

example (nb : Nat → Nat → Nat → ℝ) (np : Nat → Nat → ℝ) : ∃ P' o', makePerfect exProblem (some 2) nb np = some P' ∧ P'.boards[0]? = some o' ∧ o'.weight 0 = 1 := by
  obtain ⟨out0, h0, -⟩ := noisy_measurements exProblem exValid exTerminated exRef exAll nb np
  obtain ⟨P', h, hb, -⟩ := outliers_lost_wrong exProblem exValid exRef nb np 2 two_ne_zero out0 h0
  obtain ⟨o', h1, -, h2, -⟩ := hb 0 0 _ rfl
  exact ⟨P', o', h, h1, h2 (by simp)⟩

end Mrcal.Perfect

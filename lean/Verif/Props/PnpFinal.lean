import Verif.Props.PnpProps

/-! # C102: `seed_stereographic()` -/

namespace Mrcal.Pnp
open Mrcal.Pose Mrcal.Cam Mrcal.Seed Mrcal.Links

/-! ### specification -/

/-- where a camera sees a point of the chessboard -/
noncomputable def seenAt (w : World) (v : View) (p : P3) : P3 := tr (w.cam v.cam) (tr (w.frame v.frame) p)

/-- a view of the chessboard that's good enough: it's exact, the camera isn't in the plane of the chessboard, the first corner and all the corners that have a weight are in front of the camera, there are
at least 6 of them, and not (almost) all of them are on one line. `k`: the parameters of this camera -/
structure ViewOk (w : World) (k : Core) (W H : Nat) (spacing : ℝ) (v : View) : Prop where
  exact : ∀ po ∈ List.zip (board W H spacing) v.seen, 0 < po.2.weight → 0 < (seenAt w v po.1).z ∧ po.2.q = (stereographic k (seenAt w v po.1)).q
  off : OffPlane (composeRt (w.cam v.cam) (w.frame v.frame) false false)
  first : 0 < (seenAt w v ⟨0, 0, 0⟩).z
  regular : Regular (composeRt (w.cam v.cam) (w.frame v.frame) false false).R
  six : 6 ≤ (weighted (board W H spacing) v.seen).length
  four : FourPoints ((weighted (board W H spacing) v.seen).map Prod.fst)

/-- the focal length of camera c: one was given for all the cameras, or each has its own -/
def FocalOf (focal : List ℝ) (c : Nat) (f : ℝ) : Prop := focal[if focal.length = 1 then 0 else c]? = some f

/-- the parameters of camera c -/
def CoreOf (sizes : List (Nat × Nat)) (focal : List ℝ) (c : Nat) (k : Core) : Prop :=
  ∃ f size, FocalOf focal c f ∧ sizes[c]? = some size ∧ k.fx = f ∧ k.fy = f ∧ k.cx = ((size.1 : ℝ) - 1) / 2 ∧ k.cy = ((size.2 : ℝ) - 1) / 2

/-! ### lemmas -/

theorem replicate_flatten (n : Nat) (x : ℝ) : (List.replicate n [x]).flatten = List.replicate n x := by
  induction n with
  | zero => rfl
  | succ n ih => rw [List.replicate_succ, List.flatten_cons, ih, List.replicate_succ]; rfl

theorem focals_meaning (n : Nat) (scalar : Bool) (focal fs : List ℝ) (hsc : scalar = true → focal.length = 1) (h : focals n scalar focal = some fs) : fs.length = n ∧ ∀ c < n, ∃ f, FocalOf focal c f ∧ fs[c]? = some f := by
  unfold focals at h
  by_cases h1 : focal.length = 1
  · rw [if_pos (Or.inr h1)] at h
    obtain ⟨x, rfl⟩ := List.length_eq_one_iff.mp h1
    rw [replicate_flatten] at h
    obtain rfl := Option.some.inj h
    exact ⟨by simp, fun c hc => ⟨x, by simp [FocalOf], by simp [hc]⟩⟩
  · rw [if_neg (by rintro (h2 | h2); exacts [h1 (hsc h2), h1 h2])] at h
    by_cases h2 : focal.length = n
    · rw [if_pos h2] at h
      obtain rfl := Option.some.inj h
      exact ⟨h2, fun c hc => ⟨focal[c], by unfold FocalOf; rw [if_neg h1, List.getElem?_eq_getElem], List.getElem?_eq_getElem _⟩⟩
    · rw [if_neg h2] at h; cases h

theorem cores_meaning (sizes : List (Nat × Nat)) (scalar : Bool) (focal fs : List ℝ) (hsc : scalar = true → focal.length = 1) (h : focals sizes.length scalar focal = some fs) :
    (List.zipWith stereoCore fs sizes).length = sizes.length ∧ ∀ c < sizes.length, ∃ k, (List.zipWith stereoCore fs sizes)[c]? = some k ∧ CoreOf sizes focal c k := by
  obtain ⟨h1, h2⟩ := focals_meaning _ scalar focal fs hsc h
  refine ⟨by simp [h1], fun c hc => ?_⟩
  obtain ⟨f, hf1, hf2⟩ := h2 c hc
  refine ⟨stereoCore f sizes[c], ?_, f, sizes[c], hf1, List.getElem?_eq_getElem hc, rfl, rfl, rfl, rfl⟩
  rw [List.getElem?_zipWith, hf2, List.getElem?_eq_getElem hc]

theorem coreOf_unique (sizes : List (Nat × Nat)) (focal : List ℝ) (c : Nat) (k k' : Core) (h : CoreOf sizes focal c k) (h' : CoreOf sizes focal c k') : k = k' := by
  obtain ⟨f, s, h1, h2, h3, h4, h5, h6⟩ := h
  obtain ⟨f', s', h1', h2', h3', h4', h5', h6'⟩ := h'
  have ef : f = f' := Option.some.inj (h1.symm.trans h1')
  have es : s = s' := Option.some.inj (h2.symm.trans h2')
  cases k; cases k'
  simp only at h3 h4 h5 h6 h3' h4' h5' h6'
  subst ef es
  rw [h3, h4, h5, h6, h3', h4', h5', h6']

theorem board_flat (W H : Nat) (s : ℝ) (p : P3) (hp : p ∈ board W H s) : p.z = 0 := by
  unfold board at hp
  simp only [List.mem_flatMap, List.mem_map] at hp
  obtain ⟨y, -, x, -, rfl⟩ := hp
  rfl

theorem view_pose (solve : SolvePnP) (hs : SolvesPnP solve) (w : World) (hw : w.Ok) (k : Core) (hx : k.fx ≠ 0) (hy : k.fy ≠ 0) (W H : Nat) (spacing : ℝ) (v : View) (hv : ViewOk w k W H spacing v) :
    (∀ T, fixedPoints solve (stereoLens k) (board W H spacing) v.seen = some T → T = composeRt (w.cam v.cam) (w.frame v.frame) false false) ∧
      ((∀ pts qs k guess, (solve pts qs k guess).isSome) → fixedPoints solve (stereoLens k) (board W H spacing) v.seen = some (composeRt (w.cam v.cam) (w.frame v.frame) false false)) := by
  have hrot := compose_rot (w.cam v.cam) (w.frame v.frame) false false (hw.cam _) (hw.frame _)
  have hsh : Rt_from_rt (rt_from_Rt (composeRt (w.cam v.cam) (w.frame v.frame) false false)) = composeRt (w.cam v.cam) (w.frame v.frame) false false := shows_rt _ hrot hv.regular
  have htr : ∀ p, tr (composeRt (w.cam v.cam) (w.frame v.frame) false false) p = seenAt w v p := fun p => compose_transform _ _ _ _ p
  have hsee : SeesAll (stereoLens k) (board W H spacing) v.seen (composeRt (w.cam v.cam) (w.frame v.frame) false false) := by
    intro po hpo hwt
    obtain ⟨hz, hq⟩ := hv.exact po hpo hwt
    rw [htr]
    have hm : 0 ≤ mag3 (seenAt w v po.1) := Real.sqrt_nonneg _
    obtain ⟨s, hs0, hs1⟩ := stereographic_roundtrip k hx hy (seenAt w v po.1) (by linarith)
    exact ⟨hz, _, s, by rw [hq]; rfl, hs0.ne', hs1⟩
  have h0 : 0 < (rt_from_Rt (composeRt (w.cam v.cam) (w.frame v.frame) false false)).t.z := by
    have h1 := hv.first
    rw [← htr, tr_plane _ _ rfl] at h1
    simpa [rt_from_Rt] using h1
  have := pose_exact_partial solve hs (stereoLens k) hx hy (board W H spacing) (board_flat W H spacing) v.seen (rt_from_Rt (composeRt (w.cam v.cam) (w.frame v.frame) false false))
    (by rw [hsh]; exact hsee) (by rw [hsh]; exact hv.off) h0 hv.six hv.four
  rw [hsh] at this
  exact this

/-- the observations that the poses are computed from -/
noncomputable def trueObs (w : World) (views : List View) : List Obs := views.map fun v => ⟨v.frame, v.cam, composeRt (w.cam v.cam) (w.frame v.frame) false false⟩

theorem mapM_some_map {α β : Type} (f : α → Option β) (g : α → β) (l : List α) (h : ∀ a ∈ l, f a = some (g a)) : l.mapM f = some (l.map g) := by
  induction l with
  | nil => rfl
  | cons a l ih => rw [List.mapM_cons, h a (by simp), ih fun x hx => h x (by simp [hx])]; rfl

theorem mapM_map_of {α β : Type} (f : α → Option β) (g : α → β) (l : List α) (h : ∀ a ∈ l, ∀ b, f a = some b → b = g a) (r : List β) (hr : l.mapM f = some r) : r = l.map g := by
  induction l generalizing r with
  | nil => obtain rfl := Option.some.inj hr; rfl
  | cons a l ih =>
    rw [List.mapM_cons] at hr
    obtain ⟨b, h1, h2⟩ := Option.bind_eq_some_iff.mp hr
    obtain ⟨bs, h3, h4⟩ := Option.bind_eq_some_iff.mp h2
    obtain rfl := Option.some.inj h4
    rw [List.map_cons, ← h a (by simp) b h1, ← ih (fun x hx => h x (by simp [hx])) bs h3]

theorem zipWith_trueObs (w : World) (views : List View) :
    List.zipWith (fun (v : View) (T : Rt) => (⟨v.frame, v.cam, T⟩ : Obs)) views (views.map fun v => composeRt (w.cam v.cam) (w.frame v.frame) false false) = trueObs w views := by
  unfold trueObs
  induction views with
  | nil => rfl
  | cons v l ih => rw [List.map_cons, List.zipWith_cons_cons, ih, List.map_cons]

theorem trueObs_exact (w : World) (views : List View) : Exact w (trueObs w views) := by
  intro o ho p
  unfold trueObs at ho
  obtain ⟨v, -, rfl⟩ := List.mem_map.mp ho
  exact compose_transform _ _ _ _ p

/-! ### theorems -/

/-- **C102**: stereographic cameras whose focal lengths are the given ones, and that see exact chessboards: what's returned is the parameters of each camera, the true pose of each camera, and of each chessboard -/
theorem seed_stereographic_exact_partial (env : Env) (he : EnvOk env) (solve : SolvePnP) (hs : SolvesPnP solve) (sizes : List (Nat × Nat)) (scalar : Bool) (focal : List ℝ) (hsc : scalar = true → focal.length = 1)
    (hf : ∀ f ∈ focal, f ≠ 0) (W H : Nat) (hW : 2 ≤ W) (hH : 2 ≤ H) (sp : ℝ) (hsp : 4e-12 ≤ sp ^ 2) (w : World) (hw : w.Ok) (hreg : (∀ c, Regular (w.cam c).R) ∧ ∀ f, Regular (w.frame f).R)
    (views : List View) (hsort : views.Pairwise fun a b => a.frame ≤ b.frame) (hv : ∀ v ∈ views, ∀ k, CoreOf sizes focal v.cam k → ViewOk w k W H sp v)
    (cores : List Core) (cams frames : List RtV) (h : seedStereographic env solve sizes scalar focal W H sp views = some (cores, cams, frames)) :
    (cores.length = sizes.length ∧ ∀ c < sizes.length, ∃ k, cores[c]? = some k ∧ CoreOf sizes focal c k) ∧
    (cams.length = (views.map fun v => v.cam).foldr max 0 ∧ ∀ i < cams.length, ∃ rt, cams[i]? = some rt ∧ Shows rt (w.cam (i + 1))) ∧
    ∃ L : List Nat, L.Pairwise (· < ·) ∧ (∀ f, f ∈ L ↔ ∃ v ∈ views, v.frame = f) ∧ frames.length = L.length ∧ ∀ (j f : Nat), L[j]? = some f → ∃ rt, frames[j]? = some rt ∧ Shows rt (w.frame f) := by
  unfold seedStereographic at h
  cases hfs : focals sizes.length scalar focal with
  | none => rw [hfs] at h; cases h
  | some fs =>
    rw [hfs] at h
    dsimp only at h
    obtain ⟨c1, c2⟩ := cores_meaning sizes scalar focal fs hsc hfs
    cases hm : monocular solve ((List.zipWith stereoCore fs sizes).map stereoLens) W H sp views with
    | none => rw [hm] at h; cases h
    | some poses =>
      rw [hm] at h
      dsimp only at h
      have hposes : poses = views.map fun v => composeRt (w.cam v.cam) (w.frame v.frame) false false := by
        unfold monocular at hm
        refine mapM_map_of _ _ views ?_ poses hm
        intro v hvm T hT
        by_cases hc : v.cam < sizes.length
        · obtain ⟨k, hk1, hk2⟩ := c2 v.cam hc
          rw [List.getElem?_map, hk1] at hT
          have hk0 : k.fx ≠ 0 ∧ k.fy ≠ 0 := by
            obtain ⟨f, size, q1, -, q3, q4, -, -⟩ := hk2
            rw [q3, q4]
            have := hf f (List.mem_of_getElem? q1)
            exact ⟨this, this⟩
          exact (view_pose solve hs w hw k hk0.1 hk0.2 W H sp v (hv v hvm k hk2)).1 T hT
        · rw [List.getElem?_eq_none (by rw [List.length_map, c1]; omega)] at hT
          cases hT
      rw [hposes, zipWith_trueObs] at h
      obtain ⟨⟨r1, r2⟩, h1, h2⟩ := Option.map_eq_some_iff.mp h
      simp only [Prod.mk.injEq] at h2
      obtain ⟨rfl, rfl, rfl⟩ := h2
      have hsort' : (trueObs w views).Pairwise fun a b => a.frame ≤ b.frame := by
        unfold trueObs
        rw [List.pairwise_map]
        exact hsort
      obtain ⟨⟨k1, k2⟩, L, l1, l2, l3, l4⟩ := seed_exact env he w hw hreg W H sp hW hH hsp (trueObs w views) (trueObs_exact w views) hsort' r1 r2 h1
      have hN : numCameras (trueObs w views) - 1 = (views.map fun v => v.cam).foldr max 0 := by
        unfold numCameras trueObs
        rw [List.map_map]
        rfl
      refine ⟨⟨c1, c2⟩, ⟨k1.trans hN, fun i hi => k2 i (by rw [← k1]; exact hi)⟩, L, l1, fun f => (l2 f).trans ?_, l3, l4⟩
      unfold trueObs
      simp

/-- **C102**: such data is accepted, if the views are in order and the cameras are connected through shared frames -/
theorem seed_stereographic_accepted (env : Env) (hc : Converges env) (hL : Standard env.heap) (solve : SolvePnP) (hs : SolvesPnP solve) (hsolve : ∀ pts qs k guess, (solve pts qs k guess).isSome)
    (sizes : List (Nat × Nat)) (focal : List ℝ) (hfl : focal.length = 1 ∨ focal.length = sizes.length) (hf : ∀ f ∈ focal, f ≠ 0) (W H : Nat) (hW : 2 ≤ W) (hH : 2 ≤ H) (sp : ℝ) (w : World) (hw : w.Ok)
    (views : List View) (h0 : views ≠ []) (hcam : ∀ v ∈ views, v.cam < sizes.length) (hv : ∀ v ∈ views, ∀ k, CoreOf sizes focal v.cam k → ViewOk w k W H sp v)
    (ho : Ordered (trueObs w views)) (hN : numCameras (trueObs w views) ≤ 65535) (hlt : ∀ i j, i ≠ j → (sharedFrames (trueObs w views) i j).length < 65536)
    (hr : ∀ c < numCameras (trueObs w views), Reach (trueObs w views) c) : ∃ out, seedStereographic env solve sizes false focal W H sp views = some out := by
  obtain ⟨fs, hfs⟩ : ∃ fs, focals sizes.length false focal = some fs := by
    unfold focals
    by_cases h1 : focal.length = 1
    · exact ⟨_, if_pos (Or.inr h1)⟩
    · rw [if_neg (by simp [h1]), if_pos (hfl.resolve_left h1)]
      exact ⟨_, rfl⟩
  obtain ⟨c1, c2⟩ := cores_meaning sizes false focal fs (by simp) hfs
  have hm : monocular solve ((List.zipWith stereoCore fs sizes).map stereoLens) W H sp views = some (views.map fun v => composeRt (w.cam v.cam) (w.frame v.frame) false false) := by
    unfold monocular
    refine mapM_some_map _ _ views ?_
    intro v hvm
    obtain ⟨k, hk1, hk2⟩ := c2 v.cam (hcam v hvm)
    rw [List.getElem?_map, hk1]
    have hk0 : k.fx ≠ 0 ∧ k.fy ≠ 0 := by
      obtain ⟨f, size, q1, -, q3, q4, -, -⟩ := hk2
      rw [q3, q4]
      have := hf f (List.mem_of_getElem? q1)
      exact ⟨this, this⟩
    exact (view_pose solve hs w hw k hk0.1 hk0.2 W H sp v (hv v hvm k hk2)).2 hsolve
  obtain ⟨out, hout⟩ := seed_accepted_partial env hc hL W H (by omega) (by omega) sp (trueObs w views) (by unfold trueObs; simpa using h0) ho hN hlt hr
  unfold seedStereographic
  rw [hfs]
  dsimp only
  rw [hm]
  dsimp only
  rw [zipWith_trueObs, hout]
  exact ⟨_, rfl⟩

/-- **C102**: a list of focal lengths that has neither one nor one for each camera is reported as an error -/
theorem seed_stereographic_focals (env : Env) (solve : SolvePnP) (sizes : List (Nat × Nat)) (focal : List ℝ) (h1 : focal.length ≠ 1) (h2 : focal.length ≠ sizes.length) (W H : Nat) (sp : ℝ) (views : List View) :
    seedStereographic env solve sizes false focal W H sp views = none := by
  have : focals sizes.length false focal = none := by
    unfold focals
    rw [if_neg (by simp [h1]), if_neg h2]
  unfold seedStereographic
  rw [this]

/-- two focal lengths, three cameras -/
example (env : Env) (solve : SolvePnP) (views : List View) : seedStereographic env solve [(640, 480), (640, 480), (640, 480)] false [500, 600] 2 3 1 views = none :=
  seed_stereographic_focals env solve _ _ (by simp) (by simp) 2 3 1 views

/-! ### non-vacuity -/

open Classical in
/-- some pose that's consistent with the data, in front of the camera if that's possible -/
noncomputable def anySolve : SolvePnP := fun pts qs k _ =>
  if h : ∃ rt, Reproduces k pts qs rt ∧ ∀ p ∈ pts, 0 < (tr (Rt_from_rt rt) p).z then some h.choose
  else if h : ∃ rt, Reproduces k pts qs rt then some h.choose
  else some ⟨⟨0, 0, 0⟩, ⟨0, 0, 0⟩⟩

theorem anySolve_ok : SolvesPnP anySolve := by
  intro pts qs k guess rt0 rt hrep h
  unfold anySolve at h
  by_cases h1 : ∃ rt, Reproduces k pts qs rt ∧ ∀ p ∈ pts, 0 < (tr (Rt_from_rt rt) p).z
  · rw [dif_pos h1] at h
    obtain rfl := Option.some.inj h
    exact ⟨h1.choose_spec.1, fun _ => h1.choose_spec.2⟩
  · have h2 : ∃ rt, Reproduces k pts qs rt := ⟨rt0, hrep⟩
    rw [dif_neg h1, dif_pos h2] at h
    obtain rfl := Option.some.inj h
    exact ⟨h2.choose_spec, fun hf => absurd ⟨rt0, hrep, hf⟩ h1⟩

theorem anySolve_total (pts : List P3) (qs : List P2) (k : Core) (guess : Option RtV) : (anySolve pts qs k guess).isSome := by
  unfold anySolve
  split_ifs <;> rfl

/-- the cameras and chessboards of `exWorld`; 640x480 images, a focal length of 500 -/
noncomputable def exCore : Core := ⟨500, 500, 639 / 2, 479 / 2⟩
noncomputable def exView (f c : Nat) : View := ⟨f, c, (board 2 3 1).map fun p => ⟨(stereographic exCore (tr (exWorld.cam c) (tr (exWorld.frame f) p))).q, 1⟩⟩
noncomputable def exViews : List View := exRows.map fun fc => exView fc.1 fc.2

theorem exCompose (f c : Nat) : composeRt (exWorld.cam c) (exWorld.frame f) false false = ⟨identityR, ⟨(f : ℝ) - c, 0, 5⟩⟩ := by
  simp [composeRt, exWorld, identityR, mul, vecMul, mulVec, addP]
  ring

theorem exSeen (f c : Nat) (p : P3) (hp : p.z = 0) : (seenAt exWorld (exView f c) p).z = 5 := by
  have : seenAt exWorld (exView f c) p = tr (composeRt (exWorld.cam c) (exWorld.frame f) false false) p := (compose_transform (exWorld.cam c) (exWorld.frame f) false false p).symm
  rw [this, exCompose, tr_shift]
  simp [hp]

theorem exWeighted (f c : Nat) : (weighted (board 2 3 1) (exView f c).seen).map Prod.fst = board 2 3 1 := by
  classical
  unfold weighted exView
  have : ∀ (l : List P3) (g : P3 → P2), ((List.zip l (l.map fun p => (⟨g p, 1⟩ : Seen))).filter fun po => decide (0 < po.2.weight)).map Prod.fst = l := by
    intro l g
    induction l with
    | nil => rfl
    | cons a l ih =>
      rw [List.map_cons, List.zip_cons_cons, List.filter_cons_of_pos (by simp), List.map_cons, ih]
  exact this (board 2 3 1) fun p => (stereographic exCore (tr (exWorld.cam c) (tr (exWorld.frame f) p))).q

theorem exView_ok (f c : Nat) : ViewOk exWorld exCore 2 3 1 (exView f c) := by
  refine ⟨?_, ?_, ?_, ?_, ?_, ?_⟩
  · intro po hpo _
    have hb := (List.of_mem_zip hpo).1
    refine ⟨by rw [exSeen f c _ (board_flat _ _ _ _ hb)]; norm_num, ?_⟩
    unfold exView at hpo
    dsimp only at hpo
    have : ∀ (l : List P3) (g : P3 → Seen) (po : P3 × Seen), po ∈ List.zip l (l.map g) → po.2 = g po.1 := by
      intro l g po h
      induction l with
      | nil => simp at h
      | cons a l ih =>
        rw [List.map_cons, List.zip_cons_cons] at h
        rcases List.mem_cons.mp h with rfl | h
        · rfl
        · exact ih h
    rw [this _ _ po hpo]
    rfl
  · show OffPlane (composeRt (exWorld.cam c) (exWorld.frame f) false false)
    rw [exCompose]
    unfold OffPlane tr
    rw [(invert_transform _ _ identity_rot.1).1]
    simp [transformPointRt, rotatePointR, mulVec, identityR, transpose, subP]
  · rw [exSeen f c _ rfl]; norm_num
  · show Regular (composeRt (exWorld.cam c) (exWorld.frame f) false false).R
    rw [exCompose]
    exact Or.inl rfl
  · have := congrArg List.length (exWeighted f c)
    rw [List.length_map] at this
    rw [this]
    simp [board]
  · rw [exWeighted]
    refine ⟨⟨0, 0, 0⟩, ?_, ⟨1, 0, 0⟩, ?_, ⟨0, 1, 0⟩, ?_, ⟨1, 1, 0⟩, ?_, ?_, ?_, ?_, ?_⟩
    · exact (board_corners 2 3 1 (by norm_num) (by norm_num)).1
    · exact (board_corners 2 3 1 (by norm_num) (by norm_num)).2.1
    · exact (board_corners 2 3 1 (by norm_num) (by norm_num)).2.2
    · unfold board
      simp only [List.mem_flatMap, List.mem_map, List.mem_range]
      exact ⟨1, by norm_num, 1, by norm_num, by simp⟩
    all_goals norm_num [area]

theorem exTrueObs : trueObs exWorld exViews = exObs := by
  unfold trueObs exViews exObs
  rw [List.map_map]
  refine List.map_congr_left fun fc _ => ?_
  show (⟨fc.1, fc.2, composeRt (exWorld.cam fc.2) (exWorld.frame fc.1) false false⟩ : Obs) = exSee fc.1 fc.2
  rw [exCompose]
  rfl

theorem exCores (c : Nat) (k : Core) (h : CoreOf [(640, 480), (640, 480), (640, 480)] [500] c k) : k = exCore := by
  obtain ⟨f, s, h1, h2, h3, h4, h5, h6⟩ := h
  have hf : f = 500 := by simpa [FocalOf, eq_comm] using h1
  have hs : s = (640, 480) := by
    match c, h2 with
    | 0, h2 => exact (Option.some.inj h2).symm
    | 1, h2 => exact (Option.some.inj h2).symm
    | 2, h2 => exact (Option.some.inj h2).symm
    | _ + 3, h2 => simp at h2
  cases k
  simp only at h3 h4 h5 h6
  rw [h3, h4, h5, h6, hf, hs, exCore]
  norm_num

theorem exViews_ok : ∀ v ∈ exViews, ∀ k, CoreOf [(640, 480), (640, 480), (640, 480)] [500] v.cam k → ViewOk exWorld k 2 3 1 v := by
  intro v hv k hk
  rw [exCores _ k hk]
  unfold exViews at hv
  obtain ⟨fc, -, rfl⟩ := List.mem_map.mp hv
  exact exView_ok _ _

theorem exViews_accepted : ∃ out, seedStereographic exEnv anySolve [(640, 480), (640, 480), (640, 480)] false [500] 2 3 1 exViews = some out := by
  refine seed_stereographic_accepted exEnv exEnv_converges sortedHeap_standard anySolve anySolve_ok anySolve_total _ _ (Or.inl rfl) (by simp) 2 3 le_rfl (by norm_num) 1 exWorld exWorld_ok exViews
    (by simp [exViews, exRows]) ?_ exViews_ok ?_ ?_ ?_ ?_
  · intro v hv
    unfold exViews at hv
    obtain ⟨fc, hfc, rfl⟩ := List.mem_map.mp hv
    have : ∀ fc ∈ exRows, fc.2 < 3 := by decide
    exact this fc hfc
  all_goals rw [exTrueObs]
  · exact exObs_ordered
  · rw [exObs_N]; omega
  · exact fun i j _ => lt_of_le_of_lt (shared_rows_le exRows i j) (by decide)
  · exact fun c hc => exObs_reach c (by rwa [exObs_N] at hc)

/-- the whole seed of this world is right -/
example : ∃ cores cams frames, seedStereographic exEnv anySolve [(640, 480), (640, 480), (640, 480)] false [500] 2 3 1 exViews = some (cores, cams, frames) ∧ cores.length = 3 ∧ cams.length = 2 ∧
    ∃ rt, cams[1]? = some rt ∧ Shows rt ⟨identityR, ⟨-2, 0, 0⟩⟩ := by
  obtain ⟨⟨cores, cams, frames⟩, h⟩ := exViews_accepted
  have hsort : exViews.Pairwise fun a b => a.frame ≤ b.frame := by
    unfold exViews
    rw [List.pairwise_map]
    exact (by decide : exRows.Pairwise fun a b => a.1 ≤ b.1)
  obtain ⟨⟨h1, -⟩, ⟨h2, h3⟩, -⟩ := seed_stereographic_exact_partial exEnv exEnv_ok anySolve anySolve_ok _ _ _ (by simp) (by simp) 2 3 le_rfl (by norm_num) 1 (by norm_num) exWorld exWorld_ok exWorld_regular exViews hsort
    exViews_ok cores cams frames h
  have hl : cams.length = 2 := by
    rw [h2]
    unfold exViews
    rw [List.map_map]
    rfl
  refine ⟨cores, cams, frames, h, h1, hl, ?_⟩
  simpa [exWorld] using h3 1 (by omega)

/-- one view -/
example : ∃ rt, SolvesPnP anySolve ∧ fixedPoints anySolve (stereoLens exCore) (board 2 3 1) (exView 1 0).seen = some (Rt_from_rt rt) := by
  refine ⟨rt_from_Rt ⟨identityR, ⟨1, 0, 5⟩⟩, anySolve_ok, ?_⟩
  have := (view_pose anySolve anySolve_ok exWorld exWorld_ok exCore (by norm_num [exCore]) (by norm_num [exCore]) 2 3 1 (exView 1 0) (exView_ok 1 0)).2 anySolve_total
  rw [this, shows_rt _ identity_rot (Or.inl rfl)]
  show some (composeRt (exWorld.cam 0) (exWorld.frame 1) false false) = _
  rw [exCompose]
  norm_num

end Mrcal.Pnp

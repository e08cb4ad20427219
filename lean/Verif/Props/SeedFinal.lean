import Verif.Props.SeedAccept
import Verif.Props.SvdExists
import Verif.Props.CamModelPoseProps

/-! # C101: the poses of the seed of a calibration -/

namespace Mrcal.Seed
open Mrcal.Pose Mrcal.Links

/-! ### specification -/

/-- rotations that a Rodrigues vector represents exactly: not in the range of the small-angle approximations (C26) -/
def Regular (R : M3) : Prop := transpose R = R ∨ (1e-5 : ℝ) ^ 2 ≤ 1 - ((R.a00 + R.a11 + R.a22 - 1) / 2) ^ 2

/-- `rt` is a pose vector that's the transformation T -/
def Shows (rt : RtV) (T : Rt) : Prop := Rt_from_rt rt = T

theorem shows_rt (T : Rt) (h : IsRot T.R) (hr : Regular T.R) : Shows (rt_from_Rt T) T := by
  unfold Shows Rt_from_rt rt_from_Rt
  rw [(CamModel.from_matrix T.R h hr).1]

/-! ### theorems -/

/-- **C101**: the seed of a calibration. Given where each camera really sees each chessboard: if poses are produced, then they're the true poses of all the cameras, and of exactly the observed chessboards, in order -/
theorem seed_exact (env : Env) (he : EnvOk env) (w : World) (hw : w.Ok) (hreg : (∀ c, Regular (w.cam c).R) ∧ ∀ f, Regular (w.frame f).R) (W H : Nat) (sp : ℝ) (hW : 2 ≤ W) (hH : 2 ≤ H) (hs : 4e-12 ≤ sp ^ 2)
    (obs : List Obs) (ho : Exact w obs) (hsort : obs.Pairwise fun a b => a.frame ≤ b.frame) (cams frames : List RtV) (h : seedPoses env W H sp obs = some (cams, frames)) :
    (cams.length = numCameras obs - 1 ∧ ∀ i < numCameras obs - 1, ∃ rt, cams[i]? = some rt ∧ Shows rt (w.cam (i + 1))) ∧
    ∃ L : List Nat, L.Pairwise (· < ·) ∧ (∀ f, f ∈ L ↔ ∃ o ∈ obs, o.frame = f) ∧ frames.length = L.length ∧ ∀ (k f : Nat), L[k]? = some f → ∃ rt, frames[k]? = some rt ∧ Shows rt (w.frame f) := by
  unfold seedPoses at h
  cases hc : estimateCameraPoses env W H sp obs with
  | none => rw [hc] at h; cases h
  | some Ts =>
    rw [hc] at h
    dsimp only at h
    have hT := cameras_raw env he w hw W H sp hW hH hs obs ho Ts hc
    have hT2 : Ts.map invertRt = (List.range (numCameras obs - 1)).map fun i => w.cam (i + 1) := by
      rw [hT, List.map_map]
      refine List.map_congr_left fun i _ => ?_
      exact invert_invert _ (hw.cam _).1
    rw [hT2] at h
    obtain ⟨out, h1, h2⟩ := Option.map_eq_some_iff.mp h
    simp only [Prod.mk.injEq] at h2
    obtain ⟨rfl, rfl⟩ := h2
    obtain ⟨L, hL1, hL2, hL3⟩ := frames_raw env he w hw W H sp hW hH hs obs ho hsort _ out h1
    refine ⟨⟨by simp, fun i hi => ⟨rt_from_Rt (w.cam (i + 1)), ?_, shows_rt _ (hw.cam _) (hreg.1 _)⟩⟩, L, hL1, hL2, by rw [hL3]; simp, fun k f hk => ⟨rt_from_Rt (w.frame f), ?_, shows_rt _ (hw.frame _) (hreg.2 _)⟩⟩
    · simp [hi]
    · rw [hL3, List.getElem?_map, hk]; rfl

theorem range_unique (L : List Nat) (n : Nat) (h1 : L.Pairwise (· < ·)) (h2 : ∀ f, f ∈ L ↔ f < n) : L = List.range n := by
  have hn1 : L.Nodup := h1.imp (fun h => Nat.ne_of_lt h)
  have hp : L.Perm (List.range n) := (List.perm_ext_iff_of_nodup hn1 List.nodup_range).mpr fun f => by rw [h2, List.mem_range]
  exact hp.eq_of_pairwise (fun a b _ _ hab hba => absurd (hab.trans hba) (lt_irrefl _)) h1 List.pairwise_lt_range

/-- **C101**: if each of the frames 0,1,2,…,n-1 was observed, then the pose i is of frame i -/
theorem seed_numbered_partial (env : Env) (he : EnvOk env) (w : World) (hw : w.Ok) (hreg : (∀ c, Regular (w.cam c).R) ∧ ∀ f, Regular (w.frame f).R) (W H : Nat) (sp : ℝ) (hW : 2 ≤ W) (hH : 2 ≤ H) (hs : 4e-12 ≤ sp ^ 2)
    (obs : List Obs) (ho : Exact w obs) (hsort : obs.Pairwise fun a b => a.frame ≤ b.frame) (n : Nat) (hn : ∀ f, (∃ o ∈ obs, o.frame = f) ↔ f < n) (cams frames : List RtV)
    (h : seedPoses env W H sp obs = some (cams, frames)) : frames.length = n ∧ ∀ f < n, ∃ rt, frames[f]? = some rt ∧ Shows rt (w.frame f) := by
  obtain ⟨-, L, h1, h2, h3, h4⟩ := seed_exact env he w hw hreg W H sp hW hH hs obs ho hsort cams frames h
  obtain rfl := range_unique L n h1 fun f => (h2 f).trans (hn f)
  exact ⟨by simpa using h3, fun f hf => h4 f f (by simp [hf])⟩

/-- **C101**: ordered observations by cameras that are all connected to camera 0, by chains of cameras with at least 2 shared frames each, are accepted. Whatever the given poses are -/
theorem seed_accepted_partial (env : Env) (hc : Converges env) (hL : Standard env.heap) (W H : Nat) (hW : 1 ≤ W) (hH : 1 ≤ H) (sp : ℝ) (obs : List Obs) (h0 : obs ≠ []) (ho : Ordered obs)
    (hN : numCameras obs ≤ 65535) (hlt : ∀ i j, i ≠ j → (sharedFrames obs i j).length < 65536) (hr : ∀ c < numCameras obs, Reach obs c) : ∃ out, seedPoses env W H sp obs = some out := by
  obtain ⟨Ts, h1, h2⟩ := cameras_accepted env hc hL W H hW hH sp obs h0 ho hN hlt hr
  obtain ⟨fr, h3⟩ := Option.isSome_iff_exists.mp (frames_accepted env hc W H hW hH sp (Ts.map invertRt) obs fun o hm => by have := cam_lt obs o hm; rw [List.length_map, h2]; omega)
  refine ⟨((Ts.map invertRt).map rt_from_Rt, fr), ?_⟩
  unfold seedPoses
  rw [h1]
  dsimp only
  rw [h3]; rfl

/-- **C101**: if poses are produced then the cameras are connected: the disconnected cameras are an error, instead of a guess -/
theorem seed_connected (env : Env) (hL : Standard env.heap) (W H : Nat) (sp : ℝ) (obs : List Obs) (ho : Ordered obs) (hN : numCameras obs ≤ 65535) (out : List RtV × List RtV)
    (h : seedPoses env W H sp obs = some out) (c : Nat) (hcN : c < numCameras obs) : Reach obs c := by
  unfold seedPoses at h
  cases hc : estimateCameraPoses env W H sp obs with
  | none => rw [hc] at h; cases h
  | some Ts => exact cameras_connected env hL W H sp obs ho hN Ts hc c hcN

/-! ### non-vacuity -/

/-- cameras along a line; chessboards in front of them, in different places -/
noncomputable def exWorld : World := ⟨fun c => ⟨identityR, ⟨-(c : ℝ), 0, 0⟩⟩, fun f => ⟨identityR, ⟨(f : ℝ), 0, 5⟩⟩⟩
/-- what camera c sees in frame f -/
noncomputable def exSee (f c : Nat) : Obs := ⟨f, c, ⟨identityR, ⟨(f : ℝ) - c, 0, 5⟩⟩⟩
noncomputable def exEnv : Env := ⟨Procrustes.anyLapack, Procrustes.anySvd, true, sortedHeap⟩

theorem tr_shift (t p : P3) : tr ⟨identityR, t⟩ p = ⟨p.x + t.x, p.y + t.y, p.z + t.z⟩ := by
  unfold tr
  simp [transformPointRt, rotatePointR, mulVec, identityR, addP]

theorem exWorld_ok : exWorld.Ok := by
  refine ⟨fun c => identity_rot, fun f => identity_rot, fun p => ?_⟩
  show tr ⟨identityR, ⟨-((0 : Nat) : ℝ), 0, 0⟩⟩ p = p
  rw [tr_shift]; simp

theorem exWorld_regular : (∀ c, Regular (exWorld.cam c).R) ∧ ∀ f, Regular (exWorld.frame f).R := ⟨fun _ => Or.inl rfl, fun _ => Or.inl rfl⟩

theorem exSee_exact (l : List (Nat × Nat)) : Exact exWorld (l.map fun fc => exSee fc.1 fc.2) := by
  intro o ho p
  obtain ⟨⟨f, c⟩, -, rfl⟩ := List.mem_map.mp ho
  show tr ⟨identityR, _⟩ p = tr ⟨identityR, _⟩ (tr ⟨identityR, _⟩ p)
  rw [tr_shift, tr_shift, tr_shift]
  simp only [exSee]
  ext <;> simp <;> ring

theorem exEnv_ok : EnvOk exEnv := ⟨Procrustes.anyLapack_ok, Procrustes.anySvd_ok⟩
theorem exEnv_converges : Converges exEnv := Procrustes.any_converges

/-- three cameras. 0,1 share the frames 0,1; 1,2 share the frames 2,3 -/
def exRows : List (Nat × Nat) := [(0, 0), (0, 1), (1, 0), (1, 1), (2, 1), (2, 2), (3, 1), (3, 2)]
noncomputable def exObs : List Obs := exRows.map fun fc => exSee fc.1 fc.2

theorem ordered_rows (l : List (Nat × Nat)) (h : l.Pairwise fun a b => a.1 < b.1 ∨ a.1 = b.1 ∧ a.2 < b.2) : Ordered (l.map fun fc => exSee fc.1 fc.2) := by
  unfold Ordered
  rw [List.pairwise_map]
  exact h

theorem framesOf_rows (l : List (Nat × Nat)) (c : Nat) : framesOf (l.map fun fc => exSee fc.1 fc.2) c = (l.filter fun fc => fc.2 = c).map Prod.fst := by
  unfold framesOf
  rw [List.filter_map, List.map_map]
  rfl

theorem numCameras_rows (l : List (Nat × Nat)) : numCameras (l.map fun fc => exSee fc.1 fc.2) = (l.map Prod.snd).foldr max 0 + 1 := by
  unfold numCameras
  rw [List.map_map]
  rfl

theorem shared_rows_le (l : List (Nat × Nat)) (i j : Nat) : (sharedFrames (l.map fun fc => exSee fc.1 fc.2) i j).length ≤ l.length := by
  unfold sharedFrames
  refine (List.length_filter_le _ _).trans ?_
  rw [framesOf_rows, List.length_map]
  exact List.length_filter_le _ _

theorem exObs_ordered : Ordered exObs := ordered_rows _ (by decide)
theorem exObs_N : numCameras exObs = 3 := by unfold exObs; rw [numCameras_rows]; decide
theorem exObs_reach (c : Nat) (hc : c < 3) : Reach exObs c := by
  have h01 : Reach exObs 1 := .step .zero (by rw [exObs_N]; omega) (by rw [exObs_N]; omega) (by omega) (by unfold sharedFrames exObs; rw [framesOf_rows, framesOf_rows]; decide)
  have h12 : Reach exObs 2 := .step h01 (by rw [exObs_N]; omega) (by rw [exObs_N]; omega) (by omega) (by unfold sharedFrames exObs; rw [framesOf_rows, framesOf_rows]; decide)
  interval_cases c
  · exact .zero
  · exact h01
  · exact h12

theorem exObs_accepted : ∃ out, seedPoses exEnv 2 3 1 exObs = some out :=
  seed_accepted_partial exEnv exEnv_converges sortedHeap_standard 2 3 (by norm_num) (by norm_num) 1 exObs (by simp [exObs, exRows]) exObs_ordered (by rw [exObs_N]; omega)
    (fun i j _ => lt_of_le_of_lt (shared_rows_le exRows i j) (by decide)) (fun c hc => exObs_reach c (by rwa [exObs_N] at hc))

theorem exObs_frames (f : Nat) : (∃ o ∈ exObs, o.frame = f) ↔ f < 4 := by
  unfold exObs exRows exSee
  simp
  omega

/-- non-vacuity of all of the theorems: this world is reconstructed -/
example : ∃ cams frames, seedPoses exEnv 2 3 1 exObs = some (cams, frames) ∧ (∃ rt, cams[1]? = some rt ∧ Shows rt ⟨identityR, ⟨-2, 0, 0⟩⟩) ∧ ∃ rt, frames[3]? = some rt ∧ Shows rt ⟨identityR, ⟨3, 0, 5⟩⟩ := by
  obtain ⟨⟨cams, frames⟩, h⟩ := exObs_accepted
  have hsort : exObs.Pairwise fun a b => a.frame ≤ b.frame := exObs_ordered.imp fun h => by omega
  have h1 := (seed_exact exEnv exEnv_ok exWorld exWorld_ok exWorld_regular 2 3 1 le_rfl (by norm_num) (by norm_num) exObs (exSee_exact _) hsort cams frames h).1.2 1 (by rw [exObs_N]; omega)
  have h2 := (seed_numbered_partial exEnv exEnv_ok exWorld exWorld_ok exWorld_regular 2 3 1 le_rfl (by norm_num) (by norm_num) exObs (exSee_exact _) hsort 4 exObs_frames cams frames h).2 3 (by omega)
  refine ⟨cams, frames, h, ?_, ?_⟩
  · simpa [exWorld] using h1
  · simpa [exWorld] using h2

example (c : Nat) (hc : c < 3) : Reach exObs c := by
  obtain ⟨out, h⟩ := exObs_accepted
  exact seed_connected exEnv sortedHeap_standard 2 3 1 exObs exObs_ordered (by rw [exObs_N]; omega) out h c (by rw [exObs_N]; exact hc)

/-! ### where the code doesn't do what's expected -/

/-- a frame that nobody saw: the pose 1 is of frame 2 -/
theorem seed_numbered_wrong : ∃ cams frames rt, seedPoses exEnv 2 3 1 ([(0, 0), (2, 0)].map fun fc => exSee fc.1 fc.2) = some (cams, frames) ∧ frames[1]? = some rt ∧
    Shows rt (exWorld.frame 2) ∧ ¬ Shows rt (exWorld.frame 1) ∧ frames[2]? = none := by
  have hN : numCameras ([(0, 0), (2, 0)].map fun fc => exSee fc.1 fc.2) = 1 := by rw [numCameras_rows]; decide
  have ho : Ordered ([(0, 0), (2, 0)].map fun fc => exSee fc.1 fc.2) := ordered_rows _ (by decide)
  have hr : ∀ c < numCameras ([(0, 0), (2, 0)].map fun fc => exSee fc.1 fc.2), Reach ([(0, 0), (2, 0)].map fun fc => exSee fc.1 fc.2) c := by
    intro c hc
    rw [hN] at hc
    obtain rfl : c = 0 := by omega
    exact .zero
  obtain ⟨⟨cams, frames⟩, h⟩ := seed_accepted_partial exEnv exEnv_converges sortedHeap_standard 2 3 (by norm_num) (by norm_num) 1 ([(0, 0), (2, 0)].map fun fc => exSee fc.1 fc.2) (by simp) ho (by rw [hN]; omega)
    (fun i j _ => lt_of_le_of_lt (shared_rows_le _ i j) (by decide)) hr
  obtain ⟨-, L, h1, h2, h3, h4⟩ := seed_exact exEnv exEnv_ok exWorld exWorld_ok exWorld_regular 2 3 1 le_rfl (by norm_num) (by norm_num) _ (exSee_exact _) (ho.imp fun h => by omega) cams frames h
  have hm : ∀ f, f ∈ L ↔ f ∈ [0, 2] := by
    intro f
    rw [h2]
    simp [exSee, eq_comm]
  have hL : L = [0, 2] := by
    have hn1 : L.Nodup := h1.imp (fun h => Nat.ne_of_lt h)
    have hp : L.Perm [0, 2] := (List.perm_ext_iff_of_nodup hn1 (by decide)).mpr hm
    exact hp.eq_of_pairwise (fun a b _ _ hab hba => absurd (hab.trans hba) (lt_irrefl _)) h1 (by decide)
  subst hL
  obtain ⟨rt, hr1, hr2⟩ := h4 1 2 rfl
  refine ⟨cams, frames, rt, h, hr1, hr2, fun hr3 => ?_, ?_⟩
  · have := hr2.symm.trans hr3
    have hx := congrArg (fun T => T.t.x) this
    simp [exWorld] at hx
  · rw [List.getElem?_eq_none_iff, h3]; rfl

/-- the data of two cameras that see each of n frames -/
noncomputable def bothSee (n : Nat) : List Obs := ((List.range n).flatMap fun (f : Nat) => [(f, 0), (f, 1)]).map fun fc => exSee fc.1 fc.2

theorem bothSee_ordered (n : Nat) : Ordered (bothSee n) := by
  refine ordered_rows _ ?_
  rw [List.pairwise_flatMap]
  refine ⟨fun f _ => by simp, List.pairwise_lt_range.imp ?_⟩
  intro a b hab x hx y hy
  simp at hx hy
  rcases hx with rfl | rfl <;> rcases hy with rfl | rfl <;> exact Or.inl hab

theorem bothSee_frames (n c : Nat) (hc : c < 2) : framesOf (bothSee n) c = List.range n := by
  unfold bothSee
  rw [framesOf_rows]
  induction n with
  | zero => rfl
  | succ n ih =>
    rw [List.range_succ, List.flatMap_append, List.filter_append, List.map_append, ih]
    interval_cases c <;> simp

theorem bothSee_shared (n : Nat) (i j : Nat) (hi : i < 2) (hj : j < 2) : (sharedFrames (bothSee n) i j).length = n := by
  unfold sharedFrames
  rw [bothSee_frames n i hi, bothSee_frames n j hj, List.filter_eq_self.mpr (fun f hf => decide_eq_true hf), List.length_range]

theorem bothSee_N (n : Nat) (hn : 0 < n) : numCameras (bothSee n) = 2 := by
  unfold bothSee
  rw [numCameras_rows]
  induction n with
  | zero => omega
  | succ n ih =>
    rw [List.range_succ_eq_map, List.flatMap_cons]
    simp only [List.map_append, List.foldr_append, List.map_cons, List.map_nil, List.foldr_cons, List.foldr_nil]
    have hle : ∀ l : List Nat, (((l.flatMap fun (f : Nat) => [(f, 0), (f, 1)]).map Prod.snd).foldr max 0) ≤ 1 := by
      intro l
      induction l with
      | nil => simp
      | cons a l ihl =>
        rw [List.flatMap_cons]
        simp only [List.map_append, List.foldr_append, List.map_cons, List.map_nil, List.foldr_cons, List.foldr_nil]
        omega
    have := hle ((List.range n).map Nat.succ)
    omega

/-- two cameras that both see all of 65536 frames (or 131072, …): an error, because no frames appear to be shared -/
theorem seed_accepted_wrong (env : Env) (hL : Standard env.heap) (W H : Nat) (sp : ℝ) (n : Nat) (hn : 0 < n) (hm : n % 65536 = 0) :
    seedPoses env W H sp (bothSee n) = none ∧ Ordered (bothSee n) ∧ ∀ c < numCameras (bothSee n), Reach (bothSee n) c := by
  have hN := bothSee_N n hn
  refine ⟨?_, bothSee_ordered _, fun c hc => ?_⟩
  · unfold seedPoses
    cases hc : estimateCameraPoses env W H sp (bothSee n) with
    | none => rfl
    | some Ts =>
      obtain ⟨M, hM, k, hk⟩ := cameras_path env hL W H sp _ (bothSee_ordered _) (by rw [hN]; omega) Ts hc 1 (by omega) (by rw [hN]; omega)
      exfalso
      generalize hv : (1 : Nat) = v at hk
      cases hk with
      | root => omega
      | hop _ hl =>
        obtain ⟨h1, h2, h3, h4⟩ := (linked_iff _ (bothSee_ordered _) M hM _ _ _).mp hl
        rw [hN] at h1 h2
        rw [bothSee_shared n _ _ h1 h2] at h4
        omega
  · rw [hN] at hc
    rcases Nat.eq_zero_or_pos c with rfl | hp
    · exact .zero
    · obtain rfl : c = 1 := by omega
      exact .step .zero (by rw [hN]; omega) (by rw [hN]; omega) (by omega) (by rw [bothSee_shared _ _ _ (by omega) (by omega)]; omega)

example : 0 < 65536 ∧ 65536 % 65536 = 0 ∧ Standard exEnv.heap := ⟨by norm_num, by norm_num, sortedHeap_standard⟩

theorem pairFold_absent (obj : List P3) (a b : Nat) (obs : List Obs) (hb : ∀ o ∈ obs, o.cam ≠ b) (s s' : PairSt) (h : obs.foldlM (pairStep obj a b) s = some s') : s'.A = s.A := by
  induction obs generalizing s with
  | nil => obtain rfl := Option.some.inj h; rfl
  | cons o obs ih =>
    rw [List.foldlM_cons] at h
    obtain ⟨s1, h1, h2⟩ := Option.bind_eq_some_iff.mp h
    rw [ih (fun x hx => hb x (by simp [hx])) s1 h2]
    have hA : (newFrame s o.frame).A = s.A := by unfold newFrame; split <;> rfl
    unfold pairStep at h1
    dsimp only at h1
    rw [if_neg (hb o (by simp))] at h1
    split at h1
    · split at h1
      · cases h1
      · obtain rfl := Option.some.inj h1; exact hA
    · obtain rfl := Option.some.inj h1; exact hA

theorem procrustes_empty (env : Env) (B : List P3) : procrustes env [] B = none := rfl

/-- the cameras aren't in order inside each frame: an error -/
theorem seed_order_wrong (env : Env) (W H : Nat) (sp : ℝ) : seedPoses env W H sp ([(0, 1), (0, 0), (1, 1), (1, 0)].map fun fc => exSee fc.1 fc.2) = none ∧
    (∀ c < numCameras ([(0, 1), (0, 0), (1, 1), (1, 0)].map fun fc => exSee fc.1 fc.2), Reach ([(0, 1), (0, 0), (1, 1), (1, 0)].map fun fc => exSee fc.1 fc.2) c) := by
  have hN : numCameras ([(0, 1), (0, 0), (1, 1), (1, 0)].map fun fc => exSee fc.1 fc.2) = 2 := by rw [numCameras_rows]; decide
  refine ⟨?_, fun c hc => ?_⟩
  · unfold seedPoses
    cases hc : estimateCameraPoses env W H sp ([(0, 1), (0, 0), (1, 1), (1, 0)].map fun fc => exSee fc.1 fc.2) with
    | none => rfl
    | some Ts =>
      exfalso
      obtain ⟨p, hp⟩ := cameras_fit env W H sp _ Ts hc 1 (by omega) (by rw [hN]; omega)
      unfold pairwise at hp
      by_cases h1 : 1 < p
      · rw [if_pos h1, Option.isSome_map] at hp
        unfold pairOrdered at hp
        cases hf : List.foldlM (pairStep (board W H sp) 1 p) (⟨none, none, none, [], []⟩ : PairSt) ([(0, 1), (0, 0), (1, 1), (1, 0)].map fun fc => exSee fc.1 fc.2) with
        | none => rw [hf] at hp; cases hp
        | some s =>
          rw [hf] at hp
          dsimp only at hp
          have := pairFold_absent _ 1 p _ (by simp [exSee]; omega) _ _ hf
          rw [this, procrustes_empty] at hp
          cases hp
      · rw [if_neg h1] at hp
        by_cases h2 : p = 1
        · rw [if_pos h2] at hp; cases hp
        · rw [if_neg h2] at hp
          obtain rfl : p = 0 := by omega
          unfold pairOrdered at hp
          simp [pairStep, newFrame, exSee, procrustes_empty] at hp
  · rw [hN] at hc
    rcases Nat.eq_zero_or_pos c with rfl | hp
    · exact .zero
    · obtain rfl : c = 1 := by omega
      exact .step .zero (by rw [hN]; omega) (by rw [hN]; omega) (by omega) (by unfold sharedFrames; rw [framesOf_rows, framesOf_rows]; decide)

end Mrcal.Seed

import Verif.Model.PointPose
import Verif.Props.PnpProps
/-
C134: the pose of a camera from observations of fixed points
-/
namespace Mrcal.PointPose
open Mrcal Mrcal.Pnp Mrcal.Pose Mrcal.Cam Mrcal.Seed

/-- the observations of a camera -/
def theirs (icam : Int) (rows : List Obs) : List Obs := rows.filter fun o => decide (o.cami = icam)

theorem pyGet_one {β : Type} (x : β) (i : Int) : pyGet [x] i = if i = 0 ∨ i = -1 then some x else none := by
  unfold pyGet
  by_cases h0 : i = 0
  · subst h0; simp
  by_cases h1 : i = -1
  · subst h1; simp
  rw [if_neg (show ¬ (i = 0 ∨ i = -1) by tauto)]
  by_cases hp : 0 ≤ i
  · rw [if_pos hp]
    simp; omega
  · rw [if_neg hp, if_neg]
    simp; omega

theorem any_came (rows : List Obs) (c : Int) : (rows.any fun o => decide (o.came ≠ c)) = true ↔ ∃ o ∈ rows, o.came ≠ c := by
  simp

/-- C134: what's accepted, and what's returned: the observations can't have different extrinsics (even those of other cameras); at least 4 observations by this camera; exactly one lens, that has a core; all the observed points exist; and the
pose is that of these observations of these points, in order -/
theorem parts (solve : SolvePnP) (rows : List Obs) (lenses : List AnyLens) (points : List P3) (icam : Int) (T : Rt) :
    pointPose solve rows lenses points icam = some T ↔
      (∃ c, ∀ o ∈ rows, o.came = c) ∧ 4 ≤ (theirs icam rows).length ∧ (icam = 0 ∨ icam = -1) ∧
      ∃ lens pts, lenses = [some lens] ∧ ((theirs icam rows).mapM fun o => points[o.ipoint]?) = some pts ∧ fixedPoints solve lens pts ((theirs icam rows).map Obs.seen) = some T := by
  unfold theirs pointPose
  cases rows with
  | nil => simp
  | cons o0 rest =>
    dsimp only
    by_cases h1 : ((o0 :: rest).any fun o => decide (o.came ≠ o0.came)) = true
    · rw [if_pos h1]
      simp only [reduceCtorEq, false_iff]
      rintro ⟨⟨c, hc⟩, -⟩
      obtain ⟨o, ho, hne⟩ := (any_came _ _).1 h1
      exact hne ((hc o ho).trans (hc o0 (by simp)).symm)
    rw [if_neg h1]
    have hc : ∃ c, ∀ o ∈ o0 :: rest, o.came = c := by
      refine ⟨o0.came, fun o ho => ?_⟩
      by_contra hne
      exact h1 ((any_came _ _).2 ⟨o, ho, hne⟩)
    by_cases h2 : ((o0 :: rest).filter fun o => decide (o.cami = icam)).length < 4
    · rw [if_pos h2]
      simp only [reduceCtorEq, false_iff]
      rintro ⟨-, h, -⟩
      omega
    rw [if_neg h2]
    by_cases h3 : lenses.length ≠ 1
    · rw [if_pos h3]
      simp only [reduceCtorEq, false_iff]
      rintro ⟨-, -, -, lens, pts, rfl, -⟩
      simp at h3
    rw [if_neg h3]
    push Not at h3
    obtain ⟨l, rfl⟩ := List.length_eq_one_iff.1 h3
    cases l with
    | none => simp
    | some lens =>
      rw [if_neg (by simp), pyGet_one]
      by_cases hi : icam = 0 ∨ icam = -1
      · rw [if_pos hi]
        cases hp : ((o0 :: rest).filter fun o => decide (o.cami = icam)).mapM fun o => points[o.ipoint]? with
        | none => simp
        | some pts =>
          dsimp only
          constructor
          · intro h
            exact ⟨hc, by omega, hi, lens, pts, rfl, rfl, h⟩
          · rintro ⟨-, -, -, lens', pts', e, e', h⟩
            simp only [List.cons.injEq, Option.some.injEq, and_true] at e e'
            subst e; subst e'
            exact h
      · rw [if_neg hi]
        simp only [reduceCtorEq, false_iff]
        tauto

/-- C134: only the observations of this camera matter: those of others don't, if none of them moves -/
theorem others_ignored (solve : SolvePnP) (rows rows' : List Obs) (lenses : List AnyLens) (points : List P3) (icam : Int) (h : theirs icam rows = theirs icam rows')
    (hc : ∃ c, ∀ o ∈ rows, o.came = c) (hc' : ∃ c, ∀ o ∈ rows', o.came = c) : pointPose solve rows lenses points icam = pointPose solve rows' lenses points icam := by
  apply Option.ext
  intro T
  rw [parts, parts, h]
  tauto

/-- one that's seen by another camera doesn't matter -/
example (solve : SolvePnP) (o o' : Obs) (lenses : List AnyLens) (points : List P3) (h : o'.cami = 1) (hc : o'.came = o.came) : pointPose solve [o, o', o, o, o, o, o] lenses points 0 = pointPose solve [o, o, o, o, o, o] lenses points 0 := by
  refine others_ignored _ _ _ _ _ _ ?_ ⟨o.came, ?_⟩ ⟨o.came, ?_⟩
  · simp [theirs, List.filter_cons, h]
  · simp [hc]
  · simp

theorem mapM_zip (points : List P3) : ∀ (l : List Obs) (pts : List P3), (l.mapM fun o => points[o.ipoint]?) = some pts →
    pts.length = l.length ∧ ∀ po, po ∈ List.zip pts (l.map Obs.seen) ↔ ∃ o ∈ l, points[o.ipoint]? = some po.1 ∧ o.seen = po.2 := by
  intro l
  induction l with
  | nil =>
    intro pts h
    have : pts = [] := by simpa using h.symm
    subst this; simp
  | cons o l ih =>
    intro pts h
    rw [List.mapM_cons] at h
    obtain ⟨p, hp, h⟩ := Option.bind_eq_some_iff.1 h
    obtain ⟨ps, hps, h⟩ := Option.bind_eq_some_iff.1 h
    have : pts = p :: ps := by simpa using h.symm
    subst this
    obtain ⟨i1, i2⟩ := ih ps hps
    refine ⟨by simp [i1], fun po => ?_⟩
    obtain ⟨a, b⟩ := po
    simp only [List.map_cons, List.zip_cons_cons, List.mem_cons, i2, Prod.mk.injEq, exists_eq_or_imp, hp, Option.some.injEq]
    constructor
    · rintro (⟨rfl, rfl⟩ | h)
      · exact Or.inl ⟨rfl, rfl⟩
      · exact Or.inr h
    · rintro (⟨rfl, rfl⟩ | h)
      · exact Or.inl ⟨rfl, rfl⟩
      · exact Or.inr h

/-- a pose explains the observations of a camera: each point with a weight is in front of the camera, in the direction in which it's observed -/
def Explains (lens : PnpLens) (points : List P3) (l : List Obs) (T : Rt) : Prop :=
  ∀ o ∈ l, 0 < o.seen.weight → ∀ p, points[o.ipoint]? = some p → 0 < (tr T p).z ∧ ∃ v s, lens.unproject o.seen.q = some v ∧ s ≠ 0 ∧ ScaledBy s (tr T p) v

theorem sees_iff (lens : PnpLens) (points : List P3) (l : List Obs) (pts : List P3) (h : (l.mapM fun o => points[o.ipoint]?) = some pts) (T : Rt) :
    SeesAll lens pts (l.map Obs.seen) T ↔ Explains lens points l T := by
  obtain ⟨_, hz⟩ := mapM_zip points l pts h
  constructor
  · intro hs o ho hw p hp
    exact hs (p, o.seen) ((hz _).2 ⟨o, ho, hp, rfl⟩) hw
  · intro he po hpo hw
    obtain ⟨o, ho, hp, e⟩ := (hz po).1 hpo
    rw [← e] at hw ⊢
    exact he o ho hw po.1 hp

theorem weighted_length (points : List P3) : ∀ (l : List Obs) (pts : List P3), (l.mapM fun o => points[o.ipoint]?) = some pts →
    (weighted pts (l.map Obs.seen)).length = (l.filter fun o => by classical exact decide (0 < o.seen.weight)).length := by
  classical
  intro l
  induction l with
  | nil =>
    intro pts h
    have : pts = [] := by simpa using h.symm
    subst this; simp [weighted]
  | cons o l ih =>
    intro pts h
    rw [List.mapM_cons] at h
    obtain ⟨p, hp, h⟩ := Option.bind_eq_some_iff.1 h
    obtain ⟨ps, hps, h⟩ := Option.bind_eq_some_iff.1 h
    have : pts = p :: ps := by simpa using h.symm
    subst this
    have := ih ps hps
    unfold weighted at this ⊢
    simp only [List.map_cons, List.zip_cons_cons, List.filter_cons]
    by_cases hw : 0 < o.seen.weight
    · simp only [hw, decide_true, if_true, List.length_cons]
      rw [this]
    · simp only [hw, decide_false, Bool.false_eq_true, if_false]
      exact this

theorem rows_le (lens : PnpLens) (s : ℝ) (pts : List P3) (obs : List Seen) : (rows lens s pts obs).length ≤ (weighted pts obs).length := by
  classical
  unfold rows weighted
  induction List.zip pts obs with
  | nil => simp
  | cons a l ih =>
    rw [List.filterMap_cons, List.filter_cons]
    by_cases hw : 0 < a.2.weight
    · simp only [hw, if_true, decide_true]
      cases toPinhole lens s a.2.q with
      | none => simp only [Option.map_none, List.length_cons]; omega
      | some q => simp only [Option.map_some, List.length_cons]; omega
    · simp only [hw, if_false, decide_false, Bool.false_eq_true]
      exact ih

/-- C134: at least 6 observations of this camera with a weight are needed -/
theorem six_needed (solve : SolvePnP) (rows : List Obs) (lenses : List AnyLens) (points : List P3) (icam : Int) (T : Rt) (h : pointPose solve rows lenses points icam = some T) :
    6 ≤ ((theirs icam rows).filter fun o => by classical exact decide (0 < o.seen.weight)).length := by
  obtain ⟨_, _, _, lens, pts, _, hp, hf⟩ := (parts _ _ _ _ _ _).1 h
  rw [← weighted_length points _ pts hp]
  by_contra hlt
  push Not at hlt
  have few : ∀ s, tryScale solve lens pts ((theirs icam rows).map Obs.seen) s = .toofew := by
    intro s
    unfold tryScale
    dsimp only
    rw [if_pos (lt_of_le_of_lt (rows_le ..) hlt)]
  unfold fixedPoints at hf
  rw [few 1] at hf
  dsimp only at hf
  rw [few] at hf
  cases hf

/-- C134, partial: if the observations are exact, and no other pose explains them, then the pose is the true one, or it's an error that solvePnP() reported. What's missing: the origin of the points has to be in front of the camera (`h0`), see
`behind_wrong` -/
theorem exact_partial (solve : SolvePnP) (hs : SolvesPnP solve) (obs : List Obs) (lens : PnpLens) (points : List P3) (rt : RtV) (T : Rt) (h : pointPose solve obs [some lens] points 0 = some T)
    (hx : Explains lens points (theirs 0 obs) (Rt_from_rt rt)) (h0 : 0 < rt.t.z)
    (hu : ∀ rt', (∀ o ∈ theirs 0 obs, 0 < o.seen.weight → ∀ p, points[o.ipoint]? = some p → 0 < (tr (Rt_from_rt rt') p).z ∧ (pinhole lens.core (tr (Rt_from_rt rt') p)).q = (pinhole lens.core (tr (Rt_from_rt rt) p)).q) →
      Rt_from_rt rt' = Rt_from_rt rt) : T = Rt_from_rt rt := by
  classical
  have h6 := six_needed _ _ _ _ _ _ h
  obtain ⟨_, _, _, lens', pts, e, hp, hf⟩ := (parts _ _ _ _ _ _).1 h
  simp only [List.cons.injEq, Option.some.injEq, and_true] at e
  subst e
  have hsee := (sees_iff lens points _ pts hp (Rt_from_rt rt)).2 hx
  obtain ⟨_, hz⟩ := mapM_zip points _ pts hp
  rw [← weighted_length points _ pts hp] at h6
  generalize (theirs 0 obs).map Obs.seen = seen at hf hsee hz h6
  have hrows := rows_exact lens pts seen (Rt_from_rt rt) hsee
  have hcore : (⟨lens.core.fx * 1, lens.core.fy * 1, lens.core.cx, lens.core.cy⟩ : Core) = lens.core := by simp
  have e1 : (rows lens 1 pts seen).map Prod.fst = (weighted pts seen).map Prod.fst := by rw [hrows, List.map_map]; rfl
  have e2 : (rows lens 1 pts seen).map Prod.snd = ((weighted pts seen).map Prod.fst).map fun p => (pinhole lens.core (tr (Rt_from_rt rt) p)).q := by rw [hrows, List.map_map, List.map_map]; rfl
  have hfront : ∀ p ∈ (weighted pts seen).map Prod.fst, 0 < (tr (Rt_from_rt rt) p).z := by
    intro p hpm
    obtain ⟨po, hpo, rfl⟩ := List.mem_map.mp hpm
    unfold weighted at hpo
    obtain ⟨m1, m2⟩ := List.mem_filter.mp hpo
    exact (hsee po m1 (of_decide_eq_true m2)).1
  have hsol : ∀ guess out, solve ((weighted pts seen).map Prod.fst) (((weighted pts seen).map Prod.fst).map fun p => (pinhole lens.core (tr (Rt_from_rt rt) p)).q) lens.core guess = some out →
      Rt_from_rt out = Rt_from_rt rt := by
    intro guess out hout
    have hrep : Reproduces lens.core ((weighted pts seen).map Prod.fst) (((weighted pts seen).map Prod.fst).map fun p => (pinhole lens.core (tr (Rt_from_rt rt) p)).q) rt := by
      have := forall2_map (fun p q => (tr (Rt_from_rt rt) p).z ≠ 0 ∧ (pinhole lens.core (tr (Rt_from_rt rt) p)).q = q) (fun p => p) (fun p => (pinhole lens.core (tr (Rt_from_rt rt) p)).q) ((weighted pts seen).map Prod.fst)
        (fun p hp => ⟨(hfront p hp).ne', rfl⟩)
      rwa [List.map_id'] at this
    obtain ⟨k1, k2⟩ := hs _ _ _ _ rt out hrep hout
    have k2 := k2 hfront
    have k3 : ∀ p ∈ (weighted pts seen).map Prod.fst, (tr (Rt_from_rt out) p).z ≠ 0 ∧ (pinhole lens.core (tr (Rt_from_rt out) p)).q = (pinhole lens.core (tr (Rt_from_rt rt) p)).q := by
      refine forall2_of_map (fun p q => (tr (Rt_from_rt out) p).z ≠ 0 ∧ (pinhole lens.core (tr (Rt_from_rt out) p)).q = q) (fun p => p) (fun p => (pinhole lens.core (tr (Rt_from_rt rt) p)).q) _ ?_
      rw [List.map_id']; exact k1
    apply hu
    intro o ho hw p hpp
    have hm : p ∈ (weighted pts seen).map Prod.fst := by
      refine List.mem_map.2 ⟨(p, o.seen), ?_, rfl⟩
      unfold weighted
      exact List.mem_filter.2 ⟨(hz _).2 ⟨o, ho, hpp, rfl⟩, decide_eq_true hw⟩
    exact ⟨k2 p hm, (k3 p hm).2⟩
  unfold fixedPoints tryScale at hf
  simp only [hcore, e1, e2] at hf
  rw [if_neg (by rw [hrows, List.length_map]; omega)] at hf
  cases hout : solve ((weighted pts seen).map Prod.fst) (((weighted pts seen).map Prod.fst).map fun p => (pinhole lens.core (tr (Rt_from_rt rt) p)).q) lens.core none with
  | none => rw [hout] at hf; cases hf
  | some out =>
    rw [hout] at hf
    have heq := hsol none out hout
    have ht : out.t = rt.t := congrArg Rt.t heq
    dsimp only at hf
    rw [if_neg (by rw [ht]; linarith)] at hf
    simp only [Option.some.injEq] at hf
    rw [← hf, heq]

/-- points in a plane have only one explanation: if 4 of those that have a weight are in general position, and the camera isn't in that plane -/
theorem unique_planar (k : Core) (hx : k.fx ≠ 0) (hy : k.fy ≠ 0) (points : List P3) (hp : ∀ p ∈ points, p.z = 0) (l : List Obs) (rt rt' : RtV) (ho : OffPlane (Rt_from_rt rt)) (w : List P3)
    (hw : ∀ p ∈ w, ∃ o ∈ l, 0 < o.seen.weight ∧ points[o.ipoint]? = some p) (h4 : FourPoints w) (hf : ∀ p ∈ w, 0 < (tr (Rt_from_rt rt) p).z)
    (h : ∀ o ∈ l, 0 < o.seen.weight → ∀ p, points[o.ipoint]? = some p → 0 < (tr (Rt_from_rt rt') p).z ∧ (pinhole k (tr (Rt_from_rt rt') p)).q = (pinhole k (tr (Rt_from_rt rt) p)).q) : Rt_from_rt rt' = Rt_from_rt rt := by
  have h3 : ∀ p ∈ w, 0 < (tr (Rt_from_rt rt') p).z ∧ (pinhole k (tr (Rt_from_rt rt') p)).q = (pinhole k (tr (Rt_from_rt rt) p)).q := by
    intro p hpw
    obtain ⟨o, ho, hwt, e⟩ := hw p hpw
    exact h o ho hwt p e
  have hl : ∀ p ∈ w, p.z = 0 := by
    intro p hpw
    obtain ⟨o, ho, hwt, e⟩ := hw p hpw
    exact hp p (List.mem_of_getElem? e)
  have hrot : ∀ x : RtV, IsRot (Rt_from_rt x).R := fun x => R_from_r_rot x.r
  rcases pose_unique (Rt_from_rt rt) (Rt_from_rt rt') (hrot _) (hrot _) ho w hl h4 (fun p hp => ⟨_, pinhole_ray k hx hy _ _ (hf p hp).ne' (h3 p hp).1.ne' (h3 p hp).2.symm⟩) with hm | hm
  · obtain ⟨a, ha, -⟩ := h4
    have k1 := hm a ha
    have k2 := (h3 a ha).1
    have k3 := hf a ha
    linarith
  · exact hm

/-! ### concrete -/

/-- a pinhole lens; all the points are seen in exactly the right place by a camera at the pose `T` -/
noncomputable def plens : PnpLens := ⟨⟨1, 1, 0, 0⟩, fun q => some ⟨q.x, q.y, 1⟩⟩

/-- 6 points -/
def pts6 (z : ℝ) : List P3 := [⟨0, 0, z⟩, ⟨10, 0, z⟩, ⟨0, 10, z⟩, ⟨10, 10, z⟩, ⟨-10, 0, z⟩, ⟨0, -10, z⟩]

/-- a camera that looks along z and is at (0,0,c) -/
def at_z (c : ℝ) : Rt := ⟨⟨1, 0, 0, 0, 1, 0, 0, 0, 1⟩, ⟨0, 0, -c⟩⟩

/-- what it sees if the points are at a distance `d` -/
noncomputable def seen6 (d : ℝ) : List Obs :=
  [⟨0, 0, -1, ⟨⟨0, 0⟩, 1⟩⟩, ⟨1, 0, -1, ⟨⟨10 / d, 0⟩, 1⟩⟩, ⟨2, 0, -1, ⟨⟨0, 10 / d⟩, 1⟩⟩, ⟨3, 0, -1, ⟨⟨10 / d, 10 / d⟩, 1⟩⟩, ⟨4, 0, -1, ⟨⟨-10 / d, 0⟩, 1⟩⟩,
    ⟨5, 0, -1, ⟨⟨0, -10 / d⟩, 1⟩⟩]

theorem theirs6 (d : ℝ) : theirs 0 (seen6 d) = seen6 d := by simp [theirs, seen6]

theorem explains6 (c d : ℝ) (hd : 0 < d) : Explains plens (pts6 (c + d)) (theirs 0 (seen6 d)) (at_z c) := by
  rw [theirs6]
  intro o ho _ p hp
  have hne : d ≠ 0 := by linarith
  simp only [seen6, List.mem_cons, List.not_mem_nil, or_false] at ho
  rcases ho with rfl | rfl | rfl | rfl | rfl | rfl <;>
  · simp only [pts6, List.getElem?_cons_zero, List.getElem?_cons_succ, Option.some.injEq] at hp
    subst hp
    refine ⟨by simp [tr, at_z, transformPointRt, rotatePointR, mulVec, addP]; linarith, _, 1 / d, rfl, by positivity, ?_⟩
    simp [ScaledBy, tr, at_z, transformPointRt, rotatePointR, mulVec, addP]
    try constructor
    all_goals (try field_simp)
    all_goals (try ring)

theorem at_rt : Rt_from_rt ⟨⟨0, 0, 0⟩, ⟨0, 0, 10⟩⟩ = at_z (-10) := by
  have : R_from_r ⟨0, 0, 0⟩ = identityR := (R_from_r_meaning ⟨0, 0, 0⟩).2 (by simp [mag3]; unfold dblEpsilon; positivity)
  simp [Rt_from_rt, this, at_z, identityR]

/-- the hypotheses of `exact_partial` are met by 6 points in a plane at a distance of 10 -/
example (solve : SolvePnP) (hs : SolvesPnP solve) (T : Rt) (h : pointPose solve (seen6 10) [some plens] (pts6 0) 0 = some T) : T = at_z (-10) := by
  have hx := explains6 (-10) 10 (by norm_num)
  rw [show (-10 : ℝ) + 10 = 0 by norm_num] at hx
  rw [← at_rt]
  rw [← at_rt] at hx
  have hmem : ∀ p ∈ pts6 0, ∃ o ∈ theirs 0 (seen6 10), 0 < o.seen.weight ∧ (pts6 0)[o.ipoint]? = some p := by
    rw [theirs6]
    intro p hp
    simp only [pts6, List.mem_cons, List.not_mem_nil, or_false] at hp
    simp only [seen6, List.mem_cons, List.not_mem_nil, or_false, exists_eq_or_imp, exists_eq_left, pts6]
    rcases hp with rfl | rfl | rfl | rfl | rfl | rfl <;> simp
  refine exact_partial solve hs _ _ _ _ T h hx (by norm_num) fun rt' hr => ?_
  refine unique_planar plens.core (by simp [plens]) (by simp [plens]) (pts6 0) ?_ _ _ rt' ?_ (pts6 0) hmem ?_ ?_ hr
  · intro p hp
    simp only [pts6, List.mem_cons, List.not_mem_nil, or_false] at hp
    rcases hp with rfl | rfl | rfl | rfl | rfl | rfl <;> rfl
  · rw [at_rt]
    simp [OffPlane, tr, at_z, transformPointRt, rotatePointR, mulVec, addP, invertRt, transpose]
  · refine ⟨⟨0, 0, 0⟩, by simp [pts6], ⟨10, 0, 0⟩, by simp [pts6], ⟨0, 10, 0⟩, by simp [pts6], ⟨10, 10, 0⟩, by simp [pts6], ?_, ?_, ?_, ?_⟩ <;> norm_num [area]
  · intro p hp
    obtain ⟨o, ho, hw, e⟩ := hmem p hp
    exact (hx o ho hw p e).1

/-- C134, negation: a camera that has passed the origin of the points has all the points in front of it, and is never found: the code thinks that the points are behind the camera if their origin is -/
theorem behind_wrong (solve : SolvePnP) : Explains plens (pts6 10) (theirs 0 (seen6 9)) (at_z 1) ∧ pointPose solve (seen6 9) [some plens] (pts6 10) 0 ≠ some (at_z 1) := by
  refine ⟨?_, fun h => ?_⟩
  · have := explains6 1 9 (by norm_num)
    rwa [show (1 : ℝ) + 9 = 10 by norm_num] at this
  obtain ⟨_, _, _, lens, pts, _, _, hf⟩ := (parts _ _ _ _ _ _).1 h
  have := pose_front _ _ _ _ _ hf
  simp [at_z] at this
  linarith

/-- C134, negation: "Any point where x<0 or y<0 or weight<0 is ignored": points with x<0 or y<0 are used. There are 4 others here, and these aren't enough -/
theorem negative_wrong : ∃ solve : SolvePnP, (pointPose solve (seen6 10) [some plens] (pts6 0) 0).isSome ∧
    pointPose solve ((seen6 10).filter fun o => by classical exact decide (0 ≤ o.seen.q.x ∧ 0 ≤ o.seen.q.y)) [some plens] (pts6 0) 0 = none := by
  classical
  refine ⟨fun _ _ _ _ => some ⟨⟨0, 0, 0⟩, ⟨0, 0, 1⟩⟩, ?_, ?_⟩
  · rw [Option.isSome_iff_exists]
    refine ⟨Rt_from_rt ⟨⟨0, 0, 0⟩, ⟨0, 0, 1⟩⟩, (parts _ _ _ _ _ _).2 ⟨⟨-1, ?_⟩, ?_, Or.inl rfl, plens, pts6 0, rfl, ?_, ?_⟩⟩
    · intro o ho
      simp only [seen6, List.mem_cons, List.not_mem_nil, or_false] at ho
      rcases ho with rfl | rfl | rfl | rfl | rfl | rfl <;> rfl
    · rw [theirs6]; simp [seen6]
    · rw [theirs6]; simp [seen6, pts6]
    · rw [theirs6]
      have hl : (rows plens 1 (pts6 0) ((seen6 10).map Obs.seen)).length = 6 := by
        simp [rows, seen6, pts6, toPinhole, plens]
      unfold fixedPoints tryScale
      dsimp only
      rw [if_neg (by omega), if_neg (by norm_num)]
  · by_contra hne
    obtain ⟨T, hT⟩ := Option.ne_none_iff_exists'.1 hne
    have := six_needed _ _ _ _ _ _ hT
    have h1 := List.length_filter_le (fun o : Obs => decide (0 < o.seen.weight)) (theirs 0 ((seen6 10).filter fun o => decide (0 ≤ o.seen.q.x ∧ 0 ≤ o.seen.q.y)))
    have h2 : (theirs 0 ((seen6 10).filter fun o => decide (0 ≤ o.seen.q.x ∧ 0 ≤ o.seen.q.y))).length ≤ ((seen6 10).filter fun o => decide (0 ≤ o.seen.q.x ∧ 0 ≤ o.seen.q.y)).length := List.length_filter_le ..
    have h3 : ((seen6 10).filter fun o => decide (0 ≤ o.seen.q.x ∧ 0 ≤ o.seen.q.y)).length = 4 := by
      simp [seen6, List.filter_cons]
    omega

end Mrcal.PointPose

import Verif.Props.ModelDiffExample
import Verif.Props.ImageTransformProps
import Verif.Props.UnprojectPyProps
import Verif.Props.TriPyDb
/-
C96: projection_diff(): what the reported differences mean.
-/
namespace Mrcal.ModelDiff
open Mrcal Mrcal.Cam Mrcal.Pose Mrcal.ImageTransform

/-! ### Specification -/

/-- the unit vector that unproject() reports for a pixel -/
def Ray (env : Env) (m : Model) (q : P2) (v : P3) : Prop :=
  mag3 v = 1 ∧ UnprojectPy.unproject m.lens m.intr env.solve env.prev true q = some (NanP3.of v)
/-- a usable camera: the pose is a rotation and a translation, the lens model is supported and central, the focal lengths aren't 0 -/
structure Usable (m : Model) : Prop where
  rot : IsRot m.pose.R
  valid : ValidLens m.lens
  central : isCahvore m.lens = false
  fx : m.intr 0 ≠ 0
  fy : m.intr 1 ≠ 0
/-- the entry of an array: the distance k, the pixel i -/
def entryAt {α : Type} (rows : List (List α)) (k i : Nat) : Option α := (rows[k]?).bind (·[i]?)
def subQ (a b : P2) : P2 := ⟨a.x - b.x, a.y - b.y⟩
noncomputable def lenQ (a : P2) : ℝ := Real.sqrt (a.x ^ 2 + a.y ^ 2)

/-! ### helpers: the rays -/

theorem unstereographic_ne (k : Core) (u : P2) : mag3 (unstereographic k u).v ≠ 0 := by
  intro h
  have hs := mag3_sq (unstereographic k u).v
  rw [h] at hs
  obtain ⟨a, ha⟩ : ∃ a, a = (u.x - k.cx) * (1 / k.fx) := ⟨_, rfl⟩
  obtain ⟨b, hb⟩ : ∃ b, b = (u.y - k.cy) * (1 / k.fy) := ⟨_, rfl⟩
  have e : (unstereographic k u).v = ⟨a, b, 1 - 1 / 4 * (a * a + b * b)⟩ := by rw [ha, hb]; rfl
  rw [e] at hs
  dsimp only at hs
  nlinarith [mul_self_nonneg a, mul_self_nonneg b, mul_self_nonneg (a * a + b * b), sq_nonneg (1 + 1 / 4 * (a * a + b * b))]

theorem pix_normalized (L : Lens) (hc : isCahvore L = false) (intr : Int → ℝ) (v : P3) (h : mag3 v ≠ 0) : pix L intr (UnprojectPy.normalized v) = pix L intr v := by
  have h0 : 0 < mag3 v := lt_of_le_of_ne (mag3_nonneg v) h.symm
  have e : UnprojectPy.normalized v = ⟨(1 / mag3 v) * v.x, (1 / mag3 v) * v.y, (1 / mag3 v) * v.z⟩ := by
    unfold UnprojectPy.normalized
    simp only [UnprojectPy.mag_eq]
    ext <;> simp only <;> ring
  rw [e]
  refine pix_scale L (fun lin hl => ?_) intr v _ (by positivity)
  rw [hl] at hc
  exact absurd hc (by simp [isCahvore])

/-- a central camera: each pixel gives a vector. It's a unit vector that projects to the pixel, or it's 0: no vector was found -/
theorem ray_cases (env : Env) (hs : SolverReports env.solve) (m : Model) (hm : Usable m) (q : P2) :
    ∃ v, UnprojectPy.unproject m.lens m.intr env.solve env.prev true q = some (NanP3.of v) ∧
      (v = ⟨0, 0, 0⟩ ∧ isDirect m.lens = false ∨ mag3 v = 1 ∧ (isDirect m.lens = false → dist2 (pix m.lens m.intr v) q ≤ 2e-4) ∧
        (isDirect m.lens = true → DirectRange m.lens m.intr q → pix m.lens m.intr v = q)) := by
  obtain ⟨-, hv, hc, hfx, hfy⟩ := hm
  generalize m.lens = L at *
  generalize m.intr = intr at *
  have direct : ∀ (f : Core → P2 → Unproj), isDirect L = true → mag3 (f (coreOf intr) q).v ≠ 0 → (DirectRange L intr q → pix L intr (f (coreOf intr) q).v = q) →
      UnprojectPy.unproject L intr env.solve env.prev true q = some (NanP3.of (UnprojectPy.normalized (f (coreOf intr) q).v)) →
      ∃ v, UnprojectPy.unproject L intr env.solve env.prev true q = some (NanP3.of v) ∧
      (v = ⟨0, 0, 0⟩ ∧ isDirect L = false ∨ mag3 v = 1 ∧ (isDirect L = false → dist2 (pix L intr v) q ≤ 2e-4) ∧ (isDirect L = true → DirectRange L intr q → pix L intr v = q)) := by
    intro f hd hm hp hu
    refine ⟨_, hu, Or.inr ⟨UnprojectPy.normalized_mag _ hm, fun h => by rw [hd] at h; exact absurd h (by simp), fun _ hr => ?_⟩⟩
    rw [pix_normalized L hc intr _ hm, hp hr]
  have unitv : ∀ v, mag3 v = 1 → UnprojectPy.normalized v = v := by
    intro v h
    unfold UnprojectPy.normalized
    simp only [UnprojectPy.mag_eq, h, div_one]
  have loop : isDirect L = false → UnprojectPy.direct L = none → UnprojectPy.npspUnproject L intr env.solve q env.prev = some (unprojectOne L intr env.solve q env.prev) →
      ∃ v, UnprojectPy.unproject L intr env.solve env.prev true q = some (NanP3.of v) ∧
      (v = ⟨0, 0, 0⟩ ∧ isDirect L = false ∨ mag3 v = 1 ∧ (isDirect L = false → dist2 (pix L intr v) q ≤ 2e-4) ∧ (isDirect L = true → DirectRange L intr q → pix L intr v = q)) := by
    intro hd hd' hn
    have hu : UnprojectPy.unproject L intr env.solve env.prev true q = some (match UnprojectPy.finite (unprojectOne L intr env.solve q env.prev) with
        | some v => NanP3.of (UnprojectPy.normalized v) | none => NanP3.of ⟨0, 0, 0⟩) := by
      unfold UnprojectPy.unproject
      rw [hd', hn]
      rfl
    have fin : ∀ w, mag3 w ≠ 0 → dist2 (pix L intr w) q ≤ 2e-4 → unprojectOne L intr env.solve q env.prev = NanP3.of w → ∃ v, UnprojectPy.unproject L intr env.solve env.prev true q = some (NanP3.of v) ∧
      (v = ⟨0, 0, 0⟩ ∧ isDirect L = false ∨ mag3 v = 1 ∧ (isDirect L = false → dist2 (pix L intr v) q ≤ 2e-4) ∧ (isDirect L = true → DirectRange L intr q → pix L intr v = q)) := by
      intro w hw hdist he
      refine ⟨UnprojectPy.normalized w, by rw [hu, he]; rfl, Or.inr ⟨UnprojectPy.normalized_mag _ hw, fun _ => by rw [pix_normalized L hc intr _ hw]; exact hdist, fun h => by rw [hd] at h; exact absurd h (by simp)⟩⟩
    rcases one_cases L hv intr env.solve hs q env.prev with h | ⟨w, ⟨u, hwu⟩, hdist, h | h⟩
    · refine ⟨⟨0, 0, 0⟩, ?_, Or.inl ⟨rfl, hd⟩⟩
      rw [hu]
      have : UnprojectPy.finite (unprojectOne L intr env.solve q env.prev) = none := by
        unfold UnprojectPy.finite
        rw [h.1]
      rw [this]
    · exact fin w (by rw [hwu]; exact unstereographic_ne _ _) hdist h.1
    · refine fin _ ?_ ?_ h.1
      · have : mag3 ⟨w.x * -1.0, w.y * -1.0, w.z * -1.0⟩ = mag3 w := by unfold mag3; congr 1; norm_num
        rw [this, hwu]; exact unstereographic_ne _ _
      · rw [pix_neg L h.2.1 hc]; exact hdist
  have npsp : isDirect L = false → UnprojectPy.npspUnproject L intr env.solve q env.prev = some (unprojectOne L intr env.solve q env.prev) := by
    intro hd
    unfold UnprojectPy.npspUnproject mrcalUnproject
    rw [(asserts_iff L).mpr hv, loop_result L hd hc]
    rfl
  cases L with
  | pinhole =>
    refine direct unpinhole rfl ?_ (fun _ => pinhole_roundtrip2 (coreOf intr) hfx hfy q) rfl
    intro h
    have := mag3_sq (unpinhole (coreOf intr) q).v
    rw [h] at this
    simp only [unpinhole] at this
    nlinarith [mul_self_nonneg ((q.x - (coreOf intr).cx) / (coreOf intr).fx), mul_self_nonneg ((q.y - (coreOf intr).cy) / (coreOf intr).fy)]
  | stereographic => exact direct unstereographic rfl (unstereographic_ne _ _) (fun _ => stereographic_roundtrip2 (coreOf intr) hfx hfy q) rfl
  | lonlat =>
    refine direct unlonlat rfl (by rw [unlonlat_unit]; norm_num) (fun h => lonlat_roundtrip2 (coreOf intr) hfx hfy q (h.1 rfl).1 (h.1 rfl).2) ?_
    rw [unitv _ (unlonlat_unit _ _)]
    rfl
  | latlon =>
    refine direct unlatlon rfl (by rw [unlatlon_unit]; norm_num) (fun h => latlon_roundtrip2 (coreOf intr) hfx hfy q (h.2 rfl).1 (h.2 rfl).2) ?_
    rw [unitv _ (unlatlon_unit _ _)]
    rfl
  | opencv4 => exact loop rfl rfl (npsp rfl)
  | opencv5 => exact loop rfl rfl (npsp rfl)
  | opencv8 => exact loop rfl rfl (npsp rfl)
  | opencv12 => exact loop rfl rfl (npsp rfl)
  | cahvor => exact loop rfl rfl (npsp rfl)
  | cahvore lin => exact absurd hc (by simp [isCahvore])
  | splined o nx ny f => exact loop rfl rfl (npsp rfl)

/-! ### helpers: the steps -/

theorem central_noncentral (L : Lens) (h : isCahvore L = false) : L.noncentral = false := by
  cases L <;> simp_all [isCahvore, Lens.noncentral]

theorem centralize_central (b c : Bool) (m : Model) (h : isCahvore m.lens = false) : centralize b c m = some m := by
  unfold centralize
  rw [if_neg]
  rw [central_noncentral _ h]
  simp

/-- everything that happens, if nothing raises an exception -/
theorem steps (env : Env) (m0 m1 : Model) (rest : List Model) (a : Args) (r : Result) (h : projectionDiff env (m0 :: m1 :: rest) a = some r) :
    (rest ≠ [] → a.impliedRt10 = none) ∧ (∀ m ∈ m1 :: rest, m.W = m0.W ∧ m.H = m0.H) ∧ ∃ c0 cs grid v0 vs Ts,
      centralize a.distance.atinfinity a.useUncertainties m0 = some c0 ∧ (m1 :: rest).mapM (centralize a.distance.atinfinity a.useUncertainties) = some cs ∧
      sampleImager a.gw a.gh m0.W m0.H = some grid ∧ unprojectAll c0 env.solve env.prev grid.flatten = some v0 ∧
      (cs.mapM fun c => unprojectAll c env.solve env.prev grid.flatten) = some vs ∧
      (((m1 :: rest).zip vs).mapM fun (m, v) => getRt10 env a grid.flatten m0.W m0.H m0 m v0 v) = some Ts ∧
      r = if rest.isEmpty then twoModels (diffsOf a grid.flatten v0 cs Ts) grid Ts else manyModels a (diffsOf a grid.flatten v0 cs Ts) grid Ts := by
  unfold projectionDiff at h
  dsimp only at h
  by_cases h1 : (!rest.isEmpty && a.impliedRt10.isSome) = true
  · rw [if_pos h1] at h; exact absurd h (by simp)
  rw [if_neg h1] at h
  by_cases h2 : (!((m1 :: rest).all fun m => decide (m.W = m0.W) && decide (m.H = m0.H))) = true
  · rw [if_pos h2] at h; exact absurd h (by simp)
  rw [if_neg h2] at h
  · obtain ⟨c0, e0, h⟩ := Option.bind_eq_some_iff.mp h
    obtain ⟨cs, e1, h⟩ := Option.bind_eq_some_iff.mp h
    obtain ⟨grid, e2, h⟩ := Option.bind_eq_some_iff.mp h
    obtain ⟨v0, e3, h⟩ := Option.bind_eq_some_iff.mp h
    obtain ⟨vs, e4, h⟩ := Option.bind_eq_some_iff.mp h
    obtain ⟨Ts, e5, h⟩ := Option.bind_eq_some_iff.mp h
    refine ⟨fun hr => ?_, fun m hm => ?_, c0, cs, grid, v0, vs, Ts, e0, e1, e2, e3, e4, e5, (Option.some.inj h).symm⟩
    · have hr' : rest.isEmpty = false := by cases rest <;> simp_all
      rw [hr'] at h1
      cases hi : a.impliedRt10 <;> simp_all
    · have h2 : ((m1 :: rest).all fun m => decide (m.W = m0.W) && decide (m.H = m0.H)) = true := by simpa using h2
      have := List.all_eq_true.mp h2 m hm
      simpa using this

theorem steps_conv (env : Env) (m0 m1 : Model) (rest : List Model) (a : Args) (c0 : Model) (cs : List Model) (grid : List (List P2)) (v0 : List NanP3) (vs : List (List NanP3)) (Ts : List Rt)
    (h1 : rest ≠ [] → a.impliedRt10 = none) (h2 : ∀ m ∈ m1 :: rest, m.W = m0.W ∧ m.H = m0.H)
    (e0 : centralize a.distance.atinfinity a.useUncertainties m0 = some c0) (e1 : (m1 :: rest).mapM (centralize a.distance.atinfinity a.useUncertainties) = some cs)
    (e2 : sampleImager a.gw a.gh m0.W m0.H = some grid) (e3 : unprojectAll c0 env.solve env.prev grid.flatten = some v0)
    (e4 : (cs.mapM fun c => unprojectAll c env.solve env.prev grid.flatten) = some vs)
    (e5 : (((m1 :: rest).zip vs).mapM fun (m, v) => getRt10 env a grid.flatten m0.W m0.H m0 m v0 v) = some Ts) :
    projectionDiff env (m0 :: m1 :: rest) a = some (if rest.isEmpty then twoModels (diffsOf a grid.flatten v0 cs Ts) grid Ts else manyModels a (diffsOf a grid.flatten v0 cs Ts) grid Ts) := by
  unfold projectionDiff
  dsimp only
  rw [if_neg, if_neg, e0, Option.bind_some, e1, Option.bind_some, e2, Option.bind_some, e3, Option.bind_some, e4, Option.bind_some, e5, Option.bind_some]
  · have : ((m1 :: rest).all fun m => decide (m.W = m0.W) && decide (m.H = m0.H)) = true := by
      rw [List.all_eq_true]
      intro m hm
      simp [h2 m hm]
    rw [this]
    simp
  · cases rest with
    | nil => simp
    | cons x l => rw [h1 (by simp)]; simp

theorem mapM_one {α β : Type} (f : α → Option β) (x : α) (r : List β) (h : [x].mapM f = some r) : ∃ y, f x = some y ∧ r = [y] := by
  have := TriPy.mapM_forall₂ f [x] h
  cases this with
  | cons h1 h2 =>
    cases h2
    exact ⟨_, h1, rfl⟩

theorem mapM_one_conv {α β : Type} (f : α → Option β) (x : α) (y : β) (h : f x = some y) : [x].mapM f = some [y] := by
  simp [h]

theorem unprojectAll_get (m : Model) (solve : Solver) (prev : NanP3) (qs : List P2) (vs : List NanP3) (h : unprojectAll m solve prev qs = some vs) :
    vs.length = qs.length ∧ ∀ (i : Nat) q, qs[i]? = some q → ∃ v, vs[i]? = some v ∧ UnprojectPy.unproject m.lens m.intr solve prev true q = some v := by
  have hf := TriPy.mapM_forall₂ _ _ h
  refine ⟨hf.length_eq.symm, fun i q hq => ?_⟩
  obtain ⟨hi, rfl⟩ := List.getElem?_eq_some_iff.mp hq
  have hi' : i < vs.length := by rw [← hf.length_eq]; exact hi
  exact ⟨vs[i], List.getElem?_eq_getElem hi', (List.forall₂_iff_get.mp hf).2 i hi hi'⟩

theorem two (env : Env) (m0 m1 : Model) (a : Args) (r : Result) (h : projectionDiff env [m0, m1] a = some r) :
    ∃ c0 c1 grid v0 v1 T, centralize a.distance.atinfinity a.useUncertainties m0 = some c0 ∧ centralize a.distance.atinfinity a.useUncertainties m1 = some c1 ∧
      sampleImager a.gw a.gh m0.W m0.H = some grid ∧ unprojectAll c0 env.solve env.prev grid.flatten = some v0 ∧ unprojectAll c1 env.solve env.prev grid.flatten = some v1 ∧
      getRt10 env a grid.flatten m0.W m0.H m0 m1 v0 v1 = some T ∧ r.q0 = grid ∧ r.Rt10 = [T] ∧
      r.diff = some (a.distance.values.map fun d => (grid.flatten.zip v0).map fun (q, v) => diffAt c1 T d q v) ∧
      r.difflen = a.distance.values.map fun d => (grid.flatten.zip v0).map fun (q, v) => (diffAt c1 T d q v).map fun d => Real.sqrt (norm2 d) := by
  obtain ⟨-, -, c0, cs, grid, v0, vs, Ts, e0, e1, e2, e3, e4, e5, e⟩ := steps env m0 m1 [] a r h
  obtain ⟨c1, e1', rfl⟩ := mapM_one _ _ _ e1
  obtain ⟨v1, e4', rfl⟩ := mapM_one _ _ _ e4
  obtain ⟨T, e5', rfl⟩ := mapM_one _ _ _ e5
  subst e
  refine ⟨c0, c1, grid, v0, v1, T, e0, e1', e2, e3, e4', e5', rfl, rfl, rfl, ?_⟩
  simp only [List.isEmpty_nil, if_true, twoModels, diffsOf, List.zip_cons_cons, List.zip_nil_right, List.map_cons, List.map_nil, List.headD_cons, List.map_map, Function.comp_def]

theorem entry_map {α : Type} (ds : List ℝ) (qs : List P2) (v0 : List NanP3) (f : ℝ → P2 → NanP3 → α) (k i : Nat) (d : ℝ) (q : P2) (v : NanP3) (hd : ds[k]? = some d) (hq : qs[i]? = some q)
    (hv : v0[i]? = some v) : entryAt (ds.map fun d => (qs.zip v0).map fun (q, v) => f d q v) k i = some (f d q v) := by
  unfold entryAt
  rw [List.getElem?_map, hd]
  have : (qs.zip v0)[i]? = some (q, v) := List.getElem?_zip_eq_some.mpr ⟨hq, hv⟩
  simp [this]

theorem scale_of (d : ℝ) (v : P3) : scale d (NanP3.of v) = NanP3.of (times d v) := by
  unfold scale NanP3.of times
  simp [mul_comm]

theorem diffAt_value (m1 : Model) (hv : ValidLens m1.lens) (T : Rt) (d : ℝ) (q : P2) (v : P3) (h : transformPointRt T (times d v) false ≠ ⟨0, 0, 0⟩) :
    diffAt m1 T d q (NanP3.of v) = some (subQ (sees m1 (transformPointRt T (times d v) false)) q) := by
  unfold diffAt transformN
  rw [scale_of]
  show ((projectN m1 (some _)).map _) = _
  unfold projectN
  rw [Option.bind_some, if_neg h, project1_pix m1 hv]
  rfl

theorem norm2_len (q : P2) : Real.sqrt (norm2 q) = lenQ q := by unfold norm2 lenQ; congr 1; ring

/-! ### C96 -/

/-- the distances that were asked for. At infinity, any will do: this is 1 -/
def distancesOf : Distance → List ℝ
  | .infinity => [1]
  | .scalar d => [d]
  | .many ds => ds

theorem values_eq (d : Distance) : d.values = distancesOf d := by cases d <;> rfl

/-- **C96**: two models: the reported difference, at each distance and at each pixel: the point at that distance along the ray of the first camera is transformed with the returned transformation, and projected to the
second camera: that's where the second camera sees it, minus the pixel in the first camera. The length is the length of that vector -/
theorem diff_meaning (env : Env) (m0 m1 : Model) (h0 : Usable m0) (h1 : Usable m1) (a : Args) (r : Result) (h : projectionDiff env [m0, m1] a = some r) :
    ∃ T diff, r.Rt10 = [T] ∧ r.diff = some diff ∧ diff.length = (distancesOf a.distance).length ∧ r.difflen.length = (distancesOf a.distance).length ∧
      (∀ row ∈ diff, row.length = r.q0.flatten.length) ∧ (∀ row ∈ r.difflen, row.length = r.q0.flatten.length) ∧
      ∀ (k i : Nat) d q v, (distancesOf a.distance)[k]? = some d → r.q0.flatten[i]? = some q → Ray env m0 q v → transformPointRt T (times d v) false ≠ ⟨0, 0, 0⟩ →
        entryAt diff k i = some (some (subQ (sees m1 (transformPointRt T (times d v) false)) q)) ∧
        entryAt r.difflen k i = some (some (lenQ (subQ (sees m1 (transformPointRt T (times d v) false)) q))) := by
  rw [← values_eq]
  obtain ⟨c0, c1, grid, v0, v1, T, e0, e1, e2, e3, e4, e5, eq, eT, ed, el⟩ := two env m0 m1 a r h
  rw [centralize_central _ _ _ h0.central] at e0
  rw [centralize_central _ _ _ h1.central] at e1
  cases e0
  cases e1
  obtain ⟨hlen, hget⟩ := unprojectAll_get _ _ _ _ _ e3
  subst eq
  refine ⟨T, _, eT, ed, by simp, by simp [el], ?_, ?_, ?_⟩
  · intro row hr
    obtain ⟨d, -, rfl⟩ := List.mem_map.mp hr
    simp [hlen]
  · intro row hr
    rw [el] at hr
    obtain ⟨d, -, rfl⟩ := List.mem_map.mp hr
    simp [hlen]
  · intro k i d q v hd hq hv hp
    obtain ⟨v', hv', hu⟩ := hget i q hq
    rw [hv.2] at hu
    cases hu
    rw [el]
    constructor
    · rw [entry_map _ _ _ _ k i d q _ hd hq hv', diffAt_value m1 h1.valid T d q v hp]
    · rw [entry_map _ _ _ (fun d q v => (diffAt m1 T d q v).map fun d => Real.sqrt (norm2 d)) k i d q _ hd hq hv', diffAt_value m1 h1.valid T d q v hp, Option.map_some, norm2_len]

theorem mapM_get {α β : Type} (f : α → Option β) (l : List α) (r : List β) (h : l.mapM f = some r) :
    r.length = l.length ∧ ∀ (i : Nat) x, l[i]? = some x → ∃ y, r[i]? = some y ∧ f x = some y := by
  have hf := TriPy.mapM_forall₂ _ _ h
  refine ⟨hf.length_eq.symm, fun i q hq => ?_⟩
  obtain ⟨hi, rfl⟩ := List.getElem?_eq_some_iff.mp hq
  have hi' : i < r.length := by rw [← hf.length_eq]; exact hi
  exact ⟨r[i], List.getElem?_eq_getElem hi', (List.forall₂_iff_get.mp hf).2 i hi hi'⟩

/-- the transformations, and the pixels -/
theorem transforms (env : Env) (m0 m1 : Model) (rest : List Model) (a : Args) (r : Result) (h : projectionDiff env (m0 :: m1 :: rest) a = some r) :
    r.Rt10.length = (m1 :: rest).length ∧ sampleImager a.gw a.gh m0.W m0.H = some r.q0 ∧ ∃ c0 v0, centralize a.distance.atinfinity a.useUncertainties m0 = some c0 ∧
      unprojectAll c0 env.solve env.prev r.q0.flatten = some v0 ∧
      ∀ (j : Nat) m, (m1 :: rest)[j]? = some m → ∃ c v1 T, centralize a.distance.atinfinity a.useUncertainties m = some c ∧
        unprojectAll c env.solve env.prev r.q0.flatten = some v1 ∧ r.Rt10[j]? = some T ∧ getRt10 env a r.q0.flatten m0.W m0.H m0 m v0 v1 = some T := by
  obtain ⟨-, -, c0, cs, grid, v0, vs, Ts, e0, e1, e2, e3, e4, e5, e⟩ := steps env m0 m1 rest a r h
  have eT : r.Rt10 = Ts := by rw [e]; split_ifs <;> rfl
  have eq : r.q0 = grid := by rw [e]; split_ifs <;> rfl
  obtain ⟨l1, g1⟩ := mapM_get _ _ _ e1
  obtain ⟨l4, g4⟩ := mapM_get _ _ _ e4
  obtain ⟨l5, g5⟩ := mapM_get _ _ _ e5
  rw [eT, eq]
  refine ⟨by rw [l5, List.length_zip, l4, l1, Nat.min_self], e2, c0, v0, e0, e3, fun j m hj => ?_⟩
  obtain ⟨c, hc, e1'⟩ := g1 j m hj
  obtain ⟨v1, hv, e4'⟩ := g4 j c hc
  obtain ⟨T, hT, e5'⟩ := g5 j (m, v1) (List.getElem?_zip_eq_some.mpr ⟨hj, hv⟩)
  exact ⟨c, v1, T, e1', e4', hT, e5'⟩

theorem radius_zero (env : Env) (a : Args) (W H : Nat) (h : a.focusRadius = 0) : radiusOf env a W H = 0 := by
  unfold radiusOf
  rw [h]
  simp

/-- **C96**: the returned transformation. If one was given: that one. If only the intrinsics are compared: nothing moves. If focus_radius is 0: the transformation between the two cameras: it takes each point of the world,
as seen by the first camera, to the same point as seen by the other camera -/
theorem transform_chosen (env : Env) (m0 m1 : Model) (rest : List Model) (h0 : IsRot m0.pose.R) (a : Args) (r : Result) (h : projectionDiff env (m0 :: m1 :: rest) a = some r) :
    r.Rt10.length = rest.length + 1 ∧
    (∀ T, a.impliedRt10 = some T → r.Rt10 = [T]) ∧
    (a.impliedRt10 = none → a.intrinsicsOnly = true → ∀ T ∈ r.Rt10, ∀ p, transformPointRt T p false = p) ∧
    (a.impliedRt10 = none → a.intrinsicsOnly = false → a.focusRadius = 0 →
      ∀ (j : Nat) m T, (m1 :: rest)[j]? = some m → r.Rt10[j]? = some T → ∀ P, transformPointRt T (inCam m0 P) false = inCam m P) := by
  obtain ⟨hl, -, c0, v0, -, -, hT⟩ := transforms env m0 m1 rest a r h
  refine ⟨hl, fun T hi => ?_, fun hi ho T hm p => ?_, fun hi ho hr j m T hj hjT P => ?_⟩
  · have hrest : rest = [] := by
      by_contra hne
      rw [(steps env m0 m1 rest a r h).1 hne] at hi
      exact absurd hi (by simp)
    subst hrest
    obtain ⟨c, v1, T', -, -, hg, ht⟩ := hT 0 m1 rfl
    unfold getRt10 at ht
    rw [hi] at ht
    cases ht
    match hr : r.Rt10, hl, hg with
    | [x], _, hg => simpa using hg
  · obtain ⟨j, hj⟩ := List.mem_iff_getElem?.mp hm
    obtain ⟨hlt, -⟩ := List.getElem?_eq_some_iff.mp hj
    rw [hl] at hlt
    obtain ⟨c, v1, T', -, -, hg, ht⟩ := hT j _ (List.getElem?_eq_getElem hlt)
    unfold getRt10 at ht
    rw [hi] at ht
    simp only [ho, if_true] at ht
    rw [hj] at hg
    cases hg
    cases ht
    exact (compose_identity identityRt).2.2 p
  · obtain ⟨c, v1, T', -, -, hg, ht⟩ := hT j m hj
    unfold getRt10 at ht
    rw [hi] at ht
    simp only [ho, Bool.false_eq_true, if_false, radius_zero env a m0.W m0.H hr, if_true] at ht
    rw [hjT] at hg
    cases hg
    cases ht
    exact toFrom_point m0 m h0.1 P

/-- **C96**: focus_radius=0, two models: a point of the world, that is at the given distance along the ray of this pixel of the first camera: the reported difference is the pixel where the second camera sees it, minus
the pixel in the first camera -/
theorem diff_extrinsics (env : Env) (m0 m1 : Model) (h0 : Usable m0) (h1 : Usable m1) (a : Args) (hi : a.impliedRt10 = none) (ho : a.intrinsicsOnly = false) (hf : a.focusRadius = 0)
    (r : Result) (h : projectionDiff env [m0, m1] a = some r) (k i : Nat) (d : ℝ) (q : P2) (v P : P3) (hd : a.distance.values[k]? = some d) (hq : r.q0.flatten[i]? = some q) (hv : Ray env m0 q v)
    (hP : inCam m0 P = times d v) (hne : inCam m1 P ≠ ⟨0, 0, 0⟩) :
    ∃ diff, r.diff = some diff ∧ entryAt diff k i = some (some (subQ (sees m1 (inCam m1 P)) q)) ∧ entryAt r.difflen k i = some (some (lenQ (subQ (sees m1 (inCam m1 P)) q))) := by
  obtain ⟨T, diff, hT, hdiff, -, -, -, -, hall⟩ := diff_meaning env m0 m1 h0 h1 a r h
  have := (transform_chosen env m0 m1 [] h0.rot a r h).2.2.2 hi ho hf 0 m1 T rfl (by rw [hT]; rfl) P
  rw [hP] at this
  obtain ⟨e1, e2⟩ := hall k i d q v hd hq hv (by rw [this]; exact hne)
  rw [this] at e1 e2
  exact ⟨diff, hdiff, e1, e2⟩

theorem times_ne (d : ℝ) (hd : 0 < d) (v : P3) (hv : mag3 v = 1) : times d v ≠ ⟨0, 0, 0⟩ := by
  intro h
  have hx := congrArg P3.x h
  have hy := congrArg P3.y h
  have hz := congrArg P3.z h
  simp only [times, mul_eq_zero, hd.ne', false_or] at hx hy hz
  have : v = ⟨0, 0, 0⟩ := by ext <;> assumption
  rw [this] at hv
  unfold mag3 at hv
  norm_num at hv

theorem usable_central (m : Model) (h : Usable m) : Central m := by
  intro lin hl
  have := h.central
  rw [hl] at this
  simp [isCahvore] at this

/-- **C96**: only the intrinsics are compared: the reported difference is the pixel where the second camera sees the same direction, minus the pixel in the first camera. It's the same at all distances -/
theorem diff_intrinsics (env : Env) (m0 m1 : Model) (h0 : Usable m0) (h1 : Usable m1) (a : Args) (hi : a.impliedRt10 = none) (ho : a.intrinsicsOnly = true)
    (r : Result) (h : projectionDiff env [m0, m1] a = some r) (k i : Nat) (d : ℝ) (q : P2) (v : P3) (hd : a.distance.values[k]? = some d) (hd0 : 0 < d) (hq : r.q0.flatten[i]? = some q) (hv : Ray env m0 q v) :
    ∃ diff, r.diff = some diff ∧ entryAt diff k i = some (some (subQ (sees m1 v) q)) ∧ entryAt r.difflen k i = some (some (lenQ (subQ (sees m1 v) q))) := by
  obtain ⟨T, diff, hT, hdiff, -, -, -, -, hall⟩ := diff_meaning env m0 m1 h0 h1 a r h
  have := (transform_chosen env m0 m1 [] h0.rot a r h).2.2.1 hi ho T (by rw [hT]; simp) (times d v)
  obtain ⟨e1, e2⟩ := hall k i d q v hd hq hv (by rw [this]; exact times_ne d hd0 v hv.1)
  rw [this, sees_times m1 (usable_central m1 h1) v d hd0] at e1 e2
  exact ⟨diff, hdiff, e1, e2⟩

theorem ray_pixel (env : Env) (hs : SolverReports env.solve) (m : Model) (hm : Usable m) (q : P2) (v : P3) (h : Ray env m q v) :
    (isDirect m.lens = false → lenQ (subQ (sees m v) q) ^ 2 ≤ 2e-4) ∧ (isDirect m.lens = true → DirectRange m.lens m.intr q → subQ (sees m v) q = ⟨0, 0⟩) := by
  obtain ⟨w, hw, hc⟩ := ray_cases env hs m hm q
  rw [h.2] at hw
  have : v = w := by
    have e := Option.some.inj hw
    simp only [NanP3.of, NanP3.mk.injEq, Option.some.injEq] at e
    ext
    · exact e.1
    · exact e.2.1
    · exact e.2.2
  subst this
  rcases hc with ⟨h0, -⟩ | ⟨-, h1, h2⟩
  · have := h.1
    rw [h0] at this
    unfold mag3 at this
    norm_num at this
  · constructor
    · intro hd
      have := h1 hd
      unfold lenQ
      rw [Real.sq_sqrt (by positivity)]
      exact this
    · intro hd hr
      have := h2 hd hr
      unfold sees
      rw [this]
      unfold subQ
      simp

/-- the difference is as small as unproject() can make it: 0 for the lens models that have a direct solution, 2e-4 otherwise (this is the square; in pixels) -/
def Negligible (m : Model) (q δ : P2) : Prop :=
  (isDirect m.lens = false → lenQ δ ^ 2 ≤ 2e-4) ∧ (isDirect m.lens = true → DirectRange m.lens m.intr q → δ = ⟨0, 0⟩)

/-- **C96**: a camera compared with itself: there's no difference. Either only the intrinsics are compared, or the extrinsics are the same too -/
theorem diff_self (env : Env) (hs : SolverReports env.solve) (m0 m1 : Model) (h0 : Usable m0) (h1 : Usable m1) (hL : m1.lens = m0.lens) (hI : m1.intr = m0.intr)
    (a : Args) (hi : a.impliedRt10 = none) (ho : a.intrinsicsOnly = true ∨ a.intrinsicsOnly = false ∧ a.focusRadius = 0 ∧ m1.pose = m0.pose)
    (r : Result) (h : projectionDiff env [m0, m1] a = some r) (k i : Nat) (d : ℝ) (q : P2) (v : P3) (hd : a.distance.values[k]? = some d) (hd0 : 0 < d) (hq : r.q0.flatten[i]? = some q) (hv : Ray env m0 q v) :
    ∃ diff δ, r.diff = some diff ∧ entryAt diff k i = some (some δ) ∧ entryAt r.difflen k i = some (some (lenQ δ)) ∧ Negligible m0 q δ := by
  have hsees : ∀ p, sees m1 p = sees m0 p := by intro p; unfold sees; rw [hL, hI]
  rcases ho with ho | ⟨ho, hf, hp⟩
  · obtain ⟨diff, e, e1, e2⟩ := diff_intrinsics env m0 m1 h0 h1 a hi ho r h k i d q v hd hd0 hq hv
    rw [hsees] at e1 e2
    exact ⟨diff, _, e, e1, e2, ray_pixel env hs m0 h0 q v hv⟩
  · have hP : inCam m0 (transformPointRt m0.pose (times d v) true) = times d v := (transform_inverted m0.pose h0.rot.1 _).2
    have hP1 : inCam m1 (transformPointRt m0.pose (times d v) true) = times d v := by
      unfold inCam
      rw [hp]
      exact (transform_inverted m0.pose h0.rot.1 _).2
    obtain ⟨diff, e, e1, e2⟩ := diff_extrinsics env m0 m1 h0 h1 a hi ho hf r h k i d q v _ hd hq hv hP (by rw [hP1]; exact times_ne d hd0 v hv.1)
    rw [hP1, hsees, sees_times m0 (usable_central m0 h0) v d hd0] at e1 e2
    exact ⟨diff, _, e, e1, e2, ray_pixel env hs m0 h0 q v hv⟩

end Mrcal.ModelDiff

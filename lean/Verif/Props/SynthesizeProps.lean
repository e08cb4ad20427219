import Verif.Model.Synthesize
import Verif.Props.ImageTransformProps
import Verif.Props.RodriguesProps
import Mathlib.Data.List.Nodup
import Mathlib.Data.List.Perm.Subperm
/-
C109: synthesize_board_observations()
-/
namespace Mrcal.Synthesize
open Mrcal.Cam Mrcal.Pose Mrcal.ImageTransform

/-! ### specification -/

/-- corner (i,j) of the board, in the coordinates of the camera. T is the pose of the board that was returned -/
noncomputable def cornerInCam (m : Model) (a : Args) (T : Rt) (i j : Nat) : P3 :=
  inCam m (transformPointRt T (Project.refObject a.W a.H a.spacing a.spacing a.warp 0 none none 0 none none i j) false)

/-- this corner projects to inside the imager -/
def Sees (env : Env) (m : Model) (a : Args) (T : Rt) (i j : Nat) : Prop :=
  ∃ q, env.project m (cornerInCam m a T i j) = some q ∧ 0 ≤ q.x ∧ q.x ≤ (m.W : ℝ) - 1 ∧ 0 ≤ q.y ∧ q.y ≤ (m.H : ℝ) - 1

def SeesFull (env : Env) (m : Model) (a : Args) (T : Rt) : Prop := ∀ i j, i < a.W → j < a.H → Sees env m a T i j

/-- more than half of the corners. The documentation says "at least half": a board with exactly half of its corners in view is left out -/
def SeesHalf (env : Env) (m : Model) (a : Args) (T : Rt) : Prop :=
  ∃ l : List (Nat × Nat), l.Nodup ∧ (∀ ij ∈ l, ij.1 < a.W ∧ ij.2 < a.H ∧ Sees env m a T ij.1 ij.2) ∧ a.W * a.H < 2 * l.length

/-- the documented meaning of `which` -/
def Visible (env : Env) (models : List Model) (a : Args) (T : Rt) : Prop := match a.which with
  | .allFull => ∀ m ∈ models, SeesFull env m a T
  | .someFull => ∃ m ∈ models, SeesFull env m a T
  | .allHalf => ∀ m ∈ models, SeesHalf env m a T
  | .someHalf => ∃ m ∈ models, SeesHalf env m a T
  | .invalid => False

/-- the middle of the board, in the coordinates of the board -/
noncomputable def middle (a : Args) : P3 := ⟨((a.W : ℝ) - 1) / 2 * a.spacing, ((a.H : ℝ) - 1) / 2 * a.spacing, 0⟩

noncomputable def length3 (p : P3) : ℝ := Real.sqrt (p.x ^ 2 + p.y ^ 2 + p.z ^ 2)

/-- the normal of the board (either way) is within `deg` of the direction from the camera -/
def Faces (a : Args) (T : Rt) (deg : ℝ) : Prop :=
  let p := subP (transformPointRt T (middle a) false) a.pcamera
  let n := rotatePointR T.R ⟨0, 0, 1⟩ false
  |p.x * n.x + p.y * n.y + p.z * n.z| > Real.cos (deg * Real.pi / 180) * length3 p

/-- the pose is the nominal one, with random numbers u: the middle of the board moves by u.t*radius.t -/
def Placed (a : Args) (T : Rt) (u : RtV) : Prop :=
  T.R = R_from_r ⟨a.center.r.x + u.r.x * a.radius.r.x, a.center.r.y + u.r.y * a.radius.r.y, a.center.r.z + u.r.z * a.radius.r.z⟩ ∧
  transformPointRt T (middle a) false = ⟨a.center.t.x + u.t.x * a.radius.t.x, a.center.t.y + u.t.y * a.radius.t.y, a.center.t.z + u.t.z * a.radius.t.z⟩

/-! ### lemmas -/

/-- the frame made of row k -/
noncomputable def F (env : Env) (models : List Model) (a : Args) (rand : Nat → RtV) (k : Nat) : Frame := frameOf env models a (rand k)

noncomputable def ok (models : List Model) (a : Args) (f : Frame) : Bool := facing a f && inView models a f

/-- the good ones of the first n -/
noncomputable def good (env : Env) (models : List Model) (a : Args) (rand : Nat → RtV) (n : Nat) : List Frame :=
  ((List.range n).map (F env models a rand)).filter (ok models a)

theorem cull_eq (models : List Model) (a : Args) (l : List Frame) : cull models a l = l.filter (ok models a) := by
  unfold cull ok
  rw [List.filter_filter]
  congr 1
  funext f
  exact Bool.and_comm _ _

theorem good_succ (env : Env) (models : List Model) (a : Args) (rand : Nat → RtV) (N n : Nat) :
    good env models a rand (n * N) ++ cull models a (chunk env models a N rand n) = good env models a rand ((n + 1) * N) := by
  rw [cull_eq]
  unfold good
  rw [← List.filter_append]
  congr 1
  rw [Nat.succ_mul, List.range_add, List.map_append]
  unfold chunk F
  rw [List.map_map]
  rfl

theorem good_prefix (env : Env) (models : List Model) (a : Args) (rand : Nat → RtV) {n n' : Nat} (h : n ≤ n') : good env models a rand n <+: good env models a rand n' := by
  unfold good
  refine List.IsPrefix.filter _ (List.IsPrefix.map _ ?_)
  obtain ⟨k, rfl⟩ := Nat.exists_eq_add_of_le h
  rw [List.range_add]
  exact List.prefix_append _ _

theorem collect_some (env : Env) (models : List Model) (a : Args) (N : Nat) (rand : Nat → RtV) (fuel : Nat) : ∀ (n : Nat) (out : List Frame),
    collect env models a N rand fuel n (good env models a rand (n * N)) = some out → ∃ m, out = (good env models a rand m).take N ∧ N ≤ (good env models a rand m).length := by
  induction fuel with
  | zero => intro n out h; simp [collect] at h
  | succ fuel ih =>
    intro n out h
    unfold collect at h
    simp only [good_succ] at h
    split_ifs at h with hl
    · exact ⟨_, (Option.some.inj h).symm, hl⟩
    · exact ih _ _ h

theorem collect_none (env : Env) (models : List Model) (a : Args) (N : Nat) (rand : Nat → RtV) (fuel : Nat) : ∀ (n : Nat),
    collect env models a N rand fuel n (good env models a rand (n * N)) = none → fuel = 0 ∨ (good env models a rand ((n + fuel) * N)).length < N := by
  induction fuel with
  | zero => intro n h; exact Or.inl rfl
  | succ fuel ih =>
    intro n h
    unfold collect at h
    simp only [good_succ] at h
    split_ifs at h with hl
    right
    rcases ih _ h with h0 | h0
    · subst h0
      simpa using hl
    · rwa [show n + (fuel + 1) = n + 1 + fuel by omega]

/-- the pose that is returned -/
noncomputable def shifted (a : Args) (f : Frame) : Frame :=
  { f with pose := composeRt f.pose ⟨identityR, ⟨-(boardCenter a).x, -(boardCenter a).y, -(boardCenter a).z⟩⟩ false false }

theorem synth_some (env : Env) (models : List Model) (a : Args) (N : Nat) (rand : Nat → RtV) (fuel : Nat) (out : List Frame) (h : synthesize env models a N rand fuel = some out) :
    ∃ m, out = ((good env models a rand m).take N).map (shifted a) ∧ N ≤ (good env models a rand m).length := by
  unfold synthesize at h
  split_ifs at h
  obtain ⟨l, hl, rfl⟩ := Option.map_eq_some_iff.mp h
  have h0 : ([] : List Frame) = good env models a rand (0 * N) := by simp [good]
  rw [h0] at hl
  obtain ⟨m, rfl, hm⟩ := collect_some _ _ _ _ _ _ _ _ hl
  exact ⟨m, rfl, hm⟩

theorem shift_apply (T : Rt) (c x : P3) : transformPointRt (composeRt T ⟨identityR, ⟨-c.x, -c.y, -c.z⟩⟩ false false) x false = transformPointRt T (subP x c) false := by
  simp only [composeRt, transformPointRt, Bool.not_false, Bool.and_self, if_true, rotatePointR, Bool.false_eq_true, if_false, mul, mulVec, vecMul, addP, subP, identityR]
  ext <;> simp <;> ring

theorem shift_R (T : Rt) (c : P3) : (composeRt T ⟨identityR, c⟩ false false).R = T.R := by
  simp only [composeRt, Bool.not_false, Bool.and_self, if_true, mul, vecMul, identityR]
  ext <;> simp

def pairs (W H : Nat) : List (Nat × Nat) := (List.range H).flatMap fun (j : Nat) => (List.range W).map fun (i : Nat) => (i, j)

theorem pairs_mem (W H : Nat) (ij : Nat × Nat) : ij ∈ pairs W H ↔ ij.1 < W ∧ ij.2 < H := by
  unfold pairs
  simp only [List.mem_flatMap, List.mem_range, List.mem_map]
  constructor
  · rintro ⟨j, hj, i, hi, rfl⟩; exact ⟨hi, hj⟩
  · rintro ⟨hi, hj⟩; exact ⟨ij.2, hj, ij.1, hi, rfl⟩

theorem pairs_nodup (W H : Nat) : (pairs W H).Nodup := by
  unfold pairs
  rw [List.nodup_flatMap]
  refine ⟨fun j _ => (List.nodup_range).map fun i i' h => (Prod.mk.inj h).1, ?_⟩
  refine List.Nodup.pairwise_of_forall_ne List.nodup_range fun j _ j' _ hne => ?_
  intro x hx hx'
  obtain ⟨i, -, rfl⟩ := List.mem_map.mp hx
  obtain ⟨i', -, e⟩ := List.mem_map.mp hx'
  exact hne (Prod.mk.inj e).2.symm

theorem pairs_length (W H : Nat) : (pairs W H).length = H * W := by
  unfold pairs
  simp [List.length_flatMap]

theorem flatten_pairs {β : Type} (W H : Nat) (g : Nat → Nat → β) :
    ((List.range H).map fun (j : Nat) => (List.range W).map fun (i : Nat) => g i j).flatten = (pairs W H).map fun ij => g ij.1 ij.2 := by
  unfold pairs
  rw [List.map_flatMap, ← List.flatMap_def]
  congr 1
  funext j
  rw [List.map_map]
  rfl

theorem zip_map_self {β γ : Type} (l : List Model) (g : Model → β) (h : Model × β → γ) : (l.zip (l.map g)).map h = l.map fun m => h (m, g m) := by
  induction l with
  | nil => rfl
  | cons m l ih => simp only [List.map_cons, List.zip_cons_cons, ih]

open Classical in
theorem numVisible_eq (env : Env) (m : Model) (a : Args) (u : RtV) :
    numVisible m ((List.range a.H).map fun (j : Nat) => (List.range a.W).map fun (i : Nat) =>
      env.project m (transformPointRt m.pose (transformPointRt (poseOf a u) (boardReference a i j) false) false)) =
    ((pairs a.W a.H).filter fun ij => decide (Sees env m a (shifted a (frameOf env [] a u)).pose ij.1 ij.2)).length := by
  unfold numVisible
  rw [flatten_pairs a.W a.H fun i j => env.project m (transformPointRt m.pose (transformPointRt (poseOf a u) (boardReference a i j) false) false), List.countP_map, List.countP_eq_length_filter]
  congr 1
  refine List.filter_congr fun ij _ => ?_
  rw [Bool.eq_iff_iff, decide_eq_true_iff]
  have e : env.project m (transformPointRt m.pose (transformPointRt (poseOf a u) (boardReference a ij.1 ij.2) false) false) = env.project m (cornerInCam m a (shifted a (frameOf env [] a u)).pose ij.1 ij.2) := by
    unfold cornerInCam shifted inCam
    simp only [frameOf]
    rw [shift_apply]
    rfl
  simp only [Function.comp]
  rw [e]
  unfold Sees
  cases env.project m (cornerInCam m a (shifted a (frameOf env [] a u)).pose ij.1 ij.2) with
  | none => simp [visible]
  | some q =>
    simp only [visible, decide_eq_true_iff, Option.some.injEq, exists_eq_left']
    tauto

open Classical in
/-- a camera that counts enough corners -/
theorem full_of (env : Env) (m : Model) (a : Args) (T : Rt) : ((pairs a.W a.H).filter fun ij => decide (Sees env m a T ij.1 ij.2)).length = a.H * a.W ↔ SeesFull env m a T := by
  rw [← pairs_length, List.length_filter_eq_length_iff]
  constructor
  · intro h i j hi hj
    have := h (i, j) ((pairs_mem _ _ _).mpr ⟨hi, hj⟩)
    simpa using this
  · intro h ij hm
    obtain ⟨h1, h2⟩ := (pairs_mem _ _ _).mp hm
    simpa using h _ _ h1 h2

open Classical in
theorem half_of (env : Env) (m : Model) (a : Args) (T : Rt) : ((pairs a.W a.H).filter fun ij => decide (Sees env m a T ij.1 ij.2)).length > a.H * a.W / 2 ↔ SeesHalf env m a T := by
  constructor
  · intro h
    refine ⟨(pairs a.W a.H).filter fun ij => decide (Sees env m a T ij.1 ij.2), (pairs_nodup _ _).filter _, fun ij hm => ?_, ?_⟩
    · obtain ⟨h1, h2⟩ := List.mem_filter.mp hm
      obtain ⟨h3, h4⟩ := (pairs_mem _ _ _).mp h1
      exact ⟨h3, h4, by simpa using h2⟩
    · rw [Nat.mul_comm a.W]
      omega
  · rintro ⟨l, hnd, hl, hlen⟩
    have hsub : l ⊆ (pairs a.W a.H).filter fun ij => decide (Sees env m a T ij.1 ij.2) := fun ij hm => by
      obtain ⟨h1, h2, h3⟩ := hl ij hm
      exact List.mem_filter.mpr ⟨(pairs_mem _ _ _).mpr ⟨h1, h2⟩, by simpa using h3⟩
    have := (List.subperm_of_subset hnd hsub).length_le
    rw [Nat.mul_comm a.W] at hlen
    omega

theorem inView_visible (env : Env) (models : List Model) (a : Args) (u : RtV) : inView models a (frameOf env models a u) = true ↔ Visible env models a (shifted a (frameOf env models a u)).pose := by
  have hT : (shifted a (frameOf env models a u)).pose = (shifted a (frameOf env [] a u)).pose := rfl
  rw [hT]
  unfold inView Visible
  simp only [frameOf, zip_map_self, numVisible_eq env]
  cases hw : a.which <;> simp only [List.all_map, List.any_map, List.all_eq_true, List.any_eq_true, Function.comp, beq_iff_eq, decide_eq_true_eq, Bool.false_eq_true]
  · exact forall₂_congr fun m _ => full_of env m a _
  · exact exists_congr fun m => and_congr_right fun _ => full_of env m a _
  · exact forall₂_congr fun m _ => half_of env m a _
  · exact exists_congr fun m => and_congr_right fun _ => half_of env m a _

theorem middle_eq (a : Args) : middle a = boardCenter a := by
  unfold middle boardCenter
  ext <;> simp <;> ring

theorem shift_middle (a : Args) (f : Frame) : transformPointRt (shifted a f).pose (middle a) false = f.pose.t := by
  unfold shifted
  rw [shift_apply, middle_eq]
  simp only [transformPointRt, rotatePointR, mulVec, addP, subP]
  ext <;> simp

theorem facing_faces (a : Args) (f : Frame) : facing a f = true ↔ ∀ deg, a.maxOblique = some deg → Faces a (shifted a f).pose deg := by
  unfold facing
  cases hd : a.maxOblique with
  | none => simp
  | some deg =>
    simp only [decide_eq_true_eq, Option.some.injEq, forall_eq']
    unfold Faces
    rw [shift_middle]
    simp only [shifted, shift_R]
    generalize hp : subP f.pose.t a.pcamera = p
    have hl : length3 p = Real.sqrt (p.x * p.x + p.y * p.y + p.z * p.z) := by unfold length3; simp only [pow_two]
    rw [← hl]
    have hn : rotatePointR f.pose.R ⟨0, 0, 1⟩ false = ⟨f.pose.R.a02, f.pose.R.a12, f.pose.R.a22⟩ := by
      simp only [rotatePointR, Bool.false_eq_true, if_false, mulVec]
      ext <;> simp
    rw [hn]
    by_cases h0 : length3 p = 0
    · have hz : p.x = 0 ∧ p.y = 0 ∧ p.z = 0 := by
        unfold length3 at h0
        rw [Real.sqrt_eq_zero (by positivity)] at h0
        refine ⟨?_, ?_, ?_⟩ <;> nlinarith [sq_nonneg p.x, sq_nonneg p.y, sq_nonneg p.z]
      simp [h0, hz.1, hz.2.1, hz.2.2]
    · have hpos : 0 < length3 p := lt_of_le_of_ne (Real.sqrt_nonneg _) (Ne.symm h0)
      have e : p.x / length3 p * f.pose.R.a02 + p.y / length3 p * f.pose.R.a12 + p.z / length3 p * f.pose.R.a22 = (p.x * f.pose.R.a02 + p.y * f.pose.R.a12 + p.z * f.pose.R.a22) / length3 p := by ring
      rw [e, abs_div, abs_of_pos hpos, gt_iff_lt, lt_div_iff₀ hpos]
      simp [h0]

theorem placed_F (env : Env) (models : List Model) (a : Args) (rand : Nat → RtV) (k : Nat) : Placed a (shifted a (F env models a rand k)).pose (rand k) := by
  constructor
  · simp only [shifted, shift_R, F, frameOf, poseOf, Rt_from_rt]
  · rw [shift_middle]
    simp only [F, frameOf, poseOf, Rt_from_rt]

/-- the random numbers determine the pose -/
theorem placed_unique (a : Args) (T T' : Rt) (u : RtV) (h : Placed a T u) (h' : Placed a T' u) : T = T' := by
  have hR : T.R = T'.R := h.1.trans h'.1.symm
  have ht := h.2.trans h'.2.symm
  simp only [transformPointRt, Bool.not_false, if_true, hR, addP, P3.mk.injEq, add_right_inj] at ht
  have : T.t = T'.t := P3.ext ht.1 ht.2.1 ht.2.2
  cases T; cases T'
  simp_all

/-- row k of the random numbers makes a board that is to be returned -/
def Acceptable (env : Env) (models : List Model) (a : Args) (u : RtV) : Prop :=
  ∃ T, Placed a T u ∧ Visible env models a T ∧ ∀ deg, a.maxOblique = some deg → Faces a T deg

theorem ok_iff (env : Env) (models : List Model) (a : Args) (rand : Nat → RtV) (k : Nat) : ok models a (F env models a rand k) = true ↔ Acceptable env models a (rand k) := by
  unfold ok
  rw [Bool.and_eq_true, facing_faces]
  unfold F
  rw [inView_visible]
  constructor
  · rintro ⟨h1, h2⟩
    exact ⟨_, placed_F env models a rand k, h2, h1⟩
  · rintro ⟨T, hT, h2, h1⟩
    rw [placed_unique a T _ _ hT (placed_F env models a rand k)] at h1 h2
    exact ⟨h1, h2⟩

open Classical in
theorem good_eq (env : Env) (models : List Model) (a : Args) (rand : Nat → RtV) (n : Nat) :
    good env models a rand n = ((List.range n).filter fun k => decide (Acceptable env models a (rand k))).map (F env models a rand) := by
  unfold good
  rw [List.filter_map]
  congr 1
  refine List.filter_congr fun k _ => ?_
  rw [Bool.eq_iff_iff, decide_eq_true_iff]
  exact ok_iff env models a rand k

/-! ### theorems -/

open Classical in
/-- **C109**: what is returned: the first `N` boards that qualify, in order: each that qualifies, and no others. As many frames as were asked for. A board qualifies if it meets the visibility requirement, and isn't seen more obliquely than
was asked for. For each frame, the pose is the nominal one, off by the radius times the random numbers, in each of its 6 numbers; and the observations are exactly the projections of the corners of the board, as placed by the returned pose -/
theorem synthesized (env : Env) (models : List Model) (a : Args) (N : Nat) (rand : Nat → RtV) (fuel : Nat) (out : List Frame) (h : synthesize env models a N rand fuel = some out) :
    ∃ M, (∃ ks, ks = ((List.range M).filter fun k => decide (Acceptable env models a (rand k))).take N ∧ ks.length = N ∧ List.Forall₂ (fun k (f : Frame) => Placed a f.pose (rand k)) ks out) ∧
    ∀ f ∈ out, Visible env models a f.pose ∧ (∀ deg, a.maxOblique = some deg → Faces a f.pose deg) ∧
      f.q.length = models.length ∧
      ∀ (c : Nat) m, models[c]? = some m → ∀ i j, i < a.W → j < a.H → ∃ rows row, f.q[c]? = some rows ∧ rows[j]? = some row ∧ row[i]? = some (env.project m (cornerInCam m a f.pose i j)) := by
  obtain ⟨n, rfl, hn⟩ := synth_some _ _ _ _ _ _ _ h
  refine ⟨n, ⟨_, rfl, ?_, ?_⟩, fun f hf => ?_⟩
  · rw [good_eq, List.length_map] at hn
    rw [List.length_take, Nat.min_eq_left hn]
  · rw [good_eq, ← List.map_take, List.map_map, List.forall₂_map_right_iff]
    exact List.forall₂_same.mpr fun k _ => placed_F env models a rand k
  · obtain ⟨g, hg, rfl⟩ := List.mem_map.mp hf
    obtain ⟨hm, hok⟩ := List.mem_filter.mp (List.mem_of_mem_take hg)
    obtain ⟨k, -, rfl⟩ := List.mem_map.mp hm
    unfold ok at hok
    rw [Bool.and_eq_true] at hok
    refine ⟨(inView_visible env models a (rand k)).mp hok.2, (facing_faces a _).mp hok.1, by simp [shifted, F, frameOf], fun c m hc i j hi hj => ?_⟩
    refine ⟨_, _, by simp only [shifted, F, frameOf, List.getElem?_map, hc, Option.map_some]; rfl, by simp only [List.getElem?_map, List.getElem?_range hj, Option.map_some]; rfl, ?_⟩
    simp only [List.getElem?_map, List.getElem?_range hi, Option.map_some]
    unfold cornerInCam shifted inCam
    simp only [F, frameOf]
    rw [shift_apply]
    rfl

open Classical in
/-- **C109**: it ends once enough boards qualify, however many random numbers that takes -/
theorem ends (env : Env) (models : List Model) (hm : models ≠ []) (a : Args) (ha : a.which ≠ .invalid) (N : Nat) (rand : Nat → RtV) (M : Nat)
    (h : N ≤ ((List.range M).filter fun k => decide (Acceptable env models a (rand k))).length) : ∃ fuel0, ∀ fuel ≥ fuel0, (synthesize env models a N rand fuel).isSome := by
  refine ⟨M + 1, fun fuel hf => ?_⟩
  unfold synthesize
  rw [if_neg ha, if_neg (by simpa using hm), Option.isSome_map]
  rw [Option.isSome_iff_ne_none]
  intro hnone
  have h0 : ([] : List Frame) = good env models a rand (0 * N) := by simp [good]
  rw [h0] at hnone
  have hlen : N ≤ (good env models a rand M).length := by rwa [good_eq, List.length_map]
  rcases collect_none _ _ _ _ _ _ _ hnone with hz | hlt
  · omega
  · have hN : 1 ≤ N := by omega
    have hle : M ≤ (0 + fuel) * N := by nlinarith
    have := (good_prefix env models a rand hle).length_le
    omega

/-- **C109**: an unknown `which` is rejected -/
theorem which_checked (env : Env) (models : List Model) (a : Args) (ha : a.which = .invalid) (N : Nat) (rand : Nat → RtV) (fuel : Nat) : synthesize env models a N rand fuel = none := by
  unfold synthesize
  rw [if_pos ha]

/-- **C109**: asking for fewer frames produces the same frames, fewer of them (from the same random numbers). In particular the result doesn't depend on how the random numbers were grouped -/
theorem fewer_frames (env : Env) (models : List Model) (a : Args) (N N' : Nat) (hN : N' ≤ N) (rand : Nat → RtV) (fuel fuel' : Nat) (out out' : List Frame)
    (h : synthesize env models a N rand fuel = some out) (h' : synthesize env models a N' rand fuel' = some out') : out' = out.take N' := by
  obtain ⟨n, rfl, hn⟩ := synth_some _ _ _ _ _ _ _ h
  obtain ⟨n', rfl, hn'⟩ := synth_some _ _ _ _ _ _ _ h'
  rw [← List.map_take, List.take_take, Nat.min_eq_left hN]
  congr 1
  rcases Nat.le_total n n' with hle | hle
  · obtain ⟨t, ht⟩ := good_prefix env models a rand hle
    rw [← ht, List.take_append_of_le_length (by omega)]
  · obtain ⟨t, ht⟩ := good_prefix env models a rand hle
    rw [← ht, List.take_append_of_le_length (by omega)]

/-! ### an example, and the boards behind the camera -/

open Classical in
/-- `mrcal.project()`, of finite points: division by 0 isn't finite -/
noncomputable def realEnv : Env := ⟨fun m v => if v.z = 0 then none else some (project1 m v)⟩

/-- a pinhole camera with 101x101 pixels -/
noncomputable def exCam : Model := ⟨.pinhole, fun k => if k < 2 then 100 else 50, identityRt, 101, 101, none⟩

/-- 2x2 corners; the nominal board is at (0,0,z), and it's always there. Up to 45 degrees -/
noncomputable def exArgs (z : ℝ) : Args := ⟨2, 2, 1, none, ⟨⟨0, 0, 0⟩, ⟨0, 0, z⟩⟩, ⟨⟨0, 0, 0⟩, ⟨0, 0, 0⟩⟩, some 45, ⟨0, 0, 0⟩, .allFull⟩

theorem ex_acceptable (z : ℝ) (hz : z = 10 ∨ z = -10) (u : RtV) : Acceptable realEnv [exCam] (exArgs z) u := by
  have R0 : R_from_r ⟨0, 0, 0⟩ = identityR := (R_from_r_meaning ⟨0, 0, 0⟩).2 (by simp [mag3]; unfold dblEpsilon; positivity)
  have hz0 : z ≠ 0 := by rcases hz with rfl | rfl <;> norm_num
  refine ⟨⟨identityR, ⟨-(1 / 2), -(1 / 2), z⟩⟩, ⟨?_, ?_⟩, ?_, ?_⟩
  · simp [exArgs, R0]
  · simp only [exArgs, middle, transformPointRt, rotatePointR, Bool.false_eq_true, if_false, mulVec, identityR, addP]
    ext <;> norm_num
  · simp only [Visible, exArgs, List.mem_singleton, forall_eq]
    intro i j hi hj
    have hi' : i = 0 ∨ i = 1 := by simp only [] at hi; omega
    have hj' : j = 0 ∨ j = 1 := by simp only [] at hj; omega
    have e : cornerInCam exCam (exArgs z) ⟨identityR, ⟨-(1 / 2), -(1 / 2), z⟩⟩ i j = ⟨(i : ℝ) - 1 / 2, (j : ℝ) - 1 / 2, z⟩ := by
      simp only [cornerInCam, inCam, exCam, exArgs, Project.refObject, transformPointRt, rotatePointR, Bool.false_eq_true, if_false, mulVec, identityR, identityRt, addP]
      ext <;> rcases hi' with rfl | rfl <;> rcases hj' with rfl | rfl <;> norm_num [Project.linspace]
    refine ⟨⟨((i : ℝ) - 1 / 2) / z * 100 + 50, ((j : ℝ) - 1 / 2) / z * 100 + 50⟩, ?_, ?_⟩
    · have e' := e
      unfold exArgs at e'
      rw [e']
      simp only [realEnv, hz0, if_false]
      have hq : project1 exCam ⟨(i : ℝ) - 1 / 2, (j : ℝ) - 1 / 2, z⟩ = (pinhole (coreOf exCam.intr) ⟨(i : ℝ) - 1 / 2, (j : ℝ) - 1 / 2, z⟩).q := rfl
      rw [hq]
      simp only [pinhole, coreOf, exCam]
      congr 1
      ext <;> norm_num <;> ring
    · rcases hz with rfl | rfl <;> rcases hi' with rfl | rfl <;> rcases hj' with rfl | rfl <;> norm_num [exCam]
  · intro deg hdeg
    have hd : deg = 45 := by simpa [exArgs] using hdeg.symm
    subst hd
    have hp : subP (transformPointRt ⟨identityR, ⟨-(1 / 2), -(1 / 2), z⟩⟩ (middle (exArgs z)) false) (exArgs z).pcamera = ⟨0, 0, z⟩ := by
      simp only [exArgs, middle, transformPointRt, rotatePointR, Bool.false_eq_true, if_false, mulVec, identityR, addP, subP]
      ext <;> norm_num
    have hn : rotatePointR identityR ⟨0, 0, 1⟩ false = ⟨0, 0, 1⟩ := by
      simp only [rotatePointR, Bool.false_eq_true, if_false, mulVec, identityR]
      ext <;> norm_num
    unfold Faces
    simp only [hp, hn]
    have hc : Real.cos (45 * Real.pi / 180) < 1 := by
      rw [show (45 : ℝ) * Real.pi / 180 = Real.pi / 4 by ring, Real.cos_pi_div_four]
      have : Real.sqrt 2 < 2 := by rw [Real.sqrt_lt' (by norm_num)]; norm_num
      linarith
    have hl : length3 ⟨0, 0, z⟩ = 10 := by
      unfold length3
      rw [show (0 : ℝ) ^ 2 + 0 ^ 2 + z ^ 2 = 10 ^ 2 by rcases hz with rfl | rfl <;> norm_num]
      exact Real.sqrt_sq (by norm_num)
    rw [hl]
    have : |(0 : ℝ) * 0 + 0 * 0 + z * 1| = 10 := by rcases hz with rfl | rfl <;> norm_num
    rw [this]
    linarith

open Classical in
theorem ex_some (z : ℝ) (hz : z = 10 ∨ z = -10) (N : Nat) (rand : Nat → RtV) : ∃ fuel out, synthesize realEnv [exCam] (exArgs z) N rand fuel = some out := by
  obtain ⟨fuel, h⟩ := ends realEnv [exCam] (by simp) (exArgs z) (by simp [exArgs]) N rand N (by
    rw [List.filter_eq_self.mpr (fun k _ => by simpa using ex_acceptable z hz (rand k)), List.length_range])
  obtain ⟨out, ho⟩ := Option.isSome_iff_exists.mp (h fuel le_rfl)
  exact ⟨fuel, out, ho⟩

/-- three frames, of a board in front of the camera -/
example : ∃ fuel out, synthesize realEnv [exCam] (exArgs 10) 3 (fun k => ⟨⟨k, 0, 0⟩, ⟨0, k, 1⟩⟩) fuel = some out := ex_some 10 (Or.inl rfl) 3 _

/-- **C109**: "visible" is decided by the pixel coordinates only. A board that is entirely behind the (only) camera, 10 in front of its back, is returned as fully visible, facing the camera within 45 degrees -/
theorem behind_wrong : ∃ (m : Model) (a : Args), m.lens = .pinhole ∧ a.which = .allFull ∧ ∀ (rand : Nat → RtV), ∃ fuel out, synthesize realEnv [m] a 1 rand fuel = some out ∧ out.length = 1 ∧
    ∀ f ∈ out, ∀ i j, i < a.W → j < a.H → (cornerInCam m a f.pose i j).z = -10 := by
  refine ⟨exCam, exArgs (-10), rfl, rfl, fun rand => ?_⟩
  obtain ⟨fuel, out, ho⟩ := ex_some (-10) (Or.inr rfl) 1 rand
  obtain ⟨M, ⟨ks, -, hlen, hf⟩, -⟩ := synthesized _ _ _ _ _ _ _ ho
  refine ⟨fuel, out, ho, hf.length_eq.symm.trans hlen, fun f hm i j hi hj => ?_⟩
  obtain ⟨n, hn⟩ := List.mem_iff_getElem?.mp hm
  have R0 : R_from_r ⟨0, 0, 0⟩ = identityR := (R_from_r_meaning ⟨0, 0, 0⟩).2 (by simp [mag3]; unfold dblEpsilon; positivity)
  have hp : ∃ u, Placed (exArgs (-10)) f.pose u := by
    clear hlen ho
    induction hf generalizing n with
    | nil => simp at hm
    | cons h1 _ ih =>
      rcases List.mem_cons.mp hm with rfl | h
      · exact ⟨_, h1⟩
      · obtain ⟨n, hn⟩ := List.mem_iff_getElem?.mp h
        exact ih h n hn
  obtain ⟨u, hp⟩ := hp
  have hT : f.pose = ⟨identityR, ⟨-(1 / 2), -(1 / 2), -10⟩⟩ := by
    refine placed_unique _ _ _ u hp ⟨?_, ?_⟩
    · simp [exArgs, R0]
    · simp only [exArgs, middle, transformPointRt, rotatePointR, Bool.false_eq_true, if_false, mulVec, identityR, addP]
      ext <;> norm_num
  rw [hT]
  simp only [cornerInCam, inCam, exCam, exArgs, Project.refObject, transformPointRt, rotatePointR, Bool.false_eq_true, if_false, mulVec, identityR, identityRt, addP]
  simp

end Mrcal.Synthesize

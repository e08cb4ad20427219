import Verif.Props.UncertaintyParse
import Verif.Props.CallbackColumnsProps
/-
Helper lemmas for C77: the rows that optimizer_callback() writes are laid out as _mrcal_drt_cross_reprojection__dbpacked() expects.
-/
namespace Mrcal.Uncertainty
open Mrcal Pose Callback StateLayout

/-- what was observed -/
inductive Seen
  | frame (i : Int)
  | point (i : Int)

/-- where a measurement comes from -/
structure Source where
  icamI : Int
  icamE : Int
  what : Seen

/-- the sources of all the board and point measurements, in order: each board corner makes two measurements, and so does each point -/
def sources (c : Ctx) : List Source :=
  (c.boards.flatMap fun o => List.replicate (2 * (c.W * c.H)) ⟨o.icamI, o.icamE, .frame o.iframe⟩) ++
  (c.points.flatMap fun o => List.replicate 2 ⟨o.icamI, o.icamE, .point o.ipoint⟩)

/-- state index of the camera pose, if it's being optimized -/
def Source.e (d : Dims) (s : Source) : Option Int := if d.sel.extrinsics = true ∧ 0 ≤ s.icamE then some (stateIndexExtrinsics s.icamE d) else none

/-- state index of the frame pose, if it's being optimized -/
def Source.f (d : Dims) (s : Source) : Option Int := match s.what with
  | .frame i => if d.sel.frames = true then some (stateIndexFrames i d) else none
  | .point _ => none

/-- state index of the point, if it's being optimized -/
def Source.p (d : Dims) (s : Source) : Option Int := match s.what with
  | .frame _ => none
  | .point i => if d.sel.frames = true ∧ i < d.Npoints - d.NpointsFixed then some (stateIndexPoints i d) else none

/-- does this measurement depend on the board shape? -/
def Source.w (d : Dims) (s : Source) : Bool := match s.what with
  | .frame _ => d.sel.warp
  | .point _ => false

/-- the indices are in range -/
def Source.Ok (d : Dims) (s : Source) : Prop := 0 ≤ s.icamI ∧ s.icamI < d.Nci ∧ s.icamE < d.Nce ∧ match s.what with
  | .frame i => 0 ≤ i ∧ i < d.Nframes ∧ 0 < d.Nob
  | .point i => 0 ≤ i ∧ i < d.Npoints

/-- n consecutive columns -/
def cols (o : Option Int) (n : Nat) : List Int := match o with
  | none => []
  | some c => (List.range n).map fun k : Nat => c + k

/-- this row has `N` intrinsics of this camera, and the other blocks as given by the source -/
structure RowSplit (d : Dims) (s : Source) (r : Row) where
  eI : List (Int × ℝ)
  eE : List (Int × ℝ)
  eF : List (Int × ℝ)
  eP : List (Int × ℝ)
  eW : List (Int × ℝ)
  all : r.entries = eI ++ (eE ++ (eF ++ (eP ++ eW)))
  lenI : (eI.length : Int) = numIntrinsicsPerMeasurement d
  inI : ∀ x ∈ eI, stateIndexIntrinsics s.icamI d ≤ x.1 ∧ x.1 < stateIndexIntrinsics s.icamI d + numIntrinsicsOpt d.sel d.lens
  E : eE.map (·.1) = cols (s.e d) 6
  F : eF.map (·.1) = cols (s.f d) 6
  P : eP.map (·.1) = cols (s.p d) 3
  W : eW.map (·.1) = cols (if s.w d then some (stateIndexWarp d) else none) 2

theorem intr_in {d : Dims} {icam : Int} {vs : List Var} {l : List (Int × ℝ)} (h : l.map (·.1) = vs.map (loc d)) (g : ∀ v ∈ vs, Present d v)
    (hv : ∀ v ∈ vs, ∃ k, v = .intrinsics icam k) : ∀ x ∈ l, stateIndexIntrinsics icam d ≤ x.1 ∧ x.1 < stateIndexIntrinsics icam d + numIntrinsicsOpt d.sel d.lens := by
  intro x hx
  have : x.1 ∈ vs.map (loc d) := by rw [← h]; exact List.mem_map_of_mem hx
  obtain ⟨v, hv1, hv2⟩ := List.mem_map.mp this
  obtain ⟨k, rfl⟩ := hv v hv1
  have hp := g _ hv1
  rw [← hv2, numIntrinsicsOpt_eq]
  simp only [Present] at hp
  simp only [loc]
  omega

theorem intrVars_form (d : Dims) (icam : Int) (p : Proj) (xy : Nat) : ∀ v ∈ intrVars d icam p xy, ∃ k, v = .intrinsics icam k := by
  intro v hv
  unfold intrVars at hv
  simp only at hv
  rcases List.mem_append.mp hv with h | h
  · cases hc : d.sel.core
    · simp [hc] at h
    · simp only [hc, if_true, List.mem_cons, List.not_mem_nil, or_false] at h
      rcases h with rfl | rfl <;> exact ⟨_, rfl⟩
  · cases hc : d.sel.distortions
    · simp [hc] at h
    · rw [hc, if_pos rfl] at h
      split at h
      · simp only [List.mem_flatMap, List.mem_map] at h
        obtain ⟨_, _, _, _, rfl⟩ := h
        exact ⟨_, rfl⟩
      · simp only [List.mem_map] at h
        obtain ⟨_, _, rfl⟩ := h
        exact ⟨_, rfl⟩

theorem cols_E (d : Dims) (s : Source) : (camVars d s.icamE).map (loc d) = cols (s.e d) 6 := by
  have : loop 6 = [0, 1, 2, 3, 4, 5] := by decide
  unfold camVars Source.e cols
  split_ifs with h <;> simp [this, loc, List.range_succ]

theorem cols_F (d : Dims) (a b i : Int) : (if d.sel.frames then (loop 6).map fun k => Var.frame i k else []).map (loc d) = cols (Source.f d ⟨a, b, .frame i⟩) 6 := by
  have : loop 6 = [0, 1, 2, 3, 4, 5] := by decide
  unfold Source.f cols
  cases d.sel.frames <;> simp [this, loc, List.range_succ]

theorem cols_P (d : Dims) (a b i : Int) : (if d.sel.frames = true ∧ i < d.Npoints - d.NpointsFixed then (loop 3).map fun k => Var.point i k else []).map (loc d) =
    cols (Source.p d ⟨a, b, .point i⟩) 3 := by
  have : loop 3 = [0, 1, 2] := by decide
  unfold Source.p cols
  simp only
  split_ifs with h <;> simp [this, loc, List.range_succ]

theorem boardRow_split (d : Dims) (o : BoardObs) (p : Proj) (f : Nat → ℝ) (ipt xy : Nat) (hxy : xy < 2) (hp : IvarOk d.lens p)
    (hok : Source.Ok d ⟨o.icamI, o.icamE, .frame o.iframe⟩) : Nonempty (RowSplit d ⟨o.icamI, o.icamE, .frame o.iframe⟩ (boardRow d o p f ipt xy)) := by
  have hw2 : ∀ g : Int → ℝ, (if hasCalobjectWarp d.sel d.Nob then (loop 2).map fun i => (stateIndexWarp d + i, g i) else []).map (·.1) =
      cols (if Source.w d ⟨o.icamI, o.icamE, .frame o.iframe⟩ then some (stateIndexWarp d) else none) 2 := by
    intro g
    have : loop 2 = [0, 1] := by decide
    have hob : 0 < d.Nob := hok.2.2.2.2.2
    unfold hasCalobjectWarp Source.w cols
    cases d.sel.warp <;> simp [hob, this, List.range_succ]
  have good := (intrVars_good (xy := xy) hxy hok.1 hok.2.1 hp).1.1
  have form := intrVars_form d o.icamI p xy
  unfold boardRow
  simp only
  by_cases hw : o.weight ipt ≥ 0
  · rw [if_pos hw]
    have h1 := camVars_cols d o.icamE fun k => if k < 3 then p.drcam xy k * o.weight ipt * scaleRotCamera
      else p.dtcam xy (k - 3) * o.weight ipt * scaleTransCamera
    have h2 := frame_cols d o.iframe fun k => if k < 3 then p.drframe xy k * o.weight ipt * scaleRotFrame
      else p.dtframe xy (k - 3) * o.weight ipt * scaleTransFrame
    rw [cols_F d o.icamI o.icamE] at h2
    rw [cols_E d ⟨o.icamI, o.icamE, .frame o.iframe⟩] at h1
    exact ⟨⟨_, _, _, [], _, by simp only [List.append_assoc]; rfl, intrinsicsEntries_length _ _ _ _ _ _,
      intr_in (intrinsicsEntries_cols d o.icamI p f _ xy) good form, h1, h2, rfl, hw2 _⟩⟩
  · rw [if_neg hw]
    have h1 := camVars_cols d o.icamE fun _ => 0
    have h2 := frame_cols d o.iframe fun _ => 0
    rw [cols_F d o.icamI o.icamE] at h2
    rw [cols_E d ⟨o.icamI, o.icamE, .frame o.iframe⟩] at h1
    exact ⟨⟨_, _, _, [], _, by simp only [List.append_assoc]; rfl, intrinsicsOutlierBoard_length _ _ _ _,
      intr_in (intrinsicsOutlierBoard_cols d o.icamI p xy) good form, h1, h2, rfl, hw2 _⟩⟩

theorem outlierPoint_in (d : Dims) (icam : Int) (xy : Nat) (hxy : xy < 2) (grid : ∀ order Nx Ny fov, d.lens = .splined order Nx Ny fov → order + 1 ≤ Nx ∧ order + 1 ≤ Ny) :
    ∀ x ∈ intrinsicsOutlierPoint d (stateIndexIntrinsics icam d) xy,
      stateIndexIntrinsics icam d ≤ x.1 ∧ x.1 < stateIndexIntrinsics icam d + numIntrinsicsOpt d.sel d.lens := by
  intro x hx
  have h4 := numParams_ge4 d.lens
  rw [numIntrinsicsOpt_eq]
  have hcore : NcoreState d = if d.sel.core then 4 else 0 := by
    unfold NcoreState; rw [show d.lens.hasCore = true from rfl]; simp
  unfold specIntrinsicsPerCamera
  unfold intrinsicsOutlierPoint at hx
  rcases List.mem_append.mp hx with h | h
  · cases hc : d.sel.core
    · simp [hc] at h
    · simp only [hc, if_true, List.mem_cons, List.not_mem_nil, or_false] at h
      rcases h with rfl | rfl <;> simp only [if_true] <;> split_ifs <;> omega
  · cases hc : d.sel.distortions
    · simp [hc] at h
    · rw [hc, if_pos rfl] at h
      rw [if_pos rfl]
      split at h
      · rename_i order Nx Ny fov hl
        obtain ⟨g1, g2⟩ := grid _ _ _ _ hl
        have hrun : ((order : Int) + 1) * (order + 1) ≤ 2 * Nx * Ny := by
          have : (order + 1) * (order + 1) ≤ Nx * Ny := Nat.mul_le_mul g1 g2
          zify at this
          nlinarith [(by positivity : (0 : Int) ≤ (Nx : Int) * Ny)]
        have hn : d.lens.numParams - 4 = 2 * (Nx : Int) * Ny := by rw [hl]; simp only [Lens.numParams]; ring
        simp only [List.mem_map, mem_loop] at h
        obtain ⟨i, hi, rfl⟩ := h
        rw [hn, hcore]
        simp only
        constructor <;> split_ifs <;> omega
      · simp only [List.mem_map, mem_loop] at h
        obtain ⟨i, hi, rfl⟩ := h
        rw [hcore]
        have : Ncore d.lens = 4 := by unfold Ncore; rw [show d.lens.hasCore = true from rfl]; rfl
        simp only
        constructor <;> split_ifs <;> omega

theorem pointRow_split (d : Dims) (o : PointObs) (p : Proj) (f : Nat → ℝ) (xy : Nat) (hxy : xy < 2) (hp : IvarOk d.lens p)
    (grid : ∀ order Nx Ny fov, d.lens = .splined order Nx Ny fov → order + 1 ≤ Nx ∧ order + 1 ≤ Ny)
    (hok : Source.Ok d ⟨o.icamI, o.icamE, .point o.ipoint⟩) : Nonempty (RowSplit d ⟨o.icamI, o.icamE, .point o.ipoint⟩ (pointRow d o p f xy)) := by
  have good := (intrVars_good (xy := xy) hxy hok.1 hok.2.1 hp).1.1
  have form := intrVars_form d o.icamI p xy
  unfold pointRow
  simp only
  by_cases hw : o.weight ≤ 0
  · rw [if_pos hw]
    have h1 := camVars_cols d o.icamE fun _ => 0
    have h2 := point_pos_cols d o fun _ => 0
    rw [cols_P d o.icamI o.icamE] at h2
    rw [cols_E d ⟨o.icamI, o.icamE, .point o.ipoint⟩] at h1
    refine ⟨⟨_, _, [], _, [], ?_, intrinsicsOutlierPoint_length _ _ _, outlierPoint_in d o.icamI xy hxy grid, h1, rfl, h2, rfl⟩⟩
    simp only [List.append_assoc, List.append_nil, List.nil_append]
    congr 2
    cases d.sel.extrinsics <;> by_cases h : o.icamE ≥ 0 <;> simp [h]
  · rw [if_neg hw]
    have h1 := camVars_cols d o.icamE fun k => if k < 3 then p.drcam xy k * o.weight * scaleRotCamera
      else p.dtcam xy (k - 3) * o.weight * scaleTransCamera
    have h2 := point_pos_cols d o fun k => p.dpoint xy k * o.weight * scalePoint
    rw [cols_P d o.icamI o.icamE] at h2
    rw [cols_E d ⟨o.icamI, o.icamE, .point o.ipoint⟩] at h1
    refine ⟨⟨_, _, [], _, [], ?_, intrinsicsEntries_length _ _ _ _ _ _,
      intr_in (intrinsicsEntries_cols d o.icamI p f o.weight xy) good form, h1, rfl, h2, rfl⟩⟩
    simp only [List.append_assoc, List.append_nil, List.nil_append]
    rfl

theorem forall₂_replicate {α β : Type _} (R : α → β → Prop) (a : α) (l : List β) (n : Nat) (hl : l.length = n) (h : ∀ x ∈ l, R a x) : List.Forall₂ R (List.replicate n a) l := by
  induction l generalizing n with
  | nil => subst hl; exact List.Forall₂.nil
  | cons x xs ih =>
    subst hl
    exact List.Forall₂.cons (h x (by simp)) (ih _ rfl fun y hy => h y (by simp [hy]))

theorem forall₂_flatMap_zipIdx {α β γ : Type _} (R : β → γ → Prop) (l : List α) (f : α → List β) (g : α × Nat → List γ) (k : Nat)
    (h : ∀ a i, a ∈ l → List.Forall₂ R (f a) (g (a, i))) : List.Forall₂ R (l.flatMap f) ((l.zipIdx k).flatMap g) := by
  induction l generalizing k with
  | nil => exact List.Forall₂.nil
  | cons a as ih =>
    rw [List.zipIdx_cons, List.flatMap_cons, List.flatMap_cons]
    exact List.rel_append (h a k (by simp)) (ih (k + 1) fun b i hb => h b i (by simp [hb]))

/-- each measurement, and where it comes from -/
theorem rows_split (c : Ctx) (idx : IdxOk c) (hob : c.d.Nob = c.boards.length) :
    List.Forall₂ (fun s r => Source.Ok c.d s ∧ Nonempty (RowSplit c.d s r)) (sources c) (boardRows c ++ pointRows c) := by
  unfold sources boardRows pointRows
  refine List.rel_append ?_ ?_
  · refine forall₂_flatMap_zipIdx _ _ _ _ 0 fun o i ho => forall₂_replicate _ _ _ _ ?_ fun r hr => ?_
    · rw [length_const _ _ 2 fun _ _ => rfl]; simp; ring
    · obtain ⟨h1, h2, h3, h4, h5⟩ := idx.boards o ho
      have hok : Source.Ok c.d ⟨o.icamI, o.icamE, .frame o.iframe⟩ := ⟨h1, h2, h3, h4, h5, by
        rw [hob]; exact_mod_cast List.length_pos_of_mem ho⟩
      simp only [List.mem_flatMap, List.mem_map] at hr
      obtain ⟨ipt, -, xy, hxy, rfl⟩ := hr
      exact ⟨hok, boardRow_split c.d o _ _ ipt xy (by simp at hxy; omega) (idx.projBoard _ _) hok⟩
  · refine forall₂_flatMap_zipIdx _ _ _ _ 0 fun o i ho => forall₂_replicate _ _ _ _ rfl fun r hr => ?_
    obtain ⟨h1, h2, h3, h4, h5⟩ := idx.points o ho
    have hok : Source.Ok c.d ⟨o.icamI, o.icamE, .point o.ipoint⟩ := ⟨h1, h2, h3, h4, h5⟩
    simp only [List.mem_map] at hr
    obtain ⟨xy, hxy, rfl⟩ := hr
    exact ⟨hok, pointRow_split c.d o _ _ xy (by simp at hxy; omega) (idx.projPoint _) idx.grid hok⟩

/-! ### where the columns are -/

theorem range_iff {d : Dims} (wf : WF d) (c : Int) :
    (inRange (stateIndexIntrinsics 0 d) (numStatesIntrinsics d) c ↔ 0 ≤ c ∧ c < numStatesIntrinsics d) ∧
    (inRange (stateIndexExtrinsics 0 d) (numStatesExtrinsics d) c ↔ numStatesIntrinsics d ≤ c ∧ c < numStatesIntrinsics d + numStatesExtrinsics d) ∧
    (inRange (stateIndexFrames 0 d) (numStatesFrames d) c ↔ numStatesIntrinsics d + numStatesExtrinsics d ≤ c ∧ c < numStatesIntrinsics d + numStatesExtrinsics d + numStatesFrames d) ∧
    (inRange (stateIndexPoints 0 d) (numStatesPoints d) c ↔ numStatesIntrinsics d + numStatesExtrinsics d + numStatesFrames d ≤ c ∧
      c < numStatesIntrinsics d + numStatesExtrinsics d + numStatesFrames d + numStatesPoints d) ∧
    (inRange (stateIndexWarp d) (numStatesWarp d) c ↔ numStatesIntrinsics d + numStatesExtrinsics d + numStatesFrames d + numStatesPoints d ≤ c ∧ c < numStates d) := by
  obtain ⟨n1, n2, n3, n4, n5⟩ := nonnegs wf
  obtain ⟨w1, w2, w3, w4, w5⟩ := wf
  unfold inRange
  refine ⟨?_, ?_, ?_, ?_, ?_⟩
  · by_cases h : 0 < numStatesIntrinsics d
    · have : stateIndexIntrinsics 0 d = 0 := by
        unfold numStatesIntrinsics at h
        unfold stateIndexIntrinsics
        have h1 : ¬ d.Nci ≤ 0 := fun h' => by rw [show d.Nci = 0 by omega] at h; simp at h
        have h2 : ¬ numIntrinsicsOpt d.sel d.lens ≤ 0 := fun h => by nlinarith
        simp only [if_neg h1, if_neg h2]
        rw [if_neg (by simp; omega)]; simp
      omega
    · omega
  · by_cases h : 0 < numStatesExtrinsics d
    · have : stateIndexExtrinsics 0 d = numStatesIntrinsics d := by
        unfold numStatesExtrinsics at h
        unfold stateIndexExtrinsics
        split_ifs at h with c1
        rw [if_neg (by omega), if_neg (by simp [c1]), if_neg (by simp; omega)]; omega
        omega
      omega
    · omega
  · by_cases h : 0 < numStatesFrames d
    · have : stateIndexFrames 0 d = numStatesIntrinsics d + numStatesExtrinsics d := by
        unfold numStatesFrames at h
        unfold stateIndexFrames
        split_ifs at h with c1
        rw [if_neg (by omega), if_neg (by simp [c1]), if_neg (by simp; omega)]; omega
        omega
      omega
    · omega
  · by_cases h : 0 < numStatesPoints d
    · have : stateIndexPoints 0 d = numStatesIntrinsics d + numStatesExtrinsics d + numStatesFrames d := by
        unfold numStatesPoints at h
        unfold stateIndexPoints
        simp only at h ⊢
        split_ifs at h with c1
        rw [if_neg (by omega), if_neg (by simp [c1]), if_neg (by simp; omega)]; omega
        omega
      omega
    · omega
  · unfold numStates
    by_cases h : 0 < numStatesWarp d
    · have : stateIndexWarp d = numStatesIntrinsics d + numStatesExtrinsics d + numStatesFrames d + numStatesPoints d := by
        unfold numStatesWarp at h
        unfold stateIndexWarp
        split_ifs at h with c1
        rw [if_neg (by simp [c1])]
        omega
      omega
    · omega

theorem Source.e_range {d : Dims} {s : Source} (hs : s.Ok d) {c : Int} (h : s.e d = some c) :
    numStatesIntrinsics d ≤ c ∧ c + 6 ≤ numStatesIntrinsics d + numStatesExtrinsics d := by
  unfold Source.e at h
  split_ifs at h with h1
  obtain rfl := Option.some.inj h
  obtain ⟨s1, s2, s3, -⟩ := hs
  unfold stateIndexExtrinsics numStatesExtrinsics
  rw [if_neg (by omega), if_neg (by simp [h1.1]), if_neg (by simp; omega), if_pos h1.1]
  omega

theorem Source.f_range {d : Dims} {s : Source} (hs : s.Ok d) {c : Int} (h : s.f d = some c) :
    numStatesIntrinsics d + numStatesExtrinsics d ≤ c ∧ c + 6 ≤ numStatesIntrinsics d + numStatesExtrinsics d + numStatesFrames d := by
  obtain ⟨a, b, w⟩ := s
  cases w with
  | point i => simp [Source.f] at h
  | frame i =>
    simp only [Source.f] at h
    split_ifs at h with h1
    obtain rfl := Option.some.inj h
    obtain ⟨s1, s2, s3, s4, s5, s6⟩ := hs
    unfold stateIndexFrames numStatesFrames
    rw [if_neg (by omega), if_neg (by simp [h1]), if_neg (by simp; omega), if_pos h1]
    omega

theorem Source.p_range {d : Dims} {s : Source} (hs : s.Ok d) {c : Int} (h : s.p d = some c) :
    numStatesIntrinsics d + numStatesExtrinsics d + numStatesFrames d ≤ c ∧
      c + 3 ≤ numStatesIntrinsics d + numStatesExtrinsics d + numStatesFrames d + numStatesPoints d := by
  obtain ⟨a, b, w⟩ := s
  cases w with
  | frame i => simp [Source.p] at h
  | point i =>
    simp only [Source.p] at h
    split_ifs at h with h1
    obtain rfl := Option.some.inj h
    obtain ⟨s1, s2, s3, s4, s5⟩ := hs
    unfold stateIndexPoints numStatesPoints
    simp only
    rw [if_neg (by omega), if_neg (by simp [h1.1]), if_neg (by simp; omega), if_pos h1.1]
    omega

theorem Source.w_range {d : Dims} {s : Source} (hs : s.Ok d) (h : s.w d = true) :
    stateIndexWarp d = numStatesIntrinsics d + numStatesExtrinsics d + numStatesFrames d + numStatesPoints d ∧ numStatesWarp d = 2 := by
  obtain ⟨a, b, w⟩ := s
  cases w with
  | point i => simp [Source.w] at h
  | frame i =>
    simp only [Source.w] at h
    obtain ⟨s1, s2, s3, s4, s5, s6⟩ := hs
    have : hasCalobjectWarp d.sel d.Nob = true := by unfold hasCalobjectWarp; simp [h, s6]
    unfold stateIndexWarp numStatesWarp
    simp [this]

theorem intr_range {d : Dims} {s : Source} (hs : s.Ok d) {c : Int}
    (h : stateIndexIntrinsics s.icamI d ≤ c ∧ c < stateIndexIntrinsics s.icamI d + numIntrinsicsOpt d.sel d.lens) :
    0 ≤ c ∧ c < numStatesIntrinsics d ∧ (c - stateIndexIntrinsics 0 d).tdiv ((numStatesIntrinsics d).tdiv d.Nci) = s.icamI := by
  obtain ⟨s1, s2, -⟩ := hs
  have hN : 0 < numIntrinsicsOpt d.sel d.lens := by omega
  have e0 : stateIndexIntrinsics 0 d = 0 := by
    unfold stateIndexIntrinsics
    simp only
    rw [if_neg (by omega), if_neg (by omega), if_neg (by simp; omega)]; simp
  have e1 : stateIndexIntrinsics s.icamI d = s.icamI * numIntrinsicsOpt d.sel d.lens := by
    unfold stateIndexIntrinsics
    simp only
    rw [if_neg (by omega), if_neg (by omega), if_neg (by simp; omega)]
  rw [e1] at h
  rw [e0]
  unfold numStatesIntrinsics
  generalize numIntrinsicsOpt d.sel d.lens = N at *
  have hp : 0 ≤ s.icamI * N := by positivity
  refine ⟨by omega, by nlinarith, ?_⟩
  rw [Int.mul_tdiv_cancel_left _ (by omega), sub_zero, Int.tdiv_eq_ediv_of_nonneg (by omega)]
  exact (Int.ediv_eq_iff_of_pos hN).mpr h

end Mrcal.Uncertainty

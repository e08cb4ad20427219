import Verif.Model.Pack
import Verif.Props.CallbackCountProps
/-
C06, C07: packing and unpacking.
-/
namespace Mrcal.Pack
open Mrcal Mrcal.Callback Mrcal.StateLayout

/-! ### Specification -/

/-- The unit of each state variable: one packed unit is this much of the real thing. -/
noncomputable def unit (d : Dims) : Var → ℝ
  | .intrinsics _ k =>
    if d.sel.core then (if k < 2 then scaleFocal else if k < 4 then scaleCenter else scaleDistortion)
    else scaleDistortion
  | .extrinsics _ k => if k < 3 then scaleRotCamera else scaleTransCamera
  | .frame _ k => if k < 3 then scaleRotFrame else scaleTransFrame
  | .point _ _ => scalePoint
  | .warp _ => scaleWarp

/-- Which element of the parameter arrays each state variable stands for. The state has the optimized
subset of each camera's intrinsics: if the core is locked, the first 4 values are skipped. -/
def home (d : Dims) : Var → Addr
  | .intrinsics i k => .intr (i * d.lens.numParams + (if d.sel.core then k else k + 4))
  | .extrinsics i k => .cam i k
  | .frame i k => .frame i k
  | .point i k => .point i k
  | .warp k => .warp k

/-! ### Helper lemmas: the list of all variables -/

theorem loop_zero : loop 0 = [] := rfl

theorem loop_nonpos {n : Int} (h : n ≤ 0) : loop n = [] := by
  have : n.toNat = 0 := by omega
  simp [loop, this]

theorem loop_add {a b : Int} (ha : 0 ≤ a) (hb : 0 ≤ b) :
    loop (a + b) = loop a ++ (loop b).map (fun k => a + k) := by
  obtain ⟨n, rfl⟩ := Int.eq_ofNat_of_zero_le ha
  obtain ⟨m, rfl⟩ := Int.eq_ofNat_of_zero_le hb
  have : ((n : Int) + (m : Int)).toNat = n + m := by omega
  simp only [loop, this, Int.toNat_natCast, List.range_add, List.map_append, List.map_map]
  congr 1

theorem loop_succ {n : Int} (h : 0 ≤ n) : loop (n + 1) = loop n ++ [n] := by
  rw [loop_add h (by omega)]; simp [loop]

theorem loop_mul (M : Nat) {N : Int} (hN : 0 ≤ N) :
    (loop (M * N)) = (loop M).flatMap (fun c => (loop N).map (fun k => c * N + k)) := by
  induction M with
  | zero => simp [loop]
  | succ n ih =>
    have h1 : ((n + 1 : Nat) : Int) * N = n * N + N := by push_cast; ring
    have h2 : ((n + 1 : Nat) : Int) = (n : Int) + 1 := by push_cast; ring
    rw [h1, loop_add (by positivity) hN, ih, h2, loop_succ (by omega)]
    simp [List.flatMap_append]

theorem loop_mul' {M N : Int} (hM : 0 ≤ M) (hN : 0 ≤ N) :
    (loop M).flatMap (fun c => (loop N).map (fun k => c * N + k)) = loop (M * N) := by
  obtain ⟨n, rfl⟩ := Int.eq_ofNat_of_zero_le hM
  exact (loop_mul n hN).symm

def intrVarsL (d : Dims) : List Var :=
  (loop d.Nci).flatMap fun c => (loop (specIntrinsicsPerCamera d.sel d.lens)).map fun k => .intrinsics c k
def extrVarsL (d : Dims) : List Var :=
  if d.sel.extrinsics then (loop d.Nce).flatMap fun c => (loop 6).map fun k => .extrinsics c k else []
def frameVarsL (d : Dims) : List Var :=
  if d.sel.frames then (loop d.Nframes).flatMap fun c => (loop 6).map fun k => .frame c k else []
def pointVarsL (d : Dims) : List Var :=
  if d.sel.frames then (loop (d.Npoints - d.NpointsFixed)).flatMap fun c => (loop 3).map fun k => .point c k
  else []
def warpVarsL (d : Dims) : List Var :=
  if hasCalobjectWarp d.sel d.Nob then (loop 2).map fun k => .warp k else []

def allVars (d : Dims) : List Var :=
  intrVarsL d ++ extrVarsL d ++ frameVarsL d ++ pointVarsL d ++ warpVarsL d

theorem mem_blockL {v : Var} {M N : Int} {f : Int → Int → Var} :
    (v ∈ (loop M).flatMap fun c => (loop N).map fun k => f c k) ↔
      ∃ c k, (0 ≤ c ∧ c < M) ∧ (0 ≤ k ∧ k < N) ∧ f c k = v := by
  simp only [List.mem_flatMap, List.mem_map, mem_loop]
  constructor
  · rintro ⟨c, hc, k, hk, h⟩; exact ⟨c, k, hc, hk, h⟩
  · rintro ⟨c, k, hc, hk, h⟩; exact ⟨c, hc, k, hk, h⟩

theorem mem_intrVarsL {d : Dims} {v : Var} : v ∈ intrVarsL d ↔
    ∃ c k, (0 ≤ c ∧ c < d.Nci) ∧ (0 ≤ k ∧ k < specIntrinsicsPerCamera d.sel d.lens) ∧ Var.intrinsics c k = v :=
  mem_blockL

theorem mem_iteL {v : Var} {p : Bool} {l : List Var} : (v ∈ if p then l else []) ↔ p = true ∧ v ∈ l := by
  cases p <;> simp

theorem mem_allVars {d : Dims} {v : Var} : v ∈ allVars d ↔ Present d v := by
  simp only [allVars, List.mem_append, mem_intrVarsL, extrVarsL, frameVarsL, pointVarsL, warpVarsL, mem_iteL,
    mem_blockL, List.mem_map, mem_loop]
  cases v with
  | intrinsics i k =>
    constructor
    · rintro ((((⟨c, k', h1, h2, h⟩ | ⟨-, c, k', h1, h2, h⟩) | ⟨-, c, k', h1, h2, h⟩) | ⟨-, c, k', h1, h2, h⟩) | ⟨-, k', h1, h⟩) <;> cases h
      exact ⟨h1.1, h1.2, h2.1, h2.2⟩
    · rintro ⟨h1, h2, h3, h4⟩
      exact Or.inl (Or.inl (Or.inl (Or.inl ⟨i, k, ⟨h1, h2⟩, ⟨h3, h4⟩, rfl⟩)))
  | extrinsics i k =>
    constructor
    · rintro ((((⟨c, k', h1, h2, h⟩ | ⟨h0, c, k', h1, h2, h⟩) | ⟨-, c, k', h1, h2, h⟩) | ⟨-, c, k', h1, h2, h⟩) | ⟨-, k', h1, h⟩) <;> cases h
      exact ⟨h0, h1.1, h1.2, h2.1, h2.2⟩
    · rintro ⟨h0, h1, h2, h3, h4⟩
      exact Or.inl (Or.inl (Or.inl (Or.inr ⟨h0, i, k, ⟨h1, h2⟩, ⟨h3, h4⟩, rfl⟩)))
  | frame i k =>
    constructor
    · rintro ((((⟨c, k', h1, h2, h⟩ | ⟨h0, c, k', h1, h2, h⟩) | ⟨h0, c, k', h1, h2, h⟩) | ⟨-, c, k', h1, h2, h⟩) | ⟨-, k', h1, h⟩) <;> cases h
      exact ⟨h0, h1.1, h1.2, h2.1, h2.2⟩
    · rintro ⟨h0, h1, h2, h3, h4⟩
      exact Or.inl (Or.inl (Or.inr ⟨h0, i, k, ⟨h1, h2⟩, ⟨h3, h4⟩, rfl⟩))
  | point i k =>
    constructor
    · rintro ((((⟨c, k', h1, h2, h⟩ | ⟨h0, c, k', h1, h2, h⟩) | ⟨h0, c, k', h1, h2, h⟩) | ⟨h0, c, k', h1, h2, h⟩) | ⟨-, k', h1, h⟩) <;> cases h
      exact ⟨h0, h1.1, h1.2, h2.1, h2.2⟩
    · rintro ⟨h0, h1, h2, h3, h4⟩
      exact Or.inl (Or.inr ⟨h0, i, k, ⟨h1, h2⟩, ⟨h3, h4⟩, rfl⟩)
  | warp k =>
    constructor
    · rintro ((((⟨c, k', h1, h2, h⟩ | ⟨h0, c, k', h1, h2, h⟩) | ⟨h0, c, k', h1, h2, h⟩) | ⟨h0, c, k', h1, h2, h⟩) | ⟨h0, k', h1, h⟩) <;> cases h
      simp only [hasCalobjectWarp, Bool.and_eq_true, decide_eq_true_eq] at h0
      exact ⟨h0.1, h0.2, h1.1, h1.2⟩
    · rintro ⟨h0, h1, h2, h3⟩
      refine Or.inr ⟨?_, k, ⟨h2, h3⟩, rfl⟩
      simp only [hasCalobjectWarp, Bool.and_eq_true, decide_eq_true_eq]
      exact ⟨h0, h1⟩

theorem map_block {α} (f : Int → Int → α) (g : α → Int) (M N base : Int) (hM : 0 ≤ M) (hN : 0 ≤ N)
    (h : ∀ c k, 0 ≤ c → c < M → 0 ≤ k → k < N → g (f c k) = base + (c * N + k)) :
    ((loop M).flatMap fun c => (loop N).map fun k => f c k).map g = (loop (M * N)).map fun k => base + k := by
  rw [← loop_mul' hM hN]
  simp only [List.map_flatMap, List.map_map]
  refine List.flatMap_congr fun c hc => List.map_congr_left fun k hk => ?_
  obtain ⟨h1, h2⟩ := mem_loop.1 hc
  obtain ⟨h3, h4⟩ := mem_loop.1 hk
  exact h c k h1 h2 h3 h4

/-- The variables, in order, occupy 0,1,2,...,Nstate-1. -/
theorem allVars_loc (d : Dims) (wf : WF d) : (allVars d).map (loc d) = loop (numStates d) := by
  obtain ⟨n1, n2, n3, n4, n5⟩ := nonnegs wf
  have hi : (intrVarsL d).map (loc d) = loop (numStatesIntrinsics d) := by
    rw [intrVarsL, map_block _ _ _ _ 0 wf.nci (spec_nonneg _ _), nIntr_eq]
    · simp
    · intro c k h1 h2 h3 h4; rw [intr_loc ⟨h1, h2, h3, h4⟩]; ring
  have hx : (extrVarsL d).map (loc d) = (loop (numStatesExtrinsics d)).map fun k => numStatesIntrinsics d + k := by
    rw [nExtr_eq, extrVarsL]
    split
    · rename_i h
      rw [map_block _ _ _ _ (numStatesIntrinsics d) wf.nce (by norm_num)]
      intro c k h1 h2 h3 h4; rw [extr_loc ⟨h, h1, h2, h3, h4⟩]
    · simp [loop_zero]
  have hf : (frameVarsL d).map (loc d) = (loop (numStatesFrames d)).map fun k =>
      numStatesIntrinsics d + numStatesExtrinsics d + k := by
    rw [nFrames_eq, frameVarsL]
    split
    · rename_i h
      rw [map_block _ _ _ _ (numStatesIntrinsics d + numStatesExtrinsics d) wf.nframes (by norm_num)]
      intro c k h1 h2 h3 h4; rw [frame_loc ⟨h, h1, h2, h3, h4⟩]
    · simp [loop_zero]
  have hp : (pointVarsL d).map (loc d) = (loop (numStatesPoints d)).map fun k =>
      numStatesIntrinsics d + numStatesExtrinsics d + numStatesFrames d + k := by
    rw [numStatesPoints, pointVarsL]
    split
    · rename_i h
      rw [map_block _ _ _ _ (numStatesIntrinsics d + numStatesExtrinsics d + numStatesFrames d)
        (by have := wf.np; omega) (by norm_num)]
      intro c k h1 h2 h3 h4; rw [point_loc ⟨h, h1, h2, h3, h4⟩]
    · simp [loop_zero]
  have hw : (warpVarsL d).map (loc d) = (loop (numStatesWarp d)).map fun k =>
      numStatesIntrinsics d + numStatesExtrinsics d + numStatesFrames d + numStatesPoints d + k := by
    rw [numStatesWarp, warpVarsL]
    split
    · rename_i h
      rw [List.map_map]
      refine List.map_congr_left fun k hk => ?_
      obtain ⟨h3, h4⟩ := mem_loop.1 hk
      simp only [hasCalobjectWarp, Bool.and_eq_true, decide_eq_true_eq] at h
      exact warp_loc ⟨h.1, h.2, h3, h4⟩
    · simp [loop_zero]
  rw [numStates, loop_add (by omega) n5, loop_add (by omega) n4, loop_add (by omega) n3, loop_add n1 n2]
  simp only [allVars, List.map_append, hi, hx, hf, hp, hw]

/-! ### Helper lemmas: sequential passes -/

/-- A pass that replaces successive elements -/
noncomputable def pass (f : ℝ → ℝ → ℝ) (Ss : List ℝ) (s : Mem × Int) : Mem × Int :=
  Ss.foldl (fun s S => (put s.1 s.2 (f (s.1 s.2) S), s.2 + 1)) s

theorem pass_cursor (f) (Ss : List ℝ) (s : Mem × Int) : (pass f Ss s).2 = s.2 + Ss.length := by
  induction Ss generalizing s with
  | nil => simp [pass]
  | cons S Ss ih =>
    have := ih (put s.1 s.2 (f (s.1 s.2) S), s.2 + 1)
    simp only [pass, List.foldl_cons] at this ⊢
    rw [this]; simp; ring

theorem pass_append (f) (A B : List ℝ) (s) : pass f (A ++ B) s = pass f B (pass f A s) := by
  simp [pass]

theorem pass_outside (f) (Ss : List ℝ) (s : Mem × Int) (j : Int) (h : j < s.2 ∨ s.2 + Ss.length ≤ j) :
    (pass f Ss s).1 j = s.1 j := by
  induction Ss generalizing s with
  | nil => rfl
  | cons S Ss ih =>
    have := ih (put s.1 s.2 (f (s.1 s.2) S), s.2 + 1) (by simp only [List.length_cons] at h; push_cast at h; simp only; omega)
    simp only [pass, List.foldl_cons] at this ⊢
    rw [this]
    simp only [List.length_cons] at h; push_cast at h
    rw [put, if_neg (by omega)]

theorem pass_inside (f) (Ss : List ℝ) (s : Mem × Int) (k : Nat) (S : ℝ) (h : Ss[k]? = some S) :
    (pass f Ss s).1 (s.2 + k) = f (s.1 (s.2 + k)) S := by
  induction Ss generalizing s k with
  | nil => simp at h
  | cons S' Ss ih =>
    have hstep : pass f (S' :: Ss) s = pass f Ss (put s.1 s.2 (f (s.1 s.2) S'), s.2 + 1) := rfl
    rw [hstep]
    cases k with
    | zero =>
      simp at h; subst h
      rw [pass_outside _ _ _ _ (Or.inl (by simp))]
      simp [put]
    | succ k =>
      have := ih (put s.1 s.2 (f (s.1 s.2) S'), s.2 + 1) k (by simpa using h)
      simp only at this
      rw [show s.2 + ((k + 1 : Nat) : Int) = s.2 + 1 + k by push_cast; ring, this]
      rw [put, if_neg (by omega)]

theorem foldl_pass {β} (f) (l : List β) (g : β → List ℝ) (s : Mem × Int) :
    l.foldl (fun s c => pass f (g c) s) s = pass f (l.flatMap g) s := by
  induction l generalizing s with
  | nil => rfl
  | cons a l ih => simp [ih, pass_append]

/-- the scales of the intrinsics of one camera, in the order of the code -/
noncomputable def intrScales (d : Dims) : List ℝ :=
  (if d.sel.core && d.lens.hasCore then [scaleFocal, scaleFocal, scaleCenter, scaleCenter] else []) ++
  (if d.sel.distortions then (loop (d.lens.numParams - Ncore d.lens)).map fun _ => scaleDistortion else [])

theorem intrScales_eq (d : Dims) (c : Int) :
    intrScales d = (loop (specIntrinsicsPerCamera d.sel d.lens)).map fun k => unit d (.intrinsics c k) := by
  have h4 := numParams_ge4 d.lens
  have hc : d.lens.hasCore = true := rfl
  have hn : Ncore d.lens = 4 := rfl
  simp only [intrScales, specIntrinsicsPerCamera, hc, hn, Bool.and_true, unit]
  by_cases h1 : d.sel.core = true <;> by_cases h2 : d.sel.distortions = true <;> simp only [h1, h2, if_true, if_false, Bool.false_eq_true]
  · rw [loop_add (by norm_num) (by omega), List.map_append, List.map_map]
    have hl : loop 4 = [0, 1, 2, 3] := by decide
    rw [hl]
    refine congrArg₂ (· ++ ·) (by norm_num) ?_
    · refine List.map_congr_left fun k hk => ?_
      obtain ⟨h3, h4⟩ := mem_loop.1 hk
      simp only [Function.comp]
      rw [if_neg (by omega), if_neg (by omega)]
  · have hl : loop (4 + 0) = [0, 1, 2, 3] := by decide
    rw [hl]
    norm_num
  · simp
  · simp [loop]

theorem camScales_eq (d : Dims) (c : Int) :
    poseScalesCamera = (loop 6).map fun k => unit d (.extrinsics c k) := by
  have : loop 6 = [0, 1, 2, 3, 4, 5] := by decide
  norm_num [this, poseScalesCamera, unit]
theorem frameScales_eq (d : Dims) (c : Int) :
    poseScalesFrame = (loop 6).map fun k => unit d (.frame c k) := by
  have : loop 6 = [0, 1, 2, 3, 4, 5] := by decide
  norm_num [this, poseScalesFrame, unit]
theorem pointScales_eq (d : Dims) (c : Int) :
    pointScales = (loop 3).map fun k => unit d (.point c k) := by
  have : loop 3 = [0, 1, 2] := by decide
  norm_num [this, pointScales, unit]
theorem warpScales_eq (d : Dims) :
    warpScales = (loop 2).map fun k => unit d (.warp k) := by
  have : loop 2 = [0, 1] := by decide
  norm_num [this, warpScales, unit]

/-- the scales of the whole state, as the code visits them -/
noncomputable def codeScales (d : Dims) : List ℝ :=
  ((loop d.Nci).flatMap fun _ => intrScales d) ++
  (if d.sel.extrinsics then (loop d.Nce).flatMap fun _ => poseScalesCamera else []) ++
  (if d.sel.frames then (loop d.Nframes).flatMap fun _ => poseScalesFrame else []) ++
  (if d.sel.frames then (loop (d.Npoints - d.NpointsFixed)).flatMap fun _ => pointScales else []) ++
  (if hasCalobjectWarp d.sel d.Nob then warpScales else [])

theorem codeScales_eq (d : Dims) : codeScales d = (allVars d).map (unit d) := by
  simp only [codeScales, allVars, List.map_append]
  congr 1; congr 1; congr 1; congr 1
  · rw [intrVarsL, List.map_flatMap]
    exact List.flatMap_congr fun c _ => by rw [intrScales_eq d c, List.map_map]; rfl
  · rw [extrVarsL]; split
    · rw [List.map_flatMap]
      exact List.flatMap_congr fun c _ => by rw [camScales_eq d c, List.map_map]; rfl
    · rfl
  · rw [frameVarsL]; split
    · rw [List.map_flatMap]
      exact List.flatMap_congr fun c _ => by rw [frameScales_eq d c, List.map_map]; rfl
    · rfl
  · rw [pointVarsL]; split
    · rw [List.map_flatMap]
      exact List.flatMap_congr fun c _ => by rw [pointScales_eq d c, List.map_map]; rfl
    · rfl
  · rw [warpVarsL]; split
    · rw [warpScales_eq d, List.map_map]; rfl
    · rfl

theorem codeScales_loc (d : Dims) (wf : WF d) (v : Var) (h : Present d v) :
    ∃ k : Nat, (k : Int) = loc d v ∧ (codeScales d)[k]? = some (unit d v) := by
  obtain ⟨k, hk⟩ := List.mem_iff_getElem?.1 (mem_allVars.2 h)
  refine ⟨k, ?_, by rw [codeScales_eq]; simp [hk]⟩
  have h1 : ((allVars d).map (loc d))[k]? = some (loc d v) := by simp [hk]
  rw [allVars_loc d wf] at h1
  simp only [loop, List.getElem?_map] at h1
  rw [Option.map_eq_some_iff] at h1
  obtain ⟨a, ha, h2⟩ := h1
  rw [List.getElem?_eq_some_iff] at ha
  obtain ⟨h3, h4⟩ := ha
  rw [List.getElem_range] at h4
  subst h4
  exact h2

theorem codeScales_length (d : Dims) (wf : WF d) : ((codeScales d).length : Int) = numStates d := by
  have h1 : (codeScales d).length = ((allVars d).map (loc d)).length := by simp [codeScales_eq]
  rw [h1, allVars_loc d wf, loop_length]
  have := nonnegs wf
  simp only [numStates]; omega

/-- the intrinsics pass of the pack code -/
theorem intrSubset_eq (f : ℝ → ℝ → ℝ) (d : Dims) (s : Mem × Int)
    (next : ℝ → Mem × Int → Mem × Int) (hnext : next = fun S s => pass f [S] s) :
    (if !d.sel.core && !d.sel.distortions then s
     else
      (loop d.Nci).foldl (fun s _ =>
        let s := if d.sel.core && d.lens.hasCore then
            next scaleCenter (next scaleCenter (next scaleFocal (next scaleFocal s))) else s
        if d.sel.distortions then
          (loop (d.lens.numParams - Ncore d.lens)).foldl (fun s _ => next scaleDistortion s) s else s) s) =
    pass f ((loop d.Nci).flatMap fun _ => intrScales d) s := by
  subst hnext
  have hstep : ∀ s : Mem × Int,
      (let s := if d.sel.core && d.lens.hasCore then
            pass f [scaleCenter] (pass f [scaleCenter] (pass f [scaleFocal] (pass f [scaleFocal] s))) else s
        if d.sel.distortions then
          (loop (d.lens.numParams - Ncore d.lens)).foldl (fun s _ => pass f [scaleDistortion] s) s else s) =
      pass f (intrScales d) s := by
    intro s
    simp only [intrScales, pass_append]
    have hm : ∀ l : List Int, (l.flatMap fun _ => [scaleDistortion]) = l.map fun _ => scaleDistortion := by
      intro l
      induction l with
      | nil => rfl
      | cons a l ih => rw [List.flatMap_cons, ih]; rfl
    simp only [foldl_pass, hm]
    split <;> split <;> rfl
  rw [← foldl_pass]
  split
  · rename_i h
    simp at h
    have : intrScales d = [] := by simp [intrScales, h]
    have e : ∀ l : List Int, (l.flatMap fun _ => ([] : List ℝ)) = [] := by intro l; simp
    rw [foldl_pass, this, e]; rfl
  · congr 1
    funext s _
    exact hstep s

theorem divFrom_self (S : ℝ) (s : Mem × Int) (p : Int) (h : p = s.2) :
    divFrom p S s = pass (· / ·) [S] s := by
  subst h; rfl

theorem packPose_eq (SR ST : ℝ) (s : Mem × Int) :
    packPose SR ST s = pass (· / ·) [SR, SR, SR, ST, ST, ST] s := by
  simp only [packPose, divFrom, pass, List.foldl_cons, List.foldl_nil]
  simp only [add_zero, show ∀ x : Int, x + 2 = x + 1 + 1 by intros; ring, show ∀ x : Int, x + 3 = x + 1 + 1 + 1 by intros; ring,
    show ∀ x : Int, x + 4 = x + 1 + 1 + 1 + 1 by intros; ring, show ∀ x : Int, x + 5 = x + 1 + 1 + 1 + 1 + 1 by intros; ring]

theorem packPoint_eq (s : Mem × Int) : packPoint s = pass (· / ·) pointScales s := by
  simp only [packPoint, divFrom, pass, pointScales, List.foldl_cons, List.foldl_nil]
  simp only [add_zero, show ∀ x : Int, x + 2 = x + 1 + 1 by intros; ring]

theorem packVector_eq (d : Dims) (b : Mem) : packVector d b = pass (· / ·) (codeScales d) (b, 0) := by
  have h0 : packIntrinsicsSubset d (b, 0) = pass (· / ·) ((loop d.Nci).flatMap fun _ => intrScales d) (b, 0) :=
    intrSubset_eq (· / ·) d (b, 0) divNext rfl
  simp only [packVector, h0, packPose_eq, packPoint_eq, foldl_pass, codeScales, pass_append]
  have h1 : ∀ s, (divFrom (s.2 + 1) scaleWarp (divFrom (s.2 + 0) scaleWarp s)) = pass (· / ·) warpScales s := by
    intro s; simp [divFrom, pass, warpScales]
  simp only [h1]
  have e : ∀ s, pass (· / ·) [] s = s := fun _ => rfl
  by_cases c1 : d.sel.extrinsics = true <;> by_cases c2 : d.sel.frames = true <;>
    by_cases c3 : hasCalobjectWarp d.sel d.Nob = true <;> simp [c1, c2, c3, e, poseScalesCamera, poseScalesFrame]

theorem unpackInPlace_eq (dst : Int) (Ss : List ℝ) (s : Mem × Int) (h : dst = s.2) :
    unpackInPlace dst Ss s = pass (· * ·) Ss s := by
  subst h
  have : ∀ (Ss : List ℝ) (m : Mem) (k : Int),
      (Ss.foldl (fun (t : Mem × Int) S => (put t.1 (s.2 + t.2) (t.1 (s.2 + t.2) * S), t.2 + 1)) (m, k)) =
      ((pass (· * ·) Ss (m, s.2 + k)).1, (pass (· * ·) Ss (m, s.2 + k)).2 - s.2) := by
    intro Ss
    induction Ss with
    | nil => intro m k; simp [pass]
    | cons S Ss ih =>
      intro m k
      simp only [List.foldl_cons]
      rw [ih]
      simp only [pass, List.foldl_cons]
      rw [show s.2 + (k + 1) = s.2 + k + 1 by ring]
  simp only [unpackInPlace, this]
  simp

theorem unpackLoop_eq (Ss : List ℝ) (m : Mem × Int) (base : Int) (L : Int) (hL : (Ss.length : Int) = L)
    (hb : base = m.2) (n : Int) :
    (loop n).foldl (fun s i => unpackInPlace (base + L * i) Ss s) m =
      pass (· * ·) ((loop n).flatMap fun _ => Ss) m := by
  subst hb
  by_cases hn : n ≤ 0
  · rw [loop_nonpos hn]; rfl
  · obtain ⟨k, rfl⟩ := Int.eq_ofNat_of_zero_le (show 0 ≤ n by omega)
    clear hn
    induction k with
    | zero => rfl
    | succ k ih =>
      have h2 : ((k + 1 : Nat) : Int) = (k : Int) + 1 := by push_cast; ring
      rw [h2, loop_succ (by omega), List.foldl_append, ih, List.flatMap_append, pass_append]
      simp only [List.foldl_cons, List.foldl_nil, List.flatMap_cons, List.flatMap_nil, List.append_nil]
      apply unpackInPlace_eq
      rw [pass_cursor]
      simp only [List.length_flatMap, List.map_const', List.sum_replicate, loop_length, smul_eq_mul]
      push_cast; rw [hL]; simp; ring

theorem unpackVector_eq (d : Dims) (b : Mem) : unpackVector d b = pass (· * ·) (codeScales d) (b, 0) := by
  have h0 : unpackIntrinsicsSubset d (b, 0) = pass (· * ·) ((loop d.Nci).flatMap fun _ => intrScales d) (b, 0) :=
    intrSubset_eq (· * ·) d (b, 0) mulNext rfl
  have hc : ∀ n m, (loop n).foldl (fun s i => unpackInPlace (m.2 + 6 * i) poseScalesCamera s) m =
      pass (· * ·) ((loop n).flatMap fun _ => poseScalesCamera) m :=
    fun n m => unpackLoop_eq poseScalesCamera m m.2 6 (by simp [poseScalesCamera]) rfl n
  have hf : ∀ n m, (loop n).foldl (fun s i => unpackInPlace (m.2 + 6 * i) poseScalesFrame s) m =
      pass (· * ·) ((loop n).flatMap fun _ => poseScalesFrame) m :=
    fun n m => unpackLoop_eq poseScalesFrame m m.2 6 (by simp [poseScalesFrame]) rfl n
  have hp : ∀ n m, (loop n).foldl (fun s i => unpackInPlace (m.2 + 3 * i) pointScales s) m =
      pass (· * ·) ((loop n).flatMap fun _ => pointScales) m :=
    fun n m => unpackLoop_eq pointScales m m.2 3 (by simp [pointScales]) rfl n
  have hw : ∀ m, unpackInPlace m.2 warpScales m = pass (· * ·) warpScales m := fun m => unpackInPlace_eq _ _ _ rfl
  simp only [unpackVector, h0, hc, hf, hp, hw, codeScales, pass_append]
  have e : ∀ s, pass (· * ·) [] s = s := fun _ => rfl
  by_cases c1 : d.sel.extrinsics = true <;> by_cases c2 : d.sel.frames = true <;>
    by_cases c3 : hasCalobjectWarp d.sel d.Nob = true <;> simp [c1, c2, c3, e]

theorem unit_pos (d : Dims) (v : Var) : 0 < unit d v := by
  have := Real.pi_pos
  have h1 : 0 < scaleFocal := by norm_num [scaleFocal]
  have h2 : 0 < scaleCenter := by norm_num [scaleCenter]
  have h3 : 0 < scaleRotCamera := by unfold scaleRotCamera; positivity
  have h4 : 0 < scaleTransCamera := by norm_num [scaleTransCamera]
  have h5 : 0 < scaleRotFrame := by unfold scaleRotFrame; positivity
  have h6 : 0 < scaleTransFrame := by norm_num [scaleTransFrame]
  have h7 : 0 < scaleWarp := by norm_num [scaleWarp]
  have h8 : 0 < scaleDistortion := by norm_num [scaleDistortion]
  cases v <;> simp only [unit, scalePoint] <;> (repeat' split) <;> assumption

/-! ### C06 -/

/-- C06 (pack). Every variable is divided by its own unit, wherever the query functions say that variable
lives; nothing outside of the state vector is written. -/
theorem pack_vector_scales (d : Dims) (wf : WF d) (b : Mem) :
    (∀ v, Present d v → (packVector d b).1 (loc d v) = b (loc d v) / unit d v) ∧
    (∀ i, i < 0 ∨ numStates d ≤ i → (packVector d b).1 i = b i) ∧
    (packVector d b).2 = numStates d := by
  rw [packVector_eq]
  refine ⟨fun v hv => ?_, fun i hi => ?_, ?_⟩
  · obtain ⟨k, hk, hs⟩ := codeScales_loc d wf v hv
    have := pass_inside (· / ·) _ (b, 0) k _ hs
    simpa [hk] using this
  · exact pass_outside _ _ _ _ (by simp only [codeScales_length d wf]; omega)
  · rw [pass_cursor, codeScales_length d wf]; simp

/-- C06 (unpack). -/
theorem unpack_vector_scales (d : Dims) (wf : WF d) (b : Mem) :
    (∀ v, Present d v → (unpackVector d b).1 (loc d v) = b (loc d v) * unit d v) ∧
    (∀ i, i < 0 ∨ numStates d ≤ i → (unpackVector d b).1 i = b i) ∧
    (unpackVector d b).2 = numStates d := by
  rw [unpackVector_eq]
  refine ⟨fun v hv => ?_, fun i hi => ?_, ?_⟩
  · obtain ⟨k, hk, hs⟩ := codeScales_loc d wf v hv
    have := pass_inside (· * ·) _ (b, 0) k _ hs
    simpa [hk] using this
  · exact pass_outside _ _ _ _ (by simp only [codeScales_length d wf]; omega)
  · rw [pass_cursor, codeScales_length d wf]; simp

/-- C06 (round trip). Packing and unpacking are inverses, on any memory contents. -/
theorem pack_unpack_vector (d : Dims) (wf : WF d) (b : Mem) :
    (packVector d (unpackVector d b).1).1 = b ∧ (unpackVector d (packVector d b).1).1 = b := by
  obtain ⟨p1, p2, -⟩ := pack_vector_scales d wf b
  obtain ⟨u1, u2, -⟩ := unpack_vector_scales d wf b
  obtain ⟨q1, q2, -⟩ := pack_vector_scales d wf (unpackVector d b).1
  obtain ⟨w1, w2, -⟩ := unpack_vector_scales d wf (packVector d b).1
  constructor
  · funext i
    by_cases h : 0 ≤ i ∧ i < numStates d
    · obtain ⟨v, ⟨hv, rfl⟩, -⟩ := state_layout_tiles d wf i h.1 h.2
      rw [q1 v hv, u1 v hv, mul_div_cancel_right₀ _ (unit_pos d v).ne']
    · rw [q2 i (by omega), u2 i (by omega)]
  · funext i
    by_cases h : 0 ≤ i ∧ i < numStates d
    · obtain ⟨v, ⟨hv, rfl⟩, -⟩ := state_layout_tiles d wf i h.1 h.2
      rw [w1 v hv, p1 v hv, div_mul_cancel₀ _ (unit_pos d v).ne']
    · rw [w2 i (by omega), p2 i (by omega)]

/-- A generic row-wise pass over a 2d array, as done by the python wrapper -/
theorem rows_eq (N : Int) (hN : 0 < N) (f : Mem → Mem) (x : Mem)
    (hout : ∀ b i, i < 0 ∨ N ≤ i → f b i = b i) (n : Nat) :
    (∀ r j, 0 ≤ r → r < (n : Int) → 0 ≤ j → j < N →
      ((loop n).foldl (fun x i => fun j => f (fun j => x (i * N + j)) (j - i * N)) x) (r * N + j) =
        f ((loop r).foldl (fun x i => fun j => f (fun j => x (i * N + j)) (j - i * N)) x |> fun y j => y (r * N + j)) j) ∧
    (∀ i, i < 0 ∨ n * N ≤ i →
      ((loop n).foldl (fun x i => fun j => f (fun j => x (i * N + j)) (j - i * N)) x) i = x i) := by
  induction n with
  | zero =>
    refine ⟨fun r j h1 h2 => by simp at h2; omega, fun i _ => rfl⟩
  | succ n ih =>
    obtain ⟨ih1, ih2⟩ := ih
    have h2 : ((n + 1 : Nat) : Int) = (n : Int) + 1 := by push_cast; ring
    rw [h2, loop_succ (by omega)]
    simp only [List.foldl_append, List.foldl_cons, List.foldl_nil]
    constructor
    · intro r j hr hr' hj hj'
      rcases lt_or_eq_of_le (show r ≤ (n : Int) by omega) with h | h
      · rw [hout _ _ (Or.inl (by nlinarith))]
        rw [show (n : Int) * N + (r * N + j - n * N) = r * N + j by ring]
        exact ih1 r j hr h hj hj'
      · subst h
        rw [show (n : Int) * N + j - n * N = j by ring]
    · intro i hi
      have hnN : 0 ≤ (n : Int) * N := by positivity
      rw [hout _ _ (by rcases hi with h | h
                       · exact Or.inl (by omega)
                       · exact Or.inr (by nlinarith))]
      rw [show (n : Int) * N + (i - n * N) = i by ring]
      exact ih2 i (by rcases hi with h | h
                      · exact Or.inl h
                      · exact Or.inr (by nlinarith))

/-- the rows before row r don't affect row r -/
theorem rows_frame (N : Int) (hN : 0 < N) (f : Mem → Mem) (x : Mem)
    (hout : ∀ b i, i < 0 ∨ N ≤ i → f b i = b i) (r : Nat) (j : Int) (hj : 0 ≤ j) :
    ((loop r).foldl (fun x i => fun j => f (fun j => x (i * N + j)) (j - i * N)) x) (r * N + j) = x (r * N + j) :=
  (rows_eq N hN f x hout r).2 _ (Or.inr (by omega))

/-- C06 (arrays). The python functions work on any array of shape (..., Nstate), one row at a time: every
element becomes its value divided (pack) or multiplied (unpack) by the unit of the variable at that column;
nothing else is written. -/
theorem pack_unpack_array (pack : Bool) (d : Dims) (wf : WF d) (h0 : 0 < numStates d) (rows : Nat) (x : Mem) :
    ∃ x', packUnpackArray pack d (rows * (numStates d).toNat) (numStates d).toNat x = some x' ∧
      (∀ (r : Int) v, 0 ≤ r → r < rows → Present d v →
        x' (r * numStates d + loc d v) =
          if pack then x (r * numStates d + loc d v) / unit d v else x (r * numStates d + loc d v) * unit d v) ∧
      (∀ i, i < 0 ∨ rows * numStates d ≤ i → x' i = x i) := by
  have hN : ((numStates d).toNat : Int) = numStates d := Int.toNat_of_nonneg h0.le
  have hdiv : Int.tdiv ((rows * (numStates d).toNat : Nat) : Int) (numStates d) = rows := by
    push_cast; rw [hN]
    exact Int.mul_tdiv_cancel _ h0.ne'
  unfold packUnpackArray
  simp only [hN, ne_eq, not_true, if_false, h0.ne', hdiv]
  refine ⟨_, rfl, ?_⟩
  set f : Mem → Mem := fun b => if pack then (packVector d b).1 else (unpackVector d b).1 with hf
  have hout : ∀ b i, i < 0 ∨ numStates d ≤ i → f b i = b i := by
    intro b i hi
    simp only [hf]; split
    · exact (pack_vector_scales d wf b).2.1 i hi
    · exact (unpack_vector_scales d wf b).2.1 i hi
  obtain ⟨hA, hB⟩ := rows_eq (numStates d) h0 f x hout rows
  refine ⟨fun r v hr hr' hv => ?_, hB⟩
  obtain ⟨hl, hl'⟩ := state_loc_in_range d wf v hv
  have := hA r (loc d v) hr hr' hl hl'
  refine this.trans ?_
  obtain ⟨r, rfl⟩ := Int.eq_ofNat_of_zero_le hr
  have hfr := rows_frame (numStates d) h0 f x hout r (loc d v) hl
  have hfb : ∀ b, f b (loc d v) = if pack then b (loc d v) / unit d v else b (loc d v) * unit d v := by
    intro b
    simp only [hf]
    split
    · rw [(pack_vector_scales d wf _).1 v hv]
    · rw [(unpack_vector_scales d wf _).1 v hv]
  refine (hfb _).trans ?_
  simp only [hfr]

/-- C06 (arrays, round trip) -/
theorem pack_unpack_array_roundtrip (pack : Bool) (d : Dims) (wf : WF d) (h0 : 0 < numStates d) (rows : Nat) (x : Mem) :
    ∃ x', packUnpackArray pack d (rows * (numStates d).toNat) (numStates d).toNat x = some x' ∧
      packUnpackArray (!pack) d (rows * (numStates d).toNat) (numStates d).toNat x' = some x := by
  obtain ⟨x', hx', h1, h2⟩ := pack_unpack_array pack d wf h0 rows x
  obtain ⟨x'', hx'', h3, h4⟩ := pack_unpack_array (!pack) d wf h0 rows x'
  refine ⟨x', hx', hx''.trans (congrArg some ?_)⟩
  funext i
  by_cases hi : i < 0 ∨ rows * numStates d ≤ i
  · rw [h4 i hi, h2 i hi]
  · rw [not_or] at hi
    have e : i = (i / numStates d) * numStates d + i % numStates d := by
      have := Int.ediv_mul_add_emod i (numStates d); omega
    have hr0 : 0 ≤ i / numStates d := Int.ediv_nonneg (by omega) h0.le
    have hr1 : i / numStates d < rows := Int.ediv_lt_of_lt_mul h0 (by omega)
    obtain ⟨v, ⟨hv, hlv⟩, -⟩ := state_layout_tiles d wf (i % numStates d) (Int.emod_nonneg _ h0.ne') (Int.emod_lt_of_pos _ h0)
    rw [e, ← hlv, h3 _ v hr0 hr1 hv, h1 _ v hr0 hr1 hv]
    have := (unit_pos d v).ne'
    cases pack
    · simp [mul_div_cancel_right₀ _ this]
    · simp [div_mul_cancel₀ _ this]

/-- a two-camera problem with frames, points (some fixed), and the warp -/
example : ∃ x', packUnpackArray true exDims (3 * (numStates exDims).toNat) (numStates exDims).toNat (fun i : Int => (i : ℝ)) = some x' ∧
      packUnpackArray false exDims (3 * (numStates exDims).toNat) (numStates exDims).toNat x' = some (fun i : Int => (i : ℝ)) :=
  pack_unpack_array_roundtrip true exDims (by constructor <;> decide) (by decide) 3 _

/-! ### C07: helpers -/

theorem packSeq_append (P : Params) (A B : List (Addr × ℝ)) (s) :
    packSeq P (A ++ B) s = packSeq P B (packSeq P A s) := by simp [packSeq]

theorem unpackSeq_append (b : Mem) (A B : List (Addr × ℝ)) (s) :
    unpackSeq b (A ++ B) s = unpackSeq b B (unpackSeq b A s) := by simp [unpackSeq]

theorem foldl_packSeq {β} (P) (l : List β) (g : β → List (Addr × ℝ)) (s : Mem × Int) :
    l.foldl (fun s c => packSeq P (g c) s) s = packSeq P (l.flatMap g) s := by
  induction l generalizing s with
  | nil => rfl
  | cons a l ih => simp [ih, packSeq_append]

theorem foldl_unpackSeq {β} (b) (l : List β) (g : β → List (Addr × ℝ)) (s : Params × Int) :
    l.foldl (fun s c => unpackSeq b (g c) s) s = unpackSeq b (l.flatMap g) s := by
  induction l generalizing s with
  | nil => rfl
  | cons a l ih => simp [ih, unpackSeq_append]

theorem packSeq_cursor (P) (l : List (Addr × ℝ)) (s : Mem × Int) : (packSeq P l s).2 = s.2 + l.length := by
  induction l generalizing s with
  | nil => simp [packSeq]
  | cons a l ih =>
    have := ih (packNext (P a.1) a.2 s)
    simp only [packSeq, List.foldl_cons] at this ⊢
    rw [this]; simp [packNext]; ring

theorem packSeq_outside (P) (l : List (Addr × ℝ)) (s : Mem × Int) (j : Int) (h : j < s.2 ∨ s.2 + l.length ≤ j) :
    (packSeq P l s).1 j = s.1 j := by
  induction l generalizing s with
  | nil => rfl
  | cons a l ih =>
    simp only [List.length_cons] at h; push_cast at h
    have := ih (packNext (P a.1) a.2 s) (by simp only [packNext]; omega)
    simp only [packSeq, List.foldl_cons] at this ⊢
    rw [this]
    simp only [packNext]
    rw [put, if_neg (by omega)]

theorem packSeq_inside (P) (l : List (Addr × ℝ)) (s : Mem × Int) (k : Nat) (a : Addr × ℝ) (h : l[k]? = some a) :
    (packSeq P l s).1 (s.2 + k) = P a.1 / a.2 := by
  induction l generalizing s k with
  | nil => simp at h
  | cons a' l ih =>
    have hstep : packSeq P (a' :: l) s = packSeq P l (packNext (P a'.1) a'.2 s) := rfl
    rw [hstep]
    cases k with
    | zero =>
      simp at h; subst h
      rw [packSeq_outside _ _ _ _ (Or.inl (by simp [packNext]))]
      simp [put, packNext]
    | succ k =>
      have := ih (packNext (P a'.1) a'.2 s) k (by simpa using h)
      simp only [packNext] at this ⊢
      rw [show s.2 + ((k + 1 : Nat) : Int) = s.2 + 1 + k by push_cast; ring, this]

theorem unpackSeq_cursor (b) (l : List (Addr × ℝ)) (s : Params × Int) : (unpackSeq b l s).2 = s.2 + l.length := by
  induction l generalizing s with
  | nil => simp [unpackSeq]
  | cons a l ih =>
    have := ih (unpackNext b a.1 a.2 s)
    simp only [unpackSeq, List.foldl_cons] at this ⊢
    rw [this]; simp [unpackNext]; ring

theorem unpackSeq_outside (b) (l : List (Addr × ℝ)) (s : Params × Int) (a : Addr) (h : a ∉ l.map Prod.fst) :
    (unpackSeq b l s).1 a = s.1 a := by
  induction l generalizing s with
  | nil => rfl
  | cons a' l ih =>
    simp only [List.map_cons, List.mem_cons, not_or] at h
    have := ih (unpackNext b a'.1 a'.2 s) h.2
    simp only [unpackSeq, List.foldl_cons] at this ⊢
    rw [this]
    simp only [unpackNext, put, if_neg h.1]

theorem unpackSeq_inside (b) (l : List (Addr × ℝ)) (hnd : (l.map Prod.fst).Nodup) (s : Params × Int) (k : Nat)
    (a : Addr × ℝ) (h : l[k]? = some a) :
    (unpackSeq b l s).1 a.1 = b (s.2 + k) * a.2 := by
  induction l generalizing s k with
  | nil => simp at h
  | cons a' l ih =>
    have hstep : unpackSeq b (a' :: l) s = unpackSeq b l (unpackNext b a'.1 a'.2 s) := rfl
    rw [hstep]
    simp only [List.map_cons, List.nodup_cons] at hnd
    cases k with
    | zero =>
      simp at h; subst h
      rw [unpackSeq_outside _ _ _ _ hnd.1]
      simp [put, unpackNext]
    | succ k =>
      have := ih hnd.2 (unpackNext b a'.1 a'.2 s) k (by simpa using h)
      rw [this]
      simp only [unpackNext]
      congr 2; push_cast; ring

/-- what the code visits, in order -/
noncomputable def intrSeq (d : Dims) (c : Int) : List (Addr × ℝ) :=
  (if d.sel.core && decide (Ncore d.lens ≠ 0) then
    [(.intr (c * d.lens.numParams + 0), scaleFocal), (.intr (c * d.lens.numParams + 1), scaleFocal),
     (.intr (c * d.lens.numParams + 2), scaleCenter), (.intr (c * d.lens.numParams + 3), scaleCenter)] else []) ++
  (if d.sel.distortions then (loop (d.lens.numParams - Ncore d.lens)).map fun i =>
    (.intr (c * d.lens.numParams + Ncore d.lens + i), scaleDistortion) else [])

noncomputable def codeSeq (d : Dims) : List (Addr × ℝ) :=
  ((loop d.Nci).flatMap fun c => intrSeq d c) ++
  (if d.sel.extrinsics then (loop d.Nce).flatMap fun i =>
        [(.cam i 0, scaleRotCamera), (.cam i 1, scaleRotCamera), (.cam i 2, scaleRotCamera),
         (.cam i 3, scaleTransCamera), (.cam i 4, scaleTransCamera), (.cam i 5, scaleTransCamera)] else []) ++
  (if d.sel.frames then (loop d.Nframes).flatMap fun i =>
        [(.frame i 0, scaleRotFrame), (.frame i 1, scaleRotFrame), (.frame i 2, scaleRotFrame),
         (.frame i 3, scaleTransFrame), (.frame i 4, scaleTransFrame), (.frame i 5, scaleTransFrame)] else []) ++
  (if d.sel.frames then (loop (d.Npoints - d.NpointsFixed)).flatMap fun i =>
        [(.point i 0, scalePoint), (.point i 1, scalePoint), (.point i 2, scalePoint)] else []) ++
  (if hasCalobjectWarp d.sel d.Nob then [(.warp 0, scaleWarp), (.warp 1, scaleWarp)] else [])

theorem intrSeq_eq (d : Dims) (c : Int) :
    intrSeq d c = (loop (specIntrinsicsPerCamera d.sel d.lens)).map fun k =>
      (home d (.intrinsics c k), unit d (.intrinsics c k)) := by
  have h4 := numParams_ge4 d.lens
  have hn : Ncore d.lens = 4 := rfl
  simp only [intrSeq, specIntrinsicsPerCamera, hn, unit, home]
  by_cases h1 : d.sel.core = true <;> by_cases h2 : d.sel.distortions = true <;> simp only [h1, h2, if_true, if_false, Bool.false_eq_true]
  · rw [loop_add (by norm_num) (by omega), List.map_append, List.map_map]
    have hl : loop 4 = [0, 1, 2, 3] := by decide
    rw [hl]
    refine congrArg₂ (· ++ ·) (by norm_num) ?_
    · refine List.map_congr_left fun k hk => ?_
      obtain ⟨h3, h4⟩ := mem_loop.1 hk
      simp only [Function.comp]
      rw [if_neg (by omega), if_neg (by omega), add_assoc]
  · have hl : loop (4 + 0) = [0, 1, 2, 3] := by decide
    rw [hl]
    norm_num
  · simp only [Bool.false_and, Bool.false_eq_true, if_false, List.nil_append, zero_add]
    refine List.map_congr_left fun k hk => ?_
    rw [add_assoc, add_comm 4 k]
  · simp [loop]

theorem codeSeq_eq (d : Dims) : codeSeq d = (allVars d).map fun v => (home d v, unit d v) := by
  have l6 : loop 6 = [0, 1, 2, 3, 4, 5] := by decide
  have l3 : loop 3 = [0, 1, 2] := by decide
  have l2 : loop 2 = [0, 1] := by decide
  simp only [codeSeq, allVars, List.map_append]
  congr 1; congr 1; congr 1; congr 1
  · rw [intrVarsL, List.map_flatMap]
    exact List.flatMap_congr fun c _ => by rw [intrSeq_eq d c, List.map_map]; rfl
  · rw [extrVarsL]; split
    · rw [List.map_flatMap]
      exact List.flatMap_congr fun c _ => by rw [l6]; norm_num [home, unit]
    · rfl
  · rw [frameVarsL]; split
    · rw [List.map_flatMap]
      exact List.flatMap_congr fun c _ => by rw [l6]; norm_num [home, unit]
    · rfl
  · rw [pointVarsL]; split
    · rw [List.map_flatMap]
      exact List.flatMap_congr fun c _ => by rw [l3]; norm_num [home, unit]
    · rfl
  · rw [warpVarsL]; split
    · rw [l2]; norm_num [home, unit]
    · rfl

theorem offset_range (d : Dims) (k : Int) (h0 : 0 ≤ k) (h : k < specIntrinsicsPerCamera d.sel d.lens) :
    0 ≤ (if d.sel.core then k else k + 4) ∧ (if d.sel.core then k else k + 4) < d.lens.numParams := by
  have h4 := numParams_ge4 d.lens
  unfold specIntrinsicsPerCamera at h
  by_cases hc : d.sel.core = true <;> by_cases hd : d.sel.distortions = true <;>
    simp only [hc, hd, if_true, if_false, Bool.false_eq_true] at h ⊢ <;> omega

theorem home_inj (d : Dims) (v w : Var) (hv : Present d v) (hw : Present d w) (h : home d v = home d w) : v = w := by
  cases v <;> cases w <;> simp only [home, Addr.intr.injEq, Addr.cam.injEq, Addr.frame.injEq, Addr.point.injEq,
    Addr.warp.injEq, reduceCtorEq] at h
  · rename_i i k i' k'
    obtain ⟨a1, a2, a3, a4⟩ := hv
    obtain ⟨b1, b2, b3, b4⟩ := hw
    have h4 := numParams_ge4 d.lens
    set N := d.lens.numParams
    set k1 := (if d.sel.core then k else k + 4) with hk1
    set k2 := (if d.sel.core then k' else k' + 4) with hk2
    have bb1 : 0 ≤ k1 ∧ k1 < N := offset_range d k a3 a4
    have bb2 : 0 ≤ k2 ∧ k2 < N := offset_range d k' b3 b4
    have hi : i = i' := by
      rcases lt_trichotomy i i' with hlt | heq | hgt
      · nlinarith
      · exact heq
      · nlinarith
    subst hi
    have hk : k1 = k2 := by omega
    have : k = k' := by
      simp only [hk1, hk2] at hk; split at hk <;> omega
    subst this; rfl
  · simp [h.1, h.2]
  · simp [h.1, h.2]
  · simp [h.1, h.2]
  · simp [h]

theorem allVars_nodup (d : Dims) (wf : WF d) : (allVars d).Nodup := by
  have h : ((allVars d).map (loc d)).Nodup := by
    rw [allVars_loc d wf, loop]
    exact (List.nodup_range).map (fun a b h => by simpa using h)
  exact List.Nodup.of_map _ h

theorem codeSeq_nodup (d : Dims) (wf : WF d) : ((codeSeq d).map Prod.fst).Nodup := by
  rw [codeSeq_eq, List.map_map]
  exact List.Nodup.map_on (fun v hv w hw h => home_inj d v w (mem_allVars.1 hv) (mem_allVars.1 hw) h) (allVars_nodup d wf)

theorem codeSeq_loc (d : Dims) (wf : WF d) (v : Var) (h : Present d v) :
    ∃ k : Nat, (k : Int) = loc d v ∧ (codeSeq d)[k]? = some (home d v, unit d v) := by
  obtain ⟨k, hk⟩ := List.mem_iff_getElem?.1 (mem_allVars.2 h)
  refine ⟨k, ?_, by rw [codeSeq_eq]; simp [hk]⟩
  have h1 : ((allVars d).map (loc d))[k]? = some (loc d v) := by simp [hk]
  rw [allVars_loc d wf] at h1
  simp only [loop, List.getElem?_map] at h1
  rw [Option.map_eq_some_iff] at h1
  obtain ⟨a, ha, h2⟩ := h1
  rw [List.getElem?_eq_some_iff] at ha
  obtain ⟨h3, h4⟩ := ha
  rw [List.getElem_range] at h4
  subst h4
  exact h2

theorem codeSeq_length (d : Dims) (wf : WF d) : ((codeSeq d).length : Int) = numStates d := by
  rw [← codeScales_length d wf, codeScales_eq, codeSeq_eq]; simp

theorem map_singleton_flatMap {α β} (f : α → β) (l : List α) : (l.flatMap fun a => [f a]) = l.map f := by
  induction l with
  | nil => rfl
  | cons a l ih => rw [List.flatMap_cons, ih]; rfl

theorem packIntrinsics_eq (d : Dims) (P : Params) (s : Mem × Int) :
    packIntrinsics d P s = packSeq P ((loop d.Nci).flatMap fun c => intrSeq d c) s := by
  have hstep : ∀ (s : Mem × Int) (c : Int),
    (let s := if d.sel.core && decide (Ncore d.lens ≠ 0) then
        packSeq P [(.intr (c * d.lens.numParams + 0), scaleFocal), (.intr (c * d.lens.numParams + 1), scaleFocal),
          (.intr (c * d.lens.numParams + 2), scaleCenter), (.intr (c * d.lens.numParams + 3), scaleCenter)] s else s
     if d.sel.distortions then
        (loop (d.lens.numParams - Ncore d.lens)).foldl (fun s i =>
          packNext (P (.intr (c * d.lens.numParams + Ncore d.lens + i))) scaleDistortion s) s else s) = packSeq P (intrSeq d c) s := by
    intro s c
    have h1 : ∀ s, (loop (d.lens.numParams - Ncore d.lens)).foldl (fun s i =>
          packNext (P (.intr (c * d.lens.numParams + Ncore d.lens + i))) scaleDistortion s) s =
        packSeq P ((loop (d.lens.numParams - Ncore d.lens)).map fun i =>
          (.intr (c * d.lens.numParams + Ncore d.lens + i), scaleDistortion)) s := by
      intro s; simp [packSeq, List.foldl_map]
    simp only [h1, intrSeq, packSeq_append]
    split <;> split <;> rfl
  rw [packIntrinsics]
  by_cases hn : d.Nci ≤ 0
  · rw [loop_nonpos hn]; rfl
  · obtain ⟨k, hk⟩ := Int.eq_ofNat_of_zero_le (show 0 ≤ d.Nci by omega)
    rw [hk]; clear hn hk
    simp only
    have key : ∀ k : Nat, (loop (k : Int)).foldl (fun (t : (Mem × Int) × Int) _ =>
        (let s := if d.sel.core && decide (Ncore d.lens ≠ 0) then
            packSeq P [(.intr (t.2 + 0), scaleFocal), (.intr (t.2 + 1), scaleFocal),
              (.intr (t.2 + 2), scaleCenter), (.intr (t.2 + 3), scaleCenter)] t.1 else t.1
         if d.sel.distortions then
            (loop (d.lens.numParams - Ncore d.lens)).foldl (fun s i =>
              packNext (P (.intr (t.2 + Ncore d.lens + i))) scaleDistortion s) s else s, t.2 + d.lens.numParams)) (s, 0) =
        (packSeq P ((loop (k : Int)).flatMap fun c => intrSeq d c) s, k * d.lens.numParams) := by
      intro k
      induction k with
      | zero => simp [loop_zero, packSeq]
      | succ k ih =>
        have h2 : ((k + 1 : Nat) : Int) = (k : Int) + 1 := by push_cast; ring
        rw [h2, loop_succ (by omega), List.foldl_append, ih, List.flatMap_append, packSeq_append]
        simp only [List.foldl_cons, List.foldl_nil, List.flatMap_cons, List.flatMap_nil, List.append_nil]
        have := hstep (packSeq P ((loop (k : Int)).flatMap fun c => intrSeq d c) s) k
        simp only at this
        rw [this]
        congr 1; ring
    have := key k
    simp only at this ⊢
    rw [this]

theorem packState_eq (d : Dims) (P : Params) (b : Mem) : packState d P b = packSeq P (codeSeq d) (b, 0) := by
  simp only [packState, packIntrinsics_eq, foldl_packSeq, codeSeq, packSeq_append]
  have e : ∀ s, packSeq P [] s = s := fun _ => rfl
  by_cases c1 : d.sel.extrinsics = true <;> by_cases c2 : d.sel.frames = true <;>
    by_cases c3 : hasCalobjectWarp d.sel d.Nob = true <;> simp only [c1, c2, c3, e, if_true, if_false, Bool.false_eq_true]

theorem unpackIntrinsics_eq (d : Dims) (b : Mem) (s : Params × Int) :
    unpackIntrinsics d b d.lens.numParams s = unpackSeq b ((loop d.Nci).flatMap fun c => intrSeq d c) s := by
  have h1 : ∀ c s, (loop (d.lens.numParams - Ncore d.lens)).foldl (fun s i =>
          unpackNext b (.intr (c * d.lens.numParams + Ncore d.lens + i)) scaleDistortion s) s =
        unpackSeq b ((loop (d.lens.numParams - Ncore d.lens)).map fun i =>
          (.intr (c * d.lens.numParams + Ncore d.lens + i), scaleDistortion)) s := by
    intro c s; simp [unpackSeq, List.foldl_map]
  rw [unpackIntrinsics, ← foldl_unpackSeq]
  split
  · rename_i h
    simp at h
    have : ∀ c, intrSeq d c = [] := by simp [intrSeq, h]
    have e : ∀ l : List Int, (l.flatMap fun _ => ([] : List (Addr × ℝ))) = [] := by intro l; simp
    rw [foldl_unpackSeq, List.flatMap_congr (g := fun _ => []) (fun c _ => this c), e]; rfl
  · simp only
    congr 1
    funext s c
    simp only [h1, intrSeq, unpackSeq_append]
    split <;> split <;> rfl

theorem unpackState_eq (d : Dims) (b : Mem) (P : Params) : unpackState d b P = unpackSeq b (codeSeq d) (P, 0) := by
  simp only [unpackState, unpackIntrinsics_eq, foldl_unpackSeq, codeSeq, unpackSeq_append]
  have e : ∀ s, unpackSeq b [] s = s := fun _ => rfl
  by_cases c1 : d.sel.extrinsics = true <;> by_cases c2 : d.sel.frames = true <;>
    by_cases c3 : hasCalobjectWarp d.sel d.Nob = true <;> simp only [c1, c2, c3, e, if_true, if_false, Bool.false_eq_true]

/-! ### C07 -/

/-- C07 (pack). The seed handed to the solver: every variable's value, in its units, at the place the query
functions report; exactly Nstate values are written (so the assertion in the code holds). -/
theorem pack_state_values (d : Dims) (wf : WF d) (P : Params) (b : Mem) :
    (∀ v, Present d v → (packState d P b).1 (loc d v) = P (home d v) / unit d v) ∧
    (∀ i, i < 0 ∨ numStates d ≤ i → (packState d P b).1 i = b i) ∧
    (packState d P b).2 = numStates d := by
  rw [packState_eq]
  refine ⟨fun v hv => ?_, fun i hi => ?_, ?_⟩
  · obtain ⟨k, hk, hs⟩ := codeSeq_loc d wf v hv
    have := packSeq_inside P _ (b, 0) k _ hs
    simpa [hk] using this
  · exact packSeq_outside _ _ _ _ (by simp only [codeSeq_length d wf]; omega)
  · rw [packSeq_cursor, codeSeq_length d wf]; simp

/-- C07 (unpack). Each optimized variable is read back from its place, in its units, and *nothing else
changes*: locked cores, locked distortions, fixed points, all poses not being optimized keep their values. -/
theorem unpack_state_values (d : Dims) (wf : WF d) (b : Mem) (P : Params) :
    (∀ v, Present d v → (unpackState d b P).1 (home d v) = b (loc d v) * unit d v) ∧
    (∀ a, (∀ v, Present d v → home d v ≠ a) → (unpackState d b P).1 a = P a) ∧
    (unpackState d b P).2 = numStates d := by
  rw [unpackState_eq]
  refine ⟨fun v hv => ?_, fun a ha => ?_, ?_⟩
  · obtain ⟨k, hk, hs⟩ := codeSeq_loc d wf v hv
    have := unpackSeq_inside b _ (codeSeq_nodup d wf) (P, 0) k _ hs
    simpa [hk] using this
  · refine unpackSeq_outside _ _ _ _ ?_
    rw [codeSeq_eq, List.map_map, List.mem_map]
    rintro ⟨v, hv, h⟩
    exact ha v (mem_allVars.1 hv) h
  · rw [unpackSeq_cursor, codeSeq_length d wf]; simp

/-- C07 (round trip). Packing the seed and unpacking it again changes nothing at all. -/
theorem unpack_pack_state (d : Dims) (wf : WF d) (P : Params) (b : Mem) :
    (unpackState d (packState d P b).1 P).1 = P := by
  obtain ⟨p1, -, -⟩ := pack_state_values d wf P b
  obtain ⟨u1, u2, -⟩ := unpack_state_values d wf (packState d P b).1 P
  funext a
  by_cases h : ∃ v, Present d v ∧ home d v = a
  · obtain ⟨v, hv, rfl⟩ := h
    rw [u1 v hv, p1 v hv, div_mul_cancel₀ _ (unit_pos d v).ne']
  · exact u2 a (fun v hv e => h ⟨v, hv, e⟩)

/-- C07 (the other round trip): what the solver ended with is what is packed again after being written out. -/
theorem pack_unpack_state (d : Dims) (wf : WF d) (P : Params) (b b' : Mem) (i : Int)
    (hi : 0 ≤ i) (hi' : i < numStates d) :
    (packState d (unpackState d b P).1 b').1 i = b i := by
  obtain ⟨v, ⟨hv, rfl⟩, -⟩ := state_layout_tiles d wf i hi hi'
  rw [(pack_state_values d wf _ b').1 v hv, (unpack_state_values d wf b P).1 v hv,
    mul_div_cancel_right₀ _ (unit_pos d v).ne']

/-- C07, spelled out for the things a user locks -/
theorem unpack_keeps_locked (d : Dims) (wf : WF d) (b : Mem) (P : Params) :
    (d.sel.core = false → ∀ c k, 0 ≤ k → k < 4 → 
        (unpackState d b P).1 (.intr (c * d.lens.numParams + k)) = P (.intr (c * d.lens.numParams + k))) ∧
    (d.sel.distortions = false → ∀ c k, 4 ≤ k → k < d.lens.numParams →
        (unpackState d b P).1 (.intr (c * d.lens.numParams + k)) = P (.intr (c * d.lens.numParams + k))) ∧
    (d.sel.extrinsics = false → ∀ c k, (unpackState d b P).1 (.cam c k) = P (.cam c k)) ∧
    (d.sel.frames = false → ∀ c k, (unpackState d b P).1 (.frame c k) = P (.frame c k) ∧
        (unpackState d b P).1 (.point c k) = P (.point c k)) ∧
    (∀ i k, d.Npoints - d.NpointsFixed ≤ i → (unpackState d b P).1 (.point i k) = P (.point i k)) ∧
    (d.sel.warp = false ∨ d.Nob ≤ 0 → ∀ k, (unpackState d b P).1 (.warp k) = P (.warp k)) := by
  obtain ⟨-, u2, -⟩ := unpack_state_values d wf b P
  have h4 := numParams_ge4 d.lens
  have uniq : ∀ {N i i' k k' : Int}, 0 ≤ k → k < N → 0 ≤ k' → k' < N → i * N + k = i' * N + k' → k = k' := by
    intro N i i' k k' h1 h2 h3 h4 h
    have hi : i = i' := by
      rcases lt_trichotomy i i' with hlt | heq | hgt
      · nlinarith
      · exact heq
      · nlinarith
    subst hi; omega
  refine ⟨fun hc c k hk hk' => u2 _ ?_, fun hd c k hk hk' => u2 _ ?_, fun hx c k => u2 _ ?_,
    fun hf c k => ⟨u2 _ ?_, u2 _ ?_⟩, fun i k hi => u2 _ ?_, fun hw k => u2 _ ?_⟩
  · intro v hv h
    cases v <;> simp only [home, reduceCtorEq] at h
    rename_i i k'
    obtain ⟨a1, a2, a3, a4⟩ := hv
    simp only [hc, Bool.false_eq_true, if_false, Addr.intr.injEq] at h
    have hk2 : k' + 4 < d.lens.numParams := by
      have := (offset_range d k' a3 a4).2
      simpa only [hc, Bool.false_eq_true, if_false] using this
    have := uniq (by omega) hk2 hk (by omega) h
    omega
  · intro v hv h
    cases v <;> simp only [home, reduceCtorEq] at h
    rename_i i k'
    obtain ⟨a1, a2, a3, a4⟩ := hv
    simp only [specIntrinsicsPerCamera, hd] at a4
    simp only [Addr.intr.injEq] at h
    by_cases hc : d.sel.core = true
    · simp only [hc, if_true] at a4 h
      have hk2 : k' < 4 := by simpa using a4
      have := uniq a3 (by omega) (by omega) hk' h
      omega
    · simp [hc] at a4; omega
  · intro v hv h
    cases v <;> simp only [home, reduceCtorEq] at h
    simp [Present, hx] at hv
  · intro v hv h
    cases v <;> simp only [home, reduceCtorEq] at h
    simp [Present, hf] at hv
  · intro v hv h
    cases v <;> simp only [home, reduceCtorEq] at h
    simp [Present, hf] at hv
  · intro v hv h
    cases v <;> simp only [home, reduceCtorEq, Addr.point.injEq] at h
    have := hv.2.2.1
    omega
  · intro v hv h
    cases v <;> simp only [home, reduceCtorEq] at h
    have h1 := hv.1; have h2 := hv.2.1
    rcases hw with hw | hw
    · simp [hw] at h1
    · omega

example (P : Params) (b : Mem) : (unpackState exDims (packState exDims P b).1 P).1 = P :=
  unpack_pack_state exDims (by constructor <;> decide) P b

end Mrcal.Pack

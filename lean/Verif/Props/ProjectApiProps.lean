import Verif.Model.ProjectApi
import Verif.Props.CahvoreProps
import Verif.Props.ProjectLensProps

/-! # C56: mrcal_project(): arrays, the fast path, all the gradients, for all the lens models -/

namespace Mrcal.Cam
open Mrcal.Project

/-! ### specification -/

/-- the pixel each lens model gives. `none`: CAHVORE can't project this point -/
noncomputable def lensPixel (L : Lens) (intr : Int → ℝ) (p : P3) : Option P2 :=
  match L with
  | .pinhole => some (pinhole (coreOf intr) p).q
  | .stereographic => some (stereographic (coreOf intr) p).q
  | .lonlat => some (lonlat (coreOf intr) p).q
  | .latlon => some (latlon (coreOf intr) p).q
  | .opencv4 => some (ocvQ (coreOf intr) (padK 4 (nocoreOf intr)) p)
  | .opencv5 => some (ocvQ (coreOf intr) (padK 5 (nocoreOf intr)) p)
  | .opencv8 => some (ocvQ (coreOf intr) (padK 8 (nocoreOf intr)) p)
  | .opencv12 => some (ocvQ (coreOf intr) (padK 12 (nocoreOf intr)) p)
  | .cahvor => some (cahvorQ (coreOf intr) (nocoreOf intr) p)
  | .cahvore lin => cahvoreQ (coreOf intr) lin (nocoreOf intr) p
  | .splined order Nx Ny fov => (Spline.segmentsPerU order Nx Ny fov).bind fun segs => (Spline.projectSplined order Nx Ny segs intr p).map fun o => o.q

/-- the reported pixel: 0 on failure -/
noncomputable def pix (L : Lens) (intr : Int → ℝ) (p : P3) : P2 := (lensPixel L intr p).getD ⟨0, 0⟩

/-- the configuration is valid -/
def ValidLens : Lens → Prop
  | .splined order Nx Ny _ => Spline.Accepted order Nx Ny
  | _ => True

theorem segs_some {order Nx Ny fov : Nat} : (Spline.segmentsPerU order Nx Ny fov).isSome ↔ Spline.Accepted order Nx Ny := by
  unfold Spline.segmentsPerU Spline.Accepted
  constructor
  · intro h
    by_cases h2 : order = 2
    · rw [if_pos h2] at h
      by_cases hb : Nx < 3 ∨ Ny < 3
      · rw [if_pos hb] at h; simp at h
      · left; omega
    · rw [if_neg h2] at h
      by_cases h3 : order = 3
      · rw [if_pos h3] at h
        by_cases hb : Nx < 4 ∨ Ny < 4
        · rw [if_pos hb] at h; simp at h
        · right; omega
      · rw [if_neg h3] at h; simp at h
  · rintro (⟨h, a, b⟩ | ⟨h, a, b⟩)
    · rw [if_pos h, if_neg (by omega)]; rfl
    · rw [if_neg (by omega), if_pos h, if_neg (by omega)]; rfl

theorem asserts_iff (L : Lens) : lensAsserts L = false ↔ ValidLens L := by
  cases L with
  | splined o nx ny f =>
    simp only [lensAsserts, ValidLens]
    rw [← segs_some (fov := f)]
    cases Spline.segmentsPerU o nx ny f <;> simp
  | _ => simp [lensAsserts, ValidLens]

/-! ### the pixel of one point -/

theorem lensOut_q (L : Lens) (hv : ValidLens L) (intr : Int → ℝ) (p : P3) :
    (lensOut L intr p).map (fun o => o.proj.q) = lensPixel L intr p := by
  cases L with
  | cahvore lin =>
    simp only [lensOut, lensPixel, cahvoreQ]
    rw [cahvore_wants _ _ _ false false]
    simp only [projectCahvoreInternals]
    cases cahvoreInternals (N := 11) (AD.Vec3.init p (some 8)) (initK (nocoreOf intr) (some 0)) lin with
    | none => rfl
    | some v => rfl
  | splined order Nx Ny fov =>
    simp only [lensOut, lensPixel]
    have hs := segs_some (fov := fov).mpr hv
    obtain ⟨segs, hs⟩ := Option.isSome_iff_exists.mp hs
    rw [hs]
    have h0 := Spline.projectSplined_some order Nx Ny hv segs intr p
    simp only [Spline.dqDintrinsics, h0, Option.bind_some, Option.map_some]
  | _ => rfl

/-! ### arrays -/

theorem writePoint_q (o : Option LensOut) (i : Nat) (w : Bool) (r : Nat) (m : ProjMem) (j : Nat) :
    (writePoint o i w r m).q j = if j = i then (o.map fun o => o.proj.q).getD ⟨0, 0⟩ else m.q j := by cases o <;> rfl
theorem writePoint_di (o : Option LensOut) (i : Nat) (w : Bool) (r : Nat) (m : ProjMem) : (writePoint o i w r m).di = m.di := rfl
theorem writePoint_dp_some (o : LensOut) (i : Nat) (r : Nat) (m : ProjMem) (j : Nat) :
    (writePoint (some o) i true r m).dp j = if j = r then o.proj.dqx else if j = r + 1 then o.proj.dqy else m.dp j := rfl
theorem writePoint_dp_ne (o : Option LensOut) (i : Nat) (w : Bool) (r : Nat) (m : ProjMem) (j : Nat) (h : j ≠ r) (h' : j ≠ r + 1) :
    (writePoint o i w r m).dp j = m.dp j := by
  cases w with
  | false => rfl
  | true =>
    cases o with
    | some o => rw [writePoint_dp_some, if_neg h, if_neg h']
    | none => exact if_neg h

theorem internal_q (L : Lens) (intr : Int → ℝ) (N : Nat) (p : Nat → P3) (wantp wanti : Bool) (m : ProjMem) (j : Nat) :
    (projectInternal L intr N p wantp wanti m).q j =
      if j < N then ((lensOut L intr (p j)).map fun o => o.proj.q).getD ⟨0, 0⟩ else m.q j := by
  cases wanti with
  | false =>
    unfold projectInternal
    rw [if_pos rfl]
    induction N with
    | zero => rfl
    | succ N ih =>
      rw [List.range_succ, List.foldl_append]
      simp only [List.foldl_cons, List.foldl_nil]
      rw [writePoint_q]
      by_cases h : j = N
      · subst h; rw [if_pos rfl, if_pos (by omega)]
      · rw [if_neg h, ih]
        by_cases h2 : j < N
        · rw [if_pos h2, if_pos (by omega)]
        · rw [if_neg h2, if_neg (by omega)]
  | true =>
    unfold projectInternal
    rw [if_neg (by simp)]
    simp only []
    generalize hm0 : ({ m with di := fun j => if j < N * 2 * L.numParams.toNat then 0 else m.di j } : ProjMem) = m0
    have hq : m0.q = m.q := by rw [← hm0]
    rw [← hq]
    clear hm0 hq
    induction N with
    | zero => rfl
    | succ N ih =>
      rw [List.range_succ, List.foldl_append]
      simp only [List.foldl_cons, List.foldl_nil]
      rw [writePoint_q]
      by_cases h : j = N
      · subst h; rw [if_pos rfl, if_pos (by omega)]
      · rw [if_neg h, ih]
        by_cases h2 : j < N
        · rw [if_pos h2, if_pos (by omega)]
        · rw [if_neg h2, if_neg (by omega)]

theorem ocv_zero_pinhole (c : Core) (d : Nat → ℝ) (p : P3) : ocvQ c (padK 0 d) p = (pinhole c p).q := by
  simp [ocvQ, ocv, padK, pinhole]

/-- **C56**: mrcal_project() succeeds for every valid model, whatever is asked for -/
theorem project_succeeds (L : Lens) (hv : ValidLens L) (intr : Int → ℝ) (N : Nat) (p : Nat → P3) (wantp wanti : Bool) (m : ProjMem) :
    ∃ m', mrcalProject L intr N p wantp wanti m = some m' := by
  unfold mrcalProject
  split
  · exact ⟨_, rfl⟩
  · rw [(asserts_iff L).mpr hv]; exact ⟨_, rfl⟩

/-- **C56**: with an array of points, each pixel is the projection of the corresponding point, and nothing past the end is written. The same pixels are reported
whichever gradients are asked for: the fast path used without gradients agrees with the general one -/
theorem project_pixels (L : Lens) (hv : ValidLens L) (intr : Int → ℝ) (N : Nat) (p : Nat → P3) (wantp wanti : Bool) (m m' : ProjMem)
    (h : mrcalProject L intr N p wantp wanti m = some m') (j : Nat) :
    m'.q j = if j < N then pix L intr (p j) else m.q j := by
  unfold mrcalProject at h
  split at h
  · rename_i hf
    have e := Option.some.inj h
    rw [← e]
    simp only []
    rw [loopWrite_id]
    by_cases hj : j < N
    · rw [if_pos hj, if_pos hj]
      unfold pix lensPixel
      have := hf.2.2
      cases L <;> simp only [isFast, Bool.false_eq_true] at this <;> simp only [Option.getD_some]
      · exact ocv_zero_pinhole _ _ _
      · rfl
      · rfl
      · rfl
      · rfl
    · rw [if_neg hj, if_neg hj]
  · rw [(asserts_iff L).mpr hv] at h
    have e := Option.some.inj h
    rw [← e, internal_q, lensOut_q L hv]
    rfl

/-- the rows of the gradients, if the gradient with respect to the intrinsics is asked for too -/
theorem internal_dp (L : Lens) (intr : Int → ℝ) (N : Nat) (p : Nat → P3) (m : ProjMem) (j : Nat) (hj : j < N) (o : LensOut) (ho : lensOut L intr (p j) = some o) :
    (projectInternal L intr N p true true m).dp (2 * j) = o.proj.dqx ∧ (projectInternal L intr N p true true m).dp (2 * j + 1) = o.proj.dqy := by
  unfold projectInternal
  rw [if_neg (by simp)]
  simp only []
  generalize ({ m with di := fun j => if j < N * 2 * L.numParams.toNat then 0 else m.di j } : ProjMem) = m0
  induction N with
  | zero => omega
  | succ N ih =>
    rw [List.range_succ, List.foldl_append]
    simp only [List.foldl_cons, List.foldl_nil]
    by_cases h : j = N
    · subst h
      rw [ho, writePoint_dp_some, writePoint_dp_some, if_pos rfl, if_neg (by omega), if_pos rfl]
      exact ⟨rfl, rfl⟩
    · rw [writePoint_dp_ne _ _ _ _ _ _ (by omega) (by omega), writePoint_dp_ne _ _ _ _ _ _ (by omega) (by omega)]
      exact ih (by omega)

theorem internal_dp_far (L : Lens) (intr : Int → ℝ) (N : Nat) (p : Nat → P3) (wantp : Bool) (m : ProjMem) (r : Nat) (hr : 2 * N ≤ r) :
    (projectInternal L intr N p wantp true m).dp r = m.dp r := by
  unfold projectInternal
  rw [if_neg (by simp)]
  simp only []
  generalize hm0 : ({ m with di := fun j => if j < N * 2 * L.numParams.toNat then 0 else m.di j } : ProjMem) = m0
  have hq : m0.dp = m.dp := by rw [← hm0]
  rw [← hq]
  clear hm0 hq
  induction N with
  | zero => rfl
  | succ N ih =>
    rw [List.range_succ, List.foldl_append]
    simp only [List.foldl_cons, List.foldl_nil]
    rw [writePoint_dp_ne _ _ _ _ _ _ (by omega) (by omega)]
    exact ih (by omega)

theorem internal_di (L : Lens) (intr : Int → ℝ) (N : Nat) (p : Nat → P3) (wantp : Bool) (m : ProjMem) (j : Nat) (hj : j < N) (o : LensOut)
    (ho : lensOut L intr (p j) = some o) (i_xy col : Nat) (hxy : i_xy < 2) (hcol : col < L.numParams.toNat) :
    (projectInternal L intr N p wantp true m).di ((2 * j + i_xy) * L.numParams.toNat + col) = o.row i_xy col := by
  unfold projectInternal
  rw [if_neg (by simp)]
  simp only []
  generalize ({ m with di := fun j => if j < N * 2 * L.numParams.toNat then 0 else m.di j } : ProjMem) = m0
  generalize hI : L.numParams.toNat = I at hcol
  have hk : i_xy * I + col < 2 * I := by
    have : i_xy = 0 ∨ i_xy = 1 := by omega
    rcases this with h | h <;> subst h <;> omega
  have e0 : (2 * j + i_xy) * I + col = 2 * I * j + (i_xy * I + col) := by ring
  induction N with
  | zero => omega
  | succ N ih =>
    rw [List.range_succ, List.foldl_append]
    simp only [List.foldl_cons, List.foldl_nil]
    rw [writeRow]
    simp only []
    by_cases h : j = N
    · subst h
      rw [ho]
      simp only []
      rw [if_pos (by omega), e0]
      have h1 : 2 * I * j + (i_xy * I + col) - 2 * I * j = col + I * i_xy := by
        rw [Nat.add_sub_cancel_left]; ring
      rw [h1, Nat.add_mul_div_left _ _ (by omega), Nat.add_mul_mod_self_left, Nat.div_eq_of_lt hcol, Nat.mod_eq_of_lt hcol, Nat.zero_add]
    · have ih' := ih (by omega)
      have hlt : 2 * I * j + 2 * I ≤ 2 * I * N := by
        have := Nat.mul_le_mul_left (2 * I) (show j + 1 ≤ N by omega)
        rw [Nat.mul_add, Nat.mul_one] at this
        exact this
      rw [if_neg (by rw [e0]; omega)]
      rw [writePoint_di]
      exact ih'

theorem internal_di_far (L : Lens) (intr : Int → ℝ) (N : Nat) (p : Nat → P3) (wantp : Bool) (m : ProjMem) (k : Nat) (hk : N * 2 * L.numParams.toNat ≤ k) :
    (projectInternal L intr N p wantp true m).di k = m.di k := by
  unfold projectInternal
  rw [if_neg (by simp)]
  simp only []
  generalize hI : L.numParams.toNat = I at *
  have key : ∀ M, M ≤ N → ((List.range M).foldl (fun m i =>
      ({ writePoint (lensOut L intr (p i)) i wantp (2 * i) m with di := writeRow (lensOut L intr (p i)) I (2 * I * i) (writePoint (lensOut L intr (p i)) i wantp (2 * i) m).di } : ProjMem))
      ({ m with di := fun j => if j < N * 2 * I then 0 else m.di j } : ProjMem)).di k = m.di k := by
    intro M
    induction M with
    | zero =>
      intro _
      simp only [List.range_zero, List.foldl_nil]
      rw [if_neg (by omega)]
    | succ M ih =>
      intro hM
      rw [List.range_succ, List.foldl_append]
      simp only [List.foldl_cons, List.foldl_nil]
      rw [writeRow]
      simp only []
      have : 2 * I * M + 2 * I ≤ N * 2 * I := by
        have := Nat.mul_le_mul_left (2 * I) (show M + 1 ≤ N by omega)
        rw [Nat.mul_add, Nat.mul_one] at this
        calc _ ≤ 2 * I * N := this
          _ = _ := by ring
      rw [if_neg (by omega)]
      rw [writePoint_di]
      exact ih (by omega)
  exact key N le_rfl

/-! ### the gradients are the derivatives -/

theorem dotRow_single_from (l : List ℝ) (k s : Nat) :
    ((l.zipIdx s).map fun e => e.1 * (if e.2 = k then (1 : ℝ) else 0)).sum = if s ≤ k then l.getD (k - s) 0 else 0 := by
  induction l generalizing s with
  | nil => simp
  | cons a l ih =>
    rw [List.zipIdx_cons, List.map_cons, List.sum_cons, ih]
    by_cases h : s = k
    · subst h; simp
    · by_cases h2 : s ≤ k
      · rw [if_neg h, if_pos (by omega), if_pos h2]
        obtain ⟨d, rfl⟩ : ∃ d, k = s + (d + 1) := ⟨k - s - 1, by omega⟩
        have e1 : s + (d + 1) - (s + 1) = d := by omega
        have e2 : s + (d + 1) - s = d + 1 := by omega
        rw [e1, e2]; simp
      · rw [if_neg h, if_neg (by omega), if_neg h2]; simp

theorem dotRow_single (l : List ℝ) (k : Nat) : dotRow l (fun i => if i = k then 1 else 0) = l.getD k 0 := by
  unfold dotRow
  have := dotRow_single_from l k 0
  simpa using this

theorem dotRow_zero (l : List ℝ) : dotRow l (fun _ => 0) = 0 := by simp [dotRow]

theorem getD_map_x (l : List P2) (k : Nat) : (l.map P2.x).getD k 0 = (l.getD k ⟨0, 0⟩).x := by
  rw [List.getD_eq_getElem?_getD, List.getD_eq_getElem?_getD, List.getElem?_map]
  cases l[k]? <;> rfl
theorem getD_map_y (l : List P2) (k : Nat) : (l.map P2.y).getD k 0 = (l.getD k ⟨0, 0⟩).y := by
  rw [List.getD_eq_getElem?_getD, List.getD_eq_getElem?_getD, List.getElem?_map]
  cases l[k]? <;> rfl

/-- the derivative of an array as one of its elements moves -/
theorem update_deriv (intr : Int → ℝ) (col i : Int) :
    HasDerivAt (fun s => Function.update intr col s i) (if i = col then 1 else 0) (intr col) := by
  by_cases h : i = col
  · subst h
    have e : (fun s => Function.update intr i s i) = fun s => s := funext fun s => Function.update_self _ _ _
    rw [e, if_pos rfl]; exact hasDerivAt_id _
  · have e : (fun s => Function.update intr col s i) = fun _ => intr i := funext fun s => Function.update_of_ne h _ _
    rw [e, if_neg h]; exact hasDerivAt_const _ _

/-- from the total derivative to what's in the dense array -/
theorem total_row {n : Nat} {Q : Core → (Nat → ℝ) → P3 → P2} {intr : Int → ℝ} {p : P3} {dqdp : P3 × P3} {dqdf : P2} {dqdk : List P2}
    (h : TotalDeriv n Q (coreOf intr) (nocoreOf intr) p dqdp dqdf dqdk) (col : Nat) (hcol : col < 4 + n) :
    HasDerivAt (fun s => (Q (coreOf (Function.update intr col s)) (nocoreOf (Function.update intr col s)) p).x) (denseRow n dqdf (nocorePool n dqdk) 0 col) (intr col) ∧
    HasDerivAt (fun s => (Q (coreOf (Function.update intr col s)) (nocoreOf (Function.update intr col s)) p).y) (denseRow n dqdf (nocorePool n dqdk) 1 col) (intr col) := by
  have hself : Function.update intr (col : Int) (intr (col : Int)) = intr := Function.update_eq_self _ _
  have hc := fun P' => h.2 (fun s => coreOf (Function.update intr col s)) (fun s => nocoreOf (Function.update intr col s)) (fun _ => p)
    ⟨if (0 : Int) = col then 1 else 0, if (1 : Int) = col then 1 else 0, if (2 : Int) = col then 1 else 0, if (3 : Int) = col then 1 else 0⟩
    (fun i => if (i : Int) + 4 = col then 1 else 0) P' (intr col) (by rw [hself]) (by rw [hself]) rfl
    (update_deriv intr col 0) (update_deriv intr col 1) (update_deriv intr col 2) (update_deriv intr col 3) (fun i => update_deriv intr col _)
  obtain ⟨hx, hy⟩ := hc ⟨0, 0, 0⟩ (hasDerivAt_const _ _) (hasDerivAt_const _ _) (hasDerivAt_const _ _)
  by_cases h4 : col < 4
  · have hz : (fun i : Nat => if (i : Int) + 4 = (col : Int) then (1 : ℝ) else 0) = fun _ => 0 := funext fun i => if_neg (by omega)
    rw [hz, dotRow_zero] at hx hy
    constructor
    · refine HasDerivAt.congr_deriv hx ?_
      unfold denseRow
      rw [if_pos h4]
      have : col = 0 ∨ col = 1 ∨ col = 2 ∨ col = 3 := by omega
      rcases this with rfl | rfl | rfl | rfl <;> norm_num
    · refine HasDerivAt.congr_deriv hy ?_
      unfold denseRow
      rw [if_pos h4]
      have : col = 0 ∨ col = 1 ∨ col = 2 ∨ col = 3 := by omega
      rcases this with rfl | rfl | rfl | rfl <;> norm_num
  · obtain ⟨k, rfl⟩ : ∃ k, col = 4 + k := ⟨col - 4, by omega⟩
    have hk : k < n := by omega
    have hz : (fun i : Nat => if (i : Int) + 4 = ((4 + k : Nat) : Int) then (1 : ℝ) else 0) = fun i => if i = k then 1 else 0 := by
      funext i
      by_cases hi : i = k
      · subst hi; rw [if_pos rfl, if_pos (by push_cast; ring)]
      · rw [if_neg hi, if_neg (by push_cast; omega)]
    rw [hz, dotRow_single] at hx hy
    have e4 : 4 + k - 4 = k := by omega
    constructor
    · refine HasDerivAt.congr_deriv hx ?_
      rw [getD_map_x]
      unfold denseRow nocorePool
      rw [if_neg h4, if_pos hcol, e4, if_neg (by push_cast; omega), if_neg (by push_cast; omega)]
      simp [Nat.mod_eq_of_lt hk, Nat.div_eq_of_lt hk]
      omega
    · refine HasDerivAt.congr_deriv hy ?_
      rw [getD_map_y]
      unfold denseRow nocorePool
      rw [if_neg h4, if_pos hcol, e4, if_neg (by push_cast; omega), if_neg (by push_cast; omega)]
      simp [Nat.mod_eq_of_lt hk, Nat.add_div_left _ (show 0 < n by omega), Nat.div_eq_of_lt hk]
      omega

theorem total_point {n : Nat} {Q : Core → (Nat → ℝ) → P3 → P2} {core : Core} {d : Nat → ℝ} {p : P3} {dqdp : P3 × P3} {dqdf : P2} {dqdk : List P2}
    (h : TotalDeriv n Q core d p dqdp dqdf dqdk) : GradAt (fun p => (Q core d p).x) dqdp.1 p ∧ GradAt (fun p => (Q core d p).y) dqdp.2 p := by
  have key := fun (P : ℝ → P3) (P' : P3) (t : ℝ) (e : P t = p) => h.2 (fun _ => core) (fun _ => d) P ⟨0, 0, 0, 0⟩ (fun _ => 0) P' t rfl rfl e
    (hasDerivAt_const _ _) (hasDerivAt_const _ _) (hasDerivAt_const _ _) (hasDerivAt_const _ _) (fun _ => hasDerivAt_const _ _)
  constructor
  · intro P P' t e hx hy hz
    exact HasDerivAt.congr_deriv (key P P' t e hx hy hz).1 (by rw [dotRow_zero]; simp)
  · intro P P' t e hx hy hz
    exact HasDerivAt.congr_deriv (key P P' t e hx hy hz).2 (by rw [dotRow_zero]; simp)

theorem total_scaled {f : Core → P3 → Proj} (hf : Scaled f) (core : Core) (d : Nat → ℝ) (p : P3) (h : ProjGrad (f ⟨1, 1, 0, 0⟩) p) (nx : core.fx ≠ 0) (ny : core.fy ≠ 0) :
    TotalDeriv 0 (fun c _ p => (f c p).q) core d p ((f core p).dqx, (f core p).dqy) (dqDfxy core (f core p).q) [] := by
  refine ⟨rfl, ?_⟩
  intro C D P C' D' P' t eC eD eP h1 h2 h3 h4 hD hx hy hz
  subst eC
  have k := lensRate_scaled (core := C) (core' := C') (t := t) hf h nx ny h1 h2 h3 h4
  obtain ⟨a, b⟩ := k.2 P P' eP ⟨hx, hy, hz⟩
  constructor
  · refine HasDerivAt.congr_deriv a ?_
    simp [Pose.inner3, dotRow]; ring
  · refine HasDerivAt.congr_deriv b ?_
    simp [Pose.inner3, dotRow]; ring

/-- **Specification**: the points at which the projection is differentiable, or, for CAHVORE, at which the iteration stays away from its thresholds -/
def LensRegular (L : Lens) (intr : Int → ℝ) (p : P3) : Prop :=
  intr 0 ≠ 0 ∧ intr 1 ≠ 0 ∧
  match L with
  | .pinhole => p.z ≠ 0
  | .stereographic => mag3 p + p.z ≠ 0
  | .lonlat => 0 < p.z ∨ p.x ≠ 0
  | .latlon => 0 < p.z ∨ p.y ≠ 0
  | .opencv4 => p.z ≠ 0 ∧ ocvDen (padK 4 (nocoreOf intr)) p ≠ 0
  | .opencv5 => p.z ≠ 0 ∧ ocvDen (padK 5 (nocoreOf intr)) p ≠ 0
  | .opencv8 => p.z ≠ 0 ∧ ocvDen (padK 8 (nocoreOf intr)) p ≠ 0
  | .opencv12 => p.z ≠ 0 ∧ ocvDen (padK 12 (nocoreOf intr)) p ≠ 0
  | .cahvor => dot3 p (cahvorO (intr 4) (intr 5)) ≠ 0 ∧ (cahvorDistort (nocoreOf intr) p).p.z ≠ 0
  | .cahvore lin => CahvoreReg lin (nocoreOf intr) p ∧ ∃ o, projectCahvoreInternals p (nocoreOf intr) lin true true = some o ∧ o.p.z ≠ 0
  | .splined _ Nx _ _ => Nx < 32768 ∧ mag3 p + p.z ≠ 0

theorem cahvore_total (core : Core) (hfx : core.fx ≠ 0) (hfy : core.fy ≠ 0) (lin : ℝ) (d : Nat → ℝ) (p : P3) (hreg : CahvoreReg lin d p)
    (o : CahvoreOut) (ho : projectCahvoreInternals p d lin true true = some o) (hz : o.p.z ≠ 0) :
    ∃ dk dp, o.dk = some dk ∧ o.dp = some dp ∧
      TotalDeriv 8 (fun c d p => (cahvoreQ c lin d p).getD ⟨0, 0⟩) core d p (distortedDp core ⟨o.p, dp, dk⟩)
        (dqDfxy core (distortedQ core o.p)) (distortedDk core ⟨o.p, dp, dk⟩) := by
  obtain ⟨dk, dp, e1, e2, h⟩ := cahvore_gradients core hfx hfy lin d p hreg o ho hz
  refine ⟨dk, dp, e1, e2, h.1, ?_⟩
  intro C D P C' D' P' t eC eD eP h1 h2 h3 h4 hD hx hy hzz
  obtain ⟨a, b⟩ := h.2 C D P C' D' P' t eC eD eP h1 h2 h3 h4 hD hx hy hzz
  cases hv : cahvoreInternals (N := 11) (AD.Vec3.init p (some 8)) (initK d (some 0)) lin with
  | none => simp only [projectCahvoreInternals, hv] at ho; exact absurd ho (by simp)
  | some v =>
    obtain ⟨g, hg, -⟩ := cahvore_tracks lin d p hreg v hv D P D' P' t eD eP hD hx hy hzz
    have ev : ∀ᶠ s in nhds t, (cahvoreQ (C s) lin (D s) (P s)).getD ⟨0, 0⟩ = distortedQ (C s) (cahvoreF3 lin (D s) (P s)) := by
      filter_upwards [hg] with s hs
      simp only [cahvoreQ, cahvoreF3, hs, Option.map_some, Option.getD_some]
    constructor
    · exact a.congr_of_eventuallyEq (by filter_upwards [ev] with s hs; rw [hs])
    · exact b.congr_of_eventuallyEq (by filter_upwards [ev] with s hs; rw [hs])

/-- **C52**: CAHVORE -/
theorem lens_cahvore {core : ℝ → Core} {core' : Core} {d : ℝ → Nat → ℝ} {d' : Nat → ℝ} {t : ℝ} (h : CoreDeriv core core' t) (lin : ℝ)
    (hd : ∀ i, HasDerivAt (fun s => d s i) (d' i) t) (nx : (core t).fx ≠ 0) (ny : (core t).fy ≠ 0) (p : P3) (hreg : CahvoreReg lin (d t) p)
    (o : CahvoreOut) (ho : projectCahvoreInternals p (d t) lin true true = some o) (hz : o.p.z ≠ 0) :
    ∃ dk dp, o.dk = some dk ∧ o.dp = some dp ∧
      LensRate (fun s p => (cahvoreQ (core s) lin (d s) p).getD ⟨0, 0⟩) t p
        ⟨distortedQ (core t) o.p, (distortedDp (core t) ⟨o.p, dp, dk⟩).1, (distortedDp (core t) ⟨o.p, dp, dk⟩).2⟩
        ((dqDfxy (core t) (distortedQ (core t) o.p)).x * core'.fx + core'.cx + dotRow ((distortedDk (core t) ⟨o.p, dp, dk⟩).map P2.x) d')
        ((dqDfxy (core t) (distortedQ (core t) o.p)).y * core'.fy + core'.cy + dotRow ((distortedDk (core t) ⟨o.p, dp, dk⟩).map P2.y) d') := by
  obtain ⟨dk, dp, e1, e2, ht⟩ := cahvore_total (core t) nx ny lin (d t) p hreg o ho hz
  refine ⟨dk, dp, e1, e2, ?_⟩
  have hq : (cahvoreQ (core t) lin (d t) p).getD ⟨0, 0⟩ = distortedQ (core t) o.p := by
    unfold cahvoreQ
    rw [cahvore_wants, ho]
    rfl
  have k := lensRate_total (Q := fun c d p => (cahvoreQ c lin d p).getD ⟨0, 0⟩) (core := core) (d := d) (t := t) ht h.1 h.2.1 h.2.2.1 h.2.2.2 hd
  rw [← hq] at k ⊢
  exact k

/-- everything reported about one point is right -/
def OutRight (L : Lens) (intr : Int → ℝ) (p : P3) (o : LensOut) : Prop :=
  o.proj.q = pix L intr p ∧
  GradAt (fun p => (pix L intr p).x) o.proj.dqx p ∧ GradAt (fun p => (pix L intr p).y) o.proj.dqy p ∧
  ∀ col : Nat, col < L.numParams.toNat →
    HasDerivAt (fun s => (pix L (Function.update intr col s) p).x) (o.row 0 col) (intr col) ∧
    HasDerivAt (fun s => (pix L (Function.update intr col s) p).y) (o.row 1 col) (intr col)

theorem out_right (L : Lens) (hv : ValidLens L) (intr : Int → ℝ) (p : P3) (h : LensRegular L intr p) : ∃ o, lensOut L intr p = some o ∧ OutRight L intr p o := by
  obtain ⟨nx, ny, h⟩ := h
  have hq : ∀ o, lensOut L intr p = some o → o.proj.q = pix L intr p := by
    intro o ho
    have := lensOut_q L hv intr p
    rw [ho] at this
    unfold pix
    rw [← this]; rfl
  have fin : ∀ (n : Nat) (Q : Core → (Nat → ℝ) → P3 → P2) (o : LensOut) (dqdf : P2) (dqdk : List P2), lensOut L intr p = some o →
      (∀ intr p, pix L intr p = Q (coreOf intr) (nocoreOf intr) p) → o.row = denseRow n dqdf (nocorePool n dqdk) → L.numParams.toNat = 4 + n →
      TotalDeriv n Q (coreOf intr) (nocoreOf intr) p (o.proj.dqx, o.proj.dqy) dqdf dqdk → ∃ o, lensOut L intr p = some o ∧ OutRight L intr p o := by
    intro n Q o dqdf dqdk ho hpix hrow hn ht
    refine ⟨o, ho, hq o ho, ?_, ?_, ?_⟩
    · have := (total_point ht).1; simp only [hpix]; exact this
    · have := (total_point ht).2; simp only [hpix]; exact this
    · intro col hcol
      have := total_row ht col (by omega)
      rw [hrow]; simp only [hpix]; exact this
  cases L with
  | pinhole => exact fin 0 (fun c _ p => (pinhole c p).q) _ _ _ rfl (fun _ _ => rfl) rfl rfl (total_scaled scaled_pinhole _ _ _ (pinhole_grad _ p h) nx ny)
  | stereographic => exact fin 0 (fun c _ p => (stereographic c p).q) _ _ _ rfl (fun _ _ => rfl) rfl rfl (total_scaled scaled_stereographic _ _ _ (stereographic_grad _ p h) nx ny)
  | lonlat => exact fin 0 (fun c _ p => (lonlat c p).q) _ _ _ rfl (fun _ _ => rfl) rfl rfl (total_scaled scaled_lonlat _ _ _ (lonlat_grad _ p h) nx ny)
  | latlon => exact fin 0 (fun c _ p => (latlon c p).q) _ _ _ rfl (fun _ _ => rfl) rfl rfl (total_scaled scaled_latlon _ _ _ (latlon_grad _ p h) nx ny)
  | opencv4 => exact fin 4 (fun c d p => ocvQ c (padK 4 d) p) _ _ _ rfl (fun _ _ => rfl) rfl rfl (opencv_gradients 4 (by simp [IsOcv]) _ nx ny _ p h.1 h.2)
  | opencv5 => exact fin 5 (fun c d p => ocvQ c (padK 5 d) p) _ _ _ rfl (fun _ _ => rfl) rfl rfl (opencv_gradients 5 (by simp [IsOcv]) _ nx ny _ p h.1 h.2)
  | opencv8 => exact fin 8 (fun c d p => ocvQ c (padK 8 d) p) _ _ _ rfl (fun _ _ => rfl) rfl rfl (opencv_gradients 8 (by simp [IsOcv]) _ nx ny _ p h.1 h.2)
  | opencv12 => exact fin 12 (fun c d p => ocvQ c (padK 12 d) p) _ _ _ rfl (fun _ _ => rfl) rfl rfl (opencv_gradients 12 (by simp [IsOcv]) _ nx ny _ p h.1 h.2)
  | cahvor => exact fin 5 cahvorQ _ _ _ rfl (fun _ _ => rfl) rfl rfl (cahvor_gradients _ nx ny _ p h.1 h.2)
  | cahvore lin =>
    obtain ⟨hr, o, ho, hz⟩ := h
    obtain ⟨dk, dp, e1, e2, ht⟩ := cahvore_total (coreOf intr) nx ny lin (nocoreOf intr) p hr o ho hz
    refine fin 8 (fun c d p => (cahvoreQ c lin d p).getD ⟨0, 0⟩) (distortedOut 8 intr ⟨o.p, dp, dk⟩) _ _ ?_ (fun _ _ => rfl) rfl rfl ht
    obtain ⟨op, ok, od⟩ := o
    simp only at e1 e2
    subst e1 e2
    simp only [lensOut, ho]
  | splined order Nx Ny fov =>
    obtain ⟨hN, hp⟩ := h
    obtain ⟨segs, hs⟩ := Option.isSome_iff_exists.mp (segs_some (fov := fov).mpr hv)
    obtain ⟨r0, r1, e0, e1, hr⟩ := Spline.splined_intrinsics_gradient order Nx Ny hv hN segs intr p
    have h0 := Spline.projectSplined_some order Nx Ny hv segs
    have hpix : ∀ intr p, pix (.splined order Nx Ny fov) intr p = (Spline.proj order Nx Ny segs intr p).q := by
      intro intr p
      simp only [pix, lensPixel, hs, h0, Option.bind_some, Option.map_some, Option.getD_some]
    obtain ⟨g0, g1⟩ := Spline.splined_gradient order Nx Ny hv segs intr p hp
    have ho : lensOut (.splined order Nx Ny fov) intr p = some ⟨⟨(Spline.proj order Nx Ny segs intr p).q, (Spline.proj order Nx Ny segs intr p).dqx_dp,
        (Spline.proj order Nx Ny segs intr p).dqy_dp⟩, fun i_xy col => if i_xy = 0 then r0 col else r1 col⟩ := by
      simp only [lensOut, hs, h0, e0, e1]
    refine ⟨_, ho, hq _ ho, ?_, ?_, ?_⟩
    · simp only [hpix]; exact g0
    · simp only [hpix]; exact g1
    · intro col _
      simp only [hpix]
      exact hr col

/-- **C56**: with all the gradients asked for, and any number of points: each row of `dq_dp` is the gradient of the corresponding pixel with respect to the
corresponding point, and each element of `dq_dintrinsics` is the derivative of the corresponding pixel with respect to the corresponding lens parameter; nothing
is written past the end of either array -/
theorem project_gradients (L : Lens) (hv : ValidLens L) (intr : Int → ℝ) (N : Nat) (p : Nat → P3) (m m' : ProjMem)
    (h : mrcalProject L intr N p true true m = some m') :
    (∀ j, j < N → LensRegular L intr (p j) →
      GradAt (fun p => (pix L intr p).x) (m'.dp (2 * j)) (p j) ∧ GradAt (fun p => (pix L intr p).y) (m'.dp (2 * j + 1)) (p j) ∧
      ∀ col : Nat, col < L.numParams.toNat →
        HasDerivAt (fun s => (pix L (Function.update intr col s) (p j)).x) (m'.di ((2 * j + 0) * L.numParams.toNat + col)) (intr col) ∧
        HasDerivAt (fun s => (pix L (Function.update intr col s) (p j)).y) (m'.di ((2 * j + 1) * L.numParams.toNat + col)) (intr col)) ∧
    (∀ r, 2 * N ≤ r → m'.dp r = m.dp r) ∧ (∀ k, 2 * N * L.numParams.toNat ≤ k → m'.di k = m.di k) := by
  unfold mrcalProject at h
  rw [if_neg (by simp), (asserts_iff L).mpr hv] at h
  have e := Option.some.inj h
  subst e
  refine ⟨?_, fun r hr => internal_dp_far L intr N p true m r hr, fun k hk => internal_di_far L intr N p true m k (by rw [Nat.mul_comm N 2]; exact hk)⟩
  intro j hj hreg
  obtain ⟨o, ho, -, g0, g1, gi⟩ := out_right L hv intr (p j) hreg
  obtain ⟨e0, e1⟩ := internal_dp L intr N p m j hj o ho
  rw [e0, e1]
  refine ⟨g0, g1, ?_⟩
  intro col hcol
  rw [internal_di L intr N p true m j hj o ho 0 col (by omega) hcol, internal_di L intr N p true m j hj o ho 1 col (by omega) hcol]
  exact gi col hcol

/-- **C56**: the same with only the intrinsics gradient asked for -/
theorem project_gradients_i (L : Lens) (hv : ValidLens L) (intr : Int → ℝ) (N : Nat) (p : Nat → P3) (m m' : ProjMem)
    (h : mrcalProject L intr N p false true m = some m') :
    (∀ j, j < N → LensRegular L intr (p j) → ∀ col : Nat, col < L.numParams.toNat →
        HasDerivAt (fun s => (pix L (Function.update intr col s) (p j)).x) (m'.di ((2 * j + 0) * L.numParams.toNat + col)) (intr col) ∧
        HasDerivAt (fun s => (pix L (Function.update intr col s) (p j)).y) (m'.di ((2 * j + 1) * L.numParams.toNat + col)) (intr col)) ∧
    (∀ k, 2 * N * L.numParams.toNat ≤ k → m'.di k = m.di k) := by
  unfold mrcalProject at h
  rw [if_neg (by simp), (asserts_iff L).mpr hv] at h
  have e := Option.some.inj h
  subst e
  refine ⟨?_, fun k hk => internal_di_far L intr N p false m k (by rw [Nat.mul_comm N 2]; exact hk)⟩
  intro j hj hreg col hcol
  obtain ⟨o, ho, -, g0, g1, gi⟩ := out_right L hv intr (p j) hreg
  rw [internal_di L intr N p false m j hj o ho 0 col (by omega) hcol, internal_di L intr N p false m j hj o ho 1 col (by omega) hcol]
  exact gi col hcol

/-- **C57**, one point: with only the point gradient asked for, it's right -/
theorem project_gradient_p_partial (L : Lens) (hv : ValidLens L) (intr : Int → ℝ) (p : Nat → P3) (m m' : ProjMem)
    (h : mrcalProject L intr 1 p true false m = some m') (hreg : LensRegular L intr (p 0)) :
    GradAt (fun p => (pix L intr p).x) (m'.dp 0) (p 0) ∧ GradAt (fun p => (pix L intr p).y) (m'.dp 1) (p 0) ∧ ∀ r, 2 ≤ r → m'.dp r = m.dp r := by
  unfold mrcalProject at h
  rw [if_neg (by simp), (asserts_iff L).mpr hv] at h
  have e := Option.some.inj h
  subst e
  obtain ⟨o, ho, -, g0, g1, gi⟩ := out_right L hv intr (p 0) hreg
  have hm : projectInternal L intr 1 p true false m = writePoint (lensOut L intr (p 0)) 0 true 0 m := rfl
  rw [hm, ho]
  exact ⟨g0, g1, fun r hr => writePoint_dp_ne _ _ _ _ _ _ (by omega) (by omega)⟩

/-- **C57** is false for more than one point: with only the point gradient asked for, `dq_dp` isn't advanced. Everything past the first two rows is never written, and these two
get the gradient of the LAST point -/
theorem project_gradient_p_wrong (L : Lens) (hv : ValidLens L) (intr : Int → ℝ) (N : Nat) (p : Nat → P3) (m m' : ProjMem)
    (h : mrcalProject L intr (N + 1) p true false m = some m') (hreg : LensRegular L intr (p N)) :
    (∀ r, 2 ≤ r → m'.dp r = m.dp r) ∧ GradAt (fun p => (pix L intr p).x) (m'.dp 0) (p N) ∧ GradAt (fun p => (pix L intr p).y) (m'.dp 1) (p N) := by
  unfold mrcalProject at h
  rw [if_neg (by simp), (asserts_iff L).mpr hv] at h
  have e := Option.some.inj h
  subst e
  have far : ∀ M r, 2 ≤ r → (projectInternal L intr M p true false m).dp r = m.dp r := by
    intro M r hr
    unfold projectInternal
    rw [if_pos rfl]
    induction M with
    | zero => rfl
    | succ M ih =>
      rw [List.range_succ, List.foldl_append]
      simp only [List.foldl_cons, List.foldl_nil]
      rw [writePoint_dp_ne _ _ _ _ _ _ (by omega) (by omega)]
      exact ih
  refine ⟨far _, ?_⟩
  obtain ⟨o, ho, -, g0, g1, gi⟩ := out_right L hv intr (p N) hreg
  unfold projectInternal
  rw [if_pos rfl, List.range_succ, List.foldl_append]
  simp only [List.foldl_cons, List.foldl_nil]
  rw [ho]
  exact ⟨g0, g1⟩

/-- **C57**, deviation, a concrete case: the pinhole model, 2 points, the gradient of the first one is reported wrong -/
theorem project_gradient_p_counterexample : ∃ (L : Lens) (intr : Int → ℝ) (p : Nat → P3) (m m' : ProjMem), ValidLens L ∧ (∀ j, LensRegular L intr (p j)) ∧
    mrcalProject L intr 2 p true false m = some m' ∧ ¬ GradAt (fun p => (pix L intr p).x) (m'.dp 0) (p 0) ∧ ¬ GradAt (fun p => (pix L intr p).x) (m'.dp 2) (p 1) := by
  let intr : Int → ℝ := fun _ => 1
  let p : Nat → P3 := fun j => ⟨0, 0, (j : ℝ) + 1⟩
  let m : ProjMem := ⟨fun _ => ⟨0, 0⟩, fun _ => ⟨0, 0, 0⟩, fun _ => 0⟩
  have hreg : ∀ j, LensRegular .pinhole intr (p j) := fun j => ⟨one_ne_zero, one_ne_zero, by positivity⟩
  obtain ⟨m', hm'⟩ := project_succeeds .pinhole trivial intr 2 p true false m
  obtain ⟨far, g0, -⟩ := project_gradient_p_wrong .pinhole trivial intr 1 p m m' hm' (hreg 1)
  have t : ∀ j, GradAt (fun p => (pix .pinhole intr p).x) (pinhole (coreOf intr) (p j)).dqx (p j) := fun j => (pinhole_grad (coreOf intr) (p j) (hreg j).2.2).1
  refine ⟨.pinhole, intr, p, m, m', trivial, hreg, hm', ?_, ?_⟩
  · intro hg
    have a := GradAt.unique hg (t 0)
    have b := GradAt.unique g0 (t 1)
    rw [a] at b
    have := congrArg P3.x b
    norm_num [pinhole, coreOf, p, intr] at this
  · intro hg
    have a := GradAt.unique hg (t 1)
    rw [far 2 le_rfl] at a
    have := congrArg P3.x a
    norm_num [pinhole, coreOf, p, intr, m] at this

/-! ### the hypotheses are met -/

example : ∃ (intr : Int → ℝ) (p : P3), LensRegular .opencv8 intr p ∧ ValidLens .opencv8 := by
  refine ⟨fun i => if i < 4 then 1000 else 0.01, ⟨1, 2, 3⟩, ⟨by norm_num, by norm_num, by norm_num, ?_⟩, trivial⟩
  norm_num [ocvDen, ocv, padK, nocoreOf]
example : ∃ (intr : Int → ℝ) (p : P3), LensRegular (.splined 3 10 8 120) intr p ∧ ValidLens (.splined 3 10 8 120) := by
  refine ⟨fun i => if i < 4 then 1000 else 0.01, ⟨1, 2, 3⟩, ⟨by norm_num, by norm_num, by norm_num, ?_⟩, Or.inr ⟨rfl, by norm_num, by norm_num⟩⟩
  have : 0 ≤ mag3 ⟨1, 2, 3⟩ := Real.sqrt_nonneg _
  have h3 : (0 : ℝ) < mag3 ⟨1, 2, 3⟩ + 3 := by linarith
  exact h3.ne'
example : ∃ (intr : Int → ℝ) (p : P3), LensRegular .cahvor intr p := by
  refine ⟨fun i => if i < 4 then 1000 else 0, ⟨1, 2, 3⟩, by norm_num, by norm_num, ?_, ?_⟩
  · norm_num [cahvorO, dot3]
  · norm_num [cahvorDistort, cahvorState, cahvorO, dot3, nocoreOf]

end Mrcal.Cam

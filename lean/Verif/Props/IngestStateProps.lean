import Verif.Model.IngestState
import Verif.Props.IndexApiProps
import Verif.Props.PackProps
/-
C108: ingest_packed_state() writes a packed state into the arrays
-/
namespace Mrcal.IngestState
open Mrcal Mrcal.Kwargs Mrcal.Callback Mrcal.IndexApi Mrcal.Pack Mrcal.StateLayout

/-! ### lemmas: python -/

theorem loop_nodup (n : Int) : (loop n).Nodup := by
  unfold loop
  exact (List.nodup_range).map (fun a b h => by simpa using h)

theorem slice_inner (n lo N : Int) (h0 : 0 ≤ lo) (h1 : 0 ≤ N) (h2 : lo + N ≤ n) : slice n (some lo) (some (lo + N)) = (loop N).map (lo + ·) := by
  unfold slice
  simp only []
  rw [if_neg (by omega), if_neg (by omega), min_eq_left (by omega), min_eq_left (by omega)]
  congr 2
  omega

theorem assign_zip (dst : List Addr) (hd : dst.Nodup) : ∀ (src : List ℝ), dst.length = src.length → ∀ (P : Params),
    (∀ (j : Nat) x y, dst[j]? = some x → src[j]? = some y → ((dst.zip src).foldl (fun P x => put P x.1 x.2) P) x = y) ∧
    (∀ x, x ∉ dst → ((dst.zip src).foldl (fun P x => put P x.1 x.2) P) x = P x) := by
  induction dst with
  | nil => intro src _ P; exact ⟨fun j x y h => by simp at h, fun x _ => by simp⟩
  | cons d dst ih =>
    intro src hl P
    cases src with
    | nil => simp at hl
    | cons s src =>
      obtain ⟨hn, hd⟩ := List.nodup_cons.mp hd
      obtain ⟨i1, i2⟩ := ih hd src (by simpa using hl) (put P d s)
      refine ⟨fun j x y hx hy => ?_, fun x hx => ?_⟩
      · cases j with
        | zero =>
          simp only [List.getElem?_cons_zero, Option.some.injEq] at hx hy
          subst hx; subst hy
          rw [List.zip_cons_cons, List.foldl_cons, i2 _ hn]
          simp [put]
        | succ j =>
          rw [List.zip_cons_cons, List.foldl_cons]
          exact i1 j x y (by simpa using hx) (by simpa using hy)
      · rw [List.zip_cons_cons, List.foldl_cons, i2 x (fun h => hx (List.mem_cons_of_mem _ h))]
        have : x ≠ d := fun h => hx (h ▸ List.mem_cons_self)
        simp [put, this]

theorem loop_get (N : Int) (j : Int) (h0 : 0 ≤ j) (h1 : j < N) : (loop N)[j.toNat]? = some j := by
  unfold loop
  rw [List.getElem?_map, List.getElem?_range (by omega)]
  simp [Int.toNat_of_nonneg h0]

theorem assign_loop (P : Params) (N : Int) (f : Int → Addr) (s : Int → ℝ) (hf : ∀ i j, 0 ≤ i → i < N → 0 ≤ j → j < N → f i = f j → i = j) :
    ∃ P', assign P ((loop N).map f) ((loop N).map s) = some P' ∧ (∀ j, 0 ≤ j → j < N → P' (f j) = s j) ∧ ∀ x, (∀ j, 0 ≤ j → j < N → f j ≠ x) → P' x = P x := by
  have hl : ((loop N).map f).length = ((loop N).map s).length := by simp
  have hd : ((loop N).map f).Nodup := by
    refine List.Nodup.map_on (fun i hi j hj e => ?_) (loop_nodup N)
    rw [mem_loop] at hi hj
    exact hf i j hi.1 hi.2 hj.1 hj.2 e
  obtain ⟨h1, h2⟩ := assign_zip _ hd _ hl P
  refine ⟨_, by unfold assign; rw [if_pos hl], fun j j0 j1 => ?_, fun x hx => ?_⟩
  · refine h1 j.toNat _ _ ?_ ?_ <;> rw [List.getElem?_map, loop_get N j j0 j1] <;> rfl
  · refine h2 x (fun hm => ?_)
    obtain ⟨j, hj, e⟩ := List.mem_map.mp hm
    rw [mem_loop] at hj
    exact hx j hj.1 hj.2 e

/-! ### lemmas: one kind of variable -/

/-- the variables of one kind were written, and nothing else -/
def Wrote (d : Dims) (b : Mem) (κ : Kind) (P P' : Params) : Prop :=
  (∀ v, Present d v → kindOf v = κ → P' (home d v) = b (loc d v)) ∧ (∀ x, (∀ v, Present d v → kindOf v = κ → home d v ≠ x) → P' x = P x)

theorem wrote_none (d : Dims) (b : Mem) (κ : Kind) (P : Params) (h : ∀ v, Present d v → kindOf v ≠ κ) : Wrote d b κ P P :=
  ⟨fun v hv hk => absurd hk (h v hv), fun _ _ => rfl⟩

theorem home_kind (d : Dims) (v w : Var) (h : home d v = home d w) : kindOf v = kindOf w := by
  cases v <;> cases w <;> simp [home, kindOf] at h ⊢

theorem kind_absent (i N n : Int) (b : Mem) (arr : Option (List Addr)) (P : Params) (h : i < 0) : ingestKind (ret i) N n b arr P = some P := by
  unfold ingestKind
  rw [ret_none h]
  rfl

theorem kind_present (i N n : Int) (b : Mem) (f : Int → Addr) (P : Params) (h0 : 0 ≤ i) (hN : 0 ≤ N) (h1 : i + N ≤ n)
    (hf : ∀ i j, 0 ≤ i → i < N → 0 ≤ j → j < N → f i = f j → i = j) :
    ∃ P', ingestKind (ret i) N n b (some ((loop N).map f)) P = some P' ∧ (∀ j, 0 ≤ j → j < N → P' (f j) = b (i + j)) ∧ ∀ x, (∀ j, 0 ≤ j → j < N → f j ≠ x) → P' x = P x := by
  unfold ingestKind
  rw [ret_get h0]
  simp only [got, Option.bind_eq_bind, Option.bind_some, slice_inner n i N h0 hN h1, List.map_map]
  exact assign_loop P N f _ hf

theorem divmod (w i k : Int) (hk : 0 ≤ k) (hw : k < w) : (i * w + k) / w = i ∧ (i * w + k) % w = k := by
  constructor
  · rw [Int.add_comm, Int.add_mul_ediv_right _ _ (by omega), Int.ediv_eq_zero_of_lt hk hw]; omega
  · rw [Int.add_comm, Int.add_mul_emod_self_right, Int.emod_eq_of_lt hk hw]

theorem pair_inj (w : Int) (hw : 0 < w) (i j : Int) (h1 : i / w = j / w) (h2 : i % w = j % w) : i = j := by
  have a := Int.ediv_mul_add_emod i w
  have b := Int.ediv_mul_add_emod j w
  rw [h1, h2] at a
  omega

theorem pair_bound (w rows j : Int) (hw : 0 < w) (h0 : 0 ≤ j) (h1 : j < rows * w) : 0 ≤ j / w ∧ j / w < rows ∧ 0 ≤ j % w ∧ j % w < w :=
  ⟨Int.ediv_nonneg h0 hw.le, Int.ediv_lt_of_lt_mul hw h1, Int.emod_nonneg _ hw.ne', Int.emod_lt_of_pos _ hw⟩

theorem pair_lt (w rows i k : Int) (h1 : i < rows) (h2 : k < w) (h3 : 0 ≤ k) : i * w + k < rows * w := by nlinarith

theorem extrinsics_step (d : Dims) (wf : WF d) (n : Int) (hn : n = numStates d) (b : Mem) (P : Params) :
    ∃ P', ingestKind (ret (stateIndexExtrinsics 0 d)) (numStatesExtrinsics d) n b (some (ravel d.Nce 6 .cam)) P = some P' ∧ Wrote d b .extrinsics P P' := by
  by_cases hp : d.sel.extrinsics = true ∧ 0 < d.Nce
  · obtain ⟨h1, h2⟩ := hp
    have hb := nonnegs wf
    have hi : stateIndexExtrinsics 0 d = numStatesIntrinsics d := by
      have := extr_loc (d := d) (i := 0) (k := 0) ⟨h1, by omega, by omega, by omega, by omega⟩
      simp only [loc, add_zero, zero_mul] at this; exact this
    have hN : numStatesExtrinsics d = d.Nce * 6 := by rw [nExtr_eq, if_pos h1]
    have hr : ravel d.Nce 6 .cam = (loop (numStatesExtrinsics d)).map fun j => .cam (j / 6) (j % 6) := by rw [hN]; rfl
    rw [hr]
    obtain ⟨P', e, e1, e2⟩ := kind_present (stateIndexExtrinsics 0 d) (numStatesExtrinsics d) n b (fun j => .cam (j / 6) (j % 6)) P (by omega) (by omega)
      (by rw [hi, hn]; unfold numStates; omega) (fun i j _ _ _ _ h => by simp only [Addr.cam.injEq] at h; exact pair_inj 6 (by omega) i j h.1 h.2)
    refine ⟨P', e, fun v hv hk => ?_, fun x hx => e2 x fun j j0 j1 h => ?_⟩
    · cases v <;> simp only [kindOf, reduceCtorEq] at hk
      rename_i i k
      have hv' := hv
      obtain ⟨-, a1, a2, a3, a4⟩ := hv'
      have := e1 (i * 6 + k) (by omega) (by omega)
      rw [(divmod 6 i k a3 a4).1, (divmod 6 i k a3 a4).2, hi] at this
      rw [extr_loc hv]
      exact this
    · obtain ⟨a1, a2, a3, a4⟩ := pair_bound 6 d.Nce j (by omega) j0 (by omega)
      exact hx (.extrinsics (j / 6) (j % 6)) ⟨h1, a1, a2, a3, a4⟩ rfl h
  · refine ⟨P, kind_absent _ _ _ _ _ _ ?_, wrote_none _ _ _ _ fun v hv hk => ?_⟩
    · unfold stateIndexExtrinsics
      split_ifs <;> first | omega | simp_all
    · cases v <;> simp only [kindOf, reduceCtorEq] at hk
      obtain ⟨a0, a1, a2, -⟩ := hv
      exact hp ⟨a0, by omega⟩

theorem frames_step (d : Dims) (wf : WF d) (n : Int) (hn : n = numStates d) (b : Mem) (P : Params) :
    ∃ P', ingestKind (ret (stateIndexFrames 0 d)) (numStatesFrames d) n b (some (ravel d.Nframes 6 .frame)) P = some P' ∧ Wrote d b .frames P P' := by
  by_cases hp : d.sel.frames = true ∧ 0 < d.Nframes
  · obtain ⟨h1, h2⟩ := hp
    have hb := nonnegs wf
    have hi : stateIndexFrames 0 d = numStatesIntrinsics d + numStatesExtrinsics d := by
      have := frame_loc (d := d) (i := 0) (k := 0) ⟨h1, by omega, by omega, by omega, by omega⟩
      simp only [loc, add_zero, zero_mul] at this; exact this
    have hN : numStatesFrames d = d.Nframes * 6 := by rw [nFrames_eq, if_pos h1]
    have hr : ravel d.Nframes 6 .frame = (loop (numStatesFrames d)).map fun j => .frame (j / 6) (j % 6) := by rw [hN]; rfl
    rw [hr]
    obtain ⟨P', e, e1, e2⟩ := kind_present (stateIndexFrames 0 d) (numStatesFrames d) n b (fun j => .frame (j / 6) (j % 6)) P (by omega) (by omega)
      (by rw [hi, hn]; unfold numStates; omega) (fun i j _ _ _ _ h => by simp only [Addr.frame.injEq] at h; exact pair_inj 6 (by omega) i j h.1 h.2)
    refine ⟨P', e, fun v hv hk => ?_, fun x hx => e2 x fun j j0 j1 h => ?_⟩
    · cases v <;> simp only [kindOf, reduceCtorEq] at hk
      rename_i i k
      have hv' := hv
      obtain ⟨-, a1, a2, a3, a4⟩ := hv'
      have := e1 (i * 6 + k) (by omega) (by omega)
      rw [(divmod 6 i k a3 a4).1, (divmod 6 i k a3 a4).2, hi] at this
      rw [frame_loc hv]
      exact this
    · obtain ⟨a1, a2, a3, a4⟩ := pair_bound 6 d.Nframes j (by omega) j0 (by omega)
      exact hx (.frame (j / 6) (j % 6)) ⟨h1, a1, a2, a3, a4⟩ rfl h
  · refine ⟨P, kind_absent _ _ _ _ _ _ ?_, wrote_none _ _ _ _ fun v hv hk => ?_⟩
    · unfold stateIndexFrames
      split_ifs <;> first | omega | simp_all
    · cases v <;> simp only [kindOf, reduceCtorEq] at hk
      obtain ⟨a0, a1, a2, -⟩ := hv
      exact hp ⟨a0, by omega⟩

theorem points_step (d : Dims) (wf : WF d) (n : Int) (hn : n = numStates d) (b : Mem) (P : Params) (hfix : d.sel.frames = true → 0 < d.Npoints → 0 < d.NpointsFixed) :
    ∃ P', ingestKind (ret (stateIndexPoints 0 d)) (numStatesPoints d) n b
      (some ((slice (d.Npoints * 3) Option.none (some (-d.NpointsFixed * 3))).map fun j => .point (j / 3) (j % 3))) P = some P' ∧ Wrote d b .points P P' := by
  by_cases hp : d.sel.frames = true ∧ 0 < d.Npoints - d.NpointsFixed
  · obtain ⟨h1, h2⟩ := hp
    have hb := nonnegs wf
    have hf := hfix h1 (by have := wf.npf; omega)
    have hnp := wf.np
    have hi : stateIndexPoints 0 d = numStatesIntrinsics d + numStatesExtrinsics d + numStatesFrames d := by
      have := point_loc (d := d) (i := 0) (k := 0) ⟨h1, by omega, by omega, by omega, by omega⟩
      simp only [loc, add_zero, zero_mul] at this; exact this
    have hN : numStatesPoints d = (d.Npoints - d.NpointsFixed) * 3 := by unfold numStatesPoints; simp only [h1, if_true]
    have hr : (slice (d.Npoints * 3) Option.none (some (-d.NpointsFixed * 3))).map (fun j => Addr.point (j / 3) (j % 3)) = (loop (numStatesPoints d)).map fun j => .point (j / 3) (j % 3) := by
      rw [hN]
      unfold slice
      simp only []
      rw [if_pos (by omega), max_eq_left (by omega)]
      rw [show -d.NpointsFixed * 3 + d.Npoints * 3 - 0 = (d.Npoints - d.NpointsFixed) * 3 by ring]
      simp
    rw [hr]
    obtain ⟨P', e, e1, e2⟩ := kind_present (stateIndexPoints 0 d) (numStatesPoints d) n b (fun j => .point (j / 3) (j % 3)) P (by omega) (by omega)
      (by rw [hi, hn]; unfold numStates; omega) (fun i j _ _ _ _ h => by simp only [Addr.point.injEq] at h; exact pair_inj 3 (by omega) i j h.1 h.2)
    refine ⟨P', e, fun v hv hk => ?_, fun x hx => e2 x fun j j0 j1 h => ?_⟩
    · cases v <;> simp only [kindOf, reduceCtorEq] at hk
      rename_i i k
      have hv' := hv
      obtain ⟨-, a1, a2, a3, a4⟩ := hv'
      have := e1 (i * 3 + k) (by omega) (by omega)
      rw [(divmod 3 i k a3 a4).1, (divmod 3 i k a3 a4).2, hi] at this
      rw [point_loc hv]
      exact this
    · obtain ⟨a1, a2, a3, a4⟩ := pair_bound 3 (d.Npoints - d.NpointsFixed) j (by omega) j0 (by omega)
      exact hx (.point (j / 3) (j % 3)) ⟨h1, a1, a2, a3, a4⟩ rfl h
  · refine ⟨P, kind_absent _ _ _ _ _ _ ?_, wrote_none _ _ _ _ fun v hv hk => ?_⟩
    · unfold stateIndexPoints
      simp only []
      split_ifs with c1 c2 c3
      · omega
      · omega
      · omega
      · exact absurd ⟨by simpa using c2, by omega⟩ hp
    · cases v <;> simp only [kindOf, reduceCtorEq] at hk
      obtain ⟨a0, a1, a2, -⟩ := hv
      exact hp ⟨a0, by omega⟩

theorem warp_step (d : Dims) (wf : WF d) (n : Int) (hn : n = numStates d) (b : Mem) (P : Params) :
    ∃ P', ingestKind (ret (stateIndexWarp d)) (numStatesWarp d) n b (some (ravel 1 2 fun _ k => .warp k)) P = some P' ∧ Wrote d b .warp P P' := by
  by_cases hp : d.sel.warp = true ∧ 0 < d.Nob
  · obtain ⟨h1, h2⟩ := hp
    have hb := nonnegs wf
    have hi : stateIndexWarp d = numStatesIntrinsics d + numStatesExtrinsics d + numStatesFrames d + numStatesPoints d := by
      have := warp_loc (d := d) (k := 0) ⟨h1, by omega, by omega, by omega⟩
      simp only [loc, add_zero] at this; exact this
    have hN : numStatesWarp d = 2 := by unfold numStatesWarp hasCalobjectWarp; simp [h1, h2]
    have hr : (ravel 1 2 fun _ k => Addr.warp k) = (loop (numStatesWarp d)).map fun j => .warp (j % 2) := by rw [hN]; rfl
    rw [hr]
    obtain ⟨P', e, e1, e2⟩ := kind_present (stateIndexWarp d) (numStatesWarp d) n b (fun j => .warp (j % 2)) P (by omega) (by omega)
      (by rw [hi, hn]; unfold numStates; omega) (fun i j _ _ _ _ h => by simp only [Addr.warp.injEq] at h; omega)
    refine ⟨P', e, fun v hv hk => ?_, fun x hx => e2 x fun j j0 j1 h => ?_⟩
    · cases v <;> simp only [kindOf, reduceCtorEq] at hk
      rename_i k
      have hv' := hv
      obtain ⟨-, a2, a3, a4⟩ := hv'
      have := e1 k (by omega) (by omega)
      rw [Int.emod_eq_of_lt a3 a4, hi] at this
      rw [warp_loc hv]
      exact this
    · exact hx (.warp (j % 2)) ⟨h1, h2, by omega, by omega⟩ rfl h
  · refine ⟨P, kind_absent _ _ _ _ _ _ ?_, wrote_none _ _ _ _ fun v hv hk => ?_⟩
    · unfold stateIndexWarp hasCalobjectWarp
      split_ifs with c1
      · omega
      · exact absurd (by simpa using c1) hp
    · cases v <;> simp only [kindOf, reduceCtorEq] at hk
      obtain ⟨a0, a1, a2, -⟩ := hv
      exact hp ⟨a0, by omega⟩

/-- the columns that are selected -/
theorem cols_eq (d : Dims) (c q : Bool) (hc : c = d.sel.core) (hq : q = d.sel.distortions) (h4 : q = true ∨ 4 < d.lens.numParams) :
    slice d.lens.numParams (if c then none else some (Ncore d.lens)) (if q then none else some (-(d.lens.numParams - Ncore d.lens))) =
      (loop (specIntrinsicsPerCamera d.sel d.lens)).map fun k => (if d.sel.core then k else k + 4) := by
  have hcore : Ncore d.lens = 4 := by unfold Ncore; cases d.lens <;> rfl
  have h4' := numParams_ge4 d.lens
  subst hc
  subst hq
  rw [hcore]
  unfold slice specIntrinsicsPerCamera
  cases d.sel.core <;> cases hd : d.sel.distortions <;> simp only [Bool.false_eq_true, if_true, if_false]
  · have h4 : 4 < d.lens.numParams := by simpa [hd] using h4
    rw [if_neg (by omega), if_pos (by omega), min_eq_left (by omega), max_eq_left (by omega)]
    rw [loop_nonpos (by omega), loop_nonpos (by omega)]; rfl
  · rw [if_neg (by omega), min_eq_left (by omega)]
    rw [zero_add]
    exact List.map_congr_left fun k _ => by omega
  · have h4 : 4 < d.lens.numParams := by simpa [hd] using h4
    rw [if_pos (by omega), max_eq_left (by omega)]
    rw [show -(d.lens.numParams - 4) + d.lens.numParams - 0 = 4 + 0 by ring]
    exact List.map_congr_left fun k _ => by omega
  · rw [show d.lens.numParams - 0 = 4 + (d.lens.numParams - 4) by ring]
    exact List.map_congr_left fun k _ => by omega

/-- what the assignment of the intrinsics does: everything is written either to the array, or to a copy of it -/
theorem intrinsics_assign (d : Dims) (wf : WF d) (f : Flags) (n : Int) (hn : n = numStates d) (b : Mem) (P : Params) (hc : f.core.getD true = d.sel.core) (hq : f.distortions.getD true = d.sel.distortions)
    (h4 : d.sel.distortions = true ∨ 4 < d.lens.numParams) (hs : 0 < specIntrinsicsPerCamera d.sel d.lens) :
    ∃ P', Wrote d b .intrinsics P P' ∧ ingestIntrinsics d f (numStatesIntrinsics d) n b 0 P =
      some (if d.Nci ≤ 1 ∨ specIntrinsicsPerCamera d.sel d.lens = d.lens.numParams then P' else P) := by
  have hb := nonnegs wf
  have hlen : (((loop (specIntrinsicsPerCamera d.sel d.lens)).map fun k => (if d.sel.core then k else k + 4)).length : Int) = specIntrinsicsPerCamera d.sel d.lens := by
    rw [List.length_map, loop_length, Int.toNat_of_nonneg hs.le]
  have hdst : ravel d.Nci (specIntrinsicsPerCamera d.sel d.lens) (fun i k => Addr.intr (i * d.lens.numParams +
      ((loop (specIntrinsicsPerCamera d.sel d.lens)).map fun k => (if d.sel.core then k else k + 4)).getD k.toNat 0)) =
      (loop (numStatesIntrinsics d)).map fun j => home d (.intrinsics (j / specIntrinsicsPerCamera d.sel d.lens) (j % specIntrinsicsPerCamera d.sel d.lens)) := by
    unfold ravel
    rw [← nIntr_eq]
    refine List.map_congr_left fun j hj => ?_
    rw [mem_loop, nIntr_eq] at hj
    obtain ⟨a1, a2, a3, a4⟩ := pair_bound _ _ j hs hj.1 hj.2
    simp only [home, List.getD, List.getElem?_map, loop_get _ _ a3 a4, Option.map_some, Option.getD_some]
  have hsrc : slice n (some 0) (some (numStatesIntrinsics d)) = (loop (numStatesIntrinsics d)).map (0 + ·) := by
    have := slice_inner n 0 (numStatesIntrinsics d) le_rfl hb.1 (by rw [hn]; unfold numStates; omega)
    rwa [zero_add] at this
  obtain ⟨P', e, e1, e2⟩ := assign_loop P (numStatesIntrinsics d) (fun j => home d (.intrinsics (j / specIntrinsicsPerCamera d.sel d.lens) (j % specIntrinsicsPerCamera d.sel d.lens)))
    (fun j => b (0 + j)) (fun i j i0 i1 j0 j1 h => by
      rw [nIntr_eq] at i1 j1
      obtain ⟨a1, a2, a3, a4⟩ := pair_bound _ _ i hs i0 i1
      obtain ⟨b1, b2, b3, b4⟩ := pair_bound _ _ j hs j0 j1
      have o1 := offset_range d _ a3 a4
      have o2 := offset_range d _ b3 b4
      simp only [home, Addr.intr.injEq] at h
      have u1 := divmod d.lens.numParams (i / specIntrinsicsPerCamera d.sel d.lens) _ o1.1 o1.2
      have u2 := divmod d.lens.numParams (j / specIntrinsicsPerCamera d.sel d.lens) _ o2.1 o2.2
      rw [h] at u1
      have v1 := u1.1.symm.trans u2.1
      have v2 := u1.2.symm.trans u2.2
      refine pair_inj _ hs i j v1 ?_
      split_ifs at v2 <;> omega)
  refine ⟨P', ⟨fun v hv hk => ?_, fun x hx => e2 x fun j j0 j1 h => ?_⟩, ?_⟩
  · cases v <;> simp only [kindOf, reduceCtorEq] at hk
    rename_i i k
    have hv' := hv
    obtain ⟨a1, a2, a3, a4⟩ := hv'
    have := e1 (i * specIntrinsicsPerCamera d.sel d.lens + k) (by nlinarith) (by rw [nIntr_eq]; exact pair_lt _ _ _ _ a2 a4 a3)
    rw [(divmod _ i k a3 a4).1, (divmod _ i k a3 a4).2, zero_add] at this
    rw [intr_loc hv]
    exact this
  · rw [nIntr_eq] at j1
    obtain ⟨a1, a2, a3, a4⟩ := pair_bound _ _ j hs j0 j1
    exact hx (.intrinsics _ _) ⟨a1, a2, a3, a4⟩ rfl h
  · unfold ingestIntrinsics
    simp only [cols_eq d _ _ hc hq (by rw [hq]; exact h4), hlen, hdst, hsrc, List.map_map]
    rw [show (b ∘ fun x => 0 + x) = fun j => b (0 + j) from rfl, e]
    simp only [Option.map_some, hs.ne', or_false]

/-- the steps -/
theorem wrote_all (d : Dims) (b : Mem) (P P1 P2 P3 P4 P5 : Params) (h1 : Wrote d b .intrinsics P P1) (h2 : Wrote d b .extrinsics P1 P2) (h3 : Wrote d b .frames P2 P3) (h4 : Wrote d b .points P3 P4)
    (h5 : Wrote d b .warp P4 P5) : (∀ v, Present d v → P5 (home d v) = b (loc d v)) ∧ (∀ x, (∀ v, Present d v → home d v ≠ x) → P5 x = P x) := by
  have keep : ∀ {κ P P'}, Wrote d b κ P P' → ∀ v, kindOf v ≠ κ → P' (home d v) = P (home d v) := fun h v hk =>
    h.2 _ fun w _ hw e => hk ((home_kind d w v e).symm.trans hw)
  refine ⟨fun v hv => ?_, fun x hx => ?_⟩
  · cases hk : kindOf v
    · rw [keep h5 v (by rw [hk]; simp), keep h4 v (by rw [hk]; simp), keep h3 v (by rw [hk]; simp), keep h2 v (by rw [hk]; simp), h1.1 v hv hk]
    · rw [keep h5 v (by rw [hk]; simp), keep h4 v (by rw [hk]; simp), keep h3 v (by rw [hk]; simp), h2.1 v hv hk]
    · rw [keep h5 v (by rw [hk]; simp), keep h4 v (by rw [hk]; simp), h3.1 v hv hk]
    · rw [keep h5 v (by rw [hk]; simp), h4.1 v hv hk]
    · exact h5.1 v hv hk
  · have hx' : ∀ κ v, Present d v → kindOf v = κ → home d v ≠ x := fun _ v hv _ => hx v hv
    rw [h5.2 x (hx' _), h4.2 x (hx' _), h3.2 x (hx' _), h2.2 x (hx' _), h1.2 x (hx' _)]

/-! ### lemmas: the arguments -/

theorem layout_sizes {α : Type} (a : Inputs α) (hl : NoLegacy a) (L : Layout) (h : optimizeLayout a = some L) :
    L.p.d.Nci = rows a.intrinsics.get ∧ L.p.d.Nce = rows a.rt_cam_ref.get ∧ L.p.d.Nframes = rows a.rt_ref_frame.get ∧ L.p.d.Npoints = rows a.points.get ∧ L.p.d.NpointsFixed = a.Npoints_fixed ∧
      L.p.d.sel = selections a.flags L.p.d.Nci L.p.d.Nce L.p.d.Nframes L.p.d.Nob ∧ dimsOf a = some L.p.d := by
  obtain ⟨name, h1, h2, h3, -⟩ := layout_some a hl L h
  have h3' := h3 L.p.d.lens
  have hd : dimsOf a = some L.p.d := by
    unfold dimsOf
    simp only [h1, h2, h3', Option.bind_eq_bind, Option.bind_some]
    rfl
  unfold problem at h3'
  rw [hl.1, hl.2, effective_none, effective_none] at h3'
  simp only [Option.bind_eq_bind, Option.bind_some] at h3'
  have e := Option.some.inj h3'
  have e' : _ = L.p.d := congrArg Problem.d e
  refine ⟨?_, ?_, ?_, ?_, ?_, ?_, hd⟩ <;> rw [← e']

theorem flags_core {α : Type} (a : Inputs α) (hl : NoLegacy a) (L : Layout) (h : optimizeLayout a = some L) (h0 : 0 < L.p.d.Nci) :
    a.flags.core.getD true = L.p.d.sel.core ∧ a.flags.distortions.getD true = L.p.d.sel.distortions := by
  obtain ⟨-, -, -, -, -, e, -⟩ := layout_sizes a hl L h
  rw [e]
  unfold selections constructProblemSelections
  constructor
  · cases a.flags.core with
    | none => simp [parseFlag, h0]
    | some x => cases x <;> simp [parseFlag]
  · cases a.flags.distortions with
    | none => simp [parseFlag, h0]
    | some x => cases x <;> simp [parseFlag]

theorem rows_pos {β : Type} (x : Option (List β)) (h : 0 < rows x) : ∃ l, x = some l ∧ rows x = l.length := by
  cases x with
  | none => simp [rows] at h
  | some l => exact ⟨l, rfl, rfl⟩

/-- `arr` is only looked at if there is something to write -/
theorem kind_arr (i N n : Int) (b : Mem) (x y : Option (List Addr)) (P : Params) (h : 0 ≤ i → x = y) : ingestKind (ret i) N n b x P = ingestKind (ret i) N n b y P := by
  by_cases hi : 0 ≤ i
  · rw [h hi]
  · rw [kind_absent _ _ _ _ _ _ (by omega), kind_absent _ _ _ _ _ _ (by omega)]

theorem index_ext (d : Dims) (h : 0 ≤ stateIndexExtrinsics 0 d) : 0 < d.Nce := by
  unfold stateIndexExtrinsics at h
  split_ifs at h <;> omega

theorem index_frames (d : Dims) (h : 0 ≤ stateIndexFrames 0 d) : 0 < d.Nframes := by
  unfold stateIndexFrames at h
  split_ifs at h <;> omega

theorem index_points (d : Dims) (h : 0 ≤ stateIndexPoints 0 d) : 0 < d.Npoints - d.NpointsFixed ∧ d.sel.frames = true := by
  unfold stateIndexPoints at h
  simp only [] at h
  split_ifs at h with c1 c2 c3
  · omega
  · omega
  · omega
  · exact ⟨by omega, by simpa using c2⟩

theorem index_warp (d : Dims) (h : 0 ≤ stateIndexWarp d) : d.sel.warp = true ∧ 0 < d.Nob := by
  unfold stateIndexWarp hasCalobjectWarp at h
  split_ifs at h with c1
  · omega
  · simpa using c1

/-- the whole function, the arguments having been understood -/
theorem ingest_eq {α : Type} (a : Inputs α) (hl : NoLegacy a) (L : Layout) (h : optimizeLayout a = some L) (h0 : 0 ≤ a.Npoints_fixed) (u : Lens) (n : Nat) (b : Mem) (P : Params) :
    ingestPackedState a u n b P = if (n : Int) ≠ numStates L.p.d then none else (do
      let b ← packUnpackArray false L.p.d n n b
      let P ← ingestIntrinsicsKind (ret (stateIndexIntrinsics 0 L.p.d)) L.p.d a.flags (numStatesIntrinsics L.p.d) n b a.intrinsics.get.isSome P
      let P ← ingestKind (ret (stateIndexExtrinsics 0 L.p.d)) (numStatesExtrinsics L.p.d) n b (a.rt_cam_ref.get.map fun l => ravel l.length 6 .cam) P
      let P ← ingestKind (ret (stateIndexFrames 0 L.p.d)) (numStatesFrames L.p.d) n b (a.rt_ref_frame.get.map fun l => ravel l.length 6 .frame) P
      let P ← ingestKind (ret (stateIndexPoints 0 L.p.d)) (numStatesPoints L.p.d) n b
        (a.points.get.map fun l => (slice (l.length * 3) Option.none (some (-a.Npoints_fixed * 3))).map fun j => .point (j / 3) (j % 3)) P
      ingestKind (ret (stateIndexWarp L.p.d)) (numStatesWarp L.p.d) n b (if a.warpGiven then some (ravel 1 2 fun _ k => .warp k) else Option.none) P) := by
  obtain ⟨-, -, -, -, -, -, hd⟩ := layout_sizes a hl L h
  have c1 := call_num a hl L h h0 u .intrinsics
  have c2 := call_num a hl L h h0 u .extrinsics
  have c3 := call_num a hl L h h0 u .frames
  have c4 := call_num a hl L h h0 u .points
  have c5 := call_num a hl L h h0 u .warp
  simp only [Kind.num, Kind.len] at c1 c2 c3 c4 c5
  have s1 : call a u (.state_index_intrinsics 0) = ret (stateIndexIntrinsics 0 L.p.d) := by simp only [call, full_eq a hl L h]
  have s2 : call a u (.state_index_extrinsics 0) = ret (stateIndexExtrinsics 0 L.p.d) := by simp only [call, full_eq a hl L h]
  have s3 : call a u (.state_index_frames 0) = ret (stateIndexFrames 0 L.p.d) := by simp only [call, full_eq a hl L h]
  have s4 : call a u (.state_index_points 0) = ret (stateIndexPoints 0 L.p.d) := by simp only [call, full_eq a hl L h]
  have s5 : call a u .state_index_calobject_warp = ret (stateIndexWarp L.p.d) := by simp only [call, full_eq a hl L h]
  have hn : ∀ x, number (.value x) = some x := fun _ => rfl
  unfold ingestPackedState
  rw [c1, c2, c3, c4, c5, s1, s2, s3, s4, s5, hd]
  simp only [hn, Option.bind_eq_bind, Option.bind_some]
  rfl

/-- the unpacked vector -/
theorem unpacked (d : Dims) (wf : WF d) (h0 : 0 < numStates d) (n : Nat) (hn : (n : Int) = numStates d) (b : Mem) :
    ∃ b', packUnpackArray false d n n b = some b' ∧ ∀ v, Present d v → b' (loc d v) = b (loc d v) * unit d v := by
  obtain ⟨x', e, e1, -⟩ := pack_unpack_array false d wf h0 1 b
  have : (numStates d).toNat = n := by omega
  rw [this, one_mul] at e
  refine ⟨x', e, fun v hv => ?_⟩
  have := e1 0 v le_rfl (by simp) hv
  simpa using this

/-- all but the intrinsics -/
theorem rest_ok {α : Type} (a : Inputs α) (hl : NoLegacy a) (L : Layout) (h : optimizeLayout a = some L) (h0 : 0 ≤ a.Npoints_fixed) (n : Nat) (hn : (n : Int) = numStates L.p.d) (b : Mem) (P1 : Params)
    (hw : L.p.d.sel.warp = true → 0 < L.p.d.Nob → a.warpGiven = true) (hfix : L.p.d.sel.frames = true → 0 < L.p.d.Npoints → 0 < a.Npoints_fixed) :
    ∃ P2 P3 P4 P5, (do
      let P ← ingestKind (ret (stateIndexExtrinsics 0 L.p.d)) (numStatesExtrinsics L.p.d) n b (a.rt_cam_ref.get.map fun l => ravel l.length 6 .cam) P1
      let P ← ingestKind (ret (stateIndexFrames 0 L.p.d)) (numStatesFrames L.p.d) n b (a.rt_ref_frame.get.map fun l => ravel l.length 6 .frame) P
      let P ← ingestKind (ret (stateIndexPoints 0 L.p.d)) (numStatesPoints L.p.d) n b
        (a.points.get.map fun l => (slice (l.length * 3) Option.none (some (-a.Npoints_fixed * 3))).map fun j => .point (j / 3) (j % 3)) P
      ingestKind (ret (stateIndexWarp L.p.d)) (numStatesWarp L.p.d) n b (if a.warpGiven then some (ravel 1 2 fun _ k => .warp k) else Option.none) P) = some P5 ∧
      Wrote L.p.d b .extrinsics P1 P2 ∧ Wrote L.p.d b .frames P2 P3 ∧ Wrote L.p.d b .points P3 P4 ∧ Wrote L.p.d b .warp P4 P5 := by
  have wf := wf_state a hl L h h0
  obtain ⟨-, z2, z3, z4, z5, -, -⟩ := layout_sizes a hl L h
  obtain ⟨P2, e2, w2⟩ := extrinsics_step L.p.d wf n hn b P1
  obtain ⟨P3, e3, w3⟩ := frames_step L.p.d wf n hn b P2
  obtain ⟨P4, e4, w4⟩ := points_step L.p.d wf n hn b P3 (by rw [z5]; exact hfix)
  obtain ⟨P5, e5, w5⟩ := warp_step L.p.d wf n hn b P4
  refine ⟨P2, P3, P4, P5, ?_, w2, w3, w4, w5⟩
  have a2 := kind_arr (stateIndexExtrinsics 0 L.p.d) (numStatesExtrinsics L.p.d) n b (a.rt_cam_ref.get.map fun l => ravel l.length 6 .cam) (some (ravel L.p.d.Nce 6 .cam)) P1 (fun hi => by
    have := index_ext _ hi
    rw [z2] at this
    obtain ⟨l, e, e'⟩ := rows_pos _ this
    rw [z2, e', e]; rfl)
  have a3 := kind_arr (stateIndexFrames 0 L.p.d) (numStatesFrames L.p.d) n b (a.rt_ref_frame.get.map fun l => ravel l.length 6 .frame) (some (ravel L.p.d.Nframes 6 .frame)) P2 (fun hi => by
    have := index_frames _ hi
    rw [z3] at this
    obtain ⟨l, e, e'⟩ := rows_pos _ this
    rw [z3, e', e]; rfl)
  have a4 := kind_arr (stateIndexPoints 0 L.p.d) (numStatesPoints L.p.d) n b
    (a.points.get.map fun l => (slice (l.length * 3) Option.none (some (-a.Npoints_fixed * 3))).map fun j => .point (j / 3) (j % 3))
    (some ((slice (L.p.d.Npoints * 3) Option.none (some (-L.p.d.NpointsFixed * 3))).map fun j => .point (j / 3) (j % 3))) P3 (fun hi => by
    have := (index_points _ hi).1
    have h9 : 0 < L.p.d.Npoints := by omega
    rw [z4] at h9
    obtain ⟨l, e, e'⟩ := rows_pos _ h9
    rw [z4, z5, e', e]; rfl)
  have a5 := kind_arr (stateIndexWarp L.p.d) (numStatesWarp L.p.d) n b (if a.warpGiven then some (ravel 1 2 fun _ k => .warp k) else Option.none) (some (ravel 1 2 fun _ k => .warp k)) P4 (fun hi => by
    have := index_warp _ hi
    rw [if_pos (hw this.1 this.2)])
  rw [a2, e2]
  simp only [Option.bind_eq_bind, Option.bind_some]
  rw [a3, e3]
  simp only [Option.bind_some]
  rw [a4, e4]
  simp only [Option.bind_some]
  rw [a5, e5]

theorem index_intr (d : Dims) : (0 < d.Nci ∧ 0 < specIntrinsicsPerCamera d.sel d.lens ∧ stateIndexIntrinsics 0 d = 0) ∨ (stateIndexIntrinsics 0 d < 0 ∧ ∀ v, Present d v → kindOf v ≠ .intrinsics) := by
  by_cases h : 0 < d.Nci ∧ 0 < specIntrinsicsPerCamera d.sel d.lens
  · refine Or.inl ⟨h.1, h.2, ?_⟩
    have := intr_loc (d := d) (i := 0) (k := 0) ⟨le_rfl, h.1, le_rfl, h.2⟩
    simpa [loc] using this
  · refine Or.inr ⟨?_, fun v hv hk => ?_⟩
    · unfold stateIndexIntrinsics
      simp only [numIntrinsicsOpt_eq]
      split_ifs <;> omega
    · cases v <;> simp only [kindOf, reduceCtorEq] at hk
      obtain ⟨a1, a2, a3, a4⟩ := hv
      exact h ⟨by omega, by omega⟩

/-! ### theorems -/

/-- **C108**: what optimizer_callback() packed can be put back, after having been changed. Everything that is being optimized gets the value in the given vector, in its units, from the place where the state_index functions say it
is; nothing else changes; and the packed state of the result is the given vector. Partial: not if only some of the intrinsics of more than one camera are being optimized (`columns_wrong`), nor if there are points, all of which are
being optimized (`points_wrong`), nor if the distortions are locked, with a lens model that has none (`distortions_wrong`) -/
theorem ingest_partial {α : Type} (a : Inputs α) (hl : NoLegacy a) (L : Layout) (h : optimizeLayout a = some L) (h0 : 0 ≤ a.Npoints_fixed) (u : Lens) (n : Nat) (hn : (n : Int) = numStates L.p.d) (hpos : 0 < n)
    (hw : L.p.d.sel.warp = true → 0 < L.p.d.Nob → a.warpGiven = true)
    (hcols : L.p.d.Nci ≤ 1 ∨ L.p.d.sel.core = L.p.d.sel.distortions)
    (hfix : L.p.d.sel.frames = true → 0 < L.p.d.Npoints → 0 < a.Npoints_fixed)
    (hdist : L.p.d.sel.distortions = true ∨ 4 < L.p.d.lens.numParams) (b : Mem) (P : Params) :
    ∃ P', ingestPackedState a u n b P = some P' ∧ (∀ v, Present L.p.d v → P' (home L.p.d v) = b (loc L.p.d v) * unit L.p.d v) ∧
      (∀ x, (∀ v, Present L.p.d v → home L.p.d v ≠ x) → P' x = P x) ∧
      ∀ b0 i, 0 ≤ i → i < numStates L.p.d → (packState L.p.d P' b0).1 i = b i := by
  have wf := wf_state a hl L h h0
  obtain ⟨b', hb, hb'⟩ := unpacked L.p.d wf (by omega) n hn b
  obtain ⟨P1, e1, w1⟩ : ∃ P1, ingestIntrinsicsKind (ret (stateIndexIntrinsics 0 L.p.d)) L.p.d a.flags (numStatesIntrinsics L.p.d) n b' a.intrinsics.get.isSome P = some P1 ∧ Wrote L.p.d b' .intrinsics P P1 := by
    rcases index_intr L.p.d with ⟨c1, c2, c3⟩ | ⟨c1, c2⟩
    · obtain ⟨f1, f2⟩ := flags_core a hl L h c1
      obtain ⟨P1, w, e⟩ := intrinsics_assign L.p.d wf a.flags n hn b' P f1 f2 hdist c2
      refine ⟨P1, ?_, w⟩
      have z1 := (layout_sizes a hl L h).1
      rw [z1] at c1
      obtain ⟨l, hlst, -⟩ := rows_pos _ c1
      unfold ingestIntrinsicsKind
      rw [c3, ret_get le_rfl, hlst]
      simp only [got, Option.bind_eq_bind, Option.bind_some, Option.isSome_some, if_true]
      rw [e, if_pos]
      refine hcols.imp id fun hcd => ?_
      unfold specIntrinsicsPerCamera at c2 ⊢
      rw [hcd] at c2 ⊢
      split_ifs at c2 ⊢ <;> omega
    · refine ⟨P, ?_, wrote_none _ _ _ _ c2⟩
      unfold ingestIntrinsicsKind
      rw [ret_none c1]
      rfl
  obtain ⟨P2, P3, P4, P5, e5, w2, w3, w4, w5⟩ := rest_ok a hl L h h0 n hn b' P1 hw hfix
  obtain ⟨r1, r2⟩ := wrote_all L.p.d b' P P1 P2 P3 P4 P5 w1 w2 w3 w4 w5
  have r1' : ∀ v, Present L.p.d v → P5 (home L.p.d v) = b (loc L.p.d v) * unit L.p.d v := fun v hv => (r1 v hv).trans (hb' v hv)
  refine ⟨P5, ?_, r1', r2, fun b0 i i0 i1 => ?_⟩
  · rw [ingest_eq a hl L h h0, if_neg (by omega), hb]
    simp only [Option.bind_eq_bind, Option.bind_some, e1] at e5 ⊢
    exact e5
  · obtain ⟨v, ⟨hv, rfl⟩, -⟩ := state_layout_tiles L.p.d wf i i0 i1
    rw [(pack_state_values L.p.d wf P5 b0).1 v hv, r1' v hv, mul_div_cancel_right₀ _ (unit_pos L.p.d v).ne']

/-- **C108** does not hold: with more than one camera, and with either the core or the distortions locked, the intrinsics are silently left alone (everything else is updated) -/
theorem columns_wrong {α : Type} (a : Inputs α) (hl : NoLegacy a) (L : Layout) (h : optimizeLayout a = some L) (h0 : 0 ≤ a.Npoints_fixed) (u : Lens) (n : Nat) (hn : (n : Int) = numStates L.p.d)
    (hw : L.p.d.sel.warp = true → 0 < L.p.d.Nob → a.warpGiven = true)
    (h2 : 2 ≤ L.p.d.Nci) (hcd : L.p.d.sel.core ≠ L.p.d.sel.distortions) (h4 : 4 < L.p.d.lens.numParams)
    (hfix : L.p.d.sel.frames = true → 0 < L.p.d.Npoints → 0 < a.Npoints_fixed) (b : Mem) (P : Params) :
    ∃ P', ingestPackedState a u n b P = some P' ∧ (∀ i, P' (.intr i) = P (.intr i)) ∧
      (∃ v, Present L.p.d v ∧ kindOf v = .intrinsics) ∧ ∀ v, Present L.p.d v → kindOf v ≠ .intrinsics → P' (home L.p.d v) = b (loc L.p.d v) * unit L.p.d v := by
  have wf := wf_state a hl L h h0
  have hs : 0 < specIntrinsicsPerCamera L.p.d.sel L.p.d.lens ∧ specIntrinsicsPerCamera L.p.d.sel L.p.d.lens ≠ L.p.d.lens.numParams := by
    unfold specIntrinsicsPerCamera
    cases hc : L.p.d.sel.core <;> cases hd : L.p.d.sel.distortions <;> rw [hc, hd] at hcd <;> simp only [Bool.false_eq_true, if_true, if_false] <;> first | exact absurd rfl hcd | omega
  have hnum : 0 < numStates L.p.d := by
    have := nonnegs wf
    have h9 := nIntr_eq L.p.d
    have : 0 < L.p.d.Nci * specIntrinsicsPerCamera L.p.d.sel L.p.d.lens := Int.mul_pos (by omega) hs.1
    unfold numStates; omega
  obtain ⟨b', hb, hb'⟩ := unpacked L.p.d wf hnum n hn b
  have e1 : ingestIntrinsicsKind (ret (stateIndexIntrinsics 0 L.p.d)) L.p.d a.flags (numStatesIntrinsics L.p.d) n b' a.intrinsics.get.isSome P = some P := by
    rcases index_intr L.p.d with ⟨c1, c2, c3⟩ | ⟨c1, c2⟩
    · obtain ⟨f1, f2⟩ := flags_core a hl L h c1
      obtain ⟨P1, w, e⟩ := intrinsics_assign L.p.d wf a.flags n hn b' P f1 f2 (Or.inr h4) c2
      have z1 := (layout_sizes a hl L h).1
      rw [z1] at c1
      obtain ⟨l, hlst, -⟩ := rows_pos _ c1
      unfold ingestIntrinsicsKind
      rw [c3, ret_get le_rfl, hlst]
      simp only [got, Option.bind_eq_bind, Option.bind_some, Option.isSome_some, if_true]
      rw [e, if_neg]
      rintro (hx | hx)
      · omega
      · exact hs.2 hx
    · unfold ingestIntrinsicsKind
      rw [ret_none c1]
      rfl
  obtain ⟨P2, P3, P4, P5, e5, w2, w3, w4, w5⟩ := rest_ok a hl L h h0 n hn b' P hw hfix
  have keep : ∀ {κ P P'}, Wrote L.p.d b' κ P P' → κ ≠ .intrinsics → ∀ i, P' (.intr i) = P (.intr i) := fun hwr hk i => hwr.2 _ fun v _ hv e => by
    cases v <;> simp only [home, reduceCtorEq] at e
    exact hk hv.symm
  refine ⟨P5, ?_, fun i => ?_, ⟨.intrinsics 0 0, ⟨le_rfl, by omega, le_rfl, hs.1⟩, rfl⟩, fun v hv hk => ?_⟩
  · rw [ingest_eq a hl L h h0, if_neg (by omega), hb]
    simp only [Option.bind_eq_bind, Option.bind_some, e1] at e5 ⊢
    exact e5
  · rw [keep w5 (by simp), keep w4 (by simp), keep w3 (by simp), keep w2 (by simp)]
  · have keep' : ∀ {κ P P'}, Wrote L.p.d b' κ P P' → ∀ v, kindOf v ≠ κ → P' (home L.p.d v) = P (home L.p.d v) := fun h v hk =>
      h.2 _ fun w _ hw e => hk ((home_kind L.p.d w v e).symm.trans hw)
    rw [← hb' v hv]
    cases hk' : kindOf v
    · exact absurd hk' hk
    · rw [keep' w5 v (by rw [hk']; simp), keep' w4 v (by rw [hk']; simp), keep' w3 v (by rw [hk']; simp), w2.1 v hv hk']
    · rw [keep' w5 v (by rw [hk']; simp), keep' w4 v (by rw [hk']; simp), w3.1 v hv hk']
    · rw [keep' w5 v (by rw [hk']; simp), w4.1 v hv hk']
    · exact w5.1 v hv hk'

theorem assign_empty (P : Params) (src : List ℝ) (h : 2 ≤ src.length) : assign P [] src = none := by
  match src, h with
  | x :: y :: l, _ => simp [assign]

/-- **C108** does not hold: if there are points, and none of them is fixed, there's an exception -/
theorem points_wrong {α : Type} (a : Inputs α) (hl : NoLegacy a) (L : Layout) (h : optimizeLayout a = some L) (u : Lens) (n : Nat) (hf : L.p.d.sel.frames = true) (hp : 0 < L.p.d.Npoints)
    (hfix : a.Npoints_fixed = 0) (b : Mem) (P : Params) : ingestPackedState a u n b P = none := by
  have h0 : 0 ≤ a.Npoints_fixed := by omega
  have wf := wf_state a hl L h h0
  have hb := nonnegs wf
  obtain ⟨-, -, -, z4, z5, -, -⟩ := layout_sizes a hl L h
  rw [ingest_eq a hl L h h0]
  by_cases hn : (n : Int) ≠ numStates L.p.d
  · rw [if_pos hn]
  rw [if_neg hn]
  have hn' : (n : Int) = numStates L.p.d := by omega
  have hN : numStatesPoints L.p.d = L.p.d.Npoints * 3 := by unfold numStatesPoints; simp only [hf, if_true, z5, hfix, sub_zero]
  have hi : stateIndexPoints 0 L.p.d = numStatesIntrinsics L.p.d + numStatesExtrinsics L.p.d + numStatesFrames L.p.d := by
    have := point_loc (d := L.p.d) (i := 0) (k := 0) ⟨hf, by omega, by omega, by omega, by omega⟩
    simp only [loc, add_zero, zero_mul] at this; exact this
  have key : ∀ (b : Mem) (P : Params), ingestKind (ret (stateIndexPoints 0 L.p.d)) (numStatesPoints L.p.d) n b
      (a.points.get.map fun l => (slice (l.length * 3) Option.none (some (-a.Npoints_fixed * 3))).map fun j => .point (j / 3) (j % 3)) P = none := by
    intro b P
    rw [z4] at hp
    obtain ⟨l, e, e'⟩ := rows_pos _ hp
    rw [e, hfix]
    unfold ingestKind
    rw [ret_get (by omega)]
    simp only [got, Option.bind_eq_bind, Option.bind_some, Option.map_some]
    rw [slice_inner _ _ _ (by omega) (by omega) (by rw [hn']; unfold numStates; omega)]
    have : slice ((l.length : Int) * 3) none (some (-0 * 3)) = [] := by
      unfold slice
      simp only [neg_zero, zero_mul, lt_irrefl, if_false]
      rw [loop_nonpos (by omega)]
      rfl
    rw [this]
    refine assign_empty _ _ ?_
    simp only [List.length_map, loop_length]
    rw [← z4] at hp
    omega
  simp only [Option.bind_eq_bind, key, Option.bind_none, Option.bind_fun_none]

/-- **C108** does not hold: with a lens model without distortions, and with the distortions not being optimized, there's an exception -/
theorem distortions_wrong {α : Type} (a : Inputs α) (hl : NoLegacy a) (L : Layout) (h : optimizeLayout a = some L) (h0 : 0 ≤ a.Npoints_fixed) (u : Lens) (n : Nat) (hc : L.p.d.sel.core = true) (hd : L.p.d.sel.distortions = false)
    (h4 : L.p.d.lens.numParams = 4) (hci : 0 < L.p.d.Nci) (b : Mem) (P : Params) : ingestPackedState a u n b P = none := by
  have wf := wf_state a hl L h h0
  have hb := nonnegs wf
  rw [ingest_eq a hl L h h0]
  by_cases hn : (n : Int) ≠ numStates L.p.d
  · rw [if_pos hn]
  rw [if_neg hn]
  have hn' : (n : Int) = numStates L.p.d := by omega
  have hs : specIntrinsicsPerCamera L.p.d.sel L.p.d.lens = 4 := by unfold specIntrinsicsPerCamera; rw [hc, hd]; rfl
  have hN : numStatesIntrinsics L.p.d = L.p.d.Nci * 4 := by rw [nIntr_eq, hs]
  obtain ⟨f1, f2⟩ := flags_core a hl L h hci
  have hcore : Ncore L.p.d.lens = 4 := by unfold Ncore; cases L.p.d.lens <;> rfl
  have key : ∀ (b : Mem), ingestIntrinsicsKind (ret (stateIndexIntrinsics 0 L.p.d)) L.p.d a.flags (numStatesIntrinsics L.p.d) n b a.intrinsics.get.isSome P = none := by
    intro b
    rcases index_intr L.p.d with ⟨c1, c2, c3⟩ | ⟨c1, c2⟩
    · unfold ingestIntrinsicsKind
      rw [c3, ret_get le_rfl]
      simp only [got, Option.bind_eq_bind, Option.bind_some]
      split_ifs
      · unfold ingestIntrinsics
        have hsl : slice 4 none (some (-(4 - 4))) = [] := by rfl
        have hsrc : slice n (some 0) (some (numStatesIntrinsics L.p.d)) = (loop (numStatesIntrinsics L.p.d)).map (0 + ·) := by
          have := slice_inner n 0 (numStatesIntrinsics L.p.d) le_rfl hb.1 (by rw [hn']; unfold numStates; omega)
          rwa [zero_add] at this
        simp only [f1, f2, hc, hd, h4, hcore, if_true, Bool.false_eq_true, if_false, hsl, List.length_nil, Nat.cast_zero, ravel, mul_zero]
        rw [loop_nonpos le_rfl, hsrc, List.map_nil, assign_empty]
        · rfl
        · simp only [List.length_map, loop_length]
          omega
      · rfl
    · exact absurd rfl (c2 (.intrinsics 0 0) ⟨le_rfl, hci, le_rfl, by rw [hs]; norm_num⟩)
  simp only [Option.bind_eq_bind, key, Option.bind_none, Option.bind_fun_none]

/-- **C108**: a vector of another length is rejected -/
theorem size_checked {α : Type} (a : Inputs α) (hl : NoLegacy a) (L : Layout) (h : optimizeLayout a = some L) (h0 : 0 ≤ a.Npoints_fixed) (u : Lens) (n : Nat) (hn : (n : Int) ≠ numStates L.p.d) (b : Mem) (P : Params) :
    ingestPackedState a u n b P = none := by
  rw [ingest_eq a hl L h h0, if_pos hn]

/-! ### the hypotheses can be met -/

/-- 2 cameras, boards, points, one of which is fixed -/
example (b : Mem) (P : Params) : ∃ P', ingestPackedState ex .pinhole 42 b P = some P' ∧ P' (.frame 1 4) = b 32 * scaleTransFrame ∧ P' (.point 2 0) = P (.point 2 0) := by
  obtain ⟨P', e, e1, e2, -⟩ := ingest_partial ex ex_legacy exLayout ex_layout (by decide) .pinhole 42 (by decide) (by decide) (fun _ _ => rfl) (Or.inr rfl) (fun _ _ => by decide) (Or.inl rfl) b P
  refine ⟨P', e, ?_, ?_⟩
  · have := e1 (.frame 1 4) ⟨rfl, by decide, by decide, by decide, by decide⟩
    simpa [home, unit, show loc exLayout.p.d (.frame 1 4) = 32 from rfl] using this
  · refine e2 _ fun v hv hx => ?_
    cases v <;> simp only [home, reduceCtorEq, Addr.point.injEq] at hx
    obtain ⟨-, -, h2, -⟩ := hv
    rw [hx.1] at h2
    exact absurd h2 (by decide)

/-- the same, with the core locked -/
def exCore : Inputs Unit := { ex with flags := { ex.flags with core := some false } }

def exCoreLayout : Layout := { exLayout with p := { exLayout.p with d := { exLayout.p.d with sel := { exLayout.p.d.sel with core := false } } } }

theorem exCore_layout : optimizeLayout exCore = some exCoreLayout := by rfl

example (b : Mem) (P : Params) : ∃ P', ingestPackedState exCore .pinhole 34 b P = some P' ∧ ∀ i, P' (.intr i) = P (.intr i) := by
  obtain ⟨P', e, e1, -⟩ := columns_wrong exCore ⟨rfl, rfl⟩ exCoreLayout exCore_layout (by decide) .pinhole 34 (by decide) (fun _ _ => rfl) (by decide) (by decide) (by decide) (fun _ _ => by decide) b P
  exact ⟨P', e, e1⟩

/-- the same, without a fixed point -/
example (n : Nat) (b : Mem) (P : Params) : ingestPackedState { ex with Npoints_fixed := 0 } .pinhole n b P = none :=
  points_wrong { ex with Npoints_fixed := 0 } ⟨rfl, rfl⟩ { exLayout with p := { exLayout.p with d := { exLayout.p.d with NpointsFixed := 0 } } } rfl .pinhole n rfl (by decide) rfl b P

/-- pinhole cameras, with the distortions locked -/
example (n : Nat) (b : Mem) (P : Params) : ingestPackedState { ex with lensmodel := some "LENSMODEL_PINHOLE".toList, intrinsicsWidth := 4, flags := { ex.flags with distortions := some false } } .pinhole n b P = none :=
  distortions_wrong { ex with lensmodel := some "LENSMODEL_PINHOLE".toList, intrinsicsWidth := 4, flags := { ex.flags with distortions := some false } } ⟨rfl, rfl⟩
    { exLayout with p := { exLayout.p with d := { exLayout.p.d with lens := .pinhole, sel := { exLayout.p.d.sel with distortions := false } } } } rfl (by decide) .pinhole n rfl rfl rfl (by decide) b P

end Mrcal.IngestState

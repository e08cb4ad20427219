import Verif.Props.TriPyGeom
import Verif.Props.OutlierProps
/-
C94: the columns of dp_triangulated_db
-/
namespace Mrcal.TriPy
open Mrcal Mrcal.Pose Mrcal.Tri Mrcal.AD Mrcal.Callback Mrcal.Pack Mrcal.StateLayout Mrcal.Propagate Mrcal.Uncertainty Mrcal.ProjUnc Mrcal.UnprojectPy Matrix

/-- the rows -/
def toGrad (F : Cols) : Grad := fun r c => pick3 (F c) r

/-- the motion of the point, if the packed state moves by v -/
noncomputable def colDot (d : Dims) (F : Cols) (v : Mem) : P3 := ⟨dot d (toGrad F) v 0, dot d (toGrad F) v 1, dot d (toGrad F) v 2⟩

/-- a weighted sum of columns -/
noncomputable def wsum (n : Nat) (f : Nat → P3) (u : Nat → ℝ) : P3 := ⟨∑ k ∈ Finset.range n, (f k).x * u k, ∑ k ∈ Finset.range n, (f k).y * u k, ∑ k ∈ Finset.range n, (f k).z * u k⟩

theorem colDot_zero (d : Dims) (v : Mem) : colDot d (fun _ => ⟨0, 0, 0⟩) v = ⟨0, 0, 0⟩ := by
  have : toGrad (fun _ => ⟨0, 0, 0⟩) = fun _ _ => 0 := by funext r c; simp [toGrad, pick3]
  unfold colDot
  rw [this, dot_zero, dot_zero, dot_zero]

theorem colDot_set (d : Dims) (F : Cols) (v : Mem) (i0 m : Int) (h0 : 0 ≤ i0) (hm : 0 ≤ m) (h : i0 + m ≤ numStates d) (f : Nat → P3) (hF : ∀ c, i0 ≤ c → c < i0 + m → F c = ⟨0, 0, 0⟩) :
    colDot d (setCols F i0 m f) v = addP (colDot d F v) (wsum m.toNat f fun k => (unpackVector d v).1 (i0 + k)) := by
  have key : ∀ r, dot d (toGrad (setCols F i0 m f)) v r = dot d (toGrad F) v r + ∑ k ∈ Finset.range m.toNat, pick3 (f k) r * (unpackVector d v).1 (i0 + k) := by
    intro r
    refine dot_replace d (toGrad F) _ v r i0 m h0 hm h (fun k => pick3 (f k) r) ?_ ?_
    · intro c
      simp only [toGrad, setCols]
      by_cases hc : i0 ≤ c ∧ c < i0 + m
      · rw [if_pos hc, if_pos hc]
      · rw [if_neg hc, if_neg hc]
    · intro c a b
      simp only [toGrad, hF c a b]
      simp [pick3]
  unfold colDot
  rw [key 0, key 1, key 2]
  rfl

theorem wsum_six (J : M3 × M3) (u : Nat → ℝ) : wsum 6 (rtCol J) u = addP (Pose.mulVec J.1 ⟨u 0, u 1, u 2⟩) (Pose.mulVec J.2 ⟨u 3, u 4, u 5⟩) := by
  simp only [wsum, Finset.sum_range_succ, Finset.sum_range_zero]
  ext <;> simp [rtCol, mCol, addP, Pose.mulVec] <;> ring

theorem wsum_mulVec (n : Nat) (J : M3) (f : Nat → P3) (u : Nat → ℝ) : wsum n (fun k => Pose.mulVec J (f k)) u = Pose.mulVec J (wsum n f u) := by
  simp only [wsum, Pose.mulVec, one_mul]
  have e : ∀ a b c : ℝ, ∑ k ∈ Finset.range n, (a * (f k).x + b * (f k).y + c * (f k).z) * u k =
      a * (∑ k ∈ Finset.range n, (f k).x * u k) + b * (∑ k ∈ Finset.range n, (f k).y * u k) + c * (∑ k ∈ Finset.range n, (f k).z * u k) := by
    intro a b c
    rw [Finset.mul_sum, Finset.mul_sum, Finset.mul_sum, ← Finset.sum_add_distrib, ← Finset.sum_add_distrib]
    exact Finset.sum_congr rfl fun k _ => by ring
  ext
  · exact e _ _ _
  · exact e _ _ _
  · exact e _ _ _

theorem addP_zero (a : P3) : addP a ⟨0, 0, 0⟩ = a := by ext <;> simp [addP]
theorem zero_addP (a : P3) : addP ⟨0, 0, 0⟩ a = a := by ext <;> simp [addP]
theorem addP_assoc (a b c : P3) : addP (addP a b) c = addP a (addP b c) := by ext <;> simp [addP, add_assoc]
theorem mulVec_mul (A B : M3) (v : P3) : Pose.mulVec (Pose.mul A B) v = Pose.mulVec A (Pose.mulVec B v) := by
  ext <;> simp [Pose.mulVec, Pose.mul, Pose.vecMul] <;> ring
theorem mulVec_add (A : M3) (v w : P3) : Pose.mulVec A (addP v w) = addP (Pose.mulVec A v) (Pose.mulVec A w) := by
  ext <;> simp [Pose.mulVec, addP] <;> ring

/-! ### intrinsics -/

theorem slice_start (P : Problem) : (sliceOptimized P).1.toNat = if P.d.sel.core = false then 4 else 0 := by
  unfold sliceOptimized
  simp only [hasCore P.d.lens, if_true]
  cases P.d.sel.core <;> simp

/-- one camera's intrinsics -/
theorem intrinsics_block (P : Problem) (wf : WF P.d) (icam : Int) (h0 : 0 ≤ icam) (h1 : icam < P.d.Nci) (J : M3) (g : Grads) (F F' : Cols) (h : intrinsicsBlock P icam J g F = some F') (v : Mem)
    (hF : ∀ c, icam * numIntrinsicsOpt P.d.sel P.d.lens ≤ c → c < (icam + 1) * numIntrinsicsOpt P.d.sel P.d.lens → F c = ⟨0, 0, 0⟩) :
    colDot P.d F' v = addP (colDot P.d F v) (Pose.mulVec J (diSum g P.d.lens.numParams.toNat (intrinsicsAt P.d v zeroP icam))) ∧
      (∀ c, ¬ (icam * numIntrinsicsOpt P.d.sel P.d.lens ≤ c ∧ c < (icam + 1) * numIntrinsicsOpt P.d.sel P.d.lens) → F' c = F c) := by
  have key : ∀ r, r < 3 → dot P.d (intrinsicsCols P ⟨fun _ => ⟨0, 0, 0⟩, fun r k => pick3 (Pose.mulVec J (g.di k)) r⟩ (sliceIntrinsics P icam)) v r =
      pick3 (Pose.mulVec J (diSum g P.d.lens.numParams.toNat (intrinsicsAt P.d v zeroP icam))) r := by
    intro r hr
    rw [dot_intrinsics P wf icam h0 h1]
    have := wsum_mulVec P.d.lens.numParams.toNat J g.di fun k => intrinsicsAt P.d v zeroP icam k
    change wsum _ _ _ = Pose.mulVec J (diSum g P.d.lens.numParams.toNat (intrinsicsAt P.d v zeroP icam)) at this
    rw [← this]
    simp only [wsum]
    have : r = 0 ∨ r = 1 ∨ r = 2 := by omega
    rcases this with rfl | rfl | rfl <;> simp [pick3]
  unfold intrinsicsBlock at h
  simp only at h
  by_cases hi : stateIndexIntrinsics icam P.d ≥ 0
  · rw [if_pos hi] at h
    by_cases hs : (sliceOptimized P).2 = numIntrinsicsOpt P.d.sel P.d.lens
    swap
    · rw [if_neg hs] at h; simp at h
    rw [if_pos hs, Option.some.injEq, hs, slice_start] at h
    obtain ⟨-, -, hN, hidx, hr, hr'⟩ := intrinsics_range P.d wf icam hi
    have es : sliceIntrinsics P icam = some (stateIndexIntrinsics icam P.d, if P.d.sel.core = false then 4 else 0) := by
      unfold sliceIntrinsics
      simp only [if_pos hi, hasCore P.d.lens, and_true]
    have hadd : (icam + 1) * numIntrinsicsOpt P.d.sel P.d.lens = stateIndexIntrinsics icam P.d + numIntrinsicsOpt P.d.sel P.d.lens := by rw [hidx]; ring
    rw [hadd, ← hidx] at hF ⊢
    refine ⟨?_, ?_⟩
    · rw [← h, colDot_set P.d F v _ _ hi hN.le (by omega) _ hF]
      congr 1
      have k2 : ∀ r, r < 3 → ∑ k ∈ Finset.range (numIntrinsicsOpt P.d.sel P.d.lens).toNat, pick3 (Pose.mulVec J (g.di ((if P.d.sel.core = false then 4 else 0) + k))) r *
          (unpackVector P.d v).1 (stateIndexIntrinsics icam P.d + k) = pick3 (Pose.mulVec J (diSum g P.d.lens.numParams.toNat (intrinsicsAt P.d v zeroP icam))) r := by
        intro r hr
        rw [← key r hr, es, dot_replace P.d (fun _ _ => 0) _ v r (stateIndexIntrinsics icam P.d) (numIntrinsicsOpt P.d.sel P.d.lens) hi hN.le (by omega)
          (fun k => pick3 (Pose.mulVec J (g.di ((if P.d.sel.core = false then 4 else 0) + k))) r) (fun c => rfl) (fun _ _ _ => rfl), dot_zero, zero_add]
      ext
      · exact k2 0 (by omega)
      · exact k2 1 (by omega)
      · exact k2 2 (by omega)
    · intro c hc
      rw [← h]
      unfold setCols
      rw [if_neg hc]
  · rw [if_neg hi, Option.some.injEq] at h
    subst h
    refine ⟨?_, fun _ _ => rfl⟩
    have es : sliceIntrinsics P icam = none := by
      unfold sliceIntrinsics
      simp only [if_neg hi]
    have kz : ∀ r, r < 3 → pick3 (Pose.mulVec J (diSum g P.d.lens.numParams.toNat (intrinsicsAt P.d v zeroP icam))) r = 0 := by
      intro r hr
      rw [← key r hr, es]
      exact dot_zero P.d v r
    have : Pose.mulVec J (diSum g P.d.lens.numParams.toNat (intrinsicsAt P.d v zeroP icam)) = ⟨0, 0, 0⟩ := by
      ext
      · exact kz 0 (by omega)
      · exact kz 1 (by omega)
      · exact kz 2 (by omega)
    rw [this, addP_zero]

/-! ### extrinsics -/

/-- **Specification**: this model is a camera of this calibration -/
structure AsCalibrated (P : Problem) (m : Camera) : Prop where
  lens : m.lens = P.d.lens
  range : 0 ≤ m.icamI ∧ m.icamI < P.d.Nci
  intr : m.intr = intrOf P.d P.seed m.icamI
  rt : m.rt = camPose P.seed m.icamE
  observes : Observes P m.icamI m.icamE

def idxs (P : Problem) : List Outliers.CamIdx := (P.boards.map fun o => (o.icamI, o.icamE)) ++ P.points.map fun o => (o.icamI, o.icamE)

theorem observes_mem {P : Problem} {i e : Int} : Observes P i e ↔ (i, e) ∈ idxs P := by
  unfold Observes idxs
  simp only [List.mem_append, List.mem_map, Prod.mk.injEq]

theorem idxs_valid (P : Problem) (hv : P.Valid) (hw : WF P.d) : ∀ c ∈ idxs P, Outliers.Valid P.d.Nci P.d.Nce c := by
  intro c hc
  obtain ⟨n1, n2, n3, n4, n5⟩ := nonnegs hw
  have hnce : 0 ≤ P.d.Nce := hw.nce
  have hx : c.2 < P.d.Nce → Outliers.extr c < P.d.Nce := by
    intro h
    unfold Outliers.extr
    split_ifs <;> omega
  unfold idxs at hc
  rcases List.mem_append.1 hc with h | h
  · obtain ⟨o, ho, e⟩ := List.mem_map.1 h
    obtain ⟨a, b, c', -⟩ := hv.boards o ho
    subst e
    exact ⟨a, b, hx c'⟩
  · obtain ⟨o, ho, e⟩ := List.mem_map.1 h
    obtain ⟨a, b, c', -⟩ := hv.points o ho
    subst e
    exact ⟨a, b, hx c'⟩

theorem observes_lt {P : Problem} (hv : P.Valid) {i e : Int} (h : Observes P i e) : e < P.d.Nce := by
  rcases h with ⟨o, ho, -, rfl⟩ | ⟨o, ho, -, rfl⟩
  · exact (hv.boards o ho).2.2.1
  · exact (hv.points o ho).2.2.1

/-- where the extrinsics of this camera are -/
theorem ext_index (P : Problem) (hv : P.Valid) (i e : Int) (hi : 0 ≤ i ∧ i < P.d.Nci) (ho : Observes P i e) (x : Option Int) (h : extrinsicsIndex P i = some x) :
    (x = if 0 ≤ e ∧ P.d.sel.extrinsics = true then some (numStatesIntrinsics P.d + 6 * e) else none) ∧ ∀ i' e', Observes P i' e' → (i' = i ↔ Outliers.extr (i', e') = Outliers.extr (i, e)) := by
  have hval := idxs_valid P hv hv.wf
  unfold extrinsicsIndex at h
  cases hp : Outliers.pyCorrespondingIcamExtrinsics i P.d.Nci P.d.Nce (P.boards.map fun o => (o.icamI, o.icamE)) (P.points.map fun o => (o.icamI, o.icamE)) with
  | error e => rw [hp] at h; simp at h
  | ok y =>
    rw [hp] at h
    cases y with
    | none => simp at h
    | some y =>
      simp only at h
      have hN : P.d.Nci = P.d.Nce ∨ P.d.Nci = P.d.Nce + 1 := by
        by_contra hc
        have := (Outliers.corresponding_fails_iff i P.d.Nci P.d.Nce _ _ hi hval).2 (Or.inl (by omega))
        rw [hp] at this
        simp at this
      have hc : Outliers.correspondingIcamExtrinsics i P.d.Nci P.d.Nce (P.boards.map fun o => (o.icamI, o.icamE)) (P.points.map fun o => (o.icamI, o.icamE)) = .ok y := by
        unfold Outliers.pyCorrespondingIcamExtrinsics at hp
        rw [if_neg (by omega)] at hp
        split at hp
        · rename_i r hr
          simp only [Except.ok.injEq, Option.some.injEq] at hp
          rw [hr, hp]
        · simp at hp
        · simp at hp
      have hs := Outliers.corresponding_sound i P.d.Nci P.d.Nce y _ _ hi hN hval hc ⟨_, observes_mem.1 ho, rfl⟩
      have hy : Outliers.extr (i, e) = y := (hs _ (observes_mem.1 ho)).1 rfl
      refine ⟨?_, fun i' e' ho' => ?_⟩
      · have he := observes_lt hv ho
        obtain ⟨n1, n2, n3, n4, n5⟩ := nonnegs hv.wf
        have hni : 0 ≤ numStatesIntrinsics P.d := by omega
        by_cases h0 : 0 ≤ e
        · have : y = e := by rw [← hy]; unfold Outliers.extr; simp only; rw [if_neg (by omega)]
          subst this
          rw [if_pos (by omega), Option.some.injEq] at h
          by_cases hsel : P.d.sel.extrinsics = true
          · rw [if_pos ⟨h0, hsel⟩]
            have : stateIndexExtrinsics y P.d = numStatesIntrinsics P.d + y * 6 := by
              unfold stateIndexExtrinsics
              rw [if_neg (by omega), if_neg (by simp [hsel]), if_neg (by simp; omega)]
            rw [this, if_pos (by omega)] at h
            rw [← h, mul_comm]
          · rw [if_neg (fun hh => hsel hh.2)]
            have : stateIndexExtrinsics y P.d < 0 := by
              unfold stateIndexExtrinsics
              simp only [hsel]
              split_ifs <;> first | omega | simp_all
            rw [if_neg (by omega)] at h
            exact h.symm
        · have : y = -1 := by rw [← hy]; unfold Outliers.extr; simp only; rw [if_pos (by omega)]
          subst this
          rw [if_neg (by omega), Option.some.injEq] at h
          rw [if_neg (fun hh => h0 hh.1), h]
      · rw [hy]
        exact hs _ (observes_mem.1 ho')

/-- the velocity of a camera that isn't optimized is 0 -/
theorem camVel_fixed (d : Dims) (v : Mem) (e : Int) (h : ¬ (0 ≤ e ∧ d.sel.extrinsics = true)) : camVel d v e = ⟨⟨0, 0, 0⟩, ⟨0, 0, 0⟩⟩ := by
  unfold camVel
  by_cases he : e < 0
  · rw [if_pos he]
  · rw [if_neg he]
    unfold cameraAt
    rw [if_neg (fun hh => h ⟨by omega, hh⟩)]
    simp [poseAt, zeroP]

theorem camVel_opt (d : Dims) (wf : WF d) (v : Mem) (e : Int) (h0 : 0 ≤ e) (h1 : e < d.Nce) (hs : d.sel.extrinsics = true) (J : M3 × M3) :
    wsum 6 (rtCol J) (fun k => (unpackVector d v).1 (numStatesIntrinsics d + 6 * e + k)) = addP (Pose.mulVec J.1 (camVel d v e).r) (Pose.mulVec J.2 (camVel d v e).t) := by
  have hc := camera_velocity d wf v e h0 h1 hs
  have hi : stateIndexExtrinsics e d = numStatesIntrinsics d + 6 * e := by
    obtain ⟨n1, n2, n3, n4, n5⟩ := nonnegs wf
    unfold stateIndexExtrinsics
    rw [if_neg (by omega), if_neg (by simp [hs]), if_neg (by simp; omega)]
    ring
  simp only [hi] at hc
  rw [wsum_six]
  unfold camVel
  rw [if_neg (by omega), hc]
  simp only [Nat.cast_zero, Nat.cast_one, Nat.cast_ofNat]

end Mrcal.TriPy

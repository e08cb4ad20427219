import Verif.Model.StateLayout
import Mathlib.Tactic.Linarith
import Mathlib.Tactic.Ring
/-
C01: the state-vector layout is a partition.
-/
namespace Mrcal.StateLayout
open Mrcal

/-! ### Specification -/

/-- One scalar state variable, named by what the user means by it. -/
inductive Var
  | intrinsics (icam k : Int)
  | extrinsics (icam k : Int)
  | frame (iframe k : Int)
  | point (ipoint k : Int)
  | warp (k : Int)

/-- How many intrinsics a camera contributes, straight from the user documentation: 4 core values (if
optimizing the core) and all the others (if optimizing the distortions). -/
def specIntrinsicsPerCamera (s : Sel) (l : Lens) : Int :=
  (if s.core then 4 else 0) + (if s.distortions then l.numParams - 4 else 0)

/-- Is this variable being optimized in this problem? -/
def Present (d : Dims) : Var → Prop
  | .intrinsics i k => 0 ≤ i ∧ i < d.Nci ∧ 0 ≤ k ∧ k < specIntrinsicsPerCamera d.sel d.lens
  | .extrinsics i k => d.sel.extrinsics ∧ 0 ≤ i ∧ i < d.Nce ∧ 0 ≤ k ∧ k < 6
  | .frame i k => d.sel.frames ∧ 0 ≤ i ∧ i < d.Nframes ∧ 0 ≤ k ∧ k < 6
  | .point i k => d.sel.frames ∧ 0 ≤ i ∧ i < d.Npoints - d.NpointsFixed ∧ 0 ≤ k ∧ k < 3
  | .warp k => d.sel.warp ∧ 0 < d.Nob ∧ 0 ≤ k ∧ k < 2

/-- Where the API says this variable lives: the block start reported by the query functions, plus the
offset in the block. -/
def loc (d : Dims) : Var → Int
  | .intrinsics i k => stateIndexIntrinsics i d + k
  | .extrinsics i k => stateIndexExtrinsics i d + k
  | .frame i k => stateIndexFrames i d + k
  | .point i k => stateIndexPoints i d + k
  | .warp k => stateIndexWarp d + k

/-- (kind, item, offset): the documented order of the state vector. -/
def rank : Var → Int × Int × Int
  | .intrinsics i k => (0, i, k)
  | .extrinsics i k => (1, i, k)
  | .frame i k => (2, i, k)
  | .point i k => (3, i, k)
  | .warp k => (4, 0, k)

/-- lexicographic order on `rank` -/
def Before (v w : Var) : Prop :=
  (rank v).1 < (rank w).1 ∨
  ((rank v).1 = (rank w).1 ∧ ((rank v).2.1 < (rank w).2.1 ∨
    ((rank v).2.1 = (rank w).2.1 ∧ (rank v).2.2 < (rank w).2.2)))

/-- The dimensions make sense: non-negative counts, no more fixed points than points. The wrapper
checks these (mrcal-pywrap.c:1140-1157) or gets them from array shapes. -/
structure WF (d : Dims) : Prop where
  nci : 0 ≤ d.Nci
  nce : 0 ≤ d.Nce
  nframes : 0 ≤ d.Nframes
  npf : 0 ≤ d.NpointsFixed
  np : d.NpointsFixed ≤ d.Npoints

/-! ### Helper lemmas -/

theorem numParams_ge4 (l : Lens) : 4 ≤ l.numParams := by
  cases l <;> simp [Lens.numParams]
  positivity

theorem numIntrinsicsOpt_eq (s : Sel) (l : Lens) :
    numIntrinsicsOpt s l = specIntrinsicsPerCamera s l := by
  cases s with
  | mk a b c d e f g h =>
  cases a <;> cases b <;>
    simp [numIntrinsicsOpt, specIntrinsicsPerCamera, numDistortionsOpt, Lens.hasCore]

theorem spec_nonneg (s : Sel) (l : Lens) : 0 ≤ specIntrinsicsPerCamera s l := by
  have := numParams_ge4 l
  unfold specIntrinsicsPerCamera
  split <;> split <;> omega

private theorem block_bound {M N c k : Int} (hc : 0 ≤ c) (hcM : c < M) (hk : 0 ≤ k) (hkN : k < N) :
    0 ≤ c * N ∧ c * N + k < M * N := by
  constructor
  · nlinarith
  · nlinarith [mul_le_mul_of_nonneg_right (show c + 1 ≤ M by omega) (show 0 ≤ N by omega)]

private theorem block_exists {M N i : Int} (hi : 0 ≤ i) (hiN : i < M * N) (hN : 0 ≤ N) :
    ∃ c k, 0 ≤ c ∧ c < M ∧ 0 ≤ k ∧ k < N ∧ i = c * N + k := by
  have hN : 0 < N := by
    rcases lt_or_eq_of_le hN with h | h
    · exact h
    · subst h; simp at hiN; omega
  refine ⟨i / N, i % N, Int.ediv_nonneg hi hN.le, ?_, Int.emod_nonneg _ hN.ne', Int.emod_lt_of_pos _ hN, ?_⟩
  · exact Int.ediv_lt_of_lt_mul hN hiN
  · have := Int.ediv_mul_add_emod i N; linarith

private theorem block_mono {N c c' k k' : Int} (hk0 : 0 ≤ k) (hk : 0 ≤ k') (hkN : k < N)
    (h : c < c' ∨ (c = c' ∧ k < k')) : c * N + k < c' * N + k' := by
  rcases h with h | ⟨h, h'⟩
  · nlinarith
  · subst h; omega

theorem intr_loc {d : Dims} {i k : Int} (h : Present d (.intrinsics i k)) :
    loc d (.intrinsics i k) = i * specIntrinsicsPerCamera d.sel d.lens + k := by
  obtain ⟨h1, h2, h3, h4⟩ := h
  have hN : 0 < specIntrinsicsPerCamera d.sel d.lens := by omega
  have hM : ¬ d.Nci ≤ 0 := by omega
  simp [loc, stateIndexIntrinsics, numIntrinsicsOpt_eq, hM, not_le.2 hN, h1, h2]

theorem extr_loc {d : Dims} {i k : Int} (h : Present d (.extrinsics i k)) :
    loc d (.extrinsics i k) = numStatesIntrinsics d + (i * 6 + k) := by
  obtain ⟨h0, h1, h2, h3, h4⟩ := h
  have hM : ¬ d.Nce ≤ 0 := by omega
  simp [loc, stateIndexExtrinsics, hM, h0, h1, h2]; omega

theorem frame_loc {d : Dims} {i k : Int} (h : Present d (.frame i k)) :
    loc d (.frame i k) = numStatesIntrinsics d + numStatesExtrinsics d + (i * 6 + k) := by
  obtain ⟨h0, h1, h2, h3, h4⟩ := h
  have hM : ¬ d.Nframes ≤ 0 := by omega
  simp [loc, stateIndexFrames, hM, h0, h1, h2]; omega

theorem point_loc {d : Dims} {i k : Int} (h : Present d (.point i k)) :
    loc d (.point i k) =
      numStatesIntrinsics d + numStatesExtrinsics d + numStatesFrames d + (i * 3 + k) := by
  obtain ⟨h0, h1, h2, h3, h4⟩ := h
  have hM : ¬ d.Npoints - d.NpointsFixed ≤ 0 := by omega
  simp [loc, stateIndexPoints, hM, h0, h1, h2]; omega

theorem warp_loc {d : Dims} {k : Int} (h : Present d (.warp k)) :
    loc d (.warp k) =
      numStatesIntrinsics d + numStatesExtrinsics d + numStatesFrames d + numStatesPoints d + k := by
  obtain ⟨h0, h1, h2, h3⟩ := h
  simp [loc, stateIndexWarp, hasCalobjectWarp, h0, h1]

theorem nIntr_eq (d : Dims) : numStatesIntrinsics d = d.Nci * specIntrinsicsPerCamera d.sel d.lens := by
  simp [numStatesIntrinsics, numIntrinsicsOpt_eq]

theorem nExtr_eq {d : Dims} : numStatesExtrinsics d = if d.sel.extrinsics then d.Nce * 6 else 0 := by
  simp [numStatesExtrinsics]; split <;> omega
theorem nFrames_eq {d : Dims} : numStatesFrames d = if d.sel.frames then d.Nframes * 6 else 0 := by
  simp [numStatesFrames]; split <;> omega

theorem nonnegs {d : Dims} (wf : WF d) : 0 ≤ numStatesIntrinsics d ∧ 0 ≤ numStatesExtrinsics d ∧
    0 ≤ numStatesFrames d ∧ 0 ≤ numStatesPoints d ∧ 0 ≤ numStatesWarp d := by
  obtain ⟨h1, h2, h3, h4, h5⟩ := wf
  refine ⟨?_, ?_, ?_, ?_, ?_⟩
  · rw [nIntr_eq]; exact mul_nonneg h1 (spec_nonneg _ _)
  · rw [nExtr_eq]; split <;> omega
  · rw [nFrames_eq]; split <;> omega
  · simp only [numStatesPoints]; split <;> omega
  · simp only [numStatesWarp]; split <;> omega

/-- Bounds of each block. -/
theorem bounds {d : Dims} {v : Var} (h : Present d v) :
    match v with
    | .intrinsics _ _ => 0 ≤ loc d v ∧ loc d v < numStatesIntrinsics d
    | .extrinsics _ _ => numStatesIntrinsics d ≤ loc d v ∧
        loc d v < numStatesIntrinsics d + numStatesExtrinsics d
    | .frame _ _ => numStatesIntrinsics d + numStatesExtrinsics d ≤ loc d v ∧
        loc d v < numStatesIntrinsics d + numStatesExtrinsics d + numStatesFrames d
    | .point _ _ => numStatesIntrinsics d + numStatesExtrinsics d + numStatesFrames d ≤ loc d v ∧
        loc d v < numStatesIntrinsics d + numStatesExtrinsics d + numStatesFrames d + numStatesPoints d
    | .warp _ => numStatesIntrinsics d + numStatesExtrinsics d + numStatesFrames d +
        numStatesPoints d ≤ loc d v ∧ loc d v < numStates d := by
  cases v with
  | intrinsics i k =>
    have := block_bound h.1 h.2.1 h.2.2.1 h.2.2.2
    have hk := h.2.2.1
    simp only [intr_loc h, nIntr_eq]; omega
  | extrinsics i k =>
    simp only [extr_loc h]; rw [nExtr_eq, if_pos h.1]; have := h.2; omega
  | frame i k =>
    simp only [frame_loc h]; rw [nFrames_eq, if_pos h.1]; have := h.2; omega
  | point i k =>
    simp only [point_loc h]; have := h.2; simp only [numStatesPoints, if_pos h.1]; omega
  | warp k =>
    simp only [warp_loc h, numStates]
    have h1 := h.1; have h2 := h.2.1
    simp only [numStatesWarp, hasCalobjectWarp, h1, h2]; have := h.2.2; simp; omega

/-! ### C01 -/

/-- C01 (range). Every optimized variable lives inside the state vector. -/
theorem state_loc_in_range (d : Dims) (wf : WF d) (v : Var) (h : Present d v) :
    0 ≤ loc d v ∧ loc d v < numStates d := by
  have hb := bounds h
  have hn := nonnegs wf
  cases v <;> simp only [numStates] at * <;> omega

/-- C01 (order). The layout follows the documented order: intrinsics per camera, extrinsics per
camera, frames, variable points, warp. -/
theorem state_loc_strictMono (d : Dims) (wf : WF d) (v w : Var) (hv : Present d v) (hw : Present d w)
    (h : Before v w) : loc d v < loc d w := by
  have hbv := bounds hv
  have hbw := bounds hw
  have hn := nonnegs wf
  cases v with
  | intrinsics i k =>
    cases w with
    | intrinsics i' k' =>
      rw [intr_loc hv, intr_loc hw]
      apply block_mono hv.2.2.1 hw.2.2.1 hv.2.2.2
      simpa [Before, rank] using h
    | _ => simp only at hbv hbw; omega
  | extrinsics i k =>
    cases w with
    | intrinsics => simp [Before, rank] at h
    | extrinsics i' k' =>
      rw [extr_loc hv, extr_loc hw]
      have := block_mono hv.2.2.2.1 hw.2.2.2.1 hv.2.2.2.2 (c := i) (c' := i') (by simpa [Before, rank] using h)
      omega
    | _ => simp only at hbv hbw; omega
  | frame i k =>
    cases w with
    | intrinsics => simp [Before, rank] at h
    | extrinsics => simp [Before, rank] at h
    | frame i' k' =>
      rw [frame_loc hv, frame_loc hw]
      have := block_mono hv.2.2.2.1 hw.2.2.2.1 hv.2.2.2.2 (c := i) (c' := i') (by simpa [Before, rank] using h)
      omega
    | _ => simp only at hbv hbw; omega
  | point i k =>
    cases w with
    | intrinsics => simp [Before, rank] at h
    | extrinsics => simp [Before, rank] at h
    | frame => simp [Before, rank] at h
    | point i' k' =>
      rw [point_loc hv, point_loc hw]
      have := block_mono hv.2.2.2.1 hw.2.2.2.1 hv.2.2.2.2 (c := i) (c' := i') (by simpa [Before, rank] using h)
      omega
    | _ => simp only at hbv hbw; omega
  | warp k =>
    cases w with
    | warp k' =>
      rw [warp_loc hv, warp_loc hw]
      have : k < k' := by simpa [Before, rank] using h
      omega
    | _ => simp [Before, rank] at h

theorem before_total (v w : Var) (hne : v ≠ w) : Before v w ∨ Before w v := by
  cases v <;> cases w <;> simp [Before, rank] at * <;> omega

/-- C01. Each index of the state vector is the location of exactly one optimized variable: the blocks
tile `[0, num_states)` with no gaps and no overlaps. -/
theorem state_layout_tiles (d : Dims) (wf : WF d) (i : Int) (h0 : 0 ≤ i) (h1 : i < numStates d) :
    ∃! v, Present d v ∧ loc d v = i := by
  have hex : ∃ v, Present d v ∧ loc d v = i := by
    have hn := nonnegs wf
    by_cases c1 : i < numStatesIntrinsics d
    · rw [nIntr_eq] at c1
      obtain ⟨c, k, a1, a2, a3, a4, e⟩ := block_exists h0 c1 (spec_nonneg _ _)
      have hp : Present d (.intrinsics c k) := ⟨a1, a2, a3, a4⟩
      exact ⟨_, hp, by rw [intr_loc hp, e]⟩
    by_cases c2 : i < numStatesIntrinsics d + numStatesExtrinsics d
    · have hs : d.sel.extrinsics := by
        by_contra hs; rw [nExtr_eq, if_neg hs] at c2; omega
      rw [nExtr_eq, if_pos hs] at c2
      obtain ⟨c, k, a1, a2, a3, a4, e⟩ :=
        block_exists (i := i - numStatesIntrinsics d) (M := d.Nce) (N := 6) (by omega) (by omega) (by omega)
      have hp : Present d (.extrinsics c k) := ⟨hs, a1, a2, a3, a4⟩
      exact ⟨_, hp, by rw [extr_loc hp]; omega⟩
    by_cases c3 : i < numStatesIntrinsics d + numStatesExtrinsics d + numStatesFrames d
    · have hs : d.sel.frames := by
        by_contra hs; rw [nFrames_eq, if_neg hs] at c3; omega
      rw [nFrames_eq, if_pos hs] at c3
      obtain ⟨c, k, a1, a2, a3, a4, e⟩ :=
        block_exists (i := i - (numStatesIntrinsics d + numStatesExtrinsics d)) (M := d.Nframes) (N := 6)
          (by omega) (by omega) (by omega)
      have hp : Present d (.frame c k) := ⟨hs, a1, a2, a3, a4⟩
      exact ⟨_, hp, by rw [frame_loc hp]; omega⟩
    by_cases c4 : i < numStatesIntrinsics d + numStatesExtrinsics d + numStatesFrames d + numStatesPoints d
    · have hs : d.sel.frames := by
        by_contra hs; simp only [numStatesPoints, if_neg hs] at c4; omega
      have hpe : numStatesPoints d = (d.Npoints - d.NpointsFixed) * 3 := by
        simp only [numStatesPoints, if_pos hs]
      obtain ⟨c, k, a1, a2, a3, a4, e⟩ :=
        block_exists (i := i - (numStatesIntrinsics d + numStatesExtrinsics d + numStatesFrames d))
          (M := d.Npoints - d.NpointsFixed) (N := 3) (by omega) (by omega) (by omega)
      have hp : Present d (.point c k) := ⟨hs, a1, a2, a3, a4⟩
      exact ⟨_, hp, by rw [point_loc hp]; omega⟩
    · have hw : hasCalobjectWarp d.sel d.Nob := by
        by_contra hs; simp only [numStates, numStatesWarp, if_neg hs] at h1; omega
      have h2 : numStatesWarp d = 2 := by simp [numStatesWarp, hw]
      simp only [hasCalobjectWarp, Bool.and_eq_true, decide_eq_true_eq] at hw
      simp only [numStates] at h1
      have hp : Present d (.warp (i - (numStatesIntrinsics d + numStatesExtrinsics d +
        numStatesFrames d + numStatesPoints d))) := ⟨hw.1, hw.2, by omega, by omega⟩
      exact ⟨_, hp, by rw [warp_loc hp]; omega⟩
  obtain ⟨v, hv, e⟩ := hex
  refine ⟨v, ⟨hv, e⟩, ?_⟩
  rintro w ⟨hw, ew⟩
  by_contra hne
  rcases before_total w v hne with h | h
  · have := state_loc_strictMono d wf w v hw hv h; omega
  · have := state_loc_strictMono d wf v w hv hw h; omega

/-- C01 (absence). A query returns `-1` exactly when the item isn't being optimized or is out of range;
otherwise it returns a valid (non-negative) index. -/
theorem state_index_absent_iff (d : Dims) (wf : WF d) (i : Int) :
    (stateIndexIntrinsics i d = -1 ↔ ¬ Present d (.intrinsics i 0)) ∧
    (stateIndexExtrinsics i d = -1 ↔ ¬ Present d (.extrinsics i 0)) ∧
    (stateIndexFrames i d = -1 ↔ ¬ Present d (.frame i 0)) ∧
    (stateIndexPoints i d = -1 ↔ ¬ Present d (.point i 0)) ∧
    (stateIndexWarp d = -1 ↔ ¬ Present d (.warp 0)) := by
  have hn := nonnegs wf
  refine ⟨⟨fun h hp => ?_, fun h => ?_⟩, ⟨fun h hp => ?_, fun h => ?_⟩, ⟨fun h hp => ?_, fun h => ?_⟩,
    ⟨fun h hp => ?_, fun h => ?_⟩, ⟨fun h hp => ?_, fun h => ?_⟩⟩
  · have := bounds hp; simp only [loc, h] at this; omega
  · simp only [Present] at h
    simp only [stateIndexIntrinsics, numIntrinsicsOpt_eq]
    split
    · rfl
    · split
      · rfl
      · rw [if_pos]; simp; omega
  · have := bounds hp; simp only [loc, h] at this; omega
  · simp only [Present] at h
    simp only [stateIndexExtrinsics]
    split
    · rfl
    · split
      · rfl
      · rename_i h2; simp only [Bool.not_eq_true', Bool.not_eq_false] at h2
        rw [if_pos]; simp [h2] at h ⊢; omega
  · have := bounds hp; simp only [loc, h] at this; omega
  · simp only [Present] at h
    simp only [stateIndexFrames]
    split
    · rfl
    · split
      · rfl
      · rename_i h2; simp only [Bool.not_eq_true', Bool.not_eq_false] at h2
        rw [if_pos]; simp [h2] at h ⊢; omega
  · have := bounds hp; simp only [loc, h] at this; omega
  · simp only [Present] at h
    simp only [stateIndexPoints]
    split
    · rfl
    · split
      · rfl
      · rename_i h2; simp only [Bool.not_eq_true', Bool.not_eq_false] at h2
        rw [if_pos]; simp [h2] at h ⊢; omega
  · have := bounds hp; simp only [loc, h] at this; omega
  · simp only [Present] at h
    have h' : hasCalobjectWarp d.sel d.Nob = false := by
      simp only [hasCalobjectWarp, Bool.and_eq_false_iff, decide_eq_false_iff_not]
      by_cases h1 : d.sel.warp = true
      · right; intro h2; exact h ⟨h1, h2, by omega, by omega⟩
      · left; simpa using h1
    simp [stateIndexWarp, h']

/-- A two-camera splined problem with a fixed point and board warp. -/
def exDims : Dims :=
  { Nci := 2, Nce := 1, Nframes := 3, Npoints := 4, NpointsFixed := 1, Nob := 5,
    sel := ⟨true, true, true, true, true, true, true, false⟩, lens := .splined 3 11 8 120 }

example : WF exDims := by constructor <;> decide
example : numStates exDims = 2 * 180 + 6 + 18 + 9 + 2 := by decide
example : Present exDims (.point 2 1) := by simp [Present, exDims]
example : Present exDims (.intrinsics 1 179) := by
  simp [Present, exDims, specIntrinsicsPerCamera, Lens.numParams]
example : Before (.intrinsics 1 179) (.point 2 1) := by simp [Before, rank]
example : 0 ≤ (364 : Int) ∧ 364 < numStates exDims := by decide
-- locked extrinsics: the query reports -1
example : stateIndexExtrinsics 0 { exDims with sel := { exDims.sel with extrinsics := false } } = -1 := by decide

end Mrcal.StateLayout

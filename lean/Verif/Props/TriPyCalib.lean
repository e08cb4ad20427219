import Verif.Props.TriPyExample
/-
C94: which cameras have the calibration-time uncertainty
-/
namespace Mrcal.TriPy
open Mrcal Mrcal.Cam Mrcal.Pose Mrcal.Tri Mrcal.Callback Mrcal.Uncertainty Mrcal.UnprojectPy Mrcal.Propagate Mrcal.ProjUnc

/-- the camera is where the calibration left it: at the reference if its pose wasn't solved for, within 1e-6 in each value otherwise -/
def InPlace (P : Problem) (m : Camera) : Prop :=
  if m.icamE < 0 then m.rt = ⟨⟨0, 0, 0⟩, ⟨0, 0, 0⟩⟩
  else ∀ f ∈ ([fun T => T.r.x, fun T => T.r.y, fun T => T.r.z, fun T => T.t.x, fun T => T.t.y, fun T => T.t.z] : List (RtV → ℝ)), |f m.rt - f (poseAt P.seed (.cam m.icamE))| ≤ 1e-6

theorem inPlace_iff (P : Problem) (m : Camera) : ¬ CamModel.extrinsicsMoved m.icamE m.rt (poseAt P.seed (.cam m.icamE)) ↔ InPlace P m := by
  unfold CamModel.extrinsicsMoved InPlace
  split_ifs with h
  · rw [not_lt]
    simp only [max_le_iff, abs_nonpos_iff]
    constructor
    · rintro ⟨⟨⟨a, b⟩, c, d⟩, e, f⟩
      ext <;> assumption
    · intro h
      rw [h]
      simp
  · rw [not_lt]
    simp only [max_le_iff, List.mem_cons, List.not_mem_nil, or_false, forall_eq_or_imp, forall_eq]
    tauto

/-- the calibration-time noise is propagated only if all the cameras come from the same calibration and none have moved since -/
theorem calibration_required (C : Cholmod) (eigsh : Eigsh) (slices : List Slice) (σ : ℝ) (hσ : σ ≠ 0) (qo : Option ℝ) (corr : ℝ) (method : Method) (stabilize : Bool) (r : Ret)
    (h : triangulate C eigsh slices (some σ) qo corr method stabilize = some r) :
    ∃ P, inputsOf slices = some P ∧ ∀ s ∈ slices, ∀ m ∈ [s.m0, s.m1], m.inputs = some P ∧ InPlace P m := by
  unfold triangulate at h
  split_ifs at h with h1 h2
  · rcases h2.1 with h2 | h2
    · exact absurd h2 (by simp)
    · exact absurd (Option.some.inj h2) hσ
  · unfold noisy at h
    rw [if_pos ⟨by simp, by simpa using hσ⟩] at h
    obtain ⟨o, e, -⟩ := Option.bind_eq_some_iff.mp h
    obtain ⟨P, e, -⟩ := Option.map_eq_some_iff.mp e
    refine ⟨P, e, fun s hs m hm => ?_⟩
    unfold inputsOf at e
    dsimp only at e
    split at e
    · exact absurd e (by simp)
    · rename_i P' _
      split_ifs at e with hall
      rw [← Option.some.inj e]
      obtain ⟨a, b⟩ := hall m (List.mem_flatMap.mpr ⟨s, hs, hm⟩)
      exact ⟨a, (inPlace_iff P' m).mp b⟩

/-- and then they're accepted -/
theorem calibration_accepted (s : Slice) (slices : List Slice) (P : Problem) (h : ∀ s' ∈ s :: slices, ∀ m ∈ [s'.m0, s'.m1], m.inputs = some P ∧ InPlace P m) : inputsOf (s :: slices) = some P := by
  refine inputsOf_eq _ _ ?_ fun m hm => ?_
  · rw [show ((s :: slices).flatMap fun s => [s.m0, s.m1]).head? = some s.m0 from rfl]
    exact (h s (List.mem_cons_self ..) s.m0 (List.mem_cons_self ..)).1
  · obtain ⟨s', hs', hm⟩ := List.mem_flatMap.mp hm
    obtain ⟨a, b⟩ := h s' hs' m hm
    exact ⟨a, (inPlace_iff P m).mpr b⟩

example (q0 q1 : P2) (solve : Solver) : ∀ m ∈ [(exPair q0 q1 solve).m0, (exPair q0 q1 solve).m1], m.inputs = some exT ∧ InPlace exT m := by
  have h := exPair_inputs q0 q1 solve
  unfold inputsOf at h
  dsimp only at h
  split at h
  · exact absurd h (by simp)
  · split_ifs at h with hall
    rw [← Option.some.inj h]
    intro m hm
    obtain ⟨a, b⟩ := hall m (List.mem_flatMap.mpr ⟨_, List.mem_singleton.mpr rfl, hm⟩)
    exact ⟨a, (inPlace_iff _ m).mp b⟩

end Mrcal.TriPy

import Verif.Model.OptimizeReport
import Verif.Props.MeasurementProps
/-
C47: asking for a verbose report doesn't change the outcome.
-/
namespace Mrcal.Report
open Mrcal Mrcal.Meas

/-- The parts of the regularization the report believes in are there: regularization was asked for, or neither the
core nor the distortions are being optimized -/
def RegComplete (d : Dims) : Prop :=
  d.sel.regularization = true ∨ d.Nci = 0 ∨
    (d.sel.core = false ∧ (d.sel.distortions = false ∨ d.lens.numParams = 4))

theorem tri_some {obs : List TriObs} {ns : List Nat} (hs : Tri.Sets obs ns) :
    ∃ n : Int, numMeasurementsTri obs = some n ∧ 0 ≤ n :=
  ⟨_, Tri.numMeasurementsTriInitial_sets hs (-1), by positivity⟩

theorem reads_eq_iff (d : Dims) (hN : 0 ≤ d.Nci) :
    regReads d = numMeasurementsRegularization d ↔ RegComplete d := by
  have h4 := StateLayout.numParams_ge4 d.lens
  have hc : d.lens.hasCore = true := rfl
  unfold regReads numMeasurementsRegularization numRegularizationPercamera numDistortionsOpt RegComplete
  generalize (if (d.sel.unityCam01 && d.sel.extrinsics && decide (d.Nce > 0)) = true then (1 : Int) else 0) = u
  simp only [hc, if_true]
  set n := d.lens.numParams
  set m := d.Nci
  cases h1 : d.sel.regularization <;> cases h2 : d.sel.core <;> cases h3 : d.sel.distortions <;>
    simp only [Bool.not_true, Bool.not_false, if_true, if_false, Bool.false_eq_true]
  · simp
  · constructor
    · intro h
      have h0 : m * (n - 4) = 0 := by linarith
      rcases mul_eq_zero.1 h0 with h | h
      · simp [h]
      · right; right; exact ⟨by trivial, Or.inr (by omega)⟩
    · rintro (h | h | ⟨-, h | h⟩)
      · simp at h
      · rw [h]; ring
      · simp at h
      · rw [h]; ring
  · constructor
    · intro h; right; left; omega
    · rintro (h | h | ⟨h, -⟩)
      · simp at h
      · rw [h]; ring
      · simp at h
  · constructor
    · intro h
      right; left
      have : m * (n - 2) = 0 := by linarith
      rcases mul_eq_zero.1 this with h | h
      · exact h
      · omega
    · rintro (h | h | ⟨h, -⟩)
      · simp at h
      · rw [h]; ring
      · simp at h
  all_goals (simp; try ring)

/-- C47, what does hold: with a complete regularization the verbose report completes, or there's nothing to
report. -/
theorem verbose_ok_partial (p : Prob) (ns : List Nat) (wf : WF p) (hs : Tri.Sets p.tri ns) (v : Bool)
    (h : RegComplete p.d) :
    verboseReport v p.d p.Nop p.tri p.W p.H = some .reported ∨
    verboseReport v p.d p.Nop p.tri p.W p.H = some .skipped := by
  have hN := wf.nci
  have he := (reads_eq_iff p.d hN).2 h
  obtain ⟨n, hn, hnn⟩ := tri_some hs
  unfold verboseReport measurementIndexRegularization numMeasurements
  rw [numReg_eq] at he ⊢
  by_cases h0 : specNumReg p.d ≤ 0
  · right
    simp [h0, hn]
  · rw [if_neg h0, hn]
    simp only [Option.map_some, Option.bind_eq_bind, Option.bind_some, he]
    split
    · simp
    · simp

/-- C47 is false: locking the scale with do_apply_regularization_unity_cam01 while having
do_apply_regularization off, in a verbose solve, runs off the end of the measurements, and aborts.
One camera pair, pinhole, no observations needed. -/
theorem verbose_aborts :
    ∃ d : Dims, 0 ≤ d.Nci ∧ d.sel.regularization = false ∧
      verboseReport true d 5 [] 10 10 = some .assertFailed ∧
      verboseReport false d 5 [] 10 10 = some .skipped := by
  refine ⟨⟨2, 1, 3, 5, 0, 3, ⟨true, true, true, true, true, false, true, true⟩, .opencv4⟩, by decide, ?_⟩
  decide

/-- and it aborts in every such case -/
theorem verbose_aborts_iff (p : Prob) (ns : List Nat) (wf : WF p) (hs : Tri.Sets p.tri ns) :
    verboseReport true p.d p.Nop p.tri p.W p.H = some .assertFailed ↔
      (0 < specNumReg p.d ∧ ¬ RegComplete p.d) := by
  have hN := wf.nci
  have he := (reads_eq_iff p.d hN)
  obtain ⟨n, hn, hnn⟩ := tri_some hs
  have hb := nb_nonneg wf
  have hp := wf.nop
  unfold verboseReport measurementIndexRegularization numMeasurements
  rw [numReg_eq] at he ⊢
  rw [← he]
  by_cases h0 : specNumReg p.d ≤ 0
  · have : ¬ 0 < specNumReg p.d := by omega
    simp [h0, hn, this]
  · rw [if_neg h0, hn]
    simp only [Option.map_some, Option.bind_eq_bind, Option.bind_some]
    have hge : decide (numMeasurementsBoards p.d.Nob p.W p.H + numMeasurementsPoints p.Nop + n ≥ 0) = true := by
      rw [decide_eq_true_eq, boards_eq wf.nob, numMeasurementsPoints]; omega
    rw [hge]
    simp only [Bool.and_self, if_true]
    split
    · simp; omega
    · simp; omega

example : RegComplete exProb.d := Or.inl rfl

end Mrcal.Report

import Verif.Model.UncertaintyPlot
import Verif.Props.OverlayProps
import Verif.Props.OffPinholeProps
/-
C138: the plot of the uncertainty of projection shows the uncertainty at each place
-/
namespace Mrcal.UncertaintyPlot
open Mrcal Mrcal.Cam

/-! ### specification -/

/-- what should be shown at a pixel: the uncertainty of the point that's at the requested distance, in the direction that this pixel sees; or of the direction itself, if no distance was requested. A million pixels if that's not known -/
def Shown (c : Camera) (a : Args) (q : P2) (e : ℝ) : Prop :=
  (∀ v, c.unproject q = some v →
    (∀ d, a.distance = some d → e = (c.uncertainty ⟨a.method, false, a.isotropic, a.noise⟩ ⟨d * v.x, d * v.y, d * v.z⟩).getD 1000000) ∧
    (a.distance = none → e = (c.uncertainty ⟨a.method, true, a.isotropic, a.noise⟩ v).getD 1000000)) ∧
  (c.unproject q = none → e = 1000000)

/-! ### proofs -/

theorem err_shown (c : Camera) (a : Args) (q : P2) : Shown c a q (err c a q) := by
  unfold Shown err
  constructor
  · intro v hv
    rw [hv]
    constructor
    · intro d hd
      simp only [hd, Option.isNone_some, mul_comm v.x, mul_comm v.y, mul_comm v.z]
      cases c.uncertainty ⟨a.method, false, a.isotropic, a.noise⟩ ⟨d * v.x, d * v.y, d * v.z⟩ with
      | none => simp only [Option.getD_none]; norm_num
      | some e => rfl
    · intro hd
      simp only [hd, Option.isNone_none, mul_one]
      cases c.uncertainty ⟨a.method, true, a.isotropic, a.noise⟩ v with
      | none => simp only [Option.getD_none]; norm_num
      | some e => rfl
  · intro hv
    rw [hv]
    norm_num

theorem parts (c : Camera) (a : Args) (p : Plot) (h : plot c a = some p) : a.method ∈ methods ∧ ∃ gh, ModelDiff.gridHeight a.gw a.gh c.W c.H = some gh ∧ a.gw ≠ 1 ∧ gh ≠ 1 ∧
    p.heat = ((List.range gh).flatMap fun (i : Nat) => (List.range a.gw).map fun (j : Nat) => ((⟨j * (((c.W : ℝ) - 1) / ((a.gw : ℝ) - 1)), i * (((c.H : ℝ) - 1) / ((gh : ℝ) - 1))⟩ : P2), err c a (pixel c a.gw gh i j))) ∧
    p.region = (if a.region then c.region else none) ∧ p.title = title a ∧
    (a.observations = none ∧ p.observations = [] ∨ ∃ dots, a.observations = some dots ∧ Overlay.overlay [] c.inputs c.icam "" (if dots then -1 else 1) false none = some p.observations) := by
  unfold plot at h
  by_cases hm : a.method ∈ methods
  swap
  · rw [if_pos hm] at h; cases h
  rw [if_neg (by simpa using hm)] at h
  refine ⟨hm, ?_⟩
  cases hg : ModelDiff.gridHeight a.gw a.gh c.W c.H with
  | none => rw [hg] at h; cases h
  | some gh =>
    rw [hg] at h
    dsimp only at h
    unfold Region.gridUsing at h
    simp only [ModelDiff.gridHeight, Option.bind_some] at h
    by_cases h1 : a.gw = 1 ∨ gh = 1
    · rw [if_pos h1] at h; cases h
    rw [if_neg h1] at h
    dsimp only at h
    push Not at h1
    refine ⟨gh, rfl, h1.1, h1.2, ?_⟩
    cases ho : a.observations with
    | none =>
      rw [ho] at h
      simp only [Option.some.injEq] at h
      subst h
      exact ⟨rfl, rfl, rfl, Or.inl ⟨rfl, rfl⟩⟩
    | some dots =>
      rw [ho] at h
      dsimp only at h
      obtain ⟨o, e, rfl⟩ := Option.map_eq_some_iff.1 h
      exact ⟨rfl, rfl, rfl, Or.inr ⟨dots, rfl, e⟩⟩

/-- C138: the heat map. The requested number of cells, spread evenly from corner to corner of the imager; each shows the uncertainty of the pixel where it's drawn -/
theorem heat_meaning (c : Camera) (a : Args) (p : Plot) (h : plot c a = some p) : ∃ gh, (∀ n, a.gh = some n → gh = n) ∧ p.heat.length = gh * a.gw ∧ ∀ i j, i < gh → j < a.gw → ∃ (q : P2) (e : ℝ), p.heat[i * a.gw + j]? = some (q, e) ∧
    q = ⟨j * (((c.W : ℝ) - 1) / ((a.gw : ℝ) - 1)), i * (((c.H : ℝ) - 1) / ((gh : ℝ) - 1))⟩ ∧ Shown c a q e := by
  obtain ⟨_, gh, hg, h1, h2, hh, _⟩ := parts c a p h
  refine ⟨gh, ?_, ?_, fun i j hi hj => ?_⟩
  · intro n hn
    rw [hn] at hg
    simpa [ModelDiff.gridHeight] using hg.symm
  · rw [hh]; exact OffPinhole.flat_length _ _ _
  · rw [hh, OffPinhole.flat_get _ _ _ i j hi hj]
    refine ⟨_, _, rfl, rfl, ?_⟩
    have e : pixel c a.gw gh i j = ⟨j * (((c.W : ℝ) - 1) / ((a.gw : ℝ) - 1)), i * (((c.H : ℝ) - 1) / ((gh : ℝ) - 1))⟩ := by
      unfold pixel Project.linspace
      rw [if_neg (show ¬ a.gw ≤ 1 by omega), if_neg (show ¬ gh ≤ 1 by omega)]
      simp
    rw [e]
    exact err_shown c a _

/-- C138: the region is shown if it's asked for, and if there is one; nothing is refused because of it. Observations are shown if asked for: see C137 -/
theorem overlays (c : Camera) (a : Args) (p : Plot) (h : plot c a = some p) : (∀ r, p.region = some r ↔ a.region = true ∧ c.region = some r) ∧ (a.observations = none → p.observations = []) ∧
    ∀ dots, a.observations = some dots → ∃ inp, c.inputs = some inp ∧
      (∀ q, (∃ k ∈ p.observations, k.color = "black" ∧ q ∈ k.pts) ↔ ∃ s, Overlay.Observed inp c.icam s ∧ 0 < s.weight ∧ q = s.q) ∧
      (∀ q, (∃ k ∈ p.observations, k.color = "red" ∧ q ∈ k.pts) ↔ ∃ s, Overlay.Observed inp c.icam s ∧ s.weight ≤ 0 ∧ q = s.q) ∧
      ∀ k ∈ p.observations, k.style = if dots then "dots nocontour" else "points pt 1 nocontour" := by
  obtain ⟨_, gh, _, _, _, _, hr, _, ho⟩ := parts c a p h
  refine ⟨fun r => ?_, fun hn => ?_, fun dots hd => ?_⟩
  · rw [hr]
    by_cases h : a.region = true <;> simp [h]
  · rcases ho with ⟨_, e⟩ | ⟨dots, e, _⟩
    · exact e
    · rw [hn] at e; cases e
  · rcases ho with ⟨e, _⟩ | ⟨dots', e, ho⟩
    · rw [hd] at e; cases e
    · rw [hd] at e
      cases e
      cases hi : c.inputs with
      | none =>
        rw [hi, (Overlay.refused ..).2 rfl] at ho
        cases ho
      | some inp =>
        rw [hi] at ho
        obtain ⟨cs, e, d1, d2, d3⟩ := Overlay.drawn [] inp c.icam "" (if dots then -1 else 1) false none
        rw [ho] at e
        simp only [List.nil_append, Option.some.injEq] at e
        subst e
        refine ⟨inp, rfl, d1, d2, fun k hk => ?_⟩
        rw [(d3 k hk).2.2.2]
        cases dots <;> rfl

/-- C138: what's refused: an unknown method; a grid with one column or one row; observations without optimization inputs. (The number of rows can't be chosen if the imager has no width) -/
theorem refused (c : Camera) (a : Args) : plot c a = none ↔ (a.method ≠ "mean-pcam" ∧ a.method ≠ "cross-reprojection-rrp-Jfp" ∧ a.method ≠ "cross-reprojection-ccp") ∨ a.gw = 1 ∨ ModelDiff.gridHeight a.gw a.gh c.W c.H = none ∨
    ModelDiff.gridHeight a.gw a.gh c.W c.H = some 1 ∨ (a.observations ≠ none ∧ c.inputs = none) := by
  have hmm : a.method ∉ methods ↔ (a.method ≠ "mean-pcam" ∧ a.method ≠ "cross-reprojection-rrp-Jfp" ∧ a.method ≠ "cross-reprojection-ccp") := by simp [methods]
  rw [← hmm]
  unfold plot
  by_cases hm : a.method ∉ methods
  · rw [if_pos hm]; simp [hm]
  rw [if_neg hm]
  cases hg : ModelDiff.gridHeight a.gw a.gh c.W c.H with
  | none => simp
  | some gh =>
    dsimp only
    unfold Region.gridUsing
    simp only [ModelDiff.gridHeight, Option.bind_some]
    by_cases h1 : a.gw = 1 ∨ gh = 1
    · rw [if_pos h1]
      rcases h1 with h1 | h1 <;> simp [h1]
    rw [if_neg h1]
    push Not at h1
    dsimp only
    cases ho : a.observations with
    | none => simp [hm, h1.1, h1.2]
    | some dots => simp [hm, h1.1, h1.2, Overlay.refused]

/-- C138: the title. If it's given it's used; otherwise it says what's shown, and at what distance, and the extra title is at the end -/
theorem title_meaning (c : Camera) (a : Args) (p : Plot) (h : plot c a = some p) : (∀ t, a.title = some t → p.title = t) ∧
    (a.title = none → ∃ what far extra, p.title = what ++ " uncertainty (in pixels) based on calibration input noise" ++ far ++ extra ∧ what = (if a.isotropic then "Isotropic projection" else "Projection") ∧
      (a.distance = none → far = ". Looking out to infinity") ∧ (a.distance ≠ none → far = ". Looking out to " ++ a.distanceText ++ "m") ∧ extra = (match a.extratitle with | none => "" | some e => ": " ++ e)) := by
  obtain ⟨_, gh, _, _, _, _, _, ht, _⟩ := parts c a p h
  rw [ht]
  unfold title
  constructor
  · intro t e; rw [e]
  · intro e
    rw [e]
    dsimp only
    refine ⟨_, match a.distance with | none => ". Looking out to infinity" | some _ => ". Looking out to " ++ a.distanceText ++ "m", _, ?_, rfl, ?_, ?_, rfl⟩
    · cases a.isotropic <;> cases a.extratitle <;> cases a.distance <;> simp [String.append_assoc]
    · intro h; rw [h]
    · intro h
      cases hd : a.distance with
      | none => exact absurd hd h
      | some d => rfl

/-! ### concrete -/

noncomputable def cam0 : Camera := ⟨640, 480, fun q => if q.x < 1 then none else some ⟨q.x, q.y, 100⟩, fun k p => if k.atinfinity then some 1 else if p.z < 1000 then some p.z else none, none, some ⟨none, none, none⟩, 0⟩
noncomputable def args0 : Args := ⟨60, none, none, some true, true, some 2, "2", false, "cross-reprojection-ccp", some "x", none⟩

example : (plot cam0 args0).isSome = true := by
  rw [Option.isSome_iff_ne_none, ne_eq, refused]
  have : ModelDiff.gridHeight 60 none 640 480 = some 45 := by decide +kernel
  simp [cam0, args0, this]

end Mrcal.UncertaintyPlot

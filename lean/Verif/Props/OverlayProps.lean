import Verif.Model.Overlay
import Mathlib.Tactic.NormNum
/-
C137: the observations that are drawn on top of a plot are those of this camera
-/
namespace Mrcal.Overlay
open Mrcal Mrcal.Pnp

/-! ### specification -/

/-- a pixel that this camera has observed: a corner of a chessboard, or a point. With the weight -/
inductive Observed (inp : Inputs) (icam : Int) : Seen → Prop
  | corner (bs : List Board) (b : Board) (row : List Seen) (s : Seen) : inp.boards = some bs → b ∈ bs → b.icam = icam → row ∈ b.rows → s ∈ row → Observed inp icam s
  | point (ps : List Point) (p : Point) : inp.points = some ps → p ∈ ps → p.icam = icam → Observed inp icam p.seen

/-- the number of these: each corner of each board counts, and each point -/
def total (inp : Inputs) (icam : Int) : Nat :=
  (((inp.boards.getD []).filter fun b => decide (b.icam = icam)).map fun b => (b.rows.map List.length).sum).sum + ((inp.points.getD []).filter fun p => decide (p.icam = icam)).length

/-- where a pixel is drawn -/
def place (reproject : Option (P2 → P2)) (q : P2) : P2 := (reproject.getD id) q

/-! ### proofs -/

theorem curve_mem (pre : String) (t : Int) (flat : Bool) (r : Option (P2 → P2)) (q : Option (List P2)) (color what : String) (c : Curve) : c ∈ curve pre t flat r q color what ↔
    ∃ l, q = some l ∧ l ≠ [] ∧ c = ⟨l.map (place r), color, style t flat, pre ++ what, flat⟩ := by
  unfold curve
  match q with
  | none => simp
  | some [] => simp
  | some (a :: l) =>
    have e : place none = id := by funext q; rfl
    cases r with
    | none => simp [e]
    | some f =>
      have e' : place (some f) = f := by funext q; rfl
      simp [e']

theorem mem_inliers (yes : Bool) (l : List Seen) (q : P2) : q ∈ inliers yes l ↔ ∃ s ∈ l, s.q = q ∧ (0 < s.weight ↔ yes = true) := by
  classical
  unfold inliers
  rw [List.mem_map]
  constructor
  · rintro ⟨s, hs, rfl⟩
    obtain ⟨h1, h2⟩ := List.mem_filter.1 hs
    refine ⟨s, h1, rfl, ?_⟩
    cases yes <;> simpa using h2
  · rintro ⟨s, h1, rfl, h2⟩
    refine ⟨s, List.mem_filter.2 ⟨h1, ?_⟩, rfl⟩
    cases yes <;> simpa using h2

theorem mem_corners (icam : Int) (b : List Board) (s : Seen) : s ∈ corners icam b ↔ ∃ o ∈ b, o.icam = icam ∧ ∃ row ∈ o.rows, s ∈ row := by
  simp only [corners, List.mem_flatMap, List.mem_filter, decide_eq_true_eq, List.mem_flatten]
  constructor
  · rintro ⟨o, ⟨h1, h2⟩, row, h3, h4⟩; exact ⟨o, h1, h2, row, h3, h4⟩
  · rintro ⟨o, h1, h2, row, h3, h4⟩; exact ⟨o, ⟨h1, h2⟩, row, h3, h4⟩

theorem mem_points (icam : Int) (p : List Point) (s : Seen) : s ∈ points icam p ↔ ∃ o ∈ p, o.icam = icam ∧ o.seen = s := by
  simp only [points, List.mem_map, List.mem_filter, decide_eq_true_eq]
  constructor
  · rintro ⟨o, ⟨h1, h2⟩, h3⟩; exact ⟨o, h1, h2, h3⟩
  · rintro ⟨o, h1, h2, h3⟩; exact ⟨o, ⟨h1, h2⟩, h3⟩

/-- C137: what was to be plotted still is, followed by the observations: a place is drawn in black if and only if this camera has an observation with a positive weight there; in red, with any other weight. Other cameras' observations aren't drawn. There are
no other colors -/
theorem drawn (data : List Curve) (inp : Inputs) (icam : Int) (pre : String) (t : Int) (flat : Bool) (r : Option (P2 → P2)) : ∃ cs, overlay data (some inp) icam pre t flat r = some (data ++ cs) ∧
    (∀ q, (∃ c ∈ cs, c.color = "black" ∧ q ∈ c.pts) ↔ ∃ s, Observed inp icam s ∧ 0 < s.weight ∧ q = place r s.q) ∧
    (∀ q, (∃ c ∈ cs, c.color = "red" ∧ q ∈ c.pts) ↔ ∃ s, Observed inp icam s ∧ s.weight ≤ 0 ∧ q = place r s.q) ∧
    ∀ c ∈ cs, (c.color = "black" ∨ c.color = "red") ∧ c.pts ≠ [] ∧ c.flat = flat ∧ c.style = style t flat := by
  refine ⟨_, rfl, ?_, ?_, ?_⟩
  · intro q
    simp only [List.mem_append, curve_mem]
    constructor
    · rintro ⟨c, ((⟨l, hl, _, rfl⟩ | ⟨l, hl, _, rfl⟩) | ⟨l, hl, _, rfl⟩) | ⟨l, hl, _, rfl⟩, hc, hq⟩
      · obtain ⟨bs', e1, rfl⟩ := Option.map_eq_some_iff.1 hl
        obtain ⟨bs, e2, rfl⟩ := Option.map_eq_some_iff.1 e1
        obtain ⟨q0, h0, rfl⟩ := List.mem_map.1 hq
        obtain ⟨s, hs, rfl, hw⟩ := (mem_inliers _ _ _).1 h0
        obtain ⟨o, ho, hi, row, hr, hsr⟩ := (mem_corners _ _ _).1 hs
        exact ⟨s, .corner bs o row s e2 ho hi hr hsr, hw.2 rfl, rfl⟩
      · obtain ⟨bs', e1, rfl⟩ := Option.map_eq_some_iff.1 hl
        obtain ⟨bs, e2, rfl⟩ := Option.map_eq_some_iff.1 e1
        obtain ⟨q0, h0, rfl⟩ := List.mem_map.1 hq
        obtain ⟨s, hs, rfl, hw⟩ := (mem_inliers _ _ _).1 h0
        obtain ⟨o, ho, hi, rfl⟩ := (mem_points _ _ _).1 hs
        exact ⟨_, .point bs o e2 ho hi, hw.2 rfl, rfl⟩
      · simp at hc
      · simp at hc
    · rintro ⟨s, hobs, hw, rfl⟩
      cases hobs with
      | corner bs b row s e hb hi hr hs =>
        have hm : s.q ∈ inliers true (corners icam bs) := (mem_inliers _ _ _).2 ⟨s, (mem_corners _ _ _).2 ⟨b, hb, hi, row, hr, hs⟩, rfl, by simp [hw]⟩
        exact ⟨_, Or.inl (Or.inl (Or.inl ⟨inliers true (corners icam bs), by rw [e]; rfl, List.ne_nil_of_mem hm, rfl⟩)), rfl, List.mem_map.2 ⟨_, hm, rfl⟩⟩
      | point ps p e hp hi =>
        have hm : p.seen.q ∈ inliers true (points icam ps) := (mem_inliers _ _ _).2 ⟨p.seen, (mem_points _ _ _).2 ⟨p, hp, hi, rfl⟩, rfl, by simp [hw]⟩
        exact ⟨_, Or.inl (Or.inl (Or.inr ⟨inliers true (points icam ps), by rw [e]; rfl, List.ne_nil_of_mem hm, rfl⟩)), rfl, List.mem_map.2 ⟨_, hm, rfl⟩⟩
  · intro q
    simp only [List.mem_append, curve_mem]
    constructor
    · rintro ⟨c, ((⟨l, hl, _, rfl⟩ | ⟨l, hl, _, rfl⟩) | ⟨l, hl, _, rfl⟩) | ⟨l, hl, _, rfl⟩, hc, hq⟩
      · simp at hc
      · simp at hc
      · obtain ⟨bs', e1, rfl⟩ := Option.map_eq_some_iff.1 hl
        obtain ⟨bs, e2, rfl⟩ := Option.map_eq_some_iff.1 e1
        obtain ⟨q0, h0, rfl⟩ := List.mem_map.1 hq
        obtain ⟨s, hs, rfl, hw⟩ := (mem_inliers _ _ _).1 h0
        obtain ⟨o, ho, hi, row, hr, hsr⟩ := (mem_corners _ _ _).1 hs
        exact ⟨s, .corner bs o row s e2 ho hi hr hsr, not_lt.1 (by simpa using hw), rfl⟩
      · obtain ⟨bs', e1, rfl⟩ := Option.map_eq_some_iff.1 hl
        obtain ⟨bs, e2, rfl⟩ := Option.map_eq_some_iff.1 e1
        obtain ⟨q0, h0, rfl⟩ := List.mem_map.1 hq
        obtain ⟨s, hs, rfl, hw⟩ := (mem_inliers _ _ _).1 h0
        obtain ⟨o, ho, hi, rfl⟩ := (mem_points _ _ _).1 hs
        exact ⟨_, .point bs o e2 ho hi, not_lt.1 (by simpa using hw), rfl⟩
    · rintro ⟨s, hobs, hw, rfl⟩
      cases hobs with
      | corner bs b row s e hb hi hr hs =>
        have hm : s.q ∈ inliers false (corners icam bs) := (mem_inliers _ _ _).2 ⟨s, (mem_corners _ _ _).2 ⟨b, hb, hi, row, hr, hs⟩, rfl, by simpa using hw⟩
        exact ⟨_, Or.inl (Or.inr ⟨inliers false (corners icam bs), by rw [e]; rfl, List.ne_nil_of_mem hm, rfl⟩), rfl, List.mem_map.2 ⟨_, hm, rfl⟩⟩
      | point ps p e hp hi =>
        have hm : p.seen.q ∈ inliers false (points icam ps) := (mem_inliers _ _ _).2 ⟨p.seen, (mem_points _ _ _).2 ⟨p, hp, hi, rfl⟩, rfl, by simpa using hw⟩
        exact ⟨_, Or.inr ⟨inliers false (points icam ps), by rw [e]; rfl, List.ne_nil_of_mem hm, rfl⟩, rfl, List.mem_map.2 ⟨_, hm, rfl⟩⟩
  · intro c hc
    simp only [List.mem_append, curve_mem] at hc
    rcases hc with ((⟨l, _, h, rfl⟩ | ⟨l, _, h, rfl⟩) | ⟨l, _, h, rfl⟩) | ⟨l, _, h, rfl⟩ <;> exact ⟨by simp, by simpa using h, rfl, rfl⟩

/-- a corner, or a point, that this camera has observed -/
inductive Kind (inp : Inputs) (icam : Int) : String → Seen → Prop
  | corner (bs : List Board) (b : Board) (row : List Seen) (s : Seen) : inp.boards = some bs → b ∈ bs → b.icam = icam → row ∈ b.rows → s ∈ row → Kind inp icam "board" s
  | point (ps : List Point) (p : Point) : inp.points = some ps → p ∈ ps → p.icam = icam → Kind inp icam "point" p.seen

/-- C137: each curve is of one kind of observations, all inliers or all outliers, and its legend and its color say which. Negative point types are dots -/
theorem legend_meaning (data : List Curve) (inp : Inputs) (icam : Int) (pre : String) (t : Int) (flat : Bool) (r : Option (P2 → P2)) (cs : List Curve) (h : overlay data (some inp) icam pre t flat r = some (data ++ cs)) (c : Curve) (hc : c ∈ cs) :
    (∃ kind, (c.legend = pre ++ (kind ++ " inliers") ∧ c.color = "black" ∧ ∀ q ∈ c.pts, ∃ s, Kind inp icam kind s ∧ 0 < s.weight ∧ q = place r s.q) ∨
      (c.legend = pre ++ (kind ++ " outliers") ∧ c.color = "red" ∧ ∀ q ∈ c.pts, ∃ s, Kind inp icam kind s ∧ s.weight ≤ 0 ∧ q = place r s.q)) ∧
    (t < 0 → c.style = "dots" ++ (if flat then "" else " nocontour")) ∧ (0 ≤ t → c.style = "points pt " ++ toString t ++ (if flat then "" else " nocontour")) := by
  unfold overlay at h
  simp only [Option.some.injEq] at h
  have h := List.append_cancel_left h
  rw [← h] at hc
  simp only [List.mem_append, curve_mem] at hc
  have st : (t < 0 → style t flat = "dots" ++ (if flat then "" else " nocontour")) ∧ (0 ≤ t → style t flat = "points pt " ++ toString t ++ (if flat then "" else " nocontour")) := by
    unfold style
    exact ⟨fun ht => by rw [if_pos ht], fun ht => by rw [if_neg (by omega)]⟩
  have cn : ∀ yes (l : List P2), Option.map (inliers yes) (Option.map (corners icam) inp.boards) = some l → ∀ q ∈ l.map (place r), ∃ s, Kind inp icam "board" s ∧ (0 < s.weight ↔ yes = true) ∧ q = place r s.q := by
    intro yes l hl q hq
    obtain ⟨bs', e1, rfl⟩ := Option.map_eq_some_iff.1 hl
    obtain ⟨bs, e2, rfl⟩ := Option.map_eq_some_iff.1 e1
    obtain ⟨q0, h0, rfl⟩ := List.mem_map.1 hq
    obtain ⟨s, hs, rfl, hw⟩ := (mem_inliers _ _ _).1 h0
    obtain ⟨o, ho, hi, row, hr, hsr⟩ := (mem_corners _ _ _).1 hs
    exact ⟨s, .corner bs o row s e2 ho hi hr hsr, hw, rfl⟩
  have pn : ∀ yes (l : List P2), Option.map (inliers yes) (Option.map (points icam) inp.points) = some l → ∀ q ∈ l.map (place r), ∃ s, Kind inp icam "point" s ∧ (0 < s.weight ↔ yes = true) ∧ q = place r s.q := by
    intro yes l hl q hq
    obtain ⟨bs', e1, rfl⟩ := Option.map_eq_some_iff.1 hl
    obtain ⟨bs, e2, rfl⟩ := Option.map_eq_some_iff.1 e1
    obtain ⟨q0, h0, rfl⟩ := List.mem_map.1 hq
    obtain ⟨s, hs, rfl, hw⟩ := (mem_inliers _ _ _).1 h0
    obtain ⟨o, ho, hi, rfl⟩ := (mem_points _ _ _).1 hs
    exact ⟨_, .point bs o e2 ho hi, hw, rfl⟩
  rcases hc with ((⟨l, hl, _, rfl⟩ | ⟨l, hl, _, rfl⟩) | ⟨l, hl, _, rfl⟩) | ⟨l, hl, _, rfl⟩
  · exact ⟨⟨"board", Or.inl ⟨rfl, rfl, fun q hq => by obtain ⟨s, a, b, e⟩ := cn _ l hl q hq; exact ⟨s, a, b.2 rfl, e⟩⟩⟩, st⟩
  · exact ⟨⟨"point", Or.inl ⟨rfl, rfl, fun q hq => by obtain ⟨s, a, b, e⟩ := pn _ l hl q hq; exact ⟨s, a, b.2 rfl, e⟩⟩⟩, st⟩
  · exact ⟨⟨"board", Or.inr ⟨rfl, rfl, fun q hq => by obtain ⟨s, a, b, e⟩ := cn _ l hl q hq; exact ⟨s, a, not_lt.1 (by simpa using b), e⟩⟩⟩, st⟩
  · exact ⟨⟨"point", Or.inr ⟨rfl, rfl, fun q hq => by obtain ⟨s, a, b, e⟩ := pn _ l hl q hq; exact ⟨s, a, not_lt.1 (by simpa using b), e⟩⟩⟩, st⟩

theorem curve_count (pre : String) (t : Int) (flat : Bool) (r : Option (P2 → P2)) (q : Option (List P2)) (color what : String) : ((curve pre t flat r q color what).map fun c => c.pts.length).sum = (q.getD []).length := by
  unfold curve
  match q with
  | none => rfl
  | some [] => rfl
  | some (a :: l) => cases r <;> simp

theorem split_count (l : List Seen) : (inliers true l).length + (inliers false l).length = l.length := by
  classical
  unfold inliers
  induction l with
  | nil => rfl
  | cons s l ih =>
    simp only [List.length_map] at ih ⊢
    by_cases h : 0 < s.weight
    · simp only [List.filter_cons, h, decide_true, beq_self_eq_true, if_true, List.length_cons]
      simp only [show ((true == false) = true) = False by simp, if_false]
      omega
    · simp only [List.filter_cons, h, decide_false, List.length_cons]
      simp only [show ((false == true) = true) = False by simp, if_false, beq_self_eq_true, if_true, List.length_cons]
      omega

/-- C137: none is drawn twice, or lost: the number of places drawn is the number of observations of this camera -/
theorem count (data : List Curve) (inp : Inputs) (icam : Int) (pre : String) (t : Int) (flat : Bool) (r : Option (P2 → P2)) (cs : List Curve) (h : overlay data (some inp) icam pre t flat r = some (data ++ cs)) :
    (cs.map fun c => c.pts.length).sum = total inp icam := by
  unfold overlay at h
  simp only [Option.some.injEq] at h
  rw [← List.append_cancel_left h]
  simp only [List.map_append, List.sum_append, curve_count]
  have hb : ∀ yes, ((Option.map (inliers yes) (Option.map (corners icam) inp.boards)).getD []) = inliers yes (corners icam (inp.boards.getD [])) := by
    intro yes; cases inp.boards <;> simp [inliers, corners]
  have hp : ∀ yes, ((Option.map (inliers yes) (Option.map (points icam) inp.points)).getD []) = inliers yes (points icam (inp.points.getD [])) := by
    intro yes; cases inp.points <;> simp [inliers, points]
  rw [hb, hb, hp, hp]
  have e1 := split_count (corners icam (inp.boards.getD []))
  have e2 := split_count (points icam (inp.points.getD []))
  have e3 : (corners icam (inp.boards.getD [])).length = (((inp.boards.getD []).filter fun b => decide (b.icam = icam)).map fun b => (b.rows.map List.length).sum).sum := by
    simp [corners, List.length_flatMap, List.length_flatten]
  have e4 : (points icam (inp.points.getD [])).length = ((inp.points.getD []).filter fun p => decide (p.icam = icam)).length := by simp [points]
  unfold total
  omega

/-- C137: nothing can be drawn without the optimization inputs -/
theorem refused (data : List Curve) (inputs : Option Inputs) (icam : Int) (pre : String) (t : Int) (flat : Bool) (r : Option (P2 → P2)) : overlay data inputs icam pre t flat r = none ↔ inputs = none := by
  cases inputs <;> simp [overlay]

/-- C137, negation: corners that the detector didn't find have a weight < 0, and no pixel: -1,-1. These are drawn too, as outliers -/
theorem missing_wrong : ∃ cs, overlay [] (some ⟨some [⟨0, [[⟨⟨10, 20⟩, 1⟩, ⟨⟨-1, -1⟩, -1⟩]]⟩], none, none⟩) 0 "" 1 false none = some cs ∧ ∃ c ∈ cs, c.color = "red" ∧ (⟨-1, -1⟩ : P2) ∈ c.pts := by
  obtain ⟨cs, e, _, h, _⟩ := drawn [] ⟨some [⟨0, [[⟨⟨10, 20⟩, 1⟩, ⟨⟨-1, -1⟩, -1⟩]]⟩], none, none⟩ 0 "" 1 false none
  refine ⟨cs, e, (h _).2 ⟨⟨⟨-1, -1⟩, -1⟩, .corner [⟨0, [[⟨⟨10, 20⟩, 1⟩, ⟨⟨-1, -1⟩, -1⟩]]⟩] ⟨0, [[⟨⟨10, 20⟩, 1⟩, ⟨⟨-1, -1⟩, -1⟩]]⟩ [⟨⟨10, 20⟩, 1⟩, ⟨⟨-1, -1⟩, -1⟩] _ rfl (by simp) rfl (by simp) (by simp), by norm_num, rfl⟩⟩

/-- C137, negation: observations of triangulated points aren't drawn, whatever they are -/
theorem triangulated_wrong (data : List Curve) (inp : Inputs) (l : Option (List Point)) (icam : Int) (pre : String) (t : Int) (flat : Bool) (r : Option (P2 → P2)) :
    overlay data (some { inp with triangulated := l }) icam pre t flat r = overlay data (some inp) icam pre t flat r ∧ overlay data (some ⟨none, none, l⟩) icam pre t flat r = some data := by
  constructor
  · rfl
  · simp [overlay, curve]

/-- two cameras: 3 observations are of camera 0 -/
example : total ⟨some [⟨0, [[⟨⟨10, 20⟩, 1⟩, ⟨⟨12, 20⟩, -1⟩]]⟩, ⟨1, [[⟨⟨10, 20⟩, 1⟩, ⟨⟨12, 20⟩, -1⟩]]⟩], some [⟨0, ⟨⟨1, 2⟩, 1⟩⟩], none⟩ 0 = 3 := by simp [total]

end Mrcal.Overlay

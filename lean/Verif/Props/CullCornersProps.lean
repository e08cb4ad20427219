import Verif.Model.CornerTools
import Verif.Props.CornersFinal
import Verif.Props.CallbackIndexProps
import Mathlib.Tactic.Linarith
import Mathlib.Tactic.NormNum
/-
C106: mrcal-cull-corners
-/
namespace Mrcal.CornerTools
open Mrcal.Corners

/-! ### specification -/

/-- the lines are the same, but the level of the second one may be '-' -/
def SameBut : Line → Line → Prop
  | .comment a, .comment b => a = b
  | .data f xy l, .data f' xy' l' => f = f' ∧ xy = xy' ∧ (l' = l ∨ l' = none)
  | _, _ => False

/-- the line as it is, or with the level '-' -/
def marked (l : Line) (culled : Prop) [Decidable culled] : Line :=
  match l with
  | .comment a => .comment a
  | .data f xy level => .data f xy (if culled then none else level)

/-- the distance between two points of an image -/
noncomputable def distance (a b : ℝ × ℝ) : ℝ := Real.sqrt ((a.1 - b.1) ^ 2 + (a.2 - b.2) ^ 2)

/-- the line is a point of a selected image -/
def IsPoint (selected : String → Bool) (l : Line) (x y : ℝ) : Prop := ∃ f level, l = .data f (some (x, y)) level ∧ selected f = true

/-! ### each line -/

theorem cull_dash (p : Plan) (selected : String → Bool) (s : Count) (f : String) (level : Option String) (rest : List Line) :
    cull p selected s (.data f none level :: rest) = .data f none level :: cull p selected s rest := rfl

theorem cull_data (p : Plan) (selected : String → Bool) (s : Count) (f : String) (x y : ℝ) (level : Option String) (rest : List Line) :
    cull p selected s (.data f (some (x, y)) level :: rest) =
      if selected f = false then .data f (some (x, y)) level :: cull p selected s rest
      else .data f (some (x, y)) (if (keeps p s f x y).1 then level else none) :: cull p selected (keeps p s f x y).2 rest := rfl

/-- **C106**: No line is removed or added, or moved; nothing but the level is changed, and that one only to '-' -/
theorem cull_lines (p : Plan) (selected : String → Bool) (lines : List Line) : ∀ s, List.Forall₂ SameBut lines (cull p selected s lines) := by
  induction lines with
  | nil => intro s; exact .nil
  | cons l lines ih =>
    intro s
    match l with
    | .comment c => exact .cons rfl (ih s)
    | .data f none level => exact .cons ⟨rfl, rfl, Or.inl rfl⟩ (ih s)
    | .data f (some (x, y)) level =>
      rw [cull_data]
      by_cases hs : selected f = false
      · rw [if_pos hs]; exact .cons ⟨rfl, rfl, Or.inl rfl⟩ (ih s)
      · rw [if_neg hs]
        refine .cons ⟨rfl, rfl, ?_⟩ (ih _)
        split_ifs
        · exact Or.inl rfl
        · exact Or.inr rfl

open Classical in
/-- for the options that look at the pixel only -/
theorem cull_pixel (p : Plan) (keep : ℝ → ℝ → Prop) (hp : ∀ s f x y, keeps p s f x y = (decide (keep x y), s)) (selected : String → Bool) (lines : List Line) (s : Count) :
    cull p selected s lines = lines.map fun l => marked l (∃ x y, IsPoint selected l x y ∧ ¬ keep x y) := by
  induction lines with
  | nil => rfl
  | cons l lines ih =>
    rw [List.map_cons, ← ih]
    match l with
    | .comment c => rfl
    | .data f none level =>
      rw [cull_dash]
      unfold marked
      simp only
      rw [if_neg (by rintro ⟨x, y, ⟨f', l', h, -⟩, -⟩; cases h)]
    | .data f (some (x, y)) level =>
      rw [cull_data]
      unfold marked
      simp only
      by_cases hs : selected f = false
      · rw [if_pos hs, if_neg (by
          rintro ⟨x', y', ⟨f', l', h, h'⟩, -⟩
          cases h
          rw [hs] at h'; cases h')]
      · rw [if_neg hs, hp]
        simp only
        by_cases hk : keep x y
        · rw [if_pos (by simpa using hk), if_neg (by
            rintro ⟨x', y', ⟨f', l', h, h'⟩, h''⟩
            cases h
            exact h'' hk)]
        · rw [if_neg (by simpa using hk), if_pos ⟨x, y, ⟨f, level, rfl, by simpa using hs⟩, hk⟩]

open Classical in
/-- **C106**: `--cull-left-of X`: exactly the points of the selected images with x ≤ X are thrown out. (The documentation says x < X: see `left_equal_wrong`) -/
theorem cull_left (a : Args) (X : ℝ) (ha : a.cull_left_of = some X) (p : Plan) (hp : plan a = some p) (selected : String → Bool) (lines : List Line) (s : Count) :
    cull p selected s lines = lines.map fun l => marked l (∃ x y, IsPoint selected l x y ∧ x ≤ X) := by
  have : p = .left X := by
    unfold plan at hp
    rw [ha] at hp
    simp only at hp
    split at hp <;> simp_all
  subst this
  rw [cull_pixel (.left X) (fun x _ => x > X) (fun s f x y => by simp [keeps])]
  simp only [gt_iff_lt, not_lt]

/-- the center, and the radius, that the options ask for -/
def Circle (a : Args) (c : ℝ × ℝ) (r : ℝ) : Prop :=
  ∃ d, a.cull_rad_off_center = some d ∧
    ((0 ≤ d ∧ r = d ∧ (a.at' = some c ∨ a.at' = none ∧ ∃ w h : Int, a.imagersize = some (w, h) ∧ c = (((w : ℝ) - 1) / 2, ((h : ℝ) - 1) / 2))) ∨
     (d < 0 ∧ a.at' = none ∧ ∃ w h : Int, a.imagersize = some (w, h) ∧ c = (((w : ℝ) - 1) / 2, ((h : ℝ) - 1) / 2) ∧ r = Real.sqrt ((w : ℝ) ^ 2 + (h : ℝ) ^ 2) / 2 - |d|))

theorem plan_circle (a : Args) (d : ℝ) (ha : a.cull_rad_off_center = some d) (p : Plan) (hp : plan a = some p) : ∃ c r, p = .radius c r ∧ Circle a c r := by
  unfold plan at hp
  rw [ha] at hp
  cases h1 : a.cull_left_of with
  | some x => rw [h1] at hp; simp at hp
  | none =>
  cases h2 : a.cull_rad_off_center_board with
  | some x => rw [h1, h2] at hp; simp at hp
  | none =>
  cases h3 : a.cull_random_observations_ratio with
  | some x => rw [h1, h2, h3] at hp; simp at hp
  | none =>
  rw [h1, h2, h3] at hp
  dsimp only at hp
  split_ifs at hp with h0
  · split at hp
    · rename_i p' _ hat
      obtain rfl := Option.some.inj hp
      exact ⟨_, _, rfl, _, ha, Or.inl ⟨h0, rfl, Or.inl hat⟩⟩
    · rename_i w h hat him
      obtain rfl := Option.some.inj hp
      exact ⟨_, _, rfl, _, ha, Or.inl ⟨h0, rfl, Or.inr ⟨hat, w, h, him, rfl⟩⟩⟩
    · cases hp
  · split at hp
    · cases hp
    · rename_i w h hat him
      obtain rfl := Option.some.inj hp
      refine ⟨_, _, rfl, _, ha, Or.inr ⟨not_le.mp h0, hat, w, h, him, rfl, ?_⟩⟩
      rw [abs_of_neg (not_le.mp h0)]
      simp only [pow_two]
      ring
    · cases hp

theorem distance_lt (a b : ℝ × ℝ) (r : ℝ) (hr : 0 ≤ r) : (a.1 - b.1) * (a.1 - b.1) + (a.2 - b.2) * (a.2 - b.2) < r * r ↔ distance a b < r := by
  unfold distance
  rw [Real.sqrt_lt (by positivity) hr]
  simp only [pow_two]

open Classical in
/-- **C106**: `--cull-rad-off-center D`: exactly the points of the selected images that are D or more away from the center are thrown out. If D<0: those at half the diagonal less |D|, or more. Partial: if |D| is more than half the diagonal this isn't so, see `rad_negative_wrong` -/
theorem cull_radius_partial (a : Args) (c : ℝ × ℝ) (r : ℝ) (hc : Circle a c r) (hr : 0 ≤ r) (p : Plan) (hp : plan a = some p) (selected : String → Bool) (lines : List Line) (s : Count) :
    cull p selected s lines = lines.map fun l => marked l (∃ x y, IsPoint selected l x y ∧ r ≤ distance (x, y) c) := by
  obtain ⟨d, hd, hc'⟩ := hc
  obtain ⟨c', r', rfl, d', hd', h⟩ := plan_circle a d hd p hp
  obtain rfl : d = d' := by rw [hd] at hd'; exact Option.some.inj hd'
  have hcc : c' = c ∧ r' = r := by
    rcases h with ⟨h0, rfl, h1⟩ | ⟨h0, hn, w, hh, him, rfl, rfl⟩
    · rcases hc' with ⟨g0, rfl, g1⟩ | ⟨g0, -⟩
      · refine ⟨?_, rfl⟩
        rcases h1 with h1 | ⟨h1, w, hh, him, rfl⟩
        · rcases g1 with g1 | ⟨g1, -⟩
          · rw [h1] at g1; exact Option.some.inj g1
          · rw [h1] at g1; cases g1
        · rcases g1 with g1 | ⟨g1, w', h', him', rfl⟩
          · rw [h1] at g1; cases g1
          · rw [him] at him'
            obtain ⟨rfl, rfl⟩ := Prod.mk.inj (Option.some.inj him')
            rfl
      · linarith
    · rcases hc' with ⟨g0, -⟩ | ⟨g0, -, w', h', him', rfl, rfl⟩
      · linarith
      · rw [him] at him'
        obtain ⟨rfl, rfl⟩ := Prod.mk.inj (Option.some.inj him')
        exact ⟨rfl, rfl⟩
  obtain ⟨rfl, rfl⟩ := hcc
  rw [cull_pixel (.radius c' r') (fun x y => distance (x, y) c' < r') (fun s f x y => by
    simp only [keeps, Prod.mk.injEq, and_true]
    exact decide_eq_decide.mpr (distance_lt (x, y) c' r' hr))]
  simp only [not_lt]

/-! ### --cull-rad-off-center-board -/

/-- the state after some lines -/
noncomputable def after (p : Plan) (selected : String → Bool) : Count → List Line → Count
  | s, [] => s
  | s, .comment _ :: rest => after p selected s rest
  | s, .data _ none _ :: rest => after p selected s rest
  | s, .data file (some (x, y)) _ :: rest => if selected file = false then after p selected s rest else after p selected (keeps p s file x y).2 rest

theorem cull_append (p : Plan) (selected : String → Bool) (a b : List Line) : ∀ s, cull p selected s (a ++ b) = cull p selected s a ++ cull p selected (after p selected s a) b := by
  induction a with
  | nil => intro s; rfl
  | cons l a ih =>
    intro s
    match l with
    | .comment c => exact congrArg _ (ih s)
    | .data f none level => exact congrArg _ (ih s)
    | .data f (some (x, y)) level =>
      rw [List.cons_append, cull_data, cull_data]
      unfold after
      by_cases hs : selected f = false
      · rw [if_pos hs, if_pos hs, if_pos hs, ih]; rfl
      · rw [if_neg hs, if_neg hs, if_neg hs, ih]; rfl

theorem cull_length (p : Plan) (selected : String → Bool) (s : Count) (a : List Line) : (cull p selected s a).length = a.length :=
  (cull_lines p selected a s).length_eq.symm

/-- the images of the points, of the selected images only -/
def pointFile (selected : String → Bool) : Line → Option String
  | .data f (some _) _ => if selected f then some f else none
  | _ => none

theorem after_file (w h : Int) (r : ℝ) (selected : String → Bool) (a : List Line) : ∀ s, (after (.board w h r) selected s a).file = ((a.filterMap (pointFile selected)).getLast?).or s.file := by
  induction a with
  | nil => intro s; rfl
  | cons l a ih =>
    intro s
    match l with
    | .comment c => exact ih s
    | .data f none level => exact ih s
    | .data f (some (x, y)) level =>
      unfold after
      cases hs : selected f
      · rw [if_pos rfl, ih]
        simp [pointFile, hs]
      · rw [if_neg (by simp), ih]
        have e : ((keeps (.board w h r) s f x y).2).file = some f := by
          simp only [keeps, nextPt, newFile]
          split_ifs with h1 h2 h2
          · rfl
          · rfl
          · simpa using h1
          · simpa using h1
        rw [e, List.filterMap_cons_some (f := pointFile selected) (b := f) (by simp [pointFile, hs]), List.getLast?_cons]
        cases (a.filterMap (pointFile selected)).getLast? <;> rfl

theorem newFile_same (x y : Int) (f : String) : newFile ⟨x, y, some f⟩ f = ⟨x, y, some f⟩ := by simp [newFile]

theorem nextPt_at {w : Nat} (hw : 0 < w) (k : Nat) (f : String) : nextPt w ⟨((k % w : Nat) : Int), ((k / w : Nat) : Int), some f⟩ = ⟨(((k + 1) % w : Nat) : Int), (((k + 1) / w : Nat) : Int), some f⟩ := by
  unfold nextPt
  simp only
  have hm : k % w < w := Nat.mod_lt _ hw
  have hd := Nat.div_add_mod k w
  by_cases h : k % w + 1 = w
  · rw [if_pos (by exact_mod_cast h)]
    have e : k + 1 = w * (k / w + 1) := by rw [Nat.mul_add]; omega
    have e1 : (k + 1) % w = 0 := by rw [e]; simp
    have e2 : (k + 1) / w = k / w + 1 := by rw [e, Nat.mul_div_cancel_left _ hw]
    rw [e1, e2]; push_cast; rfl
  · rw [if_neg (by exact_mod_cast h)]
    have e : k + 1 = w * (k / w) + (k % w + 1) := by omega
    have e1 : (k + 1) % w = k % w + 1 := by rw [e, Nat.mul_add_mod]; exact Nat.mod_eq_of_lt (by omega)
    have e2 : (k + 1) / w = k / w := by
      conv_lhs => rw [e, Nat.mul_add_div hw]
      rw [Nat.div_eq_of_lt (by omega : k % w + 1 < w)]; rfl
    rw [e1, e2]; push_cast; rfl

open Classical in
theorem cull_block {w : Nat} (hw : 0 < w) (h : Int) (r : ℝ) (selected : String → Bool) (f : String) (hs : selected f = true) (pts : List ((ℝ × ℝ) × Option String)) (post : List Line) : ∀ (j : Nat) (s : Count),
    newFile s f = ⟨((j % w : Nat) : Int), ((j / w : Nat) : Int), some f⟩ → ∀ (k : Nat) q, pts[k]? = some q →
    (cull (.board w h r) selected s (pts.map (fun q => .data f (some q.1) q.2) ++ post))[k]? =
      some (.data f (some q.1) (if r ^ 2 ≤ ((((j + k) % w : Nat) : ℝ) - ((w : ℝ) - 1) / 2) ^ 2 + ((((j + k) / w : Nat) : ℝ) - ((h : ℝ) - 1) / 2) ^ 2 then none else q.2)) := by
  induction pts with
  | nil => intro j s _ k q hq; cases hq
  | cons q0 pts ih =>
    obtain ⟨⟨x, y⟩, level⟩ := q0
    intro j s hst k q hq
    rw [List.map_cons, List.cons_append, cull_data, if_neg (by rw [hs]; simp)]
    have hnext : (keeps (.board w h r) s f x y).2 = ⟨(((j + 1) % w : Nat) : Int), (((j + 1) / w : Nat) : Int), some f⟩ := by
      simp only [keeps]
      rw [hst, nextPt_at hw]
    cases k with
    | zero =>
      simp only [List.getElem?_cons_zero, Option.some.injEq] at hq ⊢
      subst hq
      simp only [keeps, hst, Nat.add_zero]
      congr 1
      simp only [decide_eq_true_eq, pow_two, Int.cast_natCast]
      split_ifs with h1 h2 h2
      · exact absurd h1 (not_lt.mpr h2)
      · rfl
      · rfl
      · exact absurd (not_lt.mp h1) h2
    | succ k =>
      rw [List.getElem?_cons_succ] at hq ⊢
      rw [hnext, ih (j + 1) _ (newFile_same _ _ _) k q hq, show j + 1 + k = j + (k + 1) by omega]

open Classical in
/-- **C106**: `--cull-rad-off-center-board R`: the corners that are R or more squares away from the center of the board are thrown out, if all the corners of an image were found: the k-th corner is in the column k mod w and the row k div w. This is so for each selected image, wherever in the file it is -/
theorem cull_board_partial (a : Args) (R : ℝ) (w : Nat) (hw : 0 < w) (ha : a.cull_rad_off_center_board = some R) (haw : a.object_width_n = some w) (p : Plan) (hp : plan a = some p)
    (selected : String → Bool) (f : String) (hs : selected f = true) (pre post : List Line) (pts : List ((ℝ × ℝ) × Option String))
    (hpre : (pre.filterMap (pointFile selected)).getLast? ≠ some f) (k : Nat) (q : (ℝ × ℝ) × Option String) (hq : pts[k]? = some q) :
    (cull p selected ⟨0, 0, none⟩ (pre ++ (pts.map (fun q => .data f (some q.1) q.2) ++ post)))[pre.length + k]? =
      some (marked (.data f (some q.1) q.2) (R ^ 2 ≤ ((k % w : Nat) - ((w : ℝ) - 1) / 2) ^ 2 + ((k / w : Nat) - (((a.object_height_n.getD w : Int) : ℝ) - 1) / 2) ^ 2)) := by
  have hpl : p = .board w (a.object_height_n.getD w) R := by
    unfold plan at hp
    rw [ha, haw] at hp
    dsimp only at hp
    cases h1 : a.cull_left_of <;> cases h2 : a.cull_rad_off_center <;> cases h3 : a.cull_random_observations_ratio <;> rw [h1, h2, h3] at hp <;> try (simp at hp; done)
    cases h4 : a.object_height_n <;> rw [h4] at hp <;> exact (Option.some.inj hp).symm
  subst hpl
  rw [cull_append, List.getElem?_append_right (by rw [cull_length]; omega), cull_length, Nat.add_sub_cancel_left]
  rw [cull_block hw _ R selected f hs pts post 0 _ ?_ k q hq]
  · unfold marked
    simp only [Nat.zero_add]
  · have hfile := after_file w (a.object_height_n.getD w) R selected pre ⟨0, 0, none⟩
    unfold newFile
    rw [if_pos (by
      rw [hfile]
      cases hg : (pre.filterMap (pointFile selected)).getLast? with
      | none => simp
      | some g => rw [hg] at hpre; simpa using hpre)]
    simp

/-! ### --cull-random-observations-ratio -/

/-- **C106**: the level that is written: '-' if what was read is negative, or it is rounded down. It is an error if it isn't a number -/
theorem level_written (v : Num) (l : Option Int) : levelOut v = some l ↔
    (∃ q, v = .fin q ∧ ((q < 0 ∧ l = none) ∨ (0 ≤ q ∧ ∃ n : Int, l = some n ∧ (n : ℚ) ≤ q ∧ q < n + 1))) ∨ (v = .negInf ∧ l = none) := by
  cases v with
  | fin q =>
    simp only [levelOut, Num.fin.injEq, reduceCtorEq, false_and, or_false, exists_eq_left']
    by_cases hq : q < 0
    · rw [if_pos hq]
      simp only [Option.some.injEq, hq, true_and, not_le.mpr hq, false_and, or_false, eq_comm]
    · rw [if_neg hq]
      simp only [Option.some.injEq, hq, false_and, false_or, not_lt.mp hq, true_and]
      constructor
      · rintro rfl
        exact ⟨_, rfl, Int.floor_le q, Int.lt_floor_add_one q⟩
      · rintro ⟨n, rfl, h1, h2⟩
        rw [Int.floor_eq_iff.mpr ⟨h1, h2⟩]
  | _ => simp [levelOut, eq_comm]

/-- the lines that are written for one image: each corner as it was, with the level that was read as a weight -/
def ImageLines (e : Env) (s : Shot) (block : List (Name × Num × Num × Option Int)) : Prop :=
  block.length = s.rows.length ∧ ∀ (k : Nat) (x : Name × Num × Num × Option Int), block[k]? = some x →
    ∃ fields p, s.rows[k]? = some fields ∧ Reads e fields p ∧ x.1 = canonical e s.name ∧ x.2.1 = p.x ∧ x.2.2.1 = p.y ∧ levelOut p.w = some x.2.2.2

theorem shotGrid_flat (e : Env) (s : Shot) (c : Context) (hc : shotContext e s = some c) (hfull : s.rows.length = e.W * e.H) :
    (shotGrid e s).flatten.length = s.rows.length ∧ ∀ (k : Nat) p, (shotGrid e s).flatten[k]? = some p → ∃ fields, s.rows[k]? = some fields ∧ Reads e fields p := by
  have hg : shotGrid e s = reshape e.H e.W c.grid := by
    unfold shotGrid
    rw [hc]; rfl
  have hlen : (shotGrid e s).flatten.length = s.rows.length := by
    rw [hg, hfull]
    unfold reshape
    rw [List.length_flatten, List.map_map]
    simp [Function.comp_def, Nat.mul_comm]
  refine ⟨hlen, fun k p hk => ?_⟩
  have hlt : k < e.W * e.H := by
    have := (List.getElem?_eq_some_iff.mp hk).1
    rw [hlen, hfull] at this; exact this
  have hW : 0 < e.W := Nat.pos_of_ne_zero (by intro h; rw [h] at hlt; simp at hlt)
  have hiy : k / e.W < e.H := Nat.div_lt_of_lt_mul hlt
  have hix : k % e.W < e.W := Nat.mod_lt _ hW
  obtain ⟨fields, q, h1, h2, h3⟩ := grid_reads e s c hc hfull (k / e.W) (k % e.W) hiy hix
  have hk' : k / e.W * e.W + k % e.W = k := by rw [Nat.mul_comm]; exact Nat.div_add_mod k e.W
  rw [hk'] at h1
  refine ⟨fields, h1, ?_⟩
  have : q = p := by
    have e1 : (shotGrid e s).flatten[k]? = some q := by
      rw [hg]
      rw [hg] at h2
      have hfm : (reshape e.H e.W c.grid).flatten = (reshape e.H e.W c.grid).flatMap id := by simp
      cases hrow : (reshape e.H e.W c.grid)[k / e.W]? with
      | none => rw [hrow] at h2; cases h2
      | some row =>
        rw [hrow, Option.bind_some] at h2
        rw [hfm]
        have := Callback.getElem?_flatMap_const (reshape e.H e.W c.grid) id e.W (by
          intro l hl
          unfold reshape at hl
          obtain ⟨i, -, rfl⟩ := List.mem_map.mp hl
          simp) (k / e.W) (k % e.W) row hrow hix
        rw [hk'] at this
        rw [this]
        exact h2
    rw [hk] at e1
    exact (Option.some.inj e1).symm
  rw [← this]; exact h3

/-- **C106**: `--cull-random-observations-ratio`: the output has the images that were picked, one after another, in their order, each one with all its lines. But the levels are read as weights (`ImageLines` with kind = weight): see `random_level0_wrong` -/
theorem random_images_partial (e : Env) (lines : List (List Char)) (shots : List Shot) (h : Describes lines shots)
    (hnd : ((kept { e with kind := .weight } shots).map fun s => canonical e s.name).Nodup) (keep : List Nat) (out : List (Name × Num × Num × Option Int)) (hout : cullRandom e keep lines = some out) :
    ∃ (r : Result) (blocks : List (List (Name × Num × Num × Option Int))), compute { e with kind := .weight } lines = some r ∧ out = blocks.flatten ∧ blocks.length = keep.length ∧
      ∀ (j i : Nat), keep[j]? = some i → ∃ s ∈ shots, Kept { e with kind := .weight } s ∧ r.files_sorted[i]? = some (canonical e s.name) ∧ ∃ block, blocks[j]? = some block ∧ ImageLines { e with kind := .weight } s block := by
  unfold cullRandom at hout
  obtain ⟨r, hr, hout⟩ := Option.bind_eq_some_iff.mp hout
  obtain ⟨blocks, hb, rfl⟩ := Option.map_eq_some_iff.mp hout
  obtain ⟨hlen, hget⟩ := mapM_get _ _ _ hb
  refine ⟨r, blocks, hr, rfl, hlen, ?_⟩
  intro j i hji
  obtain ⟨block, hblock, hg⟩ := hget j i hji
  obtain ⟨obs, hobs, hg⟩ := Option.bind_eq_some_iff.mp hg
  obtain ⟨path, hpath, hg⟩ := Option.bind_eq_some_iff.mp hg
  obtain ⟨frame, sorted, a, hL, -, -, -, hent, -, -, hf⟩ := compute_entries { e with kind := .weight } lines shots h hnd r hr
  rw [hf, List.getElem?_map] at hpath
  obtain ⟨⟨f, n, c⟩, hsi, rfl⟩ := Option.map_eq_some_iff.mp hpath
  obtain ⟨-, -, s, hs, hsf, hso⟩ := hent i f n c hsi
  rw [hobs] at hso
  obtain rfl := Option.some.inj hso
  obtain ⟨hfull, x, hx⟩ := hL.full s hs
  obtain ⟨hflat, hreads⟩ := shotGrid_flat _ s x hx hfull
  obtain ⟨hs1, hs2⟩ := (mem_kept _ shots s).mp hs
  refine ⟨s, hs1, hs2, ?_, block, hblock, ?_, ?_⟩
  · rw [hf, List.getElem?_map, hsi]
    exact congrArg some hsf.symm
  · rw [(mapM_get _ _ _ hg).1, hflat]
  · intro k y hy
    have hk : k < (shotGrid { e with kind := .weight } s).flatten.length := by
      rw [← (mapM_get _ _ _ hg).1]; exact (List.getElem?_eq_some_iff.mp hy).1
    obtain ⟨p, hp⟩ : ∃ p, (shotGrid { e with kind := .weight } s).flatten[k]? = some p := ⟨_, List.getElem?_eq_getElem hk⟩
    obtain ⟨y', hy', hl⟩ := (mapM_get _ _ _ hg).2 k p hp
    rw [hy] at hy'
    obtain rfl := Option.some.inj hy'
    obtain ⟨fields, hfields, hR⟩ := hreads k p hp
    obtain ⟨l, hl', rfl⟩ := Option.map_eq_some_iff.mp hl
    exact ⟨fields, p, hfields, hR, hsf.symm, rfl, rfl, hl'⟩

/-- the level of a detected corner that survives: if it's positive -/
theorem level_survives (e : Env) (s : Shot) (block : List (Name × Num × Num × Option Int)) (h : ImageLines { e with kind := .weight } s block) (k : Nat) (x : Name × Num × Num × Option Int) (hx : block[k]? = some x)
    (fx fy fw : Name) (X Y : Num) (level : Nat) (hf : s.rows[k]? = some [fx, fy, fw]) (hx0 : fx ≠ ['-']) (hy0 : fy ≠ ['-']) (hw0 : fw ≠ ['-']) (hX : e.num fx = some X) (hY : e.num fy = some Y)
    (hXn : X.neg = false) (hYn : Y.neg = false) (hL : e.num fw = some (.fin level)) :
    (0 < level → x = (canonical e s.name, X, Y, some (level : Int))) ∧ (level = 0 → x.2.2.2 = none) := by
  obtain ⟨fields, p, h1, h2, h3, h4, h5, h6⟩ := h.2 k x hx
  rw [hf] at h1
  obtain rfl := (Option.some.inj h1).symm
  obtain ⟨n, a, b, l⟩ := x
  simp only at h3 h4 h5 h6
  constructor
  · intro h0
    have hdet : Detected .weight e.num [fx, fy, fw] X Y (.fin level) :=
      ⟨fx, fy, [fw], rfl, hx0, hy0, hX, hY, hXn, hYn, Or.inr ⟨fw, [], .fin level, rfl, hw0, hL, Or.inl ⟨rfl, by simp [Num.nonpos]; omega, rfl⟩⟩⟩
    rcases h2 with h2 | ⟨h2, -⟩
    · obtain ⟨fx', fy', rest, he, -, -, g1, g2, -, -, g3⟩ := h2
      simp only [List.cons.injEq] at he
      obtain ⟨rfl, rfl, rfl⟩ := he
      rcases g3 with ⟨g3 | g3, -⟩ | ⟨fw', more, v, g3, -, g4, g5⟩
      · cases g3
      · cases g3
      · simp only [List.cons.injEq] at g3
        obtain ⟨rfl, -⟩ := g3
        rcases g5 with ⟨-, -, g5⟩ | ⟨g5, -⟩
        · have e1 : p.x = X := by rw [hX] at g1; exact (Option.some.inj g1).symm
          have e2 : p.y = Y := by rw [hY] at g2; exact (Option.some.inj g2).symm
          have e3 : p.w = .fin level := by rw [g5]; rw [hL] at g4; exact (Option.some.inj g4).symm
          rw [e3] at h6
          simp only [levelOut] at h6
          rw [if_neg (by simp)] at h6
          simp only [Option.some.injEq] at h6
          rw [h3, h4, h5, e1, e2, ← h6]
          simp
          rfl
        · cases g5
    · exact absurd hdet (h2 _ _ _)
  · rintro rfl
    show l = none
    rcases h2 with h2 | ⟨-, h2⟩
    · obtain ⟨fx', fy', rest, he, -, -, -, -, -, -, g3⟩ := h2
      simp only [List.cons.injEq] at he
      obtain ⟨rfl, rfl, rfl⟩ := he
      rcases g3 with ⟨g3 | g3, -⟩ | ⟨fw', more, v, g3, -, g4, g5⟩
      · cases g3
      · cases g3
      · simp only [List.cons.injEq] at g3
        obtain ⟨rfl, -⟩ := g3
        rcases g5 with ⟨-, g5, -⟩ | ⟨g5, -⟩
        · rw [hL] at g4
          obtain rfl := Option.some.inj g4
          simp [Num.nonpos] at g5
        · cases g5
    · rw [h2] at h6
      simp only [levelOut] at h6
      rw [if_pos (by norm_num)] at h6
      exact (Option.some.inj h6).symm

/-- **C106**: In a file where all the corners have level 0 (detected at full resolution) there's nothing to pick from: the tool fails, although each corner is good. The levels are read as weights, where 0 means "not detected" -/
theorem random_level0_wrong (e : Env) (hN : e.Ncameras = 1) (hmin : e.min = none) (lines : List (List Char)) (shots : List Shot) (h : Describes lines shots)
    (h0 : ∀ s ∈ shots, ∀ fields ∈ s.rows, ∃ fx fy fw, fields = [fx, fy, fw] ∧ e.num fw = some (.fin 0)) (keep : List Nat) : cullRandom e keep lines = none := by
  have hdet : ∀ s ∈ shots, detections { e with kind := .weight } s = 0 := by
    intro s hs
    unfold detections
    rw [List.countP_eq_zero]
    intro fields hf
    obtain ⟨fx, fy, fw, rfl, hw⟩ := h0 s hs fields hf
    simp only [decide_eq_true_eq, not_exists]
    rintro x y w ⟨fx', fy', rest, he, -, -, -, -, -, -, g3⟩
    simp only [List.cons.injEq] at he
    obtain ⟨rfl, rfl, rfl⟩ := he
    rcases g3 with ⟨g3 | g3, -⟩ | ⟨fw', more, v, g3, -, g4, g5⟩
    · cases g3
    · cases g3
    · simp only [List.cons.injEq] at g3
      obtain ⟨rfl, -⟩ := g3
      rcases g5 with ⟨-, g5, -⟩ | ⟨g5, -⟩
      · have g4 : e.num fw = some v := g4
        rw [hw] at g4
        obtain rfl := Option.some.inj g4
        simp [Num.nonpos] at g5
      · cases g5
  have hkept : kept { e with kind := .weight } shots = [] := by
    unfold kept
    rw [List.filter_eq_nil_iff]
    intro s hs
    simp only [decide_eq_true_eq]
    rintro ⟨-, -, hd, -⟩
    rw [hdet s hs] at hd
    have : (0 : Int) ≤ ({ e with kind := .weight } : Env).minPoints := by
      unfold Env.minPoints
      simp only [hmin, Option.getD_none]
      omega
    simp only [Nat.cast_zero] at hd
    omega
  unfold cullRandom
  cases hr : compute { e with kind := .weight } lines with
  | none => rfl
  | some r =>
    exfalso
    have := (corners_accepted { e with kind := .weight } lines shots h (by rw [hkept]; simp)).mp ⟨r, hr⟩
    have h1 := this.2.1 0 (by show 0 < e.Ncameras; omega)
    unfold pathsOf at h1
    rw [hkept] at h1
    simp only [List.filterMap_nil, List.length_nil] at h1
    rw [if_neg (by show ¬ e.Ncameras > 1; omega)] at h1
    omega

/-! ### what goes wrong -/

/-- **C106**: a point exactly at X is thrown out, though the documentation of --cull-left-of says "x < the given value" -/
theorem left_equal_wrong (X y : ℝ) (level : String) :
    cull (.left X) (fun _ => true) ⟨0, 0, none⟩ [.data "a.jpg" (some (X, y)) (some level)] = [.data "a.jpg" (some (X, y)) none] := by
  rw [cull_data, if_neg (by simp)]
  simp [keeps, cull]

/-- **C106**: `--cull-rad-off-center D` with D<0 beyond half of the diagonal: everything is at most |D| away from the corners, but the points near the center are kept. Here the imager has 3x3 pixels, and the point is in the center -/
theorem rad_negative_wrong : ∃ p, plan ⟨none, some (-100), none, none, none, none, some (3, 3), none⟩ = some p ∧
    cull p (fun _ => true) ⟨0, 0, none⟩ [.data "a.jpg" (some (1, 1)) (some "0")] = [.data "a.jpg" (some (1, 1)) (some "0")] := by
  refine ⟨.radius ((((3 : Int) : ℝ) - 1) / 2, (((3 : Int) : ℝ) - 1) / 2) (Real.sqrt (((3 : Int) : ℝ) * ((3 : Int) : ℝ) + ((3 : Int) : ℝ) * ((3 : Int) : ℝ)) / 2 + -100), ?_, ?_⟩
  · unfold plan
    simp only
    rw [if_neg (by norm_num)]
  · rw [cull_data, if_neg (by simp)]
    have h18 : Real.sqrt (((3 : Int) : ℝ) * ((3 : Int) : ℝ) + ((3 : Int) : ℝ) * ((3 : Int) : ℝ)) ≤ 10 := by
      rw [Real.sqrt_le_left (by norm_num)]
      norm_num
    have h0 := Real.sqrt_nonneg (((3 : Int) : ℝ) * ((3 : Int) : ℝ) + ((3 : Int) : ℝ) * ((3 : Int) : ℝ))
    have : (keeps (.radius ((((3 : Int) : ℝ) - 1) / 2, (((3 : Int) : ℝ) - 1) / 2) (Real.sqrt (((3 : Int) : ℝ) * ((3 : Int) : ℝ) + ((3 : Int) : ℝ) * ((3 : Int) : ℝ)) / 2 + -100)) ⟨0, 0, none⟩ "a.jpg" 1 1).1 = true := by
      unfold keeps
      simp only [decide_eq_true_eq]
      have e : ((1 : ℝ) - (((3 : Int) : ℝ) - 1) / 2) * (1 - (((3 : Int) : ℝ) - 1) / 2) = 0 := by push_cast; norm_num
      rw [e, zero_add]
      generalize Real.sqrt _ = S at h18 h0 ⊢
      exact mul_pos_of_neg_of_neg (by linarith) (by linarith)
    rw [this]
    rfl

/-- **C106**: `--cull-rad-off-center-board`: a corner that wasn't found (its coordinates are '-') isn't counted, so each corner after it is taken for the one before. A 3x1 board, of which the first corner wasn't found: the center is thrown out, and the end is kept -/
theorem board_missing_wrong : cull (.board 3 1 (1 / 2)) (fun _ => true) ⟨0, 0, none⟩ [.data "a.jpg" none none, .data "a.jpg" (some (10, 0)) (some "0"), .data "a.jpg" (some (20, 0)) (some "0")] =
    [.data "a.jpg" none none, .data "a.jpg" (some (10, 0)) none, .data "a.jpg" (some (20, 0)) (some "0")] := by
  have h1 : keeps (.board 3 1 (1 / 2)) ⟨0, 0, none⟩ "a.jpg" 10 0 = (false, ⟨1, 0, some "a.jpg"⟩) := by
    have e1 : newFile ⟨0, 0, none⟩ "a.jpg" = ⟨0, 0, some "a.jpg"⟩ := rfl
    have e2 : nextPt 3 ⟨0, 0, some "a.jpg"⟩ = ⟨1, 0, some "a.jpg"⟩ := rfl
    simp only [keeps, e1, e2, Prod.mk.injEq, and_true, decide_eq_false_iff_not]
    push_cast
    norm_num
  have h2 : (keeps (.board 3 1 (1 / 2)) ⟨1, 0, some "a.jpg"⟩ "a.jpg" 20 0).1 = true := by
    have e1 : newFile ⟨1, 0, some "a.jpg"⟩ "a.jpg" = ⟨1, 0, some "a.jpg"⟩ := newFile_same 1 0 "a.jpg"
    simp only [keeps, e1, decide_eq_true_eq]
    push_cast
    norm_num
  have hd : ∀ s rest, cull (.board 3 1 (1 / 2)) (fun _ => true) s (.data "a.jpg" none none :: rest) = .data "a.jpg" none none :: cull (.board 3 1 (1 / 2)) (fun _ => true) s rest := fun _ _ => rfl
  have ht : ¬ ((fun _ => true : String → Bool) "a.jpg" = false) := by simp
  rw [hd, cull_data, if_neg ht, cull_data, if_neg ht, h1]
  dsimp only
  rw [h2]
  rfl

/-! ### examples -/

/-- the arguments are accepted, and the circle is the one in the middle of a 300x400 imager, for a negative D also -/
example : ∃ p, plan ⟨none, some (-10), none, none, none, none, some (300, 400), none⟩ = some p ∧ Circle ⟨none, some (-10), none, none, none, none, some (300, 400), none⟩ (((300 : Int) - 1) / 2, ((400 : Int) - 1) / 2) (Real.sqrt (((300 : Int) : ℝ) ^ 2 + ((400 : Int) : ℝ) ^ 2) / 2 - |(-10)|) ∧
    (0 : ℝ) ≤ Real.sqrt (((300 : Int) : ℝ) ^ 2 + ((400 : Int) : ℝ) ^ 2) / 2 - |(-10)| := by
  have hp : ∃ p, plan ⟨none, some (-10), none, none, none, none, some (300, 400), none⟩ = some p := by
    have hn : ¬ (0 : ℝ) ≤ -10 := by norm_num
    simp only [plan, hn, if_false, Option.some.injEq, exists_eq']
  obtain ⟨p, hp⟩ := hp
  refine ⟨p, hp, ⟨-10, rfl, Or.inr ⟨by norm_num, rfl, 300, 400, rfl, rfl, rfl⟩⟩, ?_⟩
  have : (100 : ℝ) ≤ Real.sqrt (((300 : Int) : ℝ) ^ 2 + ((400 : Int) : ℝ) ^ 2) := by
    apply Real.le_sqrt_of_sq_le
    push_cast
    norm_num
  generalize Real.sqrt _ = S at this ⊢
  rw [abs_of_neg (by norm_num)]
  linarith

/-- `cull_board_partial` applies, for an image after another one -/
example : plan ⟨none, none, some 2, none, some 10, none, none, none⟩ = some (.board 10 10 2) ∧
    (([.data "a.jpg" (some (1, 2)) none] : List Line).filterMap (pointFile fun _ => true)).getLast? ≠ some "b.jpg" := by
  constructor
  · rfl
  · simp [pointFile]

/-- `random_level0_wrong` is about something: this file has two images that are fine if the levels are read as levels, but not for this tool -/
def level0Lines : List (List Char) := ["img9.jpg 11 20 0\n".toList, "img9.jpg 31 20 0\n".toList, "img9.jpg 51 20 0\n".toList, "img9.jpg 11 40 0\n".toList, "img9.jpg 31 40 0\n".toList, "img9.jpg 51 40 0\n".toList]

def level0Shot : Shot := ⟨"img9.jpg".toList, [["11".toList, "20".toList, "0".toList], ["31".toList, "20".toList, "0".toList], ["51".toList, "20".toList, "0".toList], ["11".toList, "40".toList, "0".toList], ["31".toList, "40".toList, "0".toList], ["51".toList, "40".toList, "0".toList]]⟩

theorem level0_words : (level0Lines.filter fun l => !comment l).map words = [level0Shot].flatMap fun s => s.rows.map (s.name :: ·) := by decide +kernel

theorem level0_rows : (level0Shot.rows.length, level0Shot.rows.map fun f => (f.length, f[2]?.bind exNum)) = (6, List.replicate 6 (3, some (.fin 0))) := by decide +kernel

theorem level0_describes : Describes level0Lines [level0Shot] := by
  refine ⟨level0_words, ?_, .singleton _⟩
  intro s hs
  obtain rfl := List.eq_of_mem_singleton hs
  intro h
  have := (Prod.mk.inj level0_rows).1
  rw [h] at this
  cases this

theorem level0_accepted : (compute exEnv level0Lines).isSome = true := by decide +kernel

theorem level0_fails (keep : List Nat) : cullRandom exEnv keep level0Lines = none := by
  apply random_level0_wrong exEnv (by decide) (by rfl) level0Lines [level0Shot] level0_describes
  intro s hs fields hf
  obtain rfl := List.eq_of_mem_singleton hs
  have h := (Prod.mk.inj level0_rows).2
  have hm := List.mem_map_of_mem (f := fun f => (f.length, f[2]?.bind exNum)) hf
  rw [h] at hm
  have hm := List.eq_of_mem_replicate hm
  obtain ⟨h3, hl⟩ := Prod.mk.inj hm
  match fields, h3, hl with
  | [fx, fy, fw], _, hl => exact ⟨fx, fy, fw, rfl, hl⟩

end Mrcal.CornerTools

import Verif.Props.FrameNumberProps
import Mathlib.Data.List.Nodup
/-
compute_chessboard_corners(): which corners of which images are reported
-/
namespace Mrcal.Corners

/-- Spec: the lines of one image in the file: the file name, and the columns after it -/
structure Shot where
  name : Name
  rows : List (List Name)

/-- Spec: the file has the data of these images, one after another. Comment lines don't count -/
structure Describes (lines : List (List Char)) (shots : List Shot) : Prop where
  lines : (lines.filter fun l => !comment l).map words = shots.flatMap fun s => s.rows.map (s.name :: ·)
  nonempty : ∀ s ∈ shots, s.rows ≠ []
  separate : shots.IsChain fun a b => a.name ≠ b.name

/-- Spec: this row is a detected corner, with this weight: its coordinates are given and aren't negative. The weight is 1 if there's no column for it or if the column is to be ignored, it's the given positive weight, or 1/2^level -/
def Detected (kind : Kind) (num : Name → Option Num) (fields : List Name) (x y w : Num) : Prop :=
  ∃ fx fy rest, fields = fx :: fy :: rest ∧ fx ≠ ['-'] ∧ fy ≠ ['-'] ∧ num fx = some x ∧ num fy = some y ∧ x.neg = false ∧ y.neg = false
    ∧ ((rest = [] ∨ kind = .ignored) ∧ w = .fin 1
      ∨ ∃ fw more v, rest = fw :: more ∧ fw ≠ ['-'] ∧ num fw = some v
        ∧ (kind = .weight ∧ v.nonpos = false ∧ w = v ∨ kind = .level ∧ ∃ q, v = .fin q ∧ 0 ≤ q ∧ w = .fin (1 / 2 ^ ⌊q⌋.toNat)))

/-- Spec: what the array has for this row: the detected corner, or a negative weight -/
def Reads (e : Env) (fields : List Name) (p : Pt) : Prop :=
  Detected e.kind e.num fields p.x p.y p.w ∨ ((∀ x y w, ¬ Detected e.kind e.num fields x y w) ∧ p.w = .fin (-1))

open Classical in
/-- Spec: the number of corners detected in an image -/
noncomputable def detections (e : Env) (s : Shot) : Nat := s.rows.countP fun fields => decide (∃ x y w, Detected e.kind e.num fields x y w)

/-- Spec: this is the first camera whose glob matches the path -/
def CameraOf (e : Env) (f : Name) (c : Nat) : Prop := c < e.Ncameras ∧ e.glob c f = true ∧ ∀ c' < c, e.glob c' f = false

/-- Spec: the images to report: those with a board, with more than the minimal number of corners, that aren't excluded, and that belong to some camera -/
def Kept (e : Env) (s : Shot) : Prop :=
  1 < s.rows.length ∧ e.excluded s.name = false ∧ (detections e s : Int) > e.minPoints ∧ ∃ c, CameraOf e (canonical e s.name) c

/-- **The meaning of the columns**: a point that's reported as valid is a detected corner, and any other point has weight -1 -/
theorem point_meaning (kind : Kind) (num : Name → Option Num) (fields : List Name) (p : Pt) (b : Bool) (h : parsePoint kind num fields = some (p, b)) :
    (b = true → Detected kind num fields p.x p.y p.w) ∧ (b = false → p.w = .fin (-1) ∧ ∀ x y w, ¬ Detected kind num fields x y w) := by
  rcases fields with _ | ⟨fx, _ | ⟨fy, rest⟩⟩
  · simp [parsePoint] at h
  · simp [parsePoint] at h
  unfold parsePoint at h
  dsimp only at h
  by_cases hd : fx = ['-'] ∨ fy = ['-']
  · rw [if_pos hd] at h
    obtain ⟨rfl, rfl⟩ := Prod.mk.inj (Option.some.inj h)
    refine ⟨by simp, fun _ => ⟨rfl, ?_⟩⟩
    rintro x y w ⟨fx', fy', rest', e, h1, h2, -⟩
    simp at e
    obtain ⟨rfl, rfl, rfl⟩ := e
    exact hd.elim h1 h2
  rw [if_neg hd] at h
  rw [not_or] at hd
  rcases hx : num fx with _ | x
  · simp [hx] at h
  rcases hy : num fy with _ | y
  · simp [hx, hy] at h
  simp only [hx, hy, Option.bind_some] at h
  have split : ∀ x' y' w, Detected kind num (fx :: fy :: rest) x' y' w ↔ x' = x ∧ y' = y ∧ x.neg = false ∧ y.neg = false ∧ ((rest = [] ∨ kind = .ignored) ∧ w = .fin 1
      ∨ ∃ fw more v, rest = fw :: more ∧ fw ≠ ['-'] ∧ num fw = some v
        ∧ (kind = .weight ∧ v.nonpos = false ∧ w = v ∨ kind = .level ∧ ∃ q, v = .fin q ∧ 0 ≤ q ∧ w = .fin (1 / 2 ^ ⌊q⌋.toNat))) := by
    intro x' y' w
    constructor
    · rintro ⟨fx', fy', rest', e, -, -, e1, e2, h3, h4, h5⟩
      simp at e
      obtain ⟨rfl, rfl, rfl⟩ := e
      have a1 : x = x' := Option.some.inj (hx.symm.trans e1)
      have a2 : y = y' := Option.some.inj (hy.symm.trans e2)
      subst a1 a2
      exact ⟨rfl, rfl, h3, h4, h5⟩
    · rintro ⟨rfl, rfl, h3, h4, h5⟩
      exact ⟨fx, fy, rest, rfl, hd.1, hd.2, hx, hy, h3, h4, h5⟩
  by_cases hneg : (x.neg || y.neg) = true
  · rw [if_pos hneg] at h
    obtain ⟨rfl, rfl⟩ := Prod.mk.inj (Option.some.inj h)
    refine ⟨by simp, fun _ => ⟨rfl, ?_⟩⟩
    intro x' y' w hD
    obtain ⟨-, -, h3, h4, -⟩ := (split _ _ _).mp hD
    simp [h3, h4] at hneg
  rw [if_neg hneg] at h
  simp only [Bool.or_eq_true, not_or, Bool.not_eq_true] at hneg
  rcases rest with _ | ⟨fw, more⟩
  · obtain ⟨rfl, rfl⟩ := Prod.mk.inj (Option.some.inj h)
    exact ⟨fun _ => (split _ _ _).mpr ⟨rfl, rfl, hneg.1, hneg.2, Or.inl ⟨Or.inl rfl, rfl⟩⟩, by simp⟩
  by_cases hk : kind = .ignored
  · subst hk
    obtain ⟨rfl, rfl⟩ := Prod.mk.inj (Option.some.inj h)
    exact ⟨fun _ => (split _ _ _).mpr ⟨rfl, rfl, hneg.1, hneg.2, Or.inl ⟨Or.inr rfl, rfl⟩⟩, by simp⟩
  have h : (if fw = ['-'] then some (({ invalid with x := x, y := y } : Pt), false)
            else
              (num fw).bind fun w =>
                if kind = .weight then
                  if w.nonpos then some (({ invalid with x := x, y := y } : Pt), false) else some ({ invalid with x := x, y := y, w := w }, true)
                else
                  if w.neg then some (({ invalid with x := x, y := y } : Pt), false) else (levelWeight w).map fun l => ({ invalid with x := x, y := y, w := l }, true)) = some (p, b) := by
    cases kind
    · exact h
    · exact h
    · exact absurd rfl hk
  by_cases hf : fw = ['-']
  · rw [if_pos hf] at h
    obtain ⟨rfl, rfl⟩ := Prod.mk.inj (Option.some.inj h)
    refine ⟨by simp, fun _ => ⟨rfl, ?_⟩⟩
    intro x' y' w hD
    obtain ⟨-, -, -, -, h5⟩ := (split _ _ _).mp hD
    rcases h5 with ⟨h5 | h5, -⟩ | ⟨fw', more', v, e, h6, -⟩
    · simp at h5
    · exact hk h5
    · simp at e
      exact h6 (e.1 ▸ hf)
  rw [if_neg hf] at h
  rcases hw : num fw with _ | w
  · simp [hw] at h
  simp only [hw, Option.bind_some] at h
  have split2 : ∀ w', ((fw :: more = [] ∨ kind = .ignored) ∧ w' = .fin 1
      ∨ ∃ fw' more' v, fw :: more = fw' :: more' ∧ fw' ≠ ['-'] ∧ num fw' = some v
        ∧ (kind = .weight ∧ v.nonpos = false ∧ w' = v ∨ kind = .level ∧ ∃ q, v = .fin q ∧ 0 ≤ q ∧ w' = .fin (1 / 2 ^ ⌊q⌋.toNat)))
      ↔ (kind = .weight ∧ w.nonpos = false ∧ w' = w ∨ kind = .level ∧ ∃ q, w = .fin q ∧ 0 ≤ q ∧ w' = .fin (1 / 2 ^ ⌊q⌋.toNat)) := by
    intro w'
    constructor
    · rintro (⟨h5 | h5, -⟩ | ⟨fw', more', v, e, -, h7, h8⟩)
      · simp at h5
      · exact absurd h5 hk
      · simp at e
        obtain ⟨rfl, rfl⟩ := e
        have : w = v := Option.some.inj (hw.symm.trans h7)
        subst this
        exact h8
    · intro h8
      exact Or.inr ⟨fw, more, w, rfl, hf, hw, h8⟩
  by_cases hkw : kind = .weight
  · rw [if_pos hkw] at h
    by_cases hn : w.nonpos = true
    · rw [if_pos hn] at h
      obtain ⟨rfl, rfl⟩ := Prod.mk.inj (Option.some.inj h)
      refine ⟨by simp, fun _ => ⟨rfl, ?_⟩⟩
      intro x' y' w' hD
      obtain ⟨-, -, -, -, h5⟩ := (split _ _ _).mp hD
      rcases (split2 w').mp h5 with ⟨-, h6, -⟩ | ⟨h6, -⟩
      · rw [hn] at h6; cases h6
      · rw [hkw] at h6; cases h6
    · rw [if_neg hn] at h
      obtain ⟨rfl, rfl⟩ := Prod.mk.inj (Option.some.inj h)
      exact ⟨fun _ => (split _ _ _).mpr ⟨rfl, rfl, hneg.1, hneg.2, (split2 _).mpr (Or.inl ⟨hkw, by simpa using hn, rfl⟩)⟩, by simp⟩
  · have hkl : kind = .level := by cases kind <;> simp_all
    rw [if_neg hkw] at h
    by_cases hn : w.neg = true
    · rw [if_pos hn] at h
      obtain ⟨rfl, rfl⟩ := Prod.mk.inj (Option.some.inj h)
      refine ⟨by simp, fun _ => ⟨rfl, ?_⟩⟩
      intro x' y' w' hD
      obtain ⟨-, -, -, -, h5⟩ := (split _ _ _).mp hD
      rcases (split2 w').mp h5 with ⟨h6, -⟩ | ⟨-, q, rfl, h6, -⟩
      · exact hkw h6
      · simp only [Num.neg, decide_eq_true_eq] at hn; exact absurd hn (not_lt.mpr h6)
    · rw [if_neg hn] at h
      rcases w with q | _ | _ | _
      · by_cases hbig : 1024 ≤ ⌊q⌋
        · simp [levelWeight, hbig] at h
        · have hlw : levelWeight (.fin q) = some (.fin (1 / 2 ^ ⌊q⌋.toNat)) := by simp only [levelWeight]; rw [if_neg hbig]
          rw [hlw] at h
          obtain ⟨rfl, rfl⟩ := Prod.mk.inj (Option.some.inj h)
          refine ⟨fun _ => (split _ _ _).mpr ⟨rfl, rfl, hneg.1, hneg.2, (split2 _).mpr (Or.inr ⟨hkl, q, rfl, ?_, rfl⟩)⟩, by simp⟩
          simpa [Num.neg] using hn
      all_goals simp [levelWeight] at h

theorem parse_detected (kind : Kind) (num : Name → Option Num) (fields : List Name) (p : Pt) (b : Bool) (h : parsePoint kind num fields = some (p, b)) :
    b = true ↔ ∃ x y w, Detected kind num fields x y w := by
  obtain ⟨h1, h2⟩ := point_meaning kind num fields p b h
  constructor
  · intro hb; exact ⟨_, _, _, h1 hb⟩
  · rintro ⟨x, y, w, hD⟩
    cases b
    · exact absurd hD ((h2 rfl).2 x y w)
    · rfl

theorem parse_reads (e : Env) (fields : List Name) (p : Pt) (b : Bool) (h : parsePoint e.kind e.num fields = some (p, b)) : Reads e fields p := by
  obtain ⟨h1, h2⟩ := point_meaning e.kind e.num fields p b h
  cases b
  · exact Or.inr ⟨(h2 rfl).2, (h2 rfl).1⟩
  · exact Or.inl (h1 rfl)

theorem camera_iff (e : Env) (f : Name) (c : Nat) : camera e f = some c ↔ CameraOf e f c := by
  unfold camera CameraOf
  rw [List.find?_range_eq_some]
  constructor
  · rintro ⟨h1, h2, h3⟩
    exact ⟨by simpa using h2, h1, fun c' hc => by simpa using h3 c' hc⟩
  · rintro ⟨h1, h2, h3⟩
    exact ⟨h2, by simpa using h1, fun c' hc => by simpa using h3 c' hc⟩

/-! Reading the lines -/

/-- the rows of one image -/
def load (e : Env) (c : Context) : List (List Name) → Option Context
  | [] => some c
  | fields :: rest =>
    if fields.length = 2 ∨ fields.length = 3 then
      if c.igrid < c.grid.length then
        (parsePoint e.kind e.num fields).bind fun p =>
          load e { c with igrid := c.igrid + 1, Nvalidpoints := if p.2 then c.Nvalidpoints + 1 else c.Nvalidpoints, grid := c.grid.set c.igrid p.1 } rest
      else none
    else none

/-- all the rows -/
def rowsW (e : Env) : List (List Name) → Context × Acc → Option (Context × Acc)
  | [], s => some s
  | ws :: rest, s => (row e s ws).bind (rowsW e rest)

theorem rows_words (e : Env) (lines : List (List Char)) : ∀ s, rows e lines s = rowsW e ((lines.filter fun l => !comment l).map words) s := by
  induction lines with
  | nil => intro s; rfl
  | cons l lines ih =>
    intro s
    by_cases hc : comment l = true
    · simp only [rows, hc, if_true, List.filter_cons, Bool.not_true, Bool.false_eq_true, if_false]
      exact ih s
    · simp only [rows, hc, List.filter_cons, Bool.not_false, Bool.false_eq_true, if_false, if_true, List.map_cons, rowsW]
      congr 1
      funext s
      exact ih s

theorem rowsW_append (e : Env) (a b : List (List Name)) : ∀ s, rowsW e (a ++ b) s = (rowsW e a s).bind (rowsW e b) := by
  induction a with
  | nil => intro s; rfl
  | cons x a ih =>
    intro s
    simp only [List.cons_append, rowsW]
    rcases row e s x with _ | s'
    · rfl
    · exact ih s'

/-- the rest of the rows of an image -/
theorem rowsW_load (e : Env) (fs : List (List Name)) : ∀ (c : Context) (a : Acc), rowsW e (fs.map (c.f :: ·)) (c, a) = (load e c fs).map fun c => (c, a) := by
  induction fs with
  | nil => intro c a; rfl
  | cons fields fs ih =>
    intro c a
    simp only [List.map_cons, rowsW, row, load, ne_eq, not_true_eq_false, if_false, Option.bind_some]
    by_cases h1 : fields.length = 2 ∨ fields.length = 3
    · by_cases h2 : c.igrid < c.grid.length
      · rcases h3 : parsePoint e.kind e.num fields with _ | p
        · simp [h1, h2]
        · simp only [h1, h2, if_true, Option.map_some, Option.bind_some]
          exact ih { c with igrid := c.igrid + 1, Nvalidpoints := if p.2 then c.Nvalidpoints + 1 else c.Nvalidpoints, grid := c.grid.set c.igrid p.1 } a
      · simp [h1, h2]
    · simp [h1]

/-- all the rows of an image, after some other image -/
theorem rowsW_shot (e : Env) (s : Shot) (hs : s.rows ≠ []) (c : Context) (a : Acc) (hc : c.f ≠ s.name) :
    rowsW e (s.rows.map (s.name :: ·)) (c, a) = (finish e c a).bind fun a => (load e { context0 e with f := s.name } s.rows).map fun c => (c, a) := by
  rcases hr : s.rows with _ | ⟨fields, fs⟩
  · exact absurd hr hs
  simp only [List.map_cons, rowsW, row, hc, ne_eq, not_false_eq_true, if_true]
  rcases finish e c a with _ | a'
  · rfl
  · simp only [Option.map_some, Option.bind_some, load]
    by_cases h1 : fields.length = 2 ∨ fields.length = 3
    · by_cases h2 : (context0 e).igrid < (context0 e).grid.length
      · rcases h3 : parsePoint e.kind e.num fields with _ | p
        · simp [h1, h2]
        · simp only [h1, h2, if_true, Option.map_some, Option.bind_some]
          exact rowsW_load e fs { context0 e with f := s.name, igrid := (context0 e).igrid + 1, Nvalidpoints := if p.2 then (context0 e).Nvalidpoints + 1 else (context0 e).Nvalidpoints, grid := (context0 e).grid.set (context0 e).igrid p.1 } a'
      · simp [h1, h2]
    · simp [h1]

theorem load_f (e : Env) (fs : List (List Name)) : ∀ (c c' : Context), load e c fs = some c' → c'.f = c.f := by
  induction fs with
  | nil => intro c c' h; simp [load] at h; rw [h]
  | cons fields fs ih =>
    intro c c' h
    unfold load at h
    split_ifs at h
    rcases hp : parsePoint e.kind e.num fields with _ | p
    · simp [hp] at h
    · rw [hp, Option.bind_some] at h
      have := ih _ _ h
      exact this

/-- one image -/
def step (e : Env) (a : Acc) (s : Shot) : Option Acc := (load e { context0 e with f := s.name } s.rows).bind fun c => finish e c a

theorem rowsW_shots (e : Env) (shots : List Shot) : ∀ (c : Context) (a : Acc), (∀ s ∈ shots, s.rows ≠ []) → shots.IsChain (fun a b => a.name ≠ b.name) → (∀ s, shots.head? = some s → c.f ≠ s.name) →
    ((rowsW e (shots.flatMap fun s => s.rows.map (s.name :: ·)) (c, a)).bind fun s => finish e s.1 s.2) = (finish e c a).bind fun a => shots.foldlM (step e) a := by
  induction shots with
  | nil =>
    intro c a _ _ _
    simp only [List.flatMap_nil, rowsW, Option.bind_some, List.foldlM_nil]
    rcases finish e c a with _ | a' <;> rfl
  | cons s shots ih =>
    intro c a hne hch hc
    have htail : shots.IsChain fun a b => a.name ≠ b.name := by
      cases shots with
      | nil => exact .nil
      | cons s2 shots => exact (List.isChain_cons_cons.mp hch).2
    rw [List.flatMap_cons, rowsW_append, rowsW_shot e s (hne s (by simp)) c a (hc s rfl)]
    rcases hf : finish e c a with _ | a'
    · rfl
    · simp only [Option.bind_some, List.foldlM_cons]
      rcases hl : load e { context0 e with f := s.name } s.rows with _ | c'
      · have : step e a' s = none := by unfold step; rw [hl]; rfl
        rw [this]; rfl
      · have hs : step e a' s = finish e c' a' := by unfold step; rw [hl]; rfl
        have := ih c' a' (fun s hs => hne s (by simp [hs])) htail (by
          intro s' hs'
          rw [load_f e _ _ _ hl]
          rcases shots with _ | ⟨s2, shots⟩
          · simp at hs'
          · simp at hs'
            subst hs'
            exact (List.isChain_cons_cons.mp hch).1)
        rw [hs]
        simp only [Option.map_some, Option.bind_some]
        rw [this]
        rfl

theorem words_nonempty (l : List Char) (w : Name) (h : w ∈ words l) : w ≠ [] := by
  unfold words at h
  rw [List.mem_filter] at h
  rintro rfl
  simp at h

/-- **The file is processed image by image** -/
theorem observations_steps (e : Env) (lines : List (List Char)) (shots : List Shot) (h : Describes lines shots) :
    cornerObservations e lines = (shots.foldlM (step e) ⟨List.replicate e.Ncameras [], []⟩).bind fun a =>
      if a.files.any fun l => l.length < (if a.files.length > 1 then 2 else 1) then none else some a := by
  unfold cornerObservations
  rw [rows_words, h.lines]
  have h0 : finish e (context0 e) ⟨List.replicate e.Ncameras [], []⟩ = some ⟨List.replicate e.Ncameras [], []⟩ := by
    unfold finish context0
    simp
  have := rowsW_shots e shots (context0 e) ⟨List.replicate e.Ncameras [], []⟩ h.nonempty h.separate (by
    intro s hs
    rcases shots with _ | ⟨s', shots⟩
    · simp at hs
    · simp at hs
      subst hs
      have hn := h.nonempty s' (by simp)
      rcases hr : s'.rows with _ | ⟨fields, fs⟩
      · exact absurd hr hn
      have hl := h.lines
      rw [List.flatMap_cons, hr, List.map_cons] at hl
      rcases hm : lines.filter fun l => !comment l with _ | ⟨l, ls⟩
      · rw [hm] at hl; simp at hl
      · rw [hm] at hl
        simp only [List.map_cons, List.cons_append, List.cons.injEq] at hl
        intro hname
        exact words_nonempty l s'.name (by rw [hl.1]; simp) hname.symm)
  rw [h0, Option.bind_some] at this
  rw [← this]
  rw [Option.bind_assoc]

end Mrcal.Corners

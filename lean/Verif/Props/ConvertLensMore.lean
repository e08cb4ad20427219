import Verif.Props.ConvertLensProps
/-
C116: more about mrcal-convert-lensmodel: the default margin, the parameters that the first solve starts from, the corners that are aligned
-/
namespace Mrcal.Convert

open Mrcal Mrcal.Pose
open Mrcal.Calibrate (Corner)

/-- **C116**: without --radius the margin is a quarter of the smaller dimension, rounded up to a pixel, whether --where is given or not; and a --where that isn't the centre is an error then -/
theorem default_margin (a : Args) (size : Int × Int) (ha : a.radius = none) :
    (radiusOf a size = none ↔ ∃ w, a.whr = some w ∧ 1e-3 < dist2 w (centre size)) ∧
    ∀ r, radiusOf a size = some r → ∃ m : Int, r = -m ∧ min size.1 size.2 ≤ 4 * m ∧ 4 * m < min size.1 size.2 + 4 := by
  have key : ∀ r, r = (((-(min size.1 size.2)) / 4 : Int) : ℝ) → ∃ m : Int, r = -m ∧ min size.1 size.2 ≤ 4 * m ∧ 4 * m < min size.1 size.2 + 4 := by
    rintro r rfl
    exact ⟨-((-(min size.1 size.2)) / 4), by push_cast; ring, by omega, by omega⟩
  unfold radiusOf
  rw [ha]
  dsimp only
  cases hw : a.whr with
  | none =>
    dsimp only
    refine ⟨⟨fun h => (by cases h), fun ⟨w, h, _⟩ => (by cases h)⟩, fun r h => key r (Option.some.inj h).symm⟩
  | some w =>
    dsimp only
    by_cases hd : dist2 w (centre size) > 1e-3
    · rw [if_pos hd]
      exact ⟨⟨fun _ => ⟨w, rfl, hd⟩, fun _ => rfl⟩, fun r h => by cases h⟩
    · rw [if_neg hd]
      refine ⟨⟨fun h => (by cases h), ?_⟩, fun r h => key r (Option.some.inj h).symm⟩
      rintro ⟨w', h, h'⟩
      injection h with h
      exact absurd (h ▸ h') hd

/-- non-trivial case of `default_margin`: 640x480 -/
example (a : Args) (ha : a.radius = none) (hw : a.whr = none) : radiusOf a (640, 480) = some (-120) := by
  unfold radiusOf
  rw [ha, hw]
  norm_num

/-- **C116**: the first solve starts from the focal lengths and the centre of the given model, without any distortion; the number of parameters is that of the new lens -/
theorem start_core (lens : Lens) (k : List ℝ) (hk : 4 ≤ k.length) :
    (startIntr lens k).length = 4 + numDistortions lens ∧ (∀ j < 4, (startIntr lens k)[j]? = k[j]?) ∧ ∀ j, 4 ≤ j → j < 4 + numDistortions lens → (startIntr lens k)[j]? = some 0 := by
  have hl : (k.take 4).length = 4 := by rw [List.length_take]; omega
  unfold startIntr
  refine ⟨by rw [List.length_append, hl, List.length_replicate], fun j hj => ?_, fun j hj hj' => ?_⟩
  · rw [List.getElem?_append_left (by omega), List.getElem?_take, if_pos hj]
  · rw [List.getElem?_append_right (by omega), hl, List.getElem?_replicate, if_pos (by omega)]

/-- non-trivial case of `start_core` -/
example : startIntr .opencv4 [1000, 1001, 320, 240, 0.1] = [1000, 1001, 320, 240, 0, 0, 0, 0] := by
  unfold startIntr
  have : numDistortions .opencv4 = 4 := by decide
  rw [this]; rfl

theorem mapM_index {α β : Type} (f : α → Option β) : ∀ (l : List α) (m : List β), l.mapM f = some m → ∀ i : Nat, m[i]? = l[i]?.bind f := by
  intro l
  induction l with
  | nil => intro m h i; simp at h; subst h; simp
  | cons a l ih =>
    intro m h i
    rw [List.mapM_cons] at h
    obtain ⟨b, hb, h⟩ := Option.bind_eq_some_iff.1 h
    obtain ⟨m', hm', h⟩ := Option.bind_eq_some_iff.1 h
    injection h with h
    subst h
    cases i with
    | zero => simp [hb]
    | succ i => simpa using ih m' hm' i

/-- **C116**: the points that are aligned before and after: those of the boards that this camera sees, where the corner is selected -/
theorem hypothesis_points (env : Env) (I : Inputs) (icam : Int) (mask : List (List Bool)) (l : List P3) (h : hypothesis env I icam mask = some l) (p : P3) :
    p ∈ l ↔ ∃ (i j : Nat) (b : Board) (ps : List P3) (m : List Bool), I.boards[i]? = some b ∧ b.icamI = icam ∧ boardPoints env I b = some ps ∧ mask[i]? = some m ∧ ps[j]? = some p ∧ m[j]? = some true := by
  unfold hypothesis at h
  obtain ⟨P, hP, h⟩ := Option.bind_eq_some_iff.1 h
  injection h with h
  subst h
  have hi := mapM_index _ _ _ hP
  rw [List.mem_flatMap]
  constructor
  · rintro ⟨⟨b, ps, m⟩, hx, hp⟩
    obtain ⟨i, hx⟩ := List.mem_iff_getElem?.1 hx
    rw [List.getElem?_zip_eq_some, List.getElem?_zip_eq_some] at hx
    obtain ⟨x1, x2, x3⟩ := hx
    dsimp only at x1 x2 x3 hp
    split_ifs at hp with hc
    · rw [List.mem_filterMap] at hp
      obtain ⟨⟨y, s⟩, hy, hs⟩ := hp
      obtain ⟨j, hy⟩ := List.mem_iff_getElem?.1 hy
      rw [List.getElem?_zip_eq_some] at hy
      dsimp only at hy hs
      split_ifs at hs with hs'
      injection hs with hs
      subst hs
      refine ⟨i, j, b, ps, m, x1, hc, ?_, x3, hy.1, by rw [hy.2, hs']⟩
      have := hi i
      rw [x2, x1] at this
      exact this.symm
    · simp at hp
  · rintro ⟨i, j, b, ps, m, x1, hc, hb, x3, y1, y2⟩
    refine ⟨(b, ps, m), ?_, ?_⟩
    · apply List.mem_iff_getElem?.2
      refine ⟨i, ?_⟩
      rw [List.getElem?_zip_eq_some, List.getElem?_zip_eq_some]
      exact ⟨x1, by rw [hi i, x1]; exact hb, x3⟩
    · dsimp only
      rw [if_pos hc, List.mem_filterMap]
      refine ⟨(p, true), List.mem_iff_getElem?.2 ⟨j, ?_⟩, by simp⟩
      rw [List.getElem?_zip_eq_some]
      exact ⟨y1, y2⟩

/-- non-trivial case of `hypothesis_points`: three boards seen by three cameras; the first camera has two corners, and one is selected -/
example : ∃ p, hypothesis { exEnv with object := fun _ => [⟨0, 0, 0⟩, ⟨1, 0, 0⟩] } exInputs 0 [[false, true], [true, true], [true, true]] = some [p] := ⟨_, rfl⟩

end Mrcal.Convert

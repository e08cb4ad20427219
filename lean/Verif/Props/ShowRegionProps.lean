import Verif.Model.ShowRegion
import Mathlib.Tactic
/-
C131: the valid-intrinsics region in plots and images.
-/
namespace Mrcal.ShowRegion
open Mrcal

theorem empty_iff (m : Cam) : m.empty = true ↔ m.region = some [] := by
  unfold Cam.empty
  cases hr : m.region with
  | none => simp
  | some l => cases l <;> simp

/-- what the names are before any is marked -/
def given (models : List Cam) (names : Option Names) : List String :=
  match names with
  | some n => n.get
  | none => defaultNames models.length

theorem show_parts (models : List Cam) (names : Option Names) (title : Option (Option String)) (extra : Option String) (s : Shown) (h : showRegion models names title extra = some s) :
    (∀ n, names = some n → n.get.length = models.length) ∧ models ≠ [] ∧ (∀ m ∈ models, ∀ m' ∈ models, m.W = m'.W ∧ m.H = m'.H) ∧ (∀ m ∈ models, m.region ≠ none) ∧
    (∀ t, names = some (.tuple t) → ∀ m ∈ models, m.region ≠ some []) ∧
    s.curves = List.zipWith (fun m n => ⟨shown m, n⟩) models (marked models (given models names)) ∧
    s.title = (match title with | some t => t | none => some (match extra with | some e => "Valid-intrinsics region" ++ ": " ++ e | none => "Valid-intrinsics region")) ∧
    s.after = names.map fun n => match n with | .list _ => Names.list (marked models (given models names)) | .tuple t => Names.tuple t := by
  unfold showRegion at h
  rw [Option.ite_none_left_eq_some] at h
  obtain ⟨h1, h⟩ := h
  cases models with
  | nil => cases h
  | cons m0 rest =>
    dsimp only at h
    rw [Option.ite_none_left_eq_some, Option.ite_none_left_eq_some, Option.ite_none_left_eq_some] at h
    obtain ⟨h2, h3, h4, h⟩ := h
    simp only [Option.some.injEq] at h
    refine ⟨?_, by simp, ?_, ?_, ?_, ?_, ?_, ?_⟩
    · rintro n rfl
      simpa using h1
    · have h0 : ∀ m ∈ m0 :: rest, m.W = m0.W ∧ m.H = m0.H := by
        intro m hm
        rcases List.mem_cons.1 hm with rfl | hm
        · exact ⟨rfl, rfl⟩
        · by_contra hne
          apply h2
          rw [List.any_eq_true]
          refine ⟨m, hm, ?_⟩
          simp only [decide_eq_true_eq]
          by_cases hw : m.W = m0.W
          · exact Or.inr fun hh => hne ⟨hw, hh⟩
          · exact Or.inl hw
      intro m hm m' hm'
      have a := h0 m hm
      have b := h0 m' hm'
      exact ⟨a.1.trans b.1.symm, a.2.trans b.2.symm⟩
    · intro m hm hn
      apply h3
      rw [List.any_eq_true]
      exact ⟨m, hm, by simp [hn]⟩
    · rintro t rfl m hm he
      apply h4
      rw [List.any_eq_true]
      exact ⟨m, hm, (empty_iff m).2 he⟩
    · subst h; rfl
    · subst h; cases title <;> cases extra <;> rfl
    · subst h; cases names <;> rfl

/-- C131: the plot has one curve for each model, in order. It's the region of that model, titled with its name; a region with no area is a point at the corner of the imager and is said to be empty -/
theorem curves_meaning (models : List Cam) (names : Option Names) (title : Option (Option String)) (extra : Option String) (s : Shown) (h : showRegion models names title extra = some s) :
    s.curves.length = models.length ∧ ∀ (i : Nat) (m : Cam), models[i]? = some m → ∃ (n : String) (r : List P2) (c : Curve),
      (∀ nn, names = some nn → nn.get[i]? = some n) ∧ (names = none → n = "Model " ++ toString i) ∧ m.region = some r ∧ s.curves[i]? = some c ∧
      (r ≠ [] → c.points = r ∧ c.legend = n) ∧ (r = [] → c.points = [⟨0, 0⟩] ∧ c.legend = n ++ ": empty") := by
  obtain ⟨h1, _, _, h4, _, h6, _, _⟩ := show_parts _ _ _ _ _ h
  have hl : (given models names).length = models.length := by
    unfold given
    cases hn : names with
    | none => simp [defaultNames]
    | some n => exact h1 n hn
  have hm2 : (marked models (given models names)).length = models.length := by simp [marked, hl]
  refine ⟨by simp [h6, hm2], fun i m hm => ?_⟩
  have hi : i < models.length := by
    by_contra hge
    rw [List.getElem?_eq_none (by omega)] at hm; cases hm
  obtain ⟨r, hr⟩ := Option.ne_none_iff_exists'.1 (h4 m (List.mem_of_getElem? hm))
  have hg : (given models names)[i]? = some ((given models names)[i]'(by omega)) := List.getElem?_eq_getElem _
  refine ⟨(given models names)[i]'(by omega), r, ⟨shown m, if m.empty then (given models names)[i]'(by omega) ++ ": empty" else (given models names)[i]'(by omega)⟩, ?_, ?_, hr, ?_, ?_, ?_⟩
  · rintro nn rfl
    exact hg
  · rintro rfl
    simp [given, defaultNames]
  · rw [h6, List.getElem?_zipWith, hm, marked, List.getElem?_zipWith, hm, hg]
  · intro hne
    have : m.empty = false := by
      rw [Bool.eq_false_iff, ne_eq, empty_iff, hr]
      simpa using hne
    rw [this]
    refine ⟨?_, rfl⟩
    unfold shown
    rw [hr]
    cases r with
    | nil => exact absurd rfl hne
    | cons a l => rfl
  · rintro rfl
    have : m.empty = true := (empty_iff m).2 hr
    rw [this]
    refine ⟨?_, rfl⟩
    unfold shown
    rw [hr]

/-- C131: exactly what is refused: another number of names than models, no models, imagers of different sizes, a model without a region, and (this isn't intended) names in a tuple if any region is empty -/
theorem refused_iff (models : List Cam) (names : Option Names) (title : Option (Option String)) (extra : Option String) :
    showRegion models names title extra = none ↔
      (∃ n, names = some n ∧ n.get.length ≠ models.length) ∨ models = [] ∨ (∃ m ∈ models, ∃ m' ∈ models, m.W ≠ m'.W ∨ m.H ≠ m'.H) ∨ (∃ m ∈ models, m.region = none) ∨
      (∃ t, names = some (.tuple t) ∧ ∃ m ∈ models, m.region = some []) := by
  constructor
  · intro h
    by_contra hcon
    push Not at hcon
    obtain ⟨c1, c2, c3, c4, c5⟩ := hcon
    unfold showRegion at h
    rw [if_neg] at h
    · cases models with
      | nil => exact c2 rfl
      | cons m0 rest =>
        simp only at h
        rw [if_neg, if_neg, if_neg] at h
        · cases h
        · cases hn : names with
          | none => simp
          | some n =>
            cases n with
            | list l => simp
            | tuple t =>
              simp only [List.any_eq_true, not_exists, not_and]
              intro m hm he
              exact c5 t hn m hm ((empty_iff m).1 he)
        · simp only [List.any_eq_true, not_exists, not_and]
          intro m hm he
          exact c4 m hm (by simpa using he)
        · simp only [List.any_eq_true, not_exists, not_and, decide_eq_true_eq]
          intro m hm he
          have := c3 m (List.mem_cons_of_mem _ hm) m0 (List.mem_cons_self ..)
          rcases he with he | he
          · exact he this.1
          · exact he this.2
    · cases hn : names with
      | none => simp
      | some n => simpa using c1 n hn
  · intro h
    by_contra hne
    obtain ⟨s, hs⟩ := Option.ne_none_iff_exists'.1 hne
    obtain ⟨h1, h2, h3, h4, h5, _⟩ := show_parts _ _ _ _ _ hs
    rcases h with ⟨n, hn, hl⟩ | h | ⟨m, hm, m', hm', h⟩ | ⟨m, hm, h⟩ | ⟨t, ht, m, hm, h⟩
    · exact hl (h1 n hn)
    · exact h2 h
    · have := h3 m hm m' hm'
      tauto
    · exact h4 m hm h
    · exact h5 t ht m hm h

/-- a triangle, and nothing -/
noncomputable def cam0 : Cam := ⟨1000, 800, some [⟨0, 0⟩, ⟨100, 0⟩, ⟨0, 100⟩, ⟨0, 0⟩]⟩
noncomputable def cam1 : Cam := ⟨1000, 800, some []⟩

theorem show0 (n : Option Names) (hn : n = none ∨ n = some (.list ["a", "b"])) : ∃ s, showRegion [cam0, cam1] n none none = some s := by
  rw [← Option.ne_none_iff_exists']
  intro h
  rw [refused_iff] at h
  rcases hn with rfl | rfl
  · rcases h with ⟨n, hn, _⟩ | h | ⟨m, hm, m', hm', h⟩ | ⟨m, hm, h⟩ | ⟨t, ht, _⟩
    · cases hn
    · cases h
    · simp only [List.mem_cons, List.not_mem_nil, or_false] at hm hm'
      rcases hm with rfl | rfl <;> rcases hm' with rfl | rfl <;> simp [cam0, cam1] at h
    · simp only [List.mem_cons, List.not_mem_nil, or_false] at hm
      rcases hm with rfl | rfl <;> simp [cam0, cam1] at h
    · cases ht
  · rcases h with ⟨n, hn, h⟩ | h | ⟨m, hm, m', hm', h⟩ | ⟨m, hm, h⟩ | ⟨t, ht, _⟩
    · simp only [Option.some.injEq] at hn
      subst hn
      simp [Names.get] at h
    · cases h
    · simp only [List.mem_cons, List.not_mem_nil, or_false] at hm hm'
      rcases hm with rfl | rfl <;> rcases hm' with rfl | rfl <;> simp [cam0, cam1] at h
    · simp only [List.mem_cons, List.not_mem_nil, or_false] at hm
      rcases hm with rfl | rfl <;> simp [cam0, cam1] at h
    · cases ht

example : ∃ s, showRegion [cam0, cam1] none none none = some s := show0 none (Or.inl rfl)

/-- C131, negation: the names are an input, but the caller's list is changed; so the same call made twice shows something else the second time. With a tuple the call fails instead -/
theorem names_wrong : (∃ s s' n', showRegion [cam0, cam1] (some (.list ["a", "b"])) none none = some s ∧ s.after = some n' ∧ n'.get = ["a", "b: empty"] ∧
      showRegion [cam0, cam1] (some n') none none = some s' ∧ s.curves.map Curve.legend = ["a", "b: empty"] ∧ s'.curves.map Curve.legend = ["a", "b: empty: empty"]) ∧
    showRegion [cam0, cam1] (some (.tuple ["a", "b"])) none none = none := by
  constructor
  · exact ⟨_, _, _, rfl, rfl, rfl, rfl, rfl, rfl⟩
  · exact (refused_iff _ _ _ _).2 (Or.inr (Or.inr (Or.inr (Or.inr ⟨_, rfl, cam1, by simp, rfl⟩))))

/-- C131: the title: as given, else the default, with the extra title -/
theorem title_meaning (models : List Cam) (names : Option Names) (title : Option (Option String)) (extra : Option String) (s : Shown) (h : showRegion models names title extra = some s) :
    (∀ t, title = some t → s.title = t) ∧ (title = none → extra = none → s.title = some "Valid-intrinsics region") ∧
    (∀ e, title = none → extra = some e → s.title = some ("Valid-intrinsics region: " ++ e)) := by
  obtain ⟨_, _, _, _, _, _, h7, _⟩ := show_parts _ _ _ _ _ h
  refine ⟨?_, ?_, ?_⟩
  · rintro t rfl; exact h7
  · rintro rfl rfl; exact h7
  · rintro e rfl rfl
    rw [h7]
    simp only [Option.some.injEq]
    rfl

/-! ### images -/

theorem trunc_near (x : ℝ) (h : 0 ≤ x) : (Spline.truncC x : ℝ) ≤ x ∧ x < Spline.truncC x + 1 := by
  unfold Spline.truncC
  rw [if_pos h]
  exact ⟨Int.floor_le x, Int.lt_floor_add_one x⟩

/-- C131: what's drawn into an image: a closed polygon with a vertex for each of those of the region, less than a pixel up and left of it (in the imager); for an empty region a circle at the center; without a region it's an
exception -/
theorem annotate_meaning (m : Cam) :
    (m.region = none ↔ annotate m = none) ∧
    (m.region = some [] → annotate m = some (.circle (((m.W : Int) - 1) / 2) (((m.H : Int) - 1) / 2))) ∧
    (∀ r, m.region = some r → r ≠ [] → ∃ p, annotate m = some (.polygon p) ∧ p.length = r.length ∧
      ∀ (i : Nat) (v : P2) (w : Int × Int), r[i]? = some v → p[i]? = some w → 0 ≤ v.x → 0 ≤ v.y → (w.1 : ℝ) ≤ v.x ∧ v.x < w.1 + 1 ∧ (w.2 : ℝ) ≤ v.y ∧ v.y < w.2 + 1) := by
  refine ⟨?_, ?_, ?_⟩
  · unfold annotate
    cases hr : m.region with
    | none => simp
    | some l => cases l <;> simp
  · intro h; unfold annotate; rw [h]
  · intro r hr hne
    cases r with
    | nil => exact absurd rfl hne
    | cons a l =>
      refine ⟨(a :: l).map fun p => (Spline.truncC p.x, Spline.truncC p.y), by unfold annotate; rw [hr], by simp, ?_⟩
      intro i v w hv hw hx hy
      rw [List.getElem?_map, hv] at hw
      simp only [Option.map_some, Option.some.injEq] at hw
      subst hw
      exact ⟨(trunc_near v.x hx).1, (trunc_near v.x hx).2, (trunc_near v.y hy).1, (trunc_near v.y hy).2⟩

example : ∃ p, annotate cam0 = some (.polygon p) := by
  obtain ⟨p, h, _⟩ := (annotate_meaning cam0).2.2 _ rfl (by simp)
  exact ⟨p, h⟩

/-! ### the tool -/

theorem splitExt_length (p : Path) : (Convert.splitExt p).1.length + (Convert.splitExt p).2.length = p.length := by
  have hb : (Convert.dirName p).length + (Convert.baseName p).length = p.length := by
    unfold Convert.dirName Convert.baseName
    simp only [List.length_reverse]
    have := congrArg List.length (List.takeWhile_append_dropWhile (p := fun c => decide (c ≠ '/')) (l := p.reverse))
    rw [List.length_append, List.length_reverse] at this
    omega
  have hs : ∀ b : List Char, (Convert.splitExtBase b).1.length + (Convert.splitExtBase b).2.length = b.length := by
    intro b
    unfold Convert.splitExtBase
    by_cases hd : '.' ∈ b
    · rw [if_pos hd]
      dsimp only
      split_ifs
      · simp
      · have hlt : (b.reverse.takeWhile fun c => decide (c ≠ '.')).length < b.length := by
          have h := congrArg List.length (List.takeWhile_append_dropWhile (p := fun c => decide (c ≠ '.')) (l := b.reverse))
          rw [List.length_append, List.length_reverse] at h
          have hne : b.reverse.dropWhile (fun c => decide (c ≠ '.')) ≠ [] := by
            intro he
            have aux : ∀ l : List Char, '.' ∈ l → l.dropWhile (fun c => decide (c ≠ '.')) ≠ [] := by
              intro l
              induction l with
              | nil => simp
              | cons a t ih =>
                intro hm
                by_cases ha : a = '.'
                · simp [ha]
                · have : '.' ∈ t := by
                    rcases List.mem_cons.1 hm with e | e
                    · exact absurd e.symm ha
                    · exact e
                  rw [List.dropWhile_cons_of_pos (by simp [ha])]
                  exact ih this
            exact aux _ (List.mem_reverse.2 hd) he
          have := List.length_pos_iff.2 hne
          omega
        simp only [List.length_reverse, List.length_drop, List.length_cons]
        omega
    · rw [if_neg hd]; simp
  unfold Convert.splitExt
  have := hs (Convert.baseName p)
  simp only [List.length_append]
  omega

theorem target_ne (f out : Path) (h : target f = some out) : out ≠ f := by
  unfold target at h
  dsimp only at h
  split at h
  · cases h
  simp only [Option.some.injEq] at h
  subst h
  intro he
  have := congrArg List.length he
  have hl := splitExt_length f
  simp only [List.length_append, List.length_cons] at this
  omega

/-- C131, partial: when asked for an image, at most one file is written: named after the image that's annotated, which is itself never changed; it has everything that was in that image and then the regions of all the models, in order. If anything
is wrong nothing is written. What's missing: an existing file isn't to be overwritten, see `overwrite_wrong` -/
theorem tool_partial (o : Options) (models : Option (List Cam)) (disk : Disk) :
    (∀ f, o.image = some f → (tool o models disk).disk f = disk f) ∧
    ((tool o models disk).ok = false → (tool o models disk).disk = disk ∧ (tool o models disk).plot = none) ∧
    (o.writeImage = false → (tool o models disk).disk = disk) ∧
    (o.writeImage = true → (tool o models disk).ok = true → ∃ f out img l d, o.image = some f ∧ target f = some out ∧ disk f = some img ∧ models = some l ∧ l.mapM annotate = some d ∧
      (tool o models disk).disk out = some (img ++ d) ∧ ∀ p, p ≠ out → (tool o models disk).disk p = disk p) := by
  unfold tool
  dsimp only
  by_cases h1 : (o.writeImage && (o.image.isNone || o.title.isSome || o.plotOptions || o.points)) = true
  · rw [if_pos h1]; simp
  rw [if_neg h1]
  cases models with
  | none => simp
  | some l =>
    dsimp only
    by_cases h2 : (l.any fun m => m.region.isNone) = true
    · rw [if_pos h2]; simp
    rw [if_neg h2]
    by_cases hw : o.writeImage = true
    · rw [if_pos hw]
      cases hi : o.image with
      | none => simp [hw, hi] at h1
      | some f =>
        simp only [Option.getD_some]
        cases ht : target f with
        | none => simp
        | some out =>
          cases hd : disk f with
          | none => simp [hd]
          | some img =>
            cases ha : l.mapM annotate with
            | none => simp [hd]
            | some d =>
              dsimp only
              refine ⟨?_, by simp, by simp [hw], ?_⟩
              · rintro f' hf
                simp only [Option.some.injEq] at hf
                subst hf
                rw [if_neg (target_ne f out ht).symm, hd]
              · intro _ _
                refine ⟨f, out, img, l, d, rfl, ht, hd, rfl, ha, by simp, fun p hp => by simp [hp]⟩
    · rw [if_neg hw]
      cases hs : showRegion l (some (.list o.files)) (some o.title) none with
      | none => simp
      | some s => simp [hw]

/-- C131, negation: "we refuse to overwrite any existing images. Pass --force to allow overwriting": --force makes no difference, and without it an image that exists is overwritten -/
theorem overwrite_wrong : (∀ o models disk b, tool { o with force := b } models disk = tool o models disk) ∧
    ∃ o disk out old, o.force = false ∧ disk out = some old ∧ (tool o (some [cam1]) disk).ok = true ∧ (tool o (some [cam1]) disk).disk out ≠ some old := by
  refine ⟨fun o models disk b => rfl, ?_⟩
  refine ⟨⟨true, some "a.png".toList, false, false, none, false, []⟩, fun p => if p = "a.png".toList then some [] else some [.circle 1 1], "a-valid-intrinsics-region.png".toList, [.circle 1 1], rfl, ?_, ?_, ?_⟩
  · exact if_neg (by decide)
  · have ht : target ['a', '.', 'p', 'n', 'g'] = some "a-valid-intrinsics-region.png".toList := by decide +kernel
    simp [tool, ht, cam1, annotate]
  · have ht : target ['a', '.', 'p', 'n', 'g'] = some "a-valid-intrinsics-region.png".toList := by decide +kernel
    simp [tool, ht, cam1, annotate]

/-- C131, negation: without --title the plot is meant to have the default title; the tool passes None, so it has none -/
theorem tool_title_wrong (o : Options) (models : Option (List Cam)) (disk : Disk) (s : Shown) (h : (tool o models disk).plot = some s) (ht : o.title = none) : s.title = none := by
  unfold tool at h
  dsimp only at h
  by_cases h1 : (o.writeImage && (o.image.isNone || o.title.isSome || o.plotOptions || o.points)) = true
  · rw [if_pos h1] at h; cases h
  rw [if_neg h1] at h
  cases models with
  | none => cases h
  | some l =>
    dsimp only at h
    by_cases h2 : (l.any fun m => m.region.isNone) = true
    · rw [if_pos h2] at h; cases h
    rw [if_neg h2] at h
    by_cases hw : o.writeImage = true
    · rw [if_pos hw] at h
      split at h <;> cases h
    · rw [if_neg hw] at h
      cases hs : showRegion l (some (.list o.files)) (some o.title) none with
      | none => rw [hs] at h; cases h
      | some s' =>
        rw [hs] at h
        simp only [Option.some.injEq] at h
        subst h
        rw [(title_meaning _ _ _ _ _ hs).1 _ rfl, ht]

example : ∃ s, (tool ⟨false, none, false, false, none, false, ["a", "b"]⟩ (some [cam0, cam1]) (fun _ => none)).plot = some s := by
  refine ⟨_, rfl⟩

end Mrcal.ShowRegion

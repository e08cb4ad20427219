import Verif.Props.StereoToolProps
/-
C122: mrcal-stereo: which files are written
-/
namespace Mrcal.StereoTool

open Mrcal
open Mrcal.Convert (splitExt baseName)

variable {I C : Type}

/-! ### writing -/

/-- `fs'` is `fs`, where some of the files named by `N` were written; without --force only those that didn't exist -/
structure Extends (force : Bool) (N : FName → Prop) (fs fs' : FS C) : Prop where
  only : ∀ g, ¬ N g → fs' g = fs g
  some : ∀ g, (fs g).isSome → (fs' g).isSome
  keep : force = false → ∀ g c, fs g = .some c → fs' g = .some c

theorem Extends.refl (force : Bool) (N : FName → Prop) (fs : FS C) : Extends force N fs fs := ⟨fun _ _ => rfl, fun _ h => h, fun _ _ _ h => h⟩

theorem Extends.trans {force : Bool} {N : FName → Prop} {a b c : FS C} (h : Extends force N a b) (h' : Extends force N b c) : Extends force N a c :=
  ⟨fun g hg => (h'.only g hg).trans (h.only g hg), fun g hg => h'.some g (h.some g hg), fun hf g x hx => h'.keep hf g x (h.keep hf g x hx)⟩

theorem Extends.mono {force : Bool} {N N' : FName → Prop} (hN : ∀ g, N g → N' g) {a b : FS C} (h : Extends force N a b) : Extends force N' a b :=
  ⟨fun g hg => h.only g fun hn => hg (hN g hn), h.some, h.keep⟩

theorem writeOne_extends (a : Args) (text : Kind → Option C) (fs : FS C) (o : Kind × FName) : Extends a.force (fun g => g = outName a o.2) fs (writeOne a text fs o).1 := by
  unfold writeOne
  split
  · exact Extends.refl _ _ _
  · rename_i hc
    split
    · rename_i c hx
      refine ⟨fun g hg => ?_, fun g hg => ?_, fun hf g c' h => ?_⟩
      · show put fs _ c g = _
        unfold put; rw [if_neg hg]
      · show (put fs _ c g).isSome
        unfold put
        split_ifs
        · rfl
        · exact hg
      · show put fs _ c g = _
        unfold put
        rw [if_neg]
        · exact h
        · rintro rfl
          rw [h, hf] at hc
          simp at hc
    · exact Extends.refl _ _ _

theorem writeOne_exists (a : Args) (text : Kind → Option C) (fs : FS C) (o : Kind × FName) (h : (writeOne a text fs o).2 = true) : ((writeOne a text fs o).1 (outName a o.2)).isSome := by
  unfold writeOne at *
  by_cases hc : ((fs (outName a o.2)).isSome && !a.force) = true
  · rw [if_pos hc] at *
    simp only [Bool.and_eq_true] at hc
    exact hc.1
  · rw [if_neg hc] at *
    cases hx : text o.1 with
    | none => rw [hx] at h; simp at h
    | some c =>
      show (put fs _ c _).isSome
      unfold put
      rw [if_pos rfl]; rfl

theorem writeList_extends (a : Args) (text : Kind → Option C) : ∀ (l : List (Kind × FName)) (fs : FS C), Extends a.force (fun g => ∃ o ∈ l, g = outName a o.2) fs (writeList a text fs l).1 := by
  intro l
  induction l with
  | nil => intro fs; exact Extends.refl _ _ _
  | cons o l ih =>
    intro fs
    rw [writeList]
    have h1 := (writeOne_extends a text fs o).mono (N' := fun g => ∃ o' ∈ o :: l, g = outName a o'.2) fun g hg => ⟨o, List.mem_cons_self, hg⟩
    cases hw : writeOne a text fs o with
    | mk fs' b =>
      rw [hw] at h1
      cases b with
      | false => exact h1
      | true =>
        refine h1.trans ((ih fs').mono ?_)
        rintro g ⟨o', ho', hg⟩
        exact ⟨o', List.mem_cons_of_mem _ ho', hg⟩

theorem writeList_exists (a : Args) (text : Kind → Option C) : ∀ (l : List (Kind × FName)) (fs : FS C), (writeList a text fs l).2 = true → ∀ o ∈ l, ((writeList a text fs l).1 (outName a o.2)).isSome := by
  intro l
  induction l with
  | nil => intro fs _ o ho; simp at ho
  | cons o l ih =>
    intro fs h o' ho'
    rw [writeList] at h ⊢
    have h1 := writeOne_exists a text fs o
    cases hw : writeOne a text fs o with
    | mk fs' b =>
      rw [hw] at h h1
      cases b with
      | false => simp at h
      | true =>
        dsimp only at h h1 ⊢
        rcases List.mem_cons.1 ho' with rfl | ho'
        · exact (writeList_extends a text l fs').some _ (h1 rfl)
        · exact ih fs' h o' ho'

/-- the contents, if the names are different -/
theorem writeList_contents (a : Args) (text : Kind → Option C) : ∀ (l : List (Kind × FName)) (fs : FS C), (writeList a text fs l).2 = true → (l.map fun o => outName a o.2).Nodup → ∀ o ∈ l,
    (writeList a text fs l).1 (outName a o.2) = if (fs (outName a o.2)).isSome && !a.force then fs (outName a o.2) else text o.1 := by
  intro l
  induction l with
  | nil => intro fs _ _ o ho; simp at ho
  | cons o l ih =>
    intro fs h hn o' ho'
    rw [List.map_cons, List.nodup_cons] at hn
    rw [writeList] at h ⊢
    have h1 := writeOne_extends a text fs o
    have h2 : (writeOne a text fs o).2 = true → (writeOne a text fs o).1 (outName a o.2) = if (fs (outName a o.2)).isSome && !a.force then fs (outName a o.2) else text o.1 := by
      unfold writeOne
      intro hb
      by_cases hc : ((fs (outName a o.2)).isSome && !a.force) = true
      · rw [if_pos hc, if_pos hc]
      · rw [if_neg hc] at hb
        rw [if_neg hc, if_neg hc]
        cases hx : text o.1 with
        | none => rw [hx] at hb; simp at hb
        | some c =>
          show put fs _ c _ = _
          unfold put
          rw [if_pos rfl]
    cases hw : writeOne a text fs o with
    | mk fs' b =>
      rw [hw] at h h1 h2
      cases b with
      | false => simp at h
      | true =>
        dsimp only at h h1 h2 ⊢
        rcases List.mem_cons.1 ho' with rfl | ho'
        · rw [(writeList_extends a text l fs').only _ ?_]
          · exact h2 rfl
          · rintro ⟨o2, ho2, e⟩
            exact hn.1 (List.mem_map.2 ⟨o2, ho2, e.symm⟩)
        · rw [ih fs' h hn.2 o' ho', h1.only]
          intro e
          exact hn.1 (List.mem_map.2 ⟨o', ho', e⟩)

/-! ### one pair of images -/

/-- **Specification**: the tool doesn't process these images: their sizes aren't those of the models, or ELAS gets color images -/
def Refused (env : Env I C) (a : Args) (f : FName × FName) : Prop :=
  ∃ i0 i1, env.load f.1 = some i0 ∧ env.load f.2 = some i1 ∧
    (env.imageSize i0 ≠ env.modelSize.1 ∨ env.imageSize i1 ≠ env.modelSize.2 ∨ (a.matcher = .elas ∧ a.forceGrayscale = false ∧ (env.color i0 = true ∨ env.color i1 = true)))

/-- how a pair is processed -/
theorem process_cases (env : Env I C) (a : Args) (fs : FS C) (f : FName × FName) :
    (process env a fs f = (fs, .refused) ∧ Refused env a f) ∨ (process env a fs f = (fs, .raised) ∧ ¬ Refused env a f) ∨
    ∃ i0 i1 text, env.load f.1 = some i0 ∧ env.load f.2 = some i1 ∧ ¬ Refused env a f ∧ env.compute f (i0, i1) = some text ∧
      process env a fs f = ((writeList a text fs (outputs a f)).1, if (writeList a text fs (outputs a f)).2 then .written else .raised) := by
  unfold process
  cases h0 : env.load f.1 with
  | none =>
    refine Or.inr (Or.inl ⟨rfl, ?_⟩)
    rintro ⟨i0, i1, e, -⟩
    rw [h0] at e; cases e
  | some i0 =>
    cases h1 : env.load f.2 with
    | none =>
      refine Or.inr (Or.inl ⟨rfl, ?_⟩)
      rintro ⟨i0, i1, -, e, -⟩
      rw [h1] at e; cases e
    | some i1 =>
      dsimp only
      by_cases c0 : env.imageSize i0 ≠ env.modelSize.1
      · rw [if_pos c0]; exact Or.inl ⟨rfl, i0, i1, h0, h1, Or.inl c0⟩
      · rw [if_neg c0]
        by_cases c1 : env.imageSize i1 ≠ env.modelSize.2
        · rw [if_pos c1]; exact Or.inl ⟨rfl, i0, i1, h0, h1, Or.inr (Or.inl c1)⟩
        · rw [if_neg c1]
          by_cases c2 : a.matcher = .elas ∧ a.forceGrayscale = false ∧ (env.color i0 || env.color i1) = true
          · rw [if_pos c2]
            refine Or.inl ⟨rfl, i0, i1, h0, h1, Or.inr (Or.inr ⟨c2.1, c2.2.1, ?_⟩)⟩
            simpa using c2.2.2
          · rw [if_neg c2]
            have hn : ¬ Refused env a f := by
              rintro ⟨j0, j1, e0, e1, h⟩
              rw [h0] at e0
              rw [h1] at e1
              injection e0 with e0
              injection e1 with e1
              subst e0; subst e1
              rcases h with h | h | ⟨h, h', h''⟩
              · exact c0 h
              · exact c1 h
              · exact c2 ⟨h, h', by simpa using h''⟩
            cases hc : env.compute f (i0, i1) with
            | none => exact Or.inr (Or.inl ⟨rfl, hn⟩)
            | some text =>
              refine Or.inr (Or.inr ⟨i0, i1, text, rfl, rfl, hn, hc, ?_⟩)
              dsimp only
              cases hw : writeList a text fs (outputs a f) with
              | mk fs' b => cases b <;> rfl

theorem process_extends (env : Env I C) (a : Args) (fs : FS C) (f : FName × FName) : Extends a.force (fun g => ∃ k, Written a k ∧ g = fileOf a f k) fs (process env a fs f).1 := by
  rcases process_cases env a fs f with ⟨h, -⟩ | ⟨h, -⟩ | ⟨i0, i1, text, -, -, -, -, h⟩
  · rw [h]; exact Extends.refl _ _ _
  · rw [h]; exact Extends.refl _ _ _
  · rw [h]
    refine (writeList_extends a text _ fs).mono ?_
    rintro g ⟨o, ho, rfl⟩
    obtain ⟨h1, h2⟩ := outputs_files a f o ho
    exact ⟨o.1, h1, h2⟩

theorem process_exists (env : Env I C) (a : Args) (fs : FS C) (f : FName × FName) (h : (process env a fs f).2 = .written) (k : Kind) (hk : Written a k) : ((process env a fs f).1 (fileOf a f k)).isSome := by
  rcases process_cases env a fs f with ⟨h', -⟩ | ⟨h', -⟩ | ⟨i0, i1, text, -, -, -, -, h'⟩
  · rw [h'] at h; cases h
  · rw [h'] at h; cases h
  · rw [h'] at h ⊢
    dsimp only at h ⊢
    obtain ⟨o, ho, -, e⟩ := outputs_all a f k hk
    rw [← e]
    refine writeList_exists a text _ fs ?_ o ho
    by_contra hc
    rw [if_neg hc] at h; cases h

/-- **C122**: a pair of images that was processed: each file that's asked for has what was computed, unless it existed, and there's no --force. This is for images with different names -/
theorem pair_written_partial (env : Env I C) (a : Args) (fs fs' : FS C) (f : FName × FName) (h : process env a fs f = (fs', .written)) (hb : imageBase f.1 ≠ imageBase f.2) :
    ∃ i0 i1 text, env.load f.1 = some i0 ∧ env.load f.2 = some i1 ∧ env.compute f (i0, i1) = some text ∧ ∀ k, Written a k →
      ((fs (fileOf a f k)).isSome → a.force = false → fs' (fileOf a f k) = fs (fileOf a f k)) ∧ (fs (fileOf a f k) = none ∨ a.force = true → fs' (fileOf a f k) = text k) := by
  rcases process_cases env a fs f with ⟨h', -⟩ | ⟨h', -⟩ | ⟨i0, i1, text, h0, h1, -, hc, h'⟩
  · rw [h'] at h; cases h
  · rw [h'] at h; cases h
  · refine ⟨i0, i1, text, h0, h1, hc, fun k hk => ?_⟩
    rw [h'] at h
    injection h with e1 e2
    have hw : (writeList a text fs (outputs a f)).2 = true := by
      by_contra hc
      rw [if_neg hc] at e2; cases e2
    have hn : ((outputs a f).map fun o => outName a o.2).Nodup := by
      rw [outputs_eq, List.map_map]
      refine List.Nodup.map_on ?_ (kinds_nodup a)
      intro x _ y _ e
      refine files_distinct a f hb x y ?_
      rw [← out_kind, ← out_kind]
      exact e
    obtain ⟨o, ho, rfl, e⟩ := outputs_all a f k hk
    have := writeList_contents a text _ fs hw hn o ho
    rw [e, e1] at this
    constructor
    · intro hs hf
      rw [this, hs, hf]; rfl
    · intro hs
      rw [this, if_neg]
      rcases hs with hs | hs
      · rw [hs]; simp
      · rw [hs]; simp

theorem files_collide (a : Args) (f : FName × FName) (hb : imageBase f.1 = imageBase f.2) : fileOf a f .rectified1 = fileOf a f .rectified0 := by
  unfold fileOf prefixOf suffixOf
  simp only [hb]

theorem writeList_append (a : Args) (text : Kind → Option C) : ∀ (l l' : List (Kind × FName)) (fs : FS C), (writeList a text fs (l ++ l')).2 = true →
    (writeList a text fs l).2 = true ∧ writeList a text fs (l ++ l') = writeList a text (writeList a text fs l).1 l' := by
  intro l l'
  induction l with
  | nil => intro fs _; exact ⟨rfl, rfl⟩
  | cons o l ih =>
    intro fs h
    rw [List.cons_append, writeList] at h
    rw [List.cons_append, writeList, writeList]
    cases hw : writeOne a text fs o with
    | mk fs' b =>
      rw [hw] at h
      cases b with
      | false => simp at h
      | true => exact ih fs' h

/-- **C122, false**: "both rectified images are written": if the two images have the same name, in different directories, they go to the same file: the second one isn't written, or with --force the first one is lost. The tool says it's fine -/
theorem same_name_wrong (env : Env I C) (a : Args) (fs fs' : FS C) (f : FName × FName) (h : process env a fs f = (fs', .written)) (hb : imageBase f.1 = imageBase f.2) (hr : a.alreadyRectified = false) :
    fileOf a f .rectified1 = fileOf a f .rectified0 ∧ ∃ i0 i1 text, env.load f.1 = some i0 ∧ env.load f.2 = some i1 ∧ env.compute f (i0, i1) = some text ∧
      (a.force = true → fs' (fileOf a f .rectified0) = text .rectified1) ∧ (a.force = false → fs (fileOf a f .rectified0) = none → fs' (fileOf a f .rectified0) = text .rectified0) := by
  refine ⟨files_collide a f hb, ?_⟩
  rcases process_cases env a fs f with ⟨h', -⟩ | ⟨h', -⟩ | ⟨i0, i1, text, h0, h1, -, hc, h'⟩
  · rw [h'] at h; cases h
  · rw [h'] at h; cases h
  · refine ⟨i0, i1, text, h0, h1, hc, ?_⟩
    rw [h'] at h
    injection h with e1 e2
    have hw : (writeList a text fs (outputs a f)).2 = true := by
      by_contra hc
      rw [if_neg hc] at e2; cases e2
    obtain ⟨K, hK⟩ : ∃ K, kindsOf a = [.model0, .model1, .rectified0] ++ (.rectified1 :: .disparity :: .disparityRaw :: .range :: K) := by
      unfold kindsOf
      rw [hr]
      exact ⟨_, rfl⟩
    have hnd := kinds_nodup a
    have heq := outputs_eq a f
    rw [hK, List.map_append] at heq
    rw [hK] at hnd
    rw [heq] at hw e1
    obtain ⟨w1, w2⟩ := writeList_append a text _ _ fs hw
    rw [w2] at hw e1
    obtain ⟨fs1, hfs1⟩ : ∃ fs1, (writeList a text fs (([.model0, .model1, .rectified0] : List Kind).map fun k => (k, nameOf a f k))).1 = fs1 := ⟨_, rfl⟩
    rw [hfs1] at hw e1
    have hoth : ∀ k ∈ (Kind.rectified1 :: .disparity :: .disparityRaw :: .range :: K), k ≠ .rectified1 → fileOf a f k ≠ fileOf a f .rectified0 := by
      intro k hk hne e
      obtain ⟨g1, g2⟩ := file_eq_suffix e
      rcases suffix_kinds a.matcher _ _ g1 (ends_differ g2 5 (suffix_long _ _) (suffix_long _ _)) with g | ⟨g, g'⟩ | ⟨g, -⟩
      · rw [g] at hk
        have := (List.nodup_append.1 hnd).2.2 .rectified0 (by simp) .rectified0 hk
        exact this rfl
      · cases g'
      · exact hne g
    have hlast : ∀ fs2 : FS C, (writeList a text fs2 ((Kind.disparity :: .disparityRaw :: .range :: K).map fun k => (k, nameOf a f k))).1 (fileOf a f .rectified0) = fs2 (fileOf a f .rectified0) := by
      intro fs2
      refine (writeList_extends a text _ fs2).only _ ?_
      rintro ⟨o, ho, e⟩
      obtain ⟨k, hk, rfl⟩ := List.mem_map.1 ho
      have e' : fileOf a f .rectified0 = fileOf a f k := e.trans (out_kind a f k)
      refine hoth k (List.mem_cons_of_mem _ hk) ?_ e'.symm
      rintro rfl
      have := (List.nodup_append.1 hnd).2.1
      exact (List.nodup_cons.1 this).1 hk
    have hn1 : outName a (nameOf a f .rectified1) = fileOf a f .rectified0 := (out_kind a f .rectified1).trans (files_collide a f hb)
    rw [List.map_cons, writeList] at hw e1
    have ho := writeOne_exists a text fs1 (.rectified1, nameOf a f .rectified1)
    constructor
    · intro hf
      have hx : writeOne a text fs1 (.rectified1, nameOf a f .rectified1) = match text .rectified1 with
          | some c => (put fs1 (fileOf a f .rectified0) c, true)
          | none => (fs1, false) := by
        unfold writeOne
        dsimp only
        rw [hn1, hf, if_neg (by simp)]
        cases text .rectified1 <;> rfl
      rw [hx] at hw e1
      cases ht : text .rectified1 with
      | none => rw [ht] at hw; simp at hw
      | some c =>
        rw [ht] at e1
        dsimp only at e1
        rw [← e1, hlast]
        unfold put; rw [if_pos rfl]
    · intro hf hfs
      have h3 : fs1 (fileOf a f .rectified0) = text .rectified0 := by
        have hnn : ((([.model0, .model1, .rectified0] : List Kind).map fun k => (k, nameOf a f k)).map fun o => outName a o.2).Nodup := by
          rw [List.map_map]
          refine List.Nodup.map_on ?_ (by decide)
          intro x hx y hy e
          have e' : fileOf a f x = fileOf a f y := by
            rw [← out_kind, ← out_kind]; exact e
          obtain ⟨g1, g2⟩ := file_eq_suffix e'
          rcases suffix_kinds a.matcher _ _ g1 (ends_differ g2 5 (suffix_long _ _) (suffix_long _ _)) with g | ⟨-, g'⟩ | ⟨g, -⟩
          · exact g
          · rw [g'] at hy; simp at hy
          · rw [g] at hx; simp at hx
        have := writeList_contents a text _ fs w1 hnn (.rectified0, nameOf a f .rectified0) (by simp)
        have e0 : outName a (nameOf a f .rectified0) = fileOf a f .rectified0 := out_kind a f .rectified0
        dsimp only at this
        rw [e0, hfs1, hfs] at this
        rw [this]; simp
      have hsome : (fs1 (fileOf a f .rectified0)).isSome := by
        have := writeList_exists a text _ fs w1 (.rectified0, nameOf a f .rectified0) (by simp)
        have e0 : outName a (nameOf a f .rectified0) = fileOf a f .rectified0 := out_kind a f .rectified0
        dsimp only at this
        rwa [e0, hfs1] at this
      have hx : writeOne a text fs1 (.rectified1, nameOf a f .rectified1) = (fs1, true) := by
        unfold writeOne
        dsimp only
        rw [hn1, hsome, hf]; rfl
      rw [hx] at e1
      dsimp only at e1
      rw [← e1, hlast, h3]

/-! ### the whole tool -/

/-- **Specification**: the pairs of images: the i-th one of each list -/
def Pair (env : Env I C) (a : Args) (f : FName × FName) : Prop :=
  ∃ g0 g1, a.images = [g0, g1] ∧ ∃ i : Nat, (env.glob g0)[i]? = some f.1 ∧ (env.glob g1)[i]? = some f.2

theorem zip_pair {l0 l1 : List FName} {f : FName × FName} (h : f ∈ l0.zip l1) : ∃ i : Nat, l0[i]? = some f.1 ∧ l1[i]? = some f.2 := by
  obtain ⟨i, hi⟩ := List.mem_iff_getElem?.1 h
  exact ⟨i, List.getElem?_zip_eq_some.1 hi⟩

theorem serial_extends (env : Env I C) (a : Args) : ∀ (l : List (FName × FName)) (fs : FS C), Extends a.force (fun g => ∃ f ∈ l, ∃ k, Written a k ∧ g = fileOf a f k) fs (serial env a fs l).1 := by
  intro l
  induction l with
  | nil => intro fs; exact Extends.refl _ _ _
  | cons f l ih =>
    intro fs
    rw [serial]
    have h1 := (process_extends env a fs f).mono (N' := fun g => ∃ f' ∈ f :: l, ∃ k, Written a k ∧ g = fileOf a f' k) fun g hg => ⟨f, List.mem_cons_self, hg⟩
    cases hp : process env a fs f with
    | mk fs' s =>
      rw [hp] at h1
      have h2 := h1.trans ((ih fs').mono (N' := fun g => ∃ f' ∈ f :: l, ∃ k, Written a k ∧ g = fileOf a f' k) (by
        rintro g ⟨f', hf', hg⟩
        exact ⟨f', List.mem_cons_of_mem _ hf', hg⟩))
      cases s with
      | raised => exact h1
      | written => exact h2
      | refused => exact h2

theorem foldl_extends (env : Env I C) (a : Args) (L : List (FName × FName)) : ∀ (l : List (FName × FName)) (fs : FS C), (∀ f ∈ l, f ∈ L) →
    Extends a.force (fun g => ∃ f ∈ L, ∃ k, Written a k ∧ g = fileOf a f k) fs (l.foldl (fun fs f => (process env a fs f).1) fs) := by
  intro l
  induction l with
  | nil => intro fs _; exact Extends.refl _ _ _
  | cons f l ih =>
    intro fs h
    rw [List.foldl_cons]
    exact ((process_extends env a fs f).mono fun g hg => ⟨f, h f List.mem_cons_self, hg⟩).trans (ih _ fun f' hf' => h f' (List.mem_cons_of_mem _ hf'))

theorem serial_exists (env : Env I C) (a : Args) : ∀ (l : List (FName × FName)) (fs : FS C), (serial env a fs l).2 = true → ∀ f ∈ l, ¬ Refused env a f → ∀ k, Written a k → ((serial env a fs l).1 (fileOf a f k)).isSome := by
  intro l
  induction l with
  | nil => intro fs _ f hf; simp at hf
  | cons f l ih =>
    intro fs h f' hf' hr k hk
    rw [serial] at h ⊢
    have h1 := process_exists env a fs f
    have h2 := process_cases env a fs f
    cases hp : process env a fs f with
    | mk fs' s =>
      rw [hp] at h h1 h2
      cases s with
      | raised => simp at h
      | written =>
        dsimp only at h h1 ⊢
        rcases List.mem_cons.1 hf' with rfl | hf'
        · exact (serial_extends env a l fs').some _ (h1 rfl k hk)
        · exact ih fs' h f' hf' hr k hk
      | refused =>
        dsimp only at h ⊢
        rcases List.mem_cons.1 hf' with rfl | hf'
        · exfalso
          rcases h2 with ⟨-, h2⟩ | ⟨h2, -⟩ | ⟨_, _, _, -, -, -, -, h2⟩
          · exact hr h2
          · injection h2 with _ h2; cases h2
          · injection h2 with _ h2
            split at h2 <;> cases h2
        · exact ih fs' h f' hf' hr k hk

theorem serial_ok (env : Env I C) (a : Args) : ∀ (l : List (FName × FName)) (fs : FS C), (serial env a fs l).2 = true → ∀ f ∈ l, (env.load f.1).isSome ∧ (env.load f.2).isSome := by
  intro l
  induction l with
  | nil => intro fs _ f hf; simp at hf
  | cons f l ih =>
    intro fs h f' hf'
    rw [serial] at h
    have h2 : ¬ ((env.load f.1).isSome ∧ (env.load f.2).isSome) → (process env a fs f).2 = .raised := by
      intro hn
      unfold process
      cases h0 : env.load f.1 with
      | none => rfl
      | some i0 =>
        cases h1 : env.load f.2 with
        | none => rfl
        | some i1 => rw [h0, h1] at hn; simp at hn
    cases hp : process env a fs f with
    | mk fs' s =>
      rw [hp] at h h2
      cases s with
      | raised => simp at h
      | written =>
        rcases List.mem_cons.1 hf' with rfl | hf'
        · by_contra hn; cases h2 hn
        · exact ih fs' h f' hf'
      | refused =>
        rcases List.mem_cons.1 hf' with rfl | hf'
        · by_contra hn; cases h2 hn
        · exact ih fs' h f' hf'

theorem serial_refused (env : Env I C) (a : Args) (fs : FS C) : ∀ (l : List (FName × FName)), (∀ f ∈ l, Refused env a f) → serial env a fs l = (fs, true) := by
  intro l
  induction l with
  | nil => intro _; rfl
  | cons f l ih =>
    intro h
    rw [serial]
    have : process env a fs f = (fs, .refused) := by
      rcases process_cases env a fs f with ⟨h', -⟩ | ⟨-, h'⟩ | ⟨_, _, _, -, -, h', -, -⟩
      · exact h'
      · exact absurd (h f List.mem_cons_self) h'
      · exact absurd (h f List.mem_cons_self) h'
    rw [this]
    exact ih fun f' hf' => h f' (List.mem_cons_of_mem _ hf')

/-- the two cases of the tool: with no images, or with two lists of images -/
theorem tool_cases (env : Env I C) (a : Args) (fs : FS C) :
    tool env a fs = (fs, false) ∨ (a.images = [] ∧ env.modelsOk = true ∧ tool env a fs = writeList a env.modelText fs rectifiedModels) ∨
    ∃ g0 g1, a.images = [g0, g1] ∧ env.modelsOk = true ∧ (env.glob g0).length = (env.glob g1).length ∧ (env.glob g0).length ≠ 0 ∧
      (((env.glob g0).length = 1 ∨ a.jobs ≤ 1) ∧ tool env a fs = serial env a fs ((env.glob g0).zip (env.glob g1)) ∨
       ((env.glob g0).length ≠ 1 ∧ 1 < a.jobs) ∧ tool env a fs = (parallel env a fs ((env.glob g0).zip (env.glob g1)), true)) := by
  unfold tool
  by_cases h : ¬ (a.images.length = 0 ∨ a.images.length = 2)
  · rw [if_pos h]; exact Or.inl rfl
  · rw [if_neg h]
    cases hm : env.modelsOk with
    | false => exact Or.inl rfl
    | true =>
      rw [if_neg (by simp)]
      match hi : a.images, h with
      | [], _ => exact Or.inr (Or.inl ⟨rfl, rfl, rfl⟩)
      | [g0], h => exact absurd (by simp) h
      | g0 :: g1 :: _ :: _, h => exact absurd (by simp) h
      | [g0, g1], _ =>
        dsimp only [List.headD]
        by_cases h1 : (env.glob g0).length ≠ (env.glob g1).length
        · rw [if_pos h1]; exact Or.inl rfl
        · rw [if_neg h1]
          by_cases h2 : (env.glob g0).length = 0
          · rw [if_pos h2]; exact Or.inl rfl
          · rw [if_neg h2]
            refine Or.inr (Or.inr ⟨g0, g1, rfl, rfl, not_not.1 h1, h2, ?_⟩)
            by_cases h3 : (env.glob g0).length = 1 ∨ a.jobs ≤ 1
            · rw [if_pos h3]; exact Or.inl ⟨h3, rfl⟩
            · rw [if_neg h3]
              rw [not_or, not_le] at h3
              exact Or.inr ⟨h3, rfl⟩

/-- **Specification**: the files the tool may write: those of the pairs; or if there are no images, the rectified models -/
def MayWrite (env : Env I C) (a : Args) (g : FName) : Prop :=
  (a.images = [] ∧ (g = a.outdir ++ '/' :: ("rectified0".toList ++ (dashTag a ++ ".cameramodel".toList)) ∨ g = a.outdir ++ '/' :: ("rectified1".toList ++ (dashTag a ++ ".cameramodel".toList)))) ∨
  ∃ f, Pair env a f ∧ ∃ k, Written a k ∧ g = fileOf a f k

theorem models_out (a : Args) : outName a "rectified0.cameramodel".toList = a.outdir ++ '/' :: ("rectified0".toList ++ (dashTag a ++ ".cameramodel".toList)) ∧
    outName a "rectified1.cameramodel".toList = a.outdir ++ '/' :: ("rectified1".toList ++ (dashTag a ++ ".cameramodel".toList)) := by
  constructor
  · exact out_split a "rectified0".toList "cameramodel".toList (by decide) ⟨'r', by decide, by decide⟩ (by decide) (by decide)
  · exact out_split a "rectified1".toList "cameramodel".toList (by decide) ⟨'r', by decide, by decide⟩ (by decide) (by decide)

theorem tool_extends (env : Env I C) (a : Args) (fs : FS C) (hs : ∀ l, ∀ f ∈ env.schedule l, f ∈ l) : Extends a.force (MayWrite env a) fs (tool env a fs).1 := by
  have hp : ∀ g0 g1, a.images = [g0, g1] → ∀ g, (∃ f ∈ (env.glob g0).zip (env.glob g1), ∃ k, Written a k ∧ g = fileOf a f k) → MayWrite env a g := by
    rintro g0 g1 hi g ⟨f, hf, h⟩
    exact Or.inr ⟨f, ⟨g0, g1, hi, zip_pair hf⟩, h⟩
  rcases tool_cases env a fs with h | ⟨hi, -, h⟩ | ⟨g0, g1, hi, -, -, -, ⟨-, h⟩ | ⟨-, h⟩⟩
  · rw [h]; exact Extends.refl _ _ _
  · rw [h]
    refine (writeList_extends a _ _ fs).mono ?_
    rintro g ⟨o, ho, rfl⟩
    refine Or.inl ⟨hi, ?_⟩
    rw [← (models_out a).1, ← (models_out a).2]
    unfold rectifiedModels at ho
    rcases List.mem_cons.1 ho with rfl | ho
    · exact Or.inl rfl
    · rcases List.mem_cons.1 ho with rfl | ho
      · exact Or.inr rfl
      · simp at ho
  · rw [h]
    exact (serial_extends env a _ fs).mono (hp g0 g1 hi)
  · rw [h]
    exact (foldl_extends env a _ _ fs (hs _)).mono (hp g0 g1 hi)

/-- **C122**: without --force no file that exists is changed; no file is ever removed. This is so in all cases, and if the tool fails, too -/
theorem keeps_files (env : Env I C) (a : Args) (fs : FS C) (hs : ∀ l, ∀ f ∈ env.schedule l, f ∈ l) (g : FName) :
    ((fs g).isSome → ((tool env a fs).1 g).isSome) ∧ (a.force = false → (fs g).isSome → (tool env a fs).1 g = fs g) := by
  have h := tool_extends env a fs hs
  refine ⟨h.some g, fun hf hg => ?_⟩
  obtain ⟨c, hc⟩ := Option.isSome_iff_exists.1 hg
  rw [hc]
  exact h.keep hf g c hc

/-- **C122**: only the files of the pairs of images are written; or the rectified models, if there are no images -/
theorem only_outputs (env : Env I C) (a : Args) (fs : FS C) (hs : ∀ l, ∀ f ∈ env.schedule l, f ∈ l) (g : FName) (h : (tool env a fs).1 g ≠ fs g) : MayWrite env a g := by
  by_contra hn
  exact h ((tool_extends env a fs hs).only g hn)

/-- **C122**: with no images the rectified models are written, and nothing else -/
theorem models_only (env : Env I C) (a : Args) (fs : FS C) (hi : a.images = []) (ok : (tool env a fs).2 = true) (k : Kind) (f : FName) (hk : (k, f) ∈ [(Kind.model0, "rectified0".toList), (Kind.model1, "rectified1".toList)]) :
    env.modelsOk = true ∧ ∀ g, g = a.outdir ++ '/' :: (f ++ (dashTag a ++ ".cameramodel".toList)) →
    ((fs g).isSome → a.force = false → (tool env a fs).1 g = fs g) ∧ (fs g = none ∨ a.force = true → (tool env a fs).1 g = env.modelText k ∧ (env.modelText k).isSome) := by
  have hd : (rectifiedModels.map fun o => outName a o.2).Nodup := by
    show [outName a "rectified0.cameramodel".toList, outName a "rectified1.cameramodel".toList].Nodup
    rw [(models_out a).1, (models_out a).2]
    simp
  rcases tool_cases env a fs with h | ⟨-, hm, h⟩ | ⟨g0, g1, hi', -⟩
  · rw [h] at ok; cases ok
  · refine ⟨hm, ?_⟩
    rintro g rfl
    rw [h] at ok ⊢
    obtain ⟨o, ho, rfl, e⟩ : ∃ o ∈ rectifiedModels, o.1 = k ∧ outName a o.2 = a.outdir ++ '/' :: (f ++ (dashTag a ++ ".cameramodel".toList)) := by
      rcases List.mem_cons.1 hk with hk | hk
      · injection hk with h1 h2
        subst h1; subst h2
        exact ⟨_, List.mem_cons_self, rfl, (models_out a).1⟩
      · rw [List.mem_singleton] at hk
        injection hk with h1 h2
        subst h1; subst h2
        exact ⟨_, List.mem_cons_of_mem _ List.mem_cons_self, rfl, (models_out a).2⟩
    have h1 := writeList_contents a env.modelText _ fs ok hd o ho
    have h2 := writeList_exists a env.modelText _ fs ok o ho
    rw [e] at h1 h2
    constructor
    · intro hs hf
      rw [h1, hs, hf]; rfl
    · intro hs
      have : (writeList a env.modelText fs rectifiedModels).1 (a.outdir ++ '/' :: (f ++ (dashTag a ++ ".cameramodel".toList))) = env.modelText o.1 := by
        rw [h1, if_neg]
        rcases hs with hs | hs
        · rw [hs]; simp
        · rw [hs]; simp
      exact ⟨this, by rw [← this]; exact h2⟩
  · rw [hi] at hi'; cases hi'

/-- **C122**: the numbers of images must be the same, and not 0; otherwise nothing is written, and it's an error -/
theorem counts_checked (env : Env I C) (a : Args) (fs : FS C) (g0 g1 : FName) (hi : a.images = [g0, g1]) (h : (env.glob g0).length ≠ (env.glob g1).length ∨ env.glob g0 = [] ∨ env.glob g1 = []) :
    tool env a fs = (fs, false) := by
  rcases tool_cases env a fs with h' | ⟨hi', -⟩ | ⟨g0', g1', hi', -, h1, h2, -⟩
  · exact h'
  · rw [hi] at hi'; cases hi'
  · exfalso
    rw [hi] at hi'
    injection hi' with e e'
    injection e' with e' _
    subst e; subst e'
    rcases h with h | h | h
    · exact h h1
    · rw [h] at h2; exact h2 rfl
    · rw [h] at h1; exact h2 h1

/-- **C122**: if the tool succeeds, each pair of images was loaded, and each that's not refused has its files. This is for one job, or one pair of images -/
theorem all_pairs_partial (env : Env I C) (a : Args) (fs : FS C) (ok : (tool env a fs).2 = true) (hj : a.jobs ≤ 1 ∨ ∀ g ∈ a.images, (env.glob g).length = 1) (f : FName × FName) (hf : Pair env a f) :
    (env.load f.1).isSome ∧ (env.load f.2).isSome ∧ (¬ Refused env a f → ∀ k, Written a k → ((tool env a fs).1 (fileOf a f k)).isSome) := by
  obtain ⟨g0, g1, hi, i, e0, e1⟩ := hf
  rcases tool_cases env a fs with h' | ⟨hi', -⟩ | ⟨g0', g1', hi', -, h1, h2, h⟩
  · rw [h'] at ok; cases ok
  · rw [hi] at hi'; cases hi'
  · rw [hi] at hi'
    injection hi' with e e'
    injection e' with e' _
    subst e; subst e'
    have hm : f ∈ (env.glob g0).zip (env.glob g1) := List.mem_iff_getElem?.2 ⟨i, List.getElem?_zip_eq_some.2 ⟨e0, e1⟩⟩
    rcases h with ⟨-, h⟩ | ⟨⟨n1, n2⟩, -⟩
    · rw [h] at ok ⊢
      obtain ⟨h3, h4⟩ := serial_ok env a _ fs ok f hm
      exact ⟨h3, h4, fun hr k hk => serial_exists env a _ fs ok f hm hr k hk⟩
    · exfalso
      rcases hj with hj | hj
      · omega
      · exact n1 (hj g0 (by rw [hi]; exact List.mem_cons_self))

/-- **C122, false**: "if nothing could be processed, it's an error": images of a wrong size (or color images for ELAS): the tool succeeds, and nothing is written -/
theorem refused_wrong (env : Env I C) (a : Args) (fs : FS C) (g0 g1 : FName) (hi : a.images = [g0, g1]) (hm : env.modelsOk = true) (hl : (env.glob g0).length = (env.glob g1).length) (h0 : env.glob g0 ≠ []) (hj : a.jobs ≤ 1)
    (hr : ∀ f, Pair env a f → Refused env a f) : tool env a fs = (fs, true) := by
  have h := serial_refused env a fs ((env.glob g0).zip (env.glob g1)) fun f hf => hr f ⟨g0, g1, hi, zip_pair hf⟩
  unfold tool
  rw [if_neg (by rw [hi]; simp), hm, if_neg (by simp), hi]
  dsimp only [List.headD]
  rw [if_neg (by rw [hl]; simp), if_neg (by rw [List.length_eq_zero_iff]; exact h0), if_pos (Or.inr hj)]
  exact h

/-- **C122, false**: "with several jobs a failure is an error, as with one": whatever is raised, the tool succeeds. For instance if no image can be read -/
theorem parallel_wrong (env : Env I C) (a : Args) (fs : FS C) (g0 g1 : FName) (hi : a.images = [g0, g1]) (hm : env.modelsOk = true) (hl : (env.glob g0).length = (env.glob g1).length) (h0 : 2 ≤ (env.glob g0).length)
    (hload : ∀ f, Pair env a f → env.load f.1 = none) (hs : ∀ l, ∀ f ∈ env.schedule l, f ∈ l) :
    (a.jobs ≤ 1 → tool env a fs = (fs, false)) ∧ (1 < a.jobs → tool env a fs = (fs, true)) := by
  have hr : ∀ f ∈ (env.glob g0).zip (env.glob g1), process env a fs f = (fs, .raised) := by
    intro f hf
    unfold process
    rw [hload f ⟨g0, g1, hi, zip_pair hf⟩]
  have htool : tool env a fs = if (env.glob g0).length = 1 ∨ a.jobs ≤ 1 then serial env a fs ((env.glob g0).zip (env.glob g1)) else (parallel env a fs ((env.glob g0).zip (env.glob g1)), true) := by
    unfold tool
    rw [if_neg (by rw [hi]; simp), hm, if_neg (by simp), hi]
    dsimp only [List.headD]
    rw [if_neg (by rw [hl]; simp), if_neg (by omega)]
  constructor
  · intro hj
    rw [htool, if_pos (Or.inr hj)]
    cases hz : (env.glob g0).zip (env.glob g1) with
    | nil =>
      have := congrArg List.length hz
      rw [List.length_zip] at this
      simp only [List.length_nil] at this
      omega
    | cons f l =>
      rw [serial, hr f (by rw [hz]; exact List.mem_cons_self)]
  · intro hj
    rw [htool, if_neg (by omega)]
    have : ∀ l : List (FName × FName), (∀ f ∈ l, f ∈ (env.glob g0).zip (env.glob g1)) → l.foldl (fun fs f => (process env a fs f).1) fs = fs := by
      intro l
      induction l with
      | nil => intro _; rfl
      | cons f l ih =>
        intro h
        rw [List.foldl_cons, hr f (h f List.mem_cons_self)]
        exact ih fun f' hf' => h f' (List.mem_cons_of_mem _ hf')
    unfold parallel
    rw [this _ (hs _)]

theorem tag_no_slash (a : Args) : '/' ∉ dashTag a := by
  unfold dashTag
  cases a.tag with
  | none => simp
  | some t =>
    intro h
    rcases List.mem_cons.1 h with h | h
    · exact absurd h (by decide)
    · rcases tag_clean.1 false t _ h with h | h | h | h
      · exact absurd h (by decide)
      · exact absurd h (by decide)
      · exact absurd h (by decide)
      · exact absurd h (by decide)

/-- **C122**: whatever directories the images are in, and whatever the tag is, everything is written right into the directory that's given -/
theorem in_outdir (env : Env I C) (a : Args) (fs : FS C) (hs : ∀ l, ∀ f ∈ env.schedule l, f ∈ l) (g : FName) (h : (tool env a fs).1 g ≠ fs g) : ∃ n, g = a.outdir ++ '/' :: n ∧ '/' ∉ n := by
  rcases only_outputs env a fs hs g h with ⟨-, h | h⟩ | ⟨f, -, k, -, h⟩
  · refine ⟨_, h, ?_⟩
    simp [tag_no_slash]
  · refine ⟨_, h, ?_⟩
    simp [tag_no_slash]
  · refine ⟨_, h, ?_⟩
    obtain ⟨h1, -, -, h2⟩ := suffix_ok a.matcher k
    have hp : '/' ∉ prefixOf f k := by
      cases k <;> first | exact base_no_slash _ | exact fun h => by cases h
    simp only [List.mem_append, List.mem_cons, not_or]
    exact ⟨⟨hp, h1⟩, tag_no_slash a, by decide, h2⟩

/-! ### examples -/

/-- the arguments in the examples: an output directory, a tag, a point cloud -/
def exArgs (force : Bool) (jobs : Int) (images : List String) : Args :=
  ⟨"out".toList, some "a b".toList, force, false, false, true, .sgbm, jobs, images.map String.toList⟩

/-- all images are 640x480, except "small.png"; the lists are known; "bad.png" can't be read -/
def exEnv : Env (List Char) (List Char) where
  modelsOk := true
  modelSize := ((640, 480), (640, 480))
  load f := if f = "bad.png".toList then none else some f
  imageSize f := if f = "small.png".toList then (320, 240) else (640, 480)
  color _ := false
  glob g := if g = "l*".toList then ["l0.png".toList, "l1.png".toList] else if g = "r*".toList then ["r0.png".toList, "r1.png".toList] else if g = "b*".toList then ["bad.png".toList, "bad.png".toList] else [g]
  modelText k := match k with
    | .model0 => some "m0".toList
    | _ => some "m1".toList
  compute f _ := some fun k => match k with
    | .rectified0 => some ('0' :: f.1)
    | .rectified1 => some ('1' :: f.2)
    | _ => some (f.1 ++ f.2)
  schedule l := l.reverse

def noFiles : FS (List Char) := fun _ => none

/-- two pairs: the rectified image of the second pair; the names have the tag -/
example : (tool exEnv (exArgs false 1 ["l*", "r*"]) noFiles).2 = true ∧ (tool exEnv (exArgs false 1 ["l*", "r*"]) noFiles).1 "out/r1-rectified-a_b.png".toList = some "1r1.png".toList := by
  decide +kernel

/-- no images: the models -/
example : (tool exEnv (exArgs false 1 []) noFiles).2 = true ∧ (tool exEnv (exArgs false 1 []) noFiles).1 "out/rectified1-a_b.cameramodel".toList = some "m1".toList := by
  decide +kernel

/-- `pair_written_partial` has such a case -/
example : (process exEnv (exArgs false 1 []) noFiles ("l0.png".toList, "r0.png".toList)).2 = .written ∧ imageBase "l0.png".toList ≠ imageBase "r0.png".toList ∧ Written (exArgs false 1 []) .points := by
  refine ⟨by decide +kernel, by decide +kernel, ?_⟩
  unfold Written exArgs
  simp

/-- `same_name_wrong`: left/0.png and right/0.png: the image of camera 1 isn't written -/
example : (process exEnv (exArgs false 1 []) noFiles ("left/0.png".toList, "right/0.png".toList)).2 = .written ∧ imageBase "left/0.png".toList = imageBase "right/0.png".toList ∧
    (process exEnv (exArgs false 1 []) noFiles ("left/0.png".toList, "right/0.png".toList)).1 "out/0-rectified-a_b.png".toList = some "0left/0.png".toList ∧
    (process exEnv (exArgs true 1 []) noFiles ("left/0.png".toList, "right/0.png".toList)).1 "out/0-rectified-a_b.png".toList = some "1right/0.png".toList := by
  decide +kernel

/-- the schedule in the examples has only the pairs that are given: the hypothesis of `keeps_files`, `only_outputs`, `parallel_wrong` -/
example : ∀ l, ∀ f ∈ exEnv.schedule l, f ∈ l := fun _ _ h => List.mem_reverse.1 h

/-- `keeps_files`, `only_outputs`: a file that existed is kept; another one is written -/
example : (tool exEnv (exArgs false 1 ["l*", "r*"]) (put noFiles "out/l0-range-a_b.png".toList "old".toList)).1 "out/l0-range-a_b.png".toList = some "old".toList ∧
    (tool exEnv (exArgs false 1 ["l*", "r*"]) noFiles).1 "out/l0-range-a_b.png".toList ≠ noFiles "out/l0-range-a_b.png".toList := by
  decide +kernel

/-- `counts_checked` -/
example : (exEnv.glob "l*".toList).length ≠ (exEnv.glob "x".toList).length := by decide +kernel

theorem exPair (a : Args) (x y : String) (hi : a.images = [x.toList, y.toList]) (hx : exEnv.glob x.toList = [x.toList]) (f : FName × FName) (h : Pair exEnv a f) : f.1 = x.toList := by
  obtain ⟨g0, g1, e, i, h0, -⟩ := h
  rw [hi] at e
  injection e with e _
  subst e
  rw [hx] at h0
  match i, h0 with
  | 0, h0 => simpa using h0.symm
  | i + 1, h0 => simp at h0

/-- `all_pairs_partial`: the pair l1.png, r1.png -/
example : Pair exEnv (exArgs false 1 ["l*", "r*"]) ("l1.png".toList, "r1.png".toList) ∧ (exArgs false 1 ["l*", "r*"]).jobs ≤ 1 :=
  ⟨⟨"l*".toList, "r*".toList, rfl, 1, by decide +kernel, by decide +kernel⟩, by decide⟩

/-- `refused_wrong`: an image that's too small -/
example : tool exEnv (exArgs false 1 ["small.png", "r.png"]) noFiles = (noFiles, true) := by
  refine refused_wrong exEnv _ noFiles "small.png".toList "r.png".toList rfl rfl (by decide +kernel) (by decide +kernel) (by decide) ?_
  intro f hf
  have h1 := exPair _ "small.png" "r.png" rfl (by decide +kernel) f hf
  obtain ⟨g0, g1, e, i, -, h0⟩ := hf
  have h2 : f.2 = "r.png".toList := by
    have e' : [("small.png".toList : FName), "r.png".toList] = [g0, g1] := e
    injection e' with _ e'
    injection e' with e' _
    subst e'
    have hx : exEnv.glob "r.png".toList = ["r.png".toList] := by decide +kernel
    rw [hx] at h0
    match i, h0 with
    | 0, h0 => simpa using h0.symm
    | i + 1, h0 => simp at h0
  refine ⟨"small.png".toList, "r.png".toList, ?_, ?_, Or.inl ?_⟩
  · rw [h1]; decide +kernel
  · rw [h2]; decide +kernel
  · decide +kernel

/-- `parallel_wrong`: two images that can't be read, with two jobs -/
example : tool exEnv (exArgs false 2 ["b*", "r*"]) noFiles = (noFiles, true) ∧ tool exEnv (exArgs false 1 ["b*", "r*"]) noFiles = (noFiles, false) := by
  have h := fun j : Int => parallel_wrong exEnv (exArgs false j ["b*", "r*"]) noFiles "b*".toList "r*".toList rfl rfl (by decide +kernel) (by decide +kernel) (by
    rintro f ⟨g0, g1, e, i, h0, -⟩
    have e' : [("b*".toList : FName), "r*".toList] = [g0, g1] := e
    injection e' with e' _
    subst e'
    have hx : exEnv.glob "b*".toList = ["bad.png".toList, "bad.png".toList] := by decide +kernel
    rw [hx] at h0
    have : f.1 = "bad.png".toList := by
      match i, h0 with
      | 0, h0 => simpa using h0.symm
      | 1, h0 => simpa using h0.symm
      | i + 2, h0 => simp at h0
    rw [this]; decide +kernel) (fun _ _ h => List.mem_reverse.1 h)
  exact ⟨(h 2).2 (by decide), (h 1).1 (by decide)⟩

end Mrcal.StereoTool

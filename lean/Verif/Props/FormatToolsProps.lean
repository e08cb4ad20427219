import Verif.Model.FormatTools
import Verif.Props.ConvertLensProps
/-
C120: the format converters mrcal-from-cahvor, mrcal-from-ros, mrcal-to-cahvor; the format and the comments of cameramodel.write()
-/
namespace Mrcal.Format

open Mrcal.Convert (splitExt baseName dirName splitExtBase)

/-! ### the names of the files -/

/-- **Specification**: `base` is the name of a file without its extension `ext`. The extension begins at the last dot of the name of the file; it's missing if there are only dots before that -/
structure Split (p base ext : List Char) : Prop where
  whole : base ++ ext = p
  dot : ext = [] ∨ ∃ e, ext = '.' :: e ∧ '.' ∉ e ∧ '/' ∉ e
  stem : ext = [] ∨ ∃ dir s, base = dir ++ s ∧ '/' ∉ s ∧ (dir = [] ∨ ∃ d, dir = d ++ ['/']) ∧ ∃ c ∈ s, c ≠ '.'
  none : ext = [] → ∀ dir s e, p = dir ++ (s ++ '.' :: e) → '/' ∉ s → '/' ∉ e → (dir = [] ∨ ∃ d, dir = d ++ ['/']) → ∀ c ∈ s, c = '.'

/-- **Specification**: where the converted model goes: the same directory, or --outdir; the same name, with another extension -/
def Target (ext : List Char) (outdir : Option FName) (f o : FName) : Prop :=
  ∃ base e, Split f base e ∧
    match outdir with
    | none => o = base ++ ext
    | some d => ∃ dir s, base = dir ++ s ∧ '/' ∉ s ∧ (dir = [] ∨ ∃ d', dir = d' ++ ['/']) ∧ o = d ++ '/' :: (s ++ ext)

/-- **Specification**: the extension of the input says that there's nothing to do; upper case and lower case are the same -/
def Named (ext : List Char) (f : FName) : Prop := ∃ base e, Split f base e ∧ e.map Char.toLower = ext

theorem takeWhile_short (A B : List Char) : ((A ++ '.' :: B).takeWhile fun c => decide (c ≠ '.')).length ≤ A.length := by
  induction A with
  | nil => simp
  | cons c A ih =>
    rw [List.cons_append, List.takeWhile_cons]
    split
    · simpa using ih
    · simp

theorem last_dot {b1 b2 x1 x2 : List Char} (h : b1 ++ '.' :: x1 = b2 ++ '.' :: x2) (h1 : '.' ∉ x1) (h2 : '.' ∉ x2) : b1 = b2 ∧ x1 = x2 := by
  rcases List.append_eq_append_iff.1 h with ⟨t, ht, h'⟩ | ⟨t, ht, h'⟩
  · cases t with
    | nil => simp at ht h'; exact ⟨ht.symm, h'⟩
    | cons c t =>
      simp only [List.cons_append, List.cons.injEq] at h'
      exact absurd (h'.2 ▸ List.mem_append_right t List.mem_cons_self) h1
  · cases t with
    | nil => simp at ht h'; exact ⟨ht, h'.symm⟩
    | cons c t =>
      simp only [List.cons_append, List.cons.injEq] at h'
      exact absurd (h'.2 ▸ List.mem_append_right t List.mem_cons_self) h2

theorem split_ext (p : List Char) : Split p (splitExt p).1 (splitExt p).2 := by
  have hp := Convert.parts p
  obtain ⟨h1, h2⟩ := Convert.splitBase_parts (baseName p)
  have hs := Convert.base_slash p
  refine ⟨hp.whole, ?_, ?_, ?_⟩
  · rcases hp.dot with h | ⟨e, h, hd⟩
    · exact Or.inl h
    · exact Or.inr ⟨e, h, hd, fun hm => hp.slash (h ▸ List.mem_cons_of_mem _ hm)⟩
  · rcases h2 with h | h
    · exact Or.inl h
    · exact Or.inr ⟨dirName p, (splitExtBase (baseName p)).1, rfl, fun hm => hs (h1 ▸ List.mem_append_left _ hm), Convert.dir_form p, h.2⟩
  · intro he dir s e hpe hss hse hdir
    have hb : baseName p = s ++ '.' :: e := by
      rw [hpe]
      refine Convert.base_of _ _ ?_ hdir
      intro hm
      rcases List.mem_append.1 hm with h | h
      · exact hss h
      · rcases List.mem_cons.1 h with h | h
        · exact absurd h (by decide)
        · exact hse h
    have he' : (splitExtBase (baseName p)).2 = [] := he
    rw [hb] at he'
    unfold splitExtBase at he'
    rw [if_pos (List.mem_append_right _ List.mem_cons_self)] at he'
    dsimp only at he'
    split at he'
    · rename_i hall
      intro c hc
      simp only [List.all_eq_true, decide_eq_true_eq] at hall
      refine hall c ?_
      rw [List.mem_reverse]
      have hrev : (s ++ '.' :: e).reverse = e.reverse ++ '.' :: s.reverse := by simp
      rw [hrev]
      have hk := takeWhile_short e.reverse s.reverse
      rw [List.length_reverse] at *
      have hd : (e.reverse ++ '.' :: s.reverse).drop (e.length + 1) = s.reverse := by
        have := Convert.drop_after e.reverse s.reverse '.' _ rfl
        rwa [List.length_reverse] at this
      have hm : c ∈ (e.reverse ++ '.' :: s.reverse).drop (e.length + 1) := by rw [hd]; exact List.mem_reverse.2 hc
      refine List.drop_subset_drop_left _ ?_ hm
      omega
    · simp at he'

theorem split_unique {p b1 e1 b2 e2 : List Char} (h1 : Split p b1 e1) (h2 : Split p b2 e2) : b1 = b2 ∧ e1 = e2 := by
  have key : ∀ {b1 e1 b2 e2 : List Char}, Split p b1 e1 → Split p b2 e2 → e1 = [] → e2 ≠ [] → False := by
    intro b1 e1 b2 e2 h1 h2 he1 he2
    obtain ⟨x, hx, -, hxs⟩ := h2.dot.resolve_left he2
    obtain ⟨dir, s, hb, hs, hd, c, hc, hcn⟩ := h2.stem.resolve_left he2
    refine hcn (h1.none he1 dir s x ?_ hs hxs hd c hc)
    rw [← h2.whole, hb, hx, List.append_assoc]
  by_cases he1 : e1 = []
  · by_cases he2 : e2 = []
    · have a1 := h1.whole
      have a2 := h2.whole
      subst he1; subst he2
      simp only [List.append_nil] at a1 a2
      exact ⟨a1.trans a2.symm, rfl⟩
    · exact (key h1 h2 he1 he2).elim
  · by_cases he2 : e2 = []
    · exact (key h2 h1 he2 he1).elim
    · obtain ⟨x1, hx1, hd1, -⟩ := h1.dot.resolve_left he1
      obtain ⟨x2, hx2, hd2, -⟩ := h2.dot.resolve_left he2
      have := last_dot (b1 := b1) (b2 := b2) (x1 := x1) (x2 := x2) (by rw [← hx1, ← hx2, h1.whole, h2.whole]) hd1 hd2
      exact ⟨this.1, by rw [hx1, hx2, this.2]⟩

theorem target_iff (ext : List Char) (a : Args) (f o : FName) : Target ext a.outdir f o ↔ o = outName ext a f := by
  unfold Target outName
  constructor
  · rintro ⟨base, e, hs, h⟩
    obtain ⟨rfl, -⟩ := split_unique hs (split_ext f)
    cases hd : a.outdir with
    | none => rw [hd] at h; exact h
    | some d =>
      rw [hd] at h
      obtain ⟨dir, s, hb, hss, hdir, ho⟩ := h
      have : baseName (splitExt f).1 = s := by rw [hb]; exact Convert.base_of _ _ hss hdir
      dsimp only
      rw [ho, this, List.append_assoc, List.cons_append]
  · intro h
    refine ⟨_, _, split_ext f, ?_⟩
    cases hd : a.outdir with
    | none => rw [hd] at h; exact h
    | some d =>
      rw [hd] at h
      refine ⟨dirName (splitExt f).1, baseName (splitExt f).1, (Convert.dir_base _).symm, Convert.base_slash _, Convert.dir_form _, ?_⟩
      rw [h]
      simp

theorem named_iff (ext : List Char) (f : FName) : Named ext f ↔ already ext f = true := by
  unfold Named already
  rw [decide_eq_true_eq]
  constructor
  · rintro ⟨b, e, hs, h⟩
    obtain ⟨-, rfl⟩ := split_unique hs (split_ext f)
    exact h
  · exact fun h => ⟨_, _, split_ext f, h⟩

/-- each input has exactly one target -/
theorem target_exists_unique (ext : List Char) (outdir : Option FName) (f : FName) : ∃! o, Target ext outdir f o := by
  refine ⟨outName ext ⟨false, outdir, []⟩ f, (target_iff ext ⟨false, outdir, []⟩ f _).2 rfl, ?_⟩
  intro o ho
  exact (target_iff ext ⟨false, outdir, []⟩ f o).1 ho

example : Target ".cameramodel".toList none "a.b/left.1.cahvor".toList "a.b/left.1.cameramodel".toList :=
  (target_iff _ ⟨false, none, []⟩ _ _).2 (by decide)
example : Target ".cameramodel".toList (some "out".toList) "a.b/left.1.cahvor".toList "out/left.1.cameramodel".toList :=
  (target_iff _ ⟨false, some "out".toList, []⟩ _ _).2 (by decide)
example : Target ".cahvor".toList none "a.b/left".toList "a.b/left.cahvor".toList := (target_iff _ ⟨false, none, []⟩ _ _).2 (by decide)
example : Target ".cahvor".toList none "x/.hidden".toList "x/.hidden.cahvor".toList := (target_iff _ ⟨false, none, []⟩ _ _).2 (by decide)

theorem target_not_input_of (ext : List Char) (hl : ext.map Char.toLower = ext) (hx : '/' ∉ ext) (outdir : Option FName) (f : FName) (h : ¬ Named ext f) : ¬ Target ext outdir f f := by
  rintro ⟨base, e, hs, ho⟩
  refine h ⟨base, e, hs, ?_⟩
  have hw := hs.whole
  have he : e = ext := by
    cases outdir with
    | none =>
      dsimp only at ho
      exact List.append_cancel_left (hw.trans ho)
    | some d =>
      obtain ⟨dir, s, hb, hss, hdir, ho⟩ := ho
      · have h1 : baseName f = s ++ e := by
          rw [← hw, hb, List.append_assoc]
          refine Convert.base_of _ _ ?_ hdir
          intro hm
          rcases List.mem_append.1 hm with h | h
          · exact hss h
          · rcases hs.dot with h0 | ⟨x, h0, -, hxs⟩
            · rw [h0] at h; simp at h
            · rw [h0] at h
              rcases List.mem_cons.1 h with h | h
              · exact absurd h (by decide)
              · exact hxs h
        have h2 : baseName f = s ++ ext := by
          have : f = (d ++ ['/']) ++ (s ++ ext) := by rw [ho]; simp
          rw [this]
          refine Convert.base_of _ _ ?_ (Or.inr ⟨d, rfl⟩)
          intro hm
          rcases List.mem_append.1 hm with h | h
          · exact hss h
          · exact hx h
        exact List.append_cancel_left (h1.symm.trans h2)
  rw [he, hl]

/-- a model that isn't refused is never written over itself: not with any options -/
theorem target_not_input (outdir : Option FName) (f : FName) : (¬ Named ".cameramodel".toList f → ¬ Target ".cameramodel".toList outdir f f) ∧
    (¬ Named ".cahvor".toList f → ¬ Target ".cahvor".toList outdir f f) :=
  ⟨target_not_input_of _ (by decide) (by decide) outdir f, target_not_input_of _ (by decide) (by decide) outdir f⟩

example : ¬ Named ".cameramodel".toList "a/left.cahvor".toList := fun h => by have := (named_iff _ _).1 h; revert this; decide
example : Named ".cahvor".toList "a/LEFT.CAHVOR".toList := (named_iff _ _).2 (by decide)

/-! ### the format -/

theorem suffix_ext {s ext x : List Char} (hl : s.length ≤ ext.length) (h : s.isSuffixOf (x ++ ext) = true) : s.isSuffixOf ext = true := by
  rw [List.isSuffixOf_iff_suffix] at *
  exact List.suffix_of_suffix_length_le h (List.suffix_append x ext) hl

theorem format_cahvor (x : List Char) : formatOf (x ++ ".cahvor".toList) = .cahvor := by
  unfold formatOf
  rw [if_pos]
  rw [List.any_eq_true]
  exact ⟨".cahvor".toList, by simp, List.isSuffixOf_iff_suffix.2 (List.suffix_append _ _)⟩

theorem format_cameramodel (x : List Char) : formatOf (x ++ ".cameramodel".toList) = .cameramodel := by
  unfold formatOf
  rw [if_neg, if_neg]
  · rw [List.any_eq_true]
    rintro ⟨e, he, h⟩
    simp only [List.mem_cons, List.not_mem_nil, or_false] at he
    rcases he with rfl | rfl <;> exact absurd (suffix_ext (by decide) h) (by decide)
  · rw [List.any_eq_true]
    rintro ⟨e, he, h⟩
    simp only [List.mem_cons, List.not_mem_nil, or_false] at he
    rcases he with rfl | rfl | rfl <;> exact absurd (suffix_ext (by decide) h) (by decide)

/-- the file that the tool writes gets the format of its extension -/
theorem format_target (outdir : Option FName) (f o : FName) : (Target ".cahvor".toList outdir f o → formatOf o = .cahvor) ∧ (Target ".cameramodel".toList outdir f o → formatOf o = .cameramodel) := by
  constructor <;>
  · intro h
    have := (target_iff _ ⟨false, outdir, []⟩ f o).1 h
    rw [this]
    unfold outName
    first | exact format_cahvor _ | exact format_cameramodel _

/-! ### the loop -/

/-- a tool: the extension, and the format. `cahvor`: the option of cameramodel.write() for the standard output -/
structure Tool (ext : List Char) (cahvor : Bool) (fmt : Fmt) : Prop where
  fmtOf : ∀ x, formatOf (x ++ ext) = fmt
  std : (if cahvor then Fmt.cahvor else Fmt.cameramodel) = fmt

theorem tool_cahvor : Tool ".cahvor".toList true .cahvor := ⟨format_cahvor, rfl⟩
theorem tool_cameramodel : Tool ".cameramodel".toList false .cameramodel := ⟨format_cameramodel, rfl⟩

theorem comments_none (fmt : Fmt) : comments fmt none = [] := by cases fmt <;> rfl

theorem write_eq {M C : Type} {ext : List Char} {cahvor : Bool} {fmt : Fmt} (ht : Tool ext cahvor fmt) (env : Env M C) (fs : FS C) (a : Args) (f : FName) (m : M) :
    writeFile env fs (outName ext a f) none m = match env.text fmt [] m with
      | some c => (put fs (outName ext a f) c, true)
      | none => (put fs (outName ext a f) (env.commentText []), false) := by
  have : formatOf (outName ext a f) = fmt := by unfold outName; exact ht.fmtOf _
  unfold writeFile
  rw [this, comments_none]
  cases env.text fmt [] m <;> rfl

/-- one file, in the loop: what can happen -/
inductive Step {M C : Type} (env : Env M C) (ext : List Char) (fmt : Fmt) (a : Args) (fs : FS C) (f : FName) (rest : FS C → Out C) : Out C → Prop
  | stdinFailed : f = "-".toList → (∀ c m, env.stdin = some c → env.read c = some m → env.text fmt [] m = none) → Step env ext fmt a fs f rest ⟨fs, [], false⟩
  | stdin (c m t) : f = "-".toList → env.stdin = some c → env.read c = some m → env.text fmt [] m = some t → Step env ext fmt a fs f rest ((rest fs).print (.inl t))
  | already : f ≠ "-".toList → Named ext f → Step env ext fmt a fs f rest ⟨fs, [], true⟩
  | exists_ : f ≠ "-".toList → ¬ Named ext f → a.force = false → (fs (outName ext a f)).isSome → Step env ext fmt a fs f rest (rest fs)
  | unreadable : f ≠ "-".toList → ¬ Named ext f → (a.force = true ∨ fs (outName ext a f) = none) → (∀ c, fs f = some c → env.read c = none) → Step env ext fmt a fs f rest ⟨fs, [], false⟩
  | unwritable (c m) : f ≠ "-".toList → ¬ Named ext f → (a.force = true ∨ fs (outName ext a f) = none) → fs f = some c → env.read c = some m → env.text fmt [] m = none →
      Step env ext fmt a fs f rest ⟨put fs (outName ext a f) (env.commentText []), [], false⟩
  | written (c m t) : f ≠ "-".toList → ¬ Named ext f → (a.force = true ∨ fs (outName ext a f) = none) → fs f = some c → env.read c = some m → env.text fmt [] m = some t →
      Step env ext fmt a fs f rest ((rest (put fs (outName ext a f) t)).print (.inr (outName ext a f)))

theorem loop_step {M C : Type} {ext : List Char} {cahvor : Bool} {fmt : Fmt} (ht : Tool ext cahvor fmt) (env : Env M C) (a : Args) (fs : FS C) (f : FName) (l : List FName) :
    Step env ext fmt a fs f (fun fs => loop env ext cahvor a fs l) (loop env ext cahvor a fs (f :: l)) := by
  rw [loop]
  by_cases h1 : f = "-".toList
  · rw [if_pos h1, ht.std]
    cases h : (env.stdin.bind env.read).bind (env.text fmt []) with
    | none =>
      refine .stdinFailed h1 ?_
      intro c m hc hm
      rw [hc] at h
      simpa [hm] using h
    | some t =>
      obtain ⟨m, hm, ht'⟩ := Option.bind_eq_some_iff.1 h
      obtain ⟨c, hc, hm⟩ := Option.bind_eq_some_iff.1 hm
      exact .stdin c m t h1 hc hm ht'
  · rw [if_neg h1]
    by_cases h2 : already ext f = true
    · rw [if_pos h2]
      exact .already h1 ((named_iff _ _).2 h2)
    · rw [if_neg h2]
      have h2' : ¬ Named ext f := fun h => h2 ((named_iff _ _).1 h)
      by_cases h3 : (!a.force && (fs (outName ext a f)).isSome) = true
      · rw [if_pos h3]
        simp only [Bool.and_eq_true, Bool.not_eq_true'] at h3
        exact .exists_ h1 h2' h3.1 h3.2
      · rw [if_neg h3]
        have h3' : a.force = true ∨ fs (outName ext a f) = none := by
          cases hf : a.force with
          | true => exact Or.inl rfl
          | false =>
            right
            rw [hf] at h3
            simpa using h3
        cases h : (fs f).bind env.read with
        | none =>
          refine .unreadable h1 h2' h3' ?_
          intro c hc
          rw [hc] at h
          simpa using h
        | some m =>
          obtain ⟨c, hc, hm⟩ := Option.bind_eq_some_iff.1 h
          dsimp only
          rw [write_eq ht]
          cases ht' : env.text fmt [] m with
          | none => exact .unwritable c m h1 h2' h3' hc hm ht'
          | some t => exact .written c m t h1 h2' h3' hc hm ht'

theorem put_other {C : Type} (fs : FS C) {f g : FName} (c : C) (h : g ≠ f) : put fs f c g = fs g := by unfold put; rw [if_neg h]
theorem put_same {C : Type} (fs : FS C) (f : FName) (c : C) : put fs f c f = some c := by unfold put; rw [if_pos rfl]

/-- only the targets change -/
theorem loop_other {M C : Type} {ext : List Char} {cahvor : Bool} {fmt : Fmt} (ht : Tool ext cahvor fmt) (env : Env M C) (a : Args) (g : FName) :
    ∀ (l : List FName) (fs : FS C), (∀ f ∈ l, f ≠ "-".toList → g ≠ outName ext a f) → (loop env ext cahvor a fs l).fs g = fs g := by
  intro l
  induction l with
  | nil => intro fs _; rfl
  | cons f l ih =>
    intro fs h
    have hl : ∀ f ∈ l, f ≠ "-".toList → g ≠ outName ext a f := fun x hx => h x (List.mem_cons_of_mem _ hx)
    have hs := loop_step ht env a fs f l
    generalize loop env ext cahvor a fs (f :: l) = r at hs
    cases hs with
    | stdinFailed _ _ => rfl
    | stdin c m t _ _ _ _ => exact ih fs hl
    | already _ _ => rfl
    | exists_ _ _ _ _ => exact ih fs hl
    | unreadable _ _ _ _ => rfl
    | unwritable c m h1 _ _ _ _ _ => exact put_other fs _ (h f List.mem_cons_self h1)
    | written c m t h1 _ _ _ _ _ => exact (ih _ hl).trans (put_other fs _ (h f List.mem_cons_self h1))

/-- files that exist remain, unless --force -/
theorem loop_keep {M C : Type} {ext : List Char} {cahvor : Bool} {fmt : Fmt} (ht : Tool ext cahvor fmt) (env : Env M C) (a : Args) (hf : a.force = false) (g : FName) :
    ∀ (l : List FName) (fs : FS C), (fs g).isSome → (loop env ext cahvor a fs l).fs g = fs g := by
  intro l
  induction l with
  | nil => intro fs _; rfl
  | cons f l ih =>
    intro fs h
    have hs := loop_step ht env a fs f l
    generalize loop env ext cahvor a fs (f :: l) = r at hs
    have key : (a.force = true ∨ fs (outName ext a f) = none) → g ≠ outName ext a f := by
      intro h3 e
      rw [hf] at h3
      subst e
      rw [h3.resolve_left (by simp)] at h
      simp at h
    cases hs with
    | stdinFailed _ _ => rfl
    | stdin c m t _ _ _ _ => exact ih fs h
    | already _ _ => rfl
    | exists_ _ _ _ _ => exact ih fs h
    | unreadable _ _ _ _ => rfl
    | unwritable c m _ _ h3 _ _ _ => exact put_other fs _ (key h3)
    | written c m t _ _ h3 _ _ _ =>
      have e := put_other fs t (key h3)
      exact (ih _ (by rw [e]; exact h)).trans e

/-- **Specification**: the model that `f` had was converted, and it's in `o` -/
def Converted {M C : Type} (env : Env M C) (fmt : Fmt) (before after : FS C) (f o : FName) : Prop :=
  ∃ c m t, before f = some c ∧ env.read c = some m ∧ env.text fmt [] m = some t ∧ after o = some t

theorem loop_converted {M C : Type} {ext : List Char} {cahvor : Bool} {fmt : Fmt} (ht : Tool ext cahvor fmt) (env : Env M C) (a : Args) :
    ∀ (l : List FName) (fs : FS C), (∀ f ∈ l, f ≠ "-".toList → ¬ Named ext f) →
      l.Pairwise (fun f g => f ≠ "-".toList → g ≠ "-".toList → outName ext a f ≠ outName ext a g) →
      (∀ f ∈ l, ∀ g ∈ l, f ≠ "-".toList → g ≠ "-".toList → outName ext a f ≠ g) →
      (loop env ext cahvor a fs l).ok = true → ∀ f ∈ l, f ≠ "-".toList →
        (a.force = false ∧ (fs (outName ext a f)).isSome ∧ (loop env ext cahvor a fs l).fs (outName ext a f) = fs (outName ext a f)) ∨
        ((a.force = true ∨ fs (outName ext a f) = none) ∧ Converted env fmt fs (loop env ext cahvor a fs l).fs f (outName ext a f) ∧ .inr (outName ext a f) ∈ (loop env ext cahvor a fs l).stdout) := by
  intro l
  induction l with
  | nil => intro fs _ _ _ _ f hf; simp at hf
  | cons x l ih =>
    intro fs hn hp hi hok f hf hfd
    have hs := loop_step ht env a fs x l
    have hnl : ∀ f ∈ l, f ≠ "-".toList → ¬ Named ext f := fun y hy => hn y (List.mem_cons_of_mem _ hy)
    have hil : ∀ f ∈ l, ∀ g ∈ l, f ≠ "-".toList → g ≠ "-".toList → outName ext a f ≠ g := fun y hy z hz => hi y (List.mem_cons_of_mem _ hy) z (List.mem_cons_of_mem _ hz)
    obtain ⟨hpx, hpl⟩ := List.pairwise_cons.1 hp
    generalize loop env ext cahvor a fs (x :: l) = r at hs hok
    rcases List.mem_cons.1 hf with rfl | hfl
    · have hother : ∀ fs' : FS C, (loop env ext cahvor a fs' l).fs (outName ext a f) = fs' (outName ext a f) :=
        fun fs' => loop_other ht env a _ l fs' fun y hy hyd => hpx y hy hfd hyd
      cases hs with
      | stdinFailed h _ => exact absurd h hfd
      | stdin c m t h _ _ _ => exact absurd h hfd
      | already _ h => exact absurd h (hn f hf hfd)
      | exists_ _ _ h3 h4 => exact Or.inl ⟨h3, h4, hother fs⟩
      | unreadable _ _ _ _ => simp at hok
      | unwritable c m _ _ _ _ _ _ => simp at hok
      | written c m t _ _ h3 hc hm ht' =>
        refine Or.inr ⟨h3, ⟨c, m, t, hc, hm, ht', ?_⟩, List.mem_cons_self⟩
        exact (hother _).trans (put_same _ _ _)
    · cases hs with
      | stdinFailed _ _ => simp at hok
      | stdin c m t _ _ _ _ =>
        rcases ih fs hnl hpl hil hok f hfl hfd with h | ⟨h1, h2, h3⟩
        · exact Or.inl h
        · exact Or.inr ⟨h1, h2, List.mem_cons_of_mem _ h3⟩
      | already h1 h => exact absurd h (hn x List.mem_cons_self h1)
      | exists_ _ _ _ _ => exact ih fs hnl hpl hil hok f hfl hfd
      | unreadable _ _ _ _ => simp at hok
      | unwritable c m _ _ _ _ _ _ => simp at hok
      | written c m t hxd _ _ _ _ _ =>
        have e1 : put fs (outName ext a x) t (outName ext a f) = fs (outName ext a f) := put_other _ _ fun e => hpx f hfl hxd hfd e.symm
        have e2 : put fs (outName ext a x) t f = fs f := put_other _ _ fun e => hi x List.mem_cons_self f hf hxd hfd e.symm
        have := ih (put fs (outName ext a x) t) hnl hpl hil hok f hfl hfd
        unfold Converted at this ⊢
        rw [e1, e2] at this
        rcases this with h | ⟨h1, h2, h3⟩
        · exact Or.inl h
        · exact Or.inr ⟨h1, h2, List.mem_cons_of_mem _ h3⟩

theorem loop_printed {M C : Type} {ext : List Char} {cahvor : Bool} {fmt : Fmt} (ht : Tool ext cahvor fmt) (env : Env M C) (a : Args) :
    ∀ (l : List FName) (fs : FS C), (∀ t, .inl t ∈ (loop env ext cahvor a fs l).stdout → "-".toList ∈ l ∧ ∃ c m, env.stdin = some c ∧ env.read c = some m ∧ env.text fmt [] m = some t) ∧
      (∀ o, .inr o ∈ (loop env ext cahvor a fs l).stdout → ∃ f ∈ l, f ≠ "-".toList ∧ o = outName ext a f) ∧
      ((loop env ext cahvor a fs l).ok = true → (∀ f ∈ l, f ≠ "-".toList → ¬ Named ext f) → "-".toList ∈ l →
        ∃ c m t, env.stdin = some c ∧ env.read c = some m ∧ env.text fmt [] m = some t ∧ .inl t ∈ (loop env ext cahvor a fs l).stdout) := by
  intro l
  induction l with
  | nil =>
    intro fs
    refine ⟨fun t h => ?_, fun o h => ?_, fun _ _ h => ?_⟩
    · simp [loop] at h
    · simp [loop] at h
    · simp at h
  | cons x l ih =>
    intro fs
    have hs := loop_step ht env a fs x l
    generalize loop env ext cahvor a fs (x :: l) = r at hs
    have lift : ∀ (fs' : FS C) (p : C ⊕ FName) (hx : x ≠ "-".toList) (hp : p = .inr (outName ext a x)),
        (∀ t, .inl t ∈ ((loop env ext cahvor a fs' l).print p).stdout → "-".toList ∈ x :: l ∧ ∃ c m, env.stdin = some c ∧ env.read c = some m ∧ env.text fmt [] m = some t) ∧
        (∀ o, .inr o ∈ ((loop env ext cahvor a fs' l).print p).stdout → ∃ f ∈ x :: l, f ≠ "-".toList ∧ o = outName ext a f) ∧
        (((loop env ext cahvor a fs' l).print p).ok = true → (∀ f ∈ x :: l, f ≠ "-".toList → ¬ Named ext f) → "-".toList ∈ x :: l →
          ∃ c m t, env.stdin = some c ∧ env.read c = some m ∧ env.text fmt [] m = some t ∧ .inl t ∈ ((loop env ext cahvor a fs' l).print p).stdout) := by
      intro fs' p hx hp
      obtain ⟨i1, i2, i3⟩ := ih fs'
      refine ⟨fun t h => ?_, fun o h => ?_, fun h1 h2 h3 => ?_⟩
      · rcases List.mem_cons.1 h with h | h
        · rw [hp] at h; cases h
        · exact ⟨List.mem_cons_of_mem _ (i1 t h).1, (i1 t h).2⟩
      · rcases List.mem_cons.1 h with h | h
        · rw [hp] at h; cases h
          exact ⟨x, List.mem_cons_self, hx, rfl⟩
        · obtain ⟨f, hf, h⟩ := i2 o h
          exact ⟨f, List.mem_cons_of_mem _ hf, h⟩
      · rcases List.mem_cons.1 h3 with h3 | h3
        · exact absurd h3.symm hx
        · obtain ⟨c, m, t, a1, a2, a3, a4⟩ := i3 h1 (fun y hy => h2 y (List.mem_cons_of_mem _ hy)) h3
          exact ⟨c, m, t, a1, a2, a3, List.mem_cons_of_mem _ a4⟩
    obtain ⟨i1, i2, i3⟩ := ih fs
    cases hs with
    | stdinFailed _ _ => exact ⟨fun t h => by simp at h, fun o h => by simp at h, fun h => by simp at h⟩
    | stdin c m t hx hc hm ht' =>
      refine ⟨fun t' h => ?_, fun o h => ?_, fun _ _ _ => ⟨c, m, t, hc, hm, ht', List.mem_cons_self⟩⟩
      · refine ⟨hx ▸ List.mem_cons_self, ?_⟩
        rcases List.mem_cons.1 h with h | h
        · cases h; exact ⟨c, m, hc, hm, ht'⟩
        · exact (i1 t' h).2
      · rcases List.mem_cons.1 h with h | h
        · cases h
        · obtain ⟨f, hf, h⟩ := i2 o h
          exact ⟨f, List.mem_cons_of_mem _ hf, h⟩
    | already hx h => exact ⟨fun t h => by simp at h, fun o h => by simp at h, fun _ hn _ => absurd h (hn x List.mem_cons_self hx)⟩
    | exists_ hx _ _ _ =>
      refine ⟨fun t h => ⟨List.mem_cons_of_mem _ (i1 t h).1, (i1 t h).2⟩, fun o h => ?_, fun h1 h2 h3 => ?_⟩
      · obtain ⟨f, hf, h⟩ := i2 o h
        exact ⟨f, List.mem_cons_of_mem _ hf, h⟩
      · rcases List.mem_cons.1 h3 with h3 | h3
        · exact absurd h3.symm hx
        · exact i3 h1 (fun y hy => h2 y (List.mem_cons_of_mem _ hy)) h3
    | unreadable _ _ _ _ => exact ⟨fun t h => by simp at h, fun o h => by simp at h, fun h => by simp at h⟩
    | unwritable c m _ _ _ _ _ _ => exact ⟨fun t h => by simp at h, fun o h => by simp at h, fun h => by simp at h⟩
    | written c m t hx _ _ _ _ _ => exact lift _ _ hx rfl

end Mrcal.Format

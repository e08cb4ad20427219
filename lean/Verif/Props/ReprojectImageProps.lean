import Verif.Model.ReprojectImage
import Verif.Props.ConvertLensProps
import Verif.Props.LensNameProps
import Mathlib.Tactic.Linarith
import Mathlib.Tactic.NormNum
/-
C118: mrcal-reproject-image: which images are written, where, and what is in them.
-/
namespace Mrcal.Reproject

open Mrcal

variable {M I C X : Type}

/-! ### the names -/

/-- the input file is in the directory `dir` (nothing, or it ends in '/'), it's named stem.ext, with 3 characters in the extension -/
structure Named (f dir stem ext : List Char) : Prop where
  whole : f = dir ++ stem ++ ext
  directory : dir = [] ∨ ∃ d, dir = d ++ ['/']
  stem_slash : '/' ∉ stem
  extension : ∃ a b c, ext = ['.', a, b, c] ∧ '.' ∉ [a, b, c] ∧ '/' ∉ [a, b, c]

/-- the name of the output: in the same directory, or in --outdir; the stem is followed by a suffix -/
def OutName (a : Args) (suffix f o : List Char) : Prop :=
  ∃ dir stem ext, Named f dir stem ext ∧ o = (match a.outdir with | none => dir | some d => d ++ ['/']) ++ stem ++ '-' :: suffix ++ ext

theorem length4 {l : List Char} (h : l.length = 4) : ∃ x a b c, l = [x, a, b, c] := by
  match l, h with
  | [x, a, b, c], _ => exact ⟨x, a, b, c, rfl⟩

theorem out_name (a : Args) (suffix f o : List Char) (h : targetName a suffix f = some o) : OutName a suffix f o := by
  unfold targetName at h
  by_cases hl : (Convert.splitExt f).2.length = 4
  · rw [if_neg (by simpa using hl)] at h
    obtain ⟨h1, h2⟩ := Convert.splitBase_parts (Convert.baseName f)
    have hs := Convert.base_slash f
    have hst : '/' ∉ (Convert.splitExtBase (Convert.baseName f)).1 := fun h => hs (h1 ▸ List.mem_append_left _ h)
    have hse : '/' ∉ (Convert.splitExtBase (Convert.baseName f)).2 := fun h => hs (h1 ▸ List.mem_append_right _ h)
    have hb : Convert.baseName (Convert.splitExt f).1 = (Convert.splitExtBase (Convert.baseName f)).1 := Convert.base_of _ _ hst (Convert.dir_form f)
    refine ⟨Convert.dirName f, (Convert.splitExtBase (Convert.baseName f)).1, (Convert.splitExt f).2, ⟨?_, Convert.dir_form f, hst, ?_⟩, ?_⟩
    · show f = Convert.dirName f ++ _ ++ (Convert.splitExtBase (Convert.baseName f)).2
      rw [List.append_assoc, h1, Convert.dir_base]
    · obtain ⟨x, p, q, r, he⟩ := length4 hl
      have he' : (Convert.splitExtBase (Convert.baseName f)).2 = [x, p, q, r] := he
      rcases h2 with h2 | ⟨⟨e, h2, h3⟩, -⟩
      · rw [h2] at he'; cases he'
      · rw [h2] at he'
        injection he' with e1 e2
        subst e1
        refine ⟨p, q, r, he, e2 ▸ h3, ?_⟩
        rw [h2, e2] at hse
        exact fun h => hse (List.mem_cons_of_mem _ h)
    · cases ho : a.outdir with
      | none => rw [ho] at h; exact (Option.some.inj h).symm
      | some d =>
        rw [ho] at h
        rw [← Option.some.inj h, hb]
        simp
  · rw [if_pos (by simpa using hl)] at h; cases h

/-- C118. The outputs: next to the input, or in --outdir, with the same extension; the suffix says what was done -/
theorem output_names (a : Args) (suffix f o : List Char) (hsuf : '/' ∉ suffix) (h : targetName a suffix f = some o) : OutName a suffix f o ∧ o ≠ f := by
  have h1 := out_name a suffix f o h
  refine ⟨h1, ?_⟩
  obtain ⟨dir, stem, ext, hn, ho⟩ := h1
  intro e
  subst e
  have hw := hn.whole
  obtain ⟨p, q, r, he, -, hs⟩ := hn.extension
  cases hd : a.outdir with
  | none =>
    rw [hd] at ho
    have := congrArg List.length (ho.symm.trans hw)
    simp at this
    omega
  | some d =>
    -- the last components differ
    rw [hd] at ho
    have e1 : Convert.baseName o = stem ++ ext := by
      rw [hw, List.append_assoc]
      exact Convert.base_of _ _ (by
        intro h
        rcases List.mem_append.1 h with h | h
        · exact hn.stem_slash h
        · rw [he] at h
          rcases List.mem_cons.1 h with h | h
          · cases h
          · exact hs h) hn.directory
    have e2 : Convert.baseName o = stem ++ '-' :: suffix ++ ext := by
      rw [ho, List.append_assoc, List.append_assoc]
      have := Convert.base_of (d ++ ['/']) (stem ++ ('-' :: suffix ++ ext)) ?_ (.inr ⟨d, rfl⟩)
      · simpa using this
      · intro h
        rcases List.mem_append.1 h with h | h
        · exact hn.stem_slash h
        · rcases List.mem_append.1 h with h | h
          · rcases List.mem_cons.1 h with h | h
            · cases h
            · exact hsuf h
          · rw [he] at h
            rcases List.mem_cons.1 h with h | h
            · cases h
            · exact hs h
    have := congrArg List.length (e1.symm.trans e2)
    simp at this
    omega

theorem append4 {a b c d : List Char} (hc : c.length = 4) (hd : d.length = 4) (h : a ++ c = b ++ d) : a = b ∧ c = d := by
  have hl : a.length = b.length := by
    have := congrArg List.length h
    simp at this
    omega
  exact List.append_inj h hl

/-- C118. Different images have different outputs. With --outdir: images with different names -/
theorem outputs_differ (a : Args) (suffix f f' o : List Char) (h : targetName a suffix f = some o) (h' : targetName a suffix f' = some o) :
    (a.outdir = none → f = f') ∧ Convert.baseName f = Convert.baseName f' := by
  have key : ∀ f o, targetName a suffix f = some o → (Convert.splitExt f).2.length = 4 ∧
      o = (match a.outdir with | none => (Convert.splitExt f).1 | some d => d ++ '/' :: Convert.baseName (Convert.splitExt f).1) ++ '-' :: suffix ++ (Convert.splitExt f).2 := by
    intro f o h
    unfold targetName at h
    by_cases hl : (Convert.splitExt f).2.length = 4
    · rw [if_neg (by simpa using hl)] at h
      exact ⟨hl, (Option.some.inj h).symm⟩
    · rw [if_pos (by simpa using hl)] at h; cases h
  obtain ⟨k1, k2⟩ := key f o h
  obtain ⟨k3, k4⟩ := key f' o h'
  have split : ∀ f : List Char, (Convert.splitExt f).1 ++ (Convert.splitExt f).2 = f := by
    intro f
    show (Convert.dirName f ++ _) ++ (Convert.splitExtBase (Convert.baseName f)).2 = f
    rw [List.append_assoc, (Convert.splitBase_parts (Convert.baseName f)).1, Convert.dir_base]
  have base : ∀ f : List Char, Convert.baseName f = Convert.baseName (Convert.splitExt f).1 ++ (Convert.splitExt f).2 := by
    intro f
    have h1 := (Convert.splitBase_parts (Convert.baseName f)).1
    have hs := Convert.base_slash f
    have hb : Convert.baseName (Convert.splitExt f).1 = (Convert.splitExtBase (Convert.baseName f)).1 :=
      Convert.base_of _ _ (fun h => hs (h1 ▸ List.mem_append_left _ h)) (Convert.dir_form f)
    rw [hb]
    exact h1.symm
  rw [k2] at k4
  obtain ⟨e1, e2⟩ := append4 k1 k3 k4
  have e3 := List.append_cancel_right e1
  cases ho : a.outdir with
  | none =>
    rw [ho] at e3
    have : f = f' := by rw [← split f, ← split f', e2]; simp only at e3; rw [e3]
    exact ⟨fun _ => this, by rw [this]⟩
  | some d =>
    rw [ho] at e3
    simp only [List.append_cancel_left_eq, List.cons.injEq, true_and] at e3
    exact ⟨fun h => (by cases h), by rw [base f, base f', e2, e3]⟩

/-! ### the files that change -/

/-- the pool only processes what it's given -/
def Sub (env : Env M I C X) : Prop := ∀ l, ∀ io ∈ env.schedule l, io ∈ l

theorem this_other (env : Env M I C X) (region : Option M) (size : Nat × Nat) (m : X) (fs fs' : FS C) (io : FName × FName) (h : transformThis env region size m fs io = some fs') (g : FName) (hg : g ≠ io.2) :
    fs' g = fs g := by
  unfold transformThis at h
  split at h
  · cases h; rfl
  · split_ifs at h
    · cases h; rfl
    · obtain ⟨im', -, h2⟩ := Option.bind_eq_some_iff.1 h
      obtain ⟨c, -, rfl⟩ := Option.map_eq_some_iff.1 h2
      exact if_neg hg

theorem serial_other (env : Env M I C X) (region : Option M) (size : Nat × Nat) (m : X) (fs : FS C) (l : List (FName × FName)) (g : FName) (hg : ∀ io ∈ l, g ≠ io.2) :
    (serial env region size m fs l).1 g = fs g := by
  induction l generalizing fs with
  | nil => rfl
  | cons io l ih =>
    rw [serial]
    cases h : transformThis env region size m fs io with
    | none => rfl
    | some fs' =>
      show (serial env region size m fs' l).1 g = fs g
      rw [ih fs' (fun x hx => hg x (by simp [hx])), this_other env region size m fs fs' io h g (hg io (by simp))]

theorem parallel_other (env : Env M I C X) (region : Option M) (size : Nat × Nat) (m : X) (fs : FS C) (l : List (FName × FName)) (g : FName) (hg : ∀ io ∈ l, g ≠ io.2) :
    parallel env region size m fs l g = fs g := by
  unfold parallel
  induction l generalizing fs with
  | nil => rfl
  | cons io l ih =>
    rw [List.foldl_cons, ih _ (fun x hx => hg x (by simp [hx]))]
    cases h : transformThis env region size m fs io with
    | none => rfl
    | some fs' => exact this_other env region size m fs fs' io h g (hg io (by simp))

/-- all the targets -/
theorem targets_mem {a : Args} {fs : FS C} {suffix : List Char} {L : List FName} {ios : List (FName × FName)} (h : L.mapM (target a fs suffix) = some ios) :
    ios.map Prod.fst = L ∧ ∀ io ∈ ios, targetName a suffix io.1 = some io.2 ∧ (a.force = false → fs io.2 = none) := by
  induction L generalizing ios with
  | nil => cases h; simp
  | cons f L ih =>
    rw [List.mapM_cons] at h
    obtain ⟨io, h1, h2⟩ := Option.bind_eq_some_iff.1 h
    obtain ⟨r, h3, h4⟩ := Option.bind_eq_some_iff.1 h2
    cases h4
    obtain ⟨o, g1, g2⟩ := Option.bind_eq_some_iff.1 h1
    obtain ⟨i1, i2⟩ := ih h3
    split_ifs at g2 with hc
    cases g2
    refine ⟨by rw [List.map_cons, i1], ?_⟩
    intro x hx
    rcases List.mem_cons.1 hx with rfl | hx
    · refine ⟨g1, fun hf => ?_⟩
      rw [hf] at hc
      simpa using hc
    · exact i2 x hx

theorem process_changed (env : Env M I C X) (hS : Sub env) (a : Args) (src dst : M) (globs : List FName) (suffix : List Char) (pn : Option (ℝ × ℝ × ℝ)) (pd : Option ℝ) (fs : FS C) (g : FName)
    (h : (process env a src dst globs suffix pn pd fs).1 g ≠ fs g) : (∃ i ∈ inputs env fs globs, targetName a suffix i = some g) ∧ (a.force = false → fs g = none) := by
  unfold process at h
  by_cases h0 : inputs env fs globs = []
  · rw [if_pos h0] at h; exact absurd rfl h
  rw [if_neg h0] at h
  split at h
  · exact absurd rfl h
  rename_i ios hios
  obtain ⟨t1, t2⟩ := targets_mem hios
  have key : (∃ io ∈ ios, g = io.2) → (∃ i ∈ inputs env fs globs, targetName a suffix i = some g) ∧ (a.force = false → fs g = none) := by
    rintro ⟨io, hio, rfl⟩
    exact ⟨⟨io.1, by rw [← t1]; exact List.mem_map.2 ⟨io, hio, rfl⟩, (t2 io hio).1⟩, (t2 io hio).2⟩
  split at h
  · exact absurd rfl h
  rename_i m hm
  apply key
  by_contra hne
  push Not at hne
  dsimp only at h
  by_cases hj : a.jobs > 1
  · rw [if_pos hj] at h
    exact h (parallel_other env _ _ m fs _ g fun io hio => hne io (hS _ _ hio))
  · rw [if_neg hj] at h
    exact h (serial_other env _ _ m fs _ g hne)

/-- the suffixes -/
def Suffix (s : List Char) : Prop := s = "reprojected".toList ∨ s = "pinhole-remapped".toList ∨ s = "pinhole".toList

theorem runModels_changed (env : Env M I C X) (hS : Sub env) (a : Args) (src : M) (dst : Option M) (globs : List FName) (fit : Option Fit) (fs : FS C) (g : FName)
    (h : (runModels env a src dst globs fit fs).files g ≠ fs g) : (∃ i s, Suffix s ∧ targetName a s i = some g) ∧ (a.force = false → fs g = none) := by
  have one : ∀ (src dst : M) globs (suffix : List Char) pn pd fs, Suffix suffix → (process env a src dst globs suffix pn pd fs).1 g ≠ fs g →
      (∃ i s, Suffix s ∧ targetName a s i = some g) ∧ (a.force = false → fs g = none) := by
    intro src dst globs suffix pn pd fs hs h
    obtain ⟨⟨i, -, hi⟩, h2⟩ := process_changed env hS a src dst globs suffix pn pd fs g h
    exact ⟨⟨i, suffix, hs, hi⟩, h2⟩
  unfold runModels at h
  by_cases hp : a.toPinhole = true
  · rw [if_neg (by simp [hp])] at h
    cases dst with
    | none =>
      dsimp only at h
      by_cases h1 : globs = []
      · rw [if_pos h1] at h; exact absurd rfl h
      · rw [if_neg h1] at h
        split at h
        · exact absurd rfl h
        · by_cases h2 : a.planeN.isSome = true
          · rw [if_pos h2] at h; exact absurd rfl h
          · rw [if_neg h2] at h; exact one _ _ _ _ _ _ _ (.inl rfl) h
    | some dst =>
      dsimp only at h
      split at h
      · rename_i g0 g1
        split at h
        · exact absurd rfl h
        · rename_i target _
          by_cases h1 : (process env a src target [g0] "pinhole-remapped".toList a.planeN a.planeD fs).1 g = fs g
          · by_cases h2 : (process env a src target [g0] "pinhole-remapped".toList a.planeN a.planeD fs).2 = true
            · rw [if_pos h2] at h
              have h' : (process env a dst target [g1] "pinhole".toList none none (process env a src target [g0] "pinhole-remapped".toList a.planeN a.planeD fs).1).1 g ≠
                  (process env a src target [g0] "pinhole-remapped".toList a.planeN a.planeD fs).1 g := by rw [h1]; exact h
              obtain ⟨r1, r2⟩ := one _ _ _ _ _ _ _ (.inr (.inr rfl)) h'
              rw [h1] at r2
              exact ⟨r1, r2⟩
            · rw [if_neg h2] at h
              exact absurd h1 h
          · exact one _ _ _ _ _ _ _ (.inr (.inl rfl)) h1
      · exact absurd rfl h
  · rw [if_pos (by simp [hp])] at h
    cases dst with
    | none => exact absurd rfl h
    | some dst =>
      dsimp only at h
      split_ifs at h with h1
      · exact absurd rfl h
      · exact one _ _ _ _ _ _ _ (.inl rfl) h

/-- C118. The only files that are touched are the outputs: named after an image -/
theorem files_changed (env : Env M I C X) (hS : Sub env) (a : Args) (fs : FS C) (g : FName) (h : (run env a fs).files g ≠ fs g) :
    (∃ i s, Suffix s ∧ targetName a s i = some g) ∧ (a.force = false → fs g = none) := by
  unfold run at h
  split at h
  · exact absurd rfl h
  · split_ifs at h
    · exact absurd rfl h
    · exact absurd rfl h
    · split at h
      · exact absurd rfl h
      · split at h
        · exact absurd rfl h
        · exact runModels_changed env hS a _ _ _ _ fs g h

/-- C118. Without --force, no file that exists is touched: whatever happens -/
theorem no_overwrite (env : Env M I C X) (hS : Sub env) (a : Args) (hf : a.force = false) (fs : FS C) (g : FName) (c : C) (hc : fs g = some c) : (run env a fs).files g = some c := by
  by_contra h
  have := (files_changed env hS a fs g (by rw [hc]; exact h)).2 hf
  rw [hc] at this; cases this

/-! ### what is in the images -/

/-- what's in the output of this image -/
def outcome (env : Env M I C X) (region : Option M) (size : Nat × Nat) (m : X) (fs : FS C) (io : FName × FName) : Option C :=
  match (fs io.1).bind env.load with
  | none => fs io.2
  | some im => if env.imageSize im ≠ size then fs io.2 else (newImage env region m im).bind (env.save io.2)

/-- nothing raises an exception for the image -/
def Fine (env : Env M I C X) (region : Option M) (size : Nat × Nat) (m : X) (fs : FS C) (io : FName × FName) : Prop :=
  ∀ im, (fs io.1).bind env.load = some im → env.imageSize im = size → ∃ im' c, newImage env region m im = some im' ∧ env.save io.2 im' = some c

theorem this_fine (env : Env M I C X) (region : Option M) (size : Nat × Nat) (m : X) (fs : FS C) (io : FName × FName) (h : Fine env region size m fs io) :
    ∃ fs', transformThis env region size m fs io = some fs' ∧ fs' io.2 = outcome env region size m fs io := by
  unfold transformThis outcome
  cases hl : (fs io.1).bind env.load with
  | none => exact ⟨fs, rfl, rfl⟩
  | some im =>
    dsimp only
    by_cases hs : env.imageSize im = size
    · obtain ⟨im', c, h1, h2⟩ := h im hl hs
      rw [if_neg (by simp [hs]), if_neg (by simp [hs]), h1]
      simp only [Option.bind_some, h2, Option.map_some]
      exact ⟨_, rfl, if_pos rfl⟩
    · rw [if_pos hs, if_pos hs]
      exact ⟨fs, rfl, rfl⟩

theorem outcome_same (env : Env M I C X) (region : Option M) (size : Nat × Nat) (m : X) (fs fs' : FS C) (io : FName × FName) (h1 : fs' io.1 = fs io.1) (h2 : fs' io.2 = fs io.2) :
    outcome env region size m fs' io = outcome env region size m fs io := by
  unfold outcome; rw [h1, h2]

theorem all_fine (env : Env M I C X) (region : Option M) (size : Nat × Nat) (m : X) (fs : FS C) (l : List (FName × FName)) (hF : ∀ io ∈ l, Fine env region size m fs io)
    (hD : (l.map Prod.snd).Nodup) (hI : ∀ io ∈ l, ∀ io' ∈ l, io.1 ≠ io'.2) :
    serial env region size m fs l = (parallel env region size m fs l, true) ∧ ∀ io ∈ l, parallel env region size m fs l io.2 = outcome env region size m fs io := by
  induction l generalizing fs with
  | nil => exact ⟨rfl, by simp⟩
  | cons io l ih =>
    obtain ⟨fs', h1, h2⟩ := this_fine env region size m fs io (hF io (by simp))
    rw [List.map_cons, List.nodup_cons] at hD
    have hin : ∀ io' ∈ l, fs' io'.1 = fs io'.1 := fun io' h => this_other env region size m fs fs' io h1 _ (hI io' (by simp [h]) io (by simp))
    have hout : ∀ io' ∈ l, io'.2 ≠ io.2 := fun io' h e => hD.1 (by rw [← e]; exact List.mem_map.2 ⟨io', h, rfl⟩)
    obtain ⟨i1, i2⟩ := ih fs' (by
      intro io' h im hl hs
      rw [hin io' h] at hl
      exact hF io' (by simp [h]) im hl hs) hD.2 (fun x hx y hy => hI x (by simp [hx]) y (by simp [hy]))
    have hp : parallel env region size m fs (io :: l) = parallel env region size m fs' l := by
      unfold parallel
      rw [List.foldl_cons, h1]; rfl
    refine ⟨?_, ?_⟩
    · rw [serial, h1, hp]; exact i1
    · intro io' h
      rw [hp]
      rcases List.mem_cons.1 h with rfl | h
      · rw [parallel_other env region size m fs' l _ (fun x hx e => hout x hx e.symm), h2]
      · rw [i2 io' h, outcome_same env region size m fs fs' io' (hin io' h) (this_other env region size m fs fs' io h1 _ (hout io' h))]

/-- the images that glob.glob() returns exist -/
def Exists (env : Env M I C X) : Prop := ∀ ex p, ∀ f ∈ env.glob ex p, ex f = true

/-- C118. What is written for each image, serially or with any number of jobs, if nothing raises an exception: the transformed image, annotated with the valid-intrinsics region of its model if that was asked for. This is
about outputs that are all different, and that aren't images to be transformed also: without --force that's known. Nothing is written for images that can't be read or don't have the size of the model -/
theorem process_images_partial (env : Env M I C X) (hG : Exists env) (a : Args) (src dst : M) (globs : List FName) (suffix : List Char) (pn : Option (ℝ × ℝ × ℝ)) (pd : Option ℝ) (fs : FS C)
    (hp : ∀ l, (env.schedule l).Perm l) (hne : inputs env fs globs ≠ []) (m : X) (hm : env.map src dst ⟨a.intrinsicsOnly, a.distance, pn, pd, a.maskRegion⟩ = some m)
    (name : FName → FName) (hname : ∀ i ∈ inputs env fs globs, targetName a suffix i = some (name i) ∧ (a.force = false → fs (name i) = none))
    (hd : ((inputs env fs globs).map name).Nodup) (hio : a.force = true → ∀ i ∈ inputs env fs globs, ∀ i' ∈ inputs env fs globs, i ≠ name i')
    (hfine : ∀ i ∈ inputs env fs globs, Fine env (if a.validRegion then some src else none) (env.modelSize src) m fs (i, name i)) :
    (process env a src dst globs suffix pn pd fs).2 = true ∧ ∀ i ∈ inputs env fs globs,
      (process env a src dst globs suffix pn pd fs).1 (name i) = outcome env (if a.validRegion then some src else none) (env.modelSize src) m fs (i, name i) := by
  have hios : (inputs env fs globs).mapM (target a fs suffix) = some ((inputs env fs globs).map fun i => (i, name i)) := by
    have : ∀ L : List FName, (∀ i ∈ L, targetName a suffix i = some (name i) ∧ (a.force = false → fs (name i) = none)) → L.mapM (target a fs suffix) = some (L.map fun i => (i, name i)) := by
      intro L
      induction L with
      | nil => intro _; rfl
      | cons i L ih =>
        intro h
        obtain ⟨h1, h2⟩ := h i (by simp)
        have ht : target a fs suffix i = some (i, name i) := by
          unfold target
          rw [h1]
          simp only [Option.bind_some]
          rw [if_neg]
          cases hf : a.force
          · rw [h2 hf]; simp
          · simp
        rw [List.mapM_cons, ht, ih (fun x hx => h x (by simp [hx]))]
        rfl
    exact this _ hname
  have hsep : ∀ io ∈ (inputs env fs globs).map fun i => (i, name i), ∀ io' ∈ (inputs env fs globs).map fun i => (i, name i), io.1 ≠ io'.2 := by
    intro io h1 io' h2
    obtain ⟨i, hi, rfl⟩ := List.mem_map.1 h1
    obtain ⟨i', hi', rfl⟩ := List.mem_map.1 h2
    cases hf : a.force with
    | true => exact hio hf i hi i' hi'
    | false =>
      intro e
      have e' : i = name i' := e
      obtain ⟨g, -, hg⟩ := List.mem_flatMap.1 hi
      have h1 := hG _ _ _ hg
      rw [e', (hname i' hi').2 hf] at h1
      cases h1
  have hsnd : ((inputs env fs globs).map fun i => (i, name i)).map Prod.snd = (inputs env fs globs).map name := by rw [List.map_map]; rfl
  have hF : ∀ io ∈ (inputs env fs globs).map fun i => (i, name i), Fine env (if a.validRegion then some src else none) (env.modelSize src) m fs io := by
    intro io h
    obtain ⟨i, hi, rfl⟩ := List.mem_map.1 h
    exact hfine i hi
  unfold process
  rw [if_neg hne, hios, hm]
  dsimp only
  by_cases hj : a.jobs > 1
  · rw [if_pos hj]
    have hperm := hp ((inputs env fs globs).map fun i => (i, name i))
    obtain ⟨-, h2⟩ := all_fine env (if a.validRegion then some src else none) (env.modelSize src) m fs _ (fun io h => hF io (hperm.mem_iff.1 h)) (by
      rw [(hperm.map Prod.snd).nodup_iff, hsnd]; exact hd) (fun io h io' h' => hsep io (hperm.mem_iff.1 h) io' (hperm.mem_iff.1 h'))
    exact ⟨rfl, fun i hi => h2 (i, name i) (hperm.mem_iff.2 (List.mem_map.2 ⟨i, hi, rfl⟩))⟩
  · rw [if_neg hj]
    obtain ⟨h1, h2⟩ := all_fine env (if a.validRegion then some src else none) (env.modelSize src) m fs _ hF (by rw [hsnd]; exact hd) hsep
    rw [h1]
    exact ⟨rfl, fun i hi => h2 (i, name i) (List.mem_map.2 ⟨i, hi, rfl⟩)⟩

/-! ### the modes -/

/-- C118. What the tool does if it succeeds. Without --to-pinhole: all the images are transformed from the first model to the second one. With --to-pinhole and one model: to a pinhole model made from it, which is
written to the standard output; a plane can't be given then. With --to-pinhole and two models: there are two sets of images; a pinhole model is made from the second model, and written; the first set is transformed from
the first model to this, and the second set from the second model. The plane applies to the first set only -/
theorem modes (env : Env M I C X) (a : Args) (fs : FS C) (h : (run env a fs).ok = true) :
    ∃ src models globs fit, env.readModel a.modelFrom = some src ∧ classify env a.rest = some (models, globs) ∧ (fit = none ↔ a.fit = none) ∧ (∀ s, a.fit = some s → parseFit s = fit) ∧
      ((a.toPinhole = false ∧ ∃ dst, models = [dst] ∧ (run env a fs).printed = [] ∧
          process env a src dst globs "reprojected".toList a.planeN a.planeD fs = ((run env a fs).files, true)) ∨
       (a.toPinhole = true ∧ models = [] ∧ a.planeN = none ∧ ∃ pin, env.pinhole src fit a.scaleFocal a.scaleImage = some pin ∧ (run env a fs).printed = [pin] ∧
          process env a src pin globs "reprojected".toList none a.planeD fs = ((run env a fs).files, true)) ∨
       (a.toPinhole = true ∧ ∃ dst g0 g1 pin fs1, models = [dst] ∧ globs = [g0, g1] ∧ env.pinhole dst fit a.scaleFocal a.scaleImage = some pin ∧ (run env a fs).printed = [pin] ∧
          process env a src pin [g0] "pinhole-remapped".toList a.planeN a.planeD fs = (fs1, true) ∧
          process env a dst pin [g1] "pinhole".toList none none fs1 = ((run env a fs).files, true))) := by
  unfold run at h ⊢
  cases hc : classify env a.rest with
  | none => rw [hc] at h; cases h
  | some mg =>
    obtain ⟨models, globs⟩ := mg
    rw [hc] at h
    dsimp only at h ⊢
    by_cases h1 : models.length > 1
    · rw [if_pos h1] at h; cases h
    rw [if_neg h1] at h ⊢
    by_cases h2 : (!argsOk a models.head?.isSome) = true
    · rw [if_pos h2] at h; cases h
    rw [if_neg h2] at h ⊢
    have hfit : ∀ f, fitArg a = some f → (f = none ↔ a.fit = none) ∧ ∀ s, a.fit = some s → parseFit s = f := by
      intro f hf
      unfold fitArg at hf
      cases ha : a.fit with
      | none => rw [ha] at hf; cases hf; exact ⟨by simp, fun s h => by cases h⟩
      | some s =>
        rw [ha] at hf
        obtain ⟨f', e1, e2⟩ := Option.map_eq_some_iff.1 hf
        subst e2
        exact ⟨by simp, fun s' h => by cases h; exact e1⟩
    generalize fitArg a = F at h hfit ⊢
    cases F with
    | none => cases h
    | some fit =>
      dsimp only at h ⊢
      obtain ⟨f1, f2⟩ := hfit fit rfl
      cases hm : env.readModel a.modelFrom with
      | none => rw [hm] at h; cases h
      | some src =>
        rw [hm] at h
        dsimp only at h ⊢
        refine ⟨src, models, globs, fit, rfl, rfl, f1, f2, ?_⟩
        unfold runModels at h ⊢
        by_cases hp : a.toPinhole = true
        · rw [if_neg (by simp [hp])] at h ⊢
          cases models with
          | nil =>
            right; left
            simp only [List.head?_nil] at h ⊢
            by_cases hg : globs = []
            · rw [if_pos hg] at h; cases h
            rw [if_neg hg] at h ⊢
            cases hpin : env.pinhole src fit a.scaleFocal a.scaleImage with
            | none => rw [hpin] at h; cases h
            | some pin =>
              rw [hpin] at h
              dsimp only at h ⊢
              cases hn : a.planeN with
              | some n => rw [hn] at h; cases h
              | none =>
                rw [hn] at h
                simp only [Option.isSome_none, Bool.false_eq_true, if_false] at h ⊢
                exact ⟨hp, trivial, trivial, pin, rfl, rfl, Prod.ext rfl h⟩
          | cons dst ms =>
            have hms : ms = [] := by
              cases ms with
              | nil => rfl
              | cons _ _ => simp at h1
            subst hms
            right; right
            simp only [List.head?_cons] at h ⊢
            match globs, h with
            | [g0, g1], h =>
              dsimp only at h ⊢
              cases hpin : env.pinhole dst fit a.scaleFocal a.scaleImage with
              | none => rw [hpin] at h; cases h
              | some pin =>
                rw [hpin] at h
                dsimp only at h ⊢
                by_cases hr : (process env a src pin [g0] "pinhole-remapped".toList a.planeN a.planeD fs).2 = true
                · rw [if_pos hr] at h ⊢
                  exact ⟨hp, dst, g0, g1, pin, _, rfl, rfl, hpin, rfl, Prod.ext rfl hr, Prod.ext rfl h⟩
                · rw [if_neg hr] at h; cases h
        · rw [if_pos (by simp [hp])] at h ⊢
          left
          cases models with
          | nil => cases h
          | cons dst ms =>
            have hms : ms = [] := by
              cases ms with
              | nil => rfl
              | cons _ _ => simp at h1
            subst hms
            simp only [List.head?_cons] at h ⊢
            by_cases hg : globs = []
            · rw [if_pos hg] at h; cases h
            rw [if_neg hg] at h ⊢
            exact ⟨by simpa using hp, dst, rfl, rfl, Prod.ext rfl h⟩

/-- C118. Options that make no sense together are errors: then nothing is written -/
theorem bad_options (env : Env M I C X) (a : Args) (fs : FS C)
    (h : (a.toPinhole = false ∧ (a.fit ≠ none ∨ a.scaleFocal ≠ none ∨ a.scaleImage ≠ none)) ∨
      (a.fit ≠ none ∧ a.scaleFocal ≠ none) ∨
      (∃ s, a.scaleImage = some s ∧ s ≤ 0) ∨
      (a.planeN = none ∧ a.planeD ≠ none) ∨ (a.planeN ≠ none ∧ a.planeD = none) ∨
      (a.planeN ≠ none ∧ a.intrinsicsOnly = true) ∨
      (a.distance ≠ none ∧ (a.planeN ≠ none ∨ a.intrinsicsOnly = true)) ∨
      (∃ s, a.fit = some s ∧ parseFit s = none) ∨
      (∀ ms gs, classify env a.rest = some (ms, gs) → ms = [] ∧ (a.intrinsicsOnly = true ∨ a.toPinhole = false))) :
    (run env a fs).ok = false ∧ (run env a fs).files = fs ∧ (run env a fs).printed = [] := by
  have hF : ∀ o : Out M C, o = failed fs → o.ok = false ∧ o.files = fs ∧ o.printed = [] := by rintro o rfl; exact ⟨rfl, rfl, rfl⟩
  apply hF
  unfold run
  cases hc : classify env a.rest with
  | none => rfl
  | some mg =>
    obtain ⟨models, globs⟩ := mg
    dsimp only
    split_ifs with h1 h2
    · rfl
    · rfl
    · have h2' : argsOk a models.head?.isSome = true := by simpa using h2
      unfold argsOk at h2'
      simp only [Bool.and_eq_true, Bool.not_eq_true'] at h2'
      obtain ⟨⟨⟨⟨⟨o1, o2⟩, o3⟩, o4⟩, o5⟩, o6⟩ := h2'
      rcases h with ⟨hp, h⟩ | ⟨hf, hs⟩ | ⟨s, hs, hle⟩ | ⟨hn, hd⟩ | ⟨hn, hd⟩ | ⟨hn, hi⟩ | ⟨hd, h⟩ | ⟨s, hs, hn⟩ | h
      · rw [hp] at o1
        simp only [Bool.false_eq_true, if_false, Bool.not_eq_true', Bool.or_eq_false_iff, Option.isSome_eq_false_iff, Option.isNone_iff_eq_none] at o1
        rcases h with h | h | h
        · exact absurd o1.1.1 h
        · exact absurd o1.1.2 h
        · exact absurd o1.2 h
      · cases hp : a.toPinhole <;> rw [hp] at o1 <;> simp_all [Option.isSome_iff_ne_none]
      · rw [hs] at o3
        simp only [decide_eq_true_eq] at o3
        norm_num at o3
        linarith
      · rw [hn] at o4
        cases hd' : a.planeD with
        | none => exact absurd hd' hd
        | some d => rw [hd'] at o4; cases o4
      · rw [hd] at o4
        cases hn' : a.planeN with
        | none => exact absurd hn' hn
        | some d => rw [hn'] at o4; cases o4
      · rw [hi] at o5
        cases hn' : a.planeN with
        | none => exact absurd hn' hn
        | some d => rw [hn'] at o5; cases o5
      · cases hd' : a.distance with
        | none => exact absurd hd' hd
        | some d =>
          rw [hd'] at o6
          rcases h with h | h
          · cases hn' : a.planeN with
            | none => exact absurd hn' h
            | some d => rw [hn'] at o6; cases o6
          · rw [h] at o6; simp at o6
      · have : fitArg a = none := by unfold fitArg; rw [hs]; simp [hn]
        rw [this]
      · obtain ⟨e, h⟩ := h models globs hc
        subst e
        split
        · rfl
        · split
          · rfl
          · rcases h with h | h
            · rw [h] at o2; simp at o2
            · unfold runModels
              rw [if_pos (by simp [h])]
              rfl

end Mrcal.Reproject

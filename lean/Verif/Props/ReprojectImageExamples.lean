import Verif.Props.ReprojectImageProps
/-
C118: --fit; what mrcal-reproject-image does wrong; and runs that meet the hypotheses of the theorems in ReprojectImageProps.
-/
namespace Mrcal.Reproject

open Mrcal

/-! ### --fit -/

/-- an integer, as one writes it -/
def printInt (z : Int) : List Char := if z < 0 then '-' :: Name.printNat z.natAbs else Name.printNat z.natAbs

def joinComma : List (List Char) → List Char
  | [] => []
  | [t] => t
  | t :: ts => t ++ ',' :: joinComma ts

/-- x0,y0,x1,y1,... -/
def render (l : List (Int × Int)) : List Char := joinComma (l.flatMap fun p => [printInt p.1, printInt p.2])

theorem split_last (t : List Char) (h : ',' ∉ t) : splitComma t = [t] := by
  induction t with
  | nil => rfl
  | cons c t ih =>
    rw [splitComma, if_neg (fun e => h (by simp [e])), ih (fun hm => h (by simp [hm]))]

theorem split_comma (t r : List Char) (h : ',' ∉ t) : splitComma (t ++ ',' :: r) = t :: splitComma r := by
  induction t with
  | nil => rw [List.nil_append, splitComma, if_pos rfl]
  | cons c t ih =>
    rw [List.cons_append, splitComma, if_neg (fun e => h (by simp [e])), ih (fun hm => h (by simp [hm]))]

theorem split_join (L : List (List Char)) (hne : L ≠ []) (h : ∀ t ∈ L, ',' ∉ t) : splitComma (joinComma L) = L := by
  induction L with
  | nil => exact absurd rfl hne
  | cons t L ih =>
    cases L with
    | nil => exact split_last t (h t (by simp))
    | cons t' L =>
      show splitComma (t ++ ',' :: joinComma (t' :: L)) = _
      rw [split_comma _ _ (h t (by simp)), ih (by simp) (fun x hx => h x (by simp [hx]))]

theorem digit_ne {c d : Char} (h : Name.isDigit c = true) (hd : Name.isDigit d = false) : c ≠ d := by
  rintro rfl; rw [h] at hd; cases hd

theorem printInt_chars (z : Int) : printInt z ≠ [] ∧ (∀ c ∈ printInt z, fitChar c = true) ∧ ',' ∉ printInt z := by
  have hd := Name.printNat_digits z.natAbs
  have hc : ',' ∉ Name.printNat z.natAbs := fun h => digit_ne (hd _ h) (by decide) rfl
  unfold printInt
  split_ifs
  · refine ⟨by simp, ?_, ?_⟩
    · intro c h
      rcases List.mem_cons.1 h with rfl | h
      · decide
      · unfold fitChar; rw [hd c h]; rfl
    · intro h
      rcases List.mem_cons.1 h with h | h
      · cases h
      · exact hc h
  · exact ⟨Name.printNat_ne_nil _, fun c h => by unfold fitChar; rw [hd c h]; rfl, hc⟩

theorem pyInt_print (z : Int) : pyInt (printInt z) = some z := by
  have hd := Name.printNat_digits z.natAbs
  have hall : (Name.printNat z.natAbs).all Name.isDigit = true := List.all_eq_true.2 hd
  have hn := Name.printNat_ne_nil z.natAbs
  unfold printInt
  split_ifs with h
  · show (if _ then _ else _) = _
    rw [if_pos ⟨hn, hall⟩, Name.decVal_printNat]
    congr 1; omega
  · obtain ⟨c, l, hl⟩ := List.exists_cons_of_ne_nil hn
    have hc : c ≠ '-' := digit_ne (hd c (by rw [hl]; simp)) (by decide)
    have : pyInt (Name.printNat z.natAbs) = if Name.printNat z.natAbs ≠ [] ∧ (Name.printNat z.natAbs).all Name.isDigit then some (Name.decVal (Name.printNat z.natAbs) : Int) else none := by
      rw [hl]
      unfold pyInt
      split
      · rename_i l' he
        injection he with e _
        exact absurd e hc
      · rfl
    rw [this, if_pos ⟨hn, hall⟩, Name.decVal_printNat]
    congr 1; omega

theorem mapM_print (L : List Int) : (L.map printInt).mapM pyInt = some L := by
  induction L with
  | nil => rfl
  | cons z L ih => rw [List.map_cons, List.mapM_cons, pyInt_print, ih]; rfl

theorem pairs_flat (l : List (Int × Int)) : pairs (l.flatMap fun p => [p.1, p.2]) = l := by
  induction l with
  | nil => rfl
  | cons p l ih => show (p.1, p.2) :: pairs (l.flatMap fun p => [p.1, p.2]) = _; rw [ih]

/-- C118. Any list of at least two pixels with integer coordinates can be given to --fit -/
theorem fit_points_partial (l : List (Int × Int)) (h : 2 ≤ l.length) : parseFit (render l) = some (.points l) := by
  have e : (l.flatMap fun p => [printInt p.1, printInt p.2]) = (l.flatMap fun p => [p.1, p.2]).map printInt := by
    rw [List.map_flatMap]; rfl
  have hne : (l.flatMap fun p => [p.1, p.2]).map printInt ≠ [] := by
    cases l with
    | nil => simp at h
    | cons p l => simp
  have hs : splitComma (render l) = (l.flatMap fun p => [p.1, p.2]).map printInt := by
    unfold render
    rw [e]
    refine split_join _ hne ?_
    intro t ht
    obtain ⟨z, -, rfl⟩ := List.mem_map.1 ht
    exact (printInt_chars z).2.2
  have hl : (l.flatMap fun p => [p.1, p.2]).length = 2 * l.length := by
    induction l with
    | nil => rfl
    | cons p l ih =>
      clear e hne hs
      rw [List.flatMap_cons, List.length_append, List.length_cons]
      have : (l.flatMap fun p : Int × Int => [p.1, p.2]).length = 2 * l.length := by
        clear ih h
        induction l with
        | nil => rfl
        | cons p l ih => rw [List.flatMap_cons, List.length_append, ih]; simp; ring
      rw [this]; simp; ring
  unfold parseFit
  rw [hs, if_pos, mapM_print, Option.bind_some, if_neg (by omega), pairs_flat]
  rw [List.all_eq_true]
  intro t ht
  obtain ⟨z, -, rfl⟩ := List.mem_map.1 ht
  obtain ⟨p1, p2, -⟩ := printInt_chars z
  simp only [Bool.and_eq_true, decide_eq_true_eq]
  exact ⟨p1, List.all_eq_true.2 p2⟩

theorem in_token (s : List Char) (c : Char) (h : c ∈ s) (hc : c ≠ ',') : ∃ t ∈ splitComma s, c ∈ t := by
  induction s with
  | nil => cases h
  | cons d s ih =>
    rw [splitComma]
    by_cases hd : d = ','
    · rw [if_pos hd]
      rcases List.mem_cons.1 h with rfl | h
      · exact absurd hd hc
      · obtain ⟨t, h1, h2⟩ := ih h
        exact ⟨t, by simp [h1], h2⟩
    · rw [if_neg hd]
      cases hs : splitComma s with
      | nil =>
        rcases List.mem_cons.1 h with rfl | h
        · exact ⟨[c], by simp, by simp⟩
        · obtain ⟨t, h1, -⟩ := ih h
          rw [hs] at h1; cases h1
      | cons t ts =>
        rcases List.mem_cons.1 h with rfl | h
        · exact ⟨c :: t, by simp, by simp⟩
        · obtain ⟨t', h1, h2⟩ := ih h
          rw [hs] at h1
          rcases List.mem_cons.1 h1 with rfl | h1
          · exact ⟨d :: t', by simp, by simp [h2]⟩
          · exact ⟨t', by simp [h1], h2⟩

theorem pyInt_dot (t : List Char) (h : '.' ∈ t) : pyInt t = none := by
  unfold pyInt
  split
  · rename_i l
    rw [if_neg]
    rintro ⟨-, ha⟩
    have : '.' ∈ l := by
      rcases List.mem_cons.1 h with h | h
      · cases h
      · exact h
    have := List.all_eq_true.1 ha '.' this
    revert this; decide
  · rw [if_neg]
    rintro ⟨-, ha⟩
    have := List.all_eq_true.1 ha '.' h
    revert this; decide

theorem mapM_none {L : List (List Char)} {t : List Char} (h : t ∈ L) (hn : pyInt t = none) : L.mapM pyInt = none := by
  induction L with
  | nil => cases h
  | cons a L ih =>
    rw [List.mapM_cons]
    rcases List.mem_cons.1 h with rfl | h
    · rw [hn]; rfl
    · cases ha : pyInt a with
      | none => rfl
      | some z => rw [ih h]; rfl

/-- C118. Pixel coordinates with a decimal point can't be given to --fit: they're accepted as numbers, and then int() raises an exception -/
theorem fit_fraction_wrong (s : List Char) (h : '.' ∈ s) : parseFit s = none := by
  obtain ⟨t, h1, h2⟩ := in_token s '.' h (by decide)
  unfold parseFit
  split_ifs with h0 h3 h4 h5
  · rw [mapM_none h1 (pyInt_dot t h2)]; rfl
  · rw [h3] at h; revert h; decide
  · rw [h4] at h; revert h; decide
  · rw [h5] at h; revert h; decide
  · rfl

/-! ### runs -/

/-- names that look like models are models without a valid-intrinsics region; the others are images. The content 0 isn't an image. A transformed image is written as 1000 more -/
def demo : Env Nat Nat Nat Unit where
  readModel f := if looksLikeModel f then some f.length else none
  glob ex p := if ex p then [p] else []
  load c := if c = 0 then none else some c
  save _ i := some i
  imageSize _ := (4, 3)
  modelSize _ := (4, 3)
  annotate _ _ := none
  transform i _ := some (i + 1000)
  pinhole m _ _ _ := some m
  map _ _ _ := some ()
  schedule l := l

theorem demo_sub : Sub demo := fun _ _ h => h
theorem demo_exists : Exists demo := by
  intro ex p f h
  change f ∈ (if ex p then [p] else []) at h
  split_ifs at h with h0
  · rw [List.mem_singleton.1 h]; exact h0
  · cases h

/-- the models a.cahv, b.cahv and these images -/
def cmd (images : List String) : Args :=
  ⟨false, false, none, none, none, none, none, none, none, false, false, false, 1, "a.cahv".toList, "b.cahv".toList :: images.map String.toList⟩

theorem cmd_run (a : Args) (fs : FS Nat) (h1 : a.fit = none) (h2 : argsOk a true = true) (h3 : a.modelFrom = "a.cahv".toList) (globs : List FName) (hr : a.rest = "b.cahv".toList :: globs)
    (hg : ∀ g ∈ globs, looksLikeModel g = false) : run demo a fs = runModels demo a 6 (some 6) globs none fs := by
  have hgl : ∀ L : List FName, (∀ g ∈ L, looksLikeModel g = false) → classify demo L = some ([], L) := by
    intro L
    induction L with
    | nil => intro _; rfl
    | cons g L ih =>
      intro h
      have hm : demo.readModel g = none := by
        show (if looksLikeModel g = true then _ else _) = _
        rw [h g (by simp)]; rfl
      rw [classify, hm]
      dsimp only
      rw [h g (by simp), ih (fun x hx => h x (by simp [hx]))]
      rfl
  have hb : demo.readModel "b.cahv".toList = some 6 := by decide
  have ha : demo.readModel "a.cahv".toList = some 6 := by decide
  have hc : classify demo a.rest = some ([6], globs) := by
    rw [hr, classify, hb]
    dsimp only
    rw [hgl globs hg]
    rfl
  unfold run
  rw [hc]
  dsimp only
  rw [if_neg (by simp), if_neg (by simpa using h2), h3, ha]
  have hf : fitArg a = some none := by unfold fitArg; rw [h1]
  rw [hf]
  rfl

theorem ok_cmd (l : List String) : argsOk (cmd l) true = true := by simp [argsOk, cmd]

/-- the file system with these files -/
def disk (l : List (String × Nat)) : FS Nat := fun f => (l.find? fun p => p.1.toList == f).map Prod.snd

/-- C118. --outdir, with images of the same name in two directories: the second one replaces the first one, without --force. The tool reports success -/
theorem collision_wrong : ∃ (a : Args) (fs : FS Nat), a.force = false ∧ fs "l/0.jpg".toList = some 1 ∧ fs "r/0.jpg".toList = some 2 ∧
    targetName a "reprojected".toList "l/0.jpg".toList = some "o/0-reprojected.jpg".toList ∧ targetName a "reprojected".toList "r/0.jpg".toList = some "o/0-reprojected.jpg".toList ∧
    (run demo a fs).ok = true ∧ (run demo a fs).files "o/0-reprojected.jpg".toList = some 1002 := by
  refine ⟨{ cmd ["l/0.jpg", "r/0.jpg"] with outdir := some "o".toList }, disk [("l/0.jpg", 1), ("r/0.jpg", 2)], rfl, by decide, by decide, by decide, by decide, ?_⟩
  rw [cmd_run _ _ rfl (by simp [argsOk, cmd]) rfl _ rfl (by decide)]
  decide

/-- C118. --to-pinhole with two models: if an output of the second set exists the tool says that it's doing nothing. But the first set has been written already -/
theorem pair_wrong : ∃ (a : Args) (fs : FS Nat), (run demo a fs).ok = false ∧ fs "l-pinhole-remapped.jpg".toList = none ∧ (run demo a fs).files "l-pinhole-remapped.jpg".toList = some 1001 := by
  refine ⟨{ cmd ["l.jpg", "r.jpg"] with toPinhole := true }, disk [("l.jpg", 1), ("r.jpg", 2), ("r-pinhole.jpg", 3)], ?_⟩
  rw [cmd_run _ _ rfl (by simp [argsOk, cmd]) rfl _ rfl (by decide)]
  decide

/-- C118. With several jobs, exceptions are ignored: the tool reports success, but it hasn't written anything. With one job, it fails. Here the valid-intrinsics region is to be drawn, but the model doesn't have any -/
theorem jobs_wrong : ∃ (a : Args) (fs : FS Nat), fs "i.jpg".toList = some 1 ∧
    (run demo { a with jobs := 1 } fs).ok = false ∧ (run demo { a with jobs := 2 } fs).ok = true ∧ ∀ g, (run demo { a with jobs := 2 } fs).files g = fs g := by
  refine ⟨{ cmd ["i.jpg"] with validRegion := true }, disk [("i.jpg", 1)], by decide, ?_, ?_⟩
  · rw [cmd_run _ _ rfl (by simp [argsOk, cmd]) rfl _ rfl (by decide)]
    decide
  · rw [cmd_run _ _ rfl (by simp [argsOk, cmd]) rfl _ rfl (by decide)]
    exact ⟨by decide, fun g => rfl⟩

/-- C118. Files that can't be read as images, and files that don't exist, are skipped. The tool reports success -/
theorem skipped_wrong : ∃ (a : Args) (fs : FS Nat), a.rest = ["b.cahv".toList, "text.jpg".toList, "missing.jpg".toList] ∧ fs "text.jpg".toList ≠ none ∧ fs "missing.jpg".toList = none ∧
    (run demo a fs).ok = true ∧ ∀ g, (run demo a fs).files g = fs g := by
  refine ⟨cmd ["text.jpg", "missing.jpg"], disk [("text.jpg", 0)], rfl, by decide, by decide, ?_⟩
  rw [cmd_run _ _ rfl (by simp [argsOk, cmd]) rfl _ rfl (by decide)]
  exact ⟨by decide, fun g => rfl⟩

/-- C118. Images with an extension that doesn't have exactly 3 letters can't be used -/
theorem extension_wrong (env : Env M I C X) (a : Args) (src dst : M) (globs : List FName) (suffix : List Char) (pn : Option (ℝ × ℝ × ℝ)) (pd : Option ℝ) (fs : FS C) (i : FName)
    (hi : i ∈ inputs env fs globs) (h : ∀ dir stem ext, ¬ Named i dir stem ext) : process env a src dst globs suffix pn pd fs = (fs, false) := by
  unfold process
  rw [if_neg (List.ne_nil_of_mem hi)]
  cases hm : (inputs env fs globs).mapM (target a fs suffix) with
  | none => rfl
  | some ios =>
    exfalso
    obtain ⟨t1, t2⟩ := targets_mem hm
    rw [← t1] at hi
    obtain ⟨io, hio, rfl⟩ := List.mem_map.1 hi
    obtain ⟨dir, stem, ext, hn, -⟩ := out_name a suffix _ _ (t2 io hio).1
    exact h dir stem ext hn

/-! ### the hypotheses can be met -/

/- output_names, outputs_differ -/
example : targetName (cmd []) "reprojected".toList "d/x.jpg".toList = some "d/x-reprojected.jpg".toList := by decide

/- no_overwrite: an output exists already -/
example : (run demo (cmd ["i.jpg"]) (disk [("i.jpg", 1), ("i-reprojected.jpg", 7)])).files "i-reprojected.jpg".toList = some 7 :=
  no_overwrite demo demo_sub _ rfl _ _ _ (by decide)

/- files_changed, modes: a run that works -/
example : (run demo (cmd ["i.jpg", "j.png"]) (disk [("i.jpg", 1), ("j.png", 2)])).ok = true ∧
    (run demo (cmd ["i.jpg", "j.png"]) (disk [("i.jpg", 1), ("j.png", 2)])).files "j-reprojected.png".toList = some 1002 := by
  rw [cmd_run _ _ rfl (ok_cmd _) rfl _ rfl (by decide)]
  decide

/- process_images_partial -/
example : (process demo (cmd ["i.jpg", "j.png"]) 6 6 ["i.jpg".toList, "j.png".toList] "reprojected".toList none none (disk [("i.jpg", 1), ("j.png", 2)])).1 "i-reprojected.jpg".toList = some 1001 := by
  have hin : inputs demo (disk [("i.jpg", 1), ("j.png", 2)]) ["i.jpg".toList, "j.png".toList] = ["i.jpg".toList, "j.png".toList] := by decide
  obtain ⟨-, h⟩ := process_images_partial demo demo_exists (cmd ["i.jpg", "j.png"]) 6 6 ["i.jpg".toList, "j.png".toList] "reprojected".toList none none (disk [("i.jpg", 1), ("j.png", 2)]) (fun l => List.Perm.refl l)
    (by rw [hin]; simp) () rfl (fun i => (targetName (cmd []) "reprojected".toList i).getD []) (by
      rw [hin]
      intro i hi
      rcases List.mem_cons.1 hi with rfl | hi
      · exact ⟨by decide, fun _ => by decide⟩
      · rw [List.mem_singleton.1 hi]
        exact ⟨by decide, fun _ => by decide⟩) (by rw [hin]; decide) (fun h => by cases h) (by
      intro i _ im _ _
      exact ⟨im + 1000, im + 1000, rfl, rfl⟩)
  exact h "i.jpg".toList (by rw [hin]; simp)

/- bad_options: --fit without --to-pinhole -/
example : (run demo { cmd ["i.jpg"] with fit := some "corners".toList } (disk [("i.jpg", 1)])).ok = false :=
  (bad_options demo _ _ (.inl ⟨rfl, .inl (by simp)⟩)).1

/- fit_points_partial -/
example : parseFit "10,-20,300,40".toList = some (.points [(10, -20), (300, 40)]) := by
  have := fit_points_partial [(10, -20), (300, 40)] (by decide)
  have e : render [(10, -20), (300, 40)] = "10,-20,300,40".toList := by
    simp only [render, printInt, List.flatMap_cons, List.flatMap_nil, List.append_nil]
    simp [Name.printNat, joinComma]
    decide
  rw [e] at this
  exact this

/- extension_wrong: .jpeg -/
example : ∀ dir stem ext, ¬ Named "i.jpeg".toList dir stem ext := by
  rintro dir stem ext ⟨h1, -, -, a, b, c, h2, -, -⟩
  have e : "i.jpeg".toList = ['i', '.'] ++ ['j', 'p', 'e', 'g'] := by decide
  rw [e] at h1
  have := (append4 (by rfl) (by rw [h2]; rfl) h1).2
  rw [h2] at this
  injection this with h
  cases h

end Mrcal.Reproject

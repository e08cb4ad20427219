import Verif.Props.ReprojectImageExamples
/-
C118: when mrcal-reproject-image doesn't process any images
-/
namespace Mrcal.Reproject

open Mrcal

variable {M I C X : Type}

theorem mapM_target_none (a : Args) (fs : FS C) (suffix : List Char) (i : FName) (h : target a fs suffix i = none) : ∀ L : List FName, i ∈ L → L.mapM (target a fs suffix) = none := by
  intro L
  induction L with
  | nil => intro h; cases h
  | cons x L ih =>
    intro hm
    rw [List.mapM_cons]
    rcases List.mem_cons.1 hm with rfl | hm
    · rw [h]; rfl
    · rw [ih hm]
      cases target a fs suffix x <;> rfl

/-- **C118**: if no image matches, or some output exists and there's no --force, or the map can't be computed, it's an error, and no image is written: not even those that could be -/
theorem nothing_processed (env : Env M I C X) (a : Args) (src dst : M) (globs : List FName) (suffix : List Char) (pn : Option (ℝ × ℝ × ℝ)) (pd : Option ℝ) (fs : FS C)
    (h : (∀ g ∈ globs, env.glob (fun f => (fs f).isSome) g = []) ∨
      (a.force = false ∧ ∃ g ∈ globs, ∃ i ∈ env.glob (fun f => (fs f).isSome) g, ∃ o, targetName a suffix i = some o ∧ (fs o).isSome) ∨
      env.map src dst ⟨a.intrinsicsOnly, a.distance, pn, pd, a.maskRegion⟩ = none) :
    process env a src dst globs suffix pn pd fs = (fs, false) := by
  unfold process
  by_cases he : inputs env fs globs = []
  · rw [if_pos he]
  · rw [if_neg he]
    rcases h with h | ⟨hf, g, hg, i, hi, o, ho, hs⟩ | h
    · exfalso
      refine he ?_
      unfold inputs
      rw [List.flatMap_eq_nil_iff]
      exact h
    · have ht : target a fs suffix i = none := by
        unfold target
        rw [ho, Option.bind_some, hf, hs]; rfl
      have hm : i ∈ inputs env fs globs := List.mem_flatMap.2 ⟨g, hg, hi⟩
      rw [mapM_target_none a fs suffix i ht _ hm]
    · cases (inputs env fs globs).mapM (target a fs suffix) with
      | none => rfl
      | some ios => dsimp only; rw [h]

/-- cases of `nothing_processed`: nothing matches; an output exists -/
example : (∀ g ∈ ["missing.jpg".toList], demo.glob (fun f => (disk [("i.jpg", 1)] f).isSome) g = []) ∧
    ∃ g ∈ ["i.jpg".toList], ∃ i ∈ demo.glob (fun f => (disk [("i.jpg", 1), ("i-reprojected.jpg", 7)] f).isSome) g, ∃ o, targetName (cmd []) "reprojected".toList i = some o ∧ (disk [("i.jpg", 1), ("i-reprojected.jpg", 7)] o).isSome := by
  refine ⟨by decide +kernel, "i.jpg".toList, by simp, "i.jpg".toList, by decide +kernel, "i-reprojected.jpg".toList, by decide +kernel, by decide +kernel⟩

end Mrcal.Reproject

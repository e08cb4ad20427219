import Verif.Props.FormatToolsMain
/-
C120: concrete cases
-/
namespace Mrcal.Format

/-- a model is a lens model, and a number: 0: a lens model that the cahvor format doesn't have. The contents of a file are: nothing; something that isn't a model; a format and a model -/
inductive Text where
  | empty
  | junk
  | model (fmt : Fmt) (m : Nat)
deriving DecidableEq

def exEnv : Env Nat Text where
  read
    | .model _ m => some m
    | _ => none
  text fmt _ m := if fmt = .cahvor ∧ m = 0 then none else some (.model fmt m)
  commentText _ := .empty
  stdin := some (.model .cameramodel 9)

def exFs : FS Text := fun f =>
  if f = "in/a.cahvor".toList then some (.model .cahvor 1)
  else if f = "in/b.CAHV".toList then some (.model .cahvor 2)
  else if f = "in/b.cameramodel".toList then some (.model .cameramodel 3)
  else if f = "spline.cameramodel".toList then some (.model .cameramodel 0)
  else if f = "old.cahvor".toList then some .junk
  else none

def exArgs : Args := ⟨false, none, ["in/a.cahvor".toList, "-".toList, "in/b.CAHV".toList]⟩

/-- `converts_partial`: two inputs and the standard input; one target exists -/
example : Inputs exArgs exArgs.models ∧ (∀ f ∈ exArgs.models, f ≠ "-".toList → ¬ Named ".cameramodel".toList f) ∧
    (exArgs.models.Pairwise fun f g => f ≠ "-".toList → g ≠ "-".toList → ∀ o, Target ".cameramodel".toList exArgs.outdir f o → ¬ Target ".cameramodel".toList exArgs.outdir g o) ∧
    (∀ f ∈ exArgs.models, ∀ g ∈ exArgs.models, f ≠ "-".toList → g ≠ "-".toList → ¬ Target ".cameramodel".toList exArgs.outdir f g) ∧
    (toCameramodel exEnv exArgs exFs).ok = true ∧
    (toCameramodel exEnv exArgs exFs).fs "in/a.cameramodel".toList = some (.model .cameramodel 1) ∧
    (toCameramodel exEnv exArgs exFs).fs "in/b.cameramodel".toList = some (.model .cameramodel 3) ∧
    (toCameramodel exEnv exArgs exFs).stdout = [.inr "in/a.cameramodel".toList, .inl (.model .cameramodel 9)] := by
  refine ⟨Or.inr ⟨by decide, rfl⟩, ?_, ?_, ?_, by decide +kernel, by decide +kernel, by decide +kernel, by decide +kernel⟩
  · intro f hf hfd h
    exact absurd ((named_iff _ _).1 h) ((by decide +kernel : ∀ f ∈ exArgs.models, f ≠ "-".toList → ¬ already ".cameramodel".toList f = true) f hf hfd)
  · have : exArgs.models.Pairwise fun f g => outName ".cameramodel".toList exArgs f ≠ outName ".cameramodel".toList exArgs g := by decide +kernel
    refine this.imp fun {f g} h _ _ o ho hg => h ?_
    rw [← (target_iff _ exArgs _ _).1 ho, ← (target_iff _ exArgs _ _).1 hg]
  · intro f hf g hg _ _ h
    exact (by decide +kernel : ∀ f ∈ exArgs.models, ∀ g ∈ exArgs.models, ¬ g = outName ".cameramodel".toList exArgs f) f hf g hg ((target_iff _ exArgs _ _).1 h)

/-- with --force the other one is converted too -/
example : (toCameramodel exEnv { exArgs with force := true } exFs).fs "in/b.cameramodel".toList = some (.model .cameramodel 2) := by decide +kernel

/-- `keeps_files` -/
example : exArgs.force = false ∧ (exFs "in/b.cameramodel".toList).isSome := by decide +kernel

/-- `only_targets` -/
example : (toCameramodel exEnv exArgs exFs).fs "in/a.cameramodel".toList ≠ exFs "in/a.cameramodel".toList := by decide +kernel

/-- `standard_output`: no arguments -/
example : Inputs ⟨false, none, []⟩ ["-".toList] ∧ (toCahvor exEnv ⟨false, none, []⟩ exFs).ok = true ∧ (toCahvor exEnv ⟨false, none, []⟩ exFs).stdout = [.inl (.model .cahvor 9)] :=
  ⟨Or.inl ⟨rfl, rfl⟩, by decide +kernel, by decide +kernel⟩

/-- `two_stdin` -/
example : (Args.mk false none ["in/a.cahvor".toList, "-".toList, "x".toList, "-".toList]).models = ["in/a.cahvor".toList] ++ "-".toList :: (["x".toList] ++ "-".toList :: []) := rfl

/-- `named_stops_wrong`: `mrcal-to-cahvor old.cahvor in/b.cameramodel` -/
example : Named ".cahvor".toList "old.cahvor".toList ∧ "-".toList ∉ ["in/b.cameramodel".toList] ∧
    (toCahvor exEnv ⟨false, none, ["old.cahvor".toList, "in/b.cameramodel".toList]⟩ exFs).fs "in/b.cahvor".toList = none :=
  ⟨(named_iff _ _).2 (by decide), by decide, by decide +kernel⟩

/-- the other way round it is converted -/
example : (toCahvor exEnv ⟨false, none, ["in/b.cameramodel".toList, "old.cahvor".toList]⟩ exFs).fs "in/b.cahvor".toList = some (.model .cahvor 3) := by decide +kernel

/-- `failed_write_wrong` -/
example : ¬ Named ".cahvor".toList "spline.cameramodel".toList ∧ Target ".cahvor".toList none "spline.cameramodel".toList "spline.cahvor".toList ∧ exFs "spline.cahvor".toList = none ∧
    exFs "spline.cameramodel".toList = some (.model .cameramodel 0) ∧ exEnv.read (.model .cameramodel 0) = some 0 ∧ exEnv.text .cahvor [] 0 = none :=
  ⟨fun h => by have := (named_iff _ _).1 h; revert this; decide, (target_iff _ ⟨false, none, []⟩ _ _).2 (by decide), by decide +kernel, by decide +kernel, rfl, rfl⟩

/-- `force_lost_wrong`: --outdir isn't needed: the file is spline.cahvor, and there's a good one there -/
example : (toCahvor exEnv ⟨true, none, ["spline.cameramodel".toList]⟩ (put exFs "spline.cahvor".toList (.model .cahvor 5))).fs "spline.cahvor".toList = some .empty ∧
    (put exFs "spline.cahvor".toList (.model .cahvor 5)) "spline.cameramodel".toList = some (.model .cameramodel 0) := by decide +kernel

/-- `collision_wrong`: in/a.cahvor and other/a.cahv -/
example : Target ".cameramodel".toList (some "out".toList) "in/a.cahvor".toList "out/a.cameramodel".toList ∧ Target ".cameramodel".toList (some "out".toList) "other/a.cahv".toList "out/a.cameramodel".toList ∧
    ¬ Named ".cameramodel".toList "in/a.cahvor".toList ∧ ¬ Named ".cameramodel".toList "other/a.cahv".toList ∧ exFs "out/a.cameramodel".toList = none ∧ exFs "in/a.cahvor".toList = some (.model .cahvor 1) ∧
    exEnv.read (.model .cahvor 1) = some 1 ∧ exEnv.text .cameramodel [] 1 = some (.model .cameramodel 1) :=
  ⟨(target_iff _ ⟨false, some "out".toList, []⟩ _ _).2 (by decide), (target_iff _ ⟨false, some "out".toList, []⟩ _ _).2 (by decide), fun h => by have := (named_iff _ _).1 h; revert this; decide,
    fun h => by have := (named_iff _ _).1 h; revert this; decide, by decide +kernel, by decide +kernel, rfl, rfl⟩

/-- `note_written` -/
example : exEnv.text .cameramodel ["made by hand".toList] 4 = some (.model .cameramodel 4) := rfl

/-- `write_format` -/
example : writeFormat false false (some "x.cahv".toList) = some .cahvor ∧ writeFormat false false (some "x.CAHVOR".toList) = some .cameramodel ∧ writeFormat true false (some "x.yaml".toList) = some .cahvor ∧
    writeFormat false false (some "x.yaml".toList) = some .opencv ∧ writeFormat true true none = none := by decide

end Mrcal.Format

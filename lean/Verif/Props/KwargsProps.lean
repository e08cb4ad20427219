import Verif.Model.Kwargs
import Verif.Props.StateLayoutProps
/-
C42 (legacy argument names), C43 (default selections; unknown keyword arguments), C44 (explicit problem
sizes).
-/
namespace Mrcal.Kwargs
open Mrcal StateLayout

/-! ### C42 specification: the rows of data that an argument denotes -/

/-- The rows an array argument carries; `None`/absent carry none. -/
def content {α} (x : ArrArg α) : List α := x.getD []

/-- What a user expects from an argument that may be given under two names: giving both is an error; else
whichever one was given. -/
def expected {α} (old new : List α) : Option (List α) :=
  match old, new with
  | [], n => some n
  | o, [] => some o
  | _ :: _, _ :: _ => none

theorem handleRenamed_none {α} (old : ArrArg α) : handleRenamed old none = some (none, old) := by
  simp [handleRenamed]

/-- The state-index and pack/unpack functions honour the legacy name whenever the new name is not given
(or is `None`), and reject a double definition. `_partial`: the general statement
`(stateIndexEffective old new).map content = expected (content old) (content new)` fails in exactly one case,
see `legacy_ignored_when_new_empty`. -/
theorem legacy_honoured_state_index_partial {α} (old new : ArrArg α)
    (h : new = some [] → content old = []) :
    (stateIndexEffective old new).map content = expected (content old) (content new) := by
  rcases old with _ | _ | ⟨a, as⟩ <;> rcases new with _ | _ | ⟨b, bs⟩ <;>
    simp_all [stateIndexEffective, handleRenamed, content, expected]

example : (stateIndexEffective (some [3, 4]) (none : ArrArg Nat)).map content = some [3, 4] := by
  decide

/-- Deviation: a legacy value next to an *empty array* under the new name is silently ignored. -/
theorem legacy_ignored_when_new_empty {α} (old : ArrArg α) :
    (stateIndexEffective old (some [])).map content = some [] := by
  rcases old with _ | _ | ⟨a, as⟩ <;> simp [stateIndexEffective, handleRenamed, content]

/-- Deviation: optimize() and optimizer_callback() ignore every legacy value, because the missing new value has
already been replaced by an empty array when the alias is looked at. Whatever is passed under the old
name, the effect is that of an empty array. -/
theorem legacy_ignored_by_optimize {α} (old : ArrArg α) :
    (optimizeEffective old none).map content = some [] := by
  rcases old with _ | _ | ⟨a, as⟩ <;>
    simp [optimizeEffective, setSize0IfNone, handleRenamed, content]

/-- ... so the property C42 is false for them. -/
theorem legacy_optimize_not_honoured :
    ¬ ∀ old new : ArrArg Nat,
      (optimizeEffective old new).map content = expected (content old) (content new) := by
  intro h
  exact absurd (h (some [1]) none) (by decide)

/-- optimize(): what is true: without a legacy value the new one is used; and both entry points report an error
exactly when both names carry data. -/
theorem legacy_optimize_partial {α} (old new : ArrArg α) :
    ((content old = [] ∨ content new ≠ []) →
      (optimizeEffective old new).map content = expected (content old) (content new)) ∧
    (optimizeEffective old new = none ↔ content old ≠ [] ∧ content new ≠ []) ∧
    (stateIndexEffective old new = none ↔ content old ≠ [] ∧ content new ≠ []) := by
  rcases old with _ | _ | ⟨a, as⟩ <;> rcases new with _ | _ | ⟨b, bs⟩ <;>
    simp [optimizeEffective, stateIndexEffective, setSize0IfNone, handleRenamed, content, expected]

example : optimizeEffective (some [1]) (some [2]) = (none : Option (ArrArg Nat)) := by decide

/-! ### C43: unknown keyword arguments -/

/-- "Null" in the sense of the comment in the code: `None`, 0, an empty array, any falsy object. -/
def Null {α} : PyVal α → Prop
  | .none => True
  | .int i => i = 0
  | .array rows => rows = []
  | .other b => b = false

theorem nonNull_iff {α} (v : PyVal α) : v.nonNull = false ↔ Null v := by
  cases v <;> simp [PyVal.nonNull, Null]

theorem deleteUnknown_acc {κ α} (known : κ → Bool) (kw acc : List (κ × PyVal α)) :
    deleteUnknown known acc kw =
      if kw.all (fun p => known p.1 || !p.2.nonNull) then some (acc ++ kw.filter fun p => known p.1)
      else none := by
  induction kw generalizing acc with
  | nil => simp [deleteUnknown]
  | cons p rest ih =>
    obtain ⟨k, v⟩ := p
    have hall : ((k, v) :: rest).all (fun p => known p.1 || !p.2.nonNull) =
        ((known k || !v.nonNull) && rest.all (fun p => known p.1 || !p.2.nonNull)) := by simp
    rw [hall]
    cases hk : known k <;> cases hv : v.nonNull <;> simp [deleteUnknown, hk, hv, ih] <;> rfl

/-- Filtering succeeds iff each argument is known or null; it then keeps exactly the known ones, unchanged and
in order. -/
theorem delete_unknown_spec {κ α} (known : κ → Bool) (kw out : List (κ × PyVal α)) :
    deleteUnknown known [] kw = some out ↔
      (∀ p ∈ kw, known p.1 = true ∨ Null p.2) ∧
      out.Sublist kw ∧ (∀ p, p ∈ out ↔ p ∈ kw ∧ known p.1 = true) ∧
      out.length = kw.countP (fun p => known p.1) := by
  rw [deleteUnknown_acc]
  have hall : (kw.all (fun p => known p.1 || !p.2.nonNull) = true) ↔
      (∀ p ∈ kw, known p.1 = true ∨ Null p.2) := by
    rw [List.all_eq_true]
    constructor <;> intro h p hp <;> have := h p hp <;>
      simpa [← nonNull_iff] using this
  by_cases h : kw.all (fun p => known p.1 || !p.2.nonNull) = true
  · simp only [h, if_true, List.nil_append, Option.some.injEq]
    constructor
    · rintro rfl
      refine ⟨hall.1 h, List.filter_sublist, fun p => by simp, ?_⟩
      rw [List.countP_eq_length_filter]
    · rintro ⟨-, hs, hm, hl⟩
      rw [List.countP_eq_length_filter] at hl
      have h2 : out.filter (fun p => known p.1) = out :=
        List.filter_eq_self.2 fun p hp => ((hm p).1 hp).2
      have h3 := hs.filter (fun p => known p.1)
      rw [h2] at h3
      exact (h3.eq_of_length hl).symm
  · simp only [h]
    constructor
    · intro h'; simp at h'
    · intro h'; exact absurd (hall.2 h'.1) h

/-- a concrete call: one known, one unknown null; and one with an unknown non-null -/
example : ∃ out, deleteUnknown (fun k => k == "verbose") []
      [("verbose", PyVal.int 1), ("future", (.array [] : PyVal Nat))] = some out ∧ out.length = 1 :=
  ⟨_, rfl, rfl⟩
example : deleteUnknown (fun k => k == "verbose") []
      [("verbose", PyVal.int 1), ("future", (.array [3] : PyVal Nat))] = none := rfl

/-! ### C43: default selections -/

/-- What gets optimized, per kind of quantity: the explicit flag if there is one; otherwise "yes if there is
any of it". The documentation (optimize.docstring:207-209) says the flags default to True. -/
theorem selections_spec (f : Flags) (Nci Nce Nframes Nob : Int) :
    let s := selections f Nci Nce Nframes Nob
    (s.core = f.core.getD (decide (0 < Nci))) ∧
    (s.distortions = f.distortions.getD (decide (0 < Nci))) ∧
    (s.extrinsics = f.extrinsics.getD (decide (0 < Nce))) ∧
    (s.frames = f.frames.getD (decide (0 < Nframes))) ∧
    (s.warp = f.warp.getD (decide (0 < Nob))) ∧
    (s.regularization = f.regularization.getD true) ∧
    (s.unityCam01 = f.unityCam01.getD false) ∧
    (s.outlierRejection = f.outlierRejection.getD true) := by
  have key : ∀ (o : Option Bool) (n : Int),
      ((if parseFlag (-1) o ≥ 0 then parseFlag (-1) o else if n > 0 then 1 else 0) != 0) =
        o.getD (decide (0 < n)) := by
    intro o n
    by_cases hn : 0 < n <;> rcases o with _ | _ | _ <;> simp [parseFlag, hn]
  have key2 : ∀ (o : Option Bool) (b : Bool),
      (parseFlag (if b then 1 else 0) o != 0) = o.getD b := by
    intro o b; rcases o with _ | _ | _ <;> cases b <;> simp [parseFlag]
  refine ⟨key .., key .., key .., key .., key .., ?_, ?_, ?_⟩
  · exact key2 f.regularization true
  · exact key2 f.unityCam01 false
  · exact key2 f.outlierRejection true

def noFlags : Flags := ⟨none, none, none, none, none, none, none, none⟩

/-- With no flags given, every quantity of the problem is in the state vector, if there are frames or
no (non-fixed) points. "every quantity": see the `Present` predicate of C01 with everything selected.
`_partial`: the documentation promises this without the hypothesis, see `default_leaves_points_out`. -/
theorem default_optimizes_all_partial (d : Dims) (v : Var)
    (hs : d.sel = selections noFlags d.Nci d.Nce d.Nframes d.Nob)
    (hfp : 0 < d.Nframes ∨ d.Npoints ≤ d.NpointsFixed) :
    Present { d with sel := ⟨true, true, true, true, true, true, true, true⟩ } v ↔ Present d v := by
  obtain ⟨h1, h2, h3, h4, h5, -⟩ := selections_spec noFlags d.Nci d.Nce d.Nframes d.Nob
  rw [← hs] at h1 h2 h3 h4 h5
  simp only [noFlags, Option.getD_none] at h1 h2 h3 h4 h5
  cases v <;> simp only [Present, h3, h4, h5, specIntrinsicsPerCamera, h1, h2, decide_eq_true_eq] <;>
    constructor <;> intro h <;> simp_all <;> omega

example : let d : Dims := ⟨2, 1, 3, 4, 1, 5, selections noFlags 2 1 3 5, .opencv4⟩
    Present d (.point 2 1) := by
  simp [Present, selections, constructProblemSelections, noFlags, parseFlag]

/-- Deviation: in a problem with points and no frames, by default the points are *not* optimized, although
"we will optimize ALL the variables" (optimize.docstring:207-209). -/
theorem default_leaves_points_out (Nci Nce Npoints Npf Nob : Int) (lens : Lens) :
    numStatesPoints ⟨Nci, Nce, 0, Npoints, Npf, Nob, selections noFlags Nci Nce 0 Nob, lens⟩ = 0 := by
  simp [numStatesPoints, selections, constructProblemSelections, noFlags, parseFlag]

/-! ### C44: explicit sizes -/

/-- The documentation ("the explicit arguments take precedence", state_index_intrinsics.docstring and the others)
promises that an explicit size is used as given. It never is: a nonzero one makes the call
fail... -/
theorem explicit_size_rejected {α} (sizeName oldName newName : String)
    (hname : sizeName ∈ ["Ncameras_intrinsics", "Ncameras_extrinsics", "Nframes", "Npoints",
      "Nobservations_board", "Nobservations_point"])
    (kwargs : List (String × PyVal α)) (n : Int) (hn : n ≠ 0) (hmem : (sizeName, .int n) ∈ kwargs) :
    sizeArg sizeName oldName newName kwargs = none := by
  have hk : knownKeys.contains sizeName = false := by
    simp only [List.mem_cons, List.not_mem_nil, or_false] at hname
    rcases hname with h | h | h | h | h | h <;> subst h <;> decide
  have : deleteUnknown (fun k => knownKeys.contains k) [] kwargs = none := by
    rw [deleteUnknown_acc, if_neg]
    rw [List.all_eq_true]
    push Not
    refine ⟨_, hmem, ?_⟩
    simp only [hk, PyVal.nonNull]
    simp [hn]
  rw [sizeArg, this]
  rfl

/-- ... and a zero one is ignored: the size of the array is used instead. -/
theorem explicit_zero_size_ignored :
    sizeArg "Nframes" "frames_rt_toref" "rt_ref_frame"
      [("Nframes", .int 0), ("rt_ref_frame", (.array [1, 2, 3] : PyVal Nat))] = some 3 := by
  decide

/-- What holds: without an explicit size, the size is the number of rows of the array, under either of its
names, or 0 if there's no array. -/
theorem implicit_size_partial {α} (kwargs : List (String × PyVal α)) (rows : List α)
    (sizeName oldName newName : String)
    (ho : oldName ∈ knownKeys) (hn : newName ∈ knownKeys)
    (hne : oldName ≠ newName) (hso : sizeName ≠ oldName) (hsn : sizeName ≠ newName)
    (hknown : ∀ p ∈ kwargs, p.1 ∈ knownKeys)
    (hothers : ∀ p ∈ kwargs, p.1 ≠ sizeName ∧ p.1 ≠ newName ∧ p.1 ≠ oldName) :
    sizeArg sizeName oldName newName kwargs = some 0 ∧
    sizeArg sizeName oldName newName ((newName, .array rows) :: kwargs) = some (rows.length : Int) ∧
    sizeArg sizeName oldName newName ((oldName, .array rows) :: kwargs) = some (rows.length : Int) := by
  have hf : ∀ kw : List (String × PyVal α), (∀ p ∈ kw, p.1 ∈ knownKeys) →
      deleteUnknown (fun k => knownKeys.contains k) [] kw = some kw := by
    intro kw h
    rw [deleteUnknown_acc, if_pos]
    · simp only [List.nil_append, Option.some.injEq]
      exact List.filter_eq_self.2 fun p hp => by simpa using h p hp
    · rw [List.all_eq_true]
      intro p hp
      simp [h p hp]
  have hfind : ∀ (name : String), (∀ p ∈ kwargs, p.1 ≠ name) →
      kwargs.find? (fun p => p.1 == name) = none := by
    intro name h
    rw [List.find?_eq_none]
    intro p hp
    simpa using h p hp
  have h0 := hfind sizeName fun p hp => (hothers p hp).1
  have h1 := hfind newName fun p hp => (hothers p hp).2.1
  have h2 := hfind oldName fun p hp => (hothers p hp).2.2
  have e1' : (newName == sizeName) = false := by simpa using hsn.symm
  have e2' : (oldName == sizeName) = false := by simpa using hso.symm
  have e3 : (newName == oldName) = false := by simpa using hne.symm
  have e4 : (oldName == newName) = false := by simpa using hne
  refine ⟨?_, ?_, ?_⟩
  · rw [sizeArg, hf kwargs hknown]
    simp [parseInt, parseArr, lookup, h0, h1, h2,
      stateIndexEffective, handleRenamed, sizeFrom]
  · rw [sizeArg, hf]
    · simp [parseInt, parseArr, lookup, List.find?_cons, h0, h1, h2, e1', e2', e3, e4,
        stateIndexEffective, handleRenamed, sizeFrom]
    · intro p hp
      rcases List.mem_cons.1 hp with rfl | hp
      · exact hn
      · exact hknown p hp
  · rw [sizeArg, hf]
    · simp [parseInt, parseArr, lookup, List.find?_cons, h0, h1, h2, e1', e2', e3, e4,
        stateIndexEffective, handleRenamed, sizeFrom]
    · intro p hp
      rcases List.mem_cons.1 hp with rfl | hp
      · exact ho
      · exact hknown p hp

example : sizeArg "Nframes" "frames_rt_toref" "rt_ref_frame"
      [("frames_rt_toref", (.array [5, 6] : PyVal Nat)), ("points", .array [1])] = some 2 := by
  decide

end Mrcal.Kwargs

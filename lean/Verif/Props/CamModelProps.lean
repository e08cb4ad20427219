import Verif.Props.CamModelInputs
import Verif.Props.CamModelPoseProps
/-
C84: a camera model object stays consistent: the optimization inputs and the valid-intrinsics region that it has belong to the intrinsics that it has.
-/
namespace Mrcal.CamModel
open Mrcal.Pose

/-! ### specification -/

/-- the calls that modify a model -/
inductive Op where
  | intrinsics (a : Args ℝ)
  | pose (e : Extr)
  | region (r : List (ℝ × ℝ))
  | regionReset
  | inputsReset

/-- a call of intrinsics() with arguments that make it a setter -/
def Op.sets : Op → Prop
  | .intrinsics a => ¬ (a.imagersize = none ∧ a.intrinsics = none ∧ a.opt = none ∧ a.icamI = none)
  | _ => False

/-- each call -/
noncomputable def step (C : Codec) (corr : Int → Dict → Option Int) (o : Obj ℝ RtV) : Op → Obj ℝ RtV × Outcome
  | .intrinsics a => intrinsicsCall C corr o a
  | .pose e => (setExtr o (some e), .ok)
  | .region r => setRegion o r
  | .regionReset => (regionReset o, .ok)
  | .inputsReset => (optimizationInputsReset o, .ok)

/-- an execution where no exception is raised -/
inductive Runs (C : Codec) (corr : Int → Dict → Option Int) : Obj ℝ RtV → List Op → Obj ℝ RtV → Prop
  | nil (o) : Runs C corr o [] o
  | cons {o o' o''} {op : Op} {ops : List Op} : (step C corr o op).1 = o' → (step C corr o op).2 ≠ .raised → Runs C corr o' ops o'' → Runs C corr o (op :: ops) o''

/-! ### each call -/

theorem not_sets {a : Args ℝ} (h : ¬ Op.sets (.intrinsics a)) (C : Codec) (corr : Int → Dict → Option Int) (o : Obj ℝ RtV) : intrinsicsCall C corr o a = (o, .got) := by
  have h := not_not.mp h
  unfold intrinsicsCall
  rw [if_pos]
  exact ⟨h.1, by rw [h.2.1]; rfl, h.2.2.1, h.2.2.2⟩

theorem call_sets {a : Args ℝ} (h : Op.sets (.intrinsics a)) (C : Codec) (corr : Int → Dict → Option Int) (o : Obj ℝ RtV) (hok : (intrinsicsCall C corr o a).2 ≠ .raised) :
    (intrinsicsCall C corr o a).2 = .ok ∧
    a.intrinsics = some ((intrinsicsCall C corr o a).1.lensmodel, (intrinsicsCall C corr o a).1.intrinsics) ∧
    (intrinsicsCall C corr o a).1.imagersize = a.imagersize.getD o.imagersize ∧ (intrinsicsCall C corr o a).1.region = none ∧
    (a.opt = none → (intrinsicsCall C corr o a).1.opt = none) ∧ (intrinsicsCall C corr o a).1.icamI = a.icamI ∧ (intrinsicsCall C corr o a).1.rt_cam_ref = o.rt_cam_ref := by
  have h' : ¬ (a.imagersize = none ∧ a.intrinsics.isNone = true ∧ a.opt = none ∧ a.icamI = none) := by
    intro h2; exact h ⟨h2.1, Option.isNone_iff_eq_none.1 h2.2.1, h2.2.2⟩
  unfold intrinsicsCall at hok ⊢
  rw [if_neg h'] at hok ⊢
  obtain ⟨sz, hsz⟩ : ∃ sz, sz = a.imagersize.getD o.imagersize := ⟨_, rfl⟩
  simp only [← hsz] at hok ⊢
  by_cases hv : (!validateIntrinsics sz a.intrinsics a.opt a.icamI a.icamE) = true
  · rw [if_pos hv] at hok; exact absurd rfl hok
  · rw [if_neg hv] at hok ⊢
    have hv' : validateIntrinsics sz a.intrinsics a.opt a.icamI a.icamE = true := by simpa using hv
    cases hi : a.intrinsics with
    | none => rw [hi] at hok; exact absurd rfl hok
    | some nv =>
      obtain ⟨name, v⟩ := nv
      rw [hi] at hok hv'
      simp only at hok ⊢
      cases hd : a.opt with
      | none =>
        rw [hd] at hv'
        have : a.icamI = none := by
          unfold validateIntrinsics at hv'
          simp only at hv'
          split_ifs at hv'
          exact (of_decide_eq_true hv').1
        simp [this]
      | some d =>
        rw [hd] at hok
        simp only at hok ⊢
        cases hs : serializeDict d with
        | none => rw [hs] at hok; exact absurd rfl hok
        | some s =>
          rw [hs] at hok
          simp only at hok ⊢
          cases he : a.icamE with
          | some e => simp
          | none =>
            rw [he] at hok
            simp only at hok ⊢
            cases hc : corr (a.icamI.getD 0) d with
            | none => rw [hc] at hok; exact absurd rfl hok
            | some e => simp

theorem step_other (C : Codec) (corr : Int → Dict → Option Int) (o : Obj ℝ RtV) (op : Op) (h : ¬ op.sets) :
    let o' := (step C corr o op).1
    o'.lensmodel = o.lensmodel ∧ o'.intrinsics = o.intrinsics ∧ o'.imagersize = o.imagersize ∧ o'.icamI = o.icamI ∧ o'.icamE = o.icamE ∧
    (o'.opt = o.opt ∧ op ≠ .inputsReset ∨ op = .inputsReset ∧ o'.opt = none) ∧
    (∀ r, o'.region = some r → o.region = some r ∨ ∃ r0, op = .region r0 ∧ r = closeContour r0) := by
  intro o'
  cases op with
  | intrinsics a =>
    have : o' = o := by show (intrinsicsCall C corr o a).1 = o; rw [not_sets h]
    rw [this]
    simp
  | pose e =>
    obtain ⟨T, hT⟩ := pose_only o (some e)
    have : o' = { o with rt_cam_ref := T } := hT
    rw [this]
    simp
  | region r =>
    have : o' = (setRegion o r).1 := rfl
    rw [this]
    unfold setRegion
    split_ifs
    · simp
    · simp; intro r hr; exact Or.inl hr
  | regionReset => simp [o', step, regionReset]
  | inputsReset => simp [o', step, optimizationInputsReset]

theorem runs_other {C : Codec} {corr : Int → Dict → Option Int} {o o' : Obj ℝ RtV} {ops : List Op} (h : Runs C corr o ops o') (hs : ∀ op ∈ ops, ¬ op.sets) :
    o'.lensmodel = o.lensmodel ∧ o'.intrinsics = o.intrinsics ∧ o'.imagersize = o.imagersize ∧ o'.icamI = o.icamI ∧ o'.icamE = o.icamE ∧
    (o'.opt = o.opt ∧ Op.inputsReset ∉ ops ∨ Op.inputsReset ∈ ops ∧ o'.opt = none) ∧
    (∀ r, o'.region = some r → o.region = some r ∨ ∃ r0, Op.region r0 ∈ ops ∧ r = closeContour r0) := by
  induction h with
  | nil o => simp
  | @cons o o1 o2 op ops he hr ht ih =>
    obtain ⟨i1, i2, i3, i4, i5, i6, i7⟩ := ih fun op h => hs op (List.mem_cons_of_mem _ h)
    obtain ⟨s1, s2, s3, s4, s5, s6, s7⟩ := step_other C corr o op (hs op List.mem_cons_self)
    rw [he] at s1 s2 s3 s4 s5 s6 s7
    refine ⟨i1.trans s1, i2.trans s2, i3.trans s3, i4.trans s4, i5.trans s5, ?_, ?_⟩
    · rcases i6 with ⟨a, b⟩ | ⟨a, b⟩
      · rcases s6 with ⟨c, d⟩ | ⟨c, d⟩
        · exact Or.inl ⟨a.trans c, by simp only [List.mem_cons, not_or]; exact ⟨Ne.symm d, b⟩⟩
        · exact Or.inr ⟨by rw [c]; exact List.mem_cons_self, a.trans d⟩
      · exact Or.inr ⟨List.mem_cons_of_mem _ a, b⟩
    · intro r hr
      rcases i7 r hr with a | ⟨r0, a, b⟩
      · rcases s7 r a with c | ⟨r0, c, d⟩
        · exact Or.inl c
        · exact Or.inr ⟨r0, by rw [c]; exact List.mem_cons_self, d⟩
      · exact Or.inr ⟨r0, List.mem_cons_of_mem _ a, b⟩

theorem runs_append {C : Codec} {corr : Int → Dict → Option Int} {o o' : Obj ℝ RtV} {ops ops' : List Op} (h : Runs C corr o (ops ++ ops') o') :
    ∃ o1, Runs C corr o ops o1 ∧ Runs C corr o1 ops' o' := by
  induction ops generalizing o with
  | nil => exact ⟨o, .nil o, h⟩
  | cons op ops ih =>
    cases h with
    | cons he hr ht =>
      obtain ⟨o1, h1, h2⟩ := ih ht
      exact ⟨o1, .cons he hr h1, h2⟩

/-- **C84.** After any calls, in any order, with the last one that sets the intrinsics being `a`: the intrinsics are the ones given there. The optimization inputs and the camera index are the ones that were
given in that same call, or there are none: none were given, or they were reset since. The valid-intrinsics region is one that was set since, or there is none -/
theorem consistent {C : Codec} (hC : CodecOk C) {corr : Int → Dict → Option Int} {o o' : Obj ℝ RtV} {before since : List Op} {a : Args ℝ} (ha : Op.sets (.intrinsics a))
    (h : Runs C corr o (before ++ .intrinsics a :: since) o') (hs : ∀ op ∈ since, ¬ op.sets) :
    a.intrinsics = some (o'.lensmodel, o'.intrinsics) ∧ (∀ sz, a.imagersize = some sz → o'.imagersize = sz) ∧ o'.icamI = a.icamI ∧
    (a.opt = none ∨ Op.inputsReset ∈ since → optimizationInputs C o' = some none) ∧
    (∀ d, a.opt = some d → Current d → Op.inputsReset ∉ since → ∃ d', optimizationInputs C o' = some (some d') ∧ SameInputs d d') ∧
    (∀ r, o'.region = some r → ∃ r0, Op.region r0 ∈ since ∧ r = closeContour r0) := by
  obtain ⟨o1, -, h2⟩ := runs_append h
  cases h2 with
  | @cons _ o2 _ _ _ he hr ht =>
    obtain ⟨i1, i2, i3, i4, i5, i6, i7⟩ := runs_other ht hs
    obtain ⟨c0, c1, c2, c3, c4, c5, c6⟩ := call_sets ha C corr o1 hr
    have he' : (intrinsicsCall C corr o1 a).1 = o2 := he
    have hout : ∀ x : Obj ℝ RtV, x.opt = none → optimizationInputs C x = some none := by intro x hx; unfold optimizationInputs; rw [hx]
    have hopt : ∀ x y : Obj ℝ RtV, x.opt = y.opt → optimizationInputs C x = optimizationInputs C y := by intro x y hx; unfold optimizationInputs; rw [hx]
    refine ⟨?_, ?_, ?_, ?_, ?_, ?_⟩
    · rw [i1, i2, ← he']; exact c1
    · intro sz hsz; rw [i3, ← he', c2, hsz]; rfl
    · rw [i4, ← he', c5]
    · rintro (h | h)
      · rcases i6 with ⟨p, -⟩ | ⟨-, p⟩
        · exact hout _ (by rw [p, ← he']; exact c4 h)
        · exact hout _ p
      · rcases i6 with ⟨-, p⟩ | ⟨-, p⟩
        · exact absurd h p
        · exact hout _ p
    · intro d hd hcur hn
      obtain ⟨d', h1, h2, -⟩ := inputs_roundtrip hC corr o1 a d hd hcur c0
      rcases i6 with ⟨p, -⟩ | ⟨p, -⟩
      · exact ⟨d', by rw [hopt o' _ (p.trans (by rw [← he']))]; exact h1, h2⟩
      · exact absurd p hn
    · intro r hr
      rcases i7 r hr with h | h
      · rw [← he', c3] at h; cases h
      · exact h

/-- if nothing set the intrinsics, then they're the ones from the beginning, and so are the optimization inputs if they weren't reset -/
theorem consistent_unset {C : Codec} {corr : Int → Dict → Option Int} {o o' : Obj ℝ RtV} {ops : List Op} (h : Runs C corr o ops o') (hs : ∀ op ∈ ops, ¬ op.sets) :
    o'.lensmodel = o.lensmodel ∧ o'.intrinsics = o.intrinsics ∧ o'.imagersize = o.imagersize ∧ o'.icamI = o.icamI ∧
    optimizationInputs C o' = (open Classical in if Op.inputsReset ∈ ops then some none else optimizationInputs C o) := by
  obtain ⟨i1, i2, i3, i4, i5, i6, i7⟩ := runs_other h hs
  refine ⟨i1, i2, i3, i4, ?_⟩
  unfold optimizationInputs
  rcases i6 with ⟨p, q⟩ | ⟨p, q⟩
  · rw [if_neg q, p]
  · rw [if_pos p, q]

/-! ### exceptions -/

/-- a call with invalid arguments raises an exception, and changes nothing. `hv`: the arguments are wrong. `hd`: or the inputs have two different arrays of poses, with the old name and the new name: see
`failed_set_wrong` -/
theorem failed_set_partial (C : Codec) (corr : Int → Dict → Option Int) (o : Obj ℝ RtV) (a : Args ℝ) (hr : (intrinsicsCall C corr o a).2 = .raised)
    (hd : ∀ d, a.opt = some d → serializeDict d ≠ none ∧ (a.icamE ≠ none ∨ ∀ i, corr i d ≠ none)) : (intrinsicsCall C corr o a).1 = o := by
  unfold intrinsicsCall at hr ⊢
  by_cases h0 : a.imagersize = none ∧ a.intrinsics.isNone = true ∧ a.opt = none ∧ a.icamI = none
  · rw [if_pos h0]
  rw [if_neg h0] at hr ⊢
  obtain ⟨sz, hsz⟩ : ∃ sz, sz = a.imagersize.getD o.imagersize := ⟨_, rfl⟩
  simp only [← hsz] at hr ⊢
  by_cases hv : (!validateIntrinsics sz a.intrinsics a.opt a.icamI a.icamE) = true
  · rw [if_pos hv]
  · rw [if_neg hv] at hr ⊢
    cases hi : a.intrinsics with
    | none => rfl
    | some nv =>
      rw [hi] at hr
      simp only at hr
      cases ho : a.opt with
      | none => rw [ho] at hr; cases hr
      | some d =>
        rw [ho] at hr
        simp only at hr
        obtain ⟨h1, h2⟩ := hd d ho
        cases hs : serializeDict d with
        | none => exact absurd hs h1
        | some s =>
          rw [hs] at hr
          simp only at hr
          cases he : a.icamE with
          | some e => rw [he] at hr; cases hr
          | none =>
            rw [he] at hr h2
            simp only at hr
            cases hc : corr (a.icamI.getD 0) d with
            | some e => rw [hc] at hr; cases hr
            | none => exact absurd hc ((h2.resolve_left (by simp)) _)

/-- **C84.** Exactly these calls set the intrinsics: the imager size is positive, the lens model exists, and has this many parameters; optimization inputs are given together with the index of the camera in them, or
neither are given. The pose of the camera is then either given or found; and the inputs can be stored -/
theorem set_accepted {K T : Type} (C : Codec) (corr : Int → Dict → Option Int) (o : Obj K T) (a : Args K) : (intrinsicsCall C corr o a).2 = .ok ↔
    ∃ name v, a.intrinsics = some (name, v) ∧ (∃ L, Name.fromName (some name) = .ok L ∧ L.numParams.toNat = v.length) ∧ (∀ sz, sz = a.imagersize.getD o.imagersize → 0 < sz.1 ∧ 0 < sz.2) ∧
      ((a.opt = none ∧ a.icamI = none ∧ a.icamE = none) ∨
        ∃ d i, a.opt = some d ∧ a.icamI = some i ∧ 0 ≤ i ∧ serializeDict d ≠ none ∧ (a.icamE ≠ none ∨ corr i d ≠ none)) := by
  have hp : ∀ (name : List Char) (n : Nat), numParams name = some n ↔ ∃ L, Name.fromName (some name) = .ok L ∧ L.numParams.toNat = n := by
    intro name n
    unfold numParams
    cases Name.fromName (some name) <;> simp
  obtain ⟨intr, size, opt, icamI, icamE⟩ := a
  unfold intrinsicsCall
  simp only
  by_cases h0 : size = none ∧ intr.isNone = true ∧ opt = none ∧ icamI = none
  · rw [if_pos h0]
    obtain ⟨-, h1, -⟩ := h0
    cases intr with
    | none => simp
    | some _ => simp at h1
  rw [if_neg h0]
  obtain ⟨sz, hsz⟩ : ∃ sz, sz = size.getD o.imagersize := ⟨_, rfl⟩
  simp only [← hsz, forall_eq, ← hp]
  cases intr with
  | none => unfold validateIntrinsics; simp
  | some nv =>
    obtain ⟨name, v⟩ := nv
    unfold validateIntrinsics
    by_cases hz : sz.1 ≤ 0 ∨ sz.2 ≤ 0
    · rw [if_pos hz]
      have : ¬ (0 < sz.1 ∧ 0 < sz.2) := by omega
      simp [this]
    rw [if_neg hz]
    have hz' : 0 < sz.1 ∧ 0 < sz.2 := by omega
    by_cases hn : numParams name = some v.length
    swap
    · simp only [if_pos (show numParams name ≠ some v.length from hn)]
      simp only [Bool.not_false, if_true, reduceCtorEq, false_iff]
      rintro ⟨name', v', h1, h2, -⟩
      simp only [Option.some.injEq, Prod.mk.injEq] at h1
      rw [← h1.1, ← h1.2] at h2
      exact hn h2
    simp only [if_neg (show ¬ numParams name ≠ some v.length from fun h => h hn)]
    cases opt with
    | none =>
      simp only
      by_cases hi : icamI = none ∧ icamE = none
      · simp [hi, hn, hz']
      · simp [hi]
    | some d =>
      cases icamI with
      | none => simp
      | some i =>
        simp only
        by_cases hi : 0 ≤ i
        swap
        · simp [hi]
        simp only [hi, decide_true, Bool.not_true, Bool.false_eq_true, if_false]
        cases hs : serializeDict d with
        | none => simp [hs]
        | some s =>
          cases icamE with
          | some e => simp [hn, hz', hi, hs]
          | none =>
            simp only [Option.getD_some]
            cases hc : corr i d with
            | none => simp [hc]
            | some e => simp [hn, hz', hi, hs, hc]

/-- `set_accepted`: without the index of the camera -/
example (C : Codec) (corr : Int → Dict → Option Int) (o : Obj ℝ RtV) (d : Dict) (nv : List Char × List ℝ) : (intrinsicsCall C corr o ⟨some nv, some (640, 480), some d, none, none⟩).2 ≠ .ok := by
  rw [Ne, set_accepted]
  rintro ⟨_, _, -, -, -, h | ⟨_, _, -, h, -⟩⟩
  · simp at h
  · simp at h
/-- `set_accepted`: a valid call -/
example (C : Codec) (corr : Int → Dict → Option Int) (o : Obj ℝ RtV) : (intrinsicsCall C corr o ⟨some ("LENSMODEL_PINHOLE".toList, [(1000 : ℝ), 1000, 320, 240]), some (640, 480), none, none, none⟩).2 = .ok := by
  rw [set_accepted]
  exact ⟨_, _, rfl, ⟨.pinhole, by decide, rfl⟩, by rintro _ rfl; simp, Or.inl ⟨rfl, rfl, rfl⟩⟩

/-- two arrays of poses -/
def exConflict : Dict := [("frames_rt_toref", .array "float64" [1, 6] [0, 0, 0, 0, 0, 5]), ("rt_ref_frame", .array "float64" [1, 6] [0, 0, 0, 0, 0, 6])]

theorem exConflict_none : serializeDict exConflict = none := by decide +kernel

/-- **Deviation.** If the optimization inputs can't be stored, then the call raises an exception, but the new intrinsics have already been set. The object then has the NEW intrinsics with the OLD optimization
inputs and the OLD valid-intrinsics region -/
theorem failed_set_wrong (C : Codec) (corr : Int → Dict → Option Int) (o : Obj ℝ RtV) (hsz : 0 < o.imagersize.1 ∧ 0 < o.imagersize.2) :
    ∃ a : Args ℝ, (intrinsicsCall C corr o a).2 = .raised ∧ (intrinsicsCall C corr o a).1.intrinsics = [500, 500, 100, 100] ∧
      (intrinsicsCall C corr o a).1.opt = o.opt ∧ (intrinsicsCall C corr o a).1.region = o.region := by
  refine ⟨⟨some ("LENSMODEL_PINHOLE".toList, [500, 500, 100, 100]), none, some exConflict, some 0, some (-1)⟩, ?_⟩
  have hv : validateIntrinsics o.imagersize (some ("LENSMODEL_PINHOLE".toList, [(500 : ℝ), 500, 100, 100])) (some exConflict) (some 0) (some (-1)) = true := by
    unfold validateIntrinsics
    rw [if_neg (by omega)]
    simp only [numParams_pinhole]
    rw [if_neg (by simp)]
    decide
  obtain ⟨d, hd⟩ : ∃ d, d = exConflict := ⟨_, rfl⟩
  obtain ⟨nv, hnv⟩ : ∃ nv : List Char × List ℝ, nv = ("LENSMODEL_PINHOLE".toList, [(500 : ℝ), 500, 100, 100]) := ⟨_, rfl⟩
  have hn := exConflict_none
  rw [← hd] at hv hn ⊢
  have hi : nv.2 = [500, 500, 100, 100] := by rw [hnv]
  rw [← hnv] at hv ⊢
  rw [← hi]
  unfold intrinsicsCall
  simp only [reduceCtorEq, and_false, if_false, Option.getD_none, hv, Bool.not_true, Bool.false_eq_true, hn, and_self]

/-! ### the valid-intrinsics region -/

/-- **Specification**: a closed polyline -/
def Closed (r : List (ℝ × ℝ)) : Prop := ∃ a b, r.head? = some a ∧ r.getLast? = some b ∧ (a.1 - b.1) ^ 2 + (a.2 - b.2) ^ 2 < (1e-6) ^ 2

theorem closeContour_cons (a : ℝ × ℝ) (l : List (ℝ × ℝ)) :
    closeContour (a :: l) = if dist2 a ((a :: l).getLastD a) < 1 / 1000000000000 then a :: l else a :: l ++ [a] := rfl

/-- setting a region stores a closed polygon with the given vertices in the given order, or raises an exception and changes nothing. It succeeds if there are no vertices ("valid nowhere"), or if there
are at least 3 and they aren't closed, or at least 4 -/
theorem region_set (o : Obj ℝ RtV) (r : List (ℝ × ℝ)) :
    ((setRegion o r).2 = .ok ∧ (r = [] ∧ (setRegion o r).1.region = some [] ∨ ∃ r', (setRegion o r).1.region = some r' ∧ 4 ≤ r'.length ∧ Closed r' ∧ (r' = r ∨ ¬ Closed r ∧ ∃ a, r.head? = some a ∧ r' = r ++ [a])) ∨
      (setRegion o r).2 = .raised ∧ (setRegion o r).1 = o ∧ r ≠ [] ∧ (r.length < 3 ∨ r.length < 4 ∧ Closed r)) := by
  cases r with
  | nil => left; exact ⟨rfl, Or.inl ⟨rfl, rfl⟩⟩
  | cons a l =>
    have hlast : ∃ b, (a :: l).getLast? = some b ∧ (a :: l).getLastD a = b := by
      refine ⟨(a :: l).getLast (by simp), List.getLast?_eq_some_getLast (by simp), ?_⟩
      rw [List.getLastD_eq_getLast?, List.getLast?_eq_some_getLast (by simp)]; rfl
    obtain ⟨b, hb, hb'⟩ := hlast
    have hcl : Closed (a :: l) ↔ dist2 a ((a :: l).getLastD a) < 1 / 1000000000000 := by
      unfold Closed dist2
      rw [hb']
      constructor
      · rintro ⟨a', b', h1, h2, h3⟩
        simp only [List.head?_cons, Option.some.injEq] at h1
        rw [hb] at h2
        simp only [Option.some.injEq] at h2
        subst h1 h2
        norm_num at h3 ⊢
        linarith
      · intro h
        refine ⟨a, b, rfl, hb, ?_⟩
        norm_num at h ⊢
        linarith
    unfold setRegion
    rw [closeContour_cons]
    by_cases hd : dist2 a ((a :: l).getLastD a) < 1 / 1000000000000
    · rw [if_pos hd]
      have hv : validateRegion (some (a :: l)) = decide (4 ≤ (a :: l).length) := by
        show (decide (4 ≤ (a :: l).length) && !decide (1 / 1000000 < dist2 a ((a :: l).getLastD a))) = _
        have : ¬ 1 / 1000000 < dist2 a ((a :: l).getLastD a) := by
          intro h
          have := h.trans hd
          norm_num at this
        rw [decide_eq_false this, Bool.not_false, Bool.and_true]
      rw [hv]
      by_cases h4 : 4 ≤ (a :: l).length
      · left
        simp only [h4, decide_true, if_true, true_and]
        right
        exact ⟨_, rfl, h4, hcl.2 hd, Or.inl rfl⟩
      · right
        simp only [h4, decide_false, Bool.false_eq_true, if_false, true_and]
        exact ⟨by simp, Or.inr ⟨not_le.1 h4, hcl.2 hd⟩⟩
    · rw [if_neg hd]
      have hl : (a :: l ++ [a]).getLastD a = a := by
        rw [List.getLastD_eq_getLast?, List.getLast?_append]; rfl
      have hv : validateRegion (some (a :: l ++ [a])) = decide (4 ≤ (a :: l ++ [a]).length) := by
        show (decide (4 ≤ (a :: (l ++ [a])).length) && !decide (1 / 1000000 < dist2 a ((a :: l ++ [a]).getLastD a))) = _
        rw [hl]
        have : ¬ (1 / 1000000 : ℝ) < dist2 a a := by
          unfold dist2; norm_num
        rw [decide_eq_false this, Bool.not_false, Bool.and_true]; rfl
      rw [hv]
      by_cases h4 : 4 ≤ (a :: l ++ [a]).length
      · left
        simp only [h4, decide_true, if_true, true_and]
        right
        refine ⟨_, rfl, h4, ⟨a, a, rfl, ?_, by norm_num⟩, Or.inr ⟨fun h => hd (hcl.1 h), a, rfl, rfl⟩⟩
        rw [List.getLast?_append]; rfl
      · right
        simp only [h4, decide_false, Bool.false_eq_true, if_false, true_and]
        refine ⟨by simp, Or.inl ?_⟩
        simp only [List.length_append, List.length_cons, List.length_nil] at h4 ⊢
        omega

/-! ### copies -/

/-- a copy has the same intrinsics, pose, camera indices and imager size, and the same region -/
theorem copy_partial (o : Obj ℝ RtV) (hr : ∀ r, o.region = some r → r = [] ∨ Closed r) :
    (copy o).intrinsics = o.intrinsics ∧ (copy o).lensmodel = o.lensmodel ∧ (copy o).imagersize = o.imagersize ∧ (copy o).rt_cam_ref = o.rt_cam_ref ∧
    (copy o).icamI = o.icamI ∧ (copy o).icamE = o.icamE ∧ (copy o).region = o.region ∧ ((copy o).opt = none ↔ o.opt = none) := by
  refine ⟨rfl, rfl, rfl, rfl, rfl, rfl, ?_, ?_⟩
  · show o.region.map closeContour = o.region
    cases h : o.region with
    | none => rfl
    | some r =>
      simp only [Option.map_some]
      rcases hr r h with e | ⟨a, b, h1, h2, h3⟩
      · subst e; rfl
      · cases r with
        | nil => rfl
        | cons c l =>
          simp only [List.head?_cons, Option.some.injEq] at h1
          subst h1
          rw [closeContour_cons, if_pos]
          have : (c :: l).getLastD c = b := by rw [List.getLastD_eq_getLast?, h2]; rfl
          rw [this]
          unfold dist2
          norm_num at h3 ⊢
          linarith
  · show o.opt.map Stored.toStr = none ↔ _
    rw [Option.map_eq_none_iff]

/-- **Deviation.** A copy, mrcal.cameramodel(model), can't return the optimization inputs that the model has: optimization_inputs() always raises an exception, because the byte string was converted with str(),
which is "b'...'" -/
theorem copy_wrong {C : Codec} (hC : CodecOk C) (o : Obj ℝ RtV) (s : List Char) (h : o.opt = some (.bytes s)) : optimizationInputs C (copy o) = none := by
  have : (copy o).opt = some (.str ('b' :: '\'' :: s ++ ['\''])) := by
    show o.opt.map Stored.toStr = _
    rw [h]; rfl
  unfold optimizationInputs
  rw [this]
  simp only [Option.map_eq_none_iff]
  exact hC.bad _ '\'' (by simp) (by decide)

/-! ### construction -/

/-- a model constructed from its parts has those parts, and no optimization inputs -/
theorem construct_parts (C : Codec) (corr : Int → Dict → Option Int) (intr : List Char × List ℝ) (sz : Int × Int) (e : Extr) (region : Option (List (ℝ × ℝ))) (o : Obj ℝ RtV)
    (h : construct C corr intr sz (some e) region = some o) : o.lensmodel = intr.1 ∧ o.intrinsics = intr.2 ∧ o.imagersize = sz ∧ optimizationInputs C o = some none ∧
      (ValidPose e → ∀ p q, Describes (.rt_cam_ref (rt_cam_ref o)) p q ↔ Describes e p q) ∧ (region = none → o.region = none) ∧ 0 < sz.1 ∧ 0 < sz.2 ∧ numParams intr.1 = some intr.2.length := by
  unfold construct at h
  obtain ⟨o0, ho0⟩ : ∃ o0, o0 = setExtr (blank (K := ℝ) Pose.identityrt) (some e) := ⟨_, rfl⟩
  rw [← ho0] at h
  have hset : Op.sets (.intrinsics ⟨some intr, some sz, none, none, none⟩) := by simp [Op.sets]
  cases hc : intrinsicsCall C corr o0 ⟨some intr, some sz, none, none, none⟩ with
  | mk o1 out =>
    simp only [hc] at h
    cases out with
    | got => simp at h
    | raised => simp at h
    | ok =>
      simp only [Option.some.injEq] at h
      obtain ⟨c0, c1, c2, c3, c4, c5, c6⟩ := call_sets hset C corr o0 (by rw [hc]; simp)
      rw [hc] at c1 c2 c3 c4 c6
      have hreg : ∃ r, o = { o1 with region := r } ∧ (region = none → r = none) := by
        rw [← h]
        unfold setRegionWarn
        cases region with
        | none => exact ⟨none, rfl, fun _ => rfl⟩
        | some r =>
          simp only
          unfold setRegion
          split_ifs
          · exact ⟨_, rfl, by simp⟩
          · exact ⟨_, rfl, by simp⟩
      obtain ⟨r, ho, hr⟩ := hreg
      have hval : 0 < sz.1 ∧ 0 < sz.2 ∧ numParams intr.1 = some intr.2.length := by
        unfold intrinsicsCall at hc
        simp only [reduceCtorEq, false_and, if_false, Option.getD_some] at hc
        by_cases hv : (!validateIntrinsics sz (some intr) none none none) = true
        · rw [if_pos hv] at hc; simp at hc
        · have hv : validateIntrinsics sz (some intr) none none none = true := by simpa using hv
          unfold validateIntrinsics at hv
          split_ifs at hv with h1
          simp only at hv
          split_ifs at hv with h2
          exact ⟨by omega, by omega, not_not.1 h2⟩
      simp only [Option.some.injEq] at c1
      rw [ho]
      refine ⟨?_, ?_, ?_, ?_, ?_, ?_, hval⟩
      · rw [c1]
      · rw [c1]
      · exact c2
      · unfold optimizationInputs
        rw [c4 rfl]
      · intro hv p q
        have := (pose_set_get (blank (K := ℝ) Pose.identityrt) e hv p q).2.1
        rw [← ho0] at this
        unfold rt_cam_ref at this ⊢
        rw [show ({ o1 with region := r } : Obj ℝ RtV).rt_cam_ref = o0.rt_cam_ref from c6]
        exact this
      · exact hr

/-! ### construction from optimization inputs -/

/-- what intrinsics() does to a model with numbers of any type, if optimization inputs are given -/
theorem call_opt {K T : Type} (C : Codec) (corr : Int → Dict → Option Int) (o o1 : Obj K T) (nv : List Char × List K) (sz : Int × Int) (d : Dict) (i : Int) (e : Option Int)
    (h : intrinsicsCall C corr o ⟨some nv, some sz, some d, some i, e⟩ = (o1, .ok)) :
    o1.lensmodel = nv.1 ∧ o1.intrinsics = nv.2 ∧ o1.imagersize = sz ∧ o1.icamI = some i ∧ (∃ j, o1.icamE = some j ∧ (e = some j ∨ e = none ∧ corr i d = some j)) ∧ 0 ≤ i := by
  unfold intrinsicsCall at h
  simp only [reduceCtorEq, false_and, if_false, Option.getD_some] at h
  by_cases hv : (!validateIntrinsics sz (some nv) (some d) (some i) e) = true
  · rw [if_pos hv] at h; simp at h
  · rw [if_neg hv] at h
    have hv : validateIntrinsics sz (some nv) (some d) (some i) e = true := by simpa using hv
    have hi : 0 ≤ i := by
      unfold validateIntrinsics at hv
      split_ifs at hv
      simp only at hv
      split_ifs at hv
      exact of_decide_eq_true hv
    cases hs : serializeDict d with
    | none => rw [hs] at h; simp at h
    | some s =>
      rw [hs] at h
      simp only at h
      cases e with
      | some j =>
        simp only [Prod.mk.injEq, and_true] at h
        subst h
        exact ⟨rfl, rfl, rfl, rfl, ⟨j, rfl, Or.inl rfl⟩, hi⟩
      | none =>
        simp only at h
        cases hc : corr i d with
        | none => rw [hc] at h; simp at h
        | some j =>
          rw [hc] at h
          simp only [Prod.mk.injEq, and_true] at h
          subst h
          exact ⟨rfl, rfl, rfl, rfl, ⟨j, rfl, Or.inr ⟨rfl, rfl⟩⟩, hi⟩

theorem setRegionWarn_region {K T : Type} [Field K] [LinearOrder K] [IsStrictOrderedRing K] (o : Obj K T) (region : Option (List (K × K))) :
    ∃ r, setRegionWarn o region = { o with region := r } := by
  unfold setRegionWarn
  cases region with
  | none => exact ⟨none, rfl⟩
  | some r =>
    simp only
    unfold setRegion
    split_ifs
    · exact ⟨_, rfl⟩
    · exact ⟨_, rfl⟩

theorem row_arg {d : Dict} {k : String} {i : Int} {v : List ℚ} (h : PyVal.row (d.get k) i = some v) : PyVal.row (some (arg d k)) i = some v := by
  unfold arg
  cases e : d.get k with
  | none => rw [e] at h; simp [PyVal.row] at h
  | some w =>
    rw [e] at h
    simp only
    by_cases hw : w = .str ""
    · subst hw; simp [PyVal.row] at h
    · rw [if_neg hw]; exact h

theorem row_ne_none {v : PyVal} {i : Int} {x : List ℚ} (h : PyVal.row (some v) i = some x) : v ≠ .none := by
  rintro rfl; simp [PyVal.row] at h

/-- **C84.** A model constructed from optimization inputs agrees with the inputs that it returns: its intrinsics, lens model, imager size and pose are the ones of its own cameras in there. The pose is
the identity if the camera is the reference -/
theorem construct_inputs {C : Codec} (hC : CodecOk C) (corr : Int → Dict → Option Int) (d : Dict) (i : Int) (e : Option Int) (region : Option (List (ℚ × ℚ))) (o : Obj ℚ (List ℚ)) (hd : Current d)
    (h : constructOpt C corr d i e region = some o) :
    o.icamI = some i ∧ ∃ d' j, optimizationInputs C o = some (some d') ∧ SameInputs d d' ∧ o.icamE = some j ∧ (e = some j ∨ e = none ∧ corr i d = some j) ∧
      arg d' "lensmodel" = .str (String.ofList o.lensmodel) ∧ PyVal.row (some (arg d' "intrinsics")) i = some o.intrinsics ∧
      (∃ w h : ℚ, PyVal.row (some (arg d' "imagersizes")) i = some [w, h] ∧ o.imagersize = (w.floor, h.floor)) ∧
      (j < 0 → o.rt_cam_ref = [0, 0, 0, 0, 0, 0]) ∧ (0 ≤ j → PyVal.row (some (arg d' "rt_cam_ref")) j = some o.rt_cam_ref) := by
  unfold constructOpt at h
  obtain ⟨name, hname, h⟩ := Option.bind_eq_some_iff.1 h
  obtain ⟨v, hvv, h⟩ := Option.bind_eq_some_iff.1 h
  obtain ⟨wh, hwh, h⟩ := Option.bind_eq_some_iff.1 h
  obtain ⟨sz, hsz, h⟩ := Option.bind_eq_some_iff.1 h
  cases hc : intrinsicsCall C corr (blank ([] : List ℚ)) ⟨some (name, v), some sz, some d, some i, e⟩ with
  | mk o1 out =>
    rw [hc] at h
    cases out with
    | got => simp at h
    | raised => simp at h
    | ok =>
      simp only at h
      obtain ⟨c1, c2, c3, c4, ⟨j, c5, c6⟩, hi⟩ := call_opt C corr _ o1 _ _ _ _ _ hc
      obtain ⟨d', hd1, hd2, -⟩ := inputs_roundtrip hC corr (blank ([] : List ℚ)) ⟨some (name, v), some sz, some d, some i, e⟩ d rfl hd (by rw [hc])
      rw [hc] at hd1
      have hgj : o1.icamE.getD 0 = j := by rw [c5]; rfl
      rw [hgj] at h
      have hpose : ∃ rt r, o = { o1 with rt_cam_ref := rt, region := r } ∧ (j < 0 → rt = [0, 0, 0, 0, 0, 0]) ∧ (0 ≤ j → PyVal.row (d.get "rt_cam_ref") j = some rt) := by
        by_cases hj : j < 0
        · rw [if_pos hj] at h
          simp only [Option.some.injEq] at h
          obtain ⟨r, hr⟩ := setRegionWarn_region { o1 with rt_cam_ref := ([0, 0, 0, 0, 0, 0] : List ℚ) } region
          exact ⟨_, r, by rw [← h, hr], fun _ => rfl, fun h => by omega⟩
        · rw [if_neg hj] at h
          cases hrow : PyVal.row (d.get "rt_cam_ref") j with
          | none => rw [hrow] at h; simp at h
          | some rt =>
            rw [hrow] at h
            simp only [Option.some.injEq] at h
            obtain ⟨r, hr⟩ := setRegionWarn_region { o1 with rt_cam_ref := rt } region
            exact ⟨rt, r, by rw [← h, hr], fun h => by omega, fun _ => rfl⟩
      obtain ⟨rt, r, ho, hp1, hp2⟩ := hpose
      have hlens : arg d "lensmodel" = .str (String.ofList name) := by
        unfold arg
        cases el : d.get "lensmodel" with
        | none => rw [el] at hname; simp [lensName] at hname
        | some w =>
          rw [el] at hname
          cases w with
          | str s =>
            simp only [lensName, Option.some.injEq] at hname
            subst hname
            simp only [String.ofList_toList]
            rw [if_neg]
            intro hs
            simp only [PyVal.str.injEq] at hs
            subst hs
            unfold intrinsicsCall at hc
            simp only [reduceCtorEq, false_and, if_false, Option.getD_some] at hc
            rw [if_pos] at hc
            · simp at hc
            · have hnp : numParams "".toList = none := by decide
              unfold validateIntrinsics
              simp only [hnp]
              rw [if_pos (by simp : none ≠ some v.length)]
              simp
          | _ => simp [lensName] at hname
      refine ⟨by rw [ho]; exact c4, d', j, ?_, hd2, by rw [ho]; exact c5, c6, ?_, ?_, ?_, ?_, ?_⟩
      · rw [← hd1]
        unfold optimizationInputs
        rw [ho]
      · rw [hd2.same _ (by decide) (by decide) (by decide) (by decide), hlens, ho]
        simp only [c1]
      · rw [hd2.same _ (by decide) (by decide) (by decide) (by decide), row_arg hvv, ho]
        simp only [c2]
      · rw [hd2.same _ (by decide) (by decide) (by decide) (by decide), row_arg hwh, ho]
        simp only [c3]
        unfold sizeOf2 at hsz
        split at hsz
        · rename_i w hh
          exact ⟨w, hh, rfl, (Option.some.inj hsz).symm⟩
        · cases hsz
      · intro hj; rw [ho]; exact hp1 hj
      · intro hj
        have := row_arg (hp2 hj)
        rw [hd2.cameras, if_neg (row_ne_none this), this, ho]

/-! ### the hypotheses can be met -/

/-- calls with an intermediate exception-free setting of everything -/
noncomputable def exOps : List Op :=
  [.region [(0, 0), (10, 0), (10, 10)], .intrinsics ⟨some ("LENSMODEL_PINHOLE".toList, [1000, 1000, 320, 240]), some (640, 480), some exInputs, some 0, some (-1)⟩,
   .pose (.rt_ref_cam ⟨⟨3, 0, 4⟩, ⟨1, 2, 3⟩⟩), .region [(0, 0), (10, 0), (10, 20)]]

theorem exRegion (o : Obj ℝ RtV) (x y : ℝ) (hx : 1 ≤ x) : (step exCodec (fun _ _ => none) o (.region [(0, 0), (10, 0), (x, y)])).2 ≠ .raised := by
  intro h
  rcases region_set o [(0, 0), (10, 0), (x, y)] with ⟨h1, -⟩ | ⟨-, -, -, h4⟩
  · rw [show (step exCodec (fun _ _ => none) o (.region [(0, 0), (10, 0), (x, y)])).2 = _ from h1] at h; cases h
  · rcases h4 with h4 | ⟨-, a, b, h5, h6, h7⟩
    · simp at h4
    · simp only [List.head?_cons, Option.some.injEq] at h5
      simp only [List.getLast?_cons_cons, List.getLast?_singleton, Option.some.injEq] at h6
      subst h5 h6
      norm_num at h7
      nlinarith [sq_nonneg y]

theorem exOps_run (o : Obj ℝ RtV) : ∃ o', Runs exCodec (fun _ _ => none) o exOps o' := by
  refine ⟨_, .cons rfl (exRegion o 10 10 (by norm_num)) (.cons rfl ?_ (.cons rfl (by simp [step]) (.cons rfl (exRegion _ 10 20 (by norm_num)) (.nil _))))⟩
  have hv : validateIntrinsics (640, 480) (some ("LENSMODEL_PINHOLE".toList, [(1000 : ℝ), 1000, 320, 240])) (some exInputs) (some 0) (some (-1)) = true := by
    unfold validateIntrinsics
    rw [if_neg (by decide)]
    simp only [numParams_pinhole]
    rw [if_neg (by simp)]
    decide
  show (intrinsicsCall exCodec (fun _ _ => none) _ ⟨some ("LENSMODEL_PINHOLE".toList, [1000, 1000, 320, 240]), some (640, 480), some exInputs, some 0, some (-1)⟩).2 ≠ .raised
  have := call_succeeds exCodec (fun _ _ => none) (step exCodec (fun _ _ => none) o (.region [(0, 0), (10, 0), (10, 10)])).1
    ⟨some ("LENSMODEL_PINHOLE".toList, [1000, 1000, 320, 240]), some (640, 480), some exInputs, some 0, some (-1)⟩ exInputs rfl exInputs_current hv (Or.inl (by simp))
  rw [this]
  simp

/-- after these calls the model has the optimization inputs, although the pose and the region have been changed since -/
example (o o' : Obj ℝ RtV) (h : Runs exCodec (fun _ _ => none) o exOps o') : o'.intrinsics = [1000, 1000, 320, 240] ∧
    ∃ d', optimizationInputs exCodec o' = some (some d') ∧ SameInputs exInputs d' := by
  have hs : ∀ op ∈ [Op.pose (.rt_ref_cam ⟨⟨3, 0, 4⟩, ⟨1, 2, 3⟩⟩), .region [(0, 0), (10, 0), (10, 20)]], ¬ op.sets := by
    intro op hop
    simp only [List.mem_cons, List.not_mem_nil, or_false] at hop
    rcases hop with rfl | rfl <;> simp [Op.sets]
  have := consistent exCodec_ok (before := [.region [(0, 0), (10, 0), (10, 10)]]) (by simp [Op.sets]) h hs
  refine ⟨?_, this.2.2.2.2.1 exInputs rfl exInputs_current (by simp)⟩
  have h1 := this.1
  simp only [Option.some.injEq, Prod.mk.injEq] at h1
  exact h1.2.symm

/-- an object can be constructed from inputs -/
theorem exConstruct : ∃ o, constructOpt exCodec (fun _ _ => none) exInputs 0 (some (-1)) none = some o := by
  have hl : lensName (Dict.get exInputs "lensmodel") = some "LENSMODEL_PINHOLE".toList := rfl
  have hi : PyVal.row (Dict.get exInputs "intrinsics") 0 = some [1000, 1000, 320, 240] := rfl
  have hz : PyVal.row (Dict.get exInputs "imagersizes") 0 = some [640, 480] := rfl
  have hs : sizeOf2 [640, 480] = some (640, 480) := by decide +kernel
  unfold constructOpt
  rw [hl, hi, hz]
  simp only [Option.bind_eq_bind, Option.bind_some, hs]
  have hok := call_succeeds exCodec (fun _ _ => none) (blank ([] : List ℚ)) ⟨some ("LENSMODEL_PINHOLE".toList, [1000, 1000, 320, 240]), some (640, 480), some exInputs, some 0, some (-1)⟩
    exInputs rfl exInputs_current (exValid _) (Or.inl (by simp))
  cases hc : intrinsicsCall exCodec (fun _ _ => none) (blank ([] : List ℚ)) ⟨some ("LENSMODEL_PINHOLE".toList, [(1000 : ℚ), 1000, 320, 240]), some (640, 480), some exInputs, some 0, some (-1)⟩ with
  | mk o1 out =>
    rw [hc] at hok
    simp only at hok
    subst hok
    obtain ⟨-, -, -, -, ⟨j, c5, c6⟩, -⟩ := call_opt _ _ _ _ _ _ _ _ _ hc
    have hj : j = -1 := by
      rcases c6 with h | ⟨h, -⟩
      · exact (Option.some.inj h).symm
      · cases h
    simp only [c5, hj, Option.getD_some]
    exact ⟨_, rfl⟩

example : ∃ o, constructOpt exCodec (fun _ _ => none) exInputs 0 (some (-1)) none = some o ∧ o.intrinsics = [1000, 1000, 320, 240] ∧ o.rt_cam_ref = [0, 0, 0, 0, 0, 0] := by
  obtain ⟨o, h⟩ := exConstruct
  obtain ⟨h1, d', j, h2, h3, h4, h5, h6, h7, h8, h9, h10⟩ := construct_inputs exCodec_ok (fun _ _ => none) exInputs 0 (some (-1)) none o exInputs_current h
  have hj : j = -1 := by
    rcases h5 with h | ⟨h, -⟩
    · exact (Option.some.inj h).symm
    · cases h
  refine ⟨o, h, ?_, h9 (by omega)⟩
  rw [h3.same _ (by decide) (by decide) (by decide) (by decide)] at h7
  have : PyVal.row (some (arg exInputs "intrinsics")) 0 = some [1000, 1000, 320, 240] := rfl
  rw [this] at h7
  exact (Option.some.inj h7).symm

/-- a region that can be set, and one that can't -/
example (o : Obj ℝ RtV) : (setRegion o [(0, 0), (10, 0), (10, 10)]).2 ≠ .raised := exRegion o 10 10 (by norm_num)

/-- an object with optimization inputs, whose copy has none that can be read -/
example (o : Obj ℚ Unit) : ∃ s, (intrinsicsCall exCodec (fun _ _ => none) o exCall).1.opt = some (.bytes s) := by
  obtain ⟨s, -, h⟩ := call_stored exCodec (fun _ _ => none) o exCall exInputs rfl (exCall_ok _ _ o)
  exact ⟨_, h⟩

end Mrcal.CamModel

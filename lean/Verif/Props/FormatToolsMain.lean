import Verif.Props.FormatToolsProps
/-
C120: what the format converters do, and what they should not
-/
namespace Mrcal.Format

/-- the tools: mrcal-from-cahvor and mrcal-from-ros; mrcal-to-cahvor. The extension and the format of what they write -/
inductive Which {M C : Type} : (Env M C → Args → FS C → Out C) → List Char → Fmt → Prop
  | fromOther : Which toCameramodel ".cameramodel".toList .cameramodel
  | toOther : Which toCahvor ".cahvor".toList .cahvor

/-- **Specification**: the inputs: the arguments, or the standard input if there are none -/
def Inputs (a : Args) (l : List FName) : Prop := (a.models = [] ∧ l = ["-".toList]) ∨ (a.models ≠ [] ∧ l = a.models)

theorem which_tool {M C : Type} {run : Env M C → Args → FS C → Out C} {ext : List Char} {fmt : Fmt} (h : Which run ext fmt) :
    ∃ cahvor, Tool ext cahvor fmt ∧ run = fun env a fs => tool env ext cahvor a fs := by
  cases h with
  | fromOther => exact ⟨false, tool_cameramodel, rfl⟩
  | toOther => exact ⟨true, tool_cahvor, rfl⟩

theorem inputs_iff (a : Args) (l : List FName) : Inputs a l ↔ l = models a := by
  unfold Inputs models
  by_cases h : a.models = []
  · rw [if_pos h]; simp [h]
  · rw [if_neg h]; simp [h]

theorem tool_cases {M C : Type} (env : Env M C) (ext : List Char) (cahvor : Bool) (a : Args) (fs : FS C) :
    (1 < (models a).countP (fun m => decide (m = "-".toList)) ∧ tool env ext cahvor a fs = ⟨fs, [], false⟩) ∨ tool env ext cahvor a fs = loop env ext cahvor a fs (models a) := by
  unfold tool
  by_cases h : 1 < (models a).countP (fun m => decide (m = "-".toList))
  · rw [if_pos h]; exact Or.inl ⟨h, rfl⟩
  · rw [if_neg h]; exact Or.inr rfl

/-- **C120**: if the tool succeeds, each input was converted, or it was left alone because its target existed. This is for inputs that aren't named as if they were converted already, and whose targets are different files,
and not inputs. `_partial`: for other inputs see `named_stops_wrong` and `collision_wrong` -/
theorem converts_partial {M C : Type} {run : Env M C → Args → FS C → Out C} {ext : List Char} {fmt : Fmt} (h : Which run ext fmt) (env : Env M C) (a : Args) (fs : FS C) (l : List FName) (hl : Inputs a l)
    (hn : ∀ f ∈ l, f ≠ "-".toList → ¬ Named ext f)
    (hd : l.Pairwise fun f g => f ≠ "-".toList → g ≠ "-".toList → ∀ o, Target ext a.outdir f o → ¬ Target ext a.outdir g o)
    (hi : ∀ f ∈ l, ∀ g ∈ l, f ≠ "-".toList → g ≠ "-".toList → ¬ Target ext a.outdir f g)
    (hok : (run env a fs).ok = true) (f : FName) (hf : f ∈ l) (hfd : f ≠ "-".toList) (o : FName) (ho : Target ext a.outdir f o) :
    (a.force = false ∧ (fs o).isSome ∧ (run env a fs).fs o = fs o) ∨
    ((a.force = true ∨ fs o = none) ∧ Converted env fmt fs (run env a fs).fs f o ∧ .inr o ∈ (run env a fs).stdout) := by
  obtain ⟨cahvor, ht, rfl⟩ := which_tool h
  obtain rfl := (inputs_iff a l).1 hl
  obtain rfl := (target_iff _ _ _ _).1 ho
  dsimp only at hok ⊢
  rcases tool_cases env ext cahvor a fs with ⟨-, e⟩ | e
  · rw [e] at hok; simp at hok
  · rw [e] at hok ⊢
    refine loop_converted ht env a _ fs hn ?_ ?_ hok f hf hfd
    · refine hd.imp fun {x y} hxy hx hy e => ?_
      exact hxy hx hy _ ((target_iff _ _ _ _).2 rfl) ((target_iff _ _ _ _).2 e)
    · intro x hx y hy hxd hyd e
      exact hi x hx y hy hxd hyd ((target_iff _ _ _ _).2 e.symm)

/-- **C120**: without --force, no file that exists changes; whatever the inputs are, and whether the tool succeeds or not -/
theorem keeps_files {M C : Type} {run : Env M C → Args → FS C → Out C} {ext : List Char} {fmt : Fmt} (h : Which run ext fmt) (env : Env M C) (a : Args) (fs : FS C) (hf : a.force = false) (g : FName) (hg : (fs g).isSome) :
    (run env a fs).fs g = fs g := by
  obtain ⟨cahvor, ht, rfl⟩ := which_tool h
  dsimp only
  rcases tool_cases env ext cahvor a fs with ⟨-, e⟩ | e
  · rw [e]
  · rw [e]; exact loop_keep ht env a hf g _ fs hg

/-- **C120**: no other file is touched: only the targets of the inputs. And what is said to be written is the target of an input -/
theorem only_targets {M C : Type} {run : Env M C → Args → FS C → Out C} {ext : List Char} {fmt : Fmt} (h : Which run ext fmt) (env : Env M C) (a : Args) (fs : FS C) (l : List FName) (hl : Inputs a l) (g : FName) :
    ((run env a fs).fs g ≠ fs g → ∃ f ∈ l, f ≠ "-".toList ∧ Target ext a.outdir f g) ∧
    (.inr g ∈ (run env a fs).stdout → ∃ f ∈ l, f ≠ "-".toList ∧ Target ext a.outdir f g) := by
  obtain ⟨cahvor, ht, rfl⟩ := which_tool h
  obtain rfl := (inputs_iff a l).1 hl
  dsimp only
  rcases tool_cases env ext cahvor a fs with ⟨-, e⟩ | e
  · rw [e]
    exact ⟨fun h => absurd rfl h, fun h => by simp at h⟩
  · rw [e]
    refine ⟨fun h => ?_, fun h => ?_⟩
    · by_contra hc
      push Not at hc
      refine h (loop_other ht env a g _ fs fun f hf hfd e => ?_)
      exact hc f hf hfd ((target_iff _ _ _ _).2 e)
    · obtain ⟨f, hf, hfd, e⟩ := (loop_printed ht env a _ fs).2.1 g h
      exact ⟨f, hf, hfd, (target_iff _ _ _ _).2 e⟩

/-- **C120**: a model on the standard output is the converted standard input; and if '-' is an input, it's there when the tool succeeds (`hn`: see `named_stops_wrong`) -/
theorem standard_output {M C : Type} {run : Env M C → Args → FS C → Out C} {ext : List Char} {fmt : Fmt} (h : Which run ext fmt) (env : Env M C) (a : Args) (fs : FS C) (l : List FName) (hl : Inputs a l) :
    (∀ t, .inl t ∈ (run env a fs).stdout → "-".toList ∈ l ∧ ∃ c m, env.stdin = some c ∧ env.read c = some m ∧ env.text fmt [] m = some t) ∧
    ((run env a fs).ok = true → (∀ f ∈ l, f ≠ "-".toList → ¬ Named ext f) → "-".toList ∈ l →
      ∃ c m t, env.stdin = some c ∧ env.read c = some m ∧ env.text fmt [] m = some t ∧ .inl t ∈ (run env a fs).stdout) := by
  obtain ⟨cahvor, ht, rfl⟩ := which_tool h
  obtain rfl := (inputs_iff a l).1 hl
  dsimp only
  rcases tool_cases env ext cahvor a fs with ⟨-, e⟩ | e
  · rw [e]
    exact ⟨fun t h => by simp at h, fun h => by simp at h⟩
  · rw [e]
    have := loop_printed ht env a (models a) fs
    exact ⟨this.1, this.2.2⟩

/-- **C120**: the standard input can't be read twice: this is an error, and nothing is written -/
theorem two_stdin {M C : Type} {run : Env M C → Args → FS C → Out C} {ext : List Char} {fmt : Fmt} (h : Which run ext fmt) (env : Env M C) (a : Args) (fs : FS C) (A B D : List FName)
    (hm : a.models = A ++ "-".toList :: (B ++ "-".toList :: D)) : run env a fs = ⟨fs, [], false⟩ := by
  obtain ⟨cahvor, ht, rfl⟩ := which_tool h
  dsimp only
  unfold tool
  rw [if_pos]
  have : models a = a.models := by unfold models; rw [if_neg (by rw [hm]; simp)]
  rw [this, hm]
  simp only [List.countP_append, List.countP_cons, decide_true, if_true]
  omega

/-! ### what they should not do -/

/-- **C120, false**: "each input is converted": after an input that's named as if it were converted already, nothing else is done, and the tool succeeds. This is for any such command line -/
theorem named_stops_wrong {M C : Type} {run : Env M C → Args → FS C → Out C} {ext : List Char} {fmt : Fmt} (h : Which run ext fmt) (env : Env M C) (a : Args) (fs : FS C) (f : FName) (rest : List FName)
    (hm : a.models = f :: rest) (hfd : f ≠ "-".toList) (hn : Named ext f) (hr : "-".toList ∉ rest) : run env a fs = ⟨fs, [], true⟩ := by
  obtain ⟨cahvor, ht, rfl⟩ := which_tool h
  have hmm : models a = f :: rest := by unfold models; rw [hm, if_neg (by simp)]
  dsimp only
  rcases tool_cases env ext cahvor a fs with ⟨hc, -⟩ | e
  · exfalso
    rw [hmm, List.countP_cons, if_neg (by simpa using hfd)] at hc
    have : rest.countP (fun m => decide (m = "-".toList)) = 0 := by
      rw [List.countP_eq_zero]
      intro x hx
      have : x ≠ "-".toList := fun e => hr (e ▸ hx)
      simpa using this
    omega
  · rw [e, hmm, loop, if_neg hfd, if_pos ((named_iff _ _).1 hn)]

theorem tool_single {M C : Type} (env : Env M C) (ext : List Char) (cahvor : Bool) (a : Args) (fs : FS C) (f : FName) (hm : a.models = [f]) : tool env ext cahvor a fs = loop env ext cahvor a fs [f] := by
  have hmm : models a = [f] := by unfold models; rw [hm, if_neg (by simp)]
  rcases tool_cases env ext cahvor a fs with ⟨hc, -⟩ | e
  · rw [hmm] at hc
    have := List.countP_le_length (p := fun m => decide (m = "-".toList)) (l := [f])
    simp only [List.length_cons, List.length_nil] at this
    omega
  · rw [e, hmm]

/-- **C120, false**: "if the tool fails, it leaves no model; and doing it again fails again". A model that the cahvor format can't have leaves a file that has nothing in it; and the next time the tool succeeds, and that file remains -/
theorem failed_write_wrong {M C : Type} (env : Env M C) (a : Args) (fs : FS C) (f o : FName) (c : C) (m : M) (hm : a.models = [f]) (hf : a.force = false) (hfd : f ≠ "-".toList) (hn : ¬ Named ".cahvor".toList f)
    (ho : Target ".cahvor".toList a.outdir f o) (hno : fs o = none) (hc : fs f = some c) (hr : env.read c = some m) (ht : env.text .cahvor [] m = none) :
    (toCahvor env a fs).ok = false ∧ (toCahvor env a fs).fs o = some (env.commentText []) ∧
    (toCahvor env a (toCahvor env a fs).fs).ok = true ∧ (toCahvor env a (toCahvor env a fs).fs).fs o = some (env.commentText []) := by
  obtain rfl := (target_iff _ _ _ _).1 ho
  have hal : already ".cahvor".toList f = false := by
    cases h : already ".cahvor".toList f with
    | false => rfl
    | true => exact absurd ((named_iff _ _).2 h) hn
  have e : toCahvor env a fs = ⟨put fs (outName ".cahvor".toList a f) (env.commentText []), [], false⟩ := by
    show tool env _ true a fs = _
    rw [tool_single env _ _ a fs f hm, loop, if_neg hfd, hal, hno, hc, hf]
    simp only [Option.bind_some, hr, Option.isSome_none, Bool.and_false]
    rw [write_eq tool_cahvor, ht]
    rfl
  rw [e]
  have e2 : toCahvor env a (put fs (outName ".cahvor".toList a f) (env.commentText [])) = ⟨put fs (outName ".cahvor".toList a f) (env.commentText []), [], true⟩ := by
    show tool env _ true a _ = _
    rw [tool_single env _ _ a _ f hm, loop, if_neg hfd, hal, put_same, hf]
    rfl
  rw [e2]
  exact ⟨rfl, put_same _ _ _, rfl, put_same _ _ _⟩

/-- **C120, false**: "--force replaces a file by a converted model, or it leaves it": if the model can't be written, the file that was there is lost -/
theorem force_lost_wrong {M C : Type} (env : Env M C) (a : Args) (fs : FS C) (f o : FName) (c : C) (m : M) (hm : a.models = [f]) (hf : a.force = true) (hfd : f ≠ "-".toList) (hn : ¬ Named ".cahvor".toList f)
    (ho : Target ".cahvor".toList a.outdir f o) (hc : fs f = some c) (hr : env.read c = some m) (ht : env.text .cahvor [] m = none) :
    (toCahvor env a fs).ok = false ∧ (toCahvor env a fs).fs o = some (env.commentText []) := by
  obtain rfl := (target_iff _ _ _ _).1 ho
  have hal : already ".cahvor".toList f = false := by
    cases h : already ".cahvor".toList f with
    | false => rfl
    | true => exact absurd ((named_iff _ _).2 h) hn
  have e : toCahvor env a fs = ⟨put fs (outName ".cahvor".toList a f) (env.commentText []), [], false⟩ := by
    show tool env _ true a fs = _
    rw [tool_single env _ _ a fs f hm, loop, if_neg hfd, hal, hc, hf]
    simp only [Option.bind_some, hr, Bool.not_true, Bool.false_and]
    rw [write_eq tool_cahvor, ht]
    rfl
  rw [e]
  exact ⟨rfl, put_same _ _ _⟩

/-- **C120, false**: "each input is converted": of two inputs with the same target, only the first one is, if the file didn't exist and there's no --force; and the tool succeeds -/
theorem collision_wrong {M C : Type} {run : Env M C → Args → FS C → Out C} {ext : List Char} {fmt : Fmt} (h : Which run ext fmt) (env : Env M C) (a : Args) (fs : FS C) (f g o : FName) (c : C) (m : M) (t : C)
    (hm : a.models = [f, g]) (hf : a.force = false) (hfd : f ≠ "-".toList) (hgd : g ≠ "-".toList) (hnf : ¬ Named ext f) (hng : ¬ Named ext g)
    (hof : Target ext a.outdir f o) (hog : Target ext a.outdir g o) (hno : fs o = none) (hc : fs f = some c) (hr : env.read c = some m) (ht : env.text fmt [] m = some t) :
    run env a fs = ⟨put fs o t, [.inr o], true⟩ := by
  obtain ⟨cahvor, htool, rfl⟩ := which_tool h
  have hmm : models a = [f, g] := by unfold models; rw [hm, if_neg (by simp)]
  have e1 := (target_iff _ _ _ _).1 hof
  have e2 := (target_iff _ _ _ _).1 hog
  have al : ∀ x, ¬ Named ext x → already ext x = false := by
    intro x hx
    cases h : already ext x with
    | false => rfl
    | true => exact absurd ((named_iff _ _).2 h) hx
  dsimp only
  rcases tool_cases env ext cahvor a fs with ⟨hcnt, -⟩ | e
  · exfalso
    rw [hmm] at hcnt
    simp only [List.countP_cons, List.countP_nil, hfd, hgd, decide_false] at hcnt
    simp at hcnt
  · have hw : writeFile env fs o none m = (put fs o t, true) := by rw [e1, write_eq htool, ht]
    rw [e, hmm, loop, if_neg hfd, al f hnf, ← e1, hno, hc, hf]
    simp only [Option.bind_some, hr, Option.isSome_none, Bool.and_false, hw]
    have l2 : loop env ext cahvor a (put fs o t) [g] = ⟨put fs o t, [], true⟩ := by
      rw [loop, if_neg hgd, al g hng, ← e2, put_same, hf]
      rfl
    simp only [if_false, Bool.false_eq_true, l2]
    rfl

/-! ### the comments and the format of cameramodel.write() -/

/-- **C120**: a note that's given when a model is written to a .cameramodel file is written -/
theorem note_written {M C : Type} (env : Env M C) (fs : FS C) (x : List Char) (note : List (List Char)) (m : M) (t : C) (ht : env.text .cameramodel note m = some t) :
    writeFile env fs (x ++ ".cameramodel".toList) (some note) m = (put fs (x ++ ".cameramodel".toList) t, true) := by
  unfold writeFile
  rw [format_cameramodel]
  show (match env.text .cameramodel note m with | some c => _ | none => _) = _
  rw [ht]

/-- **C120, false**: "a note that's given is written": not to a .cahvor file: any note is the same as none -/
theorem note_wrong {M C : Type} (env : Env M C) (fs : FS C) (x : List Char) (note : List (List Char)) (m : M) :
    writeFile env fs (x ++ ".cahvor".toList) (some note) m = writeFile env fs (x ++ ".cahvor".toList) none m := by
  unfold writeFile
  rw [format_cahvor]
  rfl

/-- **C120**: which format is written: the options decide, and only then the name. An opened file gets the cameramodel format -/
theorem write_format (cahvor opencv : Bool) (f : Option FName) (fmt : Fmt) : writeFormat cahvor opencv f = some fmt ↔
    (cahvor = true ∧ opencv = false ∧ fmt = .cahvor) ∨ (cahvor = false ∧ opencv = true ∧ fmt = .opencv) ∨
    (cahvor = false ∧ opencv = false ∧ ((f = none ∧ fmt = .cameramodel) ∨
      ∃ n, f = some n ∧
        (((∃ x, n = x ++ ".cahv".toList ∨ n = x ++ ".cahvor".toList ∨ n = x ++ ".cahvore".toList) ∧ fmt = .cahvor) ∨
         ((∃ x, n = x ++ ".yml".toList ∨ n = x ++ ".yaml".toList) ∧ fmt = .opencv) ∨
         ((∀ x, n ≠ x ++ ".cahv".toList ∧ n ≠ x ++ ".cahvor".toList ∧ n ≠ x ++ ".cahvore".toList ∧ n ≠ x ++ ".yml".toList ∧ n ≠ x ++ ".yaml".toList) ∧ fmt = .cameramodel)))) := by
  have suf : ∀ (e n : List Char), e.isSuffixOf n = true ↔ ∃ x, n = x ++ e := by
    intro e n
    rw [List.isSuffixOf_iff_suffix]
    exact ⟨fun ⟨x, h⟩ => ⟨x, h.symm⟩, fun ⟨x, h⟩ => ⟨x, h.symm⟩⟩
  have disj : ∀ (e e' : List Char), e.length ≤ e'.length → e.isSuffixOf e' = false → ∀ n x y : List Char, n = x ++ e → n = y ++ e' → False := by
    intro e e' hl hs n x y h1 h2
    have : e.isSuffixOf e' = true := suffix_ext hl ((suf e (y ++ e')).2 ⟨x, h2 ▸ h1⟩)
    rw [hs] at this
    cases this
  cases cahvor <;> cases opencv <;> simp only [writeFormat, Bool.and_true, Bool.and_false, Bool.false_eq_true, if_false, if_true, reduceCtorEq, false_and, true_and, false_or, or_false]
  · cases f with
    | none => simp [eq_comm]
    | some n =>
      simp only [reduceCtorEq, false_and, false_or, Option.some.injEq, exists_eq_left']
      unfold formatOf
      by_cases h1 : ([".cahv".toList, ".cahvor".toList, ".cahvore".toList].any fun e => e.isSuffixOf n) = true
      · rw [if_pos h1]
        simp only [List.any_cons, List.any_nil, Bool.or_false, Bool.or_eq_true, suf] at h1
        have h1' : ∃ x, n = x ++ ".cahv".toList ∨ n = x ++ ".cahvor".toList ∨ n = x ++ ".cahvore".toList := by
          rcases h1 with ⟨x, h⟩ | ⟨x, h⟩ | ⟨x, h⟩
          · exact ⟨x, Or.inl h⟩
          · exact ⟨x, Or.inr (Or.inl h)⟩
          · exact ⟨x, Or.inr (Or.inr h)⟩
        constructor
        · intro h; exact Or.inl ⟨h1', h.symm⟩
        · rintro (⟨-, h⟩ | ⟨⟨y, hy⟩, -⟩ | ⟨hall, -⟩)
          · exact h.symm
          · exfalso
            obtain ⟨x, hx⟩ := h1'
            rcases hx with h | h | h <;> rcases hy with h' | h' <;>
              first | exact disj _ _ (by decide) (by decide) n _ _ h h' | exact disj _ _ (by decide) (by decide) n _ _ h' h
          · exfalso
            obtain ⟨x, hx⟩ := h1'
            have := hall x
            rcases hx with h | h | h
            · exact this.1 h
            · exact this.2.1 h
            · exact this.2.2.1 h
      · rw [if_neg h1]
        simp only [List.any_cons, List.any_nil, Bool.or_false, Bool.or_eq_true, suf, not_or, not_exists] at h1
        have h1' : ¬ ∃ x, n = x ++ ".cahv".toList ∨ n = x ++ ".cahvor".toList ∨ n = x ++ ".cahvore".toList := by
          rintro ⟨x, h | h | h⟩
          · exact h1.1 x h
          · exact h1.2.1 x h
          · exact h1.2.2 x h
        by_cases h2 : ([".yml".toList, ".yaml".toList].any fun e => e.isSuffixOf n) = true
        · rw [if_pos h2]
          simp only [List.any_cons, List.any_nil, Bool.or_false, Bool.or_eq_true, suf] at h2
          have h2' : ∃ x, n = x ++ ".yml".toList ∨ n = x ++ ".yaml".toList := by
            rcases h2 with ⟨x, h⟩ | ⟨x, h⟩
            · exact ⟨x, Or.inl h⟩
            · exact ⟨x, Or.inr h⟩
          constructor
          · intro h; exact Or.inr (Or.inl ⟨h2', h.symm⟩)
          · rintro (⟨h, -⟩ | ⟨-, h⟩ | ⟨hall, -⟩)
            · exact absurd h h1'
            · exact h.symm
            · exfalso
              obtain ⟨x, hx⟩ := h2'
              rcases hx with h | h
              · exact (hall x).2.2.2.1 h
              · exact (hall x).2.2.2.2 h
        · rw [if_neg h2]
          simp only [List.any_cons, List.any_nil, Bool.or_false, Bool.or_eq_true, suf, not_or, not_exists] at h2
          constructor
          · intro h
            exact Or.inr (Or.inr ⟨fun x => ⟨h1.1 x, h1.2.1 x, h1.2.2 x, h2.1 x, h2.2 x⟩, h.symm⟩)
          · rintro (⟨h, -⟩ | ⟨⟨x, h⟩, -⟩ | ⟨-, h⟩)
            · exact absurd h h1'
            · rcases h with h | h
              · exact absurd h (h2.1 x)
              · exact absurd h (h2.2 x)
            · exact h.symm
  · simp [eq_comm]
  · simp [eq_comm]

end Mrcal.Format

import Verif.Props.PyModelProps
/-
C86: writing a camera model in Python, and reading it back in Python and in C.
-/
namespace Mrcal.ModelPy
open Mrcal.Name Mrcal.CamModel Mrcal.ModelFile

theorem replace_id (pat by' s : List Char) (h : ¬ pat <:+: s) : replaceAll pat by' 0 s = s := by
  induction s with
  | nil => rfl
  | cons c s ih =>
    have h1 : pat.isPrefixOf (c :: s) = false := by
      rw [Bool.eq_false_iff]
      intro hp
      exact h (List.isPrefixOf_iff_prefix.1 hp).isInfix
    rw [replaceAll, h1, if_neg (by simp), ih (fun hi => h (hi.trans (List.suffix_cons c s).isInfix))]

theorem zip_same (l : List ℚ) : ∀ p ∈ l.zip l, p.1 = p.2 := by
  induction l with
  | nil => intro p hp; simp at hp
  | cons x l ih =>
    intro p hp
    rw [List.zip_cons_cons] at hp
    rcases List.mem_cons.1 hp with rfl | hp
    · rfl
    · exact ih p hp

theorem readOpt_1 (s : List Char) (ii : Int) (h : 0 ≤ ii) : readOpt (some (.bytes s)) (some (.int ii)) none = some (some (.bytes s), some ii, none) := by
  simp only [readOpt, Option.bind_eq_bind, Option.bind_some, Lit.toInt]
  rw [if_neg (not_lt.2 h)]

theorem readOpt_2 (s : List Char) (ii ie : Int) (h : 0 ≤ ii) : readOpt (some (.bytes s)) (some (.int ii)) (some (.int ie)) = some (some (.bytes s), some ii, some ie) := by
  simp only [readOpt, Option.bind_eq_bind, Option.bind_some, Lit.toInt]
  rw [if_neg (not_lt.2 h)]

/-- what `read` returns -/
def roundObj (o : Obj ℚ (List ℚ)) (i : Option OptIn) : Obj ℚ (List ℚ) :=
  ⟨o.imagersize, o.lensmodel, o.intrinsics.map round10, o.region.map fun r => r.map fun p => (round10 p.1, round10 p.2), o.rt_cam_ref.map round10, i.map fun j => .bytes j.s, o.icamI, o.icamE⟩

theorem read_of {s : List Char} {d : List (Lit × Lit)} {name : List Char} {lI lrt lext lz : Lit} {intr rt : List ℚ} {z : Int × Int} {region : Option (List (ℚ × ℚ))} {lreg : Option Lit}
    {lopt lii lie : Option Lit} {opt : Option Stored × Option Int × Option Int} (hd : literalEval s = some d)
    (h1 : lookup d "lensmodel" = some (.str name)) (h2 : lookup d "intrinsics" = some lI) (h3 : lookup d "extrinsics" = some lext) (h4 : lookup d "rt_cam_ref" = some lrt)
    (h5 : lookup d "imagersize" = some lz) (h6 : lookup d "valid_intrinsics_region" = lreg) (h7 : lookup d "optimization_inputs" = lopt)
    (h8 : (lookup d "icam_intrinsics").or (lookup d "icam_intrinsics_optimization_inputs") = lii) (h9 : lookup d "icam_extrinsics" = lie)
    (k1 : ¬ "DISTORTION".toList <:+: name) (k2 : lI.nums = some intr) (k3 : lext.nums = some rt) (k4 : lrt.nums = some rt) (k5 : readSize lz = some z) (k6 : readRegion lreg = some region)
    (k7 : readOpt lopt lii lie = some opt) (k8 : numParams name = some intr.length) (k9 : rt.length = 6) :
    read s = some ⟨z, name, intr, region, rt, opt.1, opt.2.1, opt.2.2⟩ := by
  have hclose : close9 rt rt = true := by
    unfold close9
    simp only [decide_true, Bool.true_and, List.all_eq_true, decide_eq_true_eq]
    intro p hp
    rw [zip_same rt p hp]; norm_num
  have hpose : readPose (some lext) (some lrt) = some rt := by
    unfold readPose
    simp only [k3, k4, Option.bind_eq_bind, Option.bind_some, hclose, if_true, k9]
  unfold read
  simp only [hd, Option.bind_eq_bind, Option.bind_some, h1, h2, h3, h4, h5, h6, h7, h8, h9, Option.some_or, Lit.string]
  rw [replace_id _ _ _ k1]
  simp only [k2, Option.bind_some, hpose, k5, k6, k7]
  rw [if_pos k8]

/-- the entries of the region, and what's read from them -/
theorem py_region (o : Obj ℚ (List ℚ)) (h : ∀ r, o.region = some r → ClosedRegion r ∧ ∀ p ∈ r, Small p.1 ∧ Small p.2) :
    (o.region = none ∧ entriesRegion o.region = []) ∨ ∃ r x, o.region = some r ∧ entriesRegion o.region = [enRegion "\n\n    ".toList r] ∧
      readRegion (some x) = some (some (r.map fun p => (round10 p.1, round10 p.2))) ∧ PGood (enRegion "\n\n    ".toList r) x := by
  cases hr : o.region with
  | none => left; exact ⟨rfl, rfl⟩
  | some r =>
    right
    obtain ⟨h1, h2⟩ := h r hr
    obtain ⟨x, k1, k2⟩ := enRegion_py pign_nlnl4 r h2 h1
    exact ⟨r, x, rfl, rfl, k1, k2⟩

theorem plain_lens : Plain "lensmodel".toList := by unfold Plain; decide
theorem plain_intr : Plain "intrinsics".toList := by unfold Plain; decide
theorem plain_rt : Plain "rt_cam_ref".toList := by unfold Plain; decide
theorem plain_ext : Plain "extrinsics".toList := by unfold Plain; decide
theorem plain_ii : Plain "icam_intrinsics".toList := by unfold Plain; decide
theorem plain_ie : Plain "icam_extrinsics".toList := by unfold Plain; decide
theorem plain_opt : Plain "optimization_inputs".toList := by unfold Plain; decide

theorem pign_tail (i : Option OptIn) : PIgn (tailOf i) := by
  cases i with
  | none => exact (.ws (by simp) (.ws (by simp) (.ws (by simp) .nil)) : PIgn ['\n', '\n', '\n'])
  | some i => exact (.ws (by simp) (.ws (by simp) .nil) : PIgn ['\n', '\n'])

/-- the entries of the optimization inputs, and what's read from them -/
theorem py_opt (i : Option OptIn) (h : ∀ j, i = some j → (∀ c ∈ j.s, Printable c) ∧ 0 ≤ j.icamI ∧ j.icamI < 2 ^ 31 ∧ ∀ e, j.icamE = some e → -2 ^ 31 ≤ e ∧ e < 2 ^ 31) :
    ∃ es : List (En × Lit), es.map Prod.fst = entriesOpt i ∧ (∀ e ∈ es, PGood e.1 e.2) ∧
      (es = [] ∧ i = none ∨ (∃ s ii, es = [(enInt "\n\n    ".toList "icam_intrinsics".toList ii, .int ii), (enBytes ignOpt "optimization_inputs".toList s, .bytes s)] ∧ 0 ≤ ii ∧ i = some ⟨s, ii, none⟩) ∨
      (∃ s ii ie, es = [(enInt "\n\n    ".toList "icam_intrinsics".toList ii, .int ii), (enInt "\n    ".toList "icam_extrinsics".toList ie, .int ie), (enBytes ignOpt "optimization_inputs".toList s, .bytes s)] ∧
        0 ≤ ii ∧ i = some ⟨s, ii, some ie⟩)) := by
  rcases i with _ | ⟨s, ii, _ | ie⟩
  · exact ⟨[], rfl, by simp, Or.inl ⟨rfl, rfl⟩⟩
  · obtain ⟨h1, h2, h3, -⟩ := h _ rfl
    refine ⟨[_, _], rfl, ?_, Or.inr (Or.inl ⟨s, ii, rfl, h2, rfl⟩)⟩
    intro e he
    simp only [List.mem_cons, List.not_mem_nil, or_false] at he
    dsimp only at h1 h2 h3
    rcases he with rfl | rfl
    · exact enInt_py pign_nlnl4 plain_ii ii (by omega)
    · exact enBytes_py pign_ignOpt plain_opt (printable_plain h1) (printable_ascii h1)
  · obtain ⟨h1, h2, h3, h4⟩ := h _ rfl
    refine ⟨[_, _, _], rfl, ?_, Or.inr (Or.inr ⟨s, ii, ie, rfl, h2, rfl⟩)⟩
    intro e he
    simp only [List.mem_cons, List.not_mem_nil, or_false] at he
    dsimp only at h1 h2 h3
    have h4 := h4 ie rfl
    rcases he with rfl | rfl | rfl
    · exact enInt_py pign_nlnl4 plain_ii ii (by omega)
    · exact enInt_py pign_nl4 plain_ie ie (by omega)
    · exact enBytes_py pign_ignOpt plain_opt (printable_plain h1) (printable_ascii h1)

theorem write_some {note : List (List Char)} {o : Obj ℚ (List ℚ)} {i : Option OptIn} (h : PyWritable note o i) : write note o = some (writeText note o) := by
  unfold write
  rw [if_pos]
  refine ⟨?_, ?_, h.rt⟩
  · unfold validateIntrinsics
    rw [if_neg (by have := h.size; omega)]
    simp [h.count]
  · cases hr : o.region with
    | none => rfl
    | some r => exact (closed_valid r (h.region r hr).1).1

theorem read_write {note : List (List Char)} {o : Obj ℚ (List ℚ)} {i : Option OptIn} (h : PyWritable note o i) : read (writeText note o) = some (roundObj o i) := by
  have hnul := nonul_write note o i h
  have hnul' : '\x00' ∉ writeText note o := fun hc => hnul _ hc rfl
  rw [writeText_eq note o i h.opt] at hnul' ⊢
  have g1 := enStr_py pign_nl4 plain_lens (printable_plain h.name)
  obtain ⟨l2, n2, g2⟩ := enNums_py (pign_intrinsics o.lensmodel) plain_intr o.intrinsics h.intrinsics
  obtain ⟨l3, n3, g3⟩ := enNums_py pign_nlnl4 plain_rt o.rt_cam_ref h.pose
  obtain ⟨l4, n4, g4⟩ := enNums_py pign_nl4 plain_ext o.rt_cam_ref h.pose
  obtain ⟨hw, hw', hh, hh'⟩ := h.size
  obtain ⟨l5, n5, g5⟩ := enSize_py pign_size o.imagersize.1 o.imagersize.2 hw hw' hh hh'
  obtain ⟨oes, he, hg, ho⟩ := py_opt i h.optIn
  have hopt := h.opt
  rcases py_region o h.region with ⟨hr1, hr2⟩ | ⟨r, lr, hr1, hr2, n6, g6⟩
  · have hes : ([(enStr "\n    ".toList "lensmodel".toList o.lensmodel, Lit.str o.lensmodel), (enNums (ignIntrinsics o.lensmodel) "intrinsics".toList o.intrinsics, l2),
        (enNums "\n\n    ".toList "rt_cam_ref".toList o.rt_cam_ref, l3), (enNums "\n    ".toList "extrinsics".toList o.rt_cam_ref, l4), (enSize ignSize o.imagersize.1 o.imagersize.2, l5)] ++ oes).map Prod.fst =
          entries0 o ++ (entriesRegion o.region ++ (entries1 o ++ entriesOpt i)) := by
      rw [List.map_append, he, hr2]; rfl
    rw [← hes, List.flatMap_map] at hnul' ⊢
    have hev := literalEval_commas _ hnul' (pign_note note h.note) (pign_tail i) pign_nl (by
      intro e he
      rcases List.mem_append.1 he with he | he
      · simp only [List.mem_cons, List.not_mem_nil, or_false] at he
        rcases he with rfl | rfl | rfl | rfl | rfl
        exacts [g1, g2, g3, g4, g5]
      · exact hg e he)
    have hreg : readRegion none = some none := rfl
    unfold roundObj
    rw [hr1]
    rcases ho with ⟨rfl, rfl⟩ | ⟨s, ii, rfl, h0, rfl⟩ | ⟨s, ii, ie, rfl, h0, rfl⟩
    · rw [hopt.2.1, hopt.2.2]
      exact read_of (opt := (none, none, none)) hev rfl rfl rfl rfl rfl rfl rfl rfl rfl h.name' n2 n4 n3 n5 hreg rfl (by simpa using h.count) (by simpa using h.rt)
    · rw [hopt.2.1, hopt.2.2]
      exact read_of (opt := (some (.bytes s), some ii, none)) hev rfl rfl rfl rfl rfl rfl rfl rfl rfl h.name' n2 n4 n3 n5 hreg (readOpt_1 s ii h0) (by simpa using h.count) (by simpa using h.rt)
    · rw [hopt.2.1, hopt.2.2]
      exact read_of (opt := (some (.bytes s), some ii, some ie)) hev rfl rfl rfl rfl rfl rfl rfl rfl rfl h.name' n2 n4 n3 n5 hreg (readOpt_2 s ii ie h0) (by simpa using h.count) (by simpa using h.rt)
  · have hes : ([(enStr "\n    ".toList "lensmodel".toList o.lensmodel, Lit.str o.lensmodel), (enNums (ignIntrinsics o.lensmodel) "intrinsics".toList o.intrinsics, l2), (enRegion "\n\n    ".toList r, lr),
        (enNums "\n\n    ".toList "rt_cam_ref".toList o.rt_cam_ref, l3), (enNums "\n    ".toList "extrinsics".toList o.rt_cam_ref, l4), (enSize ignSize o.imagersize.1 o.imagersize.2, l5)] ++ oes).map Prod.fst =
          entries0 o ++ (entriesRegion o.region ++ (entries1 o ++ entriesOpt i)) := by
      rw [List.map_append, he, hr2]; rfl
    rw [← hes, List.flatMap_map] at hnul' ⊢
    have hev := literalEval_commas _ hnul' (pign_note note h.note) (pign_tail i) pign_nl (by
      intro e he
      rcases List.mem_append.1 he with he | he
      · simp only [List.mem_cons, List.not_mem_nil, or_false] at he
        rcases he with rfl | rfl | rfl | rfl | rfl | rfl
        exacts [g1, g2, g6, g3, g4, g5]
      · exact hg e he)
    unfold roundObj
    rw [hr1]
    rcases ho with ⟨rfl, rfl⟩ | ⟨s, ii, rfl, h0, rfl⟩ | ⟨s, ii, ie, rfl, h0, rfl⟩
    · rw [hopt.2.1, hopt.2.2]
      exact read_of (opt := (none, none, none)) hev rfl rfl rfl rfl rfl rfl rfl rfl rfl h.name' n2 n4 n3 n5 n6 rfl (by simpa using h.count) (by simpa using h.rt)
    · rw [hopt.2.1, hopt.2.2]
      exact read_of (opt := (some (.bytes s), some ii, none)) hev rfl rfl rfl rfl rfl rfl rfl rfl rfl h.name' n2 n4 n3 n5 n6 (readOpt_1 s ii h0) (by simpa using h.count) (by simpa using h.rt)
    · rw [hopt.2.1, hopt.2.2]
      exact read_of (opt := (some (.bytes s), some ii, some ie)) hev rfl rfl rfl rfl rfl rfl rfl rfl rfl h.name' n2 n4 n3 n5 n6 (readOpt_2 s ii ie h0) (by simpa using h.count) (by simpa using h.rt)


theorem rounded_list (l : List ℚ) : List.Forall₂ Rounded10 l (l.map round10) := by
  induction l with
  | nil => exact .nil
  | cons v l ih => exact .cons (round10_rounded v) ih

theorem rounded_pairs (l : List (ℚ × ℚ)) : List.Forall₂ (fun p q => Rounded10 p.1 q.1 ∧ Rounded10 p.2 q.2) l (l.map fun p => (round10 p.1, round10 p.2)) := by
  induction l with
  | nil => exact .nil
  | cons v l ih => exact .cons ⟨round10_rounded v.1, round10_rounded v.2⟩ ih

theorem roundObj_back (o : Obj ℚ (List ℚ)) (i : Option OptIn) : PyReadBack o (roundObj o i) i := by
  refine ⟨rfl, rfl, rounded_list _, rounded_list _, ?_, rfl, rfl, rfl⟩
  unfold roundObj
  dsimp only
  cases o.region with
  | none => exact .none
  | some r => exact .some (rounded_pairs r)

/-- **C86**: a valid model can be written, and what's written can be read. The same model comes back, but its numbers have 10 significant digits -/
theorem write_read (note : List (List Char)) (o : Obj ℚ (List ℚ)) (i : Option OptIn) (h : PyWritable note o i) :
    ∃ text o', write note o = some text ∧ read text = some o' ∧ PyReadBack o o' i :=
  ⟨_, _, write_some h, read_write h, roundObj_back o i⟩

theorem numsText_round (l : List ℚ) : numsText (l.map round10) = numsText l := by
  rw [numsText_eq, numsText_eq, List.map_map]
  congr 1
  apply List.map_congr_left
  intro v _
  exact printG10_round v

/-- **C86**: writing what was read gives the same file. So nothing more is lost when a model is read and written again, any number of times -/
theorem write_read_write (note : List (List Char)) (o o' : Obj ℚ (List ℚ)) (i : Option OptIn) (h : PyWritable note o i) (text : List Char) (h1 : write note o = some text) (h2 : read text = some o') :
    write note o' = some text := by
  rw [write_some h] at h1
  obtain rfl := Option.some.inj h1
  rw [read_write h] at h2
  obtain rfl := Option.some.inj h2
  have hw : write note (roundObj o i) = some (writeText note (roundObj o i)) := by
    unfold write
    rw [if_pos]
    refine ⟨?_, ?_, by unfold roundObj; simpa using h.rt⟩
    · unfold validateIntrinsics roundObj
      dsimp only
      rw [if_neg (by have := h.size; omega)]
      simp [h.count]
    · unfold roundObj
      cases hr : o.region with
      | none => rfl
      | some r => exact (closed_valid _ (round_closed r (h.region r hr).1 round10)).1
  rw [hw]
  congr 1
  have e1 : ∀ r : List (ℚ × ℚ), ((r.map fun p => (round10 p.1, round10 p.2)).flatMap fun p => "    [ ".toList ++ printG10 p.1 ++ ", ".toList ++ printG10 p.2 ++ " ],\n".toList) =
      r.flatMap fun p => "    [ ".toList ++ printG10 p.1 ++ ", ".toList ++ printG10 p.2 ++ " ],\n".toList := by
    intro r
    rw [List.flatMap_map]
    simp only [printG10_round]
  have e2 : ifThere (roundObj o i).region (fun r => "    'valid_intrinsics_region': [\n".toList
          ++ (r.flatMap fun p => "    [ ".toList ++ printG10 p.1 ++ ", ".toList ++ printG10 p.2 ++ " ],\n".toList) ++ "],\n\n".toList) =
      ifThere o.region (fun r => "    'valid_intrinsics_region': [\n".toList
          ++ (r.flatMap fun p => "    [ ".toList ++ printG10 p.1 ++ ", ".toList ++ printG10 p.2 ++ " ],\n".toList) ++ "],\n\n".toList) := by
    unfold roundObj
    dsimp only
    cases o.region with
    | none => rfl
    | some r =>
      dsimp only [ifThere, Option.map_some]
      rw [e1]
  have e3 : ifThere (roundObj o i).opt (fun s => lines optComment ++ ("    'optimization_inputs': ".toList ++ storedText s ++ ",\n\n".toList)) =
      ifThere o.opt (fun s => lines optComment ++ ("    'optimization_inputs': ".toList ++ storedText s ++ ",\n\n".toList)) := by
    unfold roundObj
    dsimp only
    cases i with
    | none => rw [h.opt.1]; rfl
    | some j =>
      obtain ⟨s, hs1, hs2⟩ := hasOpt_text h.opt
      rw [hs1]
      dsimp only [ifThere, Option.map_some]
      rw [hs2]
      rfl
  unfold writeText
  rw [e2, e3]
  unfold roundObj
  dsimp only
  rw [numsText_round, numsText_round]

/-- numbers with 10 digits are unchanged -/
theorem round10_short (v : ℚ) (h : Short10 v) : round10 v = v := by
  obtain ⟨k, j, hk, rfl⟩ := h
  by_cases h0 : k = 0
  · subst h0; simp [round10]
  -- as many digits as we can have
  have key : ∀ (n : Nat) (m : Nat) (j : Int), 0 < m → m < 10 ^ 10 → 10 ^ 10 ≤ m * 10 ^ n → ∃ (m' : Nat) (j' : Int), 10 ^ 9 ≤ m' ∧ m' < 10 ^ 10 ∧ (m : ℚ) * (10 : ℚ) ^ j = m' * (10 : ℚ) ^ j' := by
    intro n
    induction n with
    | zero => intro m j _ h2 h3; omega
    | succ n ih =>
      intro m j h1 h2 h3
      by_cases h4 : 10 ^ 9 ≤ m
      · exact ⟨m, j, h4, h2, rfl⟩
      · obtain ⟨m', j', k1, k2, k3⟩ := ih (m * 10) (j - 1) (by omega) (by omega) (by rw [mul_assoc, ← pow_succ']; exact h3)
        refine ⟨m', j', k1, k2, ?_⟩
        rw [← k3, zpow_sub_one₀ (by norm_num)]
        push_cast
        field_simp
  have hk1 : 1 ≤ k.natAbs := by omega
  have hk2 : k.natAbs < 10 ^ 10 := by
    rw [Int.abs_eq_natAbs] at hk
    omega
  obtain ⟨m, j', h1, h2, h3⟩ := key 10 k.natAbs j hk1 hk2 (by omega)
  have habs : |(k : ℚ) * (10 : ℚ) ^ j| = m * (10 : ℚ) ^ (j' + 9 - 9) := by
    rw [abs_mul, abs_of_pos (by positivity : (0 : ℚ) < (10 : ℚ) ^ j), ← Int.cast_abs, Int.abs_eq_natAbs, Int.cast_natCast, h3]
    congr 2; ring
  have hs := sci10_fix m (j' + 9) h1 h2
  have hne : (k : ℚ) * (10 : ℚ) ^ j ≠ 0 := mul_ne_zero (by exact_mod_cast h0) (by positivity)
  unfold round10
  rw [if_neg hne, habs, hs]
  dsimp only
  rw [← habs]
  by_cases hn : (k : ℚ) * (10 : ℚ) ^ j < 0
  · rw [if_pos hn, abs_of_neg hn]; ring
  · rw [if_neg hn, abs_of_nonneg (not_lt.1 hn)]; ring

/-- **C86**: if all the numbers have at most 10 significant digits, then what's read is exactly what was written -/
theorem write_read_exact (note : List (List Char)) (o : Obj ℚ (List ℚ)) (i : Option OptIn) (h : PyWritable note o i) (h1 : ∀ v ∈ o.intrinsics, Short10 v) (h2 : ∀ v ∈ o.rt_cam_ref, Short10 v)
    (h3 : ∀ r, o.region = some r → ∀ p ∈ r, Short10 p.1 ∧ Short10 p.2) (h4 : ∀ s, o.opt ≠ some (.str s)) : ∃ text, write note o = some text ∧ read text = some o := by
  refine ⟨_, write_some h, ?_⟩
  rw [read_write h]
  congr 1
  have e : ∀ l : List ℚ, (∀ v ∈ l, Short10 v) → l.map round10 = l := by
    intro l hl
    conv_rhs => rw [← List.map_id l]
    exact List.map_congr_left fun v hv => round10_short v (hl v hv)
  obtain ⟨z, name, intr, region, rt, opt, icamI, icamE⟩ := o
  unfold roundObj
  dsimp only at *
  have hopt : (i.map fun j => Stored.bytes j.s) = opt := by
    have ho := h.opt
    cases i with
    | none => exact ho.1.symm
    | some j =>
      rcases ho.1 with ho | ho
      · exact ho.symm
      · exact absurd ho (h4 _)
  rw [e _ h1, e _ h2, hopt]
  cases region with
  | none => rfl
  | some r =>
    congr 1
    show some (r.map fun p => (round10 p.1, round10 p.2)) = some r
    congr 1
    show (r.map fun p => (round10 p.1, round10 p.2)) = r
    conv_rhs => rw [← List.map_id r]
    refine List.map_congr_left fun p hp => ?_
    obtain ⟨k1, k2⟩ := h3 r rfl p hp
    rw [round10_short _ k1, round10_short _ k2]
    rfl

end Mrcal.ModelPy

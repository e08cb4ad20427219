import Verif.Props.PyReadProps
/-
C86: writing a camera model in Python, and reading it back.
-/
namespace Mrcal.ModelPy
open Mrcal.Name Mrcal.CamModel Mrcal.ModelFile

/-! ### what's written, as a list of entries -/

def ignIntrinsics (name : List Char) : List Char :=
  '\n' :: '\n' :: ((if hasCore name then "    # intrinsics are fx,fy,cx,cy,distortion0,distortion1,....\n".toList else []) ++ "    ".toList)

def ignSize : List Char := " # for compatibility with mrcal < 2.5\n\n    ".toList

def ignOpt : List Char := '\n' :: '\n' :: (lines optComment ++ "    ".toList)

/-- the entries that are always there -/
def entries0 (o : Obj ℚ (List ℚ)) : List En :=
  [enStr "\n    ".toList "lensmodel".toList o.lensmodel, enNums (ignIntrinsics o.lensmodel) "intrinsics".toList o.intrinsics]

def entries1 (o : Obj ℚ (List ℚ)) : List En :=
  [enNums "\n\n    ".toList "rt_cam_ref".toList o.rt_cam_ref, enNums "\n    ".toList "extrinsics".toList o.rt_cam_ref, enSize ignSize o.imagersize.1 o.imagersize.2]

def entriesRegion : Option (List (ℚ × ℚ)) → List En
  | none => []
  | some r => [enRegion "\n\n    ".toList r]

/-- the optimization inputs: the encoded bytes, and the two camera indices -/
structure OptIn where
  s : List Char
  icamI : Int
  icamE : Option Int

def entriesOpt : Option OptIn → List En
  | none => []
  | some ⟨s, i, none⟩ => [enInt "\n\n    ".toList "icam_intrinsics".toList i, enBytes ignOpt "optimization_inputs".toList s]
  | some ⟨s, i, some e⟩ => [enInt "\n\n    ".toList "icam_intrinsics".toList i, enInt "\n    ".toList "icam_extrinsics".toList e, enBytes ignOpt "optimization_inputs".toList s]

def tailOf : Option OptIn → List Char
  | none => "\n\n\n".toList
  | some _ => "\n\n".toList

/-- the optimization inputs that an object has: none, or some together with icam_intrinsics. A copied object has its optimization inputs as text -/
def HasOpt (o : Obj ℚ (List ℚ)) : Option OptIn → Prop
  | none => o.opt = none ∧ o.icamI = none ∧ o.icamE = none
  | some i => (o.opt = some (.bytes i.s) ∨ o.opt = some (.str ('b' :: '\'' :: (i.s ++ ['\''])))) ∧ o.icamI = some i.icamI ∧ o.icamE = i.icamE

theorem hasOpt_text {o : Obj ℚ (List ℚ)} {i : OptIn} (h : HasOpt o (some i)) : ∃ s, o.opt = some s ∧ storedText s = 'b' :: '\'' :: (i.s ++ ['\'']) := by
  rcases h.1 with h | h
  · exact ⟨_, h, rfl⟩
  · exact ⟨_, h, rfl⟩

def noteText (note : List (List Char)) : List Char := lines (note.map fun l => "# ".toList ++ l)

theorem rows_eq (r : List (ℚ × ℚ)) (t : List Char) : '\n' :: ((r.flatMap fun p => "    [ ".toList ++ printG10 p.1 ++ ", ".toList ++ printG10 p.2 ++ " ],\n".toList) ++ t) =
    r.flatMap (fun p => rowText (printG10 p.1) (printG10 p.2) ++ [',']) ++ '\n' :: t := by
  induction r with
  | nil => rfl
  | cons p r ih =>
    simp only [List.flatMap_cons, List.append_assoc] at ih ⊢
    rw [← ih]
    unfold rowText
    simp only [List.append_assoc, List.cons_append, List.nil_append]
    rfl

set_option maxRecDepth 4096 in
theorem writeText_eq (note : List (List Char)) (o : Obj ℚ (List ℚ)) (i : Option OptIn) (hi : HasOpt o i) :
    writeText note o = noteText note ++ '{' :: ((entries0 o ++ (entriesRegion o.region ++ (entries1 o ++ entriesOpt i))).flatMap (fun e => e.text ++ [',']) ++ (tailOf i ++ '}' :: ['\n'])) := by
  unfold writeText
  show noteText note ++ _ = _
  congr 1
  simp only [List.flatMap_append]
  obtain ⟨z, name, intr, region, rt, opt, icamI, icamE⟩ := o
  -- the end
  have hend : ∀ (A : List Char), (ifThere icamI (fun i => "    'icam_intrinsics': ".toList ++ printInt i ++ ",\n".toList)
      ++ (ifThere icamE (fun i => "    'icam_extrinsics': ".toList ++ printInt i ++ ",\n".toList)
      ++ ("\n".toList
      ++ (ifThere opt (fun s => lines optComment ++ ("    'optimization_inputs': ".toList ++ storedText s ++ ",\n\n".toList))
      ++ "}\n".toList)))) = A → '\n' :: '\n' :: A = (entriesOpt i).flatMap (fun e => e.text ++ [',']) ++ (tailOf i ++ '}' :: ['\n']) := by
    rintro A rfl
    cases i with
    | none =>
      obtain ⟨h1, h2, h3⟩ := hi
      dsimp only at h1 h2 h3
      subst h1; subst h2; subst h3
      rfl
    | some i =>
      obtain ⟨s, hs1, hs2⟩ := hasOpt_text hi
      obtain ⟨-, h2, h3⟩ := hi
      dsimp only at hs1 h2 h3
      subst hs1; subst h2; subst h3
      obtain ⟨bs, iI, iE⟩ := i
      dsimp only [ifThere]
      rw [hs2]
      generalize hL : lines optComment = L
      cases iE with
      | none =>
        unfold entriesOpt tailOf enInt enBytes En.text ignOpt
        rw [hL]
        simp only [List.flatMap_cons, List.flatMap_nil, List.append_assoc, List.cons_append, List.nil_append, List.append_nil]
        rfl
      | some iE =>
        unfold entriesOpt tailOf enInt enBytes En.text ignOpt
        rw [hL]
        simp only [List.flatMap_cons, List.flatMap_nil, List.append_assoc, List.cons_append, List.nil_append, List.append_nil]
        rfl
  have hend := hend _ rfl
  dsimp only at hend ⊢
  have ass : ∀ a b c d e : List Char, (a ++ (b ++ (c ++ d))) ++ e = a ++ (b ++ (c ++ (d ++ e))) := by intros; simp
  rw [ass, ← hend]
  generalize (ifThere icamI (fun i => "    'icam_intrinsics': ".toList ++ printInt i ++ ",\n".toList)
      ++ (ifThere icamE (fun i => "    'icam_extrinsics': ".toList ++ printInt i ++ ",\n".toList)
      ++ ("\n".toList
      ++ (ifThere opt (fun s => lines optComment ++ ("    'optimization_inputs': ".toList ++ storedText s ++ ",\n\n".toList))
      ++ "}\n".toList)))) = A
  unfold entries0 entries1 ignIntrinsics ignSize
  dsimp only
  generalize (if hasCore name = true then "    # intrinsics are fx,fy,cx,cy,distortion0,distortion1,....\n".toList else []) = C
  cases region with
  | none =>
    dsimp only [ifThere]
    unfold entriesRegion enStr enNums enSize En.text toksText
    simp only [List.flatMap_cons, List.flatMap_nil, List.append_assoc, List.cons_append, List.nil_append, List.append_nil]
    rfl
  | some r =>
    dsimp only [ifThere]
    unfold entriesRegion enStr enNums enSize enRegion En.text toksText
    simp only [List.flatMap_cons, List.flatMap_nil, List.append_assoc, List.cons_append, List.nil_append, List.append_nil]
    have e := rows_eq r
    simp only [List.append_assoc] at e
    rw [← e]
    generalize r.flatMap _ = R
    rfl

/-! ### what we expect -/

/-- ASCII characters that are printed as they are in the repr() of strings and bytes. All the characters that base64.b85encode() uses are like this -/
def Printable (c : Char) : Prop := ' ' ≤ c ∧ c ≤ '~' ∧ c ≠ '\'' ∧ c ≠ '"' ∧ c ≠ '\\'

/-- an object that may be written and read: its data is complete and valid -/
structure PyWritable (note : List (List Char)) (o : Obj ℚ (List ℚ)) (i : Option OptIn) : Prop where
  /-- the intrinsics are those of a known lens -/
  count : numParams o.lensmodel = some o.intrinsics.length
  name : ∀ c ∈ o.lensmodel, Printable c
  /-- old names are translated when read -/
  name' : ¬ "DISTORTION".toList <:+: o.lensmodel
  size : 0 < o.imagersize.1 ∧ o.imagersize.1 < 2 ^ 31 ∧ 0 < o.imagersize.2 ∧ o.imagersize.2 < 2 ^ 31
  rt : o.rt_cam_ref.length = 6
  intrinsics : ∀ v ∈ o.intrinsics, Small v
  pose : ∀ v ∈ o.rt_cam_ref, Small v
  region : ∀ r, o.region = some r → ClosedRegion r ∧ ∀ p ∈ r, Small p.1 ∧ Small p.2
  opt : HasOpt o i
  optIn : ∀ j, i = some j → (∀ c ∈ j.s, Printable c) ∧ 0 ≤ j.icamI ∧ j.icamI < 2 ^ 31 ∧ ∀ e, j.icamE = some e → -2 ^ 31 ≤ e ∧ e < 2 ^ 31
  note : ∀ l ∈ note, ∀ c ∈ l, c ≠ '\n' ∧ c ≠ '\r' ∧ c ≠ '\x00'

/-- what comes back: everything is the same, but the numbers have 10 significant digits -/
structure PyReadBack (o o' : Obj ℚ (List ℚ)) (i : Option OptIn) : Prop where
  imagersize : o'.imagersize = o.imagersize
  lensmodel : o'.lensmodel = o.lensmodel
  intrinsics : List.Forall₂ Rounded10 o.intrinsics o'.intrinsics
  pose : List.Forall₂ Rounded10 o.rt_cam_ref o'.rt_cam_ref
  region : Option.Rel (List.Forall₂ fun p q => Rounded10 p.1 q.1 ∧ Rounded10 p.2 q.2) o.region o'.region
  opt : o'.opt = i.map fun j => .bytes j.s
  icamI : o'.icamI = o.icamI
  icamE : o'.icamE = o.icamE

/-! ### there are no 0 bytes -/

theorem printable_plain {s : List Char} (h : ∀ c ∈ s, Printable c) : Plain s := by
  intro c hc
  obtain ⟨h1, h2, h3, h4, h5⟩ := h c hc
  refine ⟨h3, h4, h5, ?_, ?_⟩ <;> rintro rfl <;> revert h1 <;> decide

theorem printable_ascii {s : List Char} (h : ∀ c ∈ s, Printable c) : ∀ c ∈ s, c.toNat < 128 := by
  intro c hc
  obtain ⟨-, h2, -⟩ := h c hc
  have : c.toNat ≤ '~'.toNat := h2
  exact lt_of_le_of_lt this (by decide)

theorem printable_nonul {s : List Char} (h : ∀ c ∈ s, Printable c) : NoNul s := by
  rintro c hc rfl
  have := (h _ hc).1
  revert this; decide

theorem nonul_cons {c : Char} {s : List Char} (hc : c ≠ '\x00') (hs : NoNul s) : NoNul (c :: s) := by
  intro d hd
  rcases List.mem_cons.1 hd with rfl | hd
  · exact hc
  · exact hs d hd

theorem nonul_digits {s : List Char} (h : Digits s) : NoNul s := by
  rintro c hc rfl
  exact absurd (h _ hc) (by decide)

theorem nonul_nil : NoNul [] := by intro c hc; simp at hc

theorem nonul_exp {x : Option (Bool × List Char)} {e : List Char} (h : ExpText x e) : NoNul e := by
  cases h with
  | none => exact nonul_nil
  | plain he hd _ => exact nonul_cons (by rcases he with rfl | rfl <;> decide) (nonul_digits hd)
  | plus he hd _ => exact nonul_cons (by rcases he with rfl | rfl <;> decide) (nonul_cons (by decide) (nonul_digits hd))
  | minus he hd _ => exact nonul_cons (by rcases he with rfl | rfl <;> decide) (nonul_cons (by decide) (nonul_digits hd))

theorem nonul_num {s : List Char} {v : ℚ} (h : NumTok s v) : NoNul s := by
  obtain ⟨⟨neg, int, frac, exp⟩, ⟨e, h1, h2, h3, rfl⟩, -⟩ := h
  dsimp only at h1 h2 h3 ⊢
  refine nonul_append (by cases neg <;> intro c hc <;> simp at hc; rw [hc]; decide) (nonul_append (nonul_digits h1) (nonul_append ?_ (nonul_exp h3)))
  cases frac with
  | none => exact nonul_nil
  | some f => exact nonul_cons (by decide) (nonul_digits (h2 f rfl))

theorem nonul_flatMap {α : Type} (l : List α) (f : α → List Char) (h : ∀ x ∈ l, NoNul (f x)) : NoNul (l.flatMap f) := by
  intro c hc
  obtain ⟨x, hx, hc⟩ := List.mem_flatMap.1 hc
  exact h x hx c hc

theorem nonul_numsText (l : List ℚ) (h : ∀ v ∈ l, Small v) : NoNul (numsText l) :=
  nonul_flatMap _ _ fun v hv => nonul_append (nonul_append (by unfold NoNul; decide) (nonul_num (printG10_numTok v (h v hv)))) (by unfold NoNul; decide)

theorem nonul_int (i : Int) : NoNul (printInt i) := by
  unfold printInt
  exact nonul_append (by split <;> unfold NoNul <;> decide) (nonul_digits (printNat_Digits _))

theorem nonul_write (note : List (List Char)) (o : Obj ℚ (List ℚ)) (i : Option OptIn) (h : PyWritable note o i) : NoNul (writeText note o) := by
  have lit : ∀ s : List Char, (s.all fun c => decide (c ≠ '\x00')) = true → NoNul s := by
    intro s hs c hc
    simpa using List.all_eq_true.1 hs c hc
  have hopt : NoNul (ifThere o.opt (fun s => lines optComment ++ ("    'optimization_inputs': ".toList ++ storedText s ++ ",\n\n".toList))) := by
    cases i with
    | none => rw [h.opt.1]; exact nonul_nil
    | some j =>
      obtain ⟨s, hs1, hs2⟩ := hasOpt_text h.opt
      rw [hs1]
      dsimp only [ifThere]
      rw [hs2]
      refine nonul_append (lit _ (by decide +kernel)) (nonul_append (nonul_append (lit _ (by decide +kernel)) ?_) (lit _ (by decide +kernel)))
      exact nonul_cons (by decide) (nonul_cons (by decide) (nonul_append (printable_nonul (h.optIn j rfl).1) (lit _ (by decide))))
  have hint : ∀ (x : Option Int) (s : List Char), NoNul s → NoNul (ifThere x (fun i => s ++ printInt i ++ ",\n".toList)) := by
    intro x s hs
    cases x with
    | none => exact nonul_nil
    | some i => exact nonul_append (nonul_append hs (nonul_int i)) (lit _ (by decide +kernel))
  have hreg : NoNul (ifThere o.region (fun r => "    'valid_intrinsics_region': [\n".toList
          ++ (r.flatMap fun p => "    [ ".toList ++ printG10 p.1 ++ ", ".toList ++ printG10 p.2 ++ " ],\n".toList) ++ "],\n\n".toList)) := by
    cases hr : o.region with
    | none => exact nonul_nil
    | some r =>
      refine nonul_append (nonul_append (lit _ (by decide +kernel)) (nonul_flatMap _ _ ?_)) (lit _ (by decide +kernel))
      intro p hp
      obtain ⟨h1, h2⟩ := (h.region r hr).2 p hp
      exact nonul_append (nonul_append (nonul_append (nonul_append (lit _ (by decide +kernel)) (nonul_num (printG10_numTok _ h1))) (lit _ (by decide +kernel)))
        (nonul_num (printG10_numTok _ h2))) (lit _ (by decide +kernel))
  have hnote : NoNul (lines (note.map fun l => "# ".toList ++ l)) := by
    unfold lines
    rw [List.flatMap_map]
    exact nonul_flatMap _ _ fun l hl => nonul_append (nonul_append (lit _ (by decide +kernel)) (fun c hc => (h.note l hl c hc).2.2)) (lit _ (by decide +kernel))
  have hcore : NoNul (if hasCore o.lensmodel then "    # intrinsics are fx,fy,cx,cy,distortion0,distortion1,....\n".toList else []) := by
    split
    · exact lit _ (by decide +kernel)
    · exact nonul_nil
  have h1 := hint o.icamI "    'icam_intrinsics': ".toList (lit _ (by decide +kernel))
  have h2 := hint o.icamE "    'icam_extrinsics': ".toList (lit _ (by decide +kernel))
  have h3 := nonul_numsText _ h.intrinsics
  have h4 := nonul_numsText _ h.pose
  have h5 := printable_nonul h.name
  have h6 := nonul_int o.imagersize.1
  have h7 := nonul_int o.imagersize.2
  unfold writeText
  repeat' first | assumption | apply nonul_append
  all_goals exact lit _ (by decide +kernel)

/-! ### comments and spaces -/

theorem pign_line {body s : List Char} (h : ∀ c ∈ body, c ≠ '\n' ∧ c ≠ '\r') (hs : PIgn s) : PIgn ('#' :: (body ++ '\n' :: s)) :=
  .comment (fun hc => (h _ hc).1 rfl) (fun hc => (h _ hc).2 rfl) hs

theorem pign_note (note : List (List Char)) (h : ∀ l ∈ note, ∀ c ∈ l, c ≠ '\n' ∧ c ≠ '\r' ∧ c ≠ '\x00') : Start (noteText note) := by
  have key : PIgn (noteText note) := by
    induction note with
    | nil => exact .nil
    | cons l note ih =>
      have ih := ih fun l hl => h l (List.mem_cons_of_mem _ hl)
      have := pign_line (body := ' ' :: l) (s := noteText note) (by
        intro c hc
        rcases List.mem_cons.1 hc with rfl | hc
        · constructor <;> decide
        · exact ⟨(h l List.mem_cons_self c hc).1, (h l List.mem_cons_self c hc).2.1⟩) ih
      have e : noteText (l :: note) = '#' :: ((' ' :: l) ++ '\n' :: noteText note) := by
        show "# ".toList ++ l ++ "\n".toList ++ noteText note = _
        simp only [List.append_assoc]
        rfl
      rw [e]
      exact this
  refine ⟨key, ?_, ?_⟩
  · rcases List.eq_nil_or_concat note with rfl | ⟨n, l, rfl⟩
    · left; rfl
    · right
      refine ⟨noteText n ++ ("# ".toList ++ l), ?_⟩
      unfold noteText lines
      rw [List.concat_eq_append, List.map_append, List.flatMap_append, List.append_assoc]
      simp only [List.map_cons, List.map_nil, List.flatMap_cons, List.flatMap_nil, List.append_nil]
      rfl
  · cases note with
    | nil => intro c hc; simp [noteText, lines] at hc
    | cons l note =>
      intro c hc
      have e : noteText (l :: note) = '#' :: ((' ' :: l) ++ '\n' :: noteText note) := by
        show "# ".toList ++ l ++ "\n".toList ++ noteText note = _
        simp only [List.append_assoc]
        rfl
      rw [e] at hc
      obtain rfl : '#' = c := by simpa using hc
      constructor <;> decide

/-- a line of a comment, after some spaces -/
theorem pign_comment (sp body s : List Char) (h : ∀ c ∈ body, c ≠ '\n' ∧ c ≠ '\r') (hsp : PIgn sp) (hs : PIgn s) : PIgn (sp ++ '#' :: body ++ '\n' :: s) := by
  rw [List.append_assoc, List.cons_append]
  exact pign_append hsp (pign_line h hs)

theorem pign_sp4' : PIgn [' ', ' ', ' ', ' '] := .ws (by simp) (.ws (by simp) pign_2)
theorem pign_sp4 : PIgn "    ".toList := pign_sp4'

/-- each of these lines is a comment, after 4 spaces -/
theorem pign_comments (l : List (List Char)) (h : ∀ s ∈ l, ∃ b, s = "    #".toList ++ b ∧ ∀ c ∈ b, c ≠ '\n' ∧ c ≠ '\r') (t : List Char) (ht : PIgn t) : PIgn (lines l ++ t) := by
  induction l with
  | nil => exact ht
  | cons s l ih =>
    obtain ⟨b, rfl, hb⟩ := h s List.mem_cons_self
    have := pign_comment "    ".toList b (lines l ++ t) hb pign_sp4 (ih fun x hx => h x (List.mem_cons_of_mem _ hx))
    have e : lines (("    #".toList ++ b) :: l) ++ t = "    ".toList ++ '#' :: b ++ '\n' :: (lines l ++ t) := by
      show ("    #".toList ++ b ++ "\n".toList ++ lines l) ++ t = _
      simp only [List.append_assoc]
      rfl
    rw [e]
    exact this

theorem isPref_comment (s : List Char) (h : ("    #".toList.isPrefixOf s && (s.drop 5).all fun c => decide (c ≠ '\n' ∧ c ≠ '\r')) = true) :
    ∃ b, s = "    #".toList ++ b ∧ ∀ c ∈ b, c ≠ '\n' ∧ c ≠ '\r' := by
  rw [Bool.and_eq_true] at h
  obtain ⟨b, hb⟩ := List.isPrefixOf_iff_prefix.1 h.1
  refine ⟨b, hb.symm, ?_⟩
  have h2 := h.2
  rw [← hb, List.drop_left' (by decide)] at h2
  intro c hc
  simpa using List.all_eq_true.1 h2 c hc

theorem pign_ignOpt : PIgn ignOpt := by
  refine .ws (by simp) (.ws (by simp) (pign_comments _ ?_ _ pign_sp4))
  have : (optComment.all fun s => "    #".toList.isPrefixOf s && (s.drop 5).all fun c => decide (c ≠ '\n' ∧ c ≠ '\r')) = true := by decide +kernel
  intro s hs
  exact isPref_comment s (List.all_eq_true.1 this s hs)

theorem pign_intrinsics (name : List Char) : PIgn (ignIntrinsics name) := by
  refine .ws (by simp) (.ws (by simp) ?_)
  split
  · have := pign_comments ["    # intrinsics are fx,fy,cx,cy,distortion0,distortion1,....".toList] (by
      intro s hs
      rw [List.mem_singleton.1 hs]
      exact isPref_comment _ (by decide +kernel)) "    ".toList pign_sp4
    exact this
  · exact pign_sp4

theorem pign_size : PIgn ignSize := by
  have : PIgn ([' '] ++ '#' :: " for compatibility with mrcal < 2.5".toList ++ '\n' :: '\n' :: "    ".toList) :=
    pign_comment _ _ _ (by
      intro c hc
      have h : (" for compatibility with mrcal < 2.5".toList.all fun c => decide (c ≠ '\n' ∧ c ≠ '\r')) = true := by decide +kernel
      simpa using List.all_eq_true.1 h c hc) pign_1 (.ws (by simp) pign_sp4)
  exact this

theorem pign_nl4' : PIgn ['\n', ' ', ' ', ' ', ' '] := .ws (by simp) pign_sp4'
theorem pign_nl4 : PIgn "\n    ".toList := pign_nl4'
theorem pign_nlnl4' : PIgn ['\n', '\n', ' ', ' ', ' ', ' '] := .ws (by simp) pign_nl4'
theorem pign_nlnl4 : PIgn "\n\n    ".toList := pign_nlnl4'

end Mrcal.ModelPy

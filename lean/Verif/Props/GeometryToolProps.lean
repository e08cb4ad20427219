import Verif.Model.GeometryTool
import Verif.Props.ShowResidualsProps
import Verif.Props.QuaternionProps
/-
C132: the command line of mrcal-show-geometry: the file with transforms, and the list of cameras.
-/
namespace Mrcal.GeometryTool
open Mrcal Mrcal.Quaternion

/-! ### the file with transforms -/

/-- the poses that the file has for the vehicle -/
def vehs (ls : List Line) : List Rt := ls.filterMap fun l => match l with | .ins2veh p q => some (pose p q) | _ => none

/-- the poses that the file has for a camera -/
def cams (n : Nat) (ls : List Line) : List Rt := ls.filterMap fun l => match l with | .cam2ins i p q => if i = n then some (pose p q) else none | _ => none

theorem fold_iff (ls : List Line) : ∀ (x y : Transforms), ls.foldlM step x = some y ↔
    Line.other ∉ ls ∧ x.veh_from_ins.toList ++ vehs ls = y.veh_from_ins.toList ∧ ∀ n, (x.ins_from_camera n).toList ++ cams n ls = (y.ins_from_camera n).toList := by
  have toL : ∀ a b : Option Rt, a.toList = b.toList ↔ a = b := by
    intro a b; cases a <;> cases b <;> simp
  induction ls with
  | nil =>
    intro x y
    simp only [List.foldlM_nil, vehs, cams, List.filterMap_nil, List.append_nil, List.not_mem_nil, not_false_eq_true, true_and, toL]
    constructor
    · intro h
      have : x = y := by simpa using h
      subst this
      exact ⟨rfl, fun _ => rfl⟩
    · rintro ⟨h1, h2⟩
      obtain ⟨a, b⟩ := x
      obtain ⟨c, d⟩ := y
      simp only at h1 h2
      rw [h1, funext h2]; rfl
  | cons l ls ih =>
    intro x y
    rw [List.foldlM_cons]
    cases l with
    | blank =>
      show (some x).bind _ = _ ↔ _
      rw [Option.bind_some, ih]
      simp [vehs, cams]
    | other =>
      show (none : Option Transforms).bind _ = _ ↔ _
      simp
    | ins2veh p q =>
      obtain ⟨a, b⟩ := x
      cases a with
      | some r =>
        show (none : Option Transforms).bind _ = _ ↔ _
        simp only [Option.bind_none, reduceCtorEq, false_iff]
        rintro ⟨-, h, -⟩
        have := congrArg List.length h
        cases hy : y.veh_from_ins <;> simp [vehs, hy] at this
      | none =>
        show (some _).bind _ = _ ↔ _
        rw [Option.bind_some, ih]
        simp [vehs, cams]
    | cam2ins i p q =>
      obtain ⟨a, b⟩ := x
      by_cases hb : (b i).isSome = true
      · have : step ⟨a, b⟩ (.cam2ins i p q) = none := by simp only [step]; rw [if_pos hb]
        rw [this]
        show (none : Option Transforms).bind _ = _ ↔ _
        simp only [Option.bind_none, reduceCtorEq, false_iff]
        rintro ⟨-, -, h⟩
        have := congrArg List.length (h i)
        obtain ⟨r, hr⟩ := Option.isSome_iff_exists.1 hb
        cases hy : y.ins_from_camera i <;> simp [cams, hy, hr] at this
      · have : step ⟨a, b⟩ (.cam2ins i p q) = some ⟨a, fun n => if n = i then some (pose p q) else b n⟩ := by simp only [step]; rw [if_neg hb]
        rw [this]
        show (some _).bind _ = _ ↔ _
        rw [Option.bind_some, ih]
        have hn : b i = none := by simpa using hb
        have hv : vehs (.cam2ins i p q :: ls) = vehs ls := by simp [vehs]
        rw [hv]
        have hc : ∀ n, (Option.toList (if n = i then some (pose p q) else b n)) ++ cams n ls = (b n).toList ++ cams n (.cam2ins i p q :: ls) := by
          intro n
          by_cases e : n = i
          · subst e; simp [cams, hn]
          · have e' : ¬ i = n := fun h => e h.symm
            simp [cams, e, e']
        simp only [hc, List.mem_cons, reduceCtorEq, false_or]

/-- C132: what is read: each line has to be a comment or one of the two kinds; there has to be exactly one ins2veh, which is veh_from_ins; and at most one cam2ins for each camera, which is its ins_from_camera -/
theorem read_iff (ls : List Line) (x : Transforms) : readTransforms ls = some x ↔
    Line.other ∉ ls ∧ (∃ T, vehs ls = [T] ∧ x.veh_from_ins = some T) ∧ ∀ n, (cams n ls = [] ∧ x.ins_from_camera n = none) ∨ ∃ T, cams n ls = [T] ∧ x.ins_from_camera n = some T := by
  unfold readTransforms
  rw [Option.bind_eq_some_iff]
  constructor
  · rintro ⟨y, hy, h⟩
    rw [Option.ite_none_left_eq_some] at h
    obtain ⟨h1, h2⟩ := h
    cases h2
    obtain ⟨a, b, c⟩ := (fold_iff _ _ _).1 hy
    refine ⟨a, ?_, fun n => ?_⟩
    · obtain ⟨T, hT⟩ := Option.ne_none_iff_exists'.1 (by simpa using h1)
      refine ⟨T, ?_, hT⟩
      simpa [hT] using b
    · have := c n
      cases hn : x.ins_from_camera n with
      | none => left; exact ⟨by simpa [hn] using this, rfl⟩
      | some T => right; exact ⟨T, by simpa [hn] using this, rfl⟩
  · rintro ⟨a, ⟨T, hT, hx⟩, c⟩
    refine ⟨x, (fold_iff _ _ _).2 ⟨a, by simp [hT, hx], fun n => ?_⟩, by simp [hx]⟩
    rcases c n with ⟨h, h'⟩ | ⟨T', h, h'⟩ <;> simp [h, h']

/-- C132: the order of the lines doesn't matter -/
theorem order_free (ls ls' : List Line) (h : ls.Perm ls') : readTransforms ls = readTransforms ls' := by
  have aux : ∀ {a b : List Line}, a.Perm b → ∀ x, readTransforms a = some x → readTransforms b = some x := by
    intro a b hp x hx
    obtain ⟨h1, ⟨T, hT, hv⟩, h3⟩ := (read_iff _ _).1 hx
    refine (read_iff _ _).2 ⟨fun hm => h1 (hp.mem_iff.2 hm), ⟨T, ?_, hv⟩, fun n => ?_⟩
    · have : (vehs a).Perm (vehs b) := hp.filterMap _
      rw [hT] at this
      exact List.perm_singleton.1 this.symm
    · have : (cams n a).Perm (cams n b) := hp.filterMap _
      rcases h3 n with ⟨e, e'⟩ | ⟨T', e, e'⟩
      · left
        rw [e] at this
        exact ⟨List.nil_perm.1 this, e'⟩
      · right
        rw [e] at this
        exact ⟨T', List.perm_singleton.1 this.symm, e'⟩
  cases hx : readTransforms ls with
  | some x => exact (aux h x hx).symm
  | none =>
    cases hy : readTransforms ls' with
    | none => rfl
    | some y => rw [aux h.symm y hy] at hx; cases hx

/-- C132: a line means a rotation by the quaternion (the real part is first), if that has unit length, and then a shift: the point v becomes q v q* + pos -/
theorem pose_meaning (p : P3) (q : ℝ × ℝ × ℝ × ℝ) (h : q.1 ^ 2 + q.2.1 ^ 2 + q.2.2.1 ^ 2 + q.2.2.2 ^ 2 = 1) (v : P3) :
    pureH (Pose.transformPointRt (pose p q) v false) = toH ⟨q.1, q.2.1, q.2.2.1, q.2.2.2⟩ * pureH v * star (toH ⟨q.1, q.2.1, q.2.2.1, q.2.2.2⟩) + pureH p := by
  have := R_from_quat_meaning ⟨q.1, q.2.1, q.2.2.1, q.2.2.2⟩ (by unfold norm2; simpa using h) v
  rw [← this]
  ext <;> simp [pose, Rt_from_qt, Pose.transformPointRt, Pose.addP]

example : ((1 / 2 : ℝ), (1 / 2 : ℝ), (-1 / 2 : ℝ), (1 / 2 : ℝ)).1 ^ 2 + (1 / 2 : ℝ) ^ 2 + (-1 / 2 : ℝ) ^ 2 + (1 / 2 : ℝ) ^ 2 = 1 := by norm_num

/-- a file -/
def file0 : List Line := [.blank, .cam2ins 3 ⟨1, 2, 3⟩ (1, 0, 0, 0), .ins2veh ⟨0, 0, 1⟩ (0, 1, 0, 0), .cam2ins 4 ⟨1, 0, 0⟩ (0, 0, 1, 0)]

theorem file0_read : ∃ x, readTransforms file0 = some x := ⟨_, rfl⟩
example : ∃ x, readTransforms file0 = some x ∧ (x.ins_from_camera 4).isSome ∧ x.ins_from_camera 5 = none := ⟨_, rfl, rfl, rfl⟩

/-- C132, negation: a file without the transform of any camera is incomplete, and that's meant to be an exception. It isn't -/
theorem incomplete_wrong (p : P3) (q : ℝ × ℝ × ℝ × ℝ) : ∃ x, readTransforms [.ins2veh p q] = some x ∧ ∀ n, x.ins_from_camera n = none := ⟨_, rfl, fun _ => rfl⟩

/-! ### which transforms are used -/

/-- C132: the camera is the first number in the name of the file that comes after "camera" -/
theorem pair_meaning (pre post : List Char) (n : Nat) (hpre : ∀ k < pre.length, ¬ ['c', 'a', 'm', 'e', 'r', 'a'].isPrefixOf ((pre ++ (['c', 'a', 'm', 'e', 'r', 'a'] ++ (Name.printNat n ++ post))).drop k))
    (hpost : ∀ c l, post = c :: l → Name.isDigit c = false) : pairOf (pre ++ (['c', 'a', 'm', 'e', 'r', 'a'] ++ (Name.printNat n ++ post))) = some n := by
  induction pre with
  | nil =>
    have ht : (Name.printNat n ++ post).takeWhile Name.isDigit = Name.printNat n := by
      rw [List.takeWhile_append_of_pos (Name.printNat_digits n)]
      cases post with
      | nil => simp
      | cons c l => simp [hpost c l rfl]
    show (if _ then _ else _) = _
    rw [if_pos]
    · show some (Name.decVal ((Name.printNat n ++ post).takeWhile Name.isDigit)) = _
      rw [ht, Name.decVal_printNat]
    · rw [Bool.and_eq_true]
      refine ⟨by simp [List.isPrefixOf], ?_⟩
      rw [decide_eq_true_eq]
      show (Name.printNat n ++ post).takeWhile Name.isDigit ≠ []
      rw [ht]
      exact Name.printNat_ne_nil n
  | cons c pre ih =>
    rw [List.cons_append, pairOf, if_neg]
    · apply ih
      intro k hk
      exact hpre (k + 1) (by simpa using hk)
    · have := hpre 0 (by simp)
      rw [List.drop_zero] at this
      rw [Bool.and_eq_true]
      exact fun h => this h.1

example : pairOf "/a/camera12-0.cahvor".toList = some 12 ∧ pairOf "/camera/camera-x.cahvor".toList = none := by decide +kernel

/-- C132: each camera is plotted with the transform of its number; and only if all of them have one -/
theorem refs_partial (x : Transforms) (files : List (List Char)) :
    (∀ l, accepted (plotRefs x files) = some l → l.length = files.length ∧ ∀ (i : Nat) (f : List Char), files[i]? = some f → ∃ n T, pairOf f = some n ∧ x.ins_from_camera n = some T ∧ l[i]? = some T) ∧
    (accepted (plotRefs x files) = none ↔ ∃ f ∈ files, ∀ n, pairOf f = some n → x.ins_from_camera n = none) := by
  induction files with
  | nil =>
    constructor
    · intro l hl
      have : l = [] := by simpa [accepted, plotRefs] using hl.symm
      subst this; simp
    · simp [accepted, plotRefs]
  | cons f files ih =>
    have hc : accepted (plotRefs x (f :: files)) = ((pairOf f).bind x.ins_from_camera).bind fun T => (accepted (plotRefs x files)).map fun l => T :: l := by
      simp only [accepted, plotRefs, List.map_cons, List.mapM_cons]
      cases (pairOf f).bind x.ins_from_camera with
      | none => rfl
      | some T =>
        cases List.mapM id (files.map fun f => (pairOf f).bind x.ins_from_camera) <;> rfl
    rw [hc]
    constructor
    · intro l hl
      obtain ⟨T, hT, h⟩ := Option.bind_eq_some_iff.1 hl
      obtain ⟨l', hl', rfl⟩ := Option.map_eq_some_iff.1 h
      obtain ⟨h1, h2⟩ := ih.1 l' hl'
      refine ⟨by simp [h1], fun i g hg => ?_⟩
      cases i with
      | zero =>
        simp only [List.getElem?_cons_zero, Option.some.injEq] at hg
        subst hg
        obtain ⟨n, hn, hx⟩ := Option.bind_eq_some_iff.1 hT
        exact ⟨n, T, hn, hx, rfl⟩
      | succ i => exact h2 i g hg
    · have h0 : (pairOf f).bind x.ins_from_camera = none ↔ ∀ n, pairOf f = some n → x.ins_from_camera n = none := by
        cases pairOf f <;> simp
      simp only [List.mem_cons, exists_eq_or_imp]
      rw [← h0, ← ih.2]
      cases (pairOf f).bind x.ins_from_camera <;> simp

/-- C132, negation: a camera without a transform is meant to be plotted without one (the tool catches the exception and passes None). Then nothing is plotted -/
theorem missing_wrong : ∃ x files, readTransforms file0 = some x ∧ (accepted (plotRefs x files) = none) ∧ plotRefs x files = [x.ins_from_camera 3, none] ∧ (x.ins_from_camera 3).isSome := by
  obtain ⟨x, hx⟩ := file0_read
  refine ⟨x, ["camera3.cahvor".toList, "camera5.cahvor".toList], hx, ?_, ?_, ?_⟩
  · rw [(refs_partial _ _).2]
    refine ⟨"camera5.cahvor".toList, by simp, fun n hn => ?_⟩
    have : pairOf "camera5.cahvor".toList = some 5 := by decide +kernel
    rw [this] at hn
    cases hn
    unfold file0 at hx
    cases hx; rfl
  · have h3 : pairOf "camera3.cahvor".toList = some 3 := by decide +kernel
    have h5 : pairOf "camera5.cahvor".toList = some 5 := by decide +kernel
    unfold plotRefs
    rw [List.map_cons, List.map_cons, h3, h5]
    cases hx; rfl
  · cases hx; rfl

/-! ### the cameras of a solve -/

/-- an item of the list: a number or a range -/
inductive Tok where
  | one (n : Int)
  | range (a : Int) (b : Nat)

/-- how an integer is written -/
def printInt : Int → List Char
  | .ofNat n => Name.printNat n
  | .negSucc n => '-' :: Name.printNat (n + 1)

def Tok.text : Tok → List Char
  | .one n => printInt n
  | .range a b => printInt a ++ '-' :: Name.printNat b

/-- which cameras it means -/
def Tok.means (i : Int) : Tok → Prop
  | .one n => i = n
  | .range a b => a ≤ i ∧ i ≤ b

theorem no_dash' (n : Nat) : '-' ∉ Name.printNat n := ShowResiduals.no_dash (Name.printNat_digits n)

theorem pyInt_print (n : Int) : Reproject.pyInt (printInt n) = some n := by
  cases n with
  | ofNat n =>
    show Reproject.pyInt (Name.printNat n) = _
    rw [ShowResiduals.pyInt_digits (Name.printNat_ne_nil n) (Name.printNat_digits n), Name.decVal_printNat]; rfl
  | negSucc n =>
    show (if _ then _ else _) = _
    rw [if_pos ⟨Name.printNat_ne_nil _, List.all_eq_true.2 (Name.printNat_digits _)⟩, Name.decVal_printNat]; rfl

theorem dash_range (a : Int) (b : Nat) : Reproject.pyInt (printInt a ++ '-' :: Name.printNat b) = none ∧ dashRange (printInt a ++ '-' :: Name.printNat b) = some (a, (b : Int)) := by
  cases a with
  | ofNat n =>
    show Reproject.pyInt (Name.printNat n ++ _) = _ ∧ dashRange (Name.printNat n ++ _) = _
    refine ⟨ShowResiduals.pyInt_dash (Name.printNat_ne_nil n) (Name.printNat_digits n), ?_⟩
    have hs := ShowResiduals.splitDash_app (Name.printNat n) (Name.printNat b) (no_dash' n)
    unfold dashRange
    split
    · rename_i l e
      exfalso
      obtain ⟨c, t, hc⟩ := List.exists_cons_of_ne_nil (Name.printNat_ne_nil n)
      rw [hc, List.cons_append] at e
      injection e with e1 _
      exact no_dash' n (by rw [hc, e1]; simp)
    · rw [hs]
      simp [ShowResiduals.number_print]
  | negSucc n =>
    have hs := ShowResiduals.splitDash_app (Name.printNat (n + 1)) (Name.printNat b) (no_dash' _)
    constructor
    · show (if _ then _ else _) = _
      rw [if_neg]
      rintro ⟨_, h⟩
      have := List.all_eq_true.1 h '-' (by simp)
      revert this; decide
    · show (ShowResiduals.splitDash (Name.printNat (n + 1) ++ '-' :: Name.printNat b)).bind _ = _
      rw [hs]
      simp [ShowResiduals.number_print]
      omega

/-- C132: an item gives the cameras that it means, each one once, in ascending order. Negative numbers work, also at the start of a range -/
theorem item_meaning (t : Tok) : ∃ l, item t.text = some l ∧ l.Pairwise (· < ·) ∧ ∀ i, i ∈ l ↔ t.means i := by
  cases t with
  | one n => exact ⟨[n], by simp [item, Tok.text, pyInt_print], by simp, fun i => by simp [Tok.means]⟩
  | range a b =>
    refine ⟨rangeInt a b, ?_, ?_, fun i => ?_⟩
    · simp [item, Tok.text, (dash_range a b).1, (dash_range a b).2]
    · unfold rangeInt
      rw [List.pairwise_map]
      exact List.pairwise_lt_range.imp fun h => by omega
    · simp only [rangeInt, List.mem_map, List.mem_range, Tok.means]
      constructor
      · rintro ⟨k, hk, rfl⟩; omega
      · rintro ⟨h1, h2⟩
        exact ⟨(i - a).toNat, by omega, by omega⟩

/-- with commas between them -/
def join : List (List Char) → List Char
  | [] => []
  | [t] => t
  | t :: ts => t ++ ',' :: join ts

theorem split_join : ∀ ts : List (List Char), ts ≠ [] → (∀ t ∈ ts, ',' ∉ t) → Reproject.splitComma (join ts) = ts := by
  have one : ∀ t : List Char, ',' ∉ t → Reproject.splitComma t = [t] := by
    intro t
    induction t with
    | nil => intro _; rfl
    | cons c t ih =>
      intro h
      have hc : c ≠ ',' := fun e => h (by simp [e])
      rw [Reproject.splitComma, if_neg hc, ih (fun hm => h (by simp [hm]))]
  have two : ∀ (t u : List Char), ',' ∉ t → Reproject.splitComma (t ++ ',' :: u) = t :: Reproject.splitComma u := by
    intro t u
    induction t with
    | nil => intro _; simp [Reproject.splitComma]
    | cons c t ih =>
      intro h
      have hc : c ≠ ',' := fun e => h (by simp [e])
      rw [List.cons_append, Reproject.splitComma, if_neg hc, ih (fun hm => h (by simp [hm]))]
  intro ts
  induction ts with
  | nil => intro h; exact absurd rfl h
  | cons t ts ih =>
    intro _ h
    cases ts with
    | nil => exact one t (h t (by simp))
    | cons u us =>
      show Reproject.splitComma (t ++ ',' :: join (u :: us)) = _
      rw [two t _ (h t (by simp)), ih (by simp) fun v hv => h v (by simp [hv])]

theorem text_chars (t : Tok) : ∀ c ∈ t.text, Name.isDigit c = true ∨ c = '-' := by
  have hp : ∀ a : Int, ∀ c ∈ printInt a, Name.isDigit c = true ∨ c = '-' := by
    intro a c hc
    cases a with
    | ofNat n => exact Or.inl (Name.printNat_digits n c hc)
    | negSucc n =>
      rcases List.mem_cons.1 hc with h | h
      · exact Or.inr h
      · exact Or.inl (Name.printNat_digits _ c h)
  intro c hc
  cases t with
  | one n => exact hp n c hc
  | range a b =>
    rcases List.mem_append.1 hc with h | h
    · exact hp a c h
    · rcases List.mem_cons.1 h with h | h
      · exact Or.inr h
      · exact Or.inl (Name.printNat_digits b c h)

/-- C132: --icam-extrinsics-from-solve: "all", or the cameras of all the items, in their order -/
theorem icams_meaning (ts : List Tok) (h : ts ≠ []) (n : Nat) (hn : n ≤ 1) : icams "all".toList n = some .all ∧
    ∃ ls, List.Forall₂ (fun t l => List.Pairwise (· < ·) l ∧ ∀ i, i ∈ l ↔ t.means i) ts ls ∧ icams (join (ts.map Tok.text)) n = some (.list ls.flatten) := by
  have hnn : ¬ n > 1 := by omega
  constructor
  · simp [icams, hnn]
  have key : ∀ ts : List Tok, ∃ ls, List.Forall₂ (fun t l => List.Pairwise (· < ·) l ∧ ∀ i, i ∈ l ↔ t.means i) ts ls ∧ (ts.map Tok.text).mapM item = some ls := by
    intro ts
    induction ts with
    | nil => exact ⟨[], .nil, by simp⟩
    | cons t ts ih =>
      obtain ⟨ls, h1, h2⟩ := ih
      obtain ⟨l, e, hl⟩ := item_meaning t
      exact ⟨l :: ls, .cons hl h1, by simp [e, h2]⟩
  obtain ⟨ls, h1, h2⟩ := key ts
  refine ⟨ls, h1, ?_⟩
  unfold icams
  rw [if_neg hnn, if_neg]
  · rw [split_join _ (by simpa using h), h2]
    · rfl
    · intro t ht hc
      obtain ⟨u, _, rfl⟩ := List.mem_map.1 ht
      rcases text_chars u _ hc with h | h
      · revert h; decide
      · revert h; decide
  · have hj : ∀ ts : List Tok, ∀ c ∈ join (ts.map Tok.text), Name.isDigit c = true ∨ c = '-' ∨ c = ',' := by
      intro ts
      induction ts with
      | nil => intro c hc; simp [join] at hc
      | cons t ts ih =>
        intro c hc
        cases ts with
        | nil =>
          rcases text_chars t c hc with h | h
          · exact Or.inl h
          · exact Or.inr (Or.inl h)
        | cons u us =>
          have hc : c ∈ t.text ++ ',' :: join ((u :: us).map Tok.text) := hc
          rcases List.mem_append.1 hc with h | h
          · rcases text_chars t c h with h | h
            · exact Or.inl h
            · exact Or.inr (Or.inl h)
          · rcases List.mem_cons.1 h with h | h
            · exact Or.inr (Or.inr h)
            · exact ih c h
    intro e
    have := hj ts 'a' (by rw [e]; simp)
    revert this; decide

example : icams "-1,4-6,2,-1-1".toList 1 = some (.list [-1, 4, 5, 6, 2, -1, 0, 1]) := by rfl

/-- C132: several models, or an item that's neither a number nor a range, are errors -/
theorem icams_refused (s : List Char) (n : Nat) : icams s n = none ↔ 1 < n ∨ (s ≠ ['a', 'l', 'l'] ∧ ∃ t ∈ Reproject.splitComma s, item t = none) := by
  unfold icams
  by_cases hn : n > 1
  · rw [if_pos hn]; simp [hn]
  rw [if_neg hn]
  by_cases hs : s = ['a', 'l', 'l']
  · rw [if_pos hs]; simp [hs]; omega
  rw [if_neg hs]
  have : ∀ l : List (List Char), l.mapM item = none ↔ ∃ t ∈ l, item t = none := by
    intro l
    induction l with
    | nil => simp
    | cons a l ih =>
      rw [List.mapM_cons]
      cases ha : item a with
      | none => simp [ha]
      | some b =>
        simp only [List.mem_cons, exists_eq_or_imp, ha, reduceCtorEq, false_or]
        rw [← ih]
        cases List.mapM item l <;> simp
  simp only [Option.map_eq_none_iff, this]
  simp [hs]; omega

example : icams "1,x".toList 1 = none := by rfl

/-- C132: a range whose ends are swapped isn't an error: it's no cameras -/
theorem swapped_wrong : icams "6-4".toList 1 = some (.list []) := by rfl

end Mrcal.GeometryTool

import Verif.Model.ModelFile
import Verif.Props.LensNameProps
import Mathlib.Algebra.Order.Group.Abs
/-
C39: the text of a .cameramodel file: its grammar, and what the pieces of the parser do with it.
-/
namespace Mrcal.ModelFile
open Mrcal.Name

/-! ### the grammar -/

/-- whitespace and comments. A comment ends with a newline -/
inductive Ign : List Char → Prop
  | nil : Ign []
  | ws {c : Char} {s : List Char} (hc : c = ' ' ∨ c = '\t' ∨ c = '\n' ∨ c = '\r') (h : Ign s) : Ign (c :: s)
  | comment {body s : List Char} (hb : '\n' ∉ body) (h : Ign s) : Ign ('#' :: (body ++ '\n' :: s))

def Digits (s : List Char) : Prop := ∀ c ∈ s, '0' ≤ c ∧ c ≤ '9'

/-- the exponent of a number: nothing, or "e" or "E", a sign, digits -/
inductive ExpText : Option (Bool × List Char) → List Char → Prop
  | none : ExpText none []
  | plain {e : Char} {ds : List Char} (he : e = 'e' ∨ e = 'E') (hd : Digits ds) (hne : ds ≠ []) : ExpText (some (false, ds)) (e :: ds)
  | plus {e : Char} {ds : List Char} (he : e = 'e' ∨ e = 'E') (hd : Digits ds) (hne : ds ≠ []) : ExpText (some (false, ds)) (e :: '+' :: ds)
  | minus {e : Char} {ds : List Char} (he : e = 'e' ∨ e = 'E') (hd : Digits ds) (hne : ds ≠ []) : ExpText (some (true, ds)) (e :: '-' :: ds)

/-- the decimal point and what follows it -/
def fracText : Option (List Char) → List Char
  | none => []
  | some f => '.' :: f

/-- text made of the pieces of a number, each of which may be missing: a minus sign, digits, a decimal point and more digits, an exponent -/
def NumText (t : FloatTok) (s : List Char) : Prop :=
  ∃ e, Digits t.int ∧ (∀ f, t.frac = some f → Digits f) ∧ ExpText t.exp e ∧
    s = (if t.neg then ['-'] else []) ++ (t.int ++ (fracText t.frac ++ e))

/-- the value of the exponent -/
def expVal : Option (Bool × List Char) → Int
  | none => 0
  | some (false, ds) => decVal ds
  | some (true, ds) => -(decVal ds : Int)

/-- the text of a finite number, and its value -/
def Number (s : List Char) (v : ℚ) : Prop :=
  ∃ t : FloatTok, NumText t s ∧ (t.int ≠ [] ∨ ∃ f, t.frac = some f ∧ f ≠ []) ∧
    v = (if t.neg then -1 else 1) * (decVal (t.int ++ t.frac.getD []) : ℚ) * (10 : ℚ) ^ (expVal t.exp - (t.frac.getD []).length) ∧
    |v| < 2 ^ 1024 - 2 ^ 970

/-- the text of an unsigned integer without superfluous zeros, and the value that's read: this is held in a 32-bit signed integer, so larger values wrap -/
def UintText (s : List Char) (n : Nat) : Prop :=
  Digits s ∧ s ≠ [] ∧ (s.head? = some '0' → s = ['0']) ∧ n < 2 ^ 31 ∧ n % 2 ^ 32 = min (decVal s) (2 ^ 63 - 1) % 2 ^ 32

/-- comma-separated values. There may be a comma after the last one -/
inductive ItemsText {α : Type} (P : List Char → α → Prop) : List α → List Char → Prop
  | last {a tok b : List Char} {v : α} (ha : Ign a) (hp : P tok v) (hb : Ign b) : ItemsText P [v] (a ++ (tok ++ b))
  | lastComma {a tok b : List Char} {v : α} (ha : Ign a) (hp : P tok v) (hb : Ign b) : ItemsText P [v] (a ++ (tok ++ (b ++ [','])))
  | cons {a tok b rest : List Char} {v : α} {vs : List α} (ha : Ign a) (hp : P tok v) (hb : Ign b) (hr : ItemsText P vs rest) :
      ItemsText P (v :: vs) (a ++ (tok ++ (b ++ ',' :: rest)))

/-- a list: values in brackets or parentheses. The two sorts may be mixed -/
def ListText {α : Type} (P : List Char → α → Prop) (vs : List α) (s : List Char) : Prop :=
  ∃ a o items b c, Ign a ∧ (o = '[' ∨ o = '(') ∧ ItemsText P vs items ∧ Ign b ∧ (c = ']' ∨ c = ')') ∧ s = a ++ o :: (items ++ (b ++ [c]))

/-- a string in quotes, maybe with a "b" in front. Any sort of quote may close it -/
def StringText (body s : List Char) : Prop :=
  ∃ a pre q q', Ign a ∧ (pre = [] ∨ pre = ['b']) ∧ (q = '"' ∨ q = '\'') ∧ (q' = '"' ∨ q' = '\'') ∧ '"' ∉ body ∧ '\'' ∉ body ∧
    s = a ++ (pre ++ q :: (body ++ [q']))

/-- what may appear between the brackets of a list that isn't interpreted -/
inductive Filler : List Char → Prop
  | nil : Filler []
  | junk {c : Char} {s : List Char} (hc : ('0' ≤ c ∧ c ≤ '9') ∨ c = 'e' ∨ c = 'E' ∨ c = '.' ∨ c = ',' ∨ c = '-') (h : Filler s) : Filler (c :: s)
  | ws {c : Char} {s : List Char} (hc : c = ' ' ∨ c = '\t' ∨ c = '\n' ∨ c = '\r') (h : Filler s) : Filler (c :: s)
  | comment {body s : List Char} (hb : '\n' ∉ body) (h : Filler s) : Filler ('#' :: (body ++ '\n' :: s))

/-- `Nest d s`: text `s` that follows `d` open brackets, and ends with the one that closes the last open bracket -/
inductive Nest : Nat → List Char → Prop
  | opens {d : Nat} {f s : List Char} {c : Char} (hf : Filler f) (hc : c = '[' ∨ c = '(') (h : Nest (d + 1) s) : Nest d (f ++ c :: s)
  | closes {d : Nat} {f s : List Char} {c : Char} (hf : Filler f) (hc : c = ']' ∨ c = ')') (h : Nest (d + 1) s) : Nest (d + 2) (f ++ c :: s)
  | last {f : List Char} {c : Char} (hf : Filler f) (hc : c = ']' ∨ c = ')') : Nest 1 (f ++ [c])

/-- values that aren't interpreted: numbers, strings and nested lists of numbers. This isn't strict: any text made of the pieces of a number will do, except "."; so does anything that
may appear inside a list, before the list -/
inductive OtherText : List Char → Prop
  | num {a tok : List Char} {t : FloatTok} (ha : Ign a) (h : NumText t tok) (h0 : tok ≠ []) (h1 : tok ≠ ['.']) : OtherText (a ++ tok)
  | str {body s : List Char} (h : StringText body s) : OtherText s
  | list {s : List Char} (h : Nest 0 s) (hn : ∀ a tok r t, Ign a → NumText t tok → s = a ++ (tok ++ r) → tok = [] ∨ tok = ['.']) : OtherText s

/-- a key and its value -/
inductive Entry
  | lensmodel (L : Lens)
  | intrinsics (v : List ℚ)
  | extrinsics (v : List ℚ)
  | imagersize (w h : Nat)
  | other

inductive ValueText : List Char → Entry → List Char → Prop
  | lensmodel {name s : List Char} {L : Lens} (h : StringText name s) (hL : fromName (some name) = .ok L) : ValueText "lensmodel".toList (.lensmodel L) s
  | intrinsics {v : List ℚ} {s : List Char} (h : ListText Number v s) : ValueText "intrinsics".toList (.intrinsics v) s
  | extrinsics {v : List ℚ} {s : List Char} (h : ListText Number v s) (hv : v.length = 6) : ValueText "extrinsics".toList (.extrinsics v) s
  | rt_cam_ref {v : List ℚ} {s : List Char} (h : ListText Number v s) (hv : v.length = 6) : ValueText "rt_cam_ref".toList (.extrinsics v) s
  | imagersize {w h : Nat} {s : List Char} (hs : ListText UintText [w, h] s) : ValueText "imagersize".toList (.imagersize w h) s
  | other {key s : List Char} (hk : key ∉ ["lensmodel".toList, "intrinsics".toList, "extrinsics".toList, "rt_cam_ref".toList, "imagersize".toList]) (h : OtherText s) : ValueText key .other s

def EntryText (e : Entry) (s : List Char) : Prop :=
  ∃ key k a v, StringText key k ∧ Ign a ∧ ValueText key e v ∧ s = k ++ (a ++ ':' :: v)

/-- the entries are separated by commas. There may be a comma after the last one -/
inductive BodyText : List Entry → List Char → Prop
  | last {e : Entry} {s a : List Char} (h : EntryText e s) (ha : Ign a) : BodyText [e] (s ++ (a ++ ['}']))
  | lastComma {e : Entry} {s a b : List Char} (h : EntryText e s) (ha : Ign a) (hb : Ign b) : BodyText [e] (s ++ (a ++ ',' :: (b ++ ['}'])))
  | cons {e : Entry} {es : List Entry} {s a rest : List Char} (h : EntryText e s) (ha : Ign a) (hr : BodyText es rest) : BodyText (e :: es) (s ++ (a ++ ',' :: rest))

/-- a whole file -/
def FileText (es : List Entry) (s : List Char) : Prop :=
  ∃ a body b, Ign a ∧ BodyText es body ∧ Ign b ∧ s = a ++ '{' :: (body ++ b)

/-! ### whitespace and comments -/

theorem isWs_iff (c : Char) : isWs c = true ↔ (c = ' ' ∨ c = '\t' ∨ c = '\n' ∨ c = '\r') := by
  unfold isWs; simp [or_assoc]

theorem isDigit_iff (c : Char) : isDigit c = true ↔ ('0' ≤ c ∧ c ≤ '9') := by
  unfold isDigit
  rw [Bool.and_eq_true, decide_eq_true_eq, decide_eq_true_eq]
  exact Iff.rfl

theorem digits_iff (s : List Char) : Digits s ↔ ∀ c ∈ s, isDigit c = true := by
  constructor
  · intro h c hc; exact (isDigit_iff c).2 (h c hc)
  · intro h c hc; exact (isDigit_iff c).1 (h c hc)

theorem skip_body (start body s : List Char) (hb : '\n' ∉ body) : skipIgn (some start) (body ++ '\n' :: s) = skipIgn none s := by
  induction body with
  | nil => simp [skipIgn]
  | cons c body ih =>
    rw [List.mem_cons, not_or] at hb
    rw [List.cons_append, skipIgn, if_neg (fun h => hb.1 h.symm), ih hb.2]

theorem skip_ign {a : List Char} (h : Ign a) (b : List Char) : skipIgnore (a ++ b) = skipIgnore b := by
  unfold skipIgnore
  induction h with
  | nil => rfl
  | ws hc h ih => rw [List.cons_append, skipIgn, if_pos ((isWs_iff _).2 hc), ih]
  | comment hb h ih =>
    rw [List.cons_append, skipIgn, if_neg (by decide), if_pos rfl, List.append_assoc, List.cons_append, skip_body _ _ _ hb, ih]

theorem skip_comment (start s : List Char) :
    skipIgn (some start) s = start ∨ ∃ body s', '\n' ∉ body ∧ s = body ++ '\n' :: s' ∧ skipIgn (some start) s = skipIgn none s' := by
  induction s with
  | nil => left; rfl
  | cons c s ih =>
    by_cases hc : c = '\n'
    · right
      refine ⟨[], s, by simp, by rw [hc]; rfl, ?_⟩
      rw [skipIgn, if_pos hc]
    · rcases ih with h | ⟨body, s', hb, hs, h⟩
      · left; rw [skipIgn, if_neg hc, h]
      · right
        refine ⟨c :: body, s', ?_, by rw [hs]; rfl, ?_⟩
        · rw [List.mem_cons, not_or]; exact ⟨fun h => hc h.symm, hb⟩
        · rw [skipIgn, if_neg hc, h]

theorem skip_split (s : List Char) : ∃ a, Ign a ∧ s = a ++ skipIgnore s := by
  induction hn : s.length using Nat.strong_induction_on generalizing s with
  | _ n ih =>
    unfold skipIgnore at ih ⊢
    cases s with
    | nil => exact ⟨[], .nil, rfl⟩
    | cons c s =>
      by_cases hw : isWs c = true
      · obtain ⟨a, ha, hs⟩ := ih s.length (by rw [← hn]; simp) s rfl
        refine ⟨c :: a, .ws ((isWs_iff c).1 hw) ha, ?_⟩
        rw [skipIgn, if_pos hw, List.cons_append, ← hs]
      · by_cases hc : c = '#'
        · rw [skipIgn, if_neg hw, if_pos hc]
          rcases skip_comment (c :: s) s with h | ⟨body, s', hb, hs, h⟩
          · rw [h]; exact ⟨[], .nil, rfl⟩
          · obtain ⟨a, ha, hs'⟩ := ih s'.length (by rw [← hn, hs]; simp; omega) s' rfl
            refine ⟨'#' :: (body ++ '\n' :: a), .comment hb ha, ?_⟩
            rw [h, hs, hc, List.cons_append, List.append_assoc, List.cons_append, ← hs']
        · rw [skipIgn, if_neg hw, if_neg hc]; exact ⟨[], .nil, rfl⟩

theorem skip_idem (s : List Char) : skipIgnore (skipIgnore s) = skipIgnore s := by
  obtain ⟨a, ha, hs⟩ := skip_split s
  have h := skip_ign ha (skipIgnore s)
  rw [← hs] at h
  exact h.symm

/-- the start of a token -/
def Tok (c : Char) : Prop := ¬ (c = ' ' ∨ c = '\t' ∨ c = '\n' ∨ c = '\r') ∧ c ≠ '#'

theorem skip_tok {c : Char} (h : Tok c) (s : List Char) : skipIgnore (c :: s) = c :: s := by
  unfold skipIgnore
  rw [skipIgn, if_neg (by rw [isWs_iff]; exact h.1), if_neg h.2]

theorem skip_to {a : List Char} (ha : Ign a) {c : Char} (h : Tok c) (s : List Char) : skipIgnore (a ++ c :: s) = c :: s := by
  rw [skip_ign ha, skip_tok h]

theorem ign_append {a b : List Char} (ha : Ign a) (hb : Ign b) : Ign (a ++ b) := by
  induction ha with
  | nil => exact hb
  | ws hc h ih => exact .ws hc ih
  | comment hb' h ih => rw [List.cons_append, List.append_assoc, List.cons_append]; exact .comment hb' ih

theorem digit_tok {c : Char} (h : isDigit c = true) : Tok c := by
  constructor
  · rintro (rfl | rfl | rfl | rfl) <;> exact absurd h (by decide)
  · rintro rfl; exact absurd h (by decide)

theorem skip_cons {s : List Char} {c : Char} {r : List Char} (h : skipIgnore s = c :: r) : ∃ a, Ign a ∧ s = a ++ c :: r := by
  obtain ⟨a, ha, hs⟩ := skip_split s
  rw [h] at hs
  exact ⟨a, ha, hs⟩

/-! ### numbers -/

theorem takeWhile_all {s : List Char} : ∀ c ∈ s.takeWhile isDigit, isDigit c = true := by
  induction s with
  | nil => simp
  | cons c s ih =>
    intro d hd
    by_cases hc : isDigit c = true
    · rw [List.takeWhile_cons, if_pos hc, List.mem_cons] at hd
      rcases hd with rfl | hd
      · exact hc
      · exact ih d hd
    · rw [List.takeWhile_cons, if_neg hc] at hd; simp at hd

theorem takeExp_sound (s : List Char) : ∃ e, ExpText (takeExp s).1 e ∧ s = e ++ (takeExp s).2 := by
  cases s with
  | nil => exact ⟨[], .none, rfl⟩
  | cons c s =>
    unfold takeExp
    by_cases hc : c = 'e' ∨ c = 'E'
    · simp only [if_pos hc]
      by_cases hd : (takeSign s).2.takeWhile isDigit = []
      · simp only [if_pos hd]; exact ⟨[], .none, rfl⟩
      · simp only [if_neg hd]
        have hD : Digits ((takeSign s).2.takeWhile isDigit) := (digits_iff _).2 takeWhile_all
        have hs := (List.takeWhile_append_dropWhile (p := isDigit) (l := (takeSign s).2))
        generalize hdd : (takeSign s).2.takeWhile isDigit = ds at hd hD hs ⊢
        generalize hrr : (takeSign s).2.dropWhile isDigit = r at hs ⊢
        unfold takeSign at hs ⊢
        split at hs
        · refine ⟨c :: '-' :: ds, .minus hc hD hd, ?_⟩
          dsimp only at hs ⊢
          rw [← hs]; rfl
        · refine ⟨c :: '+' :: ds, .plus hc hD hd, ?_⟩
          dsimp only at hs ⊢
          rw [← hs]; rfl
        · refine ⟨c :: ds, .plain hc hD hd, ?_⟩
          dsimp only at hs ⊢
          rw [← hs]; rfl
    · simp only [if_neg hc]; exact ⟨[], .none, rfl⟩

/-- the text that follows a number isn't a part of it -/
def Stop : List Char → Prop
  | [] => True
  | c :: _ => isDigit c = false ∧ c ≠ '.' ∧ c ≠ 'e' ∧ c ≠ 'E'

theorem stop_noDigit {r : List Char} (h : Stop r) : NoDigit r := by
  cases r with
  | nil => trivial
  | cons c r => exact h.1

theorem takeExp_complete {x : Option (Bool × List Char)} {e : List Char} (h : ExpText x e) {r : List Char} (hr : Stop r) : takeExp (e ++ r) = (x, r) := by
  cases h with
  | none =>
    cases r with
    | nil => rfl
    | cons c r =>
      rw [List.nil_append, takeExp]
      rw [if_neg (by rintro (h | h); exact hr.2.2.1 h; exact hr.2.2.2 h)]
  | @plain e ds he hd hne =>
    rw [List.cons_append, takeExp, if_pos he]
    have h' := (digits_iff _).1 hd
    obtain ⟨d, ds', rfl⟩ := List.exists_cons_of_ne_nil hne
    rw [List.cons_append, takeSign_digit _ (h' d List.mem_cons_self), ← List.cons_append]
    dsimp only
    rw [takeWhile_digits _ _ h' (stop_noDigit hr), dropWhile_digits _ _ h' (stop_noDigit hr), if_neg hne]
  | @plus e ds he hd hne =>
    rw [List.cons_append, takeExp, if_pos he]
    have h' := (digits_iff _).1 hd
    rw [List.cons_append, takeSign]
    dsimp only
    rw [takeWhile_digits _ _ h' (stop_noDigit hr), dropWhile_digits _ _ h' (stop_noDigit hr), if_neg hne]
  | @minus e ds he hd hne =>
    rw [List.cons_append, takeExp, if_pos he]
    have h' := (digits_iff _).1 hd
    rw [List.cons_append, takeSign]
    dsimp only
    rw [takeWhile_digits _ _ h' (stop_noDigit hr), dropWhile_digits _ _ h' (stop_noDigit hr), if_neg hne]

/-- an exponent that's there is seen, whatever follows -/
theorem takeExp_some {x : Bool × List Char} {e : List Char} (h : ExpText (some x) e) (r : List Char) : (takeExp (e ++ r)).1 ≠ none := by
  have key : ∀ ds : List Char, Digits ds → ds ≠ [] → (ds ++ r).takeWhile isDigit ≠ [] := by
    intro ds hd hne
    obtain ⟨d, ds', rfl⟩ := List.exists_cons_of_ne_nil hne
    rw [List.cons_append, List.takeWhile_cons, if_pos ((digits_iff _).1 hd d List.mem_cons_self)]
    simp
  cases h with
  | @plain e ds he hd hne =>
    rw [List.cons_append, takeExp, if_pos he]
    have hk := key ds hd hne
    have h' := (digits_iff _).1 hd
    obtain ⟨d, ds', rfl⟩ := List.exists_cons_of_ne_nil hne
    rw [List.cons_append] at hk ⊢
    rw [takeSign_digit _ (h' d List.mem_cons_self)]
    dsimp only
    rw [if_neg hk]; simp
  | @plus e ds he hd hne =>
    rw [List.cons_append, takeExp, if_pos he, List.cons_append, takeSign]
    dsimp only
    rw [if_neg (key ds hd hne)]; simp
  | @minus e ds he hd hne =>
    rw [List.cons_append, takeExp, if_pos he, List.cons_append, takeSign]
    dsimp only
    rw [if_neg (key ds hd hne)]; simp

/-- the sign -/
def takeMinus (s : List Char) : Bool × List Char := match s with
  | '-' :: s => (true, s)
  | s => (false, s)

/-- the decimal point -/
def takeFrac (s : List Char) : Option (List Char) × List Char := match s with
  | '.' :: s => (some (s.takeWhile isDigit), s.dropWhile isDigit)
  | s => (none, s)

theorem takeFloat_eq (s : List Char) :
    takeFloat s = (⟨(takeMinus s).1, (takeMinus s).2.takeWhile isDigit, (takeFrac ((takeMinus s).2.dropWhile isDigit)).1,
      (takeExp (takeFrac ((takeMinus s).2.dropWhile isDigit)).2).1⟩, (takeExp (takeFrac ((takeMinus s).2.dropWhile isDigit)).2).2) := by
  unfold takeFloat takeMinus takeFrac
  rfl

theorem takeMinus_minus (s : List Char) : takeMinus ('-' :: s) = (true, s) := rfl
theorem takeMinus_other (s : List Char) (h : s.head? ≠ some '-') : takeMinus s = (false, s) := by
  unfold takeMinus
  split
  · exact absurd rfl h
  · rfl
theorem takeFrac_point (s : List Char) : takeFrac ('.' :: s) = (some (s.takeWhile isDigit), s.dropWhile isDigit) := rfl
theorem takeFrac_other (s : List Char) (h : s.head? ≠ some '.') : takeFrac s = (none, s) := by
  unfold takeFrac
  split
  · exact absurd rfl h
  · rfl

theorem takeFloat_sound (s : List Char) : ∃ tok, NumText (takeFloat s).1 tok ∧ s = tok ++ (takeFloat s).2 := by
  rw [takeFloat_eq]
  obtain ⟨s1, h1, h1'⟩ : ∃ s1, (takeMinus s).2 = s1 ∧ s = (if (takeMinus s).1 then ['-'] else []) ++ s1 := by
    by_cases h : s.head? = some '-'
    · obtain ⟨r, rfl⟩ : ∃ r, s = '-' :: r := by
        cases s with
        | nil => simp at h
        | cons c r => simp at h; exact ⟨r, by rw [h]⟩
      exact ⟨r, rfl, rfl⟩
    · exact ⟨s, by rw [takeMinus_other s h], by rw [takeMinus_other s h]; rfl⟩
  rw [h1]
  have h2 := (List.takeWhile_append_dropWhile (p := isDigit) (l := s1)).symm
  generalize hD : s1.takeWhile isDigit = int at h2 ⊢
  generalize hR : s1.dropWhile isDigit = s2 at h2 ⊢
  have hint : Digits int := by rw [← hD]; exact (digits_iff _).2 takeWhile_all
  obtain ⟨s3, h3, h3', h3''⟩ : ∃ s3, (takeFrac s2).2 = s3 ∧ s2 = fracText (takeFrac s2).1 ++ s3 ∧ ∀ f, (takeFrac s2).1 = some f → Digits f := by
    by_cases h : s2.head? = some '.'
    · obtain ⟨r, rfl⟩ : ∃ r, s2 = '.' :: r := by
        cases s2 with
        | nil => simp at h
        | cons c r => simp at h; exact ⟨r, by rw [h]⟩
      rw [takeFrac_point]
      refine ⟨_, rfl, ?_, ?_⟩
      · simp only [fracText, List.cons_append, List.takeWhile_append_dropWhile]
      · intro f hf
        rw [← Option.some.inj hf]
        exact (digits_iff _).2 takeWhile_all
    · rw [takeFrac_other s2 h]
      exact ⟨s2, rfl, rfl, fun f hf => by simp at hf⟩
  rw [h3]
  obtain ⟨e, he, hs⟩ := takeExp_sound s3
  refine ⟨_, ⟨e, hint, h3'', he, rfl⟩, ?_⟩
  dsimp only
  rw [List.append_assoc, List.append_assoc, List.append_assoc, ← hs, ← h3', ← h2, ← h1']

theorem exp_head {x : Option (Bool × List Char)} {e : List Char} (h : ExpText x e) {r : List Char} (hr : Stop r) :
    NoDigit (e ++ r) ∧ (e ++ r).head? ≠ some '.' ∧ ((e ++ r).head? = some '-' → r.head? = some '-') := by
  have key : ∀ c : Char, c = 'e' ∨ c = 'E' → isDigit c = false ∧ c ≠ '.' ∧ c ≠ '-' := by
    rintro c (rfl | rfl) <;> decide
  have go : ∀ (c : Char) (l : List Char), c = 'e' ∨ c = 'E' → NoDigit (c :: l) ∧ (c :: l).head? ≠ some '.' ∧ ((c :: l).head? = some '-' → r.head? = some '-') := by
    intro c l hc
    obtain ⟨k1, k2, k3⟩ := key c hc
    exact ⟨k1, by simpa using k2, fun h => absurd (by simpa using h) k3⟩
  cases h with
  | none =>
    rw [List.nil_append]
    refine ⟨stop_noDigit hr, ?_, fun h => h⟩
    cases r with
    | nil => simp
    | cons c r => simpa using hr.2.1
  | plain he hd hne => exact go _ _ he
  | plus he hd hne => exact go _ _ he
  | minus he hd hne => exact go _ _ he

theorem takeFloat_complete {t : FloatTok} {tok : List Char} (h : NumText t tok) {r : List Char} (hr : Stop r) (hm : r.head? ≠ some '-' ∨ tok ≠ []) :
    takeFloat (tok ++ r) = (t, r) := by
  obtain ⟨e, hi, hf, he, rfl⟩ := h
  obtain ⟨neg, int, frac, exp⟩ := t
  dsimp only at hi hf he hm ⊢
  have hi' := (digits_iff _).1 hi
  obtain ⟨x1, x2, x3⟩ := exp_head he hr
  -- after the integer part
  have hfrac : takeFrac (fracText frac ++ (e ++ r)) = (frac, e ++ r) := by
    cases frac with
    | none => exact takeFrac_other _ x2
    | some f =>
      have hf' := (digits_iff _).1 (hf f rfl)
      rw [fracText, List.cons_append, takeFrac_point, takeWhile_digits _ _ hf' x1, dropWhile_digits _ _ hf' x1]
  have hnd : NoDigit (fracText frac ++ (e ++ r)) := by
    cases frac with
    | none => exact x1
    | some f => show isDigit '.' = false; decide
  have hminus : takeMinus ((if neg = true then ['-'] else []) ++ (int ++ (fracText frac ++ (e ++ r)))) = (neg, int ++ (fracText frac ++ (e ++ r))) := by
    cases neg with
    | true => rfl
    | false =>
      rw [if_neg (by simp), List.nil_append]
      apply takeMinus_other
      cases int with
      | cons c int =>
        have := (digit_not_sign (hi' c List.mem_cons_self)).1
        simpa using this
      | nil =>
        cases frac with
        | some f => simp [fracText]
        | none =>
          intro hh
          have h1 := x3 hh
          rcases hm with hm | hm
          · exact hm h1
          · apply hm
            cases he with
            | none => rfl
            | plain he hd hne => rcases he with rfl | rfl <;> simp [fracText] at hh
            | plus he hd hne => rcases he with rfl | rfl <;> simp [fracText] at hh
            | minus he hd hne => rcases he with rfl | rfl <;> simp [fracText] at hh
  rw [takeFloat_eq, List.append_assoc, List.append_assoc, List.append_assoc, hminus]
  dsimp only
  rw [takeWhile_digits _ _ hi' hnd, dropWhile_digits _ _ hi' hnd, hfrac]
  dsimp only
  rw [takeExp_complete he hr]

/-- a number that's there is seen, whatever follows -/
theorem takeFloat_some {t : FloatTok} {tok : List Char} (h : NumText t tok) (h0 : tok ≠ []) (h1 : tok ≠ ['.']) (r : List Char) :
    (takeFloat (tok ++ r)).1.neg = true ∨ (takeFloat (tok ++ r)).1.int ≠ [] ∨ (∃ f, (takeFloat (tok ++ r)).1.frac = some f ∧ f ≠ []) ∨ (takeFloat (tok ++ r)).1.exp ≠ none := by
  obtain ⟨e, hi, hf, he, rfl⟩ := h
  obtain ⟨neg, int, frac, exp⟩ := t
  dsimp only at hi hf he h0 h1 ⊢
  have hi' := (digits_iff _).1 hi
  cases neg with
  | true =>
    left
    rw [takeFloat_eq]; rfl
  | false =>
    rw [if_neg (by simp), List.nil_append] at h0 h1 ⊢
    cases int with
    | cons c int =>
      right; left
      have hc := hi' c List.mem_cons_self
      rw [takeFloat_eq, takeMinus_other _ (by simpa using (digit_not_sign hc).1)]
      dsimp only
      rw [List.cons_append, List.cons_append, List.takeWhile_cons, if_pos hc]
      simp
    | nil =>
      rw [List.nil_append] at h0 h1 ⊢
      cases frac with
      | some f =>
        right; right
        rw [takeFloat_eq, takeMinus_other _ (by simp [fracText])]
        dsimp only [fracText]
        rw [List.cons_append, List.cons_append]
        have hd : ('.' :: ((f ++ e) ++ r)).dropWhile isDigit = '.' :: (f ++ e ++ r) := by
          rw [List.dropWhile_cons, if_neg (by decide)]
        rw [hd, takeFrac_point]
        cases f with
        | cons c f =>
          left
          have hc := (digits_iff _).1 (hf _ rfl) c List.mem_cons_self
          refine ⟨_, rfl, ?_⟩
          rw [List.cons_append, List.cons_append, List.takeWhile_cons, if_pos hc]
          simp
        | nil =>
          right
          dsimp only
          cases exp with
          | none =>
            cases he
            exact absurd rfl h1
          | some x =>
            have hx := takeExp_some he r
            have : (([] ++ e) ++ r).dropWhile isDigit = e ++ r := by
              rw [List.nil_append]
              cases he with
              | plain he hd hne => rcases he with rfl | rfl <;> rw [List.cons_append, List.dropWhile_cons, if_neg (by decide)]
              | plus he hd hne => rcases he with rfl | rfl <;> rw [List.cons_append, List.dropWhile_cons, if_neg (by decide)]
              | minus he hd hne => rcases he with rfl | rfl <;> rw [List.cons_append, List.dropWhile_cons, if_neg (by decide)]
            rw [this]
            exact hx
      | none =>
        right; right; right
        rw [fracText, List.nil_append] at h0 h1 ⊢
        cases exp with
        | none =>
          cases he
          exact absurd rfl h0
        | some x =>
          have hx := takeExp_some he r
          have hh : ∃ c l, e = c :: l ∧ (c = 'e' ∨ c = 'E') := by
            cases he with
            | plain he hd hne => exact ⟨_, _, rfl, he⟩
            | plus he hd hne => exact ⟨_, _, rfl, he⟩
            | minus he hd hne => exact ⟨_, _, rfl, he⟩
          obtain ⟨c, l, rfl, hc⟩ := hh
          have c1 : c ≠ '-' ∧ isDigit c = false ∧ c ≠ '.' := by rcases hc with rfl | rfl <;> decide
          rw [takeFloat_eq, takeMinus_other _ (by simpa using c1.1)]
          dsimp only
          have hd : (c :: l ++ r).dropWhile isDigit = c :: l ++ r := by
            rw [List.cons_append, List.dropWhile_cons, c1.2.1]; simp
          rw [hd, takeFrac_other _ (by simpa using c1.2.2)]
          exact hx

end Mrcal.ModelFile

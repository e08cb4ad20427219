import Verif.Props.PrintG10Props
/-
What ast.literal_eval() does with the text of .cameramodel files.
-/
namespace Mrcal.ModelPy
open Mrcal.Name Mrcal.CamModel Mrcal.ModelFile

/-! ### whitespace and comments -/

/-- whitespace and comments, for C and for Python: there are no carriage returns in the comments -/
inductive PIgn : List Char → Prop
  | nil : PIgn []
  | ws {c : Char} {s : List Char} (hc : c = ' ' ∨ c = '\t' ∨ c = '\n' ∨ c = '\r') (h : PIgn s) : PIgn (c :: s)
  | comment {body s : List Char} (hb : '\n' ∉ body) (hb' : '\r' ∉ body) (h : PIgn s) : PIgn ('#' :: (body ++ '\n' :: s))

theorem PIgn.ign {a : List Char} (h : PIgn a) : Ign a := by
  induction h with
  | nil => exact .nil
  | ws hc _ ih => exact .ws hc ih
  | comment hb _ _ ih => exact .comment hb ih

theorem pign_append {a b : List Char} (ha : PIgn a) (hb : PIgn b) : PIgn (a ++ b) := by
  induction ha with
  | nil => exact hb
  | ws hc _ ih => exact .ws hc ih
  | comment h1 h2 _ ih => rw [List.cons_append, List.append_assoc, List.cons_append]; exact .comment h1 h2 ih

theorem isPyWs_of {c : Char} (h : c = ' ' ∨ c = '\t' ∨ c = '\n' ∨ c = '\r') : isPyWs c = true := by
  rcases h with rfl | rfl | rfl | rfl <;> decide

theorem skipPy_body (body s : List Char) (h1 : '\n' ∉ body) (h2 : '\r' ∉ body) : skipPy true (body ++ '\n' :: s) = skipPy false s := by
  induction body with
  | nil => rw [List.nil_append, skipPy, if_pos (Or.inl rfl)]
  | cons c body ih =>
    rw [List.mem_cons, not_or] at h1 h2
    rw [List.cons_append, skipPy, if_neg (by rintro (h | h); exacts [h1.1 h.symm, h2.1 h.symm]), ih h1.2 h2.2]

theorem skipPy_ign {a : List Char} (h : PIgn a) (b : List Char) : skipPy false (a ++ b) = skipPy false b := by
  induction h with
  | nil => rfl
  | ws hc _ ih => rw [List.cons_append, skipPy, if_pos (isPyWs_of hc), ih]
  | comment h1 h2 _ ih => rw [List.cons_append, List.append_assoc, List.cons_append, skipPy, if_neg (by decide), if_pos rfl, skipPy_body _ _ h1 h2, ih]

/-- a character that isn't skipped -/
def PTok (c : Char) : Prop := isPyWs c = false ∧ c ≠ '#'

theorem skipPy_tok {c : Char} (h : PTok c) (s : List Char) : skipPy false (c :: s) = c :: s := by
  rw [skipPy, if_neg (by rw [h.1]; simp), if_neg h.2]

theorem skipPy_to {a : List Char} (ha : PIgn a) {c : Char} (h : PTok c) (s : List Char) : skipPy false (a ++ c :: s) = c :: s := by
  rw [skipPy_ign ha, skipPy_tok h]

theorem digit_PTok {c : Char} (h : '0' ≤ c ∧ c ≤ '9') : PTok c := by
  constructor
  · unfold isPyWs
    simp only [Bool.or_eq_false_iff, decide_eq_false_iff_not]
    refine ⟨⟨⟨⟨?_, ?_⟩, ?_⟩, ?_⟩, ?_⟩ <;> rintro rfl <;> revert h <;> decide
  · rintro rfl; revert h; decide

/-! ### numbers -/

/-- `f` reads this text, and stops there -/
def Parses {α : Type} (f : List Char → Option (α × List Char)) (s : List Char) (v : α) (r : List Char) : Prop := f (s ++ r) = some (v, r)

theorem numTok_split {s : List Char} {v : ℚ} (h : NumTok s v) : ∃ (neg : Bool) (tok : List Char) (t : FloatTok) (c : Char) (l : List Char), s = (if neg then ['-'] else []) ++ tok ∧ NumText t tok ∧ t.neg = false ∧
    tok = c :: l ∧ ('0' ≤ c ∧ c ≤ '9') ∧ t.value = some |v| ∧ v = (if neg then -1 else 1) * |v| ∧
    (t.frac = none → t.exp = none → t.int.head? = some '0' → t.int = ['0']) ∧
    (t.frac = none → t.exp = none → |v| = decVal t.int) := by
  obtain ⟨⟨neg, int, frac, exp⟩, ⟨e, h1, h2, h3, h4⟩, h5, h6, h7, h8⟩ := h
  dsimp only at *
  have hpos : (0 : ℚ) ≤ (decVal (int ++ frac.getD []) : ℚ) * (10 : ℚ) ^ (expVal exp - (frac.getD []).length) := by positivity
  have habs : |v| = (decVal (int ++ frac.getD []) : ℚ) * (10 : ℚ) ^ (expVal exp - (frac.getD []).length) := by
    rw [h6, mul_assoc, abs_mul, abs_of_nonneg hpos]
    have : |(if neg = true then (-1 : ℚ) else 1)| = 1 := by split_ifs <;> simp
    rw [this, one_mul]
  obtain ⟨c, l, hc⟩ : ∃ c l, int = c :: l := by
    cases int with
    | nil => exact absurd rfl h5
    | cons c l => exact ⟨c, l, rfl⟩
  refine ⟨neg, int ++ (fracText frac ++ e), ⟨false, int, frac, exp⟩, c, l ++ (fracText frac ++ e), h4, ⟨e, h1, h2, h3, rfl⟩, rfl, by rw [hc]; rfl, h1 c (by rw [hc]; simp), ?_, ?_, h8, ?_⟩
  · rw [value_iff]
    refine ⟨Or.inl h5, ?_, ?_⟩
    · rw [habs]; simp
    · rw [abs_abs]; exact h7
  · rw [habs, h6, mul_assoc]
  · intro hf he
    dsimp only at hf he ⊢
    rw [habs, hf, he]
    simp [expVal]

theorem pyNumber_tok {t : FloatTok} {tok : List Char} {w : ℚ} (h1 : NumText t tok) (h2 : t.neg = false) (h3 : t.value = some w)
    (h4 : t.frac = none → t.exp = none → t.int.head? = some '0' → t.int = ['0']) (h5 : t.frac = none → t.exp = none → w = decVal t.int) (h0 : tok ≠ []) :
    ∃ x, (∀ r, Stop r → pyNumber (tok ++ r) = some (x, r)) ∧ x.num = some w ∧ (t.frac = none → t.exp = none → x = .int (decVal t.int : Nat)) := by
  have key : ∀ r, Stop r → pyNumber (tok ++ r) = if t.frac = none ∧ t.exp = none then
      (if t.int.head? = some '0' ∧ decVal t.int ≠ 0 then none else some (.int (decVal t.int : Nat), r)) else some (.float w, r) := by
    intro r hr
    unfold pyNumber
    rw [takeFloat_complete h1 hr (Or.inr h0)]
    dsimp only
    rw [h2, if_neg (by simp), h3]
  by_cases hc : t.frac = none ∧ t.exp = none
  · have h6 : ¬ (t.int.head? = some '0' ∧ decVal t.int ≠ 0) := by
      rintro ⟨h6, h7⟩
      rw [h4 hc.1 hc.2 h6] at h7
      exact h7 rfl
    refine ⟨.int (decVal t.int : Nat), ?_, ?_, fun _ _ => rfl⟩
    · intro r hr
      rw [key r hr, if_pos hc, if_neg h6]
    · rw [h5 hc.1 hc.2]
      simp [Lit.num]
  · refine ⟨.float w, ?_, rfl, fun h6 h7 => absurd ⟨h6, h7⟩ hc⟩
    intro r hr
    rw [key r hr, if_neg hc]

theorem Lit.negate_num {x : Lit} {w : ℚ} (h : x.num = some w) : ∃ y, x.negate = some y ∧ y.num = some (-w) := by
  cases x <;> simp only [Lit.num, Option.some.injEq, reduceCtorEq] at h
  · exact ⟨_, rfl, by rw [← h]; simp [Lit.num]⟩
  · exact ⟨_, rfl, by rw [← h]; simp [Lit.num]⟩

/-- the characters that pyLit treats specially -/
theorem digit_not {c : Char} (h : '0' ≤ c ∧ c ≤ '9') : c ≠ '{' ∧ c ≠ '[' ∧ c ≠ '(' ∧ c ≠ '\'' ∧ c ≠ '"' ∧ c ≠ 'b' ∧ c ≠ '-' ∧ c ≠ '+' := by
  refine ⟨?_, ?_, ?_, ?_, ?_, ?_, ?_, ?_⟩ <;> rintro rfl <;> revert h <;> decide

theorem pyLit_digit (n : Nat) {c : Char} (h : '0' ≤ c ∧ c ≤ '9') (r : List Char) {a : List Char} (ha : PIgn a) : pyLit (n + 1) (a ++ c :: r) = pyNumber (c :: r) := by
  obtain ⟨h1, h2, h3, h4, h5, h6, h7, h8⟩ := digit_not h
  rw [pyLit, skipPy_to ha (digit_PTok h)]
  dsimp only
  rw [if_neg h1, if_neg h2, if_neg h3, if_neg (by tauto), if_neg (by tauto), if_neg h7, if_neg h8]

theorem pyLit_minus (n : Nat) (r : List Char) {a : List Char} (ha : PIgn a) : pyLit (n + 1) (a ++ '-' :: r) = (match pyNumber (skipPy false r) with
        | none => none
        | some (v, r) => v.negate.map fun v => (v, r)) := by
  rw [pyLit, skipPy_to ha (by constructor <;> decide)]
  dsimp only
  rw [if_neg (by decide), if_neg (by decide), if_neg (by decide), if_neg (by decide), if_neg (by simp), if_pos rfl]
  rfl

/-- numbers -/
theorem pyLit_num {s : List Char} {v : ℚ} (h : NumTok s v) : ∃ x : Lit, x.num = some v ∧ ∀ n a r, PIgn a → Stop r → pyLit (n + 1) (a ++ (s ++ r)) = some (x, r) := by
  obtain ⟨neg, tok, t, c, l, h1, h2, h3, h4, h5, h6, h7, h8, h9⟩ := numTok_split h
  obtain ⟨x, p1, p2, -⟩ := pyNumber_tok h2 h3 h6 h8 h9 (by rw [h4]; simp)
  cases neg with
  | false =>
    simp only [if_false, Bool.false_eq_true, one_mul] at h1 h7
    refine ⟨x, by rw [h7]; exact p2, ?_⟩
    intro n a r ha hr
    have p1 := p1 r hr
    rw [h1, List.nil_append, h4, List.cons_append, pyLit_digit n h5 _ ha]
    rw [h4, List.cons_append] at p1
    exact p1
  | true =>
    simp only [if_true] at h1 h7
    obtain ⟨y, hy1, hy2⟩ := Lit.negate_num p2
    refine ⟨y, by rw [hy2, h7]; simp, ?_⟩
    intro n a r ha hr
    have p1 := p1 r hr
    rw [h1, List.append_assoc, List.singleton_append, pyLit_minus n _ ha]
    rw [h4, List.cons_append] at p1 ⊢
    rw [skipPy_tok (digit_PTok h5), p1]
    simp [hy1]

/-- integers -/
theorem pyLit_int (n : Nat) {a r : List Char} (i : Int) (ha : PIgn a) (hr : Stop r) (hi : (i.natAbs : ℚ) < 2 ^ 1024 - 2 ^ 970) : pyLit (n + 1) (a ++ (printInt i ++ r)) = some (.int i, r) := by
  have hd := printNat_Digits i.natAbs
  have hne := printNat_ne_nil i.natAbs
  obtain ⟨c, l, hc⟩ : ∃ c l, printNat i.natAbs = c :: l := by
    cases h : printNat i.natAbs with
    | nil => exact absurd h hne
    | cons c l => exact ⟨c, l, rfl⟩
  have h5 : '0' ≤ c ∧ c ≤ '9' := hd c (by rw [hc]; simp)
  have hnt : NumText ⟨false, printNat i.natAbs, none, none⟩ (printNat i.natAbs) := ⟨[], hd, by simp, .none, by simp [fracText]⟩
  have hval : (⟨false, printNat i.natAbs, none, none⟩ : FloatTok).value = some (i.natAbs : ℚ) := by
    rw [value_iff]
    refine ⟨Or.inl hne, ?_, ?_⟩
    · simp [expVal, decVal_printNat]
    · rw [abs_of_nonneg (by positivity)]; exact hi
  obtain ⟨x, p1, -, p3⟩ := pyNumber_tok hnt rfl hval (fun _ _ h => printNat_head _ h) (fun _ _ => by simp [decVal_printNat]) hne
  have p1 := p1 r hr
  have hx : x = .int (i.natAbs : Nat) := by rw [p3 rfl rfl]; simp [decVal_printNat]
  unfold printInt
  by_cases h : i < 0
  · rw [if_pos h, List.append_assoc, List.singleton_append, pyLit_minus n _ ha]
    rw [hc, List.cons_append] at p1 ⊢
    rw [skipPy_tok (digit_PTok h5), p1, hx]
    simp only [Lit.negate, Option.map_some]
    rw [show -((i.natAbs : Nat) : Int) = i by omega]
  · rw [if_neg h, List.nil_append]
    rw [hc, List.cons_append] at p1 ⊢
    rw [pyLit_digit n h5 _ ha, p1, hx, show ((i.natAbs : Nat) : Int) = i by omega]

/-! ### strings -/

/-- characters that may appear in a string: no quotes, backslashes or newlines -/
def Plain (s : List Char) : Prop := ∀ c ∈ s, c ≠ '\'' ∧ c ≠ '"' ∧ c ≠ '\\' ∧ c ≠ '\n' ∧ c ≠ '\r'

theorem pyQuoted_plain {s r : List Char} (hs : Plain s) (hr : r.head? ≠ some '\'') : pyQuoted '\'' (s ++ '\'' :: r) = some (s, r) := by
  have h1 : (s ++ '\'' :: r).takeWhile (fun c => decide (c ≠ '\'' ∧ c ≠ '\\' ∧ c ≠ '\n' ∧ c ≠ '\r')) = s := by
    rw [List.takeWhile_append_of_pos]
    · rw [List.takeWhile_cons_of_neg (by decide), List.append_nil]
    · intro c hc
      obtain ⟨h1, h2, h3, h4, h5⟩ := hs c hc
      simp [h1, h3, h4, h5]
  have h2 : (s ++ '\'' :: r).dropWhile (fun c => decide (c ≠ '\'' ∧ c ≠ '\\' ∧ c ≠ '\n' ∧ c ≠ '\r')) = '\'' :: r := by
    rw [List.dropWhile_append_of_pos]
    · rw [List.dropWhile_cons_of_neg (by decide)]
    · intro c hc
      obtain ⟨h1, h2, h3, h4, h5⟩ := hs c hc
      simp [h1, h3, h4, h5]
  unfold pyQuoted
  dsimp only
  rw [h1, h2]
  dsimp only
  rw [if_neg (by simp), if_neg (by tauto)]

theorem pyLit_str (n : Nat) {a s r : List Char} (ha : PIgn a) (hs : Plain s) (hr : r.head? ≠ some '\'') : pyLit (n + 1) (a ++ '\'' :: (s ++ '\'' :: r)) = some (.str s, r) := by
  rw [pyLit, skipPy_to ha (by constructor <;> decide)]
  dsimp only
  rw [if_neg (by decide), if_neg (by decide), if_neg (by decide), if_pos (Or.inl rfl), pyQuoted_plain hs hr]

theorem pyLit_bytes (n : Nat) {a s r : List Char} (ha : PIgn a) (hs : Plain s) (hs' : ∀ c ∈ s, c.toNat < 128) (hr : r.head? ≠ some '\'') :
    pyLit (n + 1) (a ++ 'b' :: '\'' :: (s ++ '\'' :: r)) = some (.bytes s, r) := by
  rw [pyLit, skipPy_to ha (by constructor <;> decide)]
  dsimp only
  rw [if_neg (by decide), if_neg (by decide), if_neg (by decide), if_neg (by decide), if_pos (by simp)]
  simp only [List.headD_cons, List.tail_cons]
  rw [pyQuoted_plain hs hr]
  dsimp only
  rw [if_pos (by rw [List.all_eq_true]; intro c hc; simpa using hs' c hc)]

/-! ### sequences -/

/-- an element of a sequence, followed by this text -/
def Item {α : Type} (f : List Char → Option (α × List Char)) (close : Char) (s : List Char) (v : α) (r : List Char) : Prop :=
  ∃ c l, skipPy false (s ++ r) = c :: l ∧ c ≠ close ∧ f (c :: l) = some (v, r)

/-- each element is followed by a comma -/
theorem pySeq_commas {α : Type} (f : List Char → Option (α × List Char)) (close : Char) (hclose : close ≠ ',') (items : List (List Char × α)) (tail : List Char)
    (h : ∀ p ∈ items, ∀ r, Item f close p.1 p.2 (',' :: r)) (n : Nat) :
    pySeq f close (n + items.length) (items.flatMap (fun p => p.1 ++ [',']) ++ tail) = (pySeq f close n tail).map fun x => (items.map Prod.snd ++ x.1, x.2) := by
  induction items with
  | nil => simp
  | cons p items ih =>
    obtain ⟨c, l, h1, h2, h3⟩ := h p List.mem_cons_self (items.flatMap (fun p => p.1 ++ [',']) ++ tail)
    have ih := ih (fun q hq => h q (List.mem_cons_of_mem _ hq))
    rw [List.length_cons, ← add_assoc, List.flatMap_cons, List.append_assoc, List.append_assoc, List.singleton_append]
    rw [pySeq, h1]
    dsimp only
    rw [if_neg h2, h3]
    dsimp only
    rw [skipPy_tok (by constructor <;> decide)]
    dsimp only
    rw [if_neg (Ne.symm hclose), if_pos rfl, ih]
    cases pySeq f close n tail with
    | none => rfl
    | some x => rfl

/-- the closing bracket -/
theorem pySeq_close {α : Type} (f : List Char → Option (α × List Char)) (close : Char) (hc : PTok close) {a : List Char} (ha : PIgn a) (r : List Char) (n : Nat) :
    pySeq f close (n + 1) (a ++ close :: r) = some ([], true, r) := by
  rw [pySeq, skipPy_to ha hc]
  dsimp only
  rw [if_pos rfl]

/-- a last element without a comma, and the closing bracket -/
theorem pySeq_last {α : Type} (f : List Char → Option (α × List Char)) (close : Char) (hc : PTok close) {a s : List Char} {v : α} (ha : PIgn a) (r : List Char) (n : Nat)
    (h : Item f close s v (a ++ close :: r)) : pySeq f close (n + 1) (s ++ (a ++ close :: r)) = some ([v], false, r) := by
  obtain ⟨c, l, h1, h2, h3⟩ := h
  rw [pySeq, h1]
  dsimp only
  rw [if_neg h2, h3]
  dsimp only
  rw [skipPy_to ha hc]
  dsimp only
  rw [if_pos rfl]

/-- `pyLit` skips whitespace -/
theorem pyLit_skip (n : Nat) (s : List Char) {c : Char} {l : List Char} (h : skipPy false s = c :: l) (hc : PTok c) : pyLit n (c :: l) = pyLit n s := by
  cases n with
  | zero => rfl
  | succ n => rw [pyLit, pyLit, h, skipPy_tok hc]

theorem item_of {n : Nat} {close : Char} {a s r : List Char} {c : Char} {l : List Char} {v : Lit} (ha : PIgn a) (hs : s ++ r = c :: l) (hc : PTok c) (hne : c ≠ close)
    (h : pyLit n (a ++ (s ++ r)) = some (v, r)) : Item (pyLit n) close (a ++ s) v r := by
  have hk : skipPy false (a ++ (s ++ r)) = c :: l := by rw [hs]; exact skipPy_to ha hc l
  refine ⟨c, l, by rw [List.append_assoc]; exact hk, hne, ?_⟩
  rw [pyLit_skip n _ hk hc]
  exact h

theorem numTok_head {s : List Char} {v : ℚ} (h : NumTok s v) : ∃ c l, s = c :: l ∧ PTok c ∧ c ≠ ']' ∧ c ≠ ')' ∧ c ≠ '}' := by
  obtain ⟨neg, tok, t, c, l, h1, h2, h3, h4, h5, -⟩ := numTok_split h
  cases neg with
  | false =>
    refine ⟨c, l, by rw [h1, h4]; rfl, digit_PTok h5, ?_, ?_, ?_⟩ <;> rintro rfl <;> revert h5 <;> decide
  | true => exact ⟨'-', tok, by rw [h1]; rfl, by constructor <;> decide, by decide, by decide, by decide⟩

/-- a number in a list -/
theorem item_num {s : List Char} {v : ℚ} (h : NumTok s v) : ∃ x : Lit, x.num = some v ∧ ∀ n a r, PIgn a → Stop r → Item (pyLit (n + 1)) ']' (a ++ s) x r := by
  obtain ⟨x, h1, h2⟩ := pyLit_num h
  obtain ⟨c, l, k1, k2, k3, -⟩ := numTok_head h
  exact ⟨x, h1, fun n a r ha hr => item_of ha (by rw [k1]; rfl) k2 k3 (h2 n a r ha hr)⟩

theorem stop_comma (r : List Char) : Stop (',' :: r) := by refine ⟨by decide, by decide, by decide, by decide⟩
theorem stop_close (r : List Char) : Stop (']' :: r) := by refine ⟨by decide, by decide, by decide, by decide⟩
theorem stop_space (r : List Char) : Stop (' ' :: r) := by refine ⟨by decide, by decide, by decide, by decide⟩

theorem pyLit_list (n : Nat) {a s r : List Char} {l : List Lit} {b : Bool} (ha : PIgn a) (h : pySeq (pyLit n) ']' (s.length + 1) s = some (l, b, r)) :
    pyLit (n + 1) (a ++ '[' :: s) = some (.list l, r) := by
  rw [pyLit, skipPy_to ha (by constructor <;> decide)]
  dsimp only
  rw [if_neg (by decide), if_pos rfl, h]

/-- more fuel doesn't matter -/
theorem pySeq_mono {α : Type} (f : List Char → Option (α × List Char)) (close : Char) (n : Nat) : ∀ (m : Nat) (s : List Char) (x : List α × Bool × List Char), n ≤ m →
    pySeq f close n s = some x → pySeq f close m s = some x := by
  induction n with
  | zero => intro m s x _ h; simp [pySeq] at h
  | succ n ih =>
    intro m s x hm h
    obtain ⟨m, rfl⟩ : ∃ k, m = k + 1 := ⟨m - 1, by omega⟩
    rw [pySeq] at h ⊢
    cases h1 : skipPy false s with
    | nil => rw [h1] at h; simp at h
    | cons c r =>
      rw [h1] at h
      dsimp only at h ⊢
      by_cases hc : c = close
      · rw [if_pos hc] at h ⊢; exact h
      · rw [if_neg hc] at h ⊢
        cases h2 : f (c :: r) with
        | none => rw [h2] at h; simp at h
        | some y =>
          obtain ⟨v, r'⟩ := y
          rw [h2] at h
          dsimp only at h ⊢
          cases h3 : skipPy false r' with
          | nil => rw [h3] at h; simp at h
          | cons c' r'' =>
            rw [h3] at h
            dsimp only at h ⊢
            by_cases hc' : c' = close
            · rw [if_pos hc'] at h ⊢; exact h
            · rw [if_neg hc'] at h ⊢
              by_cases hc'' : c' = ','
              · rw [if_pos hc''] at h ⊢
                cases h4 : pySeq f close n r'' with
                | none => rw [h4] at h; simp at h
                | some z =>
                  rw [h4] at h
                  rw [ih m r'' z (by omega) h4]
                  exact h
              · rw [if_neg hc''] at h; simp at h

/-- a number of elements needs at most this much text -/
theorem flat_length {α : Type} (items : List (List Char × α)) : items.length ≤ (items.flatMap (fun p => p.1 ++ [','])).length := by
  induction items with
  | nil => simp
  | cons p items ih => rw [List.flatMap_cons, List.length_append, List.length_append]; simp only [List.length_cons, List.length_nil]; omega

/-- a list, each element of which is followed by a comma -/
theorem pyLit_commas (n : Nat) {a b r : List Char} (items : List (List Char × Lit)) (ha : PIgn a) (hb : PIgn b) (h : ∀ p ∈ items, ∀ r, Item (pyLit n) ']' p.1 p.2 (',' :: r)) :
    pyLit (n + 1) (a ++ '[' :: (items.flatMap (fun p => p.1 ++ [',']) ++ (b ++ ']' :: r))) = some (.list (items.map Prod.snd), r) := by
  refine pyLit_list n ha (b := true) (pySeq_mono _ _ (1 + items.length) _ _ _ ?_ ?_)
  · have := flat_length items
    simp only [List.length_append, List.length_cons] at *
    omega
  · rw [pySeq_commas _ _ (by decide) items _ h, show 1 = 0 + 1 from rfl, pySeq_close _ _ (by constructor <;> decide) hb]
    simp

/-- a list, the last element of which isn't followed by a comma -/
theorem pyLit_last (n : Nat) {a b s r : List Char} {v : Lit} (items : List (List Char × Lit)) (ha : PIgn a) (hb : PIgn b) (h : ∀ p ∈ items, ∀ r, Item (pyLit n) ']' p.1 p.2 (',' :: r))
    (hl : Item (pyLit n) ']' s v (b ++ ']' :: r)) :
    pyLit (n + 1) (a ++ '[' :: (items.flatMap (fun p => p.1 ++ [',']) ++ (s ++ (b ++ ']' :: r)))) = some (.list (items.map Prod.snd ++ [v]), r) := by
  refine pyLit_list n ha (b := false) (pySeq_mono _ _ (1 + items.length) _ _ _ ?_ ?_)
  · have := flat_length items
    simp only [List.length_append, List.length_cons] at *
    omega
  · rw [pySeq_commas _ _ (by decide) items _ h, show 1 = 0 + 1 from rfl, pySeq_last _ _ (by constructor <;> decide) hb _ _ hl]
    simp

/-! ### the whole file -/

/-- a key and the text of its value, with the whitespace before each -/
structure En where
  ign : List Char
  key : List Char
  val : List Char

def En.text (e : En) : List Char := e.ign ++ '\'' :: (e.key ++ '\'' :: ':' :: e.val)

theorem item_entry (n : Nat) (e : En) (x : Lit) (r : List Char) (h1 : PIgn e.ign) (h2 : Plain e.key) (h3 : pyLit (n + 1) (e.val ++ r) = some (x, r)) :
    Item (pyPair (pyLit (n + 1))) '}' e.text (.str e.key, x) r := by
  refine ⟨'\'', e.key ++ '\'' :: ':' :: (e.val ++ r), ?_, by decide, ?_⟩
  · unfold En.text
    rw [List.append_assoc, List.cons_append, List.append_assoc, List.cons_append, List.cons_append]
    exact skipPy_to h1 (by constructor <;> decide) _
  · unfold pyPair
    have := pyLit_str n (a := []) (s := e.key) (r := ':' :: (e.val ++ r)) .nil h2 (by simp)
    rw [List.nil_append] at this
    rw [this]
    dsimp only
    rw [skipPy_tok (by constructor <;> decide)]
    show (match pyLit (n + 1) (e.val ++ r) with
      | none => none
      | some (v, r) => some ((Lit.str e.key, v), r)) = _
    rw [h3]

/-- the start of a file: whole lines of whitespace and comments -/
def Start (s : List Char) : Prop := PIgn s ∧ (s = [] ∨ ∃ s', s = s' ++ ['\n']) ∧ (∀ c, s.head? = some c → c ≠ ' ' ∧ c ≠ '\t')

theorem literalEval_of {pre body : List Char} {l : List (Lit × Lit)} {b : Bool} {r : List Char} (hnul : '\x00' ∉ pre ++ '{' :: body) (hpre : Start pre)
    (h : pySeq (pyPair (pyLit (pre.length + body.length + 1))) '}' (body.length + 1) body = some (l, b, r)) (hl : ∀ p ∈ l, p.1.hashable = true) (hr : PIgn r) :
    literalEval (pre ++ '{' :: body) = some l := by
  obtain ⟨hp1, hp2, hp3⟩ := hpre
  have hstart : (pre ++ '{' :: body).dropWhile (fun c => c = ' ' || c = '\t') = pre ++ '{' :: body := by
    cases pre with
    | nil => rw [List.nil_append, List.dropWhile_cons_of_neg (by decide)]
    | cons c pre =>
      rw [List.cons_append, List.dropWhile_cons_of_neg]
      have := hp3 c rfl
      simp [this.1, this.2]
  have hskip : skipPy false (pre ++ '{' :: body) = '{' :: body := skipPy_to hp1 (by constructor <;> decide) _
  unfold literalEval
  rw [if_neg hnul, hstart]
  dsimp only
  rw [hskip]
  have htake : (pre ++ '{' :: body).take ((pre ++ '{' :: body).length - ('{' :: body).length) = pre := by
    rw [List.length_append, Nat.add_sub_cancel, List.take_left]
  rw [htake]
  have hlit : pyLit ((pre ++ '{' :: body).length + 1) ('{' :: body) = some (.dict l, r) := by
    rw [pyLit, skipPy_tok (by constructor <;> decide)]
    dsimp only
    rw [if_pos rfl]
    have e : (pre ++ '{' :: body).length = pre.length + body.length + 1 := by simp only [List.length_append, List.length_cons]; omega
    rw [e, h]
    dsimp only
    rw [if_pos (by rw [List.all_eq_true]; exact hl)]
  have hend : skipPy false r = [] := by
    have := skipPy_ign hr []
    rw [List.append_nil] at this
    rw [this]; rfl
  have hlast : ∀ (x : Option Char), (x = none ∨ x = some '\n') → (match x with
    | some ' ' => none
    | some '\t' => none
    | some '\x0c' => none
    | _ =>
      match pyLit ((pre ++ '{' :: body).length + 1) ('{' :: body) with
      | some (.dict l, r) => if skipPy false r = [] then some l else none
      | _ => none) = some l := by
    have key : (match pyLit ((pre ++ '{' :: body).length + 1) ('{' :: body) with
      | some (.dict l, r) => if skipPy false r = [] then some l else none
      | _ => none) = some l := by rw [hlit]; dsimp only; rw [if_pos hend]
    rintro x (rfl | rfl)
    · exact key
    · exact key
  apply hlast
  rcases hp2 with rfl | ⟨s', rfl⟩
  · left; rfl
  · right; simp

/-- a file whose entries all are followed by commas -/
theorem literalEval_commas {pre tail r : List Char} (es : List (En × Lit)) (hnul : '\x00' ∉ pre ++ '{' :: (es.flatMap (fun e => e.1.text ++ [',']) ++ (tail ++ '}' :: r)))
    (hpre : Start pre) (ht : PIgn tail) (hr : PIgn r)
    (h : ∀ e ∈ es, PIgn e.1.ign ∧ Plain e.1.key ∧ ∀ n r, pyLit (n + 3) (e.1.val ++ ',' :: r) = some (e.2, ',' :: r)) :
    literalEval (pre ++ '{' :: (es.flatMap (fun e => e.1.text ++ [',']) ++ (tail ++ '}' :: r))) = some (es.map fun e => (.str e.1.key, e.2)) := by
  have hflat : es.flatMap (fun e => e.1.text ++ [',']) = (es.map fun e => (e.1.text, ((.str e.1.key, e.2) : Lit × Lit))).flatMap (fun p => p.1 ++ [',']) := by
    rw [List.flatMap_map]
  refine literalEval_of (r := r) (b := true) hnul hpre (pySeq_mono _ _ (1 + es.length) _ _ _ ?_ ?_) ?_ hr
  · have := flat_length (es.map fun e => (e.1.text, ((.str e.1.key, e.2) : Lit × Lit)))
    rw [← hflat] at this
    simp only [List.length_append, List.length_cons, List.length_map] at *
    omega
  · rw [hflat]
    have hlen : es.length = (es.map fun e => (e.1.text, ((.str e.1.key, e.2) : Lit × Lit))).length := by simp
    rw [hlen, pySeq_commas _ _ (by decide) _ _ _ 1, show 1 = 0 + 1 from rfl, pySeq_close _ _ (by constructor <;> decide) ht]
    · simp
    · intro p hp r'
      obtain ⟨e, he, rfl⟩ := List.mem_map.1 hp
      obtain ⟨h1, h2, h3⟩ := h e he
      have hN : ∃ n, pre.length + ((es.map fun e => (e.1.text, ((.str e.1.key, e.2) : Lit × Lit))).flatMap (fun p => p.1 ++ [',']) ++ (tail ++ '}' :: r)).length + 1 = n + 3 := by
        have : 1 ≤ es.length := List.length_pos_of_mem he
        have h5 := flat_length (es.map fun e => (e.1.text, ((.str e.1.key, e.2) : Lit × Lit)))
        refine ⟨pre.length + ((es.map fun e => (e.1.text, ((.str e.1.key, e.2) : Lit × Lit))).flatMap (fun p => p.1 ++ [',']) ++ (tail ++ '}' :: r)).length - 2, ?_⟩
        simp only [List.length_append, List.length_cons, List.length_map] at *
        omega
      obtain ⟨n, hn⟩ := hN
      rw [hn]
      exact item_entry (n + 2) e.1 e.2 _ h1 h2 (h3 n r')
  · intro p hp
    obtain ⟨e, he, rfl⟩ := List.mem_map.1 hp
    rfl

/-- a file whose last entry isn't followed by a comma -/
theorem literalEval_last {pre tail r : List Char} (es : List (En × Lit)) (e1 : En) (x1 : Lit) (hnul : '\x00' ∉ pre ++ '{' :: (es.flatMap (fun e => e.1.text ++ [',']) ++ (e1.text ++ (tail ++ '}' :: r))))
    (hpre : Start pre) (ht : PIgn tail) (hr : PIgn r)
    (h : ∀ e ∈ es, PIgn e.1.ign ∧ Plain e.1.key ∧ ∀ n r, pyLit (n + 3) (e.1.val ++ ',' :: r) = some (e.2, ',' :: r))
    (hl : PIgn e1.ign ∧ Plain e1.key ∧ ∀ n, pyLit (n + 3) (e1.val ++ (tail ++ '}' :: r)) = some (x1, tail ++ '}' :: r)) :
    literalEval (pre ++ '{' :: (es.flatMap (fun e => e.1.text ++ [',']) ++ (e1.text ++ (tail ++ '}' :: r)))) = some (es.map (fun e => (.str e.1.key, e.2)) ++ [(.str e1.key, x1)]) := by
  have hflat : es.flatMap (fun e => e.1.text ++ [',']) = (es.map fun e => (e.1.text, ((.str e.1.key, e.2) : Lit × Lit))).flatMap (fun p => p.1 ++ [',']) := by
    rw [List.flatMap_map]
  have hN : ∃ n, pre.length + ((es.map fun e => (e.1.text, ((.str e.1.key, e.2) : Lit × Lit))).flatMap (fun p => p.1 ++ [',']) ++ (e1.text ++ (tail ++ '}' :: r))).length + 1 = n + 3 := by
    have : 2 ≤ e1.text.length := by unfold En.text; simp only [List.length_append, List.length_cons]; omega
    refine ⟨pre.length + ((es.map fun e => (e.1.text, ((.str e.1.key, e.2) : Lit × Lit))).flatMap (fun p => p.1 ++ [',']) ++ (e1.text ++ (tail ++ '}' :: r))).length - 2, ?_⟩
    simp only [List.length_append, List.length_cons] at *
    omega
  obtain ⟨n, hn⟩ := hN
  refine literalEval_of (r := r) (b := false) hnul hpre (pySeq_mono _ _ (1 + es.length) _ _ _ ?_ ?_) ?_ hr
  · have := flat_length (es.map fun e => (e.1.text, ((.str e.1.key, e.2) : Lit × Lit)))
    rw [← hflat] at this
    simp only [List.length_append, List.length_cons, List.length_map] at *
    omega
  · rw [hflat]
    have hlen : es.length = (es.map fun e => (e.1.text, ((.str e.1.key, e.2) : Lit × Lit))).length := by simp
    rw [hn, hlen, pySeq_commas _ _ (by decide) _ _ _ 1, show 1 = 0 + 1 from rfl, pySeq_last _ _ (by constructor <;> decide) ht _ _ (item_entry (n + 2) e1 x1 _ hl.1 hl.2.1 (hl.2.2 n))]
    · simp
    · intro p hp r'
      obtain ⟨e, he, rfl⟩ := List.mem_map.1 hp
      obtain ⟨h1, h2, h3⟩ := h e he
      exact item_entry (n + 2) e.1 e.2 _ h1 h2 (h3 n r')
  · intro p hp
    rcases List.mem_append.1 hp with hp | hp
    · obtain ⟨e, he, rfl⟩ := List.mem_map.1 hp
      rfl
    · rw [List.mem_singleton.1 hp]; rfl

end Mrcal.ModelPy

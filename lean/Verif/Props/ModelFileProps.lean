import Verif.Props.ModelTokenProps
/-
C39: reading .cameramodel files: what is accepted, and what it means.
-/
namespace Mrcal.ModelFile
open Mrcal.Name

/-! ### nested lists -/

theorem isJunk_iff (c : Char) : isJunk c = true ↔ (('0' ≤ c ∧ c ≤ '9') ∨ c = 'e' ∨ c = 'E' ∨ c = '.' ∨ c = ',' ∨ c = '-') := by
  unfold isJunk
  simp only [Bool.or_eq_true, decide_eq_true_eq, isDigit_iff, or_assoc]

theorem junk_body (start body s : List Char) (hb : '\n' ∉ body) : skipJunk (some start) (body ++ '\n' :: s) = skipJunk none s := by
  induction body with
  | nil => simp [skipJunk]
  | cons c body ih =>
    rw [List.mem_cons, not_or] at hb
    rw [List.cons_append, skipJunk, if_neg (fun h => hb.1 h.symm), ih hb.2]

theorem junk_filler {f : List Char} (h : Filler f) (b : List Char) : skipJunk none (f ++ b) = skipJunk none b := by
  induction h with
  | nil => rfl
  | junk hc h ih => rw [List.cons_append, skipJunk, if_pos (by rw [Bool.or_eq_true]; exact .inr ((isJunk_iff _).2 hc)), ih]
  | ws hc h ih => rw [List.cons_append, skipJunk, if_pos (by rw [Bool.or_eq_true]; exact .inl ((isWs_iff _).2 hc)), ih]
  | comment hb h ih =>
    rw [List.cons_append, skipJunk, if_neg (by decide), if_pos rfl, List.append_assoc, List.cons_append, junk_body _ _ _ hb, ih]

theorem junk_comment (start s : List Char) :
    skipJunk (some start) s = start ∨ ∃ body s', '\n' ∉ body ∧ s = body ++ '\n' :: s' ∧ skipJunk (some start) s = skipJunk none s' := by
  induction s with
  | nil => left; rfl
  | cons c s ih =>
    by_cases hc : c = '\n'
    · right
      refine ⟨[], s, by simp, by rw [hc]; rfl, ?_⟩
      rw [skipJunk, if_pos hc]
    · rcases ih with h | ⟨body, s', hb, hs, h⟩
      · left; rw [skipJunk, if_neg hc, h]
      · right
        refine ⟨c :: body, s', ?_, by rw [hs]; rfl, ?_⟩
        · rw [List.mem_cons, not_or]; exact ⟨fun h => hc h.symm, hb⟩
        · rw [skipJunk, if_neg hc, h]

theorem junk_split (s : List Char) : ∃ f, Filler f ∧ s = f ++ skipJunk none s := by
  induction hn : s.length using Nat.strong_induction_on generalizing s with
  | _ n ih =>
    cases s with
    | nil => exact ⟨[], .nil, rfl⟩
    | cons c s =>
      by_cases hw : (isWs c || isJunk c) = true
      · obtain ⟨a, ha, hs⟩ := ih s.length (by rw [← hn]; simp) s rfl
        refine ⟨c :: a, ?_, ?_⟩
        · rw [Bool.or_eq_true] at hw
          rcases hw with hw | hw
          · exact .ws ((isWs_iff c).1 hw) ha
          · exact .junk ((isJunk_iff c).1 hw) ha
        · rw [skipJunk, if_pos hw, List.cons_append, ← hs]
      · by_cases hc : c = '#'
        · rw [skipJunk, if_neg hw, if_pos hc]
          rcases junk_comment (c :: s) s with h | ⟨body, s', hb, hs, h⟩
          · rw [h]; exact ⟨[], .nil, rfl⟩
          · obtain ⟨a, ha, hs'⟩ := ih s'.length (by rw [← hn, hs]; simp; omega) s' rfl
            refine ⟨'#' :: (body ++ '\n' :: a), .comment hb ha, ?_⟩
            rw [h, hs, hc, List.cons_append, List.append_assoc, List.cons_append, ← hs']
        · rw [skipJunk, if_neg hw, if_neg hc]; exact ⟨[], .nil, rfl⟩

theorem ign_filler {a : List Char} (h : Ign a) : Filler a := by
  induction h with
  | nil => exact .nil
  | ws hc h ih => exact .ws hc ih
  | comment hb h ih => exact .comment hb ih

theorem filler_append {a b : List Char} (ha : Filler a) (hb : Filler b) : Filler (a ++ b) := by
  induction ha with
  | nil => exact hb
  | junk hc h ih => exact .junk hc ih
  | ws hc h ih => exact .ws hc ih
  | comment hb' h ih => rw [List.cons_append, List.append_assoc, List.cons_append]; exact .comment hb' ih

theorem junk_ign (s : List Char) : skipJunk none (skipIgnore s) = skipJunk none s := by
  obtain ⟨a, ha, hs⟩ := skip_split s
  have h := junk_filler (ign_filler ha) (skipIgnore s)
  rw [← hs] at h
  exact h.symm

def isBracket (c : Char) : Prop := c = '[' ∨ c = '(' ∨ c = ']' ∨ c = ')'

theorem junk_bracket {c : Char} (h : isBracket c) (s : List Char) : skipJunk none (c :: s) = c :: s := by
  rw [skipJunk, if_neg (by rcases h with rfl | rfl | rfl | rfl <;> decide), if_neg (by rcases h with rfl | rfl | rfl | rfl <;> decide)]

theorem balanced_congr {x y : List Char} (h : skipJunk none x = skipJunk none y) (n d : Nat) : readBalanced n d x = readBalanced n d y := by
  cases n with
  | zero => rfl
  | succ n => rw [readBalanced, readBalanced, h]

theorem nest_filler {d : Nat} {t : List Char} (h : Nest d t) {f : List Char} (hf : Filler f) : Nest d (f ++ t) := by
  cases h with
  | opens hf' hc h => rw [← List.append_assoc]; exact .opens (filler_append hf hf') hc h
  | closes hf' hc h => rw [← List.append_assoc]; exact .closes (filler_append hf hf') hc h
  | last hf' hc => rw [← List.append_assoc]; exact .last (filler_append hf hf') hc

/-- the optional comma after a closing bracket -/
def dropComma (s : List Char) : List Char := match s with
  | ',' :: s => s
  | s => s

theorem junk_dropComma (s : List Char) : skipJunk none (dropComma s) = skipJunk none s := by
  unfold dropComma
  split
  · rw [skipJunk, if_pos (by decide)]
  · rfl

theorem balanced_close (n : Nat) (r : List Char) (l : Nat) :
    (match r with
      | ',' :: r => readBalanced n l r
      | r => readBalanced n l r) = readBalanced n l (dropComma r) := by
  unfold dropComma
  split <;> rfl

theorem balanced_step (fuel level : Nat) (s : List Char) : readBalanced (fuel + 1) level s = (match skipJunk none s with
    | [] => none
    | c :: r =>
      if c = '[' ∨ c = '(' then readBalanced fuel (level + 1) r
      else if c = ']' ∨ c = ')' then
        match level with
        | 0 => none
        | 1 => some (skipIgnore r)
        | level + 2 => readBalanced fuel (level + 1) (dropComma (skipIgnore r))
      else none) := by
  rw [readBalanced]
  cases skipJunk none s with
  | nil => rfl
  | cons c r =>
    dsimp only
    by_cases h1 : c = '[' ∨ c = '('
    · rw [if_pos h1, if_pos h1]
    · rw [if_neg h1, if_neg h1]
      by_cases h2 : c = ']' ∨ c = ')'
      · rw [if_pos h2, if_pos h2]
        match level with
        | 0 => rfl
        | 1 => rfl
        | l + 2 => exact balanced_close _ _ _
      · rw [if_neg h2, if_neg h2]

theorem balanced_sound (fuel : Nat) : ∀ (level : Nat) (s r : List Char), readBalanced fuel level s = some r →
    ∃ t r', Nest level t ∧ s = t ++ r' ∧ r = skipIgnore r' := by
  induction fuel with
  | zero => intro level s r h; simp [readBalanced] at h
  | succ fuel ih =>
    intro level s r h
    rw [balanced_step] at h
    obtain ⟨f, hf, hs⟩ := junk_split s
    cases hj : skipJunk none s with
    | nil => rw [hj] at h; simp at h
    | cons c r1 =>
      rw [hj] at h hs
      dsimp only at h
      by_cases h1 : c = '[' ∨ c = '('
      · rw [if_pos h1] at h
        obtain ⟨t, r', hn, e, hr⟩ := ih _ _ _ h
        exact ⟨f ++ c :: t, r', .opens hf h1 hn, by rw [hs, e]; simp, hr⟩
      · rw [if_neg h1] at h
        by_cases h2 : c = ']' ∨ c = ')'
        · rw [if_pos h2] at h
          match level, h with
          | 0, h => simp at h
          | 1, h => exact ⟨f ++ [c], r1, .last hf h2, by rw [hs]; simp, (Option.some.inj h).symm⟩
          | l + 2, h =>
            dsimp only at h
            obtain ⟨t, r', hn, e, hr⟩ := ih _ _ _ h
            obtain ⟨a, ha, hsk⟩ := skip_split r1
            obtain ⟨k, hk, hk'⟩ : ∃ k, Filler k ∧ skipIgnore r1 = k ++ dropComma (skipIgnore r1) := by
              generalize skipIgnore r1 = x
              unfold dropComma
              split
              · exact ⟨[','], .junk (.inr (.inr (.inr (.inr (.inl rfl))))) .nil, rfl⟩
              · exact ⟨[], .nil, rfl⟩
            refine ⟨f ++ c :: ((a ++ k) ++ t), r', .closes hf h2 (nest_filler hn (filler_append (ign_filler ha) hk)), ?_, hr⟩
            rw [hs, hsk, hk', e]; simp
        · rw [if_neg h2] at h; simp at h

theorem balanced_complete {d : Nat} {t : List Char} (h : Nest d t) : ∀ (fuel : Nat) (r : List Char), t.length < fuel →
    readBalanced fuel d (t ++ r) = some (skipIgnore r) := by
  induction h with
  | @opens d f s c hf hc h ih =>
    intro fuel r hl
    obtain ⟨n, rfl⟩ : ∃ n, fuel = n + 1 := ⟨fuel - 1, by omega⟩
    rw [balanced_step, List.append_assoc, junk_filler hf, List.cons_append, junk_bracket (by rcases hc with h | h; exact .inl h; exact .inr (.inl h))]
    dsimp only
    rw [if_pos hc, ih n r (by simp at hl; omega)]
  | @closes d f s c hf hc h ih =>
    intro fuel r hl
    obtain ⟨n, rfl⟩ : ∃ n, fuel = n + 1 := ⟨fuel - 1, by omega⟩
    rw [balanced_step, List.append_assoc, junk_filler hf, List.cons_append, junk_bracket (.inr (.inr hc))]
    dsimp only
    rw [if_neg (by rcases hc with rfl | rfl <;> decide), if_pos hc]
    rw [balanced_congr ((junk_dropComma _).trans (junk_ign _)), ih n r (by simp at hl; omega)]
  | @last f c hf hc =>
    intro fuel r hl
    obtain ⟨n, rfl⟩ : ∃ n, fuel = n + 1 := ⟨fuel - 1, by omega⟩
    rw [balanced_step, List.append_assoc, junk_filler hf, List.cons_append, junk_bracket (.inr (.inr hc))]
    dsimp only
    rw [if_neg (by rcases hc with rfl | rfl <;> decide), if_pos hc]
    rfl

/-! ### values that aren't interpreted -/

/-- what may follow the value of a key -/
def Sep (c : Char) : Prop := c = ',' ∨ c = '}'

theorem sep_tok {c : Char} (h : Sep c) : Tok c := by rcases h with rfl | rfl <;> exact ⟨by decide, by decide⟩

theorem num_head' {t : FloatTok} {tok : List Char} (h : NumText t tok) (hne : tok ≠ []) :
    ∃ c l, tok = c :: l ∧ (c = '-' ∨ isDigit c = true ∨ c = '.' ∨ c = 'e' ∨ c = 'E') := by
  obtain ⟨e, hi, hf, he, rfl⟩ := h
  obtain ⟨neg, int, frac, exp⟩ := t
  dsimp only at hi hf he hne ⊢
  cases neg with
  | true => exact ⟨'-', _, rfl, .inl rfl⟩
  | false =>
    cases int with
    | cons c int => exact ⟨c, _, rfl, .inr (.inl ((digits_iff _).1 hi c List.mem_cons_self))⟩
    | nil =>
      cases frac with
      | some f => exact ⟨'.', _, rfl, by simp⟩
      | none =>
        cases he with
        | none => exact absurd rfl hne
        | plain he hd hne => exact ⟨_, _, rfl, .inr (.inr (.inr he))⟩
        | plus he hd hne => exact ⟨_, _, rfl, .inr (.inr (.inr he))⟩
        | minus he hd hne => exact ⟨_, _, rfl, .inr (.inr (.inr he))⟩

theorem num_nobracket {t : FloatTok} {tok : List Char} (h : NumText t tok) {c : Char} (hc : c = '[' ∨ c = '(') : c ∉ tok := by
  obtain ⟨e, hi, hf, he, rfl⟩ := h
  have hd : ∀ l : List Char, Digits l → c ∉ l := by
    intro l hl hm
    have := (digits_iff _).1 hl c hm
    rcases hc with rfl | rfl <;> exact absurd this (by decide)
  have h1 : c ∉ (if t.neg = true then ['-'] else []) := by
    split
    · rcases hc with rfl | rfl <;> decide
    · simp
  have h2 : c ∉ fracText t.frac := by
    cases hfr : t.frac with
    | none => simp [fracText]
    | some f =>
      rw [fracText, List.mem_cons, not_or]
      exact ⟨by rcases hc with rfl | rfl <;> decide, hd f (hf f hfr)⟩
  have h3 : c ∉ e := by
    generalize t.exp = x at he
    cases he with
    | none => simp
    | plain he hD hne =>
      rw [List.mem_cons, not_or]
      exact ⟨by rcases hc with rfl | rfl <;> rcases he with rfl | rfl <;> decide, hd _ hD⟩
    | plus he hD hne =>
      rw [List.mem_cons, not_or, List.mem_cons, not_or]
      exact ⟨by rcases hc with rfl | rfl <;> rcases he with rfl | rfl <;> decide, by rcases hc with rfl | rfl <;> decide, hd _ hD⟩
    | minus he hD hne =>
      rw [List.mem_cons, not_or, List.mem_cons, not_or]
      exact ⟨by rcases hc with rfl | rfl <;> rcases he with rfl | rfl <;> decide, by rcases hc with rfl | rfl <;> decide, hd _ hD⟩
  simp only [List.mem_append, not_or]
  exact ⟨h1, hd _ hi, h2, h3⟩

/-- a prefix that doesn't contain the given character is before it -/
theorem prefix_before {c : Char} {tok f r X : List Char} (hc : c ∉ tok) (h : tok ++ r = f ++ c :: X) : ∃ g, f = tok ++ g := by
  induction tok generalizing f with
  | nil => exact ⟨f, rfl⟩
  | cons d tok ih =>
    rw [List.mem_cons, not_or] at hc
    cases f with
    | nil =>
      simp only [List.cons_append, List.nil_append, List.cons.injEq] at h
      exact absurd h.1.symm hc.1
    | cons e f =>
      simp only [List.cons_append, List.cons.injEq] at h
      obtain ⟨g, hg⟩ := ih hc.2 h.2
      exact ⟨g, by rw [← h.1, hg]; rfl⟩

/-- skipping whitespace in front of a list -/
theorem filler_skip {f : List Char} (hf : Filler f) {c : Char} (hc : c = '[' ∨ c = '(') (X : List Char) :
    ∃ a g, Ign a ∧ f = a ++ g ∧ skipIgnore (f ++ c :: X) = g ++ c :: X ∧ ∀ d l, g ++ c :: X = d :: l → isJunk d = true ∨ d = c := by
  induction hf with
  | nil =>
    refine ⟨[], [], .nil, rfl, skip_tok (by rcases hc with rfl | rfl <;> exact ⟨by decide, by decide⟩) X, ?_⟩
    intro d l h
    simp only [List.nil_append, List.cons.injEq] at h
    exact .inr h.1.symm
  | @junk d s hd h ih =>
    refine ⟨[], d :: s, .nil, rfl, ?_, ?_⟩
    · have hj := (isJunk_iff d).2 hd
      rw [List.cons_append]
      apply skip_tok
      constructor
      · rintro (rfl | rfl | rfl | rfl) <;> exact absurd hj (by decide)
      · rintro rfl; exact absurd hj (by decide)
    · intro e l h
      simp only [List.cons_append, List.cons.injEq] at h
      rw [← h.1]
      exact .inl ((isJunk_iff d).2 hd)
  | @ws d s hd h ih =>
    obtain ⟨a, g, ha, hfg, hs, hh⟩ := ih
    refine ⟨d :: a, g, .ws hd ha, by rw [hfg]; rfl, ?_, hh⟩
    have := skip_ign (.ws hd .nil : Ign [d]) (s ++ c :: X)
    rw [List.cons_append, List.nil_append] at this
    rw [List.cons_append, this, hs]
  | @comment body s hb h ih =>
    obtain ⟨a, g, ha, hfg, hs, hh⟩ := ih
    refine ⟨'#' :: (body ++ '\n' :: a), g, .comment hb ha, by rw [hfg]; simp, ?_, hh⟩
    have := skip_ign (.comment hb .nil : Ign ('#' :: (body ++ ['\n']))) (s ++ c :: X)
    have e : '#' :: (body ++ '\n' :: s) ++ c :: X = '#' :: (body ++ ['\n']) ++ (s ++ c :: X) := by simp
    rw [e, this, hs]

theorem unknown_sound {s r : List Char} (h : readUnknown s = some r) : ∃ t r', OtherText t ∧ s = t ++ r' ∧ skipIgnore r = skipIgnore r' := by
  unfold readUnknown at h
  cases hv : readValue s with
  | some r1 =>
    rw [hv] at h
    obtain rfl := Option.some.inj h
    obtain ⟨a, tok, t, ha, hn, h0, h1, hs⟩ := readValue_sound hv
    exact ⟨a ++ tok, r1, .num ha hn h0 h1, by rw [hs]; simp, rfl⟩
  | none =>
    rw [hv] at h
    dsimp only at h
    cases hstr : readString s with
    | some x =>
      obtain ⟨body, r1⟩ := x
      rw [hstr] at h
      obtain rfl := Option.some.inj h
      obtain ⟨t, ht, hs⟩ := (readString_iff _ _ _).1 hstr
      exact ⟨t, r1, .str ht, hs, rfl⟩
    | none =>
      rw [hstr] at h
      dsimp only at h
      obtain ⟨t, r', hn, hs, hr⟩ := balanced_sound _ _ _ _ h
      refine ⟨t, r', .list hn ?_, hs, by rw [hr, skip_idem]⟩
      intro a tok r0 t0 ha hN ht
      exact (readValue_none_iff s).1 hv a tok (r0 ++ r') t0 ha hN (by rw [hs, ht]; simp)

theorem sep_stop {a : List Char} (ha : Ign a) {c : Char} (hc : Sep c) (rest : List Char) : Stop (a ++ c :: rest) := by
  apply ign_stop ha
  rcases hc with rfl | rfl <;> exact ⟨by decide, by decide, by decide, by decide⟩

/-- strings are not numbers -/
theorem value_string {body t : List Char} (h : StringText body t) (r : List Char) : readValue (t ++ r) = none := by
  cases hv : readValue (t ++ r) with
  | none => rfl
  | some x =>
    exfalso
    obtain ⟨a, tok, t0, ha, hn, h0, h1, hs⟩ := readValue_sound hv
    obtain ⟨c, l, rfl, hc⟩ := num_head' hn h0
    obtain ⟨c', l', e, htok⟩ := num_head hn h0
    injection e with e1 e2
    subst e1
    have k1 : skipIgnore (t ++ r) = c :: (l ++ x) := by rw [hs, List.cons_append, skip_to ha htok]
    obtain ⟨a', pre, q, q', ha', hpre, hq, hq', hb1, hb2, rfl⟩ := h
    have k2 : ∃ d l', skipIgnore (a' ++ (pre ++ q :: (body ++ [q'])) ++ r) = d :: l' ∧ (d = 'b' ∨ d = '"' ∨ d = '\'') := by
      rw [List.append_assoc]
      rcases hpre with rfl | rfl
      · exact ⟨q, _, skip_to ha' (by rcases hq with rfl | rfl <;> exact ⟨by decide, by decide⟩) _, .inr hq⟩
      · exact ⟨'b', _, skip_to ha' ⟨by decide, by decide⟩ _, .inl rfl⟩
    obtain ⟨d, l', k2, hd⟩ := k2
    rw [k2] at k1
    injection k1 with k3 k4
    subst k3
    rcases hd with rfl | rfl | rfl <;> rcases hc with h | h | h | h | h <;> exact absurd h (by decide)

theorem unknown_complete {t : List Char} (h : OtherText t) {a : List Char} (ha : Ign a) {c : Char} (hc : Sep c) (rest : List Char) :
    ∃ r, readUnknown (t ++ (a ++ c :: rest)) = some r ∧ skipIgnore r = c :: rest := by
  unfold readUnknown
  cases h with
  | @num a' tok t0 ha' hn h0 h1 =>
    refine ⟨a ++ c :: rest, ?_, skip_to ha (sep_tok hc) rest⟩
    rw [List.append_assoc, readValue_complete ha' hn h0 h1 (sep_stop ha hc rest)]
  | @str body _ hstr =>
    refine ⟨a ++ c :: rest, ?_, skip_to ha (sep_tok hc) rest⟩
    rw [value_string hstr, (readString_iff _ _ _).2 ⟨t, hstr, rfl⟩]
  | list hn hno =>
    have hn' := hn
    cases hn' with
    | @opens _ f s o hf ho h =>
      refine ⟨skipIgnore (a ++ c :: rest), ?_, by rw [skip_idem, skip_to ha (sep_tok hc)]⟩
      obtain ⟨a1, g, ha1, hfg, hsk, hhead⟩ := filler_skip hf ho (s ++ (a ++ c :: rest))
      have hsk' : skipIgnore (f ++ o :: s ++ (a ++ c :: rest)) = g ++ o :: (s ++ (a ++ c :: rest)) := by
        rw [← hsk]; simp
      have hv : readValue (f ++ o :: s ++ (a ++ c :: rest)) = none := by
        cases hv : readValue (f ++ o :: s ++ (a ++ c :: rest)) with
        | none => rfl
        | some x =>
          exfalso
          obtain ⟨a2, tok, t0, ha2, hN, h0, h1, hs⟩ := readValue_sound hv
          obtain ⟨d, l, hdl, htok⟩ := num_head hN h0
          have k1 : skipIgnore (f ++ o :: s ++ (a ++ c :: rest)) = tok ++ x := by rw [hs, hdl, List.cons_append, skip_to ha2 htok]
          rw [hsk'] at k1
          obtain ⟨g', hg'⟩ := prefix_before (num_nobracket hN ho) k1.symm
          rcases hno a1 tok (g' ++ o :: s) t0 ha1 hN (by rw [hfg, hg']; simp) with h | h
          · exact h0 h
          · exact h1 h
      have hstr : readString (f ++ o :: s ++ (a ++ c :: rest)) = none := by
        cases hx : readString (f ++ o :: s ++ (a ++ c :: rest)) with
        | none => rfl
        | some x =>
          exfalso
          obtain ⟨t1, ⟨a', pre, q, q', ha', hpre, hq, hq', hb1, hb2, rfl⟩, hs⟩ := (readString_iff _ x.1 x.2).1 hx
          have k2 : ∃ d l', skipIgnore (f ++ o :: s ++ (a ++ c :: rest)) = d :: l' ∧ (d = 'b' ∨ d = '"' ∨ d = '\'') := by
            rw [hs, List.append_assoc]
            rcases hpre with rfl | rfl
            · exact ⟨q, _, skip_to ha' (by rcases hq with rfl | rfl <;> exact ⟨by decide, by decide⟩) _, .inr hq⟩
            · exact ⟨'b', _, skip_to ha' ⟨by decide, by decide⟩ _, .inl rfl⟩
          obtain ⟨d, l', k2, hd⟩ := k2
          rw [hsk'] at k2
          rcases hhead d l' k2 with hj | hj
          · rcases hd with rfl | rfl | rfl <;> exact absurd hj (by decide)
          · rcases ho with rfl | rfl <;> rcases hd with rfl | rfl | rfl <;> exact absurd hj (by decide)
      rw [hv, hstr]
      dsimp only
      exact balanced_complete hn _ _ (by simp; omega)

/-! ### one key and its value -/

/-- the effect of an entry on what was read so far -/
def stepE (st : St) : Entry → Option St
  | .lensmodel L => if st.lens.isSome then none else some ⟨some L, st.intrinsics, st.rt_cam_ref, st.imagersize⟩
  | .intrinsics v =>
    if st.intrinsics.isSome then none
    else match st.lens with
      | none => none
      | some L => if v.length = L.numParams.toNat then some ⟨st.lens, some v, st.rt_cam_ref, st.imagersize⟩ else none
  | .extrinsics v =>
    match st.rt_cam_ref with
    | some rt => if rtAgree v rt then some st else none
    | none => some ⟨st.lens, st.intrinsics, some v, st.imagersize⟩
  | .imagersize w h => if st.imagersize.1 > 0 then none else some ⟨st.lens, st.intrinsics, st.rt_cam_ref, (w, h)⟩
  | .other => some st

theorem numParams_pos (L : Lens) : 1 ≤ L.numParams.toNat := by
  cases L with
  | splined o nx ny f =>
    have : (0 : Int) ≤ (nx : Int) * (ny : Int) := by positivity
    simp only [Lens.numParams]
    omega
  | _ => simp [Lens.numParams]

theorem kv_sound {key : List Char} {st st' : St} {s r : List Char} (h : readKeyValue none key st s = .ok (st', r)) :
    ∃ e v r', ValueText key e v ∧ stepE st e = some st' ∧ s = v ++ r' ∧ skipIgnore r = skipIgnore r' := by
  unfold readKeyValue at h
  by_cases h1 : key = "lensmodel".toList
  · rw [if_pos h1] at h
    by_cases hl : st.lens.isSome = true
    · rw [if_pos hl] at h; simp at h
    rw [if_neg hl] at h
    cases hs : readString s with
    | none => rw [hs] at h; simp at h
    | some x =>
      obtain ⟨name, r1⟩ := x
      rw [hs] at h
      dsimp only at h
      cases hn : fromName (some name) with
      | ok L =>
        rw [hn] at h
        simp only [Step.ok.injEq, Prod.mk.injEq] at h
        obtain ⟨rfl, rfl⟩ := h
        obtain ⟨t, ht, e⟩ := (readString_iff _ _ _).1 hs
        exact ⟨.lensmodel L, t, r1, by rw [h1]; exact .lensmodel ht hn, by rw [stepE, if_neg hl], e, rfl⟩
      | invalidMissingConfig => rw [hn] at h; simp at h
      | invalidBadConfig => rw [hn] at h; simp at h
      | invalidType => rw [hn] at h; simp at h
  rw [if_neg h1] at h
  by_cases h2 : key = "intrinsics".toList
  · rw [if_pos h2] at h
    by_cases hi : st.intrinsics.isSome = true
    · rw [if_pos hi] at h; simp at h
    rw [if_neg hi] at h
    cases hL : st.lens with
    | none => rw [hL] at h; simp at h
    | some L =>
      rw [hL] at h
      dsimp only at h
      rw [if_neg (by simp [tooSmall])] at h
      cases hl : readList ingestDouble L.numParams.toNat s with
      | none => rw [hl] at h; simp at h
      | some x =>
        obtain ⟨v, r1⟩ := x
        rw [hl] at h
        simp only [Step.ok.injEq, Prod.mk.injEq] at h
        obtain ⟨rfl, rfl⟩ := h
        obtain ⟨hv, t, ht, e⟩ := readList_sound reads_double (numParams_pos L) hl
        refine ⟨.intrinsics v, t, r1, by rw [h2]; exact .intrinsics ht, ?_, e, rfl⟩
        rw [stepE, if_neg hi, hL]
        dsimp only
        rw [if_pos hv]
  rw [if_neg h2] at h
  by_cases h3 : key = "extrinsics".toList ∨ key = "rt_cam_ref".toList
  · rw [if_pos h3] at h
    cases hl : readList ingestDouble 6 s with
    | none => rw [hl] at h; simp at h
    | some x =>
      obtain ⟨v, r1⟩ := x
      rw [hl] at h
      dsimp only at h
      obtain ⟨hv, t, ht, e⟩ := readList_sound reads_double (by omega) hl
      have hvt : ValueText key (.extrinsics v) t := by
        rcases h3 with h3 | h3
        · rw [h3]; exact .extrinsics ht hv
        · rw [h3]; exact .rt_cam_ref ht hv
      cases hrt : st.rt_cam_ref with
      | some rt =>
        rw [hrt] at h
        dsimp only at h
        by_cases ha : rtAgree v rt = true
        · rw [if_pos ha] at h
          simp only [Step.ok.injEq, Prod.mk.injEq] at h
          obtain ⟨rfl, rfl⟩ := h
          refine ⟨.extrinsics v, t, r1, hvt, ?_, e, rfl⟩
          rw [stepE, hrt]
          dsimp only
          rw [if_pos ha]
        · rw [if_neg ha] at h; simp at h
      | none =>
        rw [hrt] at h
        simp only [Step.ok.injEq, Prod.mk.injEq] at h
        obtain ⟨rfl, rfl⟩ := h
        exact ⟨.extrinsics v, t, r1, hvt, by rw [stepE, hrt], e, rfl⟩
  rw [if_neg h3] at h
  by_cases h4 : key = "imagersize".toList
  · rw [if_pos h4] at h
    by_cases hi : st.imagersize.1 > 0
    · rw [if_pos hi] at h; simp at h
    rw [if_neg hi] at h
    cases hl : readList ingestUint 2 s with
    | none => rw [hl] at h; simp at h
    | some x =>
      obtain ⟨v, r1⟩ := x
      rw [hl] at h
      obtain ⟨hv, t, ht, e⟩ := readList_sound reads_uint (by omega) hl
      match v, hv, h, ht with
      | [w, hh], _, h, ht =>
        simp only [Step.ok.injEq, Prod.mk.injEq] at h
        obtain ⟨rfl, rfl⟩ := h
        exact ⟨.imagersize w hh, t, r1, by rw [h4]; exact .imagersize ht, by rw [stepE, if_neg hi], e, rfl⟩
  rw [if_neg h4] at h
  cases hu : readUnknown s with
  | none => rw [hu] at h; simp at h
  | some r1 =>
    rw [hu] at h
    simp only [Step.ok.injEq, Prod.mk.injEq] at h
    obtain ⟨rfl, rfl⟩ := h
    obtain ⟨t, r', ht, e, hr⟩ := unknown_sound hu
    refine ⟨.other, t, r', .other ?_ ht, rfl, e, hr⟩
    simp only [List.mem_cons, List.not_mem_nil, or_false, not_or]
    rw [not_or] at h3
    exact ⟨h1, h2, h3.1, h3.2, h4⟩

theorem kv_complete {key : List Char} {e : Entry} {v : List Char} (h : ValueText key e v) {st st' : St} (hst : stepE st e = some st')
    {a : List Char} (ha : Ign a) {c : Char} (hc : Sep c) (rest : List Char) :
    ∃ r, readKeyValue none key st (v ++ (a ++ c :: rest)) = .ok (st', r) ∧ skipIgnore r = c :: rest := by
  have hskip := skip_to ha (sep_tok hc) rest
  unfold readKeyValue
  cases h with
  | @lensmodel name s L hs hL =>
    refine ⟨a ++ c :: rest, ?_, hskip⟩
    rw [if_pos rfl]
    rw [stepE] at hst
    by_cases hl : st.lens.isSome = true
    · rw [if_pos hl] at hst; simp at hst
    rw [if_neg hl] at hst ⊢
    rw [(readString_iff _ _ _).2 ⟨v, hs, rfl⟩]
    dsimp only
    rw [hL, ← Option.some.inj hst]
  | @intrinsics vs s hs =>
    refine ⟨a ++ c :: rest, ?_, hskip⟩
    rw [if_neg (by decide), if_pos rfl]
    rw [stepE] at hst
    by_cases hi : st.intrinsics.isSome = true
    · rw [if_pos hi] at hst; simp at hst
    rw [if_neg hi] at hst ⊢
    cases hL : st.lens with
    | none => rw [hL] at hst; simp at hst
    | some L =>
      rw [hL] at hst
      dsimp only at hst ⊢
      by_cases hv : vs.length = L.numParams.toNat
      · rw [if_pos hv] at hst
        rw [if_neg (by simp [tooSmall]), ← hv, readList_complete reads_double hs]
        dsimp only
        rw [← Option.some.inj hst]
      · rw [if_neg hv] at hst; simp at hst
  | @extrinsics vs s hs hv =>
    refine ⟨a ++ c :: rest, ?_, hskip⟩
    rw [if_neg (by decide), if_neg (by decide), if_pos (.inl rfl), ← hv, readList_complete reads_double hs]
    dsimp only
    rw [stepE] at hst
    cases hrt : st.rt_cam_ref with
    | some rt =>
      rw [hrt] at hst
      dsimp only at hst ⊢
      by_cases hag : rtAgree vs rt = true
      · rw [if_pos hag] at hst ⊢
        rw [← Option.some.inj hst]
      · rw [if_neg hag] at hst; simp at hst
    | none =>
      rw [hrt] at hst
      dsimp only at hst ⊢
      rw [← Option.some.inj hst]
  | @rt_cam_ref vs s hs hv =>
    refine ⟨a ++ c :: rest, ?_, hskip⟩
    rw [if_neg (by decide), if_neg (by decide), if_pos (.inr rfl), ← hv, readList_complete reads_double hs]
    dsimp only
    rw [stepE] at hst
    cases hrt : st.rt_cam_ref with
    | some rt =>
      rw [hrt] at hst
      dsimp only at hst ⊢
      by_cases hag : rtAgree vs rt = true
      · rw [if_pos hag] at hst ⊢
        rw [← Option.some.inj hst]
      · rw [if_neg hag] at hst; simp at hst
    | none =>
      rw [hrt] at hst
      dsimp only at hst ⊢
      rw [← Option.some.inj hst]
  | @imagersize w h s hs =>
    refine ⟨a ++ c :: rest, ?_, hskip⟩
    rw [if_neg (by decide), if_neg (by decide), if_neg (by decide), if_pos rfl]
    rw [stepE] at hst
    by_cases hi : st.imagersize.1 > 0
    · rw [if_pos hi] at hst; simp at hst
    rw [if_neg hi] at hst ⊢
    have := readList_complete reads_uint hs (a ++ c :: rest)
    rw [show [w, h].length = 2 from rfl] at this
    rw [this]
    dsimp only
    rw [← Option.some.inj hst]
  | other hk ho =>
    obtain ⟨r, hr, hsk⟩ := unknown_complete ho ha hc rest
    refine ⟨r, ?_, hsk⟩
    simp only [List.mem_cons, List.not_mem_nil, or_false, not_or] at hk
    rw [if_neg hk.1, if_neg hk.2.1, if_neg (by rw [not_or]; exact ⟨hk.2.2.1, hk.2.2.2.1⟩), if_neg hk.2.2.2.2, hr]
    dsimp only
    rw [stepE] at hst
    rw [← Option.some.inj hst]

/-! ### the whole file -/

theorem sep_cases (s : List Char) : readSeparator s = (match skipIgnore s with
    | [] => none
    | c :: r =>
      if c = '}' then some (true, r)
      else if c = ',' then
        match skipIgnore r with
        | [] => some (false, r)
        | c' :: r' => if c' = '}' then some (true, r') else some (false, r)
      else none) := by
  unfold readSeparator
  cases skipIgnore s with
  | nil => rfl
  | cons c r =>
    by_cases h1 : c = '}'
    · subst h1; rfl
    · by_cases h2 : c = ','
      · subst h2
        dsimp only
        rw [if_neg (by decide), if_pos rfl]
        show (match skipIgnore r with
          | '}' :: r' => some (true, r')
          | _ => some (false, r)) = _
        cases skipIgnore r with
        | nil => rfl
        | cons c' r' =>
          by_cases h3 : c' = '}'
          · subst h3; rfl
          · dsimp only
            rw [if_neg h3]
            split
            · rename_i heq; injection heq with k1 k2; exact absurd k1 h3
            · rfl
      · dsimp only
        rw [if_neg h1, if_neg h2]
        split
        · rename_i heq; injection heq with k1 k2; exact absurd k1 h1
        · rename_i heq; injection heq with k1 k2; exact absurd k1 h2
        · rfl

theorem sep_sound {s r : List Char} {closing : Bool} (h : readSeparator s = some (closing, r)) :
    ∃ a, Ign a ∧ ((closing = true ∧ s = a ++ '}' :: r) ∨ (closing = true ∧ ∃ b, Ign b ∧ s = a ++ ',' :: (b ++ '}' :: r)) ∨ (closing = false ∧ s = a ++ ',' :: r)) := by
  rw [sep_cases] at h
  cases hs : skipIgnore s with
  | nil => rw [hs] at h; simp at h
  | cons c r1 =>
    rw [hs] at h
    dsimp only at h
    obtain ⟨a, ha, e⟩ := skip_cons hs
    refine ⟨a, ha, ?_⟩
    by_cases h1 : c = '}'
    · rw [if_pos h1] at h
      simp only [Option.some.injEq, Prod.mk.injEq] at h
      obtain ⟨rfl, rfl⟩ := h
      exact .inl ⟨rfl, by rw [e, h1]⟩
    rw [if_neg h1] at h
    by_cases h2 : c = ','
    · rw [if_pos h2] at h
      cases hr : skipIgnore r1 with
      | nil =>
        rw [hr] at h
        simp only [Option.some.injEq, Prod.mk.injEq] at h
        obtain ⟨rfl, rfl⟩ := h
        exact .inr (.inr ⟨rfl, by rw [e, h2]⟩)
      | cons c' r2 =>
        rw [hr] at h
        dsimp only at h
        obtain ⟨b, hb, e'⟩ := skip_cons hr
        by_cases h3 : c' = '}'
        · rw [if_pos h3] at h
          simp only [Option.some.injEq, Prod.mk.injEq] at h
          obtain ⟨rfl, rfl⟩ := h
          exact .inr (.inl ⟨rfl, b, hb, by rw [e, h2, e', h3]⟩)
        · rw [if_neg h3] at h
          simp only [Option.some.injEq, Prod.mk.injEq] at h
          obtain ⟨rfl, rfl⟩ := h
          exact .inr (.inr ⟨rfl, by rw [e, h2]⟩)
    · rw [if_neg h2] at h; simp at h

theorem readString_congr {s s' : List Char} (h : skipIgnore s = skipIgnore s') : readString s = readString s' := by
  rw [readString_eq, readString_eq, h]

theorem sep_congr {s s' : List Char} (h : skipIgnore s = skipIgnore s') : readSeparator s = readSeparator s' := by
  rw [sep_cases, sep_cases, h]

theorem keys_congr (buf : Option Nat) (n : Nat) (st : St) {s s' : List Char} (h : skipIgnore s = skipIgnore s') : readKeys buf n st s = readKeys buf n st s' := by
  cases n with
  | zero => rfl
  | succ n => rw [readKeys, readKeys, readString_congr h]

/-- the ":" after a key -/
theorem keys_step (buf : Option Nat) (n : Nat) (st : St) (s : List Char) : readKeys buf (n + 1) st s = (match readString s with
    | none => .fail 0
    | some (key, s) =>
      match skipIgnore s with
      | [] => .fail 0
      | c :: s =>
        if c = ':' then
          match readKeyValue buf key st s with
          | .fail n => .fail n
          | .ok (st, s) =>
            match readSeparator s with
            | none => .fail 0
            | some (false, s) => readKeys buf n st s
            | some (true, s) => if skipIgnore s = [] then .ok st else .fail 0
        else .fail 0) := by
  rw [readKeys]
  cases readString s with
  | none => rfl
  | some x =>
    obtain ⟨key, s1⟩ := x
    dsimp only
    cases skipIgnore s1 with
    | nil => rfl
    | cons c s2 =>
      by_cases h : c = ':'
      · subst h; rfl
      · dsimp only
        rw [if_neg h]
        split
        · rename_i heq; injection heq with k1 k2; exact absurd k1 h
        · rfl

theorem skip_nil {s : List Char} : skipIgnore s = [] ↔ Ign s := by
  constructor
  · intro h
    obtain ⟨a, ha, e⟩ := skip_split s
    rw [h, List.append_nil] at e
    rw [e]; exact ha
  · intro h
    have := skip_ign h []
    rw [List.append_nil] at this
    rw [this]; rfl

theorem keys_sound (n : Nat) : ∀ (st st' : St) (s : List Char), readKeys none n st s = .ok st' →
    ∃ es body b, BodyText es body ∧ Ign b ∧ s = body ++ b ∧ es.foldlM stepE st = some st' := by
  induction n with
  | zero => intro st st' s h; simp [readKeys] at h
  | succ n ih =>
    intro st st' s h
    rw [keys_step] at h
    cases hk : readString s with
    | none => rw [hk] at h; simp at h
    | some x =>
      obtain ⟨key, s1⟩ := x
      rw [hk] at h
      dsimp only at h
      obtain ⟨k, hkt, e1⟩ := (readString_iff _ _ _).1 hk
      cases hc : skipIgnore s1 with
      | nil => rw [hc] at h; simp at h
      | cons c s2 =>
        rw [hc] at h
        dsimp only at h
        obtain ⟨a, ha, e2⟩ := skip_cons hc
        by_cases hcc : c = ':'
        · rw [if_pos hcc] at h
          cases hv : readKeyValue none key st s2 with
          | fail m => rw [hv] at h; simp at h
          | ok x =>
            obtain ⟨st1, s3⟩ := x
            rw [hv] at h
            dsimp only at h
            obtain ⟨e, v, r', hvt, hst, e3, hsk⟩ := kv_sound hv
            have het : EntryText e (k ++ (a ++ ':' :: v)) := ⟨key, k, a, v, hkt, ha, hvt, rfl⟩
            have es : s = (k ++ (a ++ ':' :: v)) ++ r' := by rw [e1, e2, e3, hcc]; simp
            rw [sep_congr hsk] at h
            cases hsep : readSeparator r' with
            | none => rw [hsep] at h; simp at h
            | some x =>
              obtain ⟨cl, s4⟩ := x
              rw [hsep] at h
              obtain ⟨a', ha', hcases⟩ := sep_sound hsep
              rcases hcases with ⟨rfl, e4⟩ | ⟨rfl, b, hb, e4⟩ | ⟨rfl, e4⟩
              · dsimp only at h
                by_cases hend : skipIgnore s4 = []
                · rw [if_pos hend] at h
                  simp only [Step.ok.injEq] at h
                  refine ⟨[e], _, s4, .last het ha', skip_nil.1 hend, by rw [es, e4]; simp, ?_⟩
                  simp [hst, h]
                · rw [if_neg hend] at h; simp at h
              · dsimp only at h
                by_cases hend : skipIgnore s4 = []
                · rw [if_pos hend] at h
                  simp only [Step.ok.injEq] at h
                  refine ⟨[e], _, s4, .lastComma het ha' hb, skip_nil.1 hend, by rw [es, e4]; simp, ?_⟩
                  simp [hst, h]
                · rw [if_neg hend] at h; simp at h
              · dsimp only at h
                obtain ⟨es', body, b, hbt, hb, e5, hfold⟩ := ih _ _ _ h
                refine ⟨e :: es', _, b, .cons het ha' hbt, hb, by rw [es, e4, e5]; simp, ?_⟩
                rw [List.foldlM_cons, hst]
                exact hfold
        · rw [if_neg hcc] at h; simp at h

/-- an entry starts with a key: not with a brace -/
theorem entry_head {e : Entry} {s : List Char} (h : EntryText e s) (r : List Char) : ∃ c l, skipIgnore (s ++ r) = c :: l ∧ c ≠ '}' := by
  obtain ⟨key, k, a, v, hk, ha, hv, rfl⟩ := h
  obtain ⟨a', pre, q, q', ha', hpre, hq, hq', hb1, hb2, rfl⟩ := hk
  rcases hpre with rfl | rfl
  · have : a' ++ ([] ++ q :: (key ++ [q'])) ++ (a ++ ':' :: v) ++ r = a' ++ q :: (key ++ [q'] ++ (a ++ ':' :: v) ++ r) := by simp
    rw [this]
    exact ⟨q, _, skip_to ha' (by rcases hq with rfl | rfl <;> exact ⟨by decide, by decide⟩) _, by rcases hq with rfl | rfl <;> decide⟩
  · have : a' ++ (['b'] ++ q :: (key ++ [q'])) ++ (a ++ ':' :: v) ++ r = a' ++ 'b' :: (q :: (key ++ [q'] ++ (a ++ ':' :: v) ++ r)) := by simp
    rw [this]
    exact ⟨'b', _, skip_to ha' ⟨by decide, by decide⟩ _, by decide⟩

theorem body_head {es : List Entry} {s : List Char} (h : BodyText es s) (r : List Char) : ∃ c l, skipIgnore (s ++ r) = c :: l ∧ c ≠ '}' := by
  cases h with
  | last h ha => rw [List.append_assoc]; exact entry_head h _
  | lastComma h ha hb => rw [List.append_assoc]; exact entry_head h _
  | cons h ha hr => rw [List.append_assoc]; exact entry_head h _

/-- reading one entry of the text -/
theorem entry_step {e : Entry} {s : List Char} (h : EntryText e s) {st st' : St} (hst : stepE st e = some st') {a : List Char} (ha : Ign a) {c : Char} (hc : Sep c)
    (n : Nat) (rest : List Char) : readKeys none (n + 1) st (s ++ (a ++ c :: rest)) = (match readSeparator (c :: rest) with
      | none => .fail 0
      | some (false, s) => readKeys none n st' s
      | some (true, s) => if skipIgnore s = [] then .ok st' else .fail 0) := by
  obtain ⟨key, k, a', v, hk, ha', hv, rfl⟩ := h
  have e1 : k ++ (a' ++ ':' :: v) ++ (a ++ c :: rest) = k ++ (a' ++ ':' :: (v ++ (a ++ c :: rest))) := by simp
  rw [e1, keys_step, (readString_iff _ _ _).2 ⟨k, hk, rfl⟩]
  dsimp only
  rw [skip_to ha' ⟨by decide, by decide⟩]
  dsimp only
  rw [if_pos rfl]
  obtain ⟨r, hr, hsk⟩ := kv_complete hv hst ha hc rest
  rw [hr]
  dsimp only
  rw [sep_congr (show skipIgnore r = skipIgnore (c :: rest) by rw [hsk, skip_tok (sep_tok hc)])]

theorem entry_length {e : Entry} {s : List Char} (h : EntryText e s) : 1 ≤ s.length := by
  obtain ⟨key, k, a, v, hk, ha, hv, rfl⟩ := h
  simp; omega

theorem keys_complete {es : List Entry} {body : List Char} (h : BodyText es body) : ∀ (n : Nat) (st st' : St) (b : List Char), Ign b → body.length < n →
    es.foldlM stepE st = some st' → readKeys none n st (body ++ b) = .ok st' := by
  induction h with
  | @last e s a h ha =>
    intro n st st' b hb hn hf
    obtain ⟨m, rfl⟩ : ∃ m, n = m + 1 := ⟨n - 1, by omega⟩
    have hst : stepE st e = some st' := by simpa using hf
    have e1 : s ++ (a ++ ['}']) ++ b = s ++ (a ++ '}' :: b) := by simp
    rw [e1, entry_step h hst ha (.inr rfl) m b, sep_cases, skip_tok ⟨by decide, by decide⟩]
    dsimp only
    rw [if_pos rfl]
    dsimp only
    rw [if_pos (skip_nil.2 hb)]
  | @lastComma e s a b' h ha hb' =>
    intro n st st' b hb hn hf
    obtain ⟨m, rfl⟩ : ∃ m, n = m + 1 := ⟨n - 1, by omega⟩
    have hst : stepE st e = some st' := by simpa using hf
    have e1 : s ++ (a ++ ',' :: (b' ++ ['}'])) ++ b = s ++ (a ++ ',' :: (b' ++ '}' :: b)) := by simp
    rw [e1, entry_step h hst ha (.inl rfl) m _, sep_cases, skip_tok ⟨by decide, by decide⟩]
    dsimp only
    rw [if_neg (by decide), if_pos rfl, skip_to hb' ⟨by decide, by decide⟩]
    dsimp only
    rw [if_pos rfl]
    dsimp only
    rw [if_pos (skip_nil.2 hb)]
  | @cons e es s a rest h ha hr ih =>
    intro n st st' b hb hn hf
    obtain ⟨m, rfl⟩ : ∃ m, n = m + 1 := ⟨n - 1, by omega⟩
    rw [List.foldlM_cons] at hf
    cases hst : stepE st e with
    | none => rw [hst] at hf; simp at hf
    | some st1 =>
      rw [hst] at hf
      have e1 : s ++ (a ++ ',' :: rest) ++ b = s ++ (a ++ ',' :: (rest ++ b)) := by simp
      rw [e1, entry_step h hst ha (.inl rfl) m _, sep_cases, skip_tok ⟨by decide, by decide⟩]
      dsimp only
      rw [if_neg (by decide), if_pos rfl]
      obtain ⟨c, l, hc, hne⟩ := body_head hr b
      rw [hc]
      dsimp only
      rw [if_neg hne]
      dsimp only
      exact ih m st1 st' b hb (by simp at hn; omega) hf

theorem entry_ign {e : Entry} {s : List Char} (h : EntryText e s) {a : List Char} (ha : Ign a) : EntryText e (a ++ s) := by
  obtain ⟨key, k, a', v, ⟨a1, pre, q, q', ha1, h2, h3, h4, h5, h6, rfl⟩, ha', hv, rfl⟩ := h
  exact ⟨key, a ++ (a1 ++ (pre ++ q :: (key ++ [q']))), a', v, ⟨a ++ a1, pre, q, q', ign_append ha ha1, h2, h3, h4, h5, h6, by simp⟩, ha', hv, by simp⟩

theorem body_ign {es : List Entry} {s : List Char} (h : BodyText es s) {a : List Char} (ha : Ign a) : BodyText es (a ++ s) := by
  cases h with
  | last h ha' => rw [← List.append_assoc]; exact .last (entry_ign h ha) ha'
  | lastComma h ha' hb => rw [← List.append_assoc]; exact .lastComma (entry_ign h ha) ha' hb
  | cons h ha' hr => rw [← List.append_assoc]; exact .cons (entry_ign h ha) ha' hr

/-- nothing read yet -/
def St.init : St := ⟨none, none, none, (0, 0)⟩

theorem readModel_eq (buf : Option Nat) (text : List Char) : readModel buf text = (match skipIgnore (text.takeWhile (fun c => c ≠ '\x00')) with
    | [] => .fail 0
    | c :: s =>
      if c = '{' then
        match readKeys buf (s.length + 1) St.init s with
        | .fail n => .fail n
        | .ok st => finish st
      else .fail 0) := by
  unfold readModel
  dsimp only
  cases skipIgnore (text.takeWhile (fun c => c ≠ '\x00')) with
  | nil => rfl
  | cons c s =>
    by_cases h : c = '{'
    · subst h
      dsimp only
      rw [if_pos rfl, ← keys_congr buf _ St.init (skip_idem s)]
      rfl
    · dsimp only
      rw [if_neg h]
      split
      · rename_i heq; injection heq with k1 k2; exact absurd k1 h
      · rfl

theorem read_iff_fold (text : List Char) (m : Model) : readCameramodelString text = some m ↔
    ∃ es st, FileText es (text.takeWhile (fun c => c ≠ '\x00')) ∧ es.foldlM stepE St.init = some st ∧ finish st = .ok m := by
  unfold readCameramodelString
  rw [readModel_eq]
  generalize text.takeWhile (fun c => c ≠ '\x00') = t
  constructor
  · intro h
    cases hs : skipIgnore t with
    | nil => rw [hs] at h; simp at h
    | cons c s =>
      rw [hs] at h
      dsimp only at h
      obtain ⟨a, ha, e⟩ := skip_cons hs
      by_cases hc : c = '{'
      · rw [if_pos hc] at h
        cases hk : readKeys none (s.length + 1) St.init s with
        | fail n => rw [hk] at h; simp at h
        | ok st =>
          rw [hk] at h
          dsimp only at h
          cases hf : finish st with
          | fail n => rw [hf] at h; simp at h
          | ok m' =>
            rw [hf] at h
            obtain rfl := Option.some.inj h
            obtain ⟨es, body, b, hb, hb', e', hfold⟩ := keys_sound _ _ _ _ hk
            exact ⟨es, st, ⟨a, body, b, ha, hb, hb', by rw [e, e', hc]⟩, hfold, hf⟩
      · rw [if_neg hc] at h; simp at h
  · rintro ⟨es, st, ⟨a, body, b, ha, hbt, hb, rfl⟩, hfold, hf⟩
    rw [skip_to ha ⟨by decide, by decide⟩]
    dsimp only
    rw [if_pos rfl, keys_complete hbt _ _ _ b hb (by simp; omega) hfold]
    dsimp only
    rw [hf]

/-! ### what the entries mean -/

def Entry.lens? : Entry → Option Lens
  | .lensmodel L => some L
  | _ => none
def Entry.intr? : Entry → Option (List ℚ)
  | .intrinsics v => some v
  | _ => none
def Entry.ext? : Entry → Option (List ℚ)
  | .extrinsics v => some v
  | _ => none
def Entry.size? : Entry → Option (Nat × Nat)
  | .imagersize w h => some (w, h)
  | _ => none

/-- neither the lens nor the intrinsics -/
def NoLens (es : List Entry) : Prop := es.filterMap Entry.lens? = [] ∧ es.filterMap Entry.intr? = []

/-- the model described by these entries:
- one lensmodel, followed by one set of intrinsics, of the right size for this lens
- extrinsics. There may be several, but they must all agree with the first one
- an imager size, with a width. There may be previous imager sizes, with a width of 0 -/
structure Describes (es : List Entry) (m : Model) : Prop where
  lens : ∃ e1 e2 e3, es = e1 ++ .lensmodel m.lens :: (e2 ++ .intrinsics m.intrinsics :: e3) ∧ NoLens e1 ∧ NoLens e2 ∧ NoLens e3
  count : (m.intrinsics.length : Int) = m.lens.numParams
  extrinsics : ∃ more, es.filterMap Entry.ext? = m.rt_cam_ref :: more ∧ ∀ v ∈ more, ∀ p ∈ v.zip m.rt_cam_ref, |p.1 - p.2| ≤ 1e-9
  size : ∃ zeros, es.filterMap Entry.size? = zeros ++ [m.imagersize] ∧ (∀ z ∈ zeros, z.1 = 0) ∧ 0 < m.imagersize.1

def stepL (st : Option Lens × Option (List ℚ)) : Entry → Option (Option Lens × Option (List ℚ))
  | .lensmodel L => if st.1.isSome then none else some (some L, st.2)
  | .intrinsics v =>
    if st.2.isSome then none
    else match st.1 with
      | none => none
      | some L => if v.length = L.numParams.toNat then some (st.1, some v) else none
  | _ => some st

def stepX (st : Option (List ℚ)) : Entry → Option (Option (List ℚ))
  | .extrinsics v =>
    match st with
    | some rt => if rtAgree v rt then some st else none
    | none => some (some v)
  | _ => some st

def stepZ (st : Nat × Nat) : Entry → Option (Nat × Nat)
  | .imagersize w h => if st.1 > 0 then none else some (w, h)
  | _ => some st

theorem step_split (st st' : St) (e : Entry) : stepE st e = some st' ↔
    stepL (st.lens, st.intrinsics) e = some (st'.lens, st'.intrinsics) ∧ stepX st.rt_cam_ref e = some st'.rt_cam_ref ∧ stepZ st.imagersize e = some st'.imagersize := by
  obtain ⟨l, i, x, z⟩ := st
  obtain ⟨l', i', x', z'⟩ := st'
  cases e with
  | lensmodel L =>
    simp only [stepE, stepL, stepX, stepZ]
    by_cases h : l.isSome = true
    · simp [h]
    · simp [h]; tauto
  | intrinsics v =>
    simp only [stepE, stepL, stepX, stepZ]
    by_cases h : i.isSome = true
    · simp [h]
    · cases l with
      | none => simp [h]
      | some L =>
        by_cases hv : v.length = L.numParams.toNat
        · simp [h, hv]; tauto
        · simp [h, hv]
  | extrinsics v =>
    simp only [stepE, stepL, stepX, stepZ]
    cases x with
    | none => simp; tauto
    | some rt =>
      by_cases h : rtAgree v rt = true
      · simp [h]; tauto
      · simp [h]
  | imagersize w h =>
    simp only [stepE, stepL, stepX, stepZ]
    by_cases hz : z.1 > 0
    · simp [hz]
    · simp [hz]; tauto
  | other =>
    simp only [stepE, stepL, stepX, stepZ, Option.some.injEq, St.mk.injEq, Prod.mk.injEq]; tauto

theorem fold_split (es : List Entry) : ∀ (st st' : St), es.foldlM stepE st = some st' ↔
    es.foldlM stepL (st.lens, st.intrinsics) = some (st'.lens, st'.intrinsics) ∧ es.foldlM stepX st.rt_cam_ref = some st'.rt_cam_ref ∧
      es.foldlM stepZ st.imagersize = some st'.imagersize := by
  induction es with
  | nil =>
    intro st st'
    obtain ⟨l, i, x, z⟩ := st
    obtain ⟨l', i', x', z'⟩ := st'
    simp; tauto
  | cons e es ih =>
    intro st st'
    simp only [List.foldlM_cons, Option.bind_eq_bind, Option.bind_eq_some_iff]
    constructor
    · rintro ⟨s1, h1, h2⟩
      obtain ⟨k1, k2, k3⟩ := (step_split st s1 e).1 h1
      obtain ⟨k4, k5, k6⟩ := (ih s1 st').1 h2
      exact ⟨⟨_, k1, k4⟩, ⟨_, k2, k5⟩, ⟨_, k3, k6⟩⟩
    · rintro ⟨⟨⟨l, i⟩, k1, k4⟩, ⟨x, k2, k5⟩, ⟨z, k3, k6⟩⟩
      exact ⟨⟨l, i, x, z⟩, (step_split st ⟨l, i, x, z⟩ e).2 ⟨k1, k2, k3⟩, (ih ⟨l, i, x, z⟩ st').2 ⟨k4, k5, k6⟩⟩

theorem noLens_cons (e : Entry) (es : List Entry) : NoLens (e :: es) ↔ (e.lens? = none ∧ e.intr? = none) ∧ NoLens es := by
  unfold NoLens
  cases e <;> simp [Entry.lens?, Entry.intr?]

theorem stepL_plain (st : Option Lens × Option (List ℚ)) {e : Entry} (h1 : e.lens? = none) (h2 : e.intr? = none) : stepL st e = some st := by
  cases e <;> simp [Entry.lens?, Entry.intr?] at h1 h2 <;> rfl

theorem foldL_done (L : Lens) (v : List ℚ) (es : List Entry) (r : Option Lens × Option (List ℚ)) :
    es.foldlM stepL (some L, some v) = some r ↔ NoLens es ∧ r = (some L, some v) := by
  induction es with
  | nil => simp [NoLens]; tauto
  | cons e es ih =>
    rw [List.foldlM_cons, noLens_cons]
    cases e with
    | lensmodel L' => simp [stepL, Entry.lens?]
    | intrinsics v' => simp [stepL, Entry.intr?]
    | extrinsics v' => rw [stepL_plain _ rfl rfl]; simp only [Option.bind_eq_bind, Option.bind_some, ih, Entry.lens?, Entry.intr?, true_and, and_true]
    | imagersize w h => rw [stepL_plain _ rfl rfl]; simp only [Option.bind_eq_bind, Option.bind_some, ih, Entry.lens?, Entry.intr?, true_and, and_true]
    | other => rw [stepL_plain _ rfl rfl]; simp only [Option.bind_eq_bind, Option.bind_some, ih, Entry.lens?, Entry.intr?, true_and, and_true]

theorem foldL_lens (L L' : Lens) (v : List ℚ) (es : List Entry) :
    es.foldlM stepL (some L, none) = some (some L', some v) ↔
      L' = L ∧ v.length = L.numParams.toNat ∧ ∃ e2 e3, es = e2 ++ .intrinsics v :: e3 ∧ NoLens e2 ∧ NoLens e3 := by
  induction es with
  | nil => simp
  | cons e es ih =>
    rw [List.foldlM_cons]
    have skip : ∀ e : Entry, e.lens? = none → e.intr? = none →
        ((stepL (some L, none) e >>= fun st => es.foldlM stepL st) = some (some L', some v) ↔
          L' = L ∧ v.length = L.numParams.toNat ∧ ∃ e2 e3, e :: es = e2 ++ .intrinsics v :: e3 ∧ NoLens e2 ∧ NoLens e3) := by
      intro e h1 h2
      rw [stepL_plain _ h1 h2]
      simp only [Option.bind_eq_bind, Option.bind_some]
      rw [ih]
      constructor
      · rintro ⟨k1, k2, e2, e3, k3, k4, k5⟩
        exact ⟨k1, k2, e :: e2, e3, by rw [k3]; rfl, (noLens_cons _ _).2 ⟨⟨h1, h2⟩, k4⟩, k5⟩
      · rintro ⟨k1, k2, e2, e3, k3, k4, k5⟩
        cases e2 with
        | nil =>
          injection k3 with k6 k7
          rw [k6] at h2; simp [Entry.intr?] at h2
        | cons e' e2 =>
          injection k3 with k6 k7
          exact ⟨k1, k2, e2, e3, k7, ((noLens_cons _ _).1 k4).2, k5⟩
    cases e with
    | lensmodel L2 =>
      simp only [stepL]
      rw [if_pos (by rfl)]
      constructor
      · intro h; simp at h
      · rintro ⟨k1, k2, e2, e3, k3, k4, k5⟩
        cases e2 with
        | nil => injection k3 with k6 k7; simp at k6
        | cons e' e2 =>
          injection k3 with k6 k7
          have := ((noLens_cons _ _).1 k4).1.1
          rw [← k6] at this; simp [Entry.lens?] at this
    | intrinsics v2 =>
      simp only [stepL]
      rw [if_neg (by simp)]
      by_cases hv : v2.length = L.numParams.toNat
      · rw [if_pos hv]
        simp only [Option.bind_eq_bind, Option.bind_some]
        rw [foldL_done]
        constructor
        · rintro ⟨k1, k2⟩
          simp only [Prod.mk.injEq, Option.some.injEq] at k2
          exact ⟨k2.1, by rw [k2.2]; exact hv, [], es, by rw [k2.2]; rfl, ⟨rfl, rfl⟩, k1⟩
        · rintro ⟨k1, k2, e2, e3, k3, k4, k5⟩
          cases e2 with
          | nil =>
            injection k3 with k6 k7
            injection k6 with k8
            exact ⟨by rw [k7]; exact k5, by rw [k1, k8]⟩
          | cons e' e2 =>
            injection k3 with k6 k7
            have := ((noLens_cons _ _).1 k4).1.2
            rw [← k6] at this; simp [Entry.intr?] at this
      · rw [if_neg hv]
        constructor
        · intro h; simp at h
        · rintro ⟨k1, k2, e2, e3, k3, k4, k5⟩
          cases e2 with
          | nil =>
            injection k3 with k6 k7
            injection k6 with k8
            rw [k8] at hv; exact absurd k2 hv
          | cons e' e2 =>
            injection k3 with k6 k7
            have := ((noLens_cons _ _).1 k4).1.2
            rw [← k6] at this; simp [Entry.intr?] at this
    | extrinsics v' => exact skip _ rfl rfl
    | imagersize w h => exact skip _ rfl rfl
    | other => exact skip _ rfl rfl

theorem foldL_init (L : Lens) (v : List ℚ) (es : List Entry) :
    es.foldlM stepL (none, none) = some (some L, some v) ↔
      v.length = L.numParams.toNat ∧ ∃ e1 e2 e3, es = e1 ++ .lensmodel L :: (e2 ++ .intrinsics v :: e3) ∧ NoLens e1 ∧ NoLens e2 ∧ NoLens e3 := by
  induction es with
  | nil => simp
  | cons e es ih =>
    rw [List.foldlM_cons]
    have skip : ∀ e : Entry, e.lens? = none → e.intr? = none →
        ((stepL (none, none) e >>= fun st => es.foldlM stepL st) = some (some L, some v) ↔
          v.length = L.numParams.toNat ∧ ∃ e1 e2 e3, e :: es = e1 ++ .lensmodel L :: (e2 ++ .intrinsics v :: e3) ∧ NoLens e1 ∧ NoLens e2 ∧ NoLens e3) := by
      intro e h1 h2
      rw [stepL_plain _ h1 h2]
      simp only [Option.bind_eq_bind, Option.bind_some]
      rw [ih]
      constructor
      · rintro ⟨k1, e1, e2, e3, k3, k4, k5⟩
        exact ⟨k1, e :: e1, e2, e3, by rw [k3]; rfl, (noLens_cons _ _).2 ⟨⟨h1, h2⟩, k4⟩, k5⟩
      · rintro ⟨k1, e1, e2, e3, k3, k4, k5⟩
        cases e1 with
        | nil =>
          injection k3 with k6 k7
          rw [k6] at h1; simp [Entry.lens?] at h1
        | cons e' e1 =>
          injection k3 with k6 k7
          exact ⟨k1, e1, e2, e3, k7, ((noLens_cons _ _).1 k4).2, k5⟩
    cases e with
    | lensmodel L2 =>
      simp only [stepL]
      rw [if_neg (by simp)]
      simp only [Option.bind_eq_bind, Option.bind_some]
      rw [foldL_lens]
      constructor
      · rintro ⟨k1, k2, e2, e3, k3, k4, k5⟩
        exact ⟨by rw [k1]; exact k2, [], e2, e3, by rw [k1, k3]; rfl, ⟨rfl, rfl⟩, k4, k5⟩
      · rintro ⟨k1, e1, e2, e3, k3, k4, k5⟩
        cases e1 with
        | nil =>
          injection k3 with k6 k7
          injection k6 with k8
          exact ⟨k8.symm, by rw [k8]; exact k1, e2, e3, k7, k5⟩
        | cons e' e1 =>
          injection k3 with k6 k7
          have := ((noLens_cons _ _).1 k4).1.1
          rw [← k6] at this; simp [Entry.lens?] at this
    | intrinsics v2 =>
      simp only [stepL]
      rw [if_neg (by simp)]
      constructor
      · intro h; simp at h
      · rintro ⟨k1, e1, e2, e3, k3, k4, k5⟩
        cases e1 with
        | nil => injection k3 with k6 k7; simp at k6
        | cons e' e1 =>
          injection k3 with k6 k7
          have := ((noLens_cons _ _).1 k4).1.2
          rw [← k6] at this; simp [Entry.intr?] at this
    | extrinsics v' => exact skip _ rfl rfl
    | imagersize w h => exact skip _ rfl rfl
    | other => exact skip _ rfl rfl

theorem agree_iff (a b : List ℚ) : rtAgree a b = true ↔ ∀ p ∈ a.zip b, |p.1 - p.2| ≤ 1e-9 := by
  unfold rtAgree
  rw [List.all_eq_true]
  apply forall_congr'
  intro p
  apply imp_congr_right
  intro _
  rw [decide_eq_true_eq, not_lt]
  by_cases h : p.1 - p.2 < 0
  · rw [if_pos h, abs_of_neg h]
  · rw [if_neg h, abs_of_nonneg (not_lt.1 h)]

theorem foldX_some (rt : List ℚ) (es : List Entry) (r : Option (List ℚ)) :
    es.foldlM stepX (some rt) = some r ↔ r = some rt ∧ ∀ v ∈ es.filterMap Entry.ext?, ∀ p ∈ v.zip rt, |p.1 - p.2| ≤ 1e-9 := by
  induction es with
  | nil => simp; tauto
  | cons e es ih =>
    rw [List.foldlM_cons]
    cases e with
    | extrinsics v =>
      simp only [stepX]
      by_cases h : rtAgree v rt = true
      · rw [if_pos h]
        simp only [Option.bind_eq_bind, Option.bind_some, ih, List.filterMap_cons, Entry.ext?, List.forall_mem_cons, (agree_iff v rt).1 h]
        have := (agree_iff v rt).1 h
        tauto
      · rw [if_neg h]
        rw [agree_iff] at h
        simp only [Option.bind_eq_bind, Option.bind_none, List.filterMap_cons, Entry.ext?, List.forall_mem_cons]
        constructor
        · intro k; simp at k
        · rintro ⟨-, k, -⟩; exact absurd k h
    | lensmodel L => exact ih
    | intrinsics L => exact ih
    | imagersize w h => exact ih
    | other => exact ih

theorem foldX_init (rt : List ℚ) (es : List Entry) :
    es.foldlM stepX none = some (some rt) ↔ ∃ more, es.filterMap Entry.ext? = rt :: more ∧ ∀ v ∈ more, ∀ p ∈ v.zip rt, |p.1 - p.2| ≤ 1e-9 := by
  induction es with
  | nil => simp
  | cons e es ih =>
    rw [List.foldlM_cons]
    cases e with
    | extrinsics v =>
      simp only [stepX, Option.bind_eq_bind, Option.bind_some, List.filterMap_cons, Entry.ext?]
      rw [foldX_some]
      constructor
      · rintro ⟨h1, h2⟩
        rw [Option.some.inj h1]
        exact ⟨_, rfl, h2⟩
      · rintro ⟨more, h1, h2⟩
        injection h1 with h3 h4
        rw [h3, h4]
        exact ⟨rfl, h2⟩
    | lensmodel L => exact ih
    | intrinsics L => exact ih
    | imagersize w h => exact ih
    | other => exact ih

theorem foldZ_set (z : Nat × Nat) (hz : 0 < z.1) (es : List Entry) (r : Nat × Nat) :
    es.foldlM stepZ z = some r ↔ r = z ∧ es.filterMap Entry.size? = [] := by
  induction es with
  | nil => simp; tauto
  | cons e es ih =>
    rw [List.foldlM_cons]
    cases e with
    | imagersize w h => simp [stepZ, hz, Entry.size?]
    | lensmodel L => exact ih
    | intrinsics L => exact ih
    | extrinsics w => exact ih
    | other => exact ih

theorem foldZ_zero (z : Nat × Nat) (hz : z.1 = 0) (es : List Entry) (r : Nat × Nat) (hr : 0 < r.1) :
    es.foldlM stepZ z = some r ↔ ∃ zeros, es.filterMap Entry.size? = zeros ++ [r] ∧ ∀ z ∈ zeros, z.1 = 0 := by
  induction es generalizing z with
  | nil =>
    simp
    intro h; rw [h] at hz; omega
  | cons e es ih =>
    rw [List.foldlM_cons]
    cases e with
    | imagersize w h =>
      simp only [stepZ]
      rw [if_neg (by omega)]
      simp only [Option.bind_eq_bind, Option.bind_some, List.filterMap_cons, Entry.size?]
      by_cases hw : w = 0
      · rw [ih (w, h) hw]
        constructor
        · rintro ⟨zeros, h1, h2⟩
          exact ⟨(w, h) :: zeros, by rw [h1]; rfl, by rw [List.forall_mem_cons]; exact ⟨hw, h2⟩⟩
        · rintro ⟨zeros, h1, h2⟩
          cases zeros with
          | nil =>
            injection h1 with h3 h4
            rw [← h3] at hr; simp at hr; omega
          | cons z0 zeros =>
            injection h1 with h3 h4
            rw [List.forall_mem_cons] at h2
            exact ⟨zeros, h4, h2.2⟩
      · rw [foldZ_set (w, h) (by simpa using Nat.pos_of_ne_zero hw)]
        constructor
        · rintro ⟨h1, h2⟩
          exact ⟨[], by rw [h1, h2]; rfl, by simp⟩
        · rintro ⟨zeros, h1, h2⟩
          cases zeros with
          | nil =>
            injection h1 with h3 h4
            exact ⟨h3.symm, h4⟩
          | cons z0 zeros =>
            injection h1 with h3 h4
            rw [List.forall_mem_cons] at h2
            have := h2.1
            rw [← h3] at this
            exact absurd this hw
    | lensmodel L => exact ih z hz
    | intrinsics L => exact ih z hz
    | extrinsics w => exact ih z hz
    | other => exact ih z hz

theorem numParams_cast (L : Lens) (n : Nat) : n = L.numParams.toNat ↔ (n : Int) = L.numParams := by
  have := numParams_pos L
  omega

/-- **C39**: reading a model from a text. A model is returned exactly if the text (up to the first 0 byte) follows the grammar of .cameramodel files, and its entries describe a model; it is then that one. In particular each of
the keys is there, and each is valid, the values are those in the file, and the number of intrinsics is that of the lens. Other keys are skipped. -/
theorem read_iff (text : List Char) (m : Model) :
    readCameramodelString text = some m ↔ ∃ es, FileText es (text.takeWhile (fun c => c ≠ '\x00')) ∧ Describes es m := by
  rw [read_iff_fold]
  constructor
  · rintro ⟨es, ⟨l, i, x, z⟩, ht, hf, hfin⟩
    refine ⟨es, ht, ?_⟩
    unfold finish at hfin
    dsimp only at hfin
    cases l with
    | none => simp at hfin
    | some L =>
      cases i with
      | none => simp at hfin
      | some v =>
        cases x with
        | none => simp at hfin
        | some rt =>
          dsimp only at hfin
          by_cases hz : z.1 > 0
          · rw [if_pos hz] at hfin
            injection hfin with hm
            rw [← hm]
            obtain ⟨k1, k2, k3⟩ := (fold_split es St.init _).1 hf
            obtain ⟨j1, j2⟩ := (foldL_init _ _ _).1 k1
            obtain ⟨zeros, j3, j4⟩ := (foldZ_zero _ rfl _ _ hz).1 k3
            exact ⟨j2, (numParams_cast _ _).1 j1, (foldX_init _ _).1 k2, zeros, j3, j4, hz⟩
          · rw [if_neg hz] at hfin; simp at hfin
  · rintro ⟨es, ht, ⟨h1, h2, h3, zeros, h4, h5, h6⟩⟩
    refine ⟨es, ⟨some m.lens, some m.intrinsics, some m.rt_cam_ref, m.imagersize⟩, ht, ?_, ?_⟩
    · rw [fold_split]
      exact ⟨(foldL_init _ _ _).2 ⟨(numParams_cast _ _).2 h2, h1⟩, (foldX_init _ _).2 h3, (foldZ_zero _ rfl _ _ h6).2 ⟨zeros, h4, h5⟩⟩
    · unfold finish
      dsimp only
      rw [if_pos h6]

end Mrcal.ModelFile

import Verif.Props.ModelTextProps
import Mathlib.Algebra.Order.AbsoluteValue.Basic
import Mathlib.Tactic.Positivity
/-
C39: reading the numbers, lists, strings and uninterpreted values of a .cameramodel file.
-/
namespace Mrcal.ModelFile
open Mrcal.Name

/-! ### the values of numbers -/

theorem value_iff (t : FloatTok) (v : ℚ) :
    t.value = some v ↔ (t.int ≠ [] ∨ ∃ f, t.frac = some f ∧ f ≠ []) ∧
      v = (if t.neg then -1 else 1) * (decVal (t.int ++ t.frac.getD []) : ℚ) * (10 : ℚ) ^ (expVal t.exp - (t.frac.getD []).length) ∧
      |v| < 2 ^ 1024 - 2 ^ 970 := by
  obtain ⟨neg, int, frac, exp⟩ := t
  have hdig : ¬ (int = [] ∧ frac.getD [] = []) ↔ (int ≠ [] ∨ ∃ f, frac = some f ∧ f ≠ []) := by
    cases frac with
    | none => simp
    | some f => simp; tauto
  unfold FloatTok.value
  dsimp only
  by_cases h0 : int = [] ∧ frac.getD [] = []
  · rw [if_pos h0]
    constructor
    · intro h; simp at h
    · rintro ⟨h, -⟩; exact absurd h0 (hdig.2 h)
  · rw [if_neg h0]
    have hd := hdig.1 h0
    generalize hm : decVal (int ++ frac.getD []) = m
    generalize hl : (frac.getD []).length = l
    have key : ∀ (x : ℚ), x = (m : ℚ) * (10 : ℚ) ^ (expVal exp - l) →
        ((if x < dblOverflow then some (if neg = true then -x else x) else none) = some v ↔
        (int ≠ [] ∨ ∃ f, frac = some f ∧ f ≠ []) ∧
          v = (if neg = true then -1 else 1) * (m : ℚ) * (10 : ℚ) ^ (expVal exp - l) ∧ |v| < 2 ^ 1024 - 2 ^ 970) := by
      intro x hx
      have hx0 : 0 ≤ x := by rw [hx]; exact mul_nonneg (Nat.cast_nonneg _) (zpow_nonneg (by norm_num) _)
      have hv : (if neg = true then -1 else 1) * (m : ℚ) * (10 : ℚ) ^ (expVal exp - l) = if neg = true then -x else x := by
        rw [hx]; cases neg <;> simp
      have habs : |if neg = true then -x else x| = x := by
        cases neg
        · simp [abs_of_nonneg hx0]
        · simp [abs_neg, abs_of_nonneg hx0]
      rw [hv]
      by_cases hlt : x < dblOverflow
      · rw [if_pos hlt]
        constructor
        · intro h
          have h := (Option.some.inj h).symm
          refine ⟨hd, h, ?_⟩
          rw [h, habs]
          exact hlt
        · rintro ⟨-, h, -⟩; rw [h]
      · rw [if_neg hlt]
        constructor
        · intro h; simp at h
        · rintro ⟨-, h, h2⟩
          rw [h, habs] at h2
          exact absurd h2 hlt
    apply key
    have h10 : (10 : ℚ) ≠ 0 := by norm_num
    cases exp with
    | none =>
      simp only [expVal]
      rw [Nat.cast_pow, zero_sub, zpow_neg, zpow_natCast, div_eq_mul_inv]; rfl
    | some x =>
      obtain ⟨s, ds⟩ := x
      cases s with
      | false =>
        simp only [expVal]
        rw [Nat.cast_pow, Nat.cast_pow, zpow_sub₀ h10, zpow_natCast, zpow_natCast]
        push_cast
        ring
      | true =>
        simp only [expVal]
        rw [Nat.cast_pow, Nat.cast_pow, zpow_sub₀ h10, zpow_neg, zpow_natCast, zpow_natCast]
        push_cast
        rw [div_div, div_eq_mul_inv, mul_inv, div_eq_mul_inv]
        ring

/-! ### the values in lists -/

/-- what may follow a value in a list -/
def After (r : List Char) : Prop := ∃ c r', r = c :: r' ∧ (c = ',' ∨ c = ']' ∨ c = ')')

theorem after_tok {r : List Char} (h : After r) : skipIgnore r = r := by
  obtain ⟨c, r', rfl, hc⟩ := h
  apply skip_tok
  rcases hc with rfl | rfl | rfl <;> exact ⟨by decide, by decide⟩

theorem ign_stop {a : List Char} (h : Ign a) {r : List Char} (hr : Stop r) : Stop (a ++ r) := by
  cases h with
  | nil => exact hr
  | ws hc h => rcases hc with rfl | rfl | rfl | rfl <;> exact ⟨by decide, by decide, by decide, by decide⟩
  | comment hb h => exact ⟨by decide, by decide, by decide, by decide⟩

theorem after_stop {r : List Char} (h : After r) : Stop r := by
  obtain ⟨c, r', rfl, hc⟩ := h
  rcases hc with rfl | rfl | rfl <;> exact ⟨by decide, by decide, by decide, by decide⟩

theorem ign_nodash {a : List Char} (h : Ign a) {r : List Char} (hr : r.head? ≠ some '-') : (a ++ r).head? ≠ some '-' := by
  cases h with
  | nil => exact hr
  | ws hc h => rcases hc with rfl | rfl | rfl | rfl <;> simp
  | comment hb h => simp

/-- `f` reads the values whose text is described by `P` -/
structure Reads {α : Type} (f : List Char → Option (α × List Char)) (P : List Char → α → Prop) : Prop where
  sound : ∀ {s v r}, f s = some (v, r) → ∃ a tok b, Ign a ∧ P tok v ∧ Ign b ∧ s = a ++ (tok ++ (b ++ r))
  complete : ∀ {a tok b r v}, Ign a → P tok v → Ign b → After r → f (a ++ (tok ++ (b ++ r))) = some (v, r)

/-- a number starts with something that isn't skipped -/
theorem num_head {t : FloatTok} {tok : List Char} (h : NumText t tok) (hne : tok ≠ []) : ∃ c l, tok = c :: l ∧ Tok c := by
  obtain ⟨e, hi, hf, he, rfl⟩ := h
  obtain ⟨neg, int, frac, exp⟩ := t
  dsimp only at hi hf he hne ⊢
  cases neg with
  | true => exact ⟨'-', _, rfl, by decide, by decide⟩
  | false =>
    cases int with
    | cons c int => exact ⟨c, _, rfl, digit_tok ((digits_iff _).1 hi c List.mem_cons_self)⟩
    | nil =>
      cases frac with
      | some f => exact ⟨'.', _, rfl, by decide, by decide⟩
      | none =>
        cases he with
        | none => exact absurd rfl hne
        | plain he hd hne => exact ⟨_, _, rfl, by rcases he with rfl | rfl <;> decide, by rcases he with rfl | rfl <;> decide⟩
        | plus he hd hne => exact ⟨_, _, rfl, by rcases he with rfl | rfl <;> decide, by rcases he with rfl | rfl <;> decide⟩
        | minus he hd hne => exact ⟨_, _, rfl, by rcases he with rfl | rfl <;> decide, by rcases he with rfl | rfl <;> decide⟩

theorem num_nonempty {t : FloatTok} {tok : List Char} (h : NumText t tok) (hd : t.int ≠ [] ∨ ∃ f, t.frac = some f ∧ f ≠ []) : tok ≠ [] := by
  obtain ⟨e, hi, hf, he, rfl⟩ := h
  rcases hd with hd | ⟨f, hf, hne⟩
  · intro h
    simp only [List.append_eq_nil_iff] at h
    exact hd h.2.1
  · intro h
    simp only [List.append_eq_nil_iff, hf, fracText] at h
    exact absurd h.2.2.1 (by simp)

theorem reads_double : Reads ingestDouble Number := by
  constructor
  · intro s v r h
    unfold ingestDouble at h
    obtain ⟨a, ha, hs⟩ := skip_split s
    obtain ⟨tok, hn, ht⟩ := takeFloat_sound (skipIgnore s)
    generalize hf : takeFloat (skipIgnore s) = x at h hn ht
    obtain ⟨t, r1⟩ := x
    dsimp only at h hn ht
    cases hv : t.value with
    | none => rw [hv] at h; simp at h
    | some v' =>
      rw [hv] at h
      simp only [Option.some.injEq, Prod.mk.injEq] at h
      obtain ⟨rfl, rfl⟩ := h
      obtain ⟨b, hb, hr⟩ := skip_split r1
      obtain ⟨h1, h2, h3⟩ := (value_iff t v').1 hv
      refine ⟨a, tok, b, ha, ⟨t, hn, h1, h2, h3⟩, hb, ?_⟩
      rw [← hr, ← ht, ← hs]
  · rintro a tok b r v ha ⟨t, hn, h1, h2, h3⟩ hb hr
    unfold ingestDouble
    have hne := num_nonempty hn h1
    have hs : skipIgnore (a ++ (tok ++ (b ++ r))) = tok ++ (b ++ r) := by
      obtain ⟨c, l, rfl, hc⟩ := num_head hn hne
      rw [List.cons_append, skip_to ha hc]
    rw [hs, takeFloat_complete hn (ign_stop hb (after_stop hr)) (.inr hne)]
    dsimp only
    rw [(value_iff t v).2 ⟨h1, h2, h3⟩]
    dsimp only
    rw [skip_ign hb, after_tok hr]

theorem atoi_spec (ds : List Char) (n : Nat) :
    (¬ atoi ds < 0 ∧ (atoi ds).toNat = n) ↔ (n < 2 ^ 31 ∧ n % 2 ^ 32 = min (decVal ds) (2 ^ 63 - 1) % 2 ^ 32) := by
  unfold atoi
  dsimp only
  generalize min (decVal ds) (2 ^ 63 - 1) = m
  by_cases h : m % 2 ^ 32 < 2 ^ 31
  · rw [if_pos h]; omega
  · rw [if_neg h]; omega

theorem reads_uint : Reads ingestUint UintText := by
  constructor
  · intro s v r h
    unfold ingestUint at h
    obtain ⟨a, ha, hs⟩ := skip_split s
    generalize skipIgnore s = s1 at h hs
    cases s1 with
    | nil => simp [takeUint] at h
    | cons c s1 =>
      have fin : ∀ tok r1, c :: s1 = tok ++ r1 → Digits tok → tok ≠ [] → (tok.head? = some '0' → tok = ['0']) → takeUint (c :: s1) = some (tok, r1) →
          ∃ a tok b, Ign a ∧ UintText tok v ∧ Ign b ∧ s = a ++ (tok ++ (b ++ r)) := by
        intro tok r1 e hd hne h0 ht
        rw [ht] at h
        dsimp only at h
        by_cases hneg : atoi tok < 0
        · rw [if_pos hneg] at h; simp at h
        · rw [if_neg hneg] at h
          simp only [Option.some.injEq, Prod.mk.injEq] at h
          obtain ⟨hv, rfl⟩ := h
          obtain ⟨b, hb, hr⟩ := skip_split r1
          obtain ⟨k1, k2⟩ := (atoi_spec tok v).1 ⟨hneg, hv⟩
          refine ⟨a, tok, b, ha, ⟨hd, hne, h0, k1, k2⟩, hb, ?_⟩
          rw [← hr, ← e, ← hs]
      by_cases h0 : c = '0'
      · refine fin ['0'] s1 (by rw [h0]; rfl) (by rw [digits_iff]; intro d hd; rw [List.mem_singleton.1 hd]; decide) (by simp) (by simp) ?_
        rw [takeUint, if_pos h0, h0]
      · by_cases hd : isDigit c = true
        · refine fin ((c :: s1).takeWhile isDigit) ((c :: s1).dropWhile isDigit) (List.takeWhile_append_dropWhile).symm ((digits_iff _).2 takeWhile_all) ?_ ?_ ?_
          · rw [List.takeWhile_cons, if_pos hd]; simp
          · rw [List.takeWhile_cons, if_pos hd]; intro h; simp at h; exact absurd h h0
          · rw [takeUint, if_neg h0, if_pos hd]
        · rw [takeUint, if_neg h0, if_neg hd] at h; simp at h
  · rintro a tok b r v ha ⟨hd, hne, h0, k1, k2⟩ hb hr
    have hd' := (digits_iff _).1 hd
    obtain ⟨k3, k4⟩ := (atoi_spec tok v).2 ⟨k1, k2⟩
    unfold ingestUint
    have hs : skipIgnore (a ++ (tok ++ (b ++ r))) = tok ++ (b ++ r) := by
      obtain ⟨c, l, rfl⟩ := List.exists_cons_of_ne_nil hne
      rw [List.cons_append, skip_to ha (digit_tok (hd' c List.mem_cons_self))]
    have ht : takeUint (tok ++ (b ++ r)) = some (tok, b ++ r) := by
      obtain ⟨c, l, rfl⟩ := List.exists_cons_of_ne_nil hne
      by_cases hc : c = '0'
      · have := h0 (by rw [hc]; rfl)
        rw [this, List.cons_append, takeUint, if_pos rfl]; rfl
      · have hsn := stop_noDigit (ign_stop hb (after_stop hr))
        rw [List.cons_append, takeUint, if_neg hc, if_pos (hd' c List.mem_cons_self), ← List.cons_append, takeWhile_digits _ _ hd' hsn, dropWhile_digits _ _ hd' hsn]
    rw [hs, ht]
    dsimp only
    rw [if_neg k3, k4, skip_ign hb, after_tok hr]

/-! ### lists -/

theorem readItems_sound {α : Type} {f : List Char → Option (α × List Char)} {P : List Char → α → Prop} (hf : Reads f P) :
    ∀ (n : Nat) (s : List Char) (vs : List α) (r : List Char), readItems f n s = some (vs, r) →
      vs.length = n + 1 ∧ ∃ items, ItemsText P vs items ∧ s = items ++ r := by
  intro n
  induction n with
  | zero =>
    intro s vs r h
    rw [readItems] at h
    cases hfs : f s with
    | none => rw [hfs] at h; simp at h
    | some x =>
      obtain ⟨v, r1⟩ := x
      rw [hfs] at h
      dsimp only at h
      obtain ⟨a, tok, b, ha, hp, hb, hs⟩ := hf.sound hfs
      split at h
      · simp only [Option.some.injEq, Prod.mk.injEq] at h
        obtain ⟨rfl, rfl⟩ := h
        exact ⟨rfl, _, .lastComma ha hp hb, by rw [hs]; simp⟩
      · simp only [Option.some.injEq, Prod.mk.injEq] at h
        obtain ⟨rfl, rfl⟩ := h
        exact ⟨rfl, _, .last ha hp hb, by rw [hs]; simp⟩
  | succ n ih =>
    intro s vs r h
    rw [readItems] at h
    cases hfs : f s with
    | none => rw [hfs] at h; simp at h
    | some x =>
      obtain ⟨v, r1⟩ := x
      rw [hfs] at h
      dsimp only at h
      obtain ⟨a, tok, b, ha, hp, hb, hs⟩ := hf.sound hfs
      split at h
      · rename_i r2
        cases hr2 : readItems f n r2 with
        | none => rw [hr2] at h; simp at h
        | some y =>
          obtain ⟨vs', r3⟩ := y
          rw [hr2] at h
          simp only [Option.some.injEq, Prod.mk.injEq] at h
          obtain ⟨rfl, rfl⟩ := h
          obtain ⟨hl, items, hi, he⟩ := ih _ _ _ hr2
          exact ⟨by simp [hl], _, .cons ha hp hb hi, by rw [hs, he]; simp⟩
      · simp at h

theorem items_length {α : Type} {P : List Char → α → Prop} {vs : List α} {s : List Char} (h : ItemsText P vs s) : ∃ n, vs.length = n + 1 := by
  cases h with
  | last => exact ⟨0, rfl⟩
  | lastComma => exact ⟨0, rfl⟩
  | cons _ _ _ _ => exact ⟨_, rfl⟩

theorem readItems_complete {α : Type} {f : List Char → Option (α × List Char)} {P : List Char → α → Prop} (hf : Reads f P)
    {vs : List α} {items : List Char} (h : ItemsText P vs items) {b : List Char} (hb : Ign b) {c : Char} (hc : c = ']' ∨ c = ')') (r : List Char) :
    ∃ r', readItems f (vs.length - 1) (items ++ (b ++ c :: r)) = some (vs, r') ∧ skipIgnore r' = c :: r := by
  have htok : Tok c := by rcases hc with rfl | rfl <;> exact ⟨by decide, by decide⟩
  induction h with
  | @last a tok b' v ha hp hb' =>
    refine ⟨c :: r, ?_, skip_tok htok r⟩
    have h1 := hf.complete ha hp (ign_append hb' hb) (r := c :: r) ⟨c, r, rfl, .inr hc⟩
    show readItems f 0 _ = _
    rw [readItems]
    simp only [List.append_assoc] at h1 ⊢
    rw [h1]
    dsimp only
    split
    · rename_i heq
      injection heq with h2 h3
      rcases hc with rfl | rfl <;> simp at h2
    · rfl
  | @lastComma a tok b' v ha hp hb' =>
    refine ⟨b ++ c :: r, ?_, skip_to hb htok r⟩
    have h1 := hf.complete ha hp hb' (r := ',' :: (b ++ c :: r)) ⟨_, _, rfl, .inl rfl⟩
    show readItems f 0 _ = _
    rw [readItems]
    simp only [List.append_assoc, List.cons_append, List.nil_append] at h1 ⊢
    rw [h1]
    rfl
  | @cons a tok b' rest v vs ha hp hb' hr ih =>
    obtain ⟨r', h2, h3⟩ := ih
    refine ⟨r', ?_, h3⟩
    have h1 := hf.complete ha hp hb' (r := ',' :: (rest ++ (b ++ c :: r))) ⟨_, _, rfl, .inl rfl⟩
    obtain ⟨n, hn⟩ := items_length hr
    rw [hn, Nat.add_sub_cancel] at h2
    rw [List.length_cons, hn, Nat.add_sub_cancel]
    rw [readItems]
    simp only [List.append_assoc, List.cons_append] at h1 ⊢
    rw [h1]
    show (match readItems f n (rest ++ (b ++ c :: r)) with
      | none => none
      | some (vs, r) => some (v :: vs, r)) = _
    rw [h2]

theorem readList_sound {α : Type} {f : List Char → Option (α × List Char)} {P : List Char → α → Prop} (hf : Reads f P)
    {N : Nat} (hN : 1 ≤ N) {s : List Char} {vs : List α} {r : List Char} (h : readList f N s = some (vs, r)) :
    vs.length = N ∧ ∃ t, ListText P vs t ∧ s = t ++ r := by
  unfold readList at h
  cases hs : skipIgnore s with
  | nil => rw [hs] at h; simp at h
  | cons o s1 =>
    rw [hs] at h
    dsimp only at h
    obtain ⟨a, ha, hs'⟩ := skip_cons hs
    by_cases ho : o = '[' ∨ o = '('
    · rw [if_pos ho] at h
      cases hi : readItems f (N - 1) s1 with
      | none => rw [hi] at h; simp at h
      | some x =>
        obtain ⟨vs', r1⟩ := x
        rw [hi] at h
        dsimp only at h
        obtain ⟨hl, items, hit, he⟩ := readItems_sound hf _ _ _ _ hi
        cases hr : skipIgnore r1 with
        | nil => rw [hr] at h; simp at h
        | cons c r2 =>
          rw [hr] at h
          dsimp only at h
          obtain ⟨b, hb, hr'⟩ := skip_cons hr
          by_cases hc : c = ']' ∨ c = ')'
          · rw [if_pos hc] at h
            simp only [Option.some.injEq, Prod.mk.injEq] at h
            obtain ⟨rfl, rfl⟩ := h
            exact ⟨by omega, _, ⟨a, o, items, b, c, ha, ho, hit, hb, hc, rfl⟩, by rw [hs', he, hr']; simp⟩
          · rw [if_neg hc] at h; simp at h
    · rw [if_neg ho] at h; simp at h

theorem readList_complete {α : Type} {f : List Char → Option (α × List Char)} {P : List Char → α → Prop} (hf : Reads f P)
    {vs : List α} {t : List Char} (h : ListText P vs t) (r : List Char) : readList f vs.length (t ++ r) = some (vs, r) := by
  obtain ⟨a, o, items, b, c, ha, ho, hit, hb, hc, rfl⟩ := h
  unfold readList
  have htok : Tok o := by rcases ho with rfl | rfl <;> exact ⟨by decide, by decide⟩
  obtain ⟨r', h1, h2⟩ := readItems_complete hf hit hb hc r
  have : a ++ o :: (items ++ (b ++ [c])) ++ r = a ++ o :: (items ++ (b ++ c :: r)) := by simp
  rw [this, skip_to ha htok]
  dsimp only
  rw [if_pos ho, h1]
  dsimp only
  rw [h2]
  dsimp only
  rw [if_pos hc]

theorem list_length {α : Type} {P : List Char → α → Prop} {vs : List α} {t : List Char} (h : ListText P vs t) : 1 ≤ vs.length := by
  obtain ⟨a, o, items, b, c, ha, ho, hit, hb, hc, rfl⟩ := h
  obtain ⟨n, hn⟩ := items_length hit
  omega

/-! ### strings -/

def isQuote (c : Char) : Bool := c = '"' || c = '\''

def dropB (s : List Char) : List Char := match s with
  | 'b' :: s => s
  | s => s

theorem dropB_b (s : List Char) : dropB ('b' :: s) = s := rfl
theorem dropB_other (s : List Char) (h : s.head? ≠ some 'b') : dropB s = s := by
  unfold dropB
  split
  · exact absurd rfl h
  · rfl

theorem readString_eq (s : List Char) : readString s = (match dropB (skipIgnore s) with
  | [] => none
  | q :: s =>
    if q = '"' ∨ q = '\'' then
      match s.dropWhile (fun c => !(c = '"' || c = '\'')) with
      | [] => none
      | _ :: rest => some (s.takeWhile (fun c => !(c = '"' || c = '\'')), rest)
    else none) := rfl

theorem takeWhile_all' (p : Char → Bool) (s : List Char) : ∀ c ∈ s.takeWhile p, p c = true := by
  induction s with
  | nil => simp
  | cons c s ih =>
    intro d hd
    by_cases hc : p c = true
    · rw [List.takeWhile_cons, if_pos hc, List.mem_cons] at hd
      rcases hd with rfl | hd
      · exact hc
      · exact ih d hd
    · rw [List.takeWhile_cons, if_neg hc] at hd; simp at hd

theorem readString_iff (s body r : List Char) : readString s = some (body, r) ↔ ∃ t, StringText body t ∧ s = t ++ r := by
  have hq : ∀ c : Char, (!(c = '"' || c = '\'' : Bool)) = true ↔ c ≠ '"' ∧ c ≠ '\'' := by intro c; simp
  constructor
  · intro h
    rw [readString_eq] at h
    obtain ⟨a, ha, hs⟩ := skip_split s
    generalize skipIgnore s = s1 at h hs
    obtain ⟨pre, s2, hpre, hs1, he⟩ : ∃ pre s2, (pre = [] ∨ pre = ['b']) ∧ s1 = pre ++ s2 ∧ dropB s1 = s2 := by
      by_cases hb : s1.head? = some 'b'
      · obtain ⟨l, rfl⟩ : ∃ l, s1 = 'b' :: l := by
          cases s1 with
          | nil => simp at hb
          | cons c l => simp at hb; exact ⟨l, by rw [hb]⟩
        exact ⟨['b'], l, .inr rfl, rfl, rfl⟩
      · exact ⟨[], s1, .inl rfl, rfl, dropB_other _ hb⟩
    rw [he] at h
    cases s2 with
    | nil => simp at h
    | cons q s3 =>
      dsimp only at h
      by_cases hqq : q = '"' ∨ q = '\''
      · rw [if_pos hqq] at h
        have h3 := (List.takeWhile_append_dropWhile (p := fun c : Char => !(c = '"' || c = '\'' : Bool)) (l := s3)).symm
        have hbody : ∀ c ∈ s3.takeWhile (fun c : Char => !(c = '"' || c = '\'' : Bool)), (!(c = '"' || c = '\'' : Bool)) = true := by
          exact takeWhile_all' _ _
        have hdrop : ∀ c l, s3.dropWhile (fun c : Char => !(c = '"' || c = '\'' : Bool)) = c :: l → c = '"' ∨ c = '\'' := by
          intro c l h
          have hne : s3.dropWhile (fun c : Char => !(c = '"' || c = '\'' : Bool)) ≠ [] := by rw [h]; simp
          have := List.head_dropWhile_not (fun c : Char => !(c = '"' || c = '\'' : Bool)) (l := s3) hne
          simp only [h, List.head_cons] at this
          by_contra hcc
          rw [not_or] at hcc
          rw [(hq c).2 hcc] at this
          simp at this
        generalize s3.takeWhile (fun c : Char => !(c = '"' || c = '\'' : Bool)) = body' at h h3 hbody
        generalize s3.dropWhile (fun c : Char => !(c = '"' || c = '\'' : Bool)) = rest at h h3 hdrop
        cases rest with
        | nil => simp at h
        | cons q' rest =>
          simp only [Option.some.injEq, Prod.mk.injEq] at h
          obtain ⟨rfl, rfl⟩ := h
          refine ⟨_, ⟨a, pre, q, q', ha, hpre, hqq, hdrop q' rest rfl, ?_, ?_, rfl⟩, ?_⟩
          · intro hm; exact ((hq _).1 (hbody _ hm)).1 rfl
          · intro hm; exact ((hq _).1 (hbody _ hm)).2 rfl
          · rw [hs, hs1, h3]; simp
      · rw [if_neg hqq] at h; simp at h
  · rintro ⟨t, ⟨a, pre, q, q', ha, hpre, hqq, hqq', hb1, hb2, rfl⟩, rfl⟩
    rw [readString_eq]
    have htq : Tok q := by rcases hqq with rfl | rfl <;> exact ⟨by decide, by decide⟩
    have hnb : q ≠ 'b' := by rcases hqq with rfl | rfl <;> decide
    have hbody : ∀ c ∈ body, (!(c = '"' || c = '\'' : Bool)) = true := by
      intro c hc
      rw [hq]
      exact ⟨fun h => hb1 (h ▸ hc), fun h => hb2 (h ▸ hc)⟩
    have e1 : dropB (skipIgnore (a ++ (pre ++ q :: (body ++ [q'])) ++ r)) = q :: (body ++ q' :: r) := by
      rcases hpre with rfl | rfl
      · have : a ++ ([] ++ q :: (body ++ [q'])) ++ r = a ++ q :: (body ++ q' :: r) := by simp
        rw [this, skip_to ha htq, dropB_other _ (by simpa using hnb)]
      · have : a ++ (['b'] ++ q :: (body ++ [q'])) ++ r = a ++ 'b' :: (q :: (body ++ q' :: r)) := by simp
        rw [this, skip_to ha ⟨by decide, by decide⟩, dropB_b]
    rw [e1]
    dsimp only
    rw [if_pos hqq, List.takeWhile_append_of_pos hbody, List.dropWhile_append_of_pos hbody]
    have hq' : (!(q' = '"' || q' = '\'' : Bool)) = false := by rcases hqq' with rfl | rfl <;> decide
    rw [List.dropWhile_cons, List.takeWhile_cons]
    simp only [hq']
    simp

/-! ### values that aren't interpreted -/

theorem no_point (x : Option (Bool × List Char)) : ¬ ExpText x ['.'] := by
  intro h
  generalize hs : ['.'] = s at h
  cases h with
  | none => simp at hs
  | plain he hd hne => injection hs with h1 h2; subst h1; simp at he
  | plus he hd hne => injection hs with h1 h2; subst h1; simp at he
  | minus he hd hne => injection hs with h1 h2; subst h1; simp at he

theorem readValue_sound {s r : List Char} (h : readValue s = some r) : ∃ a tok t, Ign a ∧ NumText t tok ∧ tok ≠ [] ∧ tok ≠ ['.'] ∧ s = a ++ (tok ++ r) := by
  unfold readValue at h
  obtain ⟨a, ha, hs⟩ := skip_split s
  obtain ⟨tok, hn, ht⟩ := takeFloat_sound (skipIgnore s)
  generalize hf : takeFloat (skipIgnore s) = x at h hn ht
  obtain ⟨t, r1⟩ := x
  dsimp only at h hn ht
  by_cases c1 : ¬ t.neg = true ∧ t.int = [] ∧ t.frac = none ∧ t.exp = none
  · rw [if_pos c1] at h; simp at h
  rw [if_neg c1] at h
  by_cases c2 : ¬ t.neg = true ∧ t.int = [] ∧ t.frac = some [] ∧ t.exp = none
  · rw [if_pos c2] at h; simp at h
  rw [if_neg c2] at h
  obtain rfl := Option.some.inj h
  have hn' := hn
  obtain ⟨e, hi, hfr, he, htok⟩ := hn'
  have exp_nil : ∀ {x : Option (Bool × List Char)}, ExpText x [] → x = none := by intro x h; cases h; rfl
  refine ⟨a, tok, t, ha, hn, ?_, ?_, by rw [← ht, ← hs]⟩
  · intro h0
    rw [h0] at htok
    have := htok.symm
    simp only [List.append_eq_nil_iff] at this
    obtain ⟨k1, k2, k3, k4⟩ := this
    refine c1 ⟨?_, k2, ?_, ?_⟩
    · intro hneg; rw [if_pos hneg] at k1; simp at k1
    · cases hfr' : t.frac with
      | none => rfl
      | some f => rw [hfr'] at k3; simp [fracText] at k3
    · rw [k4] at he; exact exp_nil he
  · intro h0
    rw [h0] at htok
    have hneg : ¬ t.neg = true := by
      intro hneg
      rw [if_pos hneg] at htok
      simp at htok
    rw [if_neg hneg, List.nil_append] at htok
    have hint : t.int = [] := by
      cases hc : t.int with
      | nil => rfl
      | cons c l =>
        rw [hc] at htok
        simp only [List.cons_append, List.cons.injEq] at htok
        have := (digits_iff _).1 hi c (by rw [hc]; exact List.mem_cons_self)
        rw [← htok.1] at this
        exact absurd this (by decide)
    rw [hint, List.nil_append] at htok
    cases hfr' : t.frac with
    | none =>
      rw [hfr', fracText, List.nil_append] at htok
      rw [← htok] at he
      exact absurd he (no_point _)
    | some f =>
      rw [hfr', fracText] at htok
      simp only [List.cons_append, List.cons.injEq, true_and] at htok
      have := htok.symm
      simp only [List.append_eq_nil_iff] at this
      obtain ⟨rfl, rfl⟩ := this
      exact c2 ⟨hneg, hint, hfr', exp_nil he⟩

theorem readValue_complete {a tok : List Char} {t : FloatTok} (ha : Ign a) (hn : NumText t tok) (h0 : tok ≠ []) (h1 : tok ≠ ['.']) {r : List Char} (hr : Stop r) :
    readValue (a ++ (tok ++ r)) = some r := by
  unfold readValue
  have hs : skipIgnore (a ++ (tok ++ r)) = tok ++ r := by
    obtain ⟨c, l, rfl, hc⟩ := num_head hn h0
    rw [List.cons_append, skip_to ha hc]
  rw [hs, takeFloat_complete hn hr (.inr h0)]
  dsimp only
  obtain ⟨e, hi, hfr, he, htok⟩ := hn
  rw [if_neg, if_neg]
  · rintro ⟨k1, k2, k3, k4⟩
    rw [k4] at he
    cases he
    rw [if_neg k1, k2, k3] at htok
    exact h1 htok
  · rintro ⟨k1, k2, k3, k4⟩
    rw [k4] at he
    cases he
    rw [if_neg k1, k2, k3] at htok
    exact h0 htok

theorem readValue_none_iff (s : List Char) :
    readValue s = none ↔ ∀ a tok r t, Ign a → NumText t tok → s = a ++ (tok ++ r) → tok = [] ∨ tok = ['.'] := by
  constructor
  · intro h a tok r t ha hn hs
    by_contra hne
    rw [not_or] at hne
    unfold readValue at h
    have hs' : skipIgnore s = tok ++ r := by
      obtain ⟨c, l, rfl, hc⟩ := num_head hn hne.1
      rw [hs, List.cons_append, skip_to ha hc]
    rw [hs'] at h
    have hk := takeFloat_some hn hne.1 hne.2 r
    generalize takeFloat (tok ++ r) = x at h hk
    obtain ⟨t', r1⟩ := x
    dsimp only at h hk
    rw [if_neg, if_neg] at h
    · simp at h
    · rintro ⟨k1, k2, k3, k4⟩
      rcases hk with hk | hk | ⟨f, hk, hk'⟩ | hk
      · exact k1 hk
      · exact hk k2
      · rw [k3] at hk; exact hk' (Option.some.inj hk).symm
      · exact hk k4
    · rintro ⟨k1, k2, k3, k4⟩
      rcases hk with hk | hk | ⟨f, hk, hk'⟩ | hk
      · exact k1 hk
      · exact hk k2
      · rw [k3] at hk; simp at hk
      · exact hk k4
  · intro h
    cases hv : readValue s with
    | none => rfl
    | some r =>
      obtain ⟨a, tok, t, ha, hn, h0, h1, hs⟩ := readValue_sound hv
      rcases h a tok r t ha hn hs with h | h
      · exact absurd h h0
      · exact absurd h h1

end Mrcal.ModelFile

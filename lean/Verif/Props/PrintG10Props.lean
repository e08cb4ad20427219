import Verif.Model.ModelPy
import Verif.Props.ModelWriteProps
import Mathlib.Tactic.FieldSimp
import Mathlib.Tactic.Positivity
/-
Printing numbers with 10 digits: what '{:.10g}' writes, and its value.
-/
namespace Mrcal.ModelPy
open Mrcal.Name Mrcal.CamModel Mrcal.ModelFile

/-! ### what we expect -/

/-- a number of at most 10 significant decimal digits -/
def Short10 (v : ℚ) : Prop := ∃ k j : ℤ, |k| < 10 ^ 10 ∧ v = k * (10 : ℚ) ^ j

/-- `b` is `a` with 10 significant digits -/
def Rounded10 (a b : ℚ) : Prop := |a - b| ≤ |a| * 5e-10 ∧ Short10 b

/-- not infinite, even after rounding to 10 digits -/
def Small (q : ℚ) : Prop := |q| ≤ 1.79e308

/-- the text of a number, for C and for Python: there are digits before the decimal point, integers have no leading zeros -/
def NumTok (s : List Char) (v : ℚ) : Prop :=
  ∃ t : FloatTok, NumText t s ∧ t.int ≠ [] ∧
    v = (if t.neg then -1 else 1) * (decVal (t.int ++ t.frac.getD []) : ℚ) * (10 : ℚ) ^ (expVal t.exp - (t.frac.getD []).length) ∧
    |v| < 2 ^ 1024 - 2 ^ 970 ∧ (t.frac = none → t.exp = none → t.int.head? = some '0' → t.int = ['0'])

theorem NumTok.number {s : List Char} {v : ℚ} (h : NumTok s v) : Number s v := by
  obtain ⟨t, h1, h2, h3, h4, -⟩ := h
  exact ⟨t, h1, Or.inl h2, h3, h4⟩

/-! ### the digits -/

theorem sci10_spec (a : ℚ) (ha : 0 < a) : 10 ^ 9 ≤ (sci10 a).1 ∧ (sci10 a).1 < 10 ^ 10 ∧ |a - (sci10 a).1 * (10 : ℚ) ^ ((sci10 a).2 - 9)| ≤ a * 5e-10 := by
  have h1 : (10 : ℚ) ^ Int.log 10 a ≤ a := by exact_mod_cast Int.zpow_log_le_self (b := 10) (by norm_num) ha
  have h2 : a < (10 : ℚ) ^ (Int.log 10 a + 1) := by exact_mod_cast Int.lt_zpow_succ_log_self (b := 10) (by norm_num) a
  unfold sci10
  generalize Int.log 10 a = e at h1 h2
  dsimp only
  have hp : (0 : ℚ) < (10 : ℚ) ^ (9 - e) := by positivity
  have hq : (0 : ℚ) < (10 : ℚ) ^ (e - 9) := by positivity
  have hpq : (10 : ℚ) ^ (9 - e) * (10 : ℚ) ^ (e - 9) = 1 := by
    rw [← zpow_add₀ (by norm_num)]; simp
  have e1 : (10 : ℚ) ^ e = 10 ^ 9 * (10 : ℚ) ^ (e - 9) := by
    rw [show (10 : ℚ) ^ 9 = (10 : ℚ) ^ (9 : ℤ) by norm_num, ← zpow_add₀ (by norm_num)]; congr 1; ring
  have e2 : (10 : ℚ) ^ (e + 1) = 10 ^ 10 * (10 : ℚ) ^ (e - 9) := by
    rw [show (10 : ℚ) ^ 10 = (10 : ℚ) ^ (10 : ℤ) by norm_num, ← zpow_add₀ (by norm_num)]; congr 1; ring
  have e3 : (10 : ℚ) ^ (e + 1 - 9) = 10 * (10 : ℚ) ^ (e - 9) := by
    rw [show e + 1 - 9 = 1 + (e - 9) by ring, zpow_add₀ (by norm_num)]; norm_num
  generalize (10 : ℚ) ^ (9 - e) = p at *
  generalize hqd : (10 : ℚ) ^ (e - 9) = q at *
  rw [e1] at h1
  rw [e2] at h2
  have hx1 : (10 : ℚ) ^ 9 ≤ a * p := by
    calc (10 : ℚ) ^ 9 = 10 ^ 9 * q * p := by rw [mul_assoc, mul_comm q, hpq, mul_one]
      _ ≤ a * p := mul_le_mul_of_nonneg_right h1 hp.le
  have hx2 : a * p < (10 : ℚ) ^ 10 := by
    calc a * p < 10 ^ 10 * q * p := mul_lt_mul_of_pos_right h2 hp
      _ = _ := by rw [mul_assoc, mul_comm q, hpq, mul_one]
  have hr := round_err (a * p)
  have hr0 := round_nonneg (a * p) (by positivity)
  generalize hR : roundHalfEven (a * p) = R at *
  obtain ⟨n, rfl⟩ := Int.eq_ofNat_of_zero_le hr0
  rw [Int.toNat_natCast]
  have hr' := abs_le.1 hr
  simp only [Int.cast_natCast] at hr hr'
  have hn1 : 10 ^ 9 ≤ n := by
    by_contra hc
    have : (n : ℚ) ≤ 10 ^ 9 - 1 := by
      have : n + 1 ≤ 10 ^ 9 := by omega
      have h3 : ((n + 1 : ℕ) : ℚ) ≤ ((10 ^ 9 : ℕ) : ℚ) := Nat.cast_le.2 this
      push_cast at h3; linarith
    linarith
  have hn2 : n ≤ 10 ^ 10 := by
    by_contra hc
    have : (10 : ℚ) ^ 10 + 1 ≤ n := by
      have : 10 ^ 10 + 1 ≤ n := by omega
      have h3 : ((10 ^ 10 + 1 : ℕ) : ℚ) ≤ (n : ℚ) := Nat.cast_le.2 this
      push_cast at h3; linarith
    linarith
  have hv : |a - n * q| ≤ a * 5e-10 := by
    have : a - n * q = (a * p - n) * q := by
      rw [sub_mul, mul_assoc, hpq, mul_one]
    rw [this, abs_mul, abs_of_pos hq]
    calc |a * p - n| * q ≤ 1 / 2 * q := mul_le_mul_of_nonneg_right hr hq.le
      _ = 10 ^ 9 * q * 5e-10 := by norm_num; ring
      _ ≤ a * 5e-10 := mul_le_mul_of_nonneg_right h1 (by norm_num)
  by_cases h : n = 10000000000
  · rw [if_pos h]
    refine ⟨by norm_num, by norm_num, ?_⟩
    dsimp only
    rw [e3]
    rw [h] at hv
    push_cast at hv ⊢
    rw [show (1000000000 : ℚ) * (10 * q) = 10000000000 * q by ring]
    exact hv
  · rw [if_neg h]
    refine ⟨hn1, by dsimp only; omega, ?_⟩
    dsimp only
    rw [hqd]
    exact hv

theorem sci10_fix (m : Nat) (e : Int) (h1 : 10 ^ 9 ≤ m) (h2 : m < 10 ^ 10) : sci10 (m * (10 : ℚ) ^ (e - 9)) = (m, e) := by
  have hq : (0 : ℚ) < (10 : ℚ) ^ (e - 9) := by positivity
  have h1' : (10 : ℚ) ^ 9 ≤ m := by exact_mod_cast h1
  have h2' : (m : ℚ) < 10 ^ 10 := by exact_mod_cast h2
  have hm : (0 : ℚ) < m := lt_of_lt_of_le (by norm_num) h1'
  have hpos : (0 : ℚ) < m * (10 : ℚ) ^ (e - 9) := mul_pos hm hq
  have hlog : Int.log 10 ((m : ℚ) * (10 : ℚ) ^ (e - 9)) = e := by
    apply le_antisymm
    · have : (m : ℚ) * (10 : ℚ) ^ (e - 9) < ((10 : ℕ) : ℚ) ^ (e + 1) := by
        push_cast
        rw [show e + 1 = 10 + (e - 9) by ring, zpow_add₀ (by norm_num)]
        exact mul_lt_mul_of_pos_right (by exact_mod_cast h2') hq
      have := (Int.lt_zpow_iff_log_lt (b := 10) (by norm_num) hpos).1 this
      omega
    · have : ((10 : ℕ) : ℚ) ^ e ≤ (m : ℚ) * (10 : ℚ) ^ (e - 9) := by
        push_cast
        rw [show e = 9 + (e - 9) by ring, zpow_add₀ (by norm_num)]
        rw [show 9 + (e - 9) - 9 = e - 9 by ring]
        exact mul_le_mul_of_nonneg_right (by exact_mod_cast h1') hq.le
      exact (Int.zpow_le_iff_le_log (b := 10) (by norm_num) hpos).1 this
  unfold sci10
  rw [hlog]
  dsimp only
  rw [mul_assoc, ← zpow_add₀ (by norm_num), show e - 9 + (9 - e) = 0 by ring, zpow_zero, mul_one]
  have : roundHalfEven (m : ℚ) = (m : Int) := by
    have := round_int (m : Int)
    exact_mod_cast this
  rw [this, Int.toNat_natCast, if_neg (by omega)]

theorem printNat_length_eq (k : Nat) : ∀ n, 10 ^ k ≤ n → n < 10 ^ (k + 1) → (printNat n).length = k + 1 := by
  induction k with
  | zero => intro n _ h; rw [printNat_lt (by simpa using h)]; rfl
  | succ k ih =>
    intro n h1 h2
    have h3 : ¬ n < 10 := by
      have h4 : 0 < 10 ^ k := by positivity
      rw [pow_succ] at h1
      omega
    rw [printNat_ge h3, List.length_append, ih (n / 10)]
    · rfl
    · rw [pow_succ] at h1; omega
    · rw [pow_succ] at h2; omega

theorem decVal_app (a b : List Char) : decVal (a ++ b) = decVal a * 10 ^ b.length + decVal b := by
  induction b using List.reverseRecOn with
  | nil => simp [decVal]
  | append_singleton b c ih =>
    rw [← List.append_assoc, decVal_append, decVal_append, ih, List.length_append, List.length_singleton, pow_succ]
    ring

theorem decVal_zeros (k : Nat) : decVal (List.replicate k '0') = 0 := by
  induction k with
  | zero => rfl
  | succ k ih => rw [List.replicate_succ', decVal_append, ih]; rfl

theorem rstrip0_split (l : List Char) : ∃ k, l = rstrip0 l ++ List.replicate k '0' := by
  refine ⟨(l.reverse.takeWhile (· = '0')).length, ?_⟩
  unfold rstrip0
  have h := congrArg List.reverse (List.takeWhile_append_dropWhile (p := fun c : Char => decide (c = '0')) (l := l.reverse))
  rw [List.reverse_append, List.reverse_reverse] at h
  have h2 : (l.reverse.takeWhile (· = '0')) = List.replicate (l.reverse.takeWhile (· = '0')).length '0' := by
    apply List.eq_replicate_of_mem
    intro c hc
    have := takeWhile_all' _ _ c hc
    simpa using this
  rw [h2] at h
  simp only [List.reverse_replicate] at h
  exact h.symm

theorem rstrip0_digits {l : List Char} (h : Digits l) : Digits (rstrip0 l) := by
  obtain ⟨k, hk⟩ := rstrip0_split l
  intro c hc
  exact h c (by rw [hk]; exact List.mem_append_left _ hc)

/-- the value doesn't depend on the trailing zeros -/
theorem strip_value (int frac : List Char) :
    (decVal (int ++ rstrip0 frac) : ℚ) * (10 : ℚ) ^ (-((rstrip0 frac).length : ℤ)) = decVal (int ++ frac) * (10 : ℚ) ^ (-(frac.length : ℤ)) := by
  obtain ⟨k, hk⟩ := rstrip0_split frac
  generalize rstrip0 frac = f at hk
  rw [hk, ← List.append_assoc, decVal_app (int ++ f), decVal_zeros, List.length_append, List.length_replicate]
  push_cast
  rw [add_zero, neg_add, zpow_add₀ (by norm_num), mul_assoc]
  congr 1
  rw [mul_comm ((10 : ℚ) ^ (-(f.length : ℤ))), ← mul_assoc, zpow_neg (10 : ℚ) (k : ℤ), zpow_natCast]
  rw [mul_inv_cancel₀ (by positivity), one_mul]

def optFrac (frac : List Char) : Option (List Char) := if rstrip0 frac = [] then none else some (rstrip0 frac)

theorem optFrac_getD (frac : List Char) : (optFrac frac).getD [] = rstrip0 frac := by
  unfold optFrac
  by_cases h : rstrip0 frac = []
  · rw [if_pos h, h]; rfl
  · rw [if_neg h]; rfl

theorem optFrac_text (frac : List Char) : fracText (optFrac frac) = (if rstrip0 frac = [] then [] else '.' :: rstrip0 frac) := by
  unfold optFrac
  by_cases h : rstrip0 frac = []
  · rw [if_pos h, if_pos h]; rfl
  · rw [if_neg h, if_neg h]; rfl

theorem withFrac_numTok (neg : Bool) (int frac e : List Char) (x : Option (Bool × List Char)) (hi : Digits int) (hi0 : int ≠ []) (hf : Digits frac) (he : ExpText x e)
    (hz : x = none → int.head? = some '0' → int = ['0']) (v : ℚ)
    (hv : v = (if neg then -1 else 1) * (decVal (int ++ frac) : ℚ) * (10 : ℚ) ^ (expVal x - frac.length)) (hb : |v| < 2 ^ 1024 - 2 ^ 970) :
    NumTok ((if neg then ['-'] else []) ++ (withFrac int frac ++ e)) v := by
  refine ⟨⟨neg, int, optFrac frac, x⟩, ⟨e, hi, ?_, he, ?_⟩, hi0, ?_, hb, ?_⟩
  · intro f hff
    unfold optFrac at hff
    by_cases h : rstrip0 frac = []
    · rw [if_pos h] at hff; simp at hff
    · rw [if_neg h] at hff
      rw [← Option.some.inj hff]
      exact rstrip0_digits hf
  · unfold withFrac
    dsimp only
    rw [optFrac_text, List.append_assoc]
  · dsimp only
    rw [hv, optFrac_getD, sub_eq_add_neg, sub_eq_add_neg, zpow_add₀ (by norm_num), zpow_add₀ (by norm_num)]
    have := strip_value int frac
    linear_combination (if neg = true then (-1 : ℚ) else 1) * 10 ^ expVal x * (-this)
  · intro _ h2 h3
    exact hz h2 h3

theorem printNat_Digits (n : Nat) : Digits (printNat n) := (digits_iff _).2 (printNat_digits n)

theorem dig_take {l : List Char} (h : Digits l) (k : Nat) : Digits (l.take k) := fun c hc => h c (List.mem_of_mem_take hc)
theorem dig_drop {l : List Char} (h : Digits l) (k : Nat) : Digits (l.drop k) := fun c hc => h c (List.mem_of_mem_drop hc)
theorem dig_append {a b : List Char} (ha : Digits a) (hb : Digits b) : Digits (a ++ b) := fun c hc => (List.mem_append.1 hc).elim (ha c) (hb c)
theorem zeros_Digits (k : Nat) : Digits (List.replicate k '0') := fun c hc => by rw [List.eq_of_mem_replicate hc]; decide

theorem decVal_pad2 (s : List Char) : decVal (pad2 s) = decVal s := by
  unfold pad2
  split_ifs
  · rw [show '0' :: s = ['0'] ++ s from rfl, decVal_app]
    simp [decVal, digitVal]
  · rfl

theorem pad2_Digits {s : List Char} (h : Digits s) : Digits (pad2 s) := by
  unfold pad2
  split_ifs
  · exact dig_append (a := ['0']) (fun c hc => by rw [List.mem_singleton.1 hc]; decide) h
  · exact h

theorem pad2_ne {s : List Char} (h : s ≠ []) : pad2 s ≠ [] := by
  unfold pad2
  split_ifs
  · simp
  · exact h

theorem head_take {l : List Char} (k : Nat) (hk : 0 < k) : (l.take k).head? = l.head? := by
  cases k with
  | zero => omega
  | succ k => cases l <;> rfl

/-- the text of `m` × 10^(e-9) -/
def gText (m : Nat) (e : Int) : List Char :=
  if -4 ≤ e ∧ e < 10 then
    if 0 ≤ e then withFrac ((printNat m).take (e.toNat + 1)) ((printNat m).drop (e.toNat + 1))
    else withFrac ['0'] (List.replicate ((-e).toNat - 1) '0' ++ printNat m)
  else withFrac ((printNat m).take 1) ((printNat m).drop 1) ++ 'e' :: (if e < 0 then '-' else '+') :: pad2 (printNat e.natAbs)

theorem printG10_eq (q : ℚ) (hq : q ≠ 0) : printG10 q = (if q < 0 then ['-'] else []) ++ gText (sci10 |q|).1 (sci10 |q|).2 := by
  have : (if q < 0 then -q else q) = |q| := by
    by_cases h : q < 0
    · rw [if_pos h, abs_of_neg h]
    · rw [if_neg h, abs_of_nonneg (not_lt.1 h)]
  unfold printG10 gText
  rw [if_neg hq, this]

theorem gText_numTok (neg : Bool) (m : Nat) (e : Int) (h1 : 10 ^ 9 ≤ m) (h2 : m < 10 ^ 10)
    (hb : (m : ℚ) * (10 : ℚ) ^ (e - 9) < 2 ^ 1024 - 2 ^ 970) :
    NumTok ((if neg then ['-'] else []) ++ gText m e) ((if neg then -1 else 1) * (m * (10 : ℚ) ^ (e - 9))) := by
  have hlen := printNat_length_eq 9 m h1 h2
  have hdig := printNat_Digits m
  have hval := decVal_printNat m
  have hhead : (printNat m).head? ≠ some '0' := by
    intro h
    have h3 := printNat_head m h
    rw [h3] at hlen
    simp at hlen
  have hne : printNat m ≠ [] := printNat_ne_nil m
  have hpos : (0 : ℚ) ≤ m * (10 : ℚ) ^ (e - 9) := by positivity
  have habs : |(if neg = true then (-1 : ℚ) else 1) * (m * (10 : ℚ) ^ (e - 9))| < 2 ^ 1024 - 2 ^ 970 := by
    generalize (2 : ℚ) ^ 1024 - 2 ^ 970 = B at *
    rw [abs_mul, abs_of_nonneg hpos]
    cases neg <;> simpa using hb
  unfold gText
  by_cases c1 : -4 ≤ e ∧ e < 10
  on_goal 1 => by_cases c2 : 0 ≤ e
  · rw [if_pos c1, if_pos c2]
    -- 0 ≤ e < 10
    have he : e = (e.toNat : Int) := by omega
    have := withFrac_numTok neg ((printNat m).take (e.toNat + 1)) ((printNat m).drop (e.toNat + 1)) [] none (dig_take hdig _) ?_ (dig_drop hdig _) .none ?_
      ((if neg = true then (-1 : ℚ) else 1) * (m * (10 : ℚ) ^ (e - 9))) ?_ habs
    · rw [List.append_nil] at this; exact this
    · intro hc
      have := congrArg List.length hc
      simp [hlen] at this
    · intro _ hc
      rw [head_take _ (by omega)] at hc
      exact absurd hc hhead
    · rw [List.take_append_drop, hval, List.length_drop, hlen, mul_assoc]
      congr 3
      simp only [expVal]
      omega
  · rw [if_pos c1, if_neg c2]
    -- -4 ≤ e < 0
    have := withFrac_numTok neg ['0'] (List.replicate ((-e).toNat - 1) '0' ++ printNat m) [] none (fun c hc => by rw [List.mem_singleton.1 hc]; decide) (by simp)
      (dig_append (zeros_Digits _) hdig) .none (fun _ _ => rfl)
      ((if neg = true then (-1 : ℚ) else 1) * (m * (10 : ℚ) ^ (e - 9))) ?_ habs
    · rw [List.append_nil] at this; exact this
    · rw [decVal_app, decVal_app, decVal_zeros, hval, show decVal ['0'] = 0 from rfl, List.length_append, List.length_replicate, hlen, mul_assoc]
      simp only [zero_mul, zero_add, expVal]
      congr 3
      omega
  · rw [if_neg c1]
    -- with an exponent
    have hE := printNat_Digits e.natAbs
    have hEn := printNat_ne_nil e.natAbs
    have hexp : ExpText (some (decide (e < 0), pad2 (printNat e.natAbs))) ('e' :: (if e < 0 then '-' else '+') :: pad2 (printNat e.natAbs)) := by
      by_cases h : e < 0
      · rw [if_pos h, decide_eq_true h]; exact .minus (Or.inl rfl) (pad2_Digits hE) (pad2_ne hEn)
      · rw [if_neg h, decide_eq_false h]; exact .plus (Or.inl rfl) (pad2_Digits hE) (pad2_ne hEn)
    have hev : expVal (some (decide (e < 0), pad2 (printNat e.natAbs))) = e := by
      by_cases h : e < 0
      · rw [decide_eq_true h]; simp only [expVal]; rw [decVal_pad2, decVal_printNat]; omega
      · rw [decide_eq_false h]; simp only [expVal]; rw [decVal_pad2, decVal_printNat]; omega
    refine withFrac_numTok neg ((printNat m).take 1) ((printNat m).drop 1) _ _ (dig_take hdig _) ?_ (dig_drop hdig _) hexp (by simp)
      ((if neg = true then (-1 : ℚ) else 1) * (m * (10 : ℚ) ^ (e - 9))) ?_ habs
    · intro hc
      have := congrArg List.length hc
      simp [hlen] at this
    · rw [List.take_append_drop, hval, List.length_drop, hlen, hev, mul_assoc]
      norm_num

/-- the number that's printed -/
def round10 (q : ℚ) : ℚ := if q = 0 then 0 else (if q < 0 then -1 else 1) * ((sci10 |q|).1 * (10 : ℚ) ^ ((sci10 |q|).2 - 9))

theorem round10_rounded (q : ℚ) : Rounded10 q (round10 q) := by
  unfold round10
  by_cases h0 : q = 0
  · rw [if_pos h0, h0]
    exact ⟨by norm_num, 0, 0, by norm_num, by norm_num⟩
  · rw [if_neg h0]
    obtain ⟨h1, h2, h3⟩ := sci10_spec |q| (abs_pos.2 h0)
    generalize (sci10 |q|).1 = m at *
    generalize (sci10 |q|).2 = e at *
    have hm : (((m : Int) : ℚ)) = (m : ℚ) := by push_cast; rfl
    by_cases h : q < 0
    · rw [if_pos h]
      refine ⟨?_, -m, e - 9, ?_, by push_cast; ring⟩
      · rw [abs_of_neg h] at h3 ⊢
        rw [show q - -1 * (m * (10 : ℚ) ^ (e - 9)) = -(-q - m * (10 : ℚ) ^ (e - 9)) by ring, abs_neg]
        exact h3
      · rw [abs_neg, Nat.abs_cast]; exact_mod_cast h2
    · rw [if_neg h]
      refine ⟨?_, m, e - 9, ?_, by push_cast; ring⟩
      · rw [abs_of_nonneg (not_lt.1 h)] at h3 ⊢
        rw [one_mul]
        exact h3
      · rw [Nat.abs_cast]; exact_mod_cast h2

theorem big_bound : (1.79e308 : ℚ) * (1 + 5e-10) < 2 ^ 1024 - 2 ^ 970 := by decide +kernel

theorem round10_bound (q : ℚ) (hq : Small q) : |round10 q| < 2 ^ 1024 - 2 ^ 970 := by
  have h := (round10_rounded q).1
  refine lt_of_le_of_lt ?_ big_bound
  unfold Small at hq
  have h2 : |round10 q| ≤ |q| + |q - round10 q| := by
    have := abs_sub_abs_le_abs_sub (round10 q) q
    rw [abs_sub_comm] at this
    linarith
  generalize (1.79e308 : ℚ) = B at *
  calc |round10 q| ≤ |q| + |q| * 5e-10 := by linarith
    _ = |q| * (1 + 5e-10) := by ring
    _ ≤ B * (1 + 5e-10) := mul_le_mul_of_nonneg_right hq (by norm_num)

theorem zero_numTok : NumTok ['0'] 0 :=
  ⟨⟨false, ['0'], none, none⟩, ⟨[], fun c hc => by rw [List.mem_singleton.1 hc]; decide, by simp, .none, rfl⟩, by simp, by simp [decVal, digitVal], by
    rw [abs_zero]; exact lt_of_le_of_lt (by norm_num) big_bound, fun _ _ _ => rfl⟩

/-- what's printed is a number, with the rounded value -/
theorem printG10_numTok (q : ℚ) (hq : Small q) : NumTok (printG10 q) (round10 q) := by
  by_cases h0 : q = 0
  · have e1 : printG10 q = ['0'] := by unfold printG10; rw [if_pos h0]
    have e2 : round10 q = 0 := by unfold round10; rw [if_pos h0]
    rw [e1, e2]
    exact zero_numTok
  · have hb := round10_bound q hq
    rw [printG10_eq q h0]
    unfold round10 at hb ⊢
    rw [if_neg h0] at hb ⊢
    obtain ⟨h1, h2, -⟩ := sci10_spec |q| (abs_pos.2 h0)
    have := gText_numTok (decide (q < 0)) (sci10 |q|).1 (sci10 |q|).2 h1 h2 ?_
    · simpa only [decide_eq_true_eq] using this
    · generalize (2 : ℚ) ^ 1024 - 2 ^ 970 = B at *
      rw [abs_mul, abs_of_nonneg (by positivity : (0 : ℚ) ≤ (sci10 |q|).1 * (10 : ℚ) ^ ((sci10 |q|).2 - 9))] at hb
      have : |(if q < 0 then (-1 : ℚ) else 1)| = 1 := by split_ifs <;> simp
      rw [this, one_mul] at hb
      exact hb

theorem round10_sign (q : ℚ) : (round10 q < 0 ↔ q < 0) ∧ (round10 q = 0 ↔ q = 0) := by
  unfold round10
  by_cases h0 : q = 0
  · rw [if_pos h0, h0]; simp
  · rw [if_neg h0]
    obtain ⟨h1, h2, -⟩ := sci10_spec |q| (abs_pos.2 h0)
    have : (0 : ℚ) < (sci10 |q|).1 * (10 : ℚ) ^ ((sci10 |q|).2 - 9) := by
      have : (0 : ℚ) < (sci10 |q|).1 := Nat.cast_pos.2 (by omega)
      positivity
    by_cases h : q < 0
    · rw [if_pos h]; exact ⟨⟨fun _ => h, fun _ => by linarith⟩, ⟨fun h' => by linarith, fun h' => absurd h' h0⟩⟩
    · rw [if_neg h]; exact ⟨⟨fun h' => by linarith, fun h' => absurd h' h⟩, ⟨fun h' => by linarith, fun h' => absurd h' h0⟩⟩

theorem sci10_round (q : ℚ) (h0 : q ≠ 0) : sci10 |round10 q| = sci10 |q| := by
  obtain ⟨h1, h2, -⟩ := sci10_spec |q| (abs_pos.2 h0)
  have : |round10 q| = (sci10 |q|).1 * (10 : ℚ) ^ ((sci10 |q|).2 - 9) := by
    unfold round10
    rw [if_neg h0, abs_mul, abs_of_nonneg (by positivity : (0 : ℚ) ≤ (sci10 |q|).1 * (10 : ℚ) ^ ((sci10 |q|).2 - 9))]
    have : |(if q < 0 then (-1 : ℚ) else 1)| = 1 := by split_ifs <;> simp
    rw [this, one_mul]
  rw [this, sci10_fix _ _ h1 h2]

/-- printing it again -/
theorem printG10_round (q : ℚ) : printG10 (round10 q) = printG10 q := by
  by_cases h0 : q = 0
  · rw [h0]; rfl
  · have h0' : round10 q ≠ 0 := fun h => h0 ((round10_sign q).2.1 h)
    rw [printG10_eq q h0, printG10_eq _ h0', sci10_round q h0]
    by_cases h : q < 0
    · rw [if_pos h, if_pos ((round10_sign q).1.2 h)]
    · rw [if_neg h, if_neg (fun h' => h ((round10_sign q).1.1 h'))]

theorem round10_round (q : ℚ) : round10 (round10 q) = round10 q := by
  by_cases h0 : q = 0
  · rw [h0]; rfl
  · have h0' : round10 q ≠ 0 := fun h => h0 ((round10_sign q).2.1 h)
    have e : ∀ x : ℚ, x ≠ 0 → round10 x = (if x < 0 then -1 else 1) * ((sci10 |x|).1 * (10 : ℚ) ^ ((sci10 |x|).2 - 9)) := by
      intro x hx; unfold round10; rw [if_neg hx]
    rw [e _ h0', sci10_round q h0]
    conv_rhs => rw [e _ h0]
    by_cases h : q < 0
    · rw [if_pos h, if_pos ((round10_sign q).1.2 h)]
    · rw [if_neg h, if_neg (fun h' => h ((round10_sign q).1.1 h'))]

theorem round10_small (q : ℚ) (hq : |q| ≤ 9.9e307) : Small (round10 q) := by
  have h := (round10_rounded q).1
  unfold Small
  have h2 : |round10 q| ≤ |q| + |q - round10 q| := by
    have := abs_sub_abs_le_abs_sub (round10 q) q
    rw [abs_sub_comm] at this
    linarith
  linarith

end Mrcal.ModelPy

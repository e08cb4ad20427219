import Verif.Props.ModelIOProps
/-
C70: writing a model, and reading it back.
-/
namespace Mrcal.ModelFile
open Mrcal.Name

/-! ### what we expect -/

/-- `b` is the closest number to `a` with 6 digits after the decimal point -/
def Rounded (a b : ℚ) : Prop := |a - b| ≤ 5e-7 ∧ ∃ k : ℤ, b = k / 1000000

/-- the lens comes back exactly, except for the linearity of CAHVORE: this has 2 digits after the decimal point -/
def LensBack : Lens → Lens → Prop
  | .cahvore a, .cahvore b => |a - b| ≤ 1 / 200 ∧ ∃ k : ℤ, b = k / 100
  | a, b => a = b

structure ReadBack (m m' : Model) : Prop where
  lens : LensBack m.lens m'.lens
  intrinsics : List.Forall₂ Rounded m.intrinsics m'.intrinsics
  extrinsics : List.Forall₂ Rounded m.rt_cam_ref m'.rt_cam_ref
  imagersize : m'.imagersize = m.imagersize

/-- a finite `double` -/
def Finite (q : ℚ) : Prop := |q| ≤ 2 ^ 1024 - 2 ^ 971

/-- the configuration of a lens: this is all that the C struct can hold -/
def LensFits : Lens → Prop
  | .cahvore l => Finite l
  | .splined o x y f => o ≤ 65535 ∧ x ≤ 65535 ∧ y ≤ 65535 ∧ f ≤ 65535
  | _ => True

/-- a model that may be written: its data is complete and finite, and the imager size fits into an int -/
structure Writable (m : Model) : Prop where
  lens : LensFits m.lens
  count : (m.intrinsics.length : Int) = m.lens.numParams
  intrinsics : ∀ v ∈ m.intrinsics, Finite v
  rt : m.rt_cam_ref.length = 6
  extrinsics : ∀ v ∈ m.rt_cam_ref, Finite v
  size : 0 < m.imagersize.1 ∧ m.imagersize.1 < 2 ^ 31 ∧ m.imagersize.2 < 2 ^ 31

/-! ### printed numbers -/

theorem decVal_micro (n : Nat) :
    decVal (printNat (n / 1000000) ++ [digitChar (n / 100000 % 10), digitChar (n / 10000 % 10), digitChar (n / 1000 % 10),
      digitChar (n / 100 % 10), digitChar (n / 10 % 10), digitChar (n % 10)]) = n := by
  have : ∀ (p : List Char) (a b c d e f : Char), p ++ [a, b, c, d, e, f] = (((((p ++ [a]) ++ [b]) ++ [c]) ++ [d]) ++ [e]) ++ [f] := by intros; simp
  rw [this]
  simp only [decVal_append]
  rw [decVal_printNat]
  repeat rw [digitVal_digitChar (by omega)]
  omega

theorem printF6_tok (q : ℚ) (hq : Finite q) : ∃ v, (∃ t : FloatTok, NumText t (printF6 q) ∧ (t.int ≠ [] ∧ t.frac ≠ none) ∧
    v = (if t.neg then -1 else 1) * (decVal (t.int ++ t.frac.getD []) : ℚ) * (10 : ℚ) ^ (expVal t.exp - (t.frac.getD []).length) ∧ |v| < 2 ^ 1024 - 2 ^ 970) ∧ Rounded q v := by
  set a : ℚ := if q < 0 then -q else q with ha
  set n : Nat := (roundHalfEven (a * 1000000)).toNat with hn
  have habs : a = |q| := by
    rw [ha]
    by_cases h : q < 0
    · rw [if_pos h, abs_of_neg h]
    · rw [if_neg h, abs_of_nonneg (not_lt.1 h)]
  have ha0 : 0 ≤ a * 1000000 := by rw [habs]; positivity
  have hnr : ((n : Nat) : ℚ) = (roundHalfEven (a * 1000000) : ℚ) := by
    have : ((n : Nat) : Int) = roundHalfEven (a * 1000000) := Int.toNat_of_nonneg (round_nonneg _ ha0)
    exact_mod_cast congrArg (fun z : Int => (z : ℚ)) this
  have he := abs_le.mp (round_err (a * 1000000))
  rw [← hnr] at he
  set f : List Char := [digitChar (n / 100000 % 10), digitChar (n / 10000 % 10), digitChar (n / 1000 % 10),
    digitChar (n / 100 % 10), digitChar (n / 10 % 10), digitChar (n % 10)] with hf
  have hp : printF6 q = (if decide (q < 0) then ['-'] else []) ++ (printNat (n / 1000000) ++ (fracText (some f) ++ [])) := by
    unfold printF6 fracText
    simp only [decide_eq_true_eq, List.append_nil, List.append_assoc]
    rfl
  have hfd : ∀ c ∈ f, isDigit c = true := by
    intro c hc
    rw [hf] at hc
    simp only [List.mem_cons, List.not_mem_nil, or_false] at hc
    rcases hc with rfl | rfl | rfl | rfl | rfl | rfl <;> exact digitChar_isDigit (by omega)
  have hz : (10 : ℚ) ^ (expVal none - (f.length : Int)) = 1 / 1000000 := by
    rw [hf]; norm_num [expVal]
  refine ⟨(if decide (q < 0) then -1 else 1) * (n : ℚ) * (1 / 1000000), ⟨⟨decide (q < 0), printNat (n / 1000000), some f, none⟩, ⟨[], ?_, ?_, .none, hp⟩, ⟨printNat_ne_nil _, by simp⟩, ?_, ?_⟩, ?_, ?_⟩
  · exact (digits_iff _).2 (printNat_digits _)
  · intro f' h
    rw [← Option.some.inj h]; exact (digits_iff _).2 hfd
  · dsimp only [Option.getD_some]
    rw [hz, hf, decVal_micro]
  · have hle : a ≤ 2 ^ 1024 - 2 ^ 971 := by rw [habs]; exact hq
    have hlt : (n : ℚ) * (1 / 1000000) < 2 ^ 1024 - 2 ^ 970 := by
      have h2 : (2 : ℚ) ^ 971 = 2 * 2 ^ 970 := by rw [pow_succ]; ring
      have h3 : (1 : ℚ) ≤ 2 ^ 970 := one_le_pow₀ (by norm_num)
      generalize (2 : ℚ) ^ 1024 = X at *
      generalize (2 : ℚ) ^ 971 = Y at *
      generalize (2 : ℚ) ^ 970 = Z at *
      linarith [he.1]
    have h0 : 0 ≤ (n : ℚ) * (1 / 1000000) := by positivity
    by_cases h : q < 0
    · simp only [h, decide_true, if_true]
      rw [show (-1 : ℚ) * (n : ℚ) * (1 / 1000000) = -((n : ℚ) * (1 / 1000000)) by ring, abs_neg, abs_of_nonneg h0]
      exact hlt
    · simp only [h, decide_false, Bool.false_eq_true, if_false, one_mul]
      rw [abs_of_nonneg h0]
      exact hlt
  · rw [abs_le]
    by_cases h : q < 0
    · rw [if_pos h] at ha
      simp only [h, decide_true, if_true]
      constructor <;> linarith
    · rw [if_neg h] at ha
      simp only [h, decide_false, Bool.false_eq_true, if_false]
      constructor <;> linarith
  · refine ⟨if decide (q < 0) then -(n : Int) else (n : Int), ?_⟩
    split <;> push_cast <;> ring

theorem printF6_number (q : ℚ) (hq : Finite q) : ∃ v, Number (printF6 q) v ∧ Rounded q v := by
  obtain ⟨v, ⟨t, h1, h2, h3, h4⟩, h5⟩ := printF6_tok q hq
  exact ⟨v, ⟨t, h1, Or.inl h2.1, h3, h4⟩, h5⟩

theorem printNat_head (n : Nat) : (printNat n).head? = some '0' → printNat n = ['0'] := by
  induction n using Nat.strong_induction_on with
  | _ n ih =>
    by_cases h : n < 10
    · rw [printNat_lt h]
      intro hh
      simpa using hh
    · rw [printNat_ge h]
      intro hh
      have h2 := printNat_ne_nil (n / 10)
      have h3 : (printNat (n / 10)).head? = some '0' := by
        cases hp : printNat (n / 10) with
        | nil => exact absurd hp h2
        | cons c l => rw [hp] at hh; exact hh
      have h4 := ih (n / 10) (by omega) h3
      have h5 := decVal_printNat (n / 10)
      rw [h4] at h5
      have : decVal ['0'] = 0 := by decide
      omega

theorem printNat_uint (n : Nat) (h : n < 2 ^ 31) : UintText (printNat n) n := by
  refine ⟨(digits_iff _).2 (printNat_digits n), printNat_ne_nil n, printNat_head n, h, ?_⟩
  rw [decVal_printNat, Nat.min_eq_left]
  have : (2 : Nat) ^ 31 ≤ 2 ^ 63 - 1 := by norm_num
  omega

/-! ### characters that appear in the output -/

def safe (c : Char) : Bool := c ≠ '"' && c ≠ '\'' && c ≠ '\x00'

theorem safe_digit {c : Char} (h : isDigit c = true) : safe c = true := by
  unfold safe
  simp only [Bool.and_eq_true, decide_eq_true_eq]
  refine ⟨⟨?_, ?_⟩, ?_⟩ <;> (rintro rfl; exact absurd h (by decide))

theorem safe_printNat (n : Nat) : ∀ c ∈ printNat n, safe c = true := fun c hc => safe_digit (printNat_digits n c hc)

theorem safe_append {a b : List Char} (ha : ∀ c ∈ a, safe c = true) (hb : ∀ c ∈ b, safe c = true) : ∀ c ∈ a ++ b, safe c = true := by
  intro c hc
  rcases List.mem_append.1 hc with h | h
  · exact ha c h
  · exact hb c h

theorem safe_name (L : Lens) : ∀ c ∈ fullName L, safe c = true := by
  cases L with
  | cahvore l =>
    rw [fullName]
    refine safe_append (safe_append (by decide) (by decide)) ?_
    unfold printF2
    refine safe_append (safe_append ?_ (safe_printNat _)) ?_
    · split <;> decide
    · intro c hc
      simp only [List.mem_cons, List.not_mem_nil, or_false] at hc
      rcases hc with rfl | rfl | rfl
      · decide
      · exact safe_digit (digitChar_isDigit (by omega))
      · exact safe_digit (digitChar_isDigit (by omega))
  | splined o x y f =>
    rw [fullName]
    exact safe_append (safe_append (safe_append (safe_append (safe_append (safe_append (safe_append (safe_append (by decide) (by decide)) (safe_printNat _)) (by decide)) (safe_printNat _)) (by decide)) (safe_printNat _)) (by decide)) (safe_printNat _)
  | _ => decide

def NoNul (s : List Char) : Prop := ∀ c ∈ s, c ≠ '\x00'

theorem nonul_append {a b : List Char} (ha : NoNul a) (hb : NoNul b) : NoNul (a ++ b) := by
  intro c hc
  rcases List.mem_append.1 hc with h | h
  · exact ha c h
  · exact hb c h

theorem nonul_safe {a : List Char} (h : ∀ c ∈ a, safe c = true) : NoNul a := by
  intro c hc
  have := h c hc
  unfold safe at this
  simp only [Bool.and_eq_true, decide_eq_true_eq] at this
  exact this.2

theorem nonul_printF6 (q : ℚ) : NoNul (printF6 q) := by
  apply nonul_safe
  unfold printF6
  refine safe_append (safe_append ?_ (safe_printNat _)) ?_
  · split <;> decide
  · intro c hc
    simp only [List.mem_cons, List.not_mem_nil, or_false] at hc
    rcases hc with rfl | rfl | rfl | rfl | rfl | rfl | rfl
    · decide
    all_goals exact safe_digit (digitChar_isDigit (by omega))

theorem nonul_takeWhile {s : List Char} (h : NoNul s) : s.takeWhile (fun c => c ≠ '\x00') = s := by
  induction s with
  | nil => rfl
  | cons c s ih =>
    rw [List.takeWhile_cons, if_pos (by simpa using h c List.mem_cons_self), ih (fun x hx => h x (List.mem_cons_of_mem _ hx))]

/-! ### length of the name -/

theorem printNat_length (k : Nat) (hk : 1 ≤ k) : ∀ n, n < 10 ^ k → (printNat n).length ≤ k := by
  induction k, hk using Nat.le_induction with
  | base => intro n hn; rw [printNat_lt (by simpa using hn)]; simp
  | succ k hk ih =>
    intro n hn
    by_cases h : n < 10
    · rw [printNat_lt h]; simp
    · rw [printNat_ge h]
      have := ih (n / 10) (by rw [pow_succ] at hn; omega)
      simp; omega

theorem name_length (L : Lens) (h : LensFits L) : (fullName L).length < 1024 := by
  cases L with
  | cahvore l =>
    rw [fullName]
    unfold printF2
    set n := (roundHalfEven ((if l < 0 then -l else l) * 100)).toNat with hn
    have ha : (if l < 0 then -l else l) = |l| := by
      by_cases h : l < 0
      · rw [if_pos h, abs_of_neg h]
      · rw [if_neg h, abs_of_nonneg (not_lt.1 h)]
    have hn2 : n / 100 < 10 ^ 400 := by
      have he := abs_le.mp (round_err (|l| * 100))
      have hf : |l| ≤ 2 ^ 1024 - 2 ^ 971 := h
      have hnr : ((n : Nat) : ℚ) = (roundHalfEven (|l| * 100) : ℚ) := by
        have : ((n : Nat) : Int) = roundHalfEven (|l| * 100) := by
          rw [hn, ha]; exact Int.toNat_of_nonneg (round_nonneg _ (by positivity))
        exact_mod_cast congrArg (fun z : Int => (z : ℚ)) this
      have h1 : (n : ℚ) < ((10 ^ 400 : Nat) : ℚ) := by
        have h0 : (2 ^ 1024 * 100 + 1 : Nat) < 10 ^ 400 := by decide +kernel
        have h1 : ((2 ^ 1024 * 100 + 1 : Nat) : ℚ) < ((10 ^ 400 : Nat) : ℚ) := Nat.cast_lt.2 h0
        rw [Nat.cast_add, Nat.cast_mul, Nat.cast_pow] at h1
        have h3 : (0 : ℚ) ≤ 2 ^ 971 := by positivity
        rw [hnr, Nat.cast_pow]
        push_cast at h1 ⊢
        generalize (2 : ℚ) ^ 1024 = X at *
        generalize (2 : ℚ) ^ 971 = Y at *
        generalize (10 : ℚ) ^ 400 = Z at *
        linarith [he.1]
      have h2 : n < 10 ^ 400 := by exact_mod_cast h1
      exact lt_of_le_of_lt (Nat.div_le_self _ _) h2
    have hl := printNat_length 400 (by norm_num) _ hn2
    have hm : (if l < 0 then ['-'] else []).length ≤ 1 := by split <;> simp
    have h1 : Ty.cahvore.str.length = 17 := by decide
    have h2 : "_linearity=".toList.length = 11 := by decide
    simp only [List.length_append, List.length_cons, List.length_nil, h1, h2]
    omega
  | splined o x y f =>
    rw [fullName]
    obtain ⟨h1, h2, h3, h4⟩ := h
    have l1 := printNat_length 5 (by norm_num) o (by omega)
    have l2 := printNat_length 5 (by norm_num) x (by omega)
    have l3 := printNat_length 5 (by norm_num) y (by omega)
    have l4 := printNat_length 5 (by norm_num) f (by omega)
    have k1 : Ty.splined.str.length ≤ 100 := by decide
    have k2 : "_order=".toList.length = 7 := by decide
    have k3 : "_Nx=".toList.length = 4 := by decide
    have k4 : "_Ny=".toList.length = 4 := by decide
    have k5 : "_fov_x_deg=".toList.length = 11 := by decide
    simp only [List.length_append, k2, k3, k4, k5]
    omega
  | _ => clear h; decide

theorem name_back (L : Lens) (h : LensFits L) : ∃ L', fromName (some (fullName L)) = .ok L' ∧ LensBack L L' ∧ L'.numParams = L.numParams := by
  cases L with
  | cahvore l =>
    obtain ⟨l', h1, h2, -, h4⟩ := cahvore_roundtrip l
    exact ⟨_, h1, ⟨h2, h4⟩, rfl⟩
  | splined o x y f =>
    obtain ⟨h1, h2, h3, h4⟩ := h
    exact ⟨_, splined_roundtrip o x y f h1 h2 h3 h4, rfl, rfl⟩
  | _ => exact ⟨_, noconfig_roundtrip _ trivial, rfl, rfl⟩

/-! ### the grammar of what's written -/

theorem items_flat (vs : List ℚ) : ∀ (v : ℚ) (a : List Char), Ign a → (∀ x ∈ v :: vs, Finite x) →
    ∃ items vs', ItemsText Number vs' items ∧ List.Forall₂ Rounded (v :: vs) vs' ∧
      a ++ ((v :: vs).flatMap fun v => printF6 v ++ ", ".toList) = items ++ [' '] := by
  induction vs with
  | nil =>
    intro v a ha hf
    obtain ⟨v', h1, h2⟩ := printF6_number v (hf v List.mem_cons_self)
    refine ⟨_, _, .lastComma ha h1 .nil, .cons h2 .nil, ?_⟩
    simp only [List.flatMap_cons, List.flatMap_nil, List.append_nil, List.append_assoc, List.nil_append]
    rfl
  | cons w vs ih =>
    intro v a ha hf
    obtain ⟨v', h1, h2⟩ := printF6_number v (hf v List.mem_cons_self)
    obtain ⟨items, vs', k1, k2, k3⟩ := ih w [' '] (.ws (Or.inl rfl) .nil) (fun x hx => hf x (List.mem_cons_of_mem _ hx))
    refine ⟨_, _, .cons ha h1 .nil k1, .cons h2 k2, ?_⟩
    rw [List.flatMap_cons]
    simp only [List.append_assoc, List.nil_append, List.cons_append]
    rw [← k3]
    rfl

theorem str_key (a : List Char) (ha : Ign a) (key : List Char) (h1 : '"' ∉ key) (h2 : '\'' ∉ key) : StringText key (a ++ '\'' :: (key ++ ['\''])) :=
  ⟨a, [], '\'', '\'', ha, Or.inl rfl, Or.inr rfl, Or.inr rfl, h1, h2, rfl⟩

theorem ign_nl2 : Ign ['\n', ' ', ' '] := .ws (by simp) (.ws (by simp) (.ws (by simp) .nil))
theorem ign_2 : Ign [' ', ' '] := .ws (by simp) (.ws (by simp) .nil)
theorem ign_1 : Ign [' '] := .ws (by simp) .nil
theorem ign_nl : Ign ['\n'] := .ws (by simp) .nil

theorem near_finite (n : Nat) (hn : 0 < n) (a b : ℚ) (ha : Finite a) (h : |a - b| ≤ 1 / (2 * n)) (hk : ∃ k : ℤ, b = k / n) : Finite b := by
  obtain ⟨k, hk⟩ := hk
  unfold Finite at *
  have hD : (2 : ℚ) ^ 1024 - 2 ^ 971 = ((2 ^ 1024 - 2 ^ 971 : ℤ) : ℚ) := by push_cast; rfl
  rw [hD] at ha ⊢
  generalize (2 ^ 1024 - 2 ^ 971 : ℤ) = D at *
  have hn' : (0 : ℚ) < n := Nat.cast_pos.2 hn
  have hb : |b| ≤ D + 1 / (2 * n) := by
    have : |b| ≤ |a| + |a - b| := by
      have := abs_sub_abs_le_abs_sub b a
      rw [abs_sub_comm] at this
      linarith
    linarith
  have hbk : |b| = |k| / n := by rw [hk, abs_div, abs_of_pos hn']; push_cast; rfl
  rw [hbk] at hb ⊢
  rw [div_le_iff₀ hn'] at hb ⊢
  have h2 : ((|k| : ℤ) : ℚ) ≤ ((D * n : ℤ) : ℚ) + 1 / 2 := by
    have : (D + 1 / (2 * (n : ℚ))) * n = D * n + 1 / 2 := by field_simp
    push_cast; rw [this] at hb; push_cast at hb; exact hb
  have h3 : |k| ≤ D * n := by
    by_contra hc
    have h4 : D * n + 1 ≤ |k| := by omega
    have h5 : ((D * n + 1 : ℤ) : ℚ) ≤ ((|k| : ℤ) : ℚ) := Int.cast_le.2 h4
    push_cast at h2 h5
    linarith
  have h6 : ((|k| : ℤ) : ℚ) ≤ ((D * n : ℤ) : ℚ) := Int.cast_le.2 h3
  push_cast at h6 ⊢
  exact h6

theorem rounded_all {a b : List ℚ} (h : List.Forall₂ Rounded a b) (ha : ∀ v ∈ a, Finite v) : ∀ v ∈ b, Finite v := by
  induction h with
  | nil => exact ha
  | cons h1 h2 ih =>
    intro v hv
    rcases List.mem_cons.1 hv with rfl | hv
    · refine near_finite 1000000 (by norm_num) _ _ (ha _ List.mem_cons_self) ?_ ?_
      · refine le_trans h1.1 (by norm_num)
      · obtain ⟨k, hk⟩ := h1.2
        exact ⟨k, by rw [hk]; norm_num⟩
    · exact ih (fun x hx => ha x (List.mem_cons_of_mem _ hx)) v hv

theorem lens_finite {L L' : Lens} (h : LensFits L) (hb : LensBack L L') : LensFits L' := by
  cases L with
  | cahvore l =>
    cases L' with
    | cahvore l' =>
      refine near_finite 100 (by norm_num) _ _ h (le_trans hb.1 (by norm_num)) ?_
      obtain ⟨k, hk⟩ := hb.2
      exact ⟨k, by rw [hk]; norm_num⟩
    | _ => simp [LensBack] at hb
  | _ => 
    have hb' := hb
    simp only [LensBack] at hb'
    rw [← hb']; exact h

/-- **C70**: any complete finite model can be written, and what's written can be read. This gives back the same lens, imager size and data, but with 6 digits after the decimal point;
for the linearity of CAHVORE: 2 digits -/
theorem write_read (m : Model) (hm : Writable m) : ∃ text m', writeModel m = some text ∧ readCameramodelString text = some m' ∧ ReadBack m m' ∧ Writable m' := by
  obtain ⟨L', hL1, hL2, hL3⟩ := name_back m.lens hm.lens
  have hname : lensmodelName 1024 m.lens = (fullName m.lens, true) := by
    have hlen := name_length m.lens hm.lens
    unfold lensmodelName
    rw [List.take_of_length_le (by omega)]
    simp only [Prod.mk.injEq, decide_eq_true_eq, true_and]
    omega
  obtain ⟨lens, intr, rt, ⟨w, h⟩⟩ := m
  obtain ⟨hfit, hcount, hif, hrt, hrf, hw0, hw, hh⟩ := hm
  dsimp only at *
  match rt, hrt with
  | [x0, x1, x2, x3, x4, x5], _ =>
  obtain ⟨v, vs, rfl⟩ : ∃ v vs, intr = v :: vs := by
    cases intr with
    | nil =>
      have h2 := numParams_pos lens
      simp at hcount
      omega
    | cons v vs => exact ⟨v, vs, rfl⟩
  obtain ⟨items, vi, hit, hvi, hflat⟩ := items_flat vs v [' '] ign_1 hif
  obtain ⟨y0, n0, r0⟩ := printF6_number x0 (hrf x0 (by simp))
  obtain ⟨y1, n1, r1⟩ := printF6_number x1 (hrf x1 (by simp))
  obtain ⟨y2, n2, r2⟩ := printF6_number x2 (hrf x2 (by simp))
  obtain ⟨y3, n3, r3⟩ := printF6_number x3 (hrf x3 (by simp))
  obtain ⟨y4, n4, r4⟩ := printF6_number x4 (hrf x4 (by simp))
  obtain ⟨y5, n5, r5⟩ := printF6_number x5 (hrf x5 (by simp))
  have hq1 : '"' ∉ fullName lens := fun hc => absurd (safe_name lens _ hc) (by decide)
  have hq2 : '\'' ∉ fullName lens := fun hc => absurd (safe_name lens _ hc) (by decide)
  -- the entries
  have e1 : EntryText (.lensmodel L') ((['\n', ' ', ' '] ++ '\'' :: ("lensmodel".toList ++ ['\''])) ++ ([] ++ ':' :: ([' ', ' '] ++ '\'' :: (fullName lens ++ ['\''])))) :=
    ⟨_, _, _, _, str_key _ ign_nl2 _ (by decide) (by decide), .nil, .lensmodel (str_key _ ign_2 _ hq1 hq2) hL1, rfl⟩
  have e2 : EntryText (.intrinsics vi) ((['\n', ' ', ' '] ++ '\'' :: ("intrinsics".toList ++ ['\''])) ++ ([] ++ ':' :: ([' '] ++ '[' :: (items ++ ([' '] ++ [']']))))) :=
    ⟨_, _, _, _, str_key _ ign_nl2 _ (by decide) (by decide), .nil, .intrinsics ⟨_, _, _, _, _, ign_1, Or.inl rfl, hit, ign_1, Or.inl rfl, rfl⟩, rfl⟩
  have e3 : EntryText (.imagersize w h) ((['\n', ' ', ' '] ++ '\'' :: ("imagersize".toList ++ ['\''])) ++ ([] ++ ':' :: ([' '] ++ '[' :: (([' '] ++ (printNat w ++ ([] ++ ',' :: ([' '] ++ (printNat h ++ [' ']))))) ++ ([] ++ [']']))))) :=
    ⟨_, _, _, _, str_key _ ign_nl2 _ (by decide) (by decide), .nil, .imagersize ⟨_, _, _, _, _, ign_1, Or.inl rfl,
      .cons ign_1 (printNat_uint w hw) .nil (.last ign_1 (printNat_uint h hh) ign_1), .nil, Or.inl rfl, rfl⟩, rfl⟩
  have e4 : EntryText (.extrinsics [y0, y1, y2, y3, y4, y5]) ((['\n', ' ', ' '] ++ '\'' :: ("extrinsics".toList ++ ['\''])) ++ ([] ++ ':' :: ([' '] ++ '[' ::
      (([' '] ++ (printF6 x0 ++ ([] ++ ',' :: ([' '] ++ (printF6 x1 ++ ([] ++ ',' :: ([' '] ++ (printF6 x2 ++ ([] ++ ',' :: ([' '] ++ (printF6 x3 ++ ([] ++ ',' :: ([' '] ++ (printF6 x4 ++
        ([] ++ ',' :: ([' '] ++ (printF6 x5 ++ [' ']))))))))))))))))) ++ ([] ++ [']']))))) :=
    ⟨_, _, _, _, str_key _ ign_nl2 _ (by decide) (by decide), .nil, .extrinsics ⟨_, _, _, _, _, ign_1, Or.inl rfl,
      .cons ign_1 n0 .nil (.cons ign_1 n1 .nil (.cons ign_1 n2 .nil (.cons ign_1 n3 .nil (.cons ign_1 n4 .nil (.last ign_1 n5 ign_1))))), .nil, Or.inl rfl, rfl⟩ rfl, rfl⟩
  have hfile : FileText [.lensmodel L', .intrinsics vi, .imagersize w h, .extrinsics [y0, y1, y2, y3, y4, y5]] _ :=
    ⟨[], _, ['\n'], .nil, .cons e1 .nil (.cons e2 .nil (.cons e3 .nil (.last e4 ign_nl))), ign_nl, rfl⟩
  have hvl := hvi.length_eq
  refine ⟨_, ⟨L', vi, [y0, y1, y2, y3, y4, y5], (w, h)⟩, by unfold writeModel; rw [hname]; rfl, ?_, ⟨hL2, hvi, .cons r0 (.cons r1 (.cons r2 (.cons r3 (.cons r4 (.cons r5 .nil))))), rfl⟩, ?_⟩
  · rw [read_iff]
    refine ⟨[.lensmodel L', .intrinsics vi, .imagersize w h, .extrinsics [y0, y1, y2, y3, y4, y5]], ?_, ⟨[], [], [.imagersize w h, .extrinsics [y0, y1, y2, y3, y4, y5]], rfl, ⟨rfl, rfl⟩, ⟨rfl, rfl⟩, ⟨rfl, rfl⟩⟩, ?_, ⟨[], rfl, by simp⟩, ⟨[], rfl, by simp, hw0⟩⟩
    · rw [nonul_takeWhile]
      · convert hfile using 1
        have hfl : ∀ r, items ++ ' ' :: r = ' ' :: (((v :: vs).flatMap fun v => printF6 v ++ ", ".toList) ++ r) := by
          intro r
          have := congrArg (· ++ r) hflat
          simp only [List.append_assoc, List.nil_append, List.cons_append] at this
          exact this.symm
        simp only [List.append_assoc, List.nil_append, List.cons_append]
        rw [hfl]
        rfl
      · refine nonul_append (nonul_append (nonul_append (nonul_append (nonul_append (nonul_append (nonul_append (nonul_append (nonul_append (nonul_append (nonul_append (nonul_append (nonul_append
          (nonul_append (nonul_append (nonul_append (nonul_append (nonul_append (nonul_append (nonul_append (nonul_append (nonul_append (nonul_append (nonul_append
          (nonul_append ?_ ?_) (nonul_safe (safe_name lens))) ?_) ?_) ?_) ?_) ?_) (nonul_safe (safe_printNat w))) ?_) (nonul_safe (safe_printNat h))) ?_) ?_) (nonul_printF6 _)) ?_)
            (nonul_printF6 _)) ?_) (nonul_printF6 _)) ?_) (nonul_printF6 _)) ?_) (nonul_printF6 _)) ?_) (nonul_printF6 _)) ?_) ?_
        all_goals first | (unfold NoNul; decide) | skip
        intro c hc
        rw [List.mem_flatMap] at hc
        obtain ⟨x, -, hc⟩ := hc
        exact nonul_append (nonul_printF6 x) (by unfold NoNul; decide) c hc
    · dsimp only
      rw [hL3, ← hcount, hvl]
  · refine ⟨lens_finite hfit hL2, ?_, ?_, rfl, ?_, hw0, hw, hh⟩
    · dsimp only
      rw [hL3, ← hcount, hvl]
    · exact rounded_all hvi hif
    · exact rounded_all (.cons r0 (.cons r1 (.cons r2 (.cons r3 (.cons r4 (.cons r5 .nil)))))) hrf

theorem rounded_exact {a b : ℚ} (h : Rounded a b) (k : ℤ) (hk : a = k / 1000000) : b = a := by
  obtain ⟨h1, j, hj⟩ := h
  have h2 : |((k - j : ℤ) : ℚ)| ≤ 1 / 2 := by
    have : ((k - j : ℤ) : ℚ) = (a - b) * 1000000 := by rw [hk, hj]; push_cast; ring
    rw [this, abs_mul, abs_of_pos (by norm_num : (0 : ℚ) < 1000000)]
    linarith
  have h3 : k - j = 0 := by
    rw [← Int.cast_abs] at h2
    have h4 : ((|k - j| : ℤ) : ℚ) < ((1 : ℤ) : ℚ) := lt_of_le_of_lt h2 (by norm_num)
    have h5 : |k - j| < 1 := Int.cast_lt.1 h4
    exact Int.abs_lt_one_iff.1 h5
  rw [hj, hk, show k = j by omega]

theorem rounded_exacts {a b : List ℚ} (h : List.Forall₂ Rounded a b) (ha : ∀ v ∈ a, ∃ k : ℤ, v = k / 1000000) : b = a := by
  induction h with
  | nil => rfl
  | cons h1 h2 ih =>
    obtain ⟨k, hk⟩ := ha _ List.mem_cons_self
    rw [rounded_exact h1 k hk, ih (fun x hx => ha x (List.mem_cons_of_mem _ hx))]

theorem lens_exact {L L' : Lens} (h : LensBack L L') (hk : ∀ l, L = .cahvore l → ∃ k : ℤ, l = k / 100) : L' = L := by
  cases L with
  | cahvore l =>
    cases L' with
    | cahvore l' =>
      obtain ⟨h1, j, hj⟩ := h
      obtain ⟨k, hk⟩ := hk l rfl
      have h2 : |((k - j : ℤ) : ℚ)| ≤ 1 / 2 := by
        have : ((k - j : ℤ) : ℚ) = (l - l') * 100 := by rw [hk, hj]; push_cast; ring
        rw [this, abs_mul, abs_of_pos (by norm_num : (0 : ℚ) < 100)]
        linarith
      have h3 : k - j = 0 := by
        rw [← Int.cast_abs] at h2
        have h4 : ((|k - j| : ℤ) : ℚ) < ((1 : ℤ) : ℚ) := lt_of_le_of_lt h2 (by norm_num)
        exact Int.abs_lt_one_iff.1 (Int.cast_lt.1 h4)
      rw [hj, hk, show k = j by omega]
    | _ => simp [LensBack] at h
  | _ =>
    have hb' := h
    simp only [LensBack] at hb'
    exact hb'.symm

theorem forall₂_short {a b : List ℚ} (h : List.Forall₂ Rounded a b) : ∀ v ∈ b, ∃ k : ℤ, v = k / 1000000 := by
  induction h with
  | nil => intro v hv; simp at hv
  | cons h1 h2 ih =>
    intro v hv
    rcases List.mem_cons.1 hv with rfl | hv
    · exact h1.2
    · exact ih v hv

/-- numbers that have at most 6 digits after the decimal point, 2 for the linearity -/
structure Short (m : Model) : Prop where
  lens : ∀ l, m.lens = .cahvore l → ∃ k : ℤ, l = k / 100
  intrinsics : ∀ v ∈ m.intrinsics, ∃ k : ℤ, v = k / 1000000
  extrinsics : ∀ v ∈ m.rt_cam_ref, ∃ k : ℤ, v = k / 1000000

/-- **C70**: if all the numbers are short, then the model that's read back is exactly the one that was written -/
theorem write_read_exact (m : Model) (hm : Writable m) (hs : Short m) : ∃ text, writeModel m = some text ∧ readCameramodelString text = some m := by
  obtain ⟨text, m', h1, h2, h3, -⟩ := write_read m hm
  refine ⟨text, h1, ?_⟩
  rw [h2]
  obtain ⟨L, i, x, z⟩ := m
  obtain ⟨L', i', x', z'⟩ := m'
  obtain ⟨k1, k2, k3, k4⟩ := h3
  dsimp only at *
  rw [lens_exact k1 hs.lens, rounded_exacts k2 hs.intrinsics, rounded_exacts k3 hs.extrinsics, k4]

/-- **C70**: so nothing else is lost when a model that was read back is written again -/
theorem write_read_again (m m' : Model) (text : List Char) (hm : Writable m) (h1 : writeModel m = some text) (h2 : readCameramodelString text = some m') :
    ∃ text', writeModel m' = some text' ∧ readCameramodelString text' = some m' := by
  obtain ⟨t, m1, k1, k2, k3, k4⟩ := write_read m hm
  rw [h1] at k1
  obtain rfl := Option.some.inj k1
  rw [h2] at k2
  obtain rfl := Option.some.inj k2
  refine write_read_exact m' k4 ⟨?_, ?_, ?_⟩
  · intro l hl
    have := k3.lens
    rw [hl] at this
    cases hL : m.lens with
    | cahvore a => rw [hL] at this; exact this.2
    | _ => rw [hL] at this; simp [LensBack] at this
  · exact forall₂_short k3.intrinsics
  · exact forall₂_short k3.extrinsics

theorem finite_small (q : ℚ) (hq : |q| ≤ 4) : Finite q := by
  unfold Finite
  have h2 : (2 : ℚ) ^ 1024 = 2 ^ 53 * 2 ^ 971 := by rw [← pow_add]
  have h3 : (1 : ℚ) ≤ 2 ^ 971 := one_le_pow₀ (by norm_num)
  rw [h2]
  have h4 : (2 : ℚ) ^ 53 * 2 ^ 971 - 2 ^ 971 = (2 ^ 53 - 1) * 2 ^ 971 := by rw [sub_mul, one_mul]
  rw [h4]
  refine le_trans hq (le_trans ?_ (mul_le_mul_of_nonneg_left h3 (by norm_num)))
  norm_num

/-- **C70**: different models may be written identically: the file doesn't hold the full precision of the numbers -/
theorem write_read_wrong : ∃ m m' : Model, Writable m ∧ Writable m' ∧ m ≠ m' ∧ writeModel m = writeModel m' ∧ (writeModel m).bind readCameramodelString = some m' := by
  refine ⟨⟨.pinhole, [1, 1, 1 / 3, 1], [0, 0, 0, 0, 0, 0], (640, 480)⟩, ⟨.pinhole, [1, 1, 333333 / 1000000, 1], [0, 0, 0, 0, 0, 0], (640, 480)⟩, ⟨trivial, by decide, ?_, rfl, ?_, by decide⟩,
    ⟨trivial, by decide, ?_, rfl, ?_, by decide⟩, by decide +kernel, by decide +kernel, by decide +kernel⟩
  · intro v hv
    simp only [List.mem_cons, List.not_mem_nil, or_false] at hv
    rcases hv with rfl | rfl | rfl | rfl <;> exact finite_small _ (by rw [abs_le]; norm_num)
  · intro v hv
    simp only [List.mem_cons, List.not_mem_nil, or_false] at hv
    rcases hv with rfl | rfl | rfl | rfl | rfl | rfl <;> exact finite_small _ (by norm_num)
  · intro v hv
    simp only [List.mem_cons, List.not_mem_nil, or_false] at hv
    rcases hv with rfl | rfl | rfl | rfl <;> exact finite_small _ (by rw [abs_le]; norm_num)
  · intro v hv
    simp only [List.mem_cons, List.not_mem_nil, or_false] at hv
    rcases hv with rfl | rfl | rfl | rfl | rfl | rfl <;> exact finite_small _ (by norm_num)

/-- **C70**, a deviation: an imager that's too large is written, but can't be read -/
theorem write_size_wrong : (writeModel (sizedModel 2147483648 480)).isSome ∧ (writeModel (sizedModel 2147483648 480)).bind readCameramodelString = none := by decide +kernel

/-- a model that meets all the hypotheses, and its round trip -/
example : Writable (sizedModel 640 480) ∧ Short (sizedModel 640 480) := by
  have hi : ∀ v ∈ (sizedModel 640 480).intrinsics, v = 1 ∨ v = 2 ∨ v = 3 ∨ v = 4 := by
    intro v hv; simpa [sizedModel] using hv
  have hx : ∀ v ∈ (sizedModel 640 480).rt_cam_ref, v = 0 := by
    intro v hv; simpa [sizedModel] using hv
  refine ⟨⟨trivial, by decide, ?_, rfl, ?_, by decide⟩, ⟨by simp [sizedModel], ?_, ?_⟩⟩
  · intro v hv
    rcases hi v hv with rfl | rfl | rfl | rfl <;> exact finite_small _ (by norm_num)
  · intro v hv
    rw [hx v hv]; exact finite_small _ (by norm_num)
  · intro v hv
    rcases hi v hv with rfl | rfl | rfl | rfl
    · exact ⟨1000000, by norm_num⟩
    · exact ⟨2000000, by norm_num⟩
    · exact ⟨3000000, by norm_num⟩
    · exact ⟨4000000, by norm_num⟩
  · intro v hv
    rw [hx v hv]; exact ⟨0, by norm_num⟩
example : (writeModel (sizedModel 640 480)).bind readCameramodelString = some (sizedModel 640 480) := by decide +kernel

end Mrcal.ModelFile

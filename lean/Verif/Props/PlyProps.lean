import Verif.Model.Ply
import Verif.Props.LensNameProps
import Mathlib.Tactic.IntervalCases
/-
C113: point clouds in .ply files. The specification is a reader of this format, after the documentation of the format. It knows the two encodings that are written, an element called vertex, with
properties that are float or uchar.
-/
namespace Mrcal.Ply

open Mrcal.Name

/-! ### the reader -/

inductive Ty
  | float
  | uchar
  deriving DecidableEq

/-- a value in the file: the 32 bits of a float32, or a number written in decimal, or a byte -/
inductive Val
  | bits (n : Nat)
  | num (q : ℚ)
  | byte (n : Nat)
  deriving DecidableEq

abbrev Prop_ := Ty × List Char

/-- a vertex: the named values -/
abbrev Vertex := List (List Char × Val)

/-- a line, and what comes after its end -/
def line : List Char → Option (List Char × List Char)
  | [] => none
  | c :: s => if c = '\n' then some ([], s) else (line s).map fun r => (c :: r.1, r.2)

/-- the words of a line: they're separated by spaces -/
def words : List Char → List (List Char)
  | [] => [[]]
  | c :: s =>
    if c = ' ' then [] :: words s
    else
      match words s with
      | [] => [[c]]
      | w :: ws => (c :: w) :: ws

def digit (c : Char) : Bool := '0' ≤ c && c ≤ '9'

/-- an unsigned integer -/
def natOf (w : List Char) : Option Nat := if w ≠ [] ∧ w.all digit then some (w.foldl (fun v c => 10 * v + (c.toNat - 48)) 0) else none

/-- a number without a sign: an integer, or with a fraction -/
def unsignedOf (w : List Char) : Option ℚ :=
  match w.dropWhile digit with
  | [] => (natOf w).map fun n => (n : ℚ)
  | c :: f => if c = '.' then do
      let a ← natOf (w.takeWhile digit)
      let b ← natOf f
      pure ((a : ℚ) + (b : ℚ) / 10 ^ f.length)
    else none

/-- a number -/
def decimalOf : List Char → Option ℚ
  | [] => none
  | c :: w => if c = '-' then (unsignedOf w).map fun q => -q else unsignedOf (c :: w)

/-- the properties, until the end of the header. `fuel` is the number of lines that are looked at, at most -/
def readProps : Nat → List Char → Option (List Prop_ × List Char)
  | 0, _ => none
  | fuel + 1, s =>
    match line s with
    | none => none
    | some (l, s) =>
      match words l with
      | [a] => if a = "end_header".toList then some ([], s) else none
      | [a, t, n] =>
        if a = "property".toList then
          if t = "float".toList then (readProps fuel s).map fun r => ((.float, n) :: r.1, r.2)
          else if t = "uchar".toList then (readProps fuel s).map fun r => ((.uchar, n) :: r.1, r.2)
          else none
        else none
      | _ => none

/-- the header: is it binary, the number of vertices, their properties; and the rest of the file -/
def readHeader (s : List Char) : Option (Bool × Nat × List Prop_ × List Char) := do
  let (l, s) ← line s
  if l ≠ "ply".toList then none
  let (l, s) ← line s
  let binary ← if words l = ["format".toList, "ascii".toList, "1.0".toList] then some false
    else if words l = ["format".toList, "binary_little_endian".toList, "1.0".toList] then some true else none
  let (l, s) ← line s
  match words l with
  | [e, v, n] =>
    if e = "element".toList ∧ v = "vertex".toList then do
      let n ← natOf n
      let (ps, s) ← readProps s.length s
      pure (binary, n, ps, s)
    else none
  | _ => none

/-- a vertex, in binary -/
def readBinary1 : List Prop_ → List Char → Option (Vertex × List Char)
  | [], s => some ([], s)
  | (.float, n) :: ps, a :: b :: c :: d :: s => (readBinary1 ps s).map fun r => ((n, .bits (a.toNat + 256 * b.toNat + 65536 * c.toNat + 16777216 * d.toNat)) :: r.1, r.2)
  | (.uchar, n) :: ps, a :: s => (readBinary1 ps s).map fun r => ((n, .byte a.toNat) :: r.1, r.2)
  | _, _ => none

/-- a vertex, as text: the words of its line. `lenient`: more words than properties are ignored -/
def readAscii1 (lenient : Bool) : List Prop_ → List (List Char) → Option Vertex
  | [], [] => some []
  | [], _ :: _ => if lenient then some [] else none
  | (.float, n) :: ps, w :: ws => do
    let q ← decimalOf w
    let r ← readAscii1 lenient ps ws
    pure ((n, .num q) :: r)
  | (.uchar, n) :: ps, w :: ws => do
    let q ← natOf w
    if q < 256 then pure () else none
    let r ← readAscii1 lenient ps ws
    pure ((n, .byte q) :: r)
  | _ :: _, [] => none

/-- the vertices; nothing can be left after them -/
def readBody (lenient binary : Bool) (ps : List Prop_) : Nat → List Char → Option (List Vertex)
  | 0, s => if s = [] then some [] else none
  | n + 1, s =>
    if binary then do
      let (v, s) ← readBinary1 ps s
      let r ← readBody lenient binary ps n s
      pure (v :: r)
    else do
      let (l, s) ← line s
      let v ← readAscii1 lenient ps (words l)
      let r ← readBody lenient binary ps n s
      pure (v :: r)

/-- a file -/
def read (lenient : Bool) (s : List Char) : Option (List Vertex) := do
  let (binary, n, ps, s) ← readHeader s
  readBody lenient binary ps n s

/-! ### what is to be written -/

/-- the colors that were given, if they are gray -/
def gray (points : Nd) (color : Option Nd) (i : Nat) : ℚ :=
  match color with
  | some c => c.at_ [i]
  | none => points.at_ [i, 3]

/-- the colors that were given, if they aren't gray: blue, green, red -/
def bgr (points : Nd) (color : Option Nd) (i k : Nat) : ℚ :=
  match color with
  | some c => c.at_ [i, k]
  | none => points.at_ [i, 3 + k]

/-- the kinds of colors -/
inductive Kind
  | plain
  | gray
  | bgr
  deriving DecidableEq

/-- the documented shapes: of the points, and of the colors, if there are any -/
inductive Shapes (N : Nat) : Kind → List Nat → Option (List Nat) → Prop
  | plain : Shapes N .plain [N, 3] none
  | gray4 : Shapes N .gray [N, 4] none
  | bgr6 : Shapes N .bgr [N, 6] none
  | gray : Shapes N .gray [N, 3] (some [N])
  | bgr : Shapes N .bgr [N, 3] (some [N, 3])

/-- the vertex i, given how coordinates and colors are represented -/
def vertex (xyz rgb : ℚ → Val) (points : Nd) (color : Option Nd) (k : Kind) (i : Nat) : Vertex :=
  [("x".toList, xyz (points.at_ [i, 0])), ("y".toList, xyz (points.at_ [i, 1])), ("z".toList, xyz (points.at_ [i, 2]))] ++
    match k with
    | .plain => []
    | .gray => [("intensity".toList, rgb (gray points color i))]
    | .bgr => [("red".toList, rgb (bgr points color i 2)), ("green".toList, rgb (bgr points color i 1)), ("blue".toList, rgb (bgr points color i 0))]

/-- the color fits into a byte -/
def Fits (q : ℚ) : Prop := 0 ≤ q ∧ q < 256

/-- all the colors of a point do -/
def ColorFits (points : Nd) (color : Option Nd) (k : Kind) (i : Nat) : Prop :=
  match k with
  | .plain => True
  | .gray => Fits (gray points color i)
  | .bgr => Fits (bgr points color i 0) ∧ Fits (bgr points color i 1) ∧ Fits (bgr points color i 2)

/-! ### lines and words -/

theorem line_cons (c : Char) (s : List Char) : line (c :: s) = if c = '\n' then some ([], s) else (line s).map fun r => (c :: r.1, r.2) := rfl
theorem words_cons (c : Char) (s : List Char) : words (c :: s) = if c = ' ' then [] :: words s else
    match words s with
    | [] => [[c]]
    | w :: ws => (c :: w) :: ws := rfl
theorem decimal_cons (c : Char) (w : List Char) : decimalOf (c :: w) = if c = '-' then (unsignedOf w).map fun q => -q else unsignedOf (c :: w) := rfl

theorem line_app (l r : List Char) (h : '\n' ∉ l) : line (l ++ '\n' :: r) = some (l, r) := by
  induction l with
  | nil => rfl
  | cons c l ih =>
    rw [List.mem_cons, not_or] at h
    rw [List.cons_append, line_cons, if_neg (fun e => h.1 e.symm), ih h.2]
    rfl

theorem words_one (w : List Char) (h : ' ' ∉ w) : words w = [w] := by
  induction w with
  | nil => rfl
  | cons c w ih =>
    rw [List.mem_cons, not_or] at h
    show (if c = ' ' then _ else _) = _
    rw [if_neg (fun e => h.1 e.symm), ih h.2]

theorem words_app (w s : List Char) (h : ' ' ∉ w) : words (w ++ ' ' :: s) = w :: words s := by
  induction w with
  | nil => rfl
  | cons c w ih =>
    rw [List.mem_cons, not_or] at h
    rw [List.cons_append, words_cons, if_neg (fun e => h.1 e.symm), ih h.2]

theorem words_join : ∀ (ws : List (List Char)), ws ≠ [] → (∀ w ∈ ws, ' ' ∉ w) → words (joinSp ws) = ws
  | [], h, _ => absurd rfl h
  | [w], _, h => words_one w (h w List.mem_cons_self)
  | w :: w' :: ws, _, h => by
    show words (w ++ ' ' :: joinSp (w' :: ws)) = _
    rw [words_app w _ (h w List.mem_cons_self), words_join (w' :: ws) (by simp) (fun x hx => h x (List.mem_cons_of_mem _ hx))]

theorem join_no (c : Char) (hc : c ≠ ' ') : ∀ (ws : List (List Char)), (∀ w ∈ ws, c ∉ w) → c ∉ joinSp ws
  | [], _ => by simp [joinSp]
  | [w], h => h w List.mem_cons_self
  | w :: w' :: ws, h => by
    show c ∉ w ++ ' ' :: joinSp (w' :: ws)
    rw [List.mem_append, List.mem_cons]
    rintro (h1 | h1 | h1)
    · exact h w List.mem_cons_self h1
    · exact hc h1
    · exact join_no c hc (w' :: ws) (fun x hx => h x (List.mem_cons_of_mem _ hx)) h1

/-! ### numbers -/

theorem digit_eq : ∀ d : Fin 10, digit (digitChar d) = true ∧ (digitChar d).toNat - 48 = d ∧ digitChar d ≠ ' ' ∧ digitChar d ≠ '\n' ∧ digitChar d ≠ '-' ∧ (digitChar d).toNat < 256 := by decide

theorem print_chars (n : Nat) : ∀ c ∈ printNat n, ∃ d : Fin 10, c = digitChar d := by
  induction n using Nat.strong_induction_on with
  | _ n ih =>
    intro c hc
    by_cases h : n < 10
    · rw [printNat_lt h, List.mem_singleton] at hc
      exact ⟨⟨n, h⟩, hc⟩
    · rw [printNat_ge h, List.mem_append, List.mem_singleton] at hc
      rcases hc with hc | hc
      · exact ih (n / 10) (by omega) c hc
      · exact ⟨⟨n % 10, by omega⟩, hc⟩

theorem print_digits (n : Nat) : ∀ c ∈ printNat n, digit c = true := fun c hc => by
  obtain ⟨d, rfl⟩ := print_chars n c hc; exact (digit_eq d).1

theorem print_no (n : Nat) : ' ' ∉ printNat n ∧ '\n' ∉ printNat n ∧ '-' ∉ printNat n := by
  refine ⟨fun h => ?_, fun h => ?_, fun h => ?_⟩ <;> obtain ⟨d, hd⟩ := print_chars n _ h
  · exact (digit_eq d).2.2.1 hd.symm
  · exact (digit_eq d).2.2.2.1 hd.symm
  · exact (digit_eq d).2.2.2.2.1 hd.symm

theorem print_value (n : Nat) : (printNat n).foldl (fun v c => 10 * v + (c.toNat - 48)) 0 = n := by
  induction n using Nat.strong_induction_on with
  | _ n ih =>
    by_cases h : n < 10
    · rw [printNat_lt h]
      have := (digit_eq ⟨n, h⟩).2.1
      simp only [List.foldl_cons, List.foldl_nil]
      simp only at this
      omega
    · rw [printNat_ge h, List.foldl_append, ih (n / 10) (by omega)]
      have := (digit_eq ⟨n % 10, by omega⟩).2.1
      simp only [List.foldl_cons, List.foldl_nil]
      simp only at this
      omega

theorem natOf_print (n : Nat) : natOf (printNat n) = some n := by
  unfold natOf
  rw [if_pos ⟨printNat_ne_nil n, List.all_eq_true.2 (print_digits n)⟩, print_value]

theorem natOf_digit (d : Nat) (h : d < 10) : natOf [digitChar d] = some d := by
  rw [← printNat_lt h, natOf_print]

/-- the tenths -/
def tenths (q : ℚ) : Nat := (roundHalfEven ((if q < 0 then -q else q) * 10)).toNat

/-- what is left of a coordinate: a tenth, with the sign -/
def rounded (q : ℚ) : ℚ := (if q < 0 then -1 else 1) * (tenths q : ℚ) / 10

theorem unsigned_print (n : Nat) : unsignedOf (printNat (n / 10) ++ ['.', digitChar (n % 10)]) = some ((n : ℚ) / 10) := by
  have hd : digit '.' = false := by decide
  have h1 : (printNat (n / 10) ++ ['.', digitChar (n % 10)]).dropWhile digit = ['.', digitChar (n % 10)] := by
    rw [List.dropWhile_append_of_pos (print_digits _), List.dropWhile_cons_of_neg (by rw [hd]; decide)]
  have h2 : (printNat (n / 10) ++ ['.', digitChar (n % 10)]).takeWhile digit = printNat (n / 10) := by
    rw [List.takeWhile_append_of_pos (print_digits _), List.takeWhile_cons_of_neg (by rw [hd]; decide), List.append_nil]
  unfold unsignedOf
  rw [h1, h2]
  dsimp only
  rw [if_pos rfl, natOf_print, natOf_digit _ (by omega)]
  have : (n : ℚ) = 10 * ((n / 10 : Nat) : ℚ) + ((n % 10 : Nat) : ℚ) := by exact_mod_cast (by omega : n = 10 * (n / 10) + n % 10)
  simp only [Option.bind_eq_bind, Option.bind_some, List.length_singleton, pow_one, Option.pure_def]
  congr 1
  rw [this]
  ring

theorem decimal_print (q : ℚ) : decimalOf (printF1 q) = some (rounded q) := by
  have hu := unsigned_print (tenths q)
  have e : printF1 q = (if q < 0 then ['-'] else []) ++ (printNat (tenths q / 10) ++ ['.', digitChar (tenths q % 10)]) := by
    unfold printF1 tenths; rw [List.append_assoc]
  rw [e]
  unfold rounded
  by_cases h : q < 0
  · rw [if_pos h, if_pos h]
    rw [List.cons_append, List.nil_append, decimal_cons, if_pos rfl, hu]
    simp only [Option.map_some]
    congr 1; ring
  · rw [if_neg h, if_neg h, List.nil_append]
    have hno := (print_no (tenths q / 10)).2.2
    generalize hp : printNat (tenths q / 10) = P at *
    cases P with
    | nil => exact absurd hp (printNat_ne_nil _)
    | cons c P =>
      rw [List.mem_cons, not_or] at hno
      rw [List.cons_append, decimal_cons, if_neg (fun e => hno.1 e.symm), ← List.cons_append, hu]
      congr 1; ring

theorem rounded_err (q : ℚ) : |q - rounded q| ≤ 1 / 20 := by
  have key : ∀ a : ℚ, 0 ≤ a → |a - ((roundHalfEven (a * 10)).toNat : ℚ) / 10| ≤ 1 / 20 := by
    intro a ha
    have h1 := round_err (a * 10)
    have h2 : (((roundHalfEven (a * 10)).toNat : Nat) : ℚ) = (roundHalfEven (a * 10) : ℚ) := by
      exact_mod_cast Int.toNat_of_nonneg (round_nonneg _ (by linarith))
    rw [h2]
    rw [abs_le] at h1 ⊢
    constructor <;> linarith [h1.1, h1.2]
  unfold rounded tenths
  by_cases h : q < 0
  · rw [if_pos h, if_pos h]
    have := key (-q) (by linarith)
    rw [abs_le] at this ⊢
    constructor <;> linarith [this.1, this.2]
  · rw [if_neg h, if_neg h]
    have := key q (by linarith)
    rw [abs_le] at this ⊢
    constructor <;> linarith [this.1, this.2]

theorem f1_no (q : ℚ) (c : Char) (h : c = ' ' ∨ c = '\n') : c ∉ printF1 q := by
  have hp := print_no (tenths q / 10)
  have hd := digit_eq ⟨tenths q % 10, by omega⟩
  simp only at hd
  have e : printF1 q = (if q < 0 then ['-'] else []) ++ printNat (tenths q / 10) ++ ['.', digitChar (tenths q % 10)] := rfl
  rw [e, List.mem_append, List.mem_append, List.mem_cons, List.mem_singleton]
  have hs : c ∉ (if q < 0 then ['-'] else []) := by
    split_ifs
    · rcases h with rfl | rfl <;> decide
    · exact List.not_mem_nil
  rcases h with rfl | rfl
  · rintro ((h | h) | h | h)
    · exact hs h
    · exact hp.1 h
    · exact absurd h (by decide)
    · exact hd.2.2.1 h.symm
  · rintro ((h | h) | h | h)
    · exact hs h
    · exact hp.2.1 h
    · exact absurd h (by decide)
    · exact hd.2.2.2.1 h.symm

theorem d_no (q : ℚ) (c : Char) (h : c = ' ' ∨ c = '\n') : c ∉ printD q := by
  unfold printD
  dsimp only
  generalize (if 0 ≤ q then ⌊q⌋ else ⌈q⌉) = z
  have hp := print_no z.natAbs
  rw [List.mem_append]
  have hs : c ∉ (if z < 0 then ['-'] else []) := by
    split_ifs
    · rcases h with rfl | rfl <;> decide
    · exact List.not_mem_nil
  rcases h with rfl | rfl
  · rintro (h | h)
    · exact hs h
    · exact hp.1 h
  · rintro (h | h)
    · exact hs h
    · exact hp.2.1 h

theorem d_nonneg (q : ℚ) (h : 0 ≤ q) : printD q = printNat (⌊q⌋).toNat := by
  unfold printD
  dsimp only
  have h0 : 0 ≤ ⌊q⌋ := Int.floor_nonneg.2 h
  rw [if_pos h, if_neg (by omega), List.nil_append]
  congr 1
  omega

/-! ### the header -/

def propsOf : Color → List Prop_
  | .none => [(.float, "x".toList), (.float, "y".toList), (.float, "z".toList)]
  | .gray _ => [(.float, "x".toList), (.float, "y".toList), (.float, "z".toList), (.uchar, "intensity".toList)]
  | .bgr _ => [(.float, "x".toList), (.float, "y".toList), (.float, "z".toList), (.uchar, "red".toList), (.uchar, "green".toList), (.uchar, "blue".toList)]

theorem readProps_cons (fuel : Nat) (l s : List Char) (h : '\n' ∉ l) : readProps (fuel + 1) (l ++ '\n' :: s) =
      match words l with
      | [a] => if a = "end_header".toList then some ([], s) else none
      | [a, t, n] =>
        if a = "property".toList then
          if t = "float".toList then (readProps fuel s).map fun r => ((.float, n) :: r.1, r.2)
          else if t = "uchar".toList then (readProps fuel s).map fun r => ((.uchar, n) :: r.1, r.2)
          else none
        else none
      | _ => none := by
  rw [readProps, line_app l s h]

theorem props_end (fuel : Nat) (s : List Char) : readProps (fuel + 1) ("end_header\n".toList ++ s) = some ([], s) := by
  rw [show "end_header\n".toList ++ s = "end_header".toList ++ '\n' :: s from rfl, readProps_cons _ _ _ (by decide), show words "end_header".toList = ["end_header".toList] by decide]
  rfl

theorem props_step (fuel : Nat) (ty : Ty) (n : List Char) (s : List Char) (ps : List Prop_) (r : List Char) (hn : '\n' ∉ n) (hs : ' ' ∉ n) (h : readProps fuel s = some (ps, r)) :
    readProps (fuel + 1) ((match ty with | .float => "property float ".toList | .uchar => "property uchar ".toList) ++ n ++ '\n' :: s) = some ((ty, n) :: ps, r) := by
  cases ty with
  | float =>
    dsimp only
    rw [readProps_cons _ _ _ (by rw [List.mem_append]; rintro (h | h); · exact absurd h (by decide)
                                 · exact hn h),
      show "property float ".toList ++ n = "property".toList ++ ' ' :: ("float".toList ++ ' ' :: n) from rfl, words_app _ _ (by decide), words_app _ _ (by decide), words_one _ hs]
    dsimp only
    rw [if_pos rfl, if_pos rfl, h]
    rfl
  | uchar =>
    dsimp only
    rw [readProps_cons _ _ _ (by rw [List.mem_append]; rintro (h | h); · exact absurd h (by decide)
                                 · exact hn h),
      show "property uchar ".toList ++ n = "property".toList ++ ' ' :: ("uchar".toList ++ ' ' :: n) from rfl, words_app _ _ (by decide), words_app _ _ (by decide), words_one _ hs]
    dsimp only
    rw [if_pos rfl, if_neg (by decide), if_pos rfl, h]
    rfl

theorem props_more : ∀ (fuel : Nat) (s : List Char) (r : List Prop_ × List Char), readProps fuel s = some r → readProps (fuel + 1) s = some r
  | 0, _, _, h => by cases h
  | fuel + 1, s, r, h => by
    unfold readProps at h ⊢
    cases hl : line s with
    | none => rw [hl] at h; cases h
    | some p =>
      rw [hl] at h
      obtain ⟨l, s⟩ := p
      dsimp only at h ⊢
      match hw : words l with
      | [] => rw [hw] at h; cases h
      | [a] => rw [hw] at h; exact h
      | [a, b] => rw [hw] at h; cases h
      | a :: b :: c :: d :: e => rw [hw] at h; cases h
      | [a, t, n] =>
        rw [hw] at h
        dsimp only at h ⊢
        have key : ∀ ty : Ty, Option.map (fun r => ((ty, n) :: r.1, r.2)) (readProps fuel s) = some r → Option.map (fun r => ((ty, n) :: r.1, r.2)) (readProps (fuel + 1) s) = some r := by
          intro ty h
          cases hr : readProps fuel s with
          | none => rw [hr] at h; cases h
          | some x => rw [hr] at h; rw [props_more fuel s x hr]; exact h
        by_cases h1 : a = "property".toList
        · rw [if_pos h1] at h ⊢
          by_cases h2 : t = "float".toList
          · rw [if_pos h2] at h ⊢; exact key _ h
          · rw [if_neg h2] at h ⊢
            by_cases h3 : t = "uchar".toList
            · rw [if_pos h3] at h ⊢; exact key _ h
            · rw [if_neg h3] at h; cases h
        · rw [if_neg h1] at h; cases h

theorem props_enough (fuel fuel' : Nat) (hf : fuel ≤ fuel') (s : List Char) (r : List Prop_ × List Char) (h : readProps fuel s = some r) : readProps fuel' s = some r := by
  induction hf with
  | refl => exact h
  | step _ ih => exact props_more _ _ _ ih

theorem props_read (c : Color) (body : List Char) : readProps 7 ("property float x\nproperty float y\nproperty float z\n".toList ++ headerColor c ++ "end_header\n".toList ++ body) = some (propsOf c, body) := by
  have start : ∀ (fuel : Nat) (t : List Char) (ps : List Prop_), readProps fuel (t ++ "end_header\n".toList ++ body) = some (ps, body) →
      readProps (fuel + 3) ("property float x\nproperty float y\nproperty float z\n".toList ++ t ++ "end_header\n".toList ++ body) =
        some ((.float, "x".toList) :: (.float, "y".toList) :: (.float, "z".toList) :: ps, body) := by
    intro fuel t ps h
    have h1 := props_step _ .float "z".toList _ _ _ (by decide) (by decide) h
    have h2 := props_step _ .float "y".toList _ _ _ (by decide) (by decide) h1
    exact props_step _ .float "x".toList _ _ _ (by decide) (by decide) h2
  cases c with
  | none => exact props_enough 4 7 (by norm_num) _ _ (start 1 [] [] (props_end 0 body))
  | gray g =>
    refine props_enough 5 7 (by norm_num) _ _ (start 2 _ _ ?_)
    exact props_step _ .uchar "intensity".toList _ _ _ (by decide) (by decide) (props_end 0 body)
  | bgr g =>
    refine start 4 _ _ ?_
    have h1 := props_step _ .uchar "blue".toList _ _ _ (by decide) (by decide) (props_end 0 body)
    have h2 := props_step _ .uchar "green".toList _ _ _ (by decide) (by decide) h1
    exact props_step _ .uchar "red".toList _ _ _ (by decide) (by decide) h2

theorem header_read (binary : Bool) (N : Nat) (c : Color) (body : List Char) : readHeader (header binary N c ++ body) = some (binary, N, propsOf c, body) := by
  have hn := print_no N
  set P := "property float x\nproperty float y\nproperty float z\n".toList ++ headerColor c ++ "end_header\n".toList ++ body with hP
  have hlen : 7 ≤ P.length := by
    rw [hP]; simp only [List.append_assoc, List.length_append]
    have : ("property float x\nproperty float y\nproperty float z\n".toList).length = 51 := by decide
    omega
  have he : header binary N c ++ body = "ply".toList ++ '\n' :: (("format ".toList ++ (if binary then "binary_little_endian".toList else "ascii".toList) ++ " 1.0".toList) ++ '\n' ::
      (("element vertex ".toList ++ printNat N) ++ '\n' :: P)) := by
    rw [hP]; unfold header
    have e1 : "ply\nformat ".toList = "ply".toList ++ '\n' :: "format ".toList := rfl
    have e2 : " 1.0\nelement vertex ".toList = " 1.0".toList ++ '\n' :: "element vertex ".toList := rfl
    have e3 : "\nproperty float x\nproperty float y\nproperty float z\n".toList = '\n' :: "property float x\nproperty float y\nproperty float z\n".toList := rfl
    rw [e1, e2, e3]
    simp only [List.append_assoc, List.cons_append]
  have hw : words ("element vertex ".toList ++ printNat N) = ["element".toList, "vertex".toList, printNat N] := by
    rw [show "element vertex ".toList ++ printNat N = "element".toList ++ ' ' :: ("vertex".toList ++ ' ' :: printNat N) from rfl, words_app _ _ (by decide), words_app _ _ (by decide), words_one _ hn.1]
  have hl3 : '\n' ∉ "element vertex ".toList ++ printNat N := by
    rw [List.mem_append]; rintro (h | h)
    · exact absurd h (by decide)
    · exact hn.2.1 h
  unfold readHeader
  rw [he, line_app _ _ (by decide)]
  simp only [Option.bind_eq_bind, Option.bind_some, ne_eq, not_true, if_false]
  cases binary
  · rw [line_app _ _ (by decide)]
    simp only [Option.bind_some]
    rw [if_pos (by decide)]
    rw [line_app _ _ hl3]
    simp only [Option.bind_some]
    rw [hw]
    dsimp only
    rw [if_pos ⟨rfl, rfl⟩, natOf_print]
    simp only [Option.bind_some]
    rw [props_enough 7 _ hlen _ _ (props_read c body)]
    rfl
  · rw [line_app _ _ (by decide)]
    simp only [Option.bind_some]
    rw [if_neg (by decide), if_pos (by decide)]
    rw [line_app _ _ hl3]
    simp only [Option.bind_some]
    rw [hw]
    dsimp only
    rw [if_pos ⟨rfl, rfl⟩, natOf_print]
    simp only [Option.bind_some]
    rw [props_enough 7 _ hlen _ _ (props_read c body)]
    rfl

/-! ### the vertices -/

theorem byte_toNat (n : Nat) (h : n < 256) : (byte n).toNat = n := by
  unfold byte
  have hv : n.isValidChar := Or.inl (by omega)
  rw [Char.ofNat, dif_pos hv]
  rfl

theorem le4_bits (n : Nat) (h : n < 2 ^ 32) : (byte (n % 256)).toNat + 256 * (byte (n / 256 % 256)).toNat + 65536 * (byte (n / 65536 % 256)).toNat + 16777216 * (byte (n / 16777216 % 256)).toNat = n := by
  rw [byte_toNat _ (by omega), byte_toNat _ (by omega), byte_toNat _ (by omega), byte_toNat _ (by omega)]
  omega

/-- the vertex i, given how coordinates and colors are represented -/
def vertexOf (xyz rgb : ℚ → Val) (p : Nat → Nat → ℚ) (c : Color) (i : Nat) : Vertex :=
  [("x".toList, xyz (p i 0)), ("y".toList, xyz (p i 1)), ("z".toList, xyz (p i 2))] ++
    match c with
    | .none => []
    | .gray c => [("intensity".toList, rgb (c i))]
    | .bgr c => [("red".toList, rgb (c i 2)), ("green".toList, rgb (c i 1)), ("blue".toList, rgb (c i 0))]

theorem binary_row (np : Np) (p : Nat → Nat → ℚ) (c : Color) (i : Nat) (s : List Char) :
    readBinary1 (propsOf c) (binaryRow np p c i ++ s) = some (vertexOf (fun q => .bits (np.f32 q)) (fun q => .byte (np.u8 q)) p c i, s) := by
  have hx := le4_bits _ (np.f32_lt (p i 0))
  have hy := le4_bits _ (np.f32_lt (p i 1))
  have hz := le4_bits _ (np.f32_lt (p i 2))
  have hb : ∀ q, (byte (np.u8 q)).toNat = np.u8 q := fun q => byte_toNat _ (np.u8_lt q)
  cases c with
  | none =>
    simp only [propsOf, binaryRow, le4, List.cons_append, List.nil_append, List.append_nil, readBinary1, Option.map_some, vertexOf, hx, hy, hz]
  | gray c =>
    simp only [propsOf, binaryRow, le4, List.cons_append, List.nil_append, readBinary1, Option.map_some, vertexOf, hx, hy, hz, hb]
  | bgr c =>
    simp only [propsOf, binaryRow, le4, List.cons_append, List.nil_append, readBinary1, Option.map_some, vertexOf, hx, hy, hz, hb]

theorem binary_body (np : Np) (p : Nat → Nat → ℚ) (c : Color) (lenient : Bool) : ∀ (l : List Nat),
    readBody lenient true (propsOf c) l.length (l.flatMap (binaryRow np p c)) = some (l.map (vertexOf (fun q => .bits (np.f32 q)) (fun q => .byte (np.u8 q)) p c))
  | [] => rfl
  | i :: l => by
    rw [List.length_cons, List.flatMap_cons, readBody, if_pos rfl, binary_row]
    simp only [Option.bind_eq_bind, Option.bind_some]
    rw [binary_body np p c lenient l]
    rfl

/-- the words of a row of text -/
def rowWords (p : Nat → Nat → ℚ) (c : Color) (i : Nat) : List (List Char) :=
  [printF1 (p i 0), printF1 (p i 1), printF1 (p i 2)] ++
    match c with
    | .none => []
    | .gray c => [printD (c i)]
    | .bgr c => [printD (c i 2), printD (c i 1), printD (c i 0), printD 255]

theorem rowWords_no (p : Nat → Nat → ℚ) (c : Color) (i : Nat) (ch : Char) (h : ch = ' ' ∨ ch = '\n') : ∀ w ∈ rowWords p c i, ch ∉ w := by
  have h1 := fun q => f1_no q ch h
  have h2 := fun q => d_no q ch h
  intro w hw
  unfold rowWords at hw
  rw [List.mem_append] at hw
  rcases hw with hw | hw
  · simp only [List.mem_cons, List.not_mem_nil, or_false] at hw
    rcases hw with rfl | rfl | rfl <;> exact h1 _
  · cases c with
    | none => cases hw
    | gray c => rw [List.mem_singleton] at hw; subst hw; exact h2 _
    | bgr c =>
      simp only [List.mem_cons, List.not_mem_nil, or_false] at hw
      rcases hw with rfl | rfl | rfl | rfl <;> exact h2 _

theorem ascii_line (p : Nat → Nat → ℚ) (c : Color) (i : Nat) (s : List Char) :
    ∃ l, line (asciiRow p c i ++ s) = some (l, s) ∧ words l = rowWords p c i := by
  refine ⟨joinSp (rowWords p c i), ?_, words_join _ (by unfold rowWords; simp) (rowWords_no p c i ' ' (Or.inl rfl))⟩
  have e : asciiRow p c i ++ s = joinSp (rowWords p c i) ++ '\n' :: s := by
    unfold asciiRow rowWords; rw [List.append_assoc]; rfl
  rw [e]
  exact line_app _ _ (join_no _ (by decide) _ (rowWords_no p c i '\n' (Or.inr rfl)))

def FitsColor (c : Color) (i : Nat) : Prop :=
  match c with
  | .none => True
  | .gray c => Fits (c i)
  | .bgr c => Fits (c i 0) ∧ Fits (c i 1) ∧ Fits (c i 2)

theorem nat_d (q : ℚ) (h : Fits q) : natOf (printD q) = some (⌊q⌋).toNat ∧ (⌊q⌋).toNat < 256 := by
  rw [d_nonneg q h.1]
  refine ⟨natOf_print _, ?_⟩
  have : ⌊q⌋ < 256 := Int.floor_lt.2 (by exact_mod_cast h.2)
  omega

theorem ascii_uchar (lenient : Bool) (n : List Char) (ps : List Prop_) (q : ℚ) (h : Fits q) (ws : List (List Char)) :
    readAscii1 lenient ((.uchar, n) :: ps) (printD q :: ws) = (readAscii1 lenient ps ws).map fun r => (n, .byte (⌊q⌋).toNat) :: r := by
  obtain ⟨h1, h2⟩ := nat_d q h
  rw [readAscii1, h1]
  simp only [Option.bind_eq_bind, Option.bind_some, if_pos h2]
  cases readAscii1 lenient ps ws <;> rfl

theorem ascii_float (lenient : Bool) (n : List Char) (ps : List Prop_) (q : ℚ) (ws : List (List Char)) :
    readAscii1 lenient ((.float, n) :: ps) (printF1 q :: ws) = (readAscii1 lenient ps ws).map fun r => (n, .num (rounded q)) :: r := by
  rw [readAscii1, decimal_print]
  simp only [Option.bind_eq_bind, Option.bind_some]
  cases readAscii1 lenient ps ws <;> rfl

/-- excess words matter only with blue, green and red -/
def Extra : Color → Prop
  | .bgr _ => True
  | _ => False

theorem ascii_row (lenient : Bool) (p : Nat → Nat → ℚ) (c : Color) (i : Nat) (h : FitsColor c i) (hl : Extra c → lenient = true) :
    readAscii1 lenient (propsOf c) (rowWords p c i) = some (vertexOf (fun q => .num (rounded q)) (fun q => .byte (⌊q⌋).toNat) p c i) := by
  cases c with
  | none =>
    simp only [propsOf, rowWords, List.cons_append, List.nil_append, List.append_nil, ascii_float]
    rfl
  | gray c =>
    simp only [propsOf, rowWords, List.cons_append, List.nil_append, ascii_float]
    rw [ascii_uchar _ _ _ _ h]
    rfl
  | bgr c =>
    obtain ⟨h0, h1, h2⟩ := h
    obtain rfl := hl trivial
    simp only [propsOf, rowWords, List.cons_append, List.nil_append, ascii_float]
    rw [ascii_uchar _ _ _ _ h2, ascii_uchar _ _ _ _ h1, ascii_uchar _ _ _ _ h0]
    rfl

theorem ascii_body (p : Nat → Nat → ℚ) (c : Color) (lenient : Bool) (hl : Extra c → lenient = true) : ∀ (l : List Nat), (∀ i ∈ l, FitsColor c i) →
    readBody lenient false (propsOf c) l.length (l.flatMap (asciiRow p c)) = some (l.map (vertexOf (fun q => .num (rounded q)) (fun q => .byte (⌊q⌋).toNat) p c))
  | [], _ => rfl
  | i :: l, h => by
    obtain ⟨t, h1, h2⟩ := ascii_line p c i (l.flatMap (asciiRow p c))
    rw [List.length_cons, List.flatMap_cons, readBody, if_neg (by decide), h1]
    simp only [Option.bind_eq_bind, Option.bind_some]
    rw [h2, ascii_row lenient p c i (h i List.mem_cons_self) hl]
    simp only [Option.bind_some]
    rw [ascii_body p c lenient hl l (fun i hi => h i (List.mem_cons_of_mem _ hi))]
    rfl

theorem prepare_shapes (points : Nd) (color : Option Nd) {N : Nat} {k : Kind} {s : List Nat} {cs : Option (List Nat)} (h : Shapes N k s cs) (hs : points.shape = s) (hc : color.map Nd.shape = cs) :
    ∃ p c, prepare points color = some (N, p, c) ∧ (∀ xyz rgb i, vertexOf xyz rgb p c i = vertex xyz rgb points color k i) ∧
      (∀ i, FitsColor c i ↔ ColorFits points color k i) ∧ (Extra c ↔ k = .bgr) := by
  have ex : ∀ k : Kind, k ≠ .bgr → (False ↔ k = .bgr) := fun k h => ⟨False.elim, h⟩
  have eb : True ↔ Kind.bgr = .bgr := ⟨fun _ => rfl, fun _ => trivial⟩
  unfold prepare
  rw [hs]
  cases h with
  | plain => cases color with
    | none => exact ⟨_, _, rfl, fun _ _ _ => rfl, fun _ => Iff.rfl, ex _ (by decide)⟩
    | some c => cases hc
  | gray4 => cases color with
    | none => exact ⟨_, _, rfl, fun _ _ _ => rfl, fun _ => Iff.rfl, ex _ (by decide)⟩
    | some c => cases hc
  | bgr6 => cases color with
    | none => exact ⟨_, _, rfl, fun _ _ _ => rfl, fun _ => Iff.rfl, eb⟩
    | some c => cases hc
  | gray => cases color with
    | none => cases hc
    | some c =>
      have hc : c.shape = [N] := Option.some.inj hc
      dsimp only
      rw [hc]
      simp only [List.length_singleton, List.head?_cons, true_or, not_true, if_false, ne_eq, if_true, Nat.reduceEqDiff, gt_iff_lt, Nat.not_ofNat_lt_one]
      exact ⟨_, _, rfl, fun _ _ _ => rfl, fun _ => Iff.rfl, ex _ (by decide)⟩
  | bgr => cases color with
    | none => cases hc
    | some c =>
      have hc : c.shape = [N, 3] := Option.some.inj hc
      dsimp only
      rw [hc]
      simp only [List.length_cons, List.length_nil, List.head?_cons, true_or, not_true, if_false, ne_eq, or_true, gt_iff_lt, lt_self_iff_false, zero_add, Nat.reduceAdd, Nat.reduceEqDiff]
      exact ⟨_, _, rfl, fun _ _ _ => rfl, fun _ => Iff.rfl, Iff.rfl⟩

/-! ### the properties -/

/-- **C113**: the documented shapes are accepted, and no others -/
theorem write_accepts_iff (np : Np) (points : Nd) (color : Option Nd) (binary : Bool) :
    (write np points color binary).isSome ↔ ∃ N k, Shapes N k points.shape (color.map Nd.shape) := by
  constructor
  · intro h
    have h : (prepare points color).isSome := by
      unfold write at h
      cases hp : prepare points color with
      | none => rw [hp] at h; cases h
      | some r => rfl
    unfold prepare at h
    split at h
    · rename_i N Nt hs
      rw [hs]
      by_cases h0 : ¬ (Nt = 3 ∨ Nt = 4 ∨ Nt = 6)
      · rw [if_pos h0] at h; cases h
      rw [if_neg h0] at h
      rw [not_not] at h0
      cases color with
      | none =>
        rcases h0 with rfl | rfl | rfl
        · exact ⟨N, .plain, .plain⟩
        · exact ⟨N, .gray, .gray4⟩
        · exact ⟨N, .bgr, .bgr6⟩
      | some c =>
        dsimp only at h
        by_cases h1 : Nt ≠ 3
        · rw [if_pos h1] at h; cases h
        rw [if_neg h1] at h
        rw [not_not] at h1
        subst h1
        by_cases h2 : c.shape.length > 2
        · rw [if_pos h2] at h; cases h
        rw [if_neg h2] at h
        by_cases h3 : c.shape.head? ≠ some N
        · rw [if_pos h3] at h; cases h
        rw [if_neg h3] at h
        by_cases h4 : ¬ (c.shape = [N] ∨ c.shape = [N, 3])
        · rw [if_pos h4] at h; cases h
        rw [not_not] at h4
        show ∃ N' k, Shapes N' k _ (some c.shape)
        rcases h4 with h4 | h4 <;> rw [h4]
        · exact ⟨N, .gray, .gray⟩
        · exact ⟨N, .bgr, .bgr⟩
    · cases h
  · rintro ⟨N, k, h⟩
    obtain ⟨p, c, hp, -⟩ := prepare_shapes points color h rfl rfl
    unfold write
    rw [hp]; rfl

/-- **C113**: a binary file has the points, as float32, and the colors, as bytes, under their names -/
theorem binary_readable (np : Np) (points : Nd) (color : Option Nd) {N : Nat} {k : Kind} (h : Shapes N k points.shape (color.map Nd.shape)) (lenient : Bool) :
    ∃ f, write np points color true = some f ∧
      read lenient f = some ((List.range N).map (vertex (fun q => .bits (np.f32 q)) (fun q => .byte (np.u8 q)) points color k)) := by
  obtain ⟨p, c, hp, hv, -⟩ := prepare_shapes points color h rfl rfl
  unfold write
  rw [hp]
  refine ⟨_, rfl, ?_⟩
  unfold read
  rw [header_read]
  have := binary_body np p c lenient (List.range N)
  rw [List.length_range] at this
  simp only [if_true, Option.bind_eq_bind, Option.bind_some]
  rw [this]
  congr 1
  exact List.map_congr_left fun i _ => hv _ _ i

/-- a conversion of numbers, to have one -/
def someNp : Np where
  f32 q := (⌊q⌋).toNat % 2 ^ 32
  u8 q := (⌊q⌋).toNat % 256
  f32_lt q := Nat.mod_lt _ (by norm_num)
  u8_lt q := Nat.mod_lt _ (by norm_num)
  u8_eq q h h' := by
    have h0 : 0 ≤ ⌊q⌋ := Int.floor_nonneg.2 h
    have h1 : ⌊q⌋ < 256 := Int.floor_lt.2 (by exact_mod_cast h')
    omega

/-- two points, with colors -/
def twoPoints : Nd := ⟨[2, 6], fun l => match l with | [i, j] => 10 * i + j | _ => 0⟩

example : Shapes 2 .bgr twoPoints.shape ((none : Option Nd).map Nd.shape) := .bgr6

example : Shapes 5 .gray [5, 3] ((some ⟨[5], fun _ => 7⟩ : Option Nd).map Nd.shape) := .gray

/-- **C113**: a text file has the points, rounded to tenths, and the colors truncated to integers. Colors must fit into a byte. What is missing: coordinates with more than one digit after the point; files with blue, green and red can be read
only by readers that ignore excess columns -/
theorem ascii_readable_partial (np : Np) (points : Nd) (color : Option Nd) {N : Nat} {k : Kind} (h : Shapes N k points.shape (color.map Nd.shape)) (lenient : Bool)
    (hf : ∀ i < N, ColorFits points color k i) (hl : k = .bgr → lenient = true) :
    ∃ f, write np points color false = some f ∧
      read lenient f = some ((List.range N).map (vertex (fun q => .num (rounded q)) (fun q => .byte (⌊q⌋).toNat) points color k)) ∧ ∀ q, |q - rounded q| ≤ 1 / 20 := by
  obtain ⟨p, c, hp, hv, hfi, he⟩ := prepare_shapes points color h rfl rfl
  unfold write
  rw [hp]
  refine ⟨_, rfl, ?_, rounded_err⟩
  unfold read
  rw [header_read]
  have := ascii_body p c lenient (fun hx => hl (he.1 hx)) (List.range N) (fun i hi => by
    rw [hfi]
    exact hf i (List.mem_range.1 hi))
  rw [List.length_range] at this
  simp only [Bool.false_eq_true, if_false, Option.bind_eq_bind, Option.bind_some]
  rw [this]
  congr 1
  exact List.map_congr_left fun i _ => hv _ _ i

example : (∀ i < 2, ColorFits twoPoints none .bgr i) ∧ (Kind.bgr = .bgr → true = true) :=
  ⟨fun i hi => by interval_cases i <;> (unfold ColorFits Fits bgr twoPoints; norm_num), fun _ => rfl⟩

/-- **C113**: all of it are bytes -/
theorem write_bytes (np : Np) (points : Nd) (color : Option Nd) (binary : Bool) (f : List Char) (h : write np points color binary = some f) : ∀ c ∈ f, c.toNat < 256 := by
  have hn : ∀ n, ∀ c ∈ printNat n, c.toNat < 256 := fun n c hc => by
    obtain ⟨d, rfl⟩ := print_chars n c hc; exact (digit_eq d).2.2.2.2.2
  have hb : ∀ n, (byte (n % 256)).toNat < 256 := fun n => by rw [byte_toNat _ (by omega)]; omega
  have hu : ∀ q, (byte (np.u8 q)).toNat < 256 := fun q => by rw [byte_toNat _ (np.u8_lt q)]; exact np.u8_lt q
  have h4 : ∀ n, ∀ c ∈ le4 n, c.toNat < 256 := fun n c hc => by
    unfold le4 at hc
    simp only [List.mem_cons, List.not_mem_nil, or_false] at hc
    rcases hc with rfl | rfl | rfl | rfl <;> exact hb _
  have hF : ∀ q, ∀ c ∈ printF1 q, c.toNat < 256 := fun q c hc => by
    have hd := digit_eq ⟨tenths q % 10, by omega⟩
    have e : printF1 q = (if q < 0 then ['-'] else []) ++ printNat (tenths q / 10) ++ ['.', digitChar (tenths q % 10)] := rfl
    rw [e, List.mem_append, List.mem_append, List.mem_cons, List.mem_singleton] at hc
    rcases hc with (hc | hc) | rfl | rfl
    · split_ifs at hc
      · rw [List.mem_singleton] at hc; subst hc; decide
      · cases hc
    · exact hn _ _ hc
    · decide
    · exact hd.2.2.2.2.2
  have hD : ∀ q, ∀ c ∈ printD q, c.toNat < 256 := fun q c hc => by
    unfold printD at hc
    dsimp only at hc
    rw [List.mem_append] at hc
    rcases hc with hc | hc
    · split_ifs at hc
      all_goals first
        | (rw [List.mem_singleton] at hc; subst hc; decide)
        | cases hc
    · exact hn _ _ hc
  have hj : ∀ ws : List (List Char), (∀ w ∈ ws, ∀ c ∈ w, c.toNat < 256) → ∀ c ∈ joinSp ws, c.toNat < 256 := by
    intro ws
    induction ws with
    | nil => intro _ c hc; cases hc
    | cons w ws ih =>
      intro h c hc
      cases ws with
      | nil => exact h w List.mem_cons_self c hc
      | cons w' ws =>
        have hc : c ∈ w ++ ' ' :: joinSp (w' :: ws) := hc
        rw [List.mem_append, List.mem_cons] at hc
        rcases hc with hc | rfl | hc
        · exact h w List.mem_cons_self c hc
        · decide
        · exact ih (fun x hx => h x (List.mem_cons_of_mem _ hx)) c hc
  unfold write at h
  cases hp : prepare points color with
  | none => rw [hp] at h; cases h
  | some r =>
    obtain ⟨N, p, co⟩ := r
    rw [hp] at h
    dsimp only at h
    obtain rfl := (Option.some.inj h).symm
    intro c hc
    rw [List.mem_append] at hc
    rcases hc with hc | hc
    · unfold header at hc
      simp only [List.mem_append, or_assoc] at hc
      have lit : ∀ s : List Char, (s.all fun c => decide (c.toNat < 256)) = true → c ∈ s → c.toNat < 256 := fun s h hc => of_decide_eq_true (List.all_eq_true.1 h c hc)
      rcases hc with hc | hc | hc | hc | hc | hc | hc
      · exact lit _ (by decide) hc
      · split_ifs at hc
        · exact lit _ (by decide) hc
        · exact lit _ (by decide) hc
      · exact lit _ (by decide) hc
      · exact hn _ _ hc
      · exact lit _ (by decide) hc
      · cases co with
        | none => cases hc
        | gray g => exact lit "property uchar intensity\n".toList (by decide) hc
        | bgr g => exact lit "property uchar red\nproperty uchar green\nproperty uchar blue\n".toList (by decide) hc
      · exact lit _ (by decide) hc
    · rw [List.mem_flatMap] at hc
      obtain ⟨i, -, hc⟩ := hc
      cases binary with
      | true =>
        simp only [if_true] at hc
        unfold binaryRow at hc
        simp only [List.mem_append, or_assoc] at hc
        rcases hc with hc | hc | hc | hc
        · exact h4 _ _ hc
        · exact h4 _ _ hc
        · exact h4 _ _ hc
        · cases co with
          | none => cases hc
          | gray g => rw [List.mem_singleton] at hc; subst hc; exact hu _
          | bgr g =>
            simp only [List.mem_cons, List.not_mem_nil, or_false] at hc
            rcases hc with rfl | rfl | rfl <;> exact hu _
      | false =>
        simp only [Bool.false_eq_true, if_false] at hc
        have hc : c ∈ joinSp (rowWords p co i) ++ ['\n'] := hc
        rw [List.mem_append, List.mem_singleton] at hc
        rcases hc with hc | rfl
        · refine hj _ (fun w hw => ?_) c hc
          unfold rowWords at hw
          rw [List.mem_append] at hw
          rcases hw with hw | hw
          · simp only [List.mem_cons, List.not_mem_nil, or_false] at hw
            rcases hw with rfl | rfl | rfl <;> exact hF _
          · cases co with
            | none => cases hw
            | gray g => rw [List.mem_singleton] at hw; subst hw; exact hD _
            | bgr g =>
              simp only [List.mem_cons, List.not_mem_nil, or_false] at hw
              rcases hw with rfl | rfl | rfl | rfl <;> exact hD _
        · decide

/-- **C113**, not so: text files with blue, green and red have a column that isn't declared. A reader of the format can't read them -/
theorem ascii_bgr_wrong (np : Np) (points : Nd) (color : Option Nd) {N : Nat} (h : Shapes N .bgr points.shape (color.map Nd.shape)) (hN : 0 < N) :
    ∃ f, write np points color false = some f ∧ read false f = none := by
  obtain ⟨p, c, hp, -, -, he⟩ := prepare_shapes points color h rfl rfl
  unfold write
  rw [hp]
  refine ⟨_, rfl, ?_⟩
  unfold read
  rw [header_read]
  simp only [Bool.false_eq_true, if_false, Option.bind_eq_bind, Option.bind_some]
  obtain ⟨n, rfl⟩ : ∃ n, N = n + 1 := ⟨N - 1, by omega⟩
  rw [List.range_succ_eq_map, List.flatMap_cons]
  obtain ⟨t, h1, h2⟩ := ascii_line p c 0 ((List.map Nat.succ (List.range n)).flatMap (asciiRow p c))
  rw [readBody, if_neg (by decide), h1]
  simp only [Option.bind_eq_bind, Option.bind_some]
  rw [h2]
  cases c with
  | none => exact absurd (he.2 rfl) id
  | gray g => exact absurd (he.2 rfl) id
  | bgr g =>
    have hno : ∀ (n : List Char) (ps : List Prop_) (w : List Char) (ws : List (List Char)), readAscii1 false ps ws = none → readAscii1 false ((.uchar, n) :: ps) (w :: ws) = none := by
      intro n ps w ws h
      rw [readAscii1, h]
      cases natOf w with
      | none => rfl
      | some q =>
        simp only [Option.bind_eq_bind, Option.bind_some]
        by_cases hq : q < 256
        · rw [if_pos hq]; rfl
        · rw [if_neg hq]; rfl
    have : readAscii1 false (propsOf (.bgr g)) (rowWords p (.bgr g) 0) = none := by
      simp only [propsOf, rowWords, List.cons_append, List.nil_append, ascii_float]
      rw [hno _ _ _ _ (hno _ _ _ _ (hno _ _ _ _ rfl))]
      rfl
    rw [this]
    rfl

example : Shapes 2 .bgr twoPoints.shape ((none : Option Nd).map Nd.shape) ∧ 0 < 2 := ⟨.bgr6, by norm_num⟩

/-- **C113**, not so: text files have only one digit after the point: coordinates that differ by centimeters become the same -/
theorem ascii_precision_wrong (np : Np) : ∃ p p' : Nd, p.shape = [1, 3] ∧ p'.shape = [1, 3] ∧ p'.at_ [0, 0] - p.at_ [0, 0] = 4 / 100 ∧ write np p none false = write np p' none false := by
  refine ⟨⟨[1, 3], fun _ => 0⟩, ⟨[1, 3], fun _ => 4 / 100⟩, rfl, rfl, by norm_num, ?_⟩
  have e : printF1 0 = printF1 (4 / 100) := by
    have h0 : roundHalfEven (0 * 10) = 0 := by rw [show (0 : ℚ) * 10 = ((0 : Int) : ℚ) by norm_num]; exact round_int 0
    have h1 : roundHalfEven (4 / 100 * 10) = 0 := by
      have := round_err (4 / 100 * 10)
      rw [abs_le] at this
      have a : (roundHalfEven (4 / 100 * 10) : ℚ) < 1 := by linarith [this.1]
      have b : (-1 : ℚ) < roundHalfEven (4 / 100 * 10) := by linarith [this.2]
      have a' : roundHalfEven (4 / 100 * 10) < 1 := by exact_mod_cast a
      have b' : -1 < roundHalfEven (4 / 100 * 10) := by exact_mod_cast b
      omega
    unfold printF1
    dsimp only
    rw [if_neg (lt_irrefl (0 : ℚ)), if_neg (by norm_num : ¬ (4 / 100 : ℚ) < 0), if_neg (lt_irrefl (0 : ℚ)), if_neg (by norm_num : ¬ (4 / 100 : ℚ) < 0), h0, h1]
  unfold write prepare
  simp only [true_or, not_true, if_false, Nat.reduceEqDiff, Bool.false_eq_true]
  have er : asciiRow (fun _ _ => 0) Color.none = asciiRow (fun _ _ => 4 / 100) Color.none := by
    funext i
    unfold asciiRow
    dsimp only
    rw [e]
  rw [er]

/-- **C113**, not so: a color that doesn't fit into a byte is written to a text file as it is, and can't be read -/
theorem ascii_range_wrong (np : Np) (q : ℚ) (hq : 256 ≤ q) : ∃ p : Nd, p.shape = [1, 4] ∧ p.at_ [0, 3] = q ∧ ∃ f, write np p none false = some f ∧ ∀ lenient, read lenient f = none := by
  refine ⟨⟨[1, 4], fun _ => q⟩, rfl, rfl, _, rfl, fun lenient => ?_⟩
  unfold read
  rw [header_read]
  simp only [Bool.false_eq_true, if_false, Option.bind_eq_bind, Option.bind_some]
  obtain ⟨t, h1, h2⟩ := ascii_line (fun _ _ => q) (.gray fun _ => q) 0 []
  rw [show (List.range 1).flatMap (asciiRow (fun _ _ => q) (.gray fun _ => q)) = asciiRow (fun _ _ => q) (.gray fun _ => q) 0 ++ [] from rfl]
  rw [readBody, if_neg (by decide), h1]
  simp only [Option.bind_eq_bind, Option.bind_some]
  rw [h2]
  have h3 : natOf (printD q) = some (⌊q⌋).toNat := by rw [d_nonneg q (by linarith)]; exact natOf_print _
  have h4 : ¬ (⌊q⌋).toNat < 256 := by
    have : (256 : Int) ≤ ⌊q⌋ := Int.le_floor.2 (by exact_mod_cast hq)
    omega
  have : readAscii1 lenient (propsOf (.gray fun _ => q)) (rowWords (fun _ _ => q) (.gray fun _ => q) 0) = none := by
    simp only [propsOf, rowWords, List.cons_append, List.nil_append, ascii_float]
    rw [readAscii1, h3]
    simp only [Option.bind_eq_bind, Option.bind_some]
    rw [if_neg h4]
    rfl
  rw [this]
  rfl

end Mrcal.Ply

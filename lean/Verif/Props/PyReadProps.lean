import Verif.Props.PyLitProps
/-
The entries of the .cameramodel files that Python writes, as Python and as C read them.
-/
namespace Mrcal.ModelPy
open Mrcal.Name Mrcal.CamModel Mrcal.ModelFile

/-! ### an entry, for both readers -/

/-- the entry is read by Python as this literal -/
def PGood (e : En) (x : Lit) : Prop := PIgn e.ign ∧ Plain e.key ∧ ∀ n r, pyLit (n + 3) (e.val ++ ',' :: r) = some (x, ',' :: r)

/-- the entry is read by C as this -/
def CGood (e : En) (y : Entry) : Prop := Ign e.ign ∧ Plain e.key ∧ ValueText e.key y e.val

theorem CGood.entry {e : En} {y : Entry} (h : CGood e y) : EntryText y e.text := by
  refine ⟨e.key, e.ign ++ '\'' :: (e.key ++ ['\'']), [], e.val, str_key _ h.1 _ (fun hc => (h.2.1 _ hc).2.1 rfl) (fun hc => (h.2.1 _ hc).1 rfl), .nil, h.2.2, ?_⟩
  unfold En.text
  simp

theorem body_commas (es : List (En × Entry)) (h0 : es ≠ []) (h : ∀ e ∈ es, CGood e.1 e.2) {tail : List Char} (ht : Ign tail) :
    BodyText (es.map Prod.snd) (es.flatMap (fun e => e.1.text ++ [',']) ++ (tail ++ ['}'])) := by
  induction es with
  | nil => exact absurd rfl h0
  | cons e es ih =>
    have he := (h e List.mem_cons_self).entry
    by_cases h1 : es = []
    · subst h1
      have := BodyText.lastComma he .nil ht
      simpa using this
    · have := BodyText.cons he .nil (ih h1 fun x hx => h x (List.mem_cons_of_mem _ hx))
      simpa [List.append_assoc] using this

theorem file_commas (es : List (En × Entry)) (h0 : es ≠ []) (h : ∀ e ∈ es, CGood e.1 e.2) {pre tail r : List Char} (hp : Ign pre) (ht : Ign tail) (hr : Ign r) :
    FileText (es.map Prod.snd) (pre ++ '{' :: (es.flatMap (fun e => e.1.text ++ [',']) ++ (tail ++ '}' :: r))) := by
  refine ⟨pre, _, r, hp, body_commas es h0 h ht, hr, ?_⟩
  simp

/-! ### lists of numbers -/

theorem pign_1 : PIgn [' '] := .ws (by simp) .nil
theorem pign_2 : PIgn [' ', ' '] := .ws (by simp) pign_1
theorem pign_nl : PIgn ['\n'] := .ws (by simp) .nil

/-- numbers, each of which is preceded by a space and followed by a comma -/
def toksText (l : List (List Char)) : List Char := l.flatMap fun s => ' ' :: (s ++ [','])

/-- this is what's read -/
def Toks (l : List (List Char × ℚ)) : Prop := ∀ p ∈ l, NumTok p.1 p.2

theorem toks_items (l : List (List Char × ℚ)) (h : Toks l) : ∃ items : List (List Char × Lit), items.flatMap (fun p => p.1 ++ [',']) = toksText (l.map Prod.fst) ∧
    (∀ n, ∀ p ∈ items, ∀ r, Item (pyLit (n + 1)) ']' p.1 p.2 (',' :: r)) ∧ (items.map Prod.snd).mapM Lit.num = some (l.map Prod.snd) := by
  induction l with
  | nil => exact ⟨[], rfl, by simp, rfl⟩
  | cons p l ih =>
    obtain ⟨items, h1, h2, h3⟩ := ih fun q hq => h q (List.mem_cons_of_mem _ hq)
    obtain ⟨tok, v⟩ := p
    have hp : NumTok tok v := h _ List.mem_cons_self
    obtain ⟨x, hv, hx⟩ := item_num hp
    refine ⟨([' '] ++ tok, x) :: items, ?_, ?_, ?_⟩
    · rw [List.flatMap_cons, h1]
      simp [toksText]
    · intro n q hq r
      rcases List.mem_cons.1 hq with rfl | hq
      · exact hx n [' '] _ pign_1 (stop_comma r)
      · exact h2 n q hq r
    · simp only [List.map_cons, List.mapM_cons, hv, h3]
      rfl

/-- a list of numbers, read by Python -/
theorem py_toks (l : List (List Char × ℚ)) (h : Toks l) {b : List Char} (hb : PIgn b) : ∃ x : Lit, x.nums = some (l.map Prod.snd) ∧
    ∀ n a r, PIgn a → pyLit (n + 2) (a ++ '[' :: (toksText (l.map Prod.fst) ++ (b ++ ']' :: r))) = some (x, r) := by
  obtain ⟨items, h1, h2, h3⟩ := toks_items l h
  refine ⟨.list (items.map Prod.snd), ?_, ?_⟩
  · simp [Lit.nums, Lit.elems, h3]
  · intro n a r ha
    rw [← h1]
    exact pyLit_commas (n + 1) items ha hb (h2 n)

/-- a list of numbers, read by C -/
theorem c_toks {α : Type} (P : List Char → α → Prop) (l : List (List Char × α)) (h0 : l ≠ []) (h : ∀ p ∈ l, P p.1 p.2) : ItemsText P (l.map Prod.snd) (toksText (l.map Prod.fst)) := by
  induction l with
  | nil => exact absurd rfl h0
  | cons p l ih =>
    have hp := h p List.mem_cons_self
    by_cases h1 : l = []
    · subst h1
      have := ItemsText.lastComma ign_1 hp .nil
      simpa [toksText] using this
    · have := ItemsText.cons ign_1 hp .nil (ih h1 fun x hx => h x (List.mem_cons_of_mem _ hx))
      simpa [toksText] using this

theorem c_list {α : Type} (P : List Char → α → Prop) (l : List (List Char × α)) (h0 : l ≠ []) (h : ∀ p ∈ l, P p.1 p.2) :
    ListText P (l.map Prod.snd) (' ' :: '[' :: (toksText (l.map Prod.fst) ++ [']'])) :=
  ⟨[' '], '[', _, [], ']', ign_1, Or.inl rfl, c_toks P l h0 h, .nil, Or.inl rfl, rfl⟩

theorem numsText_eq (l : List ℚ) : numsText l = toksText (l.map printG10) := by
  unfold numsText toksText
  rw [List.flatMap_map]
  rfl

/-- numbers that are printed with 10 digits -/
def g10 (l : List ℚ) : List (List Char × ℚ) := l.map fun v => (printG10 v, round10 v)

theorem g10_toks (l : List ℚ) (h : ∀ v ∈ l, Small v) : Toks (g10 l) := by
  intro p hp
  obtain ⟨v, hv, rfl⟩ := List.mem_map.1 hp
  exact printG10_numTok v (h v hv)

theorem g10_fst (l : List ℚ) : (g10 l).map Prod.fst = l.map printG10 := by simp [g10]
theorem g10_snd (l : List ℚ) : (g10 l).map Prod.snd = l.map round10 := by simp [g10]

/-- the entry of a list of numbers -/
def enNums (ign key : List Char) (l : List ℚ) : En := ⟨ign, key, ' ' :: '[' :: (numsText l ++ [']'])⟩

theorem enNums_py {ign key : List Char} (hi : PIgn ign) (hk : Plain key) (l : List ℚ) (hl : ∀ v ∈ l, Small v) : ∃ x : Lit, x.nums = some (l.map round10) ∧ PGood (enNums ign key l) x := by
  obtain ⟨x, h1, h2⟩ := py_toks (g10 l) (g10_toks l hl) .nil
  rw [g10_snd] at h1
  refine ⟨x, h1, hi, hk, ?_⟩
  intro n r
  have := h2 (n + 1) [' '] (',' :: r) pign_1
  rw [g10_fst, ← numsText_eq] at this
  simpa [enNums] using this

theorem enNums_list (l : List ℚ) (h0 : l ≠ []) (hl : ∀ v ∈ l, Small v) : ListText Number (l.map round10) (' ' :: '[' :: (numsText l ++ [']'])) := by
  have := c_list Number (g10 l) (by simpa [g10] using h0) (fun p hp => (g10_toks l hl p hp).number)
  rw [g10_snd, g10_fst, ← numsText_eq] at this
  exact this

/-! ### the imager size -/

/-- the entry of the imager size -/
def enSize (ign : List Char) (w h : Int) : En :=
  ⟨ign, "imagersize".toList, ' ' :: '[' :: (toksText [printInt w, printInt h] ++ [']'])⟩

theorem printInt_numTok (i : Int) (hi : (i.natAbs : ℚ) < 2 ^ 1024 - 2 ^ 970) : NumTok (printInt i) i := by
  refine ⟨⟨decide (i < 0), printNat i.natAbs, none, none⟩, ⟨[], printNat_Digits _, by simp, .none, ?_⟩, printNat_ne_nil _, ?_, ?_, fun _ _ h => printNat_head _ h⟩
  · unfold printInt
    simp [fracText]
  · simp only [Option.getD_none, List.append_nil, decVal_printNat, expVal, List.length_nil]
    by_cases h : i < 0
    · simp only [h, decide_true, if_true]
      have : (i : ℚ) = -((i.natAbs : Nat) : ℚ) := by
        have e := congrArg (fun z : Int => (z : ℚ)) (show i = -((i.natAbs : Nat) : Int) by omega)
        simpa only [Int.cast_neg, Int.cast_natCast] using e
      rw [this]; simp
    · simp only [h, decide_false, Bool.false_eq_true, if_false]
      have : (i : ℚ) = ((i.natAbs : Nat) : ℚ) := by
        have e := congrArg (fun z : Int => (z : ℚ)) (show i = ((i.natAbs : Nat) : Int) by omega)
        simpa only [Int.cast_natCast] using e
      rw [this]; simp
  · rw [← Int.cast_abs, Int.abs_eq_natAbs, Int.cast_natCast]
    exact hi

theorem int_bound {i : Int} (h : i.natAbs < 2 ^ 64) : (i.natAbs : ℚ) < 2 ^ 1024 - 2 ^ 970 := by
  have h1 : (i.natAbs : ℚ) < ((2 ^ 64 : Nat) : ℚ) := Nat.cast_lt.2 h
  refine lt_trans h1 ?_
  decide +kernel

theorem enSize_py {ign : List Char} (hi : PIgn ign) (w h : Int) (hw : 0 < w) (hw' : w < 2 ^ 31) (hh : 0 < h) (hh' : h < 2 ^ 31) : ∃ x : Lit, readSize x = some (w, h) ∧ PGood (enSize ign w h) x := by
  have hb : ∀ i : Int, 0 < i → i < 2 ^ 31 → (i.natAbs : ℚ) < 2 ^ 1024 - 2 ^ 970 := fun i h1 h2 => int_bound (by omega)
  obtain ⟨x, h1, h2⟩ := py_toks [(printInt w, (w : ℚ)), (printInt h, (h : ℚ))] (by
    intro p hp
    simp only [List.mem_cons, List.not_mem_nil, or_false] at hp
    rcases hp with rfl | rfl
    · exact printInt_numTok w (hb w hw hw')
    · exact printInt_numTok h (hb h hh hh')) .nil
  refine ⟨x, ?_, hi, by show Plain "imagersize".toList; unfold Plain; decide, ?_⟩
  · unfold readSize
    rw [h1]
    have c1 : (0 : ℚ) < (w : ℚ) := Int.cast_pos.2 hw
    have c2 : (0 : ℚ) < (h : ℚ) := Int.cast_pos.2 hh
    have c3 : (w : ℚ) < 2 ^ 31 := by exact_mod_cast hw'
    have c4 : (h : ℚ) < 2 ^ 31 := by exact_mod_cast hh'
    simp only [List.map_cons, List.map_nil]
    rw [if_pos]
    · simp
    · refine ⟨c1, c2, ?_, ?_, c3, c4⟩ <;> simp
  · intro n r
    have := h2 (n + 1) [' '] (',' :: r) pign_1
    simpa [enSize] using this

theorem printInt_uint (i : Int) (h0 : 0 ≤ i) (h : i < 2 ^ 31) : UintText (printInt i) i.toNat := by
  unfold printInt
  rw [if_neg (by omega), List.nil_append, show i.natAbs = i.toNat by omega]
  exact printNat_uint _ (by omega)

theorem enSize_c {ign : List Char} (hi : Ign ign) (w h : Int) (hw : 0 < w) (hw' : w < 2 ^ 31) (hh : 0 < h) (hh' : h < 2 ^ 31) : CGood (enSize ign w h) (.imagersize w.toNat h.toNat) := by
  refine ⟨hi, by show Plain "imagersize".toList; unfold Plain; decide, .imagersize ?_⟩
  have := c_list UintText [(printInt w, w.toNat), (printInt h, h.toNat)] (by simp) (by
    intro p hp
    simp only [List.mem_cons, List.not_mem_nil, or_false] at hp
    rcases hp with rfl | rfl
    · exact printInt_uint w hw.le hw'
    · exact printInt_uint h hh.le hh')
  exact this

/-! ### integers -/

def enInt (ign key : List Char) (i : Int) : En := ⟨ign, key, ' ' :: printInt i⟩

theorem enInt_py {ign key : List Char} (hi : PIgn ign) (hk : Plain key) (i : Int) (hb : i.natAbs < 2 ^ 64) : PGood (enInt ign key i) (.int i) := by
  refine ⟨hi, hk, ?_⟩
  intro n r
  exact pyLit_int (n + 2) (a := [' ']) i pign_1 (stop_comma r) (int_bound hb)

theorem enInt_c {ign key : List Char} (hi : Ign ign) (hk : Plain key) (hk' : key ∉ ["lensmodel".toList, "intrinsics".toList, "extrinsics".toList, "rt_cam_ref".toList, "imagersize".toList]) (i : Int) :
    CGood (enInt ign key i) .other := by
  refine ⟨hi, hk, .other hk' ?_⟩
  refine OtherText.num (a := [' ']) (tok := printInt i) (t := ⟨decide (i < 0), printNat i.natAbs, none, none⟩) ign_1 ⟨[], printNat_Digits _, by simp, .none, ?_⟩ ?_ ?_
  · unfold printInt
    simp [fracText]
  · unfold printInt
    intro h
    exact printNat_ne_nil _ (List.append_eq_nil_iff.1 h).2
  · unfold printInt
    intro h
    have hd := printNat_Digits i.natAbs
    have h1 : '.' ∈ (if i < 0 then ['-'] else []) ++ printNat i.natAbs := by rw [h]; simp
    rcases List.mem_append.1 h1 with h2 | h2
    · split at h2 <;> simp at h2
    · exact absurd (hd _ h2) (by decide)

/-! ### strings -/

def enStr (ign key s : List Char) : En := ⟨ign, key, ' ' :: ' ' :: '\'' :: (s ++ ['\''])⟩

theorem enStr_py {ign key s : List Char} (hi : PIgn ign) (hk : Plain key) (hs : Plain s) : PGood (enStr ign key s) (.str s) := by
  refine ⟨hi, hk, ?_⟩
  intro n r
  have := pyLit_str (n + 2) (a := [' ', ' ']) (r := ',' :: r) pign_2 hs (by simp)
  simpa [enStr] using this

def enBytes (ign key s : List Char) : En := ⟨ign, key, ' ' :: 'b' :: '\'' :: (s ++ ['\''])⟩

theorem enBytes_py {ign key s : List Char} (hi : PIgn ign) (hk : Plain key) (hs : Plain s) (hs' : ∀ c ∈ s, c.toNat < 128) : PGood (enBytes ign key s) (.bytes s) := by
  refine ⟨hi, hk, ?_⟩
  intro n r
  have := pyLit_bytes (n + 2) (a := [' ']) (r := ',' :: r) pign_1 hs hs' (by simp)
  simpa [enBytes] using this

theorem plain_quotes {s : List Char} (h : Plain s) : '"' ∉ s ∧ '\'' ∉ s := ⟨fun hc => (h _ hc).2.1 rfl, fun hc => (h _ hc).1 rfl⟩

theorem enBytes_c {ign key s : List Char} (hi : Ign ign) (hk : Plain key) (hk' : key ∉ ["lensmodel".toList, "intrinsics".toList, "extrinsics".toList, "rt_cam_ref".toList, "imagersize".toList]) (hs : Plain s) :
    CGood (enBytes ign key s) .other := by
  refine ⟨hi, hk, .other hk' (.str (body := s) ?_)⟩
  exact ⟨[' '], ['b'], '\'', '\'', ign_1, Or.inr rfl, Or.inr rfl, Or.inr rfl, (plain_quotes hs).1, (plain_quotes hs).2, rfl⟩

/-! ### the valid-intrinsics region -/

/-- a row of the array -/
def rowText (x y : List Char) : List Char := ['\n', ' ', ' ', ' ', ' '] ++ '[' :: (' ' :: (x ++ [','])  ++ (' ' :: y ++ ([' '] ++ [']'])))

def enRegion (ign : List Char) (r : List (ℚ × ℚ)) : En :=
  ⟨ign, "valid_intrinsics_region".toList, ' ' :: '[' :: (r.flatMap (fun p => rowText (printG10 p.1) (printG10 p.2) ++ [',']) ++ ['\n', ']'])⟩

theorem pign_row : PIgn ['\n', ' ', ' ', ' ', ' '] := .ws (by simp) (.ws (by simp) (.ws (by simp) pign_2))

theorem row_item {x y : List Char} {v w : ℚ} (hx : NumTok x v) (hy : NumTok y w) : ∃ l : Lit, l.nums = some [v, w] ∧ ∀ n r, Item (pyLit (n + 2)) ']' (rowText x y) l (',' :: r) := by
  obtain ⟨lx, k1, k2⟩ := item_num hx
  obtain ⟨ly, j1, j2⟩ := item_num hy
  refine ⟨.list [lx, ly], by simp [Lit.nums, Lit.elems, k1, j1], ?_⟩
  intro n r
  have h1 := pyLit_last (n + 1) (a := ['\n', ' ', ' ', ' ', ' ']) (b := [' ']) (s := ' ' :: y) (r := ',' :: r) (v := ly) [([' '] ++ x, lx)] pign_row pign_1
    (by intro p hp r'; rw [List.mem_singleton.1 hp]; exact k2 n [' '] _ pign_1 (stop_comma r')) (j2 n [' '] _ pign_1 (stop_space _))
  refine item_of (a := ['\n', ' ', ' ', ' ', ' ']) (c := '[') (l := ' ' :: (x ++ [','])  ++ (' ' :: y ++ ([' '] ++ [']'])) ++ ',' :: r) pign_row rfl (by constructor <;> decide) (by decide) ?_
  simpa using h1

theorem region_items (r : List (ℚ × ℚ)) (h : ∀ p ∈ r, Small p.1 ∧ Small p.2) : ∃ items : List (List Char × Lit),
    items.flatMap (fun p => p.1 ++ [',']) = r.flatMap (fun p => rowText (printG10 p.1) (printG10 p.2) ++ [',']) ∧
    (∀ n, ∀ p ∈ items, ∀ r, Item (pyLit (n + 2)) ']' p.1 p.2 (',' :: r)) ∧ (items.map Prod.snd).mapM Lit.nums = some (r.map fun p => [round10 p.1, round10 p.2]) ∧ items.length = r.length := by
  induction r with
  | nil => exact ⟨[], rfl, by simp, rfl, rfl⟩
  | cons p r ih =>
    obtain ⟨items, h1, h2, h3, h4⟩ := ih fun q hq => h q (List.mem_cons_of_mem _ hq)
    obtain ⟨l, k1, k2⟩ := row_item (printG10_numTok p.1 (h p List.mem_cons_self).1) (printG10_numTok p.2 (h p List.mem_cons_self).2)
    refine ⟨(rowText (printG10 p.1) (printG10 p.2), l) :: items, ?_, ?_, ?_, by simp [h4]⟩
    · rw [List.flatMap_cons, h1, List.flatMap_cons]
    · intro n q hq r
      rcases List.mem_cons.1 hq with rfl | hq
      · exact k2 n r
      · exact h2 n q hq r
    · simp only [List.map_cons, List.mapM_cons, k1, h3]
      rfl

/-- a contour that's closed: the last point is the first one -/
def ClosedRegion (r : List (ℚ × ℚ)) : Prop := r = [] ∨ (4 ≤ r.length ∧ r.head? = r.getLast?)

theorem round_closed (r : List (ℚ × ℚ)) (h : ClosedRegion r) (f : ℚ → ℚ) : ClosedRegion (r.map fun p => (f p.1, f p.2)) := by
  rcases h with rfl | ⟨h1, h2⟩
  · left; rfl
  · right
    refine ⟨by simpa using h1, ?_⟩
    rw [List.head?_map, List.getLast?_map, h2]

theorem closed_dist {a : ℚ × ℚ} {l : List (ℚ × ℚ)} (h : (a :: l).head? = (a :: l).getLast?) : dist2 a ((a :: l).getLastD a) = 0 := by
  have : (a :: l).getLastD a = a := by
    rw [List.getLastD_eq_getLast?, ← h]; rfl
  rw [this]
  unfold dist2
  ring

theorem closed_valid (r : List (ℚ × ℚ)) (h : ClosedRegion r) : validateRegion (some r) = true ∧ closeContour r = r := by
  rcases h with rfl | ⟨h1, h2⟩
  · exact ⟨rfl, rfl⟩
  · cases r with
    | nil => exact ⟨rfl, rfl⟩
    | cons a l =>
      have hd := closed_dist h2
      constructor
      · show (decide (4 ≤ (a :: l).length) && !decide (1 / 1000000 < dist2 a ((a :: l).getLastD a))) = true
        rw [hd]
        simp only [Bool.and_eq_true, decide_eq_true_eq, Bool.not_eq_true', decide_eq_false_iff_not]
        exact ⟨h1, by norm_num⟩
      · unfold closeContour
        dsimp only
        rw [hd, if_pos (by norm_num)]

theorem pairs_back (r : List (ℚ × ℚ)) : (r.map fun p => [p.1, p.2]).mapM pair2 = some r := by
  induction r with
  | nil => rfl
  | cons p r ih => simp only [List.map_cons, List.mapM_cons, pair2, ih]; rfl

theorem enRegion_py {ign : List Char} (hi : PIgn ign) (r : List (ℚ × ℚ)) (h : ∀ p ∈ r, Small p.1 ∧ Small p.2) (hc : ClosedRegion r) :
    ∃ x : Lit, readRegion (some x) = some (some (r.map fun p => (round10 p.1, round10 p.2))) ∧ PGood (enRegion ign r) x := by
  obtain ⟨items, h1, h2, h3, h4⟩ := region_items r h
  refine ⟨.list (items.map Prod.snd), ?_, hi, by show Plain "valid_intrinsics_region".toList; unfold Plain; decide, ?_⟩
  · unfold readRegion
    simp only [Lit.elems, Option.bind_eq_bind, Option.bind_some]
    by_cases h0 : items.map Prod.snd = []
    · rw [if_pos h0]
      have : r = [] := by
        have : items = [] := by simpa using h0
        rw [this] at h4
        exact List.length_eq_zero_iff.1 h4.symm
      rw [this]; rfl
    · rw [if_neg h0, h3]
      dsimp only
      have hall : ((r.map fun p => [round10 p.1, round10 p.2]).all fun r' => decide (r'.length = (((r.map fun p => [round10 p.1, round10 p.2])).headD []).length)) = true := by
        cases r with
        | nil => rfl
        | cons p r => simp
      rw [if_pos hall]
      have e : (r.map fun p => [round10 p.1, round10 p.2]) = ((r.map fun p => (round10 p.1, round10 p.2)).map fun p => [p.1, p.2]) := by simp
      rw [e, pairs_back]
      dsimp only
      obtain ⟨c1, c2⟩ := closed_valid _ (round_closed r hc round10)
      rw [if_pos c1, c2]
  · intro n r'
    have := pyLit_commas (n + 2) (a := [' ']) (b := ['\n']) (r := ',' :: r') items pign_1 pign_nl (h2 n)
    rw [h1] at this
    simpa [enRegion] using this

end Mrcal.ModelPy

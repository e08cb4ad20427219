import Verif.Model.Corners
import Mathlib.Data.Nat.Digits.Defs
import Mathlib.Tactic.Ring
/-
Finding the frame numbers in the file names of the images: mapping_file_framenocameraindex()
-/
namespace Mrcal.Corners

/-- Spec: the decimal number written with these digits -/
def decimal (d : Name) : Nat := Nat.ofDigits 10 (d.reverse.map fun c => c.toNat - 48)

/-- Spec: a nonempty string of digits -/
def Digits (d : Name) : Prop := d ≠ [] ∧ ∀ c ∈ d, c.isDigit = true

/-- Spec: file names that are a fixed string, then a number, then another fixed string. All the digits of the number are in the number -/
structure Numbered (p s : Name) (ds : List Name) (files : List Name) : Prop where
  files : files = ds.map fun d => p ++ d ++ s
  digits : ∀ d ∈ ds, Digits d
  before : ∀ c, p.getLast? = some c → c.isDigit = false
  after : ∀ c, s.head? = some c → c.isDigit = false

theorem intOf_aux (d : Name) : ∀ n, d.foldl (fun n c => 10 * n + (c.toNat - '0'.toNat)) n = 10 ^ d.length * n + decimal d := by
  induction d with
  | nil => intro n; simp [decimal, Nat.ofDigits]
  | cons c d ih =>
    intro n
    rw [List.foldl_cons, ih]
    have h : decimal (c :: d) = decimal d + 10 ^ d.length * (c.toNat - 48) := by
      unfold decimal
      rw [List.reverse_cons, List.map_append, Nat.ofDigits_append]
      simp [Nat.ofDigits]
    rw [h]
    have e : ('0' : Char).toNat = 48 := rfl
    rw [e, List.length_cons, pow_succ]
    ring

theorem intOf_decimal (d : Name) : intOf d = decimal d := by
  unfold intOf; rw [intOf_aux]; simp

theorem leading_left (a b : Name) : leading a b <+: a := by
  induction a generalizing b with
  | nil => cases b <;> simp [leading]
  | cons x a ih =>
    cases b with
    | nil => simp [leading]
    | cons y b =>
      unfold leading
      split_ifs
      · exact (List.prefix_cons_inj x).mpr (ih b)
      · exact List.nil_prefix

theorem leading_right (a b : Name) : leading a b <+: b := by
  induction a generalizing b with
  | nil => cases b <;> simp [leading]
  | cons x a ih =>
    cases b with
    | nil => simp [leading]
    | cons y b =>
      unfold leading
      split_ifs with h
      · subst h; exact (List.prefix_cons_inj x).mpr (ih b)
      · exact List.nil_prefix

theorem leading_greatest (p a b : Name) (ha : p <+: a) (hb : p <+: b) : p <+: leading a b := by
  induction p generalizing a b with
  | nil => exact List.nil_prefix
  | cons x p ih =>
    obtain ⟨u, rfl⟩ := ha
    obtain ⟨v, rfl⟩ := hb
    simp only [List.cons_append, leading, if_true]
    exact (List.prefix_cons_inj x).mpr (ih _ _ (List.prefix_append p u) (List.prefix_append p v))

theorem trailing_left (a b : Name) : trailing a b <:+ a := by
  have h := leading_left a.reverse b.reverse
  unfold trailing
  rwa [← List.reverse_prefix, List.reverse_reverse]

theorem trailing_right (a b : Name) : trailing a b <:+ b := by
  have h := leading_right a.reverse b.reverse
  unfold trailing
  rwa [← List.reverse_prefix, List.reverse_reverse]

theorem trailing_greatest (p a b : Name) (ha : p <:+ a) (hb : p <:+ b) : p <:+ trailing a b := by
  have h := leading_greatest p.reverse a.reverse b.reverse (List.reverse_prefix.mpr ha) (List.reverse_prefix.mpr hb)
  unfold trailing
  rwa [← List.reverse_prefix, List.reverse_reverse]

theorem fold_lead (ss : List Name) : ∀ s, ss.foldl leading s <+: s ∧ (∀ f ∈ ss, ss.foldl leading s <+: f) ∧ ∀ p, p <+: s → (∀ f ∈ ss, p <+: f) → p <+: ss.foldl leading s := by
  induction ss with
  | nil => intro s; simp
  | cons a ss ih =>
    intro s
    obtain ⟨h1, h2, h3⟩ := ih (leading s a)
    refine ⟨h1.trans (leading_left s a), ?_, ?_⟩
    · intro f hf
      rcases List.mem_cons.mp hf with rfl | hf
      · exact h1.trans (leading_right s f)
      · exact h2 f hf
    · intro p hp hall
      exact h3 p (leading_greatest p s a hp (hall a (by simp))) fun f hf => hall f (by simp [hf])

theorem fold_trail (ss : List Name) : ∀ s, ss.foldl trailing s <:+ s ∧ (∀ f ∈ ss, ss.foldl trailing s <:+ f) ∧ ∀ p, p <:+ s → (∀ f ∈ ss, p <:+ f) → p <:+ ss.foldl trailing s := by
  induction ss with
  | nil => intro s; simp
  | cons a ss ih =>
    intro s
    obtain ⟨h1, h2, h3⟩ := ih (trailing s a)
    refine ⟨h1.trans (trailing_left s a), ?_, ?_⟩
    · intro f hf
      rcases List.mem_cons.mp hf with rfl | hf
      · exact h1.trans (trailing_right s f)
      · exact h2 f hf
    · intro p hp hall
      exact h3 p (trailing_greatest p s a hp (hall a (by simp))) fun f hf => hall f (by simp [hf])

theorem lt_spec (files : List Name) (h : files ≠ []) :
    (∀ f ∈ files, (leadingTrailing files).1 <+: f ∧ (leadingTrailing files).2 <:+ f)
    ∧ (∀ p, (∀ f ∈ files, p <+: f) → p <+: (leadingTrailing files).1)
    ∧ (∀ p, (∀ f ∈ files, p <:+ f) → p <:+ (leadingTrailing files).2) := by
  cases files with
  | nil => exact absurd rfl h
  | cons s ss =>
    obtain ⟨a1, a2, a3⟩ := fold_lead ss s
    obtain ⟨b1, b2, b3⟩ := fold_trail ss s
    refine ⟨?_, ?_, ?_⟩
    · intro f hf
      rcases List.mem_cons.mp hf with rfl | hf
      · exact ⟨a1, b1⟩
      · exact ⟨a2 f hf, b2 f hf⟩
    · intro p hp; exact a3 p (hp s (by simp)) fun f hf => hp f (by simp [hf])
    · intro p hp; exact b3 p (hp s (by simp)) fun f hf => hp f (by simp [hf])

/-- cutting the common parts off -/
theorem middle_split (lead trail f : Name) (hl : lead <+: f) (ht : trail <:+ f) (hlen : lead.length + trail.length ≤ f.length) : lead ++ middle lead.length trail.length f ++ trail = f := by
  obtain ⟨u, rfl⟩ := hl
  have h2 : trail <:+ u := by
    obtain ⟨v, hv⟩ := ht
    have hle : lead.length ≤ v.length := by
      have := congrArg List.length hv
      simp at this hlen
      omega
    refine ⟨v.drop lead.length, ?_⟩
    have := congrArg (List.drop lead.length) hv
    rw [List.drop_append_of_le_length hle] at this
    simpa using this
  obtain ⟨v, rfl⟩ := h2
  unfold middle
  have e : (lead ++ (v ++ trail)).length - trail.length = (lead ++ v).length := by simp; omega
  rw [e, ← List.append_assoc, List.take_left, List.drop_left]

theorem middle_nonempty (nl nt : Nat) (f : Name) (h : middle nl nt f ≠ []) : nl + nt < f.length := by
  unfold middle at h
  by_contra hc
  apply h
  rw [List.drop_eq_nil_iff, List.length_take]
  omega

theorem numeric_iff (s : Name) : numeric s = true ↔ Digits s := by
  unfold numeric Digits
  simp [List.isEmpty_iff]

theorem takeWhile_digits (x r : Name) (hx : ∀ c ∈ x, c.isDigit = true) (hr : ∀ c, r.head? = some c → c.isDigit = false) : (x ++ r).takeWhile Char.isDigit = x := by
  induction x with
  | nil =>
    cases r with
    | nil => rfl
    | cons c r =>
      have := hr c rfl
      simp [this]
  | cons c x ih =>
    have h := hx c (by simp)
    simp only [List.cons_append, List.takeWhile_cons, h, if_true]
    rw [ih fun c hc => hx c (by simp [hc])]

/-- **The frame number of an image is the number in its file name**: if the names of the images of a camera are a fixed string, a number and another fixed string, then either the frame numbers could not be found, or the frame number of
each image is the number in its name: with all its digits, also those that happen to be common to all the images -/
theorem frames_meaning (p s : Name) (ds files : List Name) (h : Numbered p s ds files) (h2 : 2 ≤ files.length) (l : List Nat) (hl : pullFramenumbers files = some l) : l = ds.map decimal := by
  have hne : files ≠ [] := by rintro rfl; simp at h2
  unfold pullFramenumbers at hl
  rw [if_neg (by omega)] at hl
  obtain ⟨h3, h4, h5⟩ := lt_spec files hne
  dsimp only at hl
  obtain ⟨lead, hlead⟩ : ∃ x, x = (leadingTrailing files).1 := ⟨_, rfl⟩
  obtain ⟨trail, htrail⟩ : ∃ x, x = (leadingTrailing files).2 := ⟨_, rfl⟩
  rw [← hlead, ← htrail] at hl h3
  rw [← hlead] at h4
  rw [← htrail] at h5
  split_ifs at hl with hnum
  rw [List.all_eq_true] at hnum
  obtain ⟨x, rfl⟩ : p <+: lead := h4 p fun f hf => by
    rw [h.files, List.mem_map] at hf
    obtain ⟨d, -, rfl⟩ := hf
    rw [List.append_assoc]
    exact List.prefix_append _ _
  obtain ⟨y, rfl⟩ : s <:+ trail := h5 s fun f hf => by
    rw [h.files, List.mem_map] at hf
    obtain ⟨d, -, rfl⟩ := hf
    exact List.suffix_append _ _
  have key : ∀ d ∈ ds, x ++ middle (p ++ x).length (y ++ s).length (p ++ d ++ s) ++ y = d := by
    intro d hd
    have hf : p ++ d ++ s ∈ files := by rw [h.files]; exact List.mem_map.mpr ⟨d, hd, rfl⟩
    have h6 := h3 _ hf
    have h7 := ((numeric_iff _).mp (hnum _ hf)).1
    have h8 := middle_split (p ++ x) (y ++ s) (p ++ d ++ s) h6.1 h6.2 (middle_nonempty _ _ _ h7).le
    have h9 : p ++ (x ++ middle (p ++ x).length (y ++ s).length (p ++ d ++ s) ++ y) ++ s = p ++ d ++ s := by
      simp only [List.append_assoc] at h8 ⊢
      exact h8
    exact List.append_cancel_left (List.append_cancel_right h9)
  have hx : ∀ c ∈ x, c.isDigit = true := by
    intro c hc
    obtain ⟨d, hd⟩ : ∃ d, d ∈ ds := by
      rcases ds with _ | ⟨d, _⟩
      · rw [h.files] at hne; simp at hne
      · exact ⟨d, by simp⟩
    apply (h.digits d hd).2
    rw [← key d hd]
    simp [hc]
  have hy : ∀ c ∈ y, c.isDigit = true := by
    intro c hc
    obtain ⟨d, hd⟩ : ∃ d, d ∈ ds := by
      rcases ds with _ | ⟨d, _⟩
      · rw [h.files] at hne; simp at hne
      · exact ⟨d, by simp⟩
    apply (h.digits d hd).2
    rw [← key d hd]
    simp [hc]
  have e1 : ((p ++ x).reverse.takeWhile Char.isDigit).reverse = x := by
    rw [List.reverse_append, takeWhile_digits, List.reverse_reverse]
    · intro c hc; exact hx c (by simpa using hc)
    · intro c hc; rw [List.head?_reverse] at hc; exact h.before c hc
  have e2 : (y ++ s).takeWhile Char.isDigit = y := takeWhile_digits y s hy h.after
  rw [e1, e2] at hl
  rw [← Option.some.inj hl, h.files, List.map_map]
  apply List.map_congr_left
  intro d hd
  show intOf _ = _
  rw [key d hd, intOf_decimal]

theorem common_length (a b : Name) (hl : a.length = b.length) (hab : a ≠ b) (x y : Name) (hxa : x <+: a) (hxb : x <+: b) (hya : y <:+ a) (hyb : y <:+ b) : x.length + y.length < a.length := by
  by_contra hc
  apply hab
  apply List.ext_getElem? 
  intro i
  by_cases hi : i < x.length
  · obtain ⟨u, rfl⟩ := hxa
    obtain ⟨v, rfl⟩ := hxb
    rw [List.getElem?_append_left hi, List.getElem?_append_left hi]
  · obtain ⟨u, rfl⟩ := hya
    obtain ⟨v, rfl⟩ := hyb
    simp only [List.length_append] at hl hc
    rw [List.getElem?_append_right (by omega), List.getElem?_append_right (by omega)]
    congr 1
    omega

/-- **Padded frame numbers are found**: if the numbers in the names of the images of a camera all have the same number of digits, and they're not all the same, then the frame numbers are found -/
theorem frames_padded (p s : Name) (ds files : List Name) (h : Numbered p s ds files) (n : Nat) (hn : ∀ d ∈ ds, d.length = n) (d1 d2 : Name) (hd1 : d1 ∈ ds) (hd2 : d2 ∈ ds) (hne : d1 ≠ d2) :
    pullFramenumbers files = some (ds.map decimal) := by
  have hlen : 2 ≤ files.length := by
    rw [h.files, List.length_map]
    rcases ds with _ | ⟨a, _ | ⟨b, ds⟩⟩
    · simp at hd1
    · simp at hd1 hd2; exact absurd (hd1.trans hd2.symm) hne
    · simp
  have hfne : files ≠ [] := by rintro rfl; simp at hlen
  obtain ⟨h3, h4, h5⟩ := lt_spec files hfne
  have hmem : ∀ d ∈ ds, p ++ d ++ s ∈ files := fun d hd => by rw [h.files]; exact List.mem_map.mpr ⟨d, hd, rfl⟩
  have hnum : files.all (fun f => numeric (middle (leadingTrailing files).1.length (leadingTrailing files).2.length f)) = true := by
    rw [List.all_eq_true]
    intro f hf
    rw [numeric_iff]
    have hf' := hf
    rw [h.files, List.mem_map] at hf'
    obtain ⟨d, hd, rfl⟩ := hf'
    have hL : (leadingTrailing files).1.length + (leadingTrailing files).2.length < (p ++ d ++ s).length := by
      have := common_length (p ++ d1 ++ s) (p ++ d2 ++ s) (by simp [hn d1 hd1, hn d2 hd2])
        (fun e => hne (List.append_cancel_left (List.append_cancel_right e))) _ _ (h3 _ (hmem d1 hd1)).1 (h3 _ (hmem d2 hd2)).1 (h3 _ (hmem d1 hd1)).2 (h3 _ (hmem d2 hd2)).2
      simpa [hn d1 hd1, hn d hd] using this
    have h8 := middle_split _ _ _ (h3 _ hf).1 (h3 _ hf).2 hL.le
    obtain ⟨x, hx⟩ : p <+: (leadingTrailing files).1 := h4 p fun f hf => by
      rw [h.files, List.mem_map] at hf
      obtain ⟨d, -, rfl⟩ := hf
      rw [List.append_assoc]
      exact List.prefix_append _ _
    obtain ⟨y, hy⟩ : s <:+ (leadingTrailing files).2 := h5 s fun f hf => by
      rw [h.files, List.mem_map] at hf
      obtain ⟨d, -, rfl⟩ := hf
      exact List.suffix_append _ _
    obtain ⟨m, hm⟩ : ∃ m, m = middle (leadingTrailing files).1.length (leadingTrailing files).2.length (p ++ d ++ s) := ⟨_, rfl⟩
    rw [← hm] at h8 ⊢
    rw [← hx, ← hy] at h8 hL
    have h9 : p ++ (x ++ m ++ y) ++ s = p ++ d ++ s := by rw [← h8]; simp only [List.append_assoc]
    have h10 : x ++ m ++ y = d := List.append_cancel_left (List.append_cancel_right h9)
    refine ⟨?_, fun c hc => (h.digits d hd).2 c (by rw [← h10]; simp [hc])⟩
    rintro rfl
    rw [← h10] at hL
    simp at hL
    omega
  have hsome : ∃ l, pullFramenumbers files = some l := by
    unfold pullFramenumbers
    rw [if_neg (by omega)]
    dsimp only
    rw [if_pos hnum]
    exact ⟨_, rfl⟩
  obtain ⟨l, hl⟩ := hsome
  rw [hl, frames_meaning p s ds files h hlen l hl]

/-! The dict -/

theorem get_set_same {α : Type} (d : Dict α) (k : Name) (v : α) : Dict.get (Dict.set d k v) k = some v := by
  unfold Dict.get Dict.set
  split_ifs with h
  · induction d with
    | nil => simp at h
    | cons p d ih =>
      by_cases hp : p.1 = k
      · simp [hp]
      · have h' : k ∈ List.map Prod.fst d := by
          rcases List.mem_cons.mp (by simpa using h : k ∈ p.1 :: d.map Prod.fst) with e | e
          · exact absurd e.symm hp
          · exact e
        have := ih h'
        rw [List.map_cons, if_neg hp, List.find?_cons_of_neg (by simpa using hp)]
        exact this
  · rw [List.find?_append]
    have : List.find? (fun p => decide (p.1 = k)) d = none := by
      rw [List.find?_eq_none]
      intro p hp hk
      exact h (List.mem_map.mpr ⟨p, hp, by simpa using hk⟩)
    simp [this]

theorem get_set_other {α : Type} (d : Dict α) (k k' : Name) (v : α) (h : k' ≠ k) : Dict.get (Dict.set d k v) k' = Dict.get d k' := by
  unfold Dict.get Dict.set
  split_ifs with hk
  · congr 1
    clear hk
    induction d with
    | nil => rfl
    | cons p d ih =>
      by_cases hp : p.1 = k
      · have h1 : ¬ p.1 = k' := fun e => h (e.symm.trans hp)
        have h2 : ¬ k = k' := fun e => h e.symm
        simp only [List.map_cons, if_pos hp, List.find?_cons, h2, h1, decide_false]
        exact ih
      · by_cases hp' : p.1 = k'
        · rw [List.map_cons, if_neg hp, List.find?_cons_of_pos (by simpa using hp'), List.find?_cons_of_pos (by simpa using hp')]
        · rw [List.map_cons, if_neg hp, List.find?_cons_of_neg (by simpa using hp'), List.find?_cons_of_neg (by simpa using hp')]
          exact ih
  · rw [List.find?_append]
    have : ¬ k = k' := fun e => h e.symm
    cases hf : List.find? (fun p => decide (p.1 = k')) d <;> simp [this]

/-- updating with the files of one camera -/
theorem update_get (c : Nat) (l : List (Name × Nat)) (hnd : (l.map Prod.fst).Nodup) : ∀ (d : Dict (Nat × Nat)) (k : Name),
    Dict.get (l.foldl (fun d p => Dict.set d p.1 (p.2, c)) d) k = ((List.find? (fun p => p.1 = k) l).map fun p => (p.2, c)).or (Dict.get d k) := by
  induction l with
  | nil => intro d k; simp
  | cons p l ih =>
    intro d k
    rw [List.map_cons, List.nodup_cons] at hnd
    rw [List.foldl_cons, ih hnd.2]
    by_cases hp : p.1 = k
    · have : List.find? (fun q => decide (q.1 = k)) l = none := by
        rw [List.find?_eq_none]
        intro q hq hk
        exact hnd.1 (List.mem_map.mpr ⟨q, hq, by rw [hp]; simpa using hk⟩)
      rw [this, List.find?_cons]
      subst hp
      simp [get_set_same]
    · rw [get_set_other _ _ _ _ (Ne.symm hp), List.find?_cons]
      simp [hp]

theorem framenumbers_length (N : Nat) (files : List Name) (fr : List Nat) (h : framenumbers N files = some fr) : fr.length = files.length := by
  unfold framenumbers at h
  split at h
  · rename_i l hl
    cases h
    unfold pullFramenumbers at hl
    split_ifs at hl with h1
    · cases hl; simp [h1]
    · dsimp only at hl
      split_ifs at hl
      cases hl
      simp
  · split_ifs at h
    cases h
    simp

theorem loop_get (N : Nat) (cams : List (List Name)) : ∀ (c0 : Nat) (d m : Dict (Nat × Nat)), cams.flatten.Nodup → mappingLoop N c0 cams d = some m →
    (∀ (c : Nat) (files : List Name), cams[c]? = some files → ∃ fr, framenumbers N files = some fr ∧ ∀ (i : Nat) (f : Name) (n : Nat), files[i]? = some f → fr[i]? = some n → Dict.get m f = some (n, c0 + c))
    ∧ ∀ f, f ∉ cams.flatten → Dict.get m f = Dict.get d f := by
  induction cams with
  | nil =>
    intro c0 d m _ h
    simp only [mappingLoop, Option.some.injEq] at h
    subst h
    simp
  | cons files0 cams ih =>
    intro c0 d m hnd h
    simp only [mappingLoop] at h
    rcases hfr : framenumbers N files0 with _ | fr
    · simp [hfr] at h
    rw [hfr] at h
    have h : mappingLoop N (c0 + 1) cams ((files0.zip fr).foldl (fun d p => Dict.set d p.1 (p.2, c0)) d) = some m := h
    rw [List.flatten_cons, List.nodup_append] at hnd
    obtain ⟨n1, n2, n3⟩ := hnd
    obtain ⟨h1, h2⟩ := ih _ _ _ n2 h
    have hlen := framenumbers_length N files0 fr hfr
    have hkeys : (files0.zip fr).map Prod.fst = files0 := List.map_fst_zip (by omega)
    have hup := update_get c0 (files0.zip fr) (by rw [hkeys]; exact n1)
    refine ⟨?_, ?_⟩
    · intro c files hc
      cases c with
      | zero =>
        simp at hc
        subst hc
        refine ⟨fr, hfr, ?_⟩
        intro i f n hf hn
        have hnot : f ∉ cams.flatten := fun hm => n3 f (List.mem_of_getElem? hf) f hm rfl
        rw [h2 f hnot, hup]
        have hz : (files0.zip fr)[i]? = some (f, n) := List.getElem?_zip_eq_some.mpr ⟨hf, hn⟩
        have hfind : List.find? (fun p => decide (p.1 = f)) (files0.zip fr) = some (f, n) := by
          rcases hres : List.find? (fun p => decide (p.1 = f)) (files0.zip fr) with _ | ⟨f', n'⟩
          · rw [List.find?_eq_none] at hres
            exact absurd (by simp) (hres _ (List.mem_of_getElem? hz))
          · have e1 : f' = f := by simpa using List.find?_some hres
            subst e1
            obtain ⟨j, hj⟩ := List.getElem?_of_mem (List.mem_of_find?_eq_some hres)
            have hj' := List.getElem?_zip_eq_some.mp hj
            have hij : i = j := by
              have hi1 : i < files0.length := (List.getElem?_eq_some_iff.mp hf).1
              exact (List.getElem?_inj hi1 n1).mp (hf.trans hj'.1.symm)
            subst hij
            have e2 : n = n' := Option.some.inj (hn.symm.trans hj'.2)
            rw [e2]
            exact hres
        rw [hfind]
        simp
      | succ c =>
        obtain ⟨fr', e1, e2⟩ := h1 c files (by simpa using hc)
        refine ⟨fr', e1, ?_⟩
        intro i f n hf hn
        rw [e2 i f n hf hn]
        congr 2
        omega
    · intro f hf
      rw [List.flatten_cons, List.mem_append, not_or] at hf
      rw [h2 f hf.2, hup]
      have : List.find? (fun p => decide (p.1 = f)) (files0.zip fr) = none := by
        rw [List.find?_eq_none]
        intro p hp hk
        apply hf.1
        rw [← hkeys]
        exact List.mem_map.mpr ⟨p, hp, by simpa using hk⟩
      simp [this]

theorem mapping_get (cams : List (List Name)) (hnd : cams.flatten.Nodup) (m : Dict (Nat × Nat)) (h : mappingFile cams = some m) :
    (∀ (c : Nat) (files : List Name), cams[c]? = some files → files ≠ [] ∧ ∃ fr, framenumbers cams.length files = some fr ∧ ∀ (i : Nat) (f : Name) (n : Nat), files[i]? = some f → fr[i]? = some n → Dict.get m f = some (n, c))
    ∧ ∀ f, f ∉ cams.flatten → Dict.get m f = none := by
  unfold mappingFile at h
  split_ifs at h with he
  obtain ⟨h1, h2⟩ := loop_get cams.length cams 0 [] m hnd h
  refine ⟨?_, fun f hf => by rw [h2 f hf]; rfl⟩
  intro c files hc
  refine ⟨?_, by simpa using h1 c files hc⟩
  rintro rfl
  apply he
  rw [List.any_eq_true]
  exact ⟨[], List.mem_of_getElem? hc, rfl⟩

/-- **mapping_file_framenocameraindex() reports the number in the name and the camera**: the names of the images of each camera are a fixed string, a number, and another fixed string (each camera may have its own strings). There are at
least two cameras, each with at least two images. If the call succeeds, each image is reported with the number in its name, and the index of its camera. So images of different cameras with the same number have the same frame number.
Files that weren't given aren't reported -/
theorem mapping_meaning (cams : List (List Name)) (hnd : cams.flatten.Nodup) (hN : 2 ≤ cams.length) (p s : Nat → Name) (ds : Nat → List Name)
    (hcam : ∀ (c : Nat) (files : List Name), cams[c]? = some files → 2 ≤ files.length ∧ Numbered (p c) (s c) (ds c) files)
    (m : Dict (Nat × Nat)) (h : mappingFile cams = some m) :
    (∀ c, c < cams.length → ∀ d ∈ ds c, Dict.get m (p c ++ d ++ s c) = some (decimal d, c))
    ∧ ∀ f, f ∉ cams.flatten → Dict.get m f = none := by
  obtain ⟨h1, h2⟩ := mapping_get cams hnd m h
  refine ⟨?_, h2⟩
  intro c hc d hd
  obtain ⟨files, hf⟩ : ∃ files, cams[c]? = some files := ⟨_, List.getElem?_eq_getElem hc⟩
  obtain ⟨-, fr, e1, e2⟩ := h1 c files hf
  obtain ⟨hl, hnum⟩ := hcam c files hf
  have hpull : pullFramenumbers files = some fr := by
    unfold framenumbers at e1
    split at e1
    · rename_i l hl; rw [hl]; exact e1
    · rw [if_neg (by omega)] at e1; cases e1
  have hfr := frames_meaning _ _ _ _ hnum hl fr hpull
  obtain ⟨i, hi⟩ := List.getElem?_of_mem hd
  refine e2 i _ _ ?_ ?_
  · rw [hnum.files, List.getElem?_map, hi]; rfl
  · rw [hfr, List.getElem?_map, hi]; rfl

theorem loop_some (N : Nat) (cams : List (List Name)) : ∀ (c0 : Nat) (d : Dict (Nat × Nat)), (∃ m, mappingLoop N c0 cams d = some m) ↔ ∀ files ∈ cams, framenumbers N files ≠ none := by
  induction cams with
  | nil => intro c0 d; simp [mappingLoop]
  | cons files cams ih =>
    intro c0 d
    rcases hfr : framenumbers N files with _ | fr
    · simp [mappingLoop, hfr]
    · have : mappingLoop N c0 (files :: cams) d = mappingLoop N (c0 + 1) cams ((files.zip fr).foldl (fun d p => Dict.set d p.1 (p.2, c0)) d) := by simp [mappingLoop, hfr]
      rw [this, ih]
      simp [hfr]

/-- **When the call succeeds**: each camera must have an image. One camera is always accepted. With more cameras, those with more than one image must have numbers in their file names that can be found -/
theorem mapping_accepted (cams : List (List Name)) :
    (∃ m, mappingFile cams = some m) ↔ (∀ files ∈ cams, files ≠ []) ∧ (cams.length = 1 ∨ ∀ files ∈ cams, pullFramenumbers files ≠ none) := by
  unfold mappingFile
  by_cases he : cams.any List.isEmpty = true
  · rw [if_pos he]
    rw [List.any_eq_true] at he
    obtain ⟨f, hf, hf'⟩ := he
    constructor
    · rintro ⟨m, hm⟩; cases hm
    · rintro ⟨h, -⟩; exact absurd (List.isEmpty_iff.mp hf') (h f hf)
  · rw [if_neg he, loop_some]
    have hne : ∀ files ∈ cams, files ≠ [] := by
      rintro files hf rfl
      apply he
      rw [List.any_eq_true]
      exact ⟨[], hf, rfl⟩
    constructor
    · intro h
      refine ⟨hne, ?_⟩
      by_cases h1 : cams.length = 1
      · exact Or.inl h1
      · right
        intro files hf hp
        apply h files hf
        unfold framenumbers
        rw [hp]
        simp [h1]
    · rintro ⟨-, h⟩ files hf
      unfold framenumbers
      rcases hp : pullFramenumbers files with _ | l
      · rcases h with h | h
        · simp [h]
        · exact absurd hp (h files hf)
      · simp

/-- With just one camera, if the numbers cannot be found, each image is its own frame, in the given order -/
theorem mapping_sequential (files : List Name) (hnd : files.Nodup) (hp : pullFramenumbers files = none) (m : Dict (Nat × Nat)) (h : mappingFile [files] = some m) (i : Nat) (f : Name) (hf : files[i]? = some f) : Dict.get m f = some (i, 0) := by
  obtain ⟨h1, -⟩ := mapping_get [files] (by simpa using hnd) m h
  obtain ⟨-, fr, e1, e2⟩ := h1 0 files rfl
  unfold framenumbers at e1
  rw [hp] at e1
  simp at e1
  refine e2 i f i hf ?_
  rw [← e1]
  have : i < files.length := (List.getElem?_eq_some_iff.mp hf).1
  simp [this]

/-- a camera with one image: its frame number is 0 -/
theorem frames_single (f : Name) : pullFramenumbers [f] = some [0] := rfl

/-- **The frame numbers are NOT always found, although the file names are of the form that is asked for** ('something..number..something', where the somethings are common to all the filenames). The numbers 1 and 10 are a string common
to all the names (the digit 1), followed by nothing in the first name, and this is not accepted. All the numbers that start with the same digits, one of which is just those digits, are refused this way -/
theorem frames_unpadded_wrong (p s d : Name) (es : List Name) (hd : Digits d) (he : ∀ e ∈ es, ∀ c ∈ e, c.isDigit = true) (hes : es ≠ []) (hp : ∀ c, p.getLast? = some c → c.isDigit = false) (hs : ∀ c, s.head? = some c → c.isDigit = false) :
    Numbered p s (d :: es.map (d ++ ·)) ((d :: es.map (d ++ ·)).map fun d => p ++ d ++ s) ∧ pullFramenumbers ((d :: es.map (d ++ ·)).map fun d => p ++ d ++ s) = none := by
  refine ⟨⟨rfl, ?_, hp, hs⟩, ?_⟩
  · intro x hx
    rcases List.mem_cons.mp hx with rfl | hx
    · exact hd
    · rw [List.mem_map] at hx
      obtain ⟨e, hm, rfl⟩ := hx
      refine ⟨fun h => hd.1 (List.append_eq_nil_iff.mp h).1, ?_⟩
      intro c hc
      rcases List.mem_append.mp hc with hc | hc
      · exact hd.2 c hc
      · exact he e hm c hc
  · obtain ⟨files, hfiles⟩ : ∃ x, x = (d :: es.map (d ++ ·)).map fun d => p ++ d ++ s := ⟨_, rfl⟩
    rw [← hfiles]
    have hlen : files.length ≠ 1 := by
      rw [hfiles]
      simp
      exact hes
    have hmem : p ++ d ++ s ∈ files := by rw [hfiles]; simp
    obtain ⟨-, h4, h5⟩ := lt_spec files (List.ne_nil_of_mem hmem)
    unfold pullFramenumbers
    rw [if_neg hlen]
    dsimp only
    rw [if_neg]
    rw [List.all_eq_true]
    intro h
    have h6 := middle_nonempty _ _ _ ((numeric_iff _).mp (h _ hmem)).1
    have h7 : (p ++ d).length ≤ (leadingTrailing files).1.length := by
      apply List.IsPrefix.length_le
      apply h4
      intro f hf
      rw [hfiles, List.mem_map] at hf
      obtain ⟨x, hx, rfl⟩ := hf
      rcases List.mem_cons.mp hx with rfl | hx
      · exact List.prefix_append _ _
      · rw [List.mem_map] at hx
        obtain ⟨e, -, rfl⟩ := hx
        refine ⟨e ++ s, by simp⟩
    have h8 : s.length ≤ (leadingTrailing files).2.length := by
      apply List.IsSuffix.length_le
      apply h5
      intro f hf
      rw [hfiles, List.mem_map] at hf
      obtain ⟨x, -, rfl⟩ := hf
      exact List.suffix_append _ _
    simp only [List.length_append] at h6 h7
    omega

/-! Two cameras: the images 08, 09, 10 of the first one, and 09, 19 of the second one -/

def cam0 : List Name := ["img08-cam2.jpg".toList, "img09-cam2.jpg".toList, "img10-cam2.jpg".toList]
def cam1 : List Name := ["img09-cam3.jpg".toList, "img19-cam3.jpg".toList]

theorem cam0_numbered : Numbered "img".toList "-cam2.jpg".toList ["08".toList, "09".toList, "10".toList] cam0 := by
  refine ⟨by decide, ?_, ?_, ?_⟩
  · intro d hd
    simp only [List.mem_cons, List.not_mem_nil, or_false] at hd
    unfold Digits
    rcases hd with rfl | rfl | rfl <;> decide
  · intro c hc
    have : c = 'g' := by simpa using hc.symm
    subst this
    decide
  · intro c hc
    have : c = '-' := by simpa using hc.symm
    subst this
    decide

theorem cam1_numbered : Numbered "img".toList "-cam3.jpg".toList ["09".toList, "19".toList] cam1 := by
  refine ⟨by decide, ?_, ?_, ?_⟩
  · intro d hd
    simp only [List.mem_cons, List.not_mem_nil, or_false] at hd
    unfold Digits
    rcases hd with rfl | rfl <;> decide
  · intro c hc
    have : c = 'g' := by simpa using hc.symm
    subst this
    decide
  · intro c hc
    have : c = '-' := by simpa using hc.symm
    subst this
    decide

/-- the digit 9 is common to all the names of the second camera, and still is a part of the frame number -/
example : pullFramenumbers cam1 = some [9, 19] := by
  rw [frames_padded _ _ _ _ cam1_numbered 2 (by decide) "09".toList "19".toList (by decide) (by decide) (by decide)]
  decide

def camS (c : Nat) : Name := if c = 0 then "-cam2.jpg".toList else "-cam3.jpg".toList
def camD (c : Nat) : List Name := if c = 0 then ["08".toList, "09".toList, "10".toList] else ["09".toList, "19".toList]

theorem cams_numbered (c : Nat) (files : List Name) (hc : [cam0, cam1][c]? = some files) : 2 ≤ files.length ∧ Numbered "img".toList (camS c) (camD c) files := by
  rcases c with _ | _ | c
  · have : files = cam0 := (Option.some.inj hc).symm
    subst this
    exact ⟨by decide, cam0_numbered⟩
  · have : files = cam1 := (Option.some.inj hc).symm
    subst this
    exact ⟨by decide, cam1_numbered⟩
  · simp at hc

example : ∃ m, mappingFile [cam0, cam1] = some m ∧ Dict.get m ("img".toList ++ "09".toList ++ "-cam2.jpg".toList) = some (9, 0) ∧ Dict.get m ("img".toList ++ "09".toList ++ "-cam3.jpg".toList) = some (9, 1) := by
  have e : decimal "09".toList = 9 := by decide
  obtain ⟨m, hm⟩ := (mapping_accepted [cam0, cam1]).mpr ⟨by decide, Or.inr (by decide)⟩
  obtain ⟨h, -⟩ := mapping_meaning [cam0, cam1] (by decide) (by decide) (fun _ => "img".toList) camS camD cams_numbered m hm
  have h0 := h 0 (by decide) "09".toList (by decide)
  have h1 := h 1 (by decide) "09".toList (by decide)
  rw [e] at h0 h1
  exact ⟨m, hm, h0, h1⟩

/-- the images 1 and 10 of two cameras -/
example : mappingFile [["img1-cam0.jpg".toList, "img10-cam0.jpg".toList], ["img1-cam1.jpg".toList, "img10-cam1.jpg".toList]] = none := by
  rcases h : mappingFile [["img1-cam0.jpg".toList, "img10-cam0.jpg".toList], ["img1-cam1.jpg".toList, "img10-cam1.jpg".toList]] with _ | m
  · rfl
  · exfalso
    rcases ((mapping_accepted _).mp ⟨m, h⟩).2 with h1 | h1
    · exact absurd h1 (by decide)
    · refine h1 _ (List.mem_cons_self) (frames_unpadded_wrong "img".toList "-cam0.jpg".toList "1".toList ["0".toList] ?_ ?_ ?_ ?_ ?_).2
      · unfold Digits; decide
      · decide
      · decide
      · intro c hc
        have : c = 'g' := by simpa using hc.symm
        subst this
        decide
      · intro c hc
        have : c = '-' := by simpa using hc.symm
        subst this
        decide

/-- one camera, no numbers -/
example : ∃ m, mappingFile [["left.jpg".toList, "right.jpg".toList]] = some m ∧ Dict.get m "right.jpg".toList = some (1, 0) := by
  obtain ⟨m, hm⟩ := (mapping_accepted [["left.jpg".toList, "right.jpg".toList]]).mpr ⟨by decide, Or.inl rfl⟩
  exact ⟨m, hm, mapping_sequential _ (by decide) (by decide) m hm 1 _ rfl⟩

end Mrcal.Corners

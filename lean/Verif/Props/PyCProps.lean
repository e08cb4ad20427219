import Verif.Props.PyRoundProps
/-
C87: .cameramodel files written by Python are read by C, and the other way around: both readers see the same model.
-/
namespace Mrcal.ModelPy
open Mrcal.Name Mrcal.CamModel Mrcal.ModelFile

/-! ### what we expect -/

/-- the same model, in C and in Python -/
structure Agree (m : Model) (o : Obj ℚ (List ℚ)) : Prop where
  lens : fromName (some o.lensmodel) = .ok m.lens
  intrinsics : m.intrinsics = o.intrinsics
  pose : m.rt_cam_ref = o.rt_cam_ref
  imagersize : ((m.imagersize.1 : Int), (m.imagersize.2 : Int)) = o.imagersize

/-! ### the region -/

theorem filler_append {a b : List Char} (ha : Filler a) (hb : Filler b) : Filler (a ++ b) := by
  induction ha with
  | nil => exact hb
  | junk hc _ ih => exact .junk hc ih
  | ws hc _ ih => exact .ws hc ih
  | comment h1 _ ih => rw [List.cons_append, List.append_assoc, List.cons_append]; exact .comment h1 ih

theorem filler_digits {s : List Char} (h : Digits s) : Filler s := by
  induction s with
  | nil => exact .nil
  | cons c s ih => exact .junk (Or.inl (h c List.mem_cons_self)) (ih fun x hx => h x (List.mem_cons_of_mem _ hx))

theorem filler_withFrac {a b : List Char} (ha : Digits a) (hb : Digits b) : Filler (withFrac a b) := by
  unfold withFrac
  refine filler_append (filler_digits ha) ?_
  split
  · exact .nil
  · exact .junk (by simp) (filler_digits (rstrip0_digits hb))

theorem digit_one {c : Char} (h : '0' ≤ c ∧ c ≤ '9') : Digits [c] := by
  intro d hd
  rw [List.mem_singleton.1 hd]; exact h

/-- there's no "+" in the exponent if the number isn't large -/
theorem filler_gText (m : Nat) (e : Int) (he : e < 10) : Filler (gText m e) := by
  have hd := printNat_Digits m
  unfold gText
  split
  · split
    · exact filler_withFrac (dig_take hd _) (dig_drop hd _)
    · exact filler_withFrac (digit_one (by decide)) (dig_append (zeros_Digits _) hd)
  · rw [if_pos (by omega)]
    exact filler_append (filler_withFrac (dig_take hd _) (dig_drop hd _)) (.junk (by simp) (.junk (by simp) (filler_digits (pad2_Digits (printNat_Digits _)))))

theorem filler_g10 (q : ℚ) (hq : |q| ≤ 1000000000) : Filler (printG10 q) := by
  by_cases h0 : q = 0
  · rw [h0]
    show Filler ['0']
    exact .junk (by decide) .nil
  · rw [printG10_eq q h0]
    refine filler_append (by split; exacts [.junk (by simp) .nil, .nil]) (filler_gText _ _ ?_)
    obtain ⟨h1, h2, h3⟩ := sci10_spec |q| (abs_pos.2 h0)
    by_contra hc
    have h4 : (1 : Int) ≤ (sci10 |q|).2 - 9 := by omega
    have h5 : (10 : ℚ) ≤ (10 : ℚ) ^ ((sci10 |q|).2 - 9) := by
      calc (10 : ℚ) = (10 : ℚ) ^ (1 : ℤ) := by norm_num
        _ ≤ _ := zpow_le_zpow_right₀ (by norm_num) h4
    have h6 : ((10 ^ 9 : Nat) : ℚ) ≤ ((sci10 |q|).1 : ℚ) := Nat.cast_le.2 h1
    have h7 : (10 : ℚ) ^ 10 ≤ (sci10 |q|).1 * (10 : ℚ) ^ ((sci10 |q|).2 - 9) := by
      calc (10 : ℚ) ^ 10 = ((10 ^ 9 : Nat) : ℚ) * 10 := by norm_num
        _ ≤ _ := mul_le_mul h6 h5 (by norm_num) (by positivity)
    have h8 := (abs_le.1 h3).1
    norm_num at h7
    linarith

theorem nest_rows (r : List (ℚ × ℚ)) (h : ∀ p ∈ r, |p.1| ≤ 1000000000 ∧ |p.2| ≤ 1000000000) : ∀ f, Filler f →
    Nest 1 (f ++ (r.flatMap (fun p => rowText (printG10 p.1) (printG10 p.2) ++ [',']) ++ ['\n', ']'])) := by
  induction r with
  | nil =>
    intro f hf
    have := Nest.last (f := f ++ ['\n']) (c := ']') (filler_append hf (.ws (by simp) .nil)) (by simp)
    simpa using this
  | cons p r ih =>
    intro f hf
    obtain ⟨h1, h2⟩ := h p List.mem_cons_self
    have hin := ih (fun q hq => h q (List.mem_cons_of_mem _ hq)) [','] (.junk (by simp) .nil)
    have hmid : Filler (' ' :: (printG10 p.1 ++ [',']) ++ (' ' :: printG10 p.2 ++ [' '])) :=
      filler_append (.ws (by simp) (filler_append (filler_g10 _ h1) (.junk (by simp) .nil))) (.ws (by simp) (filler_append (filler_g10 _ h2) (.ws (by simp) .nil)))
    have h3 := Nest.closes (d := 0) (c := ']') hmid (by simp) hin
    have h4 := Nest.opens (d := 1) (c := '[') (f := f ++ ['\n', ' ', ' ', ' ', ' ']) (filler_append hf (.ws (by simp) (.ws (by simp) (.ws (by simp) (.ws (by simp) (.ws (by simp) .nil)))))) (by simp) h3
    unfold rowText at h4 ⊢
    simpa [List.append_assoc] using h4

theorem numText_head {t : FloatTok} {c : Char} {l : List Char} (h : NumText t (c :: l)) : ('0' ≤ c ∧ c ≤ '9') ∨ c = '-' ∨ c = '.' ∨ c = 'e' ∨ c = 'E' := by
  obtain ⟨e, h1, h2, h3, h4⟩ := h
  obtain ⟨neg, int, frac, exp⟩ := t
  dsimp only at h1 h2 h3 h4
  cases neg with
  | true => rw [if_pos rfl] at h4; simp at h4; tauto
  | false =>
    rw [if_neg (by simp), List.nil_append] at h4
    cases int with
    | cons d int =>
      rw [List.cons_append] at h4
      injection h4 with h4 _
      rw [h4]; exact Or.inl (h1 d List.mem_cons_self)
    | nil =>
      cases frac with
      | some f => simp [fracText] at h4; tauto
      | none =>
        simp only [fracText, List.nil_append] at h4
        cases h3 with
        | none => simp at h4
        | plain he _ _ => injection h4 with h4 _; rw [h4]; tauto
        | plus he _ _ => injection h4 with h4 _; rw [h4]; tauto
        | minus he _ _ => injection h4 with h4 _; rw [h4]; tauto

theorem other_list (s : List Char) (h : Nest 0 (' ' :: '[' :: s)) : OtherText (' ' :: '[' :: s) := by
  refine .list h ?_
  intro a tok r t ha ht hs
  left
  cases tok with
  | nil => rfl
  | cons c tok =>
    exfalso
    have hc := numText_head ht
    cases ha with
    | nil =>
      rw [List.nil_append, List.cons_append] at hs
      injection hs with hs _
      rw [← hs] at hc
      revert hc; decide
    | ws h1 h2 =>
      rw [List.cons_append] at hs
      injection hs with _ hs
      cases h2 with
      | nil =>
        rw [List.nil_append, List.cons_append] at hs
        injection hs with hs _
        rw [← hs] at hc
        revert hc; decide
      | ws h3 _ =>
        rw [List.cons_append] at hs
        injection hs with hs _
        rw [← hs] at h3
        revert h3; decide
      | comment _ _ => simp at hs
    | comment _ _ => simp at hs

theorem enRegion_c {ign : List Char} (hi : Ign ign) (r : List (ℚ × ℚ)) (h : ∀ p ∈ r, |p.1| ≤ 1000000000 ∧ |p.2| ≤ 1000000000) : CGood (enRegion ign r) .other := by
  refine ⟨hi, by show Plain "valid_intrinsics_region".toList; unfold Plain; decide, .other (key := "valid_intrinsics_region".toList) (by decide) (other_list _ ?_)⟩
  exact Nest.opens (f := [' ']) (.ws (by simp) .nil) (by simp) (nest_rows r h [] .nil)

/-! ### C reads what Python writes -/

theorem numParams_ok {name : List Char} {n : Nat} (h : numParams name = some n) : ∃ L, fromName (some name) = .ok L ∧ L.numParams.toNat = n := by
  unfold numParams at h
  cases hf : fromName (some name) with
  | ok L => rw [hf] at h; exact ⟨L, rfl, Option.some.inj h⟩
  | _ => rw [hf] at h; simp at h

theorem key_ii : "icam_intrinsics".toList ∉ ["lensmodel".toList, "intrinsics".toList, "extrinsics".toList, "rt_cam_ref".toList, "imagersize".toList] := by decide
theorem key_ie : "icam_extrinsics".toList ∉ ["lensmodel".toList, "intrinsics".toList, "extrinsics".toList, "rt_cam_ref".toList, "imagersize".toList] := by decide
theorem key_opt : "optimization_inputs".toList ∉ ["lensmodel".toList, "intrinsics".toList, "extrinsics".toList, "rt_cam_ref".toList, "imagersize".toList] := by decide

theorem c_opt (i : Option OptIn) (h : ∀ j, i = some j → ∀ c ∈ j.s, Printable c) :
    ∃ es : List (En × Entry), es.map Prod.fst = entriesOpt i ∧ (∀ e ∈ es, CGood e.1 e.2) ∧ ∃ n, es.map Prod.snd = List.replicate n .other := by
  rcases i with _ | ⟨s, ii, _ | ie⟩
  · exact ⟨[], rfl, by simp, 0, rfl⟩
  · have h1 := h _ rfl
    refine ⟨[(_, .other), (_, .other)], rfl, ?_, 2, rfl⟩
    intro e he
    simp only [List.mem_cons, List.not_mem_nil, or_false] at he
    rcases he with rfl | rfl
    · exact enInt_c pign_nlnl4.ign plain_ii key_ii ii
    · exact enBytes_c pign_ignOpt.ign plain_opt key_opt (printable_plain h1)
  · have h1 := h _ rfl
    refine ⟨[(_, .other), (_, .other), (_, .other)], rfl, ?_, 3, rfl⟩
    intro e he
    simp only [List.mem_cons, List.not_mem_nil, or_false] at he
    rcases he with rfl | rfl | rfl
    · exact enInt_c pign_nlnl4.ign plain_ii key_ii ii
    · exact enInt_c pign_nl4.ign plain_ie key_ie ie
    · exact enBytes_c pign_ignOpt.ign plain_opt key_opt (printable_plain h1)

theorem c_region (region : Option (List (ℚ × ℚ))) (h : ∀ r, region = some r → ∀ p ∈ r, |p.1| ≤ 1000000000 ∧ |p.2| ≤ 1000000000) :
    ∃ es : List (En × Entry), es.map Prod.fst = entriesRegion region ∧ (∀ e ∈ es, CGood e.1 e.2) ∧ ∃ n, es.map Prod.snd = List.replicate n .other := by
  cases region with
  | none => exact ⟨[], rfl, by simp, 0, rfl⟩
  | some r =>
    refine ⟨[(_, .other)], rfl, ?_, 1, rfl⟩
    intro e he
    rw [List.mem_singleton.1 he]
    exact enRegion_c pign_nlnl4.ign r (h r rfl)

theorem filterMap_other {α : Type} (f : Entry → Option α) (hf : f .other = none) (n : Nat) : (List.replicate n Entry.other).filterMap f = [] := by
  induction n with
  | zero => rfl
  | succ n ih => rw [List.replicate_succ, List.filterMap_cons, hf]; exact ih

theorem noLens_other (n : Nat) : NoLens (List.replicate n .other) := ⟨filterMap_other _ rfl n, filterMap_other _ rfl n⟩

/-- the entries of files that Python writes -/
theorem describes_python (L : Lens) (v rt : List ℚ) (w h n k : Nat) (hv : (v.length : Int) = L.numParams) (hw : 0 < w) :
    Describes ([.lensmodel L, .intrinsics v] ++ (List.replicate n .other ++ ([.extrinsics rt, .extrinsics rt, .imagersize w h] ++ List.replicate k .other))) ⟨L, v, rt, (w, h)⟩ := by
  refine ⟨⟨[], [], List.replicate n .other ++ ([.extrinsics rt, .extrinsics rt, .imagersize w h] ++ List.replicate k .other), rfl, ⟨rfl, rfl⟩, ⟨rfl, rfl⟩, ?_⟩, hv, ⟨[rt], ?_, ?_⟩, ⟨[], ?_, by simp, hw⟩⟩
  · constructor
    · rw [List.filterMap_append, List.filterMap_append, filterMap_other _ rfl, filterMap_other _ rfl]; rfl
    · rw [List.filterMap_append, List.filterMap_append, filterMap_other _ rfl, filterMap_other _ rfl]; rfl
  · rw [List.filterMap_append, List.filterMap_append, List.filterMap_append, filterMap_other _ rfl, filterMap_other _ rfl]; rfl
  · intro x hx p hp
    rw [List.mem_singleton.1 hx] at hp
    rw [zip_same rt p hp]; norm_num
  · rw [List.filterMap_append, List.filterMap_append, List.filterMap_append, filterMap_other _ rfl, filterMap_other _ rfl]; rfl

/-- **C87**: C can read the files that Python writes, if no coordinate of the valid-intrinsics region is larger than 1e9. Both readers see the same model -/
theorem c_reads_python (note : List (List Char)) (o : Obj ℚ (List ℚ)) (i : Option OptIn) (h : PyWritable note o i)
    (hr : ∀ r, o.region = some r → ∀ p ∈ r, |p.1| ≤ 1000000000 ∧ |p.2| ≤ 1000000000) :
    ∃ text o' m, write note o = some text ∧ read text = some o' ∧ readCameramodelString text = some m ∧ Agree m o' := by
  obtain ⟨L, hL, hn⟩ := numParams_ok h.count
  have hpos := numParams_pos L
  obtain ⟨hw, hw', hh, hh'⟩ := h.size
  refine ⟨_, _, ⟨L, o.intrinsics.map round10, o.rt_cam_ref.map round10, (o.imagersize.1.toNat, o.imagersize.2.toNat)⟩, write_some h, read_write h, ?_, ?_⟩
  · obtain ⟨res, re, rg, n, rn⟩ := c_region o.region hr
    obtain ⟨oes, oe, og, k, on⟩ := c_opt i fun j hj => (h.optIn j hj).1
    rw [read_iff, nonul_takeWhile (nonul_write note o i h), writeText_eq note o i h.opt]
    refine ⟨_, ?_, describes_python L _ _ _ _ n k (by simp; omega) (by omega)⟩
    have hg1 : CGood (enStr "\n    ".toList "lensmodel".toList o.lensmodel) (.lensmodel L) :=
      ⟨pign_nl4.ign, plain_lens, .lensmodel (name := o.lensmodel) ⟨[' ', ' '], [], '\'', '\'', ign_2, Or.inl rfl, Or.inr rfl, Or.inr rfl, (plain_quotes (printable_plain h.name)).1, (plain_quotes (printable_plain h.name)).2, rfl⟩ hL⟩
    have hg2 : CGood (enNums (ignIntrinsics o.lensmodel) "intrinsics".toList o.intrinsics) (.intrinsics (o.intrinsics.map round10)) :=
      ⟨(pign_intrinsics _).ign, plain_intr, .intrinsics (enNums_list _ (by rintro h0; rw [h0] at hn; simp at hn; omega) h.intrinsics)⟩
    have hne : o.rt_cam_ref ≠ [] := by intro h0; have := h.rt; rw [h0] at this; simp at this
    have hg3 : CGood (enNums "\n\n    ".toList "rt_cam_ref".toList o.rt_cam_ref) (.extrinsics (o.rt_cam_ref.map round10)) :=
      ⟨pign_nlnl4.ign, plain_rt, .rt_cam_ref (enNums_list _ hne h.pose) (by simpa using h.rt)⟩
    have hg4 : CGood (enNums "\n    ".toList "extrinsics".toList o.rt_cam_ref) (.extrinsics (o.rt_cam_ref.map round10)) :=
      ⟨pign_nl4.ign, plain_ext, .extrinsics (enNums_list _ hne h.pose) (by simpa using h.rt)⟩
    have hg5 := enSize_c pign_size.ign o.imagersize.1 o.imagersize.2 hw hw' hh hh'
    have hf := file_commas (pre := noteText note) (tail := tailOf i) (r := ['\n'])
      ([(enStr "\n    ".toList "lensmodel".toList o.lensmodel, Entry.lensmodel L), (enNums (ignIntrinsics o.lensmodel) "intrinsics".toList o.intrinsics, .intrinsics (o.intrinsics.map round10))] ++ (res ++
        ([(enNums "\n\n    ".toList "rt_cam_ref".toList o.rt_cam_ref, .extrinsics (o.rt_cam_ref.map round10)), (enNums "\n    ".toList "extrinsics".toList o.rt_cam_ref, .extrinsics (o.rt_cam_ref.map round10)),
          (enSize ignSize o.imagersize.1 o.imagersize.2, .imagersize o.imagersize.1.toNat o.imagersize.2.toNat)] ++ oes))) (by simp) (by
        intro e he
        simp only [List.mem_append, List.mem_cons, List.not_mem_nil, or_false] at he
        rcases he with (rfl | rfl) | he | (rfl | rfl | rfl) | he
        exacts [hg1, hg2, rg e he, hg3, hg4, hg5, og e he]) (pign_note note h.note).1.ign (pign_tail i).ign ign_nl
    have e1 : ∀ es : List (En × Entry), es.flatMap (fun e => e.1.text ++ [',']) = (es.map Prod.fst).flatMap (fun e => e.text ++ [',']) := fun es => by rw [List.flatMap_map]
    rw [e1] at hf
    simp only [List.map_append, rn, on, re, oe] at hf
    exact hf
  · refine ⟨hL, rfl, rfl, ?_⟩
    unfold roundObj
    dsimp only
    rw [Int.toNat_of_nonneg hw.le, Int.toNat_of_nonneg hh.le]

/-! ### Python reads what C writes -/

theorem printF6_numTok (q : ℚ) (hq : Finite q) : ∃ v, NumTok (printF6 q) v ∧ Rounded q v := by
  obtain ⟨v, ⟨t, h1, h2, h3, h4⟩, h5⟩ := printF6_tok q hq
  exact ⟨v, ⟨t, h1, h2.1, h3, h4, fun h => absurd h h2.2⟩, h5⟩

theorem f6_toks (l : List ℚ) (h : ∀ v ∈ l, Finite v) : ∃ ts : List (List Char × ℚ), ts.map Prod.fst = l.map printF6 ∧ Toks ts ∧ List.Forall₂ Rounded l (ts.map Prod.snd) := by
  induction l with
  | nil => exact ⟨[], rfl, by intro p hp; simp at hp, .nil⟩
  | cons v l ih =>
    obtain ⟨ts, h1, h2, h3⟩ := ih fun x hx => h x (List.mem_cons_of_mem _ hx)
    obtain ⟨w, k1, k2⟩ := printF6_numTok v (h v List.mem_cons_self)
    refine ⟨(printF6 v, w) :: ts, by simp [h1], ?_, .cons k2 h3⟩
    intro p hp
    rcases List.mem_cons.1 hp with rfl | hp
    · exact k1
    · exact h2 p hp

theorem flat_toks (l : List ℚ) (r : List Char) : ' ' :: ((l.flatMap fun v => printF6 v ++ [',', ' ']) ++ r) = toksText (l.map printF6) ++ ' ' :: r := by
  induction l with
  | nil => rfl
  | cons v l ih =>
    have e : ∀ s, (printF6 v ++ [',', ' ']) ++ s = printF6 v ++ ',' :: ' ' :: s := fun s => by simp
    rw [List.flatMap_cons, List.append_assoc, e, ih]
    simp [toksText]

/-- a list of numbers without the last comma, read by Python -/
theorem py_toks_last (l : List (List Char × ℚ)) (h : Toks l) {s : List Char} {v : ℚ} (hv : NumTok s v) : ∃ x : Lit, x.nums = some (l.map Prod.snd ++ [v]) ∧
    ∀ n a r, PIgn a → pyLit (n + 2) (a ++ '[' :: (toksText (l.map Prod.fst) ++ (([' '] ++ s) ++ ([' '] ++ ']' :: r)))) = some (x, r) := by
  obtain ⟨items, h1, h2, h3⟩ := toks_items l h
  obtain ⟨y, hy, hy'⟩ := item_num hv
  refine ⟨.list (items.map Prod.snd ++ [y]), ?_, ?_⟩
  · simp only [Lit.nums, Lit.elems, Option.bind_eq_bind, Option.bind_some, List.mapM_append, h3, List.mapM_cons, List.mapM_nil, hy]
    rfl
  · intro n a r ha
    rw [← h1]
    exact pyLit_last (n + 1) items ha pign_1 (h2 n) (hy' n [' '] _ pign_1 (stop_space _))

theorem items_last {α : Type} (P : List Char → α → Prop) (l : List (List Char × α)) (h : ∀ p ∈ l, P p.1 p.2) {s : List Char} {v : α} (hv : P s v) :
    ItemsText P (l.map Prod.snd ++ [v]) (toksText (l.map Prod.fst) ++ ([' '] ++ (s ++ [' ']))) := by
  induction l with
  | nil => exact (ItemsText.last ign_1 hv ign_1 : ItemsText P [v] ([' '] ++ (s ++ [' '])))
  | cons p l ih =>
    have := ItemsText.cons ign_1 (h p List.mem_cons_self) .nil (ih fun x hx => h x (List.mem_cons_of_mem _ hx))
    simpa [toksText] using this

/-- the same, read by C -/
theorem c_list_last {α : Type} (P : List Char → α → Prop) (l : List (List Char × α)) (h : ∀ p ∈ l, P p.1 p.2) {s : List Char} {v : α} (hv : P s v) :
    ListText P (l.map Prod.snd ++ [v]) ([' '] ++ '[' :: (toksText (l.map Prod.fst) ++ (([' '] ++ s) ++ ([' '] ++ [']'])))) := by
  refine ⟨[' '], '[', _, [], ']', ign_1, Or.inl rfl, items_last P l h hv, .nil, Or.inl rfl, ?_⟩
  simp

/-! ### names of lenses -/

/-- this has no "DI" -/
def noDI : Char → List Char → Bool
  | _, [] => true
  | p, c :: s => !(p == 'D' && c == 'I') && noDI c s

theorem noDI_noI (b : List Char) (hb : 'I' ∉ b) : ∀ p, noDI p b = true := by
  induction b with
  | nil => exact fun _ => rfl
  | cons c b ih =>
    intro p
    have h1 : (c == 'I') = false := by
      rw [beq_eq_false_iff_ne]; rintro rfl; exact hb List.mem_cons_self
    rw [noDI, h1, Bool.and_false, Bool.not_false, Bool.true_and]
    exact ih (fun h => hb (List.mem_cons_of_mem _ h)) c

theorem noDI_append (a b : List Char) (hb : 'I' ∉ b) : ∀ p, noDI p a = true → noDI p (a ++ b) = true := by
  induction a with
  | nil => exact fun p _ => noDI_noI b hb p
  | cons c a ih =>
    intro p h
    rw [noDI, Bool.and_eq_true] at h
    rw [List.cons_append, noDI, Bool.and_eq_true]
    exact ⟨h.1, ih c h.2⟩

theorem noDI_infix (s : List Char) : ∀ p, noDI p s = true → ¬ "DISTORTION".toList <:+: s := by
  induction s with
  | nil => intro p _ h; rw [List.infix_nil] at h; simp at h
  | cons c s ih =>
    intro p h hi
    rw [noDI, Bool.and_eq_true] at h
    rcases List.infix_cons_iff.1 hi with hp | hi
    · have e : "DISTORTION".toList = 'D' :: 'I' :: "STORTION".toList := by decide
      rw [e] at hp
      obtain ⟨t, ht⟩ := hp
      rw [List.cons_append, List.cons_append] at ht
      injection ht with h1 h2
      rw [← h1, ← h2, noDI] at h
      simp at h
    · exact ih c h.2 hi

theorem noI_digits {s : List Char} (h : Digits s) : 'I' ∉ s := fun hc => absurd (h _ hc) (by decide)

theorem noI_append {a b : List Char} (ha : 'I' ∉ a) (hb : 'I' ∉ b) : 'I' ∉ a ++ b := by
  intro hc
  rcases List.mem_append.1 hc with h | h
  exacts [ha h, hb h]

theorem isDigit_digitChar {n : Nat} (h : n < 10) : '0' ≤ digitChar n ∧ digitChar n ≤ '9' := by
  match n, h with
  | 0, _ | 1, _ | 2, _ | 3, _ | 4, _ | 5, _ | 6, _ | 7, _ | 8, _ | 9, _ => constructor <;> decide

theorem noI_F2 (l : ℚ) : 'I' ∉ printF2 l := by
  unfold printF2
  refine noI_append (noI_append ?_ (noI_digits (printNat_Digits _))) ?_
  · split <;> decide
  · intro hc
    simp only [List.mem_cons, List.not_mem_nil, or_false] at hc
    rcases hc with h | h | h
    · exact absurd h (by decide)
    · have := isDigit_digitChar (n := (roundHalfEven ((if l < 0 then -l else l) * 100)).toNat % 100 / 10) (by omega)
      rw [← h] at this
      exact absurd this (by decide)
    · have := isDigit_digitChar (n := (roundHalfEven ((if l < 0 then -l else l) * 100)).toNat % 10) (by omega)
      rw [← h] at this
      exact absurd this (by decide)

/-- names of lenses don't contain what Python translates -/
theorem name_noDist (L : Lens) : ¬ "DISTORTION".toList <:+: fullName L := by
  apply noDI_infix _ ' '
  cases L with
  | cahvore l =>
    rw [fullName]
    exact noDI_append _ _ (noI_F2 l) _ (noDI_append _ _ (by decide) _ (by decide))
  | splined o x y f =>
    rw [fullName]
    have hd := fun n => noI_digits (printNat_Digits n)
    exact noDI_append _ _ (hd _) _ (noDI_append _ _ (by decide) _ (noDI_append _ _ (hd _) _ (noDI_append _ _ (by decide) _ (noDI_append _ _ (hd _) _ (noDI_append _ _ (by decide) _ (noDI_append _ _ (hd _) _ (noDI_append _ _ (by decide) _ (by decide))))))))
  | _ => decide

def printableB (c : Char) : Bool := decide (' ' ≤ c) && decide (c ≤ '~') && decide (c ≠ '\'') && decide (c ≠ '"') && decide (c ≠ '\\')

theorem printableB_iff (c : Char) : printableB c = true ↔ Printable c := by
  unfold printableB Printable
  simp only [Bool.and_eq_true, decide_eq_true_eq]
  tauto

theorem pr_append {a b : List Char} (ha : ∀ c ∈ a, printableB c = true) (hb : ∀ c ∈ b, printableB c = true) : ∀ c ∈ a ++ b, printableB c = true := by
  intro c hc
  rcases List.mem_append.1 hc with h | h
  exacts [ha c h, hb c h]

theorem digit_printable {c : Char} (h : '0' ≤ c ∧ c ≤ '9') : printableB c = true := by
  rw [printableB_iff]
  refine ⟨Char.le_trans (by decide) h.1, Char.le_trans h.2 (by decide), ?_, ?_, ?_⟩
  all_goals rintro rfl; exact absurd h (by decide)

theorem pr_digits {s : List Char} (h : Digits s) : ∀ c ∈ s, printableB c = true := fun c hc => digit_printable (h c hc)

theorem pr_F2 (l : ℚ) : ∀ c ∈ printF2 l, printableB c = true := by
  unfold printF2
  refine pr_append (pr_append ?_ (pr_digits (printNat_Digits _))) ?_
  · split <;> decide
  · intro c hc
    simp only [List.mem_cons, List.not_mem_nil, or_false] at hc
    rcases hc with rfl | rfl | rfl
    · decide
    all_goals exact digit_printable (isDigit_digitChar (by omega))

theorem name_printable (L : Lens) : ∀ c ∈ fullName L, Printable c := by
  intro c hc
  rw [← printableB_iff]
  revert c
  cases L with
  | cahvore l =>
    rw [fullName]
    exact pr_append (pr_append (by decide) (by decide)) (pr_F2 l)
  | splined o x y f =>
    rw [fullName]
    have hd := fun n => pr_digits (printNat_Digits n)
    exact pr_append (pr_append (pr_append (pr_append (pr_append (pr_append (pr_append (pr_append (by decide) (by decide)) (hd _)) (by decide)) (hd _)) (by decide)) (hd _)) (by decide)) (hd _)
  | _ => decide

/-! ### the file -/

theorem read_of_ext {s : List Char} {d : List (Lit × Lit)} {name : List Char} {lI lext lz : Lit} {intr rt : List ℚ} {z : Int × Int} (hd : literalEval s = some d)
    (h1 : lookup d "lensmodel" = some (.str name)) (h2 : lookup d "intrinsics" = some lI) (h3 : lookup d "extrinsics" = some lext) (h4 : lookup d "rt_cam_ref" = none)
    (h5 : lookup d "imagersize" = some lz) (h6 : lookup d "valid_intrinsics_region" = none) (h7 : lookup d "optimization_inputs" = none)
    (h8 : (lookup d "icam_intrinsics").or (lookup d "icam_intrinsics_optimization_inputs") = none) (h9 : lookup d "icam_extrinsics" = none)
    (k1 : ¬ "DISTORTION".toList <:+: name) (k2 : lI.nums = some intr) (k3 : lext.nums = some rt) (k5 : readSize lz = some z)
    (k8 : numParams name = some intr.length) (k9 : rt.length = 6) :
    read s = some ⟨z, name, intr, none, rt, none, none, none⟩ := by
  have hpose : readPose (some lext) none = some rt := by
    unfold readPose
    simp only [k3, Option.bind_eq_bind, Option.bind_some, k9, if_true]
  have hreg : readRegion none = some none := rfl
  have hopt : readOpt none none none = some (none, none, none) := rfl
  unfold read
  simp only [hd, Option.bind_eq_bind, Option.bind_some, h1, h2, h3, h4, h5, h6, h7, h8, h9, Option.some_or, Lit.string]
  rw [replace_id _ _ _ k1]
  simp only [k2, Option.bind_some, hpose, k5, hreg, hopt]
  rw [if_pos k8]

theorem readSize_of {x : Lit} (w h : Nat) (hx : x.nums = some [(w : ℚ), (h : ℚ)]) (hw : 0 < w) (hw' : w < 2 ^ 31) (hh : 0 < h) (hh' : h < 2 ^ 31) : readSize x = some ((w : Int), (h : Int)) := by
  unfold readSize
  rw [hx]
  have c1 : (0 : ℚ) < (w : ℚ) := Nat.cast_pos.2 hw
  have c2 : (0 : ℚ) < (h : ℚ) := Nat.cast_pos.2 hh
  have c3 : (w : ℚ) < 2 ^ 31 := by exact_mod_cast hw'
  have c4 : (h : ℚ) < 2 ^ 31 := by exact_mod_cast hh'
  have f1 : ∀ n : Nat, (n : ℚ).floor = (n : Int) := fun n => by
    have := Rat.floor_intCast (n : Int)
    simpa using this
  simp only [f1]
  rw [if_pos]
  refine ⟨c1, c2, ?_, ?_, c3, c4⟩ <;> simp

theorem printNat_numTok (n : Nat) (h : n < 2 ^ 31) : NumTok (printNat n) n := by
  have := printInt_numTok (n : Int) (int_bound (by simp; omega))
  unfold printInt at this
  rw [if_neg (by omega)] at this
  simpa using this

/-- **C87**: Python can read the files that C writes, if neither dimension of the imager is 0. Both readers see the same model; its numbers have 6 digits after the decimal point -/
theorem python_reads_c (m : Model) (hm : Writable m) (hh0 : 0 < m.imagersize.2) :
    ∃ text m' o', writeModel m = some text ∧ readCameramodelString text = some m' ∧ ReadBack m m' ∧ read text = some o' ∧ Agree m' o' ∧ o'.region = none ∧ o'.opt = none := by
  obtain ⟨L', hL1, hL2, hL3⟩ := name_back m.lens hm.lens
  have hname : lensmodelName 1024 m.lens = (fullName m.lens, true) := by
    have hlen := name_length m.lens hm.lens
    unfold lensmodelName
    rw [List.take_of_length_le (by omega)]
    simp only [Prod.mk.injEq, decide_eq_true_eq, true_and]
    omega
  obtain ⟨lens, intr, rt, ⟨w, h⟩⟩ := m
  obtain ⟨hfit, hcount, hif, hrt, hrf, hw0, hw, hh⟩ := hm
  dsimp only at *
  match rt, hrt with
  | [x0, x1, x2, x3, x4, x5], _ =>
  have hpos := numParams_pos lens
  obtain ⟨ti, a1, a2, a3⟩ := f6_toks intr hif
  obtain ⟨te, b1, b2, b3⟩ := f6_toks [x0, x1, x2, x3, x4] (fun v hv => hrf v (by simp only [List.mem_cons, List.not_mem_nil, or_false] at hv ⊢; tauto))
  obtain ⟨y5, c1, c2⟩ := printF6_numTok x5 (hrf x5 (by simp))
  have hlen := a3.length_eq
  have hlen' := b3.length_eq
  have hti : ti ≠ [] := by
    rintro rfl
    simp at hlen
    rw [hlen] at hcount
    simp at hcount
    omega
  have hpn := printable_plain (name_printable lens)
  -- the entries
  obtain ⟨e1, he1⟩ : ∃ e : En, e = enStr ['\n', ' ', ' '] "lensmodel".toList (fullName lens) := ⟨_, rfl⟩
  obtain ⟨e2, he2⟩ : ∃ e : En, e = ⟨['\n', ' ', ' '], "intrinsics".toList, [' '] ++ '[' :: (toksText (ti.map Prod.fst) ++ ([' '] ++ [']']))⟩ := ⟨_, rfl⟩
  obtain ⟨e3, he3⟩ : ∃ e : En, e = ⟨['\n', ' ', ' '], "imagersize".toList, [' '] ++ '[' :: (toksText [printNat w] ++ (([' '] ++ printNat h) ++ ([' '] ++ [']'])))⟩ := ⟨_, rfl⟩
  obtain ⟨e4, he4⟩ : ∃ e : En, e = ⟨['\n', ' ', ' '], "extrinsics".toList, [' '] ++ '[' :: (toksText (te.map Prod.fst) ++ (([' '] ++ printF6 x5) ++ ([' '] ++ [']'])))⟩ := ⟨_, rfl⟩
  have pign : PIgn ['\n', ' ', ' '] := .ws (by simp) pign_2
  -- read by C
  have g1 : CGood e1 (.lensmodel L') := by
    rw [he1]
    exact ⟨ign_nl2, plain_lens, .lensmodel (str_key _ ign_2 _ (plain_quotes hpn).1 (plain_quotes hpn).2) hL1⟩
  have g2 : CGood e2 (.intrinsics (ti.map Prod.snd)) := by
    rw [he2]
    exact ⟨ign_nl2, plain_intr, .intrinsics ⟨_, _, _, _, _, ign_1, Or.inl rfl, c_toks Number ti hti (fun p hp => (a2 p hp).number), ign_1, Or.inl rfl, rfl⟩⟩
  have g3 : CGood e3 (.imagersize w h) := by
    rw [he3]
    exact ⟨ign_nl2, by show Plain "imagersize".toList; unfold Plain; decide, .imagersize (c_list_last UintText [(printNat w, w)] (by simpa using printNat_uint w hw) (printNat_uint h hh))⟩
  have g4 : CGood e4 (.extrinsics (te.map Prod.snd ++ [y5])) := by
    rw [he4]
    exact ⟨ign_nl2, plain_ext, .extrinsics (c_list_last Number te (fun p hp => (b2 p hp).number) c1.number) (by simp at hlen' ⊢; omega)⟩
  -- read by Python
  have p1 : PGood e1 (.str (fullName lens)) := by rw [he1]; exact enStr_py pign plain_lens hpn
  obtain ⟨l2, n2, p2⟩ : ∃ x : Lit, x.nums = some (ti.map Prod.snd) ∧ PGood e2 x := by
    obtain ⟨x, k1, k2⟩ := py_toks ti a2 pign_1
    refine ⟨x, k1, ?_⟩
    rw [he2]
    refine ⟨pign, plain_intr, ?_⟩
    intro n r
    have := k2 (n + 1) [' '] (',' :: r) pign_1
    simpa using this
  obtain ⟨l3, n3, p3⟩ : ∃ x : Lit, readSize x = some ((w : Int), (h : Int)) ∧ PGood e3 x := by
    obtain ⟨x, k1, k2⟩ := py_toks_last [(printNat w, (w : ℚ))] (by intro p hp; rw [List.mem_singleton.1 hp]; exact printNat_numTok w hw) (printNat_numTok h hh)
    refine ⟨x, readSize_of w h k1 hw0 hw hh0 hh, ?_⟩
    rw [he3]
    refine ⟨pign, by show Plain "imagersize".toList; unfold Plain; decide, ?_⟩
    intro n r
    have := k2 (n + 1) [' '] (',' :: r) pign_1
    simpa using this
  obtain ⟨l4, n4, p4⟩ : ∃ x : Lit, x.nums = some (te.map Prod.snd ++ [y5]) ∧ ∀ n r, pyLit (n + 3) (e4.val ++ r) = some (x, r) := by
    obtain ⟨x, k1, k2⟩ := py_toks_last te b2 c1
    refine ⟨x, k1, ?_⟩
    rw [he4]
    intro n r
    have := k2 (n + 1) [' '] r pign_1
    simpa using this
  -- the text
  obtain ⟨text, htext⟩ : ∃ text, text = [] ++ '{' :: ([(e1, Lit.str (fullName lens)), (e2, l2), (e3, l3)].flatMap (fun e => e.1.text ++ [',']) ++ (e4.text ++ (['\n'] ++ '}' :: ['\n']))) := ⟨_, rfl⟩
  have hwrite : writeModel ⟨lens, intr, [x0, x1, x2, x3, x4, x5], (w, h)⟩ = some text := by
    unfold writeModel
    rw [hname, htext, he1, he2, he3, he4]
    unfold En.text enStr
    dsimp only
    rw [if_neg (by decide), a1, b1]
    refine congrArg some ?_
    simp only [List.flatMap_cons, List.flatMap_nil, List.append_assoc, List.nil_append, List.append_nil, List.cons_append]
    rw [← flat_toks intr]
    simp only [toksText, List.map_cons, List.map_nil, List.flatMap_cons, List.flatMap_nil, List.append_assoc, List.nil_append, List.append_nil, List.cons_append]
    rfl
  have hnul : NoNul text := by
    have hF : ∀ s : List Char, (∀ c ∈ s, printableB c = true) → NoNul s := fun s hs => printable_nonul fun c hc => (printableB_iff c).1 (hs c hc)
    have ht : ∀ ts : List (List Char × ℚ), Toks ts → NoNul (toksText (ts.map Prod.fst)) := by
      intro ts hts
      refine nonul_flatMap _ _ ?_
      intro s hs
      obtain ⟨p, hp, rfl⟩ := List.mem_map.1 hs
      exact nonul_cons (by decide) (nonul_append (nonul_num (hts p hp)) (nonul_cons (by decide) nonul_nil))
    have i1 := printable_nonul (name_printable lens)
    have i2 := ht ti a2
    have i3 : NoNul (toksText [printNat w]) := nonul_flatMap _ _ (by
      intro s hs
      rw [List.mem_singleton.1 hs]
      exact nonul_cons (by decide) (nonul_append (nonul_digits (printNat_Digits w)) (nonul_cons (by decide) nonul_nil)))
    have i4 := nonul_digits (printNat_Digits h)
    have i5 := ht te b2
    have i6 := nonul_num c1
    have j1 : NoNul "lensmodel".toList := by unfold NoNul; decide
    have j2 : NoNul "intrinsics".toList := by unfold NoNul; decide
    have j3 : NoNul "imagersize".toList := by unfold NoNul; decide
    have j4 : NoNul "extrinsics".toList := by unfold NoNul; decide
    rw [htext, he1, he2, he3, he4]
    unfold En.text enStr
    simp only [List.flatMap_cons, List.flatMap_nil, List.append_assoc, List.nil_append, List.append_nil, List.cons_append]
    generalize toksText (ti.map Prod.fst) = T1 at *
    generalize toksText [printNat w] = T2 at *
    generalize toksText (te.map Prod.fst) = T3 at *
    generalize printNat h = T4 at *
    generalize printF6 x5 = T5 at *
    generalize "lensmodel".toList = K1 at *
    generalize "intrinsics".toList = K2 at *
    generalize "imagersize".toList = K3 at *
    generalize "extrinsics".toList = K4 at *
    repeat' first | exact nonul_nil | exact nonul_cons (by decide) nonul_nil | refine nonul_cons (by decide) ?_ | refine nonul_append (by assumption) ?_
  refine ⟨text, ⟨L', ti.map Prod.snd, te.map Prod.snd ++ [y5], (w, h)⟩, ⟨((w : Int), (h : Int)), fullName lens, ti.map Prod.snd, none, te.map Prod.snd ++ [y5], none, none, none⟩, hwrite, ?_, ?_, ?_, ⟨hL1, rfl, rfl, rfl⟩, rfl, rfl⟩
  · rw [read_iff, nonul_takeWhile hnul, htext]
    refine ⟨[.lensmodel L', .intrinsics (ti.map Prod.snd), .imagersize w h, .extrinsics (te.map Prod.snd ++ [y5])], ?_,
      ⟨[], [], [.imagersize w h, .extrinsics (te.map Prod.snd ++ [y5])], rfl, ⟨rfl, rfl⟩, ⟨rfl, rfl⟩, ⟨rfl, rfl⟩⟩, ?_, ⟨[], rfl, by simp⟩, ⟨[], rfl, by simp, hw0⟩⟩
    · refine ⟨[], _, ['\n'], .nil, .cons g1.entry .nil (.cons g2.entry .nil (.cons g3.entry .nil (.last g4.entry ign_nl))), ign_nl, ?_⟩
      simp
    · dsimp only
      rw [hL3, ← hcount, hlen]
  · refine ⟨hL2, a3, ?_, rfl⟩
    exact List.rel_append b3 (.cons c2 .nil : List.Forall₂ Rounded [x5] [y5])
  · have hev := literalEval_last (pre := []) (tail := ['\n']) (r := ['\n']) [(e1, Lit.str (fullName lens)), (e2, l2), (e3, l3)] e4 l4 (by rw [← htext]; exact fun hc => hnul _ hc rfl)
      ⟨.nil, Or.inl rfl, by simp⟩ pign_nl pign_nl (by
        intro e he
        simp only [List.mem_cons, List.not_mem_nil, or_false] at he
        rcases he with rfl | rfl | rfl
        exacts [p1, p2, p3]) ⟨by rw [he4]; exact pign, by rw [he4]; exact plain_ext, fun n => p4 n _⟩
    rw [← htext] at hev
    rw [he1, he2, he3, he4] at hev
    refine read_of_ext hev rfl rfl rfl rfl rfl rfl rfl rfl rfl (name_noDist lens) n2 n4 n3 ?_ (by simp at hlen' ⊢; omega)
    unfold numParams
    rw [hL1]
    dsimp only
    rw [hL3, ← hcount, ← hlen]
    simp

end Mrcal.ModelPy

import Verif.Model.CornerTools
import Mathlib.Tactic.Linarith
import Mathlib.Tactic.Ring
import Mathlib.Data.List.Nodup
import Mathlib.Data.List.GetD
import Mathlib.Data.List.Sort
/-
C105: mrcal-rotate-corners
-/
namespace Mrcal.CornerTools

/-! ### specification -/

/-- the file: the lines of each image, one image after another -/
def flat {F : Type} (images : List (F × List String)) : List (F × String) := images.flatMap fun b => b.2.map fun line => (b.1, line)

/-- The board is turned about its center. In the image a corner is in the column x and the row y (of `n` columns and rows); in the turned board it's in the column c and the row r. A quarter turn takes (u,v), relative
to the center, to (v,-u) -/
def Turned (n : Nat) (x y c r : Int) : Turn → Prop
  | .t0 => 2 * c - (n - 1) = 2 * x - (n - 1) ∧ 2 * r - (n - 1) = 2 * y - (n - 1)
  | .t90 => 2 * c - (n - 1) = 2 * y - (n - 1) ∧ 2 * r - (n - 1) = -(2 * x - (n - 1))
  | .t180 => 2 * c - (n - 1) = -(2 * x - (n - 1)) ∧ 2 * r - (n - 1) = -(2 * y - (n - 1))
  | .t270 => 2 * c - (n - 1) = -(2 * y - (n - 1)) ∧ 2 * r - (n - 1) = 2 * x - (n - 1)

/-- the turn back -/
def Turn.back : Turn → Turn
  | .t0 => .t0
  | .t90 => .t270
  | .t180 => .t180
  | .t270 => .t90

/-! ### lemmas -/

/-- the place of a corner after the turn -/
def place (n : Nat) (j : Nat) : Turn → Nat
  | .t0 => j
  | .t90 => (n - 1 - j % n) * n + j / n
  | .t180 => n * n - 1 - j
  | .t270 => (j % n) * n + (n - 1 - j / n)

theorem divmod {n a b : Nat} (hb : b < n) : (a * n + b) / n = a ∧ (a * n + b) % n = b := by
  have hn : 0 < n := by omega
  constructor
  · rw [Nat.mul_comm, Nat.mul_add_div hn, Nat.div_eq_of_lt hb]; rfl
  · rw [Nat.mul_comm, Nat.mul_add_mod, Nat.mod_eq_of_lt hb]

theorem grid_lt {n a b : Nat} (ha : a < n) (hb : b < n) : a * n + b < n * n := by nlinarith

theorem sub_lt' {n b : Nat} (h : b < n) : n - 1 - b < n := by omega

theorem sub_sub' {n b : Nat} (h : b < n) : n - 1 - (n - 1 - b) = b := by omega

theorem place_lt {n j : Nat} (hj : j < n * n) (t : Turn) : place n j t < n * n := by
  have hn : 0 < n := Nat.pos_of_ne_zero (by rintro rfl; simp at hj)
  have h1 : j % n < n := Nat.mod_lt _ hn
  have h2 : j / n < n := Nat.div_lt_of_lt_mul hj
  cases t
  · exact hj
  · exact grid_lt (by omega) h2
  · show n * n - 1 - j < n * n
    omega
  · exact grid_lt h1 (sub_lt' h2)

theorem place_back {n j : Nat} (hj : j < n * n) (t : Turn) : place n (place n j t) t.back = j := by
  have hn : 0 < n := Nat.pos_of_ne_zero (by rintro rfl; simp at hj)
  have h1 : j % n < n := Nat.mod_lt _ hn
  have h2 : j / n < n := Nat.div_lt_of_lt_mul hj
  have h3 : j / n * n + j % n = j := by rw [Nat.mul_comm]; exact Nat.div_add_mod j n
  cases t
  · rfl
  · simp only [place, Turn.back]
    obtain ⟨e1, e2⟩ := divmod (a := n - 1 - j % n) h2
    rw [e1, e2, show n - 1 - (n - 1 - j % n) = j % n by omega]
    exact h3
  · simp only [place, Turn.back]
    omega
  · simp only [place, Turn.back]
    obtain ⟨e1, e2⟩ := divmod (a := j % n) (b := n - 1 - j / n) (n := n) (sub_lt' h2)
    rw [e1, e2, sub_sub' h2]
    exact h3

theorem back_back (t : Turn) : t.back.back = t := by cases t <;> rfl

theorem icorner_place {F : Type} {n j : Nat} (hj : j < n * n) (p : Option F) (t : Turn) : icorner (n : Int) ⟨(j : Int), ((j % n : Nat) : Int), ((j / n : Nat) : Int), p⟩ t = (place n j t : Nat) := by
  have hn : 0 < n := Nat.pos_of_ne_zero (by rintro rfl; simp at hj)
  have h1 : j % n < n := Nat.mod_lt _ hn
  have h2 : j / n < n := Nat.div_lt_of_lt_mul hj
  cases t <;> simp only [icorner, place]
  · push_cast [Nat.cast_sub (show j % n ≤ n - 1 by omega), Nat.cast_sub (show 1 ≤ n by omega)]
    rfl
  · push_cast [Nat.cast_sub (show j ≤ n * n - 1 by omega), Nat.cast_sub (show 1 ≤ n * n by omega)]
    rfl
  · push_cast [Nat.cast_sub (show j / n ≤ n - 1 by omega), Nat.cast_sub (show 1 ≤ n by omega)]
    rfl

/-- the variables at the j-th line of a file -/
def stAt {F : Type} (n j : Nat) (f : F) : St F := ⟨(j : Int), ((j % n : Nat) : Int), ((j / n : Nat) : Int), some f⟩

theorem advance_same {F : Type} [DecidableEq F] {n : Nat} (hn : 0 < n) (j : Nat) (f : F) : advance (n : Int) (stAt n j f) f = some (stAt n (j + 1) f) := by
  unfold advance stAt
  rw [if_neg (by simp)]
  simp only
  have hm : j % n < n := Nat.mod_lt _ hn
  by_cases h : j % n + 1 = n
  · rw [if_pos (by exact_mod_cast h)]
    have e1 : (j + 1) % n = 0 := by
      have : (j + 1) = n * (j / n + 1) := by
        have := Nat.div_add_mod j n
        rw [Nat.mul_add]; omega
      rw [this]; simp
    have e2 : (j + 1) / n = j / n + 1 := by
      have : (j + 1) = n * (j / n + 1) := by
        have := Nat.div_add_mod j n
        rw [Nat.mul_add]; omega
      rw [this, Nat.mul_div_cancel_left _ hn]
    rw [e1, e2]; push_cast; rfl
  · rw [if_neg (by exact_mod_cast h)]
    have hj : j + 1 = j / n * n + (j % n + 1) := by
      have := Nat.div_add_mod j n
      rw [Nat.mul_comm]; omega
    obtain ⟨e1, e2⟩ := divmod (n := n) (a := j / n) (b := j % n + 1) (by omega)
    rw [← hj] at e1 e2
    rw [e1, e2]; push_cast; rfl

/-- the lines of one image with icorner, starting at the j-th -/
def keyed {F : Type} (n : Nat) (sel : F → Turn) (f : F) (j : Nat) (lines : List String) : List (Int × F × String) :=
  (lines.zipIdx j).map fun x => (icorner (n : Int) (stAt n x.2 f) (sel f), f, x.1)

theorem filter1_same {F : Type} [DecidableEq F] {n : Nat} (hn : 0 < n) (sel : F → Turn) (f : F) (lines : List String) (rest : List (F × String)) : ∀ j,
    filter1 (n : Int) sel (stAt n j f) (lines.map (fun l => (f, l)) ++ rest) =
      (filter1 (n : Int) sel (stAt n (j + lines.length) f) rest).map fun r => (keyed n sel f (j + 1) lines ++ r.1, r.2) := by
  induction lines with
  | nil => intro j; simp [keyed]
  | cons l lines ih =>
    intro j
    simp only [List.map_cons, List.cons_append, filter1, advance_same hn, Option.bind_some]
    rw [ih (j + 1)]
    simp only [List.length_cons, Option.map_map, keyed, List.zipIdx_cons, List.map_cons, List.cons_append]
    rw [show j + 1 + lines.length = j + (lines.length + 1) by omega]
    rfl

theorem filter1_image {F : Type} [DecidableEq F] {n : Nat} (hn : 0 < n) (sel : F → Turn) (f : F) (lines : List String) (hl : lines ≠ []) (rest : List (F × String)) (s : St F) (hs : s.prev ≠ some f) :
    filter1 (n : Int) sel s (lines.map (fun l => (f, l)) ++ rest) =
      if good (n : Int) s = false then none
      else (filter1 (n : Int) sel (stAt n (lines.length - 1) f) rest).map fun r => (keyed n sel f 0 lines ++ r.1, r.2) := by
  cases lines with
  | nil => exact absurd rfl hl
  | cons l lines =>
    have h0 : (⟨0, 0, 0, some f⟩ : St F) = stAt n 0 f := by simp [stAt]
    simp only [List.map_cons, List.cons_append, filter1, advance]
    rw [if_pos (fun h => hs h.symm)]
    by_cases hg : good (n : Int) s = false
    · rw [if_pos hg, if_pos hg]; rfl
    · rw [if_neg hg, if_neg hg, Option.bind_some, h0, filter1_same hn sel f lines rest 0]
      simp only [Option.map_map, keyed, List.zipIdx_cons, List.map_cons, List.length_cons, Nat.zero_add, Nat.add_sub_cancel, List.cons_append]
      rfl

theorem good_at {F : Type} (n j : Nat) (f : F) : good (n : Int) (stAt n j f) = true ↔ j + 1 = 1 ∨ j + 1 = n * n := by
  unfold good stAt
  simp only [Bool.or_eq_true, decide_eq_true_eq]
  have : ((j : Int) + 1 = (n : Int) * n) ↔ j + 1 = n * n := by norm_cast
  rw [this]
  constructor
  · rintro ((h | h) | h)
    · omega
    · exact Or.inl (by omega)
    · exact Or.inr h
  · rintro (h | h)
    · exact Or.inl (Or.inr (by omega))
    · exact Or.inr h

open Classical in
theorem filter1_all {F : Type} [DecidableEq F] {n : Nat} (hn : 0 < n) (sel : F → Turn) (images : List (F × List String)) : ∀ s : St F,
    (∀ b ∈ images, b.2 ≠ []) → images.IsChain (fun a b => a.1 ≠ b.1) → (∀ b, images.head? = some b → s.prev ≠ some b.1) →
    ((filter1 (n : Int) sel s (flat images)).bind fun r => if good (n : Int) r.2 = false then none else some r.1) =
      if good (n : Int) s = true ∧ ∀ b ∈ images, b.2.length = 1 ∨ b.2.length = n * n then some (images.flatMap fun b => keyed n sel b.1 0 b.2) else none := by
  induction images with
  | nil =>
    intro s _ _ _
    simp only [flat, List.flatMap_nil, filter1, Option.bind_some]
    cases good (n : Int) s <;> simp
  | cons b images ih =>
    intro s hne hch hs
    have hb : b.2 ≠ [] := hne b (by simp)
    have hlen : b.2.length - 1 + 1 = b.2.length := by
      have := List.length_pos_iff.mpr hb
      omega
    have e : flat (b :: images) = b.2.map (fun l => (b.1, l)) ++ flat images := by simp [flat]
    rw [e, filter1_image hn sel b.1 b.2 hb _ s (hs b rfl)]
    have hch' : images.IsChain (fun a b => a.1 ≠ b.1) := by
      cases images with
      | nil => exact .nil
      | cons c images => exact (List.isChain_cons_cons.mp hch).2
    have := ih (stAt n (b.2.length - 1) b.1) (fun b' h => hne b' (List.mem_cons_of_mem _ h)) hch' (by
      intro c hc
      cases images with
      | nil => cases hc
      | cons c' images =>
        simp only [List.head?_cons, Option.some.injEq] at hc
        subst hc
        have := (List.isChain_cons_cons.mp hch).1
        simpa [stAt] using this)
    simp only [good_at, hlen] at this
    cases hg : good (n : Int) s
    · simp
    · rw [if_neg (by simp)]
      rw [Option.bind_map]
      have e2 : ((fun r : List (Int × F × String) × St F => if good (n : Int) r.2 = false then none else some r.1) ∘ fun r : List (Int × F × String) × St F => (keyed n sel b.1 0 b.2 ++ r.1, r.2)) =
          fun r : List (Int × F × String) × St F => (if good (n : Int) r.2 = false then none else some r.1).map fun l => keyed n sel b.1 0 b.2 ++ l := by
        funext r
        simp only [Function.comp]
        split_ifs <;> rfl
      have e3 : ∀ (o : Option (List (Int × F × String) × St F)) (g : List (Int × F × String) × St F → Option (List (Int × F × String))) (k : List (Int × F × String) → List (Int × F × String)),
          (o.bind fun r => (g r).map k) = (o.bind g).map k := by
        intro o g k
        cases o <;> rfl
      rw [e2, e3, this]
      by_cases h : (b.2.length = 1 ∨ b.2.length = n * n) ∧ ∀ c ∈ images, c.2.length = 1 ∨ c.2.length = n * n
      · rw [if_pos h, if_pos ⟨rfl, by simpa using h⟩]
        simp
      · rw [if_neg h, if_neg (fun h' => h (by simpa using h'.2))]
        rfl

/-- the lines of an image after the turn -/
def turned (n : Nat) (t : Turn) (lines : List String) : List String :=
  if lines.length = n * n then (List.range (n * n)).map fun k => lines.getD (place n k t.back) "" else lines

/-- with the keys -/
def turnedKeys {F : Type} (n : Nat) (t : Turn) (f : F) (lines : List String) : List (Int × F × String) :=
  if lines.length = n * n then (List.range (n * n)).map fun (k : Nat) => ((k : Int), f, lines.getD (place n k t.back) "")
  else lines.map fun l => (icorner (n : Int) (stAt n 0 f) t, f, l)

theorem perm_range {m : Nat} (g : Nat → Nat) (hg : ∀ j < m, g j < m) (hi : ∀ i < m, ∀ j < m, g i = g j → i = j) : ((List.range m).map g).Perm (List.range m) := by
  have hnd : ((List.range m).map g).Nodup := by
    rw [List.nodup_map_iff_inj_on List.nodup_range]
    intro i hi' j hj' h
    exact hi i (List.mem_range.mp hi') j (List.mem_range.mp hj') h
  have hsub : ((List.range m).map g).Subperm (List.range m) := by
    apply hnd.subperm
    intro x hx
    obtain ⟨j, hj, rfl⟩ := List.mem_map.mp hx
    exact List.mem_range.mpr (hg j (List.mem_range.mp hj))
  exact hsub.perm_of_length_le (by simp)

theorem keyed_perm {F : Type} {n : Nat} (sel : F → Turn) (f : F) (lines : List String) (h : lines.length = 1 ∨ lines.length = n * n) :
    (keyed n sel f 0 lines).Perm (turnedKeys n (sel f) f lines) := by
  unfold turnedKeys
  by_cases hl : lines.length = n * n
  · rw [if_pos hl]
    have e : keyed n sel f 0 lines = ((List.range (n * n)).map fun j => place n j (sel f)).map fun (k : Nat) => ((k : Int), f, lines.getD (place n k (sel f).back) "") := by
      rw [List.map_map]
      apply List.ext_getElem?
      intro i
      simp only [keyed, List.getElem?_map, List.getElem?_zipIdx, List.getElem?_range, Nat.zero_add, Option.map_map]
      by_cases hi : i < n * n
      · rw [List.getElem?_eq_getElem (by omega), List.getElem?_range hi]
        simp only [Option.map_some, Function.comp, Option.some.injEq]
        rw [place_back hi, List.getD_eq_getElem _ _ (by omega)]
        exact congrArg (fun a => (a, f, lines[i])) (icorner_place hi _ _)
      · rw [List.getElem?_eq_none (by omega), List.getElem?_eq_none (by simp; omega)]
        rfl
    rw [e]
    apply List.Perm.map
    apply perm_range
    · intro j hj; exact place_lt hj _
    · intro i hi j hj h
      rw [← place_back hi (sel f), h, place_back hj]
  · rw [if_neg hl]
    have h1 : lines.length = 1 := h.resolve_right hl
    obtain ⟨l, rfl⟩ := List.length_eq_one_iff.mp h1
    exact List.Perm.refl _

theorem turnedKeys_snd {F : Type} (n : Nat) (t : Turn) (f : F) (lines : List String) : (turnedKeys n t f lines).map (fun x => x.2) = (turned n t lines).map fun l => (f, l) := by
  unfold turnedKeys turned
  split_ifs <;> simp [Function.comp_def]

theorem turnedKeys_mem {F : Type} {n : Nat} {t : Turn} {f : F} {lines : List String} {x : Int × F × String} (h : x ∈ turnedKeys n t f lines) : x.2.1 = f := by
  unfold turnedKeys at h
  split_ifs at h <;> obtain ⟨_, -, rfl⟩ := List.mem_map.mp h <;> rfl

theorem turnedKeys_sorted {F : Type} {n : Nat} {t : Turn} {f : F} {lines : List String} (h : lines.length = 1 ∨ lines.length = n * n) :
    (turnedKeys n t f lines).Pairwise fun a b => a.1 < b.1 := by
  unfold turnedKeys
  by_cases hl : lines.length = n * n
  · rw [if_pos hl, List.pairwise_map]
    exact List.pairwise_lt_range.imp fun h => Int.ofNat_lt.mpr h
  · rw [if_neg hl]
    obtain ⟨l, rfl⟩ := List.length_eq_one_iff.mp (h.resolve_right hl)
    exact List.pairwise_singleton _ _

theorem flatMap_perm {α β : Type} (l : List α) (f g : α → List β) (h : ∀ a ∈ l, (f a).Perm (g a)) : (l.flatMap f).Perm (l.flatMap g) := by
  induction l with
  | nil => exact List.Perm.refl _
  | cons a l ih =>
    simp only [List.flatMap_cons]
    exact (h a (by simp)).append (ih fun b hb => h b (List.mem_cons_of_mem _ hb))

/-- the result, in one equation -/
theorem rotate_images {F : Type} [LinearOrder F] {n : Nat} (hn : 0 < n) (sel : F → Turn) (images sorted : List (F × List String))
    (hne : ∀ b ∈ images, b.2 ≠ []) (hnd : (images.map (·.1)).Nodup) (hlen : ∀ b ∈ images, b.2.length = 1 ∨ b.2.length = n * n)
    (hp : sorted.Perm images) (hs : sorted.Pairwise fun a b => a.1 < b.1) :
    rotate (n : Int) sel (flat images) = some (flat (sorted.map fun b => (b.1, turned n (sel b.1) b.2))) := by
  have hch : images.IsChain (fun a b => a.1 ≠ b.1) := by
    have := List.pairwise_map.mp hnd
    exact this.isChain
  have hf := filter1_all hn sel images ⟨0, 0, 0, none⟩ hne hch (by simp)
  rw [if_pos ⟨by simp [good], hlen⟩] at hf
  have hbind : rotate (n : Int) sel (flat images) = ((filter1 (n : Int) sel ⟨0, 0, 0, none⟩ (flat images)).bind fun r => if good (n : Int) r.2 = false then none else some r.1).map
      fun l => (l.mergeSort sortLe).map fun x => x.2 := by
    unfold rotate
    rw [Option.map_bind]
    congr 1
    funext r
    simp only [Function.comp]
    split_ifs <;> rfl
  rw [hbind, hf, Option.map_some]
  congr 1
  have key : (images.flatMap fun b => keyed n sel b.1 0 b.2).mergeSort sortLe = sorted.flatMap fun b => turnedKeys n (sel b.1) b.1 b.2 := by
    have hlen' : ∀ b ∈ sorted, b.2.length = 1 ∨ b.2.length = n * n := fun b hb => hlen b (hp.subset hb)
    refine List.Perm.eq_of_pairwise (le := fun a b => sortLe a b = true) ?_ ?_ ?_ ?_
    · intro x y hx hy hxy hyx
      have hx' : x ∈ sorted.flatMap fun b => turnedKeys n (sel b.1) b.1 b.2 := by
        have := (List.mergeSort_perm (images.flatMap fun b => keyed n sel b.1 0 b.2) sortLe).subset hx
        have := (flatMap_perm images _ (fun b => turnedKeys n (sel b.1) b.1 b.2) (fun b hb => keyed_perm sel b.1 b.2 (hlen b hb))).subset this
        exact (hp.symm.flatMap_right _).subset this
      obtain ⟨b, hb, hxb⟩ := List.mem_flatMap.mp hx'
      obtain ⟨c, hc, hyc⟩ := List.mem_flatMap.mp hy
      have e1 := turnedKeys_mem hxb
      have e2 := turnedKeys_mem hyc
      simp only [sortLe, decide_eq_true_eq] at hxy hyx
      have hname : x.2.1 = y.2.1 := by
        rcases hxy with h | h
        · rcases hyx with h' | h'
          · exact absurd (h.trans h') (lt_irrefl _)
          · exact h'.1.symm
        · exact h.1
      have hk : x.1 = y.1 := by
        rcases hxy with h | h
        · rw [hname] at h; exact absurd h (lt_irrefl _)
        · rcases hyx with h' | h'
          · rw [hname] at h'; exact absurd h' (lt_irrefl _)
          · exact le_antisymm h.2 h'.2
      have hbc : b = c := by
        have hnd' : (sorted.map (·.1)).Nodup := (hp.map _).nodup_iff.mpr hnd
        exact List.inj_on_of_nodup_map hnd' hb hc (by rw [← e1, ← e2, hname])
      subst hbc
      have hss := turnedKeys_sorted (t := sel b.1) (f := b.1) (hlen' b hb)
      by_contra hne'
      rcases List.pairwise_iff_getElem.mp hss with hss
      obtain ⟨i, hi, rfl⟩ := List.getElem_of_mem hxb
      obtain ⟨j, hj, rfl⟩ := List.getElem_of_mem hyc
      rcases lt_trichotomy i j with h | h | h
      · have := hss i j hi hj h; omega
      · subst h; exact hne' rfl
      · have := hss j i hj hi h; omega
    · apply List.pairwise_mergeSort
      · intro a b c hab hbc
        simp only [sortLe, decide_eq_true_eq] at *
        rcases hab with h | ⟨h, h'⟩
        · rcases hbc with g | ⟨g, g'⟩
          · exact Or.inl (h.trans g)
          · exact Or.inl (g ▸ h)
        · rcases hbc with g | ⟨g, g'⟩
          · exact Or.inl (h ▸ g)
          · exact Or.inr ⟨h.trans g, h'.trans g'⟩
      · intro a b
        simp only [sortLe, Bool.or_eq_true, decide_eq_true_eq]
        rcases lt_trichotomy a.2.1 b.2.1 with h | h | h
        · exact Or.inl (Or.inl h)
        · rcases le_total a.1 b.1 with g | g
          · exact Or.inl (Or.inr ⟨h, g⟩)
          · exact Or.inr (Or.inr ⟨h.symm, g⟩)
        · exact Or.inr (Or.inl h)
    · rw [List.pairwise_flatMap]
      constructor
      · intro b hb
        refine (turnedKeys_sorted (hlen' b hb)).imp_of_mem ?_
        intro x y hx hy hxy
        simp only [sortLe, decide_eq_true_eq]
        exact Or.inr ⟨by rw [turnedKeys_mem hx, turnedKeys_mem hy], le_of_lt hxy⟩
      · refine hs.imp ?_
        intro b c hbc x hx y hy
        simp only [sortLe, decide_eq_true_eq]
        exact Or.inl (by rw [turnedKeys_mem hx, turnedKeys_mem hy]; exact hbc)
    · refine (List.mergeSort_perm _ _).trans ?_
      refine (flatMap_perm images _ (fun b => turnedKeys n (sel b.1) b.1 b.2) (fun b hb => keyed_perm sel b.1 b.2 (hlen b hb))).trans ?_
      exact hp.symm.flatMap_right _
  rw [key]
  unfold flat
  rw [List.map_flatMap, List.flatMap_map]
  congr 1
  funext b
  exact turnedKeys_snd n _ _ _

theorem turned_length (n : Nat) (t : Turn) (lines : List String) : (turned n t lines).length = lines.length := by
  unfold turned
  split_ifs with h
  · simp [h]
  · rfl

theorem turned_place {n : Nat} (t : Turn) (lines : List String) (hl : lines.length = n * n) (x y c r : Nat) (hx : x < n) (hy : y < n) (hc : c < n) (hr : r < n)
    (h : Turned n x y c r t) : (turned n t lines)[r * n + c]? = lines[y * n + x]? := by
  have hk := grid_lt hr hc
  unfold turned
  rw [if_pos hl, List.getElem?_map, List.getElem?_range hk]
  have e : place n (r * n + c) t.back = y * n + x := by
    obtain ⟨e1, e2⟩ := divmod (a := r) hc
    cases t <;> simp only [Turned] at h <;> simp only [place, Turn.back, e1, e2]
    · obtain ⟨h1, h2⟩ := h
      obtain rfl : c = x := by omega
      obtain rfl : r = y := by omega
      rfl
    · obtain ⟨h1, h2⟩ := h
      obtain rfl : c = y := by omega
      obtain rfl : x = n - 1 - r := by omega
      rfl
    · obtain ⟨h1, h2⟩ := h
      obtain rfl : x = n - 1 - c := by omega
      obtain rfl : y = n - 1 - r := by omega
      have e1 : (n - 1 - r + r + 1) * n = n * n := by congr 1; omega
      have e2 : (n - 1 - r + r + 1) * n = (n - 1 - r) * n + r * n + n := by ring
      omega
    · obtain ⟨h1, h2⟩ := h
      obtain rfl : r = x := by omega
      obtain rfl : y = n - 1 - c := by omega
      rfl
  simp only [Option.map_some]
  rw [e, List.getD_eq_getElem _ _ (by rw [hl]; exact grid_lt hy hx), List.getElem?_eq_getElem (by rw [hl]; exact grid_lt hy hx)]

theorem turned_back (n : Nat) (t : Turn) (lines : List String) : turned n t.back (turned n t lines) = lines := by
  unfold turned
  by_cases h : lines.length = n * n
  · rw [if_pos h, if_pos (by simp)]
    apply List.ext_getElem?
    intro i
    by_cases hi : i < n * n
    · rw [List.getElem?_map, List.getElem?_range hi, Option.map_some, back_back]
      have hp := place_lt hi t
      rw [List.getD_eq_getElem _ _ (by simpa using hp), List.getElem_map, List.getElem_range, place_back hi, List.getD_eq_getElem _ _ (by omega), List.getElem?_eq_getElem (by omega)]
    · rw [List.getElem?_eq_none (by simp; omega), List.getElem?_eq_none (by omega)]
  · rw [if_neg h, if_neg h]

theorem exists_sorted {F : Type} [LinearOrder F] (images : List (F × List String)) (hnd : (images.map (·.1)).Nodup) :
    ∃ sorted : List (F × List String), sorted.Perm images ∧ sorted.Pairwise fun a b => a.1 < b.1 := by
  refine ⟨images.mergeSort fun a b => decide (a.1 ≤ b.1), List.mergeSort_perm _ _, ?_⟩
  have h1 := List.pairwise_mergeSort (le := fun a b : F × List String => decide (a.1 ≤ b.1)) (fun a b c h g => by
    simp only [decide_eq_true_eq] at *; exact h.trans g) (fun a b => by
    simp only [Bool.or_eq_true, decide_eq_true_eq]; exact le_total _ _) images
  have h2 : ((images.mergeSort fun a b => decide (a.1 ≤ b.1)).map (·.1)).Nodup := ((List.mergeSort_perm images _).map _).nodup_iff.mpr hnd
  have h2' := List.pairwise_map.mp h2
  exact (h1.and h2').imp fun h => lt_of_le_of_ne (by simpa using h.1) h.2

/-! ### theorems -/

/-- **C105**: `mrcal-rotate-corners` accepts exactly the files where each image has all its corners or one line (which says that there are no corners) -/
theorem rotate_accepts {F : Type} [LinearOrder F] {n : Nat} (hn : 0 < n) (sel : F → Turn) (images : List (F × List String)) (hne : ∀ b ∈ images, b.2 ≠ []) (hch : images.IsChain (fun a b => a.1 ≠ b.1)) :
    (rotate (n : Int) sel (flat images)).isSome ↔ ∀ b ∈ images, b.2.length = 1 ∨ b.2.length = n * n := by
  have hf := filter1_all hn sel images ⟨0, 0, 0, none⟩ hne hch (by simp)
  have hbind : rotate (n : Int) sel (flat images) = ((filter1 (n : Int) sel ⟨0, 0, 0, none⟩ (flat images)).bind fun r => if good (n : Int) r.2 = false then none else some r.1).map
      fun l => (l.mergeSort sortLe).map fun x => x.2 := by
    unfold rotate
    rw [Option.map_bind]
    congr 1
    funext r
    simp only [Function.comp]
    split_ifs <;> rfl
  rw [hbind, hf]
  split_ifs with h
  · simpa using h.2
  · simp only [Option.map_none, Option.isSome_none, Bool.false_eq_true, false_iff]
    intro h'
    exact h ⟨by simp [good], h'⟩

/-- **C105**: The output has the same images, sorted by name, each with the same lines. The board is turned as requested: the line for the corner in column x, row y of the image is now the line for the corner at the place to which the turn takes it. Images with a single line
are unchanged -/
theorem rotate_meaning {F : Type} [LinearOrder F] {n : Nat} (hn : 0 < n) (sel : F → Turn) (images : List (F × List String)) (hne : ∀ b ∈ images, b.2 ≠ []) (hnd : (images.map (·.1)).Nodup)
    (hlen : ∀ b ∈ images, b.2.length = 1 ∨ b.2.length = n * n) :
    ∃ out, rotate (n : Int) sel (flat images) = some (flat out) ∧ (out.Pairwise fun a b => a.1 < b.1) ∧ (out.map (·.1)).Perm (images.map (·.1)) ∧
      ∀ b ∈ images, ∃ lines, (b.1, lines) ∈ out ∧ lines.length = b.2.length ∧ (b.2.length = 1 → lines = b.2) ∧
        (b.2.length = n * n → ∀ x y c r : Nat, x < n → y < n → c < n → r < n → Turned n x y c r (sel b.1) → lines[r * n + c]? = b.2[y * n + x]?) := by
  obtain ⟨sorted, hp, hs⟩ := exists_sorted images hnd
  refine ⟨_, rotate_images hn sel images sorted hne hnd hlen hp hs, ?_, ?_, ?_⟩
  · rw [List.pairwise_map]; exact hs
  · rw [List.map_map]; exact hp.map _
  · intro b hb
    refine ⟨turned n (sel b.1) b.2, List.mem_map.mpr ⟨b, hp.symm.subset hb, rfl⟩, turned_length _ _ _, ?_, ?_⟩
    · intro h1
      unfold turned
      split_ifs with h
      · obtain rfl : n = 1 := by nlinarith
        obtain ⟨l, hl⟩ := List.length_eq_one_iff.mp h1
        rw [hl]
        cases sel b.1 <;> rfl
      · rfl
    · intro hl x y c r hx hy hc hr h
      exact turned_place (sel b.1) b.2 hl x y c r hx hy hc hr h

/-- **C105**: Each place of the turned board has a corner of the image -/
theorem turned_total (n : Nat) (t : Turn) (c r : Nat) (hc : c < n) (hr : r < n) : ∃ x y : Nat, x < n ∧ y < n ∧ Turned n x y c r t := by
  cases t <;> simp only [Turned]
  · exact ⟨c, r, hc, hr, by omega, by omega⟩
  · exact ⟨n - 1 - r, c, by omega, hc, by omega, by omega⟩
  · exact ⟨n - 1 - c, n - 1 - r, by omega, by omega, by omega, by omega⟩
  · exact ⟨r, n - 1 - c, hr, by omega, by omega, by omega⟩

/-- **C105**: Turning, and then turning back, gives the original file (if that one was sorted) -/
theorem rotate_back {F : Type} [LinearOrder F] {n : Nat} (hn : 0 < n) (sel : F → Turn) (images : List (F × List String)) (hne : ∀ b ∈ images, b.2 ≠ []) (hs : images.Pairwise fun a b => a.1 < b.1)
    (hlen : ∀ b ∈ images, b.2.length = 1 ∨ b.2.length = n * n) :
    ∃ out, rotate (n : Int) sel (flat images) = some out ∧ rotate (n : Int) (fun f => (sel f).back) out = some (flat images) := by
  have hnd : (images.map (·.1)).Nodup := by
    rw [List.Nodup, List.pairwise_map]
    exact hs.imp fun h => ne_of_lt h
  refine ⟨_, rotate_images hn sel images images hne hnd hlen (List.Perm.refl _) hs, ?_⟩
  have hs' : (images.map fun b => (b.1, turned n (sel b.1) b.2)).Pairwise fun a b => a.1 < b.1 := by rw [List.pairwise_map]; exact hs
  rw [rotate_images hn _ (images.map fun b => (b.1, turned n (sel b.1) b.2)) _ ?_ ?_ ?_ (List.Perm.refl _) hs']
  · congr 2
    rw [List.map_map]
    conv_rhs => rw [← List.map_id images]
    apply List.map_congr_left
    intro b _
    simp only [Function.comp, turned_back]
    rfl
  · intro b hb
    obtain ⟨c, hc, rfl⟩ := List.mem_map.mp hb
    intro h
    have := turned_length n (sel c.1) c.2
    simp only at h
    rw [h] at this
    exact hne c hc (List.length_eq_zero_iff.mp this.symm)
  · rw [List.map_map]; exact hnd
  · intro b hb
    obtain ⟨c, hc, rfl⟩ := List.mem_map.mp hb
    simp only [turned_length]
    exact hlen c hc

/-- **C105**: which option applies to an image: `--90` before `--270` before `--180`; images that none of them match aren't turned -/
theorem select_meaning {F : Type} (m90 m180 m270 : F → Bool) (f : F) :
    (select m90 m180 m270 f = .t90 ↔ m90 f = true) ∧ (select m90 m180 m270 f = .t270 ↔ m90 f = false ∧ m270 f = true) ∧
    (select m90 m180 m270 f = .t180 ↔ m90 f = false ∧ m270 f = false ∧ m180 f = true) ∧ (select m90 m180 m270 f = .t0 ↔ m90 f = false ∧ m270 f = false ∧ m180 f = false) := by
  unfold select
  cases m90 f <;> cases m180 f <;> cases m270 f <;> simp

/-- the theorems apply: two images in a 2x2 board, one of them without corners -/
example : ∃ out, rotate (2 : Int) (fun f : Nat => if f = 3 then .t90 else .t0) (flat [(3, ["a", "b", "c", "d"]), (1, ["-"])]) = some out := by
  have h := (rotate_accepts (n := 2) (by norm_num) (fun f : Nat => if f = 3 then Turn.t90 else .t0) [(3, ["a", "b", "c", "d"]), (1, ["-"])] (by simp) (by simp)).mpr (by simp)
  exact Option.isSome_iff_exists.mp h

end Mrcal.CornerTools

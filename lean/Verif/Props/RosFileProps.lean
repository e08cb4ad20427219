import Verif.Model.RosFile
import Verif.Props.CahvorFileProps

/-! # C89: OpenCV and ROS files -/

namespace Mrcal.RosFile
open Mrcal.Cam Mrcal.Pose Mrcal.CahvorFile

/-! ### specification: what is in the file -/

/-- the keys in each dictionary are different -/
inductive WF : List (String × Yaml) → Prop
  | mk (d : List (String × Yaml)) (h : (d.map Prod.fst).Nodup) (h' : ∀ k d', (k, Yaml.dict d') ∈ d → WF d') : WF d

/-- the value at this sequence of keys. It isn't a dictionary, or null -/
def Has : List (String × Yaml) → List String → Yaml → Prop
  | _, [], _ => False
  | d, [k], v => (k, v) ∈ d ∧ (∀ d', v ≠ .dict d') ∧ v ≠ .null
  | d, k :: k' :: ks, v => ∃ d', (k, .dict d') ∈ d ∧ Has d' (k' :: ks) v

/-- exactly one of the sequences of keys has a value: v -/
def Only (d : List (String × Yaml)) (seqs : List (List String)) (v : Yaml) : Prop :=
  ∃ l1 s l2, seqs = l1 ++ s :: l2 ∧ Has d s v ∧ (∀ t ∈ l1, ∀ w, ¬ Has d t w) ∧ (∀ t ∈ l2, ∀ w, ¬ Has d t w)

/-- the numbers in a value: a list, lists of lists, or a single number -/
def Numbers (v : Yaml) (l : List ℝ) : Prop := v = .list l ∨ v = .nested l ∨ ∃ x, v = .num x ∧ l = [x]

/-- the names of the things -/
def names (ros : String) (yaml : String) : List (List String) := [[yaml, "data"], [yaml], [ros]]

/-! ### lemmas -/

theorem find_mem {d : List (String × Yaml)} (h : (d.map Prod.fst).Nodup) (k : String) (v : Yaml) : d.find? (fun e => e.1 = k) = some (k, v) ↔ (k, v) ∈ d := by
  induction d with
  | nil => simp
  | cons e d ih =>
    obtain ⟨k', v'⟩ := e
    simp only [List.map_cons, List.nodup_cons] at h
    by_cases hk : k' = k
    · subst hk
      simp only [List.find?_cons, decide_true, List.mem_cons, Prod.mk.injEq, true_and, Option.some.injEq]
      constructor
      · intro e; exact Or.inl e.symm
      · rintro (e | e)
        · exact e.symm
        · exact absurd (List.mem_map_of_mem (f := Prod.fst) e) h.1
    · simp only [List.find?_cons, hk, decide_false, List.mem_cons, Prod.mk.injEq]
      rw [ih h.2]
      constructor
      · exact Or.inr
      · rintro (⟨e, -⟩ | e)
        · exact absurd e.symm hk
        · exact e

theorem find_key {d : List (String × Yaml)} {k k' : String} {v : Yaml} (h : d.find? (fun e => e.1 = k) = some (k', v)) : k' = k := by
  have := List.find?_some h
  simpa using this

theorem findSequence_iff : ∀ (s : List String) (d : List (String × Yaml)) (_ : WF d) (v : Yaml), findSequence s d = some v ↔ Has d s v := by
  intro s
  induction s with
  | nil => intro d _ v; simp [findSequence, Has]
  | cons k ks ih =>
    intro d hd v
    obtain ⟨_, hn, hs⟩ := hd
    cases ks with
    | nil =>
      simp only [findSequence, Has]
      rw [← find_mem hn]
      cases hf : d.find? (fun e => e.1 = k) with
      | none => simp
      | some e =>
        obtain ⟨k', w⟩ := e
        have := find_key hf
        subst this
        cases w <;> simp
        all_goals (intro h; subst h; simp)
    | cons k' ks =>
      simp only [findSequence, Has]
      cases hf : d.find? (fun e => e.1 = k) with
      | none =>
        simp only [reduceCtorEq, false_iff]
        rintro ⟨d', h, -⟩
        rw [← find_mem hn, hf] at h
        exact absurd h (by simp)
      | some e =>
        obtain ⟨k'', w⟩ := e
        have := find_key hf
        subst this
        have hm := (find_mem hn _ _).mp hf
        cases w with
        | dict d' =>
          simp only
          rw [ih d' (hs _ _ hm)]
          constructor
          · intro h; exact ⟨d', hm, h⟩
          · rintro ⟨d'', h, h2⟩
            rw [← find_mem hn, hf] at h
            simp only [Option.some.injEq, Prod.mk.injEq, Yaml.dict.injEq, true_and] at h
            rw [h]; exact h2
        | _ =>
          simp only [reduceCtorEq, false_iff]
          rintro ⟨d'', h, -⟩
          rw [← find_mem hn, hf] at h
          simp at h

theorem findOne_iff {d : List (String × Yaml)} (hd : WF d) (seqs : List (List String)) (v : Yaml) : findOne seqs d = some v ↔ Only d seqs v := by
  have hnone : ∀ t, findSequence t d = none ↔ ∀ w, ¬ Has d t w := by
    intro t
    rw [Option.eq_none_iff_forall_ne_some]
    simp only [ne_eq, findSequence_iff t d hd]
  have e : findOne seqs d = some v ↔ seqs.filterMap (fun s => findSequence s d) = [v] := by
    unfold findOne
    split
    · rename_i w hw; rw [hw]; simp
    · rename_i hw
      simp only [reduceCtorEq, false_iff]
      exact hw v
  rw [e, List.filterMap_eq_cons_iff]
  unfold Only
  constructor
  · rintro ⟨l1, s, l2, h1, h2, h3, h4⟩
    rw [List.filterMap_eq_nil_iff] at h4
    exact ⟨l1, s, l2, h1, (findSequence_iff s d hd v).mp h3, fun t ht => (hnone t).mp (h2 t ht), fun t ht => (hnone t).mp (h4 t ht)⟩
  · rintro ⟨l1, s, l2, h1, h2, h3, h4⟩
    refine ⟨l1, s, l2, h1, fun t ht => (hnone t).mpr (h3 t ht), (findSequence_iff s d hd v).mpr h2, ?_⟩
    rw [List.filterMap_eq_nil_iff]
    exact fun t ht => (hnone t).mpr (h4 t ht)

theorem asArray_iff (n : Nat) (v : Yaml) (l : List ℝ) : asArray n v = some l ↔ Numbers v l ∧ l.length = n := by
  unfold asArray Numbers
  cases v with
  | num x =>
    simp only [reduceCtorEq, false_or, Yaml.num.injEq]
    by_cases h : n = 1
    · rw [if_pos h]; simp only [Option.some.injEq]
      constructor
      · intro e; subst e; exact ⟨⟨x, rfl, rfl⟩, by simp [h]⟩
      · rintro ⟨⟨y, e1, e2⟩, -⟩; rw [e2, e1]
    · rw [if_neg h]; simp only [reduceCtorEq, false_iff]
      rintro ⟨⟨y, e1, e2⟩, e3⟩; rw [e2] at e3; exact h (by simpa using e3.symm)
  | list l' =>
    simp only [reduceCtorEq, false_or, Yaml.list.injEq, false_and, exists_false, or_false]
    by_cases h : l'.length = n
    · rw [if_pos h]; simp only [Option.some.injEq]
      constructor
      · intro e; subst e; exact ⟨rfl, h⟩
      · exact fun e => e.1
    · rw [if_neg h]; simp only [reduceCtorEq, false_iff]
      rintro ⟨e, e'⟩; subst e; exact h e'
  | nested l' =>
    simp only [reduceCtorEq, false_or, Yaml.nested.injEq, false_and, exists_false, or_false]
    by_cases h : l'.length = n
    · rw [if_pos h]; simp only [Option.some.injEq]
      constructor
      · intro e; subst e; exact ⟨rfl, h⟩
      · exact fun e => e.1
    · rw [if_neg h]; simp only [reduceCtorEq, false_iff]
      rintro ⟨e, e'⟩; subst e; exact h e'
  | _ => simp

theorem sumsq_zero (l : List ℝ) : (l.map (fun x => x * x)).sum = 0 ↔ ∀ x ∈ l, x = 0 := by
  have nn : ∀ l : List ℝ, 0 ≤ (l.map (fun x => x * x)).sum := by
    intro l
    induction l with
    | nil => simp
    | cons a l ih => simp only [List.map_cons, List.sum_cons]; nlinarith [mul_self_nonneg a]
  induction l with
  | nil => simp
  | cons a l ih =>
    simp only [List.map_cons, List.sum_cons, List.mem_cons, forall_eq_or_imp]
    refine Iff.trans ?_ (and_congr_right fun _ => ih)
    constructor
    · intro h
      have h1 := nn l
      have h2 := mul_self_nonneg a
      have h3 : a * a = 0 := by linarith
      exact ⟨mul_self_eq_zero.mp h3, by linarith⟩
    · rintro ⟨h1, h2⟩; rw [h1, h2]; ring

/-! ### which files are accepted, and what they mean -/

/-- **Specification**: the focal lengths and the center in the file: the camera matrix is [fx 0 cx; 0 fy cy; 0 0 1] -/
def SaysK (d : List (String × Yaml)) (fx fy cx cy : ℝ) : Prop :=
  ∃ v, Only d (names "K" "camera_matrix") v ∧ Numbers v [fx, 0, cx, 0, fy, cy, 0, 0, 1]

/-- **Specification**: the projection matrix in the file, row by row. It translates along x only. 0 stands for the identity -/
def SaysP (d : List (String × Yaml)) (P : List ℝ) : Prop :=
  ∃ v l, Only d (names "P" "projection_matrix") v ∧ Numbers v l ∧ l.length = 12 ∧ l.getD 7 0 = 0 ∧ l.getD 11 0 = 0 ∧
    (((∃ x ∈ l, x ≠ 0) ∧ P = l) ∨ ((∀ x ∈ l, x = 0) ∧ P = [1, 0, 0, 0, 0, 1, 0, 0, 0, 0, 1, 0]))

/-- **Specification**: the rotation in the file. None, or 0, stands for the identity -/
def SaysR (d : List (String × Yaml)) (R : M3) : Prop :=
  (∃ v a b c e f g h i j, Only d (names "R" "rotation") v ∧ Numbers v [a, b, c, e, f, g, h, i, j] ∧ (∃ x ∈ [a, b, c, e, f, g, h, i, j], x ≠ 0) ∧ R = ⟨a, b, c, e, f, g, h, i, j⟩) ∨
  ((∀ v l, Only d (names "R" "rotation") v → Numbers v l → l.length = 9 → ∀ x ∈ l, x = 0) ∧ R = ⟨1, 0, 0, 0, 1, 0, 0, 0, 1⟩)

/-- **Specification**: the lens model in the file -/
def SaysLens (d : List (String × Yaml)) (L : Lens) : Prop :=
  ("distortion_model", .str "plumb_bob") ∈ d ∧ L = .opencv5 ∨ ("distortion_model", .str "rational_polynomial") ∈ d ∧ L = .opencv8

/-- **Specification**: a size in the file. Fractions are dropped -/
def SaysSize (d : List (String × Yaml)) (a b : String) (n : Int) : Prop :=
  ∃ v x, Only d [[a], [b]] v ∧ (v = .num x ∨ v = .list [x]) ∧ (0 ≤ x ∧ (n : ℝ) ≤ x ∧ x < n + 1 ∨ x < 0 ∧ x ≤ n ∧ (n : ℝ) - 1 < x)

theorem readK_iff {d : List (String × Yaml)} (hd : WF d) (K : List ℝ) : readK d = some K ↔ ∃ fx fy cx cy, SaysK d fx fy cx cy ∧ K = [fx, fy, cx, cy] := by
  unfold readK SaysK
  rw [Option.bind_eq_some_iff]
  constructor
  · rintro ⟨l, h, h2⟩
    rw [Option.bind_eq_some_iff] at h
    obtain ⟨v, hv, hl⟩ := h
    rw [asArray_iff] at hl
    obtain ⟨hN, hlen⟩ := hl
    match l, hlen with
    | [m0, m1, m2, m3, m4, m5, m6, m7, m8], _ =>
      dsimp only [toM3] at h2
      by_cases hc : m1 ≠ 0 ∨ m3 ≠ 0 ∨ m6 ≠ 0 ∨ m7 ≠ 0 ∨ m8 ≠ 1
      · rw [if_pos hc] at h2; exact absurd h2 (by simp)
      rw [if_neg hc] at h2
      simp only [not_or, not_not] at hc
      obtain ⟨c1, c2, c3, c4, c5⟩ := hc
      simp only [Option.some.injEq] at h2
      refine ⟨m0, m4, m2, m5, ⟨v, (findOne_iff hd _ v).mp hv, ?_⟩, h2.symm⟩
      rw [c1, c2, c3, c4, c5] at hN
      exact hN
  · rintro ⟨fx, fy, cx, cy, ⟨v, hv, hN⟩, hK⟩
    refine ⟨[fx, 0, cx, 0, fy, cy, 0, 0, 1], ?_, ?_⟩
    · rw [Option.bind_eq_some_iff]
      exact ⟨v, (findOne_iff hd _ v).mpr hv, (asArray_iff _ _ _).mpr ⟨hN, rfl⟩⟩
    · simp [toM3, hK]

theorem readP_iff {d : List (String × Yaml)} (hd : WF d) (P : List ℝ) : readP d = some P ↔ SaysP d P := by
  unfold readP SaysP
  rw [Option.bind_eq_some_iff]
  constructor
  · rintro ⟨l, h, h2⟩
    rw [Option.bind_eq_some_iff] at h
    obtain ⟨v, hv, hl⟩ := h
    rw [asArray_iff] at hl
    split_ifs at h2 with hc hz
    · simp only [not_or, not_not] at hc
      simp only [Option.some.injEq] at h2
      exact ⟨v, l, (findOne_iff hd _ v).mp hv, hl.1, hl.2, hc.1, hc.2, Or.inr ⟨(sumsq_zero l).mp hz, h2.symm⟩⟩
    · simp only [not_or, not_not] at hc
      simp only [Option.some.injEq] at h2
      refine ⟨v, l, (findOne_iff hd _ v).mp hv, hl.1, hl.2, hc.1, hc.2, Or.inl ⟨?_, h2.symm⟩⟩
      by_contra hh
      apply hz
      rw [sumsq_zero]
      intro x hx
      by_contra hne
      exact hh ⟨x, hx, hne⟩
  · rintro ⟨v, l, hv, hN, hl, h7, h11, h⟩
    refine ⟨l, ?_, ?_⟩
    · rw [Option.bind_eq_some_iff]
      exact ⟨v, (findOne_iff hd _ v).mpr hv, (asArray_iff _ _ _).mpr ⟨hN, hl⟩⟩
    · rw [if_neg (by simp only [not_or, not_not]; exact ⟨h7, h11⟩)]
      rcases h with ⟨⟨x, hx, hne⟩, e⟩ | ⟨h0, e⟩
      · rw [if_neg (by intro hz; exact hne ((sumsq_zero l).mp hz x hx)), e]
      · rw [if_pos ((sumsq_zero l).mpr h0), e]

theorem only_unique {d : List (String × Yaml)} (hd : WF d) {s : List (List String)} {v w : Yaml} (h1 : Only d s v) (h2 : Only d s w) : v = w := by
  rw [← findOne_iff hd] at h1 h2
  rw [h1] at h2
  exact Option.some.inj h2

theorem numbers_unique {v : Yaml} {l l' : List ℝ} (h1 : Numbers v l) (h2 : Numbers v l') : l = l' := by
  unfold Numbers at h1 h2
  rcases h1 with rfl | rfl | ⟨x, rfl, rfl⟩
  · simpa using h2
  · simpa using h2
  · simp only [reduceCtorEq, Yaml.num.injEq, false_or] at h2
    obtain ⟨y, rfl, rfl⟩ := h2
    rfl

theorem readRot_iff {d : List (String × Yaml)} (hd : WF d) (R : M3) : readRot d = R ↔ SaysR d R := by
  have key : SaysR d (readRot d) := by
    unfold readRot SaysR
    split
    · rename_i h
      right
      refine ⟨?_, rfl⟩
      intro v l hv hN hl
      exfalso
      have : (findOne [["rotation", "data"], ["rotation"], ["R"]] d).bind (asArray 9) = some l := by
        rw [Option.bind_eq_some_iff]
        exact ⟨v, (findOne_iff hd _ v).mpr hv, (asArray_iff _ _ _).mpr ⟨hN, hl⟩⟩
      rw [this] at h
      exact absurd h (by simp)
    · rename_i l h
      rw [Option.bind_eq_some_iff] at h
      obtain ⟨v, hv, hl⟩ := h
      rw [asArray_iff] at hl
      split
      · rename_i hz
        right
        refine ⟨?_, rfl⟩
        intro v' l' hv' hN' _
        have e := only_unique hd hv' ((findOne_iff hd _ v).mp hv)
        subst e
        have e := numbers_unique hN' hl.1
        subst e
        exact (sumsq_zero _).mp hz
      · rename_i hz
        left
        obtain ⟨hN, hlen⟩ := hl
        match l, hlen with
        | [m0, m1, m2, m3, m4, m5, m6, m7, m8], _ =>
          refine ⟨v, m0, m1, m2, m3, m4, m5, m6, m7, m8, (findOne_iff hd _ v).mp hv, hN, ?_, rfl⟩
          by_contra hh
          apply hz
          rw [sumsq_zero]
          intro x hx
          by_contra hne
          exact hh ⟨x, hx, hne⟩
  constructor
  · rintro rfl; exact key
  · intro h
    unfold SaysR at h key
    rcases h with ⟨v, a, b, c, e, f, g, h, i, j, hv, hN, hx, hR⟩ | ⟨hz, hR⟩
    · rcases key with ⟨v', a', b', c', e', f', g', h', i', j', hv', hN', hx', hR'⟩ | ⟨hz', hR'⟩
      · have ev := only_unique hd hv hv'
        subst ev
        have el := numbers_unique hN hN'
        simp only [List.cons.injEq, and_true] at el
        obtain ⟨rfl, rfl, rfl, rfl, rfl, rfl, rfl, rfl, rfl⟩ := el
        rw [hR, hR']
      · obtain ⟨x, hx1, hx2⟩ := hx
        exact absurd (hz' v _ hv hN rfl x hx1) hx2
    · rcases key with ⟨v', a', b', c', e', f', g', h', i', j', hv', hN', hx', hR'⟩ | ⟨hz', hR'⟩
      · obtain ⟨x, hx1, hx2⟩ := hx'
        exact absurd (hz v' _ hv' hN' rfl x hx1) hx2
      · rw [hR, hR']

theorem only_single {d : List (String × Yaml)} (k : String) (v : Yaml) : Only d [[k]] v ↔ (k, v) ∈ d ∧ (∀ d', v ≠ .dict d') ∧ v ≠ .null := by
  unfold Only
  constructor
  · rintro ⟨l1, s, l2, h, h2, -, -⟩
    cases l1 with
    | nil => simp at h; obtain ⟨rfl, rfl⟩ := h; exact h2
    | cons a l1 => simp at h
  · intro h
    exact ⟨[], [k], [], rfl, h, by simp, by simp⟩

theorem readLens_iff {d : List (String × Yaml)} (hd : WF d) (L : Lens) : readLens d = some L ↔ SaysLens d L := by
  unfold readLens SaysLens
  simp only [Option.bind_eq_bind]
  rw [Option.bind_eq_some_iff]
  constructor
  · rintro ⟨s, h, h2⟩
    rw [Option.bind_eq_some_iff] at h
    obtain ⟨v, hv, hs⟩ := h
    rw [findOne_iff hd, only_single] at hv
    cases v with
    | str s' =>
      simp only [asStr, Option.some.injEq] at hs
      subst hs
      split_ifs at h2 with h3 h4
      · subst h3; simp only [Option.some.injEq] at h2; exact Or.inl ⟨hv.1, h2.symm⟩
      · subst h4; simp only [Option.some.injEq] at h2; exact Or.inr ⟨hv.1, h2.symm⟩
    | _ => simp [asStr] at hs
  · rintro (⟨h, rfl⟩ | ⟨h, rfl⟩)
    · refine ⟨"plumb_bob", ?_, by simp⟩
      rw [Option.bind_eq_some_iff]
      exact ⟨.str "plumb_bob", by rw [findOne_iff hd, only_single]; exact ⟨h, by simp, by simp⟩, rfl⟩
    · refine ⟨"rational_polynomial", ?_, by simp⟩
      rw [Option.bind_eq_some_iff]
      exact ⟨.str "rational_polynomial", by rw [findOne_iff hd, only_single]; exact ⟨h, by simp, by simp⟩, rfl⟩

theorem trunc_iff (x : ℝ) (n : Int) : (if 0 ≤ x then ⌊x⌋ else ⌈x⌉) = n ↔ (0 ≤ x ∧ (n : ℝ) ≤ x ∧ x < n + 1 ∨ x < 0 ∧ x ≤ n ∧ (n : ℝ) - 1 < x) := by
  split_ifs with h
  · rw [Int.floor_eq_iff]
    constructor
    · rintro ⟨a, b⟩; exact Or.inl ⟨h, a, b⟩
    · rintro (⟨-, a, b⟩ | ⟨a, -, -⟩)
      · exact ⟨a, b⟩
      · linarith
  · rw [Int.ceil_eq_iff]
    constructor
    · rintro ⟨a, b⟩; exact Or.inr ⟨not_le.mp h, b, a⟩
    · rintro (⟨a, -, -⟩ | ⟨-, a, b⟩)
      · exact absurd a h
      · exact ⟨b, a⟩

theorem size_iff {d : List (String × Yaml)} (hd : WF d) (a b : String) (n : Int) : (findOne [[a], [b]] d).bind asInt = some n ↔ SaysSize d a b n := by
  rw [Option.bind_eq_some_iff]
  unfold SaysSize
  constructor
  · rintro ⟨v, hv, hn⟩
    rw [findOne_iff hd] at hv
    unfold asInt at hn
    split at hn
    · rename_i x
      rw [Option.some.injEq, trunc_iff] at hn
      exact ⟨_, x, hv, Or.inl rfl, hn⟩
    · rename_i x
      rw [Option.some.injEq, trunc_iff] at hn
      exact ⟨_, x, hv, Or.inr rfl, hn⟩
    · exact absurd hn (by simp)
  · rintro ⟨v, x, hv, h, hn⟩
    refine ⟨v, (findOne_iff hd _ v).mpr hv, ?_⟩
    rcases h with rfl | rfl
    · simp only [asInt]; rw [Option.some.injEq, trunc_iff]; exact hn
    · simp only [asInt]; rw [Option.some.injEq, trunc_iff]; exact hn

theorem rotError_zero {R : M3} (h : Orth R) : rotError R = 0 := by
  obtain ⟨r0, r1, r2, r01, r02, r12⟩ := h.rows
  have e : mul R (transpose R) = identityR := by
    ext <;> simp [mul, vecMul, transpose, identityR] <;> linarith
  unfold rotError
  rw [e]
  simp [identityR]

/-- how far a matrix is from an orthogonal one: the squared Frobenius norm of R Rᵗ - I -/
def NearOrth (R : M3) : Prop := ∑ i, ∑ j, ((toMat R * (toMat R).transpose - 1) i j) ^ 2 ≤ 1e-12

theorem rotError_near (R : M3) : rotError R ≤ 1e-12 ↔ NearOrth R := by
  have : ∑ i, ∑ j, ((toMat R * (toMat R).transpose - 1) i j) ^ 2 = rotError R := by
    simp only [Fin.sum_univ_three, toMat, Matrix.sub_apply, Matrix.mul_apply, Matrix.transpose_apply, rotError, mul, vecMul, transpose]
    simp [Matrix.one_apply]
    ring
  unfold NearOrth
  rw [this]

/-- the content of the file is what makes this model: all the fields. The rotation must be orthogonal, up to rounding -/
structure Describes (d : List (String × Yaml)) (m : CModel) : Prop where
  lens : SaysLens d m.lens
  intr : ∃ fx fy cx cy k v, SaysK d fx fy cx cy ∧ Only d (names "D" "distortion_coefficients") v ∧ v = .list k ∧ m.intr = [fx, fy, cx, cy] ++ k
  count : (m.intr.length : Int) = m.lens.numParams
  width : SaysSize d "image_width" "width" m.dims.1
  height : SaysSize d "image_height" "height" m.dims.2
  positive : 0 < m.dims.1 ∧ 0 < m.dims.2
  rotation : SaysR d m.pose.R ∧ NearOrth m.pose.R
  translation : ∃ P, SaysP d P ∧ P.getD 0 0 ≠ 0 ∧ m.pose.t = ⟨-P.getD 3 0 / P.getD 0 0, 0, 0⟩
  region : m.region = none

/-- **C89**: A file is accepted exactly if it has all the fields, each under exactly one of its names, with the right shapes, and the model that is read is the one the fields describe -/
theorem read_iff (d : List (String × Yaml)) (hd : WF d) (m : CModel) : read d = some m ↔ Describes d m := by
  have hP : ∀ P, SaysP d P → P.getD 7 0 = 0 ∧ P.getD 11 0 = 0 := by
    rintro P ⟨v, l, -, -, -, h7, h11, h⟩
    rcases h with ⟨-, e⟩ | ⟨-, e⟩
    · rw [e]; exact ⟨h7, h11⟩
    · rw [e]; exact ⟨rfl, rfl⟩
  have hD : ∀ k, (findOne [["distortion_coefficients", "data"], ["distortion_coefficients"], ["D"]] d).bind asFloats = some k ↔ ∃ v, Only d (names "D" "distortion_coefficients") v ∧ v = .list k := by
    intro k
    rw [Option.bind_eq_some_iff]
    constructor
    · rintro ⟨v, hv, hk⟩
      refine ⟨v, (findOne_iff hd _ v).mp hv, ?_⟩
      cases v <;> simp [asFloats] at hk ⊢
      exact hk
    · rintro ⟨v, hv, rfl⟩
      exact ⟨_, (findOne_iff hd _ _).mpr hv, rfl⟩
  unfold read
  simp only [Option.bind_eq_bind, Option.bind_eq_some_iff]
  constructor
  · rintro ⟨K, hK, P, hPP, L, hL, k, hk, w, hw, h, hh, e⟩
    rw [readK_iff hd] at hK
    rw [readP_iff hd] at hPP
    rw [readLens_iff hd] at hL
    rw [← Option.bind_eq_some_iff, hD] at hk
    rw [← Option.bind_eq_some_iff, size_iff hd] at hw hh
    obtain ⟨fx, fy, cx, cy, hK, rfl⟩ := hK
    obtain ⟨v, hv, hvk⟩ := hk
    split_ifs at e with e1 e2 e3 e4
    simp only [Option.some.injEq] at e
    subst e
    obtain ⟨p7, p11⟩ := hP P hPP
    simp only [not_or, not_le] at e3
    simp only [not_not] at e4
    refine ⟨hL, ⟨fx, fy, cx, cy, k, v, hK, hv, hvk, rfl⟩, e4, hw, hh, e3, ⟨(readRot_iff hd _).mp rfl, (rotError_near _).mp (not_lt.mp e1)⟩, ⟨P, hPP, e2, ?_⟩, rfl⟩
    simp only
    rw [p7, p11]
    simp
  · rintro ⟨hL, ⟨fx, fy, cx, cy, k, v, hK, hv, hvk, hi⟩, hc, hw, hh, hpos, ⟨hR, hRe⟩, ⟨P, hPP, hP0, ht⟩, hreg⟩
    obtain ⟨p7, p11⟩ := hP P hPP
    refine ⟨[fx, fy, cx, cy], (readK_iff hd _).mpr ⟨fx, fy, cx, cy, hK, rfl⟩, P, (readP_iff hd _).mpr hPP, m.lens, (readLens_iff hd _).mpr hL, k, ?_, m.dims.1, ?_, m.dims.2, ?_, ?_⟩
    · rw [← Option.bind_eq_some_iff]; exact (hD k).mpr ⟨v, hv, hvk⟩
    · rw [← Option.bind_eq_some_iff]; exact (size_iff hd _ _ _).mpr hw
    · rw [← Option.bind_eq_some_iff]; exact (size_iff hd _ _ _).mpr hh
    · rw [(readRot_iff hd _).mpr hR, if_neg (not_lt.mpr ((rotError_near _).mpr hRe)), if_neg hP0, if_neg (by simp only [not_or, not_le]; exact hpos), ← hi, if_neg (not_not.mpr hc), p7, p11]
      simp only [Option.some.injEq]
      obtain ⟨a, b, ⟨c1, c2⟩, ⟨e1, e2⟩, g⟩ := m
      simp only at ht hreg ⊢
      rw [ht, hreg]
      simp

/-- **C89**: If something is there under two of its names, the file is refused. Here: the camera matrix -/
theorem read_ambiguous (d : List (String × Yaml)) (hd : WF d) (v w : Yaml) (h1 : Has d ["camera_matrix", "data"] v) (h2 : Has d ["K"] w) : read d = none := by
  by_contra h
  obtain ⟨m, hm⟩ := Option.ne_none_iff_exists'.mp h
  obtain ⟨fx, fy, cx, cy, k, v', ⟨u, ⟨l1, s, l2, e, hs, n1, n2⟩, -⟩, -⟩ := ((read_iff d hd m).mp hm).intr
  unfold names at e
  match l1, e with
  | [], e =>
    simp only [List.nil_append, List.cons.injEq] at e
    exact n2 ["K"] (by rw [← e.2]; simp) w h2
  | [a], e =>
    simp only [List.cons_append, List.nil_append, List.cons.injEq] at e
    exact n1 ["camera_matrix", "data"] (by rw [← e.1]; simp) v h1
  | a :: b :: l, e =>
    simp only [List.cons_append, List.cons.injEq] at e
    exact n1 ["camera_matrix", "data"] (by rw [← e.1]; simp) v h1

/-- **C89**: The pose agrees with the convention of ROS: for each point X in the coordinates of the left rectified camera, with p the same point in the coordinates of this camera: the
projection matrix P applied to (X,1) is what its left part produces for the rotated point R p -/
theorem read_rectified (d : List (String × Yaml)) (hd : WF d) (m : CModel) (hr : read d = some m) (ho : Orth m.pose.R) (P : List ℝ) (hP : SaysP d P) (h4 : P.getD 4 0 = 0) (h8 : P.getD 8 0 = 0)
    (X p Y : P3) (hp : p = transformPointRt m.pose X true) (hY : Y = mulVec m.pose.R p) :
    P.getD 0 0 * X.x + P.getD 1 0 * X.y + P.getD 2 0 * X.z + P.getD 3 0 = P.getD 0 0 * Y.x + P.getD 1 0 * Y.y + P.getD 2 0 * Y.z ∧
    P.getD 4 0 * X.x + P.getD 5 0 * X.y + P.getD 6 0 * X.z + P.getD 7 0 = P.getD 4 0 * Y.x + P.getD 5 0 * Y.y + P.getD 6 0 * Y.z ∧
    P.getD 8 0 * X.x + P.getD 9 0 * X.y + P.getD 10 0 * X.z + P.getD 11 0 = P.getD 8 0 * Y.x + P.getD 9 0 * Y.y + P.getD 10 0 * Y.z := by
  obtain ⟨P', hP', h0, ht⟩ := ((read_iff d hd m).mp hr).translation
  have e : P' = P := by
    rw [← readP_iff hd] at hP hP'
    rw [hP] at hP'
    exact (Option.some.inj hP').symm
  subst e
  obtain ⟨v, l, -, -, -, h7, h11, h⟩ := hP
  have h7' : P'.getD 7 0 = 0 := by
    rcases h with ⟨-, e⟩ | ⟨-, e⟩
    · rw [e]; exact h7
    · rw [e]; rfl
  have h11' : P'.getD 11 0 = 0 := by
    rcases h with ⟨-, e⟩ | ⟨-, e⟩
    · rw [e]; exact h11
    · rw [e]; rfl
  have hY' : Y = subP X m.pose.t := by
    have := (transform_inverted m.pose ho X).2
    rw [← hp] at this
    simp only [transformPointRt, rotatePointR] at this
    have hx := congrArg P3.x this
    have hy := congrArg P3.y this
    have hz := congrArg P3.z this
    simp [addP] at hx hy hz
    rw [← hY] at hx hy hz
    ext
    · simp only [subP]; linarith
    · simp only [subP]; linarith
    · simp only [subP]; linarith
  rw [ht] at hY'
  rw [hY', h4, h8, h7', h11']
  simp only [subP]
  refine ⟨?_, ?_, ?_⟩
  · field_simp; ring
  · ring
  · ring

/-! ### writing -/

/-- **Specification**: the lens models that can be written -/
def WritableLens (L : Lens) : Prop := L = .pinhole ∨ L = .opencv4 ∨ L = .opencv5 ∨ L = .opencv8

/-- **C89**: exactly these are written -/
theorem write_succeeds_iff (m : CModel) : (write m).isSome ↔ WritableLens m.lens := by
  unfold write writeDistortions WritableLens
  cases m.lens <;> simp

theorem read_written (m : CModel) (name : String) (k : List ℝ) (L : Lens) (hw : writeDistortions m = some (name, k)) (hn : name = "plumb_bob" ∧ L = .opencv5 ∨ name = "rational_polynomial" ∧ L = .opencv8)
    (hd : 0 < m.dims.1 ∧ 0 < m.dims.2) (hk : ((4 + k.length : Nat) : Int) = L.numParams) :
    ∃ d, write m = some d ∧ read d = some ⟨L, [at' m.intr 0, at' m.intr 1, at' m.intr 2, at' m.intr 3] ++ k, identityRt, m.dims, none⟩ := by
  obtain ⟨d, hdd⟩ : ∃ d, write m = some d := by unfold write; rw [hw]; exact ⟨_, rfl⟩
  refine ⟨d, hdd, ?_⟩
  unfold write at hdd
  rw [hw] at hdd
  simp only [Option.map_some, Option.some.injEq] at hdd
  have eK : readK d = some [at' m.intr 0, at' m.intr 1, at' m.intr 2, at' m.intr 3] := by
    have : findOne [["camera_matrix", "data"], ["camera_matrix"], ["K"]] d = some (.list [at' m.intr 0, 0, at' m.intr 2, 0, at' m.intr 1, at' m.intr 3, 0, 0, 1]) := by
      rw [← hdd]; simp [findOne, findSequence]
    unfold readK
    rw [this]
    simp [asArray, toM3]
  have eP : readP d = some [1, 0, 0, 0, 0, 1, 0, 0, 0, 0, 1, 0] := by
    have : findOne [["projection_matrix", "data"], ["projection_matrix"], ["P"]] d = some (.list [1, 0, 0, 0, 0, 1, 0, 0, 0, 0, 1, 0]) := by
      rw [← hdd]; simp [findOne, findSequence]
    unfold readP
    rw [this]
    simp [asArray]
  have eR : readRot d = identityR := by
    have : findOne [["rotation", "data"], ["rotation"], ["R"]] d = none := by
      rw [← hdd]; simp [findOne, findSequence]
    unfold readRot
    rw [this]
    rfl
  have eL : readLens d = some L := by
    have : findOne [["distortion_model"]] d = some (.str name) := by
      rw [← hdd]; simp [findOne, findSequence]
    unfold readLens
    rw [this]
    rcases hn with ⟨rfl, rfl⟩ | ⟨rfl, rfl⟩
    · simp [asStr]
    · simp [asStr]
  have eD : findOne [["distortion_coefficients", "data"], ["distortion_coefficients"], ["D"]] d = some (.list k) := by
    rw [← hdd]; simp [findOne, findSequence]
  have eW : findOne [["image_width"], ["width"]] d = some (.num m.dims.1) := by
    rw [← hdd]; simp [findOne, findSequence]
  have eH : findOne [["image_height"], ["height"]] d = some (.num m.dims.2) := by
    rw [← hdd]; simp [findOne, findSequence]
  have w0 : (0 : ℝ) ≤ (m.dims.1 : ℝ) := by exact_mod_cast hd.1.le
  have h0 : (0 : ℝ) ≤ (m.dims.2 : ℝ) := by exact_mod_cast hd.2.le
  have eo : ¬ rotError identityR > 1e-12 := by
    simp [rotError, identityR, mul, vecMul, transpose]; norm_num
  unfold read
  rw [eK, eP, eR, eL, eD, eW, eH]
  simp only [Option.bind_eq_bind, Option.bind_some, asFloats, asInt, if_pos w0, if_pos h0, Int.floor_intCast]
  rw [if_neg eo, if_neg (by simp), if_neg (by simp only [not_or, not_le]; exact hd), if_neg (by
    simp only [not_not]
    rw [← hk]; simp; ring)]
  simp [identityRt]

/-- **C89**: A model that is written and read observes each point (in camera coordinates) at the same pixel. A PINHOLE or OPENCV4 model becomes an OPENCV5 model; otherwise the
lens model and the intrinsics are the same. The pose is not kept: `pose_wrong` -/
theorem write_read_partial (m : CModel) (hl : (m.intr.length : Int) = m.lens.numParams) (hw : WritableLens m.lens) (hd : 0 < m.dims.1 ∧ 0 < m.dims.2) :
    ∃ d m', write m = some d ∧ read d = some m' ∧ m'.dims = m.dims ∧ (∀ p, lensPixel m'.lens (intrOf m'.intr) p = lensPixel m.lens (intrOf m.intr) p) ∧
      (m.lens = .opencv5 ∨ m.lens = .opencv8 → m'.lens = m.lens ∧ m'.intr = m.intr) ∧ (m'.lens = .opencv5 ∨ m'.lens = .opencv8) := by
  have n4 : 4 ≤ m.intr.length := by
    rcases hw with h | h | h | h <;> rw [h] at hl <;> simp only [Lens.numParams] at hl <;> omega
  have hsplit := split4 m.intr n4
  rcases hw with h | h | h | h
  · rw [h] at hl
    simp only [Lens.numParams] at hl
    have hdrop : m.intr.drop 4 = [] := List.drop_eq_nil_of_le (by omega)
    obtain ⟨d, h1, h2⟩ := read_written m "plumb_bob" (m.intr.drop 4 ++ [0, 0, 0, 0, 0]) .opencv5 (by unfold writeDistortions; rw [h]) (Or.inl ⟨rfl, rfl⟩) hd (by rw [hdrop]; rfl)
    refine ⟨d, _, h1, h2, rfl, fun p => ?_, fun hh => by rw [h] at hh; simp at hh, Or.inl rfl⟩
    rw [h, hdrop]
    simp only [lensPixel]
    rw [← ocv_zero_pinhole _ (fun _ => 0)]
    congr 2
    funext i
    simp only [padK]
    by_cases hi : i < 5
    · have : i = 0 ∨ i = 1 ∨ i = 2 ∨ i = 3 ∨ i = 4 := by omega
      rcases this with rfl | rfl | rfl | rfl | rfl <;> simp [nocoreOf, intrOf]
    · simp [hi]
  · rw [h] at hl
    simp only [Lens.numParams] at hl
    obtain ⟨l, hll⟩ : ∃ l, l = m.intr := ⟨_, rfl⟩
    have hlen' : l.length = 8 := by rw [hll]; omega
    match l, hlen' with
    | [i0, i1, i2, i3, i4, i5, i6, i7], _ =>
      have hdrop : m.intr.drop 4 = [i4, i5, i6, i7] := by rw [← hll]; rfl
      obtain ⟨d, h1, h2⟩ := read_written m "plumb_bob" (m.intr.drop 4 ++ [0]) .opencv5 (by unfold writeDistortions; rw [h]) (Or.inl ⟨rfl, rfl⟩) hd (by rw [hdrop]; rfl)
      refine ⟨d, _, h1, h2, rfl, fun p => ?_, fun hh => by rw [h] at hh; simp at hh, Or.inl rfl⟩
      rw [h, hdrop]
      unfold at'
      rw [← hll]
      simp only [lensPixel]
      congr 2
      funext i
      simp only [padK]
      by_cases hi : i < 5
      · have : i = 0 ∨ i = 1 ∨ i = 2 ∨ i = 3 ∨ i = 4 := by omega
        rcases this with rfl | rfl | rfl | rfl | rfl <;> simp [nocoreOf, intrOf]
      · have : ¬ i < 4 := by omega
        simp [hi, this]
  · rw [h] at hl
    simp only [Lens.numParams] at hl
    obtain ⟨d, h1, h2⟩ := read_written m "plumb_bob" (m.intr.drop 4) .opencv5 (by unfold writeDistortions; rw [h]) (Or.inl ⟨rfl, rfl⟩) hd (by rw [List.length_drop]; simp only [Lens.numParams]; omega)
    have hi : [at' m.intr 0, at' m.intr 1, at' m.intr 2, at' m.intr 3] ++ m.intr.drop 4 = m.intr := hsplit
    rw [hi] at h2
    refine ⟨d, _, h1, h2, rfl, fun p => ?_, fun _ => ⟨h.symm, rfl⟩, Or.inl rfl⟩
    rw [h]
  · rw [h] at hl
    simp only [Lens.numParams] at hl
    obtain ⟨d, h1, h2⟩ := read_written m "rational_polynomial" (m.intr.drop 4) .opencv8 (by unfold writeDistortions; rw [h]) (Or.inr ⟨rfl, rfl⟩) hd (by rw [List.length_drop]; simp only [Lens.numParams]; omega)
    have hi : [at' m.intr 0, at' m.intr 1, at' m.intr 2, at' m.intr 3] ++ m.intr.drop 4 = m.intr := hsplit
    rw [hi] at h2
    refine ⟨d, _, h1, h2, rfl, fun p => ?_, fun _ => ⟨h.symm, rfl⟩, Or.inr rfl⟩
    rw [h]

/-! ### where it doesn't hold, and examples -/

/-- the hypotheses of `write_read_partial` can be met -/
noncomputable def exOcv : CModel :=
  ⟨.opencv4, [1000, 1100, 640, 480, 1 / 10, -1 / 20, 1 / 100, -1 / 50], ⟨⟨0, -1, 0, 1, 0, 0, 0, 0, 1⟩, ⟨1, 2, 3⟩⟩, (1280, 960), none⟩

example : ∃ d m', write exOcv = some d ∧ read d = some m' ∧ ∀ p, lensPixel m'.lens (intrOf m'.intr) p = lensPixel .opencv4 (intrOf exOcv.intr) p := by
  obtain ⟨d, m', h1, h2, -, h3, -⟩ := write_read_partial exOcv rfl (Or.inr (Or.inl rfl)) ⟨by decide, by decide⟩
  exact ⟨d, m', h1, h2, h3⟩

/-- **C89, in general false**: "the camera is where it was": the pose is not written -/
theorem pose_wrong : ∃ m d m', write m = some d ∧ read d = some m' ∧ m'.pose ≠ m.pose := by
  obtain ⟨d, h1, h2⟩ := read_written exOcv "plumb_bob" (exOcv.intr.drop 4 ++ [0]) .opencv5 rfl (Or.inl ⟨rfl, rfl⟩) ⟨by decide, by decide⟩ rfl
  refine ⟨exOcv, d, _, h1, h2, fun e => ?_⟩
  have := congrArg (fun x => x.t.x) e
  simp [exOcv, identityRt] at this

/-- a `sensor_msgs/CameraInfo` message of the right camera of a stereo pair, as printed by rostopic. The baseline is 1/2, the camera is rotated by 90 degrees around its z axis. `rname` is the name of the rotation -/
noncomputable def exMsg (rname : String) (R : List ℝ) : List (String × Yaml) :=
  [("height", .num 600), ("width", .num 960), ("distortion_model", .str "plumb_bob"), ("D", .list [1, 2, 3, 4, 5]), ("K", .list [420, 0, 479, 0, 421, 295, 0, 0, 1]),
   (rname, .list R), ("P", .list [600, 0, 480, -300, 0, 600, 300, 0, 0, 0, 1, 0])]

theorem exMsg_read (rname : String) (R : List ℝ) (M : M3) (hM : readRot (exMsg rname R) = M) (ho : Orth M)
    (hn : rname ≠ "height" ∧ rname ≠ "width" ∧ rname ≠ "distortion_model" ∧ rname ≠ "D" ∧ rname ≠ "K" ∧ rname ≠ "P" ∧
      rname ≠ "camera_matrix" ∧ rname ≠ "distortion_coefficients" ∧ rname ≠ "projection_matrix" ∧ rname ≠ "image_width" ∧ rname ≠ "image_height") :
    read (exMsg rname R) = some ⟨.opencv5, [420, 421, 479, 295, 1, 2, 3, 4, 5], ⟨M, ⟨1 / 2, 0, 0⟩⟩, (960, 600), none⟩ := by
  obtain ⟨n1, n2, n3, n4, n5, n6, n7, n8, n9, n10, n11⟩ := hn
  have eK : readK (exMsg rname R) = some [420, 421, 479, 295] := by
    have : findOne [["camera_matrix", "data"], ["camera_matrix"], ["K"]] (exMsg rname R) = some (.list [420, 0, 479, 0, 421, 295, 0, 0, 1]) := by
      simp [exMsg, findOne, findSequence, n7]
    unfold readK
    rw [this]
    simp [asArray, toM3]
  have eP : readP (exMsg rname R) = some [600, 0, 480, -300, 0, 600, 300, 0, 0, 0, 1, 0] := by
    have : findOne [["projection_matrix", "data"], ["projection_matrix"], ["P"]] (exMsg rname R) = some (.list [600, 0, 480, -300, 0, 600, 300, 0, 0, 0, 1, 0]) := by
      simp [exMsg, findOne, findSequence, n6, n9]
    unfold readP
    rw [this]
    norm_num [asArray]
  have eL : readLens (exMsg rname R) = some .opencv5 := by
    have : findOne [["distortion_model"]] (exMsg rname R) = some (.str "plumb_bob") := by
      simp [exMsg, findOne, findSequence]
    unfold readLens
    rw [this]
    simp [asStr]
  have eD : findOne [["distortion_coefficients", "data"], ["distortion_coefficients"], ["D"]] (exMsg rname R) = some (.list [1, 2, 3, 4, 5]) := by
    simp [exMsg, findOne, findSequence, n8]
  have eW : findOne [["image_width"], ["width"]] (exMsg rname R) = some (.num 960) := by
    simp [exMsg, findOne, findSequence, n10]
  have eH : findOne [["image_height"], ["height"]] (exMsg rname R) = some (.num 600) := by
    simp [exMsg, findOne, findSequence, n11]
  have f1 : ⌊(960 : ℝ)⌋ = 960 := by rw [Int.floor_eq_iff]; norm_num
  have f2 : ⌊(600 : ℝ)⌋ = 600 := by rw [Int.floor_eq_iff]; norm_num
  unfold read
  rw [eK, eP, hM, eL, eD, eW, eH]
  have w0 : (0 : ℝ) ≤ 960 := by norm_num
  have h0 : (0 : ℝ) ≤ 600 := by norm_num
  have ho' : ¬ rotError M > 1e-12 := by rw [rotError_zero ho]; norm_num
  simp only [Option.bind_eq_bind, Option.bind_some, asFloats, asInt, if_pos w0, if_pos h0, f1, f2]
  rw [if_neg ho', if_neg (by norm_num), if_neg (by norm_num), if_neg (by simp [Lens.numParams])]
  norm_num

theorem orth_rz90 : Orth ⟨0, -1, 0, 1, 0, 0, 0, 0, 1⟩ := by
  unfold Orth
  ext i j
  fin_cases i <;> fin_cases j <;> simp [toMat, Matrix.mul_apply, Fin.sum_univ_three]

theorem orth_id : Orth identityR := by
  unfold Orth
  ext i j
  fin_cases i <;> fin_cases j <;> simp [toMat, identityR, Matrix.mul_apply, Fin.sum_univ_three]

theorem orth_mirror : Orth ⟨1, 0, 0, 0, 1, 0, 0, 0, -1⟩ := by
  unfold Orth
  ext i j
  fin_cases i <;> fin_cases j <;> simp [toMat, Matrix.mul_apply, Fin.sum_univ_three]

/-- the message is read: the camera is 1/2 to the right of the left one -/
theorem exMsg_R : read (exMsg "R" [0, -1, 0, 1, 0, 0, 0, 0, 1]) = some ⟨.opencv5, [420, 421, 479, 295, 1, 2, 3, 4, 5], ⟨⟨0, -1, 0, 1, 0, 0, 0, 0, 1⟩, ⟨1 / 2, 0, 0⟩⟩, (960, 600), none⟩ := by
  apply exMsg_read _ _ _ _ orth_rz90 (by decide)
  have : findOne [["rotation", "data"], ["rotation"], ["R"]] (exMsg "R" [0, -1, 0, 1, 0, 0, 0, 0, 1]) = some (.list [0, -1, 0, 1, 0, 0, 0, 0, 1]) := by
    simp [exMsg, findOne, findSequence]
  unfold readRot
  rw [this]
  simp only [Option.bind_some, asArray]
  norm_num [toM3]

theorem exMsg_wf (rname : String) (R : List ℝ) (h : ((exMsg rname R).map Prod.fst).Nodup) : WF (exMsg rname R) := by
  refine ⟨_, h, ?_⟩
  intro k d' hm
  simp [exMsg] at hm

/-- the hypotheses of `read_iff`, `read_rectified` can be met -/
example : WF (exMsg "R" [0, -1, 0, 1, 0, 0, 0, 0, 1]) ∧ SaysP (exMsg "R" [0, -1, 0, 1, 0, 0, 0, 0, 1]) [600, 0, 480, -300, 0, 600, 300, 0, 0, 0, 1, 0] := by
  have h : WF (exMsg "R" [0, -1, 0, 1, 0, 0, 0, 0, 1]) := exMsg_wf _ _ (by simp [exMsg])
  refine ⟨h, (readP_iff h _).mp ?_⟩
  have : findOne [["projection_matrix", "data"], ["projection_matrix"], ["P"]] (exMsg "R" [0, -1, 0, 1, 0, 0, 0, 0, 1]) = some (.list [600, 0, 480, -300, 0, 600, 300, 0, 0, 0, 1, 0]) := by
    simp [exMsg, findOne, findSequence]
  unfold readP
  rw [this]
  norm_num [asArray]

/-- the hypotheses of `read_ambiguous` can be met -/
example : ∃ d v w, WF d ∧ Has d ["camera_matrix", "data"] v ∧ Has d ["K"] w :=
  ⟨[("camera_matrix", .dict [("data", .list [])]), ("K", .list [])], .list [], .list [], ⟨_, by simp, fun k d' h => by
      simp at h
      obtain ⟨rfl, rfl⟩ := h
      exact ⟨_, by simp, fun k d' h => by simp at h⟩⟩, ⟨_, List.mem_cons_self, by simp [Has]⟩, by simp [Has]⟩

/-- **C89, in general false**: "the rectifying rotation in the file is used": in the files that `camera_calibration_parsers` of ROS writes (the sample in the documentation of the function) its name is
`rectification_matrix`. This name isn't known, and the rotation is silently ignored -/
theorem rectification_wrong : ∃ m, read (exMsg "rectification_matrix" [0, -1, 0, 1, 0, 0, 0, 0, 1]) = some m ∧ m.pose.R = identityR := by
  refine ⟨_, exMsg_read _ _ identityR ?_ orth_id (by decide), rfl⟩
  have : findOne [["rotation", "data"], ["rotation"], ["R"]] (exMsg "rectification_matrix" [0, -1, 0, 1, 0, 0, 0, 0, 1]) = none := by
    simp [exMsg, findOne, findSequence]
  unfold readRot
  rw [this]
  rfl

/-- **C89, in general false**: "the rotation is a valid rotation": a mirror is accepted -/
theorem mirror_wrong : ∃ m, read (exMsg "R" [1, 0, 0, 0, 1, 0, 0, 0, -1]) = some m ∧ ¬ IsRot m.pose.R := by
  refine ⟨_, exMsg_read _ _ ⟨1, 0, 0, 0, 1, 0, 0, 0, -1⟩ ?_ orth_mirror (by decide), ?_⟩
  · have : findOne [["rotation", "data"], ["rotation"], ["R"]] (exMsg "R" [1, 0, 0, 0, 1, 0, 0, 0, -1]) = some (.list [1, 0, 0, 0, 1, 0, 0, 0, -1]) := by
      simp [exMsg, findOne, findSequence]
    unfold readRot
    rw [this]
    simp only [Option.bind_some, asArray]
    norm_num [toM3]
  · rintro ⟨-, h⟩
    rw [Matrix.det_fin_three] at h
    simp [toMat] at h
    norm_num at h

end Mrcal.RosFile

import Verif.Props.CornersRead
/-
compute_chessboard_corners(): what is returned
-/
namespace Mrcal.Corners

/-! The two stable sorts -/

theorem sort_frames (l : List (Name × Nat × Nat)) :
    ((l.mergeSort fun a b => a.2.2 ≤ b.2.2).mergeSort fun a b => a.2.1 ≤ b.2.1).Pairwise fun a b => a.2.1 < b.2.1 ∨ a.2.1 = b.2.1 ∧ a.2.2 ≤ b.2.2 := by
  obtain ⟨l1, hl1⟩ : ∃ x, x = l.mergeSort fun a b => decide (a.2.2 ≤ b.2.2) := ⟨_, rfl⟩
  rw [← hl1]
  have h1 : l1.Pairwise fun a b => a.2.2 ≤ b.2.2 := by
    rw [hl1]
    have := List.pairwise_mergeSort (le := fun a b : Name × Nat × Nat => decide (a.2.2 ≤ b.2.2)) (by intro a b c; simp; omega) (by intro a b; simp; omega) l
    exact this.imp (by intro a b; simp)
  obtain ⟨l2, hl2⟩ : ∃ x, x = l1.mergeSort fun a b => decide (a.2.1 ≤ b.2.1) := ⟨_, rfl⟩
  have ht : ∀ a b c : Name × Nat × Nat, decide (a.2.1 ≤ b.2.1) = true → decide (b.2.1 ≤ c.2.1) = true → decide (a.2.1 ≤ c.2.1) = true := by intro a b c; simp; omega
  have hto : ∀ a b : Name × Nat × Nat, (decide (a.2.1 ≤ b.2.1) || decide (b.2.1 ≤ a.2.1)) = true := by intro a b; simp; omega
  have h2 : l2.Pairwise fun a b => a.2.1 ≤ b.2.1 := by
    rw [hl2]
    exact (List.pairwise_mergeSort ht hto l1).imp (by intro a b; simp)
  have hperm : l2.Perm l1 := by rw [hl2]; exact List.mergeSort_perm _ _
  rw [← hl2, List.pairwise_iff_forall_sublist]
  intro a b hab
  have hle : a.2.1 ≤ b.2.1 := List.pairwise_iff_forall_sublist.mp h2 hab
  rcases Nat.lt_or_eq_of_le hle with h | h
  · exact Or.inl h
  · right
    refine ⟨h, ?_⟩
    have hs : (l1.filter fun x => x.2.1 = a.2.1).Sublist l2 := by
      rw [hl2]
      refine List.sublist_mergeSort ht hto ?_ List.filter_sublist
      rw [List.pairwise_filter]
      apply List.Pairwise.imp _ h1
      intro x y _ hx hy
      simp at hx hy ⊢
      omega
    have hs2 : (l1.filter fun x => x.2.1 = a.2.1).Sublist (l2.filter fun x => x.2.1 = a.2.1) := by
      have := hs.filter (fun x => decide (x.2.1 = a.2.1))
      rwa [List.filter_filter, List.filter_congr (q := fun x => decide (x.2.1 = a.2.1)) (by simp)] at this
    have heq : l1.filter (fun x => x.2.1 = a.2.1) = l2.filter fun x => x.2.1 = a.2.1 := hs2.eq_of_length (hperm.filter _).length_eq.symm
    have hab2 : [a, b].Sublist (l2.filter fun x => x.2.1 = a.2.1) := by
      have := hab.filter (fun x => decide (x.2.1 = a.2.1))
      simpa [h] using this
    rw [← heq] at hab2
    exact List.pairwise_iff_forall_sublist.mp h1 (hab2.trans List.filter_sublist)

/-! The frame indices -/

theorem indices_length (l : List (Name × Nat × Nat)) : ∀ o k, (indices o k l).length = l.length := by
  induction l with
  | nil => intro o k; rfl
  | cons x l ih => intro o k; obtain ⟨f, n, c⟩ := x; simp [indices, ih]

theorem indices_some (l : List (Name × Nat × Nat)) : ∀ (last : Nat) (k : Int), (∀ x ∈ l, last ≤ x.2.1) → l.Pairwise (fun a b => a.2.1 ≤ b.2.1) →
    (∀ (i : Nat) (ki : Int) (f : Name) (n c ci : Nat), l[i]? = some (f, n, c) → (indices (some last) k l)[i]? = some (ki, ci) → ci = c ∧ k ≤ ki ∧ (k < ki ↔ last < n))
    ∧ (∀ (i j : Nat) (ki kj : Int) (fi fj : Name) (ni ci ci' nj cj cj' : Nat), l[i]? = some (fi, ni, ci) → l[j]? = some (fj, nj, cj) → (indices (some last) k l)[i]? = some (ki, ci') → (indices (some last) k l)[j]? = some (kj, cj') → (ki < kj ↔ ni < nj))
    ∧ ∀ (i : Nat) (ki : Int) (ci : Nat), (indices (some last) k l)[i]? = some (ki, ci) → ∀ k', k < k' → k' ≤ ki → ∃ (j : Nat) (c' : Nat), (indices (some last) k l)[j]? = some (k', c') := by
  induction l with
  | nil => intro last k _ _; simp [indices]
  | cons x l ih =>
    intro last k hge hpw
    obtain ⟨f0, n0, c0⟩ := x
    rw [List.pairwise_cons] at hpw
    have h0 : last ≤ n0 := hge (f0, n0, c0) (by simp)
    obtain ⟨k1, hk1⟩ : ∃ k1, k1 = if (some last : Option Nat) = none ∨ (some last : Option Nat) ≠ some n0 then k + 1 else k := ⟨_, rfl⟩
    have hk : (k1 = k ∧ last = n0) ∨ (k1 = k + 1 ∧ last < n0) := by
      rw [hk1]
      by_cases h : last = n0
      · left; simp [h]
      · right; simp [h]; omega
    have hind : indices (some last) k ((f0, n0, c0) :: l) = (k1, c0) :: indices (some n0) k1 l := by rw [hk1]; rfl
    rw [hind]
    obtain ⟨a1, a2, a3⟩ := ih n0 k1 (fun x hx => hpw.1 x hx) hpw.2
    refine ⟨?_, ?_, ?_⟩
    · intro i ki f n c ci h1 h2
      cases i with
      | zero =>
        simp at h1 h2
        obtain ⟨rfl, rfl, rfl⟩ := h1
        obtain ⟨rfl, rfl⟩ := h2
        refine ⟨rfl, ?_, ?_⟩
        · omega
        · omega
      | succ i =>
        simp at h1 h2
        obtain ⟨b1, b2, b3⟩ := a1 i ki f n c ci h1 h2
        have := hpw.1 _ (List.mem_of_getElem? h1)
        refine ⟨b1, by omega, ?_⟩
        simp only at this
        omega
    · intro i j ki kj fi fj ni ci ci' nj cj cj' h1 h2 h3 h4
      cases i with
      | zero =>
        simp at h1 h3
        obtain ⟨rfl, rfl, rfl⟩ := h1
        obtain ⟨rfl, rfl⟩ := h3
        cases j with
        | zero =>
          simp at h2 h4
          obtain ⟨rfl, rfl, rfl⟩ := h2
          obtain ⟨rfl, rfl⟩ := h4
          simp
        | succ j =>
          simp at h2 h4
          exact (a1 j kj fj nj cj cj' h2 h4).2.2
      | succ i =>
        simp at h1 h3
        cases j with
        | zero =>
          simp at h2 h4
          obtain ⟨rfl, rfl, rfl⟩ := h2
          obtain ⟨rfl, rfl⟩ := h4
          have b := a1 i ki fi ni ci ci' h1 h3
          have := hpw.1 _ (List.mem_of_getElem? h1)
          simp only at this
          omega
        | succ j =>
          simp at h2 h4
          exact a2 i j ki kj fi fj ni ci ci' nj cj cj' h1 h2 h3 h4
    · intro i ki ci h1 k' hk' hle
      by_cases he : k' = k1
      · exact ⟨0, c0, by rw [he]; rfl⟩
      · cases i with
        | zero =>
          simp at h1
          omega
        | succ i =>
          simp at h1
          obtain ⟨j, c', hj⟩ := a3 i ki ci h1 k' (by omega) hle
          exact ⟨j + 1, c', by simpa using hj⟩

/-- the frame indices start at 0, and follow the frame numbers -/
theorem indices_none (l : List (Name × Nat × Nat)) (hpw : l.Pairwise fun a b => a.2.1 ≤ b.2.1) :
    (∀ (i : Nat) (ki : Int) (f : Name) (n c ci : Nat), l[i]? = some (f, n, c) → (indices none (-1) l)[i]? = some (ki, ci) → ci = c ∧ 0 ≤ ki)
    ∧ (∀ (i j : Nat) (ki kj : Int) (fi fj : Name) (ni ci ci' nj cj cj' : Nat), l[i]? = some (fi, ni, ci) → l[j]? = some (fj, nj, cj) → (indices none (-1) l)[i]? = some (ki, ci') → (indices none (-1) l)[j]? = some (kj, cj') → (ki < kj ↔ ni < nj))
    ∧ ∀ (i : Nat) (ki : Int) (ci : Nat), (indices none (-1) l)[i]? = some (ki, ci) → ∀ k', 0 ≤ k' → k' ≤ ki → ∃ (j : Nat) (c' : Nat), (indices none (-1) l)[j]? = some (k', c') := by
  rcases l with _ | ⟨⟨f0, n0, c0⟩, l⟩
  · simp [indices]
  rw [List.pairwise_cons] at hpw
  have hind : indices none (-1) ((f0, n0, c0) :: l) = (0, c0) :: indices (some n0) 0 l := by simp [indices]
  rw [hind]
  obtain ⟨a1, a2, a3⟩ := indices_some l n0 0 (fun x hx => hpw.1 x hx) hpw.2
  refine ⟨?_, ?_, ?_⟩
  · intro i ki f n c ci h1 h2
    cases i with
    | zero =>
      simp at h1 h2
      exact ⟨h2.2.symm.trans h1.2.2, by omega⟩
    | succ i =>
      simp at h1 h2
      obtain ⟨b1, b2, -⟩ := a1 i ki f n c ci h1 h2
      exact ⟨b1, b2⟩
  · intro i j ki kj fi fj ni ci ci' nj cj cj' h1 h2 h3 h4
    cases i with
    | zero =>
      simp at h1 h3
      obtain ⟨rfl, rfl, rfl⟩ := h1
      obtain ⟨rfl, rfl⟩ := h3
      cases j with
      | zero =>
        simp at h2 h4
        obtain ⟨rfl, rfl, rfl⟩ := h2
        obtain ⟨rfl, rfl⟩ := h4
        simp
      | succ j =>
        simp at h2 h4
        exact (a1 j kj fj nj cj cj' h2 h4).2.2
    | succ i =>
      simp at h1 h3
      cases j with
      | zero =>
        simp at h2 h4
        obtain ⟨rfl, rfl, rfl⟩ := h2
        obtain ⟨rfl, rfl⟩ := h4
        have b := a1 i ki fi ni ci ci' h1 h3
        have := hpw.1 _ (List.mem_of_getElem? h1)
        simp only at this
        omega
      | succ j =>
        simp at h2 h4
        exact a2 i j ki kj fi fj ni ci ci' nj cj cj' h1 h2 h3 h4
  · intro i ki ci h1 k' hk' hle
    by_cases he : k' = 0
    · exact ⟨0, c0, by rw [he]; rfl⟩
    · cases i with
      | zero =>
        simp at h1
        omega
      | succ i =>
        simp at h1
        obtain ⟨j, c', hj⟩ := a3 i ki ci h1 k' (by omega) hle
        exact ⟨j + 1, c', by simpa using hj⟩

/-! All together -/

theorem mapM_get {α β : Type} (g : α → Option β) (l : List α) : ∀ l', l.mapM g = some l' → l'.length = l.length ∧ ∀ (i : Nat) (a : α), l[i]? = some a → ∃ b, l'[i]? = some b ∧ g a = some b := by
  induction l with
  | nil => intro l' h; simp at h; subst h; simp
  | cons x l ih =>
    intro l' h
    rw [List.mapM_cons] at h
    rcases hx : g x with _ | y
    · simp [hx] at h
    rcases hl : l.mapM g with _ | ys
    · simp [hx, hl] at h
    simp [hx, hl] at h
    subst h
    obtain ⟨h1, h2⟩ := ih ys hl
    refine ⟨by simp [h1], ?_⟩
    intro i a ha
    cases i with
    | zero => simp at ha; subst ha; exact ⟨y, rfl, hx⟩
    | succ i => simp at ha; simpa using h2 i a ha

theorem mapM_some {α β : Type} (g : α → Option β) (l : List α) (h : ∀ a ∈ l, ∃ b, g a = some b) : ∃ l', l.mapM g = some l' := by
  induction l with
  | nil => exact ⟨[], rfl⟩
  | cons x l ih =>
    obtain ⟨y, hy⟩ := h x (by simp)
    obtain ⟨ys, hys⟩ := ih fun a ha => h a (by simp [ha])
    exact ⟨y :: ys, by rw [List.mapM_cons, hy, hys]; rfl⟩

theorem get_mem {α : Type} (d : Dict α) (hnd : (d.map Prod.fst).Nodup) (k : Name) (v : α) (h : (k, v) ∈ d) : Dict.get d k = some v := by
  unfold Dict.get
  rcases hf : List.find? (fun p => decide (p.1 = k)) d with _ | ⟨k', v'⟩
  · rw [List.find?_eq_none] at hf
    exact absurd (by simp) (hf _ h)
  · have e : k' = k := by simpa using List.find?_some hf
    subst e
    have := List.inj_on_of_nodup_map hnd (List.mem_of_find?_eq_some hf) h rfl
    rw [hf]
    exact congrArg some (Prod.mk.inj this).2

theorem pathsOf_sub (e : Env) (shots : List Shot) (c : Nat) : (pathsOf e shots c).Sublist ((kept e shots).map fun s => canonical e s.name) := by
  unfold pathsOf
  generalize kept e shots = l
  induction l with
  | nil => simp
  | cons s l ih =>
    by_cases h : CameraOf e (canonical e s.name) c
    · rw [List.filterMap_cons_some (by rw [if_pos h]), List.map_cons]
      exact ih.cons_cons _
    · rw [List.filterMap_cons_none (by rw [if_neg h]), List.map_cons]
      exact ih.cons _

theorem mem_pathsOf (e : Env) (shots : List Shot) (c : Nat) (f : Name) : f ∈ pathsOf e shots c ↔ CameraOf e f c ∧ ∃ s ∈ shots, Kept e s ∧ canonical e s.name = f := by
  unfold pathsOf kept
  simp only [List.mem_filterMap, List.mem_filter, decide_eq_true_eq]
  constructor
  · rintro ⟨s, ⟨h1, h2⟩, h3⟩
    split_ifs at h3 with h
    have : canonical e s.name = f := Option.some.inj h3
    subst this
    exact ⟨h, s, h1, h2, rfl⟩
  · rintro ⟨h, s, h1, h2, rfl⟩
    exact ⟨s, ⟨h1, h2⟩, by rw [if_pos h]⟩

/-- the state after reading everything -/
structure Loaded (e : Env) (lines : List (List Char)) (shots : List Shot) (a : Acc) : Prop where
  obs : cornerObservations e lines = some a
  mapping : a.mapping = (kept e shots).map fun s => (canonical e s.name, shotGrid e s)
  files : a.files = (List.range e.Ncameras).map (pathsOf e shots)
  enough : ∀ c < e.Ncameras, (if e.Ncameras > 1 then 2 else 1) ≤ (pathsOf e shots c).length
  loadable : ∀ s ∈ shots, Loadable e s
  full : ∀ s ∈ kept e shots, s.rows.length = e.W * e.H ∧ ∃ x, shotContext e s = some x

theorem files_eq (e : Env) (shots : List Shot) (files : List (List Name)) (h : ∀ c, files[c]? = ((List.replicate e.Ncameras ([] : List Name))[c]?).map fun l => l ++ pathsOf e shots c) :
    files = (List.range e.Ncameras).map (pathsOf e shots) := by
  apply List.ext_getElem?
  intro c
  rw [h c]
  by_cases hc : c < e.Ncameras
  · simp [hc]
  · rw [List.getElem?_eq_none (by simpa using hc), List.getElem?_eq_none (by simpa using hc)]
    rfl

theorem loaded (e : Env) (lines : List (List Char)) (shots : List Shot) (h : Describes lines shots) (hnd : ((kept e shots).map fun s => canonical e s.name).Nodup) (a : Acc) (ha : cornerObservations e lines = some a) :
    Loaded e lines shots a := by
  have ha' := ha
  rw [observations_steps e lines shots h] at ha
  rcases hf : shots.foldlM (step e) ⟨List.replicate e.Ncameras [], []⟩ with _ | a0
  · rw [hf] at ha; cases ha
  rw [hf, Option.bind_some] at ha
  obtain ⟨h1, h2, h3, h4⟩ := fold_some e shots _ a0 h.nonempty (by simpa using hnd) hf
  have hfew : ¬ (a0.files.any fun l => l.length < (if a0.files.length > 1 then 2 else 1)) = true := by
    intro hfew
    rw [if_pos hfew] at ha
    cases ha
  rw [if_neg hfew] at ha
  have : a0 = a := Option.some.inj ha
  subst this
  have hfiles := files_eq e shots a0.files h2
  refine ⟨ha', by simpa using h1, hfiles, ?_, h3, h4⟩
  intro c hc
  by_contra hlt
  apply hfew
  rw [List.any_eq_true]
  refine ⟨pathsOf e shots c, by rw [hfiles]; exact List.mem_map.mpr ⟨c, by simpa using hc, rfl⟩, ?_⟩
  have hN : a0.files.length = e.Ncameras := by rw [hfiles]; simp
  rw [hN, decide_eq_true_eq]
  omega

theorem paths_nodup (e : Env) (shots : List Shot) (hnd : ((kept e shots).map fun s => canonical e s.name).Nodup) : ((List.range e.Ncameras).map (pathsOf e shots)).flatten.Nodup := by
  rw [List.nodup_flatten]
  refine ⟨?_, ?_⟩
  · intro l hl
    rw [List.mem_map] at hl
    obtain ⟨c, -, rfl⟩ := hl
    exact (pathsOf_sub e shots c).nodup hnd
  · rw [List.pairwise_map]
    apply List.Pairwise.imp _ (List.nodup_range (n := e.Ncameras))
    intro c c' hne f h1 h2
    exact hne (cameraOf_unique e f c c' ((mem_pathsOf e shots c f).mp h1).1 ((mem_pathsOf e shots c' f).mp h2).1)

/-- Spec: these are the frame numbers that mapping_file_framenocameraindex() finds in the paths of the reported images -/
def FrameNumbers (e : Env) (shots : List Shot) (frame : Name → Nat) : Prop :=
  ∀ c < e.Ncameras, framenumbers e.Ncameras (pathsOf e shots c) = some ((pathsOf e shots c).map frame)

/-- everything in the result -/
theorem compute_entries (e : Env) (lines : List (List Char)) (shots : List Shot) (h : Describes lines shots) (hnd : ((kept e shots).map fun s => canonical e s.name).Nodup) (r : Result) (hr : compute e lines = some r) :
    ∃ (frame : Name → Nat) (sorted : List (Name × Nat × Nat)) (a : Acc), Loaded e lines shots a ∧ FrameNumbers e shots frame
      ∧ (sorted.map Prod.fst).Perm ((kept e shots).map fun s => canonical e s.name)
      ∧ sorted.Pairwise (fun a b => a.2.1 < b.2.1 ∨ a.2.1 = b.2.1 ∧ a.2.2 ≤ b.2.2)
      ∧ (∀ (i : Nat) (f : Name) (n c : Nat), sorted[i]? = some (f, n, c) → n = frame f ∧ CameraOf e f c ∧ ∃ s ∈ kept e shots, canonical e s.name = f ∧ r.observations[i]? = some (shotGrid e s))
      ∧ r.observations.length = sorted.length ∧ r.indices_frame_camera = indices none (-1) sorted ∧ r.files_sorted = sorted.map Prod.fst := by
  unfold compute at hr
  rcases ha : cornerObservations e lines with _ | a
  · rw [ha] at hr; cases hr
  rw [ha, Option.bind_some] at hr
  have hL := loaded e lines shots h hnd a ha
  rcases hm : mappingFile a.files with _ | m
  · rw [hm] at hr; cases hr
  rw [hm, Option.bind_some] at hr
  rcases hk : a.mapping.mapM (fun p => (Dict.get m p.1).map fun k => (p.1, k)) with _ | keyed
  · rw [hk] at hr; cases hr
  rw [hk, Option.bind_some] at hr
  dsimp only at hr
  obtain ⟨sorted, hs⟩ : ∃ x, x = (keyed.mergeSort fun a b => a.2.2 ≤ b.2.2).mergeSort fun a b => a.2.1 ≤ b.2.1 := ⟨_, rfl⟩
  rw [← hs] at hr
  rcases ho : sorted.mapM (fun p => Dict.get a.mapping p.1) with _ | obs
  · rw [ho] at hr; cases hr
  rw [ho] at hr
  have hr : (⟨obs, indices none (-1) sorted, sorted.map Prod.fst⟩ : Result) = r := Option.some.inj hr
  subst hr
  have hnd2 := paths_nodup e shots hnd
  have hm' := hm
  rw [hL.files] at hm
  obtain ⟨g1, -⟩ := mapping_get _ hnd2 m hm
  have hlen : ((List.range e.Ncameras).map (pathsOf e shots)).length = e.Ncameras := by simp
  obtain ⟨frame, hframe⟩ : ∃ frame : Name → Nat, frame = fun f => ((Dict.get m f).map Prod.fst).getD 0 := ⟨_, rfl⟩
  have hget : ∀ c, c < e.Ncameras → ∀ f ∈ pathsOf e shots c, Dict.get m f = some (frame f, c) := by
    intro c hc f hf
    obtain ⟨-, fr, e1, e2⟩ := g1 c (pathsOf e shots c) (by simp [hc])
    obtain ⟨i, hi⟩ := List.getElem?_of_mem hf
    have hi' : i < fr.length := by rw [framenumbers_length _ _ _ e1]; exact (List.getElem?_eq_some_iff.mp hi).1
    have := e2 i f _ hi (List.getElem?_eq_getElem hi')
    rw [this, hframe]
    simp only [this, Option.map_some, Option.getD_some]
  have hFN : FrameNumbers e shots frame := by
    intro c hc
    obtain ⟨-, fr, e1, e2⟩ := g1 c (pathsOf e shots c) (by simp [hc])
    rw [hlen] at e1
    rw [e1]
    congr 1
    apply List.ext_getElem?
    intro i
    have hfl := framenumbers_length _ _ _ e1
    by_cases hi : i < (pathsOf e shots c).length
    · have hi2 : i < fr.length := by omega
      have h3 := e2 i _ _ (List.getElem?_eq_getElem hi) (List.getElem?_eq_getElem hi2)
      rw [hget c hc _ (List.getElem_mem hi)] at h3
      rw [List.getElem?_map, List.getElem?_eq_getElem hi, List.getElem?_eq_getElem hi2]
      simp only [Option.some.injEq, Prod.mk.injEq] at h3
      rw [← h3.1]
      rfl
    · rw [List.getElem?_eq_none (by omega), List.getElem?_eq_none (by simp; omega)]
  obtain ⟨k1, k2⟩ := mapM_get _ _ _ hk
  have hkeyed : keyed.map Prod.fst = a.mapping.map Prod.fst := by
    apply List.ext_getElem?
    intro i
    by_cases hi : i < a.mapping.length
    · obtain ⟨b, hb, hb2⟩ := k2 i _ (List.getElem?_eq_getElem hi)
      rw [List.getElem?_map, List.getElem?_map, hb, List.getElem?_eq_getElem hi]
      rcases hg : Dict.get m (a.mapping[i]).1 with _ | v
      · rw [hg] at hb2; cases hb2
      · rw [hg] at hb2
        rw [← Option.some.inj hb2]
        rfl
    · rw [List.getElem?_eq_none (by simp; omega), List.getElem?_eq_none (by simp; omega)]
  have hkeys : a.mapping.map Prod.fst = (kept e shots).map fun s => canonical e s.name := by rw [hL.mapping, List.map_map]; rfl
  have hperm : sorted.Perm keyed := by
    rw [hs]
    exact (List.mergeSort_perm _ _).trans (List.mergeSort_perm _ _)
  obtain ⟨o1, o2⟩ := mapM_get _ _ _ ho
  refine ⟨frame, sorted, a, hL, hFN, ?_, by rw [hs]; exact sort_frames keyed, ?_, o1, rfl, rfl⟩
  · rw [← hkeys, ← hkeyed]
    exact hperm.map _
  · intro i f n c hi
    obtain ⟨g, hg, hg2⟩ := o2 i _ hi
    have hmem : (f, n, c) ∈ keyed := hperm.mem_iff.mp (List.mem_of_getElem? hi)
    have hf : f ∈ (kept e shots).map fun s => canonical e s.name := by rw [← hkeys, ← hkeyed]; exact List.mem_map.mpr ⟨_, hmem, rfl⟩
    rw [List.mem_map] at hf
    obtain ⟨s, hsk, rfl⟩ := hf
    have hK : Kept e s := by unfold kept at hsk; simpa using (List.mem_filter.mp hsk).2
    have hsm : s ∈ shots := by unfold kept at hsk; exact (List.mem_filter.mp hsk).1
    obtain ⟨c', hc'⟩ := hK.2.2.2
    have hgm := hget c' hc'.1 _ ((mem_pathsOf e shots c' _).mpr ⟨hc', s, hsm, hK, rfl⟩)
    obtain ⟨j, hj⟩ := List.getElem?_of_mem hmem
    have hj' : j < a.mapping.length := by rw [← k1]; exact (List.getElem?_eq_some_iff.mp hj).1
    obtain ⟨b, hb, hb2⟩ := k2 j _ (List.getElem?_eq_getElem hj')
    rw [hj] at hb
    have hbe := Option.some.inj hb
    subst hbe
    rcases hgj : Dict.get m (a.mapping[j]).1 with _ | v
    · rw [hgj] at hb2; cases hb2
    rw [hgj] at hb2
    have hb3 := Option.some.inj hb2
    simp only [Prod.mk.injEq] at hb3
    obtain ⟨q1, q2⟩ := hb3
    rw [q1, hgm] at hgj
    rw [← Option.some.inj hgj] at q2
    simp only [Prod.mk.injEq] at q2
    refine ⟨q2.1.symm, by rw [← q2.2]; exact hc', s, hsk, rfl, ?_⟩
    rw [hg, ← hg2]
    apply get_mem
    · rw [hkeys]; exact hnd
    · rw [hL.mapping]; exact List.mem_map.mpr ⟨s, hsk, rfl⟩

end Mrcal.Corners

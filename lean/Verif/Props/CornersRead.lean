import Verif.Props.CornersProps
/-
compute_chessboard_corners(): the images that are reported, their corners, their cameras, and their frames
-/
namespace Mrcal.Corners

/-- Spec: a row that can be read: two or three columns, numbers where they're needed -/
def Readable (e : Env) (fields : List Name) : Prop :=
  ∃ fx fy rest, fields = fx :: fy :: rest ∧ rest.length ≤ 1 ∧ (fx = ['-'] ∨ fy = ['-'] ∨ ∃ x y, e.num fx = some x ∧ e.num fy = some y
    ∧ (x.neg = true ∨ y.neg = true ∨ rest = [] ∨ e.kind = .ignored
      ∨ ∃ fw, rest = [fw] ∧ (fw = ['-'] ∨ ∃ w, e.num fw = some w ∧ (e.kind = .weight ∨ w.neg = true ∨ ∃ q, w = .fin q ∧ q < 1024))))

theorem readable_iff (e : Env) (fields : List Name) : (fields.length = 2 ∨ fields.length = 3) ∧ parsePoint e.kind e.num fields ≠ none ↔ Readable e fields := by
  rcases fields with _ | ⟨fx, _ | ⟨fy, rest⟩⟩
  · simp [Readable]
  · simp [Readable]
  have hR : Readable e (fx :: fy :: rest) ↔ rest.length ≤ 1 ∧ (fx = ['-'] ∨ fy = ['-'] ∨ ∃ x y, e.num fx = some x ∧ e.num fy = some y
    ∧ (x.neg = true ∨ y.neg = true ∨ rest = [] ∨ e.kind = .ignored
      ∨ ∃ fw, rest = [fw] ∧ (fw = ['-'] ∨ ∃ w, e.num fw = some w ∧ (e.kind = .weight ∨ w.neg = true ∨ ∃ q, w = .fin q ∧ q < 1024)))) := by
    constructor
    · rintro ⟨a, b, c, h, h'⟩
      simp at h
      obtain ⟨rfl, rfl, rfl⟩ := h
      exact h'
    · intro h; exact ⟨_, _, _, rfl, h⟩
  rw [hR]
  have hlen : ((fx :: fy :: rest).length = 2 ∨ (fx :: fy :: rest).length = 3) ↔ rest.length ≤ 1 := by simp only [List.length_cons]; omega
  rw [hlen]
  apply and_congr_right
  intro hl
  unfold parsePoint
  dsimp only
  by_cases hd : fx = ['-'] ∨ fy = ['-']
  · rw [if_pos hd]
    rcases hd with hd | hd <;> simp [hd]
  rw [if_neg hd]
  rw [not_or] at hd
  rcases hx : e.num fx with _ | x
  · simp [hd]
  rcases hy : e.num fy with _ | y
  · simp [hd]
  simp only [Option.bind_some, hd, false_or]
  have hxy : (∃ x' y', some x = some x' ∧ some y = some y' ∧ (x'.neg = true ∨ y'.neg = true ∨ rest = [] ∨ e.kind = .ignored
      ∨ ∃ fw, rest = [fw] ∧ (fw = ['-'] ∨ ∃ w, e.num fw = some w ∧ (e.kind = .weight ∨ w.neg = true ∨ ∃ q, w = .fin q ∧ q < 1024)))) ↔ (x.neg = true ∨ y.neg = true ∨ rest = [] ∨ e.kind = .ignored
      ∨ ∃ fw, rest = [fw] ∧ (fw = ['-'] ∨ ∃ w, e.num fw = some w ∧ (e.kind = .weight ∨ w.neg = true ∨ ∃ q, w = .fin q ∧ q < 1024))) := by
    constructor
    · rintro ⟨x', y', h1, h2, h3⟩
      cases h1; cases h2; exact h3
    · intro h; exact ⟨x, y, rfl, rfl, h⟩
  rw [hxy]
  by_cases hneg : (x.neg || y.neg) = true
  · rw [if_pos hneg]
    rw [Bool.or_eq_true] at hneg
    rcases hneg with h | h <;> simp [h]
  rw [if_neg hneg]
  simp only [Bool.or_eq_true, not_or] at hneg
  simp only [hneg.1, hneg.2, false_or]
  rcases rest with _ | ⟨fw, _ | ⟨f2, more⟩⟩
  · simp
  · rcases hk : e.kind with _ | _ | _
    · by_cases hf : fw = ['-']
      · simp [hf]
      · rcases hw : e.num fw with _ | w
        · simp [hf, hw]
        · by_cases hn : w.neg = true
          · simp [hf, hw, hn]
          · rcases w with q | _ | _ | _
            · by_cases hb : (1024 : ℤ) ≤ ⌊q⌋
              · have : ¬ q < 1024 := not_lt.mpr (by simpa using Int.le_floor.mp hb)
                simp [hf, hw, hn, levelWeight, hb, this]
              · have : q < 1024 := by
                  rw [not_le, Int.floor_lt] at hb
                  simpa using hb
                simp [hf, hw, hn, levelWeight, hb, this]
            all_goals simp [hf, hw, hn, levelWeight]
    · by_cases hf : fw = ['-']
      · simp [hf]
      · rcases hw : e.num fw with _ | w
        · simp [hf, hw]
        · by_cases hn : w.nonpos = true <;> simp [hf, hw, hn]
    · simp
  · simp at hl

theorem load_spec (e : Env) (fs : List (List Name)) : ∀ (c c' : Context), load e c fs = some c' →
    c'.igrid = c.igrid + fs.length ∧ c'.Nvalidpoints = c.Nvalidpoints + fs.countP (fun f => ((parsePoint e.kind e.num f).map Prod.snd).getD false) ∧ c'.grid.length = c.grid.length
    ∧ (∀ j, j < c.igrid → c'.grid[j]? = c.grid[j]?)
    ∧ ∀ (j : Nat) (fields : List Name), fs[j]? = some fields → ∃ p b, parsePoint e.kind e.num fields = some (p, b) ∧ c'.grid[c.igrid + j]? = some p := by
  induction fs with
  | nil => intro c c' h; simp [load] at h; subst h; simp
  | cons f fs ih =>
    intro c c' h
    unfold load at h
    split_ifs at h with h1 h2
    rcases hp : parsePoint e.kind e.num f with _ | p
    · simp [hp] at h
    rw [hp, Option.bind_some] at h
    obtain ⟨a1, a2, a3, a4, a5⟩ := ih _ _ h
    refine ⟨?_, ?_, ?_, ?_, ?_⟩
    · rw [a1, List.length_cons]; simp only; omega
    · rw [a2, List.countP_cons, hp]
      rcases hb : p.2 with _ | _
      · simp [hb]
      · simp only [hb, if_true, Option.map_some, Option.getD_some]; omega
    · rw [a3]; simp
    · intro j hj
      rw [a4 j (by simp only; omega)]
      rw [List.getElem?_set_ne (by omega)]
    · intro j fields hj
      cases j with
      | zero =>
        simp at hj
        subst hj
        refine ⟨p.1, p.2, hp, ?_⟩
        rw [Nat.add_zero, a4 c.igrid (by simp only; omega)]
        simp [h2]
      | succ j =>
        obtain ⟨p', b', e1, e2⟩ := a5 j fields (by simpa using hj)
        refine ⟨p', b', e1, ?_⟩
        rw [← e2]
        congr 1
        simp only
        omega

theorem load_some (e : Env) (fs : List (List Name)) : ∀ c : Context, (∃ c', load e c fs = some c') ↔ (∀ f ∈ fs, Readable e f) ∧ (fs = [] ∨ c.igrid + fs.length ≤ c.grid.length) := by
  induction fs with
  | nil => intro c; simp [load]
  | cons f fs ih =>
    intro c
    rw [List.forall_mem_cons, ← readable_iff]
    unfold load
    by_cases h1 : f.length = 2 ∨ f.length = 3
    · by_cases h2 : c.igrid < c.grid.length
      · rcases hp : parsePoint e.kind e.num f with _ | p
        · simp
        · simp only [if_pos h1, if_pos h2, Option.bind_some]
          rw [ih]
          simp only [List.length_set, List.length_cons, List.cons_ne_nil, false_or, ne_eq, reduceCtorEq, not_false_eq_true, and_true]
          constructor
          · rintro ⟨b1, b2⟩
            refine ⟨⟨h1, b1⟩, ?_⟩
            rcases b2 with rfl | b2
            · simp; omega
            · omega
          · rintro ⟨⟨-, b1⟩, b2⟩
            exact ⟨b1, Or.inr (by omega)⟩
      · simp only [if_pos h1, if_neg h2]
        constructor
        · rintro ⟨c', h⟩; cases h
        · rintro ⟨-, h | h⟩
          · cases h
          · simp at h; omega
    · simp [h1]

/-- the context after reading an image -/
def shotContext (e : Env) (s : Shot) : Option Context := load e { context0 e with f := s.name } s.rows

/-- the array of an image -/
def shotGrid (e : Env) (s : Shot) : List (List Pt) := ((shotContext e s).map fun c => reshape e.H e.W c.grid).getD []

theorem reshape_get (H W : Nat) (g : List Pt) (i j : Nat) (hi : i < H) (hj : j < W) (p : Pt) (h : g[i * W + j]? = some p) : (reshape H W g)[i]?.bind (fun r => r[j]?) = some p := by
  unfold reshape
  simp [hi, hj, h]

theorem grid_index (H W i j : Nat) (hi : i < H) (hj : j < W) : i * W + j < W * H := by
  have : (i + 1) * W ≤ H * W := Nat.mul_le_mul_right W hi
  rw [Nat.add_mul] at this
  rw [Nat.mul_comm W H]
  omega

/-- the array of an image has what the rows say -/
theorem grid_reads (e : Env) (s : Shot) (c : Context) (hc : shotContext e s = some c) (hlen : s.rows.length = e.W * e.H) (i j : Nat) (hi : i < e.H) (hj : j < e.W) :
    ∃ fields p, s.rows[i * e.W + j]? = some fields ∧ (shotGrid e s)[i]?.bind (fun r => r[j]?) = some p ∧ Reads e fields p := by
  obtain ⟨-, -, -, -, h5⟩ := load_spec e s.rows _ _ hc
  have hlt : i * e.W + j < s.rows.length := by rw [hlen]; exact grid_index _ _ _ _ hi hj
  obtain ⟨p, b, hp, hg⟩ := h5 (i * e.W + j) _ (List.getElem?_eq_getElem hlt)
  refine ⟨_, p, List.getElem?_eq_getElem hlt, ?_, parse_reads e _ p b hp⟩
  unfold shotGrid
  rw [hc]
  apply reshape_get _ _ _ _ _ hi hj
  simpa [context0] using hg

theorem valid_count (e : Env) (s : Shot) (c : Context) (hc : shotContext e s = some c) : c.Nvalidpoints = detections e s := by
  obtain ⟨-, h2, -⟩ := load_spec e s.rows _ _ hc
  rw [h2]
  unfold detections
  simp only [context0, Nat.zero_add]
  apply List.countP_congr
  intro f hf
  obtain ⟨hr, -⟩ := (load_some e s.rows _).mp ⟨c, hc⟩
  obtain ⟨-, hp⟩ := (readable_iff e f).mpr (hr f hf)
  rcases hpp : parsePoint e.kind e.num f with _ | ⟨p, b⟩
  · exact absurd hpp hp
  · have := parse_detected e.kind e.num f p b hpp
    simp only [Option.map_some, Option.getD_some, decide_eq_true_eq]
    exact this

/-- reporting an image -/
def add (e : Env) (a : Acc) (s : Shot) (c : Nat) : Acc := ⟨a.files.modify c (· ++ [canonical e s.name]), Dict.set a.mapping (canonical e s.name) (shotGrid e s)⟩

/-- Spec: an image that can be read: either one row (nothing was detected) or the full grid -/
def Loadable (e : Env) (s : Shot) : Prop := (∀ f ∈ s.rows, Readable e f) ∧ (s.rows.length = 1 ∧ 1 ≤ e.W * e.H ∨ s.rows.length = e.W * e.H)

theorem context_some (e : Env) (s : Shot) (hs : s.rows ≠ []) : (∃ c, shotContext e s = some c) ↔ (∀ f ∈ s.rows, Readable e f) ∧ s.rows.length ≤ e.W * e.H := by
  unfold shotContext
  rw [load_some]
  simp [hs, context0, Nat.mul_comm]

theorem step_some (e : Env) (s : Shot) (hs : s.rows ≠ []) (a : Acc) :
    (¬ Loadable e s ∧ step e a s = none)
    ∨ (Loadable e s ∧ Kept e s ∧ (s.rows.length = e.W * e.H ∧ ∃ x, shotContext e s = some x) ∧ ∃ c, CameraOf e (canonical e s.name) c ∧ step e a s = some (add e a s c))
    ∨ (Loadable e s ∧ ¬ Kept e s ∧ step e a s = some a) := by
  have hpos : 0 < s.rows.length := List.length_pos_iff.mpr hs
  by_cases hL : Loadable e s
  · have hle : s.rows.length ≤ e.W * e.H := by
      rcases hL.2 with ⟨h1, h2⟩ | h
      · omega
      · omega
    obtain ⟨c, hc⟩ := (context_some e s hs).mpr ⟨hL.1, hle⟩
    have hstep : step e a s = finish e c a := by unfold step; unfold shotContext at hc; rw [hc]; rfl
    have hf : c.f = s.name := load_f e _ _ _ hc
    have hi : c.igrid = s.rows.length := by
      obtain ⟨h1, -⟩ := load_spec e s.rows _ _ hc
      simpa [context0] using h1
    have hv := valid_count e s c hc
    right
    rw [hstep]
    unfold finish
    rw [hi, hf, hv]
    by_cases h1 : s.rows.length > 1
    · have hWH : s.rows.length = e.W * e.H := by rcases hL.2 with ⟨h, -⟩ | h; · omega
                                                 · exact h
      rw [if_pos h1, if_neg (by simp [hWH])]
      by_cases h2 : e.excluded s.name = false ∧ (detections e s : Int) > e.minPoints
      · rw [if_pos h2]
        rcases hcam : camera e (canonical e s.name) with _ | k
        · right
          refine ⟨hL, ?_, rfl⟩
          rintro ⟨-, -, -, k, hk⟩
          rw [(camera_iff e _ k).mpr hk] at hcam
          cases hcam
        · left
          refine ⟨hL, ⟨h1, h2.1, h2.2, k, (camera_iff e _ k).mp hcam⟩, ⟨hWH, c, hc⟩, k, (camera_iff e _ k).mp hcam, ?_⟩
          unfold add shotGrid
          rw [hc]
          rfl
      · rw [if_neg h2]
        right
        refine ⟨hL, ?_, rfl⟩
        rintro ⟨-, h3, h4, -⟩
        exact h2 ⟨h3, h4⟩
    · rw [if_neg h1]
      right
      refine ⟨hL, ?_, rfl⟩
      rintro ⟨h3, -⟩
      exact h1 h3
  · left
    refine ⟨hL, ?_⟩
    unfold step
    rcases hc : load e { context0 e with f := s.name } s.rows with _ | c
    · rfl
    · rw [Option.bind_some]
      have hc' : shotContext e s = some c := hc
      obtain ⟨hr, hle⟩ := (context_some e s hs).mp ⟨c, hc'⟩
      have hi : c.igrid = s.rows.length := by
        obtain ⟨h1, -⟩ := load_spec e s.rows _ _ hc
        simpa [context0] using h1
      have h1 : s.rows.length ≠ 1 := fun h => hL ⟨hr, Or.inl ⟨h, by omega⟩⟩
      have h2 : s.rows.length ≠ e.W * e.H := fun h => hL ⟨hr, Or.inr h⟩
      unfold finish
      rw [hi, if_pos (by omega), if_pos (Ne.symm h2)]

open Classical in
/-- Spec: the images that are reported, in the order of the file -/
noncomputable def kept (e : Env) (shots : List Shot) : List Shot := shots.filter fun s => decide (Kept e s)

open Classical in
/-- Spec: the paths of the reported images of a camera, in the order of the file -/
noncomputable def pathsOf (e : Env) (shots : List Shot) (c : Nat) : List Name := (kept e shots).filterMap fun s => if CameraOf e (canonical e s.name) c then some (canonical e s.name) else none

theorem cameraOf_unique (e : Env) (f : Name) (c c' : Nat) (h : CameraOf e f c) (h' : CameraOf e f c') : c = c' := by
  have h1 := (camera_iff e f c).mpr h
  have h2 := (camera_iff e f c').mpr h'
  rw [h1] at h2
  exact Option.some.inj h2

theorem set_new {α : Type} (d : Dict α) (k : Name) (v : α) (h : k ∉ d.map Prod.fst) : Dict.set d k v = d ++ [(k, v)] := by
  unfold Dict.set
  rw [if_neg h]

/-- reading all the images -/
theorem fold_some (e : Env) (shots : List Shot) : ∀ a a' : Acc, (∀ s ∈ shots, s.rows ≠ []) → (a.mapping.map Prod.fst ++ (kept e shots).map fun s => canonical e s.name).Nodup → shots.foldlM (step e) a = some a' →
    a'.mapping = a.mapping ++ ((kept e shots).map fun s => (canonical e s.name, shotGrid e s))
    ∧ (∀ c, a'.files[c]? = (a.files[c]?).map fun l => l ++ pathsOf e shots c)
    ∧ (∀ s ∈ shots, Loadable e s)
    ∧ ∀ s ∈ kept e shots, s.rows.length = e.W * e.H ∧ ∃ x, shotContext e s = some x := by
  induction shots with
  | nil =>
    intro a a' _ _ h
    have : a = a' := Option.some.inj h
    subst this
    simp [kept, pathsOf]
  | cons s shots ih =>
    intro a a' hne hnd h
    rw [List.foldlM_cons] at h
    rcases step_some e s (hne s (by simp)) a with ⟨-, hs⟩ | ⟨hL, hK, hW, k, hk, hs⟩ | ⟨hL, hK, hs⟩
    · rw [hs] at h; cases h
    · rw [hs] at h
      have h : shots.foldlM (step e) (add e a s k) = some a' := h
      have hkept : kept e (s :: shots) = s :: kept e shots := by unfold kept; simp [hK]
      rw [hkept, List.map_cons] at hnd
      have hnot : canonical e s.name ∉ a.mapping.map Prod.fst := fun hm => by
        rw [List.nodup_append] at hnd
        exact hnd.2.2 _ hm _ (by simp) rfl
      have hadd : (add e a s k).mapping = a.mapping ++ [(canonical e s.name, shotGrid e s)] := set_new _ _ _ hnot
      obtain ⟨h1, h2, h3, h4⟩ := ih (add e a s k) a' (fun s hs => hne s (by simp [hs])) (by
        rw [hadd]
        simpa using hnd) h
      refine ⟨?_, ?_, ?_, ?_⟩
      · rw [h1, hadd, hkept]; simp
      · intro c
        have hp : pathsOf e (s :: shots) c = if c = k then canonical e s.name :: pathsOf e shots c else pathsOf e shots c := by
          unfold pathsOf
          rw [hkept]
          by_cases hck : c = k
          · subst hck
            rw [if_pos rfl, List.filterMap_cons_some (by rw [if_pos hk])]
          · rw [if_neg hck, List.filterMap_cons_none (by rw [if_neg]; intro hc; exact hck (cameraOf_unique e _ _ _ hc hk))]
        rw [h2 c, hp]
        unfold add
        simp only [List.getElem?_modify]
        by_cases hck : c = k
        · subst hck
          rcases a.files[c]? with _ | l <;> simp
        · have : ¬ k = c := fun e => hck e.symm
          simp [hck, this]
      · intro s' hs'
        rcases List.mem_cons.mp hs' with rfl | hs'
        · exact hL
        · exact h3 s' hs'
      · intro s' hs'
        rw [hkept] at hs'
        rcases List.mem_cons.mp hs' with rfl | hs'
        · exact hW
        · exact h4 s' hs'
    · rw [hs] at h
      have h : shots.foldlM (step e) a = some a' := h
      have hkept : kept e (s :: shots) = kept e shots := by unfold kept; simp [hK]
      have hp : ∀ c, pathsOf e (s :: shots) c = pathsOf e shots c := fun c => by unfold pathsOf; rw [hkept]
      rw [hkept] at hnd
      obtain ⟨h1, h2, h3, h4⟩ := ih a a' (fun s hs => hne s (by simp [hs])) hnd h
      rw [hkept]
      refine ⟨h1, fun c => by rw [h2, hp], ?_, h4⟩
      intro s' hs'
      rcases List.mem_cons.mp hs' with rfl | hs'
      · exact hL
      · exact h3 s' hs'

theorem fold_exists (e : Env) (shots : List Shot) : ∀ a : Acc, (∀ s ∈ shots, s.rows ≠ []) → (∀ s ∈ shots, Loadable e s) → ∃ a', shots.foldlM (step e) a = some a' := by
  induction shots with
  | nil => intro a _ _; exact ⟨a, rfl⟩
  | cons s shots ih =>
    intro a hne hL
    rw [List.foldlM_cons]
    rcases step_some e s (hne s (by simp)) a with ⟨h, -⟩ | ⟨-, -, -, k, -, hs⟩ | ⟨-, -, hs⟩
    · exact absurd (hL s (by simp)) h
    · rw [hs]; exact ih _ (fun s hs => hne s (by simp [hs])) fun s hs => hL s (by simp [hs])
    · rw [hs]; exact ih _ (fun s hs => hne s (by simp [hs])) fun s hs => hL s (by simp [hs])

end Mrcal.Corners

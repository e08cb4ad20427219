import Verif.Props.CornersOut
/-
compute_chessboard_corners(): the properties
-/
namespace Mrcal.Corners

theorem mem_kept (e : Env) (shots : List Shot) (s : Shot) : s ∈ kept e shots ↔ s ∈ shots ∧ Kept e s := by
  unfold kept
  simp [List.mem_filter]

/-- **Each reported image has its own corners**: the reported paths are those of the images to report, each one once. The array of each one has, at row iy and column ix, what line iy*W+ix of this image says: the corner with its weight, or a
negative weight. The camera index is the first camera whose glob matches the path -/
theorem corners_points (e : Env) (lines : List (List Char)) (shots : List Shot) (h : Describes lines shots) (hnd : ((kept e shots).map fun s => canonical e s.name).Nodup) (r : Result) (hr : compute e lines = some r) :
    r.files_sorted.Nodup ∧ (∀ f, f ∈ r.files_sorted ↔ ∃ s ∈ shots, Kept e s ∧ canonical e s.name = f)
    ∧ r.observations.length = r.files_sorted.length ∧ r.indices_frame_camera.length = r.files_sorted.length
    ∧ ∀ (i : Nat) (f : Name), r.files_sorted[i]? = some f →
      (∃ s ∈ shots, Kept e s ∧ canonical e s.name = f ∧ ∃ g, r.observations[i]? = some g ∧ ∀ iy ix, iy < e.H → ix < e.W → ∃ fields p, s.rows[iy * e.W + ix]? = some fields ∧ g[iy]?.bind (fun l => l[ix]?) = some p ∧ Reads e fields p)
      ∧ ∃ k c, r.indices_frame_camera[i]? = some (k, c) ∧ CameraOf e f c := by
  obtain ⟨frame, sorted, a, hL, hFN, hperm, hpw, hent, ho, hi, hf⟩ := compute_entries e lines shots h hnd r hr
  rw [hi, hf, ho, indices_length, List.length_map]
  refine ⟨hperm.nodup_iff.mpr hnd, ?_, rfl, rfl, ?_⟩
  · intro f
    rw [hperm.mem_iff, List.mem_map]
    constructor
    · rintro ⟨s, hs, rfl⟩
      rw [mem_kept] at hs
      exact ⟨s, hs.1, hs.2, rfl⟩
    · rintro ⟨s, h1, h2, rfl⟩
      exact ⟨s, (mem_kept e shots s).mpr ⟨h1, h2⟩, rfl⟩
  · intro i f hif
    rw [List.getElem?_map] at hif
    rcases hsi : sorted[i]? with _ | ⟨f', n, c⟩
    · rw [hsi] at hif; cases hif
    rw [hsi] at hif
    have : f' = f := Option.some.inj hif
    subst this
    obtain ⟨h1, h2, s, h3, h4, h5⟩ := hent i f' n c hsi
    obtain ⟨hfull, x, hx⟩ := hL.full s h3
    refine ⟨⟨s, ((mem_kept e shots s).mp h3).1, ((mem_kept e shots s).mp h3).2, h4, _, h5, ?_⟩, ?_⟩
    · intro iy ix hy hx'
      exact grid_reads e s x hx hfull iy ix hy hx'
    · have hlt : i < (indices none (-1) sorted).length := by rw [indices_length]; exact (List.getElem?_eq_some_iff.mp hsi).1
      obtain ⟨⟨k, c'⟩, hkc⟩ : ∃ y, (indices none (-1) sorted)[i]? = some y := ⟨_, List.getElem?_eq_getElem hlt⟩
      refine ⟨k, c', hkc, ?_⟩
      have := (indices_none sorted (hpw.imp (by intro a b; omega))).1 i k f' n c c' hsi hkc
      rw [this.1]
      exact h2

/-- **The frame indices are contiguous, sorted integers that follow the frame numbers**: they start at 0, no integer is skipped, two images have the same frame index exactly if they have the same frame number, and larger frame numbers have
larger frame indices. The images are sorted by the frame, and then by the camera -/
theorem corners_frames (e : Env) (lines : List (List Char)) (shots : List Shot) (h : Describes lines shots) (hnd : ((kept e shots).map fun s => canonical e s.name).Nodup) (r : Result) (hr : compute e lines = some r) :
    ∃ frame, FrameNumbers e shots frame
    ∧ (∀ (i j : Nat) (ki kj : Int) (fi fj : Name) (ci cj : Nat), r.files_sorted[i]? = some fi → r.files_sorted[j]? = some fj → r.indices_frame_camera[i]? = some (ki, ci) → r.indices_frame_camera[j]? = some (kj, cj) →
        (ki < kj ↔ frame fi < frame fj) ∧ (ki = kj ↔ frame fi = frame fj) ∧ (i < j → ki < kj ∨ ki = kj ∧ ci ≤ cj))
    ∧ ∀ (i : Nat) (k : Int) (c : Nat), r.indices_frame_camera[i]? = some (k, c) → 0 ≤ k ∧ ∀ k', 0 ≤ k' → k' ≤ k → ∃ (j : Nat) (c' : Nat), r.indices_frame_camera[j]? = some (k', c') := by
  obtain ⟨frame, sorted, a, hL, hFN, hperm, hpw, hent, ho, hi, hf⟩ := compute_entries e lines shots h hnd r hr
  rw [hi, hf]
  obtain ⟨a1, a2, a3⟩ := indices_none sorted (hpw.imp (by intro a b; omega))
  refine ⟨frame, hFN, ?_, ?_⟩
  · intro i j ki kj fi fj ci cj h1 h2 h3 h4
    rw [List.getElem?_map] at h1 h2
    rcases hsi : sorted[i]? with _ | ⟨fi', ni, ci'⟩
    · rw [hsi] at h1; cases h1
    rcases hsj : sorted[j]? with _ | ⟨fj', nj, cj'⟩
    · rw [hsj] at h2; cases h2
    rw [hsi] at h1
    rw [hsj] at h2
    have e1 : fi' = fi := Option.some.inj h1
    have e2 : fj' = fj := Option.some.inj h2
    subst e1 e2
    have b1 := a2 i j ki kj fi' fj' ni ci' ci nj cj' cj hsi hsj h3 h4
    have b2 := a2 j i kj ki fj' fi' nj cj' cj ni ci' ci hsj hsi h4 h3
    have e3 := (hent i fi' ni ci' hsi).1
    have e4 := (hent j fj' nj cj' hsj).1
    have e5 := (a1 i ki fi' ni ci' ci hsi h3).1
    have e6 := (a1 j kj fj' nj cj' cj hsj h4).1
    refine ⟨by rw [← e3, ← e4]; exact b1, by rw [← e3, ← e4]; omega, ?_⟩
    intro hij
    have hli : i < sorted.length := (List.getElem?_eq_some_iff.mp hsi).1
    have hlj : j < sorted.length := (List.getElem?_eq_some_iff.mp hsj).1
    have hp := List.pairwise_iff_getElem.mp hpw i j hli hlj hij
    rw [(List.getElem?_eq_some_iff.mp hsi).2, (List.getElem?_eq_some_iff.mp hsj).2] at hp
    simp only at hp
    omega
  · intro i k c hk
    have hlt : i < sorted.length := by rw [← indices_length sorted none (-1)]; exact (List.getElem?_eq_some_iff.mp hk).1
    obtain ⟨⟨f, n, c'⟩, hs⟩ : ∃ y, sorted[i]? = some y := ⟨_, List.getElem?_eq_getElem hlt⟩
    exact ⟨(a1 i k f n c' c hs hk).2, a3 i k c hk⟩

/-- **Synchronized images**: with two or more cameras, if the paths of the reported images of each camera are a fixed string, a number and another fixed string, then two reported images have the same frame index exactly if the numbers in
their paths are the same, and larger numbers have larger frame indices -/
theorem corners_synchronized (e : Env) (lines : List (List Char)) (shots : List Shot) (h : Describes lines shots) (hnd : ((kept e shots).map fun s => canonical e s.name).Nodup) (r : Result) (hr : compute e lines = some r)
    (hN : 2 ≤ e.Ncameras) (p s : Nat → Name) (ds : Nat → List Name) (hnum : ∀ c < e.Ncameras, Numbered (p c) (s c) (ds c) (pathsOf e shots c))
    (i j : Nat) (fi fj : Name) (ki kj : Int) (ci cj : Nat) (h1 : r.files_sorted[i]? = some fi) (h2 : r.files_sorted[j]? = some fj) (h3 : r.indices_frame_camera[i]? = some (ki, ci)) (h4 : r.indices_frame_camera[j]? = some (kj, cj)) :
    ∃ di ∈ ds ci, ∃ dj ∈ ds cj, fi = p ci ++ di ++ s ci ∧ fj = p cj ++ dj ++ s cj ∧ (ki = kj ↔ decimal di = decimal dj) ∧ (ki < kj ↔ decimal di < decimal dj) := by
  obtain ⟨frame, hFN, b, -⟩ := corners_frames e lines shots h hnd r hr
  obtain ⟨b1, b2, -⟩ := b i j ki kj fi fj ci cj h1 h2 h3 h4
  have key : ∀ (i : Nat) (f : Name) (k : Int) (c : Nat), r.files_sorted[i]? = some f → r.indices_frame_camera[i]? = some (k, c) → ∃ d ∈ ds c, f = p c ++ d ++ s c ∧ frame f = decimal d := by
    intro i f k c g1 g2
    obtain ⟨-, hmem, -, -, hpt⟩ := corners_points e lines shots h hnd r hr
    obtain ⟨⟨sh, hs1, hs2, hs3, -⟩, k', c', e1, hc⟩ := hpt i f g1
    rw [g2] at e1
    obtain ⟨rfl, rfl⟩ := Prod.mk.inj (Option.some.inj e1)
    have hf : f ∈ pathsOf e shots c := (mem_pathsOf e shots c f).mpr ⟨hc, sh, hs1, hs2, hs3⟩
    have hn := hnum c hc.1
    obtain ⟨frame', sorted, a, hL, -⟩ := compute_entries e lines shots h hnd r hr
    have hen := hL.enough c hc.1
    rw [if_pos (by omega)] at hen
    have hfr := hFN c hc.1
    have hpull : pullFramenumbers (pathsOf e shots c) = some ((pathsOf e shots c).map frame) := by
      unfold framenumbers at hfr
      split at hfr
      · rename_i l hl; rw [hl]; exact hfr
      · rw [if_neg (by omega)] at hfr; cases hfr
    have hdec := frames_meaning _ _ _ _ hn hen _ hpull
    have hf2 := hf
    rw [hn.files] at hf2
    obtain ⟨d, hd, hdf⟩ := List.mem_map.mp hf2
    refine ⟨d, hd, hdf.symm, ?_⟩
    obtain ⟨q, hq⟩ := List.getElem?_of_mem hd
    have hq2 := congrArg (fun l => l[q]?) hdec
    simp only [List.getElem?_map, hq, hn.files, Option.map_some, Option.some.injEq] at hq2
    rw [← hdf]
    exact hq2
  obtain ⟨di, hdi, g1, g2⟩ := key i fi ki ci h1 h3
  obtain ⟨dj, hdj, g3, g4⟩ := key j fj kj cj h2 h4
  exact ⟨di, hdi, dj, hdj, g1, g3, by rw [b2, g2, g4], by rw [b1, g2, g4]⟩

/-- **When the call succeeds**: all the rows can be read, each image has either one row or the full grid, each camera has an image to report (two, if there are more cameras), and the frame numbers can be found (unless there's just one camera) -/
theorem corners_accepted (e : Env) (lines : List (List Char)) (shots : List Shot) (h : Describes lines shots) (hnd : ((kept e shots).map fun s => canonical e s.name).Nodup) :
    (∃ r, compute e lines = some r) ↔
      (∀ s ∈ shots, Loadable e s) ∧ (∀ c < e.Ncameras, (if e.Ncameras > 1 then 2 else 1) ≤ (pathsOf e shots c).length) ∧ (e.Ncameras = 1 ∨ ∀ c < e.Ncameras, pullFramenumbers (pathsOf e shots c) ≠ none) := by
  constructor
  · rintro ⟨r, hr⟩
    obtain ⟨frame, sorted, a, hL, hFN, -⟩ := compute_entries e lines shots h hnd r hr
    refine ⟨hL.loadable, hL.enough, ?_⟩
    by_cases h1 : e.Ncameras = 1
    · exact Or.inl h1
    · right
      intro c hc hp
      have := hFN c hc
      unfold framenumbers at this
      rw [hp] at this
      simp [h1] at this
  · rintro ⟨h1, h2, h3⟩
    obtain ⟨a, ha⟩ := fold_exists e shots ⟨List.replicate e.Ncameras [], []⟩ h.nonempty h1
    obtain ⟨-, g2, -, -⟩ := fold_some e shots _ a h.nonempty (by simpa using hnd) ha
    have hfiles := files_eq e shots a.files g2
    have hN : a.files.length = e.Ncameras := by rw [hfiles]; simp
    have hobs : cornerObservations e lines = some a := by
      rw [observations_steps e lines shots h, ha, Option.bind_some, if_neg]
      rw [List.any_eq_true]
      rintro ⟨l, hl, hlt⟩
      rw [hfiles, List.mem_map] at hl
      obtain ⟨c, hc, rfl⟩ := hl
      have := h2 c (by simpa using hc)
      rw [hN, decide_eq_true_eq] at hlt
      omega
    have hL := loaded e lines shots h hnd a hobs
    obtain ⟨m, hm⟩ : ∃ m, mappingFile a.files = some m := by
      rw [mapping_accepted]
      refine ⟨?_, ?_⟩
      · rintro l hl rfl
        rw [hfiles, List.mem_map] at hl
        obtain ⟨c, hc, he⟩ := hl
        have := h2 c (by simpa using hc)
        rw [he] at this
        simp at this
        split_ifs at this
      · rw [hN]
        rcases h3 with h3 | h3
        · exact Or.inl h3
        · right
          intro l hl
          rw [hfiles, List.mem_map] at hl
          obtain ⟨c, hc, rfl⟩ := hl
          exact h3 c (by simpa using hc)
    have hm' := hm
    rw [hL.files] at hm'
    obtain ⟨q1, -⟩ := mapping_get _ (paths_nodup e shots hnd) m hm'
    obtain ⟨keyed, hkeyed⟩ := mapM_some (fun p => (Dict.get m p.1).map fun k => (p.1, k)) a.mapping (by
      rintro ⟨f, g⟩ hp
      rw [hL.mapping, List.mem_map] at hp
      obtain ⟨s, hs, hsf⟩ := hp
      obtain ⟨rfl, rfl⟩ := Prod.mk.inj hsf
      obtain ⟨hs1, hs2⟩ := (mem_kept e shots s).mp hs
      obtain ⟨c, hc⟩ := hs2.2.2.2
      obtain ⟨-, fr, e1, e2⟩ := q1 c (pathsOf e shots c) (by simp [hc.1])
      obtain ⟨i, hi⟩ := List.getElem?_of_mem ((mem_pathsOf e shots c _).mpr ⟨hc, s, hs1, hs2, rfl⟩)
      have hi' : i < fr.length := by rw [framenumbers_length _ _ _ e1]; exact (List.getElem?_eq_some_iff.mp hi).1
      rw [e2 i _ _ hi (List.getElem?_eq_getElem hi')]
      exact ⟨_, rfl⟩)
    have hkm : ∀ x ∈ keyed, x.1 ∈ a.mapping.map Prod.fst := by
      intro x hx
      obtain ⟨k1, k2⟩ := mapM_get _ _ _ hkeyed
      obtain ⟨i, hi⟩ := List.getElem?_of_mem hx
      have hi' : i < a.mapping.length := by rw [← k1]; exact (List.getElem?_eq_some_iff.mp hi).1
      obtain ⟨b, hb, hb2⟩ := k2 i _ (List.getElem?_eq_getElem hi')
      rw [hi] at hb
      have := Option.some.inj hb
      subst this
      rcases hg : Dict.get m (a.mapping[i]).1 with _ | v
      · rw [hg] at hb2; cases hb2
      · rw [hg] at hb2
        rw [← Option.some.inj hb2]
        exact List.mem_map.mpr ⟨_, List.getElem_mem hi', rfl⟩
    obtain ⟨sorted, hsorted⟩ : ∃ x, x = (keyed.mergeSort fun a b => a.2.2 ≤ b.2.2).mergeSort fun a b => a.2.1 ≤ b.2.1 := ⟨_, rfl⟩
    have hkeys : (a.mapping.map Prod.fst).Nodup := by
      rw [hL.mapping, List.map_map]
      exact hnd
    obtain ⟨obs, hob⟩ := mapM_some (fun p => Dict.get a.mapping p.1) sorted (by
      intro x hx
      have hx' : x ∈ keyed := by
        rw [hsorted] at hx
        exact ((List.mergeSort_perm _ _).trans (List.mergeSort_perm _ _)).mem_iff.mp hx
      obtain ⟨⟨k, v⟩, hp, hpx⟩ := List.mem_map.mp (hkm x hx')
      exact ⟨v, get_mem a.mapping hkeys x.1 v (by rw [← hpx]; exact hp)⟩)
    refine ⟨⟨obs, indices none (-1) sorted, sorted.map Prod.fst⟩, ?_⟩
    unfold compute
    rw [hobs, Option.bind_some, hm, Option.bind_some, hkeyed, Option.bind_some]
    dsimp only
    rw [← hsorted, hob]
    rfl

theorem group (ws : List (List Name)) (hws : ∀ w ∈ ws, w ≠ []) : ∃ shots : List Shot, ws = (shots.flatMap fun s => s.rows.map (s.name :: ·)) ∧ (∀ s ∈ shots, s.rows ≠ []) ∧ shots.IsChain fun a b => a.name ≠ b.name := by
  induction ws with
  | nil => exact ⟨[], rfl, by simp, .nil⟩
  | cons w ws ih =>
    obtain ⟨shots, h1, h2, h3⟩ := ih fun w hw => hws w (by simp [hw])
    rcases w with _ | ⟨f, fields⟩
    · exact absurd rfl (hws [] (by simp))
    rcases shots with _ | ⟨s, shots⟩
    · refine ⟨[⟨f, [fields]⟩], by simp [h1], by simp, .singleton _⟩
    · by_cases hf : s.name = f
      · refine ⟨⟨f, fields :: s.rows⟩ :: shots, ?_, ?_, ?_⟩
        · rw [h1]; simp [hf]
        · intro s' hs'
          rcases List.mem_cons.mp hs' with rfl | hs'
          · simp
          · exact h2 s' (by simp [hs'])
        · rcases shots with _ | ⟨s2, shots⟩
          · exact .singleton _
          · rw [List.isChain_cons_cons] at h3 ⊢
            refine ⟨?_, h3.2⟩
            simp only
            rw [← hf]
            exact h3.1
      · refine ⟨⟨f, [fields]⟩ :: s :: shots, ?_, ?_, ?_⟩
        · rw [h1]; simp
        · intro s' hs'
          rcases List.mem_cons.mp hs' with rfl | hs'
          · simp
          · exact h2 s' hs'
        · rw [List.isChain_cons_cons]
          exact ⟨fun e => hf e.symm, h3⟩

theorem rowsW_empty (e : Env) (ws : List (List Name)) : ∀ s, [] ∈ ws → rowsW e ws s = none := by
  induction ws with
  | nil => intro s h; simp at h
  | cons w ws ih =>
    intro s h
    unfold rowsW
    rcases List.mem_cons.mp h with rfl | h
    · simp [row]
    · rcases hr : row e s w with _ | s'
      · rfl
      · exact ih s' h

/-- **Every file that can be read is a sequence of images**: so the statements above are about all the files -/
theorem corners_described (e : Env) (lines : List (List Char)) (r : Result) (hr : compute e lines = some r) : ∃ shots, Describes lines shots := by
  by_cases hw : ∀ w ∈ (lines.filter fun l => !comment l).map words, w ≠ []
  · obtain ⟨shots, h1, h2, h3⟩ := group _ hw
    exact ⟨shots, h1, h2, h3⟩
  · exfalso
    have hmem : [] ∈ (lines.filter fun l => !comment l).map words := by
      by_contra hc
      exact hw fun w hm he => hc (he ▸ hm)
    unfold compute cornerObservations at hr
    rw [rows_words, rowsW_empty e _ _ hmem] at hr
    cases hr

/-- **An image with exactly the minimal number of corners is thrown out**: the documentation says that only images with fewer than this many points are -/
theorem corners_min_wrong (e : Env) (lines : List (List Char)) (shots : List Shot) (h : Describes lines shots) (hnd : (shots.map fun s => canonical e s.name).Nodup) (r : Result) (hr : compute e lines = some r) (s : Shot) (hs : s ∈ shots)
    (hmin : (detections e s : Int) = e.minPoints) : canonical e s.name ∉ r.files_sorted := by
  have hsub : ((kept e shots).map fun s => canonical e s.name).Sublist (shots.map fun s => canonical e s.name) := (List.filter_sublist).map _
  obtain ⟨-, h2, -⟩ := corners_points e lines shots h (hsub.nodup hnd) r hr
  rw [h2]
  rintro ⟨s', hs', hK, he⟩
  have : s' = s := List.inj_on_of_nodup_map hnd hs' hs he
  subst this
  exact absurd hK.2.2.1 (by omega)

/-- **A corner whose coordinates aren't numbers is reported as a valid one**, with weight 1, if the file has "nan" in it -/
theorem corners_nan_wrong (kind : Kind) (num : Name → Option Num) (hnan : num "nan".toList = some .nan) : parsePoint kind num ["nan".toList, "nan".toList] = some (⟨.nan, .nan, .fin 1⟩, true) := by
  have h : ¬ ("nan".toList = ['-']) := by decide
  unfold parsePoint
  simp only [h, or_self, if_false, hnan, Option.bind_some, Num.neg, Bool.or_self, Bool.false_eq_true]

/-- **The directory of the file isn't used if the file is in the current directory**: reading 'corners.vnl' (the directory part of this is empty), the path reported for an image that doesn't exist is at the root of the file system -/
theorem corners_path_wrong (e : Env) (f : Name) (h1 : e.image_path_prefix = none) (h2 : e.image_directory = none) (h3 : e.corners_dir = some []) (hf : f.head? ≠ some '/') (hex : e.exist f = false) : canonical e f = '/' :: f := by
  unfold canonical
  rw [h1, h2, h3]
  simp [hf, hex]

/-- the paths -/
theorem corners_path (e : Env) (f : Name) :
    (∀ p, e.image_path_prefix = some p → canonical e f = p ++ '/' :: f)
    ∧ (∀ d, e.image_path_prefix = none → e.image_directory = some d → ∀ dir base, (f = dir ++ '/' :: base ∨ f = base) → '/' ∉ base → canonical e f = d ++ '/' :: base)
    ∧ (∀ d, e.image_path_prefix = none → e.image_directory = none → e.corners_dir = some d → f.head? ≠ some '/' → e.exist f = false → canonical e f = d ++ '/' :: f)
    ∧ (e.image_path_prefix = none → e.image_directory = none → (e.corners_dir = none ∨ f.head? = some '/' ∨ e.exist f = true) → canonical e f = e.normpath f) := by
  refine ⟨?_, ?_, ?_, ?_⟩
  · intro p hp; unfold canonical; rw [hp]
  · intro d h1 h2 dir base hf hb
    have hbase : basename f = base := by
      unfold basename
      have hr : ∀ x, '/' ∉ x → List.takeWhile (fun c => decide (c ≠ '/')) x = x := by
        intro x hx
        have := List.takeWhile_append_of_pos (p := fun c => decide (c ≠ '/')) (l₁ := x) (l₂ := []) (by
          intro c hc
          simp
          rintro rfl
          exact hx hc)
        simpa using this
      rcases hf with rfl | rfl
      · rw [List.reverse_append, List.reverse_cons, List.append_assoc]
        rw [List.takeWhile_append_of_pos]
        · simp
        · intro c hc
          simp
          rintro rfl
          exact hb (by simpa using hc)
      · rw [hr _ (by simpa using hb), List.reverse_reverse]
    unfold canonical
    rw [h1, h2, hbase]
  · intro d h1 h2 h3 h4 h5
    unfold canonical
    rw [h1, h2, h3]
    simp [h4, h5]
  · intro h1 h2 h3
    unfold canonical
    rw [h1, h2]
    rcases hd : e.corners_dir with _ | d
    · rfl
    · simp only
      rw [if_neg]
      rintro ⟨g1, g2⟩
      rcases h3 with h3 | h3 | h3
      · rw [hd] at h3; cases h3
      · exact g1 h3
      · rw [h3] at g2; cases g2

/-! Two images of a board of 3x2 corners, seen by one camera -/

def exNum (s : Name) : Option Num := if s = "nan".toList then some .nan else if numeric s then some (.fin (decimal s)) else none

def exEnv : Env where
  W := 3
  H := 2
  Ncameras := 1
  kind := .level
  num := exNum
  excluded := fun _ => false
  min := none
  image_path_prefix := some "data".toList
  image_directory := none
  corners_dir := none
  exist := fun _ => true
  normpath := id
  glob := fun _ _ => true

def exLines : List (List Char) := ["# filename x y level\n".toList,
  "img7.jpg 10 20 0\n".toList, "img7.jpg 30 20 0\n".toList, "img7.jpg 50 20 1\n".toList, "img7.jpg 10 40 0\n".toList, "img7.jpg 30 40 0\n".toList, "img7.jpg - - -\n".toList,
  "img8.jpg - - -\n".toList,
  "img9.jpg 11 20 0\n".toList, "img9.jpg 31 20 0\n".toList, "img9.jpg 51 20 1\n".toList, "img9.jpg 11 40 0\n".toList, "img9.jpg 31 40 0\n".toList, "img9.jpg 51 40 3\n".toList]

def ex7 : Shot := ⟨"img7.jpg".toList, [["10".toList, "20".toList, "0".toList], ["30".toList, "20".toList, "0".toList], ["50".toList, "20".toList, "1".toList], ["10".toList, "40".toList, "0".toList], ["30".toList, "40".toList, "0".toList], [['-'], ['-'], ['-']]]⟩
def ex8 : Shot := ⟨"img8.jpg".toList, [[['-'], ['-'], ['-']]]⟩
def ex9 : Shot := ⟨"img9.jpg".toList, [["11".toList, "20".toList, "0".toList], ["31".toList, "20".toList, "0".toList], ["51".toList, "20".toList, "1".toList], ["11".toList, "40".toList, "0".toList], ["31".toList, "40".toList, "0".toList], ["51".toList, "40".toList, "3".toList]]⟩

theorem ex_words : (exLines.filter fun l => !comment l).map words = [ex7, ex8, ex9].flatMap fun s => s.rows.map (s.name :: ·) := by decide +kernel

theorem ex_nonempty : ∀ s ∈ [ex7, ex8, ex9], s.rows ≠ [] := by decide +kernel

theorem ex_describes : Describes exLines [ex7, ex8, ex9] := by
  refine ⟨ex_words, ex_nonempty, ?_⟩
  · rw [List.isChain_cons_cons, List.isChain_cons_cons]
    exact ⟨by decide, by decide, .singleton _⟩

theorem ex_camera (f : Name) : CameraOf exEnv f 0 := ⟨by decide, rfl, by intro c hc; omega⟩

theorem ex_context7 : (shotContext exEnv ex7).map (fun c => c.Nvalidpoints) = some 5 := by decide +kernel
theorem ex_context8 : (shotContext exEnv ex8).map (fun c => c.Nvalidpoints) = some 0 := by decide +kernel
theorem ex_context9 : (shotContext exEnv ex9).map (fun c => c.Nvalidpoints) = some 6 := by decide +kernel

theorem ex_count (s : Shot) (n : Nat) (h : (shotContext exEnv s).map (fun c => c.Nvalidpoints) = some n) : detections exEnv s = n ∧ ∀ f ∈ s.rows, Readable exEnv f := by
  rcases hc : shotContext exEnv s with _ | c
  · rw [hc] at h; cases h
  · rw [hc] at h
    refine ⟨by rw [← valid_count exEnv s c hc]; exact Option.some.inj h, ?_⟩
    exact ((load_some exEnv s.rows _).mp ⟨c, hc⟩).1

theorem ex_min : exEnv.minPoints = 4 := by decide

theorem ex_kept (s : Shot) (h : s ∈ [ex7, ex8, ex9]) : Kept exEnv s ↔ s.rows.length = 6 := by
  simp only [List.mem_cons, List.not_mem_nil, or_false] at h
  rcases h with rfl | rfl | rfl
  · have := (ex_count ex7 5 ex_context7).1
    constructor
    · intro _; rfl
    · intro _; exact ⟨by decide, rfl, by rw [this, ex_min]; decide, 0, ex_camera _⟩
  · constructor
    · intro h; exact absurd h.1 (by decide)
    · intro h; exact absurd h (by decide)
  · have := (ex_count ex9 6 ex_context9).1
    constructor
    · intro _; rfl
    · intro _; exact ⟨by decide, rfl, by rw [this, ex_min]; decide, 0, ex_camera _⟩

theorem ex_names : ([ex7, ex8, ex9].map fun s => canonical exEnv s.name).Nodup := by decide +kernel

theorem ex_nodup : ((kept exEnv [ex7, ex8, ex9]).map fun s => canonical exEnv s.name).Nodup :=
  ((List.filter_sublist).map _).nodup ex_names

/-- the call succeeds, and the two images with boards are reported -/
example : ∃ r, compute exEnv exLines = some r ∧ r.files_sorted.Nodup ∧ (∀ f, f ∈ r.files_sorted ↔ f = "data/img7.jpg".toList ∨ f = "data/img9.jpg".toList) := by
  obtain ⟨r, hr⟩ := (corners_accepted exEnv exLines [ex7, ex8, ex9] ex_describes ex_nodup).mpr ⟨by
    intro s hs
    simp only [List.mem_cons, List.not_mem_nil, or_false] at hs
    rcases hs with rfl | rfl | rfl
    · exact ⟨(ex_count ex7 5 ex_context7).2, Or.inr (by decide)⟩
    · exact ⟨(ex_count ex8 0 ex_context8).2, Or.inl (by decide)⟩
    · exact ⟨(ex_count ex9 6 ex_context9).2, Or.inr (by decide)⟩, by
    intro c hc
    have hN : exEnv.Ncameras = 1 := rfl
    have : c = 0 := by omega
    subst this
    rw [if_neg (by omega)]
    exact List.length_pos_of_mem ((mem_pathsOf exEnv _ 0 (canonical exEnv ex7.name)).mpr ⟨ex_camera _, ex7, by simp, (ex_kept ex7 (by simp)).mpr (by decide), rfl⟩), Or.inl rfl⟩
  obtain ⟨h1, h2, -⟩ := corners_points exEnv exLines [ex7, ex8, ex9] ex_describes ex_nodup r hr
  refine ⟨r, hr, h1, ?_⟩
  intro f
  rw [h2]
  have e7 : canonical exEnv ex7.name = "data/img7.jpg".toList := by decide +kernel
  have e9 : canonical exEnv ex9.name = "data/img9.jpg".toList := by decide +kernel
  constructor
  · rintro ⟨s, hs, hK, rfl⟩
    have hl := (ex_kept s hs).mp hK
    simp only [List.mem_cons, List.not_mem_nil, or_false] at hs
    rcases hs with rfl | rfl | rfl
    · exact Or.inl e7
    · exact absurd hl (by decide)
    · exact Or.inr e9
  · rintro (rfl | rfl)
    · exact ⟨ex7, by simp, (ex_kept ex7 (by simp)).mpr (by decide), e7⟩
    · exact ⟨ex9, by simp, (ex_kept ex9 (by simp)).mpr (by decide), e9⟩

/-! Two cameras, with two images each. The board has 2x1 corners -/

def twoEnv : Env where
  W := 2
  H := 1
  Ncameras := 2
  kind := .ignored
  num := exNum
  excluded := fun _ => false
  min := some 1
  image_path_prefix := none
  image_directory := none
  corners_dir := none
  exist := fun _ => true
  normpath := id
  glob := fun c f => f.head? = some (if c = 0 then 'a' else 'b')

def twoLines : List (List Char) := ["a1.jpg 1 2\n".toList, "a1.jpg 3 4\n".toList, "b2.jpg 1 2\n".toList, "b2.jpg 3 4\n".toList, "a2.jpg 1 2\n".toList, "a2.jpg 3 4\n".toList, "b1.jpg 1 2\n".toList, "b1.jpg 3 4\n".toList]

def twoRows : List (List Name) := [["1".toList, "2".toList], ["3".toList, "4".toList]]

def twoShots : List Shot := [⟨"a1.jpg".toList, twoRows⟩, ⟨"b2.jpg".toList, twoRows⟩, ⟨"a2.jpg".toList, twoRows⟩, ⟨"b1.jpg".toList, twoRows⟩]

theorem two_words : (twoLines.filter fun l => !comment l).map words = twoShots.flatMap fun s => s.rows.map (s.name :: ·) := by decide +kernel

theorem two_rows (s : Shot) (h : s ∈ twoShots) : s.rows = twoRows := by
  have : ∀ s ∈ twoShots, s.rows = twoRows := by
    unfold twoShots
    simp
  exact this s h

theorem two_describes : Describes twoLines twoShots := by
  refine ⟨two_words, ?_, ?_⟩
  · intro s hs
    rw [two_rows s hs]
    simp [twoRows]
  · unfold twoShots
    rw [List.isChain_cons_cons, List.isChain_cons_cons, List.isChain_cons_cons]
    exact ⟨by decide, by decide, by decide, .singleton _⟩

theorem two_load (f : Name) : (load twoEnv { context0 twoEnv with f := f } twoRows).map (fun c => c.Nvalidpoints) = some 2 := rfl

theorem two_cam (s : Shot) (h : s ∈ twoShots) : canonical twoEnv s.name = s.name ∧ (s.name.head? = some 'a' ∧ CameraOf twoEnv s.name 0 ∧ ¬ CameraOf twoEnv s.name 1 ∨ s.name.head? = some 'b' ∧ CameraOf twoEnv s.name 1 ∧ ¬ CameraOf twoEnv s.name 0) := by
  refine ⟨rfl, ?_⟩
  have h2 : s.name.head? = some 'a' ∨ s.name.head? = some 'b' := by
    have : ∀ s ∈ twoShots, s.name.head? = some 'a' ∨ s.name.head? = some 'b' := by decide
    exact this s h
  rcases h2 with h2 | h2
  · left
    refine ⟨h2, ⟨by decide, by simp [twoEnv, h2], by intro c hc; omega⟩, ?_⟩
    rintro ⟨-, h3, -⟩
    simp [twoEnv, h2] at h3
  · right
    refine ⟨h2, ⟨by decide, by simp [twoEnv, h2], ?_⟩, ?_⟩
    · intro c hc
      have : c = 0 := by omega
      subst this
      simp [twoEnv, h2]
    · rintro ⟨-, h3, -⟩
      simp [twoEnv, h2] at h3

theorem two_shot (s : Shot) (h : s ∈ twoShots) : Loadable twoEnv s ∧ Kept twoEnv s := by
  have hr := two_rows s h
  rcases hc : shotContext twoEnv s with _ | c
  · have := two_load s.name
    unfold shotContext at hc
    rw [hr] at hc
    rw [hc] at this
    cases this
  · have hc' := hc
    unfold shotContext at hc
    have := two_load s.name
    rw [hr] at hc
    rw [hc] at this
    have hn : c.Nvalidpoints = 2 := Option.some.inj this
    have hd := valid_count twoEnv s c hc'
    rw [hn] at hd
    refine ⟨⟨((load_some twoEnv s.rows _).mp ⟨c, hc'⟩).1, Or.inr (by rw [hr]; rfl)⟩, by rw [hr]; decide, rfl, by rw [← hd]; decide, ?_⟩
    obtain ⟨e1, e2⟩ := two_cam s h
    rw [e1]
    rcases e2 with ⟨-, e2, -⟩ | ⟨-, e2, -⟩
    · exact ⟨0, e2⟩
    · exact ⟨1, e2⟩

theorem two_kept : kept twoEnv twoShots = twoShots := by
  unfold kept
  rw [List.filter_eq_self]
  intro s hs
  simpa using (two_shot s hs).2

theorem two_nodup : ((kept twoEnv twoShots).map fun s => canonical twoEnv s.name).Nodup := by
  rw [two_kept]
  decide

open Classical in
theorem two_paths (c : Nat) (hc : c < 2) : pathsOf twoEnv twoShots c = (twoShots.filter fun s => s.name.head? = some (if c = 0 then 'a' else 'b')).map Shot.name := by
  unfold pathsOf
  rw [two_kept]
  have key : ∀ l : List Shot, (∀ s ∈ l, s ∈ twoShots) → l.filterMap (fun s => if CameraOf twoEnv (canonical twoEnv s.name) c then some (canonical twoEnv s.name) else none) = (l.filter fun s => s.name.head? = some (if c = 0 then 'a' else 'b')).map Shot.name := by
    intro l
    induction l with
    | nil => intro _; rfl
    | cons s l ih =>
      intro hl
      have ih := ih fun s hs => hl s (by simp [hs])
      obtain ⟨e1, e2⟩ := two_cam s (hl s (by simp))
      have hcc : c = 0 ∨ c = 1 := by omega
      rcases hcc with rfl | rfl <;> rcases e2 with ⟨g1, g2, g3⟩ | ⟨g1, g2, g3⟩
      · rw [List.filterMap_cons_some (by rw [e1, if_pos g2]), List.filter_cons_of_pos (by simp [g1]), List.map_cons, ih]
      · rw [List.filterMap_cons_none (by rw [e1, if_neg g3]), List.filter_cons_of_neg (by simp [g1]), ih]
      · rw [List.filterMap_cons_none (by rw [e1, if_neg g3]), List.filter_cons_of_neg (by simp [g1]), ih]
      · rw [List.filterMap_cons_some (by rw [e1, if_pos g2]), List.filter_cons_of_pos (by simp [g1]), List.map_cons, ih]
  exact key twoShots fun s hs => hs

def twoP (c : Nat) : Name := if c = 0 then "a".toList else "b".toList
def twoD (c : Nat) : List Name := if c = 0 then ["1".toList, "2".toList] else ["2".toList, "1".toList]

theorem two_numbered (c : Nat) (hc : c < 2) : Numbered (twoP c) ".jpg".toList (twoD c) (pathsOf twoEnv twoShots c) := by
  rw [two_paths c hc]
  have hcc : c = 0 ∨ c = 1 := by omega
  refine ⟨?_, ?_, ?_, ?_⟩
  · rcases hcc with rfl | rfl <;> decide
  · intro d hd
    have : d = "1".toList ∨ d = "2".toList := by
      rcases hcc with rfl | rfl
      · simpa [twoD] using hd
      · simpa [twoD, or_comm] using hd
    unfold Digits
    rcases this with rfl | rfl <;> decide
  · intro x hx
    have : x = 'a' ∨ x = 'b' := by
      rcases hcc with rfl | rfl
      · left; simpa [twoP] using hx.symm
      · right; simpa [twoP] using hx.symm
    rcases this with rfl | rfl <;> decide
  · intro x hx
    have : x = '.' := by simpa using hx.symm
    subst this
    decide

/-- the images with the same number, and only those, have the same frame index -/
example : ∃ r, compute twoEnv twoLines = some r ∧ ∀ (i j : Nat) (fi fj : Name) (ki kj : Int) (ci cj : Nat), r.files_sorted[i]? = some fi → r.files_sorted[j]? = some fj → r.indices_frame_camera[i]? = some (ki, ci) → r.indices_frame_camera[j]? = some (kj, cj) →
    ∃ di ∈ twoD ci, ∃ dj ∈ twoD cj, fi = twoP ci ++ di ++ ".jpg".toList ∧ fj = twoP cj ++ dj ++ ".jpg".toList ∧ (ki = kj ↔ decimal di = decimal dj) := by
  have hpull : ∀ c < 2, pullFramenumbers (pathsOf twoEnv twoShots c) = some ((twoD c).map decimal) := by
    intro c hc
    have hcc : c = 0 ∨ c = 1 := by omega
    have hd : (∀ d ∈ twoD c, d.length = 1) ∧ "1".toList ∈ twoD c ∧ "2".toList ∈ twoD c := by
      rcases hcc with rfl | rfl <;> decide
    exact frames_padded _ _ _ _ (two_numbered c hc) 1 hd.1 _ _ hd.2.1 hd.2.2 (by decide)
  obtain ⟨r, hr⟩ := (corners_accepted twoEnv twoLines twoShots two_describes two_nodup).mpr ⟨fun s hs => (two_shot s hs).1, by
    intro c hc
    have hN : twoEnv.Ncameras = 2 := rfl
    rw [if_pos (by omega), two_paths c hc]
    have hcc : c = 0 ∨ c = 1 := by omega
    rcases hcc with rfl | rfl <;> decide, Or.inr fun c hc => by rw [hpull c hc]; simp⟩
  refine ⟨r, hr, ?_⟩
  intro i j fi fj ki kj ci cj h1 h2 h3 h4
  obtain ⟨di, hdi, dj, hdj, e1, e2, e3, -⟩ := corners_synchronized twoEnv twoLines twoShots two_describes two_nodup r hr (by decide) twoP (fun _ => ".jpg".toList) twoD two_numbered i j fi fj ki kj ci cj h1 h2 h3 h4
  exact ⟨di, hdi, dj, hdj, e1, e2, e3⟩

/-- with a minimum of 2 corners, the images with 2 corners are thrown out, so there's nothing left -/
example : ¬ ∃ r, compute { twoEnv with min := some 2 } twoLines = some r := by
  rintro ⟨r, hr⟩
  have hnd : (twoShots.map fun s => canonical { twoEnv with min := some 2 } s.name).Nodup := by decide
  have hsub : ((kept { twoEnv with min := some 2 } twoShots).map fun s => canonical { twoEnv with min := some 2 } s.name).Sublist (twoShots.map fun s => canonical { twoEnv with min := some 2 } s.name) := (List.filter_sublist).map _
  have henough := ((corners_accepted _ twoLines twoShots two_describes (hsub.nodup hnd)).mp ⟨r, hr⟩).2.1 0 (by decide)
  obtain ⟨f, hf⟩ := List.exists_mem_of_length_pos (lt_of_lt_of_le (by decide) henough)
  obtain ⟨-, s, hs, hK, he⟩ := (mem_pathsOf _ twoShots 0 f).mp hf
  refine corners_min_wrong _ twoLines twoShots two_describes hnd r hr s hs ?_ ?_
  · have : detections { twoEnv with min := some 2 } s = detections twoEnv s := rfl
    rw [this]
    obtain ⟨hc0, -⟩ := two_shot s hs
    rcases hc : shotContext twoEnv s with _ | c
    · have hl := two_load s.name
      unfold shotContext at hc
      rw [two_rows s hs] at hc
      rw [hc] at hl
      cases hl
    · rw [← valid_count twoEnv s c hc]
      have hl := two_load s.name
      unfold shotContext at hc
      rw [two_rows s hs] at hc
      rw [hc] at hl
      rw [show c.Nvalidpoints = 2 from Option.some.inj hl]
      rfl
  · obtain ⟨-, h2, -⟩ := corners_points _ twoLines twoShots two_describes (hsub.nodup hnd) r hr
    exact (h2 _).mpr ⟨s, hs, hK, rfl⟩

/-- a level of 3 is a weight of 1/8 -/
example : parsePoint .level exNum ["51".toList, "40".toList, "3".toList] = some (⟨.fin 51, .fin 40, .fin (1 / 8)⟩, true) := by decide +kernel

example : parsePoint .level exNum ["nan".toList, "nan".toList] = some (⟨.nan, .nan, .fin 1⟩, true) := corners_nan_wrong .level exNum (by decide)

example : canonical { exEnv with image_path_prefix := none, corners_dir := some [], exist := fun _ => false } "img7.jpg".toList = "/img7.jpg".toList :=
  corners_path_wrong _ _ rfl rfl rfl (by decide) rfl

end Mrcal.Corners

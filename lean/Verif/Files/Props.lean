import Verif.Files.Lemmas
/-! # Properties of the sharing of files -/
namespace Np.Files
open _root_.Np.Files.Spec
open Np.Http (Text)

/-- A file with a name of one letter and a type. -/
def txt (c : Nat) : Text := [c, 46, 116, 120, 116]

/-- A numbering of names for the examples: those of different first letters are different. -/
def number (t : Text) : Nat := t.headD 0

/-- `docs` with a file, a hidden one and a directory with another. -/
def sample : Node := .dir [100] [.file (txt 97) (some [1, 2, 3]), .file [46, 97] (some [4]), .dir [101] [.file (txt 98) (some [5])]]

def sampleState : St :=
  { tree := [(root, .dir 0), (number (txt 97), .file (kept [[120], [100]] (txt 97))), (number (txt 98), .file (kept [[120], [100], [101]] (txt 98))),
      (number [101], .dir 2), (number [100], .dir 1)],
    dirs := [{ name := [47], cwd := [], dirs := [number [100]], files := [] },
      { name := [100], cwd := [[120], [100]], dirs := [number [101]], files := [number (txt 97)] },
      { name := [101], cwd := [[120], [100], [101]], dirs := [], files := [number (txt 98)] }],
    mapped := 4, cwd := [[120]], stray := false }

/-- Evaluates the model on given values. -/
local macro "compute" : tactic => `(tactic| simp [run, step, openPath, sample, walk, walkKids, dirInfo, fileOpen, find, insert, setFile, load, close, fresh, subject,
  number, txt, start, root, setCwd, addTo, addDir, addFile, hidden, Node.name, mimeOf, lastDot, suffixes, fits, List.findIdx?_cons, List.modify, sampleState, kept,
  page, getFile, getDir, fileInfo, send, Except.map])

theorem sample_run : run number (start [[120]]) [.share (some sample)] = .ok sampleState := by compute

/-! ## C191: the content of a shared file is delivered -/

/-- Never: whatever has been shared, read and sent before, no page of a file has a content and no file is sent. -/
theorem C191_content_refuted (id : Text → Nat) (d : Dir) (ops : List Op) (s : St) (h : run id (start d) ops = .ok s) :
    (∀ look k args data s' n c m content t, page id look s k args data = .ok (s', .file n c m content, t) → content = none) ∧
    (∀ k data s' p n c m content, send s k data = .ok (s', some p) → p ≠ .file n c m content) := by
  have hc := run_closed id ops _ s (start_closed d) h
  constructor
  · intro look k args data s' n c m content t hp
    unfold page at hp
    cases w : find s k with
    | none => rw [w] at hp; simp at hp
    | some r =>
      cases r with
      | file i =>
        rw [w] at hp
        simp only [getFile_closed s k i (closed_find hc w) data, Except.ok.injEq, Prod.mk.injEq, Page.file.injEq] at hp
        exact hp.2.1.2.2.2.symm
      | dir n =>
        rw [w] at hp
        simp only [getDir] at hp
        split at hp
        · simp at hp
        · split at hp <;> simp at hp
  · intro k data s' p n c m content hp
    cases w : find s k with
    | none => simp [send, w] at hp
    | some r =>
      cases r with
      | file i => rw [send_closed s k i w (closed_find hc w) data] at hp; simp at hp
      | dir n =>
        simp only [send, w] at hp
        split at hp
        · simp at hp
        · simp only [Except.ok.injEq, Prod.mk.injEq, Option.some.injEq] at hp
          rw [← hp.2]; simp

/-- A file of three bytes that can be read has a page, and is to be sent, without them. -/
theorem C191_witness_refuted : ∃ s', page number (fun _ => none) sampleState (number (txt 97)) none (some [1, 2, 3]) =
    .ok (s', .file (txt 97) [[120], [100]] 16 none, 16) ∧ (send sampleState (number (txt 97)) (some [1, 2, 3])).map (·.2) = .ok none := by
  compute

/-- The page of a file says the same every time, whatever becomes of the file. -/
theorem C191_same_partial (id : Text → Nat) (d : Dir) (ops : List Op) (s : St) (h : run id (start d) ops = .ok s) (look look' : Text → Option Node) (k : Nat)
    (args args' : Option Http.Map) (data data' : Option Bytes) (s' : St) (n : Text) (c : Dir) (m : Nat) (content : Option Bytes) (t : Nat)
    (hp : page id look s k args data = .ok (s', .file n c m content, t)) :
    ∃ s'', page id look' s' k args' data' = .ok (s'', .file n c m content, t) := by
  have hc := run_closed id ops _ s (start_closed d) h
  cases w : find s k with
  | none => simp [page, w] at hp
  | some r =>
    cases r with
    | file i =>
      have hi := closed_find hc w
      simp only [page, w, getFile_closed s k i hi data, Except.ok.injEq, Prod.mk.injEq] at hp
      obtain ⟨h1, h2, h3⟩ := hp
      have hf : find s' k = some (.file i) := by
        rw [← h1, find_setFile, if_pos rfl]
        show Option.map _ (find s k) = _
        rw [w]; rfl
      exact ⟨_, by rw [page, hf]; simp only; rw [getFile_closed s' k i hi data', h2, h3]⟩
    | dir n =>
      simp only [page, w, getDir] at hp
      split at hp
      · simp at hp
      · split at hp <;> simp at hp

example : ∃ s', page number (fun _ => none) sampleState (number (txt 98)) none none = .ok (s', .file (txt 98) [[120], [100], [101]] 16 none, 16) := by compute

/-! ## C192: the process that shares files is left alone -/

/-- After sharing something, the process works where it did. -/
theorem C192_share_partial (id : Text → Nat) (s s' : St) (k : Option Node) (h : openPath id s k = .ok s') : s'.cwd = s.cwd := by
  cases k with
  | none => simp only [openPath, Except.ok.injEq] at h; rw [h]
  | some k =>
    simp only [openPath] at h
    split at h
    · simp at h
    · simp only [Except.ok.injEq] at h; rw [← h]

example : openPath number (start [[120]]) (some sample) = .ok sampleState := by compute

/-- A page of a directory, read without arguments, changes nothing. -/
theorem C192_listing_partial (id : Text → Nat) (look : Text → Option Node) (s s' : St) (k : Nat) (data : Option Bytes) (n : Text) (c : Dir) (ds fs : List Nat)
    (t : Nat) (h : page id look s k none data = .ok (s', .dir n c ds fs, t)) : s' = s := by
  unfold page at h
  split at h
  · simp at h
  · unfold getFile fileInfo at h
    simp only at h
    split at h <;> simp at h
  · simp only [getDir, Option.bind_none] at h
    split at h
    · simp at h
    · simp only [Except.ok.injEq, Prod.mk.injEq] at h
      exact h.1.symm

example : page number (fun _ => none) sampleState (number [100]) none none = .ok (sampleState, .dir [100] [[120], [100]] [number [101]] [number (txt 97)], 2) := by compute

/-- The page of a file moves the process into the directory of the file, and for a file that can be read, a descriptor is closed that was closed before. -/
theorem C192_file_refuted (id : Text → Nat) (d : Dir) (ops : List Op) (s : St) (h : run id (start d) ops = .ok s) (look : Text → Option Node) (k : Nat)
    (args : Option Http.Map) (data : Option Bytes) (s' : St) (n : Text) (c : Dir) (m : Nat) (content : Option Bytes) (t : Nat)
    (hp : page id look s k args data = .ok (s', .file n c m content, t)) : s'.cwd = c ∧ s'.stray = (s.stray || data.isSome) := by
  have hc := run_closed id ops _ s (start_closed d) h
  cases w : find s k with
  | none => simp [page, w] at hp
  | some r =>
    cases r with
    | file i =>
      simp only [page, w, getFile_closed s k i (closed_find hc w) data, Except.ok.injEq, Prod.mk.injEq, Page.file.injEq] at hp
      obtain ⟨h1, ⟨h2, h3, h4⟩, h5⟩ := hp
      rw [← h1, ← h3]
      exact ⟨rfl, rfl⟩
    | dir n =>
      simp only [page, w, getDir] at hp
      split at hp
      · simp at hp
      · split at hp <;> simp at hp

/-- A name is then looked up somewhere else: what is shared next under the same name lies in another directory. -/
theorem C192_elsewhere_refuted :
    ∃ s1 s2 s3, run number (start [[120]]) [.share (some sample), .share (some (.file (txt 99) (some [7])))] = .ok s1 ∧
      run number (start [[120]]) [.share (some sample), .get (number (txt 97)) none (fun _ => none) (some [1, 2, 3]), .share (some (.file (txt 99) (some [7])))] = .ok s2 ∧
      s1.cwd = [[120]] ∧ s2.cwd = [[120], [100]] ∧ s1.stray = false ∧ s2.stray = true ∧
      page number (fun _ => none) s2 (number (txt 99)) none none = .ok (s3, .file (txt 99) [[120], [100]] 16 none, 16) := by
  compute

/-! ## C193: sharing a directory shares everything visible in it -/

/-- If all names are different and new, and all files can be read and have a content, then everything visible is shared, the root has an entry for it, and what was
shared before stays. -/
theorem C193_share_partial (id : Text → Nat) (s : St) (k : Node) (d0 : DirInfo) (h0 : s.dirs[0]? = some d0) (hg : Good k) (hn : (ids id k).Nodup)
    (hx : ∀ x ∈ ids id k, find s x = none) :
    ∃ s', openPath id s (some k) = .ok s' ∧ Shared id s' s.cwd k ∧ (∀ x, x ∉ ids id k → find s' x = find s x) ∧
      (∀ m, m < s.dirs.length → m ≠ 0 → s'.dirs[m]? = s.dirs[m]?) ∧
      ∃ d1, s'.dirs[0]? = some d1 ∧ d1.name = d0.name ∧ d1.cwd = d0.cwd ∧
        match k with
        | .file name _ => d1.files = d0.files ++ [subject id name] ∧ d1.dirs = d0.dirs
        | .dir name _ => d1.dirs = d0.dirs ++ [subject id name] ∧ d1.files = d0.files := by
  obtain ⟨s1, hw, hc, hl, hf, hfind, hh⟩ := walk_good id k s hg hn hx
  have hpos : 0 < s.dirs.length := by
    rw [List.getElem?_eq_some_iff] at h0
    exact h0.1
  have h1 : s1.dirs[0]? = some d0 := by rw [hf 0 hpos]; exact h0
  refine ⟨{ (addTo s1 0 k (some (subject id k.name))) with cwd := s.cwd }, by rw [openPath, hw], ?_, ?_, ?_, ?_⟩
  · refine held_shared id _ s.dirs.length k s.cwd (held_mono id (Nat.le_refl _) ?_ k _ ?_ hh)
    · intro m hm x w
      show (addTo s1 0 k _).dirs[m]? = _
      rw [addTo_dirs _ _ _ _ _ (by omega)]; exact w
    · intro x _
      unfold find
      simp only [addTo_tree]
  · intro x w
    unfold find
    simp only [addTo_tree]
    exact hfind x w
  · intro m hm hne
    show (addTo s1 0 k _).dirs[m]? = _
    rw [addTo_dirs _ _ _ _ _ hne, hf m hm]
  · cases k with
    | file name data => exact ⟨{ d0 with files := d0.files ++ [subject id name] }, by simp [addTo, addFile, h1, Node.name], rfl, rfl, rfl, rfl⟩
    | dir name kids => exact ⟨{ d0 with dirs := d0.dirs ++ [subject id name] }, by simp [addTo, addDir, h1, Node.name], rfl, rfl, rfl, rfl⟩

example : Good sample := by
  simp [sample, Good, GoodKids, Node.name, txt]
example : (ids number sample).Nodup := by
  have : ids number sample = [number [100], number (txt 97), number [101], number (txt 98)] := by rfl
  rw [this]; decide
example : ∀ x ∈ ids number sample, find (start [[120]]) x = none := by
  have : ids number sample = [number [100], number (txt 97), number [101], number (txt 98)] := by rfl
  rw [this]
  intro x hx
  simp only [List.mem_cons, List.not_mem_nil, or_false] at hx
  rcases hx with h | h | h | h <;> subst h <;> rfl

/-- Two directories with a file of the same name: the second is shared without its file, and the page is that of the first. -/
theorem C193_same_name_refuted :
    ∃ s' s'', openPath number (start [[120]]) (some (.dir [100] [.dir [101] [.file (txt 97) (some [1])], .dir [102] [.file (txt 97) (some [2])]])) = .ok s' ∧
      page number (fun _ => none) s' (number [102]) none none = .ok (s', .dir [102] [[120], [100], [102]] [] [], 2) ∧
      page number (fun _ => none) s' (number (txt 97)) none none = .ok (s'', .file (txt 97) [[120], [100], [101]] 16 none, 16) := by
  compute

/-- Two directories of the same name become one, which lies where the second does and lists the files of both. -/
theorem C193_same_dir_refuted :
    ∃ s', openPath number (start []) (some (.dir [100] [.dir [101] [.dir [103] [.file (txt 97) (some [1])]], .dir [102] [.dir [103] [.file (txt 98) (some [2])]]])) = .ok s' ∧
      page number (fun _ => none) s' (number [103]) none none = .ok (s', .dir [103] [[100], [102], [103]] [] [number (txt 97), number (txt 98)], 2) ∧
      page number (fun _ => none) s' (number [102]) none none = .ok (s', .dir [102] [[100], [102]] [] [], 2) := by
  compute

/-- A file that is empty, or cannot be read, leads to the use of members that were never set, whatever was shared before. -/
theorem C193_empty_refuted (id : Text → Nat) (s : St) (name : Text) (data : Option Bytes) (hd : data = none ∨ data = some []) (hf : find s (subject id name) = none) :
    openPath id s (some (.file name data)) = .error .garbage := by
  have : fileOpen id s name data = .error .garbage := by
    unfold fileOpen
    simp only [hf, Option.isSome_none, Bool.false_eq_true, if_false]
    rcases hd with rfl | rfl <;> simp [load, fresh, close]
  rw [openPath, walk, this]

example : find (start []) (subject number (txt 97)) = none := by rfl

/-- A directory with the name of a shared file is taken for that file. -/
theorem C193_confused_refuted (id : Text → Nat) (s : St) (name : Text) (kids : List Node) (i : FileInfo) (hf : find s (subject id name) = some (.file i)) :
    openPath id s (some (.dir name kids)) = .error .confused := by
  rw [openPath, walk, dirInfo, hf]

example : ∃ i, find sampleState (subject number (txt 97)) = some (.file i) := ⟨_, rfl⟩

/-! ## C194: only what was shared is shared -/

/-- What has no page before, and is not visible in what is shared, has none afterwards. -/
theorem C194_only_partial (id : Text → Nat) (s s' : St) (k : Node) (h : openPath id s (some k) = .ok s') (x : Nat) (hx : x ∉ ids id k)
    (look : Text → Option Node) (args : Option Http.Map) (data : Option Bytes) (hp : page id look s x args data = .ok (s, .error, 2)) :
    page id look s' x args data = .ok (s', .error, 2) := by
  have hf : find s x = none := by
    unfold page at hp
    split at hp
    · assumption
    · unfold getFile fileInfo at hp
      simp only at hp
      split at hp <;> simp at hp
    · simp only [getDir] at hp
      split at hp
      · simp at hp
      · split at hp <;> simp at hp
  have hf' : find s' x = none := by
    simp only [openPath] at h
    split at h
    · simp at h
    · rename_i s1 e hw
      simp only [Except.ok.injEq] at h
      have ht : find s' x = find s1 x := by
        rw [← h]; unfold find; simp only [addTo_tree]
      rw [ht]
      cases w : find s1 x with
      | none => rfl
      | some r =>
        rcases walk_tree id k s s1 _ hw x (by rw [w]; rfl) with q | q
        · rw [hf] at q; simp at q
        · exact absurd q hx
  rw [page, hf']

example : number [46, 97] ∉ ids number sample := by
  have : ids number sample = [number [100], number (txt 97), number [101], number (txt 98)] := by rfl
  rw [this]; decide
example : page number (fun _ => none) (start [[120]]) (number [46, 97]) none none = .ok (start [[120]], .error, 2) := by rfl

/-- A hidden file that is named is shared. -/
theorem C194_named_refuted (id : Text → Nat) (s : St) (d0 : DirInfo) (h0 : s.dirs[0]? = some d0) (name : Text) (b : Bytes) (hb : b ≠ [])
    (hf : find s (subject id (46 :: name)) = none) :
    ∃ s', openPath id s (some (.file (46 :: name) (some b))) = .ok s' ∧ Shared id s' s.cwd (.file (46 :: name) (some b)) := by
  obtain ⟨s', h1, h2, _⟩ := C193_share_partial id s (.file (46 :: name) (some b)) d0 h0 (by rw [Good]; exact ⟨b, rfl, hb⟩) (by simp [ids]) (by
    intro x hx
    simp [ids] at hx
    rw [hx]; exact hf)
  exact ⟨s', h1, h2⟩

/-- Whoever reads the page of a directory can have anything shared by naming it. -/
theorem C194_http_refuted (id : Text → Nat) (s : St) (d0 : DirInfo) (h0 : s.dirs[0]? = some d0) (hr : find s root = some (.dir 0)) (name : Text) (k : Node)
    (look : Text → Option Node) (hk : look name = some k) (hg : Good k) (hn : (ids id k).Nodup) (hx : ∀ x ∈ ids id k, find s x = none) (data : Option Bytes) :
    ∃ s' p, page id look s root (some [([115, 104, 97, 114, 101, 95, 102, 105, 108, 101], name)]) data = .ok (s', p, 2) ∧ Shared id s' s.cwd k := by
  obtain ⟨s', h1, h2, _, _, d1, h3, _⟩ := C193_share_partial id s k d0 h0 hg hn hx
  have hget : ((some [([115, 104, 97, 114, 101, 95, 102, 105, 108, 101], name)] : Option Http.Map).bind fun m => Http.get m shareWord) = some name := by
    simp [Http.get, shareWord]
  refine ⟨s', .dir d1.name d1.cwd d1.dirs d1.files, ?_, h2⟩
  rw [page, hr]
  simp only [getDir, hget, hk, h1, h3]

example : find sampleState root = some (.dir 0) := by rfl

/-! ## C195: what is no longer to be shared is not shared -/

/-- Ending it changes nothing, after any history: a file is served as before. -/
theorem C195_close_refuted (id : Text → Nat) (s : St) (ops : List Op) (name alias : Text) (data : Option Bytes) (d : Dir) (h : run id (start d) ops = .ok s)
    (c : Dir) (hs : Shared id s c (.file name data)) :
    ∃ s', run id (start d) (ops ++ [.unshare alias]) = .ok s' ∧ Shared id s' c (.file name data) := by
  have : ∀ (ops : List Op) (s0 : St), run id s0 ops = .ok s → run id s0 (ops ++ [.unshare alias]) = .ok s := by
    intro ops
    induction ops with
    | nil => intro s0 h; simp only [run, Except.ok.injEq] at h; rw [← h]; rfl
    | cons o os ih =>
      intro s0 h
      simp only [run, List.cons_append] at h ⊢
      cases q : step id s0 o with
      | error f => rw [q] at h; simp at h
      | ok s1 => rw [q] at h; exact ih s1 h
  exact ⟨s, this ops _ h, hs⟩

example : Shared number sampleState [[120], [100]] (.file (txt 97) (some [1, 2, 3])) := by
  rw [Shared]
  intro look data
  exact ⟨_, none, by rw [page, show find sampleState (subject number (txt 97)) = some (.file (kept [[120], [100]] (txt 97))) from rfl]; exact getFile_closed _ _ _ (kept_closed _ _) data⟩

/-! ## C196: a file is announced with the type of its suffix -/

/-- For every suffix of the table but one, and whatever comes before it. -/
theorem C196_type_partial (m : Mime) (h : m ≠ .csv) (stem : Text) : mimeOf (stem ++ m.suffix) = m.number := by
  have hd : lastDot m.suffix = some m.suffix := by cases m <;> decide
  unfold mimeOf
  rw [lastDot_some_append stem hd]
  cases m <;> first | exact absurd rfl h | decide

/-- A name without a suffix is plain text. -/
theorem C196_none_partial (name : Text) (h : 46 ∉ name) : mimeOf name = Mime.txt.number := by
  unfold mimeOf
  rw [lastDot_none h]; rfl

/-- A table of values is taken for a style sheet. -/
theorem C196_csv_refuted (stem : Text) : mimeOf (stem ++ Mime.csv.suffix) = Mime.css.number := by
  unfold mimeOf
  rw [lastDot_some_append stem (show lastDot Mime.csv.suffix = some Mime.csv.suffix by decide)]
  decide

/-- A suffix that is in no table is taken for one that is: ".pd" and any third letter. -/
theorem C196_unknown_refuted (stem : Text) (c : Nat) (h : c ≠ 46) : mimeOf (stem ++ [46, 112, 100, c]) = Mime.pdf.number := by
  unfold mimeOf
  rw [lastDot_some_append stem (show lastDot [46, 112, 100, c] = some [46, 112, 100, c] by simp [lastDot, h])]
  simp [suffixes, fits, List.findIdx?_cons, Mime.number]

example : mimeOf (txt 97) = Mime.txt.number := C196_type_partial .txt (by simp) [97]

/-! ## C197: the type of an answer is that of its body -/

/-- The pages of directories and those of nothing are JSON and said to be. -/
theorem C197_listing_partial (id : Text → Nat) (look : Text → Option Node) (s s' : St) (k : Nat) (args : Option Http.Map) (data : Option Bytes) (p : Page) (t : Nat)
    (h : page id look s k args data = .ok (s', p, t)) (hp : ∀ n c m content, p ≠ .file n c m content) : t = Mime.json.number := by
  unfold page at h
  split at h
  · simp only [Except.ok.injEq, Prod.mk.injEq] at h; exact h.2.2.symm
  · unfold getFile fileInfo at h
    simp only at h
    split at h
    · simp at h
    · simp only [Except.ok.injEq, Prod.mk.injEq] at h
      exact absurd h.2.1.symm (hp _ _ _ _)
  · simp only [getDir] at h
    split at h
    · simp at h
    · split at h
      · simp at h
      · simp only [Except.ok.injEq, Prod.mk.injEq] at h; exact h.2.2.symm

example : page number (fun _ => none) sampleState (number [100]) none none = .ok (sampleState, .dir [100] [[120], [100]] [number [101]] [number (txt 97)], 2) := by compute

/-- The page of a file is JSON too, and is said to be what the file is. -/
theorem C197_file_refuted (id : Text → Nat) (look : Text → Option Node) (s s' : St) (k : Nat) (args : Option Http.Map) (data : Option Bytes) (n : Text) (c : Dir)
    (m : Nat) (content : Option Bytes) (t : Nat) (h : page id look s k args data = .ok (s', .file n c m content, t)) : t = m := by
  unfold page at h
  split at h
  · simp at h
  · rename_i i _
    unfold getFile fileInfo at h
    simp only at h
    split at h
    · simp at h
    · simp only [Except.ok.injEq, Prod.mk.injEq, Page.file.injEq] at h
      have : ∀ (b : Bool), (if b = true then (s, i) else load s i data).2.mime = i.mime := by
        intro b
        cases b
        · exact (load_frame s i data).2.2.2.2
        · rfl
      rw [← h.2.2, ← h.2.1.2.2.1]
      exact (this _).symm
  · simp only [getDir] at h
    split at h
    · simp at h
    · split at h <;> simp at h

/-- The page of a plain text is not said to be JSON. -/
theorem C197_witness_refuted : ∃ s' content, page number (fun _ => none) sampleState (number (txt 97)) none (some [1]) =
    .ok (s', .file (txt 97) [[120], [100]] Mime.txt.number content, Mime.txt.number) ∧ Mime.txt.number ≠ Mime.json.number := by
  compute
  decide

/-! ## C198: a received file is stored -/

/-- If the message is complete and the disk takes it, the file has the content, and no other file is touched. -/
theorem C198_store_partial (d : Disk) (n : Nat) (p name : Text) (b : Bytes) (hn : b.length ≤ n) :
    ∃ d', store d true n (some p) (some b) (some name) = (d', .ok true) ∧ on d' p = some b ∧ ∀ q, q ≠ p → on d' q = on d q := by
  refine ⟨d.put p (b.take n), rfl, ?_, ?_⟩
  · simp [on, Disk.put, List.take_of_length_le hn]
  · intro q hq
    have hq' : (p == q) = false := by simpa using Ne.symm hq
    simp only [on, Disk.put, List.find?_cons, hq']
    congr 1
    induction d with
    | nil => rfl
    | cons e es ih =>
      by_cases w : e.1 = p
      · rw [List.filter_cons_of_neg (by simpa using w), ih, List.find?_cons]
        rw [w, hq']
      · rw [List.filter_cons_of_pos (by simpa using w), List.find?_cons, List.find?_cons, ih]

example : ([1, 2, 3] : Bytes).length ≤ 3 := by decide

/-- The sender says where: any file can be replaced. -/
theorem C198_path_refuted (d : Disk) (p name : Text) (old b : Bytes) (_h : on d p = some old) :
    ∃ d', store d true b.length (some p) (some b) (some name) = (d', .ok true) ∧ on d' p = some b := by
  obtain ⟨d', h1, h2, _⟩ := C198_store_partial d b.length p name b (Nat.le_refl _)
  exact ⟨d', h1, h2⟩

example : on [([47, 101], [1])] [47, 101] = some [1] := by rfl

/-- A message that lacks the place stops the process; one that lacks the content also empties the file. -/
theorem C198_missing_refuted (d : Disk) (able : Bool) (n : Nat) (p : Text) (content : Option Bytes) (name : Option Text) :
    (store d able n none content name).2 = .error .missing ∧ (store d true n (some p) none name).2 = .error .missing ∧
      on (store d true n (some p) none name).1 p = some [] := by
  refine ⟨rfl, rfl, ?_⟩
  simp [store, on, Disk.put]

/-- A file that was written in part counts as stored. -/
theorem C198_short_refuted (d : Disk) (n : Nat) (p name : Text) (b : Bytes) (hn : n < b.length) :
    ∃ d', store d true n (some p) (some b) (some name) = (d', .ok true) ∧ on d' p ≠ some b := by
  refine ⟨d.put p (b.take n), rfl, ?_⟩
  simp only [on, Disk.put, List.find?_cons, beq_self_eq_true, Option.map_some, ne_eq, Option.some.injEq]
  intro h
  have := congrArg List.length h
  rw [List.length_take] at this
  omega

example : (0 : Nat) < ([1, 2] : Bytes).length := by decide

/-! ## C199: every line of a searchable file is indexed -/

/-- For a file that ends with the end of a line. -/
theorem C199_lines_partial (ls : List Bytes) (h : ∀ x ∈ ls, 10 ∉ x ∧ 0 ∉ x) : index (lines ls) = some ls := by
  have := texts_lines (lines ls).length [] (by simp) (by simp) ls (lines ls).length h (by simp)
  simpa [index] using this

/-- For a file whose last line has no end, unless the file fills its last page. -/
theorem C199_last_partial (ls : List Bytes) (h : ∀ x ∈ ls, 10 ∉ x ∧ 0 ∉ x) (last : Bytes) (hl : 10 ∉ last ∧ 0 ∉ last ∧ last ≠ [])
    (hs : (lines ls ++ last).length % 4096 ≠ 0) : index (lines ls ++ last) = some (ls ++ [last]) := by
  rw [index, texts_lines _ last hl.1 hl.2.1 ls _ h (Nat.le_refl _), if_neg hl.2.2, if_pos hs]

example : ∀ x ∈ ([[97, 98], [], [99]] : List Bytes), 10 ∉ x ∧ 0 ∉ x := by decide
example : (lines [[97, 98], [], [99]] ++ [100]).length % 4096 ≠ 0 := by decide

/-- If it fills the page, the text behind it is read. -/
theorem C199_page_refuted (ls : List Bytes) (h : ∀ x ∈ ls, 10 ∉ x ∧ 0 ∉ x) (last : Bytes) (hl : 10 ∉ last ∧ 0 ∉ last ∧ last ≠ [])
    (hs : (lines ls ++ last).length % 4096 = 0) : index (lines ls ++ last) = none := by
  rw [index, texts_lines _ last hl.1 hl.2.1 ls _ h (Nat.le_refl _), if_neg hl.2.2, if_neg (by omega)]

example (n : Nat) (hn : n = 4096) : (10 ∉ List.replicate n 97 ∧ 0 ∉ List.replicate n 97 ∧ List.replicate n 97 ≠ []) ∧
    (lines [] ++ List.replicate n 97).length % 4096 = 0 := by
  simp [lines]
  omega

/-- A line is indexed up to its first zero. -/
theorem C199_zero_refuted : index (lines [[97, 0, 98], [99]]) = some [[97], [99]] := by rfl

end Np.Files

import Verif.Files.Spec
/-! # Lemmas on the sharing of files -/
namespace Np.Files
open _root_.Np.Files.Spec
open Np.Http (Text)

theorem find_insert (s : St) (k k' : Nat) (r : Ref) : find (insert s k r) k' = if k' = k then some ((find s k).getD r) else find s k' := by
  unfold insert
  split
  · rename_i h
    by_cases q : k' = k
    · subst q
      rw [if_pos rfl]
      unfold find
      cases w : s.tree.find? (fun e => e.1 == k') with
      | none =>
        obtain ⟨e, he, z⟩ := List.any_eq_true.1 h
        exact absurd z (by simpa using List.find?_eq_none.1 w e he)
      | some e => rfl
    · rw [if_neg q]
  · rename_i h
    have hn : s.tree.find? (fun e => e.1 == k) = none := by
      rw [List.find?_eq_none]
      intro e he z
      exact h (List.any_eq_true.2 ⟨e, he, z⟩)
    unfold find
    simp only [List.find?_append]
    by_cases q : k' = k
    · subst q
      simp [hn]
    · have q' : (k == k') = false := by simpa using fun h => q h.symm
      simp [q, q']

theorem find_setFile (s : St) (k k' : Nat) (i : FileInfo) : find (setFile s k i) k' = if k' = k then (find s k).map (fun _ => .file i) else find s k' := by
  unfold find setFile
  simp only []
  induction s.tree with
  | nil => simp
  | cons e es ih =>
    simp only [List.map_cons, List.find?_cons]
    by_cases q : e.1 = k
    · subst q
      by_cases w : k' = e.1
      · subst w; simp
      · have w' : (e.1 == k') = false := by simpa using fun h => w h.symm
        simp only [beq_self_eq_true, if_true, w, if_false, w'] at ih ⊢
        exact ih
    · have q' : (e.1 == k) = false := by simpa using q
      simp only [q', Bool.false_eq_true, if_false]
      by_cases w : e.1 = k'
      · subst w
        simp [q]
      · rw [show (e.1 == k') = false from by simpa using w]
        exact ih

/-! ## Files are closed -/

/-- What is kept of a file. -/
def Closed (i : FileInfo) : Prop := i.loaded = false ∧ i.region = .null ∧ i.size = 0 ∧ i.fd = .none

def AllClosed (s : St) : Prop := ∀ e ∈ s.tree, ∀ i, e.2 = .file i → Closed i

theorem closed_find {s : St} (h : AllClosed s) {k : Nat} {i : FileInfo} (hf : find s k = some (.file i)) : Closed i := by
  unfold find at hf
  cases w : s.tree.find? (fun e => e.1 == k) with
  | none => rw [w] at hf; simp at hf
  | some e =>
    rw [w] at hf
    simp at hf
    exact h e (List.mem_of_find?_eq_some w) i hf

theorem close_ok {s s' : St} {i i' : FileInfo} (h : close s i = .ok (s', i')) :
    Closed i' ∧ i'.name = i.name ∧ i'.cwd = i.cwd ∧ i'.mime = i.mime ∧ s'.tree = s.tree ∧ s'.dirs = s.dirs ∧ s'.cwd = s.cwd ∧ s'.mapped = s.mapped ∧
      s'.stray = (s.stray || i.fd == .stale) := by
  unfold close at h
  split at h
  · simp at h
  · simp at h
  · simp only [Except.ok.injEq, Prod.mk.injEq] at h
    obtain ⟨rfl, rfl⟩ := h
    exact ⟨⟨rfl, rfl, rfl, rfl⟩, rfl, rfl, rfl, rfl, rfl, rfl, rfl, rfl⟩

theorem load_frame (s : St) (i : FileInfo) (data : Option Bytes) : (load s i data).1.tree = s.tree ∧ (load s i data).1.dirs = s.dirs ∧
    (load s i data).2.name = i.name ∧ (load s i data).2.cwd = i.cwd ∧ (load s i data).2.mime = i.mime := by
  unfold load
  split
  · exact ⟨rfl, rfl, rfl, rfl, rfl⟩
  · split <;> exact ⟨rfl, rfl, rfl, rfl, rfl⟩

theorem load_closed (s : St) (i : FileInfo) (hc : Closed i) (data : Option Bytes) :
    (load s i data).1 = { s with cwd := i.cwd } ∧ (load s i data).2 = { i with fd := if data.isSome then .stale else .none } := by
  obtain ⟨h1, h2, h3, h4⟩ := hc
  cases i
  simp only at h1 h2 h3 h4
  subst h1 h2 h3 h4
  unfold load
  cases data <;> simp

theorem allClosed_setFile {s : St} (k : Nat) {i : FileInfo} (hi : Closed i) (h : ∀ e ∈ s.tree, e.1 ≠ k → ∀ i, e.2 = .file i → Closed i) : AllClosed (setFile s k i) := by
  intro e he j hj
  obtain ⟨x, hx, rfl⟩ := List.mem_map.1 he
  by_cases q : x.1 = k
  · simp [q] at hj
    subst hj; exact hi
  · simp [q] at hj
    exact h x hx q j hj

theorem addTo_tree (s : St) (n : Nat) (k : Node) (e : Option Nat) : (addTo s n k e).tree = s.tree := by
  unfold addTo; split <;> rfl

theorem addTo_cwd (s : St) (n : Nat) (k : Node) (e : Option Nat) : (addTo s n k e).cwd = s.cwd := by
  unfold addTo; split <;> rfl

theorem fileOpen_closed {id : Text → Nat} {s s' : St} {name : Text} {data : Option Bytes} {r : Option Nat} (hs : AllClosed s)
    (h : fileOpen id s name data = .ok (s', r)) : AllClosed s' := by
  unfold fileOpen at h
  simp only at h
  split at h
  · simp only [Except.ok.injEq, Prod.mk.injEq] at h
    rw [← h.1]; exact hs
  · split at h
    · simp at h
    · rename_i s2 i2 hc
      simp only [Except.ok.injEq, Prod.mk.injEq] at h
      rw [← h.1]
      obtain ⟨hcl, _, _, _, ht, _⟩ := close_ok hc
      refine allClosed_setFile _ hcl ?_
      rw [ht]
      intro e he hk i hi
      unfold insert at he
      have ltree := (load_frame s (fresh s name data) data).1
      split at he
      · rw [ltree] at he; exact hs e he i hi
      · rcases List.mem_append.1 he with he | he
        · rw [ltree] at he; exact hs e he i hi
        · simp at he; subst he; exact absurd rfl hk

theorem allClosed_insertDir {s : St} (hs : AllClosed s) (k n : Nat) : AllClosed (insert s k (.dir n)) := by
  unfold insert
  split
  · exact hs
  · intro e he i hi
    rcases List.mem_append.1 he with he | he
    · exact hs e he i hi
    · simp at he; subst he; simp at hi

theorem dirInfo_tree {s s1 : St} {k : Nat} {name : Text} {n : Nat} {new : Bool} (h : dirInfo s k name = .ok (s1, n, new)) : s1.tree = s.tree := by
  unfold dirInfo at h
  split at h
  · simp only [Except.ok.injEq, Prod.mk.injEq] at h; rw [← h.1]
  · simp only [Except.ok.injEq, Prod.mk.injEq] at h; rw [← h.1]
  · simp at h

mutual

theorem walk_closed (id : Text → Nat) : ∀ (k : Node) (s s' : St) (r : Option Nat), AllClosed s → walk id s k = .ok (s', r) → AllClosed s'
  | .file name data, s, s', r, hs, h => by
    rw [walk] at h
    exact fileOpen_closed hs h
  | .dir name kids, s, s', r, hs, h => by
    rw [walk] at h
    cases hd : dirInfo s (subject id name) name with
    | error f => rw [hd] at h; simp at h
    | ok x =>
      obtain ⟨s1, n, new⟩ := x
      rw [hd] at h
      simp only at h
      have h1 : AllClosed (setCwd { s1 with cwd := s.cwd ++ [name] } n (s.cwd ++ [name])) := by
        intro e he
        exact hs e (by rw [← dirInfo_tree hd]; exact he)
      cases hk : walkKids id (setCwd { s1 with cwd := s.cwd ++ [name] } n (s.cwd ++ [name])) n kids with
      | error f => rw [hk] at h; simp at h
      | ok s2 =>
        rw [hk] at h
        simp only at h
        have h2 : AllClosed s2 := walkKids_closed id kids n _ s2 h1 hk
        split at h
        · simp only [Except.ok.injEq, Prod.mk.injEq] at h
          rw [← h.1]
          exact allClosed_insertDir (s := { s2 with cwd := s.cwd }) h2 _ _
        · simp only [Except.ok.injEq, Prod.mk.injEq] at h
          rw [← h.1]; exact h2

theorem walkKids_closed (id : Text → Nat) : ∀ (ks : List Node) (n : Nat) (s s' : St), AllClosed s → walkKids id s n ks = .ok s' → AllClosed s'
  | [], n, s, s', hs, h => by
    rw [walkKids] at h
    simp only [Except.ok.injEq] at h
    rw [← h]; exact hs
  | k :: ks, n, s, s', hs, h => by
    rw [walkKids] at h
    split at h
    · exact walkKids_closed id ks n s s' hs h
    · split at h
      · simp at h
      · rename_i s1 e hw
        refine walkKids_closed id ks n _ s' ?_ h
        unfold AllClosed
        rw [addTo_tree]
        exact walk_closed id k s s1 _ hs hw

end

theorem open_closed (id : Text → Nat) {s s' : St} (k : Option Node) (hs : AllClosed s) (h : openPath id s k = .ok s') : AllClosed s' := by
  cases k with
  | none => simp only [openPath, Except.ok.injEq] at h; rw [← h]; exact hs
  | some k =>
    simp only [openPath] at h
    split at h
    · simp at h
    · rename_i s1 e hw
      simp only [Except.ok.injEq] at h
      rw [← h]
      unfold AllClosed
      simp only [addTo_tree]
      exact walk_closed id _ s s1 _ hs hw

/-- The page of a file that is closed. -/
theorem getFile_closed (s : St) (k : Nat) (i : FileInfo) (hc : Closed i) (data : Option Bytes) :
    getFile s k i data = .ok (setFile { s with cwd := i.cwd, stray := s.stray || data.isSome } k i, .file i.name i.cwd i.mime none, i.mime) := by
  obtain ⟨l1, l2⟩ := load_closed s i hc data
  obtain ⟨h1, h2, h3, h4⟩ := hc
  unfold getFile
  have hbig : ¬ i.size ≥ 65535 := by omega
  simp only [hbig, decide_false, h1, Bool.or_self, Bool.false_eq_true, if_false]
  have : load s i data = ({ s with cwd := i.cwd }, { i with fd := if data.isSome then .stale else .none }) := Prod.ext l1 l2
  rw [this]
  unfold close fileInfo
  cases i
  simp only at h1 h2 h3 h4
  subst h1 h2 h3 h4
  cases data <;> simp [show (Fd.none == Fd.stale) = false from rfl]

theorem send_closed (s : St) (k : Nat) (i : FileInfo) (hf : find s k = some (.file i)) (hc : Closed i) (data : Option Bytes) :
    send s k data = .ok (setFile { s with cwd := i.cwd, stray := s.stray || data.isSome } k i, none) := by
  obtain ⟨l1, l2⟩ := load_closed s i hc data
  obtain ⟨h1, h2, h3, h4⟩ := hc
  unfold send
  rw [hf]
  simp only [h1, Bool.false_eq_true, if_false]
  have : load s i data = ({ s with cwd := i.cwd }, { i with fd := if data.isSome then .stale else .none }) := Prod.ext l1 l2
  rw [this]
  unfold close
  cases i
  simp only at h1 h2 h3 h4
  subst h1 h2 h3 h4
  cases data <;> simp [show (Fd.none == Fd.stale) = false from rfl]

theorem step_closed (id : Text → Nat) {s s' : St} (o : Op) (hs : AllClosed s) (h : step id s o = .ok s') : AllClosed s' := by
  cases o with
  | share k => exact open_closed id k hs h
  | unshare n => simp only [step, closePath, Except.ok.injEq] at h; rw [← h]; exact hs
  | send k data =>
    simp only [step] at h
    cases w : find s k with
    | none => simp only [send, w, Except.map, Except.ok.injEq] at h; rw [← h]; exact hs
    | some r =>
      cases r with
      | file i =>
        rw [send_closed s k i w (closed_find hs w) data] at h
        simp only [Except.map, Except.ok.injEq] at h
        rw [← h]
        exact allClosed_setFile _ (closed_find hs w) fun e he _ => hs e he
      | dir n =>
        simp only [send, w] at h
        split at h
        · simp [Except.map] at h
        · simp only [Except.map, Except.ok.injEq] at h
          rw [← h]; exact hs
  | get k args look data =>
    simp only [step] at h
    cases w : find s k with
    | none => simp only [page, w, Except.map, Except.ok.injEq] at h; rw [← h]; exact hs
    | some r =>
      cases r with
      | file i =>
        simp only [page, w, getFile_closed s k i (closed_find hs w) data, Except.map, Except.ok.injEq] at h
        rw [← h]
        exact allClosed_setFile _ (closed_find hs w) fun e he _ => hs e he
      | dir n =>
        simp only [page, w, getDir] at h
        split at h
        · simp [Except.map] at h
        · rename_i s1 hq
          split at h
          · simp [Except.map] at h
          · simp only [Except.map, Except.ok.injEq] at h
            rw [← h]
            split at hq
            · simp only [Except.ok.injEq] at hq; rw [← hq]; exact hs
            · exact open_closed id _ hs hq

theorem run_closed (id : Text → Nat) : ∀ (ops : List Op) (s s' : St), AllClosed s → run id s ops = .ok s' → AllClosed s'
  | [], s, s', hs, h => by simp only [run, Except.ok.injEq] at h; rw [← h]; exact hs
  | o :: os, s, s', hs, h => by
    simp only [run] at h
    cases k : step id s o with
    | error f => rw [k] at h; simp at h
    | ok s1 => rw [k] at h; exact run_closed id os s1 s' (step_closed id o hs k) h

theorem start_closed (d : Dir) : AllClosed (start d) := by
  intro e he i hi
  simp [start] at he
  subst he
  simp at hi

/-! ## What is registered -/

mutual

theorem walk_tree (id : Text → Nat) : ∀ (k : Node) (s s' : St) (r : Option Nat), walk id s k = .ok (s', r) →
    ∀ x, (find s' x).isSome → (find s x).isSome ∨ x ∈ ids id k
  | .file name data, s, s', r, h => by
    rw [walk] at h
    intro x hx
    unfold fileOpen at h
    simp only at h
    split at h
    · simp only [Except.ok.injEq, Prod.mk.injEq] at h
      rw [← h.1] at hx; exact .inl hx
    · split at h
      · simp at h
      · rename_i s2 i2 hc
        simp only [Except.ok.injEq, Prod.mk.injEq] at h
        obtain ⟨_, _, _, _, ht, _⟩ := close_ok hc
        by_cases q : x = subject id name
        · exact .inr (by simp [ids, q])
        · rw [← h.1, find_setFile, if_neg q] at hx
          unfold find at hx
          rw [ht] at hx
          have hx : (find (insert (load s (fresh s name data) data).1 (subject id name) (.file (load s (fresh s name data) data).2)) x).isSome := hx
          rw [find_insert, if_neg q] at hx
          unfold find at hx
          rw [(load_frame s _ data).1] at hx
          exact .inl hx
  | .dir name kids, s, s', r, h => by
    rw [walk] at h
    intro x hx
    cases hd : dirInfo s (subject id name) name with
    | error f => rw [hd] at h; simp at h
    | ok z =>
      obtain ⟨s1, n, new⟩ := z
      rw [hd] at h
      simp only at h
      cases hk : walkKids id (setCwd { s1 with cwd := s.cwd ++ [name] } n (s.cwd ++ [name])) n kids with
      | error f => rw [hk] at h; simp at h
      | ok s2 =>
        rw [hk] at h
        simp only at h
        have h2 := walkKids_tree id kids n _ s2 hk x
        have h3 : (find s2 x).isSome → (find s x).isSome ∨ x ∈ ids id (.dir name kids) := by
          intro w
          rcases h2 w with q | q
          · refine .inl ?_
            unfold find at q ⊢
            rw [show (setCwd { s1 with cwd := s.cwd ++ [name] } n (s.cwd ++ [name])).tree = s1.tree from rfl, dirInfo_tree hd] at q
            exact q
          · exact .inr (by rw [ids]; exact List.mem_cons_of_mem _ q)
        split at h
        · simp only [Except.ok.injEq, Prod.mk.injEq] at h
          rw [← h.1, find_insert] at hx
          split at hx
          · rename_i q; exact .inr (by rw [ids, q]; exact List.mem_cons_self ..)
          · exact h3 hx
        · simp only [Except.ok.injEq, Prod.mk.injEq] at h
          rw [← h.1] at hx; exact h3 hx

theorem walkKids_tree (id : Text → Nat) : ∀ (ks : List Node) (n : Nat) (s s' : St), walkKids id s n ks = .ok s' →
    ∀ x, (find s' x).isSome → (find s x).isSome ∨ x ∈ idsKids id ks
  | [], n, s, s', h => by
    rw [walkKids] at h
    simp only [Except.ok.injEq] at h
    intro x hx
    rw [← h] at hx; exact .inl hx
  | k :: ks, n, s, s', h => by
    rw [walkKids] at h
    intro x hx
    rw [idsKids]
    have hh : (hidden k.name = true) ↔ k.name.head? = some 46 := by unfold hidden; simp
    split at h
    · rename_i q
      rw [if_pos (hh.1 q)]
      exact walkKids_tree id ks n s s' h x hx
    · rename_i q
      rw [if_neg (fun w => q (hh.2 w))]
      split at h
      · simp at h
      · rename_i s1 e hw
        rcases walkKids_tree id ks n _ s' h x hx with w | w
        · unfold find at w
          rw [addTo_tree] at w
          rcases walk_tree id k s s1 _ hw x w with w | w
          · exact .inl w
          · exact .inr (List.mem_append_left _ w)
        · exact .inr (List.mem_append_right _ w)

end

/-! ## A directory is shared with all that is visible in it -/

/-- What is kept of a file that was shared. -/
def kept (d : Dir) (name : Text) : FileInfo :=
  { name := name.take 256, cwd := d, loaded := false, region := .null, size := 0, mime := mimeOf name, fd := .none }

theorem kept_closed (d : Dir) (name : Text) : Closed (kept d name) := ⟨rfl, rfl, rfl, rfl⟩

mutual

/-- `Shared` in terms of the state; the directories are not below `lo`. -/
def Held (id : Text → Nat) (s : St) (lo : Nat) (d : Dir) : Node → Prop
  | .file name _ => find s (subject id name) = some (.file (kept d name))
  | .dir name kids => (∃ n, lo ≤ n ∧ find s (subject id name) = some (.dir n) ∧
      s.dirs[n]? = some { name := name.take 256, cwd := d ++ [name], dirs := dirsIn id kids, files := filesIn id kids }) ∧ HeldKids id s lo (d ++ [name]) kids

def HeldKids (id : Text → Nat) (s : St) (lo : Nat) (d : Dir) : List Node → Prop
  | [] => True
  | k :: ks => (k.name.head? ≠ some 46 → Held id s lo d k) ∧ HeldKids id s lo d ks

end

mutual

theorem held_shared (id : Text → Nat) (s : St) (lo : Nat) : ∀ (k : Node) (d : Dir), Held id s lo d k → Shared id s d k
  | .file name data, d, h => by
    rw [Held] at h
    rw [Shared]
    intro look dat
    exact ⟨_, none, by rw [page, h]; exact getFile_closed s _ _ (kept_closed d name) dat⟩
  | .dir name kids, d, h => by
    rw [Held] at h
    rw [Shared]
    obtain ⟨⟨n, _, h1, h2⟩, h3⟩ := h
    refine ⟨?_, heldKids_shared id s lo kids _ h3⟩
    intro look dat
    rw [page, h1]
    simp [getDir, h2]

theorem heldKids_shared (id : Text → Nat) (s : St) (lo : Nat) : ∀ (ks : List Node) (d : Dir), HeldKids id s lo d ks → SharedKids id s d ks
  | [], d, h => by rw [SharedKids]; trivial
  | k :: ks, d, h => by
    rw [HeldKids] at h
    rw [SharedKids]
    exact ⟨fun q => held_shared id s lo k d (h.1 q), heldKids_shared id s lo ks d h.2⟩

end

mutual

theorem held_mono (id : Text → Nat) {s s' : St} {lo lo' : Nat} (hlo : lo' ≤ lo) (hd : ∀ m, lo ≤ m → ∀ x, s.dirs[m]? = some x → s'.dirs[m]? = some x) :
    ∀ (k : Node) (d : Dir), (∀ x ∈ ids id k, find s' x = find s x) → Held id s lo d k → Held id s' lo' d k
  | .file name data, d, hf, h => by
    rw [Held] at h ⊢
    rw [hf _ (by rw [ids]; exact List.mem_cons_self ..)]; exact h
  | .dir name kids, d, hf, h => by
    rw [Held] at h ⊢
    rw [ids] at hf
    obtain ⟨⟨n, h0, h1, h2⟩, h3⟩ := h
    exact ⟨⟨n, Nat.le_trans hlo h0, by rw [hf _ (List.mem_cons_self ..)]; exact h1, hd n h0 _ h2⟩,
      heldKids_mono id hlo hd kids _ (fun x hx => hf x (List.mem_cons_of_mem _ hx)) h3⟩

theorem heldKids_mono (id : Text → Nat) {s s' : St} {lo lo' : Nat} (hlo : lo' ≤ lo) (hd : ∀ m, lo ≤ m → ∀ x, s.dirs[m]? = some x → s'.dirs[m]? = some x) :
    ∀ (ks : List Node) (d : Dir), (∀ x ∈ idsKids id ks, find s' x = find s x) → HeldKids id s lo d ks → HeldKids id s' lo' d ks
  | [], d, hf, h => by rw [HeldKids]; trivial
  | k :: ks, d, hf, h => by
    rw [HeldKids] at h ⊢
    rw [idsKids] at hf
    by_cases q : k.name.head? = some 46
    · rw [if_pos q] at hf
      exact ⟨fun w => absurd q w, heldKids_mono id hlo hd ks d hf h.2⟩
    · rw [if_neg q] at hf
      exact ⟨fun w => held_mono id hlo hd k d (fun x hx => hf x (List.mem_append_left _ hx)) (h.1 w),
        heldKids_mono id hlo hd ks d (fun x hx => hf x (List.mem_append_right _ hx)) h.2⟩

end

theorem fileOpen_good (id : Text → Nat) (s : St) (name : Text) (b : Bytes) (hb : b ≠ []) (hf : find s (subject id name) = none) :
    fileOpen id s name (some b) = .ok (setFile (insert { s with mapped := s.mapped + b.length } (subject id name)
      (.file { fresh s name (some b) with fd := .live, loaded := true, region := .at b })) (subject id name) (kept s.cwd name), some (subject id name)) := by
  have hl : b.length ≠ 0 := fun h => hb (List.length_eq_zero_iff.1 h)
  have hload : load s (fresh s name (some b)) (some b) =
      ({ s with mapped := s.mapped + b.length }, { fresh s name (some b) with fd := .live, loaded := true, region := .at b }) := by
    unfold load
    simp [fresh, hl]
  unfold fileOpen
  simp only [hf, Option.isSome_none, Bool.false_eq_true, if_false, hload]
  unfold close
  simp [fresh, kept, show (Fd.live == Fd.stale) = false from rfl]

theorem insert_dirs (s : St) (k : Nat) (r : Ref) : (insert s k r).dirs = s.dirs ∧ (insert s k r).cwd = s.cwd := by
  unfold insert; split <;> exact ⟨rfl, rfl⟩

theorem addTo_dirs (s : St) (n m : Nat) (k : Node) (e : Option Nat) (h : m ≠ n) : (addTo s n k e).dirs[m]? = s.dirs[m]? := by
  unfold addTo addFile addDir
  split
  · rfl
  · simp [Ne.symm h]
  · simp [Ne.symm h]

theorem addTo_length (s : St) (n : Nat) (k : Node) (e : Option Nat) : (addTo s n k e).dirs.length = s.dirs.length := by
  unfold addTo addFile addDir
  split <;> simp

/-- The entries that something adds to its directory. -/
theorem addTo_here (id : Text → Nat) (s : St) (n : Nat) (k : Node) (ks : List Node) (di : DirInfo) (hv : k.name.head? ≠ some 46) (h : s.dirs[n]? = some di) :
    ∃ di', (addTo s n k (some (subject id k.name))).dirs[n]? = some di' ∧ di'.name = di.name ∧ di'.cwd = di.cwd ∧
      di'.dirs ++ dirsIn id ks = di.dirs ++ dirsIn id (k :: ks) ∧ di'.files ++ filesIn id ks = di.files ++ filesIn id (k :: ks) := by
  cases k with
  | file name data =>
    simp only [Node.name] at hv
    exact ⟨{ di with files := di.files ++ [subject id name] }, by simp [addTo, addFile, h, Node.name], rfl, rfl, by simp [dirsIn], by simp [filesIn, hv]⟩
  | dir name kids =>
    simp only [Node.name] at hv
    exact ⟨{ di with dirs := di.dirs ++ [subject id name] }, by simp [addTo, addDir, h, Node.name], rfl, rfl, by simp [dirsIn, hv], by simp [filesIn]⟩

mutual

theorem walk_good (id : Text → Nat) : ∀ (k : Node) (s : St), Good k → (ids id k).Nodup → (∀ x ∈ ids id k, find s x = none) →
    ∃ s', walk id s k = .ok (s', some (subject id k.name)) ∧ s'.cwd = s.cwd ∧ s.dirs.length ≤ s'.dirs.length ∧
      (∀ m, m < s.dirs.length → s'.dirs[m]? = s.dirs[m]?) ∧ (∀ x, x ∉ ids id k → find s' x = find s x) ∧ Held id s' s.dirs.length s.cwd k
  | .file name data, s, hg, hn, hx => by
    rw [Good] at hg
    obtain ⟨b, rfl, hb⟩ := hg
    have hf := hx (subject id name) (by rw [ids]; exact List.mem_cons_self ..)
    refine ⟨_, by rw [walk]; exact fileOpen_good id s name b hb hf, ?_, ?_, ?_, ?_, ?_⟩
    · exact (insert_dirs ..).2
    · show s.dirs.length ≤ (insert _ _ _).dirs.length
      rw [(insert_dirs ..).1]; exact Nat.le_refl _
    · intro m _
      show (insert _ _ _).dirs[m]? = _
      rw [(insert_dirs ..).1]
    · intro x hx
      rw [ids] at hx
      have q : x ≠ subject id name := fun h => hx (by rw [h]; exact List.mem_cons_self ..)
      rw [find_setFile, if_neg q, find_insert, if_neg q]
      rfl
    · rw [Held, find_setFile, if_pos rfl, find_insert, if_pos rfl]
      rfl
  | .dir name kids, s, hg, hn, hx => by
    rw [Good] at hg
    rw [ids, List.nodup_cons] at hn
    have hf := hx (subject id name) (by rw [ids]; exact List.mem_cons_self ..)
    have hfk : ∀ x ∈ idsKids id kids, find s x = none := fun x w => hx x (by rw [ids]; exact List.mem_cons_of_mem _ w)
    let d0 : DirInfo := { name := name.take 256, cwd := s.cwd ++ [name], dirs := [], files := [] }
    let s1 : St := setCwd { s with dirs := s.dirs ++ [{ name := name.take 256, cwd := [], dirs := [], files := [] }], cwd := s.cwd ++ [name] } s.dirs.length (s.cwd ++ [name])
    have hl1 : s1.dirs.length = s.dirs.length + 1 := by simp [s1, setCwd]
    have h1 : s1.dirs[s.dirs.length]? = some d0 := by simp [s1, setCwd, d0]
    have h1' : ∀ m, m < s.dirs.length → s1.dirs[m]? = s.dirs[m]? := by
      intro m hm
      have q : ¬ s.dirs.length = m := by omega
      simp only [s1, setCwd, List.getElem?_modify, q, if_false]
      rw [List.getElem?_append_left hm]
      cases s.dirs[m]? <;> rfl
    obtain ⟨s2, hw, hc, hlen, hfr, hhere, hfind, hheld⟩ := walkKids_good id kids s1 s.dirs.length d0 h1 hg hn.2 hfk
    refine ⟨insert { s2 with cwd := s.cwd } (subject id name) (.dir s.dirs.length), ?_, (insert_dirs ..).2, ?_, ?_, ?_, ?_⟩
    · rw [walk, dirInfo, hf]
      simp only [Node.name]
      have hw' : walkKids id (setCwd { s with dirs := s.dirs ++ [{ name := name.take 256, cwd := [], dirs := [], files := [] }], cwd := s.cwd ++ [name] }
        s.dirs.length (s.cwd ++ [name])) s.dirs.length kids = .ok s2 := hw
      rw [hw']
      rfl
    · rw [(insert_dirs ..).1]
      show s.dirs.length ≤ s2.dirs.length
      omega
    · intro m hm
      rw [(insert_dirs ..).1]
      show s2.dirs[m]? = _
      rw [hfr m (by omega) (by omega), h1' m hm]
    · intro x hx
      rw [ids, List.mem_cons, not_or] at hx
      rw [find_insert, if_neg hx.1]
      exact hfind x hx.2
    · have hs2 : find { s2 with cwd := s.cwd } (subject id name) = none := (hfind _ hn.1).trans hf
      rw [Held]
      refine ⟨⟨s.dirs.length, Nat.le_refl _, ?_, ?_⟩, ?_⟩
      · rw [find_insert, if_pos rfl, hs2]; rfl
      · rw [(insert_dirs ..).1]
        simpa [d0] using hhere
      · refine heldKids_mono id (lo := s1.dirs.length) (by omega) ?_ kids _ ?_ hheld
        · intro m _ x w
          rw [(insert_dirs ..).1]; exact w
        · intro x w
          have q : x ≠ subject id name := fun h => hn.1 (by rw [← h]; exact w)
          rw [find_insert, if_neg q]
          rfl

theorem walkKids_good (id : Text → Nat) : ∀ (ks : List Node) (s : St) (n : Nat) (di : DirInfo), s.dirs[n]? = some di → GoodKids ks → (idsKids id ks).Nodup →
    (∀ x ∈ idsKids id ks, find s x = none) →
    ∃ s', walkKids id s n ks = .ok s' ∧ s'.cwd = s.cwd ∧ s.dirs.length ≤ s'.dirs.length ∧
      (∀ m, m < s.dirs.length → m ≠ n → s'.dirs[m]? = s.dirs[m]?) ∧
      s'.dirs[n]? = some { di with dirs := di.dirs ++ dirsIn id ks, files := di.files ++ filesIn id ks } ∧
      (∀ x, x ∉ idsKids id ks → find s' x = find s x) ∧ HeldKids id s' s.dirs.length s.cwd ks
  | [], s, n, di, hd, _, _, _ => by
    exact ⟨s, by rw [walkKids], rfl, Nat.le_refl _, fun _ _ _ => rfl, by simpa [dirsIn, filesIn] using hd, fun _ _ => rfl, by rw [HeldKids]; trivial⟩
  | k :: ks, s, n, di, hd, hg, hn, hx => by
    rw [GoodKids] at hg
    rw [idsKids] at hn hx
    have hh : (hidden k.name = true) ↔ k.name.head? = some 46 := by unfold hidden; simp
    have hnl : n < s.dirs.length := by
      rw [List.getElem?_eq_some_iff] at hd
      exact hd.1
    by_cases q : k.name.head? = some 46
    · rw [if_pos q] at hn hx
      obtain ⟨s', hw, hc, hlen, hfr, hhere, hfind, hheld⟩ := walkKids_good id ks s n di hd hg.2 hn hx
      refine ⟨s', by rw [walkKids, if_pos (hh.2 q)]; exact hw, hc, hlen, hfr, ?_, ?_, ?_⟩
      · rw [hhere]
        cases k <;> simp only [Node.name] at q <;> simp [dirsIn, filesIn, q]
      · rw [idsKids, if_pos q]; exact hfind
      · rw [HeldKids]; exact ⟨fun w => absurd q w, hheld⟩
    · rw [if_neg q] at hn hx
      rw [List.nodup_append] at hn
      obtain ⟨s1, w1, c1, l1, f1, g1, e1⟩ := walk_good id k s (hg.1 q) hn.1 (fun x w => hx x (List.mem_append_left _ w))
      have hd1 : s1.dirs[n]? = some di := by rw [f1 n hnl]; exact hd
      obtain ⟨di', a0, a1, a2, a3, a4⟩ := addTo_here id s1 n k ks di q hd1
      have find2 : ∀ x, find (addTo s1 n k (some (subject id k.name))) x = find s1 x := by
        intro x; unfold find; rw [addTo_tree]
      obtain ⟨s', hw, hc, hlen, hfr, hhere, hfind, hheld⟩ := walkKids_good id ks (addTo s1 n k (some (subject id k.name))) n di' a0 hg.2 hn.2.1 (by
        intro x w
        rw [find2, g1 x (fun z => hn.2.2 x z x w rfl)]
        exact hx x (List.mem_append_right _ w))
      rw [addTo_length] at hlen hfr hheld
      rw [addTo_cwd] at hc hheld
      refine ⟨s', by rw [walkKids, if_neg (fun w => q (hh.1 w)), w1]; exact hw, hc.trans c1, Nat.le_trans l1 hlen, ?_, ?_, ?_, ?_⟩
      · intro m hm hne
        rw [hfr m (by omega) hne, addTo_dirs _ _ _ _ _ hne, f1 m hm]
      · rw [hhere, a3, a4]
        cases di; cases di'; simp_all
      · intro x w
        rw [idsKids, if_neg q, List.mem_append, not_or] at w
        rw [hfind x w.2, find2, g1 x w.1]
      · rw [HeldKids]
        refine ⟨fun _ => ?_, ?_⟩
        · refine held_mono id (Nat.le_refl _) ?_ k _ ?_ e1
          · intro m hm x w
            have hm1 : m < s1.dirs.length := by
              rw [List.getElem?_eq_some_iff] at w
              exact w.1
            rw [hfr m hm1 (by omega), addTo_dirs _ _ _ _ _ (by omega)]
            exact w
          · intro x w
            rw [hfind x (fun z => hn.2.2 x w x z rfl), find2]
        · rw [c1] at hheld
          exact heldKids_mono id l1 (fun _ _ _ w => w) ks _ (fun _ _ => rfl) hheld

end

/-! ## Types and texts -/

theorem lastDot_some_append (a : Text) {t u : Text} (h : lastDot t = some u) : lastDot (a ++ t) = some u := by
  induction a with
  | nil => exact h
  | cons c cs ih => rw [List.cons_append, lastDot, ih]

theorem lastDot_none {t : Text} (h : 46 ∉ t) : lastDot t = none := by
  induction t with
  | nil => rfl
  | cons c cs ih =>
    rw [List.mem_cons, not_or] at h
    rw [lastDot, ih h.2]
    simp [Ne.symm h.1]

theorem takeWhile_line (x y : Bytes) (c : Nat) (h : c ∉ x) : (x ++ c :: y).takeWhile (· != c) = x ∧ (x ++ c :: y).dropWhile (· != c) = c :: y := by
  induction x with
  | nil => simp
  | cons a as ih =>
    rw [List.mem_cons, not_or] at h
    have q : (a != c) = true := by simpa using Ne.symm h.1
    simp [q, ih h.2]

theorem takeWhile_all (x : Bytes) (c : Nat) (h : c ∉ x) : x.takeWhile (· != c) = x := by
  induction x with
  | nil => rfl
  | cons a as ih =>
    rw [List.mem_cons, not_or] at h
    have q : (a != c) = true := by simpa using Ne.symm h.1
    simp [q, ih h.2]

theorem texts_line (size fuel : Nat) (x y : Bytes) (h : 10 ∉ x) (h0 : 0 ∉ x) :
    texts size (fuel + 1) (x ++ 10 :: y) = (texts size fuel y).map fun l => x :: l := by
  have hm : 10 ∈ x ++ 10 :: y := by simp
  obtain ⟨t, d⟩ := takeWhile_line x y 10 h
  have : texts size (fuel + 1) (x ++ 10 :: y) = (texts size fuel (((x ++ 10 :: y).dropWhile (· != 10)).drop 1)).map fun l =>
      ((x ++ 10 :: y).takeWhile (· != 10)).takeWhile (· != 0) :: l := by
    cases e : x ++ 10 :: y with
    | nil => simp at e
    | cons a as =>
      rw [e] at hm
      rw [texts, if_pos hm]
      simp
  rw [this, t, d, takeWhile_all x 0 h0]
  rfl

theorem texts_last (size fuel : Nat) (x : Bytes) (h : 10 ∉ x) (h0 : 0 ∉ x) (hx : x ≠ []) :
    texts size (fuel + 1) x = if size % 4096 ≠ 0 then some [x] else none := by
  cases x with
  | nil => exact absurd rfl hx
  | cons a as =>
    rw [texts, if_neg h, takeWhile_all _ 0 h0]
    · simp only [h0, false_or]
    · simp

theorem texts_lines (size : Nat) (last : Bytes) (h : 10 ∉ last) (h0 : 0 ∉ last) : ∀ (ls : List Bytes) (fuel : Nat), (∀ x ∈ ls, 10 ∉ x ∧ 0 ∉ x) →
    (lines ls ++ last).length ≤ fuel →
    texts size fuel (lines ls ++ last) = if last = [] then some ls else if size % 4096 ≠ 0 then some (ls ++ [last]) else none
  | [], fuel, _, hf => by
    simp only [lines, List.flatMap_nil, List.nil_append] at hf ⊢
    by_cases q : last = []
    · subst q
      cases fuel <;> simp [texts]
    · cases fuel with
      | zero => exact absurd (List.length_eq_zero_iff.1 (Nat.le_zero.1 hf)) q
      | succ n => rw [texts_last size n last h h0 q, if_neg q]
  | x :: ls, fuel, hl, hf => by
    have e : lines (x :: ls) ++ last = x ++ 10 :: (lines ls ++ last) := by simp [lines]
    rw [e] at hf ⊢
    obtain ⟨h1, h2⟩ := hl x (List.mem_cons_self ..)
    cases fuel with
    | zero => simp at hf
    | succ n =>
      rw [texts_line size n x _ h1 h2, texts_lines size last h h0 ls n (fun y hy => hl y (List.mem_cons_of_mem _ hy)) (by
        simp only [List.length_append, List.length_cons] at hf ⊢
        omega)]
      split
      · rfl
      · split <;> rfl

end Np.Files

import Verif.Ident.Lemmas3
/-! # Lemmas: the file system -/
set_option linter.unusedSimpArgs false
set_option linter.unusedVariables false
namespace Np.Ident
open Np.Token (UserTok)
open _root_.Np.Ident.Spec

theorem get_put (x : Dir) (n m : Name) (f : File) : Dir.get (Dir.put x n f) m = if m = n then some f else Dir.get x m := by
  unfold Dir.get Dir.put Dir.del
  by_cases h : m = n
  · simp [h]
  · rw [if_neg h, List.find?_cons_of_neg (by simpa using Ne.symm h)]
    congr 1
    induction x with
    | nil => rfl
    | cons e r ih =>
      by_cases he : e.1 = m
      · rw [List.filter_cons_of_pos (by simp [he, h]), List.find?_cons_of_pos (by simp [he]), List.find?_cons_of_pos (by simp [he])]
      · by_cases hn : e.1 = n
        · rw [List.filter_cons_of_neg (by simp [hn]), List.find?_cons_of_neg (by simp [he]), ih]
        · rw [List.filter_cons_of_pos (by simp [hn]), List.find?_cons_of_neg (by simp [he]), List.find?_cons_of_neg (by simp [he]), ih]

theorem get_del (x : Dir) (n m : Name) : Dir.get (Dir.del x n) m = if m = n then none else Dir.get x m := by
  have := get_put x n m { content := [], mayRead := false, mayWrite := false, changed := 0 }
  by_cases h : m = n
  · subst h
    rw [if_pos rfl]
    unfold Dir.get Dir.del
    rw [Option.map_eq_none_iff, List.find?_eq_none]
    intro e he
    simp only [List.mem_filter] at he
    simpa using he.2
  · rw [if_neg h] at this ⊢
    rw [← this]
    unfold Dir.get Dir.put
    rw [List.find?_cons_of_neg (by simpa using Ne.symm h)]

theorem dir_congr {s s' : St} (h : s.dirs = s'.dirs) (d : Nat) : s.dir d = s'.dir d := by
  unfold St.dir
  rw [h]

theorem file_congr {s s' : St} (h : s.dirs = s'.dirs) (d : Nat) (n : Name) : Spec.St.file s d n = Spec.St.file s' d n := by
  unfold Spec.St.file
  rw [dir_congr h]

theorem chdir_dirs (s : St) (d : Nat) : (s.chdir d).dirs = s.dirs := by
  unfold St.chdir
  split <;> rfl

theorem chdir_cwd {s : St} {d : Nat} (h : DirExists s d) : (s.chdir d).cwd = d := by
  unfold St.chdir
  rw [if_pos]
  obtain ⟨x, hx⟩ := h
  simp only [List.any_eq_true]
  exact ⟨_, hx, by simp⟩

theorem setDir_same {s : St} {d : Nat} (h : DirExists s d) (x : Dir) : (s.setDir d x).dir d = x := by
  obtain ⟨y, hy⟩ := h
  unfold St.dir St.setDir
  simp only []
  generalize s.dirs = l at hy
  induction l with
  | nil => simp at hy
  | cons e r ih =>
    by_cases he : e.1 = d
    · simp [he]
    · have : (d, y) ∈ r := by
        rcases List.mem_cons.mp hy with h | h
        · subst h; exact absurd rfl he
        · exact h
      simp only [List.map_cons, if_neg he]
      rw [List.find?_cons_of_neg (by simpa using he)]
      exact ih this

theorem setDir_other {s : St} {d d' : Nat} (h : d' ≠ d) (x : Dir) : (s.setDir d x).dir d' = s.dir d' := by
  unfold St.dir St.setDir
  simp only []
  congr 2
  induction s.dirs with
  | nil => rfl
  | cons e r ih =>
    simp only [List.map_cons]
    by_cases he : e.1 = d
    · rw [if_pos he, List.find?_cons_of_neg (by simpa using Ne.symm h), List.find?_cons_of_neg (by rw [he]; simpa using Ne.symm h), ih]
    · rw [if_neg he]
      by_cases he' : e.1 = d'
      · rw [List.find?_cons_of_pos (by simpa using he'), List.find?_cons_of_pos (by simpa using he')]
      · rw [List.find?_cons_of_neg (by simpa using he'), List.find?_cons_of_neg (by simpa using he'), ih]

theorem setDir_exists {s : St} {d e : Nat} {x : Dir} : DirExists (s.setDir d x) e ↔ DirExists s e := by
  unfold DirExists St.setDir
  simp only [List.mem_map]
  constructor
  · rintro ⟨y, ⟨⟨a, b⟩, hab, h⟩⟩
    by_cases ha : a = d
    · simp only [ha, if_true, Prod.mk.injEq] at h
      rw [← h.1]
      exact ⟨b, ha ▸ hab⟩
    · simp only [ha, if_false, Prod.mk.injEq] at h
      rw [← h.1]
      exact ⟨b, hab⟩
  · rintro ⟨y, hy⟩
    by_cases he : e = d
    · exact ⟨x, (e, y), hy, by simp [he]⟩
    · exact ⟨y, (e, y), hy, by simp [he]⟩

/-- A directory that does not exist has no files, and writing into it has no effect. -/
theorem dir_not_exists {s : St} {d : Nat} (h : ¬ DirExists s d) : s.dir d = [] := by
  unfold St.dir
  rw [List.find?_eq_none.mpr]
  · rfl
  · intro e he hd
    exact h ⟨e.2, by rw [← of_decide_eq_true hd]; exact he⟩

theorem setDir_not_exists {s : St} {d : Nat} (h : ¬ DirExists s d) (x : Dir) : s.setDir d x = s := by
  unfold St.setDir
  have : (s.dirs.map fun e => if e.1 = d then (d, x) else e) = s.dirs := by
    rw [List.map_congr_left (g := id)]
    · simp
    · intro e he
      rw [if_neg]
      · rfl
      · intro hd
        exact h ⟨e.2, by rw [← hd]; exact he⟩
  rw [this]

theorem file_setDir {s : St} {d : Nat} (h : DirExists s d) (x : Dir) (d' : Nat) (n : Name) :
    Spec.St.file (s.setDir d x) d' n = if d' = d then Dir.get x n else Spec.St.file s d' n := by
  unfold Spec.St.file
  by_cases hd : d' = d
  · subst hd; rw [setDir_same h, if_pos rfl]
  · rw [setDir_other hd, if_neg hd]

/-! ## Backups -/

theorem makeBackup_cwd (s : St) (name : Name) : (makeBackup s name).cwd = s.cwd := by
  unfold makeBackup
  split
  · rfl
  · split <;> rfl

theorem makeBackup_exists {s : St} {name : Name} {e : Nat} : DirExists (makeBackup s name) e ↔ DirExists s e := by
  unfold makeBackup
  split
  · exact Iff.rfl
  · split
    · exact setDir_exists
    · exact Iff.rfl

/-- Either nothing happens to the files, or the secret key file is renamed. -/
theorem makeBackup_cases (s : St) (name : Name) :
    (makeBackup s name).dirs = s.dirs ∨
    ∃ f, name = .npid ∧ s.noent = true ∧ Spec.St.file s s.cwd .npid = some f ∧
      ∀ d n, Spec.St.file (makeBackup s name) d n =
        if d = s.cwd then (if n = .backup f.changed then some f else if n = .npid then none else Spec.St.file s d n) else Spec.St.file s d n := by
  unfold makeBackup
  cases hg : Dir.get (s.dir s.cwd) name with
  | none => exact Or.inl rfl
  | some f =>
    by_cases hc : s.noent ∧ name = .npid
    · right
      refine ⟨f, hc.2, hc.1, by rw [← hc.2]; exact hg, ?_⟩
      intro d n
      simp only [hc, and_self, if_true]
      have he : DirExists s s.cwd := by
        apply Classical.byContradiction
        intro h
        rw [dir_not_exists h] at hg
        cases hg
      rw [file_setDir he]
      by_cases hd : d = s.cwd
      · rw [if_pos hd, if_pos hd, get_put, get_del, hd]
        rfl
      · rw [if_neg hd, if_neg hd]
    · left
      simp only [hc, if_false]

theorem makeBackup_token (s : St) (fp : Bytes) : (makeBackup s (.token fp)).dirs = s.dirs := by
  rcases makeBackup_cases s (.token fp) with h | ⟨f, h, _⟩
  · exact h
  · cases h

/-! ## Writing -/

theorem writeFile_cwd (w : World) (s : St) (name : Name) (nonce buf : Bytes) : (writeFile w s name nonce buf).2.cwd = s.cwd := by
  unfold writeFile
  simp only []
  repeat' split
  all_goals exact makeBackup_cwd s name

theorem writeFile_exists {w : World} {s : St} {name : Name} {nonce buf : Bytes} {e : Nat} :
    DirExists (writeFile w s name nonce buf).2 e ↔ DirExists s e := by
  have h := makeBackup_exists (s := s) (name := name) (e := e)
  unfold writeFile
  simp only []
  repeat' split
  all_goals first
    | exact h
    | exact setDir_exists.trans h

/-- What happens to the files: after the backup either nothing, or the file `name` of the current directory is opened and changed. -/
theorem writeFile_cases (w : World) (s : St) (name : Name) (nonce buf : Bytes) :
    (writeFile w s name nonce buf).1 ≠ .ok ∧ (writeFile w s name nonce buf).2.dirs = (makeBackup s name).dirs ∨
    ∃ f f', openFile w ((makeBackup s name).dir s.cwd) name = some f ∧ f'.mayRead = f.mayRead ∧ f'.mayWrite = f.mayWrite ∧
      (f'.changed = w.now ∨ f' = f) ∧
      (writeFile w s name nonce buf).2.dirs = ((makeBackup s name).setDir s.cwd (Dir.put ((makeBackup s name).dir s.cwd) name f')).dirs ∧
      ((writeFile w s name nonce buf).1 = .ok → nonce.length = 24 → ∃ rest, f'.content = sealed nonce buf ++ rest) := by
  unfold writeFile
  simp only []
  rw [makeBackup_cwd]
  cases ho : openFile w ((makeBackup s name).dir s.cwd) name with
  | none =>
    left
    exact ⟨by simp, rfl⟩
  | some f =>
    right
    cases he : writeEncrypted (buf.length + 48) nonce buf with
    | none =>
      exact ⟨f, f, rfl, rfl, rfl, Or.inr rfl, rfl, by simp⟩
    | some b =>
      simp only []
      refine ⟨f, { f with content := Token.overwrite f.content (b.take w.disk), changed := w.now }, rfl, rfl, rfl, Or.inl rfl, rfl, ?_⟩
      intro hr hn
      split at hr
      · rename_i hl
        rw [writeEncrypted_eq hn] at he
        cases he
        have ht : (sealed nonce buf).take w.disk = sealed nonce buf := by
          rw [List.length_take] at hl
          exact List.take_of_length_le (by omega)
        rw [ht]
        exact ⟨_, rfl⟩
      · cases hr

theorem openFile_old {w : World} {x : Dir} {name : Name} {f g : File} (h : openFile w x name = some f) (hg : Dir.get x name = some g) :
    f = g ∧ (w.root = true ∨ g.mayRead = true ∧ g.mayWrite = true) := by
  unfold openFile at h
  rw [hg] at h
  simp only [] at h
  split at h
  · rename_i hc
    exact ⟨(Option.some.inj h).symm, hc⟩
  · cases h

theorem openFile_new {w : World} {x : Dir} {name : Name} {f : File} (h : openFile w x name = some f) (hg : Dir.get x name = none) :
    f = { content := [], mayRead := true, mayWrite := false, changed := w.now } := by
  unfold openFile at h
  rw [hg] at h
  simp only [] at h
  split at h
  · exact (Option.some.inj h).symm
  · cases h

/-- Files of other directories stay as they are. -/
theorem writeFile_other {w : World} {s : St} {name : Name} {nonce buf : Bytes} {d : Nat} (hd : d ≠ s.cwd) (n : Name) :
    Spec.St.file (writeFile w s name nonce buf).2 d n = Spec.St.file s d n := by
  have hb : Spec.St.file (makeBackup s name) d n = Spec.St.file s d n := by
    rcases makeBackup_cases s name with h | ⟨f, _, _, _, h⟩
    · exact file_congr h d n
    · rw [h, if_neg hd]
  rcases writeFile_cases w s name nonce buf with ⟨_, h⟩ | ⟨f, f', _, _, _, _, h, _⟩
  · rw [file_congr h, hb]
  · rw [file_congr h]
    unfold Spec.St.file at hb ⊢
    rw [setDir_other hd, hb]

/-- After success the file begins with what was written, and can be read by whoever wrote it. -/
theorem writeFile_ok {w : World} {s : St} {name : Name} {nonce buf : Bytes} (he : DirExists s s.cwd) (hn : nonce.length = 24)
    (h : (writeFile w s name nonce buf).1 = .ok) :
    ∃ f rest, Spec.St.file (writeFile w s name nonce buf).2 s.cwd name = some f ∧ f.content = sealed nonce buf ++ rest ∧ (w.root = true ∨ f.mayRead = true) ∧
      (Spec.St.file s s.cwd name = none → f.mayWrite = false) := by
  rcases writeFile_cases w s name nonce buf with ⟨h1, _⟩ | ⟨f, f', ho, h1, h2, _, h3, h4⟩
  · exact absurd h h1
  · obtain ⟨rest, hr⟩ := h4 h hn
    refine ⟨f', rest, ?_, hr, ?_, ?_⟩
    · rw [file_congr h3, file_setDir (makeBackup_exists.mpr he), if_pos rfl, get_put, if_pos rfl]
    · rw [h1]
      cases hg : Dir.get ((makeBackup s name).dir s.cwd) name with
      | none => rw [openFile_new ho hg]; exact Or.inr rfl
      | some g =>
        obtain ⟨rfl, hc⟩ := openFile_old ho hg
        rcases hc with hc | hc
        · exact Or.inl hc
        · exact Or.inr hc.1
    · intro hnone
      rw [h2]
      have : Dir.get ((makeBackup s name).dir s.cwd) name = none := by
        rcases makeBackup_cases s name with hb | ⟨g, hname, _, hg, _⟩
        · have := file_congr hb s.cwd name
          unfold Spec.St.file at this hnone
          rw [this, hnone]
        · rw [hname, hg] at hnone; cases hnone
      rw [openFile_new ho this]

/-- A token file nobody may write stays what it is. -/
theorem writeFile_keeps_token {w : World} {s : St} {name : Name} {nonce buf fp : Bytes} {d : Nat} {g : File} (hr : w.root = false)
    (hg : Spec.St.file s d (.token fp) = some g) (hw : g.mayWrite = false) (hname : ∀ k, name ≠ .backup k) :
    Spec.St.file (writeFile w s name nonce buf).2 d (.token fp) = some g := by
  by_cases hd : d = s.cwd
  · subst hd
    have hb : Spec.St.file (makeBackup s name) s.cwd (.token fp) = some g := by
      rcases makeBackup_cases s name with h | ⟨f, _, _, _, h⟩
      · rw [file_congr h, hg]
      · rw [h, if_pos rfl, if_neg (by simp), if_neg (by simp), hg]
    rcases writeFile_cases w s name nonce buf with ⟨_, h⟩ | ⟨f, f', ho, _, _, _, h, _⟩
    · rw [file_congr h, hb]
    · by_cases hn : name = .token fp
      · subst hn
        obtain ⟨_, hc⟩ := openFile_old ho hb
        rw [hr, hw] at hc
        simp at hc
      · have he : DirExists s s.cwd := by
          apply Classical.byContradiction
          intro hx
          unfold Spec.St.file at hg
          rw [dir_not_exists hx] at hg
          cases hg
        rw [file_congr h, file_setDir (makeBackup_exists.mpr he), if_pos rfl, get_put, if_neg (Ne.symm hn)]
        exact hb
  · rw [writeFile_other hd, hg]

/-! ## Calls -/

/-- What a call does to the files: nothing, or one write. -/
theorem after_cases {E : Token.Env} {s s' : St} {c : Call} (h : after E s c = .ok s') :
    s'.dirs = s.dirs ∨ ∃ w d name nonce buf, c.world = some w ∧ (name = .npid ∨ ∃ fp, name = .token fp) ∧
      s'.dirs = (writeFile w (s.chdir d) name nonce buf).2.dirs := by
  have key : ∀ (w : World) (d : Nat) (pass sk pk i : Bytes) (r : Ret) (x : St), saveKey w s d pass sk pk i = .ok (r, x) →
      x.dirs = s.dirs ∨ ∃ nonce buf, x.dirs = (writeFile w (s.chdir d) .npid nonce buf).2.dirs := by
    intro w d pass sk pk i r x hx
    unfold saveKey at hx
    repeat' split at hx
    · cases hx; exact Or.inl rfl
    · cases hx
    · simp only [Out.ok.injEq, Prod.mk.injEq] at hx
      rw [← hx.2]
      exact Or.inr ⟨_, _, chdir_dirs _ _⟩
  have rd : ∀ (w : World) (x : St) (n : Name) (cap : Nat), (readFile w x n cap).2.dirs = x.dirs := by
    intro w x n cap
    unfold readFile
    repeat' split
    all_goals rfl
  cases c with
  | saveToken w d p t =>
    simp only [after] at h
    unfold saveToken at h
    by_cases hp : p = zeroKey
    · rw [if_pos hp] at h; cases h; exact Or.inl rfl
    · rw [if_neg hp] at h
      cases hw : writeToken w.floats E tokenCap t with
      | none => rw [hw] at h; cases h; exact Or.inl rfl
      | some b =>
        rw [hw] at h
        simp only [] at h
        by_cases hl : tokenCap < (w.box p w.nonce b).length
        · rw [if_pos hl] at h; cases h
        · rw [if_neg hl] at h
          simp only [Out.ok.injEq] at h
          rw [← h]
          exact Or.inr ⟨w, d, _, _, _, rfl, Or.inr ⟨_, rfl⟩, chdir_dirs _ _⟩
  | saveSecret w d p t =>
    simp only [after] at h
    cases hx : saveSecret w E s d p t with
    | crash => rw [hx] at h; cases h
    | ok y =>
      obtain ⟨r, x⟩ := y
      rw [hx] at h
      cases h
      unfold saveSecret at hx
      split at hx
      · cases hx; exact Or.inl rfl
      · rcases key _ _ _ _ _ _ _ _ hx with h | ⟨nonce, buf, h⟩
        · exact Or.inl h
        · exact Or.inr ⟨w, d, _, _, _, rfl, Or.inl rfl, h⟩
  | createSecret w d p sk pk =>
    simp only [after] at h
    cases hx : createSecret w s d p sk pk with
    | crash => rw [hx] at h; cases h
    | ok y =>
      obtain ⟨r, x⟩ := y
      rw [hx] at h
      cases h
      unfold createSecret at hx
      split at hx
      · cases hx; exact Or.inl rfl
      · rcases key _ _ _ _ _ _ _ _ hx with h | ⟨nonce, buf, h⟩
        · exact Or.inl h
        · exact Or.inr ⟨w, d, _, _, _, rfl, Or.inl rfl, h⟩
  | loadToken w d fp p t =>
    left
    simp only [after] at h
    unfold loadToken at h
    have e := rd w (s.chdir d) (.token fp) tokenCap
    rw [chdir_dirs] at e
    by_cases hp : p = zeroKey
    · rw [if_pos hp] at h; cases h; rfl
    · rw [if_neg hp] at h
      simp only [] at h
      cases hf : readFile w (s.chdir d) (.token fp) tokenCap with
      | mk o s1 =>
        rw [hf] at h e
        cases o with
        | crash => cases h
        | ok o =>
          cases o with
          | none =>
            simp only [Out.ok.injEq] at h
            rw [← h, chdir_dirs]; exact e
          | some x =>
            obtain ⟨nonce, c⟩ := x
            simp only [] at h
            cases hu : w.unbox p nonce c with
            | none =>
              rw [hu] at h
              simp only [Out.ok.injEq] at h
              rw [← h, chdir_dirs]; exact e
            | some m =>
              rw [hu] at h
              simp only [] at h
              cases hr : readToken w.floats m t with
              | crash => rw [hr] at h; cases h
              | ok y =>
                obtain ⟨t', b⟩ := y
                rw [hr] at h
                cases b <;>
                · simp only [Out.ok.injEq] at h
                  rw [← h, chdir_dirs]; exact e
  | loadSecret w d p i t =>
    left
    simp only [after] at h
    unfold loadSecret at h
    have e := rd w (s.chdir d) .npid 512
    rw [chdir_dirs] at e
    by_cases hp : p = zeroKey
    · rw [if_pos hp] at h; cases h; rfl
    · rw [if_neg hp] at h
      simp only [] at h
      cases hf : readFile w (s.chdir d) .npid 512 with
      | mk o s1 =>
        rw [hf] at h e
        cases o with
        | crash => cases h
        | ok o =>
          cases o with
          | none =>
            simp only [Out.ok.injEq] at h
            rw [← h]; exact e
          | some x =>
            obtain ⟨nonce, c⟩ := x
            simp only [] at h
            cases hu : w.unbox p nonce c with
            | none =>
              rw [hu] at h
              simp only [Out.ok.injEq] at h
              rw [← h, chdir_dirs]; exact e
            | some m =>
              rw [hu] at h
              simp only [] at h
              cases hr : readKey w.floats m { identifier := i, sk := t.secretKey, pk := t.publicKey } with
              | crash => rw [hr] at h; cases h
              | ok y =>
                obtain ⟨k, b⟩ := y
                rw [hr] at h
                cases b with
                | false =>
                  simp only [Out.ok.injEq] at h
                  rw [← h, chdir_dirs]; exact e
                | true =>
                  simp only [] at h
                  cases hs : signSelf E { t with secretKey := k.sk, publicKey := k.pk } with
                  | crash => rw [hs] at h; cases h
                  | ok z =>
                    rw [hs] at h
                    simp only [Out.ok.injEq] at h
                    rw [← h, chdir_dirs]; exact e
  | other c e =>
    left
    simp only [after, Out.ok.injEq] at h
    rw [← h]
    exact chdir_dirs _ _

end Np.Ident

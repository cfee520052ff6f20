import Verif.Ident.Lemmas4
import Verif.Token.Lemmas
/-! # Lemmas: histories, loading -/
set_option linter.unusedSimpArgs false
set_option linter.unusedVariables false
namespace Np.Ident
open Np.Token (UserTok)
open _root_.Np.Ident.Spec

theorem dirExists_congr {s s' : St} (h : s.dirs = s'.dirs) (d : Nat) : DirExists s d ↔ DirExists s' d := by
  unfold DirExists
  rw [h]

theorem after_exists {E : Token.Env} {s s' : St} {c : Call} (h : after E s c = .ok s') (d : Nat) : DirExists s' d ↔ DirExists s d := by
  rcases after_cases h with h | ⟨w, e, name, nonce, buf, _, _, h⟩
  · exact dirExists_congr h d
  · rw [dirExists_congr h, writeFile_exists, dirExists_congr (chdir_dirs s e)]

theorem history_exists {E : Token.Env} {cs : List Call} : ∀ {s s' : St}, history E s cs = .ok s' → ∀ d, DirExists s' d ↔ DirExists s d := by
  induction cs with
  | nil => intro s s' h d; cases h; exact Iff.rfl
  | cons c cs ih =>
    intro s s' h d
    simp only [history] at h
    cases ha : after E s c with
    | crash => rw [ha] at h; cases h
    | ok x =>
      rw [ha] at h
      rw [ih h d, after_exists ha d]

theorem after_keeps_token {E : Token.Env} {s s' : St} {c : Call} (h : after E s c = .ok s') (ho : ∀ w, c.world = some w → w.root = false)
    {d : Nat} {fp : Bytes} {g : File} (hg : Spec.St.file s d (.token fp) = some g) (hw : g.mayWrite = false) :
    Spec.St.file s' d (.token fp) = some g := by
  rcases after_cases h with h | ⟨w, e, name, nonce, buf, hc, hname, h⟩
  · rw [file_congr h, hg]
  · rw [file_congr h]
    apply writeFile_keeps_token (ho w hc) _ hw
    · intro k hk
      rcases hname with h | ⟨fp, h⟩ <;> rw [h] at hk <;> cases hk
    · rw [file_congr (chdir_dirs s e), hg]

theorem history_keeps_token {E : Token.Env} {cs : List Call} : ∀ {s s' : St}, history E s cs = .ok s' → Ordinary cs →
    ∀ {d : Nat} {fp : Bytes} {g : File}, Spec.St.file s d (.token fp) = some g → g.mayWrite = false → Spec.St.file s' d (.token fp) = some g := by
  induction cs with
  | nil => intro s s' h _ d fp g hg _; cases h; exact hg
  | cons c cs ih =>
    intro s s' h ho d fp g hg hw
    simp only [history] at h
    cases ha : after E s c with
    | crash => rw [ha] at h; cases h
    | ok x =>
      rw [ha] at h
      exact ih h (fun y hy => ho y (by simp [hy])) (after_keeps_token ha (ho c (by simp)) hg hw) hw

/-! ## The secret key file and its backups -/

theorem Spec.Kept.refl' {s s' : St} {d : Nat} (h : ∀ n, Spec.St.file s' d n = Spec.St.file s d n) : Kept s s' d :=
  fun n f hn hf => ⟨n, hn, by rw [h, hf]⟩

theorem Spec.Orderly.mono {T T' : Nat} {s s' : St} {d : Nat} (h : Orderly T s d) (ht : T ≤ T')
    (he : ∀ n, (n = .npid ∨ ∃ k, n = .backup k) → Spec.St.file s' d n = Spec.St.file s d n) : Orderly T' s' d where
  backups k f hf := by
    rw [he _ (Or.inr ⟨k, rfl⟩)] at hf
    rw [he _ (Or.inl rfl)]
    exact ⟨by have := (h.backups k f hf).1; omega, (h.backups k f hf).2⟩
  current g hg := by
    rw [he _ (Or.inl rfl)] at hg
    exact ⟨by have := (h.current g hg).1; omega, (h.current g hg).2⟩

theorem writeFile_orderly {w : World} {s : St} {name : Name} {nonce buf : Bytes} {d T : Nat} (hr : w.root = false) (ht : T < w.now)
    (hname : name = .npid ∨ ∃ fp, name = .token fp) (ho : Orderly T s d) :
    Orderly w.now (writeFile w s name nonce buf).2 d ∧ Kept s (writeFile w s name nonce buf).2 d := by
  by_cases hd : d = s.cwd
  case neg =>
    have e := writeFile_other (w := w) (name := name) (nonce := nonce) (buf := buf) hd
    exact ⟨ho.mono (by omega) fun n _ => e n, Kept.refl' e⟩
  subst hd
  by_cases hex : DirExists s s.cwd
  case neg =>
    have hno : ∀ n, Spec.St.file (writeFile w s name nonce buf).2 s.cwd n = Spec.St.file s s.cwd n := by
      intro n
      unfold Spec.St.file
      rw [dir_not_exists hex, dir_not_exists (fun h => hex (writeFile_exists.mp h))]
    exact ⟨ho.mono (by omega) fun n _ => hno n, Kept.refl' hno⟩
  rcases hname with hname | ⟨fp, hname⟩
  case inr =>
    subst hname
    have hmb := makeBackup_token s fp
    have hsame : ∀ n, (n = .npid ∨ ∃ k, n = .backup k) → Spec.St.file (writeFile w s (.token fp) nonce buf).2 s.cwd n = Spec.St.file s s.cwd n := by
      intro n hn
      have hne : n ≠ .token fp := by
        intro h
        rcases hn with hn | ⟨k, hn⟩ <;> rw [hn] at h <;> cases h
      rcases writeFile_cases w s (.token fp) nonce buf with ⟨_, h⟩ | ⟨f, f', _, _, _, _, h, _⟩
      · rw [file_congr (h.trans hmb)]
      · rw [file_congr h, file_setDir (makeBackup_exists.mpr hex), if_pos rfl, get_put, if_neg hne]
        exact file_congr hmb _ _
    exact ⟨ho.mono (by omega) hsame, fun n f hn hf => ⟨n, hn, by rw [hsame n hn, hf]⟩⟩
  subst hname
  cases hg : Spec.St.file s s.cwd .npid with
  | none =>
    have hmb : (makeBackup s .npid).dirs = s.dirs := by
      rcases makeBackup_cases s .npid with h | ⟨f, _, _, h, _⟩
      · exact h
      · rw [hg] at h; cases h
    rcases writeFile_cases w s .npid nonce buf with ⟨_, h⟩ | ⟨f, f', hop, h1, h2, h3, h, _⟩
    · have e : ∀ n, Spec.St.file (writeFile w s .npid nonce buf).2 s.cwd n = Spec.St.file s s.cwd n := fun n => file_congr (h.trans hmb) _ _
      exact ⟨ho.mono (by omega) fun n _ => e n, Kept.refl' e⟩
    · have hnone : Dir.get ((makeBackup s .npid).dir s.cwd) .npid = none := by
        rw [dir_congr hmb]; exact hg
      have hf := openFile_new hop hnone
      have hch : f'.changed = w.now := by
        rcases h3 with h3 | h3
        · exact h3
        · rw [h3, hf]
      have hfw : f'.mayWrite = false := by rw [h2, hf]
      have e : ∀ n, Spec.St.file (writeFile w s .npid nonce buf).2 s.cwd n = if n = .npid then some f' else Spec.St.file s s.cwd n := by
        intro n
        rw [file_congr h, file_setDir (makeBackup_exists.mpr hex), if_pos rfl, get_put]
        split
        · rfl
        · exact file_congr hmb _ _
      refine ⟨⟨?_, ?_⟩, ?_⟩
      · intro k x hx
        rw [e, if_neg (by simp)] at hx
        have := (ho.backups k x hx).1
        refine ⟨by omega, fun g hg' => ?_⟩
        rw [e, if_pos rfl] at hg'
        cases hg'
        omega
      · intro g hg'
        rw [e, if_pos rfl] at hg'
        cases hg'
        exact ⟨by omega, hfw⟩
      · intro n x hn hx
        refine ⟨n, hn, ?_⟩
        rw [e, if_neg, hx]
        intro hnn
        rw [hnn, hg] at hx
        cases hx
  | some g =>
    have hcur := ho.current g hg
    rcases makeBackup_cases s .npid with hmb | ⟨f0, _, hno, hf0, hmb⟩
    · -- no backup: the file cannot be opened
      rcases writeFile_cases w s .npid nonce buf with ⟨_, h⟩ | ⟨f, f', hop, _⟩
      · have e : ∀ n, Spec.St.file (writeFile w s .npid nonce buf).2 s.cwd n = Spec.St.file s s.cwd n := fun n => file_congr (h.trans hmb) _ _
        exact ⟨ho.mono (by omega) fun n _ => e n, Kept.refl' e⟩
      · exfalso
        have hg' : Dir.get ((makeBackup s .npid).dir s.cwd) .npid = some g := by rw [dir_congr hmb]; exact hg
        have := (openFile_old hop hg').2
        rw [hr, hcur.2] at this
        simp at this
    · have hfg : f0 = g := by rw [hg] at hf0; exact (Option.some.inj hf0).symm
      subst hfg
      have hnone : Dir.get ((makeBackup s .npid).dir s.cwd) .npid = none := by
        have := hmb s.cwd .npid
        rw [if_pos rfl, if_neg (by simp), if_pos rfl] at this
        exact this
      have kept : ∀ s', (∀ k, Spec.St.file s' s.cwd (.backup k) = Spec.St.file (makeBackup s .npid) s.cwd (.backup k)) → Kept s s' s.cwd := by
        intro s' hs' n x hn hx
        rcases hn with hn | ⟨k, hn⟩
        · subst hn
          rw [hg] at hx
          cases hx
          refine ⟨.backup f0.changed, Or.inr ⟨_, rfl⟩, ?_⟩
          rw [hs', hmb, if_pos rfl, if_pos rfl]
        · subst hn
          refine ⟨.backup k, Or.inr ⟨_, rfl⟩, ?_⟩
          rw [hs', hmb, if_pos rfl, if_neg, if_neg (by simp), hx]
          intro hk
          have := (ho.backups k x hx).2 f0 hg
          have hk' := (Name.backup.inj hk)
          omega
      have bk : ∀ s', (∀ k, Spec.St.file s' s.cwd (.backup k) = Spec.St.file (makeBackup s .npid) s.cwd (.backup k)) →
          ∀ k x, Spec.St.file s' s.cwd (.backup k) = some x → k ≤ T := by
        intro s' hs' k x hx
        rw [hs', hmb, if_pos rfl] at hx
        split at hx
        · rename_i hk
          have hk' := (Name.backup.inj hk)
          have := hcur.1
          omega
        · rw [if_neg (by simp)] at hx
          exact (ho.backups k x hx).1
      rcases writeFile_cases w s .npid nonce buf with ⟨_, h⟩ | ⟨f, f', hop, h1, h2, h3, h, _⟩
      · have hs' : ∀ n, Spec.St.file (writeFile w s .npid nonce buf).2 s.cwd n = Spec.St.file (makeBackup s .npid) s.cwd n := fun n => file_congr h _ _
        refine ⟨⟨fun k x hx => ⟨by have := bk _ (fun k => hs' _) k x hx; omega, fun g' hg' => ?_⟩, fun g' hg' => ?_⟩, kept _ fun k => hs' _⟩
        · rw [hs'] at hg'; unfold Spec.St.file at hg'; rw [hnone] at hg'; cases hg'
        · rw [hs'] at hg'; unfold Spec.St.file at hg'; rw [hnone] at hg'; cases hg'
      · have hf := openFile_new hop hnone
        have hch : f'.changed = w.now := by
          rcases h3 with h3 | h3
          · exact h3
          · rw [h3, hf]
        have hfw : f'.mayWrite = false := by rw [h2, hf]
        have e : ∀ n, Spec.St.file (writeFile w s .npid nonce buf).2 s.cwd n = if n = .npid then some f' else Spec.St.file (makeBackup s .npid) s.cwd n := by
          intro n
          rw [file_congr h, file_setDir (makeBackup_exists.mpr hex), if_pos rfl, get_put]
          rfl
        have hs' : ∀ k, Spec.St.file (writeFile w s .npid nonce buf).2 s.cwd (.backup k) = Spec.St.file (makeBackup s .npid) s.cwd (.backup k) := by
          intro k; rw [e, if_neg (by simp)]
        refine ⟨⟨fun k x hx => ⟨by have := bk _ hs' k x hx; omega, fun g' hg' => ?_⟩, fun g' hg' => ?_⟩, kept _ hs'⟩
        · rw [e, if_pos rfl] at hg'
          cases hg'
          have := bk _ hs' k x hx
          omega
        · rw [e, if_pos rfl] at hg'
          cases hg'
          exact ⟨by omega, hfw⟩

theorem after_orderly {E : Token.Env} {s x : St} {c : Call} {cs : List Call} {T d : Nat} (ha : after E s c = .ok x)
    (ho : ∀ w, c.world = some w → w.root = false) (ht : Ticking T (c :: cs)) (hor : Orderly T s d) :
    ∃ T', Ticking T' cs ∧ Orderly T' x d ∧ Kept s x d := by
  cases hc : c.world with
  | none =>
    simp only [Ticking, hc] at ht
    rcases after_cases ha with hd | ⟨w, _, _, _, _, hw, _, _⟩
    · have e : ∀ n, Spec.St.file x d n = Spec.St.file s d n := fun n => file_congr hd d n
      exact ⟨T, ht, hor.mono (Nat.le_refl _) fun n _ => e n, Kept.refl' e⟩
    · rw [hc] at hw; cases hw
  | some w =>
    simp only [Ticking, hc] at ht
    rcases after_cases ha with hd | ⟨w', e', name, nonce, buf, hw, hname, hd⟩
    · have e : ∀ n, Spec.St.file x d n = Spec.St.file s d n := fun n => file_congr hd d n
      exact ⟨w.now, ht.2, hor.mono (by omega) fun n _ => e n, Kept.refl' e⟩
    · rw [hc] at hw
      cases hw
      have e0 : ∀ n, Spec.St.file (s.chdir e') d n = Spec.St.file s d n := fun n => file_congr (chdir_dirs s e') d n
      have hor' : Orderly T (s.chdir e') d := hor.mono (Nat.le_refl _) fun n _ => e0 n
      obtain ⟨o1, k1⟩ := writeFile_orderly (nonce := nonce) (buf := buf) (ho w hc) ht.1 hname hor'
      have e : ∀ n, Spec.St.file x d n = Spec.St.file (writeFile w (s.chdir e') name nonce buf).2 d n := fun n => file_congr hd d n
      refine ⟨w.now, ht.2, o1.mono (Nat.le_refl _) fun n _ => e n, ?_⟩
      intro n f hn hf
      obtain ⟨n1, hn1, hf1⟩ := k1 n f hn (by rw [e0, hf])
      exact ⟨n1, hn1, by rw [e, hf1]⟩

theorem history_orderly {E : Token.Env} {cs rest : List Call} : ∀ {s s' : St} {T d : Nat}, history E s cs = .ok s' → Ordinary cs →
    Ticking T (cs ++ rest) → Orderly T s d → ∃ T', Ticking T' rest ∧ Orderly T' s' d ∧ Kept s s' d := by
  induction cs with
  | nil => intro s s' T d h _ ht ho; cases h; exact ⟨T, ht, ho, fun n f hn hf => ⟨n, hn, hf⟩⟩
  | cons c cs ih =>
    intro s s' T d h ho ht hor
    simp only [history] at h
    cases ha : after E s c with
    | crash => rw [ha] at h; cases h
    | ok x =>
      rw [ha] at h
      obtain ⟨T1, t1, o1, k1⟩ := after_orderly ha (ho c (by simp)) ht hor
      obtain ⟨T2, t2, o2, k2⟩ := ih h (fun y hy => ho y (by simp [hy])) t1 o1
      refine ⟨T2, t2, o2, ?_⟩
      intro n f hn hf
      obtain ⟨n1, hn1, hf1⟩ := k1 n f hn hf
      exact k2 n1 f hn1 hf1

/-! ## Loading -/

theorem readFile_found {w : World} {s : St} {name : Name} {cap : Nat} {f : File} {nonce m rest : Bytes} (hf : Spec.St.file s s.cwd name = some f)
    (hr : w.root = true ∨ f.mayRead = true) (hc : f.content = sealed nonce m ++ rest) (hn : nonce.length = 24) (hm : m.length ≤ cap)
    (hb : m.length < 18446744073709551616) : readFile w s name cap = (.ok (some (nonce, m)), s) := by
  unfold readFile
  unfold Spec.St.file at hf
  rw [hf]
  simp only []
  rw [if_pos hr, hc]
  have hl : m.length ≤ (sealed nonce m ++ rest).length := by
    simp only [sealed, bytesItem, List.length_append]
    omega
  rw [readEncrypted_sealed hn hb hl]
  simp only []
  rw [if_neg (by omega)]

theorem fingerprint_congr {E : Token.Env} {t t' : UserTok} (h : SamePublic E t t') : fingerprint E t' = fingerprint E t := by
  obtain ⟨h1, h2, h3, h4, h5, h6, h7, h8, h9, h10, _⟩ := h
  simp only [fingerprint, Token.getHash, Token.hashInput, Token.fromUser, Token.updateScope, h1, h2, h3, h4, h5, h6, h7, h8, h9, h10]

theorem loaded_blank {E : Token.Env} {t : UserTok} (h : Spec.Sized E t) :
    SamePublic E t
           { uuid := t.uuid, subject := Token.overwrite blank.subject t.subject, issuer := keepId blank.issuer t.issuer,
             realm := keepId blank.realm t.realm, audience := keepId blank.audience t.audience, issuedAt := t.issuedAt,
             notBefore := t.notBefore, expiresAt := t.expiresAt, publicKey := t.publicKey, secretKey := blank.secretKey,
             signature := t.signature,
             attributes := Token.overwrite blank.attributes (t.attributes.take ((E.attrSize t.attributes).getD 0)),
             attrSignature := t.attrSignature } := by
  have hk : ∀ id, keepId Token.zeroId id = id := by
    intro id
    unfold keepId
    split
    · rename_i hz; exact hz.symm
    · rfl
  refine ⟨rfl, ?_, hk _, hk _, hk _, rfl, rfl, rfl, rfl, rfl, rfl, ?_⟩
  · show t.subject ++ ([] : Bytes).drop t.subject.length = t.subject
    rw [List.drop_nil, List.append_nil]
  · intro n hn
    simp only [hn, Option.getD_some, Token.overwrite]
    have := h.used n hn
    have hl := h.attributes
    rw [List.take_append_of_le_length (by rw [List.length_take]; omega), List.take_take, Nat.min_self]

/-- A token with other signatures. -/
def withSigs (t : UserTok) (s a : Bytes) : UserTok := { t with signature := s, attrSignature := a }
def tokWith (t : Token.Tok) (s a : Bytes) : Token.Tok := { t with signature := s, attrSignature := a }

/-- Signing leaves everything but the signatures as it was. -/
theorem signSelf_ok {E : Token.Env} {t : UserTok} {n : Nat} (h : Spec.Sized E t) (ha : E.attrSize t.attributes = some n)
    (hz : t.secretKey ≠ List.replicate 64 0#8) :
    ∃ a, signSelf E t = .ok (.ok, withSigs t (E.sign (E.hash (Token.hashInput (Token.fromUser (Token.freshTok E [] 0 0) t))) t.secretKey) a) := by
  have h64 : t.secretKey.take 64 = t.secretKey := List.take_of_length_le (by rw [h.secretKey]; omega)
  have hsub : t.subject.take 255 = t.subject := List.take_of_length_le h.subject
  have hn : n ≤ t.attributes.length := by rw [h.attributes]; exact h.used n ha
  have fi := Token.fromHash_idField t.issuer h.issuer
  have fr := Token.fromHash_idField t.realm h.realm
  have fa := Token.fromHash_idField t.audience h.audience
  unfold signSelf
  simp only [Token.signIdentity, h64, hz, decide_false, Bool.and_false, Bool.false_eq_true, if_false, if_true]
  have hsc : ¬ (Token.scopePrivate > Token.scopePrivateAvailable) := by decide
  have key : ∃ a, Token.signSelf E (Token.fromUser (Token.newIdentity E [] t.secretKey 0 t.expiresAt) t) =
      some (tokWith (Token.fromUser (Token.newIdentity E [] t.secretKey 0 t.expiresAt) t)
        (E.sign (E.hash (Token.hashInput (Token.fromUser (Token.freshTok E [] 0 0) t))) t.secretKey) a) := by
    unfold Token.signSelf
    simp only [Token.fromUser, Token.updateScope, Token.newIdentity, if_true, hsc, if_false, Token.updateAttrSignature, Token.attrHash, ha, tokWith]
    exact ⟨_, rfl⟩
  obtain ⟨a, hk⟩ := key
  rw [hk]
  have key2 : ∃ a', Token.updateAttrSignature E (tokWith (Token.fromUser (Token.newIdentity E [] t.secretKey 0 t.expiresAt) t)
        (E.sign (E.hash (Token.hashInput (Token.fromUser (Token.freshTok E [] 0 0) t))) t.secretKey) a) =
      some (tokWith (Token.fromUser (Token.newIdentity E [] t.secretKey 0 t.expiresAt) t)
        (E.sign (E.hash (Token.hashInput (Token.fromUser (Token.freshTok E [] 0 0) t))) t.secretKey) a') := by
    simp only [Token.fromUser, Token.updateScope, Token.newIdentity, if_true, hsc, if_false, Token.updateAttrSignature, Token.attrHash, ha, tokWith]
    exact ⟨_, rfl⟩
  obtain ⟨a', hk2⟩ := key2
  simp only []
  rw [hk2]
  refine ⟨a', ?_⟩
  simp only [tokWith, withSigs, Token.toUser, Token.fromUser, Token.updateScope, Token.newIdentity, Token.freshTok, hsub, List.take_take, fi, fr, fa, ha, hn, if_true,
    Bool.and_self, Nat.min_self]

end Np.Ident

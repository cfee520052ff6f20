import Verif.Ident.Lemmas5
/-! # Lemmas: the calls as a whole -/
set_option linter.unusedSimpArgs false
set_option linter.unusedVariables false
namespace Np.Ident
open Np.Token (UserTok)
open Np.Cbor (head)
open _root_.Np.Ident.Spec

/-- What a token file holds before it is encrypted. -/
def tokenBytes (F : Floats) (E : Token.Env) (t : UserTok) : Bytes := (head 6 98 ++ mapItem (tokenEntries F E t)) ++ mapItem (signatureEntries t)

theorem saveToken_eq {w : World} {E : Token.Env} {s : St} {dir : Nat} {pass : Bytes} {t : UserTok} (hB : BoxOk w) (hF : FloatsOk w.floats)
    (ht : Spec.Sized E t) (hp : pass ≠ zeroKey) :
    saveToken w E s dir pass t =
      .ok (if (writeFile w (s.chdir dir) (.token (fingerprint E t)) w.nonce (w.box pass w.nonce (tokenBytes w.floats E t))).1 = .ok then .ok else .unknownError,
        (writeFile w (s.chdir dir) (.token (fingerprint E t)) w.nonce (w.box pass w.nonce (tokenBytes w.floats E t))).2.chdir s.cwd) := by
  unfold saveToken
  rw [if_neg hp, writeToken_eq hF ht]
  have := token_length hF ht
  simp only []
  rw [if_neg (by rw [hB.size]; omega)]
  rfl

theorem saveKey_eq {w : World} {s : St} {dir : Nat} {pass sk pk i : Bytes} (hB : BoxOk w) (hi : i.length = 32) :
    saveKey w s dir pass sk pk i =
      .ok (if (writeFile w (s.chdir dir) .npid w.nonce (w.box pass w.nonce (keyBytes sk pk i))).1 = .ok then .ok else .unknownError,
        (writeFile w (s.chdir dir) .npid w.nonce (w.box pass w.nonce (keyBytes sk pk i))).2.chdir s.cwd) := by
  unfold saveKey
  rw [writeKey_eq hi]
  have := keyBytes_length (sk := sk) (pk := pk) hi
  simp only []
  rw [if_neg (by rw [hB.size]; omega)]

theorem writeFile_new {w : World} {s : St} {name : Name} {nonce buf : Bytes} (hn : nonce.length = 24) (hf : Spec.St.file s s.cwd name = none)
    (hc : w.creat = true) (hd : buf.length + 40 ≤ w.disk) : (writeFile w s name nonce buf).1 = .ok := by
  unfold Spec.St.file at hf
  have hb : makeBackup s name = { s with noent := true } := by
    unfold makeBackup
    rw [hf]
  have ho : openFile w (({ s with noent := true } : St).dir s.cwd) name = some { content := [], mayRead := true, mayWrite := false, changed := w.now } := by
    unfold openFile
    rw [show ({ s with noent := true } : St).dir s.cwd = s.dir s.cwd from rfl, hf]
    simp only []
    rw [if_pos hc]
  have hl := sealed_length (m := buf) hn
  unfold writeFile
  simp only [hb, ho, writeEncrypted_eq hn]
  rw [if_pos]
  rw [List.length_take]
  omega

/-- Ordinary users can replace a key if `errno` happens to be `ENOENT`. -/
theorem writeFile_again {w : World} {s : St} {nonce buf : Bytes} (he : DirExists s s.cwd) (hn : nonce.length = 24)
    (hno : s.noent = true) (hc : w.creat = true) (hd : buf.length + 40 ≤ w.disk) : (writeFile w s .npid nonce buf).1 = .ok := by
  cases hf : Spec.St.file s s.cwd .npid with
  | none => exact writeFile_new hn hf hc hd
  | some f =>
    unfold Spec.St.file at hf
    have hb : makeBackup s .npid = s.setDir s.cwd (Dir.put (Dir.del (s.dir s.cwd) .npid) (.backup f.changed) f) := by
      unfold makeBackup
      rw [hf]
      simp only []
      rw [if_pos (by simp [hno])]
    have ho : openFile w ((makeBackup s .npid).dir (makeBackup s .npid).cwd) .npid = some { content := [], mayRead := true, mayWrite := false, changed := w.now } := by
      rw [makeBackup_cwd, hb, setDir_same he]
      unfold openFile
      rw [get_put, if_neg (by simp), get_del, if_pos rfl]
      simp only []
      rw [if_pos hc]
    have hl := sealed_length (m := buf) hn
    unfold writeFile
    simp only [ho, writeEncrypted_eq hn]
    rw [if_pos]
    rw [List.length_take]
    omega

theorem file_exists {s : St} {d : Nat} {n : Name} {f : File} (h : Spec.St.file s d n = some f) : DirExists s d := by
  apply Classical.byContradiction
  intro hd
  unfold Spec.St.file at h
  rw [dir_not_exists hd] at h
  cases h

/-- Reading changes no file and stays in the directory. -/
theorem readFile_st (w : World) (s : St) (name : Name) (cap : Nat) : (readFile w s name cap).2.dirs = s.dirs ∧ (readFile w s name cap).2.cwd = s.cwd := by
  unfold readFile
  repeat' split
  all_goals exact ⟨rfl, rfl⟩

theorem back_cwd {s s' : St} (h : ∀ d, DirExists s' d ↔ DirExists s d) (hd : DirExists s s.cwd) : (s'.chdir s.cwd).cwd = s.cwd :=
  chdir_cwd ((h _).mpr hd)

/-- The common part of the two ways to load a secret key. -/
theorem loadSecret_found {w' : World} {E : Token.Env} {s2 : St} {dir n : Nat} {pass nonce sk pk i i0 c rest : Bytes} {u : UserTok} {f : File}
    (hp : pass ≠ zeroKey) (hu : Spec.Sized E u) (ha : E.attrSize u.attributes = some n) (hi : i.length = 32) (hpk : pk.length = 32)
    (hsk : sk.length = 64) (hpair : sk.drop 32 = pk) (hp0 : pk ≠ Token.zeroId) (hs0 : sk.take 32 ≠ Token.zeroId)
    (hf : Spec.St.file s2 dir .npid = some f) (hr : w'.root = true ∨ f.mayRead = true) (hc : f.content = sealed nonce c ++ rest)
    (hn : nonce.length = 24) (hl : c.length ≤ 512) (ho : w'.unbox pass nonce c = some (keyBytes sk pk i)) :
    ∃ l, loadSecret w' E s2 dir pass i0 u = .ok l ∧ l.ret = .ok ∧ l.identifier = keepId i0 i ∧
      ∃ a, l.tok = withSigs { u with secretKey := sk, publicKey := pk }
        (E.sign (E.hash (Token.hashInput (Token.fromUser (Token.freshTok E [] 0 0) { u with secretKey := sk, publicKey := pk }))) sk) a := by
  have hfull : sk.take 32 ++ pk = sk := by rw [← hpair, List.take_append_drop]
  have hex := file_exists hf
  have hrd : readFile w' (s2.chdir dir) .npid 512 = (.ok (some (nonce, c)), s2.chdir dir) := by
    refine readFile_found (f := f) ?_ hr hc hn hl (by omega)
    rw [chdir_cwd hex, file_congr (chdir_dirs s2 dir), hf]
  have hrk := readKey_written (F := w'.floats) (sk := sk) hi hpk (by omega) hp0 hs0 { identifier := i0, sk := u.secretKey, pk := u.publicKey } hu.secretKey []
  rw [List.append_nil, hfull] at hrk
  have hz : sk ≠ List.replicate 64 0#8 := by
    intro h
    apply hs0
    rw [h]
    decide
  have hsz : Spec.Sized E { u with secretKey := sk, publicKey := pk } :=
    { uuid := hu.uuid, subject := hu.subject, issuer := hu.issuer, realm := hu.realm, audience := hu.audience, publicKey := hpk, secretKey := hsk,
      signature := hu.signature, attributes := hu.attributes, attrSignature := hu.attrSignature, used := hu.used }
  obtain ⟨a, hs⟩ := signSelf_ok hsz ha hz
  refine ⟨{ ret := .ok, st := (s2.chdir dir).chdir s2.cwd, identifier := keepId i0 i,
            tok := withSigs { u with secretKey := sk, publicKey := pk }
              (E.sign (E.hash (Token.hashInput (Token.fromUser (Token.freshTok E [] 0 0) { u with secretKey := sk, publicKey := pk }))) sk) a },
    ?_, rfl, rfl, a, rfl⟩
  unfold loadSecret
  rw [if_neg hp]
  simp only [hrd, ho, hrk, hs]

end Np.Ident

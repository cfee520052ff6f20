import Verif.Ident.Lemmas6
import Verif.Token.Props
/-! # Properties C93-C98: identity files -/
set_option linter.unusedSimpArgs false
set_option linter.unusedVariables false
namespace Np.Ident
open Np.Token (UserTok)
open _root_.Np.Ident.Spec

/-! ## A toy world for the examples and counterexamples

A box is 16 bytes that depend on the key, and the message; floats are always written in full. -/

def mark (k : Bytes) : Bytes := (k ++ List.replicate 16 0#8).take 16

def toyFloats : Floats := { enc := fun d => (27, d.toNat), dec := fun _ n => BitVec.ofNat 64 n }

def toyWorld : World :=
  { floats := toyFloats, root := false, creat := true, disk := 100000, now := 1000, nonce := List.replicate 24 3#8,
    box := fun k _ m => mark k ++ m, unbox := fun k _ c => if c.take 16 = mark k then some (c.drop 16) else none }

theorem mark_length (k : Bytes) : (mark k).length = 16 := by simp [mark]

theorem toy_box : BoxOk toyWorld where
  opens k n m := by
    show (if (mark k ++ m).take 16 = mark k then some ((mark k ++ m).drop 16) else none) = some m
    have h := mark_length k
    rw [← h, List.take_left, List.drop_left, if_pos rfl]
  size k n m := by
    show (mark k ++ m).length = m.length + 16
    rw [List.length_append, mark_length]
    omega

theorem toy_floats : FloatsOk toyWorld.floats where
  width d := Or.inr (Or.inr ⟨rfl, d.isLt⟩)
  back d := by show BitVec.ofNat 64 d.toNat = d; simp

def pass1 : Bytes := List.replicate 32 1#8
def pass2 : Bytes := List.replicate 32 2#8
def sk1 : Bytes := List.replicate 32 8#8 ++ Token.goodKey
def sk2 : Bytes := List.replicate 32 9#8 ++ Token.goodKey

/-- A signed token with a subject. -/
def aToken : UserTok :=
  { blank with uuid := List.replicate 16 9#8, subject := [97#8, 98#8], issuer := List.replicate 32 5#8, issuedAt := 7#64, notBefore := 7#64,
               expiresAt := 9#64, publicKey := Token.goodKey, secretKey := sk1, signature := List.replicate 64 7#8, attrSignature := List.replicate 64 7#8 }

/-- The toy scheme with a sum for a hash, and attributes that are empty, so that they can be computed with. -/
def plain : Token.Env := { Token.toy with hash := fun m => m.foldl (· + ·) 0#8 :: List.replicate 31 0#8, attrSize := fun _ => some 0 }

theorem aToken_sized : Spec.Sized plain aToken where
  uuid := by decide
  subject := by decide
  issuer := by decide
  realm := by decide
  audience := by decide
  publicKey := by decide
  secretKey := by decide
  signature := by decide
  attributes := by show (List.replicate 10240 0#8).length = 10240; rw [List.length_replicate]
  attrSignature := by decide
  used n h := by cases h; omega

/-- Two empty directories, 1 and 2; the process is in 1. -/
def empty : St := { dirs := [(1, []), (2, [])], cwd := 1, noent := false }

def done : Out (Ret × St) → Ret × St
  | .ok x => x
  | .crash => (.unknownError, empty)

theorem done_ok {x : Out (Ret × St)} (h : (done x).1 = .ok) : x = .ok (.ok, (done x).2) := by
  cases x with
  | crash => cases h
  | ok y => exact congrArg Out.ok (Prod.ext h rfl)

def got : Out (Ret × St × UserTok) → Ret × St × UserTok
  | .ok x => x
  | .crash => (.unknownError, empty, blank)

theorem got_eq {x : Out (Ret × St × UserTok)} {r : Ret} (h : (got x).1 = r) (hr : r ≠ .unknownError) : x = .ok (r, (got x).2.1, (got x).2.2) := by
  cases x with
  | crash => exact absurd h.symm hr
  | ok y => exact congrArg Out.ok (Prod.ext h rfl)

/-! ## C93 token files -/

/-- C93: a token that was saved in a directory is loaded from there with all its fields except the secret key, whatever the program did
with its identity files in the meantime.
Missing: the file was written over an older one, or calls of a privileged process; the token it is loaded into was in use
(`C93_reused_refuted`). -/
theorem C93_round_trip_partial (E : Token.Env) (w w' : World) (s s1 s2 : St) (dir : Nat) (pass : Bytes) (t : UserTok) (cs : List Call)
    (hB : BoxOk w) (hF : FloatsOk w.floats) (hn : w.nonce.length = 24) (ht : Spec.Sized E t) (hd : DirExists s dir) (hw : w.root = false)
    (hno : Spec.St.file s dir (.token (fingerprint E t)) = none) (hsave : saveToken w E s dir pass t = .ok (.ok, s1))
    (ho : Ordinary cs) (hh : history E s1 cs = .ok s2) (hu : w'.unbox = w.unbox) (hf : w'.floats = w.floats) :
    ∃ s3 t', loadToken w' E s2 dir (fingerprint E t) pass blank = .ok (.ok, s3, t') ∧ SamePublic E t t' ∧ t'.secretKey = blank.secretKey := by
  have hp : pass ≠ zeroKey := by
    intro h
    unfold saveToken at hsave
    rw [if_pos h] at hsave
    cases hsave
  rw [saveToken_eq hB hF ht hp] at hsave
  simp only [Out.ok.injEq, Prod.mk.injEq] at hsave
  obtain ⟨h1, h2⟩ := hsave
  have hok : (writeFile w (s.chdir dir) (.token (fingerprint E t)) w.nonce (w.box pass w.nonce (tokenBytes w.floats E t))).1 = .ok := by
    split at h1
    · assumption
    · cases h1
  have hc : (s.chdir dir).cwd = dir := chdir_cwd hd
  obtain ⟨f, rest, hfile, hcont, hread, hmw⟩ :=
    writeFile_ok (by rw [hc]; exact (dirExists_congr (chdir_dirs s dir) dir).mpr hd) hn hok
  rw [hc] at hfile hmw
  have hmw' := hmw (by rw [file_congr (chdir_dirs s dir), hno])
  have hs1 : Spec.St.file s1 dir (.token (fingerprint E t)) = some f := by
    rw [← h2, file_congr (chdir_dirs _ _), hfile]
  have hs2 := history_keeps_token hh ho hs1 hmw'
  have hr' : f.mayRead = true := by
    rcases hread with h | h
    · rw [hw] at h; cases h
    · exact h
  have hex := file_exists hs2
  have hlen := token_length hF ht
  have hrd : readFile w' (s2.chdir dir) (.token (fingerprint E t)) tokenCap =
      (.ok (some (w.nonce, w.box pass w.nonce (tokenBytes w.floats E t))), s2.chdir dir) := by
    refine readFile_found (f := f) ?_ (Or.inr hr') hcont hn ?_ ?_
    · rw [chdir_cwd hex, file_congr (chdir_dirs s2 dir), hs2]
    · rw [hB.size]; exact hlen
    · rw [hB.size]
      have : (tokenBytes w.floats E t).length + 16 ≤ tokenCap := hlen
      have h2 : tokenCap = 10887 := rfl
      omega
  have hrt := readToken_written hF (u := blank) ht []
  rw [List.append_nil] at hrt
  have hsame := loaded_blank ht
  refine ⟨(s2.chdir dir).chdir s2.cwd, _, ?_, hsame, rfl⟩
  unfold loadToken
  rw [if_neg hp]
  simp only [hrd, hu, hB.opens, hf]
  unfold tokenBytes
  rw [hrt]
  simp only []
  rw [if_pos (fingerprint_congr hsame)]

/-- C93: saving succeeds when the passphrase is not all zeros, the directory has no file for the token yet, and the disk has room. -/
theorem C93_saves (E : Token.Env) (w : World) (s : St) (dir : Nat) (pass : Bytes) (t : UserTok) (hB : BoxOk w) (hF : FloatsOk w.floats)
    (hn : w.nonce.length = 24) (ht : Spec.Sized E t) (hd : DirExists s dir) (hp : pass ≠ zeroKey)
    (hno : Spec.St.file s dir (.token (fingerprint E t)) = none) (hc : w.creat = true) (hk : 11000 ≤ w.disk) :
    ∃ s1, saveToken w E s dir pass t = .ok (.ok, s1) := by
  rw [saveToken_eq hB hF ht hp]
  have hlen : (tokenBytes w.floats E t).length + 16 ≤ tokenCap := token_length hF ht
  have h2 : tokenCap = 10887 := rfl
  rw [if_pos (writeFile_new hn (by rw [chdir_cwd hd, file_congr (chdir_dirs s dir), hno]) hc (by rw [hB.size]; omega))]
  exact ⟨_, rfl⟩

example : BoxOk toyWorld ∧ FloatsOk toyWorld.floats ∧ toyWorld.nonce.length = 24 ∧ Spec.Sized plain aToken ∧ DirExists empty 2 ∧
    Spec.St.file empty 2 (.token (fingerprint plain aToken)) = none ∧ (done (saveToken toyWorld plain empty 2 pass1 aToken)).1 = .ok ∧
    Ordinary [.saveSecret toyWorld 2 pass2 aToken, .other 2 true, .saveToken toyWorld 2 pass2 aToken] :=
  ⟨toy_box, toy_floats, by decide, aToken_sized, ⟨[], by decide⟩, rfl, by decide +kernel, by
    intro c hc w hw
    simp only [List.mem_cons, List.mem_nil_iff, or_false] at hc
    rcases hc with h | h | h <;> subst h <;> cases hw <;> rfl⟩

/-- C93 fails in general: loading into a token that was used before keeps the end of a longer subject, so the token's fingerprint is
another one and the call says `np_invalid_argument`. -/
theorem C93_reused_refuted :
    ∃ (s1 : St) (u t' : UserTok) (s3 : St), saveToken toyWorld plain empty 2 pass1 aToken = .ok (.ok, s1) ∧
      loadToken toyWorld plain s1 2 (fingerprint plain aToken) pass1 u = .ok (.invalidArgument, s3, t') ∧ t'.subject ≠ aToken.subject := by
  refine ⟨(done (saveToken toyWorld plain empty 2 pass1 aToken)).2, { blank with subject := [120#8, 120#8, 120#8] }, _, _,
    done_ok (by decide +kernel),
    got_eq (r := .invalidArgument) (x := loadToken toyWorld plain (done (saveToken toyWorld plain empty 2 pass1 aToken)).2 2 (fingerprint plain aToken) pass1
      { blank with subject := [120#8, 120#8, 120#8] }) (by decide +kernel) (by decide), ?_⟩
  decide +kernel

/-! ## C94 secret key files -/

/-- C94: a secret key that was saved is loaded again, together with the fingerprint it was saved with, as long as the file is as it was:
the token gets the two keys, keeps everything else, and is signed anew, so that it verifies. -/
theorem C94_saved (E : Token.Env) (w w' : World) (s s1 s2 : St) (dir n : Nat) (pass i0 : Bytes) (t u : UserTok)
    (hB : BoxOk w) (hn : w.nonce.length = 24) (hh : ∀ m, (E.hash m).length = 32) (ht : Spec.Sized E t) (hu : Spec.Sized E u)
    (ha : E.attrSize u.attributes = some n) (hd : DirExists s dir) (hpair : t.secretKey.drop 32 = t.publicKey)
    (hp0 : t.publicKey ≠ Token.zeroId) (hs0 : t.secretKey.take 32 ≠ Token.zeroId) (hfp : fingerprint E t ≠ Token.zeroId)
    (hsave : saveSecret w E s dir pass t = .ok (.ok, s1)) (hkeep : Spec.St.file s2 dir .npid = Spec.St.file s1 dir .npid)
    (hroot : w.root = true → w'.root = true) (hub : w'.unbox = w.unbox) :
    ∃ l, loadSecret w' E s2 dir pass i0 u = .ok l ∧ l.ret = .ok ∧ l.identifier = fingerprint E t ∧
      l.tok = { u with secretKey := t.secretKey, publicKey := t.publicKey, signature := l.tok.signature, attrSignature := l.tok.attrSignature } ∧
      (Token.Spec.KeyPair E t.secretKey t.publicKey → Token.Spec.SignatureOk E (Token.fromUser (Token.freshTok E [] 0 0) l.tok)) := by
  have hp : pass ≠ zeroKey := by
    intro h
    unfold saveSecret at hsave
    rw [if_pos h] at hsave
    cases hsave
  have hi : (fingerprint E t).length = 32 := hh _
  unfold saveSecret at hsave
  rw [if_neg hp, saveKey_eq hB hi] at hsave
  simp only [Out.ok.injEq, Prod.mk.injEq] at hsave
  obtain ⟨h1, h2⟩ := hsave
  have hok : (writeFile w (s.chdir dir) .npid w.nonce (w.box pass w.nonce (keyBytes t.secretKey t.publicKey (fingerprint E t)))).1 = .ok := by
    split at h1
    · assumption
    · cases h1
  have hc : (s.chdir dir).cwd = dir := chdir_cwd hd
  obtain ⟨f, rest, hfile, hcont, hread, _⟩ :=
    writeFile_ok (by rw [hc]; exact (dirExists_congr (chdir_dirs s dir) dir).mpr hd) hn hok
  rw [hc] at hfile
  have hs2 : Spec.St.file s2 dir .npid = some f := by
    rw [hkeep, ← h2, file_congr (chdir_dirs _ _), hfile]
  have hl := keyBytes_length (sk := t.secretKey) (pk := t.publicKey) hi
  obtain ⟨l, e1, e2, e3, a, e4⟩ := loadSecret_found (w' := w') (s2 := s2) (i0 := i0) hp hu ha hi ht.publicKey ht.secretKey hpair hp0 hs0 hs2
    (hread.imp hroot id) hcont hn (by rw [hB.size]; omega) (by rw [hub]; exact hB.opens _ _ _)
  refine ⟨l, e1, e2, ?_, ?_, ?_⟩
  · rw [e3, keepId, if_neg hfp]
  · rw [e4]; rfl
  · intro hk
    rw [e4]
    exact hk _

/-- C94 for a key that was created with `np_identity_create_secretkey`: the file has no fingerprint, the caller's identifier stays. -/
theorem C94_created (E : Token.Env) (w w' : World) (s s1 s2 : St) (dir n : Nat) (pass i0 sk pk : Bytes) (u : UserTok)
    (hB : BoxOk w) (hn : w.nonce.length = 24) (hu : Spec.Sized E u) (ha : E.attrSize u.attributes = some n) (hd : DirExists s dir)
    (hsk : sk.length = 64) (hpk : pk.length = 32) (hpair : sk.drop 32 = pk) (hp0 : pk ≠ Token.zeroId) (hs0 : sk.take 32 ≠ Token.zeroId)
    (hsave : createSecret w s dir pass sk pk = .ok (.ok, s1)) (hkeep : Spec.St.file s2 dir .npid = Spec.St.file s1 dir .npid)
    (hroot : w.root = true → w'.root = true) (hub : w'.unbox = w.unbox) :
    ∃ l, loadSecret w' E s2 dir pass i0 u = .ok l ∧ l.ret = .ok ∧ l.identifier = i0 ∧
      l.tok = { u with secretKey := sk, publicKey := pk, signature := l.tok.signature, attrSignature := l.tok.attrSignature } ∧
      (Token.Spec.KeyPair E sk pk → Token.Spec.SignatureOk E (Token.fromUser (Token.freshTok E [] 0 0) l.tok)) := by
  have hp : pass ≠ zeroKey := by
    intro h
    unfold createSecret at hsave
    rw [if_pos h] at hsave
    cases hsave
  have hi : Token.zeroId.length = 32 := by decide
  unfold createSecret at hsave
  rw [if_neg hp, saveKey_eq hB hi] at hsave
  simp only [Out.ok.injEq, Prod.mk.injEq] at hsave
  obtain ⟨h1, h2⟩ := hsave
  have hok : (writeFile w (s.chdir dir) .npid w.nonce (w.box pass w.nonce (keyBytes sk pk Token.zeroId))).1 = .ok := by
    split at h1
    · assumption
    · cases h1
  have hc : (s.chdir dir).cwd = dir := chdir_cwd hd
  obtain ⟨f, rest, hfile, hcont, hread, _⟩ :=
    writeFile_ok (by rw [hc]; exact (dirExists_congr (chdir_dirs s dir) dir).mpr hd) hn hok
  rw [hc] at hfile
  have hs2 : Spec.St.file s2 dir .npid = some f := by
    rw [hkeep, ← h2, file_congr (chdir_dirs _ _), hfile]
  have hl := keyBytes_length (sk := sk) (pk := pk) hi
  obtain ⟨l, e1, e2, e3, a, e4⟩ := loadSecret_found (w' := w') (s2 := s2) (i0 := i0) hp hu ha hi hpk hsk hpair hp0 hs0 hs2
    (hread.imp hroot id) hcont hn (by rw [hB.size]; omega) (by rw [hub]; exact hB.opens _ _ _)
  refine ⟨l, e1, e2, ?_, ?_, ?_⟩
  · rw [e3, keepId, if_pos rfl]
  · rw [e4]; rfl
  · intro hk
    rw [e4]
    exact hk _

/-- C94: saving a key where there is none succeeds if the disk has room. -/
theorem C94_saves_first (E : Token.Env) (w : World) (s : St) (dir : Nat) (pass : Bytes) (t : UserTok) (hB : BoxOk w)
    (hn : w.nonce.length = 24) (hh : ∀ m, (E.hash m).length = 32) (hd : DirExists s dir) (hp : pass ≠ zeroKey)
    (hno : Spec.St.file s dir .npid = none) (hc : w.creat = true) (hk : 256 ≤ w.disk) : ∃ s1, saveSecret w E s dir pass t = .ok (.ok, s1) := by
  have hi : (fingerprint E t).length = 32 := hh _
  unfold saveSecret
  rw [if_neg hp, saveKey_eq hB hi]
  have hl := keyBytes_length (sk := t.secretKey) (pk := t.publicKey) hi
  rw [if_pos (writeFile_new hn (by rw [chdir_cwd hd, file_congr (chdir_dirs s dir), hno]) hc (by rw [hB.size]; omega))]
  exact ⟨_, rfl⟩

/-- The state after `aToken`'s key was saved in directory 2. -/
def keyed : St := (done (saveSecret toyWorld plain empty 2 pass1 aToken)).2

example : (∀ m, (plain.hash m).length = 32) ∧ plain.attrSize aToken.attributes = some 0 ∧ DirExists empty 2 ∧
    aToken.secretKey.drop 32 = aToken.publicKey ∧ aToken.publicKey ≠ Token.zeroId ∧ aToken.secretKey.take 32 ≠ Token.zeroId ∧
    fingerprint plain aToken ≠ Token.zeroId ∧ saveSecret toyWorld plain empty 2 pass1 aToken = .ok (.ok, keyed) ∧
    (done (createSecret toyWorld empty 2 pass1 sk1 Token.goodKey)).1 = .ok ∧ Token.Spec.KeyPair plain aToken.secretKey aToken.publicKey :=
  ⟨fun m => rfl, rfl, ⟨[], by decide⟩, by decide, by decide, by decide, by decide +kernel, done_ok (by decide +kernel), by decide +kernel,
    fun m => by show decide (Token.goodKey = Token.goodKey) = true; decide⟩

/-! ## C95 protection by the passphrase -/

/-- C95: every call refuses a passphrase of zeros and does nothing. -/
theorem C95_zero_passphrase (E : Token.Env) (w : World) (s : St) (dir : Nat) (sk pk fp i : Bytes) (t : UserTok) :
    saveToken w E s dir zeroKey t = .ok (.invalidArgument, s) ∧ saveSecret w E s dir zeroKey t = .ok (.invalidArgument, s) ∧
    createSecret w s dir zeroKey sk pk = .ok (.invalidArgument, s) ∧ loadToken w E s dir fp zeroKey t = .ok (.invalidArgument, s, t) ∧
    loadSecret w E s dir zeroKey i t = .ok { ret := .invalidArgument, st := s, identifier := i, tok := t } :=
  ⟨rfl, rfl, rfl, rfl, rfl⟩

theorem unopened {w : World} {s : St} {dir : Nat} {pass : Bytes} (hd : DirExists s dir)
    (hf : ∀ n f nonce c, Spec.St.file s dir n = some f → readEncrypted w.floats f.content f.content.length = some (nonce, c) → w.unbox pass nonce c = none) :
    ∀ name cap nonce c s', readFile w (s.chdir dir) name cap = (.ok (some (nonce, c)), s') → w.unbox pass nonce c = none := by
  have hc : (s.chdir dir).cwd = dir := chdir_cwd hd
  intro name cap nonce c s' h
  unfold readFile at h
  cases hg : Dir.get ((s.chdir dir).dir (s.chdir dir).cwd) name with
  | none => rw [hg] at h; simp at h
  | some f =>
    rw [hg] at h
    simp only [] at h
    split at h
    · cases hr : readEncrypted w.floats f.content f.content.length with
      | none => rw [hr] at h; simp at h
      | some x =>
        rw [hr] at h
        obtain ⟨a, b⟩ := x
        simp only [] at h
        split at h
        · simp at h
        · simp only [Prod.mk.injEq, Out.ok.injEq, Option.some.injEq] at h
          obtain ⟨⟨rfl, rfl⟩, _⟩ := h
          refine hf name f a b ?_ hr
          rw [hc, dir_congr (chdir_dirs s dir)] at hg
          exact hg
    · simp at h

/-- C95: a file that the passphrase does not open (another passphrase, a changed file) gives an error, no file changes and nothing of it
reaches the caller. -/
theorem C95_wrong_passphrase (E : Token.Env) (w : World) (s : St) (dir : Nat) (pass fp i : Bytes) (t : UserTok) (hp : pass ≠ zeroKey)
    (hd : DirExists s dir)
    (hf : ∀ n f nonce c, Spec.St.file s dir n = some f → readEncrypted w.floats f.content f.content.length = some (nonce, c) → w.unbox pass nonce c = none) :
    (∀ r s' t', loadToken w E s dir fp pass t = .ok (r, s', t') → r = .unknownError ∧ s'.dirs = s.dirs ∧ t' = t) ∧
    (∀ l, loadSecret w E s dir pass i t = .ok l → l.ret = .unknownError ∧ l.st.dirs = s.dirs ∧ l.identifier = i ∧ l.tok = t) := by
  have hc : (s.chdir dir).cwd = dir := chdir_cwd hd
  have key := unopened hd hf
  have hst : ∀ name cap o s', readFile w (s.chdir dir) name cap = (o, s') → s'.dirs = s.dirs := by
    intro name cap o s' h
    have := (readFile_st w (s.chdir dir) name cap).1
    rw [h] at this
    rw [this, chdir_dirs]
  constructor
  · intro r s' t' h
    unfold loadToken at h
    rw [if_neg hp] at h
    simp only [] at h
    split at h
    · cases h
    · rename_i hr
      cases h
      exact ⟨rfl, by rw [chdir_dirs]; exact hst _ _ _ _ hr, rfl⟩
    · rename_i hr
      rw [key _ _ _ _ _ hr] at h
      cases h
      exact ⟨rfl, by rw [chdir_dirs]; exact hst _ _ _ _ hr, rfl⟩
  · intro l h
    unfold loadSecret at h
    rw [if_neg hp] at h
    simp only [] at h
    split at h
    · cases h
    · rename_i hr
      cases h
      exact ⟨rfl, hst _ _ _ _ hr, rfl, rfl⟩
    · rename_i hr
      rw [key _ _ _ _ _ hr] at h
      cases h
      exact ⟨rfl, by rw [chdir_dirs]; exact hst _ _ _ _ hr, rfl, rfl⟩

/-- C95: a token that is loaded with success has the fingerprint that was asked for, whatever is in the file. -/
theorem C95_fingerprint (E : Token.Env) (w : World) (s s' : St) (dir : Nat) (pass fp : Bytes) (t t' : UserTok)
    (h : loadToken w E s dir fp pass t = .ok (.ok, s', t')) : fingerprint E t' = fp := by
  unfold loadToken at h
  repeat' split at h
  all_goals simp at h
  obtain ⟨_, rfl⟩ := h
  assumption

/-- C95: the secret key has no influence on what is written into a token's file, nor on where. -/
theorem C95_secret_stays_out (E : Token.Env) (w : World) (s : St) (dir : Nat) (pass k : Bytes) (t : UserTok) :
    saveToken w E s dir pass { t with secretKey := k } = saveToken w E s dir pass t := rfl

/-- The file of `aToken`'s key opens with `pass1` only. -/
example : pass2 ≠ zeroKey ∧ DirExists keyed 2 ∧ (Spec.St.file keyed 2 .npid).isSome ∧
    (∀ n f nonce c, Spec.St.file keyed 2 n = some f → readEncrypted toyWorld.floats f.content f.content.length = some (nonce, c) →
      toyWorld.unbox pass2 nonce c = none) ∧
    (got (loadToken toyWorld plain (done (saveToken toyWorld plain empty 2 pass1 aToken)).2 2 (fingerprint plain aToken) pass1 blank)).1 = .ok := by
  refine ⟨by decide, ⟨keyed.dir 2, by decide +kernel⟩, by decide +kernel, ?_, by decide +kernel⟩
  intro n f nonce c hf hr
  have hd : keyed.dir 2 = [(.npid, ((Spec.St.file keyed 2 .npid).getD ⟨[], false, false, 0⟩))] := by decide +kernel
  unfold Spec.St.file at hf
  rw [hd] at hf
  simp only [Dir.get, List.find?_cons, List.find?_nil] at hf
  split at hf
  · simp only [Option.map_some, Option.some.injEq] at hf
    subst hf
    have h2 : (readEncrypted toyWorld.floats ((Spec.St.file keyed 2 .npid).getD ⟨[], false, false, 0⟩).content
        ((Spec.St.file keyed 2 .npid).getD ⟨[], false, false, 0⟩).content.length).all (fun x => (toyWorld.unbox pass2 x.1 x.2).isNone) = true := by decide +kernel
    rw [hr] at h2
    simpa using h2
  · cases hf

/-! ## C96 keys are not lost -/

/-- C96: a secret key file that is in the directory at any time, current or set aside, is there at every later time, unchanged though
perhaps under another name.
Missing: two saves within one second (`C96_same_second_refuted`) and privileged processes (`C96_root_refuted`). -/
theorem C96_kept_partial (E : Token.Env) (s0 s s' : St) (d T : Nat) (cs cs' : List Call) (h : history E s0 cs = .ok s)
    (h' : history E s cs' = .ok s') (ho : Ordinary (cs ++ cs')) (ht : Ticking T (cs ++ cs')) (hor : Orderly T s0 d) : Kept s s' d := by
  obtain ⟨T1, t1, o1, _⟩ := history_orderly h (fun c hc => ho c (by simp [hc])) ht hor
  rw [← List.append_nil cs'] at t1
  obtain ⟨_, _, _, k⟩ := history_orderly h' (fun c hc => ho c (by simp [hc])) t1 o1
  exact k

/-- A directory without secret key files is orderly. -/
theorem orderly_empty (T : Nat) (s : St) (d : Nat) (h : ∀ n, (n = .npid ∨ ∃ k, n = .backup k) → Spec.St.file s d n = none) : Orderly T s d where
  backups k f hf := by rw [h _ (Or.inr ⟨k, rfl⟩)] at hf; cases hf
  current g hg := by rw [h _ (Or.inl rfl)] at hg; cases hg

def at' (n : Nat) : World := { toyWorld with now := n }

/-- Three keys, one after the other; between the calls the program fails to open some other file. -/
def threeKeys (a b c : Nat) : List Call :=
  [.createSecret (at' a) 2 pass1 sk1 Token.goodKey, .other 1 true, .createSecret (at' b) 2 pass1 sk2 Token.goodKey, .other 1 true,
   .createSecret (at' c) 2 pass2 sk1 Token.goodKey]

def final (cs : List Call) : St := match history plain empty cs with | .ok s => s | .crash => empty

example : Orderly 0 empty 2 ∧ Ordinary (threeKeys 1 2 3) ∧ Ticking 0 (threeKeys 1 2 3) ∧
    (((final (threeKeys 1 2 3)).dir 2).map (·.1)) = [.npid, .backup 2, .backup 1] := by
  refine ⟨orderly_empty _ _ _ fun n _ => rfl, ?_, by simp [threeKeys, Ticking, Call.world, at'], by decide +kernel⟩
  intro c hc w hw
  simp only [threeKeys, List.mem_cons, List.mem_nil_iff, or_false] at hc
  rcases hc with h | h | h | h | h <;> subst h <;> cases hw <;> rfl

/-- C96 fails within one second: the name of the file set aside has only the second in it, the second key goes over the first. -/
theorem C96_same_second_refuted :
    ∃ f, Spec.St.file (final ((threeKeys 5 5 5).take 2)) 2 .npid = some f ∧ ∀ n, Spec.St.file (final (threeKeys 5 5 5)) 2 n ≠ some f := by
  refine ⟨(Spec.St.file (final ((threeKeys 5 5 5).take 2)) 2 .npid).getD ⟨[], false, false, 0⟩, by decide +kernel, ?_⟩
  intro n hn
  have key : ((final (threeKeys 5 5 5)).dir 2).all (fun e => decide (e.2 ≠ (Spec.St.file (final ((threeKeys 5 5 5).take 2)) 2 .npid).getD ⟨[], false, false, 0⟩)) = true := by
    decide +kernel
  unfold Spec.St.file Dir.get at hn
  cases hx : ((final (threeKeys 5 5 5)).dir 2).find? (fun e => e.1 = n) with
  | none => rw [hx] at hn; cases hn
  | some e =>
    rw [hx] at hn
    have := List.all_eq_true.mp key e (List.mem_of_find?_eq_some hx)
    simp only [Option.map_some, Option.some.injEq] at hn
    rw [decide_eq_true_eq] at this
    exact this hn

/-- C96 fails for a privileged process whose `errno` is not `ENOENT`: the key is written over, nothing is set aside. -/
theorem C96_root_refuted :
    ∃ s1 s2, createSecret { at' 1 with root := true } empty 2 pass1 sk1 Token.goodKey = .ok (.ok, s1) ∧
      createSecret { at' 2 with root := true } { s1 with noent := false } 2 pass1 sk2 Token.goodKey = .ok (.ok, s2) ∧
      (s2.dir 2).map (·.1) = [.npid] ∧ Spec.St.file s2 2 .npid ≠ Spec.St.file s1 2 .npid :=
  ⟨_, _, done_ok (x := createSecret { at' 1 with root := true } empty 2 pass1 sk1 Token.goodKey) (by decide +kernel),
    done_ok (x := createSecret { at' 2 with root := true }
      { (done (createSecret { at' 1 with root := true } empty 2 pass1 sk1 Token.goodKey)).2 with noent := false } 2 pass1 sk2 Token.goodKey) (by decide +kernel),
    by decide +kernel, by decide +kernel⟩

/-- An ordinary process cannot replace its key at all unless some call before happened to fail with `ENOENT`: `errno` is taken for the
result of `stat`. -/
theorem C94_replace_refuted :
    ∃ s1, createSecret (at' 1) empty 2 pass1 sk1 Token.goodKey = .ok (.ok, s1) ∧
      (done (createSecret (at' 2) { s1 with noent := false } 2 pass1 sk2 Token.goodKey)).1 = .unknownError ∧
      (done (createSecret (at' 2) { s1 with noent := true } 2 pass1 sk2 Token.goodKey)).1 = .ok :=
  ⟨_, done_ok (x := createSecret (at' 1) empty 2 pass1 sk1 Token.goodKey) (by decide +kernel), by decide +kernel, by decide +kernel⟩

/-! ## C97 directories -/

theorem saveKey_st {w : World} {s s' : St} {dir : Nat} {pass sk pk i : Bytes} {r : Ret} (h : saveKey w s dir pass sk pk i = .ok (r, s')) :
    s' = s ∨ ∃ nonce buf, s' = (writeFile w (s.chdir dir) .npid nonce buf).2.chdir s.cwd := by
  unfold saveKey at h
  repeat' split at h
  all_goals simp at h
  · exact Or.inl h.2.symm
  · exact Or.inr ⟨_, _, h.2.symm⟩

/-- What a call does to the files: nothing, or one `writeFile` in its directory. -/
theorem after_dir {E : Token.Env} {s s' : St} {c : Call} {d : Nat} (h : after E s c = .ok s') (hd : c.dir = some d) :
    s'.dirs = s.dirs ∨ ∃ w name nonce buf, s'.dirs = (writeFile w (s.chdir d) name nonce buf).2.dirs := by
  have key : ∀ {w : World} {dir : Nat} {pass sk pk i : Bytes} {r : Ret} {x : St}, saveKey w s dir pass sk pk i = .ok (r, x) →
      x.dirs = s.dirs ∨ ∃ w name nonce buf, x.dirs = (writeFile w (s.chdir dir) name nonce buf).2.dirs := by
    intro w dir pass sk pk i r x hx
    rcases saveKey_st hx with h | ⟨nonce, buf, h⟩
    · exact Or.inl (by rw [h])
    · exact Or.inr ⟨w, _, nonce, buf, by rw [h, chdir_dirs]⟩
  have hread : ∀ {w : World} {name : Name} {cap : Nat} {o : Out (Option (Bytes × Bytes))} {x : St}, readFile w (s.chdir d) name cap = (o, x) → x.dirs = s.dirs := by
    intro w name cap o x hx
    have := (readFile_st w (s.chdir d) name cap).1
    rw [hx] at this
    rw [this, chdir_dirs]
  cases c with
  | other a b => cases hd
  | saveToken w dir p t =>
    cases hd
    simp only [after] at h
    unfold Ident.saveToken at h
    repeat' split at h
    all_goals simp at h
    all_goals rename_i heq
    all_goals repeat' split at heq
    all_goals simp at heq
    all_goals obtain ⟨_, rfl⟩ := heq
    all_goals subst h
    all_goals first
      | exact Or.inl rfl
      | exact Or.inr ⟨_, _, _, _, chdir_dirs _ _⟩
  | saveSecret w dir p t =>
    cases hd
    simp only [after] at h
    split at h
    · rename_i r x hx
      cases h
      unfold Ident.saveSecret at hx
      split at hx
      · cases hx; exact Or.inl rfl
      · exact key hx
    · cases h
  | createSecret w dir p sk pk =>
    cases hd
    simp only [after] at h
    split at h
    · rename_i r x hx
      cases h
      unfold Ident.createSecret at hx
      split at hx
      · cases hx; exact Or.inl rfl
      · exact key hx
    · cases h
  | loadToken w dir fp p t =>
    cases hd
    left
    simp only [after] at h
    split at h
    · rename_i r x t' hx
      cases h
      unfold Ident.loadToken at hx
      simp only [] at hx
      repeat' split at hx
      all_goals simp at hx
      all_goals obtain ⟨_, rfl, _⟩ := hx
      all_goals first
        | rfl
        | (rw [chdir_dirs]; apply hread; assumption)
    · cases h
  | loadSecret w dir p i t =>
    cases hd
    left
    simp only [after] at h
    split at h
    · rename_i l hx
      cases h
      unfold Ident.loadSecret at hx
      simp only [] at hx
      repeat' split at hx
      all_goals simp at hx
      all_goals subst hx
      all_goals first
        | rfl
        | (apply hread; assumption)
        | (rw [chdir_dirs]; apply hread; assumption)
    · cases h

/-- C97: a call that was given an existing directory changes no file anywhere else; loading changes no file at all. -/
theorem C97_elsewhere (E : Token.Env) (s s' : St) (c : Call) (d : Nat) (h : after E s c = .ok s') (hd : c.dir = some d) (he : DirExists s d)
    (d' : Nat) (hne : d' ≠ d) (n : Name) : Spec.St.file s' d' n = Spec.St.file s d' n := by
  rcases after_dir h hd with h | ⟨w, name, nonce, buf, h⟩
  · exact file_congr h _ _
  · rw [file_congr h, writeFile_other (by rw [chdir_cwd he]; exact hne), file_congr (chdir_dirs _ _)]

/-- C97: loading changes no file. -/
theorem C97_loading (E : Token.Env) (w : World) (s s' : St) (dir : Nat) (fp p i : Bytes) (t : UserTok)
    (h : after E s (.loadToken w dir fp p t) = .ok s' ∨ after E s (.loadSecret w dir p i t) = .ok s') : s'.dirs = s.dirs := by
  have hread : ∀ {name : Name} {cap : Nat} {o : Out (Option (Bytes × Bytes))} {x : St}, readFile w (s.chdir dir) name cap = (o, x) → x.dirs = s.dirs := by
    intro name cap o x hx
    have := (readFile_st w (s.chdir dir) name cap).1
    rw [hx] at this
    rw [this, chdir_dirs]
  rcases h with h | h
  · simp only [after] at h
    split at h
    · rename_i r x t' hx
      cases h
      unfold Ident.loadToken at hx
      simp only [] at hx
      repeat' split at hx
      all_goals simp at hx
      all_goals obtain ⟨_, rfl, _⟩ := hx
      all_goals first
        | rfl
        | (rw [chdir_dirs]; apply hread; assumption)
    · cases h
  · simp only [after] at h
    split at h
    · rename_i l hx
      cases h
      unfold Ident.loadSecret at hx
      simp only [] at hx
      repeat' split at hx
      all_goals simp at hx
      all_goals subst hx
      all_goals first
        | rfl
        | (apply hread; assumption)
        | (rw [chdir_dirs]; apply hread; assumption)
    · cases h

/-- C97: the process is in the same directory after a call as before, whatever the result.
Missing: a secret key that could not be loaded (`C97_load_refuted`). -/
theorem C97_cwd_partial (E : Token.Env) (s s' : St) (c : Call) (d : Nat) (h : after E s c = .ok s') (hd : c.dir = some d)
    (hs : DirExists s s.cwd) (hl : ∀ w p i t l, c = .loadSecret w d p i t → loadSecret w E s d p i t = .ok l → l.ret = .ok) : s'.cwd = s.cwd := by
  have hback : ∀ {w : World} {name : Name} {nonce buf : Bytes}, ((writeFile w (s.chdir d) name nonce buf).2.chdir s.cwd).cwd = s.cwd := by
    intro w name nonce buf
    apply chdir_cwd
    rw [writeFile_exists, dirExists_congr (chdir_dirs s d)]
    exact hs
  have hread : ∀ {w : World} {name : Name} {cap : Nat} {o : Out (Option (Bytes × Bytes))} {x : St}, readFile w (s.chdir d) name cap = (o, x) →
      (x.chdir s.cwd).cwd = s.cwd := by
    intro w name cap o x hx
    have := (readFile_st w (s.chdir d) name cap).1
    rw [hx] at this
    apply chdir_cwd
    rw [dirExists_congr this, dirExists_congr (chdir_dirs s d)]
    exact hs
  have key : ∀ {w : World} {pass sk pk i : Bytes} {r : Ret} {x : St}, saveKey w s d pass sk pk i = .ok (r, x) → x.cwd = s.cwd := by
    intro w pass sk pk i r x hx
    rcases saveKey_st hx with h | ⟨nonce, buf, h⟩
    · rw [h]
    · rw [h]; exact hback
  cases c with
  | other a b => cases hd
  | saveToken w dir p t =>
    cases hd
    simp only [after] at h
    unfold Ident.saveToken at h
    repeat' split at h
    all_goals simp at h
    all_goals rename_i heq
    all_goals repeat' split at heq
    all_goals simp at heq
    all_goals obtain ⟨_, rfl⟩ := heq
    all_goals subst h
    all_goals first
      | rfl
      | exact hback
  | saveSecret w dir p t =>
    cases hd
    simp only [after] at h
    split at h
    · rename_i r x hx
      cases h
      unfold Ident.saveSecret at hx
      split at hx
      · cases hx; rfl
      · exact key hx
    · cases h
  | createSecret w dir p sk pk =>
    cases hd
    simp only [after] at h
    split at h
    · rename_i r x hx
      cases h
      unfold Ident.createSecret at hx
      split at hx
      · cases hx; rfl
      · exact key hx
    · cases h
  | loadToken w dir fp p t =>
    cases hd
    simp only [after] at h
    split at h
    · rename_i r x t' hx
      cases h
      unfold Ident.loadToken at hx
      simp only [] at hx
      repeat' split at hx
      all_goals simp at hx
      all_goals obtain ⟨_, rfl, _⟩ := hx
      all_goals first
        | rfl
        | (apply hread; assumption)
    · cases h
  | loadSecret w dir p i t =>
    cases hd
    simp only [after] at h
    split at h
    · rename_i l hx
      cases h
      have hret := hl w p i t l rfl hx
      unfold Ident.loadSecret at hx
      simp only [] at hx
      repeat' split at hx
      all_goals simp at hx
      all_goals subst hx
      all_goals first
        | rfl
        | (apply hread; assumption)
        | cases hret
    · cases h

example : (after plain empty (.saveSecret toyWorld 2 pass1 aToken) = .ok keyed) ∧ DirExists empty 2 ∧ DirExists empty empty.cwd ∧
    (Spec.St.file keyed 2 .npid).isSome :=
  ⟨by simp only [after]; rw [done_ok (x := saveSecret toyWorld plain empty 2 pass1 aToken) (by decide +kernel)]; rfl,
    ⟨[], by decide⟩, ⟨[], by decide⟩, by decide +kernel⟩

/-- C97 fails when there is no secret key to load: the process stays in the directory it looked in. -/
theorem C97_load_refuted :
    ∃ l, loadSecret toyWorld plain empty 2 pass1 [] blank = .ok l ∧ l.ret = .unknownError ∧ empty.cwd = 1 ∧ l.st.cwd = 2 :=
  ⟨_, rfl, rfl, rfl, rfl⟩

/-- C97 fails when the directory does not exist: the key is written into the current directory, with success. -/
theorem C97_missing_refuted :
    ∃ s1, createSecret toyWorld empty 3 pass1 sk1 Token.goodKey = .ok (.ok, s1) ∧ Spec.St.file empty 1 .npid = none ∧
      (Spec.St.file s1 1 .npid).isSome = true :=
  ⟨_, done_ok (x := createSecret toyWorld empty 3 pass1 sk1 Token.goodKey) (by decide +kernel), by decide +kernel, by decide +kernel⟩

/-! ## C98 memory -/

/-- C98: saving stays within its buffers, for every token of the right sizes. -/
theorem C98_saving (E : Token.Env) (w : World) (s : St) (dir : Nat) (pass sk pk : Bytes) (t : UserTok) (hB : BoxOk w) (hF : FloatsOk w.floats)
    (hh : ∀ m, (E.hash m).length = 32) (ht : Spec.Sized E t) :
    saveToken w E s dir pass t ≠ .crash ∧ saveSecret w E s dir pass t ≠ .crash ∧ createSecret w s dir pass sk pk ≠ .crash := by
  have hi : (fingerprint E t).length = 32 := hh _
  by_cases hp : pass = zeroKey
  · subst hp
    exact ⟨fun h => (nomatch h), fun h => (nomatch h), fun h => (nomatch h)⟩
  · refine ⟨?_, ?_, ?_⟩
    · rw [saveToken_eq hB hF ht hp]
      exact fun h => (nomatch h)
    · unfold saveSecret
      rw [if_neg hp, saveKey_eq hB hi]
      exact fun h => (nomatch h)
    · unfold createSecret
      rw [if_neg hp, saveKey_eq hB (by decide)]
      exact fun h => (nomatch h)

theorem readFile_small {w : World} {s : St} {name : Name} {cap : Nat} (h : ∀ f, Spec.St.file s s.cwd name = some f → f.content.length ≤ cap) :
    (readFile w s name cap).1 ≠ .crash := by
  intro hc
  unfold readFile at hc
  cases hg : Dir.get (s.dir s.cwd) name with
  | none => rw [hg] at hc; cases hc
  | some f =>
    rw [hg] at hc
    simp only [] at hc
    split at hc
    · cases hr : readEncrypted w.floats f.content f.content.length with
      | none => rw [hr] at hc; cases hc
      | some x =>
        obtain ⟨a, b⟩ := x
        rw [hr] at hc
        simp only [] at hc
        have := (readEncrypted_cap hr).1
        have := h f hg
        rw [if_neg (by omega)] at hc
        cases hc
    · cases hc

/-- C98: whatever a file holds that the passphrase does not open, loading stays within its buffers if the file is not longer than they are.
Missing: longer files (`C98_long_refuted`), and files made with the passphrase by another program. -/
theorem C98_foreign_partial (E : Token.Env) (w : World) (s : St) (dir : Nat) (pass fp i : Bytes) (t : UserTok) (hd : DirExists s dir)
    (h1 : ∀ f, Spec.St.file s dir (.token fp) = some f → f.content.length ≤ tokenCap) (h2 : ∀ f, Spec.St.file s dir .npid = some f → f.content.length ≤ 512)
    (hu : ∀ n f nonce c, Spec.St.file s dir n = some f → readEncrypted w.floats f.content f.content.length = some (nonce, c) → w.unbox pass nonce c = none) :
    loadToken w E s dir fp pass t ≠ .crash ∧ loadSecret w E s dir pass i t ≠ .crash := by
  have e : ∀ n, Spec.St.file (s.chdir dir) (s.chdir dir).cwd n = Spec.St.file s dir n := by
    intro n
    rw [chdir_cwd hd, file_congr (chdir_dirs s dir)]
  have r1 := readFile_small (w := w) (s := s.chdir dir) (name := .token fp) (cap := tokenCap) (by rw [e]; exact h1)
  have r2 := readFile_small (w := w) (s := s.chdir dir) (name := .npid) (cap := 512) (by rw [e]; exact h2)
  have key := unopened hd hu
  constructor
  · intro h
    unfold loadToken at h
    split at h
    · cases h
    · simp only [] at h
      split at h
      · rename_i hr; rw [hr] at r1; exact r1 rfl
      · cases h
      · rename_i hr; rw [key _ _ _ _ _ hr] at h; cases h
  · intro h
    unfold loadSecret at h
    split at h
    · cases h
    · simp only [] at h
      split at h
      · rename_i hr; rw [hr] at r2; exact r2 rfl
      · cases h
      · rename_i hr; rw [key _ _ _ _ _ hr] at h; cases h

/-- A file that someone put there who does not know the passphrase. -/
def foreign (n : Nat) : St :=
  { empty with dirs := [(1, []), (2, [(.npid, { content := sealed (List.replicate 24 0#8) (List.replicate n 0#8), mayRead := true, mayWrite := true, changed := 1 })])] }

example : DirExists (foreign 400) 2 ∧ (∀ f, Spec.St.file (foreign 400) 2 .npid = some f → f.content.length ≤ 512) ∧
    Spec.St.file (foreign 400) 2 (.token []) = none ∧
    (match readFile toyWorld ((foreign 400).chdir 2) .npid 512 with | (.ok (some x), _) => toyWorld.unbox pass1 x.1 x.2 | _ => some []) = none := by
  refine ⟨⟨_, List.mem_cons_of_mem _ (List.mem_singleton.mpr rfl)⟩, ?_, by decide +kernel, by decide +kernel⟩
  intro f hf
  have : (Spec.St.file (foreign 400) 2 .npid).all (fun f => decide (f.content.length ≤ 512)) = true := by decide +kernel
  rw [hf] at this
  simpa using this

/-- C98 fails: a longer file, made without the passphrase, is copied over the end of the buffer before anything is checked. -/
theorem C98_long_refuted : loadSecret toyWorld plain (foreign 513) 2 pass1 [] blank = .crash := by
  have h : (readFile toyWorld ((foreign 513).chdir 2) .npid 512).1 = .crash := by decide +kernel
  unfold loadSecret
  rw [if_neg (by decide)]
  simp only []
  split
  · rfl
  · rename_i hr; rw [hr] at h; cases h
  · rename_i hr; rw [hr] at h; cases h

end Np.Ident

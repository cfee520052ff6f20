import Verif.Keystore.Lemmas
import Verif.Ident.Props
import Mathlib.Data.List.Perm.Subperm
/-! # Properties C99, C100: the key store -/
set_option linter.unusedSimpArgs false
set_option linter.unusedVariables false
namespace Np.Keystore
open Np.Token (UserTok)
open Np.Ident (Bytes World St Ret Out fingerprint)
open Np.Skip (Good itemsOf)
open _root_.Np.Keystore.Spec

/-! ## A library for the examples: lexicographic comparison -/

def lex : Bytes → Bytes → Int
  | [], [] => 0
  | [], _ :: _ => -1
  | _ :: _, [] => 1
  | a :: x, b :: y => if a.toNat < b.toNat then -1 else if b.toNat < a.toNat then 1 else lex x y

theorem lex_swap : ∀ a b, lex a b = - lex b a
  | [], [] => rfl
  | [], _ :: _ => rfl
  | _ :: _, [] => rfl
  | a :: x, b :: y => by
    simp only [lex]
    have := lex_swap x y
    repeat' split
    all_goals omega

theorem lex_same : ∀ a b, lex a b = 0 ↔ a = b
  | [], [] => by simp [lex]
  | [], _ :: _ => by simp [lex]
  | _ :: _, [] => by simp [lex]
  | a :: x, b :: y => by
    simp only [lex]
    have ih := lex_same x y
    split
    · rename_i h
      constructor
      · intro h'; omega
      · intro h'; cases h'; omega
    · split
      · rename_i h
        constructor
        · intro h'; omega
        · intro h'; cases h'; omega
      · rename_i h1 h2
        have : a = b := BitVec.eq_of_toNat_eq (by omega)
        subst this
        simp [ih]

theorem lex_trans : ∀ a b c, lex a b ≤ 0 → lex b c ≤ 0 → lex a c ≤ 0
  | [], _, [] => by intros; decide
  | [], _, _ :: _ => by intros; simp [lex]
  | a :: x, [], _ => by intro h; simp [lex] at h
  | a :: x, b :: y, [] => by intro _ h; simp [lex] at h
  | a :: x, b :: y, c :: z => by
    have ih := lex_trans x y z
    simp only [lex]
    repeat' split
    all_goals intros
    all_goals omega

def lib : Lib := { env := Ident.plain, kdf := fun _ => Ident.pass1, mem := lex }

theorem lib_ok : MemOk lib where
  swap a b := by show lex a b < 0 ↔ 0 < lex b a; rw [lex_swap a b]; omega
  trans := lex_trans
  same := lex_same

def token1 : UserTok := Ident.aToken
def token2 : UserTok := { Ident.aToken with subject := [99#8] }

def begin : Ks := init Ident.empty 2
def result (x : Out (Ret × Ks)) : Ret × Ks := match x with | .ok y => y | .crash => (.invalidArgument, begin)

/-! ## C99 stored identities are found -/

/-- C99: only identities are found that were stored: one with the same fingerprint and the same public key was, with success. -/
theorem C99_found_was_stored (K : Lib) (hK : MemOk K) (files : St) (dir : Nat) (cs : List Call) (log : List (Call × Ret)) (k : Ks) (t : UserTok)
    (hr : run K (init files dir) cs = .ok (log, k)) (hc : check K k t = .ok .ok) :
    ∃ t', Stored log t' ∧ fingerprint K.env t' = fingerprint K.env t ∧ t'.publicKey = t.publicKey := by
  have hi := run_inv hK (init_inv files dir) hr
  rw [List.nil_append] at hi
  obtain ⟨⟨C, H, hg, hs, _⟩, _⟩ := hi
  rcases check_cases (t := t) hK hg with ⟨_, y, r, hy, he, hp⟩ | h
  · exact ⟨y, hs y (by rw [hy]; simp), he, hp⟩
  · rw [h] at hc; cases hc

/-- C99: an identity that is the only one in the key store is found.
Missing: all others, see `C99_others_refuted`. -/
theorem C99_single_partial (K : Lib) (hK : MemOk K) (files : St) (dir : Nat) (cs : List Call) (log : List (Call × Ret)) (k : Ks) (t : UserTok)
    (hr : run K (init files dir) cs = .ok (log, k)) (hs : Stored log t)
    (honly : ∀ t', Stored log t' → fingerprint K.env t' = fingerprint K.env t ∧ t'.publicKey = t.publicKey) : check K k t = .ok .ok := by
  have hi := run_inv hK (init_inv files dir) hr
  rw [List.nil_append] at hi
  obtain ⟨⟨C, H, hg, hst, hin, keys, hk, hkeys, hlen⟩, hden⟩ := hi
  obtain ⟨y, hy, he⟩ := hin t hs
  have hone : itemsOf C = [y] := by
    have hsort := hg.sorted
    have hall : ∀ a ∈ itemsOf C, fingerprint K.env a = fingerprint K.env t := fun a ha => (honly a (hst a ha)).1
    cases hC : itemsOf C with
    | nil => rw [hC] at hy; simp at hy
    | cons a r =>
      rw [hC] at hsort hall hy
      cases r with
      | nil => simp at hy; rw [hy]
      | cons b r =>
        have hab : compare K a b < 0 := (List.pairwise_cons.mp hsort).1 b (by simp)
        unfold compare at hab
        rw [hall a (by simp), hall b (by simp), (hK.same _ _).mpr rfl] at hab
        omega
  have hpk := (honly y (hst y hy)).2
  have hallowed : k.allowed.check (keyOf (fingerprint K.env t)) = true := by
    have hm := hkeys y hy
    rw [he] at hm
    obtain ⟨pre, post, hsplit⟩ := List.append_of_mem hm
    have hcap : ¬ 64 < Bloom.Spec.additions (keys.map .add) := by
      intro h
      rw [← Bloom.C22_capacity, hk] at h
      cases h
    have hadd : ∀ l : List Dhkey, Bloom.Spec.additions (l.map .add) = l.length := Bloom.additions_map
    have hag : ∀ l : List Dhkey, Bloom.Spec.agings (l.map .add) = 0 := by
      intro l
      unfold Bloom.Spec.agings
      rw [List.length_eq_zero_iff, List.filter_eq_nil_iff]
      intro o ho
      obtain ⟨x, _, rfl⟩ := List.mem_map.mp ho
      simp
    obtain ⟨f, hf, hfc⟩ := Bloom.C22_found (pre.map .add) (post.map .add) (keyOf (fingerprint K.env t))
      (by rw [hadd] at hcap ⊢; rw [hadd]; rw [hsplit, List.length_append, List.length_cons] at hcap; omega) (by rw [hag]; omega)
    rw [hsplit, List.map_append, List.map_cons, hf] at hk
    cases hk
    exact hfc
  have hdenied : k.denied.check (keyOf (fingerprint K.env t)) = false := by
    rw [hden]
    simp [Bloom.Nb.check, Bloom.Nb.create, Bloom.cellsOf]
  obtain ⟨low, high, h1, h2, h3, h4⟩ := map_cut hg fun y => decide (K.mem (fingerprint K.env t) (fingerprint K.env y) < 0)
  rw [hone] at h1
  unfold check
  simp only [hallowed, hdenied, Bool.not_false, Bool.and_self, if_true]
  rw [h2]
  have hlow : low = [] := by
    cases low with
    | nil => rfl
    | cons a l =>
      simp only [List.cons_append, List.cons.injEq] at h1
      obtain ⟨rfl, hnil⟩ := h1
      have : l = [] := by
        cases l with
        | nil => rfl
        | cons _ _ => simp at hnil
      subst this
      have hb := h3 y rfl
      rw [he, (hK.same _ _).mpr rfl] at hb
      simp at hb
  rw [hlow] at h1 ⊢
  rw [List.nil_append] at h1
  rw [← h1]
  simp only [List.getLast?_nil, List.map_cons, scan, he, if_true, hpk]

/-- C99 fails for every identity but the one with the smallest fingerprint: of two stored identities at least one is not found. -/
theorem C99_others_refuted (K : Lib) (hK : MemOk K) (files : St) (dir : Nat) (cs : List Call) (log : List (Call × Ret)) (k : Ks) (a b : UserTok)
    (hr : run K (init files dir) cs = .ok (log, k)) (ha : Stored log a) (hb : Stored log b) (hne : fingerprint K.env a ≠ fingerprint K.env b) :
    check K k a = .ok .unknownError ∨ check K k b = .ok .unknownError := by
  have hi := run_inv hK (init_inv files dir) hr
  rw [List.nil_append] at hi
  obtain ⟨⟨C, H, hg, hst, hin, _⟩, _⟩ := hi
  have smallest : ∀ t y r, itemsOf C = y :: r → fingerprint K.env y = fingerprint K.env t → ∀ t', Stored log t' →
      K.mem (fingerprint K.env t) (fingerprint K.env t') ≤ 0 := by
    intro t y r hy he t' ht'
    obtain ⟨y', hy', he'⟩ := hin t' ht'
    rw [hy] at hy'
    rw [← he, ← he']
    rcases List.mem_cons.mp hy' with rfl | hy'
    · exact Int.le_of_eq ((hK.same _ _).mpr rfl)
    · have := hg.sorted
      rw [hy] at this
      exact Int.le_of_lt ((List.pairwise_cons.mp this).1 y' hy')
  rcases check_cases (t := a) hK hg with ⟨_, y, r, hy, he, _⟩ | h
  · rcases check_cases (t := b) hK hg with ⟨_, y', r', hy', he', _⟩ | h
    · exfalso
      have h1 := smallest a y r hy he b hb
      have h2 := smallest b y' r' hy' he' a ha
      have h3 := hK.swap (fingerprint K.env a) (fingerprint K.env b)
      have h4 : K.mem (fingerprint K.env a) (fingerprint K.env b) ≠ 0 := fun h => hne ((hK.same _ _).mp h)
      omega
    · exact Or.inr h
  · exact Or.inl h

def log1 : Out (List (Call × Ret) × Ks) → List (Call × Ret) × Ks
  | .ok x => x
  | .crash => ([], begin)

def okay : Out (List (Call × Ret) × Ks) → Bool
  | .ok _ => true
  | .crash => false

theorem log1_ok {x : Out (List (Call × Ret) × Ks)} (h : okay x = true) : x = .ok ((log1 x).1, (log1 x).2) := by
  cases x with
  | ok y => rfl
  | crash => cases h

def two : Out (List (Call × Ret) × Ks) := run lib begin [.store Ident.toyWorld token1 0, .store Ident.toyWorld token2 0]

theorem two_ok : two = .ok ((log1 two).1, (log1 two).2) := log1_ok (by decide +kernel)

theorem result_eq {x : Out (Ret × Ks)} {r : Ret} (h : (result x).1 = r) (hr : r ≠ .invalidArgument) : x = .ok (r, (result x).2) := by
  cases x with
  | ok y => exact congrArg Out.ok (Prod.ext h rfl)
  | crash => exact absurd h.symm hr

/-- Two identities are stored with success; one of them is found, the other is not, and cannot be stored again. -/
theorem C99_second_refuted :
    ∃ log k k', run lib begin [.store Ident.toyWorld token1 0, .store Ident.toyWorld token2 0] = .ok (log, k) ∧ log.map (·.2) = [.ok, .ok] ∧
      check lib k token2 = .ok .ok ∧ check lib k token1 = .ok .unknownError ∧ store lib Ident.toyWorld k token1 0 = .ok (.invalidOperation, k') := by
  refine ⟨(log1 two).1, (log1 two).2, (result (store lib Ident.toyWorld (log1 two).2 token1 0)).2, two_ok, by decide +kernel, by decide +kernel, by decide +kernel, ?_⟩
  exact result_eq (by decide +kernel) (by decide)

theorem run_calls {K : Lib} {cs : List Call} : ∀ {k k' : Ks} {log : List (Call × Ret)}, run K k cs = .ok (log, k') → log.map (·.1) = cs := by
  induction cs with
  | nil => intro k k' log h; cases h; rfl
  | cons c cs ih =>
    intro k k' log h
    simp only [run] at h
    split at h
    · cases h
    · split at h
      · cases h
      · rename_i h'
        cases h
        rw [List.map_cons, ih h']

theorem two_stored : Stored (log1 two).1 token1 ∧ Stored (log1 two).1 token2 := by
  have h1 := run_calls two_ok
  have h2 : (log1 two).1.map (·.2) = [Ret.ok, Ret.ok] := by decide +kernel
  revert h1 h2
  generalize (log1 two).1 = l
  intro h1 h2
  match l, h1, h2 with
  | [(a, b), (c, d)], h1, h2 =>
    simp only [List.map_cons, List.map_nil, List.cons.injEq, and_true] at h1 h2
    obtain ⟨rfl, rfl⟩ := h1
    obtain ⟨rfl, rfl⟩ := h2
    exact ⟨⟨_, _, by simp; exact Or.inl ⟨rfl, rfl⟩⟩, ⟨_, _, by simp; exact Or.inr ⟨rfl, rfl⟩⟩⟩

example : MemOk lib ∧ two = .ok ((log1 two).1, (log1 two).2) ∧ check lib (log1 two).2 token2 = .ok .ok ∧ Stored (log1 two).1 token1 ∧
    Stored (log1 two).1 token2 ∧ fingerprint lib.env token1 ≠ fingerprint lib.env token2 :=
  ⟨lib_ok, two_ok, by decide +kernel, two_stored.1, two_stored.2, by decide +kernel⟩

def single : Out (List (Call × Ret) × Ks) := run lib begin [.store Ident.toyWorld token1 0, .store Ident.toyWorld token1 0, .check token2]

/-- One identity, stored twice. -/
example : ∃ log k, single = .ok (log, k) ∧ Stored log token1 ∧
    ∀ t', Stored log t' → fingerprint lib.env t' = fingerprint lib.env token1 ∧ t'.publicKey = token1.publicKey := by
  have hok : single = .ok ((log1 single).1, (log1 single).2) := log1_ok (by decide +kernel)
  refine ⟨_, _, hok, ?_⟩
  have h1 := run_calls hok
  have h2 : (log1 single).1.map (·.2) = [Ret.ok, Ret.ok, Ret.unknownError] := by decide +kernel
  revert h1 h2
  generalize (log1 single).1 = l
  intro h1 h2
  match l, h1, h2 with
  | [(a, b), (c, d), (e, f)], h1, h2 =>
    simp only [List.map_cons, List.map_nil, List.cons.injEq, and_true] at h1 h2
    obtain ⟨rfl, rfl, rfl⟩ := h1
    obtain ⟨rfl, rfl, rfl⟩ := h2
    refine ⟨⟨_, _, by simp; exact ⟨rfl, rfl⟩⟩, ?_⟩
    rintro t' ⟨w, z, hm⟩
    simp only [List.mem_cons, Prod.mk.injEq, Call.store.injEq, List.not_mem_nil, or_false, and_true, reduceCtorEq, false_and] at hm
    rcases hm with ⟨_, rfl, _⟩ | ⟨_, rfl, _⟩ <;> exact ⟨rfl, rfl⟩

/-- C99 fails for more than 64 identities, whatever was called: a program that stores 65 different ones does not get that far. -/
theorem C99_capacity_refuted (K : Lib) (hK : MemOk K) (files : St) (dir : Nat) (cs : List Call) (log : List (Call × Ret)) (k : Ks)
    (ts : List UserTok) (hr : run K (init files dir) cs = .ok (log, k)) (hs : ∀ t ∈ ts, Stored log t)
    (hd : (ts.map (fingerprint K.env)).Nodup) : ts.length ≤ 64 := by
  have hi := run_inv hK (init_inv files dir) hr
  rw [List.nil_append] at hi
  obtain ⟨⟨C, H, hg, hst, hin, keys, hk, hkeys, hlen⟩, hden⟩ := hi
  have hsub : ts.map (fingerprint K.env) ⊆ (itemsOf C).map (fingerprint K.env) := by
    intro x hx
    obtain ⟨t, ht, rfl⟩ := List.mem_map.mp hx
    obtain ⟨y, hy, he⟩ := hin t (hs t ht)
    exact List.mem_map.mpr ⟨y, hy, he⟩
  have hle := (List.subperm_of_subset hd hsub).length_le
  rw [List.length_map, List.length_map, hlen] at hle
  have hcap : ¬ 64 < Bloom.Spec.additions (keys.map .add) := by
    intro h
    rw [← Bloom.C22_capacity, hk] at h
    cases h
  rw [Bloom.additions_map] at hcap
  omega

/-! ## C100 the key store survives -/

/-- C100: what is stored has a file: whoever knows the passphrase loads the token from it, with all it says, as long as the file is as it was.
Missing: the store itself, see `C100_never_saved_refuted`. -/
theorem C100_token_file_partial (K : Lib) (w w' : World) (k k' : Ks) (t : UserTok) (z : BitVec 31) (s : St) (cs : List Ident.Spec.Call)
    (hB : Ident.Spec.BoxOk w) (hF : Ident.Spec.FloatsOk w.floats) (hn : w.nonce.length = 24) (ht : Ident.Spec.Sized K.env t)
    (hd : Ident.Spec.DirExists k.files k.dir) (hw : w.root = false) (hc : w.creat = true) (hk : 11000 ≤ w.disk)
    (hz : K.kdf ((fingerprint K.env t).take 8) ≠ Ident.zeroKey)
    (hno : Ident.Spec.St.file k.files k.dir (.token (fingerprint K.env t)) = none) (hnew : check K k t ≠ .ok .ok)
    (hs : store K w k t z = .ok (.ok, k')) (ho : Ident.Spec.Ordinary cs) (hh : Ident.Spec.history K.env k'.files cs = .ok s)
    (hu : w'.unbox = w.unbox) (hf : w'.floats = w.floats) :
    ∃ s' t', Ident.loadToken w' K.env s k.dir (fingerprint K.env t) (K.kdf ((fingerprint K.env t).take 8)) Ident.Spec.blank = .ok (.ok, s', t') ∧
      Ident.Spec.SamePublic K.env t t' := by
  obtain ⟨s1, hsave⟩ := Ident.C93_saves K.env w k.files k.dir _ t hB hF hn ht hd hz hno hc hk
  have hfiles : k'.files = s1 := by
    unfold store at hs
    split at hs
    · cases hs
    · rename_i h; exact absurd h hnew
    · simp only [hsave] at hs
      unfold insert at hs
      repeat' split at hs
      all_goals first
        | (cases hs; done)
        | (cases hs; rfl)
  rw [hfiles] at hh
  obtain ⟨s3, t', h1, h2, _⟩ := Ident.C93_round_trip_partial K.env w w' k.files s1 s k.dir _ t cs hB hF hn ht hd hw hno hsave ho hh hu hf
  exact ⟨s3, t', h1, h2⟩

example : Ident.Spec.BoxOk Ident.toyWorld ∧ Ident.Spec.FloatsOk Ident.toyWorld.floats ∧ Ident.Spec.Sized lib.env token1 ∧
    Ident.Spec.DirExists begin.files begin.dir ∧ lib.kdf ((fingerprint lib.env token1).take 8) ≠ Ident.zeroKey ∧
    Ident.Spec.St.file begin.files begin.dir (.token (fingerprint lib.env token1)) = none ∧ check lib begin token1 ≠ .ok .ok ∧
    store lib Ident.toyWorld begin token1 0 = .ok (.ok, (result (store lib Ident.toyWorld begin token1 0)).2) :=
  ⟨Ident.toy_box, Ident.toy_floats, Ident.aToken_sized, ⟨[], by decide⟩, by decide, rfl, by decide +kernel, result_eq (by decide +kernel) (by decide)⟩

/-- C100 fails for every store that is not empty: the file is at least one byte too small. -/
theorem C100_never_saved_refuted (K : Lib) (hK : MemOk K) (files : St) (dir : Nat) (cs : List Call) (log : List (Call × Ret)) (k : Ks) (t : UserTok)
    (nonce c : Bytes) (hr : run K (init files dir) cs = .ok (log, k)) (hs : Stored log t) (hn : nonce.length = 24)
    (hc : c.length = Skip.size k.list * 32 + 16) : save k nonce c = false := by
  have hi := run_inv hK (init_inv files dir) hr
  rw [List.nil_append] at hi
  obtain ⟨⟨C, H, hg, hst, hin, _⟩, _⟩ := hi
  have hsize : Skip.size k.list ≠ 0 := by
    obtain ⟨y, hy, _⟩ := hin t hs
    have : Skip.size k.list = (itemsOf C).length := by
      unfold Skip.size
      rw [hg.count, Skip.itemsOf_length hg.items]
    rw [this]
    intro h
    rw [List.length_eq_zero_iff.mp h] at hy
    simp at hy
  unfold save
  rw [if_neg hsize]
  unfold Ident.writeEncrypted
  simp only []
  rw [if_pos]
  · rfl
  · simp only [Ident.mapItem, Ident.entryN, Ident.bytesItem, List.length_append, List.flatten_cons, List.flatten_nil, List.append_nil, List.length_cons,
      List.length_nil, hn, show (Cbor.head 6 16).length = 1 from by decide, show (Cbor.head 4 3).length = 1 from by decide,
      show (Cbor.head 2 0).length = 1 from by decide, show (Cbor.head 5 (0 + 1)).length = 1 from by decide,
      show (Cbor.intItem 6).length = 1 from by decide, show (Cbor.head 2 24).length = 2 from by decide]
    rw [Cbor.head_length]
    repeat' split
    all_goals omega

/-- And it would not help: of all stored identities only the one with the largest fingerprint is put into the file. -/
theorem C100_only_one_refuted (K : Lib) (hK : MemOk K) (files : St) (dir : Nat) (cs : List Call) (log : List (Call × Ret)) (k : Ks) (t : UserTok)
    (hr : run K (init files dir) cs = .ok (log, k)) (hs : Stored log t) :
    ∃ t', saved K k = some [fingerprint K.env t'] ∧ Stored log t' ∧
      ∀ t'', Stored log t'' → K.mem (fingerprint K.env t'') (fingerprint K.env t') ≤ 0 := by
  have hi := run_inv hK (init_inv files dir) hr
  rw [List.nil_append] at hi
  obtain ⟨⟨C, H, hg, hst, hin, _⟩, _⟩ := hi
  obtain ⟨low, high, h1, h2, h3, h4⟩ := map_cut hg fun _ => true
  have hh : high = [] := by
    cases high with
    | nil => rfl
    | cons a r => exact absurd (h4 a rfl) (by simp)
  rw [hh, List.append_nil] at h1
  subst hh
  obtain ⟨y0, hy0, _⟩ := hin t hs
  rw [h1] at hy0
  obtain ⟨y, hy⟩ : ∃ y, low.getLast? = some y := by
    cases hl : low.getLast? with
    | some y => exact ⟨y, rfl⟩
    | none => rw [List.getLast?_eq_none_iff] at hl; rw [hl] at hy0; simp at hy0
  obtain ⟨pre, hpre⟩ := List.getLast?_eq_some_iff.mp hy
  refine ⟨y, ?_, hst y (by rw [h1, hpre]; simp), ?_⟩
  · unfold saved
    rw [h2, hy]
    rfl
  · intro t'' ht''
    obtain ⟨y', hy', he⟩ := hin t'' ht''
    rw [← he]
    rw [h1, hpre] at hy'
    rcases List.mem_append.mp hy' with hy' | hy'
    · have hsort := hg.sorted
      rw [h1, hpre] at hsort
      exact Int.le_of_lt ((List.pairwise_append.mp hsort).2.2 y' hy' y (by simp))
    · rw [List.mem_singleton.mp hy']
      exact Int.le_of_eq ((hK.same _ _).mpr rfl)

end Np.Keystore

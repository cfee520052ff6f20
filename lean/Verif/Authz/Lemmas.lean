import Verif.Authz.Spec
import Verif.Token.Lemmas
import Verif.Dhkey.Lemmas
set_option linter.unusedSimpArgs false
namespace Np.Authz
open Np.Token
open _root_.Np.Token.Spec (SameContent)
open _root_.Np.Authz.Spec

/-! ### bytes -/

theorem strncmp_bound : ∀ (n : Nat) (a b : Bytes), -256 < strncmp n a b ∧ strncmp n a b < 256
  | 0, _, _ => by simp [strncmp]
  | n + 1, [], [] => by simp [strncmp]
  | n + 1, [], b :: _ => by have := b.isLt; simp only [strncmp]; omega
  | n + 1, a :: _, [] => by have := a.isLt; simp only [strncmp]; omega
  | n + 1, a :: as, b :: bs => by
    have := a.isLt; have := b.isLt
    have := strncmp_bound n as bs
    simp only [strncmp]; split <;> omega

theorem int8_zero (x : Int) (h : -256 < x ∧ x < 256) : int8 x = 0 ↔ x = 0 := by
  unfold int8
  rw [BitVec.toInt_ofInt]
  constructor
  · intro h1
    have := Int.bmod_def x (2 ^ 8)
    rw [this] at h1
    split at h1 <;> omega
  · rintro rfl; rfl

theorem strncmp_self : ∀ (n : Nat) (a : Bytes), strncmp n a a = 0
  | 0, _ => rfl
  | n + 1, [] => rfl
  | n + 1, a :: as => by simp [strncmp, strncmp_self n as]

theorem strncmp_zero : ∀ (n : Nat) (a b : Bytes), a.length = n → b.length = n → strncmp n a b = 0 → a = b
  | 0, a, b, ha, hb, _ => by rw [List.length_eq_zero_iff.1 ha, List.length_eq_zero_iff.1 hb]
  | n + 1, [], _, ha, _, _ => by simp at ha
  | n + 1, _ :: _, [], _, hb, _ => by simp at hb
  | n + 1, a :: as, b :: bs, ha, hb, h => by
    simp only [strncmp] at h
    split at h
    · rename_i e; subst e
      rw [strncmp_zero n as bs (by simpa using ha) (by simpa using hb) h]
    · rename_i e
      exact absurd (BitVec.eq_of_toNat_eq (by omega)) e

theorem uuid_eq {a b : Bytes} (ha : a.length = 16) (hb : b.length = 16) : int8 (uuidCmp a b) = 0 ↔ a = b := by
  unfold uuidCmp
  rw [int8_zero _ (strncmp_bound _ _ _)]
  exact ⟨strncmp_zero 16 a b ha hb, fun h => h ▸ strncmp_self _ _⟩

/-- The exact comparison is equality of key and uuid. -/
theorem exact_zero (W : World) {a b : Tok} (ha : a.uuid.length = 16) (hb : b.uuid.length = 16) :
    cmpTokExact W a b = 0 ↔ SameKeyAndUuid W a b := by
  unfold cmpTokExact SameKeyAndUuid
  by_cases hk : W.kx a.publicKey = W.kx b.publicKey
  · rw [if_neg (by simpa using hk)]
    by_cases hu : a.uuid = b.uuid
    · have h0 := (uuid_eq ha hb).2 hu
      rw [if_neg (by simpa using h0)]
      simp only [ne_eq, h0, not_true_eq_false, if_false, iff_true, hk, hu, and_self, true_iff]
      unfold cmpTok; rw [if_pos h0]
    · have h0 : int8 (uuidCmp a.uuid b.uuid) ≠ 0 := fun h => hu ((uuid_eq ha hb).1 h)
      rw [if_pos h0]
      simp [h0, hu]
  · rw [if_pos hk]
    simp [hk]

/-! ### validity checks do not change what matters here -/

/-- Same content, same authorization mark, same key material. -/
structure Keeps (a b : Tok) : Prop where
  content : SameContent a b
  auth : isAuthorized a = isAuthorized b
  secret : a.issuerSecret = b.issuerSecret

theorem Keeps.refl (t : Tok) : Keeps t t := ⟨Token.Spec.SameContent.refl t, rfl, rfl⟩
theorem Keeps.trans {a b c : Tok} (h : Keeps a b) (g : Keeps b c) : Keeps a c :=
  ⟨h.content.trans g.content, h.auth.trans g.auth, h.secret.trans g.secret⟩

theorem auth_and (s : BitVec 8) : flagCmp (s &&& ~~~aaaValid) aaaAuthorized = flagCmp s aaaAuthorized := by
  have : (s &&& ~~~aaaValid) &&& aaaAuthorized = s &&& aaaAuthorized := by
    rw [BitVec.and_assoc]; congr 1
  simp only [flagCmp, this]
theorem auth_or (s : BitVec 8) : flagCmp (s ||| aaaValid) aaaAuthorized = flagCmp s aaaAuthorized := by
  have : (s ||| aaaValid) &&& aaaAuthorized = s &&& aaaAuthorized := by
    ext i hi
    simp only [BitVec.getElem_and, BitVec.getElem_or]
    have : i = 0 ∨ i = 1 ∨ i = 2 ∨ i = 3 ∨ i = 4 ∨ i = 5 ∨ i = 6 ∨ i = 7 := by omega
    rcases this with rfl | rfl | rfl | rfl | rfl | rfl | rfl | rfl <;> simp [aaaValid, aaaAuthorized]
  simp only [flagCmp, this]

theorem keeps_invalidate (t : Tok) : Keeps (invalidate t) t :=
  ⟨invalidate_same t, by simp only [isAuthorized, invalidate]; exact auth_and _, rfl⟩

theorem keeps_sig (E : Env) (t : Tok) : Keeps (checkSignature E t).1 t := by
  unfold checkSignature
  split
  · exact Keeps.refl t
  · split
    · exact ⟨by simp [SameContent], rfl, rfl⟩
    · exact keeps_invalidate t

theorem keeps_attr (E : Env) (t : Tok) : Keeps (checkAttributes E t).1 t := by
  unfold checkAttributes
  split
  · exact Keeps.refl t
  · split
    · exact keeps_invalidate t
    · split
      · exact ⟨by simp [SameContent], rfl, rfl⟩
      · exact keeps_invalidate t

theorem keeps_thr (E : Env) (t : Tok) : Keeps (checkThreshold E t).1 t := by
  unfold checkThreshold
  split
  · split
    · split
      · exact Keeps.refl t
      · exact keeps_invalidate t
    · exact keeps_invalidate t
  · exact Keeps.refl t

/-- The signature part of `isValid`. -/
def sigPart (E : Env) (t : Tok) : Tok × Bool :=
  if t.scope > scopePrivateAvailable then
    match checkSignature E t with
    | (t1, true) => checkAttributes E t1
    | (t1, false) => (t1, false)
  else (t, true)

theorem isValid_eq (E : Env) (now : BitVec 64) (t : Tok) (ty : TokType) : isValid E now t ty =
    if !flagCmp t.type ty then (invalidate t, false)
    else if dgt now t.expiresAt then (invalidate t, false)
    else match sigPart E t with
      | (t2, false) => (t2, false)
      | (t2, true) =>
        match checkThreshold E t2 with
        | (t3, false) => (t3, false)
        | (t3, true) => ({ t3 with state := t3.state ||| aaaValid }, true) := rfl

theorem keeps_sigPart (E : Env) (t : Tok) : Keeps (sigPart E t).1 t := by
  unfold sigPart
  split
  · have h := keeps_sig E t
    split
    · rename_i h1; rw [h1] at h; exact (keeps_attr E _).trans h
    · rename_i h1; rw [h1] at h; exact h
  · exact Keeps.refl t

theorem keeps_isValid (E : Env) (now : BitVec 64) (t : Tok) (ty : TokType) : Keeps (isValid E now t ty).1 t := by
  rw [isValid_eq]
  split
  · exact keeps_invalidate t
  split
  · exact keeps_invalidate t
  have h := keeps_sigPart E t
  split
  · rename_i h1; rw [h1] at h; exact h
  · rename_i t2 h1; rw [h1] at h
    have h2 := keeps_thr E t2
    split
    · rename_i h3; rw [h3] at h2; exact h2.trans h
    · rename_i t3 h3; rw [h3] at h2
      have h4 : Keeps t3 t := h2.trans h
      exact ⟨⟨h4.content.1, h4.content.2⟩, by
        have := h4.auth
        simp only [isAuthorized] at this ⊢
        rw [auth_or]; exact this, h4.secret⟩

/-! checking again gives the same result -/

/-- `a` is `b` with possibly more cached verifications, and different validity mark. -/
structure Cached (E : Env) (a b : Tok) : Prop where
  content : SameContent a b
  scope : a.scope = b.scope
  sig : (checkSignature E a).2 = (checkSignature E b).2
  attr : (checkAttributes E a).2 = (checkAttributes E b).2

theorem checkSig_snd (E : Env) (t : Tok) : (checkSignature E t).2 = (t.sigVerified || E.verify t.signature (getHash E t) t.publicKey) := by
  unfold checkSignature
  cases h : t.sigVerified <;> simp
  cases h2 : E.verify t.signature (getHash E t) t.publicKey <;> simp

theorem checkAttr_snd (E : Env) (t : Tok) : (checkAttributes E t).2 =
    (t.attrVerified || match attrHash E t with | none => false | some h => E.verify t.attrSignature h t.publicKey) := by
  unfold checkAttributes
  cases h : t.attrVerified <;> simp
  cases h1 : attrHash E t <;> simp
  rename_i x
  cases h2 : E.verify t.attrSignature x t.publicKey <;> simp

theorem checkThr_snd (E : Env) (t : Tok) : (checkThreshold E t).2 =
    (!flagCmp t.type typeIntent || match E.attrGet t.attributes keyMax, E.attrGet t.attributes keyMsg with
      | some mx, some mg => decide ((asUint E mg).toNat ≤ (asUint E mx).toNat)
      | _, _ => false) := by
  unfold checkThreshold
  cases h : flagCmp t.type typeIntent <;> simp
  cases h1 : E.attrGet t.attributes keyMax
  · rfl
  cases h2 : E.attrGet t.attributes keyMsg
  · rfl
  rename_i x y
  by_cases h3 : (asUint E y).toNat ≤ (asUint E x).toNat <;> simp [h3]

theorem sigPart_snd (E : Env) (t : Tok) : (sigPart E t).2 =
    (decide (t.scope ≤ scopePrivateAvailable) || ((checkSignature E t).2 && (checkAttributes E t).2)) := by
  unfold sigPart
  by_cases hs : t.scope > scopePrivateAvailable
  · rw [if_pos hs]
    have h0 : decide (t.scope ≤ scopePrivateAvailable) = false := decide_eq_false (by omega)
    rw [h0, Bool.false_or]
    cases h : checkSignature E t with
    | mk t1 b =>
      cases b
      · simp
      · simp only [Bool.true_and]
        rw [checkAttr_snd, checkAttr_snd]
        have hk := keeps_sig E t
        rw [h] at hk
        have ha : t1.attrVerified = t.attrVerified := by
          have : (checkSignature E t).1.attrVerified = t.attrVerified := by
            unfold checkSignature
            split
            · rfl
            · split <;> rfl
          rw [h] at this; exact this
        have hp := hk.content
        rw [ha, attrHash_congr E hp, hp.2.2.2.2.2.2.2.2.2.1, hp.2.2.2.2.2.2.2.2.2.2.2.2]
  · rw [if_neg hs]
    simp only [decide_eq_true (by omega : t.scope ≤ scopePrivateAvailable), Bool.true_or]

theorem isValid_snd (E : Env) (now : BitVec 64) (t : Tok) (ty : TokType) : (isValid E now t ty).2 =
    (flagCmp t.type ty && !dgt now t.expiresAt && (sigPart E t).2 && (checkThreshold E t).2) := by
  rw [isValid_eq]
  cases h1 : flagCmp t.type ty <;> simp
  cases h2 : dgt now t.expiresAt <;> simp
  have hk := keeps_sigPart E t
  cases h3 : sigPart E t with
  | mk t2 b =>
    rw [h3] at hk
    cases b <;> simp
    have e : (checkThreshold E t2).2 = (checkThreshold E t).2 := by
      rw [checkThr_snd, checkThr_snd, hk.content.1, hk.content.2.2.2.2.2.2.2.2.2.2.2.1]
    cases h4 : checkThreshold E t2 with
    | mk t3 b =>
      rw [h4] at e
      cases b <;> simp_all

/-- What a validity check keeps: the verification flags only ever become true if the verification succeeds. -/
structure Cached' (E : Env) (a b : Tok) : Prop where
  keeps : Keeps a b
  scope : a.scope = b.scope
  sig : (checkSignature E a).2 = (checkSignature E b).2
  attr : (checkAttributes E a).2 = (checkAttributes E b).2

theorem Cached'.refl (E : Env) (t : Tok) : Cached' E t t := ⟨Keeps.refl t, rfl, rfl, rfl⟩
theorem Cached'.trans {E : Env} {a b c : Tok} (h : Cached' E a b) (g : Cached' E b c) : Cached' E a c :=
  ⟨h.keeps.trans g.keeps, h.scope.trans g.scope, h.sig.trans g.sig, h.attr.trans g.attr⟩

theorem checkSig_congr {E : Env} {a b : Tok} (h : SameContent a b) (hv : a.sigVerified = b.sigVerified) :
    (checkSignature E a).2 = (checkSignature E b).2 := by
  rw [checkSig_snd, checkSig_snd, hv, getHash, getHash, hashInput_congr h, h.2.2.2.2.2.2.2.2.2.1, h.2.2.2.2.2.2.2.2.2.2.1]
theorem checkAttr_congr {E : Env} {a b : Tok} (h : SameContent a b) (hv : a.attrVerified = b.attrVerified) :
    (checkAttributes E a).2 = (checkAttributes E b).2 := by
  rw [checkAttr_snd, checkAttr_snd, hv, attrHash_congr E h, h.2.2.2.2.2.2.2.2.2.1, h.2.2.2.2.2.2.2.2.2.2.2.2]

theorem cached_plain {E : Env} {a b : Tok} (h : Keeps a b) (hs : a.scope = b.scope) (h1 : a.sigVerified = b.sigVerified)
    (h2 : a.attrVerified = b.attrVerified) : Cached' E a b :=
  ⟨h, hs, checkSig_congr h.content h1, checkAttr_congr h.content h2⟩

theorem cached_sig (E : Env) (t : Tok) : Cached' E (checkSignature E t).1 t := by
  unfold checkSignature
  split
  · exact Cached'.refl E t
  · split
    · rename_i h1 h2
      refine ⟨⟨by simp [SameContent], rfl, rfl⟩, rfl, ?_, checkAttr_congr (by simp [SameContent]) rfl⟩
      rw [checkSig_snd, checkSig_snd]; simp [h2]
    · exact cached_plain (keeps_invalidate t) rfl rfl rfl

theorem cached_attr (E : Env) (t : Tok) : Cached' E (checkAttributes E t).1 t := by
  unfold checkAttributes
  split
  · exact Cached'.refl E t
  · split
    · exact cached_plain (keeps_invalidate t) rfl rfl rfl
    · split
      · rename_i h1 _ h2 h3
        refine ⟨⟨by simp [SameContent], rfl, rfl⟩, rfl, checkSig_congr (by simp [SameContent]) rfl, ?_⟩
        rw [checkAttr_snd, checkAttr_snd]; simp [h2, h3]
      · exact cached_plain (keeps_invalidate t) rfl rfl rfl

theorem cached_sigPart (E : Env) (t : Tok) : Cached' E (sigPart E t).1 t := by
  unfold sigPart
  split
  · have h := cached_sig E t
    split
    · rename_i h1; rw [h1] at h; exact (cached_attr E _).trans h
    · rename_i h1; rw [h1] at h; exact h
  · exact Cached'.refl E t

theorem thr_fst (E : Env) (t : Tok) : (checkThreshold E t).1 = t ∨ (checkThreshold E t).1 = invalidate t := by
  unfold checkThreshold
  split
  · split
    · split
      · exact Or.inl rfl
      · exact Or.inr rfl
    · exact Or.inr rfl
  · exact Or.inl rfl

theorem cached_isValid (E : Env) (now : BitVec 64) (t : Tok) (ty : TokType) : Cached' E (isValid E now t ty).1 t := by
  have hk := keeps_isValid E now t ty
  rw [isValid_eq] at hk ⊢
  split
  · exact cached_plain (keeps_invalidate t) rfl rfl rfl
  split
  · exact cached_plain (keeps_invalidate t) rfl rfl rfl
  rename_i n1 n2
  rw [if_neg n1, if_neg n2] at hk
  have h := cached_sigPart E t
  split
  · rename_i h1; rw [h1] at h; exact h
  · rename_i t2 h1; rw [h1] at h hk
    have h2 := thr_fst E t2
    split
    · rename_i h3; rw [h3] at h2
      rcases h2 with h2 | h2
      · simp only at h2; rw [h2]; exact h
      · simp only at h2; rw [h2]; exact (cached_plain (keeps_invalidate t2) rfl rfl rfl).trans h
    · rename_i t3 h3; rw [h3] at h2
      simp only [h3] at hk
      have hk3 : Keeps t3 t2 := by have := keeps_thr E t2; rw [h3] at this; exact this
      have h5 : t3.scope = t2.scope ∧ t3.sigVerified = t2.sigVerified ∧ t3.attrVerified = t2.attrVerified := by
        rcases h2 with h2 | h2 <;> simp only at h2 <;> rw [h2] <;> exact ⟨rfl, rfl, rfl⟩
      refine ⟨hk, h5.1.trans h.scope, ?_, ?_⟩
      · exact (checkSig_congr (a := { t3 with state := t3.state ||| aaaValid }) (b := t2) ⟨hk3.content.1, hk3.content.2⟩ h5.2.1).trans h.sig
      · exact (checkAttr_congr (a := { t3 with state := t3.state ||| aaaValid }) (b := t2) ⟨hk3.content.1, hk3.content.2⟩ h5.2.2).trans h.attr

theorem cached_valid {E : Env} {a b : Tok} (h : Cached' E a b) (now : BitVec 64) (ty : TokType) :
    (isValid E now a ty).2 = (isValid E now b ty).2 := by
  rw [isValid_snd, isValid_snd, sigPart_snd, sigPart_snd, checkThr_snd, checkThr_snd, h.sig, h.attr, h.scope,
    h.keeps.content.1, h.keeps.content.2.2.2.2.2.2.2.2.1, h.keeps.content.2.2.2.2.2.2.2.2.2.2.2.1]

theorem isAuthorized_iff (t : Tok) : isAuthorized t = true ↔ Authorized t := by
  simp [isAuthorized, flagCmp, Authorized, aaaAuthorized]

theorem isAuthorized_of {a b : Tok} (h : Keeps a b) : Authorized a ↔ Authorized b := by
  rw [← isAuthorized_iff, ← isAuthorized_iff, h.auth]

theorem Keeps.fp {W : World} {a b : Tok} (h : Keeps a b) : tokFp W a = tokFp W b := by
  unfold tokFp getHash; rw [hashInput_congr h.content, h.content.2.2.2.2.2.2.2.2.2.2.1]

theorem Keeps.partner {W : World} {a b : Tok} (h : Keeps a b) : partnerFp W a = partnerFp W b := by
  unfold partnerFp; rw [h.fp, h.content.2.2.2.2.2.2.2.2.2.2.2.1, h.content.2.2.2.1]

/-! ### heap -/

theorem get_setTok (h : Heap) (p q : Nat) (t : Tok) :
    (setTok h p t)[q]? = if p = q then (h[q]?).map (fun o => { o with tok := t }) else h[q]? := by
  unfold setTok
  rw [List.getElem?_modify]
  by_cases e : p = q <;> simp [e]

theorem length_setTok (h : Heap) (p : Nat) (t : Tok) : (setTok h p t).length = h.length := by simp [setTok]

/-! ### priority lists -/
open Np.Lists.Spec (replace)

theorem replace_some (cmp : Nat → Nat → Int) (v : Nat) : ∀ (l l' : List Nat) (q : Nat), replace cmp v l = (l', some q) →
    ∃ a b, l = a ++ q :: b ∧ l' = a ++ v :: b ∧ cmp q v = 0 ∧ ∀ x ∈ a, cmp x v ≠ 0
  | [], l', q, h => by simp [replace] at h
  | x :: xs, l', q, h => by
    unfold replace at h
    split at h
    · rename_i h0
      simp only [Prod.mk.injEq, Option.some.injEq] at h
      exact ⟨[], xs, by simp [h.2], by simp [h.1], h.2 ▸ h0, by simp⟩
    · rename_i h0
      simp only [Prod.mk.injEq] at h
      obtain ⟨a, b, h1, h2, h3, h4⟩ := replace_some cmp v xs (replace cmp v xs).1 q (by rw [← h.2])
      refine ⟨x :: a, b, by simp [h1], by rw [← h.1, h2]; simp, h3, ?_⟩
      intro y hy
      rcases List.mem_cons.1 hy with rfl | hy
      · exact h0
      · exact h4 y hy

theorem replace_none (cmp : Nat → Nat → Int) (v : Nat) : ∀ (l l' : List Nat), replace cmp v l = (l', none) →
    l' = l ∧ ∀ x ∈ l, cmp x v ≠ 0
  | [], l', h => by simp [replace] at h; simp [h]
  | x :: xs, l', h => by
    unfold replace at h
    split at h
    · simp at h
    · rename_i h0
      simp only [Prod.mk.injEq] at h
      obtain ⟨h1, h2⟩ := replace_none cmp v xs (replace cmp v xs).1 (by rw [← h.2])
      refine ⟨by rw [← h.1, h1], ?_⟩
      intro y hy
      rcases List.mem_cons.1 hy with rfl | hy
      · exact h0
      · exact h2 y hy

theorem insert_split (cmp : Nat → Nat → Int) (d : Bool) (v : Nat) : ∀ (l : List Nat),
    (∃ a b, l = a ++ b ∧ (Lists.Spec.insert cmp d v l).1 = a ++ v :: b) ∨ ((Lists.Spec.insert cmp d v l).1 = l ∧ d = false ∧ ∃ x ∈ l, cmp x v = 0)
  | [] => Or.inl ⟨[], [], rfl, rfl⟩
  | x :: xs => by
    unfold Lists.Spec.insert
    split
    · exact Or.inl ⟨[], x :: xs, rfl, rfl⟩
    split
    · rename_i h; exact Or.inr ⟨rfl, h.2, x, List.mem_cons_self, h.1⟩
    · rcases insert_split cmp d v xs with ⟨a, b, h1, h2⟩ | ⟨h1, h2, y, hy, h3⟩
      · exact Or.inl ⟨x :: a, b, by simp [h1], by simp [h2]⟩
      · exact Or.inr ⟨by simp [h1], h2, y, List.mem_cons_of_mem _ hy, h3⟩

/-- The result of `store`: replaced an equal one, or inserted. -/
theorem store_spec (W : World) (h : Heap) (single : Bool) (peers : List Nat) (p : Nat) :
    (∃ a q b, peers = a ++ q :: b ∧ store W h single peers p = (a ++ p :: b, some q) ∧
      cmpPtr (if single then cmpTok else cmpTokExact W) h q p = 0) ∨
    (∃ a b, peers = a ++ b ∧ (∀ x ∈ peers, cmpPtr (if single then cmpTok else cmpTokExact W) h x p ≠ 0) ∧
      store W h single peers p = (a ++ p :: b, none)) := by
  have e : (if single = true then cmpPtr cmpTok h else cmpPtr (cmpTokExact W) h) =
      cmpPtr (if single then cmpTok else cmpTokExact W) h := by cases single <;> rfl
  unfold store
  simp only [e]
  cases hr : replace (cmpPtr (if single then cmpTok else cmpTokExact W) h) p peers with
  | mk l r =>
    cases r with
    | some q =>
      obtain ⟨a, b, h1, h2, h3, _⟩ := replace_some _ _ _ _ _ hr
      exact Or.inl ⟨a, q, b, h1, by simp [h2], h3⟩
    | none =>
      obtain ⟨h1, h2⟩ := replace_none _ _ _ _ hr
      rcases insert_split (cmpPtr cmpTok h) (!single) p peers with ⟨a, b, h3, h4⟩ | ⟨h3, h4, x, hx, h5⟩
      · exact Or.inr ⟨a, b, h3, h2, by simp [h4]⟩
      · cases single
        · simp at h4
        · exact absurd h5 (h2 x hx)

end Np.Authz

import Verif.Authz.Lemmas2
set_option linter.unusedSimpArgs false
namespace Np.Authz
open Np.Token
open _root_.Np.Token.Spec (SameContent)
open _root_.Np.Authz.Spec

theorem handleIntent_partner {W : World} {m : Mode} {now : BitVec 64} {cp : Bool} {h h' : Heap} {c c' : Chan} {p : Nat}
    {o : Obj} {b : Bool} (ho : h[p]? = some o) (ha : handleIntent W m now cp h c p = some (h', c', b)) :
    c'.peers = c.peers ∨ partnerFp W o.tok ≠ none := by
  unfold handleIntent at ha
  rw [ho] at ha
  dsimp only at ha
  have hk := keeps_isValid W.E now o.tok typeIntent
  split at ha
  · simp only [Option.some.injEq, Prod.mk.injEq] at ha
    obtain ⟨_, rfl, _⟩ := ha
    exact Or.inl rfl
  · rename_i t1 hv
    rw [hv] at hk
    split at ha
    · split at ha
      · simp at ha
      · rename_i hp
        right
        rw [← Keeps.partner hk]; simp only; rw [hp]; simp
    · simp only [Option.some.injEq, Prod.mk.injEq] at ha
      obtain ⟨_, rfl, _⟩ := ha
      exact Or.inl rfl

/-! ### reachable states: the lists point to objects -/

/-- Lists of peers contain objects read from the network, lists of own intents contain own objects. -/
structure Alloc (W : World) (n : Node) : Prop where
  peers : ∀ m sid c, n.chans m sid = some c → ∀ q ∈ c.peers, ∃ o : Obj, n.heap[q]? = some o ∧ o.mine = false ∧ partnerFp W o.tok ≠ none
  own : ∀ m sid c, n.chans m sid = some c → ∀ q ∈ c.own, ∃ o : Obj, n.heap[q]? = some o ∧ o.mine = true

theorem partner_congr {W : World} {a b : Tok} (h : SameContent a b) : partnerFp W a = partnerFp W b := by
  have hf : tokFp W a = tokFp W b := by
    unfold tokFp getHash; rw [hashInput_congr h, h.2.2.2.2.2.2.2.2.2.2.1]
  unfold partnerFp; rw [hf, h.2.2.2.2.2.2.2.2.2.2.2.1, h.2.2.2.1]

theorem alloc_carry {W : World} {h h' : Heap} (hs : Stays h h') {l : List Nat}
    (hl : ∀ q ∈ l, ∃ o : Obj, h[q]? = some o ∧ o.mine = false ∧ partnerFp W o.tok ≠ none) :
    ∀ q ∈ l, ∃ o : Obj, h'[q]? = some o ∧ o.mine = false ∧ partnerFp W o.tok ≠ none := by
  intro q hq
  obtain ⟨o, h1, h2, h3⟩ := hl q hq
  obtain ⟨o', g1, g2, g3⟩ := hs q o h1
  exact ⟨o', g1, g2.trans h2, by rw [partner_congr g3]; exact h3⟩

theorem own_carry {h h' : Heap} (hs : Stays h h') {l : List Nat}
    (hl : ∀ q ∈ l, ∃ o : Obj, h[q]? = some o ∧ o.mine = true) : ∀ q ∈ l, ∃ o : Obj, h'[q]? = some o ∧ o.mine = true := by
  intro q hq
  obtain ⟨o, h1, h2⟩ := hl q hq
  obtain ⟨o', g1, g2, _⟩ := hs q o h1
  exact ⟨o', g1, g2.trans h2⟩

theorem setChan_get {n : Node} {m m' : Mode} {sid s' : Bytes} {c c' : Chan} (h : (n.setChan m sid c).chans m' s' = some c') :
    (m' = m ∧ s' = sid ∧ c' = c) ∨ (¬ (m' = m ∧ s' = sid) ∧ n.chans m' s' = some c') := by
  unfold Node.setChan at h
  dsimp only at h
  split at h
  · rename_i e; simp at h; exact Or.inl ⟨e.1, e.2, h.symm⟩
  · rename_i e; exact Or.inr ⟨e, h⟩

theorem setChan_self (n : Node) (m : Mode) (sid : Bytes) (c : Chan) : (n.setChan m sid c).chans m sid = some c := by
  simp [Node.setChan]

theorem Alloc.set {W : World} {n : Node} (hn : Alloc W n) {h' : Heap} (hs : Stays n.heap h') (m : Mode) (sid : Bytes) (c : Chan)
    (hp : ∀ q ∈ c.peers, ∃ o : Obj, h'[q]? = some o ∧ o.mine = false ∧ partnerFp W o.tok ≠ none)
    (ho : ∀ q ∈ c.own, ∃ o : Obj, h'[q]? = some o ∧ o.mine = true) :
    Alloc W ({ n with heap := h' }.setChan m sid c) := by
  constructor
  · intro m' s' c' hc
    rcases setChan_get hc with ⟨_, _, rfl⟩ | ⟨_, h⟩
    · exact hp
    · exact alloc_carry hs (hn.peers m' s' c' h)
  · intro m' s' c' hc
    rcases setChan_get hc with ⟨_, _, rfl⟩ | ⟨_, h⟩
    · exact ho
    · exact own_carry hs (hn.own m' s' c' h)

theorem Alloc.heap {W : World} {n : Node} (hn : Alloc W n) {h' : Heap} (hs : Stays n.heap h') (cs : List Call) :
    Alloc W { n with heap := h', calls := cs } :=
  ⟨fun m s c hc => alloc_carry hs (hn.peers m s c hc), fun m s c hc => own_carry hs (hn.own m s c hc)⟩

theorem isPeers_get {n : Node} {p : Nat} (h : isPeers n p = true) : ∃ o : Obj, n.heap[p]? = some o ∧ o.mine = false := by
  unfold isPeers at h
  split at h
  · rename_i o ho; exact ⟨o, ho, by simpa using h⟩
  · simp at h

theorem stays_cached {W : World} {h h' : Heap}
    (hc : ∀ (q : Nat) (o : Obj), h[q]? = some o → ∃ o' : Obj, h'[q]? = some o' ∧ o'.mine = o.mine ∧ Cached' W.E o'.tok o.tok) :
    Stays h h' := by
  intro q o ho
  obtain ⟨o', h1, h2, h3⟩ := hc q o ho
  exact ⟨o', h1, h2, h3.keeps.content⟩

theorem mem_subst {α : Type} {a b : List α} {p q x : α} (h : x ∈ a ++ p :: b) : x = p ∨ x ∈ a ++ q :: b := by
  simp only [List.mem_append, List.mem_cons] at h ⊢
  rcases h with h | h | h
  · exact Or.inr (Or.inl h)
  · exact Or.inl h
  · exact Or.inr (Or.inr (Or.inr h))

theorem peers_sub {W : World} {m : Mode} {now : BitVec 64} {cp : Bool} {h h' : Heap} {c c' : Chan} {p : Nat}
    {o : Obj} {b : Bool} (ho : h[p]? = some o) (ha : handleIntent W m now cp h c p = some (h', c', b)) :
    ∀ x ∈ c'.peers, x ∈ c.peers ∨ (x = p ∧ partnerFp W o.tok ≠ none) := by
  obtain ⟨t', _, _, _, _, _, _, h7⟩ := handleIntent_spec ho ha
  have hp := handleIntent_partner ho ha
  intro x hx
  rcases hp with hp | hp
  · left; rw [← hp]; exact hx
  · rcases h7 with ⟨h7, _⟩ | ⟨a, q, b, h7, h8, _⟩ | ⟨a, b, h7, h8, _⟩
    · left; rw [← h7]; exact hx
    · rw [h8] at hx
      rcases mem_subst (q := q) hx with rfl | hx
      · exact Or.inr ⟨rfl, hp⟩
      · left; rw [h7]; exact hx
    · rw [h8] at hx
      simp only [List.mem_append, List.mem_cons] at hx
      rcases hx with hx | hx | hx
      · left; rw [h7]; simp [hx]
      · exact Or.inr ⟨hx, hp⟩
      · left; rw [h7]; simp [hx]

theorem replace_mem (cmp : Nat → Nat → Int) (v : Nat) (l : List Nat) : ∀ x ∈ (Lists.Spec.replace cmp v l).1, x = v ∨ x ∈ l := by
  intro x hx
  cases hr : Lists.Spec.replace cmp v l with
  | mk l' r =>
    rw [hr] at hx
    cases r with
    | none => rw [(replace_none _ _ _ _ hr).1] at hx; exact Or.inr hx
    | some q =>
      obtain ⟨a, b, h1, h2, _⟩ := replace_some _ _ _ _ _ hr
      simp only [h2] at hx
      rw [h1]
      exact mem_subst hx

theorem upsertOwn_spec (h : Heap) (c : Chan) (t : Tok) (renew : Bool) :
    (upsertOwn h c t renew).2 = { c with own := (upsertOwn h c t renew).2.own } ∧
    ((upsertOwn h c t renew).1 = h ∧ (upsertOwn h c t renew).2.own = c.own ∧ c.own ≠ [] ∨
     (upsertOwn h c t renew).1 = h ++ [⟨{ t with state := aaaAuthorized ||| aaaAuthenticated ||| aaaValid }, true⟩] ∧
     (∀ x ∈ (upsertOwn h c t renew).2.own, x = h.length ∨ x ∈ c.own) ∧
     (upsertOwn h c t renew).2.own ≠ []) := by
  unfold upsertOwn
  split
  · refine ⟨rfl, Or.inr ⟨rfl, ?_, by simp⟩⟩
    intro x hx; simp at hx; exact Or.inl hx
  · rename_i y ys e
    split
    · refine ⟨rfl, Or.inr ⟨rfl, ?_, ?_⟩⟩
      · intro x hx
        exact replace_mem _ _ _ x hx
      · simp only [e]
        unfold Lists.Spec.replace
        split <;> simp
    · exact ⟨rfl, Or.inl ⟨rfl, rfl, by rw [e]; simp⟩⟩

theorem step_alloc {W : World} {n n' : Node} (op : Op) (hn : Alloc W n) (hs : step W n op = some n') :
    Alloc W n' ∧ Stays n.heap n'.heap := by
  cases op with
  | receive t =>
    simp only [step, Option.some.injEq] at hs
    subst hs
    exact ⟨hn.heap (stays_append _ _) _, stays_append _ _⟩
  | intent m sid p now cp =>
    simp only [step] at hs
    split at hs
    · rename_i hp
      obtain ⟨o, ho, hm⟩ := isPeers_get hp
      split at hs
      · cases hs; exact ⟨hn, Stays.refl _⟩
      · rename_i c hc
        rw [Option.map_eq_some_iff] at hs
        obtain ⟨⟨h', c', b⟩, hr, rfl⟩ := hs
        obtain ⟨t', h1, h2, h3, _⟩ := handleIntent_spec ho hr
        have hst : Stays n.heap h' := by rw [h1]; exact stays_setTok ho h2
        refine ⟨hn.set hst m sid c' ?_ ?_, hst⟩
        · intro q hq
          rcases peers_sub ho hr q hq with hq | ⟨rfl, hpf⟩
          · exact alloc_carry hst (hn.peers m sid c hc) q hq
          · obtain ⟨o', g1, g2, g3⟩ := hst q o ho
            exact ⟨o', g1, g2.trans hm, by rw [partner_congr g3]; exact hpf⟩
        · rw [h3]; exact own_carry hst (hn.own m sid c hc)
    · cases hs; exact ⟨hn, Stays.refl _⟩
  | authz p now dup a =>
    simp only [step] at hs
    split at hs
    · rename_i hp
      obtain ⟨o, ho, hm⟩ := isPeers_get hp
      obtain ⟨t', new, h1, h2, _⟩ := handleAuthz_spec (W := W) (now := now) (dup := dup) (a := a) ho
      simp only [Option.some.injEq] at hs
      rw [h1] at hs
      subst hs
      exact ⟨hn.heap (stays_setTok ho h2) _, stays_setTok ho h2⟩
    · cases hs; exact ⟨hn, Stays.refl _⟩
  | register m sid mep =>
    simp only [step] at hs
    split at hs
    · cases hs; exact ⟨hn, Stays.refl _⟩
    · cases hs
      exact ⟨hn.set (Stays.refl _) m sid _ (by simp) (by simp), Stays.refl _⟩
  | setAuthz m sid =>
    simp only [step] at hs
    split at hs
    · cases hs; exact ⟨hn, Stays.refl _⟩
    · rename_i c hc
      cases hs
      exact ⟨hn.set (Stays.refl _) m sid _ (hn.peers m sid c hc) (hn.own m sid c hc), Stays.refl _⟩
  | upsert m sid t renew =>
    simp only [step] at hs
    split at hs
    · cases hs; exact ⟨hn, Stays.refl _⟩
    · rename_i c hc
      cases hs
      obtain ⟨h1, h2⟩ := upsertOwn_spec n.heap c t renew
      have hst : Stays n.heap (upsertOwn n.heap c t renew).1 := by
        rcases h2 with ⟨h2, _⟩ | ⟨h2, _⟩
        · rw [h2]; exact Stays.refl _
        · rw [h2]; exact stays_append _ _
      refine ⟨hn.set hst m sid _ ?_ ?_, hst⟩
      · rw [h1]; exact alloc_carry hst (hn.peers m sid c hc)
      · rcases h2 with ⟨_, h2, _⟩ | ⟨h2, h3, _⟩
        · rw [h2]; exact own_carry hst (hn.own m sid c hc)
        · intro q hq
          rcases h3 q hq with rfl | hq
          · rw [h2]; simp
          · exact own_carry hst (hn.own m sid c hc) q hq
  | announce m sid =>
    simp only [step] at hs
    split at hs
    · cases hs; exact ⟨hn, Stays.refl _⟩
    · rename_i c hc
      split at hs
      · cases hs; exact ⟨hn, Stays.refl _⟩
      · cases hs
        exact ⟨hn.set (Stays.refl _) m sid _ (hn.peers m sid c hc) (hn.own m sid c hc), Stays.refl _⟩
  | check m sid now =>
    simp only [step] at hs
    split at hs
    · cases hs; exact ⟨hn, Stays.refl _⟩
    · rename_i c hc
      rw [Option.map_eq_some_iff] at hs
      obtain ⟨⟨h', c'⟩, hr, rfl⟩ := hs
      obtain ⟨h1, h2, h3, h4, h5, h6, h7⟩ := checkPeers_spec (fun q hq => by
        obtain ⟨o, ho, _⟩ := hn.peers m sid c hc q hq; exact ⟨o, ho⟩) hr
      have hst := stays_cached h1
      refine ⟨hn.set hst m sid c' ?_ (by rw [h3]; exact own_carry hst (hn.own m sid c hc)), hst⟩
      split at h7
      · subst h7; exact alloc_carry hst (hn.peers m sid _ hc)
      · intro q hq
        rw [h7] at hq
        exact alloc_carry hst (hn.peers m sid _ hc) q (List.mem_of_mem_eraseP hq)

theorem start_alloc (W : World) (rc : Bool) : Alloc W (start rc) :=
  ⟨fun _ _ _ h => by simp [start] at h, fun _ _ _ h => by simp [start] at h⟩

theorem run_induct {W : World} (P : Node → Prop) (hP : ∀ n op n', P n → step W n op = some n' → P n') :
    ∀ (ops : List Op) (n n' : Node), P n → run W n ops = some n' → P n'
  | [], n, n', h, hr => by simp only [run, Option.some.injEq] at hr; subst hr; exact h
  | op :: ops, n, n', h, hr => by
    simp only [run, Option.bind_eq_some_iff] at hr
    obtain ⟨n1, h1, h2⟩ := hr
    exact run_induct P hP ops n1 n' (hP n op n1 h h1) h2

theorem run_induct_ops {W : World} (Q : Op → Prop) (P : Node → Prop)
    (hP : ∀ n op n', Q op → P n → step W n op = some n' → P n') :
    ∀ (ops : List Op) (n n' : Node), (∀ op ∈ ops, Q op) → P n → run W n ops = some n' → P n'
  | [], n, n', _, h, hr => by simp only [run, Option.some.injEq] at hr; subst hr; exact h
  | op :: ops, n, n', hq, h, hr => by
    simp only [run, Option.bind_eq_some_iff] at hr
    obtain ⟨n1, h1, h2⟩ := hr
    exact run_induct_ops Q P hP ops n1 n' (fun o ho => hq o (by simp [ho])) (hP n op n1 (hq op (by simp)) h h1) h2

theorem run_alloc {W : World} {ops : List Op} {rc : Bool} {n : Node} (h : run W (start rc) ops = some n) : Alloc W n :=
  run_induct (Alloc W) (fun _ op _ hn hs => (step_alloc op hn hs).1) ops _ _ (start_alloc W rc) h

theorem run_append {W : World} : ∀ (a b : List Op) (n : Node), run W n (a ++ b) = (run W n a).bind fun n => run W n b
  | [], b, n => rfl
  | op :: a, b, n => by
    simp only [run, List.cons_append]
    cases step W n op with
    | none => rfl
    | some n1 => simp only [Option.bind_some]; exact run_append a b n1

/-! ### histories without single senders or receivers -/

theorem single_off {m : Mode} {mep : BitVec 32} (h : mep &&& 0x11#32 = 0#32) : singleOf m mep = false := by
  unfold singleOf
  have h0 : ∀ i (hi : i < 32), (mep[i] && (0x11#32)[i]) = false := by
    intro i hi
    have := congrArg (fun x : BitVec 32 => x[i]) h
    simpa using this
  have a := h0 0 (by omega)
  have b := h0 4 (by omega)
  cases m
  · rw [beq_eq_false_iff_ne]
    intro e
    have := congrArg (fun x : BitVec 32 => x[4]) e
    simp [modeMask, singleFlag] at this b
    simp_all
  · rw [beq_eq_false_iff_ne]
    intro e
    have := congrArg (fun x : BitVec 32 => x[0]) e
    simp [modeMask, singleFlag] at this a
    simp_all

theorem mep_or {x y : BitVec 32} (m : Mode) (hx : x &&& 0x11#32 = 0#32) (hy : y &&& 0x11#32 = 0#32) :
    (x ||| (y &&& modeMask m)) &&& 0x11#32 = 0#32 := by
  have : ∀ i (hi : i < 32), (x[i] && (0x11#32)[i]) = false ∧ (y[i] && (0x11#32)[i]) = false := by
    intro i hi
    exact ⟨by simpa using congrArg (fun z : BitVec 32 => z[i]) hx, by simpa using congrArg (fun z : BitVec 32 => z[i]) hy⟩
  ext i hi
  have := this i hi
  simp only [BitVec.getElem_and, BitVec.getElem_or, BitVec.getElem_zero]
  cases h1 : x[i] <;> cases h2 : y[i] <;> cases h3 : (0x11#32)[i] <;> simp_all

/-- Two stored intents differ in key or uuid. -/
def Differ (W : World) (h : Heap) (x y : Nat) : Prop :=
  ∀ (a b : Obj), h[x]? = some a → h[y]? = some b → ¬ SameKeyAndUuid W a.tok b.tok

theorem skau_congr {W : World} {a a' b b' : Tok} (h : SameContent a a') (g : SameContent b b') :
    SameKeyAndUuid W a b ↔ SameKeyAndUuid W a' b' := by
  unfold SameKeyAndUuid
  rw [h.2.1, g.2.1, h.2.2.2.2.2.2.2.2.2.1, g.2.2.2.2.2.2.2.2.2.1]

theorem differ_carry {W : World} {h h' : Heap} (hs : Stays h h') {l : List Nat}
    (hl : ∀ q ∈ l, ∃ o : Obj, h[q]? = some o) (hd : l.Pairwise (Differ W h)) : l.Pairwise (Differ W h') := by
  refine List.Pairwise.imp_of_mem ?_ hd
  intro x y hx hy hxy a b ha hb
  obtain ⟨a0, ha0⟩ := hl x hx
  obtain ⟨b0, hb0⟩ := hl y hy
  obtain ⟨a1, ha1, _, ca⟩ := hs x a0 ha0
  obtain ⟨b1, hb1, _, cb⟩ := hs y b0 hb0
  rw [ha] at ha1; cases ha1
  rw [hb] at hb1; cases hb1
  rw [skau_congr ca cb]
  exact hxy a0 b0 ha0 hb0

/-- Somebody said yes to an intent with this key and uuid. -/
def Agreed (W : World) (n : Node) (t : Tok) : Prop := ∃ c ∈ n.calls, c.answer = true ∧ SameKeyAndUuid W c.tok t

structure Inv (W : World) (n : Node) : Prop where
  alloc : Alloc W n
  mep : ∀ m sid c, n.chans m sid = some c → c.mep &&& 0x11#32 = 0#32
  differ : ∀ m sid c, n.chans m sid = some c → c.peers.Pairwise (Differ W n.heap)
  objs : ∀ (p : Nat) (o : Obj), n.heap[p]? = some o → o.mine = false →
    o.tok.uuid.length = 16 ∧ announcedMep W o.tok &&& 0x11#32 = 0#32 ∧ (Authorized o.tok → Agreed W n o.tok)

theorem start_inv (W : World) (rc : Bool) : Inv W (start rc) :=
  ⟨start_alloc W rc, fun _ _ _ h => by simp [start] at h, fun _ _ _ h => by simp [start] at h,
   fun _ _ h => by simp [start] at h⟩

theorem get_setTok_inv {h : Heap} {p q : Nat} {t : Tok} {o : Obj} (hq : (setTok h p t)[q]? = some o) :
    (∃ o0, p = q ∧ h[q]? = some o0 ∧ o = { o0 with tok := t }) ∨ (p ≠ q ∧ h[q]? = some o) := by
  rw [get_setTok] at hq
  split at hq
  · rename_i e
    rw [Option.map_eq_some_iff] at hq
    obtain ⟨o0, h1, h2⟩ := hq
    exact Or.inl ⟨o0, e, h1, h2.symm⟩
  · rename_i e; exact Or.inr ⟨e, hq⟩

theorem skau_symm {W : World} {a b : Tok} (h : SameKeyAndUuid W a b) : SameKeyAndUuid W b a := ⟨h.1.symm, h.2.symm⟩
theorem skau_trans {W : World} {a b c : Tok} (h : SameKeyAndUuid W a b) (g : SameKeyAndUuid W b c) : SameKeyAndUuid W a c :=
  ⟨h.1.trans g.1, h.2.trans g.2⟩

theorem agreed_congr {W : World} {n : Node} {a b : Tok} (h : SameKeyAndUuid W a b) (g : Agreed W n a) : Agreed W n b := by
  obtain ⟨c, h1, h2, h3⟩ := g
  exact ⟨c, h1, h2, skau_trans h3 h⟩

theorem skau_of_content {W : World} {a b : Tok} (h : SameContent a b) : SameKeyAndUuid W a b :=
  ⟨by rw [h.2.2.2.2.2.2.2.2.2.1], h.2.1⟩

theorem mep_congr {W : World} {a b : Tok} (h : SameContent a b) : announcedMep W a = announcedMep W b := by
  unfold announcedMep attrUint; rw [h.2.2.2.2.2.2.2.2.2.2.2.1]

theorem step_inv {W : World} {n n' : Node} (op : Op) (hm : MultiParty W op) (hn : Inv W n) (hs : step W n op = some n') :
    Inv W n' := by
  obtain ⟨ha, hst⟩ := step_alloc op hn.alloc hs
  have hpeers : ∀ m sid c, n.chans m sid = some c → ∀ q ∈ c.peers, ∃ o : Obj, n.heap[q]? = some o := by
    intro m sid c hc q hq
    obtain ⟨o, ho, _⟩ := hn.alloc.peers m sid c hc q hq
    exact ⟨o, ho⟩
  refine ⟨ha, ?_, ?_, ?_⟩
  · -- message exchange patterns
    cases op with
    | receive t =>
      simp only [step, Option.some.injEq] at hs; subst hs; exact hn.mep
    | intent m sid p now cp =>
      simp only [step] at hs
      split at hs
      · rename_i hp
        obtain ⟨o, ho, hmine⟩ := isPeers_get hp
        split at hs
        · cases hs; exact hn.mep
        · rename_i c hc
          rw [Option.map_eq_some_iff] at hs
          obtain ⟨⟨h', c', b⟩, hr, rfl⟩ := hs
          obtain ⟨t', h1, h2, h3, h4, h5, h6, h7⟩ := handleIntent_spec ho hr
          intro m' s' cc hcc
          rcases setChan_get hcc with ⟨_, _, rfl⟩ | ⟨_, hcc⟩
          · rcases h6 with h6 | h6
            · rw [h6]; exact hn.mep m sid c hc
            · rw [h6]; exact mep_or m (hn.mep m sid c hc) (hn.objs p o ho hmine).2.1
          · exact hn.mep m' s' cc hcc
      · cases hs; exact hn.mep
    | authz p now dup a =>
      simp only [step] at hs
      split at hs
      · rename_i hp
        obtain ⟨o, ho, hmine⟩ := isPeers_get hp
        obtain ⟨t', new, h1, h2, _⟩ := handleAuthz_spec (W := W) (now := now) (dup := dup) (a := a) ho
        simp only [Option.some.injEq] at hs
        rw [h1] at hs
        subst hs
        exact hn.mep
      · cases hs; exact hn.mep
    | register m sid mep =>
      simp only [step] at hs
      split at hs
      · cases hs; exact hn.mep
      · cases hs
        intro m' s' cc hcc
        rcases setChan_get hcc with ⟨_, _, rfl⟩ | ⟨_, hcc⟩
        · exact hm
        · exact hn.mep m' s' cc hcc
    | setAuthz m sid =>
      simp only [step] at hs
      split at hs
      · cases hs; exact hn.mep
      · rename_i c hc
        cases hs
        intro m' s' cc hcc
        rcases setChan_get hcc with ⟨_, _, rfl⟩ | ⟨_, hcc⟩
        · exact hn.mep m sid c hc
        · exact hn.mep m' s' cc hcc
    | upsert m sid t renew =>
      simp only [step] at hs
      split at hs
      · cases hs; exact hn.mep
      · rename_i c hc
        cases hs
        intro m' s' cc hcc
        rcases setChan_get hcc with ⟨_, _, rfl⟩ | ⟨_, hcc⟩
        · rw [(upsertOwn_spec n.heap c t renew).1]; exact hn.mep m sid c hc
        · exact hn.mep m' s' cc hcc
    | announce m sid =>
      simp only [step] at hs
      split at hs
      · cases hs; exact hn.mep
      · rename_i c hc
        split at hs
        · cases hs; exact hn.mep
        · cases hs
          intro m' s' cc hcc
          rcases setChan_get hcc with ⟨_, _, rfl⟩ | ⟨_, hcc⟩
          · exact hn.mep m sid c hc
          · exact hn.mep m' s' cc hcc
    | check m sid now =>
      simp only [step] at hs
      split at hs
      · cases hs; exact hn.mep
      · rename_i c hc
        rw [Option.map_eq_some_iff] at hs
        obtain ⟨⟨h', c'⟩, hr, rfl⟩ := hs
        obtain ⟨h1, h2, h3, h4, h5, h6, h7⟩ := checkPeers_spec (hpeers m sid c hc) hr
        intro m' s' cc hcc
        rcases setChan_get hcc with ⟨_, _, rfl⟩ | ⟨_, hcc⟩
        · rw [h4]; exact hn.mep m sid c hc
        · exact hn.mep m' s' cc hcc
  · -- stored intents differ
    have carry : ∀ m sid c, n.chans m sid = some c → c.peers.Pairwise (Differ W n'.heap) :=
      fun m sid c hc => differ_carry hst (hpeers m sid c hc) (hn.differ m sid c hc)
    cases op with
    | receive t =>
      simp only [step, Option.some.injEq] at hs; subst hs; exact carry
    | intent m sid p now cp =>
      simp only [step] at hs
      split at hs
      · rename_i hp
        obtain ⟨o, ho, hmine⟩ := isPeers_get hp
        split at hs
        · cases hs; exact carry
        · rename_i c hc
          rw [Option.map_eq_some_iff] at hs
          obtain ⟨⟨h', c', b⟩, hr, rfl⟩ := hs
          obtain ⟨t', h1, h2, h3, h4, h5, h6, h7⟩ := handleIntent_spec ho hr
          have hmep : c'.mep &&& 0x11#32 = 0#32 := by
            rcases h6 with h6 | h6
            · rw [h6]; exact hn.mep m sid c hc
            · rw [h6]; exact mep_or m (hn.mep m sid c hc) (hn.objs p o ho hmine).2.1
          have hu := (hn.objs p o ho hmine).1
          intro m' s' cc hcc
          rcases setChan_get hcc with ⟨_, _, rfl⟩ | ⟨_, hcc⟩
          · have hst' : Stays n.heap h' := hst
            have hd := hn.differ m sid c hc
            rw [single_off hmep] at h7
            simp only [Bool.false_eq_true, if_false] at h7
            have hdiff : cc.peers.Pairwise (Differ W n.heap) := by
              rcases h7 with ⟨h7, _⟩ | ⟨a, q, b, h7, h8, h9, _⟩ | ⟨a, b, h7, h8, _, h9⟩
              · rw [h7]; exact hd
              · rcases h9 with rfl | ⟨oq, g1, g2, _⟩
                · rw [h8, ← h7]; exact hd
                · have hq : q ∈ c.peers := by rw [h7]; simp
                  obtain ⟨oq', x1, x2, _⟩ := hn.alloc.peers m sid c hc q hq
                  rw [g1] at x1; cases x1
                  have hsk : SameKeyAndUuid W oq.tok o.tok := (exact_zero W (hn.objs q oq g1 x2).1 hu).1 g2
                  rw [h7] at hd
                  rw [h8]
                  rw [List.pairwise_append] at hd ⊢
                  refine ⟨hd.1, ?_, ?_⟩
                  · rw [List.pairwise_cons] at hd ⊢
                    refine ⟨?_, hd.2.1.2⟩
                    intro y hy u v hu hv
                    rw [ho] at hu; cases hu
                    intro hh
                    exact hd.2.1.1 y hy oq v g1 hv (skau_trans hsk hh)
                  · intro x hx y hy u v hu hv
                    rcases List.mem_cons.1 hy with rfl | hy
                    · rw [ho] at hv; cases hv
                      intro hh
                      exact hd.2.2 x hx q (by simp) u oq hu g1 (skau_trans hh (skau_symm hsk))
                    · exact hd.2.2 x hx y (by simp [hy]) u v hu hv
              · have hne : ∀ x ∈ c.peers, ∀ ox : Obj, n.heap[x]? = some ox → ¬ SameKeyAndUuid W ox.tok o.tok := by
                  intro x hx ox hox hh
                  obtain ⟨ox', x1, x2, _⟩ := hn.alloc.peers m sid c hc x hx
                  rw [hox] at x1; cases x1
                  exact (h9 x hx).2 ox hox ((exact_zero W (hn.objs x ox hox x2).1 hu).2 hh)
                rw [h7] at hd hne
                rw [h8]
                rw [List.pairwise_append] at hd ⊢
                refine ⟨hd.1, ?_, ?_⟩
                · rw [List.pairwise_cons]
                  refine ⟨?_, hd.2.1⟩
                  intro y hy u v hu hv
                  rw [ho] at hu; cases hu
                  intro hh
                  exact hne y (by simp [hy]) v hv (skau_symm hh)
                · intro x hx y hy u v hu hv
                  rcases List.mem_cons.1 hy with rfl | hy
                  · rw [ho] at hv; cases hv
                    exact hne x (by simp [hx]) u hu
                  · exact hd.2.2 x hx y hy u v hu hv
            refine differ_carry hst' ?_ hdiff
            intro q hq
            rcases peers_sub ho hr q hq with hq | ⟨rfl, _⟩
            · exact hpeers m sid c hc q hq
            · exact ⟨o, ho⟩
          · exact carry m' s' cc hcc
      · cases hs; exact carry
    | authz p now dup a =>
      simp only [step] at hs
      split at hs
      · rename_i hp
        obtain ⟨o, ho, hmine⟩ := isPeers_get hp
        obtain ⟨t', new, h1, h2, _⟩ := handleAuthz_spec (W := W) (now := now) (dup := dup) (a := a) ho
        simp only [Option.some.injEq] at hs
        rw [h1] at hs
        subst hs
        exact carry
      · cases hs; exact carry
    | register m sid mep =>
      simp only [step] at hs
      split at hs
      · cases hs; exact carry
      · cases hs
        intro m' s' cc hcc
        rcases setChan_get hcc with ⟨_, _, rfl⟩ | ⟨_, hcc⟩
        · exact List.Pairwise.nil
        · exact carry m' s' cc hcc
    | setAuthz m sid =>
      simp only [step] at hs
      split at hs
      · cases hs; exact carry
      · rename_i c hc
        cases hs
        intro m' s' cc hcc
        rcases setChan_get hcc with ⟨_, _, rfl⟩ | ⟨_, hcc⟩
        · exact carry m sid c hc
        · exact carry m' s' cc hcc
    | upsert m sid t renew =>
      simp only [step] at hs
      split at hs
      · cases hs; exact carry
      · rename_i c hc
        cases hs
        intro m' s' cc hcc
        rcases setChan_get hcc with ⟨_, _, rfl⟩ | ⟨_, hcc⟩
        · rw [(upsertOwn_spec n.heap c t renew).1]; exact carry m sid c hc
        · exact carry m' s' cc hcc
    | announce m sid =>
      simp only [step] at hs
      split at hs
      · cases hs; exact carry
      · rename_i c hc
        split at hs
        · cases hs; exact carry
        · cases hs
          intro m' s' cc hcc
          rcases setChan_get hcc with ⟨_, _, rfl⟩ | ⟨_, hcc⟩
          · exact carry m sid c hc
          · exact carry m' s' cc hcc
    | check m sid now =>
      simp only [step] at hs
      split at hs
      · cases hs; exact carry
      · rename_i c hc
        rw [Option.map_eq_some_iff] at hs
        obtain ⟨⟨h', c'⟩, hr, rfl⟩ := hs
        obtain ⟨h1, h2, h3, h4, h5, h6, h7⟩ := checkPeers_spec (hpeers m sid c hc) hr
        intro m' s' cc hcc
        rcases setChan_get hcc with ⟨_, _, rfl⟩ | ⟨_, hcc⟩
        · split at h7
          · subst h7; exact carry m sid _ hc
          · rw [h7]; exact (carry m sid c hc).sublist List.eraseP_sublist
        · exact carry m' s' cc hcc
  · -- objects
    have keepAgreed : ∀ t, (∀ c ∈ n.calls, c ∈ n'.calls) → Agreed W n t → Agreed W n' t := by
      intro t hsub ⟨c, h1, h2⟩; exact ⟨c, hsub c h1, h2⟩
    have own_same : ∀ (h' : Heap) (p : Nat) (o : Obj) (t' : Tok), n.heap[p]? = some o → o.mine = false → SameContent t' o.tok →
        n'.heap = setTok n.heap p t' → (∀ c ∈ n.calls, c ∈ n'.calls) → (Authorized t' → Agreed W n' o.tok) →
        ∀ (q : Nat) (oq : Obj), n'.heap[q]? = some oq → oq.mine = false → oq.tok.uuid.length = 16 ∧ announcedMep W oq.tok &&& 0x11#32 = 0#32 ∧
          (Authorized oq.tok → Agreed W n' oq.tok) := by
      intro _ p o t' ho hmine hc hheap hsub hA q oq hq hqm
      rw [hheap] at hq
      rcases get_setTok_inv hq with ⟨o0, rfl, h1, rfl⟩ | ⟨_, h1⟩
      · rw [ho] at h1; cases h1
        obtain ⟨a, b, c⟩ := hn.objs p o ho hmine
        exact ⟨by rw [hc.2.1]; exact a, by rw [mep_congr hc]; exact b,
          fun hh => agreed_congr (skau_symm (skau_of_content hc)) (hA hh)⟩
      · obtain ⟨a, b, c⟩ := hn.objs q oq h1 hqm
        exact ⟨a, b, fun hh => keepAgreed _ hsub (c hh)⟩
    cases op with
    | receive t =>
      simp only [step, Option.some.injEq] at hs; subst hs
      intro p o ho hmine
      rcases get_append ho with ho | ⟨_, rfl⟩
      · obtain ⟨a, b, c⟩ := hn.objs p o ho hmine
        exact ⟨a, b, fun hh => keepAgreed _ (fun _ h => h) (c hh)⟩
      · refine ⟨hm.1, hm.2, ?_⟩
        intro hh
        simp [Authorized] at hh
    | intent m sid p now cp =>
      simp only [step] at hs
      split at hs
      · rename_i hp
        obtain ⟨o, ho, hmine⟩ := isPeers_get hp
        split at hs
        · cases hs; exact hn.objs
        · rename_i c hc
          rw [Option.map_eq_some_iff] at hs
          obtain ⟨⟨h', c', b⟩, hr, rfl⟩ := hs
          obtain ⟨t', h1, h2, h3, h4, h5, h6, h7⟩ := handleIntent_spec ho hr
          have hmep : c'.mep &&& 0x11#32 = 0#32 := by
            rcases h6 with h6 | h6
            · rw [h6]; exact hn.mep m sid c hc
            · rw [h6]; exact mep_or m (hn.mep m sid c hc) (hn.objs p o ho hmine).2.1
          obtain ⟨hu, _, hA⟩ := hn.objs p o ho hmine
          rw [single_off hmep] at h7
          simp only [Bool.false_eq_true, if_false] at h7
          refine own_same h' p o t' ho hmine h2 h1 (fun _ h => h) ?_
          intro hauth
          rcases h7 with ⟨_, h7⟩ | ⟨a, q, b, h7, _, h9, h10⟩ | ⟨a, b, _, _, h7, _⟩
          · exact keepAgreed _ (fun _ h => h) (hA (h7 hauth))
          · rcases h9 with rfl | ⟨oq, g1, g2, g3⟩
            · exact keepAgreed _ (fun _ h => h) (hA (h10 rfl hauth))
            · have hq : q ∈ c.peers := by rw [h7]; simp
              obtain ⟨oq', x1, x2, _⟩ := hn.alloc.peers m sid c hc q hq
              rw [g1] at x1; cases x1
              obtain ⟨qu, _, qa⟩ := hn.objs q oq g1 x2
              exact keepAgreed _ (fun _ h => h) (agreed_congr ((exact_zero W qu hu).1 g2) (qa (g3 hauth)))
          · exact keepAgreed _ (fun _ h => h) (hA (h7 hauth))
      · cases hs; exact hn.objs
    | authz p now dup a =>
      simp only [step] at hs
      split at hs
      · rename_i hp
        obtain ⟨o, ho, hmine⟩ := isPeers_get hp
        obtain ⟨t', new, h1, h2, h3, h4⟩ := handleAuthz_spec (W := W) (now := now) (dup := dup) (a := a) ho
        simp only [Option.some.injEq] at hs
        rw [h1] at hs
        subst hs
        have hsub : ∀ c ∈ n.calls, c ∈ n.calls ++ new := fun c hc => by simp [hc]
        refine own_same n.heap p o t' ho hmine h2 rfl hsub ?_
        intro hauth
        rcases h4 hauth with h4 | ⟨c, hc, h4⟩
        · exact keepAgreed _ hsub ((hn.objs p o ho hmine).2.2 h4)
        · exact ⟨c, by simp [hc], h4, skau_of_content (h3 c hc).2⟩
      · cases hs; exact hn.objs
    | register m sid mep =>
      simp only [step] at hs
      split at hs <;> cases hs <;> exact hn.objs
    | setAuthz m sid =>
      simp only [step] at hs
      split at hs <;> cases hs <;> exact hn.objs
    | upsert m sid t renew =>
      simp only [step] at hs
      split at hs
      · cases hs; exact hn.objs
      · rename_i c hc
        cases hs
        obtain ⟨_, h2⟩ := upsertOwn_spec n.heap c t renew
        intro p o ho hmine
        have ho' : (upsertOwn n.heap c t renew).1[p]? = some o := ho
        rcases h2 with ⟨h2, _⟩ | ⟨h2, _⟩
        · rw [h2] at ho'
          exact hn.objs p o ho' hmine
        · rw [h2] at ho'
          rcases get_append ho' with ho' | ⟨_, rfl⟩
          · exact hn.objs p o ho' hmine
          · simp at hmine
    | announce m sid =>
      simp only [step] at hs
      split at hs
      · cases hs; exact hn.objs
      · split at hs <;> cases hs <;> exact hn.objs
    | check m sid now =>
      simp only [step] at hs
      split at hs
      · cases hs; exact hn.objs
      · rename_i c hc
        rw [Option.map_eq_some_iff] at hs
        obtain ⟨⟨h', c'⟩, hr, rfl⟩ := hs
        obtain ⟨h1, h2, h3, h4, h5, h6, h7⟩ := checkPeers_spec (hpeers m sid c hc) hr
        intro p o ho hmine
        have ho' : h'[p]? = some o := ho
        have hl : p < n.heap.length := by rw [← h2]; exact (List.getElem?_eq_some_iff.1 ho').1
        obtain ⟨o1, g1, g2, g3⟩ := h1 p n.heap[p] (by rw [List.getElem?_eq_getElem hl])
        rw [ho'] at g1; cases g1
        obtain ⟨a, b, cc⟩ := hn.objs p n.heap[p] (by rw [List.getElem?_eq_getElem hl]) (by rw [← g2]; exact hmine)
        have hcont := g3.keeps.content
        refine ⟨by rw [hcont.2.1]; exact a, by rw [mep_congr hcont]; exact b, ?_⟩
        intro hA
        exact agreed_congr (skau_symm (skau_of_content hcont)) (cc ((isAuthorized_of g3.keeps).1 hA))

theorem run_inv {W : World} {ops : List Op} {rc : Bool} {n : Node} (hm : ∀ op ∈ ops, MultiParty W op)
    (h : run W (start rc) ops = some n) : Inv W n :=
  run_induct_ops (MultiParty W) (Inv W) (fun _ op _ hq hn hs => step_inv op hq hn hs) ops _ _ hm (start_inv W rc) h

/-! ### lookups -/

theorem cached_set {W : World} {h : Heap} {p : Nat} {o : Obj} {t1 : Tok} (ho : h[p]? = some o) (hc : Cached' W.E t1 o.tok) :
    ∀ (q : Nat) (oq : Obj), h[q]? = some oq →
      ∃ o' : Obj, (setTok h p t1)[q]? = some o' ∧ o'.mine = oq.mine ∧ Cached' W.E o'.tok oq.tok := by
  intro q oq hq
  rw [get_setTok]
  by_cases e : p = q
  · subst e
    rw [ho] at hq; cases hq
    exact ⟨⟨t1, o.mine⟩, by simp [ho], rfl, hc⟩
  · exact ⟨oq, by simp [e, hq], rfl, Cached'.refl _ _⟩

/-- The condition of `getSender` on the token. -/
def senderOk (W : World) (now : BitVec 64) (sender : Dhkey) (t : Tok) : Bool :=
  (isValid W.E now t typeIntent).2 && isAuthorized t && (Dhkey.equal sender Dhkey.zero || decide (partnerFp W t = some sender))

def receiverOk (W : World) (now : BitVec 64) (me : Dhkey × Dhkey) (target : Dhkey) (t : Tok) : Bool :=
  (isValid W.E now t typeIntent).2 && isAuthorized t && !Dhkey.equal (toDhkey (fromHash t.issuer)) me.1 &&
  !Dhkey.equal (toDhkey (fromHash t.issuer)) me.2 &&
  (Dhkey.equal Dhkey.zero target || Dhkey.equal (toDhkey (fromHash t.issuer)) target)

def audienceOk (W : World) (now : BitVec 64) (fp audience : Dhkey) (t : Tok) : Bool :=
  (isValid W.E now t typeIntent).2 && isAuthorized t &&
  (Dhkey.equal audience (toDhkey (fromHash t.issuer)) || Dhkey.equal audience (toDhkey (fromHash t.audience)) ||
    Dhkey.equal audience fp)

def onHeap (h : Heap) (f : Tok → Bool) (q : Nat) : Bool := match h[q]? with | some o => f o.tok | none => false

theorem onHeap_set {W : World} {h : Heap} {p : Nat} {o : Obj} {t1 : Tok} (ho : h[p]? = some o) (hc : Cached' W.E t1 o.tok)
    (f : Tok → Bool) (hf : ∀ a b, Cached' W.E a b → f a = f b) : onHeap (setTok h p t1) f = onHeap h f := by
  funext q
  unfold onHeap
  cases hq : h[q]? with
  | none => rw [get_setTok, hq]; simp
  | some oq =>
    obtain ⟨o', h1, _, h3⟩ := cached_set ho hc q oq hq
    rw [h1]
    exact hf _ _ h3

theorem senderOk_cached {W : World} {now : BitVec 64} {s : Dhkey} (a b : Tok) (h : Cached' W.E a b) :
    senderOk W now s a = senderOk W now s b := by
  unfold senderOk; rw [cached_valid h, h.keeps.auth, h.keeps.partner]
theorem receiverOk_cached {W : World} {now : BitVec 64} {me : Dhkey × Dhkey} {s : Dhkey} (a b : Tok) (h : Cached' W.E a b) :
    receiverOk W now me s a = receiverOk W now me s b := by
  unfold receiverOk; rw [cached_valid h, h.keeps.auth, h.keeps.content.2.2.2.1]
theorem audienceOk_cached {W : World} {now : BitVec 64} {f s : Dhkey} (a b : Tok) (h : Cached' W.E a b) :
    audienceOk W now f s a = audienceOk W now f s b := by
  unfold audienceOk; rw [cached_valid h, h.keeps.auth, h.keeps.content.2.2.2.1, h.keeps.content.2.2.2.2.2.1]

theorem getSender_spec (W : World) (now : BitVec 64) (s : Dhkey) : ∀ (l : List Nat) (h : Heap),
    (∀ q ∈ l, ∃ o : Obj, h[q]? = some o ∧ partnerFp W o.tok ≠ none) →
    ∃ h', getSender W now s h l = some (h', l.find? (onHeap h (senderOk W now s)))
  | [], h, _ => ⟨h, rfl⟩
  | p :: ps, h, hl => by
    obtain ⟨o, ho, hp⟩ := hl p (by simp)
    have hc := cached_isValid W.E now o.tok typeIntent
    have hsnd : (isValid W.E now o.tok typeIntent).2 = (isValid W.E now o.tok typeIntent).2 := rfl
    cases hv : isValid W.E now o.tok typeIntent with
    | mk t1 b =>
      rw [hv] at hc
      simp only at hc
      have ih := getSender_spec W now s ps (setTok h p t1) (by
        intro q hq
        obtain ⟨x, hx, hxp⟩ := hl q (by simp [hq])
        obtain ⟨y, hy, _, cy⟩ := cached_set ho hc q x hx
        exact ⟨y, hy, by rw [cy.keeps.partner]; exact hxp⟩)
      rw [onHeap_set ho hc _ senderOk_cached] at ih
      obtain ⟨h', ih⟩ := ih
      have hon : onHeap h (senderOk W now s) p = senderOk W now s o.tok := by simp [onHeap, ho]
      unfold getSender
      simp only [ho, hv]
      rw [List.find?_cons, hon]
      cases b with
      | false =>
        have : senderOk W now s o.tok = false := by simp [senderOk, hv]
        simp only [this]
        exact ⟨h', ih⟩
      | true =>
        have hpe := hc.keeps.partner (W := W)
        cases hfp : partnerFp W t1 with
        | none => exact absurd (hpe ▸ hfp) hp
        | some fp =>
          rw [hfp] at hpe
          have hq : senderOk W now s o.tok = (isAuthorized t1 && (Dhkey.equal s Dhkey.zero || Dhkey.equal fp s)) := by
            have : decide (partnerFp W o.tok = some s) = Dhkey.equal fp s := by
              rw [← hpe]
              have := Dhkey.equal_iff fp s
              cases he : Dhkey.equal fp s
              · simp only [decide_eq_false_iff_not, Option.some.injEq]
                intro hh; rw [he] at this; simp [hh] at this
              · simp only [decide_eq_true_eq, Option.some.injEq]; exact this.1 he
            simp [senderOk, hv, this, hc.keeps.auth]
          rw [hq]
          simp only [hfp]
          cases ha : isAuthorized t1
          · simp only [Bool.false_and]
            split
            · exact ⟨h', ih⟩
            · simp only [Bool.false_eq_true, if_false]; exact ⟨h', ih⟩
          · cases h1 : Dhkey.equal s Dhkey.zero <;> cases h2 : Dhkey.equal fp s <;> simp only [Bool.not_true, Bool.not_false, Bool.and_true, Bool.true_and, Bool.and_false, Bool.false_eq_true, if_false, if_true, Bool.or_self, Bool.or_true, Bool.true_or, Bool.or_false]
            · exact ⟨h', ih⟩
            all_goals exact ⟨_, rfl⟩

theorem getReceiver_spec (W : World) (now : BitVec 64) (me : Dhkey × Dhkey) (s : Dhkey) : ∀ (l : List Nat) (h : Heap),
    (∀ q ∈ l, ∃ o : Obj, h[q]? = some o) →
    ∃ h', getReceiver W now me s h l = some (h', l.find? (onHeap h (receiverOk W now me s)))
  | [], h, _ => ⟨h, rfl⟩
  | p :: ps, h, hl => by
    obtain ⟨o, ho⟩ := hl p (by simp)
    have hc := cached_isValid W.E now o.tok typeIntent
    cases hv : isValid W.E now o.tok typeIntent with
    | mk t1 b =>
      rw [hv] at hc
      simp only at hc
      have ih := getReceiver_spec W now me s ps (setTok h p t1) (by
        intro q hq
        obtain ⟨x, hx⟩ := hl q (by simp [hq])
        obtain ⟨y, hy, _, cy⟩ := cached_set ho hc q x hx
        exact ⟨y, hy⟩)
      rw [onHeap_set ho hc _ receiverOk_cached] at ih
      obtain ⟨h', ih⟩ := ih
      have hon : onHeap h (receiverOk W now me s) p = receiverOk W now me s o.tok := by simp [onHeap, ho]
      unfold getReceiver
      simp only [ho, hv]
      rw [List.find?_cons, hon]
      cases b with
      | false =>
        have : receiverOk W now me s o.tok = false := by simp [receiverOk, hv]
        simp only [this]
        exact ⟨h', ih⟩
      | true =>
        have hi := hc.keeps.content.2.2.2.1
        simp only [receiverOk, hv, ← hc.keeps.auth, ← hi]
        cases h0 : isAuthorized t1 <;> cases h1 : Dhkey.equal (toDhkey (fromHash t1.issuer)) me.1 <;>
          cases h2 : Dhkey.equal (toDhkey (fromHash t1.issuer)) me.2 <;> cases h3 : Dhkey.equal Dhkey.zero s <;>
          cases h4 : Dhkey.equal (toDhkey (fromHash t1.issuer)) s <;>
          first
            | exact ⟨h', ih⟩
            | exact ⟨_, rfl⟩

theorem getAllReceiver_spec (W : World) (now : BitVec 64) (f s : Dhkey) : ∀ (l : List Nat) (h : Heap),
    (∀ q ∈ l, ∃ o : Obj, h[q]? = some o) →
    ∃ h', getAllReceiver W now f s h l = some (h', l.filter (onHeap h (audienceOk W now f s)))
  | [], h, _ => ⟨h, rfl⟩
  | p :: ps, h, hl => by
    obtain ⟨o, ho⟩ := hl p (by simp)
    have hc := cached_isValid W.E now o.tok typeIntent
    cases hv : isValid W.E now o.tok typeIntent with
    | mk t1 b =>
      rw [hv] at hc
      simp only at hc
      have ih := getAllReceiver_spec W now f s ps (setTok h p t1) (by
        intro q hq
        obtain ⟨x, hx⟩ := hl q (by simp [hq])
        obtain ⟨y, hy, _, cy⟩ := cached_set ho hc q x hx
        exact ⟨y, hy⟩)
      rw [onHeap_set ho hc _ audienceOk_cached] at ih
      obtain ⟨h', ih⟩ := ih
      have hon : onHeap h (audienceOk W now f s) p = audienceOk W now f s o.tok := by simp [onHeap, ho]
      unfold getAllReceiver
      simp only [ho, hv]
      rw [List.filter_cons, hon, ih]
      refine ⟨h', ?_⟩
      simp only [audienceOk, hv, ← hc.keeps.auth, ← hc.keeps.content.2.2.2.1, ← hc.keeps.content.2.2.2.2.2.1, Option.map_some]

theorem senderOk_iff (W : World) (now : BitVec 64) (s : Dhkey) (t : Tok) : senderOk W now s t = true ↔ Accepts W now s t := by
  unfold senderOk Accepts ValidNow
  simp only [Bool.and_eq_true, Bool.or_eq_true, decide_eq_true_eq, Dhkey.equal_iff, isAuthorized_iff, and_assoc]

theorem receiverOk_iff (W : World) (now : BitVec 64) (me : Dhkey × Dhkey) (s : Dhkey) (t : Tok) :
    receiverOk W now me s t = true ↔ Reaches W now me s t := by
  have e : ∀ a b : Dhkey, (!Dhkey.equal a b) = true ↔ a ≠ b := by
    intro a b
    have := Dhkey.equal_iff a b
    cases h : Dhkey.equal a b <;> simp_all
  unfold receiverOk Reaches ValidNow
  simp only [Bool.and_eq_true, Bool.or_eq_true, Dhkey.equal_iff, isAuthorized_iff, and_assoc, e]
  constructor
  · rintro ⟨a, b, c, d, x | x⟩
    · exact ⟨a, b, c, d, Or.inl x.symm⟩
    · exact ⟨a, b, c, d, Or.inr x⟩
  · rintro ⟨a, b, c, d, x | x⟩
    · exact ⟨a, b, c, d, Or.inl x.symm⟩
    · exact ⟨a, b, c, d, Or.inr x⟩

theorem audienceOk_iff (W : World) (now : BitVec 64) (f s : Dhkey) (t : Tok) :
    audienceOk W now f s t = true ↔ InAudience W now f s t := by
  unfold audienceOk InAudience ValidNow
  simp only [Bool.and_eq_true, Bool.or_eq_true, Dhkey.equal_iff, isAuthorized_iff, and_assoc, or_assoc]

/-! ### repeated checks -/

def validOn (W : World) (now : BitVec 64) (h : Heap) (q : Nat) : Bool :=
  match h[q]? with | some o => (isValid W.E now o.tok typeIntent).2 | none => false

theorem eraseP_first {α : Type} [DecidableEq α] {l a b : List α} {p : α} {f : α → Bool} (hl : l = a ++ p :: b) (hp : f p = true)
    (ha : ∀ x ∈ a, f x = false) : l.eraseP f = a ++ b := by
  subst hl
  rw [List.eraseP_append_right _ (fun x hx => by simp [ha x hx])]
  rw [List.eraseP_cons, hp]; simp

/-- One check: the first invalid intent is taken out. -/
theorem check_spec {W : World} {m : Mode} {sid : Bytes} {now : BitVec 64} {n n' : Node} {c : Chan} (hn : Inv W n)
    (hc : n.chans m sid = some c) (hs : step W n (.check m sid now) = some n') :
    ∃ c', n'.chans m sid = some c' ∧ (∀ q ∈ c.peers, validOn W now n'.heap q = validOn W now n.heap q) ∧
      ((c'.peers = c.peers ∧ ∀ q ∈ c.peers, validOn W now n.heap q = true) ∨
       (∃ a p b, c.peers = a ++ p :: b ∧ c'.peers = a ++ b ∧ validOn W now n.heap p = false ∧
          ∀ q ∈ a, validOn W now n.heap q = true)) := by
  have hpe : ∀ q ∈ c.peers, ∃ o : Obj, n.heap[q]? = some o := fun q hq => by
    obtain ⟨o, ho, _⟩ := hn.alloc.peers m sid c hc q hq; exact ⟨o, ho⟩
  simp only [step, hc, Option.map_eq_some_iff] at hs
  obtain ⟨⟨h', c'⟩, hr, rfl⟩ := hs
  obtain ⟨h1, h2, h3, h4, h5, h6, h7⟩ := checkPeers_spec hpe hr
  refine ⟨c', setChan_self _ _ _ _, ?_, ?_⟩
  · intro q hq
    obtain ⟨o, ho⟩ := hpe q hq
    obtain ⟨o', ho', _, cc⟩ := h1 q o ho
    show validOn W now h' q = _
    simp only [validOn, ho, ho']
    rw [cached_valid cc]
  · split at h7
    · rename_i hf
      left
      subst h7
      refine ⟨rfl, fun q hq => ?_⟩
      have := List.find?_eq_none.1 hf q hq
      obtain ⟨o, ho⟩ := hpe q hq
      simp only [ho] at this
      simpa [validOn, ho] using this
    · rename_i p hf
      right
      obtain ⟨hp, a, b, e, hall⟩ := List.find?_eq_some_iff_append.1 hf
      have hmem : ∀ q ∈ a, q ∈ c.peers := fun q hq => by rw [e]; simp [hq]
      have hpm : p ∈ c.peers := by rw [e]; simp
      refine ⟨a, p, b, e, ?_, ?_, ?_⟩
      · rw [h7]
        refine eraseP_first e ?_ ?_
        · simp [cmpPtr]
        · intro x hx
          have hd := hn.differ m sid c hc
          rw [e, List.pairwise_append] at hd
          have hxp := hd.2.2 x hx p (by simp)
          obtain ⟨ox, g1, g2, _⟩ := hn.alloc.peers m sid c hc x (hmem x hx)
          obtain ⟨op, k1, k2, _⟩ := hn.alloc.peers m sid c hc p hpm
          have hne : x ≠ p := by
            rintro rfl
            rw [g1] at k1; cases k1
            exact hxp ox ox g1 g1 ⟨rfl, rfl⟩
          obtain ⟨ox', a1, _, a3⟩ := h1 x ox g1
          obtain ⟨op', b1, _, b3⟩ := h1 p op k1
          rw [decide_eq_false_iff_not]
          unfold cmpPtr
          rw [if_neg hne, a1, b1]
          intro h0
          have hsk := (exact_zero W (by rw [a3.keeps.content.2.1]; exact (hn.objs x ox g1 g2).1)
            (by rw [b3.keeps.content.2.1]; exact (hn.objs p op k1 k2).1)).1 h0
          exact hxp ox op g1 k1 ((skau_congr a3.keeps.content b3.keeps.content).1 hsk)
      · obtain ⟨o, ho⟩ := hpe p hpm
        simp only [ho] at hp
        simpa [validOn, ho] using hp
      · intro q hq
        have := hall q hq
        obtain ⟨o, ho⟩ := hpe q (hmem q hq)
        simp only [ho] at this
        simpa [validOn, ho] using this

theorem check_many {W : World} {m : Mode} {sid : Bytes} {now : BitVec 64} : ∀ (k : Nat) (n n' : Node) (c : Chan), Inv W n →
    n.chans m sid = some c → c.peers.length ≤ k → run W n (List.replicate k (.check m sid now)) = some n' →
    ∃ c', n'.chans m sid = some c' ∧ c'.peers = c.peers.filter (validOn W now n.heap)
  | 0, n, n', c, _, hc, hk, hr => by
    simp only [List.replicate_zero, run, Option.some.injEq] at hr
    subst hr
    have : c.peers = [] := List.length_eq_zero_iff.1 (by omega)
    exact ⟨c, hc, by rw [this]; rfl⟩
  | k + 1, n, n', c, hn, hc, hk, hr => by
    simp only [List.replicate_succ, run, Option.bind_eq_some_iff] at hr
    obtain ⟨n1, hs, hr⟩ := hr
    have hn1 := step_inv (.check m sid now) trivial hn hs
    obtain ⟨c1, hc1, hv, hcase⟩ := check_spec hn hc hs
    rcases hcase with ⟨h1, h2⟩ | ⟨a, p, b, h1, h2, h3, h4⟩
    · -- nothing to do any more
      have all : c.peers.filter (validOn W now n.heap) = c.peers := List.filter_eq_self.2 (fun q hq => h2 q hq)
      have stable : ∀ (k : Nat) (n n' : Node) (c : Chan), Inv W n → n.chans m sid = some c →
          (∀ q ∈ c.peers, validOn W now n.heap q = true) → run W n (List.replicate k (.check m sid now)) = some n' →
          ∃ c', n'.chans m sid = some c' ∧ c'.peers = c.peers := by
        intro k
        induction k with
        | zero =>
          intro n n' c _ hc _ hr
          simp only [List.replicate_zero, run, Option.some.injEq] at hr
          subst hr; exact ⟨c, hc, rfl⟩
        | succ k ih =>
          intro n n' c hn hc hall hr
          simp only [List.replicate_succ, run, Option.bind_eq_some_iff] at hr
          obtain ⟨n1, hs, hr⟩ := hr
          obtain ⟨c1, hc1, hv, hcase⟩ := check_spec hn hc hs
          rcases hcase with ⟨h1, _⟩ | ⟨a, p, b, h1, _, h3, _⟩
          · obtain ⟨c', e1, e2⟩ := ih n1 n' c1 (step_inv (.check m sid now) trivial hn hs) hc1
              (by intro q hq; rw [h1] at hq; rw [hv q hq]; exact hall q hq) hr
            exact ⟨c', e1, e2.trans h1⟩
          · have := hall p (by rw [h1]; simp)
            rw [h3] at this; simp at this
      obtain ⟨c', e1, e2⟩ := stable k n1 n' c1 hn1 hc1 (by
        intro q hq; rw [h1] at hq; rw [hv q hq]; exact h2 q hq) hr
      exact ⟨c', e1, by rw [e2, h1, all]⟩
    · obtain ⟨c', e1, e2⟩ := check_many k n1 n' c1 hn1 hc1 (by
        rw [h1] at hk; rw [h2]; simp at hk ⊢; omega) hr
      refine ⟨c', e1, ?_⟩
      rw [e2, h2, h1]
      have hcongr : (a ++ b).filter (validOn W now n1.heap) = (a ++ b).filter (validOn W now n.heap) := by
        apply List.filter_congr
        intro q hq
        exact hv q (by rw [h1]; simp at hq ⊢; rcases hq with hq | hq <;> simp [hq])
      rw [hcongr, List.filter_append, List.filter_append, List.filter_cons, h3]
      simp

/-! ### sessions -/

theorem crypto_fit {W : World} {k : Kind} {a b : Tok} (hx : Exchange W a.publicKey a.issuerSecret b.publicKey b.issuerSecret) :
    cryptoSession W k b a false = (cryptoSession W k a b true).map fun s => ⟨k, .client, s.write, s.read⟩ := by
  unfold cryptoSession
  rw [hx]
  simp [Option.map_map, Function.comp_def]

end Np.Authz

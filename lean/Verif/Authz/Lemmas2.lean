import Verif.Authz.Lemmas
set_option linter.unusedSimpArgs false
namespace Np.Authz
open Np.Token
open _root_.Np.Token.Spec (SameContent)
open _root_.Np.Authz.Spec

/-! ### what happens to objects -/

/-- Objects stay, with their content. -/
def Stays (h h' : Heap) : Prop :=
  ∀ (p : Nat) (o : Obj), h[p]? = some o → ∃ o' : Obj, h'[p]? = some o' ∧ o'.mine = o.mine ∧ SameContent o'.tok o.tok

theorem Stays.refl (h : Heap) : Stays h h := fun _ o ho => ⟨o, ho, rfl, Token.Spec.SameContent.refl _⟩
theorem Stays.trans {a b c : Heap} (x : Stays a b) (y : Stays b c) : Stays a c := by
  intro p o ho
  obtain ⟨o1, h1, m1, s1⟩ := x p o ho
  obtain ⟨o2, h2, m2, s2⟩ := y p o1 h1
  exact ⟨o2, h2, m2.trans m1, s2.trans s1⟩

theorem stays_setTok {h : Heap} {p : Nat} {o : Obj} {t : Tok} (ho : h[p]? = some o) (ht : SameContent t o.tok) :
    Stays h (setTok h p t) := by
  intro q oq hq
  rw [get_setTok]
  by_cases e : p = q
  · subst e
    rw [ho] at hq; cases hq
    exact ⟨⟨t, o.mine⟩, by simp [ho], rfl, ht⟩
  · exact ⟨oq, by simp [e, hq], rfl, Token.Spec.SameContent.refl _⟩

theorem stays_append (h : Heap) (x : Obj) : Stays h (h ++ [x]) := by
  intro q o ho
  refine ⟨o, ?_, rfl, Token.Spec.SameContent.refl _⟩
  rw [List.getElem?_append_left (List.getElem?_eq_some_iff.1 ho).1]; exact ho

theorem get_append {h : Heap} {x o : Obj} {q : Nat} (hq : (h ++ [x])[q]? = some o) :
    h[q]? = some o ∨ (q = h.length ∧ o = x) := by
  by_cases hl : q < h.length
  · rw [List.getElem?_append_left hl] at hq; exact Or.inl hq
  · rw [List.getElem?_append_right (by omega)] at hq
    have : q - h.length = 0 := by
      have := (List.getElem?_eq_some_iff.1 hq).1
      simp at this; omega
    rw [this] at hq
    simp at hq
    exact Or.inr ⟨by omega, hq.symm⟩

/-! ### sessions leave the rest of a channel alone -/

theorem updSession_frame {W : World} {m : Mode} {h : Heap} {c c' : Chan} {p : Nat} {d : Bool}
    (hu : updSession W m h c p d = some c') : c' = { c with sessions := c'.sessions } := by
  unfold updSession at hu
  dsimp only at hu
  repeat' split at hu
  all_goals first
    | (rw [← Option.some.inj hu])
    | (simp at hu)

theorem updSession_none {W : World} {m : Mode} {h : Heap} {c : Chan} {p : Nat} {d : Bool}
    (hu : updSession W m h c p d = none) (ho : ∀ q ∈ c.own, ∃ o, h[q]? = some o) (hp : ∃ o, h[p]? = some o) :
    c.own = [] := by
  unfold updSession at hu
  split at hu
  · assumption
  · rename_i o os e
    obtain ⟨x, hx⟩ := ho o (by rw [e]; simp)
    obtain ⟨y, hy⟩ := hp
    rw [hx, hy] at hu
    dsimp only at hu
    repeat' split at hu
    all_goals simp at hu

/-! ### the replacing intent and its state -/

/-- `q` is in the list and compares equal to `p` the way the channel compares. -/
def Equal (W : World) (single : Bool) (h : Heap) (q p : Nat) : Prop :=
  cmpPtr (if single then cmpTok else cmpTokExact W) h q p = 0

def singleOf (m : Mode) (mep : BitVec 32) : Bool := (mep &&& modeMask m) &&& singleFlag m == singleFlag m

/-- What `addPeer` does. -/
theorem addPeer_spec {W : World} {m : Mode} {h h' : Heap} {c c' : Chan} {p : Nat} {o : Obj} (ho : h[p]? = some o)
    (ha : addPeer W m h c p = some (h', c')) :
    ∃ s t, h' = setTok h p { o.tok with state := s } ∧ t = { o.tok with state := s } ∧
      c'.own = c.own ∧ c'.currentFp = c.currentFp ∧ c'.hasAuthz = c.hasAuthz ∧
      c'.mep = c.mep ||| (announcedMep W o.tok &&& modeMask m) ∧
      ((c'.peers = c.peers ∧ s = o.tok.state) ∨
       (∃ a q b oq, c.peers = a ++ q :: b ∧ c'.peers = a ++ p :: b ∧
          Equal W (singleOf m c'.mep) h q p ∧ h[q]? = some oq ∧ s = oq.tok.state) ∨
       (∃ a q b, c.peers = a ++ q :: b ∧ c'.peers = a ++ p :: b ∧
          Equal W (singleOf m c'.mep) h q p ∧ h[q]? = none ∧ s = o.tok.state) ∨
       (∃ a b, c.peers = a ++ b ∧ c'.peers = a ++ p :: b ∧ s = o.tok.state ∧
          ∀ x ∈ c.peers, ¬ Equal W (singleOf m c'.mep) h x p)) := by
  unfold addPeer at ha
  rw [ho] at ha
  dsimp only at ha
  split at ha
  · simp only [Option.some.injEq, Prod.mk.injEq] at ha
    obtain ⟨rfl, rfl⟩ := ha
    refine ⟨o.tok.state, _, ?_, rfl, rfl, rfl, rfl, rfl, Or.inl ⟨rfl, rfl⟩⟩
    apply List.ext_getElem?
    intro i
    rw [get_setTok]
    split
    · rename_i e; subst e; simp [ho]
    · rfl
  · have key : ∀ (s : BitVec 8) (c2 : Chan), (if isAuthorized { o.tok with state := s } then
        (updSession W m (setTok h p { o.tok with state := s }) c2 p false).map fun c3 => (setTok h p { o.tok with state := s }, c3)
        else some (setTok h p { o.tok with state := s }, c2)) = some (h', c') →
        h' = setTok h p { o.tok with state := s } ∧ c'.own = c2.own ∧ c'.currentFp = c2.currentFp ∧ c'.hasAuthz = c2.hasAuthz ∧
        c'.mep = c2.mep ∧ c'.peers = c2.peers := by
      intro s c2 hh
      split at hh
      · rw [Option.map_eq_some_iff] at hh
        obtain ⟨c3, h3, h4⟩ := hh
        simp only [Prod.mk.injEq] at h4
        have := updSession_frame h3
        obtain ⟨h5, h6⟩ := h4
        subst h6
        rw [this]
        exact ⟨h5.symm, rfl, rfl, rfl, rfl, rfl⟩
      · simp only [Option.some.injEq, Prod.mk.injEq] at hh
        obtain ⟨h5, h6⟩ := hh
        subst h6
        exact ⟨h5.symm, rfl, rfl, rfl, rfl, rfl⟩
    rcases store_spec W h (singleOf m (c.mep ||| (announcedMep W o.tok &&& modeMask m))) c.peers p with
      ⟨a, q, b, h1, h2, h3⟩ | ⟨a, b, h1, h2, h3⟩
    · unfold singleOf at h2
      rw [h2] at ha
      cases hq : h[q]? with
      | some oq =>
        have hi : inherited h o.tok (some q) = oq.tok.state := by simp [inherited, hq]
        simp only [hi] at ha
        obtain ⟨k1, k2, k3, k4, k5, k6⟩ := key _ _ ha
        refine ⟨oq.tok.state, _, k1, rfl, k2, k3, k4, k5, Or.inr (Or.inl ⟨a, q, b, oq, h1, k6, ?_, hq, rfl⟩)⟩
        rw [k5]; exact h3
      | none =>
        have hi : inherited h o.tok (some q) = o.tok.state := by simp [inherited, hq]
        simp only [hi] at ha
        obtain ⟨k1, k2, k3, k4, k5, k6⟩ := key o.tok.state _ ha
        refine ⟨o.tok.state, _, k1, rfl, k2, k3, k4, k5, Or.inr (Or.inr (Or.inl ⟨a, q, b, h1, k6, ?_, hq, rfl⟩))⟩
        rw [k5]; exact h3
    · unfold singleOf at h3
      rw [h3] at ha
      have hi : inherited h o.tok none = o.tok.state := by simp [inherited]
      simp only [hi] at ha
      obtain ⟨k1, k2, k3, k4, k5, k6⟩ := key o.tok.state _ ha
      refine ⟨o.tok.state, _, k1, rfl, k2, k3, k4, k5, Or.inr (Or.inr (Or.inr ⟨a, b, h1, k6, rfl, ?_⟩))⟩
      rw [k5]; exact h2

/-- What `handleIntent` does. `t'` is the token after the step. -/
theorem handleIntent_spec {W : World} {m : Mode} {now : BitVec 64} {cp : Bool} {h h' : Heap} {c c' : Chan} {p : Nat}
    {o : Obj} {b : Bool} (ho : h[p]? = some o) (ha : handleIntent W m now cp h c p = some (h', c', b)) :
    ∃ t', h' = setTok h p t' ∧ SameContent t' o.tok ∧
      c'.own = c.own ∧ c'.currentFp = c.currentFp ∧ c'.hasAuthz = c.hasAuthz ∧
      (c'.mep = c.mep ∨ c'.mep = c.mep ||| (announcedMep W o.tok &&& modeMask m)) ∧
      ((c'.peers = c.peers ∧ (Authorized t' → Authorized o.tok)) ∨
       (∃ a q b, c.peers = a ++ q :: b ∧ c'.peers = a ++ p :: b ∧
          (q = p ∨ ∃ oq, h[q]? = some oq ∧ (if singleOf m c'.mep then cmpTok else cmpTokExact W) oq.tok o.tok = 0 ∧
             (Authorized t' → Authorized oq.tok)) ∧
          (q = p → Authorized t' → Authorized o.tok)) ∨
       (∃ a b, c.peers = a ++ b ∧ c'.peers = a ++ p :: b ∧ (Authorized t' → Authorized o.tok) ∧
          ∀ x ∈ c.peers, x ≠ p ∧
            ∀ ox, h[x]? = some ox → (if singleOf m c'.mep then cmpTok else cmpTokExact W) ox.tok o.tok ≠ 0)) := by
  unfold handleIntent at ha
  rw [ho] at ha
  dsimp only at ha
  have hk := keeps_isValid W.E now o.tok typeIntent
  split at ha
  · rename_i t1 hv
    rw [hv] at hk
    simp only [Option.some.injEq, Prod.mk.injEq] at ha
    obtain ⟨rfl, rfl, rfl⟩ := ha
    exact ⟨t1, rfl, hk.content, rfl, rfl, rfl, Or.inl rfl, Or.inl ⟨rfl, (isAuthorized_of hk).1⟩⟩
  · rename_i t1 hv
    rw [hv] at hk
    split at ha
    · split at ha
      · simp at ha
      · split at ha
        · simp at ha
        · rename_i h2 c2 hadd
          have hget : (setTok h p t1)[p]? = some ⟨t1, o.mine⟩ := by rw [get_setTok]; simp [ho]
          obtain ⟨s, t, e1, e2, e3, e4, e5, e6, e7⟩ := addPeer_spec hget hadd
          have hmep : announcedMep W t1 = announcedMep W o.tok := by
            unfold announcedMep attrUint; rw [hk.content.2.2.2.2.2.2.2.2.2.2.2.1]
          have hset : setTok (setTok h p t1) p { t1 with state := s } = setTok h p { t1 with state := s } := by
            apply List.ext_getElem?
            intro i
            simp only [get_setTok]
            split <;> simp [Function.comp_def]
          split at ha
          · simp only [Option.some.injEq, Prod.mk.injEq] at ha
            obtain ⟨rfl, rfl, _⟩ := ha
            refine ⟨{ t1 with state := s }, e1.trans hset, ?_, e3, e4, e5, Or.inr ?_, ?_⟩
            · exact (show SameContent { t1 with state := s } t1 from ⟨rfl, rfl, rfl, rfl, rfl, rfl, rfl, rfl, rfl, rfl, rfl, rfl, rfl⟩).trans hk.content
            · rw [e6]; simp only [hmep]
            · have cmpc : ∀ (x : Tok), (if singleOf m c2.mep then cmpTok else cmpTokExact W) x t1 =
                  (if singleOf m c2.mep then cmpTok else cmpTokExact W) x o.tok := by
                intro x
                obtain ⟨_, c2', c3', c4', c5', _, _, _, _, c10', _⟩ := hk.content
                simp only at c2' c3' c4' c5' c10'
                split <;> simp only [cmpTok, cmpTokExact, c2', c3', c4', c5', c10']
              rcases e7 with ⟨q1, q2⟩ | ⟨a, q, b, oq, q1, q2, q3, q4, q5⟩ | ⟨a, q, b, q1, q2, q3, q4, q5⟩ | ⟨a, b, q1, q2, q3, q4⟩
              · refine Or.inl ⟨q1, ?_⟩
                intro hA
                simp only at q2
                exact (isAuthorized_of hk).1 (by subst q2; exact hA)
              · refine Or.inr (Or.inl ⟨a, q, b, q1, q2, ?_, ?_⟩)
                · by_cases e : q = p
                  · exact Or.inl e
                  · right
                    rw [get_setTok, if_neg (fun x => e x.symm)] at q4
                    refine ⟨oq, q4, ?_, ?_⟩
                    · unfold Equal cmpPtr at q3
                      rw [if_neg e, get_setTok, get_setTok, if_neg (fun x => e x.symm), if_pos rfl, q4, ho] at q3
                      simp only [Option.map_some] at q3
                      rw [← cmpc]; exact q3
                    · intro hA; subst q5; exact hA
                · rintro rfl hA
                  rw [hget] at q4
                  cases q4
                  simp only at q5
                  exact (isAuthorized_of hk).1 (by subst q5; exact hA)
              · refine Or.inr (Or.inl ⟨a, q, b, q1, q2, ?_, ?_⟩)
                · by_cases e : q = p
                  · exact Or.inl e
                  · exfalso
                    unfold Equal cmpPtr at q3
                    rw [if_neg e, q4] at q3
                    simp at q3
                · rintro rfl hA
                  rw [hget] at q4; simp at q4
              · refine Or.inr (Or.inr ⟨a, b, q1, q2, ?_, ?_⟩)
                · intro hA
                  simp only at q3
                  exact (isAuthorized_of hk).1 (by subst q3; exact hA)
                · intro x hx
                  have hne := q4 x hx
                  refine ⟨?_, ?_⟩
                  · rintro rfl
                    apply hne; unfold Equal cmpPtr; rw [if_pos rfl]
                  · intro ox hox h0
                    apply hne
                    unfold Equal cmpPtr
                    by_cases e : x = p
                    · rw [if_pos e]
                    · rw [if_neg e, get_setTok, get_setTok, if_neg (fun x => e x.symm), if_pos rfl, hox, ho]
                      simp only [Option.map_some]
                      rw [cmpc]; exact h0
          · simp at ha
    · simp only [Option.some.injEq, Prod.mk.injEq] at ha
      obtain ⟨rfl, rfl, rfl⟩ := ha
      exact ⟨t1, rfl, hk.content, rfl, rfl, rfl, Or.inl rfl, Or.inl ⟨rfl, (isAuthorized_of hk).1⟩⟩

/-- Why `handleIntent` fails. -/
theorem handleIntent_none {W : World} {m : Mode} {now : BitVec 64} {cp : Bool} {h : Heap} {c : Chan} {p : Nat}
    {o : Obj} (ho : h[p]? = some o) (hown : ∀ q ∈ c.own, ∃ o, h[q]? = some o) (ha : handleIntent W m now cp h c p = none) :
    (isValid W.E now o.tok typeIntent).2 = true ∧ cp = true ∧ (partnerFp W o.tok = none ∨ c.own = []) := by
  unfold handleIntent at ha
  rw [ho] at ha
  dsimp only at ha
  have hk := keeps_isValid W.E now o.tok typeIntent
  split at ha
  · simp at ha
  · rename_i t1 hv
    rw [hv] at hk
    refine ⟨by rw [hv], ?_⟩
    split at ha
    · rename_i hcp
      refine ⟨hcp, ?_⟩
      have hget : (setTok h p t1)[p]? = some ⟨t1, o.mine⟩ := by rw [get_setTok]; simp [ho]
      split at ha
      · rename_i hp
        left; rw [← Keeps.partner hk]; exact hp
      · right
        split at ha
        · rename_i hadd
          unfold addPeer at hadd
          rw [hget] at hadd
          dsimp only at hadd
          split at hadd
          · simp at hadd
          · split at hadd
            · rw [Option.map_eq_none_iff] at hadd
              refine (updSession_none hadd ?_ ?_ :)
              · intro q hq
                obtain ⟨x, hx⟩ := hown q hq
                rw [get_setTok, get_setTok, hx]
                by_cases e : p = q <;> simp [e]
              · rw [get_setTok, get_setTok, ho]
                simp
            · simp at hadd
        · rename_i h2 c2 hadd
          obtain ⟨s, t, e1, _⟩ := addPeer_spec hget hadd
          subst e1
          rw [get_setTok, if_pos rfl, hget] at ha
          simp at ha
    · simp at ha

/-! ### periodic check -/

theorem firstInvalid_spec (W : World) (now : BitVec 64) : ∀ (l : List Nat) (h : Heap),
    (∀ q ∈ l, ∃ o, h[q]? = some o) →
    (∀ (q : Nat) (o : Obj), h[q]? = some o → ∃ o' : Obj, (firstInvalid W now h l).1[q]? = some o' ∧ o'.mine = o.mine ∧ Cached' W.E o'.tok o.tok) ∧
    (firstInvalid W now h l).1.length = h.length ∧
    (firstInvalid W now h l).2 = l.find? (fun q => match h[q]? with | some o => !(isValid W.E now o.tok typeIntent).2 | none => false)
  | [], h, _ => ⟨fun _ o ho => ⟨o, ho, rfl, Cached'.refl _ _⟩, rfl, rfl⟩
  | p :: ps, h, hl => by
    obtain ⟨o, ho⟩ := hl p (by simp)
    have hc := cached_isValid W.E now o.tok typeIntent
    have hset : ∀ t1, Cached' W.E t1 o.tok → ∀ (q : Nat) (oq : Obj), h[q]? = some oq →
        ∃ o' : Obj, (setTok h p t1)[q]? = some o' ∧ o'.mine = oq.mine ∧ Cached' W.E o'.tok oq.tok := by
      intro t1 h1 q oq hq
      rw [get_setTok]
      by_cases e : p = q
      · subst e
        rw [ho] at hq; cases hq
        exact ⟨⟨t1, o.mine⟩, by simp [ho], rfl, h1⟩
      · exact ⟨oq, by simp [e, hq], rfl, Cached'.refl _ _⟩
    unfold firstInvalid
    simp only [ho]
    cases hv : isValid W.E now o.tok typeIntent with
    | mk t1 b =>
      rw [hv] at hc
      cases b with
      | false =>
        refine ⟨hset t1 hc, length_setTok _ _ _, ?_⟩
        simp [List.find?_cons, ho, hv]
      | true =>
        have ih := firstInvalid_spec W now ps (setTok h p t1) (by
          intro q hq
          obtain ⟨x, hx⟩ := hl q (by simp [hq])
          obtain ⟨y, hy, _⟩ := hset t1 hc q x hx
          exact ⟨y, hy⟩)
        refine ⟨?_, by rw [ih.2.1, length_setTok], ?_⟩
        · intro q oq hq
          obtain ⟨y, hy, my, cy⟩ := hset t1 hc q oq hq
          obtain ⟨z, hz, mz, cz⟩ := ih.1 q y hy
          exact ⟨z, hz, mz.trans my, cz.trans cy⟩
        · rw [ih.2.2, List.find?_cons]
          simp only [ho, hv, Bool.not_true]
          congr 1
          funext q
          cases hq : h[q]? with
          | none =>
            rw [get_setTok, hq]; simp
          | some x =>
            obtain ⟨y, hy, _, cy⟩ := hset t1 hc q x hq
            rw [hy]
            simp only
            rw [cached_valid cy]

theorem checkPeers_spec {W : World} {m : Mode} {now : BitVec 64} {h h' : Heap} {c c' : Chan}
    (hl : ∀ q ∈ c.peers, ∃ o, h[q]? = some o) (hc : checkPeers W m now h c = some (h', c')) :
    (∀ (q : Nat) (o : Obj), h[q]? = some o → ∃ o' : Obj, h'[q]? = some o' ∧ o'.mine = o.mine ∧ Cached' W.E o'.tok o.tok) ∧
    h'.length = h.length ∧ c'.own = c.own ∧ c'.mep = c.mep ∧ c'.currentFp = c.currentFp ∧ c'.hasAuthz = c.hasAuthz ∧
    (match c.peers.find? (fun q => match h[q]? with | some o => !(isValid W.E now o.tok typeIntent).2 | none => false) with
     | none => c' = c
     | some p => c'.peers = c.peers.eraseP fun x => cmpPtr (cmpTokExact W) h' x p = 0) := by
  obtain ⟨f1, f2, f3⟩ := firstInvalid_spec W now c.peers h hl
  unfold checkPeers at hc
  rw [← f3]
  cases hf : firstInvalid W now h c.peers with
  | mk h1 r =>
    rw [hf] at f1 f2 f3 hc
    cases r with
    | none =>
      simp only [Option.some.injEq, Prod.mk.injEq] at hc
      obtain ⟨rfl, rfl⟩ := hc
      exact ⟨f1, f2, rfl, rfl, rfl, rfl, rfl⟩
    | some p =>
      simp only [Option.map_eq_some_iff, Prod.mk.injEq] at hc
      obtain ⟨c1, h3, rfl, rfl⟩ := hc
      have := updSession_frame h3
      rw [this]
      exact ⟨f1, f2, rfl, rfl, rfl, rfl, rfl⟩

theorem checkPeers_none {W : World} {m : Mode} {now : BitVec 64} {h : Heap} {c : Chan}
    (hl : ∀ q ∈ c.peers, ∃ o, h[q]? = some o) (hown : ∀ q ∈ c.own, ∃ o, h[q]? = some o)
    (hc : checkPeers W m now h c = none) : c.own = [] := by
  obtain ⟨f1, f2, f3⟩ := firstInvalid_spec W now c.peers h hl
  unfold checkPeers at hc
  cases hf : firstInvalid W now h c.peers with
  | mk h1 r =>
    rw [hf] at f1 f2 f3 hc
    cases r with
    | none => simp at hc
    | some p =>
      simp only [Option.map_eq_none_iff] at hc
      refine updSession_none hc ?_ ?_
      · intro q hq
        obtain ⟨o, ho⟩ := hown q hq
        obtain ⟨o', ho', _⟩ := f1 q o ho
        exact ⟨o', ho'⟩
      · obtain ⟨o, ho⟩ := hl p (List.mem_of_find?_eq_some f3.symm)
        obtain ⟨o', ho', _⟩ := f1 p o ho
        exact ⟨o', ho'⟩

/-! ### authorization -/

theorem decide3_result (hi ho : Bool) (a : Answers) :
    (decide3 hi ho a).1 = ((if ho then a.chanOut else hi && a.chanIn) || a.global) := by
  cases hi <;> cases ho <;> cases h1 : a.chanIn <;> cases h2 : a.chanOut <;> cases h3 : a.global <;> simp [decide3, *]

theorem decide3_asked (hi ho : Bool) (a : Answers) (h : (decide3 hi ho a).1 = true) :
    ∃ x ∈ (decide3 hi ho a).2, x.2 = true := by
  cases hi <;> cases ho <;> cases h1 : a.chanIn <;> cases h2 : a.chanOut <;> cases h3 : a.global <;> simp_all [decide3]

/-- What `handleAuthz` does. -/
theorem handleAuthz_spec {W : World} {n : Node} {p : Nat} {now : BitVec 64} {dup : Bool} {a : Answers} {o : Obj}
    (ho : n.heap[p]? = some o) :
    ∃ t' new, handleAuthz W n p now dup a = { n with heap := setTok n.heap p t', calls := n.calls ++ new } ∧
      SameContent t' o.tok ∧ (∀ c ∈ new, c.ptr = p ∧ SameContent c.tok o.tok) ∧
      (Authorized t' → Authorized o.tok ∨ ∃ c ∈ new, c.answer = true) := by
  have hid : setTok n.heap p o.tok = n.heap := by
    apply List.ext_getElem?
    intro i
    rw [get_setTok]
    split
    · rename_i e; subst e; simp [ho]
    · rfl
  unfold handleAuthz
  rw [ho]
  dsimp only
  split
  · exact ⟨o.tok, [], by rw [hid]; simp, Token.Spec.SameContent.refl _, by simp, Or.inl⟩
  · have hk := keeps_isValid W.E now o.tok o.tok.type
    cases hv : isValid W.E now o.tok o.tok.type with
    | mk t1 b =>
      rw [hv] at hk
      dsimp only
      split
      · split
        · rename_i hd
          simp only [Bool.and_eq_true] at hd
          obtain ⟨x, hx, hx2⟩ := decide3_asked _ _ _ hd.1
          refine ⟨{ t1 with state := t1.state ||| aaaAuthorized },
            (decide3 (hasCallback n .inbound (fromHash t1.subject)) (hasCallback n .outbound (fromHash t1.subject)) a).2.map
              (fun x : Asked × Bool => (⟨x.1, p, t1, x.2⟩ : Call)), ?_, ?_, ?_, ?_⟩
          · congr 1
            apply List.ext_getElem?
            intro i
            simp only [get_setTok]
            split <;> simp [Function.comp_def]
          · exact (show SameContent { t1 with state := t1.state ||| aaaAuthorized } t1 from ⟨rfl, rfl, rfl, rfl, rfl, rfl, rfl, rfl, rfl, rfl, rfl, rfl, rfl⟩).trans hk.content
          · intro c hc
            rw [List.mem_map] at hc
            obtain ⟨y, _, rfl⟩ := hc
            exact ⟨rfl, hk.content⟩
          · intro _
            exact Or.inr ⟨⟨x.1, p, t1, x.2⟩, List.mem_map.2 ⟨x, hx, rfl⟩, hx2⟩
        · refine ⟨t1, (decide3 (hasCallback n .inbound (fromHash t1.subject)) (hasCallback n .outbound (fromHash t1.subject)) a).2.map
              (fun x : Asked × Bool => (⟨x.1, p, t1, x.2⟩ : Call)), rfl, hk.content, ?_, ?_⟩
          · intro c hc
            rw [List.mem_map] at hc
            obtain ⟨y, _, rfl⟩ := hc
            exact ⟨rfl, hk.content⟩
          · intro hA; exact Or.inl ((isAuthorized_of hk).1 hA)
      · exact ⟨t1, [], by simp, hk.content, by simp, fun hA => Or.inl ((isAuthorized_of hk).1 hA)⟩

end Np.Authz

import Verif.Inbox.Spec
import Verif.Cbor.Lemmas

set_option linter.unusedVariables false
set_option linter.unusedSimpArgs false

namespace Np.Inbox

open Np.Ser (Val Ents Wrap Lib)
open Np.Tree (Name Tree)
open _root_.Np.Inbox.Spec

/-! ## Fields -/

theorem copy_holds {n : Nat} {v : Val} (h : Holds n v) : ∃ b, copy n v = .ok b := by
  cases v <;> simp only [Holds] at h
  · exact ⟨_, by simp only [copy, memory]; rw [if_neg (by omega)]⟩
  · exact ⟨_, by simp only [copy, memory]; rw [if_neg (by omega)]⟩

theorem copyUpTo_holds {n : Nat} {v : Val} (h : Holds 0 v) : ∃ b, copyUpTo n v = .ok b := by
  cases v <;> simp only [Holds] at h
  · exact copy_holds (Nat.min_le_left _ _)
  · exact copy_holds (Nat.min_le_left _ _)

theorem shown_text {W : World} {n : Nat} {v : Val} (h : Text v) : ∃ s, v = .str s ∧ shown W n v = .ok ((cText s).take n) := by
  cases v <;> simp only [Text] at h
  rename_i s
  exact ⟨s, rfl, by simp [shown, printable]⟩

/-- Reading ends without a fault. -/
def Fine {α : Type} (x : Out α) : Prop := ∃ a, x = .ok a

theorem need_fine {α β : Type} {es : Ents} {k : String} {get : Val → Out α} {go : α → Out (Option β)}
    (hg : ∀ v, look (key k) es = some v → ∃ a, get v = .ok a) (h : ∀ a, Fine (go a)) : Fine (need es k get go) := by
  unfold need
  cases hl : look (key k) es with
  | none => exact ⟨none, rfl⟩
  | some v =>
    obtain ⟨a, ha⟩ := hg v hl
    simp only [ha]
    exact h a

theorem may_fine {α β : Type} {es : Ents} {k : String} {get : Val → Out α} {go : Option α → Out (Option β)}
    (hg : ∀ v, look (key k) es = some v → ∃ a, get v = .ok a) (h : ∀ a, Fine (go a)) : Fine (may es k get go) := by
  unfold may
  cases hl : look (key k) es with
  | none => exact h none
  | some v =>
    obtain ⟨a, ha⟩ := hg v hl
    simp only [ha]
    exact h (some a)

theorem fine_ok {α : Type} (a : α) : Fine (.ok a : Out α) := ⟨a, rfl⟩

theorem decode_fine {W : World} {es : Ents} (h : GoodToken es) : Fine (decode W es) := by
  have t : ∀ n v, Text v → ∃ a, shown W n v = .ok a := fun n v hv => by
    obtain ⟨s, _, e⟩ := shown_text (W := W) (n := n) hv
    exact ⟨_, e⟩
  have lt : ∀ n v, LongText v → ∃ a, shown W n v = .ok a := fun n v hv => by
    refine t n v ?_
    cases v <;> simp only [LongText] at hv
    trivial
  unfold decode
  refine need_fine (fun v hv => copy_holds (h.uuid v hv)) fun _ => ?_
  refine need_fine (fun v _ => ⟨v, rfl⟩) fun _ => ?_
  refine may_fine (fun v hv => t _ v (h.realm v hv)) fun _ => ?_
  refine need_fine (fun v hv => t _ v (h.issuer v hv)) fun _ => ?_
  refine need_fine (fun v hv => lt _ v (h.subject v hv)) fun _ => ?_
  refine may_fine (fun v hv => t _ v (h.audience v hv)) fun _ => ?_
  refine need_fine (fun v hv => copy_holds (h.publicKey v hv)) fun _ => ?_
  split
  · exact fine_ok _
  refine need_fine (fun v _ => ⟨v, rfl⟩) fun _ => ?_
  refine may_fine (fun v _ => ⟨v, rfl⟩) fun _ => ?_
  refine may_fine (fun v _ => ⟨v, rfl⟩) fun _ => ?_
  refine need_fine (fun v hv => copy_holds (h.signature v hv)) fun _ => ?_
  refine may_fine (fun v hv => copyUpTo_holds (h.attributes v hv)) fun x => ?_
  cases x with
  | none => exact fine_ok _
  | some _ =>
    refine need_fine (fun v hv => copyUpTo_holds (h.attributesSignature v hv)) fun _ => fine_ok _

theorem need_some {α β : Type} {es : Ents} {k : String} {get : Val → Out α} {go : α → Out (Option β)} {x : β}
    (h : need es k get go = .ok (some x)) : ∃ v a, look (key k) es = some v ∧ get v = .ok a ∧ go a = .ok (some x) := by
  unfold need at h
  cases hl : look (key k) es with
  | none => rw [hl] at h; cases h
  | some v =>
    rw [hl] at h
    simp only [] at h
    cases hg : get v with
    | error f => rw [hg] at h; cases h
    | ok a => rw [hg] at h; exact ⟨v, a, rfl, hg, h⟩

theorem may_some {α β : Type} {es : Ents} {k : String} {get : Val → Out α} {go : Option α → Out (Option β)} {x : β}
    (h : may es k get go = .ok (some x)) : ∃ o, go o = .ok (some x) := by
  unfold may at h
  cases hl : look (key k) es with
  | none => rw [hl] at h; exact ⟨none, h⟩
  | some v =>
    rw [hl] at h
    simp only [] at h
    cases hg : get v with
    | error f => rw [hg] at h; cases h
    | ok a => rw [hg] at h; exact ⟨some a, h⟩

/-- The subject of a token that was read is the text of its entry. -/
theorem decode_subject {W : World} {es : Ents} {f : Fields} (h : decode W es = .ok (some f)) :
    ∃ v, look (key "np.t.s") es = some v ∧ shown W 255 v = .ok f.subject := by
  unfold decode at h
  obtain ⟨_, _, _, _, h⟩ := need_some h
  obtain ⟨_, _, _, _, h⟩ := need_some h
  obtain ⟨_, h⟩ := may_some h
  obtain ⟨_, _, _, _, h⟩ := need_some h
  obtain ⟨v, s, hv, hs, h⟩ := need_some h
  obtain ⟨_, h⟩ := may_some h
  obtain ⟨_, _, _, _, h⟩ := need_some h
  split at h
  · cases h
  obtain ⟨_, _, _, _, h⟩ := need_some h
  obtain ⟨_, h⟩ := may_some h
  obtain ⟨_, h⟩ := may_some h
  obtain ⟨_, _, _, _, h⟩ := need_some h
  obtain ⟨a, h⟩ := may_some h
  refine ⟨v, hv, ?_⟩
  cases a with
  | none =>
    simp only [Except.ok.injEq, Option.some.injEq] at h
    rw [← h]; exact hs
  | some _ =>
    obtain ⟨_, _, _, _, h⟩ := need_some h
    simp only [Except.ok.injEq, Option.some.injEq] at h
    rw [← h]; exact hs

theorem good_subject {W : World} {es : Ents} {f : Fields} (hg : GoodToken es) (h : decode W es = .ok (some f)) :
    ∃ s, look (key "np.t.s") es = some (.str s) ∧ f.subject = (cText s).take 255 ∧ 1 < f.subject.length := by
  obtain ⟨v, hv, hs⟩ := decode_subject h
  have hl := hg.subject v hv
  cases v <;> simp only [LongText] at hl
  rename_i s
  simp only [shown, printable, if_true, Except.ok.injEq] at hs
  refine ⟨s, hv, hs.symm, ?_⟩
  rw [← hs, List.length_take]
  omega

theorem readToken_fine {W : World} {J : Judge} {v : Val} (h : IsTree GoodToken v) : Fine (readToken W J v) := by
  obtain ⟨w, es, rfl, hg⟩ := h
  unfold readToken
  simp only [subtree]
  obtain ⟨o, ho⟩ := decode_fine (W := W) hg
  rw [ho]
  cases o with
  | none => exact fine_ok _
  | some f =>
    simp only []
    split
    · obtain ⟨_, _, _, hl⟩ := good_subject hg ho
      rw [if_pos hl]; exact fine_ok _
    · exact fine_ok _

/-- A token that was read is in the entry and valid. -/
theorem readToken_some {W : World} {J : Judge} {v : Val} {f : Fields} (h : readToken W J v = .ok (some f)) :
    ∃ w es, v = .tree w es ∧ decode W es = .ok (some f) ∧ J.valid f 0 = true := by
  unfold readToken at h
  cases v <;> simp only [subtree, reduceCtorEq] at h
  rename_i w es
  refine ⟨w, es, rfl, ?_⟩
  cases hd : decode W es with
  | error e => rw [hd] at h; cases h
  | ok o =>
    rw [hd] at h
    cases o with
    | none => cases h
    | some g =>
      simp only [] at h
      split at h
      · rename_i hv
        split at h
        · simp only [Except.ok.injEq, Option.some.injEq] at h
          subst h
          exact ⟨rfl, hv⟩
        · cases h
      · cases h

theorem decodeNode_fine {W : World} {es : Ents} (h : GoodNode es) : Fine (decodeNode W es) := by
  have t : ∀ n v, Text v → ∃ a, shown W n v = .ok a := fun n v hv => by
    obtain ⟨s, _, e⟩ := shown_text (W := W) (n := n) hv
    exact ⟨_, e⟩
  unfold decodeNode
  refine need_fine (fun v _ => ⟨v, rfl⟩) fun _ => ?_
  refine need_fine (fun v hv => t _ v (h.host v hv)) fun _ => ?_
  refine need_fine (fun v hv => t _ v (h.port v hv)) fun _ => ?_
  refine may_fine (fun v hv => t _ v (h.hostKey v hv)) fun _ => fine_ok _

theorem value_find {t : Tree Val} {n : Name} {v : Val} (h : value t n = some v) : ∃ e, Tree.find t n = some e ∧ e.val = v := by
  unfold value at h
  cases hf : Tree.find t n with
  | none => rw [hf] at h; cases h
  | some e => rw [hf] at h; exact ⟨e, rfl, by simpa using h⟩

theorem decodeNodes_fine {W : World} {t : Tree Val} : ∀ (is : List Nat),
    (∀ i ∈ is, ∃ v, value t (.int (BitVec.ofNat 16 i)) = some v ∧ IsTree GoodNode v) → Fine (decodeNodes W t is)
  | [], _ => fine_ok _
  | i :: is, h => by
    obtain ⟨v, hv, w, es, rfl, hg⟩ := h i (by simp)
    obtain ⟨e, he, hev⟩ := value_find hv
    obtain ⟨o, ho⟩ := decodeNode_fine (W := W) hg
    obtain ⟨ns, hns⟩ := decodeNodes_fine (W := W) is fun j hj => h j (by simp [hj])
    refine ⟨o.toList ++ ns, ?_⟩
    unfold decodeNodes
    rw [he]
    simp only [hev, subtree, ho, hns]

theorem partnerFp_fine {J : Judge} (h : GoodPartners J) (f : Fields) : Fine (partnerFp J f) := by
  unfold partnerFp
  cases hp : J.partner f with
  | none => exact fine_ok _
  | some b =>
    simp only []
    rw [if_pos (h f b hp)]
    exact fine_ok _

/-! ## Reading does not depend on what is behind -/

theorem readHead_more {b r : List Byte} {m n : Nat} (h : Cbor.readHead b = some (m, n, r)) (x : List Byte) :
    Cbor.readHead (b ++ x) = some (m, n, r ++ x) := by
  unfold Cbor.readHead at h ⊢
  cases b with
  | nil => cases h
  | cons y l =>
    simp only [List.cons_append] at h ⊢
    cases hf : Cbor.following (y.toNat % 32) with
    | none => rw [hf] at h; cases h
    | some k =>
      rw [hf] at h
      cases k with
      | zero =>
        simp only [Option.some.injEq, Prod.mk.injEq] at h ⊢
        exact ⟨h.1, h.2.1, by rw [h.2.2]⟩
      | succ k =>
        simp only [] at h ⊢
        split at h
        · cases h
        rename_i hl
        simp only [Option.some.injEq, Prod.mk.injEq] at h
        rw [if_neg (by simp only [List.length_append]; omega)]
        simp only [Option.some.injEq, Prod.mk.injEq]
        refine ⟨h.1, ?_, ?_⟩
        · rw [← h.2.1, List.take_append_of_le_length (by omega)]
        · rw [← h.2.2, List.drop_append_of_le_length (by omega)]

theorem next_more {lib : Lib} (hl : ReadsOwn lib) (x : List Byte) : ∀ (fuel : Nat) (tags : List Nat) (b : List Byte) (tg : List Nat) (body : Ser.Body) (r : List Byte),
    Ser.next lib fuel tags b = some (tg, body, r) → Ser.next lib fuel tags (b ++ x) = some (tg, body, r ++ x)
  | _, _, [], _, _, _, h => by unfold Ser.next at h; cases h
  | fuel, tags, y :: l, tg, body, r, h => by
    unfold Ser.next at h
    conv => lhs; rw [List.cons_append]; unfold Ser.next
    split at h
    · rename_i hy
      rw [if_pos hy]
      cases hr : lib.read (y :: l) with
      | none => rw [hr] at h; cases h
      | some p =>
        rw [hr] at h
        obtain ⟨v, r'⟩ := p
        have := hl (y :: l) x v r' hr
        rw [List.cons_append] at this
        rw [this]
        simp only [Option.map_some, Option.some.injEq, Prod.mk.injEq] at h ⊢
        exact ⟨h.1, h.2.1, by rw [h.2.2]⟩
    rename_i hy
    rw [if_neg hy]
    cases hh : Cbor.readHead (y :: l) with
    | none => rw [hh] at h; cases h
    | some q =>
      obtain ⟨m, n, r'⟩ := q
      have hm := readHead_more hh x
      rw [List.cons_append] at hm
      rw [hh] at h
      rw [hm]
      simp only [] at h ⊢
      by_cases h0 : m = 0
      · rw [if_pos h0] at h ⊢
        simp only [Option.some.injEq, Prod.mk.injEq] at h ⊢
        exact ⟨h.1, h.2.1, by rw [h.2.2]⟩
      rw [if_neg h0] at h ⊢
      by_cases h1 : m = 1
      · rw [if_pos h1] at h ⊢
        by_cases hn : n < 9223372036854775808
        · rw [if_pos hn] at h ⊢
          simp only [Option.some.injEq, Prod.mk.injEq] at h ⊢
          exact ⟨h.1, h.2.1, by rw [h.2.2]⟩
        · rw [if_neg hn] at h; cases h
      rw [if_neg h1] at h ⊢
      by_cases h2 : m = 2
      · rw [if_pos h2] at h ⊢
        by_cases hn : r'.length < n
        · rw [if_pos hn] at h; cases h
        · rw [if_neg hn] at h
          rw [if_neg (by simp only [List.length_append]; omega)]
          simp only [Option.some.injEq, Prod.mk.injEq] at h ⊢
          refine ⟨h.1, ?_, ?_⟩
          · rw [← h.2.1, List.take_append_of_le_length (by omega)]
          · rw [← h.2.2, List.drop_append_of_le_length (by omega)]
      rw [if_neg h2] at h ⊢
      by_cases h3 : m = 3
      · rw [if_pos h3] at h ⊢
        by_cases hn : r'.length < n
        · rw [if_pos hn] at h; cases h
        · rw [if_neg hn] at h
          rw [if_neg (by simp only [List.length_append]; omega)]
          simp only [Option.some.injEq, Prod.mk.injEq] at h ⊢
          refine ⟨h.1, ?_, ?_⟩
          · rw [← h.2.1, List.take_append_of_le_length (by omega)]
          · rw [← h.2.2, List.drop_append_of_le_length (by omega)]
      rw [if_neg h3] at h ⊢
      by_cases h4 : m = 4
      · rw [if_pos h4] at h ⊢
        simp only [Option.some.injEq, Prod.mk.injEq] at h ⊢
        exact ⟨h.1, h.2.1, by rw [h.2.2]⟩
      rw [if_neg h4] at h ⊢
      by_cases h5 : m = 5
      · rw [if_pos h5] at h ⊢
        by_cases hn : n > Ser.maxItems / 2
        · rw [if_pos hn] at h; cases h
        · rw [if_neg hn] at h ⊢
          simp only [Option.some.injEq, Prod.mk.injEq] at h ⊢
          exact ⟨h.1, h.2.1, by rw [h.2.2]⟩
      rw [if_neg h5] at h ⊢
      cases fuel with
      | zero => cases h
      | succ f => exact next_more hl x f (n :: tags) r' tg body r h

theorem readWords_more {lib : Lib} (hl : ReadsOwn lib) (x : List Byte) : ∀ (k : Nat) (b : List Byte) (ws : List (BitVec 32)) (r : List Byte),
    Ser.readWords lib k b = .ok (ws, r) → Ser.readWords lib k (b ++ x) = .ok (ws, r ++ x)
  | 0, b, ws, r, h => by
    simp only [Ser.readWords, Except.ok.injEq, Prod.mk.injEq] at h ⊢
    exact ⟨h.1, by rw [h.2]⟩
  | k + 1, b, ws, r, h => by
    unfold Ser.readWords Ser.readWord at h ⊢
    cases hn : Ser.next lib 4 [] b with
    | none => rw [hn] at h; cases h
    | some p =>
      obtain ⟨tg, body, r1⟩ := p
      rw [hn] at h
      rw [next_more hl x _ _ _ _ _ _ hn]
      simp only [] at h ⊢
      cases hw : Ser.readWords lib k r1 with
      | error s => rw [hw] at h; cases h
      | ok q =>
        obtain ⟨ws', r2⟩ := q
        rw [hw] at h
        rw [readWords_more hl x k r1 ws' r2 hw]
        simp only [Except.ok.injEq, Prod.mk.injEq] at h ⊢
        exact ⟨h.1, by rw [h.2]⟩

/-- A reader does not depend on what is behind. -/
def More (rd : Tree Val → List Byte → Ser.Read) : Prop :=
  ∀ t b x v t' r, rd t b = .ok (v, t', r) → rd t (b ++ x) = .ok (v, t', r ++ x)

theorem readPairs_more {rd : Tree Val → List Byte → Ser.Read} (hr : More rd) (x : List Byte) : ∀ (k : Nat) (t : Tree Val) (b : List Byte) (t' : Tree Val) (r : List Byte),
    Ser.readPairs rd k t b = .ok (t', r) → Ser.readPairs rd k t (b ++ x) = .ok (t', r ++ x)
  | 0, t, b, t', r, h => by
    simp only [Ser.readPairs, Except.ok.injEq, Prod.mk.injEq] at h ⊢
    exact ⟨h.1, by rw [h.2]⟩
  | k + 1, t, b, t', r, h => by
    unfold Ser.readPairs at h ⊢
    cases h1 : rd Tree.create b with
    | error s => rw [h1] at h; cases h
    | ok p =>
      obtain ⟨kv, t1, b1⟩ := p
      rw [h1] at h
      rw [hr _ _ x _ _ _ h1]
      simp only [] at h ⊢
      cases h2 : rd Tree.create b1 with
      | error s => rw [h2] at h; cases h
      | ok p =>
        obtain ⟨v, t2, b2⟩ := p
        rw [h2] at h
        rw [hr _ _ x _ _ _ h2]
        simp only [] at h ⊢
        cases h3 : Ser.keyOf kv with
        | none =>
          rw [h3] at h
          exact readPairs_more hr x k t b2 t' r h
        | some n =>
          rw [h3] at h
          simp only [] at h ⊢
          cases h4 : Ser.copyVal v with
          | error s => rw [h4] at h; cases h
          | ok v' =>
            rw [h4] at h
            simp only [] at h ⊢
            cases h5 : Ser.insertVal t n v' with
            | error s => rw [h5] at h; cases h
            | ok t5 =>
              rw [h5] at h
              exact readPairs_more hr x k t5 b2 t' r h

theorem readItem_more {lib : Lib} (hl : ReadsOwn lib) {deeper : Option (Tree Val → List Byte → Ser.Read)} (hd : ∀ rd, deeper = some rd → More rd) :
    More (Ser.readItem lib deeper) := by
  intro t b x v t' r h
  unfold Ser.readItem at h ⊢
  cases hn : Ser.next lib 4 [] b with
  | none => rw [hn] at h; cases h
  | some p =>
    obtain ⟨tags, body, r0⟩ := p
    rw [hn] at h
    rw [next_more hl x _ _ _ _ _ _ hn]
    simp only [] at h ⊢
    cases body with
    | map n =>
      simp only [] at h ⊢
      cases deeper with
      | none => cases h
      | some rd =>
        simp only [] at h ⊢
        by_cases ht : tags.head? = some 31435
        · rw [if_pos ht] at h ⊢
          cases hp : Ser.readPairs rd (n / 2) t r0 with
          | error s => rw [hp] at h; cases h
          | ok q =>
            obtain ⟨t1, r1⟩ := q
            rw [hp] at h
            rw [readPairs_more (hd rd rfl) x _ _ _ _ _ hp]
            simp only [Except.ok.injEq, Prod.mk.injEq] at h ⊢
            exact ⟨h.1, h.2.1, by rw [h.2.2]⟩
        · rw [if_neg ht] at h ⊢
          simp only [Except.ok.injEq, Prod.mk.injEq] at h ⊢
          exact ⟨h.1, h.2.1, by rw [h.2.2]⟩
    | array n =>
      simp only [] at h ⊢
      by_cases hz : deeper.isNone
      · rw [if_pos hz] at h; cases h
      rw [if_neg hz] at h ⊢
      by_cases ht : tags.head? = some 31429
      · rw [if_pos ht] at h ⊢
        cases h1 : Ser.next lib 4 [] r0 with
        | none => rw [h1] at h; cases h
        | some q =>
          obtain ⟨_, b1, r1⟩ := q
          rw [h1] at h
          rw [next_more hl x _ _ _ _ _ _ h1]
          simp only [] at h ⊢
          cases h2 : Ser.next lib 4 [] r1 with
          | none => rw [h2] at h; cases h
          | some q =>
            obtain ⟨_, b2, r2⟩ := q
            rw [h2] at h
            rw [next_more hl x _ _ _ _ _ _ h2]
            simp only [Except.ok.injEq, Prod.mk.injEq] at h ⊢
            exact ⟨h.1, h.2.1, by rw [h.2.2]⟩
      rw [if_neg ht] at h ⊢
      by_cases ht : tags.head? = some 31436
      · rw [if_pos ht] at h ⊢
        cases h1 : Ser.readWords lib 8 r0 with
        | error s => rw [h1] at h; cases h
        | ok q =>
          obtain ⟨ws, r1⟩ := q
          rw [h1] at h
          rw [readWords_more hl x _ _ _ _ h1]
          simp only [Except.ok.injEq, Prod.mk.injEq] at h ⊢
          exact ⟨h.1, h.2.1, by rw [h.2.2]⟩
      · rw [if_neg ht] at h; cases h
    | text s =>
      match s, h with
      | [], h =>
        simp only [Except.ok.injEq, Prod.mk.injEq] at h ⊢
        exact ⟨h.1, h.2.1, by rw [h.2.2]⟩
      | [c], h =>
        simp only [Except.ok.injEq, Prod.mk.injEq] at h ⊢
        exact ⟨h.1, h.2.1, by rw [h.2.2]⟩
      | c :: d :: s, h =>
        simp only [Except.ok.injEq, Prod.mk.injEq] at h ⊢
        exact ⟨h.1, h.2.1, by rw [h.2.2]⟩
    | bytes s =>
      simp only [Except.ok.injEq, Prod.mk.injEq] at h ⊢
      exact ⟨h.1, h.2.1, by rw [h.2.2]⟩
    | dbl s =>
      simp only [Except.ok.injEq, Prod.mk.injEq] at h ⊢
      exact ⟨h.1, h.2.1, by rw [h.2.2]⟩
    | int s =>
      simp only [Except.ok.injEq, Prod.mk.injEq] at h ⊢
      exact ⟨h.1, h.2.1, by rw [h.2.2]⟩
    | big s =>
      simp only [Except.ok.injEq, Prod.mk.injEq] at h ⊢
      exact ⟨h.1, h.2.1, by rw [h.2.2]⟩

theorem readVal_more {lib : Lib} (hl : ReadsOwn lib) : ∀ d, More (Ser.readVal lib d)
  | 0 => by
    unfold Ser.readVal
    exact readItem_more hl (by simp)
  | d + 1 => by
    unfold Ser.readVal
    refine readItem_more hl fun rd hrd => ?_
    simp only [Option.some.injEq] at hrd
    subst hrd
    exact readVal_more hl d

theorem read_more {lib : Lib} (hl : ReadsOwn lib) {t t' : Tree Val} {b r : List Byte} (h : Ser.read lib t b = .ok (t', r)) (x : List Byte) :
    Ser.read lib t (b ++ x) = .ok (t', r ++ x) := by
  unfold Ser.read at h ⊢
  cases hv : Ser.readVal lib Ser.maxNesting t b with
  | error s => rw [hv] at h; cases h
  | ok p =>
    obtain ⟨v, t1, r1⟩ := p
    rw [hv] at h
    rw [readVal_more hl _ _ _ x _ _ _ hv]
    simp only [Except.ok.injEq, Prod.mk.injEq] at h ⊢
    exact ⟨h.1, by rw [h.2]⟩

/-- The buffer that is read: the body and up to 124 bytes behind. -/
theorem buffer_eq {bin : List Byte} (h : 124 ≤ bin.length) (behind : List Byte) :
    ((bin ++ behind).drop Chunk.FIXED).take bin.length = bin.drop 124 ++ behind.take 124 := by
  have hf : Chunk.FIXED = 124 := by decide
  have h2 : bin.length - (bin.length - 124) = 124 := by omega
  rw [hf, List.drop_append_of_le_length h, List.take_append, List.length_drop, h2, List.take_of_length_le (by rw [List.length_drop]; omega)]

theorem readBody_of {lib : Lib} {bin behind : List Byte} {t : Tree Val} {r : List Byte} (h : 124 ≤ bin.length)
    (hr : Ser.read lib Tree.create (bin.drop 124 ++ behind.take 124) = .ok (t, r)) : readBody lib bin behind = .ok t := by
  unfold readBody
  rw [buffer_eq h, hr]

/-! ## Packets -/

theorem subject_eq (packet : List Byte) : subjectOf (Chunk.parsePacket packet) = (packet.drop 38).take 32 := by
  simp only [subjectOf, Chunk.parsePacket, Chunk.slice, Chunk.INSTR, Chunk.MAC, Chunk.HEADER]
  rw [List.take_take]
  rfl

theorem parts_eq (packet : List Byte) : (Chunk.parsePacket packet).parts = (Chunk.num16 ((packet.drop 130).take 2)).toNat := by
  simp only [Chunk.Pkt.parts, Chunk.parsePacket, Chunk.slice, Chunk.INSTR, Chunk.MAC, Chunk.HEADER, Chunk.PARTS_OFF]
  rw [List.drop_take, List.take_take, List.drop_drop]
  rfl

/-- The message made of one packet. -/
theorem extract_one {lib : Lib} {W : World} {J : Judge} {subject packet : List Byte} (behind : List Byte) (hs : (packet.drop 38).take 32 = subject) :
    extract lib W J subject packet behind =
      if (Chunk.parsePacket packet).parts = 0 then .error .over
      else if (Chunk.parsePacket packet).parts = 1 then
        withBody (readBody lib ((Chunk.parsePacket packet).nonce ++ (Chunk.parsePacket packet).mac ++ (Chunk.parsePacket packet).header ++ (Chunk.parsePacket packet).body) behind) (inHandshake W J)
      else .error .abort := by
  unfold extract
  simp only []
  rw [subject_eq, if_pos hs]
  generalize Chunk.parsePacket packet = p
  have hadd : Chunk.addChunk Chunk.FUEL Chunk.Msg.new p =
      if p.parts = 0 then none else some (⟨some p :: List.replicate (p.parts - 1) none, 1⟩, true) := rfl
  rw [hadd]
  by_cases h0 : p.parts = 0
  · rw [if_pos h0, if_pos h0]
  rw [if_neg h0, if_neg h0]
  simp only [Chunk.deserializeChunks]
  by_cases h1 : p.parts = 1
  · rw [if_pos h1, h1]
    simp [Chunk.bodies]
  · rw [if_neg h1]
    obtain ⟨k, hk⟩ : ∃ k, p.parts = k + 2 := ⟨p.parts - 2, by omega⟩
    rw [hk]
    have : List.replicate (k + 2 - 1) (none : Option Chunk.Pkt) = none :: List.replicate k none := by
      rw [show k + 2 - 1 = k + 1 from by omega, List.replicate_succ]
    rw [this]
    simp [Chunk.bodies]

end Np.Inbox

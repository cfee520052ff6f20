import Verif.Data.Lemmas2

set_option linter.unusedVariables false
set_option linter.unusedSimpArgs false

/-! # Sequences of calls -/
namespace Np.Data

open Np.Cbor
open _root_.Np.Data.Spec

/-! ## Abstract contents -/

/-- The contents after the calls. -/
def applyOk (es : List (Key × Value)) : List ((Key × Value) × Ret) → List (Key × Value)
  | [] => es
  | (op, r) :: rest => if r = .ok then applyOk (put op.1 op.2 es) rest else applyOk es rest

theorem lookup_put {k k' : Key} {v : Value} {es : List (Key × Value)} : lookup k' (put k v es) = if k = k' then some v else lookup k' es := by
  induction es with
  | nil =>
    unfold put lookup
    by_cases h : k = k'
    · simp [h]
    · simp [h]
  | cons e r ih =>
    unfold put
    by_cases h : e.1 = k
    · rw [if_pos h]
      by_cases h' : k = k'
      · simp [lookup, h']
      · have h2 : e.1 ≠ k' := fun x => h' (h ▸ x)
        simp [lookup, h', h2]
    · rw [if_neg h]
      by_cases h' : e.1 = k'
      · have h2 : k ≠ k' := fun x => h (h' ▸ x.symm)
        simp [lookup, h', h2]
      · have : lookup k' (e :: put k v r) = lookup k' (put k v r) := by simp [lookup, h']
        rw [this, ih]
        have : lookup k' (e :: r) = lookup k' r := by simp [lookup, h']
        rw [this]

theorem lookup_applyOk {k : Key} : ∀ (calls : List ((Key × Value) × Ret)) (es : List (Key × Value)),
    lookup k (applyOk es calls) = (lastOk k calls).or (lookup k es) := by
  intro calls
  induction calls with
  | nil => intro es; simp [applyOk, lastOk]
  | cons c rest ih =>
    intro es
    rcases c with ⟨op, r⟩
    unfold applyOk lastOk
    by_cases hr : r = .ok
    · rw [if_pos hr, ih, lookup_put]
      by_cases hk : op.1 = k
      · rw [if_pos hk, if_pos ⟨hk, hr⟩]
        cases lastOk k rest <;> simp
      · rw [if_neg hk, if_neg (fun h => hk h.1)]
        simp
    · rw [if_neg hr, ih, if_neg (fun h => hr h.2)]
      simp

theorem keys_put {k : Key} {v : Value} {es : List (Key × Value)} :
    (put k v es).map Prod.fst = if k ∈ es.map Prod.fst then es.map Prod.fst else es.map Prod.fst ++ [k] := by
  by_cases hk : k ∈ es.map Prod.fst
  · rw [if_pos hk]
    rcases mem_split hk with ⟨a, w, b, he, hka⟩
    rw [he, put_old hka]
    simp
  · rw [if_neg hk, put_new hk]
    simp

theorem keys_applyOk : ∀ (calls : List ((Key × Value) × Ret)) (es : List (Key × Value)) (seen : List Key), (∀ k, k ∈ seen ↔ k ∈ es.map Prod.fst) →
    (applyOk es calls).map Prod.fst = es.map Prod.fst ++ firstOrder seen calls := by
  intro calls
  induction calls with
  | nil => intro es seen _; simp [applyOk, firstOrder]
  | cons c rest ih =>
    intro es seen hs
    rcases c with ⟨op, r⟩
    unfold applyOk firstOrder
    by_cases hr : r = .ok
    · rw [if_pos hr]
      by_cases hk : op.1 ∈ es.map Prod.fst
      · rw [if_neg (fun h => h.2 ((hs _).2 hk)), ih (put op.1 op.2 es) seen (by intro k; rw [keys_put, if_pos hk]; exact hs k), keys_put, if_pos hk]
      · rw [if_pos ⟨hr, fun h => hk ((hs _).1 h)⟩,
          ih (put op.1 op.2 es) (op.1 :: seen) (by intro k; rw [keys_put, if_neg hk, List.mem_cons, List.mem_append, List.mem_singleton, hs k]; exact Or.comm),
          keys_put, if_neg hk]
        simp
    · rw [if_neg hr, if_neg (fun h => hr h.1)]
      exact ih es seen hs

theorem eq_of_keys {es : List (Key × Value)} (hn : (es.map Prod.fst).Nodup) :
    (es.map Prod.fst).filterMap (fun k => (lookup k es).map fun v => (k, v)) = es := by
  have gen : ∀ (pre post : List (Key × Value)), es = pre ++ post →
      (post.map Prod.fst).filterMap (fun k => (lookup k es).map fun v => (k, v)) = post := by
    intro pre post
    induction post generalizing pre with
    | nil => intro _; rfl
    | cons e r ih =>
      intro he
      rw [List.map_cons, List.filterMap_cons]
      have hk : e.1 ∉ pre.map Prod.fst := by
        intro hm
        rw [he, List.map_append, List.map_cons] at hn
        exact (List.nodup_append.1 hn).2.2 _ hm _ (by simp) rfl
      have hl : lookup e.1 es = some e.2 := by rw [he]; exact lookup_some hk
      rw [hl]
      simp only [Option.map_some]
      rw [ih (pre ++ [e]) (by rw [he]; simp)]
  exact gen [] es rfl

theorem entries_eq {calls : List ((Key × Value) × Ret)} (hn : ((applyOk [] calls).map Prod.fst).Nodup) : entries calls = applyOk [] calls := by
  have h1 := keys_applyOk calls [] [] (by simp)
  rw [List.map_nil, List.nil_append] at h1
  unfold entries
  rw [← h1]
  have h2 : (fun k => (lastOk k calls).map fun v => (k, v)) = fun k => (lookup k (applyOk [] calls)).map fun v => (k, v) := by
    funext k
    rw [lookup_applyOk]
    simp [lookup]
  rw [h2]
  exact eq_of_keys hn

theorem encs_entries (es : List (Key × Value)) : (encs es).length = (es.map fun e => entrySize e.1 e.2).sum := by
  induction es with
  | nil => rfl
  | cons e r ih => rw [encs_cons, List.length_append, enc_length, ih]; simp

theorem usedAfter_eq {calls : List ((Key × Value) × Ret)} (hn : ((applyOk [] calls).map Prod.fst).Nodup) :
    usedAfter calls = 21 + (encs (applyOk [] calls)).length := by
  have h1 := keys_applyOk calls [] [] (by simp)
  rw [List.map_nil, List.nil_append] at h1
  unfold usedAfter
  rw [← h1, encs_entries]
  congr 1
  rw [List.map_map]
  congr 1
  apply List.map_congr_left
  intro e he
  simp only [Function.comp]
  rcases List.append_of_mem he with ⟨a, b, hs⟩
  have hk : e.1 ∉ a.map Prod.fst := by
    intro hm
    rw [hs, List.map_append, List.map_cons] at hn
    exact (List.nodup_append.1 hn).2.2 _ hm _ (by simp) rfl
  have hl : lookup e.1 (applyOk [] calls) = some e.2 := by rw [hs]; exact lookup_some hk
  rw [lookup_applyOk] at hl
  have : lastOk e.1 calls = some e.2 := by simpa [lookup] using hl
  rw [this]

theorem applyOk_append (es : List (Key × Value)) (a b : List ((Key × Value) × Ret)) : applyOk es (a ++ b) = applyOk (applyOk es a) b := by
  induction a generalizing es with
  | nil => rfl
  | cons c r ih =>
    rcases c with ⟨op, r'⟩
    rw [List.cons_append]
    have e : ∀ l, applyOk es ((op, r') :: l) = if r' = .ok then applyOk (put op.1 op.2 es) l else applyOk es l := fun _ => rfl
    rw [e, e]
    split
    · exact ih _
    · exact ih _

theorem put_nodup {k : Key} {v : Value} {es : List (Key × Value)} (h : (es.map Prod.fst).Nodup) : ((put k v es).map Prod.fst).Nodup := by
  rw [keys_put]
  split
  · exact h
  · rename_i hk
    rw [List.nodup_append]
    refine ⟨h, by simp, ?_⟩
    intro x hx y hy e
    rw [List.mem_singleton] at hy
    rw [e, hy] at hx
    exact hk hx

theorem put_size {k : Key} {v : Value} {es : List (Key × Value)} :
    (encs (put k v es)).length + (match lookup k es with | some w => entrySize k w | none => 0) = (encs es).length + entrySize k v := by
  by_cases hk : k ∈ es.map Prod.fst
  · rcases mem_split hk with ⟨a, w, b, he, hka⟩
    rw [he, put_old hka, lookup_some hka]
    simp only [encs_append, encs_cons, List.length_append, enc_length]
    omega
  · rw [put_new hk, lookup_none hk]
    simp only [encs_append, encs_cons, encs_nil, List.length_append, enc_length, List.length_nil]
    omega

theorem lookup_size {k : Key} {es : List (Key × Value)} :
    (match lookup k es with | some w => entrySize k w | none => 0) ≤ (encs es).length := by
  by_cases hk : k ∈ es.map Prod.fst
  · rcases mem_split hk with ⟨a, w, b, he, hka⟩
    rw [he, lookup_some hka]
    simp only [encs_append, encs_cons, List.length_append, enc_length]
    omega
  · rw [lookup_none hk]
    simp

theorem lookup_empty (calls : List ((Key × Value) × Ret)) (k : Key) : lookup k (applyOk [] calls) = lastOk k calls := by
  rw [lookup_applyOk]
  simp [lookup]

theorem Repr.readable {buf : List Byte} {es : List (Key × Value)} (h : Repr buf es) {f : Key → Option Value} (hf : ∀ k, lookup k es = f k) :
    Readable buf f := by
  intro k _
  rw [h.getData k, hf k]
  cases f k <;> rfl

/-! ## Running -/

theorem length_le_of_nodup_subset : ∀ {l m : List Key}, l.Nodup → (∀ x ∈ l, x ∈ m) → l.length ≤ m.length := by
  intro l
  induction l with
  | nil => intro m _ _; simp
  | cons x r ih =>
    intro m hn hs
    rcases List.append_of_mem (hs x (by simp)) with ⟨a, b, e⟩
    have h1 : ∀ y ∈ r, y ∈ a ++ b := by
      intro y hy
      have h2 := hs y (by simp [hy])
      rw [e] at h2
      have h3 : y ≠ x := by
        intro h
        rw [List.nodup_cons] at hn
        exact hn.1 (h ▸ hy)
      simp only [List.mem_append, List.mem_cons] at h2 ⊢
      rcases h2 with h2 | h2 | h2
      · exact Or.inl h2
      · exact absurd h2 h3
      · exact Or.inr h2
    have h4 := ih (List.nodup_cons.1 hn).2 h1
    rw [e]
    simp only [List.length_append, List.length_cons] at h4 ⊢
    omega

theorem few_count {ks : List Key} (hks : ks.length < 65536) {es : List (Key × Value)} (hn : (es.map Prod.fst).Nodup)
    (hs : ∀ k ∈ es.map Prod.fst, k ∈ ks) {k : Key} (hk : k ∈ ks) : k ∈ es.map Prod.fst ∨ es.length + 1 < 65536 := by
  by_cases h : k ∈ es.map Prod.fst
  · exact Or.inl h
  · right
    have := length_le_of_nodup_subset (l := k :: es.map Prod.fst) (m := ks) (List.nodup_cons.2 ⟨h, hn⟩) (by
      intro x hx
      rw [List.mem_cons] at hx
      rcases hx with hx | hx
      · rw [hx]; exact hk
      · exact hs x hx)
    simp only [List.length_cons, List.length_map] at this
    omega

theorem run_spec {ks : List Key} (hks : ks.length < 65536) : ∀ (ops : List (Key × Value)) (buf : List Byte) (es : List (Key × Value)), Repr buf es →
    (∀ k ∈ es.map Prod.fst, k ∈ ks) → (∀ op ∈ ops, Regular op.1 op.2) → (∀ op ∈ ops, op.1 ∈ ks) →
    ∃ rets b, run buf ops = .ok (rets, b) ∧ rets.length = ops.length ∧ b.length = buf.length ∧ Repr b (applyOk es (ops.zip rets)) ∧
      (∀ k ∈ (applyOk es (ops.zip rets)).map Prod.fst, k ∈ ks) := by
  intro ops
  induction ops with
  | nil => intro buf es h hs _ _; exact ⟨[], buf, rfl, rfl, rfl, h, hs⟩
  | cons op r ih =>
    intro buf es h hs hr hk
    rcases op with ⟨k, v⟩
    have hrk := hr (k, v) (by simp)
    have hkk := hk (k, v) (by simp)
    simp only [] at hrk hkk
    have hset := h.set hrk (few_count hks h.nodup hs hkk)
    by_cases hle : entrySize k v ≤ room buf es k
    · rcases hset.1 hle with ⟨b1, h1, h2, h3⟩
      have hs' : ∀ x ∈ (put k v es).map Prod.fst, x ∈ ks := by
        intro x hx
        rw [keys_put] at hx
        split at hx
        · exact hs x hx
        · rw [List.mem_append, List.mem_singleton] at hx
          rcases hx with hx | hx
          · exact hs x hx
          · rw [hx]; exact hkk
      rcases ih b1 (put k v es) h2 hs' (fun x hx => hr x (by simp [hx])) (fun x hx => hk x (by simp [hx])) with ⟨rets, b, e1, e2, e3, e4, e5⟩
      refine ⟨.ok :: rets, b, ?_, by simp [e2], by omega, ?_, ?_⟩
      · unfold run
        rw [h1]
        simp only []
        rw [e1]
      · rw [List.zip_cons_cons]
        unfold applyOk
        rw [if_pos rfl]
        exact e4
      · rw [List.zip_cons_cons]
        unfold applyOk
        rw [if_pos rfl]
        exact e5
    · have h1 := hset.2 (by omega)
      rcases ih buf es h hs (fun x hx => hr x (by simp [hx])) (fun x hx => hk x (by simp [hx])) with ⟨rets, b, e1, e2, e3, e4, e5⟩
      refine ⟨.insufficientMemory :: rets, b, ?_, by simp [e2], by omega, ?_, ?_⟩
      · unfold run
        rw [h1]
        simp only []
        rw [e1]
      · rw [List.zip_cons_cons]
        unfold applyOk
        rw [if_neg (by simp)]
        exact e4
      · rw [List.zip_cons_cons]
        unfold applyOk
        rw [if_neg (by simp)]
        exact e5

theorem zip_fst_snd {α β : Type} (l : List (α × β)) : (l.map Prod.fst).zip (l.map Prod.snd) = l := by
  induction l with
  | nil => rfl
  | cons c r ih => rw [List.map_cons, List.map_cons, List.zip_cons_cons, ih]

theorem Spec.Built.repr {n : Nat} {calls : List ((Key × Value) × Ret)} {buf : List Byte} (h : Built n calls buf) :
    Repr buf (applyOk [] calls) ∧ buf.length = n ∧ (∀ ks : List Key, ks.length < 65536 → (∀ op ∈ calls.map Prod.fst, op.1 ∈ ks) →
      ∀ k ∈ (applyOk [] calls).map Prod.fst, k ∈ ks) := by
  rcases h.made with ⟨mem, b0, h1, h2, h3⟩
  rcases init_repr (buf := mem) (by rw [h1]; exact h.size.1) (by rw [h1]; exact h.size.2) with ⟨b, e1, e2, e3⟩
  rw [h2] at e1
  have eb : b0 = b := (Prod.mk.inj (Except.ok.inj e1)).2
  subst eb
  have hreg : ∀ op ∈ calls.map Prod.fst, Regular op.1 op.2 := by
    intro op hop
    rcases List.mem_map.1 hop with ⟨c, hc, ec⟩
    rw [← ec]
    exact h.regular c hc
  have key : ∀ ks : List Key, ks.length < 65536 → (∀ op ∈ calls.map Prod.fst, op.1 ∈ ks) →
      Repr buf (applyOk [] calls) ∧ buf.length = n ∧ ∀ k ∈ (applyOk [] calls).map Prod.fst, k ∈ ks := by
    intro ks hks hin
    rcases run_spec hks (calls.map Prod.fst) b0 [] e3 (by simp) hreg hin with ⟨rets, c, f1, f2, f3, f4, f5⟩
    rw [h3] at f1
    have f6 := Prod.mk.inj (Except.ok.inj f1)
    rw [← f6.1, zip_fst_snd] at f4 f5
    rw [← f6.2] at f4 f3
    exact ⟨f4, by omega, f5⟩
  rcases h.few with ⟨ks, hks, hin⟩
  exact ⟨(key ks hks hin).1, (key ks hks hin).2.1, fun ks hks hin => (key ks hks hin).2.2⟩

/-! ## Iterating -/

theorem iterateLoop_spec {σ : Type} (cb : σ → Key → Value → σ × Bool) {total : Nat} (ht : total < 65536) :
    ∀ (es : List (Key × Value)) (fuel seen : Nat) (rest : List Byte) (s : σ), (∀ e ∈ es, IsKey e.1 ∧ Sized e.2) → es.length ≤ fuel →
      seen + es.length = total → iterateLoop cb total fuel seen (encs es ++ rest) s = .ok (visit cb s es) := by
  intro es
  induction es with
  | nil =>
    intro fuel seen rest s _ _ hs
    unfold iterateLoop
    rw [if_neg (by simp at hs; omega)]
    rfl
  | cons e r ih =>
    intro fuel seen rest s hok hf hs
    simp only [List.length_cons] at hf hs
    have he := hok e (by simp)
    unfold iterateLoop
    rw [if_pos (by omega), encs_cons, List.append_assoc, readObject_enc he.1 he.2]
    simp only []
    unfold visit
    by_cases hc : (cb s e.1 e.2).2 = true
    · rw [if_pos hc, if_pos hc]
      cases fuel with
      | zero => omega
      | succ f =>
        simp only []
        rw [Nat.mod_eq_of_lt (by omega)]
        exact ih f (seen + 1) rest _ (fun x hx => hok x (by simp [hx])) (by omega) (by omega)
    · rw [if_neg hc, if_neg hc]

theorem Repr.iterate {σ : Type} {buf : List Byte} {es : List (Key × Value)} (h : Repr buf es) (cb : σ → Key → Value → σ × Bool) (s : σ) :
    Np.Data.iterate buf cb s = .ok (visit cb s es) := by
  have hu := h.used_le
  have hge := encs_length_ge es
  unfold Np.Data.iterate
  rw [h.readHeader]
  simp only [ne_eq, not_true_eq_false, if_false]
  rcases h.bytes with ⟨rest, e⟩
  have hd : buf.drop headerSize = encs es ++ rest := by
    rw [e]
    exact List.drop_left' (headerBytes_length _)
  rw [hd]
  exact iterateLoop_spec cb h.count es _ 0 rest s (fun e he => ⟨(h.regular e he).1, h.sized he⟩) (by omega) (by omega)

/-! ## Merging -/

/-- Sets entries one after the other until one does not fit. -/
theorem mergeLoop_spec {ks : List Key} (hks : ks.length < 65536) {total : Nat} (ht : total < 65536) :
    ∀ (es : List (Key × Value)) (fuel read : Nat) (dest : List Byte) (ds : List (Key × Value)), Repr dest ds →
      (∀ k ∈ ds.map Prod.fst, k ∈ ks) → (∀ e ∈ es, Regular e.1 e.2 ∧ Sized e.2 ∧ e.1 ∈ ks) → es.length ≤ fuel → read + es.length = total →
      (∃ d, mergeLoop total fuel read (encs es) dest = .ok (.ok, d) ∧ d.length = dest.length ∧ Repr d (applyOk ds (es.map fun e => (e, .ok)))) ∨
      (∃ d a b, mergeLoop total fuel read (encs es) dest = .ok (.insufficientMemory, d) ∧ es = a ++ b ∧ d.length = dest.length ∧
        Repr d (applyOk ds (a.map fun e => (e, .ok)))) := by
  intro es
  induction es with
  | nil =>
    intro fuel read dest ds h _ _ _ hr
    left
    refine ⟨dest, ?_, rfl, h⟩
    unfold mergeLoop
    rw [if_neg (by simp at hr; omega)]
  | cons e r ih =>
    intro fuel read dest ds h hs hok hf hr
    simp only [List.length_cons] at hf hr
    have he := hok e (by simp)
    have hset := h.set he.1 (few_count hks h.nodup hs he.2.2)
    unfold mergeLoop
    rw [if_pos (by omega), encs_cons, readObject_enc he.1.1 he.2.1]
    simp only []
    by_cases hle : entrySize e.1 e.2 ≤ room dest ds e.1
    · rcases hset.1 hle with ⟨b1, h1, h2, h3⟩
      rw [h1]
      simp only [ne_eq, not_true_eq_false, if_false]
      cases fuel with
      | zero => omega
      | succ f =>
        simp only []
        rw [Nat.mod_eq_of_lt (by omega)]
        have hs' : ∀ x ∈ (put e.1 e.2 ds).map Prod.fst, x ∈ ks := by
          intro x hx
          rw [keys_put] at hx
          split at hx
          · exact hs x hx
          · rw [List.mem_append, List.mem_singleton] at hx
            rcases hx with hx | hx
            · exact hs x hx
            · rw [hx]; exact he.2.2
        rcases ih f (read + 1) b1 (put e.1 e.2 ds) h2 hs' (fun x hx => hok x (by simp [hx])) (by omega) (by omega) with ⟨d, g1, g2, g3⟩ | ⟨d, a, b, g1, g2, g3, g4⟩
        · left
          refine ⟨d, g1, by omega, ?_⟩
          rw [List.map_cons]
          unfold applyOk
          rw [if_pos rfl]
          exact g3
        · right
          refine ⟨d, e :: a, b, g1, by rw [g2]; rfl, by omega, ?_⟩
          rw [List.map_cons]
          unfold applyOk
          rw [if_pos rfl]
          exact g4
    · rw [hset.2 (by omega)]
      right
      exact ⟨dest, [], e :: r, rfl, rfl, rfl, h⟩

theorem lastOk_entries {k : Key} : ∀ {es : List (Key × Value)}, (es.map Prod.fst).Nodup → lastOk k (es.map fun e => (e, Ret.ok)) = lookup k es := by
  intro es
  induction es with
  | nil => intro _; rfl
  | cons e r ih =>
    intro hn
    rw [List.map_cons, List.nodup_cons] at hn
    rw [List.map_cons]
    unfold lastOk
    rw [ih hn.2]
    by_cases hk : e.1 = k
    · rw [if_pos ⟨hk, rfl⟩, lookup_none (by rw [← hk]; exact hn.1)]
      simp [lookup, hk]
    · rw [if_neg (fun h => hk h.1)]
      simp [lookup, hk]

theorem Repr.merge {ks : List Key} (hks : ks.length < 65536) {dest src : List Byte} {ds es : List (Key × Value)} (hd : Repr dest ds) (hsrc : Repr src es)
    (h1 : ∀ k ∈ ds.map Prod.fst, k ∈ ks) (h2 : ∀ k ∈ es.map Prod.fst, k ∈ ks) :
    (∃ d, Np.Data.merge dest src = .ok (.ok, d) ∧ d.length = dest.length ∧ Repr d (applyOk ds (es.map fun e => (e, .ok)))) ∨
    (∃ d a b, Np.Data.merge dest src = .ok (.insufficientMemory, d) ∧ es = a ++ b ∧ d.length = dest.length ∧
      Repr d (applyOk ds (a.map fun e => (e, .ok)))) := by
  have hu := hsrc.used_le
  have hge := encs_length_ge es
  unfold Np.Data.merge
  rw [hsrc.readHeader]
  simp only [ne_eq, not_true_eq_false, if_false]
  by_cases h0 : es.length = 0
  · rw [if_pos h0]
    have : es = [] := List.length_eq_zero_iff.1 h0
    subst this
    left
    exact ⟨dest, rfl, rfl, hd⟩
  · rw [if_neg h0, if_neg (by simp only [headerSize]; omega)]
    have hreg := hsrc.region
    have : (src.take (21 + (encs es).length)).drop headerSize = encs es := hreg
    rw [this]
    exact mergeLoop_spec hks hsrc.count es _ 0 dest ds hd h1 (fun e he => ⟨hsrc.regular e he, hsrc.sized he, h2 _ (List.mem_map.2 ⟨e, he, rfl⟩)⟩) (by omega) (by omega)

/-! ## Failing calls -/

/-- A new entry that is not written completely leaves the others. -/
theorem Repr.fail_new {buf : List Byte} {es : List (Key × Value)} (h : Repr buf es) {k : Key} (hk : k ∉ es.map Prod.fst) {v : Value} {r : Ret}
    {b : List Byte} (hset : setData buf k v = .ok (r, b)) (hr : r ≠ .ok) : Repr b es := by
  have hu := h.used_le
  rw [h.set_new hk v] at hset
  cases hs : objectSize k v with
  | error f => rw [hs] at hset; simp at hset
  | ok new =>
    rw [hs] at hset
    simp only [] at hset
    split at hset
    · rw [← (Prod.mk.inj (Except.ok.inj hset)).2]; exact h
    · rename_i hle
      unfold store at hset
      have he := emit_length new (pieces k v)
      rcases h.bytes with ⟨rest, e⟩
      have hbl := congrArg List.length e
      simp only [List.length_append, headerBytes_length] at hbl
      have hw : writeAt buf (21 + (encs es).length) (emit new (pieces k v)).1 =
          .ok (headerBytes { total := buf.length, used := 21 + (encs es).length, count := es.length } ++
            (encs es ++ ((emit new (pieces k v)).1 ++ rest.drop (emit new (pieces k v)).1.length))) := by
        have e1 : headerBytes { total := buf.length, used := 21 + (encs es).length, count := es.length } ++ (encs es ++ rest) =
            (headerBytes { total := buf.length, used := 21 + (encs es).length, count := es.length } ++ encs es) ++ rest := by simp
        have e2 : 21 + (encs es).length = (headerBytes { total := buf.length, used := 21 + (encs es).length, count := es.length } ++ encs es).length := by
          rw [List.length_append, headerBytes_length]
        have := writeAt_prefix (p := headerBytes { total := buf.length, used := 21 + (encs es).length, count := es.length } ++ encs es) (r := rest)
          (b := (emit new (pieces k v)).1) (by omega)
        rw [← e1, ← e, ← e2] at this
        rw [this]
        simp
      simp only [] at hset
      rw [hw] at hset
      simp only [] at hset
      split at hset
      · split at hset
        · simp at hset
        · rw [writeHeader_ok (by simp only []; omega)] at hset
          exact absurd (Prod.mk.inj (Except.ok.inj hset)).1.symm hr
      · rw [← (Prod.mk.inj (Except.ok.inj hset)).2]
        have hlen : (headerBytes { total := buf.length, used := 21 + (encs es).length, count := es.length } ++
            (encs es ++ ((emit new (pieces k v)).1 ++ rest.drop (emit new (pieces k v)).1.length))).length = buf.length := by
          simp only [List.length_append, headerBytes_length, List.length_drop]
          omega
        refine ⟨h.nodup, h.regular, h.count, by rw [hlen]; exact h.len, (emit new (pieces k v)).1 ++ rest.drop (emit new (pieces k v)).1.length, ?_⟩
        rw [hlen]

/-- The only ways in which setting an entry fails outright. -/
theorem Repr.set_safe {buf : List Byte} {es : List (Key × Value)} (h : Repr buf es) {k : Key} {v : Value}
    (hv : ∀ i, v = .int i → i.toInt ≠ -2147483648) :
    setData buf k v = .error .abort ∨ ∃ r b, setData buf k v = .ok (r, b) ∧ b.length = buf.length := by
  have hu := h.used_le
  have hos : ∃ new, objectSize k v = .ok new := by
    unfold objectSize
    cases v with
    | bin b => exact ⟨_, rfl⟩
    | str b => exact ⟨_, rfl⟩
    | int i => simp only []; rw [if_neg (hv i rfl)]; exact ⟨_, rfl⟩
    | uint u => exact ⟨_, rfl⟩
  rcases hos with ⟨new, hos⟩
  by_cases hk : k ∈ es.map Prod.fst
  · rcases mem_split hk with ⟨a, w, b, he, hka⟩
    subst he
    rw [h.set_old v, hos]
    simp only []
    split
    · exact Or.inr ⟨_, _, rfl, rfl⟩
    · rename_i hle
      rcases h.moved (new := new) (by omega) with ⟨c, q, h1, h2, h3, m, t, h4, h5⟩
      rw [h1]
      simp only []
      have hcl := congrArg List.length h3
      rw [h4] at hcl
      simp only [List.length_append, headerBytes_length] at hcl
      rcases store_within (buf := c) (k := k) (v := v) (start := 21 + (encs a).length) (new := new)
        (h' := { total := buf.length, used := 21 + (encs (a ++ (k, w) :: b)).length + new - (enc k w).length, count := (a ++ (k, w) :: b).length })
        (by omega) (by omega) h2.symm with h' | ⟨r, d, h', h''⟩
      · exact Or.inl h'
      · exact Or.inr ⟨r, d, h', by omega⟩
  · rw [h.set_new hk v, hos]
    simp only []
    split
    · exact Or.inr ⟨_, _, rfl, rfl⟩
    · exact store_within (by omega) (by omega) rfl

/-- An entry whose size is computed too small is never stored. -/
theorem Repr.set_small {buf : List Byte} {es : List (Key × Value)} (h : Repr buf es) {k : Key} {v : Value} {new : Nat} (hs : objectSize k v = .ok new)
    (hsmall : new < entrySize k v) {r : Ret} {b : List Byte} (hset : setData buf k v = .ok (r, b)) : r ≠ .ok := by
  have hemit : (emit new (pieces k v)).2 = false := by
    cases he : (emit new (pieces k v)).2 with
    | false => rfl
    | true =>
      have := emit_true he
      have h2 : (pieces k v).flatten.length = entrySize k v := enc_length k v
      omega
  have hstore : ∀ (c : List Byte) (start : Nat) (h' : Header) (r : Ret) (b : List Byte), store c k v start new h' = .ok (r, b) → r ≠ .ok := by
    intro c start h' r b hst
    unfold store at hst
    simp only [] at hst
    cases hw : writeAt c start (emit new (pieces k v)).1 with
    | error f => rw [hw] at hst; simp at hst
    | ok d =>
      rw [hw] at hst
      simp only [hemit] at hst
      have := (Prod.mk.inj (Except.ok.inj hst)).1
      rw [← this]
      simp
  by_cases hk : k ∈ es.map Prod.fst
  · rcases mem_split hk with ⟨a, w, b', he, hka⟩
    subst he
    rw [h.set_old v, hs] at hset
    simp only [] at hset
    split at hset
    · rw [← (Prod.mk.inj (Except.ok.inj hset)).1]; simp
    · cases hm : moveTail buf (21 + (encs (a ++ (k, w) :: b')).length) (21 + (encs a).length + (enc k w).length) new (enc k w).length with
      | error f => rw [hm] at hset; simp at hset
      | ok c =>
        rw [hm] at hset
        exact hstore _ _ _ _ _ hset
  · rw [h.set_new hk v, hs] at hset
    simp only [] at hset
    split at hset
    · rw [← (Prod.mk.inj (Except.ok.inj hset)).1]; simp
    · exact hstore _ _ _ _ _ hset

end Np.Data

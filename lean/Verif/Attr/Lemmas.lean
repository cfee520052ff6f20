import Verif.Attr.Spec
import Verif.Issue.Lemmas
/-! # Lemmas about the attributes a user sets -/
namespace Np.Attr
open _root_.Np.Cbor _root_.Np.Data _root_.Np.Data.Spec _root_.Np.Attr.Spec

/-- The calls that go to one cache. -/
def callsOf (c : Scope) : List (Call × Ret) → List ((Key × Value) × Ret)
  | [] => []
  | (x, r) :: rest => if x.1 = some c then ((x.2.1.take 254, .bin x.2.2), r) :: callsOf c rest else callsOf c rest

theorem lastOk_callsOf (c : Scope) (k : Key) (h : List (Call × Ret)) : lastOk k (callsOf c h) = lastSet c k h := by
  induction h with
  | nil => rfl
  | cons x h ih =>
    rcases x with ⟨x, r⟩
    simp only [callsOf, lastSet]
    split
    · next e => simp [lastOk, ih, e]
    · next e => simp [ih, e]

theorem set_ok (n : Nat) (calls : List ((Key × Value) × Ret)) (buf : List Byte) (h : Built n calls buf) (hn : calls.length < 65535) (k : Key) (v : Value)
    (hr : Regular k v) : ∃ r b, setData buf k v = .ok (r, b) ∧ Built n (calls ++ [((k, v), r)]) b := by
  have hf := C08_fits_partial n calls buf h k v hr ⟨k :: calls.map fun c => c.1.1, by rw [List.length_cons, List.length_map]; omega, fun op ho => by
    rcases List.mem_cons.1 ho with rfl | ho
    · exact List.mem_cons_self
    · obtain ⟨c, hc, rfl⟩ := List.mem_map.1 ho
      exact List.mem_cons_of_mem _ (List.mem_map.2 ⟨c, hc, rfl⟩)⟩
  have : ∃ r b, setData buf k v = .ok (r, b) := by
    rcases Nat.lt_or_ge n (usedAfter (calls ++ [((k, v), Ret.ok)])) with h1 | h1
    · exact ⟨_, _, hf.2 h1⟩
    · obtain ⟨b, hb⟩ := hf.1 h1; exact ⟨_, b, hb⟩
  obtain ⟨r, b, e⟩ := this
  exact ⟨r, b, e, Issue.built_snoc n calls buf h hn k v hr r b e⟩

theorem history_built (n : Nat) : ∀ (ops : List Call) (s : State) (pre : Scope → List ((Key × Value) × Ret)), (∀ c, Built n (pre c) (s c)) →
    (∀ c, (pre c).length + ops.length < 65535) → (∀ x ∈ ops, Regular (x.2.1.take 254) (.bin x.2.2)) →
    ∃ rets s', history s ops = .ok (rets, s') ∧ rets.length = ops.length ∧ ∀ c, Built n (pre c ++ callsOf c (ops.zip rets)) (s' c) := by
  intro ops
  induction ops with
  | nil => intro s pre h _ _; exact ⟨[], s, rfl, rfl, fun c => by simpa [callsOf] using h c⟩
  | cons x ops ih =>
    intro s pre h hn hr
    rcases x with ⟨inh, k, v⟩
    cases inh with
    | none =>
      obtain ⟨rets, s', e, hl, hb⟩ := ih s pre h (fun c => by have := hn c; simp only [List.length_cons] at this; omega) (fun x hx => hr x (List.mem_cons_of_mem _ hx))
      refine ⟨.invalidArguments :: rets, s', ?_, by simp [hl], fun c => ?_⟩
      · simp only [history, setCache, e]
      · simpa [callsOf] using hb c
    | some c0 =>
      obtain ⟨r, b, e1, hb1⟩ := set_ok n _ _ (h c0) (by have := hn c0; simp only [List.length_cons] at this; omega) (k.take 254) (.bin v) (hr _ List.mem_cons_self)
      obtain ⟨rets, s', e, hl, hb⟩ := ih (fun d => if d = c0 then b else s d) (fun d => if d = c0 then pre c0 ++ [((k.take 254, .bin v), r)] else pre d)
        (fun d => by
          by_cases hd : d = c0
          · simp only [hd, if_true]; exact hb1
          · simp only [hd, if_false]; exact h d)
        (fun d => by
          have := hn d
          have := hn c0
          simp only [List.length_cons] at *
          split
          · rw [List.length_append, List.length_singleton]; omega
          · omega)
        (fun x hx => hr x (List.mem_cons_of_mem _ hx))
      refine ⟨r :: rets, s', ?_, by simp [hl], fun c => ?_⟩
      · simp only [history, setCache, e1, e]
      · have := hb c
        by_cases hc : c = c0
        · subst hc
          simp only [if_true, List.append_assoc, List.singleton_append] at this
          simpa [callsOf] using this
        · simp only [hc, if_false] at this
          have hne : ¬ c0 = c := fun h => hc h.symm
          simpa [callsOf, hne] using this

theorem mem_keys (k : Key) (es : List (Key × Value)) (h : k ∈ es.map Prod.fst) : lookup k es ≠ none := by
  obtain ⟨a1, w, a2, he, hk⟩ := mem_split h
  rw [he, lookup_some hk]
  simp

/-- One merge. -/
theorem merge_step {ks : List Key} (hks : ks.length < 65536) {a src : List Byte} {es f : List (Key × Value)} (ha : Repr a es) (hs : Repr src f)
    (h1 : ∀ k ∈ es.map Prod.fst, k ∈ ks) (h2 : ∀ k ∈ f.map Prod.fst, k ∈ ks) :
    ∃ r m es', merge a src = .ok (r, m) ∧ Repr m es' ∧ (∀ k ∈ es'.map Prod.fst, k ∈ ks) ∧ (∀ k, lookup k es = none → lookup k f = none → lookup k es' = none) ∧
      (r = .ok → ∀ k, lookup k es' = (lookup k f).or (lookup k es)) := by
  have hin : ∀ es' : List (Key × Value), (∀ k, lookup k es = none → lookup k f = none → lookup k es' = none) → ∀ k ∈ es'.map Prod.fst, k ∈ ks := by
    intro es' hno k hk
    apply Classical.byContradiction
    intro hnot
    exact mem_keys k es' hk (hno k (lookup_none fun h => hnot (h1 k h)) (lookup_none fun h => hnot (h2 k h)))
  rcases ha.merge hks hs h1 h2 with ⟨m, e1, _, e3⟩ | ⟨m, p, q, e1, e2, _, e4⟩
  · have hno : ∀ k, lookup k es = none → lookup k f = none → lookup k (applyOk es (f.map fun e => (e, .ok))) = none := by
      intro k a1 a2
      rw [lookup_applyOk, lastOk_entries hs.nodup, a1, a2]; rfl
    exact ⟨_, m, _, e1, e3, hin _ hno, hno, fun _ k => by rw [lookup_applyOk, lastOk_entries hs.nodup]⟩
  · have hnd : (p.map Prod.fst).Nodup := by
      have := hs.nodup
      rw [e2, List.map_append, List.nodup_append] at this
      exact this.1
    have hno : ∀ k, lookup k es = none → lookup k f = none → lookup k (applyOk es (p.map fun e => (e, .ok))) = none := by
      intro k a1 a2
      have hp : lookup k p = none := by
        apply lookup_none
        intro hk
        exact mem_keys k f (by rw [e2, List.map_append]; exact List.mem_append_left _ hk) a2
      rw [lookup_applyOk, lastOk_entries hnd, a1, hp]; rfl
    exact ⟨_, m, _, e1, e4, hin _ hno, hno, fun h => by cases h⟩

theorem keys_callsOf (c : Scope) (k : Key) : ∀ h : List (Call × Ret), k ∈ (callsOf c h).map (fun x => x.1.1) → k ∈ h.map fun x => x.1.2.1.take 254 := by
  intro h
  induction h with
  | nil => intro hk; cases hk
  | cons x h ih =>
    intro hk
    rcases x with ⟨x, r⟩
    simp only [callsOf] at hk
    split at hk
    · rcases List.mem_cons.1 hk with rfl | hk
      · exact List.mem_cons_self
      · exact List.mem_cons_of_mem _ (ih hk)
    · exact List.mem_cons_of_mem _ (ih hk)

/-- The three caches merged, each with its contents. -/
theorem carried_spec (n n0 : Nat) (own : List ((Key × Value) × Ret)) (dest : List Byte) (hd : Built n0 own dest) (hist : List (Call × Ret)) (s : State)
    (hs : ∀ c, Built n (callsOf c hist) (s c)) (hlen : own.length + hist.length < 65535) (t : Target) (c1 c2 c3 : Scope) (ht : sources s t = (s c1, s c2, s c3)) :
    ∃ r1 r2 r3 m es, carried dest s t = .ok ([r1, r2, r3], m) ∧ Repr m es ∧
      (∀ k, lastOk k own = none → lastSet c1 k hist = none → lastSet c2 k hist = none → lastSet c3 k hist = none → lookup k es = none) ∧
      (r1 = .ok → r2 = .ok → r3 = .ok → ∀ k, lookup k es = (lastSet c3 k hist).or ((lastSet c2 k hist).or ((lastSet c1 k hist).or (lastOk k own)))) := by
  have hlook : ∀ (c : List ((Key × Value) × Ret)) k, lookup k (applyOk [] c) = lastOk k c := by
    intro c k
    rw [lookup_applyOk]
    simp [lookup]
  let ks : List Key := own.map (fun x => x.1.1) ++ hist.map fun x => x.1.2.1.take 254
  have hks : ks.length < 65536 := by simp only [ks, List.length_append, List.length_map]; omega
  have i0 := hd.repr.2.2 ks hks (fun op ho => by
    obtain ⟨x, hx, rfl⟩ := List.mem_map.1 ho
    exact List.mem_append_left _ (List.mem_map.2 ⟨x, hx, rfl⟩))
  have ic : ∀ c, ∀ k ∈ (applyOk [] (callsOf c hist)).map Prod.fst, k ∈ ks := fun c =>
    (hs c).repr.2.2 ks hks (fun op ho => by
      obtain ⟨x, hx, rfl⟩ := List.mem_map.1 ho
      exact List.mem_append_right _ (keys_callsOf c _ hist (List.mem_map.2 ⟨x, hx, rfl⟩)))
  obtain ⟨r1, m1, es1, e1, p1, q1, n1, o1⟩ := merge_step hks hd.repr.1 (hs c1).repr.1 i0 (ic c1)
  obtain ⟨r2, m2, es2, e2, p2, q2, n2, o2⟩ := merge_step hks p1 (hs c2).repr.1 q1 (ic c2)
  obtain ⟨r3, m3, es3, e3, p3, q3, n3, o3⟩ := merge_step hks p2 (hs c3).repr.1 q2 (ic c3)
  simp only [hlook, lastOk_callsOf] at n1 n2 n3 o1 o2 o3
  refine ⟨r1, r2, r3, m3, es3, ?_, p3, fun k a0 a1 a2 a3 => n3 k (n2 k (n1 k a0 a1) a2) a3, fun h1 h2 h3 k => by rw [o3 h3, o2 h2, o1 h1]⟩
  simp only [carried, ht, e1, e2, e3]

end Np.Attr

import Verif.Attr.Lemmas
/-! # Properties of the attributes a user sets: C227 to C229 -/
namespace Np.Attr
open _root_.Np.Cbor _root_.Np.Data _root_.Np.Data.Spec _root_.Np.Attr.Spec

theorem caches (n : Nat) (s s' : State) (hF : Fresh n s) (ops : List Call) (hr : ∀ x ∈ ops, Regular (x.2.1.take 254) (.bin x.2.2)) (hlen : ops.length < 65535)
    (rets : List Ret) (h : history s ops = .ok (rets, s')) : rets.length = ops.length ∧ ∀ c, Built n (callsOf c (ops.zip rets)) (s' c) := by
  obtain ⟨rets', t, e, hl, hb⟩ := history_built n ops s (fun _ => []) hF (fun c => by simpa using hlen) hr
  rw [h] at e
  cases e
  exact ⟨hl, fun c => by simpa using hb c⟩

/-- C227 (partial).  Every history of calls returns. -/
theorem C227_returns_partial (n : Nat) (s : State) (hF : Fresh n s) (ops : List Call) (hr : ∀ x ∈ ops, Regular (x.2.1.take 254) (.bin x.2.2)) (hlen : ops.length < 65535) :
    ∃ rets s', history s ops = .ok (rets, s') ∧ rets.length = ops.length := by
  obtain ⟨rets', t, e, hl, _⟩ := history_built n ops s (fun _ => []) hF (fun c => by simpa using hlen) hr
  exact ⟨rets', t, e, hl⟩

/-- C227 (partial).  An attribute is in no message, intent or identity its scope does not include: a key that was not set with a scope that includes the target is not
found there, unless the target has it of its own. -/
theorem C227_only_partial (n n0 : Nat) (s s' : State) (hF : Fresh n s) (ops : List Call) (hr : ∀ x ∈ ops, Regular (x.2.1.take 254) (.bin x.2.2)) (rets : List Ret)
    (h : history s ops = .ok (rets, s')) (own : List ((Key × Value) × Ret)) (dest : List Byte) (hd : Built n0 own dest) (hlen : own.length + ops.length < 65535) (t : Target)
    (k : Key) (hk : IsKey k) (hown : lastOk k own = none) (hno : ∀ c, Includes c t → lastSet c k (ops.zip rets) = none) :
    ∃ res m, carried dest s' t = .ok (res, m) ∧ getData m k = .ok (.keyNotFound, none) := by
  obtain ⟨hl, hb⟩ := caches n s s' hF ops hr (by omega) rets h
  have hz : own.length + (ops.zip rets).length < 65535 := by rw [List.length_zip, hl, Nat.min_self]; exact hlen
  have fin : ∀ c1 c2 c3, sources s' t = (s' c1, s' c2, s' c3) → Includes c1 t → Includes c2 t → Includes c3 t →
      ∃ res m, carried dest s' t = .ok (res, m) ∧ getData m k = .ok (.keyNotFound, none) := by
    intro c1 c2 c3 e i1 i2 i3
    obtain ⟨r1, r2, r3, m, es, e1, hR, hn, _⟩ := carried_spec n n0 own dest hd _ s' hb hz t c1 c2 c3 e
    refine ⟨_, m, e1, ?_⟩
    have := hR.readable (fun _ => rfl) k hk
    rw [this, hn k hown (hno c1 i1) (hno c2 i2) (hno c3 i3)]
  cases t with
  | message => exact fin .user .identityUser .intentUser rfl trivial trivial trivial
  | intent => exact fin .intent .intentUser .intentIdentity rfl trivial trivial trivial
  | identity => exact fin .identity .identityUser .intentIdentity rfl trivial trivial trivial

/-- C227 (partial).  An attribute is in all messages, intents and identities its scope includes, with the value of the last call that returned `np_data_ok`.  Missing: keys
set with several scopes that include the target (see the next theorem), and attributes for which there is no room left (the results of merging, `res`, are ignored by the library). -/
theorem C227_all_partial (n n0 : Nat) (s s' : State) (hF : Fresh n s) (ops : List Call) (hr : ∀ x ∈ ops, Regular (x.2.1.take 254) (.bin x.2.2)) (rets : List Ret)
    (h : history s ops = .ok (rets, s')) (own : List ((Key × Value) × Ret)) (dest : List Byte) (hd : Built n0 own dest) (hlen : own.length + ops.length < 65535) (t : Target)
    (k : Key) (hk : IsKey k) (c : Scope) (hc : Includes c t) (v : Value) (hv : lastSet c k (ops.zip rets) = some v)
    (hno : ∀ d, d ≠ c → Includes d t → lastSet d k (ops.zip rets) = none) :
    ∃ res m, carried dest s' t = .ok (res, m) ∧ ((∀ r ∈ res, r = .ok) → getData m k = .ok (.ok, some v)) := by
  obtain ⟨hl, hb⟩ := caches n s s' hF ops hr (by omega) rets h
  have hz : own.length + (ops.zip rets).length < 65535 := by rw [List.length_zip, hl, Nat.min_self]; exact hlen
  have fin : ∀ c1 c2 c3, sources s' t = (s' c1, s' c2, s' c3) →
      ((lastSet c3 k (ops.zip rets)).or ((lastSet c2 k (ops.zip rets)).or ((lastSet c1 k (ops.zip rets)).or (lastOk k own))) = some v) →
      ∃ res m, carried dest s' t = .ok (res, m) ∧ ((∀ r ∈ res, r = .ok) → getData m k = .ok (.ok, some v)) := by
    intro c1 c2 c3 e hval
    obtain ⟨r1, r2, r3, m, es, e1, hR, _, hy⟩ := carried_spec n n0 own dest hd _ s' hb hz t c1 c2 c3 e
    refine ⟨_, m, e1, fun hok => ?_⟩
    have := hR.readable (fun _ => rfl) k hk
    rw [this, hy (hok _ (by simp)) (hok _ (by simp)) (hok _ (by simp)) k, hval]
  cases t with
  | message =>
    refine fin .user .identityUser .intentUser rfl ?_
    cases c <;> first | (exact absurd hc id) | (rw [hv]; rfl) | (rw [hno .intentUser (by decide) trivial, hv]; rfl) |
      (rw [hno .intentUser (by decide) trivial, hno .identityUser (by decide) trivial, hv]; rfl)
  | intent =>
    refine fin .intent .intentUser .intentIdentity rfl ?_
    cases c <;> first | (exact absurd hc id) | (rw [hv]; rfl) | (rw [hno .intentIdentity (by decide) trivial, hv]; rfl) |
      (rw [hno .intentIdentity (by decide) trivial, hno .intentUser (by decide) trivial, hv]; rfl)
  | identity =>
    refine fin .identity .identityUser .intentIdentity rfl ?_
    cases c <;> first | (exact absurd hc id) | (rw [hv]; rfl) | (rw [hno .intentIdentity (by decide) trivial, hv]; rfl) |
      (rw [hno .intentIdentity (by decide) trivial, hno .identityUser (by decide) trivial, hv]; rfl)

/-- C227 (partial).  Also if a key was set with several scopes that include the target, the target has it, with the last value of one of these scopes. -/
theorem C227_some_partial (n n0 : Nat) (s s' : State) (hF : Fresh n s) (ops : List Call) (hr : ∀ x ∈ ops, Regular (x.2.1.take 254) (.bin x.2.2)) (rets : List Ret)
    (h : history s ops = .ok (rets, s')) (own : List ((Key × Value) × Ret)) (dest : List Byte) (hd : Built n0 own dest) (hlen : own.length + ops.length < 65535) (t : Target)
    (k : Key) (hk : IsKey k) (c : Scope) (hc : Includes c t) (hv : lastSet c k (ops.zip rets) ≠ none) :
    ∃ res m, carried dest s' t = .ok (res, m) ∧
      ((∀ r ∈ res, r = .ok) → ∃ d w, Includes d t ∧ lastSet d k (ops.zip rets) = some w ∧ getData m k = .ok (.ok, some w)) := by
  obtain ⟨hl, hb⟩ := caches n s s' hF ops hr (by omega) rets h
  have hz : own.length + (ops.zip rets).length < 65535 := by rw [List.length_zip, hl, Nat.min_self]; exact hlen
  have fin : ∀ c1 c2 c3, sources s' t = (s' c1, s' c2, s' c3) → Includes c1 t → Includes c2 t → Includes c3 t → (c = c1 ∨ c = c2 ∨ c = c3) →
      ∃ res m, carried dest s' t = .ok (res, m) ∧
        ((∀ r ∈ res, r = .ok) → ∃ d w, Includes d t ∧ lastSet d k (ops.zip rets) = some w ∧ getData m k = .ok (.ok, some w)) := by
    intro c1 c2 c3 e i1 i2 i3 hcc
    obtain ⟨r1, r2, r3, m, es, e1, hR, _, hy⟩ := carried_spec n n0 own dest hd _ s' hb hz t c1 c2 c3 e
    refine ⟨_, m, e1, fun hok => ?_⟩
    have h1 := hR.readable (fun _ => rfl) k hk
    rw [hy (hok _ (by simp)) (hok _ (by simp)) (hok _ (by simp)) k] at h1
    cases h3 : lastSet c3 k (ops.zip rets) with
    | some w => exact ⟨c3, w, i3, h3, by rw [h1, h3]; rfl⟩
    | none =>
      cases h2 : lastSet c2 k (ops.zip rets) with
      | some w => exact ⟨c2, w, i2, h2, by rw [h1, h3, h2]; rfl⟩
      | none =>
        cases h0 : lastSet c1 k (ops.zip rets) with
        | some w => exact ⟨c1, w, i1, h0, by rw [h1, h3, h2, h0]; rfl⟩
        | none =>
          rcases hcc with rfl | rfl | rfl
          · exact absurd h0 hv
          · exact absurd h2 hv
          · exact absurd h3 hv
  cases t with
  | message => exact fin .user .identityUser .intentUser rfl trivial trivial trivial (by cases c <;> first | exact absurd hc id | simp)
  | intent => exact fin .intent .intentUser .intentIdentity rfl trivial trivial trivial (by cases c <;> first | exact absurd hc id | simp)
  | identity => exact fin .identity .identityUser .intentIdentity rfl trivial trivial trivial (by cases c <;> first | exact absurd hc id | simp)

/-- C227 (partial).  What the target has of its own stays, if no attribute of an including scope has that key. -/
theorem C227_own_partial (n n0 : Nat) (s s' : State) (hF : Fresh n s) (ops : List Call) (hr : ∀ x ∈ ops, Regular (x.2.1.take 254) (.bin x.2.2)) (rets : List Ret)
    (h : history s ops = .ok (rets, s')) (own : List ((Key × Value) × Ret)) (dest : List Byte) (hd : Built n0 own dest) (hlen : own.length + ops.length < 65535) (t : Target)
    (k : Key) (hk : IsKey k) (v : Value) (hv : lastOk k own = some v) (hno : ∀ d, Includes d t → lastSet d k (ops.zip rets) = none) :
    ∃ res m, carried dest s' t = .ok (res, m) ∧ ((∀ r ∈ res, r = .ok) → getData m k = .ok (.ok, some v)) := by
  obtain ⟨hl, hb⟩ := caches n s s' hF ops hr (by omega) rets h
  have hz : own.length + (ops.zip rets).length < 65535 := by rw [List.length_zip, hl, Nat.min_self]; exact hlen
  have fin : ∀ c1 c2 c3, sources s' t = (s' c1, s' c2, s' c3) → Includes c1 t → Includes c2 t → Includes c3 t →
      ∃ res m, carried dest s' t = .ok (res, m) ∧ ((∀ r ∈ res, r = .ok) → getData m k = .ok (.ok, some v)) := by
    intro c1 c2 c3 e i1 i2 i3
    obtain ⟨r1, r2, r3, m, es, e1, hR, _, hy⟩ := carried_spec n n0 own dest hd _ s' hb hz t c1 c2 c3 e
    refine ⟨_, m, e1, fun hok => ?_⟩
    have := hR.readable (fun _ => rfl) k hk
    rw [this, hy (hok _ (by simp)) (hok _ (by simp)) (hok _ (by simp)) k, hno _ i1, hno _ i2, hno _ i3, hv]
    rfl
  cases t with
  | message => exact fin .user .identityUser .intentUser rfl trivial trivial trivial
  | intent => exact fin .intent .intentUser .intentIdentity rfl trivial trivial trivial
  | identity => exact fin .identity .identityUser .intentIdentity rfl trivial trivial trivial

set_option maxRecDepth 100000 in
/-- C227 (refuted).  With the size of attributes the library uses, an attribute for messages for which `np_data_ok` was returned is not in the messages sent: it fits into
the cache but not into the message beside the id of the sender, and nobody is told. -/
theorem C227_room_refuted : ∃ rets s' res m, history (fun _ => emptyBlock 10240) [(some .user, [107, 49], List.replicate 10180 1)] = .ok (rets, s') ∧ rets = [.ok] ∧
    carried (withFrom 10240 (List.replicate 32 7)) s' .message = .ok (res, m) ∧ getData m [107, 49] = .ok (.keyNotFound, none) := by
  have key : (match history (fun _ => emptyBlock 10240) [(some .user, [107, 49], List.replicate 10180 1)] with
    | .error _ => false
    | .ok (rets, s') => match carried (withFrom 10240 (List.replicate 32 7)) s' .message with
      | .error _ => false
      | .ok (_, m) => decide (rets = [.ok]) && match getData m [107, 49] with | .ok (.keyNotFound, none) => true | _ => false) = true := by decide +kernel
  split at key
  · cases key
  · next rets s' e1 =>
    split at key
    · cases key
    · next res m e2 =>
      simp only [Bool.and_eq_true, decide_eq_true_eq] at key
      refine ⟨rets, s', res, m, e1, key.1, e2, ?_⟩
      have k2 := key.2
      split at k2
      · next e => exact e
      · cases k2

/-- C228 (partial).  Without a scope, `np_data_ok` means that the token has the attribute.  Missing: calls with a scope, see below. -/
theorem C228_token_partial (n : Nat) (calls : List ((Key × Value) × Ret)) (a : List Byte) (h : Built n calls a) (hn : calls.length < 65535) (s s' : State) (k : Key)
    (v : List Byte) (hr : Regular (k.take 254) (.bin v)) (tok : Option (List Byte)) (hs : setIdent s (some a) none k v = .ok (.ok, tok, s')) :
    ∃ b, tok = some b ∧ getData b (k.take 254) = .ok (.ok, some (.bin v)) := by
  obtain ⟨r, b, e, hb⟩ := set_ok n calls a h hn (k.take 254) (.bin v) hr
  simp only [setIdent, e, setCache, Except.map, Except.ok.injEq, Prod.mk.injEq] at hs
  obtain ⟨rfl, rfl, _⟩ := hs
  refine ⟨b, rfl, ?_⟩
  rw [C07_last_value_partial n _ b hb _ hr.1]
  have hl : ∀ c : List ((Key × Value) × Ret), lastOk (k.take 254) (c ++ [((k.take 254, .bin v), .ok)]) = some (.bin v) := by
    intro c
    induction c with
    | nil => simp [lastOk]
    | cons x c ih => simp [lastOk, ih]
  simp only [hl]

/-- C228 (refuted).  With a scope the result of setting the attribute of the token is lost: the call returns what setting the cache returned, also `np_data_ok`, whatever
happened to the token. -/
theorem C228_lost_refuted (n m : Nat) (calls : List ((Key × Value) × Ret)) (a : List Byte) (h : Built n calls a) (s : State) (c : Scope) (hF : Built m [] (s c)) (k : Key)
    (v : List Byte) (hr : Regular (k.take 254) (.bin v)) (hn : calls.length < 65535) (full : n < usedAfter (calls ++ [((k.take 254, .bin v), .ok)]))
    (room : usedAfter [((k.take 254, .bin v), .ok)] ≤ m) : ∃ s', setIdent s (some a) (some c) k v = .ok (.ok, some a, s') := by
  have e1 := (C08_fits_partial n calls a h _ _ hr ⟨k.take 254 :: calls.map fun c => c.1.1, by rw [List.length_cons, List.length_map]; omega, fun op ho => by
    rcases List.mem_cons.1 ho with rfl | ho
    · exact List.mem_cons_self
    · obtain ⟨c, hc, rfl⟩ := List.mem_map.1 ho
      exact List.mem_cons_of_mem _ (List.mem_map.2 ⟨c, hc, rfl⟩)⟩).2 full
  obtain ⟨b, e2⟩ := (C08_fits_partial m [] (s c) hF _ _ hr ⟨[k.take 254], (show 1 < 65536 by decide), fun op ho => by
    rcases List.mem_cons.1 ho with rfl | ho
    · exact List.mem_singleton.2 rfl
    · cases ho⟩).1 room
  exact ⟨_, by simp only [setIdent, e1, setCache, e2, Except.map]; rfl⟩

theorem built_nil (n : Nat) (h1 : 21 ≤ n) (h2 : n < 4294967296) : ∃ b, Built n [] b := by
  obtain ⟨b, h, _⟩ := init_repr (buf := List.replicate n 0) (by rw [List.length_replicate]; exact h1) (by rw [List.length_replicate]; exact h2)
  exact ⟨b, ⟨h1, h2⟩, (by intro c hc; cases hc), ⟨[], by decide, (by intro c hc; cases hc)⟩, _, b, List.length_replicate, h, rfl⟩

/-- C229 (partial).  An attribute of a message that is there, is binary, and fits into the memory of the caller, is read as it was set. -/
theorem C229_read_partial (n : Nat) (calls : List ((Key × Value) × Ret)) (attrs : List Byte) (h : Built n calls attrs) (k : Key) (hk : IsKey k) (b : List Byte)
    (hv : lastOk k calls = some (.bin b)) (cap : Nat) (hfit : b.length ≤ cap) : readMsg attrs k true (some cap) = .ok (.ok, b) := by
  have := C07_last_value_partial n calls attrs h k hk
  simp only [hv] at this
  simp [readMsg, this, hfit]

/-- C229 (refuted).  Asking for an attribute a message does not have is undefined, whatever the message, the key and the memory of the caller are: there is no way to learn
that it is missing. -/
theorem C229_absent_refuted (n : Nat) (calls : List ((Key × Value) × Ret)) (attrs : List Byte) (h : Built n calls attrs) (k : Key) (hk : IsKey k)
    (hv : lastOk k calls = none) (conf : Bool) (cap : Nat) : readMsg attrs k conf (some cap) = .error .ub := by
  have := C07_last_value_partial n calls attrs h k hk
  simp only [hv] at this
  simp [readMsg, this]

/-- C229 (refuted).  A sender can write past the memory of the caller: for up to 10000 bytes of it there are attributes that fit into a message and are longer. -/
theorem C229_overrun_refuted (cap : Nat) (hc : cap ≤ 10000) (k : Key) (hr : IsKey k) (h24 : k.length < 24) : ∃ b calls attrs, Built 10240 calls attrs ∧
    lastOk k calls = some (.bin b) ∧ cap < b.length ∧ readMsg attrs k true (some cap) = .error .ub := by
  obtain ⟨a, ha⟩ := built_nil 10240 (by omega) (by omega)
  obtain ⟨L, hL1, hL2, hL3⟩ : ∃ L, cap < L ∧ L ≤ cap + 2 ∧ L ≠ 24 := by
    by_cases e : cap + 1 = 24
    · exact ⟨cap + 2, by omega, by omega, by omega⟩
    · exact ⟨cap + 1, by omega, by omega, e⟩
  have hreg : Regular k (.bin (List.replicate L 1)) := ⟨hr, by omega, by simp only [List.length_replicate]; omega⟩
  obtain ⟨r, b, e, hb⟩ := set_ok 10240 [] a ha (by decide) k (.bin (List.replicate L 1)) hreg
  have hroom : usedAfter ([] ++ [((k, .bin (List.replicate L 1)), .ok)]) ≤ 10240 := by
    have h9 : ∀ m, headSize m ≤ 9 := by intro m; unfold headSize; (repeat' split) <;> omega
    have e : usedAfter ([] ++ [((k, .bin (List.replicate L 1)), .ok)]) = 21 + (headSize k.length + k.length + (headSize L + L)) := by
      simp [usedAfter, firstOrder, lastOk, entrySize]
    have h1 := h9 k.length
    have h2 := h9 L
    rw [e]
    omega
  obtain ⟨b', e'⟩ := (C08_fits_partial 10240 [] a ha _ _ hreg ⟨[k], (show 1 < 65536 by decide), fun op ho => by
    rcases List.mem_cons.1 ho with rfl | ho
    · exact List.mem_singleton.2 rfl
    · cases ho⟩).1 hroom
  rw [e] at e'
  cases e'
  have hl : lastOk k ([] ++ [((k, Value.bin (List.replicate L 1)), Ret.ok)]) = some (.bin (List.replicate L 1)) := by simp [lastOk]
  refine ⟨List.replicate L 1, _, b, hb, hl, by rw [List.length_replicate]; exact hL1, ?_⟩
  have := C07_last_value_partial 10240 _ b hb k hr
  simp only [hl] at this
  have hn : ¬ L ≤ cap := by omega
  simp [readMsg, this, hn]

/-- C229 (refuted).  A number in the place of binary data is followed as a pointer. -/
theorem C229_number_refuted (n : Nat) (calls : List ((Key × Value) × Ret)) (attrs : List Byte) (h : Built n calls attrs) (k : Key) (hk : IsKey k)
    (hv : (∃ i, lastOk k calls = some (.int i)) ∨ ∃ u, lastOk k calls = some (.uint u)) (conf : Bool) (cap : Nat) : readMsg attrs k conf (some cap) = .error .ub := by
  have := C07_last_value_partial n calls attrs h k hk
  rcases hv with ⟨i, hv⟩ | ⟨u, hv⟩ <;> simp only [hv] at this <;> cases conf <;> simp [readMsg, this]

/-- C229 (refuted).  Without a configuration nothing can be read, although the function allows for it to be left out. -/
theorem C229_conf_refuted (n : Nat) (calls : List ((Key × Value) × Ret)) (attrs : List Byte) (h : Built n calls attrs) (k : Key) (hk : IsKey k) (cap : Nat) :
    readMsg attrs k false (some cap) = .error .ub := by
  have := C07_last_value_partial n calls attrs h k hk
  cases hv : lastOk k calls <;> simp only [hv] at this <;> simp [readMsg, this]

/-! ## The hypotheses are met -/

set_option maxRecDepth 4000 in
/-- C229: a message with a binary attribute and a number; `k3` is missing. -/
example : ∃ calls attrs, Built 500 calls attrs ∧ lastOk [107, 49] calls = some (.bin [1, 2, 3]) ∧ lastOk [107, 50] calls = some (.uint 7) ∧
    lastOk [107, 51] calls = none ∧ IsKey [107, 49] ∧ IsKey [107, 50] ∧ IsKey [107, 51] := by
  obtain ⟨b0, rets, b, e1, e2, _, hb⟩ := C07_returns_partial (List.replicate 500 0) (by rw [List.length_replicate]; decide) (by rw [List.length_replicate]; decide) [([107, 49], .bin [1, 2, 3]), ([107, 50], .uint 7)] (by decide)
    ⟨[[107, 49], [107, 50]], by decide, by decide⟩
  have h0 : init (List.replicate 500 0) = .ok (.ok, emptyBlock 500) := by decide +kernel
  rw [h0] at e1
  cases e1
  have hr : (match run (emptyBlock 500) [([107, 49], .bin [1, 2, 3]), ([107, 50], .uint 7)] with | .ok (r, _) => decide (r = [.ok, .ok]) | .error _ => false) = true := by
    decide +kernel
  rw [e2] at hr
  have hr' : rets = [.ok, .ok] := of_decide_eq_true hr
  subst hr'
  rw [List.length_replicate] at hb
  exact ⟨_, b, hb, by decide, by decide, by decide, by decide, by decide, by decide⟩

/-- The calls of the examples: two scopes. -/
def sampleCalls : List Call := [(some .identityUser, [107, 49], [1, 2, 3]), (some .intent, [107, 50], [4, 5]), (none, [107, 51], [6])]

/-- C227: fresh caches of 500 bytes and three calls; `k1` is for messages and identities, `k2` for intents. -/
example : ∃ (s : State) (b : List Byte), Fresh 500 s ∧ Built 500 [] b ∧ (∀ x ∈ sampleCalls, Regular (x.2.1.take 254) (.bin x.2.2)) ∧ IsKey [107, 49] ∧
    (∀ c, Includes c .message → lastSet c [107, 50] (sampleCalls.zip [.ok, .ok, .invalidArguments]) = none) ∧
    lastSet .identityUser [107, 49] (sampleCalls.zip [.ok, .ok, .invalidArguments]) = some (.bin [1, 2, 3]) ∧
    (∀ d, d ≠ .identityUser → Includes d .message → lastSet d [107, 49] (sampleCalls.zip [.ok, .ok, .invalidArguments]) = none) := by
  obtain ⟨b, hb⟩ := built_nil 500 (by omega) (by omega)
  refine ⟨fun _ => b, b, fun _ => hb, hb, by decide, by decide, ?_, by decide, ?_⟩
  · intro c hc; cases c <;> first | exact absurd hc id | decide
  · intro c hne hc; cases c <;> first | exact absurd hc id | exact absurd rfl hne | decide

/-- C228: a token without room, and a cache with room. -/
example : ∃ a b, Built 30 [] a ∧ Built 500 [] b ∧ Regular ([107, 49].take 254) (.bin (List.replicate 30 1)) ∧
    30 < usedAfter ([] ++ [(([107, 49].take 254, .bin (List.replicate 30 1)), .ok)]) ∧ usedAfter [(([107, 49].take 254, .bin (List.replicate 30 1)), .ok)] ≤ 500 := by
  obtain ⟨a, ha⟩ := built_nil 30 (by omega) (by omega)
  obtain ⟨b, hb⟩ := built_nil 500 (by omega) (by omega)
  exact ⟨a, b, ha, hb, by decide, by decide +kernel, by decide +kernel⟩

end Np.Attr

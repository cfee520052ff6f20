import Verif.Http.Spec
set_option linter.unusedSimpArgs false
namespace Np.Http
open _root_.Np.Http.Spec

/-! ## Queries -/

theorem split_plain {a : Text} (h : Plain a) : split a = [a] := by
  induction a with
  | nil => rfl
  | cons c cs ih =>
    have h1 : Plain cs := ⟨fun k => h.1 (List.mem_cons_of_mem _ k), fun k => h.2 (List.mem_cons_of_mem _ k)⟩
    have hc : isSep c = false := by
      have e1 : c ≠ 38 := fun e => h.1 (by rw [e]; exact List.mem_cons_self)
      have e2 : c ≠ 61 := fun e => h.2 (by rw [e]; exact List.mem_cons_self)
      simp [isSep, e1, e2]
    simp [split, hc, ih h1]

theorem split_sep {a : Text} (h : Plain a) (c : Nat) (hc : isSep c = true) (rest : Text) : split (a ++ c :: rest) = a :: split rest := by
  induction a with
  | nil => simp [split, hc]
  | cons x cs ih =>
    have h1 : Plain cs := ⟨fun k => h.1 (List.mem_cons_of_mem _ k), fun k => h.2 (List.mem_cons_of_mem _ k)⟩
    have hx : isSep x = false := by
      have e1 : x ≠ 38 := fun e => h.1 (by rw [e]; exact List.mem_cons_self)
      have e2 : x ≠ 61 := fun e => h.2 (by rw [e]; exact List.mem_cons_self)
      simp [isSep, e1, e2]
    simp [split, hx, ih h1]

theorem split_render (l : List (Text × Text)) (hl : ∀ e ∈ l, Plain e.1 ∧ Plain e.2) (hne : l ≠ []) :
    split (render l) = l.flatMap (fun e => [e.1, e.2]) := by
  induction l with
  | nil => exact absurd rfl hne
  | cons e rest ih =>
    obtain ⟨k, v⟩ := e
    have hk := hl (k, v) List.mem_cons_self
    cases rest with
    | nil =>
      show split (k ++ 61 :: v) = _
      rw [split_sep hk.1 61 rfl, split_plain hk.2]; rfl
    | cons e2 rest2 =>
      show split (k ++ 61 :: v ++ 38 :: render (e2 :: rest2)) = _
      rw [show k ++ 61 :: v ++ 38 :: render (e2 :: rest2) = k ++ 61 :: (v ++ 38 :: render (e2 :: rest2)) by simp,
        split_sep hk.1 61 rfl, split_sep hk.2 38 rfl, ih (fun x hx => hl x (List.mem_cons_of_mem _ hx)) (by simp)]
      rfl

def total (l : List (Text × Text)) : Nat := (l.map (fun e => e.1.length + e.2.length)).sum

theorem total_le (l : List (Text × Text)) : total l ≤ (render l).length := by
  induction l with
  | nil => exact Nat.le_refl 0
  | cons e rest ih =>
    obtain ⟨k, v⟩ := e
    cases rest with
    | nil => simp [total, render]
    | cons e2 rest2 =>
      have : total ((k, v) :: e2 :: rest2) = k.length + v.length + total (e2 :: rest2) := by simp [total]
      rw [this]
      have e3 : (render ((k, v) :: e2 :: rest2)).length = k.length + (v.length + 1) + ((render (e2 :: rest2)).length + 1) := by
        simp [render]; omega
      rw [e3]; omega

theorem pairs_all (l : List (Text × Text)) (rem : Nat) (m : Map) (h : total l ≤ rem) :
    pairs rem none (l.flatMap (fun e => [e.1, e.2])) m = l.foldl (fun m e => put m e.1 e.2) m := by
  induction l generalizing rem m with
  | nil => rfl
  | cons e rest ih =>
    have e1 : total (e :: rest) = e.1.length + e.2.length + total rest := by simp [total]
    rw [e1] at h
    show pairs rem none (e.1 :: e.2 :: rest.flatMap _) m = _
    simp only [pairs, List.foldl_cons]
    rw [List.take_of_length_le (by omega), List.take_of_length_le (by omega)]
    exact ih _ _ (by omega)

theorem get_put (m : Map) (k v x : Text) : get (put m k v) x = (get m x).or (if k = x then some v else none) := by
  unfold put
  by_cases h : m.any (fun e => e.1 == k) = true
  · rw [if_pos h]
    by_cases e : k = x
    · subst e
      obtain ⟨y, hy, hk⟩ := List.any_eq_true.mp h
      have : (m.find? (fun e => e.1 == k)).isSome = true := List.find?_isSome.mpr ⟨y, hy, hk⟩
      have : (get m k).isSome = true := by simpa [get] using this
      obtain ⟨z, hz⟩ := Option.isSome_iff_exists.mp this
      rw [hz]; rfl
    · rw [if_neg e]; simp
  · rw [if_neg h]
    unfold get
    rw [List.find?_append]
    cases q : m.find? (fun e => e.1 == x) with
    | some z => simp
    | none =>
      by_cases e : k = x
      · simp [e]
      · simp [e]

theorem get_fold (l : List (Text × Text)) (m : Map) (x : Text) :
    get (l.foldl (fun m e => put m e.1 e.2) m) x = (get m x).or (first l x) := by
  induction l generalizing m with
  | nil => simp [first]
  | cons e rest ih =>
    rw [List.foldl_cons, ih, get_put]
    unfold first
    rw [List.find?_cons]
    by_cases k : e.1 = x
    · simp [k]
    · have : (e.1 == x) = false := by simpa using k
      rw [this, if_neg k]; simp

/-! ## Requests -/

theorem hooks_append (a b : List Hook) (r : Req) : hooks r (a ++ b) = (hooks r a).bind (fun r' => hooks r' b) := by
  induction a generalizing r with
  | nil => rfl
  | cons h t ih =>
    show hooks r (h :: (t ++ b)) = _
    simp only [hooks]
    cases hook r h with
    | none => rfl
    | some r' => exact ih r'

theorem hooks_headers (l : List (Text × Text)) (r : Req) (m : Map) (h : r.header = some m) :
    ∃ c, hooks r (l.flatMap (fun h => [Hook.hdrKey h.1, Hook.hdrVal h.2])) =
      some { r with header := some (l.foldl (fun m e => put m e.1 e.2) m), curKey := c } := by
  induction l generalizing r m with
  | nil => exact ⟨r.curKey, by show some r = _; rw [List.foldl_nil, ← h]⟩
  | cons e rest ih =>
    obtain ⟨c, hc⟩ := ih { r with header := some (put m e.1 e.2), curKey := none } (put m e.1 e.2) rfl
    refine ⟨c, ?_⟩
    show hooks r (Hook.hdrKey e.1 :: Hook.hdrVal e.2 :: rest.flatMap _) = _
    simp only [hooks, hook, h]
    exact hc

theorem hooks_parts (l : List Text) (r : Req) : ∃ n, hooks r (l.map Hook.body) = some { r with body := l.getLast?.or r.body, length := n } := by
  induction l generalizing r with
  | nil => exact ⟨r.length, rfl⟩
  | cons p rest ih =>
    obtain ⟨n, hn⟩ := ih { r with body := some p, length := p.length % 2 ^ 32 }
    refine ⟨n, ?_⟩
    show hooks r (Hook.body p :: rest.map Hook.body) = _
    simp only [hooks, hook]
    rw [hn]
    congr 2
    cases rest with
    | nil => rfl
    | cons a t =>
      rw [List.getLast?_cons_cons]
      have : (a :: t).getLast? = some ((a :: t).getLast (by simp)) := List.getLast?_eq_some_getLast (by simp)
      rw [this]; rfl

theorem hooks_msg (q : Msg) (r : Req) : ∃ c, hooks r q.hooks =
    some { path := some q.path, curKey := c, method := q.method, args := (q.query.map parseArgs).or r.args,
           header := some (q.headers.foldl (fun m e => put m e.1 e.2) []), length := q.length % 2 ^ 32, body := q.parts.getLast?.or r.body } := by
  unfold Msg.hooks
  rw [hooks_append, hooks_append, hooks_append, hooks_append, hooks_append]
  have h1 : hooks r [Hook.msgBegin, Hook.path q.path] = some { r with path := some q.path } := rfl
  rw [h1]
  have h2 : hooks { r with path := some q.path } (Msg.argHooks q) =
      some { r with path := some q.path, args := (q.query.map parseArgs).or r.args } := by
    unfold Msg.argHooks
    cases q.query <;> rfl
  simp only [Option.bind_some]
  rw [h2]
  simp only [Option.bind_some]
  have h3 : ∀ x : Req, hooks x [Hook.hdrsBegin] = some { x with header := some [] } := fun _ => rfl
  rw [h3]
  simp only [Option.bind_some]
  obtain ⟨c, h4⟩ := hooks_headers q.headers
    ({ r with path := some q.path, args := (q.query.map parseArgs).or r.args, header := some [] } : Req) [] rfl
  rw [h4]
  simp only [Option.bind_some]
  obtain ⟨n, h5⟩ := hooks_parts q.parts
    ({ r with path := some q.path, args := (q.query.map parseArgs).or r.args,
              header := some (q.headers.foldl (fun m e => put m e.1 e.2) []), curKey := c } : Req)
  rw [h5]
  exact ⟨c, rfl⟩

theorem or_last (a b : Option Text) (r : Option Map) : (b.map parseArgs).or ((a.map parseArgs).or r) = ((b.or a).map parseArgs).or r := by
  cases b <;> rfl

theorem getLast_append {α : Type} (a b : List α) : (a ++ b).getLast? = b.getLast?.or a.getLast? := by
  rw [List.getLast?_append]

theorem serve_snoc (before : List Msg) (q : Msg) (r : Req) : ∃ c, serve r (before ++ [q]) =
    some { path := some q.path, curKey := c, method := q.method, args := ((lastQuery (before ++ [q])).map parseArgs).or r.args,
           header := some (q.headers.foldl (fun m e => put m e.1 e.2) []), length := q.length % 2 ^ 32,
           body := (lastPart (before ++ [q])).or r.body } := by
  induction before generalizing r with
  | nil =>
    obtain ⟨c, h⟩ := hooks_msg q r
    refine ⟨c, ?_⟩
    show serve r [q] = _
    simp only [serve, h]
    congr 2
    · unfold lastQuery; cases k : q.query <;> simp [k]
    · simp [lastPart]
  | cons x rest ih =>
    obtain ⟨c1, h1⟩ := hooks_msg x r
    obtain ⟨c, h⟩ := ih (Req.mk (some x.path) c1 x.method ((x.query.map parseArgs).or r.args) (some (x.headers.foldl (fun m e => put m e.1 e.2) []))
      (x.length % 2 ^ 32) (x.parts.getLast?.or r.body))
    refine ⟨c, ?_⟩
    show serve r (x :: (rest ++ [q])) = _
    simp only [serve, h1, h]
    congr 2
    · rw [or_last]
      congr 2
      unfold lastQuery
      cases k : x.query with
      | none => simp [k]
      | some s =>
        rw [List.cons_append, List.filterMap_cons_some (b := s) k, show s :: List.filterMap Msg.query (rest ++ [q]) =
          [s] ++ List.filterMap Msg.query (rest ++ [q]) from rfl, getLast_append]
        rfl
    · unfold lastPart
      rw [List.cons_append, List.flatMap_cons, getLast_append, Option.or_assoc]

/-! ## Handlers -/

theorem dec_inj : ∀ a b : Fin 17, ∀ h : dec a = dec b, a = b := by decide

theorem dec_colon : ∀ a : Fin 17, 58 ∉ dec a := by decide

theorem dec_length (m : Nat) : (dec m).length ≤ 2 := by unfold dec; split <;> simp

theorem append_colon {a b x y : Text} (ha : 58 ∉ a) (hb : 58 ∉ b) (h : a ++ 58 :: x = b ++ 58 :: y) : a = b ∧ x = y := by
  induction a generalizing b with
  | nil =>
    cases b with
    | nil => exact ⟨rfl, (List.cons.inj h).2⟩
    | cons c t => exact absurd (by rw [(List.cons.inj h).1]; exact List.mem_cons_self) hb
  | cons c t ih =>
    cases b with
    | nil => exact absurd (by rw [← (List.cons.inj h).1]; exact List.mem_cons_self) ha
    | cons d s =>
      obtain ⟨e, h2⟩ := List.cons.inj h
      have := ih (fun k => ha (List.mem_cons_of_mem _ k)) (fun k => hb (List.mem_cons_of_mem _ k)) h2
      exact ⟨by rw [e, this.1], this.2⟩

theorem key_full (m : Nat) (p : Text) (hp : p.length ≤ 124) : key m p = dec m ++ 58 :: p := by
  unfold key
  have := dec_length m
  exact List.take_of_length_le (by simp only [List.length_append, List.length_cons]; omega)

theorem key_inj {m n : Nat} {p q : Text} (hm : m < 17) (hn : n < 17) (hp : p.length ≤ 124) (hq : q.length ≤ 124) :
    key m p = key n q ↔ m = n ∧ p = q := by
  rw [key_full m p hp, key_full n q hq]
  constructor
  · intro h
    obtain ⟨h1, h2⟩ := append_colon (dec_colon ⟨m, hm⟩) (dec_colon ⟨n, hn⟩) h
    exact ⟨congrArg Fin.val (dec_inj ⟨m, hm⟩ ⟨n, hn⟩ h1), h2⟩
  · rintro ⟨rfl, rfl⟩; rfl

theorem find_register {H : Type} (reg : List (Text × H)) (m : Nat) (p : Text) (h : H) (x : Text) :
    (register reg m p h).find? (fun e => e.1 == x) =
      (reg.find? (fun e => e.1 == x)).or (if key m p = x then some (key m p, h) else none) := by
  unfold register
  by_cases k : reg.any (fun e => e.1 == key m p) = true
  · rw [if_pos k]
    by_cases e : key m p = x
    · obtain ⟨y, hy, hk⟩ := List.any_eq_true.mp k
      have : (reg.find? (fun e => e.1 == x)).isSome = true := List.find?_isSome.mpr ⟨y, hy, by rw [← e]; exact hk⟩
      obtain ⟨z, hz⟩ := Option.isSome_iff_exists.mp this
      rw [hz]; rfl
    · rw [if_neg e]; simp
  · rw [if_neg k, List.find?_append]
    by_cases e : key m p = x
    · simp [e]
    · have : (key m p == x) = false := by simpa using e
      simp [e, this]

theorem find_build {H : Type} (l : List (Entry H)) (reg : List (Text × H)) (x : Text) :
    ((l.foldl (fun r e => register r e.method e.path e.handler) reg).find? (fun e => e.1 == x)).map (·.2) =
      ((reg.find? (fun e => e.1 == x)).map (·.2)).or ((l.find? (fun e => key e.method e.path == x)).map (·.handler)) := by
  induction l generalizing reg with
  | nil => simp
  | cons e rest ih =>
    rw [List.foldl_cons, ih, find_register, List.find?_cons]
    by_cases k : key e.method e.path = x
    · have : (key e.method e.path == x) = true := by simpa using k
      rw [if_pos k, this]
      cases reg.find? (fun e => e.1 == x) <;> simp
    · have : (key e.method e.path == x) = false := by simpa using k
      rw [if_neg k, this]; simp

theorem find_congr {α : Type} (l : List α) (f g : α → Bool) (h : ∀ e ∈ l, f e = g e) : l.find? f = l.find? g := by
  induction l with
  | nil => rfl
  | cons a t ih =>
    rw [List.find?_cons, List.find?_cons, h a List.mem_cons_self, ih (fun e he => h e (List.mem_cons_of_mem _ he))]

/-! ## Pages and answers -/

theorem prints_ok (l : List Text) (n : Nat) (b whole : Text) (hb : b = whole.take 7999) (hn : n = whole.length)
    (h : n + (l.dropLast.map List.length).sum ≤ 8000) :
    ∃ k, prints (n, b) l = some (k, (whole ++ l.flatten).take 7999) := by
  induction l generalizing n b whole with
  | nil => exact ⟨n, by simp [prints, hb]⟩
  | cons s rest ih =>
    have hle : n ≤ 8000 := Nat.le_trans (Nat.le_add_right _ _) h
    have e : printAt (n, b) s = some (n + s.length, b ++ s.take (7999 - n)) := by
      unfold printAt; rw [if_neg (by show ¬ 8000 < n; omega)]
    have eb : b ++ s.take (7999 - n) = (whole ++ s).take 7999 := by rw [hb, hn, List.take_append]
    cases rest with
    | nil => exact ⟨n + s.length, by simp [prints, e, eb]⟩
    | cons t u =>
      obtain ⟨k, hk⟩ := ih (n + s.length) (b ++ s.take (7999 - n)) (whole ++ s) eb (by simp [hn]) (by
        simp only [List.dropLast_cons₂, List.map_cons, List.sum_cons] at h ⊢
        omega)
      refine ⟨k, ?_⟩
      show (match printAt (n, b) s with | none => none | some st' => prints st' (t :: u)) = _
      rw [e]
      simp only []
      rw [hk]; simp

theorem prints_none (l : List Text) (n : Nat) (b : Text) (hl : l ≠ []) (h : 8000 < n + (l.dropLast.map List.length).sum) :
    prints (n, b) l = none := by
  induction l generalizing n b with
  | nil => exact absurd rfl hl
  | cons s rest ih =>
    show (match printAt (n, b) s with | none => none | some st' => prints st' rest) = _
    by_cases k : 8000 < n
    · have : printAt (n, b) s = none := if_pos k
      rw [this]
    · have : printAt (n, b) s = some (n + s.length, b ++ s.take (7999 - n)) := if_neg k
      rw [this]
      cases rest with
      | nil => simp at h; omega
      | cons t u =>
        refine ih _ _ (by simp) ?_
        simp only [List.dropLast_cons₂, List.map_cons, List.sum_cons] at h
        omega

theorem head_some (ls : List Text) (d : Text) (h : ls = [] ∨ d.length + ls.flatten.length + 1 ≤ 2048) : head d ls = some (d ++ ls.flatten) := by
  induction ls generalizing d with
  | nil => simp [head]
  | cons l rest ih =>
    rcases h with h | h
    · exact absurd h (by simp)
    · simp only [List.flatten_cons, List.length_append] at h
      unfold head
      rw [if_pos (by omega), ih (d ++ l) (Or.inr (by simp only [List.length_append]; omega))]
      simp

theorem head_none (ls : List Text) (d : Text) (hl : ls ≠ []) (h : 2048 < d.length + ls.flatten.length + 1) : head d ls = none := by
  induction ls generalizing d with
  | nil => exact absurd rfl hl
  | cons l rest ih =>
    simp only [List.flatten_cons, List.length_append] at h
    unfold head
    by_cases k : d.length + l.length + 1 ≤ 2048
    · rw [if_pos k]
      by_cases e : rest = []
      · subst e; simp at h; omega
      · exact ih _ e (by simp only [List.length_append]; omega)
    · rw [if_neg k]

theorem sendBody_prefix (body : Text) (len sent retry : Nat) (l : List Send) (hl : len ≤ body.length) (hs : sent ≤ len) :
    ∃ k, sent + k ≤ len ∧ sendBody body len sent retry l = (body.drop sent).take k := by
  induction l generalizing sent retry with
  | nil => exact ⟨0, by omega, rfl⟩
  | cons s rest ih =>
    unfold sendBody
    by_cases h : sent < len
    · rw [if_pos h]
      cases s with
      | timeout => exact ⟨0, by omega, rfl⟩
      | took n =>
        simp only []
        by_cases r : 3 < retry
        · rw [if_pos r]; exact ⟨0, by omega, rfl⟩
        · rw [if_neg r]
          generalize hk : min n (min 2048 (len - sent)) = k
          have hk2 : sent + k ≤ len := by omega
          obtain ⟨j, h1, h2⟩ := ih (sent + k) retry hk2
          refine ⟨k + j, by omega, ?_⟩
          rw [h2, List.take_add, List.drop_drop]
      | again =>
        simp only []
        by_cases r : 3 < retry
        · rw [if_pos r]; exact ⟨0, by omega, rfl⟩
        · rw [if_neg r]; exact ih sent retry hs
      | error =>
        simp only []
        by_cases r : 3 < retry
        · rw [if_pos r]; exact ⟨0, by omega, rfl⟩
        · rw [if_neg r]; exact ih sent (retry + 1) hs
    · rw [if_neg h]; exact ⟨0, by omega, rfl⟩

def errors (l : List Send) : Nat := l.countP (· == .error)

theorem sendBody_complete (body : Text) (sent retry : Nat) (l : List Send) (hs : sent ≤ body.length) (ht : Send.timeout ∉ l)
    (hr : retry + errors l ≤ 3) (hk : body.length ≤ sent + tookAll l) :
    sendBody body body.length sent retry l = body.drop sent := by
  induction l generalizing sent retry with
  | nil =>
    have : sent = body.length := by simp only [tookAll] at hk; omega
    rw [this]; simp [sendBody]
  | cons s rest ih =>
    have ht2 : Send.timeout ∉ rest := fun k => ht (List.mem_cons_of_mem _ k)
    unfold sendBody
    by_cases h : sent < body.length
    · rw [if_pos h]
      cases s with
      | timeout => exact absurd List.mem_cons_self ht
      | took n =>
        have e : errors (Send.took n :: rest) = errors rest := by simp [errors]
        rw [e] at hr
        simp only [tookAll] at hk
        simp only []
        rw [if_neg (by omega)]
        rw [ih _ _ (by omega) ht2 hr (by omega)]
        rw [show sent + min n (min 2048 (body.length - sent)) = min n (min 2048 (body.length - sent)) + sent by omega]
        rw [Nat.add_comm, ← List.drop_drop, List.take_append_drop]
      | again =>
        have e : errors (Send.again :: rest) = errors rest := by simp [errors]
        rw [e] at hr
        simp only [tookAll] at hk
        simp only []
        rw [if_neg (by omega)]
        exact ih _ _ hs ht2 hr hk
      | error =>
        have e : errors (Send.error :: rest) = errors rest + 1 := by simp [errors]
        rw [e] at hr
        simp only [tookAll] at hk
        simp only []
        rw [if_neg (by omega)]
        exact ih _ _ hs ht2 (by omega) hk
    · rw [if_neg h]
      have : sent = body.length := by omega
      rw [this]; simp

end Np.Http

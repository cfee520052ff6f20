import Verif.Http.Lemmas
/-!
# C171-C176: the http interface
-/
namespace Np.Http
open _root_.Np.Http.Spec

/-! ## C171: arguments of a query -/

/-- C171: if no name and no value contains '&' or '=', a name reads as its first value, and other names are absent. -/
theorem C171_arguments_partial (l : List (Text × Text)) (hl : ∀ e ∈ l, Plain e.1 ∧ Plain e.2) (k : Text) :
    get (parseArgs (render l)) k = first l k := by
  by_cases h : l = []
  · subst h; rfl
  · unfold parseArgs
    rw [split_render l hl h, pairs_all l _ _ (total_le l), get_fold]
    rfl

/-- `q=a&r=bc&q=d` -/
example : render [([113], [97]), ([114], [98, 99]), ([113], [100])] = [113, 61, 97, 38, 114, 61, 98, 99, 38, 113, 61, 100] ∧
    get (parseArgs [113, 61, 97, 38, 114, 61, 98, 99, 38, 113, 61, 100]) [113] = some [97] ∧
    get (parseArgs [113, 61, 97, 38, 114, 61, 98, 99, 38, 113, 61, 100]) [114] = some [98, 99] := by decide

/-- C171 fails for a name without a value: in `a&b=c` the name `b` becomes the value of `a`, and `b` is absent. -/
theorem C171_name_alone_refuted : get (parseArgs [97, 38, 98, 61, 99]) [97] = some [98] ∧ get (parseArgs [97, 38, 98, 61, 99]) [98] = none := by
  decide

/-- C171 fails for a value with '=': `q=a=b&r=c` gives `q` the value `a`, `b` the value `r`, and `r` is absent. -/
theorem C171_equals_refuted : get (parseArgs [113, 61, 97, 61, 98, 38, 114, 61, 99]) [113] = some [97] ∧
    get (parseArgs [113, 61, 97, 61, 98, 38, 114, 61, 99]) [98] = some [114] ∧
    get (parseArgs [113, 61, 97, 61, 98, 38, 114, 61, 99]) [114] = none := by decide

/-! ## C172: a handler sees its own request -/

/-- C172: after any requests on the connection, the handler of a request sees its method, path and headers (of several with one name, the first); its
arguments, if it has a query; and its body, if that arrived in one part. -/
theorem C172_own_request_partial (r : Req) (before : List Msg) (q : Msg) : ∃ r', serve r (before ++ [q]) = some r' ∧
    r'.method = q.method ∧ r'.path = some q.path ∧ (∃ h, r'.header = some h ∧ ∀ k, get h k = first q.headers k) ∧
    (∀ s, q.query = some s → r'.args = some (parseArgs s)) ∧ (∀ b, q.parts = [b] → r'.body = some b) := by
  obtain ⟨c, h⟩ := serve_snoc before q r
  refine ⟨_, h, rfl, rfl, ⟨_, rfl, fun k => by rw [get_fold]; rfl⟩, ?_, ?_⟩
  · intro s hs
    have : lastQuery (before ++ [q]) = some s := by
      unfold lastQuery
      rw [List.filterMap_append, getLast_append]
      simp [hs]
    show ((lastQuery (before ++ [q])).map parseArgs).or r.args = _
    rw [this]; rfl
  · intro b hb
    have : lastPart (before ++ [q]) = some b := by
      unfold lastPart
      rw [List.flatMap_append, getLast_append]
      simp [hb]
    show (lastPart (before ++ [q])).or r.body = _
    rw [this]; rfl

/-- A search with a query and the same path without one. -/
def ask : Msg := { method := 0, path := [47, 115], query := some [113, 61, 97], headers := [([72], [120])], parts := [], length := 0 }
def plain : Msg := { ask with query := none, headers := [] }
/-- A request with a body in two parts. -/
def post : Msg := { method := 2, path := [47, 115], query := none, headers := [([72], [120])], parts := [[1, 2, 3], [4, 5]], length := 5 }

example : (serve fresh [post, ask]).map (fun r => (r.path, r.args, r.header)) = some (some [47, 115], some [([113], [97])], some [([72], [120])]) := rfl

/-- C172 fails for the arguments: the handler of a request without a query gets the arguments of an earlier one. -/
theorem C172_old_arguments_refuted : (serve fresh [ask, plain]).map (·.args) = some (some [([113], [97])]) ∧
    (serve fresh [plain]).map (·.args) = some none := by decide

/-- C172, in general: the arguments are those of the last request that had a query. -/
theorem C172_last_query_refuted (before : List Msg) (q : Msg) : ∃ r', serve fresh (before ++ [q]) = some r' ∧
    r'.args = (lastQuery (before ++ [q])).map parseArgs := by
  obtain ⟨c, h⟩ := serve_snoc before q fresh
  exact ⟨_, h, by show ((lastQuery (before ++ [q])).map parseArgs).or none = _; simp⟩

/-- C172 fails for the body: of one that arrives in two parts the handler gets the second, with the length of both; and the handler of a request without
a body gets that of an earlier one. -/
theorem C172_body_refuted : (serve fresh [post]).map (fun r => (r.body, r.length)) = some (some [4, 5], 5) ∧
    (serve fresh [post, plain]).map (fun r => (r.body, r.length)) = some (some [4, 5], 0) := by decide

/-! ## C173: the handler of a path -/

/-- C173: among handlers with paths of at most 124 bytes, a request with a path that is as short is given to the first one that was registered for its
method and path, and to no other; without one it is answered by the library. -/
theorem C173_handler_partial {H : Type} (l : List (Entry H)) (hl : ∀ e ∈ l, e.Fits) (r : Req) (c : Nat) (p : Text) (hr : r.path = some (c :: p))
    (hm : r.method < 17) (hp : p.length ≤ 124) :
    dispatch (build l) r = match l.find? (fun e => e.method == r.method && e.path == p) with
      | some e => .call e.handler
      | none => if r.method = 0 then .notFound else .notImplemented := by
  have hf : l.find? (fun e => key e.method e.path == key r.method p) = l.find? (fun e => e.method == r.method && e.path == p) := by
    refine find_congr l _ _ fun e he => ?_
    rw [Bool.eq_iff_iff]
    simp only [beq_iff_eq, Bool.and_eq_true]
    exact key_inj (hl e he).1 hm (hl e he).2 hp
  have h := find_build l [] (key r.method p)
  rw [hf] at h
  unfold dispatch build
  rw [hr]
  simp only []
  cases k : l.find? (fun e => e.method == r.method && e.path == p) with
  | none =>
    rw [k] at h
    cases z : (l.foldl (fun r e => register r e.method e.path e.handler) []).find? (fun e => e.1 == key r.method p) with
    | none => rfl
    | some y => rw [z] at h; simp at h
  | some e =>
    rw [k] at h
    cases z : (l.foldl (fun r e => register r e.method e.path e.handler) []).find? (fun e => e.1 == key r.method p) with
    | none => rw [z] at h; simp at h
    | some y =>
      rw [z] at h
      simp at h
      simp only [h]

/-- Handlers 1 and 2 for two paths, 3 for another method. -/
def table : List (Entry Nat) := [⟨0, [115], 1⟩, ⟨0, [115, 47], 2⟩, ⟨12, [115], 3⟩]

example : (∀ e ∈ table, e.Fits) ∧ dispatch (build table) { fresh with path := some [47, 115, 47] } = .call 2 ∧
    dispatch (build table) { fresh with path := some [47, 115], method := 12 } = .call 3 ∧
    dispatch (build table) { fresh with path := some [47, 116] } = .notFound := by
  refine ⟨?_, by decide, by decide, by decide⟩
  intro e he
  simp only [table, List.mem_cons, List.not_mem_nil, or_false] at he
  rcases he with rfl | rfl | rfl <;> exact ⟨by decide, by decide⟩

/-- C173 fails when a handler is registered again: the old one stays. -/
theorem C173_again_refuted : dispatch (build [⟨0, [115], 1⟩, ⟨0, [115], 2⟩]) { fresh with path := some [47, 115] } = .call 1 := by decide

/-- C173 fails for long paths: every request whose path agrees with a registered one in the first 125 bytes is given to its handler. -/
theorem C173_long_path_refuted {H : Type} (p a b : Text) (hp : p.length = 125) (h : H) :
    dispatch (build [⟨0, p ++ a, h⟩]) { fresh with path := some (47 :: (p ++ b)) } = .call h := by
  have k : ∀ x : Text, key 0 (p ++ x) = 48 :: 58 :: p := by
    intro x
    unfold key
    show ([48, 58] ++ (p ++ x)).take 127 = _
    rw [← List.append_assoc, List.take_append_of_le_length (by simp [hp]), List.take_of_length_le (by simp [hp])]
    rfl
  unfold dispatch build
  simp only [List.foldl_cons, List.foldl_nil, register, List.any_nil, Bool.false_eq_true, if_false, List.nil_append]
  rw [show ({ fresh with path := some (47 :: (p ++ b)) } : Req).method = 0 from rfl, k, k]
  simp

/-- C173 fails without a path: the parser calls nothing for the path of a line without a version (`GET /x`, framework/http/htparse.c:1091-1095), and the
first request of a connection is then looked up at an address that is not one. -/
theorem C173_no_path_refuted : (hooks fresh [.msgBegin, .hdrsBegin, .complete 0 0]).map (dispatch (build table)) = some .fault := by decide

/-! ## C174: the code of an answer -/

/-- C174: every name but two is sent as the code it stands for. -/
theorem C174_code_partial (n : Name) (h1 : n ≠ .created) (h2 : n ≠ .accepted) : codeOf n.number = some n.code := by
  cases n <;> first | rfl | exact absurd rfl h1 | exact absurd rfl h2

example : codeOf Name.notFound.number = some 404 := rfl

/-- C174 fails for the two others: they are exchanged. -/
theorem C174_created_accepted_refuted : codeOf Name.created.number = some 202 ∧ codeOf Name.accepted.number = some 201 := by decide

/-- C174 fails for a handler that returns the code itself: that is a read behind the table. -/
theorem C174_code_itself_refuted (c : Nat) (h : 100 ≤ c) : codeOf c = none := by
  unfold codeOf
  exact List.getElem?_eq_none (by show 22 ≤ c; omega)

/-! ## C175: the page for an unknown path -/

/-- C175: with at most 8000 bytes before its last two, the page is what it should be, cut after 7999 bytes; with more, bytes behind the buffer are
written. -/
theorem C175_page_partial (before behind k : Text) (known : List Text) :
    ((before ++ k ++ behind ++ list known).length ≤ 8000 →
      page before behind k known = some ((before ++ k ++ behind ++ list known ++ [93, 125]).take 7999)) ∧
    (8000 < (before ++ k ++ behind ++ list known).length → page before behind k known = none) := by
  have e1 : ((before ++ k ++ behind) :: known.map (fun p => 34 :: p ++ [34, 44]) ++ [[93, 125]]).dropLast =
      (before ++ k ++ behind) :: known.map (fun p => 34 :: p ++ [34, 44]) := by
    rw [List.dropLast_concat]
  have e2 : (((before ++ k ++ behind) :: known.map (fun p => 34 :: p ++ [34, 44])).map List.length).sum =
      (before ++ k ++ behind ++ list known).length := by
    rw [← List.length_flatten, List.flatten_cons, ← List.flatMap_def]; rfl
  unfold page
  constructor
  · intro h
    obtain ⟨n, hn⟩ := prints_ok ((before ++ k ++ behind) :: known.map (fun p => 34 :: p ++ [34, 44]) ++ [[93, 125]]) 0 [] [] rfl rfl
      (by rw [e1, e2]; omega)
    rw [hn]
    show some _ = some _
    congr 2
    rw [List.flatten_append, List.flatten_cons, ← List.flatMap_def]
    simp [list]
  · intro h
    rw [prints_none _ 0 [] (by simp) (by rw [e1, e2]; omega)]
    rfl

example : page [123] [91] [120] [[97], [98]] = some [123, 120, 91, 34, 97, 34, 44, 34, 98, 34, 44, 93, 125] := by decide

/-- The path under which the data of node `i` is registered when it is first received: `0:sysinfo/` and 64 digits
(framework/sysinfo/np_sysinfo.c:280-286). -/
def node (i : Nat) : Text := [48, 58, 115, 121, 115, 105, 110, 102, 111, 47] ++ List.replicate 61 48 ++ [48 + i / 100, 48 + i / 10 % 10, 48 + i % 10]

theorem list_node (l : List Nat) : (list (l.map node)).length = 77 * l.length := by
  induction l with
  | nil => rfl
  | cons i t ih =>
    have e : list ((i :: t).map node) = (34 :: node i ++ [34, 44]) ++ list (t.map node) := rfl
    rw [e, List.length_append, ih]
    simp only [node, List.length_append, List.length_cons, List.length_nil, List.length_replicate]
    omega

/-- C175 fails with the data of 104 other nodes: any request for an unknown path writes behind the buffer. -/
theorem C175_nodes_refuted (before behind k : Text) : page before behind k ((List.range 104).map node) = none := by
  refine (C175_page_partial before behind k _).2 ?_
  have : (list ((List.range 104).map node)).length = 8008 := by
    rw [list_node, List.length_range]
  rw [List.length_append, this]
  omega

/-- These are different paths. -/
example (i j : Nat) (hi : i < 104) (hj : j < 104) (h : node i = node j) : i = j := by
  have := List.append_cancel_left h
  simp only [List.cons.injEq] at this
  omega

/-! ## C176: what is sent -/

/-- C176: the head of an answer is written as it should be if it has at most 2047 bytes; a longer one writes behind the buffer. -/
theorem C176_head_partial (ls : List Text) (hl : ls ≠ []) :
    (ls.flatten.length ≤ 2047 → head [] ls = some ls.flatten) ∧ (2047 < ls.flatten.length → head [] ls = none) := by
  constructor
  · intro h
    rw [head_some ls [] (Or.inr (by simp only [List.length_nil]; omega)), List.nil_append]
  · intro h
    exact head_none ls [] hl (by simp only [List.length_nil]; omega)

example : head [] [[72, 13, 10], [97, 58, 32, 98, 13, 10], [13, 10]] = some [72, 13, 10, 97, 58, 32, 98, 13, 10, 13, 10] := by decide

/-- C176 fails for a handler that sets a long header. -/
theorem C176_long_header_refuted : head [] [[72, 13, 10], List.replicate 2043 97 ++ [13, 10], [13, 10]] = none := by
  refine (C176_head_partial _ (List.cons_ne_nil _ _)).2 ?_
  simp only [List.flatten_cons, List.flatten_nil, List.length_append, List.length_cons, List.length_nil, List.length_replicate]
  omega

/-- C176: if the head is taken at once, the peer gets a beginning of head and body, whatever happens. -/
theorem C176_beginning_partial (hd body : Text) (n : Nat) (hn : hd.length ≤ n) (sends : List Send) : answer hd body n sends <+: hd ++ body := by
  obtain ⟨k, _, h⟩ := sendBody_prefix body body.length 0 0 sends (Nat.le_refl _) (Nat.zero_le _)
  unfold answer
  rw [h, List.take_of_length_le hn]
  exact (List.prefix_append_right_inj hd).mpr (List.take_prefix _ _)

/-- C176: it gets all of it, if at most three errors occur, the time is not over and enough is taken. -/
theorem C176_complete_partial (hd body : Text) (n : Nat) (hn : hd.length ≤ n) (sends : List Send) (ht : Send.timeout ∉ sends)
    (he : sends.countP (· == .error) ≤ 3) (hk : body.length ≤ tookAll sends) : answer hd body n sends = hd ++ body := by
  unfold answer
  rw [sendBody_complete body 0 0 sends (Nat.zero_le _) ht (by rw [Nat.zero_add]; exact he) (by omega), List.take_of_length_le hn]
  rfl

example : answer [72] [1, 2, 3, 4, 5] 1 [.took 2, .again, .error, .took 1, .error, .again, .took 7] = [72, 1, 2, 3, 4, 5] := by decide

/-- C176 fails if only a part of the head is taken: the rest of it is missing, and the body follows. -/
theorem C176_head_cut_refuted : answer [72, 73, 74] [1, 2] 2 [.took 2] = [72, 73, 1, 2] ∧
    ¬ answer [72, 73, 74] [1, 2] 2 [.took 2] <+: [72, 73, 74] ++ [1, 2] := by decide

/-- C176 fails after an error in the middle: the connection stays open (framework/http/np_http.c:449), and the next answer follows the part of the first
one that was sent. -/
theorem C176_next_answer_refuted :
    answer [72] [1, 2, 3] 1 [.took 1, .error, .error, .error, .error, .took 2] ++ answer [72] [4] 1 [.took 1] = [72, 1, 72, 4] := by decide

end Np.Http

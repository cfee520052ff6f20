import Verif.Htp.Lemmas
import Verif.Http.Props
/-! The properties of the http parser. -/
namespace Np.Htp
open _root_.Np.Http (Text Hook Req fresh)
open _root_.Np.Htp.Spec

/-- `POST /a?q=1 HTTP/1.1`, `Host: h`, `Content-Length: 3`, body `xyz` -/
def sample : Request :=
  { word := [80, 79, 83, 84], method := 2, path := [47, 97], query := some [113, 61, 49], minor := 49,
    headers := [([72, 111, 115, 116], [104]), ([67, 111, 110, 116, 101, 110, 116, 45, 76, 101, 110, 103, 116, 104], [51])], body := [120, 121, 122] }

theorem sample_fits : sample.Fits := by
  refine ⟨⟨by decide, ⟨[97], rfl, by decide⟩, ?_, by decide, Or.inr rfl, ?_⟩, by decide⟩
  · intro s h; cases h; decide
  · intro h hm
    simp only [sample, List.mem_cons, List.not_mem_nil, or_false] at hm
    rcases hm with rfl | rfl <;> exact ⟨by decide, by decide, by decide, by decide⟩

/-- `GET / HTTP/1.0`, without headers -/
def small' : Request := { word := [71, 69, 84], method := 0, path := [47], query := none, minor := 48, headers := [], body := [] }

theorem small_fits : small'.Fits := by
  refine ⟨⟨by decide, ⟨[], rfl, by decide⟩, ?_, by decide, Or.inl rfl, ?_⟩, by decide⟩
  · intro s h; cases h
  · intro h hm; cases hm

/-! ## C177: a request is read as it was written -/

/-- C177: of a request of the usual form the interface is told the method, the path, what follows the question mark, the headers in their order, the body
and its length, once each, and the request is over. -/
theorem C177_request_partial {p : P} (hp : Ready p) {r : Request} (hr : r.Fits) : ∃ q, Ready q ∧ run p r.text =
    (q, [.msgBegin, .path r.path] ++ (match r.query with | none => [] | some s => [.args s]) ++ [.hdrsBegin] ++
      r.headers.flatMap (fun h => [.hdrKey h.1, .hdrVal h.2]) ++ (if r.body = [] then [] else [.body r.body]) ++ [.complete r.method r.body.length], .ret) := by
  obtain ⟨q, hq, h⟩ := run_request hp hr []
  rw [List.append_nil] at h
  refine ⟨q, hq, ?_⟩
  rw [h]
  simp only [Np.Http.Msg.hooks, Np.Http.Msg.argHooks, Request.msg]
  cases r.query <;> by_cases hb : r.body = [] <;> simp [hb]

example : Ready idle ∧ sample.Fits ∧ small'.Fits := ⟨⟨rfl, rfl⟩, sample_fits, small_fits⟩

/-- C177, up to the handler: it sees the method, the path, the headers (of several with one name, the first), and the body if there is one. -/
theorem C177_handler_partial {p : P} (hp : Ready p) {r : Request} (hr : r.Fits) (old : Req) : ∃ seen, Http.hooks old (run p r.text).2.1 = some seen ∧
    seen.method = r.method ∧ seen.path = some r.path ∧ (∃ h, seen.header = some h ∧ ∀ k, Http.get h k = Http.Spec.first r.headers k) ∧
    (r.body ≠ [] → seen.body = some r.body) := by
  obtain ⟨q, _, h⟩ := run_request hp hr []
  rw [List.append_nil] at h
  obtain ⟨seen, h1, h2, h3, h4, _, h6⟩ := Http.C172_own_request_partial old [] r.msg
  rw [h]
  have h1' : Http.hooks old r.msg.hooks = some seen := by
    rw [List.nil_append, Http.serve] at h1
    cases hh : Http.hooks old r.msg.hooks with
    | none => rw [hh] at h1; cases h1
    | some x => rw [hh] at h1; simpa [Http.serve] using h1
  exact ⟨seen, h1', h2, h3, h4, fun hb => h6 r.body (by simp [Request.msg, hb])⟩

/-- `POST /a HTTP/1.1`, `Transfer-Encoding: chunked`, and the body `xyz` in the chunks `xy` and `z` -/
def chunks : Text :=
  [80, 79, 83, 84, 32, 47, 97, 32, 72, 84, 84, 80, 47, 49, 46, 49, 13, 10] ++
  [84, 114, 97, 110, 115, 102, 101, 114, 45, 69, 110, 99, 111, 100, 105, 110, 103, 58, 32, 99, 104, 117, 110, 107, 101, 100, 13, 10, 13, 10] ++
  [50, 13, 10, 120, 121, 13, 10, 49, 13, 10, 122, 13, 10, 48, 13, 10, 13, 10]

theorem run_chunks : (run idle chunks).2 = ([.msgBegin, .path [47, 97], .hdrsBegin,
    .hdrKey [84, 114, 97, 110, 115, 102, 101, 114, 45, 69, 110, 99, 111, 100, 105, 110, 103], .hdrVal [99, 104, 117, 110, 107, 101, 100],
    .body [120, 121], .body [122], .complete 2 0], .ret) := by
  rw [run_eval]; decide +kernel

/-- C177 fails for a body in chunks: the handler gets the last chunk, and the length 0. -/
theorem C177_chunks_refuted : (Http.hooks fresh (run idle chunks).2.1).map (fun r => (r.body, r.length)) = some (some [122], 0) := by
  rw [run_chunks]; decide

/-! ## C178: how the bytes arrive does not matter -/

/-- C178: whatever the bytes and wherever they are cut, up to the end of the request the parser makes the same calls with the same bytes of the body in the
same order, and ends in the same state and in the same way, as if they had arrived at once. -/
theorem C178_cut (p : P) (pieces : List Text) : (feed p pieces).1 = (run p pieces.flatten).1 ∧
    items (feed p pieces).2.1 = items (run p pieces.flatten).2.1 ∧ (feed p pieces).2.2 = (run p pieces.flatten).2.2 := feed_same pieces p

/-- C178, for a request of the usual form, from a parser between two requests. -/
theorem C178_request {p : P} (hp : Ready p) {r : Request} (hr : r.Fits) (pieces : List Text) (h : pieces.flatten = r.text) :
    Ready (feed p pieces).1 ∧ items (feed p pieces).2.1 = items r.msg.hooks ∧ (feed p pieces).2.2 = .ret := by
  obtain ⟨h1, h2, h3⟩ := C178_cut p pieces
  obtain ⟨q, hq, e⟩ := run_request hp hr []
  rw [List.append_nil] at e
  rw [h, e] at h1 h2 h3
  exact ⟨h1 ▸ hq, h2, h3⟩

example : ([sample.text.take 20, [], (sample.text.drop 20).take 33, sample.text.drop 53] : List Text).flatten = sample.text := by decide
/-- The last cut is inside the body. -/
example : sample.head.length < 53 ∧ 53 < sample.text.length := by decide

/-! ## C179: no request ends the process -/

/-- C179: requests of the usual form, each in a read of its own, never run into an assertion, whatever was seen before. -/
theorem C179_usual_partial {p : P} (hp : Ready p) (rs : List Request) (hr : ∀ r ∈ rs, r.Fits) (old : Req) :
    ∃ seen, Http.hooks old ((reads p (rs.map Request.text)).2.flatMap (·.1)) = some seen := by
  rw [(reads_requests rs hr p hp).2, List.flatMap_map]
  induction rs generalizing old with
  | nil => exact ⟨old, rfl⟩
  | cons r rs ih =>
    obtain ⟨x, hx⟩ : ∃ x, Http.hooks old r.msg.hooks = some x := by
      obtain ⟨seen, h1, _⟩ := Http.C172_own_request_partial old [] r.msg
      rw [List.nil_append, Http.serve] at h1
      cases hh : Http.hooks old r.msg.hooks with
      | none => rw [hh] at h1; cases h1
      | some x => exact ⟨x, rfl⟩
    obtain ⟨y, hy⟩ := ih (fun r h => hr r (by simp [h])) x
    refine ⟨y, ?_⟩
    rw [List.flatMap_cons, Http.hooks_append, hx]
    exact hy

example : ∀ r ∈ [sample, small', sample], r.Fits := by
  intro r h
  simp only [List.mem_cons, List.not_mem_nil, or_false] at h
  rcases h with rfl | rfl | rfl
  · exact sample_fits
  · exact small_fits
  · exact sample_fits

/-- `GET /x HTTP/1.1`, CR, LF, `foo`, CR, LF, CR, LF -/
def noColon : Text := [71, 69, 84, 32, 47, 120, 32, 72, 84, 84, 80, 47, 49, 46, 49, 13, 10, 102, 111, 111, 13, 10, 13, 10]

theorem run_noColon : (run idle noColon).2 = ([.msgBegin, .path [47, 120], .hdrsBegin, .hdrVal [102, 111, 111], .complete 0 0], .ret) := by
  rw [run_eval]; decide +kernel

/-- C179 fails: a header line without a colon runs into an assertion, and the process ends. -/
theorem C179_no_colon_refuted : Http.hooks fresh (run idle noColon).2.1 = none := by rw [run_noColon]; decide

/-- `GET /x HTTP/1.1`, a blank, LF, `A: b`, CR, LF, CR, LF -/
def blankLf : Text := [71, 69, 84, 32, 47, 120, 32, 72, 84, 84, 80, 47, 49, 46, 49, 32, 10, 65, 58, 32, 98, 13, 10, 13, 10]

theorem run_blankLf : (run idle blankLf).2 = ([.msgBegin, .path [47, 120], .hdrKey [65], .hdrVal [98], .complete 0 0], .ret) := by
  rw [run_eval]; decide +kernel

/-- C179 fails: after a blank and a LF at the end of the request line there is no place for the headers, and the first of them runs into an assertion. -/
theorem C179_blank_refuted : Http.hooks fresh (run idle blankLf).2.1 = none := by rw [run_blankLf]; decide

/-- `GET /x`, CR, LF, CR, LF -/
def noVersion : Text := [71, 69, 84, 32, 47, 120, 13, 10, 13, 10]

theorem run_noVersion : (run idle noVersion).2 = ([.msgBegin, .hdrsBegin, .complete 0 0], .ret) := by
  rw [run_eval]; decide +kernel

/-- C179 fails: for a request line without a version the interface is not told of the path; as the first request of a connection it is looked up with a path
that is not there. -/
theorem C179_no_version_refuted : (Http.hooks fresh (run idle noVersion).2.1).map (Http.dispatch (H := Nat) []) = some .fault := by
  rw [run_noVersion]; decide

/-! ## C180: every request of a connection is answered -/

/-- C180: of requests that arrive in a read each, all are read. -/
theorem C180_one_per_read_partial {p : P} (hp : Ready p) (rs : List Request) (hr : ∀ r ∈ rs, r.Fits) :
    (reads p (rs.map Request.text)).2 = rs.map (fun r => (r.msg.hooks, .ret)) := (reads_requests rs hr p hp).2

/-- C180 fails for requests that arrive together: whatever follows the first one in the read is lost. -/
theorem C180_together_refuted {p : P} (hp : Ready p) {r : Request} (hr : r.Fits) (others : List Request) :
    ∃ q, Ready q ∧ run p (r.text ++ others.flatMap Request.text) = (q, r.msg.hooks, .ret) := run_request hp hr _

/-- C180 fails after an empty line: a request that arrives together with an empty line before it is lost, and there is no answer. -/
theorem C180_empty_line_refuted {p : P} (hp : Ready p) (r : Request) : ∃ q, Ready q ∧ run p ([13, 10] ++ r.text) = (q, [], .ret) := by
  obtain ⟨h1, h2⟩ := hp
  refine ⟨{ p with args := none, method := 16, len := 0, orig := 0, chunked := false, trailing := false }, ⟨h1, h2⟩, ?_⟩
  rw [List.cons_append]
  exact run_stop (by simp [h2]) (by rw [h1]; rfl) (by simp [step, h1]) (by simp)

/-! ## C181: the length of a body -/

/-- C181: with less than the declared number of bytes after the headers the request is not over; with as many or more it is, and its body is the declared
number of bytes. -/
theorem C181_length_partial {p : P} (hp : Ready p) {r : Request} (hr : r.HeadFits) (d : Text) :
    (d.length < declared r.headers → (run p (r.head ++ d)).2.2 = .cont ∧ ∀ m n, .complete m n ∉ (run p (r.head ++ d)).2.1) ∧
    (declared r.headers ≤ d.length → (run p (r.head ++ d)).2 = ({ r with body := d.take (declared r.headers) }.msg.hooks, .ret)) := by
  constructor
  · intro h
    obtain ⟨q, e⟩ := run_wait hp hr d h
    rw [e]
    refine ⟨rfl, fun m n hm => ?_⟩
    simp only [headHooks, uriHooks, hdrHooks, List.mem_append, List.mem_cons, List.mem_flatMap, List.not_mem_nil, or_false, reduceCtorEq, false_or] at hm
    rcases hm with (hm | ⟨a, _, hm⟩) | hm
    · simp only [Http.Msg.argHooks, Request.msg] at hm
      cases hq : r.query <;> simp [hq] at hm
    · simp at hm
    · split at hm <;> simp at hm
  · intro h
    have hf : ({ r with body := d.take (declared r.headers) } : Request).Fits :=
      { word := hr.word, path := hr.path, query := hr.query, size := hr.size, minor := hr.minor, headers := hr.headers, body := by simp [h] }
    obtain ⟨q, _, e⟩ := run_request hp hf (d.drop (declared r.headers))
    have e2 : ({ r with body := d.take (declared r.headers) } : Request).text ++ d.drop (declared r.headers) = r.head ++ d := by
      simp only [Request.text, List.append_assoc, List.take_append_drop]
      rfl
    rw [e2] at e
    rw [e]

example : declared sample.headers = 3 := by decide
example : number [49, 50, 48] = 120 := by decide

/-- `GET / HTTP/1.1`, `Content-Length: 30000000000000000000` -/
def huge : Text :=
  [71, 69, 84, 32, 47, 32, 72, 84, 84, 80, 47, 49, 46, 49, 13, 10] ++
  [67, 111, 110, 116, 101, 110, 116, 45, 76, 101, 110, 103, 116, 104, 58, 32] ++ (51 :: List.replicate 19 48) ++ [13, 10, 13, 10]

/-- C181 fails for 20 digits: a length that 64 bits cannot hold is taken for another one, and there is no error. -/
theorem C181_huge_refuted : (run idle huge).2.2 = .cont ∧ (run idle huge).1.st = .body ∧ (run idle huge).1.len = 11553255926290448384 ∧
    number (51 :: List.replicate 19 48) = 30000000000000000000 := by
  rw [run_eval]; decide +kernel

/-! ## C182: the buffer of the parser -/

/-- C182: whatever arrives, the parser never holds more bytes than its buffer has. -/
theorem C182_bound_partial (rs : List Text) : (reads idle rs).1.buf.length ≤ 8192 := by
  have : ∀ p : P, p.buf.length ≤ 8192 → (reads p rs).1.buf.length ≤ 8192 := by
    induction rs with
    | nil => intro p h; exact h
    | cons a rs ih => intro p h; exact ih _ (run_buf a.length a (Nat.le_refl _) p h)
  exact this idle (by decide)

/-- C182: a path that does not fit is refused, and the interface is not told of it. -/
theorem C182_long_path_partial {p : P} (hp : Ready p) {w : Text} {m : Nat} (hw : (w, m) ∈ words) (s : Text)
    (hs : ∀ c ∈ s, c ≠ 32 ∧ c ≠ 63 ∧ c ≠ 13 ∧ c ≠ 10) (hl : 8192 ≤ s.length) (rest : Text) :
    (run p (w ++ [32] ++ (47 :: s) ++ rest)).2 = ([.msgBegin], .err) := by
  have hm : m ≠ 14 := by
    intro h; rw [h] at hw
    simp [words] at hw
  obtain ⟨c, t, hct⟩ : ∃ c t, s.drop 8191 = c :: t := by
    cases h : s.drop 8191 with
    | nil => simp at h; omega
    | cons c t => exact ⟨c, t, rfl⟩
  have h1 : step (afterWord p m) 47 = ({ (afterWord p m).add 47 with st := .slash }, [], .cont) := by simp [step, afterWord, hm]
  obtain ⟨s', _, h3⟩ := run_path (p := { (afterWord p m).add 47 with st := .slash }) (Or.inl rfl) (s.take 8191)
    (fun c hc => hs c (List.mem_of_mem_take hc)) (by simp [P.add, afterWord]; omega) (c :: (t ++ rest))
  have e : w ++ [32] ++ (47 :: s) ++ rest = w ++ [32] ++ (47 :: (s.take 8191 ++ (c :: (t ++ rest)))) := by
    have : s = s.take 8191 ++ (c :: t) := by rw [← hct, List.take_append_drop]
    conv => lhs; rw [this]
    simp
  rw [e, run_word hp hw, run_step (by simp [afterWord]) rfl h1, h3, run_full]
  · rfl
  · simp [P.add, afterWord]; omega

example : (([71, 69, 84] : Text), 0) ∈ words ∧ ∀ c ∈ List.replicate 9000 97, c ≠ 32 ∧ c ≠ 63 ∧ c ≠ 13 ∧ c ≠ 10 := by
  refine ⟨by decide, fun c hc => ?_⟩
  rw [List.eq_of_mem_replicate hc]; decide

/-- C182 fails for the byte after the buffer: the buffer has 8192 bytes, and after each one that is put there a zero is written behind it; with a path of
8192 bytes that is behind the buffer. -/
theorem C182_zero_refuted : (run idle ([71, 69, 84] ++ [32] ++ (47 :: List.replicate 8191 97))).1.buf.length = 8192 := by
  have : ∀ t : Text, (∀ c ∈ t, c ≠ 32 ∧ c ≠ 63 ∧ c ≠ 13 ∧ c ≠ 10) → t.length = 8191 → (run idle ([71, 69, 84] ++ [32] ++ (47 :: t))).1.buf.length = 8192 := by
    intro t ht hl
    have h1 : step (afterWord idle 0) 47 = ({ (afterWord idle 0).add 47 with st := .slash }, [], .cont) := rfl
    obtain ⟨s', _, h3⟩ := run_path (p := { (afterWord idle 0).add 47 with st := .slash }) (Or.inl rfl) t ht (by simp [P.add, afterWord]; omega) []
    rw [List.append_nil] at h3
    rw [run_word ⟨rfl, rfl⟩ (m := 0) (by decide), run_step (by simp [afterWord]) rfl h1, h3, run_nil]
    simp [pre, P.add, afterWord, hl]
  refine this _ (fun c hc => ?_) (List.length_replicate ..)
  rw [List.eq_of_mem_replicate hc]; decide

/-! ## C183: after an answer "400" the connection goes on -/

/-- C183: after data that does not begin like a request, the requests that follow are read. -/
theorem C183_first_byte_partial {p : P} (hp : Ready p) (c : Nat) (hc : (c < 65 ∨ 90 < c) ∧ c ≠ 95 ∧ c ≠ 13 ∧ c ≠ 10) (t : Text) (rs : List Request)
    (hr : ∀ r ∈ rs, r.Fits) : (reads p ((c :: t) :: rs.map Request.text)).2 = ([], .err) :: rs.map (fun r => (r.msg.hooks, .ret)) := by
  obtain ⟨h1, h2⟩ := hp
  obtain ⟨c1, c2, c3, c4⟩ := hc
  have h : run p (c :: t) = ({ p with args := none, method := 16, len := 0, orig := 0, chunked := false, trailing := false }, [], .err) :=
    run_stop (by simp [h2]) (by rw [h1]; rfl) (by simp [step, h1, c1, c2, c3, c4]) (by simp)
  simp only [reads, h]
  rw [(reads_requests rs hr { p with args := none, method := 16, len := 0, orig := 0, chunked := false, trailing := false } ⟨h1, h2⟩).2]

example : (((0 : Nat) < 65 ∨ 90 < 0) ∧ 0 ≠ 95 ∧ 0 ≠ 13 ∧ (0 : Nat) ≠ 10) := by decide

/-- `GET / HTTP/1.1`, LF -/
def lf : Text := [71, 69, 84, 32, 47, 32, 72, 84, 84, 80, 47, 49, 46, 49, 10]

theorem run_lf : run idle lf = ({ idle with st := .minor, method := 0 }, [.msgBegin, .path [47]], .err) := by
  rw [run_eval]; decide +kernel

/-- C183 fails for data that begins like a request: after a request line that ends with a LF alone, which is answered with "400", every later request of the
connection is answered with "400", however many and however correct. -/
theorem C183_stuck_refuted (rs : List Request) (hr : ∀ r ∈ rs, r.Fits) :
    (reads idle (lf :: rs.map Request.text)).2 = ([.msgBegin, .path [47]], .err) :: rs.map (fun _ => ([], .err)) := by
  simp only [reads, run_lf]
  rw [reads_stuck rs hr _ rfl (by decide)]

end Np.Htp

import Verif.Http.Model
/-!
# Model of the http parser, `framework/http/htparse.c`, as it is used by `framework/http/np_http.c`

Only requests (`htp_type_request`).  Not modelled: a scheme, host or port in the request line (states `s_schema` to `s_port`, and method CONNECT), for which
the model ends with `Flow.unknown`.  Calls that np_http.c leaves empty are not recorded; the others return 0, so the branches for `res != 0` are not taken.
Bytes are natural numbers below 256.
-/
namespace Np.Htp
open _root_.Np.Http (Text Hook)

/-- `enum parser_state`, framework/http/htparse.c:73-117, without the states for scheme, host, port and responses, and without `s_hdrline_done`, which no
line enters because `content_len` is unsigned (1775-1782). -/
inductive St
  | start | method | spaces | slash | check | uri | http09 | h | ht | htt | http | major1 | major | minor1 | minor | after | almost | done | hstart | halmost
  | hdone | hkey | hspace | hval | lalmost | body | csize0 | csize | csizeEnd | cdata | cdataEnd | cdataDone
  deriving DecidableEq, Repr

/-- `enum eval_hdr_val`, framework/http/htparse.c:56-64, for the two headers that matter here. -/
inductive Eval | none | contentLength | transferEncoding
  deriving DecidableEq, Repr

/-- `struct htparser`, framework/http/htparse.c:123-154.  `buf`: the first `buf_idx` bytes of the buffer; `args`: `args_offset` as a number.  The path starts
at the beginning of the buffer (712). -/
structure P where
  st : St
  buf : Text
  args : Option Nat
  method : Nat
  len : Nat
  orig : Nat
  heval : Eval
  chunked : Bool
  trailing : Bool
  deriving DecidableEq, Repr

/-- A new parser. -/
def idle : P := ⟨.start, [], none, 0, 0, 0, .none, false, false⟩

/-- How `htparser_run` goes on after a byte: with the next one, it returns, it returns with an error, or the model ends. -/
inductive Flow | cont | ret | err | unknown
  deriving DecidableEq, Repr

/-- `buf[buf_idx++] = ch; buf[buf_idx] = 0`, for example framework/http/htparse.c:984-985. -/
def P.add (p : P) (c : Nat) : P := { p with buf := p.buf ++ [c] }

/-- The method for a word, framework/http/htparse.c:558-647 and framework/http/htparse.h:23-41. -/
def methodOf (w : Text) : Nat :=
  if w = [71, 69, 84] then 0
  else if w = [72, 69, 65, 68] then 1
  else if w = [80, 79, 83, 84] then 2
  else if w = [80, 85, 84] then 3
  else if w = [68, 69, 76, 69, 84, 69] then 4
  else if w = [77, 75, 67, 79, 76] then 5
  else if w = [67, 79, 80, 89] then 6
  else if w = [77, 79, 86, 69] then 7
  else if w = [79, 80, 84, 73, 79, 78, 83] then 8
  else if w = [80, 82, 79, 80, 70, 73, 78, 68] then 9
  else if w = [80, 82, 79, 80, 80, 65, 84, 67, 72] then 10
  else if w = [76, 79, 67, 75] then 11
  else if w = [85, 78, 76, 79, 67, 75] then 12
  else if w = [84, 82, 65, 67, 69] then 13
  else if w = [67, 79, 78, 78, 69, 67, 84] then 14
  else if w = [80, 65, 84, 67, 72] then 15
  else 16

/-- The table `usual`, framework/http/htparse.c:156-163: all bytes but NUL, LF, CR, space and `# % + . / ?`. -/
def usual (c : Nat) : Bool := !([0, 10, 13, 32, 35, 37, 43, 46, 47, 63].contains c)

/-- `tolower` of the C library for ASCII. -/
def lower (c : Nat) : Nat := if 65 ≤ c ∧ c ≤ 90 then c + 32 else c

/-- The headers with a meaning, framework/http/htparse.c:1468-1501: "content-length" and "transfer-encoding" in any case. -/
def evalOf (k : Text) : Eval :=
  if k.map lower = [99, 111, 110, 116, 101, 110, 116, 45, 108, 101, 110, 103, 116, 104] then .contentLength
  else if k.map lower = [116, 114, 97, 110, 115, 102, 101, 114, 45, 101, 110, 99, 111, 100, 105, 110, 103] then .transferEncoding
  else .none

/-- The loop of `str_to_uint64`, framework/http/htparse.c:325-341. -/
def toNum : Nat → Text → Option Nat
  | value, [] => some value
  | value, c :: cs =>
    if c < 48 ∨ 57 < c then none
    else
      let check := (value * 10 + (c - 48)) % 2 ^ 64
      if value ≠ 0 ∧ check ≤ value then none else toNum check cs

/-- `str_to_uint64`, framework/http/htparse.c:311-344: blanks and tabs at the end are removed; `none`: `*err = 1`. -/
def strToNum (s : Text) : Option Nat :=
  let t := (s.reverse.dropWhile (fun c => c == 32 || c == 9)).reverse
  if 20 < t.length then none else toNum 0 t

/-- The table `unhex`, framework/http/htparse.c:165-172: it lists 128 of its 256 entries; the others are 0. -/
def unhex (c : Nat) : Option Nat :=
  if 48 ≤ c ∧ c ≤ 57 then some (c - 48)
  else if 65 ≤ c ∧ c ≤ 70 then some (c - 55)
  else if 97 ≤ c ∧ c ≤ 102 then some (c - 87)
  else if 128 ≤ c then some 0
  else none

/-- The end of a request: `on_msg_complete`, framework/http/htparse.c:1694-1695, 1771-1772, 1778-1779, 1949-1950, then 1970-1972. -/
def P.finish (p : P) : P × List Hook × Flow := ({ p with st := .start }, [.complete p.method p.orig], .ret)

/-- The call for the arguments or the path at the end of the uri, framework/http/htparse.c:1066-1076, 1145-1155. -/
def P.endUri (p : P) : Hook :=
  match p.args with
  | some a => .args (p.buf.drop a)
  | none => .path p.buf

/-- The byte CR in the value of a header, framework/http/htparse.c:1566-1670. -/
def P.endVal (p : P) : P × List Hook × Flow :=
  match p.heval with
  | .none => ({ p with st := .halmost }, [], .cont)
  | .contentLength =>
    match strToNum p.buf with
    | some n => ({ p with st := .halmost, len := n, orig := n }, [], .cont)
    | none => ({ p with len := 0, orig := 0 }, [], .err)
  | .transferEncoding =>
    if p.buf = [99, 104, 117, 110, 107, 101, 100] ∨ p.buf = [67, 104, 117, 110, 107, 101, 100] then
      ({ p with st := .halmost, chunked := true }, [], .cont)
    else ({ p with st := .halmost }, [], .cont)

/-- The first byte of a header line, framework/http/htparse.c:1437-1458. -/
def P.hdrStart (p : P) (c : Nat) : P × List Hook × Flow :=
  if c = 13 then ({ p with buf := [], st := .halmost }, [], .cont)
  else if c = 10 then ({ p with buf := [], st := .hdone }, [], .cont)
  else ({ p with buf := [c], st := .hkey }, [], .cont)

/-- A digit, or the error for it, for example framework/http/htparse.c:1296-1303. -/
def P.digit (p : P) (c : Nat) (lo : Nat) (st : St) : P × List Hook × Flow :=
  if c < lo ∨ 57 < c then (p, [], .err) else ({ p with st := st }, [], .cont)

/-- One of the bytes of "HTTP/", framework/http/htparse.c:1231-1272. -/
def P.expect (p : P) (c want : Nat) (st : St) : P × List Hook × Flow :=
  if c = want then ({ p with st := st }, [], .cont) else (p, [], .err)

/-- One byte in one of the states but `s_body_read` and `s_chunk_data`: the body of the loop of `htparser_run`, framework/http/htparse.c:502-1972. -/
def step (p : P) (c : Nat) : P × List Hook × Flow :=
  match p.st with
  | .start => -- 503-550; after CR and LF the state is still `s_start`, and the loop ends (1970-1972)
    let q : P := { p with args := none, method := 16, len := 0, orig := 0, chunked := false, trailing := false }
    if c = 13 ∨ c = 10 then (q, [], .ret)
    else if (c < 65 ∨ 90 < c) ∧ c ≠ 95 then (q, [], .err)
    else ({ q.add c with st := .method }, [.msgBegin], .cont)
  | .method => -- 552-669
    if c = 32 then ({ p with method := if methodOf p.buf = 16 then p.method else methodOf p.buf, buf := [], st := .spaces }, [], .cont)
    else if (c < 65 ∨ 90 < c) ∧ c ≠ 95 then (p, [], .err)
    else (p.add c, [], .cont)
  | .spaces => -- 670-733
    if c = 32 then (p, [], .cont)
    else if p.method = 14 then (p, [], .unknown)
    else if c = 47 then ({ p.add c with st := .slash }, [], .cont)
    else if (65 ≤ c ∧ c ≤ 90) ∨ (97 ≤ c ∧ c ≤ 122) then (p, [], .unknown)
    else (p, [], .err)
  | .slash => -- 978-1048
    if usual c then ({ p.add c with st := .check }, [], .cont)
    else if c = 32 then ({ p with buf := [], st := .http09 }, [.path p.buf], .cont)
    else if c = 13 then ({ p with st := .almost }, [], .cont)
    else if c = 10 then ({ p with st := .hstart }, [], .cont)
    else if c = 46 ∨ c = 37 ∨ c = 47 ∨ c = 35 then ({ p.add c with st := .uri }, [], .cont)
    else if c = 63 then ({ p.add c with st := .uri, args := some (p.buf.length + 1) }, [.path p.buf], .cont)
    else ({ p.add c with st := .check }, [], .cont)
  | .check => -- 1050-1127
    if usual c then (p.add c, [], .cont)
    else if c = 32 then ({ p with buf := [], st := .http09 }, [p.endUri], .cont)
    else if c = 47 then ({ p.add c with st := .slash }, [], .cont)
    else if c = 13 then ({ p with buf := [], st := .almost }, [], .cont)
    else if c = 10 then ({ p with buf := [], st := .hstart }, [], .cont)
    else if c = 63 then ({ p.add c with st := .uri, args := some (p.buf.length + 1) }, [.path p.buf], .cont)
    else ({ p.add c with st := .uri }, [], .cont)
  | .uri => -- 1129-1203
    if usual c then (p.add c, [], .cont)
    else if c = 32 then ({ p with buf := [], st := .http09 }, [p.endUri], .cont)
    else if c = 13 then ({ p with buf := [], st := .almost }, [], .cont)
    else if c = 10 then ({ p with buf := [], st := .hstart }, [], .cont)
    else if c = 63 ∧ p.args = none then ({ p.add c with args := some (p.buf.length + 1) }, [.path p.buf], .cont)
    else (p.add c, [], .cont)
  | .http09 => -- 1205-1230
    if c = 32 then (p, [], .cont)
    else if c = 13 then ({ p with buf := [], st := .almost }, [], .cont)
    else if c = 10 then ({ p with buf := [], st := .hstart }, [], .cont)
    else if c = 72 then ({ p with buf := [], st := .h }, [], .cont)
    else (p, [], .err)
  | .h => p.expect c 84 .ht -- 1231-1242
  | .ht => p.expect c 84 .htt -- 1243-1252
  | .htt => p.expect c 80 .http -- 1253-1262
  | .http => p.expect c 47 .major1 -- 1263-1272
  | .major1 => p.digit c 49 .major -- 1273-1281
  | .major => if c = 46 then ({ p with st := .minor1 }, [], .cont) else p.digit c 48 .major -- 1282-1294
  | .minor1 => p.digit c 48 .minor -- 1295-1303
  | .minor => -- 1304-1330
    if c = 32 then ({ p with st := .after }, [], .cont)
    else if c = 13 then ({ p with st := .almost }, [], .cont)
    else p.digit c 48 .minor
  | .after => -- 1380-1394
    if c = 32 then (p, [], .cont)
    else if c = 13 then ({ p with st := .almost }, [], .cont)
    else if c = 10 then ({ p with st := .hstart }, [], .cont)
    else (p, [], .err)
  | .almost => if c = 10 then ({ p with st := .done }, [.hdrsBegin], .cont) else (p, [], .err) -- 1396-1425
  | .done => -- 1426-1436
    if c = 13 then ({ p with st := .lalmost }, [], .cont)
    else if c = 10 then (p, [], .ret)
    else p.hdrStart c
  | .hstart => p.hdrStart c -- 1437-1458
  | .hkey => -- 1459-1524
    if c = 58 then ({ p with heval := evalOf p.buf, buf := [], st := .hspace }, [.hdrKey p.buf], .cont)
    else if c = 13 then ({ p with st := .halmost }, [], .cont)
    else if c = 10 then ({ p with st := .hdone }, [], .cont)
    else (p.add c, [], .cont)
  | .hspace => -- 1525-1559; after a CR the byte is looked at again (1545)
    if c = 32 then (p, [], .cont)
    else if c = 13 then ({ p.add 32 with st := .hval }).endVal
    else if c = 10 then (p, [], .err)
    else ({ p.add c with st := .hval }, [], .cont)
  | .hval => -- 1560-1686
    if c = 13 then p.endVal
    else if c = 10 then (p, [], .err)
    else (p.add c, [], .cont)
  | .halmost => -- 1687-1711
    if c = 10 then (if p.trailing then p.finish else ({ p with st := .hdone }, [], .cont)) else (p, [], .err)
  | .hdone => -- 1712-1759
    if c = 13 then ({ p with st := .lalmost }, [.hdrVal p.buf], .cont)
    else if c = 10 then (p, [], .err)
    else if c = 9 then ({ p with st := .hval }, [], .cont)
    else ({ p with buf := [c], st := .hkey }, [.hdrVal p.buf], .cont)
  | .lalmost => -- 1760-1799
    if c = 10 then
      (if p.trailing then ({ p with buf := [] } : P).finish
      else if p.chunked then ({ p with buf := [], st := .csize0 }, [], .cont)
      else if 0 < p.len then ({ p with buf := [], st := .body }, [], .cont)
      else ({ p with buf := [] } : P).finish)
    else (p, [], .err)
  | .csize0 => -- 1825-1835
    match unhex c with
    | some v => ({ p with len := v, st := .csize }, [], .cont)
    | none => (p, [], .err)
  | .csize => -- 1836-1851
    if c = 13 then ({ p with st := .csizeEnd }, [], .cont)
    else match unhex c with
      | some v => ({ p with len := (p.len * 16 + v) % 2 ^ 64 }, [], .cont)
      | none => (p, [], .err)
  | .csizeEnd => -- 1853-1879
    if c = 10 then
      (if p.len = 0 then ({ p with orig := 0, trailing := true, st := .hstart }, [], .cont) else ({ p with orig := p.len, st := .cdata }, [], .cont))
    else (p, [], .err)
  | .cdataEnd => if c = 13 then ({ p with st := .cdataDone }, [], .cont) else (p, [], .err) -- 1908-1915
  | .cdataDone => if c = 10 then ({ p with orig := 0, st := .csize0 }, [], .cont) else (p, [], .err) -- 1917-1931
  | .body => (p, [], .unknown) -- see `run`
  | .cdata => (p, [], .unknown) -- see `run`

/-- The states in which many bytes are taken at once. -/
def St.bulk : St → Bool
  | .body => true
  | .cdata => true
  | _ => false

/-- `s_chunk_data` and `s_body_read`, framework/http/htparse.c:1881-1906, 1933-1959: what is there of the body is handed over. -/
def take (p : P) (data : Text) : P × List Hook × Flow :=
  let k := min data.length p.len
  let hs : List Hook := if 0 < k then [.body (data.take k)] else []
  let q : P := { p with len := p.len - k }
  if p.st = .cdata then ({ q with st := if k = p.len then .cdataEnd else .cdata }, hs, .cont)
  else if q.len = 0 then (q.finish.1, hs ++ q.finish.2.1, .ret)
  else (q, hs, .cont)

/-- `htparser_run`, framework/http/htparse.c:470-1976: the parser after the data, the calls, and how it ended.  A full buffer is an error (494-497). -/
def run (p : P) : Text → P × List Hook × Flow
  | [] => (p, [], .cont)
  | c :: cs =>
    if 8192 ≤ p.buf.length then (p, [], .err)
    else if p.st.bulk then
      match take p (c :: cs) with
      | (q, hs, .cont) =>
        let r := run q (cs.drop (min (cs.length + 1) p.len - 1))
        (r.1, hs ++ r.2.1, r.2.2)
      | x => x
    else
      match step p c with
      | (q, hs, .cont) =>
        let r := run q cs
        (r.1, hs ++ r.2.1, r.2.2)
      | x => x
termination_by data => data.length
decreasing_by
  · simp only [List.length_drop, List.length_cons]; omega
  · simp

end Np.Htp

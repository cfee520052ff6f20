/-!
# Model of the http interface, `framework/http/np_http.c`

Texts are lists of bytes without a NUL.  A tree (`np_tree_t`) with texts as keys is a list of pairs in which the first insertion of a key stays; that the
tree behaves like this, for keys of fewer than 255 bytes, is the subject of area Tree.  Allocations succeed.
-/
namespace Np.Http

abbrev Text := List Nat
abbrev Map := List (Text × Text)

/-- `np_tree_insert_str`, src/util/np_tree.c:333-354: an existing entry stays. -/
def put (m : Map) (k v : Text) : Map := if m.any (fun e => e.1 == k) then m else m ++ [(k, v)]

/-- `np_tree_find_str`, src/util/np_tree.c:127-139, with the simplification above. -/
def get (m : Map) (k : Text) : Option Text := (m.find? (fun e => e.1 == k)).map (·.2)

/-- The separators "&=" of framework/http/np_http.c:161, 178. -/
def isSep (c : Nat) : Bool := c == 38 || c == 61

/-- All results of `strsep` one after the other, framework/http/np_http.c:161, 163, 178. -/
def split : Text → List Text
  | [] => [[]]
  | c :: cs =>
    if isSep c then [] :: split cs
    else match split cs with
      | [] => [[c]]
      | p :: ps => (c :: p) :: ps

/-- The loop over the pieces, framework/http/np_http.c:163-179; `rem` is `remaining_len`. -/
def pairs : Nat → Option Text → List Text → Map → Map
  | _, _, [], m => m
  | rem, none, p :: ps, m => pairs (rem - (p.take rem).length) (some (p.take rem)) ps m
  | rem, some k, p :: ps, m => pairs (rem - (p.take rem).length) none ps (put m k (p.take rem))

/-- The tree that `_np_http_query_args` builds, framework/http/np_http.c:147-182. -/
def parseArgs (s : Text) : Map := pairs s.length none (split s) []

/-- `struct ht_request_s`, framework/http/np_http.h:45-56. -/
structure Req where
  path : Option Text
  curKey : Option Text
  method : Nat
  args : Option Map
  header : Option Map
  length : Nat
  body : Option Text
  deriving DecidableEq, Repr

/-- A new client, framework/http/np_http.c:509-519. -/
def fresh : Req := { path := none, curKey := none, method := 0, args := none, header := none, length := 0, body := none }

/-- The calls of the parser, framework/http/np_http.c:619-642. -/
inductive Hook
  | msgBegin
  | path (s : Text)
  | args (s : Text)
  | hdrsBegin
  | hdrKey (s : Text)
  | hdrVal (s : Text)
  | body (s : Text)
  | complete (method length : Nat)
  deriving DecidableEq, Repr

/-- The functions for these calls, framework/http/np_http.c:139-246; `none`: an assertion of `np_tree_insert_str` (src/util/np_tree.c:334-335) ends the
process, because there is no tree or no key.  The length of the value of a header is ignored (203-210); the parser has put a NUL behind it. -/
def hook (r : Req) : Hook → Option Req
  | .msgBegin => some r
  | .path s => some { r with path := some s }
  | .args s => some { r with args := some (parseArgs s) }
  | .hdrsBegin => some { r with header := some [] }
  | .hdrKey s => some { r with curKey := some s }
  | .hdrVal s =>
    match r.header, r.curKey with
    | some h, some k => some { r with header := some (put h k s), curKey := none }
    | _, _ => none
  | .body s => some { r with body := some s, length := s.length % 2 ^ 32 }
  | .complete m n => some { r with method := m, length := n % 2 ^ 32 }

def hooks (r : Req) : List Hook → Option Req
  | [] => some r
  | h :: hs =>
    match hook r h with
    | none => none
    | some r' => hooks r' hs

/-- A request of the usual form. -/
structure Msg where
  method : Nat
  path : Text
  query : Option Text
  headers : List (Text × Text)
  parts : List Text
  length : Nat
  deriving DecidableEq, Repr

/-- The call for the arguments, framework/http/htparse.c:1066-1070, 1145-1149: only if there was a question mark. -/
def Msg.argHooks (q : Msg) : List Hook :=
  match q.query with
  | none => []
  | some s => [.args s]

/-- The calls for such a request: framework/http/htparse.c:531 (begin), 1072, 1103, 1151 or 1181 (path), 1067 or 1146 (arguments, only if there is a
question mark), 1415 (begin of the headers), 1465 and 1717 or 1744 (headers), 1942 (body, in the parts in which it arrives), 1778 or 1949 (end).
Bodies in chunks and lines that end without a CR are left out. -/
def Msg.hooks (q : Msg) : List Hook :=
  [.msgBegin, .path q.path] ++ q.argHooks ++ [.hdrsBegin] ++
    q.headers.flatMap (fun h => [.hdrKey h.1, .hdrVal h.2]) ++ q.parts.map .body ++ [.complete q.method q.length]

/-- What the handlers of the requests of one connection see, one after the other; the structure of the request is kept (framework/http/np_http.c:453-500). -/
def serve (r : Req) : List Msg → Option Req
  | [] => some r
  | q :: qs =>
    match Http.hooks r q.hooks with
    | none => none
    | some r' => serve r' qs

/-- "%d" for the numbers of `enum htp_method`, framework/http/htparse.h:23-41, which are below 17. -/
def dec (m : Nat) : Text := if m < 10 then [48 + m] else [48 + m / 10, 48 + m % 10]

/-- The key for a method and a path, framework/http/np_http.c:252-257, 756-757: at most 127 bytes. -/
def key (m : Nat) (p : Text) : Text := (dec m ++ 58 :: p).take 127

/-- `_np_add_http_callback`, framework/http/np_http.c:748-768, for handlers of any type. -/
def register {H : Type} (reg : List (Text × H)) (m : Nat) (p : Text) (h : H) : List (Text × H) :=
  if reg.any (fun e => e.1 == key m p) then reg else reg ++ [(key m p, h)]

/-- What `_np_http_dispatch` does: calls a handler, answers itself, or reads from the address one behind `NULL`. -/
inductive Outcome (H : Type)
  | call (h : H)
  | notFound
  | notImplemented
  | fault
  deriving DecidableEq, Repr

/-- `_np_http_dispatch`, framework/http/np_http.c:248-326; for a path that is empty, `ht_path + 1` (257) is behind its end. -/
def dispatch {H : Type} (reg : List (Text × H)) (r : Req) : Outcome H :=
  match r.path with
  | none => .fault
  | some [] => .fault
  | some (_ :: p) =>
    match reg.find? (fun e => e.1 == key r.method p) with
    | some e => .call e.2
    | none => if r.method = 0 then .notFound else .notImplemented

/-- One `snprintf` into the page, framework/http/np_http.c:294-300, with the length so far and the text in the buffer; `none`: more than 8000 bytes were
counted, `buf_max - len` wraps, and it writes behind the buffer.  Lengths are unbounded here; the program counts in 32 bits. -/
def printAt (st : Nat × Text) (s : Text) : Option (Nat × Text) :=
  if 8000 < st.1 then none else some (st.1 + s.length, st.2 ++ s.take (7999 - st.1))

def prints (st : Nat × Text) : List Text → Option (Nat × Text)
  | [] => some st
  | s :: rest =>
    match printAt st s with
    | none => none
    | some st' => prints st' rest

/-- The page for an unknown path, framework/http/np_http.c:285-303: a text before and behind the path, the known paths in quotes with a comma. -/
def page (before behind : Text) (k : Text) (known : List Text) : Option Text :=
  (prints (0, []) ((before ++ k ++ behind) :: known.map (fun p => 34 :: p ++ [34, 44]) ++ [[93, 125]])).map (·.2)

/-- The codes of the table, framework/http/np_http.c:109-132. -/
def codes : List Nat := [0, 100, 200, 201, 202, 204, 206, 207, 302, 304, 400, 401, 403, 404, 405, 408, 410, 414, 423, 500, 501, 503]

/-- The code of an answer, framework/http/np_http.c:347, for the number a handler returns; `none`: a read behind the table. -/
def codeOf (status : Nat) : Option Nat := codes[status]?

/-- The head of an answer, framework/http/np_http.c:338-383, for its lines: each is written in full with a NUL behind it, whatever is left of the 2048
bytes; `none`: outside.  (The first one is limited to 2048, which its texts never reach.) -/
def head : Text → List Text → Option Text
  | d, [] => some d
  | d, l :: ls => if d.length + l.length + 1 ≤ 2048 then head (d ++ l) ls else none

/-- The result of one round of the loop that sends the body, framework/http/np_http.c:400-434: `send` took `n` bytes (it never takes more than it was
given), the output is full, another error, or thirty seconds are over. -/
inductive Send
  | took (n : Nat)
  | again
  | error
  | timeout
  deriving DecidableEq, Repr

/-- The loop, framework/http/np_http.c:397-434: the bytes the peer gets for the body.  If the list of results ends, so does what is known. -/
def sendBody (body : Text) (len : Nat) (sent retry : Nat) : List Send → Text
  | [] => []
  | s :: rest =>
    if sent < len then
      match s with
      | .timeout => []
      | .took n =>
        if 3 < retry then [] else
          let k := min n (min 2048 (len - sent))
          (body.drop sent).take k ++ sendBody body len (sent + k) retry rest
      | .again => if 3 < retry then [] else sendBody body len sent retry rest
      | .error => if 3 < retry then [] else sendBody body len sent (retry + 1) rest
    else []

/-- An answer, framework/http/np_http.c:384-434: the result of sending the head is ignored; `n` bytes of it were taken. -/
def answer (hd body : Text) (n : Nat) (sends : List Send) : Text := hd.take n ++ sendBody body body.length 0 0 sends

end Np.Http

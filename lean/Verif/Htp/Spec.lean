import Verif.Htp.Model
/-! What an http request is, said without the parser. -/
namespace Np.Htp.Spec
open _root_.Np.Http (Text Hook Msg)

/-- The methods and their numbers in `enum htp_method` (framework/http/htparse.h:23-41), without CONNECT. -/
def words : List (Text × Nat) :=
  [([71, 69, 84], 0), ([72, 69, 65, 68], 1), ([80, 79, 83, 84], 2), ([80, 85, 84], 3), ([68, 69, 76, 69, 84, 69], 4), ([77, 75, 67, 79, 76], 5),
   ([67, 79, 80, 89], 6), ([77, 79, 86, 69], 7), ([79, 80, 84, 73, 79, 78, 83], 8), ([80, 82, 79, 80, 70, 73, 78, 68], 9),
   ([80, 82, 79, 80, 80, 65, 84, 67, 72], 10), ([76, 79, 67, 75], 11), ([85, 78, 76, 79, 67, 75], 12), ([84, 82, 65, 67, 69], 13), ([80, 65, 84, 67, 72], 15)]

/-- A request. -/
structure Request where
  word : Text
  method : Nat
  path : Text
  query : Option Text
  minor : Nat
  headers : List (Text × Text)
  body : Text
  deriving DecidableEq, Repr

/-- The question mark and what follows it. -/
def Request.tail (r : Request) : Text :=
  match r.query with
  | none => []
  | some s => 63 :: s

/-- A header line: `name: value`, CR, LF. -/
def line (h : Text × Text) : Text := h.1 ++ [58, 32] ++ h.2 ++ [13, 10]

/-- The bytes before the body: `GET /path?query HTTP/1.1`, CR, LF, the header lines, CR, LF. -/
def Request.head (r : Request) : Text :=
  r.word ++ [32] ++ r.path ++ r.tail ++ [32, 72, 84, 84, 80, 47, 49, 46, r.minor, 13, 10] ++ r.headers.flatMap line ++ [13, 10]

/-- The bytes of a request. -/
def Request.text (r : Request) : Text := r.head ++ r.body

/-- The letter in lower case. -/
def small (c : Nat) : Nat := if 65 ≤ c ∧ c ≤ 90 then c + 32 else c

/-- "content-length" in any case. -/
def IsLength (k : Text) : Prop := k.map small = [99, 111, 110, 116, 101, 110, 116, 45, 108, 101, 110, 103, 116, 104]
/-- "transfer-encoding" in any case. -/
def IsEncoding (k : Text) : Prop := k.map small = [116, 114, 97, 110, 115, 102, 101, 114, 45, 101, 110, 99, 111, 100, 105, 110, 103]

instance (k : Text) : Decidable (IsLength k) := inferInstanceAs (Decidable (_ = _))
instance (k : Text) : Decidable (IsEncoding k) := inferInstanceAs (Decidable (_ = _))

/-- Decimal digits only. -/
def Digits (s : Text) : Prop := ∀ c ∈ s, 48 ≤ c ∧ c ≤ 57
instance (s : Text) : Decidable (Digits s) := inferInstanceAs (Decidable (∀ _ ∈ _, _))

/-- The number that decimal digits stand for. -/
def number (s : Text) : Nat := s.foldl (fun a c => 10 * a + (c - 48)) 0

/-- The length of the body that the headers declare: that of the last content-length header, 0 without one. -/
def declared (hs : List (Text × Text)) : Nat := (((hs.filter (fun h => decide (IsLength h.1))).getLast?).map (fun h => number h.2)).getD 0

/-- A header of the usual form: name and value are not empty and fit the buffer, the name does not start with a tab and has no colon, the value does not
start with a blank, neither has CR or LF; a length has at most 19 digits. -/
structure HdrFits (h : Text × Text) : Prop where
  key : h.1 ≠ [] ∧ h.1.head? ≠ some 9 ∧ h.1.length ≤ 8191 ∧ ∀ c ∈ h.1, c ≠ 58 ∧ c ≠ 13 ∧ c ≠ 10
  val : h.2 ≠ [] ∧ h.2.head? ≠ some 32 ∧ h.2.length ≤ 8191 ∧ ∀ c ∈ h.2, c ≠ 13 ∧ c ≠ 10
  enc : ¬ IsEncoding h.1
  len : IsLength h.1 → Digits h.2 ∧ h.2.length ≤ 19

/-- What comes before the body is of the usual form: one of the methods, a path that starts with a slash, HTTP/1.0 or HTTP/1.1, headers as above. -/
structure Request.HeadFits (r : Request) : Prop where
  word : (r.word, r.method) ∈ words
  path : ∃ s, r.path = 47 :: s ∧ ∀ c ∈ s, c ≠ 32 ∧ c ≠ 63 ∧ c ≠ 13 ∧ c ≠ 10
  query : ∀ s, r.query = some s → ∀ c ∈ s, c ≠ 32 ∧ c ≠ 13 ∧ c ≠ 10
  size : (r.path ++ r.tail).length ≤ 8191
  minor : r.minor = 48 ∨ r.minor = 49
  headers : ∀ h ∈ r.headers, HdrFits h

/-- A request of the usual form: the body is as long as declared. -/
structure Request.Fits (r : Request) : Prop extends r.HeadFits where
  body : r.body.length = declared r.headers

/-- The request as the interface is told of it when the body arrives in one piece. -/
def Request.msg (r : Request) : Msg :=
  { method := r.method, path := r.path, query := r.query, headers := r.headers, parts := if r.body = [] then [] else [r.body], length := r.body.length }

/-- Between two requests. -/
def Ready (p : P) : Prop := p.st = .start ∧ p.buf = []

/-- A call, with the body byte by byte. -/
inductive Item
  | byte (c : Nat)
  | call (h : Hook)
  deriving DecidableEq, Repr

/-- Calls, with the body byte by byte. -/
def items : List Hook → List Item
  | [] => []
  | .body s :: hs => s.map .byte ++ items hs
  | h :: hs => .call h :: items hs

/-- Several reads, until a request has been read or there was an error: the parser afterwards, all calls, and how the last one ended. -/
def feed (p : P) : List Text → P × List Hook × Flow
  | [] => (p, [], .cont)
  | a :: as =>
    match run p a with
    | (q, hs, .cont) =>
      let r := feed q as
      (r.1, hs ++ r.2.1, r.2.2)
    | x => x

/-- All reads of a connection, each with its calls and how it ended. -/
def reads (p : P) : List Text → P × List (List Hook × Flow)
  | [] => (p, [])
  | a :: as =>
    let r := run p a
    let s := reads r.1 as
    (s.1, r.2 :: s.2)

end Np.Htp.Spec

import Verif.Http.Model
/-!
# What a user of the http interface expects
-/
namespace Np.Http.Spec
open _root_.Np.Http

/-- A text without '&' and '='. -/
def Plain (s : Text) : Prop := 38 ∉ s ∧ 61 ∉ s

/-- The text of a query: `k1=v1&k2=v2`. -/
def render : List (Text × Text) → Text
  | [] => []
  | [(k, v)] => k ++ 61 :: v
  | (k, v) :: rest => k ++ 61 :: v ++ 38 :: render rest

/-- The first value for a name. -/
def first (l : List (Text × Text)) (k : Text) : Option Text := (l.find? (fun e => e.1 == k)).map (·.2)

/-- The last query of a list of requests. -/
def lastQuery (l : List Msg) : Option Text := (l.filterMap Msg.query).getLast?

/-- The last part of a body in a list of requests. -/
def lastPart (l : List Msg) : Option Text := (l.flatMap Msg.parts).getLast?

/-- A handler for a method and a path. -/
structure Entry (H : Type) where
  method : Nat
  path : Text
  handler : H
  deriving DecidableEq

/-- A method of the protocol and a path that fits. -/
def Entry.Fits {H : Type} (e : Entry H) : Prop := e.method < 17 ∧ e.path.length ≤ 124

/-- Registering one after the other. -/
def build {H : Type} (l : List (Entry H)) : List (Text × H) := l.foldl (fun r e => register r e.method e.path e.handler) []

/-- The names of the answers in the order of framework/http/np_http.h:20-41 and the codes they stand for in RFC 2616 and RFC 4918. -/
inductive Name
  | noResponse | continue | ok | accepted | created | noContent | partialContent | multiStatus | movedTemporarily | notModified | badRequest
  | unauthorized | forbidden | notFound | methodNotAllowed | requestTimeOut | gone | requestUriTooLong | locked | internalServerError | notImplemented
  | serviceUnavailable
  deriving DecidableEq, Repr

/-- The number of a name is its place in the list. -/
def Name.number : Name → Nat
  | noResponse => 0 | «continue» => 1 | ok => 2 | accepted => 3 | created => 4 | noContent => 5 | partialContent => 6 | multiStatus => 7
  | movedTemporarily => 8 | notModified => 9 | badRequest => 10 | unauthorized => 11 | forbidden => 12 | notFound => 13 | methodNotAllowed => 14
  | requestTimeOut => 15 | gone => 16 | requestUriTooLong => 17 | locked => 18 | internalServerError => 19 | notImplemented => 20
  | serviceUnavailable => 21

def Name.code : Name → Nat
  | noResponse => 0 | «continue» => 100 | ok => 200 | accepted => 202 | created => 201 | noContent => 204 | partialContent => 206 | multiStatus => 207
  | movedTemporarily => 302 | notModified => 304 | badRequest => 400 | unauthorized => 401 | forbidden => 403 | notFound => 404
  | methodNotAllowed => 405 | requestTimeOut => 408 | gone => 410 | requestUriTooLong => 414 | locked => 423 | internalServerError => 500
  | notImplemented => 501 | serviceUnavailable => 503

/-- The page for an unknown path, in full and without the end. -/
def list (known : List Text) : Text := known.flatMap (fun p => 34 :: p ++ [34, 44])

/-- The bytes a list of results takes; one call is given at most 2048. -/
def tookAll : List Send → Nat
  | [] => 0
  | .took n :: r => min n 2048 + tookAll r
  | _ :: r => tookAll r

end Np.Http.Spec

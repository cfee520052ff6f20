import Verif.Json.Model
/-!
# Model of a web search, `__np_search_handle_http_get` of framework/search/np_search.c

What the query finds within the time of waiting is a parameter, as a list in the order of the tree of results; area Search models how it comes about.  Parameters are
also the number of bytes of the tree of a result and whether a text is UTF-8.  The answer is modelled up to its JSON value.
-/
namespace Np.Web
open Np.Json (Text Key Val Tree Json toJson)

/-- Ways in which the handler leaves what the language defines: framework/search/np_search.c:792-794 and 846. -/
inductive Fault
  /-- No element of the tree is used, or an address that is a number -/
  | pointer
  /-- Memory behind an attribute is read -/
  | outside
  | json (f : Np.Json.Fault)
  deriving DecidableEq, Repr

/-- The attribute "title" of an entry: none, a text or bytes (with the memory behind it up to the end of what may be read), or a number; src/neuropil_data.c:37-50. -/
inductive Title
  | missing
  | text (d behind : Text)
  | bin (d behind : Text)
  | int (n : Int)
  deriving DecidableEq, Repr

/-- `np_searchresult_s`, framework/search/np_search.h:64-74, and the title of its entry.  The level is told apart by a number. -/
structure Result where
  hits : Nat
  label : Text
  level : Nat
  finite : Bool
  title : Title
  deriving Repr

/-- `strlen` of `np_treeval_new_s`, src/util/np_treeval.c:402-408. -/
def cstr (t : Text) : Except Fault Text :=
  if 0 ∈ t then .ok (t.takeWhile (· ≠ 0)) else .error .outside

/-- The text of the title, framework/search/np_search.c:830-838 and 846: the type of the attribute is not asked for, and addresses below 2^32 are not in use. -/
def titleOf : Title → Except Fault Text
  | .missing => .ok []
  | .text d behind => cstr (d ++ behind)
  | .bin d behind => cstr (d ++ behind)
  | .int _ => .error .pointer

/-- "hit_counter", framework/search/np_search.c:840. -/
def hitCounter : Text := [104, 105, 116, 95, 99, 111, 117, 110, 116, 101, 114]
/-- "similarity", framework/search/np_search.c:843. -/
def similarity : Text := [115, 105, 109, 105, 108, 97, 114, 105, 116, 121]
/-- "label", framework/search/np_search.c:845. -/
def label : Text := [108, 97, 98, 101, 108]
/-- "title", framework/search/np_search.c:846. -/
def title : Text := [116, 105, 116, 108, 101]

/-- The tree of a result, framework/search/np_search.c:839-846, in the order of its keys. -/
def treeOf (utf8 : Text → Bool) (r : Result) (t : Text) : Tree :=
  .cons (.str hitCounter) (.int r.hits) (.cons (.str label) (.text r.label (utf8 r.label))
    (.cons (.str similarity) (.real r.level r.finite) (.cons (.str title) (.text t (utf8 t)) .nil)))

/-- The loop over the results, framework/search/np_search.c:818-869; `count` is `byte_count`, a `uint32_t`.  The keys of the tree are `int16_t`; as each result takes more
than two bytes, fewer than 2^15 are put in, and the order of the keys is the order in which they were put in. -/
def collect (utf8 : Text → Bool) (size : Result → Nat) : List Result → Nat → Nat → Except Fault (List (Nat × Tree))
  | [], _, _ => .ok []
  | r :: rs, i, count =>
    match titleOf r.title with
    | .error f => .error f
    | .ok t =>
      let count := (count + size r) % 2 ^ 32
      match collect utf8 size rs (i + 1) count with
      | .error f => .error f
      | .ok l => .ok (if count < 65535 then (i, treeOf utf8 r t) :: l else l)

/-- The tree `srs_tree`, framework/search/np_search.c:813 and 853. -/
def treeOfList : List (Nat × Tree) → Tree
  | [] => .nil
  | (i, t) :: l => .cons (.int i) (.tree t) (treeOfList l)

/-- The codes 200, 204 and 400, framework/search/np_search.c:767, 806, 886, 899 and 908. -/
inductive Status
  | ok
  | noContent
  | badRequest
  deriving DecidableEq, Repr

/-- The parts of a request that are looked at, framework/search/np_search.c:757-761: whether there is a path, and the arguments. -/
structure Req where
  path : Bool
  args : Option (List (Text × Text))
  deriving Repr

/-- "query_text", framework/search/np_search.c:761. -/
def queryText : Text := [113, 117, 101, 114, 121, 95, 116, 101, 120, 116]

/-- The status and the JSON of the body, framework/search/np_search.c:883-886 and 921-926. -/
structure Answer where
  status : Status
  body : Json

/-- `__np_generate_error_json`, framework/search/np_search.c:298-306; the texts are left out. -/
def problem : Json := .obj [([101, 114, 114, 111, 114], .str []), ([100, 101, 116, 97, 105, 108, 115], .str [])]

/-- `__np_search_cleanup_pipeline`, framework/search/np_search.c:126-148 and framework/search/np_search_mxproperties.c:24: what is older than 60 seconds is taken away;
`visits` are the milliseconds since the query began at which it looks at it. -/
def cleaned (visits : List Nat) : Bool := visits.any fun t => 60000 < t

/-- `__np_search_handle_http_get`, framework/search/np_search.c:747-934.  `creatable`: whether `np_create_searchquery` makes a query of a text. -/
def handle (utf8 : Text → Bool) (fmt : Nat → Text) (size : Result → Nat) (creatable : Text → Bool) (find : Text → List Result) (visits : List Nat) (q : Req) :
    Except Fault Answer :=
  match q.args with
  | none => .ok ⟨.noContent, problem⟩
  | some args =>
    if !q.path then .ok ⟨.noContent, problem⟩
    else match args.find? fun e => e.1 == queryText with
      | none => .ok ⟨.badRequest, problem⟩
      | some e =>
        if !creatable e.2 then .ok ⟨.badRequest, problem⟩
        else if cleaned visits then .error .pointer
        else match find e.2 with
          | [] => .ok ⟨.noContent, problem⟩
          | r :: rs => match collect utf8 size (r :: rs) 0 0 with
            | .error f => .error f
            | .ok l => match toJson fmt (treeOfList l) with
              | .error f => .error (.json f)
              | .ok j => .ok ⟨.ok, j⟩

end Np.Web

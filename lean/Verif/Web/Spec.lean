import Verif.Web.Model
/-! # What is asked of a web search -/
namespace Np.Web.Spec
open Np.Json (Text Json)
open _root_.Np.Web

/-- The request asks for a text. -/
def Asks (q : Req) (t : Text) : Prop := q.path = true ∧ ∃ args, q.args = some args ∧ (args.find? fun e => e.1 == queryText) = some (queryText, t)

/-- The title that the owner of an entry has given it: a text up to its final zero byte. -/
inductive HasTitle : Title → Text → Prop
  | missing : HasTitle .missing []
  | text (t behind : Text) : 0 ∉ t → HasTitle (.text (t ++ [0]) behind) t

/-- The result can be shown: its texts are UTF-8 and its similarity is finite. -/
def Plain (utf8 : Text → Bool) (r : Result) (t : Text) : Prop := HasTitle r.title t ∧ utf8 r.label = true ∧ utf8 t = true ∧ r.finite = true ∧ r.hits < 256

/-- {"hit_counter": …, "label": …, "similarity": …, "title": …} -/
def shown (r : Result) (t : Text) : Json := .obj [
  ([104, 105, 116, 95, 99, 111, 117, 110, 116, 101, 114], .num r.hits),
  ([108, 97, 98, 101, 108], .str r.label),
  ([115, 105, 109, 105, 108, 97, 114, 105, 116, 121], .real r.level),
  ([116, 105, 116, 108, 101], .str t)]

/-- The number of results that are listed, if the bytes of all before and of the result itself have to be below 65535. -/
def fitting (size : Result → Nat) : List Result → Nat → Nat
  | [], _ => 0
  | r :: rs, before => if before + size r < 65535 then 1 + fitting size rs (before + size r) else 0

end Np.Web.Spec

import Verif.Http.Model
/-!
# Model of the reports that nodes give about themselves, `framework/sysinfo/np_sysinfo.c`

Texts are lists of bytes without a NUL.  A tree (`np_tree_t`) with texts as keys is a list of pairs; that the tree behaves like this, for keys of fewer
than 255 bytes, is the subject of area Tree, and the order in which it gives its entries is left out.  Times are whole microseconds, and their sums are
exact.  The lock of the module makes each of the functions one step.  Allocations succeed.
-/
namespace Np.Sys
open Np.Http (Text)

/-- A report, framework/sysinfo/np_sysinfo.c:85-90, 320-393: a tree with the key of the node it is about ("source_hash"), the time
("timestamp") and the rest, which is never looked at.  Either of the two may be missing in what is received.  The key is what `np_treeval_to_str` gives (239-240),
for a value that is no single character; the time is a finite double. -/
structure Report (α : Type) where
  source : Option Text
  stamp : Option Int
  rest : α
  deriving DecidableEq, Repr

/-- The pages, framework/sysinfo/np_sysinfo.c:147-152. -/
inductive Page
  | all
  | hash
  deriving DecidableEq, Repr

/-- What the module keeps, framework/sysinfo/np_sysinfo.c:49-53, without the time of its start; `none`: it was not set up.  `hooks` is the table of the http
interface, `none`: it was not set up either. -/
structure St (α : Type) where
  cache : Option (List (Text × Report α))
  hooks : Option (List (Text × Page))
  deriving DecidableEq, Repr

/-- What stops the process or is not modelled: a member of a module that was not set up, a time that is missing, an array that was not written, more reports
than a signed sixteen bit number can count. -/
inductive Fault
  | noModule
  | noStamp
  | noHash
  | tooMany
  | loop
  deriving DecidableEq, Repr

/-- `np_tree_find_str`, src/util/np_tree.c:127-139. -/
def find {α : Type} (c : List (Text × Report α)) (s : Text) : Option (Report α) := (c.find? (fun e => e.1 == s)).map (·.2)

/-- `np_tree_insert_str`, src/util/np_tree.c:333-354, for a key that was not found: it is cut after 255 bytes (345), and an element whose key is there is not
inserted. -/
def put {α : Type} (c : List (Text × Report α)) (s : Text) (r : Report α) : List (Text × Report α) :=
  if c.any (fun e => e.1 == s.take 255) then c else c ++ [(s.take 255, r)]

/-- `np_tree_replace_str`, src/util/np_tree.c:476-487. -/
def replace {α : Type} (c : List (Text × Report α)) (s : Text) (r : Report α) : List (Text × Report α) :=
  if (find c s).isSome then c.map (fun e => if e.1 == s then (e.1, r) else e) else put c s r

/-- `_np_sysinfo_init_cache`, framework/sysinfo/np_sysinfo.c:55-63. -/
def initCache {α : Type} (st : St α) : St α := { st with cache := some (st.cache.getD []) }

/-- "sysinfo/" of framework/sysinfo/np_sysinfo.c:211, 281. -/
def slash : Text := [115, 121, 115, 105, 110, 102, 111, 47]

/-- "sysinfo" of framework/sysinfo/np_sysinfo.c:203. -/
def word : Text := [115, 121, 115, 105, 110, 102, 111]

/-- The path of a node, framework/sysinfo/np_sysinfo.c:208-212, 280-281: at most 73 bytes. -/
def pathOf (s : Text) : Text := (slash ++ s).take 73

/-- `np_sysinfo_enable_local` and `np_sysinfo_enable_server`, framework/sysinfo/np_sysinfo.c:154-175, 177-219, without the setup of the subject; `me` is the key
of the node as text.  The method GET is 0, framework/http/htparse.h:24. -/
def enable {α : Type} (st : St α) (me : Text) : St α :=
  let st := initCache st
  { st with hooks := st.hooks.map fun h => Http.register (Http.register h 0 word .all) 0 (pathOf me) .hash }

/-- The comparison of the times, framework/sysinfo/np_sysinfo.c:256-262. -/
def newer {α : Type} (r old : Report α) : Bool :=
  match r.stamp, old.stamp with
  | some a, some b => a > b
  | _, _ => false

/-- `_np_in_sysinfo`, framework/sysinfo/np_sysinfo.c:221-294, and what it returns.  A message has a sender (`from`), which it does not look at.  The bytes of
the message have been read into a tree (228), area Ser. -/
def receive {α : Type} (st : St α) (_sender : Text) (r : Report α) : Except Fault (St α × Bool) :=
  match r.source with
  | none => .ok (st, false)
  | some s =>
    match st.cache with
    | none => .error .noModule
    | some c =>
      match find c s with
      | some old => if newer r old then .ok ({ st with cache := some (replace c s r) }, true) else .ok (st, true)
      | none =>
        .ok ({ cache := some (replace c s r), hooks := some (Http.register (st.hooks.getD []) 0 (pathOf s) .hash) }, true)

/-- `np_sysinfo_get_my_info`, framework/sysinfo/np_sysinfo.c:320-393; `own` stands for what it collects. -/
def myInfo {α : Type} (st : St α) (now : Int) (own : α) : Except Fault (Report α) :=
  match st.cache with
  | none => .error .noModule
  | some _ => .ok { source := none, stamp := some now, rest := own }

/-- `_np_sysinfo_get_from_cache`, framework/sysinfo/np_sysinfo.c:395-429, for the age -1 of its only caller (315). -/
def fromCache {α : Type} (st : St α) (target : Text) : St α × Option (Report α) :=
  let st := initCache st
  (st, find (st.cache.getD []) target)

/-- `np_sysinfo_get_info`, framework/sysinfo/np_sysinfo.c:297-318: the key of the node has 64 bytes, and no more are compared (303). -/
def getInfo {α : Type} (st : St α) (me : Text) (now : Int) (own : α) (target : Text) : Except Fault (St α × Option (Report α)) :=
  if target.take 64 = me.take 64 then (myInfo st now own).map fun r => (st, some r) else .ok (fromCache st target)

/-- Three times `SYSINFO_PROACTIVE_SEND_IN_SEC`, include/np_settings.h:135, framework/sysinfo/np_sysinfo.c:442. -/
def lifetime : Int := 30 * 3 * 1000000

/-- One pass of the outer loop, framework/sysinfo/np_sysinfo.c:435-449: the entries without the first one that is too old, if there is one.  The clock stands
still meanwhile. -/
def pass {α : Type} (now : Int) : List (Text × Report α) → Except Fault (Option (List (Text × Report α)))
  | [] => .ok none
  | e :: es =>
    match e.2.stamp with
    | none => .error .noStamp
    | some t => if now > t + lifetime then .ok (some es) else (pass now es).map fun o => o.map fun l => e :: l

/-- The outer loop, framework/sysinfo/np_sysinfo.c:434-450, with the number of rounds it may take. -/
def passes {α : Type} (now : Int) : Nat → List (Text × Report α) → Except Fault (List (Text × Report α))
  | 0, _ => .error .loop
  | n + 1, c =>
    match pass now c with
    | .error f => .error f
    | .ok none => .ok c
    | .ok (some c') => passes now n c'

/-- `_np_sysinfo_cache_interval`, framework/sysinfo/np_sysinfo.c:431-452. -/
def interval {α : Type} (now : Int) (c : List (Text × Report α)) : Except Fault (List (Text × Report α)) := passes now (c.length + 1) c

/-- `np_sysinfo_get_all`, framework/sysinfo/np_sysinfo.c:454-479; the entries are numbered with an `int16_t` (457), and more of them than it can count are
not modelled. -/
def getAll {α : Type} (st : St α) (now : Int) (own : α) : Except Fault (St α × List (Report α)) :=
  match myInfo st now own with
  | .error f => .error f
  | .ok mine =>
    match interval now (st.cache.getD []) with
    | .error f => .error f
    | .ok c => if c.length > 32767 then .error .tooMany else .ok ({ st with cache := some c }, mine :: c.map (·.2))

/-- The results of `strsep` with "/", framework/sysinfo/np_sysinfo.c:507-509. -/
def split : Text → List Text
  | [] => [[]]
  | c :: cs =>
    if c = 47 then [] :: split cs
    else match split cs with
      | [] => [[c]]
      | p :: ps => (c :: p) :: ps

/-- An answer: its code and the reports in it, framework/sysinfo/np_sysinfo.c:538-556, 625-645. -/
inductive Answer (α : Type)
  | badRequest
  | accepted
  | one (r : Report α)
  | all (l : List (Report α))
  | other
  deriving DecidableEq, Repr

/-- `_np_http_handle_sysinfo_hash`, framework/sysinfo/np_sysinfo.c:490-580; without a third piece `target_hash` is read although nothing was written to it. -/
def hashPage {α : Type} (st : St α) (me : Text) (now : Int) (own : α) (path : Text) : Except Fault (St α × Answer α) :=
  match (split (path.take 74))[2]? with
  | none => .error .noHash
  | some h =>
    if (h.take 65).length = 64 then
      match getInfo st me now own h with
      | .error f => .error f
      | .ok (st', some r) => .ok (st', .one r)
      | .ok (st', none) => .ok (st', .accepted)
    else .ok (st, .badRequest)

/-- `_np_http_handle_sysinfo_all`, framework/sysinfo/np_sysinfo.c:582-667, after the part for the arguments. -/
def allPage {α : Type} (st : St α) (now : Int) (own : α) (path : Text) : Except Fault (St α × Answer α) :=
  if path.take 8 = 47 :: word then (getAll st now own).map fun p => (p.1, .all p.2) else .ok (st, .badRequest)

/-- "connect_string" of framework/sysinfo/np_sysinfo.c:40. -/
def connect : Text := [99, 111, 110, 110, 101, 99, 116, 95, 115, 116, 114, 105, 110, 103]

/-- The address that is joined, framework/sysinfo/np_sysinfo.c:599-612, before `urlDecode` (area Url). -/
def joins (r : Http.Req) : Option Text := r.args.bind fun m => Http.get m connect

/-- A request of the http interface (area Http): the answer and the address that is joined.  An answer that is not of this file is `other`. -/
def serve {α : Type} (st : St α) (me : Text) (now : Int) (own : α) (r : Http.Req) : Except Fault (St α × Answer α × Option Text) :=
  match Http.dispatch (st.hooks.getD []) r, r.path with
  | .call .hash, some p => (hashPage st me now own p).map fun x => (x.1, x.2, none)
  | .call .all, some p => (allPage st now own p).map fun x => (x.1, x.2, joins r)
  | _, _ => .ok (st, .other, none)

end Np.Sys

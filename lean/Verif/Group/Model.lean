import Verif.Dhkey.Model
/-!
# Model of the keys of the sender of a channel

`_np_intent_update_session`, `_np_intent_update_receiver_session` of src/core/np_comp_intent.c with the tree of sessions of an outbound channel and the messages that carry
the key of the channel to its receivers, and the calls from src/core/np_comp_msgproperty.c.  Messages to all receivers are encrypted with one key that the sender makes
whenever it makes a new intent, and sends to each receiver in a message that only this receiver can read.
-/
namespace Np.Group

/-- How the ids of sessions come from fingerprints: src/core/np_comp_intent.c:1115-1123 for the own session, src/core/np_comp_intent.c:936-939 for those with a receiver. -/
structure Ids (Fp Id : Type) where
  own : Fp → Id
  priv : Fp → Fp → Id
  init : Fp → Fp → Id

/-- The ids of the code: the fingerprint itself, the sum and the exclusive or, src/core/np_comp_intent.c:936-939. -/
def real : Ids Dhkey Dhkey := ⟨id, Dhkey.add, Dhkey.xor⟩

/-- A session, include/np_crypto.h:27-44.  Simplification: of the keys only that of a shared session is kept; those of private and initial sessions are agreed on with the
receiver (area Authz). -/
inductive Sess (K : Type) where
  | shared (key : K) | priv | initial | blank

/-- The key of a shared session. -/
def Sess.key {K : Type} : Sess K → Option K
  | .shared k => some k
  | _ => none

/-- Whether a session is an initial one, src/core/np_comp_intent.c:1198. -/
def Sess.isInitial {K : Type} : Sess K → Bool
  | .initial => true
  | _ => false

/-- `np_tree_find_dhkey` on the tree of sessions, src/core/np_comp_intent.c:685-688.  Simplification: the tree is a list. -/
def lookup {Id V : Type} [DecidableEq Id] : List (Id × V) → Id → Option V
  | [], _ => none
  | (i, v) :: t, j => if i = j then some v else lookup t j

/-- `np_tree_insert_dhkey`, src/util/np_tree.c:374-390: nothing happens if the id is there. -/
def insert {Id V : Type} [DecidableEq Id] (t : List (Id × V)) (i : Id) (v : V) : List (Id × V) :=
  match lookup t i with
  | none => t ++ [(i, v)]
  | some _ => t

/-- `np_tree_replace_dhkey`, src/util/np_tree.c:501-511. -/
def replace {Id V : Type} [DecidableEq Id] : List (Id × V) → Id → V → List (Id × V)
  | [], i, v => [(i, v)]
  | (j, w) :: t, i, v => if j = i then (i, v) :: t else (j, w) :: replace t i v

/-- `np_tree_del_dhkey`, src/util/np_tree.c:264-267. -/
def erase {Id V : Type} [DecidableEq Id] (t : List (Id × V)) (i : Id) : List (Id × V) := t.filter fun e => e.1 ≠ i

/-- A message with a key, src/core/np_comp_intent.c:1064-1087 and 1178-1218: the session under which it is encrypted, the name of the key, and the key; `none` stands for
the key of a session that is not shared. -/
structure Rekey (Fp Id K : Type) where
  to : Id
  name : Fp
  key : Option K

/-- The sender's side of a channel: the fingerprint of its own intent (the first of `send_tokens`; simplification: there is one at most), the fingerprint that was announced
last (`current_fp`), the tree of sessions, and the messages with keys that were sent. -/
structure Chan (Fp Id K : Type) where
  own : Option Fp
  cur : Fp
  tree : List (Id × Sess K)
  out : List (Rekey Fp Id K)

/-- A new channel: no intent, no sessions; memory is cleared, src/np_memory.c:807, so the announced fingerprint is `zero`. -/
def Chan.new {Fp Id K : Type} (zero : Fp) : Chan Fp Id K := ⟨none, zero, [], []⟩

/-- What happens to the channel. -/
inductive Op (Fp K : Type) where
  /-- A new intent with a new key, at the start and before the old one expires, src/core/np_comp_msgproperty.c:1336-1385. -/
  | refresh (fp : Fp) (key : K)
  /-- The intent is announced, src/core/np_comp_msgproperty.c:1660-1782. -/
  | announce
  /-- The intent of a receiver that is authorized comes in, src/core/np_comp_intent.c:364-366; `ok`: the exchange of keys succeeds. -/
  | add (r : Fp) (ok : Bool)
  /-- The intent of a receiver is no longer valid, src/core/np_comp_intent.c:590-611. -/
  | remove (r : Fp)

variable {Fp Id K : Type} [DecidableEq Fp] [DecidableEq Id]

/-- `_np_intent_update_session` with `crud_create` for a sender, src/core/np_comp_intent.c:1101-1236: the key goes to every initial session. -/
def refresh (ids : Ids Fp Id) (s : Chan Fp Id K) (fp : Fp) (key : K) : Chan Fp Id K :=
  let t := insert s.tree (ids.own fp) (.shared key)
  let l := (t.filter fun e => e.1 ≠ ids.own fp ∧ e.2.isInitial).map fun e => ⟨e.1, fp, some key⟩
  ⟨some fp, s.cur, t, s.out ++ l⟩

/-- `__np_msgproperty_send_available_messages`, src/core/np_comp_msgproperty.c:1668-1674 and 1765-1767: the fingerprint for messages and sessions from now on. -/
def announce (s : Chan Fp Id K) : Chan Fp Id K :=
  match s.own with
  | none => s
  | some f => { s with cur := f }

/-- `_np_intent_update_receiver_session` with `crud_create` or `crud_update`, src/core/np_comp_intent.c:910-1099.  `none`: there is no own intent, a null pointer (line
921). -/
def add (ids : Ids Fp Id) (s : Chan Fp Id K) (r : Fp) (ok : Bool) : Option (Chan Fp Id K) :=
  match s.own with
  | none => none
  | some _ =>
    if r = s.cur then some s
    else
      let p := lookup s.tree (ids.priv s.cur r)
      let i := lookup s.tree (ids.init s.cur r)
      if (p.isNone ∨ i.isNone) ∧ ok then
        let t := replace (replace s.tree (ids.priv s.cur r) (if p.isNone then .priv else .blank)) (ids.init s.cur r) (if i.isNone then .initial else .blank)
        some { s with tree := t, out := s.out ++ (match lookup t (ids.own s.cur) with
          | none => []
          | some x => [⟨ids.init s.cur r, s.cur, x.key⟩]) }
      else some s

/-- `_np_intent_update_receiver_session` with `crud_delete`, src/core/np_comp_intent.c:942-960. -/
def remove (ids : Ids Fp Id) (s : Chan Fp Id K) (r : Fp) : Option (Chan Fp Id K) :=
  match s.own with
  | none => none
  | some _ =>
    if r = s.cur then some s
    else some { s with tree := erase (erase s.tree (ids.priv s.cur r)) (ids.init s.cur r) }

/-- One event, as in the lines cited at the constructors of `Op`. -/
def step (ids : Ids Fp Id) (s : Chan Fp Id K) : Op Fp K → Option (Chan Fp Id K)
  | .refresh f k => some (refresh ids s f k)
  | .announce => some (announce s)
  | .add r ok => add ids s r ok
  | .remove r => remove ids s r

/-- A history of events, src/util/np_statemachine.c. -/
def run (ids : Ids Fp Id) (s : Chan Fp Id K) : List (Op Fp K) → Option (Chan Fp Id K)
  | [] => some s
  | o :: l => match step ids s o with
    | none => none
    | some s => run ids s l

/-- The key under which a message to all receivers is encrypted: the session of the announced fingerprint, src/neuropil.c:697-704 and src/np_axon.c:79-83; `none`: there is
none, the message waits. -/
def sendKey (ids : Ids Fp Id) (s : Chan Fp Id K) : Option K := (lookup s.tree (ids.own s.cur)).bind Sess.key

end Np.Group

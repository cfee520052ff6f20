import Verif.Data.Model
import Verif.Bloom.Model
/-!
# Model of the attributes a user sets

`np_set_ident_attr_bin` of src/neuropil_attributes.c and the ways of the attributes into messages, intents and identities, on top of the model of datablocks (area Data).
-/
namespace Np.Attr
open _root_.Np.Cbor _root_.Np.Data

/-- `enum np_msg_attr_type`, include/neuropil_attributes.h:16-36, without `NP_ATTR_NONE` (`none` in `Option Scope`). -/
inductive Scope | user | intent | identity | identityUser | intentUser | intentIdentity
  deriving DecidableEq

/-- The caches, src/neuropil_attributes.c:23-26. -/
abbrev State := Scope → List Byte

/-- `np_set_data` on one of the caches, src/neuropil_attributes.c:62-67 and src/neuropil_attributes.c:101-106; the key is cut after 254 characters,
src/neuropil_attributes.c:57.  Without a scope the result stays as it was: `before`. -/
def setCache (s : State) (before : Ret) (inh : Option Scope) (k : Key) (v : List Byte) : Except Fault (Ret × State) :=
  match inh with
  | none => .ok (before, s)
  | some c =>
    match setData (s c) (k.take 254) (.bin v) with
    | .error f => .error f
    | .ok (r, b) => .ok (r, fun d => if d = c then b else s d)

/-- `np_set_ident_attr_bin`, src/neuropil_attributes.c:45-68: the result, the attributes of the token, and the caches. -/
def setIdent (s : State) (tok : Option (List Byte)) (inh : Option Scope) (k : Key) (v : List Byte) : Except Fault (Ret × Option (List Byte) × State) :=
  match tok with
  | none => (setCache s .invalidArguments inh k v).map fun r => (r.1, none, r.2)
  | some a =>
    match setData a (k.take 254) (.bin v) with
    | .error f => .error f
    | .ok (r, b) => (setCache s r inh k v).map fun r => (r.1, some b, r.2)

/-- A call that goes to a cache: scope, key and value. -/
abbrev Call := Option Scope × Key × List Byte

/-- Calls of `np_set_ident_attr_bin` and `np_set_mxp_attr_bin` one after the other, as far as the caches are concerned (src/neuropil_attributes.c:62-65 and
src/neuropil_attributes.c:101-104). -/
def history (s : State) : List Call → Except Fault (List Ret × State)
  | [] => .ok ([], s)
  | (inh, k, v) :: rest =>
    match setCache s .invalidArguments inh k v with
    | .error f => .error f
    | .ok (r, s') =>
      match history s' rest with
      | .error f => .error f
      | .ok (rs, t) => .ok (r :: rs, t)

/-- What attributes are carried by. -/
inductive Target | message | intent | identity

/-- The caches that are merged, in this order: src/neuropil.c:679-686, src/np_token_factory.c:287-297, src/np_token_factory.c:174-184 and
src/np_token_factory.c:443-453. -/
def sources (s : State) : Target → List Byte × List Byte × List Byte
  | .message => (s .user, s .identityUser, s .intentUser)
  | .intent => (s .intent, s .intentUser, s .intentIdentity)
  | .identity => (s .identity, s .identityUser, s .intentIdentity)

/-- Three calls of `np_merge_data` whose results are not looked at, src/neuropil.c:679-686; the results are kept here to speak of them. -/
def carried (dest : List Byte) (s : State) (t : Target) : Except Fault (List Ret × List Byte) :=
  match merge dest (sources s t).1 with
  | .error f => .error f
  | .ok (r1, d1) =>
    match merge d1 (sources s t).2.1 with
    | .error f => .error f
    | .ok (r2, d2) =>
      match merge d2 (sources s t).2.2 with
      | .error f => .error f
      | .ok (r3, d3) => .ok ([r1, r2, r3], d3)

/-- The attributes after `np_init_datablock`, src/neuropil_attributes.c:36-41 and src/neuropil.c:672. -/
def emptyBlock (n : Nat) : List Byte := match init (List.replicate n 0) with
  | .ok (_, b) => b
  | .error _ => []

/-- The attributes a message starts with, src/neuropil.c:670-677. -/
def withFrom (n : Nat) (me : List Byte) : List Byte := match setData (emptyBlock n) [95, 110, 112, 46, 102, 114, 111, 109] (.bin me) with
  | .ok (_, b) => b
  | .error _ => []

/-- `np_get_msg_attr_bin`, src/neuropil_attributes.c:109-124: the result and the bytes copied.  `conf` says whether the caller passed a configuration, `out` is the number of
bytes the caller has room for, `none` if the pointer to them is null.  `val` is read without having been set if the key was not found; a number in it is followed as a
pointer; without a configuration a null pointer is followed (src/neuropil_data.c:27-51). -/
def readMsg (attrs : List Byte) (k : Key) (conf : Bool) (out : Option Nat) : Except Fault (Ret × List Byte) :=
  match out with
  | none => .error .abort
  | some cap =>
    match getData attrs k with
    | .error f => .error f
    | .ok (_, none) => .error .ub
    | .ok (r, some v) =>
      if conf then
        match v with
        | .bin b => if b.length ≤ cap then .ok (r, b) else .error .ub
        | .str b => if b.length ≤ cap then .ok (r, b) else .error .ub
        | .int _ => .error .ub
        | .uint _ => .error .ub
      else .error .ub

/-! ## Policies of channels -/

/-- What `np_set_mxp_attr_policy_bin` returns, src/neuropil_attributes.c:149-199. -/
inductive PolicyRet | keyNotFound | ok | invalidOperation
  deriving DecidableEq

/-- The property of a channel for one direction: `none` if there is none, `some none` if it has no policy yet. -/
abbrev Side := Option (Option Bloom.Nb)

/-- A requirement: a key, and a value unless it is null. -/
abbrev Req := String × Option (List (BitVec 8))

/-- One direction, src/neuropil_attributes.c:164-176 and src/neuropil_attributes.c:179-191; `none` is an abort of the filter (area Bloom). -/
def setSide (h : Bloom.Hash) (side : Side) (r : Req) : Option Side :=
  match side with
  | none => some none
  | some p => (Bloom.setPolicy h (p.getD Bloom.Nb.create) r).map fun q => some (some q)

/-- `np_set_mxp_attr_policy_bin`, src/neuropil_attributes.c:149-199: the result and both directions, receiving first.  `subject` is false for a null pointer. -/
def setChannelPolicy (h : Bloom.Hash) (subject : Bool) (inb outb : Side) (r : Req) : Option (PolicyRet × Side × Side) :=
  if subject then
    (setSide h inb r).bind fun i => (setSide h outb r).map fun o => (if outb.isSome then .ok else .invalidOperation, i, o)
  else some (.keyNotFound, inb, outb)

end Np.Attr

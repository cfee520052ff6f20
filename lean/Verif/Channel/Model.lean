/-!
# Model of a data channel: `src/core/np_comp_msgproperty.c` and the callback registration in `src/neuropil.c`

Locks: every modelled function runs inside `_np_key_handle_event` with the key lock held (src/np_key.c:571-608),
so each is one atomic step. Times are integers (only `<`, `≤` and `+` of the `double` values are used).
-/
namespace Np.Channel

/-- `FLAG_CMP(data, flag)`, include/np_util.h:53. -/
def flagCmp {n : Nat} (data flag : BitVec n) : Bool := data &&& flag == flag

/-! ## Cache policy flags, include/core/np_comp_msgproperty.h:251-257 -/
def FIFO : BitVec 8 := 0x01
def LIFO : BitVec 8 := 0x02
def OVERFLOW_REJECT : BitVec 8 := 0x10
def OVERFLOW_PURGE : BitVec 8 := 0x20

/-- The four cache policies of the public API (`enum np_mx_cache_policy`, include/neuropil.h). -/
inductive Policy where
  | fifoReject | fifoPurge | lifoReject | lifoPurge
deriving DecidableEq, Repr

/-- Flags stored for a user policy, src/core/np_comp_msgproperty.c:1542-1557. -/
def policyFlags : Policy → BitVec 8
  | .fifoReject => FIFO ||| OVERFLOW_REJECT
  | .fifoPurge => FIFO ||| OVERFLOW_PURGE
  | .lifoReject => LIFO ||| OVERFLOW_REJECT
  | .lifoPurge => LIFO ||| OVERFLOW_PURGE

/-- The fields of `np_msgproperty_conf_s` used by the message paths, include/core/np_comp_msgproperty.h:307-370. -/
structure Conf where
  cacheSize : Nat
  cachePolicy : BitVec 8
  maxThreshold : Nat
  uniqueCheck : Bool
  isInternal : Bool
  isVirtual : Bool
deriving DecidableEq, Repr

/-- The fields of `np_e2e_message_s` used here. `expiry` is `_np_message_get_expiry` (src/np_message.c:301-326). -/
structure Msg where
  uuid : Nat
  expiry : Int
  session : Nat
  body : Nat
deriving DecidableEq, Repr

/-! ## Message cache -/

/-- `__np_property_add_msg_to_cache`, src/core/np_comp_msgproperty.c:878-935.
`dll_head`/`dll_tail` return NULL on an empty list and remove nothing (include/util/np_list.h). -/
def addToCache (c : Conf) (cache : List Msg) (m : Msg) : List Msg :=
  if c.cacheSize ≤ cache.length then
    let cache1 :=
      if flagCmp c.cachePolicy OVERFLOW_PURGE then
        if flagCmp c.cachePolicy FIFO then cache.tail
        else if flagCmp c.cachePolicy LIFO then cache.dropLast
        else cache
      else cache
    if flagCmp c.cachePolicy OVERFLOW_REJECT then cache1
    else cache1 ++ [m]
  else cache ++ [m]

/-- `_np_message_is_expired`, src/np_message.c:328-355. -/
def isExpired (now : Int) (m : Msg) : Bool := decide (m.expiry - now ≤ 0)

/-- `_np_msgproperty_cleanup_cache`, src/core/np_comp_msgproperty.c:837-876. -/
def cleanupCache (now : Int) (cache : List Msg) : List Msg := cache.filter fun m => !isExpired now m

/-- The loop of `_np_msgproperty_check_msgcache` for FIFO, src/core/np_comp_msgproperty.c:688-749.
The first argument is `msg_visit_counter`. `peek` always points to the head of the remaining list: it starts at the
first element and moves on only when the element it points to is released and removed. When it becomes NULL the loop ends.
Result: released messages in order, remaining cache. -/
def flushLoop (hasSession : Nat → Bool) : Nat → List Msg → List Msg × List Msg
  | 0, cache => ([], cache)
  | _ + 1, [] => ([], [])
  | n + 1, m :: ms =>
    if hasSession m.session then
      let r := flushLoop hasSession n ms
      (m :: r.1, r.2)
    else flushLoop hasSession n (m :: ms)

/-- `_np_msgproperty_check_msgcache`, src/core/np_comp_msgproperty.c:660-750. LIFO walks from the last element. The loop
condition `msg_visit_counter <= cache_size` is tested with the initial size (the counter only decreases). -/
def flush (c : Conf) (hasSession : Nat → Bool) (cache : List Msg) : List Msg × List Msg :=
  if cache.length ≤ c.cacheSize then
    if flagCmp c.cachePolicy FIFO then flushLoop hasSession cache.length cache
    else if flagCmp c.cachePolicy LIFO then
      let r := flushLoop hasSession cache.length cache.reverse
      (r.1, r.2.reverse)
    else ([], cache)
  else ([], cache)

/-- Operations on the cache of a channel: a message without partner arrives; the periodic check (line 1956-1957) flushes and expires. -/
inductive CacheOp where
  | arrive (m : Msg)
  | flush (sessions : List Nat)
  | expire (now : Int)

def cacheStep (c : Conf) (cache : List Msg) : CacheOp → List Msg
  | .arrive m => addToCache c cache m
  | .flush ss => (flush c (fun s => ss.contains s) cache).2
  | .expire now => cleanupCache now cache

def cacheRun (c : Conf) (ops : List CacheOp) : List Msg := ops.foldl (cacheStep c) []

/-! ## Uniqueness of message ids -/

/-- `unique_uuids`: tree from uuid to expiry. Lookup by uuid. -/
abbrev UniqueTree := List (Nat × Int)

/-- `_np_msgproperty_check_msg_uniquety`, src/core/np_comp_msgproperty.c:468-484. -/
def checkUnique (c : Conf) (t : UniqueTree) (m : Msg) : Bool × UniqueTree :=
  if c.uniqueCheck then
    if t.any (fun e => e.1 == m.uuid) then (false, t)
    else (true, t ++ [(m.uuid, m.expiry)])
  else (true, t)

/-- `_np_msgproperty_job_msg_uniquety`, src/core/np_comp_msgproperty.c:491-546: removes entries with expiry before now. -/
def cleanupUnique (c : Conf) (now : Int) (t : UniqueTree) : UniqueTree :=
  if c.uniqueCheck then t.filter fun e => !decide (e.2 < now) else t

/-! ## Dispatch to callbacks -/

/-- A callback: a name to observe it and the value it returns for a message. -/
structure Callback where
  name : Nat
  result : Msg → Bool

/-- The callback loops, src/core/np_comp_msgproperty.c:2015-2022 and 2028-2044: invoked names in order and the final `ret`. -/
def callLoop (m : Msg) : List Callback → Bool → List Nat × Bool
  | [], ret => ([], ret)
  | cb :: cbs, ret =>
    if ret then
      let r := callLoop m cbs (ret && cb.result m)
      (cb.name :: r.1, r.2)
    else ([], ret)

/-- Threshold functions, src/core/np_comp_msgproperty.c:79-100. -/
def thresholdIncrease (c : Conf) (t : Nat) : Nat := if t < c.maxThreshold then t + 1 else t
def thresholdBreached (c : Conf) (t : Nat) : Bool := decide (t > c.maxThreshold)
def thresholdDecrease (t : Nat) : Nat := if t > 0 then t - 1 else t

/-- Runtime part of a channel (`np_msgproperty_run_s`). -/
structure Run where
  cache : List Msg
  unique : UniqueTree
  threshold : Nat
  callbacks : List Callback
  userCallbacks : List Callback

/-- Result of `__np_property_handle_in_msg`: new state, internal callbacks and user callbacks invoked (by name), final `ret`. -/
structure InResult where
  run : Run
  internalCalls : List Nat
  userCalls : List Nat
  ok : Bool

/-- `__np_property_handle_in_msg`, src/core/np_comp_msgproperty.c:1995-2053, without the cache redelivery at its end. -/
def handleIn (c : Conf) (r : Run) (m : Msg) : InResult :=
  let (ret0, uniq) := checkUnique c r.unique m
  let t1 := thresholdIncrease c r.threshold
  let (calls, ret1) := callLoop m r.callbacks ret0
  let (ucalls, ret2) :=
    if c.isInternal = false ∧ c.isVirtual = false ∧ ret1 = true then callLoop m r.userCallbacks ret1 else ([], ret1)
  { run := { r with unique := uniq, threshold := thresholdDecrease t1 }, internalCalls := calls, userCalls := ucalls, ok := ret2 }

/-- `__np_receive_callback_converter`, src/neuropil.c:740-793: the wrapper registered by `np_add_receive_cb`. It calls the
user's function (here: when the message has user data) and returns `true` whatever the user's function returned. -/
def receiveConverter (user : Callback) : Callback := { name := user.name, result := fun _ => true }

/-- `np_add_receive_cb` → `np_add_receive_listener`, src/neuropil.c:795-809, src/np_legacy.c:299-328: append the wrapper. -/
def addReceiveCb (r : Run) (user : Callback) : Run := { r with userCallbacks := r.userCallbacks ++ [receiveConverter user] }

/-- `np_add_receive_listener` used directly (library-internal interface), src/np_legacy.c:299-328. -/
def addReceiveListener (r : Run) (user : Callback) : Run := { r with userCallbacks := r.userCallbacks ++ [user] }

/-- Operations for the delivery history of a receiving channel: a message for which a session exists, or the periodic clean-up. -/
inductive InOp where
  | message (m : Msg)
  | cleanup (now : Int)

/-- One step: new state and the delivered message, if user callbacks were entered for it. -/
def inStep (c : Conf) (r : Run) : InOp → Run × Option Msg
  | .message m =>
    let res := handleIn c r m
    (res.run, if res.userCalls.isEmpty then none else some m)
  | .cleanup now => ({ r with unique := cleanupUnique c now r.unique }, none)

/-- Deliveries of a whole history, in order. -/
def deliveries (c : Conf) : Run → List InOp → List Msg
  | _, [] => []
  | r, op :: ops =>
    let (r', d) := inStep c r op
    d.toList ++ deliveries c r' ops

/-! ## Sending with acknowledgement bookkeeping (max_parallel) -/

/-- Events at a sending channel, src/core/np_comp_msgproperty.c: 2147-2195 (send), 2197-2226 (store for redelivery),
2247-2262 (acknowledged or timed out). `ackNone` is the acknowledgement mode flag tested at line 2189. -/
inductive OutOp where
  | send (uuid : Nat)
  | store (uuid : Nat)
  | done (uuid : Nat)

structure OutState where
  threshold : Nat
  redelivery : List Nat
  inFlight : List Nat   -- ghost: messages sent and not yet acknowledged / timed out
deriving DecidableEq, Repr

/-- One step of a sending channel. A send goes out only if the threshold is not breached (line 2115; session available);
otherwise it is put into the message cache (not modelled here) and nothing is in flight. -/
def outStep (c : Conf) (ackNone : Bool) (s : OutState) : OutOp → OutState
  | .send u =>
    if thresholdBreached c s.threshold then s
    else
      let t := thresholdIncrease c s.threshold
      { s with threshold := if ackNone then thresholdDecrease t else t,
               inFlight := if ackNone then s.inFlight else s.inFlight ++ [u] }
  | .store u =>
    if s.redelivery.contains u then s
    else { s with threshold := thresholdIncrease c s.threshold, redelivery := s.redelivery ++ [u] }
  | .done u =>
    if s.redelivery.contains u then
      { threshold := thresholdDecrease s.threshold, redelivery := s.redelivery.erase u, inFlight := s.inFlight.erase u }
    else s

def outRun (c : Conf) (ackNone : Bool) (ops : List OutOp) : OutState := ops.foldl (outStep c ackNone) ⟨0, [], []⟩

/-! ## Callback setters -/

/-- The global callbacks of a context. -/
structure Ctx where
  authenticate : Option Nat
  authorize : Option Nat
  accounting : Option Nat
deriving DecidableEq, Repr

/-- Result codes of `enum np_return` used here. -/
inductive Ret where
  | ok | invalidArgument | invalidOperation | notImplemented | operationFailed | startup | outOfMemory
deriving DecidableEq, Repr

/-- `np_set_authenticate_cb`, src/neuropil.c:811-819. -/
def setAuthenticate (c : Ctx) (cb : Nat) : Ctx × Ret := ({ c with authenticate := some cb }, .ok)
/-- `np_set_authorize_cb`, src/neuropil.c:821-828. -/
def setAuthorize (c : Ctx) (cb : Nat) : Ctx × Ret := ({ c with authorize := some cb }, .ok)
/-- `np_set_accounting_cb`, src/neuropil.c:830-837. -/
def setAccounting (c : Ctx) (cb : Nat) : Ctx × Ret := ({ c with accounting := some cb }, .ok)

/-- The two runtime halves of a subject; `none` = no such property, otherwise its `authorize_func`. -/
structure MxCallbacks where
  inbound : Option (Option Nat)
  outbound : Option (Option Nat)
deriving DecidableEq, Repr

/-- `np_set_mx_authorize_cb`, src/neuropil.c:854-906. -/
def setMxAuthorize (s : MxCallbacks) (cb : Nat) : MxCallbacks × Ret :=
  let (i, ret1) := match s.inbound with
    | some none => (some (some cb), Ret.ok)
    | x => (x, Ret.invalidOperation)
  let (o, ret2) := match s.outbound with
    | some none => (some (some cb), Ret.ok)
    | x => (x, ret1)
  (⟨i, o⟩, ret2)

end Np.Channel

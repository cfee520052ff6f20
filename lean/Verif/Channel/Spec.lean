import Verif.Channel.Model
/-! # Specification vocabulary for data channels -/
namespace Np.Channel.Spec

/-- What a bounded cache does with an arriving message. -/
def arrive (size : Nat) (p : Policy) (cache : List Msg) (m : Msg) : List Msg :=
  if cache.length < size then cache ++ [m]
  else match p with
    | .fifoReject | .lifoReject => cache                -- keep the cache, drop the new message
    | .fifoPurge => cache.drop 1 ++ [m]                 -- drop the oldest
    | .lifoPurge => cache.take (cache.length - 1) ++ [m] -- drop the newest cached

/-- Callbacks that must be invoked for a message: all up to and including the first one that rejects it. -/
def invoked (m : Msg) : List Callback → List Nat
  | [] => []
  | cb :: cbs => cb.name :: (if cb.result m then invoked m cbs else [])

/-- How often a message id occurs among deliveries. -/
def countUuid (u : Nat) (ds : List Msg) : Nat := (ds.filter fun m => m.uuid = u).length

/-- The messages that arrived in a history, in order. -/
def arrivals : List CacheOp → List Msg
  | [] => []
  | .arrive m :: ops => m :: arrivals ops
  | _ :: ops => arrivals ops

/-- All clean-ups of a history happen no later than `e`. -/
def cleanupsUntil (e : Int) : List InOp → Prop
  | [] => True
  | .cleanup now :: ops => now ≤ e ∧ cleanupsUntil e ops
  | .message _ :: ops => cleanupsUntil e ops

/-- Every arriving copy of message id `u` expires at `e` or later. -/
def copiesExpireFrom (u : Nat) (e : Int) : List InOp → Prop
  | [] => True
  | .message m :: ops => (m.uuid = u → e ≤ m.expiry) ∧ copiesExpireFrom u e ops
  | .cleanup _ :: ops => copiesExpireFrom u e ops

/-- The next cache content as the policy, the known partners and the clock allow it. -/
def explained (c : Conf) (p : Policy) (cache : List Msg) : CacheOp → List Msg → Prop
  | .arrive m, cache' => cache' = arrive c.cacheSize p cache m
  | .flush ss, cache' => ∀ m ∈ cache, m ∉ cache' → m.session ∈ ss      -- only messages with a partner leave
  | .expire now, cache' => cache' = cache.filter fun m => decide (now < m.expiry)  -- exactly the expired ones leave

end Np.Channel.Spec

import Verif.Mx.Model

/-!
# What a user expects of the settings of a channel
-/
namespace Np.Mx.Spec

open Np (Dhkey)
open Np.Mx

/-- A time, in whole seconds. -/
def whole (d : Int) : Int := (d / second) * second

/-- The settings of a channel nobody has changed yet. -/
def fresh (ttl : Int) (role : Role) : Props where
  role := role
  ack := .none
  reply := zeros
  audience := .pub
  audienceId := Dhkey.zero
  policy := .fifoPurge
  cacheSize := 16
  parallel := 2
  retry := 3
  intentTtl := 180 * second
  intentUpdate := 3 * second
  messageTtl := ttl

/-- The settings after `p` was given, if they were `o` before: a number that is zero keeps its former value. Two things are not as one expects: the
durations of intents are cut to whole seconds, and an `intentUpdate` of zero means three seconds. Reply and audience are never reported. -/
def changed (o p : Props) : Props where
  role := p.role
  ack := p.ack
  reply := zeros
  audience := .pub
  audienceId := Dhkey.zero
  policy := p.policy
  cacheSize := if p.cacheSize = 0 then o.cacheSize else p.cacheSize
  parallel := if p.parallel = 0 then o.parallel else p.parallel
  retry := if p.retry = 0 then o.retry else p.retry
  intentTtl := if p.intentTtl ≤ 0 then o.intentTtl else whole p.intentTtl
  intentUpdate := if p.intentUpdate ≤ 0 then 3 * second else whole p.intentUpdate
  messageTtl := if p.messageTtl ≤ 0 then o.messageTtl else p.messageTtl

/-- The properties are for a protected channel but name no audience. -/
def Incomplete (p : Props) : Prop := p.audience = .prot ∧ p.audienceId = Dhkey.zero

instance (p : Props) : Decidable (Incomplete p) := inferInstanceAs (Decidable (_ ∧ _))

/-- The settings of the channel `s` after these calls, `none` if it was never configured or listened to. -/
def expected (ttl : Int) (s : Dhkey) : List Op → Option Props
  | [] => none
  | .set t p :: earlier =>
    if t = s ∧ ¬ Incomplete p then some (changed ((expected ttl s earlier).getD (fresh ttl p.role)) p) else expected ttl s earlier
  | .listen t :: earlier =>
    if t = s then some ((expected ttl s earlier).getD (fresh ttl .consumer)) else expected ttl s earlier
  | _ :: earlier => expected ttl s earlier

/-- The channel was listened to, or was given a role that receives. -/
def Opened (s : Dhkey) : List Op → Prop
  | [] => False
  | .set t p :: earlier => (t = s ∧ ¬ Incomplete p ∧ p.role ≠ .provider) ∨ Opened s earlier
  | .listen t :: earlier => t = s ∨ Opened s earlier
  | _ :: earlier => Opened s earlier

/-- The channel was given a role that sends. -/
def MaySend (s : Dhkey) : List Op → Prop
  | [] => False
  | .set t p :: earlier => (t = s ∧ ¬ Incomplete p ∧ p.role ≠ .consumer) ∨ MaySend s earlier
  | _ :: earlier => MaySend s earlier

/-- The program, whose calls are given last call first, opens the channel for receiving before it makes it a mere sender, and sends only after it has given
the channel a role that sends. -/
def Orderly (s : Dhkey) : List Op → Prop
  | [] => True
  | .set t p :: earlier => (t = s → ¬ Incomplete p → p.role = .provider → Opened s earlier) ∧ Orderly s earlier
  | .send t :: earlier => (t = s → MaySend s earlier) ∧ Orderly s earlier
  | _ :: earlier => Orderly s earlier

/-- The settings the sending half of the channel uses. -/
def sending (st : St) (s : Dhkey) : Option Props :=
  match st.tx s with
  | some h => (st.confs[h.conf]?).map toUser
  | none => none

/-- The sending half of the channel was put on hold. -/
def OnHold (st : St) (s : Dhkey) : Prop := (st.tx s).map (·.hold) = some true

instance (st : St) (s : Dhkey) : Decidable (OnHold st s) := inferInstanceAs (Decidable (_ = _))

end Np.Mx.Spec

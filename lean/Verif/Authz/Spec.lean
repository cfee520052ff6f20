import Verif.Authz.Model
/-! # Vocabulary for the properties of intents -/
namespace Np.Authz.Spec
open Np.Token Np.Authz

/-- The token object carries the mark of authorization. -/
def Authorized (t : Tok) : Prop := t.state &&& 0x04#8 = 0x04#8

/-- Two intents of the same holder of a key with the same uuid. -/
def SameKeyAndUuid (W : World) (a b : Tok) : Prop := W.kx a.publicKey = W.kx b.publicKey ∧ a.uuid = b.uuid

/-- The application set an authorization callback for this direction of the channel. -/
def HasCallback (n : Node) (m : Mode) (sid : Bytes) : Prop := ∃ c, n.chans m sid = some c ∧ c.hasAuthz = true

/-- Histories in which no intent and no channel uses the single sender / single receiver pattern, and uuids have their
16 bytes (which `np_aaatoken_decode` ensures). -/
def MultiParty (W : World) : Op → Prop
  | .receive t => t.uuid.length = 16 ∧ announcedMep W t &&& 0x11#32 = 0#32
  | .register _ _ mep => mep &&& 0x11#32 = 0#32
  | _ => True

/-- The stored intent passes the validity check now. -/
def ValidNow (W : World) (now : BitVec 64) (t : Tok) : Prop := (isValid W.E now t typeIntent).2 = true

/-- The peer of an inbound message with a given sender (any, if the sender is zero): valid, from this sender, authorized. -/
def Accepts (W : World) (now : BitVec 64) (sender : Dhkey) (t : Tok) : Prop :=
  ValidNow W now t ∧ Authorized t ∧ (sender = Dhkey.zero ∨ partnerFp W t = some sender)

/-- A possible receiver of an outbound message: valid, authorized, somebody else, and the wanted one. -/
def Reaches (W : World) (now : BitVec 64) (me : Dhkey × Dhkey) (target : Dhkey) (t : Tok) : Prop :=
  ValidNow W now t ∧ Authorized t ∧ toDhkey (fromHash t.issuer) ≠ me.1 ∧ toDhkey (fromHash t.issuer) ≠ me.2 ∧
  (target = Dhkey.zero ∨ toDhkey (fromHash t.issuer) = target)

/-- A receiver of a message to an audience. -/
def InAudience (W : World) (now : BitVec 64) (currentFp audience : Dhkey) (t : Tok) : Prop :=
  ValidNow W now t ∧ Authorized t ∧
  (audience = toDhkey (fromHash t.issuer) ∨ audience = toDhkey (fromHash t.audience) ∨ audience = currentFp)

/-- The key exchange of libsodium: for two key pairs, what one side computes as server fits what the other side
computes as client, and one of them fails exactly if the other fails. -/
def Exchange (W : World) (pkA skA pkB skB : Bytes) : Prop :=
  W.kxClient pkB skB pkA = (W.kxServer pkA skA pkB).map fun x => (x.2, x.1)

/-- Two sessions that fit: opposite roles, and each side reads with the key the other side writes with. -/
def Fit (a b : Session) : Prop := a.role ≠ b.role ∧ a.read = b.write ∧ a.write = b.read ∧ a.kind = b.kind

end Np.Authz.Spec

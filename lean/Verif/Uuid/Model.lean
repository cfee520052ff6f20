/-!
# Model of the making of ids, `np_uuid_create` of src/np_util.c, and its callers

Texts are lists of bytes without zeros.  The hash, `crypto_generichash_blake2b` of libsodium with 16 bytes, is a parameter.  A time is a number of steps of
2^-22 seconds: that is what the clock, a `double`, can tell apart from 2004 to 2038.
-/
namespace Np.Uuid

abbrev Text := List Nat

/-- `w` decimal digits. -/
def dec : Nat → Nat → Text
  | 0, _ => []
  | w + 1, n => dec w (n / 10) ++ [48 + n % 10]

/-- "%64s" of src/np_util.c:67: blanks before a short text, a long one is not cut. -/
def pad (t : Text) : Text := List.replicate (64 - t.length) 32 ++ t

/-- The time in units of 10^-16 seconds, rounded to the nearest, ties to even; 10^16 / 2^22 is 5^16 / 2^6. -/
def units (t : Nat) : Nat :=
  let q := t * 5 ^ 16 / 64
  let r := t * 5 ^ 16 % 64
  if r > 32 ∨ (r = 32 ∧ q % 2 = 1) then q + 1 else q

/-- "%16.16f" of src/np_util.c:67, for times of ten digits before the point. -/
def stamp (t : Nat) : Text := dec 10 (units t / 10 ^ 16) ++ [46] ++ dec 16 (units t % 10 ^ 16)

/-- What `snprintf` writes, src/np_util.c:67: at most 254 bytes. -/
def line (str : Text) (num t : Nat) : Text := (pad str ++ [58] ++ dec 10 num ++ [58] ++ stamp t).take 254

/-- The 256 bytes that are hashed, src/np_util.c:64. -/
def block (str : Text) (num t : Nat) : Text := line str num t ++ List.replicate (256 - (line str num t).length) 0

/-- `np_uuid_create`, src/np_util.c:55-77. -/
def uuid {α : Type} (hash : Text → α) (str : Text) (num t : Nat) : α := hash (block str num t)

/-- What ids are made for. -/
inductive Kind
  | message | event | token | memory | refresh | query
  deriving DecidableEq, Repr

/-- The name given to `np_uuid_create` at src/np_message.c:612, src/np_eventqueue.c:166, src/np_aaatoken.c:85, src/np_memory.c:379, src/np_memory.c:480 and
framework/search/np_search.c:2406 (with framework/search/np_search_mxproperties.c:28). -/
def Kind.name : Kind → Text
  | message => [117, 114, 110, 58, 110, 112, 58, 109, 101, 115, 115, 97, 103, 101, 58, 103, 101, 110, 101, 114, 97, 116, 101, 95, 109, 101, 115, 115, 97, 103, 101, 95, 105, 100]
  | event => [117, 114, 110, 58, 110, 112, 58, 114, 117, 110, 116, 105, 109, 101, 58, 99, 114, 101, 97, 116, 101, 95, 101, 118, 101, 110, 116, 95, 105, 100]
  | token => [117, 114, 110, 58, 110, 112, 58, 116, 111, 107, 101, 110, 58, 99, 114, 101, 97, 116, 101, 95, 103, 101, 110, 101, 114, 105, 99, 95, 116, 111, 107, 101, 110]
  | memory => [117, 114, 110, 58, 110, 112, 58, 109, 101, 109, 111, 114, 121, 58, 99, 114, 101, 97, 116, 101, 95, 109, 101, 109, 111, 114, 121, 95, 99, 111, 110, 116, 97, 105, 110, 101, 114]
  | refresh => [117, 114, 110, 58, 110, 112, 58, 109, 101, 109, 111, 114, 121, 58, 114, 101, 102, 114, 101, 115, 104, 95, 109, 101, 109, 111, 114, 121, 95, 99, 111, 110, 116, 97, 105, 110, 101, 114]
  | query => [117, 114, 110, 58, 110, 112, 58, 115, 101, 97, 114, 99, 104, 58, 113, 117, 101, 114, 121, 58, 118, 49]

/-- The number given with it, in the same places. -/
def Kind.number : Kind → Nat
  | message => 32564
  | event => 5455
  | _ => 0

/-- The id of a thing made at a time. -/
def make {α : Type} (hash : Text → α) (k : Kind) (t : Nat) : α := uuid hash k.name k.number t

/-- What a message is made of by `_np_message_create`, src/np_message.c:581-615: receiver, sender, subject, data, and the time of the call. -/
structure Message where
  to : Nat
  sender : Nat
  subject : Nat
  data : Text
  time : Nat
  deriving DecidableEq, Repr

/-- The id of a message, src/np_message.c:612. -/
def Message.id {α : Type} (hash : Text → α) (m : Message) : α := make hash .message m.time

end Np.Uuid

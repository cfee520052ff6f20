import Verif.Token.Model
/-!
# Model of the stable filter and what it guards

Models the stable filter of `src/util/np_bloom.c`, its random numbers in `src/util/np_pcg_rng.c`, and the two places it is used: the sending of
message parts to a node, `src/core/np_comp_node.c`, and the requests for authentication and authorization, `src/core/np_comp_identity.c`.

Simplified: the counter of free items, which nothing reads, is left out; so are the locks (the state machine of a key runs one event at a time).
-/
namespace Np.Stable
open Np.Token (Bytes Tok)

/-! ## Random numbers -/

/-- `struct np_local_pcg_state_32`. -/
structure Rng where
  state : BitVec 64
  inc : BitVec 64

/-- `pcg_rotr_32`, np_pcg_rng.c:37-44. -/
def rotr (v : BitVec 32) (rot : Nat) : BitVec 32 := (v >>> rot) ||| (v <<< ((32 - rot) % 32))

/-- The output, np_pcg_rng.c:50. -/
def output (s : BitVec 64) : BitVec 32 := rotr ((((s >>> 18) ^^^ s) >>> 27).setWidth 32) (s >>> 59).toNat

/-- The next state, np_pcg_rng.c:48. -/
def nextState (s inc : BitVec 64) : BitVec 64 := s * 6364136223846793005#64 + inc

/-- `pcg_output_xsh_rr_32_32`, np_pcg_rng.c:46-54: `np_rng_next`, lines 74-78. -/
def Rng.next (r : Rng) : BitVec 32 × Rng := (output r.state, { r with state := nextState r.state r.inc })

/-- `np_rng_init` with `pcg_setseq_32_srandom_r`, np_pcg_rng.c:56-71; the seeds are random. -/
def Rng.init (s0 s1 : BitVec 64) : Rng :=
  let r := (Rng.next { state := 0, inc := (s1 <<< 1) ||| 1#64 }).2
  (Rng.next { r with state := r.state + s0 }).2

abbrev Gen := Rng → BitVec 32 × Rng

/-- `np_rng_next_bounded`, np_pcg_rng.c:80-87, with the generator `G` (`Rng.next`); `none` if `fuel` numbers were refused. -/
def bounded (G : Gen) (bound : BitVec 32) : Nat → Rng → Option (BitVec 32 × Rng)
  | 0, _ => none
  | fuel + 1, r => if (-bound) % bound ≤ (G r).1 then some ((G r).1 % bound, (G r).2) else bounded G bound fuel (G r).2

/-! ## The filter

The functions get the generator `G` as an argument; it is `Rng.next`. -/

/-- `np_bloom_t` of type `stable_bf` as it is created for nodes and identities: `NP_MSG_FORWARD_FILTER_SIZE` = 2048 cells of one byte
(`d` = 8), `NP_MSG_FORWARD_FILTER_PRUNE_RATE` = 8. -/
structure Filter where
  rng : Rng
  cell : Nat → BitVec 8

/-- `_np_stable_bloom_create`, np_bloom.c:508-527. -/
def create (s0 s1 : BitVec 64) : Filter := { rng := Rng.init s0 s1, cell := fun _ => 0 }

/-- The cell of a word, np_bloom.c:563-564. -/
def cellOf (w : BitVec 32) : Nat := (w &&& 2047#32).toNat

/-- The eight cells of an id. -/
def cells (id : Dhkey) : List Nat :=
  [cellOf id.t0, cellOf id.t1, cellOf id.t2, cellOf id.t3, cellOf id.t4, cellOf id.t5, cellOf id.t6, cellOf id.t7]

def setCell (f : Nat → BitVec 8) (c : Nat) (v : BitVec 8) : Nat → BitVec 8 := fun i => if i = c then v else f i

/-- The inner loop of the pruning, np_bloom.c:544-552: eight cells in a row lose a bit. -/
def prune (f : Nat → BitVec 8) (x : BitVec 32) : Nat → BitVec 8 :=
  (List.range 8).foldl (fun g q => let c := cellOf (x + BitVec.ofNat 32 q); setCell g c (g c >>> 1)) f

/-- The pruning, np_bloom.c:542-553. -/
def pruneAll (G : Gen) : Nat → Filter → Filter
  | 0, f => f
  | n + 1, f => pruneAll G n { rng := (G f.rng).2, cell := prune f.cell (G f.rng).1 }

/-- `_np_stable_bloom_add`, np_bloom.c:529-579. -/
def add (G : Gen) (f : Filter) (id : Dhkey) : Filter :=
  let g := pruneAll G 8 f
  { g with cell := (cells id).foldl (fun h c => setCell h c 0x0f#8) g.cell }

/-- `_np_stable_bloom_check`, np_bloom.c:581-606: the id is added in any case. -/
def check (G : Gen) (f : Filter) (id : Dhkey) : Bool × Filter := ((cells id).all fun c => f.cell c ≠ 0, add G f id)

/-! ## Message parts -/

/-- What identifies a part: the audience (in the header), uuid, nonce and the offset. -/
structure Part where
  audience : Dhkey
  uuid : Bytes
  nonce : Bytes
  offset : BitVec 16

/-- The bytes of the offset, as they are in memory. -/
def offsetBytes (o : BitVec 16) : Bytes := [o.setWidth 8, (o >>> 8).setWidth 8]

/-- The id of a part, np_comp_node.c:1731-1743: the hash of uuid, nonce and offset is xor-ed into the audience. -/
def partId (hash : Bytes → Dhkey) (m : Part) : Dhkey :=
  Dhkey.generateSubject hash m.audience (m.uuid ++ m.nonce ++ offsetBytes m.offset)

/-- `__is_new_np_messagepart`, np_comp_node.c:1720-1770: is the part sent to the node? -/
def isNew (G : Gen) (hash : Bytes → Dhkey) (f : Filter) (m : Part) : Bool × Filter :=
  let r := check G f (partId hash m)
  (!r.1, r.2)

/-! ## Requests about tokens -/

inductive Kind
  | authn | authz
deriving DecidableEq

/-- The types of tokens which are handled, np_comp_identity.c:432-433 and 482-484. -/
def fits (k : Kind) (t : Tok) : Bool :=
  match k with
  | .authn => Token.flagCmp t.type Token.typeIdentity || Token.flagCmp t.type Token.typeNode
  | .authz => Token.flagCmp t.type Token.typeIdentity || Token.flagCmp t.type Token.typeNode || Token.flagCmp t.type Token.typeIntent

/-- `__is_authn_request` and `__is_authz_request` for an external event with a token, np_comp_identity.c:396-494: is the request handled?
`hash` is that of `np_generate_subject`. -/
def isRequest (G : Gen) (E : Token.Env) (hash : Bytes → Dhkey) (f : Filter) (k : Kind) (now : BitVec 64) (t : Tok) : Bool × Filter :=
  let r := check G f (Dhkey.generateSubject hash Dhkey.zero t.attrSignature)
  if r.1 then (false, r.2) else (fits k t && (Token.isValid E now t t.type).2, r.2)

end Np.Stable

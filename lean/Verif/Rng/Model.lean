/-!
# Model of the random number generator

`src/util/np_pcg_rng.c`.  A state has two 64-bit words, outputs have 32 bits; the words are bit vectors, arithmetic wraps as in C.
-/
namespace Np.Rng

/-- `struct np_local_pcg_state_32`, include/util/np_pcg_rng.h:32-35. -/
structure State where
  state : BitVec 64
  inc : BitVec 64
  deriving DecidableEq

/-- `PCG_DEFAULT_MULTIPLIER_32`, src/util/np_pcg_rng.c:26. -/
def mult : BitVec 64 := 6364136223846793005#64

/-- `pcg_rotr_32`, src/util/np_pcg_rng.c:38-45 (the variant without assembler). -/
def rotr (value : BitVec 32) (rot : BitVec 32) : BitVec 32 := (value >>> rot.toNat) ||| (value <<< ((-rot) &&& 31#32).toNat)

/-- The value computed by `pcg_output_xsh_rr_32_32`, src/util/np_pcg_rng.c:47-55: the argument is cut to 32 bits by the call. -/
def output (s : BitVec 64) : BitVec 32 := rotr ((((s >>> 18) ^^^ s) >>> 27).setWidth 32) ((s >>> 59).setWidth 32)

/-- The step of `pcg_output_xsh_rr_32_32`, src/util/np_pcg_rng.c:49 (the factors are exchanged here). -/
def advance (r : State) : State := { r with state := mult * r.state + r.inc }

/-- `np_rng_next`, src/util/np_pcg_rng.c:74-77. -/
def next (r : State) : BitVec 32 × State := (output r.state, advance r)

/-- `pcg_setseq_32_srandom_r`, src/util/np_pcg_rng.c:57-65, called by `np_rng_init`, 68-72, with two random words. -/
def seed (initstate initseq : BitVec 64) : State :=
  let r := advance { state := 0#64, inc := (initseq <<< 1) ||| 1#64 }
  advance { r with state := r.state + initstate }

/-- `PCG32_INITIALIZER`, src/util/np_pcg_rng.c:27. -/
def initializer : State := { state := 0x853c49e6748fea9b#64, inc := 0xda3e39cb94b95bdb#64 }

/-- What a call can end with; `running` if the loop is not finished after the given number of rounds. -/
inductive Outcome
  /-- a division by zero -/
  | crash
  | running
  | value (v : BitVec 32) (r : State)
  deriving DecidableEq

/-- The loop of `np_rng_next_bounded`, src/util/np_pcg_rng.c:83-86. -/
def boundedLoop (bound threshold : BitVec 32) : Nat → State → Outcome
  | 0, _ => .running
  | k + 1, r =>
    if threshold ≤ (next r).1 then .value ((next r).1 % bound) (next r).2 else boundedLoop bound threshold k (next r).2

/-- `-bound % bound`, src/util/np_pcg_rng.c:82. -/
def threshold (bound : BitVec 32) : BitVec 32 := (-bound) % bound

/-- `np_rng_next_bounded`, src/util/np_pcg_rng.c:79-86, at most `rounds` rounds. -/
def nextBounded (rounds : Nat) (r : State) (bound : BitVec 32) : Outcome :=
  if bound = 0 then .crash else boundedLoop bound (threshold bound) rounds r

/-- `NODE_MAX_TTL_SEC` and `NODE_MIN_TTL_SEC`, include/np_settings.h:148-156. -/
def nodeMaxTtl : BitVec 32 := 3#32 <<< 16
def nodeMinTtl : Nat := 3 <<< 8

/-- The lifetime in seconds of a new node token, `_np_token_factory_new_node_token`, src/np_token_factory.c:407-413. -/
def nodeTokenTtl (rounds : Nat) (r : State) : Option Nat :=
  match nextBounded rounds r nodeMaxTtl with
  | .value v _ => some (v.toNat + nodeMinTtl)
  | _ => none

/-- The slot of the pheromone table that ages, `_np_pheromone_exhale`, src/np_pheromones.c:624-629. -/
def exhaleSlot (rounds : Nat) (r : State) : Outcome := nextBounded rounds r 257

end Np.Rng

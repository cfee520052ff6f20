import Verif.Dhkey.Model

/-! # Names of the built-in subjects

`np_regenerate_subject` as threads that interleave between the accesses to its two static variables.
The hash of `_np_dhkey_generate_hash` (src/np_dhkey.c) is a parameter. -/
namespace Np.Subj

open Np

/-- src/neuropil.c:95-110 `known_subjects`, the strings of include/core/np_comp_msgproperty.h:58-78. -/
def known : List String :=
  ["_NP.ACK", "_NP.HANDSHAKE", "_NP.JOIN.REQUEST", "_NP.LEAVE.REQUEST", "_NP.PING.REQUEST",
    "_NP.NODES.PIGGY", "_NP.NODES.UPDATE", "_NP.PHEROMONE.UPDATE", "_NP.MESSAGE.RECEIVER.TOKEN",
    "_NP.MESSAGE.SENDER.TOKEN", "_NP.MESSAGE.AUTHENTICATE", "_NP.MESSAGE.AUTHENICATION.REPLY",
    "_NP.MESSAGE.AUTHORIZE", "_NP.MESSAGE.AUTHORIZATION.REPLY", "_NP.MESSAGE.ACCOUNT",
    "_NP.SYSINFO.DATA"]

/-- include/neuropil.h:36-46 `enum np_return`, the values used here. -/
inductive Ret
  | ok
  | notImplemented
  | invalidArgument
  deriving DecidableEq, Repr

/-- The static variables `bin_subjects_are_generated` and `known_bin_subjects`,
src/neuropil.c:111-112; static storage starts as zero. -/
structure Shared where
  generated : Bool := false
  table : List Dhkey := List.replicate 16 Dhkey.zero
  deriving DecidableEq

/-- The arguments of a call: the subject and the length of the buffer (`none`: no buffer). -/
structure Args where
  subject : Dhkey
  buffer : Option Nat
  deriving DecidableEq

/-- Where a thread is. -/
inductive Pc
  | idle
  | start (a : Args)
  | gen (i : Nat) (a : Args)
  | done (a : Args)
  | scan (a : Args)
  deriving DecidableEq

/-- What a call reports: the arguments, the return value and the characters written to the buffer
from its start on.  Writing more of them than the buffer has is undefined behaviour; the model keeps
them all. -/
structure Out where
  args : Args
  ret : Ret
  written : List Char
  deriving DecidableEq

/-- `strncpy`: the string, filled up with zero bytes to `n`, or cut at `n`. -/
def strncpy (s : List Char) (n : Nat) : List Char :=
  s.take n ++ List.replicate (n - s.length) (Char.ofNat 0)

/-- src/neuropil.c:121-133: the first entry of the table that is equal to the subject; otherwise
`np_id_str` (src/neuropil.c:1069-1074), which writes 65 characters. -/
def answer (table : List Dhkey) (a : Args) (n : Nat) : Out :=
  match (table.zip known).find? fun e => Dhkey.equal a.subject e.1 with
  | some e => ⟨a, .ok, strncpy e.2.toList n⟩
  | none => ⟨a, .notImplemented, idStr a.subject.bytes ++ [Char.ofNat 0]⟩

/-- One step of a thread.  `start`: src/neuropil.c:90-92 and 113; `gen`: one round of lines 114-118,
where src/neuropil.c:136-144 `np_generate_subject` xors the hash into the entry (one step, although
it is eight reads and writes); `done`: line 119; `scan`: lines 121-133 (one step). -/
def act (hash : String → Dhkey) (x : Shared) : Pc → Shared × Pc × Option Out
  | .idle => (x, .idle, none)
  | .start a =>
    match a.buffer with
    | none => (x, .idle, some ⟨a, .invalidArgument, []⟩)
    | some n =>
      if n < 64 then (x, .idle, some ⟨a, .invalidArgument, []⟩)
      else if x.generated then (x, .scan a, none)
      else (x, .gen 0 a, none)
  | .gen i a =>
    if i < 16 then
      ({ x with
          table := x.table.set i
            (Dhkey.generateSubject hash (x.table.getD i Dhkey.zero) (known.getD i "")) },
        .gen (i + 1) a, none)
    else (x, .done a, none)
  | .done a => ({ x with generated := true }, .scan a, none)
  | .scan a => (x, .idle, some (answer x.table a (a.buffer.getD 0)))

/-- The static variables, where each thread is, and the answers so far (the latest last). -/
structure World where
  shared : Shared := {}
  pc : Nat → Pc := fun _ => .idle
  trace : List Out := []

/-- A thread calls the function, or a thread goes on. -/
inductive Ev
  | call (t : Nat) (a : Args)
  | go (t : Nat)

def step (hash : String → Dhkey) (w : World) : Ev → World
  | .call t a =>
    if w.pc t = .idle then { w with pc := fun u => if u = t then .start a else w.pc u } else w
  | .go t =>
    let r := act hash w.shared (w.pc t)
    { shared := r.1
      pc := fun u => if u = t then r.2.1 else w.pc u
      trace := w.trace ++ r.2.2.toList }

def run (hash : String → Dhkey) (w : World) (evs : List Ev) : World := evs.foldl (step hash) w

end Np.Subj

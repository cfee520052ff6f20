import Verif.Subj.Lemmas

/-! # C48: names of the built-in subjects -/
namespace Np.Subj

open Np _root_.Np.Subj.Spec

/-- C48, once one call has been completed alone: whatever the threads do from then on, every answer
is the right one, and it stays inside the buffer unless a foreign id is asked for with a buffer of
exactly 64 bytes.  The full property asks this also for first calls at the same time
(`C48_race_refuted`) and for buffers of 64 bytes (`C48_overflow_refuted`). -/
theorem C48_names_partial (hash : String → Dhkey) (hd : Distinct hash) (t : Nat) (a : Args) (n : Nat)
    (hb : a.buffer = some n) (h64 : 64 ≤ n) (evs : List Ev) :
    ∀ o ∈ (run hash {} (whole t a ++ evs)).trace, Right hash o ∧
      ((∀ m, o.args.buffer = some m → 65 ≤ m) ∨ (∃ s ∈ known, o.args.subject = hash s) →
        Inside o) := by
  rw [run_append]
  exact (ready_run hash hd evs _ (ready_first hash hd t a n hb h64)).right

/-- A hash that numbers the built-in subjects. -/
def sample (s : String) : Dhkey := Dhkey.rep (BitVec.ofNat 32 (known.idxOf s + 1))

/-- The built-in ids are distinct for it, and calls of two threads get the name and the hex id. -/
example : Distinct sample ∧
    ((run sample {} (whole 0 ⟨sample "_NP.HANDSHAKE", some 64⟩ ++
        [.call 1 ⟨Dhkey.rep 0x99#32, some 65⟩, .call 2 ⟨sample "_NP.ACK", some 63⟩, .go 2, .go 1,
          .go 1])).trace.map fun o => (o.ret, String.ofList (text o.written))) =
      [(.ok, "_NP.HANDSHAKE"), (.invalidArgument, ""),
        (.notImplemented, "9900000099000000990000009900000099000000990000009900000099000000")] := by
  refine ⟨?_, ?_⟩
  · unfold Distinct; decide +kernel
  · decide +kernel

/-- C48 fails: the documented minimum of 64 bytes is one byte short for the hex id. -/
theorem C48_overflow_refuted :
    ∃ o ∈ (run sample {} (whole 0 ⟨Dhkey.rep 0x99#32, some 64⟩)).trace, ¬ Inside o := by
  refine ⟨(run sample {} (whole 0 ⟨Dhkey.rep 0x99#32, some 64⟩)).trace.getD 0
    ⟨⟨Dhkey.zero, none⟩, .ok, []⟩, ?_, ?_⟩
  · decide +kernel
  · unfold Inside; decide +kernel

/-- C48 fails: if two threads make the first call at the same time, both xor the hashes into the
table; from then on no built-in subject is recognised, and the id of zeros is taken for one. -/
theorem C48_race_refuted :
    ((run sample {}
      ([.call 0 ⟨sample "_NP.ACK", some 100⟩, .call 1 ⟨sample "_NP.ACK", some 100⟩, .go 0, .go 1] ++
        List.replicate 19 (.go 0) ++ List.replicate 19 (.go 1) ++
        whole 2 ⟨sample "_NP.HANDSHAKE", some 100⟩ ++ whole 2 ⟨Dhkey.zero, some 100⟩)).trace.map
      fun o => (o.ret, String.ofList (text o.written))) =
    [(.ok, "_NP.ACK"),
      (.notImplemented, "0100000001000000010000000100000001000000010000000100000001000000"),
      (.notImplemented, "0200000002000000020000000200000002000000020000000200000002000000"),
      (.ok, "_NP.ACK")] := by
  decide +kernel

end Np.Subj

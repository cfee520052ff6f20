import Verif.Uuid.Lemmas
import Verif.Ack.Lemmas
/-! # Properties of ids -/
namespace Np.Uuid
open _root_.Np.Uuid.Spec

/-- A time in 2026. -/
def today : Nat := 7510000000000000

example : Now today := by unfold Now today; decide

/-! ## C200: np_uuid_create makes different ids for different things -/

/-- For names of up to 215 bytes without a blank at the start of a short one: if name, number or time differ, different things are hashed. -/
theorem C200_apart_partial (a b : Text) (n m t u : Nat) (ha : a.length ≤ 215) (hb : b.length ≤ 215) (hza : 0 ∉ a) (hzb : 0 ∉ b) (hsa : a.head? ≠ some 32)
    (hsb : b.head? ≠ some 32) (hn : n < 2 ^ 32) (hm : m < 2 ^ 32) (ht : Now t) (hu : Now u) (hd : a ≠ b ∨ n ≠ m ∨ t ≠ u) :
    Apart (fun hash => uuid hash a n t) (fun hash => uuid hash b m u) := by
  refine ⟨block a n t, block b m u, ?_, fun hash => ⟨rfl, rfl⟩⟩
  intro h
  obtain ⟨h1, h2, h3⟩ := block_inj ha hb hza hzb hn hm ht hu h
  have trim : ∀ (x : Text), x.head? ≠ some 32 → (pad x).dropWhile (· = 32) = x := by
    intro x hx
    unfold pad
    have : ∀ k, (List.replicate k 32 ++ x).dropWhile (· = 32) = x.dropWhile (· = 32) := by
      intro k
      induction k with
      | zero => rfl
      | succ k ih => rw [List.replicate_succ, List.cons_append, List.dropWhile_cons]; simpa using ih
    rw [this]
    cases x with
    | nil => rfl
    | cons c cs =>
      rw [List.dropWhile_cons]
      have : c ≠ 32 := fun e => hx (by rw [e]; rfl)
      simp [this]
  have : a = b := by rw [← trim a hsa, ← trim b hsb, h1]
  rcases hd with h | h | h
  · exact h this
  · exact h h2
  · exact h h3

example : (Kind.name .message).length ≤ 215 ∧ 0 ∉ Kind.name .message ∧ (Kind.name .message).head? ≠ some 32 ∧ Now today ∧ Now (today + 1) := by
  unfold Now today; decide

/-- A blank before a short name makes no difference. -/
theorem C200_blank_refuted {α : Type} (hash : Text → α) (a : Text) (n t : Nat) (h : a.length < 64) : uuid hash (32 :: a) n t = uuid hash a n t := by
  have : pad (32 :: a) = pad a := by
    unfold pad
    rw [List.length_cons]
    obtain ⟨k, hk⟩ : ∃ k, 64 - a.length = k + 1 := ⟨63 - a.length, by omega⟩
    rw [show 64 - (a.length + 1) = k by omega, hk, List.replicate_succ']
    simp
  unfold uuid block line
  rw [this]

/-- With a name of 254 bytes or more, neither number nor time make a difference. -/
theorem C200_long_refuted {α : Type} (hash : Text → α) (a : Text) (n m t u : Nat) (h : 254 ≤ a.length) : uuid hash a n t = uuid hash a m u := by
  have : ∀ n t, line a n t = (pad a).take 254 := by
    intro n t
    unfold line
    rw [List.append_assoc, List.append_assoc, List.append_assoc, List.take_append_of_le_length]
    rw [pad_length]; omega
  unfold uuid block
  rw [this n t, this m u]

example : 254 ≤ (List.replicate 300 97).length := by rw [List.length_replicate]; decide

/-! ## C201: every message has an id of its own -/

/-- Messages made at different times do. -/
theorem C201_times_partial (ms : List Message) (hn : ∀ m ∈ ms, Now m.time) (hd : (ms.map (·.time)).Nodup) :
    ∃ xs : List Text, xs.Nodup ∧ ∀ hash : Text → Nat, ms.map (·.id hash) = xs.map hash := by
  refine ⟨ms.map fun m => block (Kind.name .message) (Kind.number .message) m.time, ?_, ?_⟩
  · have : (ms.map fun m => block (Kind.name .message) (Kind.number .message) m.time) =
        (ms.map (·.time)).map fun t => block (Kind.name .message) (Kind.number .message) t := by simp
    rw [this]
    have hn' : ∀ t ∈ ms.map (·.time), Now t := by
      intro t ht
      obtain ⟨m, hm, rfl⟩ := List.mem_map.1 ht
      exact hn m hm
    revert hd hn'
    generalize ms.map (·.time) = ts
    intro hd hn'
    induction ts with
    | nil => exact List.nodup_nil
    | cons t ts ih =>
      rw [List.nodup_cons] at hd
      rw [List.map_cons, List.nodup_cons]
      refine ⟨?_, ih hd.2 fun u hu => hn' u (List.mem_cons_of_mem _ hu)⟩
      intro h
      obtain ⟨u, hu, e⟩ := List.mem_map.1 h
      have := (block_inj (by decide) (by decide) (by decide) (by decide) (by decide) (by decide) (hn' u (List.mem_cons_of_mem _ hu)) (hn' t (List.mem_cons_self ..)) e).2.2
      exact hd.1 (this ▸ hu)
  · intro hash
    rw [List.map_map]
    rfl

example : ∀ m ∈ [(⟨1, 2, 3, [4], today⟩ : Message), ⟨1, 2, 3, [4], today + 1⟩], Now m.time := by
  unfold Now today; decide

/-- Nothing but the time counts: two messages of different nodes, on different subjects and with different data, have the same id if they are made at the same
time. -/
theorem C201_same_time_refuted {α : Type} (hash : Text → α) (a b : Message) (h : a.time = b.time) : a.id hash = b.id hash := by
  unfold Message.id; rw [h]

/-- Of two messages with the same id that one node sends on a channel, only the first is waited for: for the second, nothing is added to what waits for an
acknowledgement or will be sent again. -/
theorem C201_lost_refuted (hash : Text → BitVec 128) (a b : Message) (h : a.time = b.time) (cfg : Ack.Cfg) (ops : List Ack.Op) (s : Ack.St)
    (hr : Ack.run cfg Ack.init ops = .ok s) (hw : a.id hash ∈ Ack.Spec.waiting s) (now : Nat) :
    ∃ s', Ack.step cfg s (.send (b.id hash) now) = .ok s' ∧ Ack.Spec.waiting s' = Ack.Spec.waiting s ∧ Ack.Spec.redelivered s' = Ack.Spec.redelivered s := by
  obtain ⟨mh, mp, hi⟩ := Ack.reach_inv hr
  rw [C201_same_time_refuted hash a b h] at hw
  have := (Ack.send_known (cfg := cfg) hi ((hi.waiting_iff _).1 hw) now now).1
  exact ⟨_, this, rfl, rfl⟩

/-- The first message is waited for. -/
example : (Ack.run ⟨20, 5⟩ Ack.init [.send (Message.id (fun _ => (7 : BitVec 128)) ⟨1, 2, 3, [4], today⟩) 100]).toOption.map Ack.Spec.waiting = some [7] := by
  rfl

/-! ## C202: an id of one kind is no id of another -/

/-- Whenever they are made, a message, an event, a token, a piece of memory and a query are hashed from different things. -/
theorem C202_kinds (j k : Kind) (h : j ≠ k) (t u : Nat) (ht : Now t) (hu : Now u) : Apart (fun hash => make hash j t) (fun hash => make hash k u) := by
  refine C200_apart_partial j.name k.name j.number k.number t u ?_ ?_ ?_ ?_ ?_ ?_ ?_ ?_ ht hu (.inl ?_)
  · cases j <;> decide
  · cases k <;> decide
  · cases j <;> decide
  · cases k <;> decide
  · cases j <;> decide
  · cases k <;> decide
  · cases j <;> decide
  · cases k <;> decide
  · revert h; cases j <;> cases k <;> decide

end Np.Uuid

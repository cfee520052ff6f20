import Verif.Stable.Lemmas
import Verif.Token.Props
import Mathlib.Data.Nat.ModEq
import Mathlib.Data.Finset.Card
import Mathlib.Data.Finset.Range
/-! # Properties C101-C104: parts are sent once, requests about tokens are handled, random numbers

`G` is the generator of random numbers, `s0` and `s1` are its seeds: what is claimed holds whatever they give. The code uses `Rng.next`. -/
set_option linter.unusedSimpArgs false
set_option linter.unusedVariables false
namespace Np.Stable
open _root_.Np.Stable.Spec
open Np.Token (Bytes Tok)

/-! ## C101 a part is sent to a node once -/

/-- C101: a part is not sent again, whatever was sent before and in between, as long as each of its cells was pruned at most three times
by the parts in between. -/
theorem C101_not_again_partial (G : Gen) (hash : Bytes → Dhkey) (s0 s1 : BitVec 64) (before between : List Part) (m : Part)
    (hp : ∀ c ∈ cells (partId hash m),
      ((draws G (8 * between.length) (sendAll G hash (create s0 s1) (before ++ [m])).2.rng).filter fun x => decide (Hits c x)).length ≤ 3) :
    sentAfter G hash s0 s1 (before ++ [m] ++ between) m = false := by
  unfold sentAfter isNew
  simp only [Bool.not_eq_false']
  apply check_true
  intro c hc
  have hlt := cells_lt hc
  rw [sendAll_filter, List.map_append, addAll_append]
  refine (addAll_alive (G := G) hlt (between.map (partId hash)) (k := 0) ?_).ne ?_
  · rw [List.map_append, addAll_append]
    show Alive 0 ((add G _ (partId hash m)).cell c)
    rw [add_cell _ _ c hlt, if_pos hc]
    exact Alive.set 0
  · rw [← sendAll_filter, List.length_map]
    have := hp c hc
    unfold hits
    omega

/-- C101: a part that comes twice in a row is sent once. -/
theorem C101_repeated (G : Gen) (hash : Bytes → Dhkey) (s0 s1 : BitVec 64) (before : List Part) (m : Part) :
    sentAfter G hash s0 s1 (before ++ [m]) m = false := by
  have := C101_not_again_partial G hash s0 s1 before [] m (by intro c _; simp [draws])
  simpa using this

/-- The hash of the examples: it takes the words from the text. -/
def toyHash (b : Bytes) : Dhkey :=
  let w := fun i => (b.getD (2 * i) 0#8).setWidth 32 + ((b.getD (2 * i + 1) 0#8).setWidth 32 <<< 8)
  { t0 := w 0, t1 := w 1, t2 := w 2, t3 := w 3, t4 := w 4, t5 := w 5, t6 := w 6, t7 := w 7 }

/-- Two parts of different messages, for the same receiver. -/
def part1 : Part := { audience := Dhkey.zero, uuid := [0xd5, 0x06, 0, 0, 0, 0, 0, 0, 0, 0, 0, 0, 0, 0, 0, 0], nonce := List.replicate 24 1#8, offset := 1 }
def part2 : Part := { audience := Dhkey.zero, uuid := [1, 0, 2, 0, 3, 0, 4, 0, 5, 0, 6, 0, 7, 0, 8, 0], nonce := List.replicate 24 1#8, offset := 1 }

/-- C101 fails: it is enough that one other part is sent in between.  The seeds are chosen so that its random numbers prune one cell four times. -/
theorem C101_forgotten_refuted : (sendAll Rng.next toyHash (create 46667 1) [part1, part2, part1]).1 = [true, true, true] := by decide +kernel

/-- With other seeds the part is not sent again. -/
example : (sendAll Rng.next toyHash (create 46668 1) [part1, part2, part1, part2, part2]).1 = [true, true, false, false, false] := by decide +kernel
example : ∀ c ∈ cells (partId toyHash part1),
    ((draws Rng.next (8 * [part2].length) (sendAll Rng.next toyHash (create 46668 1) ([] ++ [part1])).2.rng).filter
      fun x => decide (Hits c x)).length ≤ 3 := by decide +kernel

/-! ## C102 a new part is sent -/

/-- C102: a part is kept back only if each of its cells is a cell of a part that came before.  (Missing: that it is one and the same part.) -/
theorem C102_dropped_partial (G : Gen) (hash : Bytes → Dhkey) (s0 s1 : BitVec 64) (before : List Part) (m : Part)
    (h : sentAfter G hash s0 s1 before m = false) : ∀ c ∈ cells (partId hash m), ∃ m' ∈ before, c ∈ cells (partId hash m') := by
  unfold sentAfter isNew at h
  simp only [Bool.not_eq_false'] at h
  intro c hc
  have hz := check_nonzero h c hc
  rw [sendAll_filter] at hz
  apply Classical.byContradiction
  intro hn
  refine hz (addAll_zero (cells_lt hc) _ rfl ?_)
  intro i hi hci
  obtain ⟨m', hm', rfl⟩ := List.mem_map.mp hi
  exact hn ⟨m', hm', hci⟩

/-- C102: the first part is sent. -/
theorem C102_first (G : Gen) (hash : Bytes → Dhkey) (s0 s1 : BitVec 64) (m : Part) : sentAfter G hash s0 s1 [] m = true := by
  cases h : sentAfter G hash s0 s1 [] m with
  | true => rfl
  | false =>
    obtain ⟨m', hm, _⟩ := C102_dropped_partial G hash s0 s1 [] m h (cellOf (partId hash m).t0) (by simp [cells])
    simp at hm

/-- C102 fails for every hash function: whoever knows a part can name an audience for their own message, whatever its uuid, nonce and offset,
such that the other part is no longer sent after it. -/
theorem C102_shadowed_refuted (G : Gen) (hash : Bytes → Dhkey) (s0 s1 : BitVec 64) (before : List Part) (m : Part) (uuid nonce : Bytes)
    (offset : BitVec 16) :
    ∃ audience, sentAfter G hash s0 s1 (before ++ [{ audience := audience, uuid := uuid, nonce := nonce, offset := offset }]) m = false := by
  refine ⟨Dhkey.xor (hash (uuid ++ nonce ++ offsetBytes offset)) (partId hash m), ?_⟩
  have hid : partId hash { audience := Dhkey.xor (hash (uuid ++ nonce ++ offsetBytes offset)) (partId hash m), uuid := uuid, nonce := nonce,
                           offset := offset } = partId hash m := by
    simp only [partId, Dhkey.generateSubject]
    generalize Dhkey.xor (hash (m.uuid ++ m.nonce ++ offsetBytes m.offset)) m.audience = a
    generalize hash (uuid ++ nonce ++ offsetBytes offset) = b
    cases a; cases b
    simp [Dhkey.xor, Dhkey.map2, ← BitVec.xor_assoc]
  have h := C101_repeated G hash s0 s1 before { audience := Dhkey.xor (hash (uuid ++ nonce ++ offsetBytes offset)) (partId hash m), uuid := uuid,
                                                nonce := nonce, offset := offset }
  unfold sentAfter isNew at h ⊢
  rw [hid] at h
  exact h

example : sentAfter Rng.next toyHash 5 7 [part1, part2] part1 = false := by decide +kernel

/-! ## C103 requests about valid tokens are handled -/

/-- C103: only valid tokens of the right type get to the callbacks. -/
theorem C103_only_valid (G : Gen) (E : Token.Env) (hash : Bytes → Dhkey) (s0 s1 : BitVec 64) (before : List Request) (q : Request)
    (h : handledAfter G E hash s0 s1 before q = true) :
    (Token.isValid E q.now q.token q.token.type).2 = true ∧
      (q.token.type &&& 1 = 1 ∨ q.token.type &&& 2 = 2 ∨ (q.kind = .authz ∧ q.token.type &&& 16 = 16)) := by
  unfold handledAfter isRequest at h
  simp only [] at h
  split at h
  · cases h
  · rw [Bool.and_eq_true] at h
    refine ⟨h.2, ?_⟩
    have hf := h.1
    unfold fits at hf
    cases hk : q.kind <;> rw [hk] at hf
    · simpa [Token.flagCmp, Token.typeIdentity, Token.typeNode] using hf
    · simpa [Token.flagCmp, Token.typeIdentity, Token.typeNode, Token.typeIntent, or_assoc] using hf

/-- C103: a request about a valid token of the right type is handled, unless each cell of its attribute signature is a cell of the attribute
signature of an earlier one.  (Missing: that it is the same token.) -/
theorem C103_handled_partial (G : Gen) (E : Token.Env) (hash : Bytes → Dhkey) (s0 s1 : BitVec 64) (before : List Request) (q : Request)
    (hv : (Token.isValid E q.now q.token q.token.type).2 = true)
    (ht : q.token.type &&& 1 = 1 ∨ q.token.type &&& 2 = 2 ∨ (q.kind = .authz ∧ q.token.type &&& 16 = 16))
    (hc : ∃ c ∈ cells (hash q.token.attrSignature), ∀ q' ∈ before, c ∉ cells (hash q'.token.attrSignature)) :
    handledAfter G E hash s0 s1 before q = true := by
  have hx : ∀ b, Dhkey.generateSubject hash Dhkey.zero b = hash b := by
    intro b
    unfold Dhkey.generateSubject
    cases hash b
    simp [Dhkey.xor, Dhkey.map2, Dhkey.zero, Dhkey.rep]
  obtain ⟨c, hc, hn⟩ := hc
  unfold handledAfter isRequest
  simp only []
  rw [if_neg]
  · simp only [hv, Bool.and_true]
    unfold fits
    cases hk : q.kind <;> rw [hk] at ht
    · simpa [Token.flagCmp, Token.typeIdentity, Token.typeNode] using ht
    · simpa [Token.flagCmp, Token.typeIdentity, Token.typeNode, Token.typeIntent, or_assoc] using ht
  · intro h
    rw [hx] at h
    refine check_nonzero h c hc ?_
    rw [askAll_filter]
    refine addAll_zero (cells_lt hc) _ rfl ?_
    intro i hi hci
    obtain ⟨q', hq', rfl⟩ := List.mem_map.mp hi
    unfold requestId at hci
    rw [hx] at hci
    exact hn q' hq' hci

/-- C103 fails: right after a request with any other token, valid or not, that carries a copy of the attribute signature (which is sent in the
clear), the valid token is not looked at.  So it is for the same token, authorized right after it was authenticated. -/
theorem C103_preempted_refuted (G : Gen) (E : Token.Env) (hash : Bytes → Dhkey) (s0 s1 : BitVec 64) (before : List Request) (q q' : Request)
    (h : q'.token.attrSignature = q.token.attrSignature) : handledAfter G E hash s0 s1 (before ++ [q']) q = false := by
  have hd : (check G (askAll G E hash (create s0 s1) (before ++ [q'])).2 (Dhkey.generateSubject hash Dhkey.zero q.token.attrSignature)).1 = true := by
    apply check_true
    intro c hc
    rw [askAll_filter, List.map_append, addAll_append]
    show (add G _ (requestId hash q')).cell c ≠ 0
    have hid : requestId hash q' = Dhkey.generateSubject hash Dhkey.zero q.token.attrSignature := by unfold requestId; rw [h]
    rw [add_cell _ _ c (cells_lt hc), hid, if_pos hc]
    decide
  unfold handledAfter isRequest
  simp only []
  rw [if_pos hd]

/-- A valid token, and one that is not. -/
def goodToken : Tok := { Token.sampleTok with type := Token.typeNode, scope := Token.scopePublic, publicKey := Token.goodKey, sigVerified := false, attrVerified := false }
def forged : Tok := { Token.sampleTok with type := Token.typeNode, scope := Token.scopePublic, publicKey := Token.badKey, sigVerified := false, attrVerified := false }

example : (Token.isValid Token.toy 0 goodToken goodToken.type).2 = true ∧ (Token.isValid Token.toy 0 forged forged.type).2 = false ∧
    forged.attrSignature = goodToken.attrSignature ∧
    handledAfter Rng.next Token.toy toyHash 5 7 [] ⟨.authn, 0, goodToken⟩ = true ∧
    handledAfter Rng.next Token.toy toyHash 5 7 [⟨.authn, 0, forged⟩] ⟨.authn, 0, goodToken⟩ = false := by decide +kernel

/-! ## C104 random numbers below a bound -/

/-- C104: the number is below the bound. -/
theorem C104_below (G : Gen) (bound : BitVec 32) (hb : bound ≠ 0) (fuel : Nat) (r r' : Rng) (x : BitVec 32)
    (h : bounded G bound fuel r = some (x, r')) : x < bound := by
  induction fuel generalizing r with
  | zero => cases h
  | succ n ih =>
    simp only [bounded] at h
    split at h
    · cases h
      rw [BitVec.lt_def, BitVec.toNat_umod]
      apply Nat.mod_lt
      have : bound.toNat ≠ 0 := fun h => hb (BitVec.eq_of_toNat_eq h)
      omega
    · exact ih _ h

theorem count_fair (N b k : Nat) (hb : 0 < b) (hk : k < b) :
    ((Finset.range N).filter fun v => N % b ≤ v ∧ v % b = k).card = N / b := by
  have ht : N % b < b := Nat.mod_lt _ hb
  have hN : b * (N / b) + N % b = N := Nat.div_add_mod N b
  generalize N % b = t at ht hN ⊢
  generalize N / b = q at hN ⊢
  have hoff : (k + b - t) % b < b := Nat.mod_lt _ hb
  have hmod : (t + (k + b - t) % b) % b = k := by
    rw [Nat.add_mod, Nat.mod_mod, ← Nat.add_mod, show t + (k + b - t) = k + b from by omega, Nat.add_mod_right, Nat.mod_eq_of_lt hk]
  generalize (k + b - t) % b = off at hoff hmod
  conv => rhs; rw [← Finset.card_range q]
  refine Finset.card_bij' (fun v _ => (v - t) / b) (fun m _ => t + off + b * m) ?_ ?_ ?_ ?_
  · intro v hv
    simp only [Finset.mem_filter, Finset.mem_range] at hv ⊢
    rw [Nat.div_lt_iff_lt_mul hb, Nat.mul_comm]
    omega
  · intro m hm
    simp only [Finset.mem_filter, Finset.mem_range] at hm ⊢
    have : b * (m + 1) ≤ b * q := Nat.mul_le_mul_left _ hm
    rw [Nat.mul_add] at this
    refine ⟨by omega, by omega, ?_⟩
    rw [Nat.add_mul_mod_self_left, hmod]
  · intro v hv
    simp only [Finset.mem_filter, Finset.mem_range] at hv
    have h1 : (v - t) % b = off := by
      have h2 : (t + (v - t)) % b = (t + off) % b := by rw [hmod, show t + (v - t) = v from by omega]; exact hv.2.2
      have h3 := Nat.ModEq.add_left_cancel' t h2
      unfold Nat.ModEq at h3
      rw [h3, Nat.mod_eq_of_lt hoff]
    have := Nat.div_add_mod (v - t) b
    omega
  · intro m hm
    show (t + off + b * m - t) / b = m
    rw [show t + off + b * m - t = off + b * m from by omega, Nat.add_mul_div_left _ _ hb, Nat.div_eq_of_lt hoff, Nat.zero_add]

/-- C104: every number below the bound is made from equally many numbers of the generator: none is preferred. -/
theorem C104_fair (bound : BitVec 32) (hb : bound ≠ 0) (k : BitVec 32) (hk : k < bound) (r : Rng) :
    ((Finset.range (2 ^ 32)).filter fun v => (bounded (fun r => (BitVec.ofNat 32 v, r)) bound 1 r).map (·.1) = some k).card = 2 ^ 32 / bound.toNat := by
  have h0 : 0 < bound.toNat := by
    have : bound.toNat ≠ 0 := fun h => hb (BitVec.eq_of_toNat_eq h)
    omega
  rw [BitVec.lt_def] at hk
  rw [← count_fair (2 ^ 32) bound.toNat k.toNat h0 hk]
  refine congrArg Finset.card (Finset.filter_congr ?_)
  intro v hv
  rw [Finset.mem_range] at hv
  have hv' : (BitVec.ofNat 32 v).toNat = v := by rw [BitVec.toNat_ofNat]; exact Nat.mod_eq_of_lt hv
  have hth : ((-bound) % bound).toNat = 2 ^ 32 % bound.toNat := by
    have := bound.isLt
    rw [BitVec.toNat_umod, BitVec.toNat_neg, Nat.mod_eq_of_lt (show 2 ^ 32 - bound.toNat < 2 ^ 32 by omega), ← Nat.mod_eq_sub_mod (by omega)]
  have hone : (bounded (fun r => (BitVec.ofNat 32 v, r)) bound 1 r).map (·.1) = some k ↔
      (-bound) % bound ≤ BitVec.ofNat 32 v ∧ BitVec.ofNat 32 v % bound = k := by
    unfold bounded
    simp only []
    by_cases h : (-bound) % bound ≤ BitVec.ofNat 32 v
    · rw [if_pos h]
      simp only [Option.map_some, Option.some.injEq]
      exact ⟨fun e => ⟨h, e⟩, fun e => e.2⟩
    · rw [if_neg h]
      constructor
      · intro e; cases e
      · intro e; exact absurd e.1 h
  rw [hone, BitVec.le_def, hth, hv', ← BitVec.toNat_inj, BitVec.toNat_umod, hv']

example : (10 : BitVec 32) ≠ 0 ∧ (3 : BitVec 32) < 10 ∧ ((bounded Rng.next 10 1 (Rng.init 5 7)).map (·.1)).isSome := by decide +kernel

end Np.Stable

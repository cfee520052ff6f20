import Verif.Tun.Spec
import Verif.Json.Lemmas
/-! # Lemmas on the tunnel -/
namespace Np.Tun
open _root_.Np.Tun.Spec

theorem strncmpEq_iff : ∀ (a b : Text), NoZero a → a.length = b.length → (strncmpEq b.length a b = true ↔ a = b)
  | [], [], _, _ => by simp [strncmpEq]
  | [], _ :: _, _, h => by simp at h
  | _ :: _, [], _, h => by simp at h
  | a :: as, b :: bs, hz, h => by
    have h0 : a ≠ 0 := hz a (List.mem_cons_self ..)
    have h0' : (a == 0) = false := by simpa using h0
    rw [List.length_cons, strncmpEq, h0', Bool.false_or, Bool.and_eq_true, strncmpEq_iff as bs (fun c hc => hz c (List.mem_cons_of_mem _ hc)) (by simpa using h)]
    simp

theorem digits3_inj {a b : Nat} (ha : a < 256) (hb : b < 256) (h : Json.digits 3 a = Json.digits 3 b) : a = b := by
  have h1 := (Json.digits_read 3 a (by omega)).1
  have h2 := (Json.digits_read 3 b (by omega)).1
  rw [← h1, ← h2, h]

theorem digits3_dot {a : Nat} (ha : a < 256) : ∀ c ∈ Json.digits 3 a, c ≠ 46 := by
  intro c hc
  have := (Json.digits_read 3 a (by omega)).2 c hc
  omega

/-- A text up to the first dot. -/
theorem split_dot : ∀ (x y r s : Text), (∀ c ∈ x, c ≠ 46) → (∀ c ∈ y, c ≠ 46) → x ++ 46 :: r = y ++ 46 :: s → x = y ∧ r = s
  | [], [], r, s, _, _, h => by simpa using h
  | [], b :: y, r, s, _, hy, h => by
    simp only [List.nil_append, List.cons_append, List.cons.injEq] at h
    exact absurd h.1.symm (hy b (List.mem_cons_self ..))
  | a :: x, [], r, s, hx, _, h => by
    simp only [List.nil_append, List.cons_append, List.cons.injEq] at h
    exact absurd h.1 (hx a (List.mem_cons_self ..))
  | a :: x, b :: y, r, s, hx, hy, h => by
    simp only [List.cons_append, List.cons.injEq] at h
    obtain ⟨h1, h2⟩ := split_dot x y r s (fun c hc => hx c (List.mem_cons_of_mem _ hc)) (fun c hc => hy c (List.mem_cons_of_mem _ hc)) h.2
    exact ⟨by rw [h.1, h1], h2⟩

theorem xor_move (a b c d : Subject) : a ^^^ b ^^^ c ^^^ d = a ^^^ b ^^^ d ^^^ c := by
  rw [BitVec.xor_assoc, BitVec.xor_comm c d, ← BitVec.xor_assoc]

theorem dataSubject_ne (hash : Text → Subject) (c : Cfg) {x y : Text} (h : hash x ≠ hash y) : dataSubject hash c x ≠ dataSubject hash c y := by
  intro e
  unfold dataSubject generate at e
  apply h
  have e1 := congrArg (· ^^^ hash c.netmask) e
  simp only [BitVec.xor_assoc, BitVec.xor_self, BitVec.xor_zero] at e1
  have e2 := congrArg ((0#256 ^^^ hash dataName ^^^ hash c.domain) ^^^ ·) e1
  simp only [← BitVec.xor_assoc] at e2
  have k : ∀ (z : Subject), 0#256 ^^^ hash dataName ^^^ hash c.domain ^^^ 0#256 ^^^ hash dataName ^^^ hash c.domain ^^^ z = z := by
    intro z
    simp only [BitVec.zero_xor, BitVec.xor_zero]
    rw [BitVec.xor_assoc (hash dataName) (hash c.domain) (hash dataName), BitVec.xor_comm (hash c.domain) (hash dataName), ← BitVec.xor_assoc, BitVec.xor_self,
      BitVec.zero_xor, BitVec.xor_self, BitVec.zero_xor]
  rw [k, k] at e2
  exact e2

theorem fromHost_long (hash : Text → Subject) (c : Cfg) (receiver : Subject → Bool) (p : List Nat) (h : 20 ≤ p.length) :
    fromHost hash c receiver p.length p =
      if destination p = c.ip then .ok .dropped
      else if p.getD 0 0 / 16 ≠ 4 then .ok .dropped
      else if receiver (dataSubject hash c (destination p)) then .ok (.to (dataSubject hash c (destination p)) p)
      else .ok .noReceiver := by
  unfold fromHost
  rw [if_neg (by omega), if_neg (by omega), if_neg (by omega)]
  rfl

theorem fromHost_short (hash : Text → Subject) (c : Cfg) (receiver : Subject → Bool) (p : List Nat) (h : p.length < 20) (h0 : p ≠ []) :
    fromHost hash c receiver p.length p = .error .uninitialised := by
  unfold fromHost
  have : p.length ≠ 0 := by simpa using h0
  rw [if_neg (by omega), if_neg (by omega), if_pos h]

theorem init_fresh (hash : Text → Subject) (c : Cfg) (y : Sys) (hf : y.file > 0) :
    init hash c y {} = .ok { status := .stopped, fd := y.file, ctl := 0#256 ^^^ hash ctlName ^^^ hash c.domain, data := dataSubject hash c c.ip, device := true, callbacks := 1 } := by
  unfold init initRest
  rw [if_neg (by decide)]
  simp only [Status.early, if_true, if_pos hf]
  have : routeRequest false y.numeric = .ok () := by
    unfold routeRequest
    split
    · rfl
    · rfl
  rw [this]
  rfl

/-- Between the calls: packets flow if and only if the tunnel is running; while it is, the watchers are in use. -/
def Inv (t : Tun) : Prop := (t.status = .running → Flows t) ∧ (t.status ≠ .running → Quiet t)

theorem inv_stop (t : Tun) : Inv (stop t) := ⟨fun h => by simp [stop] at h, fun _ => ⟨rfl, rfl⟩⟩

theorem inv_destroy {y : Sys} {t t' : Tun} (h : Inv t) (e : destroy y t = .ok t') : Inv t' ∧ t'.status = .uninitialized := by
  unfold destroy at e
  split at e
  · split at e
    · simp at e
    · cases e
      exact ⟨⟨fun h => by simp at h, fun _ => ⟨rfl, rfl⟩⟩, rfl⟩
  · rename_i hs
    have hs : t.status = .stopped := Classical.byContradiction hs
    cases e
    refine ⟨⟨fun h => by simp at h, fun _ => ?_⟩, rfl⟩
    exact h.2 (by rw [hs]; decide)

theorem inv_initRest {hash : Text → Subject} {c : Cfg} {y : Sys} {t t' : Tun} (h : Inv t) (e : initRest hash c y t = .ok t') : Inv t' := by
  unfold initRest at e
  split at e
  · rename_i hs
    have hn : t.status ≠ .running := by intro q; rw [q] at hs; exact absurd hs (by decide)
    simp only at e
    split at e
    · split at e
      · simp at e
      · cases e
        refine ⟨fun h => by simp at h, fun _ => ?_⟩
        exact h.2 hn
    · cases e
      exact ⟨fun q => absurd q hn, fun _ => h.2 hn⟩
  · cases e
    exact h

theorem inv_init {hash : Text → Subject} {c : Cfg} {y : Sys} {t t' : Tun} (h : Inv t) (e : init hash c y t = .ok t') : Inv t' := by
  unfold init at e
  split at e
  · split at e
    · simp at e
    · rename_i u hu
      obtain ⟨h1, h2⟩ := inv_destroy h hu
      refine inv_initRest ?_ e
      exact ⟨fun q => by simp at q, fun _ => h1.2 (by rw [h2]; decide)⟩
  · exact inv_initRest h e

theorem inv_startRest {t t' : Tun} (h : Inv t) (e : startRest t = .ok t') : Inv t' := by
  unfold startRest at e
  split at e
  · split at e
    · simp at e
    · cases e
      exact ⟨fun _ => ⟨rfl, rfl⟩, fun q => absurd rfl q⟩
  · cases e
    exact h

theorem inv_step {hash : Text → Subject} {c : Cfg} {t t' : Tun} (o : Op) (h : Inv t) (e : step hash c t o = .ok t') : Inv t' := by
  cases o with
  | init y => exact inv_init h e
  | stop =>
    simp only [step, Except.ok.injEq] at e
    exact e ▸ inv_stop t
  | destroy y => exact (inv_destroy h e).1
  | start y =>
    simp only [step, Tun.start] at e
    split at e
    · split at e
      · simp at e
      · rename_i u hu
        exact inv_startRest (inv_init h hu) e
    · exact inv_startRest h e

theorem inv_run {hash : Text → Subject} {c : Cfg} : ∀ {os : List Op} {t t' : Tun}, Inv t → run hash c t os = .ok t' → Inv t'
  | [], t, t', h, e => by cases e; exact h
  | o :: os, t, t', h, e => by
    simp only [run] at e
    split at e
    · simp at e
    · rename_i u hu
      exact inv_run (inv_step o h hu) e

end Np.Tun

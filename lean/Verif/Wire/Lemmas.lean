import Verif.Wire.Spec

/-! # Lemmas on the transport of packets -/
set_option linter.unusedSimpArgs false
set_option linter.unusedVariables false
namespace Np.Wire

open _root_.Np.Wire.Spec

theorem pos_sum (rs : List Int) : 0 ≤ (rs.takeWhile (0 < ·)).sum := by
  induction rs with
  | nil => simp
  | cons r rs ih =>
    by_cases h : 0 < r
    · rw [List.takeWhile_cons_of_pos (by simpa using h), List.sum_cons]; omega
    · rw [List.takeWhile_cons_of_neg (by simpa using h)]; simp

theorem sendLoop_eq (rs : List Int) : ∀ d, d < size → sendLoop rs d = min size (d + (rs.takeWhile (0 < ·)).sum.toNat) := by
  induction rs with
  | nil => intro d h; simp [sendLoop]; omega
  | cons r rs ih =>
    intro d h
    simp only [sendLoop]
    by_cases hr : 0 < r
    · rw [if_pos hr, List.takeWhile_cons_of_pos (by simpa using hr), List.sum_cons]
      have := pos_sum rs
      split
      · rename_i h1
        rw [ih _ h1]; omega
      · omega
    · rw [if_neg hr, List.takeWhile_cons_of_neg (by simpa using hr)]
      simp; omega

theorem send_whole {rs : List Int} (h : Whole rs) : sendLoop rs 0 = 0 ∨ sendLoop rs 0 = size := by
  rw [sendLoop_eq rs 0 (by decide)]
  rcases h with h | h
  · left; rw [h]; simp
  · right; omega

theorem send_le (rs : List Int) : sendLoop rs 0 ≤ size := by
  rw [sendLoop_eq rs 0 (by decide)]; omega

/-- Whatever the results, a first part of what is waiting moves into the buffer. -/
theorem recvLoop_split (rs : List Int) : ∀ buf wait, buf.length ≤ size →
    ∃ k, buf.length + k ≤ size ∧ (recvLoop rs buf wait).1 = buf ++ wait.take k ∧ (recvLoop rs buf wait).2.1 = wait.drop k := by
  induction rs with
  | nil => intro buf wait h; exact ⟨0, by omega, by simp [recvLoop], by simp [recvLoop]⟩
  | cons r rs ih =>
    intro buf wait h
    simp only [recvLoop]
    split
    · exact ⟨0, by omega, by simp, by simp⟩
    split
    · exact ⟨0, by omega, by simp, by simp⟩
    split
    · exact ⟨0, by omega, by simp, by simp⟩
    have hl : (wait.take (min r.toNat (min (size - buf.length) wait.length))).length = min r.toNat (min (size - buf.length) wait.length) := by
      rw [List.length_take]; omega
    split
    · rename_i h4
      obtain ⟨k, h1, h2, h3⟩ := ih (buf ++ wait.take (min r.toNat (min (size - buf.length) wait.length)))
        (wait.drop (min r.toNat (min (size - buf.length) wait.length))) (by omega)
      refine ⟨min r.toNat (min (size - buf.length) wait.length) + k, ?_, ?_, ?_⟩
      · rw [List.length_append, hl] at h1; omega
      · rw [h2, List.append_assoc, List.take_add]
      · rw [h3, List.drop_drop]
    · exact ⟨min r.toNat (min (size - buf.length) wait.length), by omega, rfl, rfl⟩

/-- If a whole packet is waiting and the results cover it, it is read. -/
theorem recvLoop_full (rs : List Int) : ∀ (buf p rest : List Byte), (∀ r ∈ rs, r ≠ 0) → buf.length + p.length = size → buf.length < size →
    (size : Int) ≤ buf.length + (rs.takeWhile (0 < ·)).sum → recvLoop rs buf (p ++ rest) = (buf ++ p, rest, false) := by
  induction rs with
  | nil => intro buf p rest _ h1 h2 h3; simp at h3; omega
  | cons r rs ih =>
    intro buf p rest h0 h1 h2 h3
    have hr0 : r ≠ 0 := h0 r (by simp)
    simp only [recvLoop]
    by_cases hr : 0 < r
    · rw [List.takeWhile_cons_of_pos (by simpa using hr), List.sum_cons] at h3
      rw [if_neg (by omega), if_neg hr0]
      have hn : min r.toNat (min (size - buf.length) (p ++ rest).length) = min r.toNat p.length := by
        rw [List.length_append]; omega
      rw [hn, if_neg (by omega)]
      have ht : (p ++ rest).take (min r.toNat p.length) = p.take (min r.toNat p.length) := by
        rw [List.take_append_of_le_length (by omega)]
      have hd : (p ++ rest).drop (min r.toNat p.length) = p.drop (min r.toNat p.length) ++ rest := by
        rw [List.drop_append_of_le_length (by omega)]
      have hl : (p.take (min r.toNat p.length)).length = min r.toNat p.length := by rw [List.length_take]; omega
      rw [ht, hd]
      split
      · rename_i h4
        have h5 := h4
        rw [List.length_append, hl] at h5
        rw [ih (buf ++ p.take (min r.toNat p.length)) (p.drop (min r.toNat p.length)) rest (fun x hx => h0 x (by simp [hx]))
          (by rw [List.length_append, hl, List.length_drop]; omega) h4 (by rw [List.length_append, hl]; omega)]
        rw [List.append_assoc, List.take_append_drop]
      · rename_i h4
        rw [List.length_append, hl] at h4
        have : min r.toNat p.length = p.length := by omega
        rw [this]; simp
    · rw [List.takeWhile_cons_of_neg (by simpa using hr)] at h3
      simp at h3; omega

/-- If nothing is transferred, nothing changes. -/
theorem recvLoop_none (rs : List Int) (wait : List Byte) (h0 : ∀ r ∈ rs, r ≠ 0) (h : rs.takeWhile (0 < ·) = [] ∨ wait = []) :
    recvLoop rs [] wait = ([], wait, true) := by
  cases rs with
  | nil => rfl
  | cons r rs =>
    have hr0 : r ≠ 0 := h0 r (by simp)
    simp only [recvLoop]
    split
    · rfl
    rcases h with h | h
    · by_cases hr : 0 < r
      · rw [List.takeWhile_cons_of_pos (by simpa using hr)] at h; simp at h
      · omega
    · subst h; rw [if_pos (by simp)]

/-- The invariant of smooth histories. -/
def Good (s : Tcp) : Prop :=
  ∃ seen fl : List Packet, s.enabled = true ∧ (∀ p ∈ fl, p.length = size) ∧ (∀ p ∈ s.queue, p.length = size) ∧ s.wait = fl.flatten ∧
    s.asked = seen ++ fl ++ s.queue ∧ s.got.Sublist seen

theorem good_write {s : Tcp} (h : Good s) {pass : Bool} {rs : List Int} (hw : Whole rs) : Good (s.write pass rs) := by
  obtain ⟨seen, fl, he, hf, hq, hwt, ha, hg⟩ := h
  unfold Tcp.write
  cases hqq : s.queue with
  | nil => exact ⟨seen, fl, he, hf, hq, hwt, ha, hg⟩
  | cons p q =>
    rw [hqq] at hq ha
    have hp : p.length = size := hq p (by simp)
    simp only []
    split
    · rcases send_whole hw with h0 | h0
      · rw [if_neg (by rw [h0]; decide), h0]
        refine ⟨seen, fl, he, hf, hq, by simp [hwt], by simp [hqq, ha], hg⟩
      · rw [if_pos h0, h0]
        refine ⟨seen, fl ++ [p], he, ?_, ?_, ?_, ?_, hg⟩
        · intro x hx; rcases List.mem_append.1 hx with hx | hx
          · exact hf x hx
          · simp at hx; rw [hx]; exact hp
        · exact fun x hx => hq x (by simp [hx])
        · simp [hwt, List.take_of_length_le (Nat.le_of_eq hp)]
        · simp [ha]
    · exact ⟨seen, fl, he, hf, by rw [hqq]; exact hq, hwt, by rw [hqq]; exact ha, hg⟩

theorem good_read {s : Tcp} (h : Good s) {pass : Bool} {rs : List Int} (hw : Whole rs) (h0 : ∀ r ∈ rs, r ≠ 0) : Good (s.read pass rs) := by
  obtain ⟨seen, fl, he, hf, hq, hwt, ha, hg⟩ := h
  unfold Tcp.read
  rw [if_pos he]
  cases fl with
  | nil =>
    simp at hwt
    rw [hwt, recvLoop_none rs [] h0 (Or.inr rfl)]
    exact ⟨seen, [], he, hf, hq, rfl, ha, hg⟩
  | cons p fl =>
    have hp : p.length = size := hf p (by simp)
    have hf' : ∀ x ∈ fl, x.length = size := fun x hx => hf x (by simp [hx])
    rcases hw with hw | hw
    · rw [recvLoop_none rs _ h0 (Or.inl hw)]
      exact ⟨seen, p :: fl, he, hf, hq, hwt, ha, hg⟩
    · rw [hwt, List.flatten_cons, recvLoop_full rs [] p fl.flatten h0 (by simpa using hp) (by decide) (by simpa using hw)]
      simp only [List.nil_append]
      rw [if_neg (by simp), if_pos hp]
      split
      · exact ⟨seen ++ [p], fl, he, hf', hq, rfl, by simp [ha], hg.append (List.Sublist.refl [p])⟩
      · exact ⟨seen ++ [p], fl, he, hf', hq, rfl, by simp [ha], hg.trans (List.sublist_append_left _ _)⟩

theorem good_run (l : List TcpStep) : ∀ s, Good s → Smooth l → Good (s.run l) := by
  induction l with
  | nil => intro s h _; exact h
  | cons x l ih =>
    intro s h hs
    cases x with
    | append p =>
      obtain ⟨seen, fl, he, hf, hq, hwt, ha, hg⟩ := h
      refine ih _ ⟨seen, fl, he, hf, ?_, hwt, ?_, hg⟩ hs.2
      · intro y hy
        simp only [Tcp.step] at hy
        rcases List.mem_append.1 hy with hy | hy
        · exact hq y hy
        · simp at hy; rw [hy]; exact hs.1
      · simp [Tcp.step, ha]
    | write pass rs => exact ih _ (good_write h hs.1) hs.2
    | read pass rs => exact ih _ (good_read h hs.1 hs.2.1) hs.2.2

/-- Without the limit everything seen is handed on: the lists have the same length. -/
theorem unlimited_run (l : List TcpStep) : ∀ s : Tcp, (∃ fl : List Packet, s.enabled = true ∧ (∀ p ∈ fl, p.length = size) ∧
    (∀ p ∈ s.queue, p.length = size) ∧ s.wait = fl.flatten ∧ s.asked = s.got ++ fl ++ s.queue) → Smooth l → Unlimited l →
    ∃ fl : List Packet, (s.run l).wait = fl.flatten ∧ (s.run l).asked = (s.run l).got ++ fl ++ (s.run l).queue := by
  induction l with
  | nil => intro s ⟨fl, _, _, _, h1, h2⟩ _ _; exact ⟨fl, h1, h2⟩
  | cons x l ih =>
    intro s ⟨fl, he, hf, hq, hwt, ha⟩ hs hu
    cases x with
    | append p =>
      refine ih _ ⟨fl, he, hf, ?_, hwt, by simp [Tcp.step, ha]⟩ hs.2 hu
      intro y hy
      simp only [Tcp.step] at hy
      rcases List.mem_append.1 hy with hy | hy
      · exact hq y hy
      · simp at hy; rw [hy]; exact hs.1
    | write pass rs =>
      refine ih _ ?_ hs.2 hu
      simp only [Tcp.step, Tcp.write]
      cases hqq : s.queue with
      | nil => exact ⟨fl, he, hf, hq, hwt, ha⟩
      | cons p q =>
        rw [hqq] at hq ha
        have hp : p.length = size := hq p (by simp)
        simp only []
        split
        · rcases send_whole hs.1 with h0 | h0
          · rw [if_neg (by rw [h0]; decide), h0]
            exact ⟨fl, he, hf, hq, by simp [hwt], by simp [hqq, ha]⟩
          · rw [if_pos h0, h0]
            refine ⟨fl ++ [p], he, ?_, fun x hx => hq x (by simp [hx]), by simp [hwt, List.take_of_length_le (Nat.le_of_eq hp)], by simp [ha]⟩
            intro x hx; rcases List.mem_append.1 hx with hx | hx
            · exact hf x hx
            · simp at hx; rw [hx]; exact hp
        · exact ⟨fl, he, hf, by rw [hqq]; exact hq, hwt, by rw [hqq]; exact ha⟩
    | read pass rs =>
      refine ih _ ?_ hs.2.2 hu.2
      have hpass : pass = true := hu.1
      subst hpass
      simp only [Tcp.step, Tcp.read]
      rw [if_pos he]
      cases fl with
      | nil =>
        simp at hwt
        rw [hwt, recvLoop_none rs [] hs.2.1 (Or.inr rfl)]
        exact ⟨[], he, hf, hq, rfl, ha⟩
      | cons p fl =>
        have hp : p.length = size := hf p (by simp)
        rcases hs.1 with hw | hw
        · rw [recvLoop_none rs _ hs.2.1 (Or.inl hw)]
          exact ⟨p :: fl, he, hf, hq, hwt, ha⟩
        · rw [hwt, List.flatten_cons, recvLoop_full rs [] p fl.flatten hs.2.1 (by simpa using hp) (by decide) (by simpa using hw)]
          simp only [List.nil_append]
          rw [if_neg (by simp), if_pos hp, if_pos trivial]
          exact ⟨fl, he, fun x hx => hf x (by simp [hx]), hq, rfl, by simp [ha]⟩

theorem asked_run (l : List TcpStep) : ∀ s : Tcp, (s.run l).asked = s.asked ++ packets l := by
  induction l with
  | nil => intro s; simp [Tcp.run, packets]
  | cons x l ih =>
    intro s
    have := ih (s.step x)
    simp only [Tcp.run, List.foldl_cons] at this ⊢
    rw [this]
    cases x with
    | append p => simp [Tcp.step, packets]
    | write pass rs =>
      simp only [Tcp.step, Tcp.write, packets]
      split
      · rfl
      · split
        · split <;> rfl
        · rfl
    | read pass rs =>
      simp only [Tcp.step, Tcp.read, packets]
      repeat (first | rfl | split)

/-! ## Without any assumption -/

theorem Spec.Cut.extend {ps : List Packet} {b : List Byte} (h : Cut ps b) (c : List Byte) : Cut ps (b ++ c) := by
  induction h with
  | done rest => exact .done _
  | packet gap p ps bytes hp _ ih => rw [List.append_assoc (gap ++ p)]; exact .packet gap p ps _ hp ih

theorem Spec.Cut.snoc {ps : List Packet} {b : List Byte} (h : Cut ps b) {p : Packet} (hp : p.length = size) : Cut (ps ++ [p]) (b ++ p) := by
  induction h with
  | done rest =>
    have := Cut.packet rest p [] [] hp (.done [])
    simpa using this
  | packet gap q ps bytes hq _ ih => rw [List.append_assoc (gap ++ q)]; exact .packet gap q _ _ hq ih

theorem cut_run (l : List TcpStep) : ∀ s : Tcp, (∃ past, s.sent = past ++ s.wait ∧ Cut s.got past) →
    ∃ past, (s.run l).sent = past ++ (s.run l).wait ∧ Cut (s.run l).got past := by
  induction l with
  | nil => intro s h; exact h
  | cons x l ih =>
    intro s ⟨past, h1, h2⟩
    refine ih (s.step x) ?_
    cases x with
    | append p => exact ⟨past, h1, h2⟩
    | write pass rs =>
      simp only [Tcp.step, Tcp.write]
      split
      · exact ⟨past, h1, h2⟩
      · split
        · split
          · exact ⟨past, by simp [h1], h2⟩
          · exact ⟨past, by simp [h1], h2⟩
        · exact ⟨past, h1, h2⟩
    | read pass rs =>
      simp only [Tcp.step, Tcp.read]
      split
      · obtain ⟨k, hk, hb, hw⟩ := recvLoop_split rs [] s.wait (by simp)
        have hs : s.sent = (past ++ s.wait.take k) ++ (recvLoop rs [] s.wait).2.1 := by
          rw [hw, List.append_assoc, List.take_append_drop, h1]
        have hb' : (recvLoop rs [] s.wait).1 = s.wait.take k := by simpa using hb
        split
        · exact ⟨past ++ s.wait.take k, hs, h2.extend _⟩
        split
        · rename_i hl
          split
          · exact ⟨past ++ s.wait.take k, hs, by rw [hb'] at hl ⊢; exact h2.snoc hl⟩
          · exact ⟨past ++ s.wait.take k, hs, h2.extend _⟩
        split
        · exact ⟨past ++ s.wait.take k, hs, h2.extend _⟩
        · exact ⟨past ++ s.wait.take k, hs, h2.extend _⟩
      · exact ⟨past, h1, h2⟩

/-- What has left the queue was written as a whole. -/
theorem left_run (l : List TcpStep) : ∀ s : Tcp, (∃ left, s.asked = left ++ s.queue ∧ Cut left s.sent) → (∀ p ∈ s.queue, p.length = size) →
    (∀ p ∈ packets l, p.length = size) → ∃ left, (s.run l).asked = left ++ (s.run l).queue ∧ Cut left (s.run l).sent := by
  induction l with
  | nil => intro s h _ _; exact h
  | cons x l ih =>
    intro s ⟨left, h1, h2⟩ hq hp
    cases x with
    | append p =>
      refine ih _ ⟨left, by simp [Tcp.step, h1], h2⟩ ?_ (fun y hy => hp y (by simp [packets, hy]))
      intro y hy
      simp only [Tcp.step] at hy
      rcases List.mem_append.1 hy with hy | hy
      · exact hq y hy
      · simp at hy; rw [hy]; exact hp p (by simp [packets])
    | write pass rs =>
      have hstep : (∃ left, (s.write pass rs).asked = left ++ (s.write pass rs).queue ∧ Cut left (s.write pass rs).sent) ∧
          ∀ p ∈ (s.write pass rs).queue, p.length = size := by
        unfold Tcp.write
        cases hqq : s.queue with
        | nil => rw [hqq] at h1; exact ⟨⟨left, by simp [hqq, h1], h2⟩, by simp [hqq]⟩
        | cons p q =>
          rw [hqq] at h1 hq
          have hpl : p.length = size := hq p (by simp)
          simp only []
          split
          · split
            · rename_i hn
              refine ⟨⟨left ++ [p], by simp [h1], ?_⟩, fun y hy => hq y (by simp [hy])⟩
              rw [hn, List.take_of_length_le (Nat.le_of_eq hpl)]
              exact h2.snoc hpl
            · exact ⟨⟨left, by simp [h1, hqq], h2.extend _⟩, by simpa [hqq] using hq⟩
          · exact ⟨⟨left, by simp [h1, hqq], h2⟩, by simpa [hqq] using hq⟩
      exact ih _ hstep.1 hstep.2 hp
    | read pass rs =>
      have hstep : (s.read pass rs).asked = s.asked ∧ (s.read pass rs).queue = s.queue ∧ (s.read pass rs).sent = s.sent := by
        simp only [Tcp.read]
        repeat (first | exact ⟨rfl, rfl, rfl⟩ | split)
      refine ih _ ⟨left, by simp only [Tcp.step]; rw [hstep.1, hstep.2.1]; exact h1, by simp only [Tcp.step]; rw [hstep.2.2]; exact h2⟩ ?_ hp
      simp only [Tcp.step]; rw [hstep.2.1]; exact hq

/-! ## UDP -/

theorem recvFrom_full {α : Type} (rs : List Bool) (a : α) (d : List Byte) (wait : List (α × List Byte)) (hd : size ≤ d.length) :
    recvFromLoop (true :: rs) [] none ((a, d) :: wait) = (d.take size, some a, wait, false) := by
  have hl : (d.take size).length = size := by rw [List.length_take]; omega
  simp only [recvFromLoop, List.length_nil, Nat.sub_zero, List.nil_append]
  rw [if_neg (by omega)]

theorem udp_run {α : Type} (l : List (UdpStep α)) : ∀ s : Udp α, s.enabled = true → (∀ x ∈ s.wait, size ≤ x.2.length) →
    (∀ x ∈ datagrams l, size ≤ x.2.length) → (s.run l).enabled = true ∧
    ∃ seen, (s.wait ++ datagrams l) = seen ++ (s.run l).wait ∧
      ∃ more, (s.run l).got = s.got ++ more ∧ more.Sublist (seen.map fun x => (x.1, x.2.take size)) ∧
        (UdpUnlimited l → more = seen.map fun x => (x.1, x.2.take size)) := by
  induction l with
  | nil => intro s he _ _; exact ⟨he, [], by simp [Udp.run, datagrams], [], by simp [Udp.run], by simp, by simp⟩
  | cons x l ih =>
    intro s he hw hd
    cases x with
    | arrive a d =>
      have := ih (s.step (.arrive a d)) he (by
        intro y hy
        simp only [Udp.step] at hy
        rcases List.mem_append.1 hy with hy | hy
        · exact hw y hy
        · simp at hy; rw [hy]; exact hd (a, d) (by simp [datagrams])) (fun y hy => hd y (by simp [datagrams, hy]))
      obtain ⟨h1, seen, h2, more, h3, h4, h5⟩ := this
      refine ⟨h1, seen, ?_, more, h3, h4, h5⟩
      have h2' : (s.wait ++ [(a, d)]) ++ datagrams l = seen ++ (s.run (.arrive a d :: l)).wait := h2
      rw [← h2']; simp [datagrams]
    | read pass rs =>
      have key : (s.read pass rs = s) ∨ ∃ a d w, s.wait = (a, d) :: w ∧
          s.read pass rs = { s with wait := w, got := if pass then s.got ++ [(a, d.take size)] else s.got } := by
        unfold Udp.read
        rw [if_pos he]
        cases rs with
        | nil => left; rfl
        | cons b rs =>
          cases b with
          | false => left; rfl
          | true =>
            cases hwt : s.wait with
            | nil =>
              left
              simp only [recvFromLoop, if_pos]
              cases s; simp_all
            | cons y w =>
              obtain ⟨a, d⟩ := y
              right
              have hdl : size ≤ d.length := hw (a, d) (by simp [hwt])
              refine ⟨a, d, w, rfl, ?_⟩
              rw [recvFrom_full rs a d w hdl]
              have hl : (d.take size).length = size := by rw [List.length_take]; omega
              simp only []
              rw [if_neg (by simp), if_pos hl]
              cases pass <;> simp
      rcases key with key | ⟨a, d, w, hwt, key⟩
      · have := ih s he hw (by simpa [datagrams] using hd)
        obtain ⟨h1, seen, h2, more, h3, h4, h5⟩ := this
        have hr : (s.run (.read pass rs :: l)) = s.run l := by
          simp only [Udp.run, List.foldl_cons, Udp.step]; rw [key]
        rw [hr]
        exact ⟨h1, seen, by simpa [datagrams] using h2, more, h3, h4, fun hu => h5 hu.2⟩
      · have hr : (s.run (.read pass rs :: l)) = (s.read pass rs).run l := rfl
        rw [hr, key]
        have := ih { s with wait := w, got := if pass then s.got ++ [(a, d.take size)] else s.got } he
          (fun y hy => hw y (by rw [hwt]; simp [hy])) (by simpa [datagrams] using hd)
        obtain ⟨h1, seen, h2, more, h3, h4, h5⟩ := this
        refine ⟨h1, (a, d) :: seen, ?_, ?_⟩
        · rw [hwt, List.cons_append, List.cons_append, ← h2]; rfl
        · cases pass with
          | true =>
            refine ⟨(a, d.take size) :: more, by rw [h3]; simp, by simpa using h4, ?_⟩
            intro hu; rw [h5 hu.2]; simp
          | false =>
            refine ⟨more, h3, ?_, ?_⟩
            · rw [List.map_cons]; exact h4.trans (List.sublist_cons_self _ _)
            · intro hu; exact absurd hu.1 (by simp)

/-- What the loop returns: the datagrams are taken from the front, and the buffer ends with a part of the last of them. -/
theorem recvFrom_last {α : Type} (rs : List Bool) : ∀ (buf : List Byte) (o : Option α) (wait : List (α × List Byte)), buf.length < size →
    (∀ x ∈ (recvFromLoop rs buf o wait).2.2.1, x ∈ wait) ∧
    ((recvFromLoop rs buf o wait).2.2.2 = false → (recvFromLoop rs buf o wait).1.length = size →
      ∃ a d front, (a, d) ∈ wait ∧ (recvFromLoop rs buf o wait).2.1 = some a ∧ ∃ k, 0 < k ∧ k ≤ d.length ∧
        (recvFromLoop rs buf o wait).1 = front ++ d.take k) := by
  induction rs with
  | nil => intro buf o wait _; exact ⟨fun x hx => hx, fun h => by simp [recvFromLoop] at h⟩
  | cons r rs ih =>
    intro buf o wait hb
    cases r with
    | false => exact ⟨fun x hx => hx, fun h => by simp [recvFromLoop] at h⟩
    | true =>
      cases wait with
      | nil => exact ⟨fun x hx => hx, fun h => by simp [recvFromLoop] at h⟩
      | cons y wait =>
        obtain ⟨a, d⟩ := y
        simp only [recvFromLoop]
        split
        · rename_i hc
          obtain ⟨h1, h2⟩ := ih (buf ++ d.take (size - buf.length)) (some a) wait hc.2
          refine ⟨fun x hx => List.mem_cons_of_mem _ (h1 x hx), fun hs hl => ?_⟩
          obtain ⟨a', d', f, hm, ha, hk⟩ := h2 hs hl
          exact ⟨a', d', f, List.mem_cons_of_mem _ hm, ha, hk⟩
        · refine ⟨fun x hx => List.mem_cons_of_mem _ hx, fun _ hl => ?_⟩
          refine ⟨a, d, buf, List.mem_cons_self, rfl, min (size - buf.length) d.length, ?_, by omega, ?_⟩
          · rw [List.length_append, List.length_take] at hl; omega
          · rw [← List.take_take, List.take_of_length_le (Nat.le_refl d.length)]

theorem udp_origin {α : Type} (all : List (α × List Byte)) (l : List (UdpStep α)) : ∀ s : Udp α, (∀ x ∈ s.wait, x ∈ all) →
    (∀ x ∈ datagrams l, x ∈ all) →
    (∀ x ∈ s.got, x.2.length = size ∧ ∃ d front k, (x.1, d) ∈ all ∧ 0 < k ∧ k ≤ d.length ∧ x.2 = front ++ d.take k) →
    ∀ x ∈ (s.run l).got, x.2.length = size ∧ ∃ d front k, (x.1, d) ∈ all ∧ 0 < k ∧ k ≤ d.length ∧ x.2 = front ++ d.take k := by
  induction l with
  | nil => intro s _ _ h; exact h
  | cons st l ih =>
    intro s hw hd hg
    cases st with
    | arrive a d =>
      refine ih (s.step (.arrive a d)) ?_ (fun x hx => hd x (by simp [datagrams, hx])) hg
      intro x hx
      simp only [Udp.step] at hx
      rcases List.mem_append.1 hx with hx | hx
      · exact hw x hx
      · simp at hx; exact hd x (by simp [datagrams, hx])
    | read pass rs =>
      refine ih (s.step (.read pass rs)) ?_ (fun x hx => hd x (by simpa [datagrams] using hx)) ?_
      · intro x hx
        simp only [Udp.step, Udp.read] at hx
        have hl := (recvFrom_last rs [] (none : Option α) s.wait (by decide)).1
        split at hx
        · split at hx
          · exact hw x (hl x hx)
          split at hx
          · split at hx
            · split at hx
              · exact hw x (hl x hx)
              · exact hw x (hl x hx)
            · exact hw x (hl x hx)
          split at hx
          · exact hw x (hl x hx)
          · exact hw x (hl x hx)
        · exact hw x hx
      · intro x hx
        simp only [Udp.step, Udp.read] at hx
        have hl := (recvFrom_last rs [] (none : Option α) s.wait (by decide)).2
        split at hx
        · split at hx
          · exact hg x hx
          rename_i hstop
          split at hx
          · rename_i hlen
            split at hx
            · rename_i a ha
              split at hx
              · rcases List.mem_append.1 hx with hx | hx
                · exact hg x hx
                · simp at hx
                  subst hx
                  obtain ⟨a', d, front, hm, ha', k, hk, hkd, hb⟩ := hl (by simpa using hstop) hlen
                  rw [ha] at ha'
                  cases ha'
                  exact ⟨hlen, d, front, k, hw _ hm, hk, hkd, hb⟩
              · exact hg x hx
            · exact hg x hx
          split at hx
          · exact hg x hx
          · exact hg x hx
        · exact hg x hx

end Np.Wire

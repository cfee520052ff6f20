import Verif.Log.Lemmas

set_option linter.unusedVariables false

/-!
# Theorems about the log
-/
namespace Np.Log
open _root_.Np.Log.Spec

/-- C148 (partial): the messages logged are the wanted ones, for every selection that fits in the 32 bits of the setting.  Missing:
`LOG_GLOBAL`, see the refutation. -/
theorem C148_wanted_messages_partial (sel level : Level) (h : ∀ k, 32 ≤ k → sel.getLsbD k = false) :
    accepts (select sel) level = true ↔ Wanted sel level :=
  accepts_iff sel level h

/-- C148, refuted: `LOG_GLOBAL` does not fit in the setting, so selecting it has no effect: a debug message about routing is not logged. -/
theorem C148_global_refuted :
    Wanted (debug ||| global) (debug ||| routing) ∧ accepts (select (debug ||| global)) (debug ||| routing) = false ∧
      select (debug ||| global) = select debug := by
  refine ⟨Or.inr (Or.inr ⟨⟨3, by decide⟩, by decide, Or.inr (Or.inr (by decide))⟩), by decide, by decide⟩

/-- C148: errors and warnings are logged whatever is selected. -/
theorem C148_errors_always (s : Selection) (level : Level) (h : level.getLsbD 0 = true ∨ level.getLsbD 1 = true) : accepts s level = true := by
  unfold accepts
  simp only [Bool.or_eq_true]
  rcases h with h | h
  · exact Or.inl (Or.inr ((flag_iff error 0 bit_error level).mpr h))
  · exact Or.inr ((flag_iff warning 1 bit_warning level).mpr h)

example : (∀ k, 32 ≤ k → (debug ||| network).getLsbD k = false) ∧ accepts (select (debug ||| network)) (debug ||| network) = true ∧
    accepts (select (debug ||| network)) (debug ||| routing) = false := by
  refine ⟨fun k hk => ?_, by decide, by decide⟩
  by_cases h : k < 64
  · have : ∀ j : Fin 64, 32 ≤ j.1 → (debug ||| network).getLsbD j.1 = false := by decide
    exact this ⟨k, h⟩ hk
  · exact BitVec.getLsbD_of_ge _ _ (by omega)

/-- C149 (partial): if each call of `write` fails or writes all it is given, then what was written so far, followed by what still waits, is
the lines of all accepted messages in their order: nothing is lost, doubled or reordered, whatever calls failed.  Missing: calls that write a
part and then fail, and several threads; see the refutations. -/
theorem C149_written_in_order_partial (level : Level) (enabled : Bool) (files : Nat → List Char) (n : Nat) (os : List Op)
    (hw : ∀ o ∈ os, Whole n (answers o)) (hn : ∀ x ∈ lines (select level) os, x.length ≤ n) (l : Logger)
    (h : (Logger.init level false enabled files).run os = .ok l) :
    l.all ++ (l.queue.map Entry.text).flatten = (lines (select level) os).flatten := by
  have := run_order n os (Logger.init level false enabled files) rfl (by intro e he; simp [Logger.init] at he) hw hn l h
  simpa [pending, Logger.init] using this

/-- C149: whatever several threads do, and however often a thread fails to write and puts an entry back, each entry is written, held by a
thread or waiting exactly as often as it was logged. -/
theorem C149_nothing_lost_or_doubled {α : Type} [DecidableEq α] (ms : List (Move α)) (e : α) :
    let s := (Shared.mk [] [] [] : Shared α).run ms
    times e s.out + times e (s.held.map Prod.snd) + times e s.queue = times e (logged ms) := by
  have := shared_run ms e (Shared.mk [] [] [])
  simpa [times] using this

/-- C149, refuted: two threads that write at the same time can exchange two lines. -/
theorem C149_two_threads_refuted :
    ((Shared.mk [] [] [] : Shared Nat).run [.log 1, .log 2, .take 0, .take 1, .write 1, .write 0]).out = [2, 1] := by
  decide

/-- C149, refuted: if the operating system takes a part of a line and then refuses, the line is written again from its beginning. -/
theorem C149_torn_write_refuted :
    ∃ l, (Logger.init error false true fun _ => []).run [.message error [] ['a', 'b'] [2, -1, 4]] = .ok l ∧
      l.all = [' ', 'a', ' ', 'a', 'b', '\n'] :=
  ⟨_, rfl, rfl⟩

example : (∀ o ∈ [Op.message error [] ['a'] [-1, 100], .flush true []], Whole 100 (answers o)) ∧
    (∀ x ∈ lines (select error) [Op.message error [] ['a'] [-1, 100], .flush true []], x.length ≤ 100) ∧
    ∃ l, (Logger.init error false true fun _ => []).run [Op.message error [] ['a'] [-1, 100], .flush true []] = .ok l := by
  refine ⟨?_, by decide, _, rfl⟩
  intro o ho
  simp only [List.mem_cons, List.not_mem_nil, or_false] at ho
  rcases ho with ho | ho <;> subst ho <;> intro a ha <;> simp [answers] at ha
  rcases ha with ha | ha <;> subst ha <;> simp

/-- C150 (partial): if at most 31 entries wait and the calls of `write` succeed, an error message is in the log file, after all that waited,
when the call returns.  Missing: longer lists, see the refutation. -/
theorem C150_errors_are_written_at_once_partial (l : Logger) (hc : l.callback = false) (level : Level) (pre body : List Char)
    (he : level.getLsbD 0 = true) (hb : body ≠ []) (hl : levels level ≤ 3) (n : Nat) (ans : List Int) (hq : l.queue.length ≤ 31)
    (hans : l.queue.length + 1 ≤ ans.length) (ha : ∀ a ∈ ans, (n : Int) ≤ a) (hg : ∀ e ∈ l.queue, e.text.length ≤ n ∧ e.text ≠ [])
    (hn : (line pre body).length ≤ n) :
    ∃ p, l.message level pre body ans = .ok p ∧ p.1.queue = [] ∧
      p.1.files l.cur = l.files l.cur ++ (l.queue.map Entry.text).flatten ++ line pre body := by
  unfold Logger.message
  rw [if_pos (C148_errors_always l.level level (Or.inl he))]
  have hnew : newEntry l.callback level pre body = .ok { string := some (line pre body), length := (line pre body).length } := by
    rw [hc]; exact newEntry_file level pre body hb hl
  rw [hnew]
  simp only []
  rw [if_pos ((flag_iff error 0 bit_error level).mpr he)]
  unfold Logger.flush
  rw [if_pos (Or.inl rfl)]
  obtain ⟨p, h1, h2, h3, h4⟩ := flushLoop_all n (flushAfter + 1)
    { l with queue := l.queue ++ [{ string := some (line pre body), length := (line pre body).length }] } ans hc
    (by simp [flushAfter]; omega) (by simpa using hans) ha (by
      intro e hm
      simp only [List.mem_append, List.mem_singleton] at hm
      rcases hm with hm | hm
      · exact hg e hm
      · rw [hm]; exact ⟨hn, by simp [Entry.text, line]⟩)
  refine ⟨p, h1, h2, ?_⟩
  have : p.1.files l.cur = _ := h4
  rw [this]
  simp [pending, Entry.text]

/-- C150, refuted: with 32 entries waiting the call writes these and leaves the error message in the list. -/
theorem C150_backlog_refuted :
    let e : Entry := { string := some ['w', '\n'], length := 2 }
    let l : Logger := { Logger.init error false true (fun _ => []) with queue := List.replicate 32 e }
    ∃ p, l.message error [] ['x'] (List.replicate 40 10) = .ok p ∧ p.1.queue.map Entry.text = [line [] ['x']] ∧ p.1.all.length = 64 :=
  ⟨_, rfl, rfl, rfl⟩

/-- C150 (partial): if at most 32 entries wait and the calls of `write` succeed, ending the process in order writes all of them.  Missing:
longer lists, see the refutation. -/
theorem C150_shutdown_writes_all_partial (l : Logger) (hc : l.callback = false) (n : Nat) (ans : List Int) (hq : l.queue.length ≤ 32)
    (hans : l.queue.length ≤ ans.length) (ha : ∀ a ∈ ans, (n : Int) ≤ a) (hg : ∀ e ∈ l.queue, e.text.length ≤ n ∧ e.text ≠ []) :
    ∃ p, l.destroy ans = .ok p ∧ p.1.files l.cur = l.files l.cur ++ (l.queue.map Entry.text).flatten := by
  obtain ⟨p, h1, h2, h3, h4⟩ := flushLoop_all n (flushAfter + 1) l ans hc (by simpa [flushAfter] using hq) hans ha hg
  unfold Logger.destroy Logger.flush
  rw [if_pos (Or.inl rfl), h1]
  exact ⟨_, rfl, h4⟩

/-- C150, refuted: of 40 waiting entries 8 are lost when the process ends. -/
theorem C150_shutdown_loses_refuted :
    let e : Entry := { string := some ['w', '\n'], length := 2 }
    let l : Logger := { Logger.init error false true (fun _ => []) with queue := List.replicate 40 e }
    ∃ p, l.destroy (List.replicate 100 10) = .ok p ∧ p.1.all.length = 64 ∧ p.1.queue = [] :=
  ⟨_, rfl, rfl, rfl⟩

example : let e : Entry := { string := some ['w', '\n'], length := 2 }
    let l : Logger := { Logger.init error false true (fun _ => []) with queue := List.replicate 20 e }
    l.callback = false ∧ l.queue.length ≤ 31 ∧ l.queue.length + 1 ≤ (List.replicate 40 (10 : Int)).length ∧
      (∀ a ∈ List.replicate 40 (10 : Int), (10 : Int) ≤ a) ∧ (∀ e ∈ l.queue, e.text.length ≤ 10 ∧ e.text ≠ []) := by
  refine ⟨rfl, by decide, by decide, by decide, by decide⟩

/-- C151 (partial): while log files rotate, the three files, the oldest first, hold the end of all that was written: the newest lines are kept
without a gap.  Missing: builds in which log files do not rotate, see the refutation; and a history of 2³² steps. -/
theorem C151_newest_lines_are_kept_partial (level : Level) (os : List Op) (hl : os.length < 2 ^ 32 - 1) (l : Logger)
    (h : (Logger.init level false true fun _ => []).run os = .ok l) :
    ∃ before, l.all = before ++ l.files ((l.cur + 1) % 3) ++ l.files ((l.cur + 2) % 3) ++ l.files l.cur := by
  have ht : Tail (Logger.init level false true fun _ => []) := by
    refine ⟨rfl, by simp [Logger.init], by simp [Logger.init], [], ?_⟩
    simp [Logger.init]
  exact (run_tail os _ rfl ht (by simp only [Logger.init]; omega) l h).2.2.2

/-- C151: a rotation empties only the oldest file and goes on with it; the other two are as before. -/
theorem C151_rotation_keeps_two_files (l l' : Logger) (hr : l.rotating = true) (h : l.rotate true = .ok l') (i : Nat) (hi : i ≠ l.count % 3) :
    l'.files i = l.files i ∧ l'.cur = l.count % 3 := by
  simp only [Logger.rotate, if_true, hr] at h
  injection h with h
  subst h
  exact ⟨if_neg hi, rfl⟩

/-- C151, refuted: where log files do not rotate (debug builds), the log is emptied each time it has grown to ten million bytes. -/
theorem C151_without_rotation_refuted :
    let l : Logger := { Logger.init error false false (fun _ => []) with size := 10000000, files := fun _ => ['o', 'l', 'd'], all := ['o', 'l', 'd'] }
    ∃ p, l.tick true [] = .ok p ∧ p.1.files p.1.cur = [] ∧ p.1.files 0 = [] :=
  ⟨_, rfl, rfl, rfl⟩

/-- C151, refuted: a start of the node empties the first log file of an earlier run. -/
theorem C151_restart_refuted : (Logger.init error false true fun _ => ['o', 'l', 'd']).files 0 = [] := rfl

example : ∃ l, (Logger.init error false true fun _ => []).run [.message error [] ['a'] [50], .tick true []] = .ok l ∧ l.files l.cur = [' ', 'a', '\n'] :=
  ⟨_, rfl, rfl⟩

/-- C152, refuted: "the function of the application gets each message".  If the application has set a function for log messages, then after
any message that is logged the next flush passes a pointer that was never set, to the function and to `free`. -/
theorem C152_callback_refuted (level sel : Level) (pre body : List Char) (hb : body ≠ []) (hl : levels level ≤ 3)
    (ha : accepts (select sel) level = true) (enabled : Bool) (files : Nat → List Char) (ans ans' : List Int) :
    (Logger.init sel true enabled files).run [.message level pre body ans, .flush true ans'] = .error .wildPointer := by
  have hnew : newEntry true level pre body = .ok { string := none, length := body.length } := by
    unfold newEntry
    rw [if_neg (levelText_some level hl), if_neg hb, if_pos rfl]
  have ha' : accepts (Logger.init sel true enabled files).level level = true := ha
  have hc : (Logger.init sel true enabled files).callback = true := rfl
  have hf : ∀ as, ({ Logger.init sel true enabled files with queue := [] ++ [{ string := none, length := body.length }] } : Logger).flush true as =
      .error .wildPointer := by
    intro as
    unfold Logger.flush
    rw [if_pos (Or.inl rfl)]
    unfold flushLoop
    rfl
  simp only [Logger.run, Logger.step, Logger.message, if_pos ha', hc, hnew]
  by_cases he : ((level &&& error) == error) = true
  · rw [if_pos he]
    have := hf ans
    simp only [Logger.init] at this ⊢
    rw [this]
  · rw [if_neg he]
    have := hf ans'
    simp only [Logger.init] at this ⊢
    rw [this]

/-- C152 (partial): the entry for the function has the length of the message.  Missing: its text. -/
theorem C152_length_partial (level : Level) (pre body : List Char) (hb : body ≠ []) (hl : levels level ≤ 3) :
    ∃ e, newEntry true level pre body = .ok e ∧ e.length = body.length := by
  refine ⟨{ string := none, length := body.length }, ?_, rfl⟩
  unfold newEntry
  rw [if_neg (levelText_some level hl), if_neg hb, if_pos rfl]

example : ['h', 'i'] ≠ [] ∧ levels error ≤ 3 ∧ accepts (select error) error = true := by decide

/-- C153 (partial): for a name whose extension (from its last dot) has at most 14 characters and which has no slash after that dot, the log
file is in the same place with the number of the file before the extension; without rotation it has the name given. -/
theorem C153_file_name_partial (stem ext : List Char) (he : '.' ∉ ext) (hs : '/' ∉ ext) (hlen : ext.length ≤ 13) (id : Nat) :
    fileName (stem ++ '.' :: ext) true id = some (stem ++ ('_' :: '0' :: Nat.toDigits 10 id) ++ '.' :: ext) ∧
      fileName (stem ++ '.' :: ext) false id = some (stem ++ '.' :: ext) := by
  have hsp : splitLast (stem ++ '.' :: ext) = some (stem, '.' :: ext) := by
    have hnone : ∀ l : List Char, '.' ∉ l → splitLast l = none := by
      intro l
      induction l with
      | nil => intro _; rfl
      | cons c r ih =>
        intro h
        simp only [List.mem_cons, not_or] at h
        unfold splitLast
        rw [ih h.2]
        simp only []
        rw [if_neg (fun hc => h.1 hc.symm)]
    induction stem with
    | nil =>
      simp only [List.nil_append]
      unfold splitLast
      rw [hnone ext he]
      simp
    | cons c r ih =>
      simp only [List.cons_append]
      unfold splitLast
      rw [ih]
  have ht : ('.' :: ext).take 14 = '.' :: ext := List.take_of_length_le (by simp; omega)
  unfold fileName
  rw [hsp]
  simp only [ht, if_true, Bool.false_eq_true, if_false, List.append_nil]
  exact ⟨trivial, trivial⟩

/-- C153: the three files have different names. -/
theorem C153_names_differ (name : List Char) (i j : Nat) (hi : i < 3) (hj : j < 3) (hij : i ≠ j) (a b : List Char)
    (ha : fileName name true i = some a) (hb : fileName name true j = some b) : a ≠ b := by
  unfold fileName at ha hb
  cases hsp : splitLast name with
  | none => rw [hsp] at ha; simp at ha
  | some p =>
    rw [hsp] at ha hb
    simp only [if_true, Option.some.injEq] at ha hb
    intro hc
    rw [← ha, ← hb, List.append_assoc, List.append_assoc] at hc
    have hc := List.append_cancel_left hc
    simp only [List.cons_append, List.cons.injEq, true_and] at hc
    have hc := List.append_cancel_right hc
    revert hc hij
    have : ∀ i j : Fin 3, i.1 ≠ j.1 → Nat.toDigits 10 i.1 ≠ Nat.toDigits 10 j.1 := by decide +kernel
    intro hij hc
    exact this ⟨i, hi⟩ ⟨j, hj⟩ hij hc

/-- C153, refuted: a name without a dot makes the code compute with the null pointer; a dot in the name of a directory makes it write to
another directory; a long extension is cut. -/
theorem C153_names_refuted :
    fileName ['n', 'o', 'd', 'e'] true 0 = none ∧
      fileName "/var/np.d/log".toList true 0 = some "/var/np_00.d/log".toList ∧
      fileName "a.neuropil_logfile".toList false 0 = some "a.neuropil_logf".toList := by
  decide +kernel

example : '.' ∉ ['l', 'o', 'g'] ∧ '/' ∉ ['l', 'o', 'g'] ∧ (['l', 'o', 'g'] : List Char).length ≤ 13 := by decide

/-- C154 (partial): without a function of the application, logging never ends the process, whatever `write` answers, if each message has a text
and at most three levels and the files can be opened.  Missing: see the refutations. -/
theorem C154_logging_is_harmless_partial (level : Level) (enabled : Bool) (files : Nat → List Char) (os : List Op) (h : ∀ o ∈ os, Careful o) :
    ∃ l, (Logger.init level false enabled files).run os = .ok l :=
  run_ok os _ rfl h

/-- C154, refuted: an empty message ends the process; a message with four levels writes over the end of its buffer; a log file that cannot be
opened at a rotation leaves the node with a freed logger. -/
theorem C154_faults_refuted :
    (Logger.init error false true fun _ => []).run [.message error [] [] []] = .error .emptyMessage ∧
      (Logger.init error false true fun _ => []).run [.message (error ||| warning ||| info ||| debug) [] ['x'] []] = .error .levelOverflow ∧
      ({ Logger.init error false true (fun _ => []) with size := 10000000 } : Logger).run [.tick false []] = .error .freedLogger :=
  ⟨rfl, rfl, rfl⟩

example : ∀ o ∈ [Op.message (error ||| network) [] ['x'] [-1], .tick true [], .flush true [3]], Careful o := by
  intro o ho
  simp only [List.mem_cons, List.not_mem_nil, or_false] at ho
  rcases ho with ho | ho | ho <;> subst ho
  · exact ⟨by decide, by decide⟩
  · rfl
  · trivial

end Np.Log
